/-
Bounds on the `int` expressions of the K-first path (`Verif.Model.IntRange`).
-/
import Verif.Model.IntRange
import Verif.Proofs.SchedK

namespace Cake
open List

namespace E

@[simp] theorem val_lit (n : Nat) : (lit n).val = n := rfl
@[simp] theorem val_one : (1 : E).val = 1 := rfl
@[simp] theorem val_add (a b : E) : (a + b).val = a.val + b.val := rfl
@[simp] theorem val_sub (a b : E) : (a - b).val = a.val - b.val := rfl
@[simp] theorem val_mul (a b : E) : (a * b).val = a.val * b.val := rfl
@[simp] theorem val_div (a b : E) : (a / b).val = a.val / b.val := rfl
@[simp] theorem val_mod (a b : E) : (a % b).val = a.val % b.val := rfl

theorem fits_lit {n : Nat} (h : n < 2 ^ 31) : (lit n).Fits := h

theorem Fits.lt {e : E} (h : e.Fits) : e.val < 2 ^ 31 := by
  induction e with
  | lit n => exact h
  | add a b => exact h.2.2
  | sub a b iha _ => exact Nat.lt_of_le_of_lt (Nat.sub_le _ _) (iha h.1)
  | mul a b => exact h.2.2
  | div a b iha _ => exact Nat.lt_of_le_of_lt (Nat.div_le_self _ _) (iha h.1)
  | mod a b iha _ => exact Nat.lt_of_le_of_lt (Nat.mod_le _ _) (iha h.1)

/-- An expression all of whose subexpressions fit as soon as its value does. -/
def Good (e : E) : Prop := e.val < 2 ^ 31 → e.Fits

theorem Good.lit (n : Nat) : Good (E.lit n) := fun h => h
theorem Good.one : Good (1 : E) := fun _ => (by decide : (1 : Nat) < 2 ^ 31)
theorem Good.of {e : E} (h : e.Fits) : Good e := fun _ => h
theorem Good.add {a b : E} (ha : Good a) (hb : Good b) : Good (a + b) := by
  intro h
  rw [val_add] at h
  exact ⟨ha (by omega), hb (by omega), h⟩
theorem Good.mul {a b : E} (ha : Good a) (hb : b.Fits) (h0 : 0 < b.val) : Good (a * b) := by
  intro h
  rw [val_mul] at h
  exact ⟨ha (Nat.lt_of_le_of_lt (Nat.le_mul_of_pos_right _ h0) h), hb, h⟩
theorem Good.mulL {a : E} {n : Nat} (ha : Good a) (hn : n < 2 ^ 31) (h0 : 0 < n) :
    Good (a * E.lit n) := ha.mul hn h0
theorem Good.sub {a b : E} (ha : a.Fits) (hb : b.Fits) (h : b.val ≤ a.val) : Good (a - b) :=
  fun _ => ⟨ha, hb, h⟩
theorem fits_div {a b : E} (ha : a.Fits) (hb : b.Fits) (h : 0 < b.val) : (a / b).Fits :=
  ⟨ha, hb, by omega⟩
theorem fits_mod {a b : E} (ha : a.Fits) (hb : b.Fits) (h : 0 < b.val) : (a % b).Fits :=
  ⟨ha, hb, by omega⟩

end E

/-- Every expression of the list fits. -/
def AllFits (l : List E) : Prop := ∀ e ∈ l, e.Fits

theorem AllFits.nil : AllFits [] := fun _ h => absurd h (by simp)
theorem AllFits.cons {e : E} {l : List E} (h1 : e.Fits) (h2 : AllFits l) : AllFits (e :: l) := by
  intro x hx
  rcases List.mem_cons.1 hx with rfl | h
  · exact h1
  · exact h2 x h
theorem AllFits.append {l l' : List E} (h1 : AllFits l) (h2 : AllFits l') : AllFits (l ++ l') := by
  intro x hx
  rcases List.mem_append.1 hx with h | h
  · exact h1 x h
  · exact h2 x h
theorem AllFits.flatMap {β : Type _} {xs : List β} {f : β → List E} (h : ∀ b ∈ xs, AllFits (f b)) :
    AllFits (xs.flatMap f) := by
  intro x hx
  obtain ⟨b, hb, hx⟩ := List.mem_flatMap.1 hx
  exact h b hb x hx

theorem loopS_fits {body : Nat → Nat → List E × Nat} (st : Nat → Nat) {n s : Nat} (hs : s = st 0)
    (h : ∀ i, i < n → (body i (st i)).2 = st (i + 1) ∧ AllFits (body i (st i)).1) :
    AllFits (loopS (range n) body s).1 ∧ (loopS (range n) body s).2 = st n := by
  subst hs
  rw [loopS_range_st _ st _ (fun i hi => (h i hi).1)]
  refine ⟨AllFits.flatMap fun i hi => ?_, rfl⟩
  exact (h i (List.mem_range.1 hi)).2

/-- `pack_ob_A_single_buf` on the rows `R .. R + m_c` of a matrix with `M` rows: `R + m_c` and the
packed block and the source index must fit. -/
theorem obAInts_fits {M K m1 m2 m_c k_c m_r : Nat} (hm : 0 < m_r) (hd : m_r ∣ m_c)
    (hrow : m1 + m2 + m_c < 2 ^ 31) (hK : K < 2 ^ 31) (hk : k_c ≤ K)
    (hblk : m_c * k_c < 2 ^ 31) (hMK : M * K < 2 ^ 31) :
    AllFits (obAInts M K m1 m2 m_c k_c m_r) := by
  obtain ⟨q, rfl⟩ := hd
  rw [Nat.mul_comm m_r q] at *
  unfold obAInts
  rw [loop3_eq _ _ _ _ _ hm]
  refine AllFits.flatMap fun t ht => AllFits.flatMap fun i hi => AllFits.flatMap fun j hj => ?_
  rw [mem_range] at ht hi hj
  have h1 : t * m_r + m_r ≤ q * m_r := by
    have := Nat.mul_le_mul_right m_r (Nat.succ_le_of_lt ht)
    rwa [Nat.succ_mul] at this
  have hind : t * (k_c * m_r) + (i * m_r + j) < q * m_r * k_c := by
    calc _ < q * (k_c * m_r) := mulAdd_lt ht (mulAdd_lt hi hj)
      _ = _ := by ring
  refine AllFits.append ?_ ?_
  · refine .cons (((E.Good.lit _).add (.lit _)).add (.lit _) |>.add (.lit _) <| ?_) <|
      .cons ((E.Good.lit _).add (.lit _) ?_) <| .cons ((E.Good.lit _).add .one ?_) <|
      .cons ((E.Good.lit _).add .one ?_) <| .cons ((E.Good.lit _).add .one ?_) .nil <;>
      simp only [E.val_add, E.val_lit, E.val_one] <;> omega
  · split
    · exact .nil
    · rename_i hlt
      have hK0 : 0 < K := by omega
      have hb : t * m_r * K + i + j * K < M * K := by
        have h3 : (t * m_r + j + 1) * K ≤ M * K := Nat.mul_le_mul_right _ (by omega)
        have e : (t * m_r + j + 1) * K = t * m_r * K + j * K + K := by ring
        omega
      refine .cons ((((E.Good.lit _).mulL hK hK0).add (.lit _)).add ((E.Good.lit _).mulL hK hK0) ?_) .nil
      simp only [E.val_add, E.val_mul, E.val_lit]; omega

/-- `unpack_ob_C_single_buf`. -/
theorem unpackInts_fits {M N m1 n1 m2 m_c n_c m_r n_r : Nat} (hm : 0 < m_r) (hn : 0 < n_r)
    (hdm : m_r ∣ m_c) (hdn : n_r ∣ n_c) (hrow : m1 + m2 + m_c < 2 ^ 31) (hcol : n1 + n_c < 2 ^ 31)
    (hN : N < 2 ^ 31) (hblk : m_c * n_c < 2 ^ 31) (hMN : M * N < 2 ^ 31) :
    AllFits (unpackInts M N m1 n1 m2 m_c n_c m_r n_r) := by
  obtain ⟨q, rfl⟩ := hdm
  obtain ⟨q', rfl⟩ := hdn
  rw [Nat.mul_comm m_r q, Nat.mul_comm n_r q'] at *
  unfold unpackInts
  rw [loop4_eq _ _ _ _ _ _ _ hn hm]
  refine AllFits.flatMap fun t ht => AllFits.flatMap fun u hu => AllFits.flatMap fun i hi =>
    AllFits.flatMap fun j hj => ?_
  rw [mem_range] at ht hu hi hj
  have h1 : t * n_r + n_r ≤ q' * n_r := by
    have := Nat.mul_le_mul_right n_r (Nat.succ_le_of_lt ht)
    rwa [Nat.succ_mul] at this
  have h2 : u * m_r + m_r ≤ q * m_r := by
    have := Nat.mul_le_mul_right m_r (Nat.succ_le_of_lt hu)
    rwa [Nat.succ_mul] at this
  have hind : t * (q * (m_r * n_r)) + (u * (m_r * n_r) + (i * n_r + j)) < q * m_r * (q' * n_r) := by
    calc _ < q' * (q * (m_r * n_r)) := mulAdd_lt ht (mulAdd_lt hu (mulAdd_lt hi hj))
      _ = _ := by ring
  refine AllFits.append ?_ ?_
  · refine .cons ((E.Good.lit _).add (.lit _) ?_) <| .cons ((E.Good.lit _).add (.lit _) ?_) <|
      .cons ((E.Good.lit _).add .one ?_) <| .cons ((E.Good.lit _).add .one ?_) <|
      .cons ((E.Good.lit _).add .one ?_) <| .cons (((E.Good.lit _).add (.lit _)).add (.lit _) ?_) <|
      .cons ((((E.Good.lit _).add (.lit _)).add (.lit _)).add (.lit _) ?_) .nil <;>
      simp only [E.val_add, E.val_lit, E.val_one] <;> omega
  · split
    · rename_i hlt
      have hN0 : 0 < N := by omega
      have hb : t * n_r + u * m_r * N + i * N + j < M * N := by
        have h3 : (u * m_r + i + 1) * N ≤ M * N := Nat.mul_le_mul_right _ (by omega)
        have e : (u * m_r + i + 1) * N = u * m_r * N + i * N + N := by ring
        omega
      refine .cons (((E.Good.add (.lit _) ((E.Good.lit _).mulL hN hN0)).add
        ((E.Good.lit _).mulL hN hN0)).add (.lit _) ?_) .nil
      simp only [E.val_add, E.val_mul, E.val_lit]; omega
    · exact .nil

/-- The dimensions that must be representable: the padded ones, those of the tiles, and two products of tile
sizes. -/
structure IntDims (M N K p m_r n_r m_c k_c n_c : Nat) : Prop where
  Mp : padTo M (p * m_c) m_r < 2 ^ 31
  Np : padTo N n_c n_r < 2 ^ 31
  Ki : K < 2 ^ 31
  kc : k_c < 2 ^ 31
  pm : p * m_c < 2 ^ 31
  mn : m_c * n_c < 2 ^ 31

/-- With the three padded operand sizes. -/
structure Int32OK (M N K p m_r n_r m_c k_c n_c : Nat) : Prop extends IntDims M N K p m_r n_r m_c k_c n_c where
  MK : padTo M (p * m_c) m_r * K < 2 ^ 31
  KN : K * padTo N n_c n_r < 2 ^ 31
  MN : padTo M (p * m_c) m_r * padTo N n_c n_r < 2 ^ 31

section
variable {M N K p m_r n_r m_c k_c n_c : Nat} (h : TileOK p m_r n_r m_c k_c n_c)
  (z : IntDims M N K p m_r n_r m_c k_c n_c)
include h z

theorem i_M : M < 2 ^ 31 := Nat.lt_of_le_of_lt (padTo_ge M (p * m_c) m_r h.m_r_pos) z.Mp
theorem i_N : N < 2 ^ 31 := Nat.lt_of_le_of_lt (padTo_ge N n_c n_r h.n_r_pos) z.Np
theorem i_mc : m_c < 2 ^ 31 :=
  Nat.lt_of_le_of_lt (Nat.le_mul_of_pos_left _ h.p_pos) z.pm
theorem i_p : p < 2 ^ 31 := Nat.lt_of_le_of_lt (Nat.le_mul_of_pos_right _ h.m_c_pos) z.pm
theorem i_nc : n_c < 2 ^ 31 := Nat.lt_of_le_of_lt (Nat.le_mul_of_pos_left _ h.m_c_pos) z.mn
theorem i_mr : m_r < 2 ^ 31 := Nat.lt_of_le_of_lt (Nat.le_of_dvd h.m_c_pos h.m_dvd) (i_mc h z)
theorem i_nr : n_r < 2 ^ 31 := Nat.lt_of_le_of_lt (Nat.le_of_dvd h.n_c_pos h.n_dvd) (i_nc h z)
omit h z in
theorem cdiv_le_self' {a b : Nat} (hb : 0 < b) : cdiv a b ≤ a :=
  cdiv_le_of_le_mul hb (Nat.le_mul_of_pos_right _ hb)

omit z in
/-- The rows of block `m` and of one core of it, against the padded matrix. -/
theorem blk_bounds {m : Nat} (hm : m < cdiv M (p * m_c)) :
    m * p * m_c + mLen M p m_r m_c m ≤ padTo M (p * m_c) m_r ∧ mLen M p m_r m_c m ≤ p * m_c := by
  have := chop_bound' h.S_pos (show m < cdiv (padTo M (p * m_c) m_r) (p * m_c) by
    rwa [← mb_eq h])
  rw [Nat.mul_assoc m]
  exact ⟨this, chopLen_le _ _ _⟩

omit z in
theorem core_bounds {m core : Nat} (hm : m < cdiv M (p * m_c))
    (hc : core < cdiv (mLen M p m_r m_c m) (mX M p m_r m_c m)) :
    core * mX M p m_r m_c m +
      chopLen (mLen M p m_r m_c m) (mX M p m_r m_c m) core ≤ mLen M p m_r m_c m ∧
    0 < mX M p m_r m_c m ∧ mX M p m_r m_c m ≤ m_c ∧ core < p := by
  obtain ⟨h1, h2, _, _, h5, _⟩ := m_strips (N := 0) (K := 0) h hm
  exact ⟨chop_bound' h1 hc, h1, h2, by omega⟩

/-- `m_cb` -/
def mcbE (M N K p m_r n_r m_c k_c n_c m : Nat) : E :=
  if (m == cdiv M (p * m_c) - 1 && M % (p * m_c) != 0) = true then
    (m_r : E) * (cdiv (M % (p * m_c)) m_r : Nat)
  else ((if (m == cdiv M (p * m_c) - 1 && M % (p * m_c) != 0) = true then
    (dimsKMN M N K p m_r n_r m_c k_c n_c).p_l else p : Nat) : E) * m_c

theorem mcbE_ok {m : Nat} (hm : m < cdiv M (p * m_c)) :
    (mcbE M N K p m_r n_r m_c k_c n_c m).val = mLen M p m_r m_c m ∧
      (mcbE M N K p m_r n_r m_c k_c n_c m).Fits := by
  have hl := blk_bounds h hm
  have hv : (mcbE M N K p m_r n_r m_c k_c n_c m).val = mLen M p m_r m_c m := by
    rw [← m_len h hm]
    unfold mcbE
    split
    · rfl
    · rfl
  refine ⟨hv, ?_⟩
  have hlt : (mcbE M N K p m_r n_r m_c k_c n_c m).val < 2 ^ 31 := by
    rw [hv]; have := z.pm; omega
  revert hlt
  have hpos : 0 < mLen M p m_r m_c m := chopLen_pos h.S_pos (by rwa [← mb_eq h])
  rw [← hv] at hpos
  revert hpos
  unfold mcbE
  split
  · intro hpos
    rw [E.val_mul] at hpos
    have hf : cdiv (M % (p * m_c)) m_r < 2 ^ 31 := by
      have := cdiv_le_self' (a := M % (p * m_c)) h.m_r_pos
      have := Nat.mod_lt M h.S_pos
      have := z.pm
      omega
    exact E.Good.mulL (E.Good.lit _) hf (Nat.pos_of_mul_pos_left hpos)
  · intro _
    exact E.Good.mulL (E.Good.lit _) (i_mc h z) h.m_c_pos

/-- `n1` -/
def n1E (N n_c n : Nat) : E :=
  if (n == cdiv N n_c - 1 && N % n_c != 0) = true then (N : E) - (N : E) % n_c else (n : E) * n_c

theorem n1E_ok {n : Nat} (hn : n < cdiv N n_c) :
    (n1E N n_c n).val = n * n_c ∧ (n1E N n_c n).Fits := by
  have hNi := i_N h z
  have hlt := chop_mul_lt h.n_c_pos hn
  have hv : (n1E N n_c n).val = n * n_c := by
    unfold n1E
    split
    · rename_i hl
      simp only [Bool.and_eq_true, beq_iff_eq] at hl
      simp only [E.val_sub, E.val_mod, E.val_lit]
      rw [sub_mod_eq]
      have := cdiv_eq_div_add N n_c h.n_c_pos
      rw [hl.2] at this
      simp only [Bool.toNat_true] at this
      congr 1; omega
    · rfl
  refine ⟨hv, ?_⟩
  have hlt : (n1E N n_c n).val < 2 ^ 31 := by omega
  revert hlt
  unfold n1E
  split
  · exact E.Good.sub hNi (E.fits_mod hNi (i_nc h z) h.n_c_pos) (Nat.mod_le _ _)
  · exact E.Good.mulL (.lit _) (i_nc h z) h.n_c_pos

/-- `m1` -/
def m1E (M p m_c m : Nat) : E :=
  if (m == cdiv M (p * m_c) - 1 && M % (p * m_c) != 0) = true then (M : E) - (M : E) % ((p : E) * m_c)
  else rowE m p m_c

theorem m1E_ok {m : Nat} (hm : m < cdiv M (p * m_c)) :
    (m1E M p m_c m).val = m * p * m_c ∧ (m1E M p m_c m).Fits := by
  have hMi := i_M h z
  have hlt := chop_mul_lt h.S_pos hm
  have hv : (m1E M p m_c m).val = m * p * m_c := by
    unfold m1E
    split
    · rename_i hl
      simp only [Bool.and_eq_true, beq_iff_eq] at hl
      simp only [E.val_sub, E.val_mod, E.val_mul, E.val_lit]
      rw [sub_mod_eq, Nat.mul_assoc m]
      have := cdiv_eq_div_add M (p * m_c) h.S_pos
      rw [hl.2] at this
      simp only [Bool.toNat_true] at this
      congr 1; omega
    · rfl
  refine ⟨hv, ?_⟩
  have hlt : (m1E M p m_c m).val < 2 ^ 31 := by rw [hv, Nat.mul_assoc]; omega
  revert hlt
  unfold m1E
  split
  · exact E.Good.sub hMi (E.fits_mod hMi
      (E.Good.mulL (.lit _) (i_mc h z) h.m_c_pos z.pm) h.S_pos) (Nat.mod_le _ _)
  · exact E.Good.mulL (E.Good.mulL (.lit _) (i_p h z) h.p_pos) (i_mc h z) h.m_c_pos

/-- The padded dimensions, as the code computes them. -/
theorem padE_ok :
    ((mPaddedE M p m_r m_c (cdiv (M % (p * m_c)) m_r : Nat)).val = padTo M (p * m_c) m_r ∧
      (mPaddedE M p m_r m_c (cdiv (M % (p * m_c)) m_r : Nat)).Fits) ∧
    (nPaddedE N n_c (cdiv (N % n_c) n_r * n_r : Nat)).val = padTo N n_c n_r ∧
      (nPaddedE N n_c (cdiv (N % n_c) n_r * n_r : Nat)).Fits := by
  have hMi := i_M h z
  have hNi := i_N h z
  have hKi := z.Ki
  have hmci := i_mc h z
  have hnci := i_nc h z
  have hpi := i_p h z
  have hpm := z.pm
  have hmri := i_mr h z
  have hnri := i_nr h z
  have hS : ((p : E) * m_c).Fits := E.Good.mulL (.lit _) hmci h.m_c_pos z.pm
  have hMm := Nat.mod_lt M h.S_pos
  have hNm := Nat.mod_lt N h.n_c_pos
  have hrem : cdiv (M % (p * m_c)) m_r ≤ M % (p * m_c) := cdiv_le_self' h.m_r_pos
  have hnrem : cdiv (N % n_c) n_r ≤ N % n_c := cdiv_le_self' h.n_r_pos
  have hremi : cdiv (M % (p * m_c)) m_r < 2 ^ 31 := by omega
  have hnremi : cdiv (N % n_c) n_r < 2 ^ 31 := by omega
  have hpc : cdiv (cdiv (M % (p * m_c)) m_r) p ≤ cdiv (M % (p * m_c)) m_r := cdiv_le_self' h.p_pos
  have hMPv : (mPaddedE M p m_r m_c (cdiv (M % (p * m_c)) m_r : Nat)).val =
      padTo M (p * m_c) m_r := by
    simp only [mPaddedE, E.val_add, E.val_mul, E.val_div, E.val_lit, padTo]; ring
  have hNPv : (nPaddedE N n_c (cdiv (N % n_c) n_r * n_r : Nat)).val = padTo N n_c n_r := by
    simp only [nPaddedE, E.val_add, E.val_sub, E.val_mod, E.val_lit, padTo, sub_mod_eq]
  have hMPf : (mPaddedE M p m_r m_c (cdiv (M % (p * m_c)) m_r : Nat)).Fits := by
    have hlt := z.Mp
    rw [← hMPv] at hlt
    have hm0 : (m_r : E).Fits := hmri
    simp only [mPaddedE, E.val_add] at hlt
    refine ⟨⟨hmri, hremi, by simp only [E.val_mul] at hlt ⊢; omega⟩, ?_, hlt⟩
    exact E.Good.mulL (E.Good.mulL (.of (E.fits_div hMi hS h.S_pos)) hpi h.p_pos) hmci h.m_c_pos
      (by omega)
  have hNN : ((N : E) - (N : E) % n_c).Fits :=
    E.Good.sub hNi (E.fits_mod hNi hnci h.n_c_pos) (Nat.mod_le _ _)
      (by simp only [E.val_sub, E.val_lit]; omega)
  have hnc1 : cdiv (N % n_c) n_r * n_r ≤ padTo N n_c n_r := by unfold padTo; omega
  have hNp := z.Np
  have hNPf : (nPaddedE N n_c (cdiv (N % n_c) n_r * n_r : Nat)).Fits := by
    refine E.Good.add (.of hNN) (.lit _) ?_
    have := hNPv
    unfold nPaddedE at this
    rw [this]; exact hNp
  exact ⟨⟨hMPv, hMPf⟩, hNPv, hNPf⟩

theorem dimsInts_fits : AllFits (dimsInts M N K p m_r n_r (dimsKMN M N K p m_r n_r m_c k_c n_c)) := by
  have hMi := i_M h z
  have hNi := i_N h z
  have hKi := z.Ki
  have hmci := i_mc h z
  have hnci := i_nc h z
  have hpi := i_p h z
  have hpm := z.pm
  have hmri := i_mr h z
  have hnri := i_nr h z
  have hS : ((p : E) * m_c).Fits := E.Good.mulL (.lit _) hmci h.m_c_pos z.pm
  have hMm := Nat.mod_lt M h.S_pos
  have hNm := Nat.mod_lt N h.n_c_pos
  have hrem : cdiv (M % (p * m_c)) m_r ≤ M % (p * m_c) := cdiv_le_self' h.m_r_pos
  have hnrem : cdiv (N % n_c) n_r ≤ N % n_c := cdiv_le_self' h.n_r_pos
  have hremi : cdiv (M % (p * m_c)) m_r < 2 ^ 31 := by omega
  have hnremi : cdiv (N % n_c) n_r < 2 ^ 31 := by omega
  have hpc : cdiv (cdiv (M % (p * m_c)) m_r) p ≤ cdiv (M % (p * m_c)) m_r := cdiv_le_self' h.p_pos
  have hnc1 : cdiv (N % n_c) n_r * n_r ≤ padTo N n_c n_r := by unfold padTo; omega
  have hNp := z.Np
  obtain ⟨⟨_, hMPf⟩, _, hNPf⟩ := padE_ok h z
  -- cores and strips of the last row block
  have hq : cdiv (cdiv (M % (p * m_c)) m_r) p * m_r ≤ m_c := by
    obtain ⟨q, hq⟩ := h.m_dvd
    have h2 : cdiv (M % (p * m_c)) m_r ≤ q * p := by
      apply cdiv_le_of_le_mul h.m_r_pos
      have e : q * p * m_r = p * m_c := by rw [hq]; ring
      omega
    have h3 := cdiv_le_of_le_mul h.p_pos h2
    calc _ ≤ q * m_r := Nat.mul_le_mul_right _ h3
      _ = m_c := by rw [hq]; ring
  have hpl : ∀ pl, pl = (dimsKMN M N K p m_r n_r m_c k_c n_c).p_l →
      cdiv (M % (p * m_c)) m_r ≤ pl * cdiv (cdiv (M % (p * m_c)) m_r) p ∧
      pl * cdiv (cdiv (M % (p * m_c)) m_r) p - cdiv (M % (p * m_c)) m_r ≤
        cdiv (cdiv (M % (p * m_c)) m_r) p ∧
      pl * cdiv (cdiv (M % (p * m_c)) m_r) p ≤ p * m_c ∧ pl ≤ p := by
    intro pl hpl
    simp only [dimsKMN] at hpl
    rcases Nat.eq_zero_or_pos (cdiv (M % (p * m_c)) m_r) with h0 | h0
    · rw [h0] at hpl ⊢
      simp only [cdiv_zero, ne_eq, not_true_eq_false, if_false] at hpl
      subst hpl
      simp
    · have hx := cdiv_pos h0 h.p_pos
      rw [if_pos (by omega)] at hpl
      have a1 := cdiv_mul_ge (cdiv (M % (p * m_c)) m_r) _ hx
      have a2 := cdiv_mul_lt (cdiv (M % (p * m_c)) m_r) _ hx
      have a3 := core_split_le h.p_pos h0
      rw [← hpl] at a1 a2 a3
      refine ⟨a1, by omega, Nat.mul_le_mul a3 ?_, a3⟩
      exact Nat.le_trans (Nat.le_mul_of_pos_right _ h.m_r_pos) hq
  obtain ⟨b1, b2, b3, b4⟩ := hpl _ rfl
  have hMbv := kmn_Mb (M := M) (N := N) (K := K) h
  have hNbv := kmn_Nb (M := M) (N := N) (K := K) h
  have hKbv := kmn_Kb (M := M) (N := N) (K := K) h
  have c1 : cdiv M (p * m_c) ≤ M := cdiv_le_self' h.S_pos
  have c2 : cdiv N n_c ≤ N := cdiv_le_self' h.n_c_pos
  have c3 : cdiv K k_c ≤ K := cdiv_le_self' h.k_c_pos
  have hpci : cdiv (cdiv (M % (p * m_c)) m_r) p < 2 ^ 31 := by omega
  refine .cons (E.fits_mod hKi z.kc h.k_c_pos) <| .cons (E.fits_mod hNi hnci h.n_c_pos) <|
    .cons (E.fits_mod hMi hS h.S_pos) <| .cons hremi <| .cons hpci <|
    .cons (E.Good.mulL (.lit _) hnri h.n_r_pos (by
      show cdiv (N % n_c) n_r * n_r < 2 ^ 31
      omega)) <|
    .cons (E.Good.mulL (.lit _) hmri h.m_r_pos (by
      show cdiv (cdiv (M % (p * m_c)) m_r) p * m_r < 2 ^ 31
      omega)) <|
    .cons (E.Good.mulL (E.Good.sub hpci (E.Good.sub ⟨?_, hpci, ?_⟩ hremi b1 ?_) b2) hmri
      h.m_r_pos ?_) <|
    .cons (E.Good.add (.of (E.fits_div hMi hS h.S_pos)) (.lit _) ?_) <|
    .cons (E.Good.add (.of (E.fits_div hNi hnci h.n_c_pos)) (.lit _) ?_) <|
    .cons (E.Good.add (.of (E.fits_div hKi z.kc h.k_c_pos)) (.lit _) ?_) <|
    .cons hMPf <| .cons hNPf .nil
  · show (dimsKMN M N K p m_r n_r m_c k_c n_c).p_l < 2 ^ 31
    omega
  · exact Nat.lt_of_le_of_lt b3 hpm
  · exact Nat.lt_of_le_of_lt (Nat.sub_le _ _) (Nat.lt_of_le_of_lt b3 hpm)
  · refine Nat.lt_of_le_of_lt ?_ hmci
    refine Nat.le_trans ?_ hq
    exact Nat.mul_le_mul_right _ (Nat.sub_le _ _)
  · exact Nat.lt_of_le_of_lt (Nat.le_of_eq hMbv) (by omega)
  · exact Nat.lt_of_le_of_lt (Nat.le_of_eq hNbv) (by omega)
  · exact Nat.lt_of_le_of_lt (Nat.le_of_eq hKbv) (by omega)

end

section
variable {M N K p m_r n_r m_c k_c n_c : Nat} (h : TileOK p m_r n_r m_c k_c n_c)
  (z : Int32OK M N K p m_r n_r m_c k_c n_c)
include h z

theorem i_MK : M * K < 2 ^ 31 :=
  Nat.lt_of_le_of_lt (Nat.mul_le_mul_right _ (padTo_ge M (p * m_c) m_r h.m_r_pos)) z.MK
theorem i_KN : K * N < 2 ^ 31 :=
  Nat.lt_of_le_of_lt (Nat.mul_le_mul_left _ (padTo_ge N n_c n_r h.n_r_pos)) z.KN
theorem i_MN : M * N < 2 ^ 31 :=
  Nat.lt_of_le_of_lt (Nat.mul_le_mul (padTo_ge M (p * m_c) m_r h.m_r_pos)
    (padTo_ge N n_c n_r h.n_r_pos)) z.MN

theorem packAInts_fits :
    AllFits (packAInts M K p m_r (dimsKMN M N K p m_r n_r m_c k_c n_c)) := by
  unfold packAInts
  rw [kmn_Mb h, kmn_Kb h]
  refine (loopS_fits (fun m => chopOff (padTo M (p * m_c) m_r) (p * m_c) m * K)
    (by simp [chopOff_zero]) fun m hm => ?_).1
  obtain ⟨hcv, hcf⟩ := mcbE_ok h z.toIntDims hm
  obtain ⟨hb1, hb2⟩ := blk_bounds h hm
  have hMb : cdiv M (p * m_c) ≤ M := cdiv_le_self' h.S_pos
  have hKb : cdiv K k_c ≤ K := cdiv_le_self' h.k_c_pos
  obtain ⟨_, _, hxd, h4, _, h6⟩ := m_strips (N := N) (K := K) h hm
  have hm' : m < cdiv (padTo M (p * m_c) m_r) (p * m_c) := by rwa [← mb_eq h]
  have inner := loopS_fits (n := cdiv K k_c)
    (body := fun k A_p_offset =>
      ([mcbE M N K p m_r n_r m_c k_c n_c m, (m : E) + 1, (k : E) + 1, (A_p_offset : E) +
        mcbE M N K p m_r n_r m_c k_c n_c m *
          ((if (k == cdiv K k_c - 1 && K % k_c != 0) = true then K % k_c else k_c : Nat) : E)] ++
        (range (if (m == cdiv M (p * m_c) - 1 && M % (p * m_c) != 0) = true then
            (dimsKMN M N K p m_r n_r m_c k_c n_c).p_l else p)).flatMap (fun (core : Nat) =>
          [aOffE m p m_c K k k_c core (mX M p m_r m_c m), (A_p_offset : E) +
              core * (mX M p m_r m_c m : Nat) *
                (if (k == cdiv K k_c - 1 && K % k_c != 0) = true then K % k_c else k_c : Nat),
            rowE m p m_c, (core : E) * (mX M p m_r m_c m : Nat), (core : E) + 1] ++
          obAInts M K (m * p * m_c) (core * mX M p m_r m_c m)
            (if (m == cdiv M (p * m_c) - 1 && M % (p * m_c) != 0) = true then
              (if core = (dimsKMN M N K p m_r n_r m_c k_c n_c).p_l - 1 then
                (dimsKMN M N K p m_r n_r m_c k_c n_c).m_c1_last_core
               else (dimsKMN M N K p m_r n_r m_c k_c n_c).m_c1) else m_c)
            (if (k == cdiv K k_c - 1 && K % k_c != 0) = true then K % k_c else k_c) m_r),
        A_p_offset + (mcbE M N K p m_r n_r m_c k_c n_c m).val *
          (if (k == cdiv K k_c - 1 && K % k_c != 0) = true then K % k_c else k_c)))
    (s := chopOff (padTo M (p * m_c) m_r) (p * m_c) m * K)
    (fun k => chopOff (padTo M (p * m_c) m_r) (p * m_c) m * K +
      mLen M p m_r m_c m * chopOff K k_c k) (by simp [chopOff_zero]) (fun k hk => ?_)
  · refine ⟨?_, inner.1⟩
    refine inner.2.trans ?_
    rw [chopOff_end h.k_c_pos, chopOff_succ]
    simp only [mLen]
    ring
  · rw [h4, k_len h.k_c_pos hk, hcv]
    have hK1 := chop_bound' h.k_c_pos hk
    have hKl := chopLen_pos h.k_c_pos hk
    have hK0 : 0 < K := by omega
    have hkc : chopLen K k_c k < 2 ^ 31 := by have := z.Ki; omega
    have hkl : chopLen K k_c k ≤ K := by omega
    rw [chopOff_eq h.S_pos hm', chopOff_eq h.k_c_pos hk]
    -- the packed block up to the end of this strip
    have hblk : m * (p * m_c) * K + mLen M p m_r m_c m * (k * k_c) +
        mLen M p m_r m_c m * chopLen K k_c k < 2 ^ 31 := by
      refine Nat.lt_of_le_of_lt ?_ z.MK
      calc _ = m * p * m_c * K + mLen M p m_r m_c m * (k * k_c + chopLen K k_c k) := by ring
        _ ≤ m * p * m_c * K + mLen M p m_r m_c m * K :=
            Nat.add_le_add_left (Nat.mul_le_mul_left _ hK1) _
        _ = (m * p * m_c + mLen M p m_r m_c m) * K := by ring
        _ ≤ _ := Nat.mul_le_mul_right _ hb1
    refine ⟨?_, AllFits.append ?_ (AllFits.flatMap fun core hcore => ?_)⟩
    · simp only [chopOff_succ, chopOff_eq h.k_c_pos hk]; ring
    · have hMi := i_M h z.toIntDims
      have hKi := z.Ki
      refine .cons hcf <| .cons ((E.Good.lit _).add .one ?_) <| .cons ((E.Good.lit _).add .one ?_) <|
        .cons ((E.Good.lit _).add (E.Good.mulL (.of hcf) hkc hKl) ?_) .nil
      · simp only [E.val_add, E.val_lit, E.val_one]; omega
      · simp only [E.val_add, E.val_lit, E.val_one]; omega
      · simpa only [E.val_add, E.val_mul, E.val_lit, hcv] using hblk
    · rw [mem_range] at hcore
      obtain ⟨hc1, hx0, hxm, hcp⟩ := core_bounds h hm hcore
      have hmx : mX M p m_r m_c m < 2 ^ 31 := by have := i_mc h z.toIntDims; omega
      rw [h6 core hcore]
      have hpi := i_p h z.toIntDims
      have hpm := z.pm
      have hMp := z.Mp
      refine AllFits.append ?_ ?_
      · refine .cons ?_ <| .cons ?_ <| .cons ?_ <| .cons ?_ <| .cons ((E.Good.lit _).add .one ?_) .nil
        · refine E.Good.add (E.Good.add (E.Good.mulL (E.Good.mulL (E.Good.mulL (.lit _) hpi h.p_pos)
            (i_mc h z.toIntDims) h.m_c_pos) z.Ki hK0) (E.Good.mulL (.lit _) z.kc h.k_c_pos))
            (E.Good.mulL (E.Good.mulL (.lit _) hmx hx0) z.Ki hK0) ?_
          simp only [E.val_add, E.val_mul, E.val_lit]
          refine Nat.lt_of_le_of_lt ?_ z.MK
          have hsl : 0 < chopLen (mLen M p m_r m_c m) (mX M p m_r m_c m) core :=
            chopLen_pos hx0 hcore
          have hr : (m * p * m_c + core * mX M p m_r m_c m + 1) * K ≤ padTo M (p * m_c) m_r * K :=
            Nat.mul_le_mul_right _ (by omega)
          have e : (m * p * m_c + core * mX M p m_r m_c m + 1) * K =
            m * p * m_c * K + core * mX M p m_r m_c m * K + K := by ring
          omega
        · refine E.Good.add (.lit _) (E.Good.mulL (E.Good.mulL (.lit _) hmx hx0) hkc hKl) ?_
          simp only [E.val_add, E.val_mul, E.val_lit]
          have : core * mX M p m_r m_c m * chopLen K k_c k ≤
              mLen M p m_r m_c m * chopLen K k_c k := Nat.mul_le_mul_right _ (by omega)
          omega
        · refine E.Good.mulL (E.Good.mulL (.lit _) hpi h.p_pos) (i_mc h z.toIntDims) h.m_c_pos ?_
          simp only [E.val_mul, E.val_lit]
          omega
        · refine E.Good.mulL (.lit _) hmx hx0 ?_
          simp only [E.val_mul, E.val_lit]
          omega
        · simp only [E.val_add, E.val_lit, E.val_one]; omega
      · refine obAInts_fits h.m_r_pos (strip_dvd h hm) ?_ z.Ki hkl ?_ (i_MK h z)
        · omega
        · refine Nat.lt_of_le_of_lt ?_ hblk
          have : chopLen (mLen M p m_r m_c m) (mX M p m_r m_c m) core * chopLen K k_c k ≤
              mLen M p m_r m_c m * chopLen K k_c k := Nat.mul_le_mul_right _ (by omega)
          omega

omit h z in
/-- One block column of `pack_B`, of width `w` starting in column `n1`. -/
theorem packBCol_fits {K N n_r k_c n1 w P : Nat} (hkc : 0 < k_c) (hnr : 0 < n_r) (hw : 0 < w)
    (hd : n_r ∣ w) (hP : n1 + w ≤ P) (hPi : P < 2 ^ 31) (hKi : K < 2 ^ 31) (hki : k_c < 2 ^ 31)
    (hNi : N < 2 ^ 31) (hKP : K * P < 2 ^ 31) (hKN : K * N < 2 ^ 31) :
    AllFits (packBCol K N n_r k_c (K % k_c) n1 w (n1 * K)) := by
  obtain ⟨q, rfl⟩ := hd
  rw [Nat.mul_comm n_r q] at *
  have hwi : q * n_r < 2 ^ 31 := by omega
  have hmodle : K % k_c ≤ K := Nat.mod_le _ _
  have hmodlt : K % k_c < k_c := Nat.mod_lt _ hkc
  have hKq : K - K % k_c = K / k_c * k_c := sub_mod_eq K k_c
  have hsubF : ((K : E) - K % k_c).Fits :=
    E.Good.sub hKi (E.fits_mod hKi hki hkc) hmodle (by simp only [E.val_sub, E.val_mod, E.val_lit]; omega)
  have hKw : n1 * K + K * (q * n_r) ≤ K * P := by
    calc _ = K * (n1 + q * n_r) := by ring
      _ ≤ _ := Nat.mul_le_mul_left _ hP
  have hsplit : K * (q * n_r) = (K - K % k_c) * (q * n_r) + K % k_c * (q * n_r) := by
    rw [← Nat.add_mul, Nat.sub_add_cancel hmodle]
  have hnr' : ∀ t, t < q → t * n_r + n_r ≤ q * n_r := by
    intro t ht
    have := Nat.mul_le_mul_right n_r (Nat.succ_le_of_lt ht)
    rwa [Nat.succ_mul] at this
  unfold packBCol
  refine AllFits.append (AllFits.append ?_ ?_) ?_
  · refine .cons hsubF <| .cons ((E.Good.lit _).add (E.Good.mulL (.of hsubF) hwi hw) ?_) .nil
    simp only [E.val_add, E.val_mul, E.val_lit, E.val_sub, E.val_mod]
    omega
  · rw [hKq, cfor_zero_mul _ _ hkc]
    refine AllFits.flatMap fun k1 hk1 => ?_
    obtain ⟨t, ht, rfl⟩ := List.mem_map.1 hk1
    rw [mem_range] at ht
    have hk1' : t * k_c + k_c ≤ K / k_c * k_c := by
      have := Nat.mul_le_mul_right k_c (Nat.succ_le_of_lt ht)
      rwa [Nat.succ_mul] at this
    have hk1K : t * k_c + k_c ≤ K := by omega
    refine AllFits.append (.cons ((E.Good.lit _).add (.lit _) ?_) .nil) ?_
    · simp only [E.val_add, E.val_lit]; omega
    rw [loop3_eq _ _ _ _ _ hnr]
    refine AllFits.flatMap fun u hu => AllFits.flatMap fun i hi => AllFits.flatMap fun j hj => ?_
    rw [mem_range] at hu hi hj
    have hu' := hnr' u hu
    have hloc : u * (k_c * n_r) + (i * n_r + j) < k_c * (q * n_r) := by
      calc _ < q * (k_c * n_r) := mulAdd_lt hu (mulAdd_lt hi hj)
        _ = _ := by ring
    have hkw : t * k_c * (q * n_r) + k_c * (q * n_r) ≤ K * (q * n_r) := by
      rw [← Nat.add_mul]; exact Nat.mul_le_mul_right _ hk1K
    refine AllFits.append ?_ ?_
    · refine .cons ((E.Good.lit _).add (.lit _) ?_) <| .cons ((E.Good.lit _).add .one ?_) <|
        .cons ((E.Good.lit _).add .one ?_) <| .cons ((E.Good.lit _).add .one ?_) <|
        .cons (((E.Good.lit _).add (.lit _)).add (.lit _) ?_) <| .cons ?_ .nil
      · simp only [E.val_add, E.val_lit]; omega
      · simp only [E.val_add, E.val_lit, E.val_one]; omega
      · simp only [E.val_add, E.val_lit, E.val_one]; omega
      · simp only [E.val_add, E.val_lit, E.val_one]; omega
      · simp only [E.val_add, E.val_lit]; omega
      · refine E.Good.add (E.Good.add (.lit _) (.lit _)) (E.Good.mulL (E.Good.mulL (.of
          (E.fits_div ?_ hki hkc)) hki hkc) hwi hw) ?_
        · exact E.fits_lit (by omega)
        · simp only [E.val_add, E.val_mul, E.val_div, E.val_lit, Nat.mul_div_cancel t hkc]
          omega
    · split
      · exact .nil
      · rename_i hlt
        have hN0 : 0 < N := by omega
        refine .cons (E.Good.add (E.Good.add (E.Good.add (E.Good.add (.lit _)
          (E.Good.mulL (.lit _) hNi hN0)) (.lit _)) (E.Good.mulL (.lit _) hNi hN0)) (.lit _) ?_) .nil
        simp only [E.val_add, E.val_mul, E.val_lit]
        have h3 : (t * k_c + i + 1) * N ≤ K * N := Nat.mul_le_mul_right _ (by omega)
        have e : (t * k_c + i + 1) * N = t * k_c * N + i * N + N := by ring
        omega
  · split
    · rename_i hk1
      have hk1p : 0 < K % k_c := by omega
      have hk1i : K % k_c < 2 ^ 31 := by omega
      dsimp only
      rw [cfor_zero_mul _ _ hnr]
      refine AllFits.append (.cons ((E.Good.lit _).add (E.Good.mulL (.lit _) hwi hw) ?_) .nil) ?_
      · simp only [E.val_add, E.val_mul, E.val_lit]; omega
      refine AllFits.flatMap fun n2 hn2 => ?_
      obtain ⟨u, hu, rfl⟩ := List.mem_map.1 hn2
      rw [mem_range] at hu
      rw [loop2_eq]
      refine AllFits.flatMap fun i hi => AllFits.flatMap fun j hj => ?_
      rw [mem_range] at hi hj
      have hu' := hnr' u hu
      have hloc : i * n_r + j < K % k_c * n_r := mulAdd_lt hi hj
      have hkw : u * n_r * (K % k_c) + K % k_c * n_r ≤ K % k_c * (q * n_r) := by
        calc _ = K % k_c * (u * n_r + n_r) := by ring
          _ ≤ _ := Nat.mul_le_mul_left _ hu'
      refine AllFits.append ?_ ?_
      · refine .cons ((E.Good.lit _).add (.lit _) ?_) <| .cons ((E.Good.lit _).add .one ?_) <|
          .cons ((E.Good.lit _).add .one ?_) <| .cons ((E.Good.lit _).add .one ?_) <|
          .cons (((E.Good.lit _).add (.lit _)).add (.lit _) ?_) <| .cons ?_ .nil
        · simp only [E.val_add, E.val_lit]; omega
        · simp only [E.val_add, E.val_lit, E.val_one]; omega
        · simp only [E.val_add, E.val_lit, E.val_one]; omega
        · simp only [E.val_add, E.val_lit, E.val_one]; omega
        · simp only [E.val_add, E.val_lit]; omega
        · refine E.Good.add (E.Good.add (.lit _) (.lit _)) (E.Good.mulL (.lit _) hk1i hk1p) ?_
          simp only [E.val_add, E.val_mul, E.val_lit]
          omega
      · split
        · exact .nil
        · rename_i hlt
          have hN0 : 0 < N := by omega
          refine .cons (E.Good.add (E.Good.add (E.Good.add (E.Good.add (.lit _)
            (E.Good.mulL (.lit _) hNi hN0)) (.lit _)) (E.Good.mulL (.lit _) hNi hN0)) (.lit _) ?_) .nil
          simp only [E.val_add, E.val_mul, E.val_lit]
          have h3 : (K - K % k_c + i + 1) * N ≤ K * N := Nat.mul_le_mul_right _ (by omega)
          have e : (K - K % k_c + i + 1) * N = (K - K % k_c) * N + i * N + N := by ring
          omega
    · exact .nil

theorem packBInts_fits :
    AllFits (packBInts K N n_r (dimsKMN M N K p m_r n_r m_c k_c n_c)) := by
  have hNq : N - N % n_c = N / n_c * n_c := sub_mod_eq N n_c
  have hmodle : N % n_c ≤ N := Nat.mod_le _ _
  have hNi := i_N h z.toIntDims
  have hNp := z.Np
  have hnc1 : (dimsKMN M N K p m_r n_r m_c k_c n_c).n_c1 = cdiv (N % n_c) n_r * n_r := rfl
  have hP : N / n_c * n_c + cdiv (N % n_c) n_r * n_r = padTo N n_c n_r := rfl
  have hmain := loopS_fits (n := N / n_c)
    (body := fun t ind1 => ([((t * n_c : Nat) : E) + n_c] ++
        packBCol K N n_r k_c (K % k_c) (t * n_c) n_c ind1,
      if K % k_c ≠ 0 then ind1 + (K - K % k_c) * n_c + K % k_c * n_c
        else ind1 + (K - K % k_c) * n_c)) (s := 0)
    (fun t => t * n_c * K) (by simp) (fun t ht => by
      have ht' : t * n_c + n_c ≤ N / n_c * n_c := by
        have := Nat.mul_le_mul_right n_c (Nat.succ_le_of_lt ht)
        rwa [Nat.succ_mul] at this
      refine ⟨?_, AllFits.append (.cons ((E.Good.lit _).add (.lit _) ?_) .nil) ?_⟩
      · have e : K = K - K % k_c + K % k_c := (Nat.sub_add_cancel (Nat.mod_le _ _)).symm
        have : t * n_c * K + (K - K % k_c) * n_c + K % k_c * n_c = (t + 1) * n_c * K := by
          calc _ = t * n_c * K + (K - K % k_c + K % k_c) * n_c := by ring
            _ = _ := by rw [← e]; ring
        split
        · exact this
        · rename_i h0
          rw [show K % k_c = 0 by omega] at this ⊢
          simpa using this
      · simp only [E.val_add, E.val_lit]; omega
      · exact packBCol_fits h.k_c_pos h.n_r_pos h.n_c_pos h.n_dvd (P := padTo N n_c n_r)
          (by omega) hNp z.Ki z.kc hNi z.KN (i_KN h z))
  unfold packBInts
  show AllFits ([(N : E) - N % n_c] ++
    (loopS (cfor 0 (N - N % n_c) n_c) (fun (n1 ind1 : Nat) => ([(n1 : E) + n_c] ++
        packBCol K N n_r k_c (K % k_c) n1 n_c ind1,
      if K % k_c ≠ 0 then ind1 + (K - K % k_c) * n_c + K % k_c * n_c
        else ind1 + (K - K % k_c) * n_c)) 0).1 ++
    if cdiv (N % n_c) n_r * n_r ≠ 0 then packBCol K N n_r k_c (K % k_c) (N - N % n_c)
      (cdiv (N % n_c) n_r * n_r) (loopS (cfor 0 (N - N % n_c) n_c) (fun (n1 ind1 : Nat) =>
        ([(n1 : E) + n_c] ++ packBCol K N n_r k_c (K % k_c) n1 n_c ind1,
      if K % k_c ≠ 0 then ind1 + (K - K % k_c) * n_c + K % k_c * n_c
        else ind1 + (K - K % k_c) * n_c)) 0).2 else [])
  rw [hNq, cfor_zero_mul _ _ h.n_c_pos, loopS_map]
  refine AllFits.append (AllFits.append (.cons ?_ .nil) hmain.1) ?_
  · exact E.Good.sub hNi (E.fits_mod hNi (i_nc h z.toIntDims) h.n_c_pos) hmodle
      (by simp only [E.val_sub, E.val_mod, E.val_lit]; omega)
  · split
    · rename_i h0
      rw [hmain.2]
      exact packBCol_fits h.k_c_pos h.n_r_pos (by omega) (Nat.dvd_mul_left _ _)
        (P := padTo N n_c n_r) (by omega) hNp z.Ki z.kc hNi z.KN (i_KN h z)
    · exact .nil

theorem schedInts_fits :
    AllFits (schedInts M N K p m_r n_r (dimsKMN M N K p m_r n_r m_c k_c n_c)) := by
  have hMb : cdiv M (p * m_c) ≤ M := cdiv_le_self' h.S_pos
  have hKb : cdiv K k_c ≤ K := cdiv_le_self' h.k_c_pos
  have hNb : cdiv N n_c ≤ N := cdiv_le_self' h.n_c_pos
  have hMi := i_M h z.toIntDims
  have hNi := i_N h z.toIntDims
  have hKi := z.Ki
  have hmci := i_mc h z.toIntDims
  have hnci := i_nc h z.toIntDims
  have hpi := i_p h z.toIntDims
  have hpm := z.pm
  have hMp := z.Mp
  have hNp := z.Np
  unfold schedInts
  rw [kmn_Mb h, kmn_Kb h, kmn_Nb h]
  refine AllFits.flatMap fun n hn => ?_
  rw [mem_range] at hn
  obtain ⟨hn1v, hn1f⟩ := n1E_ok h z.toIntDims hn
  have hnb := chop_bound' h.n_c_pos (show n < cdiv (padTo N n_c n_r) n_c by rwa [← nb_eq h])
  have hnl := chopLen_pos h.n_c_pos (show n < cdiv (padTo N n_c n_r) n_c by rwa [← nb_eq h])
  have hnlc := chopLen_le (padTo N n_c n_r) n_c n
  have hN0 : 0 < N := by omega
  refine AllFits.append (.cons hn1f <| .cons ((E.Good.lit _).add .one ?_) .nil) ?_
  · simp only [E.val_add, E.val_lit, E.val_one]; omega
  refine AllFits.flatMap fun m hm => ?_
  rw [mem_serp] at hm
  obtain ⟨hcv, hcf⟩ := mcbE_ok h z.toIntDims hm
  obtain ⟨hm1v, hm1f⟩ := m1E_ok h z.toIntDims hm
  obtain ⟨hb1, hb2⟩ := blk_bounds h hm
  obtain ⟨_, _, hxd, h4, _, h6⟩ := m_strips (N := N) (K := K) (k_c := k_c) (n_r := n_r) (n_c := n_c) h hm
  refine AllFits.append (.cons hcf <| .cons hm1f <| .cons ((E.Good.lit _).add .one ?_) .nil) ?_
  · simp only [E.val_add, E.val_lit, E.val_one]; omega
  refine AllFits.flatMap fun core hcore => ?_
  change core ∈ range (if (m == cdiv M (p * m_c) - 1 && M % (p * m_c) != 0) = true then
    (dimsKMN M N K p m_r n_r m_c k_c n_c).p_l else p) at hcore
  rw [h4, mem_range] at hcore
  obtain ⟨hc1, hx0, hxm, hcp⟩ := core_bounds h hm hcore
  have hmx : mX M p m_r m_c m < 2 ^ 31 := by omega
  have hsl : 0 < chopLen (mLen M p m_r m_c m) (mX M p m_r m_c m) core := chopLen_pos hx0 hcore
  have hslx : chopLen (mLen M p m_r m_c m) (mX M p m_r m_c m) core ≤ mX M p m_r m_c m :=
    chopLen_le _ _ _
  refine AllFits.append (AllFits.append (AllFits.flatMap fun k hk => ?_) ?_) ?_
  · rw [mem_serp] at hk
    show AllFits ([(k : E) + 1, aIndE m p m_c K k (mcbE M N K p m_r n_r m_c k_c n_c m) k_c core
        (mX M p m_r m_c m : Nat)
        (if (k == cdiv K k_c - 1 && K % k_c != 0) = true then K % k_c else k_c : Nat),
      bIndE n K n_c k k_c (if (n == cdiv N n_c - 1 && N % n_c != 0) = true then
        cdiv (N % n_c) n_r * n_r else n_c : Nat),
      cIndE n (dimsKMN M N K p m_r n_r m_c k_c n_c).M_padded n_c m p m_c
        (if (n == cdiv N n_c - 1 && N % n_c != 0) = true then
        cdiv (N % n_c) n_r * n_r else n_c : Nat) core (mX M p m_r m_c m : Nat)] ++
      regInts (aIndE m p m_c K k (mcbE M N K p m_r n_r m_c k_c n_c m) k_c core
        (mX M p m_r m_c m : Nat)
        (if (k == cdiv K k_c - 1 && K % k_c != 0) = true then K % k_c else k_c : Nat))
        (bIndE n K n_c k k_c (if (n == cdiv N n_c - 1 && N % n_c != 0) = true then
          cdiv (N % n_c) n_r * n_r else n_c : Nat)) m_r n_r
        (if (m == cdiv M (p * m_c) - 1 && M % (p * m_c) != 0) = true then
          (if core = (dimsKMN M N K p m_r n_r m_c k_c n_c).p_l - 1 then
            (dimsKMN M N K p m_r n_r m_c k_c n_c).m_c1_last_core
           else (dimsKMN M N K p m_r n_r m_c k_c n_c).m_c1) else m_c)
        (if (n == cdiv N n_c - 1 && N % n_c != 0) = true then cdiv (N % n_c) n_r * n_r else n_c)
        (if (k == cdiv K k_c - 1 && K % k_c != 0) = true then K % k_c else k_c))
    rw [k_len h.k_c_pos hk, n_len h hn, h6 core hcore, kmn_M_padded]
    have hK1 := chop_bound' h.k_c_pos hk
    have hKl := chopLen_pos h.k_c_pos hk
    have hK0 : 0 < K := by omega
    have hkc : chopLen K k_c k < 2 ^ 31 := by omega
    have hncti : chopLen (padTo N n_c n_r) n_c n < 2 ^ 31 := by omega
    have hMp0 : 0 < padTo M (p * m_c) m_r := by
      have := Nat.le_trans (Nat.le_of_lt (Nat.lt_of_lt_of_le (chopLen_pos hx0 hcore) hslx)) hxm
      omega
    -- the end of this core's part of the packed block of A
    have haE : m * p * m_c * K + k * mLen M p m_r m_c m * k_c + core * mX M p m_r m_c m *
        chopLen K k_c k + chopLen (mLen M p m_r m_c m) (mX M p m_r m_c m) core * chopLen K k_c k ≤
        padTo M (p * m_c) m_r * K := by
      calc _ = m * p * m_c * K + mLen M p m_r m_c m * (k * k_c) +
            (core * mX M p m_r m_c m +
              chopLen (mLen M p m_r m_c m) (mX M p m_r m_c m) core) * chopLen K k_c k := by ring
        _ ≤ m * p * m_c * K + mLen M p m_r m_c m * (k * k_c) +
            mLen M p m_r m_c m * chopLen K k_c k :=
            Nat.add_le_add_left (Nat.mul_le_mul_right _ hc1) _
        _ = m * p * m_c * K + mLen M p m_r m_c m * (k * k_c + chopLen K k_c k) := by ring
        _ ≤ m * p * m_c * K + mLen M p m_r m_c m * K :=
            Nat.add_le_add_left (Nat.mul_le_mul_left _ hK1) _
        _ = (m * p * m_c + mLen M p m_r m_c m) * K := by ring
        _ ≤ _ := Nat.mul_le_mul_right _ hb1
    have hbE : n * K * n_c + k * k_c * chopLen (padTo N n_c n_r) n_c n +
        chopLen K k_c k * chopLen (padTo N n_c n_r) n_c n ≤ K * padTo N n_c n_r := by
      calc _ = n * K * n_c + (k * k_c + chopLen K k_c k) * chopLen (padTo N n_c n_r) n_c n := by ring
        _ ≤ n * K * n_c + K * chopLen (padTo N n_c n_r) n_c n :=
            Nat.add_le_add_left (Nat.mul_le_mul_right _ hK1) _
        _ = K * (n * n_c + chopLen (padTo N n_c n_r) n_c n) := by ring
        _ ≤ _ := Nat.mul_le_mul_left _ hnb
    have hcE : n * padTo M (p * m_c) m_r * n_c + m * p * m_c * chopLen (padTo N n_c n_r) n_c n +
        core * mX M p m_r m_c m * chopLen (padTo N n_c n_r) n_c n ≤
        padTo M (p * m_c) m_r * padTo N n_c n_r := by
      calc _ = n * padTo M (p * m_c) m_r * n_c + (m * p * m_c + core * mX M p m_r m_c m) *
            chopLen (padTo N n_c n_r) n_c n := by ring
        _ ≤ n * padTo M (p * m_c) m_r * n_c + padTo M (p * m_c) m_r *
            chopLen (padTo N n_c n_r) n_c n :=
            Nat.add_le_add_left (Nat.mul_le_mul_right _ (by omega)) _
        _ = padTo M (p * m_c) m_r * (n * n_c + chopLen (padTo N n_c n_r) n_c n) := by ring
        _ ≤ _ := Nat.mul_le_mul_left _ hnb
    have hMK := z.MK
    have hKN := z.KN
    have hMN := z.MN
    have hmcb0 : 0 < (mcbE M N K p m_r n_r m_c k_c n_c m).val := by rw [hcv]; omega
    have hA : (aIndE m p m_c K k (mcbE M N K p m_r n_r m_c k_c n_c m) k_c core
        (mX M p m_r m_c m : Nat) (chopLen K k_c k : Nat)).Good :=
      E.Good.add (E.Good.add (E.Good.mulL (E.Good.mulL (E.Good.mulL (.lit _) hpi h.p_pos) hmci
        h.m_c_pos) hKi hK0) (E.Good.mulL (E.Good.mul (.lit _) hcf hmcb0) z.kc h.k_c_pos))
        (E.Good.mulL (E.Good.mulL (.lit _) hmx hx0) hkc hKl)
    have hB : (bIndE n K n_c k k_c (chopLen (padTo N n_c n_r) n_c n : Nat)).Good :=
      E.Good.add (E.Good.mulL (E.Good.mulL (.lit _) hKi hK0) hnci h.n_c_pos)
        (E.Good.mulL (E.Good.mulL (.lit _) z.kc h.k_c_pos) hncti hnl)
    have hAv : (aIndE m p m_c K k (mcbE M N K p m_r n_r m_c k_c n_c m) k_c core
        (mX M p m_r m_c m : Nat) (chopLen K k_c k : Nat)).val = m * p * m_c * K +
          k * mLen M p m_r m_c m * k_c + core * mX M p m_r m_c m * chopLen K k_c k := by
      simp only [aIndE, E.val_add, E.val_mul, E.val_lit, hcv]
    have hBv : (bIndE n K n_c k k_c (chopLen (padTo N n_c n_r) n_c n : Nat)).val =
        n * K * n_c + k * k_c * chopLen (padTo N n_c n_r) n_c n := by
      simp only [bIndE, E.val_add, E.val_mul, E.val_lit]
    refine AllFits.append ?_ ?_
    · refine .cons ((E.Good.lit _).add .one ?_) <| .cons (hA ?_) <| .cons (hB ?_) <|
        .cons ?_ .nil
      · simp only [E.val_add, E.val_lit, E.val_one]; omega
      · rw [hAv]; omega
      · rw [hBv]; omega
      · refine E.Good.add (E.Good.add (E.Good.mulL (E.Good.mulL (.lit _) hMp hMp0) hnci h.n_c_pos)
          (E.Good.mulL (E.Good.mulL (E.Good.mulL (.lit _) hpi h.p_pos) hmci h.m_c_pos) hncti hnl))
          (E.Good.mulL (E.Good.mulL (.lit _) hmx hx0) hncti hnl) ?_
        simp only [E.val_add, E.val_mul, E.val_lit]
        omega
    · have hmri := i_mr h z.toIntDims
      have hnri := i_nr h z.toIntDims
      have hmt : chopLen (mLen M p m_r m_c m) (mX M p m_r m_c m) core < 2 ^ 31 := by omega
      unfold regInts
      refine AllFits.append (.cons (E.fits_div hncti hnri h.n_r_pos) <|
        .cons (E.fits_div hmt hmri h.m_r_pos) .nil) ?_
      obtain ⟨q, hq⟩ := strip_dvd (core := core) h hm
      obtain ⟨q', hq'⟩ := nlen_dvd (N := N) (n := n) h
      rw [Nat.mul_comm] at hq hq'
      rw [hq, hq', Nat.mul_div_cancel _ h.m_r_pos, Nat.mul_div_cancel _ h.n_r_pos]
      refine AllFits.flatMap fun a ha => AllFits.flatMap fun b hb => ?_
      rw [mem_range] at ha hb
      have ha' : a * n_r + n_r ≤ q' * n_r := by
        have := Nat.mul_le_mul_right n_r (Nat.succ_le_of_lt ha)
        rwa [Nat.succ_mul] at this
      have hb' : b * m_r + m_r ≤ q * m_r := by
        have := Nat.mul_le_mul_right m_r (Nat.succ_le_of_lt hb)
        rwa [Nat.succ_mul] at this
      have e1 : b * m_r * chopLen K k_c k ≤
          chopLen (mLen M p m_r m_c m) (mX M p m_r m_c m) core * chopLen K k_c k := by
        rw [hq]; exact Nat.mul_le_mul_right _ (by omega)
      have e2 : a * chopLen K k_c k * n_r ≤
          chopLen K k_c k * chopLen (padTo N n_c n_r) n_c n := by
        rw [hq']
        calc _ = chopLen K k_c k * (a * n_r) := by ring
          _ ≤ _ := Nat.mul_le_mul_left _ (by omega)
      have e3 : a * (q * m_r) * n_r + b * m_r * n_r ≤ m_c * n_c := by
        calc _ ≤ a * (q * m_r) * n_r + q * m_r * n_r :=
              Nat.add_le_add_left (Nat.mul_le_mul_right _ (by omega)) _
          _ = q * m_r * (a * n_r + n_r) := by ring
          _ ≤ q * m_r * (q' * n_r) := Nat.mul_le_mul_left _ ha'
          _ ≤ _ := Nat.mul_le_mul (by omega) (by omega)
      rw [hq'] at hB hBv
      have hmn := z.mn
      refine .cons (E.Good.add hA (E.Good.mulL (E.Good.mulL (.lit _) hmri h.m_r_pos) hkc hKl) ?_) <|
        .cons (E.Good.add hB (E.Good.mulL (E.Good.mulL (.lit _) hkc hKl) hnri h.n_r_pos) ?_) <|
        .cons (E.Good.add (E.Good.mulL (E.Good.mulL (.lit _) ?_ ?_) hnri h.n_r_pos)
          (E.Good.mulL (E.Good.mulL (.lit _) hmri h.m_r_pos) hnri h.n_r_pos) ?_) <|
        .cons ((E.Good.lit _).add .one ?_) <| .cons ((E.Good.lit _).add .one ?_) .nil
      · rw [E.val_add, hAv]; simp only [E.val_mul, E.val_lit]; omega
      · rw [E.val_add, hBv]; simp only [E.val_mul, E.val_lit]
        rw [← hq']
        omega
      · omega
      · omega
      · simp only [E.val_add, E.val_mul, E.val_lit]; omega
      · simp only [E.val_add, E.val_lit, E.val_one]
        have : a ≤ a * n_r := Nat.le_mul_of_pos_right _ h.n_r_pos
        have := h.n_r_pos
        omega
      · simp only [E.val_add, E.val_lit, E.val_one]
        have : b ≤ b * m_r := Nat.le_mul_of_pos_right _ h.m_r_pos
        have := h.m_r_pos
        omega
  · have hMN := z.MN
    refine .cons ?_ <| .cons ?_ <| .cons ((E.Good.lit _).add .one ?_) <| .cons ?_ .nil
    · refine E.Good.add (E.Good.add (E.Good.mulL (E.Good.mulL (E.Good.mulL (.lit _) hpi h.p_pos) hmci
        h.m_c_pos) hNi hN0) (E.Good.mulL (.lit _) hnci h.n_c_pos))
        (E.Good.mulL (E.Good.mulL (.lit _) hmx hx0) hNi hN0) ?_
      show m * p * m_c * N + n * n_c + core * mX M p m_r m_c m * N < 2 ^ 31
      have hnn := chop_mul_lt h.n_c_pos hn
      have hr : (m * p * m_c + core * mX M p m_r m_c m + 1) * N ≤ padTo M (p * m_c) m_r * N :=
        Nat.mul_le_mul_right _ (by omega)
      have hr2 := Nat.mul_le_mul_left (padTo M (p * m_c) m_r) (padTo_ge N n_c n_r h.n_r_pos)
      have e : (m * p * m_c + core * mX M p m_r m_c m + 1) * N =
        m * p * m_c * N + core * mX M p m_r m_c m * N + N := by ring
      omega
    · refine E.Good.mulL (.lit _) hmx hx0 ?_
      show core * mX M p m_r m_c m < 2 ^ 31
      omega
    · simp only [E.val_add, E.val_lit, E.val_one]; omega
    · exact E.Good.mulL (.lit _) hnci h.n_c_pos z.mn
  · show AllFits (unpackInts M N (m1E M p m_c m).val (n1E N n_c n).val (core * mX M p m_r m_c m)
      (if (m == cdiv M (p * m_c) - 1 && M % (p * m_c) != 0) = true then
          (if core = (dimsKMN M N K p m_r n_r m_c k_c n_c).p_l - 1 then
            (dimsKMN M N K p m_r n_r m_c k_c n_c).m_c1_last_core
           else (dimsKMN M N K p m_r n_r m_c k_c n_c).m_c1) else m_c)
      (if (n == cdiv N n_c - 1 && N % n_c != 0) = true then cdiv (N % n_c) n_r * n_r else n_c)
      m_r n_r)
    rw [hm1v, hn1v, h6 core hcore, n_len h hn]
    refine unpackInts_fits h.m_r_pos h.n_r_pos (strip_dvd h hm) (nlen_dvd h) (by omega) (by omega)
      hNi ?_ (i_MN h z)
    exact Nat.lt_of_le_of_lt (Nat.mul_le_mul (by omega) (by omega)) z.mn

theorem sizeInts_fits : AllFits (sizeInts M N K p m_r (dimsKMN M N K p m_r n_r m_c k_c n_c)) := by
  obtain ⟨⟨hMPv, hMPf⟩, hNPv, hNPf⟩ := padE_ok h z.toIntDims
  have hKi := z.Ki
  have hnci := i_nc h z.toIntDims
  refine .cons ⟨hMPf, hKi, ?_⟩ <| .cons ⟨hKi, hNPf, ?_⟩ <| .cons ?_ .nil
  · show (mPaddedE M p m_r m_c (cdiv (M % (p * m_c)) m_r : Nat)).val * K < 2 ^ 31
    rw [hMPv]; exact z.MK
  · show K * (nPaddedE N n_c (cdiv (N % n_c) n_r * n_r : Nat)).val < 2 ^ 31
    rw [hNPv]; exact z.KN
  · exact E.Good.mulL (.lit _) hnci h.n_c_pos z.mn

theorem kfirstInts_fits : AllFits (kfirstInts M N K p m_r n_r m_c k_c n_c) :=
  .append (.append (.append (.append (dimsInts_fits h z.toIntDims) (sizeInts_fits h z))
    (packAInts_fits h z)) (packBInts_fits h z)) (schedInts_fits h z)

end

end Cake
