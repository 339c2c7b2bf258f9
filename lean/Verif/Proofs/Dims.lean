/-
The block dimensions computed by `init_block_dims`, in closed form: every dimension is chopped into
equal blocks, each block into equal per-core strips.
-/
import Verif.Model.Dims
import Verif.Chop

namespace Cake
open List

/-- Valid tile sizes: positive, and multiples of the register tile. -/
structure TileOK (p m_r n_r m_c k_c n_c : Nat) : Prop where
  p_pos : 0 < p
  m_r_pos : 0 < m_r
  n_r_pos : 0 < n_r
  m_c_pos : 0 < m_c
  k_c_pos : 0 < k_c
  n_c_pos : 0 < n_c
  m_dvd : m_r ∣ m_c
  n_dvd : n_r ∣ n_c

/-- A block of `len` rows that all but possibly the last core share in strips of `X` rows. -/
structure CoreBlk (S len X u : Nat) : Prop where
  len_le : len ≤ S
  len_pos : 0 < len
  X_pos : 0 < X
  u_eq : u = cdiv len X

namespace TileOK
variable {p m_r n_r m_c k_c n_c : Nat} (h : TileOK p m_r n_r m_c k_c n_c)
include h

theorem S_pos : 0 < p * m_c := Nat.mul_pos h.p_pos h.m_c_pos
theorem S_dvd : m_r ∣ p * m_c := Dvd.dvd.mul_left h.m_dvd p

end TileOK

/-! ### KMN -/

section KMN
variable {M N K p m_r n_r m_c k_c n_c : Nat} (h : TileOK p m_r n_r m_c k_c n_c)

/-- Strip size in block `m` (`m_c_x`). -/
def mX (M p m_r m_c m : Nat) : Nat :=
  if (m == cdiv M (p * m_c) - 1 && M % (p * m_c) != 0) = true then
    cdiv (cdiv (M % (p * m_c)) m_r) p * m_r else m_c

/-- Rows in block `m`. -/
def mLen (M p m_r m_c m : Nat) : Nat := chopLen (padTo M (p * m_c) m_r) (p * m_c) m

include h

theorem kmn_Mb : (dimsKMN M N K p m_r n_r m_c k_c n_c).Mb = cdiv M (p * m_c) :=
  cdiv_eq_div_add _ _ h.S_pos
theorem kmn_Nb : (dimsKMN M N K p m_r n_r m_c k_c n_c).Nb = cdiv N n_c :=
  cdiv_eq_div_add _ _ h.n_c_pos
theorem kmn_Kb : (dimsKMN M N K p m_r n_r m_c k_c n_c).Kb = cdiv K k_c :=
  cdiv_eq_div_add _ _ h.k_c_pos

omit h in
theorem kmn_M_padded : (dimsKMN M N K p m_r n_r m_c k_c n_c).M_padded = padTo M (p * m_c) m_r := by
  simp only [dimsKMN, padTo]; ring

omit h in
theorem sub_mod_eq (N n_c : Nat) : N - N % n_c = N / n_c * n_c := by
  have := Nat.div_add_mod N n_c
  rw [Nat.mul_comm] at this
  omega

omit h in
theorem kmn_N_padded : (dimsKMN M N K p m_r n_r m_c k_c n_c).N_padded = padTo N n_c n_r := by
  simp only [dimsKMN, padTo, sub_mod_eq]

theorem mb_eq : cdiv M (p * m_c) = cdiv (padTo M (p * m_c) m_r) (p * m_c) :=
  (cdiv_padTo h.S_pos h.m_r_pos h.S_dvd).symm
theorem nb_eq : cdiv N n_c = cdiv (padTo N n_c n_r) n_c :=
  (cdiv_padTo h.n_c_pos h.n_r_pos h.n_dvd).symm

theorem n_len {n : Nat} (hn : n < cdiv N n_c) :
    (if (n == cdiv N n_c - 1 && N % n_c != 0) = true then cdiv (N % n_c) n_r * n_r else n_c) =
      chopLen (padTo N n_c n_r) n_c n :=
  (chopLen_padTo h.n_c_pos h.n_r_pos h.n_dvd hn).symm

omit h in
theorem k_len {s k : Nat} (hs : 0 < s) (hk : k < cdiv K s) :
    (if (k == cdiv K s - 1 && K % s != 0) = true then K % s else s) = chopLen K s k := by
  have := chopLen_padTo (u := 1) hs (by omega) (Nat.one_dvd _) hk
  rw [padTo_one] at this
  rw [this]
  simp [cdiv]

theorem m_len {m : Nat} (hm : m < cdiv M (p * m_c)) :
    (if (m == cdiv M (p * m_c) - 1 && M % (p * m_c) != 0) = true then
      m_r * cdiv (M % (p * m_c)) m_r else p * m_c) = mLen M p m_r m_c m := by
  unfold mLen
  rw [chopLen_padTo h.S_pos h.m_r_pos h.S_dvd hm, Nat.mul_comm m_r]

/-- Everything about the strips of block `m`. -/
theorem m_strips {m : Nat} (hm : m < cdiv M (p * m_c)) :
    0 < mX M p m_r m_c m ∧ mX M p m_r m_c m ≤ m_c ∧ m_r ∣ mX M p m_r m_c m ∧
    (if (m == cdiv M (p * m_c) - 1 && M % (p * m_c) != 0) = true then
      (dimsKMN M N K p m_r n_r m_c k_c n_c).p_l else p) =
        cdiv (mLen M p m_r m_c m) (mX M p m_r m_c m) ∧
    cdiv (mLen M p m_r m_c m) (mX M p m_r m_c m) ≤ p ∧
    ∀ core, core < cdiv (mLen M p m_r m_c m) (mX M p m_r m_c m) →
      (if (m == cdiv M (p * m_c) - 1 && M % (p * m_c) != 0) = true then
        (if core = (dimsKMN M N K p m_r n_r m_c k_c n_c).p_l - 1 then
          (dimsKMN M N K p m_r n_r m_c k_c n_c).m_c1_last_core
         else (dimsKMN M N K p m_r n_r m_c k_c n_c).m_c1) else m_c) =
      chopLen (mLen M p m_r m_c m) (mX M p m_r m_c m) core := by
  rw [← m_len h hm]
  unfold mX
  by_cases hl : (m == cdiv M (p * m_c) - 1 && M % (p * m_c) != 0) = true
  · simp only [if_pos hl]
    simp only [Bool.and_eq_true, bne_iff_ne, beq_iff_eq] at hl
    have hrem : 0 < M % (p * m_c) := by omega
    have ht := cdiv_pos hrem h.m_r_pos
    have hx := cdiv_pos ht h.p_pos
    have hxm : 0 < cdiv (cdiv (M % (p * m_c)) m_r) p * m_r := Nat.mul_pos hx h.m_r_pos
    have hpl : (dimsKMN M N K p m_r n_r m_c k_c n_c).p_l =
        cdiv (cdiv (M % (p * m_c)) m_r) (cdiv (cdiv (M % (p * m_c)) m_r) p) := by
      simp only [dimsKMN]
      rw [if_pos (by omega)]
    rw [Nat.mul_comm m_r, cdiv_mul_mul hx h.m_r_pos]
    refine ⟨hxm, ?_, Nat.dvd_mul_left _ _, hpl, core_split_le h.p_pos ht, ?_⟩
    · obtain ⟨q, hq⟩ := h.m_dvd
      have h1 := cdiv_rem_le (T := M) h.S_pos h.m_r_pos h.S_dvd
      have h2 : cdiv (M % (p * m_c)) m_r ≤ q * p := by
        apply cdiv_le_of_le_mul h.m_r_pos
        have := Nat.mod_lt M h.S_pos
        have e : q * p * m_r = p * m_c := by rw [hq]; ring
        omega
      have h3 := cdiv_le_of_le_mul h.p_pos h2
      calc _ ≤ q * m_r := Nat.mul_le_mul_right _ h3
        _ = m_c := by rw [hq]; ring
    · intro core hc
      have hlast : (dimsKMN M N K p m_r n_r m_c k_c n_c).m_c1_last_core =
          chopLen (cdiv (M % (p * m_c)) m_r) (cdiv (cdiv (M % (p * m_c)) m_r) p)
            (cdiv (cdiv (M % (p * m_c)) m_r) (cdiv (cdiv (M % (p * m_c)) m_r) p) - 1) * m_r := by
        rw [← core_last hx ht, ← hpl]
        rfl
      rw [hlast, hpl, chopLen_mul, ← core_len hx hc]
      split <;> rfl
  · simp only [if_neg hl]
    refine ⟨h.m_c_pos, Nat.le_refl _, h.m_dvd, (cdiv_mul_self _ _ h.m_c_pos).symm, ?_, ?_⟩
    · rw [cdiv_mul_self _ _ h.m_c_pos]
    · intro core hc
      rw [cdiv_mul_self _ _ h.m_c_pos] at hc
      unfold chopLen
      have := Nat.mul_le_mul_right m_c (Nat.succ_le_of_lt hc)
      rw [Nat.succ_mul] at this
      omega

end KMN
end Cake
