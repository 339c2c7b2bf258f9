/-
Bounds on the `int` expressions of `cake_sgemm_online` and `cake_sgemm_2d` (`Verif.Model.IntRangeOn`).
-/
import Verif.Model.IntRangeOn
import Verif.Proofs.IntRange
import Verif.Proofs.TwoDDims

namespace Cake
open List

theorem AllFits.skip {c : Prop} [Decidable c] {l : List E} (h : AllFits l) : AllFits (if c then [] else l) := by
  split
  · exact .nil
  · exact h

theorem AllFits.skip' {c : Prop} [Decidable c] {l : List E} (h : ¬ c → AllFits l) :
    AllFits (if c then [] else l) := by
  split
  · exact .nil
  · exact h ‹_›

/-- The register-tile loops of one core. -/
theorem regInts_fits {a b : E} {m_r n_r mt nt kt : Nat} (hm : 0 < m_r) (hn : 0 < n_r) (hmri : m_r < 2 ^ 31)
    (hnri : n_r < 2 ^ 31) (hdm : m_r ∣ mt) (hdn : n_r ∣ nt) (hmt : mt < 2 ^ 31) (hnt : nt < 2 ^ 31) (hk : 0 < kt)
    (hkt : kt < 2 ^ 31) (ha : a.Good) (hb : b.Good) (hA : a.val + mt * kt < 2 ^ 31) (hB : b.val + kt * nt < 2 ^ 31)
    (hC : mt * nt < 2 ^ 31) : AllFits (regInts a b m_r n_r mt nt kt) := by
  obtain ⟨q, rfl⟩ := hdm
  obtain ⟨q', rfl⟩ := hdn
  rw [Nat.mul_comm m_r q, Nat.mul_comm n_r q'] at *
  unfold regInts
  refine AllFits.append (.cons (E.fits_div hnt hnri hn) <| .cons (E.fits_div hmt hmri hm) .nil) ?_
  rw [Nat.mul_div_cancel _ hm, Nat.mul_div_cancel _ hn]
  refine AllFits.flatMap fun x hx => AllFits.flatMap fun y hy => ?_
  rw [mem_range] at hx hy
  have hx' : x * n_r + n_r ≤ q' * n_r := by
    have := Nat.mul_le_mul_right n_r (Nat.succ_le_of_lt hx)
    rwa [Nat.succ_mul] at this
  have hy' : y * m_r + m_r ≤ q * m_r := by
    have := Nat.mul_le_mul_right m_r (Nat.succ_le_of_lt hy)
    rwa [Nat.succ_mul] at this
  have e1 : y * m_r * kt ≤ q * m_r * kt := Nat.mul_le_mul_right _ (by omega)
  have e2 : x * kt * n_r ≤ kt * (q' * n_r) := by
    calc _ = kt * (x * n_r) := by ring
      _ ≤ _ := Nat.mul_le_mul_left _ (by omega)
  have e3 : x * (q * m_r) * n_r + y * m_r * n_r ≤ q * m_r * (q' * n_r) := by
    calc _ ≤ x * (q * m_r) * n_r + q * m_r * n_r := Nat.add_le_add_left (Nat.mul_le_mul_right _ (by omega)) _
      _ = q * m_r * (x * n_r + n_r) := by ring
      _ ≤ _ := Nat.mul_le_mul_left _ hx'
  refine .cons (E.Good.add ha (E.Good.mulL (E.Good.mulL (.lit _) hmri hm) hkt hk) ?_) <|
    .cons (E.Good.add hb (E.Good.mulL (E.Good.mulL (.lit _) hkt hk) hnri hn) ?_) <|
    .cons (E.Good.add (E.Good.mulL (E.Good.mulL (.lit _) hmt ?_) hnri hn)
      (E.Good.mulL (E.Good.mulL (.lit _) hmri hm) hnri hn) ?_) <|
    .cons ((E.Good.lit _).add .one ?_) <| .cons ((E.Good.lit _).add .one ?_) .nil
  · rw [E.val_add]; simp only [E.val_mul, E.val_lit]; omega
  · rw [E.val_add]; simp only [E.val_mul, E.val_lit]; omega
  · omega
  · simp only [E.val_add, E.val_mul, E.val_lit]; omega
  · simp only [E.val_add, E.val_lit, E.val_one]
    have : x ≤ x * n_r := Nat.le_mul_of_pos_right _ hn
    omega
  · simp only [E.val_add, E.val_lit, E.val_one]
    have : y ≤ y * m_r := Nat.le_mul_of_pos_right _ hm
    omega

/-- A loop that packs `w` rows or columns in strips of `r`. -/
theorem strips_fits {w r kt : Nat} {g : Nat → E} (hr : 0 < r) (hd : r ∣ w) (hw : w < 2 ^ 31) (hk : 0 < kt)
    (hkt : kt < 2 ^ 31) (hwk : w * kt < 2 ^ 31) (hg : ∀ y, y + r ≤ w → (g y).Fits) :
    AllFits ((cfor 0 w r).flatMap fun (n2 : Nat) => [g n2, (n2 : E) * kt, (n2 : E) + r]) := by
  obtain ⟨q, rfl⟩ := hd
  rw [Nat.mul_comm r q] at *
  rw [cfor_zero_mul _ _ hr]
  refine AllFits.flatMap fun n2 hn2 => ?_
  obtain ⟨t, ht, rfl⟩ := List.mem_map.1 hn2
  rw [mem_range] at ht
  have ht' : t * r + r ≤ q * r := by
    have := Nat.mul_le_mul_right r (Nat.succ_le_of_lt ht)
    rwa [Nat.succ_mul] at this
  have e : t * r * kt ≤ q * r * kt := Nat.mul_le_mul_right _ (by omega)
  refine .cons (hg _ ht') <| .cons (E.Good.mulL (.lit _) hkt hk ?_) <| .cons ((E.Good.lit _).add (.lit _) ?_) .nil
  · simp only [E.val_mul, E.val_lit]; omega
  · simp only [E.val_add, E.val_lit]; omega

/-- Index `(R, k)` of a matrix with `M` rows and `K` columns. -/
theorem idx_lt {R k M K : Nat} (hR : R < M) (hk : k < K) : R * K + k < M * K := by
  have h3 : (R + 1) * K ≤ M * K := Nat.mul_le_mul_right _ hR
  have e : (R + 1) * K = R * K + K := by ring
  omega

section
variable {M N K p m_r n_r m_c k_c n_c : Nat} (h : TileOK p m_r n_r m_c k_c n_c)
  (z : IntDims M N K p m_r n_r m_c k_c n_c)
include h z

theorem schedOnInts_fits (hMK : M * K < 2 ^ 31) (hKN : K * N < 2 ^ 31) (hMN : M * N < 2 ^ 31)
    (hmk : m_c * k_c < 2 ^ 31) (hkn : k_c * n_c < 2 ^ 31) :
    AllFits (schedOnInts M N K p m_r n_r (dimsKMN M N K p m_r n_r m_c k_c n_c)) := by
  have hMb : cdiv M (p * m_c) ≤ M := cdiv_le_self' h.S_pos
  have hKb : cdiv K k_c ≤ K := cdiv_le_self' h.k_c_pos
  have hNb : cdiv N n_c ≤ N := cdiv_le_self' h.n_c_pos
  have hMi := i_M h z
  have hNi := i_N h z
  have hKi := z.Ki
  have hmci := i_mc h z
  have hnci := i_nc h z
  have hmri := i_mr h z
  have hnri := i_nr h z
  have hpi := i_p h z
  have hpm := z.pm
  have hMp := z.Mp
  have hNp := z.Np
  have hMlt := padTo_lt M (p * m_c) m_r h.m_r_pos
  have hNlt := padTo_lt N n_c n_r h.n_r_pos
  unfold schedOnInts
  rw [kmn_Mb h, kmn_Kb h, kmn_Nb h]
  refine AllFits.flatMap fun n hn => ?_
  rw [mem_range] at hn
  obtain ⟨hn1v, hn1f⟩ := n1E_ok h z hn
  have hnb := chop_bound' h.n_c_pos (show n < cdiv (padTo N n_c n_r) n_c by rwa [← nb_eq h])
  have hnl := chopLen_pos h.n_c_pos (show n < cdiv (padTo N n_c n_r) n_c by rwa [← nb_eq h])
  have hnlc := chopLen_le (padTo N n_c n_r) n_c n
  have hnn := chop_mul_lt h.n_c_pos hn
  have hN0 : 0 < N := by omega
  refine AllFits.append (.cons hn1f <| .cons ((E.Good.lit _).add .one ?_) .nil) ?_
  · simp only [E.val_add, E.val_lit, E.val_one]; omega
  refine AllFits.flatMap fun m hm => ?_
  rw [mem_serp] at hm
  obtain ⟨hcv, hcf⟩ := mcbE_ok h z hm
  obtain ⟨hm1v, hm1f⟩ := m1E_ok h z hm
  obtain ⟨hb1, hb2⟩ := blk_bounds h hm
  obtain ⟨_, _, hxd, h4, _, h6⟩ := m_strips (N := N) (K := K) (k_c := k_c) (n_r := n_r) (n_c := n_c) h hm
  have hmm : m * p * m_c < M := by
    have := chop_mul_lt h.S_pos hm
    rwa [← Nat.mul_assoc] at this
  have hrow : (rowE m p m_c).Good := E.Good.mulL (E.Good.mulL (.lit _) hpi h.p_pos) hmci h.m_c_pos
  have hrowv : (rowE m p m_c).val = m * p * m_c := rfl
  refine AllFits.append (AllFits.append (AllFits.append
    (.cons hcf <| .cons hm1f <| .cons ((E.Good.lit _).add .one ?_) .nil)
    (AllFits.flatMap fun k hk => ?_)) (.cons ?_ .nil)) (AllFits.flatMap fun core hcore => ?_)
  · simp only [E.val_add, E.val_lit, E.val_one]; omega
  · rw [mem_serp] at hk
    have hkk := chop_mul_lt h.k_c_pos hk
    have hK0 : 0 < K := by omega
    have hK1 := chop_bound' h.k_c_pos hk
    have hKl := chopLen_pos h.k_c_pos hk
    have hklc := chopLen_le K k_c k
    have hkc : chopLen K k_c k < 2 ^ 31 := by omega
    have hncti : chopLen (padTo N n_c n_r) n_c n < 2 ^ 31 := by omega
    have hkc' := z.kc
    refine AllFits.append (AllFits.append (.cons ((E.Good.lit _).add .one ?_) .nil) ?_)
      (AllFits.flatMap fun core hcore => ?_)
    · simp only [E.val_add, E.val_lit, E.val_one]; omega
    · refine AllFits.skip ?_
      · show AllFits ((cfor 0 (if (n == cdiv N n_c - 1 && N % n_c != 0) = true then
            cdiv (N % n_c) n_r * n_r else n_c) n_r).flatMap fun (n2 : Nat) =>
            [n1E N n_c n + (k : E) * k_c * N + n2, (n2 : E) *
              (if (k == cdiv K k_c - 1 && K % k_c != 0) = true then K % k_c else k_c : Nat), (n2 : E) + n_r])
        rw [n_len h hn, k_len h.k_c_pos hk]
        refine strips_fits h.n_r_pos (nlen_dvd h) hncti hKl hkc ?_ fun y hy => ?_
        · refine Nat.lt_of_le_of_lt (Nat.mul_le_mul hnlc hklc) ?_
          rwa [Nat.mul_comm]
        · refine E.Good.add (E.Good.add (.of hn1f) (E.Good.mulL (E.Good.mulL (.lit _) z.kc h.k_c_pos) hNi hN0))
            (.lit _) ?_
          simp only [E.val_add, E.val_mul, E.val_lit, hn1v]
          have := idx_lt hkk (show n * n_c + y < N by omega)
          omega
    · change core ∈ range (if (m == cdiv M (p * m_c) - 1 && M % (p * m_c) != 0) = true then
        (dimsKMN M N K p m_r n_r m_c k_c n_c).p_l else p) at hcore
      rw [h4, mem_range] at hcore
      obtain ⟨hc1, hx0, hxm, hcp⟩ := core_bounds h hm hcore
      have hmx : mX M p m_r m_c m < 2 ^ 31 := by omega
      have hslx : chopLen (mLen M p m_r m_c m) (mX M p m_r m_c m) core ≤ mX M p m_r m_c m := chopLen_le _ _ _
      show AllFits ([(core : E) + 1, rowE m p m_c * K + (k : E) * k_c] ++
        (if (k == (if (if n % 2 ≠ 0 then (if m % 2 ≠ 0 then false else true)
              else (if m % 2 ≠ 0 then true else false)) = true then cdiv K k_c - 1 else 0) &&
            m == (if n % 2 ≠ 0 then cdiv M (p * m_c) - 1 else 0) && n != 0) = true then [] else
          (cfor 0 (if (m == cdiv M (p * m_c) - 1 && M % (p * m_c) != 0) = true then
            (if core = (dimsKMN M N K p m_r n_r m_c k_c n_c).p_l - 1 then
              (dimsKMN M N K p m_r n_r m_c k_c n_c).m_c1_last_core
             else (dimsKMN M N K p m_r n_r m_c k_c n_c).m_c1) else m_c) m_r).flatMap fun (m3 : Nat) =>
              [aOffE m p m_c K k k_c core (mX M p m_r m_c m : Nat) + (m3 : E) * K, (m3 : E) *
                (if (k == cdiv K k_c - 1 && K % k_c != 0) = true then K % k_c else k_c : Nat), (m3 : E) + m_r]) ++
        regInts 0 0 m_r n_r (if (m == cdiv M (p * m_c) - 1 && M % (p * m_c) != 0) = true then
            (if core = (dimsKMN M N K p m_r n_r m_c k_c n_c).p_l - 1 then
              (dimsKMN M N K p m_r n_r m_c k_c n_c).m_c1_last_core
             else (dimsKMN M N K p m_r n_r m_c k_c n_c).m_c1) else m_c)
          (if (n == cdiv N n_c - 1 && N % n_c != 0) = true then cdiv (N % n_c) n_r * n_r else n_c)
          (if (k == cdiv K k_c - 1 && K % k_c != 0) = true then K % k_c else k_c))
      rw [n_len h hn, k_len h.k_c_pos hk, h6 core hcore]
      have hmt : chopLen (mLen M p m_r m_c m) (mX M p m_r m_c m) core < 2 ^ 31 := by omega
      refine AllFits.append (AllFits.append (.cons ((E.Good.lit _).add .one ?_) <| .cons ?_ .nil) ?_) ?_
      · simp only [E.val_add, E.val_lit, E.val_one]; omega
      · refine E.Good.add (E.Good.mulL hrow hKi hK0) (E.Good.mulL (.lit _) z.kc h.k_c_pos) ?_
        simp only [E.val_add, E.val_mul, E.val_lit, hrowv]
        have := idx_lt hmm hkk
        omega
      · refine AllFits.skip ?_
        · refine strips_fits h.m_r_pos (strip_dvd h hm) hmt hKl hkc ?_ fun y hy => ?_
          · exact Nat.lt_of_le_of_lt (Nat.mul_le_mul (Nat.le_trans hslx hxm) hklc) hmk
          · refine E.Good.add (E.Good.add (E.Good.add (E.Good.mulL hrow hKi hK0)
              (E.Good.mulL (.lit _) z.kc h.k_c_pos)) (E.Good.mulL (E.Good.mulL (.lit _) hmx hx0) hKi hK0))
              (E.Good.mulL (.lit _) hKi hK0) ?_
            simp only [aOffE, E.val_add, E.val_mul, E.val_lit]
            have := idx_lt (show m * p * m_c + core * mX M p m_r m_c m + y < M by omega) hkk
            have e : (m * p * m_c + core * mX M p m_r m_c m + y) * K =
              m * p * m_c * K + core * mX M p m_r m_c m * K + y * K := by ring
            omega
      · refine regInts_fits h.m_r_pos h.n_r_pos hmri hnri (strip_dvd h hm) (nlen_dvd h) hmt hncti hKl hkc
          (E.Good.lit 0) (E.Good.lit 0) ?_ ?_ ?_
        · refine Nat.lt_of_le_of_lt ?_ hmk
          show 0 + _ ≤ _
          rw [Nat.zero_add]
          exact Nat.mul_le_mul (Nat.le_trans hslx hxm) hklc
        · refine Nat.lt_of_le_of_lt ?_ hkn
          show 0 + _ ≤ _
          rw [Nat.zero_add]
          exact Nat.mul_le_mul hklc hnlc
        · exact Nat.lt_of_le_of_lt (Nat.mul_le_mul (Nat.le_trans hslx hxm) hnlc) z.mn
  · refine E.Good.add (E.Good.mulL hrow hNi hN0) (E.Good.mulL (.lit _) hnci h.n_c_pos) ?_
    show m * p * m_c * N + n * n_c < 2 ^ 31
    have := idx_lt hmm hnn
    omega
  · change core ∈ range (if (m == cdiv M (p * m_c) - 1 && M % (p * m_c) != 0) = true then
      (dimsKMN M N K p m_r n_r m_c k_c n_c).p_l else p) at hcore
    rw [h4, mem_range] at hcore
    obtain ⟨hc1, hx0, hxm, hcp⟩ := core_bounds h hm hcore
    have hmx : mX M p m_r m_c m < 2 ^ 31 := by omega
    have hsl := chopLen_pos hx0 hcore
    have hslx : chopLen (mLen M p m_r m_c m) (mX M p m_r m_c m) core ≤ mX M p m_r m_c m := chopLen_le _ _ _
    have hrl := Nat.le_of_dvd hsl (strip_dvd (core := core) h hm)
    refine AllFits.append ?_ ?_
    · refine .cons ?_ <| .cons ?_ <| .cons ((E.Good.lit _).add .one ?_) <| .cons ?_ .nil
      · refine E.Good.add (E.Good.add (E.Good.mulL hrow hNi hN0) (E.Good.mulL (.lit _) hnci h.n_c_pos))
          (E.Good.mulL (E.Good.mulL (.lit _) hmx hx0) hNi hN0) ?_
        show m * p * m_c * N + n * n_c + core * mX M p m_r m_c m * N < 2 ^ 31
        have := idx_lt (show m * p * m_c + core * mX M p m_r m_c m < M by omega) hnn
        have e : (m * p * m_c + core * mX M p m_r m_c m) * N = m * p * m_c * N + core * mX M p m_r m_c m * N := by ring
        omega
      · refine E.Good.mulL (.lit _) hmx hx0 ?_
        show core * mX M p m_r m_c m < 2 ^ 31
        omega
      · simp only [E.val_add, E.val_lit, E.val_one]; omega
      · exact E.Good.mulL (.lit _) hnci h.n_c_pos z.mn
    · show AllFits (unpackInts M N (m1E M p m_c m).val (n1E N n_c n).val (core * mX M p m_r m_c m)
        (if (m == cdiv M (p * m_c) - 1 && M % (p * m_c) != 0) = true then
            (if core = (dimsKMN M N K p m_r n_r m_c k_c n_c).p_l - 1 then
              (dimsKMN M N K p m_r n_r m_c k_c n_c).m_c1_last_core
             else (dimsKMN M N K p m_r n_r m_c k_c n_c).m_c1) else m_c)
        (if (n == cdiv N n_c - 1 && N % n_c != 0) = true then cdiv (N % n_c) n_r * n_r else n_c)
        m_r n_r)
      rw [hm1v, hn1v, h6 core hcore, n_len h hn]
      refine unpackInts_fits h.m_r_pos h.n_r_pos (strip_dvd h hm) (nlen_dvd h) (by omega) (by omega)
        hNi ?_ hMN
      exact Nat.lt_of_le_of_lt (Nat.mul_le_mul (by omega) (by omega)) z.mn

theorem onlineInts_fits (hMK : M * K < 2 ^ 31) (hKN : K * N < 2 ^ 31) (hMN : M * N < 2 ^ 31)
    (hmk : m_c * k_c < 2 ^ 31) (hkn : k_c * n_c < 2 ^ 31) :
    AllFits (onlineInts M N K p m_r n_r m_c k_c n_c) :=
  .append (.append (dimsInts_fits h z) <| .cons (E.Good.mulL (.lit _) z.kc h.k_c_pos hmk) <|
    .cons (E.Good.mulL (.lit _) (i_nc h z) h.n_c_pos hkn) <|
    .cons (E.Good.mulL (.lit _) (i_nc h z) h.n_c_pos z.mn) .nil) (schedOnInts_fits h z hMK hKN hMN hmk hkn)

end

/-! ### The 2-D grid -/

theorem roundUpC_cdiv {x r : Nat} (hr : 0 < r) : roundUpC x r = cdiv x r * r := by rw [roundUpC_eq hr]; rfl

theorem roundUpC_le_dvd {x r t : Nat} (hr : 0 < r) (hd : r ∣ t) (h : x ≤ t) : roundUpC x r ≤ t := by
  obtain ⟨q, rfl⟩ := hd
  rw [roundUpC_cdiv hr, Nat.mul_comm r q]
  exact Nat.mul_le_mul_right _ (cdiv_le_of_le_mul hr (by rwa [Nat.mul_comm q r]))

theorem roundUpE_val (x r : Nat) : (roundUpE x r).val = roundUpC x r := by
  unfold roundUpE roundUpC
  split <;> rfl

theorem roundUpE_fits {x r : Nat} (hr : 0 < r) (hri : r < 2 ^ 31) (h : roundUpC x r < 2 ^ 31) : (roundUpE x r).Fits := by
  have hx := Nat.lt_of_le_of_lt (roundUpC_ge x r) h
  have hm := Nat.mod_lt x hr
  rw [← roundUpE_val] at h
  revert h
  unfold roundUpE
  split
  · intro h
    exact ⟨hx, ⟨hri, E.fits_mod hx hri hr, Nat.le_of_lt hm⟩, h⟩
  · exact fun h => h

/-- What the shrinking of one side of the grid evaluates. -/
theorem fit2dInts_fits {P q t r : Nat} (hq : 0 < q) (hr : 0 < r) (ht : 0 < t) (hd : r ∣ t) (hri : r < 2 ^ 31)
    (hqi : q < 2 ^ 31) (hti : t < 2 ^ 31) (hP : P < 2 ^ 31) (h : P = q * r ∨ q * t < 2 ^ 31) :
    AllFits (fit2dInts P q t r) := by
  have hqr : q * r < 2 ^ 31 := by
    rcases h with h | h
    · omega
    · exact Nat.lt_of_le_of_lt (Nat.mul_le_mul_left _ (Nat.le_of_dvd ht hd)) h
  unfold fit2dInts
  refine .append (.cons (E.Good.mulL (.lit _) hri hr hqr) .nil) (AllFits.skip' fun hne => ?_)
  have hqt : q * t < 2 ^ 31 := by
    rcases h with h | h
    · exact absurd h hne
    · exact h
  refine .append (.cons (E.Good.mulL (.lit _) hti ht hqt) .nil) ?_
  split
  · rename_i hlt
    refine .append (.cons (E.fits_div hP hqi hq) .nil) ?_
    split
    · exact .cons (E.fits_div hP hri hr) .nil
    · have ha : P / q ≤ t := Nat.le_of_lt (Nat.div_lt_of_lt_mul hlt)
      refine .cons (E.fits_mod (show P / q < 2 ^ 31 by omega) hri hr) <| .cons (roundUpE_fits hr hri ?_) .nil
      exact Nat.lt_of_le_of_lt (roundUpC_le_dvd hr hd ha) hti
  · exact .nil

theorem fit2d_le' {padded pm m_c mr : Nat} (hr : 0 < mr) (hd : mr ∣ m_c) (h0 : 0 < m_c) :
    (fit2d padded pm m_c mr).2 ≤ m_c := by
  have hle : mr ≤ m_c := Nat.le_of_dvd h0 hd
  unfold fit2d
  split
  · exact hle
  · split
    · rename_i h
      dsimp only
      split
      · exact hle
      · exact roundUpC_le_dvd hr hd (Nat.le_of_lt (Nat.div_lt_of_lt_mul h))
    · exact Nat.le_refl _

/-- Number of rows (columns) in block `m`, as the code computes it. -/
def sLenE (T q r t m : Nat) : E :=
  if (m == cdiv T (q * t) - 1 && T % (q * t) != 0) = true then (r : E) * (cdiv (T % (q * t)) r : Nat) else (q : E) * t

/-- One side of the grid. -/
structure IntSide (T q r t : Nat) : Prop where
  tile : TileOK q r 1 t 1 1
  pad : padTo T (q * t) r < 2 ^ 31
  qt : q * t < 2 ^ 31

namespace IntSide
variable {T q r t : Nat} (h : IntSide T q r t)
include h

theorem dims : IntDims T 0 0 q r 1 t 1 1 where
  Mp := h.pad
  Np := by rw [padTo_one]; decide
  Ki := by decide
  kc := by decide
  pm := h.qt
  mn := by rw [Nat.mul_one]; exact Nat.lt_of_le_of_lt (Nat.le_mul_of_pos_left _ h.tile.p_pos) h.qt

theorem len_ok {m : Nat} (hm : m < cdiv T (q * t)) :
    (sLenE T q r t m).val = mLen T q r t m ∧ (sLenE T q r t m).Fits := by
  have e : sLenE T q r t m = mcbE T 0 0 q r 1 t 1 1 m := by
    unfold sLenE mcbE
    split <;> rfl
  rw [e]
  exact mcbE_ok h.tile h.dims hm

theorem start_ok {m : Nat} (hm : m < cdiv T (q * t)) : (m1E T q t m).val = m * q * t ∧ (m1E T q t m).Fits :=
  m1E_ok h.tile h.dims hm

theorem row_good (m : Nat) : (rowE m q t).Good :=
  E.Good.mulL (E.Good.mulL (.lit _) (i_p h.tile h.dims) h.tile.p_pos) (i_mc h.tile h.dims) h.tile.m_c_pos

theorem ints_fits :
    AllFits (sideInts T q r t (cdiv (T % (q * t)) r) (cdiv (cdiv (T % (q * t)) r) q) (dimsKMN T 0 0 q r 1 t 1 1).p_l
      (T % (q * t) != 0)) := by
  have := dimsInts_fits h.tile h.dims
  intro e he
  refine this e ?_
  unfold sideInts at he
  simp only [dimsInts, List.mem_cons, List.not_mem_nil, or_false] at he ⊢
  rcases he with rfl | rfl | rfl | rfl | rfl | rfl | rfl
  · exact Or.inr (Or.inr (Or.inl rfl))
  · exact Or.inr (Or.inr (Or.inr (Or.inl rfl)))
  · exact Or.inr (Or.inr (Or.inr (Or.inr (Or.inl rfl))))
  · exact Or.inr (Or.inr (Or.inr (Or.inr (Or.inr (Or.inr (Or.inl rfl))))))
  · exact Or.inr (Or.inr (Or.inr (Or.inr (Or.inr (Or.inr (Or.inr (Or.inl rfl)))))))
  · exact Or.inr (Or.inr (Or.inr (Or.inr (Or.inr (Or.inr (Or.inr (Or.inr (Or.inl rfl))))))))
  · exact Or.inr (Or.inr (Or.inr (Or.inr (Or.inr (Or.inr (Or.inr (Or.inr (Or.inr (Or.inr (Or.inr (Or.inl rfl)))))))))))

/-- The strips of block `m`: starts and lengths. -/
theorem core {m c : Nat} (hm : m < cdiv T (q * t)) (hc : c < cdiv (mLen T q r t m) (mX T q r t m)) :
    c * mX T q r t m + chopLen (mLen T q r t m) (mX T q r t m) c ≤ mLen T q r t m ∧
    0 < mX T q r t m ∧ mX T q r t m ≤ t ∧ c < q := core_bounds h.tile hm hc

end IntSide

section
variable {M N K p pm pn m_r n_r m_c k_c n_c : Nat}

/-- The result of `dims2d`. -/
theorem dims2d_fields {x : BlkDims2} (hx : dims2d M N K m_r n_r pm pn m_c k_c n_c = some x) :
    (x.pm = pm ∧ x.pn = pn ∧ x.m_c = m_c ∧ x.k_c = k_c ∧ x.n_c = n_c) ∧
    (x.mr_rem = cdiv (M % (pm * m_c)) m_r ∧ x.nr_rem = cdiv (N % (pn * n_c)) n_r) ∧
    (x.m_pad = (M % (pm * m_c) != 0) ∧ x.n_pad = (N % (pn * n_c) != 0) ∧ x.k_pad = (K % k_c != 0)) ∧
    (x.pm_l = (dimsKMN M 0 0 pm m_r 1 m_c 1 1).p_l ∧ x.pn_l = (dimsKMN N 0 0 pn n_r 1 n_c 1 1).p_l) ∧
    (x.m_c1 = (dimsKMN M 0 0 pm m_r 1 m_c 1 1).m_c1 ∧ x.n_c1 = (dimsKMN N 0 0 pn n_r 1 n_c 1 1).m_c1 ∧
      x.k_c1 = K % k_c) ∧
    (x.m_c1_last_core = (dimsKMN M 0 0 pm m_r 1 m_c 1 1).m_c1_last_core ∧
      x.n_c1_last_core = (dimsKMN N 0 0 pn n_r 1 n_c 1 1).m_c1_last_core) ∧
    x.Mb = cdiv M (pm * m_c) ∧ x.Nb = cdiv N (pn * n_c) ∧ x.Kb = cdiv K k_c := by
  unfold dims2d at hx
  split at hx
  · exact absurd hx (by simp)
  · rename_i hne
    rw [Option.some.injEq] at hx
    subst hx
    refine ⟨⟨rfl, rfl, rfl, rfl, rfl⟩, ⟨rfl, rfl⟩, ⟨rfl, rfl, rfl⟩, ⟨rfl, rfl⟩, ⟨rfl, rfl, rfl⟩, ⟨rfl, rfl⟩,
      cdiv_eq_div_add _ _ (by omega), cdiv_eq_div_add _ _ (by omega), cdiv_eq_div_add _ _ (by omega)⟩

theorem sched2dInts_fits (zm : IntSide M pm m_r m_c) (zn : IntSide N pn n_r n_c) {x : BlkDims2}
    (hx : dims2d M N K m_r n_r pm pn m_c k_c n_c = some x) (hkc0 : 0 < k_c) (hK : K < 2 ^ 31) (hpp : pm * pn < 2 ^ 31)
    (hMK : M * K < 2 ^ 31) (hKN : K * N < 2 ^ 31) (hMN : M * N < 2 ^ 31) (hmn : m_c * n_c < 2 ^ 31)
    (hmk : pm * m_c * k_c < 2 ^ 31) (hnk : pn * n_c * k_c < 2 ^ 31) : AllFits (sched2dInts M N K m_r n_r x) := by
  obtain ⟨⟨e1, e2, e3, e4, e5⟩, ⟨e6, e7⟩, ⟨e8, e9, e10⟩, ⟨e11, e12⟩, ⟨e13, e14, e15⟩, ⟨e16, e17⟩, e18, e19, e20⟩ :=
    dims2d_fields hx
  clear hx
  have h := zm.tile
  have h' := zn.tile
  have hMi := i_M h zm.dims
  have hNi := i_M h' zn.dims
  have hmci := i_mc h zm.dims
  have hnci := i_mc h' zn.dims
  have hmri := i_mr h zm.dims
  have hnri := i_mr h' zn.dims
  have hMp := zm.pad
  have hNp := zn.pad
  have hpm := zm.qt
  have hpn := zn.qt
  have hMlt := padTo_lt M (pm * m_c) m_r h.m_r_pos
  have hNlt := padTo_lt N (pn * n_c) n_r h'.m_r_pos
  have hMb : cdiv M (pm * m_c) ≤ M := cdiv_le_self' h.S_pos
  have hNb : cdiv N (pn * n_c) ≤ N := cdiv_le_self' h'.S_pos
  have hKb : cdiv K k_c ≤ K := cdiv_le_self' hkc0
  have hki : k_c < 2 ^ 31 := Nat.lt_of_le_of_lt (Nat.le_mul_of_pos_left _ h.S_pos) hmk
  unfold sched2dInts
  simp only [e1, e2, e3, e4, e5, e6, e7, e8, e9, e10, e11, e12, e13, e14, e15, e16, e17, e18, e19, e20]
  refine AllFits.flatMap fun n hn => ?_
  rw [mem_range] at hn
  obtain ⟨hncv, hncf⟩ := zn.len_ok hn
  obtain ⟨hn1v, hn1f⟩ := zn.start_ok hn
  obtain ⟨hnb1, hnb2⟩ := blk_bounds h' hn
  obtain ⟨_, _, hnd, hn4, hnu, hn6⟩ := m_strips (N := 0) (K := 0) h' hn
  have hnn : n * pn * n_c < N := by
    have := chop_mul_lt h'.S_pos hn
    rwa [← Nat.mul_assoc] at this
  have hN0 : 0 < N := by omega
  have hrn := zn.row_good n
  have hrnv : (rowE n pn n_c).val = n * pn * n_c := rfl
  have hnld : n_r ∣ mLen N pn n_r n_c n := chopLen_dvd (padTo_dvd h'.S_dvd) h'.S_dvd
  refine AllFits.append (.cons hncf <| .cons hn1f <| .cons ((E.Good.lit _).add .one ?_) .nil) ?_
  · simp only [E.val_add, E.val_lit, E.val_one]; omega
  refine AllFits.flatMap fun m hm => ?_
  rw [mem_serp] at hm
  obtain ⟨hmcv, hmcf⟩ := zm.len_ok hm
  obtain ⟨hm1v, hm1f⟩ := zm.start_ok hm
  obtain ⟨hmb1, hmb2⟩ := blk_bounds h hm
  obtain ⟨_, _, hmd, hm4, hmu, hm6⟩ := m_strips (N := 0) (K := 0) h hm
  have hmm : m * pm * m_c < M := by
    have := chop_mul_lt h.S_pos hm
    rwa [← Nat.mul_assoc] at this
  have hrm := zm.row_good m
  have hrmv : (rowE m pm m_c).val = m * pm * m_c := rfl
  have hmld : m_r ∣ mLen M pm m_r m_c m := chopLen_dvd (padTo_dvd h.S_dvd) h.S_dvd
  rw [hn4, hm4]
  have hu : cdiv (mLen M pm m_r m_c m) (mX M pm m_r m_c m) * cdiv (mLen N pn n_r n_c n) (mX N pn n_r n_c n) < 2 ^ 31 :=
    Nat.lt_of_le_of_lt (Nat.mul_le_mul hmu hnu) hpp
  have hun : cdiv (mLen N pn n_r n_c n) (mX N pn n_r n_c n) < 2 ^ 31 := by
    have := i_p h' zn.dims
    omega
  have hum : cdiv (mLen M pm m_r m_c m) (mX M pm m_r m_c m) < 2 ^ 31 := by
    have := i_p h zm.dims
    omega
  have hcoff : (rowE m pm m_c * N + rowE n pn n_c).Fits := by
    refine E.Good.add (E.Good.mulL hrm hNi hN0) hrn ?_
    show m * pm * m_c * N + n * pn * n_c < 2 ^ 31
    have := idx_lt hmm hnn
    omega
  refine AllFits.append (AllFits.append (AllFits.append
    (.cons hmcf <| .cons hm1f <| .cons ((E.Good.lit _).add .one ?_) <| .cons ⟨hum, hun, hu⟩ .nil)
    (AllFits.flatMap fun k hk => ?_)) (.cons hcoff .nil)) (AllFits.flatMap fun core hcore => ?_)
  · simp only [E.val_add, E.val_lit, E.val_one]; omega
  · rw [mem_serp] at hk
    have hkk := chop_mul_lt hkc0 hk
    have hK0 : 0 < K := by omega
    have hK1 := chop_bound' hkc0 hk
    have hKl := chopLen_pos hkc0 hk
    have hklc := chopLen_le K k_c k
    have hkc : chopLen K k_c k < 2 ^ 31 := by omega
    rw [k_len hkc0 hk]
    have hao : (rowE m pm m_c * K + (k : E) * k_c).Good :=
      E.Good.add (E.Good.mulL hrm hK hK0) (E.Good.mulL (.lit _) hki hkc0)
    have hbo : (rowE n pn n_c + (k : E) * k_c * N).Good :=
      E.Good.add hrn (E.Good.mulL (E.Good.mulL (.lit _) hki hkc0) hNi hN0)
    have hmlk : mLen M pm m_r m_c m * chopLen K k_c k < 2 ^ 31 :=
      Nat.lt_of_le_of_lt (Nat.mul_le_mul hmb2 hklc) hmk
    have hnlk : mLen N pn n_r n_c n * chopLen K k_c k < 2 ^ 31 :=
      Nat.lt_of_le_of_lt (Nat.mul_le_mul hnb2 hklc) hnk
    refine AllFits.append (AllFits.append (AllFits.append
      (.cons ((E.Good.lit _).add .one ?_) <| .cons (hao ?_) <| .cons (hbo ?_) .nil) (AllFits.skip ?_)) (AllFits.skip ?_))
      (AllFits.flatMap fun core hcore => ?_)
    · simp only [E.val_add, E.val_lit, E.val_one]; omega
    · show m * pm * m_c * K + k * k_c < 2 ^ 31
      have := idx_lt hmm hkk
      omega
    · show n * pn * n_c + k * k_c * N < 2 ^ 31
      have := idx_lt hkk hnn
      omega
    · show AllFits ((cfor 0 (sLenE N pn n_r n_c n).val n_r).flatMap fun (n2 : Nat) =>
        [rowE n pn n_c + (k : E) * k_c * N + n2, (n2 : E) * (chopLen K k_c k : Nat), (n2 : E) + n_r])
      rw [hncv]
      refine strips_fits h'.m_r_pos hnld (by omega) hKl hkc hnlk fun y hy => ?_
      refine hbo.add (.lit _) ?_
      show n * pn * n_c + k * k_c * N + y < 2 ^ 31
      have := idx_lt hkk (show n * pn * n_c + y < N by omega)
      omega
    · show AllFits ((cfor 0 (sLenE M pm m_r m_c m).val m_r).flatMap fun (m3 : Nat) =>
        [rowE m pm m_c * K + (k : E) * k_c + (m3 : E) * K, (m3 : E) * (chopLen K k_c k : Nat), (m3 : E) + m_r])
      rw [hmcv]
      refine strips_fits h.m_r_pos hmld (by omega) hKl hkc hmlk fun y hy => ?_
      refine hao.add (E.Good.mulL (.lit _) hK hK0) ?_
      show m * pm * m_c * K + k * k_c + y * K < 2 ^ 31
      have := idx_lt (show m * pm * m_c + y < M by omega) hkk
      have e : (m * pm * m_c + y) * K = m * pm * m_c * K + y * K := by ring
      omega
    · rw [mem_range] at hcore
      have hU : 0 < cdiv (mLen N pn n_r n_c n) (mX N pn n_r n_c n) := by
        rcases Nat.eq_zero_or_pos (cdiv (mLen N pn n_r n_c n) (mX N pn n_r n_c n)) with e | e
        · rw [e, Nat.mul_zero] at hcore; omega
        · exact e
      have hci : core / cdiv (mLen N pn n_r n_c n) (mX N pn n_r n_c n) < cdiv (mLen M pm m_r m_c m) (mX M pm m_r m_c m) :=
        Nat.div_lt_of_lt_mul (by rwa [Nat.mul_comm])
      have hcj := Nat.mod_lt core hU
      show AllFits ([(core : E) + 1] ++
        regInts ((core : E) / (cdiv (mLen N pn n_r n_c n) (mX N pn n_r n_c n) : Nat) * (mX M pm m_r m_c m : Nat) *
            (chopLen K k_c k : Nat))
          ((core : E) % (cdiv (mLen N pn n_r n_c n) (mX N pn n_r n_c n) : Nat) * (mX N pn n_r n_c n : Nat) *
            (chopLen K k_c k : Nat)) m_r n_r
          (if (m == cdiv M (pm * m_c) - 1 && M % (pm * m_c) != 0) = true then
            (if core / cdiv (mLen N pn n_r n_c n) (mX N pn n_r n_c n) = (dimsKMN M 0 0 pm m_r 1 m_c 1 1).p_l - 1 then
              (dimsKMN M 0 0 pm m_r 1 m_c 1 1).m_c1_last_core else (dimsKMN M 0 0 pm m_r 1 m_c 1 1).m_c1) else m_c)
          (if (n == cdiv N (pn * n_c) - 1 && N % (pn * n_c) != 0) = true then
            (if core % cdiv (mLen N pn n_r n_c n) (mX N pn n_r n_c n) = (dimsKMN N 0 0 pn n_r 1 n_c 1 1).p_l - 1 then
              (dimsKMN N 0 0 pn n_r 1 n_c 1 1).m_c1_last_core else (dimsKMN N 0 0 pn n_r 1 n_c 1 1).m_c1) else n_c)
          (chopLen K k_c k))
      rw [hm6 _ hci, hn6 _ hcj]
      obtain ⟨a1, a2, a3, a4⟩ := zm.core hm hci
      obtain ⟨b1, b2, b3, b4⟩ := zn.core hn hcj
      generalize hcI : core / cdiv (mLen N pn n_r n_c n) (mX N pn n_r n_c n) = ci at *
      generalize hcJ : core % cdiv (mLen N pn n_r n_c n) (mX N pn n_r n_c n) = cj at *
      have l1 : chopLen (mLen M pm m_r m_c m) (mX M pm m_r m_c m) ci ≤ mX M pm m_r m_c m := chopLen_le _ _ _
      have l2 : chopLen (mLen N pn n_r n_c n) (mX N pn n_r n_c n) cj ≤ mX N pn n_r n_c n := chopLen_le _ _ _
      have hcoreI : core < 2 ^ 31 := by omega
      refine .append (.cons ((E.Good.lit _).add .one (by simp only [E.val_add, E.val_lit, E.val_one]; omega)) .nil) ?_
      refine regInts_fits h.m_r_pos h'.m_r_pos hmri hnri (strip_dvd h hm) (strip_dvd h' hn) (by omega) (by omega) hKl hkc
        (E.Good.mulL (E.Good.mulL (.of (E.fits_div hcoreI hun hU)) (by omega) a2) hkc hKl)
        (E.Good.mulL (E.Good.mulL (.of (E.fits_mod hcoreI hun hU)) (by omega) b2) hkc hKl) ?_ ?_ ?_
      · simp only [E.val_mul, E.val_div, E.val_lit, hcI]
        refine Nat.lt_of_le_of_lt ?_ hmlk
        rw [← Nat.add_mul]
        exact Nat.mul_le_mul_right _ a1
      · simp only [E.val_mul, E.val_mod, E.val_lit, hcJ]
        refine Nat.lt_of_le_of_lt ?_ hnlk
        rw [Nat.mul_comm (chopLen K k_c k), ← Nat.add_mul]
        exact Nat.mul_le_mul_right _ b1
      · exact Nat.lt_of_le_of_lt (Nat.mul_le_mul (by omega) (by omega)) hmn
  · rw [mem_range] at hcore
    have hU : 0 < cdiv (mLen N pn n_r n_c n) (mX N pn n_r n_c n) := by
      rcases Nat.eq_zero_or_pos (cdiv (mLen N pn n_r n_c n) (mX N pn n_r n_c n)) with e | e
      · rw [e, Nat.mul_zero] at hcore; omega
      · exact e
    have hci : core / cdiv (mLen N pn n_r n_c n) (mX N pn n_r n_c n) < cdiv (mLen M pm m_r m_c m) (mX M pm m_r m_c m) :=
      Nat.div_lt_of_lt_mul (by rwa [Nat.mul_comm])
    have hcj := Nat.mod_lt core hU
    show AllFits ([rowE m pm m_c * N + rowE n pn n_c +
          (core : E) / (cdiv (mLen N pn n_r n_c n) (mX N pn n_r n_c n) : Nat) * (mX M pm m_r m_c m : Nat) * N +
          (core : E) % (cdiv (mLen N pn n_r n_c n) (mX N pn n_r n_c n) : Nat) * (mX N pn n_r n_c n : Nat),
        m1E N pn n_c n + (core : E) % (cdiv (mLen N pn n_r n_c n) (mX N pn n_r n_c n) : Nat) * (mX N pn n_r n_c n : Nat),
        (core : E) / (cdiv (mLen N pn n_r n_c n) (mX N pn n_r n_c n) : Nat) * (mX M pm m_r m_c m : Nat), (core : E) + 1,
        (m_c : E) * n_c] ++
      unpackInts M N (m1E M pm m_c m).val
        ((m1E N pn n_c n).val + core % cdiv (mLen N pn n_r n_c n) (mX N pn n_r n_c n) * mX N pn n_r n_c n)
        (core / cdiv (mLen N pn n_r n_c n) (mX N pn n_r n_c n) * mX M pm m_r m_c m)
        (if (m == cdiv M (pm * m_c) - 1 && M % (pm * m_c) != 0) = true then
          (if core / cdiv (mLen N pn n_r n_c n) (mX N pn n_r n_c n) = (dimsKMN M 0 0 pm m_r 1 m_c 1 1).p_l - 1 then
            (dimsKMN M 0 0 pm m_r 1 m_c 1 1).m_c1_last_core else (dimsKMN M 0 0 pm m_r 1 m_c 1 1).m_c1) else m_c)
        (if (n == cdiv N (pn * n_c) - 1 && N % (pn * n_c) != 0) = true then
          (if core % cdiv (mLen N pn n_r n_c n) (mX N pn n_r n_c n) = (dimsKMN N 0 0 pn n_r 1 n_c 1 1).p_l - 1 then
            (dimsKMN N 0 0 pn n_r 1 n_c 1 1).m_c1_last_core else (dimsKMN N 0 0 pn n_r 1 n_c 1 1).m_c1) else n_c)
        m_r n_r)
    rw [hm6 _ hci, hn6 _ hcj, hm1v, hn1v]
    obtain ⟨a1, a2, a3, a4⟩ := zm.core hm hci
    obtain ⟨b1, b2, b3, b4⟩ := zn.core hn hcj
    have hsl := chopLen_pos a2 hci
    have hsl' := chopLen_pos b2 hcj
    have hrl := Nat.le_of_dvd hsl (strip_dvd h hm)
    have hrl' := Nat.le_of_dvd hsl' (strip_dvd h' hn)
    generalize hcI : core / cdiv (mLen N pn n_r n_c n) (mX N pn n_r n_c n) = ci at *
    generalize hcJ : core % cdiv (mLen N pn n_r n_c n) (mX N pn n_r n_c n) = cj at *
    have l1 : chopLen (mLen M pm m_r m_c m) (mX M pm m_r m_c m) ci ≤ mX M pm m_r m_c m := chopLen_le _ _ _
    have l2 : chopLen (mLen N pn n_r n_c n) (mX N pn n_r n_c n) cj ≤ mX N pn n_r n_c n := chopLen_le _ _ _
    have hcoreI : core < 2 ^ 31 := by omega
    have gI : ((core : E) / (cdiv (mLen N pn n_r n_c n) (mX N pn n_r n_c n) : Nat) * (mX M pm m_r m_c m : Nat)).Good :=
      E.Good.mulL (.of (E.fits_div hcoreI hun hU)) (by omega) a2
    have gJ : ((core : E) % (cdiv (mLen N pn n_r n_c n) (mX N pn n_r n_c n) : Nat) * (mX N pn n_r n_c n : Nat)).Good :=
      E.Good.mulL (.of (E.fits_mod hcoreI hun hU)) (by omega) b2
    refine .append (.cons (E.Good.add (E.Good.add (.of hcoff) (E.Good.mulL gI hNi hN0)) gJ ?_) <|
      .cons (E.Good.add (.of hn1f) gJ ?_) <| .cons (gI ?_) <| .cons ((E.Good.lit _).add .one ?_) <|
      .cons (E.Good.mulL (.lit _) hnci h'.m_c_pos hmn) .nil) ?_
    · simp only [E.val_add, E.val_mul, E.val_div, E.val_mod, E.val_lit, hcI, hcJ, hrmv, hrnv]
      have := idx_lt (show m * pm * m_c + ci * mX M pm m_r m_c m < M by omega)
        (show n * pn * n_c + cj * mX N pn n_r n_c n < N by omega)
      have e : (m * pm * m_c + ci * mX M pm m_r m_c m) * N = m * pm * m_c * N + ci * mX M pm m_r m_c m * N := by ring
      omega
    · simp only [E.val_add, E.val_mul, E.val_mod, E.val_lit, hcJ, hn1v]; omega
    · simp only [E.val_mul, E.val_div, E.val_lit, hcI]; omega
    · simp only [E.val_add, E.val_lit, E.val_one]; omega
    · refine unpackInts_fits h.m_r_pos h'.m_r_pos (strip_dvd h hm) (strip_dvd h' hn) (by omega) (by omega) hNi ?_ hMN
      exact Nat.lt_of_le_of_lt (Nat.mul_le_mul (by omega) (by omega)) hmn

/-- What has to fit in a call of `cake_sgemm_2d`, apart from the operands: the padded dimensions, the grid times the
tile before it is shrunk, and the buffers. -/
structure Int2 (M N p m_r n_r pn m_c k_c : Nat) : Prop where
  Mp : roundUpC M m_r < 2 ^ 31
  Np : roundUpC N n_r < 2 ^ 31
  rr : m_r + n_r < 2 ^ 31
  rr' : m_r * n_r < 2 ^ 31
  pmt : roundUpC M m_r = p / pn * m_r ∨ p / pn * m_c < 2 ^ 31
  mct : roundUpC (grid2 M N p m_r n_r pn m_c).m_c n_r < 2 ^ 31
  pnt : roundUpC N n_r = pn * n_r ∨ pn * roundUpC (grid2 M N p m_r n_r pn m_c).m_c n_r < 2 ^ 31
  mn : (grid2 M N p m_r n_r pn m_c).m_c * (grid2 M N p m_r n_r pn m_c).n_c < 2 ^ 31
  pmk : (grid2 M N p m_r n_r pn m_c).pm * (grid2 M N p m_r n_r pn m_c).m_c * k_c < 2 ^ 31
  pnk : (grid2 M N p m_r n_r pn m_c).pn * (grid2 M N p m_r n_r pn m_c).n_c * k_c < 2 ^ 31

theorem twoDInts_fits (h : Fit2 M N p m_r n_r pn m_c k_c) (z : Int2 M N p m_r n_r pn m_c k_c) (hp : p < 2 ^ 31)
    (hmc : m_c < 2 ^ 31) (hK : K < 2 ^ 31)
    (hMK : M * K < 2 ^ 31) (hKN : K * N < 2 ^ 31) (hMN : M * N < 2 ^ 31) :
    AllFits (twoDInts M N K p m_r n_r pn m_c k_c) := by
  obtain ⟨g1, g2, g3⟩ := h.grid
  obtain ⟨x, hx⟩ := dims2d_some (M := M) (N := N) (K := K) g1 g2.p_pos
  have hi := hx
  rw [← init2d_eq h.pn_pos] at hi
  unfold twoDInts
  rw [hi]
  have hkp := h.k_c_pos
  have hmr := h.m_r_pos
  have hnr := h.n_r_pos
  have hpn0 := h.pn_pos
  have z1 := z.Mp
  have z2 := z.Np
  have z3 := z.rr
  have zpm := z.pmt
  have zmc := z.mct
  have zpn := z.pnt
  have zmn := z.mn
  have zmk := z.pmk
  have znk := z.pnk
  have hki : k_c < 2 ^ 31 := Nat.lt_of_le_of_lt (Nat.le_mul_of_pos_left _ g1.S_pos) zmk
  have sm : IntSide M (grid2 M N p m_r n_r pn m_c).pm m_r (grid2 M N p m_r n_r pn m_c).m_c :=
    ⟨⟨g1.p_pos, hmr, Nat.one_pos, g1.m_c_pos, Nat.one_pos, Nat.one_pos, g1.m_dvd, Nat.dvd_refl _⟩,
      by rw [padTo_eq hmr g1.S_dvd, ← roundUpC_cdiv hmr]; exact z1,
      Nat.lt_of_le_of_lt (Nat.le_mul_of_pos_right _ hkp) zmk⟩
  have sn : IntSide N (grid2 M N p m_r n_r pn m_c).pn n_r (grid2 M N p m_r n_r pn m_c).n_c :=
    ⟨⟨g2.p_pos, hnr, Nat.one_pos, g2.m_c_pos, Nat.one_pos, Nat.one_pos, g2.m_dvd, Nat.dvd_refl _⟩,
      by rw [padTo_eq hnr g2.S_dvd, ← roundUpC_cdiv hnr]; exact z2,
      Nat.lt_of_le_of_lt (Nat.le_mul_of_pos_right _ hkp) znk⟩
  have sched := sched2dInts_fits sm sn hx hkp hK (by omega) hMK hKN hMN zmn zmk znk
  obtain ⟨⟨e1, e2, e3, e4, e5⟩, ⟨e6, e7⟩, ⟨e8, e9, e10⟩, ⟨e11, e12⟩, -, -, -⟩ := dims2d_fields hx
  have hMi := Nat.lt_of_le_of_lt (roundUpC_ge M m_r) z1
  have hNi := Nat.lt_of_le_of_lt (roundUpC_ge N n_r) z2
  have hmri : m_r < 2 ^ 31 := by omega
  have hnri : n_r < 2 ^ 31 := by omega
  have hpni : pn < 2 ^ 31 := by have := h.pn_le; omega
  have hpq : 0 < p / pn := Nat.div_pos h.pn_le hpn0
  have hpqi : p / pn < 2 ^ 31 := Nat.lt_of_le_of_lt (Nat.div_le_self _ _) hp
  have hgm : (fit2d (roundUpC M m_r) (p / pn) m_c m_r).2 = (grid2 M N p m_r n_r pn m_c).m_c := rfl
  have hgi : (grid2 M N p m_r n_r pn m_c).m_c < 2 ^ 31 := Nat.lt_of_le_of_lt (roundUpC_ge _ _) zmc
  have hg0 : 0 < roundUpC (grid2 M N p m_r n_r pn m_c).m_c n_r := Nat.lt_of_lt_of_le g1.m_c_pos (roundUpC_ge _ _)
  dsimp only
  refine .append (.append ?_ ?_) sched
  · unfold dims2dInts
    simp only [e1, e2, e3, e4, e5, e6, e7, e8, e9, e10, e11, e12, hgm]
    refine .append (.append (.append (.append (.append ?_ ?_) ?_) ?_) ?_) ?_
    · refine .cons (E.fits_div hp hpni hpn0) <| .cons (E.fits_mod hMi hmri hmr) <| .cons (roundUpE_fits hmr hmri z1) <|
        .cons (E.fits_mod hNi hnri hnr) <| .cons (roundUpE_fits hnr hnri z2) <|
        .cons (E.Good.mulL (.lit _) hnri hnr z.rr') <| .cons ((E.Good.lit _).add (.lit _) z3) <|
        .cons (E.fits_mod hK hki hkp) <| .cons ((E.Good.of (E.fits_div (a := (K : E)) (b := (k_c : E)) hK hki hkp)).add (.lit _) ?_) .nil
      show K / k_c + (K % k_c != 0).toNat < 2 ^ 31
      have := cdiv_le_self' (a := K) hkp
      rw [cdiv_eq_div_add _ _ hkp]
      omega
    · exact fit2dInts_fits hpq hmr h.m_c_pos h.m_dvd hmri hpqi hmc z1 zpm
    · exact .cons (E.fits_mod hgi hnri hnr) <| .cons (roundUpE_fits hnr hnri zmc) .nil
    · exact fit2dInts_fits hpn0 hnr hg0 (roundUpC_dvd hnr) hnri hpni zmc z2 zpn
    · exact sm.ints_fits
    · exact sn.ints_fits
  · rw [e1, e2, e3, e4, e5]
    refine .cons (E.Good.mulL (E.Good.mulL (.lit _) ?_ g1.m_c_pos) hki hkp zmk) <|
      .cons (E.Good.mulL (E.Good.mulL (.lit _) ?_ g2.m_c_pos) hki hkp znk) <|
      .cons (E.Good.mulL (.lit _) ?_ g2.m_c_pos zmn) .nil
    · exact hgi
    · exact Nat.lt_of_le_of_lt (Nat.le_mul_of_pos_left _ g2.p_pos) sn.qt
    · exact Nat.lt_of_le_of_lt (Nat.le_mul_of_pos_left _ g2.p_pos) sn.qt

end

end Cake
