/-
Round-to-nearest to `prec` bits is a `Rounding`.
-/
import Verif.Model.Double
import Mathlib.Data.Int.Log
import Mathlib.Algebra.Order.Round

namespace Cake

/-- Spacing of the `prec`-bit numbers around `x`. -/
noncomputable def ulp (prec : Nat) (x : ℝ) : ℝ := 2 ^ (Int.log 2 |x| - prec + 1)

/-- Round to nearest. -/
noncomputable def nearestFn (prec : Nat) (x : ℝ) : ℝ := round (x / ulp prec x) * ulp prec x

theorem ulp_pos (prec : Nat) (x : ℝ) : 0 < ulp prec x := by unfold ulp; positivity

theorem round_mono {x y : ℝ} (h : x ≤ y) : round x ≤ round y := by
  rw [round_eq, round_eq]
  exact Int.floor_mono (by linarith)

theorem round_ge {x : ℝ} {n : ℤ} (h : (n : ℝ) ≤ x) : n ≤ round x := by
  have := round_mono h
  rwa [round_intCast] at this

theorem round_le {x : ℝ} {n : ℤ} (h : x ≤ (n : ℝ)) : round x ≤ n := by
  have := round_mono h
  rwa [round_intCast] at this

/-- Rounding does not cross a multiple of the spacing. -/
theorem nearest_ge {prec : Nat} {x : ℝ} {n : ℤ} (h : n * ulp prec x ≤ x) : n * ulp prec x ≤ nearestFn prec x := by
  have hu := ulp_pos prec x
  refine mul_le_mul_of_nonneg_right ?_ hu.le
  exact_mod_cast round_ge ((le_div_iff₀ hu).2 h)

theorem nearest_le {prec : Nat} {x : ℝ} {n : ℤ} (h : x ≤ n * ulp prec x) : nearestFn prec x ≤ n * ulp prec x := by
  have hu := ulp_pos prec x
  refine mul_le_mul_of_nonneg_right ?_ hu.le
  exact_mod_cast round_le ((div_le_iff₀ hu).2 h)

theorem log_le {x : ℝ} (hx : x ≠ 0) : (2 : ℝ) ^ Int.log 2 |x| ≤ |x| := by
  simpa using Int.zpow_log_le_self (b := 2) (by norm_num) (abs_pos.2 hx)

theorem lt_log (x : ℝ) : |x| < (2 : ℝ) ^ (Int.log 2 |x| + 1) := by
  simpa using Int.lt_zpow_succ_log_self (b := 2) (by norm_num) |x|

/-- A power of two between the two ends of a binade is a multiple of the spacing. -/
theorem pow_ulp {prec : Nat} (hp : 1 ≤ prec) {x : ℝ} (e : ℤ) (he : Int.log 2 |x| ≤ e) :
    ∃ n : ℤ, (2 : ℝ) ^ e = n * ulp prec x := by
  refine ⟨2 ^ (e - (Int.log 2 |x| - prec + 1)).toNat, ?_⟩
  unfold ulp
  push_cast
  rw [← zpow_natCast, ← zpow_add₀ (by norm_num)]
  congr 1
  rw [Int.toNat_of_nonneg (by omega)]
  ring

theorem nearest_mono {prec : Nat} (hp : 1 ≤ prec) : Monotone (nearestFn prec) := by
  have pos : ∀ {x}, 0 ≤ x → 0 ≤ nearestFn prec x := fun {x} h => by
    have := nearest_ge (prec := prec) (x := x) (n := 0) (by simpa using h)
    simpa using this
  have neg : ∀ {x}, x ≤ 0 → nearestFn prec x ≤ 0 := fun {x} h => by
    have := nearest_le (prec := prec) (x := x) (n := 0) (by simpa using h)
    simpa using this
  have same : ∀ {x y : ℝ}, x ≤ y → Int.log 2 |x| = Int.log 2 |y| → nearestFn prec x ≤ nearestFn prec y := by
    intro x y h he
    have hu : ulp prec x = ulp prec y := by unfold ulp; rw [he]
    unfold nearestFn
    rw [hu]
    have hp := ulp_pos prec y
    refine mul_le_mul_of_nonneg_right ?_ hp.le
    exact_mod_cast round_mono (div_le_div_of_nonneg_right h hp.le)
  intro x y h
  rcases le_total 0 x with hx | hx
  · have hy : 0 ≤ y := hx.trans h
    rcases hx.eq_or_lt with e | hx
    · rw [← e]
      exact (neg le_rfl).trans (pos hy)
    have hy : 0 < y := hx.trans_le h
    have hlog : Int.log 2 |x| ≤ Int.log 2 |y| := by
      rw [abs_of_pos hx, abs_of_pos hy]
      exact Int.log_mono_right hx h
    rcases hlog.eq_or_lt with e | hlt
    · exact same h e
    · obtain ⟨n, hn⟩ := pow_ulp hp (x := x) (Int.log 2 |y|) hlt.le
      obtain ⟨n', hn'⟩ := pow_ulp hp (x := y) (Int.log 2 |y|) le_rfl
      have h1 : x ≤ n * ulp prec x := by
        rw [← hn]
        have := (lt_log x).le
        rw [abs_of_pos hx] at this
        rw [abs_of_pos hx] at hlt
        exact this.trans (zpow_le_zpow_right₀ (by norm_num) hlt)
      have h2 : n' * ulp prec y ≤ y := by
        rw [← hn']
        have := log_le hy.ne'
        rwa [abs_of_pos hy] at this ⊢
      calc _ ≤ _ := nearest_le h1
        _ = _ := hn.symm.trans hn'
        _ ≤ _ := nearest_ge h2
  · rcases le_total 0 y with hy | hy
    · exact (neg hx).trans (pos hy)
    rcases hy.eq_or_lt with e | hy
    · rw [e]; exact (neg hx).trans (pos le_rfl)
    have hx : x < 0 := h.trans_lt hy
    have hlog : Int.log 2 |y| ≤ Int.log 2 |x| := by
      apply Int.log_mono_right (abs_pos.2 hy.ne)
      rw [abs_of_neg hx, abs_of_neg hy]
      linarith
    rcases hlog.eq_or_lt with e | hlt
    · exact same h e.symm
    · obtain ⟨n, hn⟩ := pow_ulp hp (x := x) (Int.log 2 |x|) le_rfl
      obtain ⟨n', hn'⟩ := pow_ulp hp (x := y) (Int.log 2 |x|) hlt.le
      have h1 : x ≤ (-n : ℤ) * ulp prec x := by
        have := log_le hx.ne
        rw [hn, abs_of_neg hx] at this
        push_cast
        linarith
      have h2 : (-n' : ℤ) * ulp prec y ≤ y := by
        have := ((lt_log y).le).trans (zpow_le_zpow_right₀ (by norm_num : (1 : ℝ) ≤ 2) (show _ ≤ Int.log 2 |x| by omega))
        rw [hn', abs_of_neg hy] at this
        push_cast
        linarith
      have e : ((-n : ℤ) : ℝ) * ulp prec x = ((-n' : ℤ) : ℝ) * ulp prec y := by
        push_cast
        linarith [hn.symm.trans hn']
      calc _ ≤ _ := nearest_le h1
        _ = _ := e
        _ ≤ _ := nearest_ge h2

theorem nearest_of_mul {prec : Nat} {x : ℝ} (n : ℤ) (h : x = n * ulp prec x) : nearestFn prec x = x := by
  have hu := ulp_pos prec x
  unfold nearestFn
  have : x / ulp prec x = n := by rw [div_eq_iff hu.ne']; exact h
  rw [this, round_intCast]
  exact h.symm

theorem nearest_int {prec : Nat} (hp : 1 ≤ prec) (n : ℤ) (h : |n| ≤ 2 ^ prec) : nearestFn prec n = n := by
  rcases eq_or_ne n 0 with rfl | hn
  · simp [nearestFn]
  have hn' : (n : ℝ) ≠ 0 := by exact_mod_cast hn
  have h' : |(n : ℝ)| ≤ 2 ^ prec := by exact_mod_cast h
  by_cases he : Int.log 2 |(n : ℝ)| < prec
  · refine nearest_of_mul (n * 2 ^ (prec - 1 - Int.log 2 |(n : ℝ)|).toNat) ?_
    unfold ulp
    push_cast
    rw [mul_assoc, ← zpow_natCast, ← zpow_add₀ (by norm_num), Int.toNat_of_nonneg (by omega)]
    have : (prec : ℤ) - 1 - Int.log 2 |(n : ℝ)| + (Int.log 2 |(n : ℝ)| - prec + 1) = 0 := by ring
    rw [this, zpow_zero, mul_one]
  · have h1 := log_le hn'
    have h2 : (2 : ℝ) ^ (prec : ℤ) ≤ 2 ^ Int.log 2 |(n : ℝ)| := zpow_le_zpow_right₀ (by norm_num) (by omega)
    rw [zpow_natCast] at h2
    have h3 : |(n : ℝ)| = 2 ^ prec := le_antisymm h' (h2.trans h1)
    have h4 : Int.log 2 |(n : ℝ)| = prec := by
      rw [h3, ← zpow_natCast]
      simpa using Int.log_zpow (R := ℝ) (b := 2) (by norm_num) (prec : ℤ)
    have h5 : |n| = 2 ^ prec := by exact_mod_cast h3
    have hd : (2 : ℤ) ∣ |n| := by rw [h5]; exact dvd_pow_self 2 (by omega)
    rw [dvd_abs] at hd
    obtain ⟨q, hq⟩ := hd
    refine nearest_of_mul q ?_
    unfold ulp
    rw [h4]
    have : (prec : ℤ) - prec + 1 = 1 := by ring
    rw [this, zpow_one, hq]
    push_cast
    ring

theorem nearest_err {prec : Nat} (x : ℝ) : |nearestFn prec x - x| ≤ |x| / 2 ^ prec := by
  rcases eq_or_ne x 0 with rfl | hx
  · simp [nearestFn]
  have hu := ulp_pos prec x
  have h1 : nearestFn prec x - x = -((x / ulp prec x - round (x / ulp prec x)) * ulp prec x) := by
    unfold nearestFn
    field_simp
    ring
  rw [h1, abs_neg, abs_mul, abs_of_pos hu]
  have h2 := abs_sub_round (x / ulp prec x)
  have h3 : ulp prec x / 2 ≤ |x| / 2 ^ prec := by
    have := log_le hx
    have e : ulp prec x / 2 = 2 ^ Int.log 2 |x| / 2 ^ prec := by
      unfold ulp
      rw [zpow_add₀ (by norm_num), zpow_sub₀ (by norm_num), zpow_one, zpow_natCast]
      field_simp
    rw [e]
    exact div_le_div_of_nonneg_right this (by positivity)
  nlinarith

/-- Round to nearest, as a `Rounding`. -/
noncomputable def nearest (prec : Nat) (hp : 1 ≤ prec) : Rounding prec where
  rnd := nearestFn prec
  mono := nearest_mono hp
  int := fun n h => nearest_int hp n h
  err := fun x _ _ => nearest_err x

theorem log_two_mul (e : ℤ) {x : ℝ} (hx : x ≠ 0) : Int.log 2 |2 ^ e * x| = e + Int.log 2 |x| := by
  have h0 : (0 : ℝ) < 2 ^ e := by positivity
  have hpos : 0 < |2 ^ e * x| := abs_pos.2 (mul_ne_zero h0.ne' hx)
  have e1 : |(2 : ℝ) ^ e * x| = 2 ^ e * |x| := by rw [abs_mul, abs_of_pos h0]
  apply le_antisymm
  · have := (Int.lt_zpow_iff_log_lt (b := 2) (by norm_num) (x := e + Int.log 2 |x| + 1) hpos).1 (by
      have h1 := lt_log x
      rw [e1, show ((2 : ℕ) : ℝ) = 2 by norm_num, add_assoc, zpow_add₀ (by norm_num)]
      exact mul_lt_mul_of_pos_left h1 h0)
    omega
  · refine (Int.zpow_le_iff_le_log (b := 2) (by norm_num) hpos).1 ?_
    rw [e1, show ((2 : ℕ) : ℝ) = 2 by norm_num, zpow_add₀ (by norm_num)]
    exact mul_le_mul_of_nonneg_left (log_le hx) h0.le

/-- Rounding to nearest commutes with powers of two: the factors of `C69_scale`. -/
theorem nearest_scale {prec : Nat} (e : ℤ) (x : ℝ) : nearestFn prec (2 ^ e * x) = 2 ^ e * nearestFn prec x := by
  rcases eq_or_ne x 0 with rfl | hx
  · simp [nearestFn]
  have h0 : (2 : ℝ) ^ e ≠ 0 := by positivity
  have hu : ulp prec (2 ^ e * x) = 2 ^ e * ulp prec x := by
    unfold ulp
    rw [log_two_mul e hx, ← zpow_add₀ (by norm_num)]
    congr 1
    ring
  unfold nearestFn
  rw [hu, mul_div_mul_left _ _ h0]
  ring

/-- Round to nearest, ties away from zero: a rounding that commutes with the sign. -/
noncomputable def nearestAway (prec : Nat) (hp : 1 ≤ prec) : Rounding prec where
  rnd x := if 0 ≤ x then nearestFn prec x else -nearestFn prec (-x)
  mono := by
    have z : nearestFn prec 0 = 0 := by simp [nearestFn]
    have nn : ∀ x, 0 ≤ x → 0 ≤ nearestFn prec x := fun x hx => z ▸ nearest_mono hp hx
    intro x y hxy
    dsimp only
    split
    · rw [if_pos (by linarith)]
      exact nearest_mono hp hxy
    · split
      · exact (neg_nonpos.2 (nn _ (by linarith))).trans (nn _ ‹_›)
      · exact neg_le_neg (nearest_mono hp (by linarith))
  int n h := by
    split
    · exact nearest_int hp n h
    · have := nearest_int hp (-n) (by rwa [abs_neg])
      push_cast at this
      rw [this, neg_neg]
  err x _ _ := by
    split
    · exact nearest_err x
    · have := nearest_err (prec := prec) (-x)
      rw [abs_neg, sub_neg_eq_add] at this
      rw [show -nearestFn prec (-x) - x = -(nearestFn prec (-x) + x) by ring, abs_neg]
      exact this

theorem nearestAway_neg (prec : Nat) (hp : 1 ≤ prec) (x : ℝ) :
    (nearestAway prec hp).rnd (-1 * 1 * x) = -1 * 1 * (nearestAway prec hp).rnd x := by
  have z : nearestFn prec 0 = 0 := by simp [nearestFn]
  show (if 0 ≤ _ then _ else _) = -1 * 1 * (if 0 ≤ x then _ else _)
  rcases lt_trichotomy x 0 with h | rfl | h
  · rw [if_pos (by linarith), if_neg (by linarith)]
    simp
  · simp [z]
  · rw [if_neg (by linarith), if_pos h.le]
    simp

end Cake
