/-
C65: the library's random numbers.
-/
import Verif.Model.Random
import Mathlib.Analysis.SpecialFunctions.Log.Deriv
import Mathlib.Analysis.Complex.ExponentialBounds

namespace Cake

section
variable (r : Rounding 53) (rs : Rounding 24)

theorem Rounding.nonneg {p : Nat} (r : Rounding p) {x : ℝ} (h : 0 ≤ x) : 0 ≤ r.rnd x := by
  have := r.mono h
  rwa [show r.rnd 0 = 0 by simpa using r.int 0 (by simp)] at this

theorem Rounding.le_int {p : Nat} (r : Rounding p) {x : ℝ} (n : ℤ) (hn : |n| ≤ 2 ^ p) (h : x ≤ n) : r.rnd x ≤ n := by
  have := r.mono h
  rwa [r.int n hn] at this

theorem Rounding.int_le {p : Nat} (r : Rounding p) {x : ℝ} (n : ℤ) (hn : |n| ≤ 2 ^ p) (h : (n : ℝ) ≤ x) : n ≤ r.rnd x := by
  have := r.mono h
  rwa [r.int n hn] at this

/-- Rounding loses at most half. -/
theorem Rounding.half_le {p : Nat} (r : Rounding p) {x b : ℝ} (hb : 2 ^ (-100 : ℤ) ≤ b) (hbx : b ≤ x)
    (hx : x ≤ 1) : b - b / 2 ^ p ≤ r.rnd x := by
  have hb0 : 0 < b := lt_of_lt_of_le (by positivity) hb
  have h1 := r.err b (by rwa [abs_of_pos hb0]) (by rw [abs_of_pos hb0]; exact (hbx.trans hx).trans (by norm_num))
  rw [abs_of_pos hb0] at h1
  have h2 := r.mono hbx
  have := (abs_le.1 h1).1
  linarith

/-- Bounds of `rand_gen`. -/
theorem randGen_bounds {RM x : Nat} (hRM : RM < 2 ^ 31) (hx : x ≤ RM) :
    1 / 2 ^ 32 ≤ randGen r rs RM x ∧ randGen r rs RM x ≤ 1 := by
  have hx0 : (0 : ℝ) ≤ rs.rnd x := rs.nonneg (Nat.cast_nonneg x)
  have hxR : rs.rnd x ≤ rs.rnd RM := rs.mono (Nat.cast_le.2 hx)
  have hR : rs.rnd RM ≤ 2 ^ 31 + 128 := by
    have h1 : rs.rnd RM ≤ rs.rnd (2 ^ 31) := rs.mono (by exact_mod_cast hRM.le)
    have h2 := rs.err (2 ^ 31) (by norm_num) (by norm_num)
    rw [abs_of_pos (show (0 : ℝ) < 2 ^ 31 by norm_num)] at h2
    have h3 := (abs_le.1 h2).2
    generalize rs.rnd (2 ^ 31) = w at *
    norm_num at h3 ⊢
    linarith
  have hn1 : (1 : ℝ) ≤ r.rnd (rs.rnd x + 1) := by
    have := r.int_le (x := rs.rnd x + 1) 1 (by norm_num) (by push_cast; linarith)
    exact_mod_cast this
  have hnd : r.rnd (rs.rnd x + 1) ≤ r.rnd (rs.rnd RM + 1) := r.mono (by linarith)
  have hd : r.rnd (rs.rnd RM + 1) ≤ 2 ^ 31 + 129 := by
    have := r.le_int (x := rs.rnd RM + 1) (2 ^ 31 + 129) (by norm_num) (by push_cast; linarith)
    exact_mod_cast this
  unfold randGen
  generalize r.rnd (rs.rnd x + 1) = n at *
  generalize r.rnd (rs.rnd RM + 1) = d at *
  have hd0 : 0 < d := by linarith
  have q1 : n / d ≤ 1 := (div_le_one hd0).2 hnd
  have q0 : 1 / (2 ^ 31 + 129) ≤ n / d := by
    rw [div_le_div_iff₀ (by norm_num) hd0]
    nlinarith
  have a1 := r.half_le (by norm_num) q0 q1
  have a2 : r.rnd (n / d) ≤ 1 := by
    have := r.le_int (x := n / d) 1 (by norm_num) (by push_cast; exact q1)
    exact_mod_cast this
  have a3 : (1 : ℝ) / (2 ^ 31 + 130) ≤ r.rnd (n / d) := le_trans (by norm_num) a1
  have b1 := rs.half_le (by norm_num) a3 a2
  refine ⟨le_trans (by norm_num) b1, ?_⟩
  have := rs.le_int (x := r.rnd (n / d)) 1 (by norm_num) (by push_cast; exact a2)
  exact_mod_cast this

/-- C65, `rand_gen`: always above 0 and at most 1, whatever `rand()` returns and however numbers are rounded. -/
theorem C65_rand_gen {RM x : Nat} (hRM : RM < 2 ^ 31) (hx : x ≤ RM) :
    0 < randGen r rs RM x ∧ randGen r rs RM x ≤ 1 :=
  ⟨lt_of_lt_of_le (by positivity) (randGen_bounds r rs hRM hx).1, (randGen_bounds r rs hRM hx).2⟩

/-- glibc's `RAND_MAX`. -/
example : 0 < randGen r rs (2 ^ 31 - 1) 12345 ∧ randGen r rs (2 ^ 31 - 1) 12345 ≤ 1 :=
  C65_rand_gen r rs (by norm_num) (by norm_num)

/-- C65, `rand_init`: every element lies in [-1, 1]. -/
theorem C65_rand_init {RM x : Nat} (hRM : 0 < RM) (hx : x ≤ RM) :
    -1 ≤ randInit r rs RM x ∧ randInit r rs RM x ≤ 1 := by
  have hx0 : (0 : ℝ) ≤ rs.rnd x := rs.nonneg (Nat.cast_nonneg x)
  have hxR : rs.rnd x ≤ rs.rnd RM := rs.mono (Nat.cast_le.2 hx)
  have hR1 : (1 : ℝ) ≤ rs.rnd RM := by
    have := rs.int_le (x := (RM : ℝ)) 1 (by norm_num) (by push_cast; exact_mod_cast hRM)
    exact_mod_cast this
  unfold randInit
  generalize rs.rnd (x : ℝ) = n at *
  generalize rs.rnd (RM : ℝ) = d at *
  have hd0 : 0 < d := by linarith
  have q1 : rs.rnd (n / d) ≤ 1 := by
    have := rs.le_int (x := n / d) 1 (by norm_num) (by push_cast; exact (div_le_one hd0).2 hxR)
    exact_mod_cast this
  have q0 : 0 ≤ rs.rnd (n / d) := rs.nonneg (div_nonneg hx0 hd0.le)
  generalize rs.rnd (n / d) = t at *
  have m1 : r.rnd (t * 2) ≤ 2 := by
    have := r.le_int (x := t * 2) 2 (by norm_num) (by push_cast; linarith)
    exact_mod_cast this
  have m0 : 0 ≤ r.rnd (t * 2) := r.nonneg (by linarith)
  generalize r.rnd (t * 2) = w at *
  have s1 : r.rnd (w - 1) ≤ 1 := by
    have := r.le_int (x := w - 1) 1 (by norm_num) (by push_cast; linarith)
    exact_mod_cast this
  have s0 : -1 ≤ r.rnd (w - 1) := by
    have := r.int_le (x := w - 1) (-1) (by norm_num) (by push_cast; linarith)
    exact_mod_cast this
  generalize r.rnd (w - 1) = v at *
  constructor
  · have := rs.int_le (x := v) (-1) (by norm_num) (by push_cast; linarith)
    exact_mod_cast this
  · have := rs.le_int (x := v) 1 (by norm_num) (by push_cast; linarith)
    exact_mod_cast this

example : -1 ≤ randInit r rs (2 ^ 31 - 1) 12345 ∧ randInit r rs (2 ^ 31 - 1) 12345 ≤ 1 :=
  C65_rand_init r rs (by norm_num) (by norm_num)

/-- Both ends of the interval are reached. -/
theorem C65_rand_init_ends {RM : Nat} (hRM : 0 < RM) : randInit r rs RM 0 = -1 ∧ randInit r rs RM RM = 1 := by
  have hR1 : (1 : ℝ) ≤ rs.rnd RM := by
    have := rs.int_le (x := (RM : ℝ)) 1 (by norm_num) (by push_cast; exact_mod_cast hRM)
    exact_mod_cast this
  have z : ∀ {p : Nat} (r : Rounding p), r.rnd 0 = 0 := fun r => by simpa using r.int 0 (by simp)
  have o : ∀ {p : Nat} (r : Rounding p), r.rnd 1 = 1 := fun r => by
    simpa using r.int 1 (by rw [abs_one]; exact one_le_pow₀ (by norm_num))
  have o' : ∀ {p : Nat} (r : Rounding p), r.rnd (-1) = -1 := fun r => by
    simpa using r.int (-1) (by rw [abs_neg, abs_one]; exact one_le_pow₀ (by norm_num))
  have t : r.rnd 2 = 2 := by simpa using r.int 2 (by norm_num)
  unfold randInit
  constructor
  · rw [Nat.cast_zero, z rs, zero_div, z rs, zero_mul, z r, zero_sub, o' r, o' rs]
  · rw [div_self (by linarith), o rs, one_mul, t, show (2 : ℝ) - 1 = 1 by norm_num, o r, o rs]

/-- C65, `normalRandom`: always a finite number, of magnitude at most 7. -/
theorem C65_normal (L : Libm) (pi : ℝ) {RM x1 x2 : Nat} (hRM : RM < 2 ^ 31) (h1 : x1 ≤ RM) :
    ∃ a, normalRandom r rs L pi RM x1 x2 = some a ∧ |a| ≤ 7 := by
  obtain ⟨v0, v1⟩ := randGen_bounds r rs hRM h1
  unfold normalRandom
  dsimp only
  generalize randGen r rs RM x1 = v at *
  have hv : 0 < v := lt_of_lt_of_le (by positivity) v0
  have hl := L.log_le v hv v1
  have ha := L.log_acc v hv v1
  have hlog : -(22.2 : ℝ) ≤ Real.log v := by
    have h : Real.log (1 / 2 ^ 32) ≤ Real.log v := Real.log_le_log (by positivity) v0
    rw [one_div, Real.log_inv, Real.log_pow] at h
    have := Real.log_two_lt_d9
    push_cast at h
    linarith
  have hlog0 : Real.log v ≤ 0 := Real.log_nonpos hv.le v1
  rw [abs_of_nonpos hlog0] at ha
  have hL : -2 * L.log v ≤ 47 := by
    have := (abs_le.1 ha).1
    linarith
  have t0 : 0 ≤ r.rnd (-2 * L.log v) := r.nonneg (by linarith)
  have t1 : r.rnd (-2 * L.log v) ≤ 47 := by
    have := r.le_int (x := -2 * L.log v) 47 (by norm_num) (by push_cast; linarith)
    exact_mod_cast this
  rw [if_neg (not_le.2 hv), if_neg (not_lt.2 t0)]
  refine ⟨_, rfl, ?_⟩
  have sq : Real.sqrt (r.rnd (-2 * L.log v)) ≤ 7 := by
    rw [Real.sqrt_le_left (by norm_num)]
    linarith
  have s1 : r.rnd (Real.sqrt (r.rnd (-2 * L.log v))) ≤ 7 := by
    have := r.le_int (x := Real.sqrt (r.rnd (-2 * L.log v))) 7 (by norm_num) (by push_cast; exact sq)
    exact_mod_cast this
  have s0 : 0 ≤ r.rnd (Real.sqrt (r.rnd (-2 * L.log v))) := r.nonneg (Real.sqrt_nonneg _)
  generalize r.rnd (Real.sqrt (r.rnd (-2 * L.log v))) = s at *
  have hc := L.cos_le (r.rnd (r.rnd (2 * pi) * randGen r rs RM x2))
  generalize L.cos (r.rnd (r.rnd (2 * pi) * randGen r rs RM x2)) = c at *
  have hcs : |c * s| ≤ 7 := by
    rw [abs_mul, abs_of_nonneg s0]
    calc |c| * s ≤ 1 * 7 := mul_le_mul hc s1 s0 (by norm_num)
      _ = 7 := by norm_num
  obtain ⟨e1, e2⟩ := abs_le.1 hcs
  have f1 : r.rnd (c * s) ≤ 7 := by
    have := r.le_int (x := c * s) 7 (by norm_num) (by push_cast; exact e2)
    exact_mod_cast this
  have f0 : -7 ≤ r.rnd (c * s) := by
    have := r.int_le (x := c * s) (-7) (by norm_num) (by push_cast; exact e1)
    exact_mod_cast this
  rw [abs_le]
  constructor
  · have := rs.int_le (x := r.rnd (c * s)) (-7) (by norm_num) (by push_cast; exact f0)
    exact_mod_cast this
  · have := rs.le_int (x := r.rnd (c * s)) 7 (by norm_num) (by push_cast; exact f1)
    exact_mod_cast this

end

/-- The exact functions are one possible mathematics library. -/
noncomputable def exactLibm : Libm where
  cos := Real.cos
  log := Real.log
  cos_le := Real.abs_cos_le_one
  log_le := fun _ h h' => Real.log_nonpos h.le h'
  log_acc := fun x _ _ => by rw [sub_self, abs_zero]; positivity

example : ∃ a, normalRandom (noRounding 53) (noRounding 24) exactLibm Real.pi (2 ^ 31 - 1) 5 7 = some a ∧ |a| ≤ 7 :=
  C65_normal _ _ _ _ (by norm_num) (by norm_num)

end Cake
