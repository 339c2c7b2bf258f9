/-
Random numbers of the library: `rand_gen`, `rand_init`, `normalRandom`.
-/
import Verif.Model.Double
import Mathlib.Analysis.SpecialFunctions.Log.Basic
import Mathlib.Analysis.SpecialFunctions.Trigonometric.Basic

namespace Cake

/-- `cos` and `log` of the C library on doubles. All that is assumed: `cos` returns a value between -1 and 1; on arguments
in `(0, 1]`, `log` returns a value that is not positive and within 5% of the logarithm. -/
structure Libm where
  cos : ℝ → ℝ
  log : ℝ → ℝ
  cos_le : ∀ x, |cos x| ≤ 1
  log_le : ∀ x, 0 < x → x ≤ 1 → log x ≤ 0
  log_acc : ∀ x, 0 < x → x ≤ 1 → |log x - Real.log x| ≤ |Real.log x| / 20

section
variable (r : Rounding 53) (rs : Rounding 24) (L : Libm)

/-- `rand_gen`: `( (float)(rand()) + 1. ) / ( (float)(((float) RAND_MAX)) + 1. )`, with `RM` for `RAND_MAX` and `x` the value
returned by `rand()`; the sums and the quotient are doubles, the result is converted to `float`.
`src/util.cpp:253-255`. -/
noncomputable def randGen (RM x : Nat) : ℝ :=
  rs.rnd (r.rnd (r.rnd (rs.rnd x + 1) / r.rnd (rs.rnd RM + 1)))

/-- The value `rand_init` stores into one element: `(float) rand() / ((float) RAND_MAX)*2.0 - 1.0`; the quotient is a `float`,
the rest double, the result is converted to `float`. `src/util.cpp:259-267`. -/
noncomputable def randInit (RM x : Nat) : ℝ :=
  rs.rnd (r.rnd (r.rnd (rs.rnd (rs.rnd x / rs.rnd RM) * 2) - 1))

/-- `normalRandom`: `cos(2*M_PI*v2)*sqrt(-2.*log(v1))` with `v1`, `v2` from `rand_gen` (`x1`, `x2` the values of `rand()`); `none`
is a value that is not a finite number: `log` of a number that is not positive, `sqrt` of a negative number. `pi` is the
constant `M_PI`. `src/util.cpp:272-277`. -/
noncomputable def normalRandom (pi : ℝ) (RM x1 x2 : Nat) : Option ℝ :=
  let v1 := randGen r rs RM x1
  let v2 := randGen r rs RM x2
  if v1 ≤ 0 then none else
  let t := r.rnd (-2 * L.log v1)
  if t < 0 then none else
  some (rs.rnd (r.rnd (L.cos (r.rnd (r.rnd (2 * pi) * v2)) * r.rnd (Real.sqrt t))))

end

end Cake
