/-
IEEE arithmetic over the reals: exact result, then rounding.
-/
import Verif.Model.CacheDims
import Mathlib.Analysis.SpecialFunctions.Pow.Real
import Mathlib.Analysis.SpecialFunctions.Sqrt

namespace Cake

/-- A rounding of the reals to a binary format with `prec` bits: monotone, exact on integers of magnitude up
to `2^prec`, relative error at most `2^-prec` on the normal range of the format (`double`: `prec = 53`,
`float`: `prec = 24`). Nothing is said about ties. Overflow is not represented. -/
structure Rounding (prec : Nat) where
  rnd : ℝ → ℝ
  mono : Monotone rnd
  int : ∀ n : ℤ, |n| ≤ 2 ^ prec → rnd n = n
  err : ∀ x : ℝ, 2 ^ (-100 : ℤ) ≤ |x| → |x| ≤ 2 ^ (100 : ℤ) → |rnd x - x| ≤ |x| / 2 ^ prec

/-- No rounding at all. -/
def noRounding (prec : Nat) : Rounding prec where
  rnd := id
  mono := monotone_id
  int := fun _ _ => rfl
  err := fun x _ _ => by simp; positivity

open Classical in
/-- Doubles as `Option ℝ`: `none` is a value that is not a finite number; any operation on it gives another,
converting it to `int` is undefined, and comparisons with it are decided by the arbitrary `nf`. A conversion
`(int) x` truncates towards zero and is undefined outside the range of `int`. -/
noncomputable def ieee (r : Rounding 53) (rs : Rounding 24) (nf : Option ℝ → Option ℝ → Bool) : Flt (Option ℝ) where
  ofInt n := some (r.rnd n)
  add x y := x.bind fun a => y.bind fun b => some (r.rnd (a + b))
  sub x y := x.bind fun a => y.bind fun b => some (r.rnd (a - b))
  mul x y := x.bind fun a => y.bind fun b => some (r.rnd (a * b))
  div x y := x.bind fun a => y.bind fun b => if b = 0 then none else some (r.rnd (a / b))
  sqrt x := x.bind fun a => if a < 0 then none else some (r.rnd (Real.sqrt a))
  single x := x.bind fun a => some (rs.rnd a)
  trunc x := x.bind fun a =>
    let n : ℤ := if 0 ≤ a then ⌊a⌋ else ⌈a⌉
    if -2 ^ 31 ≤ n ∧ n < 2 ^ 31 then some n else none
  le x y := match x, y with
    | some a, some b => decide (a ≤ b)
    | x, y => nf x y

end Cake
