/-
`clamp_val` (`src/block_sizing.cpp`).
-/
import Mathlib.Data.Real.Basic

namespace Cake

/-- `a < b` on `double`: `none` is a NaN, with which every comparison is false. Infinities are not modelled. -/
def dLt (a b : Option ℝ) : Prop := match a, b with
  | some x, some y => x < y
  | _, _ => False

open Classical in
/-- `clamp_val`. `src/block_sizing.cpp:4-7`. -/
noncomputable def clamp_val (d min max : Option ℝ) : Option ℝ :=
  let t := if dLt d min then min else d
  if dLt max t then max else t

end Cake
