/-
The tile-size search: `get_candidate`.
-/
import Mathlib.Algebra.Order.Archimedean.Real.Basic
import Mathlib.Data.Finset.Prod
import Mathlib.Algebra.Order.Floor.Ring

namespace Cake

/-- `clamp_val_int`. `src/autotune_sa.cpp:21-24`. -/
def clampInt (d min max : ℤ) : ℤ :=
  let t := if d < min then min else d
  if t > max then max else t

/-- `get_random_step`, with `a` the value returned by `normalRandom`: `a` rounded away from zero, times `step`.
`src/autotune_sa.cpp:28-32`. -/
noncomputable def randomStep (a : ℝ) (step : ℤ) : ℤ := (if a < 0 then ⌊a⌋ else ⌈a⌉) * step

/-- The arguments of `get_candidate` that stay the same during a search: sizes, core grid and register tile. -/
structure Search where
  M : Nat
  K : Nat
  N : Nat
  pm : Nat
  pn : Nat
  mr : Nat
  nr : Nat

namespace Search
variable (q : Search)

/-- `(M / pm) + (mr - ((M / pm) % mr))`. `src/autotune_sa.cpp:42`. -/
def mcMax : Nat := q.M / q.pm + (q.mr - q.M / q.pm % q.mr)
/-- `src/autotune_sa.cpp:45`. -/
def ncMax : Nat := q.N / q.pn + (q.nr - q.N / q.pn % q.nr)

/-- `max_cand`: `((M % mc_step) ? (M / mc_step) + 1 : (M / mc_step)) * ...`. `src/autotune_sa.cpp:48-50`. -/
def maxCand : Nat :=
  (if q.M % 30 ≠ 0 then q.M / 30 + 1 else q.M / 30) * (if q.K % 20 ≠ 0 then q.K / 20 + 1 else q.K / 20) *
    (if q.N % 128 ≠ 0 then q.N / 128 + 1 else q.N / 128)

/-- One pass of the loop: the point `curr` moved by three random steps and clamped. `src/autotune_sa.cpp:57-65`. -/
noncomputable def move (curr : ℤ × ℤ × ℤ) (a : ℝ × ℝ × ℝ) : ℤ × ℤ × ℤ :=
  (clampInt (curr.1 + randomStep a.1 30) q.mr q.mcMax, clampInt (curr.2.1 + randomStep a.2.1 20) 20 q.K,
    clampInt (curr.2.2 + randomStep a.2.2 128) q.nr q.ncMax)

end Search

/-- What a call does: undefined behaviour (a division by zero or a signed overflow); it ends without having written the
candidate; it ends with a candidate (and a larger set of visited points). -/
inductive Cand where
  | ub
  | none
  | some (d : ℤ × ℤ × ℤ) (visited : Finset (ℤ × ℤ × ℤ))

/-- The value is a 32-bit `int`. -/
def IsInt (z : ℤ) : Prop := -2 ^ 31 ≤ z ∧ z < 2 ^ 31

/-- `get_candidate`: the loop, with the list of the random numbers drawn (three per pass). The points already visited
(`visited_params`, a global) are a finite set; hashing is not modelled. The field `sch`, copied from `curr`, and the
output on the terminal are left out. The loop may go on forever: then there is no outcome.
`src/autotune_sa.cpp:36-82`. -/
inductive GetCandidate (q : Search) (curr : ℤ × ℤ × ℤ) (visited : Finset (ℤ × ℤ × ℤ)) : List (ℝ × ℝ × ℝ) → Cand → Prop
  | divZero : q.pm = 0 ∨ q.pn = 0 ∨ q.mr = 0 ∨ q.nr = 0 → GetCandidate q curr visited [] .ub
  | overflow : ¬ IsInt q.maxCand → GetCandidate q curr visited [] .ub
  | full : q.maxCand ≤ visited.card → GetCandidate q curr visited [] .none
  | stepOverflow (a) : visited.card < q.maxCand → ¬ (IsInt (curr.1 + randomStep a.1 30) ∧
      IsInt (curr.2.1 + randomStep a.2.1 20) ∧ IsInt (curr.2.2 + randomStep a.2.2 128)) →
      GetCandidate q curr visited [a] .ub
  | fresh (a) : visited.card < q.maxCand → q.move curr a ∉ visited →
      GetCandidate q curr visited [a] (.some (q.move curr a) (insert (q.move curr a) visited))
  | again (a l out) : visited.card < q.maxCand → q.move curr a ∈ visited → GetCandidate q curr visited l out →
      GetCandidate q curr visited (a :: l) out

end Cake
