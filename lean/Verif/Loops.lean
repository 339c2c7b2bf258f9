/-
Loop combinators used by the model, and their closed forms.
-/
import Verif.Core

namespace Cake

/-- `for(i = lo; i < hi; i += step)`: the values of `i`.  (`fuel` is only a termination device:
for `step ≥ 1` at most `hi - lo` iterations happen.) -/
def cforAux : Nat → Nat → Nat → Nat → List Nat
  | 0, _, _, _ => []
  | fuel + 1, lo, hi, step => if lo < hi then lo :: cforAux fuel (lo + step) hi step else []

def cfor (lo hi step : Nat) : List Nat := cforAux (hi - lo) lo hi step

/-- `for(i = start; i != stop; i += inc)` with `inc = 1` or `-1` (serpentine loops): the values of
`i`; `fuel` bounds the number of iterations. -/
def cforNe : Nat → Int → Int → Int → List Int
  | 0, _, _, _ => []
  | fuel + 1, start, stop, inc =>
    if start ≠ stop then start :: cforNe fuel (start + inc) stop inc else []

/-- A loop that appends to an output list and carries local variables `σ` (counters, pointers). -/
def loopS {β γ σ : Type _} : List β → (β → σ → List γ × σ) → σ → List γ × σ
  | [], _, s => ([], s)
  | x :: xs, body, s => ((body x s).1 ++ (loopS xs body (body x s).2).1,
                         (loopS xs body (body x s).2).2)

/-- `(int) ceil(((double) a) / b)`; exact by `C37_cdiv` (`Verif.Props.FloatCeil`). -/
def cdiv (a b : Nat) : Nat := (a + b - 1) / b

end Cake
