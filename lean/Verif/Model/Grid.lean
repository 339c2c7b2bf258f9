/-
Core grid: factor table generator (`python/grid_gen.py`), `grid_dims_2d` and `lcm`
(`src/block_sizing.cpp`).
-/
import Verif.Loops
import Mathlib.Data.Nat.Sqrt

namespace Cake
open List

/-- `factors(n)`: `[i, n//i] for i in range(1, int(n**0.5)+1) if n % i == 0`. The `sorted(set(..))` is
left out: the result is only used to set table entries. `int(n**0.5)` is modelled as the exact integer
square root (true of the double-precision `**0.5` for the sizes of core counts).
`python/grid_gen.py:15-17`. -/
def factors (n : Nat) : List Nat :=
  ((cfor 1 (Nat.sqrt n + 1) 1).filter fun i => n % i == 0).flatMap fun i => [i, n / i]

/-- One row: `q = [0]*p; for f in factors: q[f-1] = 1`. `python/grid_gen.py:31-34`. -/
def factorRow (ncores n : Nat) : List Bool :=
  (factors n).foldl (fun q f => q.set (f - 1) true) (replicate ncores false)

/-- `gen_factor_table`: rows for `p_min..ncores`, reversed. `r` stands for the rounded `alpha*p`.
`python/grid_gen.py:20-37`. -/
def gridTable (ncores r : Nat) : List (List Bool) :=
  ((cfor (max 1 r) (ncores + 1) 1).map (factorRow ncores)).reverse

/-- `grid_dims[i][j]` with C `int` indices; `none` = out of bounds. -/
def gridAt (tbl : List (List Bool)) (i j : Int) : Option Bool :=
  if i < 0 ∨ j < 0 then none else (tbl[i.toNat]?).bind fun row => row[j.toNat]?

/-- `for(i in is) if(grid_dims[row][i]) { v = i; break; }`: outer `none` = out of bounds access, inner
`none` = `v` stays uninitialised. -/
def gridFind (tbl : List (List Bool)) (row : Int) : List Nat → Option (Option Nat)
  | [] => some none
  | i :: is => do
    if ← gridAt tbl row i then pure (some i) else gridFind tbl row is

/-- `grid_dims_2d`. `pn0` stands for `(int) roundf(sqrt((double)p*N/M))` (taken non-negative). `none` =
undefined behaviour: table access out of bounds or use of the uninitialised variable `low` or `high`.
`src/block_sizing.cpp:601-636`. -/
def grid_dims_2d (tbl : List (List Bool)) (pn0 p ncores : Nat) : Option Nat := do
  let pn := if pn0 = 0 then 1 else pn0
  let pn := if pn > p then p else pn
  let row : Int := ncores - p
  let c ← gridAt tbl row (pn - 1 : Int)
  let pn_ret : Int ← if c then some (pn : Int) else do
    let high ← gridFind tbl row ((range (p - pn)).map (pn + ·))
    let low ← gridFind tbl row ((range (pn - 2)).map (pn - 2 - ·))
    let high ← high
    let low ← low
    some (if (high : Int) - (pn - 1) < (pn - 1) - low then (high : Int) + 1 else (low : Int) + 1)
  some (if pn_ret < p then pn_ret else p).toNat

/-- `lcm`: try `max(n1,n2)`, then the next integer, … `fuel` bounds the number of iterations (`none` when
it is used up). `% 0` does not occur for positive arguments. `src/block_sizing.cpp:861-870`. -/
def lcmLoop (n1 n2 : Nat) : Nat → Nat → Option Nat
  | 0, _ => none
  | fuel + 1, mx => if mx % n1 = 0 ∧ mx % n2 = 0 then some mx else lcmLoop n1 n2 fuel (mx + 1)

def lcmC (fuel n1 n2 : Nat) : Option Nat := lcmLoop n1 n2 fuel (if n1 > n2 then n1 else n2)

end Cake
