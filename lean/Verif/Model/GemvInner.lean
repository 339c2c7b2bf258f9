/-
The row-major inner-product kernel of the matrix-vector example (`examples/cake_gemv.cpp:206-270`). Its only call is in a
commented-out schedule (`examples/cake_gemv.cpp:551`).

Unlike the other kernels it adds lanes of one register, which is not an element operation of `Op`; it is modelled as a
function on values. A pointer is an offset from the argument, `none` an element that may not be read (outside the object or
not initialised).
-/
import Verif.Model.Gemv

namespace Cake
open List

/-- Local variables: offset of the pointer `A`, the lanes of `c`, the elements of `ans.vals` (`none`: not written yet).
`examples/cake_gemv.cpp:206-212`. -/
structure InnerVars (α : Type _) where
  pA : Int
  c : Nat → α
  ans : Nat → Option α

section
variable {α : Type _} (F : Arith α) (add : α → α → α)

/-- `n / 8` calls of `_mm256_loadu_ps` from offset `p` on. `examples/cake_gemv.cpp:214-223`, `:233-240`. -/
def loadN (n : Nat) (X : Int → Option α) (p : Int) : Except Fail (Nat → α) :=
  if ∀ i, i < n → (X (p + i)).isSome then .ok fun i => (X (p + i)).getD F.zero else .error .ub

/-- The eight multiply-adds into `c`. `examples/cake_gemv.cpp:242-249`. -/
def innerFma (a b : Nat → α) (c : Nat → α) : Nat → α := fun l =>
  (range 8).foldl (fun acc u => F.fma (a (8 * u + l)) (b (8 * u + l)) acc) (c l)

/-- `tmp.vals[0]+...+tmp.vals[7]`, from the left. `examples/cake_gemv.cpp:252-255`. -/
def laneSum (c : Nat → α) : α := (range' 1 7).foldl (fun x l => add x (c l)) (c 0)

/-- Body of the loop over `kk`: the vector `b` is the one loaded before the loops; `ans.vals` has eight elements.
`examples/cake_gemv.cpp:233-256`. -/
def innerStep (A : Int → Option α) (b : Nat → α) (mm : Nat) (s : InnerVars α) : Except Fail (InnerVars α) := do
  let a ← loadN F 64 A s.pA
  let c := innerFma F a b s.c
  if 8 ≤ mm then .error .ub else
  .ok { pA := s.pA + 64, c := c, ans := fun i => if i = mm then some (laneSum add c) else s.ans i }

/-- Body of the loop over `mm`. `examples/cake_gemv.cpp:231-260`. -/
def innerRow (A : Int → Option α) (b : Nat → α) (k K : Nat) (s : InnerVars α) (mm : Nat) : Except Fail (InnerVars α) := do
  let s ← (cfor 0 k 64).foldlM (fun s _ => innerStep F add A b mm s) s
  .ok { s with pA := s.pA + ((K : Int) - k) }

/-- Everything but the final store. `examples/cake_gemv.cpp:206-260`. -/
def innerLoops (A B C : Int → Option α) (m k K : Nat) : Except Fail (InnerVars α) := do
  let c ← loadN F 8 C 0
  let b ← loadN F 64 B 0
  (range m).foldlM (innerRow F add A b k K) { pA := 0, c := c, ans := fun _ => none }

/-- The final store of `ans`. Storing an element that was never written is undefined, as in the rest of the model.
`examples/cake_gemv.cpp:269`. -/
def storeAns (ans : Nat → Option α) : Except Fail (Nat → α) :=
  if (range 8).all fun l => (ans l).isSome then .ok fun l => (ans l).getD F.zero else .error .ub

/-- `cake_sgemv_haswell_inner_1x64x1`: the eight elements it stores to `C`. `examples/cake_gemv.cpp:206-270`. -/
def cake_sgemv_haswell_inner_1x64x1 (A B C : Int → Option α) (m k K : Nat) : Except Fail (Nat → α) := do
  let s ← innerLoops F add A B C m k K
  storeAns F s.ans

end
end Cake
