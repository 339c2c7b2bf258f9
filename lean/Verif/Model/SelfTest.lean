/-
The library's own test, `run_tests` (`src/util.cpp`).
-/
import Verif.Model.OnlineApi
import Verif.Model.TwoDApi
import Verif.Model.Util

namespace Cake
open List

/-- The five products that are tested. `src/util.cpp:34`, `:55`, `:75`, `:96`, `:115`. -/
inductive Product
  | twoD
  | mfirst
  | online
  | kfirst
  | nfirst
  deriving DecidableEq

/-- The products in the order of the loop body. `src/util.cpp:26-123`. -/
def testProducts : List Product := [.twoD, .mfirst, .online, .kfirst, .nfirst]

/-- `Ms`, `Ks` and `Ns`. `src/util.cpp:11-13`. -/
def testSizes : List Nat := [1, 10, 96, 111, 960, 2111]

/-- One call of the loop body. -/
structure TestCase where
  prod : Product
  p : Nat
  M : Nat
  K : Nat
  N : Nat

/-- All calls in order, with `max_threads = ncores`. `src/util.cpp:17-24`. -/
def testCases (ncores : Nat) : List TestCase :=
  (cfor 2 (ncores + 1) 1).flatMap fun p => testSizes.flatMap fun M => testSizes.flatMap fun K =>
    testSizes.flatMap fun N => testProducts.map fun prod => ⟨prod, p, M, K, N⟩

/-- The arguments of the call: nothing packed, `alpha = 1`, `beta = 0`, no user tiles.
`src/util.cpp:34`, `:55`, `:75`, `:96`, `:115`. -/
def TestCase.args {α : Type _} (t : TestCase) (one zero : α) : Args α where
  M := t.M
  N := t.N
  K := t.K
  p := t.p
  alpha := one
  beta := zero
  sch := match t.prod with
    | .mfirst => .MKN
    | .nfirst => .NKM
    | _ => .KMN

/-- The call of one test, with the context as the calls before left it. `pn0 p N M` stands for
`(int) roundf(sqrt((double) p*N / M))`. The context is not changed by `cake_sgemm_2d`.
`src/util.cpp:34`, `:55`, `:75`, `:96`, `:115`. -/
def TestCase.call {D α : Type _} (fl : Flt D) (nz : α → Bool) (mc : Machine) (tbl : List (List Bool)) (L1 : Int)
    (pn0 : Nat → Nat → Nat → Nat) (one zero : α) (t : TestCase) (cx : CCtx D) : Except Fail (Prog × CCtx D) :=
  match t.prod with
  | .twoD => (sgemm_2d_api fl mc tbl (some cx) L1 (pn0 t.p t.N t.M) ⟨.A, 0⟩ ⟨.B, 0⟩ ⟨.C, 0⟩ (t.args one zero)).map
      fun prog => (prog, cx)
  | .online => sgemm_online_api fl mc (some cx) ⟨.A, 0⟩ ⟨.B, 0⟩ ⟨.C, 0⟩ (t.args one zero)
  | _ => sgemm_api fl nz mc (some cx) ⟨.A, 0⟩ ⟨.B, 0⟩ ⟨.C, 0⟩ (t.args one zero)

/-- The memory at the call: A of `M*K` and B of `K*N` elements, filled by `rand_init` (`src/util.cpp:267-276`) with any
values in `dom`, the range of its formula; C of `M*N` zeros; the context. The objects of the test before have been
freed. That the three allocations succeed is assumed (the code does not check). `src/util.cpp:26-32`. -/
structure TestCase.Start {α : Type _} (zero : α) (dom : α → Prop) (t : TestCase) (s : State α) : Prop where
  sizes : s.size = fun b => match b with
    | .A => some (t.M * t.K)
    | .B => some (t.K * t.N)
    | .C => some (t.M * t.N)
    | .Ctx => some 1
    | _ => none
  a : ∀ i, i < t.M * t.K → s.init ⟨.A, i⟩ = true ∧ dom (s.mem ⟨.A, i⟩)
  b : ∀ i, i < t.K * t.N → s.init ⟨.B, i⟩ = true ∧ dom (s.mem ⟨.B, i⟩)
  c : ∀ i, i < t.M * t.N → s.init ⟨.C, i⟩ = true ∧ s.mem ⟨.C, i⟩ = zero

/-- How the tests end: with a number of failures, by `exit(1)` in one of the calls, or with undefined behaviour. -/
inductive TestEnd
  | done (cnt : Nat)
  | exit
  | ub

section
variable {α C : Type _} (F G : Arith α) (dom : α → Prop) (exceeds : α → α → Bool) (call : TestCase → C → Except Fail (Prog × C))

/-- Executions of the loop: from the context `cx` and the failure count `cnt` to an end. Each test runs the call, then
the checker (`checkFill`, `checkVerdict`: C32) on what the call left. Freeing the objects afterwards is part of
`Start` of the next test. The checker has its own arithmetic `G`: the products use fused multiply-adds, the checker what
the compiler makes of `+=` and `*`. `src/util.cpp:17-127`. -/
inductive TestRun : List TestCase → C → Nat → TestEnd → Prop
  | done (cx : C) (cnt : Nat) : TestRun [] cx cnt (.done cnt)
  | callUb (t ts cx cnt) : call t cx = .error .ub → TestRun (t :: ts) cx cnt .ub
  | callExit (t ts cx cnt) : call t cx = .error .exit → TestRun (t :: ts) cx cnt .exit
  | ub (t ts cx cnt prog cx' s) : call t cx = .ok (prog, cx') → t.Start F.zero dom s →
      Exec F prog s .ub → TestRun (t :: ts) cx cnt .ub
  | exit (t ts cx cnt prog cx' s) : call t cx = .ok (prog, cx') → t.Start F.zero dom s →
      Exec F prog s .exit → TestRun (t :: ts) cx cnt .exit
  | checkUb (t ts cx cnt prog cx' s s1) : call t cx = .ok (prog, cx') → t.Start F.zero dom s →
      Exec F prog s (.ok s1) → Exec G (checkFill t.M t.N t.K) s1 .ub → TestRun (t :: ts) cx cnt .ub
  | checkExit (t ts cx cnt prog cx' s s1) : call t cx = .ok (prog, cx') → t.Start F.zero dom s →
      Exec F prog s (.ok s1) → Exec G (checkFill t.M t.N t.K) s1 .exit → TestRun (t :: ts) cx cnt .exit
  | step (t ts cx cnt prog cx' s s1 s2 out) : call t cx = .ok (prog, cx') → t.Start F.zero dom s →
      Exec F prog s (.ok s1) → Exec G (checkFill t.M t.N t.K) s1 (.ok s2) →
      TestRun ts cx' (if checkVerdict exceeds t.M t.N s2 then cnt + 1 else cnt) out → TestRun (t :: ts) cx cnt out

end

/-- What `run_tests` prints at the end and returns, after `cnt` failures. `src/util.cpp:129-135`. -/
def testReport (cnt : Nat) : String × Int := (if cnt ≠ 0 then "FAILED" else "ALL TESTS PASSED!", 0)

end Cake
