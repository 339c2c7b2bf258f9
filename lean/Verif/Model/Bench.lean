/-
The `main` of the benchmark example (`examples/cake_sgemm_test.cpp`) and the arguments of the matrix-vector example
(`examples/cake_gemv.cpp`).
-/
import Verif.Model.SelfTest

namespace Cake
open List

/-- The value is an `int`. -/
def isInt (n : Nat) : Prop := n < 2147483648

instance (n : Nat) : Decidable (isInt n) := inferInstanceAs (Decidable (_ < _))

/-- `atoi(argv[i])`. The list has the numbers on the command line, with any number for the program's name; `argv[argc]` is
`NULL`, so a missing argument is undefined behaviour, and so is a number that is no `int`. Simplified: arguments are
numbers that are not negative. `examples/cake_sgemm_test.cpp:17-20`, `:42`, `examples/cake_gemv.cpp:783-785`. -/
def argInt (argv : List Nat) (i : Nat) : Except Fail Nat := match argv[i]? with
  | some n => if isInt n then .ok n else .error .ub
  | none => .error .ub

/-- The numbers the benchmark is run with. -/
structure BenchArgs where
  M : Nat
  K : Nat
  N : Nat
  p : Nat
  ntrials : Nat

/-- The arguments of the benchmark, and the `int` products in the sizes of the three matrices. The number of trials is
read after the matrices are made. `examples/cake_sgemm_test.cpp:8-20`, `:24-26`, `:42`. -/
def benchArgs (argv : List Nat) : Except Fail BenchArgs := do
  if argv.length < 3 then .error .exit
  let M ← argInt argv 1
  let K ← argInt argv 2
  let N ← argInt argv 3
  let p ← argInt argv 4
  if ¬ isInt (M * K) ∨ ¬ isInt (K * N) ∨ ¬ isInt (M * N) then .error .ub
  let ntrials ← argInt argv 5
  pure ⟨M, K, N, p, ntrials⟩

/-- The arguments of the matrix-vector example: `M`, `K` and `p`. `examples/cake_gemv.cpp:774-785`. -/
def gemvArgs (argv : List Nat) : Except Fail (Nat × Nat × Nat) := do
  if argv.length < 3 then .error .exit
  let M ← argInt argv 1
  let K ← argInt argv 2
  let p ← argInt argv 3
  pure (M, K, p)

/-- The context the benchmark uses: the one of `cake_query_cntx` with `8 x 12` tiles and the first kernel.
`examples/cake_sgemm_test.cpp:33-40`. -/
def benchCntx {D : Type _} (fl : Flt D) (mc : Machine) : CCtx D :=
  { query_cntx fl mc with mr := 8, nr := 12, m_map := 0, n_map := 0 }

/-- `flushsz`. `examples/cake_sgemm_test.cpp:45`. -/
def flushsz : Nat := 100000000

/-- An element of `dirty`. `examples/cake_sgemm_test.cpp:52`. -/
def dirty (i : Nat) : Loc := ⟨.ApC 0, i⟩

/-- An element of the local array `tttmp`. `examples/cake_sgemm_test.cpp:44`. -/
def tttmp (i : Nat) : Loc := ⟨.reg 0, i⟩

/-- The loop that flushes the caches, each iteration on any thread. Simplified: `dirty[dirt] += dirt%100` is an access to
the same element as in the code but does not change its value, and what is added to `tttmp` is the square of the element.
`examples/cake_sgemm_test.cpp:53-57`. -/
def flushTasks (z : Nat) : List (List Op) :=
  (range z).map fun d => [.copy (dirty d) (dirty d), .fma (tttmp (d % 18)) (dirty d) (dirty d)]

/-- What a trial does before the product. The sum of `tttmp` into a local variable (59-61), which nothing uses, is left
out. That the allocation succeeds is assumed (the code does not check). `examples/cake_sgemm_test.cpp:52-57`. -/
def flush (z : Nat) : Prog := [.malloc (dirty 0).buf z, .par (flushTasks z)]

/-- The product that is timed. `examples/cake_sgemm_test.cpp:72`. -/
def benchCall {D α : Type _} (fl : Flt D) (nz : α → Bool) (mc : Machine) (one zero : α) (a : BenchArgs) (cx : CCtx D) :
    Except Fail (Prog × CCtx D) :=
  sgemm_api fl nz mc (some cx) ⟨.A, 0⟩ ⟨.B, 0⟩ ⟨.C, 0⟩
    { M := a.M, N := a.N, K := a.K, p := a.p, alpha := one, beta := zero, sch := .KMN }

/-- How the benchmark ends: by `exit(1)`, with undefined behaviour, or normally after the checker has said whether it found
a difference (`true` for "WRONG"). -/
inductive BenchEnd
  | exit
  | ub
  | verdict (wrong : Bool)

section
variable {α C : Type _} (F G : Arith α) (dom : α → Prop) (exceeds : α → α → Bool) (call : C → Except Fail (Prog × C))

/-- Executions of the trials, from a context and a state. `examples/cake_sgemm_test.cpp:49-77`. -/
inductive BenchTrials : Nat → C → State α → Out α → Prop
  | done (cx s) : BenchTrials 0 cx s (.ok s)
  | flushUb (n cx s) : Exec F (flush flushsz) s .ub → BenchTrials (n + 1) cx s .ub
  | flushExit (n cx s) : Exec F (flush flushsz) s .exit → BenchTrials (n + 1) cx s .exit
  | callUb (n cx s s1) : Exec F (flush flushsz) s (.ok s1) → call cx = .error .ub → BenchTrials (n + 1) cx s .ub
  | callExit (n cx s s1) : Exec F (flush flushsz) s (.ok s1) → call cx = .error .exit → BenchTrials (n + 1) cx s .exit
  | ub (n cx s s1 prog cx') : Exec F (flush flushsz) s (.ok s1) → call cx = .ok (prog, cx') →
      Exec F (prog ++ [.free (dirty 0).buf]) s1 .ub → BenchTrials (n + 1) cx s .ub
  | exit (n cx s s1 prog cx') : Exec F (flush flushsz) s (.ok s1) → call cx = .ok (prog, cx') →
      Exec F (prog ++ [.free (dirty 0).buf]) s1 .exit → BenchTrials (n + 1) cx s .exit
  | step (n cx s s1 prog cx' s2 out) : Exec F (flush flushsz) s (.ok s1) → call cx = .ok (prog, cx') →
      Exec F (prog ++ [.free (dirty 0).buf]) s1 (.ok s2) → BenchTrials n cx' s2 out → BenchTrials (n + 1) cx s out

end

/-- The memory when the trials start, as in the library's own tests: A and B filled by `rand_init` with values in `dom`,
C of zeros. `examples/cake_sgemm_test.cpp:24-31`. -/
def BenchArgs.Start {α : Type _} (zero : α) (dom : α → Prop) (a : BenchArgs) (s : State α) : Prop :=
  TestCase.Start zero dom ⟨.kfirst, a.p, a.M, a.K, a.N⟩ s

/-- Executions of the benchmark. The checker has its own arithmetic `G`, as in `TestRun`. Freeing the matrices at the end
is left out. `examples/cake_sgemm_test.cpp:5-90`. -/
inductive BenchMain {α C : Type _} (F G : Arith α) (dom : α → Prop) (exceeds : α → α → Bool)
    (call : BenchArgs → C → Except Fail (Prog × C)) (cx : C) (argv : List Nat) : BenchEnd → Prop
  | argsExit : benchArgs argv = .error .exit → BenchMain F G dom exceeds call cx argv .exit
  | argsUb : benchArgs argv = .error .ub → BenchMain F G dom exceeds call cx argv .ub
  | trialsUb (a s) : benchArgs argv = .ok a → a.Start F.zero dom s → BenchTrials F (call a) a.ntrials cx s .ub →
      BenchMain F G dom exceeds call cx argv .ub
  | trialsExit (a s) : benchArgs argv = .ok a → a.Start F.zero dom s → BenchTrials F (call a) a.ntrials cx s .exit →
      BenchMain F G dom exceeds call cx argv .exit
  | checkUb (a s s1) : benchArgs argv = .ok a → a.Start F.zero dom s → BenchTrials F (call a) a.ntrials cx s (.ok s1) →
      Exec G (checkFill a.M a.N a.K) s1 .ub → BenchMain F G dom exceeds call cx argv .ub
  | checkExit (a s s1) : benchArgs argv = .ok a → a.Start F.zero dom s → BenchTrials F (call a) a.ntrials cx s (.ok s1) →
      Exec G (checkFill a.M a.N a.K) s1 .exit → BenchMain F G dom exceeds call cx argv .exit
  | verdict (a s s1 s2) : benchArgs argv = .ok a → a.Start F.zero dom s →
      BenchTrials F (call a) a.ntrials cx s (.ok s1) → Exec G (checkFill a.M a.N a.K) s1 (.ok s2) →
      BenchMain F G dom exceeds call cx argv (.verdict (checkVerdict exceeds a.M a.N s2))

end Cake
