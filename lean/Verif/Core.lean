/-
Semantics of the model: element operations, parallel loops, allocation.

The library is data oblivious: the addresses touched depend on sizes only.  Each modelled C++
function therefore yields a list of element operations; an OpenMP loop yields one list (task) per
iteration.  Undefined behaviour is the outcome `Out.ub`.
-/

namespace Cake

/-- Memory objects of one library call. `A`, `B`, `C` are the caller's matrices
(`src/cake_sgemm.cpp:9`), `Ap`, `Bp`, `Cp` the packed buffers, `CpC i` the per-core buffer `C_p[i]`
(`src/cake_sgemm.cpp:86-90`), `ApC i` the per-core buffer `A_p[i]` of the online variants,
`reg t` the vector registers (local `__m256` variables) of task `t`. `Blk` is the heap object `x` of
type `blk_dims_t` (`src/cake_sgemm.cpp:18`), `Dims` the `cache_dims_t` returned by `get_cache_dims`
(`src/block_sizing.cpp:356`), `Ctx` a context allocated by `cake_query_cntx` (`src/block_sizing.cpp:42`);
their contents are kept as Lean values, only their allocation is tracked. -/
inductive Buf where
  | A | B | C | Ap | Bp | Cp | Blk | Dims | Ctx
  | CpC (i : Nat) | ApC (i : Nat) | reg (t : Nat)
  deriving DecidableEq, Repr

/-- A memory location; also used as a `float*` pointer into a buffer. -/
structure Loc where
  buf : Buf
  idx : Nat
  deriving DecidableEq, Repr

/-- Pointer arithmetic `&p[d]`. -/
def Loc.off (l : Loc) (d : Nat) : Loc := ⟨l.buf, l.idx + d⟩

infixl:67 " +ₚ " => Loc.off

/-- Contents of all memory objects. -/
abbrev Mem (α : Type _) := Loc → α

/-- The element arithmetic: the constant `0.0` and one lane of the fused multiply-add
`fma a b c = a*b + c`.  No laws are assumed, so IEEE single precision is an instance. -/
structure Arith (α : Type _) where
  zero : α
  fma : α → α → α → α

/-- Element operations: `*dst = *src`, `*dst = 0.0`, `*dst = fma(*a, *b, *dst)`. -/
inductive Op where
  | copy (dst src : Loc)
  | zero (dst : Loc)
  | fma (dst a b : Loc)
  deriving DecidableEq, Repr

namespace Op

/-- Location written. -/
def dst : Op → Loc
  | copy d _ => d
  | zero d => d
  | fma d _ _ => d

/-- Locations read. -/
def reads : Op → List Loc
  | copy _ s => [s]
  | zero _ => []
  | fma d a b => [a, b, d]

/-- Value written. -/
def val {α} (F : Arith α) : Op → Mem α → α
  | copy _ s, m => m s
  | zero _, _ => F.zero
  | fma d a b, m => F.fma (m a) (m b) (m d)

/-- Effect on memory. -/
def step {α} (F : Arith α) (o : Op) (m : Mem α) : Mem α :=
  fun l => if l = o.dst then o.val F m else m l

/-- Two operations that may not be executed concurrently. -/
def Conflict (o o' : Op) : Prop :=
  o.dst = o'.dst ∨ o.dst ∈ o'.reads ∨ o'.dst ∈ o.reads

end Op

/-- Sequential effect of a list of operations. -/
def exec {α} (F : Arith α) : List Op → Mem α → Mem α
  | [], m => m
  | o :: os, m => exec F os (o.step F m)

/-- Machine state: which objects are allocated and how large (in elements), contents,
and which elements hold a defined value. -/
structure State (α : Type _) where
  size : Buf → Option Nat
  mem : Mem α
  init : Loc → Bool

/-- A location may be accessed if its object is allocated and large enough
(registers are local variables: always accessible). -/
def InB (size : Buf → Option Nat) (l : Loc) : Prop :=
  match l.buf with
  | .reg _ => True
  | b => ∃ n, size b = some n ∧ l.idx < n

/-- An operation has defined behaviour: everything in bounds, everything read is initialised. -/
def Op.Defined (size : Buf → Option Nat) (init : Loc → Bool) (o : Op) : Prop :=
  InB size o.dst ∧ ∀ r ∈ o.reads, InB size r ∧ init r = true

/-- Outcome of a program: normal end, `exit(1)`, or undefined behaviour. -/
inductive Out (α : Type _) where
  | ok (s : State α)
  | exit
  | ub

/-- Executing a list of operations one after another, with undefined behaviour as an outcome. -/
inductive RunOps {α} (F : Arith α) : List Op → State α → Out α → Prop
  | nil (s) : RunOps F [] s (.ok s)
  | undef (o os s) : ¬ o.Defined s.size s.init → RunOps F (o :: os) s .ub
  | step (o os s out) : o.Defined s.size s.init →
      RunOps F os { size := s.size, mem := o.step F s.mem,
                    init := fun l => decide (l = o.dst) || s.init l } out →
      RunOps F (o :: os) s out

/-- `l` is an interleaving of the tasks `ts`. -/
inductive Interleave : List (List Op) → List Op → Prop
  | done (ts) : (∀ t ∈ ts, t = []) → Interleave ts []
  | step (pre : List (List Op)) (o : Op) (t : List Op) (post : List (List Op)) (l : List Op) :
      Interleave (pre ++ t :: post) l → Interleave (pre ++ (o :: t) :: post) (o :: l)

/-- No two distinct tasks contain conflicting operations. -/
def RaceFree (ts : List (List Op)) : Prop :=
  ts.Pairwise fun t t' => ∀ o ∈ t, ∀ o' ∈ t', ¬ o.Conflict o'

/-- Program items: allocation, release, and a parallel loop (a list of tasks).
Sequential code is a parallel loop with one task. -/
inductive Item where
  | memalign (b : Buf) (n : Nat)
  | malloc (b : Buf) (n : Nat)
  | calloc (b : Buf) (n : Nat)
  | free (b : Buf)
  | par (ts : List (List Op))

abbrev Prog := List Item

/-- Executions of one item. Fresh `posix_memalign` memory has arbitrary contents and is
uninitialised; failure of `posix_memalign` ends in `exit(1)` (e.g. `src/cake_sgemm.cpp:50-53`);
`calloc` gives zeroes. `malloc` and `calloc`, whose result the code does not check, are assumed to
succeed here; `FExec` (Verif.Model.OutOfMem) lets them fail. Allocating a second object under a name still in use would lose the first one and is ruled
out as an error. A parallel loop with a data race is undefined; otherwise its tasks run in any
interleaving. -/
inductive ItemExec {α} (F : Arith α) : Item → State α → Out α → Prop
  | memalign (b n s m') : s.size b = none → (∀ l, l.buf ≠ b → m' l = s.mem l) →
      ItemExec F (.memalign b n) s (.ok { size := fun b' => if b' = b then some n else s.size b'
                                          mem := m'
                                          init := fun l => if l.buf = b then false else s.init l })
  | memalignFail (b n s) : ItemExec F (.memalign b n) s .exit
  | memalignUb (b n s) : s.size b ≠ none → ItemExec F (.memalign b n) s .ub
  | malloc (b n s m') : s.size b = none → (∀ l, l.buf ≠ b → m' l = s.mem l) →
      ItemExec F (.malloc b n) s (.ok { size := fun b' => if b' = b then some n else s.size b'
                                        mem := m'
                                        init := fun l => if l.buf = b then false else s.init l })
  | mallocUb (b n s) : s.size b ≠ none → ItemExec F (.malloc b n) s .ub
  | calloc (b n s) : s.size b = none →
      ItemExec F (.calloc b n) s (.ok { size := fun b' => if b' = b then some n else s.size b'
                                        mem := fun l => if l.buf = b then F.zero else s.mem l
                                        init := fun l => if l.buf = b then true else s.init l })
  | callocUb (b n s) : s.size b ≠ none → ItemExec F (.calloc b n) s .ub
  | free (b s) : s.size b ≠ none →
      ItemExec F (.free b) s (.ok { s with size := fun b' => if b' = b then none else s.size b' })
  | freeUb (b s) : s.size b = none → ItemExec F (.free b) s .ub
  | race (ts s) : ¬ RaceFree ts → ItemExec F (.par ts) s .ub
  | par (ts l s out) : Interleave ts l → RunOps F l s out → ItemExec F (.par ts) s out

/-- Executions of a program. -/
inductive Exec {α} (F : Arith α) : Prog → State α → Out α → Prop
  | nil (s) : Exec F [] s (.ok s)
  | next (i is s s' out) : ItemExec F i s (.ok s') → Exec F is s' out → Exec F (i :: is) s out
  | exit (i is s) : ItemExec F i s .exit → Exec F (i :: is) s .exit
  | ub (i is s) : ItemExec F i s .ub → Exec F (i :: is) s .ub

/-- Every execution of `p` from a state satisfying `P` avoids undefined behaviour, and unless it
stops in `exit(1)` on a failed allocation it ends in a state satisfying `Q`. -/
def Triple {α} (F : Arith α) (P : State α → Prop) (p : Prog) (Q : State α → Prop) : Prop :=
  ∀ s out, P s → Exec F p s out → out = .exit ∨ ∃ s', out = .ok s' ∧ Q s'

end Cake
