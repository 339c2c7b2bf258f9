/-
Calls made at the same time from several threads of the caller, and operands that overlap: the machine memory is
shared, every call sees it through its own pointers. Where a call's own objects will lie is fixed in advance by `ren`
(the allocator gives different calls, and different objects, different memory); the OpenMP run-time's own state
(`omp_set_num_threads` is per thread) is not modelled.
-/
import Verif.Core

namespace Cake
open List

/-- The machine: memory cells `γ` with contents and initialised flags, shared by all calls; and for every call `i` which
of its objects exist and how large they are. -/
structure GState (ι γ α : Type _) where
  size : ι → Buf → Option Nat
  mem : γ → α
  init : γ → Bool

variable {ι γ α : Type _}

/-- What call `i` sees, if the element `l` of its objects is the memory cell `ren i l`. Different calls may see the same
cell (shared operands), and so may one call under different names (overlapping operands). -/
def GState.view (ren : ι → Loc → γ) (G : GState ι γ α) (i : ι) : State α :=
  ⟨G.size i, fun l => G.mem (ren i l), fun l => G.init (ren i l)⟩

/-- Two operations, whose locations are the cells given by `r` and `r'`, access a common cell and one of them writes it. -/
def ConflictAt (r r' : Loc → γ) (o o' : Op) : Prop :=
  r o.dst = r' o'.dst ∨ (∃ x ∈ o'.reads, r o.dst = r' x) ∨ ∃ x ∈ o.reads, r' o'.dst = r x

/-- No two tasks of a parallel loop access a common cell of which one writes it. -/
def RaceFreeAt (r : Loc → γ) (ts : List (List Op)) : Prop :=
  ts.Pairwise fun t t' => ∀ o ∈ t, ∀ o' ∈ t', ¬ ConflictAt r r o o'

/-- All element operations of a program. -/
def progOps (p : Prog) : List Op := p.flatMap fun
  | .par ts => ts.flatten
  | _ => []

/-- The objects a program allocates or frees. -/
def progObjs (p : Prog) : List Buf := p.flatMap fun
  | .memalign b _ => [b]
  | .malloc b _ => [b]
  | .calloc b _ => [b]
  | .free b => [b]
  | .par _ => []

/-- The cells of object `b` of call `i` get new contents and initialised flags, the others keep theirs. -/
structure Fresh (ren : ι → Loc → γ) (i : ι) (b : Buf) (ini : Bool) (G G' : GState ι γ α) (n : Nat) : Prop where
  size : G'.size i = fun b' => if b' = b then some n else G.size i b'
  others : ∀ j, j ≠ i → G'.size j = G.size j
  mem : ∀ g, (∀ k, ren i ⟨b, k⟩ ≠ g) → G'.mem g = G.mem g
  init : ∀ g, (∀ k, ren i ⟨b, k⟩ ≠ g) → G'.init g = G.init g
  ini : ∀ k, G'.init (ren i ⟨b, k⟩) = ini

/-- One step of call `i`, of which the items `p` remain: as in `ItemExec`, but on the shared memory and one element
operation at a time. -/
inductive GStep (F : Arith α) (ren : ι → Loc → γ) (i : ι) : Prog → GState ι γ α → Prog → GState ι γ α → Prop
  | memalign (b n is G G') : G.size i b = none → Fresh ren i b false G G' n → GStep F ren i (.memalign b n :: is) G is G'
  | malloc (b n is G G') : G.size i b = none → Fresh ren i b false G G' n → GStep F ren i (.malloc b n :: is) G is G'
  | calloc (b n is G G') : G.size i b = none → Fresh ren i b true G G' n → (∀ k, G'.mem (ren i ⟨b, k⟩) = F.zero) →
      GStep F ren i (.calloc b n :: is) G is G'
  | free (b is G G') : G.size i b ≠ none → (G'.size i = fun b' => if b' = b then none else G.size i b') →
      (∀ j, j ≠ i → G'.size j = G.size j) → G'.mem = G.mem → G'.init = G.init → GStep F ren i (.free b :: is) G is G'
  | op (pre o t post is G G') : o.Defined (G.size i) (fun l => G.init (ren i l)) →
      G'.size = G.size →
      (∀ g, g ≠ ren i o.dst → G'.mem g = G.mem g ∧ G'.init g = G.init g) →
      G'.mem (ren i o.dst) = o.val F (fun l => G.mem (ren i l)) → G'.init (ren i o.dst) = true →
      GStep F ren i (.par (pre ++ (o :: t) :: post) :: is) G (.par (pre ++ t :: post) :: is) G'
  | done (ts is G) : (∀ t ∈ ts, t = []) → GStep F ren i (.par ts :: is) G is G

/-- Call `i` is at a point where its behaviour is undefined. -/
inductive GUb (ren : ι → Loc → γ) (i : ι) (G : GState ι γ α) : Prog → Prop
  | memalign (b n is) : G.size i b ≠ none → GUb ren i G (.memalign b n :: is)
  | malloc (b n is) : G.size i b ≠ none → GUb ren i G (.malloc b n :: is)
  | calloc (b n is) : G.size i b ≠ none → GUb ren i G (.calloc b n :: is)
  | free (b is) : G.size i b = none → GUb ren i G (.free b :: is)
  | race (ts is) : ¬ RaceFreeAt (ren i) ts → GUb ren i G (.par ts :: is)
  | undef (pre o t post is) : ¬ o.Defined (G.size i) (fun l => G.init (ren i l)) →
      GUb ren i G (.par (pre ++ (o :: t) :: post) :: is)

/-- Fields of a context, `cake_cntx_t`, that calls access. `include/common.h`. -/
inductive Field where
  | alpha_n | mr | nr | m_map | n_map | L1 | L2 | L3 | ncores
  deriving DecidableEq, Repr

/-- An access to a field of the context: written or read. -/
structure CtxAcc where
  field : Field
  write : Bool
  deriving DecidableEq, Repr

/-- Accesses of `cake_sgemm`, `cake_sgemm_test` and `cake_sgemm_online` to the caller's context: `user` if the caller
gives all three tile sizes, `auto` if the schedule is left to the library. `src/block_sizing.cpp:469-470` (mr, nr),
`309-312` (ncores, mr, nr), `319` (L2), `329` (L3), `336` (alpha_n written), `447-448` (alpha_n read by
`derive_schedule`), `368` (alpha_n written) or `376,383,394` (alpha_n read; every case of the switch). The later reads of
mr, nr, m_map and n_map by size computation, packing and schedules (e.g. `src/cake_sgemm_k_first.cpp:13-14`) are listed
once. -/
def ctxAccesses (auto user : Bool) : List CtxAcc :=
  [⟨.mr, false⟩, ⟨.nr, false⟩, ⟨.ncores, false⟩, ⟨.mr, false⟩, ⟨.nr, false⟩, ⟨.L2, false⟩, ⟨.L3, false⟩,
    ⟨.alpha_n, true⟩] ++ (if auto then [⟨.alpha_n, false⟩, ⟨.alpha_n, false⟩] else []) ++
  [if user then ⟨.alpha_n, true⟩ else ⟨.alpha_n, false⟩] ++
  [⟨.mr, false⟩, ⟨.nr, false⟩, ⟨.m_map, false⟩, ⟨.n_map, false⟩]

/-- Accesses of `cake_sgemm_2d`: `src/block_sizing.cpp:651-653` (mr, nr, ncores), `663` (L1), `672` (alpha_n written) or
`675` (L2), `685-719` (mr, nr), `src/cake_sgemm_k_first.cpp:283-284` (mr, nr, m_map, n_map). -/
def ctxAccesses2d (user : Bool) : List CtxAcc :=
  [⟨.mr, false⟩, ⟨.nr, false⟩, ⟨.ncores, false⟩, ⟨.L1, false⟩, if user then ⟨.alpha_n, true⟩ else ⟨.L2, false⟩,
    ⟨.mr, false⟩, ⟨.nr, false⟩, ⟨.m_map, false⟩, ⟨.n_map, false⟩]

/-- Accesses of `cake_sgemm_2d_small`: `src/block_sizing.cpp:813-815,831`, `src/cake_sgemm_k_first.cpp:163-164`. -/
def ctxAccesses2dSmall : List CtxAcc :=
  [⟨.mr, false⟩, ⟨.nr, false⟩, ⟨.ncores, false⟩, ⟨.L1, false⟩, ⟨.mr, false⟩, ⟨.nr, false⟩, ⟨.m_map, false⟩, ⟨.n_map, false⟩]

/-- What the calls run: the program of each, its context object, and its accesses to it. -/
structure Calls (ι κ : Type _) where
  prog : ι → Prog
  ctx : ι → κ
  acc : ι → List CtxAcc

variable {κ : Type _}

/-- Calls that are given the same context only read it, as far as they access the same field. -/
def Calls.CtxOK (c : Calls ι κ) : Prop :=
  ∀ i j a a', i ≠ j → c.ctx i = c.ctx j → a ∈ c.acc i → a' ∈ c.acc j → a.field = a'.field → a.write = false ∧ a'.write = false

/-- Two calls, which nothing synchronises, race: on a memory cell, on an object one of them allocates or frees, or on a
field of a common context. -/
inductive CRace (ren : ι → Loc → γ) (c : Calls ι κ) : Prop
  | cell (i j) (o o' : Op) : i ≠ j → o ∈ progOps (c.prog i) → o' ∈ progOps (c.prog j) →
      ConflictAt (ren i) (ren j) o o' → CRace ren c
  | obj (i j) (b : Buf) (k : Nat) (o : Op) (x : Loc) : i ≠ j → b ∈ progObjs (c.prog i) → o ∈ progOps (c.prog j) →
      x ∈ o.dst :: o.reads → ren i ⟨b, k⟩ = ren j x → CRace ren c
  | ctx (i j) (a a' : CtxAcc) : i ≠ j → c.ctx i = c.ctx j → a ∈ c.acc i → a' ∈ c.acc j → a.field = a'.field →
      (a.write = true ∨ a'.write = true) → CRace ren c

/-- Outcome of all calls together; `exit(1)` in one of them ends the process. -/
inductive COut (ι γ α : Type _) where
  | ok (G : GState ι γ α)
  | exit
  | ub

/-- Executions of calls running at the same time: their steps in any order. (A step of the memory model is one element
operation; calls that race are undefined, so a finer interleaving makes no difference.) -/
inductive CExec (F : Arith α) (ren : ι → Loc → γ) : Calls ι κ → GState ι γ α → COut ι γ α → Prop
  | done (c G) : (∀ i, c.prog i = []) → CExec F ren c G (.ok G)
  | step (i c G q G' out) : GStep F ren i (c.prog i) G (q i) G' → (∀ j, j ≠ i → q j = c.prog j) →
      CExec F ren { c with prog := q } G' out → CExec F ren c G out
  | exit (i c G b n is) : c.prog i = .memalign b n :: is → CExec F ren c G .exit
  | ub (i c G) : GUb ren i G (c.prog i) → CExec F ren c G .ub
  | race (c G) : CRace ren c → CExec F ren c G .ub

/-! ### Pointers -/

/-- Operands: the objects the library only reads. -/
def Inp (b : Buf) : Prop := b = .A ∨ b = .B

/-- Different elements of a call's objects are different cells, except that A, B and the objects in `W` may overlap: A
and B each other, and objects in `W` the operands. -/
def Own {γ : Type _} (W : Buf → Prop) (r : Loc → γ) : Prop :=
  ∀ l l', r l = r l' → l = l' ∨ (Inp l.buf ∧ (Inp l'.buf ∨ W l'.buf)) ∨ (Inp l'.buf ∧ W l.buf)

/-- Different calls have nothing but operands in common. -/
def Apart {ι γ : Type _} (ren : ι → Loc → γ) : Prop :=
  ∀ i j l l', i ≠ j → ren i l = ren j l' → Inp l.buf ∧ Inp l'.buf

end Cake
