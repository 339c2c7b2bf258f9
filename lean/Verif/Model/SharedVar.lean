/-
The local variable `A_offset` of `schedule_KMN_online`, shared by all threads of a parallel loop.
-/
import Verif.Model.Online

namespace Cake
open List

/-- Accesses of a thread to one shared `int` variable. -/
inductive VOp where
  | write (v : Nat)
  | read
  deriving DecidableEq

/-- What iteration `core` of the compute loop of `schedule_KMN_online` does with the variable `A_offset`
(declared outside the loop, line 648, and not listed in the `private` clause of line 738, hence shared): it
assigns it and then reads it once for each packed strip, unless the block of A is reused. Only the accesses
to this one variable are listed. `src/cake_sgemm_k_first.cpp:738-762`. -/
def A_offset_task (M K p m_r : Nat) (x : BlkDims) (m k : Nat) (reuse : Bool) (core : Nat) : List VOp :=
  let last := m == x.Mb - 1 && x.m_pad
  let m_c_t := if last then (if core = x.p_l - 1 then x.m_c1_last_core else x.m_c1) else x.m_c
  .write (m * p * x.m_c * K + k * x.k_c) ::
    (if reuse then [] else (cfor 0 m_c_t m_r).map fun _ => VOp.read)

/-- The iterations of the loop. `src/cake_sgemm_k_first.cpp:738-762`. -/
def A_offset_tasks (M K p m_r : Nat) (x : BlkDims) (m k : Nat) (reuse : Bool) : List (List VOp) :=
  (range (if m == x.Mb - 1 && x.m_pad then x.p_l else p)).map (A_offset_task M K p m_r x m k reuse)

/-- `l` is an interleaving of the tasks. -/
inductive VInterleave : List (List VOp) → List VOp → Prop
  | done (ts) : (∀ t ∈ ts, t = []) → VInterleave ts []
  | step (pre : List (List VOp)) (o : VOp) (t : List VOp) (post : List (List VOp)) (l : List VOp) :
      VInterleave (pre ++ t :: post) l → VInterleave (pre ++ (o :: t) :: post) (o :: l)

/-- The values read, in order, when the variable starts as `v0`. -/
def vreads : Nat → List VOp → List Nat
  | _, [] => []
  | _, .write v :: l => vreads v l
  | v0, .read :: l => v0 :: vreads v0 l

/-- Two accesses of different threads of which one is a write. -/
def VOp.Conflict : VOp → VOp → Prop
  | .read, .read => False
  | _, _ => True

def VRaceFree (ts : List (List VOp)) : Prop :=
  ts.Pairwise fun t t' => ∀ o ∈ t, ∀ o' ∈ t', ¬ o.Conflict o'

end Cake
