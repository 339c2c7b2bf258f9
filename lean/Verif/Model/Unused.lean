/-
The functions of the public header that no call path of the library reaches: `schedule` with its two flags, the
`_small` schedules, `cake_gemm_small` and `schedule_KMN_C_unpacked`.
-/
import Verif.Model.Sgemm

namespace Cake
open List

/-- `schedule` with all its arguments. The branches for `sparse` and `small` contain only commented-out calls.
`src/cake_sgemm.cpp:726-765`. -/
def schedule_flags (kfix : KDim) (A_p B_p C_p : Loc) (K p m_r n_r : Nat) (x : BlkDims) (sparse small : Bool) :
    Sched → Option (List (List (List Op)))
  | .KMN => some []
  | .MKN => some (if sparse then [] else if small then [] else schedule_MKN kfix A_p B_p C_p K p m_r n_r x)
  | .NKM => some (if sparse then [] else if small then [] else schedule_NKM kfix A_p B_p C_p K p m_r n_r x)
  | .NA => none

/-- The register-tile loops of the `_small` schedules; the kernel call in the body is commented out.
`src/cake_sgemm_small.cpp:65-73`. -/
def smallTiles (m_r n_r m_c_t n_c_t : Nat) : List Op :=
  (range (n_c_t / n_r)).flatMap fun _ => (range (m_c_t / m_r)).flatMap fun _ => []

/-- `schedule_KMN_small`. `src/cake_sgemm_small.cpp:7-78`. The block offsets `a_ind`, `b_ind`, `c_ind` are computed and not
used; they are left out. -/
def schedule_KMN_small (p m_r n_r : Nat) (x : BlkDims) : List (List (List Op)) :=
  (range x.Nb).flatMap fun n =>
    let n_c_t := if n == x.Nb - 1 && x.n_pad then x.n_c1 else x.n_c
    (range x.Mb).map fun m =>
      let last := m == x.Mb - 1 && x.m_pad
      let p_used := if last then x.p_l else p
      (range p_used).map fun core =>
        let m_c_t := if last then (if core = x.p_l - 1 then x.m_c1_last_core else x.m_c1) else x.m_c
        (range x.Kb).flatMap fun _ => smallTiles m_r n_r m_c_t n_c_t

/-- `schedule_MKN_small`. `src/cake_sgemm_small.cpp:85-158`. Offsets left out as above. -/
def schedule_MKN_small (p m_r n_r : Nat) (x : BlkDims) : List (List (List Op)) :=
  (range x.Nb).flatMap fun n =>
    let n_c_t := if n == x.Nb - 1 && x.n_pad then x.n_c1 else x.n_c
    (range x.Kb).map fun k =>
      let p_used := if k == x.Kb - 1 && x.k_pad then x.p_l else p
      (range x.Mb).map fun m =>
        let m_c_t := if m == x.Mb - 1 && x.m_pad then x.m_c1 else x.m_c
        (range p_used).flatMap fun _ => smallTiles m_r n_r m_c_t n_c_t

/-- `schedule_NKM_small`. `src/cake_sgemm_small.cpp:161-236`. Offsets left out as above. -/
def schedule_NKM_small (p m_r n_r : Nat) (x : BlkDims) : List (List (List Op)) :=
  (range x.Mb).flatMap fun m =>
    let m_c_t := if m == x.Mb - 1 && x.m_pad then x.m_c1 else p * x.m_c
    (range x.Kb).map fun k =>
      let p_used := if k == x.Kb - 1 && x.k_pad then x.p_l else p
      (range x.Nb).map fun n =>
        let n_c_t := if n == x.Nb - 1 && x.n_pad then x.n_c1 else x.n_c
        (range p_used).flatMap fun _ => smallTiles m_r n_r m_c_t n_c_t

/-- The value and the accesses of `cake_gemm_small`: everything but `return 1` is commented out.
`src/cake_sgemm.cpp:614-721`. -/
def cake_gemm_small (_A _B _C : Loc) (_M _N _K _p : Nat) (_x : BlkDims) (_sch : Sched) : Bool × Prog := (true, [])

/-- The register-tile loops of `schedule_KMN_C_unpacked`: tiles of C start at the row-major place, and the kernel gets
`N_padded` as its argument `n`. `src/cake_sgemm_k_first.cpp:1083-1098`. -/
def tilesUnpacked (kd : KDim) (t : Nat) (A B C : Loc) (m_r n_r N_padded m_c_t n_c_t k_c_t : Nat) : List Op :=
  (range (n_c_t / n_r)).flatMap fun n_reg => (range (m_c_t / m_r)).flatMap fun m_reg =>
    kernel kd.L kd.m kd.nl t (A +ₚ (m_reg * m_r * k_c_t)) (B +ₚ (n_reg * k_c_t * n_r))
      (C +ₚ (n_reg * n_r + m_reg * m_r * N_padded)) N_padded k_c_t

/-- `schedule_KMN_C_unpacked`. `src/cake_sgemm_k_first.cpp:986-1104`. `kd` is the kernel compiled into
`cake_sgemm_ukernel`. -/
def schedule_KMN_C_unpacked (kd : KDim) (A_p B_p C_p : Loc) (K p m_r n_r : Nat) (x : BlkDims) : List (List (List Op)) :=
  (range x.Nb).flatMap fun n =>
    let n_c_t := if n == x.Nb - 1 && x.n_pad then x.n_c1 else x.n_c
    (serp (n % 2 != 0) x.Mb).map fun m =>
      let kdesc := if n % 2 ≠ 0 then (if m % 2 ≠ 0 then false else true)
                   else (if m % 2 ≠ 0 then true else false)
      let last := m == x.Mb - 1 && x.m_pad
      let p_used := if last then x.p_l else p
      let m_cb := if last then m_r * x.mr_rem else p_used * x.m_c
      (range p_used).map fun core =>
        let m_c_t := if last then (if core = x.p_l - 1 then x.m_c1_last_core else x.m_c1) else x.m_c
        let m_c_x := if last then x.m_c1 else x.m_c
        (serp kdesc x.Kb).flatMap fun k =>
          let k_c_t := if k == x.Kb - 1 && x.k_pad then x.k_c1 else x.k_c
          let a_ind := m * p * x.m_c * K + k * m_cb * x.k_c + core * m_c_x * k_c_t
          let b_ind := n * K * x.n_c + k * x.k_c * n_c_t
          let c_ind := n * x.n_c + m * p * x.m_c * x.N_padded + core * m_c_x * x.N_padded
          tilesUnpacked kd core (A_p +ₚ a_ind) (B_p +ₚ b_ind) (C_p +ₚ c_ind) m_r n_r x.N_padded m_c_t n_c_t k_c_t

/-- A caller of `schedule_KMN_C_unpacked`: pack A and B as the K-first call does (`src/cake_sgemm.cpp:40-87`), then run
the schedule on the caller's C, which has `M_padded` rows of `N_padded` elements. The library itself has no such
caller. -/
def unpackedCall (cx : Cntx) (M N K p m_c k_c n_c : Nat) : Prog :=
  let x := dimsKMN M N K p cx.m_r cx.n_r m_c k_c n_c
  (.memalign .Ap ((cx.m_r * cdiv (M % (p * m_c)) cx.m_r + (M / (p * m_c)) * p * m_c) * K) ::
    phases (pack_A_k_first ⟨.A, 0⟩ ⟨.Ap, 0⟩ M K p cx.m_r x)) ++
  (.memalign .Bp (packedBSize K N cx.n_r n_c) :: phases (pack_B_k_first ⟨.B, 0⟩ ⟨.Bp, 0⟩ K N cx.n_r x)) ++
  phases (schedule_KMN_C_unpacked cx.kfix ⟨.Ap, 0⟩ ⟨.Bp, 0⟩ ⟨.C, 0⟩ K p cx.m_r cx.n_r x)

end Cake
