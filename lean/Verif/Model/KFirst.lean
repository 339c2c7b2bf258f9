/-
K-first schedule: packing (`src/pack_k_first.cpp`), `schedule_KMN` (`src/cake_sgemm_k_first.cpp`).
A function containing OpenMP loops is modelled as a list of phases; a phase is the list of tasks of
one `omp parallel for`.
-/
import Verif.Model.Dims
import Verif.Model.PackOb
import Verif.Model.Kernel

namespace Cake
open List

/-- The serpentine loop headers `for(i = start; i != end; i += inc)` with
`(start,end,inc) = (n-1,-1,-1)` (descending) or `(0,n,1)`. `src/cake_sgemm_k_first.cpp:30-38,49`. -/
def serp (desc : Bool) (n : Nat) : List Nat :=
  (if desc then cforNe n ((n : Int) - 1) (-1) (-1) else cforNe n 0 n 1).map Int.toNat

/-- `pack_A_single_buf_k_first`: one phase (tasks = cores) per `(m, k)`. Carried: `A_p_offset`.
`src/pack_k_first.cpp:7-68`. -/
def pack_A_k_first (A A_p : Loc) (M K p m_r : Nat) (x : BlkDims) : List (List (List Op)) :=
  (loopS (range x.Mb) (fun m s =>
    let last := m == x.Mb - 1 && x.m_pad
    let p_used := if last then x.p_l else p
    let m_cb := if last then m_r * x.mr_rem else p_used * x.m_c
    loopS (range x.Kb) (fun k A_p_offset =>
      let k_c_t := if k == x.Kb - 1 && x.k_pad then x.k_c1 else x.k_c
      let A_offset := m * p * x.m_c * K + k * x.k_c
      ([(range p_used).map fun core =>
          let m_c_t := if last then (if core = x.p_l - 1 then x.m_c1_last_core else x.m_c1) else x.m_c
          let m_c_x := if last then x.m_c1 else x.m_c
          pack_ob_A_single_buf (A +ₚ (A_offset + core * m_c_x * K))
            (A_p +ₚ (A_p_offset + core * m_c_x * k_c_t)) M K (m * p * x.m_c) (core * m_c_x)
            m_c_t k_c_t m_r],
        A_p_offset + m_cb * k_c_t)) s) 0).1

/-- `pack_B_k_first`. Carried: `ind1`. First component of the loop: blocks of full width `n_c`
(a phase over `k1`, then, if `k_c1 ≠ 0`, a phase over `n2`), then the same for the last `n_c1`
columns with zero padding. `src/pack_k_first.cpp:187-283`. -/
def pack_B_k_first (B B_p : Loc) (K N n_r : Nat) (x : BlkDims) : List (List (List Op)) :=
  let k_c := x.k_c
  let n_c := x.n_c
  let k_c1 := x.k_c1
  let n_c1 := x.n_c1
  let main := loopS (cfor 0 (N - N % n_c) n_c) (fun n1 ind1 =>
    let ph1 := (cfor 0 (K - K % k_c) k_c).map fun k1 =>
      (loopS (cfor 0 n_c n_r) (fun n2 s => loopS (range k_c) (fun i s => loopS (range n_r)
        (fun j local_ind =>
          ([Op.copy (B_p +ₚ (ind1 + local_ind + (k1 / k_c) * k_c * n_c))
              (B +ₚ (n1 + k1 * N + n2 + i * N + j))], local_ind + 1)) s) s) 0).1
    let ind1 := ind1 + (K - K % k_c) * n_c
    let k1 := K - K % k_c
    if k_c1 ≠ 0 then
      let ph2 := (cfor 0 n_c n_r).map fun n2 =>
        (loopS (range k_c1) (fun i s => loopS (range n_r) (fun j local_ind =>
          ([Op.copy (B_p +ₚ (ind1 + local_ind + n2 * k_c1))
              (B +ₚ (n1 + k1 * N + n2 + i * N + j))], local_ind + 1)) s) 0).1
      ([ph1, ph2], ind1 + k_c1 * n_c)
    else ([ph1], ind1)) 0
  let ind1 := main.2
  let n1 := N - N % n_c
  main.1 ++
    if n_c1 ≠ 0 then
      let ph1 := (cfor 0 (K - K % k_c) k_c).map fun k1 =>
        (loopS (cfor 0 n_c1 n_r) (fun n2 s => loopS (range k_c) (fun i s => loopS (range n_r)
          (fun j local_ind =>
            ([if n1 + n2 + j ≥ N then Op.zero (B_p +ₚ (ind1 + local_ind + (k1 / k_c) * k_c * n_c1))
              else Op.copy (B_p +ₚ (ind1 + local_ind + (k1 / k_c) * k_c * n_c1))
                (B +ₚ (n1 + k1 * N + n2 + i * N + j))], local_ind + 1)) s) s) 0).1
      let ind1 := ind1 + (K - K % k_c) * n_c1
      let k1 := K - K % k_c
      if k_c1 ≠ 0 then
        let ph2 := (cfor 0 n_c1 n_r).map fun n2 =>
          (loopS (range k_c1) (fun i s => loopS (range n_r) (fun j local_ind =>
            ([if n1 + n2 + j ≥ N then Op.zero (B_p +ₚ (ind1 + local_ind + n2 * k_c1))
              else Op.copy (B_p +ₚ (ind1 + local_ind + n2 * k_c1))
                (B +ₚ (n1 + k1 * N + n2 + i * N + j))], local_ind + 1)) s) 0).1
        [ph1, ph2]
      else [ph1]
    else []

/-- `pack_C_single_buf_k_first`: one phase (tasks = cores) per `(n, m)`. Carried: `C_p_offset`.
`src/pack_k_first.cpp:404-472`. -/
def pack_C_k_first (C C_p : Loc) (M N p m_r n_r : Nat) (x : BlkDims) : List (List (List Op)) :=
  (loopS (range x.Nb) (fun n s =>
    let nlast := n == x.Nb - 1 && x.n_pad
    let n_c_t := if nlast then x.n_c1 else x.n_c
    let n1 := if nlast then N - N % x.n_c else n * x.n_c
    let pad_n := nlast
    loopS (range x.Mb) (fun m C_p_offset =>
      let last := m == x.Mb - 1 && x.m_pad
      let p_used := if last then x.p_l else p
      let m_cb := if last then m_r * x.mr_rem else p_used * x.m_c
      let m1 := if last then M - M % (p * x.m_c) else m * p * x.m_c
      let C_offset := m * p * x.m_c * N + n * x.n_c
      ([(range p_used).map fun core =>
          let m_c_t := if last then (if core = x.p_l - 1 then x.m_c1_last_core else x.m_c1) else x.m_c
          let m_c_x := if last then x.m_c1 else x.m_c
          let pad_m := last && core == x.p_l - 1
          pack_ob_C_single_buf (C +ₚ (C_offset + core * m_c_x * N))
            (C_p +ₚ (C_p_offset + core * m_c_x * n_c_t)) M N m1 n1 (core * m_c_x)
            m_c_t n_c_t m_r n_r pad_m pad_n],
        C_p_offset + m_cb * n_c_t)) s) 0).1

/-- `unpack_C_single_buf_k_first`. `src/unpack_k_first.cpp:5-63`. -/
def unpack_C_k_first (C C_p : Loc) (M N p m_r n_r : Nat) (x : BlkDims) : List (List (List Op)) :=
  (loopS (range x.Nb) (fun n s =>
    let nlast := n == x.Nb - 1 && x.n_pad
    let n_c_t := if nlast then x.n_c1 else x.n_c
    let n1 := if nlast then N - N % x.n_c else n * x.n_c
    loopS (range x.Mb) (fun m C_p_offset =>
      let last := m == x.Mb - 1 && x.m_pad
      let p_used := if last then x.p_l else p
      let m_cb := if last then m_r * x.mr_rem else p_used * x.m_c
      let m1 := if last then M - M % (p * x.m_c) else m * p * x.m_c
      let C_offset := m * p * x.m_c * N + n * x.n_c
      ([(range p_used).map fun core =>
          let m_c_t := if last then (if core = x.p_l - 1 then x.m_c1_last_core else x.m_c1) else x.m_c
          let m_c_x := if last then x.m_c1 else x.m_c
          unpack_ob_C_single_buf (C +ₚ (C_offset + core * m_c_x * N))
            (C_p +ₚ (C_p_offset + core * m_c_x * n_c_t)) M N m1 n1 (core * m_c_x)
            m_c_t n_c_t m_r n_r],
        C_p_offset + m_cb * n_c_t)) s) 0).1

/-- Vector length, rows and vectors per row of a compiled microkernel. -/
structure KDim where
  L : Nat
  m : Nat
  nl : Nat
  deriving DecidableEq, Repr

/-- The two register-tile loops around the microkernel call, common to all schedules (here with the
block pointers as arguments): `src/cake_sgemm_k_first.cpp:109-125`,
`src/cake_sgemm_m_first.cpp:100-108`, `src/cake_sgemm_n_first.cpp:100-108`. `kd` is the kernel
called. -/
def regTiles (kd : KDim) (t : Nat) (A B C : Loc) (m_r n_r m_c_t n_c_t k_c_t : Nat) : List Op :=
  (range (n_c_t / n_r)).flatMap fun n_reg => (range (m_c_t / m_r)).flatMap fun m_reg =>
    kernel kd.L kd.m kd.nl t (A +ₚ (m_reg * m_r * k_c_t)) (B +ₚ (n_reg * k_c_t * n_r))
      (C +ₚ (n_reg * m_c_t * n_r + m_reg * m_r * n_r)) n_r k_c_t

/-- `memset(p, 0, n*sizeof(float))`. -/
def memset0 (p : Loc) (n : Nat) : List Op := (range n).map fun i => .zero (p +ₚ i)

/-- `schedule_KMN`: for each `(n, m)` a compute phase and an unpack phase, tasks = cores; the `k`
loop runs inside each task. `src/cake_sgemm_k_first.cpp:9-153`. `kd` is the kernel selected by
`kernel_map[m_map][n_map]`. -/
def schedule_KMN (kd : KDim) (A_p B_p C : Loc) (M N K p m_r n_r : Nat) (x : BlkDims) :
    List (List (List Op)) :=
  (range x.Nb).flatMap fun n =>
    let nlast := n == x.Nb - 1 && x.n_pad
    let n_c_t := if nlast then x.n_c1 else x.n_c
    let n1 := if nlast then N - N % x.n_c else n * x.n_c
    (serp (n % 2 != 0) x.Mb).flatMap fun m =>
      let kdesc := if n % 2 ≠ 0 then (if m % 2 ≠ 0 then false else true)
                   else (if m % 2 ≠ 0 then true else false)
      let last := m == x.Mb - 1 && x.m_pad
      let p_used := if last then x.p_l else p
      let m_cb := if last then m_r * x.mr_rem else p_used * x.m_c
      let m1 := if last then M - M % (p * x.m_c) else m * p * x.m_c
      let compute := (range p_used).map fun core =>
        let m_c_t := if last then (if core = x.p_l - 1 then x.m_c1_last_core else x.m_c1) else x.m_c
        let m_c_x := if last then x.m_c1 else x.m_c
        (serp kdesc x.Kb).flatMap fun k =>
          let k_c_t := if k == x.Kb - 1 && x.k_pad then x.k_c1 else x.k_c
          let a_ind := m * p * x.m_c * K + k * m_cb * x.k_c + core * m_c_x * k_c_t
          let b_ind := n * K * x.n_c + k * x.k_c * n_c_t
          regTiles kd core (A_p +ₚ a_ind) (B_p +ₚ b_ind) ⟨.CpC core, 0⟩ m_r n_r m_c_t n_c_t k_c_t
      let C_offset := m * p * x.m_c * N + n * x.n_c
      let unpack := (range p_used).map fun core =>
        let m_c_t := if last then (if core = x.p_l - 1 then x.m_c1_last_core else x.m_c1) else x.m_c
        let m_c_x := if last then x.m_c1 else x.m_c
        unpack_ob_C_single_buf (C +ₚ (C_offset + core * m_c_x * N)) ⟨.CpC core, 0⟩ M N m1 n1
          (core * m_c_x) m_c_t n_c_t m_r n_r ++
        memset0 ⟨.CpC core, 0⟩ (x.m_c * x.n_c)
      [compute, unpack]

end Cake
