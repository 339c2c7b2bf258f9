/-
M-first schedule: packing (`src/pack_m_first.cpp`, `src/unpack_m_first.cpp`) and `schedule_MKN`
(`src/cake_sgemm_m_first.cpp`).
-/
import Verif.Model.KFirst

namespace Cake
open List

/-- `pack_A_single_buf_m_first`: one phase (tasks = cores, each packing a strip of `k`) per `(k, m)`.
Carried: `A_p_offset`. `src/pack_m_first.cpp:7-78`. -/
def pack_A_m_first (A A_p : Loc) (M K p m_r : Nat) (x : BlkDims) : List (List (List Op)) :=
  (loopS (range x.Kb) (fun k s =>
    let last := k == x.Kb - 1 && x.k_pad
    let p_used := if last then x.p_l else p
    let k_cb := if last then x.k_rem else p_used * x.k_c
    loopS (range x.Mb) (fun m A_p_offset =>
      let m_c_t := if m == x.Mb - 1 && x.m_pad then x.m_c1 else x.m_c
      let A_offset := m * x.m_c * K + k * p * x.k_c
      ([(range p_used).map fun core =>
          let k_c_t := if last then (if core = x.p_l - 1 then x.k_c1_last_core else x.k_c1) else x.k_c
          let k_c_x := if last then x.k_c1 else x.k_c
          pack_ob_A_single_buf (A +ₚ (A_offset + core * k_c_x))
            (A_p +ₚ (A_p_offset + core * k_c_x * m_c_t)) M K (m * x.m_c) 0 m_c_t k_c_t m_r],
        A_p_offset + k_cb * m_c_t)) s) 0).1

/-- `pack_B_m_first`. The last argument of `pack_ob_B_single_buf` is, as in the code, the flag
"last core of the last K block", although the callee expects "last N block".
`src/pack_m_first.cpp:83-144`. -/
def pack_B_m_first (B B_p : Loc) (N p n_r : Nat) (x : BlkDims) : List (List (List Op)) :=
  (loopS (range x.Nb) (fun n s =>
    let nlast := n == x.Nb - 1 && x.n_pad
    let n_c_t := if nlast then x.n_c1 else x.n_c
    let n1 := if nlast then N - N % x.n_c else n * x.n_c
    loopS (range x.Kb) (fun k B_p_offset =>
      let last := k == x.Kb - 1 && x.k_pad
      let p_used := if last then x.p_l else p
      let k_cb := if last then x.k_rem else p_used * x.k_c
      let B_offset := k * p * x.k_c * N + n * x.n_c
      ([(range p_used).map fun core =>
          let k_c_t := if last then (if core = x.p_l - 1 then x.k_c1_last_core else x.k_c1) else x.k_c
          let k_c_x := if last then x.k_c1 else x.k_c
          let pad := last && core == x.p_l - 1
          pack_ob_B_single_buf (B +ₚ (B_offset + core * k_c_x * N))
            (B_p +ₚ (B_p_offset + core * k_c_x * n_c_t)) N n1 k_c_t n_c_t n_r pad],
        B_p_offset + k_cb * n_c_t)) s) 0).1

/-- `pack_C_single_buf_m_first`: one phase per `n`, tasks = blocks `m`. `src/pack_m_first.cpp:148-200`. -/
def pack_C_m_first (C C_p : Loc) (M N m_r n_r : Nat) (x : BlkDims) : List (List (List Op)) :=
  (range x.Nb).map fun n =>
    let nlast := n == x.Nb - 1 && x.n_pad
    let n_c_t := if nlast then x.n_c1 else x.n_c
    let n1 := if nlast then N - N % x.n_c else n * x.n_c
    let C_p_offset := x.M_padded * n * x.n_c
    (range x.Mb).map fun m =>
      let last := m == x.Mb - 1 && x.m_pad
      let m_c_t := if last then x.m_c1 else x.m_c
      let m1 := if last then M - M % x.m_c else m * x.m_c
      let C_offset := m * x.m_c * N + n * x.n_c
      pack_ob_C_single_buf (C +ₚ C_offset) (C_p +ₚ (C_p_offset + m * x.m_c * n_c_t)) M N m1 n1 0
        m_c_t n_c_t m_r n_r last nlast

/-- `unpack_C_single_buf_m_first`. `src/unpack_m_first.cpp:5-49`. -/
def unpack_C_m_first (C C_p : Loc) (M N m_r n_r : Nat) (x : BlkDims) : List (List (List Op)) :=
  (range x.Nb).map fun n =>
    let nlast := n == x.Nb - 1 && x.n_pad
    let n_c_t := if nlast then x.n_c1 else x.n_c
    let n1 := if nlast then N - N % x.n_c else n * x.n_c
    let C_p_offset := x.M_padded * n * x.n_c
    (range x.Mb).map fun m =>
      let last := m == x.Mb - 1 && x.m_pad
      let m_c_t := if last then x.m_c1 else x.m_c
      let m1 := if last then M - M % x.m_c else m * x.m_c
      let C_offset := m * x.m_c * N + n * x.n_c
      unpack_ob_C_single_buf (C +ₚ C_offset) (C_p +ₚ (C_p_offset + m * x.m_c * n_c_t)) M N m1 n1 0
        m_c_t n_c_t m_r n_r

/-- `schedule_MKN`: one phase per `(n, k)`, tasks `m_ind` (block `m = m_start + m_ind*m_inc`), the
cores of the K block run one after another inside the task. `kd` is the fixed kernel of
`cake_sgemm_ukernel`. `src/cake_sgemm_m_first.cpp:4-113`. The register numbering uses `m_ind`. -/
def schedule_MKN (kd : KDim) (A_p B_p C_p : Loc) (K p m_r n_r : Nat) (x : BlkDims) :
    List (List (List Op)) :=
  (range x.Nb).flatMap fun n =>
    let n_c_t := if n == x.Nb - 1 && x.n_pad then x.n_c1 else x.n_c
    (serp (n % 2 != 0) x.Kb).map fun k =>
      let mdesc := if n % 2 ≠ 0 then (if k % 2 ≠ 0 then false else true)
                   else (if k % 2 ≠ 0 then true else false)
      let last := k == x.Kb - 1 && x.k_pad
      let p_used := if last then x.p_l else p
      let k_cb := if last then x.k_rem else p_used * x.k_c
      (range x.Mb).map fun m_ind =>
        let m := if mdesc then x.Mb - 1 - m_ind else m_ind
        let m_c_t := if m == x.Mb - 1 && x.m_pad then x.m_c1 else x.m_c
        (range p_used).flatMap fun core =>
          let k_c_t := if last then (if core = x.p_l - 1 then x.k_c1_last_core else x.k_c1) else x.k_c
          let k_c_x := if last then x.k_c1 else x.k_c
          let a_ind := k * x.M_padded * p * x.k_c + m * x.m_c * k_cb + core * m_c_t * k_c_x
          let b_ind := n * K * x.n_c + k * p * x.k_c * n_c_t + core * k_c_x * n_c_t
          let c_ind := n * x.M_padded * x.n_c + m * x.m_c * n_c_t
          regTiles kd m_ind (A_p +ₚ a_ind) (B_p +ₚ b_ind) (C_p +ₚ c_ind) m_r n_r m_c_t n_c_t k_c_t

end Cake
