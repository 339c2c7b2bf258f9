/-
N-first schedule: packing (`src/pack_n_first.cpp`, `src/unpack_n_first.cpp`) and `schedule_NKM`
(`src/cake_sgemm_n_first.cpp`).
-/
import Verif.Model.KFirst

namespace Cake
open List

/-- `pack_A_single_buf_n_first`. Carried: `A_p_offset`. `src/pack_n_first.cpp:8-79`. -/
def pack_A_n_first (A A_p : Loc) (M K p m_r : Nat) (x : BlkDims) : List (List (List Op)) :=
  (loopS (range x.Mb) (fun m s =>
    let m_c_t := if m == x.Mb - 1 && x.m_pad then x.m_c1 else p * x.m_c
    loopS (range x.Kb) (fun k A_p_offset =>
      let last := k == x.Kb - 1 && x.k_pad
      let p_used := if last then x.p_l else p
      let k_cb := if last then x.k_rem else p_used * x.k_c
      let A_offset := m * p * x.m_c * K + k * p * x.k_c
      ([(range p_used).map fun core =>
          let k_c_t := if last then (if core = x.p_l - 1 then x.k_c1_last_core else x.k_c1) else x.k_c
          let k_c_x := if last then x.k_c1 else x.k_c
          pack_ob_A_single_buf (A +ₚ (A_offset + core * k_c_x))
            (A_p +ₚ (A_p_offset + core * k_c_x * m_c_t)) M K (m * p * x.m_c) 0 m_c_t k_c_t m_r],
        A_p_offset + k_cb * m_c_t)) s) 0).1

/-- `pack_B_n_first`, with the same pad-flag mix-up as `pack_B_m_first`.
`src/pack_n_first.cpp:84-144`. -/
def pack_B_n_first (B B_p : Loc) (N p n_r : Nat) (x : BlkDims) : List (List (List Op)) :=
  (loopS (range x.Kb) (fun k s =>
    let last := k == x.Kb - 1 && x.k_pad
    let p_used := if last then x.p_l else p
    let k_cb := if last then x.k_rem else p_used * x.k_c
    loopS (range x.Nb) (fun n B_p_offset =>
      let nlast := n == x.Nb - 1 && x.n_pad
      let n_c_t := if nlast then x.n_c1 else x.n_c
      let n1 := if nlast then N - N % x.n_c else n * x.n_c
      let B_offset := k * p * x.k_c * N + n * x.n_c
      ([(range p_used).map fun core =>
          let k_c_t := if last then (if core = x.p_l - 1 then x.k_c1_last_core else x.k_c1) else x.k_c
          let k_c_x := if last then x.k_c1 else x.k_c
          let pad := last && core == x.p_l - 1
          pack_ob_B_single_buf (B +ₚ (B_offset + core * k_c_x * N))
            (B_p +ₚ (B_p_offset + core * k_c_x * n_c_t)) N n1 k_c_t n_c_t n_r pad],
        B_p_offset + k_cb * n_c_t)) s) 0).1

/-- `pack_C_single_buf_n_first`; note the destination offset `n*p*m_c*n_c_t`, which differs from the
offset `n*m_c_t*n_c` used when unpacking. `src/pack_n_first.cpp:155-209`. -/
def pack_C_n_first (C C_p : Loc) (M N p m_r n_r : Nat) (x : BlkDims) : List (List (List Op)) :=
  (range x.Mb).map fun m =>
    let last := m == x.Mb - 1 && x.m_pad
    let m_c_t := if last then x.m_c1 else p * x.m_c
    let m1 := if last then M - M % (p * x.m_c) else m * p * x.m_c
    let C_p_offset := x.N_padded * m * p * x.m_c
    (range x.Nb).map fun n =>
      let nlast := n == x.Nb - 1 && x.n_pad
      let n_c_t := if nlast then x.n_c1 else x.n_c
      let n1 := if nlast then N - N % x.n_c else n * x.n_c
      let C_offset := m * p * x.m_c * N + n * x.n_c
      pack_ob_C_single_buf (C +ₚ C_offset) (C_p +ₚ (C_p_offset + n * p * x.m_c * n_c_t)) M N m1 n1 0
        m_c_t n_c_t m_r n_r last nlast

/-- `unpack_C_single_buf_n_first`. `src/unpack_n_first.cpp:5-49`. -/
def unpack_C_n_first (C C_p : Loc) (M N p m_r n_r : Nat) (x : BlkDims) : List (List (List Op)) :=
  (range x.Mb).map fun m =>
    let last := m == x.Mb - 1 && x.m_pad
    let m_c_t := if last then x.m_c1 else p * x.m_c
    let m1 := if last then M - M % (p * x.m_c) else m * p * x.m_c
    let C_p_offset := x.N_padded * m * p * x.m_c
    (range x.Nb).map fun n =>
      let nlast := n == x.Nb - 1 && x.n_pad
      let n_c_t := if nlast then x.n_c1 else x.n_c
      let n1 := if nlast then N - N % x.n_c else n * x.n_c
      let C_offset := m * p * x.m_c * N + n * x.n_c
      unpack_ob_C_single_buf (C +ₚ C_offset) (C_p +ₚ (C_p_offset + n * m_c_t * x.n_c)) M N m1 n1 0
        m_c_t n_c_t m_r n_r

/-- `schedule_NKM`: one phase per `(m, k)`, tasks `n_ind`. `src/cake_sgemm_n_first.cpp:4-113`. -/
def schedule_NKM (kd : KDim) (A_p B_p C_p : Loc) (K p m_r n_r : Nat) (x : BlkDims) :
    List (List (List Op)) :=
  (range x.Mb).flatMap fun m =>
    let m_c_t := if m == x.Mb - 1 && x.m_pad then x.m_c1 else p * x.m_c
    (serp (m % 2 != 0) x.Kb).map fun k =>
      let ndesc := if m % 2 ≠ 0 then (if k % 2 ≠ 0 then false else true)
                   else (if k % 2 ≠ 0 then true else false)
      let last := k == x.Kb - 1 && x.k_pad
      let p_used := if last then x.p_l else p
      let k_cb := if last then x.k_rem else p_used * x.k_c
      (range x.Nb).map fun n_ind =>
        let n := if ndesc then x.Nb - 1 - n_ind else n_ind
        let n_c_t := if n == x.Nb - 1 && x.n_pad then x.n_c1 else x.n_c
        (range p_used).flatMap fun core =>
          let k_c_t := if last then (if core = x.p_l - 1 then x.k_c1_last_core else x.k_c1) else x.k_c
          let k_c_x := if last then x.k_c1 else x.k_c
          let a_ind := m * p * x.m_c * K + m_c_t * k * p * x.k_c + core * m_c_t * k_c_x
          let b_ind := k * p * x.k_c * x.N_padded + n * x.n_c * k_cb + core * k_c_x * n_c_t
          let c_ind := m * p * x.m_c * x.N_padded + m_c_t * n * x.n_c
          regTiles kd n_ind (A_p +ₚ a_ind) (B_p +ₚ b_ind) (C_p +ₚ c_ind) m_r n_r m_c_t n_c_t k_c_t

end Cake
