/-
Packing through the strip kernels (`pack_A_single_buf_k_first_blis`, `pack_B_k_first_blis`) and
`cake_sgemm_test`, which uses them.
-/
import Verif.Model.Sgemm

namespace Cake
open List

/-- `A_packing_kernel(m_r, k, kappa, a, inca = K, lda = 1, p, ldp)`, in the builds that use the library's
own packing code (`USE_CAKE_PACK` or none of the `USE_BLIS_*` macros): `pack_A_mr_x_kc(a, p, inca, k, m_r)`.
The register versions of the other builds are in `Model/PackAsm`. `include/packing.h:83-103`. -/
def A_packing_kernel (m_r k : Nat) (a : Loc) (inca : Nat) (p : Loc) : List Op := pack_A_mr_x_kc a p inca k m_r

/-- `B_packing_kernel(n_r, k, kappa, b, inca = 1, lda = N, p, ldp)`, same builds:
`pack_B_nr_x_kc(b, p, lda, k, n_r)`. `include/packing.h:107-127`. -/
def B_packing_kernel (n_r k : Nat) (b : Loc) (lda : Nat) (p : Loc) : List Op := pack_B_nr_x_kc b p lda k n_r

/-- `pack_A_single_buf_k_first_blis`: one phase (tasks = cores) per `(m, k)`; only the last strip of the
last, ragged row block is packed with bounds checks. Carried: `A_p_offset`.
`src/pack_k_first.cpp:97-181`. -/
def pack_A_k_first_blis (A A_p : Loc) (M K p m_r : Nat) (x : BlkDims) : List (List (List Op)) :=
  (loopS (range x.Mb) (fun m s =>
    let last := m == x.Mb - 1 && x.m_pad
    let p_used := if last then x.p_l else p
    let m_cb := if last then m_r * x.mr_rem else p_used * x.m_c
    loopS (range x.Kb) (fun k A_p_offset =>
      let k_c_t := if k == x.Kb - 1 && x.k_pad then x.k_c1 else x.k_c
      let A_offset := m * p * x.m_c * K + k * x.k_c
      ([(range p_used).map fun core =>
          let m_c_t := if last then (if core = x.p_l - 1 then x.m_c1_last_core else x.m_c1) else x.m_c
          let m_c_x := if last then x.m_c1 else x.m_c
          let pad := last && core == x.p_l - 1
          if pad then
            pack_ob_A_single_buf (A +ₚ (A_offset + core * m_c_x * K))
              (A_p +ₚ (A_p_offset + core * m_c_x * k_c_t)) M K (m * p * x.m_c) (core * m_c_x)
              m_c_t k_c_t m_r
          else (cfor 0 m_c_t m_r).flatMap fun m3 =>
            A_packing_kernel m_r k_c_t (A +ₚ (A_offset + core * m_c_x * K + m3 * K)) K
              (A_p +ₚ (A_p_offset + core * m_c_x * k_c_t + m3 * k_c_t))],
        A_p_offset + m_cb * k_c_t)) s) 0).1

/-- `pack_B_k_first_blis`: the blocks of full width are packed strip by strip with `B_packing_kernel`, the
last, ragged column block as in `pack_B_k_first`. Carried: `ind1`. `src/pack_k_first.cpp:290-400`. -/
def pack_B_k_first_blis (B B_p : Loc) (K N n_r : Nat) (x : BlkDims) : List (List (List Op)) :=
  let k_c := x.k_c
  let n_c := x.n_c
  let k_c1 := x.k_c1
  let n_c1 := x.n_c1
  let main := loopS (cfor 0 (N - N % n_c) n_c) (fun n1 ind1 =>
    let ph1 := (cfor 0 (K - K % k_c) k_c).map fun k1 => (cfor 0 n_c n_r).flatMap fun n2 =>
      B_packing_kernel n_r k_c (B +ₚ (n1 + k1 * N + n2)) N (B_p +ₚ (ind1 + (k1 / k_c) * k_c * n_c + n2 * k_c))
    let ind1 := ind1 + (K - K % k_c) * n_c
    let k1 := K - K % k_c
    if k_c1 ≠ 0 then
      let ph2 := (cfor 0 n_c n_r).map fun n2 =>
        B_packing_kernel n_r k_c1 (B +ₚ (n1 + k1 * N + n2)) N (B_p +ₚ (ind1 + n2 * k_c1))
      ([ph1, ph2], ind1 + k_c1 * n_c)
    else ([ph1], ind1)) 0
  let ind1 := main.2
  let n1 := N - N % n_c
  main.1 ++
    if n_c1 ≠ 0 then
      let ph1 := (cfor 0 (K - K % k_c) k_c).map fun k1 =>
        (loopS (cfor 0 n_c1 n_r) (fun n2 s => loopS (range k_c) (fun i s => loopS (range n_r)
          (fun j local_ind =>
            ([if n1 + n2 + j ≥ N then Op.zero (B_p +ₚ (ind1 + local_ind + (k1 / k_c) * k_c * n_c1))
              else Op.copy (B_p +ₚ (ind1 + local_ind + (k1 / k_c) * k_c * n_c1))
                (B +ₚ (n1 + k1 * N + n2 + i * N + j))], local_ind + 1)) s) s) 0).1
      let ind1 := ind1 + (K - K % k_c) * n_c1
      let k1 := K - K % k_c
      if k_c1 ≠ 0 then
        let ph2 := (cfor 0 n_c1 n_r).map fun n2 =>
          (loopS (range k_c1) (fun i s => loopS (range n_r) (fun j local_ind =>
            ([if n1 + n2 + j ≥ N then Op.zero (B_p +ₚ (ind1 + local_ind + n2 * k_c1))
              else Op.copy (B_p +ₚ (ind1 + local_ind + n2 * k_c1))
                (B +ₚ (n1 + k1 * N + n2 + i * N + j))], local_ind + 1)) s) 0).1
        [ph1, ph2]
      else [ph1]
    else []

/-- `cake_sgemm_test` (`src/cake_sgemm.cpp:472-608`), after `get_cache_dims` has fixed the tile sizes. The
argument `sch` is overwritten with KMN (line 475). The call of `schedule` is made with that schedule, for
which it does nothing (`schedule`, `src/cake_sgemm.cpp:726-765`). -/
def cake_sgemm_test {α : Type _} (nz : α → Bool) (cx : Cntx) (A B C : Loc) (M N K p : Nat)
    (packedA packedB : Bool) (_alpha beta : α) (m_c k_c n_c : Nat) : Option Prog := do
  let x ← init_block_dims M N K p cx.m_r cx.n_r m_c k_c n_c .KMN
  let aSz ← packedASize M K p cx.m_r m_c x.sch
  let cSz ← packedCSize M N p cx.m_r cx.n_r m_c n_c x.sch
  let pc ← pack_C C ⟨.Cp, 0⟩ M N p cx.m_r cx.n_r x x.sch
  let uc ← unpack_C C ⟨.Cp, 0⟩ M N p cx.m_r cx.n_r x x.sch
  let A_p := if packedA then A else ⟨.Ap, 0⟩
  let B_p := if packedB then B else ⟨.Bp, 0⟩
  let sc ← schedule cx.kfix A_p B_p ⟨.Cp, 0⟩ K p cx.m_r cx.n_r x x.sch
  let dims : Prog := [.malloc .Blk 1, .malloc .Dims 1, .free .Dims]
  let prepA : Prog := if packedA then [] else
    .memalign .Ap aSz :: phases (pack_A_k_first_blis A ⟨.Ap, 0⟩ M K p cx.m_r x)
  let prepB : Prog := if packedB then [] else
    .memalign .Bp (packedBSize K N cx.n_r n_c) :: phases (pack_B_k_first_blis B ⟨.Bp, 0⟩ K N cx.n_r x)
  let work : Prog :=
    (if nz beta then .memalign .Cp cSz :: phases pc else [.calloc .Cp cSz]) ++ phases sc ++ phases uc
  let fin : Prog := (if packedA then [] else [.free .Ap]) ++ (if packedB then [] else [.free .Bp]) ++
    [.free .Cp, .free .Blk]
  some (dims ++ prepA ++ prepB ++ work ++ fin)

end Cake
