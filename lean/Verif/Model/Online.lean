/-
`cake_sgemm_online`: the K-first product that packs each block of A and B on the fly.
-/
import Verif.Model.Blis

namespace Cake
open List

/-- `schedule_KMN_online`: per block of K, a phase that packs a block of B (tasks = strips) unless the block
is the one already packed, and a phase in which every core packs its strip of A (unless it is already
packed) and runs the kernels; after the k loop one phase that unpacks C. No bounds are checked in the
packing. `Mb - 1` and `Kb - 1` are `int` in the code and are only compared with loop indices, so
truncated subtraction makes no difference. The variable `A_offset`, written by every thread with the same
value, is modelled as a value here; `C44_online_offset_value_partial` (Model/SharedVar, Props/Online) shows that every
read of it sees that value, `C44_online_offset_race` that the accesses are nevertheless a data race. `src/cake_sgemm_k_first.cpp:633-813`. -/
def schedule_KMN_online (kd : KDim) (A B C : Loc) (M N K p m_r n_r : Nat) (x : BlkDims) :
    List (List (List Op)) :=
  (range x.Nb).flatMap fun n =>
    let m_start := if n % 2 ≠ 0 then x.Mb - 1 else 0
    let nlast := n == x.Nb - 1 && x.n_pad
    let n_c_t := if nlast then x.n_c1 else x.n_c
    let n1 := if nlast then N - N % x.n_c else n * x.n_c
    (serp (n % 2 != 0) x.Mb).flatMap fun m =>
      let kdesc := if n % 2 ≠ 0 then (if m % 2 ≠ 0 then false else true)
                   else (if m % 2 ≠ 0 then true else false)
      let k_start := if kdesc then x.Kb - 1 else 0
      let last := m == x.Mb - 1 && x.m_pad
      let p_used := if last then x.p_l else p
      let m1 := if last then M - M % (p * x.m_c) else m * p * x.m_c
      ((serp kdesc x.Kb).flatMap fun k =>
        let k_c_t := if k == x.Kb - 1 && x.k_pad then x.k_c1 else x.k_c
        let packB := if k == k_start && m != m_start then [] else
          [(cfor 0 n_c_t n_r).map fun n2 =>
            B_packing_kernel n_r k_c_t (B +ₚ (n1 + k * x.k_c * N + n2)) N (⟨.Bp, 0⟩ +ₚ (n2 * k_c_t))]
        let compute := (range p_used).map fun core =>
          let m_c_t := if last then (if core = x.p_l - 1 then x.m_c1_last_core else x.m_c1) else x.m_c
          let m_c_x := if last then x.m_c1 else x.m_c
          let A_offset := m * p * x.m_c * K + k * x.k_c
          (if k == k_start && m == m_start && n != 0 then [] else
            (cfor 0 m_c_t m_r).flatMap fun m3 =>
              A_packing_kernel m_r k_c_t (A +ₚ (A_offset + core * m_c_x * K + m3 * K)) K
                (⟨.ApC core, 0⟩ +ₚ (m3 * k_c_t))) ++
          regTiles kd core ⟨.ApC core, 0⟩ ⟨.Bp, 0⟩ ⟨.CpC core, 0⟩ m_r n_r m_c_t n_c_t k_c_t
        packB ++ [compute]) ++
      [(range p_used).map fun core =>
        let m_c_t := if last then (if core = x.p_l - 1 then x.m_c1_last_core else x.m_c1) else x.m_c
        let m_c_x := if last then x.m_c1 else x.m_c
        let C_offset := m * p * x.m_c * N + n * x.n_c
        unpack_ob_C_single_buf (C +ₚ (C_offset + core * m_c_x * N)) ⟨.CpC core, 0⟩ M N m1 n1
          (core * m_c_x) m_c_t n_c_t m_r n_r ++
        memset0 ⟨.CpC core, 0⟩ (x.m_c * x.n_c)]

/-- `cake_sgemm_online` (`src/cake_sgemm.cpp:397-468`), after `get_cache_dims` has fixed the tile sizes. The
argument `sch` is overwritten with KMN (line 417); `packedA`, `packedB`, `alpha` and `beta` are not used. -/
def cake_sgemm_online {α : Type _} (cx : Cntx) (A B C : Loc) (M N K p : Nat)
    (_packedA _packedB : Bool) (_alpha _beta : α) (m_c k_c n_c : Nat) : Option Prog := do
  let x ← init_block_dims M N K p cx.m_r cx.n_r m_c k_c n_c .KMN
  some ([.malloc .Blk 1, .malloc .Dims 1, .free .Dims] ++
    (range p).map (fun i => Item.memalign (.ApC i) (m_c * k_c)) ++
    [.memalign .Bp (k_c * n_c)] ++
    (range p).map (fun i => Item.calloc (.CpC i) (m_c * n_c)) ++
    phases (schedule_KMN_online cx.kmap A B C M N K p cx.m_r cx.n_r x) ++
    ((range p).flatMap fun i => [Item.free (.ApC i), Item.free (.CpC i)]) ++
    [.free .Bp, .free .Blk])

end Cake
