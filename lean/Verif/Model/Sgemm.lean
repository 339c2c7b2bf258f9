/-
Entry points `cake_sgemm`, `cake_sgemm_test` and the dispatchers (`src/cake_sgemm.cpp`,
`src/pack_helper.cpp`). `none` stands for `exit(1)` after "unknown schedule".
-/
import Verif.Model.MFirst
import Verif.Model.NFirst

namespace Cake
open List

/-- `init_block_dims` for the tile sizes and schedule returned by `get_cache_dims`.
`src/block_sizing.cpp:465-595`. -/
def init_block_dims (M N K p m_r n_r m_c k_c n_c : Nat) : Sched → Option BlkDims
  | .KMN => some (dimsKMN M N K p m_r n_r m_c k_c n_c)
  | .MKN => some (dimsMKN M N K p m_r n_r m_c k_c n_c)
  | .NKM => some (dimsNKM M N K p m_r n_r m_c k_c n_c)
  | .NA => none

/-- `pack_A`. `src/pack_helper.cpp:142-160`. -/
def pack_A (A A_p : Loc) (M K p m_r : Nat) (x : BlkDims) : Sched → Option (List (List (List Op)))
  | .KMN => some (pack_A_k_first A A_p M K p m_r x)
  | .MKN => some (pack_A_m_first A A_p M K p m_r x)
  | .NKM => some (pack_A_n_first A A_p M K p m_r x)
  | .NA => none

/-- `pack_B`. `src/pack_helper.cpp:117-138`. -/
def pack_B (B B_p : Loc) (K N p n_r : Nat) (x : BlkDims) : Sched → Option (List (List (List Op)))
  | .KMN => some (pack_B_k_first B B_p K N n_r x)
  | .MKN => some (pack_B_m_first B B_p N p n_r x)
  | .NKM => some (pack_B_n_first B B_p N p n_r x)
  | .NA => none

/-- `pack_C`. `src/pack_helper.cpp:92-114`. -/
def pack_C (C C_p : Loc) (M N p m_r n_r : Nat) (x : BlkDims) : Sched → Option (List (List (List Op)))
  | .KMN => some (pack_C_k_first C C_p M N p m_r n_r x)
  | .MKN => some (pack_C_m_first C C_p M N m_r n_r x)
  | .NKM => some (pack_C_n_first C C_p M N p m_r n_r x)
  | .NA => none

/-- `unpack_C`. `src/pack_helper.cpp:163-184`. -/
def unpack_C (C C_p : Loc) (M N p m_r n_r : Nat) (x : BlkDims) : Sched → Option (List (List (List Op)))
  | .KMN => some (unpack_C_k_first C C_p M N p m_r n_r x)
  | .MKN => some (unpack_C_m_first C C_p M N m_r n_r x)
  | .NKM => some (unpack_C_n_first C C_p M N p m_r n_r x)
  | .NA => none

/-- `schedule(…, sparse = 0, small = 0)`: the KMN case is commented out in the code and does nothing.
`src/cake_sgemm.cpp:726-765`. -/
def schedule (kfix : KDim) (A_p B_p C_p : Loc) (K p m_r n_r : Nat) (x : BlkDims) :
    Sched → Option (List (List (List Op)))
  | .KMN => some []
  | .MKN => some (schedule_MKN kfix A_p B_p C_p K p m_r n_r x)
  | .NKM => some (schedule_NKM kfix A_p B_p C_p K p m_r n_r x)
  | .NA => none

/-- What a call gets from the context: the register tile `mr x nr`, the kernel that
`kernel_map[m_map][n_map]` selects, and the kernel compiled into `cake_sgemm_ukernel`
(`include/kernel_wrapper.h:18-42`). -/
structure Cntx where
  m_r : Nat
  n_r : Nat
  kmap : KDim
  kfix : KDim

/-- `omp parallel for` phases as program items. -/
def phases (ph : List (List (List Op))) : Prog := ph.map Item.par

/-- `cake_sgemm`, after `get_cache_dims` has fixed schedule and tile sizes
(`src/cake_sgemm.cpp:9-175`; the `malloc`/`free` of `cache_dims_t` is `src/block_sizing.cpp:356,479`).
With `packedA` the caller's pointer `A` is itself the packed buffer (line 42), else a new buffer `Ap` is
used; same for B. `alpha` is not used by the code; of `beta` only `beta != 0` matters (`nz beta`),
and only outside KMN. -/
def cake_sgemm {α : Type _} (nz : α → Bool) (cx : Cntx) (A B C : Loc) (M N K p : Nat)
    (packedA packedB : Bool) (_alpha beta : α) (m_c k_c n_c : Nat) (sch : Sched) : Option Prog := do
  let x ← init_block_dims M N K p cx.m_r cx.n_r m_c k_c n_c sch
  let aSz ← packedASize M K p cx.m_r m_c x.sch
  let cSz ← packedCSize M N p cx.m_r cx.n_r m_c n_c x.sch
  let pa ← pack_A A ⟨.Ap, 0⟩ M K p cx.m_r x x.sch
  let pb ← pack_B B ⟨.Bp, 0⟩ K N p cx.n_r x x.sch
  let pc ← pack_C C ⟨.Cp, 0⟩ M N p cx.m_r cx.n_r x x.sch
  let uc ← unpack_C C ⟨.Cp, 0⟩ M N p cx.m_r cx.n_r x x.sch
  let A_p := if packedA then A else ⟨.Ap, 0⟩
  let B_p := if packedB then B else ⟨.Bp, 0⟩
  let sc ← schedule cx.kfix A_p B_p ⟨.Cp, 0⟩ K p cx.m_r cx.n_r x x.sch
  let dims : Prog := [.malloc .Blk 1, .malloc .Dims 1, .free .Dims]
  let prepA : Prog := if packedA then [] else .memalign .Ap aSz :: phases pa
  let prepB : Prog := if packedB then [] else
    .memalign .Bp (packedBSize K N cx.n_r n_c) :: phases pb
  let work : Prog :=
    if x.sch = .KMN then
      (range p).map (fun i => Item.calloc (.CpC i) (m_c * n_c)) ++
      phases (schedule_KMN cx.kmap A_p B_p C M N K p cx.m_r cx.n_r x) ++
      (range p).map (fun i => Item.free (.CpC i))
    else
      (if nz beta then .memalign .Cp cSz :: phases pc else [.calloc .Cp cSz]) ++
      phases sc ++ phases uc ++ [.free .Cp]
  let fin : Prog := (if packedA then [] else [.free .Ap]) ++ (if packedB then [] else [.free .Bp]) ++
    [.free .Blk]
  some (dims ++ prepA ++ prepB ++ work ++ fin)

end Cake
