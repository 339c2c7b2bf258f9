/-
What a caller does to pack operands beforehand.
-/
import Verif.Props.Demo

namespace Cake

/-- The caller packs A beforehand: allocates `cake_sgemm_packed_A_size` bytes and calls `pack_A`
(`include/cake.h`, `src/pack_helper.cpp:5-35,142-160`). -/
def prepackA (cx : Cntx) (sch : Sched) (M N K p m_c k_c n_c : Nat) : Option Prog := do
  let x ← init_block_dims M N K p cx.m_r cx.n_r m_c k_c n_c sch
  let n ← packedASize M K p cx.m_r m_c sch
  let ph ← pack_A ⟨.A, 0⟩ ⟨.Ap, 0⟩ M K p cx.m_r x sch
  some (.memalign .Ap n :: phases ph)

/-- The caller packs B beforehand: allocates `cake_sgemm_packed_B_size` bytes and calls `pack_B`
(`src/pack_helper.cpp:39-46,117-138`). -/
def prepackB (cx : Cntx) (sch : Sched) (M N K p m_c k_c n_c : Nat) : Option Prog := do
  let x ← init_block_dims M N K p cx.m_r cx.n_r m_c k_c n_c sch
  let ph ← pack_B ⟨.B, 0⟩ ⟨.Bp, 0⟩ K N p cx.n_r x sch
  some (.memalign .Bp (packedBSize K N cx.n_r n_c) :: phases ph)

end Cake
