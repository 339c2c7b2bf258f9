/-
Generation of the kernel table (`python/kernel_gen.py`) and selection of a kernel through the context
(`src/block_sizing.cpp`).
-/
import Verif.Model.Sgemm

namespace Cake
open List

/-- Generator constants of one architecture: vector length, `fact_m`, `fact_n`, `sm`, `sn`.
`python/kernel_gen.py:526-537`. -/
structure Arch where
  L : Nat
  fact_m : Nat
  fact_n : Nat
  sm : Nat
  sn : Nat

/-- `python/kernel_gen.py:532-537`. -/
def archHaswell : Arch := ⟨8, 2, 16, 6, 16⟩
/-- `python/kernel_gen.py:527-531`. -/
def archArmv8 : Arch := ⟨4, 2, 12, 8, 12⟩

/-- `mrs = range(sm, m_lim + 1, fact_m)`. `python/kernel_gen.py:422`. -/
def Arch.mrs (a : Arch) (m_lim : Nat) : List Nat := cfor a.sm (m_lim + 1) a.fact_m
/-- `nrs = range(sn, n_lim + 1, fact_n)`. `python/kernel_gen.py:423`. -/
def Arch.nrs (a : Arch) (n_lim : Nat) : List Nat := cfor a.sn (n_lim + 1) a.fact_n

/-- The generated `kernel_map`: row per `m`, column per `n`, entry `cake_sgemm_{arch}_{m}x{n}`, given by
its number of rows `m` and of vectors per row `n // L`. `python/kernel_gen.py:455-465`. -/
def Arch.kernel_map (a : Arch) (m_lim n_lim : Nat) : List (List KDim) :=
  (a.mrs m_lim).map fun i => (a.nrs n_lim).map fun j => ⟨a.L, i, j / a.L⟩

/-- `m_map = (m_r/MR_FACT) - (MR_MIN/MR_FACT)` as a C `int`. `src/block_sizing.cpp:64,81`. -/
def Arch.m_map (a : Arch) (m_r : Nat) : Int := (m_r / a.fact_m : Nat) - (a.sm / a.fact_m : Nat)
/-- `n_map`. `src/block_sizing.cpp:65,82`. -/
def Arch.n_map (a : Arch) (n_r : Nat) : Int := (n_r / a.fact_n : Nat) - (a.sn / a.fact_n : Nat)

/-- Array access with a C `int` index; `none` = out of bounds. -/
def idx? {β : Type _} (l : List β) (i : Int) : Option β := if i < 0 then none else l[i.toNat]?

/-- `kernel_map[cake_cntx->m_map][cake_cntx->n_map]`. `src/cake_sgemm_k_first.cpp:116-121`. -/
def Arch.dispatch (a : Arch) (m_lim n_lim m_r n_r : Nat) : Option KDim :=
  (idx? (a.kernel_map m_lim n_lim) (a.m_map m_r)).bind fun row => idx? row (a.n_map n_r)

/-- The context after `update_mr_nr(cntx, m_r, n_r)`: register tile and map indices change, the kernel
inlined in `cake_sgemm_ukernel` does not. `src/block_sizing.cpp:78-83`,
`include/kernel_wrapper.h:18-42`. -/
def Arch.update_mr_nr (a : Arch) (m_lim n_lim : Nat) (kfix : KDim) (m_r n_r : Nat) : Option Cntx :=
  (a.dispatch m_lim n_lim m_r n_r).map fun k => ⟨m_r, n_r, k, kfix⟩

/-- The context `cake_query_cntx` returns: the smallest generated kernel. `src/block_sizing.cpp:40-75`.
-/
def Arch.query_cntx (a : Arch) (m_lim n_lim : Nat) (kfix : KDim) : Option Cntx :=
  a.update_mr_nr m_lim n_lim kfix a.sm a.sn

end Cake
