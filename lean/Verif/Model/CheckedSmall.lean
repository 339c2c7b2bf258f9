/-
`cake_sgemm_2d_small` over 32-bit `int`, in the recording monad of `Verif.Model.Checked`. The grid (`pn`, from `grid_dims_2d`) and
the bound `kc_max` on the depth of a block are arguments. Left out, as there: pointer and `size_t` arithmetic, and the 64-bit
arguments of the packing kernels.
-/
import Verif.Model.Checked2d
import Verif.Model.IntRangeSmall

namespace Cake
open List W

/-- `init_block_dims_2d_small`; `m_r*n_r` and `m_r + n_r` are in line 831. A negative `m_c1` or `n_c1` (grids that do not fit)
is not the value of the model, so that the run below is `none`. `src/block_sizing.cpp:804-857`. -/
def initSmallW (M N K p m_r n_r pn kc_max : Nat) : W BlkDims2 := do
  let pm ← ev ((p : E) / pn)
  let M_padded ← roundUpW M m_r
  let N_padded ← roundUpW N n_r
  let m_q ← ev ((M_padded : E) / pm)
  let m_c ← ev (tileSE m_q m_r)
  let n_q ← ev ((N_padded : E) / pn)
  let n_c ← ev (tileSE n_q n_r)
  let _ ← ev ((m_r : E) * n_r)
  let _ ← ev ((m_r : E) + n_r)
  let k_c := if m_c > kc_max then kc_max else m_c
  let m_c1 ← ev ((M_padded : E) - ((pm : E) - 1) * m_c)
  let n_c1 ← ev ((N_padded : E) - ((pn : E) - 1) * n_c)
  let k_c1 ← ev ((K : E) % k_c)
  let k_pad := (← ev ((K : E) % k_c)) != 0
  let n_pad := (← ev ((N : E) % n_c)) != 0
  let m_pad := (← ev ((M : E) % m_c)) != 0
  let Kb ← ev ((K : E) / k_c + k_pad.toNat)
  pure { m_c := m_c, k_c := k_c, n_c := n_c, m_c1 := m_c1, n_c1 := n_c1, k_c1 := k_c1
         k_pad := k_pad, n_pad := n_pad, m_pad := m_pad, Kb := Kb, M_padded := M_padded, N_padded := N_padded
         pm := pm, pn := pn, sch := .KMN }

/-- `((core % pn) == (pn - 1)) && n_pad`, or with `core / pn`, `pm`, `m_pad`. `src/cake_sgemm_k_first.cpp:213,222,262-263`. -/
def edgeW (i : E) (q : Nat) (pad : Bool) : W Bool := do
  let v ← ev i
  let e ← ev ((q : E) - 1)
  pure (v == e && pad)

/-- `schedule_KMN_2d_small`, as in `Verif.Model.TwoD`; `n1` (lines 215, 218) is computed and not used.
`src/cake_sgemm_k_first.cpp:159-271`. -/
def scheduleSmallW (kd : KDim) (A B C : Loc) (M N K p m_r n_r : Nat) (x : BlkDims2) : W (List (List (List Op))) := do
  let blocks ← each 1 (cfor 0 x.Kb 1) fun k => do
    let k_c_t := if ← isLastW k x.Kb x.k_pad then x.k_c1 else x.k_c
    let packB ← tasks n_r (cfor 0 x.N_padded n_r) fun n2 => do
      let b ← ev ((k : E) * x.k_c * N + n2)
      let b_p ← ev ((n2 : E) * k_c_t)
      pure (B_packing_kernel n_r k_c_t (B +ₚ b) N (⟨.Bp, 0⟩ +ₚ b_p))
    let packA ← tasks m_r (cfor 0 x.M_padded m_r) fun m3 => do
      let a ← ev ((k : E) * x.k_c + (m3 : E) * K)
      let a_p ← ev ((m3 : E) * k_c_t)
      pure (A_packing_kernel m_r k_c_t (A +ₚ a) K (⟨.Ap, 0⟩ +ₚ a_p))
    let compute ← tasks 1 (range p) fun core => do
      let nlast ← edgeW ((core : E) % x.pn) x.pn x.n_pad
      let _n1 ← sel nlast (ev ((N : E) - (N : E) % x.n_c)) (ev ((core : E) % x.pn * x.n_c))
      let n_c_t := if nlast then x.n_c1 else x.n_c
      let mlast ← edgeW ((core : E) / x.pn) x.pm x.m_pad
      let m_c_t := if mlast then x.m_c1 else x.m_c
      regTiles2W kd core ⟨.Ap, 0⟩ ⟨.Bp, 0⟩ ⟨.CpC core, 0⟩ ((core : E) / x.pn * x.m_c * k_c_t)
        ((core : E) % x.pn * x.n_c * k_c_t) m_r n_r m_c_t n_c_t k_c_t
    pure [packB, packA, compute]
  let unpack ← tasks 1 (range p) fun core => do
    let mlast ← edgeW ((core : E) / x.pn) x.pm x.m_pad
    let m_c_t := if mlast then x.m_c1 else x.m_c
    let nlast ← edgeW ((core : E) % x.pn) x.pn x.n_pad
    let n_c_t := if nlast then x.n_c1 else x.n_c
    let c ← ev ((core : E) / x.pn * x.m_c * N + (core : E) % x.pn * x.n_c)
    let n1 ← ev ((core : E) % x.pn * x.n_c)
    let m2 ← ev ((core : E) / x.pn * x.m_c)
    let u ← unpackObW (C +ₚ c) ⟨.CpC core, 0⟩ M N 0 n1 m2 m_c_t n_c_t m_r n_r
    pure (u ++ memset0 ⟨.CpC core, 0⟩ (← ev ((x.m_c : E) * x.n_c)))
  pure (blocks ++ [unpack])

/-- `cake_sgemm_2d_small`, as in `Verif.Model.TwoD`. `src/cake_sgemm.cpp:253-318`. -/
def cake_sgemm_smallW (cx : Cntx) (A B C : Loc) (M N K p pn kc_max : Nat) : W Prog := do
  let x ← initSmallW M N K p cx.m_r cx.n_r pn kc_max
  let bufA ← ev ((x.M_padded : E) * x.k_c)
  let bufB ← ev ((x.k_c : E) * x.N_padded)
  let bufC ← tasks 1 (range p) fun i => do pure (Item.calloc (.CpC i) (← ev ((x.m_c : E) * x.n_c)))
  let sc ← scheduleSmallW cx.kfix A B C M N K p cx.m_r cx.n_r x
  let frees ← tasks 1 (range p) fun i => pure (Item.free (.CpC i))
  pure ([.malloc .Blk 1] ++ [.memalign .Ap bufA, .memalign .Bp bufB] ++ bufC ++ phases sc ++
    ([.free .Ap] ++ frees ++ [.free .Bp, .free .Blk]))

/-- `cake_sgemm_2d_small` over 32-bit `int`: the program run, or `none` for undefined behaviour of the integer arithmetic. -/
def cake_sgemm_small32 (cx : Cntx) (A B C : Loc) (M N K p pn kc_max : Nat) : Option Prog :=
  (cake_sgemm_smallW cx A B C M N K p pn kc_max).run

section
variable {D : Type _} (fl : Flt D)

/-- `cake_sgemm_2d_small` from its first line over 32-bit `int`, as `sgemm_2d_small_api`; the `int` arithmetic of `grid_dims_2d` as in
`sgemm_2d_api32`. `src/cake_sgemm.cpp:253-318`; `m_r*n_r`, `m_r + n_r`: `src/block_sizing.cpp:831`. -/
def sgemm_2d_small_api32 {α : Type _} (mc : Machine) (tbl : List (List Bool)) (cntx : Option (CCtx D)) (L1 : Int)
    (pn0 : Nat) (A B C : Loc) (a : Args α) : Except Fail Prog := do
  let cx := cntx.getD (query_cntx fl mc)
  let pn ← match grid_dims_2d tbl pn0 a.p cx.ncores.toNat with
    | some pn => Except.ok pn
    | none => .error .ub
  let _ ← int32 (cx.mr * cx.nr)
  let _ ← int32 (cx.mr + cx.nr)
  let kc_max ← kcMax fl L1 cx.mr cx.nr (fl.ofInt 4)
  let v ← cx.view mc
  if kc_max ≤ 0 then .error .ub
  else match cake_sgemm_small32 v A B C a.M a.N a.K a.p pn kc_max.toNat with
    | some prog => pure ((if cntx.isNone then [Item.malloc .Ctx 1] else []) ++ prog)
    | none => .error .ub

end
end Cake
