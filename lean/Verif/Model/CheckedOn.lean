/-
`cake_sgemm_online` over 32-bit `int`, in the recording monad of `Verif.Model.Checked`: every `int` expression is recorded where
the code evaluates it, and a run is defined if each of them has a value over 32-bit `int`. Left out, as there: the bounds and
steps of the serpentine loops that run downwards, and pointer and `size_t` arithmetic. The arguments of the packing kernels are
64-bit integers and are left out too. `sgemm_online_api32` puts the choice of the tile sizes in front.
-/
import Verif.Model.Api32
import Verif.Model.OnlineApi

namespace Cake
open List W

/-- `schedule_KMN_online`, as in `Verif.Model.Online`. `src/cake_sgemm_k_first.cpp:633-813`. The `0` in the register-tile
indices stands for the missing offset. -/
def scheduleOnW (kd : KDim) (A B C : Loc) (M N K p m_r n_r : Nat) (x : BlkDims) : W (List (List (List Op))) :=
  each 1 (range x.Nb) fun n => do
    let nodd ← ev ((n : E) % (2 : Nat))
    let m_start := if nodd ≠ 0 then x.Mb - 1 else 0
    let nlast ← isLastW n x.Nb x.n_pad
    let n_c_t := if nlast then x.n_c1 else x.n_c
    let n1 ← sel nlast (ev ((N : E) - (N : E) % x.n_c)) (ev ((n : E) * x.n_c))
    eachSerp (nodd != 0) x.Mb fun m => do
      let modd ← ev ((m : E) % (2 : Nat))
      let kdesc := if nodd ≠ 0 then (if modd ≠ 0 then false else true) else (if modd ≠ 0 then true else false)
      let k_start := if kdesc then x.Kb - 1 else 0
      let last ← isLastW m x.Mb x.m_pad
      let p_used := if last then x.p_l else p
      let _m_cb ← sel last (ev ((m_r : E) * x.mr_rem)) (ev ((p_used : E) * x.m_c))
      let m1 ← sel last (ev ((M : E) - (M : E) % ((p : E) * x.m_c))) (ev ((m : E) * p * x.m_c))
      let blocks ← eachSerp kdesc x.Kb fun k => do
        let k_c_t := if ← isLastW k x.Kb x.k_pad then x.k_c1 else x.k_c
        let packB ← sel (k == k_start && m != m_start) (pure []) (do
          let ts ← tasks n_r (cfor 0 n_c_t n_r) fun n2 => do
            let b ← ev ((n1 : E) + (k : E) * x.k_c * N + n2)
            let b_p ← ev ((n2 : E) * k_c_t)
            pure (B_packing_kernel n_r k_c_t (B +ₚ b) N (⟨.Bp, 0⟩ +ₚ b_p))
          pure [ts])
        let compute ← tasks 1 (range p_used) fun core => do
          let last ← isLastW m x.Mb x.m_pad
          let m_c_t ← stripW x last core
          let m_c_x := if last then x.m_c1 else x.m_c
          let A_offset ← ev ((m : E) * p * x.m_c * K + (k : E) * x.k_c)
          let packA ← sel (k == k_start && m == m_start && n != 0) (pure [])
            (each m_r (cfor 0 m_c_t m_r) fun m3 => do
              let a ← ev ((A_offset : E) + (core : E) * m_c_x * K + (m3 : E) * K)
              let a_p ← ev ((m3 : E) * k_c_t)
              pure (A_packing_kernel m_r k_c_t (A +ₚ a) K (⟨.ApC core, 0⟩ +ₚ a_p)))
          let tiles ← regTilesW kd core ⟨.ApC core, 0⟩ ⟨.Bp, 0⟩ ⟨.CpC core, 0⟩ 0 0 m_r n_r m_c_t n_c_t k_c_t
          pure (packA ++ tiles)
        pure (packB ++ [compute])
      let C_offset ← ev ((m : E) * p * x.m_c * N + (n : E) * x.n_c)
      let unpack ← tasks 1 (range p_used) fun core => do
        let last ← isLastW m x.Mb x.m_pad
        let m_c_t ← stripW x last core
        let m_c_x := if last then x.m_c1 else x.m_c
        let c ← ev ((C_offset : E) + (core : E) * m_c_x * N)
        let m2 ← ev ((core : E) * m_c_x)
        let u ← unpackObW (C +ₚ c) ⟨.CpC core, 0⟩ M N m1 n1 m2 m_c_t n_c_t m_r n_r
        pure (u ++ memset0 ⟨.CpC core, 0⟩ (← ev ((x.m_c : E) * x.n_c)))
      pure (blocks ++ [unpack])

/-- `cake_sgemm_online`, as in `Verif.Model.Online`. `src/cake_sgemm.cpp:397-468`. -/
def cake_sgemm_onlineW (cx : Cntx) (A B C : Loc) (M N K p m_c k_c n_c : Nat) : W Prog := do
  let x ← dimsKMNW M N K p cx.m_r cx.n_r m_c k_c n_c
  let bufA ← tasks 1 (range p) fun i => do pure (Item.memalign (.ApC i) (← ev ((x.m_c : E) * x.k_c)))
  let bufB ← ev ((x.k_c : E) * x.n_c)
  let bufC ← tasks 1 (range p) fun i => do pure (Item.calloc (.CpC i) (← ev ((x.m_c : E) * x.n_c)))
  let sc ← scheduleOnW cx.kmap A B C M N K p cx.m_r cx.n_r x
  let frees ← each 1 (range p) fun i => pure [Item.free (.ApC i), Item.free (.CpC i)]
  pure ([.malloc .Blk 1, .malloc .Dims 1, .free .Dims] ++ bufA ++ [.memalign .Bp bufB] ++ bufC ++ phases sc ++ frees ++
    [.free .Bp, .free .Blk])

/-- `cake_sgemm_online` over 32-bit `int`: the program run, or `none` for undefined behaviour of the integer arithmetic. -/
def cake_sgemm_online32 (cx : Cntx) (A B C : Loc) (M N K p m_c k_c n_c : Nat) : Option Prog :=
  (cake_sgemm_onlineW cx A B C M N K p m_c k_c n_c).run

/-- `cake_sgemm_online` from its first line over 32-bit `int`, as `sgemm_online_api`. `src/cake_sgemm.cpp:397-468`,
`src/block_sizing.cpp:465-480`. -/
def sgemm_online_api32 {D : Type _} (fl : Flt D) {α : Type _} (mc : Machine) (cntx : Option (CCtx D)) (A B C : Loc)
    (a : Args α) : Except Fail (Prog × CCtx D) := do
  let cx := cntx.getD (query_cntx fl mc)
  let (d, cx') ← get_cache_dims32 fl cx a.M a.N a.K a.p .KMN (fl.ofInt 4) a.mcu a.kcu a.ncu
  let v ← cx'.view mc
  if d.m_c ≤ 0 ∨ d.k_c ≤ 0 ∨ d.n_c ≤ 0 ∨ a.p = 0 then .error .ub
  else
    match cake_sgemm_online32 v A B C a.M a.N a.K a.p d.m_c.toNat d.k_c.toNat d.n_c.toNat with
    | some prog => pure ((if cntx.isNone then [Item.malloc .Ctx 1] else []) ++ prog, cx')
    | none => .error .ub

end Cake
