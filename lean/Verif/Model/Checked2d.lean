/-
`cake_sgemm_2d` over 32-bit `int`, in the recording monad of `Verif.Model.Checked`. The grid (`pn`, from `grid_dims_2d`) and the tile
`m_c`, `k_c` that the block sizing starts from are arguments. Left out, as there: the bounds and steps of the serpentine loops
that run downwards, pointer and `size_t` arithmetic, and the 64-bit arguments of the packing kernels.
-/
import Verif.Model.Checked
import Verif.Model.TwoDApi
import Verif.Model.Api32

namespace Cake
open List W

/-- `(x % r) ? (x + (r - (x % r))) : x`. `src/block_sizing.cpp:659-660,706`; lines 697 and 720 add
`(a % r) ? (r - (a % r)) : 0` to `a`, the same sum. -/
def roundUpW (x r : Nat) : W Nat := do
  let m ← ev ((x : E) % r)
  sel (m ≠ 0) (ev ((x : E) + ((r : E) - (x : E) % r))) (pure x)

/-- `fit2d`. `src/block_sizing.cpp:686-699,709-722`. -/
def fit2dW (padded pm m_c mr : Nat) : W (Nat × Nat) := do
  let a ← ev ((pm : E) * mr)
  sel (padded = a) (pure (1, mr)) (do
    let b ← ev ((pm : E) * m_c)
    sel (padded < b) (do
      let a ← ev ((padded : E) / pm)
      sel (a < mr) (do pure (← ev ((padded : E) / mr), mr)) (do pure (pm, ← roundUpW a mr))) (pure (pm, m_c)))

/-- One side of the grid: remainder in register tiles, share of a core, cores used, share of the last core (both in
elements). `src/block_sizing.cpp:730-740` (rows), `745-755` (columns). -/
def side2dW (T q r t : Nat) : W (Nat × Nat × Nat × Nat) := do
  let rem ← ev (cdiv (← ev ((T : E) % ((q : E) * t))) r : Nat)
  let per ← ev (cdiv rem q : Nat)
  let l ← coresW rem per
  let c1 ← ev ((per : E) * r)
  let last ← ev (((per : E) - ((l : E) * per - rem)) * r)
  pure (rem, l, c1, last)

/-- `init_block_dims_2d`, second part. `src/block_sizing.cpp:728-793`; `k_c1` is line 678. -/
def dims2dW (M N K m_r n_r pm pn m_c k_c n_c : Nat) : W BlkDims2 := do
  let k_c1 ← ev ((K : E) % k_c)
  let n_pad := (← ev ((N : E) % ((pn : E) * n_c))) != 0
  let m_pad := (← ev ((M : E) % ((pm : E) * m_c))) != 0
  let a ← side2dW M pm m_r m_c
  let b ← side2dW N pn n_r n_c
  let k_pad := (← ev ((K : E) % k_c)) != 0
  let Mb ← ev ((M : E) / ((pm : E) * m_c) + m_pad.toNat)
  let Nb ← ev ((N : E) / ((pn : E) * n_c) + n_pad.toNat)
  let Kb ← ev ((K : E) / k_c + k_pad.toNat)
  let M_padded ← ev ((m_r : E) * a.1 + (M : E) / ((pm : E) * m_c) * pm * m_c)
  let N_padded ← ev ((n_r : E) * b.1 + (N : E) / ((pn : E) * n_c) * pn * n_c)
  pure { m_c := m_c, k_c := k_c, n_c := n_c, m_c1 := a.2.2.1, k_c1 := k_c1, n_c1 := b.2.2.1
         m_c1_last_core := a.2.2.2, n_c1_last_core := b.2.2.2, mr_rem := a.1, nr_rem := b.1
         pm_l := a.2.1, pn_l := b.2.1, pm := pm, pn := pn, m_pad := m_pad, k_pad := k_pad, n_pad := n_pad
         Mb := Mb, Nb := Nb, Kb := Kb, M_padded := M_padded, N_padded := N_padded, sch := .KMN }

/-- `init_block_dims_2d`. `m_r*n_r` and `m_r + n_r` are in line 663. `src/block_sizing.cpp:641-798`. -/
def init2dW (M N K p m_r n_r pn m_c k_c : Nat) : W BlkDims2 := do
  let pm ← ev ((p : E) / pn)
  let M_padded ← roundUpW M m_r
  let N_padded ← roundUpW N n_r
  let _ ← ev ((m_r : E) * n_r)
  let _ ← ev ((m_r : E) + n_r)
  let f ← fit2dW M_padded pm m_c m_r
  let n_c ← roundUpW f.2 n_r
  let g ← fit2dW N_padded pn n_c n_r
  dims2dW M N K m_r n_r f.1 g.1 f.2 k_c g.2

/-- `m_c_t`: `if(last) m_c_t = ((i == (l - 1)) ? c1_last_core : c1); else m_c_t = c;` with `i = core / p_used_n` for the rows and
`core % p_used_n` for the columns. `src/cake_sgemm_k_first.cpp:403-417,452-466`. -/
def strip2W (last : Bool) (l c1_last c1 c : Nat) (i : E) : W Nat :=
  sel last (do
    let v ← ev i
    pure (if v = (← ev ((l : E) - 1)) then c1_last else c1)) (pure c)

/-- The register-tile loops; the offsets of the core are part of the index expressions. `src/cake_sgemm_k_first.cpp:426-447`. -/
def regTiles2W (kd : KDim) (t : Nat) (A B C : Loc) (a_ind b_ind : E) (m_r n_r m_c_t n_c_t k_c_t : Nat) : W (List Op) := do
  each 1 (range (← ev ((n_c_t : E) / n_r))) fun n_reg => do
    each 1 (range (← ev ((m_c_t : E) / m_r))) fun m_reg => do
      let a ← ev (a_ind + (m_reg : E) * m_r * k_c_t)
      let b ← ev (b_ind + (n_reg : E) * k_c_t * n_r)
      let c ← ev ((n_reg : E) * m_c_t * n_r + (m_reg : E) * m_r * n_r)
      pure (kernel kd.L kd.m kd.nl t (A +ₚ a) (B +ₚ b) (C +ₚ c) n_r k_c_t)

/-- `schedule_KMN_2d`, as in `Verif.Model.TwoD`. `src/cake_sgemm_k_first.cpp:279-486`. -/
def schedule2dW (kd : KDim) (A B C : Loc) (M N K m_r n_r : Nat) (x : BlkDims2) : W (List (List (List Op))) :=
  each 1 (range x.Nb) fun n => do
    let nodd ← ev ((n : E) % (2 : Nat))
    let m_start := if nodd ≠ 0 then x.Mb - 1 else 0
    let nlast ← isLastW n x.Nb x.n_pad
    let p_used_n := if nlast then x.pn_l else x.pn
    let n_cb ← sel nlast (ev ((n_r : E) * x.nr_rem)) (ev ((x.pn : E) * x.n_c))
    let n1 ← sel nlast (ev ((N : E) - (N : E) % ((x.pn : E) * x.n_c))) (ev ((n : E) * x.pn * x.n_c))
    eachSerp (nodd != 0) x.Mb fun m => do
      let modd ← ev ((m : E) % (2 : Nat))
      let kdesc := if nodd ≠ 0 then (if modd ≠ 0 then false else true) else (if modd ≠ 0 then true else false)
      let k_start := if kdesc then x.Kb - 1 else 0
      let last ← isLastW m x.Mb x.m_pad
      let p_used_m := if last then x.pm_l else x.pm
      let m_cb ← sel last (ev ((m_r : E) * x.mr_rem)) (ev ((x.pm : E) * x.m_c))
      let m1 ← sel last (ev ((M : E) - (M : E) % ((x.pm : E) * x.m_c))) (ev ((m : E) * x.pm * x.m_c))
      let p_used ← ev ((p_used_m : E) * p_used_n)
      let blocks ← eachSerp kdesc x.Kb fun k => do
        let k_c_t := if ← isLastW k x.Kb x.k_pad then x.k_c1 else x.k_c
        let A_offset ← ev ((m : E) * x.pm * x.m_c * K + (k : E) * x.k_c)
        let B_offset ← ev ((n : E) * x.pn * x.n_c + (k : E) * x.k_c * N)
        let packB ← sel (k == k_start && m != m_start) (pure []) (do
          let ts ← tasks n_r (cfor 0 n_cb n_r) fun n2 => do
            let b ← ev ((B_offset : E) + n2)
            let b_p ← ev ((n2 : E) * k_c_t)
            pure (B_packing_kernel n_r k_c_t (B +ₚ b) N (⟨.Bp, 0⟩ +ₚ b_p))
          pure [ts])
        let packA ← sel (k == k_start && m == m_start && n != 0) (pure []) (do
          let ts ← tasks m_r (cfor 0 m_cb m_r) fun m3 => do
            let a ← ev ((A_offset : E) + (m3 : E) * K)
            let a_p ← ev ((m3 : E) * k_c_t)
            pure (A_packing_kernel m_r k_c_t (A +ₚ a) K (⟨.Ap, 0⟩ +ₚ a_p))
          pure [ts])
        let compute ← tasks 1 (range p_used) fun core => do
          let last ← isLastW m x.Mb x.m_pad
          let m_c_t ← strip2W last x.pm_l x.m_c1_last_core x.m_c1 x.m_c ((core : E) / p_used_n)
          let m_c_x := if last then x.m_c1 else x.m_c
          let nlast ← isLastW n x.Nb x.n_pad
          let n_c_t ← strip2W nlast x.pn_l x.n_c1_last_core x.n_c1 x.n_c ((core : E) % p_used_n)
          let n_c_x := if nlast then x.n_c1 else x.n_c
          regTiles2W kd core ⟨.Ap, 0⟩ ⟨.Bp, 0⟩ ⟨.CpC core, 0⟩ ((core : E) / p_used_n * m_c_x * k_c_t)
            ((core : E) % p_used_n * n_c_x * k_c_t) m_r n_r m_c_t n_c_t k_c_t
        pure (packB ++ packA ++ [compute])
      let C_offset ← ev ((m : E) * x.pm * x.m_c * N + (n : E) * x.pn * x.n_c)
      let unpack ← tasks 1 (range p_used) fun core => do
        let last ← isLastW m x.Mb x.m_pad
        let m_c_t ← strip2W last x.pm_l x.m_c1_last_core x.m_c1 x.m_c ((core : E) / p_used_n)
        let m_c_x := if last then x.m_c1 else x.m_c
        let nlast ← isLastW n x.Nb x.n_pad
        let n_c_t ← strip2W nlast x.pn_l x.n_c1_last_core x.n_c1 x.n_c ((core : E) % p_used_n)
        let n_c_x := if nlast then x.n_c1 else x.n_c
        let c ← ev ((C_offset : E) + (core : E) / p_used_n * m_c_x * N + (core : E) % p_used_n * n_c_x)
        let n1' ← ev ((n1 : E) + (core : E) % p_used_n * n_c_x)
        let m2 ← ev ((core : E) / p_used_n * m_c_x)
        let u ← unpackObW (C +ₚ c) ⟨.CpC core, 0⟩ M N m1 n1' m2 m_c_t n_c_t m_r n_r
        pure (u ++ memset0 ⟨.CpC core, 0⟩ (← ev ((x.m_c : E) * x.n_c)))
      pure (blocks ++ [unpack])

/-- `cake_sgemm_2d`, as in `Verif.Model.TwoD`. `src/cake_sgemm.cpp:179-247`. -/
def cake_sgemm_2dW (cx : Cntx) (A B C : Loc) (M N K p pn m_c k_c : Nat) : W Prog := do
  let x ← init2dW M N K p cx.m_r cx.n_r pn m_c k_c
  let bufA ← ev ((x.pm : E) * x.m_c * x.k_c)
  let bufB ← ev ((x.pn : E) * x.n_c * x.k_c)
  let bufC ← tasks 1 (range p) fun i => do pure (Item.calloc (.CpC i) (← ev ((x.m_c : E) * x.n_c)))
  let sc ← schedule2dW cx.kfix A B C M N K cx.m_r cx.n_r x
  let frees ← tasks 1 (range p) fun i => pure (Item.free (.CpC i))
  pure ([.malloc .Blk 1] ++ [.memalign .Ap bufA, .memalign .Bp bufB] ++ bufC ++ phases sc ++
    ([.free .Ap] ++ frees ++ [.free .Bp, .free .Blk]))

/-- `cake_sgemm_2d` over 32-bit `int`: the program run, or `none` for undefined behaviour of the integer arithmetic. -/
def cake_sgemm_2d32 (cx : Cntx) (A B C : Loc) (M N K p pn m_c k_c : Nat) : Option Prog :=
  (cake_sgemm_2dW cx A B C M N K p pn m_c k_c).run

section
variable {D : Type _} (fl : Flt D)

/-- `autoMc2d` over 32-bit `int`. `src/block_sizing.cpp:675-676`. -/
def autoMc2d32 (cx : CCtx D) : Except Fail Int := do
  let i := fl.ofInt
  let m ← int32 (-cx.nr)
  let m_c ← cInt fl (fl.div (fl.add (i m) (fl.sqrt (fl.add (fl.mul (fl.mul (i 1) (i cx.nr)) (i cx.nr))
    (fl.mul (fl.mul (i 4) (i 2)) (fl.div (i cx.L2) (i 4)))))) (fl.mul (i 2) (i 2)))
  let r ← cMod32 m_c cx.mr
  int32 (m_c - r)

/-- `tiles2d` over 32-bit `int`. `src/block_sizing.cpp:662-680`. -/
def tiles2d32 (cx : CCtx D) (L1 : Int) (mcu kcu ncu : Int) : Except Fail (Int × Int) := do
  let _ ← int32 (cx.mr * cx.nr)
  let _ ← int32 (cx.mr + cx.nr)
  let kc_max ← kcMax fl L1 cx.mr cx.nr (fl.ofInt 4)
  if mcu ≠ 0 ∧ ncu ≠ 0 ∧ kcu ≠ 0 then pure (mcu, kcu)
  else do
    let m_c ← autoMc2d32 fl cx
    pure (m_c, kc_max)

/-- `cake_sgemm_2d` from its first line over 32-bit `int`, as `sgemm_2d_api`; the `int` arithmetic of `grid_dims_2d` is a loop
counter that goes down from at most `p` and an index into its table. `src/cake_sgemm.cpp:179-247`. -/
def sgemm_2d_api32 {α : Type _} (mc : Machine) (tbl : List (List Bool)) (cntx : Option (CCtx D)) (L1 : Int) (pn0 : Nat)
    (A B C : Loc) (a : Args α) : Except Fail Prog := do
  let cx := cntx.getD (query_cntx fl mc)
  let pn ← match grid_dims_2d tbl pn0 a.p cx.ncores.toNat with
    | some pn => Except.ok pn
    | none => .error .ub
  let (m_c, k_c) ← tiles2d32 fl cx L1 a.mcu a.kcu a.ncu
  let v ← cx.view mc
  if m_c ≤ 0 ∨ k_c ≤ 0 then .error .ub
  else match cake_sgemm_2d32 v A B C a.M a.N a.K a.p pn m_c.toNat k_c.toNat with
    | some prog => pure ((if cntx.isNone then [Item.malloc .Ctx 1] else []) ++ prog)
    | none => .error .ub

end
end Cake
