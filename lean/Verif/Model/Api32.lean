/-
The public entry point with the K-first schedule over 32-bit `int`: the choice of the tile sizes (`get_cache_dims`,
`derive_schedule`) with every `int` operation checked, followed by the checked product of `Verif.Model.Checked`.
-/
import Verif.Model.Checked
import Verif.Model.CacheDims

namespace Cake
open List

/-- The result of an `int` operation: undefined if it is not representable. -/
def int32 (v : Int) : Except Fail Int := if -2 ^ 31 ≤ v ∧ v < 2 ^ 31 then .ok v else .error .ub

/-- C's `a / b` on 32-bit `int`: undefined for `b = 0` and for a quotient that is not representable. -/
def cDiv32 (a b : Int) : Except Fail Int := if b = 0 then .error .ub else int32 (a.tdiv b)
/-- C's `a % b` on 32-bit `int`: undefined where `a / b` is. -/
def cMod32 (a b : Int) : Except Fail Int := if b = 0 then .error .ub else do
  let _ ← int32 (a.tdiv b)
  pure (a.tmod b)

section
variable {D : Type _} (fl : Flt D)

/-- `mc_L2`. `src/block_sizing.cpp:317-321`. -/
def mcL2_32 (cx : CCtx D) (type_size : D) : Except Fail Int := do
  let b ← int32 (2 * cx.nr)
  let nb ← int32 (-b)
  let bb ← int32 (b * b)
  let mc_L2 ← cInt fl (fl.div (fl.add (fl.ofInt nb) (fl.sqrt (fl.add (fl.ofInt bb) (fl.mul (fl.ofInt 4)
    (fl.div (fl.ofInt cx.L2) (fl.single (fl.mul (fl.ofInt 2) type_size))))))) (fl.ofInt 2))
  let r ← cMod32 mc_L2 cx.mr
  int32 (mc_L2 - r)

/-- `mc_L3`. `src/block_sizing.cpp:329-331`. -/
def mcL3_32 (cx : CCtx D) (type_size : D) : Except Fail Int := do
  let t := fl.ofInt cx.ncores
  let mc_L3 ← cInt fl (fl.sqrt (fl.div (fl.div (fl.ofInt cx.L3) (fl.single (fl.mul (fl.ofInt 2) type_size)))
    (fl.mul t (fl.add (fl.add (fl.ofInt 1) (fl.ofInt 1)) (fl.mul (fl.ofInt 1) t)))))
  let r ← cMod32 mc_L3 cx.mr
  int32 (mc_L3 - r)

/-- Clamping of `mc` for small M. `src/block_sizing.cpp:340-354`. -/
def clampMc32 (M p mr mc : Int) : Except Fail Int := do
  let x ← int32 (p * mr)
  if M < x then pure mr
  else do
    let y ← int32 (p * mc)
    if M < y then do
      let a ← cDiv32 M p
      if a < mr then pure mr
      else do
        let r ← cMod32 a mr
        let d ← int32 (mr - r)
        int32 (a + d)
    else pure mc

/-- `x -= x % r; x = x == 0 ? r : x`. `src/block_sizing.cpp:378-379` and three more places. -/
def roundDown32 (x r : Int) : Except Fail Int := do
  let m ← cMod32 x r
  let y ← int32 (x - m)
  pure (if y = 0 then r else y)

/-- `derive_schedule`: its only `int` operation is `p*mc_ret`. `src/block_sizing.cpp:434-462`. -/
def derive_schedule32 (cx : CCtx D) (M N K p mc_ret : Int) : Except Fail Sched := do
  let _ ← int32 (p * mc_ret)
  pure (derive_schedule fl cx M N K p mc_ret)

/-- `sch == NA ? derive_schedule(...) : sch`. `src/block_sizing.cpp:358-361`. -/
def pickSched32 (cx : CCtx D) (M N K p mc_ret : Int) (sch : Sched) : Except Fail Sched :=
  if sch = .NA then derive_schedule32 fl cx M N K p mc_ret else pure sch

/-- `get_cache_dims` over 32-bit `int`. `src/block_sizing.cpp:304-429`. -/
def get_cache_dims32 (cx : CCtx D) (M N K p : Int) (sch : Sched) (type_size : D) (mcu kcu ncu : Int) :
    Except Fail (CacheDims × CCtx D) := do
  let mc_L2 ← mcL2_32 fl cx type_size
  let mc_L3 ← mcL3_32 fl cx type_size
  let cx := { cx with alpha_n := fl.div (fl.ofInt mc_L3) (fl.ofInt mc_L2) }
  let mc_ret ← clampMc32 M p cx.mr mc_L2
  let s ← pickSched32 fl cx M N K p mc_ret sch
  if mcu ≠ 0 ∧ ncu ≠ 0 ∧ kcu ≠ 0 then
    pure (⟨mcu, kcu, ncu, s⟩, { cx with alpha_n := fl.ofInt 1 })
  else match s with
    | .KMN => do
      let t ← cInt fl (fl.mul (fl.mul cx.alpha_n (fl.ofInt p)) (fl.ofInt mc_ret))
      let nc_ret ← roundDown32 t cx.nr
      pure (⟨mc_ret, mc_ret, nc_ret, s⟩, cx)
    | .MKN => do
      let t ← cInt fl (fl.mul (fl.mul cx.alpha_n (fl.ofInt p)) (fl.ofInt mc_ret))
      let nc_ret ← roundDown32 t cx.nr
      pure (⟨mc_ret, mc_ret, nc_ret, s⟩, cx)
    | .NKM => do
      let nc_ret ← roundDown32 mc_ret cx.nr
      let t ← cInt fl (fl.mul cx.alpha_n (fl.ofInt mc_ret))
      let mc_ret ← roundDown32 t cx.mr
      pure (⟨mc_ret, mc_ret, nc_ret, s⟩, cx)
    | .NA => .error .exit

/-- `cake_sgemm` from its first line with `sch = KMN`, over 32-bit `int`; as `sgemm_api`. The schedule in `a` is not used.
`src/cake_sgemm.cpp:9-175`. -/
def sgemm_kfirst_api32 {α : Type _} (mc : Machine) (cntx : Option (CCtx D)) (A B C : Loc)
    (a : Args α) : Except Fail (Prog × CCtx D) := do
  let cx := cntx.getD (query_cntx fl mc)
  let (d, cx') ← get_cache_dims32 fl cx a.M a.N a.K a.p .KMN (fl.ofInt 4) a.mcu a.kcu a.ncu
  let v ← cx'.view mc
  if d.m_c ≤ 0 ∨ d.k_c ≤ 0 ∨ d.n_c ≤ 0 ∨ a.p = 0 then .error .ub
  else
    match cake_sgemm32 v A B C a.M a.N a.K a.p a.packedA a.packedB d.m_c.toNat d.k_c.toNat d.n_c.toNat with
    | some prog => pure ((if cntx.isNone then [Item.malloc .Ctx 1] else []) ++ prog, cx')
    | none => .error .ub

end
end Cake
