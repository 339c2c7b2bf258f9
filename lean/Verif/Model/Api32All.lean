/-
The public entry point over 32-bit `int` with any schedule: the checked choice of schedule and tile sizes of
`Verif.Model.Api32`, followed by the checked product of `Verif.Model.Checked` or `Verif.Model.CheckedMN`.
-/
import Verif.Model.Api32
import Verif.Model.CheckedMN

namespace Cake
open List

section
variable {D : Type _} (fl : Flt D)

/-- `cake_sgemm` from its first line over 32-bit `int`; as `sgemm_api`. `get_cache_dims` returns one of the three schedules.
`src/cake_sgemm.cpp:9-175`. -/
def sgemm_api32 {α : Type _} (nz : α → Bool) (mc : Machine) (cntx : Option (CCtx D)) (A B C : Loc)
    (a : Args α) : Except Fail (Prog × CCtx D) := do
  let cx := cntx.getD (query_cntx fl mc)
  let (d, cx') ← get_cache_dims32 fl cx a.M a.N a.K a.p a.sch (fl.ofInt 4) a.mcu a.kcu a.ncu
  let v ← cx'.view mc
  if d.m_c ≤ 0 ∨ d.k_c ≤ 0 ∨ d.n_c ≤ 0 ∨ a.p = 0 then .error .ub
  else
    match cake_sgemm32S v A B C a.M a.N a.K a.p a.packedA a.packedB (nz a.beta) d.m_c.toNat d.k_c.toNat d.n_c.toNat d.sch with
    | some prog => pure ((if cntx.isNone then [Item.malloc .Ctx 1] else []) ++ prog, cx')
    | none => .error .ub

end
end Cake
