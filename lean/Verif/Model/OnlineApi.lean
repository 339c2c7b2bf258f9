/-
`cake_sgemm_online` from its first line: context, tile sizes from the cache sizes or the user, product.
-/
import Verif.Model.CacheDims
import Verif.Model.Online

namespace Cake
open List

/-- `cake_sgemm_online` from its first line. The schedule asked for is replaced by K-first before the tile sizes are
chosen (line 417). Returns the program that is run and the context afterwards. A tile size below 1 leads to a division
by zero in `init_block_dims` and is reported as undefined. `src/cake_sgemm.cpp:397-468`,
`src/block_sizing.cpp:465-480`. -/
def sgemm_online_api {D : Type _} (fl : Flt D) {α : Type _} (mc : Machine) (cntx : Option (CCtx D)) (A B C : Loc)
    (a : Args α) : Except Fail (Prog × CCtx D) := do
  let cx := cntx.getD (query_cntx fl mc)
  let (d, cx') ← get_cache_dims fl cx a.M a.N a.K a.p .KMN (fl.ofInt 4) a.mcu a.kcu a.ncu
  let v ← cx'.view mc
  if d.m_c ≤ 0 ∨ d.k_c ≤ 0 ∨ d.n_c ≤ 0 ∨ a.p = 0 then .error .ub
  else
    let call := cake_sgemm_online v A B C a.M a.N a.K a.p a.packedA a.packedB a.alpha a.beta d.m_c.toNat d.k_c.toNat
      d.n_c.toNat
    match call with
    | some prog => pure ((if cntx.isNone then [Item.malloc .Ctx 1] else []) ++ prog, cx')
    | none => .error .exit

end Cake
