/-
`cake_sgemm_2d` from its first line: context, grid of cores, tile sizes from the cache sizes, product.
-/
import Verif.Model.CacheDims
import Verif.Model.TwoD

namespace Cake
open List

section
variable {D : Type _} (fl : Flt D)

/-- An `int` converted to `float`. -/
def toFloat (n : Int) : D := fl.single (fl.ofInt n)

/-- `kc_max = ((L1 / type_size) - m_r*n_r) / (m_r + n_r)` with `type_size` a `float` holding 4: the operations are
in `float`, here a `double` operation followed by rounding to `float` (the same number, as a double has more than
twice the digits), and the result is converted to `int`. `src/block_sizing.cpp:663` and `831`. -/
def kcMax (L1 mr nr : Int) (type_size : D) : Except Fail Int :=
  cInt fl (fl.single (fl.div (fl.single (fl.sub (fl.single (fl.div (toFloat fl L1) type_size))
    (toFloat fl (mr * nr)))) (toFloat fl (mr + nr))))

/-- `m_c = (int) ((-n_r + sqrt(1.0*n_r*n_r + 4.0*2*(((double) L2) / 4.0))) / (2.0*2)); m_c -= (m_c % m_r)`.
`src/block_sizing.cpp:675-676`. -/
def autoMc2d (cx : CCtx D) : Except Fail Int := do
  let i := fl.ofInt
  let m_c ← cInt fl (fl.div (fl.add (i (-cx.nr)) (fl.sqrt (fl.add (fl.mul (fl.mul (i 1) (i cx.nr)) (i cx.nr))
    (fl.mul (fl.mul (i 4) (i 2)) (fl.div (i cx.L2) (i 4)))))) (fl.mul (i 2) (i 2)))
  let r ← cMod m_c cx.mr
  pure (m_c - r)

/-- The tile `(m_c, k_c)` that `init_block_dims_2d` starts from: the user's, if all three user sizes are given,
else derived from the cache sizes. `kc_max` is computed in either case. `src/block_sizing.cpp:662-680`. -/
def tiles2d (cx : CCtx D) (L1 : Int) (mcu kcu ncu : Int) : Except Fail (Int × Int) := do
  let kc_max ← kcMax fl L1 cx.mr cx.nr (fl.ofInt 4)
  if mcu ≠ 0 ∧ ncu ≠ 0 ∧ kcu ≠ 0 then pure (mcu, kcu)
  else do
    let m_c ← autoMc2d fl cx
    pure (m_c, kc_max)

/-- `cake_sgemm_2d` from its first line. `L1` is the field `L1` of the context, `pn0` the value
`(int) roundf(sqrt((double) p*N / M))`, `tbl` the generated table of factors. Returns the program that is run.
A tile size below 1 (a division by zero or a negative loop bound later on) is reported as undefined here.
`src/cake_sgemm.cpp:179-247`. -/
def sgemm_2d_api {α : Type _} (mc : Machine) (tbl : List (List Bool)) (cntx : Option (CCtx D)) (L1 : Int) (pn0 : Nat)
    (A B C : Loc) (a : Args α) : Except Fail Prog := do
  let cx := cntx.getD (query_cntx fl mc)
  let pn ← match grid_dims_2d tbl pn0 a.p cx.ncores.toNat with
    | some pn => Except.ok pn
    | none => .error .ub
  let (m_c, k_c) ← tiles2d fl cx L1 a.mcu a.kcu a.ncu
  let v ← cx.view mc
  if m_c ≤ 0 ∨ k_c ≤ 0 then .error .ub
  else match cake_sgemm_2d v A B C a.M a.N a.K a.p a.packedA a.packedB a.alpha a.beta pn m_c.toNat k_c.toNat with
    | some prog => pure ((if cntx.isNone then [Item.malloc .Ctx 1] else []) ++ prog)
    | none => .error .ub

/-- `cake_sgemm_2d_small` from its first line. `src/cake_sgemm.cpp:253-318`. -/
def sgemm_2d_small_api {α : Type _} (mc : Machine) (tbl : List (List Bool)) (cntx : Option (CCtx D)) (L1 : Int)
    (pn0 : Nat) (A B C : Loc) (a : Args α) : Except Fail Prog := do
  let cx := cntx.getD (query_cntx fl mc)
  let pn ← match grid_dims_2d tbl pn0 a.p cx.ncores.toNat with
    | some pn => Except.ok pn
    | none => .error .ub
  let kc_max ← kcMax fl L1 cx.mr cx.nr (fl.ofInt 4)
  let v ← cx.view mc
  if kc_max ≤ 0 then .error .ub
  else match cake_sgemm_2d_small v A B C a.M a.N a.K a.p a.packedA a.packedB a.alpha a.beta pn kc_max.toNat with
    | some prog => pure ((if cntx.isNone then [Item.malloc .Ctx 1] else []) ++ prog)
    | none => .error .ub

end
end Cake
