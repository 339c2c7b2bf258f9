/-
The calls a caller can make, for C60 and C61.
-/
import Verif.Model.OnlineApi
import Verif.Model.TwoDApi
import Verif.Model.Concurrent

namespace Cake
open List

variable {D : Type _} (fl : Flt D) {α : Type _} (nz : α → Bool) (mc : Machine) (tbl : List (List Bool))

/-- The caller gives all three tile sizes. `src/block_sizing.cpp:363,667`. -/
def Args.user (a : Args α) : Bool := a.mcu != 0 && a.kcu != 0 && a.ncu != 0

/-- Programs of the public entry points on operands A, B and C, for any arguments, with what they do to the context:
`cake_sgemm` (`src/cake_sgemm.cpp:9-175`), `cake_sgemm_online` (`397-468`), `cake_sgemm_2d` (`179-247`) and
`cake_sgemm_2d_small` (`253-318`). `cake_sgemm_online` replaces the schedule asked for (line 417), so `derive_schedule`
is not called. -/
inductive LibCall : Prog → List CtxAcc → Prop
  | sgemm (cntx : Option (CCtx D)) (a : Args α) (prog : Prog) (cx' : CCtx D) :
      sgemm_api fl nz mc cntx ⟨.A, 0⟩ ⟨.B, 0⟩ ⟨.C, 0⟩ a = .ok (prog, cx') →
      LibCall prog (ctxAccesses (a.sch == .NA) a.user)
  | online (cntx : Option (CCtx D)) (a : Args α) (prog : Prog) (cx' : CCtx D) :
      sgemm_online_api fl mc cntx ⟨.A, 0⟩ ⟨.B, 0⟩ ⟨.C, 0⟩ a = .ok (prog, cx') → LibCall prog (ctxAccesses false a.user)
  | twoD (cntx : Option (CCtx D)) (L1 : Int) (pn0 : Nat) (a : Args α) (prog : Prog) :
      sgemm_2d_api fl mc tbl cntx L1 pn0 ⟨.A, 0⟩ ⟨.B, 0⟩ ⟨.C, 0⟩ a = .ok prog → LibCall prog (ctxAccesses2d a.user)
  | twoDSmall (cntx : Option (CCtx D)) (L1 : Int) (pn0 : Nat) (a : Args α) (prog : Prog) :
      sgemm_2d_small_api fl mc tbl cntx L1 pn0 ⟨.A, 0⟩ ⟨.B, 0⟩ ⟨.C, 0⟩ a = .ok prog → LibCall prog ctxAccesses2dSmall

end Cake
