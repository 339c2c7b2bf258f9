/-
Property C28, contexts changed by hand: K-first with a kernel wider than the register tile.
-/
import Verif.Proofs.WideKernel
import Verif.Proofs.SgemmMN
import Verif.Proofs.CacheDims

namespace Cake
open List

/-- **C28 cannot be extended to contexts that were not changed with `update_mr_nr`**: if the selected kernel is wider than
the register tile of the context, every K-first product of matrices that are not empty is undefined, for all tile sizes,
from every state and in every arithmetic. (The kernel reads beyond the packed B.) -/
theorem C28_wide_refuted {α : Type _} (F : Arith α) (nz : α → Bool) (cx : Cntx) {M N K p m_c k_c n_c : Nat}
    (h : TileOK p cx.m_r cx.n_r m_c k_c n_c) (hw : cx.n_r < cx.kmap.nl * cx.kmap.L) (hM : 0 < M) (hN : 0 < N) (hK : 0 < K)
    (packedA : Bool) (alpha beta : α) :
    ∃ prog, cake_sgemm nz cx ⟨if packedA then .Ap else .A, 0⟩ ⟨.B, 0⟩ ⟨.C, 0⟩ M N K p packedA false alpha beta m_c k_c n_c .KMN =
      some prog ∧ ∀ s : State α, Exec F prog s .ub ∧ ∀ s', ¬ Exec F prog s (.ok s') := by
  obtain ⟨prog, hprog⟩ := cake_sgemm_isSome nz cx ⟨if packedA then .Ap else .A, 0⟩ ⟨.B, 0⟩ ⟨.C, 0⟩ M N K p packedA false
    alpha beta m_c k_c n_c (.inl rfl)
  refine ⟨prog, hprog, fun s => ?_⟩
  have hno := sgemmK_wide_no_ok (F := F) h rfl rfl hw hM hN hK hprog s
  exact ⟨ub_of_no_ok F hno, hno⟩

/-- `12 x 16` tiles with the `12 x 32` kernel. -/
example := C28_wide_refuted (⟨0, fun a b c => a * b + c⟩ : Arith Int) (· != 0) ⟨12, 16, ⟨8, 12, 4⟩, ⟨8, 6, 2⟩⟩ (M := 1003) (N := 47) (K := 77) (p := 4)
  (m_c := 24) (k_c := 20) (n_c := 32) ⟨by decide, by decide, by decide, by decide, by decide, by decide, by decide, by decide⟩
  (by decide) (by decide) (by decide) (by decide) false 1 0

end Cake
