/-
C60: calls made at the same time do not disturb each other. C61: operands that overlap.
-/
import Verif.Proofs.Footprint
import Verif.Model.LibCall
import Verif.Proofs.Alias
import Verif.Props.Api
import Verif.Props.OnlineApi

namespace Cake
open List

section
variable {D : Type _} {fl : Flt D} {α : Type _} {nz : α → Bool} {mc : Machine} {tbl : List (List Bool)}

theorem sgemm_api_prog {cntx : Option (CCtx D)} {A B C : Loc} {a : Args α} {prog : Prog} {cx' : CCtx D}
    (h : sgemm_api fl nz mc cntx A B C a = .ok (prog, cx')) : ∃ v q m_c k_c n_c sch,
      cake_sgemm nz v A B C a.M a.N a.K a.p a.packedA a.packedB a.alpha a.beta m_c k_c n_c sch = some q ∧
      prog = (if cntx.isNone then [Item.malloc .Ctx 1] else []) ++ q := by
  unfold sgemm_api at h
  simp only [bind, Except.bind] at h
  split at h
  · cases h
  split at h
  · cases h
  split at h
  · cases h
  split at h
  · rename_i q hq
    cases h
    exact ⟨_, q, _, _, _, _, hq, rfl⟩
  · cases h

theorem LibCall.proper {prog : Prog} {acc : List CtxAcc} (h : LibCall fl nz mc tbl prog acc) :
    Proper (fun _ => False) prog := by
  cases h with
  | sgemm cntx a _ cx' h =>
    obtain ⟨v, q, m_c, k_c, n_c, sch, e, rfl⟩ := sgemm_api_prog h
    exact (cake_sgemm_proper_any e).ctx id _
  | online cntx a _ cx' h =>
    unfold sgemm_online_api at h
    simp only [bind, Except.bind] at h
    split at h
    · cases h
    split at h
    · cases h
    split at h
    · cases h
    split at h
    · rename_i q hq
      cases h
      exact (cake_sgemm_online_proper hq).ctx id _
    · cases h
  | twoD cntx L1 pn0 a _ h =>
    unfold sgemm_2d_api at h
    simp only [bind, Except.bind] at h
    split at h
    swap
    · cases h
    split at h
    · cases h
    split at h
    · cases h
    split at h
    · cases h
    split at h
    · rename_i q hq
      cases h
      exact (cake_sgemm_2d_proper hq).ctx id _
    · cases h
  | twoDSmall cntx L1 pn0 a _ h =>
    unfold sgemm_2d_small_api at h
    simp only [bind, Except.bind] at h
    split at h
    swap
    · cases h
    split at h
    · cases h
    split at h
    · cases h
    split at h
    · cases h
    split at h
    · rename_i q hq
      cases h
      exact (cake_sgemm_2d_small_proper hq).ctx id _
    · cases h

end

section
variable {ι γ κ α : Type _} {D : Type _} (fl : Flt D) (F : Arith α) (nz : α → Bool) (tbl : List (List Bool))

/-- **C60.** Calls made at the same time, of any entry points with any arguments. Their operands A and B may be shared or
overlap, everything else is separate, and calls given the same context do not write it. Then together they do what each
would do alone: if the outcome is undefined, it is so for one of them alone; if they end, each has made an execution of
its own, the operands are unchanged, and so is all memory that is none of their own. Missing: a context written by one of the
calls that share it, see `C60_shared_context_refuted`. -/
theorem C60_as_alone_partial {mc : ι → Machine} {ren : ι → Loc → γ} (hown : ∀ i, Own (fun _ => False) (ren i)) (hap : Apart ren)
    {c : Calls ι κ} (hc : ∀ i, LibCall fl nz (mc i) tbl (c.prog i) (c.acc i)) (hctx : c.CtxOK) {G : GState ι γ α}
    {out : COut ι γ α} (he : CExec F ren c G out) :
    (out = .ub ∧ ∃ i, Exec F (c.prog i) (G.view ren i) .ub) ∨ (out = .exit ∧ ∃ i, Exec F (c.prog i) (G.view ren i) .exit) ∨
      ∃ G', out = .ok G' ∧
        (∀ i, ∃ s', Exec F (c.prog i) (G.view ren i) (.ok s') ∧ G'.size i = s'.size ∧
          ∀ l : Loc, ¬ Inp l.buf → G'.mem (ren i l) = s'.mem l ∧ G'.init (ren i l) = s'.init l) ∧
        (∀ i l, Inp l.buf → G'.mem (ren i l) = G.mem (ren i l) ∧ G'.init (ren i l) = G.init (ren i l)) ∧
        ∀ g, (∀ i l, ren i l ≠ g) → G'.mem g = G.mem g ∧ G'.init g = G.init g := by
  rcases he.sound hown hap (fun i => (hc i).proper) hctx _ (fun i => Sim.view ren i _ G) with h | h | ⟨G', e, hf, s', hs⟩
  · exact Or.inl h
  · exact Or.inr (Or.inl h)
  · refine Or.inr (Or.inr ⟨G', e, fun i => ⟨s' i, (hs i).1, (hs i).2.size, fun l hl => ?_⟩, fun i l hl => hf _ ?_,
      fun g hg => hf g fun i l e => absurd e (hg i l)⟩)
    · exact ⟨(hs i).2.mem l fun h => absurd h hl, (hs i).2.init l fun h => absurd h hl⟩
    · intro j l' e'
      by_cases hij : j = i
      · subst hij
        rcases hown _ _ _ e' with h | ⟨h, -⟩ | ⟨-, h⟩
        · rw [h]; exact hl
        · exact h
        · exact h.elim
      · exact (hap j i l' l hij e').1

/-- **C60, existence.** Finitely many calls each of which can end alone can end together, with the same results. -/
theorem C60_can_end_partial [Fintype ι] {mc : ι → Machine} {ren : ι → Loc → γ} (hown : ∀ i, Own (fun _ => False) (ren i))
    (hap : Apart ren) {c : Calls ι κ} (hc : ∀ i, LibCall fl nz (mc i) tbl (c.prog i) (c.acc i)) {G : GState ι γ α}
    {s' : ι → State α} (he : ∀ i, Exec F (c.prog i) (G.view ren i) (.ok (s' i))) : ∃ G', CExec F ren c G (.ok G') ∧
      ∀ i, G'.size i = (s' i).size ∧ ∀ l : Loc, ¬ Inp l.buf → G'.mem (ren i l) = (s' i).mem l ∧ G'.init (ren i l) = (s' i).init l := by
  obtain ⟨G', h, hs⟩ := CExec.exists hown hap (fun i => (hc i).proper) _ s' (fun i => Sim.view ren i _ G) he
  exact ⟨G', h, fun i => ⟨(hs i).size, fun l hl => ⟨(hs i).mem l fun h => absurd h hl, (hs i).init l fun h => absurd h hl⟩⟩⟩

/-- **C60, exactly.** The calls together can have undefined behaviour if and only if one of them alone can, and can end in
`exit(1)` (a failed allocation) if and only if one of them alone can. -/
theorem C60_iff_partial {mc : ι → Machine} {ren : ι → Loc → γ} (hown : ∀ i, Own (fun _ => False) (ren i)) (hap : Apart ren)
    {c : Calls ι κ} (hc : ∀ i, LibCall fl nz (mc i) tbl (c.prog i) (c.acc i)) (hctx : c.CtxOK) {G : GState ι γ α} :
    (CExec F ren c G .ub ↔ ∃ i, Exec F (c.prog i) (G.view ren i) .ub) ∧
    (CExec F ren c G .exit ↔ ∃ i, Exec F (c.prog i) (G.view ren i) .exit) := by
  refine ⟨⟨fun he => ?_, fun ⟨i, h⟩ => CExec.ub_of (hown i) (hc i).proper (Sim.view ren i _ G) h⟩,
    ⟨fun he => ?_, fun ⟨i, h⟩ => CExec.exit_of (hown i) (hc i).proper (Sim.view ren i _ G) h⟩⟩
  · rcases C60_as_alone_partial fl F nz tbl hown hap hc hctx he with ⟨-, h⟩ | ⟨e, -⟩ | ⟨_, e, -⟩
    · exact h
    · cases e
    · cases e
  · rcases C60_as_alone_partial fl F nz tbl hown hap hc hctx he with ⟨e, -⟩ | ⟨-, h⟩ | ⟨_, e, -⟩
    · cases e
    · exact h
    · cases e

/-- A call within shared memory is right: C is the product of the operands before the calls, what the caller owns keeps
its contents except for C, and the objects are as `sizesAfter` says. -/
structure CorrectAt (ren : ι → Loc → γ) (nullCtx : Bool) (G G' : GState ι γ α) (i : ι) (M N K : Nat) : Prop where
  product : IsProduct F (G.view ren i) (G'.view ren i) M N K (fun _ _ => F.zero)
  keep : ∀ l : Loc, G.size i l.buf ≠ none → ¬ (l.buf = .C ∧ l.idx < M * N) →
    G'.mem (ren i l) = G.mem (ren i l) ∧ G'.init (ren i l) = G.init (ren i l)
  size : ∀ b, G'.size i b = sizesAfter nullCtx (G.size i) b

/-- **C60, results.** Calls each of which alone would be right are right together: never undefined, C of every call is the
product, operands and all else keep their contents, nothing is leaked, and the calls can end. -/
theorem C60_correct_partial [Fintype ι] {mc : ι → Machine} {ren : ι → Loc → γ} (hown : ∀ i, Own (fun _ => False) (ren i))
    (hap : Apart ren) {c : Calls ι κ} (hc : ∀ i, LibCall fl nz (mc i) tbl (c.prog i) (c.acc i)) (hctx : c.CtxOK)
    {G : GState ι γ α} {M N K : ι → Nat} {nullCtx : ι → Bool}
    (hs : ∀ i, Computes F (some (c.prog i)) (G.view ren i) fun s' => Correct F (nullCtx i) (G.view ren i) s' (M i) (N i) (K i)) :
    (∃ G', CExec F ren c G (.ok G')) ∧ ∀ out, CExec F ren c G out → out = .exit ∨ ∃ G', out = .ok G' ∧
      (∀ i, CorrectAt F ren (nullCtx i) G G' i (M i) (N i) (K i)) ∧
      ∀ g, (∀ i l, ren i l ≠ g) → G'.mem g = G.mem g ∧ G'.init g = G.init g := by
  constructor
  · have : ∀ i, ∃ s', Exec F (c.prog i) (G.view ren i) (.ok s') := fun i => by
      obtain ⟨_, e, h, -⟩ := hs i
      cases e; exact h
    choose s' h using this
    obtain ⟨G', h, -⟩ := C60_can_end_partial fl F nz tbl hown hap hc h
    exact ⟨G', h⟩
  intro out he
  rcases C60_as_alone_partial fl F nz tbl hown hap hc hctx he with ⟨-, i, hu⟩ | e | ⟨G', e, h1, h2, h3⟩
  · obtain ⟨_, e, -, h⟩ := hs i
    cases e
    rcases h _ hu with e | ⟨_, e, -⟩ <;> cases e
  · exact Or.inl e.1
  · refine Or.inr ⟨G', e, fun i => ?_, h3⟩
    obtain ⟨s', hx, hsz, hv⟩ := h1 i
    have cr : Correct F (nullCtx i) (G.view ren i) s' (M i) (N i) (K i) := (hs i).of_exec rfl hx
    refine ⟨fun r c hr hc => ?_, fun l hl hX => ?_, fun b => by rw [hsz]; exact cr.size b⟩
    · have := cr.product r c hr hc
      have e := hv ⟨.C, r * N i + c⟩ (by simp [Inp])
      refine ⟨e.2.trans this.1, ?_⟩
      obtain ⟨o, ho, hv'⟩ := this.2
      exact ⟨o, ho, e.1.trans hv'⟩
    · by_cases hi : Inp l.buf
      · exact h2 i l hi
      · have := cr.keep l hl hX
        exact ⟨(hv l hi).1.trans this.1, (hv l hi).2.trans this.2⟩

/-- **C60, a shared context.** If two calls of `cake_sgemm` or `cake_sgemm_online` are given the same context, they race on
its field `alpha_n`, whatever their other arguments: the outcome is undefined. -/
theorem C60_shared_context_refuted {mc : Machine} {cntx : CCtx D} {ren : ι → Loc → γ} {c : Calls ι κ} {i j : ι}
    (hij : i ≠ j) (hctx : c.ctx i = c.ctx j) {a a' : Args α} {cxi cxj : CCtx D}
    (_hi : sgemm_api fl nz mc (some cntx) ⟨.A, 0⟩ ⟨.B, 0⟩ ⟨.C, 0⟩ a = .ok (c.prog i, cxi))
    (_hj : sgemm_api fl nz mc (some cntx) ⟨.A, 0⟩ ⟨.B, 0⟩ ⟨.C, 0⟩ a' = .ok (c.prog j, cxj))
    (hai : c.acc i = ctxAccesses (a.sch == .NA) a.user) (haj : c.acc j = ctxAccesses (a'.sch == .NA) a'.user)
    (G : GState ι γ α) : CExec F ren c G .ub := by
  refine .race c G (.ctx i j ⟨.alpha_n, true⟩ ⟨.alpha_n, true⟩ hij hctx ?_ ?_ rfl (Or.inl rfl))
  · rw [hai]; simp [ctxAccesses]
  · rw [haj]; simp [ctxAccesses]

/-- **C60, contexts that may be shared.** 2-D calls with automatic tile sizes only read the context, and what they read
`cake_sgemm` and `cake_sgemm_online` do not write: any number of such 2-D calls and one call of those may share it. -/
theorem C60_context_shared_by_2d {c : Calls ι κ} {w : ι} (hw : ∃ auto user, c.acc w = ctxAccesses auto user)
    (h : ∀ i, i ≠ w → c.acc i = ctxAccesses2d false ∨ c.acc i = ctxAccesses2dSmall) : c.CtxOK := by
  obtain ⟨auto, user, hw⟩ := hw
  have key : ∀ i, i ≠ w → ∀ a ∈ c.acc i, a.write = false ∧ a.field ≠ .alpha_n := fun i hi a ha => by
    rcases h i hi with e | e <;> rw [e] at ha <;>
      (revert a; simp only [ctxAccesses2d, ctxAccesses2dSmall]; decide)
  have key' : ∀ a ∈ c.acc w, a.field ≠ .alpha_n → a.write = false := fun a ha => by
    rw [hw] at ha
    clear hw
    revert a auto user
    decide
  intro i j a a' hij _ ha ha' hf
  by_cases hi : i = w
  · subst hi
    have h' := key j (Ne.symm hij) a' ha'
    exact ⟨key' a ha (hf ▸ h'.2), h'.1⟩
  · have h1 := key i hi a ha
    by_cases hj : j = w
    · subst hj
      exact ⟨h1.1, key' a' ha' (hf ▸ h1.2)⟩
    · exact ⟨h1.1, (key j hj a' ha').1⟩

end

section
variable {ι γ κ α : Type _} (r : Rounding 53) (rs : Rounding 24) (nf : Option ℝ → Option ℝ → Bool) (F : Arith α) (nz : α → Bool)

/-- **C60, K-first.** Any number of K-first calls at the same time, each with its own context (given or NULL) and its own
C, on operands that may be shared or overlap: never undefined behaviour, and every C is its product. -/
theorem C60_kfirst_partial [Fintype ι] {mc : ι → Machine} {cntx : ι → Option (CCtx (Option ℝ))} {m_r n_r L2 L3 nc : ι → Nat}
    (h : ∀ i, Ready (mc i) ((cntx i).getD (query_cntx (ieee r rs nf) (mc i))) (m_r i) (n_r i) (L2 i) (L3 i) (nc i))
    {a : ι → Args α} (hpk : ∀ i, (a i).packedA = false ∧ (a i).packedB = false) (hp : ∀ i, 0 < (a i).p)
    (ht : ∀ i, TilesOK (m_r i) (n_r i) (L2 i) (a i)) (hsch : ∀ i, (a i).sch = .KMN)
    {ren : ι → Loc → γ} (hown : ∀ i, Own (fun _ => False) (ren i)) (hap : Apart ren) {G : GState ι γ α}
    (hs : ∀ i, CallOK (G.view ren i) (a i).M (a i).N (a i).K) (hnull : ∀ i, cntx i = none → G.size i .Ctx = none)
    (ctx : ι → κ) (hctx : Function.Injective ctx) :
    ∃ prog : ι → Prog, (∀ i, ∃ cx', publicCall r rs nf nz (mc i) (cntx i) (a i) = .ok (prog i, cx')) ∧
      (∃ G', CExec F ren ⟨prog, ctx, fun i => ctxAccesses false (a i).user⟩ G (.ok G')) ∧
      ∀ out, CExec F ren ⟨prog, ctx, fun i => ctxAccesses false (a i).user⟩ G out → out = .exit ∨ ∃ G', out = .ok G' ∧
        (∀ i, CorrectAt F ren (cntx i).isNone G G' i (a i).M (a i).N (a i).K) ∧
        ∀ g, (∀ i l, ren i l ≠ g) → G'.mem g = G.mem g ∧ G'.init g = G.init g := by
  choose prog cx' e _ hC using fun i => C42_kfirst F r rs nf nz (h i) (hpk i) (hp i) (ht i) (hsch i) (hs i) (hnull i)
  refine ⟨prog, fun i => ⟨cx' i, e i⟩, C60_correct_partial (ieee r rs nf) F nz [] (mc := mc) hown hap (fun i => ?_) ?_ hC⟩
  · have := LibCall.sgemm (fl := ieee r rs nf) (nz := nz) (mc := mc i) (tbl := []) (cntx i) (a i) (prog i) (cx' i) (e i)
    rw [hsch i] at this
    exact this
  · intro i j _ _ hij hc
    exact absurd (hctx hc) hij

/-! ### C61 -/

/-- **C61, A and B.** The operands of one call may overlap in any way, or be the same memory: a call that would be right on
separate copies of them is right. For all entry points. -/
theorem C61_inputs_overlap_partial {D : Type _} (fl : Flt D) (tbl : List (List Bool)) {mc : Machine} {ren : Loc → γ}
    (hown : Own (fun _ => False) ren) {prog : Prog} {acc : List CtxAcc} (hc : LibCall fl nz mc tbl prog acc)
    {G : GState Unit γ α} {M N K : Nat} {nullCtx : Bool}
    (hs : Computes F (some prog) (G.view (fun _ => ren) ()) fun s' => Correct F nullCtx (G.view (fun _ => ren) ()) s' M N K) :
    (∃ G', CExec F (fun _ => ren) ⟨fun _ => prog, fun _ => (), fun _ => acc⟩ G (.ok G')) ∧
    ∀ out, CExec F (fun _ => ren) ⟨fun _ => prog, fun _ => (), fun _ => acc⟩ G out → out = .exit ∨ ∃ G', out = .ok G' ∧
      CorrectAt F (fun _ => ren) nullCtx G G' () M N K ∧
      ∀ g, (∀ l, ren l ≠ g) → G'.mem g = G.mem g ∧ G'.init g = G.init g := by
  have := C60_correct_partial fl F nz tbl (mc := fun _ : Unit => mc) (ren := fun _ => ren) (fun _ => hown)
    (fun i j _ _ hij => absurd rfl hij) (c := ⟨fun _ => prog, fun _ => (), fun _ => acc⟩) (fun _ => hc)
    (fun i j _ _ hij => absurd rfl hij) (G := G) (M := fun _ => M) (N := fun _ => N) (K := fun _ => K)
    (nullCtx := fun _ => nullCtx) (fun _ => hs)
  refine ⟨this.1, fun out he => ?_⟩
  rcases this.2 out he with e | ⟨G', e, h1, h2⟩
  · exact Or.inl e
  · exact Or.inr ⟨G', e, h1 (), fun g hg => h2 g fun _ => hg⟩

/-- **C61, C.** `cake_sgemm` on operands that are not pre-packed may overwrite them with the result: C may overlap A and B
in any way. A call that would be right on separate copies stores the product of what A and B held before, and changes
nothing but C (and, with a NULL context, allocates one). Missing: the other entry points, see
`C61_online_in_place_refuted`. -/
theorem C61_in_place_partial {D : Type _} (fl : Flt D) {mc : Machine} {cntx : Option (CCtx D)} {a : Args α} {prog : Prog}
    {cx' : CCtx D} (hc : sgemm_api fl nz mc cntx ⟨.A, 0⟩ ⟨.B, 0⟩ ⟨.C, 0⟩ a = .ok (prog, cx'))
    (hpk : a.packedA = false ∧ a.packedB = false) {ren : Loc → γ} (hown : Own (fun b => b = .C) ren) {G : GState Unit γ α}
    (hsC : G.size () .C ≠ none) (acc : List CtxAcc) {nullCtx : Bool}
    (hs : Computes F (some prog) (G.view (fun _ => ren) ()) fun s' =>
      Correct F nullCtx (G.view (fun _ => ren) ()) s' a.M a.N a.K) :
    (∃ G', CExec F (fun _ => ren) ⟨fun _ => prog, fun _ => (), fun _ => acc⟩ G (.ok G')) ∧
    ∀ out, CExec F (fun _ => ren) ⟨fun _ => prog, fun _ => (), fun _ => acc⟩ G out → out = .exit ∨ ∃ G', out = .ok G' ∧
      IsProduct F (G.view (fun _ => ren) ()) (G'.view (fun _ => ren) ()) a.M a.N a.K (fun _ _ => F.zero) ∧
      (∀ l : Loc, G.size () l.buf ≠ none → (∀ j, j < a.M * a.N → ren ⟨.C, j⟩ ≠ ren l) →
        G'.mem (ren l) = G.mem (ren l) ∧ G'.init (ren l) = G.init (ren l)) ∧
      ∀ b, G'.size () b = sizesAfter nullCtx (G.size ()) b := by
  have hp : Proper (fun b => b = .C) prog := by
    obtain ⟨v, q, m_c, k_c, n_c, sch, e, rfl⟩ := sgemm_api_prog hc
    rw [hpk.1, hpk.2] at e
    exact (cake_sgemm_proper e).ctx (by simp) _
  have hap : Apart (fun _ : Unit => ren) := fun i j _ _ hij => absurd rfl hij
  constructor
  · obtain ⟨_, e, ⟨s', h⟩, -⟩ := hs
    cases e
    obtain ⟨G', h, -⟩ := CExec.exists (fun _ : Unit => hown) hap (c := ⟨fun _ => prog, fun _ => (), fun _ => acc⟩) (fun _ => hp) _
      (fun _ => s') (fun i => Sim.view _ i _ G) (fun _ => h)
    exact ⟨G', h⟩
  intro out he
  rcases he.sound (fun _ : Unit => hown) hap (fun _ => hp) (fun i j _ _ hij => absurd rfl hij) _ (fun i => Sim.view _ i _ G) with
    ⟨-, i, hu⟩ | e | ⟨G', e, hf, s', hx⟩
  · obtain ⟨_, e, -, h⟩ := hs
    cases e
    rcases h _ hu with e | ⟨_, e, -⟩ <;> cases e
  · exact Or.inl e.1
  obtain ⟨hx, hS⟩ := hx ()
  have cr : Correct F nullCtx (G.view (fun _ => ren) ()) (s' ()) a.M a.N a.K := hs.of_exec rfl hx
  have hC : ∀ l : Loc, ¬ Inp l.buf → G'.mem (ren l) = (s' ()).mem l ∧ G'.init (ren l) = (s' ()).init l :=
    fun l hl => ⟨hS.mem l fun h => absurd h hl, hS.init l fun h => absurd h hl⟩
  refine Or.inr ⟨G', e, fun r c hr hc => ?_, fun l hl hX => ?_, fun b => by rw [hS.size]; exact cr.size b⟩
  · have := cr.product r c hr hc
    have e := hC ⟨.C, r * a.N + c⟩ (by simp [Inp])
    refine ⟨e.2.trans this.1, ?_⟩
    obtain ⟨o, ho, hv'⟩ := this.2
    exact ⟨o, ho, e.1.trans hv'⟩
  · by_cases hi : ∀ l', ren l' = ren l → Inp l'.buf
    · exact hf _ fun _ l' e => hi l' e
    · push Not at hi
      obtain ⟨l', e', hn⟩ := hi
      rw [← e', (hC l' hn).1, (hC l' hn).2]
      have hsz : G.size () l'.buf ≠ none := by
        rcases hown _ _ e' with h | ⟨h, -⟩ | ⟨-, h⟩
        · rw [h]; exact hl
        · exact absurd h hn
        · rw [h]; exact hsC
      exact cr.keep l' hsz fun h => hX l'.idx h.2 (by rw [← e']; congr 1; cases l'; simp_all)

/-- **C61, in place, K-first.** With the K-first schedule asked for, C may lie anywhere relative to A and B, without further
conditions. -/
theorem C61_in_place_kfirst_partial {mc : Machine} {cntx : Option (CCtx (Option ℝ))} {m_r n_r L2 L3 nc : Nat}
    (h : Ready mc (cntx.getD (query_cntx (ieee r rs nf) mc)) m_r n_r L2 L3 nc) {a : Args α}
    (hpk : a.packedA = false ∧ a.packedB = false) (hp : 0 < a.p) (ht : TilesOK m_r n_r L2 a) (hsch : a.sch = .KMN)
    {ren : Loc → γ} (hown : Own (fun b => b = .C) ren) {G : GState Unit γ α}
    (hs : CallOK (G.view (fun _ => ren) ()) a.M a.N a.K) (hnull : cntx = none → G.size () .Ctx = none) (acc : List CtxAcc) :
    ∃ prog cx', publicCall r rs nf nz mc cntx a = .ok (prog, cx') ∧
      (∃ G', CExec F (fun _ => ren) ⟨fun _ => prog, fun _ => (), fun _ => acc⟩ G (.ok G')) ∧
      ∀ out, CExec F (fun _ => ren) ⟨fun _ => prog, fun _ => (), fun _ => acc⟩ G out → out = .exit ∨ ∃ G', out = .ok G' ∧
        IsProduct F (G.view (fun _ => ren) ()) (G'.view (fun _ => ren) ()) a.M a.N a.K (fun _ _ => F.zero) ∧
        (∀ l : Loc, G.size () l.buf ≠ none → (∀ j, j < a.M * a.N → ren ⟨.C, j⟩ ≠ ren l) →
          G'.mem (ren l) = G.mem (ren l) ∧ G'.init (ren l) = G.init (ren l)) ∧
        ∀ b, G'.size () b = sizesAfter cntx.isNone (G.size ()) b := by
  obtain ⟨prog, cx', e, -, hC⟩ := C42_kfirst F r rs nf nz h hpk hp ht hsch hs hnull
  have hsC : G.size () .C ≠ none := by
    obtain ⟨k, hk, -⟩ := hs.c
    intro e
    exact absurd (e.symm.trans hk) (by simp)
  exact ⟨prog, cx', e, C61_in_place_partial F nz (ieee r rs nf) e hpk hown hsC acc hC⟩

end

/-! ### C61: not for the online call -/

/-- C at the address of A. -/
def ontoA (l : Loc) : Loc := if l.buf = .C then ⟨.A, l.idx⟩ else l

/-- What the call below does after its allocations. -/
def inPlaceRest : Prog :=
  phases (schedule_KMN_online haswell.kmap ⟨.A, 0⟩ ⟨.B, 0⟩ ⟨.C, 0⟩ 12 16 1 1 haswell.m_r haswell.n_r
    (dimsKMN 12 16 1 1 haswell.m_r haswell.n_r 6 1 16)) ++ [.free (.ApC 0), .free (.CpC 0), .free .Bp, .free .Blk]

theorem inPlaceRest_one : OneTask inPlaceRest := trivial

/-- Element (6,0) of C is computed from element 0 of A, already overwritten, instead of element 6. -/
theorem inPlaceRest_slice : slice ontoA (progOps inPlaceRest).reverse ⟨.A, 96⟩ =
    .fma (.fma (.base ⟨.A, 0⟩) (.base ⟨.B, 6⟩) (.base ⟨.CpC 0, 6⟩)) (.base ⟨.B, 0⟩) .zero := by
  decide +kernel

/-- **C61 does not hold for `cake_sgemm_online`:** with C at the address of A, the `12 x 16` product of a `12 x 1` and a
`1 x 16` matrix, on one core of a Haswell machine with tiles 6, 1, 16, can run to its end, and whenever it does, C is not
the product: the second row block is computed from elements of A that the first one has overwritten. -/
theorem C61_online_in_place_refuted (alpha beta : Int) : ∃ (prog : Prog) (G : GState Unit Loc Int),
    callO haswell 12 16 1 1 false false alpha beta 6 1 16 = some prog ∧
    CallOK (G.view (fun _ => ontoA) ()) 12 16 1 ∧ Slack (G.view (fun _ => ontoA) ()) 12 16 1 haswell.m_r haswell.n_r ∧
    ∀ acc, (∃ G', CExec (exact Int) (fun _ => ontoA) ⟨fun _ => prog, fun _ => (), fun _ => acc⟩ G (.ok G')) ∧
      ∀ G', CExec (exact Int) (fun _ => ontoA) ⟨fun _ => prog, fun _ => (), fun _ => acc⟩ G (.ok G') →
        ¬ IsProduct (exact Int) (G.view (fun _ => ontoA) ()) (G'.view (fun _ => ontoA) ()) 12 16 1 (fun _ _ => 0) := by
  let G : GState Unit Loc Int := ⟨fun _ => (demo 12 16 1).size, (demo 12 16 1).mem, (demo 12 16 1).init⟩
  have hok : CallOK (G.view (fun _ => ontoA) ()) 12 16 1 :=
    ⟨⟨⟨_, rfl, Nat.le_refl _⟩, fun _ _ => rfl⟩, ⟨⟨_, rfl, Nat.le_refl _⟩, fun _ _ => rfl⟩,
      ⟨_, rfl, Nat.le_refl _⟩, fun b h1 h2 h3 _ => by cases b <;> first | rfl | contradiction⟩
  have hsl : Slack (G.view (fun _ => ontoA) ()) 12 16 1 haswell.m_r haswell.n_r :=
    ⟨⟨⟨_, rfl, by decide⟩, fun _ _ => rfl⟩, ⟨⟨_, rfl, by decide⟩, fun _ _ => rfl⟩⟩
  refine ⟨_, G, rfl, hok, hsl, fun acc => ⟨?_, fun G' he hP => ?_⟩⟩
  · obtain ⟨prog, e, ⟨s', he⟩, -⟩ := C04_online_product (exact Int) haswell (M := 12) (N := 16) (K := 1) (p := 1) (m_c := 6)
      (k_c := 1) (n_c := 16) ⟨by decide, by decide, by decide, by decide, by decide, by decide, by decide, by decide⟩
      haswell_fits false false alpha beta hok hsl
    cases e
    obtain ⟨G', h⟩ := he.covers (ι := Unit) (i := ()) (ren := fun _ => ontoA) rfl (G := G) ⟨rfl, fun _ h => h⟩ (by
      intro b hb k l' h
      have hb : b ∈ [Buf.Blk, .Dims, .Dims, .ApC 0, .Bp, .CpC 0, .ApC 0, .CpC 0, .Bp, .Blk] := hb
      obtain ⟨b', k'⟩ := l'
      simp only [mem_cons, not_mem_nil, or_false] at hb
      rcases hb with rfl | rfl | rfl | rfl | rfl | rfl | rfl | rfl | rfl | rfl <;> simp only [ontoA] at h <;> split at h <;> simp_all)
    exact ⟨G', h.lift (c := ⟨fun _ => _, fun _ => (), fun _ => acc⟩) (q := fun _ => []) rfl rfl (fun j hj => absurd rfl hj)
      (.done _ _ fun _ => rfl)⟩
  · obtain ⟨G1, he1, hm1⟩ := CExec.front (pre := [.malloc .Blk 1, .malloc .Dims 1, .free .Dims, .memalign (.ApC 0) 6,
      .memalign .Bp 16]) (q := .calloc (.CpC 0) 96 :: inPlaceRest) rfl (by simp) he
    obtain ⟨G2, he2, hm2, hz⟩ := CExec.calloc he1
    have hv := he2.det rfl inPlaceRest_one ⟨.A, 96⟩
    dsimp only at hv
    rw [inPlaceRest_slice] at hv
    have hA : ∀ k, G2.mem ⟨.A, k⟩ = (demo 12 16 1).mem ⟨.A, k⟩ := fun k => by
      rw [hm2 _ (fun _ => by simp [ontoA]), hm1 _ (fun b hb _ => by
        rcases hb with _ | ⟨_, _ | ⟨_, _ | ⟨_, _ | ⟨_, _ | ⟨_, _ | ⟨_, hb⟩⟩⟩⟩⟩⟩ <;> simp_all [ontoA])]
    have hB : ∀ k, G2.mem ⟨.B, k⟩ = (demo 12 16 1).mem ⟨.B, k⟩ := fun k => by
      rw [hm2 _ (fun _ => by simp [ontoA]), hm1 _ (fun b hb _ => by
        rcases hb with _ | ⟨_, _ | ⟨_, _ | ⟨_, _ | ⟨_, _ | ⟨_, _ | ⟨_, hb⟩⟩⟩⟩⟩⟩ <;> simp_all [ontoA])]
    have hZ : G2.mem ⟨.CpC 0, 6⟩ = 0 := hz 6
    simp only [Expr'.eval, hA, hB, hZ] at hv
    obtain ⟨-, q, hq, he⟩ := hP 6 0 (by decide) (by decide)
    have hq : q = [0] := perm_singleton.1 hq
    subst hq
    have he : G'.mem ⟨.A, 96⟩ = _ := he
    rw [hv] at he
    revert he
    decide +kernel

/-! ### Cases that meet the hypotheses -/

/-- Two calls with the same A and B, all else separate. -/
def sharedAB (i : Bool) (l : Loc) : Bool × Loc := (if l.buf = .A ∨ l.buf = .B then false else i, l)

theorem sharedAB_own (i : Bool) : Own (fun _ => False) (sharedAB i) := fun _ _ h => Or.inl (Prod.mk.inj h).2

theorem sharedAB_apart : Apart sharedAB := by
  intro i j l l' hij h
  obtain ⟨h1, rfl⟩ := Prod.mk.inj h
  by_cases h : l.buf = .A ∨ l.buf = .B
  · exact ⟨h, h⟩
  · simp only [if_neg h] at h1
    exact absurd h1 hij

/-- Memory for two calls that share A and B and each have an `M x N` C of their own. -/
def twice (s : State Int) : GState Bool (Bool × Loc) Int := ⟨fun _ => s.size, fun g => s.mem g.2, fun g => s.init g.2⟩

section
variable (r : Rounding 53) (rs : Rounding 24) (nf : Option ℝ → Option ℝ → Bool)

/-- Two K-first calls, one on the whole of A, the other on its first 500 rows, one with a context of its own, the other
with NULL; ragged. -/
example := C60_kfirst_partial r rs nf (exact Int) (· != 0) (mc := fun _ => haswellMachine)
  (cntx := fun i => if i then none else some (query_cntx (ieee r rs nf) haswellMachine))
  (m_r := fun _ => 6) (n_r := fun _ => 16) (L2 := fun _ => 262144) (L3 := fun _ => 20971520) (nc := fun _ => 4)
  (fun i => by cases i <;> exact haswellMachine_ok.query (ieee r rs nf))
  (a := fun i => { M := if i then 1003 else 500, N := 47, K := 77, p := 4, alpha := 1, beta := 0, sch := .KMN })
  (fun _ => ⟨rfl, rfl⟩) (fun _ => by simp) (fun i => by cases i <;> exact .auto (by decide) (by decide) (Or.inl rfl)) (fun _ => rfl)
  sharedAB_own sharedAB_apart (G := twice (demo 1003 47 77))
  (fun i => ⟨⟨⟨_, rfl, by cases i <;> decide⟩, fun _ _ => rfl⟩, ⟨⟨_, rfl, Nat.le_refl _⟩, fun _ _ => rfl⟩,
    ⟨_, rfl, by cases i <;> decide⟩, fun b h1 h2 h3 _ => by cases b <;> first | rfl | contradiction⟩)
  (fun _ _ => rfl) (fun i => i) (fun _ _ h => h)

/-- A default call of `cake_sgemm` and one of `cake_sgemm_online` on the same operands, both with NULL contexts. -/
theorem mixed_calls : ∃ c : Calls Bool Bool,
    (∀ i, LibCall (ieee r rs nf) (fun x : Int => x != 0) haswellMachine [] (c.prog i) (c.acc i)) ∧ c.CtxOK ∧
    ∀ i, Computes (exact Int) (some (c.prog i)) ((twice (padded 79 160 11 55 0 fun _ => 7)).view sharedAB i)
      fun s' => Correct (exact Int) true ((twice (padded 79 160 11 55 0 fun _ => 7)).view sharedAB i) s' 79 160 11 := by
  obtain ⟨p1, c1, e1, -, h1⟩ := C42_default_partial (exact Int) r rs nf (fun x : Int => x != 0) (cntx := none)
    (haswellMachine_ok.query (ieee r rs nf)) haswellMachine_ok.kfix_fits
    (a := { M := 79, N := 160, K := 11, p := 4, alpha := 1, beta := 0 }) ⟨rfl, rfl⟩ (by decide)
    (.auto (by decide) (by decide) (Or.inl rfl)) (by simp) (padded_ok 79 160 11 55 0 fun _ => 7) (Or.inl (by decide)) (fun _ => rfl)
  obtain ⟨p2, c2, e2, -, h2⟩ := C58_online_default_partial r rs nf (exact Int) (cntx := none)
    (haswellMachine_ok.query (ieee r rs nf)) (a := { M := 79, N := 160, K := 11, p := 4, alpha := 1, beta := 0 }) (by decide)
    (.auto (by decide) (by decide) (Or.inl rfl)) (padded_ok 79 160 11 55 0 fun _ => 7)
    (padded_slack _ (by decide) (by decide)) (fun _ => rfl)
  refine ⟨⟨fun i => if i then p1 else p2, id, fun i => ctxAccesses i false⟩, fun i => ?_,
    fun i j _ _ hij hc => absurd hc hij, fun i => ?_⟩
  · cases i
    · exact .online none _ _ _ e2
    · exact .sgemm none _ _ _ e1
  · cases i
    · exact h2
    · exact h1

example : ∃ c : Calls Bool Bool, ∃ G', CExec (exact Int) sharedAB c (twice (padded 79 160 11 55 0 fun _ => 7)) (.ok G') ∧
    ∀ i, CorrectAt (exact Int) sharedAB true (twice (padded 79 160 11 55 0 fun _ => 7)) G' i 79 160 11 := by
  obtain ⟨c, h1, h2, h3⟩ := mixed_calls r rs nf
  obtain ⟨⟨G', e⟩, h⟩ := C60_correct_partial (ieee r rs nf) (exact Int) _ [] (mc := fun _ => haswellMachine) sharedAB_own sharedAB_apart
    h1 h2 h3
  refine ⟨c, G', e, ?_⟩
  rcases h _ e with h | ⟨_, h, h', -⟩
  · cases h
  · cases h; exact h'

example : ∃ (c : Calls Bool Bool) (G : GState Bool (Bool × Loc) Int),
    (∃ G', CExec (exact Int) sharedAB c G (.ok G')) ∧ ¬ CExec (exact Int) sharedAB c G .ub := by
  obtain ⟨c, h1, h2, h3⟩ := mixed_calls r rs nf
  have : ∀ i, ∃ s', Exec (exact Int) (c.prog i) ((twice (padded 79 160 11 55 0 fun _ => 7)).view sharedAB i) (.ok s') := fun i => by
    obtain ⟨_, e, h, -⟩ := h3 i
    cases e; exact h
  choose s' h using this
  obtain ⟨G', h, -⟩ := C60_can_end_partial (ieee r rs nf) (exact Int) _ [] (mc := fun _ => haswellMachine) sharedAB_own
    sharedAB_apart h1 h
  refine ⟨c, _, ⟨G', h⟩, fun he => ?_⟩
  obtain ⟨i, hu⟩ := (C60_iff_partial (ieee r rs nf) (exact Int) _ [] (mc := fun _ => haswellMachine) sharedAB_own sharedAB_apart
    h1 h2).1.1 he
  obtain ⟨_, e, -, h⟩ := h3 i
  cases e
  rcases h _ hu with e | ⟨_, e, -⟩ <;> cases e

/-- Two equal K-first calls on one context. -/
example : ∃ c : Calls Bool Unit, CExec (exact Int) sharedAB c (twice (demo 1003 47 77)) .ub := by
  obtain ⟨p, cx', e, -⟩ := C42_kfirst (exact Int) r rs nf (fun x : Int => x != 0)
    (cntx := some (query_cntx (ieee r rs nf) haswellMachine)) (haswellMachine_ok.query (ieee r rs nf))
    (a := { M := 1003, N := 47, K := 77, p := 4, alpha := 1, beta := 0, sch := .KMN }) ⟨rfl, rfl⟩ (by decide)
    (.auto (by decide) (by decide) (Or.inl rfl)) rfl (demo_ok 1003 47 77) (by simp)
  exact ⟨⟨fun _ => p, fun _ => (), fun _ => ctxAccesses false false⟩, C60_shared_context_refuted (ieee r rs nf) (exact Int) _
    (i := false) (j := true) (by decide) rfl e e rfl rfl _⟩

/-- Two 2-D calls and one of `cake_sgemm` on one context. -/
example (prog : Fin 3 → Prog) := C60_context_shared_by_2d (κ := Unit)
  (c := ⟨prog, fun _ => (), ![ctxAccesses true false, ctxAccesses2d false, ctxAccesses2dSmall]⟩) (w := 0) ⟨true, false, rfl⟩
  (fun i hi => by
    match i, hi with
    | 1, _ => exact Or.inl rfl
    | 2, _ => exact Or.inr rfl)

/-- B at the address of A. -/
def squareA (l : Loc) : Loc := if l.buf = .B then ⟨.A, l.idx⟩ else l

theorem squareA_own : Own (fun _ => False) squareA := by
  rintro ⟨b, k⟩ ⟨b', k'⟩ h
  simp only [squareA] at h
  split at h <;> split at h <;> simp_all [Inp]

/-- Memory for one call. -/
def once (s : State Int) : GState Unit Loc Int := ⟨fun _ => s.size, s.mem, s.init⟩

/-- The square of a `96 x 96` matrix by a default call. -/
example : ∃ prog acc, ∃ G', CExec (exact Int) (fun _ => squareA) ⟨fun _ => prog, fun _ => (), fun _ => acc⟩ (once (demo 96 96 96))
    (.ok G') := by
  have hok : CallOK ((once (demo 96 96 96)).view (fun _ => squareA) ()) 96 96 96 :=
    ⟨⟨⟨_, rfl, by decide⟩, fun _ _ => rfl⟩, ⟨⟨_, rfl, by decide⟩, fun _ _ => rfl⟩,
      ⟨_, rfl, by decide⟩, fun b h1 h2 h3 _ => by cases b <;> first | rfl | contradiction⟩
  obtain ⟨p, cx', e, -, h⟩ := C42_default_partial (exact Int) r rs nf (fun x : Int => x != 0) (cntx := none)
    (haswellMachine_ok.query (ieee r rs nf)) haswellMachine_ok.kfix_fits
    (a := { M := 96, N := 96, K := 96, p := 4, alpha := 1, beta := 0 }) ⟨rfl, rfl⟩ (by decide)
    (.auto (by decide) (by decide) (Or.inl rfl)) (by simp) hok (Or.inl (by decide)) (fun _ => rfl)
  exact ⟨p, _, (C61_inputs_overlap_partial (exact Int) _ (ieee r rs nf) [] squareA_own (.sgemm none _ p cx' e) h).1⟩

/-- C begins five elements after A, and overlaps it. -/
def shifted (l : Loc) : Loc := if l.buf = .C then ⟨.A, l.idx + 5⟩ else l

theorem shifted_own : Own (fun b => b = .C) shifted := by
  rintro ⟨b, k⟩ ⟨b', k'⟩ h
  simp only [shifted] at h
  split at h <;> split at h <;> simp_all [Inp]

/-- Ragged, K-first, C overlapping A. -/
example := C61_in_place_kfirst_partial r rs nf (exact Int) (· != 0) (mc := haswellMachine) (cntx := none)
  (haswellMachine_ok.query (ieee r rs nf)) (a := { M := 103, N := 47, K := 77, p := 4, alpha := 1, beta := 0, sch := .KMN })
  ⟨rfl, rfl⟩ (by decide) (.auto (by decide) (by decide) (Or.inl rfl)) rfl shifted_own (G := once (demo 103 47 77))
  ⟨⟨⟨_, rfl, by decide⟩, fun _ _ => rfl⟩, ⟨⟨_, rfl, by decide⟩, fun _ _ => rfl⟩,
    ⟨_, rfl, by decide⟩, fun b h1 h2 h3 _ => by cases b <;> first | rfl | contradiction⟩ (fun _ => rfl) []

/-- A default call, C overlapping A. -/
example : ∃ prog, ∃ G', CExec (exact Int) (fun _ => shifted) ⟨fun _ => prog, fun _ => (), fun _ => []⟩ (once (demo 103 48 77))
    (.ok G') := by
  have hok : CallOK ((once (demo 103 48 77)).view (fun _ => shifted) ()) 103 48 77 :=
    ⟨⟨⟨_, rfl, by decide⟩, fun _ _ => rfl⟩, ⟨⟨_, rfl, by decide⟩, fun _ _ => rfl⟩,
      ⟨_, rfl, by decide⟩, fun b h1 h2 h3 _ => by cases b <;> first | rfl | contradiction⟩
  obtain ⟨p, cx', e, -, h⟩ := C42_default_partial (exact Int) r rs nf (fun x : Int => x != 0) (cntx := none)
    (haswellMachine_ok.query (ieee r rs nf)) haswellMachine_ok.kfix_fits
    (a := { M := 103, N := 48, K := 77, p := 4, alpha := 1, beta := 0 }) ⟨rfl, rfl⟩ (by decide)
    (.auto (by decide) (by decide) (Or.inl rfl)) (by simp) hok (Or.inl (by decide)) (fun _ => rfl)
  exact ⟨p, (C61_in_place_partial (exact Int) _ (ieee r rs nf) e ⟨rfl, rfl⟩ shifted_own (by simp [once, demo]) [] h).1⟩

end
end Cake
