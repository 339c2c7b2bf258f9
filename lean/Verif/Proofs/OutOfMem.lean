/-
Executions with refused memory, compared with those of `Exec`.
-/
import Verif.Model.OutOfMem
import Verif.CoreLemmas

namespace Cake
open List

section
variable {α : Type _} {F : Arith α}

/-- The operation accesses object `b`. -/
def Op.Touches (o : Op) (b : Buf) : Prop := o.dst.buf = b ∨ ∃ r ∈ o.reads, r.buf = b

/-- Some parallel loop of the program accesses object `b`. -/
def ProgTouches (p : Prog) (b : Buf) : Prop := ∃ ts, Item.par ts ∈ p ∧ ∃ t ∈ ts, ∃ o ∈ t, o.Touches b

/-! ### Failures that do not matter -/

/-- The states of an execution with refused memory (`s`) and of one without (`s'`): the same except for the objects in `D`;
those whose pointer is null do not exist in `s`. -/
structure FRel (D nul : Buf → Bool) (s s' : State α) : Prop where
  same : ∀ l : Loc, D l.buf = false → s.mem l = s'.mem l ∧ s.init l = s'.init l
  size : ∀ b, nul b = false → s.size b = s'.size b
  null : ∀ b, nul b = true → s.size b = none ∧ s'.size b ≠ none
  sub : ∀ b, nul b = true → D b = true

/-- Outcomes related like states. -/
inductive FOut (D nul : Buf → Bool) : Out α → Out α → Prop
  | ok (s s') : FRel D nul s s' → FOut D nul (.ok s) (.ok s')
  | exit : FOut D nul .exit .exit
  | ub : FOut D nul .ub .ub

variable {D nul : Buf → Bool} {s s' : State α}

theorem FRel.inB (h : FRel D nul s s') {l : Loc} (hl : D l.buf = false) : InB s.size l ↔ InB s'.size l := by
  have : s.size l.buf = s'.size l.buf := h.size _ (by
    cases e : nul l.buf with
    | false => rfl
    | true => rw [h.sub _ e] at hl; cases hl)
  rcases l with ⟨lb, i⟩
  unfold InB
  cases lb with
  | reg t => exact Iff.rfl
  | _ => dsimp only at this ⊢; rw [this]

theorem FRel.defined (h : FRel D nul s s') {o : Op} (ho : ∀ b, o.Touches b → D b = false) :
    o.Defined s.size s.init ↔ o.Defined s'.size s'.init := by
  unfold Op.Defined
  refine and_congr (h.inB (ho _ (.inl rfl))) (forall₂_congr fun r hr => ?_)
  have hd := ho r.buf (.inr ⟨r, hr, rfl⟩)
  rw [h.inB hd, (h.same r hd).2]

theorem FRel.runOps (h : FRel D nul s s') {os : List Op} (ho : ∀ o ∈ os, ∀ b, o.Touches b → D b = false) {out : Out α}
    (hr : RunOps F os s out) : ∃ out', RunOps F os s' out' ∧ FOut D nul out out' := by
  induction hr generalizing s' with
  | nil s => exact ⟨_, .nil _, .ok _ _ h⟩
  | undef o os s hu =>
    exact ⟨_, .undef o os _ (fun hd => hu ((h.defined (ho o mem_cons_self)).2 hd)), .ub⟩
  | step o os s out hd _ ih =>
    have h0 := ho o mem_cons_self
    obtain ⟨out', h1, h2⟩ := ih (s' := ⟨s'.size, o.step F s'.mem, fun l => decide (l = o.dst) || s'.init l⟩)
      ⟨fun l hl => ⟨by
          show o.step F s.mem l = o.step F s'.mem l
          unfold Op.step
          rw [o.val_congr F (m' := s'.mem) fun r hr => (h.same r (h0 _ (.inr ⟨r, hr, rfl⟩))).1, (h.same l hl).1], by
          show (_ || _) = (_ || _)
          rw [(h.same l hl).2]⟩, h.size, h.null, h.sub⟩
      fun o' ho' => ho o' (mem_cons_of_mem _ ho')
    exact ⟨out', .step o os _ out' ((h.defined h0).1 hd) h1, h2⟩

/-- One item, executed normally. -/
theorem FRel.item (h : FRel D nul s s') {i : Item} (hf : ∀ b, i = .free b → nul b = false)
    (ha : ∀ b, i.alloc = some b → nul b = false)
    (ho : ∀ ts, i = .par ts → ∀ t ∈ ts, ∀ o ∈ t, ∀ b, o.Touches b → D b = false) {out : Out α}
    (hr : ItemExec F i s out) : ∃ out', ItemExec F i s' out' ∧ FOut D nul out out' := by
  have alloc : ∀ (b : Buf) (n : Nat) (m' : Mem α) (ini : Loc → Bool), nul b = false →
      (∀ l, l.buf ≠ b → m' l = s.mem l) → (∀ l, l.buf ≠ b → ini l = s.init l) →
      FRel D nul ⟨fun b' => if b' = b then some n else s.size b', m', ini⟩
        ⟨fun b' => if b' = b then some n else s'.size b', fun l => if l.buf = b then m' l else s'.mem l,
          fun l => if l.buf = b then ini l else s'.init l⟩ := by
    intro b n m' ini hb hm hi
    refine ⟨fun l hl => ?_, fun b' hb' => ?_, fun b' hb' => ?_, h.sub⟩
    · dsimp only
      split
      · exact ⟨rfl, rfl⟩
      · rename_i hne
        rw [hm l hne, hi l hne]; exact h.same l hl
    · dsimp only
      split
      · rfl
      · exact h.size b' hb'
    · have : b' ≠ b := by rintro rfl; rw [hb] at hb'; cases hb'
      dsimp only
      rw [if_neg this, if_neg this]; exact h.null b' hb'
  have none_of : ∀ b, nul b = false → s.size b = none → s'.size b = none := fun b hb e => by rw [← h.size b hb]; exact e
  cases hr with
  | memalign b n s m' h1 h2 =>
    have hb := ha b rfl
    refine ⟨_, .memalign b n s' (fun l => if l.buf = b then m' l else s'.mem l) (none_of b hb h1)
      (fun l hl => if_neg hl), .ok _ _ ?_⟩
    have := alloc b n m' (fun l => if l.buf = b then false else s.init l) hb h2 (fun l hl => if_neg hl)
    refine ⟨fun l hl => ⟨(this.same l hl).1, ?_⟩, this.size, this.null, this.sub⟩
    have := (this.same l hl).2
    dsimp only at this ⊢
    split <;> rename_i hne <;> simp only [hne, if_true, if_false] at this ⊢
    exact this
  | memalignFail b n s => exact ⟨_, .memalignFail b n s', .exit⟩
  | memalignUb b n s h1 => exact ⟨_, .memalignUb b n s' (by rw [← h.size b (ha b rfl)]; exact h1), .ub⟩
  | malloc b n s m' h1 h2 =>
    have hb := ha b rfl
    refine ⟨_, .malloc b n s' (fun l => if l.buf = b then m' l else s'.mem l) (none_of b hb h1)
      (fun l hl => if_neg hl), .ok _ _ ?_⟩
    have := alloc b n m' (fun l => if l.buf = b then false else s.init l) hb h2 (fun l hl => if_neg hl)
    refine ⟨fun l hl => ⟨(this.same l hl).1, ?_⟩, this.size, this.null, this.sub⟩
    have := (this.same l hl).2
    dsimp only at this ⊢
    split <;> rename_i hne <;> simp only [hne, if_true, if_false] at this ⊢
    exact this
  | mallocUb b n s h1 => exact ⟨_, .mallocUb b n s' (by rw [← h.size b (ha b rfl)]; exact h1), .ub⟩
  | calloc b n s h1 =>
    have hb := ha b rfl
    refine ⟨_, .calloc b n s' (none_of b hb h1), .ok _ _ ?_⟩
    have := alloc b n (fun l => if l.buf = b then F.zero else s.mem l) (fun l => if l.buf = b then true else s.init l) hb
      (fun l hl => if_neg hl) (fun l hl => if_neg hl)
    refine ⟨fun l hl => ?_, this.size, this.null, this.sub⟩
    have := this.same l hl
    dsimp only at this ⊢
    by_cases hne : l.buf = b
    · simp only [hne, if_true, and_self]
    · simp only [hne, if_false] at this ⊢
      exact this
  | callocUb b n s h1 => exact ⟨_, .callocUb b n s' (by rw [← h.size b (ha b rfl)]; exact h1), .ub⟩
  | free b s h1 =>
    have hb := hf b rfl
    refine ⟨_, .free b s' (by rw [← h.size b hb]; exact h1), .ok _ _ ⟨h.same, fun b' hb' => ?_, fun b' hb' => ?_, h.sub⟩⟩
    · dsimp only
      split
      · rfl
      · exact h.size b' hb'
    · have : b' ≠ b := by rintro rfl; rw [hb] at hb'; cases hb'
      dsimp only
      rw [if_neg this, if_neg this]; exact h.null b' hb'
  | freeUb b s h1 => exact ⟨_, .freeUb b s' (by rw [← h.size b (hf b rfl)]; exact h1), .ub⟩
  | race ts s h1 => exact ⟨_, .race ts s' h1, .ub⟩
  | par ts l s out hi hr =>
    obtain ⟨out', h1, h2⟩ := h.runOps (F := F) (fun o hol => by
      obtain ⟨t, ht, hot⟩ := mem_flatten.1 (hi.perm.mem_iff.1 hol)
      exact ho ts rfl t ht o hot) hr
    exact ⟨out', .par ts l s' out' hi h1, h2⟩

/-- An execution with refused memory in which no struct fails and no object that fails is accessed corresponds to one
without refusals (or the program has undefined behaviour anyway). -/
theorem FExec.sim {prog : Prog} {fl : List Buf} {out : Out α} (he : FExec F prog nul s fl out) (h : FRel D nul s s')
    (hD : ∀ b ∈ fl, D b = true) (hst : ∀ b ∈ fl, b.isStruct = false)
    (ho : ∀ b, D b = true → ¬ ProgTouches prog b) :
    Exec F prog s' .ub ∨ ∃ out' nul', Exec F prog s' out' ∧ FOut D nul' out out' := by
  induction he generalizing s' with
  | nil nul s => exact .inr ⟨_, nul, .nil _, .ok _ _ h⟩
  | next i is nul s s1 fl out hf hi _ ih =>
    have ho' : ∀ b, D b = true → ¬ ProgTouches is b := fun b hb ⟨ts, hts, r⟩ => ho b hb ⟨ts, mem_cons_of_mem _ hts, r⟩
    by_cases ha : ∀ b, i.alloc = some b → nul b = false
    · obtain ⟨out', h1, h2⟩ := h.item (F := F) hf ha (fun ts e t ht o hot b hb => by
        cases hd : D b with
        | false => rfl
        | true => exact absurd ⟨ts, by rw [e]; exact mem_cons_self, t, ht, o, hot, hb⟩ (ho b hd)) hi
      cases h2 with
      | ok _ s1' hrel =>
        have hrel' : FRel D (fun b => nul b && i.alloc != some b) s1 s1' := by
          have : (fun b => nul b && i.alloc != some b) = nul := by
            funext b
            cases e : nul b with
            | false => rfl
            | true =>
              by_cases hb : i.alloc = some b
              · rw [ha b hb] at e; cases e
              · simp [hb]
          rw [this]; exact hrel
        rcases ih hrel' hD hst ho' with h3 | ⟨out'', nul', h3, h4⟩
        · exact .inl (.next _ _ _ _ _ h1 h3)
        · exact .inr ⟨out'', nul', .next _ _ _ _ _ h1 h3, h4⟩
    · obtain ⟨b, hb⟩ := Classical.not_forall.1 ha
      obtain ⟨hb1, hb2⟩ := Classical.not_imp.1 hb
      have hn := (h.null b (by simpa using hb2)).2
      refine .inl (.ub _ _ _ ?_)
      cases i with
      | memalign _ n => cases hb1; exact .memalignUb _ _ _ hn
      | malloc _ n => cases hb1; exact .mallocUb _ _ _ hn
      | calloc _ n => cases hb1; exact .callocUb _ _ _ hn
      | free _ => cases hb1
      | par _ => cases hb1
  | exit i is nul s hi =>
    cases hi with
    | memalignFail b n s => exact .inr ⟨_, nul, .exit _ _ _ (.memalignFail b n s'), .exit⟩
    | par ts l s _ _ hr =>
      have : ∀ {os : List Op} {s : State α} {out : Out α}, RunOps F os s out → out ≠ .exit := by
        intro os s out h
        induction h with
        | nil => simp
        | undef => simp
        | step _ _ _ _ _ _ ih => exact ih
      exact absurd rfl (this hr)
  | ub i is nul s hf hi =>
    by_cases ha : ∀ b, i.alloc = some b → nul b = false
    · obtain ⟨out', h1, h2⟩ := h.item (F := F) hf ha (fun ts e t ht o hot b hb => by
        cases hd : D b with
        | false => rfl
        | true => exact absurd ⟨ts, by rw [e]; exact mem_cons_self, t, ht, o, hot, hb⟩ (ho b hd)) hi
      cases h2
      exact .inl (.ub _ _ _ h1)
    · obtain ⟨b, hb⟩ := Classical.not_forall.1 ha
      obtain ⟨hb1, hb2⟩ := Classical.not_imp.1 hb
      have hn := (h.null b (by simpa using hb2)).2
      refine .inl (.ub _ _ _ ?_)
      cases i with
      | memalign _ n => cases hb1; exact .memalignUb _ _ _ hn
      | malloc _ n => cases hb1; exact .mallocUb _ _ _ hn
      | calloc _ n => cases hb1; exact .callocUb _ _ _ hn
      | free _ => cases hb1
      | par _ => cases hb1
  | failStruct i b is nul s _ hb => rw [hst b (by simp)] at hb; cases hb
  | fail i b is nul s fl out hu hb hn _ ih =>
    have ho' : ∀ b, D b = true → ¬ ProgTouches is b := fun b hb ⟨ts, hts, r⟩ => ho b hb ⟨ts, mem_cons_of_mem _ hts, r⟩
    have hDb := hD b mem_cons_self
    have cont : ∀ s1' : State α, ItemExec F i s' (.ok s1') → FRel D (fun b' => nul b' || b' == b) s s1' →
        Exec F (i :: is) s' .ub ∨ ∃ out' nul', Exec F (i :: is) s' out' ∧ FOut D nul' out out' := by
      intro s1' h1 hrel
      rcases ih hrel (fun b hb => hD b (mem_cons_of_mem _ hb)) (fun b hb => hst b (mem_cons_of_mem _ hb)) ho' with
        h3 | ⟨out'', nul', h3, h4⟩
      · exact .inl (.next _ _ _ _ _ h1 h3)
      · exact .inr ⟨out'', nul', .next _ _ _ _ _ h1 h3, h4⟩
    have rel : ∀ (n : Nat) (m' : Mem α) (ini : Loc → Bool), (∀ l, l.buf ≠ b → m' l = s'.mem l) →
        (∀ l, l.buf ≠ b → ini l = s'.init l) →
        FRel D (fun b' => nul b' || b' == b) s ⟨fun b' => if b' = b then some n else s'.size b', m', ini⟩ := by
      intro n m' ini hm hi
      refine ⟨fun l hl => ?_, fun b' hb' => ?_, fun b' hb' => ?_, fun b' hb' => ?_⟩
      · have hne : l.buf ≠ b := by intro e; rw [e, hDb] at hl; cases hl
        dsimp only
        rw [hm l hne, hi l hne]; exact h.same l hl
      · simp only [Bool.or_eq_false_iff, beq_eq_false_iff_ne] at hb'
        dsimp only
        rw [if_neg hb'.2]; exact h.size b' hb'.1
      · by_cases e : b' = b
        · subst e; exact ⟨hn, by simp⟩
        · dsimp only
          rw [if_neg e]
          exact h.null b' (by simpa [e] using hb')
      · by_cases e : b' = b
        · subst e; exact hDb
        · exact h.sub b' (by simpa [e] using hb')
    by_cases hs' : s'.size b = none
    · cases i with
      | malloc b' n =>
        cases hu
        exact cont _ (.malloc b n s' s'.mem hs' fun _ _ => rfl) (rel n _ _ (fun _ _ => rfl) fun l hl => if_neg hl)
      | calloc b' n =>
        cases hu
        exact cont _ (.calloc b n s' hs') (rel n _ _ (fun l hl => if_neg hl) fun l hl => if_neg hl)
      | memalign _ _ => cases hu
      | free _ => cases hu
      | par _ => cases hu
    · refine .inl (.ub _ _ _ ?_)
      cases i with
      | malloc b' n => cases hu; exact .mallocUb _ _ _ hs'
      | calloc b' n => cases hu; exact .callocUb _ _ _ hs'
      | memalign _ _ => cases hu
      | free _ => cases hu
      | par _ => cases hu
  | freeNull b is nul s fl out hb _ ih =>
    have ho' : ∀ b, D b = true → ¬ ProgTouches is b := fun b hb ⟨ts, hts, r⟩ => ho b hb ⟨ts, mem_cons_of_mem _ hts, r⟩
    have hn := h.null b hb
    have hi : ItemExec F (.free b) s' (.ok _) := .free b s' hn.2
    have hrel : FRel D (fun b' => nul b' && b' != b) s { s' with size := fun b' => if b' = b then none else s'.size b' } := by
      refine ⟨h.same, fun b' hb' => ?_, fun b' hb' => ?_, fun b' hb' => h.sub b' (by simp at hb'; exact hb'.1)⟩
      · by_cases e : b' = b
        · subst e; simp only [if_true]; exact hn.1
        · simp only [e, if_false]
          exact h.size b' (by simpa [e] using hb')
      · simp only [Bool.and_eq_true, bne_iff_ne] at hb'
        simp only [hb'.2, if_false]
        exact h.null b' hb'.1
    rcases ih hrel hD hst ho' with h3 | ⟨out'', nul', h3, h4⟩
    · exact .inl (.next _ _ _ _ _ hi h3)
    · exact .inr ⟨out'', nul', .next _ _ _ _ _ hi h3, h4⟩

/-! ### Failures that matter -/

theorem runOps_null {os : List Op} {out : Out α} (hr : RunOps F os s out) {o : Op} (ho : o ∈ os) {b : Buf} (hb : o.Touches b)
    (hreg : ∀ t, b ≠ .reg t) (hn : s.size b = none) : out = .ub := by
  have notIn : ∀ (sz : Buf → Option Nat) (l : Loc), l.buf = b → sz b = none → ¬ InB sz l := by
    intro sz l e hs
    rcases l with ⟨lb, i⟩
    subst e
    unfold InB
    cases lb with
    | reg t => exact absurd rfl (hreg t)
    | _ => dsimp only at hs ⊢; rw [hs]; simp
  induction hr with
  | nil => cases ho
  | undef => rfl
  | step o' os s out hd _ ih =>
    rcases mem_cons.1 ho with rfl | ho'
    · rcases hb with hb | ⟨r, hr, hb⟩
      · exact absurd hd.1 (notIn _ _ hb hn)
      · exact absurd (hd.2 r hr).1 (notIn _ _ hb hn)
    · exact ih ho' hn

/-- The phases of a program access the object of a null pointer. -/
theorem FExec.null_ub {ph : List (List (List Op))} {rest : Prog} {fl : List Buf} {out : Out α}
    (he : FExec F (ph.map Item.par ++ rest) nul s fl out) {b : Buf} (hn : s.size b = none) (hreg : ∀ t, b ≠ .reg t)
    (ht : ProgTouches (ph.map Item.par) b) : out = .ub := by
  induction ph generalizing s nul fl with
  | nil => obtain ⟨_, h, _⟩ := ht; cases h
  | cons ts ph ih =>
    cases he with
    | next _ _ _ _ s1 _ _ _ hi he =>
      cases hi with
      | par _ l _ _ hil hr =>
        by_cases hts : ∃ t ∈ ts, ∃ o ∈ t, o.Touches b
        · obtain ⟨t, h1, o, h2, h3⟩ := hts
          have := runOps_null hr (hil.perm.mem_iff.2 (mem_flatten.2 ⟨t, h1, h2⟩)) h3 hreg hn
          cases this
        · have hs1 : s1.size = s.size := by
            have : ∀ {os : List Op} {s s1 : State α} {o : Out α}, RunOps F os s o → o = .ok s1 → s1.size = s.size := by
              intro os s s1 o h
              induction h with
              | nil => intro e; cases e; rfl
              | undef => intro e; cases e
              | step _ _ _ _ _ _ ih => intro e; exact ih e
            exact this hr rfl
          refine ih he (by rw [hs1]; exact hn) ?_
          obtain ⟨ts', h1, h2⟩ := ht
          rcases mem_cons.1 h1 with e | h1
          · cases e; exact absurd h2 hts
          · exact ⟨ts', h1, h2⟩
    | exit _ _ _ _ hi =>
      cases hi with
      | par _ l _ _ hil hr =>
        have : ∀ {os : List Op} {s : State α} {out : Out α}, RunOps F os s out → out ≠ .exit := by
          intro os s out h
          induction h with
          | nil => simp
          | undef => simp
          | step _ _ _ _ _ _ ih => exact ih
        exact absurd rfl (this hr)
    | ub => rfl
    | failStruct _ _ _ _ _ hu _ => cases hu
    | fail _ _ _ _ _ _ _ hu _ _ _ => cases hu

/-- How the entry points are built: structs and checked allocations, then the unchecked allocations of floats, then only
parallel loops, then only `free`. -/
structure Shape (prog pre : Prog) (cs : List (Buf × Nat)) (ph : List (List (List Op))) (post : Prog) : Prop where
  eq : prog = pre ++ (cs.map (fun c => Item.calloc c.1 c.2) ++ (ph.map Item.par ++ post))
  pre_ok : ∀ i ∈ pre, ∀ b, i.unchecked = some b → b.isStruct = true
  cs_ok : ∀ c ∈ cs, c.1.isStruct = false ∧ ∀ t, c.1 ≠ .reg t
  nodup : (cs.map Prod.fst).Nodup
  post_ok : ∀ i ∈ post, ∃ b, i = .free b

theorem FExec.pre {pre rest : Prog} {fl : List Buf} {out : Out α} (he : FExec F (pre ++ rest) noNull s fl out)
    (hp : ∀ i ∈ pre, ∀ b, i.unchecked = some b → b.isStruct = true) :
    (fl = [] ∧ (out = .exit ∨ out = .ub)) ∨ (∃ b, fl = [b] ∧ b.isStruct = true ∧ out = .ub) ∨
      ∃ s1, FExec F rest noNull s1 fl out := by
  induction pre generalizing s fl with
  | nil => exact .inr (.inr ⟨s, he⟩)
  | cons i pre ih =>
    cases he with
    | next _ _ _ _ s1 _ _ _ hi he => exact ih he fun i hi => hp i (mem_cons_of_mem _ hi)
    | exit _ _ _ _ hi => exact .inl ⟨rfl, .inl rfl⟩
    | ub _ _ _ _ _ hi => exact .inl ⟨rfl, .inr rfl⟩
    | failStruct _ b _ _ _ hu hb => exact .inr (.inl ⟨b, rfl, hb, rfl⟩)
    | fail _ b _ _ _ _ _ hu hb _ _ => rw [hp i mem_cons_self b hu] at hb; cases hb
    | freeNull _ _ _ _ _ _ hb _ => cases hb

/-- Only frees and loops: nothing fails. -/
theorem FExec.tail {prog : Prog} {fl : List Buf} {out : Out α} (he : FExec F prog nul s fl out)
    (hp : ∀ i ∈ prog, i.unchecked = none) : fl = [] := by
  induction he with
  | nil => rfl
  | next i is _ _ _ _ _ _ _ _ ih => exact ih fun i hi => hp i (mem_cons_of_mem _ hi)
  | exit => rfl
  | ub => rfl
  | failStruct i b _ _ _ hu _ => rw [hp i mem_cons_self] at hu; cases hu
  | fail i b _ _ _ _ _ hu _ _ _ _ => rw [hp i mem_cons_self] at hu; cases hu
  | freeNull b is _ _ _ _ _ _ ih => exact ih fun i hi => hp i (mem_cons_of_mem _ hi)

theorem FExec.callocs {cs : List (Buf × Nat)} {rest : Prog} {fl : List Buf} {out : Out α}
    (he : FExec F (cs.map (fun c => Item.calloc c.1 c.2) ++ rest) nul s fl out)
    (hcs : ∀ c ∈ cs, c.1.isStruct = false) (hnd : (cs.map Prod.fst).Nodup) (hr : ∀ i ∈ rest, i.unchecked = none)
    (hn : ∀ b, nul b = true → s.size b = none) (hnc : ∀ c ∈ cs, nul c.1 = false) :
    out = .ub ∧ fl ⊆ cs.map Prod.fst ∨ ∃ s1 nul', FExec F rest nul' s1 [] out ∧ fl ⊆ cs.map Prod.fst ∧ ∀ b, (b ∈ fl ∨ nul b = true) → s1.size b = none := by
  induction cs generalizing s fl nul with
  | nil =>
    have := FExec.tail he hr
    subst this
    exact .inr ⟨s, nul, he, by simp, fun b hb => hn b (hb.resolve_left (by simp))⟩
  | cons c cs ih =>
    rw [map_cons, nodup_cons] at hnd
    have hcs' : ∀ c ∈ cs, c.1.isStruct = false := fun c hc => hcs c (mem_cons_of_mem _ hc)
    have lift : ∀ {fl : List Buf}, fl ⊆ cs.map Prod.fst → fl ⊆ (c :: cs).map Prod.fst := fun h b hb => mem_cons_of_mem _ (h hb)
    cases he with
    | next _ _ _ _ s1 _ _ _ hi he =>
      cases hi with
      | calloc _ _ _ h1 =>
        have hc0 := hnc c mem_cons_self
        have e : (fun b => nul b && (Item.calloc c.1 c.2).alloc != some b) = nul := by
          funext b
          cases e : nul b with
          | false => rfl
          | true =>
            have : c.1 ≠ b := by rintro rfl; rw [hc0] at e; cases e
            simp [Item.alloc, this]
        rw [e] at he
        rcases ih he hcs' hnd.2 (fun b hb => by
          have : b ≠ c.1 := by rintro rfl; rw [hc0] at hb; cases hb
          simp only [this, if_false]; exact hn b hb) (fun c hc => hnc c (mem_cons_of_mem _ hc)) with ⟨h, h'⟩ | ⟨s2, nul', h1, h2, h3⟩
        · exact .inl ⟨h, lift h'⟩
        · exact .inr ⟨s2, nul', h1, lift h2, h3⟩
    | exit _ _ _ _ hi => cases hi
    | ub => exact .inl ⟨rfl, by simp⟩
    | failStruct _ b _ _ _ hu hb => cases hu; rw [hcs c mem_cons_self] at hb; cases hb
    | fail _ b _ _ _ fl' _ hu hb hsz he =>
      cases hu
      rcases ih he hcs' hnd.2 (fun b hb => by
        by_cases e : b = c.1
        · subst e; exact hsz
        · exact hn b (by simpa [e] using hb)) (fun c' hc' => by
          have : c'.1 ≠ c.1 := fun e => hnd.1 (by rw [← e]; exact mem_map_of_mem hc')
          simp only [hnc c' (mem_cons_of_mem _ hc'), Bool.false_or, beq_eq_false_iff_ne]; exact this) with
        ⟨h, h'⟩ | ⟨s2, nul', h1, h2, h3⟩
      · exact .inl ⟨h, by
          intro b hb
          rcases mem_cons.1 hb with rfl | hb
          · simp
          · exact lift h' hb⟩
      · refine .inr ⟨s2, nul', h1, ?_, fun b hb => ?_⟩
        · intro b hb
          rcases mem_cons.1 hb with rfl | hb
          · simp
          · exact lift h2 hb
        · by_cases e : b = c.1
          · subst e; exact h3 _ (.inr (by simp))
          · rcases hb with hb | hb
            · rcases mem_cons.1 hb with rfl | hb
              · exact absurd rfl e
              · exact h3 b (.inl hb)
            · exact h3 b (.inr (by simp [hb]))

/-- The failures of an execution. -/
theorem Shape.fails {prog pre : Prog} {cs : List (Buf × Nat)} {ph : List (List (List Op))} {post : Prog}
    (hS : Shape prog pre cs ph post) {fl : List Buf} {out : Out α} (he : FExec F prog noNull s fl out) :
    ∀ b ∈ fl, b.isStruct = true ∨ b ∈ cs.map Prod.fst := by
  rw [hS.eq] at he
  rcases he.pre hS.pre_ok with ⟨rfl, _⟩ | ⟨b, rfl, hb, _⟩ | ⟨s1, he⟩
  · simp
  · intro b' hb'; rw [mem_singleton.1 hb']; exact .inl hb
  · have hr : ∀ i ∈ ph.map Item.par ++ post, i.unchecked = none := by
      intro i hi
      rcases mem_append.1 hi with hi | hi
      · obtain ⟨ts, -, rfl⟩ := mem_map.1 hi; rfl
      · obtain ⟨b, rfl⟩ := hS.post_ok i hi; rfl
    rcases he.callocs (fun c hc => (hS.cs_ok c hc).1) hS.nodup hr (fun b hb => by cases hb) (fun _ _ => rfl) with
      ⟨_, h⟩ | ⟨_, _, _, h, _⟩
    · exact fun b hb => .inr (h hb)
    · exact fun b hb => .inr (h hb)

/-- Failures of objects that are needed. -/
theorem Shape.needed {prog pre : Prog} {cs : List (Buf × Nat)} {ph : List (List (List Op))} {post : Prog}
    (hS : Shape prog pre cs ph post) {fl : List Buf} {out : Out α} (he : FExec F prog noNull s fl out) {b : Buf}
    (hb : b ∈ fl) (hn : b.isStruct = true ∨ ProgTouches (ph.map Item.par) b) : out = .ub := by
  have hfl := hS.fails he b hb
  rw [hS.eq] at he
  rcases he.pre hS.pre_ok with ⟨rfl, _⟩ | ⟨b', _, _, e⟩ | ⟨s1, he⟩
  · cases hb
  · exact e
  · have hr : ∀ i ∈ ph.map Item.par ++ post, i.unchecked = none := by
      intro i hi
      rcases mem_append.1 hi with hi | hi
      · obtain ⟨ts, -, rfl⟩ := mem_map.1 hi; rfl
      · obtain ⟨b, rfl⟩ := hS.post_ok i hi; rfl
    rcases he.callocs (fun c hc => (hS.cs_ok c hc).1) hS.nodup hr (fun b hb => by cases hb) (fun _ _ => rfl) with
      ⟨h, _⟩ | ⟨s2, nul', h1, h2, h3⟩
    · exact h
    · obtain ⟨c, hc, rfl⟩ := mem_map.1 (h2 hb)
      have hcs := hS.cs_ok c hc
      exact h1.null_ub (h3 _ (.inl hb)) hcs.2 (hn.resolve_left (by rw [hcs.1]; simp))

/-- Only the phases access objects of the unchecked allocations. -/
theorem Shape.touches {prog pre : Prog} {cs : List (Buf × Nat)} {ph : List (List (List Op))} {post : Prog}
    (hS : Shape prog pre cs ph post) {b : Buf} (h : ProgTouches prog b) : ProgTouches pre b ∨ ProgTouches (ph.map Item.par) b := by
  rw [hS.eq] at h
  obtain ⟨ts, h1, h2⟩ := h
  rcases mem_append.1 h1 with h1 | h1
  · exact .inl ⟨ts, h1, h2⟩
  · rcases mem_append.1 h1 with h1 | h1
    · obtain ⟨c, -, e⟩ := mem_map.1 h1; cases e
    · rcases mem_append.1 h1 with h1 | h1
      · exact .inr ⟨ts, h1, h2⟩
      · obtain ⟨b, e⟩ := hS.post_ok _ h1; cases e

/-- Without failures the two semantics agree. -/
theorem FExec.of_exec {prog : Prog} {out : Out α} (he : Exec F prog s out) : FExec F prog noNull s [] out := by
  induction he with
  | nil s => exact .nil _ s
  | next i is s s' out hi _ ih => exact .next _ _ _ _ _ _ _ (fun _ _ => rfl) hi ih
  | exit i is s hi => exact .exit _ _ _ _ hi
  | ub i is s hi => exact .ub _ _ _ _ (fun _ _ => rfl) hi

theorem FExec.to_exec {prog : Prog} {out : Out α} (he : FExec F prog noNull s [] out) : Exec F prog s out := by
  generalize hf : ([] : List Buf) = fl at he
  generalize hn : noNull = nul at he
  induction he with
  | nil nul s => exact .nil s
  | next i is nul s s' fl out _ hi _ ih =>
    refine .next _ _ _ _ _ hi (ih hf ?_)
    subst hn
    rfl
  | exit i is nul s hi => exact .exit _ _ _ hi
  | ub i is nul s _ hi => exact .ub _ _ _ hi
  | failStruct => cases hf
  | fail => cases hf
  | freeNull b is nul s fl out hb => subst hn; cases hb

/-- The states agree on everything that exists at the call. -/
def Closed (Q : State α → Prop) (s : State α) : Prop :=
  ∀ s1 s2 : State α, Q s2 → s1.size = s2.size →
    (∀ l : Loc, s.size l.buf ≠ none → s1.mem l = s2.mem l ∧ s1.init l = s2.init l) → Q s1

/-- Exactly what refused memory does to a call that is otherwise correct. -/
theorem Shape.exact {prog pre : Prog} {cs : List (Buf × Nat)} {ph : List (List (List Op))} {post : Prog}
    (hS : Shape prog pre cs ph post) {Q : State α → Prop} (hc : ∀ out, Exec F prog s out → out = .exit ∨ ∃ s', out = .ok s' ∧ Q s') (hQ : Closed Q s)
    (hpre : ∀ c ∈ cs, ¬ ProgTouches pre c.1) (hfresh : ∀ c ∈ cs, s.size c.1 = none)
    (hend : ∀ s', Q s' → ∀ c ∈ cs, s'.size c.1 = none)
    {fl : List Buf} {out : Out α} (he : FExec F prog noNull s fl out) :
    (out = .ub ↔ ∃ b ∈ fl, b.isStruct = true ∨ ProgTouches (ph.map Item.par) b) ∧
    (out ≠ .ub → out = .exit ∨ ∃ s', out = .ok s' ∧ Q s') := by
  by_cases hb : ∃ b ∈ fl, b.isStruct = true ∨ ProgTouches (ph.map Item.par) b
  · obtain ⟨b, hb1, hb2⟩ := hb
    have := hS.needed he hb1 hb2
    exact ⟨⟨fun _ => ⟨b, hb1, hb2⟩, fun _ => this⟩, fun h => absurd this h⟩
  · have hst : ∀ b ∈ fl, b.isStruct = false := fun b h => by
      cases e : b.isStruct with
      | false => rfl
      | true => exact absurd ⟨b, h, .inl e⟩ hb
    have hcs : ∀ b ∈ fl, b ∈ cs.map Prod.fst := fun b h => (hS.fails he b h).resolve_left (by rw [hst b h]; simp)
    have hrel : FRel (fun b => decide (b ∈ fl)) noNull s s :=
      ⟨fun _ _ => ⟨rfl, rfl⟩, fun _ _ => rfl, fun b h => by exact absurd h (by simp [noNull]), fun b h => by
        exact absurd h (by simp [noNull])⟩
    have hsim := he.sim hrel (fun b h => by simpa using h) hst (fun b h ht => by
      have h : b ∈ fl := by simpa using h
      obtain ⟨c, hcm, rfl⟩ := mem_map.1 (hcs b h)
      rcases hS.touches ht with ht | ht
      · exact hpre c hcm ht
      · exact hb ⟨_, h, .inr ht⟩)
    have main : out = .exit ∨ ∃ s', out = .ok s' ∧ Q s' := by
      rcases hsim with h | ⟨out', nul', h1, h2⟩
      · rcases hc _ h with e | ⟨_, e, _⟩ <;> cases e
      · rcases hc _ h1 with e | ⟨s', e, hq⟩
        · subst e; cases h2; exact .inl rfl
        · subst e
          cases h2 with
          | ok s1 _ hr =>
            have hn : ∀ b, nul' b = false := fun b => by
              cases e : nul' b with
              | false => rfl
              | true =>
                have h1 := (hr.null b e).2
                obtain ⟨c, hcm, rfl⟩ := mem_map.1 (hcs b (by simpa using hr.sub b e))
                exact absurd (hend _ hq c hcm) h1
            refine .inr ⟨s1, rfl, hQ s1 s' hq (funext fun b => hr.size b (hn b)) fun l hl => hr.same l ?_⟩
            simp only [decide_eq_false_iff_not]
            intro hm
            obtain ⟨c, hcm, e⟩ := mem_map.1 (hcs _ hm)
            exact hl (by rw [← e]; exact hfresh c hcm)
    refine ⟨⟨fun e => ?_, fun e => absurd e hb⟩, fun _ => main⟩
    rcases main with h | ⟨_, h, _⟩ <;> rw [e] at h <;> cases h

/-- For every choice of the unchecked allocations that fail there is an execution. -/
theorem FExec.exists (T : Buf → Bool) (prog : Prog) (nul : Buf → Bool) (s : State α) :
    ∃ fl out, FExec F prog nul s fl out ∧ out ≠ .exit ∧ (∀ b ∈ fl, T b = true) ∧
      (out = .ub ∨ ∀ i ∈ prog, ∀ b, i.unchecked = some b → T b = true → b ∈ fl) := by
  induction prog generalizing nul s with
  | nil => exact ⟨[], _, .nil _ s, by simp, by simp, .inr (by simp)⟩
  | cons i is ih =>
    have hi : ∀ b, i.unchecked = some b → T b = true → (s.size b = none ∨ b.isStruct = true) →
        ∃ fl out, FExec F (i :: is) nul s fl out ∧ out ≠ .exit ∧ (∀ b ∈ fl, T b = true) ∧
          (out = .ub ∨ ∀ i' ∈ i :: is, ∀ b, i'.unchecked = some b → T b = true → b ∈ fl) := by
      intro b hu hT hs
      cases e : b.isStruct with
      | true => exact ⟨[b], .ub, .failStruct i b is nul s hu e, by simp, by simpa using hT, .inl rfl⟩
      | false =>
        obtain ⟨fl, out, h1, h2, h3, h4⟩ := ih (fun b' => nul b' || b' == b) s
        refine ⟨b :: fl, out, .fail i b is nul s fl out hu e (hs.resolve_right (by rw [e]; simp)) h1, h2, ?_, ?_⟩
        · intro b' hb'
          rcases mem_cons.1 hb' with rfl | hb'
          · exact hT
          · exact h3 b' hb'
        · refine h4.imp id fun h i' hi' b' hu' hT' => ?_
          rcases mem_cons.1 hi' with rfl | hi'
          · rw [hu] at hu'; cases hu'; simp
          · exact mem_cons_of_mem _ (h i' hi' b' hu' hT')
    by_cases hfail : ∃ b, i.unchecked = some b ∧ T b = true ∧ (s.size b = none ∨ b.isStruct = true)
    · obtain ⟨b, h1, h2, h3⟩ := hfail
      exact hi b h1 h2 h3
    · by_cases hfr : ∃ b, i = .free b ∧ nul b = true
      · obtain ⟨b, rfl, hb⟩ := hfr
        obtain ⟨fl, out, h1, h2, h3, h4⟩ := ih (fun b' => nul b' && b' != b) s
        refine ⟨fl, out, .freeNull b is nul s fl out hb h1, h2, h3, h4.imp id fun h i' hi' b' hu' hT' => ?_⟩
        rcases mem_cons.1 hi' with rfl | hi'
        · cases hu'
        · exact h i' hi' b' hu' hT'
      · have hf : ∀ b, i = .free b → nul b = false := fun b e => by
          cases e' : nul b with
          | false => rfl
          | true => exact absurd ⟨b, e, e'⟩ hfr
        obtain ⟨out, he, hne⟩ := exec_exists (F := F) [i] s
        have he := he.single_inv
        cases out with
        | exit => exact absurd rfl hne
        | ub => exact ⟨[], .ub, .ub i is nul s hf he, by simp, by simp, .inl rfl⟩
        | ok s1 =>
          obtain ⟨fl, out, h1, h2, h3, h4⟩ := ih (fun b => nul b && i.alloc != some b) s1
          refine ⟨fl, out, .next i is nul s s1 fl out hf he h1, h2, h3, h4.imp id fun h i' hi' b' hu' hT' => ?_⟩
          rcases mem_cons.1 hi' with rfl | hi'
          · exfalso
            refine hfail ⟨b', hu', hT', .inl ?_⟩
            cases i' with
            | malloc b n => cases hu'; cases he; assumption
            | calloc b n => cases hu'; cases he; assumption
            | memalign _ _ => cases hu'
            | free _ => cases hu'
            | par _ => cases hu'
          · exact h i' hi' b' hu' hT'

end
end Cake
