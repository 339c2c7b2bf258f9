/-
Calls that run at the same time, or on overlapping operands, behave as if each ran alone on separate memory: simulation
of the shared machine by the semantics of single programs.
-/
import Verif.Model.Concurrent
import Verif.CoreLemmas
import Mathlib.Data.Finset.Basic
import Mathlib.Data.Fintype.Basic

namespace Cake
open List

variable {ι γ α κ : Type _}

/-! ### One program, one element operation at a time -/

inductive LStep (F : Arith α) : Prog → State α → Prog → State α → Prop
  | item (i is s s') : ItemExec F i s (.ok s') → LStep F (i :: is) s is s'
  | op (pre o t post is s) : o.Defined s.size s.init →
      LStep F (.par (pre ++ (o :: t) :: post) :: is) s (.par (pre ++ t :: post) :: is)
        { size := s.size, mem := o.step F s.mem, init := fun l => decide (l = o.dst) || s.init l }

theorem RaceFree.of_step {pre post : List (List Op)} {o : Op} {t : List Op}
    (h : RaceFree (pre ++ (o :: t) :: post)) : RaceFree (pre ++ t :: post) := by
  unfold RaceFree at *
  rw [pairwise_append, pairwise_cons] at *
  refine ⟨h.1, ⟨fun t' ht' o1 ho1 => h.2.1.1 t' ht' o1 (mem_cons_of_mem _ ho1), h.2.1.2⟩, fun a ha b hb o1 ho1 o2 ho2 => ?_⟩
  rcases mem_cons.1 hb with rfl | hb
  · exact h.2.2 a ha _ mem_cons_self o1 ho1 o2 (mem_cons_of_mem _ ho2)
  · exact h.2.2 a ha b (mem_cons_of_mem _ hb) o1 ho1 o2 ho2

theorem LStep.exec {F : Arith α} {p p' : Prog} {s s' : State α} {out : Out α} (h : LStep F p s p' s')
    (he : Exec F p' s' out) : Exec F p s out := by
  cases h with
  | item i is s s' hi => exact .next _ _ _ _ _ hi he
  | op pre o t post is s hd =>
    have key : ∀ out, ItemExec F (.par (pre ++ t :: post)) { size := s.size, mem := o.step F s.mem, init := fun l => decide (l = o.dst) || s.init l } out → ItemExec F (.par (pre ++ (o :: t) :: post)) s out := by
      intro out hi
      cases hi with
      | race _ _ hr => exact .race _ _ fun h => hr h.of_step
      | par _ l _ _ hil hrun => exact .par _ (o :: l) _ _ (.step _ _ _ _ _ hil) (.step _ _ _ _ hd hrun)
    cases he with
    | next _ _ _ s2 _ h1 h2 => exact .next _ _ _ _ _ (key _ h1) h2
    | exit _ _ _ h1 => exact .exit _ _ _ (key _ h1)
    | ub _ _ _ h1 => exact .ub _ _ _ (key _ h1)

/-! ### What a program may touch -/

/-- Some remaining operation reads an operand. -/
def ReadsInp (p : Prog) : Prop := ∃ o ∈ progOps p, ∃ r ∈ o.reads, Inp r.buf

/-- As long as operands remain to be read, no object in `W` is written. -/
def Staged (W : Buf → Prop) : Prog → Prop
  | [] => True
  | i :: is => (ReadsInp (i :: is) → ∀ o ∈ progOps [i], ¬ W o.dst.buf) ∧ Staged W is

/-- The program writes, allocates and frees no operand, allocates and frees nothing in `W`, and is staged. -/
structure Proper (W : Buf → Prop) (p : Prog) : Prop where
  wr : ∀ o ∈ progOps p, ¬ Inp o.dst.buf
  ob : ∀ b ∈ progObjs p, ¬ Inp b ∧ ¬ W b
  staged : Staged W p

theorem progOps_cons (i : Item) (is : Prog) : progOps (i :: is) = progOps [i] ++ progOps is := by
  simp [progOps]

theorem progObjs_cons (i : Item) (is : Prog) : progObjs (i :: is) = progObjs [i] ++ progObjs is := by
  simp [progObjs]

theorem progOps_append (p q : Prog) : progOps (p ++ q) = progOps p ++ progOps q := by
  simp [progOps]

theorem progObjs_append (p q : Prog) : progObjs (p ++ q) = progObjs p ++ progObjs q := by
  simp [progObjs]

theorem ReadsInp.tail {i : Item} {is : Prog} (h : ReadsInp is) : ReadsInp (i :: is) := by
  obtain ⟨o, ho, r⟩ := h
  exact ⟨o, by rw [progOps_cons]; exact mem_append_right _ ho, r⟩

theorem Proper.tail {W : Buf → Prop} {i : Item} {is : Prog} (h : Proper W (i :: is)) : Proper W is :=
  ⟨fun o ho => h.wr o (by rw [progOps_cons]; exact mem_append_right _ ho),
    fun b hb => h.ob b (by rw [progObjs_cons]; exact mem_append_right _ hb), h.staged.2⟩

theorem progOps_par (ts : List (List Op)) (is : Prog) : progOps (.par ts :: is) = ts.flatten ++ progOps is := by
  simp [progOps]

theorem mem_step_ops {pre post : List (List Op)} {o : Op} {t : List Op} {is : Prog} {o' : Op}
    (h : o' ∈ progOps (.par (pre ++ t :: post) :: is)) : o' ∈ progOps (.par (pre ++ (o :: t) :: post) :: is) := by
  rw [progOps_par] at *
  simp only [flatten_append, flatten_cons, mem_append, cons_append, mem_cons] at *
  tauto

theorem ReadsInp.step {pre post : List (List Op)} {o : Op} {t : List Op} {is : Prog}
    (h : ReadsInp (.par (pre ++ t :: post) :: is)) : ReadsInp (.par (pre ++ (o :: t) :: post) :: is) := by
  obtain ⟨o', ho, r⟩ := h
  exact ⟨o', mem_step_ops ho, r⟩

theorem Proper.step {W : Buf → Prop} {pre post : List (List Op)} {o : Op} {t : List Op} {is : Prog}
    (h : Proper W (.par (pre ++ (o :: t) :: post) :: is)) : Proper W (.par (pre ++ t :: post) :: is) := by
  refine ⟨fun o' ho => h.wr o' (mem_step_ops ho), fun b hb => h.ob b (by simpa [progObjs] using hb), ?_, h.staged.2⟩
  intro hr o' ho
  exact h.staged.1 hr.step o' (mem_step_ops ho)

theorem Proper.head {W : Buf → Prop} {pre post : List (List Op)} {o : Op} {t : List Op} {is : Prog}
    (h : Proper W (.par (pre ++ (o :: t) :: post) :: is)) : ¬ Inp o.dst.buf ∧
      (ReadsInp (.par (pre ++ (o :: t) :: post) :: is) → ¬ W o.dst.buf) :=
  ⟨h.wr o (by simp [progOps_par]), fun hr => h.staged.1 hr o (by simp [progOps_par])⟩

/-- First part writes nothing in `W`, second part reads no operand. -/
theorem Staged.append {W : Buf → Prop} {p q : Prog} (hp : ∀ o ∈ progOps p, ¬ W o.dst.buf) (hq : ¬ ReadsInp q) :
    Staged W (p ++ q) := by
  induction p with
  | nil =>
    induction q with
    | nil => trivial
    | cons i is ih =>
      exact ⟨fun h => absurd h hq, ih fun h => hq h.tail⟩
  | cons i is ih =>
    refine ⟨fun _ o ho => hp o (by rw [progOps_cons]; exact mem_append_left _ ho), ih fun o ho => hp o ?_⟩
    rw [progOps_cons]; exact mem_append_right _ ho

theorem Staged.none {p : Prog} : Staged (fun _ => False) p := by
  induction p with
  | nil => trivial
  | cons i is ih => exact ⟨fun _ _ _ h => h, ih⟩

/-! ### Pointers -/

theorem Own.ne {W : Buf → Prop} {r : Loc → γ} (h : Own W r) {l d : Loc} (hne : l ≠ d) (h1 : ¬ Inp d.buf)
    (h2 : Inp l.buf → ¬ W d.buf) : r l ≠ r d := by
  intro e
  rcases h _ _ e with h | ⟨h, h' | h'⟩ | ⟨h, _⟩
  · exact hne h
  · exact h1 h'
  · exact h2 h h'
  · exact h1 h

/-! ### Simulation -/

/-- The machine state seen by call `i` is `s`, except for the operands once no remaining operation reads them. -/
structure Sim (ren : ι → Loc → γ) (i : ι) (p : Prog) (G : GState ι γ α) (s : State α) : Prop where
  size : G.size i = s.size
  mem : ∀ l, (Inp l.buf → ReadsInp p) → G.mem (ren i l) = s.mem l
  init : ∀ l, (Inp l.buf → ReadsInp p) → G.init (ren i l) = s.init l

theorem Sim.view (ren : ι → Loc → γ) (i : ι) (p : Prog) (G : GState ι γ α) : Sim ren i p G (G.view ren i) :=
  ⟨rfl, fun _ _ => rfl, fun _ _ => rfl⟩

theorem Sim.mono {ren : ι → Loc → γ} {i : ι} {p p' : Prog} {G : GState ι γ α} {s : State α} (h : Sim ren i p G s)
    (hp : ReadsInp p' → ReadsInp p) : Sim ren i p' G s :=
  ⟨h.size, fun l hl => h.mem l fun x => hp (hl x), fun l hl => h.init l fun x => hp (hl x)⟩

section
variable {F : Arith α} {ren : ι → Loc → γ} {W : Buf → Prop}

theorem Sim.val {i : ι} {p : Prog} {G : GState ι γ α} {s : State α} (h : Sim ren i p G s) {o : Op}
    (ho : o ∈ progOps p) (_hd : ¬ Inp o.dst.buf) : o.val F (fun l => G.mem (ren i l)) = o.val F s.mem := by
  have hr : ∀ r ∈ o.reads, G.mem (ren i r) = s.mem r := fun r hr => h.mem r fun hi => ⟨o, ho, r, hr, hi⟩
  cases o <;> simp only [Op.reads, mem_cons, not_mem_nil, or_false, forall_eq_or_imp, forall_eq] at hr <;>
    simp [Op.val, hr]

theorem Sim.defined {i : ι} {p : Prog} {G : GState ι γ α} {s : State α} (h : Sim ren i p G s) {o : Op}
    (ho : o ∈ progOps p) : o.Defined (G.size i) (fun l => G.init (ren i l)) ↔ o.Defined s.size s.init := by
  unfold Op.Defined
  rw [h.size]
  refine and_congr_right fun _ => forall_congr' fun r => ?_
  refine forall_congr' fun hr => and_congr_right fun _ => ?_
  show G.init (ren i r) = true ↔ _
  rw [h.init r fun hi => ⟨o, ho, r, hr, hi⟩]

/-- Allocation. -/
theorem Sim.fresh {i : ι} (hown : Own W (ren i)) {b : Buf} {n : Nat} {ini : Bool} {it : Item} {is : Prog}
    {G G' : GState ι γ α} {s : State α} (h : Sim ren i (it :: is) G s) (hb : ¬ Inp b ∧ ¬ W b)
    (hf : Fresh ren i b ini G G' n) :
    Sim ren i is G' { size := fun b' => if b' = b then some n else s.size b'
                      mem := fun l => if l.buf = b then G'.mem (ren i l) else s.mem l
                      init := fun l => if l.buf = b then ini else s.init l } := by
  have hk : ∀ l : Loc, l.buf ≠ b → ∀ k, ren i ⟨b, k⟩ ≠ ren i l := fun l hl k e =>
    hown.ne (l := l) (d := ⟨b, k⟩) (fun e => hl (by rw [e])) hb.1 (fun _ => hb.2) e.symm
  refine ⟨by rw [hf.size, h.size], fun l hl => ?_, fun l hl => ?_⟩ <;> dsimp only
  · split
    · rfl
    · rename_i hl'
      rw [hf.mem _ (hk l hl'), h.mem l fun x => (hl x).tail]
  · split
    · rename_i hl'
      subst hl'
      exact hf.ini l.idx
    · rename_i hl'
      rw [hf.init _ (hk l hl'), h.init l fun x => (hl x).tail]

theorem GStep.sim {i : ι} (hown : Own W (ren i)) {p p' : Prog} {G G' : GState ι γ α} {s : State α}
    (hs : GStep F ren i p G p' G') (h : Sim ren i p G s) (hp : Proper W p) :
    ∃ s', LStep F p s p' s' ∧ Sim ren i p' G' s' ∧ Proper W p' := by
  cases hs with
  | memalign b n is G G' h0 hf =>
    exact ⟨_, .item _ _ _ _ (.memalign b n s _ (h.size ▸ h0) fun l hl => if_neg hl),
      h.fresh hown (hp.ob b (by simp [progObjs])) hf, hp.tail⟩
  | malloc b n is G G' h0 hf =>
    exact ⟨_, .item _ _ _ _ (.malloc b n s _ (h.size ▸ h0) fun l hl => if_neg hl),
      h.fresh hown (hp.ob b (by simp [progObjs])) hf, hp.tail⟩
  | calloc b n is G G' h0 hf hz =>
    refine ⟨_, .item _ _ _ _ (.calloc b n s (h.size ▸ h0)), ?_, hp.tail⟩
    have := h.fresh hown (hp.ob b (by simp [progObjs])) hf
    refine ⟨this.size, fun l hl => (this.mem l hl).trans ?_, this.init⟩
    dsimp only
    split
    · rename_i hl'
      subst hl'
      exact hz l.idx
    · rfl
  | free b is G G' h0 h1 h2 h3 h4 =>
    refine ⟨_, .item _ _ _ _ (.free b s (h.size ▸ h0)), ⟨by rw [h1, h.size], fun l hl => ?_, fun l hl => ?_⟩, hp.tail⟩
    · rw [h3]; exact h.mem l fun x => (hl x).tail
    · rw [h4]; exact h.init l fun x => (hl x).tail
  | op pre o t post is G G' hd h1 h2 h3 h4 =>
    have ho : o ∈ progOps (.par (pre ++ (o :: t) :: post) :: is) := by simp [progOps_par]
    refine ⟨_, .op pre o t post is s ((h.defined ho).1 hd), ⟨by rw [h1]; exact h.size, fun l hl => ?_, fun l hl => ?_⟩, hp.step⟩
    · dsimp only [Op.step]
      split
      · rename_i e
        rw [e, h3, h.val ho hp.head.1]
      · rename_i e
        rw [(h2 _ (hown.ne e hp.head.1 fun x => hp.head.2 (hl x).step)).1, h.mem l fun x => (hl x).step]
    · by_cases e : l = o.dst
      · simp [e, h4]
      · rw [(h2 _ (hown.ne e hp.head.1 fun x => hp.head.2 (hl x).step)).2, h.init l fun x => (hl x).step]
        simp [e]
  | done ts is G h0 =>
    exact ⟨s, .item _ _ _ _ (.par ts [] s _ (.done _ h0) (.nil s)), h.mono fun x => x.tail, hp.tail⟩

/-- Cells of other calls, and cells nobody may write, are left alone. -/
theorem GStep.frame {i : ι} {p p' : Prog} {G G' : GState ι γ α} (hs : GStep F ren i p G p' G') (hp : Proper W p) {g : γ}
    (hg : ∀ l, ren i l = g → Inp l.buf) : G'.mem g = G.mem g ∧ G'.init g = G.init g := by
  have hk : ∀ b, ¬ Inp b → ∀ k, ren i ⟨b, k⟩ ≠ g := fun b hb k e => hb (hg _ e)
  cases hs with
  | memalign b n is G G' h0 hf =>
    have := hk b (hp.ob b (by simp [progObjs])).1
    exact ⟨hf.mem _ this, hf.init _ this⟩
  | malloc b n is G G' h0 hf =>
    have := hk b (hp.ob b (by simp [progObjs])).1
    exact ⟨hf.mem _ this, hf.init _ this⟩
  | calloc b n is G G' h0 hf hz =>
    have := hk b (hp.ob b (by simp [progObjs])).1
    exact ⟨hf.mem _ this, hf.init _ this⟩
  | free b is G G' h0 h1 h2 h3 h4 => rw [h3, h4]; exact ⟨rfl, rfl⟩
  | op pre o t post is G G' hd h1 h2 h3 h4 =>
    exact h2 g fun e => hp.head.1 (hg _ e.symm)
  | done ts is G h0 => exact ⟨rfl, rfl⟩

theorem GStep.others {i j : ι} (hj : j ≠ i) {p p' : Prog} {G G' : GState ι γ α} (hs : GStep F ren i p G p' G') :
    G'.size j = G.size j := by
  cases hs with
  | memalign b n is G G' h0 hf => exact hf.others j hj
  | malloc b n is G G' h0 hf => exact hf.others j hj
  | calloc b n is G G' h0 hf hz => exact hf.others j hj
  | free b is G G' h0 h1 h2 h3 h4 => exact h2 j hj
  | op pre o t post is G G' hd h1 h2 h3 h4 => rw [h1]
  | done ts is G h0 => rfl

theorem GStep.sim_other (hap : Apart ren) {i j : ι} (hj : j ≠ i) {p p' q : Prog} {G G' : GState ι γ α} {s : State α}
    (hs : GStep F ren i p G p' G') (hp : Proper W p) (h : Sim ren j q G s) : Sim ren j q G' s := by
  refine ⟨by rw [hs.others hj, h.size], fun l hl => ?_, fun l hl => ?_⟩
  · rw [(hs.frame hp fun l' e => (hap i j l' l (Ne.symm hj) e).1).1, h.mem l hl]
  · rw [(hs.frame hp fun l' e => (hap i j l' l (Ne.symm hj) e).1).2, h.init l hl]

theorem RaceFree.at {i : ι} (hown : Own W (ren i)) {ts : List (List Op)} {is : Prog} (hp : Proper W (.par ts :: is))
    (h : RaceFree ts) : RaceFreeAt (ren i) ts := by
  have hwr : ∀ o ∈ ts.flatten, ¬ Inp o.dst.buf := fun o ho => hp.wr o (by rw [progOps_par]; exact mem_append_left _ ho)
  have hst : ∀ o ∈ ts.flatten, ∀ o' ∈ ts.flatten, ∀ x ∈ o'.reads, Inp x.buf → ¬ W o.dst.buf := fun o ho o' ho' x hx hi =>
    hp.staged.1 ⟨o', by rw [progOps_par]; exact mem_append_left _ ho', x, hx, hi⟩ o
      (by rw [progOps_par]; exact mem_append_left _ ho)
  refine Pairwise.imp_of_mem ?_ h
  intro t t' ht ht' hc o ho o' ho' hcf
  have h1 : o ∈ ts.flatten := mem_flatten.2 ⟨t, ht, ho⟩
  have h2 : o' ∈ ts.flatten := mem_flatten.2 ⟨t', ht', ho'⟩
  refine hc o ho o' ho' ?_
  rcases hcf with e | ⟨x, hx, e⟩ | ⟨x, hx, e⟩
  · left
    by_contra hne
    exact hown.ne hne (hwr _ h2) (fun hi => absurd hi (hwr _ h1)) e
  · right; left
    by_cases hne : x = o.dst
    · rwa [← hne]
    · exact absurd e.symm (hown.ne hne (hwr _ h1) (fun hi => hst _ h1 _ h2 x hx hi))
  · right; right
    by_cases hne : x = o'.dst
    · rwa [← hne]
    · exact absurd e.symm (hown.ne hne (hwr _ h2) (fun hi => hst _ h2 _ h1 x hx hi))

theorem GUb.exec {i : ι} (hown : Own W (ren i)) {p : Prog} {G : GState ι γ α} {s : State α} (hu : GUb ren i G p)
    (h : Sim ren i p G s) (hp : Proper W p) : Exec F p s .ub := by
  cases hu with
  | memalign b n is h0 => exact .ub _ _ _ (.memalignUb _ _ _ (h.size ▸ h0))
  | malloc b n is h0 => exact .ub _ _ _ (.mallocUb _ _ _ (h.size ▸ h0))
  | calloc b n is h0 => exact .ub _ _ _ (.callocUb _ _ _ (h.size ▸ h0))
  | free b is h0 => exact .ub _ _ _ (.freeUb _ _ (h.size ▸ h0))
  | race ts is hr => exact .ub _ _ _ (.race _ _ fun h => hr (RaceFree.at hown hp h))
  | undef pre o t post is hd =>
    have ho : o ∈ progOps (.par (pre ++ (o :: t) :: post) :: is) := by simp [progOps_par]
    exact .ub _ _ _ (.par _ _ _ _ (.step _ _ _ _ _ (interleave_flatten _)) (.undef _ _ _ fun h' => hd ((h.defined ho).2 h')))

/-- No two calls race. -/
theorem no_crace (hap : Apart ren) {c : Calls ι κ} (hp : ∀ i, Proper W (c.prog i))
    (hctx : c.CtxOK) : ¬ CRace ren c := by
  intro h
  cases h with
  | cell i j o o' hij ho ho' hc =>
    rcases hc with e | ⟨x, hx, e⟩ | ⟨x, hx, e⟩
    · exact (hp i).wr o ho (hap i j _ _ hij e).1
    · exact (hp i).wr o ho (hap i j _ _ hij e).1
    · exact (hp j).wr o' ho' (hap j i _ _ (Ne.symm hij) e).1
  | obj i j b k o x hij hb ho hx e => exact ((hp i).ob b hb).1 (hap i j _ _ hij e).1
  | ctx i j a a' hij e ha ha' hf hw =>
    have := hctx i j a a' hij e ha ha' hf
    rw [this.1, this.2] at hw
    exact hw.elim Bool.false_ne_true Bool.false_ne_true

/-- Every execution of the calls together is made of executions of each of them alone. -/
theorem CExec.sound (hown : ∀ i, Own W (ren i)) (hap : Apart ren) {c : Calls ι κ} {G : GState ι γ α} {out : COut ι γ α}
    (he : CExec F ren c G out) (hp : ∀ i, Proper W (c.prog i)) (hctx : c.CtxOK)
    (s : ι → State α) (hs : ∀ i, Sim ren i (c.prog i) G (s i)) :
    (out = .ub ∧ ∃ i, Exec F (c.prog i) (s i) .ub) ∨ (out = .exit ∧ ∃ i, Exec F (c.prog i) (s i) .exit) ∨
      ∃ G', out = .ok G' ∧ (∀ g, (∀ i l, ren i l = g → Inp l.buf) → G'.mem g = G.mem g ∧ G'.init g = G.init g) ∧
        ∃ s' : ι → State α, ∀ i, Exec F (c.prog i) (s i) (.ok (s' i)) ∧ Sim ren i [] G' (s' i) := by
  induction he generalizing s with
  | done c G h0 =>
    refine Or.inr (Or.inr ⟨G, rfl, fun _ _ => ⟨rfl, rfl⟩, s, fun i => ?_⟩)
    have := hs i
    rw [h0 i] at this ⊢
    exact ⟨.nil _, this⟩
  | step i c G q G' out hst hq _ ih =>
    classical
    obtain ⟨s1, hl, hsim, hp1⟩ := hst.sim (hown i) (hs i) (hp i)
    have hp' : ∀ j, Proper W (q j) := fun j => by
      by_cases hj : j = i
      · subst hj; exact hp1
      · rw [hq j hj]; exact hp j
    have back : ∀ j out, Exec F (q j) (if j = i then s1 else s j) out → Exec F (c.prog j) (s j) out := fun j out h => by
      by_cases hj : j = i
      · subst hj
        rw [if_pos rfl] at h
        exact hl.exec h
      · rwa [if_neg hj, hq j hj] at h
    rcases ih hp' hctx (fun j => if j = i then s1 else s j) (fun j => by
        by_cases hj : j = i
        · subst hj
          rw [if_pos rfl]
          exact hsim
        · rw [if_neg hj]
          show Sim ren j (q j) G' (s j)
          rw [hq j hj]
          exact hst.sim_other hap hj (hp i) (hs j)) with ⟨h1, j, h2⟩ | ⟨h1, j, h2⟩ | ⟨G2, h1, h2, s2, h3⟩
    · exact Or.inl ⟨h1, j, back j _ h2⟩
    · exact Or.inr (Or.inl ⟨h1, j, back j _ h2⟩)
    · refine Or.inr (Or.inr ⟨G2, h1, fun g hg => ?_, s2, fun j => ⟨back j _ (h3 j).1, (h3 j).2⟩⟩)
      have f := hst.frame (hp i) (g := g) fun l e => hg i l e
      exact ⟨(h2 g hg).1.trans f.1, (h2 g hg).2.trans f.2⟩
  | exit i c G b n is h0 =>
    refine Or.inr (Or.inl ⟨rfl, i, ?_⟩)
    rw [h0]
    exact .exit _ _ _ (.memalignFail _ _ _)
  | ub i c G hu => exact Or.inl ⟨rfl, i, hu.exec (hown i) (hs i) (hp i)⟩
  | race c G hr => exact absurd hr (no_crace hap hp hctx)

/-! ### The calls can run together to their ends -/

/-- A machine state after an allocation. -/
theorem exists_fresh {i : ι} (hown : Own W (ren i)) {b : Buf} (hb : ¬ Inp b ∧ ¬ W b) (G : GState ι γ α) (n : Nat) (ini : Bool)
    (m : Loc → α) : ∃ G' : GState ι γ α, Fresh ren i b ini G G' n ∧ ∀ k, G'.mem (ren i ⟨b, k⟩) = m ⟨b, k⟩ := by
  classical
  have inj : ∀ k k', ren i ⟨b, k⟩ = ren i ⟨b, k'⟩ → k = k' := fun k k' e => by
    by_contra hne
    exact hown.ne (l := ⟨b, k⟩) (d := ⟨b, k'⟩) (fun h => hne (by simpa using h)) hb.1 (fun _ => hb.2) e
  have pick : ∀ k (h : ∃ k', ren i ⟨b, k'⟩ = ren i ⟨b, k⟩), h.choose = k := fun k h => inj _ _ h.choose_spec
  refine ⟨⟨fun j b' => if j = i then (if b' = b then some n else G.size i b') else G.size j b',
    fun g => if h : ∃ k, ren i ⟨b, k⟩ = g then m ⟨b, h.choose⟩ else G.mem g,
    fun g => if ∃ k, ren i ⟨b, k⟩ = g then ini else G.init g⟩, ⟨?_, ?_, ?_, ?_, ?_⟩, ?_⟩
  · funext b'; simp
  · intro j hj; funext b'; simp [hj]
  · intro g hg; dsimp only; rw [dif_neg (by simpa using hg)]
  · intro g hg; dsimp only; rw [if_neg (by simpa using hg)]
  · intro k; dsimp only; rw [if_pos ⟨k, rfl⟩]
  · intro k
    dsimp only
    rw [dif_pos ⟨k, rfl⟩, pick k ⟨k, rfl⟩]

/-- Any number of steps of call `i`. -/
inductive Runs (F : Arith α) (ren : ι → Loc → γ) (i : ι) : Prog → GState ι γ α → Prog → GState ι γ α → Prop
  | refl (p : Prog) (G : GState ι γ α) : Runs F ren i p G p G
  | step (p p1 p' : Prog) (G G1 G' : GState ι γ α) : GStep F ren i p G p1 G1 → Runs F ren i p1 G1 p' G' → Runs F ren i p G p' G'

theorem Runs.one {i : ι} {p p' : Prog} {G G' : GState ι γ α} (h : GStep F ren i p G p' G') : Runs F ren i p G p' G' :=
  .step _ _ _ _ _ _ h (.refl _ _)

theorem Runs.trans {i : ι} {p p1 p' : Prog} {G G1 G' : GState ι γ α} (h1 : Runs F ren i p G p1 G1)
    (h2 : Runs F ren i p1 G1 p' G') : Runs F ren i p G p' G' := by
  induction h1 with
  | refl _ _ => exact h2
  | step _ _ _ _ _ _ hs _ ih => exact .step _ _ _ _ _ _ hs (ih h2)

theorem Runs.lift {i : ι} {p p' : Prog} {G G' : GState ι γ α} (h : Runs F ren i p G p' G') {c : Calls ι κ} {q : ι → Prog}
    {out : COut ι γ α} (e1 : c.prog i = p) (e2 : q i = p') (e3 : ∀ j, j ≠ i → q j = c.prog j)
    (hc : CExec F ren { c with prog := q } G' out) : CExec F ren c G out := by
  classical
  induction h generalizing c with
  | refl p G =>
    have : q = c.prog := by
      funext j
      by_cases hj : j = i
      · subst hj; rw [e1, e2]
      · exact e3 j hj
    rw [this] at hc
    exact hc
  | step p p1 p' G G1 G' hs _ ih =>
    refine .step i c G (fun j => if j = i then p1 else c.prog j) G1 out ?_ (fun j hj => if_neg hj) ?_
    · rw [if_pos rfl, e1]; exact hs
    · refine ih (c := { c with prog := fun j => if j = i then p1 else c.prog j }) (if_pos rfl) e2 (fun j hj => ?_) hc
      rw [e3 j hj]; exact (if_neg hj).symm

theorem Runs.sim_other (hap : Apart ren) {i j : ι} (hown : Own W (ren i)) (hj : j ≠ i) {p p' q : Prog} {G G' : GState ι γ α}
    {s si : State α} (h : Runs F ren i p G p' G') (hp : Proper W p) (hs : Sim ren j q G s) (hsi : Sim ren i p G si) :
    Sim ren j q G' s := by
  induction h generalizing si with
  | refl _ _ => exact hs
  | step _ _ _ _ _ _ h1 _ ih =>
    obtain ⟨s1, _, hsim, hp1⟩ := h1.sim hown hsi hp
    exact ih hp1 (h1.sim_other hap hj hp hs) hsim

theorem Proper.nil : Proper W [] := ⟨by simp [progOps], by simp [progObjs], trivial⟩

theorem Sim.op {i : ι} (hown : Own W (ren i)) {pre post : List (List Op)} {o : Op} {t : List Op} {is : Prog}
    {G : GState ι γ α} {s : State α} (hs : Sim ren i (.par (pre ++ (o :: t) :: post) :: is) G s)
    (hp : Proper W (.par (pre ++ (o :: t) :: post) :: is)) (hd : o.Defined s.size s.init) :
    ∃ G', GStep F ren i (.par (pre ++ (o :: t) :: post) :: is) G (.par (pre ++ t :: post) :: is) G' ∧
      Sim ren i (.par (pre ++ t :: post) :: is) G'
        { size := s.size, mem := o.step F s.mem, init := fun l => decide (l = o.dst) || s.init l } := by
  classical
  have ho : o ∈ progOps (.par (pre ++ (o :: t) :: post) :: is) := by simp [progOps_par]
  refine ⟨⟨G.size, fun g => if g = ren i o.dst then o.val F (fun l => G.mem (ren i l)) else G.mem g,
      fun g => if g = ren i o.dst then true else G.init g⟩,
    .op pre o t post is G _ ((hs.defined ho).2 hd) rfl (fun g hg => ⟨if_neg hg, if_neg hg⟩) (if_pos rfl) (if_pos rfl),
    hs.size, fun l hl => ?_, fun l hl => ?_⟩
  · dsimp only [Op.step]
    by_cases e : l = o.dst
    · rw [e, if_pos rfl, if_pos rfl, hs.val ho hp.head.1]
    · rw [if_neg e, if_neg (hown.ne e hp.head.1 fun x => hp.head.2 (hl x).step), hs.mem l fun x => (hl x).step]
  · dsimp only
    by_cases e : l = o.dst
    · simp [e]
    · rw [if_neg (hown.ne e hp.head.1 fun x => hp.head.2 (hl x).step), hs.init l fun x => (hl x).step]
      simp [e]

theorem RaceFree.of_at {r : Loc → γ} {ts : List (List Op)} (h : RaceFreeAt r ts) : RaceFree ts :=
  Pairwise.imp (fun h o ho o' ho' hc => h o ho o' ho' (hc.imp (congrArg r) (Or.imp (fun h => ⟨_, h, rfl⟩) fun h => ⟨_, h, rfl⟩))) h

theorem RunOps.not_exit {l : List Op} {s : State α} {out : Out α} (h : RunOps F l s out) : out ≠ .exit := by
  induction h with
  | nil _ => simp
  | undef _ _ _ _ => simp
  | step _ _ _ _ _ _ ih => exact ih

theorem runs_ops {i : ι} (hown : Own W (ren i)) {ts : List (List Op)} {l : List Op} (hi : Interleave ts l) {is : Prog}
    {G : GState ι γ α} {s s' : State α} (h : RunOps F l s (.ok s')) (hs : Sim ren i (.par ts :: is) G s)
    (hp : Proper W (.par ts :: is)) : ∃ G', Runs F ren i (.par ts :: is) G is G' ∧ Sim ren i is G' s' := by
  induction hi generalizing G s with
  | done ts h0 =>
    cases h
    exact ⟨G, .one (.done ts is G h0), hs.mono fun x => x.tail⟩
  | step pre o t post l _ ih =>
    cases h with
    | step _ _ _ _ hd hr =>
      obtain ⟨G1, hst, hsim⟩ := hs.op hown hp hd
      obtain ⟨G', hG, hS⟩ := ih hr hsim hp.step
      exact ⟨G', .step _ _ _ _ _ _ hst hG, hS⟩

theorem ItemExec.runs {i : ι} (hown : Own W (ren i)) {it : Item} {is : Prog} {s s1 : State α} (h1 : ItemExec F it s (.ok s1))
    {G : GState ι γ α} (hs : Sim ren i (it :: is) G s) (hp : Proper W (it :: is)) :
    ∃ G1, Runs F ren i (it :: is) G is G1 ∧ Sim ren i is G1 s1 := by
  cases h1 with
  | memalign b n s m' h0 hm =>
    have hb := hp.ob b (by simp [progObjs])
    obtain ⟨G1, hf, hG⟩ := exists_fresh hown hb G n false m'
    refine ⟨G1, .one (.memalign b n is G G1 (hs.size ▸ h0) hf), ?_⟩
    have := hs.fresh hown hb hf
    refine ⟨this.size, fun l hl => (this.mem l hl).trans ?_, this.init⟩
    dsimp only
    split
    · rename_i e; subst e; exact hG l.idx
    · rename_i e; exact (hm l e).symm
  | malloc b n s m' h0 hm =>
    have hb := hp.ob b (by simp [progObjs])
    obtain ⟨G1, hf, hG⟩ := exists_fresh hown hb G n false m'
    refine ⟨G1, .one (.malloc b n is G G1 (hs.size ▸ h0) hf), ?_⟩
    have := hs.fresh hown hb hf
    refine ⟨this.size, fun l hl => (this.mem l hl).trans ?_, this.init⟩
    dsimp only
    split
    · rename_i e; subst e; exact hG l.idx
    · rename_i e; exact (hm l e).symm
  | calloc b n s h0 =>
    have hb := hp.ob b (by simp [progObjs])
    obtain ⟨G1, hf, hG⟩ := exists_fresh hown hb G n true fun _ => F.zero
    have hst : GStep F ren i (.calloc b n :: is) G is G1 := .calloc b n is G G1 (hs.size ▸ h0) hf hG
    refine ⟨G1, .one hst, ?_⟩
    have := hs.fresh hown hb hf
    refine ⟨this.size, fun l hl => (this.mem l hl).trans ?_, this.init⟩
    dsimp only
    split
    · rename_i e; subst e; exact hG l.idx
    · rfl
  | free b s h0 =>
    classical
    refine ⟨⟨fun j b' => if j = i then (if b' = b then none else G.size i b') else G.size j b', G.mem, G.init⟩,
      .one (.free b is G _ (hs.size ▸ h0) (by funext b'; simp) (fun j hj => by funext b'; simp [hj]) rfl rfl), ⟨?_, fun l hl => hs.mem l fun x => (hl x).tail, fun l hl => hs.init l fun x => (hl x).tail⟩⟩
    funext b'
    simp [hs.size]
  | par ts l s _ hi hr => exact runs_ops hown hi hr hs hp

theorem Exec.runs {i : ι} (hown : Own W (ren i)) {p : Prog} {s : State α} {out : Out α} (he : Exec F p s out) {s' : State α}
    (hout : out = .ok s') {G : GState ι γ α} (hs : Sim ren i p G s) (hp : Proper W p) :
    ∃ G', Runs F ren i p G [] G' ∧ Sim ren i [] G' s' := by
  induction he generalizing G with
  | nil s => cases hout; exact ⟨G, .refl [] G, hs⟩
  | exit _ _ _ _ => cases hout
  | ub _ _ _ _ => cases hout
  | next it is s s1 out h1 _ ih =>
    obtain ⟨G1, r1, m1⟩ := h1.runs hown hs hp
    obtain ⟨G2, r2, m2⟩ := ih hout m1 hp.tail
    exact ⟨G2, r1.trans r2, m2⟩

/-- Runs of a parallel loop into undefined behaviour. -/
theorem runs_undef {i : ι} (hown : Own W (ren i)) {ts : List (List Op)} {l : List Op} (hi : Interleave ts l) {is : Prog}
    {G : GState ι γ α} {s : State α} (h : RunOps F l s .ub) (hs : Sim ren i (.par ts :: is) G s)
    (hp : Proper W (.par ts :: is)) : ∃ p' G', Runs F ren i (.par ts :: is) G p' G' ∧ GUb ren i G' p' := by
  induction hi generalizing G s with
  | done ts h0 => cases h
  | step pre o t post l _ ih =>
    have ho : o ∈ progOps (.par (pre ++ (o :: t) :: post) :: is) := by simp [progOps_par]
    cases h with
    | undef _ _ _ hd => exact ⟨_, G, .refl _ _, .undef pre o t post is fun h => hd ((hs.defined ho).1 h)⟩
    | step _ _ _ _ hd hr =>
      obtain ⟨G1, hst, hsim⟩ := hs.op hown hp hd
      obtain ⟨p', G', hG, hu⟩ := ih hr hsim hp.step
      exact ⟨p', G', .step _ _ _ _ _ _ hst hG, hu⟩

theorem Exec.runs_ub {i : ι} (hown : Own W (ren i)) {p : Prog} {s : State α} {out : Out α} (he : Exec F p s out)
    (hout : out = .ub) {G : GState ι γ α} (hs : Sim ren i p G s) (hp : Proper W p) :
    ∃ p' G', Runs F ren i p G p' G' ∧ GUb ren i G' p' := by
  induction he generalizing G with
  | nil s => cases hout
  | exit _ _ _ _ => cases hout
  | next it is s s1 out h1 _ ih =>
    obtain ⟨G1, r1, m1⟩ := h1.runs hown hs hp
    obtain ⟨p', G2, r2, m2⟩ := ih hout m1 hp.tail
    exact ⟨p', G2, r1.trans r2, m2⟩
  | ub it is s h1 =>
    cases h1 with
    | memalignUb b n s h0 => exact ⟨_, G, .refl _ _, .memalign _ _ _ (hs.size ▸ h0)⟩
    | mallocUb b n s h0 => exact ⟨_, G, .refl _ _, .malloc _ _ _ (hs.size ▸ h0)⟩
    | callocUb b n s h0 => exact ⟨_, G, .refl _ _, .calloc _ _ _ (hs.size ▸ h0)⟩
    | freeUb b s h0 => exact ⟨_, G, .refl _ _, .free _ _ (hs.size ▸ h0)⟩
    | race ts s hr => exact ⟨_, G, .refl _ _, .race _ _ fun h => hr (.of_at h)⟩
    | par ts l s _ hi hr => exact runs_undef hown hi hr hs hp

theorem Exec.runs_exit {i : ι} (hown : Own W (ren i)) {p : Prog} {s : State α} {out : Out α} (he : Exec F p s out)
    (hout : out = .exit) {G : GState ι γ α} (hs : Sim ren i p G s) (hp : Proper W p) :
    ∃ b n is G', Runs F ren i p G (.memalign b n :: is) G' := by
  induction he generalizing G with
  | nil s => cases hout
  | ub _ _ _ _ => cases hout
  | next it is s s1 out h1 _ ih =>
    obtain ⟨G1, r1, m1⟩ := h1.runs hown hs hp
    obtain ⟨b, n, is, G2, r2⟩ := ih hout m1 hp.tail
    exact ⟨b, n, is, G2, r1.trans r2⟩
  | exit it is s h1 =>
    cases h1 with
    | memalignFail b n s => exact ⟨b, n, is, G, .refl _ _⟩
    | par ts l s _ hi hr => exact absurd rfl hr.not_exit

/-- If one of the calls alone can have undefined behaviour, so can all together. -/
theorem CExec.ub_of {c : Calls ι κ} {G : GState ι γ α} {i : ι} (hown : Own W (ren i)) (hp : Proper W (c.prog i)) {s : State α}
    (hs : Sim ren i (c.prog i) G s) (he : Exec F (c.prog i) s .ub) : CExec F ren c G .ub := by
  classical
  obtain ⟨p', G', hr, hu⟩ := he.runs_ub hown rfl hs hp
  refine hr.lift (q := fun j => if j = i then p' else c.prog j) rfl (if_pos rfl) (fun j hj => if_neg hj) (.ub i _ _ ?_)
  dsimp only
  rwa [if_pos rfl]

/-- If one of the calls alone can end in `exit(1)`, so can all together. -/
theorem CExec.exit_of {c : Calls ι κ} {G : GState ι γ α} {i : ι} (hown : Own W (ren i)) (hp : Proper W (c.prog i)) {s : State α}
    (hs : Sim ren i (c.prog i) G s) (he : Exec F (c.prog i) s .exit) : CExec F ren c G .exit := by
  classical
  obtain ⟨b, n, is, G', hr⟩ := he.runs_exit hown rfl hs hp
  exact hr.lift (q := fun j => if j = i then .memalign b n :: is else c.prog j) rfl (if_pos rfl) (fun j hj => if_neg hj)
    (.exit i _ _ b n is (if_pos rfl))

/-- Calls each of which can end normally can all end normally together, with the same results. -/
theorem CExec.exists [Fintype ι] (hown : ∀ i, Own W (ren i)) (hap : Apart ren) {c : Calls ι κ} {G : GState ι γ α}
    (hp : ∀ i, Proper W (c.prog i)) (s s' : ι → State α) (hs : ∀ i, Sim ren i (c.prog i) G (s i))
    (he : ∀ i, Exec F (c.prog i) (s i) (.ok (s' i))) : ∃ G', CExec F ren c G (.ok G') ∧ ∀ i, Sim ren i [] G' (s' i) := by
  classical
  suffices H : ∀ (L : Finset ι) (c : Calls ι κ) (G : GState ι γ α), (∀ i, Proper W (c.prog i)) → (∀ i ∉ L, c.prog i = []) →
      (∀ i ∈ L, Sim ren i (c.prog i) G (s i)) → (∀ i ∈ L, Exec F (c.prog i) (s i) (.ok (s' i))) →
      ∃ G', CExec F ren c G (.ok G') ∧ (∀ i ∈ L, Sim ren i [] G' (s' i)) ∧
        ∀ j ∉ L, ∀ t, Sim ren j [] G t → Sim ren j [] G' t by
    obtain ⟨G', h1, h2, -⟩ := H Finset.univ c G hp (fun i hi => absurd (Finset.mem_univ i) hi) (fun i _ => hs i) (fun i _ => he i)
    exact ⟨G', h1, fun i => h2 i (Finset.mem_univ i)⟩
  intro L
  induction L using Finset.induction_on with
  | empty => exact fun c G _ h0 _ _ => ⟨G, .done c G fun i => h0 i (Finset.notMem_empty i), by simp, fun _ _ _ h => h⟩
  | insert i L hi ih =>
    intro c G hp h0 hs he
    obtain ⟨G1, hr, hend⟩ := (he i (Finset.mem_insert_self i L)).runs (hown i) rfl (hs i (Finset.mem_insert_self i L)) (hp i)
    have hq : ∀ j, j ≠ i → (if j = i then [] else c.prog j) = c.prog j := fun j hj => if_neg hj
    obtain ⟨G', hG, hL, hO⟩ := ih { c with prog := fun j => if j = i then [] else c.prog j } G1
      (fun j => by
        dsimp only
        split
        · exact .nil
        · exact hp j)
      (fun j hj => by
        dsimp only
        split
        · rfl
        · rename_i hji; exact h0 j fun h => (Finset.mem_insert.1 h).elim hji hj)
      (fun j hj => by
        have hji : j ≠ i := fun e => hi (e ▸ hj)
        dsimp only
        rw [if_neg hji]
        exact hr.sim_other hap (hown i) hji (hp i) (hs j (Finset.mem_insert_of_mem hj)) (hs i (Finset.mem_insert_self i L)))
      (fun j hj => by
        have hji : j ≠ i := fun e => hi (e ▸ hj)
        dsimp only
        rw [if_neg hji]
        exact he j (Finset.mem_insert_of_mem hj))
    refine ⟨G', hr.lift rfl (if_pos rfl) hq hG, fun j hj => ?_, fun j hj t ht => ?_⟩
    · rcases Finset.mem_insert.1 hj with rfl | hj
      · exact hO _ hi _ hend
      · exact hL j hj
    · have hji : j ≠ i := fun e => hj (e ▸ Finset.mem_insert_self _ _)
      exact hO j (fun h => hj (Finset.mem_insert_of_mem h)) t
        (hr.sim_other hap (hown i) hji (hp i) ht (hs i (Finset.mem_insert_self i L)))

end

end Cake
