/-
Proof rules for the program skeleton (allocate, pack, compute, unpack, free) shared by all entry points.
-/
import Verif.Proofs.Strip
import Verif.Proofs.Kernel

namespace Cake
open List

variable {α : Type _} {F : Arith α}

/-- Assertion relative to the state `s0` at the call: the allocation map is `sz`; objects that existed
at the call are unchanged outside `X`; and contents and initialisation satisfy `P`. -/
structure Env (s0 : State α) (sz : Buf → Option Nat) (X : Loc → Prop)
    (P : Mem α → (Loc → Bool) → Prop) (s : State α) : Prop where
  size : s.size = sz
  keep : ∀ l, s0.size l.buf ≠ none → ¬ X l → s.mem l = s0.mem l ∧ s.init l = s0.init l
  fact : P s.mem s.init

/-- Assertion `P` does not depend on buffers satisfying `D`. -/
def Stable (D : Buf → Prop) (P : Mem α → (Loc → Bool) → Prop) : Prop :=
  ∀ mem mem' : Mem α, ∀ init init' : Loc → Bool,
    (∀ l, ¬ D l.buf → mem' l = mem l ∧ init' l = init l) → P mem init → P mem' init'

theorem Stable.true (D : Buf → Prop) : Stable D (fun (_ : Mem α) _ => True) :=
  fun _ _ _ _ _ _ => trivial

theorem Stable.and {D : Buf → Prop} {P Q : Mem α → (Loc → Bool) → Prop} (h1 : Stable D P)
    (h2 : Stable D Q) : Stable D (fun m i => P m i ∧ Q m i) :=
  fun m m' i i' h hp => ⟨h1 m m' i i' h hp.1, h2 m m' i i' h hp.2⟩

/-- Allocation map after allocating `b`. -/
def szSet (sz : Buf → Option Nat) (b : Buf) (v : Option Nat) : Buf → Option Nat :=
  fun b' => if b' = b then v else sz b'

theorem szSet_self (sz : Buf → Option Nat) (b : Buf) (v : Option Nat) : szSet sz b v b = v := by
  simp [szSet]

theorem szSet_ne (sz : Buf → Option Nat) {b b' : Buf} (v : Option Nat) (h : b' ≠ b) :
    szSet sz b v b' = sz b' := by
  simp [szSet, h]

section rules
variable {s0 : State α} {sz : Buf → Option Nat} {X : Loc → Prop}
  {P P' : Mem α → (Loc → Bool) → Prop}

theorem Env.memalign (b : Buf) (n : Nat) (h0 : s0.size b = none) (hsz : sz b = none)
    (hst : Stable (· = b) P) :
    Triple F (Env s0 sz X P) [.memalign b n] (Env s0 (szSet sz b (some n)) X P) := by
  apply Triple.memalign
  · intro s hs; rw [hs.size]; exact hsz
  · intro s m' hs hm
    refine ⟨?_, ?_, ?_⟩
    · simp only [hs.size]; rfl
    · intro l hl hX
      have hne : l.buf ≠ b := fun e => hl (e ▸ h0)
      have := hs.keep l hl hX
      exact ⟨by rw [← this.1]; exact hm l hne, by simp [hne, this.2]⟩
    · refine hst _ _ _ _ ?_ hs.fact
      intro l hl
      exact ⟨hm l hl, by simp [hl]⟩

theorem Env.malloc (b : Buf) (n : Nat) (h0 : s0.size b = none) (hsz : sz b = none)
    (hst : Stable (· = b) P) :
    Triple F (Env s0 sz X P) [.malloc b n] (Env s0 (szSet sz b (some n)) X P) := by
  apply Triple.malloc
  · intro s hs; rw [hs.size]; exact hsz
  · intro s m' hs hm
    refine ⟨?_, ?_, ?_⟩
    · simp only [hs.size]; rfl
    · intro l hl hX
      have hne : l.buf ≠ b := fun e => hl (e ▸ h0)
      have := hs.keep l hl hX
      exact ⟨by rw [← this.1]; exact hm l hne, by simp [hne, this.2]⟩
    · refine hst _ _ _ _ ?_ hs.fact
      intro l hl
      exact ⟨hm l hl, by simp [hl]⟩

theorem Env.calloc (b : Buf) (n : Nat) (h0 : s0.size b = none) (hsz : sz b = none)
    (hst : Stable (· = b) P) :
    Triple F (Env s0 sz X P) [.calloc b n] (Env s0 (szSet sz b (some n)) X
      (fun mem init => P mem init ∧ ∀ x, mem ⟨b, x⟩ = F.zero ∧ init ⟨b, x⟩ = true)) := by
  apply Triple.calloc
  · intro s hs; rw [hs.size]; exact hsz
  · intro s hs
    refine ⟨?_, ?_, ?_, ?_⟩
    · simp only [hs.size]; rfl
    · intro l hl hX
      have hne : l.buf ≠ b := fun e => hl (e ▸ h0)
      have := hs.keep l hl hX
      simp [hne, this.1, this.2]
    · refine hst _ _ _ _ ?_ hs.fact
      intro l hl
      simp [hl]
    · intro x; simp

theorem Env.free (b : Buf) (hsz : sz b ≠ none) :
    Triple F (Env s0 sz X P) [.free b] (Env s0 (szSet sz b none) X P) := by
  apply Triple.free
  · intro s hs; rw [hs.size]; exact hsz
  · intro s hs
    refine ⟨?_, hs.keep, hs.fact⟩
    simp only [hs.size]; rfl

/-- Allocation map after allocating or freeing `f 0 … f (n-1)`. -/
def szSets (sz : Buf → Option Nat) (f : Nat → Buf) (v : Option Nat) : Nat → Buf → Option Nat
  | 0 => sz
  | n + 1 => szSet (szSets sz f v n) (f n) v

theorem szSets_of_lt (sz : Buf → Option Nat) (f : Nat → Buf) (v : Option Nat) {n i : Nat} (h : i < n) :
    szSets sz f v n (f i) = v := by
  induction n with
  | zero => omega
  | succ n ih =>
    unfold szSets
    by_cases e : f i = f n
    · rw [e, szSet_self]
    · rw [szSet_ne _ _ e]
      apply ih
      rcases Nat.lt_succ_iff_lt_or_eq.1 h with h' | h'
      · exact h'
      · exact absurd (by rw [h']) e

theorem szSets_of_ne (sz : Buf → Option Nat) (f : Nat → Buf) (v : Option Nat) {n : Nat} {b : Buf}
    (h : ∀ i, i < n → b ≠ f i) : szSets sz f v n b = sz b := by
  induction n with
  | zero => rfl
  | succ n ih =>
    unfold szSets
    rw [szSet_ne _ _ (h n (by omega))]
    exact ih (fun i hi => h i (by omega))

/-- Allocating `f 0 … f (n-1)` with `calloc`. -/
theorem Env.callocs (f : Nat → Buf) (hf : Function.Injective f) (n m : Nat)
    (h0 : ∀ i, i < n → s0.size (f i) = none) (hsz : ∀ i, i < n → sz (f i) = none)
    (hst : Stable (fun b => ∃ i, b = f i) P) :
    Triple F (Env s0 sz X P) ((range n).map fun i => .calloc (f i) m)
      (Env s0 (szSets sz f (some m) n) X
      (fun mem init => P mem init ∧ ∀ i x, i < n → mem ⟨f i, x⟩ = F.zero ∧ init ⟨f i, x⟩ = true)) := by
  induction n with
  | zero => exact Triple.nil.conseq (fun _ h => h) (fun s hs => ⟨hs.size, hs.keep, hs.fact, by simp⟩)
  | succ n ih =>
    rw [range_succ, map_append]
    refine Triple.seq (ih (fun i hi => h0 i (by omega)) (fun i hi => hsz i (by omega))) ?_
    refine (Env.calloc (f n) m (h0 n (by omega)) ?_ ?_).conseq (fun _ h => h) ?_
    · rw [szSets_of_ne]
      · exact hsz n (by omega)
      · intro i hi e
        exact absurd (hf e) (by omega)
    · apply Stable.and
      · intro m m' i i' h hp
        exact hst m m' i i' (fun l hl => h l (fun e => hl ⟨n, e⟩)) hp
      · intro m m' i i' h hp j x hj
        have := h ⟨f j, x⟩ (fun e => absurd (hf e) (by omega))
        rw [this.1, this.2]
        exact hp j x hj
    · intro s hs
      refine ⟨hs.size, hs.keep, hs.fact.1.1, ?_⟩
      intro i x hi
      rcases Nat.lt_succ_iff_lt_or_eq.1 hi with h | h
      · exact hs.fact.1.2 i x h
      · subst h; exact hs.fact.2 x

/-- Freeing `f 0 … f (n-1)`. -/
theorem Env.frees (f : Nat → Buf) (hf : Function.Injective f) (n : Nat)
    (hsz : ∀ i, i < n → sz (f i) ≠ none) :
    Triple F (Env s0 sz X P) ((range n).map fun i => .free (f i)) (Env s0 (szSets sz f none n) X P) := by
  induction n with
  | zero => exact Triple.nil
  | succ n ih =>
    rw [range_succ, map_append]
    refine Triple.seq (ih (fun i hi => hsz i (by omega))) ?_
    refine (Env.free (f n) ?_).conseq (fun _ h => h) (fun _ h => h)
    rw [szSets_of_ne]
    · exact hsz n (by omega)
    · intro i hi e
      exact absurd (hf e) (by omega)

/-- Race-free, safe parallel phases. -/
theorem Env.phases {sz' : Buf → Option Nat} {X' : Loc → Prop} (ph : List (List (List Op)))
    (hrf : ∀ ts ∈ ph, RaceFree ts)
    (hsafe : ∀ s : State α, Env s0 sz X P s → ∀ ts ∈ ph, ∀ t ∈ ts, Safe sz s.init t)
    (h : ∀ s : State α, Env s0 sz X P s → Env s0 sz' X' P' (stateAfter F (phaseOps ph) s)) :
    Triple F (Env s0 sz X P) (ph.map Item.par) (Env s0 sz' X' P') :=
  Triple.phases ph hrf (fun s hs ts hts t ht => by rw [hs.size]; exact hsafe s hs ts hts t ht) h

end rules

theorem initAfter_eq_of_not_dst {ops : List Op} {i : Loc → Bool} {l : Loc}
    (h : ∀ o ∈ ops, o.dst ≠ l) : initAfter ops i l = i l := by
  unfold initAfter
  have : ops.any (fun o => decide (o.dst = l)) = false := by
    rw [List.any_eq_false]
    intro o ho
    simpa using h o ho
  rw [this, Bool.false_or]

/-- Phases are race free if all destinations are distinct and nothing written is read. -/
theorem raceFree_of_nodup {ph : List (List (List Op))} {b : Buf}
    (hn : ((phaseOps ph).map Op.dst).Nodup) (hd : ∀ o ∈ phaseOps ph, o.dst.buf = b)
    (hr : ∀ o ∈ phaseOps ph, ∀ r ∈ o.reads, r.buf ≠ b) : ∀ ts ∈ ph, RaceFree ts := by
  intro ts hts
  have hsub : ∀ o ∈ ts.flatten, o ∈ phaseOps ph := fun o ho =>
    mem_flatten.2 ⟨_, mem_map_of_mem hts, ho⟩
  have hnts : (ts.flatten.map Op.dst).Nodup := by
    obtain ⟨pre, post, rfl⟩ := List.append_of_mem hts
    rw [phaseOps_append, phaseOps_cons, map_append, map_append] at hn
    exact (nodup_append.1 (nodup_append.1 hn).2.1).1
  clear hn hts
  induction ts with
  | nil => exact Pairwise.nil
  | cons t ts ih =>
    rw [flatten_cons, map_append, nodup_append] at hnts
    refine Pairwise.cons ?_ (ih (fun o ho => hsub o (by rw [flatten_cons]; exact mem_append_right _ ho))
      hnts.2.1)
    intro t' ht' o ho o' ho' hc
    have ho1 : o ∈ phaseOps ph := hsub o (by rw [flatten_cons]; exact mem_append_left _ ho)
    have ho2f : o' ∈ ts.flatten := mem_flatten.2 ⟨t', ht', ho'⟩
    have ho2 : o' ∈ phaseOps ph := hsub o' (by rw [flatten_cons]; exact mem_append_right _ ho2f)
    rcases hc with h | h | h
    · exact hnts.2.2 _ (mem_map_of_mem ho) _ (mem_map_of_mem ho2f) h
    · exact hr o' ho2 _ h (hd o ho1)
    · exact hr o ho1 _ h (hd o' ho2)

theorem inB_of {sz : Buf → Option Nat} {b : Buf} {n x : Nat} (h : sz b = some n) (hx : x < n) :
    InB sz ⟨b, x⟩ := by
  unfold InB
  split
  · trivial
  · exact ⟨n, h, hx⟩

/-- Packing into the new buffer `b`: written consecutively, nothing read from `b`. -/
theorem Env.pack {s0 : State α} {sz : Buf → Option Nat} {X : Loc → Prop}
    {P : Mem α → (Loc → Bool) → Prop} {R : Mem α → Prop} {b : Buf} {len n : Nat}
    (ph : List (List (List Op))) (hseq : SeqW b 0 len (phaseOps ph))
    (hsz : sz b = some n) (hlen : len ≤ n) (h0 : s0.size b = none)
    (hreads : ∀ s : State α, Env s0 sz X P s → ∀ o ∈ phaseOps ph, ∀ l ∈ o.reads,
      InB sz l ∧ s.init l = true)
    (hne : ∀ o ∈ phaseOps ph, ∀ l ∈ o.reads, l.buf ≠ b)
    (hst : Stable (· = b) P)
    (hR : ∀ s : State α, Env s0 sz X P s → R (exec F (phaseOps ph) s.mem)) :
    Triple F (Env s0 sz X P) (ph.map Item.par)
      (Env s0 sz X (fun mem init => P mem init ∧ R mem ∧ ∀ x, x < len → init ⟨b, x⟩ = true)) := by
  have hd : ∀ o ∈ phaseOps ph, o.dst.buf = b := fun o ho => (hseq.dst_of_mem ho).1
  apply Env.phases
  · exact raceFree_of_nodup hseq.nodup hd hne
  · intro s hs ts hts t ht
    apply Safe.of_forall
    intro o ho
    have ho' : o ∈ phaseOps ph := mem_flatten.2 ⟨_, mem_map_of_mem hts, mem_flatten.2 ⟨t, ht, ho⟩⟩
    refine ⟨?_, hreads s hs o ho'⟩
    have := hseq.dst_of_mem ho'
    have e : o.dst = ⟨b, o.dst.idx⟩ := by rw [← this.1]
    rw [e]
    exact inB_of hsz (by omega)
  · intro s hs
    have hfr : ∀ l : Loc, l.buf ≠ b → exec F (phaseOps ph) s.mem l = s.mem l ∧
        initAfter (phaseOps ph) s.init l = s.init l := by
      intro l hl
      have hno : ∀ o ∈ phaseOps ph, o.dst ≠ l := fun o ho e => hl (e ▸ hd o ho)
      exact ⟨exec_frame F _ _ _ hno, initAfter_eq_of_not_dst hno⟩
    refine ⟨hs.size, ?_, ?_, hR s hs, ?_⟩
    · intro l hl hX
      have hl' : l.buf ≠ b := fun e => hl (e ▸ h0)
      have := hs.keep l hl hX
      exact ⟨(hfr l hl').1.trans this.1, (hfr l hl').2.trans this.2⟩
    · exact hst _ _ _ _ hfr hs.fact
    · intro x hx
      apply initAfter_of_mem
      right
      exact (hseq.mem_iff ⟨b, x⟩).2 ⟨rfl, Nat.zero_le _, by simpa using hx⟩

end Cake
