/-
Symbolic execution of the register packing kernels.
-/
import Verif.Model.PackAsm
import Verif.Proofs.Kernel
import Verif.Proofs.Strip
import Verif.Model.PackOb

namespace Cake
open List

/-- Registers holding, per lane, the location whose contents they have (`none`: something else). -/
abbrev Sym := Regs (Option Loc)

def Ins.sym : Ins → Sym → Sym
  | .ld d w a, v => v.set d fun i => if i < w then some (a +ₚ i) else none
  | .ldLane d i a, v => v.set d fun j => if j = i then some a else v d j
  | .st _ _ _ _, v => v
  | i, v => i.move v

/-- The elements an instruction stores, with the location they come from. -/
def Ins.stores : Ins → Sym → List (Loc × Option Loc)
  | .st a r lo w, v => (range w).map fun i => (a +ₚ i, v r (lo + i))
  | _, _ => []

def Ins.loads : Ins → List Loc
  | .ld _ w a => (range w).map fun i => a +ₚ i
  | .ldLane _ _ a => [a]
  | _ => []

def symIns : List Ins → Sym → Sym
  | [], v => v
  | i :: is, v => symIns is (i.sym v)

def storesIns : List Ins → Sym → List (Loc × Option Loc)
  | [], _ => []
  | i :: is, v => i.stores v ++ storesIns is (i.sym v)

theorem storesIns_append (p q : List Ins) (v : Sym) :
    storesIns (p ++ q) v = storesIns p v ++ storesIns q (symIns p v) := by
  induction p generalizing v with
  | nil => rfl
  | cons i is ih => simp [storesIns, symIns, ih, append_assoc]

/-- Lanes of known origin hold the contents of their origin. -/
def Agree {α : Type _} (b : Buf) (s : State α) (v : Regs α) (σ : Sym) : Prop :=
  ∀ r i l, σ r i = some l → l.buf = b ∧ v r i = s.mem l

section
variable {α : Type _} {F : Arith α} {b : Buf}

theorem Agree.set {s : State α} {v : Regs α} {σ : Sym} (h : Agree b s v σ) {d : Nat} {x : Nat → α} {y : Nat → Option Loc}
    (hxy : ∀ i l, y i = some l → l.buf = b ∧ x i = s.mem l) : Agree b s (v.set d x) (σ.set d y) := by
  intro r i l
  unfold Regs.set
  split
  · exact hxy i l
  · exact h r i l

theorem Agree.move {s : State α} {v : Regs α} {σ : Sym} (h : Agree b s v σ) (i : Ins) :
    Agree b s (i.move v) (i.move σ) := by
  cases i with
  | ld => exact h
  | ldLane => exact h
  | st => exact h
  | unpckl d x y =>
    refine h.set fun i l => ?_
    simp only [unpacklo]
    split <;> exact h _ _ _
  | unpckh d x y =>
    refine h.set fun i l => ?_
    simp only [unpackhi]
    split <;> exact h _ _ _
  | shuf imm d x y =>
    refine h.set fun i l => ?_
    simp only [shuffle_ps]
    split <;> exact h _ _ _
  | blend imm d x y =>
    refine h.set fun i l => ?_
    simp only [blendps]
    split <;> exact h _ _ _
  | extr d x => exact h.set fun i l => h _ _ _
  | trn1 d x y =>
    refine h.set fun i l => ?_
    simp only [trn1q]
    split <;> exact h _ _ _
  | trn2 d x y =>
    refine h.set fun i l => ?_
    simp only [trn2q]
    split <;> exact h _ _ _
  | trn1d d x y =>
    refine h.set fun i l => ?_
    simp only [trn1qd]
    split <;> exact h _ _ _
  | trn2d d x y =>
    refine h.set fun i l => ?_
    simp only [trn2qd]
    split <;> exact h _ _ _

/-- The effect of stores: elements not stored to keep their contents, an element all of whose stores have the same
contents ends with them. -/
def Stored (s s' : State α) (L : List (Loc × Option Loc)) : Prop :=
  s'.size = s.size ∧
  (∀ l, (∀ q ∈ L, q.1 ≠ l) → s'.mem l = s.mem l ∧ s'.init l = s.init l) ∧
  ∀ l w, (∀ q ∈ L, q.1 = l → ∃ x, q.2 = some x ∧ s.mem x = w) → (∃ q ∈ L, q.1 = l) →
    s'.mem l = w ∧ s'.init l = true

theorem origin_buf {p : List Ins} {s : State α} {v : Regs α} {σ : Sym} (h : Agree b s v σ)
    (hl : ∀ i ∈ p, ∀ l ∈ i.loads, l.buf = b) {q : Loc × Option Loc} (hq : q ∈ storesIns p σ) {x : Loc}
    (hx : q.2 = some x) : x.buf = b := by
  induction p generalizing v σ with
  | nil => cases hq
  | cons i is ih =>
    have hl' : ∀ j ∈ is, ∀ l ∈ j.loads, l.buf = b := fun j hj => hl j (mem_cons_of_mem _ hj)
    have hli := hl i mem_cons_self
    rcases mem_append.1 hq with hq | hq
    · cases i with
      | st a r lo w =>
        obtain ⟨k, hk, rfl⟩ := mem_map.1 hq
        exact (h _ _ _ hx).1
      | _ => cases hq
    · cases i with
      | ld d w a =>
        refine ih (h.set (d := d) (x := fun i => s.mem (a +ₚ i)) fun i l => ?_) hl' hq
        split
        · rename_i hi
          rintro ⟨⟩
          exact ⟨hli _ (mem_map.2 ⟨i, mem_range.2 hi, rfl⟩), rfl⟩
        · exact fun e => by cases e
      | ldLane d k a =>
        refine ih (h.set (d := d) (x := fun j => if j = k then s.mem a else v d j) fun i l => ?_) hl' hq
        split
        · rintro ⟨⟩
          exact ⟨hli a (mem_singleton.2 rfl), rfl⟩
        · exact h d i l
      | st => exact ih h hl' hq
      | unpckl => exact ih (h.move (.unpckl _ _ _)) hl' hq
      | unpckh => exact ih (h.move (.unpckh _ _ _)) hl' hq
      | shuf => exact ih (h.move (.shuf _ _ _ _)) hl' hq
      | blend => exact ih (h.move (.blend _ _ _ _)) hl' hq
      | extr => exact ih (h.move (.extr _ _)) hl' hq
      | trn1 => exact ih (h.move (.trn1 _ _ _)) hl' hq
      | trn2 => exact ih (h.move (.trn2 _ _ _)) hl' hq
      | trn1d => exact ih (h.move (.trn1d _ _ _)) hl' hq
      | trn2d => exact ih (h.move (.trn2d _ _ _)) hl' hq

theorem run_stored {b' : Buf} (hne : b ≠ b') (p : List Ins) {s : State α} {v : Regs α} {σ : Sym} (h : Agree b s v σ)
    (hl : ∀ i ∈ p, ∀ l ∈ i.loads, inB s.size l = true ∧ s.init l = true ∧ l.buf = b)
    (hs : ∀ q ∈ storesIns p σ, inB s.size q.1 = true ∧ q.1.buf = b' ∧ q.2 ≠ none) :
    ∃ s' v', runIns F p (s, v) = some (s', v') ∧ Stored s s' (storesIns p σ) := by
  induction p generalizing s v σ with
  | nil => exact ⟨s, v, rfl, rfl, fun _ _ => ⟨rfl, rfl⟩, fun _ _ _ h => by simp [storesIns] at h⟩
  | cons i is ih =>
    have hl' : ∀ j ∈ is, ∀ l ∈ j.loads, inB s.size l = true ∧ s.init l = true ∧ l.buf = b :=
      fun j hj => hl j (mem_cons_of_mem _ hj)
    have hli := hl i mem_cons_self
    have hs' : ∀ q ∈ storesIns is (i.sym σ), inB s.size q.1 = true ∧ q.1.buf = b' ∧ q.2 ≠ none :=
      fun q hq => hs q (mem_append_right _ hq)
    -- instructions that store nothing
    have noSt : ∀ v1 : Regs α, i.run F (s, v) = some (s, v1) → i.stores σ = [] → Agree b s v1 (i.sym σ) →
        ∃ s' v', runIns F (i :: is) (s, v) = some (s', v') ∧ Stored s s' (storesIns (i :: is) σ) := by
      intro v1 hr hst hag
      obtain ⟨s', v', e, hS⟩ := ih hag hl' hs'
      refine ⟨s', v', ?_, ?_⟩
      · simp only [runIns, hr, Option.bind_some, e]
      · simpa only [storesIns, hst, nil_append] using hS
    have mv : ∀ v1, i.run F (s, v) = some (s, v1) → v1 = i.move v → i.sym σ = i.move σ → i.stores σ = [] →
        ∃ s' v', runIns F (i :: is) (s, v) = some (s', v') ∧ Stored s s' (storesIns (i :: is) σ) := by
      intro v1 hr e e' hst
      refine noSt v1 hr hst ?_
      rw [e, e']
      exact h.move i
    cases i with
    | unpckl => exact mv _ rfl rfl rfl rfl
    | unpckh => exact mv _ rfl rfl rfl rfl
    | shuf => exact mv _ rfl rfl rfl rfl
    | blend => exact mv _ rfl rfl rfl rfl
    | extr => exact mv _ rfl rfl rfl rfl
    | trn1 => exact mv _ rfl rfl rfl rfl
    | trn2 => exact mv _ rfl rfl rfl rfl
    | trn1d => exact mv _ rfl rfl rfl rfl
    | trn2d => exact mv _ rfl rfl rfl rfl
    | ld d w a =>
      have hc : ∀ i, i < w → inB s.size (a +ₚ i) = true ∧ s.init (a +ₚ i) = true ∧ (a +ₚ i).buf = b :=
        fun i hi => hli _ (mem_map.2 ⟨i, mem_range.2 hi, rfl⟩)
      refine noSt _ (if_pos ?_) rfl (h.set fun i l => ?_)
      · rw [all_eq_true]
        intro i hi
        rw [(hc i (mem_range.1 hi)).1, (hc i (mem_range.1 hi)).2.1]
        rfl
      · split
        · rename_i hi
          rintro ⟨⟩
          exact ⟨(hc i hi).2.2, rfl⟩
        · exact fun e => by cases e
    | ldLane d k a =>
      obtain ⟨h1, h2, h3⟩ := hli a (mem_singleton.2 rfl)
      refine noSt _ (if_pos (by rw [h1, h2]; rfl)) rfl (h.set fun i l => ?_)
      split
      · rintro ⟨⟩
        exact ⟨h3, rfl⟩
      · exact h d i l
    | st a r lo w =>
      have hc : ∀ i, i < w → inB s.size (a +ₚ i) = true ∧ a.buf = b' ∧ σ r (lo + i) ≠ none := fun i hi =>
        hs (a +ₚ i, σ r (lo + i)) (mem_append_left _ (mem_map.2 ⟨i, mem_range.2 hi, rfl⟩))
      have hrun : (Ins.st a r lo w).run F (s, v) = some (⟨s.size,
          fun l => if l.buf = a.buf ∧ a.idx ≤ l.idx ∧ l.idx < a.idx + w then v r (lo + (l.idx - a.idx)) else s.mem l,
          fun l => if l.buf = a.buf ∧ a.idx ≤ l.idx ∧ l.idx < a.idx + w then true else s.init l⟩, v) :=
        if_pos (by rw [all_eq_true]; exact fun i hi => (hc i (mem_range.1 hi)).1)
      set s1 : State α := ⟨s.size,
          fun l => if l.buf = a.buf ∧ a.idx ≤ l.idx ∧ l.idx < a.idx + w then v r (lo + (l.idx - a.idx)) else s.mem l,
          fun l => if l.buf = a.buf ∧ a.idx ≤ l.idx ∧ l.idx < a.idx + w then true else s.init l⟩ with hs1
      have hin : ∀ l : Loc, (l.buf = a.buf ∧ a.idx ≤ l.idx ∧ l.idx < a.idx + w) → l.buf = b' := by
        rintro l ⟨e, h1, h2⟩
        rw [e]
        exact (hc 0 (by omega)).2.1
      have hkeep : ∀ l : Loc, l.buf = b → s1.mem l = s.mem l ∧ s1.init l = s.init l := by
        intro l e
        have : ¬ (l.buf = a.buf ∧ a.idx ≤ l.idx ∧ l.idx < a.idx + w) := fun hx => hne (e.symm.trans (hin l hx))
        exact ⟨if_neg this, if_neg this⟩
      have hag : Agree b s1 v σ := fun r' i l e => ⟨(h r' i l e).1, by rw [(hkeep l (h r' i l e).1).1]; exact (h r' i l e).2⟩
      obtain ⟨s', v', e, hS⟩ := ih hag (fun j hj l hjl => by
        obtain ⟨g1, g2, g3⟩ := hl' j hj l hjl
        exact ⟨g1, by rw [(hkeep l g3).2]; exact g2, g3⟩) hs'
      refine ⟨s', v', by simp only [runIns, hrun, Option.bind_some]; exact e, hS.1, ?_, ?_⟩
      · intro l hno
        obtain ⟨g1, g2⟩ := hS.2.1 l fun q hq => hno q (mem_append_right _ hq)
        have : ¬ (l.buf = a.buf ∧ a.idx ≤ l.idx ∧ l.idx < a.idx + w) := by
          rintro ⟨e1, e2, e3⟩
          refine hno (a +ₚ (l.idx - a.idx), σ r (lo + (l.idx - a.idx)))
            (mem_append_left _ (mem_map.2 ⟨_, mem_range.2 (by omega), rfl⟩)) ?_
          obtain ⟨lb, li⟩ := l
          simp only [Loc.off, Loc.mk.injEq]
          exact ⟨e1.symm, by simp only at e2; omega⟩
        exact ⟨g1.trans (if_neg this), g2.trans (if_neg this)⟩
      · intro l w' hall hex
        by_cases hlater : ∃ q ∈ storesIns is σ, q.1 = l
        · refine hS.2.2 l w' (fun q hq e => ?_) hlater
          obtain ⟨x, e1, e2⟩ := hall q (mem_append_right _ hq) e
          refine ⟨x, e1, ?_⟩
          have hxb : x.buf = b := origin_buf h (fun j hj l hjl => (hl' j hj l hjl).2.2) hq e1
          rw [(hkeep x hxb).1]
          exact e2
        · have hno : ∀ q ∈ storesIns is σ, q.1 ≠ l := fun q hq e => hlater ⟨q, hq, e⟩
          obtain ⟨g1, g2⟩ := hS.2.1 l hno
          obtain ⟨q, hq, rfl⟩ := hex
          rcases mem_append.1 hq with hq | hq
          · obtain ⟨k, hk, rfl⟩ := mem_map.1 hq
            have hk := mem_range.1 hk
            have hpos : ((a +ₚ k).buf = a.buf ∧ a.idx ≤ (a +ₚ k).idx ∧ (a +ₚ k).idx < a.idx + w) :=
              ⟨rfl, Nat.le_add_right _ _, Nat.add_lt_add_left hk _⟩
            obtain ⟨x, e1, e2⟩ := hall _ (mem_append_left _ hq) rfl
            have e3 := h r (lo + k) x e1
            refine ⟨g1.trans ((if_pos hpos).trans ?_), g2.trans (if_pos hpos)⟩
            have : (a +ₚ k).idx - a.idx = k := Nat.add_sub_cancel_left _ _
            rw [this, e3.2, e2]
          · exact absurd rfl (hno q hq)

end

/-! ### Panels -/

/-- The program stores, for each `i < W` and `j < k`, element `a[i * inca + j * lda]` into `p[j * ldp + i]`, and
loads no other elements. -/
def Panel (W inca lda ldp k : Nat) (a p : Loc) (prog : List Ins) : Prop :=
  (∀ σ q, q ∈ storesIns prog σ ↔
    ∃ i j, i < W ∧ j < k ∧ q = (p +ₚ (j * ldp + i), some (a +ₚ (i * inca + j * lda)))) ∧
  ∀ x ∈ prog, ∀ l ∈ x.loads, ∃ i j, i < W ∧ j < k ∧ l = a +ₚ (i * inca + j * lda)

theorem Panel.nil {W inca lda ldp : Nat} {a p : Loc} : Panel W inca lda ldp 0 a p [] := by
  refine ⟨fun σ q => ⟨fun h => ?_, ?_⟩, fun x h => ?_⟩
  · cases h
  · rintro ⟨i, j, _, hj, _⟩
    exact absurd hj (Nat.not_lt_zero _)
  · cases h

theorem Panel.append {W inca lda ldp k₁ k₂ : Nat} {a p a' p' : Loc} {x y : List Ins}
    (hx : Panel W inca lda ldp k₁ a p x) (hy : Panel W inca lda ldp k₂ a' p' y)
    (ha : a' = a +ₚ k₁ * lda) (hp : p' = p +ₚ k₁ * ldp) :
    Panel W inca lda ldp (k₁ + k₂) a p (x ++ y) := by
  subst ha hp
  have ea : ∀ i j, a +ₚ k₁ * lda +ₚ (i * inca + j * lda) = a +ₚ (i * inca + (k₁ + j) * lda) := by
    intro i j
    rw [off_off, Nat.add_mul]
    congr 1
    omega
  have ep : ∀ i j, p +ₚ k₁ * ldp +ₚ (j * ldp + i) = p +ₚ ((k₁ + j) * ldp + i) := by
    intro i j
    rw [off_off, Nat.add_mul]
    congr 1
    omega
  refine ⟨fun σ q => ?_, fun z hz l hl => ?_⟩
  · rw [storesIns_append, mem_append, hx.1, hy.1]
    constructor
    · rintro (⟨i, j, hi, hj, rfl⟩ | ⟨i, j, hi, hj, rfl⟩)
      · exact ⟨i, j, hi, by omega, rfl⟩
      · exact ⟨i, k₁ + j, hi, by omega, by rw [ea, ep]⟩
    · rintro ⟨i, j, hi, hj, rfl⟩
      by_cases h : j < k₁
      · exact Or.inl ⟨i, j, hi, h, rfl⟩
      · obtain ⟨t, rfl⟩ := Nat.exists_eq_add_of_le (Nat.le_of_not_lt h)
        exact Or.inr ⟨i, t, hi, by omega, by rw [ea, ep]⟩
  · rcases mem_append.1 hz with h | h
    · obtain ⟨i, j, hi, hj, e⟩ := hx.2 z h l hl
      exact ⟨i, j, hi, by omega, e⟩
    · obtain ⟨i, j, hi, hj, e⟩ := hy.2 z h l hl
      exact ⟨i, k₁ + j, hi, by omega, e.trans (ea i j)⟩

theorem Panel.loop {W inca lda ldp k da dp : Nat} {body : Loc → Loc → List Ins}
    (h : ∀ a p, Panel W inca lda ldp k a p (body a p)) (hda : da = k * lda) (hdp : dp = k * ldp) (n : Nat) (a p : Loc) :
    Panel W inca lda ldp (n * k) a p (loopIns body da dp n a p) := by
  induction n generalizing a p with
  | zero => rw [Nat.zero_mul]; exact Panel.nil
  | succ n ih =>
    have := (h a p).append (ih (a +ₚ da) (p +ₚ dp)) (by rw [hda]) (by rw [hdp])
    rwa [Nat.add_comm k, ← Nat.succ_mul] at this

/-- Main loop and edge loop. -/
theorem Panel.two {W inca lda ldp K : Nat} {body edge : Loc → Loc → List Ins} {da dp da' dp' : Nat}
    (h : ∀ a p, Panel W inca lda ldp K a p (body a p)) (h' : ∀ a p, Panel W inca lda ldp 1 a p (edge a p))
    (hda : da = K * lda) (hdp : dp = K * ldp) (hda' : da' = lda) (hdp' : dp' = ldp) (k : Nat) (a p : Loc) :
    Panel W inca lda ldp k a p (loopIns body da dp (k / K) a p ++
      loopIns edge da' dp' (k % K) (a +ₚ k / K * da) (p +ₚ k / K * dp)) := by
  have := (Panel.loop h hda hdp (k / K) a p).append
    (Panel.loop h' (da := da') (dp := dp') (by rw [hda', Nat.one_mul]) (by rw [hdp', Nat.one_mul]) (k % K) (a +ₚ k / K * da) (p +ₚ k / K * dp))
    (by rw [hda, Nat.mul_assoc]) (by rw [hdp, Nat.mul_assoc])
  rwa [Nat.mul_one, Nat.mul_comm, Nat.div_add_mod] at this

/-- A panel given by explicit lists: `cs` the coordinates stored, in order, `ls` those loaded. -/
theorem Panel.of {W inca lda ldp k : Nat} {a p : Loc} {prog : List Ins} (cs ls : List (Nat × Nat))
    (hs : ∀ σ, storesIns prog σ = cs.map fun c => (p +ₚ (c.2 * ldp + c.1), some (a +ₚ (c.1 * inca + c.2 * lda))))
    (hl : prog.flatMap Ins.loads = ls.map fun c => a +ₚ (c.1 * inca + c.2 * lda))
    (hcs : (∀ c ∈ cs, c.1 < W ∧ c.2 < k) ∧ ∀ i < W, ∀ j < k, (i, j) ∈ cs) (hls : ∀ c ∈ ls, c.1 < W ∧ c.2 < k) :
    Panel W inca lda ldp k a p prog := by
  refine ⟨fun σ q => ?_, fun x hx l hlx => ?_⟩
  · rw [hs, mem_map]
    constructor
    · rintro ⟨c, hc, rfl⟩
      exact ⟨c.1, c.2, (hcs.1 c hc).1, (hcs.1 c hc).2, rfl⟩
    · rintro ⟨i, j, hi, hj, rfl⟩
      exact ⟨(i, j), hcs.2 i hi j hj, rfl⟩
  · have : l ∈ prog.flatMap Ins.loads := mem_flatMap.2 ⟨x, hx, hlx⟩
    rw [hl] at this
    obtain ⟨c, hc, rfl⟩ := mem_map.1 this
    exact ⟨c.1, c.2, (hls c hc).1, (hls c hc).2, rfl⟩

/-- Columns `c` of `cols`, rows `lo .. lo+w-1` of each. -/
def cells (cols : List Nat) (lo w : Nat) : List (Nat × Nat) := cols.flatMap fun c => (range w).map fun i => (lo + i, c)

/-- Rows `r` of `rows`, columns `0 .. w-1` of each. -/
def lines (rows : List Nat) (w : Nat) : List (Nat × Nat) := rows.flatMap fun r => (range w).map fun j => (r, j)

macro "psim" : tactic => `(tactic| simp [storesIns, symIns, Ins.stores, Ins.sym, Ins.move, Ins.loads, Regs.set, cells, lines,
  range_succ, Loc.off, unpacklo, unpackhi, shuffle_ps, blendps, extract1, trn1q, trn2q, trn1qd, trn2qd, Nat.testBit_eq_decide_div_mod_eq])

theorem colLeft6_panel (lda : Nat) (a p : Loc) : Panel 6 1 lda 6 1 a p (colLeft6 a p) := by
  refine Panel.of (cells [0] 0 6) (cells [0] 0 6) (fun σ => ?_) ?_ (by decide +kernel) (by decide +kernel)
  · simp [storesIns, colLeft6, Ins.stores, Ins.sym, Regs.set, cells, range_succ, Loc.off]
  · simp [colLeft6, Ins.loads, cells, range_succ, Loc.off]

theorem col6_panel (lda : Nat) (a p : Loc) :
    Panel 6 1 lda 6 8 a p (col6 lda (lda + lda * 2) (lda + lda * 2 + lda * 2) (lda + lda * 2 + lda * 4) a p) := by
  refine Panel.of (cells (range 8) 0 6) (cells (range 8) 0 6) (fun σ => ?_) ?_ (by decide +kernel) (by decide +kernel)
  · unfold col6; psim; omega
  · unfold col6; psim; omega

theorem rowLeft6_panel (inca : Nat) (a p : Loc) : Panel 6 inca 1 6 1 a p
    (rowLeft6 inca (inca + inca * 2) (inca + inca * 2 + inca * 2) a p) := by
  refine Panel.of (cells [0] 0 6) (cells [0] 0 6) (fun σ => ?_) ?_ (by decide +kernel) (by decide +kernel)
  · unfold rowLeft6; psim; omega
  · unfold rowLeft6; psim; omega

theorem row6_panel (inca : Nat) (a p : Loc) : Panel 6 inca 1 6 8 a p
    (row6 inca (inca + inca * 2) (inca + inca * 2 + inca * 2) a p) := by
  refine Panel.of (cells [0, 4, 1, 5, 2, 6, 3, 7] 0 4 ++ cells [0, 1, 4, 5, 2, 3, 6, 7] 4 2) (lines (range 6) 8)
    (fun σ => ?_) ?_ (by decide +kernel) (by decide +kernel)
  · unfold row6 rows4; psim; omega
  · unfold row6 rows4; psim; omega

theorem colLeft16_panel (lda : Nat) (a p : Loc) : Panel 16 1 lda 16 1 a p (colLeft16 a p) := by
  refine Panel.of (cells [0] 0 16) (cells [0] 0 16) (fun σ => ?_) ?_ (by decide +kernel) (by decide +kernel)
  · unfold colLeft16; psim
  · unfold colLeft16; psim

theorem col16_panel (lda : Nat) (a p : Loc) :
    Panel 16 1 lda 16 8 a p (col16 lda (lda + lda * 2) (lda + lda * 2 + lda * 2) (lda + lda * 2 + lda * 4) a p) := by
  refine Panel.of (cells (range 8) 0 16) (cells (range 8) 0 16) (fun σ => ?_) ?_ (by decide +kernel) (by decide +kernel)
  · unfold col16; psim; omega
  · unfold col16; psim; omega

theorem rowLeft16_panel (inca : Nat) (a p : Loc) : Panel 16 inca 1 16 1 a p
    (rowLeft16 inca (inca + inca * 2) (inca + inca * 2 + inca * 2) (inca + inca * 2 + inca * 4) a p) := by
  refine Panel.of (cells [0] 0 16) (cells [0] 0 16) (fun σ => ?_) ?_ (by decide +kernel) (by decide +kernel)
  · unfold rowLeft16; psim; omega
  · unfold rowLeft16; psim; omega

/-- Four rows, starting at row `r`. -/
theorem rows4_stores (inca W r : Nat) (a a' p : Loc) (q : Nat → Loc) (ha : a' = a +ₚ r * inca)
    (hq : ∀ c, q c = p +ₚ (c * W + r)) (σ : Sym) : storesIns (rows4 a' inca (inca + inca * 2) q) σ =
    (cells [0, 4, 1, 5, 2, 6, 3, 7] r 4).map fun c => (p +ₚ (c.2 * W + c.1), some (a +ₚ (c.1 * inca + c.2 * 1))) := by
  obtain rfl : q = fun c => p +ₚ (c * W + r) := funext hq
  subst ha
  unfold rows4; psim
  simp only [Nat.add_mul]
  omega

theorem rows4_loads (inca r : Nat) (a a' : Loc) (q : Nat → Loc) (ha : a' = a +ₚ r * inca) :
    (rows4 a' inca (inca + inca * 2) q).flatMap Ins.loads =
    (lines [r, r + 1, r + 2, r + 3] 8).map fun c => a +ₚ (c.1 * inca + c.2 * 1) := by
  subst ha
  unfold rows4; psim
  simp only [Nat.add_mul]
  omega

theorem row16_panel (inca : Nat) (a p : Loc) : Panel 16 inca 1 16 8 a p (row16 inca (inca + inca * 2) a p) := by
  refine Panel.of (cells [0, 4, 1, 5, 2, 6, 3, 7] 0 4 ++ cells [0, 4, 1, 5, 2, 6, 3, 7] 4 4 ++
    cells [0, 4, 1, 5, 2, 6, 3, 7] 8 4 ++ cells [0, 4, 1, 5, 2, 6, 3, 7] 12 4) (lines (range 16) 8)
    (fun σ => ?_) ?_ (by decide +kernel) (by decide +kernel)
  · unfold row16
    simp only [storesIns_append, map_append]
    have h0 := rows4_stores inca 16 0 a a p (fun c => p +ₚ c * 16) (by simp [Loc.off]) (fun c => rfl)
    have h1 := rows4_stores inca 16 4 a (a +ₚ inca * 4) p (fun c => p +ₚ 4 +ₚ c * 16) (by rw [Nat.mul_comm])
      (fun c => by rw [off_off, Nat.add_comm])
    have h2 := rows4_stores inca 16 8 a (a +ₚ inca * 4 +ₚ inca * 4) p (fun c => p +ₚ 4 +ₚ 4 +ₚ c * 16)
      (by rw [off_off]; congr 1; omega) (fun c => by rw [off_off, off_off]; congr 1; omega)
    have h3 := rows4_stores inca 16 12 a (a +ₚ inca * 4 +ₚ inca * 4 +ₚ inca * 4) p (fun c => p +ₚ 4 +ₚ 4 +ₚ 4 +ₚ c * 16)
      (by rw [off_off, off_off]; congr 1; omega) (fun c => by rw [off_off, off_off, off_off]; congr 1; omega)
    rw [h0, h1, h2, h3]
  · unfold row16
    rw [flatMap_append, flatMap_append, flatMap_append, rows4_loads inca 0 a a _ (by simp [Loc.off]),
      rows4_loads inca 4 a _ _ (by rw [Nat.mul_comm]), rows4_loads inca 8 a _ _ (by rw [off_off]; congr 1; omega),
      rows4_loads inca 12 a _ _ (by rw [off_off, off_off]; congr 1; omega), ← map_append, ← map_append, ← map_append]
    rfl

theorem armCol8_panel (lda ldp : Nat) (a p : Loc) : Panel 8 1 lda ldp 1 a p (armCol8 a p) := by
  refine Panel.of (cells [0] 0 8) (cells [0] 0 8) (fun σ => ?_) ?_ (by decide +kernel) (by decide +kernel)
  · unfold armCol8; psim
  · unfold armCol8; psim

theorem armRow8_panel (inca ldp : Nat) (a p : Loc) : Panel 8 inca 1 ldp 4 a p (armRow8 inca ldp a p) := by
  refine Panel.of (cells (range 4) 0 8) (lines (range 8) 4) (fun σ => ?_) ?_ (by decide +kernel) (by decide +kernel)
  · unfold armRow8 trn4; psim; omega
  · unfold armRow8 trn4; psim; omega

theorem armRowLeft8_panel (inca ldp : Nat) (a p : Loc) : Panel 8 inca 1 ldp 1 a p (armRowLeft8 inca a p) := by
  refine Panel.of (cells [0] 0 8) (cells [0] 0 8) (fun σ => ?_) ?_ (by decide +kernel) (by decide +kernel)
  · unfold armRowLeft8; psim; omega
  · unfold armRowLeft8; psim; omega

theorem armCol12_panel (lda ldp : Nat) (a p : Loc) : Panel 12 1 lda ldp 1 a p (armCol12 a p) := by
  refine Panel.of (cells [0] 0 12) (cells [0] 0 12) (fun σ => ?_) ?_ (by decide +kernel) (by decide +kernel)
  · unfold armCol12; psim
  · unfold armCol12; psim

theorem armRow12_panel (inca ldp : Nat) (a p : Loc) : Panel 12 inca 1 ldp 4 a p (armRow12 inca ldp a p) := by
  refine Panel.of (cells (range 4) 0 12) (lines (range 12) 4) (fun σ => ?_) ?_ (by decide +kernel) (by decide +kernel)
  · unfold armRow12 trn4; psim; omega
  · unfold armRow12 trn4; psim; omega

theorem armRowLeft12_panel (inca ldp : Nat) (a p : Loc) : Panel 12 inca 1 ldp 1 a p (armRowLeft12 inca a p) := by
  refine Panel.of (cells [0] 0 12) (cells [0] 0 12) (fun σ => ?_) ?_ (by decide +kernel) (by decide +kernel)
  · unfold armRowLeft12; psim; omega
  · unfold armRowLeft12; psim; omega

/-! ### The four kernels -/

theorem haswell6_panel (k : Nat) (a p : Loc) {inca lda : Nat} (h : inca = 1 ∨ lda = 1) (ldp : Nat) :
    Panel 6 inca lda 6 k a p (spackm_haswell_6xk 6 k true a inca lda p ldp) := by
  unfold spackm_haswell_6xk
  simp only
  rw [if_pos ⟨trivial, by omega⟩, if_pos trivial]
  split
  · subst inca
    exact Panel.two (col6_panel lda) (colLeft6_panel lda) (Nat.mul_comm _ _) rfl rfl rfl k a p
  · obtain rfl : lda = 1 := by omega
    exact Panel.two (row6_panel inca) (rowLeft6_panel inca) rfl rfl rfl rfl k a p

theorem haswell16_panel (k : Nat) (a p : Loc) {inca lda : Nat} (h : inca = 1 ∨ lda = 1) (ldp : Nat) :
    Panel 16 inca lda 16 k a p (spackm_haswell_16xk 16 k true a inca lda p ldp) := by
  unfold spackm_haswell_16xk
  simp only
  rw [if_pos ⟨trivial, by omega⟩, if_pos trivial]
  split
  · subst inca
    exact Panel.two (col16_panel lda) (colLeft16_panel lda) (Nat.mul_comm _ _) rfl rfl rfl k a p
  · obtain rfl : lda = 1 := by omega
    exact Panel.two (row16_panel inca) (rowLeft16_panel inca) rfl rfl rfl rfl k a p

theorem armv8_8_panel (k : Nat) (a p : Loc) {inca lda : Nat} (h : inca = 1 ∨ lda = 1) (ldp : Nat) :
    Panel 8 inca lda ldp k a p (spackm_armv8_8xk 8 k a inca lda p ldp) := by
  unfold spackm_armv8_8xk
  simp only
  rw [if_pos ⟨trivial, by omega⟩]
  split
  · subst inca
    have := Panel.loop (armCol8_panel lda ldp) (Nat.one_mul _).symm (Nat.one_mul _).symm (k / 4 * 4 + k % 4) a p
    rw [Nat.mul_one] at this
    rw [Nat.div_add_mod'] at this ⊢
    exact this
  · obtain rfl : lda = 1 := by omega
    exact Panel.two (armRow8_panel inca ldp) (armRowLeft8_panel inca ldp) rfl rfl rfl rfl k a p

theorem armv8_12_panel (k : Nat) (a p : Loc) {inca lda : Nat} (h : inca = 1 ∨ lda = 1) (ldp : Nat) :
    Panel 12 inca lda ldp k a p (spackm_armv8_12xk 12 k a inca lda p ldp) := by
  unfold spackm_armv8_12xk
  simp only
  rw [if_pos ⟨trivial, by omega⟩]
  split
  · subst inca
    have := Panel.loop (armCol12_panel lda ldp) (Nat.one_mul _).symm (Nat.one_mul _).symm (k / 4 * 4 + k % 4) a p
    rw [Nat.mul_one] at this
    rw [Nat.div_add_mod'] at this ⊢
    exact this
  · obtain rfl : lda = 1 := by omega
    exact Panel.two (armRow12_panel inca ldp) (armRowLeft12_panel inca ldp) rfl rfl rfl rfl k a p

/-! ### Running a panel -/

section
variable {α : Type _} {F : Arith α}

theorem Panel.run {W inca lda ldp k : Nat} {a p : Loc} {prog : List Ins} (h : Panel W inca lda ldp k a p prog)
    (hW : W ≤ ldp) (hne : a.buf ≠ p.buf) {s : State α}
    (ha : ∀ i j, i < W → j < k → inB s.size (a +ₚ (i * inca + j * lda)) = true ∧ s.init (a +ₚ (i * inca + j * lda)) = true)
    (hp : ∀ i j, i < W → j < k → inB s.size (p +ₚ (j * ldp + i)) = true) (v : Regs α) :
    ∃ s' v', runIns F prog (s, v) = some (s', v') ∧ s'.size = s.size ∧
      (∀ i j, i < W → j < k → s'.mem (p +ₚ (j * ldp + i)) = s.mem (a +ₚ (i * inca + j * lda)) ∧
        s'.init (p +ₚ (j * ldp + i)) = true) ∧
      ∀ l, (∀ i j, i < W → j < k → l ≠ p +ₚ (j * ldp + i)) → s'.mem l = s.mem l ∧ s'.init l = s.init l := by
  have hinj : ∀ {i j i' j' : Nat}, i < W → i' < W → p +ₚ (j * ldp + i) = p +ₚ (j' * ldp + i') → i = i' ∧ j = j' := by
    intro i j i' j' hi hi' e
    simp only [Loc.off, Loc.mk.injEq, true_and] at e
    have := mulAdd_inj (L := ldp) (q := j) (l := i) (q' := j') (l' := i') (by omega) (by omega) (by omega)
    exact ⟨this.2, this.1⟩
  obtain ⟨s', v', e, hS⟩ := run_stored (F := F) (b := a.buf) (b' := p.buf) hne prog (s := s) (v := v)
    (σ := fun _ _ => none) (fun _ _ _ e => by cases e)
    (fun x hx l hl => by
      obtain ⟨i, j, hi, hj, rfl⟩ := h.2 x hx l hl
      exact ⟨(ha i j hi hj).1, (ha i j hi hj).2, rfl⟩)
    (fun q hq => by
      obtain ⟨i, j, hi, hj, rfl⟩ := (h.1 _ q).1 hq
      exact ⟨hp i j hi hj, rfl, by simp⟩)
  refine ⟨s', v', e, hS.1, fun i j hi hj => ?_, fun l hl => ?_⟩
  · refine hS.2.2 _ _ (fun q hq e => ?_) ⟨_, (h.1 _ _).2 ⟨i, j, hi, hj, rfl⟩, rfl⟩
    obtain ⟨i', j', hi', hj', rfl⟩ := (h.1 _ q).1 hq
    obtain ⟨rfl, rfl⟩ := hinj hi' hi e
    exact ⟨_, rfl, rfl⟩
  · refine hS.2.1 l fun q hq => ?_
    obtain ⟨i, j, hi, hj, rfl⟩ := (h.1 _ q).1 hq
    exact (hl i j hi hj).symm

/-- A list of copies. -/
theorem copies_run {W k : Nat} {src : Nat → Nat → Loc} {p : Loc} {ops : List Op}
    (hops : ops = (range k).flatMap fun j => (range W).flatMap fun i => [Op.copy (p +ₚ (j * W + i)) (src i j)])
    {s : State α} (hne : ∀ i j, (src i j).buf ≠ p.buf)
    (ha : ∀ i j, i < W → j < k → InB s.size (src i j) ∧ s.init (src i j) = true)
    (hp : ∀ i j, i < W → j < k → InB s.size (p +ₚ (j * W + i))) :
    ∃ s', (∀ out, RunOps F ops s out → out = .ok s') ∧ s'.size = s.size ∧
      (∀ i j, i < W → j < k → s'.mem (p +ₚ (j * W + i)) = s.mem (src i j) ∧ s'.init (p +ₚ (j * W + i)) = true) ∧
      ∀ l, (∀ i j, i < W → j < k → l ≠ p +ₚ (j * W + i)) → s'.mem l = s.mem l ∧ s'.init l = s.init l := by
  have hmem : ∀ o, o ∈ ops ↔ ∃ i j, i < W ∧ j < k ∧ o = Op.copy (p +ₚ (j * W + i)) (src i j) := by
    intro o
    rw [hops]
    simp only [mem_flatMap, mem_range, mem_singleton]
    constructor
    · rintro ⟨j, hj, i, hi, e⟩
      exact ⟨i, j, hi, hj, e⟩
    · rintro ⟨i, j, hi, hj, e⟩
      exact ⟨j, hj, i, hi, e⟩
  have hinj : ∀ {i j i' j' : Nat}, i < W → i' < W → p +ₚ (j * W + i) = p +ₚ (j' * W + i') → i = i' ∧ j = j' := by
    intro i j i' j' hi hi' e
    simp only [Loc.off, Loc.mk.injEq, true_and] at e
    have := mulAdd_inj (L := W) (q := j) (l := i) (q' := j') (l' := i') hi hi' (by omega)
    exact ⟨this.2, this.1⟩
  refine ⟨stateAfter F ops s, fun out h => runOps_safe F (Safe.of_forall fun o ho => ?_) h, rfl, fun i j hi hj => ?_,
    fun l hl => ?_⟩
  · obtain ⟨i, j, hi, hj, rfl⟩ := (hmem o).1 ho
    refine ⟨hp i j hi hj, fun r hr => ?_⟩
    obtain rfl := mem_singleton.1 hr
    exact ha i j hi hj
  · refine ⟨exec_const F ops s.mem _ _ ⟨_, (hmem _).2 ⟨i, j, hi, hj, rfl⟩, rfl⟩ fun o ho e => ?_, ?_⟩
    · obtain ⟨i', j', hi', hj', rfl⟩ := (hmem o).1 ho
      obtain ⟨rfl, rfl⟩ := hinj hi' hi e
      refine ⟨fun r hr o' ho' e' => ?_, rfl⟩
      obtain rfl := mem_singleton.1 hr
      obtain ⟨i'', j'', _, _, rfl⟩ := (hmem o').1 ho'
      exact hne i' j' (by rw [← e']; rfl)
    · simp only [stateAfter, initAfter, Bool.or_eq_true, any_eq_true, decide_eq_true_eq]
      exact Or.inl ⟨_, (hmem _).2 ⟨i, j, hi, hj, rfl⟩, rfl⟩
  · have hno : ∀ o ∈ ops, o.dst ≠ l := by
      intro o ho
      obtain ⟨i, j, hi, hj, rfl⟩ := (hmem o).1 ho
      exact (hl i j hi hj).symm
    refine ⟨exec_frame F ops s.mem l hno, ?_⟩
    simp only [stateAfter, initAfter]
    have : ops.any (fun o => decide (o.dst = l)) = false := by
      rw [any_eq_false]
      intro o ho
      simpa using hno o ho
    rw [this, Bool.false_or]

end

theorem packA_mr_eq (a p : Loc) (K k W : Nat) : pack_A_mr_x_kc a p K k W =
    (range k).flatMap fun j => (range W).flatMap fun i => [Op.copy (p +ₚ (j * W + i)) (a +ₚ (i * K + j * 1))] := by
  unfold pack_A_mr_x_kc
  rw [loop2_eq k W 0 fun i j c => [Op.copy (p +ₚ c) (a +ₚ (i + j * K))]]
  simp only [Nat.zero_add, Nat.mul_one, Nat.add_comm (_ * K)]

theorem packB_nr_eq (a p : Loc) (N k W : Nat) : pack_B_nr_x_kc a p N k W =
    (range k).flatMap fun j => (range W).flatMap fun i => [Op.copy (p +ₚ (j * W + i)) (a +ₚ (i * 1 + j * N))] := by
  unfold pack_B_nr_x_kc
  rw [loop2_eq k W 0 fun i j c => [Op.copy (p +ₚ c) (a +ₚ (i * N + j))]]
  simp only [Nat.zero_add, Nat.mul_one, Nat.add_comm (_ * N)]

end Cake
