/-
Generic facts about the semantics of `Verif.Core` (no program specific content).
-/
import Verif.Core
import Mathlib.Data.List.Perm.Basic
import Mathlib.Data.List.Nodup
import Mathlib.Tactic.Common

namespace Cake

variable {α : Type _} (F : Arith α)

@[simp] theorem off_buf (l : Loc) (d : Nat) : (l +ₚ d).buf = l.buf := rfl
@[simp] theorem off_idx (l : Loc) (d : Nat) : (l +ₚ d).idx = l.idx + d := rfl

theorem off_off (l : Loc) (d e : Nat) : l +ₚ d +ₚ e = l +ₚ (d + e) := by
  simp [Loc.off, Nat.add_assoc]

@[simp] theorem off_inj (l : Loc) (d e : Nat) : l +ₚ d = l +ₚ e ↔ d = e := by
  simp [Loc.off]

theorem Loc.ext_iff' (a b : Loc) : a = b ↔ a.buf = b.buf ∧ a.idx = b.idx := by
  cases a; cases b; simp

/-! ### Sequential execution -/

@[simp] theorem exec_nil (m : Mem α) : exec F [] m = m := rfl

theorem exec_cons (o : Op) (os : List Op) (m : Mem α) :
    exec F (o :: os) m = exec F os (o.step F m) := rfl

theorem exec_append (xs ys : List Op) (m : Mem α) :
    exec F (xs ++ ys) m = exec F ys (exec F xs m) := by
  induction xs generalizing m with
  | nil => rfl
  | cons x xs ih => simp [exec_cons, ih]

/-- Locations that are not written keep their value. -/
theorem exec_frame (ops : List Op) (m : Mem α) (l : Loc) (h : ∀ o ∈ ops, o.dst ≠ l) :
    exec F ops m l = m l := by
  induction ops generalizing m with
  | nil => rfl
  | cons o os ih =>
    rw [exec_cons, ih _ (fun o' h' => h o' (List.mem_cons_of_mem _ h'))]
    have := h o (List.mem_cons_self ..)
    simp [Op.step, Ne.symm this]

theorem exec_frame_buf (ops : List Op) (m : Mem α) (l : Loc)
    (h : ∀ o ∈ ops, o.dst.buf ≠ l.buf) : exec F ops m l = m l :=
  exec_frame F ops m l fun o ho e => h o ho (by rw [e])

/-- The value of an operation depends only on the locations it reads. -/
theorem Op.val_congr (o : Op) {m m' : Mem α} (h : ∀ r ∈ o.reads, m r = m' r) :
    o.val F m = o.val F m' := by
  cases o <;> simp_all [Op.val, Op.reads]

/-- If every operation writing `d` writes the same value `v` (whatever the memory reached so far, as long
as it agrees with the initial one on the unwritten locations) and `d` is written at least once,
the final value is `v`. -/
theorem exec_const (ops : List Op) (m : Mem α) (d : Loc) (v : α)
    (hex : ∃ o ∈ ops, o.dst = d)
    (hval : ∀ o ∈ ops, o.dst = d → (∀ r ∈ o.reads, ∀ o' ∈ ops, o'.dst ≠ r) ∧ o.val F m = v) :
    exec F ops m d = v := by
  -- generalise to suffixes
  suffices H : ∀ (os : List Op) (m' : Mem α), (∀ o ∈ os, o ∈ ops) →
      (∀ l, (∀ o ∈ ops, o.dst ≠ l) → m' l = m l) →
      ((∃ o ∈ os, o.dst = d) ∨ m' d = v) → exec F os m' d = v by
    exact H ops m (fun _ h => h) (fun _ _ => rfl) (Or.inl hex)
  intro os
  induction os with
  | nil => intro m' _ _ h; simpa using h
  | cons o os ih =>
    intro m' hsub hagree h
    rw [exec_cons]
    apply ih _ (fun o' h' => hsub o' (List.mem_cons_of_mem _ h'))
    · intro l hl
      have := hl o (hsub o (List.mem_cons_self ..))
      simp [Op.step, Ne.symm this, hagree l hl]
    · by_cases hd : o.dst = d
      · right
        have ⟨h1, h2⟩ := hval o (hsub o (List.mem_cons_self ..)) hd
        have : o.val F m' = o.val F m := Op.val_congr F o fun r hr => hagree r (h1 r hr)
        simp [Op.step, hd, this, h2]
      · rcases h with ⟨o', ho', e⟩ | h
        · rcases List.mem_cons.1 ho' with rfl | ho'
          · exact absurd e hd
          · exact Or.inl ⟨o', ho', e⟩
        · right; simp [Op.step, Ne.symm hd, h]

/-- Distinct destinations: each written location ends up with the value of its operation, provided
the sources are not themselves written. -/
theorem exec_mem (ops : List Op) (m : Mem α) (o : Op) (ho : o ∈ ops)
    (hn : (ops.map Op.dst).Nodup)
    (hr : ∀ r ∈ o.reads, ∀ o' ∈ ops, o'.dst ≠ r) : exec F ops m o.dst = o.val F m := by
  apply exec_const F ops m o.dst _ ⟨o, ho, rfl⟩
  intro o' ho' e
  have : o' = o := List.inj_on_of_nodup_map hn ho' ho e
  subst this
  exact ⟨hr, rfl⟩

/-- Distinct destinations, own destination may be read (`fma`). -/
theorem exec_mem' (ops : List Op) (m : Mem α) (o : Op) (ho : o ∈ ops)
    (hn : (ops.map Op.dst).Nodup)
    (hr : ∀ r ∈ o.reads, ∀ o' ∈ ops, o' ≠ o → o'.dst ≠ r) : exec F ops m o.dst = o.val F m := by
  obtain ⟨pre, post, rfl⟩ := List.append_of_mem ho
  rw [List.map_append, List.map_cons] at hn
  have hn2 := List.nodup_append.1 hn
  have hn3 := List.nodup_cons.1 hn2.2.1
  rw [exec_append, exec_cons, exec_frame]
  · simp only [Op.step, if_true]
    apply Op.val_congr
    intro r hr'
    apply exec_frame
    intro o' ho' e
    refine hr r hr' o' (List.mem_append_left _ ho') ?_ e
    rintro rfl
    exact hn2.2.2 _ (List.mem_map_of_mem ho') _ (List.mem_cons_self ..) rfl
  · intro o' ho' e
    exact hn3.1 (e ▸ List.mem_map_of_mem ho')

/-- In a loop, the value of `l` is decided by the iteration `x0` if the others do not touch the
set `P` of locations that matter for it. -/
theorem exec_flatMap_at {β : Type _} (xs : List β) (f : β → List Op) (m : Mem α) (x0 : β)
    (hx : x0 ∈ xs) (hn : xs.Nodup) (l : Loc) (v : α) (P : Loc → Prop) (hl : P l)
    (hv : ∀ m' : Mem α, (∀ r, P r → m' r = m r) → exec F (f x0) m' l = v)
    (hP : ∀ x ∈ xs, x ≠ x0 → ∀ o ∈ f x, ¬ P o.dst) : exec F (xs.flatMap f) m l = v := by
  obtain ⟨pre, post, rfl⟩ := List.append_of_mem hx
  have hn2 := List.nodup_append.1 hn
  have hn3 := List.nodup_cons.1 hn2.2.1
  rw [List.flatMap_append, List.flatMap_cons, exec_append, exec_append, exec_frame]
  · apply hv
    intro r hr
    apply exec_frame
    intro o ho e
    obtain ⟨x, hx', ho⟩ := List.mem_flatMap.1 ho
    refine hP x (List.mem_append_left _ hx') ?_ o ho (e ▸ hr)
    rintro rfl
    exact hn2.2.2 _ hx' _ (List.mem_cons_self ..) rfl
  · intro o ho e
    obtain ⟨x, hx', ho⟩ := List.mem_flatMap.1 ho
    refine hP x (List.mem_append_right _ (List.mem_cons_of_mem _ hx')) ?_ o ho (e ▸ hl)
    rintro rfl
    exact hn3.1 hx'

/-- Invariant rule for counting loops. -/
theorem exec_range_induct (f : Nat → List Op) (n : Nat) (m : Mem α) (Inv : Nat → Mem α → Prop)
    (h0 : Inv 0 m) (hs : ∀ i, i < n → ∀ m', Inv i m' → Inv (i + 1) (exec F (f i) m')) :
    Inv n (exec F ((List.range n).flatMap f) m) := by
  induction n with
  | zero => simpa using h0
  | succ n ih =>
    rw [List.range_succ, List.flatMap_append, exec_append]
    simp only [List.flatMap_cons, List.flatMap_nil, List.append_nil]
    exact hs n (by omega) _ (ih (fun i hi => hs i (by omega)))

/-- Invariant rule for loops over a list; the invariant is indexed by the part already done. -/
theorem exec_list_induct {β : Type _} (xs : List β) (f : β → List Op) (m : Mem α)
    (Inv : List β → Mem α → Prop) (h0 : Inv [] m)
    (hs : ∀ done x rest, xs = done ++ x :: rest → ∀ m', Inv done m' →
      Inv (done ++ [x]) (exec F (f x) m')) :
    Inv xs (exec F (xs.flatMap f) m) := by
  suffices H : ∀ rest done m', xs = done ++ rest → Inv done m' →
      Inv xs (exec F (rest.flatMap f) m') by exact H xs [] m rfl h0
  intro rest
  induction rest with
  | nil => intro done m' e h; simp at e; subst e; simpa using h
  | cons x rest ih =>
    intro done m' e h
    rw [List.flatMap_cons, exec_append]
    exact ih (done ++ [x]) _ (by simp [e]) (hs done x rest e m' h)

/-- Agreement on a set of locations is preserved if the set contains all that is read. -/
theorem exec_congr (ops : List Op) (m m' : Mem α) (P : Loc → Prop)
    (h : ∀ l, P l → m l = m' l) (hr : ∀ o ∈ ops, P o.dst → ∀ r ∈ o.reads, P r) :
    ∀ l, P l → exec F ops m l = exec F ops m' l := by
  induction ops generalizing m m' with
  | nil => simpa using h
  | cons o os ih =>
    intro l hl
    rw [exec_cons, exec_cons]
    apply ih _ _ _ (fun o' h' => hr o' (List.mem_cons_of_mem _ h')) l hl
    intro l' hl'
    by_cases e : l' = o.dst
    · simp only [Op.step, e, if_true]
      exact Op.val_congr F o fun r hr' => h r (hr o (List.mem_cons_self ..) (e ▸ hl') r hr')
    · simp [Op.step, e, h l' hl']

/-! ### Commuting independent operations, interleavings -/

theorem step_comm (o o' : Op) (h : ¬ o.Conflict o') (m : Mem α) :
    o.step F (o'.step F m) = o'.step F (o.step F m) := by
  simp only [Op.Conflict, not_or] at h
  obtain ⟨h1, h2, h3⟩ := h
  have e1 : o.val F (o'.step F m) = o.val F m := Op.val_congr F o fun r hr => by
    have : r ≠ o'.dst := fun e => h3 (e ▸ hr)
    simp [Op.step, this]
  have e2 : o'.val F (o.step F m) = o'.val F m := Op.val_congr F o' fun r hr => by
    have : r ≠ o.dst := fun e => h2 (e ▸ hr)
    simp [Op.step, this]
  funext l
  by_cases a : l = o.dst
  · have : l ≠ o'.dst := fun e => h1 (a ▸ e)
    have h' : o.dst ≠ o'.dst := h1
    subst a
    rw [Op.step, if_pos rfl, e1, Op.step, if_neg h', Op.step, if_pos rfl]
  · rw [Op.step, if_neg a]
    by_cases b : l = o'.dst
    · rw [Op.step, if_pos b, Op.step, if_pos b, e2]
    · rw [Op.step, if_neg b, Op.step, if_neg b, Op.step, if_neg a]

theorem exec_comm (o : Op) (os : List Op) (h : ∀ o' ∈ os, ¬ o.Conflict o') (m : Mem α) :
    exec F os (o.step F m) = o.step F (exec F os m) := by
  induction os generalizing m with
  | nil => rfl
  | cons x xs ih =>
    rw [exec_cons, exec_cons, ← ih (fun o' h' => h o' (List.mem_cons_of_mem _ h')),
      step_comm F o x (h x (List.mem_cons_self ..))]

theorem RaceFree.tail {pre : List (List Op)} {o : Op} {t : List Op} {post : List (List Op)}
    (h : RaceFree (pre ++ (o :: t) :: post)) : RaceFree (pre ++ t :: post) := by
  unfold RaceFree at *
  rw [List.pairwise_append] at h ⊢
  obtain ⟨h1, h2, h3⟩ := h
  rw [List.pairwise_cons] at h2 ⊢
  refine ⟨h1, ⟨?_, h2.2⟩, ?_⟩
  · intro t' ht' x hx
    exact h2.1 t' ht' x (List.mem_cons_of_mem _ hx)
  · intro a ha b hb x hx y hy
    rcases List.mem_cons.1 hb with rfl | hb
    · exact h3 a ha (o :: b) (List.mem_cons_self ..) x hx y (List.mem_cons_of_mem _ hy)
    · exact h3 a ha b (List.mem_cons_of_mem _ hb) x hx y hy

theorem Op.Conflict.symm {o o' : Op} (h : o.Conflict o') : o'.Conflict o := by
  rcases h with h | h | h
  · exact Or.inl h.symm
  · exact Or.inr (Or.inr h)
  · exact Or.inr (Or.inl h)

/-- **Interleaving independence**: every interleaving of race-free tasks has the effect of running
the tasks one after another. -/
theorem exec_interleave {ts : List (List Op)} {l : List Op} (hi : Interleave ts l)
    (hr : RaceFree ts) (m : Mem α) : exec F l m = exec F ts.flatten m := by
  induction hi generalizing m with
  | done ts h =>
    have : ts.flatten = [] := by
      rw [List.flatten_eq_nil_iff]; exact h
    rw [this]
  | step pre o t post l _ ih =>
    rw [exec_cons, ih hr.tail]
    simp only [List.flatten_append, List.flatten_cons, List.cons_append]
    rw [exec_append, exec_append, exec_append, exec_cons, exec_append, exec_comm]
    intro o' ho'
    obtain ⟨t', ht', ho'⟩ := List.mem_flatten.1 ho'
    have h3 := (List.pairwise_append.1 hr).2.2
    exact fun c => h3 t' ht' _ (List.mem_cons_self ..) o' ho' o (List.mem_cons_self ..) c.symm

theorem Interleave.perm {ts : List (List Op)} {l : List Op} (hi : Interleave ts l) :
    l.Perm ts.flatten := by
  induction hi with
  | done ts h =>
    have : ts.flatten = [] := by
      rw [List.flatten_eq_nil_iff]; exact h
    rw [this]
  | step pre o t post l _ ih =>
    simp only [List.flatten_append, List.flatten_cons, List.cons_append] at ih ⊢
    exact (List.Perm.cons o ih).trans List.perm_middle.symm

/-! ### Static safety -/

/-- Initialisation state after a list of operations. -/
def initAfter (ops : List Op) (init : Loc → Bool) : Loc → Bool :=
  fun l => ops.any (fun o => decide (o.dst = l)) || init l

@[simp] theorem initAfter_nil (i : Loc → Bool) : initAfter [] i = i := by
  funext l; simp [initAfter]

/-- All operations of the list are defined when run in order from `init`. -/
def Safe (size : Buf → Option Nat) : (Loc → Bool) → List Op → Prop
  | _, [] => True
  | init, o :: os => o.Defined size init ∧ Safe size (fun l => decide (l = o.dst) || init l) os

theorem Op.Defined.mono {size : Buf → Option Nat} {i i' : Loc → Bool} {o : Op}
    (h : o.Defined size i) (hi : ∀ l, i l = true → i' l = true) : o.Defined size i' :=
  ⟨h.1, fun r hr => ⟨(h.2 r hr).1, hi _ (h.2 r hr).2⟩⟩

theorem Safe.mono {size : Buf → Option Nat} {i i' : Loc → Bool} {os : List Op}
    (h : Safe size i os) (hi : ∀ l, i l = true → i' l = true) : Safe size i' os := by
  induction os generalizing i i' with
  | nil => trivial
  | cons o os ih =>
    refine ⟨h.1.mono hi, ih h.2 ?_⟩
    intro l hl
    simp only [Bool.or_eq_true, decide_eq_true_eq] at hl ⊢
    exact hl.imp id (hi l)

theorem Safe.append {size : Buf → Option Nat} {i : Loc → Bool} {xs ys : List Op}
    (h : Safe size i xs) (h' : Safe size (initAfter xs i) ys) : Safe size i (xs ++ ys) := by
  induction xs generalizing i with
  | nil => simpa using h'
  | cons x xs ih =>
    refine ⟨h.1, ih h.2 (h'.mono ?_)⟩
    intro l hl
    simp only [initAfter, List.any_cons, Bool.or_eq_true, decide_eq_true_eq, List.any_eq_true] at hl ⊢
    rcases hl with (h | h) | h
    · exact Or.inr (Or.inl h.symm)
    · exact Or.inl h
    · exact Or.inr (Or.inr h)

/-- Appending when the second part is already safe initially. -/
theorem Safe.append' {size : Buf → Option Nat} {i : Loc → Bool} {xs ys : List Op}
    (h : Safe size i xs) (h' : Safe size i ys) : Safe size i (xs ++ ys) :=
  h.append (h'.mono fun l hl => by simp [initAfter, hl])

theorem Safe.flatMap {size : Buf → Option Nat} {i : Loc → Bool} {β : Type _} {xs : List β}
    {f : β → List Op} (h : ∀ x ∈ xs, Safe size i (f x)) : Safe size i (xs.flatMap f) := by
  induction xs with
  | nil => trivial
  | cons x xs ih =>
    rw [List.flatMap_cons]
    exact (h x (List.mem_cons_self ..)).append' (ih fun y hy => h y (List.mem_cons_of_mem _ hy))

/-- If all reads are initialised from the start the list is safe. -/
theorem Safe.of_forall {size : Buf → Option Nat} {i : Loc → Bool} {os : List Op}
    (h : ∀ o ∈ os, o.Defined size i) : Safe size i os := by
  induction os generalizing i with
  | nil => trivial
  | cons o os ih =>
    refine ⟨h o (List.mem_cons_self ..), ih fun o' h' =>
      (h o' (List.mem_cons_of_mem _ h')).mono fun l hl => by simp [hl]⟩

theorem Safe.interleave {size : Buf → Option Nat} {i : Loc → Bool} {ts : List (List Op)}
    {l : List Op} (hi : Interleave ts l) (h : ∀ t ∈ ts, Safe size i t) : Safe size i l := by
  induction hi generalizing i with
  | done => trivial
  | step pre o t post l _ ih =>
    have h0 := h (o :: t) (by simp)
    refine ⟨h0.1, ih ?_⟩
    intro t' ht'
    have : t' ∈ pre ∨ t' = t ∨ t' ∈ post := by simpa using ht'
    rcases this with h1 | rfl | h1
    · exact (h t' (by simp [h1])).mono fun l hl => by simp [hl]
    · exact h0.2
    · exact (h t' (by simp [h1])).mono fun l hl => by simp [hl]

/-- State after a list of operations that is executed sequentially. -/
def stateAfter (ops : List Op) (s : State α) : State α :=
  { size := s.size, mem := exec F ops s.mem, init := initAfter ops s.init }

theorem initAfter_cons (o : Op) (os : List Op) (i : Loc → Bool) :
    initAfter (o :: os) i = initAfter os (fun l => decide (l = o.dst) || i l) := by
  funext l
  simp only [initAfter, List.any_cons]
  by_cases h : o.dst = l
  · simp [h]
  · have : ¬ l = o.dst := fun e => h e.symm
    simp [h, this]

theorem runOps_safe {os : List Op} {s : State α} {out : Out α} (h : Safe s.size s.init os)
    (hr : RunOps F os s out) : out = .ok (stateAfter F os s) := by
  induction hr with
  | nil s => simp [stateAfter]
  | undef o os s hu => exact absurd h.1 hu
  | step o os s out hd _ ih =>
    rw [ih h.2]
    simp [stateAfter, exec_cons, initAfter_cons]

theorem initAfter_perm {xs ys : List Op} (h : xs.Perm ys) (i : Loc → Bool) :
    initAfter xs i = initAfter ys i := by
  funext l
  simp only [initAfter]
  congr 1
  exact h.any_eq

/-! ### Triples -/

variable {F}

theorem Triple.nil {P : State α → Prop} : Triple F P [] P := by
  intro s out hP h
  cases h
  exact Or.inr ⟨s, rfl, hP⟩

theorem Exec.append_inv {p q : Prog} {s : State α} {out : Out α} (h : Exec F (p ++ q) s out) :
    (∃ s', Exec F p s (.ok s') ∧ Exec F q s' out) ∨ (Exec F p s out ∧ (out = .exit ∨ out = .ub)) := by
  induction p generalizing s with
  | nil => exact Or.inl ⟨s, .nil s, h⟩
  | cons i is ih =>
    cases h with
    | next _ _ _ s' _ h1 h2 =>
      rcases ih h2 with ⟨s'', h3, h4⟩ | ⟨h3, h4⟩
      · exact Or.inl ⟨s'', .next _ _ _ _ _ h1 h3, h4⟩
      · exact Or.inr ⟨.next _ _ _ _ _ h1 h3, h4⟩
    | exit _ _ _ h1 => exact Or.inr ⟨.exit _ _ _ h1, Or.inl rfl⟩
    | ub _ _ _ h1 => exact Or.inr ⟨.ub _ _ _ h1, Or.inr rfl⟩

theorem Triple.seq {P Q R : State α → Prop} {p q : Prog} (h1 : Triple F P p Q)
    (h2 : Triple F Q q R) : Triple F P (p ++ q) R := by
  intro s out hP h
  rcases h.append_inv with ⟨s', ha, hb⟩ | ⟨ha, he⟩
  · rcases h1 s _ hP ha with e | ⟨s'', e, hQ⟩
    · cases e
    · cases e
      exact h2 _ _ hQ hb
  · rcases h1 s _ hP ha with e | ⟨s'', e, hQ⟩
    · exact Or.inl e
    · subst e
      rcases he with he | he <;> cases he

theorem Triple.conseq {P P' Q Q' : State α → Prop} {p : Prog} (h : Triple F P p Q)
    (hP : ∀ s, P' s → P s) (hQ : ∀ s, Q s → Q' s) : Triple F P' p Q' := by
  intro s out hs he
  rcases h s out (hP s hs) he with e | ⟨s', e, hq⟩
  · exact Or.inl e
  · exact Or.inr ⟨s', e, hQ _ hq⟩

theorem Exec.single_inv {i : Item} {s : State α} {out : Out α} (h : Exec F [i] s out) :
    ItemExec F i s out := by
  cases h with
  | next _ _ _ s' _ h1 h2 => cases h2; exact h1
  | exit _ _ _ h1 => exact h1
  | ub _ _ _ h1 => exact h1

theorem Triple.memalign {P Q : State α → Prop} (b : Buf) (n : Nat)
    (hfree : ∀ s, P s → s.size b = none)
    (h : ∀ s m', P s → (∀ l, l.buf ≠ b → m' l = s.mem l) →
      Q { size := fun b' => if b' = b then some n else s.size b'
          mem := m'
          init := fun l => if l.buf = b then false else s.init l }) :
    Triple F P [.memalign b n] Q := by
  intro s out hP he
  cases he.single_inv with
  | memalign _ _ _ m' h1 h2 => exact Or.inr ⟨_, rfl, h s m' hP h2⟩
  | memalignFail => exact Or.inl rfl
  | memalignUb _ _ _ h1 => exact absurd (hfree s hP) h1

theorem Triple.malloc {P Q : State α → Prop} (b : Buf) (n : Nat)
    (hfree : ∀ s, P s → s.size b = none)
    (h : ∀ s m', P s → (∀ l, l.buf ≠ b → m' l = s.mem l) →
      Q { size := fun b' => if b' = b then some n else s.size b'
          mem := m'
          init := fun l => if l.buf = b then false else s.init l }) :
    Triple F P [.malloc b n] Q := by
  intro s out hP he
  cases he.single_inv with
  | malloc _ _ _ m' h1 h2 => exact Or.inr ⟨_, rfl, h s m' hP h2⟩
  | mallocUb _ _ _ h1 => exact absurd (hfree s hP) h1

theorem Triple.calloc {P Q : State α → Prop} (b : Buf) (n : Nat)
    (hfree : ∀ s, P s → s.size b = none)
    (h : ∀ s, P s →
      Q { size := fun b' => if b' = b then some n else s.size b'
          mem := fun l => if l.buf = b then F.zero else s.mem l
          init := fun l => if l.buf = b then true else s.init l }) :
    Triple F P [.calloc b n] Q := by
  intro s out hP he
  cases he.single_inv with
  | calloc _ _ _ h1 => exact Or.inr ⟨_, rfl, h s hP⟩
  | callocUb _ _ _ h1 => exact absurd (hfree s hP) h1

theorem Triple.free {P Q : State α → Prop} (b : Buf)
    (halloc : ∀ s, P s → s.size b ≠ none)
    (h : ∀ s, P s → Q { s with size := fun b' => if b' = b then none else s.size b' }) :
    Triple F P [.free b] Q := by
  intro s out hP he
  cases he.single_inv with
  | free _ _ h1 => exact Or.inr ⟨_, rfl, h s hP⟩
  | freeUb _ _ h1 => exact absurd h1 (halloc s hP)

theorem Triple.par {P Q : State α → Prop} (ts : List (List Op)) (hrf : RaceFree ts)
    (hsafe : ∀ s, P s → ∀ t ∈ ts, Safe s.size s.init t)
    (h : ∀ s, P s → Q (stateAfter F ts.flatten s)) : Triple F P [.par ts] Q := by
  intro s out hP he
  cases he.single_inv with
  | race _ _ h1 => exact absurd hrf h1
  | par _ l _ _ hi hr =>
    have hs := Safe.interleave hi (hsafe s hP)
    refine Or.inr ⟨_, runOps_safe F hs hr, ?_⟩
    have := h s hP
    simp only [stateAfter] at this ⊢
    rw [exec_interleave F hi hrf, initAfter_perm hi.perm]
    exact this

/-- Operations of a list of parallel phases, in sequential order. -/
def phaseOps (ph : List (List (List Op))) : List Op := (ph.map List.flatten).flatten

@[simp] theorem phaseOps_nil : phaseOps [] = [] := rfl
@[simp] theorem phaseOps_cons (t : List (List Op)) (ph : List (List (List Op))) :
    phaseOps (t :: ph) = t.flatten ++ phaseOps ph := by simp [phaseOps]
@[simp] theorem phaseOps_append (a b : List (List (List Op))) :
    phaseOps (a ++ b) = phaseOps a ++ phaseOps b := by simp [phaseOps]

theorem phaseOps_flatMap {β : Type _} (xs : List β) (f : β → List (List (List Op))) :
    phaseOps (xs.flatMap f) = xs.flatMap fun x => phaseOps (f x) := by
  induction xs with
  | nil => rfl
  | cons x xs ih => simp [ih]

theorem phaseOps_map {β : Type _} (xs : List β) (f : β → List (List Op)) :
    phaseOps (xs.map f) = xs.flatMap fun x => (f x).flatten := by
  induction xs with
  | nil => rfl
  | cons x xs ih => simp [ih]

theorem stateAfter_append (xs ys : List Op) (s : State α) :
    stateAfter F (xs ++ ys) s = stateAfter F ys (stateAfter F xs s) := by
  simp only [stateAfter, exec_append, State.mk.injEq, true_and]
  funext l
  simp only [initAfter, List.any_append]
  cases xs.any _ <;> cases ys.any _ <;> simp

/-- A sequence of race-free parallel phases whose tasks are all safe initially. -/
theorem Triple.phases {P Q : State α → Prop} (ph : List (List (List Op)))
    (hrf : ∀ ts ∈ ph, RaceFree ts)
    (hsafe : ∀ s, P s → ∀ ts ∈ ph, ∀ t ∈ ts, Safe s.size s.init t)
    (h : ∀ s, P s → Q (stateAfter F (phaseOps ph) s)) :
    Triple F P (ph.map Item.par) Q := by
  induction ph generalizing P with
  | nil =>
    refine Triple.nil.conseq (fun _ h => h) ?_
    intro s hs
    have := h s hs
    simpa [stateAfter] using this
  | cons ts ph ih =>
    have hseq : Triple F P ([Item.par ts] ++ ph.map Item.par) Q := by
      refine Triple.seq (Q := fun s' => ∃ s, P s ∧ s' = stateAfter F ts.flatten s) ?_ ?_
      · exact Triple.par ts (hrf ts (List.mem_cons_self ..))
          (fun s hs t ht => hsafe s hs ts (List.mem_cons_self ..) t ht)
          (fun s hs => ⟨s, hs, rfl⟩)
      · apply ih (fun ts' h' => hrf ts' (List.mem_cons_of_mem _ h'))
        · rintro _ ⟨s, hs, rfl⟩ ts' h' t ht
          exact (hsafe s hs ts' (List.mem_cons_of_mem _ h') t ht).mono
            (fun l hl => by simp [stateAfter, initAfter, hl])
        · rintro _ ⟨s, hs, rfl⟩
          have := h s hs
          rwa [phaseOps_cons, stateAfter_append] at this
    simpa using hseq

/-! ### Existence of executions (the triples are not vacuous) -/

theorem runOps_exists (os : List Op) (s : State α) : ∃ out, RunOps F os s out ∧ out ≠ .exit := by
  induction os generalizing s with
  | nil => exact ⟨_, .nil s, by simp⟩
  | cons o os ih =>
    by_cases h : o.Defined s.size s.init
    · obtain ⟨out, h1, h2⟩ := ih _
      exact ⟨out, .step o os s out h h1, h2⟩
    · exact ⟨.ub, .undef o os s h, by simp⟩

theorem interleave_flatten (ts : List (List Op)) : Interleave ts ts.flatten := by
  suffices H : ∀ (ts done : List (List Op)), (∀ t ∈ done, t = []) →
      Interleave (done ++ ts) ts.flatten by simpa using H ts [] (by simp)
  intro ts
  induction ts with
  | nil => intro done hd; simpa using Interleave.done done hd
  | cons t ts ih =>
    intro done hd
    induction t with
    | nil =>
      have := ih (done ++ [[]]) (by
        intro t ht; rcases List.mem_append.1 ht with h | h
        · exact hd t h
        · simpa using h)
      simpa using this
    | cons o t iht =>
      exact Interleave.step done o t ts _ iht

theorem exec_exists (p : Prog) (s : State α) : ∃ out, Exec F p s out ∧ out ≠ .exit := by
  induction p generalizing s with
  | nil => exact ⟨_, .nil s, by simp⟩
  | cons i is ih =>
    have key : ∃ out, ItemExec F i s out ∧ out ≠ .exit := by
      cases i with
      | memalign b n =>
        by_cases h : s.size b = none
        · exact ⟨_, .memalign b n s s.mem h (fun _ _ => rfl), by simp⟩
        · exact ⟨_, .memalignUb b n s h, by simp⟩
      | malloc b n =>
        by_cases h : s.size b = none
        · exact ⟨_, .malloc b n s s.mem h (fun _ _ => rfl), by simp⟩
        · exact ⟨_, .mallocUb b n s h, by simp⟩
      | calloc b n =>
        by_cases h : s.size b = none
        · exact ⟨_, .calloc b n s h, by simp⟩
        · exact ⟨_, .callocUb b n s h, by simp⟩
      | free b =>
        by_cases h : s.size b = none
        · exact ⟨_, .freeUb b s h, by simp⟩
        · exact ⟨_, .free b s h, by simp⟩
      | par ts =>
        obtain ⟨out, h1, h2⟩ := runOps_exists (F := F) ts.flatten s
        exact ⟨out, .par ts _ s out (interleave_flatten ts) h1, h2⟩
    obtain ⟨out, h1, h2⟩ := key
    cases out with
    | ok s' =>
      obtain ⟨out', h3, h4⟩ := ih s'
      exact ⟨out', .next _ _ _ _ _ h1 h3, h4⟩
    | exit => exact absurd rfl h2
    | ub => exact ⟨.ub, .ub _ _ _ h1, by simp⟩

/-- A triple implies that a normally terminating execution exists. -/
theorem Triple.exists_ok {P Q : State α → Prop} {p : Prog} (h : Triple F P p Q) {s : State α}
    (hs : P s) : ∃ s', Exec F p s (.ok s') ∧ Q s' := by
  obtain ⟨out, h1, h2⟩ := exec_exists (F := F) p s
  rcases h s out hs h1 with e | ⟨s', e, hq⟩
  · exact absurd e h2
  · exact ⟨s', e ▸ h1, hq⟩

end Cake
