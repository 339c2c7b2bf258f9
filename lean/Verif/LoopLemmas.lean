import Verif.Loops
import Verif.CoreLemmas
import Mathlib.Tactic.Ring
import Mathlib.Tactic.Linarith

namespace Cake

open List

theorem cdiv_mul_ge (a b : Nat) (hb : 0 < b) : a ≤ cdiv a b * b := by
  unfold cdiv
  have h1 := Nat.div_add_mod (a + b - 1) b
  have h2 := Nat.mod_lt (a + b - 1) hb
  rw [Nat.mul_comm] at h1
  omega

theorem cdiv_mul_lt (a b : Nat) (hb : 0 < b) : cdiv a b * b < a + b := by
  unfold cdiv
  have h1 := Nat.div_mul_le_self (a + b - 1) b
  omega

theorem cdiv_eq_of {a b q : Nat} (h1 : a ≤ q * b) (h2 : q * b < a + b) : cdiv a b = q := by
  have hb : 0 < b := by omega
  have h3 := cdiv_mul_ge a b hb
  have h4 := cdiv_mul_lt a b hb
  apply Nat.le_antisymm
  · by_contra h
    have : (q + 1) * b ≤ cdiv a b * b := Nat.mul_le_mul_right b (by omega)
    rw [Nat.add_mul] at this
    omega
  · by_contra h
    have : (cdiv a b + 1) * b ≤ q * b := Nat.mul_le_mul_right b (by omega)
    rw [Nat.add_mul] at this
    omega

@[simp] theorem cdiv_zero (b : Nat) : cdiv 0 b = 0 := by
  unfold cdiv
  rcases Nat.eq_zero_or_pos b with h | h
  · simp [h]
  · exact Nat.div_eq_of_lt (by omega)

theorem cdiv_mul_self (q b : Nat) (hb : 0 < b) : cdiv (q * b) b = q :=
  cdiv_eq_of (Nat.le_refl _) (by omega)

theorem cdiv_pos {a b : Nat} (ha : 0 < a) (hb : 0 < b) : 0 < cdiv a b := by
  have := cdiv_mul_ge a b hb
  rcases Nat.eq_zero_or_pos (cdiv a b) with h | h
  · rw [h] at this; omega
  · exact h

theorem cdiv_le_of_le_mul {a b q : Nat} (hb : 0 < b) (h : a ≤ q * b) : cdiv a b ≤ q := by
  by_contra hc
  have h4 := cdiv_mul_lt a b hb
  have : (q + 1) * b ≤ cdiv a b * b := Nat.mul_le_mul_right b (by omega)
  rw [Nat.add_mul] at this
  omega

theorem cforAux_eq (step : Nat) (hs : 0 < step) :
    ∀ fuel lo hi, hi - lo ≤ fuel →
      cforAux fuel lo hi step = (range (cdiv (hi - lo) step)).map (fun t => lo + t * step) := by
  intro fuel
  induction fuel with
  | zero =>
    intro lo hi h
    have : hi - lo = 0 := by omega
    simp [cforAux, this]
  | succ f ih =>
    intro lo hi h
    simp only [cforAux]
    split
    · rename_i hlt
      rw [ih _ _ (by omega)]
      have hc : cdiv (hi - lo) step = cdiv (hi - (lo + step)) step + 1 := by
        apply cdiv_eq_of
        · have := cdiv_mul_ge (hi - (lo + step)) step hs
          rw [Nat.add_mul]; omega
        · rw [Nat.add_mul]
          by_cases h0 : hi ≤ lo + step
          · have : hi - (lo + step) = 0 := by omega
            simp [this]; omega
          · have := cdiv_mul_lt (hi - (lo + step)) step hs
            omega
      rw [hc, List.range_succ_eq_map]
      simp only [List.map_cons, List.map_map, Nat.zero_mul, Nat.add_zero]
      congr 1
      apply List.map_congr_left
      intro t _
      simp only [Function.comp, Nat.succ_eq_add_one]
      ring
    · have : hi - lo = 0 := by omega
      simp [this]

theorem cfor_eq (lo hi step : Nat) (hs : 0 < step) :
    cfor lo hi step = (range (cdiv (hi - lo) step)).map (fun t => lo + t * step) :=
  cforAux_eq step hs _ lo hi (Nat.le_refl _)

theorem cfor_zero_mul (q step : Nat) (hs : 0 < step) :
    cfor 0 (q * step) step = (range q).map (fun t => t * step) := by
  rw [cfor_eq 0 _ step hs]
  simp [cdiv_mul_self q step hs]

theorem cfor_one (n : Nat) : cfor 0 n 1 = range n := by
  have := cfor_zero_mul n 1 (by omega)
  simpa using this

theorem cforNe_up (n : Nat) : ∀ (k : Nat), k ≤ n →
    cforNe (n - k) (k : Int) n 1 = (range' k (n - k)).map (fun i : Nat => (i : Int)) := by
  intro k hk
  induction h : n - k generalizing k with
  | zero => simp [cforNe]
  | succ f ih =>
    have hlt : k < n := by omega
    simp only [cforNe]
    have hne : (k : Int) ≠ n := by omega
    rw [if_pos hne, range'_succ]
    simp only [List.map_cons, List.cons.injEq, true_and]
    have := ih (k + 1) (by omega) (by omega)
    push_cast at this
    exact this

theorem cforNe_down : ∀ n : Nat,
    cforNe n ((n : Int) - 1) (-1) (-1) = ((range n).reverse).map (fun i : Nat => (i : Int)) := by
  intro n
  induction n with
  | zero => simp [cforNe]
  | succ n ih =>
    simp only [cforNe]
    have hne : ((n + 1 : Nat) : Int) - 1 ≠ -1 := by omega
    rw [if_pos hne, List.range_succ, List.reverse_append]
    simp only [List.reverse_cons, List.reverse_nil, List.nil_append, List.cons_append, List.map_cons,
      List.cons.injEq]
    refine ⟨by push_cast; omega, ?_⟩
    have : ((n + 1 : Nat) : Int) - 1 + -1 = (n : Int) - 1 := by push_cast; omega
    rw [this]
    exact ih

section loopS
variable {β γ : Type _}

theorem loopS_snd {c : Nat} (xs : List β) (body : β → Nat → List γ × Nat)
    (h : ∀ x ∈ xs, ∀ s, (body x s).2 = s + c) (s : Nat) :
    (loopS xs body s).2 = s + xs.length * c := by
  induction xs generalizing s with
  | nil => simp [loopS]
  | cons x xs ih =>
    simp only [loopS]
    rw [ih (fun y hy => h y (List.mem_cons_of_mem _ hy)), h x (List.mem_cons_self ..)]
    simp only [List.length_cons]
    ring

/-- Closed form of a counting loop over `0..n-1` whose counter advances by `c`. -/
theorem loopS_range_aux {c : Nat} (body : Nat → Nat → List γ × Nat) (n : Nat) :
    ∀ (a s : Nat), (∀ i, a ≤ i → i < a + n → ∀ s, (body i s).2 = s + c) →
      loopS (range' a n) body s =
        ((range n).flatMap (fun i => (body (a + i) (s + i * c)).1), s + n * c) := by
  induction n with
  | zero => intro a s _; simp [loopS]
  | succ n ih =>
    intro a s h
    rw [range'_succ]
    simp only [loopS]
    rw [h a (Nat.le_refl _) (by omega), ih (a + 1) (s + c) (fun i h1 h2 => h i (by omega) (by omega))]
    rw [List.range_succ_eq_map, List.flatMap_cons]
    simp only [Nat.add_zero, Nat.zero_mul, List.flatMap_map, Nat.succ_eq_add_one, Prod.mk.injEq]
    refine ⟨?_, by ring⟩
    congr 1
    apply List.flatMap_congr
    intro i _
    congr 2 <;> ring_nf

theorem loopS_range {c : Nat} (body : Nat → Nat → List γ × Nat) (n s : Nat)
    (h : ∀ i, i < n → ∀ s, (body i s).2 = s + c) :
    loopS (range n) body s = ((range n).flatMap (fun i => (body i (s + i * c)).1), s + n * c) := by
  have := loopS_range_aux body n 0 s (fun i _ h2 => h i (by omega))
  rw [List.range_eq_range'] at *
  simpa using this

/-- Closed form with a counter whose increments depend on the index. -/
theorem loopS_range_var (body : Nat → Nat → List γ × Nat) (off : Nat → Nat) (n s : Nat)
    (h : ∀ i, i < n → (body i (s + off i)).2 = s + off (i + 1)) (h0 : off 0 = 0) :
    loopS (range n) body s = ((range n).flatMap (fun i => (body i (s + off i)).1), s + off n) := by
  suffices H : ∀ n a, (∀ i, a ≤ i → i < a + n → (body i (s + off i)).2 = s + off (i + 1)) →
      loopS (range' a n) body (s + off a) =
        ((range n).flatMap (fun i => (body (a + i) (s + off (a + i))).1), s + off (a + n)) by
    have := H n 0 (fun i _ h2 => h i (by omega))
    rw [List.range_eq_range'] at *
    simpa [h0] using this
  intro n
  induction n with
  | zero => intro a _; simp [loopS]
  | succ n ih =>
    intro a h
    rw [range'_succ]
    simp only [loopS]
    rw [h a (Nat.le_refl _) (by omega), ih (a + 1) (fun i h1 h2 => h i (by omega) (by omega))]
    rw [List.range_succ_eq_map, List.flatMap_cons]
    simp only [Nat.add_zero, List.flatMap_map, Nat.succ_eq_add_one, Prod.mk.injEq]
    refine ⟨?_, by congr 2; omega⟩
    congr 1
    apply List.flatMap_congr
    intro i _
    have : a + 1 + i = a + (i + 1) := by omega
    rw [this]

/-- Closed form for arbitrary carried variables with known values `st i` at iteration `i`. -/
theorem loopS_range_st {σ : Type _} (body : Nat → σ → List γ × σ) (st : Nat → σ) (n : Nat)
    (h : ∀ i, i < n → (body i (st i)).2 = st (i + 1)) :
    loopS (range n) body (st 0) = ((range n).flatMap (fun i => (body i (st i)).1), st n) := by
  suffices H : ∀ n a, (∀ i, a ≤ i → i < a + n → (body i (st i)).2 = st (i + 1)) →
      loopS (range' a n) body (st a) =
        ((range n).flatMap (fun i => (body (a + i) (st (a + i))).1), st (a + n)) by
    have := H n 0 (fun i _ h2 => h i (by omega))
    rw [List.range_eq_range'] at *
    simpa using this
  intro n
  induction n with
  | zero => intro a _; simp [loopS]
  | succ n ih =>
    intro a h
    rw [range'_succ]
    simp only [loopS]
    rw [h a (Nat.le_refl _) (by omega), ih (a + 1) (fun i h1 h2 => h i (by omega) (by omega))]
    rw [List.range_succ_eq_map, List.flatMap_cons]
    simp only [Nat.add_zero, List.flatMap_map, Nat.succ_eq_add_one, Prod.mk.injEq]
    refine ⟨?_, by congr 1; omega⟩
    congr 1
    apply List.flatMap_congr
    intro i _
    have : a + 1 + i = a + (i + 1) := by omega
    rw [this]

theorem loopS_map {δ σ : Type _} (f : δ → β) (xs : List δ) (body : β → σ → List γ × σ) (s : σ) :
    loopS (xs.map f) body s = loopS xs (fun x => body (f x)) s := by
  induction xs generalizing s with
  | nil => rfl
  | cons x xs ih => simp [loopS, ih]

theorem loopS_congr {σ : Type _} (xs : List β) (f g : β → σ → List γ × σ)
    (h : ∀ x ∈ xs, ∀ s, f x s = g x s) (s : σ) : loopS xs f s = loopS xs g s := by
  induction xs generalizing s with
  | nil => rfl
  | cons x xs ih =>
    simp only [loopS]
    rw [h x (List.mem_cons_self ..), ih (fun y hy => h y (List.mem_cons_of_mem _ hy))]

end loopS

/-! ### Sequential writers: destinations are consecutive indices -/

/-- `ops` writes the locations `base, base+1, …, base+len-1` of buffer `b`, in this order. -/
def SeqW (b : Buf) (base len : Nat) (ops : List Op) : Prop :=
  ops.map Op.dst = (range' base len).map (fun i => ⟨b, i⟩)

namespace SeqW
variable {b : Buf}

theorem nil (base : Nat) : SeqW b base 0 [] := rfl

theorem append {base l1 l2 : Nat} {xs ys : List Op} (h1 : SeqW b base l1 xs)
    (h2 : SeqW b (base + l1) l2 ys) : SeqW b base (l1 + l2) (xs ++ ys) := by
  unfold SeqW at *
  rw [List.map_append, h1, h2, ← List.map_append]
  congr 1
  simp

theorem single (base : Nat) (o : Op) (h : o.dst = ⟨b, base⟩) : SeqW b base 1 [o] := by
  simp [SeqW, h]

theorem flatMap_var {base n : Nat} {f : Nat → List Op} (off : Nat → Nat) (len : Nat → Nat)
    (h0 : off 0 = 0) (hoff : ∀ i, i < n → off (i + 1) = off i + len i)
    (h : ∀ i, i < n → SeqW b (base + off i) (len i) (f i)) :
    SeqW b base (off n) ((range n).flatMap f) := by
  induction n with
  | zero => simp [h0, SeqW.nil base]
  | succ n ih =>
    rw [List.range_succ, List.flatMap_append, hoff n (by omega)]
    apply append (ih (fun i hi => hoff i (by omega)) (fun i hi => h i (by omega)))
    simpa using h n (by omega)

theorem map {base n : Nat} {f : Nat → Op} (h : ∀ i, i < n → (f i).dst = ⟨b, base + i⟩) :
    SeqW b base n ((range n).map f) := by
  unfold SeqW
  rw [List.range'_eq_map_range, List.map_map, List.map_map]
  apply List.map_congr_left
  intro i hi
  exact h i (List.mem_range.1 hi)

theorem flatMap {base n c : Nat} {f : Nat → List Op}
    (h : ∀ i, i < n → SeqW b (base + i * c) c (f i)) :
    SeqW b base (n * c) ((range n).flatMap f) :=
  flatMap_var (fun i => i * c) (fun _ => c) (by simp) (fun i _ => by ring) h

theorem nodup {base len : Nat} {ops : List Op} (h : SeqW b base len ops) :
    (ops.map Op.dst).Nodup := by
  rw [h]
  apply List.Nodup.map (fun x y hxy => by simpa using hxy)
  exact List.nodup_range'

theorem mem_iff {base len : Nat} {ops : List Op} (h : SeqW b base len ops) (l : Loc) :
    (∃ o ∈ ops, o.dst = l) ↔ l.buf = b ∧ base ≤ l.idx ∧ l.idx < base + len := by
  have : (∃ o ∈ ops, o.dst = l) ↔ l ∈ ops.map Op.dst := by simp
  rw [this, h]
  simp only [List.mem_map, List.mem_range'_1]
  constructor
  · rintro ⟨i, hi, rfl⟩; exact ⟨rfl, hi⟩
  · rintro ⟨hb, hi⟩
    exact ⟨l.idx, hi, by cases l; simp_all⟩

theorem dst_of_mem {base len : Nat} {ops : List Op} (h : SeqW b base len ops) {o : Op}
    (ho : o ∈ ops) : o.dst.buf = b ∧ base ≤ o.dst.idx ∧ o.dst.idx < base + len :=
  (h.mem_iff o.dst).1 ⟨o, ho, rfl⟩

theorem length {base len : Nat} {ops : List Op} (h : SeqW b base len ops) : ops.length = len := by
  have := congrArg List.length h
  rwa [List.length_map, List.length_map, List.length_range'] at this

end SeqW

end Cake
