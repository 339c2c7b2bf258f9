/-
The serpentine traversal of a three-dimensional grid of blocks.
-/
import Verif.Proofs.SchedK
import Mathlib.Data.List.Chain
import Mathlib.Data.List.Range

namespace Cake
open List

theorem serp_chain (d : Bool) (n : Nat) : (serp d n).IsChain (fun a b => b = a + 1 ∨ a = b + 1) := by
  rw [serp_eq]
  cases d
  · simp only [Bool.false_eq_true, if_false]
    rw [isChain_range]
    intro m _
    exact Or.inl rfl
  · simp only [if_true]
    rw [isChain_reverse, isChain_range]
    intro m _
    exact Or.inr rfl

theorem serp_head (d : Bool) {n : Nat} (hn : 0 < n) : (serp d n).head? = some (if d then n - 1 else 0) := by
  rw [serp_eq]
  obtain ⟨k, rfl⟩ : ∃ k, n = k + 1 := ⟨n - 1, by omega⟩
  cases d
  · simp [range_succ_eq_map]
  · simp [range_succ]

theorem serp_last (d : Bool) {n : Nat} (hn : 0 < n) :
    (serp d n).getLast? = some (if d then 0 else n - 1) := by
  rw [serp_eq]
  obtain ⟨k, rfl⟩ : ∃ k, n = k + 1 := ⟨n - 1, by omega⟩
  cases d
  · simp [range_succ]
  · simp [range_succ_eq_map]

theorem serp_ne_nil (d : Bool) {n : Nat} (hn : 0 < n) : serp d n ≠ [] := by
  intro h
  have := serp_head d hn
  rw [h] at this
  simp at this

theorem chain_flatMap {β γ : Type _} {R : β → β → Prop} {S : γ → γ → Prop} (f : β → List γ) :
    ∀ (l : List β), l.IsChain R → (∀ x ∈ l, (f x).IsChain S) → (∀ x ∈ l, f x ≠ []) →
      (∀ x ∈ l, ∀ y ∈ l, R x y → ∀ a ∈ (f x).getLast?, ∀ b ∈ (f y).head?, S a b) →
      (l.flatMap f).IsChain S
  | [], _, _, _, _ => by simp
  | [x], _, h1, _, _ => by simpa using h1
  | x :: y :: l, hR, h1, h2, h3 => by
    rw [flatMap_cons, isChain_append]
    rw [isChain_cons_cons] at hR
    refine ⟨h1 x (by simp), chain_flatMap f (y :: l) hR.2 (fun z hz => h1 z (by simp [hz]))
      (fun z hz => h2 z (by simp [hz])) (fun z hz w hw => h3 z (by simp [hz]) w (by simp [hw])), ?_⟩
    intro a ha b hb
    rw [flatMap_cons, head?_append_of_ne_nil _ (h2 y (by simp))] at hb
    exact h3 x (by simp) y (by simp) hR.1 a ha b hb

theorem flatMap_head {β γ : Type _} (f : β → List γ) {l : List β} {x : β} (hx : l.head? = some x)
    (hf : f x ≠ []) : (l.flatMap f).head? = (f x).head? := by
  cases l with
  | nil => simp at hx
  | cons y l =>
    simp only [head?_cons, Option.some.injEq] at hx
    subst hx
    rw [flatMap_cons, head?_append_of_ne_nil _ hf]

theorem flatMap_last {β γ : Type _} (f : β → List γ) {l : List β} {x : β} (hx : l.getLast? = some x)
    (hf : f x ≠ []) : (l.flatMap f).getLast? = (f x).getLast? := by
  obtain ⟨l', rfl⟩ : ∃ l', l = l' ++ [x] := by
    rw [getLast?_eq_some_iff] at hx; exact hx
  rw [flatMap_append, flatMap_singleton, getLast?_append_of_ne_nil _ hf]

/-- One step along exactly one of the three coordinates. -/
def OneStep (v w : Nat × Nat × Nat) : Prop :=
  ((w.1 = v.1 + 1 ∨ v.1 = w.1 + 1) ∧ v.2.1 = w.2.1 ∧ v.2.2 = w.2.2) ∨
  (v.1 = w.1 ∧ (w.2.1 = v.2.1 + 1 ∨ v.2.1 = w.2.1 + 1) ∧ v.2.2 = w.2.2) ∨
  (v.1 = w.1 ∧ v.2.1 = w.2.1 ∧ (w.2.2 = v.2.2 + 1 ∨ v.2.2 = w.2.2 + 1))

/-- The boustrophedon order of an `a × b × c` grid. -/
def snake (a b c : Nat) : List (Nat × Nat × Nat) :=
  (range a).flatMap fun i => (serp (i % 2 != 0) b).flatMap fun j =>
    (serp ((i + j) % 2 != 0) c).map fun k => (i, j, k)

theorem mem_snake {a b c i j k : Nat} : (i, j, k) ∈ snake a b c ↔ i < a ∧ j < b ∧ k < c := by
  unfold snake
  simp only [mem_flatMap, mem_range, mem_map, mem_serp, Prod.mk.injEq]
  constructor
  · rintro ⟨i', hi, j', hj, k', hk, rfl, rfl, rfl⟩; exact ⟨hi, hj, hk⟩
  · rintro ⟨hi, hj, hk⟩; exact ⟨i, hi, j, hj, k, hk, rfl, rfl, rfl⟩

theorem snake_nodup (a b c : Nat) : (snake a b c).Nodup := by
  unfold snake
  rw [nodup_flatMap]
  refine ⟨fun i _ => ?_, ?_⟩
  · rw [nodup_flatMap]
    refine ⟨fun j _ => (serp_nodup _ _).map (fun x y e => by simpa using e), ?_⟩
    apply Nodup.pairwise_of_forall_ne (serp_nodup _ _)
    intro x _ y _ hne z hz hz'
    simp only [mem_map] at hz hz'
    obtain ⟨_, _, rfl⟩ := hz
    obtain ⟨_, _, e⟩ := hz'
    simp only [Prod.mk.injEq] at e
    exact hne e.2.1.symm
  · apply Nodup.pairwise_of_forall_ne nodup_range
    intro x _ y _ hne z hz hz'
    simp only [mem_flatMap, mem_map] at hz hz'
    obtain ⟨_, _, _, _, rfl⟩ := hz
    obtain ⟨_, _, _, _, e⟩ := hz'
    simp only [Prod.mk.injEq] at e
    exact hne e.1.symm

theorem snake_chain (a b c : Nat) : (snake a b c).IsChain OneStep := by
  rcases Nat.eq_zero_or_pos b with rfl | hb
  · rw [show snake a 0 c = [] by simp [snake, serp_eq, flatMap_eq_nil_iff]]; simp
  rcases Nat.eq_zero_or_pos c with rfl | hc
  · rw [show snake a b 0 = [] by simp [snake, serp_eq, flatMap_eq_nil_iff]]; simp
  have row_ne : ∀ i j, ((serp ((i + j) % 2 != 0) c).map fun k => (i, j, k)) ≠ [] := fun i j => by
    simpa using serp_ne_nil _ hc
  have row_head : ∀ i j, ((serp ((i + j) % 2 != 0) c).map fun k => (i, j, k)).head? =
      some (i, j, if (i + j) % 2 != 0 then c - 1 else 0) := fun i j => by
    rw [head?_map, serp_head _ hc]; rfl
  have row_last : ∀ i j, ((serp ((i + j) % 2 != 0) c).map fun k => (i, j, k)).getLast? =
      some (i, j, if (i + j) % 2 != 0 then 0 else c - 1) := fun i j => by
    rw [getLast?_map, serp_last _ hc]; rfl
  unfold snake
  refine chain_flatMap (R := fun x y => y = x + 1) _ _ ?_ ?_ ?_ ?_
  · rw [isChain_range]; intro m _; rfl
  · intro i _
    refine chain_flatMap (R := fun x y => y = x + 1 ∨ x = y + 1) _ _ (serp_chain _ _) ?_
      (fun j _ => row_ne i j) ?_
    · intro j _
      rw [isChain_map]
      exact (serp_chain _ _).imp fun x y h => Or.inr (Or.inr ⟨rfl, rfl, h⟩)
    · intro j _ j' _ hjj x hx y hy
      rw [row_last, Option.mem_some_iff] at hx
      rw [row_head, Option.mem_some_iff] at hy
      subst hx hy
      refine Or.inr (Or.inl ⟨rfl, hjj, ?_⟩)
      simp only [bne_iff_ne]
      split <;> split <;> omega
  · intro i _ e
    rw [flatMap_eq_nil_iff] at e
    have h1 := serp_head (i % 2 != 0) hb
    obtain ⟨x, hx⟩ := exists_mem_of_ne_nil _ (serp_ne_nil (i % 2 != 0) hb)
    exact row_ne _ _ (e x hx)
  · intro i _ i' _ hii x hx y hy
    subst hii
    rw [flatMap_last _ (serp_last _ hb) (row_ne _ _), row_last, Option.mem_some_iff] at hx
    rw [flatMap_head _ (serp_head _ hb) (row_ne _ _), row_head, Option.mem_some_iff] at hy
    subst hx hy
    refine Or.inl ⟨Or.inl rfl, ?_, ?_⟩
    · simp only [bne_iff_ne]
      split <;> split <;> omega
    · simp only [bne_iff_ne]
      rcases Nat.mod_two_eq_zero_or_one i with h | h
      · have h' : (i + 1) % 2 = 1 := by omega
        simp only [h, h', ne_eq, not_true, not_false_eq_true, if_true, if_false, one_ne_zero]
        split <;> split <;> omega
      · have h' : (i + 1) % 2 = 0 := by omega
        simp only [h, h', ne_eq, not_true, not_false_eq_true, if_true, if_false, one_ne_zero,
          Nat.add_zero]

end Cake
