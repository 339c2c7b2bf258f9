/-
Consequences of the product specification, and rules for `Computes`.
-/
import Verif.Spec
import Verif.Proofs.Driver
import Mathlib.Algebra.BigOperators.Ring.Finset
import Mathlib.Algebra.BigOperators.Intervals

namespace Cake
open List

variable {α : Type _} {F : Arith α}

theorem Computes.mono {call : Option Prog} {s : State α} {P Q : State α → Prop}
    (h : Computes F call s P) (hPQ : ∀ s', P s' → Q s') : Computes F call s Q := by
  obtain ⟨prog, hp, he, hall⟩ := h
  refine ⟨prog, hp, he, fun out ho => ?_⟩
  rcases hall out ho with e | ⟨s', e, hs'⟩
  · exact Or.inl e
  · exact Or.inr ⟨s', e, hPQ _ hs'⟩

theorem Computes.of_triple {call : Option Prog} {prog : Prog} {s : State α} {Q : State α → Prop}
    (hp : call = some prog) (h : Triple F (· = s) prog Q) : Computes F call s Q :=
  ⟨prog, hp, (h.exists_ok rfl).imp fun _ h => h.1, fun out ho => h s out rfl ho⟩

theorem Computes.of_exec {call : Option Prog} {s : State α} {Q : State α → Prop}
    (h : Computes F call s Q) {prog : Prog} (hp : call = some prog) {s' : State α}
    (he : Exec F prog s (.ok s')) : Q s' := by
  obtain ⟨prog', hp', _, hall⟩ := h
  rw [hp] at hp'
  cases hp'
  rcases hall _ he with e | ⟨s'', e, hq⟩
  · cases e
  · cases e; exact hq

theorem exec_raceFree_aux (prog : Prog) (s : State α) (hno : ∀ out, Exec F prog s out → out ≠ .ub)
    (ts : List (List Op)) (hts : Item.par ts ∈ prog) : RaceFree ts := by
  induction prog generalizing s with
  | nil => simp at hts
  | cons i is ih =>
    by_cases hc : ∃ s', ItemExec F i s (.ok s')
    · obtain ⟨s', h1⟩ := hc
      rcases mem_cons.1 hts with e | hm
      · by_contra hr
        exact hno .ub (.ub _ _ _ (e ▸ .race ts s hr)) rfl
      · exact ih s' (fun out ho => hno out (.next _ _ _ _ _ h1 ho)) hm
    · exfalso
      have hcx : ∃ out, Exec F [i] s out ∧ out ≠ .exit := exec_exists [i] s
      obtain ⟨out, ho, hne⟩ := hcx
      cases ho with
      | next _ _ _ s' _ h1 _ => exact hc ⟨s', h1⟩
      | exit _ _ _ _ => exact hne rfl
      | ub _ _ _ h1 => exact hno .ub (.ub _ _ _ h1) rfl

/-- A program without undefined behaviour has no data race in any of its parallel loops. -/
theorem Computes.raceFree {call : Option Prog} {s : State α} {Q : State α → Prop}
    (h : Computes F call s Q) {prog : Prog} (hp : call = some prog) (ts : List (List Op))
    (hts : Item.par ts ∈ prog) : RaceFree ts := by
  obtain ⟨prog', hp', _, hall⟩ := h
  rw [hp] at hp'
  cases hp'
  refine exec_raceFree_aux (F := F) prog s (fun out ho e => ?_) ts hts
  rcases hall out ho with e' | ⟨s', e', _⟩ <;> rw [e] at e' <;> cases e'

/-- The fold of the specification is a sum in exact arithmetic. -/
theorem dotFrom_exact {R : Type _} [CommSemiring R] (a b : Nat → R) {order : List Nat} {K : Nat}
    (h : order.Perm (range K)) (c0 : R) :
    dotFrom (exact R) a b order c0 = c0 + ∑ k ∈ Finset.range K, a k * b k := by
  have key : ∀ (l : List Nat) (c0 : R), dotFrom (exact R) a b l c0 =
      c0 + (l.map fun k => a k * b k).sum := by
    intro l
    induction l with
    | nil => intro c0; simp [dotFrom]
    | cons x l ih =>
      intro c0
      have : dotFrom (exact R) a b (x :: l) c0 = dotFrom (exact R) a b l (a x * b x + c0) := rfl
      rw [this, ih, map_cons, sum_cons]
      ring
  rw [key, (h.map _).sum_eq]
  congr 1

theorem IsProduct.exact {R : Type _} [CommSemiring R] {s s' : State R} {M N K : Nat}
    {c0 : Nat → Nat → R} (h : IsProduct (exact R) s s' M N K c0) {r c : Nat} (hr : r < M) (hc : c < N) :
    entry s' .C N r c = c0 r c + ∑ k ∈ Finset.range K, entry s .A K r k * entry s .B N k c := by
  obtain ⟨_, order, hp, e⟩ := h r c hr hc
  rw [e, dotFrom_exact _ _ hp]

end Cake
