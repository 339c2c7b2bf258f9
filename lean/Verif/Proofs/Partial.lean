/-
Triples whose freedom from undefined behaviour is conditional.

`STriple S F P p Q`: every execution of `p` from a state with `P` gives up (allocation failure),
or ends normally with `Q`, or is undefined, and the last only if `S` fails.  `S = True` is the total
triple `Triple`; `S = False` says that a run that ends normally establishes `Q`.
-/
import Verif.CoreLemmas
import Verif.Proofs.Serp

namespace Cake
open List

variable {α : Type _} {F : Arith α} {S : Prop}

def STriple (S : Prop) (F : Arith α) (P : State α → Prop) (p : Prog) (Q : State α → Prop) : Prop :=
  ∀ s out, P s → Exec F p s out → out = .exit ∨ (out = .ub ∧ ¬ S) ∨ ∃ s', out = .ok s' ∧ Q s'

theorem Triple.toS {P Q : State α → Prop} {p : Prog} (h : Triple F P p Q) : STriple S F P p Q := by
  intro s out hP he
  rcases h s out hP he with e | e
  · exact Or.inl e
  · exact Or.inr (Or.inr e)

theorem STriple.total {P Q : State α → Prop} {p : Prog} (h : STriple S F P p Q) (hS : S) :
    Triple F P p Q := by
  intro s out hP he
  rcases h s out hP he with e | e | e
  · exact Or.inl e
  · exact absurd hS e.2
  · exact Or.inr e

theorem STriple.nil {P : State α → Prop} : STriple S F P [] P := Triple.nil.toS

theorem STriple.conseq {P P' Q Q' : State α → Prop} {p : Prog} (h : STriple S F P p Q)
    (hP : ∀ s, P' s → P s) (hQ : ∀ s, Q s → Q' s) : STriple S F P' p Q' := by
  intro s out hP' he
  rcases h s out (hP s hP') he with e | e | ⟨s', e, hq⟩
  · exact Or.inl e
  · exact Or.inr (Or.inl e)
  · exact Or.inr (Or.inr ⟨s', e, hQ s' hq⟩)

theorem STriple.seq {P Q R : State α → Prop} {p q : Prog} (h1 : STriple S F P p Q)
    (h2 : STriple S F Q q R) : STriple S F P (p ++ q) R := by
  intro s out hP he
  rcases he.append_inv with ⟨s', e1, e2⟩ | ⟨e1, e⟩
  · rcases h1 s _ hP e1 with e | e | ⟨s'', e, hq⟩
    · cases e
    · cases e.1
    · cases e; exact h2 _ out hq e2
  · rcases h1 s _ hP e1 with e' | e' | ⟨s'', e', _⟩
    · exact Or.inl e'
    · exact Or.inr (Or.inl e')
    · subst e'
      rcases e with e | e <;> cases e

theorem runOps_ok {os : List Op} {s : State α} {out : Out α} (h : RunOps F os s out) :
    out = .ub ∨ out = .ok (stateAfter F os s) := by
  induction h with
  | nil s => right; simp [stateAfter]
  | step o os s out hd hr ih =>
    rcases ih with e | e
    · exact Or.inl e
    · right
      rw [e]
      have := stateAfter_append (F := F) [o] os s
      rw [List.singleton_append] at this
      rw [this]
      congr 1
      unfold stateAfter
      simp only [State.mk.injEq, true_and]
      refine ⟨?_, ?_⟩
      · rfl
      · congr 1
        funext l
        simp [initAfter]
        by_cases h : o.dst = l
        · simp [h]
        · have h' : ¬ l = o.dst := fun e => h e.symm
          simp [h, h']
  | undef => exact Or.inl rfl

theorem STriple.par {P Q : State α → Prop} (ts : List (List Op)) (hrf : RaceFree ts)
    (hsafe : S → ∀ s, P s → ∀ t ∈ ts, Safe s.size s.init t)
    (h : ∀ s, P s → Q (stateAfter F ts.flatten s)) : STriple S F P [.par ts] Q := by
  intro s out hP he
  by_cases hS : S
  · exact (Triple.par (F := F) ts hrf (hsafe hS) h).toS s out hP he
  cases he.single_inv with
  | race _ _ h1 => exact absurd hrf h1
  | par _ l _ _ hi hr =>
    rcases runOps_ok hr with e | e
    · exact Or.inr (Or.inl ⟨e, hS⟩)
    · refine Or.inr (Or.inr ⟨_, e, ?_⟩)
      have := h s hP
      simp only [stateAfter] at this ⊢
      rw [exec_interleave F hi hrf, initAfter_perm hi.perm]
      exact this

/-- Induction over a list of steps; the invariant knows what has been done and what is left. -/
theorem STriple.list {β : Type _} (f : β → Prog) (I : List β → State α → Prop) :
    ∀ (done todo : List β),
      (∀ d x t, done ++ todo = d ++ x :: t → STriple S F (I d) (f x) (I (d ++ [x]))) →
      STriple S F (I done) (todo.flatMap f) (I (done ++ todo))
  | done, [], _ => by simpa using STriple.nil
  | done, x :: t, h => by
    rw [flatMap_cons]
    refine STriple.seq (h done x t rfl) ?_
    have := STriple.list f I (done ++ [x]) t (fun d y t' e => h d y t' (by simpa using e))
    simpa using this

/-- First element of an upwards or downwards traversal of `n` blocks. -/
def serpStart (d : Bool) (n : Nat) : Nat := if d then n - 1 else 0

/-- Last element of an upwards or downwards traversal of `n` blocks. -/
def serpEnd (d : Bool) (n : Nat) : Nat := if d then 0 else n - 1

theorem serpEnd_eq (d : Bool) (n : Nat) : serpEnd d n = serpStart (!d) n := by
  cases d <;> rfl

theorem serp_split_start {d : Bool} {n : Nat} {pre t : List Nat} {x : Nat}
    (e : serp d n = pre ++ x :: t) : x = serpStart d n ↔ pre = [] := by
  have hn : 0 < n := by
    rcases Nat.eq_zero_or_pos n with rfl | h
    · rw [serp_eq] at e; simp at e
    · exact h
  have hh := serp_head d hn
  rw [show (if d then n - 1 else 0) = serpStart d n from rfl] at hh
  constructor
  · intro hx
    cases pre with
    | nil => rfl
    | cons y l =>
      rw [e] at hh
      simp only [cons_append, head?_cons, Option.some.injEq] at hh
      have := serp_nodup d n
      rw [e, hh, ← hx] at this
      simp at this
  · rintro rfl
    rw [e] at hh
    simpa using hh

theorem serp_split_prev {d : Bool} {n : Nat} {pre t : List Nat} {y x : Nat}
    (e : serp d n = pre ++ [y] ++ x :: t) : x = y + 1 ∨ y = x + 1 := by
  have := serp_chain d n
  rw [e, isChain_append] at this
  simpa using this.2.2

/-- The three nested serpentine loops of the K-first schedules that pack on the fly
(cake_sgemm_k_first.cpp 279-486 and 633-813).  `AH m k` / `BH n k`: the packed blocks of A and B
now in memory are those of `(m, k)` and `(n, k)`; the schedule skips packing where the serpentine
order makes the block needed the block that is there. -/
def snakeProg (Nb Mb Kb : Nat) (step : Nat → Nat → Nat → Bool → Bool → Prog)
    (fin : Nat → Nat → Prog) : Prog :=
  (range Nb).flatMap fun n =>
    (serp (n % 2 != 0) Mb).flatMap fun m =>
      ((serp (kDesc n m) Kb).flatMap fun k =>
        step n m k
          (k == serpStart (kDesc n m) Kb && m == serpStart (n % 2 != 0) Mb && n != 0)
          (k == serpStart (kDesc n m) Kb && m != serpStart (n % 2 != 0) Mb)) ++ fin n m

/-- The blocks of C in the order of `snakeProg`. -/
def snakeBlocks (Nb Mb : Nat) : List (Nat × Nat) :=
  (range Nb).flatMap fun n => (serp (n % 2 != 0) Mb).map fun m => (n, m)

theorem kDesc_flip_m {n m m' : Nat} (h : m' = m + 1 ∨ m = m' + 1) : kDesc n m' = !kDesc n m := by
  unfold kDesc
  rcases Nat.mod_two_eq_zero_or_one n with hn | hn <;>
  rcases Nat.mod_two_eq_zero_or_one m with hm | hm <;>
  rcases Nat.mod_two_eq_zero_or_one m' with hm' | hm' <;>
  first
  | (exfalso; omega)
  | simp [hn, hm, hm']

theorem kDesc_flip_n (n m : Nat) : kDesc (n + 1) m = !kDesc n m := by
  unfold kDesc
  rcases Nat.mod_two_eq_zero_or_one n with hn | hn <;>
  rcases Nat.mod_two_eq_zero_or_one m with hm | hm <;>
  have hn' : (n + 1) % 2 = 1 - n % 2 := by omega
  all_goals simp [hn, hm, hn']

theorem snake_triple {Nb Mb Kb : Nat} {step : Nat → Nat → Nat → Bool → Bool → Prog}
    {fin : Nat → Nat → Prog} {AH BH : Nat → Nat → State α → Prop}
    {R : List (Nat × Nat) → State α → Prop}
    {W : List (Nat × Nat) → Nat → Nat → List Nat → State α → Prop}
    (hstart : ∀ bl n m s, R bl s → W bl n m [] s)
    (hstep : ∀ bl n m ks k rA rB, n < Nb → m < Mb → k < Kb →
      STriple S F (fun s => W bl n m ks s ∧ (rA = true → AH m k s) ∧ (rB = true → BH n k s))
        (step n m k rA rB) (fun s => W bl n m (ks ++ [k]) s ∧ AH m k s ∧ BH n k s))
    (hfin : ∀ bl n m, n < Nb → m < Mb → ∀ (q : Prop) (k : Nat),
      STriple S F (fun s => W bl n m (serp (kDesc n m) Kb) s ∧ (q → AH m k s ∧ BH n k s))
        (fin n m) (fun s => R (bl ++ [(n, m)]) s ∧ (q → AH m k s ∧ BH n k s))) :
    STriple S F (R []) (snakeProg Nb Mb Kb step fin) (R (snakeBlocks Nb Mb)) := by
  -- one block of C
  have block : ∀ bl n m, n < Nb → m < Mb →
      STriple S F
        (fun s => R bl s ∧
          (0 < Kb → m = serpStart (n % 2 != 0) Mb → n ≠ 0 → AH m (serpStart (kDesc n m) Kb) s) ∧
          (0 < Kb → m ≠ serpStart (n % 2 != 0) Mb → BH n (serpStart (kDesc n m) Kb) s))
        (((serp (kDesc n m) Kb).flatMap fun k =>
          step n m k
            (k == serpStart (kDesc n m) Kb && m == serpStart (n % 2 != 0) Mb && n != 0)
            (k == serpStart (kDesc n m) Kb && m != serpStart (n % 2 != 0) Mb)) ++ fin n m)
        (fun s => R (bl ++ [(n, m)]) s ∧
          (0 < Kb → AH m (serpEnd (kDesc n m) Kb) s ∧ BH n (serpEnd (kDesc n m) Kb) s)) := by
    intro bl n m hn hm
    refine STriple.seq (Q := fun s => W bl n m (serp (kDesc n m) Kb) s ∧
        (0 < Kb → AH m (serpEnd (kDesc n m) Kb) s ∧ BH n (serpEnd (kDesc n m) Kb) s)) ?_
      (hfin bl n m hn hm _ _)
    have L := STriple.list (S := S) (F := F)
      (fun k => step n m k
            (k == serpStart (kDesc n m) Kb && m == serpStart (n % 2 != 0) Mb && n != 0)
            (k == serpStart (kDesc n m) Kb && m != serpStart (n % 2 != 0) Mb))
      (fun done s => W bl n m done s ∧
        (done = [] → 
          (0 < Kb → m = serpStart (n % 2 != 0) Mb → n ≠ 0 → AH m (serpStart (kDesc n m) Kb) s) ∧
          (0 < Kb → m ≠ serpStart (n % 2 != 0) Mb → BH n (serpStart (kDesc n m) Kb) s)) ∧
        (∀ x, done.getLast? = some x → AH m x s ∧ BH n x s))
      [] (serp (kDesc n m) Kb) ?_
    · refine L.conseq ?_ ?_
      · rintro s ⟨h1, h2, h3⟩
        exact ⟨hstart _ _ _ _ h1, fun _ => ⟨h2, h3⟩, by simp⟩
      · rintro s ⟨h1, _, h3⟩
        refine ⟨by simpa using h1, fun hK => ?_⟩
        exact h3 _ (by rw [nil_append]; exact serp_last (kDesc n m) hK)
    · intro d k t e
      rw [nil_append] at e
      have hk : k < Kb := by
        have : k ∈ serp (kDesc n m) Kb := by rw [e]; simp
        exact mem_serp.1 this
      have hs := serp_split_start e
      refine (hstep bl n m d k _ _ hn hm hk).conseq ?_ ?_
      · rintro s ⟨h1, h2, _⟩
        refine ⟨h1, ?_, ?_⟩
        · intro hr
          simp only [Bool.and_eq_true, beq_iff_eq, bne_iff_ne] at hr
          have := (h2 (hs.1 hr.1.1)).1 (by omega) hr.1.2 hr.2
          rwa [hr.1.1]
        · intro hr
          simp only [Bool.and_eq_true, beq_iff_eq, bne_iff_ne] at hr
          have := (h2 (hs.1 hr.1)).2 (by omega) hr.2
          rwa [hr.1]
      · rintro s ⟨h1, h2, h3⟩
        exact ⟨h1, by simp, by rintro x hx; simp at hx; subst hx; exact ⟨h2, h3⟩⟩
  -- one column of blocks
  have column : ∀ bl n, n < Nb →
      STriple S F
        (fun s => R bl s ∧ (0 < Kb → 0 < Mb → n ≠ 0 →
          AH (serpStart (n % 2 != 0) Mb)
            (serpStart (kDesc n (serpStart (n % 2 != 0) Mb)) Kb) s))
        ((serp (n % 2 != 0) Mb).flatMap fun m =>
          ((serp (kDesc n m) Kb).flatMap fun k =>
            step n m k
              (k == serpStart (kDesc n m) Kb && m == serpStart (n % 2 != 0) Mb && n != 0)
              (k == serpStart (kDesc n m) Kb && m != serpStart (n % 2 != 0) Mb)) ++ fin n m)
        (fun s => R (bl ++ (serp (n % 2 != 0) Mb).map fun m => (n, m)) s ∧
          (0 < Kb → 0 < Mb →
          AH (serpEnd (n % 2 != 0) Mb) (serpEnd (kDesc n (serpEnd (n % 2 != 0) Mb)) Kb) s)) := by
    intro bl n hn
    have L := STriple.list (S := S) (F := F)
      (fun m => ((serp (kDesc n m) Kb).flatMap fun k =>
            step n m k
              (k == serpStart (kDesc n m) Kb && m == serpStart (n % 2 != 0) Mb && n != 0)
              (k == serpStart (kDesc n m) Kb && m != serpStart (n % 2 != 0) Mb)) ++ fin n m)
      (fun done s => R (bl ++ done.map fun m => (n, m)) s ∧
        (done = [] → 0 < Kb → 0 < Mb → n ≠ 0 →
          AH (serpStart (n % 2 != 0) Mb)
            (serpStart (kDesc n (serpStart (n % 2 != 0) Mb)) Kb) s) ∧
        (∀ x, done.getLast? = some x → 0 < Kb →
          AH x (serpEnd (kDesc n x) Kb) s ∧ BH n (serpEnd (kDesc n x) Kb) s))
      [] (serp (n % 2 != 0) Mb) ?_
    · refine L.conseq ?_ ?_
      · rintro s ⟨h1, h2⟩
        exact ⟨by simpa using h1, fun _ => h2, by simp⟩
      · rintro s ⟨h1, _, h3⟩
        refine ⟨by simpa using h1, fun hK hM => ?_⟩
        exact (h3 _ (by rw [nil_append]; exact serp_last (n % 2 != 0) hM) hK).1
    · intro d m t e
      rw [nil_append] at e
      have hm : m < Mb := by
        have : m ∈ serp (n % 2 != 0) Mb := by rw [e]; simp
        exact mem_serp.1 this
      have hs := serp_split_start e
      refine (block (bl ++ d.map fun m => (n, m)) n m hn hm).conseq ?_ ?_
      · rintro s ⟨h1, h2, h3⟩
        refine ⟨h1, ?_, ?_⟩
        · intro hK e1 hn0
          rw [e1]
          exact h2 (hs.1 e1) hK (by omega) hn0
        · intro hK e1
          have hd : d ≠ [] := fun h => e1 (hs.2 h)
          obtain ⟨d', y, rfl⟩ : ∃ d' y, d = d' ++ [y] :=
            ⟨d.dropLast, d.getLast hd, (dropLast_append_getLast hd).symm⟩
          have hadj := serp_split_prev e
          have := (h3 y (by simp) hK).2
          rw [serpEnd_eq] at this
          rw [kDesc_flip_m hadj]
          exact this
      · rintro s ⟨h1, h2⟩
        exact ⟨by simpa using h1, by simp, by rintro x hx; simp at hx; subst hx; exact h2⟩
  have L := STriple.list (S := S) (F := F)
    (fun n => (serp (n % 2 != 0) Mb).flatMap fun m =>
          ((serp (kDesc n m) Kb).flatMap fun k =>
            step n m k
              (k == serpStart (kDesc n m) Kb && m == serpStart (n % 2 != 0) Mb && n != 0)
              (k == serpStart (kDesc n m) Kb && m != serpStart (n % 2 != 0) Mb)) ++ fin n m)
    (fun done s => R (done.flatMap fun n => (serp (n % 2 != 0) Mb).map fun m => (n, m)) s ∧
      (∀ x, done.getLast? = some x → 0 < Kb → 0 < Mb →
        AH (serpEnd (x % 2 != 0) Mb) (serpEnd (kDesc x (serpEnd (x % 2 != 0) Mb)) Kb) s))
    [] (range Nb) ?_
  · refine L.conseq ?_ ?_
    · intro s h; exact ⟨by simpa using h, by simp⟩
    · rintro s ⟨h, _⟩; simpa [snakeBlocks] using h
  · intro d n t e
    rw [nil_append] at e
    have hn : n < Nb := by
      have : n ∈ range Nb := by rw [e]; simp
      simpa using this
    refine (column (d.flatMap fun n => (serp (n % 2 != 0) Mb).map fun m => (n, m)) n hn).conseq ?_ ?_
    · rintro s ⟨h1, h2⟩
      refine ⟨h1, fun hK hM hn0 => ?_⟩
      -- the previous column
      have hlen : d = range n := by
        have h1 : d.length = n := by
          have := congrArg (fun l => l[d.length]?) e
          simp only [getElem?_append_right (Nat.le_refl _), Nat.sub_self, getElem?_cons_zero] at this
          rw [getElem?_range (by
            by_contra hc
            rw [getElem?_eq_none (by simpa using Nat.le_of_not_lt hc)] at this
            simp at this)] at this
          simpa using this
        have := congrArg (List.take n) e
        rw [take_range, take_append_of_le_length (by omega), take_of_length_le (by omega)] at this
        rw [← this, Nat.min_eq_left (by omega)]
      obtain ⟨n', rfl⟩ : ∃ n', n = n' + 1 := ⟨n - 1, by omega⟩
      have := h2 n' (by rw [hlen, range_succ]; simp) hK hM
      have hp : (((n' + 1) % 2) != 0) = !(n' % 2 != 0) := by
        rcases Nat.mod_two_eq_zero_or_one n' with h | h
        · have h' : (n' + 1) % 2 = 1 := by omega
          simp [h, h']
        · have h' : (n' + 1) % 2 = 0 := by omega
          simp [h, h']
      rw [hp, ← serpEnd_eq, kDesc_flip_n, ← serpEnd_eq]
      exact this
    · rintro s ⟨h1, h2⟩
      refine ⟨by simpa using h1, ?_⟩
      rintro x hx; simp at hx; subst hx; exact h2

end Cake
