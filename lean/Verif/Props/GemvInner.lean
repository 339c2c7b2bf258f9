/-
C79: the row-major inner-product kernel of the matrix-vector example.
-/
import Verif.Proofs.GemvInner

namespace Cake
open List

section
variable {α : Type _} (F : Arith α) (add : α → α → α) (A B C : Int → Option α) (m k K : Nat)

theorem storeAns_ok {ans : Nat → Option α} {f : Nat → α} :
    storeAns F ans = .ok f ↔ (∀ l, l < 8 → (ans l).isSome) ∧ f = fun l => (ans l).getD F.zero := by
  unfold storeAns
  split
  · rename_i h
    exact ⟨fun e => ⟨fun l hl => all_eq_true.1 h l (mem_range.2 hl), (Except.ok.inj e).symm⟩, fun e => by rw [e.2]⟩
  · rename_i h
    exact ⟨fun e => (nomatch e), fun e => absurd (all_eq_true.2 fun l hl => e.1 l (mem_range.1 hl)) h⟩

theorem inner_ok {f : Nat → α} : cake_sgemv_haswell_inner_1x64x1 F add A B C m k K = .ok f ↔
    m = 8 ∧ 0 < k ∧ InnerReads A B C m k K ∧ f = fun l => ((loopsP F add A B C m k K).ans l).getD F.zero := by
  unfold cake_sgemv_haswell_inner_1x64x1
  rw [bind_ok]
  have hans : ∀ l, ((loopsP F add A B C m k K).ans l).isSome = (decide (l < m) && decide (0 < k)) := fun l => by
    unfold loopsP
    rw [rowsP_ans]
    simp
  constructor
  · rintro ⟨s, h1, h2⟩
    obtain ⟨h3, h4, rfl⟩ := loops_ok.1 h1
    obtain ⟨h5, h6⟩ := (storeAns_ok F).1 h2
    have := h5 7 (by decide)
    rw [hans] at this
    simp only [Bool.and_eq_true, decide_eq_true_eq] at this
    have := h3 this.2
    exact ⟨by omega, by omega, h4, h6⟩
  · rintro ⟨h1, h2, h3, rfl⟩
    refine ⟨_, loops_ok.2 ⟨fun _ => by omega, h3, rfl⟩, (storeAns_ok F).2 ⟨fun l hl => ?_, rfl⟩⟩
    rw [hans]
    simp only [Bool.and_eq_true, decide_eq_true_eq]
    omega

/-- **C79.** The kernel is defined exactly for eight rows and at least one column, when the vector has 64 elements and every
row of A can be read up to the next multiple of 64 columns. -/
theorem C79_defined_iff : (∃ f, cake_sgemv_haswell_inner_1x64x1 F add A B C m k K = .ok f) ↔
    m = 8 ∧ 0 < k ∧ (∀ i : Nat, i < 8 → (C i).isSome) ∧ (∀ i : Nat, i < 64 → (B i).isSome) ∧
    ∀ r x : Nat, r < 8 → x < 64 * cdiv k 64 → (A (r * (64 * cdiv k 64 + ((K : Int) - k)) + x)).isSome := by
  constructor
  · rintro ⟨f, h⟩
    obtain ⟨rfl, h2, h3, -⟩ := (inner_ok F add A B C m k K).1 h
    refine ⟨rfl, h2, h3.c, h3.b, fun r x hr hx => ?_⟩
    have := h3.a r (x / 64) (x % 64) hr (by omega) (by omega)
    rw [show (r : Int) * rowStep k K + 64 * ((x / 64 : Nat) : Int) + ((x % 64 : Nat) : Int) = r * rowStep k K + x by omega] at this
    exact this
  · rintro ⟨rfl, h2, h3, h4, h5⟩
    refine ⟨_, (inner_ok F add A B C 8 k K).2 ⟨rfl, h2, ⟨h3, h4, fun r t i hr ht hi => ?_⟩, rfl⟩⟩
    have := h5 r (64 * t + i) hr (by omega)
    rw [show (r : Int) * rowStep k K + 64 * (t : Int) + (i : Int) = r * rowStep k K + ((64 * t + i : Nat) : Int) by
      push_cast; omega]
    exact this

end

section
variable {R : Type _} [CommSemiring R]

theorem sum_blocks (T : Nat) (f : Nat → R) :
    ∑ t ∈ Finset.range T, ∑ i ∈ Finset.range 64, f (64 * t + i) = ∑ x ∈ Finset.range (64 * T), f x := by
  induction T with
  | zero => simp
  | succ T ih => rw [Finset.sum_range_succ, ih, Nat.mul_succ, Finset.sum_range_add]

/-- **C79**: what the kernel computes, in exact arithmetic. Element `l` is the sum of all eight old elements of C and of the
rows `0` to `l` of A, not just row `l`, each rounded up to a multiple of 64 columns, times the first 64 elements of the vector
over and over. -/
theorem C79_value {A B C : Int → Option R} {m k K : Nat} {f : Nat → R}
    (h : cake_sgemv_haswell_inner_1x64x1 (exact R) (· + ·) A B C m k K = .ok f) {l : Nat} (hl : l < 8) :
    f l = ∑ j ∈ Finset.range 8, (C (j : Nat)).getD 0 + ∑ r ∈ Finset.range (l + 1), ∑ x ∈ Finset.range (64 * cdiv k 64),
      (A (r * (64 * cdiv k 64 + ((K : Int) - k)) + x)).getD 0 * (B ((x % 64 : Nat) : Int)).getD 0 := by
  obtain ⟨rfl, h2, -, rfl⟩ := (inner_ok ..).1 h
  have := rowsP_val A (fun i => (B i).getD 0) k K 8 0 l h2 ⟨0, fun i => (C i).getD 0, fun _ => none⟩ (by omega) (by omega)
  show (((loopsP (exact R) (· + ·) A B C 8 k K).ans l).getD 0) = _
  unfold loopsP
  refine (congrArg (fun o : Option R => o.getD 0) this).trans ?_
  show _ + _ = _
  congr 1
  refine Finset.sum_congr rfl fun r _ => ?_
  show rowDot A _ k (0 + (r : Int) * rowStep k K) = _
  rw [← sum_blocks]
  unfold rowDot block
  refine Finset.sum_congr rfl fun t _ => Finset.sum_congr rfl fun i hi => ?_
  rw [Finset.mem_range] at hi
  rw [show (64 * t + i) % 64 = i by omega]
  congr 2
  congr 1
  unfold rowStep
  push_cast
  ring

/-- **C79, what is right**: for 64 columns and a result that was zero, the first element. -/
theorem C79_first_partial {A B C : Int → Option R} {m K : Nat} {f : Nat → R}
    (h : cake_sgemv_haswell_inner_1x64x1 (exact R) (· + ·) A B C m 64 K = .ok f)
    (hC : ∀ j : Nat, j < 8 → C j = some 0) :
    f 0 = ∑ x ∈ Finset.range 64, (A (x : Nat)).getD 0 * (B (x : Nat)).getD 0 := by
  rw [C79_value h (by decide), Finset.sum_eq_zero (fun j hj => by rw [hC j (Finset.mem_range.1 hj)]; rfl), zero_add,
    Finset.sum_range_one]
  refine Finset.sum_congr (by decide) fun x hx => ?_
  rw [Finset.mem_range] at hx
  rw [Nat.mod_eq_of_lt hx]
  simp

end

/-- **C79 does not hold**: for every number of rows, columns and row length there are integer operands, readable everywhere, for
which the call is undefined or does not add the row times the vector to some of the first `m` elements of C. -/
theorem C79_refuted (m k K : Nat) (hk : 0 < k) (hkK : k ≤ K) : ∃ A B C : Int → Int,
    ∀ f, cake_sgemv_haswell_inner_1x64x1 (exact Int) (· + ·) (fun i => some (A i)) (fun i => some (B i)) (fun i => some (C i))
      m k K = .ok f → ∃ l, l < m ∧ f l ≠ C l + ∑ t ∈ Finset.range k, A (l * K + t) * B t := by
  refine ⟨fun i => if i = 0 then 1 else 0, fun _ => 1, fun _ => 0, fun f hf => ⟨1, ?_, ?_⟩⟩
  · obtain ⟨rfl, -⟩ := (inner_ok ..).1 hf
    decide
  · have h1 := C79_value hf (l := 1) (by decide)
    have hT : 0 < 64 * cdiv k 64 := by unfold cdiv; omega
    have hR : 0 < 64 * (cdiv k 64 : Int) + ((K : Int) - k) := by omega
    have e0 : ∑ x ∈ Finset.range (64 * cdiv k 64), (if (x : Int) = 0 then (1 : Int) else 0) = 1 := by
      rw [Finset.sum_eq_single_of_mem 0 (Finset.mem_range.2 hT) fun x _ hx => if_neg (by omega)]
      rfl
    have e1 : ∑ x ∈ Finset.range (64 * cdiv k 64),
        (if 64 * (cdiv k 64 : Int) + ((K : Int) - k) + x = 0 then (1 : Int) else 0) = 0 :=
      Finset.sum_eq_zero fun x _ => if_neg (by omega)
    have e2 : ∑ t ∈ Finset.range k, (if ((1 : Nat) : Int) * K + t = 0 then (1 : Int) else 0) * 1 = 0 :=
      Finset.sum_eq_zero fun x _ => by rw [if_neg (by omega)]; rfl
    rw [h1, e2]
    simp only [Option.getD_some, mul_one, Finset.sum_const_zero, zero_add, Finset.sum_range_succ, Finset.sum_range_zero,
      Nat.cast_zero, zero_mul, Nat.cast_one, one_mul]
    rw [e0, e1]
    decide

/-! ### Cases that meet the hypotheses -/

/-- 100 columns in rows of 130 elements: A of `7 * 158 + 128` elements. -/
example : ∃ f, cake_sgemv_haswell_inner_1x64x1 (exact Int) (· + ·) (fun i => if 0 ≤ i ∧ i < 1234 then some (i % 7) else none)
    (fun i => if 0 ≤ i ∧ i < 64 then some i else none) (fun i => if 0 ≤ i ∧ i < 8 then some 0 else none) 8 100 130 = .ok f :=
  (C79_defined_iff ..).2 ⟨rfl, by decide, fun i hi => by rw [if_pos (by omega)]; rfl, fun i hi => by rw [if_pos (by omega)]; rfl,
    fun r x hr hx => by
      rw [show 64 * cdiv 100 64 = 128 by decide] at hx
      rw [if_pos (by rw [show (64 * (cdiv 100 64 : Int) + (((130 : Nat) : Int) - ((100 : Nat) : Int))) = 158 by decide]; omega)]
      rfl⟩

/-- Seven rows are undefined even when everything can be read. -/
example : ¬ ∃ f, cake_sgemv_haswell_inner_1x64x1 (exact Int) (· + ·) (fun _ => some 1) (fun _ => some 1) (fun _ => some 0)
    7 64 64 = .ok f := fun h => absurd ((C79_defined_iff ..).1 h).1 (by decide)

example {f : Nat → Int} (h : cake_sgemv_haswell_inner_1x64x1 (exact Int) (· + ·) (fun _ => some 1) (fun _ => some 1)
    (fun _ => some 0) 8 64 64 = .ok f) : f 0 = 64 := by
  rw [C79_first_partial h fun _ _ => rfl]
  decide

example := C79_refuted 8 100 130 (by decide) (by decide)

end Cake
