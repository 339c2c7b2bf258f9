/-
The two directions in which the blocks of K are added up, and rounded sums that tell them apart.
-/
import Verif.Proofs.SgemmMN
import Verif.Proofs.Nearest
import Verif.Props.Error
import Mathlib.Data.Nat.Log

namespace Cake
open List

section
variable {K S : Nat}

theorem kOrder_up (hS : 0 < S) : kOrder K S (serp false (cdiv K S)) = range K := by
  rw [serp_eq, if_neg (by simp)]
  exact chop_range hS

theorem kOrder_single (hS : 0 < S) (hK : K ≤ S) (b : Bool) : kOrder K S (serp b (cdiv K S)) = range K := by
  have h1 : cdiv K S ≤ 1 := cdiv_le_of_le_mul hS (by omega)
  have h2 : serp b (cdiv K S) = serp false (cdiv K S) := by
    rw [serp_eq, serp_eq]
    cases b
    · rfl
    · interval_cases cdiv K S <;> rfl
  rw [h2, kOrder_up hS]

/-- The second block comes before the first one when the blocks are taken backwards. -/
theorem kOrder_down (hS : 0 < S) (hK : S < K) : [S, 0] <+ kOrder K S (serp true (cdiv K S)) := by
  have hn : 2 ≤ cdiv K S := by
    by_contra h
    have := cdiv_mul_ge K S hS
    have h1 : cdiv K S ≤ 1 := by omega
    have := Nat.mul_le_mul_right S h1
    omega
  obtain ⟨n, e⟩ : ∃ n, cdiv K S = n + 2 := ⟨cdiv K S - 2, by omega⟩
  have h1 : [1, 0] <+ serp true (cdiv K S) := by
    rw [serp_eq, if_pos rfl, ← reverse_sublist, reverse_reverse, e]
    have : range 2 <+ range (n + 2) := range_sublist.2 (by omega)
    exact this
  have h2 : ([1, 0].flatMap fun k => (range (chopLen K S k)).map fun i => k * S + i) <+
      kOrder K S (serp true (cdiv K S)) := h1.flatMap _
  refine Sublist.trans ?_ h2
  have m1 : S ∈ (range (chopLen K S 1)).map fun i => 1 * S + i :=
    mem_map.2 ⟨0, mem_range.2 (by unfold chopLen; omega), by omega⟩
  have m0 : 0 ∈ (range (chopLen K S 0)).map fun i => 0 * S + i :=
    mem_map.2 ⟨0, mem_range.2 (by unfold chopLen; omega), by omega⟩
  simp only [flatMap_cons, flatMap_nil, append_nil]
  exact (singleton_sublist.2 m1).append (singleton_sublist.2 m0)

theorem orderMKN_eq {p k_c : Nat} (hp : 0 < p) (hk : 0 < k_c) (n_c col : Nat) :
    orderMKN K p k_c n_c col = kOrder K (p * k_c) (serp (col / n_c % 2 != 0) (cdiv K (p * k_c))) := by
  unfold orderMKN kOrder
  apply flatMap_congr
  intro k hk'
  exact kOrd_eq hp hk (mem_range.1 ((serp_perm _ _).mem_iff.1 hk'))

theorem orderNKM_eq {p k_c : Nat} (hp : 0 < p) (hk : 0 < k_c) (m_c row : Nat) :
    orderNKM K p m_c k_c row = kOrder K (p * k_c) (serp (row / (p * m_c) % 2 != 0) (cdiv K (p * k_c))) := by
  unfold orderNKM kOrder
  apply flatMap_congr
  intro k hk'
  exact kOrd_eq hp hk (mem_range.1 ((serp_perm _ _).mem_iff.1 hk'))

end

/-! ### A sum whose rounding depends on the order -/

/-- Row of A: two entries that matter. -/
noncomputable def witA (S k : Nat) : ℝ := if k = 0 then 8193 else if k = S then -16384 else 0

/-- Column of B. -/
noncomputable def witB (S k : Nat) : ℝ := if k = 0 then 8193 else if k = S then 4097 else 0

/-- Rounding of the numbers that occur: `8193 * 8193 = 2^26 + 2^14 + 1` has one bit too many. -/
structure Drops (r : Rounding 24) : Prop where
  big : r.rnd 67125249 = 67125248
  pos : r.rnd 67125248 = 67125248
  neg : r.rnd (-67125248) = -67125248

theorem nearest_drops : Drops (nearest 24 (by decide)) := by
  have l1 : Int.log 2 |(67125249 : ℝ)| = 26 := by
    rw [abs_of_nonneg (by norm_num), show (67125249 : ℝ) = ((67125249 : ℕ) : ℝ) by norm_num, Int.log_natCast,
      show Nat.log 2 67125249 = 26 from (Nat.log_eq_iff (Or.inl (by decide))).2 ⟨by norm_num, by norm_num⟩]
    rfl
  have l2 : Int.log 2 |(67125248 : ℝ)| = 26 := by
    rw [abs_of_nonneg (by norm_num), show (67125248 : ℝ) = ((67125248 : ℕ) : ℝ) by norm_num, Int.log_natCast,
      show Nat.log 2 67125248 = 26 from (Nat.log_eq_iff (Or.inl (by decide))).2 ⟨by norm_num, by norm_num⟩]
    rfl
  have u1 : ulp 24 67125249 = 8 := by unfold ulp; rw [l1]; norm_num
  have u2 : ulp 24 67125248 = 8 := by unfold ulp; rw [l2]; norm_num
  have u3 : ulp 24 (-67125248) = 8 := by unfold ulp; rw [abs_neg, l2]; norm_num
  refine ⟨?_, ?_, ?_⟩
  · show nearestFn 24 _ = _
    unfold nearestFn
    rw [u1, show round ((67125249 : ℝ) / 8) = 8390656 by
      rw [round_eq, Int.floor_eq_iff]; norm_num]
    norm_num
  · exact nearest_of_mul 8390656 (by rw [u2]; norm_num)
  · exact nearest_of_mul (-8390656) (by rw [u3]; norm_num)

section
variable {r : Rounding 24} {S : Nat}

theorem wit_skip {l : List Nat} (h : ∀ k ∈ l, k ≠ 0 ∧ k ≠ S) {c : ℝ} (hc : r.rnd c = c) :
    dotFrom (fusedArith r) (witA S) (witB S) l c = c := by
  unfold dotFrom
  induction l with
  | nil => rfl
  | cons x xs ih =>
    have e : (fusedArith r).fma (witA S x) (witB S x) c = c := by
      show r.rnd (witA S x * witB S x + c) = c
      obtain ⟨h1, h2⟩ := h x mem_cons_self
      unfold witA
      rw [if_neg h1, if_neg h2, zero_mul, zero_add, hc]
    rw [foldl_cons, e]
    exact ih fun k hk => h k (mem_cons_of_mem _ hk)

/-- A list without repetitions that contains `x` before `y`. -/
theorem split_two {l : List Nat} {x y : Nat} (hn : l.Nodup) (h : [x, y] <+ l) :
    ∃ l1 l2 l3, l = l1 ++ x :: (l2 ++ y :: l3) ∧ (∀ k ∈ l1, k ≠ x ∧ k ≠ y) ∧ (∀ k ∈ l2, k ≠ x ∧ k ≠ y) ∧
      ∀ k ∈ l3, k ≠ x ∧ k ≠ y := by
  obtain ⟨r1, r2, rfl, h1, h2⟩ := cons_sublist_iff.1 h
  obtain ⟨a, b, rfl⟩ := append_of_mem h1
  obtain ⟨c, d, rfl⟩ := append_of_mem (singleton_sublist.1 h2)
  refine ⟨a, b ++ c, d, by simp, ?_⟩
  have e : (a ++ x :: b) ++ (c ++ y :: d) = a ++ x :: ((b ++ c) ++ y :: d) := by simp
  rw [e, nodup_append, nodup_cons, nodup_append, nodup_cons] at hn
  obtain ⟨-, ⟨hx, -, ⟨hy, -⟩, h3⟩, h4⟩ := hn
  simp only [mem_append, mem_cons, not_or] at hx h3 h4
  refine ⟨fun k hk => ⟨h4 k hk x (Or.inl rfl), h4 k hk y (Or.inr (Or.inr (Or.inl rfl)))⟩, fun k hk => ⟨?_, ?_⟩, fun k hk => ⟨?_, ?_⟩⟩
  · rintro rfl
    exact (mem_append.1 hk).elim hx.1.1 hx.1.2
  · exact h3 k (mem_append.1 hk) y (Or.inl rfl)
  · rintro rfl
    exact hx.2.2 hk
  · rintro rfl
    exact hy hk

variable (hr : Drops r) (hS : 0 < S)
include hr hS

/-- `8193 * 8193` first: its last bit is lost. -/
theorem wit_up {l : List Nat} (hn : l.Nodup) (h : [0, S] <+ l) : dotFrom (fusedArith r) (witA S) (witB S) l 0 = 0 := by
  have z : r.rnd 0 = 0 := by simpa using r.int 0 (by norm_num)
  obtain ⟨l1, l2, l3, rfl, h1, h2, h3⟩ := split_two hn h
  have e0 : (fusedArith r).fma (witA S 0) (witB S 0) 0 = 67125248 := by
    show r.rnd (witA S 0 * witB S 0 + 0) = _
    rw [← hr.big]
    unfold witA witB
    norm_num
  have e1 : (fusedArith r).fma (witA S S) (witB S S) 67125248 = 0 := by
    show r.rnd (witA S S * witB S S + 67125248) = _
    unfold witA witB
    rw [if_neg hS.ne', if_pos rfl, if_neg hS.ne', if_pos rfl]
    norm_num [z]
  have : dotFrom (fusedArith r) (witA S) (witB S) (l1 ++ 0 :: (l2 ++ S :: l3)) 0 =
      dotFrom (fusedArith r) (witA S) (witB S) l3 ((fusedArith r).fma (witA S S) (witB S S)
        (dotFrom (fusedArith r) (witA S) (witB S) l2 ((fusedArith r).fma (witA S 0) (witB S 0)
          (dotFrom (fusedArith r) (witA S) (witB S) l1 0)))) := by
    unfold dotFrom
    rw [foldl_append, foldl_cons, foldl_append, foldl_cons]
  rw [this, wit_skip h1 z, e0, wit_skip h2 hr.pos, e1, wit_skip h3 z]

/-- `8193 * 8193` last: nothing is lost. -/
theorem wit_down {l : List Nat} (hn : l.Nodup) (h : [S, 0] <+ l) : dotFrom (fusedArith r) (witA S) (witB S) l 0 = 1 := by
  have z : r.rnd 0 = 0 := by simpa using r.int 0 (by norm_num)
  have o : r.rnd 1 = 1 := by simpa using r.int 1 (by norm_num)
  obtain ⟨l1, l2, l3, rfl, h1, h2, h3⟩ := split_two hn h
  have e0 : (fusedArith r).fma (witA S 0) (witB S 0) (-67125248) = 1 := by
    show r.rnd (witA S 0 * witB S 0 + -67125248) = _
    unfold witA witB
    norm_num [o]
  have e1 : (fusedArith r).fma (witA S S) (witB S S) 0 = -67125248 := by
    show r.rnd (witA S S * witB S S + 0) = _
    unfold witA witB
    rw [if_neg hS.ne', if_pos rfl, if_neg hS.ne', if_pos rfl, ← hr.neg]
    norm_num
  have : dotFrom (fusedArith r) (witA S) (witB S) (l1 ++ S :: (l2 ++ 0 :: l3)) 0 =
      dotFrom (fusedArith r) (witA S) (witB S) l3 ((fusedArith r).fma (witA S 0) (witB S 0)
        (dotFrom (fusedArith r) (witA S) (witB S) l2 ((fusedArith r).fma (witA S S) (witB S S)
          (dotFrom (fusedArith r) (witA S) (witB S) l1 0)))) := by
    unfold dotFrom
    rw [foldl_append, foldl_cons, foldl_append, foldl_cons]
  have sw : ∀ {l : List Nat}, (∀ k ∈ l, k ≠ S ∧ k ≠ 0) → ∀ k ∈ l, k ≠ 0 ∧ k ≠ S := fun h k hk => (h k hk).symm
  rw [this, wit_skip (sw h1) z, e1, wit_skip (sw h2) hr.neg, e0, wit_skip (sw h3) o]

end
end Cake
