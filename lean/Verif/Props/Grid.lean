/-
Properties C30 (core grid), C31 (least common multiple), C40 (factor table).
-/
import Verif.Model.Grid
import Verif.LoopLemmas
import Mathlib.Data.Nat.Prime.Basic

namespace Cake
open List

/-! ### C31 -/

theorem lcmLoop_eq {n1 n2 : Nat} (fuel mx : Nat) (hm : 0 < mx)
    (hle : mx ≤ Nat.lcm n1 n2) (hf : Nat.lcm n1 n2 - mx < fuel) :
    lcmLoop n1 n2 fuel mx = some (Nat.lcm n1 n2) := by
  induction fuel generalizing mx with
  | zero => omega
  | succ fuel ih =>
    unfold lcmLoop
    split
    · rename_i h
      have := Nat.le_of_dvd hm (Nat.lcm_dvd (Nat.dvd_of_mod_eq_zero h.1) (Nat.dvd_of_mod_eq_zero h.2))
      rw [Nat.le_antisymm hle this]
    · rename_i h
      have hne : mx ≠ Nat.lcm n1 n2 := by
        rintro rfl
        exact h ⟨Nat.mod_eq_zero_of_dvd (Nat.dvd_lcm_left _ _), Nat.mod_eq_zero_of_dvd (Nat.dvd_lcm_right _ _)⟩
      exact ih (mx + 1) (by omega) (by omega) (by omega)

/-- The loop ends within `n1*n2` iterations with the least common multiple: a common multiple that
divides every common multiple. -/
theorem C31_lcm (n1 n2 : Nat) (h1 : 0 < n1) (h2 : 0 < n2) (fuel : Nat) (hf : n1 * n2 ≤ fuel) :
    ∃ l, lcmC fuel n1 n2 = some l ∧ 0 < l ∧ n1 ∣ l ∧ n2 ∣ l ∧ ∀ c, n1 ∣ c → n2 ∣ c → l ∣ c := by
  have hl : Nat.lcm n1 n2 ≤ n1 * n2 := Nat.le_of_dvd (Nat.mul_pos h1 h2) (Nat.lcm_dvd_mul _ _)
  have hp := Nat.lcm_pos h1 h2
  refine ⟨Nat.lcm n1 n2, ?_, hp, Nat.dvd_lcm_left _ _, Nat.dvd_lcm_right _ _, fun c => Nat.lcm_dvd⟩
  have a := Nat.le_of_dvd hp (Nat.dvd_lcm_left n1 n2)
  have b := Nat.le_of_dvd hp (Nat.dvd_lcm_right n1 n2)
  unfold lcmC
  split <;> apply lcmLoop_eq <;> omega

example : lcmC 96 6 16 = some 48 := by decide
example := C31_lcm 6 16 (by decide) (by decide) 96 (by decide)

/-! ### C40 -/

theorem cdiv_one (a : Nat) : cdiv a 1 = a := by simp [cdiv]

theorem mem_cfor_one {lo hi x : Nat} : x ∈ cfor lo hi 1 ↔ lo ≤ x ∧ x < hi := by
  rw [cfor_eq _ _ _ Nat.one_pos]
  simp only [mem_map, mem_range, Nat.mul_one, cdiv_one]
  constructor
  · rintro ⟨t, ht, rfl⟩; omega
  · intro h; exact ⟨x - lo, by omega, by omega⟩

theorem mem_factors {n d : Nat} (hn : 0 < n) : d ∈ factors n ↔ d ∣ n := by
  unfold factors
  simp only [mem_flatMap, mem_filter, mem_cfor_one, beq_iff_eq, mem_cons, not_mem_nil, or_false]
  constructor
  · rintro ⟨i, ⟨_, h⟩, rfl | rfl⟩
    · exact Nat.dvd_of_mod_eq_zero h
    · exact Nat.div_dvd_of_dvd (Nat.dvd_of_mod_eq_zero h)
  · intro h
    have hd : 0 < d := Nat.pos_of_dvd_of_pos h hn
    have he : 0 < n / d := Nat.div_pos (Nat.le_of_dvd hn h) hd
    have e : d * (n / d) = n := Nat.mul_div_cancel' h
    rcases Nat.le_total d (n / d) with hle | hle
    · refine ⟨d, ⟨⟨hd, Nat.lt_succ_of_le (Nat.le_sqrt.2 ?_)⟩, Nat.mod_eq_zero_of_dvd h⟩, Or.inl rfl⟩
      calc d * d ≤ d * (n / d) := Nat.mul_le_mul_left _ hle
        _ = n := e
    · refine ⟨n / d, ⟨⟨he, Nat.lt_succ_of_le (Nat.le_sqrt.2 ?_)⟩,
        Nat.mod_eq_zero_of_dvd (Nat.div_dvd_of_dvd h)⟩, Or.inr ?_⟩
      · calc n / d * (n / d) ≤ d * (n / d) := Nat.mul_le_mul_right _ hle
          _ = n := e
      · exact (Nat.div_div_self h (by omega)).symm

theorem foldl_set_get (fs : List Nat) (q : List Bool) (j : Nat) (hj : j < q.length) :
    (fs.foldl (fun q f => q.set (f - 1) true) q)[j]? = some (q[j] || fs.any fun f => f - 1 == j) := by
  induction fs generalizing q with
  | nil => simp [hj]
  | cons f fs ih =>
    rw [foldl_cons, ih _ (by simpa using hj), getElem_set, any_cons]
    by_cases h : f - 1 = j
    · simp [h]
    · have : (f - 1 == j) = false := by simpa using h
      simp [h, this]

theorem factorRow_get {ncores n d : Nat} (hn : 0 < n) (hd : 0 < d) (hdn : d ≤ ncores) :
    (factorRow ncores n)[d - 1]? = some (decide (d ∣ n)) := by
  unfold factorRow
  rw [foldl_set_get _ _ _ (by simp; omega)]
  congr 1
  rw [getElem_replicate, Bool.false_or, Bool.eq_iff_iff, any_eq_true, decide_eq_true_iff]
  constructor
  · rintro ⟨f, hf, he⟩
    have h1 := (mem_factors hn).1 hf
    have : 0 < f := Nat.pos_of_dvd_of_pos h1 hn
    have : f = d := by simp at he; omega
    exact this ▸ h1
  · intro h
    exact ⟨d, (mem_factors hn).2 h, by simp⟩

/-- Row `ncores - p`, column `d - 1` of the generated table exists and tells whether `d` divides `p`, for
every core count from the smallest listed one (`max 1 r`) to `ncores`. -/
theorem C40_table (ncores r p d : Nat) (hr : max 1 r ≤ p) (hp : p ≤ ncores) (hd : 0 < d)
    (hdn : d ≤ ncores) :
    gridAt (gridTable ncores r) ((ncores : Int) - p) ((d : Int) - 1) = some (decide (d ∣ p)) := by
  unfold gridAt gridTable
  rw [if_neg (by omega)]
  have e1 : ((ncores : Int) - p).toNat = ncores - p := by omega
  have e2 : ((d : Int) - 1).toNat = d - 1 := by omega
  rw [e1, e2, cfor_eq _ _ _ Nat.one_pos]
  simp only [cdiv_one, Nat.mul_one, map_map]
  rw [getElem?_reverse (by simp; omega)]
  simp only [length_map, length_range]
  rw [getElem?_map, getElem?_range (by omega)]
  simp only [Option.map_some, Option.bind_some, Function.comp]
  have e3 : max 1 r + (ncores + 1 - max 1 r - 1 - (ncores - p)) = p := by omega
  rw [e3]
  exact factorRow_get (by omega) hd hdn

example : gridAt (gridTable 12 1) ((12 : Nat) - (10 : Nat)) ((5 : Nat) - 1) = some (decide (5 ∣ 10)) :=
  C40_table 12 1 10 5 (by decide) (by decide) (by decide) (by decide)

/-- The table has one row per listed core count and `ncores` columns, so other indices are out of bounds. -/
theorem C40_bounds (ncores r : Nat) :
    (gridTable ncores r).length = ncores + 1 - max 1 r ∧ ∀ row ∈ gridTable ncores r, row.length = ncores := by
  constructor
  · simp [gridTable, cfor_eq, cdiv_one]
  · intro row h
    simp only [gridTable, mem_reverse, mem_map] at h
    obtain ⟨n, _, rfl⟩ := h
    have : ∀ (fs : List Nat) (q : List Bool),
        (fs.foldl (fun q f => q.set (f - 1) true) q).length = q.length := by
      intro fs
      induction fs with
      | nil => simp
      | cons f fs ih => intro q; rw [foldl_cons, ih]; simp
    simp [factorRow, this]

/-! ### C30 -/

theorem gridFind_spec {tbl : List (List Bool)} {row : Int} {P : Nat → Bool} {is : List Nat}
    (h : ∀ i ∈ is, gridAt tbl row i = some (P i)) : gridFind tbl row is = some (is.find? P) := by
  induction is with
  | nil => rfl
  | cons i is ih =>
    unfold gridFind
    rw [h i (by simp)]
    cases hP : P i
    · simp [hP, ih fun j hj => h j (by simp [hj])]
    · simp [hP]

theorem find_up {P : Nat → Bool} {a n v : Nat} (h : ((range n).map (a + ·)).find? P = some v) :
    a ≤ v ∧ v < a + n ∧ P v = true ∧ ∀ w, a ≤ w → w < v → P w = false := by
  induction n with
  | zero => simp at h
  | succ n ih =>
    rw [range_succ, map_append, find?_append] at h
    cases h1 : ((range n).map (a + ·)).find? P with
    | some u =>
      rw [h1] at h
      simp only [Option.some_or, Option.some.injEq] at h
      subst h
      obtain ⟨i1, i2, i3, i4⟩ := ih h1
      exact ⟨i1, by omega, i3, i4⟩
    | none =>
      rw [h1] at h
      simp only [map_cons, map_nil, find?_cons, find?_nil, Option.none_or] at h
      split at h
      · rename_i hp
        simp only [Option.some.injEq] at h
        subst h
        refine ⟨by omega, by omega, hp, fun w hw hw' => ?_⟩
        rw [find?_eq_none] at h1
        have := h1 w (mem_map.2 ⟨w - a, mem_range.2 (by omega), by omega⟩)
        simpa using this
      · simp at h

theorem find_down {P : Nat → Bool} {a n v : Nat} (hn : n ≤ a)
    (h : ((range n).map (a - ·)).find? P = some v) :
    v ≤ a ∧ a < v + n ∧ P v = true ∧ ∀ w, v < w → w ≤ a → P w = false := by
  induction n with
  | zero => simp at h
  | succ n ih =>
    rw [range_succ, map_append, find?_append] at h
    cases h1 : ((range n).map (a - ·)).find? P with
    | some u =>
      rw [h1] at h
      simp only [Option.some_or, Option.some.injEq] at h
      subst h
      obtain ⟨i1, i2, i3, i4⟩ := ih (by omega) h1
      exact ⟨i1, by omega, i3, i4⟩
    | none =>
      rw [h1] at h
      simp only [map_cons, map_nil, find?_cons, find?_nil, Option.none_or] at h
      split at h
      · rename_i hp
        simp only [Option.some.injEq] at h
        subst h
        refine ⟨by omega, by omega, hp, fun w hw hw' => ?_⟩
        rw [find?_eq_none] at h1
        have := h1 w (mem_map.2 ⟨a - w, mem_range.2 (by omega), by omega⟩)
        simpa using this
      · simp at h

/-- The clamped wish `pn` of `grid_dims_2d`: at least 1, at most `p`. -/
def clampPn (pn0 p : Nat) : Nat := min (max pn0 1) p

theorem clamp_eq {pn0 p : Nat} (hp : 0 < p) :
    (if (if pn0 = 0 then 1 else pn0) > p then p else if pn0 = 0 then 1 else pn0) = clampPn pn0 p := by
  unfold clampPn
  split <;> split at * <;> omega

section
variable {ncores r p pn0 : Nat} (hr : max 1 r ≤ p) (hp : p ≤ ncores)
include hr hp

/-- With a divisor other than 1 below the wish (or the wish a divisor), the result is defined, divides
`p` (so `pm * pn = p` for `pm = p / pn`), and no divisor of `p` except possibly 1 is nearer to the wish. -/
theorem C30_partial (h : clampPn pn0 p ∣ p ∨ ∃ d, d ∣ p ∧ 1 < d ∧ d < clampPn pn0 p) :
    ∃ pn, grid_dims_2d (gridTable ncores r) pn0 p ncores = some pn ∧ pn ∣ p ∧ 0 < pn ∧
      p / pn * pn = p ∧
      ∀ d, d ∣ p → 1 < d → ((pn : Int) - clampPn pn0 p).natAbs ≤ ((d : Int) - clampPn pn0 p).natAbs := by
  have hp0 : 0 < p := by omega
  have hw : 0 < clampPn pn0 p ∧ clampPn pn0 p ≤ p := by unfold clampPn; omega
  have tbl : ∀ i : Nat, i < p → gridAt (gridTable ncores r) ((ncores : Int) - p) (i : Int) =
      some (decide (i + 1 ∣ p)) := by
    intro i hi
    have := C40_table ncores r p (i + 1) hr hp (by omega) (by omega)
    rwa [show ((i + 1 : Nat) : Int) - 1 = i by omega] at this
  unfold grid_dims_2d
  simp only [clamp_eq hp0]
  generalize clampPn pn0 p = w at *
  have ew : ((w : Int) - 1) = ((w - 1 : Nat) : Int) := by omega
  rw [ew, tbl (w - 1) (by omega), Nat.sub_add_cancel hw.1]
  by_cases hwd : w ∣ p
  · refine ⟨w, ?_, hwd, hw.1, Nat.div_mul_cancel hwd, fun d _ _ => by omega⟩
    simp only [hwd, decide_true, Option.bind_eq_bind, Option.bind_some, if_true, Option.some.injEq]
    split <;> omega
  · rcases h with h | ⟨d, hd, hd1, hd2⟩
    · exact absurd h hwd
    have hwp : w < p := by
      rcases Nat.lt_or_eq_of_le hw.2 with h | h
      · exact h
      · exact absurd (h ▸ Nat.dvd_refl _) hwd
    rw [gridFind_spec (P := fun i => decide (i + 1 ∣ p)) (by
        intro i hi
        obtain ⟨t, ht, rfl⟩ := mem_map.1 hi
        have := mem_range.1 ht
        exact tbl _ (by omega)),
      gridFind_spec (P := fun i => decide (i + 1 ∣ p)) (by
        intro i hi
        obtain ⟨t, ht, rfl⟩ := mem_map.1 hi
        exact tbl _ (by omega))]
    have hhi : ∃ v, ((range (p - w)).map (w + ·)).find? (fun i => decide (i + 1 ∣ p)) = some v := by
      rw [← Option.isSome_iff_exists, find?_isSome]
      refine ⟨p - 1, mem_map.2 ⟨p - 1 - w, mem_range.2 (by omega), by omega⟩, ?_⟩
      simp [Nat.sub_add_cancel hp0]
    have hlo : ∃ v, ((range (w - 2)).map (w - 2 - ·)).find? (fun i => decide (i + 1 ∣ p)) = some v := by
      rw [← Option.isSome_iff_exists, find?_isSome]
      refine ⟨d - 1, mem_map.2 ⟨w - 2 - (d - 1), mem_range.2 (by omega), by omega⟩, ?_⟩
      simp [Nat.sub_add_cancel (by omega : 1 ≤ d), hd]
    obtain ⟨hi, ehi⟩ := hhi
    obtain ⟨lo, elo⟩ := hlo
    obtain ⟨a1, a2, a3, a4⟩ := find_up ehi
    obtain ⟨b1, b2, b3, b4⟩ := find_down (Nat.le_refl _) elo
    simp only [decide_eq_true_eq, decide_eq_false_iff_not] at a3 a4 b3 b4
    rw [ehi, elo]
    have near : ∀ e, e ∣ p → 1 < e → hi + 1 ≤ e ∨ e ≤ lo + 1 := by
      intro e he he1
      by_contra hc
      rw [not_or] at hc
      rcases Nat.lt_trichotomy e w with h | h | h
      · exact b4 (e - 1) (by omega) (by omega) (by rwa [Nat.sub_add_cancel (by omega)])
      · exact hwd (h ▸ he)
      · exact a4 (e - 1) (by omega) (by omega) (by rwa [Nat.sub_add_cancel (by omega)])
    simp only [hwd, decide_false, Option.bind_eq_bind, Option.bind_some, Bool.false_eq_true, if_false]
    by_cases hc : (hi : Int) - (w - 1) < (w - 1) - lo
    · refine ⟨hi + 1, ?_, a3, by omega, Nat.div_mul_cancel a3, fun e he he1 => ?_⟩
      · have : hi + 1 ≤ p := Nat.le_of_dvd hp0 a3
        simp only [ew] at hc
        simp only [hc, if_true, Option.some.injEq]
        split <;> omega
      · rcases near e he he1 with h | h <;> omega
    · refine ⟨lo + 1, ?_, b3, by omega, Nat.div_mul_cancel b3, fun e he he1 => ?_⟩
      · have : lo + 1 ≤ p := Nat.le_of_dvd hp0 b3
        simp only [ew] at hc
        simp only [hc, if_false, Option.some.injEq]
        split <;> omega
      · rcases near e he he1 with h | h <;> omega

/-- In all other cases the function uses its uninitialised variable `low`. -/
theorem C30_uninitialised (h : ¬ clampPn pn0 p ∣ p) (h' : ∀ d, d ∣ p → 1 < d → ¬ d < clampPn pn0 p) :
    grid_dims_2d (gridTable ncores r) pn0 p ncores = none := by
  have hp0 : 0 < p := by omega
  have hw : 0 < clampPn pn0 p ∧ clampPn pn0 p ≤ p := by unfold clampPn; omega
  have tbl : ∀ i : Nat, i < p → gridAt (gridTable ncores r) ((ncores : Int) - p) (i : Int) =
      some (decide (i + 1 ∣ p)) := by
    intro i hi
    have := C40_table ncores r p (i + 1) hr hp (by omega) (by omega)
    rwa [show ((i + 1 : Nat) : Int) - 1 = i by omega] at this
  unfold grid_dims_2d
  simp only [clamp_eq hp0]
  generalize clampPn pn0 p = w at *
  have ew : ((w : Int) - 1) = ((w - 1 : Nat) : Int) := by omega
  rw [ew, tbl (w - 1) (by omega), Nat.sub_add_cancel hw.1]
  rw [gridFind_spec (P := fun i => decide (i + 1 ∣ p)) (is := (range (p - w)).map (w + ·)) (by
        intro i hi
        obtain ⟨t, ht, rfl⟩ := mem_map.1 hi
        have := mem_range.1 ht
        exact tbl _ (by omega)),
      gridFind_spec (P := fun i => decide (i + 1 ∣ p)) (is := (range (w - 2)).map (w - 2 - ·)) (by
        intro i hi
        obtain ⟨t, ht, rfl⟩ := mem_map.1 hi
        exact tbl _ (by omega))]
  have hlo : ((range (w - 2)).map (w - 2 - ·)).find? (fun i => decide (i + 1 ∣ p)) = none := by
    rw [find?_eq_none]
    intro i hi
    obtain ⟨t, ht, rfl⟩ := mem_map.1 hi
    have := mem_range.1 ht
    simp only [decide_eq_true_eq]
    intro hd
    exact h' _ hd (by omega) (by omega)
  rw [hlo]
  simp only [h, decide_false, Option.bind_eq_bind, Option.bind_some, Bool.false_eq_true, if_false,
    Option.bind_none, Option.bind_fun_none]

end

/-- 12 cores asked for 5 columns: 4 is chosen. -/
example := C30_partial (ncores := 16) (r := 2) (p := 12) (pn0 := 5) (by decide) (by decide)
  (Or.inr ⟨2, by decide, by decide, by decide⟩)
example : grid_dims_2d (gridTable 16 2) 5 12 16 = some 4 := by decide +kernel

/-- `pn0` is `sqrt(p*N/M)` rounded to nearest. -/
def IsRoundSqrt (pn0 p M N : Nat) : Prop :=
  4 * (p * N) ≤ (2 * pn0 + 1) ^ 2 * M ∧ (2 * pn0 - 1 : Int) ^ 2 * M ≤ 4 * (p * N) ∧ 0 < pn0

/-- The property fails: a square matrix on 3 of 3 cores has undefined behaviour, whichever way the
square root is rounded. -/
theorem C30_refuted : ∃ M N p ncores : Nat, 0 < M ∧ 0 < N ∧ 0 < p ∧ p ≤ ncores ∧
    (∃ pn0, IsRoundSqrt pn0 p M N) ∧
    ∀ pn0, IsRoundSqrt pn0 p M N → grid_dims_2d (gridTable ncores 0) pn0 p ncores = none := by
  refine ⟨1000, 1000, 3, 3, by decide, by decide, by decide, by decide, ⟨2, by unfold IsRoundSqrt; decide⟩, ?_⟩
  intro pn0 h
  have : pn0 = 2 := by
    obtain ⟨h1, h2, h3⟩ := h
    have a : pn0 ≤ 2 := by
      by_contra hc
      have : (5 : Int) ^ 2 ≤ (2 * pn0 - 1 : Int) ^ 2 := by
        apply pow_le_pow_left₀ <;> omega
      push_cast at h2
      omega
    have b : 1 < pn0 := by
      by_contra hc
      have : pn0 = 1 := by omega
      subst this
      omega
    omega
  subst this
  exact C30_uninitialised (by decide) (by decide) (by decide) (by
    intro d hd h1
    have : clampPn 2 3 = 2 := rfl
    omega)

/-- More generally: a prime number of cores with any wish strictly between 1 and `p`. -/
theorem C30_prime_refuted (ncores p pn0 : Nat) (hp : p.Prime) (hn : p ≤ ncores) (h1 : 1 < pn0)
    (h2 : pn0 < p) : grid_dims_2d (gridTable ncores 0) pn0 p ncores = none := by
  have hpos := hp.pos
  have e : clampPn pn0 p = pn0 := by unfold clampPn; omega
  apply C30_uninitialised (by omega) hn
  · rw [e]
    intro h
    rcases (Nat.dvd_prime hp).1 h with h | h <;> omega
  · intro d hd hd1
    rw [e]
    rcases (Nat.dvd_prime hp).1 hd with h | h <;> omega

example := C30_prime_refuted 8 7 3 (by decide) (by decide) (by decide) (by decide)

/-- Asking for more cores than the table was generated for reads outside the table. -/
theorem C30_too_many_refuted (ncores r p pn0 : Nat) (h : ncores < p) :
    grid_dims_2d (gridTable ncores r) pn0 p ncores = none := by
  unfold grid_dims_2d
  have : ∀ j, gridAt (gridTable ncores r) ((ncores : Int) - p) j = none := by
    intro j
    unfold gridAt
    rw [if_pos (Or.inl (by omega))]
  simp only [this, Option.bind_eq_bind, Option.bind_none]

example := C30_too_many_refuted 8 1 16 4 (by decide)

/-- **C30, exactly when it holds.** For `p` cores (`r` is the first row count of the table) and the wish `pn0`, the
function is defined, and then returns a grid using all cores, exactly if the table covers `p` and the wish clamped
to `1..p` divides `p` or is above a divisor of `p` other than 1. -/
theorem C30_iff (ncores r p pn0 : Nat) (hr : max 1 r ≤ p) :
    (∃ pn, grid_dims_2d (gridTable ncores r) pn0 p ncores = some pn ∧ 0 < pn ∧ p / pn * pn = p) ↔
      p ≤ ncores ∧ (clampPn pn0 p ∣ p ∨ ∃ d, d ∣ p ∧ 1 < d ∧ d < clampPn pn0 p) := by
  constructor
  · rintro ⟨pn, h, _⟩
    by_contra hc
    by_cases hp : p ≤ ncores
    · have hc := fun hx => hc ⟨hp, hx⟩
      rw [C30_uninitialised hr hp (fun h => hc (Or.inl h)) fun d h1 h2 h3 => hc (Or.inr ⟨d, h1, h2, h3⟩)] at h
      cases h
    · rw [C30_too_many_refuted ncores r p pn0 (by omega)] at h
      cases h
  · rintro ⟨hp, h⟩
    obtain ⟨pn, h1, _, h2, h3, _⟩ := C30_partial hr hp h
    exact ⟨pn, h1, h2, h3⟩

example : (∃ pn, grid_dims_2d (gridTable 16 0) 5 12 16 = some pn ∧ 0 < pn ∧ 12 / pn * pn = 12) ∧
    ¬ ∃ pn, grid_dims_2d (gridTable 16 0) 3 7 16 = some pn ∧ 0 < pn ∧ 7 / pn * pn = 7 := by
  rw [C30_iff _ _ _ _ (by decide), C30_iff _ _ _ _ (by decide)]
  refine ⟨⟨by decide, Or.inr ⟨2, by decide, by decide, by decide⟩⟩, ?_⟩
  rintro ⟨-, h | ⟨d, h1, h2, h3⟩⟩
  · revert h; decide
  · have : d < 3 := h3
    obtain rfl : d = 2 := by omega
    revert h1; decide

end Cake
