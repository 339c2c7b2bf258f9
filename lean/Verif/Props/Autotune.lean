/-
C64: the search for tile sizes proposes new, usable tile sizes and ends.
-/
import Verif.Model.Autotune
import Verif.Props.Random
import Mathlib.Tactic.Linarith
import Mathlib.Data.Finset.Image
import Mathlib.Order.Interval.Finset.Basic
import Mathlib.Data.Int.Interval

namespace Cake

/-- Parameters of a search: nothing is zero. -/
structure Search.OK (q : Search) : Prop where
  K : 0 < q.K
  pm : 0 < q.pm
  pn : 0 < q.pn
  mr : 0 < q.mr
  nr : 0 < q.nr

theorem clampInt_mem {d a b : ℤ} (h : a ≤ b) : a ≤ clampInt d a b ∧ clampInt d a b ≤ b := by
  unfold clampInt
  dsimp only
  split <;> split <;> omega

theorem clampInt_le {d a b : ℤ} : clampInt d a b ≤ b := by
  unfold clampInt
  dsimp only
  split <;> split <;> omega

theorem clampInt_ge {d a b : ℤ} : min a b ≤ clampInt d a b := by
  unfold clampInt
  dsimp only
  split <;> split <;> omega

theorem clampInt_dvd {d a b r : ℤ} (ha : r ∣ a) (hb : r ∣ b) (hd : r ∣ d) : r ∣ clampInt d a b := by
  unfold clampInt
  dsimp only
  split <;> split <;> assumption

theorem up_dvd {x r : Nat} (hr : 0 < r) : r ∣ x + (r - x % r) := by
  have h1 := Nat.div_add_mod x r
  have h2 := Nat.mod_lt x hr
  refine ⟨x / r + 1, ?_⟩
  rw [Nat.mul_add, Nat.mul_one]
  omega

theorem up_ge {x r : Nat} (hr : 0 < r) : r ≤ x + (r - x % r) :=
  Nat.le_of_dvd (by have := Nat.mod_lt x hr; omega) (up_dvd hr)

theorem up_le (x r : Nat) : x + (r - x % r) ≤ x + r := by omega

variable {q : Search} {curr : ℤ × ℤ × ℤ} {visited : Finset (ℤ × ℤ × ℤ)} {l : List (ℝ × ℝ × ℝ)}

theorem move_bounds (h : q.OK) (a : ℝ × ℝ × ℝ) :
    (q.mr ≤ (q.move curr a).1 ∧ (q.move curr a).1 ≤ q.M / q.pm + q.mr) ∧
    (min 20 (q.K : ℤ) ≤ (q.move curr a).2.1 ∧ (q.move curr a).2.1 ≤ q.K) ∧
    (q.nr ≤ (q.move curr a).2.2 ∧ (q.move curr a).2.2 ≤ q.N / q.pn + q.nr) := by
  have m1 : (q.mr : ℤ) ≤ q.mcMax := by exact_mod_cast up_ge h.mr
  have n1 : (q.nr : ℤ) ≤ q.ncMax := by exact_mod_cast up_ge h.nr
  have m2 : (q.mcMax : ℤ) ≤ q.M / q.pm + q.mr := by exact_mod_cast up_le (q.M / q.pm) q.mr
  have n2 : (q.ncMax : ℤ) ≤ q.N / q.pn + q.nr := by exact_mod_cast up_le (q.N / q.pn) q.nr
  exact ⟨⟨(clampInt_mem m1).1, (clampInt_mem m1).2.trans m2⟩, ⟨clampInt_ge, clampInt_le⟩,
    ⟨(clampInt_mem n1).1, (clampInt_mem n1).2.trans n2⟩⟩

theorem GetCandidate.inv {d : ℤ × ℤ × ℤ} {v : Finset (ℤ × ℤ × ℤ)} (h : GetCandidate q curr visited l (.some d v)) :
    (∃ a ∈ l, d = q.move curr a) ∧ d ∉ visited ∧ v = insert d visited ∧ visited.card < q.maxCand := by
  generalize ho : Cand.some d v = out at h
  induction h with
  | divZero _ => cases ho
  | overflow _ => cases ho
  | full _ => cases ho
  | stepOverflow _ _ _ => cases ho
  | fresh a hc hn =>
    cases ho
    exact ⟨⟨a, by simp, rfl⟩, hn, rfl, hc⟩
  | again a l out hc hm _ ih =>
    obtain ⟨⟨b, hb, e⟩, r⟩ := ih ho
    exact ⟨⟨b, List.mem_cons_of_mem _ hb, e⟩, r⟩

/-! ### What is proposed -/

/-- C64, part 1: a proposed tile lies between one register tile and what one core can use (its share of the rows and
columns rounded up to a register tile; at most all of K), has not been proposed before, and is remembered. -/
theorem C64_bounds {d : ℤ × ℤ × ℤ} {v : Finset (ℤ × ℤ × ℤ)} (hq : q.OK) (h : GetCandidate q curr visited l (.some d v)) :
    ((q.mr : ℤ) ≤ d.1 ∧ d.1 ≤ q.M / q.pm + q.mr) ∧ (0 < d.2.1 ∧ d.2.1 ≤ q.K) ∧
    ((q.nr : ℤ) ≤ d.2.2 ∧ d.2.2 ≤ q.N / q.pn + q.nr) ∧ d ∉ visited ∧ v = insert d visited := by
  obtain ⟨⟨a, -, rfl⟩, h1, h2, -⟩ := h.inv
  obtain ⟨hm, hk, hn⟩ := move_bounds (curr := curr) hq a
  have := hq.K
  exact ⟨hm, ⟨by omega, hk.2⟩, hn, h1, h2⟩

/-- C64, part 2: on machines whose register tile divides the steps (6 x 16 does, 8 x 12 does not), a search that starts
with a multiple of the register tile only proposes multiples of it: with such tiles every schedule computes the product
(C22). -/
theorem C64_multiple_partial {d : ℤ × ℤ × ℤ} {v : Finset (ℤ × ℤ × ℤ)} (hq : q.OK)
    (h : GetCandidate q curr visited l (.some d v)) (hm : q.mr ∣ 30) (hn : q.nr ∣ 128)
    (h1 : (q.mr : ℤ) ∣ curr.1) (h2 : (q.nr : ℤ) ∣ curr.2.2) : (q.mr : ℤ) ∣ d.1 ∧ (q.nr : ℤ) ∣ d.2.2 := by
  obtain ⟨⟨a, -, rfl⟩, -⟩ := h.inv
  constructor
  · refine clampInt_dvd (dvd_refl _) (by exact_mod_cast up_dvd hq.mr) (dvd_add h1 ?_)
    exact Dvd.dvd.mul_left (by exact_mod_cast hm) _
  · refine clampInt_dvd (dvd_refl _) (by exact_mod_cast up_dvd hq.nr) (dvd_add h2 ?_)
    exact Dvd.dvd.mul_left (by exact_mod_cast hn) _

/-- A search on the Haswell register tile. -/
def demoSearch : Search := ⟨1000, 1000, 1000, 2, 4, 6, 16⟩

theorem demoSearch_ok : demoSearch.OK := ⟨by decide, by decide, by decide, by decide, by decide⟩

theorem demoSearch_first :
    GetCandidate demoSearch (60, 100, 128) ∅ [(1 / 2, 1 / 2, 1 / 2)] (.some (90, 120, 256) {(90, 120, 256)}) := by
  have hc : ⌈(1 / 2 : ℝ)⌉ = 1 := by
    rw [Int.ceil_eq_iff]; constructor <;> norm_num
  have e : demoSearch.move (60, 100, 128) (1 / 2, 1 / 2, 1 / 2) = (90, 120, 256) := by
    unfold Search.move randomStep
    simp only [hc]
    rw [if_neg (by norm_num)]
    decide
  have := GetCandidate.fresh (q := demoSearch) (curr := (60, 100, 128)) (visited := ∅) (1 / 2, 1 / 2, 1 / 2)
    (by decide) (by simp)
  rw [e] at this
  exact this

example : ((demoSearch.mr : ℤ) ∣ 90) ∧ ((demoSearch.nr : ℤ) ∣ 256) :=
  C64_multiple_partial demoSearch_ok demoSearch_first (by decide) (by decide) (by decide) (by decide)

/-- Part 2 is false for the 8 x 12 register tile of ARM: a search at 80 rows proposes 110, not a multiple of 8. -/
theorem C64_multiple_refuted :
    ¬ ∀ (q : Search) (curr : ℤ × ℤ × ℤ) visited l d v, q.OK → GetCandidate q curr visited l (.some d v) →
      (q.mr : ℤ) ∣ curr.1 → (q.nr : ℤ) ∣ curr.2.2 → (q.mr : ℤ) ∣ d.1 := by
  intro hall
  let q : Search := ⟨1000, 1000, 1000, 2, 4, 8, 12⟩
  have hc : ⌈(1 / 2 : ℝ)⌉ = 1 := by
    rw [Int.ceil_eq_iff]; constructor <;> norm_num
  have e : q.move (80, 100, 120) (1 / 2, 1 / 2, 1 / 2) = (110, 120, 248) := by
    unfold Search.move randomStep
    simp only [hc]
    rw [if_neg (by norm_num)]
    decide
  have := GetCandidate.fresh (q := q) (curr := (80, 100, 120)) (visited := ∅) (1 / 2, 1 / 2, 1 / 2)
    (by decide) (by simp)
  rw [e] at this
  exact absurd (hall q _ _ _ _ _ ⟨by decide, by decide, by decide, by decide, by decide⟩ this (by decide) (by decide))
    (by decide)

theorem clampInt_nearest {d a b : ℤ} (h : a ≤ b) (y : ℤ) (h1 : a ≤ y) (h2 : y ≤ b) : |clampInt d a b - d| ≤ |y - d| := by
  unfold clampInt
  dsimp only
  rcases abs_cases (y - d) with ⟨e, _⟩ | ⟨e, _⟩ <;> rw [e, abs_le] <;> split <;> split <;> omega

/-- C64, part 1, which tile is proposed: some pass of the loop drew three numbers, moved the current tile by that many steps
(30 rows, 20 deep, 128 columns; a fraction counts as a whole step, so only the number zero does not move), and the tile is the
admissible one nearest to that point. -/
theorem C64_nearest {d : ℤ × ℤ × ℤ} {v : Finset (ℤ × ℤ × ℤ)} (hq : q.OK) (h : GetCandidate q curr visited l (.some d v)) :
    ∃ a ∈ l, ∃ i j k : ℤ, (|a.1| ≤ |i| ∧ |(i : ℝ)| < |a.1| + 1 ∧ 0 ≤ a.1 * i) ∧
      (|a.2.1| ≤ |j| ∧ |(j : ℝ)| < |a.2.1| + 1 ∧ 0 ≤ a.2.1 * j) ∧
      (|a.2.2| ≤ |k| ∧ |(k : ℝ)| < |a.2.2| + 1 ∧ 0 ≤ a.2.2 * k) ∧
      (∀ y : ℤ, q.mr ≤ y → y ≤ q.mcMax → |d.1 - (curr.1 + 30 * i)| ≤ |y - (curr.1 + 30 * i)|) ∧
      (20 ≤ q.K → ∀ y : ℤ, 20 ≤ y → y ≤ q.K → |d.2.1 - (curr.2.1 + 20 * j)| ≤ |y - (curr.2.1 + 20 * j)|) ∧
      (q.K < 20 → d.2.1 = q.K) ∧
      (∀ y : ℤ, q.nr ≤ y → y ≤ q.ncMax → |d.2.2 - (curr.2.2 + 128 * k)| ≤ |y - (curr.2.2 + 128 * k)|) := by
  obtain ⟨⟨a, ha, rfl⟩, -⟩ := h.inv
  have key : ∀ x : ℝ, ∃ i : ℤ, (|x| ≤ |i| ∧ |(i : ℝ)| < |x| + 1 ∧ 0 ≤ x * i) ∧ ∀ s, randomStep x s = s * i := by
    intro x
    refine ⟨if x < 0 then ⌊x⌋ else ⌈x⌉, ?_, fun s => by unfold randomStep; ring⟩
    split
    · rename_i h0
      have h1 : (⌊x⌋ : ℝ) ≤ x := Int.floor_le x
      have h2 : x < ⌊x⌋ + 1 := Int.lt_floor_add_one x
      have h3 : (⌊x⌋ : ℝ) < 0 := h1.trans_lt h0
      push_cast
      rw [abs_of_neg h0, abs_of_neg h3]
      exact ⟨by linarith, by linarith, by nlinarith⟩
    · rename_i h0
      rw [not_lt] at h0
      have h1 : x ≤ (⌈x⌉ : ℝ) := Int.le_ceil x
      have h2 : (⌈x⌉ : ℝ) < x + 1 := Int.ceil_lt_add_one x
      have h3 : (0 : ℝ) ≤ ⌈x⌉ := h0.trans h1
      push_cast
      rw [abs_of_nonneg h0, abs_of_nonneg h3]
      exact ⟨h1, h2, mul_nonneg h0 h3⟩
  obtain ⟨i, hi, ei⟩ := key a.1
  obtain ⟨j, hj, ej⟩ := key a.2.1
  obtain ⟨k, hk, ek⟩ := key a.2.2
  have m1 : (q.mr : ℤ) ≤ q.mcMax := by exact_mod_cast up_ge hq.mr
  have n1 : (q.nr : ℤ) ≤ q.ncMax := by exact_mod_cast up_ge hq.nr
  refine ⟨a, ha, i, j, k, hi, hj, hk, ?_, ?_, ?_, ?_⟩
  · intro y h1 h2
    rw [← ei]; exact clampInt_nearest m1 y h1 h2
  · intro h0 y h1 h2
    rw [← ej]; exact clampInt_nearest (by exact_mod_cast h0) y h1 h2
  · intro h0
    show clampInt _ _ _ = _
    unfold clampInt
    dsimp only
    split <;> split <;> omega
  · intro y h1 h2
    rw [← ek]; exact clampInt_nearest n1 y h1 h2

example : ∃ a ∈ [((1 / 2, 1 / 2, 1 / 2) : ℝ × ℝ × ℝ)], ∃ i : ℤ, |a.1| ≤ |i| ∧ |(i : ℝ)| < |a.1| + 1 := by
  obtain ⟨a, ha, i, _, _, h, -⟩ := C64_nearest demoSearch_ok demoSearch_first
  exact ⟨a, ha, i, h.1, h.2.1⟩

/-- The largest admissible tile: the first multiple of the register tile beyond one core's share. -/
theorem C64_largest (hq : q.OK) (y : Nat) :
    ((q.mr ∣ y ∧ q.M / q.pm < y) → q.mcMax ≤ y) ∧ (q.mr ∣ q.mcMax ∧ q.M / q.pm < q.mcMax) ∧
    ((q.nr ∣ y ∧ q.N / q.pn < y) → q.ncMax ≤ y) ∧ (q.nr ∣ q.ncMax ∧ q.N / q.pn < q.ncMax) := by
  have key : ∀ x r : Nat, 0 < r → ((r ∣ y ∧ x < y) → x + (r - x % r) ≤ y) ∧ (r ∣ x + (r - x % r) ∧ x < x + (r - x % r)) := by
    intro x r hr
    have hm := Nat.mod_lt x hr
    refine ⟨?_, up_dvd hr, by omega⟩
    rintro ⟨⟨c, rfl⟩, h⟩
    have hd := Nat.div_add_mod x r
    have hlt : x / r < c := (Nat.div_lt_iff_lt_mul hr).2 (by rw [Nat.mul_comm]; exact h)
    have hle : r * (x / r + 1) ≤ r * c := Nat.mul_le_mul_left _ hlt
    rw [Nat.mul_add, Nat.mul_one] at hle
    omega
  exact ⟨(key _ _ hq.mr).1, (key _ _ hq.mr).2, (key _ _ hq.nr).1, (key _ _ hq.nr).2⟩

example : demoSearch.mcMax = 504 ∧ demoSearch.ncMax = 256 := by decide

/-- The limit on the number of candidates: the least numbers of steps that cover the three sizes, multiplied. The core grid
does not enter. -/
theorem C64_limit (q : Search) : ∃ a b c : Nat, q.maxCand = a * b * c ∧
    (∀ t, q.M ≤ 30 * t ↔ a ≤ t) ∧ (∀ t, q.K ≤ 20 * t ↔ b ≤ t) ∧ (∀ t, q.N ≤ 128 * t ↔ c ≤ t) := by
  refine ⟨_, _, _, rfl, fun t => ?_, fun t => ?_, fun t => ?_⟩ <;> split <;> omega

example : demoSearch.maxCand = 34 * 50 * 8 := by decide

/-! ### Whether it ends -/

theorem move_small (a : ℝ × ℝ × ℝ) (h : |a.1| ≤ 7 ∧ |a.2.1| ≤ 7 ∧ |a.2.2| ≤ 7) :
    ∃ i ∈ Finset.Icc (-7 : ℤ) 7, ∃ j ∈ Finset.Icc (-7 : ℤ) 7, ∃ k ∈ Finset.Icc (-7 : ℤ) 7,
      randomStep a.1 30 = i * 30 ∧ randomStep a.2.1 20 = j * 20 ∧ randomStep a.2.2 128 = k * 128 := by
  have key : ∀ x : ℝ, |x| ≤ 7 → (if x < 0 then ⌊x⌋ else ⌈x⌉) ∈ Finset.Icc (-7 : ℤ) 7 := by
    intro x hx
    obtain ⟨h1, h2⟩ := abs_le.1 hx
    rw [Finset.mem_Icc]
    split
    · rename_i h0
      constructor
      · rw [Int.le_floor]; push_cast; exact h1
      · have : ((⌊x⌋ : ℤ) : ℝ) ≤ 7 := (Int.floor_le x).trans h2
        exact_mod_cast this
    · rename_i h0
      constructor
      · have : (-7 : ℝ) ≤ (⌈x⌉ : ℤ) := h1.trans (Int.le_ceil x)
        exact_mod_cast this
      · rw [Int.ceil_le]; push_cast; exact h2
  exact ⟨_, key _ h.1, _, key _ h.2.1, _, key _ h.2.2, rfl, rfl, rfl⟩

/-- The points that the search can propose from `curr`: at most seven steps away in each direction. -/
noncomputable def near (q : Search) (curr : ℤ × ℤ × ℤ) : Finset (ℤ × ℤ × ℤ) :=
  ((Finset.Icc (-7 : ℤ) 7) ×ˢ ((Finset.Icc (-7 : ℤ) 7) ×ˢ (Finset.Icc (-7 : ℤ) 7))).image fun s =>
    (clampInt (curr.1 + s.1 * 30) q.mr q.mcMax, clampInt (curr.2.1 + s.2.1 * 20) 20 q.K,
      clampInt (curr.2.2 + s.2.2 * 128) q.nr q.ncMax)

theorem near_card (q : Search) (curr : ℤ × ℤ × ℤ) : (near q curr).card ≤ 3375 :=
  Finset.card_image_le.trans (by simp [Finset.card_product])

/-- The numbers in `l`, three per pass of the loop, lie in the range of `normalRandom` (`C64_drawn`). The range may contain
numbers that it never returns; the negative results below hold for all numbers in the range. -/
def Drawn (l : List (ℝ × ℝ × ℝ)) : Prop := ∀ a ∈ l, |a.1| ≤ 7 ∧ |a.2.1| ≤ 7 ∧ |a.2.2| ≤ 7

/-- Values of `normalRandom` meet that condition. -/
theorem C64_drawn (r : Rounding 53) (rs : Rounding 24) (L : Libm) (pi : ℝ) {RM : Nat} (hRM : RM < 2 ^ 31)
    (h : ∀ a ∈ l, ∃ x : Fin 6 → Nat, (∀ i, x i ≤ RM) ∧ some a.1 = normalRandom r rs L pi RM (x 0) (x 1) ∧
      some a.2.1 = normalRandom r rs L pi RM (x 2) (x 3) ∧ some a.2.2 = normalRandom r rs L pi RM (x 4) (x 5)) :
    Drawn l := by
  intro a ha
  obtain ⟨x, hx, e1, e2, e3⟩ := h a ha
  obtain ⟨b1, f1, g1⟩ := C65_normal r rs L pi hRM (x2 := x 1) (hx 0)
  obtain ⟨b2, f2, g2⟩ := C65_normal r rs L pi hRM (x2 := x 3) (hx 2)
  obtain ⟨b3, f3, g3⟩ := C65_normal r rs L pi hRM (x2 := x 5) (hx 4)
  rw [f1, Option.some.injEq] at e1
  rw [f2, Option.some.injEq] at e2
  rw [f3, Option.some.injEq] at e3
  rw [e1, e2, e3]
  exact ⟨g1, g2, g3⟩

theorem move_near (a : ℝ × ℝ × ℝ) (h : |a.1| ≤ 7 ∧ |a.2.1| ≤ 7 ∧ |a.2.2| ≤ 7) : q.move curr a ∈ near q curr := by
  obtain ⟨i, hi, j, hj, k, hk, e1, e2, e3⟩ := move_small a h
  refine Finset.mem_image.2 ⟨(i, j, k), by simp only [Finset.mem_product]; exact ⟨hi, hj, hk⟩, ?_⟩
  unfold Search.move
  rw [e1, e2, e3]

/-- The current point is an `int` tile and does not lie at the very end of the range. -/
def Small (curr : ℤ × ℤ × ℤ) : Prop :=
  (0 ≤ curr.1 ∧ curr.1 < 2 ^ 30) ∧ (0 ≤ curr.2.1 ∧ curr.2.1 < 2 ^ 30) ∧ (0 ≤ curr.2.2 ∧ curr.2.2 < 2 ^ 30)

/-- If a point near the current one has not been visited, some random numbers make the call propose one. -/
theorem fresh_exists (h : ¬ near q curr ⊆ visited) (hv : visited.card < q.maxCand) :
    ∃ l d, Drawn l ∧ GetCandidate q curr visited l (.some d (insert d visited)) := by
  obtain ⟨d, hd, hn⟩ := Finset.not_subset.1 h
  obtain ⟨⟨i, j, k⟩, hs, rfl⟩ := Finset.mem_image.1 hd
  simp only [Finset.mem_product, Finset.mem_Icc] at hs
  have key : ∀ i : ℤ, -7 ≤ i → i ≤ 7 → |(i : ℝ)| ≤ 7 ∧ ∀ s, randomStep (i : ℝ) s = i * s := by
    intro i h1 h2
    refine ⟨?_, fun s => ?_⟩
    · rw [abs_le]; exact ⟨by exact_mod_cast h1, by exact_mod_cast h2⟩
    · unfold randomStep
      rw [Int.floor_intCast, Int.ceil_intCast, ite_self]
  have k1 := key i hs.1.1 hs.1.2
  have k2 := key j hs.2.1.1 hs.2.1.2
  have k3 := key k hs.2.2.1 hs.2.2.2
  refine ⟨[((i : ℝ), (j : ℝ), (k : ℝ))], _, ?_, .fresh ((i : ℝ), (j : ℝ), (k : ℝ)) hv ?_⟩
  · intro a ha
    rw [List.mem_singleton] at ha
    subst ha
    exact ⟨k1.1, k2.1, k3.1⟩
  · unfold Search.move
    dsimp only
    rw [k1.2, k2.2, k3.2]
    exact hn

/-- C64, part 3: when a call can end. It can exactly if as many points as `max_cand` have been visited (then it writes no
candidate), or some point at most seven steps away has not been visited. -/
theorem C64_ends_iff (hq : q.OK) (hc : Small curr) (hmax : q.maxCand < 2 ^ 31) :
    (∃ l out, Drawn l ∧ GetCandidate q curr visited l out) ↔
      q.maxCand ≤ visited.card ∨ ¬ near q curr ⊆ visited := by
  constructor
  · rintro ⟨l, out, hl, h⟩
    by_contra hcon
    rw [not_or, not_not, not_le] at hcon
    induction h with
    | divZero h =>
      have := hq.pm; have := hq.pn; have := hq.mr; have := hq.nr
      omega
    | overflow h => exact h ⟨by omega, by omega⟩
    | full h => omega
    | stepOverflow a _ h =>
      obtain ⟨i, hi, j, hj, k, hk, e1, e2, e3⟩ := move_small a (hl a (by simp))
      rw [Finset.mem_Icc] at hi hj hk
      rw [e1, e2, e3] at h
      obtain ⟨⟨_, _⟩, ⟨_, _⟩, ⟨_, _⟩⟩ := hc
      exact h ⟨⟨by omega, by omega⟩, ⟨by omega, by omega⟩, by constructor <;> omega⟩
    | fresh a _ h => exact h (hcon.2 (move_near a (hl a (by simp))))
    | again a l out _ _ _ ih => exact ih fun b hb => hl b (List.mem_cons_of_mem _ hb)
  · rintro (h | h)
    · exact ⟨[], _, fun _ ha => absurd ha (by simp), .full h⟩
    · by_cases hv : q.maxCand ≤ visited.card
      · exact ⟨[], _, fun _ ha => absurd ha (by simp), .full hv⟩
      · obtain ⟨l, d, h1, h2⟩ := fresh_exists h (by omega)
        exact ⟨l, _, h1, h2⟩

example : ∃ l out, Drawn l ∧ GetCandidate demoSearch (60, 100, 128) ∅ l out :=
  (C64_ends_iff demoSearch_ok (by unfold Small; decide) (by decide)).2 (.inr (by
    intro h
    have hm : ((60, 100, 128) : ℤ × ℤ × ℤ) ∈ near demoSearch (60, 100, 128) :=
      Finset.mem_image.2 ⟨(0, 0, 0), by simp only [Finset.mem_product]; decide, by decide⟩
    exact absurd (h hm) (by simp)))

/-- `n` calls one after the other at the same current point, each of which returned a candidate. -/
inductive CandCalls (q : Search) (curr : ℤ × ℤ × ℤ) : Nat → Finset (ℤ × ℤ × ℤ) → Finset (ℤ × ℤ × ℤ) → Prop
  | nil (v) : CandCalls q curr 0 v v
  | cons (n v v' v'' l d) : CandCalls q curr n v v' → Drawn l → GetCandidate q curr v' l (.some d v'') →
      CandCalls q curr (n + 1) v v''

/-- C64, part 3: from one current point the search can propose at most 3375 tiles (15 in each direction), whatever the
random numbers are and however large the matrices. -/
theorem C64_at_most {n : Nat} {v v' : Finset (ℤ × ℤ × ℤ)} (h : CandCalls q curr n v v') :
    n ≤ (near q curr).card ∧ n ≤ 3375 := by
  have key : ∀ {n v v'}, CandCalls q curr n v v' → n ≤ ((near q curr).filter fun d => d ∈ v').card := by
    intro n v v' h
    induction h with
    | nil v => exact Nat.zero_le _
    | cons n v v' v'' l d _ hl hg ih =>
      obtain ⟨⟨a, ha, rfl⟩, hn, rfl, -⟩ := hg.inv
      have hm : q.move curr a ∈ near q curr := move_near a (hl a ha)
      refine Nat.lt_of_le_of_lt ih (Finset.card_lt_card ?_)
      rw [Finset.ssubset_iff]
      refine ⟨q.move curr a, by simp [hn], ?_⟩
      intro x hx
      rw [Finset.mem_insert] at hx
      rcases hx with rfl | hx
      · simp [hm]
      · rw [Finset.mem_filter] at hx ⊢
        exact ⟨hx.1, Finset.mem_insert_of_mem hx.2⟩
  have := (key h).trans (Finset.card_filter_le _ _)
  exact ⟨this, this.trans (near_card q curr)⟩

/-- The number of candidates in a whole search is at most `max_cand`: each call adds one point to those visited and none
is proposed once there are `max_cand`. -/
theorem C64_visited {d : ℤ × ℤ × ℤ} {v : Finset (ℤ × ℤ × ℤ)} (h : GetCandidate q curr visited l (.some d v)) :
    v.card = visited.card + 1 ∧ v.card ≤ q.maxCand := by
  obtain ⟨-, h1, rfl, h2⟩ := h.inv
  rw [Finset.card_insert_of_notMem h1]
  exact ⟨rfl, h2⟩

theorem calls_near {n : Nat} {v : Finset (ℤ × ℤ × ℤ)} (h : CandCalls q curr n ∅ v) : v.card = n ∧ v ⊆ near q curr := by
  generalize he : (∅ : Finset (ℤ × ℤ × ℤ)) = w at h
  induction h with
  | nil v => subst he; simp
  | cons n v v' v'' l d _ hl hg ih =>
    obtain ⟨i1, i2⟩ := ih he
    obtain ⟨⟨a, ha, rfl⟩, hn, rfl, -⟩ := hg.inv
    rw [Finset.card_insert_of_notMem hn, i1]
    exact ⟨rfl, Finset.insert_subset (move_near a (hl a ha)) i2⟩

/-- A search that stays at one point gets there: as long as the points near it are not all visited, a further call can
propose one. -/
theorem calls_exist (hbig : (near q curr).card < q.maxCand) :
    ∃ n v, CandCalls q curr n ∅ v ∧ near q curr ⊆ v ∧ v.card < q.maxCand := by
  have main : ∀ m, ∃ n v, CandCalls q curr n ∅ v ∧ (near q curr ⊆ v ∨ n = m) := by
    intro m
    induction m with
    | zero => exact ⟨0, ∅, .nil _, .inr rfl⟩
    | succ m ih =>
      obtain ⟨n, v, h1, h2 | h2⟩ := ih
      · exact ⟨n, v, h1, .inl h2⟩
      · by_cases hs : near q curr ⊆ v
        · exact ⟨n, v, h1, .inl hs⟩
        · obtain ⟨l, d, hl, hg⟩ := fresh_exists hs
            (Nat.lt_of_le_of_lt (Finset.card_le_card (calls_near h1).2) hbig)
          exact ⟨n + 1, _, .cons _ _ _ _ _ _ h1 hl hg, .inr (by omega)⟩
  obtain ⟨n, v, h1, h2⟩ := main (q.maxCand + 1)
  have h3 := (calls_near h1).1
  have h4 := (C64_at_most h1).1
  refine ⟨n, v, h1, ?_, by omega⟩
  rcases h2 with h2 | h2
  · exact h2
  · omega

/-- C64, part 3, exactly: a search that stays at one point can get into a call that never returns, whatever the random
numbers are, exactly if there are fewer tiles near that point than `max_cand`. -/
theorem C64_endless_iff (hq : q.OK) (hc : Small curr) (hmax : q.maxCand < 2 ^ 31) :
    (∃ n v, CandCalls q curr n ∅ v ∧ ¬ ∃ l out, Drawn l ∧ GetCandidate q curr v l out) ↔
      (near q curr).card < q.maxCand := by
  constructor
  · rintro ⟨n, v, h1, h2⟩
    rw [C64_ends_iff hq hc hmax, not_or, not_not, not_le] at h2
    exact Nat.lt_of_le_of_lt (Finset.card_le_card h2.2) h2.1
  · intro h
    obtain ⟨n, v, h1, h2, h3⟩ := calls_exist (curr := curr) h
    refine ⟨n, v, h1, fun h => ?_⟩
    rcases (C64_ends_iff hq hc hmax).1 h with h | h
    · omega
    · exact h h2

/-- C64, part 3 is false: for all matrices of some size (`max_cand` above 3375, as for 1000 x 1000 x 1000), a search that
stays at one point ends up in a call that never returns. -/
theorem C64_endless_refuted (hq : q.OK) (hc : Small curr) (hmax : q.maxCand < 2 ^ 31) (hbig : 3375 < q.maxCand) :
    ∃ n v, CandCalls q curr n ∅ v ∧ n ≤ 3375 ∧ ¬ ∃ l out, Drawn l ∧ GetCandidate q curr v l out := by
  obtain ⟨n, v, h1, h2⟩ := (C64_endless_iff hq hc hmax).2 (Nat.lt_of_le_of_lt (near_card q curr) hbig)
  exact ⟨n, v, h1, (C64_at_most h1).2, h2⟩

/-- 1000 x 1000 x 1000: `max_cand` is 13600. -/
example : ∃ n v, CandCalls demoSearch (60, 100, 128) n ∅ v ∧ n ≤ 3375 ∧
    ¬ ∃ l out, Drawn l ∧ GetCandidate demoSearch (60, 100, 128) v l out :=
  C64_endless_refuted demoSearch_ok (by unfold Small; decide) (by decide) (by decide)

/-- Even small matrices: with many cores along the rows there are fewer tiles than `max_cand`, which does not take the
cores into account. For 300 x 20 x 16 on ten cores there are four tiles (6 or 36 rows, 16 or 32 columns) while `max_cand`
is 10, so at the latest the fifth call never returns. -/
theorem C64_endless_small : ∃ n v, CandCalls ⟨300, 20, 16, 10, 1, 6, 16⟩ (6, 20, 16) n ∅ v ∧ n ≤ 4 ∧
    ¬ ∃ l out, Drawn l ∧ GetCandidate ⟨300, 20, 16, 10, 1, 6, 16⟩ (6, 20, 16) v l out := by
  have hcard : (near ⟨300, 20, 16, 10, 1, 6, 16⟩ (6, 20, 16)).card ≤ 4 := by
    have hsub : near ⟨300, 20, 16, 10, 1, 6, 16⟩ (6, 20, 16) ⊆
        {(6, 20, 16), (6, 20, 32), (36, 20, 16), (36, 20, 32)} := by
      intro d hd
      obtain ⟨⟨i, j, k⟩, hs, rfl⟩ := Finset.mem_image.1 hd
      simp only [Finset.mem_product] at hs
      have e1 : ∀ i ∈ Finset.Icc (-7 : ℤ) 7, clampInt (6 + i * 30) 6 36 = 6 ∨ clampInt (6 + i * 30) 6 36 = 36 := by decide
      have e2 : ∀ i ∈ Finset.Icc (-7 : ℤ) 7, clampInt (20 + i * 20) 20 20 = 20 := by decide
      have e3 : ∀ i ∈ Finset.Icc (-7 : ℤ) 7, clampInt (16 + i * 128) 16 32 = 16 ∨ clampInt (16 + i * 128) 16 32 = 32 := by
        decide
      have hm : (⟨300, 20, 16, 10, 1, 6, 16⟩ : Search).mcMax = 36 := by decide
      have hn : (⟨300, 20, 16, 10, 1, 6, 16⟩ : Search).ncMax = 32 := by decide
      rw [hm, hn]
      have f2 := e2 j hs.2.1
      rcases e1 i hs.1 with f1 | f1 <;> rcases e3 k hs.2.2 with f3 | f3 <;> simp [f1, f2, f3]
    exact (Finset.card_le_card hsub).trans (by decide)
  obtain ⟨n, v, h1, h2⟩ := (C64_endless_iff (q := ⟨300, 20, 16, 10, 1, 6, 16⟩) (curr := (6, 20, 16))
    ⟨by decide, by decide, by decide, by decide, by decide⟩ (by unfold Small; decide) (by decide)).2
    (Nat.lt_of_le_of_lt hcard (by decide))
  exact ⟨n, v, h1, (C64_at_most h1).1.trans hcard, h2⟩

end Cake
