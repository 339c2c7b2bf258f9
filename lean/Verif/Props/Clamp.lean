/-
Property C81: clamping a value.
-/
import Verif.Model.Clamp
import Mathlib.Tactic.Linarith

namespace Cake

/-- For numbers the result is the upper limit if that is below the lower one or below the value, else the larger of value
and lower limit. -/
theorem clamp_val_some (d lo hi : ℝ) : clamp_val (some d) (some lo) (some hi) = some (min (max d lo) hi) := by
  unfold clamp_val dLt
  simp only
  split_ifs with h1 h2 h2
  · rw [max_eq_right h1.le, min_eq_right h2.le]
  · rw [max_eq_right h1.le, min_eq_left (not_lt.1 h2)]
  · rw [max_eq_left (not_lt.1 h1), min_eq_right h2.le]
  · rw [max_eq_left (not_lt.1 h1), min_eq_left (not_lt.1 h2)]

/-- **C81 for numbers.** If the limits are in order, the result is between them, is the value itself if that is between
them, and no number between them is nearer to the value. -/
theorem C81_nearest_partial {d lo hi : ℝ} (h : lo ≤ hi) : ∃ x, clamp_val (some d) (some lo) (some hi) = some x ∧
    lo ≤ x ∧ x ≤ hi ∧ (lo ≤ d → d ≤ hi → x = d) ∧ ∀ y, lo ≤ y → y ≤ hi → |d - x| ≤ |d - y| := by
  refine ⟨_, clamp_val_some d lo hi, le_min (le_max_right _ _) h, min_le_right _ _, fun h1 h2 => ?_, fun y h1 h2 => ?_⟩
  · rw [max_eq_left h1, min_eq_left h2]
  · rcases le_total d lo with hd | hd
    · rw [max_eq_right hd, min_eq_left h, abs_of_nonpos (by linarith), abs_of_nonpos (by linarith)]
      linarith
    · rw [max_eq_left hd]
      rcases le_total d hi with hd' | hd'
      · rw [min_eq_left hd', sub_self, abs_zero]
        exact abs_nonneg _
      · rw [min_eq_right hd', abs_of_nonneg (by linarith), abs_of_nonneg (by linarith)]
        linarith

example := C81_nearest_partial (d := 7) (lo := 1) (hi := 5) (by norm_num)

/-- The result is within the limits exactly if they are in order; out of order, it is the upper one. -/
theorem C81_limits_iff (d lo hi : ℝ) : (∃ x, clamp_val (some d) (some lo) (some hi) = some x ∧ lo ≤ x ∧ x ≤ hi) ↔ lo ≤ hi := by
  constructor
  · rintro ⟨x, -, h1, h2⟩
    exact h1.trans h2
  · intro h
    obtain ⟨x, e, h1, h2, -⟩ := C81_nearest_partial (d := d) h
    exact ⟨x, e, h1, h2⟩

/-- With the limits out of order the result is the upper one, whatever the value. -/
theorem C81_crossed {d lo hi : ℝ} (h : hi < lo) : clamp_val (some d) (some lo) (some hi) = some hi := by
  rw [clamp_val_some, min_eq_right (h.le.trans (le_max_right _ _))]

example := C81_crossed (d := 3) (lo := 5) (hi := 1) (by norm_num)

/-- **C81 fails for a NaN**: it is returned as it is, whatever the limits. -/
theorem C81_nan_refuted (lo hi : Option ℝ) : clamp_val none lo hi = none := by
  unfold clamp_val dLt
  cases hi <;> simp

end Cake
