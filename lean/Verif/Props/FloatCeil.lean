/-
Property C37: `(int) ceil(((double) a) / b)` is the exact ceiling.
-/
import Verif.Proofs.Nearest

namespace Cake

/-- The value of `(int) ceil(((double) a) / b)`: both `int`s are converted, the quotient is rounded, `ceil` is
exact. E.g. `src/block_sizing.cpp:489`. -/
noncomputable def ceilDiv (r : Rounding 53) (a b : Nat) : ℤ := ⌈r.rnd (r.rnd a / r.rnd b)⌉

/-- **C37.** Whatever the rounding (within half a unit in the last place, any rule for ties), the idiom gives the
least integer `q` with `a ≤ q*b`, for all `a < 2^53` and `0 < b ≤ 2^53`: in particular for every `int`. -/
theorem C37_ceil_exact (r : Rounding 53) (a b : Nat) (ha : a < 2 ^ 53) (hb : 0 < b) (hb' : b ≤ 2 ^ 53) :
    IsLeast {q : ℤ | (a : ℤ) ≤ q * b} (ceilDiv r a b) := by
  have e1 : r.rnd a = a := by
    have := r.int a (by rw [abs_of_nonneg (by positivity)]; exact_mod_cast ha.le)
    exact_mod_cast this
  have e2 : r.rnd b = b := by
    have := r.int b (by rw [abs_of_nonneg (by positivity)]; exact_mod_cast hb')
    exact_mod_cast this
  have hbR : (0 : ℝ) < b := by exact_mod_cast hb
  have key : ceilDiv r a b = ⌈(a : ℝ) / b⌉ := by
    unfold ceilDiv
    rw [e1, e2]
    set q : ℝ := (a : ℝ) / b with hq
    set n : ℤ := ⌈q⌉ with hn
    have hq0 : 0 ≤ q := by positivity
    have hqa : q ≤ a := div_le_self (by positivity) (by exact_mod_cast hb)
    have hn0 : 0 ≤ n := Int.ceil_nonneg hq0
    have hna : n ≤ a := Int.ceil_le.2 (by exact_mod_cast hqa)
    have hnb : |n| ≤ 2 ^ 53 := by
      rw [abs_of_nonneg hn0]
      exact hna.trans (by exact_mod_cast ha.le)
    have hup : r.rnd q ≤ n := by
      rw [← r.int n hnb]
      exact r.mono (Int.le_ceil q)
    rw [Int.ceil_eq_iff]
    refine ⟨?_, hup⟩
    by_cases hpos : a = 0
    · have : q = 0 := by rw [hq, hpos]; simp
      have h0 := r.int 0 (by norm_num)
      rw [this]
      rw [this] at hn
      simp only [Int.ceil_zero] at hn
      have h0' : r.rnd 0 = 0 := by simpa using h0
      rw [h0', hn]
      norm_num
    have ha1 : (1 : ℝ) ≤ a := by exact_mod_cast Nat.one_le_iff_ne_zero.2 hpos
    have hlo : ((n - 1 : ℤ) : ℝ) < q := by
      have := Int.ceil_lt_add_one q
      push_cast
      rw [← hn] at this
      linarith
    have hge : ((n - 1 : ℤ) : ℝ) ≤ r.rnd q := by
      rw [← r.int (n - 1) (by rw [abs_le]; constructor <;> [skip; skip] <;>
        (have := abs_le.1 hnb; have h53 : (1 : ℤ) ≤ 2 ^ 53 := by norm_num
         omega))]
      exact r.mono hlo.le
    have hne : ((n - 1 : ℤ) : ℝ) ≠ r.rnd q := by
      intro e
      have hb53 : (b : ℝ) ≤ 2 ^ 53 := by exact_mod_cast hb'
      have ha53 : (a : ℝ) < 2 ^ 53 := by exact_mod_cast ha
      have hqpos : 0 < q := by positivity
      have her := r.err q (by
          rw [abs_of_nonneg hq0, hq, le_div_iff₀ hbR]
          calc (2 : ℝ) ^ (-100 : ℤ) * b ≤ 2 ^ (-100 : ℤ) * 2 ^ 53 := by
                exact mul_le_mul_of_nonneg_left hb53 (by positivity)
            _ ≤ 1 := by norm_num
            _ ≤ a := ha1)
        (by
          rw [abs_of_nonneg hq0]
          exact hqa.trans (ha53.le.trans (by norm_num)))
      rw [← e, abs_of_nonneg hq0, abs_sub_comm, abs_of_pos (by linarith)] at her
      -- the gap to the integer below is at least `1/b`
      have hgap : (1 : ℝ) / b ≤ q - ((n - 1 : ℤ) : ℝ) := by
        have h1 : (((n - 1) * b : ℤ) : ℝ) < a := by
          push_cast
          have := (lt_div_iff₀ hbR).1 hlo
          push_cast at this
          exact this
        have h2 : (n - 1) * b + 1 ≤ (a : ℤ) := by
          have : (n - 1) * b < (a : ℤ) := by exact_mod_cast h1
          omega
        have h3 : ((n - 1 : ℤ) : ℝ) * b + 1 ≤ a := by exact_mod_cast h2
        rw [div_le_iff₀ hbR, sub_mul, hq, div_mul_cancel₀ _ hbR.ne']
        linarith
      have h4 : q / 2 ^ 53 < 1 / b := by
        rw [hq, div_div, div_lt_div_iff₀ (by positivity) hbR]
        nlinarith
      linarith
    have := lt_of_le_of_ne hge hne
    push_cast at this
    linarith
  rw [key]
  constructor
  · show (a : ℤ) ≤ ⌈(a : ℝ) / b⌉ * b
    have := Int.le_ceil ((a : ℝ) / b)
    rw [div_le_iff₀ hbR] at this
    exact_mod_cast this
  · intro q hq
    rw [Int.ceil_le, div_le_iff₀ hbR]
    exact_mod_cast hq

/-- The model's `cdiv` is this value. -/
theorem C37_cdiv (r : Rounding 53) (a b : Nat) (ha : a < 2 ^ 53) (hb : 0 < b) (hb' : b ≤ 2 ^ 53) :
    ceilDiv r a b = (cdiv a b : ℕ) := by
  refine (C37_ceil_exact r a b ha hb hb').unique ⟨?_, ?_⟩
  · show (a : ℤ) ≤ (cdiv a b : ℕ) * b
    have : a ≤ cdiv a b * b := by
      unfold cdiv
      have h := Nat.div_add_mod (a + b - 1) b
      have h2 := Nat.mod_lt (a + b - 1) hb
      rw [Nat.mul_comm] at h
      omega
    exact_mod_cast this
  · intro q (hq : (a : ℤ) ≤ q * b)
    unfold cdiv
    have hq0 : 0 ≤ q := by
      by_contra h
      have : q * b < 0 := mul_neg_of_neg_of_pos (by omega) (by exact_mod_cast hb)
      omega
    obtain ⟨q', rfl⟩ := Int.eq_ofNat_of_zero_le hq0
    have hq' : a ≤ q' * b := by exact_mod_cast hq
    have : (a + b - 1) / b < q' + 1 := by
      rw [Nat.div_lt_iff_lt_mul hb, Nat.add_mul]
      omega
    exact_mod_cast Nat.lt_succ_iff.1 this

/-- Round to nearest is one such rounding. -/
example := C37_ceil_exact (nearest 53 (by norm_num)) 1000003 17 (by norm_num) (by norm_num) (by norm_num)

end Cake
