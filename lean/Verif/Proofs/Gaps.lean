/-
Blocks of C placed by the offset formula of `pack_C_single_buf_n_first`: unless it agrees with the formula used by the
rest of the code, a block leaves the buffer or a cell of the buffer is never written.
-/
import Mathlib.Tactic.Ring
import Mathlib.Tactic.Linarith
import Mathlib.Tactic.IntervalCases

namespace Cake

theorem three_sq {y : Nat} : ∀ {x : Nat}, x * x = 3 * (y * y) → y = 0 := by
  induction y using Nat.strong_induction_on with
  | _ y ih =>
    intro x h
    by_contra hy
    have h3 : x % 3 = 0 := by
      have h1 : x * x % 3 = 0 := by rw [h]; exact Nat.mul_mod_right 3 _
      have h2 : x % 3 < 3 := Nat.mod_lt _ (by omega)
      rw [Nat.mul_mod] at h1
      generalize x % 3 = t at h1 h2
      interval_cases t <;> simp_all
    obtain ⟨a, rfl⟩ := Nat.dvd_of_mod_eq_zero h3
    have e1 : y * y = 3 * (a * a) := by
      have : 3 * a * (3 * a) = 3 * (3 * (a * a)) := by ring
      omega
    have h4 : y % 3 = 0 := by
      have h1 : y * y % 3 = 0 := by rw [e1]; exact Nat.mul_mod_right 3 _
      have h2 : y % 3 < 3 := Nat.mod_lt _ (by omega)
      rw [Nat.mul_mod] at h1
      generalize y % 3 = t at h1 h2
      interval_cases t <;> simp_all
    obtain ⟨b, rfl⟩ := Nat.dvd_of_mod_eq_zero h4
    have e2 : a * a = 3 * (b * b) := by
      have : 3 * b * (3 * b) = 3 * (3 * (b * b)) := by ring
      omega
    have := ih b (by omega) e2
    omega

/-- Cell `x` is written: block `(m, n)` of height `H m` and width `L n` is placed at `m*P*Np + n*P*L n`. -/
def Written (Mb Nb P Np : Nat) (H L : Nat → Nat) (x : Nat) : Prop :=
  ∃ m n y, m < Mb ∧ n < Nb ∧ y < H m * L n ∧ x = m * P * Np + n * P * L n + y

section
variable {a c P h l : Nat}

/-- Two columns of blocks. -/
theorem gap_two (hl : 0 < l) (hh : 0 < h) (hne : P * l ≠ c * h) :
    (h * (c + l) ≤ P * l + (h * l - 1)) ∨
    (h * c ≤ h * (c + l) - 1 ∧ P * l + h * l ≤ h * (c + l) - 1) := by
  have e : h * (c + l) = c * h + h * l := by ring
  have e' : h * c = c * h := by ring
  have p1 : 0 < h * l := Nat.mul_pos hh hl
  omega

/-- Three columns of blocks. -/
theorem gap_three (hlc : l < c) (hl : 0 < l) (hh : 0 < h)
    (h1 : P * c + h * c ≤ h * (2 * c + l)) (h2 : 2 * P * l ≤ h * c) (h3 : P * c ≤ 2 * P * l + h * l)
    (h4 : h * (2 * c + l) ≤ P * c + h * c ∨ h * (2 * c + l) ≤ 2 * P * l + h * l) : False := by
  have e1 : h * (2 * c + l) = 2 * (h * c) + h * l := by ring
  have p1 : 0 < h * c := Nat.mul_pos hh (by omega)
  have e2 : P * c = h * c + h * l := by
    rcases h4 with h4 | h4 <;> omega
  have q1 : 2 * l * (c + l) ≤ c * c := by
    have : h * (2 * l * (c + l)) ≤ h * (c * c) := by
      calc h * (2 * l * (c + l)) = 2 * l * (h * c + h * l) := by ring
        _ = 2 * P * l * c := by rw [← e2]; ring
        _ ≤ h * c * c := Nat.mul_le_mul_right c h2
        _ = h * (c * c) := by ring
    exact Nat.le_of_mul_le_mul_left this hh
  have q2 : c * c ≤ 2 * l * (c + l) := by
    have : h * (c * c + l * c) ≤ h * (2 * l * (c + l) + l * c) := by
      calc h * (c * c + l * c) = (h * c + h * l) * c := by ring
        _ = P * c * c := by rw [e2]
        _ ≤ (2 * P * l + h * l) * c := Nat.mul_le_mul_right c h3
        _ = 2 * l * (P * c) + h * l * c := by ring
        _ = 2 * l * (h * c + h * l) + h * l * c := by rw [e2]
        _ = h * (2 * l * (c + l) + l * c) := by ring
    have := Nat.le_of_mul_le_mul_left this hh
    omega
  have q3 : (2 * l + c) * (2 * l + c) = 3 * (c * c) := by
    have : (2 * l + c) * (2 * l + c) = 2 * (2 * l * (c + l)) + c * c := by ring
    omega
  have := three_sq q3
  omega

end

/-- Unless the two offset formulas agree, a block leaves the buffer or a cell is not written. -/
theorem gap {Mb Nb P c : Nat} {H L : Nat → Nat} (hP : 0 < P) (hc : 0 < c)
    (hH : ∀ m, m + 1 < Mb → H m = P) (hL : ∀ n, n + 1 < Nb → L n = c)
    (hH0 : ∀ m, m < Mb → 0 < H m ∧ H m ≤ P) (hL0 : ∀ n, n < Nb → 0 < L n ∧ L n ≤ c)
    (hne : ¬ ∀ n m, n < Nb → m < Mb → n * P * L n = n * c * H m) :
    ∃ x, Written Mb Nb P ((Nb - 1) * c + L (Nb - 1)) H L x ∧
        ((Mb - 1) * P + H (Mb - 1)) * ((Nb - 1) * c + L (Nb - 1)) ≤ x ∨
      ¬ Written Mb Nb P ((Nb - 1) * c + L (Nb - 1)) H L x ∧
        x < ((Mb - 1) * P + H (Mb - 1)) * ((Nb - 1) * c + L (Nb - 1)) := by
  obtain ⟨n0, m0, hn0, hm0, hne0⟩ : ∃ n m, n < Nb ∧ m < Mb ∧ n * P * L n ≠ n * c * H m := by
    by_contra hcon
    exact hne fun n m hn hm => by_contra fun e => hcon ⟨n, m, hn, hm, e⟩
  have hn0' : n0 ≠ 0 := by rintro rfl; simp at hne0
  obtain ⟨a, rfl⟩ : ∃ a, Nb = a + 1 := ⟨Nb - 1, by omega⟩
  obtain ⟨b, rfl⟩ : ∃ b, Mb = b + 1 := ⟨Mb - 1, by omega⟩
  simp only [Nat.add_sub_cancel] at *
  have ha : 0 < a := by omega
  obtain ⟨hl0, hlc⟩ := hL0 a (by omega)
  obtain ⟨hh0, hhP⟩ := hH0 b (by omega)
  have hneq : P * L n0 ≠ c * H m0 := by
    intro e; apply hne0; rw [Nat.mul_assoc, e, Nat.mul_assoc]
  set l := L a with hl
  set h := H b with hh
  by_cases hfull : l = c
  · -- the last block of columns is full: the last row block leaves the buffer
    have hLn : L n0 = c := by
      rcases Nat.lt_or_ge (n0 + 1) (a + 1) with g | g
      · exact hL n0 g
      · rw [show n0 = a by omega, ← hl, hfull]
    have hHm : H m0 ≠ P := by
      intro e; rw [hLn, e] at hneq; exact hneq (Nat.mul_comm _ _)
    have hmb : m0 = b := by
      by_contra g; exact hHm (hH m0 (by omega))
    rw [hmb, ← hh] at hHm
    have hlt : h < P := by omega
    refine ⟨b * P * (a * c + l) + a * P * l + (h * l - 1), Or.inl ⟨⟨b, a, h * l - 1, by omega, by omega, ?_, rfl⟩, ?_⟩⟩
    · have := Nat.mul_pos hh0 hl0; show h * l - 1 < h * l; omega
    · rw [hfull]
      have e1 : (b * P + h) * (a * c + c) = b * P * (a * c + c) + (a * (h * c) + h * c) := by ring
      have e2 : a * P * c = a * (P * c) := by ring
      have e3 : h * c + c ≤ P * c := by
        have := Nat.mul_le_mul_right c (Nat.succ_le_of_lt hlt)
        rw [Nat.succ_mul] at this; exact this
      have e4 : a * (h * c) + 1 ≤ a * (P * c) := by
        have := Nat.mul_le_mul_left a e3
        rw [Nat.mul_add] at this
        have := Nat.mul_pos ha hc
        omega
      have := Nat.mul_pos hh0 hc
      omega
  · have hlt : l < c := by omega
    by_cases hrow : H 0 = P
    · -- a full row block: its last cell is not written
      refine ⟨P * (a * c + l) - 1, Or.inr ⟨?_, ?_⟩⟩
      · rintro ⟨m, n, y, hm, hn, hy, e⟩
        have hpos : 0 < P * l := Nat.mul_pos hP hl0
        have ee : P * (a * c + l) = a * (P * c) + P * l := by ring
        rcases Nat.eq_zero_or_pos m with rfl | hm'
        · rw [hrow] at hy
          simp only [Nat.zero_mul, Nat.zero_add] at e
          rcases Nat.lt_or_ge n a with g | g
          · rw [hL n (by omega)] at hy e
            have : (n + 1) * (P * c) ≤ a * (P * c) := Nat.mul_le_mul_right _ g
            rw [Nat.add_mul, Nat.one_mul] at this
            have e5 : n * P * c = n * (P * c) := by ring
            omega
          · rw [show n = a by omega, ← hl] at e hy
            have : P * l + 1 ≤ P * c := Nat.mul_lt_mul_of_pos_left hlt hP
            have := Nat.mul_le_mul_left a this
            rw [Nat.mul_add] at this
            have e5 : a * P * l = a * (P * l) := by ring
            omega
        · have : 1 * P * (a * c + l) ≤ m * P * (a * c + l) :=
            Nat.mul_le_mul_right _ (Nat.mul_le_mul_right _ hm')
          rw [Nat.one_mul] at this
          omega
      · have : P * (a * c + l) ≤ (b * P + h) * (a * c + l) := by
          apply Nat.mul_le_mul_right
          rcases Nat.eq_zero_or_pos b with rfl | hb
          · rw [hh, hrow]; omega
          · have := Nat.mul_le_mul_right P hb
            omega
        have : 0 < P * (a * c + l) := Nat.mul_pos hP (by omega)
        omega
    · -- a single row block
      have hb : b = 0 := by
        by_contra g; exact hrow (hH 0 (by omega))
      subst hb
      have hm0' : m0 = 0 := by omega
      rw [← hh] at hrow
      have hhlt : h < P := by omega
      simp only [Nat.zero_mul, Nat.zero_add]
      have hhlt' : h * c + c ≤ P * c := by
        have := Nat.mul_le_mul_right c (Nat.succ_le_of_lt hhlt)
        rw [Nat.succ_mul] at this; exact this
      have hsz : h * (a * c + l) = a * (h * c) + h * l := by ring
      have hhl : 0 < h * l := Nat.mul_pos hh0 hl0
      have hhc : 0 < h * c := Nat.mul_pos hh0 hc
      have wr : ∀ x, Written (0 + 1) (a + 1) P (a * c + l) H L x ↔
          ∃ n, n < a ∧ n * (P * c) ≤ x ∧ x < n * (P * c) + h * c ∨
            n = a ∧ a * (P * l) ≤ x ∧ x < a * (P * l) + h * l := by
        intro x
        constructor
        · rintro ⟨m, n, y, hm, hn, hy, e⟩
          have : m = 0 := by omega
          subst this
          rw [← hh] at hy
          simp only [Nat.zero_mul, Nat.zero_add] at e
          rcases Nat.lt_or_ge n a with g | g
          · rw [hL n (by omega)] at hy e
            have e5 : n * P * c = n * (P * c) := by ring
            exact ⟨n, Or.inl ⟨g, by omega, by omega⟩⟩
          · rw [show n = a by omega, ← hl] at e hy
            have e5 : a * P * l = a * (P * l) := by ring
            exact ⟨a, Or.inr ⟨rfl, by omega, by omega⟩⟩
        · rintro ⟨n, ⟨g1, g2, g3⟩ | ⟨rfl, g2, g3⟩⟩
          · refine ⟨0, n, x - n * (P * c), by omega, by omega, ?_, ?_⟩
            · rw [← hh, hL n (by omega)]; omega
            · rw [hL n (by omega), Nat.mul_assoc n P c]; simp; omega
          · refine ⟨0, n, x - n * (P * l), by omega, by omega, ?_, ?_⟩
            · rw [← hh, ← hl]; omega
            · rw [← hl, Nat.mul_assoc n P l]; simp; omega
      by_contra hcon
      have w1 : ∀ x, (∃ n, n < a ∧ n * (P * c) ≤ x ∧ x < n * (P * c) + h * c ∨
            n = a ∧ a * (P * l) ≤ x ∧ x < a * (P * l) + h * l) → x < h * (a * c + l) := by
        intro x hx
        by_contra g
        exact hcon ⟨x, Or.inl ⟨(wr x).2 hx, by omega⟩⟩
      have w2 : ∀ x, x < h * (a * c + l) → ∃ n, n < a ∧ n * (P * c) ≤ x ∧ x < n * (P * c) + h * c ∨
            n = a ∧ a * (P * l) ≤ x ∧ x < a * (P * l) + h * l := by
        intro x hx
        by_contra g
        exact hcon ⟨x, Or.inr ⟨fun hw => g ((wr x).1 hw), by omega⟩⟩
      rcases Nat.lt_trichotomy a 2 with ha2 | ha2 | ha2
      · have ha1 : a = 1 := by omega
        subst ha1
        have : n0 = 1 := by omega
        subst this
        rw [hm0', ← hl, ← hh] at hneq
        simp only [Nat.one_mul] at w1 w2 hsz
        rcases gap_two hl0 hh0 hneq with g | ⟨g1, g2⟩
        · have := w1 (P * l + (h * l - 1)) ⟨1, Or.inr ⟨rfl, by omega, by omega⟩⟩
          omega
        · obtain ⟨n, ⟨q1, q2, q3⟩ | ⟨q1, q2, q3⟩⟩ := w2 (h * (c + l) - 1) (by omega)
          · have : n = 0 := by omega
            subst this
            omega
          · omega
      · subst ha2
        have i1 := w1 (P * c + (h * c - 1)) ⟨1, Or.inl ⟨by omega, by omega, by omega⟩⟩
        have no : ∀ x, h * c ≤ x → x < P * c → x < h * (2 * c + l) → 2 * (P * l) ≤ x ∧ x < 2 * (P * l) + h * l := by
          intro x hx1 hx2 hx3
          obtain ⟨n, ⟨q1, q2, q3⟩ | ⟨q1, q2, q3⟩⟩ := w2 x hx3
          · interval_cases n <;> omega
          · exact ⟨q2, q3⟩
        obtain ⟨i2, -⟩ := no (h * c) (by omega) (by omega) (by omega)
        obtain ⟨-, i3⟩ := no (P * c - 1) (by omega) (by omega) (by omega)
        have e2 : 2 * P * l = 2 * (P * l) := by ring
        apply gap_three (P := P) hlt hl0 hh0 (by omega) (by omega) (by omega)
        obtain ⟨n, ⟨q1, q2, q3⟩ | ⟨q1, q2, q3⟩⟩ := w2 (h * (2 * c + l) - 1) (by omega)
        · interval_cases n <;> omega
        · right; omega
      · have i1 := w1 (2 * (P * c) + (h * c - 1)) ⟨2, Or.inl ⟨by omega, by omega, by omega⟩⟩
        have far : ∀ n, 2 ≤ n → 2 * (P * c) ≤ n * (P * c) := fun n hn => Nat.mul_le_mul_right _ hn
        have hlh : h * l ≤ h * c := Nat.mul_le_mul_left h hlc
        have no : ∀ x, h * c ≤ x → x < P * c ∨ P * c + h * c ≤ x ∧ x < 2 * (P * c) → x < h * (a * c + l) →
            a * (P * l) ≤ x ∧ x < a * (P * l) + h * l := by
          intro x hx1 hx2 hx3
          obtain ⟨n, ⟨q1, q2, q3⟩ | ⟨q1, q2, q3⟩⟩ := w2 x hx3
          · rcases Nat.lt_or_ge n 2 with g | g
            · interval_cases n <;> omega
            · have := far n g; omega
          · exact ⟨q2, q3⟩
        obtain ⟨i2, -⟩ := no (h * c) (by omega) (Or.inl (by omega)) (by omega)
        obtain ⟨-, i3⟩ := no (2 * (P * c) - 1) (by omega) (Or.inr (by omega)) (by omega)
        omega

end Cake
