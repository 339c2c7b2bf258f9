/-
Chopping an interval of length `T` into chunks of size `s` (the last one may be shorter).
-/
import Verif.LoopLemmas

namespace Cake
open List

/-- Length of chunk `i`. -/
def chopLen (T s i : Nat) : Nat := min s (T - i * s)

theorem chopLen_le (T s i : Nat) : chopLen T s i ≤ s := Nat.min_le_left _ _

theorem chop_cover {T s x : Nat} (hs : 0 < s) (hx : x < T) :
    x / s < cdiv T s ∧ x % s < chopLen T s (x / s) ∧ x / s * s + x % s = x := by
  have h1 := Nat.div_add_mod x s
  rw [Nat.mul_comm] at h1
  have h2 := Nat.mod_lt x hs
  have h3 := cdiv_mul_ge T s hs
  refine ⟨?_, ?_, h1⟩
  · by_contra hc
    have := Nat.mul_le_mul_right s (Nat.le_of_not_lt hc)
    omega
  · unfold chopLen
    omega

theorem chop_mul_lt {T s i : Nat} (hs : 0 < s) (hi : i < cdiv T s) : i * s < T := by
  have := cdiv_mul_lt T s hs
  have h := Nat.mul_le_mul_right s (Nat.succ_le_of_lt hi)
  rw [Nat.succ_mul] at h
  omega

theorem chop_bound {T s i y : Nat} (hy : y < chopLen T s i) : i * s + y < T := by
  unfold chopLen at hy
  omega

theorem chop_bound' {T s i : Nat} (hs : 0 < s) (hi : i < cdiv T s) : i * s + chopLen T s i ≤ T := by
  have := chop_mul_lt hs hi
  unfold chopLen
  omega

theorem chopLen_pos {T s i : Nat} (hs : 0 < s) (hi : i < cdiv T s) : 0 < chopLen T s i := by
  have := chop_mul_lt hs hi
  unfold chopLen
  omega

theorem chopLen_full {T s i : Nat} (hs : 0 < s) (hi : i + 1 < cdiv T s) : chopLen T s i = s := by
  have := chop_mul_lt hs hi
  rw [Nat.add_mul] at this
  unfold chopLen
  omega

theorem chopLen_last {T s i : Nat} (hs : 0 < s) (hi : i + 1 = cdiv T s) : i * s + chopLen T s i = T := by
  have h1 := chop_mul_lt hs (show i < cdiv T s by omega)
  have h2 := cdiv_mul_ge T s hs
  rw [← hi, Nat.add_mul] at h2
  unfold chopLen
  omega

theorem chopLen_dvd {T s d i : Nat} (h1 : d ∣ T) (h2 : d ∣ s) : d ∣ chopLen T s i := by
  unfold chopLen
  rcases Nat.le_total s (T - i * s) with h | h
  · rw [Nat.min_eq_left h]; exact h2
  · rw [Nat.min_eq_right h]; exact Nat.dvd_sub h1 (Dvd.dvd.mul_left h2 i)

/-- Start of chunk `i` (also right for `i` one past the end). -/
def chopOff (T s i : Nat) : Nat := min (i * s) T

theorem chopOff_zero (T s : Nat) : chopOff T s 0 = 0 := by simp [chopOff]

theorem chopOff_succ {T s i : Nat} : chopOff T s (i + 1) = chopOff T s i + chopLen T s i := by
  unfold chopOff chopLen
  rw [Nat.add_mul]
  omega

theorem chopOff_eq {T s i : Nat} (hs : 0 < s) (hi : i < cdiv T s) : chopOff T s i = i * s := by
  have := chop_mul_lt hs hi
  unfold chopOff
  omega

theorem chopOff_end {T s : Nat} (hs : 0 < s) : chopOff T s (cdiv T s) = T := by
  have := cdiv_mul_ge T s hs
  unfold chopOff
  omega

/-- Number of chunks as the code computes it: `T/s + (T%s ? 1 : 0)`. -/
theorem cdiv_eq_div_add (T s : Nat) (hs : 0 < s) : T / s + (T % s != 0).toNat = cdiv T s := by
  symm
  have h1 := Nat.div_add_mod T s
  rw [Nat.mul_comm] at h1
  have h2 := Nat.mod_lt T hs
  by_cases h : T % s = 0
  · apply cdiv_eq_of <;> simp [h] <;> omega
  · have : (T % s != 0) = true := by simpa using h
    rw [this]
    apply cdiv_eq_of <;> simp only [Bool.toNat_true, Nat.add_mul] <;> omega

/-- Padding the remainder to a multiple of `u`. -/
def padTo (T s u : Nat) : Nat := (T / s) * s + cdiv (T % s) u * u

theorem cdiv_rem_le {T s u : Nat} (hs : 0 < s) (hu : 0 < u) (hd : u ∣ s) :
    cdiv (T % s) u * u ≤ s := by
  obtain ⟨q, rfl⟩ := hd
  rw [Nat.mul_comm u q] at *
  have h2 := Nat.mod_lt T hs
  exact Nat.mul_le_mul_right u (cdiv_le_of_le_mul hu (Nat.le_of_lt h2))

theorem padTo_ge (T s u : Nat) (hu : 0 < u) : T ≤ padTo T s u := by
  have h1 := Nat.div_add_mod T s
  rw [Nat.mul_comm] at h1
  have h2 := cdiv_mul_ge (T % s) u hu
  unfold padTo
  omega

theorem padTo_dvd {T s u : Nat} (hd : u ∣ s) : u ∣ padTo T s u :=
  Nat.dvd_add (Dvd.dvd.mul_left hd _) (Nat.dvd_mul_left _ _)

theorem padTo_lt (T s u : Nat) (hu : 0 < u) : padTo T s u < T + u := by
  have h1 := Nat.div_add_mod T s
  rw [Nat.mul_comm] at h1
  have h2 := cdiv_mul_lt (T % s) u hu
  unfold padTo
  omega

theorem padTo_eq {T s u : Nat} (hu : 0 < u) (hd : u ∣ s) : padTo T s u = cdiv T u * u := by
  obtain ⟨q, hq⟩ := padTo_dvd (T := T) hd
  rw [Nat.mul_comm] at hq
  rw [hq]
  congr 1
  symm
  apply cdiv_eq_of
  · rw [← hq]; exact padTo_ge T s u hu
  · rw [← hq]; exact padTo_lt T s u hu

theorem padTo_one (T s : Nat) : padTo T s 1 = T := by
  have h1 := Nat.div_add_mod T s
  rw [Nat.mul_comm] at h1
  simp [padTo, cdiv, h1]

theorem cdiv_padTo {T s u : Nat} (hs : 0 < s) (hu : 0 < u) (hd : u ∣ s) :
    cdiv (padTo T s u) s = cdiv T s := by
  have h0 := cdiv_rem_le (T := T) hs hu hd
  have h1 := Nat.div_add_mod T s
  rw [Nat.mul_comm] at h1
  have h2 := Nat.mod_lt T hs
  have h3 := cdiv_mul_ge (T % s) u hu
  unfold padTo
  rw [← cdiv_eq_div_add T s hs]
  by_cases h : T % s = 0
  · simp only [h, cdiv_zero, Nat.zero_mul, Nat.add_zero, bne_self_eq_false, Bool.toNat_false]
    exact cdiv_mul_self _ _ hs
  · have e : (T % s != 0) = true := by simpa using h
    rw [e]
    simp only [Bool.toNat_true]
    apply cdiv_eq_of <;> rw [Nat.add_mul] <;> omega

/-- The block length as the code computes it. -/
theorem chopLen_padTo {T s u i : Nat} (hs : 0 < s) (hu : 0 < u) (hd : u ∣ s) (hi : i < cdiv T s) :
    chopLen (padTo T s u) s i =
      if (i == cdiv T s - 1 && T % s != 0) = true then cdiv (T % s) u * u else s := by
  have h0 := cdiv_rem_le (T := T) hs hu hd
  have h1 := Nat.div_add_mod T s
  rw [Nat.mul_comm] at h1
  have hc := cdiv_eq_div_add T s hs
  split
  · rename_i h
    simp only [Bool.and_eq_true, beq_iff_eq, bne_iff_ne] at h
    have e : (T % s != 0) = true := by simpa using h.2
    rw [e] at hc
    simp only [Bool.toNat_true] at hc
    have hi' : i = T / s := by omega
    unfold chopLen padTo
    subst hi'
    omega
  · rename_i h
    simp only [Bool.and_eq_true, beq_iff_eq, bne_iff_ne, not_and, Decidable.not_not] at h
    by_cases hl : i + 1 < cdiv T s
    · rw [chopLen_full hs]
      rw [cdiv_padTo hs hu hd]
      exact hl
    · have := h (by omega)
      have e : (T % s != 0) = false := by simpa using this
      rw [e] at hc
      simp only [Bool.toNat_false] at hc
      unfold chopLen padTo
      rw [this]
      have : i * s + s = T / s * s := by
        rw [← Nat.succ_mul]; congr 1; omega
      simp
      omega

/-- Splitting `t` units over at most `p` cores: `x = ceil(t/p)` units each, `u = ceil(t/x)` cores,
the last core gets `x - (u*x - t)`. -/
theorem core_split_le {t p : Nat} (hp : 0 < p) (ht : 0 < t) : cdiv t (cdiv t p) ≤ p := by
  have hx := cdiv_pos ht hp
  apply cdiv_le_of_le_mul hx
  rw [Nat.mul_comm]
  exact cdiv_mul_ge t p hp

theorem core_last {t x : Nat} (hx : 0 < x) (ht : 0 < t) :
    x - (cdiv t x * x - t) = chopLen t x (cdiv t x - 1) := by
  have hu := cdiv_pos ht hx
  have h1 := chopLen_last (T := t) (i := cdiv t x - 1) hx (by omega)
  have h2 := cdiv_mul_ge t x hx
  have h3 : cdiv t x * x = (cdiv t x - 1) * x + x := by
    rw [← Nat.succ_mul]; congr 1; omega
  omega

theorem core_last' {t x : Nat} (hx : 0 < x) (ht : 0 < t) :
    t - x * (cdiv t x - 1) = chopLen t x (cdiv t x - 1) := by
  have hu := cdiv_pos ht hx
  have h1 := chopLen_last (T := t) (i := cdiv t x - 1) hx (by omega)
  rw [Nat.mul_comm]
  omega

theorem core_len {t x core : Nat} (hx : 0 < x) (hc : core < cdiv t x) :
    (if core = cdiv t x - 1 then chopLen t x (cdiv t x - 1) else x) = chopLen t x core := by
  split
  · rename_i h; rw [h]
  · rw [chopLen_full hx (by omega)]

theorem chopLen_mul (t x i u : Nat) : chopLen (t * u) (x * u) i = chopLen t x i * u := by
  unfold chopLen
  rw [← Nat.mul_assoc, ← Nat.sub_mul]
  rcases Nat.le_total x (t - i * x) with h | h
  · rw [Nat.min_eq_left h, Nat.min_eq_left (Nat.mul_le_mul_right u h)]
  · rw [Nat.min_eq_right h, Nat.min_eq_right (Nat.mul_le_mul_right u h)]

theorem cdiv_mul_mul {t x u : Nat} (hx : 0 < x) (hu : 0 < u) : cdiv (t * u) (x * u) = cdiv t x := by
  have h1 := cdiv_mul_ge t x hx
  have h2 := cdiv_mul_lt t x hx
  apply cdiv_eq_of
  · rw [← Nat.mul_assoc]; exact Nat.mul_le_mul_right u h1
  · rw [← Nat.mul_assoc, ← Nat.add_mul]; exact Nat.mul_lt_mul_of_pos_right h2 hu

/-- Consecutive writers over the chunks, with `w` elements per unit. -/
theorem SeqW.chop {b : Buf} {base T s w : Nat} (hs : 0 < s) {f : Nat → List Op}
    (h : ∀ i, i < cdiv T s → SeqW b (base + i * s * w) (chopLen T s i * w) (f i)) :
    SeqW b base (T * w) ((range (cdiv T s)).flatMap f) := by
  have := SeqW.flatMap_var (b := b) (base := base) (n := cdiv T s) (f := f)
    (fun i => chopOff T s i * w) (fun i => chopLen T s i * w)
    (by simp [chopOff_zero]) (fun i _ => by simp only [chopOff_succ]; ring)
    (fun i hi => by simp only [chopOff_eq hs hi]; exact h i hi)
  simpa only [chopOff_end hs] using this

/-- Strip arithmetic: part `i` of size `chopLen T s i` of a product stays inside the product. -/
theorem chop_mul_bound {T s i w x : Nat} (hs : 0 < s) (hi : i < cdiv T s)
    (hx : x < chopLen T s i * w) : i * s * w + x < T * w := by
  have h1 := Nat.mul_le_mul_right w (chop_bound' hs hi)
  rw [Nat.add_mul] at h1
  omega

/-- The chunks cover `0 … T-1` in order. -/
theorem chop_range {T s : Nat} (hs : 0 < s) :
    ((range (cdiv T s)).flatMap fun i => (range (chopLen T s i)).map fun y => i * s + y) = range T := by
  have H : ∀ n, n ≤ cdiv T s →
      ((range n).flatMap fun i => (range (chopLen T s i)).map fun y => i * s + y) =
        range (chopOff T s n) := by
    intro n
    induction n with
    | zero => intro _; simp [chopOff_zero]
    | succ n ih =>
      intro hn
      rw [List.range_succ (n := n), List.flatMap_append, ih (by omega), chopOff_succ, List.range_add,
        chopOff_eq hs (by omega : n < cdiv T s)]
      simp
  rw [H _ (Nat.le_refl _), chopOff_end hs]

end Cake
