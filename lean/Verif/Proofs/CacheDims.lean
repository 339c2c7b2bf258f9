/-
Values of `get_cache_dims` under IEEE arithmetic.
-/
import Verif.Model.Double

namespace Cake

section
variable {prec : Nat} (r : Rounding prec)

theorem Rounding.nat (n : Nat) (h : n ≤ 2 ^ prec) : r.rnd n = n := by
  have := r.int n (by rw [abs_of_nonneg (by positivity)]; exact_mod_cast h)
  exact_mod_cast this

theorem Rounding.zero : r.rnd 0 = 0 := by
  have := r.nat 0 (Nat.zero_le _)
  simpa using this

theorem Rounding.nonneg {x : ℝ} (h : 0 ≤ x) : 0 ≤ r.rnd x := by
  rw [← r.zero]; exact r.mono h

theorem Rounding.ge_int {x : ℝ} {n : ℤ} (hn : |n| ≤ 2 ^ prec) (h : (n : ℝ) ≤ x) : (n : ℝ) ≤ r.rnd x := by
  rw [← r.int n hn]; exact r.mono h

theorem Rounding.le_int {x : ℝ} {n : ℤ} (hn : |n| ≤ 2 ^ prec) (h : x ≤ (n : ℝ)) : r.rnd x ≤ n := by
  rw [← r.int n hn]; exact r.mono h

end

/-- Absolute error bound for nonnegative values up to `B`. -/
theorem Rounding.le_add (r : Rounding 53) {x B : ℝ} (hx : 0 ≤ x) (hB : x ≤ B) (h1 : 1 ≤ B) (h2 : B ≤ 2 ^ 60) :
    r.rnd x ≤ x + B / 2 ^ 52 := by
  by_cases hs : x < 2 ^ (-100 : ℤ)
  · have h3 : r.rnd x ≤ r.rnd (2 ^ (-100 : ℤ)) := r.mono hs.le
    have h4 := r.err (2 ^ (-100 : ℤ)) (by rw [abs_of_pos (by positivity)])
      (by rw [abs_of_pos (by positivity)]; norm_num)
    have h5 := (abs_le.1 h4).2
    rw [abs_of_pos (by positivity)] at h5
    have h6 : (1 : ℝ) / 2 ^ 52 ≤ B / 2 ^ 52 := div_le_div_of_nonneg_right h1 (by positivity)
    have h7 : (2 : ℝ) ^ (-100 : ℤ) / 2 ^ 53 + 2 ^ (-100 : ℤ) ≤ 1 / 2 ^ 52 := by norm_num
    generalize (2 : ℝ) ^ (-100 : ℤ) = c at *
    generalize B / 2 ^ 52 = D at *
    linarith
  · have h4 := r.err x (by rw [abs_of_nonneg hx]; linarith)
      (by rw [abs_of_nonneg hx]; exact (hB.trans h2).trans (by norm_num))
    have h5 := (abs_le.1 h4).2
    rw [abs_of_nonneg hx] at h5
    have h6 : x / 2 ^ 53 ≤ B / 2 ^ 52 := by
      rw [div_le_div_iff₀ (by positivity) (by positivity)]
      nlinarith
    linarith

section
variable (r : Rounding 53) (rs : Rounding 24) (nf : Option ℝ → Option ℝ → Bool)

theorem trunc_some {x : ℝ} {n : ℤ} (h1 : (n : ℝ) ≤ x) (h2 : x < n + 1) (h0 : 0 ≤ n) (h3 : n < 2 ^ 31) :
    (ieee r rs nf).trunc (some x) = some n := by
  have hx : 0 ≤ x := le_trans (by exact_mod_cast h0) h1
  have : ⌊x⌋ = n := Int.floor_eq_iff.2 ⟨h1, h2⟩
  simp only [ieee, Option.bind_some, if_pos hx, this]
  rw [if_pos ⟨by omega, h3⟩]

theorem cInt_some {x : ℝ} {n : ℤ} (h1 : (n : ℝ) ≤ x) (h2 : x < n + 1) (h0 : 0 ≤ n) (h3 : n < 2 ^ 31) :
    cInt (ieee r rs nf) (some x) = .ok n := by
  unfold cInt
  rw [trunc_some r rs nf h1 h2 h0 h3]

theorem cInt_floor {x : ℝ} (h0 : 0 ≤ x) (h3 : x < 2 ^ 31) :
    cInt (ieee r rs nf) (some x) = .ok ⌊x⌋ :=
  cInt_some r rs nf (Int.floor_le x) (Int.lt_floor_add_one x) (Int.floor_nonneg.2 h0)
    (Int.floor_lt.2 (by exact_mod_cast h3))

/-- `2*type_size` is 8. -/
theorem two_ts : (ieee r rs nf).single ((ieee r rs nf).mul ((ieee r rs nf).ofInt 2) ((ieee r rs nf).ofInt 4)) =
    some 8 := by
  have h2 := r.nat 2 (by norm_num)
  have h4 := r.nat 4 (by norm_num)
  have h8 := r.nat 8 (by norm_num)
  have h8' := rs.nat 8 (by norm_num)
  simp only [ieee, Option.bind_some, Option.some.injEq]
  push_cast at h2 h4 h8 h8' ⊢
  rw [h2, h4]
  norm_num [h8, h8']

/-- The largest `t` with `2*(t*t + t*nr) + 2*t*nr` elements of 4 bytes within `L2`. -/
def IsL2Side (nr L2 t : Nat) : Prop := 8 * (t * (t + 2 * nr)) ≤ L2 ∧ L2 < 8 * ((t + 1) * (t + 1 + 2 * nr))

theorem isL2Side_exists (nr L2 : Nat) : ∃ t, IsL2Side nr L2 t := by
  have : ∀ B, L2 < 8 * (B * (B + 2 * nr)) → ∃ t, IsL2Side nr L2 t := by
    intro B
    induction B with
    | zero => intro h; simp at h
    | succ B ih =>
      intro h
      by_cases h' : L2 < 8 * (B * (B + 2 * nr))
      · exact ih h'
      · exact ⟨B, by omega, h⟩
  refine this (L2 + 1) ?_
  have : L2 + 1 ≤ (L2 + 1) * (L2 + 1 + 2 * nr) := Nat.le_mul_of_pos_right _ (by omega)
  omega

theorem mcL2_val (cx : CCtx (Option ℝ)) {mr nr L2 t : Nat} (hmr : cx.mr = mr) (hm : 0 < mr) (hnr : cx.nr = nr)
    (hn : nr ≤ 2 ^ 10) (hL2 : cx.L2 = L2) (hL : L2 < 2 ^ 31) (ht : IsL2Side nr L2 t) :
    mcL2 (ieee r rs nf) cx ((ieee r rs nf).ofInt 4) = .ok ((t - t % mr : Nat) : ℤ) ∧ t < 2 ^ 14 := by
  obtain ⟨h1, h2⟩ := ht
  have tlt : t < 2 ^ 14 := by
    by_contra h
    have : 2 ^ 14 * 2 ^ 14 ≤ t * (t + 2 * nr) := Nat.mul_le_mul (by omega) (by omega)
    omega
  refine ⟨?_, tlt⟩
  -- exact integers
  have eB : r.rnd (((-(2 * cx.nr) : ℤ)) : ℝ) = -(2 * nr) := by
    rw [r.int _ (by rw [hnr, abs_neg, abs_of_nonneg (by positivity)]; norm_cast; omega), hnr]
    push_cast; ring
  have eBB : r.rnd (((2 * cx.nr) * (2 * cx.nr) : ℤ) : ℝ) = (2 * nr) * (2 * nr) := by
    rw [r.int _ (by
      rw [hnr, abs_of_nonneg (by positivity)]
      have : (2 * nr) * (2 * nr) ≤ 2 ^ 11 * 2 ^ 11 := Nat.mul_le_mul (by omega) (by omega)
      exact_mod_cast (this.trans (by norm_num))), hnr]
    push_cast; ring
  have eL : r.rnd ((cx.L2 : ℤ) : ℝ) = L2 := by
    rw [hL2]
    have := r.nat L2 (by omega)
    exact_mod_cast this
  have e4 : r.rnd ((4 : ℤ) : ℝ) = 4 := by rw [r.int 4 (by norm_num)]; norm_num
  have e2 : r.rnd ((2 : ℤ) : ℝ) = 2 := by rw [r.int 2 (by norm_num)]; norm_num
  -- the chain of roundings
  set X : ℝ := (L2 : ℝ) / 8 with hX
  set x1 := r.rnd X with hx1
  set x2 := r.rnd (4 * x1) with hx2
  set S := r.rnd ((2 * nr) * (2 * nr) + x2) with hS
  set q := r.rnd (Real.sqrt S) with hq
  set w := r.rnd (-(2 * (nr : ℝ)) + q) with hw
  set z := r.rnd (w / 2) with hz
  have hL' : (L2 : ℝ) < 2147483648 := by exact_mod_cast (show L2 < 2147483648 by omega)
  have hnR : (nr : ℝ) ≤ 1024 := by exact_mod_cast (show nr ≤ 1024 by omega)
  have hn0 : (0 : ℝ) ≤ nr := by positivity
  have htR : (t : ℝ) < 16384 := by exact_mod_cast (show t < 16384 by omega)
  have ht0 : (0 : ℝ) ≤ t := by positivity
  have hX0 : 0 ≤ X := by positivity
  have hXb : X ≤ 2 ^ 28 := by
    rw [hX, div_le_iff₀ (by norm_num)]
    norm_num
    linarith
  have b1 : (8 * ((t : ℝ) * (t + 2 * nr))) ≤ L2 := by exact_mod_cast h1
  have b2 : (L2 : ℝ) + 1 ≤ 8 * (((t : ℝ) + 1) * (t + 1 + 2 * nr)) := by exact_mod_cast h2
  -- lower bounds
  have l1 : ((t * (t + 2 * nr) : ℕ) : ℤ) ≤ x1 := r.ge_int (by
      rw [abs_of_nonneg (by positivity)]
      have : t * (t + 2 * nr) ≤ 2 ^ 14 * 2 ^ 15 := Nat.mul_le_mul (by omega) (by omega)
      exact_mod_cast (this.trans (by norm_num)))
    (by push_cast; rw [hX, le_div_iff₀ (by norm_num)]; linarith)
  have l2 : ((4 * (t * (t + 2 * nr)) : ℕ) : ℤ) ≤ x2 := r.ge_int (by
      rw [abs_of_nonneg (by positivity)]
      have : t * (t + 2 * nr) ≤ 2 ^ 14 * 2 ^ 15 := Nat.mul_le_mul (by omega) (by omega)
      exact_mod_cast (show 4 * (t * (t + 2 * nr)) ≤ 2 ^ 53 by omega))
    (by push_cast at l1 ⊢; linarith)
  have l3 : (((2 * t + 2 * nr) * (2 * t + 2 * nr) : ℕ) : ℤ) ≤ S := r.ge_int (by
      rw [abs_of_nonneg (by positivity)]
      have : (2 * t + 2 * nr) * (2 * t + 2 * nr) ≤ 2 ^ 16 * 2 ^ 16 := Nat.mul_le_mul (by omega) (by omega)
      exact_mod_cast (this.trans (by norm_num)))
    (by push_cast at l2 ⊢; nlinarith)
  have l4 : ((2 * t + 2 * nr : ℕ) : ℤ) ≤ q := r.ge_int (by
      rw [abs_of_nonneg (by positivity)]
      exact_mod_cast (show 2 * t + 2 * nr ≤ 2 ^ 53 by omega))
    (by
      apply Real.le_sqrt_of_sq_le
      push_cast at l3 ⊢
      nlinarith)
  have l5 : ((2 * t : ℕ) : ℤ) ≤ w := r.ge_int (by
      rw [abs_of_nonneg (by positivity)]
      exact_mod_cast (show 2 * t ≤ 2 ^ 53 by omega))
    (by push_cast at l4 ⊢; linarith)
  have l6 : ((t : ℕ) : ℤ) ≤ z := r.ge_int (by
      rw [abs_of_nonneg (by positivity)]
      exact_mod_cast (show t ≤ 2 ^ 53 by omega))
    (by push_cast at l5 ⊢; linarith)
  -- upper bounds
  have x10 : 0 ≤ x1 := r.nonneg hX0
  have u1 : x1 ≤ X + 2 ^ 28 / 2 ^ 52 := r.le_add hX0 hXb (by norm_num) (by norm_num)
  have x20 : 0 ≤ x2 := r.nonneg (by positivity)
  have u2 : x2 ≤ 4 * x1 + 2 ^ 31 / 2 ^ 52 := r.le_add (by positivity) (by norm_num at u1 hXb ⊢; linarith)
    (by norm_num) (by norm_num)
  have nn : (2 * (nr : ℝ)) * (2 * nr) ≤ 2 ^ 22 := by
    have : (2 * (nr : ℝ)) ≤ 2 ^ 11 := by norm_num; linarith
    calc (2 * (nr : ℝ)) * (2 * nr) ≤ 2 ^ 11 * 2 ^ 11 := mul_le_mul this this (by positivity) (by positivity)
      _ = 2 ^ 22 := by norm_num
  have u3 : S ≤ (2 * nr) * (2 * nr) + x2 + 2 ^ 32 / 2 ^ 52 := r.le_add (by positivity)
    (by norm_num at u1 u2 hXb nn ⊢; linarith) (by norm_num) (by norm_num)
  have S0 : 0 ≤ S := r.nonneg (by positivity)
  set T : ℝ := 2 * (t + 1) + 2 * nr with hT
  have hT2 : T ≤ 2 ^ 16 := by norm_num; linarith
  have hTpos : 2 ≤ T := by linarith
  have hS' : S ≤ T * T - 1 / 4 := by
    have e : T * T = (2 * nr) * (2 * nr) + 4 * (((t : ℝ) + 1) * (t + 1 + 2 * nr)) := by rw [hT]; ring
    rw [e]
    have : X ≤ ((t : ℝ) + 1) * (t + 1 + 2 * nr) - 1 / 8 := by
      rw [hX, div_le_iff₀ (by norm_num)]; linarith
    norm_num at u1 u2 u3 ⊢
    linarith
  have u4 : Real.sqrt S ≤ T - 1 / 2 ^ 19 := by
    apply Real.sqrt_le_iff.2
    constructor
    · norm_num; linarith
    · norm_num at hT2 ⊢
      nlinarith
  have u5 : q ≤ Real.sqrt S + 2 ^ 16 / 2 ^ 52 := r.le_add (Real.sqrt_nonneg _) (by norm_num at u4 hT2 ⊢; linarith)
    (by norm_num) (by norm_num)
  have l4' : (2 * (t : ℝ) + 2 * nr) ≤ q := by push_cast at l4; exact l4
  have u6 : w ≤ (-(2 * (nr : ℝ)) + q) + 2 ^ 17 / 2 ^ 52 := r.le_add (by linarith)
    (by norm_num at u4 u5 hT2 ⊢; linarith) (by norm_num) (by norm_num)
  have l5' : 2 * (t : ℝ) ≤ w := by push_cast at l5; exact l5
  have u7 : z ≤ w / 2 + 2 ^ 17 / 2 ^ 52 := r.le_add (by linarith)
    (by norm_num at u4 u5 u6 hT2 ⊢; linarith) (by norm_num) (by norm_num)
  have u8 : z < ((t : ℕ) : ℤ) + 1 := by
    push_cast
    norm_num at u4 u5 u6 u7 ⊢
    linarith
  have hci := cInt_some r rs nf l6 u8 (by positivity) (by exact_mod_cast (show t < 2 ^ 31 by omega))
  have hexpr : (ieee r rs nf).div ((ieee r rs nf).add ((ieee r rs nf).ofInt (-(2 * cx.nr)))
      ((ieee r rs nf).sqrt ((ieee r rs nf).add ((ieee r rs nf).ofInt ((2 * cx.nr) * (2 * cx.nr)))
        ((ieee r rs nf).mul ((ieee r rs nf).ofInt 4) ((ieee r rs nf).div ((ieee r rs nf).ofInt cx.L2)
          ((ieee r rs nf).single ((ieee r rs nf).mul ((ieee r rs nf).ofInt 2) ((ieee r rs nf).ofInt 4))))))))
      ((ieee r rs nf).ofInt 2) = some z := by
    rw [two_ts]
    simp only [ieee, Option.bind_some]
    rw [eB, eBB, eL, e4, e2, if_neg (by norm_num), Option.bind_some, ← hX, ← hx1, Option.bind_some, ← hx2,
      Option.bind_some, ← hS, if_neg (not_lt.2 S0), ← hq, Option.bind_some, Option.bind_some,
      if_neg (by norm_num)]
  unfold mcL2
  simp only
  rw [hexpr, hci]
  show (do let r ← cMod _ _; pure _) = _
  unfold cMod
  rw [hmr, if_neg (by omega)]
  show Except.ok _ = _
  congr 1
  rw [Int.tmod_eq_emod_of_nonneg (by positivity)]
  have : t % mr ≤ t := Nat.mod_le _ _
  push_cast [Nat.cast_sub this]
  rfl

/-- `mc_L3` is some multiple of `mr`, at most `2^14`. -/
theorem mcL3_val (cx : CCtx (Option ℝ)) {mr L3 nc : Nat} (hmr : cx.mr = mr) (hm : 0 < mr) (hL3 : cx.L3 = L3)
    (hL : L3 < 2 ^ 31) (hnc : cx.ncores = nc) (h1 : 0 < nc) (h2 : nc ≤ 2 ^ 20) :
    ∃ t : Nat, t ≤ 2 ^ 14 ∧ (∀ s, 8 * (s * s * (nc * (2 + nc))) ≤ L3 → s ≤ t) ∧
      (∀ s, s ≤ 2 ^ 20 → s * s * (nc * (2 + nc)) ≤ 2 ^ 50 → L3 ≤ 8 * (s * s * (nc * (2 + nc))) → t ≤ s) ∧
      mcL3 (ieee r rs nf) cx ((ieee r rs nf).ofInt 4) = .ok ((t - t % mr : Nat) : ℤ) := by
  have eL : r.rnd ((cx.L3 : ℤ) : ℝ) = L3 := by
    rw [hL3]
    have := r.nat L3 (by omega)
    exact_mod_cast this
  have e1 : r.rnd ((1 : ℤ) : ℝ) = 1 := by rw [r.int 1 (by norm_num)]; norm_num
  have e2 : r.rnd (1 + 1 : ℝ) = 2 := by
    have := r.nat 2 (by norm_num)
    norm_num at this ⊢
    exact this
  have eN : r.rnd ((cx.ncores : ℤ) : ℝ) = nc := by
    rw [hnc]
    have := r.nat nc (by omega)
    exact_mod_cast this
  have eN' : r.rnd (nc : ℝ) = nc := r.nat nc (by omega)
  have e3 : r.rnd (2 + nc : ℝ) = 2 + nc := by
    have := r.nat (2 + nc) (by omega)
    push_cast at this
    exact this
  have e4 : r.rnd ((nc : ℝ) * (2 + nc)) = nc * (2 + nc) := by
    have := r.nat (nc * (2 + nc)) (by
      have : nc * (2 + nc) ≤ 2 ^ 20 * 2 ^ 21 := Nat.mul_le_mul h2 (by omega)
      omega)
    push_cast at this
    exact this
  have hD : (1 : ℝ) ≤ nc * (2 + nc) := by
    have : (1 : ℝ) ≤ nc := by exact_mod_cast h1
    nlinarith
  have hL' : (L3 : ℝ) < 2147483648 := by exact_mod_cast (show L3 < 2147483648 by omega)
  set x1 := r.rnd ((L3 : ℝ) / 8) with hx1
  have x10 : 0 ≤ x1 := r.nonneg (by positivity)
  have x1u : x1 ≤ ((2 ^ 28 : ℤ) : ℝ) := r.le_int (by norm_num) (by
    push_cast
    linarith)
  set x2 := r.rnd (x1 / (nc * (2 + nc))) with hx2
  have x20 : 0 ≤ x2 := r.nonneg (by positivity)
  have x2u : x2 ≤ ((2 ^ 28 : ℤ) : ℝ) := r.le_int (by norm_num) ((div_le_self x10 hD).trans x1u)
  set z := r.rnd (Real.sqrt x2) with hz
  have z0 : 0 ≤ z := r.nonneg (Real.sqrt_nonneg _)
  have zu : z ≤ ((2 ^ 14 : ℤ) : ℝ) := r.le_int (by norm_num) (by
    apply Real.sqrt_le_iff.2
    push_cast at x2u ⊢
    norm_num at x2u ⊢
    exact x2u)
  have hci := cInt_floor r rs nf z0 (lt_of_le_of_lt zu (by norm_num))
  have hexpr : (ieee r rs nf).sqrt ((ieee r rs nf).div ((ieee r rs nf).div ((ieee r rs nf).ofInt cx.L3)
      ((ieee r rs nf).single ((ieee r rs nf).mul ((ieee r rs nf).ofInt 2) ((ieee r rs nf).ofInt 4))))
      ((ieee r rs nf).mul ((ieee r rs nf).ofInt cx.ncores) ((ieee r rs nf).add ((ieee r rs nf).add
        ((ieee r rs nf).ofInt 1) ((ieee r rs nf).ofInt 1)) ((ieee r rs nf).mul ((ieee r rs nf).ofInt 1)
        ((ieee r rs nf).ofInt cx.ncores))))) = some z := by
    rw [two_ts]
    simp only [ieee, Option.bind_some]
    rw [eL, e1, eN, e2, one_mul, eN', e3, e4, if_neg (by norm_num), Option.bind_some, ← hx1,
      if_neg (by linarith), Option.bind_some, ← hx2, if_neg (by linarith)]
  obtain ⟨t, ht⟩ := Int.eq_ofNat_of_zero_le (Int.floor_nonneg.2 z0)
  have htu : t ≤ 2 ^ 14 := by
    have : (⌊z⌋ : ℝ) ≤ (2 ^ 14 : ℤ) := (Int.floor_le z).trans zu
    have : ⌊z⌋ ≤ 2 ^ 14 := by exact_mod_cast this
    omega
  refine ⟨t, htu, ?_, ?_, ?_⟩
  rotate_left
  · intro s hss hsD hs
    have hsR : (L3 : ℝ) ≤ 8 * (s * s * (nc * (2 + nc))) := by exact_mod_cast hs
    have hs2 : s * s ≤ 2 ^ 20 * 2 ^ 20 := Nat.mul_le_mul hss hss
    have g1 : x1 ≤ ((s * s * (nc * (2 + nc)) : ℕ) : ℤ) := r.le_int (by
        rw [abs_of_nonneg (by positivity)]
        exact_mod_cast (show s * s * (nc * (2 + nc)) ≤ 2 ^ 53 by omega))
      (by push_cast; rw [div_le_iff₀ (by norm_num)]; linarith)
    have g2 : x2 ≤ ((s * s : ℕ) : ℤ) := r.le_int (by
        rw [abs_of_nonneg (by positivity)]
        exact_mod_cast (show s * s ≤ 2 ^ 53 by omega))
      (by push_cast at g1 ⊢; rw [div_le_iff₀ (by linarith)]; linarith)
    have g3 : z ≤ ((s : ℕ) : ℤ) := r.le_int (by
        rw [abs_of_nonneg (by positivity)]
        exact_mod_cast (show s ≤ 2 ^ 53 by omega))
      (by
        apply Real.sqrt_le_iff.2
        push_cast at g2 ⊢
        exact ⟨by positivity, by nlinarith⟩)
    have : (⌊z⌋ : ℝ) ≤ ((s : ℕ) : ℤ) := (Int.floor_le z).trans g3
    rw [ht] at this
    exact_mod_cast this
  rotate_left
  · intro s hs
    have hsD : s * s ≤ s * s * (nc * (2 + nc)) := Nat.le_mul_of_pos_right _ (Nat.mul_pos h1 (by omega))
    have hss : s ≤ 2 ^ 14 := by
      by_contra h
      have : 2 ^ 14 * 2 ^ 14 ≤ s * s := Nat.mul_le_mul (by omega) (by omega)
      omega
    have hsR : (8 : ℝ) * (s * s * (nc * (2 + nc))) ≤ L3 := by exact_mod_cast hs
    have g1 : ((s * s * (nc * (2 + nc)) : ℕ) : ℤ) ≤ x1 := r.ge_int (by
        rw [abs_of_nonneg (by positivity)]
        exact_mod_cast (show s * s * (nc * (2 + nc)) ≤ 2 ^ 53 by omega))
      (by push_cast; rw [le_div_iff₀ (by norm_num)]; linarith)
    have g2 : ((s * s : ℕ) : ℤ) ≤ x2 := r.ge_int (by
        rw [abs_of_nonneg (by positivity)]
        exact_mod_cast (show s * s ≤ 2 ^ 53 by omega))
      (by push_cast at g1 ⊢; rw [le_div_iff₀ (by linarith)]; linarith)
    have g3 : ((s : ℕ) : ℤ) ≤ z := r.ge_int (by
        rw [abs_of_nonneg (by positivity)]
        exact_mod_cast (show s ≤ 2 ^ 53 by omega))
      (by
        apply Real.le_sqrt_of_sq_le
        push_cast at g2 ⊢
        nlinarith)
    have : ((s : ℕ) : ℤ) ≤ ⌊z⌋ := Int.le_floor.2 g3
    rw [ht] at this
    exact_mod_cast this
  unfold mcL3
  simp only
  rw [hexpr, hci, ht]
  show (do let r ← cMod _ _; pure _) = _
  unfold cMod
  rw [hmr, if_neg (by omega)]
  show Except.ok _ = _
  congr 1
  rw [Int.tmod_eq_emod_of_nonneg (by positivity)]
  have : t % mr ≤ t := Nat.mod_le _ _
  push_cast [Nat.cast_sub this]
  rfl

end

theorem clampMc_val {M p mr mc : Nat} (hp : 0 < p) (hm : 0 < mr) (hd : mr ∣ mc) (h0 : mr ≤ mc) :
    ∃ c : Nat, clampMc M p mr mc = .ok (c : ℤ) ∧ mr ∣ c ∧ mr ≤ c ∧ c ≤ mc := by
  unfold clampMc
  split
  · exact ⟨mr, rfl, dvd_rfl, le_rfl, h0⟩
  split
  · rename_i h2
    have h2' : M < p * mc := by exact_mod_cast h2
    unfold cDiv cMod
    rw [if_neg (by omega)]
    show ∃ c : Nat, (if Int.tdiv (M : ℤ) p < mr then _ else _) = _ ∧ _
    have e : Int.tdiv (M : ℤ) p = ((M / p : ℕ) : ℤ) := by
      rw [Int.tdiv_eq_ediv_of_nonneg (by positivity)]; rfl
    rw [e]
    split
    · exact ⟨mr, rfl, dvd_rfl, le_rfl, h0⟩
    · rename_i h3
      rw [if_neg (by omega)]
      have e2 : Int.tmod ((M / p : ℕ) : ℤ) mr = ((M / p % mr : ℕ) : ℤ) := by
        rw [Int.tmod_eq_emod_of_nonneg (by positivity)]; rfl
      set a := M / p with ha
      have ha' : a < mc := (Nat.div_lt_iff_lt_mul hp).2 (by rw [Nat.mul_comm]; exact h2')
      have hlt := Nat.mod_lt a hm
      have hda := Nat.div_add_mod a mr
      have hc : a + (mr - a % mr) = mr * (a / mr + 1) := by
        rw [Nat.mul_add, Nat.mul_one]; omega
      refine ⟨a + (mr - a % mr), ?_, ⟨_, hc⟩, ?_, ?_⟩
      · show Except.ok _ = _
        rw [e2]
        push_cast [Nat.cast_sub hlt.le]
        rfl
      · rw [hc]; exact Nat.le_mul_of_pos_right _ (Nat.succ_pos _)
      · rw [hc]
        obtain ⟨q, rfl⟩ := hd
        refine Nat.mul_le_mul_left _ ?_
        have : a / mr < q := (Nat.div_lt_iff_lt_mul hm).2 (by rw [Nat.mul_comm]; exact ha')
        omega
  · exact ⟨mc, rfl, hd, h0, le_rfl⟩

theorem roundDown_val {x u : Nat} (hu : 0 < u) :
    ∃ q : Nat, 0 < q ∧ roundDown (x : ℤ) (u : ℤ) = .ok ((q * u : Nat) : ℤ) ∧
      (q * u ≤ x ∨ q = 1) ∧ x < (q + 1) * u := by
  unfold roundDown cMod
  rw [if_neg (by omega)]
  have e2 : Int.tmod (x : ℤ) u = ((x % u : ℕ) : ℤ) := by
    rw [Int.tmod_eq_emod_of_nonneg (by positivity)]; rfl
  rw [e2]
  have hda := Nat.div_add_mod x u
  have hx : (x : ℤ) - ((x % u : ℕ) : ℤ) = ((x / u * u : ℕ) : ℤ) := by
    have : x / u * u = u * (x / u) := Nat.mul_comm _ _
    rw [this]
    omega
  by_cases h0 : x / u = 0
  · refine ⟨1, by omega, ?_, Or.inr rfl, by have := Nat.mod_lt x hu; rw [h0] at hda; omega⟩
    show Except.ok _ = _
    rw [hx, h0]
    simp
  · refine ⟨x / u, Nat.pos_of_ne_zero h0, ?_, Or.inl (Nat.div_mul_le_self _ _), by
      have := Nat.mod_lt x hu
      rw [Nat.add_mul, Nat.mul_comm (x / u)]
      omega⟩
    show Except.ok _ = _
    rw [hx, if_neg]
    have : 0 < x / u * u := Nat.mul_pos (Nat.pos_of_ne_zero h0) hu
    omega

/-- The context of a machine within the ranges the analysis covers. -/
structure CacheOK {D : Type _} (cx : CCtx D) (mr nr L2 L3 nc : Nat) : Prop where
  mr_eq : cx.mr = mr
  nr_eq : cx.nr = nr
  l2_eq : cx.L2 = L2
  l3_eq : cx.L3 = L3
  nc_eq : cx.ncores = nc
  mr_pos : 0 < mr
  nr_pos : 0 < nr
  nr_le : nr ≤ 2 ^ 10
  l2_lt : L2 < 2 ^ 31
  l3_lt : L3 < 2 ^ 31
  nc_pos : 0 < nc
  nc_le : nc ≤ 2 ^ 20

theorem IsL2Side.pos {mr nr L2 t : Nat} (ht : IsL2Side nr L2 t) (h : 8 * (mr * (mr + 2 * nr)) ≤ L2) : mr ≤ t := by
  by_contra hlt
  have : (t + 1) * (t + 1 + 2 * nr) ≤ mr * (mr + 2 * nr) := Nat.mul_le_mul (by omega) (by omega)
  have := ht.2
  omega

theorem IsL2Side.fits {nr L2 t c : Nat} (ht : IsL2Side nr L2 t) (h : c ≤ t) : 8 * (c * (c + 2 * nr)) ≤ L2 := by
  have : c * (c + 2 * nr) ≤ t * (t + 2 * nr) := Nat.mul_le_mul (by omega) (by omega)
  have := ht.1
  omega

theorem sub_mod_dvd (t mr : Nat) : mr ∣ t - t % mr := Nat.dvd_sub_mod t

theorem le_sub_mod {t mr : Nat} (h : mr ≤ t) (h0 : 0 < mr) : mr ≤ t - t % mr := by
  have h1 := Nat.div_add_mod t mr
  have : 1 ≤ t / mr := (Nat.le_div_iff_mul_le h0).2 (by omega)
  have : mr * 1 ≤ mr * (t / mr) := Nat.mul_le_mul_left _ this
  omega

section
variable (r : Rounding 53) (rs : Rounding 24) (nf : Option ℝ → Option ℝ → Bool)

/-- `alpha * c` and `alpha * p * c` for `alpha = e / d`, `c ≤ d`. -/
theorem alpha_mul {e d c : Nat} (he : e ≤ 2 ^ 14) (hd : 0 < d) (hc : c ≤ d) (hd' : d ≤ 2 ^ 14) {p : Nat} (hp : p ≤ 2 ^ 15) :
    ∃ x : Nat, cInt (ieee r rs nf) ((ieee r rs nf).mul ((ieee r rs nf).mul ((ieee r rs nf).div ((ieee r rs nf).ofInt e)
      ((ieee r rs nf).ofInt d)) ((ieee r rs nf).ofInt p)) ((ieee r rs nf).ofInt c)) = .ok (x : ℤ) ∧
      x ≤ e * p + 1 ∧ (d ≤ e → p * c ≤ x) := by
  have ee : r.rnd ((e : ℤ) : ℝ) = e := by have := r.nat e (by omega); exact_mod_cast this
  have ed : r.rnd ((d : ℤ) : ℝ) = d := by have := r.nat d (by omega); exact_mod_cast this
  have ec : r.rnd ((c : ℤ) : ℝ) = c := by have := r.nat c (by omega); exact_mod_cast this
  have ep : r.rnd ((p : ℤ) : ℝ) = p := by have := r.nat p (by omega); exact_mod_cast this
  have hdR : (1 : ℝ) ≤ d := by exact_mod_cast hd
  have hcd : (c : ℝ) ≤ d := by exact_mod_cast hc
  have heR : (e : ℝ) ≤ 16384 := by exact_mod_cast (show e ≤ 16384 by omega)
  have hcR : (c : ℝ) ≤ 16384 := by exact_mod_cast (show c ≤ 16384 by omega)
  have hpR : (p : ℝ) ≤ 32768 := by exact_mod_cast (show p ≤ 32768 by omega)
  have he0 : (0 : ℝ) ≤ e := by positivity
  have hc0 : (0 : ℝ) ≤ c := by positivity
  have hp0 : (0 : ℝ) ≤ p := by positivity
  set q : ℝ := (e : ℝ) / d with hq
  have q0 : 0 ≤ q := by positivity
  have qu : q ≤ 2 ^ 14 := (div_le_self he0 hdR).trans (by norm_num; linarith)
  have qc : q * c ≤ 16384 := by
    have : q * c ≤ q * d := mul_le_mul_of_nonneg_left hcd q0
    rw [hq, div_mul_cancel₀ _ (by linarith : (d : ℝ) ≠ 0)] at this
    linarith
  set a := r.rnd q with ha
  have a0 : 0 ≤ a := r.nonneg q0
  have au : a ≤ q + 2 ^ 14 / 2 ^ 52 := r.le_add q0 qu (by norm_num) (by norm_num)
  have ap : a * p ≤ 2 ^ 30 := by
    have h1 : a ≤ 32768 := by norm_num at au qu; linarith
    have : a * p ≤ 32768 * 32768 := mul_le_mul h1 hpR hp0 (by norm_num)
    norm_num at this ⊢
    linarith
  set y := r.rnd (a * p) with hy
  have y0 : 0 ≤ y := r.nonneg (by positivity)
  have yu : y ≤ a * p + 2 ^ 30 / 2 ^ 52 := r.le_add (by positivity) ap (by norm_num) (by norm_num)
  have pc : (p : ℝ) * c ≤ 32768 * 16384 := mul_le_mul hpR hcR hc0 (by norm_num)
  have qe : q * c ≤ e := by
    have : q * c ≤ q * d := mul_le_mul_of_nonneg_left hcd q0
    rwa [hq, div_mul_cancel₀ _ (by linarith : (d : ℝ) ≠ 0)] at this
  have yc' : y * c ≤ e * p + 1 := by
    have h1 : y * c ≤ (a * p + 2 ^ 30 / 2 ^ 52) * c := mul_le_mul_of_nonneg_right yu hc0
    have h2 : a * (p * c) ≤ (q + 2 ^ 14 / 2 ^ 52) * (p * c) := mul_le_mul_of_nonneg_right au (by positivity)
    have h3 : (q * c) * p ≤ e * p := mul_le_mul_of_nonneg_right qe hp0
    have e1 : (a * p + 2 ^ 30 / 2 ^ 52) * (c : ℝ) = a * (p * c) + 2 ^ 30 / 2 ^ 52 * c := by ring
    have e2 : (q + 2 ^ 14 / 2 ^ 52) * ((p : ℝ) * c) = q * c * p + 2 ^ 14 / 2 ^ 52 * (p * c) := by ring
    rw [e1] at h1
    rw [e2] at h2
    norm_num at h1 h2 h3 pc ⊢
    linarith
  have yc : y * c ≤ 2 ^ 30 := by
    have h1 : y * c ≤ (a * p + 2 ^ 30 / 2 ^ 52) * c := mul_le_mul_of_nonneg_right yu hc0
    have h2 : a * (p * c) ≤ (q + 2 ^ 14 / 2 ^ 52) * (p * c) := mul_le_mul_of_nonneg_right au (by positivity)
    have h3 : (q * c) * p ≤ 16384 * 32768 := mul_le_mul qc hpR hp0 (by norm_num)
    have e1 : (a * p + 2 ^ 30 / 2 ^ 52) * (c : ℝ) = a * (p * c) + 2 ^ 30 / 2 ^ 52 * c := by ring
    have e2 : (q + 2 ^ 14 / 2 ^ 52) * ((p : ℝ) * c) = q * c * p + 2 ^ 14 / 2 ^ 52 * (p * c) := by ring
    rw [e1] at h1
    rw [e2] at h2
    norm_num at h1 h2 h3 pc ⊢
    linarith
  set z := r.rnd (y * c) with hz
  have z0 : 0 ≤ z := r.nonneg (by positivity)
  have zu : z ≤ ((2 ^ 30 : ℤ) : ℝ) := r.le_int (by norm_num) (by norm_num at yc ⊢; exact yc)
  have hci := cInt_floor r rs nf z0 (lt_of_le_of_lt zu (by norm_num))
  obtain ⟨x, hx⟩ := Int.eq_ofNat_of_zero_le (Int.floor_nonneg.2 z0)
  refine ⟨x, ?_, ?_, ?_⟩
  rotate_left
  · have hep : e * p ≤ 2 ^ 14 * 2 ^ 15 := Nat.mul_le_mul he hp
    have z1 : z ≤ (((e * p + 1 : ℕ) : ℤ) : ℝ) := r.le_int (by
        rw [abs_of_nonneg (by positivity)]; exact_mod_cast (show e * p + 1 ≤ 2 ^ 53 by omega)) (by
      push_cast; exact yc')
    have : (⌊z⌋ : ℝ) ≤ (((e * p + 1 : ℕ) : ℤ) : ℝ) := (Int.floor_le z).trans z1
    rw [hx] at this
    exact_mod_cast this
  · intro hde
    have hdeR : (d : ℝ) ≤ e := by exact_mod_cast hde
    have hpc : p * c ≤ 2 ^ 15 * 2 ^ 14 := Nat.mul_le_mul hp (by omega)
    have a1 : ((1 : ℤ) : ℝ) ≤ a := r.ge_int (by norm_num) (by
      push_cast; rw [hq, le_div_iff₀ (by linarith)]; linarith)
    have y1 : ((p : ℤ) : ℝ) ≤ y := r.ge_int (by
        rw [abs_of_nonneg (by positivity)]; exact_mod_cast (show p ≤ 2 ^ 53 by omega)) (by
      push_cast at a1 ⊢
      nlinarith)
    have z1 : (((p * c : ℕ) : ℤ) : ℝ) ≤ z := r.ge_int (by
        rw [abs_of_nonneg (by positivity)]; exact_mod_cast (show p * c ≤ 2 ^ 53 by omega)) (by
      push_cast at y1 ⊢
      exact mul_le_mul_of_nonneg_right y1 hc0)
    have := Int.le_floor.2 z1
    rw [hx] at this
    exact_mod_cast this
  rw [hx] at hci
  rw [← hci]
  congr 1
  simp only [ieee, Option.bind_some]
  rw [ee, ed, ec, ep, if_neg (by linarith), Option.bind_some, ← hq, ← ha, Option.bind_some, ← hy]

/-- `alpha * c` lies on the same side of `k * c` as `alpha` of the integer `k`. -/
theorem alpha_mul' {e d c : Nat} (he : e ≤ 2 ^ 14) (hd : 0 < d) (hc : c ≤ d) (hd' : d ≤ 2 ^ 14) :
    ∃ x : Nat, cInt (ieee r rs nf) ((ieee r rs nf).mul ((ieee r rs nf).div ((ieee r rs nf).ofInt e)
      ((ieee r rs nf).ofInt d)) ((ieee r rs nf).ofInt c)) = .ok (x : ℤ) ∧ (e ≤ d → x ≤ c) ∧
      (∀ k, k ≤ 2 ^ 10 → k * d ≤ e → k * c ≤ x) := by
  have ee : r.rnd ((e : ℤ) : ℝ) = e := by have := r.nat e (by omega); exact_mod_cast this
  have ed : r.rnd ((d : ℤ) : ℝ) = d := by have := r.nat d (by omega); exact_mod_cast this
  have ec : r.rnd ((c : ℤ) : ℝ) = c := by have := r.nat c (by omega); exact_mod_cast this
  have hdR : (1 : ℝ) ≤ d := by exact_mod_cast hd
  have hcd : (c : ℝ) ≤ d := by exact_mod_cast hc
  have heR : (e : ℝ) ≤ 16384 := by exact_mod_cast (show e ≤ 16384 by omega)
  have hcR : (c : ℝ) ≤ 16384 := by exact_mod_cast (show c ≤ 16384 by omega)
  have he0 : (0 : ℝ) ≤ e := by positivity
  have hc0 : (0 : ℝ) ≤ c := by positivity
  set q : ℝ := (e : ℝ) / d with hq
  have q0 : 0 ≤ q := by positivity
  have qu : q ≤ ((2 ^ 14 : ℤ) : ℝ) := (div_le_self he0 hdR).trans (by norm_num; linarith)
  set a := r.rnd q with ha
  have a0 : 0 ≤ a := r.nonneg q0
  have au : a ≤ ((2 ^ 14 : ℤ) : ℝ) := r.le_int (by norm_num) qu
  have ac : a * c ≤ ((2 ^ 28 : ℤ) : ℝ) := by
    have h1 : a * c ≤ 16384 * 16384 := mul_le_mul (by norm_num at au; linarith) hcR hc0 (by norm_num)
    norm_num at h1 ⊢
    linarith
  set z := r.rnd (a * c) with hz
  have z0 : 0 ≤ z := r.nonneg (by positivity)
  have zu : z ≤ ((2 ^ 28 : ℤ) : ℝ) := r.le_int (by norm_num) ac
  have hci := cInt_floor r rs nf z0 (lt_of_le_of_lt zu (by norm_num))
  obtain ⟨x, hx⟩ := Int.eq_ofNat_of_zero_le (Int.floor_nonneg.2 z0)
  refine ⟨x, ?_, ?_, ?_⟩
  · rw [hx] at hci
    rw [← hci]
    congr 1
    simp only [ieee, Option.bind_some]
    rw [ee, ed, ec, if_neg (by linarith), Option.bind_some]
  · intro hed
    have hedR : (e : ℝ) ≤ d := by exact_mod_cast hed
    have a1 : a ≤ ((1 : ℤ) : ℝ) := r.le_int (by norm_num) (by
      push_cast; rw [hq, div_le_one (by linarith)]; exact hedR)
    have z1 : z ≤ ((c : ℤ) : ℝ) := r.le_int (by
        rw [abs_of_nonneg (by positivity)]; exact_mod_cast (show c ≤ 2 ^ 53 by omega)) (by
      push_cast at a1 ⊢
      nlinarith)
    have : (⌊z⌋ : ℝ) ≤ ((c : ℤ) : ℝ) := (Int.floor_le z).trans z1
    rw [hx] at this
    exact_mod_cast this
  · intro k hk hkd
    have hkR : ((k : ℝ)) * d ≤ e := by exact_mod_cast hkd
    have hkc : k * c ≤ 2 ^ 10 * 2 ^ 14 := Nat.mul_le_mul hk (by omega)
    have a1 : ((k : ℤ) : ℝ) ≤ a := r.ge_int (by
        rw [abs_of_nonneg (by positivity)]; exact_mod_cast (show k ≤ 2 ^ 53 by omega)) (by
      push_cast; rw [hq, le_div_iff₀ (by linarith)]; exact hkR)
    have z1 : (((k * c : ℕ) : ℤ) : ℝ) ≤ z := r.ge_int (by
        rw [abs_of_nonneg (by positivity)]; exact_mod_cast (show k * c ≤ 2 ^ 53 by omega)) (by
      push_cast at a1 ⊢
      exact mul_le_mul_of_nonneg_right a1 hc0)
    have := Int.le_floor.2 z1
    rw [hx] at this
    exact_mod_cast this

end

section
variable (r : Rounding 53) (rs : Rounding 24) (nf : Option ℝ → Option ℝ → Bool)

/-- The values computed before the `switch` on the schedule. -/
theorem dims_values {cx : CCtx (Option ℝ)} {mr nr L2 L3 nc : Nat} (ok : CacheOK cx mr nr L2 L3 nc)
    (big : 8 * (mr * (mr + 2 * nr)) ≤ L2) (M p : Nat) (hp : 0 < p) :
    ∃ t e c : Nat, IsL2Side nr L2 t ∧
      mcL2 (ieee r rs nf) cx ((ieee r rs nf).ofInt 4) = .ok ((t - t % mr : Nat) : ℤ) ∧
      mcL3 (ieee r rs nf) cx ((ieee r rs nf).ofInt 4) = .ok (e : ℤ) ∧
      clampMc M p cx.mr ((t - t % mr : Nat) : ℤ) = .ok (c : ℤ) ∧
      mr ∣ c ∧ mr ≤ c ∧ c ≤ t - t % mr ∧ t - t % mr ≤ 2 ^ 14 ∧ e ≤ 2 ^ 14 ∧
      (∀ s, mr ∣ s → 8 * (s * s * (nc * (2 + nc))) ≤ L3 → s ≤ e) ∧
      (p * (t - t % mr) ≤ M → c = t - t % mr) := by
  obtain ⟨t, ht⟩ := isL2Side_exists nr L2
  obtain ⟨h2, tlt⟩ := mcL2_val r rs nf cx ok.mr_eq ok.mr_pos ok.nr_eq ok.nr_le ok.l2_eq ok.l2_lt ht
  obtain ⟨t3, h3lt, h3lo, -, h3⟩ := mcL3_val r rs nf cx ok.mr_eq ok.mr_pos ok.l3_eq ok.l3_lt ok.nc_eq ok.nc_pos ok.nc_le
  have hle := le_sub_mod (ht.pos big) ok.mr_pos
  obtain ⟨c, hc, hc1, hc2, hc3⟩ := clampMc_val (M := M) hp ok.mr_pos (sub_mod_dvd t mr) hle
  refine ⟨t, t3 - t3 % mr, c, ht, h2, h3, ?_, hc1, hc2, hc3, by omega, by omega, ?_, ?_⟩
  · rw [ok.mr_eq]; exact hc
  · rintro s ⟨q, rfl⟩ hs
    have h := h3lo _ hs
    have h4 := Nat.div_add_mod t3 mr
    have : q ≤ t3 / mr := (Nat.le_div_iff_mul_le ok.mr_pos).2 (by rw [Nat.mul_comm]; exact h)
    have := Nat.mul_le_mul_left mr this
    omega
  · intro hM
    have : p * mr ≤ M := le_trans (Nat.mul_le_mul_left _ hle) hM
    unfold clampMc at hc
    rw [if_neg (by exact_mod_cast Nat.not_lt.2 this), if_neg (by exact_mod_cast Nat.not_lt.2 hM)] at hc
    injection hc with hc
    omega

/-- A tile as the kernels and the packing code need it. -/
structure ValidTile (mr nr : Nat) (d : CacheDims) : Prop where
  m : ∃ i : Nat, 0 < i ∧ d.m_c = (i * mr : Nat)
  n : ∃ j : Nat, 0 < j ∧ d.n_c = (j * nr : Nat)
  k : 0 < d.k_c

/-- What comes out when the library chooses. -/
theorem dims_auto {cx : CCtx (Option ℝ)} {mr nr L2 L3 nc : Nat} (ok : CacheOK cx mr nr L2 L3 nc)
    (big : 8 * (mr * (mr + 2 * nr)) ≤ L2) (M N K p : Nat) (hp : 0 < p) (hp' : p ≤ 2 ^ 15) (sch : Sched)
    (mcu kcu ncu : Int) (hu : mcu = 0 ∨ ncu = 0 ∨ kcu = 0) :
    ∃ t e c : Nat, ∃ d cx',
      mcL2 (ieee r rs nf) cx ((ieee r rs nf).ofInt 4) = .ok ((t - t % mr : Nat) : ℤ) ∧
      mcL3 (ieee r rs nf) cx ((ieee r rs nf).ofInt 4) = .ok (e : ℤ) ∧ IsL2Side nr L2 t ∧ mr ∣ c ∧ mr ≤ c ∧ c ≤ t - t % mr ∧
      (∀ s, mr ∣ s → 8 * (s * s * (nc * (2 + nc))) ≤ L3 → s ≤ e) ∧ (p * (t - t % mr) ≤ M → c = t - t % mr) ∧
      get_cache_dims (ieee r rs nf) cx M N K p sch ((ieee r rs nf).ofInt 4) mcu kcu ncu = .ok (d, cx') ∧
      ValidTile mr nr d ∧ d.k_c = d.m_c ∧ (d.sch = .KMN ∨ d.sch = .MKN ∨ d.sch = .NKM) ∧
      (sch ≠ .NA → d.sch = sch) ∧ (d.sch ≠ .NKM → d.m_c = c) ∧
      (d.sch = .NKM → e ≤ t - t % mr → d.m_c ≤ c) ∧
      (d.sch = .NKM → ∀ k, 0 < k → k ≤ 2 ^ 10 → k * (t - t % mr) ≤ e → (k * c : Nat) ≤ d.m_c) ∧
      (d.sch = .NKM → ∃ j : Nat, 0 < j ∧ d.n_c = (j * nr : Nat) ∧ (c < (j + 1) * nr)) := by
  obtain ⟨t, e, c, ht, h2, h3, hc, hd, hge, hle, hT, hE, hlo, hcM⟩ := dims_values r rs nf ok big M p hp
  have hpos : 0 < t - t % mr := by have := ok.mr_pos; omega
  have hu' : ¬ (mcu ≠ 0 ∧ ncu ≠ 0 ∧ kcu ≠ 0) := by rintro ⟨a, b, c⟩; rcases hu with h | h | h <;> contradiction
  obtain ⟨x, hx, -, -⟩ := alpha_mul r rs nf hE hpos hle hT hp'
  obtain ⟨x', hx', hxle, hxge⟩ := alpha_mul' r rs nf hE hpos hle hT
  have hci : ∃ i, 0 < i ∧ c = i * mr := by
    obtain ⟨i, rfl⟩ := hd
    refine ⟨i, Nat.pos_of_ne_zero ?_, Nat.mul_comm _ _⟩
    rintro rfl
    have := ok.mr_pos
    omega
  obtain ⟨i, hi, hci⟩ := hci
  obtain ⟨j, hj, hjv, -, -⟩ := roundDown_val (x := x) ok.nr_pos
  obtain ⟨j', hj', hjv', -, hjb⟩ := roundDown_val (x := c) ok.nr_pos
  obtain ⟨i', hi', hiv', hib, hib'⟩ := roundDown_val (x := x') ok.mr_pos
  have pos_k : 0 < ((c : ℕ) : ℤ) := by have := ok.mr_pos; omega
  generalize hcx : ({ cx with alpha_n := (ieee r rs nf).div ((ieee r rs nf).ofInt (e : ℤ)) ((ieee r rs nf).ofInt ((t - t % mr : Nat) : ℤ)) } : CCtx (Option ℝ)) = cx1
  generalize hs : (if sch = .NA then derive_schedule (ieee r rs nf) cx1 M N K p c else sch) = s
  have hs3 : s = .KMN ∨ s = .MKN ∨ s = .NKM := by
    subst hs
    split
    · simp only [derive_schedule]
      split
      · exact Or.inr (Or.inl rfl)
      · split
        · exact Or.inr (Or.inr rfl)
        · exact Or.inl rfl
    · rename_i h
      revert h
      cases sch <;> simp
  have hkeep : sch ≠ .NA → s = sch := by intro h; rw [← hs, if_neg h]
  have run : get_cache_dims (ieee r rs nf) cx M N K p sch ((ieee r rs nf).ofInt 4) mcu kcu ncu =
      (match (generalizing := false) s with
      | .KMN => do
        let t ← .ok (x : ℤ)
        let nc_ret ← roundDown t cx.nr
        pure (⟨c, c, nc_ret, s⟩, cx1)
      | .MKN => do
        let t ← .ok (x : ℤ)
        let nc_ret ← roundDown t cx.nr
        pure (⟨c, c, nc_ret, s⟩, cx1)
      | .NKM => do
        let nc_ret ← roundDown c cx.nr
        let t ← .ok (x' : ℤ)
        let mc_ret ← roundDown t cx.mr
        pure (⟨mc_ret, mc_ret, nc_ret, s⟩, cx1)
      | .NA => .error .exit) := by
    unfold get_cache_dims
    rw [h2, h3]
    simp only [bind, Except.bind]
    rw [hc]
    simp only [hcx]
    rw [hs, if_neg hu', hx, hx']
    clear hs hs3 hkeep
    cases s <;> rfl
  rw [ok.nr_eq, ok.mr_eq] at run
  rcases hs3 with rfl | rfl | rfl
  · refine ⟨t, e, c, ⟨c, c, (j * nr : Nat), .KMN⟩, cx1, h2, h3, ht, hd, hge, hle, hlo, hcM, run.trans ?_, ?_⟩
    · simp only [bind, Except.bind]
      rw [hjv]
      rfl
    exact ⟨⟨⟨i, hi, by rw [hci]⟩, ⟨j, hj, rfl⟩, pos_k⟩, rfl, by simp, fun h => hkeep h, by simp, by simp, by simp, by simp⟩
  · refine ⟨t, e, c, ⟨c, c, (j * nr : Nat), .MKN⟩, cx1, h2, h3, ht, hd, hge, hle, hlo, hcM, run.trans ?_, ?_⟩
    · simp only [bind, Except.bind]
      rw [hjv]
      rfl
    exact ⟨⟨⟨i, hi, by rw [hci]⟩, ⟨j, hj, rfl⟩, pos_k⟩, rfl, by simp, fun h => hkeep h, by simp, by simp, by simp, by simp⟩
  · refine ⟨t, e, c, ⟨(i' * mr : Nat), (i' * mr : Nat), (j' * nr : Nat), .NKM⟩, cx1, h2, h3, ht, hd, hge, hle, hlo, hcM, run.trans ?_, ?_⟩
    · simp only [bind, Except.bind]
      rw [hjv', hiv']
      rfl
    refine ⟨⟨⟨i', hi', rfl⟩, ⟨j', hj', rfl⟩, ?_⟩, rfl, by simp, fun h => hkeep h, by simp, ?_, ?_, ?_⟩
    · have := Nat.mul_pos hi' ok.mr_pos
      show (0 : ℤ) < ((i' * mr : ℕ) : ℤ)
      omega
    · intro _ hed
      show ((i' * mr : ℕ) : ℤ) ≤ c
      have := hxle hed
      rcases hib with h | rfl
      · omega
      · omega
    · intro _ k _ hk hke
      show ((k * c : ℕ) : ℤ) ≤ ((i' * mr : ℕ) : ℤ)
      have h := hxge k hk hke
      have h4 : k * c < (i' + 1) * mr := lt_of_le_of_lt h hib'
      rw [hci, ← Nat.mul_assoc] at h4 ⊢
      have := Nat.lt_of_mul_lt_mul_right h4
      have := Nat.mul_le_mul_right mr (Nat.le_of_lt_succ this)
      exact_mod_cast this
    · intro _
      exact ⟨j', hj', rfl, hjb⟩

end

/-! ### Facts that hold for any floating-point operations -/

/-- Not "exit", and `Q` of the value if there is one. -/
def NoExit {β : Type _} (x : Except Fail β) (Q : β → Prop) : Prop := match x with
  | .ok v => Q v
  | .error e => e ≠ .exit

theorem NoExit.ne {β : Type _} {x : Except Fail β} {Q : β → Prop} (h : NoExit x Q) : x ≠ .error .exit := by
  rintro rfl; exact h rfl

theorem NoExit.of_ok {β : Type _} {x : Except Fail β} {Q : β → Prop} (h : NoExit x Q) {v : β} (e : x = .ok v) : Q v := by
  subst e; exact h

theorem NoExit.bind {β γ : Type _} {x : Except Fail β} {f : β → Except Fail γ} {Q : γ → Prop}
    (hx : NoExit x (fun b => NoExit (f b) Q)) : NoExit (x >>= f) Q := by
  cases x with
  | error e => exact hx
  | ok b => exact hx

theorem NoExit.mono {β : Type _} {x : Except Fail β} {P Q : β → Prop} (h : NoExit x P) (hq : ∀ v, P v → Q v) :
    NoExit x Q := by
  cases x with
  | error e => exact h
  | ok b => exact hq _ h

theorem NoExit.all {β γ : Type _} {x : Except Fail β} {f : β → Except Fail γ} {Q : γ → Prop}
    (hx : NoExit x (fun _ => True)) (hf : ∀ b, NoExit (f b) Q) : NoExit (x >>= f) Q :=
  NoExit.bind (hx.mono fun b _ => hf b)

section
variable {D : Type _} (fl : Flt D)

theorem cInt_noExit (x : D) : NoExit (cInt fl x) fun _ => True := by
  unfold cInt; split <;> simp [NoExit]

theorem cMod_noExit (a b : Int) : NoExit (cMod a b) fun _ => True := by
  unfold cMod; split <;> simp [NoExit]

theorem cDiv_noExit (a b : Int) : NoExit (cDiv a b) fun _ => True := by
  unfold cDiv; split <;> simp [NoExit]

theorem mcL2_noExit (cx : CCtx D) (ts : D) : NoExit (mcL2 fl cx ts) fun _ => True :=
  .all (cInt_noExit fl _) fun _ => .all (cMod_noExit _ _) fun _ => trivial

theorem mcL3_noExit (cx : CCtx D) (ts : D) : NoExit (mcL3 fl cx ts) fun _ => True :=
  .all (cInt_noExit fl _) fun _ => .all (cMod_noExit _ _) fun _ => trivial

theorem roundDown_noExit (x u : Int) : NoExit (roundDown x u) fun _ => True :=
  .all (cMod_noExit _ _) fun _ => trivial

theorem clampMc_noExit (M p mr mc : Int) : NoExit (clampMc M p mr mc) fun _ => True := by
  unfold clampMc
  split
  · trivial
  split
  · refine .all (cDiv_noExit _ _) fun a => ?_
    split
    · trivial
    · exact .all (cMod_noExit _ _) fun _ => trivial
  · trivial

theorem get_cache_dims_noExit (cx : CCtx D) (M N K p : Int) (sch : Sched) (ts : D) (mcu kcu ncu : Int) :
    NoExit (get_cache_dims fl cx M N K p sch ts mcu kcu ncu) fun v =>
      (sch ≠ .NA → v.1.sch = sch) ∧ (v.1.sch = .KMN ∨ v.1.sch = .MKN ∨ v.1.sch = .NKM) ∧
      { cx with alpha_n := v.2.alpha_n } = v.2 := by
  refine .all (mcL2_noExit fl cx ts) fun a => .all (mcL3_noExit fl cx ts) fun b => ?_
  refine .all (clampMc_noExit _ _ _ _) fun c => ?_
  simp only
  generalize hs : (if sch = Sched.NA then _ else sch) = s
  have hs3 : s = .KMN ∨ s = .MKN ∨ s = .NKM := by
    subst hs
    split
    · simp only [derive_schedule]
      split
      · exact Or.inr (Or.inl rfl)
      · split
        · exact Or.inr (Or.inr rfl)
        · exact Or.inl rfl
    · rename_i h
      revert h
      cases sch <;> simp
  have hkeep : sch ≠ .NA → s = sch := by intro h; rw [← hs, if_neg h]
  clear hs
  split
  · exact ⟨hkeep, hs3, rfl⟩
  · rcases hs3 with rfl | rfl | rfl
    · exact .all (cInt_noExit fl _) fun _ => .all (roundDown_noExit _ _) fun _ => ⟨hkeep, by simp, rfl⟩
    · exact .all (cInt_noExit fl _) fun _ => .all (roundDown_noExit _ _) fun _ => ⟨hkeep, by simp, rfl⟩
    · exact .all (roundDown_noExit _ _) fun _ => .all (cInt_noExit fl _) fun _ => .all (roundDown_noExit _ _) fun _ =>
        ⟨hkeep, by simp, rfl⟩

theorem cake_sgemm_isSome {α : Type _} (nz : α → Bool) (cx : Cntx) (A B C : Loc) (M N K p : Nat)
    (packedA packedB : Bool) (alpha beta : α) (m_c k_c n_c : Nat) {sch : Sched}
    (h : sch = .KMN ∨ sch = .MKN ∨ sch = .NKM) :
    ∃ prog, cake_sgemm nz cx A B C M N K p packedA packedB alpha beta m_c k_c n_c sch = some prog := by
  rcases h with rfl | rfl | rfl <;> exact ⟨_, rfl⟩

theorem view_noExit (mc : Machine) (cx : CCtx D) : NoExit (cx.view mc) fun _ => True := by
  unfold CCtx.view; split <;> simp [NoExit]

theorem sgemm_api_noExit {α : Type _} (nz : α → Bool) (mc : Machine) (cntx : Option (CCtx D))
    (A B C : Loc) (a : Args α) : NoExit (sgemm_api fl nz mc cntx A B C a) fun v =>
      { cntx.getD (query_cntx fl mc) with alpha_n := v.2.alpha_n } = v.2 := by
  unfold sgemm_api
  refine .bind ((get_cache_dims_noExit fl _ _ _ _ _ _ _ _ _ _).mono ?_)
  rintro ⟨d, cx'⟩ ⟨-, hs, hcx⟩
  simp only
  refine .all (view_noExit mc cx') fun v => ?_
  split
  · simp [NoExit]
  · obtain ⟨prog, hp⟩ := cake_sgemm_isSome nz v A B C a.M a.N a.K a.p a.packedA a.packedB a.alpha a.beta d.m_c.toNat
      d.k_c.toNat d.n_c.toNat hs
    rw [hp]
    exact hcx

theorem sgemm_api_alpha {α : Type _} (nz : α → Bool) (mc : Machine) (A B C : Loc) (a : Args α) {cx cx' : CCtx D}
    (h : cx' = { cx with alpha_n := cx'.alpha_n }) :
    sgemm_api fl nz mc (some cx') A B C a = sgemm_api fl nz mc (some cx) A B C a := by
  rw [h]
  rfl

end

end Cake
