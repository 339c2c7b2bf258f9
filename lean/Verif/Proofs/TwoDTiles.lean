/-
Values of the 2-D tile sizes under IEEE arithmetic.
-/
import Verif.Model.TwoDApi
import Verif.Proofs.CacheDims

namespace Cake

section
variable (r : Rounding 53) (rs : Rounding 24) (nf : Option ℝ → Option ℝ → Bool)

theorem toFloat_val (n : Int) (h : |n| ≤ 2 ^ 24) : toFloat (ieee r rs nf) n = some (n : ℝ) := by
  unfold toFloat
  simp only [ieee, Option.bind_some]
  rw [r.int n (h.trans (by norm_num)), rs.int n h]

/-- A quotient of integers below `2^22`, rounded to double and to single, keeps its integer part. -/
theorem quot_floor {n d : Nat} (hd : 0 < d) (hd' : d ≤ 2 ^ 22) (hn : n ≤ 2 ^ 22) :
    ((n / d : Nat) : ℝ) ≤ rs.rnd (r.rnd ((n : ℝ) / d)) ∧ rs.rnd (r.rnd ((n : ℝ) / d)) < ((n / d : Nat) : ℝ) + 1 := by
  have hdR : (0 : ℝ) < d := by exact_mod_cast hd
  have hq : n / d ≤ 2 ^ 22 := (Nat.div_le_self _ _).trans hn
  constructor
  · have h1 : ((n / d : Nat) : ℝ) ≤ (n : ℝ) / d := Nat.cast_div_le
    have h2 : ((n / d : Nat) : ℝ) ≤ r.rnd ((n : ℝ) / d) := by
      rw [← r.nat (n / d) (by omega)]; exact r.mono h1
    rw [← rs.nat (n / d) (by omega)]
    exact rs.mono h2
  · rcases Nat.eq_zero_or_pos n with h0 | h0
    · subst h0
      simp [r.zero, rs.zero]
    have hnR : (1 : ℝ) ≤ n := by exact_mod_cast h0
    have hnb : (n : ℝ) ≤ 4194304 := by exact_mod_cast (show n ≤ 4194304 by omega)
    have hdb : (d : ℝ) ≤ 4194304 := by exact_mod_cast (show d ≤ 4194304 by omega)
    have hd1 : (1 : ℝ) ≤ d := by exact_mod_cast hd
    set x : ℝ := (n : ℝ) / d with hx
    have x0 : 0 < x := by positivity
    have xlo : (1 : ℝ) / 4194304 ≤ x := by
      rw [hx, div_le_div_iff₀ (by norm_num) hdR]; nlinarith
    have xhi : x ≤ 4194304 := by
      rw [hx, div_le_iff₀ hdR]; nlinarith
    -- the exact quotient stays `1/d` below the next integer
    have hlt : x ≤ ((n / d : Nat) : ℝ) + 1 - 1 / d := by
      have : n + 1 ≤ (n / d + 1) * d := by
        have := Nat.div_add_mod n d
        have := Nat.mod_lt n hd
        rw [Nat.add_mul, Nat.mul_comm (n / d)]; omega
      have h' : (n : ℝ) + 1 ≤ (((n / d : Nat) : ℝ) + 1) * d := by exact_mod_cast this
      rw [hx, div_le_iff₀ hdR]
      have : (((n / d : Nat) : ℝ) + 1 - 1 / d) * d = (((n / d : Nat) : ℝ) + 1) * d - 1 := by
        field_simp
      rw [this]; linarith
    have e1 := r.err x (by rw [abs_of_pos x0]; refine le_trans ?_ xlo; norm_num)
      (by rw [abs_of_pos x0]; exact xhi.trans (by norm_num))
    rw [abs_of_pos x0] at e1
    set y := r.rnd x with hy
    have y1 := (abs_le.1 e1).1
    have y2 := (abs_le.1 e1).2
    have ylo : (1 : ℝ) / 8388608 ≤ y := by
      norm_num at y1 xlo ⊢; linarith
    have yhi : y ≤ 8388608 := by
      norm_num at y2 xhi ⊢; linarith
    have y0 : 0 < y := lt_of_lt_of_le (by norm_num) ylo
    have e2 := rs.err y (by rw [abs_of_pos y0]; refine le_trans ?_ ylo; norm_num)
      (by rw [abs_of_pos y0]; exact yhi.trans (by norm_num))
    rw [abs_of_pos y0] at e2
    have z2 := (abs_le.1 e2).2
    have hbd : rs.rnd y ≤ x + x / 4194304 * (1 / 2) := by
      norm_num at y2 z2 ⊢; linarith
    have hxd : x / 4194304 ≤ 1 / d := by
      rw [hx, div_div, div_le_div_iff₀ (by positivity) hdR]
      nlinarith
    have : (0 : ℝ) < 1 / d := by positivity
    linarith

/-- `kc_max`, for a cache of a whole number of floats with room for one register tile. -/
theorem kcMax_val {l mr nr : Nat} (hd : 0 < mr + nr) (hl : l ≤ 2 ^ 22) (h : mr * nr ≤ l) (hs : mr + nr ≤ 2 ^ 22) :
    kcMax (ieee r rs nf) ((4 * l : Nat) : ℤ) mr nr ((ieee r rs nf).ofInt 4) =
      .ok (((l - mr * nr) / (mr + nr) : Nat) : ℤ) := by
  unfold kcMax
  rw [toFloat_val r rs nf _ (by rw [abs_of_nonneg (by positivity)]; norm_cast; omega),
    toFloat_val r rs nf _ (by rw [abs_of_nonneg (by positivity)]; norm_cast; omega),
    toFloat_val r rs nf _ (by rw [abs_of_nonneg (by positivity)]; norm_cast; omega)]
  have e4 : r.rnd ((4 : ℤ) : ℝ) = 4 := by rw [r.int 4 (by norm_num)]; norm_num
  have el : ((4 * l : Nat) : ℝ) / 4 = l := by push_cast; ring
  have e1 : r.rnd (l : ℝ) = l := r.nat l (by omega)
  have e2 : rs.rnd (l : ℝ) = l := rs.nat l (by omega)
  have es : (l : ℝ) - ((mr : ℝ) * nr) = ((l - mr * nr : Nat) : ℝ) := by
    rw [Nat.cast_sub h]; push_cast; ring
  have e3 : r.rnd ((l - mr * nr : Nat) : ℝ) = ((l - mr * nr : Nat) : ℝ) := r.nat _ (by omega)
  have e5 : rs.rnd ((l - mr * nr : Nat) : ℝ) = ((l - mr * nr : Nat) : ℝ) := rs.nat _ (by omega)
  have hne : ((mr : ℝ) + nr) ≠ 0 := by
    have : (0 : ℝ) < (mr + nr : Nat) := by exact_mod_cast hd
    push_cast at this; exact ne_of_gt this
  have hq := quot_floor r rs (n := l - mr * nr) (d := mr + nr) hd hs (by omega)
  have hexpr : (ieee r rs nf).single ((ieee r rs nf).div ((ieee r rs nf).single ((ieee r rs nf).sub
      ((ieee r rs nf).single ((ieee r rs nf).div (some (((4 * l : Nat) : ℤ) : ℝ)) ((ieee r rs nf).ofInt 4)))
      (some (((mr : ℤ) * (nr : ℤ) : ℤ) : ℝ)))) (some (((mr : ℤ) + (nr : ℤ) : ℤ) : ℝ))) =
      some (rs.rnd (r.rnd (((l - mr * nr : Nat) : ℝ) / ((mr + nr : Nat) : ℝ)))) := by
    simp only [ieee, Option.bind_some]
    rw [e4, if_neg (by norm_num), Option.bind_some, Option.bind_some]
    have c1 : (((4 * l : Nat) : ℤ) : ℝ) = ((4 * l : Nat) : ℝ) := by norm_cast
    have c2 : (((mr : ℤ) * (nr : ℤ) : ℤ) : ℝ) = (mr : ℝ) * nr := by norm_cast
    have c3 : (((mr : ℤ) + (nr : ℤ) : ℤ) : ℝ) = (mr : ℝ) + nr := by norm_cast
    rw [c1, c2, c3, el, e1, e2, es, e3, Option.bind_some, e5, Option.bind_some, if_neg hne, Option.bind_some]
    push_cast
    rfl
  rw [hexpr]
  have hb : (l - mr * nr) / (mr + nr) ≤ l - mr * nr := Nat.div_le_self _ _
  refine cInt_some r rs nf ?_ ?_ (by positivity) (by norm_cast; omega)
  · exact_mod_cast hq.1
  · exact_mod_cast hq.2

/-- The largest `t` with `t*t + t*nr + t*t` elements of 4 bytes within `L2`. -/
def IsL2Side2 (nr L2 t : Nat) : Prop := 4 * (t * (2 * t + nr)) ≤ L2 ∧ L2 < 4 * ((t + 1) * (2 * (t + 1) + nr))

theorem isL2Side2_exists (nr L2 : Nat) : ∃ t, IsL2Side2 nr L2 t := by
  have : ∀ B, L2 < 4 * (B * (2 * B + nr)) → ∃ t, IsL2Side2 nr L2 t := by
    intro B
    induction B with
    | zero => intro h; simp at h
    | succ B ih =>
      intro h
      by_cases h' : L2 < 4 * (B * (2 * B + nr))
      · exact ih h'
      · exact ⟨B, by omega, h⟩
  refine this (L2 + 1) ?_
  have : L2 + 1 ≤ (L2 + 1) * (2 * (L2 + 1) + nr) := Nat.le_mul_of_pos_right _ (by omega)
  omega

theorem IsL2Side2.pos {mr nr L2 t : Nat} (ht : IsL2Side2 nr L2 t) (h : 4 * (mr * (2 * mr + nr)) ≤ L2) : mr ≤ t := by
  by_contra hlt
  have : (t + 1) * (2 * (t + 1) + nr) ≤ mr * (2 * mr + nr) := Nat.mul_le_mul (by omega) (by omega)
  have := ht.2
  omega

theorem IsL2Side2.fits {nr L2 t c : Nat} (ht : IsL2Side2 nr L2 t) (h : c ≤ t) : 4 * (c * (2 * c + nr)) ≤ L2 := by
  have : c * (2 * c + nr) ≤ t * (2 * t + nr) := Nat.mul_le_mul (by omega) (by omega)
  have := ht.1
  omega

theorem autoMc2d_val (cx : CCtx (Option ℝ)) {mr nr L2 t : Nat} (hmr : cx.mr = mr) (hm : 0 < mr) (hnr : cx.nr = nr)
    (hn : nr ≤ 2 ^ 10) (hL2 : cx.L2 = L2) (hL : L2 < 2 ^ 31) (ht : IsL2Side2 nr L2 t) :
    autoMc2d (ieee r rs nf) cx = .ok ((t - t % mr : Nat) : ℤ) ∧ t < 2 ^ 15 := by
  obtain ⟨h1, h2⟩ := ht
  have tlt : t < 2 ^ 15 := by
    by_contra h
    have : 2 ^ 15 * 2 ^ 15 ≤ t * (2 * t + nr) := Nat.mul_le_mul (by omega) (by omega)
    omega
  refine ⟨?_, tlt⟩
  -- exact integers
  have eB : r.rnd (((-cx.nr : ℤ)) : ℝ) = -nr := by
    rw [r.int _ (by rw [hnr, abs_neg, abs_of_nonneg (by positivity)]; norm_cast; omega), hnr]
    push_cast; ring
  have eN : r.rnd ((cx.nr : ℤ) : ℝ) = nr := by
    rw [hnr]
    have := r.nat nr (by omega)
    exact_mod_cast this
  have eN' : r.rnd (nr : ℝ) = nr := r.nat nr (by omega)
  have eBB : r.rnd ((nr : ℝ) * nr) = nr * nr := by
    have : nr * nr ≤ 2 ^ 10 * 2 ^ 10 := Nat.mul_le_mul hn hn
    have := r.nat (nr * nr) (by omega)
    push_cast at this; exact this
  have eL : r.rnd ((cx.L2 : ℤ) : ℝ) = L2 := by
    rw [hL2]
    have := r.nat L2 (by omega)
    exact_mod_cast this
  have e1 : r.rnd ((1 : ℤ) : ℝ) = 1 := by rw [r.int 1 (by norm_num)]; norm_num
  have e4 : r.rnd ((4 : ℤ) : ℝ) = 4 := by rw [r.int 4 (by norm_num)]; norm_num
  have e2 : r.rnd ((2 : ℤ) : ℝ) = 2 := by rw [r.int 2 (by norm_num)]; norm_num
  have e22 : r.rnd ((2 : ℝ) * 2) = 4 := by
    have := r.nat 4 (by norm_num)
    norm_num at this ⊢; exact this
  have e42 : r.rnd ((4 : ℝ) * 2) = 8 := by
    have := r.nat 8 (by norm_num)
    norm_num at this ⊢; exact this
  set X : ℝ := (L2 : ℝ) / 4 with hX
  set x1 := r.rnd X with hx1
  set x2 := r.rnd (8 * x1) with hx2
  set S := r.rnd (nr * nr + x2) with hS
  set q := r.rnd (Real.sqrt S) with hq
  set w := r.rnd (-(nr : ℝ) + q) with hw
  set z := r.rnd (w / 4) with hz
  have hL' : (L2 : ℝ) < 2147483648 := by exact_mod_cast (show L2 < 2147483648 by omega)
  have hnR : (nr : ℝ) ≤ 1024 := by exact_mod_cast (show nr ≤ 1024 by omega)
  have hn0 : (0 : ℝ) ≤ nr := by positivity
  have htR : (t : ℝ) < 32768 := by exact_mod_cast (show t < 32768 by omega)
  have ht0 : (0 : ℝ) ≤ t := by positivity
  have hX0 : 0 ≤ X := by positivity
  have hXb : X ≤ 2 ^ 29 := by
    rw [hX, div_le_iff₀ (by norm_num)]
    norm_num
    linarith
  have b1 : (4 * ((t : ℝ) * (2 * t + nr))) ≤ L2 := by exact_mod_cast h1
  have b2 : (L2 : ℝ) + 1 ≤ 4 * (((t : ℝ) + 1) * (2 * (t + 1) + nr)) := by exact_mod_cast h2
  -- lower bounds
  have tt : t * (2 * t + nr) ≤ 2 ^ 15 * 2 ^ 17 := Nat.mul_le_mul (by omega) (by omega)
  have l1 : ((t * (2 * t + nr) : ℕ) : ℤ) ≤ x1 := r.ge_int (by
      rw [abs_of_nonneg (by positivity)]
      exact_mod_cast (tt.trans (by norm_num)))
    (by push_cast; rw [hX, le_div_iff₀ (by norm_num)]; linarith)
  have l2 : ((8 * (t * (2 * t + nr)) : ℕ) : ℤ) ≤ x2 := r.ge_int (by
      rw [abs_of_nonneg (by positivity)]
      exact_mod_cast (show 8 * (t * (2 * t + nr)) ≤ 2 ^ 53 by omega))
    (by push_cast at l1 ⊢; linarith)
  have l3 : (((4 * t + nr) * (4 * t + nr) : ℕ) : ℤ) ≤ S := r.ge_int (by
      rw [abs_of_nonneg (by positivity)]
      have : (4 * t + nr) * (4 * t + nr) ≤ 2 ^ 18 * 2 ^ 18 := Nat.mul_le_mul (by omega) (by omega)
      exact_mod_cast (this.trans (by norm_num)))
    (by push_cast at l2 ⊢; nlinarith)
  have l4 : ((4 * t + nr : ℕ) : ℤ) ≤ q := r.ge_int (by
      rw [abs_of_nonneg (by positivity)]
      exact_mod_cast (show 4 * t + nr ≤ 2 ^ 53 by omega))
    (by
      apply Real.le_sqrt_of_sq_le
      push_cast at l3 ⊢
      nlinarith)
  have l5 : ((4 * t : ℕ) : ℤ) ≤ w := r.ge_int (by
      rw [abs_of_nonneg (by positivity)]
      exact_mod_cast (show 4 * t ≤ 2 ^ 53 by omega))
    (by push_cast at l4 ⊢; linarith)
  have l6 : ((t : ℕ) : ℤ) ≤ z := r.ge_int (by
      rw [abs_of_nonneg (by positivity)]
      exact_mod_cast (show t ≤ 2 ^ 53 by omega))
    (by push_cast at l5 ⊢; linarith)
  -- upper bounds
  have x10 : 0 ≤ x1 := r.nonneg hX0
  have u1 : x1 ≤ X + 2 ^ 29 / 2 ^ 52 := r.le_add hX0 hXb (by norm_num) (by norm_num)
  have x20 : 0 ≤ x2 := r.nonneg (by positivity)
  have u2 : x2 ≤ 8 * x1 + 2 ^ 33 / 2 ^ 52 := r.le_add (by positivity) (by norm_num at u1 hXb ⊢; linarith)
    (by norm_num) (by norm_num)
  have nn : (nr : ℝ) * nr ≤ 2 ^ 20 := by
    have : (nr : ℝ) ≤ 2 ^ 10 := by norm_num; linarith
    calc (nr : ℝ) * nr ≤ 2 ^ 10 * 2 ^ 10 := mul_le_mul this this (by positivity) (by positivity)
      _ = 2 ^ 20 := by norm_num
  have u3 : S ≤ nr * nr + x2 + 2 ^ 34 / 2 ^ 52 := r.le_add (by positivity)
    (by norm_num at u1 u2 hXb nn ⊢; linarith) (by norm_num) (by norm_num)
  have S0 : 0 ≤ S := r.nonneg (by positivity)
  set T : ℝ := 4 * (t + 1) + nr with hT
  have hT2 : T ≤ 2 ^ 18 := by norm_num; linarith
  have hTpos : 4 ≤ T := by linarith
  have hS' : S ≤ T * T - 1 := by
    have e : T * T = nr * nr + 8 * (((t : ℝ) + 1) * (2 * (t + 1) + nr)) := by rw [hT]; ring
    rw [e]
    have : X ≤ ((t : ℝ) + 1) * (2 * (t + 1) + nr) - 1 / 4 := by
      rw [hX, div_le_iff₀ (by norm_num)]; linarith
    norm_num at u1 u2 u3 ⊢
    linarith
  have u4 : Real.sqrt S ≤ T - 1 / 2 ^ 20 := by
    apply Real.sqrt_le_iff.2
    constructor
    · norm_num; linarith
    · have e : (T - 1 / 2 ^ 20) ^ 2 = T * T - 2 * (T / 2 ^ 20) + (1 / 2 ^ 20) ^ 2 := by ring
      have e' : T / 2 ^ 20 ≤ 1 / 4 := by
        rw [div_le_iff₀ (by norm_num)]
        norm_num at hT2 ⊢
        exact hT2
      have e'' : (0 : ℝ) ≤ (1 / 2 ^ 20) ^ 2 := by positivity
      rw [e]
      linarith
  have u5 : q ≤ Real.sqrt S + 2 ^ 18 / 2 ^ 52 := r.le_add (Real.sqrt_nonneg _) (by norm_num at u4 hT2 ⊢; linarith)
    (by norm_num) (by norm_num)
  have l4' : (4 * (t : ℝ) + nr) ≤ q := by push_cast at l4; exact l4
  have u6 : w ≤ (-(nr : ℝ) + q) + 2 ^ 19 / 2 ^ 52 := r.le_add (by linarith)
    (by norm_num at u4 u5 hT2 ⊢; linarith) (by norm_num) (by norm_num)
  have l5' : 4 * (t : ℝ) ≤ w := by push_cast at l5; exact l5
  have u7 : z ≤ w / 4 + 2 ^ 19 / 2 ^ 52 := r.le_add (by linarith)
    (by norm_num at u4 u5 u6 hT2 ⊢; linarith) (by norm_num) (by norm_num)
  have u8 : z < ((t : ℕ) : ℤ) + 1 := by
    push_cast
    norm_num at u4 u5 u6 u7 ⊢
    linarith
  have hci := cInt_some r rs nf l6 u8 (by positivity) (by exact_mod_cast (show t < 2 ^ 31 by omega))
  have hexpr : (ieee r rs nf).div ((ieee r rs nf).add ((ieee r rs nf).ofInt (-cx.nr))
      ((ieee r rs nf).sqrt ((ieee r rs nf).add ((ieee r rs nf).mul ((ieee r rs nf).mul ((ieee r rs nf).ofInt 1)
        ((ieee r rs nf).ofInt cx.nr)) ((ieee r rs nf).ofInt cx.nr))
        ((ieee r rs nf).mul ((ieee r rs nf).mul ((ieee r rs nf).ofInt 4) ((ieee r rs nf).ofInt 2))
          ((ieee r rs nf).div ((ieee r rs nf).ofInt cx.L2) ((ieee r rs nf).ofInt 4))))))
      ((ieee r rs nf).mul ((ieee r rs nf).ofInt 2) ((ieee r rs nf).ofInt 2)) = some z := by
    simp only [ieee, Option.bind_some]
    rw [eB, eN, eL, e1, e4, e2, one_mul, eN', eBB, e42, e22, if_neg (by norm_num), Option.bind_some, ← hX, ← hx1,
      Option.bind_some, ← hx2, Option.bind_some, ← hS, if_neg (not_lt.2 S0), ← hq, Option.bind_some, Option.bind_some,
      if_neg (by norm_num)]
  unfold autoMc2d
  simp only
  rw [hexpr, hci]
  show (do let r ← cMod _ _; pure _) = _
  unfold cMod
  rw [hmr, if_neg (by omega)]
  show Except.ok _ = _
  congr 1
  rw [Int.tmod_eq_emod_of_nonneg (by positivity)]
  have : t % mr ≤ t := Nat.mod_le _ _
  push_cast [Nat.cast_sub this]
  rfl

end
end Cake
