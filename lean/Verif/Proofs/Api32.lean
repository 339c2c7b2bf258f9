/-
The checked choice of the tile sizes agrees with the one over unbounded integers, and the tile sizes it chooses are small.
-/
import Verif.Model.Api32
import Verif.Proofs.Api
import Verif.Proofs.CheckedPos

namespace Cake
open List

/-- If the first computation is defined, the second one has the same value. -/
def Refines {β : Type _} (x y : Except Fail β) : Prop := ∀ v, x = .ok v → y = .ok v

theorem Refines.rfl {β : Type _} {x : Except Fail β} : Refines x x := fun _ h => h

theorem Refines.bind {β γ : Type _} {x y : Except Fail β} {f g : β → Except Fail γ} (h : Refines x y)
    (hf : ∀ b, Refines (f b) (g b)) : Refines (x >>= f) (y >>= g) := by
  intro v hv
  cases x with
  | error e => simp [Bind.bind, Except.bind] at hv
  | ok b =>
    rw [h b _root_.rfl]
    exact hf b v hv

theorem Refines.bind_ok {β γ : Type _} {x y : Except Fail β} {f g : β → Except Fail γ} (h : Refines x y)
    (hf : ∀ b, y = .ok b → Refines (f b) (g b)) : Refines (x >>= f) (y >>= g) := by
  intro v hv
  cases x with
  | error e => simp [Bind.bind, Except.bind] at hv
  | ok b =>
    rw [h b _root_.rfl]
    exact hf b (h b _root_.rfl) v hv

theorem Refines.ite {β : Type _} {c : Prop} [Decidable c] {x y x' y' : Except Fail β} (h : Refines x y) (h' : Refines x' y') :
    Refines (if c then x else x') (if c then y else y') := by
  split
  · exact h
  · exact h'

/-- An `int` operation in the checked version. -/
theorem Refines.int {β : Type _} {v : Int} {f : Int → Except Fail β} {y : Except Fail β} (h : Refines (f v) y) :
    Refines (int32 v >>= f) y := by
  intro w hw
  unfold int32 at hw
  split at hw
  · exact h w hw
  · simp [Bind.bind, Except.bind] at hw

theorem Refines.int' {v : Int} : Refines (int32 v) (pure v) := by
  intro w hw
  unfold int32 at hw
  split at hw
  · exact hw
  · simp at hw

theorem ref_cDiv (a b : Int) : Refines (cDiv32 a b) (cDiv a b) := by
  unfold cDiv32 cDiv
  exact .ite .rfl .int'

theorem ref_cMod (a b : Int) : Refines (cMod32 a b) (cMod a b) := by
  unfold cMod32 cMod
  exact .ite .rfl (.int .rfl)

theorem ref_roundDown (a b : Int) : Refines (roundDown32 a b) (roundDown a b) := by
  unfold roundDown32 roundDown
  exact .bind (ref_cMod _ _) fun m => .int .rfl

theorem ref_clampMc (M p mr mc : Int) : Refines (clampMc32 M p mr mc) (clampMc M p mr mc) := by
  unfold clampMc32 clampMc
  refine .int (.ite .rfl (.int (.ite (.bind (ref_cDiv _ _) fun a => .ite .rfl (.bind (ref_cMod _ _) fun r => .int .int')) .rfl)))

section
variable {D : Type _} (fl : Flt D)

theorem ref_mcL2 (cx : CCtx D) (ts : D) : Refines (mcL2_32 fl cx ts) (mcL2 fl cx ts) := by
  unfold mcL2_32 mcL2
  exact .int (.int (.int (.bind .rfl fun x => .bind (ref_cMod _ _) fun r => .int')))

theorem ref_mcL3 (cx : CCtx D) (ts : D) : Refines (mcL3_32 fl cx ts) (mcL3 fl cx ts) := by
  unfold mcL3_32 mcL3
  exact .bind .rfl fun x => .bind (ref_cMod _ _) fun r => .int'

theorem ref_get_cache_dims (cx : CCtx D) (M N K p : Int) (sch : Sched) (ts : D) (mcu kcu ncu : Int) :
    Refines (get_cache_dims32 fl cx M N K p sch ts mcu kcu ncu) (get_cache_dims fl cx M N K p sch ts mcu kcu ncu) := by
  unfold get_cache_dims32 get_cache_dims
  refine .bind (ref_mcL2 _ _ _) fun m2 => .bind (ref_mcL3 _ _ _) fun m3 => .bind (ref_clampMc _ _ _ _) fun c => ?_
  have key : ∀ (e : Except Fail Sched) (s : Sched) (f : Sched → Except Fail (CacheDims × CCtx D)) (y : Except Fail (CacheDims × CCtx D)),
      Refines e (pure s) → Refines (f s) y → Refines (e >>= f) y := by
    intro e s f y h1 h2 v hv
    cases e with
    | error e => simp [Bind.bind, Except.bind] at hv
    | ok b =>
      have := h1 b rfl
      cases this
      exact h2 v hv
  refine key _ (if sch = .NA then derive_schedule fl { cx with alpha_n := fl.div (fl.ofInt m3) (fl.ofInt m2) } M N K p c
    else sch) _ _ ?_ ?_
  · unfold pickSched32
    split
    · unfold derive_schedule32
      exact .int .rfl
    · exact .rfl
  · refine .ite .rfl ?_
    generalize (if sch = .NA then derive_schedule fl { cx with alpha_n := fl.div (fl.ofInt m3) (fl.ofInt m2) } M N K p c
      else sch) = s
    cases s
    · exact .bind .rfl fun t => .bind (ref_roundDown _ _) fun _ => .rfl
    · exact .bind .rfl fun t => .bind (ref_roundDown _ _) fun _ => .rfl
    · exact .bind (ref_roundDown _ _) fun _ => .bind .rfl fun t => .bind (ref_roundDown _ _) fun _ => .rfl
    · exact .rfl

end

/-! ### Nothing overflows in the choice of the tile sizes -/

theorem int32_ok {v : Int} (h : -2 ^ 31 ≤ v) (h' : v < 2 ^ 31) : int32 v = .ok v := if_pos ⟨h, h'⟩

theorem int32_bind {β : Type _} {v : Int} (h : -2 ^ 31 ≤ v) (h' : v < 2 ^ 31) (f : Int → Except Fail β) :
    (int32 v >>= f) = f v := by
  rw [int32_ok h h']
  rfl

theorem bind_congr_ok {β γ : Type _} {x : Except Fail β} {f g : β → Except Fail γ} (h : ∀ b, x = .ok b → f b = g b) :
    (x >>= f) = (x >>= g) := by
  cases x with
  | error e => rfl
  | ok b => exact h b rfl

theorem tdiv_range {a : Int} {b : Nat} (ha : -2 ^ 31 ≤ a) (ha' : a < 2 ^ 31) :
    -2 ^ 31 ≤ a.tdiv b ∧ a.tdiv b < 2 ^ 31 := by
  have h : (a.tdiv b).natAbs ≤ a.natAbs := by
    rw [Int.natAbs_tdiv]; exact Nat.div_le_self _ _
  rcases le_total 0 a with h0 | h0
  · have := Int.tdiv_nonneg h0 (Int.natCast_nonneg b)
    omega
  · have := Int.tdiv_nonneg (show 0 ≤ -a by omega) (Int.natCast_nonneg b)
    rw [Int.neg_tdiv] at this
    omega

theorem sub_tmod_range {a : Int} {b : Nat} (ha : -2 ^ 31 ≤ a) (ha' : a < 2 ^ 31) :
    -2 ^ 31 ≤ a - a.tmod b ∧ a - a.tmod b < 2 ^ 31 := by
  have h : (a.tmod b).natAbs ≤ a.natAbs := by
    rw [Int.natAbs_tmod]; exact Nat.mod_le _ _
  rcases le_total 0 a with h0 | h0
  · have := Int.tmod_nonneg (b : ℤ) h0
    omega
  · have := Int.tmod_nonneg (b : ℤ) (show 0 ≤ -a by omega)
    rw [Int.neg_tmod] at this
    omega

theorem cMod32_eq {a : Int} {b : Nat} (ha : -2 ^ 31 ≤ a) (ha' : a < 2 ^ 31) : cMod32 a b = cMod a b := by
  unfold cMod32 cMod
  split
  · rfl
  · exact int32_bind (tdiv_range ha ha').1 (tdiv_range ha ha').2 _

theorem cMod32_nat {a b : Nat} (ha : a < 2 ^ 31) : cMod32 (a : ℤ) (b : ℤ) = cMod (a : ℤ) (b : ℤ) :=
  cMod32_eq (by omega) (by omega)

/-- Rounding down with checks. -/
theorem sub_mod32_eq {a : Int} {b : Nat} (ha : -2 ^ 31 ≤ a) (ha' : a < 2 ^ 31) :
    (do let r ← cMod32 a b; int32 (a - r)) = (do let r ← cMod a b; pure (a - r)) := by
  rw [cMod32_eq ha ha']
  unfold cMod
  split
  · rfl
  · exact int32_ok (sub_tmod_range ha ha').1 (sub_tmod_range ha ha').2

theorem cDiv32_nat {a b : Nat} (ha : a < 2 ^ 31) : cDiv32 (a : ℤ) (b : ℤ) = cDiv (a : ℤ) (b : ℤ) := by
  unfold cDiv32 cDiv
  split
  · rfl
  · have h := tdiv_range (a := (a : ℤ)) (b := b) (by omega) (by omega)
    exact int32_ok h.1 h.2

theorem cMod_nat {a b : Nat} (hb : 0 < b) : cMod (a : ℤ) (b : ℤ) = .ok ((a % b : ℕ) : ℤ) := by
  unfold cMod
  rw [if_neg (by omega), Int.tmod_eq_emod_of_nonneg (by positivity)]
  rfl

theorem cDiv_nat {a b : Nat} (hb : 0 < b) : cDiv (a : ℤ) (b : ℤ) = .ok ((a / b : ℕ) : ℤ) := by
  unfold cDiv
  rw [if_neg (by omega), Int.tdiv_eq_ediv_of_nonneg (by positivity)]
  rfl

theorem clampMc32_nat {M p mr mc : Nat} (hp : 0 < p) (hm : 0 < mr) (hM : M < 2 ^ 31) (h1 : p * mr < 2 ^ 31)
    (h2 : p * mc < 2 ^ 31) (hmc : mc < 2 ^ 30) (hd : mr ≤ mc) :
    clampMc32 (M : ℤ) (p : ℤ) (mr : ℤ) (mc : ℤ) = clampMc (M : ℤ) (p : ℤ) (mr : ℤ) (mc : ℤ) := by
  have z1 : ((p : ℤ) * mr) = ((p * mr : ℕ) : ℤ) := by push_cast; rfl
  have z2 : ((p : ℤ) * mc) = ((p * mc : ℕ) : ℤ) := by push_cast; rfl
  unfold clampMc32 clampMc
  rw [z1, z2, int32_bind (by omega) (by omega)]
  split
  · rfl
  rw [int32_bind (by omega) (by omega)]
  split
  · rename_i hlt
    have hlt' : M < p * mc := by exact_mod_cast hlt
    have ha : M / p < mc := (Nat.div_lt_iff_lt_mul hp).2 (by rw [Nat.mul_comm]; exact hlt')
    rw [cDiv32_nat hM, cDiv_nat hp]
    refine bind_congr_ok fun a ha' => ?_
    cases ha'
    split
    · rfl
    · have hlt := Nat.mod_lt (M / p) hm
      rw [cMod32_nat (by omega), cMod_nat hm]
      refine bind_congr_ok fun a ha' => ?_
      cases ha'
      rw [int32_bind (by omega) (by omega)]
      exact int32_ok (by omega) (by omega)
  · rfl

section
variable (r : Rounding 53) (rs : Rounding 24) (nf : Option ℝ → Option ℝ → Bool)

theorem cInt_range {x : Option ℝ} {n : ℤ} (h : cInt (ieee r rs nf) x = .ok n) : -2 ^ 31 ≤ n ∧ n < 2 ^ 31 := by
  unfold cInt at h
  split at h
  · rename_i m hm
    cases h
    cases x with
    | none => simp [ieee] at hm
    | some a =>
      simp only [ieee, Option.bind_some] at hm
      generalize (if 0 ≤ a then ⌊a⌋ else ⌈a⌉) = v at hm
      by_cases hv : -2 ^ 31 ≤ v ∧ v < 2 ^ 31
      · rw [if_pos hv] at hm
        cases hm
        exact hv
      · rw [if_neg hv] at hm
        simp at hm
  · simp at h

theorem mcL2_32_eq {cx : CCtx (Option ℝ)} {mr nr : Nat} (hmr : cx.mr = mr) (hnr : cx.nr = nr) (hn : nr ≤ 2 ^ 10) (ts : Option ℝ) :
    mcL2_32 (ieee r rs nf) cx ts = mcL2 (ieee r rs nf) cx ts := by
  unfold mcL2_32 mcL2
  have hnn : nr * nr ≤ 2 ^ 10 * 2 ^ 10 := Nat.mul_le_mul hn hn
  have hbb : (2 * (nr : ℤ)) * (2 * nr) = ((4 * (nr * nr) : ℕ) : ℤ) := by push_cast; ring
  rw [hnr, int32_bind (by omega) (by omega), int32_bind (by omega) (by omega),
    int32_bind (by rw [hbb]; omega) (by rw [hbb]; omega)]
  refine bind_congr_ok fun x hx => ?_
  rw [hmr]
  exact sub_mod32_eq (cInt_range r rs nf hx).1 (cInt_range r rs nf hx).2

theorem mcL3_32_eq {cx : CCtx (Option ℝ)} {mr : Nat} (hmr : cx.mr = mr) (ts : Option ℝ) :
    mcL3_32 (ieee r rs nf) cx ts = mcL3 (ieee r rs nf) cx ts := by
  unfold mcL3_32 mcL3
  refine bind_congr_ok fun x hx => ?_
  rw [hmr]
  exact sub_mod32_eq (cInt_range r rs nf hx).1 (cInt_range r rs nf hx).2

theorem roundDown32_eq {a : Int} {b : Nat} (ha : -2 ^ 31 ≤ a) (ha' : a < 2 ^ 31) : roundDown32 a b = roundDown a b := by
  unfold roundDown32 roundDown
  rw [cMod32_eq ha ha']
  unfold cMod
  split
  · rfl
  · exact int32_bind (sub_tmod_range ha ha').1 (sub_tmod_range ha ha').2 _

/-- No `int` operation of the choice of schedule and tile sizes overflows. -/
theorem dims32_eq {cx : CCtx (Option ℝ)} {mr nr L2 L3 nc : Nat} (ok : CacheOK cx mr nr L2 L3 nc)
    (big : 8 * (mr * (mr + 2 * nr)) ≤ L2) {M p : Nat} (N K : Int) (hp : 0 < p) (hp' : p ≤ 2 ^ 15) (hM : M < 2 ^ 31) (sch : Sched)
    (mcu kcu ncu : Int) :
    get_cache_dims32 (ieee r rs nf) cx M N K p sch ((ieee r rs nf).ofInt 4) mcu kcu ncu =
      get_cache_dims (ieee r rs nf) cx M N K p sch ((ieee r rs nf).ofInt 4) mcu kcu ncu := by
  obtain ⟨t, e, c, ht, h2, h3, hc, hd, hge, hle, hT, hE, hlo, hcM⟩ := dims_values r rs nf ok big M p hp
  have hpm : p * mr ≤ 2 ^ 15 * 2 ^ 14 := Nat.mul_le_mul hp' (by omega)
  have hpt : p * (t - t % mr) ≤ 2 ^ 15 * 2 ^ 14 := Nat.mul_le_mul hp' (by omega)
  have hpc : p * c ≤ 2 ^ 15 * 2 ^ 14 := Nat.mul_le_mul hp' (by omega)
  have hpcz : ((p : ℤ) * c) = ((p * c : ℕ) : ℤ) := by push_cast; rfl
  unfold get_cache_dims32 get_cache_dims
  rw [mcL2_32_eq r rs nf ok.mr_eq ok.nr_eq ok.nr_le, mcL3_32_eq r rs nf ok.mr_eq, h2, h3]
  show (clampMc32 (M : ℤ) p cx.mr ((t - t % mr : ℕ) : ℤ) >>= _) = (clampMc (M : ℤ) p cx.mr ((t - t % mr : ℕ) : ℤ) >>= _)
  have hcl : clampMc32 (M : ℤ) p cx.mr ((t - t % mr : ℕ) : ℤ) = .ok (c : ℤ) := by
    rw [← hc, ok.mr_eq]
    exact clampMc32_nat hp ok.mr_pos hM (by omega) (by omega) (by omega) (by omega)
  rw [hcl, hc]
  show (pickSched32 _ _ _ _ _ _ _ _ >>= _) = _
  unfold pickSched32 derive_schedule32
  rw [int32_bind (by rw [hpcz]; omega) (by rw [hpcz]; omega)]
  have hs : ∀ (c' : Prop) [Decidable c'] (x y : Sched), (if c' then pure x else pure y :
      Except Fail Sched) = .ok (if c' then x else y) := by
    intro c' _ x y; split <;> rfl
  rw [hs]
  show (if _ then _ else _) = (if _ then _ else _)
  generalize (if sch = .NA then derive_schedule (ieee r rs nf) _ M N K p c else sch) = s
  split
  · rfl
  cases s
  · refine bind_congr_ok fun x hx => ?_
    show (roundDown32 x cx.nr >>= _) = (roundDown x cx.nr >>= _)
    rw [ok.nr_eq, roundDown32_eq (cInt_range r rs nf hx).1 (cInt_range r rs nf hx).2]
  · refine bind_congr_ok fun x hx => ?_
    show (roundDown32 x cx.nr >>= _) = (roundDown x cx.nr >>= _)
    rw [ok.nr_eq, roundDown32_eq (cInt_range r rs nf hx).1 (cInt_range r rs nf hx).2]
  · show (roundDown32 (c : ℤ) cx.nr >>= _) = (roundDown (c : ℤ) cx.nr >>= _)
    rw [ok.nr_eq, roundDown32_eq (by omega) (by omega)]
    refine bind_congr_ok fun x hx => bind_congr_ok fun y hy => ?_
    show (roundDown32 y cx.mr >>= _) = (roundDown y cx.mr >>= _)
    rw [ok.mr_eq, roundDown32_eq (cInt_range r rs nf hy).1 (cInt_range r rs nf hy).2]
  · rfl

/-- The tile size for L3 times the number of cores is bounded, since L3 is shared by all of them. -/
theorem mcL3_small {cx : CCtx (Option ℝ)} {mr nr L2 L3 nc : Nat} (ok : CacheOK cx mr nr L2 L3 nc) {e p : Nat} (hp : p ≤ nc)
    (he : mcL3 (ieee r rs nf) cx ((ieee r rs nf).ofInt 4) = .ok (e : ℤ)) : e * p ≤ 2 ^ 14 + p := by
  obtain ⟨t, -, -, hu, h3⟩ := mcL3_val r rs nf cx ok.mr_eq ok.mr_pos ok.l3_eq ok.l3_lt ok.nc_eq ok.nc_pos ok.nc_le
  rw [h3] at he
  injection he with he
  have hn := ok.nc_le
  have hl := ok.l3_lt
  have h0 := ok.nc_pos
  obtain ⟨q, hq⟩ : ∃ q, 2 ^ 14 / nc = q := ⟨_, rfl⟩
  have hq1 : q * nc ≤ 2 ^ 14 := by rw [← hq]; exact Nat.div_mul_le_self _ _
  have hq2 : 2 ^ 14 < (q + 1) * nc := by rw [← hq]; exact (Nat.div_lt_iff_lt_mul h0).1 (Nat.lt_succ_self _)
  have hqs : q ≤ 2 ^ 14 := by rw [← hq]; exact Nat.div_le_self _ _
  have ht : t ≤ q + 1 := by
    have hsn : (q + 1) * nc ≤ 2 ^ 21 := by rw [Nat.add_mul]; omega
    have hsn2 : (q + 1) * (2 + nc) ≤ 2 ^ 22 := by rw [Nat.mul_add]; omega
    have e1 : (q + 1) * (q + 1) * (nc * (2 + nc)) = ((q + 1) * nc) * ((q + 1) * (2 + nc)) := by ring
    have lo : 2 ^ 14 * 2 ^ 14 ≤ ((q + 1) * nc) * ((q + 1) * (2 + nc)) :=
      Nat.mul_le_mul hq2.le (by rw [Nat.mul_add]; omega)
    have up : ((q + 1) * nc) * ((q + 1) * (2 + nc)) ≤ 2 ^ 21 * 2 ^ 22 := Nat.mul_le_mul hsn hsn2
    refine hu _ (by omega) (by rw [e1]; omega) (by rw [e1]; omega)
  have he' : e ≤ q + 1 := by omega
  calc e * p ≤ (q + 1) * p := Nat.mul_le_mul_right _ he'
    _ = q * p + p := by ring
    _ ≤ q * nc + p := by have := Nat.mul_le_mul_left q hp; omega
    _ ≤ 2 ^ 14 + p := by omega

/-- The tile sizes of the K-first schedule. -/
theorem dims_kmn {cx : CCtx (Option ℝ)} {mr nr L2 L3 nc : Nat} (ok : CacheOK cx mr nr L2 L3 nc)
    (big : 8 * (mr * (mr + 2 * nr)) ≤ L2) (M N K p : Nat) (hp : 0 < p) (hp' : p ≤ 2 ^ 15)
    (mcu kcu ncu : Int) (hu : mcu = 0 ∨ ncu = 0 ∨ kcu = 0) {d : CacheDims} {cx' : CCtx (Option ℝ)}
    (h : get_cache_dims (ieee r rs nf) cx M N K p .KMN ((ieee r rs nf).ofInt 4) mcu kcu ncu = .ok (d, cx')) :
    ∃ t e c x j : Nat, IsL2Side nr L2 t ∧ mcL3 (ieee r rs nf) cx ((ieee r rs nf).ofInt 4) = .ok (e : ℤ) ∧
      (∀ s, mr ∣ s → 8 * (s * s * (nc * (2 + nc))) ≤ L3 → s ≤ e) ∧ (p * (t - t % mr) ≤ M → c = t - t % mr) ∧ c ≤ 2 ^ 14 ∧
      x ≤ e * p + 1 ∧ (t - t % mr ≤ e → p * c ≤ x) ∧ (j * nr ≤ x ∨ j = 1) ∧ x < (j + 1) * nr ∧
      d.m_c = c ∧ d.k_c = c ∧ d.n_c = (j * nr : Nat) := by
  obtain ⟨t, e, c, ht, h2, h3, hc, hd, hge, hle, hT, hE, hlo, hcM⟩ := dims_values r rs nf ok big M p hp
  have hpos : 0 < t - t % mr := by have := ok.mr_pos; omega
  have hu' : ¬ (mcu ≠ 0 ∧ ncu ≠ 0 ∧ kcu ≠ 0) := by rintro ⟨a, b, c⟩; rcases hu with h | h | h <;> contradiction
  obtain ⟨x, hx, hxu, hxl⟩ := alpha_mul r rs nf hE hpos hle hT hp'
  obtain ⟨j, hj, hjv, hju, hjl⟩ := roundDown_val (x := x) ok.nr_pos
  unfold get_cache_dims at h
  rw [h2, h3] at h
  simp only [bind, Except.bind] at h
  rw [hc] at h
  simp only [if_neg hu', hx, ok.nr_eq, hjv] at h
  injection h with h
  injection h with e1 e2
  exact ⟨t, e, c, x, j, ht, h3, hlo, hcM, by omega, hxu, hxl, hju, hjl, by rw [← e1], by rw [← e1], by rw [← e1]⟩

/-- The tile sizes of the K-first schedule, with at most as many threads as cores. -/
theorem dims_small {cx : CCtx (Option ℝ)} {mr nr L2 L3 nc : Nat} (ok : CacheOK cx mr nr L2 L3 nc)
    (big : 8 * (mr * (mr + 2 * nr)) ≤ L2) (M N K p : Nat) (hp : 0 < p) (hp' : p ≤ 2 ^ 15) (hpn : p ≤ nc)
    (mcu kcu ncu : Int) (hu : mcu = 0 ∨ ncu = 0 ∨ kcu = 0) {d : CacheDims} {cx' : CCtx (Option ℝ)}
    (h : get_cache_dims (ieee r rs nf) cx M N K p .KMN ((ieee r rs nf).ofInt 4) mcu kcu ncu = .ok (d, cx')) :
    ∃ m n : Nat, d.m_c = m ∧ d.k_c = m ∧ d.n_c = n ∧ p * m < 2 ^ 31 ∧ m * n < 2 ^ 31 ∧ m < 2 ^ 31 := by
  obtain ⟨t, e, c, x, j, -, h3, -, -, hc, hxu, -, hju, -, e1, e2, e3⟩ := dims_kmn r rs nf ok big M N K p hp hp' mcu kcu ncu hu h
  have hsm := mcL3_small r rs nf ok hpn h3
  refine ⟨c, j * nr, e1, e2, e3, ?_, ?_, by omega⟩
  · have : p * c ≤ 2 ^ 15 * 2 ^ 14 := Nat.mul_le_mul hp' (by omega)
    omega
  · have hcn : c * (j * nr) ≤ 2 ^ 30 := by
      rcases hju with hju | rfl
      · have : c * (j * nr) ≤ 2 ^ 14 * (2 ^ 16) := Nat.mul_le_mul (by omega) (by omega)
        omega
      · have : c * (1 * nr) ≤ 2 ^ 14 * 2 ^ 10 := Nat.mul_le_mul (by omega) (by have := ok.nr_le; omega)
        omega
    omega

end

end Cake
