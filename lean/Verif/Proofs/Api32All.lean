/-
The tile sizes chosen for any schedule are small, and the 32-bit call comes down to the 32-bit product with these tiles.
-/
import Verif.Model.Api32All
import Verif.Proofs.Api32

namespace Cake
open List

section
variable (r : Rounding 53) (rs : Rounding 24) (nf : Option ℝ → Option ℝ → Bool)

/-- `(e/d)*c` for `c ≤ d` is at most `e + 1`, whatever the rounding. -/
theorem alpha_mul_le {e d c : Nat} (he : e ≤ 2 ^ 14) (hd : 0 < d) (hc : c ≤ d) (hd' : d ≤ 2 ^ 14) {x : ℤ}
    (hx : cInt (ieee r rs nf) ((ieee r rs nf).mul ((ieee r rs nf).div ((ieee r rs nf).ofInt e)
      ((ieee r rs nf).ofInt d)) ((ieee r rs nf).ofInt c)) = .ok x) : x ≤ e + 1 := by
  have ee : r.rnd ((e : ℤ) : ℝ) = e := by have := r.nat e (by omega); exact_mod_cast this
  have ed : r.rnd ((d : ℤ) : ℝ) = d := by have := r.nat d (by omega); exact_mod_cast this
  have ec : r.rnd ((c : ℤ) : ℝ) = c := by have := r.nat c (by omega); exact_mod_cast this
  have hdR : (1 : ℝ) ≤ d := by exact_mod_cast hd
  have hcd : (c : ℝ) ≤ d := by exact_mod_cast hc
  have heR : (e : ℝ) ≤ 16384 := by exact_mod_cast (show e ≤ 16384 by omega)
  have hcR : (c : ℝ) ≤ 16384 := by exact_mod_cast (show c ≤ 16384 by omega)
  have he0 : (0 : ℝ) ≤ e := by positivity
  have hc0 : (0 : ℝ) ≤ c := by positivity
  set q : ℝ := (e : ℝ) / d with hq
  have q0 : 0 ≤ q := by positivity
  have qu : q ≤ 2 ^ 14 := (div_le_self he0 hdR).trans (by norm_num; linarith)
  have qe : q * c ≤ e := by
    have : q * c ≤ q * d := mul_le_mul_of_nonneg_left hcd q0
    rwa [hq, div_mul_cancel₀ _ (by linarith : (d : ℝ) ≠ 0)] at this
  set a := r.rnd q with ha
  have a0 : 0 ≤ a := r.nonneg q0
  have au : a ≤ q + 2 ^ 14 / 2 ^ 52 := r.le_add q0 qu (by norm_num) (by norm_num)
  have ac : a * c ≤ e + 1 := by
    have h1 : a * c ≤ (q + 2 ^ 14 / 2 ^ 52) * c := mul_le_mul_of_nonneg_right au hc0
    have e1 : (q + 2 ^ 14 / 2 ^ 52) * (c : ℝ) = q * c + 2 ^ 14 / 2 ^ 52 * c := by ring
    rw [e1] at h1
    norm_num at h1 ⊢
    linarith
  set z := r.rnd (a * c) with hz
  have z0 : 0 ≤ z := r.nonneg (by positivity)
  have zu : z ≤ (((e + 1 : ℕ) : ℤ) : ℝ) := r.le_int (by
      rw [abs_of_nonneg (by positivity)]; exact_mod_cast (show e + 1 ≤ 2 ^ 53 by omega)) (by push_cast; exact ac)
  have hci := cInt_floor r rs nf z0 (lt_of_le_of_lt zu (by
    have : e + 1 < 2 ^ 31 := by omega
    exact_mod_cast this))
  have hv : (ieee r rs nf).mul ((ieee r rs nf).div ((ieee r rs nf).ofInt e) ((ieee r rs nf).ofInt d)) ((ieee r rs nf).ofInt c) =
      some z := by
    simp only [ieee, Option.bind_some]
    rw [ee, ed, ec, if_neg (by linarith), Option.bind_some]
  rw [hv, hci] at hx
  cases hx
  have : (⌊z⌋ : ℝ) ≤ (((e + 1 : ℕ) : ℤ) : ℝ) := (Int.floor_le z).trans zu
  exact_mod_cast this

/-- The tile sizes chosen, for any schedule and with any number of threads up to `2^15`. -/
theorem dims_all_small {cx : CCtx (Option ℝ)} {mr nr L2 L3 nc : Nat} (ok : CacheOK cx mr nr L2 L3 nc)
    (big : 8 * (mr * (mr + 2 * nr)) ≤ L2) (M N K p : Nat) (hp : 0 < p) (hp' : p ≤ 2 ^ 15) (sch : Sched)
    (mcu kcu ncu : Int) (hu : mcu = 0 ∨ ncu = 0 ∨ kcu = 0) {d : CacheDims} {cx' : CCtx (Option ℝ)}
    (h : get_cache_dims (ieee r rs nf) cx M N K p sch ((ieee r rs nf).ofInt 4) mcu kcu ncu = .ok (d, cx')) :
    ∃ m n : Nat, d.m_c = m ∧ d.k_c = m ∧ d.n_c = n ∧ p * m < 2 ^ 31 ∧ m < 2 ^ 31 ∧ n < 2 ^ 31 ∧
      (p ≤ nc → m * n < 2 ^ 31) ∧ (d.sch = .NKM → n ≤ 2 ^ 14) := by
  obtain ⟨t, e, c, ht, h2, h3, hc, hd, hge, hle, hT, hE, hlo, hcM⟩ := dims_values r rs nf ok big M p hp
  have hpos : 0 < t - t % mr := by have := ok.mr_pos; omega
  have hu' : ¬ (mcu ≠ 0 ∧ ncu ≠ 0 ∧ kcu ≠ 0) := by rintro ⟨a, b, c⟩; rcases hu with h | h | h <;> contradiction
  obtain ⟨x, hx, hxu, hxl⟩ := alpha_mul r rs nf hE hpos hle hT hp'
  obtain ⟨j, hj, hjv, hju, hjl⟩ := roundDown_val (x := x) ok.nr_pos
  obtain ⟨y, hy, -, -⟩ := alpha_mul' r rs nf hE hpos hle hT
  have hye := alpha_mul_le r rs nf hE hpos hle hT hy
  obtain ⟨i, hi, hiv, hiu, hil⟩ := roundDown_val (x := y) ok.mr_pos
  obtain ⟨k, hk, hkv, hku, hkl⟩ := roundDown_val (x := c) ok.nr_pos
  have nle := ok.nr_le
  have hpc : p * c ≤ 2 ^ 15 * 2 ^ 14 := Nat.mul_le_mul hp' (by omega)
  have hep : e * p ≤ 2 ^ 14 * 2 ^ 15 := Nat.mul_le_mul hE hp'
  have hjn : j * nr ≤ 2 ^ 30 := by
    rcases hju with hju | rfl <;> omega
  have him : i * mr ≤ 2 ^ 14 + 1 := by
    rcases hiu with hiu | rfl <;> omega
  have hkn : k * nr ≤ 2 ^ 14 := by
    rcases hku with hku | rfl <;> omega
  have K1 : p ≤ nc → c * (j * nr) < 2 ^ 31 := by
    intro hpn
    have hsm := mcL3_small r rs nf ok hpn h3
    have hcn : c * (j * nr) ≤ 2 ^ 30 := by
      rcases hju with hju | rfl
      · have : c * (j * nr) ≤ 2 ^ 14 * (2 ^ 16) := Nat.mul_le_mul (by omega) (by omega)
        omega
      · have : c * (1 * nr) ≤ 2 ^ 14 * 2 ^ 10 := Nat.mul_le_mul (by omega) (by omega)
        omega
    omega
  have K2 : i * mr * (k * nr) < 2 ^ 31 := by
    have : i * mr * (k * nr) ≤ (2 ^ 14 + 1) * 2 ^ 14 := Nat.mul_le_mul him hkn
    omega
  have K3 : p * (i * mr) < 2 ^ 31 := by
    have : p * (i * mr) ≤ 2 ^ 15 * (2 ^ 14 + 1) := Nat.mul_le_mul hp' him
    omega
  unfold get_cache_dims at h
  rw [h2, h3] at h
  simp only [bind, Except.bind] at h
  rw [hc] at h
  simp only [if_neg hu'] at h
  generalize (if sch = .NA then derive_schedule (ieee r rs nf) _ M N K p c else sch) = s at h
  cases s
  · simp only [hx, ok.nr_eq, hjv] at h
    injection h with h
    injection h with e1 e2
    exact ⟨c, j * nr, by rw [← e1], by rw [← e1], by rw [← e1], by omega, by omega, by omega, K1, fun h => by rw [← e1] at h; simp at h⟩
  · simp only [hx, ok.nr_eq, hjv] at h
    injection h with h
    injection h with e1 e2
    exact ⟨c, j * nr, by rw [← e1], by rw [← e1], by rw [← e1], by omega, by omega, by omega, K1, fun h => by rw [← e1] at h; simp at h⟩
  · simp only [hy, ok.nr_eq, ok.mr_eq, hkv, hiv] at h
    injection h with h
    injection h with e1 e2
    exact ⟨i * mr, k * nr, by rw [← e1], by rw [← e1], by rw [← e1], K3, by omega, by omega, fun _ => K2, fun _ => hkn⟩
  · cases h

/-- The end of the call: the program with the allocation of a context in front, if one was needed. -/
def finishAll {D : Type _} (null : Bool) (cx' : CCtx D) : Option Prog → Except Fail (Prog × CCtx D)
  | some prog => .ok ((if null then [Item.malloc .Ctx 1] else []) ++ prog, cx')
  | none => .error .ub

theorem finishAll_ok {D : Type _} {null : Bool} {cx' : CCtx D} {o : Option Prog} :
    (∃ x, finishAll null cx' o = .ok x) ↔ ∃ prog, o = some prog := by
  cases o with
  | none => simp [finishAll]
  | some p => simp [finishAll]

/-- The call, given the tile sizes. -/
theorem apiAll_run {α : Type} (nz : α → Bool) {D : Type _} (fl : Flt D) {mc : Machine} {cntx : Option (CCtx D)} {A B C : Loc}
    {a : Args α} {d : CacheDims} {cx' : CCtx D} {v : Cntx}
    (hd : get_cache_dims32 fl (cntx.getD (query_cntx fl mc)) a.M a.N a.K a.p a.sch (fl.ofInt 4) a.mcu a.kcu a.ncu = .ok (d, cx'))
    (hv : cx'.view mc = .ok v) (hn : ¬ (d.m_c ≤ 0 ∨ d.k_c ≤ 0 ∨ d.n_c ≤ 0 ∨ a.p = 0))
    {m k n : Nat} (em : d.m_c.toNat = m) (ek : d.k_c.toNat = k) (en : d.n_c.toNat = n) :
    sgemm_api32 fl nz mc cntx A B C a =
      finishAll cntx.isNone cx' (cake_sgemm32S v A B C a.M a.N a.K a.p a.packedA a.packedB (nz a.beta) m k n d.sch) := by
  subst em ek en
  have h1 : ∀ {β γ : Type _} {x : Except Fail β} {b : β} (f : β → Except Fail γ), x = .ok b → (x >>= f) = f b := by
    intro β γ x b f h; rw [h]; rfl
  unfold sgemm_api32
  refine (h1 _ hd).trans ?_
  refine (h1 _ hv).trans ?_
  refine (if_neg hn).trans ?_
  generalize cake_sgemm32S v A B C a.M a.N a.K a.p a.packedA a.packedB _ _ _ _ _ = o
  cases o <;> rfl

/-- The call comes down to the product with the tiles chosen by the library. -/
theorem apiAll_reduce {α : Type} (nz : α → Bool) {mc : Machine} {cntx : Option (CCtx (Option ℝ))} {m_r n_r L2 L3 nc : Nat}
    (h : Ready mc (cntx.getD (query_cntx (ieee r rs nf) mc)) m_r n_r L2 L3 nc) (A B C : Loc)
    {a : Args α} (hp : 0 < a.p) (hp' : a.p ≤ 2 ^ 15) (l2 : 8 * (m_r * (m_r + 2 * n_r)) ≤ L2)
    (hu : a.mcu = 0 ∨ a.ncu = 0 ∨ a.kcu = 0) (hM : a.M < 2 ^ 31) :
    ∃ (kd : KDim) (d : CacheDims) (m_c n_c : Nat) (cx' : CCtx (Option ℝ)),
      get_cache_dims (ieee r rs nf) (cntx.getD (query_cntx (ieee r rs nf) mc)) a.M a.N a.K a.p a.sch
        ((ieee r rs nf).ofInt 4) a.mcu a.kcu a.ncu = .ok (d, cx') ∧ d.m_c = (m_c : ℤ) ∧ d.n_c = (n_c : ℤ) ∧
      TileOK a.p m_r n_r m_c m_c n_c ∧ kd.Fits m_r n_r ∧
      (a.p * m_c < 2 ^ 31 ∧ m_c < 2 ^ 31 ∧ n_c < 2 ^ 31 ∧ (a.p ≤ nc → m_c * n_c < 2 ^ 31) ∧
        (d.sch = .NKM → n_c ≤ 2 ^ 14)) ∧
      (a.sch ≠ .NA → d.sch = a.sch) ∧ (d.sch = .KMN ∨ d.sch = .MKN ∨ d.sch = .NKM) ∧
      sgemm_api32 (ieee r rs nf) nz mc cntx A B C a =
        finishAll cntx.isNone cx'
          (cake_sgemm32S ⟨m_r, n_r, kd, mc.kfix⟩ A B C a.M a.N a.K a.p a.packedA a.packedB (nz a.beta) m_c m_c n_c d.sch) := by
  obtain ⟨tt, e, c, d, cx', -, -, -, -, -, -, -, -, hd, hv, -⟩ := dims_auto r rs nf h.cache l2 a.M a.N a.K a.p hp hp' a.sch a.mcu
    a.kcu a.ncu (by omega)
  obtain ⟨m, n, e1, e2, e3, b⟩ := dims_all_small r rs nf h.cache l2 a.M a.N a.K a.p hp hp' a.sch a.mcu a.kcu a.ncu (by omega) hd
  obtain ⟨hs1, hs2, hcx⟩ := (get_cache_dims_noExit _ _ _ _ _ _ _ _ _ _ _).of_ok hd
  obtain ⟨kd, hv', hf⟩ := (h.alpha hcx).view
  obtain ⟨⟨i, hi, hmi⟩, ⟨j, hj, hnj⟩, -⟩ := hv
  have pm := Nat.mul_pos hi h.cache.mr_pos
  have pn := Nat.mul_pos hj h.cache.nr_pos
  have em : m = i * m_r := by omega
  have en : n = j * n_r := by omega
  refine ⟨kd, d, m, n, cx', hd, e1, e3, ⟨hp, h.cache.mr_pos, h.cache.nr_pos, by omega, by omega, by omega,
    ⟨i, by rw [em, Nat.mul_comm]⟩, ⟨j, by rw [en, Nat.mul_comm]⟩⟩, hf, b, hs1, hs2, ?_⟩
  have hd' := dims32_eq r rs nf h.cache l2 (a.N : ℤ) (a.K : ℤ) hp hp' hM a.sch a.mcu a.kcu a.ncu
  rw [hd] at hd'
  exact apiAll_run nz (ieee r rs nf) (A := A) (B := B) (C := C) hd' hv' (by omega) (by omega) (by omega) (by omega)

end
end Cake
