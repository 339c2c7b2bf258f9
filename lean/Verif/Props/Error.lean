/-
Rounding: C38 (forward error bound), C43 (integer matrices are multiplied exactly).
-/
import Verif.Proofs.Exact
import Verif.Props.KFirst
import Verif.Props.MFirst
import Verif.Props.NFirst
import Verif.Props.Api

namespace Cake
open List

/-! ### C38 -/

/-- Arithmetic on reals whose multiply-add, fused or not, has a relative error of at most `v` in the product and `u` in the
sum, and an absolute error of at most `η` (underflow), as long as the sum does not exceed `Ω` (overflow). -/
structure Approx (F : Arith ℝ) (u v η Ω : ℝ) : Prop where
  u_nonneg : 0 ≤ u
  v_nonneg : 0 ≤ v
  η_nonneg : 0 ≤ η
  zero : F.zero = 0
  fma : ∀ a b c, (1 + v) * |a * b| + |c| + η ≤ Ω →
    |F.fma a b c - (a * b + c)| ≤ v * |a * b| + u * |a * b + c| + η

/-- The bound on the difference between the computed entry and the exact one, for entries whose terms are too small to
overflow in any order. -/
def WithinBound (s s' : State ℝ) (M N K : Nat) (u v η Ω : ℝ) : Prop :=
  ∀ r c, r < M → c < N →
    (1 + u) ^ K * ((1 + v) * ∑ k ∈ Finset.range K, |entry s .A K r k| * |entry s .B N k c| + K * η) ≤ Ω →
    |entry s' .C N r c - ∑ k ∈ Finset.range K, entry s .A K r k * entry s .B N k c| ≤
      ((1 + u) ^ K * (1 + v) - 1) * (∑ k ∈ Finset.range K, |entry s .A K r k| * |entry s .B N k c|) + (1 + u) ^ K * (K * η)

theorem dot_error {F : Arith ℝ} {u v η Ω : ℝ} (hF : Approx F u v η Ω) (a b : Nat → ℝ) (l : List Nat)
    (hΩ : (1 + u) ^ l.length * ((1 + v) * (l.map fun k => |a k| * |b k|).sum + l.length * η) ≤ Ω) :
    |dotFrom F a b l 0 - (l.map fun k => a k * b k).sum| ≤
      ((1 + u) ^ l.length * (1 + v) - 1) * (l.map fun k => |a k| * |b k|).sum + (1 + u) ^ l.length * (l.length * η) := by
  induction l using List.reverseRecOn with
  | nil => simp [dotFrom]
  | append_singleton l k ih =>
    have e : dotFrom F a b (l ++ [k]) 0 = F.fma (a k) (b k) (dotFrom F a b l 0) := by
      simp [dotFrom]
    rw [e]
    simp only [map_append, map_cons, map_nil, sum_append, sum_cons, sum_nil, add_zero, length_append, length_cons,
      length_nil, zero_add, pow_succ] at hΩ ⊢
    push_cast at hΩ ⊢
    have hu := hF.u_nonneg
    have hv := hF.v_nonneg
    have hη := hF.η_nonneg
    have hs : |(l.map fun k => a k * b k).sum| ≤ (l.map fun k => |a k| * |b k|).sum := by
      clear ih e hΩ
      induction l with
      | nil => simp
      | cons x l ih =>
        simp only [map_cons, sum_cons]
        refine (abs_add_le _ _).trans ?_
        rw [abs_mul]
        linarith
    have hn : (0 : ℝ) ≤ l.length := by positivity
    generalize dotFrom F a b l 0 = d at ih ⊢
    generalize (l.map fun k => a k * b k).sum = S at ih hs ⊢
    generalize (l.map fun k => |a k| * |b k|).sum = T at ih hs hΩ ⊢
    have hq : 1 ≤ (1 + u) ^ l.length := one_le_pow₀ (by linarith)
    generalize (1 + u) ^ l.length = q at ih hq hΩ ⊢
    generalize (l.length : ℝ) = n at ih hn hΩ ⊢
    have h1 := hF.fma (a k) (b k) d
    generalize F.fma (a k) (b k) d = f at h1 ⊢
    have hp : |a k * b k| = |a k| * |b k| := abs_mul _ _
    generalize |a k| * |b k| = P at hp hΩ ⊢
    generalize a k * b k = x at h1 hp ⊢
    have hP : 0 ≤ P := hp ▸ abs_nonneg _
    have hT : 0 ≤ T := (abs_nonneg _).trans hs
    rw [hp] at h1
    -- the terms of the bound
    obtain ⟨w, hw⟩ : ∃ w, w = q * ((1 + v) * T + n * η) := ⟨_, rfl⟩
    have hw0 : 0 ≤ w := by rw [hw]; positivity
    obtain ⟨z, hz⟩ : ∃ z, z = q * ((1 + v) * P + η) := ⟨_, rfl⟩
    have hz0 : (1 + v) * P + η ≤ z := by
      rw [hz]
      nlinarith [mul_nonneg (sub_nonneg.2 hq) (add_nonneg (mul_nonneg (by linarith : (0:ℝ) ≤ 1 + v) hP) hη)]
    have hwz : q * (1 + u) * ((1 + v) * (T + P) + (n + 1) * η) = (1 + u) * (w + z) := by rw [hw, hz]; ring
    rw [hwz] at hΩ
    have hz1 : 0 ≤ z := le_trans (by positivity) hz0
    have huw : 0 ≤ u * (w + z) := by positivity
    have ih := ih (by rw [← hw]; nlinarith)
    have ih' : |d - S| ≤ w - T := by rw [hw]; linarith
    have hd : |d| ≤ w := by
      have := abs_add_le (d - S) S
      rw [sub_add_cancel] at this
      linarith
    have h1 := h1 (by nlinarith)
    have h2 : |f - (S + x)| ≤ |f - (x + d)| + |d - S| := by
      have : f - (S + x) = (f - (x + d)) + (d - S) := by ring
      rw [this]
      exact abs_add_le _ _
    have h3 : |x + d| ≤ P + w := (abs_add_le _ _).trans (by rw [hp]; linarith)
    have h4 : u * |x + d| ≤ u * (P + w) := mul_le_mul_of_nonneg_left h3 hu
    have h5 : (q * (1 + u) * (1 + v) - 1) * (T + P) + q * (1 + u) * ((n + 1) * η) = (1 + u) * (w + z) - (T + P) := by
      rw [← hwz]; ring
    rw [h5]
    have h6 : u * ((1 + v) * P + η) ≤ u * z := mul_le_mul_of_nonneg_left hz0 hu
    have h7 : 0 ≤ u * (v * P) := by positivity
    have h8 : 0 ≤ u * η := by positivity
    nlinarith

theorem IsProduct.bound {F : Arith ℝ} {u v η Ω : ℝ} (hF : Approx F u v η Ω) {s s' : State ℝ} {M N K : Nat}
    (h : IsProduct F s s' M N K (fun _ _ => F.zero)) : WithinBound s s' M N K u v η Ω := by
  intro r c hr hc hΩ
  obtain ⟨-, order, ho, e⟩ := h r c hr hc
  rw [e]
  have := dot_error hF (fun k => entry s .A K r k) (fun k => entry s .B N k c) order
  rw [ho.length_eq, length_range, (ho.map fun k => entry s .A K r k * entry s .B N k c).sum_eq,
    (ho.map fun k => |entry s .A K r k| * |entry s .B N k c|).sum_eq] at this
  rw [Finset.sum_eq_multiset_sum] at hΩ
  rw [hF.zero, Finset.sum_eq_multiset_sum, Finset.sum_eq_multiset_sum]
  exact this hΩ

section
variable {F : Arith ℝ} {u v η Ω : ℝ} (hF : Approx F u v η Ω) (nz : ℝ → Bool) (cx : Cntx)
variable {M N K p m_c k_c n_c : Nat}
include hF

/-- **C38 (K-first).** Every entry is within `((1+u)^K*(1+v) - 1) * Σ|a||b| + (1+u)^K*K*η` of the exact product, unless its terms
are large enough to overflow. -/
theorem C38_kfirst_bound (h : TileOK p cx.m_r cx.n_r m_c k_c n_c) (hk : cx.kmap.Fits cx.m_r cx.n_r) (alpha beta : ℝ)
    {s : State ℝ} (hs : CallOK s M N K) :
    Computes F (callK cx nz M N K p alpha beta m_c k_c n_c) s (fun s' => WithinBound s s' M N K u v η Ω) :=
  (C01_kfirst_product F nz cx h hk alpha beta hs).mono fun _ hs' => hs'.bound hF

/-- **C38 (M-first).** -/
theorem C38_mfirst_bound (h : TileOK p cx.m_r cx.n_r m_c k_c n_c) (hk : cx.kfix.Fits cx.m_r cx.n_r) (alpha : ℝ)
    {beta : ℝ} (hb : nz beta = false) {s : State ℝ} (hs : CallOK s M N K)
    (hB : Holds s .B 1 (bNeed N K p cx.n_r k_c n_c)) :
    Computes F (callM cx nz M N K p alpha beta m_c k_c n_c) s (fun s' => WithinBound s s' M N K u v η Ω) :=
  (C02_mfirst_product F nz cx h hk alpha hb hs hB).mono fun _ hs' => hs'.bound hF

/-- **C38 (N-first).** -/
theorem C38_nfirst_bound (h : TileOK p cx.m_r cx.n_r m_c k_c n_c) (hk : cx.kfix.Fits cx.m_r cx.n_r) (alpha : ℝ)
    {beta : ℝ} (hb : nz beta = false) {s : State ℝ} (hs : CallOK s M N K)
    (hB : Holds s .B 1 (bNeed N K p cx.n_r k_c n_c)) :
    Computes F (callN cx nz M N K p alpha beta m_c k_c n_c) s (fun s' => WithinBound s s' M N K u v η Ω) :=
  (C03_nfirst_product F nz cx h hk alpha hb hs hB).mono fun _ hs' => hs'.bound hF

/-- **C38 (M-first), without any assumption on the memory behind B.** -/
theorem C38_mfirst_if_ends (h : TileOK p cx.m_r cx.n_r m_c k_c n_c) (hk : cx.kfix.Fits cx.m_r cx.n_r) (alpha : ℝ)
    {beta : ℝ} (hb : nz beta = false) {s : State ℝ} (hs : CallOK s M N K) {prog : Prog}
    (hp : callM cx nz M N K p alpha beta m_c k_c n_c = some prog) {s' : State ℝ} (he : Exec F prog s (.ok s')) :
    WithinBound s s' M N K u v η Ω :=
  (C02_mfirst_if_ends F nz cx h hk alpha hb hs hp he).1.bound hF

/-- **C38 (N-first), without any assumption on the memory behind B.** -/
theorem C38_nfirst_if_ends (h : TileOK p cx.m_r cx.n_r m_c k_c n_c) (hk : cx.kfix.Fits cx.m_r cx.n_r) (alpha : ℝ)
    {beta : ℝ} (hb : nz beta = false) {s : State ℝ} (hs : CallOK s M N K) {prog : Prog}
    (hp : callN cx nz M N K p alpha beta m_c k_c n_c = some prog) {s' : State ℝ} (he : Exec F prog s (.ok s')) :
    WithinBound s s' M N K u v η Ω :=
  (C03_nfirst_if_ends F nz cx h hk alpha hb hs hp he).1.bound hF

/-- **C38 (default call).** -/
theorem C38_default_bound (r : Rounding 53) (rs : Rounding 24) (nf : Option ℝ → Option ℝ → Bool)
    {mc : Machine} {cntx : Option (CCtx (Option ℝ))} {m_r n_r L2 L3 nc : Nat}
    (h : Ready mc (cntx.getD (query_cntx (ieee r rs nf) mc)) m_r n_r L2 L3 nc) (hk : mc.kfix.Fits m_r n_r)
    {a : Args ℝ} (hpk : a.packedA = false ∧ a.packedB = false) (hp : 0 < a.p) (ht : TilesOK m_r n_r L2 a)
    (hb : nz a.beta = false) {s : State ℝ} (hs : CallOK s a.M a.N a.K)
    (hB : n_r ∣ a.N ∨ Holds s .B 1 (a.K * a.N + (n_r - 1))) (hctx : cntx = none → s.size .Ctx = none) :
    ∃ prog cx', publicCall r rs nf nz mc cntx a = .ok (prog, cx') ∧
      Computes F (some prog) s (fun s' => WithinBound s s' a.M a.N a.K u v η Ω) := by
  obtain ⟨prog, cx', h1, -, h2⟩ := C42_default_partial F r rs nf nz h hk hpk hp ht hb hs hB hctx
  exact ⟨prog, cx', h1, h2.mono fun _ hs' => hs'.product.bound hF⟩

/-- **C38 (default call), without any assumption on the memory behind B.** -/
theorem C38_default_if_ends (r : Rounding 53) (rs : Rounding 24) (nf : Option ℝ → Option ℝ → Bool)
    {mc : Machine} {cntx : Option (CCtx (Option ℝ))} {m_r n_r L2 L3 nc : Nat}
    (h : Ready mc (cntx.getD (query_cntx (ieee r rs nf) mc)) m_r n_r L2 L3 nc) (hk : mc.kfix.Fits m_r n_r)
    {a : Args ℝ} (hpk : a.packedA = false ∧ a.packedB = false) (hp : 0 < a.p) (ht : TilesOK m_r n_r L2 a)
    (hb : nz a.beta = false) {s : State ℝ} (hs : CallOK s a.M a.N a.K) (hctx : cntx = none → s.size .Ctx = none) :
    ∃ prog cx', publicCall r rs nf nz mc cntx a = .ok (prog, cx') ∧
      ∀ s', Exec F prog s (.ok s') → WithinBound s s' a.M a.N a.K u v η Ω := by
  obtain ⟨prog, cx', h1, -, h2⟩ := C42_if_ends F r rs nf nz h hk hpk hp ht hb hs hctx
  exact ⟨prog, cx', h1, fun s' he => (h2 s' he).product.bound hF⟩

end

/-! Single precision, with underflow and overflow: every rounding is such an arithmetic, fused or not. -/

/-- The error of a rounding to single precision, including the range where it underflows. -/
theorem Rounding.error (r : Rounding 24) (x : ℝ) (hx : |x| ≤ 2 ^ (100 : ℤ)) :
    |r.rnd x - x| ≤ (2⁻¹ ^ 24) * |x| + 2⁻¹ ^ 98 := by
  have h0 : r.rnd 0 = 0 := by simpa using r.int 0 (by norm_num)
  by_cases h : 2 ^ (-100 : ℤ) ≤ |x|
  · have := r.err x h hx
    have e : |x| / 2 ^ 24 = (2⁻¹ ^ 24) * |x| := by rw [div_eq_inv_mul, inv_pow]
    rw [e] at this
    have : (0 : ℝ) ≤ 2⁻¹ ^ 98 := by positivity
    linarith
  · have hm : |r.rnd (2 ^ (-100 : ℤ)) - 2 ^ (-100 : ℤ)| ≤ 2⁻¹ ^ 100 := by
      have := r.err (2 ^ (-100 : ℤ)) (by rw [abs_of_pos (by positivity)]) (by rw [abs_of_pos (by positivity)]; norm_num)
      rw [abs_of_pos (by positivity : (0 : ℝ) < 2 ^ (-100 : ℤ))] at this
      exact this.trans (by norm_num)
    have hn : |r.rnd (-2 ^ (-100 : ℤ)) - -2 ^ (-100 : ℤ)| ≤ 2⁻¹ ^ 100 := by
      have := r.err (-2 ^ (-100 : ℤ)) (by rw [abs_neg, abs_of_pos (by positivity)])
        (by rw [abs_neg, abs_of_pos (by positivity)]; norm_num)
      rw [abs_neg, abs_of_pos (by positivity : (0 : ℝ) < 2 ^ (-100 : ℤ))] at this
      exact this.trans (by norm_num)
    have e : (2 : ℝ) ^ (-100 : ℤ) = 2⁻¹ ^ 100 := by norm_num
    rw [e] at hm hn h
    rw [not_le, abs_lt] at h
    have m1 := r.mono (le_of_lt h.1)
    have m2 := r.mono (le_of_lt h.2)
    rw [abs_le] at hm hn ⊢
    have e2 : (2⁻¹ : ℝ) ^ 98 = 4 * 2⁻¹ ^ 100 := by norm_num
    have h5 : (0 : ℝ) ≤ 2⁻¹ ^ 24 * |x| := by positivity
    rw [e2]
    constructor <;> linarith

/-- One rounding per multiply-add. -/
noncomputable def fusedArith (r : Rounding 24) : Arith ℝ := ⟨0, fun a b c => r.rnd (a * b + c)⟩

/-- One rounding for the product and one for the sum. -/
noncomputable def unfusedArith (r : Rounding 24) : Arith ℝ := ⟨0, fun a b c => r.rnd (r.rnd (a * b) + c)⟩

/-- **C38 (single precision, fused).** Every rounding meets the hypothesis of the bounds, up to `2^100`. -/
theorem C38_fused (r : Rounding 24) : Approx (fusedArith r) (2⁻¹ ^ 24) 0 (2⁻¹ ^ 96) (2 ^ (100 : ℤ)) where
  u_nonneg := by positivity
  v_nonneg := le_refl _
  η_nonneg := by positivity
  zero := rfl
  fma a b c h := by
    have h1 : |a * b + c| ≤ |a * b| + |c| := abs_add_le _ _
    have h2 := abs_nonneg (a * b)
    have h4 : (0 : ℝ) ≤ 2⁻¹ ^ 98 := by positivity
    have e2 : (2⁻¹ : ℝ) ^ 96 = 4 * 2⁻¹ ^ 98 := by norm_num
    rw [e2] at h ⊢
    have := r.error (a * b + c) (by linarith)
    show |r.rnd (a * b + c) - _| ≤ _
    linarith

/-- **C38 (single precision, not fused).** -/
theorem C38_unfused (r : Rounding 24) : Approx (unfusedArith r) (2⁻¹ ^ 24) (2⁻¹ ^ 23) (2⁻¹ ^ 96) (2 ^ (100 : ℤ)) where
  u_nonneg := by positivity
  v_nonneg := by positivity
  η_nonneg := by positivity
  zero := rfl
  fma a b c h := by
    have h2 := abs_nonneg (a * b)
    have hc := abs_nonneg c
    have h4 : (0 : ℝ) ≤ 2⁻¹ ^ 98 := by positivity
    have e2 : (2⁻¹ : ℝ) ^ 96 = 4 * 2⁻¹ ^ 98 := by norm_num
    have e3 : (2⁻¹ : ℝ) ^ 23 = 2 * 2⁻¹ ^ 24 := by norm_num
    rw [e2, e3] at h ⊢
    have hu : (0 : ℝ) ≤ 2⁻¹ ^ 24 * |a * b| := by positivity
    have w1 := r.error (a * b) (by linarith)
    show |r.rnd (r.rnd (a * b) + c) - _| ≤ _
    generalize r.rnd (a * b) = w at w1 ⊢
    have t1 : |w + c| ≤ |w - a * b| + |a * b + c| := by
      have : w + c = (w - a * b) + (a * b + c) := by ring
      rw [this]; exact abs_add_le _ _
    have t2 : |a * b + c| ≤ |a * b| + |c| := abs_add_le _ _
    have w2 := r.error (w + c) (by linarith)
    have t3 : |r.rnd (w + c) - (a * b + c)| ≤ |r.rnd (w + c) - (w + c)| + |w - a * b| := by
      have : r.rnd (w + c) - (a * b + c) = (r.rnd (w + c) - (w + c)) + (w - a * b) := by ring
      rw [this]; exact abs_add_le _ _
    have hy : (2⁻¹ : ℝ) ^ 24 ≤ 1 := by norm_num
    have hy0 : (0 : ℝ) ≤ 2⁻¹ ^ 24 := by positivity
    generalize (2⁻¹ : ℝ) ^ 24 = y at *
    generalize (2⁻¹ : ℝ) ^ 98 = z at *
    have k1 : y * |w + c| ≤ y * (y * |a * b| + z + |a * b + c|) := mul_le_mul_of_nonneg_left (by linarith) hy0
    have k2 : y * (y * |a * b|) ≤ 1 * (y * |a * b|) := mul_le_mul_of_nonneg_right hy hu
    have k3 : y * z ≤ 1 * z := mul_le_mul_of_nonneg_right hy h4
    nlinarith

/-- A fused multiply-add that rounds away from the exact result by a factor depending on the operands' signs. -/
noncomputable def skewed : Arith ℝ :=
  ⟨0, fun a b c => if 0 ≤ a * b + c then (a * b + c) * (1 + 2⁻¹ ^ 24) else (a * b + c) * (1 - 2⁻¹ ^ 25)⟩

theorem skewed_ok : Approx skewed (2⁻¹ ^ 24) 0 0 100000 where
  u_nonneg := by positivity
  v_nonneg := le_refl _
  η_nonneg := le_refl _
  zero := rfl
  fma a b c _ := by
    simp only [skewed, zero_mul, zero_add, add_zero]
    split
    · rw [show (a * b + c) * (1 + 2⁻¹ ^ 24) - (a * b + c) = 2⁻¹ ^ 24 * (a * b + c) by ring, abs_mul]
      rw [abs_of_nonneg (by positivity : (0 : ℝ) ≤ 2⁻¹ ^ 24)]
    · rw [show (a * b + c) * (1 - 2⁻¹ ^ 25) - (a * b + c) = -(2⁻¹ ^ 25) * (a * b + c) by ring, abs_mul, abs_neg]
      rw [abs_of_nonneg (by positivity : (0 : ℝ) ≤ 2⁻¹ ^ 25)]
      exact mul_le_mul_of_nonneg_right (by norm_num) (abs_nonneg _)

open Classical in
example (r : Rounding 24) := C38_kfirst_bound (C38_unfused r) (fun b => decide (b ≠ 0)) haswell demo_tile haswell_fits 1 0
  (roomy_ok (3 : ℝ) 43 37 11 0)

/-- The entries of that example do not overflow. -/
example : (1 + (2⁻¹ : ℝ) ^ 24) ^ 11 * ((1 + 2⁻¹ ^ 23) * ∑ k ∈ Finset.range 11, |entry (roomy (3 : ℝ) 43 37 11 0) .A 11 5 k| *
    |entry (roomy (3 : ℝ) 43 37 11 0) .B 37 k 7| + (11 : ℕ) * 2⁻¹ ^ 96) ≤ 2 ^ (100 : ℤ) := by
  simp only [entry, roomy, Finset.sum_const, Finset.card_range]
  norm_num

open Classical in
example := C38_kfirst_bound skewed_ok (fun b => decide (b ≠ 0)) haswell demo_tile haswell_fits 1 0 (roomy_ok (3 : ℝ) 43 37 11 0)

open Classical in
example := C38_mfirst_bound skewed_ok (fun b => decide (b ≠ 0)) armv8 demo_tile_arm armv8_fits_fix 1 (beta := 0) (by simp)
  (roomy_ok (3 : ℝ) 43 36 28 0) (readable_of_dvd demo_tile_arm (roomy_ok (3 : ℝ) 43 36 28 0) (by decide))

open Classical in
example := C38_nfirst_bound skewed_ok (fun b => decide (b ≠ 0)) armv8 demo_tile_arm armv8_fits_fix 1 (beta := 0) (by simp)
  (roomy_ok (3 : ℝ) 43 36 28 0) (readable_of_dvd demo_tile_arm (roomy_ok (3 : ℝ) 43 36 28 0) (by decide))

/-- Executions as in `C38_mfirst_if_ends` exist. -/
example : ∃ prog s', callM armv8 (fun b : ℝ => decide (b ≠ 0)) 43 36 28 4 1 0 16 7 24 = some prog ∧
    Exec skewed prog (roomy (3 : ℝ) 43 36 28 0) (.ok s') ∧ WithinBound (roomy (3 : ℝ) 43 36 28 0) s' 43 36 28 (2⁻¹ ^ 24) 0 0 100000 := by
  obtain ⟨prog, h1, ⟨s', h2⟩, _⟩ := C38_mfirst_bound skewed_ok (fun b => decide (b ≠ 0)) armv8 demo_tile_arm armv8_fits_fix 1
    (beta := 0) (by simp) (roomy_ok (3 : ℝ) 43 36 28 0)
    (readable_of_dvd demo_tile_arm (roomy_ok (3 : ℝ) 43 36 28 0) (by decide))
  exact ⟨prog, s', h1, h2, C38_mfirst_if_ends skewed_ok (fun b => decide (b ≠ 0)) armv8 demo_tile_arm armv8_fits_fix 1
    (beta := 0) (by simp) (roomy_ok (3 : ℝ) 43 36 28 0) h1 h2⟩

/-! ### C43 -/

/-- Arithmetic on reals whose fused multiply-add is exact when the operands are integers and so is the result, of
magnitude at most `2^24`, as for every rounding of single precision. -/
structure IntExact (F : Arith ℝ) : Prop where
  zero : F.zero = 0
  fma : ∀ a b c : ℤ, |a * b + c| ≤ 2 ^ 24 → F.fma a b c = a * b + c

/-- Every IEEE rounding to single precision gives such an arithmetic. -/
theorem IntExact.of_rounding (r : Rounding 24) : IntExact ⟨0, fun a b c => r.rnd (a * b + c)⟩ :=
  ⟨rfl, fun a b c h => by simpa using r.int (a * b + c) h⟩

theorem dot_int {F : Arith ℝ} (hF : IntExact F) (a b : Nat → ℤ) (l : List Nat)
    (hl : (l.map fun k => |a k * b k|).sum ≤ 2 ^ 24) :
    dotFrom F (fun k => (a k : ℝ)) (fun k => (b k : ℝ)) l 0 = ((l.map fun k => a k * b k).sum : ℤ) := by
  induction l using List.reverseRecOn with
  | nil => simp [dotFrom]
  | append_singleton l k ih =>
    simp only [map_append, map_cons, map_nil, sum_append, sum_cons, sum_nil, add_zero] at hl ⊢
    have h0 : 0 ≤ |a k * b k| := abs_nonneg _
    have e : dotFrom F (fun k => (a k : ℝ)) (fun k => (b k : ℝ)) (l ++ [k]) 0 =
        F.fma (a k) (b k) (dotFrom F (fun k => (a k : ℝ)) (fun k => (b k : ℝ)) l 0) := by
      simp [dotFrom]
    have hs : |(l.map fun k => a k * b k).sum| ≤ (l.map fun k => |a k * b k|).sum := by
      clear ih e hl h0
      induction l with
      | nil => simp
      | cons x l ih =>
        simp only [map_cons, sum_cons]
        refine (abs_add_le _ _).trans ?_
        linarith
    rw [e, ih (by linarith), hF.fma]
    · push_cast; ring
    · have := abs_add_le (a k * b k) (l.map fun k => a k * b k).sum
      linarith

/-- **C43.** If the entries are integers and `Σ_k |a_ik||b_kj| ≤ 2^24` for every entry of C, the product is exact,
whatever the rounding: so every schedule, tile size and number of threads gives the same C, bit for bit. -/
theorem IsProduct.int {F : Arith ℝ} (hF : IntExact F) {s s' : State ℝ} {M N K : Nat} {a b : Nat → Nat → ℤ}
    (ha : ∀ r k, r < M → k < K → entry s .A K r k = a r k) (hb : ∀ k c, k < K → c < N → entry s .B N k c = b k c)
    (hab : ∀ r c, r < M → c < N → ∑ k ∈ Finset.range K, |a r k * b k c| ≤ 2 ^ 24)
    (h : IsProduct F s s' M N K (fun _ _ => F.zero)) :
    ∀ r c, r < M → c < N → entry s' .C N r c = ((∑ k ∈ Finset.range K, a r k * b k c : ℤ) : ℝ) := by
  intro r c hr hc
  obtain ⟨-, order, ho, e⟩ := h r c hr hc
  rw [e]
  have e1 : dotFrom F (fun k => entry s .A K r k) (fun k => entry s .B N k c) order F.zero =
      dotFrom F (fun k => (a r k : ℝ)) (fun k => (b k c : ℝ)) order F.zero := by
    unfold dotFrom
    refine List.foldl_ext _ _ _ ?_
    intro acc k hk
    have : k < K := mem_range.1 (ho.mem_iff.1 hk)
    simp only
    rw [ha r k hr this, hb k c this hc]
  simp only at *
  rw [e1, hF.zero, dot_int hF (a r) (fun k => b k c) order]
  · rw [(ho.map _).sum_eq, Finset.sum_eq_multiset_sum]; rfl
  · rw [(ho.map fun k => |a r k * b k c|).sum_eq]
    have := hab r c hr hc
    rw [Finset.sum_eq_multiset_sum] at this
    exact this

section
variable {F : Arith ℝ} (hF : IntExact F) (nz : ℝ → Bool) (cx : Cntx)
variable {M N K p m_c k_c n_c : Nat}
include hF

/-- **C43 (K-first).** Integer matrices whose dot products stay within `2^24` are multiplied exactly. -/
theorem C43_kfirst_int_exact (h : TileOK p cx.m_r cx.n_r m_c k_c n_c) (hk : cx.kmap.Fits cx.m_r cx.n_r) (alpha beta : ℝ)
    {s : State ℝ} (hs : CallOK s M N K) {a b : Nat → Nat → ℤ}
    (ha : ∀ r k, r < M → k < K → entry s .A K r k = a r k) (hb : ∀ k c, k < K → c < N → entry s .B N k c = b k c)
    (hab : ∀ r c, r < M → c < N → ∑ k ∈ Finset.range K, |a r k * b k c| ≤ 2 ^ 24) :
    Computes F (callK cx nz M N K p alpha beta m_c k_c n_c) s (fun s' =>
      ∀ r c, r < M → c < N → entry s' .C N r c = ((∑ k ∈ Finset.range K, a r k * b k c : ℤ) : ℝ)) :=
  (C01_kfirst_product F nz cx h hk alpha beta hs).mono fun _ hs' => hs'.int hF ha hb hab

/-- **C43 (M-first).** -/
theorem C43_mfirst_int_exact (h : TileOK p cx.m_r cx.n_r m_c k_c n_c) (hk : cx.kfix.Fits cx.m_r cx.n_r) (alpha : ℝ)
    {beta : ℝ} (hb0 : nz beta = false) {s : State ℝ} (hs : CallOK s M N K)
    (hB : Holds s .B 1 (bNeed N K p cx.n_r k_c n_c)) {a b : Nat → Nat → ℤ}
    (ha : ∀ r k, r < M → k < K → entry s .A K r k = a r k) (hb : ∀ k c, k < K → c < N → entry s .B N k c = b k c)
    (hab : ∀ r c, r < M → c < N → ∑ k ∈ Finset.range K, |a r k * b k c| ≤ 2 ^ 24) :
    Computes F (callM cx nz M N K p alpha beta m_c k_c n_c) s (fun s' =>
      ∀ r c, r < M → c < N → entry s' .C N r c = ((∑ k ∈ Finset.range K, a r k * b k c : ℤ) : ℝ)) :=
  (C02_mfirst_product F nz cx h hk alpha hb0 hs hB).mono fun _ hs' => hs'.int hF ha hb hab

/-- **C43 (N-first).** -/
theorem C43_nfirst_int_exact (h : TileOK p cx.m_r cx.n_r m_c k_c n_c) (hk : cx.kfix.Fits cx.m_r cx.n_r) (alpha : ℝ)
    {beta : ℝ} (hb0 : nz beta = false) {s : State ℝ} (hs : CallOK s M N K)
    (hB : Holds s .B 1 (bNeed N K p cx.n_r k_c n_c)) {a b : Nat → Nat → ℤ}
    (ha : ∀ r k, r < M → k < K → entry s .A K r k = a r k) (hb : ∀ k c, k < K → c < N → entry s .B N k c = b k c)
    (hab : ∀ r c, r < M → c < N → ∑ k ∈ Finset.range K, |a r k * b k c| ≤ 2 ^ 24) :
    Computes F (callN cx nz M N K p alpha beta m_c k_c n_c) s (fun s' =>
      ∀ r c, r < M → c < N → entry s' .C N r c = ((∑ k ∈ Finset.range K, a r k * b k c : ℤ) : ℝ)) :=
  (C03_nfirst_product F nz cx h hk alpha hb0 hs hB).mono fun _ hs' => hs'.int hF ha hb hab

/-- **C43 (M-first), without any assumption on the memory behind B.** -/
theorem C43_mfirst_if_ends (h : TileOK p cx.m_r cx.n_r m_c k_c n_c) (hk : cx.kfix.Fits cx.m_r cx.n_r) (alpha : ℝ)
    {beta : ℝ} (hb0 : nz beta = false) {s : State ℝ} (hs : CallOK s M N K) {a b : Nat → Nat → ℤ}
    (ha : ∀ r k, r < M → k < K → entry s .A K r k = a r k) (hb : ∀ k c, k < K → c < N → entry s .B N k c = b k c)
    (hab : ∀ r c, r < M → c < N → ∑ k ∈ Finset.range K, |a r k * b k c| ≤ 2 ^ 24) {prog : Prog}
    (hp : callM cx nz M N K p alpha beta m_c k_c n_c = some prog) {s' : State ℝ} (he : Exec F prog s (.ok s')) :
    ∀ r c, r < M → c < N → entry s' .C N r c = ((∑ k ∈ Finset.range K, a r k * b k c : ℤ) : ℝ) :=
  (C02_mfirst_if_ends F nz cx h hk alpha hb0 hs hp he).1.int hF ha hb hab

/-- **C43 (N-first), without any assumption on the memory behind B.** -/
theorem C43_nfirst_if_ends (h : TileOK p cx.m_r cx.n_r m_c k_c n_c) (hk : cx.kfix.Fits cx.m_r cx.n_r) (alpha : ℝ)
    {beta : ℝ} (hb0 : nz beta = false) {s : State ℝ} (hs : CallOK s M N K) {a b : Nat → Nat → ℤ}
    (ha : ∀ r k, r < M → k < K → entry s .A K r k = a r k) (hb : ∀ k c, k < K → c < N → entry s .B N k c = b k c)
    (hab : ∀ r c, r < M → c < N → ∑ k ∈ Finset.range K, |a r k * b k c| ≤ 2 ^ 24) {prog : Prog}
    (hp : callN cx nz M N K p alpha beta m_c k_c n_c = some prog) {s' : State ℝ} (he : Exec F prog s (.ok s')) :
    ∀ r c, r < M → c < N → entry s' .C N r c = ((∑ k ∈ Finset.range K, a r k * b k c : ℤ) : ℝ) :=
  (C03_nfirst_if_ends F nz cx h hk alpha hb0 hs hp he).1.int hF ha hb hab

end

open Classical in
example := C43_kfirst_int_exact (IntExact.of_rounding (nearest 24 (by norm_num))) (fun b => decide (b ≠ 0)) haswell demo_tile
  haswell_fits 1 0 (roomy_ok (3 : ℝ) 43 37 11 0) (a := fun _ _ => 3) (b := fun _ _ => 3) (by simp [entry, roomy])
  (by simp [entry, roomy]) (by simp)

open Classical in
example := C43_mfirst_int_exact (IntExact.of_rounding (nearest 24 (by norm_num))) (fun b => decide (b ≠ 0)) armv8 demo_tile_arm
  armv8_fits_fix 1 (beta := 0) (by simp) (roomy_ok (3 : ℝ) 43 36 28 0)
  (readable_of_dvd demo_tile_arm (roomy_ok (3 : ℝ) 43 36 28 0) (by decide)) (a := fun _ _ => 3) (b := fun _ _ => 3)
  (by simp [entry, roomy]) (by simp [entry, roomy]) (by simp)

open Classical in
example := C43_nfirst_int_exact (IntExact.of_rounding (nearest 24 (by norm_num))) (fun b => decide (b ≠ 0)) armv8 demo_tile_arm
  armv8_fits_fix 1 (beta := 0) (by simp) (roomy_ok (3 : ℝ) 43 36 28 0)
  (readable_of_dvd demo_tile_arm (roomy_ok (3 : ℝ) 43 36 28 0) (by decide)) (a := fun _ _ => 3) (b := fun _ _ => 3)
  (by simp [entry, roomy]) (by simp [entry, roomy]) (by simp)

end Cake
