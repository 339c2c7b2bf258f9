/-
Properties C48 (forward pass of the PyTorch layer) and C49 (backward pass).
-/
import Verif.Model.Linear
import Verif.Props.Api

namespace Cake
open List

theorem gemmState_ok {α : Type _} (zero : α) (a b : Nat → α) (M N K : Nat) :
    CallOK (gemmState zero a b (M * K) (K * N) (M * N)) M N K :=
  ⟨⟨⟨_, rfl, Nat.le_refl _⟩, fun _ _ => rfl⟩, ⟨⟨_, rfl, Nat.le_refl _⟩, fun _ _ => rfl⟩,
    ⟨_, rfl, Nat.le_refl _⟩, fun b h1 h2 h3 h4 => by cases b <;> first | rfl | contradiction⟩

theorem Tensor.flat_at {α : Type _} (x : Tensor α) {i j : Nat} (hj : j < x.cols) :
    x.flat (i * x.cols + j) = x.at_ i j := by
  unfold Tensor.flat
  have hc : 0 < x.cols := by omega
  rw [Nat.mul_comm i, Nat.mul_add_div hc, Nat.mul_add_mod, Nat.div_eq_of_lt hj, Nat.mod_eq_of_lt hj,
    Nat.add_zero]

section
variable {α : Type _} (F : Arith α) (one : α) (add : α → α → α) (nz : α → Bool)
variable (r : Rounding 53) (rs : Rounding 24) (nf : Option ℝ → Option ℝ → Bool)

/-- `y` is the product of an `M x K` and a `K x N` matrix given by their elements: each element is the dot
product, each of the `K` products entering once, in some order. -/
def IsDot (M N K : Nat) (x w : Nat → Nat → α) (y : Nat → Nat → α) : Prop :=
  ∀ i j, i < M → j < N → ∃ order : List Nat, order.Perm (range K) ∧
    y i j = dotFrom F (fun k => x i k) (fun k => w k j) order F.zero

theorem gemm10_spec {mc : Machine} {cx : CCtx (Option ℝ)} {m_r n_r L2 L3 nc : Nat}
    (h : Ready mc cx m_r n_r L2 L3 nc) (hk : mc.kfix.Fits m_r n_r) (hl : 8 * (m_r * (m_r + 2 * n_r)) ≤ L2)
    (hz : nz F.zero = false) (M N K : Nat) (hN : n_r ∣ N) (a b : Nat → α) :
    (∃ v, gemm10 (ieee r rs nf) F one nz mc cx M N K a b (.ok v)) ∧
    ∀ o, gemm10 (ieee r rs nf) F one nz mc cx M N K a b o → o = .exit ∨ ∃ v cx', o = .ok (v, cx') ∧
      Ready mc cx' m_r n_r L2 L3 nc ∧
      IsDot F M N K (fun i k => a (i * K + k)) (fun k j => b (k * N + j)) (fun i j => v (i * N + j)) := by
  obtain ⟨prog, cx', e, hR, hc⟩ := C42_default_partial F r rs nf nz (cntx := some cx) h hk
    (a := { M := M, N := N, K := K, p := 10, alpha := one, beta := F.zero }) ⟨rfl, rfl⟩ (Nat.succ_pos 9)
    (.auto (show 10 ≤ 2 ^ 15 by norm_num) hl (Or.inl rfl)) hz (gemmState_ok F.zero a b M N K) (Or.inl hN) (by simp)
  obtain ⟨_, e', ⟨s', hex⟩, hall⟩ := hc
  cases e'
  unfold publicCall at e
  unfold gemm10
  rw [e]
  simp only
  refine ⟨⟨_, _, hex, rfl⟩, ?_⟩
  rintro o ⟨e1, he1, rfl⟩
  rcases hall e1 he1 with rfl | ⟨s1, rfl, hs1⟩
  · exact Or.inl rfl
  · refine Or.inr ⟨_, _, rfl, hR, fun i j hi hj => ?_⟩
    obtain ⟨-, order, hp, ho⟩ := hs1.product i j hi hj
    exact ⟨order, hp, ho⟩

/-- The context is as the tile computation needs it: what `cake_query_cntx_torch` leaves uninitialised
happens to hold the kernel indices and core count that `cake_query_cntx` would have stored. -/
structure RawOK (mc : Machine) (raw : CCtx (Option ℝ)) (nc : Nat) : Prop where
  m_map : raw.m_map = mc.arch.m_map mc.arch.sm
  n_map : raw.n_map = mc.arch.n_map mc.arch.sn
  ncores : raw.ncores = nc
  pos : 0 < nc
  le : nc ≤ 2 ^ 20

theorem RawOK.ready {mc : Machine} {raw : CCtx (Option ℝ)} {nc L2 L3 : Nat} (h : RawOK mc raw nc)
    (ha : mc.arch = archHaswell ∨ mc.arch = archArmv8) (hm : mc.arch.sm ≤ mc.m_lim)
    (hn : mc.arch.sn ≤ mc.n_lim) (h2 : L2 < 2 ^ 31) (h3 : L3 < 2 ^ 31) :
    Ready mc (query_cntx_torch (ieee r rs nf) mc raw L2 L3) mc.arch.sm mc.arch.sn L2 L3 nc := by
  have hq : MachineOK { mc with L2 := L2, L3 := L3, ncores := nc, kfix := ⟨mc.arch.L, mc.arch.sm, mc.arch.sn / mc.arch.L⟩ } L2 L3 nc := by
    refine ⟨ha, hm, hn, rfl, rfl, rfl, ?_, h2, h3, h.pos, h.le⟩
    rcases ha with e | e <;> rw [e]
  have := hq.query (ieee r rs nf)
  exact ⟨⟨rfl, rfl, rfl, rfl, h.ncores, this.cache.mr_pos, this.cache.nr_pos, this.cache.nr_le, h2, h3, h.pos, h.le⟩,
    h.m_map, h.n_map, ha, this.gen_m, this.gen_n⟩

/-- What the library is compiled for: one of the two architectures, the default kernel among the generated
ones and compiled in. -/
structure BuildOK (mc : Machine) : Prop where
  arch : mc.arch = archHaswell ∨ mc.arch = archArmv8
  m_lim : mc.arch.sm ≤ mc.m_lim
  n_lim : mc.arch.sn ≤ mc.n_lim
  kfix : mc.kfix = ⟨mc.arch.L, mc.arch.sm, mc.arch.sn / mc.arch.L⟩

theorem BuildOK.fits {mc : Machine} (h : BuildOK mc) : mc.kfix.Fits mc.arch.sm mc.arch.sn := by
  rw [h.kfix]
  rcases h.arch with e | e <;> rw [e] <;> exact ⟨by decide, rfl, rfl⟩

/-- **C48, what holds.** If the uninitialised part of the context holds the right values (`RawOK`), the cache
size given admits a register tile, and the number of output features is a multiple of the register tile:
the forward pass has no undefined behaviour, and unless an allocation fails it returns the
`M x N` tensor input times transposed weight plus bias (bias added once per element, or not at all if
undefined). Missing: other contents of the context (`C48_context_refuted`) and other numbers of features, for which
the product may read behind the weights (C10). -/
theorem C48_forward_partial {mc : Machine} (hb : BuildOK mc) {raw : CCtx (Option ℝ)} {nc L2 L3 : Nat}
    (hr : RawOK mc raw nc) (h2 : L2 < 2 ^ 31) (h3 : L3 < 2 ^ 31)
    (hl : 8 * (mc.arch.sm * (mc.arch.sm + 2 * mc.arch.sn)) ≤ L2) (hz : nz F.zero = false)
    (input weight : Tensor α) (hcols : weight.cols = input.cols) (hN : mc.arch.sn ∣ weight.rows)
    (bias : Option (Nat → α)) :
    (∃ y, linear_forward (ieee r rs nf) F one add nz mc raw L2 L3 input weight bias (.ok y)) ∧
    ∀ o, linear_forward (ieee r rs nf) F one add nz mc raw L2 L3 input weight bias o → o = .exit ∨
      ∃ y, o = .ok y ∧ y.rows = input.rows ∧ y.cols = weight.rows ∧
        ∃ xw, IsDot F input.rows weight.rows input.cols input.at_ (fun k j => weight.at_ j k) xw ∧
          ∀ i j, i < input.rows → j < weight.rows →
            y.at_ i j = match bias with
              | some b => add (xw i j) (b j)
              | none => xw i j := by
  have hR := hr.ready r rs nf (L2 := L2) (L3 := L3) hb.arch hb.m_lim hb.n_lim h2 h3
  obtain ⟨⟨v, hv⟩, hall⟩ := gemm10_spec F one nz r rs nf hR hb.fits hl hz input.rows weight.rows input.cols hN
    input.flat weight.t.flat
  have hsz : ¬ weight.cols * weight.rows ≠ weight.rows * input.cols := by
    rw [hcols, Nat.mul_comm]; simp
  unfold linear_forward
  simp only [if_neg hsz]
  refine ⟨⟨_, _, hv, rfl⟩, ?_⟩
  rintro o ⟨g, hg, ho⟩
  rcases hall g hg with rfl | ⟨v, cx', rfl, -, hd⟩
  · exact Or.inl ho
  · have ho' := show o = _ from ho
    refine Or.inr ⟨_, ho', ?_, ?_, fun i j => v (i * weight.rows + j), ?_, ?_⟩
    · cases bias <;> rfl
    · cases bias <;> rfl
    · intro i j hi hj
      obtain ⟨order, hp, e⟩ := hd i j hi hj
      refine ⟨order, hp, e.trans ?_⟩
      unfold dotFrom
      apply List.foldl_ext
      intro acc k hk
      have hk' : k < input.cols := by simpa using hp.mem_iff.1 hk
      simp only
      rw [Tensor.flat_at input hk']
      have := Tensor.flat_at weight.t (i := k) (j := j) hj
      rw [show weight.t.cols = weight.rows from rfl] at this
      rw [this]
      rfl
    · intro i j _ _
      cases bias <;> rfl

theorem haswell_build : BuildOK haswellMachine := ⟨Or.inl rfl, by decide, by decide, rfl⟩

/-- Memory that happens to contain an earlier, complete context. -/
theorem raw_ok : RawOK haswellMachine (query_cntx (ieee r rs nf) haswellMachine) 4 :=
  ⟨rfl, rfl, rfl, by decide, by decide⟩

/-- 5 samples, 7 input features, 48 output features, on a machine with 256 KB L2 and 20 MB L3. -/
example := C48_forward_partial (exact Int) 1 (· + ·) (· != 0) r rs nf haswell_build (raw_ok r rs nf)
  (L2 := 262144) (L3 := 20971520) (by norm_num) (by norm_num) (by decide) (by simp [exact])
  ⟨5, 7, fun i j => i + 2 * j⟩ ⟨48, 7, fun i j => 3 * i - j⟩ rfl (by decide) (some fun j => j)

/-- In exact arithmetic: `X * W^T + b`. -/
theorem C48_exact_partial {R : Type _} [CommSemiring R] (nz : R → Bool) {mc : Machine} (hb : BuildOK mc)
    {raw : CCtx (Option ℝ)} {nc L2 L3 : Nat}
    (hr : RawOK mc raw nc) (h2 : L2 < 2 ^ 31) (h3 : L3 < 2 ^ 31)
    (hl : 8 * (mc.arch.sm * (mc.arch.sm + 2 * mc.arch.sn)) ≤ L2) (hz : nz 0 = false)
    (input weight : Tensor R) (hcols : weight.cols = input.cols) (hN : mc.arch.sn ∣ weight.rows)
    (b : Nat → R) (y : Tensor R)
    (ho : linear_forward (ieee r rs nf) (exact R) 1 (· + ·) nz mc raw L2 L3 input weight (some b) (.ok y))
    (i j : Nat) (hi : i < input.rows) (hj : j < weight.rows) :
    y.at_ i j = ∑ k ∈ Finset.range input.cols, input.at_ i k * weight.at_ j k + b j := by
  rcases (C48_forward_partial (exact R) 1 (· + ·) nz r rs nf hb hr h2 h3 hl hz input weight hcols hN
    (some b)).2 _ ho with h | ⟨y', h, -, -, xw, hd, he⟩
  · cases h
  · cases h
    rw [he i j hi hj]
    obtain ⟨order, hp, e⟩ := hd i j hi hj
    simp only
    rw [e, dotFrom_exact _ _ hp]
    simp [exact]

/-- **C48 does not hold as the context is made:** `ncores` is never stored. Whatever the shapes, cache sizes,
build, and tensors: if the allocated memory happens to contain 0 there, every run has undefined behaviour
(division by zero gives a value that is converted to `int`). -/
theorem C48_context_refuted (mc : Machine) (raw : CCtx (Option ℝ)) (h0 : raw.ncores = 0) (L2 L3 : Int)
    (input weight : Tensor α) (hcols : weight.cols = input.cols) (bias : Option (Nat → α)) (o : Ret (Tensor α))
    (ho : linear_forward (ieee r rs nf) F one add nz mc raw L2 L3 input weight bias o) : o = .ub := by
  have hsz : ¬ weight.cols * weight.rows ≠ weight.rows * input.cols := by
    rw [hcols, Nat.mul_comm]; simp
  unfold linear_forward at ho
  simp only [if_neg hsz] at ho
  obtain ⟨g, hg, ho⟩ := ho
  have e0 : r.rnd ((0 : ℤ) : ℝ) = ((0 : ℤ) : ℝ) := r.int 0 (by norm_num)
  have e3 : mcL3 (ieee r rs nf) (query_cntx_torch (ieee r rs nf) mc raw L2 L3) ((ieee r rs nf).ofInt 4) =
      .error .ub := by
    unfold mcL3
    simp only [query_cntx_torch, h0, bind, Except.bind, cInt]
    simp only [ieee, Option.bind_some, Int.cast_zero]
    simp only [Int.cast_zero] at e0
    simp [e0]
  have e2 : ∀ cx : CCtx (Option ℝ), ∀ e, mcL2 (ieee r rs nf) cx ((ieee r rs nf).ofInt 4) = .error e → e = .ub := by
    intro cx e h
    unfold mcL2 at h
    simp only [bind, Except.bind, pure, Except.pure] at h
    split at h
    · rename_i e' h'
      cases h
      unfold cInt at h'
      split at h' <;> cases h'
      rfl
    · split at h
      · rename_i e' h'
        cases h
        unfold cMod at h'
        split at h' <;> cases h'
        rfl
      · cases h
  have key : sgemm_api (ieee r rs nf) nz mc (some (query_cntx_torch (ieee r rs nf) mc raw L2 L3))
      ⟨.A, 0⟩ ⟨.B, 0⟩ ⟨.C, 0⟩ { M := input.rows, N := weight.rows, K := input.cols, p := 10, alpha := one, beta := F.zero } =
        .error .ub := by
    unfold sgemm_api get_cache_dims
    simp only [Option.getD_some, bind, Except.bind]
    rcases hm : mcL2 (ieee r rs nf) (query_cntx_torch (ieee r rs nf) mc raw L2 L3) ((ieee r rs nf).ofInt 4) with e | v
    · rw [e2 _ e hm]
    · simp only [e3]
  unfold gemm10 at hg
  rw [key] at hg
  simp only at hg
  subst hg
  exact ho

/-- Memory from `calloc` or fresh from the system is such memory. -/
example := C48_context_refuted (exact Int) 1 (· + ·) (· != 0) r rs nf haswellMachine
  ⟨some 0, 0, 0, 0, 0, 0, 0, 0⟩ rfl 262144 20971520 ⟨5, 7, fun i j => i + 2 * j⟩ ⟨48, 7, fun i j => 3 * i - j⟩ rfl
  (some fun j => j)

/-! ### C49 -/

/-- **C49, the two products.** Under the same conditions, the backward pass has no undefined behaviour and unless an
allocation fails it returns grad_output times weight and transposed grad_output times input. Missing: the
bias gradient, which is wrong (`C49_bias_iff`), and what is missing in C48. -/
theorem C49_products_partial {mc : Machine} (hb : BuildOK mc) {raw : CCtx (Option ℝ)} {nc L2 L3 : Nat}
    (hr : RawOK mc raw nc) (h2 : L2 < 2 ^ 31) (h3 : L3 < 2 ^ 31)
    (hl : 8 * (mc.arch.sm * (mc.arch.sm + 2 * mc.arch.sn)) ≤ L2) (hz : nz F.zero = false)
    (go input weight : Tensor α) (hw : weight.rows = go.cols) (hx : input.rows = go.rows)
    (hc : input.cols = weight.cols) (hN : mc.arch.sn ∣ weight.cols) (bias : Bool) :
    (∃ y, linear_backward (ieee r rs nf) F one add nz mc raw L2 L3 go input weight bias (.ok y)) ∧
    ∀ o, linear_backward (ieee r rs nf) F one add nz mc raw L2 L3 go input weight bias o → o = .exit ∨
      ∃ gi gw gb, o = .ok (gi, gw, gb) ∧
        gi.rows = go.rows ∧ gi.cols = weight.cols ∧
        IsDot F go.rows weight.cols go.cols go.at_ weight.at_ gi.at_ ∧
        gw.rows = go.cols ∧ gw.cols = input.cols ∧
        IsDot F go.cols input.cols go.rows (fun i k => go.at_ k i) input.at_ gw.at_ := by
  have hR := hr.ready r rs nf (L2 := L2) (L3 := L3) hb.arch hb.m_lim hb.n_lim h2 h3
  have conv : ∀ (x w : Tensor α) (v : Nat → α), w.rows = x.cols →
      IsDot F x.rows w.cols x.cols (fun i k => x.flat (i * x.cols + k)) (fun k j => w.flat (k * w.cols + j))
        (fun i j => v (i * w.cols + j)) →
      IsDot F x.rows w.cols x.cols x.at_ w.at_ (unflat x.rows w.cols v).at_ := by
    intro x w v _ hd i j hi hj
    obtain ⟨order, hp, e⟩ := hd i j hi hj
    refine ⟨order, hp, e.trans ?_⟩
    unfold dotFrom
    apply List.foldl_ext
    intro acc k hk
    have hk' : k < x.cols := by simpa using hp.mem_iff.1 hk
    simp only
    rw [Tensor.flat_at x hk', Tensor.flat_at w hj]
  obtain ⟨⟨v, hv⟩, hall⟩ := gemm10_spec F one nz r rs nf hR hb.fits hl hz go.rows weight.cols go.cols hN
    go.flat weight.flat
  have hsz : ¬ weight.rows * weight.cols ≠ weight.cols * go.cols := by
    rw [hw, Nat.mul_comm]; simp
  have hsz' : ¬ go.t.rows * go.t.cols ≠ go.t.rows * input.rows := by
    rw [hx]; simp [Tensor.t]
  have hall2 := fun (cx' : CCtx (Option ℝ)) (h : Ready mc cx' mc.arch.sm mc.arch.sn L2 L3 nc) =>
    gemm10_spec F one nz r rs nf h hb.fits hl hz go.t.rows input.cols input.rows (hc ▸ hN) go.t.flat input.flat
  unfold linear_backward
  simp only [if_neg hsz, if_neg hsz']
  constructor
  · obtain ⟨v1, cx'⟩ := v
    rcases hall _ hv with h | ⟨v2, cx2, h, hR2, -⟩
    · cases h
    · cases h
      obtain ⟨⟨w, hw⟩, -⟩ := hall2 _ hR2
      exact ⟨_, _, hv, _, hw, rfl⟩
  · rintro o ⟨g, hg, ho⟩
    rcases hall g hg with rfl | ⟨v, cx', rfl, hR2, hd⟩
    · exact Or.inl ho
    · obtain ⟨g', hg', ho'⟩ := ho
      rcases (hall2 _ hR2).2 g' hg' with rfl | ⟨w, cx2, rfl, -, hd2⟩
      · exact Or.inl ho'
      · refine Or.inr ⟨_, _, _, ho', rfl, rfl, conv go weight v hw hd, rfl, rfl, ?_⟩
        have := conv go.t input w hx
        simp only [hx] at hd2
        exact this hd2

/-- 5 samples, 48 input features, 7 output features. -/
example := C49_products_partial (exact Int) 1 (· + ·) (· != 0) r rs nf haswell_build (raw_ok r rs nf)
  (L2 := 262144) (L3 := 20971520) (by norm_num) (by norm_num) (by decide) (by simp [exact])
  ⟨5, 7, fun i j => i + 2 * j⟩ ⟨5, 48, fun i j => 3 * i - j⟩ ⟨7, 48, fun i j => i * j⟩ rfl rfl rfl (by decide) true

/-- The gradient of the bias: for each output feature, the sum of grad_output over the batch. -/
def biasGradient {R : Type _} [AddCommMonoid R] (go : Tensor R) (j : Nat) : R :=
  ∑ i ∈ Finset.range go.rows, go.at_ i j

theorem sum0_exact {R : Type _} [CommSemiring R] (x : Tensor R) (j : Nat) :
    sum0 (exact R) (· + ·) x j = ∑ i ∈ Finset.range x.rows, x.at_ i j := by
  unfold sum0
  induction x.rows with
  | zero => rfl
  | succ n ih => rw [List.range_succ, List.foldl_append, ih, Finset.sum_range_succ]; rfl

/-- **C49, the bias gradient.** For batch size `b` and `f` output features the returned bias gradient is right
for all gradients if and only if the batch has at most one sample or there is at most one feature: the code sums a
reinterpretation of the transposed gradient. -/
theorem C49_bias_iff {R : Type _} [CommSemiring R] [Nontrivial R] (b f : Nat) :
    (∀ go : Tensor R, go.rows = b → go.cols = f → ∀ j, j < f →
      backward_bias (exact R) (· + ·) go b j = biasGradient go j) ↔ b ≤ 1 ∨ f ≤ 1 := by
  have e : ∀ (go : Tensor R) (j : Nat), go.rows = b → go.cols = f → backward_bias (exact R) (· + ·) go b j =
      ∑ i ∈ Finset.range b, go.at_ ((i * f + j) % b) ((i * f + j) / b) := by
    intro go j h1 h2
    unfold backward_bias
    rw [sum0_exact]
    simp only [unflat, Tensor.t, Tensor.flat, h1, h2]
  constructor
  · intro h
    by_contra hn
    have hb : 2 ≤ b := by omega
    have hf : 2 ≤ f := by omega
    have := h ⟨b, f, fun i j => if i = 1 ∧ j = 0 then 1 else 0⟩ rfl rfl 0 (by omega)
    rw [e _ _ rfl rfl] at this
    simp only [biasGradient] at this
    have h1 : ∑ i ∈ Finset.range b, (if i = 1 ∧ True then (1 : R) else 0) = 1 := by
      simp only [and_true]
      rw [Finset.sum_ite_eq']
      rw [if_pos (Finset.mem_range.2 (by omega))]
    have h2 : ∑ i ∈ Finset.range b, (if (i * f + 0) % b = 1 ∧ (i * f + 0) / b = 0 then (1 : R) else 0) = 0 := by
      apply Finset.sum_eq_zero
      intro i hi
      rw [if_neg]
      rintro ⟨h3, h4⟩
      have h5 := Nat.div_add_mod (i * f + 0) b
      rw [h3, h4, Nat.mul_zero] at h5
      have h6 : i * f = 1 := by omega
      have := Nat.eq_one_of_mul_eq_one_left h6
      omega
    rw [h1, h2] at this
    exact zero_ne_one this
  · rintro h go h1 h2 j hj
    rw [e go j h1 h2, biasGradient, h1]
    apply Finset.sum_congr rfl
    intro i hi
    rw [Finset.mem_range] at hi
    rcases h with h | h
    · have hb : b = 1 := by omega
      have hi0 : i = 0 := by omega
      subst hb hi0
      simp [Nat.mod_one]
    · have hf : f = 1 := by omega
      have hj0 : j = 0 := by omega
      subst hf hj0
      rw [Nat.mul_one, Nat.add_zero, Nat.mod_eq_of_lt hi, Nat.div_eq_of_lt hi]

/-- Two samples, two features, gradient `[[1, 2], [3, 4]]`: the bias gradient is `[4, 6]`, the code returns
`[3, 7]`. -/
theorem C49_bias_refuted :
    let go : Tensor Int := ⟨2, 2, fun i j => 2 * i + j + 1⟩
    biasGradient go 0 = 4 ∧ biasGradient go 1 = 6 ∧
      backward_bias (exact Int) (· + ·) go 2 0 = 3 ∧ backward_bias (exact Int) (· + ·) go 2 1 = 7 := by
  decide +kernel

end
end Cake
