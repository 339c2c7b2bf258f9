/-
Property C45: tile sizes and default calls of the 2-D products.
-/
import Verif.Proofs.TwoDTiles
import Verif.Props.Api
import Verif.Props.TwoDSmall

namespace Cake
open List

/-! ### The tile only shrinks -/

theorem roundUpC_le {a r c : Nat} (hr : 0 < r) (h : a ≤ c) (hd : r ∣ c) : roundUpC a r ≤ c := by
  unfold roundUpC
  split
  · obtain ⟨j, rfl⟩ := hd
    have h1 := Nat.div_add_mod a r
    have h2 := Nat.mod_lt a hr
    have h3 : a / r < j := by
      by_contra hc
      have : r * j ≤ r * (a / r) := Nat.mul_le_mul_left _ (by omega)
      omega
    have : r * (a / r + 1) ≤ r * j := Nat.mul_le_mul_left _ h3
    rw [Nat.mul_add] at this
    omega
  · exact h

theorem fit2d_le {padded pm m_c mr : Nat} (hr : 0 < mr) (hd : mr ∣ m_c) (h0 : 0 < m_c) :
    (fit2d padded pm m_c mr).2 ≤ m_c := by
  have hle : mr ≤ m_c := Nat.le_of_dvd h0 hd
  unfold fit2d
  split
  · exact hle
  · split
    · rename_i h
      dsimp only
      split
      · exact hle
      · refine roundUpC_le hr ?_ hd
        have : padded / pm < m_c := Nat.div_lt_of_lt_mul h
        omega
    · exact Nat.le_refl _

section
variable (r : Rounding 53) (rs : Rounding 24) (nf : Option ℝ → Option ℝ → Bool)

/-- The cache sizes cover one register tile: `L1` holds one column of A and row of B besides the tile of C,
`L2` a square tile of side `m_r`. -/
structure CachesHold (l1 L2 m_r n_r : Nat) : Prop where
  l1_le : l1 ≤ 2 ^ 22
  l1 : m_r * n_r + (m_r + n_r) ≤ l1
  l2 : 4 * (m_r * (2 * m_r + n_r)) ≤ L2

theorem tiles2d_auto {cx : CCtx (Option ℝ)} {m_r n_r L2 L3 nc l1 : Nat} (ok : CacheOK cx m_r n_r L2 L3 nc)
    (h : CachesHold l1 L2 m_r n_r) {mcu kcu ncu : Nat} (hu : mcu = 0 ∨ ncu = 0 ∨ kcu = 0) {t : Nat}
    (ht : IsL2Side2 n_r L2 t) :
    tiles2d (ieee r rs nf) cx ((4 * l1 : Nat) : ℤ) mcu kcu ncu =
      .ok (((t - t % m_r : Nat) : ℤ), (((l1 - m_r * n_r) / (m_r + n_r) : Nat) : ℤ)) := by
  have := ok.mr_pos
  have e1 := kcMax_val r rs nf (l := l1) (mr := m_r) (nr := n_r) (by omega) h.l1_le
    (by have := h.l1; omega) (by have := h.l1; have := h.l1_le; omega)
  have e2 := (autoMc2d_val r rs nf cx ok.mr_eq ok.mr_pos ok.nr_eq ok.nr_le ok.l2_eq ok.l2_lt ht).1
  unfold tiles2d
  rw [ok.mr_eq, ok.nr_eq, e1]
  simp only [bind, Except.bind]
  rw [if_neg (by omega), e2]
  rfl

theorem tiles2d_user {cx : CCtx (Option ℝ)} {m_r n_r L2 L3 nc l1 : Nat} (ok : CacheOK cx m_r n_r L2 L3 nc)
    (h1 : l1 ≤ 2 ^ 22) (h2 : m_r * n_r + (m_r + n_r) ≤ l1) {mcu kcu ncu : Nat} (a : 0 < mcu) (b : 0 < kcu) (c : 0 < ncu) :
    tiles2d (ieee r rs nf) cx ((4 * l1 : Nat) : ℤ) mcu kcu ncu = .ok ((mcu : ℤ), (kcu : ℤ)) := by
  have := ok.mr_pos
  have e1 := kcMax_val r rs nf (l := l1) (mr := m_r) (nr := n_r) (by omega) h1 (by omega) (by omega)
  unfold tiles2d
  rw [ok.mr_eq, ok.nr_eq, e1]
  simp only [bind, Except.bind]
  rw [if_pos ⟨by omega, by omega, by omega⟩]
  rfl

/-- **C45, tile sizes.** Whatever the rounding, for caches that hold one register tile: the tile computed from the
cache sizes is a positive multiple of `m_r` and of positive depth; one column of A tile, one row of B tile and a
C register tile of that depth fit into L1, and no greater depth would; the square tile of that side fits into L2. -/
theorem C45_tiles {cx : CCtx (Option ℝ)} {m_r n_r L2 L3 nc l1 : Nat} (ok : CacheOK cx m_r n_r L2 L3 nc)
    (h : CachesHold l1 L2 m_r n_r) {mcu kcu ncu : Nat} (hu : mcu = 0 ∨ ncu = 0 ∨ kcu = 0) :
    ∃ m_c k_c : Nat, tiles2d (ieee r rs nf) cx ((4 * l1 : Nat) : ℤ) mcu kcu ncu = .ok ((m_c : ℤ), (k_c : ℤ)) ∧
      0 < m_c ∧ m_r ∣ m_c ∧ 0 < k_c ∧
      m_r * k_c + k_c * n_r + m_r * n_r ≤ l1 ∧
      (∀ k, m_r * k + k * n_r + m_r * n_r ≤ l1 → k ≤ k_c) ∧
      4 * (m_c * m_c + n_r * m_c + m_c * m_c) ≤ L2 := by
  obtain ⟨t, ht⟩ := isL2Side2_exists n_r L2
  have hmr := ok.mr_pos
  have htm := ht.pos h.l2
  have hl1 := h.l1
  have hkd : ∀ k, k ≤ (l1 - m_r * n_r) / (m_r + n_r) ↔ m_r * k + k * n_r + m_r * n_r ≤ l1 := by
    intro k
    rw [Nat.le_div_iff_mul_le (by omega), Nat.mul_add, Nat.mul_comm k m_r]
    omega
  refine ⟨_, _, tiles2d_auto r rs nf ok h hu ht, ?_, sub_mod_dvd t m_r, ?_, (hkd _).1 (Nat.le_refl _), fun k hk => (hkd k).2 hk, ?_⟩
  · have := le_sub_mod htm hmr; omega
  · exact (hkd 1).2 (by omega)
  · have := ht.fits (c := t - t % m_r) (Nat.sub_le _ _)
    have e : (t - t % m_r) * (2 * (t - t % m_r) + n_r) =
        (t - t % m_r) * (t - t % m_r) + n_r * (t - t % m_r) + (t - t % m_r) * (t - t % m_r) := by ring
    omega

/-- A Haswell machine with 32 KB of L1 and 256 KB of L2. -/
example := C45_tiles r rs nf (cx := haswellCtx) (m_r := 6) (n_r := 16) (L2 := 262144) (L3 := 20971520) (nc := 4)
  (l1 := 8192) ⟨rfl, rfl, rfl, rfl, rfl, by norm_num, by norm_num, by norm_num, by norm_num, by norm_num, by norm_num,
    by norm_num⟩ ⟨by norm_num, by norm_num, by norm_num⟩ (mcu := 0) (kcu := 0) (ncu := 0) (Or.inl rfl)

/-- **C45, what holds of the L2 condition.** The tile that a call ends up with fits into L2, as documented, if its
depth and width do not exceed the height computed from L2. Missing: other tiles, see `C45_L2_refuted`. -/
theorem C45_L2_partial {m_r n_r L2 m_c k_c M N K p pn : Nat} (hm : 0 < m_r) (hmc : 0 < m_c) (hd : m_r ∣ m_c)
    (hpn : 0 < pn) (hL2 : 4 * (m_c * m_c + n_r * m_c + m_c * m_c) ≤ L2) {x : BlkDims2}
    (hx : init_block_dims_2d M N K p m_r n_r pn m_c k_c = some x) (hk : x.k_c ≤ m_c) (hn : x.n_c ≤ m_c) :
    4 * (x.m_c * x.k_c + n_r * x.k_c + x.m_c * x.n_c) ≤ L2 := by
  have hle : x.m_c ≤ m_c := by
    rw [init2d_eq hpn] at hx
    unfold dims2d at hx
    split at hx
    · cases hx
    · cases hx
      exact fit2d_le hm hd hmc
  have h1 := Nat.mul_le_mul hle hk
  have h2 := Nat.mul_le_mul (Nat.le_refl n_r) hk
  have h3 := Nat.mul_le_mul hle hn
  omega

/-- Met by a tile of 48 x 40 with a row tile of 48 computed from L2 (with a smaller depth given by the user). -/
example : ∃ x, init_block_dims_2d 1000 1000 1000 4 6 16 2 48 40 = some x ∧ x.k_c ≤ 48 ∧ x.n_c ≤ 48 := by
  refine ⟨_, rfl, ?_, ?_⟩ <;> decide

/-- **C45, the L2 condition fails.** On a machine with 32 KB of L1 and 256 KB of L2, whatever the rounding, a product
of 10000 x 10000 matrices uses a tile of 174 x 368 x 176: with a panel of B it takes 402176 bytes, half as much again as
L2 holds. -/
theorem C45_L2_refuted : ∃ m_c k_c : ℤ, tiles2d (ieee r rs nf) haswellCtx 32768 0 0 0 = .ok (m_c, k_c) ∧
    ∃ x, init_block_dims_2d 10000 10000 10000 1 6 16 1 m_c.toNat k_c.toNat = some x ∧
      haswellCtx.L2 < 4 * ((x.m_c * x.k_c + 16 * x.k_c + x.m_c * x.n_c : Nat) : ℤ) := by
  have e := tiles2d_auto r rs nf (cx := haswellCtx) (m_r := 6) (n_r := 16) (L2 := 262144) (L3 := 20971520) (nc := 4)
    (l1 := 8192) ⟨rfl, rfl, rfl, rfl, rfl, by norm_num, by norm_num, by norm_num, by norm_num, by norm_num, by norm_num,
    by norm_num⟩ ⟨by norm_num, by norm_num, by norm_num⟩ (mcu := 0) (kcu := 0) (ncu := 0) (Or.inl rfl) (t := 177)
    ⟨by norm_num, by norm_num⟩
  refine ⟨_, _, e, _, rfl, ?_⟩
  show (262144 : ℤ) < _
  decide

end

/-! ### Default calls -/

section
variable {α : Type _} (F : Arith α)
variable (r : Rounding 53) (rs : Rounding 24) (nf : Option ℝ → Option ℝ → Bool)

/-- Tile sizes of a 2-D call: automatic with caches that hold a register tile, or the user's with a row tile that
is a multiple of `m_r`. -/
inductive Tiles2OK (m_r n_r l1 L2 : Nat) (a : Args α) : Prop
  | auto (h : CachesHold l1 L2 m_r n_r) (u : a.mcu = 0 ∨ a.ncu = 0 ∨ a.kcu = 0)
  | user (h1 : l1 ≤ 2 ^ 22) (h2 : m_r * n_r + (m_r + n_r) ≤ l1) (m : 0 < a.mcu) (k : 0 < a.kcu) (n : 0 < a.ncu)
      (hm : m_r ∣ a.mcu)

theorem Tiles2OK.val {m_r n_r l1 L2 L3 nc : Nat} {a : Args α} (h : Tiles2OK m_r n_r l1 L2 a) {cx : CCtx (Option ℝ)}
    (ok : CacheOK cx m_r n_r L2 L3 nc) :
    ∃ m_c k_c : Nat, tiles2d (ieee r rs nf) cx ((4 * l1 : Nat) : ℤ) a.mcu a.kcu a.ncu = .ok ((m_c : ℤ), (k_c : ℤ)) ∧
      0 < m_c ∧ m_r ∣ m_c ∧ 0 < k_c := by
  cases h with
  | auto h u =>
    obtain ⟨m_c, k_c, e, h1, h2, h3, -⟩ := C45_tiles r rs nf ok h u
    exact ⟨m_c, k_c, e, h1, h2, h3⟩
  | user h1 h2 m k n hm => exact ⟨_, _, tiles2d_user r rs nf ok h1 h2 m k n, m, hm, k⟩

theorem WithCtx.slack {s s1 : State α} (h : WithCtx s s1) {M N K m_r n_r : Nat} (hs : Slack s M N K m_r n_r) :
    Slack s1 M N K m_r n_r := ⟨h.holds (by simp) hs.a, h.holds (by simp) hs.b⟩

/-- **C45, the default call of `cake_sgemm_2d`**, from its first line: context or NULL, grid from the table, tiles from
the cache sizes or the user. Whenever the grid is defined (C30) and C is not empty, the call gets to its product under every
rounding, computes it, changes nothing else, and leaves no object but the context of a NULL call. Missing:
an undefined grid (C30), empty C (C05), operands without readable slack (C11), other kernels than the compiled-in one (C28). -/
theorem C45_2d_default_partial {mc : Machine} {cntx : Option (CCtx (Option ℝ))} {m_r n_r l1 L2 L3 nc r0 pn0 : Nat}
    (h : Ready mc (cntx.getD (query_cntx (ieee r rs nf) mc)) m_r n_r L2 L3 nc) (hk : mc.kfix.Fits m_r n_r)
    {a : Args α} (ht : Tiles2OK m_r n_r l1 L2 a) (hr : max 1 r0 ≤ a.p) (hp : a.p ≤ nc)
    (hw : clampPn pn0 a.p ∣ a.p ∨ ∃ d, d ∣ a.p ∧ 1 < d ∧ d < clampPn pn0 a.p) (hM : 0 < a.M) (hN : 0 < a.N)
    {s : State α} (hs : CallOK s a.M a.N a.K) (hsl : Slack s a.M a.N a.K m_r n_r)
    (hctx : cntx = none → s.size .Ctx = none) :
    ∃ prog, sgemm_2d_api (ieee r rs nf) mc (gridTable nc r0) cntx ((4 * l1 : Nat) : ℤ) pn0 ⟨.A, 0⟩ ⟨.B, 0⟩ ⟨.C, 0⟩ a =
        .ok prog ∧
      Computes F (some prog) s (fun s' => Correct F cntx.isNone s s' a.M a.N a.K) := by
  obtain ⟨m_c, k_c, e, h1, h2, h3⟩ := ht.val r rs nf h.cache
  obtain ⟨kd, ev, -⟩ := h.view
  obtain ⟨pn, eg, hdv, h0, -⟩ := C30_partial hr hp hw
  have hf : Fit2 a.M a.N a.p m_r n_r pn m_c k_c :=
    ⟨hM, hN, h.cache.mr_pos, h.cache.nr_pos, h0, Nat.le_of_dvd (by omega) hdv, h1, h3, h2⟩
  obtain ⟨x, hx, ec⟩ := call2_body (α := α) ⟨m_r, n_r, kd, mc.kfix⟩ (K := a.K) hf a.packedA a.packedB a.alpha a.beta
  have enc : (cntx.getD (query_cntx (ieee r rs nf) mc)).ncores.toNat = nc := by rw [h.cache.nc_eq]; rfl
  refine ⟨_, ?_, computes_ctx (prog := sgemm2dBody ⟨m_r, n_r, kd, mc.kfix⟩ ⟨.A, 0⟩ ⟨.B, 0⟩ ⟨.C, 0⟩ a.M a.N a.K a.p x) _
    (fun e => hctx (by simpa using e)) fun s1 w1 w2 => ?_⟩
  · unfold sgemm_2d_api
    simp only [bind, Except.bind]
    rw [enc, eg]
    simp only
    rw [e]
    simp only
    rw [ev]
    simp only
    rw [if_neg (by omega), Int.toNat_natCast, Int.toNat_natCast]
    unfold call2 at ec
    rw [ec]
    rfl
  · have hs1 : CallOK s1 a.M a.N a.K ∧ Slack s1 a.M a.N a.K m_r n_r := by
      cases e : cntx.isNone with
      | true => exact ⟨(w1 e).call hs, (w1 e).slack hsl⟩
      | false => rw [w2 e]; exact ⟨hs, hsl⟩
    rw [← ec]
    exact (sgemm2d_call F ⟨m_r, n_r, kd, mc.kfix⟩ hf hk a.packedA a.packedB a.alpha a.beta hs1.1 hs1.2).mono fun s' hs' =>
      Correct.of_env (orderKMN_perm h3) rfl hs'

/-- NULL context on a Haswell machine with 32 KB of L1: 4 of 4 cores, ragged everywhere. -/
example := C45_2d_default_partial (exact Int) r rs nf (cntx := none) (l1 := 8192) (r0 := 0) (pn0 := 3)
  (haswellMachine_ok.query (ieee r rs nf)) haswellMachine_ok.kfix_fits
  (a := { M := 79, N := 169, K := 11, p := 4, alpha := 1, beta := 0 })
  (.auto ⟨by norm_num, by decide, by decide⟩ (Or.inl rfl)) (by decide) (by decide)
  (Or.inr ⟨2, by decide, by decide, by decide⟩) (by decide) (by decide)
  (padded_ok 79 169 11 55 7 fun _ => 7) (padded_slack _ (by decide) (by decide)) (fun _ => rfl)

/-- **C45, `cake_sgemm_2d_small`** from its first line, likewise; `hg` says that the grid does not lead it out of its
buffers (C11). -/
theorem C45_small_default_partial {mc : Machine} {cntx : Option (CCtx (Option ℝ))} {m_r n_r l1 L2 L3 nc r0 pn0 : Nat}
    (h : Ready mc (cntx.getD (query_cntx (ieee r rs nf) mc)) m_r n_r L2 L3 nc) (hk : mc.kfix.Fits m_r n_r)
    {a : Args α} (hl : l1 ≤ 2 ^ 22) (hl1 : m_r * n_r + (m_r + n_r) ≤ l1) (hr : max 1 r0 ≤ a.p) (hp : a.p ≤ nc)
    (hw : clampPn pn0 a.p ∣ a.p ∨ ∃ d, d ∣ a.p ∧ 1 < d ∧ d < clampPn pn0 a.p)
    (hg : ∀ pn, grid_dims_2d (gridTable nc r0) pn0 a.p nc = some pn → 0 < a.K → GridFits a.M a.N a.p m_r n_r pn)
    {s : State α} (hs : CallOK s a.M a.N a.K) (hsl : Slack s a.M a.N a.K m_r n_r)
    (hctx : cntx = none → s.size .Ctx = none) :
    ∃ prog, sgemm_2d_small_api (ieee r rs nf) mc (gridTable nc r0) cntx ((4 * l1 : Nat) : ℤ) pn0 ⟨.A, 0⟩ ⟨.B, 0⟩ ⟨.C, 0⟩ a
        = .ok prog ∧
      Computes F (some prog) s (fun s' => Correct F cntx.isNone s s' a.M a.N a.K) := by
  have hmr := h.cache.mr_pos
  have ek := kcMax_val r rs nf (l := l1) (mr := m_r) (nr := n_r) (by omega) hl (by omega) (by omega)
  have hkm : 0 < (l1 - m_r * n_r) / (m_r + n_r) := Nat.div_pos (by omega) (by omega)
  obtain ⟨kd, ev, -⟩ := h.view
  obtain ⟨pn, eg, hdv, h0, -⟩ := C30_partial hr hp hw
  have hpn : pn ≤ a.p := Nat.le_of_dvd (by omega) hdv
  obtain ⟨prog, ec⟩ := small_is_some (cx := ⟨m_r, n_r, kd, mc.kfix⟩) (M := a.M) (N := a.N) (K := a.K) hmr a.packedA
    a.packedB a.alpha a.beta h0 hpn hkm
  have enc : (cntx.getD (query_cntx (ieee r rs nf) mc)).ncores.toNat = nc := by rw [h.cache.nc_eq]; rfl
  refine ⟨_, ?_, computes_ctx (prog := prog) _ (fun e => hctx (by simpa using e)) fun s1 w1 w2 => ?_⟩
  · unfold sgemm_2d_small_api
    simp only [bind, Except.bind]
    rw [enc, eg]
    simp only
    rw [h.cache.mr_eq, h.cache.nr_eq, ek]
    simp only
    rw [ev]
    simp only
    rw [if_neg (by omega), Int.toNat_natCast, ec]
    rfl
  · have hs1 : CallOK s1 a.M a.N a.K ∧ Slack s1 a.M a.N a.K m_r n_r := by
      cases e : cntx.isNone with
      | true => exact ⟨(w1 e).call hs, (w1 e).slack hsl⟩
      | false => rw [w2 e]; exact ⟨hs, hsl⟩
    rw [← ec]
    exact (small_call F ⟨m_r, n_r, kd, mc.kfix⟩ hmr h.cache.nr_pos hk h0 hpn hkm (hg pn eg) a.packedA a.packedB a.alpha
      a.beta hs1.1 hs1.2).mono fun s' hs' => Correct.of_env (order := fun _ _ => range a.K) (fun _ _ => Perm.refl _) rfl hs'

/-- Given context, 2 x 2 of 4 cores. -/
example := C45_small_default_partial (exact Int) r rs nf (cntx := some _) (l1 := 8192) (r0 := 0) (pn0 := 2)
  (haswellMachine_ok.query (ieee r rs nf)) haswellMachine_ok.kfix_fits
  (a := { M := 40, N := 50, K := 11, p := 4, alpha := 1, beta := 0 })
  (by norm_num) (by decide) (by decide) (by decide) (Or.inl (by decide))
  (fun pn e _ => by
    have : grid_dims_2d (gridTable 4 0) 2 4 4 = some 2 := by decide +kernel
    rw [this] at e; cases e; exact demo_gridFits)
  (padded_ok 40 50 11 55 20 fun _ => 7) (padded_slack _ (by decide) (by decide)) (by simp)

end
end Cake
