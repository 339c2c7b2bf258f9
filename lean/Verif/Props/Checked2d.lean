/-
C63 and C67 for `cake_sgemm_2d`, with every `int` expression recorded where the code evaluates it.
-/
import Verif.Proofs.Checked2d
import Verif.Props.TwoD
import Verif.Props.IntRangeOn
import Verif.Props.TwoDApi
import Verif.Props.Api32

namespace Cake
open List

section
variable {α : Type} (F : Arith α) (cx : Cntx) {M N K p pn m_c k_c : Nat}

/-- **C63, no wrong index, 2-D.** Whatever the arguments: if the 2-D call over 32-bit `int` is defined, it performs exactly the
accesses of the call over unbounded integers. -/
theorem C63_2d_run32_same (A B C : Loc) (packedA packedB : Bool) (alpha beta : α) {prog : Prog}
    (h : cake_sgemm_2d32 cx A B C M N K p pn m_c k_c = some prog) :
    cake_sgemm_2d cx A B C M N K p packedA packedB alpha beta pn m_c k_c = some prog := by
  unfold cake_sgemm_2d32 W.run at h
  split at h
  · rename_i hv
    rw [Option.some.injEq] at h
    subst h
    unfold cake_sgemm_2dW at hv
    rw [forall_bind] at hv
    unfold cake_sgemm_2d
    rw [init2d_of_run hv.1]
    simp only [cake_sgemm_2dW, W.val_bind, W.val_pure, W.val_tasks, val_schedule2dW]
    rfl
  · exact absurd h (by simp)

/-- **C63, exactly, 2-D.** For operands whose own sizes fit an `int`, the 2-D call over 32-bit `int` is defined if and only if the
following are below `2^31`, with `g` the grid and tile after they have been shrunk to small operands: M and N rounded up to whole
register tiles; the sum and the product of the sides of a register tile; the grid times the tile on each side, before it is
shrunk (unless the operand is exactly one register tile per core); the tile rounded up to the other side of the register tile; and
the sizes of the three block buffers. -/
theorem C63_2d_run32_defined_iff (h : Fit2 M N p cx.m_r cx.n_r pn m_c k_c) (A B C : Loc) (hp : p < 2 ^ 31) (hmc : m_c < 2 ^ 31)
    (hMK : M * K < 2 ^ 31) (hKN : K * N < 2 ^ 31) (hMN : M * N < 2 ^ 31) :
    let g := grid2 M N p cx.m_r cx.n_r pn m_c
    (∃ prog, cake_sgemm_2d32 cx A B C M N K p pn m_c k_c = some prog) ↔
      cdiv M cx.m_r * cx.m_r < 2 ^ 31 ∧ cdiv N cx.n_r * cx.n_r < 2 ^ 31 ∧ cx.m_r + cx.n_r < 2 ^ 31 ∧ cx.m_r * cx.n_r < 2 ^ 31 ∧
      (cdiv M cx.m_r * cx.m_r = p / pn * cx.m_r ∨ p / pn * m_c < 2 ^ 31) ∧ cdiv g.m_c cx.n_r * cx.n_r < 2 ^ 31 ∧
      (cdiv N cx.n_r * cx.n_r = pn * cx.n_r ∨ pn * (cdiv g.m_c cx.n_r * cx.n_r) < 2 ^ 31) ∧
      g.m_c * g.n_c < 2 ^ 31 ∧ g.pm * g.m_c * k_c < 2 ^ 31 ∧ g.pn * g.n_c * k_c < 2 ^ 31 := by
  intro g
  have hmr := h.m_r_pos
  have hnr := h.n_r_pos
  rw [← roundUpC_cdiv hmr, ← roundUpC_cdiv hnr, ← roundUpC_cdiv hnr]
  constructor
  · rintro ⟨prog, hprog⟩
    have hok := ok_of_2d32 cx h hprog
    obtain ⟨x, hi, hv, hx⟩ := init2d_grid (K := K) h
    obtain ⟨⟨e1, e2, e3, e4, e5⟩, -⟩ := dims2d_fields hx
    simp only [cake_sgemm_2dW, W.ok_bind, W.ok_pure, W.ok_tasks, W.ok_ev, and_true, hv, e1, e2, e3, e4, e5] at hok
    obtain ⟨hd, ha, hb, hc, -⟩ := hok
    have c := (hc 0 (mem_range.2 (Nat.lt_of_lt_of_le h.pn_pos h.pn_le))).1.lt
    simp only [init2dW, W.ok_bind, W.ok_ev, val_roundUpW, val_fit2dW] at hd
    obtain ⟨-, d1, d2, d3, d4, d5, d6, d7, -⟩ := hd
    have up : ∀ {y r : Nat}, y < 2 ^ 31 → W.Ok (roundUpW y r) → roundUpC y r < 2 ^ 31 := by
      intro y r hy ho
      simp only [roundUpW, W.ok_bind, W.ok_ev, W.ok_sel] at ho
      unfold roundUpC
      split
      · rename_i hne
        exact (ho.2.1 hne).lt
      · exact hy
    have low : ∀ {y r : Nat}, W.Ok (roundUpW y r) → y < 2 ^ 31 := by
      intro y r ho
      simp only [roundUpW, W.ok_bind, W.ok_ev] at ho
      exact ho.1.1
    have fit : ∀ {padded pm t r : Nat}, W.Ok (fit2dW padded pm t r) → padded = pm * r ∨ pm * t < 2 ^ 31 := by
      intro padded pm t r ho
      simp only [fit2dW, W.ok_bind, W.ok_ev, W.ok_sel] at ho
      rcases Classical.em (padded = pm * r) with he | he
      · exact .inl he
      · exact .inr (ho.2.2 he).1.lt
    exact ⟨up (low d1) d1, up (low d2) d2, d4.lt, d3.lt, fit d5, up (low d6) d6, fit d7, c, ha.lt, hb.lt⟩
  · rintro ⟨h1, h2, h3, h4, h5, h6, h7, h8, h9, h10⟩
    exact ⟨_, run2d32_of_ok cx (ok_cake_sgemm_2dW cx h A B C ⟨h1, h2, h3, h4, h5, h6, h7, h8, h9, h10⟩ hp hmc
      (Nat.lt_of_le_of_lt (Nat.le_mul_of_pos_left _ h.M_pos) hMK) hMK hKN hMN)⟩

/-- **C63, what undefined means, 2-D.** The 2-D call over 32-bit `int` is undefined only by an overflow or a division by zero. -/
theorem C63_2d_run32_undefined_iff (h : Fit2 M N p cx.m_r cx.n_r pn m_c k_c) (A B C : Loc) :
    cake_sgemm_2d32 cx A B C M N K p pn m_c k_c = none ↔
      ∃ e ∈ (cake_sgemm_2dW cx A B C M N K p pn m_c k_c).ints, e.eval32 = none := by
  unfold cake_sgemm_2d32 W.run
  constructor
  · intro hn
    split at hn
    · exact absurd hn (by simp)
    · rename_i hv
      by_contra hne
      exact hv fun e he => E.eval32_of_fits (E.fits_of_eval32 (pos_cake_sgemm_2dW cx h A B C e he) fun h0 => hne ⟨e, he, h0⟩)
  · rintro ⟨e, he, h0⟩
    refine if_neg fun hv => ?_
    rw [hv e he] at h0
    exact absurd h0 (by simp)

/-- **C63, the 32-bit 2-D call computes the product**, if the elements that packing reads beyond A and B are readable. In terms of
the arguments: operands, padded operands and the tiles of the whole grid below `2^31`. Missing from the full statement: larger tiles,
see `C63_2d_run32_defined_iff`, and operands without room behind them (C11). -/
theorem C63_2d_run32_product_partial (h : Fit2 M N p cx.m_r cx.n_r pn m_c k_c) (hk : cx.kfix.Fits cx.m_r cx.n_r)
    {s : State α} (hs : CallOK s M N K) (hsl : Slack s M N K cx.m_r cx.n_r) (hp : p < 2 ^ 31)
    (hMK : M * K < 2 ^ 31) (hKN : K * N < 2 ^ 31) (hMN : M * N < 2 ^ 31)
    (hM : cdiv M cx.m_r * cx.m_r < 2 ^ 31) (hN : cdiv N cx.n_r * cx.n_r < 2 ^ 31)
    (hr : cx.m_r * cx.n_r + (cx.m_r + cx.n_r) < 2 ^ 31)
    (hA : p / pn * m_c * k_c < 2 ^ 31) (hB : pn * (cdiv m_c cx.n_r * cx.n_r) * k_c < 2 ^ 31)
    (hC : m_c * (cdiv m_c cx.n_r * cx.n_r) < 2 ^ 31) :
    Computes F (cake_sgemm_2d32 cx ⟨.A, 0⟩ ⟨.B, 0⟩ ⟨.C, 0⟩ M N K p pn m_c k_c) s
      (fun s' => IsProduct F s s' M N K (fun _ _ => F.zero)) := by
  have hmc : m_c < 2 ^ 31 := by
    have h1 : m_c ≤ p / pn * m_c := Nat.le_mul_of_pos_left _ (Nat.div_pos h.pn_le h.pn_pos)
    have h2 : p / pn * m_c ≤ p / pn * m_c * k_c := Nat.le_mul_of_pos_right _ h.k_c_pos
    omega
  obtain ⟨prog, e⟩ := (C63_2d_run32_defined_iff cx h ⟨.A, 0⟩ ⟨.B, 0⟩ ⟨.C, 0⟩ hp hmc hMK hKN hMN).2
    ((C63_2d_iff h hp hmc hMK hKN hMN).1 (C63_2d_partial h hp hMK hKN hMN hM hN hr hA hB hC))
  rw [e, ← C63_2d_run32_same cx _ _ _ false false F.zero F.zero e]
  exact C05_2d_product_partial F cx h hk false false F.zero F.zero hs hsl

example := C63_2d_run32_product_partial (exact Int) haswell demo_fit2 haswell_fits_fix (padded_ok 79 169 11 55 121 fun _ => 7)
  (padded_slack _ (by decide) (by decide)) (by decide) (by decide) (by decide) (by decide) (by decide) (by decide) (by decide)
  (by decide) (by decide) (by decide)

/-- **C63 fails with large tiles, 2-D**: a `7 x 1` product on a column of six cores with a tile of `6 * 2^26` rows overflows. -/
theorem C63_2d_run32_refuted (A B C : Loc) : cake_sgemm_2d32 haswell A B C 7 1 1 6 1 (6 * 2 ^ 26) 1 = none := by
  by_contra hne
  obtain ⟨prog, hp⟩ := Option.ne_none_iff_exists'.1 hne
  have := (C63_2d_run32_defined_iff haswell (N := 1) (K := 1) (M := 7)
    ⟨by decide, by decide, by decide, by decide, by decide, by decide, by decide, by decide, by decide⟩ A B C (by decide) (by decide)
    (by decide) (by decide) (by decide)).1 ⟨prog, hp⟩
  exact absurd this.2.2.2.2.1 (by decide)

example := (C63_2d_run32_undefined_iff haswell (M := 7) (N := 1) (K := 1) (p := 6) (pn := 1) (m_c := 6 * 2 ^ 26) (k_c := 1)
  ⟨by decide, by decide, by decide, by decide, by decide, by decide, by decide, by decide, by decide⟩ ⟨.A, 0⟩ ⟨.B, 0⟩ ⟨.C, 0⟩).1
  (C63_2d_run32_refuted _ _ _)

/-- A C of a little less than `2^31` entries on a grid of 2 x 4 cores: defined. -/
example (A B C : Loc) : ∃ prog, cake_sgemm_2d32 haswell A B C 32768 65535 32767 8 4 96 96 = some prog :=
  (C63_2d_run32_defined_iff haswell
    ⟨by decide, by decide, by decide, by decide, by decide, by decide, by decide, by decide, by decide⟩
    A B C (by decide) (by decide) (by decide) (by decide) (by decide)).2 (by decide)

end

/-! ### The call from its first line -/

section
variable {α : Type} (F : Arith α)

/-- **C67, no wrong index, 2-D.** Whatever the machine, the arguments and the floating-point operations: if the 2-D call over
32-bit `int` is defined, it performs exactly the accesses of the call over unbounded integers. -/
theorem C67_2d_same {D : Type _} (fl : Flt D) {mc : Machine} {tbl : List (List Bool)} {cntx : Option (CCtx D)} {L1 : Int} {pn0 : Nat}
    {A B C : Loc} {a : Args α} {prog : Prog} (h : sgemm_2d_api32 fl mc tbl cntx L1 pn0 A B C a = .ok prog) :
    sgemm_2d_api fl mc tbl cntx L1 pn0 A B C a = .ok prog := by
  revert prog
  show Refines _ _
  unfold sgemm_2d_api32 sgemm_2d_api
  refine .grid fun pn => .bind (ref_tiles2d _ _ _ _ _ _) ?_
  rintro ⟨m_c, k_c⟩
  refine .bind .rfl fun v => .ite .rfl ?_
  intro x hx
  split at hx
  · rename_i prog hp
    show (match cake_sgemm_2d v A B C a.M a.N a.K a.p a.packedA a.packedB a.alpha a.beta pn m_c.toNat k_c.toNat with
      | some prog => (pure ((if cntx.isNone then [Item.malloc .Ctx 1] else []) ++ prog) : Except Fail Prog)
      | none => .error .ub) = _
    rw [C63_2d_run32_same v A B C a.packedA a.packedB a.alpha a.beta hp]
    exact hx
  · simp at hx

variable (r : Rounding 53) (rs : Rounding 24) (nf : Option ℝ → Option ℝ → Bool)

/-- **C67, 2-D.** The 2-D call from its first line: context or NULL, grid from the table (C30), tile sizes chosen by the library,
operands whose own sizes, and whose numbers of rows and columns rounded up to whole register tiles, are below `2^31`, and caches so
that one tile per core of side `w ≥ sqrt(L2/8)` (bytes) is below `2^31`: no `int` operation is undefined, neither in the choice of the
tile sizes nor in the product, and the call computes the product and changes nothing else, if the elements that packing reads beyond A
and B are readable. Missing: an undefined grid (C30), larger caches, operands without room behind them (C11). -/
theorem C67_2d_product_partial {mc : Machine} {cntx : Option (CCtx (Option ℝ))} {m_r n_r l1 L2 L3 nc r0 pn0 w : Nat}
    (h : Ready mc (cntx.getD (query_cntx (ieee r rs nf) mc)) m_r n_r L2 L3 nc) (hk : mc.kfix.Fits m_r n_r)
    {a : Args α} (hc : CachesHold l1 L2 m_r n_r) (hu : a.mcu = 0 ∨ a.ncu = 0 ∨ a.kcu = 0) (hr : max 1 r0 ≤ a.p) (hp : a.p ≤ nc)
    (hw : clampPn pn0 a.p ∣ a.p ∨ ∃ d, d ∣ a.p ∧ 1 < d ∧ d < clampPn pn0 a.p) (hM : 0 < a.M) (hN : 0 < a.N)
    (hL2 : L2 ≤ 8 * (w * w)) (hbuf : a.p * (w + n_r) * l1 < 2 ^ 31 * (m_r + n_r))
    (hMK : a.M * a.K < 2 ^ 31) (hKN : a.K * a.N < 2 ^ 31) (hMN : a.M * a.N < 2 ^ 31)
    (hMp : cdiv a.M m_r * m_r < 2 ^ 31) (hNp : cdiv a.N n_r * n_r < 2 ^ 31)
    {s : State α} (hs : CallOK s a.M a.N a.K) (hsl : Slack s a.M a.N a.K m_r n_r)
    (hctx : cntx = none → s.size .Ctx = none) :
    ∃ prog, sgemm_2d_api32 (ieee r rs nf) mc (gridTable nc r0) cntx ((4 * l1 : Nat) : ℤ) pn0 ⟨.A, 0⟩ ⟨.B, 0⟩ ⟨.C, 0⟩ a =
        .ok prog ∧
      Computes F (some prog) s (fun s' => Correct F cntx.isNone s s' a.M a.N a.K) := by
  obtain ⟨m_c, k_c, e, h1, h2, h3, h4, -, h5⟩ := C45_tiles r rs nf h.cache hc hu
  obtain ⟨kd, ev, -⟩ := h.view
  obtain ⟨pn, eg, hdv, h0, -⟩ := C30_partial hr hp hw
  have hmr := h.cache.mr_pos
  have hnr := h.cache.nr_pos
  have hl1 := hc.l1
  have hl1' := hc.l1_le
  have hpn : pn ≤ a.p := Nat.le_of_dvd (by omega) hdv
  have hf : Fit2 a.M a.N a.p m_r n_r pn m_c k_c := ⟨hM, hN, hmr, hnr, h0, hpn, h1, h3, h2⟩
  have enc : (cntx.getD (query_cntx (ieee r rs nf) mc)).ncores.toNat = nc := by rw [h.cache.nc_eq]; rfl
  have eg' : grid_dims_2d (gridTable nc r0) pn0 a.p (cntx.getD (query_cntx (ieee r rs nf) mc)).ncores.toNat = some pn := by
    rw [enc]; exact eg
  have hmw : m_c ≤ w := by
    by_contra hlt
    have : (w + 1) * (w + 1) ≤ m_c * m_c := Nat.mul_le_mul (by omega) (by omega)
    have e1 : (w + 1) * (w + 1) = w * w + 2 * w + 1 := by ring
    omega
  have hkl : k_c * (m_r + n_r) ≤ l1 := by
    have : k_c * (m_r + n_r) = m_r * k_c + k_c * n_r := by ring
    omega
  have hbig : a.p * (w + n_r) * k_c < 2 ^ 31 := by
    refine Nat.lt_of_mul_lt_mul_right (a := m_r + n_r) (Nat.lt_of_le_of_lt ?_ hbuf)
    rw [Nat.mul_assoc]
    exact Nat.mul_le_mul_left _ hkl
  have hcm : cdiv m_c n_r * n_r ≤ w + n_r := by
    have := cdiv_mul_lt m_c n_r hnr
    omega
  have hnc := h.cache.nc_le
  have hdef := (C63_2d_run32_defined_iff ⟨m_r, n_r, kd, mc.kfix⟩ hf ⟨.A, 0⟩ ⟨.B, 0⟩ ⟨.C, 0⟩ (K := a.K) (by omega) (m_c := m_c) ?_ hMK hKN hMN).2
    ((C63_2d_iff hf (by omega) ?_ hMK hKN hMN).1 (C63_2d_partial hf (by omega) hMK hKN hMN hMp hNp (by omega) ?_ ?_ ?_))
  · obtain ⟨prog, hd⟩ := hdef
    have run : ∀ {β γ : Type} {x : Except Fail β} {b : β} (f : β → Except Fail γ), x = .ok b → (x >>= f) = f b := by
      intro β γ x b f h; rw [h]; rfl
    have e3 : sgemm_2d_api32 (ieee r rs nf) mc (gridTable nc r0) cntx ((4 * l1 : Nat) : ℤ) pn0 ⟨.A, 0⟩ ⟨.B, 0⟩ ⟨.C, 0⟩ a =
        .ok ((if cntx.isNone then [Item.malloc .Ctx 1] else []) ++ prog) := by
      unfold sgemm_2d_api32
      refine (grid_some _ eg').trans ?_
      refine (run _ ((tiles2d32_eq r rs nf h.cache (by omega) (by omega) _ _ _ _).trans e)).trans ?_
      refine (run _ ev).trans ?_
      refine (if_neg (by omega)).trans ?_
      rw [Int.toNat_natCast, Int.toNat_natCast, hd]
      rfl
    obtain ⟨prog', e4, hcmp⟩ := C45_2d_default_partial F r rs nf h hk (.auto hc hu) hr hp hw hM hN hs hsl hctx
    have e5 := C67_2d_same (ieee r rs nf) e3
    rw [e4] at e5
    cases e5
    exact ⟨_, e3, hcmp⟩
  · have := h.cache.l2_lt
    have : m_c ≤ m_c * m_c := Nat.le_mul_of_pos_left _ h1
    omega
  · have := h.cache.l2_lt
    have : m_c ≤ m_c * m_c := Nat.le_mul_of_pos_left _ h1
    omega
  · refine Nat.lt_of_le_of_lt (Nat.mul_le_mul_right _ (Nat.mul_le_mul (Nat.div_le_self _ _) ?_)) hbig
    omega
  · exact Nat.lt_of_le_of_lt (Nat.mul_le_mul_right _ (Nat.mul_le_mul hpn hcm)) hbig
  · have := h.cache.l2_lt
    have h7 : m_c * (cdiv m_c n_r * n_r) ≤ m_c * (m_c + n_r) :=
      Nat.mul_le_mul_left _ (by have := cdiv_mul_lt m_c n_r hnr; omega)
    have h8 : m_c * (m_c + n_r) = m_c * m_c + n_r * m_c := by ring
    omega

/-- NULL context on a Haswell machine with 32 KB of L1: 4 of 4 cores, operands of up to `10^9` entries, ragged everywhere. -/
example := C67_2d_product_partial (exact Int) r rs nf (cntx := none) (l1 := 8192) (r0 := 0) (pn0 := 3) (w := 182)
  (haswellMachine_ok.query (ieee r rs nf)) haswellMachine_ok.kfix_fits
  (a := { M := 100003, N := 169, K := 11001, p := 4, alpha := 1, beta := 0 })
  ⟨by norm_num, by decide, by decide⟩ (Or.inl rfl) (by decide) (by decide)
  (Or.inr ⟨2, by decide, by decide, by decide⟩) (by decide) (by decide) (by decide) (by decide) (by decide) (by decide) (by decide)
  (by decide) (by decide) (padded_ok 100003 169 11001 55005 7 fun _ => 7) (padded_slack _ (by decide) (by decide)) (fun _ => rfl)

end
end Cake
