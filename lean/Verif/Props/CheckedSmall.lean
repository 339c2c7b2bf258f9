/-
C63 and C67 for `cake_sgemm_2d_small`, with every `int` expression recorded where the code evaluates it.
-/
import Verif.Proofs.CheckedSmall
import Verif.Props.IntRangeSmall
import Verif.Props.Checked2d

namespace Cake
open List

section
variable {α : Type} (F : Arith α) (cx : Cntx) {M N K p pn kc_max : Nat}

/-- **C63, no wrong index, small matrices.** Whatever the arguments: if the call over 32-bit `int` is defined, it performs exactly the
accesses of the call over unbounded integers. -/
theorem C63_small_run32_same (A B C : Loc) (packedA packedB : Bool) (alpha beta : α) {prog : Prog}
    (h : cake_sgemm_small32 cx A B C M N K p pn kc_max = some prog) :
    cake_sgemm_2d_small cx A B C M N K p packedA packedB alpha beta pn kc_max = some prog := by
  unfold cake_sgemm_small32 W.run at h
  split at h
  · rename_i hv
    rw [Option.some.injEq] at h
    subst h
    unfold cake_sgemm_smallW at hv
    rw [forall_bind] at hv
    unfold cake_sgemm_2d_small
    rw [initSmall_of_run hv.1]
    simp only [cake_sgemm_smallW, W.val_bind, W.val_pure, W.val_tasks, val_scheduleSmallW]
    rfl
  · exact absurd h (by simp)

/-- **C63, exactly, small matrices.** On a grid that fits (on the others no call ends normally, `C11_small_iff`), for operands whose
own sizes fit an `int`: the call over 32-bit `int` is defined if and only if the following are below `2^31`: M and N rounded up to whole
register tiles, the sum and the product of the sides of a register tile, the sizes of the three buffers, and the index in C of the
first element of the last core. -/
theorem C63_small_run32_defined_iff (hm : 0 < cx.m_r) (hn : 0 < cx.n_r) (hpn : 0 < pn) (hp : pn ≤ p) (hkm : 0 < kc_max)
    (hpi : p < 2 ^ 31) (hg : GridFits M N p cx.m_r cx.n_r pn) (A B C : Loc)
    (hMK : M * K < 2 ^ 31) (hKN : K * N < 2 ^ 31) (hMN : M * N < 2 ^ 31) :
    let Mp := cdiv M cx.m_r * cx.m_r
    let Np := cdiv N cx.n_r * cx.n_r
    let m_c := (Mp / (p / pn) / cx.m_r + 1) * cx.m_r
    let n_c := (Np / pn / cx.n_r + 1) * cx.n_r
    (∃ prog, cake_sgemm_small32 cx A B C M N K p pn kc_max = some prog) ↔
      Mp < 2 ^ 31 ∧ Np < 2 ^ 31 ∧ cx.m_r + cx.n_r < 2 ^ 31 ∧ cx.m_r * cx.n_r < 2 ^ 31 ∧
      Mp * min m_c kc_max < 2 ^ 31 ∧ min m_c kc_max * Np < 2 ^ 31 ∧ m_c * n_c < 2 ^ 31 ∧
      (p / pn - 1) * m_c * N + (pn - 1) * n_c < 2 ^ 31 := by
  intro Mp Np m_c n_c
  obtain ⟨hpd, fm, fn⟩ := hg
  rw [← roundUpC_eq hm] at fm
  rw [← roundUpC_eq hn] at fn
  have eM : Mp = roundUpC M cx.m_r := (roundUpC_cdiv hm).symm
  have eN : Np = roundUpC N cx.n_r := (roundUpC_cdiv hn).symm
  have tile : ∀ {T q r : Nat}, 0 < r → (T / q / r + 1) * r = smallTile T q r := by
    intro T q r hr
    have h1 := Nat.div_add_mod (T / q) r
    have h2 := Nat.mod_lt (T / q) hr
    unfold smallTile
    rw [Nat.add_mul, Nat.one_mul, Nat.mul_comm (T / q / r)]
    omega
  have em : m_c = smallTile (roundUpC M cx.m_r) (p / pn) cx.m_r := by rw [← eM]; exact tile hm
  have en : n_c = smallTile (roundUpC N cx.n_r) pn cx.n_r := by rw [← eN]; exact tile hn
  clear_value Mp Np m_c n_c
  subst eM eN em en
  have hM0 : 0 < M := by
    rcases Nat.eq_zero_or_pos M with e | e
    · exact absurd (by rw [e, Nat.zero_mod]) fm.1
    · exact e
  constructor
  · rintro ⟨prog, hprog⟩
    have hok := ok_of_small32 cx hm hn hpn hp hkm fm.2 fn.2 hprog
    obtain ⟨x, hi, hv, e1, e2, e3, e4, e5, e6, e7, e8, e9, e10, e11, e12⟩ :=
      initSmall_eq (M := M) (N := N) (K := K) (n_r := cx.n_r) hm hpn hp hkm
    simp only [cake_sgemm_smallW, W.ok_bind, W.ok_pure, W.ok_tasks, W.ok_ev, and_true, hv] at hok
    obtain ⟨hd, ha, hb, hc, hs, -⟩ := hok
    have c := (hc 0 (mem_range.2 (by omega))).1.lt
    simp only [scheduleSmallW, W.ok_bind, W.ok_pure, W.ok_tasks, W.ok_ev, and_true] at hs
    have u := (hs.2 (p - 1) (mem_range.2 (by omega))).1.2.2.1.lt
    simp only [initSmallW, W.ok_bind, W.ok_ev, val_roundUpW] at hd
    obtain ⟨-, d1, d2, -, -, -, -, d3, d4, -⟩ := hd
    have up : ∀ {y r : Nat}, W.Ok (roundUpW y r) → roundUpC y r < 2 ^ 31 := by
      intro y r ho
      simp only [roundUpW, W.ok_bind, W.ok_ev, W.ok_sel] at ho
      unfold roundUpC
      split
      · rename_i hne
        exact (ho.2.1 hne).lt
      · exact ho.1.1
    have s1 : x.M_padded * x.k_c < 2 ^ 31 := ha.lt
    have s2 : x.k_c * x.N_padded < 2 ^ 31 := hb.lt
    have s3 : x.m_c * x.n_c < 2 ^ 31 := c
    have s4 : (p - 1) / x.pn * x.m_c * N + (p - 1) % x.pn * x.n_c < 2 ^ 31 := u
    rw [e8, e3] at s1
    rw [e9, e3] at s2
    rw [e1, e2] at s3
    rw [e11, e1, e2] at s4
    obtain ⟨t, rfl⟩ := hpd
    rw [Nat.mul_div_cancel_left _ hpn] at *
    have ht : 0 < t := Nat.pos_of_ne_zero fun h0 => by rw [h0, Nat.mul_zero] at hp; omega
    have e0 : pn * (t - 1) + pn = pn * t := by
      rw [← Nat.mul_succ, Nat.succ_eq_add_one, Nat.sub_add_cancel ht]
    have a1 : (pn * t - 1) / pn = t - 1 := by
      rw [show pn * t - 1 = (t - 1) * pn + (pn - 1) by rw [Nat.mul_comm (t - 1)]; omega]
      exact mulAdd_div (by omega)
    have a2 : (pn * t - 1) % pn = pn - 1 := by
      have h1 := Nat.div_add_mod (pn * t - 1) pn
      rw [a1] at h1
      omega
    rw [a1, a2] at s4
    exact ⟨up d1, up d2, d4.lt, d3.lt, s1, s2, s3, s4⟩
  · rintro ⟨h1, h2, h3, h4, h5, h6, h7, h8⟩
    exact ⟨_, run_small32_of_ok cx (ok_cake_sgemm_smallW cx hm hn hpn hp hkm ⟨h1, h2, h3, h4, h5, h6, h7, h8⟩ hpi
      (Nat.lt_of_le_of_lt (Nat.le_mul_of_pos_left _ hM0) hMK) hMK hKN hMN hpd fm fn A B C)⟩

/-- A 40 x 11 times 11 x 50 product on a grid of 2 x 2 cores: defined. -/
example (A B C : Loc) : ∃ prog, cake_sgemm_small32 haswell A B C 40 50 11 4 2 360 = some prog :=
  (C63_small_run32_defined_iff haswell (by decide) (by decide) (by decide) (by decide) (by decide) (by decide) demo_gridFits A B C
    (by decide) (by decide) (by decide)).2 (by decide)

/-- **C63, what undefined means, small matrices.** On a grid that fits, the call over 32-bit `int` is undefined only by an overflow or
a division by zero. -/
theorem C63_small_run32_undefined_iff (hm : 0 < cx.m_r) (hn : 0 < cx.n_r) (hpn : 0 < pn) (hp : pn ≤ p) (hkm : 0 < kc_max)
    (hg : GridFits M N p cx.m_r cx.n_r pn) (A B C : Loc) :
    cake_sgemm_small32 cx A B C M N K p pn kc_max = none ↔
      ∃ e ∈ (cake_sgemm_smallW cx A B C M N K p pn kc_max).ints, e.eval32 = none := by
  obtain ⟨hpd, fm, fn⟩ := hg
  rw [← roundUpC_eq hm] at fm
  rw [← roundUpC_eq hn] at fn
  unfold cake_sgemm_small32 W.run
  constructor
  · intro h0
    split at h0
    · exact absurd h0 (by simp)
    · rename_i hv
      by_contra hne
      exact hv fun e he => E.eval32_of_fits (E.fits_of_eval32 (pos_cake_sgemm_smallW cx hm hn hpn hp hkm fm.2 fn.2 A B C e he)
        fun h0 => hne ⟨e, he, h0⟩)
  · rintro ⟨e, he, h0⟩
    refine if_neg fun hv => ?_
    rw [hv e he] at h0
    exact absurd h0 (by simp)

/-- **C63 fails for small matrices too**: one core, 46338 x 1 times 1 x 46336. The operands fit an `int` and need no padding; the block
of C, which is rounded up past them, does not. -/
theorem C63_small_run32_refuted (A B C : Loc) : cake_sgemm_small32 haswell A B C 46338 46336 1 1 1 360 = none := by
  by_contra hne
  obtain ⟨prog, hp⟩ := Option.ne_none_iff_exists'.1 hne
  have := (C63_small_run32_defined_iff haswell (by decide) (by decide) (by decide) (by decide) (by decide) (by decide)
    ⟨by decide, ⟨by decide, by decide⟩, ⟨by decide, by decide⟩⟩ A B C (by decide) (by decide) (by decide)).1 ⟨prog, hp⟩
  exact absurd this.2.2.2.2.2.2.1 (by decide)

example := (C63_small_run32_undefined_iff haswell (M := 46338) (N := 46336) (K := 1) (p := 1) (pn := 1) (kc_max := 360) (by decide)
  (by decide) (by decide) (by decide) (by decide) ⟨by decide, ⟨by decide, by decide⟩, ⟨by decide, by decide⟩⟩ ⟨.A, 0⟩ ⟨.B, 0⟩ ⟨.C, 0⟩).1
  (C63_small_run32_refuted _ _ _)

/-- In terms of the operands: it suffices that C, with one more register tile on each side after rounding up, and one block of A and of
B are below `2^31`. -/
theorem C63_small_run32_some {m_r n_r : Nat} (kd kf : KDim) (hm : 0 < m_r) (hn : 0 < n_r) (hpn : 0 < pn) (hp : pn ≤ p) (hkm : 0 < kc_max)
    (hpi : p < 2 ^ 31) (hg : GridFits M N p m_r n_r pn) (A B C : Loc)
    (hMK : M * K < 2 ^ 31) (hKN : K * N < 2 ^ 31)
    (hC : (cdiv M m_r * m_r + m_r) * (cdiv N n_r * n_r + n_r) < 2 ^ 31)
    (hA : cdiv M m_r * m_r * kc_max < 2 ^ 31) (hB : kc_max * (cdiv N n_r * n_r) < 2 ^ 31) :
    ∃ prog, cake_sgemm_small32 ⟨m_r, n_r, kd, kf⟩ A B C M N K p pn kc_max = some prog := by
  have hq : 0 < p / pn := Nat.div_pos hp hpn
  have up : ∀ {T r : Nat}, 0 < r → T ≤ cdiv T r * r := fun hr => by rw [← roundUpC_cdiv hr]; exact roundUpC_ge _ _
  have hMN : M * N < 2 ^ 31 := Nat.lt_of_le_of_lt (Nat.mul_le_mul (Nat.le_add_right_of_le (up hm)) (Nat.le_add_right_of_le (up hn))) hC
  refine (C63_small_run32_defined_iff ⟨m_r, n_r, kd, kf⟩ hm hn hpn hp hkm hpi hg A B C hMK hKN hMN).2 ?_
  obtain ⟨hpd, fm, fn⟩ := hg
  rw [← roundUpC_eq hm, roundUpC_cdiv hm] at fm
  rw [← roundUpC_eq hn, roundUpC_cdiv hn] at fn
  have tile : ∀ {T q r : Nat}, 0 < r → (T / q / r + 1) * r = smallTile T q r := by
    intro T q r hr
    have h1 := Nat.div_add_mod (T / q) r
    have h2 := Nat.mod_lt (T / q) hr
    unfold smallTile
    rw [Nat.add_mul, Nat.one_mul, Nat.mul_comm (T / q / r)]
    omega
  have tle : ∀ {T q r : Nat}, smallTile T q r ≤ T + r := by
    intro T q r
    have := Nat.div_le_self T q
    unfold smallTile
    omega
  have hNN := up (T := N) hn
  dsimp only
  rw [tile hm, tile hn]
  have pos : ∀ {T q r : Nat}, 0 < r → SmallFits (cdiv T r * r) q r T → r ≤ cdiv T r * r := by
    intro T q r hr hf
    refine Nat.le_mul_of_pos_left _ (Nat.pos_of_ne_zero fun h0 => hf.1 ?_)
    have := up (T := T) hr
    rw [h0, Nat.zero_mul] at this
    rw [Nat.le_zero.1 this, Nat.zero_mod]
  have p1 := pos hm fm
  have p2 := pos hn fn
  have f1 := fm.2
  have f2 := fn.2
  generalize cdiv M m_r * m_r = Mp at *
  generalize cdiv N n_r * n_r = Np at *
  have e : (Mp + m_r) * (Np + n_r) = Mp * Np + Mp * n_r + m_r * Np + m_r * n_r := by ring
  have g1 : Mp ≤ Mp * n_r := Nat.le_mul_of_pos_right _ hn
  have g2 : Np ≤ m_r * Np := Nat.le_mul_of_pos_left _ hm
  have g3 : m_r ≤ m_r * n_r := Nat.le_mul_of_pos_right _ hn
  have g4 : n_r ≤ m_r * n_r := Nat.le_mul_of_pos_left _ hm
  refine ⟨by omega, by omega, by omega, by omega, ?_, ?_, ?_, ?_⟩
  · exact Nat.lt_of_le_of_lt (Nat.mul_le_mul_left _ (Nat.min_le_right _ _)) hA
  · exact Nat.lt_of_le_of_lt (Nat.mul_le_mul_right _ (Nat.min_le_right _ _)) hB
  · exact Nat.lt_of_le_of_lt (Nat.mul_le_mul tle tle) hC
  · have := Nat.mul_le_mul f1 hNN
    omega

/-- **C63, the 32-bit call for small matrices computes the product**, on a grid that fits, if the elements that packing reads beyond A
and B are readable and the sizes named are below `2^31`. Missing from the full statement: the sizes between these and the exact ones of
`C63_small_run32_defined_iff`, grids that do not fit and operands without room behind them (C11). -/
theorem C63_small_run32_product_partial (hm : 0 < cx.m_r) (hn : 0 < cx.n_r) (hk : cx.kfix.Fits cx.m_r cx.n_r)
    (hpn : 0 < pn) (hp : pn ≤ p) (hkm : 0 < kc_max) (hpi : p < 2 ^ 31) (hg : GridFits M N p cx.m_r cx.n_r pn)
    {s : State α} (hs : CallOK s M N K) (hsl : Slack s M N K cx.m_r cx.n_r)
    (hMK : M * K < 2 ^ 31) (hKN : K * N < 2 ^ 31)
    (hC : (cdiv M cx.m_r * cx.m_r + cx.m_r) * (cdiv N cx.n_r * cx.n_r + cx.n_r) < 2 ^ 31)
    (hA : cdiv M cx.m_r * cx.m_r * kc_max < 2 ^ 31) (hB : kc_max * (cdiv N cx.n_r * cx.n_r) < 2 ^ 31) :
    Computes F (cake_sgemm_small32 cx ⟨.A, 0⟩ ⟨.B, 0⟩ ⟨.C, 0⟩ M N K p pn kc_max) s
      (fun s' => IsProduct F s s' M N K (fun _ _ => F.zero)) := by
  obtain ⟨prog, e⟩ := C63_small_run32_some (K := K) cx.kmap cx.kfix hm hn hpn hp hkm hpi hg ⟨.A, 0⟩ ⟨.B, 0⟩ ⟨.C, 0⟩ hMK hKN hC hA hB
  have e' : cake_sgemm_small32 cx ⟨.A, 0⟩ ⟨.B, 0⟩ ⟨.C, 0⟩ M N K p pn kc_max = some prog := e
  rw [e', ← C63_small_run32_same cx _ _ _ false false F.zero F.zero e']
  exact C06_small_product F cx hm hn hk hpn hp hkm (fun _ => hg) false false F.zero F.zero hs hsl

example := C63_small_run32_product_partial (exact Int) haswell (by decide) (by decide) haswell_fits_fix (by decide) (by decide)
  (kc_max := 360) (by decide) (by decide) demo_gridFits (padded_ok 40 50 11 55 20 fun _ => 7) (padded_slack _ (by decide) (by decide))
  (by decide) (by decide) (by decide) (by decide) (by decide)

end

/-! ### The call from its first line -/

section
variable {α : Type} (F : Arith α)

/-- **C67, no wrong index, small matrices.** Whatever the machine, the arguments and the floating-point operations: if the call over
32-bit `int` is defined, it performs exactly the accesses of the call over unbounded integers. -/
theorem C67_small_same {D : Type _} (fl : Flt D) {mc : Machine} {tbl : List (List Bool)} {cntx : Option (CCtx D)} {L1 : Int} {pn0 : Nat}
    {A B C : Loc} {a : Args α} {prog : Prog} (h : sgemm_2d_small_api32 fl mc tbl cntx L1 pn0 A B C a = .ok prog) :
    sgemm_2d_small_api fl mc tbl cntx L1 pn0 A B C a = .ok prog := by
  revert prog
  show Refines _ _
  unfold sgemm_2d_small_api32 sgemm_2d_small_api
  refine .grid fun pn => .int (.int (.bind .rfl fun kc_max => ?_))
  refine .bind .rfl fun v => .ite .rfl ?_
  intro x hx
  split at hx
  · rename_i prog hp
    show (match cake_sgemm_2d_small v A B C a.M a.N a.K a.p a.packedA a.packedB a.alpha a.beta pn kc_max.toNat with
      | some prog => (pure ((if cntx.isNone then [Item.malloc .Ctx 1] else []) ++ prog) : Except Fail Prog)
      | none => .error .ub) = _
    rw [C63_small_run32_same v A B C a.packedA a.packedB a.alpha a.beta hp]
    exact hx
  · simp at hx

variable (r : Rounding 53) (rs : Rounding 24) (nf : Option ℝ → Option ℝ → Bool)

/-- **C67, small matrices.** The call from its first line: context or NULL, grid from the table (C30), depth of a block from L1 (of
`4*l1` bytes). If the grid fits, and A, B, C with one more register tile on each side after rounding up, and one block of A and of B are
below `2^31`: no `int` operation is undefined, and the call computes the product and changes nothing else, if the elements that packing
reads beyond A and B are readable. Missing: an undefined grid (C30), a grid that does not fit, operands without room behind them (C11). -/
theorem C67_small_product_partial {mc : Machine} {cntx : Option (CCtx (Option ℝ))} {m_r n_r l1 L2 L3 nc r0 pn0 : Nat}
    (h : Ready mc (cntx.getD (query_cntx (ieee r rs nf) mc)) m_r n_r L2 L3 nc) (hk : mc.kfix.Fits m_r n_r)
    {a : Args α} (hl : l1 ≤ 2 ^ 22) (hl1 : m_r * n_r + (m_r + n_r) ≤ l1) (hr : max 1 r0 ≤ a.p) (hp : a.p ≤ nc)
    (hw : clampPn pn0 a.p ∣ a.p ∨ ∃ d, d ∣ a.p ∧ 1 < d ∧ d < clampPn pn0 a.p)
    (hg : ∀ pn, grid_dims_2d (gridTable nc r0) pn0 a.p nc = some pn → GridFits a.M a.N a.p m_r n_r pn)
    (hMK : a.M * a.K < 2 ^ 31) (hKN : a.K * a.N < 2 ^ 31)
    (hC : (cdiv a.M m_r * m_r + m_r) * (cdiv a.N n_r * n_r + n_r) < 2 ^ 31)
    (hA : cdiv a.M m_r * m_r * ((l1 - m_r * n_r) / (m_r + n_r)) < 2 ^ 31)
    (hB : (l1 - m_r * n_r) / (m_r + n_r) * (cdiv a.N n_r * n_r) < 2 ^ 31)
    {s : State α} (hs : CallOK s a.M a.N a.K) (hsl : Slack s a.M a.N a.K m_r n_r)
    (hctx : cntx = none → s.size .Ctx = none) :
    ∃ prog, sgemm_2d_small_api32 (ieee r rs nf) mc (gridTable nc r0) cntx ((4 * l1 : Nat) : ℤ) pn0 ⟨.A, 0⟩ ⟨.B, 0⟩ ⟨.C, 0⟩ a =
        .ok prog ∧
      Computes F (some prog) s (fun s' => Correct F cntx.isNone s s' a.M a.N a.K) := by
  have hmr := h.cache.mr_pos
  have hnr := h.cache.nr_pos
  have hnc := h.cache.nc_le
  have ek := kcMax_val r rs nf (l := l1) (mr := m_r) (nr := n_r) (by omega) hl (by omega) (by omega)
  have hkm : 0 < (l1 - m_r * n_r) / (m_r + n_r) := Nat.div_pos (by omega) (by omega)
  obtain ⟨kd, ev, -⟩ := h.view
  obtain ⟨pn, eg, hdv, h0, -⟩ := C30_partial hr hp hw
  have hpn : pn ≤ a.p := Nat.le_of_dvd (by omega) hdv
  have enc : (cntx.getD (query_cntx (ieee r rs nf) mc)).ncores.toNat = nc := by rw [h.cache.nc_eq]; rfl
  have eg' : grid_dims_2d (gridTable nc r0) pn0 a.p (cntx.getD (query_cntx (ieee r rs nf) mc)).ncores.toNat = some pn := by
    rw [enc]; exact eg
  obtain ⟨prog, hd⟩ := C63_small_run32_some (K := a.K) kd mc.kfix hmr hnr h0 hpn hkm (by omega) (hg pn eg) ⟨.A, 0⟩ ⟨.B, 0⟩ ⟨.C, 0⟩
    hMK hKN hC hA hB
  have run : ∀ {β γ : Type} {x : Except Fail β} {b : β} (f : β → Except Fail γ), x = .ok b → (x >>= f) = f b := by
    intro β γ x b f h; rw [h]; rfl
  have e2 : (m_r : ℤ) * n_r = ((m_r * n_r : Nat) : ℤ) := by push_cast; rfl
  have e3 : sgemm_2d_small_api32 (ieee r rs nf) mc (gridTable nc r0) cntx ((4 * l1 : Nat) : ℤ) pn0 ⟨.A, 0⟩ ⟨.B, 0⟩ ⟨.C, 0⟩ a =
      .ok ((if cntx.isNone then [Item.malloc .Ctx 1] else []) ++ prog) := by
    unfold sgemm_2d_small_api32
    refine (grid_some _ eg').trans ?_
    rw [h.cache.mr_eq, h.cache.nr_eq]
    refine (int32_bind (by rw [e2]; omega) (by rw [e2]; omega) _).trans ?_
    refine (int32_bind (by omega) (by omega) _).trans ?_
    refine (run _ ek).trans ?_
    refine (run _ ev).trans ?_
    refine (if_neg (by omega)).trans ?_
    rw [Int.toNat_natCast, hd]
    rfl
  obtain ⟨prog', e4, hcmp⟩ := C45_small_default_partial F r rs nf h hk hl hl1 hr hp hw (fun pn e _ => hg pn e) hs hsl hctx
  have e5 := C67_small_same (ieee r rs nf) e3
  rw [e4] at e5
  cases e5
  exact ⟨_, e3, hcmp⟩

/-- Given context, 2 x 2 of 4 cores. -/
example := C67_small_product_partial (exact Int) r rs nf (cntx := some _) (l1 := 8192) (r0 := 0) (pn0 := 2)
  (haswellMachine_ok.query (ieee r rs nf)) haswellMachine_ok.kfix_fits
  (a := { M := 40, N := 50, K := 11, p := 4, alpha := 1, beta := 0 })
  (by norm_num) (by decide) (by decide) (by decide) (Or.inl (by decide))
  (fun pn e => by
    have : grid_dims_2d (gridTable 4 0) 2 4 4 = some 2 := by decide +kernel
    rw [this] at e; cases e; exact demo_gridFits)
  (by decide) (by decide) (by decide) (by decide) (by decide)
  (padded_ok 40 50 11 55 20 fun _ => 7) (padded_slack _ (by decide) (by decide)) (by simp)

end
end Cake
