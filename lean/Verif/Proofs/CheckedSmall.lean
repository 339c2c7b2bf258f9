/-
`Verif.Model.CheckedSmall`: the values are those of the model, and what is recorded is covered by `smallInts`.
-/
import Verif.Model.CheckedSmall
import Verif.Proofs.Checked2d
import Verif.Proofs.IntRangeSmall

namespace Cake
open List W

theorem val_edgeW (i : E) (q : Nat) (pad : Bool) : (edgeW i q pad).val = (i.val == q - 1 && pad) := rfl

theorem val_scheduleSmallW (kd : KDim) (A B C : Loc) (M N K p m_r n_r : Nat) (x : BlkDims2) :
    (scheduleSmallW kd A B C M N K p m_r n_r x).val = schedule_KMN_2d_small kd A B C M N K p m_r n_r x := by
  simp only [scheduleSmallW, val_bind, val_pure, val_each, val_tasks, val_regTiles2W,
    val_unpackObW, val_edgeW, schedule_KMN_2d_small]
  rfl

theorem val_initSmallW {M N K p m_r n_r pn kc_max : Nat} (hpn : pn ≠ 0) (hpm : p / pn ≠ 0)
    (hk : (if smallTile (roundUpC M m_r) (p / pn) m_r > kc_max then kc_max else smallTile (roundUpC M m_r) (p / pn) m_r) ≠ 0) :
    init_block_dims_2d_small M N K p m_r n_r pn kc_max = some (initSmallW M N K p m_r n_r pn kc_max).val := by
  unfold init_block_dims_2d_small
  rw [if_neg hpn]
  simp only
  rw [if_neg hpm]
  refine (if_neg hk).trans ?_
  simp only [initSmallW, val_bind, val_pure, val_roundUpW]
  rfl

/-! ### Everything recorded is listed -/

theorem ok_edgeW {i : E} {q : Nat} {pad : Bool} (hi : i.Fits) (h0 : 0 < q) (hq : q < 2 ^ 31) : Ok (edgeW i q pad) := by
  simp only [edgeW, ok_bind, ok_ev, ok_pure, and_true]
  exact ⟨hi, fits_pred h0 hq⟩

theorem pos_edgeW {i : E} {q : Nat} {pad : Bool} (hi : i.Pos) (h0 : 0 < q) : W.Pos (edgeW i q pad) := by
  simp only [edgeW, W.pos_bind, W.pos_ev, W.pos_pure, and_true]
  exact ⟨hi, trivial, trivial, h0⟩

/-- What the loops of `schedule_KMN_2d_small` need to know about the block dimensions. -/
structure XOKS (x : BlkDims2) (p m_r n_r : Nat) : Prop where
  r_pos : 0 < m_r
  r_lt : m_r < 2 ^ 31
  s_pos : 0 < n_r
  s_lt : n_r < 2 ^ 31
  p_lt : p < 2 ^ 31
  Kb : x.Kb < 2 ^ 31
  pm : 0 < x.pm ∧ x.pm < 2 ^ 31
  pn : 0 < x.pn ∧ x.pn < 2 ^ 31
  rows : ∀ b : Bool, m_r ∣ (if b = true then x.m_c1 else x.m_c) ∧ (if b = true then x.m_c1 else x.m_c) < 2 ^ 31
  cols : ∀ b : Bool, n_r ∣ (if b = true then x.n_c1 else x.n_c) ∧ (if b = true then x.n_c1 else x.n_c) < 2 ^ 31

theorem ok_scheduleSmallW {x : BlkDims2} {p m_r n_r : Nat} (o : XOKS x p m_r n_r) (kd : KDim) (A B C : Loc) {M N K : Nat}
    (h : AllFits (schedSInts M N K p m_r n_r x)) : Ok (scheduleSmallW kd A B C M N K p m_r n_r x) := by
  simp only [schedSInts, allFits_flatMap, allFits_append, allFits_cons, allFits_nil, and_true] at h
  obtain ⟨h1, h2⟩ := h
  have hdiv : ∀ {core : Nat}, core ∈ range p → ((core : E) / x.pn).Fits ∧ ((core : E) % x.pn).Fits := by
    intro core hc
    have hc' : core < 2 ^ 31 := Nat.lt_trans (mem_range.1 hc) o.p_lt
    exact ⟨E.fits_div hc' o.pn.2 o.pn.1, E.fits_mod hc' o.pn.2 o.pn.1⟩
  simp only [scheduleSmallW, ok_each, ok_bind, ok_ev, ok_pure, ok_tasks, and_true, cfor_one]
  refine ⟨fun k hk => ?_, fun core hc => ?_⟩
  · obtain ⟨⟨⟨k1, k2⟩, k3⟩, k4⟩ := h1 k hk
    have hK0 : 0 < x.Kb := by rw [mem_range] at hk; omega
    refine ⟨⟨ok_isLastW hK0 o.Kb, fun n2 hn2 => ?_, fun m3 hm3 => ?_, fun core hc => ?_⟩, k1⟩
    · obtain ⟨b1, b2, b3⟩ := k2 n2 hn2
      exact ⟨⟨b1, b2⟩, b3⟩
    · obtain ⟨b1, b2, b3⟩ := k3 m3 hm3
      exact ⟨⟨b1, b2⟩, b3⟩
    · obtain ⟨⟨c1, c2⟩, c3⟩ := k4 core hc
      obtain ⟨d1, d2⟩ := hdiv hc
      exact ⟨⟨ok_edgeW d2 o.pn.1 o.pn.2, ok_selE c1, ok_edgeW d1 o.pm.1 o.pm.2,
        ok_regTiles2W kd core _ _ _ (o.rows _).2 (o.cols _).2 c3⟩, c2⟩
  · obtain ⟨⟨c1, c2, c3, c4, c5⟩, c6⟩ := h2 core hc
    obtain ⟨d1, d2⟩ := hdiv hc
    exact ⟨⟨ok_edgeW d1 o.pm.1 o.pm.2, ok_edgeW d2 o.pn.1 o.pn.2, c1, c2, c3,
      ok_unpackObW _ _ o.r_pos o.s_pos (o.rows _).1 (o.cols _).1 (o.rows _).2 (o.cols _).2 o.r_lt o.s_lt c6, c5⟩, c4⟩

theorem pos_scheduleSmallW {x : BlkDims2} (hm : 0 < x.pm) (hn : 0 < x.pn) (kd : KDim) (A B C : Loc)
    (M N K p m_r n_r : Nat) : W.Pos (scheduleSmallW kd A B C M N K p m_r n_r x) := by
  simp only [scheduleSmallW, W.pos_bind, W.pos_pure, and_true]
  refine ⟨W.pos_each fun k hk => ?_, W.pos_tasks fun core _ => ?_⟩
  · have hK0 : 0 < x.Kb := by rw [cfor_one, mem_range] at hk; omega
    simp only [W.pos_bind, W.pos_pure, and_true]
    refine ⟨pos_isLastW hK0, W.pos_tasks fun _ _ => by plain, W.pos_tasks fun _ _ => by plain, W.pos_tasks fun core _ => ?_⟩
    simp only [W.pos_bind, W.pos_sel, W.pos_ev]
    exact ⟨pos_edgeW (by simp) hn, ⟨fun _ => ⟨trivial, ⟨trivial, trivial⟩, Nat.mod_le _ _⟩, fun _ => by simp⟩, pos_edgeW (by simp) hm,
      pos_regTiles2W _ _ _ _ _ (by simp) (by simp) _ _ _ _ _⟩
  · simp only [W.pos_bind, W.pos_ev, W.pos_pure, and_true]
    exact ⟨pos_edgeW (by simp) hm, pos_edgeW (by simp) hn, by simp, by simp, by simp, pos_unpackObW _ _ _ _ _ _ _ _ _ _ _, by simp⟩

/-! ### The whole call -/

section
variable {M N K p pn m_r n_r kc_max : Nat} (hm : 0 < m_r) (hpn : 0 < pn) (hp : pn ≤ p) (hkm : 0 < kc_max)
include hm hpn hp hkm

theorem initSmall_eq : ∃ x, init_block_dims_2d_small M N K p m_r n_r pn kc_max = some x ∧
    (initSmallW M N K p m_r n_r pn kc_max).val = x ∧
    x.m_c = smallTile (roundUpC M m_r) (p / pn) m_r ∧ x.n_c = smallTile (roundUpC N n_r) pn n_r ∧
    x.k_c = min (smallTile (roundUpC M m_r) (p / pn) m_r) kc_max ∧ x.m_c1 = roundUpC M m_r - (p / pn - 1) * x.m_c ∧
    x.n_c1 = roundUpC N n_r - (pn - 1) * x.n_c ∧ x.Kb = cdiv K x.k_c ∧ 0 < x.k_c ∧
    x.M_padded = roundUpC M m_r ∧ x.N_padded = roundUpC N n_r ∧ x.pm = p / pn ∧ x.pn = pn ∧ x.k_pad = (K % x.k_c != 0) := by
  have hq : 0 < p / pn := Nat.div_pos hp hpn
  have tm0 : 0 < smallTile (roundUpC M m_r) (p / pn) m_r := Nat.lt_of_le_of_lt (Nat.zero_le _) (smallTile_gt hm)
  obtain ⟨x, hx, e1, e2, e3, e4, e5, e6, e7, e8, e9, e10, e11, e12, e13, e14⟩ :=
    init_small_eq (M := M) (N := N) (K := K) (k_c := min (smallTile (roundUpC M m_r) (p / pn) m_r) kc_max) (kc_max := kc_max)
      (n_r := n_r) (m_r := m_r) hpn hq (by split <;> omega) (by omega)
  refine ⟨x, hx, ?_, e1, e2, e3, e4, e5, by rw [e3]; exact e10, by omega, e11, e12, e13, e14, by rw [e3]; exact e7⟩
  have := val_initSmallW (M := M) (N := N) (K := K) (p := p) (m_r := m_r) (n_r := n_r) (pn := pn) (kc_max := kc_max)
    (by omega) (by omega) (by split <;> omega)
  rw [hx, Option.some.injEq] at this
  exact this.symm

omit hkm in
theorem pos_initSmallW (hn : 0 < n_r) (fm : (p / pn - 1) * smallTile (roundUpC M m_r) (p / pn) m_r ≤ roundUpC M m_r)
    (fn : (pn - 1) * smallTile (roundUpC N n_r) pn n_r ≤ roundUpC N n_r) : W.Pos (initSmallW M N K p m_r n_r pn kc_max) := by
  have hq : 0 < p / pn := Nat.div_pos hp hpn
  have tile : ∀ {y r : Nat}, 0 < r → (tileSE y r).Pos := fun hr => ⟨trivial, trivial, ⟨trivial, trivial⟩, (Nat.mod_lt _ hr).le⟩
  simp only [initSmallW, W.pos_bind, W.pos_ev, W.pos_pure, and_true, val_roundUpW]
  exact ⟨by simp, pos_roundUpW hm, pos_roundUpW hn, by simp, tile hm, by simp, tile hn, by simp, by simp,
    ⟨trivial, ⟨⟨trivial, trivial, hq⟩, trivial⟩, fm⟩, ⟨trivial, ⟨⟨trivial, trivial, hpn⟩, trivial⟩, fn⟩, by simp, by simp, by simp,
    by simp, by simp⟩

end

section
variable (cx : Cntx) {M N K p pn kc_max : Nat} (hm : 0 < cx.m_r) (hn : 0 < cx.n_r) (hpn : 0 < pn) (hp : pn ≤ p) (hkm : 0 < kc_max)
include hm hn hpn hp hkm

theorem pos_cake_sgemm_smallW (fm : (p / pn - 1) * smallTile (roundUpC M cx.m_r) (p / pn) cx.m_r ≤ roundUpC M cx.m_r)
    (fn : (pn - 1) * smallTile (roundUpC N cx.n_r) pn cx.n_r ≤ roundUpC N cx.n_r) (A B C : Loc) :
    W.Pos (cake_sgemm_smallW cx A B C M N K p pn kc_max) := by
  obtain ⟨x, hi, hv, e1, e2, e3, e4, e5, e6, e7, e8, e9, e10, e11, e12⟩ :=
    initSmall_eq (M := M) (N := N) (K := K) (n_r := cx.n_r) hm hpn hp hkm
  simp only [cake_sgemm_smallW, W.pos_bind, W.pos_pure, and_true, W.pos_ev, hv]
  exact ⟨pos_initSmallW hm hpn hp hn fm fn, by simp, by simp, W.pos_tasks fun _ _ => by plain,
    pos_scheduleSmallW (by rw [e10]; exact Nat.div_pos hp hpn) (by rw [e11]; exact hpn) _ _ _ _ _ _ _ _ _ _,
    W.pos_tasks fun _ _ => by simp⟩

theorem ok_cake_sgemm_smallW (z : IntS M N p cx.m_r cx.n_r pn (min (smallTile (roundUpC M cx.m_r) (p / pn) cx.m_r) kc_max))
    (hpi : p < 2 ^ 31) (hK : K < 2 ^ 31) (hMK : M * K < 2 ^ 31) (hKN : K * N < 2 ^ 31) (hMN : M * N < 2 ^ 31) (hpd : pn ∣ p)
    (fm : SmallFits (roundUpC M cx.m_r) (p / pn) cx.m_r M) (fn : SmallFits (roundUpC N cx.n_r) pn cx.n_r N) (A B C : Loc) :
    Ok (cake_sgemm_smallW cx A B C M N K p pn kc_max) := by
  obtain ⟨x, hi, hv, e1, e2, e3, e4, e5, e6, e7, e8, e9, e10, e11, e12⟩ :=
    initSmall_eq (M := M) (N := N) (K := K) (n_r := cx.n_r) hm hpn hp hkm
  have hf := smallInts_fits hm hn hpn hp hkm rfl z hpi hK hMK hKN hMN hpd fm fn
  unfold smallInts at hf
  rw [hi] at hf
  simp only [allFits_append, dimsSInts, allFits_cons, allFits_nil, and_true] at hf
  obtain ⟨⟨⟨f1, f2, f3, f4, f5, f6, f7, f8, f9, f10, f11, f12, f13, f14, f15, f16, f17⟩, s1, s2, s3⟩, f⟩ := hf
  have hq : 0 < p / pn := Nat.div_pos hp hpn
  have hKb : cdiv K x.k_c ≤ K := cdiv_le_self' e7
  have l1 : x.m_c1 ≤ roundUpC M cx.m_r := by rw [e4]; exact Nat.sub_le _ _
  have l2 : x.n_c1 ≤ roundUpC N cx.n_r := by rw [e5]; exact Nat.sub_le _ _
  have d1 : cx.m_r ∣ x.m_c := e1 ▸ smallTile_dvd hm
  have d2 : cx.n_r ∣ x.n_c := e2 ▸ smallTile_dvd hn
  have o : XOKS x p cx.m_r cx.n_r :=
    { r_pos := hm
      r_lt := by have := z.rr; omega
      s_pos := hn
      s_lt := by have := z.rr; omega
      p_lt := hpi
      Kb := by rw [e6]; omega
      pm := by rw [e10]; exact ⟨hq, Nat.lt_of_le_of_lt (Nat.div_le_self _ _) hpi⟩
      pn := by rw [e11]; exact ⟨hpn, by omega⟩
      rows := fun b => by
        cases b
        · exact ⟨d1, by rw [if_neg (by simp)]; exact f16.2.1⟩
        · refine ⟨?_, ?_⟩
          · rw [if_pos rfl, e4, roundUpC_cdiv hm]
            exact Nat.dvd_sub (Nat.dvd_mul_left _ _) (Dvd.dvd.mul_left d1 _)
          · rw [if_pos rfl]; exact Nat.lt_of_le_of_lt l1 z.Mp
      cols := fun b => by
        cases b
        · exact ⟨d2, by rw [if_neg (by simp)]; exact f15.2.1⟩
        · refine ⟨?_, ?_⟩
          · rw [if_pos rfl, e5, roundUpC_cdiv hn]
            exact Nat.dvd_sub (Nat.dvd_mul_left _ _) (Dvd.dvd.mul_left d2 _)
          · rw [if_pos rfl]; exact Nat.lt_of_le_of_lt l2 z.Np }
  simp only [cake_sgemm_smallW, ok_bind, ok_pure, ok_tasks, ok_ev, and_true, true_and, hv]
  refine ⟨?_, s1, s2, fun i hi => ⟨s3, fits_next hpi hi⟩, ok_scheduleSmallW o _ _ _ _ f, fun i hi => fits_next hpi hi⟩
  simp only [e8, e9, e10, e11, e12, e1, e2, e3] at f6 f7 f8 f9 f12 f13 f14 f15 f16 f17
  rw [← (by split <;> omega : (if smallTile (roundUpC M cx.m_r) (p / pn) cx.m_r > kc_max then kc_max
    else smallTile (roundUpC M cx.m_r) (p / pn) cx.m_r) = min (smallTile (roundUpC M cx.m_r) (p / pn) cx.m_r) kc_max)] at f14 f17
  simp only [initSmallW, ok_bind, ok_ev, ok_pure, and_true, val_roundUpW]
  exact ⟨f1, ok_roundUpW f2 f3, ok_roundUpW f4 f5, f6, f7, f8, f9, f10, f11, f12, f13, f14, f14, f15, f16, f17⟩

theorem ok_of_small32 (fm : (p / pn - 1) * smallTile (roundUpC M cx.m_r) (p / pn) cx.m_r ≤ roundUpC M cx.m_r)
    (fn : (pn - 1) * smallTile (roundUpC N cx.n_r) pn cx.n_r ≤ roundUpC N cx.n_r) {A B C : Loc} {prog : Prog}
    (hr : cake_sgemm_small32 cx A B C M N K p pn kc_max = some prog) : Ok (cake_sgemm_smallW cx A B C M N K p pn kc_max) := by
  unfold cake_sgemm_small32 W.run at hr
  split at hr
  · rename_i hv
    exact fun e he => E.fits_of_eval32 (pos_cake_sgemm_smallW cx hm hn hpn hp hkm fm fn A B C e he) (by rw [hv e he]; simp)
  · exact absurd hr (by simp)

end

theorem run_small32_of_ok (cx : Cntx) {M N K p pn kc_max : Nat} {A B C : Loc}
    (h : Ok (cake_sgemm_smallW cx A B C M N K p pn kc_max)) :
    cake_sgemm_small32 cx A B C M N K p pn kc_max = some (cake_sgemm_smallW cx A B C M N K p pn kc_max).val := by
  unfold cake_sgemm_small32 W.run
  exact if_pos fun e he => E.eval32_of_fits (h e he)

theorem initSmall_of_run {M N K p m_r n_r pn kc_max : Nat}
    (h : ∀ e ∈ (initSmallW M N K p m_r n_r pn kc_max).ints, e.eval32 = some (e.val : Int)) :
    init_block_dims_2d_small M N K p m_r n_r pn kc_max = some (initSmallW M N K p m_r n_r pn kc_max).val := by
  simp only [initSmallW, forall_bind, forall_ev, val_roundUpW] at h
  obtain ⟨h1, -, -, h2, -, -, -, -, -, -, -, h3, -⟩ := h
  have p1 : 0 < pn := (divisor_pos (by simp) (by simp)).1 h1
  have p2 := (divisor_pos (by simp) (by simp)).1 h2
  have p3 := (divisor_pos (by simp) (by simp)).2 h3
  exact val_initSmallW (Nat.ne_of_gt p1) (Nat.ne_of_gt p2) (Nat.ne_of_gt p3)

end Cake
