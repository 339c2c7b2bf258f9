/-
`Verif.Model.Checked2d`: the values are those of the model, and what is recorded is covered by `twoDInts`.
-/
import Verif.Model.Checked2d
import Verif.Proofs.CheckedOn
import Verif.Proofs.Api32

namespace Cake
open List W

theorem val_roundUpW (x r : Nat) : (roundUpW x r).val = roundUpC x r := by
  simp only [roundUpW, val_bind, val_sel]
  rfl

theorem val_fit2dW (padded pm m_c mr : Nat) : (fit2dW padded pm m_c mr).val = fit2d padded pm m_c mr := by
  simp only [fit2dW, val_bind, val_sel, val_pure, val_roundUpW]
  rfl

theorem val_strip2W (last : Bool) (l c1_last c1 c : Nat) (i : E) :
    (strip2W last l c1_last c1 c i).val = if last then (if i.val = l - 1 then c1_last else c1) else c := by
  simp only [strip2W, val_bind, val_sel, val_pure]
  rfl

theorem val_regTiles2W (kd : KDim) (t : Nat) (A B C : Loc) (a_ind b_ind : E) (m_r n_r m_c_t n_c_t k_c_t : Nat) :
    (regTiles2W kd t A B C a_ind b_ind m_r n_r m_c_t n_c_t k_c_t).val =
      regTiles kd t (A +ₚ a_ind.val) (B +ₚ b_ind.val) C m_r n_r m_c_t n_c_t k_c_t := by
  have := val_regTilesW kd t A B C a_ind.val b_ind.val m_r n_r m_c_t n_c_t k_c_t
  rw [← this]
  simp only [regTilesW, regTiles2W, val_bind, val_each, val_pure]
  rfl

theorem val_schedule2dW (kd : KDim) (A B C : Loc) (M N K m_r n_r : Nat) (x : BlkDims2) :
    (schedule2dW kd A B C M N K m_r n_r x).val = schedule_KMN_2d kd A B C M N K m_r n_r x := by
  simp only [schedule2dW, val_bind, val_pure, val_each, val_eachSerp, val_sel, val_tasks, val_regTiles2W,
    val_unpackObW, val_strip2W, schedule_KMN_2d]
  rfl

theorem val_dims2dW {M N K m_r n_r pm pn m_c k_c n_c : Nat} (h : ¬ (pm * m_c = 0 ∨ pn * n_c = 0 ∨ k_c = 0)) :
    dims2d M N K m_r n_r pm pn m_c k_c n_c = some (dims2dW M N K m_r n_r pm pn m_c k_c n_c).val := by
  unfold dims2d
  rw [if_neg h]
  simp only [dims2dW, side2dW, val_bind, val_pure, val_coresW]
  rfl

theorem val_init2dW {M N K p m_r n_r pn m_c k_c : Nat} (hpn : pn ≠ 0)
    (h : ∃ x, init_block_dims_2d M N K p m_r n_r pn m_c k_c = some x) :
    init_block_dims_2d M N K p m_r n_r pn m_c k_c = some (init2dW M N K p m_r n_r pn m_c k_c).val := by
  obtain ⟨x, hx⟩ := h
  unfold init_block_dims_2d at hx ⊢
  rw [if_neg hpn] at hx ⊢
  simp only [init2dW, val_bind, val_roundUpW, val_fit2dW]
  refine val_dims2dW fun h0 => ?_
  dsimp only at hx
  unfold dims2d at hx
  rw [if_pos h0] at hx
  exact absurd hx (by simp)

/-! ### Everything recorded is listed -/

theorem ok_roundUpW {x r : Nat} (h1 : ((x : E) % r).Fits) (h2 : (roundUpE x r).Fits) : Ok (roundUpW x r) := by
  simp only [roundUpW, ok_bind, ok_ev, ok_sel, ok_pure, implies_true, and_true]
  refine ⟨h1, fun hne => ?_⟩
  unfold roundUpE at h2
  rwa [if_pos (show x % r ≠ 0 from hne)] at h2

theorem ok_fit2dW {padded pm m_c mr : Nat} (h : AllFits (fit2dInts padded pm m_c mr)) : Ok (fit2dW padded pm m_c mr) := by
  unfold fit2dInts at h
  simp only [allFits_append, allFits_cons, allFits_nil, and_true] at h
  obtain ⟨h1, h2⟩ := h
  simp only [fit2dW, ok_bind, ok_ev, ok_sel, ok_pure, implies_true, true_and, and_true]
  refine ⟨h1, fun he => ?_⟩
  rw [if_neg (show ¬ padded = pm * mr from he)] at h2
  simp only [allFits_append, allFits_cons, allFits_nil, and_true] at h2
  obtain ⟨h2, h3⟩ := h2
  refine ⟨h2, fun hl => ?_⟩
  rw [if_pos (show padded < pm * m_c from hl)] at h3
  simp only [allFits_append, allFits_cons, allFits_nil, and_true] at h3
  obtain ⟨h3, h4⟩ := h3
  refine ⟨h3, fun ha => ?_, fun ha => ?_⟩
  · rw [if_pos (show padded / pm < mr from ha)] at h4
    simpa only [allFits_cons, allFits_nil, and_true] using h4
  · rw [if_neg (show ¬ padded / pm < mr from ha)] at h4
    simp only [allFits_cons, allFits_nil, and_true] at h4
    exact ok_roundUpW h4.1 h4.2

theorem ok_side2dW {T q r t : Nat} (h : IntSide T q r t) : Ok (side2dW T q r t) := by
  have hf := h.ints_fits
  simp only [sideInts, allFits_cons, allFits_nil, and_true] at hf
  obtain ⟨f1, f2, f3, f4, f5, f6, f7⟩ := hf
  have hd := ok_dimsKMNW h.tile h.dims
  simp only [dimsKMNW, ok_bind, ok_pure, and_true, ok_ev, val_coresW] at hd
  simp only [side2dW, ok_bind, ok_ev, ok_pure, and_true, val_coresW]
  exact ⟨f1, f2, f3, hd.2.2.2.2.2.2.1, f4, f5⟩

/-- What the loops of `schedule_KMN_2d` need to know about the block dimensions. -/
structure XOK2 (x : BlkDims2) (m_r n_r : Nat) : Prop where
  r_pos : 0 < m_r
  r_lt : m_r < 2 ^ 31
  s_pos : 0 < n_r
  s_lt : n_r < 2 ^ 31
  Mb : x.Mb < 2 ^ 31
  Nb : x.Nb < 2 ^ 31
  Kb : x.Kb < 2 ^ 31
  pm : 0 < x.pm ∧ x.pm < 2 ^ 31
  pn : 0 < x.pn ∧ x.pn < 2 ^ 31
  pml : (x.m_pad = true → 0 < x.pm_l) ∧ x.pm_l < 2 ^ 31
  pnl : (x.n_pad = true → 0 < x.pn_l) ∧ x.pn_l < 2 ^ 31
  rows : ∀ (b : Bool) (c : Prop) [Decidable c],
    m_r ∣ (if b = true then (if c then x.m_c1_last_core else x.m_c1) else x.m_c) ∧
    (if b = true then (if c then x.m_c1_last_core else x.m_c1) else x.m_c) < 2 ^ 31
  cols : ∀ (b : Bool) (c : Prop) [Decidable c],
    n_r ∣ (if b = true then (if c then x.n_c1_last_core else x.n_c1) else x.n_c) ∧
    (if b = true then (if c then x.n_c1_last_core else x.n_c1) else x.n_c) < 2 ^ 31

theorem xok2 {M N K m_r n_r pm pn m_c k_c n_c : Nat} (sm : IntSide M pm m_r m_c) (sn : IntSide N pn n_r n_c) {x : BlkDims2}
    (hx : dims2d M N K m_r n_r pm pn m_c k_c n_c = some x) (hk : 0 < k_c) (hK : K < 2 ^ 31) : XOK2 x m_r n_r := by
  obtain ⟨⟨e1, e2, e3, e4, e5⟩, ⟨e6, e7⟩, ⟨e8, e9, e10⟩, ⟨e11, e12⟩, ⟨e13, e14, e15⟩, ⟨e16, e17⟩, e18, e19, e20⟩ :=
    dims2d_fields hx
  have a := xok sm.tile sm.dims
  have b := xok sn.tile sn.dims
  have aMb : (dimsKMN M 0 0 pm m_r 1 m_c 1 1).Mb = cdiv M (pm * m_c) := cdiv_eq_div_add _ _ sm.tile.S_pos
  have bMb : (dimsKMN N 0 0 pn n_r 1 n_c 1 1).Mb = cdiv N (pn * n_c) := cdiv_eq_div_add _ _ sn.tile.S_pos
  have hKb : cdiv K k_c ≤ K := cdiv_le_self' hk
  exact
  { r_pos := a.r_pos
    r_lt := a.r_lt
    s_pos := b.r_pos
    s_lt := b.r_lt
    Mb := by rw [e18, ← aMb]; exact a.Mb
    Nb := by rw [e19, ← bMb]; exact b.Mb
    Kb := by rw [e20]; omega
    pm := by rw [e1]; exact ⟨a.p_pos, a.p_lt⟩
    pn := by rw [e2]; exact ⟨b.p_pos, b.p_lt⟩
    pml := by rw [e8, e11]; exact ⟨a.pl_pos, a.pl_lt⟩
    pnl := by rw [e9, e12]; exact ⟨b.pl_pos, b.pl_lt⟩
    rows := fun l c _ => by rw [e13, e16, e3]; exact a.strip l c
    cols := fun l c _ => by rw [e14, e17, e5]; exact b.strip l c }

theorem ok_strip2W {last : Bool} {l : Nat} (c1_last c1 c : Nat) {i : E} (hi : i.Fits) (hl : last = true → 0 < l) (hl' : l < 2 ^ 31) :
    Ok (strip2W last l c1_last c1 c i) := by
  simp only [strip2W, ok_sel, ok_bind, ok_ev, ok_pure, and_true, implies_true]
  exact fun h => ⟨hi, fits_pred (hl h) hl'⟩

theorem ok_regTiles2W (kd : KDim) (t : Nat) (A B C : Loc) {a b : E} {m_r n_r m_c_t n_c_t k_c_t : Nat}
    (hm : m_c_t < 2 ^ 31) (hn : n_c_t < 2 ^ 31)
    (h : AllFits (regInts a b m_r n_r m_c_t n_c_t k_c_t)) :
    Ok (regTiles2W kd t A B C a b m_r n_r m_c_t n_c_t k_c_t) := by
  simp only [regInts, allFits_append, allFits_cons, allFits_nil, and_true, allFits_flatMap] at h
  simp only [regTiles2W, ok_bind, ok_ev, ok_pure, ok_each, and_true]
  refine ⟨h.1.1, fun n_reg hn' => ⟨⟨h.1.2, fun m_reg hm' => ⟨?_, ?_⟩⟩, ?_⟩⟩
  · obtain ⟨h1, h2, h3, _⟩ := h.2 n_reg hn' m_reg hm'
    exact ⟨h1, h2, h3⟩
  · exact fits_next (Nat.lt_of_le_of_lt (Nat.div_le_self _ _) hm) hm'
  · exact fits_next (Nat.lt_of_le_of_lt (Nat.div_le_self _ _) hn) hn'

/-- The first summand may be evaluated before. -/
theorem fits_head2 {a b : E} {v : Nat} (h : (a + b).Fits) (hv : v = a.val) : ((v : E) + b).Fits := by
  subst hv
  exact ⟨h.1.lt, h.2⟩

theorem ok_selE {c : Prop} [Decidable c] {a b : E} (h : (if c then a else b).Fits) : Ok (sel c (ev a) (ev b)) := by
  rw [ok_sel, ok_ev, ok_ev]
  revert h
  split
  · exact fun h => ⟨fun _ => h, fun hc => absurd ‹_› hc⟩
  · exact fun h => ⟨fun hc => absurd hc ‹_›, fun _ => h⟩

theorem val_selE {c : Prop} [Decidable c] (a b : E) : (sel c (ev a) (ev b)).val = (if c then a else b).val := by
  rw [val_sel, apply_ite E.val]
  rfl

theorem ok_schedule2dW {x : BlkDims2} {m_r n_r : Nat} (o : XOK2 x m_r n_r) (kd : KDim) (A B C : Loc) {M N K : Nat}
    (h : AllFits (sched2dInts M N K m_r n_r x)) : Ok (schedule2dW kd A B C M N K m_r n_r x) := by
  simp only [sched2dInts, allFits_flatMap, allFits_append, allFits_cons, allFits_nil, and_true] at h
  simp only [schedule2dW, ok_each, ok_bind, ok_ev]
  refine fun n hn => ⟨?_, fits_next o.Nb hn⟩
  obtain ⟨⟨h1, h2, _⟩, h3⟩ := h n hn
  rw [mem_range] at hn
  have hN0 : 0 < x.Nb := by omega
  have hNb := o.Nb
  have two : (2 : Nat) < 2 ^ 31 := by decide
  have hun : 0 < (if (n == x.Nb - 1 && x.n_pad) = true then x.pn_l else x.pn) ∧
      (if (n == x.Nb - 1 && x.n_pad) = true then x.pn_l else x.pn) < 2 ^ 31 := by
    split
    · exact ⟨o.pnl.1 (lastPad ‹_›), o.pnl.2⟩
    · exact o.pn
  refine ⟨⟨(by omega : n < 2 ^ 31), two, by decide⟩, ok_isLastW hN0 o.Nb, ok_selE h1, ok_selE h2, ?_⟩
  refine ok_eachSerp _ _ _ fun m hm => ⟨?_, fits_next o.Mb (mem_range.2 hm)⟩
  obtain ⟨⟨⟨⟨h4, h5, _, h6⟩, h7⟩, h8⟩, h9⟩ := h3 m (mem_serp.2 hm)
  have hM0 : 0 < x.Mb := by omega
  have hMb := o.Mb
  have hdiv : ∀ {core : Nat}, core < (if (m == x.Mb - 1 && x.m_pad) = true then x.pm_l else x.pm) *
      (if (n == x.Nb - 1 && x.n_pad) = true then x.pn_l else x.pn) →
      ((core : E) / (if (n == x.Nb - 1 && x.n_pad) = true then x.pn_l else x.pn : Nat)).Fits ∧
      ((core : E) % (if (n == x.Nb - 1 && x.n_pad) = true then x.pn_l else x.pn : Nat)).Fits := by
    intro core hc
    have hc' : core < 2 ^ 31 := Nat.lt_trans hc h6.lt
    exact ⟨E.fits_div hc' hun.2 hun.1, E.fits_mod hc' hun.2 hun.1⟩
  simp only [ok_bind, ok_tasks, ok_ev, ok_pure, and_true]
  refine ⟨⟨(by omega : m < 2 ^ 31), two, by decide⟩, ok_isLastW hM0 o.Mb, ok_selE h4, ok_selE h5, h6, ?_, h8, fun core hc => ?_⟩
  · refine ok_eachSerp _ _ _ fun k hk => ⟨?_, fits_next o.Kb (mem_range.2 hk)⟩
    obtain ⟨⟨⟨⟨_, k1, k2⟩, k3⟩, k4⟩, k5⟩ := h7 k (mem_serp.2 hk)
    have hK0 : 0 < x.Kb := by omega
    simp only [ok_bind, ok_tasks, ok_ev, ok_pure, and_true]
    refine ⟨ok_isLastW hK0 o.Kb, k1, k2, ?_, ?_, fun core hc => ?_⟩
    · rw [ok_sel]
      refine ⟨fun _ => ok_pure _, fun hne => ?_⟩
      simp only [ok_bind, ok_tasks, ok_ev, ok_pure, and_true, val_selE]
      intro n2 h2
      have hb := allFits_else k3 hne
      simp only [allFits_flatMap, allFits_cons, allFits_nil, and_true] at hb
      obtain ⟨b1, b2, b3⟩ := hb n2 h2
      exact ⟨⟨fits_head2 b1 rfl, b2⟩, b3⟩
    · rw [ok_sel]
      refine ⟨fun _ => ok_pure _, fun hne => ?_⟩
      simp only [ok_bind, ok_tasks, ok_ev, ok_pure, and_true, val_selE]
      intro m3 h3
      have hb := allFits_else k4 hne
      simp only [allFits_flatMap, allFits_cons, allFits_nil, and_true] at hb
      obtain ⟨b1, b2, b3⟩ := hb m3 h3
      exact ⟨⟨fits_head2 b1 rfl, b2⟩, b3⟩
    · obtain ⟨c1, c2⟩ := k5 core hc
      obtain ⟨d1, d2⟩ := hdiv (mem_range.1 hc)
      refine ⟨⟨ok_isLastW hM0 o.Mb, ok_strip2W _ _ _ d1 (fun hl => o.pml.1 (lastPad hl)) o.pml.2, ok_isLastW hN0 o.Nb,
        ok_strip2W _ _ _ d2 (fun hl => o.pnl.1 (lastPad hl)) o.pnl.2, ?_⟩, c1⟩
      rw [val_strip2W, val_strip2W]
      exact ok_regTiles2W kd core _ _ _ (o.rows _ _).2 (o.cols _ _).2 c2
  · obtain ⟨⟨c1, c2, c3, c4, c5⟩, c6⟩ := h9 core hc
    obtain ⟨d1, d2⟩ := hdiv (mem_range.1 hc)
    refine ⟨⟨ok_isLastW hM0 o.Mb, ok_strip2W _ _ _ d1 (fun hl => o.pml.1 (lastPad hl)) o.pml.2, ok_isLastW hN0 o.Nb,
      ok_strip2W _ _ _ d2 (fun hl => o.pnl.1 (lastPad hl)) o.pnl.2, ?_, ?_, c3, ?_, c5⟩, c4⟩
    · exact fits_head c1 rfl
    · rw [val_selE]
      exact fits_head2 c2 rfl
    · rw [val_strip2W, val_strip2W, val_selE]
      refine ok_unpackObW _ _ o.r_pos o.s_pos (o.rows _ _).1 (o.cols _ _).1 (o.rows _ _).2 (o.cols _ _).2 o.r_lt o.s_lt ?_
      show AllFits (unpackInts M N _ ((sel _ _ _ : W Nat).val + _) _ _ _ _ _)
      rw [val_selE]
      exact c6

/-! ### No difference is negative -/

theorem pos_roundUpW {x r : Nat} (hr : 0 < r) : W.Pos (roundUpW x r) := by
  simp only [roundUpW, W.pos_bind, W.pos_ev, W.pos_sel, W.pos_pure, implies_true, and_true]
  exact ⟨by simp, fun _ => ⟨trivial, trivial, ⟨trivial, trivial⟩, (Nat.mod_lt _ hr).le⟩⟩

theorem pos_fit2dW {padded pm m_c mr : Nat} (hr : 0 < mr) : W.Pos (fit2dW padded pm m_c mr) := by
  simp only [fit2dW, W.pos_bind, W.pos_ev, W.pos_sel, W.pos_pure, implies_true, true_and, and_true]
  exact ⟨by simp, fun _ => ⟨by simp, fun _ => ⟨by simp, fun _ => by simp, fun _ => pos_roundUpW hr⟩⟩⟩

theorem pos_side2dW {T q r t : Nat} (h : TileOK q r 1 t 1 1) : W.Pos (side2dW T q r t) := by
  obtain ⟨-, h2, h3⟩ := pl_bounds (M := T) (N := 0) (K := 0) h
  simp only [side2dW, W.pos_bind, W.pos_pure, and_true, W.pos_ev, val_coresW]
  refine ⟨by simp, by simp, by simp, ?_, by simp, ⟨⟨trivial, ⟨⟨trivial, trivial⟩, trivial, h2⟩, h3⟩, trivial⟩⟩
  unfold coresW
  split
  · exact (W.pos_ev _).2 trivial
  · exact W.pos_pure _

theorem pos_strip2W {last : Bool} {l : Nat} (c1_last c1 c : Nat) {i : E} (hi : i.Pos) (hl : last = true → 0 < l) :
    W.Pos (strip2W last l c1_last c1 c i) := by
  simp only [strip2W, W.pos_sel, W.pos_bind, W.pos_ev, W.pos_pure, and_true, implies_true]
  exact fun h => ⟨hi, trivial, trivial, hl h⟩

theorem pos_regTiles2W (kd : KDim) (t : Nat) (A B C : Loc) {a b : E} (ha : a.Pos) (hb : b.Pos) (m_r n_r m_c_t n_c_t k_c_t : Nat) :
    W.Pos (regTiles2W kd t A B C a b m_r n_r m_c_t n_c_t k_c_t) := by
  simp only [regTiles2W, W.pos_bind, W.pos_ev]
  refine ⟨by simp, W.pos_each fun _ _ => ?_⟩
  simp only [W.pos_bind, W.pos_ev]
  refine ⟨by simp, W.pos_each fun _ _ => ?_⟩
  simp only [W.pos_bind, W.pos_ev, W.pos_pure, E.pos_add, ha, hb, true_and]
  simp

theorem pos_schedule2dW {x : BlkDims2} (hm : x.m_pad = true → 0 < x.pm_l) (hn : x.n_pad = true → 0 < x.pn_l) (kd : KDim) (A B C : Loc)
    (M N K m_r n_r : Nat) : W.Pos (schedule2dW kd A B C M N K m_r n_r x) := by
  have hs : ∀ (a : Nat) (b : E), b.Pos → ((a : E) - (a : E) % b).Pos := fun a b hb => ⟨trivial, ⟨trivial, hb⟩, Nat.mod_le _ _⟩
  refine W.pos_each fun n hn' => ?_
  have hN0 : 0 < x.Nb := by rw [mem_range] at hn'; omega
  simp only [W.pos_bind, W.pos_ev, W.pos_sel]
  refine ⟨by simp, pos_isLastW hN0, ⟨fun _ => by simp, fun _ => by simp⟩, ⟨fun _ => hs _ _ (by simp), fun _ => by simp⟩,
    W.pos_eachSerp fun m hm' => ?_⟩
  have hM0 : 0 < x.Mb := by omega
  simp only [W.pos_bind, W.pos_ev, W.pos_sel, W.pos_pure, and_true]
  refine ⟨by simp, pos_isLastW hM0, ⟨fun _ => by simp, fun _ => by simp⟩, ⟨fun _ => hs _ _ (by simp), fun _ => by simp⟩, by simp,
    W.pos_eachSerp fun k hk => ?_, by simp, W.pos_tasks fun core _ => ?_⟩
  · have hK0 : 0 < x.Kb := by omega
    simp only [W.pos_bind, W.pos_ev, W.pos_sel, W.pos_pure, and_true, implies_true, true_and]
    refine ⟨pos_isLastW hK0, by simp, by simp, fun _ => W.pos_tasks fun _ _ => by plain, fun _ => W.pos_tasks fun _ _ => by plain,
      W.pos_tasks fun core _ => ?_⟩
    simp only [W.pos_bind]
    exact ⟨pos_isLastW hM0, pos_strip2W _ _ _ (by simp) (fun hl => hm (lastPad hl)), pos_isLastW hN0,
      pos_strip2W _ _ _ (by simp) (fun hl => hn (lastPad hl)), pos_regTiles2W _ _ _ _ _ (by simp) (by simp) _ _ _ _ _⟩
  · simp only [W.pos_bind, W.pos_ev, W.pos_pure, and_true]
    exact ⟨pos_isLastW hM0, pos_strip2W _ _ _ (by simp) (fun hl => hm (lastPad hl)), pos_isLastW hN0,
      pos_strip2W _ _ _ (by simp) (fun hl => hn (lastPad hl)), by simp, by simp, by simp, pos_unpackObW _ _ _ _ _ _ _ _ _ _ _, by simp⟩

/-! ### The whole call -/

section
variable {M N K p m_r n_r pn m_c k_c : Nat} (h : Fit2 M N p m_r n_r pn m_c k_c)
include h

theorem init2d_grid : ∃ x, init_block_dims_2d M N K p m_r n_r pn m_c k_c = some x ∧
    (init2dW M N K p m_r n_r pn m_c k_c).val = x ∧
    dims2d M N K m_r n_r (grid2 M N p m_r n_r pn m_c).pm (grid2 M N p m_r n_r pn m_c).pn (grid2 M N p m_r n_r pn m_c).m_c k_c
      (grid2 M N p m_r n_r pn m_c).n_c = some x := by
  obtain ⟨g1, g2, g3⟩ := h.grid
  obtain ⟨x, hx⟩ := dims2d_some (M := M) (N := N) (K := K) g1 g2.p_pos
  have hi := hx
  rw [← init2d_eq h.pn_pos] at hi
  refine ⟨x, hi, ?_, hx⟩
  have := val_init2dW (Nat.ne_of_gt h.pn_pos) ⟨x, hi⟩
  rw [hi, Option.some.injEq] at this
  exact this.symm

theorem tiles_side : TileOK (grid2 M N p m_r n_r pn m_c).pm m_r 1 (grid2 M N p m_r n_r pn m_c).m_c 1 1 ∧
    TileOK (grid2 M N p m_r n_r pn m_c).pn n_r 1 (grid2 M N p m_r n_r pn m_c).n_c 1 1 := by
  obtain ⟨g1, g2, g3⟩ := h.grid
  exact ⟨⟨g1.p_pos, h.m_r_pos, Nat.one_pos, g1.m_c_pos, Nat.one_pos, Nat.one_pos, g1.m_dvd, Nat.dvd_refl _⟩,
    ⟨g2.p_pos, h.n_r_pos, Nat.one_pos, g2.m_c_pos, Nat.one_pos, Nat.one_pos, g2.m_dvd, Nat.dvd_refl _⟩⟩

theorem pos_init2dW : W.Pos (init2dW M N K p m_r n_r pn m_c k_c) := by
  obtain ⟨t1, t2⟩ := tiles_side h
  simp only [init2dW, W.pos_bind, W.pos_ev, val_roundUpW, val_fit2dW]
  refine ⟨by simp, pos_roundUpW h.m_r_pos, pos_roundUpW h.n_r_pos, by simp, by simp, pos_fit2dW h.m_r_pos, pos_roundUpW h.n_r_pos,
    pos_fit2dW h.n_r_pos, ?_⟩
  simp only [dims2dW, W.pos_bind, W.pos_ev, W.pos_pure, and_true]
  exact ⟨by simp, by simp, by simp, pos_side2dW t1, pos_side2dW t2, by simp, by simp, by simp, by simp, by simp, by simp⟩

theorem ok_init2dW (z : Int2 M N p m_r n_r pn m_c k_c) (hp : p < 2 ^ 31) (hmc : m_c < 2 ^ 31) (hK : K < 2 ^ 31)
    (hMK : M * K < 2 ^ 31) (hKN : K * N < 2 ^ 31) (hMN : M * N < 2 ^ 31) :
    Ok (init2dW M N K p m_r n_r pn m_c k_c) := by
  obtain ⟨x, hi, hv, hx⟩ := init2d_grid (K := K) h
  have hf := twoDInts_fits (K := K) h z hp hmc hK hMK hKN hMN
  unfold twoDInts at hf
  rw [hi] at hf
  simp only [allFits_append, dims2dInts, allFits_cons, allFits_nil, and_true] at hf
  obtain ⟨⟨⟨⟨⟨⟨⟨⟨f1, f2, f3, f4, f5, f6, f7, f8, f9⟩, f10⟩, f11, f12⟩, f13⟩, f14⟩, f15⟩, -⟩, -⟩ := hf
  obtain ⟨⟨e1, e2, e3, e4, e5⟩, ⟨e6, e7⟩, ⟨e8, e9, e10⟩, ⟨e11, e12⟩, -, -, -⟩ := dims2d_fields hx
  simp only [sideInts, e1, e2, e3, e5, e6, e7, e8, e9, e11, e12, allFits_cons, allFits_nil, and_true] at f14 f15
  rw [e4] at f8
  rw [e4, e10] at f9
  obtain ⟨t1, t2⟩ := tiles_side h
  have sm : IntSide M (grid2 M N p m_r n_r pn m_c).pm m_r (grid2 M N p m_r n_r pn m_c).m_c :=
    ⟨t1, by rw [padTo_eq h.m_r_pos t1.S_dvd, ← roundUpC_cdiv h.m_r_pos]; exact z.Mp,
      Nat.lt_of_le_of_lt (Nat.le_mul_of_pos_right _ h.k_c_pos) z.pmk⟩
  have sn : IntSide N (grid2 M N p m_r n_r pn m_c).pn n_r (grid2 M N p m_r n_r pn m_c).n_c :=
    ⟨t2, by rw [padTo_eq h.n_r_pos t2.S_dvd, ← roundUpC_cdiv h.n_r_pos]; exact z.Np,
      Nat.lt_of_le_of_lt (Nat.le_mul_of_pos_right _ h.k_c_pos) z.pnk⟩
  simp only [init2dW, ok_bind, ok_ev, val_roundUpW, val_fit2dW]
  refine ⟨f1, ok_roundUpW f2 f3, ok_roundUpW f4 f5, f6, f7, ok_fit2dW f10, ok_roundUpW f11 f12, ok_fit2dW f13, ?_⟩
  simp only [dims2dW, ok_bind, ok_ev, ok_pure, and_true]
  exact ⟨f8, f15.1, f14.1, ok_side2dW sm, ok_side2dW sn, f8, f14.2.2.2.2.2.1, f15.2.2.2.2.2.1, f9, f14.2.2.2.2.2.2, f15.2.2.2.2.2.2⟩

end

section
variable (cx : Cntx) {M N K p pn m_c k_c : Nat} (h : Fit2 M N p cx.m_r cx.n_r pn m_c k_c)
include h

theorem val_cake_sgemm_2dW {α : Type} (A B C : Loc) (packedA packedB : Bool) (alpha beta : α) :
    cake_sgemm_2d cx A B C M N K p packedA packedB alpha beta pn m_c k_c =
      some (cake_sgemm_2dW cx A B C M N K p pn m_c k_c).val := by
  obtain ⟨x, hi, hv, hx⟩ := init2d_grid (K := K) h
  simp only [cake_sgemm_2dW, val_bind, val_pure, val_tasks, val_schedule2dW, hv]
  unfold cake_sgemm_2d
  rw [hi]
  rfl

theorem pos_cake_sgemm_2dW (A B C : Loc) : W.Pos (cake_sgemm_2dW cx A B C M N K p pn m_c k_c) := by
  obtain ⟨x, hi, hv, hx⟩ := init2d_grid (K := K) h
  obtain ⟨t1, t2⟩ := tiles_side h
  obtain ⟨-, -, ⟨e8, e9, -⟩, ⟨e11, e12⟩, -, -, -⟩ := dims2d_fields hx
  obtain ⟨a1, -, -⟩ := pl_bounds (M := M) (N := 0) (K := 0) t1
  obtain ⟨b1, -, -⟩ := pl_bounds (M := N) (N := 0) (K := 0) t2
  simp only [cake_sgemm_2dW, W.pos_bind, W.pos_pure, and_true, W.pos_ev, hv]
  refine ⟨pos_init2dW h, by simp, by simp, W.pos_tasks fun _ _ => by plain, pos_schedule2dW ?_ ?_ _ _ _ _ _ _ _ _ _,
    W.pos_tasks fun _ _ => by simp⟩
  · rw [e8, e11]; exact a1
  · rw [e9, e12]; exact b1

theorem ok_cake_sgemm_2dW (A B C : Loc) (z : Int2 M N p cx.m_r cx.n_r pn m_c k_c) (hp : p < 2 ^ 31) (hmc : m_c < 2 ^ 31)
    (hK : K < 2 ^ 31) (hMK : M * K < 2 ^ 31) (hKN : K * N < 2 ^ 31) (hMN : M * N < 2 ^ 31) :
    Ok (cake_sgemm_2dW cx A B C M N K p pn m_c k_c) := by
  obtain ⟨x, hi, hv, hx⟩ := init2d_grid (K := K) h
  have hf := twoDInts_fits (K := K) h z hp hmc hK hMK hKN hMN
  unfold twoDInts at hf
  rw [hi] at hf
  simp only [allFits_append, allFits_cons, allFits_nil, and_true] at hf
  obtain ⟨⟨-, s1, s2, s3⟩, f⟩ := hf
  obtain ⟨t1, t2⟩ := tiles_side h
  have sm : IntSide M (grid2 M N p cx.m_r cx.n_r pn m_c).pm cx.m_r (grid2 M N p cx.m_r cx.n_r pn m_c).m_c :=
    ⟨t1, by rw [padTo_eq h.m_r_pos t1.S_dvd, ← roundUpC_cdiv h.m_r_pos]; exact z.Mp,
      Nat.lt_of_le_of_lt (Nat.le_mul_of_pos_right _ h.k_c_pos) z.pmk⟩
  have sn : IntSide N (grid2 M N p cx.m_r cx.n_r pn m_c).pn cx.n_r (grid2 M N p cx.m_r cx.n_r pn m_c).n_c :=
    ⟨t2, by rw [padTo_eq h.n_r_pos t2.S_dvd, ← roundUpC_cdiv h.n_r_pos]; exact z.Np,
      Nat.lt_of_le_of_lt (Nat.le_mul_of_pos_right _ h.k_c_pos) z.pnk⟩
  simp only [cake_sgemm_2dW, ok_bind, ok_pure, ok_tasks, ok_ev, and_true, true_and, hv]
  exact ⟨ok_init2dW h z hp hmc hK hMK hKN hMN, s1, s2, fun i hi => ⟨s3, fits_next hp hi⟩,
    ok_schedule2dW (xok2 sm sn hx h.k_c_pos hK) _ _ _ _ f, fun i hi => fits_next hp hi⟩

theorem ok_of_2d32 {A B C : Loc} {prog : Prog} (hr : cake_sgemm_2d32 cx A B C M N K p pn m_c k_c = some prog) :
    W.Ok (cake_sgemm_2dW cx A B C M N K p pn m_c k_c) := by
  unfold cake_sgemm_2d32 W.run at hr
  split at hr
  · rename_i hv
    exact fun e he => E.fits_of_eval32 (pos_cake_sgemm_2dW cx h A B C e he) (by rw [hv e he]; simp)
  · exact absurd hr (by simp)

end

theorem run2d32_of_ok (cx : Cntx) {M N K p pn m_c k_c : Nat} {A B C : Loc} (h : W.Ok (cake_sgemm_2dW cx A B C M N K p pn m_c k_c)) :
    cake_sgemm_2d32 cx A B C M N K p pn m_c k_c = some (cake_sgemm_2dW cx A B C M N K p pn m_c k_c).val := by
  unfold cake_sgemm_2d32 W.run
  exact if_pos fun e he => E.eval32_of_fits (h e he)

/-! ### A defined run divides by zero nowhere -/

theorem forall_bind {α β : Type} {P : E → Prop} {w : W α} {f : α → W β} :
    (∀ e ∈ (w >>= f).ints, P e) ↔ (∀ e ∈ w.ints, P e) ∧ ∀ e ∈ (f w.val).ints, P e := by
  show (∀ e ∈ w.ints ++ (f w.val).ints, P e) ↔ _
  simp only [mem_append, or_imp, forall_and]

theorem forall_ev {P : E → Prop} {e : E} : (∀ e' ∈ (ev e).ints, P e') ↔ P e := by
  show (∀ e' ∈ [e], P e') ↔ _
  simp

theorem divisor_pos {a b : E} (ha : a.Pos) (hb : b.Pos) :
    ((a / b).eval32 = some ((a / b).val : Int) → 0 < b.val) ∧ ((a % b).eval32 = some ((a % b).val : Int) → 0 < b.val) := by
  constructor <;> intro h
  · exact Nat.pos_of_ne_zero (E.fits_of_eval32 (e := a / b) ⟨ha, hb⟩ (by rw [h]; simp)).2.2
  · exact Nat.pos_of_ne_zero (E.fits_of_eval32 (e := a % b) ⟨ha, hb⟩ (by rw [h]; simp)).2.2

theorem init2d_of_run {M N K p m_r n_r pn m_c k_c : Nat}
    (h : ∀ e ∈ (init2dW M N K p m_r n_r pn m_c k_c).ints, e.eval32 = some (e.val : Int)) :
    init_block_dims_2d M N K p m_r n_r pn m_c k_c = some (init2dW M N K p m_r n_r pn m_c k_c).val := by
  simp only [init2dW, forall_bind, forall_ev, val_roundUpW, val_fit2dW] at h
  obtain ⟨h1, -, -, -, -, -, -, -, h⟩ := h
  simp only [dims2dW, forall_bind, forall_ev] at h
  obtain ⟨h2, h3, h4, -⟩ := h
  have p1 : 0 < pn := (divisor_pos (by simp) (by simp)).1 h1
  have p2 := (divisor_pos (by simp) (by simp)).2 h2
  have p3 := (divisor_pos (by simp) (by simp)).2 h3
  have p4 := (divisor_pos (by simp) (by simp)).2 h4
  simp only [E.val_mul, E.val_lit] at p2 p3 p4
  unfold init_block_dims_2d
  rw [if_neg (by omega)]
  simp only [init2dW, val_bind, val_roundUpW, val_fit2dW]
  refine val_dims2dW ?_
  rintro (e | e | e)
  · exact absurd e (Nat.ne_of_gt p4)
  · exact absurd e (Nat.ne_of_gt p3)
  · exact absurd e (Nat.ne_of_gt p2)

/-! ### Tile sizes -/

theorem ref_tiles2d {D : Type _} (fl : Flt D) (cx : CCtx D) (L1 mcu kcu ncu : Int) :
    Refines (tiles2d32 fl cx L1 mcu kcu ncu) (tiles2d fl cx L1 mcu kcu ncu) := by
  unfold tiles2d32 tiles2d
  refine .int (.int (.bind .rfl fun kc => .ite .rfl (.bind ?_ fun _ => .rfl)))
  unfold autoMc2d32 autoMc2d
  exact .int (.bind .rfl fun m => .bind (ref_cMod _ _) fun _ => .int')

theorem Refines.grid {g : Option Nat} {f f' : Nat → Except Fail Prog} (h : ∀ pn, Refines (f pn) (f' pn)) :
    Refines (match g with | some pn => (Except.ok pn >>= f) | none => ((Except.error .ub : Except Fail Nat) >>= f))
      (match g with | some pn => (Except.ok pn >>= f') | none => ((Except.error .ub : Except Fail Nat) >>= f')) := by
  cases g with
  | none => intro x hx; cases hx
  | some pn => exact h pn

theorem grid_some {g : Option Nat} {pn : Nat} (f : Nat → Except Fail Prog) : g = some pn →
    (match g with | some pn => (Except.ok pn >>= f) | none => ((Except.error .ub : Except Fail Nat) >>= f)) = f pn := by
  rintro rfl
  rfl

section
variable (r : Rounding 53) (rs : Rounding 24) (nf : Option ℝ → Option ℝ → Bool)

theorem autoMc2d32_eq {cx : CCtx (Option ℝ)} {mr nr : Nat} (hmr : cx.mr = mr) (hnr : cx.nr = nr) (hn : nr < 2 ^ 31) :
    autoMc2d32 (ieee r rs nf) cx = autoMc2d (ieee r rs nf) cx := by
  unfold autoMc2d32 autoMc2d
  rw [hnr]
  refine (int32_bind (by omega) (by omega) _).trans (bind_congr_ok fun x hx => ?_)
  rw [hmr]
  exact sub_mod32_eq (cInt_range r rs nf hx).1 (cInt_range r rs nf hx).2

/-- No `int` operation of the choice of the tile overflows. -/
theorem tiles2d32_eq {cx : CCtx (Option ℝ)} {m_r n_r L2 L3 nc : Nat} (ok : CacheOK cx m_r n_r L2 L3 nc)
    (h1 : m_r * n_r < 2 ^ 31) (h2 : m_r + n_r < 2 ^ 31) (L1 mcu kcu ncu : ℤ) :
    tiles2d32 (ieee r rs nf) cx L1 mcu kcu ncu = tiles2d (ieee r rs nf) cx L1 mcu kcu ncu := by
  have hnr := ok.nr_le
  have e : (m_r : ℤ) * n_r = ((m_r * n_r : Nat) : ℤ) := by push_cast; rfl
  unfold tiles2d32 tiles2d
  rw [autoMc2d32_eq r rs nf ok.mr_eq ok.nr_eq (by omega), ok.mr_eq, ok.nr_eq]
  exact (int32_bind (by rw [e]; omega) (by rw [e]; omega) _).trans (int32_bind (by omega) (by omega) _)

end

end Cake
