/-
`Verif.Model.CheckedOn`: the values are those of the model, and what is recorded is covered by `onlineInts`.
-/
import Verif.Model.CheckedOn
import Verif.Proofs.CheckedPos
import Verif.Proofs.IntRangeOn

namespace Cake
open List W

theorem val_scheduleOnW (kd : KDim) (A B C : Loc) (M N K p m_r n_r : Nat) (x : BlkDims) :
    (scheduleOnW kd A B C M N K p m_r n_r x).val = schedule_KMN_online kd A B C M N K p m_r n_r x := by
  simp only [scheduleOnW, val_bind, val_pure, val_each, val_eachSerp, val_sel, val_tasks, val_regTilesW,
    val_unpackObW, val_stripW, schedule_KMN_online]
  rfl

theorem val_cake_sgemm_onlineW {α : Type} (cx : Cntx) (A B C : Loc) (M N K p : Nat) (packedA packedB : Bool)
    (alpha beta : α) (m_c k_c n_c : Nat) :
    cake_sgemm_online cx A B C M N K p packedA packedB alpha beta m_c k_c n_c =
      some (cake_sgemm_onlineW cx A B C M N K p m_c k_c n_c).val := by
  simp only [cake_sgemm_onlineW, val_bind, val_pure, val_dimsKMNW, val_tasks, val_each, val_scheduleOnW]
  rfl

theorem allFits_else {c : Prop} [Decidable c] {l : List E} (h : AllFits (if c then [] else l)) (hc : ¬ c) : AllFits l := by
  rw [if_neg hc] at h
  exact h

/-- The first summand may be evaluated before. -/
theorem fits_head {a b c : E} {v : Nat} (h : (a + b + c).Fits) (hv : v = a.val) : ((v : E) + b + c).Fits := by
  subst hv
  exact ⟨⟨h.1.1.lt, h.1.2⟩, h.2⟩

section
variable {x : BlkDims} {p m_r n_r : Nat}

theorem ok_scheduleOnW (o : XOK x p m_r n_r) (kd : KDim) (A B C : Loc) {M N K : Nat}
    (h : AllFits (schedOnInts M N K p m_r n_r x)) : Ok (scheduleOnW kd A B C M N K p m_r n_r x) := by
  simp only [schedOnInts, allFits_flatMap, allFits_append, allFits_cons, allFits_nil, and_true] at h
  simp only [scheduleOnW, ok_each, ok_bind, ok_ev]
  refine fun n hn => ⟨?_, fits_next o.Nb hn⟩
  obtain ⟨⟨h1, _⟩, h3⟩ := h n hn
  rw [mem_range] at hn
  have hN0 : 0 < x.Nb := by omega
  have hNb := o.Nb
  have two : (2 : Nat) < 2 ^ 31 := by decide
  refine ⟨⟨(by omega : n < 2 ^ 31), two, by decide⟩, ok_isLastW hN0 o.Nb, ?_, ?_⟩
  · rw [ok_sel, val_isLastW]
    revert h1
    split
    · exact fun h1 => ⟨fun _ => (ok_ev _).2 h1, fun hl => absurd ‹_› hl⟩
    · exact fun h1 => ⟨fun hl => absurd hl ‹_›, fun _ => (ok_ev _).2 h1⟩
  · refine ok_eachSerp _ _ _ fun m hm => ⟨?_, fits_next o.Mb (mem_range.2 hm)⟩
    obtain ⟨⟨⟨⟨h4, h5, _⟩, h7⟩, h8⟩, h9⟩ := h3 m (mem_serp.2 hm)
    have hM0 : 0 < x.Mb := by omega
    have hMb := o.Mb
    obtain ⟨hu0, hu⟩ := o.used (b := (m == x.Mb - 1 && x.m_pad)) lastPad
    obtain ⟨d3, d4⟩ := o.cols (n == x.Nb - 1 && x.n_pad)
    simp only [ok_bind, ok_tasks, ok_ev, ok_pure, and_true]
    refine ⟨⟨(by omega : m < 2 ^ 31), two, by decide⟩, ok_isLastW hM0 o.Mb, ?_, ?_, ?_, h8, fun core hc => ⟨⟨ok_isLastW hM0 o.Mb,
      ok_stripW o lastPad core, ?_⟩, fits_next hu hc⟩⟩
    · rw [ok_sel, val_isLastW]
      revert h4
      split
      · exact fun h1 => ⟨fun _ => (ok_ev _).2 h1, fun hl => absurd ‹_› hl⟩
      · exact fun h1 => ⟨fun hl => absurd hl ‹_›, fun _ => (ok_ev _).2 h1⟩
    · rw [ok_sel, val_isLastW]
      revert h5
      split
      · exact fun h1 => ⟨fun _ => (ok_ev _).2 h1, fun hl => absurd ‹_› hl⟩
      · exact fun h1 => ⟨fun hl => absurd hl ‹_›, fun _ => (ok_ev _).2 h1⟩
    · refine ok_eachSerp _ _ _ fun k hk => ⟨?_, fits_next o.Kb (mem_range.2 hk)⟩
      obtain ⟨⟨_, h10⟩, h11⟩ := h7 k (mem_serp.2 hk)
      have hK0 : 0 < x.Kb := by omega
      simp only [ok_bind, ok_tasks, ok_ev, ok_pure, and_true]
      refine ⟨ok_isLastW hK0 o.Kb, ?_, fun core hc => ⟨⟨ok_isLastW hM0 o.Mb, ok_stripW o lastPad core, ?_⟩, fits_next hu hc⟩⟩
      · rw [ok_sel]
        refine ⟨fun _ => ok_pure _, fun hne => ?_⟩
        simp only [ok_bind, ok_tasks, ok_ev, ok_pure, and_true]
        intro n2 h2
        have hb := allFits_else h10 hne
        simp only [allFits_flatMap, allFits_cons, allFits_nil, and_true] at hb
        obtain ⟨b1, b2, b3⟩ := hb n2 h2
        refine ⟨⟨fits_head b1 ?_, b2⟩, b3⟩
        rw [val_sel, apply_ite E.val]
        rfl
      · obtain ⟨⟨⟨_, c1⟩, c2⟩, c3⟩ := h11 core hc
        obtain ⟨_, d2⟩ := o.strip (m == x.Mb - 1 && x.m_pad) (core = x.p_l - 1)
        refine ⟨c1, ?_, ?_⟩
        · rw [ok_sel]
          refine ⟨fun _ => ok_pure _, fun hne => ?_⟩
          have ha := allFits_else c2 hne
          simp only [allFits_flatMap, allFits_cons, allFits_nil, and_true] at ha
          simp only [ok_bind, ok_each, ok_ev, ok_pure, and_true]
          intro m3 h3
          rw [val_stripW] at h3
          obtain ⟨a1, a2, a3⟩ := ha m3 h3
          exact ⟨⟨fits_head a1 rfl, a2⟩, a3⟩
        · have := ok_regTilesW kd core ⟨.ApC core, 0⟩ ⟨.Bp, 0⟩ ⟨.CpC core, 0⟩ d2 d4 c3
          rw [val_stripW]
          exact this
    · obtain ⟨⟨c1, c2, _, c4⟩, c5⟩ := h9 core hc
      obtain ⟨d1, d2⟩ := o.strip (m == x.Mb - 1 && x.m_pad) (core = x.p_l - 1)
      refine ⟨⟨c1.1.lt, c1.2⟩, c2, ?_, c4⟩
      refine ok_unpackObW _ _ o.r_pos o.s_pos ?_ d3 ?_ d4 o.r_lt o.s_lt ?_
      · rw [val_stripW]; exact d1
      · rw [val_stripW]; exact d2
      · rw [val_stripW, val_sel, val_sel]
        simp only [apply_ite E.val] at c5
        exact c5

end

theorem pos_scheduleOnW {x : BlkDims} (hpl : x.m_pad = true → 0 < x.p_l) (kd : KDim) (A B C : Loc) (M N K p m_r n_r : Nat) :
    W.Pos (scheduleOnW kd A B C M N K p m_r n_r x) := by
  have hs : ∀ (a : Nat) (b : E), b.Pos → ((a : E) - (a : E) % b).Pos := fun a b hb => ⟨trivial, ⟨trivial, hb⟩, Nat.mod_le _ _⟩
  refine W.pos_each fun n hn => ?_
  have hN0 : 0 < x.Nb := by rw [mem_range] at hn; omega
  simp only [W.pos_bind, W.pos_ev, W.pos_sel]
  refine ⟨by simp, pos_isLastW hN0, ⟨fun _ => hs _ _ (by simp), fun _ => by simp⟩, W.pos_eachSerp fun m hm => ?_⟩
  have hM0 : 0 < x.Mb := by omega
  simp only [W.pos_bind, W.pos_ev, W.pos_sel, W.pos_pure, and_true]
  refine ⟨by simp, pos_isLastW hM0, ⟨fun _ => by simp, fun _ => by simp⟩, ⟨fun _ => hs _ _ (by simp), fun _ => by simp⟩,
    W.pos_eachSerp fun k hk => ?_, by simp, W.pos_tasks fun core _ => ?_⟩
  · have hK0 : 0 < x.Kb := by omega
    simp only [W.pos_bind, W.pos_sel, W.pos_pure, and_true, implies_true, true_and]
    refine ⟨pos_isLastW hK0, fun _ => W.pos_tasks fun n2 _ => by plain, W.pos_tasks fun core _ => ?_⟩
    simp only [W.pos_bind, W.pos_ev, W.pos_sel, W.pos_pure, and_true, implies_true, true_and]
    exact ⟨pos_isLastW hM0, pos_stripW hpl lastPad core, by simp, fun _ => W.pos_each fun m3 _ => by plain,
      pos_regTilesW _ _ _ _ _ _ _ _ _ _ _ _⟩
  · simp only [W.pos_bind, W.pos_ev, W.pos_pure, and_true]
    exact ⟨pos_isLastW hM0, pos_stripW hpl lastPad core, by simp, by simp, pos_unpackObW _ _ _ _ _ _ _ _ _ _ _, by simp⟩

section
variable (cx : Cntx) {M N K p m_c k_c n_c : Nat} (h : TileOK p cx.m_r cx.n_r m_c k_c n_c)
include h

theorem pos_cake_sgemm_onlineW (A B C : Loc) : W.Pos (cake_sgemm_onlineW cx A B C M N K p m_c k_c n_c) := by
  obtain ⟨h1, -, -⟩ := pl_bounds (M := M) (N := N) (K := K) h
  have hd : W.Pos (dimsKMNW M N K p cx.m_r cx.n_r m_c k_c n_c) := by
    have := pos_cake_sgemmW h cx A B C true true rfl rfl (M := M) (N := N) (K := K)
    simp only [cake_sgemmW, W.pos_bind] at this
    exact this.1
  simp only [cake_sgemm_onlineW, W.pos_bind, W.pos_pure, and_true, W.pos_ev, val_dimsKMNW]
  exact ⟨hd, W.pos_tasks fun _ _ => by simp, by simp, W.pos_tasks fun _ _ => by simp, pos_scheduleOnW h1 _ _ _ _ _ _ _ _ _ _,
    W.pos_each fun _ _ => by simp⟩

theorem ok_cake_sgemm_onlineW (A B C : Loc) (z : IntDims M N K p cx.m_r cx.n_r m_c k_c n_c)
    (hMK : M * K < 2 ^ 31) (hKN : K * N < 2 ^ 31) (hMN : M * N < 2 ^ 31) (hmk : m_c * k_c < 2 ^ 31) (hkn : k_c * n_c < 2 ^ 31) :
    Ok (cake_sgemm_onlineW cx A B C M N K p m_c k_c n_c) := by
  have hf := onlineInts_fits h z hMK hKN hMN hmk hkn
  simp only [onlineInts, allFits_append, allFits_cons, allFits_nil, and_true] at hf
  obtain ⟨⟨-, s1, s2, s3⟩, f⟩ := hf
  have o := xok h z
  simp only [cake_sgemm_onlineW, ok_bind, ok_pure, ok_tasks, ok_each, ok_ev, and_true, true_and, val_dimsKMNW]
  exact ⟨ok_dimsKMNW h z, fun i hi => ⟨s1, fits_next o.p_lt hi⟩, s2, fun i hi => ⟨s3, fits_next o.p_lt hi⟩,
    ok_scheduleOnW o _ _ _ _ f, fun i hi => fits_next o.p_lt hi⟩

theorem ok_of_online32 {A B C : Loc} {prog : Prog}
    (hr : cake_sgemm_online32 cx A B C M N K p m_c k_c n_c = some prog) :
    W.Ok (cake_sgemm_onlineW cx A B C M N K p m_c k_c n_c) := by
  unfold cake_sgemm_online32 W.run at hr
  split at hr
  · rename_i hv
    exact fun e he => E.fits_of_eval32 (pos_cake_sgemm_onlineW cx h A B C e he) (by rw [hv e he]; simp)
  · exact absurd hr (by simp)

end

theorem online32_of_ok (cx : Cntx) {M N K p m_c k_c n_c : Nat} {A B C : Loc}
    (h : W.Ok (cake_sgemm_onlineW cx A B C M N K p m_c k_c n_c)) :
    cake_sgemm_online32 cx A B C M N K p m_c k_c n_c = some (cake_sgemm_onlineW cx A B C M N K p m_c k_c n_c).val := by
  unfold cake_sgemm_online32 W.run
  exact if_pos fun e he => E.eval32_of_fits (h e he)

end Cake
