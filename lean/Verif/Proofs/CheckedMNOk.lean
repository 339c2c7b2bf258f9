/-
What the recording functions of `Verif.Model.CheckedMN` record is covered by the lists of `Verif.Model.IntRangeMN`.
-/
import Verif.Proofs.CheckedMN

namespace Cake
open List
open W

/-- The block sizes that the loops of the M-first and N-first paths rely on; `mS` is the height of a row block. -/
structure KOK (x : BlkDims) (p m_r n_r mS : Nat) : Prop where
  p_pos : 0 < p
  p_lt : p < 2 ^ 31
  r_pos : 0 < m_r
  r_lt : m_r < 2 ^ 31
  s_pos : 0 < n_r
  s_lt : n_r < 2 ^ 31
  Mb : x.Mb < 2 ^ 31
  Nb : x.Nb < 2 ^ 31
  Kb : x.Kb < 2 ^ 31
  pl_pos : x.k_pad = true → 0 < x.p_l
  pl_lt : x.p_l < 2 ^ 31
  mS_lt : mS < 2 ^ 31
  mc1 : x.m_c1 < 2 ^ 31
  mS_dvd : m_r ∣ mS
  mc1_dvd : m_r ∣ x.m_c1
  kc : x.k_c < 2 ^ 31
  kc1 : x.k_c1 < 2 ^ 31
  kcl : x.k_c1_last_core < 2 ^ 31
  nc : x.n_c < 2 ^ 31
  nc1 : x.n_c1 < 2 ^ 31
  nc_dvd : n_r ∣ x.n_c
  nc1_dvd : n_r ∣ x.n_c1
  pk : p * x.k_c < 2 ^ 31

section
variable {x : BlkDims} {p m_r n_r mS : Nat}

theorem KOK.used (o : KOK x p m_r n_r mS) {b : Bool} (hb : b = true → x.k_pad = true) :
    0 < (if b = true then x.p_l else p) ∧ (if b = true then x.p_l else p) < 2 ^ 31 := by
  split
  · exact ⟨o.pl_pos (hb ‹_›), o.pl_lt⟩
  · exact ⟨o.p_pos, o.p_lt⟩

theorem KOK.depth (o : KOK x p m_r n_r mS) (b : Bool) (c : Prop) [Decidable c] :
    (if b = true then (if c then x.k_c1_last_core else x.k_c1) else x.k_c) < 2 ^ 31 := by
  split
  · split
    · exact o.kcl
    · exact o.kc1
  · exact o.kc

theorem KOK.rows (o : KOK x p m_r n_r mS) (b : Bool) :
    m_r ∣ (if b = true then x.m_c1 else mS) ∧ (if b = true then x.m_c1 else mS) < 2 ^ 31 := by
  split
  · exact ⟨o.mc1_dvd, o.mc1⟩
  · exact ⟨o.mS_dvd, o.mS_lt⟩

theorem KOK.cols (o : KOK x p m_r n_r mS) (b : Bool) :
    n_r ∣ (if b = true then x.n_c1 else x.n_c) ∧ (if b = true then x.n_c1 else x.n_c) < 2 ^ 31 := by
  split
  · exact ⟨o.nc1_dvd, o.nc1⟩
  · exact ⟨o.nc_dvd, o.nc⟩

theorem ok_kBlkW (o : KOK x p m_r n_r mS) {k : Nat} (hk : k < x.Kb) : Ok (kBlkW x p k) := by
  simp only [kBlkW, ok_bind, ok_pure, and_true]
  refine ⟨ok_isLastW (by omega) o.Kb, ?_⟩
  rw [ok_sel, val_isLastW]
  refine ⟨fun _ => ok_pure _, fun hl => ?_⟩
  rw [if_neg hl, ok_ev]
  exact ⟨o.p_lt, o.kc, o.pk⟩

/-- A choice between two evaluations, covered by the expression chosen. -/
theorem ok_selEv {c : Prop} [Decidable c] {a b e : E} (h : e.Fits) (he : e = if c then a else b) : Ok (sel c (ev a) (ev b)) := by
  rw [ok_sel, ok_ev, ok_ev]
  exact ⟨fun hc => by rwa [he, if_pos hc] at h, fun hc => by rwa [he, if_neg hc] at h⟩

theorem ok_colBlkW (o : KOK x p m_r n_r mS) {N n : Nat} (hn : n < x.Nb)
    (h : (if (n == x.Nb - 1 && x.n_pad) = true then (N : E) - (N : E) % x.n_c else (n : E) * x.n_c).Fits) :
    Ok (colBlkW x N n) := by
  simp only [colBlkW, ok_bind, ok_pure, and_true]
  exact ⟨ok_isLastW (by omega) o.Nb, ok_selEv h rfl⟩

theorem ok_stripKW (o : KOK x p m_r n_r mS) {b : Bool} (hb : b = true → x.k_pad = true) (core : Nat) :
    Ok (stripKW x b core) := by
  simp only [stripKW, ok_sel, ok_bind, ok_ev, ok_pure, and_true, implies_true]
  exact fun h => fits_pred (o.pl_pos (hb h)) o.pl_lt

theorem ok_padKW (o : KOK x p m_r n_r mS) {b : Bool} (hb : b = true → x.k_pad = true) (core : Nat) :
    Ok (padKW x b core) := by
  simp only [padKW, ok_sel, ok_bind, ok_ev, ok_pure, and_true, implies_true]
  exact fun h => fits_pred (o.pl_pos (hb h)) o.pl_lt

theorem ok_mctMW {m : Nat} (hMb : x.Mb < 2 ^ 31) (hm : m < x.Mb) : Ok (mctMW x m) := by
  simp only [mctMW, ok_bind, ok_pure, and_true]
  exact ok_isLastW (by omega) hMb

theorem ok_mctNW {m : Nat} (hMb : x.Mb < 2 ^ 31) (hpm : ((p : E) * x.m_c).Fits) (hm : m < x.Mb) : Ok (mctNW x p m) := by
  simp only [mctNW, ok_bind, ok_pure, and_true, ok_ev]
  exact ⟨hpm, ok_isLastW (by omega) hMb⟩

theorem ok_packATaskW (o : KOK x p m_r n_r mS) (A A_p : Loc) {row : E} {M K k A_p_offset m_c_t core : Nat} (hk : k < x.Kb)
    (hd : m_r ∣ m_c_t) (hm : m_c_t < 2 ^ 31)
    (h : AllFits (packACore row M K k p m_r x.k_c core (if (k == x.Kb - 1 && x.k_pad) = true then x.k_c1 else x.k_c) m_c_t
      (if (k == x.Kb - 1 && x.k_pad) = true then (if core = x.p_l - 1 then x.k_c1_last_core else x.k_c1) else x.k_c)
      A_p_offset)) :
    Ok (packATaskW A A_p row M K m_r x k (row * (K : E) + (k : E) * p * x.k_c).val A_p_offset m_c_t core) := by
  simp only [packACore, allFits_append, allFits_cons, allFits_nil, and_true] at h
  obtain ⟨⟨e1, e2, e3, _⟩, e4⟩ := h
  simp only [packATaskW, ok_bind, ok_ev]
  refine ⟨ok_isLastW (by omega) o.Kb, ok_stripKW o lastPad core, ok_padKW o lastPad core, ⟨e1.1.lt, e1.2⟩, e2, e3, ?_⟩
  rw [val_stripKW, val_isLastW]
  exact ok_obAW _ _ o.r_pos hd hm (o.depth _ _) o.r_lt e4

/-- The first core of a block. -/
theorem packACore_off {row : E} {M K k p m_r k_c core k_c_x m_c_t k_c_t A_p_offset : Nat}
    (h : AllFits (packACore row M K k p m_r k_c core k_c_x m_c_t k_c_t A_p_offset)) :
    (row * (K : E) + (k : E) * p * k_c).Fits := by
  simp only [packACore, allFits_append, allFits_cons] at h
  exact h.1.1.1

/-- The step `off + k_cb*m_c_t`. -/
theorem fits_off {off t v : Nat} {e : E} (h : ((off : E) + e * (t : E)).Fits) (hv : v = e.val) :
    ((off : E) + (v : E) * (t : E)).Fits := by
  subst hv
  exact ⟨h.1, ⟨h.2.1.1.lt, h.2.1.2⟩, h.2.2⟩

theorem kcb_val (x : BlkDims) (p k : Nat) : (kBlkW x p k).val.2.2 =
    (if (k == x.Kb - 1 && x.k_pad) = true then ((x.k_rem : Nat) : E) else
      (((if (k == x.Kb - 1 && x.k_pad) = true then x.p_l else p : Nat) : E) * x.k_c)).val := by
  rw [val_kBlkW, apply_ite E.val]
  rfl

theorem ok_packAMW (o : KOK x p m_r n_r x.m_c) (A A_p : Loc) {M K : Nat} (h : AllFits (packAIntsM M K p m_r x)) :
    Ok (packAMW A A_p M K p m_r x) := by
  simp only [packAMW, ok_bind, ok_pure, and_true]
  refine ok_loop h fun k hk s => ⟨?_, fun h => ⟨?_, fits_next o.Kb hk⟩⟩
  · simp only [val_bind]
    simp only [val_loop]
    refine loopS_snd_congr fun m _ s => ?_
    simp only [val_bind, val_pure, kcb_val]
    rfl
  rw [mem_range] at hk
  simp only [ok_bind]
  refine ⟨ok_kBlkW o hk, ?_⟩
  refine ok_loop h fun m hm s => ⟨?_, fun h => ⟨?_, fits_next o.Mb hm⟩⟩
  · simp only [val_bind, val_pure, kcb_val]
    rfl
  rw [mem_range] at hm
  simp only [allFits_append, allFits_cons, allFits_nil, and_true, allFits_flatMap] at h
  obtain ⟨⟨h1, h2, h3, h4⟩, h5⟩ := h
  obtain ⟨hu0, hu⟩ := o.used (b := (k == x.Kb - 1 && x.k_pad)) lastPad
  obtain ⟨d1, d2⟩ := o.rows (m == x.Mb - 1 && x.m_pad)
  simp only [ok_bind, ok_ev, ok_pure, and_true, ok_tasks]
  refine ⟨ok_mctMW o.Mb hm, packACore_off (h5 0 (mem_range.2 hu0)), fun core hc => ⟨?_, ?_⟩, fits_off h4 (kcb_val _ _ _)⟩
  · rw [val_kBlkW] at hc
    exact ok_packATaskW o _ _ hk d1 d2 (h5 core hc)
  · rw [val_kBlkW] at hc
    exact fits_next hu hc

theorem ok_packANW (o : KOK x p m_r n_r (p * x.m_c)) (A A_p : Loc) {M K : Nat} (hmc : x.m_c < 2 ^ 31)
    (h : AllFits (packAIntsN M K p m_r x)) : Ok (packANW A A_p M K p m_r x) := by
  simp only [packANW, ok_bind, ok_pure, and_true]
  refine ok_loop h fun m hm s => ⟨?_, fun h => ⟨?_, fits_next o.Mb hm⟩⟩
  · simp only [val_bind]
    simp only [val_loop]
    refine loopS_snd_congr fun k _ s => ?_
    simp only [val_bind, val_pure, kcb_val]
    rfl
  rw [mem_range] at hm
  simp only [ok_bind]
  refine ⟨ok_mctNW o.Mb ⟨o.p_lt, hmc, o.mS_lt⟩ hm, ?_⟩
  refine ok_loop h fun k hk s => ⟨?_, fun h => ⟨?_, fits_next o.Kb hk⟩⟩
  · simp only [val_bind, val_pure, kcb_val]
    rfl
  rw [mem_range] at hk
  simp only [allFits_append, allFits_cons, allFits_nil, and_true, allFits_flatMap] at h
  obtain ⟨⟨_, h1, h2, h3, h4⟩, h5⟩ := h
  obtain ⟨hu0, hu⟩ := o.used (b := (k == x.Kb - 1 && x.k_pad)) lastPad
  obtain ⟨d1, d2⟩ := o.rows (m == x.Mb - 1 && x.m_pad)
  simp only [ok_bind, ok_ev, ok_pure, and_true, ok_tasks]
  refine ⟨ok_kBlkW o hk, packACore_off (h5 0 (mem_range.2 hu0)), fun core hc => ⟨?_, ?_⟩, fits_off h4 (kcb_val _ _ _)⟩
  · rw [val_kBlkW] at hc
    exact ok_packATaskW o _ _ hk d1 d2 (h5 core hc)
  · rw [val_kBlkW] at hc
    exact fits_next hu hc

theorem ok_obBW (B B_p : Loc) {N n1 k_c n_c n_r : Nat} {pad : Bool} (hs : 0 < n_r) (hd : n_r ∣ n_c) (hn : n_c < 2 ^ 31)
    (hk : k_c < 2 ^ 31) (hsi : n_r < 2 ^ 31) (h : AllFits (obBInts N n1 k_c n_c n_r pad)) :
    Ok (obBW B B_p N n1 k_c n_c n_r pad) := by
  simp only [obBW, ok_bind, ok_pure, and_true, ok_sel]
  constructor
  · intro hp
    refine ok_loop h fun n2 h2 s => ⟨by states, fun h => ⟨?_, fits_step hs hd hn h2⟩⟩
    refine ok_loop h fun i hi s => ⟨by states, fun h => ⟨?_, fits_next hk hi⟩⟩
    refine ok_loop h fun j hj s => ⟨by states, fun h => ⟨?_, fits_next hsi hj⟩⟩
    simp only [if_pos hp, allFits_append, allFits_cons, allFits_nil, and_true] at h
    simp only [ok_bind, ok_ev, ok_pure, ok_sel, and_true]
    refine ⟨h.2.1, ⟨fun _ => trivial, fun hlt => ?_⟩, h.1.2.2.2⟩
    have h2 := h.2.2
    rw [if_neg (show ¬ n1 + n2 + j ≥ N from hlt)] at h2
    exact h2 _ (mem_singleton.2 rfl)
  · intro hp
    refine ok_loop h fun n2 h2 s => ⟨by states, fun h => ⟨?_, fits_step hs hd hn h2⟩⟩
    refine ok_loop h fun i hi s => ⟨by states, fun h => ⟨?_, fits_next hk hi⟩⟩
    refine ok_loop h fun j hj s => ⟨by states, fun h => ⟨?_, fits_next hsi hj⟩⟩
    simp only [if_neg hp, allFits_append, allFits_cons, allFits_nil, and_true] at h
    simp only [ok_bind, ok_ev, ok_pure, and_true]
    exact ⟨h.2, h.1.2.2.2⟩

theorem ok_packBBlkW (o : KOK x p m_r n_r mS) (B B_p : Loc) {N n k off : Nat} (hk : k < x.Kb)
    (h : AllFits (packBBlk N p n_r x n k off).1) :
    Ok (packBBlkW B B_p N p n_r x (colBlkW x N n).val (kBlkW x p k).val n k off) := by
  simp only [packBBlk, allFits_append, allFits_cons, allFits_nil, and_true, allFits_flatMap] at h
  obtain ⟨⟨h1, h2, h3, h4, h5⟩, h6⟩ := h
  obtain ⟨hu0, hu⟩ := o.used (b := (k == x.Kb - 1 && x.k_pad)) lastPad
  obtain ⟨d1, d2⟩ := o.cols (n == x.Nb - 1 && x.n_pad)
  simp only [packBBlkW, ok_bind, ok_ev, ok_pure, and_true, ok_tasks]
  refine ⟨(h6 0 (mem_range.2 hu0)).1.1.1, fun core hc => ⟨?_, ?_⟩, ?_⟩
  · rw [val_kBlkW] at hc
    obtain ⟨⟨e1, e2, _⟩, e3⟩ := h6 core hc
    refine ⟨ok_isLastW (by omega) o.Kb, ok_stripKW o lastPad core, ok_padKW o lastPad core, ⟨e1.1.lt, e1.2⟩, ?_, ?_⟩
    · rw [val_colBlkW]
      exact e2
    · rw [val_stripKW, val_padKW, val_isLastW, val_colBlkW]
      simp only [apply_ite E.val] at e3
      exact ok_obBW _ _ o.s_pos d1 d2 (o.depth _ _) o.s_lt e3
  · rw [val_kBlkW] at hc
    exact fits_next hu hc
  · have := fits_off h5 (kcb_val x p k)
    rw [val_colBlkW]
    exact this

theorem packBBlk_snd (B B_p : Loc) (N p n_r : Nat) (x : BlkDims) (n k s : Nat) :
    (packBBlkW B B_p N p n_r x (colBlkW x N n).val (kBlkW x p k).val n k s).val.2 = (packBBlk N p n_r x n k s).2 := by
  rw [val_packBBlkW, kcb_val, val_colBlkW]
  rfl

theorem ok_packBMW (o : KOK x p m_r n_r mS) (B B_p : Loc) {N : Nat}
    (hcol : ∀ n, n < x.Nb → (if (n == x.Nb - 1 && x.n_pad) = true then (N : E) - (N : E) % x.n_c else (n : E) * x.n_c).Fits)
    (h : AllFits (packBIntsM N p n_r x)) : Ok (packBMW B B_p N p n_r x) := by
  simp only [packBMW, ok_bind, ok_pure, and_true]
  refine ok_loop h fun n hn s => ⟨?_, fun h => ⟨?_, fits_next o.Nb hn⟩⟩
  · simp only [val_bind]
    simp only [val_loop]
    refine loopS_snd_congr fun k _ s => ?_
    rw [val_bind, packBBlk_snd]
  rw [mem_range] at hn
  simp only [ok_bind]
  refine ⟨ok_colBlkW o hn (hcol n hn), ?_⟩
  refine ok_loop h fun k hk s => ⟨?_, fun h => ⟨?_, fits_next o.Kb hk⟩⟩
  · rw [val_bind, packBBlk_snd]
  rw [mem_range] at hk
  rw [ok_bind]
  exact ⟨ok_kBlkW o hk, ok_packBBlkW o _ _ hk h⟩

theorem ok_packBNW (o : KOK x p m_r n_r mS) (B B_p : Loc) {N : Nat}
    (hcol : ∀ n, n < x.Nb → (if (n == x.Nb - 1 && x.n_pad) = true then (N : E) - (N : E) % x.n_c else (n : E) * x.n_c).Fits)
    (h : AllFits (packBIntsN N p n_r x)) : Ok (packBNW B B_p N p n_r x) := by
  simp only [packBNW, ok_bind, ok_pure, and_true]
  refine ok_loop h fun k hk s => ⟨?_, fun h => ⟨?_, fits_next o.Kb hk⟩⟩
  · simp only [val_bind]
    simp only [val_loop]
    refine loopS_snd_congr fun n _ s => ?_
    rw [val_bind, packBBlk_snd]
  rw [mem_range] at hk
  simp only [ok_bind]
  refine ⟨ok_kBlkW o hk, ?_⟩
  refine ok_loop h fun n hn s => ⟨?_, fun h => ⟨?_, fits_next o.Nb hn⟩⟩
  · rw [val_bind, packBBlk_snd]
  rw [mem_range] at hn
  rw [ok_bind]
  exact ⟨ok_colBlkW o hn (hcol n hn), ok_packBBlkW o _ _ hk h⟩

theorem ok_obCW (C C_p : Loc) {M N m1 n1 m2 m_c n_c m_r n_r : Nat} {pm pn : Bool} (hr : 0 < m_r) (hs : 0 < n_r)
    (hd : m_r ∣ m_c) (hd' : n_r ∣ n_c) (hm : m_c < 2 ^ 31) (hn : n_c < 2 ^ 31) (hri : m_r < 2 ^ 31)
    (hsi : n_r < 2 ^ 31) (h : AllFits (obCInts M N m1 n1 m2 m_c n_c m_r n_r pm pn)) :
    Ok (obCW C C_p M N m1 n1 m2 m_c n_c m_r n_r pm pn) := by
  unfold obCInts at h
  simp only [obCW, ok_bind, ok_pure, and_true, ok_sel]
  constructor
  · intro hp
    rw [if_pos hp] at h
    refine ok_loop h fun n2 h2 s => ⟨by states, fun h => ⟨?_, fits_step hs hd' hn h2⟩⟩
    refine ok_loop h fun m3 h3 s => ⟨by states, fun h => ⟨?_, fits_step hr hd hm h3⟩⟩
    refine ok_loop h fun i hi s => ⟨by states, fun h => ⟨?_, fits_next hri hi⟩⟩
    refine ok_loop h fun j hj s => ⟨by states, fun h => ⟨?_, fits_next hsi hj⟩⟩
    simp only [allFits_append, allFits_cons, allFits_nil, and_true] at h
    simp only [ok_bind, ok_ev, ok_pure, ok_sel, and_true]
    refine ⟨h.1.2.2.2.2.2.1, ⟨fun _ => trivial, fun _ => h.1.2.2.2.2.2.2⟩, ⟨fun _ => trivial, fun hin => ?_⟩,
      h.1.2.2.2.2.1⟩
    have h2 := h.2
    rw [if_pos] at h2
    · exact h2 _ (mem_singleton.2 rfl)
    · rw [val_sel] at hin
      split at hin
      · exact absurd rfl hin
      · rename_i hc
        have hc' : ¬ n1 + n2 + j ≥ N := hc
        have hr' : ¬ m1 + m2 + m3 + i ≥ M := fun hge => hin (decide_eq_true hge)
        exact ⟨Nat.lt_of_not_le hc', Nat.lt_of_not_le hr'⟩
  · intro hp
    rw [if_neg hp] at h
    refine ok_loop h fun n2 h2 s => ⟨by states, fun h => ⟨?_, fits_step hs hd' hn h2⟩⟩
    refine ok_loop h fun m3 h3 s => ⟨by states, fun h => ⟨?_, fits_step hr hd hm h3⟩⟩
    refine ok_loop h fun i hi s => ⟨by states, fun h => ⟨?_, fits_next hri hi⟩⟩
    refine ok_loop h fun j hj s => ⟨by states, fun h => ⟨?_, fits_next hsi hj⟩⟩
    simp only [allFits_cons, allFits_nil, and_true] at h
    simp only [ok_bind, ok_ev, ok_pure, and_true]
    exact ⟨h.2.2.2.2.2, h.2.2.2.2.1⟩

theorem ok_blocksCMW (o : KOK x p m_r n_r x.m_c) (pack : Bool) (C C_p : Loc) {M N : Nat}
    (h : AllFits (cIntsM pack M N m_r n_r x)) : Ok (blocksCMW pack C C_p M N m_r n_r x) := by
  simp only [cIntsM, allFits_append, allFits_cons, allFits_nil, and_true, allFits_flatMap] at h
  simp only [blocksCMW, ok_tasks, ok_bind, ok_ev]
  refine fun n hn => ⟨?_, fits_next o.Nb hn⟩
  obtain ⟨⟨h1, _, h3⟩, h4⟩ := h n hn
  rw [mem_range] at hn
  refine ⟨ok_colBlkW o hn h1, h3, fun m hm => ⟨?_, fits_next o.Mb hm⟩⟩
  obtain ⟨⟨e1, _, e3, e4⟩, e5⟩ := h4 m hm
  rw [mem_range] at hm
  obtain ⟨d1, d2⟩ := o.rows (m == x.Mb - 1 && x.m_pad)
  obtain ⟨d3, d4⟩ := o.cols (n == x.Nb - 1 && x.n_pad)
  refine ⟨?_, e3, ?_, ?_⟩
  · simp only [rowBlkMW, ok_bind, ok_pure, and_true]
    exact ⟨ok_isLastW (by omega) o.Mb, ok_selEv e1 rfl⟩
  · rw [val_colBlkW]
    exact ⟨e4.1.lt, e4.2⟩
  · rw [ok_sel, val_colBlkW, val_rowBlkMW]
    simp only [apply_ite E.val] at e5
    refine ⟨fun hp => ?_, fun hp => ?_⟩
    · rw [if_pos hp] at e5
      exact ok_obCW _ _ o.r_pos o.s_pos d1 d3 d2 d4 o.r_lt o.s_lt e5
    · rw [if_neg hp] at e5
      exact ok_unpackObW _ _ o.r_pos o.s_pos d1 d3 d2 d4 o.r_lt o.s_lt e5

theorem ok_blocksCNW (o : KOK x p m_r n_r (p * x.m_c)) (pack : Bool) (C C_p : Loc) {M N : Nat}
    (h : AllFits (cIntsN pack M N p m_r n_r x)) : Ok (blocksCNW pack C C_p M N p m_r n_r x) := by
  simp only [cIntsN, allFits_append, allFits_cons, allFits_nil, and_true, allFits_flatMap] at h
  simp only [blocksCNW, ok_tasks, ok_bind, ok_ev]
  refine fun m hm => ⟨?_, fits_next o.Mb hm⟩
  obtain ⟨⟨h1, h2, _, h3⟩, h4⟩ := h m hm
  rw [mem_range] at hm
  obtain ⟨d1, d2⟩ := o.rows (m == x.Mb - 1 && x.m_pad)
  refine ⟨?_, h3, fun n hn => ⟨?_, fits_next o.Nb hn⟩⟩
  · simp only [rowBlkNW, ok_bind, ok_pure, and_true]
    refine ⟨ok_isLastW (by omega) o.Mb, ?_, ok_selEv h2 rfl⟩
    rw [ok_sel, val_isLastW]
    refine ⟨fun _ => ok_pure _, fun hl => ?_⟩
    rw [if_neg hl] at h1
    exact (ok_ev _).2 h1
  · obtain ⟨⟨e1, _, e3⟩, e4⟩ := h4 n hn
    rw [mem_range] at hn
    obtain ⟨d3, d4⟩ := o.cols (n == x.Nb - 1 && x.n_pad)
    refine ⟨ok_colBlkW o hn e1, e3, ?_⟩
    rw [ok_sel, val_colBlkW, val_rowBlkNW]
    simp only [apply_ite E.val] at e4
    refine ⟨fun hp => ?_, fun hp => ?_⟩
    · rw [if_pos hp, allFits_append, allFits_cons] at e4
      rw [ok_bind, ok_ev]
      exact ⟨⟨e4.1.1.1.lt, e4.1.1.2⟩, ok_obCW _ _ o.r_pos o.s_pos d1 d3 d2 d4 o.r_lt o.s_lt e4.2⟩
    · rw [if_neg hp, allFits_append, allFits_cons] at e4
      rw [ok_bind, ok_ev]
      exact ⟨⟨e4.1.1.1.lt, e4.1.1.2⟩, ok_unpackObW _ _ o.r_pos o.s_pos d1 d3 d2 d4 o.r_lt o.s_lt e4.2⟩

theorem ok_regTilesCW (kd : KDim) (t : Nat) (A B C : Loc) {a b c : E} {m_r n_r m_c_t n_c_t k_c_t : Nat}
    (hm : m_c_t < 2 ^ 31) (hn : n_c_t < 2 ^ 31)
    (h : AllFits (regIntsC a b c m_r n_r m_c_t n_c_t k_c_t)) :
    Ok (regTilesCW kd t A B C a.val b.val c.val m_r n_r m_c_t n_c_t k_c_t) := by
  simp only [regIntsC, allFits_append, allFits_cons, allFits_nil, and_true, allFits_flatMap] at h
  simp only [regTilesCW, ok_bind, ok_ev, ok_pure, ok_each, and_true]
  refine ⟨h.1.1, fun n_reg hn' => ⟨⟨h.1.2, fun m_reg hm' => ⟨?_, ?_⟩⟩, ?_⟩⟩
  · obtain ⟨h1, h2, h3, _⟩ := h.2 n_reg hn' m_reg hm'
    exact ⟨⟨h1.1.lt, h1.2⟩, ⟨h2.1.lt, h2.2⟩, ⟨h3.1.1.lt, h3.1.2⟩, h3.2⟩
  · exact fits_next (Nat.lt_of_le_of_lt (Nat.div_le_self _ _) hm) hm'
  · exact fits_next (Nat.lt_of_le_of_lt (Nat.div_le_self _ _) hn) hn'

theorem ok_coreW (o : KOK x p m_r n_r mS) (kd : KDim) (t : Nat) (A_p B_p C_p : Loc) {k m_c_t n_c_t core : Nat} {a b : Nat → E}
    {c : E} (hk : k < x.Kb) (hm : m_c_t < 2 ^ 31) (hn : n_c_t < 2 ^ 31)
    (ha : (a (if (k == x.Kb - 1 && x.k_pad) = true then x.k_c1 else x.k_c)).Fits)
    (hb : (b (if (k == x.Kb - 1 && x.k_pad) = true then x.k_c1 else x.k_c)).Fits) (hc : c.Fits)
    (h : AllFits (regIntsC (a (if (k == x.Kb - 1 && x.k_pad) = true then x.k_c1 else x.k_c))
      (b (if (k == x.Kb - 1 && x.k_pad) = true then x.k_c1 else x.k_c)) c m_r n_r m_c_t n_c_t
      (if (k == x.Kb - 1 && x.k_pad) = true then (if core = x.p_l - 1 then x.k_c1_last_core else x.k_c1) else x.k_c))) :
    Ok (coreW kd t A_p B_p C_p m_r n_r x k m_c_t n_c_t core a b c) := by
  simp only [coreW, ok_bind, ok_ev]
  refine ⟨ok_isLastW (by omega) o.Kb, ok_stripKW o lastPad core, ha, hb, hc, ?_⟩
  rw [val_stripKW, val_isLastW]
  exact ok_regTilesCW kd t A_p B_p C_p hm hn h

theorem ok_serpIdxW {desc : Bool} {n i : Nat} (hn : n < 2 ^ 31) (hi : i < n) :
    Ok (serpIdxW desc n i) ∧ (serpIdxW desc n i).val < n := by
  refine ⟨?_, by rw [val_serpIdxW]; split <;> omega⟩
  unfold serpIdxW
  rw [ok_sel, ok_ev]
  exact ⟨fun _ => ⟨fits_pred (by omega) hn, (by omega : i < 2 ^ 31), (by omega : i ≤ n - 1)⟩, fun _ => ok_pure _⟩

theorem fits_odd {n : Nat} (hn : n < 2 ^ 31) : ((n : E) % (2 : Nat)).Fits :=
  ⟨hn, (by decide : (2 : Nat) < 2 ^ 31), by decide⟩

theorem ok_scheduleMW (o : KOK x p m_r n_r x.m_c) (kd : KDim) (A_p B_p C_p : Loc) {K : Nat}
    (h : AllFits (schedIntsM K p m_r n_r x)) : Ok (scheduleMW kd A_p B_p C_p K p m_r n_r x) := by
  simp only [schedIntsM, allFits_flatMap, allFits_append, allFits_cons, allFits_nil, and_true] at h
  simp only [scheduleMW, ok_each, ok_bind, ok_ev]
  refine fun n hn => ⟨?_, fits_next o.Nb hn⟩
  obtain ⟨_, h3⟩ := h n hn
  rw [mem_range] at hn
  have hNb := o.Nb
  have hKb := o.Kb
  refine ⟨fits_odd (by omega), ok_isLastW (by omega) o.Nb, ?_⟩
  refine ok_eachSerp _ _ _ fun k hk => ⟨?_, fits_next o.Kb (mem_range.2 hk)⟩
  obtain ⟨_, h4⟩ := h3 k (mem_serp.2 hk)
  obtain ⟨hu0, hu⟩ := o.used (b := (k == x.Kb - 1 && x.k_pad)) lastPad
  simp only [ok_bind, ok_tasks, ok_ev, ok_pure, and_true, ok_each]
  refine ⟨fits_odd (by omega), ok_kBlkW o hk, fun mi hm => ⟨?_, fits_next o.Mb hm⟩⟩
  obtain ⟨_, h5⟩ := h4 mi hm
  rw [mem_range] at hm
  obtain ⟨s1, s2⟩ := ok_serpIdxW (desc := if (E.val ((n : E) % (2 : Nat))) ≠ 0 then
    (if (E.val ((k : E) % (2 : Nat))) ≠ 0 then false else true) else
    (if (E.val ((k : E) % (2 : Nat))) ≠ 0 then true else false)) o.Mb hm
  refine ⟨s1, ok_mctMW o.Mb s2, fun core hc => ⟨?_, ?_⟩⟩
  · rw [val_kBlkW] at hc
    obtain ⟨⟨_, a1, a2, a3⟩, a4⟩ := h5 core hc
    obtain ⟨_, d2⟩ := o.rows ((serpIdxW (if (E.val ((n : E) % (2 : Nat))) ≠ 0 then
      (if (E.val ((k : E) % (2 : Nat))) ≠ 0 then false else true) else
      (if (E.val ((k : E) % (2 : Nat))) ≠ 0 then true else false)) x.Mb mi).val == x.Mb - 1 && x.m_pad)
    obtain ⟨_, d4⟩ := o.cols (n == x.Nb - 1 && x.n_pad)
    refine ok_coreW o kd mi A_p B_p C_p hk d2 d4 ?_ a2 ?_ ?_
    · rw [kcb_val, val_mctMW, val_serpIdxW]; exact a1
    · rw [val_serpIdxW]; exact a3
    · rw [kcb_val, val_mctMW, val_serpIdxW]; exact a4
  · rw [val_kBlkW] at hc
    exact fits_next hu hc

theorem ok_scheduleNW (o : KOK x p m_r n_r (p * x.m_c)) (hmc : x.m_c < 2 ^ 31) (kd : KDim) (A_p B_p C_p : Loc) {K : Nat}
    (h : AllFits (schedIntsN K p m_r n_r x)) : Ok (scheduleNW kd A_p B_p C_p K p m_r n_r x) := by
  simp only [schedIntsN, allFits_flatMap, allFits_append, allFits_cons, allFits_nil, and_true] at h
  simp only [scheduleNW, ok_each, ok_bind, ok_ev]
  refine fun m hm => ⟨?_, fits_next o.Mb hm⟩
  obtain ⟨_, h3⟩ := h m hm
  rw [mem_range] at hm
  have hMb := o.Mb
  have hKb := o.Kb
  refine ⟨fits_odd (by omega), ok_mctNW o.Mb ⟨o.p_lt, hmc, o.mS_lt⟩ hm, ?_⟩
  refine ok_eachSerp _ _ _ fun k hk => ⟨?_, fits_next o.Kb (mem_range.2 hk)⟩
  obtain ⟨_, h4⟩ := h3 k (mem_serp.2 hk)
  obtain ⟨hu0, hu⟩ := o.used (b := (k == x.Kb - 1 && x.k_pad)) lastPad
  simp only [ok_bind, ok_tasks, ok_ev, ok_pure, and_true, ok_each]
  refine ⟨fits_odd (by omega), ok_kBlkW o hk, fun ni hn => ⟨?_, fits_next o.Nb hn⟩⟩
  obtain ⟨_, h5⟩ := h4 ni hn
  rw [mem_range] at hn
  obtain ⟨s1, s2⟩ := ok_serpIdxW (desc := if (E.val ((m : E) % (2 : Nat))) ≠ 0 then
    (if (E.val ((k : E) % (2 : Nat))) ≠ 0 then false else true) else
    (if (E.val ((k : E) % (2 : Nat))) ≠ 0 then true else false)) o.Nb hn
  refine ⟨s1, ok_isLastW (by omega) o.Nb, fun core hc => ⟨?_, ?_⟩⟩
  · rw [val_kBlkW] at hc
    obtain ⟨⟨_, a1, a2, a3⟩, a4⟩ := h5 core hc
    obtain ⟨_, d2⟩ := o.rows (m == x.Mb - 1 && x.m_pad)
    obtain ⟨_, d4⟩ := o.cols ((serpIdxW (if (E.val ((m : E) % (2 : Nat))) ≠ 0 then
      (if (E.val ((k : E) % (2 : Nat))) ≠ 0 then false else true) else
      (if (E.val ((k : E) % (2 : Nat))) ≠ 0 then true else false)) x.Nb ni).val == x.Nb - 1 && x.n_pad)
    refine ok_coreW o kd ni A_p B_p C_p hk d2 d4 a1 ?_ ?_ ?_
    · rw [kcb_val, val_isLastW, val_serpIdxW]; exact a2
    · rw [val_serpIdxW]; exact a3
    · rw [kcb_val, val_isLastW, val_serpIdxW]; exact a4
  · rw [val_kBlkW] at hc
    exact fits_next hu hc

end

end Cake
