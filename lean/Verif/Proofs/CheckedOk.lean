/-
What the recording functions of `Verif.Model.Checked` record is covered by the lists of `Verif.Model.IntRange`.
-/
import Verif.Proofs.Checked

namespace Cake
open List
open W

theorem allFits_cons {e : E} {l : List E} : AllFits (e :: l) ↔ e.Fits ∧ AllFits l :=
  ⟨fun h => ⟨h e (mem_cons_self ..), fun x hx => h x (mem_cons_of_mem _ hx)⟩, fun h => .cons h.1 h.2⟩
theorem allFits_append {l l' : List E} : AllFits (l ++ l') ↔ AllFits l ∧ AllFits l' :=
  ⟨fun h => ⟨fun x hx => h x (mem_append_left _ hx), fun x hx => h x (mem_append_right _ hx)⟩,
    fun h => h.1.append h.2⟩
theorem allFits_flatMap {β : Type _} {xs : List β} {f : β → List E} :
    AllFits (xs.flatMap f) ↔ ∀ b ∈ xs, AllFits (f b) :=
  ⟨fun h b hb x hx => h x (mem_flatMap.2 ⟨b, hb, hx⟩), AllFits.flatMap⟩
theorem allFits_nil : AllFits [] ↔ True := ⟨fun _ => trivial, fun _ => .nil⟩

/-- `i += step` in a loop over whole steps. -/
theorem cfor_step {hi step i : Nat} (hs : 0 < step) (hd : step ∣ hi) (h : i ∈ cfor 0 hi step) : i + step ≤ hi := by
  obtain ⟨q, rfl⟩ := hd
  rw [Nat.mul_comm step q, cfor_zero_mul q step hs] at h
  obtain ⟨t, ht, rfl⟩ := mem_map.1 h
  rw [mem_range] at ht
  have := Nat.mul_le_mul_right step (Nat.succ_le_of_lt ht)
  rw [Nat.succ_mul] at this
  rwa [Nat.mul_comm step q]

theorem fits_inc {i s : Nat} (h : i + s < 2 ^ 31) : ((i : E) + (s : E)).Fits :=
  ⟨(by omega : i < 2 ^ 31), (by omega : s < 2 ^ 31), h⟩

theorem fits_step {hi step i : Nat} (hs : 0 < step) (hd : step ∣ hi) (hi' : hi < 2 ^ 31) (h : i ∈ cfor 0 hi step) :
    ((i : E) + (step : E)).Fits := fits_inc (Nat.lt_of_le_of_lt (cfor_step hs hd h) hi')

theorem fits_next {n i : Nat} (hn : n < 2 ^ 31) (h : i ∈ range n) : ((i : E) + ((1 : Nat) : E)).Fits :=
  fits_inc (by rw [mem_range] at h; omega)

theorem ok_isLastW {i n : Nat} {pad : Bool} (h1 : 0 < n) (hn : n < 2 ^ 31) : Ok (isLastW i n pad) := by
  simp only [isLastW, ok_bind, ok_ev, ok_pure, and_true]
  exact ⟨hn, (by decide : (1 : Nat) < 2 ^ 31), h1⟩

/-- The states of the loops agree. -/
macro "states" : tactic => `(tactic|
  repeat (first | rfl | (try simp only [val_loop]); refine loopS_snd_congr fun _ _ _ => ?_))

theorem ok_obAW (A A_p : Loc) {M K m1 m2 m_c k_c m_r : Nat} (hr : 0 < m_r) (hd : m_r ∣ m_c) (hm : m_c < 2 ^ 31)
    (hk : k_c < 2 ^ 31) (hri : m_r < 2 ^ 31) (h : AllFits (obAInts M K m1 m2 m_c k_c m_r)) :
    Ok (obAW A A_p M K m1 m2 m_c k_c m_r) := by
  simp only [obAW, ok_bind, ok_pure, and_true]
  refine ok_loop h fun m3 h3 s => ⟨by states, fun h => ⟨?_, fits_step hr hd hm h3⟩⟩
  refine ok_loop h fun i hi s => ⟨by states, fun h => ⟨?_, fits_next hk hi⟩⟩
  refine ok_loop h fun j hj s => ⟨by states, fun h => ⟨?_, fits_next hri hj⟩⟩
  simp only [allFits_append, allFits_cons, allFits_nil, and_true] at h
  simp only [ok_bind, ok_ev, ok_pure, ok_sel, and_true]
  refine ⟨h.1.1, ⟨fun _ => trivial, fun hlt => ?_⟩, h.1.2.2.2.2⟩
  have h2 := h.2
  rw [if_neg (show ¬ m1 + m2 + m3 + j ≥ M from hlt)] at h2
  exact h2 _ (mem_singleton.2 rfl)

theorem ok_unpackObW (C C_p : Loc) {M N m1 n1 m2 m_c n_c m_r n_r : Nat} (hr : 0 < m_r) (hs : 0 < n_r)
    (hd : m_r ∣ m_c) (hd' : n_r ∣ n_c) (hm : m_c < 2 ^ 31) (hn : n_c < 2 ^ 31) (hri : m_r < 2 ^ 31)
    (hsi : n_r < 2 ^ 31) (h : AllFits (unpackInts M N m1 n1 m2 m_c n_c m_r n_r)) :
    Ok (unpackObW C C_p M N m1 n1 m2 m_c n_c m_r n_r) := by
  simp only [unpackObW, ok_bind, ok_pure, and_true]
  refine ok_loop h fun n2 h2 s => ⟨by states, fun h => ⟨?_, fits_step hs hd' hn h2⟩⟩
  refine ok_loop h fun m3 h3 s => ⟨by states, fun h => ⟨?_, fits_step hr hd hm h3⟩⟩
  refine ok_loop h fun i hi s => ⟨by states, fun h => ⟨?_, fits_next hri hi⟩⟩
  refine ok_loop h fun j hj s => ⟨by states, fun h => ⟨?_, fits_next hsi hj⟩⟩
  simp only [allFits_append, allFits_cons, allFits_nil, and_true] at h
  simp only [ok_bind, ok_ev, ok_pure, ok_sel, and_true]
  refine ⟨h.1.2.2.2.2.2.1, ⟨fun _ => h.1.2.2.2.2.2.2, fun _ => trivial⟩, ⟨fun hin => ?_, fun _ => trivial⟩,
    h.1.2.2.2.2.1⟩
  have h2 := h.2
  rw [if_pos] at h2
  · exact h2 _ (mem_singleton.2 rfl)
  · rw [val_sel] at hin
    split at hin
    · exact ⟨‹_›, of_decide_eq_true hin⟩
    · exact absurd hin (by decide)

/-- The block sizes that the loops of the K-first path rely on. -/
structure XOK (x : BlkDims) (p m_r n_r : Nat) : Prop where
  p_pos : 0 < p
  p_lt : p < 2 ^ 31
  r_pos : 0 < m_r
  r_lt : m_r < 2 ^ 31
  s_pos : 0 < n_r
  s_lt : n_r < 2 ^ 31
  Mb : x.Mb < 2 ^ 31
  Nb : x.Nb < 2 ^ 31
  Kb : x.Kb < 2 ^ 31
  pl_pos : x.m_pad = true → 0 < x.p_l
  pl_lt : x.p_l < 2 ^ 31
  mc : x.m_c < 2 ^ 31
  mc1 : x.m_c1 < 2 ^ 31
  mcl : x.m_c1_last_core < 2 ^ 31
  mc_dvd : m_r ∣ x.m_c
  mc1_dvd : m_r ∣ x.m_c1
  mcl_dvd : m_r ∣ x.m_c1_last_core
  kc_pos : 0 < x.k_c
  kc : x.k_c < 2 ^ 31
  kc1 : x.k_c1 < 2 ^ 31
  nc_pos : 0 < x.n_c
  nc : x.n_c < 2 ^ 31
  nc1 : x.n_c1 < 2 ^ 31
  nc_dvd : n_r ∣ x.n_c
  nc1_dvd : n_r ∣ x.n_c1
  pm : p * x.m_c < 2 ^ 31
  mcb : x.m_pad = true → ((m_r : E) * x.mr_rem).Fits

section
variable {x : BlkDims} {p m_r n_r : Nat}

theorem XOK.used (o : XOK x p m_r n_r) {b : Bool} (hb : b = true → x.m_pad = true) :
    0 < (if b = true then x.p_l else p) ∧ (if b = true then x.p_l else p) < 2 ^ 31 := by
  split
  · exact ⟨o.pl_pos (hb ‹_›), o.pl_lt⟩
  · exact ⟨o.p_pos, o.p_lt⟩

theorem XOK.strip (o : XOK x p m_r n_r) (b : Bool) (c : Prop) [Decidable c] :
    m_r ∣ (if b = true then (if c then x.m_c1_last_core else x.m_c1) else x.m_c) ∧
    (if b = true then (if c then x.m_c1_last_core else x.m_c1) else x.m_c) < 2 ^ 31 := by
  split
  · split
    · exact ⟨o.mcl_dvd, o.mcl⟩
    · exact ⟨o.mc1_dvd, o.mc1⟩
  · exact ⟨o.mc_dvd, o.mc⟩

theorem XOK.depth (o : XOK x p m_r n_r) (b : Bool) : (if b = true then x.k_c1 else x.k_c) < 2 ^ 31 := by
  split
  · exact o.kc1
  · exact o.kc

theorem XOK.cols (o : XOK x p m_r n_r) (b : Bool) :
    n_r ∣ (if b = true then x.n_c1 else x.n_c) ∧ (if b = true then x.n_c1 else x.n_c) < 2 ^ 31 := by
  split
  · exact ⟨o.nc1_dvd, o.nc1⟩
  · exact ⟨o.nc_dvd, o.nc⟩

theorem fits_pred {n : Nat} (h1 : 0 < n) (hn : n < 2 ^ 31) : ((n : E) - 1).Fits :=
  ⟨hn, (by decide : (1 : Nat) < 2 ^ 31), h1⟩

/-- `(p_l - 1)`, evaluated in the last row block only. -/
theorem ok_stripW (o : XOK x p m_r n_r) {b : Bool} (hb : b = true → x.m_pad = true) (core : Nat) :
    Ok (stripW x b core) := by
  simp only [stripW, ok_sel, ok_bind, ok_ev, ok_pure, and_true, implies_true]
  exact fun h => fits_pred (o.pl_pos (hb h)) o.pl_lt

theorem lastPad {i n : Nat} {pad : Bool} (h : (i == n - 1 && pad) = true) : pad = true := (Bool.and_eq_true _ _ ▸ h).2

theorem ok_packAW (o : XOK x p m_r n_r) (A A_p : Loc) {M K : Nat} (h : AllFits (packAInts M K p m_r x)) :
    Ok (packAW A A_p M K p m_r x) := by
  simp only [packAW, ok_bind, ok_pure, and_true]
  refine ok_loop h fun m hm s => ⟨?_, fun h => ⟨?_, fits_next o.Mb hm⟩⟩
  · simp only [val_bind]
    simp only [val_loop]
    refine loopS_snd_congr fun k _ s => ?_
    simp only [val_bind, val_pure, val_isLastW]
    by_cases hl : (m == x.Mb - 1 && x.m_pad) = true <;> simp [hl]
  have hM0 : 0 < x.Mb := by rw [mem_range] at hm; omega
  simp only [ok_bind]
  refine ⟨ok_isLastW hM0 o.Mb, ?_, ?_⟩
  · rw [val_isLastW, ok_sel, ok_ev, ok_ev]
    refine ⟨fun hl => o.mcb (lastPad hl), fun hl => ?_⟩
    rw [if_neg hl]
    exact ⟨o.p_lt, o.mc, o.pm⟩
  · refine ok_loop h fun k hk s => ⟨?_, fun h => ⟨?_, fits_next o.Kb hk⟩⟩
    · simp only [val_bind, val_pure, val_isLastW]
      by_cases hl : (m == x.Mb - 1 && x.m_pad) = true <;> simp [hl]
    · have hK0 : 0 < x.Kb := by rw [mem_range] at hk; omega
      simp only [allFits_append, allFits_cons, allFits_nil, and_true, allFits_flatMap] at h
      obtain ⟨⟨h1, h2, h3, h4⟩, h5⟩ := h
      obtain ⟨hu0, hu⟩ := o.used (b := (m == x.Mb - 1 && x.m_pad)) lastPad
      simp only [ok_bind, ok_ev, ok_pure, and_true, ok_tasks]
      refine ⟨ok_isLastW hK0 o.Kb, ?_, fun core hc => ⟨⟨ok_isLastW hM0 o.Mb, ok_stripW o lastPad core, ?_⟩, ?_⟩, ?_⟩
      · exact (h5 0 (mem_range.2 hu0)).1.1.1
      · obtain ⟨⟨e1, e2, e3, e4, e5⟩, e6⟩ := h5 core hc
        refine ⟨⟨e1.1.lt, e1.2⟩, e2, e3, e4, ?_⟩
        obtain ⟨d1, d2⟩ := o.strip (m == x.Mb - 1 && x.m_pad) (core = x.p_l - 1)
        simp only [val_stripW, val_isLastW]
        exact ok_obAW _ _ o.r_pos d1 d2 (o.depth _) o.r_lt e6
      · exact fits_next hu hc
      · simp only [val_isLastW]
        revert h4
        by_cases hl : (m == x.Mb - 1 && x.m_pad) = true
        · simp only [hl, if_true]
          exact fun h4 => ⟨h4.1, ⟨h4.2.1.1.lt, h4.2.1.2⟩, h4.2.2⟩
        · simp only [hl]
          exact fun h4 => ⟨h4.1, ⟨h4.2.1.1.lt, h4.2.1.2⟩, h4.2.2⟩

theorem ok_packBW (o : XOK x p m_r n_r) (B B_p : Loc) {K N : Nat} (hN : N < 2 ^ 31) (hK : K < 2 ^ 31)
    (h : AllFits (packBInts K N n_r x)) : Ok (packBW B B_p K N n_r x) := by
  unfold packBInts at h
  simp only [allFits_append] at h
  obtain ⟨⟨h0, h1⟩, h2⟩ := h
  have hN0 : ((N : E) - (N : E) % x.n_c).Fits := h0 _ (mem_singleton.2 rfl)
  have hKs : ((K : E) - (K : E) % x.k_c).Fits := ⟨hK, ⟨hK, o.kc, by have := o.kc_pos; show x.k_c ≠ 0; omega⟩, Nat.mod_le _ _⟩
  have dN : x.n_c ∣ N - N % x.n_c := Nat.dvd_sub_mod _
  have dK : x.k_c ∣ K - K % x.k_c := Nat.dvd_sub_mod _
  have lN : N - N % x.n_c < 2 ^ 31 := by omega
  have lK : K - K % x.k_c < 2 ^ 31 := by omega
  simp only [packBW, ok_bind, ok_pure, and_true, ok_ev, ok_sel]
  refine ⟨hN0, ?_, hN0, fun hn1 => ?_, fun _ => trivial⟩
  · refine ok_loop h1 fun n1 hn1 s => ⟨?_, fun h => ⟨?_, fits_step o.nc_pos dN lN hn1⟩⟩
    · simp only [val_bind, val_sel]
      split <;> rfl
    · have hcol := cfor_step o.nc_pos dN hn1
      simp only [allFits_append, packBCol, allFits_cons, allFits_nil, and_true, allFits_flatMap] at h
      obtain ⟨_, ⟨⟨_, h4⟩, h5⟩, h6⟩ := h
      simp only [ok_bind, ok_pure, and_true, ok_ev, ok_sel, ok_tasks]
      refine ⟨hKs, fun k1 hk1 => ⟨?_, fits_step o.kc_pos dK lK hk1⟩, h4, hKs, fun hc => ?_, fun _ => trivial⟩
      · refine ok_loop (h5 k1 hk1).2 fun n2 hn2 s => ⟨by states, fun h => ⟨?_, fits_step o.s_pos o.nc_dvd o.nc hn2⟩⟩
        refine ok_loop h fun i hi s => ⟨by states, fun h => ⟨?_, fits_next o.kc hi⟩⟩
        refine ok_loop h fun j hj s => ⟨by states, fun h => ⟨?_, fits_next o.s_lt hj⟩⟩
        have hn2' := cfor_step o.s_pos o.nc_dvd hn2
        rw [mem_range] at hj
        rw [if_neg (show ¬ n1 + n2 + j ≥ N by omega)] at h
        simp only [allFits_append, allFits_cons, allFits_nil, and_true] at h
        simp only [ok_bind, ok_ev, ok_pure, and_true]
        exact ⟨h.1.2.2.2.2.2, h.2, h.1.2.2.2.1⟩
      · rw [if_pos hc] at h6
        simp only [allFits_append, allFits_cons, allFits_nil, and_true, allFits_flatMap] at h6
        refine ⟨fun n2 hn2 => ⟨?_, fits_step o.s_pos o.nc_dvd o.nc hn2⟩, h6.1⟩
        refine ok_loop (h6.2 n2 hn2) fun i hi s => ⟨by states, fun h => ⟨?_, fits_next o.kc1 hi⟩⟩
        refine ok_loop h fun j hj s => ⟨by states, fun h => ⟨?_, fits_next o.s_lt hj⟩⟩
        have hn2' := cfor_step o.s_pos o.nc_dvd hn2
        rw [mem_range] at hj
        rw [if_neg (show ¬ n1 + n2 + j ≥ N by omega)] at h
        simp only [allFits_append, allFits_cons, allFits_nil, and_true] at h
        simp only [ok_bind, ok_ev, ok_pure, and_true]
        exact ⟨h.1.2.2.2.2.2, h.2, h.1.2.2.2.1⟩
  · rw [if_pos hn1] at h2
    simp only [allFits_append, packBCol, allFits_cons, allFits_nil, and_true, allFits_flatMap] at h2
    obtain ⟨⟨⟨_, h4⟩, h5⟩, h6⟩ := h2
    rw [val_loop, loopS_snd_congr (g := fun (n1 ind1 : Nat) =>
      ([(n1 : E) + x.n_c] ++ packBCol K N n_r x.k_c x.k_c1 n1 x.n_c ind1,
        if x.k_c1 ≠ 0 then ind1 + (K - K % x.k_c) * x.n_c + x.k_c1 * x.n_c else ind1 + (K - K % x.k_c) * x.n_c))
      (by intro n1 _ s; simp only [val_bind, val_sel]; split <;> rfl)]
    simp only [ok_bind, ok_pure, and_true, ok_tasks]
    refine ⟨hKs, fun k1 hk1 => ⟨?_, fits_step o.kc_pos dK lK hk1⟩, h4, hKs, fun hc => ?_, fun _ => trivial⟩
    · refine ok_loop (h5 k1 hk1).2 fun n2 hn2 s => ⟨by states, fun h => ⟨?_, fits_step o.s_pos o.nc1_dvd o.nc1 hn2⟩⟩
      refine ok_loop h fun i hi s => ⟨by states, fun h => ⟨?_, fits_next o.kc hi⟩⟩
      refine ok_loop h fun j hj s => ⟨by states, fun h => ⟨?_, fits_next o.s_lt hj⟩⟩
      simp only [allFits_append, allFits_cons, allFits_nil, and_true] at h
      simp only [ok_bind, ok_ev, ok_pure, ok_sel, and_true]
      refine ⟨h.1.2.2.2.2.1, h.1.2.2.2.2.2, ⟨fun _ => trivial, fun hlt => ?_⟩, h.1.2.2.2.1⟩
      have h2 := h.2
      rw [if_neg (show ¬ N - N % x.n_c + n2 + j ≥ N from hlt)] at h2
      exact h2 _ (mem_singleton.2 rfl)
    · rw [if_pos hc] at h6
      simp only [allFits_append, allFits_cons, allFits_nil, and_true, allFits_flatMap] at h6
      refine ⟨fun n2 hn2 => ⟨?_, fits_step o.s_pos o.nc1_dvd o.nc1 hn2⟩, h6.1⟩
      refine ok_loop (h6.2 n2 hn2) fun i hi s => ⟨by states, fun h => ⟨?_, fits_next o.kc1 hi⟩⟩
      refine ok_loop h fun j hj s => ⟨by states, fun h => ⟨?_, fits_next o.s_lt hj⟩⟩
      simp only [allFits_append, allFits_cons, allFits_nil, and_true] at h
      simp only [ok_bind, ok_ev, ok_pure, ok_sel, and_true]
      refine ⟨h.1.2.2.2.2.1, h.1.2.2.2.2.2, ⟨fun _ => trivial, fun hlt => ?_⟩, h.1.2.2.2.1⟩
      have h2 := h.2
      rw [if_neg (show ¬ N - N % x.n_c + n2 + j ≥ N from hlt)] at h2
      exact h2 _ (mem_singleton.2 rfl)

theorem ok_regTilesW (kd : KDim) (t : Nat) (A B C : Loc) {a b : E} {m_r n_r m_c_t n_c_t k_c_t : Nat}
    (hm : m_c_t < 2 ^ 31) (hn : n_c_t < 2 ^ 31)
    (h : AllFits (regInts a b m_r n_r m_c_t n_c_t k_c_t)) :
    Ok (regTilesW kd t A B C a.val b.val m_r n_r m_c_t n_c_t k_c_t) := by
  simp only [regInts, allFits_append, allFits_cons, allFits_nil, and_true, allFits_flatMap] at h
  simp only [regTilesW, ok_bind, ok_ev, ok_pure, ok_each, and_true]
  refine ⟨h.1.1, fun n_reg hn' => ⟨⟨h.1.2, fun m_reg hm' => ⟨?_, ?_⟩⟩, ?_⟩⟩
  · obtain ⟨h1, h2, h3, _⟩ := h.2 n_reg hn' m_reg hm'
    exact ⟨⟨h1.1.lt, h1.2⟩, ⟨h2.1.lt, h2.2⟩, h3⟩
  · exact fits_next (Nat.lt_of_le_of_lt (Nat.div_le_self _ _) hm) hm'
  · exact fits_next (Nat.lt_of_le_of_lt (Nat.div_le_self _ _) hn) hn'

/-- A factor may be evaluated before. -/
theorem fits_mid {a k e c d : E} {v : Nat} (h : (a + k * e * c + d).Fits) (hv : v = e.val) :
    (a + k * (v : E) * c + d).Fits := by
  subst hv
  exact ⟨⟨h.1.1, ⟨⟨h.1.2.1.1.1, h.1.2.1.1.2.1.lt, h.1.2.1.1.2.2⟩, h.1.2.1.2⟩, h.1.2.2⟩, h.2⟩

theorem ok_scheduleW (o : XOK x p m_r n_r) (kd : KDim) (A_p B_p C : Loc) {M N K : Nat}
    (h : AllFits (schedInts M N K p m_r n_r x)) : Ok (scheduleW kd A_p B_p C M N K p m_r n_r x) := by
  simp only [schedInts, allFits_flatMap, allFits_append, allFits_cons, allFits_nil, and_true] at h
  simp only [scheduleW, ok_each, ok_bind, ok_ev]
  refine fun n hn => ⟨?_, fits_next o.Nb hn⟩
  obtain ⟨⟨h1, _⟩, h3⟩ := h n hn
  rw [mem_range] at hn
  have hN0 : 0 < x.Nb := by omega
  have hNb := o.Nb
  have two : (2 : Nat) < 2 ^ 31 := by decide
  refine ⟨⟨(by omega : n < 2 ^ 31), two, by decide⟩, ok_isLastW hN0 o.Nb, ?_, ?_⟩
  · rw [ok_sel, val_isLastW]
    revert h1
    split
    · exact fun h1 => ⟨fun _ => (ok_ev _).2 h1, fun hl => absurd ‹_› hl⟩
    · exact fun h1 => ⟨fun hl => absurd hl ‹_›, fun _ => (ok_ev _).2 h1⟩
  · refine ok_eachSerp _ _ _ fun m hm => ⟨?_, fits_next o.Mb (mem_range.2 hm)⟩
    obtain ⟨⟨h4, h5, _⟩, h7⟩ := h3 m (mem_serp.2 hm)
    have hM0 : 0 < x.Mb := by omega
    have hMb := o.Mb
    obtain ⟨hu0, hu⟩ := o.used (b := (m == x.Mb - 1 && x.m_pad)) lastPad
    simp only [ok_bind, ok_tasks, ok_ev, ok_pure, and_true]
    refine ⟨⟨(by omega : m < 2 ^ 31), two, by decide⟩, ok_isLastW hM0 o.Mb, ?_, ?_, fun core hc => ⟨⟨ok_isLastW hM0 o.Mb,
      ok_stripW o lastPad core, ?_⟩, fits_next hu hc⟩, ?_, fun core hc => ⟨⟨ok_isLastW hM0 o.Mb, ok_stripW o lastPad core,
      ?_⟩, fits_next hu hc⟩⟩
    · rw [ok_sel, val_isLastW]
      revert h4
      split
      · exact fun h1 => ⟨fun _ => (ok_ev _).2 h1, fun hl => absurd ‹_› hl⟩
      · exact fun h1 => ⟨fun hl => absurd hl ‹_›, fun _ => (ok_ev _).2 h1⟩
    · rw [ok_sel, val_isLastW]
      revert h5
      split
      · exact fun h1 => ⟨fun _ => (ok_ev _).2 h1, fun hl => absurd ‹_› hl⟩
      · exact fun h1 => ⟨fun hl => absurd hl ‹_›, fun _ => (ok_ev _).2 h1⟩
    · refine ok_eachSerp _ _ _ fun k hk => ⟨?_, fits_next o.Kb (mem_range.2 hk)⟩
      obtain ⟨⟨h8, _⟩, _⟩ := h7 core hc
      obtain ⟨⟨_, a1, a2, a3⟩, a4⟩ := h8 k (mem_serp.2 hk)
      have hK0 : 0 < x.Kb := by omega
      simp only [ok_bind, ok_ev]
      obtain ⟨_, d2⟩ := o.strip (m == x.Mb - 1 && x.m_pad) (core = x.p_l - 1)
      obtain ⟨_, d4⟩ := o.cols (n == x.Nb - 1 && x.n_pad)
      refine ⟨ok_isLastW hK0 o.Kb, ?_, a2, a3, ?_⟩
      · rw [val_sel]
        exact fits_mid a1 (apply_ite E.val _ _ _).symm
      · have := ok_regTilesW kd core A_p B_p ⟨.CpC core, 0⟩ d2 d4 a4
        rw [val_stripW, val_sel]
        simp only [aIndE, bIndE, E.val_add, E.val_mul, E.val_lit, apply_ite E.val] at this
        exact this
    · exact (h7 0 (mem_range.2 hu0)).1.2.1.1
    · obtain ⟨⟨_, c1, c2, _, c4⟩, c5⟩ := h7 core hc
      obtain ⟨d1, d2⟩ := o.strip (m == x.Mb - 1 && x.m_pad) (core = x.p_l - 1)
      obtain ⟨d3, d4⟩ := o.cols (n == x.Nb - 1 && x.n_pad)
      refine ⟨⟨c1.1.lt, c1.2⟩, c2, ?_, c4⟩
      refine ok_unpackObW _ _ o.r_pos o.s_pos ?_ d3 ?_ d4 o.r_lt o.s_lt ?_
      · rw [val_stripW]; exact d1
      · rw [val_stripW]; exact d2
      · rw [val_stripW, val_sel, val_sel]
        simp only [apply_ite E.val] at c5
        exact c5

end

section
variable {M N K p m_r n_r m_c k_c n_c : Nat} (h : TileOK p m_r n_r m_c k_c n_c)
  (z : IntDims M N K p m_r n_r m_c k_c n_c)
include h z

theorem xok : XOK (dimsKMN M N K p m_r n_r m_c k_c n_c) p m_r n_r := by
  have hMi := i_M h z
  have hNi := i_N h z
  have hKi := z.Ki
  have hmci := i_mc h z
  have hnci := i_nc h z
  have hpi := i_p h z
  have hpm := z.pm
  have hmri := i_mr h z
  have hnri := i_nr h z
  have hd := dimsInts_fits h z
  simp only [dimsInts, allFits_cons, allFits_nil, and_true] at hd
  obtain ⟨d1, d2, d3, d4, d5, d6, d7, d8, d9, d10, d11, d12, d13⟩ := hd
  have hk1 : K % k_c < k_c := Nat.mod_lt _ h.k_c_pos
  have hki := z.kc
  have hpad : M % (p * m_c) ≠ 0 → 0 < (dimsKMN M N K p m_r n_r m_c k_c n_c).p_l := by
    intro hp
    have h1 : 0 < cdiv (M % (p * m_c)) m_r := cdiv_pos (by omega) h.m_r_pos
    have h2 := cdiv_pos h1 h.p_pos
    simp only [dimsKMN]
    rw [if_pos (by omega)]
    exact cdiv_pos h1 h2
  exact {
    p_pos := h.p_pos, p_lt := hpi, r_pos := h.m_r_pos, r_lt := hmri, s_pos := h.n_r_pos, s_lt := hnri
    Mb := d9.lt, Nb := d10.lt, Kb := d11.lt
    pl_pos := fun hp => hpad (by simpa [dimsKMN] using hp)
    pl_lt := d8.1.2.1.1.1
    mc := hmci, mc1 := d7.lt, mcl := d8.lt
    mc_dvd := h.m_dvd, mc1_dvd := Nat.dvd_mul_left _ _, mcl_dvd := Nat.dvd_mul_left _ _
    kc_pos := h.k_c_pos, kc := hki, kc1 := by show K % k_c < 2 ^ 31; omega
    nc_pos := h.n_c_pos, nc := hnci, nc1 := d6.lt
    nc_dvd := h.n_dvd, nc1_dvd := Nat.dvd_mul_left _ _
    pm := hpm
    mcb := fun _ => d12.1 }

theorem ok_dimsKMNW : Ok (dimsKMNW M N K p m_r n_r m_c k_c n_c) := by
  have hd := dimsInts_fits h z
  simp only [dimsInts, allFits_cons, allFits_nil, and_true] at hd
  obtain ⟨d1, d2, d3, d4, d5, d6, d7, d8, d9, d10, d11, d12, d13⟩ := hd
  have hnr : ((cdiv (N % n_c) n_r : Nat) : E).Fits := d6.1
  simp only [dimsKMNW, ok_bind, ok_pure, and_true, ok_ev, val_coresW]
  refine ⟨d1, d2, d3, d3, d4, d5, ?_, d2, hnr, d6, d7, d8, d1, d9, d10, d11, d12, d13⟩
  have hpl : (dimsKMN M N K p m_r n_r m_c k_c n_c).p_l < 2 ^ 31 := d8.1.2.1.1.1
  unfold coresW
  split
  · rename_i h0
    simp only [dimsKMN] at hpl
    rw [if_pos (show cdiv (cdiv (M % (p * m_c)) m_r) p ≠ 0 from h0)] at hpl
    exact (ok_ev _).2 hpl
  · exact ok_pure _

end

section
variable {M N K p m_r n_r m_c k_c n_c : Nat} (h : TileOK p m_r n_r m_c k_c n_c)
  (z : Int32OK M N K p m_r n_r m_c k_c n_c)
include h z

theorem ok_cake_sgemmW (cx : Cntx) (A B C : Loc) (packedA packedB : Bool) (hm : cx.m_r = m_r) (hn : cx.n_r = n_r) :
    Ok (cake_sgemmW cx A B C M N K p packedA packedB m_c k_c n_c) := by
  subst hm hn
  have hf := kfirstInts_fits h z
  simp only [kfirstInts, allFits_append] at hf
  obtain ⟨⟨⟨⟨f1, f2⟩, f3⟩, f4⟩, f5⟩ := hf
  have o := xok h z.toIntDims
  have hd := ok_dimsKMNW h z.toIntDims
  simp only [dimsInts, sizeInts, allFits_cons, allFits_nil, and_true] at f1 f2
  obtain ⟨d1, d2, d3, d4, d5, d6, d7, d8, d9, d10, d11, d12, d13⟩ := f1
  obtain ⟨s1, s2, s3⟩ := f2
  simp only [cake_sgemmW, ok_bind, ok_pure, ok_sel, ok_tasks, ok_ev, and_true, implies_true, true_and, val_dimsKMNW]
  refine ⟨hd, fun _ => ⟨?_, ok_packAW o _ _ f3⟩, fun _ => ⟨?_, ok_packBW o _ _ (i_N h z.toIntDims) z.Ki f4⟩,
    fun i hi => ⟨s3, fits_next o.p_lt hi⟩, ok_scheduleW o _ _ _ _ f5, fun i hi => fits_next o.p_lt hi⟩
  · simp only [packedASizeW, ok_bind, ok_ev]
    exact ⟨d3, d4, d12, d12.lt, s1.2⟩
  · simp only [packedBSizeW, ok_bind, ok_ev]
    exact ⟨d2, d6.1, d6, d13, s2.1, d13.lt, s2.2.2⟩

end

theorem val_cake_sgemmW {α : Type} (nz : α → Bool) (cx : Cntx) (A B C : Loc) (M N K p : Nat) (packedA packedB : Bool)
    (alpha beta : α) (m_c k_c n_c : Nat) :
    cake_sgemm nz cx A B C M N K p packedA packedB alpha beta m_c k_c n_c .KMN =
      some (cake_sgemmW cx A B C M N K p packedA packedB m_c k_c n_c).val := by
  simp only [cake_sgemmW, val_bind, val_pure, val_dimsKMNW, val_packAW, val_packBW, val_sel, val_tasks, val_scheduleW,
    val_packedBSizeW]
  rfl

end Cake
