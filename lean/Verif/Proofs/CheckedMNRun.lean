/-
When the M-first and N-first paths over 32-bit `int` are defined.
-/
import Verif.Proofs.CheckedMNOk
import Verif.Proofs.CheckedPos
import Verif.Proofs.IntRangeMN

namespace Cake
open List
open W

namespace W
variable {α β : Type}

/-- Everything recorded has, over 32-bit `int`, the value of the model. -/
def Run (w : W α) : Prop := ∀ e ∈ w.ints, e.eval32 = some (e.val : Int)

theorem run_pure (a : α) : Run (pure a : W α) := fun _ h => absurd h (by simp [Pure.pure])
theorem run_ev (e : E) : Run (ev e) ↔ e.eval32 = some (e.val : Int) :=
  ⟨fun h => h e (mem_singleton.2 rfl), fun h x hx => by rw [mem_singleton.1 hx]; exact h⟩
theorem run_bind (w : W α) (f : α → W β) : Run (w >>= f) ↔ Run w ∧ Run (f w.val) :=
  ⟨fun h => ⟨fun e he => h e (mem_append_left _ he), fun e he => h e (mem_append_right _ he)⟩,
    fun h e he => (mem_append.1 he).elim (h.1 e) (h.2 e)⟩
theorem run_sel (c : Prop) [Decidable c] (a b : W α) : Run (sel c a b) ↔ (c → Run a) ∧ (¬ c → Run b) := by
  unfold sel; split <;> simp [*]
theorem run_of_ok {w : W α} (h : Ok w) : Run w := fun e he => E.eval32_of_fits (h e he)

theorem run_some {w : W α} {a : α} : w.run = some a ↔ Run w ∧ w.val = a := by
  unfold W.run Run
  split
  · rename_i h
    exact ⟨fun e => ⟨h, Option.some.inj e⟩, fun e => congrArg _ e.2⟩
  · rename_i h
    exact ⟨fun e => absurd e (by simp), fun e => absurd e.1 h⟩

theorem run_eq {w : W α} (h : Run w) : w.run = some w.val := run_some.2 ⟨h, rfl⟩

end W

section
variable {M N K p m_r n_r m_c k_c n_c mS : Nat}

theorem lastCore_eval {K p k_c : Nat} (hp : 0 < p) (x : BlkDims) (h3 : x.k_c1 = cdiv (K % (p * k_c)) p) (h4 : x.p_l =
      if cdiv (K % (p * k_c)) p ≠ 0 then cdiv (K % (p * k_c)) (cdiv (K % (p * k_c)) p) else 0)
    (h9 : x.k_rem = K % (p * k_c))
    (h : AllFits (if x.p_l = 0 then [] else [(x.k_rem : E) - (x.k_c1 : E) * ((x.p_l : E) - 1)])) :
    ((x.k_rem : E) - (x.k_c1 : E) * ((x.p_l : E) - 1)).eval32 =
      some (((x.k_rem : E) - (x.k_c1 : E) * ((x.p_l : E) - 1)).val : Int) := by
  by_cases h0 : x.p_l = 0
  · have hz : x.k_rem = 0 ∧ x.k_c1 = 0 := by
      rw [h4] at h0
      by_cases hk : K % (p * k_c) = 0
      · rw [h3, h9, hk]
        exact ⟨rfl, by simp [cdiv, Nat.div_eq_of_lt (Nat.sub_lt hp Nat.one_pos)]⟩
      · have h1 : 0 < cdiv (K % (p * k_c)) p := cdiv_pos (by omega) hp
        rw [if_pos (by omega)] at h0
        have := cdiv_pos (Nat.pos_of_ne_zero hk) h1
        omega
    rw [h0, hz.1, hz.2]
    decide
  · rw [if_neg h0] at h
    exact E.eval32_of_fits (h _ (mem_singleton.2 rfl))

theorem lastCore_lt {K p k_c : Nat} (hK : K < 2 ^ 31) (x : BlkDims) (h9 : x.k_rem = K % (p * k_c)) :
    x.k_rem - x.k_c1 * (x.p_l - 1) < 2 ^ 31 := by
  have := Nat.mod_le K (p * k_c)
  rw [h9]
  omega

section
variable (h : TileOK p m_r n_r m_c k_c n_c)
include h

theorem kokM (z : Int32Sh M N K p m_r n_r m_c k_c n_c) : KOK (dimsMKN M N K p m_r n_r m_c k_c n_c) p m_r n_r m_c := by
  have hd := (sizeIntsM_fits h z).2
  simp only [dimsIntsM, dimsIntsK, allFits_append, allFits_cons, allFits_nil, and_true] at hd
  obtain ⟨⟨d1, d2, d3, d4⟩, ⟨e1, e2, e3, e4, e5, e6, e7, e8⟩, _⟩ := hd
  have hm := z.mS
  have hn := z.nc
  exact {
    p_pos := h.p_pos, p_lt := e1.2.1.1
    r_pos := h.m_r_pos, r_lt := Nat.lt_of_le_of_lt (Nat.le_of_dvd h.m_c_pos h.m_dvd) hm
    s_pos := h.n_r_pos, s_lt := Nat.lt_of_le_of_lt (Nat.le_of_dvd h.n_c_pos h.n_dvd) hn
    Mb := d3.lt, Nb := e7.lt, Kb := e6.lt
    pl_pos := fun hp => by
      have hp : K % (p * k_c) ≠ 0 := by simpa [dimsMKN] using hp
      have h1 : 0 < cdiv (K % (p * k_c)) p := cdiv_pos (by omega) h.p_pos
      simp only [dimsMKN]
      rw [if_pos (by omega)]
      exact cdiv_pos (by omega) h1
    pl_lt := e4
    mS_lt := hm, mc1 := d2.lt, mS_dvd := h.m_dvd, mc1_dvd := Nat.dvd_mul_left _ _
    kc := e1.2.1.2.1, kc1 := e3, kcl := lastCore_lt (p := p) (k_c := k_c) z.Ki (dimsMKN M N K p m_r n_r m_c k_c n_c) rfl
    nc := hn, nc1 := e5.lt, nc_dvd := h.n_dvd, nc1_dvd := Nat.dvd_mul_left _ _
    pk := z.pk }

theorem kokN (z : Int32Sh M N K p m_r n_r (p * m_c) k_c n_c) :
    KOK (dimsNKM M N K p m_r n_r m_c k_c n_c) p m_r n_r (p * m_c) := by
  have hd := (sizeIntsN_fits h z).2
  simp only [dimsIntsN, dimsIntsK, allFits_append, allFits_cons, allFits_nil, and_true] at hd
  obtain ⟨⟨d1, d2, d3, d4⟩, ⟨e1, e2, e3, e4, e5, e6, e7, e8⟩, _⟩ := hd
  have hm := (p_m_int h z).2
  have hn := z.nc
  exact {
    p_pos := h.p_pos, p_lt := e1.2.1.1
    r_pos := h.m_r_pos, r_lt := Nat.lt_of_le_of_lt (Nat.le_of_dvd h.m_c_pos h.m_dvd) hm
    s_pos := h.n_r_pos, s_lt := Nat.lt_of_le_of_lt (Nat.le_of_dvd h.n_c_pos h.n_dvd) hn
    Mb := d3.lt, Nb := e7.lt, Kb := e6.lt
    pl_pos := fun hp => by
      have hp : K % (p * k_c) ≠ 0 := by simpa [dimsNKM] using hp
      have h1 : 0 < cdiv (K % (p * k_c)) p := cdiv_pos (by omega) h.p_pos
      simp only [dimsNKM]
      rw [if_pos (by omega)]
      exact cdiv_pos (by omega) h1
    pl_lt := e4
    mS_lt := z.mS, mc1 := d2.lt, mS_dvd := h.S_dvd, mc1_dvd := Nat.dvd_mul_left _ _
    kc := e1.2.1.2.1, kc1 := e3, kcl := lastCore_lt (p := p) (k_c := k_c) z.Ki (dimsNKM M N K p m_r n_r m_c k_c n_c) rfl
    nc := hn, nc1 := e5.lt, nc_dvd := h.n_dvd, nc1_dvd := Nat.dvd_mul_left _ _
    pk := z.pk }

omit h in
theorem ok_coresW {a b : Nat} (hl : (if b ≠ 0 then cdiv a b else 0) < 2 ^ 31) : Ok (coresW a b) := by
  unfold coresW
  split
  · rename_i h0
    rw [if_pos h0] at hl
    exact (ok_ev _).2 hl
  · exact ok_pure _

theorem run_dimsMKNW (z : Int32Sh M N K p m_r n_r m_c k_c n_c) : Run (dimsMKNW M N K p m_r n_r m_c k_c n_c) := by
  have hd := (sizeIntsM_fits h z).2
  simp only [dimsIntsM, dimsIntsK, allFits_append, allFits_cons, allFits_nil, and_true] at hd
  obtain ⟨⟨d1, d2, d3, d4⟩, ⟨e1, e2, e3, e4, e5, e6, e7, e8⟩, l⟩ := hd
  have f := @E.eval32_of_fits
  simp only [dimsMKNW, run_bind, run_pure, and_true, run_ev, val_coresW]
  exact ⟨f e1, f d1, f e2, f e1, f e3, run_of_ok (ok_coresW e4), f e2, f e5.1, f e5, 
    lastCore_eval (k_c := k_c) h.p_pos (dimsMKN M N K p m_r n_r m_c k_c n_c) rfl rfl rfl l,
    f d1, f d2.1, f d2, f d3, f e6, f e7, f d4, f e8⟩

theorem run_dimsNKMW (z : Int32Sh M N K p m_r n_r (p * m_c) k_c n_c) : Run (dimsNKMW M N K p m_r n_r m_c k_c n_c) := by
  have hd := (sizeIntsN_fits h z).2
  simp only [dimsIntsN, dimsIntsK, allFits_append, allFits_cons, allFits_nil, and_true] at hd
  obtain ⟨⟨d1, d2, d3, d4⟩, ⟨e1, e2, e3, e4, e5, e6, e7, e8⟩, l⟩ := hd
  have f := @E.eval32_of_fits
  simp only [dimsNKMW, run_bind, run_pure, and_true, run_ev, val_coresW]
  exact ⟨f e1, f d1, f e2, f e1, f e3, run_of_ok (ok_coresW e4), f e2, f e5.1, f e5, 
    lastCore_eval (k_c := k_c) h.p_pos (dimsNKM M N K p m_r n_r m_c k_c n_c) rfl rfl rfl l,
    f d1, f d2.1, f d2, f d3, f e6, f e7, f d4, f e8⟩

omit h in
theorem ok_nPaddedW (hf : (nPaddedE N n_c (cdiv (N % n_c) n_r * n_r : Nat)).Fits)
    (hr : (((cdiv (N % n_c) n_r : Nat) : E) * n_r).Fits) : Ok (nPaddedW N n_r n_c) := by
  simp only [nPaddedW, ok_bind, ok_ev]
  exact ⟨hf.1.2.1, hr.1, hr, hf⟩

omit h in
theorem ok_packedBSizeW (hs : ((K : E) * nPaddedE N n_c (cdiv (N % n_c) n_r * n_r : Nat)).Fits)
    (hr : (((cdiv (N % n_c) n_r : Nat) : E) * n_r).Fits) : Ok (packedBSizeW K N n_r n_c) := by
  simp only [packedBSizeW, ok_bind, ok_ev]
  exact ⟨hs.2.1.1.2.1, hr.1, hr, hs.2.1, hs.1, hs.2.1.lt, hs.2.2⟩

theorem run_cake_sgemmMW (z : Int32Sh M N K p m_r n_r m_c k_c n_c) (cx : Cntx) (A B C : Loc) (packedA packedB accum : Bool)
    (hm : cx.m_r = m_r) (hn : cx.n_r = n_r) :
    Run (cake_sgemmMW cx A B C M N K p packedA packedB accum m_c k_c n_c) := by
  subst hm hn
  have o := kokM h z
  have hc := fun b => cIntsM_fits (M := M) (N := N) (K := K) h z b
  have hs := (sizeIntsM_fits h z).1
  have hd := (sizeIntsM_fits h z).2
  simp only [dimsIntsM, dimsIntsK, allFits_append, allFits_cons, allFits_nil, and_true] at hd
  obtain ⟨⟨d1, d2, d3, d4⟩, ⟨e1, e2, e3, e4, e5, e6, e7, e8⟩, l⟩ := hd
  simp only [sizeIntsM, allFits_cons, allFits_nil, and_true] at hs
  obtain ⟨s1, s2, s3⟩ := hs
  have hcol : ∀ n, n < (dimsMKN M N K p cx.m_r cx.n_r m_c k_c n_c).Nb → _ := fun n hn => by
    have h1 := hc false
    simp only [cIntsM, allFits_append, allFits_cons, allFits_nil, and_true, allFits_flatMap] at h1
    exact (h1 n (mem_range.2 hn)).1.1
  have hmp : Ok (mPaddedMW M cx.m_r m_c) := by
    simp only [mPaddedMW, ok_bind, ok_ev]
    exact ⟨d1, d2.1, s1.1⟩
  simp only [cake_sgemmMW, run_bind, run_pure, run_sel, and_true, implies_true, true_and, val_dimsMKNW]
  refine ⟨run_dimsMKNW h z, fun _ => ⟨?_, run_of_ok (ok_packAMW o _ _ (packAIntsM_fits h z))⟩,
    fun _ => ⟨run_of_ok (ok_packedBSizeW s2 e5), run_of_ok (ok_packBMW o _ _ hcol (packBIntsM_fits h z))⟩, run_of_ok ?_,
    fun _ => run_of_ok (ok_blocksCMW o _ _ _ (hc true)), run_of_ok (ok_scheduleMW o _ _ _ _ (schedIntsM_fits h z)),
    run_of_ok (ok_blocksCMW o _ _ _ (hc false))⟩
  · simp only [sizeAW, run_bind, run_ev]
    exact ⟨run_of_ok hmp, E.eval32_of_fits ⟨s1.1.lt, s1.2⟩⟩
  · simp only [sizeCW, ok_bind, ok_ev]
    exact ⟨hmp, ok_nPaddedW s2.2.1 e5, s1.1.lt, s2.2.1.lt, s3.2.2⟩

theorem run_cake_sgemmNW (z : Int32Sh M N K p m_r n_r (p * m_c) k_c n_c) (cx : Cntx) (A B C : Loc)
    (packedA packedB accum : Bool) (hm : cx.m_r = m_r) (hn : cx.n_r = n_r)
    (hcp : accum = true → ∀ n, n < cdiv N n_c →
      padTo N n_c n_r * (cdiv M (p * m_c) - 1) * p * m_c + n * p * m_c * sL N n_c n_r n < 2 ^ 31) :
    Run (cake_sgemmNW cx A B C M N K p packedA packedB accum m_c k_c n_c) := by
  subst hm hn
  have o := kokN h z
  have hmc : (dimsNKM M N K p cx.m_r cx.n_r m_c k_c n_c).m_c < 2 ^ 31 := (p_m_int h z).2
  have hc := cIntsN_fits (M := M) (N := N) (K := K) h z false (by simp)
  have hs := (sizeIntsN_fits h z).1
  have hd := (sizeIntsN_fits h z).2
  simp only [dimsIntsN, dimsIntsK, allFits_append, allFits_cons, allFits_nil, and_true] at hd
  obtain ⟨⟨d1, d2, d3, d4⟩, ⟨e1, e2, e3, e4, e5, e6, e7, e8⟩, l⟩ := hd
  simp only [sizeIntsN, allFits_cons, allFits_nil, and_true] at hs
  obtain ⟨s1, s2, s3⟩ := hs
  have hmp : Ok (mPaddedNW M p cx.m_r m_c) := by
    simp only [mPaddedNW, ok_bind, ok_ev]
    exact ⟨d1, d2.1, s1.1⟩
  have hcol : ∀ n, n < (dimsNKM M N K p cx.m_r cx.n_r m_c k_c n_c).Nb →
      (if (n == (dimsNKM M N K p cx.m_r cx.n_r m_c k_c n_c).Nb - 1 && (dimsNKM M N K p cx.m_r cx.n_r m_c k_c n_c).n_pad) = true
        then (N : E) - (N : E) % n_c else (n : E) * n_c).Fits := fun n hn => by
    rw [nkm_Nb h.toN, nkm_n_pad] at *
    exact (n1S_ok h.geoN z hn).2
  simp only [cake_sgemmNW, run_bind, run_pure, run_sel, and_true, implies_true, true_and, val_dimsNKMW]
  refine ⟨run_dimsNKMW h z, fun _ => ⟨?_, run_of_ok (ok_packANW o _ _ hmc (packAIntsN_fits h z))⟩,
    fun _ => ⟨run_of_ok (ok_packedBSizeW s2 e5), run_of_ok (ok_packBNW o _ _ hcol (packBIntsN_fits h z))⟩, run_of_ok ?_,
    fun ha => run_of_ok (ok_blocksCNW o _ _ _ (cIntsN_fits h z true fun _ => hcp ha)),
    run_of_ok (ok_scheduleNW o hmc _ _ _ _ (schedIntsN_fits h z)),
    run_of_ok (ok_blocksCNW o _ _ _ hc)⟩
  · simp only [sizeAW, run_bind, run_ev]
    exact ⟨run_of_ok hmp, E.eval32_of_fits ⟨s1.1.lt, s1.2⟩⟩
  · simp only [sizeCW, ok_bind, ok_ev]
    exact ⟨hmp, ok_nPaddedW s2.2.1 e5, s1.1.lt, s2.2.1.lt, s3.2.2⟩

end

end

end Cake
