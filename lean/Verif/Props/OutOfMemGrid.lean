/-
C66 for `cake_sgemm_2d` and `cake_sgemm_2d_small`: which refused objects make a call undefined.
-/
import Verif.Proofs.OutOfMemGrid

namespace Cake
open List

section
variable {α : Type _} {F : Arith α} {M N K p pn m_c k_c kc_max : Nat}

/-- What the 2-D call cannot do without: structs and the private blocks of the cores that take part. -/
def needed2 (M N m_r n_r : Nat) (g : Grid2) (b : Buf) : Prop :=
  b.isStruct = true ∨ ∃ i, b = .CpC i ∧ i < coresUsed2 M N m_r n_r g

/-- What the small 2-D call cannot do without: structs and the private blocks of all `p` threads. -/
def neededS (p : Nat) (b : Buf) : Prop := b.isStruct = true ∨ ∃ i, b = .CpC i ∧ i < p

/-- **C66, `cake_sgemm_2d`, exactly.** Undefined exactly if a refused `malloc` or `calloc` was for a struct or for the block of
a core that gets a part of the first block of C; otherwise the call exits or computes the product. -/
theorem C66_2d_iff (cx : Cntx) (h : Fit2 M N p cx.m_r cx.n_r pn m_c k_c) (hk : cx.kfix.Fits cx.m_r cx.n_r)
    (packedA packedB : Bool) (alpha beta : α) {s : State α} (hs : CallOK s M N K) (hsl : Slack s M N K cx.m_r cx.n_r) :
    ∃ prog, call2 cx M N K p packedA packedB alpha beta pn m_c k_c = some prog ∧
      Refusal F prog s (needed2 M N cx.m_r cx.n_r (grid2 M N p cx.m_r cx.n_r pn m_c)) (fun s' => Correct F false s s' M N K) := by
  have hc := (sgemm2d_call F cx h hk packedA packedB alpha beta hs hsl).mono fun s' hs' =>
    Correct.of_env (orderKMN_perm h.k_c_pos) rfl hs'
  obtain ⟨h1, h2, -⟩ := h.grid
  obtain ⟨x, hx, e⟩ := call2_body cx (K := K) h packedA packedB alpha beta
  rw [e] at hc
  refine ⟨_, e, refusal_shaped (twoD_shaped (nullCtx := false)) hs hc fun b hb => or_congr_right' fun hst => ?_⟩
  have key : ∀ b, ProgTouches (sgemm2dBody cx ⟨.A, 0⟩ ⟨.B, 0⟩ ⟨.C, 0⟩ M N K p x) b ↔
      ProgTouches ((schedule_KMN_2d cx.kfix ⟨.A, 0⟩ ⟨.B, 0⟩ ⟨.C, 0⟩ M N K cx.m_r cx.n_r x).map Item.par) b := by
    intro b
    refine exists_congr fun ts => and_congr_left fun _ => ?_
    simp [phases, sgemm2dBody]
  refine Iff.trans ?_ (key b).symm
  rcases hb.resolve_left hst with rfl | ⟨i, rfl⟩
  · refine ⟨fun h => ?_, fun ht => absurd ht ?_⟩
    · obtain ⟨i, e, -⟩ := h
      cases e
    · exact (sched2_foot (Wr := (· ≠ .Cp)) (Rd := (· ≠ .Cp)) (by simp) (by simp) (by simp) (by simp) (by simp) (by simp) (by simp) (by simp) (by simp) (by simp) (by simp)).not_touches
  · rw [touches_2d h1 h2 hx i (by simp) (by simp) (by simp)]
    constructor
    · rintro ⟨j, e, hj⟩
      cases e
      exact hj
    · exact fun hi => ⟨i, rfl, hi⟩

/-- **C66, `cake_sgemm_2d_small`, exactly.** The blocks of all threads are needed, however small the product. -/
theorem C66_small_iff (cx : Cntx) (hm : 0 < cx.m_r) (hn : 0 < cx.n_r) (hk : cx.kfix.Fits cx.m_r cx.n_r)
    (hpn : 0 < pn) (hp : pn ≤ p) (hkm : 0 < kc_max) (hg : 0 < K → GridFits M N p cx.m_r cx.n_r pn)
    (packedA packedB : Bool) (alpha beta : α) {s : State α} (hs : CallOK s M N K) (hsl : Slack s M N K cx.m_r cx.n_r) :
    ∃ prog, callS cx M N K p packedA packedB alpha beta pn kc_max = some prog ∧
      Refusal F prog s (neededS p) (fun s' => Correct F false s s' M N K) := by
  have hc := (small_call F cx hm hn hk hpn hp hkm hg packedA packedB alpha beta hs hsl).mono fun s' hs' =>
    Correct.of_env (fun _ _ => Perm.refl _) rfl hs'
  obtain ⟨prog, e, -⟩ := id hc
  rw [e] at hc
  have hcall := e
  unfold callS cake_sgemm_2d_small at hcall
  simp only [Option.bind_eq_bind, Option.bind_eq_some_iff, Option.some.injEq] at hcall
  obtain ⟨x, hx, rfl⟩ := hcall
  refine ⟨_, e, refusal_shaped (twoD_shaped (nullCtx := false)) hs hc fun b hb => or_congr_right' fun hst => ?_⟩
  have hpos : 0 < x.m_c * x.n_c := by
    unfold init_block_dims_2d_small at hx
    split at hx
    · cases hx
    dsimp only at hx
    split at hx
    · cases hx
    generalize (if roundUpC M cx.m_r / (p / pn) + (cx.m_r - roundUpC M cx.m_r / (p / pn) % cx.m_r) > kc_max then kc_max
      else roundUpC M cx.m_r / (p / pn) + (cx.m_r - roundUpC M cx.m_r / (p / pn) % cx.m_r)) = kc at hx
    split at hx
    · cases hx
    rw [Option.some.injEq] at hx
    rw [← hx]
    have a := Nat.mod_lt (roundUpC M cx.m_r / (p / pn)) hm
    have b := Nat.mod_lt (roundUpC N cx.n_r / pn) hn
    exact Nat.mul_pos (show 0 < roundUpC M cx.m_r / (p / pn) + (cx.m_r - roundUpC M cx.m_r / (p / pn) % cx.m_r) from
      Nat.add_pos_right _ (Nat.sub_pos_of_lt a)) (show 0 < roundUpC N cx.n_r / pn + (cx.n_r - roundUpC N cx.n_r / pn % cx.n_r) from
      Nat.add_pos_right _ (Nat.sub_pos_of_lt b))
  refine Iff.trans (b := ProgTouches ((schedule_KMN_2d_small cx.kfix ⟨.A, 0⟩ ⟨.B, 0⟩ ⟨.C, 0⟩ M N K p cx.m_r cx.n_r x).map Item.par) b) ?_
    (exists_congr fun ts => and_congr_left fun _ => by simp [phases])
  rcases hb.resolve_left hst with rfl | ⟨i, rfl⟩
  · refine ⟨fun h => ?_, fun ht => absurd ht ?_⟩
    · obtain ⟨i, e, -⟩ := h
      cases e
    · exact (sched2s_foot (Wr := (· ≠ .Cp)) (Rd := (· ≠ .Cp)) (by simp) (by simp) (by simp) (by simp) (by simp) (by simp) (by simp) (by simp) (by simp) (by simp) (by simp)).not_touches
  · constructor
    · rintro ⟨j, e, hj⟩
      cases e
      exact touches_small hpos hj
    · exact fun ht => ⟨i, rfl, touches_small_lt (by simp) (by simp) (by simp) ht⟩

/-- **C66, refuted for `cake_sgemm_2d`, all sizes.** At least one core takes part in every product: if the system refuses its
private block and nothing else, the behaviour is undefined. -/
theorem C66_2d_refuted (cx : Cntx) (h : Fit2 M N p cx.m_r cx.n_r pn m_c k_c) (hk : cx.kfix.Fits cx.m_r cx.n_r)
    (packedA packedB : Bool) (alpha beta : α) {s : State α} (hs : CallOK s M N K) (hsl : Slack s M N K cx.m_r cx.n_r) :
    ∃ prog fl, call2 cx M N K p packedA packedB alpha beta pn m_c k_c = some prog ∧
      FExec F prog noNull s fl .ub ∧ ∀ b ∈ fl, b = .CpC 0 := by
  obtain ⟨prog, e, hr⟩ := C66_2d_iff (F := F) cx h hk packedA packedB alpha beta hs hsl
  obtain ⟨h1, h2, -⟩ := h.grid
  obtain ⟨x, -, e'⟩ := call2_body cx (K := K) h packedA packedB alpha beta
  rw [e, Option.some.injEq] at e'
  have hp : 0 < p := h.pn_pos.trans_le h.pn_le
  obtain ⟨fl, h3, h4⟩ := hr.refused (b := .CpC 0) (n := x.m_c * x.n_c) (.inr ⟨0, rfl,
    Nat.mul_pos (coresUsed_pos h.M_pos h.N_pos h1.p_pos h.m_r_pos) (coresUsed_pos h.N_pos h.M_pos h2.p_pos h.n_r_pos)⟩)
    (by rw [e']; simp [sgemm2dBody, hp])
  exact ⟨prog, fl, e, h3, h4⟩

/-- **C66, refuted for `cake_sgemm_2d_small`.** The same for any thread, also one that gets no part of the product. -/
theorem C66_small_refuted (cx : Cntx) (hm : 0 < cx.m_r) (hn : 0 < cx.n_r) (hk : cx.kfix.Fits cx.m_r cx.n_r)
    (hpn : 0 < pn) (hp : pn ≤ p) (hkm : 0 < kc_max) (hg : 0 < K → GridFits M N p cx.m_r cx.n_r pn)
    (packedA packedB : Bool) (alpha beta : α) {s : State α} (hs : CallOK s M N K) (hsl : Slack s M N K cx.m_r cx.n_r)
    {i : Nat} (hi : i < p) :
    ∃ prog fl, callS cx M N K p packedA packedB alpha beta pn kc_max = some prog ∧
      FExec F prog noNull s fl .ub ∧ ∀ b ∈ fl, b = .CpC i := by
  obtain ⟨prog, e, hr⟩ := C66_small_iff (F := F) cx hm hn hk hpn hp hkm hg packedA packedB alpha beta hs hsl
  have hcall := e
  unfold callS cake_sgemm_2d_small at hcall
  simp only [Option.bind_eq_bind, Option.bind_eq_some_iff, Option.some.injEq] at hcall
  obtain ⟨x, -, e'⟩ := hcall
  obtain ⟨fl, h3, h4⟩ := hr.refused (b := .CpC i) (n := x.m_c * x.n_c) (.inr ⟨i, rfl, hi⟩) (by rw [← e']; simp [hi])
  exact ⟨prog, fl, e, h3, h4⟩

/-! ### Concrete cases -/

/-- Six cores as 3 x 2 all take part in 79 x 169; of a 10 x 20 product only two cores get a part. -/
example : coresUsed2 79 169 6 16 (grid2 79 169 6 6 16 2 12) = 6 ∧ coresUsed2 10 20 6 16 (grid2 10 20 6 6 16 2 12) = 2 := by decide

example := C66_2d_iff (F := exact Int) haswell demo_fit2 haswell_fits_fix false false 1 0 (padded_ok 79 169 11 55 7 fun _ => 7)
  (padded_slack _ (by decide) (by decide))
example := C66_2d_refuted (F := exact Int) haswell demo_fit2 haswell_fits_fix false false 1 0 (padded_ok 79 169 11 55 7 fun _ => 7)
  (padded_slack _ (by decide) (by decide))
example := C66_small_iff (F := exact Int) haswell (p := 4) (pn := 2) (kc_max := 5) (by decide) (by decide) haswell_fits_fix (by decide)
  (by decide) (by decide) (fun _ => demo_gridFits) false false 1 0 (padded_ok 40 50 11 33 33 fun _ => 7)
  (padded_slack _ (by decide) (by decide))
example := C66_small_refuted (F := exact Int) haswell (p := 4) (pn := 2) (kc_max := 5) (i := 3) (by decide) (by decide) haswell_fits_fix
  (by decide) (by decide) (by decide) (fun _ => demo_gridFits) false false 1 0 (padded_ok 40 50 11 33 33 fun _ => 7)
  (padded_slack _ (by decide) (by decide)) (by decide)

end
end Cake
