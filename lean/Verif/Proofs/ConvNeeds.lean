/-
What the convolution example has to find in memory: the converse of its safety.
-/
import Verif.Proofs.Conv
import Verif.Proofs.OnlineNeeds

namespace Cake
open List

variable {α : Type _} {F : Arith α}

theorem RunOps.ok_init_of {l : List Op} {s s' : State α} (h : RunOps F l s (.ok s')) {x : Loc}
    (hx : ∀ o ∈ l, o.dst ≠ x) : s'.init x = s.init x ∧ ((∃ o ∈ l, x ∈ o.reads) → s.init x = true) := by
  generalize ho : Out.ok s' = out at h
  induction h with
  | nil s => cases ho; exact ⟨rfl, by simp⟩
  | undef => cases ho
  | step o os s out hd _ ih =>
    obtain ⟨h1, h2⟩ := ih (fun o ho => hx o (mem_cons_of_mem _ ho)) ho
    have hne : x ≠ o.dst := fun e => hx o (mem_cons_self ..) e.symm
    simp only [hne, decide_false, Bool.false_or] at h1 h2
    refine ⟨h1, ?_⟩
    rintro ⟨o', ho', hr⟩
    rcases mem_cons.1 ho' with rfl | hm
    · exact (hd.2 x hr).2
    · exact h2 ⟨o', hm, hr⟩

/-- If phases end normally, whatever they read without writing it was initialised. -/
theorem phases_ok_init {ph : List (List (List Op))} {s s' : State α} (h : Exec F (phases ph) s (.ok s'))
    {x : Loc} (hx : ∀ o ∈ phaseOps ph, o.dst ≠ x) :
    s'.init x = s.init x ∧ ((∃ o ∈ phaseOps ph, x ∈ o.reads) → s.init x = true) := by
  induction ph generalizing s with
  | nil => cases h; exact ⟨rfl, by simp [phaseOps]⟩
  | cons ts ph ih =>
    have h : Exec F (Item.par ts :: phases ph) s (.ok s') := h
    simp only [phaseOps_cons, mem_append] at hx ⊢
    cases h with
    | next _ _ _ s1 _ h1 h2 =>
      cases h1 with
      | par _ l _ _ hl hr =>
        obtain ⟨e1, g1⟩ := hr.ok_init_of (x := x) (fun o ho => hx o (Or.inl (hl.perm.mem_iff.1 ho)))
        obtain ⟨e2, g2⟩ := ih h2 (fun o ho => hx o (Or.inr ho))
        refine ⟨e2.trans e1, ?_⟩
        rintro ⟨o, ho | ho, hr⟩
        · exact g1 ⟨o, hl.perm.mem_iff.2 ho, hr⟩
        · rw [← e1]; exact g2 ⟨o, ho, hr⟩

theorem Exec.append_ok {p q : Prog} {s s' : State α} (h : Exec F (p ++ q) s (.ok s')) :
    ∃ s1, Exec F p s (.ok s1) ∧ Exec F q s1 (.ok s') := by
  rcases h.append_inv with hx | ⟨_, e | e⟩
  · exact hx
  · cases e
  · cases e

theorem ukernel_reads_C {L m nl t : Nat} {A B C : Loc} {cs astep bstep k i j : Nat} (hi : i < m)
    (hj : j < nl * L) : ∃ o ∈ ukernel L m nl t A B C cs astep bstep k, C +ₚ (i * cs + j) ∈ o.reads := by
  have hL : 0 < L := Nat.pos_of_ne_zero (by rintro rfl; simp at hj)
  refine ⟨.copy (rC L t (i * nl + j / L) (j % L)) (C +ₚ (i * cs + (j / L * L + j % L))), ?_, ?_⟩
  · unfold ukernel
    exact mem_append_left _ (mem_append_left _ (mem_ukernLoadC.2 ⟨i, j / L, j % L, hi,
      div_lt_of_lt_mul' hj, Nat.mod_lt _ hL, rfl⟩))
  · rw [divmod_eq]; simp [Op.reads]

theorem ukernel_reads_B {L m nl t : Nat} {A B C : Loc} {cs astep bstep k kk j : Nat} (hk : kk < k)
    (hj : j < nl * L) : ∃ o ∈ ukernel L m nl t A B C cs astep bstep k, B +ₚ (kk * bstep + j) ∈ o.reads := by
  have hL : 0 < L := Nat.pos_of_ne_zero (by rintro rfl; simp at hj)
  refine ⟨.copy (rB L m nl t (j / L) (j % L)) (B +ₚ (kk * bstep + (j / L * L + j % L))), ?_, ?_⟩
  · unfold ukernel
    refine mem_append_left _ (mem_append_right _ ?_)
    rw [ukernLoop_eq]
    refine mem_flatMap.2 ⟨kk, mem_range.2 hk, ?_⟩
    rw [kernInner_eq]
    refine mem_append_left _ ?_
    unfold kernLoadB
    exact mem_flatMap.2 ⟨j / L, mem_range.2 (div_lt_of_lt_mul' hj),
      mem_map.2 ⟨j % L, mem_range.2 (Nat.mod_lt _ hL), rfl⟩⟩
  · rw [divmod_eq]; simp [Op.reads]

theorem ukernel_reads_A {L m nl t : Nat} {A B C : Loc} {cs astep bstep k kk i : Nat} (hL : 0 < L) (hk : kk < k)
    (hi : i < m) : ∃ o ∈ ukernel L m nl t A B C cs astep bstep k, A +ₚ (kk * (m + astep) + i) ∈ o.reads := by
  refine ⟨.copy (rA L m nl t 0) (A +ₚ (kk * (m + astep) + i)), ?_, by simp [Op.reads]⟩
  unfold ukernel
  refine mem_append_left _ (mem_append_right _ ?_)
  rw [ukernLoop_eq]
  refine mem_flatMap.2 ⟨kk, mem_range.2 hk, ?_⟩
  rw [kernInner_eq]
  refine mem_append_right _ (mem_flatMap.2 ⟨i, mem_range.2 hi, ?_⟩)
  unfold kernRow
  exact mem_append_left _ (mem_map.2 ⟨0, mem_range.2 hL, rfl⟩)

section
variable {Wf Hf Win Hin Wout Hout Cin Cout p m_c k_c n_c : Nat} (h : TileOK p 6 1 m_c k_c n_c)
include h

theorem conv_prog (st : Nat) {prog : Prog}
    (hprog : cake_sconv ⟨.A, 0⟩ ⟨.B, 0⟩ ⟨.C, 0⟩ Wf Hf Win Hin Wout Hout Cin Cout st p 6 16 false m_c k_c n_c =
      some prog) :
    prog = [.malloc .Blk 1, .malloc .Dims 1, .free .Dims] ++
      (.memalign .Ap (padTo Cout (p * m_c) 6 * (Wf * Hf * Cin)) ::
        phases (pack_filters ⟨.A, 0⟩ ⟨.Ap, 0⟩ Cout (Cin * Wf * Hf) p 6 (dimsKMN Cout Hout Cin p 6 1 m_c k_c n_c))) ++
      phases (schedule_KMN_conv ⟨.Ap, 0⟩ ⟨.B, 0⟩ ⟨.C, 0⟩ Wf Hf Win Hin Wout Hout Cin p 6 16
        (dimsKMN Cout Hout Cin p 6 1 m_c k_c n_c)) ++ [.free .Ap] ++ [.free .Blk] := by
  obtain ⟨aSz, haSz⟩ : ∃ v, packedASize Cout (Cin * Wf * Hf) p 6 m_c .KMN = some v := ⟨_, rfl⟩
  have hz : ¬ (k_c = 0 ∨ n_c = 0 ∨ p * m_c = 0) := by
    have := h.k_c_pos
    have := h.n_c_pos
    have := h.S_pos
    omega
  simp only [cake_sconv, if_neg hz, init_block_dims_conv, haSz, Option.bind_eq_bind, Option.bind_some,
    Bool.false_eq_true, if_false, Option.some.injEq] at hprog
  rw [← hprog]
  have haS : aSz = padTo Cout (p * m_c) 6 * (Wf * Hf * Cin) := by
    simp only [packedASize, Option.some.injEq] at haSz
    rw [← haSz]
    unfold padTo
    ring
  rw [haS]

/-- States during a normal run. -/
theorem conv_run {st : Nat} {prog : Prog}
    (hprog : cake_sconv ⟨.A, 0⟩ ⟨.B, 0⟩ ⟨.C, 0⟩ Wf Hf Win Hin Wout Hout Cin Cout st p 6 16 false m_c k_c n_c =
      some prog) {s s' : State α} (he : Exec F prog s (.ok s')) :
    ∃ s1 s2 s3, (∀ b, b ≠ .Blk → b ≠ .Dims → b ≠ .Ap → s1.size b = s.size b) ∧
      s1.size .Ap = some (padTo Cout (p * m_c) 6 * (Wf * Hf * Cin)) ∧ (∀ x, s1.init ⟨.Ap, x⟩ = false) ∧
      Exec F (phases (pack_filters ⟨.A, 0⟩ ⟨.Ap, 0⟩ Cout (Cin * Wf * Hf) p 6
        (dimsKMN Cout Hout Cin p 6 1 m_c k_c n_c))) s1 (.ok s2) ∧
      Exec F (phases (schedule_KMN_conv ⟨.Ap, 0⟩ ⟨.B, 0⟩ ⟨.C, 0⟩ Wf Hf Win Hin Wout Hout Cin p 6 16
        (dimsKMN Cout Hout Cin p 6 1 m_c k_c n_c))) s2 (.ok s3) := by
  rw [conv_prog h st hprog] at he
  obtain ⟨s4, he, _⟩ := he.append_ok
  obtain ⟨s3, he, _⟩ := he.append_ok
  obtain ⟨s2, he, h3⟩ := he.append_ok
  obtain ⟨s0, he, h2⟩ := he.append_ok
  have hz : ∀ b, b ≠ .Blk → b ≠ .Dims → s0.size b = s.size b := by
    intro b b1 b2
    cases he with
    | next _ _ _ sa _ g1 he =>
      cases he with
      | next _ _ _ sb _ g2 he =>
        have g3 := he.single_inv
        rw [g3.size, g2.size, g1.size]
        simp [sizeAfter, b1, b2]
  cases h2 with
  | next _ _ _ s1 _ g1 g2 =>
    refine ⟨s1, s2, s3, ?_, ?_, ?_, g2, h3⟩
    · intro b b1 b2 b3
      rw [g1.size]
      simp only [sizeAfter, if_neg b3]
      exact hz b b1 b2
    · rw [g1.size]; simp [sizeAfter]
    · cases g1
      intro x; simp

/-- The kernel call for one tile of output and one tap. -/
theorem convTile_mem {row ho hf wf wo c : Nat} (hrow : row < padTo Cout (p * m_c) 6) (hho : ho < Hout)
    (hhf : hf < Hf) (hwf : wf < Wf) (hwo : wo < Wout / 16 * 16) (hc : c < Cin) (Fp In Out : Loc) :
    ∃ n m core r, n = ho / n_c ∧ m < cdiv Cout (p * m_c) ∧ core < mU Cout p 6 m_c m ∧
      r < mT Cout p 6 m_c m core ∧ rowOf Cout p 6 m_c m core r = row ∧
      ∀ o ∈ convTile Fp In Out Wf Hf Win Hin Wout Hout Cin Cout p m_c k_c n_c n m core (c / k_c) (ho % n_c)
        hf wf (wo / 16) (r / 6),
      o ∈ phaseOps (schedule_KMN_conv Fp In Out Wf Hf Win Hin Wout Hout Cin p 6 16
        (dimsKMN Cout Hout Cin p 6 1 m_c k_c n_c)) := by
  obtain ⟨m, core, r, hm, hcore, hr, e⟩ := rowOf_cover_pad h hrow
  obtain ⟨h1, h2, h3⟩ := chop_cover h.n_c_pos hho
  obtain ⟨c1, c2, c3⟩ := chop_cover h.k_c_pos hc
  refine ⟨_, m, core, r, rfl, hm, hcore, hr, e, ?_⟩
  intro o ho1
  rw [schedConv_ops h]
  simp only [convTask, mem_flatMap, mem_range]
  refine ⟨_, h1, m, hm, core, hcore, _, c1, _, h2, hf, hhf, wf, hwf, _, ?_, _, ?_, ho1⟩
  · omega
  · obtain ⟨q, hq⟩ := mT_dvd (core := core) h hm
    rw [hq] at hr ⊢
    rw [Nat.mul_div_cancel_left _ (by omega)]
    omega

/-- A normal run needs the output object to have a multiple of six channels, and every input element under
the filter to be within the input object. -/
theorem conv_needs {st : Nat} {prog : Prog}
    (hprog : cake_sconv ⟨.A, 0⟩ ⟨.B, 0⟩ ⟨.C, 0⟩ Wf Hf Win Hin Wout Hout Cin Cout st p 6 16 false m_c k_c n_c =
      some prog) {s s' : State α} (he : Exec F prog s (.ok s')) {row ho hf wf wo c : Nat}
    (hrow : row < padTo Cout (p * m_c) 6) (hho : ho < Hout)
    (hhf : hf < Hf) (hwf : wf < Wf) (hwo : wo < Wout / 16 * 16) (hc : c < Cin) :
    InB s.size ⟨.C, row * (Hout * Wout) + (ho * Wout + wo)⟩ ∧
    InB s.size ⟨.B, c * (Hin * Win) + ((ho + hf) * Win + (wo + wf))⟩ := by
  obtain ⟨s1, s2, s3, k1, _, _, k4, k5⟩ := conv_run h hprog he
  obtain ⟨e2, _⟩ := phases_ok_inv k4
  obtain ⟨_, g⟩ := phases_ok_inv k5
  have hsz : ∀ b, b ≠ .Blk → b ≠ .Dims → b ≠ .Ap → s2.size b = s.size b := by
    intro b b1 b2 b3; rw [e2]; exact k1 b b1 b2 b3
  obtain ⟨n, m, core, r, rfl, hm, hcore, hr, e, hin⟩ := convTile_mem (Win := Win) (Hin := Hin) h hrow hho hhf
    hwf hwo hc ⟨.Ap, 0⟩ ⟨.B, 0⟩ ⟨.C, 0⟩
  have d1 := divmod_eq 16 wo
  have d2 := divmod_eq 6 r
  have d3 := divmod_eq n_c ho
  have d4 := divmod_eq k_c c
  have hkk := (chop_cover h.k_c_pos hc).2.1
  refine ⟨?_, ?_⟩
  · obtain ⟨o, ho1, hr1⟩ := ukernel_reads_C (L := 8) (m := 6) (nl := 2) (t := core)
      (A := (⟨.Ap, 0⟩ : Loc) +ₚ (Wf * Hf * aInd Cout Cin p 6 m_c k_c m (c / k_c) core +
        (r / 6 * (Wf * Hf * chopLen Cin k_c (c / k_c) * 6) + (wf + hf * Wf) * chopLen Cin k_c (c / k_c) * 6)))
      (B := (⟨.B, 0⟩ : Loc) +ₚ (c / k_c * k_c * (Hin * Win) + ((ho / n_c * n_c + ho % n_c + hf) * Win +
        (wo / 16 * 16 + wf))))
      (C := (⟨.C, 0⟩ : Loc) +ₚ (rowOf Cout p 6 m_c m core (r / 6 * 6) * (Hout * Wout) +
        ((ho / n_c * n_c + ho % n_c) * Wout + wo / 16 * 16)))
      (cs := Hout * Wout) (astep := 0) (bstep := Hin * Win)
      (k := chopLen Cin k_c (c / k_c)) (i := r % 6) (j := wo % 16) (Nat.mod_lt _ (by omega))
      (Nat.mod_lt _ (by omega))
    have := (g o (hin o ho1)).2 _ hr1
    rw [off_off] at this
    have ee : rowOf Cout p 6 m_c m core (r / 6 * 6) * (Hout * Wout) +
        ((ho / n_c * n_c + ho % n_c) * Wout + wo / 16 * 16) + (r % 6 * (Hout * Wout) + wo % 16) =
        row * (Hout * Wout) + (ho * Wout + wo) := by
      have e1 : row = rowOf Cout p 6 m_c m core (r / 6 * 6) + r % 6 := by
        rw [← e]; unfold rowOf; omega
      rw [d3, e1, Nat.add_mul (rowOf Cout p 6 m_c m core (r / 6 * 6))]
      generalize rowOf Cout p 6 m_c m core (r / 6 * 6) * (Hout * Wout) = a
      generalize r % 6 * (Hout * Wout) = b
      omega
    rw [ee] at this
    obtain ⟨n', h1, h2⟩ := this
    rw [hsz _ (by simp) (by simp) (by simp)] at h1
    exact ⟨n', h1, by simpa [Loc.off] using h2⟩
  · obtain ⟨o, ho1, hr1⟩ := ukernel_reads_B (L := 8) (m := 6) (nl := 2) (t := core)
      (A := (⟨.Ap, 0⟩ : Loc) +ₚ (Wf * Hf * aInd Cout Cin p 6 m_c k_c m (c / k_c) core +
        (r / 6 * (Wf * Hf * chopLen Cin k_c (c / k_c) * 6) + (wf + hf * Wf) * chopLen Cin k_c (c / k_c) * 6)))
      (B := (⟨.B, 0⟩ : Loc) +ₚ (c / k_c * k_c * (Hin * Win) + ((ho / n_c * n_c + ho % n_c + hf) * Win +
        (wo / 16 * 16 + wf))))
      (C := (⟨.C, 0⟩ : Loc) +ₚ (rowOf Cout p 6 m_c m core (r / 6 * 6) * (Hout * Wout) +
        ((ho / n_c * n_c + ho % n_c) * Wout + wo / 16 * 16)))
      (cs := Hout * Wout) (astep := 0) (bstep := Hin * Win)
      (k := chopLen Cin k_c (c / k_c)) (kk := c % k_c) (j := wo % 16) hkk
      (Nat.mod_lt _ (by omega))
    have := (g o (hin o ho1)).2 _ hr1
    rw [off_off] at this
    have ee : c / k_c * k_c * (Hin * Win) + ((ho / n_c * n_c + ho % n_c + hf) * Win +
        (wo / 16 * 16 + wf)) + (c % k_c * (Hin * Win) + wo % 16) =
        c * (Hin * Win) + ((ho + hf) * Win + (wo + wf)) := by
      calc _ = (c / k_c * k_c + c % k_c) * (Hin * Win) + ((ho / n_c * n_c + ho % n_c + hf) * Win +
          (wo / 16 * 16 + wo % 16 + wf)) := by ring
        _ = _ := by rw [d4, d3, d1]
    rw [ee] at this
    obtain ⟨n', h1, h2⟩ := this
    rw [hsz _ (by simp) (by simp) (by simp)] at h1
    exact ⟨n', h1, by simpa [Loc.off] using h2⟩

/-- Fewer than nine filter elements: packing overruns its buffer. -/
theorem conv_small_filter {st : Nat} {prog : Prog}
    (hprog : cake_sconv ⟨.A, 0⟩ ⟨.B, 0⟩ ⟨.C, 0⟩ Wf Hf Win Hin Wout Hout Cin Cout st p 6 16 false m_c k_c n_c =
      some prog) (hT : Wf * Hf < 9) (hCin : 0 < Cin) (hCout : 0 < Cout) {s s' : State α} :
    ¬ Exec F prog s (.ok s') := by
  intro he
  obtain ⟨s1, s2, s3, _, k2, _, k4, _⟩ := conv_run h hprog he
  obtain ⟨_, g⟩ := phases_ok_inv k4
  have hpad : 0 < padTo Cout (p * m_c) 6 := Nat.lt_of_lt_of_le hCout (padTo_ge _ _ _ (by omega))
  have hlen := packF_seqW (N := Hout) (M := Cout) (C := Cin) (K := Cin * Wf * Hf) h ⟨.A, 0⟩ ⟨.Ap, 0⟩
  have hlt : padTo Cout (p * m_c) 6 * (Wf * Hf * Cin) < padTo Cout (p * m_c) 6 * (9 * Cin) :=
    Nat.mul_lt_mul_of_pos_left (Nat.mul_lt_mul_of_pos_right hT hCin) hpad
  obtain ⟨o, ho, hd⟩ := (hlen.mem_iff ⟨.Ap, padTo Cout (p * m_c) 6 * (Wf * Hf * Cin)⟩).2
    ⟨rfl, Nat.zero_le _, by simpa using hlt⟩
  obtain ⟨n, h1, h2⟩ := hd ▸ (g o ho).1
  rw [k2] at h1
  cases h1
  simp at h2

omit h in
theorem conv_last (t m0 s q K0 kk : Nat) :
    (t + 1) * (m0 * (K0 + (kk + 1)) + (K0 * (s + 6 * (q + 1)) + s * (kk + 1))) +
      (q * ((t + 1) * (kk + 1) * 6) + t * (kk + 1) * 6) + (kk * (6 + 0) + 5) + 1 =
    (m0 + (s + 6 * (q + 1))) * ((t + 1) * (K0 + (kk + 1))) := by
  ring

/-- More than nine filter elements: part of the packed filters is read without having been written. -/
theorem conv_large_filter {st : Nat} {prog : Prog}
    (hprog : cake_sconv ⟨.A, 0⟩ ⟨.B, 0⟩ ⟨.C, 0⟩ Wf Hf Win Hin Wout Hout Cin Cout st p 6 16 false m_c k_c n_c =
      some prog) (hT : 9 < Wf * Hf) (hCin : 0 < Cin) (hCout : 0 < Cout) (hH : 0 < Hout) (hW : 16 ≤ Wout)
    {s s' : State α} : ¬ Exec F prog s (.ok s') := by
  intro he
  obtain ⟨s1, s2, s3, _, k2, k3, k4, k5⟩ := conv_run h hprog he
  have hpad : 0 < padTo Cout (p * m_c) 6 := Nat.lt_of_lt_of_le hCout (padTo_ge _ _ _ (by omega))
  have hHf : 0 < Hf := Nat.pos_of_ne_zero (by rintro rfl; simp at hT)
  have hWf : 0 < Wf := Nat.pos_of_ne_zero (by rintro rfl; simp at hT)
  obtain ⟨n, m, core, r, rfl, hm, hcore, hr, e, hin⟩ := convTile_mem (Win := Win) (Hin := Hin) (Wf := Wf) (Hf := Hf)
    (Wout := Wout) (Cin := Cin) (Cout := Cout) (row := padTo Cout (p * m_c) 6 - 1) (ho := 0) (hf := Hf - 1) (wf := Wf - 1)
    (wo := 0) (c := Cin - 1) h (by omega) hH (by omega) (by omega) (by omega) (by omega)
    ⟨.Ap, 0⟩ ⟨.B, 0⟩ ⟨.C, 0⟩
  obtain ⟨c1, c2, c3⟩ := chop_cover (T := Cin) (x := Cin - 1) h.k_c_pos (by omega)
  have c4 := chop_bound' h.k_c_pos c1
  have hX := (m_strips (N := 0) (K := 0) h hm).1
  -- the last strip ends at the last row
  have r1 : m * (p * m_c) + (core * mX Cout p 6 m_c m + r) = padTo Cout (p * m_c) 6 - 1 := e
  have r2 : core * mX Cout p 6 m_c m + mT Cout p 6 m_c m core ≤ mLen Cout p 6 m_c m := chop_bound' hX hcore
  have r3 : m * (p * m_c) + mLen Cout p 6 m_c m ≤ padTo Cout (p * m_c) 6 :=
    chop_bound' h.S_pos (by rwa [← mb_eq h])
  have r4 : core * mX Cout p 6 m_c m + mT Cout p 6 m_c m core = mLen Cout p 6 m_c m := by omega
  have r5 : m * (p * m_c) + mLen Cout p 6 m_c m = padTo Cout (p * m_c) 6 := by omega
  have r6 : r = mT Cout p 6 m_c m core - 1 := by omega
  obtain ⟨q, hq⟩ := mT_dvd (core := core) h hm
  have hker : Wf - 1 + (Hf - 1) * Wf + 1 = Wf * Hf := by
    obtain ⟨a, rfl⟩ : ∃ a, Hf = a + 1 := ⟨Hf - 1, by omega⟩
    rw [Nat.add_sub_cancel, Nat.mul_add, Nat.mul_one, Nat.mul_comm a]
    omega
  have hkc : (Cin - 1) / k_c * k_c + chopLen Cin k_c ((Cin - 1) / k_c) = Cin := by omega
  have hkk : (Cin - 1) % k_c + 1 = chopLen Cin k_c ((Cin - 1) / k_c) := by omega
  have hq0 : r / 6 + 1 = q := by omega
  have hr6 : r % 6 = 5 := by omega
  obtain ⟨o, ho1, hr1⟩ := ukernel_reads_A (L := 8) (m := 6) (nl := 2) (t := core) (by omega)
      (A := (⟨.Ap, 0⟩ : Loc) +ₚ (Wf * Hf * aInd Cout Cin p 6 m_c k_c m ((Cin - 1) / k_c) core +
        (r / 6 * (Wf * Hf * chopLen Cin k_c ((Cin - 1) / k_c) * 6) +
          (Wf - 1 + (Hf - 1) * Wf) * chopLen Cin k_c ((Cin - 1) / k_c) * 6)))
      (B := (⟨.B, 0⟩ : Loc) +ₚ ((Cin - 1) / k_c * k_c * (Hin * Win) + ((0 / n_c * n_c + 0 % n_c + (Hf - 1)) * Win +
        (0 / 16 * 16 + (Wf - 1)))))
      (C := (⟨.C, 0⟩ : Loc) +ₚ (rowOf Cout p 6 m_c m core (r / 6 * 6) * (Hout * Wout) +
        ((0 / n_c * n_c + 0 % n_c) * Wout + 0 / 16 * 16)))
      (cs := Hout * Wout) (astep := 0) (bstep := Hin * Win)
      (k := chopLen Cin k_c ((Cin - 1) / k_c)) (kk := (Cin - 1) % k_c) (i := r % 6) c2
      (Nat.mod_lt _ (by omega))
  rw [off_off] at hr1
  generalize hix : Wf * Hf * aInd Cout Cin p 6 m_c k_c m ((Cin - 1) / k_c) core +
        (r / 6 * (Wf * Hf * chopLen Cin k_c ((Cin - 1) / k_c) * 6) +
          (Wf - 1 + (Hf - 1) * Wf) * chopLen Cin k_c ((Cin - 1) / k_c) * 6) +
        ((Cin - 1) % k_c * (6 + 0) + r % 6) = x at hr1
  have hxv : x + 1 = padTo Cout (p * m_c) 6 * (Wf * Hf * Cin) := by
    have := conv_last (Wf - 1 + (Hf - 1) * Wf) (m * (p * m_c)) (core * mX Cout p 6 m_c m) (r / 6)
      ((Cin - 1) / k_c * k_c) ((Cin - 1) % k_c)
    rw [hker, hkk, hkc, hq0, ← hq, r4, r5] at this
    rw [← this, ← hix, hr6]
    rfl
  have hno : ∀ o ∈ phaseOps (schedule_KMN_conv ⟨.Ap, 0⟩ ⟨.B, 0⟩ ⟨.C, 0⟩ Wf Hf Win Hin Wout Hout Cin p 6 16
        (dimsKMN Cout Hout Cin p 6 1 m_c k_c n_c)), o.dst ≠ ⟨.Ap, x⟩ := by
    intro o ho e'
    rcases schedConv_dst h o ho with ⟨t, e1⟩ | ⟨_, _, _, _, _, _, e1⟩
    · rw [e'] at e1; simp at e1
    · rw [e'] at e1; simp at e1
  have hlt : padTo Cout (p * m_c) 6 * (9 * Cin) < padTo Cout (p * m_c) 6 * (Wf * Hf * Cin) :=
    Nat.mul_lt_mul_of_pos_left (Nat.mul_lt_mul_of_pos_right hT hCin) hpad
  have hno' : ∀ o ∈ phaseOps (pack_filters ⟨.A, 0⟩ ⟨.Ap, 0⟩ Cout (Cin * Wf * Hf) p 6
        (dimsKMN Cout Hout Cin p 6 1 m_c k_c n_c)), o.dst ≠ ⟨.Ap, x⟩ := by
    intro o ho e'
    have := ((packF_seqW (N := Hout) h ⟨.A, 0⟩ ⟨.Ap, 0⟩).dst_of_mem ho).2.2
    rw [e'] at this
    simp only at this
    omega
  have i1 := (phases_ok_init k5 hno).2 ⟨o, hin o ho1, by simpa [Loc.off] using hr1⟩
  rw [(phases_ok_init k4 hno').1, k3] at i1
  cases i1

end
end Cake
