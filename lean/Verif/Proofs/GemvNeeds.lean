/-
What the matrix-vector example has to find in memory: the converse of its safety. Its tile sizes.
-/
import Verif.Proofs.Gemv
import Verif.Proofs.ConvNeeds
import Verif.Proofs.CacheDims

namespace Cake
open List

variable {α : Type _} {F : Arith α}

/-- Sizes of the caller's objects when the schedule starts. -/
theorem sgemv_run {ph : List (List (List Op))} {s s' : State α}
    (he : Exec F ([.malloc .Blk 1, .malloc .Dims 1, .free .Dims] ++ phases ph ++ [.free .Blk]) s (.ok s')) :
    ∀ o ∈ phaseOps ph, ∀ x ∈ o.reads, x.buf = .C → InB s.size x := by
  obtain ⟨s2, he, _⟩ := he.append_ok
  obtain ⟨s1, he, h2⟩ := he.append_ok
  have hz : ∀ b, b ≠ .Blk → b ≠ .Dims → s1.size b = s.size b := by
    intro b b1 b2
    cases he with
    | next _ _ _ sa _ g1 he =>
      cases he with
      | next _ _ _ sb _ g2 he =>
        have g3 := he.single_inv
        rw [g3.size, g2.size, g1.size]
        simp [sizeAfter, b1, b2]
  obtain ⟨_, g⟩ := phases_ok_inv h2
  intro o ho x hx hb
  have := (g o ho).2 x hx
  obtain ⟨b, i⟩ := x
  simp only at hb
  subst hb
  obtain ⟨n, h1, h2⟩ := this
  rw [hz _ (by simp) (by simp)] at h1
  exact ⟨n, h1, h2⟩

theorem gemvKernel_reads_C {t : Nat} {A B C : Loc} {S k l : Nat} (hl : l < 8) :
    ∃ o ∈ gemvKernel t A B C S k, C +ₚ l ∈ o.reads :=
  ⟨.copy (gC t l) (C +ₚ l), mem_gemvKernel.2 (Or.inl ⟨l, hl, rfl⟩), by simp [Op.reads]⟩

/-- Every row, also of the rounding up to the register tile, is in a tile of which eight elements are
accessed. -/
theorem mvm_needs {M K p m_r m_c k_c : Nat} (h : TileOK p m_r 1 m_c k_c 1) (hK : 0 < K) {s s' : State α}
    (he : Exec F ([.malloc .Blk 1, .malloc .Dims 1, .free .Dims] ++
        phases (schedule_mvm ⟨.A, 0⟩ ⟨.B, 0⟩ ⟨.C, 0⟩ M p m_r (dimsKMN M 0 K p m_r 1 m_c k_c 1)) ++ [.free .Blk])
        s (.ok s')) {row : Nat} (hrow : row < padTo M (p * m_c) m_r) :
    ∃ base, base ≤ row ∧ row < base + m_r ∧ ∀ l, l < 8 → InB s.size ⟨.C, base + l⟩ := by
  obtain ⟨m, core, r, hm, hcore, hr, e⟩ := rowOf_cover_pad h hrow
  have hmr := h.m_r_pos
  have d := divmod_eq m_r r
  have d2 := Nat.mod_lt r hmr
  refine ⟨rowOf M p m_r m_c m core (r / m_r * m_r), ?_, ?_, ?_⟩
  · rw [← e]; unfold rowOf; omega
  · rw [← e]; unfold rowOf; omega
  · intro l hl
    obtain ⟨o, ho, hx⟩ := gemvKernel_reads_C (t := core)
      (A := (⟨.A, 0⟩ : Loc) +ₚ (0 * k_c * M + rowOf M p m_r m_c m core (r / m_r * m_r)))
      (B := (⟨.B, 0⟩ : Loc) +ₚ (0 * k_c)) (C := (⟨.C, 0⟩ : Loc) +ₚ rowOf M p m_r m_c m core (r / m_r * m_r))
      (S := M) (k := chopLen K k_c 0) hl
    have := sgemv_run he o (by
      rw [mvm_ops h]
      simp only [mvmTask, mem_flatMap, mem_range]
      refine ⟨m, hm, core, hcore, 0, ?_, r / m_r, ?_, ho⟩
      · have := (chop_cover h.k_c_pos hK).1
        simp only [Nat.zero_div] at this
        exact this
      · obtain ⟨q, hq⟩ := mT_dvd (core := core) h hm
        rw [hq] at hr ⊢
        rw [Nat.mul_div_cancel_left _ hmr]
        rw [Nat.mul_comm] at hr
        exact div_lt_of_lt_mul' hr) _ hx (by simp)
    simpa [Loc.off] using this

/-- The same for the schedule field saying MKN. -/
theorem mvm_needs_MKN {M K p m_c k_c : Nat} (h : TileOK p 8 1 m_c k_c 1) (hd : m_c ∣ M) (hM : 0 < M) (hK : 0 < K)
    {al be : α} {pk : Bool} {x : BlkDims} {prog : Prog}
    (hprog : cake_sgemv ⟨.A, 0⟩ ⟨.B, 0⟩ ⟨.C, 0⟩ M K p 8 pk al be m_c k_c .MKN x = .ok prog) {s s' : State α}
    (he : Exec F prog s (.ok s')) : InB s.size ⟨.C, p * M - 1⟩ := by
  have hz : ¬ (p * k_c = 0 ∨ m_c = 0 ∨ 8 = 0) := by
    have := Nat.mul_pos h.p_pos h.k_c_pos
    have := h.m_c_pos
    omega
  unfold cake_sgemv init_block_dims_mvm at hprog
  simp only [if_neg hz] at hprog
  cases hprog
  obtain ⟨q, rfl⟩ := hd
  obtain ⟨u, rfl⟩ := h.m_dvd
  have hmc := h.m_c_pos
  have hu : 0 < u := by omega
  have hq : 0 < q := Nat.pos_of_ne_zero (by rintro rfl; simp at hM)
  have hp := h.p_pos
  have hpk := Nat.mul_pos hp h.k_c_pos
  have e0 : 8 * u * q % (8 * u) = 0 := Nat.mul_mod_right _ _
  have e1 : 8 * u * q / (8 * u) = q := Nat.mul_div_cancel_left _ hmc
  have hKb : 0 < K / (p * k_c) + (K % (p * k_c) != 0).toNat := by
    rw [cdiv_eq_div_add _ _ hpk]
    have := (chop_cover hpk hK).1
    exact Nat.lt_of_le_of_lt (Nat.zero_le _) this
  obtain ⟨o, ho, hx⟩ := gemvKernel_reads_C (t := p - 1)
      (A := (⟨.A, 0⟩ : Loc) +ₚ ((q - 1) * p * (8 * u) + 0 * k_c * (8 * u * q) + (p - 1) * (8 * u) + (u - 1) * 8))
      (B := (⟨.B, 0⟩ : Loc) +ₚ (0 * k_c))
      (C := (⟨.C, 0⟩ : Loc) +ₚ ((q - 1) * p * (8 * u) + (p - 1) * (8 * u) + (u - 1) * 8))
      (S := 8 * u * q) (k := if (0 == K / (p * k_c) + (K % (p * k_c) != 0).toNat - 1 && K % (p * k_c) != 0) = true
        then cdiv (K % (p * k_c)) p else k_c) (l := 7) (by omega)
  have := sgemv_run he o (by
    unfold schedule_mvm
    simp only [e0, e1, bne_self_eq_false, Bool.toNat_false, Nat.add_zero, Bool.and_false, Bool.false_eq_true,
      if_false]
    simp only [phaseOps_flatMap, mem_flatMap, mem_range]
    refine ⟨q - 1, by omega, ?_⟩
    rw [phaseOps_cons, phaseOps_nil, append_nil]
    rw [flatten_eq_flatMap]
    simp only [mem_flatMap, mem_map, mem_range]
    refine ⟨_, ⟨p - 1, by omega, rfl⟩, ?_⟩
    simp only [id, mem_flatMap, mem_range]
    refine ⟨0, hKb, u - 1, ?_, ?_⟩
    · rw [Nat.mul_div_cancel_left _ (by omega)]; omega
    · exact ho) _ hx (by simp)
  have e : (q - 1) * p * (8 * u) + (p - 1) * (8 * u) + (u - 1) * 8 + 7 = p * (8 * u * q) - 1 := by
    obtain ⟨q, rfl⟩ : ∃ c, q = c + 1 := ⟨q - 1, by omega⟩
    obtain ⟨p, rfl⟩ : ∃ c, p = c + 1 := ⟨p - 1, by omega⟩
    obtain ⟨u, rfl⟩ : ∃ c, u = c + 1 := ⟨u - 1, by omega⟩
    simp only [Nat.add_sub_cancel]
    apply Nat.eq_sub_of_add_eq
    ring
  rw [off_off, e] at this
  simpa [Loc.off] using this

section
variable (r : Rounding 53) (rs : Rounding 24) (nf : Option ℝ → Option ℝ → Bool)

/-- `mc_L2` is a positive multiple of 64. -/
theorem mcL2_mvm_val (cx : CCtx (Option ℝ)) {L2 : Nat} (hL2 : cx.L2 = L2) (hL : L2 < 2 ^ 31) :
    ∃ q : Nat, mcL2_mvm (ieee r rs nf) cx ((ieee r rs nf).ofInt 4) = .ok (((q + 1) * 64 : Nat) : ℤ) := by
  have eL : r.rnd ((cx.L2 : ℤ) : ℝ) = L2 := by
    rw [hL2]
    have := r.nat L2 (by omega)
    exact_mod_cast this
  have e4 : r.rnd ((4 : ℤ) : ℝ) = 4 := by rw [r.int 4 (by norm_num)]; norm_num
  have e22 : r.rnd (((2 * 2 : ℤ)) : ℝ) = 4 := by rw [r.int _ (by norm_num)]; norm_num
  have e2 : r.rnd ((2 : ℤ) : ℝ) = 2 := by rw [r.int 2 (by norm_num)]; norm_num
  have em2 : r.rnd ((-2 : ℤ) : ℝ) = -2 := by rw [r.int (-2) (by norm_num)]; norm_num
  have hL' : (L2 : ℝ) ≤ 2147483648 := by exact_mod_cast (show L2 ≤ 2147483648 by omega)
  have hL0 : (0 : ℝ) ≤ L2 := by positivity
  set x1 := r.rnd ((L2 : ℝ) / 4) with hx1
  set x2 := r.rnd (4 * x1) with hx2
  set S := r.rnd (4 + x2) with hS
  set q := r.rnd (Real.sqrt S) with hq
  set w := r.rnd (-2 + q) with hw
  set z := r.rnd (w / 2) with hz
  have x10 : 0 ≤ x1 := r.nonneg (by positivity)
  have x1u : x1 ≤ ((2 ^ 29 : ℤ) : ℝ) := r.le_int (by norm_num) (by norm_num; linarith)
  have x20 : 0 ≤ x2 := r.nonneg (by positivity)
  have x2u : x2 ≤ ((2 ^ 31 : ℤ) : ℝ) := r.le_int (by norm_num) (by norm_num at x1u ⊢; linarith)
  have S0 : ((4 : ℤ) : ℝ) ≤ S := r.ge_int (by norm_num) (by norm_num; linarith)
  have Su : S ≤ ((2 ^ 32 : ℤ) : ℝ) := r.le_int (by norm_num) (by norm_num at x2u ⊢; linarith)
  have q0 : ((2 : ℤ) : ℝ) ≤ q := r.ge_int (by norm_num) (by
    apply Real.le_sqrt_of_sq_le
    norm_num at S0 ⊢; linarith)
  have qu : q ≤ ((2 ^ 16 : ℤ) : ℝ) := r.le_int (by norm_num) (by
    apply Real.sqrt_le_iff.2
    norm_num at Su ⊢; linarith)
  have w0 : ((0 : ℤ) : ℝ) ≤ w := r.ge_int (by norm_num) (by norm_num at q0 ⊢; linarith)
  have wu : w ≤ ((2 ^ 16 : ℤ) : ℝ) := r.le_int (by norm_num) (by norm_num at qu ⊢; linarith)
  have z0 : 0 ≤ z := r.nonneg (by norm_num at w0; positivity)
  have zu : z ≤ ((2 ^ 16 : ℤ) : ℝ) := r.le_int (by norm_num) (by norm_num at wu w0 ⊢; linarith)
  have hci := cInt_floor r rs nf z0 (lt_of_le_of_lt zu (by norm_num))
  obtain ⟨t, ht⟩ := Int.eq_ofNat_of_zero_le (Int.floor_nonneg.2 z0)
  rw [ht] at hci
  refine ⟨t / 64, ?_⟩
  have hx : (ieee r rs nf).div ((ieee r rs nf).add ((ieee r rs nf).ofInt (-2)) ((ieee r rs nf).sqrt
      ((ieee r rs nf).add ((ieee r rs nf).ofInt (2 * 2)) ((ieee r rs nf).mul ((ieee r rs nf).ofInt 4)
        ((ieee r rs nf).div ((ieee r rs nf).ofInt cx.L2) ((ieee r rs nf).ofInt 4)))))) ((ieee r rs nf).ofInt 2) =
      some z := by
    simp only [ieee, Option.bind_some]
    rw [eL, e4, e2, em2, e22, if_neg (by norm_num), Option.bind_some, ← hx1, Option.bind_some, ← hx2,
      Option.bind_some, ← hS, if_neg (by norm_num at S0; linarith), Option.bind_some, ← hq, Option.bind_some, ← hw,
      if_neg (by norm_num)]
  unfold mcL2_mvm
  simp only [hx, hci]
  unfold cMod
  show Except.bind (Except.ok (t : ℤ)) _ = _
  simp only [Except.bind]
  rw [if_neg (by norm_num)]
  show Except.ok _ = _
  congr 1
  have : Int.tmod (t : ℤ) 64 = ((t % 64 : ℕ) : ℤ) := by
    rw [Int.tmod_eq_emod_of_nonneg (by positivity)]; norm_cast
  rw [this]
  omega

end
end Cake
