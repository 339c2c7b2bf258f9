/-
`schedule_mvm` and `cake_sgemv`: closed form, race freedom, safety, effect.
-/
import Verif.Proofs.GemvKernel
import Verif.Proofs.SgemmK
import Verif.Proofs.Conv

namespace Cake
open List

/-- One call of the kernel. -/
def mvmTile (m_r : Nat) (A B C : Loc) (M K p m_c k_c m core k m_reg : Nat) : List Op :=
  gemvKernel core (A +ₚ (k * k_c * M + rowOf M p m_r m_c m core (m_reg * m_r))) (B +ₚ (k * k_c))
    (C +ₚ (rowOf M p m_r m_c m core (m_reg * m_r))) M (chopLen K k_c k)

def mvmTask (m_r : Nat) (A B C : Loc) (M K p m_c k_c m core : Nat) : List Op :=
  (range (cdiv K k_c)).flatMap fun k => (range (mT M p m_r m_c m core / m_r)).flatMap fun m_reg =>
    mvmTile m_r A B C M K p m_c k_c m core k m_reg

section
variable {M K p m_r m_c k_c : Nat}

theorem mvm_dims (h : TileOK p m_r 1 m_c k_c 1) (x : BlkDims) : ∃ y,
    init_block_dims_mvm M K p m_r m_c k_c .KMN x = .ok y ∧ ∀ A B C : Loc,
      schedule_mvm A B C M p m_r y = schedule_mvm A B C M p m_r (dimsKMN M 0 K p m_r 1 m_c k_c 1) := by
  have hz : ¬ (k_c = 0 ∨ p * m_c = 0 ∨ m_r = 0) := by
    have := h.k_c_pos
    have := h.S_pos
    have := h.m_r_pos
    omega
  unfold init_block_dims_mvm
  simp only [if_neg hz]
  exact ⟨_, rfl, fun A B C => rfl⟩

/-- The schedule for any register tile size in the addressing. -/
theorem mvm_phases (h : TileOK p m_r 1 m_c k_c 1) (A B C : Loc) :
    schedule_mvm A B C M p m_r (dimsKMN M 0 K p m_r 1 m_c k_c 1) =
      (range (cdiv M (p * m_c))).flatMap fun m =>
        [(range (mU M p m_r m_c m)).map fun core => mvmTask m_r A B C M K p m_c k_c m core] := by
  unfold schedule_mvm
  rw [kmn_Mb h, kmn_Kb h]
  have hpad : (dimsKMN M 0 K p m_r 1 m_c k_c 1).m_pad = (M % (p * m_c) != 0) := rfl
  have hkpad : (dimsKMN M 0 K p m_r 1 m_c k_c 1).k_pad = (K % k_c != 0) := rfl
  have hmc : (dimsKMN M 0 K p m_r 1 m_c k_c 1).m_c = m_c := rfl
  have hkc : (dimsKMN M 0 K p m_r 1 m_c k_c 1).k_c = k_c := rfl
  have hkc1 : (dimsKMN M 0 K p m_r 1 m_c k_c 1).k_c1 = K % k_c := rfl
  rw [hpad, hkpad, hmc, hkc, hkc1]
  apply flatMap_congr
  intro m hm
  rw [mem_range] at hm
  obtain ⟨_, _, _, h4, _, h6⟩ := m_strips (N := 0) (K := K) (k_c := k_c) (n_r := 1) (n_c := 1) h hm
  have hx : (if (m == cdiv M (p * m_c) - 1 && M % (p * m_c) != 0) = true then
        (dimsKMN M 0 K p m_r 1 m_c k_c 1).m_c1 else m_c) = mX M p m_r m_c m := rfl
  dsimp only
  rw [h4, hx]
  refine congrArg (fun a => [a]) ?_
  apply map_congr_left
  intro core hcore
  rw [mem_range] at hcore
  rw [h6 core hcore]
  unfold mvmTask
  apply flatMap_congr
  intro k hk
  rw [mem_range] at hk
  rw [k_len h.k_c_pos hk]
  apply flatMap_congr
  intro m_reg _
  unfold mvmTile cake_sgemv_haswell_8x8_col rowOf
  congr 1
  · congr 1; ring
  · congr 1; ring

theorem mvm_ops (h : TileOK p m_r 1 m_c k_c 1) (A B C : Loc) :
    phaseOps (schedule_mvm A B C M p m_r (dimsKMN M 0 K p m_r 1 m_c k_c 1)) =
    (range (cdiv M (p * m_c))).flatMap fun m => (range (mU M p m_r m_c m)).flatMap fun core =>
      mvmTask m_r A B C M K p m_c k_c m core := by
  rw [mvm_phases h, phaseOps_flatMap]
  apply flatMap_congr
  intro m _
  simp [List.flatMap_def]

variable (h : TileOK p 8 1 m_c k_c 1)

omit h in
theorem mvmTile_dst {A B C : Loc} {m core k m_reg : Nat} (o : Op)
    (ho : o ∈ mvmTile 8 A B C M K p m_c k_c m core k m_reg) :
    o.dst.buf = .reg core ∨ ∃ i, i < 8 ∧ o.dst = C +ₚ rowOf M p 8 m_c m core (m_reg * 8 + i) := by
  rcases gemvKernel_dst o ho with h1 | ⟨i, hi, h1⟩
  · exact Or.inl h1
  · refine Or.inr ⟨i, hi, ?_⟩
    rw [h1, off_off]
    unfold rowOf
    congr 1
    omega

include h

theorem mvm_row {m core m_reg i : Nat} (hm : m < cdiv M (p * m_c)) (h1 : m_reg < mT M p 8 m_c m core / 8)
    (hi : i < 8) : m_reg * 8 + i < mT M p 8 m_c m core := by
  have := mulAdd_lt h1 hi
  rwa [Nat.div_mul_cancel (mT_dvd h hm)] at this

theorem mvmTask_dst {A B C : Loc} {m core : Nat} (hm : m < cdiv M (p * m_c)) (o : Op)
    (ho : o ∈ mvmTask 8 A B C M K p m_c k_c m core) :
    o.dst.buf = .reg core ∨ ∃ r, r < mT M p 8 m_c m core ∧ o.dst = C +ₚ rowOf M p 8 m_c m core r := by
  simp only [mvmTask, mem_flatMap, mem_range] at ho
  obtain ⟨k, hk, m_reg, hmr, hin⟩ := ho
  rcases mvmTile_dst o hin with h1 | ⟨i, hi, h1⟩
  · exact Or.inl h1
  · exact Or.inr ⟨m_reg * 8 + i, mvm_row h hm hmr hi, h1⟩

theorem mvmTask_reads {A B C : Loc} {m core : Nat} (hm : m < cdiv M (p * m_c)) (o : Op)
    (ho : o ∈ mvmTask 8 A B C M K p m_c k_c m core) (l : Loc) (hl : l ∈ o.reads) :
    l.buf = .reg core ∨ (∃ r, r < mT M p 8 m_c m core ∧ l = C +ₚ rowOf M p 8 m_c m core r) ∨
      l.buf = A.buf ∨ l.buf = B.buf := by
  simp only [mvmTask, mem_flatMap, mem_range] at ho
  obtain ⟨k, hk, m_reg, hmr, hin⟩ := ho
  rcases gemvKernel_reads o hin l hl with h1 | ⟨i, hi, h1⟩ | h1 | h1
  · exact Or.inl h1
  · refine Or.inr (Or.inl ⟨m_reg * 8 + i, mvm_row h hm hmr hi, ?_⟩)
    rw [h1, off_off]
    unfold rowOf
    congr 1
    omega
  · exact Or.inr (Or.inr (Or.inl h1))
  · exact Or.inr (Or.inr (Or.inr h1))

/-- Tasks of one phase never touch each other's part of C. -/
theorem mvm_raceFree : ∀ ts ∈ schedule_mvm ⟨.A, 0⟩ ⟨.B, 0⟩ ⟨.C, 0⟩ M p 8 (dimsKMN M 0 K p 8 1 m_c k_c 1),
    RaceFree ts := by
  intro ts hts
  rw [mvm_phases h] at hts
  simp only [mem_flatMap, mem_range, mem_singleton] at hts
  obtain ⟨m, hm, rfl⟩ := hts
  apply raceFree_map
  intro i j hi hj hne o ho o' ho' hc
  have d1 := mvmTask_dst h hm o ho
  have d2 := mvmTask_dst h hm o' ho'
  have sep : ∀ {r r' : Nat}, r < mT M p 8 m_c m i → r' < mT M p 8 m_c m j →
      (⟨.C, 0⟩ : Loc) +ₚ rowOf M p 8 m_c m i r ≠ (⟨.C, 0⟩ : Loc) +ₚ rowOf M p 8 m_c m j r' := by
    intro r r' g1 g2 e
    exact hne (rowOf_inj g1 g2 ((off_inj _ _ _).1 e)).2.1
  rcases hc with e | e | e
  · rcases d1 with d1 | ⟨r, g1, d1⟩ <;> rcases d2 with d2 | ⟨r', g1', d2⟩
    · rw [e, d2] at d1; simp at d1; exact hne d1.symm
    · rw [e, d2] at d1; simp at d1
    · rw [e] at d1; rw [d1] at d2; simp at d2
    · rw [e, d2] at d1; exact sep g1 g1' d1.symm
  · rcases mvmTask_reads h hm o' ho' _ e with r2 | ⟨r', g1', r2⟩ | r2 | r2 <;>
      rcases d1 with d1 | ⟨r, g1, d1⟩
    · rw [d1] at r2; simp at r2; exact hne r2
    · rw [d1] at r2; simp at r2
    · rw [r2] at d1; simp at d1
    · rw [d1] at r2; exact sep g1 g1' r2
    · rw [d1] at r2; simp at r2
    · rw [d1] at r2; simp at r2
    · rw [d1] at r2; simp at r2
    · rw [d1] at r2; simp at r2
  · rcases mvmTask_reads h hm o ho _ e with r2 | ⟨r', g1', r2⟩ | r2 | r2 <;>
      rcases d2 with d1 | ⟨r, g1, d1⟩
    · rw [d1] at r2; simp at r2; exact hne r2.symm
    · rw [d1] at r2; simp at r2
    · rw [r2] at d1; simp at d1
    · rw [d1] at r2; exact sep g1' g1 r2.symm
    · rw [d1] at r2; simp at r2
    · rw [d1] at r2; simp at r2
    · rw [d1] at r2; simp at r2
    · rw [d1] at r2; simp at r2

omit h in
/-- What the schedule needs: `P` is M rounded up to the register tile. -/
structure MvmReady (M K P : Nat) (size : Buf → Option Nat) (init : Loc → Bool) : Prop where
  a : ∀ x, x < K * M + (P - M) → InB size ⟨.A, x⟩ ∧ init ⟨.A, x⟩ = true
  b : ∀ x, x < K → InB size ⟨.B, x⟩ ∧ init ⟨.B, x⟩ = true
  c : ∀ x, x < P → InB size ⟨.C, x⟩ ∧ init ⟨.C, x⟩ = true

omit h in
theorem mvm_aIdx {P k row : Nat} (hMP : M ≤ P) (hk : k < K) (hrow : row < P) : k * M + row < K * M + (P - M) := by
  have : (k + 1) * M ≤ K * M := Nat.mul_le_mul_right M hk
  rw [Nat.add_mul] at this
  omega

theorem mvm_safe {size : Buf → Option Nat} {init : Loc → Bool}
    (hs : MvmReady M K (padTo M (p * m_c) 8) size init) :
    ∀ ts ∈ schedule_mvm ⟨.A, 0⟩ ⟨.B, 0⟩ ⟨.C, 0⟩ M p 8 (dimsKMN M 0 K p 8 1 m_c k_c 1), ∀ t ∈ ts,
      Safe size init t := by
  intro ts hts t ht
  rw [mvm_phases h] at hts
  simp only [mem_flatMap, mem_range, mem_singleton] at hts
  obtain ⟨m, hm, rfl⟩ := hts
  obtain ⟨core, hcore, rfl⟩ := mem_map.1 ht
  rw [mem_range] at hcore
  unfold mvmTask
  apply Safe.flatMap
  intro k hk
  apply Safe.flatMap
  intro m_reg hmr
  rw [mem_range] at hk hmr
  have hrow : ∀ i, i < 8 → rowOf M p 8 m_c m core (m_reg * 8) + i < padTo M (p * m_c) 8 := by
    intro i hi
    have := rowOf_lt (mvm_row h hm hmr hi)
    unfold rowOf at this ⊢
    omega
  unfold mvmTile
  apply gemvKernel_safe
  · intro l hl
    rw [off_off]
    simpa [Loc.off] using hs.c _ (hrow l hl)
  · intro kk l hkk hl
    have := hs.a _ (mvm_aIdx (K := K) (padTo_ge _ _ _ (by omega)) (chop_bound hkk) (hrow l hl))
    rw [off_off]
    have e : k * k_c * M + rowOf M p 8 m_c m core (m_reg * 8) + (kk * M + l) =
        (k * k_c + kk) * M + (rowOf M p 8 m_c m core (m_reg * 8) + l) := by ring
    rw [e]
    simpa [Loc.off] using this
  · intro kk hkk
    have := hs.b _ (chop_bound hkk)
    rw [off_off]
    simpa [Loc.off] using this

/-! ### Effect -/

omit h in
/-- Locations the schedule does not change. -/
def mvmRo (l : Loc) : Prop := l.buf ≠ .C ∧ ∀ t, l.buf ≠ .reg t

theorem mvmTask_none {F : Type _} (ar : Arith F) {m core m' core' r' : Nat} (hm : m < cdiv M (p * m_c))
    (hr' : r' < mT M p 8 m_c m' core') (hne : ¬ (m = m' ∧ core = core')) :
    Accum ar mvmRo (mvmTask 8 ⟨.A, 0⟩ ⟨.B, 0⟩ ⟨.C, 0⟩ M K p m_c k_c m core)
      ⟨.C, rowOf M p 8 m_c m' core' r'⟩ [] := by
  refine Accum.none ?_ ?_
  · intro o ho e
    rcases mvmTask_dst h hm o ho with d1 | ⟨r, g1, d1⟩
    · rw [e] at d1; simp at d1
    · rw [e] at d1
      simp only [Loc.off, Nat.zero_add, Loc.mk.injEq, true_and] at d1
      obtain ⟨e1, e2, _⟩ := rowOf_inj g1 hr' d1.symm
      exact hne ⟨e1, e2⟩
  · intro o ho hr
    rcases mvmTask_dst h hm o ho with d1 | ⟨r, g1, d1⟩
    · exact hr.2 _ d1
    · exact hr.1 (by rw [d1, off_buf])

/-- One task adds the `K` products of one row, in order. -/
theorem mvmTask_acc {F : Type _} (ar : Arith F) {m core r : Nat} (hm : m < cdiv M (p * m_c))
    (hr : r < mT M p 8 m_c m core) :
    Accum ar mvmRo (mvmTask 8 ⟨.A, 0⟩ ⟨.B, 0⟩ ⟨.C, 0⟩ M K p m_c k_c m core) ⟨.C, rowOf M p 8 m_c m core r⟩
      ((range K).map fun k => (⟨.A, k * M + rowOf M p 8 m_c m core r⟩, ⟨.B, k⟩)) := by
  have e : ((range K).map fun k => ((⟨.A, k * M + rowOf M p 8 m_c m core r⟩, ⟨.B, k⟩) : Loc × Loc)) =
      (range (cdiv K k_c)).flatMap fun k => (range (chopLen K k_c k)).map fun kk =>
        ((⟨.A, (k * k_c + kk) * M + rowOf M p 8 m_c m core r⟩, ⟨.B, k * k_c + kk⟩) : Loc × Loc) := by
    conv_lhs => rw [← chop_range (T := K) h.k_c_pos, map_flatMap]
    simp only [map_map]
    rfl
  rw [e]
  unfold mvmTask
  apply Accum.flatMap
  intro k _
  have hd8 : r / 8 < mT M p 8 m_c m core / 8 := by
    obtain ⟨q, hq⟩ := mT_dvd (core := core) h hm
    rw [hq] at hr ⊢
    rw [Nat.mul_div_cancel_left _ (by omega)]
    omega
  have hrow : rowOf M p 8 m_c m core (r / 8 * 8) + r % 8 = rowOf M p 8 m_c m core r := by
    unfold rowOf; omega
  apply Accum.single nodup_range (x0 := r / 8) (mem_range.2 hd8)
  · have key := gemvKernel_acc ar (t := core)
      (A := (⟨.A, 0⟩ : Loc) +ₚ (k * k_c * M + rowOf M p 8 m_c m core (r / 8 * 8)))
      (B := (⟨.B, 0⟩ : Loc) +ₚ (k * k_c)) (C := (⟨.C, 0⟩ : Loc) +ₚ rowOf M p 8 m_c m core (r / 8 * 8))
      (by simp) (by simp) (by simp) (by simp) (by simp) (S := M) (k := chopLen K k_c k) (l := r % 8)
      (Nat.mod_lt _ (by omega))
    simp only [off_off] at key
    rw [hrow] at key
    simp only [Loc.off, Nat.zero_add] at key
    unfold mvmTile
    simp only [Loc.off, Nat.zero_add]
    refine (congrArg (Accum ar _ _ _) ?_).mp key
    apply map_congr_left
    intro kk _
    rw [← hrow]
    have : k * k_c * M + rowOf M p 8 m_c m core (r / 8 * 8) + (kk * M + r % 8) =
      (k * k_c + kk) * M + (rowOf M p 8 m_c m core (r / 8 * 8) + r % 8) := by ring
    rw [this]
  · intro m_reg h1 hne
    rw [mem_range] at h1
    refine Accum.none ?_ ?_
    · intro o ho e
      rcases mvmTile_dst o ho with d1 | ⟨i, hi, d1⟩
      · rw [e] at d1; simp at d1
      · rw [e] at d1
        simp only [Loc.off, Nat.zero_add, Loc.mk.injEq, true_and] at d1
        obtain ⟨_, _, e2⟩ := rowOf_inj (mvm_row h hm h1 hi) hr d1.symm
        omega
    · intro o ho hr
      rcases mvmTile_dst o ho with d1 | ⟨i, hi, d1⟩
      · exact hr.2 _ d1
      · exact hr.1 (by rw [d1, off_buf])

/-- The whole schedule adds the `K` products of one row, in order. -/
theorem mvm_acc {F : Type _} (ar : Arith F) {row : Nat} (hrow : row < M) :
    Accum ar mvmRo (phaseOps (schedule_mvm ⟨.A, 0⟩ ⟨.B, 0⟩ ⟨.C, 0⟩ M p 8 (dimsKMN M 0 K p 8 1 m_c k_c 1)))
      ⟨.C, row⟩ ((range K).map fun k => (⟨.A, k * M + row⟩, ⟨.B, k⟩)) := by
  obtain ⟨m, core, r, hm, hcore, hr, rfl⟩ := rowOf_cover h hrow
  rw [mvm_ops h]
  apply Accum.single nodup_range (mem_range.2 hm)
  · apply Accum.single nodup_range (mem_range.2 hcore)
    · exact mvmTask_acc h ar hm hr
    · intro c' _ hne
      exact mvmTask_none h ar hm hr (fun hh => hne hh.2)
  · intro m' h2 hne
    apply Accum.flatMap_none
    intro c' _
    exact mvmTask_none h ar (mem_range.1 h2) hr (fun hh => hne hh.1)

theorem mvm_dst (o : Op)
    (ho : o ∈ phaseOps (schedule_mvm ⟨.A, 0⟩ ⟨.B, 0⟩ ⟨.C, 0⟩ M p 8 (dimsKMN M 0 K p 8 1 m_c k_c 1))) :
    (∃ t, o.dst.buf = .reg t) ∨ ∃ row, row < padTo M (p * m_c) 8 ∧ o.dst = ⟨.C, row⟩ := by
  rw [mvm_ops h] at ho
  simp only [mem_flatMap, mem_range] at ho
  obtain ⟨m, hm, core, hcore, ho⟩ := ho
  rcases mvmTask_dst h hm o ho with d1 | ⟨r, g1, d1⟩
  · exact Or.inl ⟨_, d1⟩
  · exact Or.inr ⟨_, rowOf_lt g1, by rw [d1]; simp [Loc.off]⟩

omit h in
/-- The part of C that may be written. -/
def mvmX (P : Nat) : Loc → Prop := fun l => l.buf = .C ∧ l.idx < P

omit h in
/-- The result: every element of C has had its `K` products added in order. -/
def MvmDone {F : Type _} (ar : Arith F) (s0 : State F) (M K : Nat) (m : Mem F) (i : Loc → Bool) : Prop :=
  ∀ row, row < M → i ⟨.C, row⟩ = true ∧ m ⟨.C, row⟩ =
    (range K).foldl (fun acc k => ar.fma (s0.mem ⟨.A, k * M + row⟩) (s0.mem ⟨.B, k⟩) acc) (s0.mem ⟨.C, row⟩)

theorem workMvm_triple {F : Type _} {ar : Arith F} {s0 : State F} {sz : Buf → Option Nat}
    (hsz : ∀ b, s0.size b ≠ none → sz b = s0.size b)
    (hA : Holds s0 .A 1 (K * M + (padTo M (p * m_c) 8 - M))) (hB : Holds s0 .B 1 K)
    (hC : Holds s0 .C 1 (padTo M (p * m_c) 8)) (hreg : ∀ t, s0.size (.reg t) = none) :
    Triple ar (Env s0 sz noX (fun _ _ => True))
      (phases (schedule_mvm ⟨.A, 0⟩ ⟨.B, 0⟩ ⟨.C, 0⟩ M p 8 (dimsKMN M 0 K p 8 1 m_c k_c 1)))
      (Env s0 sz (mvmX (padTo M (p * m_c) 8)) (MvmDone ar s0 M K)) := by
  obtain ⟨⟨nA, hnA, hleA⟩, hiA⟩ := hA
  obtain ⟨⟨nB, hnB, hleB⟩, hiB⟩ := hB
  obtain ⟨⟨nC, hnC, hleC⟩, hiC⟩ := hC
  rw [Nat.one_mul] at hleA hleB hleC hiA hiB hiC
  have hsA : sz .A = some nA := by rw [hsz _ (by simp [hnA]), hnA]
  have hsB : sz .B = some nB := by rw [hsz _ (by simp [hnB]), hnB]
  have hsC : sz .C = some nC := by rw [hsz _ (by simp [hnC]), hnC]
  apply Env.phases
  · exact mvm_raceFree h
  · intro s hs
    apply mvm_safe h
    refine ⟨?_, ?_, ?_⟩
    · intro x hx
      refine ⟨inB_of hsA (by omega), ?_⟩
      rw [(hs.keep ⟨.A, x⟩ (by simp [hnA]) (fun h => h)).2]
      exact hiA x hx
    · intro x hx
      refine ⟨inB_of hsB (by omega), ?_⟩
      rw [(hs.keep ⟨.B, x⟩ (by simp [hnB]) (fun h => h)).2]
      exact hiB x hx
    · intro x hx
      refine ⟨inB_of hsC (by omega), ?_⟩
      rw [(hs.keep ⟨.C, x⟩ (by simp [hnC]) (fun h => h)).2]
      exact hiC x hx
  · intro s hs
    refine ⟨hs.size, ?_, ?_⟩
    · intro l hl hX
      have hno : ∀ o ∈ phaseOps (schedule_mvm ⟨.A, 0⟩ ⟨.B, 0⟩ ⟨.C, 0⟩ M p 8 (dimsKMN M 0 K p 8 1 m_c k_c 1)),
          o.dst ≠ l := by
        intro o ho e
        rcases mvm_dst h o ho with ⟨t, e'⟩ | ⟨row, g1, e'⟩
        · rw [e] at e'; rw [e'] at hl; exact hl (hreg t)
        · rw [e] at e'; exact hX ⟨by rw [e'], by rw [e']; exact g1⟩
      have := hs.keep l hl (fun h => h)
      exact ⟨(exec_frame ar _ _ _ hno).trans this.1, (initAfter_eq_of_not_dst hno).trans this.2⟩
    · intro row hrow
      have hkC := hs.keep ⟨.C, row⟩ (by simp [hnC]) (fun h => h)
      have hge : M ≤ padTo M (p * m_c) 8 := padTo_ge _ _ _ (by omega)
      refine ⟨?_, ?_⟩
      · apply initAfter_of_mem
        left
        rw [hkC.2]
        exact hiC _ (by omega)
      · refine ((mvm_acc h ar hrow).val s.mem).trans ?_
        rw [hkC.1, foldl_map]
        apply foldl_ext
        intro acc k _
        rw [(hs.keep ⟨.A, _⟩ (by simp [hnA]) (fun h => h)).1, (hs.keep ⟨.B, _⟩ (by simp [hnB]) (fun h => h)).1]

omit h in
theorem sgemv_prog (h : TileOK p m_r 1 m_c k_c 1) {F : Type _} (pk : Bool) (al be : F) (x : BlkDims) (A B C : Loc) :
    cake_sgemv A B C M K p m_r pk al be m_c k_c .KMN x =
      .ok ([.malloc .Blk 1, .malloc .Dims 1, .free .Dims] ++
        phases (schedule_mvm A B C M p m_r (dimsKMN M 0 K p m_r 1 m_c k_c 1)) ++ [.free .Blk]) := by
  obtain ⟨y, hy, e⟩ := mvm_dims (M := M) (K := K) h x
  unfold cake_sgemv
  rw [hy, ← e]
  rfl

/-- The whole call. -/
theorem sgemv_triple {F : Type _} {ar : Arith F} {s0 : State F}
    (hA : Holds s0 .A 1 (K * M + (padTo M (p * m_c) 8 - M))) (hB : Holds s0 .B 1 K)
    (hC : Holds s0 .C 1 (padTo M (p * m_c) 8))
    (hfr : ∀ b, b ≠ .A → b ≠ .B → b ≠ .C → b ≠ .Ctx → s0.size b = none) :
    Triple ar (· = s0) ([.malloc .Blk 1, .malloc .Dims 1, .free .Dims] ++
        phases (schedule_mvm ⟨.A, 0⟩ ⟨.B, 0⟩ ⟨.C, 0⟩ M p 8 (dimsKMN M 0 K p 8 1 m_c k_c 1)) ++ [.free .Blk])
      (Env s0 s0.size (mvmX (padTo M (p * m_c) 8)) (MvmDone ar s0 M K)) := by
  have hblk := hfr .Blk (by simp) (by simp) (by simp) (by simp)
  have hdims := hfr .Dims (by simp) (by simp) (by simp) (by simp)
  set sz1 := szSet s0.size .Blk (some 1) with hsz1
  have k1 : ∀ b, s0.size b ≠ none → sz1 b = s0.size b := by
    intro b hb
    rw [hsz1, szSet_ne]
    rintro rfl; exact hb hblk
  have t1 := dims_triple (F := ar) hblk hdims
  have t3 := workMvm_triple (ar := ar) (k_c := k_c) h k1 hA hB hC
    (fun t => hfr _ (by simp) (by simp) (by simp) (by simp))
  have t5 := Env.free (F := ar) (s0 := s0) (sz := sz1) (X := mvmX (padTo M (p * m_c) 8))
    (P := MvmDone ar s0 M K) .Blk (by rw [hsz1, szSet_self]; simp)
  refine (Triple.seq (Triple.seq t1 t3) t5).conseq (fun _ h => h) ?_
  intro s hs
  refine ⟨?_, hs.keep, hs.fact⟩
  rw [hs.size, hsz1]
  funext b
  unfold szSet
  by_cases h1 : b = .Blk
  · subst h1; simp [hblk]
  · simp [h1]

end
end Cake
