/-
Packing of the filters: operations in sequential order, destinations, values.
-/
import Verif.Model.Conv
import Verif.Proofs.SchedK

namespace Cake
open List

/-- One packing operation: row `r` of the strip, tap `ker`, channel `i` of the block. -/
def packFOp (A A_p : Loc) (M K m1 m_r k r ker i : Nat) : Op :=
  if m1 + r ≥ M then Op.zero (A_p +ₚ aIdx m_r (9 * k) r (ker * k + i))
  else Op.copy (A_p +ₚ aIdx m_r (9 * k) r (ker * k + i)) (A +ₚ (r * K + (i * 9 + ker)))

theorem packFOp_dst (A A_p : Loc) (M K m1 m_r k r ker i : Nat) :
    (packFOp A A_p M K m1 m_r k r ker i).dst = A_p +ₚ aIdx m_r (9 * k) r (ker * k + i) := by
  unfold packFOp; split <;> rfl

theorem packObF_eq (A A_p : Loc) (M K m1 m2 q k m_r : Nat) (hm : 0 < m_r) :
    pack_ob_A_single_buf_conv A A_p M K m1 m2 (q * m_r) k m_r =
      (range q).flatMap fun t => (range 9).flatMap fun ker => (range k).flatMap fun i =>
        (range m_r).flatMap fun j =>
        [if m1 + m2 + t * m_r + j ≥ M then
            Op.zero (A_p +ₚ (0 + (t * (9 * (k * m_r)) + (ker * (k * m_r) + (i * m_r + j)))))
          else Op.copy (A_p +ₚ (0 + (t * (9 * (k * m_r)) + (ker * (k * m_r) + (i * m_r + j)))))
            (A +ₚ (t * m_r * K + i * 3 * 3 + ker + j * K))] := by
  unfold pack_ob_A_single_buf_conv
  have := loop4_eq q m_r 9 1 k m_r 0 hm (by omega) (fun m3 ker i j ind_ob =>
      [if m1 + m2 + m3 + j ≥ M then Op.zero (A_p +ₚ ind_ob)
        else Op.copy (A_p +ₚ ind_ob) (A +ₚ (m3 * K + i * 3 * 3 + ker + j * K))])
  simp only [Nat.mul_one] at this
  simp only [show 3 * 3 = 9 from rfl]
  rw [this]

theorem packObF_seqW (A A_p : Loc) (M K m1 m2 k m_r m_c : Nat) (hm : 0 < m_r) (hd : m_r ∣ m_c) :
    SeqW A_p.buf A_p.idx (m_c * (9 * k)) (pack_ob_A_single_buf_conv A A_p M K m1 m2 m_c k m_r) := by
  obtain ⟨q, rfl⟩ := hd
  rw [Nat.mul_comm m_r q, packObF_eq _ _ _ _ _ _ _ _ _ hm]
  have := seqW4 (b := A_p.buf) (base := A_p.idx) (q := q) (q' := 9) (k := k) (r := m_r)
    (f := fun t ker i j => if m1 + m2 + t * m_r + j ≥ M then
            Op.zero (A_p +ₚ (0 + (t * (9 * (k * m_r)) + (ker * (k * m_r) + (i * m_r + j)))))
          else Op.copy (A_p +ₚ (0 + (t * (9 * (k * m_r)) + (ker * (k * m_r) + (i * m_r + j)))))
            (A +ₚ (t * m_r * K + i * 3 * 3 + ker + j * K)))
    (by intro t u i j; split <;> simp [Op.dst, Loc.off])
  have e : q * (9 * (k * m_r)) = q * m_r * (9 * k) := by ring
  rwa [e] at this

theorem packObF_mem (A A_p : Loc) (M K m1 m2 k m_r m_c : Nat) (hm : 0 < m_r) (hd : m_r ∣ m_c)
    (o : Op) : o ∈ pack_ob_A_single_buf_conv A A_p M K m1 m2 m_c k m_r ↔
      ∃ r ker i, r < m_c ∧ ker < 9 ∧ i < k ∧ o = packFOp A A_p M K (m1 + m2) m_r k r ker i := by
  obtain ⟨q, rfl⟩ := hd
  rw [Nat.mul_comm m_r q, packObF_eq _ _ _ _ _ _ _ _ _ hm]
  have key : ∀ t ker i j, j < m_r →
      (if m1 + m2 + t * m_r + j ≥ M then
            Op.zero (A_p +ₚ (0 + (t * (9 * (k * m_r)) + (ker * (k * m_r) + (i * m_r + j)))))
          else Op.copy (A_p +ₚ (0 + (t * (9 * (k * m_r)) + (ker * (k * m_r) + (i * m_r + j)))))
            (A +ₚ (t * m_r * K + i * 3 * 3 + ker + j * K))) =
      packFOp A A_p M K (m1 + m2) m_r k (t * m_r + j) ker i := by
    intro t ker i j hj
    unfold packFOp aIdx
    rw [mulAdd_div hj, mulAdd_mod hj]
    have e1 : 0 + (t * (9 * (k * m_r)) + (ker * (k * m_r) + (i * m_r + j))) =
        t * (9 * k * m_r) + ((ker * k + i) * m_r + j) := by ring
    have e2 : t * m_r * K + i * 3 * 3 + ker + j * K = (t * m_r + j) * K + (i * 9 + ker) := by ring
    rw [e1, e2]
    simp only [Nat.add_assoc]
  simp only [mem_flatMap, mem_range, mem_singleton]
  constructor
  · rintro ⟨t, ht, ker, hker, i, hi, j, hj, rfl⟩
    exact ⟨t * m_r + j, ker, i, mulAdd_lt ht hj, hker, hi, key t ker i j hj⟩
  · rintro ⟨r, ker, i, hr, hker, hi, rfl⟩
    refine ⟨r / m_r, div_lt_of_lt_mul' hr, ker, hker, i, hi, r % m_r, Nat.mod_lt _ hm, ?_⟩
    rw [key _ _ _ _ (Nat.mod_lt _ hm), divmod_eq]

section
variable {M K C p m_r n_r m_c k_c n_c N : Nat} (h : TileOK p m_r n_r m_c k_c n_c)

def packFStrip (A A_p : Loc) (M K C p m_r m_c k_c m k core : Nat) : List Op :=
  pack_ob_A_single_buf_conv (A +ₚ (m * p * m_c * K + k * k_c * 9 + core * mX M p m_r m_c m * K))
    (A_p +ₚ 9 * aInd M C p m_r m_c k_c m k core) M K (m * p * m_c) (core * mX M p m_r m_c m)
    (mT M p m_r m_c m core) (chopLen C k_c k) m_r

include h

/-- `M` rows, `C` channels; the rows of the caller's filters are `K` apart. -/
theorem packF_phases (A A_p : Loc) :
    pack_filters A A_p M K p m_r (dimsKMN M N C p m_r n_r m_c k_c n_c) =
      (range (cdiv M (p * m_c))).flatMap fun m => (range (cdiv C k_c)).flatMap fun k =>
        [(range (mU M p m_r m_c m)).map fun core => packFStrip A A_p M K C p m_r m_c k_c m k core] := by
  unfold pack_filters
  rw [kmn_Mb h, kmn_Kb h]
  have hpad : (dimsKMN M N C p m_r n_r m_c k_c n_c).m_pad = (M % (p * m_c) != 0) := rfl
  have hkpad : (dimsKMN M N C p m_r n_r m_c k_c n_c).k_pad = (C % k_c != 0) := rfl
  have hmc : (dimsKMN M N C p m_r n_r m_c k_c n_c).m_c = m_c := rfl
  have hmr : (dimsKMN M N C p m_r n_r m_c k_c n_c).mr_rem = cdiv (M % (p * m_c)) m_r := rfl
  have hkc : (dimsKMN M N C p m_r n_r m_c k_c n_c).k_c = k_c := rfl
  have hkc1 : (dimsKMN M N C p m_r n_r m_c k_c n_c).k_c1 = C % k_c := rfl
  rw [hpad, hkpad, hmc, hmr, hkc, hkc1]
  have hlen : ∀ m, m < cdiv M (p * m_c) →
      (if (m == cdiv M (p * m_c) - 1 && M % (p * m_c) != 0) = true then
        m_r * cdiv (M % (p * m_c)) m_r
       else (if (m == cdiv M (p * m_c) - 1 && M % (p * m_c) != 0) = true then
        (dimsKMN M N C p m_r n_r m_c k_c n_c).p_l else p) * m_c) = mLen M p m_r m_c m := by
    intro m hm
    rw [← m_len h hm]
    split <;> rfl
  have inner : ∀ (g : Nat → Nat → List (List Op)) m s, m < cdiv M (p * m_c) →
      loopS (range (cdiv C k_c)) (fun k A_p_offset => ([g k A_p_offset], A_p_offset +
        (if (m == cdiv M (p * m_c) - 1 && M % (p * m_c) != 0) = true then
        m_r * cdiv (M % (p * m_c)) m_r
       else (if (m == cdiv M (p * m_c) - 1 && M % (p * m_c) != 0) = true then
        (dimsKMN M N C p m_r n_r m_c k_c n_c).p_l else p) * m_c) *
        (if (k == cdiv C k_c - 1 && C % k_c != 0) = true then C % k_c else k_c) * 3 * 3)) s =
      ((range (cdiv C k_c)).flatMap fun k => [g k (s + 9 * (mLen M p m_r m_c m * chopOff C k_c k))],
        s + 9 * (mLen M p m_r m_c m * C)) := by
    intro g m s hm
    rw [loopS_range_var _ (fun k => 9 * (mLen M p m_r m_c m * chopOff C k_c k))]
    · rw [chopOff_end h.k_c_pos]
    · intro k hk
      simp only
      rw [hlen m hm, k_len h.k_c_pos hk, chopOff_succ]; ring
    · simp [chopOff_zero]
  have houter := fun body => loopS_range_var (γ := List (List Op)) body
    (fun m => 9 * (chopOff (padTo M (p * m_c) m_r) (p * m_c) m * C)) (cdiv M (p * m_c)) 0
  change (loopS (range (cdiv M (p * m_c))) _ 0).1 = _
  rw [houter]
  · simp only
    apply flatMap_congr
    intro m hm
    rw [mem_range] at hm
    rw [inner _ m _ hm]
    simp only
    apply flatMap_congr
    intro k hk
    rw [mem_range] at hk
    obtain ⟨_, _, _, h4, _, h6⟩ := m_strips (N := N) (K := C) h hm
    rw [h4]
    congr 1
    apply map_congr_left
    intro core hcore
    rw [mem_range] at hcore
    unfold packFStrip aInd mT
    rw [h6 core hcore, k_len h.k_c_pos hk]
    have hx : (if (m == cdiv M (p * m_c) - 1 && M % (p * m_c) != 0) = true then
        (dimsKMN M N C p m_r n_r m_c k_c n_c).m_c1 else m_c) = mX M p m_r m_c m := rfl
    rw [hx, chopOff_eq h.S_pos (by rwa [← mb_eq h]), chopOff_eq h.k_c_pos hk]
    congr 2 <;> ring
  · intro m hm
    simp only
    rw [inner _ m _ hm, chopOff_succ]
    simp only [mLen]
    ring
  · simp [chopOff_zero]

theorem packF_ops (A A_p : Loc) :
    phaseOps (pack_filters A A_p M K p m_r (dimsKMN M N C p m_r n_r m_c k_c n_c)) =
      (range (cdiv M (p * m_c))).flatMap fun m => (range (cdiv C k_c)).flatMap fun k =>
        (range (mU M p m_r m_c m)).flatMap fun core => packFStrip A A_p M K C p m_r m_c k_c m k core := by
  rw [packF_phases h, phaseOps_flatMap]
  apply flatMap_congr
  intro m _
  rw [phaseOps_flatMap]
  apply flatMap_congr
  intro k _
  simp [List.flatMap_def]

/-- The packed filters are written consecutively: `M_padded * 9*C` elements. -/
theorem packF_seqW (A A_p : Loc) :
    SeqW A_p.buf A_p.idx (padTo M (p * m_c) m_r * (9 * C))
      (phaseOps (pack_filters A A_p M K p m_r (dimsKMN M N C p m_r n_r m_c k_c n_c))) := by
  rw [packF_ops h, mb_eq h]
  apply SeqW.chop h.S_pos
  intro m hm
  rw [← mb_eq h] at hm
  have e1 : chopLen (padTo M (p * m_c) m_r) (p * m_c) m * (9 * C) = C * (9 * mLen M p m_r m_c m) := by
    unfold mLen; ring
  rw [e1]
  apply SeqW.chop h.k_c_pos
  intro k hk
  have e2 : chopLen C k_c k * (9 * mLen M p m_r m_c m) = mLen M p m_r m_c m * (9 * chopLen C k_c k) := by
    ring
  rw [e2]
  apply SeqW.chop (m_strips (N := N) (K := C) h hm).1
  intro core hcore
  have := packObF_seqW (A +ₚ (m * p * m_c * K + k * k_c * 9 + core * mX M p m_r m_c m * K))
    (A_p +ₚ 9 * aInd M C p m_r m_c k_c m k core) M K (m * p * m_c) (core * mX M p m_r m_c m)
    (chopLen C k_c k) m_r _ h.m_r_pos (mT_dvd h hm (core := core))
  have e : (A_p +ₚ 9 * aInd M C p m_r m_c k_c m k core).idx =
      A_p.idx + m * (p * m_c) * (9 * C) + k * k_c * (9 * mLen M p m_r m_c m) +
        core * mX M p m_r m_c m * (9 * chopLen C k_c k) := by
    simp only [off_idx, aInd]; ring
  rw [off_buf, e] at this
  exact this

theorem packF_mem (A A_p : Loc) (o : Op) :
    o ∈ phaseOps (pack_filters A A_p M K p m_r (dimsKMN M N C p m_r n_r m_c k_c n_c)) ↔
      ∃ m k core r ker i, m < cdiv M (p * m_c) ∧ k < cdiv C k_c ∧ core < mU M p m_r m_c m ∧
        r < mT M p m_r m_c m core ∧ ker < 9 ∧ i < chopLen C k_c k ∧
        o = packFOp (A +ₚ (m * p * m_c * K + k * k_c * 9 + core * mX M p m_r m_c m * K))
          (A_p +ₚ 9 * aInd M C p m_r m_c k_c m k core) M K (m * p * m_c + core * mX M p m_r m_c m) m_r
          (chopLen C k_c k) r ker i := by
  rw [packF_ops h]
  simp only [mem_flatMap, mem_range, packFStrip]
  constructor
  · rintro ⟨m, hm, k, hk, core, hcore, ho⟩
    rw [packObF_mem _ _ _ _ _ _ _ _ _ h.m_r_pos (mT_dvd h hm)] at ho
    obtain ⟨r, ker, i, hr, hker, hi, rfl⟩ := ho
    exact ⟨m, k, core, r, ker, i, hm, hk, hcore, hr, hker, hi, rfl⟩
  · rintro ⟨m, k, core, r, ker, i, hm, hk, hcore, hr, hker, hi, rfl⟩
    refine ⟨m, hm, k, hk, core, hcore, ?_⟩
    rw [packObF_mem _ _ _ _ _ _ _ _ _ h.m_r_pos (mT_dvd h hm)]
    exact ⟨r, ker, i, hr, hker, hi, rfl⟩

/-- The source of a packing operation. -/
theorem packF_reads (A A_p : Loc) (hK : K = C * 9) (o : Op)
    (ho : o ∈ phaseOps (pack_filters A A_p M K p m_r (dimsKMN M N C p m_r n_r m_c k_c n_c)))
    (l : Loc) (hl : l ∈ o.reads) : ∃ x, x < M * K ∧ l = A +ₚ x := by
  obtain ⟨m, k, core, r, ker, i, hm, hk, hcore, hr, hker, hi, rfl⟩ := (packF_mem h A A_p o).1 ho
  unfold packFOp at hl
  split at hl
  · simp [Op.reads] at hl
  · rename_i hlt
    simp only [Op.reads, mem_singleton] at hl
    have hi' := mulAdd_lt (chop_bound hi) hker
    refine ⟨(m * p * m_c + core * mX M p m_r m_c m + r) * K + ((k * k_c + i) * 9 + ker),
      mulAdd_lt (by omega) (by rw [hK]; exact hi'), ?_⟩
    rw [hl, off_off]
    congr 1
    ring

/-- Value of each packed element. -/
theorem packF_val {α : Type _} (F : Arith α) (A A_p : Loc) (hb : A.buf ≠ A_p.buf) (mem : Mem α)
    {m k core r ker i : Nat} (hm : m < cdiv M (p * m_c)) (hk : k < cdiv C k_c)
    (hcore : core < mU M p m_r m_c m) (hr : r < mT M p m_r m_c m core) (hker : ker < 9)
    (hi : i < chopLen C k_c k) :
    exec F (phaseOps (pack_filters A A_p M K p m_r (dimsKMN M N C p m_r n_r m_c k_c n_c))) mem
      (A_p +ₚ (9 * aInd M C p m_r m_c k_c m k core +
        aIdx m_r (9 * chopLen C k_c k) r (ker * chopLen C k_c k + i))) =
    if rowOf M p m_r m_c m core r ≥ M then F.zero
    else mem (A +ₚ (rowOf M p m_r m_c m core r * K + ((k * k_c + i) * 9 + ker))) := by
  have hin := (packF_mem (N := N) (K := K) h A A_p _).2
    ⟨m, k, core, r, ker, i, hm, hk, hcore, hr, hker, hi, rfl⟩
  have hrd : ∀ o ∈ phaseOps (pack_filters A A_p M K p m_r (dimsKMN M N C p m_r n_r m_c k_c n_c)),
      ∀ l ∈ o.reads, l.buf = A.buf := by
    intro o ho l hl
    obtain ⟨m, k, core, r, ker, i, _, _, _, _, _, _, rfl⟩ := (packF_mem h A A_p o).1 ho
    unfold packFOp at hl
    split at hl
    · simp [Op.reads] at hl
    · simp only [Op.reads, mem_singleton] at hl
      rw [hl]; rfl
  have := exec_mem F _ mem _ hin (packF_seqW (N := N) h A A_p).nodup (by
    intro l hl o' ho' e
    have h1 := hrd _ hin l hl
    have := ((packF_seqW (N := N) h A A_p).dst_of_mem ho').1
    rw [e] at this
    exact hb (h1.symm.trans this))
  rw [packFOp_dst, off_off] at this
  rw [this]
  unfold packFOp rowOf
  have e : m * p * m_c + core * mX M p m_r m_c m + r = m * (p * m_c) + (core * mX M p m_r m_c m + r) := by
    ring
  rw [e]
  split
  · rfl
  · simp only [Op.val, off_off]
    congr 2
    ring

end
end Cake
