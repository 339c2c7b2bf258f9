/-
K-first packing and unpacking of C (`pack_C_single_buf_k_first`, `unpack_C_single_buf_k_first`).
-/
import Verif.Proofs.PackSh

namespace Cake
open List

section
variable {M N K p m_r n_r m_c k_c n_c : Nat} (h : TileOK p m_r n_r m_c k_c n_c)

/-- Offset of strip `core` of block `(n, m)` in the packed C. -/
def cInd (M N p m_r n_r m_c n_c n m core : Nat) : Nat :=
  n * n_c * padTo M (p * m_c) m_r +
    (m * (p * m_c) * nLen N n_r n_c n + core * mX M p m_r m_c m * nLen N n_r n_c n)

/-- Origin of strip `core` of block `(n, m)` in C. -/
def cOrg (M N p m_r m_c n_c n m core : Nat) : Nat :=
  m * p * m_c * N + n * n_c + core * mX M p m_r m_c m * N

def packCStrip (C C_p : Loc) (M N p m_r n_r m_c n_c n m core : Nat) : List Op :=
  pack_ob_C_single_buf (C +ₚ cOrg M N p m_r m_c n_c n m core)
    (C_p +ₚ cInd M N p m_r n_r m_c n_c n m core) M N (m * p * m_c) (n * n_c) (core * mX M p m_r m_c m)
    (mT M p m_r m_c m core) (nLen N n_r n_c n) m_r n_r
    ((m == cdiv M (p * m_c) - 1 && M % (p * m_c) != 0) && core == mU M p m_r m_c m - 1)
    (n == cdiv N n_c - 1 && N % n_c != 0)

def unpackCStrip (C C_p : Loc) (M N p m_r n_r m_c n_c n m core : Nat) : List Op :=
  unpack_ob_C_single_buf (C +ₚ cOrg M N p m_r m_c n_c n m core)
    (C_p +ₚ cInd M N p m_r n_r m_c n_c n m core) M N (m * p * m_c) (n * n_c) (core * mX M p m_r m_c m)
    (mT M p m_r m_c m core) (nLen N n_r n_c n) m_r n_r

include h

omit h in
/-- First element of a block, as the code computes it. -/
theorem blk_org {T S i : Nat} (hS : 0 < S) :
    (if (i == cdiv T S - 1 && T % S != 0) = true then T - T % S else i * S) = i * S := by
  split
  · rename_i hl
    simp only [Bool.and_eq_true, beq_iff_eq] at hl
    rw [sub_mod_eq]
    have := cdiv_eq_div_add T S hS
    rw [hl.2] at this
    simp only [Bool.toNat_true] at this
    have h2 : T / S = i := by rw [hl.1]; exact Nat.eq_sub_of_add_eq this
    rw [h2]
  · rfl

theorem packC_phases (C C_p : Loc) :
    pack_C_k_first C C_p M N p m_r n_r (dimsKMN M N K p m_r n_r m_c k_c n_c) =
      (range (cdiv N n_c)).flatMap fun n => (range (cdiv M (p * m_c))).flatMap fun m =>
        [(range (mU M p m_r m_c m)).map fun core =>
          packCStrip C C_p M N p m_r n_r m_c n_c n m core] := by
  unfold pack_C_k_first
  rw [kmn_Mb h, kmn_Nb h]
  have hpad : (dimsKMN M N K p m_r n_r m_c k_c n_c).m_pad = (M % (p * m_c) != 0) := rfl
  have hnpad : (dimsKMN M N K p m_r n_r m_c k_c n_c).n_pad = (N % n_c != 0) := rfl
  have hmc : (dimsKMN M N K p m_r n_r m_c k_c n_c).m_c = m_c := rfl
  have hmr : (dimsKMN M N K p m_r n_r m_c k_c n_c).mr_rem = cdiv (M % (p * m_c)) m_r := rfl
  have hnc : (dimsKMN M N K p m_r n_r m_c k_c n_c).n_c = n_c := rfl
  have hnc1 : (dimsKMN M N K p m_r n_r m_c k_c n_c).n_c1 = cdiv (N % n_c) n_r * n_r := rfl
  rw [hpad, hnpad, hmc, hmr, hnc, hnc1]
  have hlen : ∀ m, m < cdiv M (p * m_c) →
      (if (m == cdiv M (p * m_c) - 1 && M % (p * m_c) != 0) = true then
        m_r * cdiv (M % (p * m_c)) m_r
       else (if (m == cdiv M (p * m_c) - 1 && M % (p * m_c) != 0) = true then
        (dimsKMN M N K p m_r n_r m_c k_c n_c).p_l else p) * m_c) = mLen M p m_r m_c m := by
    intro m hm
    rw [← m_len h hm]
    split <;> rfl
  have key := loop_chop2 (γ := List (List Op)) (T := padTo N n_c n_r) (s := n_c)
    (T' := padTo M (p * m_c) m_r) (s' := p * m_c) h.n_c_pos h.S_pos
    (fun n m => (if (m == cdiv M (p * m_c) - 1 && M % (p * m_c) != 0) = true then
        m_r * cdiv (M % (p * m_c)) m_r
       else (if (m == cdiv M (p * m_c) - 1 && M % (p * m_c) != 0) = true then
        (dimsKMN M N K p m_r n_r m_c k_c n_c).p_l else p) * m_c) *
      (if (n == cdiv N n_c - 1 && N % n_c != 0) = true then cdiv (N % n_c) n_r * n_r else n_c))
    (by
      intro n m hn hm
      rw [← nb_eq h] at hn
      rw [← mb_eq h] at hm
      rw [hlen m hm, n_len h hn, Nat.mul_comm]; rfl)
  rw [← nb_eq h, ← mb_eq h] at key
  rw [key]
  apply flatMap_congr
  intro n hn
  rw [mem_range] at hn
  apply flatMap_congr
  intro m hm
  rw [mem_range] at hm
  obtain ⟨_, _, _, h4, _, h6⟩ := m_strips (N := N) (K := K) (k_c := k_c) (n_r := n_r) (n_c := n_c) h hm
  have hx : (if (m == cdiv M (p * m_c) - 1 && M % (p * m_c) != 0) = true then
        (dimsKMN M N K p m_r n_r m_c k_c n_c).m_c1 else m_c) = mX M p m_r m_c m := rfl
  have hm1 : (if (m == cdiv M (p * m_c) - 1 && M % (p * m_c) != 0) = true then M - M % (p * m_c)
      else m * p * m_c) = m * p * m_c := by
    rw [Nat.mul_assoc m, blk_org h.S_pos]
  rw [h4, hx, hm1, blk_org h.n_c_pos, n_len h hn]
  congr 1
  apply map_congr_left
  intro core hcore
  rw [mem_range] at hcore
  rw [h6 core hcore]
  unfold packCStrip cInd cOrg mT nLen
  have hu : ((m == cdiv M (p * m_c) - 1 && M % (p * m_c) != 0) &&
      core == (dimsKMN M N K p m_r n_r m_c k_c n_c).p_l - 1) =
      ((m == cdiv M (p * m_c) - 1 && M % (p * m_c) != 0) && core == mU M p m_r m_c m - 1) := by
    cases hl : (m == cdiv M (p * m_c) - 1 && M % (p * m_c) != 0) with
    | false => rfl
    | true => rw [hl] at h4; simp only [if_true] at h4; rw [h4]; rfl
  rw [hu]
  simp only [Nat.add_assoc]

theorem unpackC_phases (C C_p : Loc) :
    unpack_C_k_first C C_p M N p m_r n_r (dimsKMN M N K p m_r n_r m_c k_c n_c) =
      (range (cdiv N n_c)).flatMap fun n => (range (cdiv M (p * m_c))).flatMap fun m =>
        [(range (mU M p m_r m_c m)).map fun core =>
          unpackCStrip C C_p M N p m_r n_r m_c n_c n m core] := by
  unfold unpack_C_k_first
  rw [kmn_Mb h, kmn_Nb h]
  have hpad : (dimsKMN M N K p m_r n_r m_c k_c n_c).m_pad = (M % (p * m_c) != 0) := rfl
  have hnpad : (dimsKMN M N K p m_r n_r m_c k_c n_c).n_pad = (N % n_c != 0) := rfl
  have hmc : (dimsKMN M N K p m_r n_r m_c k_c n_c).m_c = m_c := rfl
  have hmr : (dimsKMN M N K p m_r n_r m_c k_c n_c).mr_rem = cdiv (M % (p * m_c)) m_r := rfl
  have hnc : (dimsKMN M N K p m_r n_r m_c k_c n_c).n_c = n_c := rfl
  have hnc1 : (dimsKMN M N K p m_r n_r m_c k_c n_c).n_c1 = cdiv (N % n_c) n_r * n_r := rfl
  rw [hpad, hnpad, hmc, hmr, hnc, hnc1]
  have hlen : ∀ m, m < cdiv M (p * m_c) →
      (if (m == cdiv M (p * m_c) - 1 && M % (p * m_c) != 0) = true then
        m_r * cdiv (M % (p * m_c)) m_r
       else (if (m == cdiv M (p * m_c) - 1 && M % (p * m_c) != 0) = true then
        (dimsKMN M N K p m_r n_r m_c k_c n_c).p_l else p) * m_c) = mLen M p m_r m_c m := by
    intro m hm
    rw [← m_len h hm]
    split <;> rfl
  have key := loop_chop2 (γ := List (List Op)) (T := padTo N n_c n_r) (s := n_c)
    (T' := padTo M (p * m_c) m_r) (s' := p * m_c) h.n_c_pos h.S_pos
    (fun n m => (if (m == cdiv M (p * m_c) - 1 && M % (p * m_c) != 0) = true then
        m_r * cdiv (M % (p * m_c)) m_r
       else (if (m == cdiv M (p * m_c) - 1 && M % (p * m_c) != 0) = true then
        (dimsKMN M N K p m_r n_r m_c k_c n_c).p_l else p) * m_c) *
      (if (n == cdiv N n_c - 1 && N % n_c != 0) = true then cdiv (N % n_c) n_r * n_r else n_c))
    (by
      intro n m hn hm
      rw [← nb_eq h] at hn
      rw [← mb_eq h] at hm
      rw [hlen m hm, n_len h hn, Nat.mul_comm]; rfl)
  rw [← nb_eq h, ← mb_eq h] at key
  rw [key]
  apply flatMap_congr
  intro n hn
  rw [mem_range] at hn
  apply flatMap_congr
  intro m hm
  rw [mem_range] at hm
  obtain ⟨_, _, _, h4, _, h6⟩ := m_strips (N := N) (K := K) (k_c := k_c) (n_r := n_r) (n_c := n_c) h hm
  have hx : (if (m == cdiv M (p * m_c) - 1 && M % (p * m_c) != 0) = true then
        (dimsKMN M N K p m_r n_r m_c k_c n_c).m_c1 else m_c) = mX M p m_r m_c m := rfl
  have hm1 : (if (m == cdiv M (p * m_c) - 1 && M % (p * m_c) != 0) = true then M - M % (p * m_c)
      else m * p * m_c) = m * p * m_c := by
    rw [Nat.mul_assoc m, blk_org h.S_pos]
  rw [h4, hx, hm1, blk_org h.n_c_pos, n_len h hn]
  congr 1
  apply map_congr_left
  intro core hcore
  rw [mem_range] at hcore
  rw [h6 core hcore]
  unfold unpackCStrip cInd cOrg mT nLen
  simp only [Nat.add_assoc]

theorem packC_ops (C C_p : Loc) :
    phaseOps (pack_C_k_first C C_p M N p m_r n_r (dimsKMN M N K p m_r n_r m_c k_c n_c)) =
      (range (cdiv N n_c)).flatMap fun n => (range (cdiv M (p * m_c))).flatMap fun m =>
        (range (mU M p m_r m_c m)).flatMap fun core =>
          packCStrip C C_p M N p m_r n_r m_c n_c n m core := by
  rw [packC_phases h, phaseOps_flatMap]
  apply flatMap_congr
  intro m _
  rw [phaseOps_flatMap]
  apply flatMap_congr
  intro k _
  simp [List.flatMap_def]

theorem unpackC_ops (C C_p : Loc) :
    phaseOps (unpack_C_k_first C C_p M N p m_r n_r (dimsKMN M N K p m_r n_r m_c k_c n_c)) =
      (range (cdiv N n_c)).flatMap fun n => (range (cdiv M (p * m_c))).flatMap fun m =>
        (range (mU M p m_r m_c m)).flatMap fun core =>
          unpackCStrip C C_p M N p m_r n_r m_c n_c n m core := by
  rw [unpackC_phases h, phaseOps_flatMap]
  apply flatMap_congr
  intro m _
  rw [phaseOps_flatMap]
  apply flatMap_congr
  intro k _
  simp [List.flatMap_def]

/-- The packed C is written consecutively. -/
theorem packC_seqW (C C_p : Loc) :
    SeqW C_p.buf C_p.idx (padTo M (p * m_c) m_r * padTo N n_c n_r)
      (phaseOps (pack_C_k_first C C_p M N p m_r n_r (dimsKMN M N K p m_r n_r m_c k_c n_c))) := by
  rw [packC_ops h, nb_eq h, Nat.mul_comm]
  apply SeqW.chop h.n_c_pos
  intro n hn
  rw [mb_eq h, Nat.mul_comm (chopLen _ _ _)]
  apply SeqW.chop h.S_pos
  intro m hm
  rw [← mb_eq h] at hm
  apply SeqW.chop (m_strips (N := N) (K := K) h hm).1
  intro core hcore
  have := packObC_seqW (C +ₚ cOrg M N p m_r m_c n_c n m core)
    (C_p +ₚ cInd M N p m_r n_r m_c n_c n m core) M N (m * p * m_c) (n * n_c) (core * mX M p m_r m_c m)
    (mT M p m_r m_c m core) (nLen N n_r n_c n) m_r n_r
    ((m == cdiv M (p * m_c) - 1 && M % (p * m_c) != 0) && core == mU M p m_r m_c m - 1)
    (n == cdiv N n_c - 1 && N % n_c != 0) h.m_r_pos h.n_r_pos (mT_dvd h hm) (nLen_dvd h)
  have e : (C_p +ₚ cInd M N p m_r n_r m_c n_c n m core).idx =
      C_p.idx + n * n_c * padTo M (p * m_c) m_r + m * (p * m_c) * nLen N n_r n_c n +
        core * mX M p m_r m_c m * nLen N n_r n_c n := by
    simp only [off_idx, cInd]; ring
  rw [off_buf, e] at this
  exact this

/-- A strip that is not the ragged last one lies inside the matrix. -/
theorem strip_full {m core : Nat} (hm : m < cdiv M (p * m_c)) (hc : core < mU M p m_r m_c m)
    (hl : ((m == cdiv M (p * m_c) - 1 && M % (p * m_c) != 0) && core == mU M p m_r m_c m - 1) = false) :
    m * p * m_c + core * mX M p m_r m_c m + mT M p m_r m_c m core ≤ M := by
  have hX := (m_strips (N := 0) (K := 0) h hm).1
  have hb : core * mX M p m_r m_c m + mT M p m_r m_c m core ≤ mLen M p m_r m_c m := chop_bound' hX hc
  rw [Nat.mul_assoc m]
  by_cases hlast : (m == cdiv M (p * m_c) - 1 && M % (p * m_c) != 0) = true
  · rw [hlast, Bool.true_and, beq_eq_false_iff_ne] at hl
    have hlt := chop_mul_lt (i := core + 1) hX (show core + 1 < mU M p m_r m_c m by omega)
    have hd1 : m_r ∣ (core + 1) * mX M p m_r m_c m :=
      Dvd.dvd.mul_left (m_strips (N := 0) (K := 0) h hm).2.2.1 _
    have hd2 : m_r ∣ mLen M p m_r m_c m := chopLen_dvd (padTo_dvd h.S_dvd) h.S_dvd
    have hge : m_r ≤ mLen M p m_r m_c m - (core + 1) * mX M p m_r m_c m :=
      Nat.le_of_dvd (by omega) (Nat.dvd_sub hd2 hd1)
    have hT : mT M p m_r m_c m core ≤ mX M p m_r m_c m := chopLen_le _ _ _
    have hM := padTo_lt M (p * m_c) m_r h.m_r_pos
    have hP : m * (p * m_c) + mLen M p m_r m_c m ≤ padTo M (p * m_c) m_r :=
      chop_bound' h.S_pos (by rwa [← mb_eq h])
    rw [Nat.add_mul] at hlt hge
    omega
  · have := full_in h.S_pos h.m_r_pos h.S_dvd hm (by simpa using hlast)
    have e : sL M (p * m_c) m_r m = mLen M p m_r m_c m := rfl
    omega

theorem packC_mem (C C_p : Loc) (o : Op) :
    o ∈ phaseOps (pack_C_k_first C C_p M N p m_r n_r (dimsKMN M N K p m_r n_r m_c k_c n_c)) ↔
      ∃ n m core r c, n < cdiv N n_c ∧ m < cdiv M (p * m_c) ∧ core < mU M p m_r m_c m ∧
        r < mT M p m_r m_c m core ∧ c < nLen N n_r n_c n ∧
        o = packCOp (C +ₚ cOrg M N p m_r m_c n_c n m core)
          (C_p +ₚ cInd M N p m_r n_r m_c n_c n m core) M N (m * p * m_c + core * mX M p m_r m_c m)
          (n * n_c) m_r n_r (mT M p m_r m_c m core) r c := by
  rw [packC_ops h]
  simp only [mem_flatMap, mem_range, packCStrip]
  have key : ∀ n m core, n < cdiv N n_c → m < cdiv M (p * m_c) → core < mU M p m_r m_c m → _ :=
    fun n m core hn hm hc =>
      packObC_mem (C +ₚ cOrg M N p m_r m_c n_c n m core)
      (C_p +ₚ cInd M N p m_r n_r m_c n_c n m core) M N (m * p * m_c) (n * n_c) (core * mX M p m_r m_c m)
      (mT M p m_r m_c m core) (nLen N n_r n_c n) m_r n_r (hm := h.m_r_pos) (hn := h.n_r_pos) (hdm := mT_dvd h hm)
      (hdn := nLen_dvd h) (pm := ((m == cdiv M (p * m_c) - 1 && M % (p * m_c) != 0) &&
        core == mU M p m_r m_c m - 1)) (pn := (n == cdiv N n_c - 1 && N % n_c != 0)) (hpad := by
        intro hp
        rw [Bool.or_eq_false_iff] at hp
        exact ⟨strip_full h hm hc hp.1, full_in h.n_c_pos h.n_r_pos h.n_dvd hn hp.2⟩) (o := o)
  constructor
  · rintro ⟨n, hn, m, hm, core, hcore, ho⟩
    rw [key n m core hn hm hcore] at ho
    obtain ⟨r, c, hr, hc, rfl⟩ := ho
    exact ⟨n, m, core, r, c, hn, hm, hcore, hr, hc, rfl⟩
  · rintro ⟨n, m, core, r, c, hn, hm, hcore, hr, hc, rfl⟩
    refine ⟨n, hn, m, hm, core, hcore, ?_⟩
    rw [key n m core hn hm hcore]
    exact ⟨r, c, hr, hc, rfl⟩

theorem unpackCK_mem (C C_p : Loc) (o : Op) :
    o ∈ phaseOps (unpack_C_k_first C C_p M N p m_r n_r (dimsKMN M N K p m_r n_r m_c k_c n_c)) ↔
      ∃ n m core r c, n < cdiv N n_c ∧ m < cdiv M (p * m_c) ∧ core < mU M p m_r m_c m ∧
        r < mT M p m_r m_c m core ∧ c < nLen N n_r n_c n ∧ n * n_c + c < N ∧
        rowOf M p m_r m_c m core r < M ∧
        o = .copy (C +ₚ (rowOf M p m_r m_c m core r * N + (n * n_c + c)))
          (C_p +ₚ (cInd M N p m_r n_r m_c n_c n m core + cIdx m_r n_r (mT M p m_r m_c m core) r c)) := by
  rw [unpackC_ops h]
  simp only [mem_flatMap, mem_range, unpackCStrip]
  have e1 : ∀ n m core r c, C +ₚ cOrg M N p m_r m_c n_c n m core +ₚ (r * N + c) =
      C +ₚ (rowOf M p m_r m_c m core r * N + (n * n_c + c)) := by
    intro n m core r c
    rw [off_off]; congr 1; unfold cOrg rowOf; ring
  have e2 : ∀ m core r, m * p * m_c + core * mX M p m_r m_c m + r = rowOf M p m_r m_c m core r := by
    intro m core r; unfold rowOf; ring
  constructor
  · rintro ⟨n, hn, m, hm, core, hcore, ho⟩
    rw [unpackC_mem _ _ _ _ _ _ _ _ _ _ _ h.m_r_pos h.n_r_pos (mT_dvd h hm) (nLen_dvd h)] at ho
    obtain ⟨r, c, hr, hc, hN, hM, rfl⟩ := ho
    rw [e1, off_off]
    rw [e2] at hM
    exact ⟨n, m, core, r, c, hn, hm, hcore, hr, hc, hN, hM, rfl⟩
  · rintro ⟨n, m, core, r, c, hn, hm, hcore, hr, hc, hN, hM, rfl⟩
    refine ⟨n, hn, m, hm, core, hcore, ?_⟩
    rw [unpackC_mem _ _ _ _ _ _ _ _ _ _ _ h.m_r_pos h.n_r_pos (mT_dvd h hm) (nLen_dvd h)]
    refine ⟨r, c, hr, hc, hN, by rw [e2]; exact hM, ?_⟩
    rw [e1, off_off]

theorem packCK_reads (C C_p : Loc) (o : Op)
    (ho : o ∈ phaseOps (pack_C_k_first C C_p M N p m_r n_r (dimsKMN M N K p m_r n_r m_c k_c n_c)))
    (l : Loc) (hl : l ∈ o.reads) : ∃ x, x < M * N ∧ l = C +ₚ x := by
  obtain ⟨n, m, core, r, c, hn, hm, hcore, hr, hc, rfl⟩ := (packC_mem h C C_p o).1 ho
  unfold packCOp at hl
  split at hl
  · simp [Op.reads] at hl
  · rename_i hlt
    simp only [Op.reads, mem_singleton] at hl
    refine ⟨rowOf M p m_r m_c m core r * N + (n * n_c + c),
      mulAdd_lt (by unfold rowOf; rw [← Nat.mul_assoc]; omega) (by omega), ?_⟩
    rw [hl, off_off]; congr 1; unfold cOrg rowOf; ring

/-- Value of each element of the packed C. -/
theorem packCK_val {α : Type _} (F : Arith α) (C C_p : Loc) (hb : C.buf ≠ C_p.buf) (mem : Mem α)
    {n m core r c : Nat} (hn : n < cdiv N n_c) (hm : m < cdiv M (p * m_c))
    (hcore : core < mU M p m_r m_c m) (hr : r < mT M p m_r m_c m core) (hc : c < nLen N n_r n_c n) :
    exec F (phaseOps (pack_C_k_first C C_p M N p m_r n_r (dimsKMN M N K p m_r n_r m_c k_c n_c))) mem
      (C_p +ₚ (cInd M N p m_r n_r m_c n_c n m core + cIdx m_r n_r (mT M p m_r m_c m core) r c)) =
    if n * n_c + c ≥ N ∨ rowOf M p m_r m_c m core r ≥ M then F.zero
    else mem (C +ₚ (rowOf M p m_r m_c m core r * N + (n * n_c + c))) := by
  have hin := (packC_mem (K := K) h C C_p _).2 ⟨n, m, core, r, c, hn, hm, hcore, hr, hc, rfl⟩
  have := exec_mem F _ mem _ hin (packC_seqW (K := K) h C C_p).nodup (by
    intro l hl o' ho' e
    obtain ⟨x, _, rfl⟩ := packCK_reads h C C_p _ hin l hl
    have := ((packC_seqW (K := K) h C C_p).dst_of_mem ho').1
    rw [e] at this
    exact hb this)
  rw [packCOp_dst, off_off] at this
  rw [this]
  have e2 : m * p * m_c + core * mX M p m_r m_c m + r = rowOf M p m_r m_c m core r := by
    unfold rowOf; ring
  unfold packCOp
  rw [e2]
  split
  · rfl
  · simp only [Op.val, off_off]
    congr 2
    unfold cOrg rowOf; ring

/-- Unpacking restores what a packed C holds. -/
theorem unpackCK_val {α : Type _} (F : Arith α) (C C_p : Loc) (hb : C.buf ≠ C_p.buf) (mem : Mem α)
    (cm : Nat → Nat → α)
    (hC : ∀ n m core r c, n < cdiv N n_c → m < cdiv M (p * m_c) → core < mU M p m_r m_c m →
      r < mT M p m_r m_c m core → c < nLen N n_r n_c n → n * n_c + c < N →
      rowOf M p m_r m_c m core r < M →
      mem (C_p +ₚ (cInd M N p m_r n_r m_c n_c n m core + cIdx m_r n_r (mT M p m_r m_c m core) r c)) =
        cm (rowOf M p m_r m_c m core r) (n * n_c + c))
    {row col : Nat} (hrow : row < M) (hcol : col < N) :
    exec F (phaseOps (unpack_C_k_first C C_p M N p m_r n_r (dimsKMN M N K p m_r n_r m_c k_c n_c))) mem
      (C +ₚ (row * N + col)) = cm row col := by
  obtain ⟨m, core, r, hm, hcore, hr, rfl⟩ := rowOf_cover h hrow
  obtain ⟨n, c, hn, hc, rfl⟩ := colOf_cover h hcol
  have hin := (unpackCK_mem (K := K) h C C_p _).2
    ⟨n, m, core, r, c, hn, hm, hcore, hr, hc, hcol, hrow, rfl⟩
  apply exec_const F _ _ _ _ ⟨_, hin, rfl⟩
  intro o' ho' e
  obtain ⟨n', m', core', r', c', hn', hm', hcore', hr', hc', hN', hM', rfl⟩ :=
    (unpackCK_mem h C C_p _).1 ho'
  simp only [Op.dst] at e
  have e' := congrArg Loc.idx e
  simp only [off_idx, Nat.add_left_cancel_iff] at e'
  obtain ⟨e1, e2⟩ := mulAdd_inj hN' hcol e'
  obtain ⟨rfl, rfl, rfl⟩ := rowOf_inj hr' hr e1
  obtain ⟨rfl, rfl⟩ := colOf_inj hc' hc e2
  refine ⟨?_, hC _ _ _ _ _ hn' hm' hcore' hr' hc' hN' hM'⟩
  intro l hl o'' ho'' e''
  obtain ⟨_, _, _, _, _, _, _, _, _, _, _, _, rfl⟩ := (unpackCK_mem h C C_p _).1 ho''
  simp only [Op.reads, mem_singleton] at hl
  rw [hl] at e''
  simp only [Op.dst] at e''
  have := congrArg Loc.buf e''
  exact hb this

end
end Cake
