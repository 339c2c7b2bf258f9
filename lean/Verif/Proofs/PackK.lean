/-
K-first packing: the operations in sequential order, destinations, values.
-/
import Verif.Proofs.Driver
import Verif.Proofs.Dims

namespace Cake
open List

section A
variable {M N K p m_r n_r m_c k_c n_c : Nat} (h : TileOK p m_r n_r m_c k_c n_c)

/-- Offset of strip `core` of block `(m, k)` in the packed A. -/
def aInd (M K p m_r m_c k_c m k core : Nat) : Nat :=
  m * (p * m_c) * K + (k * k_c * mLen M p m_r m_c m + core * mX M p m_r m_c m * chopLen K k_c k)

def packAStrip (A A_p : Loc) (M K p m_r m_c k_c m k core : Nat) : List Op :=
  pack_ob_A_single_buf (A +ₚ (m * p * m_c * K + k * k_c + core * mX M p m_r m_c m * K))
    (A_p +ₚ aInd M K p m_r m_c k_c m k core) M K (m * p * m_c) (core * mX M p m_r m_c m)
    (chopLen (mLen M p m_r m_c m) (mX M p m_r m_c m) core) (chopLen K k_c k) m_r

include h

theorem packA_phases (A A_p : Loc) :
    pack_A_k_first A A_p M K p m_r (dimsKMN M N K p m_r n_r m_c k_c n_c) =
      (range (cdiv M (p * m_c))).flatMap fun m => (range (cdiv K k_c)).flatMap fun k =>
        [(range (cdiv (mLen M p m_r m_c m) (mX M p m_r m_c m))).map fun core =>
          packAStrip A A_p M K p m_r m_c k_c m k core] := by
  unfold pack_A_k_first
  rw [kmn_Mb h, kmn_Kb h]
  have hpad : (dimsKMN M N K p m_r n_r m_c k_c n_c).m_pad = (M % (p * m_c) != 0) := rfl
  have hkpad : (dimsKMN M N K p m_r n_r m_c k_c n_c).k_pad = (K % k_c != 0) := rfl
  have hmc : (dimsKMN M N K p m_r n_r m_c k_c n_c).m_c = m_c := rfl
  have hmr : (dimsKMN M N K p m_r n_r m_c k_c n_c).mr_rem = cdiv (M % (p * m_c)) m_r := rfl
  have hkc : (dimsKMN M N K p m_r n_r m_c k_c n_c).k_c = k_c := rfl
  have hkc1 : (dimsKMN M N K p m_r n_r m_c k_c n_c).k_c1 = K % k_c := rfl
  rw [hpad, hkpad, hmc, hmr, hkc, hkc1]
  -- inner loop
  have hlen : ∀ m, m < cdiv M (p * m_c) →
      (if (m == cdiv M (p * m_c) - 1 && M % (p * m_c) != 0) = true then
        m_r * cdiv (M % (p * m_c)) m_r
       else (if (m == cdiv M (p * m_c) - 1 && M % (p * m_c) != 0) = true then
        (dimsKMN M N K p m_r n_r m_c k_c n_c).p_l else p) * m_c) = mLen M p m_r m_c m := by
    intro m hm
    rw [← m_len h hm]
    split <;> rfl
  have inner : ∀ (g : Nat → Nat → List (List Op)) m s, m < cdiv M (p * m_c) →
      loopS (range (cdiv K k_c)) (fun k A_p_offset => ([g k A_p_offset], A_p_offset +
        (if (m == cdiv M (p * m_c) - 1 && M % (p * m_c) != 0) = true then
        m_r * cdiv (M % (p * m_c)) m_r
       else (if (m == cdiv M (p * m_c) - 1 && M % (p * m_c) != 0) = true then
        (dimsKMN M N K p m_r n_r m_c k_c n_c).p_l else p) * m_c) *
        (if (k == cdiv K k_c - 1 && K % k_c != 0) = true then K % k_c else k_c))) s =
      ((range (cdiv K k_c)).flatMap fun k => [g k (s + mLen M p m_r m_c m * chopOff K k_c k)],
        s + mLen M p m_r m_c m * K) := by
    intro g m s hm
    rw [loopS_range_var _ (fun k => mLen M p m_r m_c m * chopOff K k_c k)]
    · rw [chopOff_end h.k_c_pos]
    · intro k hk
      simp only
      rw [hlen m hm, k_len h.k_c_pos hk, chopOff_succ]; ring
    · simp [chopOff_zero]
  have houter := fun body => loopS_range_var (γ := List (List Op)) body
    (fun m => chopOff (padTo M (p * m_c) m_r) (p * m_c) m * K) (cdiv M (p * m_c)) 0
  rw [houter]
  · simp only
    apply flatMap_congr
    intro m hm
    rw [mem_range] at hm
    rw [inner _ m _ hm]
    simp only
    apply flatMap_congr
    intro k hk
    rw [mem_range] at hk
    obtain ⟨_, _, _, h4, _, h6⟩ := m_strips (N := N) (K := K) h hm
    rw [h4]
    congr 1
    apply map_congr_left
    intro core hcore
    rw [mem_range] at hcore
    unfold packAStrip aInd
    rw [h6 core hcore, k_len h.k_c_pos hk]
    have hx : (if (m == cdiv M (p * m_c) - 1 && M % (p * m_c) != 0) = true then
        (dimsKMN M N K p m_r n_r m_c k_c n_c).m_c1 else m_c) = mX M p m_r m_c m := rfl
    rw [hx, chopOff_eq h.S_pos (by rwa [← mb_eq h]), chopOff_eq h.k_c_pos hk]
    congr 2
    ring
  · intro m hm
    simp only
    rw [inner _ m _ hm, chopOff_succ]
    simp only [mLen]
    ring
  · simp [chopOff_zero]

theorem packA_ops (A A_p : Loc) :
    phaseOps (pack_A_k_first A A_p M K p m_r (dimsKMN M N K p m_r n_r m_c k_c n_c)) =
      (range (cdiv M (p * m_c))).flatMap fun m => (range (cdiv K k_c)).flatMap fun k =>
        (range (cdiv (mLen M p m_r m_c m) (mX M p m_r m_c m))).flatMap fun core =>
          packAStrip A A_p M K p m_r m_c k_c m k core := by
  rw [packA_phases h, phaseOps_flatMap]
  apply flatMap_congr
  intro m _
  rw [phaseOps_flatMap]
  apply flatMap_congr
  intro k _
  simp [List.flatMap_def]

omit h in
theorem strip_dvd {m core : Nat} (h : TileOK p m_r n_r m_c k_c n_c) (hm : m < cdiv M (p * m_c)) :
    m_r ∣ chopLen (mLen M p m_r m_c m) (mX M p m_r m_c m) core :=
  chopLen_dvd (chopLen_dvd (padTo_dvd h.S_dvd) h.S_dvd) (m_strips (N := 0) (K := 0) h hm).2.2.1

/-- The packed A is written consecutively: `M_padded * K` elements. -/
theorem packA_seqW (A A_p : Loc) :
    SeqW A_p.buf A_p.idx (padTo M (p * m_c) m_r * K)
      (phaseOps (pack_A_k_first A A_p M K p m_r (dimsKMN M N K p m_r n_r m_c k_c n_c))) := by
  rw [packA_ops h, mb_eq h]
  apply SeqW.chop h.S_pos
  intro m hm
  rw [← mb_eq h] at hm
  have e1 : chopLen (padTo M (p * m_c) m_r) (p * m_c) m * K = K * mLen M p m_r m_c m := by
    unfold mLen; ring
  rw [e1]
  apply SeqW.chop h.k_c_pos
  intro k hk
  rw [Nat.mul_comm (chopLen K k_c k)]
  apply SeqW.chop (m_strips (N := N) (K := K) h hm).1
  intro core hcore
  have := packObA_seqW (A +ₚ (m * p * m_c * K + k * k_c + core * mX M p m_r m_c m * K))
    (A_p +ₚ aInd M K p m_r m_c k_c m k core) M K (m * p * m_c) (core * mX M p m_r m_c m)
    (chopLen K k_c k) m_r _ h.m_r_pos (strip_dvd h hm (core := core))
  have e : (A_p +ₚ aInd M K p m_r m_c k_c m k core).idx =
      A_p.idx + m * (p * m_c) * K + k * k_c * mLen M p m_r m_c m +
        core * mX M p m_r m_c m * chopLen K k_c k := by
    simp only [off_idx, aInd]; ring
  rw [off_buf, e] at this
  exact this

theorem packA_mem (A A_p : Loc) (o : Op) :
    o ∈ phaseOps (pack_A_k_first A A_p M K p m_r (dimsKMN M N K p m_r n_r m_c k_c n_c)) ↔
      ∃ m k core r i, m < cdiv M (p * m_c) ∧ k < cdiv K k_c ∧
        core < cdiv (mLen M p m_r m_c m) (mX M p m_r m_c m) ∧
        r < chopLen (mLen M p m_r m_c m) (mX M p m_r m_c m) core ∧ i < chopLen K k_c k ∧
        o = packAOp (A +ₚ (m * p * m_c * K + k * k_c + core * mX M p m_r m_c m * K))
          (A_p +ₚ aInd M K p m_r m_c k_c m k core) M K (m * p * m_c + core * mX M p m_r m_c m) m_r
          (chopLen K k_c k) r i := by
  rw [packA_ops h]
  simp only [mem_flatMap, mem_range, packAStrip]
  constructor
  · rintro ⟨m, hm, k, hk, core, hcore, ho⟩
    rw [packObA_mem _ _ _ _ _ _ _ _ _ h.m_r_pos (strip_dvd h hm)] at ho
    obtain ⟨r, i, hr, hi, rfl⟩ := ho
    exact ⟨m, k, core, r, i, hm, hk, hcore, hr, hi, rfl⟩
  · rintro ⟨m, k, core, r, i, hm, hk, hcore, hr, hi, rfl⟩
    refine ⟨m, hm, k, hk, core, hcore, ?_⟩
    rw [packObA_mem _ _ _ _ _ _ _ _ _ h.m_r_pos (strip_dvd h hm)]
    exact ⟨r, i, hr, hi, rfl⟩

/-- Operations of A packing read only the caller's A, inside `M*K`. -/
theorem packA_reads (A A_p : Loc) (o : Op)
    (ho : o ∈ phaseOps (pack_A_k_first A A_p M K p m_r (dimsKMN M N K p m_r n_r m_c k_c n_c)))
    (l : Loc) (hl : l ∈ o.reads) : ∃ x, x < M * K ∧ l = A +ₚ x := by
  obtain ⟨m, k, core, r, i, hm, hk, hcore, hr, hi, rfl⟩ := (packA_mem h A A_p o).1 ho
  unfold packAOp at hl
  split at hl
  · simp [Op.reads] at hl
  · rename_i hlt
    simp only [Op.reads, mem_singleton] at hl
    have hi' := chop_bound hi
    refine ⟨(m * p * m_c + core * mX M p m_r m_c m + r) * K + (k * k_c + i),
      mulAdd_lt (by omega) hi', ?_⟩
    rw [hl, off_off]
    congr 1
    ring

/-- Value of each packed element. -/
theorem packA_val {α : Type _} (F : Arith α) (A A_p : Loc) (hb : A.buf ≠ A_p.buf) (mem : Mem α)
    {m k core r i : Nat} (hm : m < cdiv M (p * m_c)) (hk : k < cdiv K k_c)
    (hcore : core < cdiv (mLen M p m_r m_c m) (mX M p m_r m_c m))
    (hr : r < chopLen (mLen M p m_r m_c m) (mX M p m_r m_c m) core) (hi : i < chopLen K k_c k) :
    exec F (phaseOps (pack_A_k_first A A_p M K p m_r (dimsKMN M N K p m_r n_r m_c k_c n_c))) mem
      (A_p +ₚ (aInd M K p m_r m_c k_c m k core + aIdx m_r (chopLen K k_c k) r i)) =
    if m * p * m_c + core * mX M p m_r m_c m + r ≥ M then F.zero
    else mem (A +ₚ ((m * p * m_c + core * mX M p m_r m_c m + r) * K + (k * k_c + i))) := by
  have hin := (packA_mem (N := N) h A A_p _).2 ⟨m, k, core, r, i, hm, hk, hcore, hr, hi, rfl⟩
  have := exec_mem F _ mem _ hin (packA_seqW (N := N) h A A_p).nodup (by
    intro l hl o' ho' e
    obtain ⟨x, _, rfl⟩ := packA_reads h A A_p _ hin l hl
    have := ((packA_seqW (N := N) h A A_p).dst_of_mem ho').1
    rw [e] at this
    exact hb this)
  rw [packAOp_dst, off_off] at this
  rw [this]
  unfold packAOp
  split
  · rfl
  · simp only [Op.val, off_off]
    congr 2
    ring

end A

section B
variable {M N K p m_r n_r m_c k_c n_c : Nat} (h : TileOK p m_r n_r m_c k_c n_c)

/-- The two phases for one column block, as one list. -/
theorem packB_col (K k_c n_r q ind1 : Nat) (hk : 0 < k_c) (hn : 0 < n_r)
    (mk : Nat → Nat → Nat → Nat → Nat → Op) :
    phaseOps ((((cfor 0 (K / k_c * k_c) k_c).map fun k1 =>
        (loopS (cfor 0 (q * n_r) n_r) (fun n2 s => loopS (range k_c) (fun i s => loopS (range n_r)
          (fun j local_ind => ([mk k1 n2 i j (ind1 + local_ind + (k1 / k_c) * k_c * (q * n_r))],
            local_ind + 1)) s) s) 0).1)) ::
      (if K % k_c ≠ 0 then
        [(cfor 0 (q * n_r) n_r).map fun n2 =>
          (loopS (range (K % k_c)) (fun i s => loopS (range n_r) (fun j local_ind =>
            ([mk (K / k_c * k_c) n2 i j
              (ind1 + K / k_c * k_c * (q * n_r) + local_ind + n2 * (K % k_c))], local_ind + 1)) s) 0).1]
       else [])) =
    (range (cdiv K k_c)).flatMap fun k => (range q).flatMap fun t =>
      (range (chopLen K k_c k)).flatMap fun i => (range n_r).flatMap fun j =>
        [mk (k * k_c) (t * n_r) i j
          (ind1 + k * k_c * (q * n_r) + (t * (chopLen K k_c k * n_r) + (i * n_r + j)))] := by
  rw [phaseOps_cons]
  have hcd := cdiv_eq_div_add K k_c hk
  have hlen : ∀ k, k < cdiv K k_c → chopLen K k_c k =
      (if (k == cdiv K k_c - 1 && K % k_c != 0) = true then K % k_c else k_c) :=
    fun k hk' => (k_len hk hk').symm
  have h1 : ((cfor 0 (K / k_c * k_c) k_c).map fun k1 =>
        (loopS (cfor 0 (q * n_r) n_r) (fun n2 s => loopS (range k_c) (fun i s => loopS (range n_r)
          (fun j local_ind => ([mk k1 n2 i j (ind1 + local_ind + (k1 / k_c) * k_c * (q * n_r))],
            local_ind + 1)) s) s) 0).1).flatten =
      (range (K / k_c)).flatMap fun k => (range q).flatMap fun t =>
        (range (chopLen K k_c k)).flatMap fun i => (range n_r).flatMap fun j =>
        [mk (k * k_c) (t * n_r) i j
          (ind1 + k * k_c * (q * n_r) + (t * (chopLen K k_c k * n_r) + (i * n_r + j)))] := by
    rw [cfor_zero_mul _ _ hk, map_map, ← List.flatMap_def]
    apply flatMap_congr
    intro k hk'
    rw [mem_range] at hk'
    have hl : chopLen K k_c k = k_c := by
      unfold chopLen
      have := Nat.mul_le_mul_right k_c (Nat.succ_le_of_lt hk')
      rw [Nat.succ_mul] at this
      have := divmod_eq k_c K
      omega
    simp only [Function.comp, loop3_eq _ _ _ _ _ hn]
    rw [hl, Nat.mul_div_cancel _ hk]
    apply flatMap_congr
    intro t _
    apply flatMap_congr
    intro i _
    apply flatMap_congr
    intro j _
    congr 2
    ring
  rw [h1]
  by_cases hr : K % k_c = 0
  · have e : (K % k_c != 0) = false := by simpa using hr
    rw [e] at hcd
    simp only [Bool.toNat_false, Nat.add_zero] at hcd
    rw [if_neg (by simpa using hr), ← hcd]
    simp
  · have e : (K % k_c != 0) = true := by simpa using hr
    rw [e] at hcd
    simp only [Bool.toNat_true] at hcd
    rw [if_pos hr, ← hcd, List.range_succ, List.flatMap_append]
    congr 1
    simp only [phaseOps_cons, phaseOps_nil, append_nil, flatMap_cons, flatMap_nil]
    have hl : chopLen K k_c (K / k_c) = K % k_c := by
      unfold chopLen
      have := divmod_eq k_c K
      have := Nat.mod_lt K hk
      omega
    rw [hl, cfor_zero_mul _ _ hn, map_map, ← List.flatMap_def]
    apply flatMap_congr
    intro t _
    simp only [Function.comp, loop2_eq]
    apply flatMap_congr
    intro i _
    apply flatMap_congr
    intro j _
    congr 2
    ring

/-- Offset of block `(n, k)` in the packed B. -/
def bInd (N K n_r k_c n_c n k : Nat) : Nat :=
  n * n_c * K + k * k_c * chopLen (padTo N n_c n_r) n_c n

def packBStrip (B B_p : Loc) (N K n_r k_c n_c n k : Nat) : List Op :=
  (range (chopLen (padTo N n_c n_r) n_c n / n_r)).flatMap fun t =>
    (range (chopLen K k_c k)).flatMap fun i => (range n_r).flatMap fun j =>
      [packBOp (B +ₚ (k * k_c * N + n * n_c)) (B_p +ₚ bInd N K n_r k_c n_c n k) N (n * n_c) n_r
        (chopLen K k_c k) (t * n_r + j) i]

include h

theorem packB_ops (B B_p : Loc) :
    phaseOps (pack_B_k_first B B_p K N n_r (dimsKMN M N K p m_r n_r m_c k_c n_c)) =
      (range (cdiv N n_c)).flatMap fun n => (range (cdiv K k_c)).flatMap fun k =>
        packBStrip B B_p N K n_r k_c n_c n k := by
  obtain ⟨q, hq⟩ := h.n_dvd
  rw [Nat.mul_comm] at hq
  unfold pack_B_k_first
  have hkc : (dimsKMN M N K p m_r n_r m_c k_c n_c).k_c = k_c := rfl
  have hkc1 : (dimsKMN M N K p m_r n_r m_c k_c n_c).k_c1 = K % k_c := rfl
  have hnc : (dimsKMN M N K p m_r n_r m_c k_c n_c).n_c = n_c := rfl
  have hnc1 : (dimsKMN M N K p m_r n_r m_c k_c n_c).n_c1 = cdiv (N % n_c) n_r * n_r := rfl
  simp only [hkc, hkc1, hnc, hnc1, sub_mod_eq]
  rw [cfor_zero_mul _ _ h.n_c_pos, loopS_map]
  have hsum : ∀ ind w, ind + K / k_c * k_c * w + K % k_c * w = ind + K * w := by
    intro ind w
    conv_rhs => rw [← divmod_eq k_c K]
    ring
  have hsnd : ∀ (g1 : Nat → Nat → List (List Op)) (g2 : Nat → Nat → List (List Op)) ind n,
      (if K % k_c ≠ 0 then
        ([g1 n ind, g2 n (ind + K / k_c * k_c * n_c)], ind + K / k_c * k_c * n_c + K % k_c * n_c)
      else ([g1 n ind], ind + K / k_c * k_c * n_c)) =
      (g1 n ind :: (if K % k_c ≠ 0 then [g2 n (ind + K / k_c * k_c * n_c)] else []),
        ind + K * n_c) := by
    intro g1 g2 ind n
    split
    · rw [hsum]
    · rename_i hz
      have := hsum ind n_c
      simp only [ne_eq, Decidable.not_not] at hz
      rw [hz] at this
      simp only [Nat.zero_mul, Nat.add_zero] at this
      rw [this]
  rw [loopS_range (c := K * n_c)]
  · simp only [Nat.zero_add]
    rw [phaseOps_append, phaseOps_flatMap]
    have hncd := cdiv_eq_div_add N n_c h.n_c_pos
    -- main part
    have hmain : ∀ n, n < N / n_c → chopLen (padTo N n_c n_r) n_c n = n_c := by
      intro n hn
      unfold chopLen padTo
      have := Nat.mul_le_mul_right n_c (Nat.succ_le_of_lt hn)
      rw [Nat.succ_mul] at this
      omega
    have e1 : ((range (N / n_c)).flatMap fun n => (range (cdiv K k_c)).flatMap fun k =>
          packBStrip B B_p N K n_r k_c n_c n k) =
        (range (N / n_c)).flatMap fun n => phaseOps
        (if K % k_c ≠ 0 then
          ([(cfor 0 (K / k_c * k_c) k_c).map fun k1 =>
            (loopS (cfor 0 n_c n_r) (fun n2 s => loopS (range k_c) (fun i s => loopS (range n_r)
              (fun j local_ind => ([Op.copy (B_p +ₚ (n * (K * n_c) + local_ind + (k1 / k_c) * k_c * n_c))
                (B +ₚ (n * n_c + k1 * N + n2 + i * N + j))], local_ind + 1)) s) s) 0).1,
            (cfor 0 n_c n_r).map fun n2 =>
            (loopS (range (K % k_c)) (fun i s => loopS (range n_r) (fun j local_ind =>
              ([Op.copy (B_p +ₚ (n * (K * n_c) + K / k_c * k_c * n_c + local_ind + n2 * (K % k_c)))
              (B +ₚ (n * n_c + K / k_c * k_c * N + n2 + i * N + j))], local_ind + 1)) s) 0).1],
            n * (K * n_c) + K / k_c * k_c * n_c + K % k_c * n_c)
        else ([(cfor 0 (K / k_c * k_c) k_c).map fun k1 =>
            (loopS (cfor 0 n_c n_r) (fun n2 s => loopS (range k_c) (fun i s => loopS (range n_r)
              (fun j local_ind => ([Op.copy (B_p +ₚ (n * (K * n_c) + local_ind + (k1 / k_c) * k_c * n_c))
                (B +ₚ (n * n_c + k1 * N + n2 + i * N + j))], local_ind + 1)) s) s) 0).1],
            n * (K * n_c) + K / k_c * k_c * n_c)).1 := by
      apply flatMap_congr
      intro n hn
      rw [mem_range] at hn
      have key := packB_col K k_c n_r q (n * (K * n_c)) h.k_c_pos h.n_r_pos
        (fun k1 n2 i j x => Op.copy (B_p +ₚ x) (B +ₚ (n * n_c + k1 * N + n2 + i * N + j)))
      rw [← hq] at key
      rw [show ∀ (a b : List (List (List Op)) × Nat), (if K % k_c ≠ 0 then a else b).1 =
        if K % k_c ≠ 0 then a.1 else b.1 from fun a b => by split <;> rfl]
      have e0 : ∀ (a b : List (List Op)), (if K % k_c ≠ 0 then [a, b] else [a]) =
          a :: (if K % k_c ≠ 0 then [b] else []) := fun a b => by split <;> rfl
      simp only at key ⊢
      rw [e0, key]
      apply flatMap_congr
      intro k hk
      unfold packBStrip
      rw [hmain n hn]
      have e3 : n_c / n_r = q := by rw [hq, Nat.mul_div_cancel _ h.n_r_pos]
      rw [e3]
      apply flatMap_congr
      intro t ht
      rw [mem_range] at ht
      apply flatMap_congr
      intro i _
      apply flatMap_congr
      intro j hj
      rw [mem_range] at hj
      have hlt : n * n_c + (t * n_r + j) < N := by
        have h1 := mulAdd_lt ht hj
        rw [← hq] at h1
        have h2 := mulAdd_lt hn h1
        have := divmod_eq n_c N
        omega
      unfold packBOp bIdx bInd
      rw [if_neg (by omega), mulAdd_div hj, mulAdd_mod hj, hmain n hn, off_off, off_off]
      congr 3 <;> ring
    rw [← hncd]
    by_cases hr : N % n_c = 0
    · have e : (N % n_c != 0) = false := by simpa using hr
      rw [e]
      simp only [Bool.toNat_false, Nat.add_zero]
      rw [e1, hr]
      simp
    · have e : (N % n_c != 0) = true := by simpa using hr
      rw [e]
      simp only [Bool.toNat_true]
      rw [List.range_succ (n := N / n_c), List.flatMap_append, e1]
      congr 1
      have hc1 : cdiv (N % n_c) n_r * n_r ≠ 0 :=
        Nat.ne_of_gt (Nat.mul_pos (cdiv_pos (by omega) h.n_r_pos) h.n_r_pos)
      rw [if_pos hc1]
      have hle := cdiv_rem_le (T := N) h.n_c_pos h.n_r_pos h.n_dvd
      have hl : chopLen (padTo N n_c n_r) n_c (N / n_c) = cdiv (N % n_c) n_r * n_r := by
        unfold chopLen padTo
        omega
      have key := packB_col K k_c n_r (cdiv (N % n_c) n_r) (N / n_c * (K * n_c)) h.k_c_pos h.n_r_pos
        (fun k1 n2 i j x => if N / n_c * n_c + n2 + j ≥ N then Op.zero (B_p +ₚ x)
          else Op.copy (B_p +ₚ x) (B +ₚ (N / n_c * n_c + k1 * N + n2 + i * N + j)))
      have e0 : ∀ (a b : List (List Op)), (if K % k_c ≠ 0 then [a, b] else [a]) =
          a :: (if K % k_c ≠ 0 then [b] else []) := fun a b => by split <;> rfl
      rw [e0, key]
      simp only [flatMap_cons, flatMap_nil, append_nil]
      apply flatMap_congr
      intro k hk
      unfold packBStrip
      rw [hl, Nat.mul_div_cancel _ h.n_r_pos]
      apply flatMap_congr
      intro t ht
      apply flatMap_congr
      intro i _
      apply flatMap_congr
      intro j hj
      rw [mem_range] at hj
      unfold packBOp bIdx bInd
      rw [mulAdd_div hj, mulAdd_mod hj, hl]
      simp only [off_off, ← Nat.add_assoc]
      congr 4 <;> ring
  · intro n _ s
    rw [show ∀ (a b : List (List (List Op)) × Nat), (if K % k_c ≠ 0 then a else b).2 =
        if K % k_c ≠ 0 then a.2 else b.2 from fun a b => by split <;> rfl]
    simp only
    split
    · exact hsum s n_c
    · rename_i hz
      have := hsum s n_c
      simp only [ne_eq, Decidable.not_not] at hz
      rw [hz] at this
      simpa using this

theorem nlen_dvd {n : Nat} : n_r ∣ chopLen (padTo N n_c n_r) n_c n :=
  chopLen_dvd (padTo_dvd h.n_dvd) h.n_dvd

theorem packB_seqW (B B_p : Loc) :
    SeqW B_p.buf B_p.idx (padTo N n_c n_r * K)
      (phaseOps (pack_B_k_first B B_p K N n_r (dimsKMN M N K p m_r n_r m_c k_c n_c))) := by
  rw [packB_ops h, nb_eq h]
  apply SeqW.chop h.n_c_pos
  intro n hn
  rw [Nat.mul_comm (chopLen _ _ _) K]
  apply SeqW.chop h.k_c_pos
  intro k hk
  unfold packBStrip
  obtain ⟨q, hq⟩ := nlen_dvd h (N := N) (n := n)
  rw [hq, Nat.mul_comm n_r q, Nat.mul_div_cancel _ h.n_r_pos]
  have e : chopLen K k_c k * (q * n_r) = q * (chopLen K k_c k * n_r) := by ring
  rw [e]
  apply seqW3 (f := fun t i j => packBOp (B +ₚ (k * k_c * N + n * n_c))
    (B_p +ₚ bInd N K n_r k_c n_c n k) N (n * n_c) n_r (chopLen K k_c k) (t * n_r + j) i)
  intro t i j hj
  rw [packBOp_dst]
  unfold bIdx bInd
  rw [mulAdd_div hj, mulAdd_mod hj, off_off, hq]
  simp only [Loc.off, Loc.mk.injEq, true_and]
  ring

theorem packB_mem (B B_p : Loc) (o : Op) :
    o ∈ phaseOps (pack_B_k_first B B_p K N n_r (dimsKMN M N K p m_r n_r m_c k_c n_c)) ↔
      ∃ n k c i, n < cdiv N n_c ∧ k < cdiv K k_c ∧ c < chopLen (padTo N n_c n_r) n_c n ∧
        i < chopLen K k_c k ∧
        o = packBOp (B +ₚ (k * k_c * N + n * n_c)) (B_p +ₚ bInd N K n_r k_c n_c n k) N (n * n_c) n_r
          (chopLen K k_c k) c i := by
  rw [packB_ops h]
  simp only [mem_flatMap (b := o), mem_range]
  have key : ∀ n k, o ∈ packBStrip B B_p N K n_r k_c n_c n k ↔
      ∃ c i, c < chopLen (padTo N n_c n_r) n_c n ∧ i < chopLen K k_c k ∧
        o = packBOp (B +ₚ (k * k_c * N + n * n_c)) (B_p +ₚ bInd N K n_r k_c n_c n k) N (n * n_c) n_r
          (chopLen K k_c k) c i := by
    intro n k
    unfold packBStrip
    obtain ⟨q, hq⟩ := nlen_dvd h (N := N) (n := n)
    rw [hq, Nat.mul_comm n_r q, Nat.mul_div_cancel _ h.n_r_pos]
    exact mem3 (fun t i j _ _ _ => rfl) o
  constructor
  · rintro ⟨n, hn, k, hk, ho⟩
    obtain ⟨c, i, hc, hi, rfl⟩ := (key n k).1 ho
    exact ⟨n, k, c, i, hn, hk, hc, hi, rfl⟩
  · rintro ⟨n, k, c, i, hn, hk, hc, hi, e⟩
    exact ⟨n, hn, k, hk, (key n k).2 ⟨c, i, hc, hi, e⟩⟩

theorem packB_reads (B B_p : Loc) (o : Op)
    (ho : o ∈ phaseOps (pack_B_k_first B B_p K N n_r (dimsKMN M N K p m_r n_r m_c k_c n_c)))
    (l : Loc) (hl : l ∈ o.reads) : ∃ x, x < K * N ∧ l = B +ₚ x := by
  obtain ⟨n, k, c, i, hn, hk, hc, hi, rfl⟩ := (packB_mem h B B_p o).1 ho
  unfold packBOp at hl
  split at hl
  · simp [Op.reads] at hl
  · rename_i hlt
    simp only [Op.reads, mem_singleton] at hl
    have hi' := chop_bound hi
    refine ⟨(k * k_c + i) * N + (n * n_c + c), mulAdd_lt hi' (by omega), ?_⟩
    rw [hl, off_off]
    congr 1
    ring

theorem packB_val {α : Type _} (F : Arith α) (B B_p : Loc) (hb : B.buf ≠ B_p.buf) (mem : Mem α)
    {n k c i : Nat} (hn : n < cdiv N n_c) (hk : k < cdiv K k_c)
    (hc : c < chopLen (padTo N n_c n_r) n_c n) (hi : i < chopLen K k_c k) :
    exec F (phaseOps (pack_B_k_first B B_p K N n_r (dimsKMN M N K p m_r n_r m_c k_c n_c))) mem
      (B_p +ₚ (bInd N K n_r k_c n_c n k + bIdx n_r (chopLen K k_c k) c i)) =
    if n * n_c + c ≥ N then F.zero
    else mem (B +ₚ ((k * k_c + i) * N + (n * n_c + c))) := by
  have hin := (packB_mem (M := M) h B B_p _).2 ⟨n, k, c, i, hn, hk, hc, hi, rfl⟩
  have := exec_mem F _ mem _ hin (packB_seqW (M := M) h B B_p).nodup (by
    intro l hl o' ho' e
    obtain ⟨x, _, rfl⟩ := packB_reads h B B_p _ hin l hl
    have := ((packB_seqW (M := M) h B B_p).dst_of_mem ho').1
    rw [e] at this
    exact hb this)
  rw [packBOp_dst, off_off] at this
  rw [this]
  unfold packBOp
  split
  · rfl
  · simp only [Op.val, off_off]
    congr 2
    ring

end B
end Cake
