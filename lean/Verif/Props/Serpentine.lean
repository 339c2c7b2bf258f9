/-
The order in which the K-first schedule visits its blocks.
-/
import Verif.Proofs.Serp
import Verif.Props.Demo

namespace Cake
open List

/-- Everything core `core` executes, in program order, over the parallel regions `phs`. -/
def coreOps (core : Nat) (phs : List (List (List Op))) : List Op :=
  phs.flatMap fun ph => ph.getD core []

/-- The reads of the packed operands among `ops`, in order. -/
def packedReads (ops : List Op) : List Loc :=
  ops.flatMap fun o => o.reads.filter fun l => decide (l.buf = .Ap ∨ l.buf = .Bp)

/-- Index `x` of packed A lies in block `(m, k)`: row blocks of `p*m_c` rows, K-blocks of `k_c`
columns inside them, each stored contiguously, the last ones shorter; rows are rounded up to `m_r`. -/
def InABlk (M K p m_r m_c k_c m k x : Nat) : Prop :=
  let rows := min (p * m_c) ((M + m_r - 1) / m_r * m_r - m * (p * m_c))
  m * (p * m_c) * K + k * k_c * rows ≤ x ∧
    x < m * (p * m_c) * K + k * k_c * rows + min k_c (K - k * k_c) * rows

/-- Index `x` of packed B lies in block `(k, n)`. -/
def InBBlk (N K n_r k_c n_c n k x : Nat) : Prop :=
  let cols := min n_c ((N + n_r - 1) / n_r * n_r - n * n_c)
  n * n_c * K + k * k_c * cols ≤ x ∧
    x < n * n_c * K + k * k_c * cols + min k_c (K - k * k_c) * cols

theorem packedReads_append (a b : List Op) : packedReads (a ++ b) = packedReads a ++ packedReads b := by
  simp [packedReads]

theorem packedReads_flatMap {β : Type _} (l : List β) (f : β → List Op) :
    packedReads (l.flatMap f) = l.flatMap fun x => packedReads (f x) := by
  simp [packedReads, flatMap_assoc]

theorem mem_packedReads {ops : List Op} {l : Loc} :
    l ∈ packedReads ops ↔ (l.buf = .Ap ∨ l.buf = .Bp) ∧ ∃ o ∈ ops, l ∈ o.reads := by
  simp only [packedReads, mem_flatMap, mem_filter, decide_eq_true_eq]
  constructor
  · rintro ⟨o, h1, h2, h3⟩; exact ⟨h3, o, h1, h2⟩
  · rintro ⟨h3, o, h1, h2⟩; exact ⟨o, h1, h2, h3⟩

section
variable {M N K p m_r n_r m_c k_c n_c : Nat} {kd : KDim}

theorem getD_map_range (u core : Nat) (f : Nat → List Op) :
    ((range u).map f).getD core [] = if core < u then f core else [] := by
  split
  · rename_i h; simp [h]
  · rename_i h; simp [h]

theorem kernel_reads_ex {L m nl t : Nat} (A B C : Loc) (narg k : Nat) (hL : 0 < L) (hm : 0 < m)
    (hnl : 0 < nl) (hk : 0 < k) :
    (∃ o ∈ kernel L m nl t A B C narg k, A ∈ o.reads) ∧
      ∃ o ∈ kernel L m nl t A B C narg k, B ∈ o.reads := by
  have key : ∀ o, o ∈ kernLoadB L m nl t B 0 ++ (range m).flatMap (fun i => kernRow L m nl t A (0 + i) i) →
      o ∈ kernel L m nl t A B C narg k := by
    intro o ho
    unfold kernel
    rw [kernLoop_eq]
    apply mem_append_left
    apply mem_append_right
    rw [mem_flatMap]
    refine ⟨0, mem_range.2 hk, ?_⟩
    rw [kernInner_eq]
    simpa using ho
  refine ⟨⟨.copy (rA L m nl t 0) (A +ₚ 0), key _ (mem_append_right _ ?_), by simp [Op.reads, Loc.off]⟩,
    ⟨.copy (rB L m nl t 0 0) (B +ₚ (0 + (0 * L + 0))), key _ (mem_append_left _ ?_),
      by simp [Op.reads, Loc.off]⟩⟩
  · rw [mem_flatMap]
    refine ⟨0, mem_range.2 hm, ?_⟩
    unfold kernRow
    apply mem_append_left
    exact mem_map.2 ⟨0, mem_range.2 hL, rfl⟩
  · unfold kernLoadB
    simp only [mem_flatMap, mem_map, mem_range]
    exact ⟨0, hnl, 0, hL, rfl⟩

/-- **C25**. There is one order of all blocks `(n, m, k)` -- each of the `Nb*Mb*Kb` blocks exactly
once, neighbours differing by one step in exactly one coordinate -- such that every core reads the
packed operands in that order: its reads split into one group per block, and the group of
`(n, m, k)` touches only block `(m, k)` of packed A and block `(k, n)` of packed B. Core 0 takes part
in every block. -/
theorem C25_serpentine (h : TileOK p m_r n_r m_c k_c n_c) (hk : kd.Fits m_r n_r) :
    ∃ vs : List (Nat × Nat × Nat), vs.Nodup ∧
      (∀ n m k, (n, m, k) ∈ vs ↔
        n < (N + n_c - 1) / n_c ∧ m < (M + p * m_c - 1) / (p * m_c) ∧ k < (K + k_c - 1) / k_c) ∧
      vs.IsChain OneStep ∧
      ∀ core, ∃ g : Nat × Nat × Nat → List Loc,
        packedReads (coreOps core (schedule_KMN kd ⟨.Ap, 0⟩ ⟨.Bp, 0⟩ ⟨.C, 0⟩ M N K p m_r n_r
          (dimsKMN M N K p m_r n_r m_c k_c n_c))) = vs.flatMap g ∧
        (∀ n m k, (n, m, k) ∈ vs → ∀ l ∈ g (n, m, k),
          (l.buf = .Ap ∧ InABlk M K p m_r m_c k_c m k l.idx) ∨
          (l.buf = .Bp ∧ InBBlk N K n_r k_c n_c n k l.idx)) ∧
        (core = 0 → ∀ v ∈ vs, (∃ l ∈ g v, l.buf = .Ap) ∧ ∃ l ∈ g v, l.buf = .Bp) := by
  refine ⟨snake (cdiv N n_c) (cdiv M (p * m_c)) (cdiv K k_c), snake_nodup _ _ _, fun n m k => mem_snake,
    snake_chain _ _ _, fun core => ⟨fun v => if core < mU M p m_r m_c v.2.1 then packedReads
      (regTiles kd core (⟨.Ap, 0⟩ +ₚ aInd M K p m_r m_c k_c v.2.1 v.2.2 core)
        (⟨.Bp, 0⟩ +ₚ bInd N K n_r k_c n_c v.1 v.2.2) ⟨.CpC core, 0⟩ m_r n_r
        (mT M p m_r m_c v.2.1 core) (nLen N n_r n_c v.1) (chopLen K k_c v.2.2)) else [], ?_, ?_, ?_⟩⟩
  · rw [schedK_phases h]
    unfold schedKZ coreOps snake
    rw [flatMap_assoc, packedReads_flatMap, flatMap_assoc]
    apply flatMap_congr
    intro n _
    rw [flatMap_assoc, packedReads_flatMap, flatMap_assoc]
    apply flatMap_congr
    intro m hm
    rw [mem_serp] at hm
    rw [flatMap_map, flatMap_cons, flatMap_cons, flatMap_nil, append_nil, packedReads_append,
      getD_map_range, getD_map_range]
    by_cases hc : core < mU M p m_r m_c m
    · rw [if_pos hc, if_pos hc]
      have hu : packedReads (unpackTask ⟨.C, 0⟩ M N p m_r n_r m_c n_c (m_c * n_c) n m core) = [] := by
        rw [eq_nil_iff_forall_not_mem]
        intro l hl
        rw [mem_packedReads] at hl
        obtain ⟨hb, o, ho, hr⟩ := hl
        rw [unpackTask_mem h hm] at ho
        rcases ho with ⟨_, _, _, _, _, _, rfl⟩ | ⟨_, _, rfl⟩
        · simp only [Op.reads, mem_singleton] at hr
          subst hr
          simp at hb
        · simp [Op.reads] at hr
      have hd : kDesc n m = ((n + m) % 2 != 0) := by
        unfold kDesc
        rcases Nat.mod_two_eq_zero_or_one n with h1 | h1 <;>
          rcases Nat.mod_two_eq_zero_or_one m with h2 | h2 <;>
          simp [Nat.add_mod, h1, h2]
      rw [hu, append_nil]
      unfold computeTask
      rw [packedReads_flatMap, hd]
      apply flatMap_congr
      intro k _
      simp only [if_pos hc]
    · rw [if_neg hc, if_neg hc]
      symm
      simp only [if_neg hc]
      simp [packedReads, flatMap_eq_nil_iff]
  · intro n m k hv l hl
    rw [mem_snake] at hv
    obtain ⟨hn, hm, hkk⟩ := hv
    simp only at hl
    split at hl
    · rename_i hc
      rw [mem_packedReads] at hl
      obtain ⟨hb, o, ho, hr⟩ := hl
      have eM : padTo M (p * m_c) m_r = (M + m_r - 1) / m_r * m_r := padTo_eq h.m_r_pos h.S_dvd
      have eN : padTo N n_c n_r = (N + n_r - 1) / n_r * n_r := padTo_eq h.n_r_pos h.n_dvd
      rcases regTiles_reads' hk h.m_r_pos h.n_r_pos (mT_dvd h hm) (nLen_dvd h) _ _ _ _ _ o ho l hr with
        h1 | ⟨r, c, hr, hc', h1⟩ | ⟨r, i, hr, hi, h1⟩ | ⟨c, i, hc', hi, h1⟩
      · rw [h1] at hb; simp at hb
      · rw [h1] at hb; simp [Loc.off] at hb
      · left
        rw [h1]
        refine ⟨rfl, ?_⟩
        have hx := aIdx_lt (q := mT M p m_r m_c m core / m_r) (m_r := m_r) (k := chopLen K k_c k)
          hi (by rwa [Nat.div_mul_cancel (mT_dvd h hm)])
        rw [Nat.div_mul_cancel (mT_dvd h hm)] at hx
        have h2 := chop_mul_bound (m_strips (N := 0) (K := 0) h hm).1 hc hx
        unfold InABlk
        rw [← eM]
        show m * (p * m_c) * K + k * k_c * mLen M p m_r m_c m ≤ _ ∧
          _ < m * (p * m_c) * K + k * k_c * mLen M p m_r m_c m + chopLen K k_c k * mLen M p m_r m_c m
        rw [Nat.mul_comm (mLen M p m_r m_c m)] at h2
        simp only [Loc.off, aInd]
        omega
      · right
        rw [h1]
        refine ⟨rfl, ?_⟩
        have hx := bIdx_lt (q := nLen N n_r n_c n / n_r) (n_r := n_r) (k := chopLen K k_c k)
          hi (by rwa [Nat.div_mul_cancel (nLen_dvd h)])
        rw [Nat.div_mul_cancel (nLen_dvd h)] at hx
        unfold InBBlk
        rw [← eN]
        show n * n_c * K + k * k_c * nLen N n_r n_c n ≤ _ ∧
          _ < n * n_c * K + k * k_c * nLen N n_r n_c n + chopLen K k_c k * nLen N n_r n_c n
        rw [Nat.mul_comm (nLen N n_r n_c n)] at hx
        simp only [Loc.off, bInd]
        have e : chopLen (padTo N n_c n_r) n_c n = nLen N n_r n_c n := rfl
        rw [e]
        omega
    · simp at hl
  · rintro rfl ⟨n, m, k⟩ hv
    rw [mem_snake] at hv
    obtain ⟨hn, hm, hkk⟩ := hv
    have hml : 0 < mLen M p m_r m_c m := chopLen_pos h.S_pos (by rwa [← mb_eq h])
    have hX := (m_strips (N := 0) (K := 0) (k_c := k_c) (n_r := n_r) (n_c := n_c) h hm).1
    have hu : 0 < mU M p m_r m_c m := cdiv_pos hml hX
    have hnl : 0 < nLen N n_r n_c n := chopLen_pos h.n_c_pos (by rwa [← nb_eq h])
    have hmt : 0 < mT M p m_r m_c m 0 := chopLen_pos hX hu
    have hkl : 0 < chopLen K k_c k := chopLen_pos h.k_c_pos hkk
    have hq : 0 < mT M p m_r m_c m 0 / m_r := Nat.div_pos (Nat.le_of_dvd hmt (mT_dvd h hm)) h.m_r_pos
    have hq' : 0 < nLen N n_r n_c n / n_r := Nat.div_pos (Nat.le_of_dvd hnl (nLen_dvd h)) h.n_r_pos
    simp only [if_pos hu]
    have hkm : 0 < kd.m := by rw [hk.m_eq]; exact h.m_r_pos
    have hknl : 0 < kd.nl := by
      apply Nat.pos_of_ne_zero
      intro e
      have := hk.n_eq
      have := h.n_r_pos
      simp_all
    obtain ⟨⟨o, ho, hr⟩, o', ho', hr'⟩ := kernel_reads_ex (t := 0)
      (⟨.Ap, 0⟩ +ₚ aInd M K p m_r m_c k_c m k 0 +ₚ (0 * m_r * chopLen K k_c k))
      (⟨.Bp, 0⟩ +ₚ bInd N K n_r k_c n_c n k +ₚ (0 * chopLen K k_c k * n_r))
      (⟨.CpC 0, 0⟩ +ₚ (0 * mT M p m_r m_c m 0 * n_r + 0 * m_r * n_r)) n_r (chopLen K k_c k)
      hk.L_pos hkm hknl hkl
    have mem : ∀ o, o ∈ kernel kd.L kd.m kd.nl 0
        (⟨.Ap, 0⟩ +ₚ aInd M K p m_r m_c k_c m k 0 +ₚ (0 * m_r * chopLen K k_c k))
        (⟨.Bp, 0⟩ +ₚ bInd N K n_r k_c n_c n k +ₚ (0 * chopLen K k_c k * n_r))
        (⟨.CpC 0, 0⟩ +ₚ (0 * mT M p m_r m_c m 0 * n_r + 0 * m_r * n_r)) n_r (chopLen K k_c k) →
        o ∈ regTiles kd 0 (⟨.Ap, 0⟩ +ₚ aInd M K p m_r m_c k_c m k 0)
          (⟨.Bp, 0⟩ +ₚ bInd N K n_r k_c n_c n k) ⟨.CpC 0, 0⟩ m_r n_r
          (mT M p m_r m_c m 0) (nLen N n_r n_c n) (chopLen K k_c k) := by
      intro o ho
      unfold regTiles
      exact mem_flatMap.2 ⟨0, mem_range.2 hq', mem_flatMap.2 ⟨0, mem_range.2 hq, ho⟩⟩
    exact ⟨⟨_, mem_packedReads.2 ⟨Or.inl rfl, o, mem o ho, hr⟩, rfl⟩,
      ⟨_, mem_packedReads.2 ⟨Or.inr rfl, o', mem o' ho', hr'⟩, rfl⟩⟩

/-- The blocks do not overlap, so an index read tells which block was visited. -/
theorem blk_disjoint {S K k_c m m' k k' x : Nat} {rows : Nat → Nat} (hr : ∀ m, rows m ≤ S)
    (hk : k * k_c + min k_c (K - k * k_c) ≤ K) (hk' : k' * k_c + min k_c (K - k' * k_c) ≤ K)
    (h1 : m * S * K + k * k_c * rows m ≤ x)
    (h2 : x < m * S * K + k * k_c * rows m + min k_c (K - k * k_c) * rows m)
    (h1' : m' * S * K + k' * k_c * rows m' ≤ x)
    (h2' : x < m' * S * K + k' * k_c * rows m' + min k_c (K - k' * k_c) * rows m') :
    m = m' ∧ k = k' := by
  have top : ∀ {m k}, k * k_c + min k_c (K - k * k_c) ≤ K →
      m * S * K + k * k_c * rows m ≤ x →
      x < m * S * K + k * k_c * rows m + min k_c (K - k * k_c) * rows m →
      ∃ y, y < S * K ∧ x = m * (S * K) + y := by
    intro m k hk h1 h2
    have h3 := Nat.mul_le_mul hk (hr m)
    rw [Nat.add_mul, Nat.mul_comm K S] at h3
    rw [Nat.mul_assoc m] at h1 h2
    exact ⟨x - m * (S * K), by omega, by omega⟩
  obtain ⟨y, hy, e⟩ := top hk h1 h2
  obtain ⟨y', hy', e'⟩ := top hk' h1' h2'
  obtain ⟨rfl, rfl⟩ := mulAdd_inj hy hy' (e ▸ e')
  refine ⟨rfl, ?_⟩
  have low : ∀ {k}, m * S * K + k * k_c * rows m ≤ x →
      x < m * S * K + k * k_c * rows m + min k_c (K - k * k_c) * rows m →
      ∃ z, z < k_c * rows m ∧ y = k * (k_c * rows m) + z := by
    intro k h1 h2
    have h3 := Nat.mul_le_mul_right (rows m) (Nat.min_le_left k_c (K - k * k_c))
    rw [Nat.mul_assoc m, Nat.mul_assoc k] at h1 h2
    exact ⟨y - k * (k_c * rows m), by omega, by omega⟩
  obtain ⟨z, hz, e⟩ := low h1 h2
  obtain ⟨z', hz', e'⟩ := low h1' h2'
  exact (mulAdd_inj hz hz' (e ▸ e')).1

theorem C25_blocks_disjoint (h : TileOK p m_r n_r m_c k_c n_c) {n m k n' m' k' : Nat}
    (hk : k < (K + k_c - 1) / k_c) (hk' : k' < (K + k_c - 1) / k_c) (x : Nat) :
    (InABlk M K p m_r m_c k_c m k x → InABlk M K p m_r m_c k_c m' k' x → m = m' ∧ k = k') ∧
    (InBBlk N K n_r k_c n_c n k x → InBBlk N K n_r k_c n_c n' k' x → n = n' ∧ k = k') := by
  have e : ∀ {k}, k < (K + k_c - 1) / k_c → k * k_c + min k_c (K - k * k_c) ≤ K :=
    fun hk => chop_bound' h.k_c_pos hk
  constructor
  · rintro ⟨h1, h2⟩ ⟨h1', h2'⟩
    exact blk_disjoint (S := p * m_c)
      (rows := fun m => min (p * m_c) ((M + m_r - 1) / m_r * m_r - m * (p * m_c)))
      (fun _ => Nat.min_le_left _ _) (e hk) (e hk') h1 h2 h1' h2'
  · rintro ⟨h1, h2⟩ ⟨h1', h2'⟩
    exact blk_disjoint (S := n_c)
      (rows := fun n => min n_c ((N + n_r - 1) / n_r * n_r - n * n_c))
      (fun _ => Nat.min_le_left _ _) (e hk) (e hk') h1 h2 h1' h2'

/-- One step in one coordinate: the block of packed A `(m,k)`, or that of packed B `(k,n)`, or the
block of results `(n,m)` is used again. -/
theorem C25_reuse {n m k n' m' k' : Nat} (h : OneStep (n, m, k) (n', m', k')) :
    (m = m' ∧ k = k') ∨ (k = k' ∧ n = n') ∨ (n = n' ∧ m = m') := by
  rcases h with ⟨_, h1, h2⟩ | ⟨h1, _, h2⟩ | ⟨h1, h2, _⟩
  · exact Or.inl ⟨h1, h2⟩
  · exact Or.inr (Or.inl ⟨h2, h1⟩)
  · exact Or.inr (Or.inr ⟨h1, h2⟩)

end

example := C25_serpentine (M := 43) (N := 37) (K := 11) demo_tile haswell_fits
example := C25_blocks_disjoint (M := 43) (N := 37) (K := 11) (n := 1) (m := 1) (k := 1) (n' := 0) (m' := 0)
  (k' := 0) demo_tile (by decide) (by decide) 60
example : InABlk 43 11 2 6 12 5 1 1 (2 * 12 * 11 + 5 * 24) ∧ OneStep (0, 0, 2) (0, 1, 2) := by
  unfold InABlk OneStep; decide

end Cake
