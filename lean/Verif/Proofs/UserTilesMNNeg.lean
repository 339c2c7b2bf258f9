/-
M-first and N-first with a tile size that is not a multiple of the register tile, on a matrix with a full block: either two
threads write the same entry of C, or an entry of C stays zero.
-/
import Verif.Proofs.UserTilesMN
import Verif.Proofs.WrongKernel

namespace Cake
open List

/-- Extent of block `i` of `T` rows (columns) in blocks of `S`: the last, ragged block is rounded to multiples of `u`. -/
def blkLen (T S u i : Nat) : Nat := if (i == cdiv T S - 1 && T % S != 0) = true then cdiv (T % S) u * u else S

section
variable {T S u i : Nat}

theorem blkLen_full (hS : 0 < S) (h : S ≤ T) : blkLen T S u 0 = S := by
  unfold blkLen
  rw [if_neg]
  rw [Bool.and_eq_true, not_and]
  intro h0 h1
  have hd : 0 < T / S := Nat.div_pos h hS
  have := cdiv_eq_div_add T S hS
  rw [h1] at this
  simp only [beq_iff_eq, Bool.toNat_true] at h0 this
  omega

theorem blkLen_small (h0 : 0 < T) (h : T < S) : blkLen T S u 0 = cdiv T u * u := by
  unfold blkLen
  rw [Nat.mod_eq_of_lt h, if_pos]
  have : cdiv T S = 1 := cdiv_eq_of (by omega) (by omega)
  rw [this]
  simp
  omega

theorem start_eq (hS : 0 < S) (hi : i < cdiv T S) :
    (if (i == cdiv T S - 1 && T % S != 0) = true then T - T % S else i * S) = i * S := by
  split
  · rename_i hl
    simp only [Bool.and_eq_true, beq_iff_eq] at hl
    have := cdiv_eq_div_add T S hS
    rw [hl.2, Bool.toNat_true] at this
    rw [sub_mod_eq]
    congr 1; omega
  · rfl

theorem lt_of_cdiv (hS : 0 < S) (hi : i < cdiv T S) (h1 : i ≠ 0) : S < T := by
  by_contra h
  have : cdiv T S ≤ 1 := cdiv_le_of_le_mul hS (by omega)
  omega

end

/-- The shape shared by the M-first and N-first schedules: block `(n, m)` of C occupies the packed buffer from `base n m`;
compute and unpack operations. `P` is the height of a row block. -/
structure Blocks (M N P n_c m_r n_r : Nat) (base : Nat → Nat → Nat) (sc uc : List (List (List Op))) : Prop where
  sc_dst : ∀ ts ∈ sc, ∀ t ∈ ts, ∀ o ∈ t, (∃ i, o.dst.buf = .reg i) ∨
    ∃ n m u v y, n < cdiv N n_c ∧ m < cdiv M P ∧ u < blkLen N n_c n_r n / n_r ∧ v < blkLen M P m_r m / m_r ∧ y < m_r * n_r ∧
      o.dst = ⟨.Cp, base n m + (u * blkLen M P m_r m * n_r + v * m_r * n_r + y)⟩
  uc_op : ∀ ts ∈ uc, ∀ t ∈ ts, ∀ o ∈ t, ∃ n m r c, n < cdiv N n_c ∧ m < cdiv M P ∧ n * n_c + c < N ∧ m * P + r < M ∧
      o = .copy ⟨.C, (m * P + r) * N + (n * n_c + c)⟩
        ⟨.Cp, base n m + cIdx m_r n_r (cdiv (blkLen M P m_r m) m_r * m_r) r c⟩
  base_zero : base 0 0 = 0

section
variable {M N P n_c m_r n_r : Nat} {base : Nat → Nat → Nat} {sc uc : List (List (List Op))}

/-- If the compute phases skip the element that stands for `C[row][col]`, where this lies in the first block, this entry
stays zero. -/
theorem Blocks.zero {α : Type _} {F : Arith α} (hb : Blocks M N P n_c m_r n_r base sc uc) {row col src : Nat}
    (hrow : row < P) (hcol : col < n_c) (hcN : col < N) (hsrc : src = cIdx m_r n_r (cdiv (blkLen M P m_r 0) m_r * m_r) row col)
    (hskip : ∀ u v y, u < blkLen N n_c n_r 0 / n_r → v < blkLen M P m_r 0 / m_r → y < m_r * n_r →
      u * blkLen M P m_r 0 * n_r + v * m_r * n_r + y ≠ src)
    (hbase : ∀ n m, n < cdiv N n_c → m < cdiv M P → (n ≠ 0 ∨ m ≠ 0) → src < base n m)
    {pre post : Prog} {cSz : Nat} (hpre : ∀ zs : List Loc, (∀ z ∈ zs, z.buf = .C ∨ z.buf = .Cp) → pre.all (itemKeeps zs) = true)
    (hpost : ∀ i ∈ post, ∃ b, i = .free b)
    {s s' : State α} (hC : s.mem ⟨.C, row * N + col⟩ = F.zero) (hfc : s.size .Cp = none)
    (he : Exec F (pre ++ ([.calloc .Cp cSz] ++ phases sc ++ phases uc) ++ post) s (.ok s'))
    (hC' : s'.size .C ≠ none) : s'.mem ⟨.C, row * N + col⟩ = F.zero := by
  have hregs : ∀ z ∈ ([⟨.C, row * N + col⟩, ⟨.Cp, src⟩] : List Loc), ∀ t, z.buf ≠ .reg t := by simp
  have z0 : Zeros F [⟨.C, row * N + col⟩, ⟨.Cp, src⟩] s := by
    intro z hz hn
    simp only [mem_cons, not_mem_nil, or_false] at hz
    rcases hz with rfl | rfl
    · exact hC
    · exact absurd hfc hn
  refine zeros_exec hregs ?_ z0 he _ (by simp) hC'
  simp only [all_append, all_cons, all_nil, Bool.and_eq_true, Bool.and_true, itemKeeps, true_and]
  refine ⟨⟨hpre _ (by simp), ?_, ?_⟩, ?_⟩
  · simp only [phases, all_map, all_eq_true, Function.comp]
    intro ts hts
    refine phase_keeps_two ?_
    intro t ht o ho
    left
    rcases hb.sc_dst ts hts t ht o ho with ⟨i, h⟩ | ⟨n, m, u, v, y, hn, hm, hu, hv, hy, h⟩
    · constructor <;> intro e <;> rw [e] at h <;> cases h
    · rw [h]
      refine ⟨by simp, ?_⟩
      simp only [ne_eq, Loc.mk.injEq, true_and]
      by_cases h0 : n ≠ 0 ∨ m ≠ 0
      · have := hbase n m hn hm h0
        omega
      · rw [not_or, not_not, not_not] at h0
        obtain ⟨rfl, rfl⟩ := h0
        rw [hb.base_zero, Nat.zero_add]
        exact hskip u v y hu hv hy
  · simp only [phases, all_map, all_eq_true, Function.comp]
    intro ts hts
    refine phase_keeps_two ?_
    intro t ht o ho
    obtain ⟨n, m, r, c, hn, hm, h1, h2, rfl⟩ := hb.uc_op ts hts t ht o ho
    by_cases hd : m * P + r = row ∧ n * n_c + c = col
    · right; right
      obtain ⟨e1, e2⟩ := hd
      have hm0 : m = 0 := by
        rcases Nat.eq_zero_or_pos m with h | h
        · exact h
        · have : P ≤ m * P := Nat.le_mul_of_pos_left _ h
          omega
      have hn0 : n = 0 := by
        rcases Nat.eq_zero_or_pos n with h | h
        · exact h
        · have : n_c ≤ n * n_c := Nat.le_mul_of_pos_left _ h
          omega
      subst hm0 hn0
      rw [Nat.zero_mul, Nat.zero_add] at e1 e2
      subst e1 e2
      rw [hb.base_zero, hsrc]
      simp
    · left
      refine ⟨?_, by simp [Op.dst]⟩
      intro e
      simp only [Op.dst, Loc.mk.injEq, true_and] at e
      exact hd (mulAdd_inj h1 hcN e)
  · simp only [all_eq_true]
    intro i hi
    obtain ⟨b, rfl⟩ := hpost i hi
    rfl

theorem fl_lt {S u : Nat} (hd : ¬ u ∣ S) : S / u * u < S := by
  have := Nat.div_mul_le_self S u
  rcases Nat.lt_or_ge (S / u * u) S with h | h
  · exact h
  · exact absurd ⟨S / u, by rw [Nat.mul_comm]; omega⟩ hd

/-- A row stays zero. -/
theorem Blocks.zero_row {α : Type _} {F : Arith α} (hb : Blocks M N P n_c m_r n_r base sc uc) (hmr : 0 < m_r) (hnr : 0 < n_r)
    (hP : 0 < P) (hnc : 0 < n_c) (hN : 0 < N)
    (hd : ¬ m_r ∣ P) (hPM : P ≤ M)
    (hbase : ∀ n m, n < cdiv N n_c → m < cdiv M P → (n ≠ 0 ∨ m ≠ 0) → P / m_r * m_r * n_r < base n m)
    {pre post : Prog} {cSz : Nat} (hpre : ∀ zs : List Loc, (∀ z ∈ zs, z.buf = .C ∨ z.buf = .Cp) → pre.all (itemKeeps zs) = true)
    (hpost : ∀ i ∈ post, ∃ b, i = .free b)
    {s s' : State α} (hC : ∀ l : Loc, l.buf = .C → s.mem l = F.zero) (hfc : s.size .Cp = none)
    (he : Exec F (pre ++ ([.calloc .Cp cSz] ++ phases sc ++ phases uc) ++ post) s (.ok s'))
    (hC' : s'.size .C ≠ none) : ∃ row col, row < M ∧ col < N ∧ entry s' .C N row col = F.zero := by
  have hlt := fl_lt hd
  have hbl : blkLen M P m_r 0 = P := blkLen_full hP hPM
  refine ⟨P / m_r * m_r, 0, by omega, hN, ?_⟩
  refine hb.zero hlt hnc hN (src := P / m_r * m_r * n_r) ?_ ?_ hbase hpre hpost (hC _ rfl) hfc he hC'
  · unfold cIdx
    rw [Nat.mul_div_cancel _ hmr, Nat.mul_mod_left]
    simp [Nat.mul_assoc]
  · intro u v y hu hv hy
    rw [hbl] at hv ⊢
    exact tile_misses_row hnr hd hv hy

/-- A column stays zero. -/
theorem Blocks.zero_col {α : Type _} {F : Arith α} (hb : Blocks M N P n_c m_r n_r base sc uc) (hmr : 0 < m_r) (hnr : 0 < n_r)
    (hP : 0 < P) (hnc : 0 < n_c) (hM : 0 < M)
    (hd : ¬ n_r ∣ n_c) (hnN : n_c ≤ N)
    (hbase : ∀ n m, n < cdiv N n_c → m < cdiv M P → (n ≠ 0 ∨ m ≠ 0) →
      n_c / n_r * (cdiv (blkLen M P m_r 0) m_r * m_r * n_r) < base n m)
    {pre post : Prog} {cSz : Nat} (hpre : ∀ zs : List Loc, (∀ z ∈ zs, z.buf = .C ∨ z.buf = .Cp) → pre.all (itemKeeps zs) = true)
    (hpost : ∀ i ∈ post, ∃ b, i = .free b)
    {s s' : State α} (hC : ∀ l : Loc, l.buf = .C → s.mem l = F.zero) (hfc : s.size .Cp = none)
    (he : Exec F (pre ++ ([.calloc .Cp cSz] ++ phases sc ++ phases uc) ++ post) s (.ok s'))
    (hC' : s'.size .C ≠ none) : ∃ row col, row < M ∧ col < N ∧ entry s' .C N row col = F.zero := by
  have hlt := fl_lt hd
  have hbl : blkLen N n_c n_r 0 = n_c := blkLen_full hnc hnN
  refine ⟨0, n_c / n_r * n_r, hM, by omega, ?_⟩
  refine hb.zero (row := 0) hP hlt (by omega) (src := n_c / n_r * (cdiv (blkLen M P m_r 0) m_r * m_r * n_r)) ?_ ?_ hbase hpre hpost
    (hC _ rfl) hfc he hC'
  · unfold cIdx
    rw [Nat.mul_div_cancel _ hnr, Nat.mul_mod_left]
    simp
  · intro u v y hu hv hy
    rw [hbl] at hu
    exact tile_misses_col hmr hu hv hy

end

/-! ### M-first -/

section
variable {M N K p m_r n_r m_c k_c n_c : Nat}

/-- Place of block `(n, m)` in the packed C of the M-first schedule. -/
def baseM (M N m_r n_r m_c n_c n m : Nat) : Nat := n * padTo M m_c m_r * n_c + m * m_c * blkLen N n_c n_r n

theorem unpackM_form (hm : 0 < m_c) (hn : 0 < n_c) :
    unpack_C_m_first ⟨.C, 0⟩ ⟨.Cp, 0⟩ M N m_r n_r (dimsMKN M N K p m_r n_r m_c k_c n_c) =
      (range (cdiv N n_c)).map fun n => (range (cdiv M m_c)).map fun m =>
        unpack_ob_C_single_buf ⟨.C, m * m_c * N + n * n_c⟩ ⟨.Cp, baseM M N m_r n_r m_c n_c n m⟩ M N (m * m_c) (n * n_c) 0
          (blkLen M m_c m_r m) (blkLen N n_c n_r n) m_r n_r := by
  have eM : (dimsMKN M N K p m_r n_r m_c k_c n_c).Mb = cdiv M m_c := cdiv_eq_div_add _ _ hm
  have eN : (dimsMKN M N K p m_r n_r m_c k_c n_c).Nb = cdiv N n_c := cdiv_eq_div_add _ _ hn
  unfold unpack_C_m_first
  rw [eM, eN]
  refine map_congr_left fun n hn' => map_congr_left fun m hm' => ?_
  rw [mem_range] at hn' hm'
  dsimp only
  have s1 := start_eq (T := M) hm hm'
  have s2 := start_eq (T := N) hn hn'
  rw [show (dimsMKN M N K p m_r n_r m_c k_c n_c).m_pad = (M % m_c != 0) from rfl,
    show (dimsMKN M N K p m_r n_r m_c k_c n_c).n_pad = (N % n_c != 0) from rfl,
    show (dimsMKN M N K p m_r n_r m_c k_c n_c).m_c = m_c from rfl,
    show (dimsMKN M N K p m_r n_r m_c k_c n_c).n_c = n_c from rfl, s1, s2]
  rw [show (dimsMKN M N K p m_r n_r m_c k_c n_c).m_c1 = cdiv (M % m_c) m_r * m_r from rfl,
    show (dimsMKN M N K p m_r n_r m_c k_c n_c).n_c1 = cdiv (N % n_c) n_r * n_r from rfl,
    show (dimsMKN M N K p m_r n_r m_c k_c n_c).M_padded = padTo M m_c m_r from rfl]
  have eb : ∀ (T S u i : Nat), (if (i == cdiv T S - 1 && T % S != 0) = true then cdiv (T % S) u * u else S) = blkLen T S u i :=
    fun _ _ _ _ => rfl
  rw [eb, eb]
  congr 1
  · simp [Loc.off]
  · unfold baseM Loc.off
    simp only [Nat.zero_add, Loc.mk.injEq, true_and]
    ring

theorem blocksM (hmr : 0 < m_r) (hnr : 0 < n_r) (hm : 0 < m_c) (hn : 0 < n_c) {kd : KDim} (hk : kd.Fits m_r n_r) (A_p B_p : Loc) :
    Blocks M N m_c n_c m_r n_r (baseM M N m_r n_r m_c n_c)
      (schedule_MKN kd A_p B_p ⟨.Cp, 0⟩ K p m_r n_r (dimsMKN M N K p m_r n_r m_c k_c n_c))
      (unpack_C_m_first ⟨.C, 0⟩ ⟨.Cp, 0⟩ M N m_r n_r (dimsMKN M N K p m_r n_r m_c k_c n_c)) := by
  have eM : (dimsMKN M N K p m_r n_r m_c k_c n_c).Mb = cdiv M m_c := cdiv_eq_div_add _ _ hm
  have eN : (dimsMKN M N K p m_r n_r m_c k_c n_c).Nb = cdiv N n_c := cdiv_eq_div_add _ _ hn
  have eMt : ∀ m, (if (m == cdiv M m_c - 1 && (dimsMKN M N K p m_r n_r m_c k_c n_c).m_pad) = true then
      (dimsMKN M N K p m_r n_r m_c k_c n_c).m_c1 else (dimsMKN M N K p m_r n_r m_c k_c n_c).m_c) = blkLen M m_c m_r m :=
    fun _ => rfl
  have eNt : ∀ n, (if (n == cdiv N n_c - 1 && (dimsMKN M N K p m_r n_r m_c k_c n_c).n_pad) = true then
      (dimsMKN M N K p m_r n_r m_c k_c n_c).n_c1 else (dimsMKN M N K p m_r n_r m_c k_c n_c).n_c) = blkLen N n_c n_r n :=
    fun _ => rfl
  have eP : (dimsMKN M N K p m_r n_r m_c k_c n_c).M_padded = padTo M m_c m_r := rfl
  have em : (dimsMKN M N K p m_r n_r m_c k_c n_c).m_c = m_c := rfl
  have en : (dimsMKN M N K p m_r n_r m_c k_c n_c).n_c = n_c := rfl
  refine ⟨?_, ?_, by simp [baseM]⟩
  · intro ts hts t ht o ho
    unfold schedule_MKN at hts
    simp only [eM, eN, mem_flatMap, mem_map, mem_range] at hts
    obtain ⟨n, hn', k, -, rfl⟩ := hts
    simp only [mem_map, mem_range] at ht
    obtain ⟨i, hi, rfl⟩ := ht
    simp only [mem_flatMap, mem_range] at ho
    obtain ⟨core, -, ho⟩ := ho
    generalize (if n % 2 ≠ 0 then if k % 2 ≠ 0 then false else true else if k % 2 ≠ 0 then true else false) = b at ho
    generalize hmd : (if b = true then cdiv M m_c - 1 - i else i) = m at ho
    have hmlt : m < cdiv M m_c := by subst hmd; split <;> omega
    rw [eMt, eNt, eP, em, en] at ho
    rcases regTilesAny_dst hk _ _ _ _ _ _ _ o ho with h | ⟨u, v, y, hu, hv, hy, h⟩
    · exact Or.inl ⟨_, h⟩
    · refine Or.inr ⟨n, m, u, v, y, hn', hmlt, hu, hv, hy, ?_⟩
      rw [h]
      simp only [Loc.off, Nat.zero_add, baseM]
  · intro ts hts t ht o ho
    rw [unpackM_form hm hn] at hts
    simp only [mem_map, mem_range] at hts
    obtain ⟨n, hn', rfl⟩ := hts
    simp only [mem_map, mem_range] at ht
    obtain ⟨m, hm', rfl⟩ := ht
    rw [unpackAny_mem _ _ _ _ _ _ _ _ _ hmr hnr] at ho
    obtain ⟨r, c, -, -, h1, h2, rfl⟩ := ho
    refine ⟨n, m, r, c, hn', hm', h1, by omega, ?_⟩
    simp only [Loc.off]
    congr 2
    ring

theorem two_blocks {T S : Nat} (hS : 0 < S) (hlt : S < T) : 1 < cdiv T S := by
  by_contra hc
  have := cdiv_mul_ge T S hS
  have : cdiv T S * S ≤ 1 * S := Nat.mul_le_mul_right _ (by omega)
  omega

theorem cdiv_gt {S u : Nat} (hu : 0 < u) (hd : ¬ u ∣ S) : S < cdiv S u * u := by
  have := cdiv_mul_ge S u hu
  rcases Nat.lt_or_ge S (cdiv S u * u) with h | h
  · exact h
  · exact absurd ⟨cdiv S u, by rw [Nat.mul_comm]; omega⟩ hd

theorem blkLen_pos {T S u i : Nat} (hS : 0 < S) (hu : 0 < u) : 0 < blkLen T S u i := by
  unfold blkLen
  split
  · rename_i h
    simp only [Bool.and_eq_true, bne_iff_ne, ne_eq] at h
    exact Nat.mul_pos (cdiv_pos (Nat.pos_of_ne_zero h.2) hu) hu
  · exact hS

theorem cdiv_round_pos {l u : Nat} (hl : 0 < l) (hu : 0 < u) : 0 < cdiv l u * u := Nat.mul_pos (cdiv_pos hl hu) hu

/-- Two tasks of the unpack phase write the first row of the second block. -/
theorem unpackM_race (hmr : 0 < m_r) (hnr : 0 < n_r) (hm : 0 < m_c) (hn : 0 < n_c) (hN : 0 < N)
    (hd : ¬ m_r ∣ m_c) (hlt : m_c < M) :
    ∃ ts ∈ unpack_C_m_first ⟨.C, 0⟩ ⟨.Cp, 0⟩ M N m_r n_r (dimsMKN M N K p m_r n_r m_c k_c n_c), ¬ RaceFree ts := by
  have hN0 : 0 < cdiv N n_c := cdiv_pos hN hn
  have hM2 := two_blocks hm hlt
  have hcn : 0 < cdiv (blkLen N n_c n_r 0) n_r * n_r := cdiv_round_pos (blkLen_pos hn hnr) hnr
  rw [unpackM_form hm hn]
  refine ⟨_, mem_map.2 ⟨0, mem_range.2 hN0, rfl⟩, fun hr => ?_⟩
  unfold RaceFree at hr
  rw [pairwise_map] at hr
  have key := List.pairwise_iff_getElem.1 hr 0 1 (by simp; omega) (by simp; omega) (by omega)
  simp only [getElem_range] at key
  refine key _ ((unpackAny_mem _ _ _ _ _ _ _ _ _ hmr hnr _).2 ⟨m_c, 0, ?_, hcn, by omega, by omega, rfl⟩)
    _ ((unpackAny_mem _ _ _ _ _ _ _ _ _ hmr hnr _).2 ⟨0, 0, cdiv_round_pos (blkLen_pos hm hmr) hmr, hcn, by omega, by omega, rfl⟩) ?_
  · rw [blkLen_full hm (by omega)]; exact cdiv_gt hmr hd
  · left
    simp [Op.dst, Loc.off]

/-! ### N-first -/

/-- Place of block `(n, m)` in the packed C of the N-first schedule; `P = p * m_c`. -/
def baseN (M N m_r n_r P n_c n m : Nat) : Nat := m * P * padTo N n_c n_r + blkLen M P m_r m * n * n_c

theorem unpackN_form (hS : 0 < p * m_c) (hn : 0 < n_c) :
    unpack_C_n_first ⟨.C, 0⟩ ⟨.Cp, 0⟩ M N p m_r n_r (dimsNKM M N K p m_r n_r m_c k_c n_c) =
      (range (cdiv M (p * m_c))).map fun m => (range (cdiv N n_c)).map fun n =>
        unpack_ob_C_single_buf ⟨.C, m * (p * m_c) * N + n * n_c⟩ ⟨.Cp, baseN M N m_r n_r (p * m_c) n_c n m⟩ M N
          (m * (p * m_c)) (n * n_c) 0 (blkLen M (p * m_c) m_r m) (blkLen N n_c n_r n) m_r n_r := by
  have eM : (dimsNKM M N K p m_r n_r m_c k_c n_c).Mb = cdiv M (p * m_c) := cdiv_eq_div_add _ _ hS
  have eN : (dimsNKM M N K p m_r n_r m_c k_c n_c).Nb = cdiv N n_c := cdiv_eq_div_add _ _ hn
  unfold unpack_C_n_first
  rw [eM, eN]
  refine map_congr_left fun m hm' => map_congr_left fun n hn' => ?_
  rw [mem_range] at hn' hm'
  dsimp only
  have s1 := start_eq (T := M) hS hm'
  have s2 := start_eq (T := N) hn hn'
  rw [show (dimsNKM M N K p m_r n_r m_c k_c n_c).m_pad = (M % (p * m_c) != 0) from rfl,
    show (dimsNKM M N K p m_r n_r m_c k_c n_c).n_pad = (N % n_c != 0) from rfl,
    show (dimsNKM M N K p m_r n_r m_c k_c n_c).m_c = m_c from rfl,
    show (dimsNKM M N K p m_r n_r m_c k_c n_c).n_c = n_c from rfl, nkm_N_padded, Nat.mul_assoc m p m_c, s1, s2]
  rw [show (dimsNKM M N K p m_r n_r m_c k_c n_c).m_c1 = cdiv (M % (p * m_c)) m_r * m_r from rfl,
    show (dimsNKM M N K p m_r n_r m_c k_c n_c).n_c1 = cdiv (N % n_c) n_r * n_r from rfl]
  have eb : ∀ (T S u i : Nat), (if (i == cdiv T S - 1 && T % S != 0) = true then cdiv (T % S) u * u else S) = blkLen T S u i :=
    fun _ _ _ _ => rfl
  rw [eb, eb]
  congr 1
  · simp [Loc.off]
  · unfold baseN Loc.off
    simp only [Nat.zero_add, Loc.mk.injEq, true_and]
    ring

theorem blocksN (hmr : 0 < m_r) (hnr : 0 < n_r) (hS : 0 < p * m_c) (hn : 0 < n_c) {kd : KDim} (hk : kd.Fits m_r n_r) (A_p B_p : Loc) :
    Blocks M N (p * m_c) n_c m_r n_r (baseN M N m_r n_r (p * m_c) n_c)
      (schedule_NKM kd A_p B_p ⟨.Cp, 0⟩ K p m_r n_r (dimsNKM M N K p m_r n_r m_c k_c n_c))
      (unpack_C_n_first ⟨.C, 0⟩ ⟨.Cp, 0⟩ M N p m_r n_r (dimsNKM M N K p m_r n_r m_c k_c n_c)) := by
  have eM : (dimsNKM M N K p m_r n_r m_c k_c n_c).Mb = cdiv M (p * m_c) := cdiv_eq_div_add _ _ hS
  have eN : (dimsNKM M N K p m_r n_r m_c k_c n_c).Nb = cdiv N n_c := cdiv_eq_div_add _ _ hn
  have eMt : ∀ m, (if (m == cdiv M (p * m_c) - 1 && (dimsNKM M N K p m_r n_r m_c k_c n_c).m_pad) = true then
      (dimsNKM M N K p m_r n_r m_c k_c n_c).m_c1 else p * (dimsNKM M N K p m_r n_r m_c k_c n_c).m_c) =
        blkLen M (p * m_c) m_r m := fun _ => rfl
  have eNt : ∀ n, (if (n == cdiv N n_c - 1 && (dimsNKM M N K p m_r n_r m_c k_c n_c).n_pad) = true then
      (dimsNKM M N K p m_r n_r m_c k_c n_c).n_c1 else (dimsNKM M N K p m_r n_r m_c k_c n_c).n_c) = blkLen N n_c n_r n :=
    fun _ => rfl
  have em : (dimsNKM M N K p m_r n_r m_c k_c n_c).m_c = m_c := rfl
  have en : (dimsNKM M N K p m_r n_r m_c k_c n_c).n_c = n_c := rfl
  refine ⟨?_, ?_, by simp [baseN]⟩
  · intro ts hts t ht o ho
    unfold schedule_NKM at hts
    simp only [eM, eN, mem_flatMap, mem_map, mem_range] at hts
    obtain ⟨m, hm', k, -, rfl⟩ := hts
    simp only [mem_map, mem_range] at ht
    obtain ⟨i, hi, rfl⟩ := ht
    simp only [mem_flatMap, mem_range] at ho
    obtain ⟨core, -, ho⟩ := ho
    generalize (if m % 2 ≠ 0 then if k % 2 ≠ 0 then false else true else if k % 2 ≠ 0 then true else false) = b at ho
    generalize hnd : (if b = true then cdiv N n_c - 1 - i else i) = n at ho
    have hnlt : n < cdiv N n_c := by subst hnd; split <;> omega
    rw [eMt, eNt, nkm_N_padded, em, en] at ho
    rcases regTilesAny_dst hk _ _ _ _ _ _ _ o ho with h | ⟨u, v, y, hu, hv, hy, h⟩
    · exact Or.inl ⟨_, h⟩
    · refine Or.inr ⟨n, m, u, v, y, hnlt, hm', hu, hv, hy, ?_⟩
      rw [h]
      simp only [Loc.off, Nat.zero_add, baseN, Nat.mul_assoc m p m_c]
  · intro ts hts t ht o ho
    rw [unpackN_form hS hn] at hts
    simp only [mem_map, mem_range] at hts
    obtain ⟨m, hm', rfl⟩ := hts
    simp only [mem_map, mem_range] at ht
    obtain ⟨n, hn', rfl⟩ := ht
    rw [unpackAny_mem _ _ _ _ _ _ _ _ _ hmr hnr] at ho
    obtain ⟨r, c, -, -, h1, h2, rfl⟩ := ho
    refine ⟨n, m, r, c, hn', hm', h1, by omega, ?_⟩
    simp only [Loc.off]
    congr 2
    ring

/-- Two tasks of the unpack phase write the first column of the second block. -/
theorem unpackN_race (hmr : 0 < m_r) (hnr : 0 < n_r) (hS : 0 < p * m_c) (hn : 0 < n_c) (hM : 0 < M)
    (hd : ¬ n_r ∣ n_c) (hlt : n_c < N) :
    ∃ ts ∈ unpack_C_n_first ⟨.C, 0⟩ ⟨.Cp, 0⟩ M N p m_r n_r (dimsNKM M N K p m_r n_r m_c k_c n_c), ¬ RaceFree ts := by
  have hM0 : 0 < cdiv M (p * m_c) := cdiv_pos hM hS
  have hN2 := two_blocks hn hlt
  have hcm : 0 < cdiv (blkLen M (p * m_c) m_r 0) m_r * m_r := cdiv_round_pos (blkLen_pos hS hmr) hmr
  rw [unpackN_form hS hn]
  refine ⟨_, mem_map.2 ⟨0, mem_range.2 hM0, rfl⟩, fun hr => ?_⟩
  unfold RaceFree at hr
  rw [pairwise_map] at hr
  have key := List.pairwise_iff_getElem.1 hr 0 1 (by simp; omega) (by simp; omega) (by omega)
  simp only [getElem_range] at key
  refine key _ ((unpackAny_mem _ _ _ _ _ _ _ _ _ hmr hnr _).2 ⟨0, n_c, hcm, ?_, by omega, by omega, rfl⟩)
    _ ((unpackAny_mem _ _ _ _ _ _ _ _ _ hmr hnr _).2 ⟨0, 0, hcm, cdiv_round_pos (blkLen_pos hn hnr) hnr, by omega, by omega, rfl⟩) ?_
  · rw [blkLen_full hn (by omega)]; exact cdiv_gt hnr hd
  · left
    simp [Op.dst, Loc.off]

/-! ### The programs -/

/-- An item that does not touch elements of C and packed C. -/
theorem pre_keeps {pa pb : List (List (List Op))} (ha : PhWrites .Ap pa) (hb : PhWrites .Bp pb) {aSz bSz : Nat} {zs : List Loc}
    (hz : ∀ z ∈ zs, z.buf = .C ∨ z.buf = .Cp) :
    (([.malloc .Blk 1, .malloc .Dims 1, .free .Dims] ++ (.memalign .Ap aSz :: phases pa) ++
      (.memalign .Bp bSz :: phases pb) : Prog).all (itemKeeps zs)) = true := by
  have hne : ∀ b, b ≠ Buf.C → b ≠ Buf.Cp → ∀ z ∈ zs, z.buf ≠ b := by
    intro b h1 h2 z hz' e
    rcases hz z hz' with h | h
    · exact h1 (e.symm.trans h)
    · exact h2 (e.symm.trans h)
  have hmem : ∀ b, (∀ z ∈ zs, z.buf ≠ b) → (!(zs.map (·.buf)).contains b) = true := by
    intro b hb
    simp only [Bool.not_eq_true', contains_eq_mem, decide_eq_false_iff_not, mem_map, not_exists, not_and]
    exact hb
  simp only [all_append, all_cons, all_nil, Bool.and_eq_true, Bool.and_true, itemKeeps]
  exact ⟨⟨⟨hmem _ (hne _ (by simp) (by simp)), hmem _ (hne _ (by simp) (by simp))⟩,
    hmem _ (hne _ (by simp) (by simp)), ha.keeps (hne _ (by simp) (by simp))⟩,
    hmem _ (hne _ (by simp) (by simp)), hb.keeps (hne _ (by simp) (by simp))⟩

theorem padTo_full_le {T S u : Nat} : T / S * S ≤ padTo T S u := Nat.le_add_right _ _

theorem le_padTo {T S u : Nat} (hS : 0 < S) (h : S ≤ T) : S ≤ padTo T S u := by
  refine Nat.le_trans ?_ padTo_full_le
  have : 1 * S ≤ T / S * S := Nat.mul_le_mul_right _ (Nat.div_pos h hS)
  omega

theorem padTo_small {T S u : Nat} (h : T < S) : padTo T S u = cdiv T u * u := by
  unfold padTo
  rw [Nat.div_eq_of_lt h, Nat.mod_eq_of_lt h]
  simp

theorem blkLen_le_padTo {T S u : Nat} (hS : 0 < S) (h0 : 0 < T) : blkLen T S u 0 ≤ padTo T S u := by
  rcases Nat.lt_or_ge T S with h | h
  · rw [blkLen_small h0 h, padTo_small h]
  · rw [blkLen_full hS h]; exact le_padTo hS h

/-- The height of the first block is a multiple of `u` if blocks are, or if it is the only, ragged one. -/
theorem blkLen_round {T S u : Nat} (hS : 0 < S) (hu : 0 < u) (h0 : 0 < T) (h : u ∣ S ∨ T < S) :
    cdiv (blkLen T S u 0) u * u = blkLen T S u 0 := by
  have key : ∀ q, cdiv (q * u) u * u = q * u := fun q => by rw [cdiv_mul_self _ _ hu]
  rcases Nat.lt_or_ge T S with hlt | hge
  · rw [blkLen_small h0 hlt, key]
  · rw [blkLen_full hS hge]
    obtain ⟨q, rfl⟩ := h.resolve_right (by omega)
    rw [Nat.mul_comm u q, key]

theorem mfirst_nofit {α : Type _} {F : Arith α} {nz : α → Bool} {cx : Cntx} (hk : cx.kfix.Fits cx.m_r cx.n_r)
    (hmr : 0 < cx.m_r) (hnr : 0 < cx.n_r) (hm : 0 < m_c) (hn : 0 < n_c) (hM : 0 < M) (hN : 0 < N)
    (hfit : ¬ ((cx.m_r ∣ m_c ∨ M < m_c) ∧ (cx.n_r ∣ n_c ∨ N < n_c)))
    {alpha beta : α} (hb : nz beta = false) {prog : Prog}
    (hprog : cake_sgemm nz cx ⟨.A, 0⟩ ⟨.B, 0⟩ ⟨.C, 0⟩ M N K p false false alpha beta m_c k_c n_c .MKN = some prog)
    (hrace : ∀ ts, Item.par ts ∈ prog → RaceFree ts)
    {s s' : State α} (hC : ∀ l : Loc, l.buf = .C → s.mem l = F.zero) (hfc : s.size .Cp = none)
    (he : Exec F prog s (.ok s')) (hC' : s'.size .C ≠ none) :
    ∃ row col, row < M ∧ col < N ∧ entry s' .C N row col = F.zero := by
  have hsch : (dimsMKN M N K p cx.m_r cx.n_r m_c k_c n_c).sch = .MKN := rfl
  have hS : (Sched.MKN = Sched.KMN) = False := by simp
  simp only [cake_sgemm, init_block_dims, hsch, packedASize, packedCSize, pack_A, pack_B, pack_C, unpack_C,
    schedule, Option.bind_eq_bind, Option.bind_some, Bool.false_eq_true, if_false, Option.some.injEq, hb, hS] at hprog
  subst hprog
  have hB := blocksM (M := M) (N := N) (K := K) (p := p) (k_c := k_c) hmr hnr hm hn hk ⟨.Ap, 0⟩ ⟨.Bp, 0⟩
  rw [append_assoc, append_assoc _ [Item.free .Cp], ← append_assoc] at he
  have hpost : ∀ i ∈ [Item.free .Cp] ++ ([Item.free .Ap] ++ [Item.free .Bp] ++ [Item.free .Blk]), ∃ b, i = .free b := by
    simp
  by_cases f1 : cx.m_r ∣ m_c ∨ M < m_c
  · have f2 : ¬ (cx.n_r ∣ n_c ∨ N < n_c) := fun h => hfit ⟨f1, h⟩
    rw [not_or, Nat.not_lt] at f2
    refine hB.zero_col hmr hnr hm hn hM f2.1 f2.2 ?_ (fun zs hz => pre_keeps packA_m_dst packB_m_dst hz) hpost hC hfc he hC'
    intro n m hn' hm' h0
    rw [blkLen_round hm hmr hM f1]
    have e : n_c / cx.n_r * (blkLen M m_c cx.m_r 0 * cx.n_r) = blkLen M m_c cx.m_r 0 * (n_c / cx.n_r * cx.n_r) := by ring
    rw [e]
    have lt : blkLen M m_c cx.m_r 0 * (n_c / cx.n_r * cx.n_r) < blkLen M m_c cx.m_r 0 * n_c :=
      Nat.mul_lt_mul_of_pos_left (fl_lt f2.1) (blkLen_pos hm hmr)
    refine Nat.lt_of_lt_of_le lt ?_
    unfold baseM
    rcases Nat.eq_zero_or_pos n with rfl | hnp
    · have hm0 : m ≠ 0 := by simpa using h0
      have hlt := lt_of_cdiv hm hm' hm0
      rw [blkLen_full hm (by omega), blkLen_full hn f2.2, Nat.zero_mul, Nat.zero_mul, Nat.zero_add]
      exact Nat.mul_le_mul_right _ (Nat.le_mul_of_pos_left _ (Nat.pos_of_ne_zero hm0))
    · refine Nat.le_trans (Nat.mul_le_mul_right _ (Nat.le_trans (blkLen_le_padTo hm hM) (Nat.le_mul_of_pos_left _ hnp)))
        (Nat.le_add_right _ _)
  · rw [not_or, Nat.not_lt] at f1
    rcases Nat.lt_or_ge m_c M with hlt | hge
    · exfalso
      obtain ⟨ts, hts, hr⟩ := unpackM_race (M := M) (N := N) (K := K) (p := p) (k_c := k_c) hmr hnr hm hn hN f1.1 hlt
      refine hr (hrace ts ?_)
      refine mem_append_left _ (mem_append_right _ (mem_append_left _ (mem_append_right _ (mem_map_of_mem hts))))
    · have hMe : M = m_c := by omega
      have hone : cdiv M m_c = 1 := cdiv_eq_of (by omega) (by omega)
      have hpad : padTo M m_c cx.m_r = m_c := by
        unfold padTo; rw [hMe, Nat.mod_self, cdiv_zero, Nat.div_self hm]; simp
      by_cases hw : cx.n_r ≤ n_c ∨ N < n_c
      · refine hB.zero_row hmr hnr hm hn hN f1.1 f1.2 ?_ (fun zs hz => pre_keeps packA_m_dst packB_m_dst hz) hpost hC hfc he hC'
        intro n m hn' hm' h0
        have hm0 : m = 0 := by omega
        have hn0 : n ≠ 0 := by rcases h0 with h | h; exacts [h, absurd hm0 h]
        have hltN := lt_of_cdiv hn hn' hn0
        have hle : cx.n_r ≤ n_c := hw.resolve_right (by omega)
        unfold baseM
        rw [hpad, hm0, Nat.zero_mul, Nat.zero_mul, Nat.add_zero]
        calc m_c / cx.m_r * cx.m_r * cx.n_r < m_c * cx.n_r := Nat.mul_lt_mul_of_pos_right (fl_lt f1.1) hnr
          _ ≤ m_c * n_c := Nat.mul_le_mul_left _ hle
          _ ≤ n * m_c * n_c := Nat.mul_le_mul_right _ (Nat.le_mul_of_pos_left _ (Nat.pos_of_ne_zero hn0))
      · rw [not_or, Nat.not_le, Nat.not_lt] at hw
        have hdn : ¬ cx.n_r ∣ n_c := fun h => absurd (Nat.le_of_dvd hn h) (by omega)
        refine hB.zero_col hmr hnr hm hn hM hdn hw.2 ?_ (fun zs hz => pre_keeps packA_m_dst packB_m_dst hz) hpost hC hfc he hC'
        intro n m hn' hm' h0
        have hm0 : m = 0 := by omega
        have hn0 : n ≠ 0 := by rcases h0 with h | h; exacts [h, absurd hm0 h]
        rw [Nat.div_eq_of_lt hw.1, Nat.zero_mul]
        unfold baseM
        rw [hpad]
        have := Nat.mul_pos (Nat.mul_pos (Nat.pos_of_ne_zero hn0) hm) hn
        omega

theorem nfirst_nofit {α : Type _} {F : Arith α} {nz : α → Bool} {cx : Cntx} (hk : cx.kfix.Fits cx.m_r cx.n_r)
    (hmr : 0 < cx.m_r) (hnr : 0 < cx.n_r) (hP : 0 < p * m_c) (hn : 0 < n_c) (hM : 0 < M) (hN : 0 < N)
    (hfit : ¬ ((cx.m_r ∣ p * m_c ∨ M < p * m_c) ∧ (cx.n_r ∣ n_c ∨ N < n_c)))
    {alpha beta : α} (hb : nz beta = false) {prog : Prog}
    (hprog : cake_sgemm nz cx ⟨.A, 0⟩ ⟨.B, 0⟩ ⟨.C, 0⟩ M N K p false false alpha beta m_c k_c n_c .NKM = some prog)
    (hrace : ∀ ts, Item.par ts ∈ prog → RaceFree ts)
    {s s' : State α} (hC : ∀ l : Loc, l.buf = .C → s.mem l = F.zero) (hfc : s.size .Cp = none)
    (he : Exec F prog s (.ok s')) (hC' : s'.size .C ≠ none) :
    ∃ row col, row < M ∧ col < N ∧ entry s' .C N row col = F.zero := by
  have hsch : (dimsNKM M N K p cx.m_r cx.n_r m_c k_c n_c).sch = .NKM := rfl
  have hS : (Sched.NKM = Sched.KMN) = False := by simp
  simp only [cake_sgemm, init_block_dims, hsch, packedASize, packedCSize, pack_A, pack_B, pack_C, unpack_C,
    schedule, Option.bind_eq_bind, Option.bind_some, Bool.false_eq_true, if_false, Option.some.injEq, hb, hS] at hprog
  subst hprog
  have hB := blocksN (M := M) (N := N) (K := K) (p := p) (m_c := m_c) (k_c := k_c) hmr hnr hP hn hk ⟨.Ap, 0⟩ ⟨.Bp, 0⟩
  rw [append_assoc, append_assoc _ [Item.free .Cp], ← append_assoc] at he
  have hpost : ∀ i ∈ [Item.free .Cp] ++ ([Item.free .Ap] ++ [Item.free .Bp] ++ [Item.free .Blk]), ∃ b, i = .free b := by
    simp
  by_cases f2 : cx.n_r ∣ n_c ∨ N < n_c
  · have f1 : ¬ (cx.m_r ∣ (p * m_c) ∨ M < (p * m_c)) := fun h => hfit ⟨h, f2⟩
    rw [not_or, Nat.not_lt] at f1
    refine hB.zero_row hmr hnr hP hn hN f1.1 f1.2 ?_ (fun zs hz => pre_keeps packA_n_dst packB_n_dst hz) hpost hC hfc he hC'
    intro n m hn' hm' h0
    have lt : (p * m_c) / cx.m_r * cx.m_r * cx.n_r < (p * m_c) * cx.n_r := Nat.mul_lt_mul_of_pos_right (fl_lt f1.1) hnr
    refine Nat.lt_of_lt_of_le lt ?_
    unfold baseN
    rcases Nat.eq_zero_or_pos m with rfl | hmp
    · have hn0 : n ≠ 0 := by simpa using h0
      have hlt := lt_of_cdiv hn hn' hn0
      have hle : cx.n_r ≤ n_c := Nat.le_of_dvd hn (f2.resolve_right (by omega))
      rw [blkLen_full hP f1.2, Nat.zero_mul, Nat.zero_mul, Nat.zero_add, Nat.mul_assoc (p * m_c) n n_c]
      exact Nat.mul_le_mul_left _ (Nat.le_trans hle (Nat.le_mul_of_pos_left _ (Nat.pos_of_ne_zero hn0)))
    · have hle : cx.n_r ≤ padTo N n_c cx.n_r := by
        rcases Nat.lt_or_ge N n_c with h | h
        · rw [padTo_small h]; exact Nat.le_mul_of_pos_left _ (cdiv_pos hN hnr)
        · exact Nat.le_trans (Nat.le_of_dvd hn (f2.resolve_right (by omega))) (le_padTo hn h)
      refine Nat.le_trans ?_ (Nat.le_add_right _ _)
      exact Nat.mul_le_mul (Nat.le_mul_of_pos_left _ hmp) hle
  · rw [not_or, Nat.not_lt] at f2
    rcases Nat.lt_or_ge n_c N with hlt | hge
    · exfalso
      obtain ⟨ts, hts, hr⟩ := unpackN_race (M := M) (N := N) (K := K) (p := p) (m_c := m_c) (k_c := k_c) hmr hnr
        hP hn hM f2.1 hlt
      refine hr (hrace ts ?_)
      refine mem_append_left _ (mem_append_right _ (mem_append_left _ (mem_append_right _ (mem_map_of_mem hts))))
    · have hNe : N = n_c := by omega
      have hone : cdiv N n_c = 1 := cdiv_eq_of (by omega) (by omega)
      have hpad : padTo N n_c cx.n_r = n_c := by
        unfold padTo; rw [hNe, Nat.mod_self, cdiv_zero, Nat.div_self hn]; simp
      by_cases f1 : cx.m_r ∣ (p * m_c) ∨ M < (p * m_c)
      · refine hB.zero_col hmr hnr hP hn hM f2.1 f2.2 ?_ (fun zs hz => pre_keeps packA_n_dst packB_n_dst hz) hpost hC hfc he hC'
        intro n m hn' hm' h0
        have hn0 : n = 0 := by omega
        have hm0 : m ≠ 0 := by rcases h0 with h | h; exacts [absurd hn0 h, h]
        have hltM := lt_of_cdiv hP hm' hm0
        rw [blkLen_round hP hmr hM f1, blkLen_full hP (by omega)]
        have e : n_c / cx.n_r * ((p * m_c) * cx.n_r) = (p * m_c) * (n_c / cx.n_r * cx.n_r) := by ring
        rw [e]
        unfold baseN
        rw [hpad, hn0, Nat.mul_zero, Nat.zero_mul, Nat.add_zero]
        exact Nat.lt_of_lt_of_le (Nat.mul_lt_mul_of_pos_left (fl_lt f2.1) hP)
          (Nat.mul_le_mul_right _ (Nat.le_mul_of_pos_left _ (Nat.pos_of_ne_zero hm0)))
      · rw [not_or, Nat.not_lt] at f1
        rcases Nat.lt_or_ge n_c cx.n_r with hw | hw
        · refine hB.zero_col hmr hnr hP hn hM f2.1 f2.2 ?_ (fun zs hz => pre_keeps packA_n_dst packB_n_dst hz) hpost hC hfc he hC'
          intro n m hn' hm' h0
          have hn0 : n = 0 := by omega
          have hm0 : m ≠ 0 := by rcases h0 with h | h; exacts [absurd hn0 h, h]
          rw [Nat.div_eq_of_lt hw, Nat.zero_mul]
          unfold baseN
          rw [hpad]
          have := Nat.mul_pos (Nat.mul_pos (Nat.pos_of_ne_zero hm0) hP) hn
          omega
        · refine hB.zero_row hmr hnr hP hn hN f1.1 f1.2 ?_ (fun zs hz => pre_keeps packA_n_dst packB_n_dst hz) hpost hC hfc he hC'
          intro n m hn' hm' h0
          have hn0 : n = 0 := by omega
          have hm0 : m ≠ 0 := by rcases h0 with h | h; exacts [absurd hn0 h, h]
          unfold baseN
          rw [hpad, hn0, Nat.mul_zero, Nat.zero_mul, Nat.add_zero]
          calc (p * m_c) / cx.m_r * cx.m_r * cx.n_r < (p * m_c) * cx.n_r := Nat.mul_lt_mul_of_pos_right (fl_lt f1.1) hnr
            _ ≤ (p * m_c) * n_c := Nat.mul_le_mul_left _ hw
            _ ≤ m * (p * m_c) * n_c := Nat.mul_le_mul_right _ (Nat.le_mul_of_pos_left _ (Nat.pos_of_ne_zero hm0))

end
end Cake
