/-
K-first with a tile size that is not a multiple of the register tile, on a matrix with a full block: an entry of C
stays zero.
-/
import Verif.Proofs.UserTiles
import Verif.Proofs.Refute
import Verif.Proofs.Align
import Verif.Proofs.ConvNeeds
import Verif.Proofs.PackCN

namespace Cake
open List

section
variable {M N K p m_r n_r m_c k_c n_c : Nat}

/-! ### Operations for arbitrary tile sizes -/

theorem unpack_ob_round (C C_p : Loc) (M N m1 n1 m2 m_c n_c : Nat) (hm : 0 < m_r) (hn : 0 < n_r) :
    unpack_ob_C_single_buf C C_p M N m1 n1 m2 m_c n_c m_r n_r =
      unpack_ob_C_single_buf C C_p M N m1 n1 m2 (cdiv m_c m_r * m_r) (cdiv n_c n_r * n_r) m_r n_r := by
  unfold unpack_ob_C_single_buf
  rw [cfor_eq 0 m_c _ hm, cfor_eq 0 n_c _ hn, cfor_eq 0 (_ * m_r) _ hm, cfor_eq 0 (_ * n_r) _ hn]
  simp only [Nat.sub_zero, cdiv_mul_self _ _ hm, cdiv_mul_self _ _ hn]

theorem unpackAny_mem (C C_p : Loc) (M N m1 n1 m2 m_c n_c : Nat) (hm : 0 < m_r) (hn : 0 < n_r) (o : Op) :
    o ∈ unpack_ob_C_single_buf C C_p M N m1 n1 m2 m_c n_c m_r n_r ↔
      ∃ r c, r < cdiv m_c m_r * m_r ∧ c < cdiv n_c n_r * n_r ∧ n1 + c < N ∧ m1 + m2 + r < M ∧
        o = Op.copy (C +ₚ (r * N + c)) (C_p +ₚ cIdx m_r n_r (cdiv m_c m_r * m_r) r c) := by
  rw [unpack_ob_round _ _ _ _ _ _ _ _ _ hm hn]
  exact unpackC_mem _ _ _ _ _ _ _ _ _ _ _ hm hn (Nat.dvd_mul_left _ _) (Nat.dvd_mul_left _ _) o

theorem regTilesAny_dst {kd : KDim} (hk : kd.Fits m_r n_r) (t : Nat) (A B C : Loc) (mt nt k : Nat) (o : Op)
    (ho : o ∈ regTiles kd t A B C m_r n_r mt nt k) :
    o.dst.buf = .reg t ∨ ∃ u v x, u < nt / n_r ∧ v < mt / m_r ∧ x < m_r * n_r ∧
      o.dst = C +ₚ (u * mt * n_r + v * m_r * n_r + x) := by
  unfold regTiles at ho
  simp only [mem_flatMap, mem_range] at ho
  obtain ⟨u, hu, v, hv, ho⟩ := ho
  rcases kernel_dst _ _ _ _ _ _ _ _ _ o ho with h | ⟨x, hx, h⟩
  · exact Or.inl h
  · right
    rw [Nat.mul_assoc, hk.n_eq, hk.m_eq] at hx
    exact ⟨u, v, x, hu, hv, hx, by rw [h, off_off]⟩

/-- Neither the first row beyond the full register tiles of a strip ... -/
theorem tile_misses_row {mt u v x n_r m_r : Nat} (hn : 0 < n_r) (hd : ¬ m_r ∣ mt) (hv : v < mt / m_r) (hx : x < m_r * n_r) :
    u * mt * n_r + v * m_r * n_r + x ≠ mt / m_r * m_r * n_r := by
  intro e
  rcases Nat.eq_zero_or_pos u with rfl | hu
  · have h1 : (v + 1) * m_r * n_r ≤ mt / m_r * m_r * n_r :=
      Nat.mul_le_mul_right _ (Nat.mul_le_mul_right _ hv)
    have h2 : (v + 1) * m_r * n_r = v * m_r * n_r + m_r * n_r := by ring
    omega
  · have h1 : mt / m_r * m_r < mt := by
      have := Nat.div_mul_le_self mt m_r
      rcases Nat.lt_or_ge (mt / m_r * m_r) mt with h | h
      · exact h
      · exact absurd ⟨mt / m_r, by rw [Nat.mul_comm]; omega⟩ hd
    have h2 : mt / m_r * m_r * n_r < mt * n_r := Nat.mul_lt_mul_of_pos_right h1 hn
    have h3 : 1 * mt * n_r ≤ u * mt * n_r := Nat.mul_le_mul_right _ (Nat.mul_le_mul_right _ hu)
    rw [Nat.one_mul] at h3
    omega

/-- ... nor the first column is written. -/
theorem tile_misses_col {mt nt u v x n_r m_r : Nat} (hm : 0 < m_r) (hu : u < nt / n_r) (hv : v < mt / m_r) (hx : x < m_r * n_r) :
    u * mt * n_r + v * m_r * n_r + x ≠ nt / n_r * (cdiv mt m_r * m_r * n_r) := by
  intro e
  have h1 : (v + 1) * m_r * n_r ≤ mt * n_r :=
    Nat.mul_le_mul_right _ (Nat.le_trans (Nat.mul_le_mul_right _ hv) (Nat.div_mul_le_self mt m_r))
  have h2 : (v + 1) * m_r * n_r = v * m_r * n_r + m_r * n_r := by ring
  have h3 : (u + 1) * (mt * n_r) ≤ nt / n_r * (cdiv mt m_r * m_r * n_r) :=
    Nat.mul_le_mul hu (Nat.mul_le_mul_right _ (cdiv_mul_ge _ _ hm))
  have h4 : (u + 1) * (mt * n_r) = u * mt * n_r + mt * n_r := by ring
  omega

/-! ### The blocks of the schedule -/

/-- Is `m` the last, ragged block of rows? -/
def mLast (x : BlkDims) (m : Nat) : Bool := m == x.Mb - 1 && x.m_pad
/-- Cores used in block `m`. -/
def usedK (x : BlkDims) (p m : Nat) : Nat := if mLast x m then x.p_l else p
/-- Rows of strip `core`. -/
def mtK (x : BlkDims) (m core : Nat) : Nat :=
  if mLast x m then (if core = x.p_l - 1 then x.m_c1_last_core else x.m_c1) else x.m_c
/-- Distance of the strips. -/
def mxK (x : BlkDims) (m : Nat) : Nat := if mLast x m then x.m_c1 else x.m_c
/-- Columns of block `n`. -/
def ntK (x : BlkDims) (n : Nat) : Nat := if n == x.Nb - 1 && x.n_pad then x.n_c1 else x.n_c
/-- First row of block `m`, as computed by the schedule. -/
def m1K (x : BlkDims) (M p m : Nat) : Nat := if mLast x m then M - M % (p * x.m_c) else m * p * x.m_c
/-- First column of block `n`. -/
def n1K (x : BlkDims) (N n : Nat) : Nat := if n == x.Nb - 1 && x.n_pad then N - N % x.n_c else n * x.n_c

/-- The compute phase of block `(n, m)`. -/
def compK (kd : KDim) (A_p B_p : Loc) (K p m_r n_r : Nat) (x : BlkDims) (n m : Nat) : List (List Op) :=
  (range (usedK x p m)).map fun core =>
    (serp (kDesc n m) x.Kb).flatMap fun k =>
      let k_c_t := if k == x.Kb - 1 && x.k_pad then x.k_c1 else x.k_c
      regTiles kd core
        (A_p +ₚ (m * p * x.m_c * K + k * (if mLast x m then m_r * x.mr_rem else usedK x p m * x.m_c) * x.k_c +
          core * mxK x m * k_c_t))
        (B_p +ₚ (n * K * x.n_c + k * x.k_c * ntK x n)) ⟨.CpC core, 0⟩ m_r n_r (mtK x m core) (ntK x n) k_c_t

/-- The unpack phase of block `(n, m)`. -/
def unpK (C : Loc) (M N p m_r n_r : Nat) (x : BlkDims) (n m : Nat) : List (List Op) :=
  (range (usedK x p m)).map fun core =>
    unpack_ob_C_single_buf (C +ₚ (m * p * x.m_c * N + n * x.n_c + core * mxK x m * N)) ⟨.CpC core, 0⟩ M N
      (m1K x M p m) (n1K x N n) (core * mxK x m) (mtK x m core) (ntK x n) m_r n_r ++
    memset0 ⟨.CpC core, 0⟩ (x.m_c * x.n_c)

theorem schedule_KMN_blocks (kd : KDim) (A_p B_p C : Loc) (x : BlkDims) :
    schedule_KMN kd A_p B_p C M N K p m_r n_r x =
      (range x.Nb).flatMap fun n => (serp (n % 2 != 0) x.Mb).flatMap fun m =>
        [compK kd A_p B_p K p m_r n_r x n m, unpK C M N p m_r n_r x n m] := rfl

theorem schedule_KMN_split (kd : KDim) (A_p B_p C : Loc) (x : BlkDims) (hN : 0 < x.Nb) (hM : 0 < x.Mb) :
    ∃ rest, schedule_KMN kd A_p B_p C M N K p m_r n_r x =
        compK kd A_p B_p K p m_r n_r x 0 0 :: unpK C M N p m_r n_r x 0 0 :: rest ∧
      ∀ ts ∈ rest, ∃ n m, (n ≠ 0 ∨ m ≠ 0) ∧ n < x.Nb ∧ m < x.Mb ∧
        (ts = compK kd A_p B_p K p m_r n_r x n m ∨ ts = unpK C M N p m_r n_r x n m) := by
  obtain ⟨nb, hnb⟩ : ∃ nb, x.Nb = nb + 1 := ⟨x.Nb - 1, by omega⟩
  obtain ⟨mb, hmb⟩ : ∃ mb, x.Mb = mb + 1 := ⟨x.Mb - 1, by omega⟩
  rw [schedule_KMN_blocks, hnb, hmb, List.range_succ_eq_map, flatMap_cons]
  have e0 : serp (0 % 2 != 0) (mb + 1) = 0 :: (range mb).map Nat.succ := by
    rw [serp_eq, if_neg (by decide), List.range_succ_eq_map]
  rw [e0, flatMap_cons]
  simp only [cons_append, nil_append]
  refine ⟨_, rfl, ?_⟩
  intro ts hts
  rcases mem_append.1 hts with h | h
  · simp only [mem_flatMap, mem_map, mem_range, mem_cons, not_mem_nil, or_false] at h
    obtain ⟨m, ⟨m', hm', rfl⟩, h⟩ := h
    exact ⟨0, m' + 1, Or.inr (by omega), by omega, by omega, h⟩
  · simp only [mem_flatMap, mem_map, mem_range, mem_cons, not_mem_nil, or_false, mem_serp] at h
    obtain ⟨n, ⟨n', hn', rfl⟩, m, hm, h⟩ := h
    exact ⟨n' + 1, m, Or.inl (by omega), by omega, hm, h⟩

/-! ### Facts about the dimensions -/

section dims
variable {x : BlkDims} (hx : x = dimsKMN M N K p m_r n_r m_c k_c n_c) (hp : 0 < p) (hmc : 0 < m_c) (hnc : 0 < n_c)
  (hmr : 0 < m_r) (hnr : 0 < n_r)
include hx

theorem mLast_false (h : p * m_c ≤ M) (hS : 0 < p * m_c) : mLast x 0 = false := by
  subst hx
  have : 0 < M / (p * m_c) := Nat.div_pos h hS
  simp only [mLast, dimsKMN]
  by_cases hr : M % (p * m_c) = 0
  · simp [hr]
  · simp only [Bool.and_eq_false_imp, beq_iff_eq]
    intro h0
    exfalso
    have : (M % (p * m_c) != 0).toNat = 1 := by simp [hr]
    omega

theorem nLast_false (h : n_c ≤ N) (hS : 0 < n_c) : (0 == x.Nb - 1 && x.n_pad) = false := by
  subst hx
  have : 0 < N / n_c := Nat.div_pos h hS
  simp only [dimsKMN]
  by_cases hr : N % n_c = 0
  · simp [hr]
  · simp only [Bool.and_eq_false_imp, beq_iff_eq]
    intro h0
    exfalso
    have : (N % n_c != 0).toNat = 1 := by simp [hr]
    omega

include hp hmc in
theorem m1K_eq {m : Nat} (hm : m < x.Mb) : m1K x M p m = m * (p * m_c) := by
  have hS : 0 < p * m_c := Nat.mul_pos hp hmc
  have hb : x.Mb = cdiv M (p * m_c) := by subst hx; exact cdiv_eq_div_add _ _ hS
  have hc : x.m_c = m_c := by subst hx; rfl
  unfold m1K mLast
  split
  · rename_i hl
    simp only [Bool.and_eq_true, beq_iff_eq] at hl
    have hpad : x.m_pad = (M % (p * m_c) != 0) := by subst hx; rfl
    rw [hpad, hb] at hl
    rw [hc, sub_mod_eq]
    have := cdiv_eq_div_add M (p * m_c) hS
    rw [hl.2] at this
    simp only [Bool.toNat_true] at this
    congr 1; omega
  · rw [hc, Nat.mul_assoc]

include hnc in
theorem n1K_eq {n : Nat} (hn : n < x.Nb) : n1K x N n = n * n_c := by
  have hb : x.Nb = cdiv N n_c := by subst hx; exact cdiv_eq_div_add _ _ hnc
  have hc : x.n_c = n_c := by subst hx; rfl
  unfold n1K
  split
  · rename_i hl
    simp only [Bool.and_eq_true, beq_iff_eq] at hl
    have hpad : x.n_pad = (N % n_c != 0) := by subst hx; rfl
    rw [hpad, hb] at hl
    rw [hc, sub_mod_eq]
    have := cdiv_eq_div_add N n_c hnc
    rw [hl.2] at this
    simp only [Bool.toNat_true] at this
    congr 1; omega
  · rw [hc]

include hp hmc hmr in
theorem mxK_pos (m : Nat) : 0 < mxK x m := by
  unfold mxK
  split
  · rename_i hl
    unfold mLast at hl
    simp only [Bool.and_eq_true] at hl
    subst hx
    have h1 : M % (p * m_c) ≠ 0 := by simpa [dimsKMN] using hl.2
    have h2 := cdiv_pos (Nat.pos_of_ne_zero h1) hmr
    exact Nat.mul_pos (cdiv_pos h2 hp) hmr
  · subst hx; exact hmc

include hnc hmr hnr in
/-- What a block writes. -/
theorem blockK_dst {kd : KDim} (hk : kd.Fits m_r n_r) (A_p B_p : Loc) {n m : Nat} (hn : n < x.Nb) (hm : m < x.Mb)
    {ts : List (List Op)}
    (hts : ts = compK kd A_p B_p K p m_r n_r x n m ∨ ts = unpK ⟨.C, 0⟩ M N p m_r n_r x n m)
    {t : List Op} (ht : t ∈ ts) {o : Op} (ho : o ∈ t) :
    (∃ i, o.dst.buf = .reg i) ∨ (∃ i, o.dst.buf = .CpC i) ∨
      ∃ core r c, n * n_c + c < N ∧ o.dst = ⟨.C, (m * (p * m_c) + core * mxK x m + r) * N + (n * n_c + c)⟩ := by
  rcases hts with rfl | rfl
  · obtain ⟨core, _, rfl⟩ := mem_map.1 ht
    obtain ⟨k, _, ho⟩ := mem_flatMap.1 ho
    rcases regTilesAny_dst hk _ _ _ _ _ _ _ o ho with h | ⟨_, _, _, _, _, _, h⟩
    · exact Or.inl ⟨_, h⟩
    · exact Or.inr (Or.inl ⟨core, by rw [h]; rfl⟩)
  · obtain ⟨core, _, rfl⟩ := mem_map.1 ht
    rcases mem_append.1 ho with ho | ho
    · rw [unpackAny_mem _ _ _ _ _ _ _ _ _ hmr hnr] at ho
      obtain ⟨r, c, hr, hc, h1, h2, rfl⟩ := ho
      right; right
      rw [n1K_eq hx hnc hn] at h1
      refine ⟨core, r, c, h1, ?_⟩
      have e1 : x.m_c = m_c := by subst hx; rfl
      have e2 : x.n_c = n_c := by subst hx; rfl
      simp only [Op.dst, Loc.off, Nat.zero_add, e1, e2, Loc.mk.injEq, true_and]
      ring
    · obtain ⟨i, _, rfl⟩ := mem_map.1 ho
      exact Or.inr (Or.inl ⟨core, rfl⟩)

end dims

/-! ### An entry that stays zero -/

/-- The phases that follow a first block keep an entry of C that lies in the first strip of the first block. -/
theorem rest_keeps {x : BlkDims} (hx : x = dimsKMN M N K p m_r n_r m_c k_c n_c)
    (hnc : 0 < n_c) (hmr : 0 < m_r) (hnr : 0 < n_r) {kd : KDim} (hk : kd.Fits m_r n_r) (A_p B_p : Loc)
    {row col : Nat} (hrow : row < p * m_c) (hcol : col < n_c) (hcN : col < N)
    {n m : Nat} (h0 : n ≠ 0 ∨ m ≠ 0) (hn : n < x.Nb) (hm : m < x.Mb)
    {ts : List (List Op)}
    (hts : ts = compK kd A_p B_p K p m_r n_r x n m ∨ ts = unpK ⟨.C, 0⟩ M N p m_r n_r x n m) :
    itemKeeps [⟨.C, row * N + col⟩] (.par ts) = true := by
  simp only [itemKeeps, all_eq_true]
  intro t ht o ho
  have hne : o.dst ≠ ⟨.C, row * N + col⟩ := by
    intro e
    rcases blockK_dst hx hnc hmr hnr hk A_p B_p hn hm hts ht ho with ⟨i, h⟩ | ⟨i, h⟩ | ⟨core, r, c, hc, h⟩
    · rw [e] at h; cases h
    · rw [e] at h; cases h
    · rw [e] at h
      simp only [Loc.mk.injEq, true_and] at h
      obtain ⟨e1, e2⟩ := mulAdd_inj hcN hc h
      rcases h0 with h0 | h0
      · have : n_c ≤ n * n_c := Nat.le_mul_of_pos_left _ (by omega)
        omega
      · have : p * m_c ≤ m * (p * m_c) := Nat.le_mul_of_pos_left _ (by omega)
        omega
  cases o <;> simp_all [opKeeps, Op.dst]

/-- A phase that writes neither of two elements. -/
theorem phase_keeps_two {z1 z2 : Loc} {ts : List (List Op)}
    (h : ∀ t ∈ ts, ∀ o ∈ t, (o.dst ≠ z1 ∧ o.dst ≠ z2) ∨ (∃ d, o = .zero d) ∨ o = .copy z1 z2) :
    itemKeeps [z1, z2] (.par ts) = true := by
  simp only [itemKeeps, all_eq_true]
  intro t ht o ho
  rcases h t ht o ho with ⟨h1, h2⟩ | ⟨d, rfl⟩ | rfl
  · cases o <;> simp_all [opKeeps, Op.dst]
  · rfl
  · simp [opKeeps]

/-! ### Packing writes the packed buffers only -/

/-- Every op of the phases writes only buffer `b`. -/
def PhWrites (b : Buf) (ph : List (List (List Op))) : Prop :=
  ∀ tasks ∈ ph, ∀ task ∈ tasks, ∀ o ∈ task, o.dst.buf = b

theorem PhWrites.keeps {b : Buf} {ph : List (List (List Op))} (h : PhWrites b ph) {zs : List Loc}
    (hz : ∀ z ∈ zs, z.buf ≠ b) : (phases ph).all (itemKeeps zs) = true := by
  simp only [phases, all_map, all_eq_true, Function.comp, itemKeeps]
  intro ts hts t ht o ho
  have hd := h ts hts t ht o ho
  have : o.dst ∉ zs := fun hm => hz _ hm hd
  cases o <;> simp_all [opKeeps, Op.dst]

theorem packA_ob_dst {A A_p : Loc} {M K m1 m2 m_c k_c m_r : Nat} :
    ∀ o ∈ pack_ob_A_single_buf A A_p M K m1 m2 m_c k_c m_r, o.dst.buf = A_p.buf := by
  unfold pack_ob_A_single_buf
  refine loopS_forall (fun _ _ s => loopS_forall (fun _ _ s => loopS_forall (fun _ _ s => ?_) _) _) _
  intro o ho
  simp only [mem_singleton] at ho
  subst ho
  split <;> rfl

theorem packA_k_dst {A A_p : Loc} {M K p m_r : Nat} {x : BlkDims} :
    PhWrites A_p.buf (pack_A_k_first A A_p M K p m_r x) := by
  unfold pack_A_k_first PhWrites
  refine loopS_forall (fun _ _ s => loopS_forall (fun _ _ s ts hts => ?_) _) _
  simp only [mem_singleton] at hts
  subst hts
  exact forall_map_task (P := fun o => o.dst.buf = A_p.buf) fun i _ o ho => (packA_ob_dst o ho : _)

theorem copy_dst {b : Buf} {d r : Loc} {n : Nat} (h : d.buf = b) :
    ∀ o ∈ (([Op.copy d r], n) : List Op × Nat).1, o.dst.buf = b := by
  intro o ho
  simp only [mem_singleton] at ho
  subst ho; exact h

theorem ite_dst {b : Buf} {d r : Loc} {n : Nat} {c : Prop} [Decidable c] (h : d.buf = b) :
    ∀ o ∈ (([if c then Op.zero d else Op.copy d r], n) : List Op × Nat).1, o.dst.buf = b := by
  intro o ho
  simp only [mem_singleton] at ho
  subst ho
  split <;> exact h

theorem packB_k_dst {B B_p : Loc} {K N n_r : Nat} {x : BlkDims} :
    PhWrites B_p.buf (pack_B_k_first B B_p K N n_r x) := by
  unfold pack_B_k_first PhWrites
  intro ts hts
  rcases mem_append.1 hts with hts | hts
  · refine loopS_forall (P := fun ts => ∀ task ∈ ts, ∀ o ∈ task, o.dst.buf = B_p.buf) ?_ _ ts hts
    intro n1 _ s ts hts
    dsimp only at hts
    split at hts <;> simp only [mem_cons, not_mem_nil, or_false] at hts
    · rcases hts with rfl | rfl <;> intro task ht <;> obtain ⟨k1, _, rfl⟩ := mem_map.1 ht
      · refine loopS_forall (fun _ _ s => loopS_forall (fun _ _ s => loopS_forall
          (fun _ _ s => ?_) _) _) _
        exact copy_dst rfl
      · refine loopS_forall (fun _ _ s => loopS_forall (fun _ _ s => ?_) _) _
        exact copy_dst rfl
    · subst hts
      intro task ht
      obtain ⟨k1, _, rfl⟩ := mem_map.1 ht
      refine loopS_forall (fun _ _ s => loopS_forall (fun _ _ s => loopS_forall
        (fun _ _ s => ?_) _) _) _
      exact copy_dst rfl
  · dsimp only at hts
    split at hts
    · split at hts <;> simp only [mem_cons, not_mem_nil, or_false] at hts
      · rcases hts with rfl | rfl <;> intro task ht <;> obtain ⟨k1, _, rfl⟩ := mem_map.1 ht
        · refine loopS_forall (fun _ _ s => loopS_forall (fun _ _ s => loopS_forall
            (fun _ _ s => ?_) _) _) _
          exact ite_dst rfl
        · refine loopS_forall (fun _ _ s => loopS_forall (fun _ _ s => ?_) _) _
          exact ite_dst rfl
      · subst hts
        intro task ht
        obtain ⟨k1, _, rfl⟩ := mem_map.1 ht
        refine loopS_forall (fun _ _ s => loopS_forall (fun _ _ s => loopS_forall
          (fun _ _ s => ?_) _) _) _
        exact ite_dst rfl
    · simp at hts

/-! ### The program -/

/-- What precedes the schedule. -/
def preK (cx : Cntx) (M N K p m_c k_c n_c : Nat) : Prog :=
  [.malloc .Blk 1, .malloc .Dims 1, .free .Dims] ++
  (.memalign .Ap ((cx.m_r * cdiv (M % (p * m_c)) cx.m_r + (M / (p * m_c)) * p * m_c) * K) ::
    phases (pack_A_k_first ⟨.A, 0⟩ ⟨.Ap, 0⟩ M K p cx.m_r (dimsKMN M N K p cx.m_r cx.n_r m_c k_c n_c))) ++
  (.memalign .Bp (packedBSize K N cx.n_r n_c) ::
    phases (pack_B_k_first ⟨.B, 0⟩ ⟨.Bp, 0⟩ K N cx.n_r (dimsKMN M N K p cx.m_r cx.n_r m_c k_c n_c)))

/-- What follows it. -/
def postK (p : Nat) : Prog :=
  (range p).map (fun i => Item.free (.CpC i)) ++ [.free .Ap, .free .Bp, .free .Blk]

theorem sgemmK_prog {α : Type _} (nz : α → Bool) (cx : Cntx) (M N K p : Nat) (alpha beta : α) (m_c k_c n_c : Nat) :
    cake_sgemm nz cx ⟨.A, 0⟩ ⟨.B, 0⟩ ⟨.C, 0⟩ M N K p false false alpha beta m_c k_c n_c .KMN =
      some ((preK cx M N K p m_c k_c n_c ++ (range p).map (fun i => Item.calloc (.CpC i) (m_c * n_c))) ++
        (phases (schedule_KMN cx.kmap ⟨.Ap, 0⟩ ⟨.Bp, 0⟩ ⟨.C, 0⟩ M N K p cx.m_r cx.n_r
          (dimsKMN M N K p cx.m_r cx.n_r m_c k_c n_c)) ++ postK p)) := by
  have hsch : (dimsKMN M N K p cx.m_r cx.n_r m_c k_c n_c).sch = .KMN := rfl
  simp only [cake_sgemm, init_block_dims, hsch, packedASize, packedCSize, pack_A, pack_B, pack_C, unpack_C,
    schedule, Option.bind_eq_bind, Option.bind_some, if_true, Bool.false_eq_true, if_false, preK, postK]
  congr 1
  simp only [append_assoc, cons_append, nil_append]

theorem preK_keeps {cx : Cntx} {zs : List Loc} (hz : ∀ z ∈ zs, z.buf = .C ∨ ∃ i, z.buf = .CpC i) :
    (preK cx M N K p m_c k_c n_c).all (itemKeeps zs) = true := by
  have hne : ∀ b, (b ≠ Buf.C) → (∀ i, b ≠ .CpC i) → ∀ z ∈ zs, z.buf ≠ b := by
    intro b h1 h2 z hz' e
    rcases hz z hz' with h | ⟨i, h⟩
    · exact h1 (e.symm.trans h)
    · exact h2 i (e.symm.trans h)
  have hmem : ∀ b, (∀ z ∈ zs, z.buf ≠ b) → (!(zs.map (·.buf)).contains b) = true := by
    intro b hb
    simp only [Bool.not_eq_true', contains_eq_mem, decide_eq_false_iff_not, mem_map, not_exists, not_and]
    exact hb
  unfold preK
  simp only [all_append, all_cons, all_nil, Bool.and_eq_true, Bool.and_true, itemKeeps]
  exact ⟨⟨⟨hmem _ (hne _ (by simp) (by simp)), hmem _ (hne _ (by simp) (by simp))⟩,
    hmem _ (hne _ (by simp) (by simp)), packA_k_dst.keeps (hne _ (by simp) (by simp))⟩,
    hmem _ (hne _ (by simp) (by simp)), packB_k_dst.keeps (hne _ (by simp) (by simp))⟩

/-- If the kernels of the first block skip the element of core 0 that stands for `C[row][col]`, the K-first call leaves
this entry zero. -/
theorem kfirst_zero {α : Type _} {F : Arith α} {cx : Cntx} {x : BlkDims}
    (hx : x = dimsKMN M N K p cx.m_r cx.n_r m_c k_c n_c) (hp : 0 < p) (hmc : 0 < m_c)
    (hnc : 0 < n_c) (hmr : 0 < cx.m_r) (hnr : 0 < cx.n_r) (hk : cx.kmap.Fits cx.m_r cx.n_r)
    {row col src : Nat} (hrow : row < mxK x 0) (hrM : row < M) (hrow' : row < p * m_c) (hcol : col < n_c) (hcN : col < N)
    (hsrc : src = cIdx cx.m_r cx.n_r (cdiv (mtK x 0 0) cx.m_r * cx.m_r) row col)
    (hskip : ∀ u v y, u < ntK x 0 / cx.n_r → v < mtK x 0 0 / cx.m_r → y < cx.m_r * cx.n_r →
      u * mtK x 0 0 * cx.n_r + v * cx.m_r * cx.n_r + y ≠ src)
    {s s' : State α} (hC : s.mem ⟨.C, row * N + col⟩ = F.zero) (hfc : s.size (.CpC 0) = none)
    (he : Exec F ((preK cx M N K p m_c k_c n_c ++ (range p).map (fun i => Item.calloc (.CpC i) (m_c * n_c))) ++
        (phases (schedule_KMN cx.kmap ⟨.Ap, 0⟩ ⟨.Bp, 0⟩ ⟨.C, 0⟩ M N K p cx.m_r cx.n_r x) ++ postK p)) s (.ok s'))
    (hC' : s'.size .C ≠ none) : s'.mem ⟨.C, row * N + col⟩ = F.zero := by
  have hNb : 0 < x.Nb := by
    have : x.Nb = cdiv N n_c := by subst hx; exact cdiv_eq_div_add _ _ hnc
    rw [this]; exact cdiv_pos (by omega) hnc
  have hMb : 0 < x.Mb := by
    have : x.Mb = cdiv M (p * m_c) := by subst hx; exact cdiv_eq_div_add _ _ (Nat.mul_pos hp hmc)
    rw [this]; exact cdiv_pos (by omega) (Nat.mul_pos hp hmc)
  obtain ⟨rest, hsp, hrest⟩ := schedule_KMN_split (M := M) (N := N) (K := K) (p := p) (m_r := cx.m_r) (n_r := cx.n_r)
    cx.kmap ⟨.Ap, 0⟩ ⟨.Bp, 0⟩ ⟨.C, 0⟩ x hNb hMb
  rw [hsp] at he
  obtain ⟨s1, h1, he⟩ := he.append_ok
  obtain ⟨s3, he, h4⟩ := he.append_ok
  have he : Exec F ([Item.par (compK cx.kmap ⟨.Ap, 0⟩ ⟨.Bp, 0⟩ K p cx.m_r cx.n_r x 0 0),
      Item.par (unpK ⟨.C, 0⟩ M N p cx.m_r cx.n_r x 0 0)] ++ phases rest) s1 (.ok s3) := he
  obtain ⟨s2, h2, h3⟩ := he.append_ok
  have hregs : ∀ z ∈ ([⟨.C, row * N + col⟩, ⟨.CpC 0, src⟩] : List Loc), ∀ t, z.buf ≠ .reg t := by simp
  have z0 : Zeros F [⟨.C, row * N + col⟩, ⟨.CpC 0, src⟩] s := by
    intro z hz hn
    simp only [mem_cons, not_mem_nil, or_false] at hz
    rcases hz with rfl | rfl
    · exact hC
    · exact absurd hfc hn
  have z1 := zeros_exec hregs (by
    rw [all_append, Bool.and_eq_true]
    refine ⟨preK_keeps (by simp), ?_⟩
    simp [itemKeeps]) z0 h1
  have z2 := zeros_exec hregs (by
    simp only [all_cons, all_nil, Bool.and_true, Bool.and_eq_true]
    constructor
    · refine phase_keeps_two ?_
      intro t ht o ho
      left
      obtain ⟨core, _, rfl⟩ := mem_map.1 ht
      obtain ⟨k, _, ho⟩ := mem_flatMap.1 ho
      rcases regTilesAny_dst hk _ _ _ _ _ _ _ o ho with h | ⟨u, v, y, hu, hv, hy, h⟩
      · constructor <;> intro e <;> rw [e] at h <;> cases h
      · constructor
        · intro e; rw [e] at h; cases h
        · intro e
          rw [e] at h
          simp only [Loc.off, Loc.mk.injEq, Buf.CpC.injEq, Nat.zero_add] at h
          obtain ⟨rfl, h⟩ := h
          exact hskip u v y hu hv hy h.symm
    · refine phase_keeps_two ?_
      intro t ht o ho
      obtain ⟨core, _, rfl⟩ := mem_map.1 ht
      rcases mem_append.1 ho with ho | ho
      · rw [unpackAny_mem _ _ _ _ _ _ _ _ _ hmr hnr] at ho
        obtain ⟨r, c, hr, hc, h1, h2, rfl⟩ := ho
        rw [n1K_eq hx hnc hNb, Nat.zero_mul, Nat.zero_add] at h1
        by_cases hd : core * mxK x 0 + r = row ∧ c = col
        · right; right
          obtain ⟨e1, rfl⟩ := hd
          have hc0 : core = 0 := by
            rcases Nat.eq_zero_or_pos core with h | h
            · exact h
            · have : 1 * mxK x 0 ≤ core * mxK x 0 := Nat.mul_le_mul_right _ h
              omega
          subst hc0
          rw [Nat.zero_mul, Nat.zero_add] at e1
          subst e1
          rw [hsrc]
          simp [Loc.off]
        · left
          refine ⟨?_, by simp [Op.dst, Loc.off]⟩
          intro e
          simp only [Op.dst, Loc.off, Loc.mk.injEq, true_and, Nat.zero_mul, Nat.zero_add, Nat.add_zero] at e
          rw [← Nat.add_assoc, ← Nat.add_mul] at e
          exact hd (mulAdd_inj h1 hcN e)
      · obtain ⟨i, _, rfl⟩ := mem_map.1 ho
        exact Or.inr (Or.inl ⟨_, rfl⟩)) z1 h2
  have z2' : Zeros F [⟨.C, row * N + col⟩] s2 := fun z hz => z2 z (by simp_all)
  have z3 := zeros_exec (by simp) (by
    simp only [phases, all_map, all_eq_true, Function.comp]
    intro ts hts
    obtain ⟨n, m, h0, hn, hm, h⟩ := hrest ts hts
    exact rest_keeps hx hnc hmr hnr hk ⟨.Ap, 0⟩ ⟨.Bp, 0⟩ hrow' hcol hcN h0 hn hm h) z2' h3
  have z4 := zeros_exec (by simp) (by simp [postK, itemKeeps]) z3 h4
  exact z4 _ (by simp) hC'

/-! ### Per-core buffers that are too small -/

theorem callocs_size {α : Type _} {F : Arith α} {p Z : Nat} (hp : 0 < p) {s s' : State α}
    (h : Exec F ((range p).map (fun i => Item.calloc (.CpC i) Z)) s (.ok s')) : s'.size (.CpC 0) = some Z := by
  obtain ⟨q, rfl⟩ : ∃ q, p = q + 1 := ⟨p - 1, by omega⟩
  rw [List.range_succ_eq_map, map_cons, map_map] at h
  cases h with
  | next _ _ _ s1 _ h1 h2 =>
    have e1 : s1.size (.CpC 0) = some Z := by rw [h1.size]; simp [sizeAfter]
    clear h1
    generalize range q = l at h2
    induction l generalizing s1 with
    | nil => cases h2; exact e1
    | cons i is ih =>
      cases h2 with
      | next _ _ _ s2 _ h1 h2 => exact ih s2 (by rw [h1.size]; simp [sizeAfter, e1]) h2

theorem mtK_max {x : BlkDims} (hx : x = dimsKMN M N K p m_r n_r m_c k_c n_c) (hp : 0 < p) (hmc : 0 < m_c) (hmr : 0 < m_r)
    (hM : 0 < M) : mtK x 0 0 = maxStrip M p m_r m_c := by
  have hS : 0 < p * m_c := Nat.mul_pos hp hmc
  unfold maxStrip
  split
  · rename_i hlt
    obtain ⟨b1, b2⟩ := dimsK_Mb (N := N) (K := K) (m_r := m_r) (n_r := n_r) (k_c := k_c) (n_c := n_c) hM hlt
    have hl : mLast x 0 = true := by
      subst hx; unfold mLast; rw [b1, b2]; rfl
    unfold mtK
    rw [if_pos hl]
    subst hx
    simp only [dimsKMN, Nat.mod_eq_of_lt hlt]
    have h1 : 0 < cdiv M m_r := cdiv_pos hM hmr
    have h2 : 0 < cdiv (cdiv M m_r) p := cdiv_pos h1 hp
    have hne : cdiv (cdiv M m_r) p ≠ 0 := by omega
    simp only [if_pos hne]
    split
    · rename_i h0
      have h3 : 0 < cdiv (cdiv M m_r) (cdiv (cdiv M m_r) p) := cdiv_pos h1 h2
      have h4 : cdiv (cdiv M m_r) (cdiv (cdiv M m_r) p) = 1 := by omega
      have h5 : cdiv (cdiv M m_r) p ≤ cdiv M m_r :=
        cdiv_le_of_le_mul hp (Nat.le_mul_of_pos_right _ hp)
      have h6 := cdiv_mul_ge (cdiv M m_r) (cdiv (cdiv M m_r) p) h2
      rw [h4] at h6 ⊢
      congr 1; omega
    · rfl
  · rename_i hlt
    unfold mtK
    rw [mLast_false hx (by omega) hS]
    subst hx; rfl

theorem ntK_max {x : BlkDims} (hx : x = dimsKMN M N K p m_r n_r m_c k_c n_c) (hnc : 0 < n_c) (hN : 0 < N) :
    ntK x 0 = maxCols N n_r n_c := by
  unfold maxCols ntK
  split
  · rename_i hl
    by_cases hlt : N < n_c
    · rw [if_pos hlt]; subst hx; simp only [dimsKMN, Nat.mod_eq_of_lt hlt]
    · rw [nLast_false hx (by omega) hnc] at hl; cases hl
  · rename_i hl
    by_cases hlt : N < n_c
    · obtain ⟨b1, b2⟩ := dimsK_Nb (M := M) (K := K) (p := p) (m_r := m_r) (n_r := n_r) (m_c := m_c) (k_c := k_c) hN hlt
      exfalso; apply hl; subst hx; rw [b1, b2]; rfl
    · rw [if_neg hlt]; subst hx; rfl

theorem kfirst_small_no_ok {α : Type _} {F : Arith α} {cx : Cntx} {x : BlkDims}
    (hx : x = dimsKMN M N K p cx.m_r cx.n_r m_c k_c n_c) (hp : 0 < p) (hmc : 0 < m_c) (hkc : 0 < k_c)
    (hnc : 0 < n_c) (hmr : 0 < cx.m_r) (hnr : 0 < cx.n_r) (hk : cx.kmap.Fits cx.m_r cx.n_r)
    (hM : 0 < M) (hN : 0 < N) (hK : 0 < K) (h1 : cx.m_r ∣ m_c ∨ M < p * m_c) (h2 : cx.n_r ∣ n_c ∨ N < n_c)
    (hZ : m_c * n_c < maxStrip M p cx.m_r m_c * maxCols N cx.n_r n_c) {s s' : State α}
    (he : Exec F ((preK cx M N K p m_c k_c n_c ++ (range p).map (fun i => Item.calloc (.CpC i) (m_c * n_c))) ++
        (phases (schedule_KMN cx.kmap ⟨.Ap, 0⟩ ⟨.Bp, 0⟩ ⟨.C, 0⟩ M N K p cx.m_r cx.n_r x) ++ postK p)) s (.ok s')) : False := by
  have hS : 0 < p * m_c := Nat.mul_pos hp hmc
  have hNb : 0 < x.Nb := by
    have : x.Nb = cdiv N n_c := by subst hx; exact cdiv_eq_div_add _ _ hnc
    rw [this]; exact cdiv_pos (by omega) hnc
  have hMb : 0 < x.Mb := by
    have : x.Mb = cdiv M (p * m_c) := by subst hx; exact cdiv_eq_div_add _ _ hS
    rw [this]; exact cdiv_pos (by omega) hS
  have hKb : 0 < x.Kb := by
    have : x.Kb = cdiv K k_c := by subst hx; exact cdiv_eq_div_add _ _ hkc
    rw [this]; exact cdiv_pos (by omega) hkc
  obtain ⟨s1, he1, he⟩ := he.append_ok
  obtain ⟨s3, he, -⟩ := he.append_ok
  obtain ⟨s0, -, he1⟩ := he1.append_ok
  have hsz := callocs_size hp he1
  obtain ⟨rest, hsp, -⟩ := schedule_KMN_split (M := M) (N := N) (K := K) (p := p) (m_r := cx.m_r) (n_r := cx.n_r)
    cx.kmap ⟨.Ap, 0⟩ ⟨.Bp, 0⟩ ⟨.C, 0⟩ x hNb hMb
  have hin := (phases_ok_inv he).2
  have hdm : cx.m_r ∣ mtK x 0 0 := by
    rw [mtK_max hx hp hmc hmr hM]
    unfold maxStrip
    split
    · exact Nat.dvd_mul_left _ _
    · rename_i h; exact h1.resolve_right h
  have hdn : cx.n_r ∣ ntK x 0 := by
    rw [ntK_max hx hnc hN]
    unfold maxCols
    split
    · exact Nat.dvd_mul_left _ _
    · rename_i h; exact h2.resolve_right h
  have hu : 0 < usedK x p 0 := by
    unfold usedK
    split
    · rename_i hl
      by_cases hlt : M < p * m_c
      · subst hx
        simp only [dimsKMN, Nat.mod_eq_of_lt hlt]
        have h1 : 0 < cdiv M cx.m_r := cdiv_pos hM hmr
        have h2 : 0 < cdiv (cdiv M cx.m_r) p := cdiv_pos h1 hp
        rw [if_pos (by omega)]
        exact cdiv_pos h1 h2
      · rw [mLast_false hx (by omega) hS] at hl; cases hl
    · exact hp
  have hy : m_c * n_c < mtK x 0 0 * ntK x 0 := by rw [mtK_max hx hp hmc hmr hM, ntK_max hx hnc hN]; exact hZ
  have hser : 0 ∈ serp (kDesc 0 0) x.Kb := mem_serp.2 hKb
  obtain ⟨o, ho, hr⟩ := regTiles_read_all (kd := cx.kmap) (t := 0) (C := ⟨.CpC 0, 0⟩)
    (A := (⟨.Ap, 0⟩ : Loc) +ₚ (0 * p * x.m_c * K + 0 * (if mLast x 0 then cx.m_r * x.mr_rem else usedK x p 0 * x.m_c) * x.k_c +
          0 * mxK x 0 * (if 0 == x.Kb - 1 && x.k_pad then x.k_c1 else x.k_c)))
    (B := (⟨.Bp, 0⟩ : Loc) +ₚ (0 * K * x.n_c + 0 * x.k_c * ntK x 0))
    (k := if 0 == x.Kb - 1 && x.k_pad then x.k_c1 else x.k_c) hk hmr hnr hdm hdn hy
  have hmem : o ∈ phaseOps (schedule_KMN cx.kmap ⟨.Ap, 0⟩ ⟨.Bp, 0⟩ ⟨.C, 0⟩ M N K p cx.m_r cx.n_r x) := by
    rw [hsp]
    simp only [phaseOps, map_cons, flatten_cons]
    refine mem_append_left _ (mem_flatten.2 ⟨_, mem_map.2 ⟨0, mem_range.2 hu, rfl⟩, ?_⟩)
    exact mem_flatMap.2 ⟨0, hser, ho⟩
  have := (hin o hmem).2 _ hr
  obtain ⟨n, hn, hlt⟩ : ∃ n, s1.size (.CpC 0) = some n ∧ 0 + m_c * n_c < n := this
  rw [hsz] at hn
  cases hn
  omega

end
end Cake
