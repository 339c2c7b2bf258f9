/-
`schedule_KMN`: closed form of the phases, race freedom, safety, effect.
-/
import Verif.Proofs.RegTiles
import Verif.Proofs.PackK

namespace Cake
open List

theorem serp_eq (desc : Bool) (n : Nat) :
    serp desc n = if desc then (range n).reverse else range n := by
  unfold serp
  split
  · rw [cforNe_down, map_map]
    have : Int.toNat ∘ (fun i : Nat => (i : Int)) = id := by funext i; simp
    rw [this, map_id]
  · have := cforNe_up n 0 (Nat.zero_le _)
    simp only [Nat.sub_zero, Nat.cast_zero] at this
    rw [this, map_map]
    have e : Int.toNat ∘ (fun i : Nat => (i : Int)) = id := by funext i; simp
    rw [e, map_id, ← List.range_eq_range']

theorem serp_perm (desc : Bool) (n : Nat) : (serp desc n).Perm (range n) := by
  rw [serp_eq]; split
  · exact reverse_perm _
  · exact Perm.refl _

theorem mem_serp {desc : Bool} {n x : Nat} : x ∈ serp desc n ↔ x < n := by
  rw [(serp_perm desc n).mem_iff, mem_range]

theorem serp_nodup (desc : Bool) (n : Nat) : (serp desc n).Nodup :=
  (serp_perm desc n).nodup_iff.2 nodup_range

variable {α : Type _} (F : Arith α)

section
variable {M N K p m_r n_r m_c k_c n_c Z : Nat} (h : TileOK p m_r n_r m_c k_c n_c)

/-- Rows of strip `core` of block `m`. -/
def mT (M p m_r m_c m core : Nat) : Nat := chopLen (mLen M p m_r m_c m) (mX M p m_r m_c m) core
/-- Number of cores used in block `m`. -/
def mU (M p m_r m_c m : Nat) : Nat := cdiv (mLen M p m_r m_c m) (mX M p m_r m_c m)
/-- Columns of block `n`. -/
def nLen (N n_r n_c n : Nat) : Nat := chopLen (padTo N n_c n_r) n_c n

/-- Direction of the k loop. -/
def kDesc (n m : Nat) : Bool := if n % 2 ≠ 0 then (if m % 2 ≠ 0 then false else true)
  else (if m % 2 ≠ 0 then true else false)

def computeTask (kd : KDim) (A_p B_p : Loc) (M N K p m_r n_r m_c k_c n_c n m core : Nat) : List Op :=
  (serp (kDesc n m) (cdiv K k_c)).flatMap fun k =>
    regTiles kd core (A_p +ₚ aInd M K p m_r m_c k_c m k core) (B_p +ₚ bInd N K n_r k_c n_c n k)
      ⟨.CpC core, 0⟩ m_r n_r (mT M p m_r m_c m core) (nLen N n_r n_c n) (chopLen K k_c k)

def unpackTask (C : Loc) (M N p m_r n_r m_c n_c Z n m core : Nat) : List Op :=
  unpack_ob_C_single_buf (C +ₚ (m * p * m_c * N + n * n_c + core * mX M p m_r m_c m * N))
    ⟨.CpC core, 0⟩ M N (m * p * m_c) (n * n_c) (core * mX M p m_r m_c m)
    (mT M p m_r m_c m core) (nLen N n_r n_c n) m_r n_r ++
  memset0 ⟨.CpC core, 0⟩ Z

/-- The phases of the schedule, with per-core buffers of `Z` elements (the code has `Z = m_c*n_c`). -/
def schedKZ (kd : KDim) (A_p B_p C : Loc) (M N K p m_r n_r m_c k_c n_c Z : Nat) : List (List (List Op)) :=
  (range (cdiv N n_c)).flatMap fun n => (serp (n % 2 != 0) (cdiv M (p * m_c))).flatMap fun m =>
    [(range (mU M p m_r m_c m)).map fun core =>
        computeTask kd A_p B_p M N K p m_r n_r m_c k_c n_c n m core,
      (range (mU M p m_r m_c m)).map fun core => unpackTask C M N p m_r n_r m_c n_c Z n m core]

/-- The per-core buffers are large enough for every block. -/
def ZOK (M N p m_r n_r m_c n_c Z : Nat) : Prop :=
  ∀ n m core, m < cdiv M (p * m_c) → mT M p m_r m_c m core * nLen N n_r n_c n ≤ Z

include h

omit h in
/-- `schedule_KMN` with per-core buffers of `Z` elements (the code has `Z = m_c*n_c`). -/
def schedKMNZ (kd : KDim) (A_p B_p C : Loc) (M N K p m_r n_r : Nat) (x : BlkDims) (Z : Nat) :
    List (List (List Op)) :=
  (range x.Nb).flatMap fun n =>
    let nlast := n == x.Nb - 1 && x.n_pad
    let n_c_t := if nlast then x.n_c1 else x.n_c
    let n1 := if nlast then N - N % x.n_c else n * x.n_c
    (serp (n % 2 != 0) x.Mb).flatMap fun m =>
      let kdesc := if n % 2 ≠ 0 then (if m % 2 ≠ 0 then false else true)
                   else (if m % 2 ≠ 0 then true else false)
      let last := m == x.Mb - 1 && x.m_pad
      let p_used := if last then x.p_l else p
      let m_cb := if last then m_r * x.mr_rem else p_used * x.m_c
      let m1 := if last then M - M % (p * x.m_c) else m * p * x.m_c
      let compute := (range p_used).map fun core =>
        let m_c_t := if last then (if core = x.p_l - 1 then x.m_c1_last_core else x.m_c1) else x.m_c
        let m_c_x := if last then x.m_c1 else x.m_c
        (serp kdesc x.Kb).flatMap fun k =>
          let k_c_t := if k == x.Kb - 1 && x.k_pad then x.k_c1 else x.k_c
          let a_ind := m * p * x.m_c * K + k * m_cb * x.k_c + core * m_c_x * k_c_t
          let b_ind := n * K * x.n_c + k * x.k_c * n_c_t
          regTiles kd core (A_p +ₚ a_ind) (B_p +ₚ b_ind) ⟨.CpC core, 0⟩ m_r n_r m_c_t n_c_t k_c_t
      let C_offset := m * p * x.m_c * N + n * x.n_c
      let unpack := (range p_used).map fun core =>
        let m_c_t := if last then (if core = x.p_l - 1 then x.m_c1_last_core else x.m_c1) else x.m_c
        let m_c_x := if last then x.m_c1 else x.m_c
        unpack_ob_C_single_buf (C +ₚ (C_offset + core * m_c_x * N)) ⟨.CpC core, 0⟩ M N m1 n1
          (core * m_c_x) m_c_t n_c_t m_r n_r ++
        memset0 ⟨.CpC core, 0⟩ Z
      [compute, unpack]

omit h in
theorem schedule_KMN_eq (kd : KDim) (A_p B_p C : Loc) (x : BlkDims) :
    schedule_KMN kd A_p B_p C M N K p m_r n_r x = schedKMNZ kd A_p B_p C M N K p m_r n_r x (x.m_c * x.n_c) := rfl

theorem schedKMNZ_phases (Z : Nat) (kd : KDim) (A_p B_p C : Loc) :
    schedKMNZ kd A_p B_p C M N K p m_r n_r (dimsKMN M N K p m_r n_r m_c k_c n_c) Z =
      schedKZ kd A_p B_p C M N K p m_r n_r m_c k_c n_c Z := by
  unfold schedKMNZ schedKZ
  rw [kmn_Mb h, kmn_Kb h, kmn_Nb h]
  have hpad : (dimsKMN M N K p m_r n_r m_c k_c n_c).m_pad = (M % (p * m_c) != 0) := rfl
  have hkpad : (dimsKMN M N K p m_r n_r m_c k_c n_c).k_pad = (K % k_c != 0) := rfl
  have hnpad : (dimsKMN M N K p m_r n_r m_c k_c n_c).n_pad = (N % n_c != 0) := rfl
  have hmc : (dimsKMN M N K p m_r n_r m_c k_c n_c).m_c = m_c := rfl
  have hmr : (dimsKMN M N K p m_r n_r m_c k_c n_c).mr_rem = cdiv (M % (p * m_c)) m_r := rfl
  have hkc : (dimsKMN M N K p m_r n_r m_c k_c n_c).k_c = k_c := rfl
  have hkc1 : (dimsKMN M N K p m_r n_r m_c k_c n_c).k_c1 = K % k_c := rfl
  have hnc : (dimsKMN M N K p m_r n_r m_c k_c n_c).n_c = n_c := rfl
  have hnc1 : (dimsKMN M N K p m_r n_r m_c k_c n_c).n_c1 = cdiv (N % n_c) n_r * n_r := rfl
  rw [hpad, hkpad, hnpad, hmc, hmr, hkc, hkc1, hnc, hnc1]
  apply flatMap_congr
  intro n hn
  rw [mem_range] at hn
  apply flatMap_congr
  intro m hm
  rw [mem_serp] at hm
  obtain ⟨_, _, _, h4, _, h6⟩ := m_strips (N := N) (K := K) (k_c := k_c) (n_r := n_r) (n_c := n_c) h hm
  have hn1 : (if (n == cdiv N n_c - 1 && N % n_c != 0) = true then N - N % n_c else n * n_c) =
      n * n_c := by
    split
    · rename_i hl
      simp only [Bool.and_eq_true, beq_iff_eq] at hl
      rw [sub_mod_eq]
      have := cdiv_eq_div_add N n_c h.n_c_pos
      rw [hl.2] at this
      simp only [Bool.toNat_true] at this
      congr 1; omega
    · rfl
  have hm1 : (if (m == cdiv M (p * m_c) - 1 && M % (p * m_c) != 0) = true then M - M % (p * m_c)
      else m * p * m_c) = m * p * m_c := by
    split
    · rename_i hl
      simp only [Bool.and_eq_true, beq_iff_eq] at hl
      rw [sub_mod_eq, Nat.mul_assoc m]
      have := cdiv_eq_div_add M (p * m_c) h.S_pos
      rw [hl.2] at this
      simp only [Bool.toNat_true] at this
      congr 1; omega
    · rfl
  have hlen : (if (m == cdiv M (p * m_c) - 1 && M % (p * m_c) != 0) = true then
        m_r * cdiv (M % (p * m_c)) m_r
       else (if (m == cdiv M (p * m_c) - 1 && M % (p * m_c) != 0) = true then
        (dimsKMN M N K p m_r n_r m_c k_c n_c).p_l else p) * m_c) = mLen M p m_r m_c m := by
    rw [← m_len h hm]
    split <;> rfl
  have hx : (if (m == cdiv M (p * m_c) - 1 && M % (p * m_c) != 0) = true then
        (dimsKMN M N K p m_r n_r m_c k_c n_c).m_c1 else m_c) = mX M p m_r m_c m := rfl
  simp only [hn1, hm1, n_len h hn]
  rw [hlen, h4, hx]
  refine congrArg₂ (fun a b => [a, b]) ?_ ?_
  · apply map_congr_left
    intro core hcore
    rw [mem_range] at hcore
    rw [h6 core hcore]
    unfold computeTask kDesc
    apply flatMap_congr
    intro k hk
    rw [mem_serp] at hk
    rw [k_len h.k_c_pos hk]
    unfold aInd bInd mT nLen
    congr 2 <;> ring
  · apply map_congr_left
    intro core hcore
    rw [mem_range] at hcore
    rw [h6 core hcore]
    rfl

theorem schedK_phases (kd : KDim) (A_p B_p C : Loc) :
    schedule_KMN kd A_p B_p C M N K p m_r n_r (dimsKMN M N K p m_r n_r m_c k_c n_c) =
      schedKZ kd A_p B_p C M N K p m_r n_r m_c k_c n_c (m_c * n_c) :=
  schedKMNZ_phases h _ kd A_p B_p C

/-! ### Geometry -/

theorem mT_dvd {m core : Nat} (hm : m < cdiv M (p * m_c)) : m_r ∣ mT M p m_r m_c m core :=
  strip_dvd h hm

theorem nLen_dvd {n : Nat} : n_r ∣ nLen N n_r n_c n := nlen_dvd h

omit h in
theorem nLen_le {n : Nat} : nLen N n_r n_c n ≤ n_c := chopLen_le _ _ _

theorem mT_le {m core : Nat} (hm : m < cdiv M (p * m_c)) : mT M p m_r m_c m core ≤ m_c :=
  Nat.le_trans (chopLen_le _ _ _) (m_strips (N := 0) (K := 0) h hm).2.1

theorem ZOK.self : ZOK M N p m_r n_r m_c n_c (m_c * n_c) :=
  fun _ _ _ hm => Nat.mul_le_mul (mT_le h hm) nLen_le

theorem mU_le {m : Nat} (hm : m < cdiv M (p * m_c)) : mU M p m_r m_c m ≤ p :=
  (m_strips (N := 0) (K := 0) h hm).2.2.2.2.1

omit h in
/-- Row of C handled as row `r` of strip `core` of block `m`. -/
def rowOf (M p m_r m_c m core r : Nat) : Nat := m * (p * m_c) + (core * mX M p m_r m_c m + r)

omit h in
theorem strip_in_block {m core r : Nat} (hr : r < mT M p m_r m_c m core) :
    core * mX M p m_r m_c m + r < p * m_c :=
  Nat.lt_of_lt_of_le (chop_bound hr) (chopLen_le _ _ _)

omit h in
theorem rowOf_lt {m core r : Nat} (hr : r < mT M p m_r m_c m core) :
    rowOf M p m_r m_c m core r < padTo M (p * m_c) m_r :=
  chop_bound (chop_bound hr)

omit h in
theorem rowOf_inj {m m' core core' r r' : Nat}
    (hr : r < mT M p m_r m_c m core) (hr' : r' < mT M p m_r m_c m' core')
    (e : rowOf M p m_r m_c m core r = rowOf M p m_r m_c m' core' r') :
    m = m' ∧ core = core' ∧ r = r' := by
  unfold rowOf at e
  obtain ⟨rfl, e2⟩ := mulAdd_inj (strip_in_block hr) (strip_in_block hr') e
  obtain ⟨e3, e4⟩ := mulAdd_inj (Nat.lt_of_lt_of_le hr (chopLen_le _ _ _))
    (Nat.lt_of_lt_of_le hr' (chopLen_le _ _ _)) e2
  exact ⟨rfl, e3, e4⟩

theorem rowOf_cover {row : Nat} (hrow : row < M) : ∃ m core r, m < cdiv M (p * m_c) ∧
    core < mU M p m_r m_c m ∧ r < mT M p m_r m_c m core ∧ rowOf M p m_r m_c m core r = row := by
  have hlt : row < padTo M (p * m_c) m_r := Nat.lt_of_lt_of_le hrow (padTo_ge _ _ _ h.m_r_pos)
  obtain ⟨h1, h2, h3⟩ := chop_cover h.S_pos hlt
  rw [← mb_eq h] at h1
  obtain ⟨h4, h5, h6⟩ := chop_cover (m_strips (N := 0) (K := 0) h h1).1
    (show row % (p * m_c) < mLen M p m_r m_c (row / (p * m_c)) from h2)
  refine ⟨row / (p * m_c), _, _, h1, h4, h5, ?_⟩
  unfold rowOf
  rw [h6, h3]

theorem colOf_cover {col : Nat} (hcol : col < N) : ∃ n c, n < cdiv N n_c ∧
    c < nLen N n_r n_c n ∧ n * n_c + c = col := by
  have hlt : col < padTo N n_c n_r := Nat.lt_of_lt_of_le hcol (padTo_ge _ _ _ h.n_r_pos)
  obtain ⟨h1, h2, h3⟩ := chop_cover h.n_c_pos hlt
  rw [← nb_eq h] at h1
  exact ⟨_, _, h1, h2, h3⟩

omit h in
theorem colOf_inj {n n' c c' : Nat} (hc : c < nLen N n_r n_c n) (hc' : c' < nLen N n_r n_c n')
    (e : n * n_c + c = n' * n_c + c') : n = n' ∧ c = c' :=
  mulAdd_inj (Nat.lt_of_lt_of_le hc (chopLen_le _ _ _)) (Nat.lt_of_lt_of_le hc' (chopLen_le _ _ _)) e

/-! ### Destinations and reads -/

variable {kd : KDim} (hk : kd.Fits m_r n_r)
include hk

theorem computeTask_dst {n m core : Nat} (hm : m < cdiv M (p * m_c)) (A_p B_p : Loc) (o : Op)
    (ho : o ∈ computeTask kd A_p B_p M N K p m_r n_r m_c k_c n_c n m core) :
    o.dst.buf = .reg core ∨ ∃ x, x < m_c * n_c ∧ o.dst = ⟨.CpC core, x⟩ := by
  unfold computeTask at ho
  obtain ⟨k, _, ho⟩ := mem_flatMap.1 ho
  rcases regTiles_dst' hk h.m_r_pos h.n_r_pos (mT_dvd h hm) (nLen_dvd h) _ _ _ _ _ o ho with
    h1 | ⟨r, c, hr, hc, h1⟩
  · exact Or.inl h1
  · right
    refine ⟨_, ?_, by simpa [Loc.off] using h1⟩
    have := cIdx_lt' (mT_dvd h hm) (nLen_dvd h) hr hc
    exact Nat.lt_of_lt_of_le this (Nat.mul_le_mul (mT_le h hm) nLen_le)

omit hk in
theorem aInd_bound {m k core x : Nat} (hm : m < cdiv M (p * m_c)) (hk : k < cdiv K k_c)
    (hcore : core < mU M p m_r m_c m) (hx : x < mT M p m_r m_c m core * chopLen K k_c k) :
    aInd M K p m_r m_c k_c m k core + x < padTo M (p * m_c) m_r * K := by
  have h1 := chop_mul_bound (m_strips (N := 0) (K := 0) h hm).1 hcore hx
  have h2 := chop_mul_bound (w := mLen M p m_r m_c m) h.k_c_pos hk (by rwa [Nat.mul_comm])
  have h3 := chop_mul_bound (T := padTo M (p * m_c) m_r) (i := m) (w := K) h.S_pos
    (by rwa [← mb_eq h]) (by rw [Nat.mul_comm]; exact h2)
  unfold aInd
  omega

omit hk in
theorem bInd_bound {n k x : Nat} (hn : n < cdiv N n_c) (hk : k < cdiv K k_c)
    (hx : x < nLen N n_r n_c n * chopLen K k_c k) :
    bInd N K n_r k_c n_c n k + x < padTo N n_c n_r * K := by
  have h2 := chop_mul_bound (w := nLen N n_r n_c n) h.k_c_pos hk (by rwa [Nat.mul_comm])
  have h3 := chop_mul_bound (T := padTo N n_c n_r) (i := n) (w := K) h.n_c_pos
    (by rwa [← nb_eq h]) (by rw [Nat.mul_comm]; exact h2)
  unfold bInd
  have e : chopLen (padTo N n_c n_r) n_c n = nLen N n_r n_c n := rfl
  rw [e]
  omega

theorem computeTask_reads {n m core : Nat} (hm : m < cdiv M (p * m_c)) (A_p B_p : Loc) (o : Op)
    (ho : o ∈ computeTask kd A_p B_p M N K p m_r n_r m_c k_c n_c n m core) (l : Loc)
    (hl : l ∈ o.reads) :
    l.buf = .reg core ∨ l.buf = .CpC core ∨ l.buf = A_p.buf ∨ l.buf = B_p.buf := by
  unfold computeTask at ho
  obtain ⟨k, _, ho⟩ := mem_flatMap.1 ho
  rcases regTiles_reads' hk h.m_r_pos h.n_r_pos (mT_dvd h hm) (nLen_dvd h) _ _ _ _ _ o ho l hl with
    h1 | ⟨_, _, _, _, h1⟩ | ⟨_, _, _, _, h1⟩ | ⟨_, _, _, _, h1⟩
  · exact Or.inl h1
  · rw [h1]; exact Or.inr (Or.inl rfl)
  · rw [h1]; exact Or.inr (Or.inr (Or.inl rfl))
  · rw [h1]; exact Or.inr (Or.inr (Or.inr rfl))

omit hk in
theorem unpackTask_mem {n m core : Nat} (hm : m < cdiv M (p * m_c)) (C : Loc) (o : Op) :
    o ∈ unpackTask C M N p m_r n_r m_c n_c Z n m core ↔
      (∃ r c, r < mT M p m_r m_c m core ∧ c < nLen N n_r n_c n ∧ n * n_c + c < N ∧
        rowOf M p m_r m_c m core r < M ∧
        o = .copy (C +ₚ (rowOf M p m_r m_c m core r * N + (n * n_c + c)))
          ⟨.CpC core, cIdx m_r n_r (mT M p m_r m_c m core) r c⟩) ∨
      ∃ x, x < Z ∧ o = .zero ⟨.CpC core, x⟩ := by
  unfold unpackTask
  rw [mem_append, unpackC_mem _ _ _ _ _ _ _ _ _ _ _ h.m_r_pos h.n_r_pos (mT_dvd h hm) (nLen_dvd h)]
  apply or_congr
  · constructor
    · rintro ⟨r, c, hr, hc, h1, h2, rfl⟩
      refine ⟨r, c, hr, hc, h1, by unfold rowOf; rw [← Nat.mul_assoc, ← Nat.add_assoc]; exact h2, ?_⟩
      rw [off_off]
      unfold rowOf
      congr 2
      · ring
      · simp [Loc.off]
    · rintro ⟨r, c, hr, hc, h1, h2, rfl⟩
      refine ⟨r, c, hr, hc, h1, by unfold rowOf at h2; rwa [← Nat.mul_assoc, ← Nat.add_assoc] at h2, ?_⟩
      rw [off_off]
      unfold rowOf
      congr 2
      · ring
      · simp [Loc.off]
  · simp only [memset0, mem_map, mem_range]
    constructor
    · rintro ⟨x, hx, rfl⟩; exact ⟨x, hx, by simp [Loc.off]⟩
    · rintro ⟨x, hx, rfl⟩; exact ⟨x, hx, by simp [Loc.off]⟩

/-! ### Race freedom -/

omit h hk in
theorem raceFree_map {u : Nat} {f : Nat → List Op}
    (H : ∀ i j, i < u → j < u → i ≠ j → ∀ o ∈ f i, ∀ o' ∈ f j, ¬ o.Conflict o') :
    RaceFree ((range u).map f) := by
  unfold RaceFree
  rw [pairwise_map]
  apply Nodup.pairwise_of_forall_ne nodup_range
  intro i hi j hj hne
  exact H i j (mem_range.1 hi) (mem_range.1 hj) hne

theorem compute_raceFree {n m : Nat} (hm : m < cdiv M (p * m_c)) :
    RaceFree ((range (mU M p m_r m_c m)).map fun core =>
      computeTask kd ⟨.Ap, 0⟩ ⟨.Bp, 0⟩ M N K p m_r n_r m_c k_c n_c n m core) := by
  apply raceFree_map
  intro i j _ _ hne o ho o' ho' hc
  have d1 : o.dst.buf = .reg i ∨ o.dst.buf = .CpC i := by
    rcases computeTask_dst h hk hm _ _ o ho with h1 | ⟨_, _, h1⟩
    · exact Or.inl h1
    · rw [h1]; exact Or.inr rfl
  have d2 : o'.dst.buf = .reg j ∨ o'.dst.buf = .CpC j := by
    rcases computeTask_dst h hk hm _ _ o' ho' with h1 | ⟨_, _, h1⟩
    · exact Or.inl h1
    · rw [h1]; exact Or.inr rfl
  have r1 := fun l hl => computeTask_reads h hk hm _ _ o ho l hl
  have r2 := fun l hl => computeTask_reads h hk hm _ _ o' ho' l hl
  rcases hc with e | e | e
  · rw [e] at d1
    rcases d1 with d1 | d1 <;> rcases d2 with d2 | d2 <;> rw [d1] at d2 <;> simp_all
  · rcases r2 _ e with h1 | h1 | h1 | h1 <;> rcases d1 with d1 | d1 <;> rw [d1] at h1 <;> simp_all
  · rcases r1 _ e with h1 | h1 | h1 | h1 <;> rcases d2 with d2 | d2 <;> rw [d2] at h1 <;> simp_all

omit hk in
theorem unpack_raceFree {n m : Nat} (hm : m < cdiv M (p * m_c)) :
    RaceFree ((range (mU M p m_r m_c m)).map fun core =>
      unpackTask ⟨.C, 0⟩ M N p m_r n_r m_c n_c Z n m core) := by
  apply raceFree_map
  intro i j _ _ hne o ho o' ho' hc
  rw [unpackTask_mem h hm] at ho ho'
  rcases ho with ⟨r, c, hr, hcc, hN, hM, rfl⟩ | ⟨x, hx, rfl⟩ <;>
  rcases ho' with ⟨r', c', hr', hcc', hN', hM', rfl⟩ | ⟨x', hx', rfl⟩ <;>
  simp only [Op.Conflict, Op.dst, Op.reads, mem_singleton, not_mem_nil, or_false, false_or, Loc.off,
    Loc.mk.injEq, true_and, Nat.zero_add, reduceCtorEq, false_and, Buf.CpC.injEq] at hc
  · obtain ⟨e1, _⟩ := mulAdd_inj hN hN' hc
    exact hne (rowOf_inj hr hr' e1).2.1
  · exact hne hc.1.symm
  · exact hne hc.1
  · exact hne hc.1

/-! ### Safety -/

structure KReady (M N K p m_r n_r m_c n_c Z : Nat) (size : Buf → Option Nat) (init : Loc → Bool) :
    Prop where
  ap : ∀ x, x < padTo M (p * m_c) m_r * K → InB size ⟨.Ap, x⟩ ∧ init ⟨.Ap, x⟩ = true
  bp : ∀ x, x < padTo N n_c n_r * K → InB size ⟨.Bp, x⟩ ∧ init ⟨.Bp, x⟩ = true
  cp : ∀ core x, core < p → x < Z → InB size ⟨.CpC core, x⟩ ∧ init ⟨.CpC core, x⟩ = true
  c : ∀ x, x < M * N → InB size ⟨.C, x⟩

theorem compute_safe (hZ : ZOK M N p m_r n_r m_c n_c Z) {n m core : Nat} (hm : m < cdiv M (p * m_c)) (hn : n < cdiv N n_c)
    (hcore : core < mU M p m_r m_c m) {size : Buf → Option Nat} {init : Loc → Bool}
    (hs : KReady M N K p m_r n_r m_c n_c Z size init) :
    Safe size init (computeTask kd ⟨.Ap, 0⟩ ⟨.Bp, 0⟩ M N K p m_r n_r m_c k_c n_c n m core) := by
  unfold computeTask
  apply Safe.flatMap
  intro k hkk
  rw [mem_serp] at hkk
  apply regTiles_safe' hk h.m_r_pos h.n_r_pos (mT_dvd h hm) (nLen_dvd h)
  · intro x hx
    have := hs.cp core x (Nat.lt_of_lt_of_le hcore (mU_le h hm))
      (Nat.lt_of_lt_of_le hx (hZ n m core hm))
    simpa [Loc.off] using this
  · intro x hx
    have := hs.ap _ (aInd_bound h hm hkk hcore hx)
    simpa [Loc.off] using this
  · intro x hx
    have := hs.bp _ (bInd_bound h hn hkk hx)
    simpa [Loc.off] using this

omit hk in
theorem unpack_safe (hZ : ZOK M N p m_r n_r m_c n_c Z) {n m core : Nat} (hm : m < cdiv M (p * m_c))
    (hcore : core < mU M p m_r m_c m) {size : Buf → Option Nat} {init : Loc → Bool}
    (hs : KReady M N K p m_r n_r m_c n_c Z size init) :
    Safe size init (unpackTask ⟨.C, 0⟩ M N p m_r n_r m_c n_c Z n m core) := by
  have hp := Nat.lt_of_lt_of_le hcore (mU_le h hm)
  apply Safe.of_forall
  intro o ho
  rw [unpackTask_mem h hm] at ho
  rcases ho with ⟨r, c, hr, hc, hN, hM, rfl⟩ | ⟨x, hx, rfl⟩
  · refine ⟨?_, ?_⟩
    · have := hs.c _ (mulAdd_lt hM hN)
      simpa [Op.dst, Loc.off] using this
    · intro l hl
      simp only [Op.reads, mem_singleton] at hl
      subst hl
      exact hs.cp core _ hp (Nat.lt_of_lt_of_le (cIdx_lt' (mT_dvd h hm) (nLen_dvd h) hr hc)
        (hZ n m core hm))
  · exact ⟨(hs.cp core x hp hx).1, by simp [Op.reads]⟩

/-! ### Effect -/

omit h hk in
/-- The order in which the contributions of a list of k blocks are added. -/
def kOrder (K k_c : Nat) (ks : List Nat) : List Nat :=
  ks.flatMap fun k => (range (chopLen K k_c k)).map fun i => k * k_c + i

omit h hk in
theorem kOrder_perm {ks : List Nat} (hkc : 0 < k_c) (hp : ks.Perm (range (cdiv K k_c))) :
    (kOrder K k_c ks).Perm (range K) := by
  have := hp.flatMap_right (fun k => (range (chopLen K k_c k)).map fun i => k * k_c + i)
  rwa [chop_range hkc] at this

theorem computeTask_val {n m core r c : Nat} (hm : m < cdiv M (p * m_c))
    (hr : r < mT M p m_r m_c m core) (hc : c < nLen N n_r n_c n) (mem : Mem α) (a b : Nat → α)
    (hA : ∀ k i, k < cdiv K k_c → i < chopLen K k_c k →
      mem ⟨.Ap, aInd M K p m_r m_c k_c m k core + aIdx m_r (chopLen K k_c k) r i⟩ = a (k * k_c + i))
    (hB : ∀ k i, k < cdiv K k_c → i < chopLen K k_c k →
      mem ⟨.Bp, bInd N K n_r k_c n_c n k + bIdx n_r (chopLen K k_c k) c i⟩ = b (k * k_c + i)) :
    exec F (computeTask kd ⟨.Ap, 0⟩ ⟨.Bp, 0⟩ M N K p m_r n_r m_c k_c n_c n m core) mem
      ⟨.CpC core, cIdx m_r n_r (mT M p m_r m_c m core) r c⟩ =
    (kOrder K k_c (serp (kDesc n m) (cdiv K k_c))).foldl (fun acc kk => F.fma (a kk) (b kk) acc)
      (mem ⟨.CpC core, cIdx m_r n_r (mT M p m_r m_c m core) r c⟩) := by
  unfold computeTask
  have := exec_list_induct F (serp (kDesc n m) (cdiv K k_c)) (fun k =>
    regTiles kd core (⟨.Ap, 0⟩ +ₚ aInd M K p m_r m_c k_c m k core)
      (⟨.Bp, 0⟩ +ₚ bInd N K n_r k_c n_c n k)
      ⟨.CpC core, 0⟩ m_r n_r (mT M p m_r m_c m core) (nLen N n_r n_c n) (chopLen K k_c k)) mem
    (fun done mem' => mem' ⟨.CpC core, cIdx m_r n_r (mT M p m_r m_c m core) r c⟩ =
      (kOrder K k_c done).foldl (fun acc kk => F.fma (a kk) (b kk) acc)
        (mem ⟨.CpC core, cIdx m_r n_r (mT M p m_r m_c m core) r c⟩) ∧
      ∀ x : Loc, x.buf = .Ap ∨ x.buf = .Bp → mem' x = mem x)
    ⟨rfl, fun _ _ => rfl⟩ (by
      intro done k rest hdone mem' ⟨h1, h2⟩
      have hkk : k < cdiv K k_c := mem_serp.1 (by rw [hdone]; simp)
      refine ⟨?_, ?_⟩
      · have key := regTiles_spec' F hk h.m_r_pos h.n_r_pos (mT_dvd (core := core) h hm) (nLen_dvd h (N := N) (n := n)) core
          (⟨.Ap, 0⟩ +ₚ aInd M K p m_r m_c k_c m k core) (⟨.Bp, 0⟩ +ₚ bInd N K n_r k_c n_c n k)
          ⟨.CpC core, 0⟩ (by simp) (by simp) (by simp) (by simp) (by simp)
          (chopLen K k_c k) mem' r c hr hc
        simp only [off_off] at key
        simp only [Loc.off, Nat.zero_add] at key ⊢
        rw [key, h1]
        unfold kOrder
        rw [flatMap_append, foldl_append]
        simp only [flatMap_cons, flatMap_nil, append_nil, foldl_map]
        apply List.foldl_ext
        intro acc i hi
        rw [mem_range] at hi
        rw [h2 _ (Or.inl rfl), h2 _ (Or.inr rfl), hA k i hkk hi, hB k i hkk hi]
      · intro x hx
        rw [regTiles_frame' F hk h.m_r_pos h.n_r_pos (mT_dvd (core := core) h hm) (nLen_dvd h (N := N) (n := n)), h2 x hx]
        · rcases hx with hx | hx <;> rw [hx] <;> simp
        · intro r c _ _ e
          rw [e] at hx
          simp at hx)
  exact this.1

omit h hk in
/-- Operations of block `(n, m)`. -/
def blockOps (kd : KDim) (M N K p m_r n_r m_c k_c n_c Z n m : Nat) : List Op :=
  ((range (mU M p m_r m_c m)).flatMap fun core =>
    computeTask kd ⟨.Ap, 0⟩ ⟨.Bp, 0⟩ M N K p m_r n_r m_c k_c n_c n m core) ++
  ((range (mU M p m_r m_c m)).flatMap fun core => unpackTask ⟨.C, 0⟩ M N p m_r n_r m_c n_c Z n m core)

omit h hk in
/-- The packed A buffer holds matrix `a` (`a row k`). -/
def APacked (mem : Mem α) (M K p m_r m_c k_c : Nat) (a : Nat → Nat → α) : Prop :=
  ∀ m k core r i, m < cdiv M (p * m_c) → k < cdiv K k_c → core < mU M p m_r m_c m →
    r < mT M p m_r m_c m core → i < chopLen K k_c k → rowOf M p m_r m_c m core r < M →
    mem ⟨.Ap, aInd M K p m_r m_c k_c m k core + aIdx m_r (chopLen K k_c k) r i⟩ =
      a (rowOf M p m_r m_c m core r) (k * k_c + i)

omit h hk in
/-- The packed B buffer holds matrix `b` (`b k col`). -/
def BPacked (mem : Mem α) (N K n_r k_c n_c : Nat) (b : Nat → Nat → α) : Prop :=
  ∀ n k c i, n < cdiv N n_c → k < cdiv K k_c → c < nLen N n_r n_c n → i < chopLen K k_c k →
    n * n_c + c < N →
    mem ⟨.Bp, bInd N K n_r k_c n_c n k + bIdx n_r (chopLen K k_c k) c i⟩ = b (k * k_c + i) (n * n_c + c)

theorem compute_frame {n m : Nat} (hm : m < cdiv M (p * m_c)) (mem : Mem α) (x : Loc)
    (h1 : ∀ t, x.buf ≠ .reg t) (h2 : ∀ t, x.buf ≠ .CpC t) :
    exec F ((range (mU M p m_r m_c m)).flatMap fun core =>
      computeTask kd ⟨.Ap, 0⟩ ⟨.Bp, 0⟩ M N K p m_r n_r m_c k_c n_c n m core) mem x = mem x := by
  apply exec_frame
  intro o ho e
  obtain ⟨core, _, ho⟩ := mem_flatMap.1 ho
  rcases computeTask_dst h hk hm _ _ o ho with h3 | ⟨_, _, h3⟩
  · exact h1 core (e ▸ h3)
  · exact h2 core (by rw [← e, h3])

theorem compute_val {n m core r c : Nat} (hm : m < cdiv M (p * m_c)) (hn : n < cdiv N n_c)
    (hcore : core < mU M p m_r m_c m) (hr : r < mT M p m_r m_c m core) (hc : c < nLen N n_r n_c n)
    (mem : Mem α) (a b : Nat → Nat → α) (hA : APacked mem M K p m_r m_c k_c a)
    (hB : BPacked mem N K n_r k_c n_c b) (hrow : rowOf M p m_r m_c m core r < M)
    (hcol : n * n_c + c < N) :
    exec F ((range (mU M p m_r m_c m)).flatMap fun core =>
      computeTask kd ⟨.Ap, 0⟩ ⟨.Bp, 0⟩ M N K p m_r n_r m_c k_c n_c n m core) mem
        ⟨.CpC core, cIdx m_r n_r (mT M p m_r m_c m core) r c⟩ =
    (kOrder K k_c (serp (kDesc n m) (cdiv K k_c))).foldl (fun acc kk =>
      F.fma (a (rowOf M p m_r m_c m core r) kk) (b kk (n * n_c + c)) acc)
      (mem ⟨.CpC core, cIdx m_r n_r (mT M p m_r m_c m core) r c⟩) := by
  apply exec_flatMap_at F (range (mU M p m_r m_c m)) _ mem core (mem_range.2 hcore) nodup_range _ _
    (fun x => x.buf = .CpC core ∨ x.buf = .Ap ∨ x.buf = .Bp) (Or.inl rfl)
  · intro mem' hm'
    rw [computeTask_val F h hk hm hr hc mem' (a (rowOf M p m_r m_c m core r))
      (fun kk => b kk (n * n_c + c)), hm' _ (Or.inl rfl)]
    · intro k i hkk hi
      rw [hm' _ (Or.inr (Or.inl rfl))]
      exact hA m k core r i hm hkk hcore hr hi hrow
    · intro k i hkk hi
      rw [hm' _ (Or.inr (Or.inr rfl))]
      exact hB n k c i hn hkk hc hi hcol
  · intro i _ hne o ho hP
    rcases computeTask_dst h hk hm _ _ o ho with h3 | ⟨_, _, h3⟩
    · rw [h3] at hP; simp at hP
    · rw [h3] at hP; simp at hP; exact hne hP

omit hk in
theorem unpack_dst {n m core : Nat} (hm : m < cdiv M (p * m_c)) (o : Op)
    (ho : o ∈ unpackTask ⟨.C, 0⟩ M N p m_r n_r m_c n_c Z n m core) :
    (∃ r c, r < mT M p m_r m_c m core ∧ c < nLen N n_r n_c n ∧ n * n_c + c < N ∧
        rowOf M p m_r m_c m core r < M ∧
        o.dst = ⟨.C, rowOf M p m_r m_c m core r * N + (n * n_c + c)⟩) ∨
    o.dst.buf = .CpC core := by
  rw [unpackTask_mem h hm] at ho
  rcases ho with ⟨r, c, hr, hc, hN, hM, rfl⟩ | ⟨x, _, rfl⟩
  · exact Or.inl ⟨r, c, hr, hc, hN, hM, by simp [Op.dst, Loc.off]⟩
  · exact Or.inr rfl

omit hk in
theorem unpack_val {n m core r c : Nat} (hm : m < cdiv M (p * m_c))
    (hcore : core < mU M p m_r m_c m) (hr : r < mT M p m_r m_c m core) (hc : c < nLen N n_r n_c n)
    (mem : Mem α) (hrow : rowOf M p m_r m_c m core r < M) (hcol : n * n_c + c < N) :
    exec F ((range (mU M p m_r m_c m)).flatMap fun core =>
      unpackTask ⟨.C, 0⟩ M N p m_r n_r m_c n_c Z n m core) mem
        ⟨.C, rowOf M p m_r m_c m core r * N + (n * n_c + c)⟩ =
    mem ⟨.CpC core, cIdx m_r n_r (mT M p m_r m_c m core) r c⟩ := by
  apply exec_flatMap_at F (range (mU M p m_r m_c m)) _ mem core (mem_range.2 hcore) nodup_range _ _
    (fun x => x.buf = .CpC core ∨ x = ⟨.C, rowOf M p m_r m_c m core r * N + (n * n_c + c)⟩)
    (Or.inr rfl)
  · intro mem' hm'
    unfold unpackTask
    rw [exec_append, exec_frame_buf]
    · apply exec_const
      · refine ⟨.copy (⟨.C, 0⟩ +ₚ (m * p * m_c * N + n * n_c + core * mX M p m_r m_c m * N) +ₚ
          (r * N + c)) (⟨.CpC core, 0⟩ +ₚ cIdx m_r n_r (mT M p m_r m_c m core) r c), ?_, ?_⟩
        · rw [unpackC_mem _ _ _ _ _ _ _ _ _ _ _ h.m_r_pos h.n_r_pos (mT_dvd h hm) (nLen_dvd h)]
          exact ⟨r, c, hr, hc, hcol,
            by unfold rowOf at hrow; rwa [← Nat.mul_assoc, ← Nat.add_assoc] at hrow, rfl⟩
        · simp only [Op.dst, Loc.off, Nat.zero_add, Loc.mk.injEq, true_and]
          unfold rowOf
          ring
      · intro o ho e
        rw [unpackC_mem _ _ _ _ _ _ _ _ _ _ _ h.m_r_pos h.n_r_pos (mT_dvd h hm) (nLen_dvd h)] at ho
        obtain ⟨r', c', hr', hc', hN', hM', rfl⟩ := ho
        have e2 : rowOf M p m_r m_c m core r' * N + (n * n_c + c') =
            rowOf M p m_r m_c m core r * N + (n * n_c + c) := by
          simp only [Op.dst, Loc.off, Nat.zero_add, Loc.mk.injEq, true_and] at e
          rw [← e]; unfold rowOf; ring
        obtain ⟨e3, e4⟩ := mulAdd_inj hN' hcol e2
        obtain ⟨_, _, rfl⟩ := rowOf_inj hr' hr e3
        have e5 : c' = c := by omega
        subst e5
        refine ⟨?_, ?_⟩
        · intro l hl o' ho' e'
          simp only [Op.reads, mem_singleton] at hl
          subst hl
          rw [unpackC_mem _ _ _ _ _ _ _ _ _ _ _ h.m_r_pos h.n_r_pos (mT_dvd h hm) (nLen_dvd h)] at ho'
          obtain ⟨_, _, _, _, _, _, rfl⟩ := ho'
          simp [Op.dst, Loc.off] at e'
        · simp only [Op.val, Loc.off, Nat.zero_add]
          exact hm' _ (Or.inl rfl)
    · intro o ho
      simp only [memset0, mem_map] at ho
      obtain ⟨_, _, rfl⟩ := ho
      simp [Op.dst]
  · intro i _ hne o ho hP
    rcases unpack_dst h hm o ho with ⟨r', c', hr', hc', hN', hM', e⟩ | e
    · rw [e] at hP
      simp only [reduceCtorEq, Loc.mk.injEq, true_and, false_or] at hP
      obtain ⟨e3, _⟩ := mulAdd_inj hN' hcol hP
      exact hne (rowOf_inj hr' hr e3).2.1
    · rcases hP with hP | hP
      · rw [e] at hP; simp at hP; exact hne hP
      · rw [hP] at e; simp at e

omit hk in
theorem unpack_zero {n m core x : Nat} (hm : m < cdiv M (p * m_c))
    (hx : x < Z) (mem : Mem α)
    (hz : mem ⟨.CpC core, x⟩ = F.zero ∨ core < mU M p m_r m_c m) :
    exec F ((range (mU M p m_r m_c m)).flatMap fun core =>
      unpackTask ⟨.C, 0⟩ M N p m_r n_r m_c n_c Z n m core) mem ⟨.CpC core, x⟩ = F.zero := by
  have hval : ∀ o ∈ ((range (mU M p m_r m_c m)).flatMap fun core =>
      unpackTask ⟨.C, 0⟩ M N p m_r n_r m_c n_c Z n m core), o.dst = ⟨.CpC core, x⟩ →
      o = .zero ⟨.CpC core, x⟩ := by
    intro o ho e
    obtain ⟨core', hc', ho⟩ := mem_flatMap.1 ho
    rw [unpackTask_mem h hm] at ho
    rcases ho with ⟨r, c, hr, hc, hN, hM, rfl⟩ | ⟨x', _, rfl⟩
    · simp [Op.dst, Loc.off] at e
    · simp only [Op.dst] at e
      rw [e]
  by_cases hcore : core < mU M p m_r m_c m
  · apply exec_const
    · refine ⟨.zero ⟨.CpC core, x⟩, mem_flatMap.2 ⟨core, mem_range.2 hcore, ?_⟩, rfl⟩
      rw [unpackTask_mem h hm]
      exact Or.inr ⟨x, hx, rfl⟩
    · intro o ho e
      rw [hval o ho e]
      exact ⟨by simp [Op.reads], rfl⟩
  · rw [exec_frame]
    · exact hz.resolve_right hcore
    · intro o ho e
      obtain ⟨core', hc', ho⟩ := mem_flatMap.1 ho
      rcases unpack_dst h hm o ho with ⟨_, _, _, _, _, _, e'⟩ | e'
      · rw [e] at e'; simp at e'
      · rw [e] at e'
        simp only [Buf.CpC.injEq] at e'
        rw [mem_range] at hc'
        omega

/-! ### Whole schedule -/

omit h hk in
/-- The blocks in the order the schedule visits them. -/
def blocksKMN (M N p m_c n_c : Nat) : List (Nat × Nat) :=
  (range (cdiv N n_c)).flatMap fun n =>
    (serp (n % 2 != 0) (cdiv M (p * m_c))).map fun m => (n, m)

omit h hk in
theorem mem_blocksKMN {b : Nat × Nat} :
    b ∈ blocksKMN M N p m_c n_c ↔ b.1 < cdiv N n_c ∧ b.2 < cdiv M (p * m_c) := by
  unfold blocksKMN
  simp only [mem_flatMap, mem_range, mem_map, mem_serp]
  constructor
  · rintro ⟨n, hn, m, hm, rfl⟩; exact ⟨hn, hm⟩
  · rintro ⟨h1, h2⟩; exact ⟨b.1, h1, b.2, h2, rfl⟩

omit h hk in
theorem blocksKMN_nodup : (blocksKMN M N p m_c n_c).Nodup := by
  unfold blocksKMN
  rw [nodup_flatMap]
  refine ⟨?_, ?_⟩
  · intro n _
    exact (serp_nodup _ _).map (fun a b e => by simpa using e)
  · apply Nodup.pairwise_of_forall_ne nodup_range
    intro a _ b _ hne x hx hx'
    simp only [mem_map] at hx hx'
    obtain ⟨_, _, rfl⟩ := hx
    obtain ⟨_, _, e⟩ := hx'
    simp only [Prod.mk.injEq] at e
    exact hne e.1.symm

omit h hk in
theorem schedK_ops (kd : KDim) :
    phaseOps (schedKZ kd ⟨.Ap, 0⟩ ⟨.Bp, 0⟩ ⟨.C, 0⟩ M N K p m_r n_r m_c k_c n_c Z) =
    (blocksKMN M N p m_c n_c).flatMap fun b => blockOps kd M N K p m_r n_r m_c k_c n_c Z b.1 b.2 := by
  rw [schedKZ, phaseOps_flatMap]
  unfold blocksKMN
  rw [flatMap_assoc]
  apply flatMap_congr
  intro n _
  rw [phaseOps_flatMap, flatMap_map]
  apply flatMap_congr
  intro m _
  simp [blockOps, List.flatMap_def]

theorem blockOps_dst {n m : Nat} (hm : m < cdiv M (p * m_c)) (o : Op)
    (ho : o ∈ blockOps kd M N K p m_r n_r m_c k_c n_c Z n m) :
    (∃ core r c, r < mT M p m_r m_c m core ∧ c < nLen N n_r n_c n ∧ n * n_c + c < N ∧
        rowOf M p m_r m_c m core r < M ∧
        o.dst = ⟨.C, rowOf M p m_r m_c m core r * N + (n * n_c + c)⟩) ∨
    (∃ core, o.dst.buf = .CpC core) ∨ ∃ t, o.dst.buf = .reg t := by
  unfold blockOps at ho
  rcases mem_append.1 ho with ho | ho
  · obtain ⟨core, _, ho⟩ := mem_flatMap.1 ho
    rcases computeTask_dst h hk hm _ _ o ho with h1 | ⟨_, _, h1⟩
    · exact Or.inr (Or.inr ⟨core, h1⟩)
    · exact Or.inr (Or.inl ⟨core, by rw [h1]⟩)
  · obtain ⟨core, _, ho⟩ := mem_flatMap.1 ho
    rcases unpack_dst h hm o ho with ⟨r, c, h1⟩ | h1
    · exact Or.inl ⟨core, r, c, h1⟩
    · exact Or.inr (Or.inl ⟨core, h1⟩)

theorem schedK_val (hZ : ZOK M N p m_r n_r m_c n_c Z) (mem : Mem α) (a b : Nat → Nat → α) (hA : APacked mem M K p m_r m_c k_c a)
    (hB : BPacked mem N K n_r k_c n_c b)
    (hz : ∀ core x, core < p → x < Z → mem ⟨.CpC core, x⟩ = F.zero)
    {n m core r c : Nat} (hm : m < cdiv M (p * m_c)) (hn : n < cdiv N n_c)
    (hcore : core < mU M p m_r m_c m) (hr : r < mT M p m_r m_c m core) (hc : c < nLen N n_r n_c n)
    (hrow : rowOf M p m_r m_c m core r < M) (hcol : n * n_c + c < N) :
    exec F (phaseOps (schedKZ kd ⟨.Ap, 0⟩ ⟨.Bp, 0⟩ ⟨.C, 0⟩ M N K p m_r n_r m_c k_c n_c Z)) mem
      ⟨.C, rowOf M p m_r m_c m core r * N + (n * n_c + c)⟩ =
    (kOrder K k_c (serp (kDesc n m) (cdiv K k_c))).foldl (fun acc kk =>
      F.fma (a (rowOf M p m_r m_c m core r) kk) (b kk (n * n_c + c)) acc) F.zero := by
  rw [schedK_ops]
  have := exec_list_induct F (blocksKMN M N p m_c n_c)
    (fun bl => blockOps kd M N K p m_r n_r m_c k_c n_c Z bl.1 bl.2) mem
    (fun done mem' => (∀ x : Loc, x.buf = .Ap ∨ x.buf = .Bp → mem' x = mem x) ∧
      (∀ core x, core < p → x < Z → mem' ⟨.CpC core, x⟩ = F.zero) ∧
      ((n, m) ∈ done → mem' ⟨.C, rowOf M p m_r m_c m core r * N + (n * n_c + c)⟩ =
        (kOrder K k_c (serp (kDesc n m) (cdiv K k_c))).foldl (fun acc kk =>
          F.fma (a (rowOf M p m_r m_c m core r) kk) (b kk (n * n_c + c)) acc) F.zero))
    ⟨fun _ _ => rfl, hz, by simp⟩ (by
      intro done bl rest hdone mem' ⟨h1, h2, h3⟩
      obtain ⟨n', m'⟩ := bl
      have hbl : n' < cdiv N n_c ∧ m' < cdiv M (p * m_c) :=
        (mem_blocksKMN (b := (n', m'))).1 (by rw [hdone]; simp)
      have hA' : APacked mem' M K p m_r m_c k_c a := by
        intro m k core r i g1 g2 g3 g4 g5 g6
        rw [h1 _ (Or.inl rfl)]; exact hA m k core r i g1 g2 g3 g4 g5 g6
      have hB' : BPacked mem' N K n_r k_c n_c b := by
        intro n k c i g1 g2 g3 g4 g5
        rw [h1 _ (Or.inr rfl)]; exact hB n k c i g1 g2 g3 g4 g5
      refine ⟨?_, ?_, ?_⟩
      · intro x hx
        rw [exec_frame, h1 x hx]
        intro o ho e
        rcases blockOps_dst h hk hbl.2 o ho with ⟨_, _, _, _, _, _, _, e'⟩ | ⟨_, e'⟩ | ⟨_, e'⟩ <;>
          rw [e] at e'
        · rw [e'] at hx; simp at hx
        · rw [e'] at hx; simp at hx
        · rw [e'] at hx; simp at hx
      · intro core x hcore hx
        unfold blockOps
        rw [exec_append]
        apply unpack_zero F h hbl.2 hx
        by_cases hlt : core < mU M p m_r m_c m'
        · exact Or.inr hlt
        · left
          rw [exec_frame]
          · exact h2 core x hcore hx
          · intro o ho e
            obtain ⟨core', hc', ho⟩ := mem_flatMap.1 ho
            replace hc' : core' < mU M p m_r m_c m' := mem_range.1 hc'
            rcases computeTask_dst h hk hbl.2 _ _ o ho with e' | ⟨_, _, e'⟩
            · rw [e] at e'; simp at e'
            · rw [e] at e'
              simp only [Loc.mk.injEq, Buf.CpC.injEq] at e'
              omega
      · intro hin
        by_cases heq : (n, m) = (n', m')
        · simp only [Prod.mk.injEq] at heq
          obtain ⟨rfl, rfl⟩ := heq
          simp only [blockOps]
          rw [exec_append, unpack_val F h hm hcore hr hc _ hrow hcol,
            compute_val F h hk hm hn hcore hr hc mem' a b hA' hB' hrow hcol,
            h2 core _ (Nat.lt_of_lt_of_le hcore (mU_le h hm))
              (Nat.lt_of_lt_of_le (cIdx_lt' (mT_dvd h hm) (nLen_dvd h) hr hc)
                (hZ n m core hm))]
        · have hin' : (n, m) ∈ done := by
            rcases mem_append.1 hin with h' | h'
            · exact h'
            · exact absurd (by simpa using h') heq
          rw [exec_frame, h3 hin']
          intro o ho e
          rcases blockOps_dst h hk hbl.2 o ho with ⟨core', r', c', hr', hc', hN', hM', e'⟩ | ⟨_, e'⟩ | ⟨_, e'⟩ <;>
            rw [e] at e'
          · simp only [Loc.mk.injEq, true_and] at e'
            obtain ⟨e3, e4⟩ := mulAdd_inj hcol hN' e'
            have e5 := (rowOf_inj hr hr' e3).1
            have e6 := (colOf_inj hc hc' e4).1
            exact heq (by rw [e5, e6])
          · simp at e'
          · simp at e')
  exact this.2.2 (mem_blocksKMN.2 ⟨hn, hm⟩)

/-- The schedule writes only the `M x N` result, the per-core buffers and registers. -/
theorem schedK_dst (o : Op)
    (ho : o ∈ phaseOps (schedKZ kd ⟨.Ap, 0⟩ ⟨.Bp, 0⟩ ⟨.C, 0⟩ M N K p m_r n_r m_c k_c n_c Z)) :
    (∃ x, x < M * N ∧ o.dst = ⟨.C, x⟩) ∨
    (∃ core, o.dst.buf = .CpC core) ∨ ∃ t, o.dst.buf = .reg t := by
  rw [schedK_ops] at ho
  obtain ⟨bl, hbl, ho⟩ := mem_flatMap.1 ho
  rcases blockOps_dst h hk (mem_blocksKMN.1 hbl).2 o ho with ⟨_, _, _, _, _, hN, hM, e⟩ | e | e
  · exact Or.inl ⟨_, mulAdd_lt hM hN, e⟩
  · exact Or.inr (Or.inl e)
  · exact Or.inr (Or.inr e)

theorem schedK_raceFree : ∀ ts ∈ schedKZ kd ⟨.Ap, 0⟩ ⟨.Bp, 0⟩ ⟨.C, 0⟩ M N K p m_r n_r m_c k_c n_c Z, RaceFree ts := by
  unfold schedKZ
  intro ts hts
  simp only [mem_flatMap, mem_range, mem_serp, mem_cons, not_mem_nil, or_false] at hts
  obtain ⟨n, hn, m, hm, rfl | rfl⟩ := hts
  · exact compute_raceFree h hk hm
  · exact unpack_raceFree h hm

theorem schedK_safe (hZ : ZOK M N p m_r n_r m_c n_c Z) {size : Buf → Option Nat} {init : Loc → Bool}
    (hs : KReady M N K p m_r n_r m_c n_c Z size init) :
    ∀ ts ∈ schedKZ kd ⟨.Ap, 0⟩ ⟨.Bp, 0⟩ ⟨.C, 0⟩ M N K p m_r n_r m_c k_c n_c Z, ∀ t ∈ ts, Safe size init t := by
  unfold schedKZ
  intro ts hts t ht
  simp only [mem_flatMap, mem_range, mem_serp, mem_cons, not_mem_nil, or_false] at hts
  obtain ⟨n, hn, m, hm, rfl | rfl⟩ := hts
  · obtain ⟨core, hcore, rfl⟩ := mem_map.1 ht
    exact compute_safe h hk hZ hm hn (mem_range.1 hcore) hs
  · obtain ⟨core, hcore, rfl⟩ := mem_map.1 ht
    exact unpack_safe h hZ hm (mem_range.1 hcore) hs

end
end Cake
