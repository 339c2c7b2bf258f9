/-
Schedules that accumulate into one shared packed C (M-first, N-first): geometry, tasks, effect of a
sequence of block products.
-/
import Verif.Proofs.RegTiles
import Verif.Proofs.Driver
import Verif.Proofs.Dims
import Verif.Spec

namespace Cake
open List

/-! ### Geometry -/

/-- Length of block `i` of a dimension padded to a multiple of the register tile. -/
def sL (T S u i : Nat) : Nat := chopLen (padTo T S u) S i

/-- Depth of K block `k`. -/
def kL (K p k_c k : Nat) : Nat := chopLen K (p * k_c) k

/-- Depth of a per-core strip in K block `k` (`k_c_x`). -/
def kX (K p k_c k : Nat) : Nat :=
  if (k == cdiv K (p * k_c) - 1 && K % (p * k_c) != 0) = true then cdiv (K % (p * k_c)) p else k_c

/-- Number of strips in K block `k`. -/
def kU (K p k_c k : Nat) : Nat := cdiv (kL K p k_c k) (kX K p k_c k)

/-- Depth of strip `core` of K block `k`. -/
def kT (K p k_c k core : Nat) : Nat := chopLen (kL K p k_c k) (kX K p k_c k) core

/-- First `k` of strip `core` of K block `k`. -/
def kO (K p k_c k core : Nat) : Nat := k * (p * k_c) + core * kX K p k_c k

/-- The values of `k` of one K block, in the order in which they are added. -/
def kOrd (K p k_c k : Nat) : List Nat :=
  (range (kU K p k_c k)).flatMap fun core =>
    (range (kT K p k_c k core)).map fun i => kO K p k_c k core + i

/-- Everything about the strips of K block `k`. The `let`s are the expressions of the C code. -/
theorem k_strips {K p k_c k : Nat} (hp : 0 < p) (hkc : 0 < k_c) (hk : k < cdiv K (p * k_c)) :
    let rem := K % (p * k_c)
    let c1 := cdiv rem p
    let p_l := if c1 ≠ 0 then cdiv rem c1 else 0
    let last := k == cdiv K (p * k_c) - 1 && rem != 0
    0 < kX K p k_c k ∧ kX K p k_c k ≤ k_c ∧
    (if last then p_l else p) = kU K p k_c k ∧ kU K p k_c k ≤ p ∧
    (if last then rem else (if last then p_l else p) * k_c) = kL K p k_c k ∧
    ∀ core, core < kU K p k_c k →
      (if last then (if core = p_l - 1 then rem - c1 * (p_l - 1) else c1) else k_c) =
        kT K p k_c k core := by
  intro rem c1 p_l last
  have hS : 0 < p * k_c := Nat.mul_pos hp hkc
  have hlen : (if last then rem else p * k_c) = kL K p k_c k := k_len hS hk
  unfold kU kT
  unfold kX
  by_cases hl : last = true
  · have hl' : (k == cdiv K (p * k_c) - 1 && K % (p * k_c) != 0) = true := hl
    simp only [if_pos hl, if_pos hl'] at hlen ⊢
    simp only [Bool.and_eq_true, bne_iff_ne, beq_iff_eq] at hl'
    have hrem : 0 < rem := Nat.pos_of_ne_zero hl'.2
    have hx : 0 < c1 := cdiv_pos hrem hp
    have hpl : p_l = cdiv rem c1 := if_pos (by omega)
    rw [← hlen]
    refine ⟨hx, ?_, hpl, core_split_le hp hrem, rfl, ?_⟩
    · apply cdiv_le_of_le_mul hp
      have := Nat.mod_lt K hS
      rw [Nat.mul_comm k_c p]
      exact Nat.le_of_lt this
    · intro core hc
      rw [hpl, core_last' hx hrem]
      exact core_len hx hc
  · have hl' : ¬ (k == cdiv K (p * k_c) - 1 && K % (p * k_c) != 0) = true := hl
    simp only [if_neg hl, if_neg hl'] at hlen ⊢
    rw [← hlen]
    refine ⟨hkc, Nat.le_refl _, (cdiv_mul_self _ _ hkc).symm, ?_, rfl, ?_⟩
    · rw [cdiv_mul_self _ _ hkc]
    · intro core hc
      rw [cdiv_mul_self _ _ hkc] at hc
      unfold chopLen
      have := Nat.mul_le_mul_right k_c (Nat.succ_le_of_lt hc)
      rw [Nat.succ_mul] at this
      omega

theorem kX_pos {K p k_c k : Nat} (hp : 0 < p) (hkc : 0 < k_c) (hk : k < cdiv K (p * k_c)) :
    0 < kX K p k_c k := (k_strips hp hkc hk).1

theorem kO_bound {K p k_c k core i : Nat} (hi : i < kT K p k_c k core) :
    kO K p k_c k core + i < K := by
  have := chop_bound (chop_bound hi)
  unfold kO
  omega

theorem kOrd_eq {K p k_c k : Nat} (hp : 0 < p) (hkc : 0 < k_c) (hk : k < cdiv K (p * k_c)) :
    kOrd K p k_c k = (range (kL K p k_c k)).map fun y => k * (p * k_c) + y := by
  rw [← chop_range (T := kL K p k_c k) (kX_pos hp hkc hk)]
  unfold kOrd kU kT kO
  rw [map_flatMap]
  apply flatMap_congr
  intro core _
  rw [map_map]
  apply map_congr_left
  intro i _
  simp [Nat.add_assoc]

/-- Adding up the K blocks in any order adds every `k` once. -/
theorem kOrd_perm {K p k_c : Nat} (hp : 0 < p) (hkc : 0 < k_c) {ks : List Nat}
    (h : ks.Perm (range (cdiv K (p * k_c)))) : (ks.flatMap (kOrd K p k_c)).Perm (range K) := by
  refine (h.flatMap_right _).trans ?_
  rw [← chop_range (T := K) (Nat.mul_pos hp hkc)]
  apply Perm.of_eq
  apply flatMap_congr
  intro k hk
  exact kOrd_eq hp hkc (mem_range.1 hk)

/-- Parameters of a schedule with shared packed C: rows are blocked by `mS`. -/
structure GeoOK (p m_r n_r mS k_c n_c : Nat) : Prop where
  p_pos : 0 < p
  m_r_pos : 0 < m_r
  n_r_pos : 0 < n_r
  mS_pos : 0 < mS
  k_c_pos : 0 < k_c
  n_c_pos : 0 < n_c
  m_dvd : m_r ∣ mS
  n_dvd : n_r ∣ n_c

/-- Offsets of the blocks in the packed buffers. -/
structure Lay (M N K p m_r n_r mS k_c n_c : Nat) where
  aO : Nat → Nat → Nat → Nat
  bO : Nat → Nat → Nat → Nat
  cO : Nat → Nat → Nat
  aB : ∀ {k m core x}, k < cdiv K (p * k_c) → m < cdiv M mS → core < kU K p k_c k →
    x < sL M mS m_r m * kT K p k_c k core → aO k m core + x < padTo M mS m_r * K
  bB : ∀ {n k core x}, n < cdiv N n_c → k < cdiv K (p * k_c) → core < kU K p k_c k →
    x < sL N n_c n_r n * kT K p k_c k core → bO n k core + x < padTo N n_c n_r * K
  cB : ∀ {n m x}, n < cdiv N n_c → m < cdiv M mS →
    x < sL M mS m_r m * sL N n_c n_r n → cO n m + x < padTo M mS m_r * padTo N n_c n_r
  cInj : ∀ {n m x n' m' x'}, n < cdiv N n_c → m < cdiv M mS → n' < cdiv N n_c → m' < cdiv M mS →
    x < sL M mS m_r m * sL N n_c n_r n → x' < sL M mS m_r m' * sL N n_c n_r n' →
    cO n m + x = cO n' m' + x' → n = n' ∧ m = m' ∧ x = x'

/-- Three-level offsets stay inside. -/
theorem off3_lt {T s T' s' X i j core x : Nat} (hs : 0 < s) (hs' : 0 < s') (hX : 0 < X)
    (hi : i < cdiv T s) (hj : j < cdiv T' s')
    (hc : core < cdiv (chopLen T s i) X)
    (hx : x < chopLen (chopLen T s i) X core * chopLen T' s' j) :
    i * s * T' + (j * s' * chopLen T s i + core * X * chopLen T' s' j) + x < T * T' := by
  have h1 := chop_mul_bound hX hc hx
  rw [Nat.mul_comm (chopLen T s i)] at h1
  have h2 := chop_mul_bound hs' hj h1
  rw [Nat.mul_comm T'] at h2
  have h3 := chop_mul_bound hs hi h2
  omega

theorem off3_lt' {T s T' s' X i j core x : Nat} (hs : 0 < s) (hs' : 0 < s') (hX : 0 < X)
    (hi : i < cdiv T s) (hj : j < cdiv T' s')
    (hc : core < cdiv (chopLen T' s' j) X)
    (hx : x < chopLen (chopLen T' s' j) X core * chopLen T s i) :
    i * s * T' + (j * s' * chopLen T s i + core * X * chopLen T s i) + x < T * T' := by
  have h1 := chop_mul_bound hX hc hx
  have h2 := chop_mul_bound hs' hj h1
  rw [Nat.mul_comm T'] at h2
  have h3 := chop_mul_bound hs hi h2
  omega

theorem off2_lt {T s T' s' i j x : Nat} (hs : 0 < s) (hs' : 0 < s')
    (hi : i < cdiv T s) (hj : j < cdiv T' s') (hx : x < chopLen T' s' j * chopLen T s i) :
    i * s * T' + j * s' * chopLen T s i + x < T * T' := by
  have h2 := chop_mul_bound hs' hj hx
  rw [Nat.mul_comm T'] at h2
  have h3 := chop_mul_bound hs hi h2
  omega

theorem off2_inj {T s T' s' i j x i' j' x' : Nat} (hs' : 0 < s')
    (hj : j < cdiv T' s') (hj' : j' < cdiv T' s')
    (hx : x < chopLen T' s' j * chopLen T s i) (hx' : x' < chopLen T' s' j' * chopLen T s i')
    (e : i * s * T' + j * s' * chopLen T s i + x = i' * s * T' + j' * s' * chopLen T s i' + x') :
    i = i' ∧ j = j' ∧ x = x' := by
  have h2 := chop_mul_bound hs' hj hx
  have h2' := chop_mul_bound hs' hj' hx'
  have h3 : j * s' * chopLen T s i + x < s * T' := by
    rw [Nat.mul_comm s]
    exact Nat.lt_of_lt_of_le h2 (Nat.mul_le_mul_left _ (chopLen_le _ _ _))
  have h3' : j' * s' * chopLen T s i' + x' < s * T' := by
    rw [Nat.mul_comm s]
    exact Nat.lt_of_lt_of_le h2' (Nat.mul_le_mul_left _ (chopLen_le _ _ _))
  have e1 : i * (s * T') + (j * s' * chopLen T s i + x) =
      i' * (s * T') + (j' * s' * chopLen T s i' + x') := by
    rw [← Nat.mul_assoc, ← Nat.mul_assoc]; omega
  obtain ⟨rfl, e2⟩ := mulAdd_inj h3 h3' e1
  have h4 : x < s' * chopLen T s i := Nat.lt_of_lt_of_le hx (Nat.mul_le_mul_right _ (chopLen_le _ _ _))
  have h4' : x' < s' * chopLen T s i := Nat.lt_of_lt_of_le hx' (Nat.mul_le_mul_right _ (chopLen_le _ _ _))
  rw [Nat.mul_assoc, Nat.mul_assoc] at e2
  obtain ⟨rfl, rfl⟩ := mulAdd_inj h4 h4' e2
  exact ⟨rfl, rfl, rfl⟩

section
variable {M N K p m_r n_r mS k_c n_c : Nat} (h : GeoOK p m_r n_r mS k_c n_c)
include h

theorem mBlk : cdiv (padTo M mS m_r) mS = cdiv M mS := cdiv_padTo h.mS_pos h.m_r_pos h.m_dvd
theorem nBlk : cdiv (padTo N n_c n_r) n_c = cdiv N n_c := cdiv_padTo h.n_c_pos h.n_r_pos h.n_dvd
theorem mL_dvd {m : Nat} : m_r ∣ sL M mS m_r m := chopLen_dvd (padTo_dvd h.m_dvd) h.m_dvd
theorem nL_dvd {n : Nat} : n_r ∣ sL N n_c n_r n := chopLen_dvd (padTo_dvd h.n_dvd) h.n_dvd

end

/-- M-first: A by `k`, `m`, core; B by `n`, `k`, core; C by `n`, `m`. -/
def layM (M N K p m_r n_r mS k_c n_c : Nat) (h : GeoOK p m_r n_r mS k_c n_c) :
    Lay M N K p m_r n_r mS k_c n_c where
  aO := fun k m core => k * (p * k_c) * padTo M mS m_r +
    (m * mS * kL K p k_c k + core * kX K p k_c k * sL M mS m_r m)
  bO := fun n k core => n * n_c * K +
    (k * (p * k_c) * sL N n_c n_r n + core * kX K p k_c k * sL N n_c n_r n)
  cO := fun n m => n * n_c * padTo M mS m_r + m * mS * sL N n_c n_r n
  aB := by
    intro k m core x hk hm hc hx
    rw [Nat.mul_comm (padTo M mS m_r) K]
    rw [Nat.mul_comm (sL M mS m_r m)] at hx
    exact off3_lt (Nat.mul_pos h.p_pos h.k_c_pos) h.mS_pos (kX_pos h.p_pos h.k_c_pos hk) hk
      (by rwa [mBlk h]) hc hx
  bB := by
    intro n k core x hn hk hc hx
    rw [Nat.mul_comm (sL N n_c n_r n)] at hx
    exact off3_lt' h.n_c_pos (Nat.mul_pos h.p_pos h.k_c_pos) (kX_pos h.p_pos h.k_c_pos hk)
      (by rwa [nBlk h]) hk hc hx
  cB := by
    intro n m x hn hm hx
    rw [Nat.mul_comm (padTo M mS m_r)]
    exact off2_lt h.n_c_pos h.mS_pos (by rwa [nBlk h]) (by rwa [mBlk h]) hx
  cInj := by
    intro n m x n' m' x' hn hm hn' hm' hx hx' e
    exact off2_inj h.mS_pos (by rwa [mBlk h]) (by rwa [mBlk h]) hx hx' e

/-- N-first: A by `m`, `k`, core; B by `k`, `n`, core; C by `m`, `n`. -/
def layN (M N K p m_r n_r mS k_c n_c : Nat) (h : GeoOK p m_r n_r mS k_c n_c) :
    Lay M N K p m_r n_r mS k_c n_c where
  aO := fun k m core => m * mS * K +
    (k * (p * k_c) * sL M mS m_r m + core * kX K p k_c k * sL M mS m_r m)
  bO := fun n k core => k * (p * k_c) * padTo N n_c n_r +
    (n * n_c * kL K p k_c k + core * kX K p k_c k * sL N n_c n_r n)
  cO := fun n m => m * mS * padTo N n_c n_r + n * n_c * sL M mS m_r m
  aB := by
    intro k m core x hk hm hc hx
    rw [Nat.mul_comm (sL M mS m_r m)] at hx
    exact off3_lt' h.mS_pos (Nat.mul_pos h.p_pos h.k_c_pos) (kX_pos h.p_pos h.k_c_pos hk)
      (by rwa [mBlk h]) hk hc hx
  bB := by
    intro n k core x hn hk hc hx
    rw [Nat.mul_comm (padTo N n_c n_r) K]
    rw [Nat.mul_comm (sL N n_c n_r n)] at hx
    exact off3_lt (Nat.mul_pos h.p_pos h.k_c_pos) h.n_c_pos (kX_pos h.p_pos h.k_c_pos hk) hk
      (by rwa [nBlk h]) hc hx
  cB := by
    intro n m x hn hm hx
    rw [Nat.mul_comm (sL M mS m_r m)] at hx
    exact off2_lt h.mS_pos h.n_c_pos (by rwa [mBlk h]) (by rwa [nBlk h]) hx
  cInj := by
    intro n m x n' m' x' hn hm hn' hm' hx hx' e
    rw [Nat.mul_comm (sL M mS m_r _)] at hx hx'
    obtain ⟨h1, h2, h3⟩ := off2_inj h.n_c_pos (by rwa [nBlk h]) (by rwa [nBlk h]) hx hx' e
    exact ⟨h2, h1, h3⟩

/-! ### Tasks -/

section
variable {M N K p m_r n_r mS k_c n_c : Nat}

/-- The work of one parallel task: block `(m, n)` of C, K block `k`. -/
def blkTask (kd : KDim) (ly : Lay M N K p m_r n_r mS k_c n_c) (t n k m : Nat) : List Op :=
  (range (kU K p k_c k)).flatMap fun core =>
    regTiles kd t ⟨.Ap, ly.aO k m core⟩ ⟨.Bp, ly.bO n k core⟩ ⟨.Cp, ly.cO n m⟩ m_r n_r
      (sL M mS m_r m) (sL N n_c n_r n) (kT K p k_c k core)

/-- The packed A holds matrix `a` (with layout `ly`). -/
def ASh {α : Type _} (ly : Lay M N K p m_r n_r mS k_c n_c) (mem : Mem α) (a : Nat → Nat → α) : Prop :=
  ∀ k m core r i, k < cdiv K (p * k_c) → m < cdiv M mS → core < kU K p k_c k →
    r < sL M mS m_r m → i < kT K p k_c k core → m * mS + r < M →
    mem ⟨.Ap, ly.aO k m core + aIdx m_r (kT K p k_c k core) r i⟩ = a (m * mS + r) (kO K p k_c k core + i)

/-- The packed B holds matrix `b`. -/
def BSh {α : Type _} (ly : Lay M N K p m_r n_r mS k_c n_c) (mem : Mem α) (b : Nat → Nat → α) : Prop :=
  ∀ n k core c i, n < cdiv N n_c → k < cdiv K (p * k_c) → core < kU K p k_c k →
    c < sL N n_c n_r n → i < kT K p k_c k core → n * n_c + c < N →
    mem ⟨.Bp, ly.bO n k core + bIdx n_r (kT K p k_c k core) c i⟩ =
      b (kO K p k_c k core + i) (n * n_c + c)

variable (h : GeoOK p m_r n_r mS k_c n_c) {kd : KDim} (hk : kd.Fits m_r n_r)
  (ly : Lay M N K p m_r n_r mS k_c n_c)
include h hk

theorem blkTask_dst {t n k m : Nat} (o : Op) (ho : o ∈ blkTask kd ly t n k m) :
    o.dst.buf = .reg t ∨ ∃ r c, r < sL M mS m_r m ∧ c < sL N n_c n_r n ∧
      o.dst = ⟨.Cp, ly.cO n m + cIdx m_r n_r (sL M mS m_r m) r c⟩ := by
  obtain ⟨core, _, ho⟩ := mem_flatMap.1 ho
  rcases regTiles_dst' hk h.m_r_pos h.n_r_pos (mL_dvd h) (nL_dvd h) _ _ _ _ _ o ho with h1 | ⟨r, c, hr, hc, e⟩
  · exact Or.inl h1
  · exact Or.inr ⟨r, c, hr, hc, e⟩

theorem blkTask_reads {t n k m : Nat} (o : Op) (ho : o ∈ blkTask kd ly t n k m) (l : Loc)
    (hl : l ∈ o.reads) : l.buf = .reg t ∨ l.buf = .Ap ∨ l.buf = .Bp ∨
      ∃ r c, r < sL M mS m_r m ∧ c < sL N n_c n_r n ∧
        l = ⟨.Cp, ly.cO n m + cIdx m_r n_r (sL M mS m_r m) r c⟩ := by
  obtain ⟨core, _, ho⟩ := mem_flatMap.1 ho
  rcases regTiles_reads' hk h.m_r_pos h.n_r_pos (mL_dvd h) (nL_dvd h) _ _ _ _ _ o ho l hl with
    h1 | ⟨r, c, hr, hc, e⟩ | ⟨_, _, _, _, e⟩ | ⟨_, _, _, _, e⟩
  · exact Or.inl h1
  · exact Or.inr (Or.inr (Or.inr ⟨r, c, hr, hc, e⟩))
  · exact Or.inr (Or.inl (by rw [e]; rfl))
  · exact Or.inr (Or.inr (Or.inl (by rw [e]; rfl)))

/-- Tasks on different C blocks and different threads do not conflict. -/
theorem blkTask_noConflict {t n k m t' n' k' m' : Nat} (hn : n < cdiv N n_c) (hm : m < cdiv M mS)
    (hn' : n' < cdiv N n_c) (hm' : m' < cdiv M mS) (ht : t ≠ t') (hne : n ≠ n' ∨ m ≠ m')
    (o : Op) (ho : o ∈ blkTask kd ly t n k m) (o' : Op) (ho' : o' ∈ blkTask kd ly t' n' k' m') :
    ¬ o.Conflict o' := by
  have dd : ∀ {r c r' c'}, r < sL M mS m_r m → c < sL N n_c n_r n → r' < sL M mS m_r m' →
      c' < sL N n_c n_r n' →
      (⟨.Cp, ly.cO n m + cIdx m_r n_r (sL M mS m_r m) r c⟩ : Loc) ≠
        ⟨.Cp, ly.cO n' m' + cIdx m_r n_r (sL M mS m_r m') r' c'⟩ := by
    intro r c r' c' hr hc hr' hc' e
    simp only [Loc.mk.injEq, true_and] at e
    obtain ⟨e1, e2, _⟩ := ly.cInj hn hm hn' hm' (cIdx_lt' (mL_dvd h) (nL_dvd h) hr hc)
      (cIdx_lt' (mL_dvd h) (nL_dvd h) hr' hc') e
    omega
  intro hc
  rcases hc with e | e | e
  · rcases blkTask_dst h hk ly o ho with h1 | ⟨r, c, hr, hc, e1⟩
    · rcases blkTask_dst h hk ly o' ho' with h2 | ⟨r', c', _, _, e2⟩
      · rw [e, h2] at h1; simp at h1; omega
      · rw [e, e2] at h1; simp at h1
    · rcases blkTask_dst h hk ly o' ho' with h2 | ⟨r', c', hr', hc', e2⟩
      · rw [← e, e1] at h2; simp at h2
      · rw [e1, e2] at e; exact dd hr hc hr' hc' e
  · rcases blkTask_dst h hk ly o ho with h1 | ⟨r, c, hr, hc, e1⟩
    · rcases blkTask_reads h hk ly o' ho' _ e with h2 | h2 | h2 | ⟨r', c', hr', hc', h2⟩
      · rw [h2] at h1; simp at h1; omega
      · rw [h2] at h1; simp at h1
      · rw [h2] at h1; simp at h1
      · rw [h2] at h1; simp at h1
    · rcases blkTask_reads h hk ly o' ho' _ e with h2 | h2 | h2 | ⟨r', c', hr', hc', h2⟩
      · rw [e1] at h2; simp at h2
      · rw [e1] at h2; simp at h2
      · rw [e1] at h2; simp at h2
      · rw [e1] at h2; exact dd hr hc hr' hc' h2
  · rcases blkTask_dst h hk ly o' ho' with h1 | ⟨r, c, hr, hc, e1⟩
    · rcases blkTask_reads h hk ly o ho _ e with h2 | h2 | h2 | ⟨r', c', hr', hc', h2⟩
      · rw [h2] at h1; simp at h1; omega
      · rw [h2] at h1; simp at h1
      · rw [h2] at h1; simp at h1
      · rw [h2] at h1; simp at h1
    · rcases blkTask_reads h hk ly o ho _ e with h2 | h2 | h2 | ⟨r', c', hr', hc', h2⟩
      · rw [e1] at h2; simp at h2
      · rw [e1] at h2; simp at h2
      · rw [e1] at h2; simp at h2
      · rw [e1] at h2; exact dd hr' hc' hr hc h2.symm

/-- What the shared-C schedules need of the packed buffers. -/
structure ShReady (M N K m_r n_r mS n_c : Nat) (size : Buf → Option Nat) (init : Loc → Bool) : Prop where
  ap : ∀ x, x < padTo M mS m_r * K → InB size ⟨.Ap, x⟩ ∧ init ⟨.Ap, x⟩ = true
  bp : ∀ x, x < padTo N n_c n_r * K → InB size ⟨.Bp, x⟩ ∧ init ⟨.Bp, x⟩ = true
  cp : ∀ x, x < padTo M mS m_r * padTo N n_c n_r → InB size ⟨.Cp, x⟩ ∧ init ⟨.Cp, x⟩ = true

theorem blkTask_safe {t n k m : Nat} (hn : n < cdiv N n_c) (hkb : k < cdiv K (p * k_c))
    (hm : m < cdiv M mS) {size : Buf → Option Nat} {init : Loc → Bool}
    (hr : ShReady M N K m_r n_r mS n_c size init) : Safe size init (blkTask kd ly t n k m) := by
  apply Safe.flatMap
  intro core hcore
  rw [mem_range] at hcore
  apply regTiles_safe' hk h.m_r_pos h.n_r_pos (mL_dvd h) (nL_dvd h)
  · intro x hx; exact hr.cp _ (ly.cB hn hm hx)
  · intro x hx; exact hr.ap _ (ly.aB hkb hm hcore hx)
  · intro x hx; exact hr.bp _ (ly.bB hn hkb hcore hx)

theorem blkTask_frame {α : Type _} (F : Arith α) {t n k m : Nat} (mem : Mem α) (x : Loc)
    (hx : x.buf ≠ .reg t) (hC : ∀ r c, r < sL M mS m_r m → c < sL N n_c n_r n →
      x ≠ ⟨.Cp, ly.cO n m + cIdx m_r n_r (sL M mS m_r m) r c⟩) :
    exec F (blkTask kd ly t n k m) mem x = mem x := by
  apply exec_frame
  intro o ho e
  rcases blkTask_dst h hk ly o ho with h1 | ⟨r, c, hr, hc, e1⟩
  · exact hx (e ▸ h1)
  · exact hC r c hr hc (e ▸ e1)

theorem blkTask_val {α : Type _} (F : Arith α) {t n k m r c : Nat} (mem : Mem α)
    (a b : Nat → Nat → α) (hA : ASh ly mem a) (hB : BSh ly mem b)
    (hn : n < cdiv N n_c) (hkb : k < cdiv K (p * k_c)) (hm : m < cdiv M mS)
    (hr : r < sL M mS m_r m) (hc : c < sL N n_c n_r n) (hrow : m * mS + r < M) (hcol : n * n_c + c < N) :
    exec F (blkTask kd ly t n k m) mem ⟨.Cp, ly.cO n m + cIdx m_r n_r (sL M mS m_r m) r c⟩ =
      dotFrom F (a (m * mS + r)) (fun kk => b kk (n * n_c + c)) (kOrd K p k_c k)
        (mem ⟨.Cp, ly.cO n m + cIdx m_r n_r (sL M mS m_r m) r c⟩) := by
  set tgt : Loc := ⟨.Cp, ly.cO n m + cIdx m_r n_r (sL M mS m_r m) r c⟩ with htgt
  have key := exec_range_induct F (fun core =>
    regTiles kd t ⟨.Ap, ly.aO k m core⟩ ⟨.Bp, ly.bO n k core⟩ ⟨.Cp, ly.cO n m⟩ m_r n_r
      (sL M mS m_r m) (sL N n_c n_r n) (kT K p k_c k core)) (kU K p k_c k) mem
    (fun i mem' => (∀ x : Loc, x.buf = .Ap ∨ x.buf = .Bp → mem' x = mem x) ∧
      mem' tgt = dotFrom F (a (m * mS + r)) (fun kk => b kk (n * n_c + c))
        ((range i).flatMap fun core =>
          (range (kT K p k_c k core)).map fun i => kO K p k_c k core + i) (mem tgt))
    ⟨fun _ _ => rfl, rfl⟩ (by
      intro core hcore mem' ⟨h1, h2⟩
      refine ⟨?_, ?_⟩
      · intro x hx
        rw [regTiles_frame' F hk h.m_r_pos h.n_r_pos (mL_dvd h) (nL_dvd h)]
        · exact h1 x hx
        · rcases hx with hx | hx <;> rw [hx] <;> simp
        · intro _ _ _ _ e
          rw [e] at hx
          simp at hx
      · have := regTiles_spec' F hk h.m_r_pos h.n_r_pos (mL_dvd h) (nL_dvd h) t
          (⟨.Ap, ly.aO k m core⟩ : Loc) ⟨.Bp, ly.bO n k core⟩ ⟨.Cp, ly.cO n m⟩
          (by simp) (by simp) (by simp) (by simp) (by simp) (kT K p k_c k core) mem' r c hr hc
        have e0 : (⟨.Cp, ly.cO n m⟩ : Loc) +ₚ cIdx m_r n_r (sL M mS m_r m) r c = tgt := rfl
        rw [e0] at this
        rw [this, h2, range_succ, flatMap_append]
        unfold dotFrom
        rw [foldl_append]
        simp only [flatMap_cons, flatMap_nil, append_nil, foldl_map]
        apply List.foldl_ext
        intro acc i hi
        rw [mem_range] at hi
        have ea := hA k m core r i hkb hm hcore hr hi hrow
        have eb := hB n k core c i hn hkb hcore hc hi hcol
        rw [h1 _ (Or.inl rfl), h1 _ (Or.inr rfl)]
        simp only [Loc.off]
        rw [ea, eb])
  exact key.2

end

end Cake
