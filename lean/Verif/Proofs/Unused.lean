/-
`schedule_KMN_C_unpacked`: closed form, effect for one register-tile column, reads beyond B otherwise.
-/
import Verif.Model.Unused
import Verif.Proofs.SgemmK
import Verif.Proofs.Undef

namespace Cake
open List

section
variable {M N K p m_r n_r m_c k_c n_c : Nat} (h : TileOK p m_r n_r m_c k_c n_c)

/-- One core's share of block `(n, m)`. -/
def uTask (kd : KDim) (A_p B_p C_p : Loc) (M N K p m_r n_r m_c k_c n_c n m core : Nat) : List Op :=
  (serp (kDesc n m) (cdiv K k_c)).flatMap fun k =>
    tilesUnpacked kd core (A_p +ₚ aInd M K p m_r m_c k_c m k core) (B_p +ₚ bInd N K n_r k_c n_c n k)
      (C_p +ₚ (n * n_c + (m * (p * m_c) + core * mX M p m_r m_c m) * padTo N n_c n_r)) m_r n_r (padTo N n_c n_r)
      (mT M p m_r m_c m core) (nLen N n_r n_c n) (chopLen K k_c k)

def schedU (kd : KDim) (A_p B_p C_p : Loc) (M N K p m_r n_r m_c k_c n_c : Nat) : List (List (List Op)) :=
  (range (cdiv N n_c)).flatMap fun n => (serp (n % 2 != 0) (cdiv M (p * m_c))).map fun m =>
    (range (mU M p m_r m_c m)).map fun core => uTask kd A_p B_p C_p M N K p m_r n_r m_c k_c n_c n m core

include h

theorem schedU_eq (kd : KDim) (A_p B_p C_p : Loc) :
    schedule_KMN_C_unpacked kd A_p B_p C_p K p m_r n_r (dimsKMN M N K p m_r n_r m_c k_c n_c) =
      schedU kd A_p B_p C_p M N K p m_r n_r m_c k_c n_c := by
  unfold schedule_KMN_C_unpacked schedU
  rw [kmn_Mb h, kmn_Kb h, kmn_Nb h]
  have hpad : (dimsKMN M N K p m_r n_r m_c k_c n_c).m_pad = (M % (p * m_c) != 0) := rfl
  have hkpad : (dimsKMN M N K p m_r n_r m_c k_c n_c).k_pad = (K % k_c != 0) := rfl
  have hnpad : (dimsKMN M N K p m_r n_r m_c k_c n_c).n_pad = (N % n_c != 0) := rfl
  have hmc : (dimsKMN M N K p m_r n_r m_c k_c n_c).m_c = m_c := rfl
  have hmr : (dimsKMN M N K p m_r n_r m_c k_c n_c).mr_rem = cdiv (M % (p * m_c)) m_r := rfl
  have hkc : (dimsKMN M N K p m_r n_r m_c k_c n_c).k_c = k_c := rfl
  have hkc1 : (dimsKMN M N K p m_r n_r m_c k_c n_c).k_c1 = K % k_c := rfl
  have hnc : (dimsKMN M N K p m_r n_r m_c k_c n_c).n_c = n_c := rfl
  have hnc1 : (dimsKMN M N K p m_r n_r m_c k_c n_c).n_c1 = cdiv (N % n_c) n_r * n_r := rfl
  rw [hpad, hkpad, hnpad, hmc, hmr, hkc, hkc1, hnc, hnc1, kmn_N_padded]
  apply flatMap_congr
  intro n hn
  rw [mem_range] at hn
  apply map_congr_left
  intro m hm
  rw [mem_serp] at hm
  obtain ⟨_, _, _, h4, _, h6⟩ := m_strips (N := N) (K := K) (k_c := k_c) (n_r := n_r) (n_c := n_c) h hm
  have hlen : (if (m == cdiv M (p * m_c) - 1 && M % (p * m_c) != 0) = true then
        m_r * cdiv (M % (p * m_c)) m_r
       else (if (m == cdiv M (p * m_c) - 1 && M % (p * m_c) != 0) = true then
        (dimsKMN M N K p m_r n_r m_c k_c n_c).p_l else p) * m_c) = mLen M p m_r m_c m := by
    rw [← m_len h hm]
    split <;> rfl
  have hx : (if (m == cdiv M (p * m_c) - 1 && M % (p * m_c) != 0) = true then
        (dimsKMN M N K p m_r n_r m_c k_c n_c).m_c1 else m_c) = mX M p m_r m_c m := rfl
  simp only [n_len h hn]
  rw [hlen, h4, hx]
  apply map_congr_left
  intro core hcore
  rw [mem_range] at hcore
  rw [h6 core hcore]
  unfold uTask kDesc
  apply flatMap_congr
  intro k hk
  rw [mem_serp] at hk
  rw [k_len h.k_c_pos hk]
  unfold aInd bInd mT nLen
  congr 2 <;> ring

/-! ### One register-tile column -/

section narrow
variable (hN0 : 0 < N) (hN : N ≤ n_r)
include hN0 hN

theorem narrow_pad : padTo N n_c n_r = n_r := by
  rw [padTo_eq h.n_r_pos h.n_dvd, show cdiv N n_r = 1 from ?_, Nat.one_mul]
  unfold cdiv
  rw [Nat.div_eq_iff h.n_r_pos]
  omega

omit hN0 hN in
theorem narrow_nc : n_r ≤ n_c := Nat.le_of_dvd h.n_c_pos h.n_dvd

theorem narrow_Nb : cdiv N n_c = 1 := by
  have := narrow_nc h
  unfold cdiv
  rw [Nat.div_eq_iff h.n_c_pos]
  omega

theorem narrow_nLen : nLen N n_r n_c 0 = n_r := by
  have := narrow_nc h
  unfold nLen chopLen
  rw [narrow_pad h hN0 hN]
  omega

/-- With one column of register tiles row-major and packed C agree. -/
theorem uTask_narrow (kd : KDim) (A_p B_p C_p : Loc) (m core : Nat) :
    uTask kd A_p B_p C_p M N K p m_r n_r m_c k_c n_c 0 m core =
      (serp (kDesc 0 m) (cdiv K k_c)).flatMap fun k =>
        regTiles kd core (A_p +ₚ aInd M K p m_r m_c k_c m k core) (B_p +ₚ bInd N K n_r k_c n_c 0 k)
          (C_p +ₚ ((m * (p * m_c) + core * mX M p m_r m_c m) * n_r)) m_r n_r (mT M p m_r m_c m core) n_r (chopLen K k_c k) := by
  unfold uTask
  rw [narrow_pad h hN0 hN, narrow_nLen h hN0 hN]
  apply flatMap_congr
  intro k _
  unfold tilesUnpacked regTiles
  rw [Nat.div_self h.n_r_pos]
  simp

variable {kd : KDim} (hk : kd.Fits m_r n_r)
include hk

omit h hk hN0 hN in
theorem cIdx_narrow {mt r c : Nat} (hc : c < n_r) : cIdx m_r n_r mt r c = r * n_r + c := by
  unfold cIdx
  rw [Nat.div_eq_of_lt hc, Nat.mod_eq_of_lt hc]
  have := divmod_eq m_r r
  calc _ = (r / m_r * m_r + r % m_r) * n_r + c := by ring
    _ = _ := by rw [this]

theorem uTask_dst {m core : Nat} (hm : m < cdiv M (p * m_c)) (o : Op)
    (ho : o ∈ uTask kd ⟨.Ap, 0⟩ ⟨.Bp, 0⟩ ⟨.C, 0⟩ M N K p m_r n_r m_c k_c n_c 0 m core) :
    o.dst.buf = .reg core ∨ ∃ r c, r < mT M p m_r m_c m core ∧ c < n_r ∧
      o.dst = ⟨.C, rowOf M p m_r m_c m core r * n_r + c⟩ := by
  rw [uTask_narrow h hN0 hN] at ho
  obtain ⟨k, _, ho⟩ := mem_flatMap.1 ho
  rcases regTiles_dst' hk h.m_r_pos h.n_r_pos (mT_dvd h hm) (Nat.dvd_refl n_r) _ _ _ _ _ o ho with
    h1 | ⟨r, c, hr, hc, h1⟩
  · exact Or.inl h1
  · right
    refine ⟨r, c, hr, hc, ?_⟩
    rw [h1, cIdx_narrow hc]
    simp only [Loc.off, Nat.zero_add, Loc.mk.injEq, true_and]
    unfold rowOf
    ring

theorem uTask_reads {m core : Nat} (hm : m < cdiv M (p * m_c)) (o : Op)
    (ho : o ∈ uTask kd ⟨.Ap, 0⟩ ⟨.Bp, 0⟩ ⟨.C, 0⟩ M N K p m_r n_r m_c k_c n_c 0 m core) (l : Loc) (hl : l ∈ o.reads) :
    l.buf = .reg core ∨ (∃ r c, r < mT M p m_r m_c m core ∧ c < n_r ∧
      l = ⟨.C, rowOf M p m_r m_c m core r * n_r + c⟩) ∨ l.buf = .Ap ∨ l.buf = .Bp := by
  rw [uTask_narrow h hN0 hN] at ho
  obtain ⟨k, _, ho⟩ := mem_flatMap.1 ho
  rcases regTiles_reads' hk h.m_r_pos h.n_r_pos (mT_dvd h hm) (Nat.dvd_refl n_r) _ _ _ _ _ o ho l hl with
    h1 | ⟨r, c, hr, hc, h1⟩ | ⟨_, _, _, _, h1⟩ | ⟨_, _, _, _, h1⟩
  · exact Or.inl h1
  · right; left
    refine ⟨r, c, hr, hc, ?_⟩
    rw [h1, cIdx_narrow hc]
    simp only [Loc.off, Nat.zero_add, Loc.mk.injEq, true_and]
    unfold rowOf
    ring
  · rw [h1]; exact Or.inr (Or.inr (Or.inl rfl))
  · rw [h1]; exact Or.inr (Or.inr (Or.inr rfl))

theorem uTask_raceFree {m : Nat} (hm : m < cdiv M (p * m_c)) :
    RaceFree ((range (mU M p m_r m_c m)).map fun core =>
      uTask kd ⟨.Ap, 0⟩ ⟨.Bp, 0⟩ ⟨.C, 0⟩ M N K p m_r n_r m_c k_c n_c 0 m core) := by
  have key : ∀ {i j r r' c c'}, r < mT M p m_r m_c m i → r' < mT M p m_r m_c m j → c < n_r → c' < n_r →
      rowOf M p m_r m_c m i r * n_r + c = rowOf M p m_r m_c m j r' * n_r + c' → i = j := by
    intro i j r r' c c' hr hr' hc hc' e
    exact (rowOf_inj hr hr' (mulAdd_inj hc hc' e).1).2.1
  apply raceFree_map
  intro i j _ _ hne o ho o' ho' hcf
  have d1 := uTask_dst h hN0 hN hk hm o ho
  have d2 := uTask_dst h hN0 hN hk hm o' ho'
  have half : ∀ {i j : Nat}, i ≠ j → ∀ {d l : Loc},
      (d.buf = .reg i ∨ ∃ r c, r < mT M p m_r m_c m i ∧ c < n_r ∧ d = ⟨.C, rowOf M p m_r m_c m i r * n_r + c⟩) →
      (l.buf = .reg j ∨ (∃ r c, r < mT M p m_r m_c m j ∧ c < n_r ∧ l = ⟨.C, rowOf M p m_r m_c m j r * n_r + c⟩) ∨
        l.buf = .Ap ∨ l.buf = .Bp) → d = l → False := by
    rintro i j hne d l (hd | ⟨r, c, hr, hc, hd⟩) (hl | ⟨r', c', hr', hc', hl⟩ | hl | hl) rfl
    · rw [hd] at hl; cases hl; exact hne rfl
    · rw [hl] at hd; cases hd
    · rw [hd] at hl; cases hl
    · rw [hd] at hl; cases hl
    · rw [hd] at hl; cases hl
    · rw [hd] at hl
      simp only [Loc.mk.injEq, true_and] at hl
      exact hne (key hr hr' hc hc' hl)
    · rw [hd] at hl; cases hl
    · rw [hd] at hl; cases hl
  rcases hcf with e | e | e
  · exact half hne d1 (d2.imp_right Or.inl) e
  · exact half hne d1 (uTask_reads h hN0 hN hk hm o' ho' _ e) rfl
  · exact half (Ne.symm hne) d2 (uTask_reads h hN0 hN hk hm o ho _ e) rfl

omit h hN0 hN hk in
theorem uRow_bound {m core r : Nat} (hr : r < mT M p m_r m_c m core) {x c : Nat} (hc : c < n_r)
    (hx : x = rowOf M p m_r m_c m core r * n_r + c) : x < padTo M (p * m_c) m_r * n_r := by
  subst hx
  exact mulAdd_lt (rowOf_lt hr) hc

theorem uTask_safe {m core : Nat} (hm : m < cdiv M (p * m_c)) (hcore : core < mU M p m_r m_c m)
    {size : Buf → Option Nat} {init : Loc → Bool}
    (ha : ∀ x, x < padTo M (p * m_c) m_r * K → InB size ⟨.Ap, x⟩ ∧ init ⟨.Ap, x⟩ = true)
    (hb : ∀ x, x < padTo N n_c n_r * K → InB size ⟨.Bp, x⟩ ∧ init ⟨.Bp, x⟩ = true)
    (hc : ∀ x, x < padTo M (p * m_c) m_r * n_r → InB size ⟨.C, x⟩ ∧ init ⟨.C, x⟩ = true) :
    Safe size init (uTask kd ⟨.Ap, 0⟩ ⟨.Bp, 0⟩ ⟨.C, 0⟩ M N K p m_r n_r m_c k_c n_c 0 m core) := by
  rw [uTask_narrow h hN0 hN]
  apply Safe.flatMap
  intro k hkk
  rw [mem_serp] at hkk
  apply regTiles_safe' hk h.m_r_pos h.n_r_pos (mT_dvd h hm) (Nat.dvd_refl n_r)
  · intro x hx
    have hx1 : x / n_r < mT M p m_r m_c m core := div_lt_of_lt_mul' hx
    have hx2 := Nat.mod_lt x h.n_r_pos
    have := hc ((m * (p * m_c) + core * mX M p m_r m_c m) * n_r + x) (uRow_bound hx1 hx2 (by
      have := divmod_eq n_r x
      unfold rowOf
      calc _ = (m * (p * m_c) + core * mX M p m_r m_c m) * n_r + (x / n_r * n_r + x % n_r) := by rw [this]
        _ = _ := by ring))
    simpa [Loc.off] using this
  · intro x hx
    have := ha _ (aInd_bound h hm hkk hcore hx)
    simpa [Loc.off] using this
  · intro x hx
    have := hb _ (bInd_bound h (n := 0) (by rw [narrow_Nb h hN0 hN]; omega) hkk (by rw [narrow_nLen h hN0 hN]; exact hx))
    simpa [Loc.off] using this

variable {α : Type _} (F : Arith α)

theorem uTask_val {m core r c : Nat} (hm : m < cdiv M (p * m_c)) (hr : r < mT M p m_r m_c m core) (hc : c < n_r)
    (mem : Mem α) (a b : Nat → α)
    (hA : ∀ k i, k < cdiv K k_c → i < chopLen K k_c k →
      mem ⟨.Ap, aInd M K p m_r m_c k_c m k core + aIdx m_r (chopLen K k_c k) r i⟩ = a (k * k_c + i))
    (hB : ∀ k i, k < cdiv K k_c → i < chopLen K k_c k →
      mem ⟨.Bp, bInd N K n_r k_c n_c 0 k + bIdx n_r (chopLen K k_c k) c i⟩ = b (k * k_c + i)) :
    exec F (uTask kd ⟨.Ap, 0⟩ ⟨.Bp, 0⟩ ⟨.C, 0⟩ M N K p m_r n_r m_c k_c n_c 0 m core) mem
      ⟨.C, rowOf M p m_r m_c m core r * n_r + c⟩ =
    (kOrder K k_c (serp (kDesc 0 m) (cdiv K k_c))).foldl (fun acc kk => F.fma (a kk) (b kk) acc)
      (mem ⟨.C, rowOf M p m_r m_c m core r * n_r + c⟩) := by
  rw [uTask_narrow h hN0 hN]
  have hloc : ∀ x : Nat, x = (m * (p * m_c) + core * mX M p m_r m_c m) * n_r + cIdx m_r n_r (mT M p m_r m_c m core) r c →
      x = rowOf M p m_r m_c m core r * n_r + c := by
    rintro x rfl
    rw [cIdx_narrow hc]
    unfold rowOf
    ring
  have := exec_list_induct F (serp (kDesc 0 m) (cdiv K k_c)) (fun k =>
    regTiles kd core (⟨.Ap, 0⟩ +ₚ aInd M K p m_r m_c k_c m k core)
      (⟨.Bp, 0⟩ +ₚ bInd N K n_r k_c n_c 0 k)
      (⟨.C, 0⟩ +ₚ ((m * (p * m_c) + core * mX M p m_r m_c m) * n_r)) m_r n_r (mT M p m_r m_c m core) n_r (chopLen K k_c k)) mem
    (fun done mem' => mem' ⟨.C, rowOf M p m_r m_c m core r * n_r + c⟩ =
      (kOrder K k_c done).foldl (fun acc kk => F.fma (a kk) (b kk) acc)
        (mem ⟨.C, rowOf M p m_r m_c m core r * n_r + c⟩) ∧
      ∀ x : Loc, x.buf = .Ap ∨ x.buf = .Bp → mem' x = mem x)
    ⟨rfl, fun _ _ => rfl⟩ (by
      intro done k rest hdone mem' ⟨h1, h2⟩
      have hkk : k < cdiv K k_c := mem_serp.1 (by rw [hdone]; simp)
      refine ⟨?_, ?_⟩
      · have key := regTiles_spec' F hk h.m_r_pos h.n_r_pos (mT_dvd (core := core) h hm) (Nat.dvd_refl n_r) core
          (⟨.Ap, 0⟩ +ₚ aInd M K p m_r m_c k_c m k core) (⟨.Bp, 0⟩ +ₚ bInd N K n_r k_c n_c 0 k)
          (⟨.C, 0⟩ +ₚ ((m * (p * m_c) + core * mX M p m_r m_c m) * n_r)) (by simp) (by simp) (by simp) (by simp) (by simp)
          (chopLen K k_c k) mem' r c hr hc
        simp only [off_off] at key
        simp only [Loc.off, Nat.zero_add] at key ⊢
        rw [hloc _ rfl] at key
        rw [key, h1]
        unfold kOrder
        rw [flatMap_append, foldl_append]
        simp only [flatMap_cons, flatMap_nil, append_nil, foldl_map]
        apply List.foldl_ext
        intro acc i hi
        rw [mem_range] at hi
        rw [h2 _ (Or.inl rfl), h2 _ (Or.inr rfl), hA k i hkk hi, hB k i hkk hi]
      · intro x hx
        rw [regTiles_frame' F hk h.m_r_pos h.n_r_pos (mT_dvd (core := core) h hm) (Nat.dvd_refl n_r), h2 x hx]
        · rcases hx with hx | hx <;> rw [hx] <;> simp
        · intro r c _ _ e
          rw [e] at hx
          simp at hx)
  exact this.1

omit hk in
theorem schedU_narrow (kd : KDim) : schedU kd ⟨.Ap, 0⟩ ⟨.Bp, 0⟩ ⟨.C, 0⟩ M N K p m_r n_r m_c k_c n_c =
    (range (cdiv M (p * m_c))).map fun m => (range (mU M p m_r m_c m)).map fun core =>
      uTask kd ⟨.Ap, 0⟩ ⟨.Bp, 0⟩ ⟨.C, 0⟩ M N K p m_r n_r m_c k_c n_c 0 m core := by
  unfold schedU
  rw [narrow_Nb h hN0 hN]
  simp [serp_eq]

theorem schedU_val (mem : Mem α) (a b : Nat → Nat → α) (hA : APacked mem M K p m_r m_c k_c a)
    (hB : BPacked mem N K n_r k_c n_c b) {row col : Nat} (hrow : row < M) (hcol : col < N) :
    exec F (phaseOps (schedU kd ⟨.Ap, 0⟩ ⟨.Bp, 0⟩ ⟨.C, 0⟩ M N K p m_r n_r m_c k_c n_c)) mem ⟨.C, row * n_r + col⟩ =
      dotFrom F (a row) (fun k => b k col) (orderKMN K p m_c k_c n_c row col) (mem ⟨.C, row * n_r + col⟩) := by
  obtain ⟨m, core, r, hm, hcore, hr, rfl⟩ := rowOf_cover h hrow
  have hc : col < n_r := Nat.lt_of_lt_of_le hcol hN
  have hnc := narrow_nc h
  have e1 : rowOf M p m_r m_c m core r / (p * m_c) = m := mulAdd_div (strip_in_block hr)
  have e2 : col / n_c = 0 := Nat.div_eq_of_lt (by omega)
  unfold dotFrom orderKMN
  rw [e1, e2, schedU_narrow h hN0 hN, phaseOps_map]
  set P : Loc → Prop := fun x => x = ⟨.C, rowOf M p m_r m_c m core r * n_r + col⟩ ∨ x.buf = .Ap ∨ x.buf = .Bp with hP
  have other : ∀ m' core', m' < cdiv M (p * m_c) → (m' ≠ m ∨ core' ≠ core) →
      ∀ o ∈ uTask kd ⟨.Ap, 0⟩ ⟨.Bp, 0⟩ ⟨.C, 0⟩ M N K p m_r n_r m_c k_c n_c 0 m' core', ¬ P o.dst := by
    intro m' core' hm' hne o ho hPo
    rcases uTask_dst h hN0 hN hk hm' o ho with e | ⟨r', c', hr', hc', e⟩
    · rcases hPo with e' | e' | e'
      · rw [e'] at e; cases e
      · rw [e'] at e; cases e
      · rw [e'] at e; cases e
    · rcases hPo with e' | e' | e'
      · rw [e] at e'
        simp only [Loc.mk.injEq, true_and] at e'
        obtain ⟨g1, g2, -⟩ := rowOf_inj hr' hr (mulAdd_inj hc' hc e').1
        omega
      · rw [e] at e'; cases e'
      · rw [e] at e'; cases e'
  apply exec_flatMap_at F (range (cdiv M (p * m_c))) _ mem m (mem_range.2 hm) nodup_range _ _ P (Or.inl rfl)
  · intro mem1 h1
    rw [← List.flatMap_def]
    apply exec_flatMap_at F (range (mU M p m_r m_c m)) _ mem1 core (mem_range.2 hcore) nodup_range _ _ P (Or.inl rfl)
    · intro mem2 h2
      have h12 : ∀ x, P x → mem2 x = mem x := fun x hx => (h2 x hx).trans (h1 x hx)
      rw [uTask_val h hN0 hN hk F hm hr hc mem2 (a (rowOf M p m_r m_c m core r)) (fun kk => b kk col), h12 _ (Or.inl rfl)]
      · intro k i hkk hi
        rw [h12 _ (Or.inr (Or.inl rfl))]
        exact hA m k core r i hm hkk hcore hr hi hrow
      · intro k i hkk hi
        rw [h12 _ (Or.inr (Or.inr rfl))]
        have := hB 0 k col i (by rw [narrow_Nb h hN0 hN]; omega) hkk (by rw [narrow_nLen h hN0 hN]; exact hc) hi (by omega)
        simpa using this
    · intro core' _ hne o ho
      exact other m core' hm (Or.inr hne) o ho
  · intro m' hm' hne o ho
    rw [← List.flatMap_def] at ho
    obtain ⟨core', _, ho⟩ := mem_flatMap.1 ho
    exact other m' core' (mem_range.1 hm') (Or.inl hne) o ho

end narrow
end

section
variable {α : Type _} {F : Arith α} {M N K p m_c k_c n_c : Nat}

/-- Entries of the caller's C that may change. -/
def cPad (M p m_r m_c n_r : Nat) : Loc → Prop := fun l => l.buf = .C ∧ l.idx < padTo M (p * m_c) m_r * n_r

theorem unpacked_triple {cx : Cntx} (h : TileOK p cx.m_r cx.n_r m_c k_c n_c) (hk : cx.kfix.Fits cx.m_r cx.n_r)
    (hN0 : 0 < N) (hN : N ≤ cx.n_r) {s : State α} (hA : Holds s .A M K) (hB : Holds s .B K N)
    (hC : Holds s .C (padTo M (p * m_c) cx.m_r) cx.n_r) (hAp : s.size .Ap = none) (hBp : s.size .Bp = none)
    (hreg : ∀ t, s.size (.reg t) = none) :
    Triple F (· = s) (unpackedCall cx M N K p m_c k_c n_c) (fun s' =>
      (∀ l, s.size l.buf ≠ none → ¬ cPad M p cx.m_r m_c cx.n_r l → s'.mem l = s.mem l ∧ s'.init l = s.init l) ∧
      ∀ r c, r < M → c < N → s'.mem ⟨.C, r * cx.n_r + c⟩ =
        dotFrom F (fun k => entry s .A K r k) (fun k => entry s .B N k c) (orderKMN K p m_c k_c n_c r c)
          (entry s .C cx.n_r r c)) := by
  unfold unpackedCall
  have t1 := prepA_triple (F := F) (N := N) h (s0 := s) (sz := s.size) (P := fun _ _ => True) (a := entry s .A K) (packed := false)
    ⟨fun _ => ⟨hA, hAp, fun _ _ => rfl⟩, by simp⟩ (fun _ _ => rfl) (fun _ => hAp) (Stable.true _)
    (aSz := (cx.m_r * cdiv (M % (p * m_c)) cx.m_r + (M / (p * m_c)) * p * m_c) * K) rfl ⟨.A, 0⟩ (fun _ => rfl)
  have t2 := prepB_triple (F := F) (M := M) h (s0 := s)
    (sz := szSet s.size .Ap (some ((cx.m_r * cdiv (M % (p * m_c)) cx.m_r + (M / (p * m_c)) * p * m_c) * K)))
    (P := fun m i => True ∧ AOk M K p cx.m_r m_c k_c (entry s .A K) m i) (b := entry s .B N) (packed := false)
    ⟨fun _ => ⟨hB, hBp, fun _ _ => rfl⟩, by simp⟩ (fun b hb => by
      rw [szSet_ne]; rintro rfl; exact hb hAp) (fun _ => by rw [szSet_ne _ _ (by simp)]; exact hBp)
    (Stable.and (Stable.true _) (AOk.stable (by simp) _)) ⟨.B, 0⟩ (fun _ => rfl)
  have haS : (cx.m_r * cdiv (M % (p * m_c)) cx.m_r + (M / (p * m_c)) * p * m_c) * K = padTo M (p * m_c) cx.m_r * K := by
    unfold padTo; ring
  have hbS : packedBSize K N cx.n_r n_c = padTo N n_c cx.n_r * K := by
    unfold packedBSize
    rw [sub_mod_eq]
    unfold padTo
    ring
  simp only [Bool.false_eq_true, if_false] at t1 t2
  obtain ⟨⟨nC, hnC, hleC⟩, hiC⟩ := hC
  refine ((Triple.seq (Triple.seq t1 t2) (R := fun s' => Env s (szSet (szSet s.size .Ap (some ((cx.m_r * cdiv (M % (p * m_c)) cx.m_r + (M / (p * m_c)) * p * m_c) * K))) .Bp
          (some (packedBSize K N cx.n_r n_c))) (cPad M p cx.m_r m_c cx.n_r) (fun m _ =>
      ∀ r c, r < M → c < N → m ⟨.C, r * cx.n_r + c⟩ =
        dotFrom F (fun k => entry s .A K r k) (fun k => entry s .B N k c) (orderKMN K p m_c k_c n_c r c)
          (entry s .C cx.n_r r c)) s') ?_)).conseq ?_ ?_
  · rw [schedU_eq h, schedU_narrow h hN0 hN]
    have hsame : ∀ x, x < padTo M (p * m_c) cx.m_r * cx.n_r → ∀ s' : State α, Env s
        (szSet (szSet s.size .Ap (some ((cx.m_r * cdiv (M % (p * m_c)) cx.m_r + (M / (p * m_c)) * p * m_c) * K))) .Bp
          (some (packedBSize K N cx.n_r n_c))) noX (fun m i => (True ∧ AOk M K p cx.m_r m_c k_c (entry s .A K) m i) ∧
          BOk N K cx.n_r k_c n_c (entry s .B N) m i) s' → s'.mem ⟨.C, x⟩ = s.mem ⟨.C, x⟩ ∧ s'.init ⟨.C, x⟩ = true := by
      intro x hx s' hs'
      have := hs'.keep ⟨.C, x⟩ (by simp [hnC]) (fun h => h)
      exact ⟨this.1, by rw [this.2]; exact hiC x hx⟩
    apply Env.phases
    · intro ts hts
      obtain ⟨m, hm, rfl⟩ := mem_map.1 hts
      exact uTask_raceFree h hN0 hN hk (mem_range.1 hm)
    · intro s' hs' ts hts t ht
      obtain ⟨m, hm, rfl⟩ := mem_map.1 hts
      obtain ⟨core, hcore, rfl⟩ := mem_map.1 ht
      refine uTask_safe h hN0 hN hk (mem_range.1 hm) (mem_range.1 hcore) ?_ ?_ ?_
      · intro x hx
        exact ⟨inB_of (by rw [szSet_ne _ _ (by simp)]; exact szSet_self _ _ _) (by rw [haS]; exact hx), hs'.fact.1.2.2 x hx⟩
      · intro x hx
        exact ⟨inB_of (szSet_self _ _ _) (by rw [hbS]; exact hx), hs'.fact.2.2 x hx⟩
      · intro x hx
        exact ⟨inB_of (n := nC) (by rw [szSet_ne _ _ (by simp), szSet_ne _ _ (by simp)]; exact hnC) (by omega), (hsame x hx s' hs').2⟩
    · intro s' hs'
      refine ⟨hs'.size, ?_, ?_⟩
      · intro l hl hX
        have hno : ∀ o ∈ phaseOps ((range (cdiv M (p * m_c))).map fun m => (range (mU M p cx.m_r m_c m)).map fun core =>
            uTask cx.kfix ⟨.Ap, 0⟩ ⟨.Bp, 0⟩ ⟨.C, 0⟩ M N K p cx.m_r cx.n_r m_c k_c n_c 0 m core), o.dst ≠ l := by
          intro o ho e
          rw [phaseOps_map] at ho
          obtain ⟨m, hm, ho⟩ := mem_flatMap.1 ho
          rw [← List.flatMap_def] at ho
          obtain ⟨core, _, ho⟩ := mem_flatMap.1 ho
          rcases uTask_dst h hN0 hN hk (mem_range.1 hm) o ho with e' | ⟨r, c, hr, hc, e'⟩
          · rw [e] at e'; rw [e'] at hl; exact hl (hreg _)
          · rw [e] at e'; rw [e'] at hX; exact hX ⟨rfl, uRow_bound hr hc rfl⟩
        have := hs'.keep l hl (fun h => h)
        exact ⟨(exec_frame F _ _ _ hno).trans this.1, (initAfter_eq_of_not_dst hno).trans this.2⟩
      · intro r c hr hc
        have := schedU_val h hN0 hN hk F s'.mem _ _ hs'.fact.1.2.1 hs'.fact.2.1 hr hc
        rw [schedU_narrow h hN0 hN] at this
        have hlt : r * cx.n_r + c < padTo M (p * m_c) cx.m_r * cx.n_r :=
          mulAdd_lt (Nat.lt_of_lt_of_le hr (padTo_ge _ _ _ h.m_r_pos)) (by omega)
        rw [(hsame _ hlt s' hs').1] at this
        exact this
  · rintro s' rfl
    exact ⟨rfl, fun _ _ _ => ⟨rfl, rfl⟩, trivial⟩
  · intro s' hs'
    exact ⟨hs'.keep, hs'.fact⟩

end

/-! ### More than one register-tile column -/

theorem kernel_reads_B {L m nl t : Nat} (A B C : Loc) (narg k : Nat) {kk j l : Nat} (hk : kk < k) (hj : j < nl) (hl : l < L) :
    ∃ o ∈ kernel L m nl t A B C narg k, (B +ₚ (kk * narg + (j * L + l))) ∈ o.reads := by
  refine ⟨.copy (rB L m nl t j l) (B +ₚ (kk * narg + (j * L + l))), ?_, by simp [Op.reads]⟩
  unfold kernel
  rw [kernLoop_eq]
  apply mem_append_left
  apply mem_append_right
  rw [mem_flatMap]
  refine ⟨kk, mem_range.2 hk, ?_⟩
  rw [kernInner_eq]
  apply mem_append_left
  unfold kernLoadB
  simp only [mem_flatMap, mem_map, mem_range]
  exact ⟨j, hj, l, hl, rfl⟩

section
variable {M N K p m_r n_r m_c k_c n_c : Nat} (h : TileOK p m_r n_r m_c k_c n_c)
include h

/-- The last register tile of B is read with the row distance of C, hence beyond the end of the packed B. -/
theorem schedU_oob {kd : KDim} (hk : kd.Fits m_r n_r) (hM : 0 < M) (hN : n_r < N)
    (hK : 2 ≤ chopLen K k_c (cdiv K k_c - 1)) :
    ∃ o ∈ phaseOps (schedU kd ⟨.Ap, 0⟩ ⟨.Bp, 0⟩ ⟨.C, 0⟩ M N K p m_r n_r m_c k_c n_c), ∃ x,
      padTo N n_c n_r * K ≤ x ∧ (⟨.Bp, x⟩ : Loc) ∈ o.reads := by
  obtain ⟨m, core, r, hm, hcore, hr, -⟩ := rowOf_cover h hM
  have hn0 : 0 < cdiv N n_c := by
    rw [Nat.pos_iff_ne_zero]; intro e
    have := cdiv_mul_ge N n_c h.n_c_pos
    rw [e] at this; omega
  have hK0 : 0 < cdiv K k_c := by
    rw [Nat.pos_iff_ne_zero]; intro e
    have := cdiv_mul_ge K k_c h.k_c_pos
    rw [e] at this
    have hK' : K = 0 := by omega
    subst hK'
    simp [chopLen] at hK
  set n := cdiv N n_c - 1 with hn
  set k := cdiv K k_c - 1 with hkd
  have hnlt : n < cdiv N n_c := by omega
  have hklt : k < cdiv K k_c := by omega
  have hnl : n * n_c + nLen N n_r n_c n = padTo N n_c n_r :=
    chopLen_last h.n_c_pos (by rw [← nb_eq h]; omega)
  have hkl : k * k_c + chopLen K k_c k = K := chopLen_last h.k_c_pos (by omega)
  obtain ⟨q, hq⟩ := nLen_dvd h (N := N) (n := n)
  have hq0 : 0 < q := by
    have : 0 < nLen N n_r n_c n := chopLen_pos h.n_c_pos (by rw [← nb_eq h]; omega)
    rw [hq] at this
    exact Nat.pos_of_mul_pos_left this
  have hm0 : 0 < mT M p m_r m_c m core / m_r := Nat.div_pos (Nat.le_of_dvd (by omega) (mT_dvd h hm)) h.m_r_pos
  have hL := hk.L_pos
  have hnl0 : 0 < kd.nl := by
    rw [Nat.pos_iff_ne_zero]; intro e
    have := hk.n_eq
    rw [e] at this
    have := h.n_r_pos
    omega
  obtain ⟨o, ho, hrd⟩ := kernel_reads_B (t := core) (m := kd.m)
    (⟨.Ap, 0⟩ +ₚ aInd M K p m_r m_c k_c m k core +ₚ (0 * m_r * chopLen K k_c k))
    (⟨.Bp, 0⟩ +ₚ bInd N K n_r k_c n_c n k +ₚ ((q - 1) * chopLen K k_c k * n_r))
    (⟨.C, 0⟩ +ₚ (n * n_c + (m * (p * m_c) + core * mX M p m_r m_c m) * padTo N n_c n_r) +ₚ ((q - 1) * n_r + 0 * m_r * padTo N n_c n_r))
    (padTo N n_c n_r) (chopLen K k_c k) (kk := chopLen K k_c k - 1) (j := kd.nl - 1) (l := kd.L - 1) (by omega)
    (L := kd.L) (nl := kd.nl) (by omega) (by omega)
  refine ⟨o, ?_, _, ?_, hrd⟩
  · unfold schedU
    rw [phaseOps_flatMap, mem_flatMap]
    refine ⟨n, mem_range.2 hnlt, ?_⟩
    rw [phaseOps_map, mem_flatMap]
    refine ⟨m, mem_serp.2 hm, ?_⟩
    rw [← List.flatMap_def, mem_flatMap]
    refine ⟨core, mem_range.2 hcore, ?_⟩
    unfold uTask
    rw [mem_flatMap]
    refine ⟨k, mem_serp.2 hklt, ?_⟩
    unfold tilesUnpacked
    rw [mem_flatMap]
    refine ⟨q - 1, mem_range.2 ?_, ?_⟩
    · rw [hq, Nat.mul_div_cancel_left _ h.n_r_pos]; omega
    · rw [mem_flatMap]
      exact ⟨0, mem_range.2 hm0, ho⟩
  · simp only [Loc.off, Nat.zero_add]
    unfold bInd
    have e0 : chopLen (padTo N n_c n_r) n_c n = nLen N n_r n_c n := rfl
    rw [e0]
    have hNp : n_r + n_r ≤ padTo N n_c n_r := by
      have h1 := padTo_ge N n_c n_r h.n_r_pos
      obtain ⟨u, hu⟩ := padTo_dvd (T := N) h.n_dvd
      rw [hu] at h1 ⊢
      have : 1 < u := by
        by_contra hc
        have := Nat.mul_le_mul_left n_r (show u ≤ 1 by omega)
        omega
      have := Nat.mul_le_mul_left n_r (show 2 ≤ u by omega)
      omega
    have eL : (kd.nl - 1) * kd.L + (kd.L - 1) = n_r - 1 := by
      have := hk.n_eq
      obtain ⟨z, hz⟩ : ∃ z, kd.nl = z + 1 := ⟨kd.nl - 1, by omega⟩
      rw [hz, Nat.add_mul] at this
      rw [hz, Nat.add_sub_cancel]
      omega
    rw [eL]
    obtain ⟨d, hd⟩ : ∃ d, chopLen K k_c k = d + 2 := ⟨_, (Nat.sub_add_cancel hK).symm⟩
    obtain ⟨w, hw⟩ : ∃ w, q = w + 1 := ⟨q - 1, by omega⟩
    obtain ⟨P, hP⟩ : ∃ P, padTo N n_c n_r = n_r + n_r + P := ⟨_, (Nat.add_sub_cancel' hNp).symm⟩
    have hr0 := h.n_r_pos
    rw [hd] at hkl ⊢
    rw [hq, hw] at hnl ⊢
    rw [hP] at hnl ⊢
    obtain ⟨v, rfl⟩ : ∃ v, n_r = v + 1 := ⟨n_r - 1, by omega⟩
    have e3 : d + 2 - 1 = d + 1 := by omega
    have e4 : w + 1 - 1 = w := by omega
    have e5 : v + 1 - 1 = v := by omega
    rw [e3, e4, e5]
    have goal : (v + 1 + (v + 1) + P) * K ≤
        n * n_c * K + k * k_c * ((v + 1) * (w + 1)) + w * (d + 2) * (v + 1) + ((d + 1) * (v + 1 + (v + 1) + P) + v) := by
      have e6 : (v + 1 + (v + 1) + P) * K = (n * n_c + (v + 1) * (w + 1)) * K := by rw [hnl]
      rw [e6, Nat.add_mul]
      have e7 : (v + 1) * (w + 1) * K = (v + 1) * (w + 1) * (k * k_c + (d + 2)) := by rw [hkl]
      rw [e7]
      have : (v + 1) * (w + 1) * (k * k_c + (d + 2)) =
        k * k_c * ((v + 1) * (w + 1)) + w * (d + 2) * (v + 1) + (d + 2) * (v + 1) := by ring
      rw [this]
      have : (d + 1) * (v + 1 + (v + 1) + P) = (d + 2) * (v + 1) + d * (v + 1) + (d + 1) * P := by ring
      rw [this]
      omega
    exact goal

end

/-- A program that reads beyond the end of a block just allocated never ends normally. -/
theorem unpacked_no_ok {α : Type _} {F : Arith α} {cx : Cntx} {M N K p m_c k_c n_c : Nat}
    (h : TileOK p cx.m_r cx.n_r m_c k_c n_c) (hk : cx.kfix.Fits cx.m_r cx.n_r) (hM : 0 < M) (hN : cx.n_r < N)
    (hK : 2 ≤ chopLen K k_c (cdiv K k_c - 1)) {s s' : State α} : ¬ Exec F (unpackedCall cx M N K p m_c k_c n_c) s (.ok s') := by
  intro he
  have nok : ∀ {P Q : Prog} {s t : State α}, Exec F (P ++ Q) s (.ok t) →
      ∃ u, Exec F P s (.ok u) ∧ Exec F Q u (.ok t) := by
    intro P Q s t hx
    rcases hx.append_inv with hx | ⟨_, e | e⟩
    · exact hx
    · cases e
    · cases e
  obtain ⟨s2, h2, h3⟩ := nok (Q := phases (schedule_KMN_C_unpacked cx.kfix ⟨.Ap, 0⟩ ⟨.Bp, 0⟩ ⟨.C, 0⟩ K p cx.m_r cx.n_r
    (dimsKMN M N K p cx.m_r cx.n_r m_c k_c n_c))) he
  obtain ⟨s1, _, h2⟩ := nok h2
  obtain ⟨s4, h4, h5⟩ := nok (P := [.memalign .Bp (packedBSize K N cx.n_r n_c)]) (Q := phases _) h2
  have e4 : s4.size .Bp = some (packedBSize K N cx.n_r n_c) := by
    have := h4.single_inv
    cases this
    simp
  have e5 := (phases_ok_inv h5).1
  obtain ⟨_, g⟩ := phases_ok_inv h3
  rw [schedU_eq h] at g
  obtain ⟨o, ho, x, hx, hrd⟩ := schedU_oob h hk hM hN hK
  obtain ⟨n, hn, hlt⟩ := (g o ho).2 _ hrd
  rw [e5, e4] at hn
  cases hn
  have hbS : packedBSize K N cx.n_r n_c = padTo N n_c cx.n_r * K := by
    unfold packedBSize
    rw [sub_mod_eq]
    unfold padTo
    ring
  simp only at hlt
  omega

end Cake
