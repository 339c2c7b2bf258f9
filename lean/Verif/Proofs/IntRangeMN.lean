/-
Bounds on the `int` expressions of the M-first and N-first paths (`Verif.Model.IntRangeMN`).
-/
import Verif.Model.IntRangeMN
import Verif.Proofs.IntRange
import Verif.Proofs.SchedM
import Verif.Proofs.SchedN

namespace Cake
open List

theorem loop_chop2_fits {T s T' s' : Nat} (hs : 0 < s) (hs' : 0 < s') {body : Nat → Nat → Nat → List E × Nat}
    (hst : ∀ i j off, i < cdiv T s → j < cdiv T' s' →
      (body i j off).2 = off + chopLen T s i * chopLen T' s' j)
    (hf : ∀ i j, i < cdiv T s → j < cdiv T' s' →
      AllFits (body i j (i * s * T' + j * s' * chopLen T s i)).1) :
    AllFits (loopS (range (cdiv T s)) (fun i st =>
      loopS (range (cdiv T' s')) (fun j off => body i j off) st) 0).1 := by
  refine (loopS_fits (fun i => chopOff T s i * T') (by simp [chopOff_zero]) fun i hi => ?_).1
  have inner := loopS_fits (body := fun j off => body i j off) (n := cdiv T' s')
    (s := chopOff T s i * T') (fun j => chopOff T s i * T' + chopOff T' s' j * chopLen T s i)
    (by simp [chopOff_zero]) (fun j hj => ⟨?_, ?_⟩)
  · refine ⟨inner.2.trans ?_, inner.1⟩
    rw [chopOff_end hs', chopOff_succ]; ring
  · rw [hst i j _ hi hj]; simp only [chopOff_succ]; ring
  · rw [chopOff_eq hs hi, chopOff_eq hs' hj]
    exact hf i j hi hj

theorem tile_le {t q u : Nat} (ht : t < q) : t * u + u ≤ q * u := by
  have := Nat.mul_le_mul_right u (Nat.succ_le_of_lt ht)
  rwa [Nat.succ_mul] at this

/-- `pack_ob_B_single_buf` on `n_c` columns from column `n1` of a matrix padded to `P` columns. -/
theorem obBInts_fits {N n1 k_c n_c n_r P : Nat} {pad : Bool} (hn : 0 < n_r) (hd : n_r ∣ n_c)
    (hN0 : 0 < N) (hNP : N ≤ P) (hcol : n1 + n_c ≤ P) (hP : P < 2 ^ 31) (hKP : k_c * P < 2 ^ 31)
    (hk : k_c < 2 ^ 31) : AllFits (obBInts N n1 k_c n_c n_r pad) := by
  obtain ⟨q, rfl⟩ := hd
  rw [Nat.mul_comm n_r q] at *
  unfold obBInts
  rw [loop3_eq _ _ _ _ _ hn]
  refine AllFits.flatMap fun t ht => AllFits.flatMap fun i hi => AllFits.flatMap fun j hj => ?_
  rw [mem_range] at ht hi hj
  have h1 := tile_le (u := n_r) ht
  have hind : t * (k_c * n_r) + (i * n_r + j) < k_c * P := by
    calc _ < q * (k_c * n_r) := mulAdd_lt ht (mulAdd_lt hi hj)
      _ = k_c * (q * n_r) := by ring
      _ ≤ _ := Nat.mul_le_mul_left _ (by omega)
  have hsrc : t * n_r + i * N + j < k_c * P := by
    have h3 : (i + 1) * P ≤ k_c * P := Nat.mul_le_mul_right _ hi
    have h4 : i * N ≤ i * P := Nat.mul_le_mul_left _ hNP
    have e : (i + 1) * P = i * P + P := by ring
    omega
  have hS : ((t * n_r : Nat) + (i : E) * N + j : E).Fits := by
    refine E.Good.add (E.Good.add (.lit _) (E.Good.mulL (.lit _) (by omega) hN0)) (.lit _) ?_
    simp only [E.val_add, E.val_mul, E.val_lit]; omega
  refine AllFits.append ?_ ?_
  · refine .cons ((E.Good.lit _).add (.lit _) ?_) <| .cons ((E.Good.lit _).add .one ?_) <|
      .cons ((E.Good.lit _).add .one ?_) <| .cons ((E.Good.lit _).add .one ?_) .nil <;>
      simp only [E.val_add, E.val_lit, E.val_one] <;> omega
  · cases pad with
    | true =>
      simp only [if_true]
      refine AllFits.append (.cons (((E.Good.lit _).add (.lit _)).add (.lit _) ?_) .nil) ?_
      · simp only [E.val_add, E.val_lit]; omega
      · split
        · exact .nil
        · exact .cons hS .nil
    | false =>
      exact .cons hS .nil

theorem obCInts_fits {M N m1 n1 m2 m_c n_c m_r n_r : Nat} {pm pn : Bool} (hm : 0 < m_r) (hn : 0 < n_r)
    (hdm : m_r ∣ m_c) (hdn : n_r ∣ n_c) (hrow : m1 + m2 + m_c < 2 ^ 31) (hcol : n1 + n_c < 2 ^ 31)
    (hN0 : 0 < N) (hN : N < 2 ^ 31) (hblk : m_c * n_c < 2 ^ 31) (hMN : M * N < 2 ^ 31)
    (hfull : (pm || pn) = false → m_c ≤ M ∧ n_c ≤ N) :
    AllFits (obCInts M N m1 n1 m2 m_c n_c m_r n_r pm pn) := by
  unfold obCInts
  split
  · exact unpackInts_fits hm hn hdm hdn hrow hcol hN hblk hMN
  · rename_i hp
    obtain ⟨hf1, hf2⟩ := hfull (by simpa using hp)
    obtain ⟨q, rfl⟩ := hdm
    obtain ⟨q', rfl⟩ := hdn
    rw [Nat.mul_comm m_r q, Nat.mul_comm n_r q'] at *
    rw [loop4_eq _ _ _ _ _ _ _ hn hm]
    refine AllFits.flatMap fun t ht => AllFits.flatMap fun u hu => AllFits.flatMap fun i hi =>
      AllFits.flatMap fun j hj => ?_
    rw [mem_range] at ht hu hi hj
    have h1 := tile_le (u := n_r) ht
    have h2 := tile_le (u := m_r) hu
    have hind : t * (q * (m_r * n_r)) + (u * (m_r * n_r) + (i * n_r + j)) < q * m_r * (q' * n_r) := by
      calc _ < q' * (q * (m_r * n_r)) := mulAdd_lt ht (mulAdd_lt hu (mulAdd_lt hi hj))
        _ = _ := by ring
    have hb : t * n_r + u * m_r * N + i * N + j < M * N := by
      have h3 : (u * m_r + i + 1) * N ≤ M * N := Nat.mul_le_mul_right _ (by omega)
      have e : (u * m_r + i + 1) * N = u * m_r * N + i * N + N := by ring
      omega
    refine .cons ((E.Good.lit _).add (.lit _) ?_) <| .cons ((E.Good.lit _).add (.lit _) ?_) <|
      .cons ((E.Good.lit _).add .one ?_) <| .cons ((E.Good.lit _).add .one ?_) <|
      .cons ((E.Good.lit _).add .one ?_) <|
      .cons (((E.Good.add (.lit _) ((E.Good.lit _).mulL hN hN0)).add
        ((E.Good.lit _).mulL hN hN0)).add (.lit _) ?_) .nil <;>
      simp only [E.val_add, E.val_mul, E.val_lit, E.val_one] <;> omega

/-- The register-tile loops on an `mt x nt` block of depth `kt`. -/
theorem regIntsC_fits {a b c : E} {m_r n_r mt nt kt : Nat} (hm : 0 < m_r) (hn : 0 < n_r)
    (hmi : m_r < 2 ^ 31) (hni : n_r < 2 ^ 31) (hdm : m_r ∣ mt) (hdn : n_r ∣ nt) (hk0 : 0 < kt)
    (hki : kt < 2 ^ 31) (hmt : mt < 2 ^ 31) (hnt : nt < 2 ^ 31) (ha : a.Good) (hb : b.Good) (hc : c.Good)
    (ha1 : a.val + mt * kt < 2 ^ 31) (hb1 : b.val + kt * nt < 2 ^ 31) (hc1 : c.val + mt * nt < 2 ^ 31) :
    AllFits (regIntsC a b c m_r n_r mt nt kt) := by
  unfold regIntsC
  refine AllFits.append (.cons (E.fits_div hnt hni hn) <| .cons (E.fits_div hmt hmi hm) .nil) ?_
  obtain ⟨q, rfl⟩ := hdm
  obtain ⟨q', rfl⟩ := hdn
  rw [Nat.mul_comm m_r q, Nat.mul_comm n_r q'] at *
  rw [Nat.mul_div_cancel _ hm, Nat.mul_div_cancel _ hn]
  refine AllFits.flatMap fun t ht => AllFits.flatMap fun u hu => ?_
  rw [mem_range] at ht hu
  have h1 := tile_le (u := n_r) ht
  have h2 := tile_le (u := m_r) hu
  have e1 : u * m_r * kt ≤ q * m_r * kt := Nat.mul_le_mul_right _ (by omega)
  have e2 : t * kt * n_r ≤ kt * (q' * n_r) := by
    calc _ = kt * (t * n_r) := by ring
      _ ≤ _ := Nat.mul_le_mul_left _ (by omega)
  have e3 : t * (q * m_r) * n_r + u * m_r * n_r ≤ q * m_r * (q' * n_r) := by
    calc _ ≤ t * (q * m_r) * n_r + q * m_r * n_r :=
          Nat.add_le_add_left (Nat.mul_le_mul_right _ (by omega)) _
      _ = q * m_r * (t * n_r + n_r) := by ring
      _ ≤ _ := Nat.mul_le_mul_left _ h1
  have e4 : t ≤ t * n_r := Nat.le_mul_of_pos_right _ hn
  have e5 : u ≤ u * m_r := Nat.le_mul_of_pos_right _ hm
  refine .cons (E.Good.add ha (E.Good.mulL (E.Good.mulL (.lit _) hmi hm) hki hk0) ?_) <|
    .cons (E.Good.add hb (E.Good.mulL (E.Good.mulL (.lit _) hki hk0) hni hn) ?_) <|
    .cons (E.Good.add (E.Good.add hc (E.Good.mulL (E.Good.mulL (.lit _) hmt ?_) hni hn))
      (E.Good.mulL (E.Good.mulL (.lit _) hmi hm) hni hn) ?_) <|
    .cons ((E.Good.lit _).add .one ?_) <| .cons ((E.Good.lit _).add .one ?_) .nil <;>
    (try simp only [E.val_add, E.val_mul, E.val_lit, E.val_one]) <;> omega

/-- The sizes that must be representable when rows are blocked by `mS`. -/
structure Int32Sh (M N K p m_r n_r mS k_c n_c : Nat) : Prop where
  MK : padTo M mS m_r * K < 2 ^ 31
  KN : K * padTo N n_c n_r < 2 ^ 31
  MN : padTo M mS m_r * padTo N n_c n_r < 2 ^ 31
  Mp : padTo M mS m_r < 2 ^ 31
  Np : padTo N n_c n_r < 2 ^ 31
  Ki : K < 2 ^ 31
  pk : p * k_c < 2 ^ 31
  mS : mS < 2 ^ 31
  nc : n_c < 2 ^ 31

section
variable {M N K p m_r n_r mS k_c n_c : Nat} (g : GeoOK p m_r n_r mS k_c n_c)
  (z : Int32Sh M N K p m_r n_r mS k_c n_c)

theorem k_block (g : GeoOK p m_r n_r mS k_c n_c) {k : Nat} (hk : k < cdiv K (p * k_c)) :
    0 < kX K p k_c k ∧ kX K p k_c k ≤ k_c ∧ k * p * k_c + kL K p k_c k ≤ K ∧ 0 < kL K p k_c k ∧
      kU K p k_c k ≤ p := by
  obtain ⟨h1, h2, _, h4, _⟩ := k_strips g.p_pos g.k_c_pos hk
  have hS : 0 < p * k_c := Nat.mul_pos g.p_pos g.k_c_pos
  refine ⟨h1, h2, ?_, chopLen_pos hS hk, h4⟩
  rw [Nat.mul_assoc]
  exact chop_bound' hS hk

theorem k_core (g : GeoOK p m_r n_r mS k_c n_c) {k core : Nat} (hk : k < cdiv K (p * k_c))
    (hc : core < kU K p k_c k) :
    core * kX K p k_c k + kT K p k_c k core ≤ kL K p k_c k ∧ 0 < kT K p k_c k core :=
  ⟨chop_bound' (k_block g hk).1 hc, chopLen_pos (k_block g hk).1 hc⟩

theorem m_blk (g : GeoOK p m_r n_r mS k_c n_c) {m : Nat} (hm : m < cdiv M mS) :
    m * mS + sL M mS m_r m ≤ padTo M mS m_r ∧ 0 < sL M mS m_r m ∧ m * mS < M ∧ sL M mS m_r m ≤ mS :=
  ⟨chop_bound' g.mS_pos (by rwa [mBlk g]), chopLen_pos g.mS_pos (by rwa [mBlk g]),
    chop_mul_lt g.mS_pos hm, chopLen_le _ _ _⟩

theorem n_blk (g : GeoOK p m_r n_r mS k_c n_c) {n : Nat} (hn : n < cdiv N n_c) :
    n * n_c + sL N n_c n_r n ≤ padTo N n_c n_r ∧ 0 < sL N n_c n_r n ∧ n * n_c < N ∧
      sL N n_c n_r n ≤ n_c :=
  ⟨chop_bound' g.n_c_pos (by rwa [nBlk g]), chopLen_pos g.n_c_pos (by rwa [nBlk g]),
    chop_mul_lt g.n_c_pos hn, chopLen_le _ _ _⟩

/-- `k_cb` -/
def kcbE (K p k_c pl k : Nat) : E :=
  if (k == cdiv K (p * k_c) - 1 && K % (p * k_c) != 0) = true then ((K % (p * k_c) : Nat) : E)
  else ((if (k == cdiv K (p * k_c) - 1 && K % (p * k_c) != 0) = true then pl else p : Nat) : E) * k_c

include g z

theorem kcbE_ok {pl k : Nat} (hk : k < cdiv K (p * k_c))
    (hpl : pl = if cdiv (K % (p * k_c)) p ≠ 0 then cdiv (K % (p * k_c)) (cdiv (K % (p * k_c)) p) else 0) :
    (kcbE K p k_c pl k).val = kL K p k_c k ∧ (kcbE K p k_c pl k).Fits := by
  have hki := z.Ki
  have hpk := z.pk
  constructor
  · rw [← (k_strips' g.p_pos g.k_c_pos hk hpl rfl).2.1]
    unfold kcbE
    split <;> rfl
  · unfold kcbE
    split
    · exact E.fits_lit (Nat.lt_of_le_of_lt (Nat.mod_le _ _) hki)
    · exact E.Good.mulL (.lit _) (Nat.lt_of_le_of_lt (Nat.le_mul_of_pos_left _ g.p_pos) hpk) g.k_c_pos hpk

/-- `n1` -/
theorem n1S_ok {n : Nat} (hn : n < cdiv N n_c) :
    (n1E N n_c n).val = n * n_c ∧ (n1E N n_c n).Fits := by
  have hv : (n1E N n_c n).val = n * n_c := by
    rw [← first_of_blk (T := N) g.n_c_pos]
    unfold n1E
    split <;> rfl
  refine ⟨hv, ?_⟩
  have hNi : N < 2 ^ 31 := Nat.lt_of_le_of_lt (padTo_ge N n_c n_r g.n_r_pos) z.Np
  have hb := n_blk (N := N) g hn
  have hlt : (n1E N n_c n).val < 2 ^ 31 := by omega
  revert hlt
  unfold n1E
  split
  · exact E.Good.sub hNi (E.fits_mod hNi z.nc g.n_c_pos) (Nat.mod_le _ _)
  · exact E.Good.mulL (.lit _) z.nc g.n_c_pos

theorem packACore_fits {row : E} {k m core off : Nat} (hrow : row.Good) (hv : row.val = m * mS)
    (hm : m < cdiv M mS) (hk : k < cdiv K (p * k_c)) (hc : core < kU K p k_c k)
    (hoff : off + kL K p k_c k * sL M mS m_r m < 2 ^ 31) :
    AllFits (packACore row M K k p m_r k_c core (kX K p k_c k) (sL M mS m_r m) (kT K p k_c k core) off) := by
  obtain ⟨x1, x2, x3, x4, x5⟩ := k_block g hk
  obtain ⟨y1, y2⟩ := k_core g hk hc
  obtain ⟨b1, b2, b3, b4⟩ := m_blk (M := M) g hm
  have hKi := z.Ki
  have hMp := z.Mp
  have hMK := z.MK
  have hpk := z.pk
  have hMM := padTo_ge M mS m_r g.m_r_pos
  have hMK' : M * K ≤ padTo M mS m_r * K := Nat.mul_le_mul_right _ hMM
  have hK0 : 0 < K := by omega
  have hkci : k_c < 2 ^ 31 := Nat.lt_of_le_of_lt (Nat.le_mul_of_pos_left _ g.p_pos) hpk
  have hpi : p < 2 ^ 31 := Nat.lt_of_le_of_lt (Nat.le_mul_of_pos_right _ g.k_c_pos) hpk
  have e1 : (m * mS + 1) * K ≤ M * K := Nat.mul_le_mul_right _ b3
  have e2 : (m * mS + 1) * K = m * mS * K + K := by ring
  have e3 : core * kX K p k_c k * sL M mS m_r m ≤ kL K p k_c k * sL M mS m_r m :=
    Nat.mul_le_mul_right _ (by omega)
  have e4 : sL M mS m_r m * kT K p k_c k core ≤ kL K p k_c k * sL M mS m_r m := by
    rw [Nat.mul_comm]; exact Nat.mul_le_mul_right _ (by omega)
  unfold packACore
  refine AllFits.append (.cons ?_ <| .cons ?_ <| .cons (hrow ?_) <| .cons ((E.Good.lit _).add .one ?_) .nil) ?_
  · refine E.Good.add (E.Good.add (E.Good.mulL hrow hKi hK0) (E.Good.mulL (E.Good.mulL (.lit _) hpi g.p_pos)
      hkci g.k_c_pos)) (E.Good.mulL (.lit _) (by omega) x1) ?_
    simp only [E.val_add, E.val_mul, E.val_lit, hv]
    omega
  · refine E.Good.add (.lit _) (E.Good.mulL (E.Good.mulL (.lit _) (by omega) x1) (by omega) b2) ?_
    simp only [E.val_add, E.val_mul, E.val_lit]
    omega
  · rw [hv]; omega
  · simp only [E.val_add, E.val_lit, E.val_one]; omega
  · rw [hv]
    exact obAInts_fits g.m_r_pos (mL_dvd g) (by omega) hKi (by omega) (by omega) (by omega)

/-- One core's share of the packing of B. -/
theorem packBCore_fits {n k core off : Nat} {pad : Bool} (hn : n < cdiv N n_c)
    (hk : k < cdiv K (p * k_c)) (hc : core < kU K p k_c k)
    (hoff : off + kL K p k_c k * sL N n_c n_r n < 2 ^ 31) :
    AllFits ([bOffSE k p k_c N n n_c core (kX K p k_c k), (off : E) + (core : E) * kX K p k_c k *
      sL N n_c n_r n, (core : E) + 1] ++
      obBInts N (n * n_c) (kT K p k_c k core) (sL N n_c n_r n) n_r pad) := by
  obtain ⟨x1, x2, x3, x4, x5⟩ := k_block g hk
  obtain ⟨y1, y2⟩ := k_core g hk hc
  obtain ⟨b1, b2, b3, b4⟩ := n_blk (N := N) g hn
  have hKi := z.Ki
  have hNp := z.Np
  have hKN := z.KN
  have hpk := z.pk
  have hNN := padTo_ge N n_c n_r g.n_r_pos
  have hKN' : K * N ≤ K * padTo N n_c n_r := Nat.mul_le_mul_left _ hNN
  have hkci : k_c < 2 ^ 31 := Nat.lt_of_le_of_lt (Nat.le_mul_of_pos_left _ g.p_pos) hpk
  have hpi : p < 2 ^ 31 := Nat.lt_of_le_of_lt (Nat.le_mul_of_pos_right _ g.k_c_pos) hpk
  have hN0 : 0 < N := by omega
  have hNi : N < 2 ^ 31 := by omega
  have e1 : (k * p * k_c + core * kX K p k_c k + 1) * N ≤ K * N := Nat.mul_le_mul_right _ (by omega)
  have e2 : (k * p * k_c + core * kX K p k_c k + 1) * N =
    k * p * k_c * N + core * kX K p k_c k * N + N := by ring
  have e3 : core * kX K p k_c k * sL N n_c n_r n ≤ kL K p k_c k * sL N n_c n_r n :=
    Nat.mul_le_mul_right _ (by omega)
  have e4 : kT K p k_c k core * padTo N n_c n_r ≤ K * padTo N n_c n_r :=
    Nat.mul_le_mul_right _ (by omega)
  refine AllFits.append (.cons ?_ <| .cons ?_ <| .cons ((E.Good.lit _).add .one ?_) .nil) ?_
  · refine E.Good.add (E.Good.add (E.Good.mulL (E.Good.mulL (E.Good.mulL (.lit _) hpi g.p_pos) hkci
      g.k_c_pos) hNi hN0) (E.Good.mulL (.lit _) z.nc g.n_c_pos))
      (E.Good.mulL (E.Good.mulL (.lit _) (by omega) x1) hNi hN0) ?_
    simp only [E.val_add, E.val_mul, E.val_lit]
    omega
  · refine E.Good.add (.lit _) (E.Good.mulL (E.Good.mulL (.lit _) (by omega) x1) (by omega) b2) ?_
    simp only [E.val_add, E.val_mul, E.val_lit]
    omega
  · simp only [E.val_add, E.val_lit, E.val_one]; omega
  · exact obBInts_fits g.n_r_pos (nL_dvd g) hN0 hNN b1 hNp (by omega) (by omega)

/-- Reading and writing block `(m, n)` of C. -/
theorem cBlk_fits {row : E} {m n : Nat} (hrow : row.Good) (hv : row.val = m * mS)
    (hm : m < cdiv M mS) (hn : n < cdiv N n_c) :
    (cOffSE row N n n_c).Fits ∧
    AllFits (obCInts M N (m * mS) (n * n_c) 0 (sL M mS m_r m) (sL N n_c n_r n) m_r n_r
      (m == cdiv M mS - 1 && M % mS != 0) (n == cdiv N n_c - 1 && N % n_c != 0)) ∧
    AllFits (unpackInts M N (m * mS) (n * n_c) 0 (sL M mS m_r m) (sL N n_c n_r n) m_r n_r) := by
  obtain ⟨a1, a2, a3, a4⟩ := m_blk (M := M) g hm
  obtain ⟨b1, b2, b3, b4⟩ := n_blk (N := N) g hn
  have hMp := z.Mp
  have hNp := z.Np
  have hMN := z.MN
  have hMM := padTo_ge M mS m_r g.m_r_pos
  have hNN := padTo_ge N n_c n_r g.n_r_pos
  have hMN' : M * N ≤ padTo M mS m_r * padTo N n_c n_r := Nat.mul_le_mul hMM hNN
  have hN0 : 0 < N := by omega
  have hNi : N < 2 ^ 31 := by omega
  have e1 : (m * mS + 1) * N ≤ M * N := Nat.mul_le_mul_right _ a3
  have e2 : (m * mS + 1) * N = m * mS * N + N := by ring
  have e3 : sL M mS m_r m * sL N n_c n_r n ≤ padTo M mS m_r * padTo N n_c n_r :=
    Nat.mul_le_mul (by omega) (by omega)
  refine ⟨?_, ?_, ?_⟩
  · refine E.Good.add (E.Good.mulL hrow hNi hN0) (E.Good.mulL (.lit _) z.nc g.n_c_pos) ?_
    simp only [E.val_add, E.val_mul, E.val_lit, hv]
    omega
  · refine obCInts_fits g.m_r_pos g.n_r_pos (mL_dvd g) (nL_dvd g) (by omega) (by omega) hN0 hNi
      (by omega) (by omega) fun hp => ?_
    rw [Bool.or_eq_false_iff] at hp
    have f1 := full_in g.mS_pos g.m_r_pos g.m_dvd hm hp.1
    have f2 := full_in g.n_c_pos g.n_r_pos g.n_dvd hn hp.2
    exact ⟨by omega, by omega⟩
  · exact unpackInts_fits g.m_r_pos g.n_r_pos (mL_dvd g) (nL_dvd g) (by omega) (by omega) hNi
      (by omega) (by omega)

omit z in
/-- The offset of block `(m, n)` in a packed C whose outer blocks are columns (M-first). -/
theorem cpM_bound {m n : Nat} (hm : m < cdiv M mS) (hn : n < cdiv N n_c) :
    n * padTo M mS m_r * n_c + m * mS * sL N n_c n_r n + sL M mS m_r m * sL N n_c n_r n ≤
      padTo M mS m_r * padTo N n_c n_r := by
  obtain ⟨a1, a2, a3, a4⟩ := m_blk (M := M) g hm
  obtain ⟨b1, b2, b3, b4⟩ := n_blk (N := N) g hn
  calc _ = padTo M mS m_r * (n * n_c) + (m * mS + sL M mS m_r m) * sL N n_c n_r n := by ring
    _ ≤ padTo M mS m_r * (n * n_c) + padTo M mS m_r * sL N n_c n_r n :=
        Nat.add_le_add_left (Nat.mul_le_mul_right _ a1) _
    _ = padTo M mS m_r * (n * n_c + sL N n_c n_r n) := by ring
    _ ≤ _ := Nat.mul_le_mul_left _ b1

omit z in
/-- The offset of block `(m, n)` in a packed C whose outer blocks are rows (N-first). -/
theorem cpN_bound {m n : Nat} (hm : m < cdiv M mS) (hn : n < cdiv N n_c) :
    m * mS * padTo N n_c n_r + sL M mS m_r m * n * n_c + sL M mS m_r m * sL N n_c n_r n ≤
      padTo M mS m_r * padTo N n_c n_r := by
  obtain ⟨a1, a2, a3, a4⟩ := m_blk (M := M) g hm
  obtain ⟨b1, b2, b3, b4⟩ := n_blk (N := N) g hn
  calc _ = m * mS * padTo N n_c n_r + sL M mS m_r m * (n * n_c + sL N n_c n_r n) := by ring
    _ ≤ m * mS * padTo N n_c n_r + sL M mS m_r m * padTo N n_c n_r :=
        Nat.add_le_add_left (Nat.mul_le_mul_left _ b1) _
    _ = (m * mS + sL M mS m_r m) * padTo N n_c n_r := by ring
    _ ≤ _ := Nat.mul_le_mul_right _ a1

/-- The parts of `init_block_dims` shared by the two cases. -/
theorem dimsIntsK_fits {x : BlkDims} (h1 : x.k_c = k_c) (h2 : x.n_c = n_c)
    (h3 : x.k_c1 = cdiv (K % (p * k_c)) p) (h4 : x.p_l =
      if cdiv (K % (p * k_c)) p ≠ 0 then cdiv (K % (p * k_c)) (cdiv (K % (p * k_c)) p) else 0)
    (h5 : x.nr_rem = cdiv (N % n_c) n_r) (h6 : x.k_pad = (K % (p * k_c) != 0))
    (h7 : x.n_pad = (N % n_c != 0)) (h8 : x.n_c1 = cdiv (N % n_c) n_r * n_r)
    (h9 : x.k_rem = K % (p * k_c)) : AllFits (dimsIntsK N K p n_r x) := by
  have hKi := z.Ki
  have hNp := z.Np
  have hpk := z.pk
  have hnc := z.nc
  have hNN := padTo_ge N n_c n_r g.n_r_pos
  have hNi : N < 2 ^ 31 := by omega
  have hS : 0 < p * k_c := Nat.mul_pos g.p_pos g.k_c_pos
  have hkci : k_c < 2 ^ 31 := Nat.lt_of_le_of_lt (Nat.le_mul_of_pos_left _ g.p_pos) hpk
  have hpi : p < 2 ^ 31 := Nat.lt_of_le_of_lt (Nat.le_mul_of_pos_right _ g.k_c_pos) hpk
  have hnri : n_r < 2 ^ 31 := Nat.lt_of_le_of_lt (Nat.le_of_dvd g.n_c_pos g.n_dvd) hnc
  have hPK : ((p : E) * k_c).Fits := E.Good.mulL (.lit _) hkci g.k_c_pos hpk
  have hmod := Nat.mod_le K (p * k_c)
  have hc1 : cdiv (K % (p * k_c)) p ≤ K % (p * k_c) := cdiv_le_self' g.p_pos
  have hNc1 : cdiv (N % n_c) n_r * n_r ≤ padTo N n_c n_r := by unfold padTo; omega
  have hnrem : cdiv (N % n_c) n_r ≤ N % n_c := cdiv_le_self' g.n_r_pos
  have hNm := Nat.mod_le N n_c
  have c2 : cdiv N n_c ≤ N := cdiv_le_self' g.n_c_pos
  have c3 : cdiv K (p * k_c) ≤ K := cdiv_le_self' hS
  have hNN' : ((N : E) - (N : E) % n_c).Fits :=
    E.Good.sub hNi (E.fits_mod hNi hnc g.n_c_pos) (Nat.mod_le _ _)
      (by simp only [E.val_sub, E.val_lit]; omega)
  have hpl : x.p_l ≤ p := by
    rw [h4]
    split
    · rename_i h0
      have hp0 : 0 < K % (p * k_c) := by omega
      exact core_split_le g.p_pos hp0
    · omega
  unfold dimsIntsK
  rw [h1, h2, h3, h5, h6, h7, h8, h9]
  refine AllFits.append (.cons (E.fits_mod hKi hPK hS) <| .cons (E.fits_mod hNi hnc g.n_c_pos) <|
    .cons (E.fits_lit (by omega)) <| .cons (E.fits_lit (by omega)) <|
    .cons (E.Good.mulL (.lit _) hnri g.n_r_pos ?_) <|
    .cons (E.Good.add (.of (E.fits_div hKi hPK hS)) (.lit _) ?_) <|
    .cons (E.Good.add (.of (E.fits_div hNi hnc g.n_c_pos)) (.lit _) ?_) <| .cons ?_ .nil) ?_
  · simp only [E.val_mul, E.val_lit]; omega
  · exact Nat.lt_of_le_of_lt (Nat.le_of_eq (cdiv_eq_div_add K (p * k_c) hS)) (by omega)
  · exact Nat.lt_of_le_of_lt (Nat.le_of_eq (cdiv_eq_div_add N n_c g.n_c_pos)) (by omega)
  · refine E.Good.add (.of hNN') (.lit _) ?_
    simp only [E.val_add, E.val_sub, E.val_mod, E.val_lit]
    rw [sub_mod_eq]
    exact hNp
  · split
    · exact .nil
    · rename_i h0
      rw [h4] at h0
      split at h0
      · rename_i h0'
        have hx : 0 < cdiv (K % (p * k_c)) p := by omega
        rw [h4, if_pos h0']
        have a2 := cdiv_mul_lt (K % (p * k_c)) _ hx
        have hle : cdiv (K % (p * k_c)) p * (cdiv (K % (p * k_c)) (cdiv (K % (p * k_c)) p) - 1) ≤
            K % (p * k_c) := by
          rw [Nat.mul_sub_one, Nat.mul_comm]
          omega
        rw [h4, if_pos h0'] at hpl
        refine .cons (E.Good.sub (E.fits_lit (by omega)) ⟨E.fits_lit (by omega), E.Good.sub
          (E.fits_lit (by omega)) (E.fits_lit (by decide)) ?_ ?_, ?_⟩ ?_ ?_) .nil
        · show 1 ≤ _; simp only [E.val_lit]; omega
        · simp only [E.val_sub, E.val_lit, E.val_one]; omega
        · simp only [E.val_sub, E.val_lit, E.val_one]; omega
        · simp only [E.val_sub, E.val_mul, E.val_lit, E.val_one]; omega
        · simp only [E.val_sub, E.val_mul, E.val_lit, E.val_one]; omega
      · exact absurd rfl h0

theorem packBBlk_fits {x : BlkDims} (hNb : x.Nb = cdiv N n_c)
    (hKb : x.Kb = cdiv K (p * k_c)) (hnp : x.n_pad = (N % n_c != 0)) (hkp : x.k_pad = (K % (p * k_c) != 0))
    (hnc : x.n_c = n_c) (hkc : x.k_c = k_c) (hnc1 : x.n_c1 = cdiv (N % n_c) n_r * n_r)
    (hkr : x.k_rem = K % (p * k_c)) (hkc1 : x.k_c1 = cdiv (K % (p * k_c)) p)
    (hpl : x.p_l = if cdiv (K % (p * k_c)) p ≠ 0 then cdiv (K % (p * k_c)) (cdiv (K % (p * k_c)) p) else 0)
    (hkl : x.k_c1_last_core = K % (p * k_c) - cdiv (K % (p * k_c)) p * (x.p_l - 1)) {n k off : Nat}
    (hn : n < cdiv N n_c) (hk : k < cdiv K (p * k_c)) :
    (packBBlk N p n_r x n k off).2 = off + kL K p k_c k * sL N n_c n_r n ∧
    (off + kL K p k_c k * sL N n_c n_r n < 2 ^ 31 → AllFits (packBBlk N p n_r x n k off).1) := by
  obtain ⟨ev, ef⟩ := kcbE_ok g z hk hpl
  obtain ⟨nv, nf⟩ := n1S_ok g z hn
  unfold kcbE at ev ef
  unfold n1E at nv nf
  obtain ⟨h3, h5, h6, h7⟩ := k_strips' g.p_pos g.k_c_pos hk hpl hkl
  obtain ⟨x1, x2, x3, x4, x5⟩ := k_block g hk
  obtain ⟨b1, b2, b3, b4⟩ := n_blk (N := N) g hn
  have hKi := z.Ki
  have hNp := z.Np
  have hNN := padTo_ge N n_c n_r g.n_r_pos
  have hS : 0 < p * k_c := Nat.mul_pos g.p_pos g.k_c_pos
  have hkM : k ≤ k * p * k_c := by
    rw [Nat.mul_assoc]; exact Nat.le_mul_of_pos_right _ hS
  have hnM : n ≤ n * n_c := Nat.le_mul_of_pos_right _ g.n_c_pos
  unfold packBBlk
  simp only [hNb, hKb, hnp, hkp, hnc, hkc, hnc1, hkr, hkc1]
  rw [sL_eq g.n_c_pos g.n_r_pos g.n_dvd hn]
  refine ⟨by rw [ev], fun hoff => ?_⟩
  refine AllFits.append ?_ (AllFits.flatMap fun core hc => ?_)
  · refine .cons nf <| .cons ef <| .cons ((E.Good.lit _).add .one ?_) <|
      .cons ((E.Good.lit _).add .one ?_) <|
      .cons ((E.Good.lit _).add (E.Good.mulL (.of ef) (by omega) b2) ?_) .nil
    · simp only [E.val_add, E.val_lit, E.val_one]; omega
    · simp only [E.val_add, E.val_lit, E.val_one]; omega
    · rw [E.val_add, E.val_mul, ev]; exact hoff
  · rw [h3, mem_range] at hc
    rw [h6 core hc, kX_eq, nv]
    exact packBCore_fits g z hn hk hc hoff

end

section
variable {M N K p m_r n_r m_c k_c n_c : Nat} (h : TileOK p m_r n_r m_c k_c n_c)

/-! ### M-first -/

section
variable (z : Int32Sh M N K p m_r n_r m_c k_c n_c)
include h z

theorem rowM_good (m : Nat) : ((m : E) * m_c).Good := E.Good.mulL (.lit _) z.mS h.m_c_pos

theorem packAIntsM_fits : AllFits (packAIntsM M K p m_r (dimsMKN M N K p m_r n_r m_c k_c n_c)) := by
  have g := h.geoM
  have hS : 0 < p * k_c := Nat.mul_pos h.p_pos h.k_c_pos
  unfold packAIntsM
  simp only [mkn_Mb h, mkn_Kb h, mkn_m_pad, mkn_k_pad, mkn_m_c, mkn_k_c, mkn_m_c1, mkn_k_rem, mkn_k_c1]
  rw [← mBlk (M := M) g]
  refine loop_chop2_fits hS h.m_c_pos ?_ ?_
  · intro k m off hk hm
    rw [mBlk g] at hm
    have e := (kcbE_ok g z hk (mkn_p_l (M := M) (N := N) (m_r := m_r) (n_r := n_r) (m_c := m_c)
      (n_c := n_c))).1
    unfold kcbE at e
    dsimp only
    rw [e, mBlk g, sL_eq h.m_c_pos h.m_r_pos h.m_dvd hm]; rfl
  · intro k m hk hm
    rw [mBlk g] at hm
    dsimp only
    obtain ⟨ev, ef⟩ := kcbE_ok g z hk (mkn_p_l (M := M) (N := N) (m_r := m_r) (n_r := n_r) (m_c := m_c)
      (n_c := n_c))
    unfold kcbE at ev ef
    obtain ⟨h3, h5, h6, h7⟩ := k_strips' h.p_pos h.k_c_pos hk
      (mkn_p_l (M := M) (N := N) (m_r := m_r) (n_r := n_r) (m_c := m_c) (n_c := n_c)) (mkn_k_last (n_c := n_c))
    obtain ⟨x1, x2, x3, x4, x5⟩ := k_block g hk
    obtain ⟨b1, b2, b3, b4⟩ := m_blk (M := M) g hm
    rw [mBlk g, sL_eq h.m_c_pos h.m_r_pos h.m_dvd hm]
    have hKi := z.Ki
    have hMp := z.Mp
    have hMM := padTo_ge M m_c m_r h.m_r_pos
    have hoff : k * (p * k_c) * padTo M m_c m_r + m * m_c * chopLen K (p * k_c) k +
        kL K p k_c k * sL M m_c m_r m < 2 ^ 31 := by
      refine Nat.lt_of_le_of_lt ?_ z.MK
      calc _ = k * p * k_c * padTo M m_c m_r + kL K p k_c k * (m * m_c + sL M m_c m_r m) := by
              unfold kL; ring
        _ ≤ k * p * k_c * padTo M m_c m_r + kL K p k_c k * padTo M m_c m_r :=
            Nat.add_le_add_left (Nat.mul_le_mul_left _ b1) _
        _ = (k * p * k_c + kL K p k_c k) * padTo M m_c m_r := by ring
        _ ≤ K * padTo M m_c m_r := Nat.mul_le_mul_right _ x3
        _ = _ := Nat.mul_comm _ _
    have hkM : k ≤ k * p * k_c := by
      rw [Nat.mul_assoc]; exact Nat.le_mul_of_pos_right _ hS
    have hmM : m ≤ m * m_c := Nat.le_mul_of_pos_right _ h.m_c_pos
    refine AllFits.append ?_ (AllFits.flatMap fun core hc => ?_)
    · refine .cons ef <| .cons ((E.Good.lit _).add .one ?_) <| .cons ((E.Good.lit _).add .one ?_) <|
        .cons ((E.Good.lit _).add (E.Good.mulL (.of ef) (by omega) b2) ?_) .nil
      · simp only [E.val_add, E.val_lit, E.val_one]; omega
      · simp only [E.val_add, E.val_lit, E.val_one]; omega
      · rw [E.val_add, E.val_mul, ev]; exact hoff
    · rw [h3, mem_range] at hc
      rw [h6 core hc, kX_eq]
      exact packACore_fits g z (rowM_good h z m) rfl hm hk hc hoff

theorem packBIntsM_fits : AllFits (packBIntsM N p n_r (dimsMKN M N K p m_r n_r m_c k_c n_c)) := by
  have g := h.geoM
  have hS : 0 < p * k_c := Nat.mul_pos h.p_pos h.k_c_pos
  have key := fun n k off hn hk => packBBlk_fits g z (x := dimsMKN M N K p m_r n_r m_c k_c n_c)
    (mkn_Nb h) (mkn_Kb h) rfl rfl rfl rfl rfl rfl rfl rfl rfl (n := n) (k := k) (off := off) hn hk
  unfold packBIntsM
  rw [mkn_Nb h, mkn_Kb h, ← nBlk (N := N) g]
  refine loop_chop2_fits h.n_c_pos hS ?_ ?_
  · intro n k off hn hk
    rw [nBlk g] at hn
    rw [(key n k off hn hk).1, Nat.mul_comm]; rfl
  · intro n k hn hk
    rw [nBlk g] at hn
    refine (key n k _ hn hk).2 ?_
    obtain ⟨x1, x2, x3, x4, x5⟩ := k_block g hk
    obtain ⟨b1, b2, b3, b4⟩ := n_blk (N := N) g hn
    refine Nat.lt_of_le_of_lt ?_ z.KN
    calc _ = n * n_c * K + (k * p * k_c + kL K p k_c k) * sL N n_c n_r n := by unfold sL; ring
      _ ≤ n * n_c * K + K * sL N n_c n_r n := Nat.add_le_add_left (Nat.mul_le_mul_right _ x3) _
      _ = K * (n * n_c + sL N n_c n_r n) := by ring
      _ ≤ _ := Nat.mul_le_mul_left _ b1

/-- `m1`, M-first -/
theorem m1M_ok {m : Nat} (hm : m < cdiv M m_c) :
    (n1E M m_c m).val = m * m_c ∧ (n1E M m_c m).Fits := by
  have hv : (n1E M m_c m).val = m * m_c := by
    rw [← first_of_blk (T := M) h.m_c_pos]
    unfold n1E
    split <;> rfl
  refine ⟨hv, ?_⟩
  have hMi : M < 2 ^ 31 := Nat.lt_of_le_of_lt (padTo_ge M m_c m_r h.m_r_pos) z.Mp
  have hb := m_blk (M := M) h.geoM hm
  have hlt : (n1E M m_c m).val < 2 ^ 31 := by omega
  revert hlt
  unfold n1E
  split
  · exact E.Good.sub hMi (E.fits_mod hMi z.mS h.m_c_pos) (Nat.mod_le _ _)
  · exact E.Good.mulL (.lit _) z.mS h.m_c_pos

theorem cIntsM_fits (pack : Bool) :
    AllFits (cIntsM pack M N m_r n_r (dimsMKN M N K p m_r n_r m_c k_c n_c)) := by
  have g := h.geoM
  have hMp := z.Mp
  have hNp := z.Np
  have hMN := z.MN
  have hMM := padTo_ge M m_c m_r h.m_r_pos
  have hNN := padTo_ge N n_c n_r h.n_r_pos
  unfold cIntsM
  simp only [mkn_Mb h, mkn_Nb h, mkn_m_pad, mkn_n_pad, mkn_m_c, mkn_n_c, mkn_m_c1, mkn_n_c1, mkn_M_padded]
  refine AllFits.flatMap fun n hn => ?_
  rw [mem_range] at hn
  obtain ⟨b1, b2, b3, b4⟩ := n_blk (N := N) g hn
  obtain ⟨nv, nf⟩ := n1S_ok g z hn
  unfold n1E at nv nf
  have hnM : n ≤ n * n_c := Nat.le_mul_of_pos_right _ h.n_c_pos
  rw [sL_eq h.n_c_pos h.n_r_pos h.n_dvd hn]
  have hCp : ((padTo M m_c m_r : Nat) * (n : E) * n_c : E).Fits := by
    have e : padTo M m_c m_r * n * n_c ≤ padTo M m_c m_r * padTo N n_c n_r := by
      rw [Nat.mul_assoc]; exact Nat.mul_le_mul_left _ (by omega)
    rcases Nat.eq_zero_or_pos n with h0 | h0
    · subst h0
      exact ⟨⟨E.fits_lit hMp, E.fits_lit (by decide), by simp⟩, E.fits_lit z.nc, by simp⟩
    · refine E.Good.mulL (E.Good.mulL (.lit _) (by omega) h0) z.nc h.n_c_pos ?_
      simp only [E.val_mul, E.val_lit]; omega
  refine AllFits.append (.cons nf <| .cons ((E.Good.lit _).add .one ?_) <| .cons hCp .nil)
    (AllFits.flatMap fun m hm => ?_)
  · simp only [E.val_add, E.val_lit, E.val_one]; omega
  rw [mem_range] at hm
  obtain ⟨a1, a2, a3, a4⟩ := m_blk (M := M) g hm
  obtain ⟨mv, mf⟩ := m1M_ok h z hm
  unfold n1E at mv mf
  have hmM : m ≤ m * m_c := Nat.le_mul_of_pos_right _ h.m_c_pos
  rw [sL_eq h.m_c_pos h.m_r_pos h.m_dvd hm, mv, nv]
  obtain ⟨c1, c2, c3⟩ := cBlk_fits g z (rowM_good h z m) rfl hm hn
  have hcb := cpM_bound (M := M) (N := N) g hm hn
  have hpos : 0 < sL M m_c m_r m * sL N n_c n_r n := Nat.mul_pos a2 b2
  refine AllFits.append (.cons mf <| .cons ((E.Good.lit _).add .one ?_) <| .cons c1 <| .cons ?_ .nil) ?_
  · simp only [E.val_add, E.val_lit, E.val_one]; omega
  · refine E.Good.add (.of hCp) (E.Good.mulL (E.Good.mulL (.lit _) z.mS h.m_c_pos) (by omega) b2) ?_
    simp only [E.val_add, E.val_mul, E.val_lit]
    rw [Nat.mul_comm (padTo M m_c m_r) n]
    omega
  · split
    · exact c2
    · exact c3

theorem schedIntsM_fits : AllFits (schedIntsM K p m_r n_r (dimsMKN M N K p m_r n_r m_c k_c n_c)) := by
  have g := h.geoM
  have hS : 0 < p * k_c := Nat.mul_pos h.p_pos h.k_c_pos
  have hKi := z.Ki
  have hMp := z.Mp
  have hNp := z.Np
  have hMK := z.MK
  have hKN := z.KN
  have hMN := z.MN
  have hpk := z.pk
  have hmS := z.mS
  have hnc := z.nc
  have hMM := padTo_ge M m_c m_r h.m_r_pos
  have hNN := padTo_ge N n_c n_r h.n_r_pos
  have hkci : k_c < 2 ^ 31 := Nat.lt_of_le_of_lt (Nat.le_mul_of_pos_left _ h.p_pos) hpk
  have hpi : p < 2 ^ 31 := Nat.lt_of_le_of_lt (Nat.le_mul_of_pos_right _ h.k_c_pos) hpk
  have hmri : m_r < 2 ^ 31 := Nat.lt_of_le_of_lt (Nat.le_of_dvd h.m_c_pos h.m_dvd) hmS
  have hnri : n_r < 2 ^ 31 := Nat.lt_of_le_of_lt (Nat.le_of_dvd h.n_c_pos h.n_dvd) hnc
  unfold schedIntsM
  simp only [mkn_Mb h, mkn_Nb h, mkn_Kb h, mkn_m_pad, mkn_n_pad, mkn_k_pad, mkn_m_c, mkn_n_c, mkn_k_c,
    mkn_m_c1, mkn_n_c1, mkn_k_c1, mkn_k_rem, mkn_M_padded]
  refine AllFits.flatMap fun n hn => ?_
  rw [mem_range] at hn
  obtain ⟨b1, b2, b3, b4⟩ := n_blk (N := N) g hn
  have hnM : n ≤ n * n_c := Nat.le_mul_of_pos_right _ h.n_c_pos
  rw [sL_eq h.n_c_pos h.n_r_pos h.n_dvd hn]
  refine AllFits.append (.cons ((E.Good.lit _).add .one ?_) .nil) (AllFits.flatMap fun k hk => ?_)
  · simp only [E.val_add, E.val_lit, E.val_one]; omega
  rw [mem_serp] at hk
  obtain ⟨ev, ef⟩ := kcbE_ok g z hk (mkn_p_l (M := M) (N := N) (m_r := m_r) (n_r := n_r) (m_c := m_c)
    (n_c := n_c))
  unfold kcbE at ev ef
  obtain ⟨h3, h5, h6, h7⟩ := k_strips' h.p_pos h.k_c_pos hk
    (mkn_p_l (M := M) (N := N) (m_r := m_r) (n_r := n_r) (m_c := m_c) (n_c := n_c)) (mkn_k_last (n_c := n_c))
  obtain ⟨x1, x2, x3, x4, x5⟩ := k_block g hk
  have hkM : k ≤ k * p * k_c := by
    rw [Nat.mul_assoc]; exact Nat.le_mul_of_pos_right _ hS
  rw [ev]
  refine AllFits.append (.cons ef <| .cons ((E.Good.lit _).add .one ?_) .nil)
    (AllFits.flatMap fun m_ind hmi => ?_)
  · simp only [E.val_add, E.val_lit, E.val_one]; omega
  rw [mem_range] at hmi
  have hiM := Nat.lt_of_lt_of_le hmi (cdiv_le_self' (a := M) h.m_c_pos)
  generalize (if n % 2 ≠ 0 then (if k % 2 ≠ 0 then false else true)
    else (if k % 2 ≠ 0 then true else false)) = md
  generalize hme : (if md = true then cdiv M m_c - 1 - m_ind else m_ind) = m
  have hm : m < cdiv M m_c := by rw [← hme]; split <;> omega
  obtain ⟨a1, a2, a3, a4⟩ := m_blk (M := M) g hm
  rw [sL_eq h.m_c_pos h.m_r_pos h.m_dvd hm]
  refine AllFits.append (.cons ((E.Good.lit _).add .one ?_) .nil) (AllFits.flatMap fun core hc => ?_)
  · simp only [E.val_add, E.val_lit, E.val_one]; omega
  rw [h3, mem_range] at hc
  rw [h6 core hc, kX_eq]
  obtain ⟨y1, y2⟩ := k_core g hk hc
  have hMp0 : 0 < padTo M m_c m_r := by omega
  have hK0 : 0 < K := by omega
  have hA : (aIndME k (padTo M m_c m_r : Nat) p k_c m m_c (kL K p k_c k : Nat) core (sL M m_c m_r m : Nat)
      (kX K p k_c k : Nat)).Good :=
    E.Good.add (E.Good.add (E.Good.mulL (E.Good.mulL (E.Good.mulL (.lit _) hMp hMp0) hpi h.p_pos) hkci
      h.k_c_pos) (E.Good.mulL (E.Good.mulL (.lit _) hmS h.m_c_pos) (by omega) x4))
      (E.Good.mulL (E.Good.mulL (.lit _) (by omega) a2) (by omega) x1)
  have hB : (bIndME n K n_c k p k_c (sL N n_c n_r n : Nat) core (kX K p k_c k : Nat)).Good :=
    E.Good.add (E.Good.add (E.Good.mulL (E.Good.mulL (.lit _) hKi hK0) hnc h.n_c_pos)
      (E.Good.mulL (E.Good.mulL (E.Good.mulL (.lit _) hpi h.p_pos) hkci h.k_c_pos) (by omega) b2))
      (E.Good.mulL (E.Good.mulL (.lit _) (by omega) x1) (by omega) b2)
  have hC : (cIndME n (padTo M m_c m_r : Nat) n_c m m_c (sL N n_c n_r n : Nat)).Good :=
    E.Good.add (E.Good.mulL (E.Good.mulL (.lit _) hMp hMp0) hnc h.n_c_pos)
      (E.Good.mulL (E.Good.mulL (.lit _) hmS h.m_c_pos) (by omega) b2)
  have hAv : (aIndME k (padTo M m_c m_r : Nat) p k_c m m_c (kL K p k_c k : Nat) core (sL M m_c m_r m : Nat)
      (kX K p k_c k : Nat)).val + sL M m_c m_r m * kT K p k_c k core ≤ padTo M m_c m_r * K := by
    simp only [aIndME, E.val_add, E.val_mul, E.val_lit]
    calc _ = k * p * k_c * padTo M m_c m_r + (m * m_c * kL K p k_c k +
          sL M m_c m_r m * (core * kX K p k_c k + kT K p k_c k core)) := by ring
      _ ≤ k * p * k_c * padTo M m_c m_r + (m * m_c * kL K p k_c k +
          sL M m_c m_r m * kL K p k_c k) :=
          Nat.add_le_add_left (Nat.add_le_add_left (Nat.mul_le_mul_left _ y1) _) _
      _ = k * p * k_c * padTo M m_c m_r + (m * m_c + sL M m_c m_r m) * kL K p k_c k := by ring
      _ ≤ k * p * k_c * padTo M m_c m_r + padTo M m_c m_r * kL K p k_c k :=
          Nat.add_le_add_left (Nat.mul_le_mul_right _ a1) _
      _ = padTo M m_c m_r * (k * p * k_c + kL K p k_c k) := by ring
      _ ≤ _ := Nat.mul_le_mul_left _ x3
  have hBv : (bIndME n K n_c k p k_c (sL N n_c n_r n : Nat) core (kX K p k_c k : Nat)).val +
      kT K p k_c k core * sL N n_c n_r n ≤ K * padTo N n_c n_r := by
    simp only [bIndME, E.val_add, E.val_mul, E.val_lit]
    calc _ = n * n_c * K + (k * p * k_c + (core * kX K p k_c k + kT K p k_c k core)) *
          sL N n_c n_r n := by ring
      _ ≤ n * n_c * K + K * sL N n_c n_r n :=
          Nat.add_le_add_left (Nat.mul_le_mul_right _ (by omega)) _
      _ = K * (n * n_c + sL N n_c n_r n) := by ring
      _ ≤ _ := Nat.mul_le_mul_left _ b1
  have hCv : (cIndME n (padTo M m_c m_r : Nat) n_c m m_c (sL N n_c n_r n : Nat)).val +
      sL M m_c m_r m * sL N n_c n_r n ≤ padTo M m_c m_r * padTo N n_c n_r := by
    simp only [cIndME, E.val_add, E.val_mul, E.val_lit]
    exact cpM_bound g hm hn
  refine AllFits.append (.cons ((E.Good.lit _).add .one ?_) <| .cons (hA (by omega)) <|
    .cons (hB (by omega)) <| .cons (hC (by omega)) .nil) ?_
  · simp only [E.val_add, E.val_lit, E.val_one]; omega
  · exact regIntsC_fits h.m_r_pos h.n_r_pos hmri hnri (mL_dvd g) (nL_dvd g) y2 (by omega) (by omega)
      (by omega) hA hB hC (by omega) (by omega) (by omega)

theorem sizeIntsM_fits : AllFits (sizeIntsM M N K m_r (dimsMKN M N K p m_r n_r m_c k_c n_c)) ∧
    AllFits (dimsIntsM M N K p m_r n_r (dimsMKN M N K p m_r n_r m_c k_c n_c)) := by
  have g := h.geoM
  have hKi := z.Ki
  have hMp := z.Mp
  have hNp := z.Np
  have hmS := z.mS
  have hnc := z.nc
  have hMM := padTo_ge M m_c m_r h.m_r_pos
  have hNN := padTo_ge N n_c n_r h.n_r_pos
  have hMi : M < 2 ^ 31 := by omega
  have hNi : N < 2 ^ 31 := by omega
  have hmri : m_r < 2 ^ 31 := Nat.lt_of_le_of_lt (Nat.le_of_dvd h.m_c_pos h.m_dvd) hmS
  have hrem : cdiv (M % m_c) m_r * m_r ≤ padTo M m_c m_r := by unfold padTo; omega
  have hq : (M / m_c) * m_c ≤ M := Nat.div_mul_le_self _ _
  have hr : ((cdiv (M % m_c) m_r : Nat) * (m_r : E) : E).Fits := by
    refine E.Good.mulL (.lit _) hmri h.m_r_pos ?_
    simp only [E.val_mul, E.val_lit]; omega
  have hdiv : ((M : E) / m_c * m_c).Fits :=
    E.Good.mulL (.of (E.fits_div hMi hmS h.m_c_pos)) hmS h.m_c_pos
      (by simp only [E.val_mul, E.val_div, E.val_lit]; omega)
  have hMPf : (mPaddedME M m_c ((cdiv (M % m_c) m_r : Nat) * (m_r : E))).Fits :=
    E.Good.add (.of hdiv) (.of hr) (by simp only [E.val_add, E.val_mul, E.val_div, E.val_lit]; exact hMp)
  have hMPf' : (mPaddedME M m_c (cdiv (M % m_c) m_r * m_r : Nat)).Fits :=
    E.Good.add (.of hdiv) (.lit _) (by simp only [E.val_add, E.val_mul, E.val_div, E.val_lit]; exact hMp)
  have hMPv : (mPaddedME M m_c ((cdiv (M % m_c) m_r : Nat) * (m_r : E))).val = padTo M m_c m_r := rfl
  have hNPv : (nPaddedE N n_c (cdiv (N % n_c) n_r * n_r : Nat)).val = padTo N n_c n_r := by
    simp only [nPaddedE, E.val_add, E.val_sub, E.val_mod, E.val_lit, padTo, sub_mod_eq]
  have hNPf : (nPaddedE N n_c (cdiv (N % n_c) n_r * n_r : Nat)).Fits := by
    refine E.Good.add (.of (E.Good.sub hNi (E.fits_mod hNi hnc h.n_c_pos) (Nat.mod_le _ _)
      (by simp only [E.val_sub, E.val_lit]; omega))) (.lit _) ?_
    have := hNPv
    unfold nPaddedE at this
    rw [this]; exact hNp
  constructor
  · refine .cons ⟨hMPf, hKi, ?_⟩ <| .cons ⟨hKi, hNPf, ?_⟩ <| .cons ⟨hMPf, hNPf, ?_⟩ .nil
    · exact z.MK
    · show K * (nPaddedE N n_c (cdiv (N % n_c) n_r * n_r : Nat)).val < 2 ^ 31
      rw [hNPv]; exact z.KN
    · show padTo M m_c m_r * (nPaddedE N n_c (cdiv (N % n_c) n_r * n_r : Nat)).val < 2 ^ 31
      rw [hNPv]; exact z.MN
  · have c1 : cdiv M m_c ≤ M := cdiv_le_self' h.m_c_pos
    refine AllFits.append (.cons (E.fits_mod hMi hmS h.m_c_pos) <| .cons hr <|
      .cons (E.Good.add (.of (E.fits_div hMi hmS h.m_c_pos)) (.lit _) ?_) <| .cons hMPf' .nil)
      (dimsIntsK_fits g z rfl rfl rfl rfl rfl rfl rfl rfl rfl)
    exact Nat.lt_of_le_of_lt (Nat.le_of_eq (cdiv_eq_div_add M m_c h.m_c_pos)) (by omega)

theorem mfirstInts_fits (accum : Bool) : AllFits (mfirstInts accum M N K p m_r n_r m_c k_c n_c) := by
  refine .append (.append (.append (.append (.append (.append (sizeIntsM_fits h z).2 (sizeIntsM_fits h z).1)
    (packAIntsM_fits h z)) (packBIntsM_fits h z)) ?_) (schedIntsM_fits h z)) (cIntsM_fits h z false)
  split
  · exact cIntsM_fits h z true
  · exact .nil

end

/-! ### N-first -/

/-- `m_c_t` -/
def mctNE (M p m_r m_c m : Nat) : E :=
  if (m == cdiv M (p * m_c) - 1 && M % (p * m_c) != 0) = true then ((cdiv (M % (p * m_c)) m_r * m_r : Nat) : E)
  else (p : E) * m_c

/-- `m1` -/
def m1NE (M p m_c m : Nat) : E :=
  if (m == cdiv M (p * m_c) - 1 && M % (p * m_c) != 0) = true then (M : E) - (M : E) % ((p : E) * m_c)
  else rowE m p m_c

section
variable (z : Int32Sh M N K p m_r n_r (p * m_c) k_c n_c)
include h z

theorem p_m_int : p < 2 ^ 31 ∧ m_c < 2 ^ 31 :=
  ⟨Nat.lt_of_le_of_lt (Nat.le_mul_of_pos_right _ h.m_c_pos) z.mS,
    Nat.lt_of_le_of_lt (Nat.le_mul_of_pos_left _ h.p_pos) z.mS⟩

theorem rowN_good (m : Nat) : (rowE m p m_c).Good :=
  E.Good.mulL (E.Good.mulL (.lit _) (p_m_int h z).1 h.p_pos) (p_m_int h z).2 h.m_c_pos

omit h z in
theorem rowN_val (m : Nat) : (rowE m p m_c).val = m * (p * m_c) := Nat.mul_assoc _ _ _

theorem mctNE_ok {m : Nat} (hm : m < cdiv M (p * m_c)) :
    (mctNE M p m_r m_c m).val = sL M (p * m_c) m_r m ∧ (mctNE M p m_r m_c m).Fits := by
  have g := h.geoN
  have hv : (mctNE M p m_r m_c m).val = sL M (p * m_c) m_r m := by
    rw [← sL_eq g.mS_pos g.m_r_pos g.m_dvd hm]
    unfold mctNE
    split <;> rfl
  refine ⟨hv, ?_⟩
  have hb := m_blk (M := M) g hm
  have hmS := z.mS
  have hlt : (mctNE M p m_r m_c m).val < 2 ^ 31 := by omega
  revert hlt
  unfold mctNE
  split
  · exact E.Good.lit _
  · exact E.Good.mulL (.lit _) (p_m_int h z).2 h.m_c_pos

theorem m1NE_ok {m : Nat} (hm : m < cdiv M (p * m_c)) :
    (m1NE M p m_c m).val = m * (p * m_c) ∧ (m1NE M p m_c m).Fits := by
  have g := h.geoN
  have hv : (m1NE M p m_c m).val = m * (p * m_c) := by
    rw [← first_of_blk (T := M) g.mS_pos]
    unfold m1NE
    split
    · rfl
    · exact rowN_val m
  refine ⟨hv, ?_⟩
  have hMi : M < 2 ^ 31 := Nat.lt_of_le_of_lt (padTo_ge M (p * m_c) m_r h.m_r_pos) z.Mp
  have hb := m_blk (M := M) g hm
  have hlt : (m1NE M p m_c m).val < 2 ^ 31 := by omega
  revert hlt
  unfold m1NE
  split
  · exact E.Good.sub hMi (E.fits_mod hMi (E.Good.mulL (.lit _) (p_m_int h z).2 h.m_c_pos z.mS) g.mS_pos)
      (Nat.mod_le _ _)
  · exact rowN_good h z m

theorem packAIntsN_fits : AllFits (packAIntsN M K p m_r (dimsNKM M N K p m_r n_r m_c k_c n_c)) := by
  have g := h.geoN
  have hS : 0 < p * k_c := Nat.mul_pos h.p_pos h.k_c_pos
  unfold packAIntsN
  simp only [nkm_Mb h.toN, nkm_Kb h.toN, nkm_m_pad, nkm_k_pad, nkm_m_c, nkm_k_c, nkm_m_c1, nkm_k_rem, nkm_k_c1]
  rw [← mBlk (M := M) g]
  refine loop_chop2_fits g.mS_pos hS ?_ ?_
  · intro m k off hm hk
    rw [mBlk g] at hm
    have e := (kcbE_ok g z hk (nkm_p_l (M := M) (N := N) (m_r := m_r) (n_r := n_r) (m_c := m_c)
      (n_c := n_c))).1
    unfold kcbE at e
    dsimp only
    rw [e, mBlk g, sL_eq g.mS_pos h.m_r_pos g.m_dvd hm, Nat.mul_comm (kL K p k_c k)]; rfl
  · intro m k hm hk
    rw [mBlk g] at hm
    dsimp only
    obtain ⟨ev, ef⟩ := kcbE_ok g z hk (nkm_p_l (M := M) (N := N) (m_r := m_r) (n_r := n_r) (m_c := m_c)
      (n_c := n_c))
    unfold kcbE at ev ef
    obtain ⟨h3, h5, h6, h7⟩ := k_strips' h.p_pos h.k_c_pos hk
      (nkm_p_l (M := M) (N := N) (m_r := m_r) (n_r := n_r) (m_c := m_c) (n_c := n_c)) (nkm_k_last (n_c := n_c))
    obtain ⟨x1, x2, x3, x4, x5⟩ := k_block g hk
    obtain ⟨b1, b2, b3, b4⟩ := m_blk (M := M) g hm
    rw [mBlk g, sL_eq g.mS_pos h.m_r_pos g.m_dvd hm]
    have hKi := z.Ki
    have hMp := z.Mp
    have hMM := padTo_ge M (p * m_c) m_r h.m_r_pos
    have hoff : m * (p * m_c) * K + k * (p * k_c) * chopLen (padTo M (p * m_c) m_r) (p * m_c) m +
        kL K p k_c k * sL M (p * m_c) m_r m < 2 ^ 31 := by
      refine Nat.lt_of_le_of_lt ?_ z.MK
      calc _ = m * (p * m_c) * K + (k * p * k_c + kL K p k_c k) * sL M (p * m_c) m_r m := by
              unfold sL; ring
        _ ≤ m * (p * m_c) * K + K * sL M (p * m_c) m_r m :=
            Nat.add_le_add_left (Nat.mul_le_mul_right _ x3) _
        _ = (m * (p * m_c) + sL M (p * m_c) m_r m) * K := by ring
        _ ≤ _ := Nat.mul_le_mul_right _ b1
    have hkM : k ≤ k * p * k_c := by
      rw [Nat.mul_assoc]; exact Nat.le_mul_of_pos_right _ hS
    have hmM : m ≤ m * (p * m_c) := Nat.le_mul_of_pos_right _ g.mS_pos
    refine AllFits.append ?_ (AllFits.flatMap fun core hc => ?_)
    · refine .cons (E.Good.mulL (.lit _) (p_m_int h z).2 h.m_c_pos z.mS) <| .cons ef <|
        .cons ((E.Good.lit _).add .one ?_) <| .cons ((E.Good.lit _).add .one ?_) <|
        .cons ((E.Good.lit _).add (E.Good.mulL (.of ef) (by omega) b2) ?_) .nil
      · simp only [E.val_add, E.val_lit, E.val_one]; omega
      · simp only [E.val_add, E.val_lit, E.val_one]; omega
      · rw [E.val_add, E.val_mul, ev]; exact hoff
    · rw [h3, mem_range] at hc
      rw [h6 core hc, kX_eq]
      exact packACore_fits g z (rowN_good h z m) (rowN_val m) hm hk hc hoff

theorem packBIntsN_fits : AllFits (packBIntsN N p n_r (dimsNKM M N K p m_r n_r m_c k_c n_c)) := by
  have g := h.geoN
  have hS : 0 < p * k_c := Nat.mul_pos h.p_pos h.k_c_pos
  have key := fun n k off hn hk => packBBlk_fits g z (x := dimsNKM M N K p m_r n_r m_c k_c n_c)
    (nkm_Nb h.toN) (nkm_Kb h.toN) rfl rfl rfl rfl rfl rfl rfl rfl rfl (n := n) (k := k) (off := off) hn hk
  unfold packBIntsN
  rw [nkm_Nb h.toN, nkm_Kb h.toN, ← nBlk (N := N) g]
  refine loop_chop2_fits hS h.n_c_pos ?_ ?_
  · intro k n off hk hn
    rw [nBlk g] at hn
    rw [(key n k off hn hk).1]; rfl
  · intro k n hk hn
    rw [nBlk g] at hn
    refine (key n k _ hn hk).2 ?_
    obtain ⟨x1, x2, x3, x4, x5⟩ := k_block g hk
    obtain ⟨b1, b2, b3, b4⟩ := n_blk (N := N) g hn
    refine Nat.lt_of_le_of_lt ?_ z.KN
    calc _ = k * p * k_c * padTo N n_c n_r + kL K p k_c k * (n * n_c + sL N n_c n_r n) := by
            unfold kL; ring
      _ ≤ k * p * k_c * padTo N n_c n_r + kL K p k_c k * padTo N n_c n_r :=
          Nat.add_le_add_left (Nat.mul_le_mul_left _ b1) _
      _ = (k * p * k_c + kL K p k_c k) * padTo N n_c n_r := by ring
      _ ≤ _ := Nat.mul_le_mul_right _ x3

theorem cIntsN_fits (pack : Bool) (hcp : pack = true → ∀ n, n < cdiv N n_c →
      padTo N n_c n_r * (cdiv M (p * m_c) - 1) * p * m_c + n * p * m_c * sL N n_c n_r n < 2 ^ 31) :
    AllFits (cIntsN pack M N p m_r n_r (dimsNKM M N K p m_r n_r m_c k_c n_c)) := by
  have g := h.geoN
  have hMp := z.Mp
  have hNp := z.Np
  have hMN := z.MN
  have hMM := padTo_ge M (p * m_c) m_r h.m_r_pos
  have hNN := padTo_ge N n_c n_r h.n_r_pos
  obtain ⟨hpi, hmi⟩ := p_m_int h z
  unfold cIntsN
  simp only [nkm_Mb h.toN, nkm_Nb h.toN, nkm_m_pad, nkm_n_pad, nkm_m_c, nkm_n_c, nkm_m_c1, nkm_n_c1, nkm_N_padded]
  refine AllFits.flatMap fun m hm => ?_
  rw [mem_range] at hm
  obtain ⟨a1, a2, a3, a4⟩ := m_blk (M := M) g hm
  obtain ⟨tv, tf⟩ := mctNE_ok h z hm
  unfold mctNE at tv tf
  obtain ⟨mv, mf⟩ := m1NE_ok h z hm
  unfold m1NE at mv mf
  have hmM : m ≤ m * (p * m_c) := Nat.le_mul_of_pos_right _ g.mS_pos
  rw [tv, mv]
  have hle : padTo N n_c n_r * m * p * m_c ≤ padTo N n_c n_r * padTo M (p * m_c) m_r := by
    rw [Nat.mul_assoc, Nat.mul_assoc]; exact Nat.mul_le_mul_left _ (by omega)
  have hcm := Nat.mul_comm (padTo M (p * m_c) m_r) (padTo N n_c n_r)
  have hCp : ((padTo N n_c n_r : Nat) * (m : E) * p * m_c : E).Fits := by
    rcases Nat.eq_zero_or_pos m with h0 | h0
    · subst h0
      exact ⟨⟨⟨E.fits_lit hNp, E.fits_lit (by decide), by simp⟩, E.fits_lit hpi, by simp⟩,
        E.fits_lit hmi, by simp⟩
    · refine E.Good.mulL (E.Good.mulL (E.Good.mulL (.lit _) (by omega) h0) hpi h.p_pos) hmi h.m_c_pos ?_
      simp only [E.val_mul, E.val_lit]; omega
  refine AllFits.append (.cons tf <| .cons mf <| .cons ((E.Good.lit _).add .one ?_) <| .cons hCp .nil)
    (AllFits.flatMap fun n hn => ?_)
  · simp only [E.val_add, E.val_lit, E.val_one]; omega
  rw [mem_range] at hn
  obtain ⟨b1, b2, b3, b4⟩ := n_blk (N := N) g hn
  obtain ⟨nv, nf⟩ := n1S_ok g z hn
  unfold n1E at nv nf
  have hnM : n ≤ n * n_c := Nat.le_mul_of_pos_right _ h.n_c_pos
  rw [sL_eq h.n_c_pos h.n_r_pos h.n_dvd hn, nv]
  obtain ⟨c1, c2, c3⟩ := cBlk_fits g z (rowN_good h z m) (rowN_val m) hm hn
  have hcb := cpN_bound (M := M) (N := N) g hm hn
  have hpos : 0 < sL M (p * m_c) m_r m * sL N n_c n_r n := Nat.mul_pos a2 b2
  refine AllFits.append (.cons nf <| .cons ((E.Good.lit _).add .one ?_) <| .cons c1 .nil) ?_
  · simp only [E.val_add, E.val_lit, E.val_one]; omega
  cases pack with
  | true =>
    refine AllFits.append (.cons ?_ .nil) c2
    refine E.Good.add (.of hCp) (E.Good.mulL (rowN_good h z n) (by omega) b2) ?_
    refine Nat.lt_of_le_of_lt ?_ (hcp rfl n hn)
    simp only [E.val_add, E.val_mul, E.val_lit]
    exact Nat.add_le_add_right (Nat.mul_le_mul_right _ (Nat.mul_le_mul_right _
      (Nat.mul_le_mul_left _ (by omega)))) _
  | false =>
    refine AllFits.append (.cons ?_ .nil) c3
    refine E.Good.add (.of hCp) (E.Good.mulL (E.Good.mulL (.lit _) (by omega) a2) z.nc h.n_c_pos) ?_
    simp only [E.val_add, E.val_mul, E.val_lit]
    have e1 : padTo N n_c n_r * m * p * m_c = m * (p * m_c) * padTo N n_c n_r := by ring
    have e2 : n * sL M (p * m_c) m_r m * n_c = sL M (p * m_c) m_r m * n * n_c := by ring
    omega

theorem schedIntsN_fits : AllFits (schedIntsN K p m_r n_r (dimsNKM M N K p m_r n_r m_c k_c n_c)) := by
  have g := h.geoN
  have hS : 0 < p * k_c := Nat.mul_pos h.p_pos h.k_c_pos
  have hKi := z.Ki
  have hMp := z.Mp
  have hNp := z.Np
  have hMK := z.MK
  have hKN := z.KN
  have hMN := z.MN
  have hpk := z.pk
  have hmS := z.mS
  have hnc := z.nc
  have hMM := padTo_ge M (p * m_c) m_r h.m_r_pos
  have hNN := padTo_ge N n_c n_r h.n_r_pos
  have hkci : k_c < 2 ^ 31 := Nat.lt_of_le_of_lt (Nat.le_mul_of_pos_left _ h.p_pos) hpk
  obtain ⟨hpi, hmci⟩ := p_m_int h z
  have hmri : m_r < 2 ^ 31 := Nat.lt_of_le_of_lt (Nat.le_of_dvd h.m_c_pos h.m_dvd) hmci
  have hnri : n_r < 2 ^ 31 := Nat.lt_of_le_of_lt (Nat.le_of_dvd h.n_c_pos h.n_dvd) hnc
  unfold schedIntsN
  simp only [nkm_Mb h.toN, nkm_Nb h.toN, nkm_Kb h.toN, nkm_m_pad, nkm_n_pad, nkm_k_pad, nkm_m_c, nkm_n_c, nkm_k_c,
    nkm_m_c1, nkm_n_c1, nkm_k_c1, nkm_k_rem, nkm_N_padded]
  refine AllFits.flatMap fun m hm => ?_
  rw [mem_range] at hm
  obtain ⟨a1, a2, a3, a4⟩ := m_blk (M := M) g hm
  have hmM : m ≤ m * (p * m_c) := Nat.le_mul_of_pos_right _ g.mS_pos
  rw [sL_eq g.mS_pos h.m_r_pos g.m_dvd hm]
  refine AllFits.append (.cons ((E.Good.lit _).add .one ?_) <|
    .cons (E.Good.mulL (.lit _) hmci h.m_c_pos hmS) .nil) (AllFits.flatMap fun k hk => ?_)
  · simp only [E.val_add, E.val_lit, E.val_one]; omega
  rw [mem_serp] at hk
  obtain ⟨ev, ef⟩ := kcbE_ok g z hk (nkm_p_l (M := M) (N := N) (m_r := m_r) (n_r := n_r) (m_c := m_c)
    (n_c := n_c))
  unfold kcbE at ev ef
  obtain ⟨h3, h5, h6, h7⟩ := k_strips' h.p_pos h.k_c_pos hk
    (nkm_p_l (M := M) (N := N) (m_r := m_r) (n_r := n_r) (m_c := m_c) (n_c := n_c)) (nkm_k_last (n_c := n_c))
  obtain ⟨x1, x2, x3, x4, x5⟩ := k_block g hk
  have hkM : k ≤ k * p * k_c := by
    rw [Nat.mul_assoc]; exact Nat.le_mul_of_pos_right _ hS
  rw [ev]
  refine AllFits.append (.cons ef <| .cons ((E.Good.lit _).add .one ?_) .nil)
    (AllFits.flatMap fun n_ind hni => ?_)
  · simp only [E.val_add, E.val_lit, E.val_one]; omega
  rw [mem_range] at hni
  have hiN := Nat.lt_of_lt_of_le hni (cdiv_le_self' (a := N) h.n_c_pos)
  generalize (if m % 2 ≠ 0 then (if k % 2 ≠ 0 then false else true)
    else (if k % 2 ≠ 0 then true else false)) = nd
  generalize hne : (if nd = true then cdiv N n_c - 1 - n_ind else n_ind) = n
  have hn : n < cdiv N n_c := by rw [← hne]; split <;> omega
  obtain ⟨b1, b2, b3, b4⟩ := n_blk (N := N) g hn
  rw [sL_eq h.n_c_pos h.n_r_pos h.n_dvd hn]
  refine AllFits.append (.cons ((E.Good.lit _).add .one ?_) .nil) (AllFits.flatMap fun core hc => ?_)
  · simp only [E.val_add, E.val_lit, E.val_one]; omega
  rw [h3, mem_range] at hc
  rw [h6 core hc, kX_eq]
  obtain ⟨y1, y2⟩ := k_core g hk hc
  have hNp0 : 0 < padTo N n_c n_r := by omega
  have hK0 : 0 < K := by omega
  have hAv : (aIndNE m p m_c K (sL M (p * m_c) m_r m : Nat) k k_c core (kX K p k_c k : Nat)).val +
      sL M (p * m_c) m_r m * kT K p k_c k core ≤ padTo M (p * m_c) m_r * K := by
    simp only [aIndNE, E.val_add, E.val_mul, E.val_lit]
    calc _ = m * (p * m_c) * K + sL M (p * m_c) m_r m *
          (k * p * k_c + (core * kX K p k_c k + kT K p k_c k core)) := by ring
      _ ≤ m * (p * m_c) * K + sL M (p * m_c) m_r m * K :=
          Nat.add_le_add_left (Nat.mul_le_mul_left _ (by omega)) _
      _ = (m * (p * m_c) + sL M (p * m_c) m_r m) * K := by ring
      _ ≤ _ := Nat.mul_le_mul_right _ a1
  have hBv : (bIndNE k p k_c (padTo N n_c n_r : Nat) n n_c (kL K p k_c k : Nat) core (kX K p k_c k : Nat)
      (sL N n_c n_r n : Nat)).val + kT K p k_c k core * sL N n_c n_r n ≤ K * padTo N n_c n_r := by
    simp only [bIndNE, E.val_add, E.val_mul, E.val_lit]
    calc _ = k * p * k_c * padTo N n_c n_r + (n * n_c * kL K p k_c k +
          sL N n_c n_r n * (core * kX K p k_c k + kT K p k_c k core)) := by ring
      _ ≤ k * p * k_c * padTo N n_c n_r + (n * n_c * kL K p k_c k + sL N n_c n_r n * kL K p k_c k) :=
          Nat.add_le_add_left (Nat.add_le_add_left (Nat.mul_le_mul_left _ y1) _) _
      _ = k * p * k_c * padTo N n_c n_r + (n * n_c + sL N n_c n_r n) * kL K p k_c k := by ring
      _ ≤ k * p * k_c * padTo N n_c n_r + padTo N n_c n_r * kL K p k_c k :=
          Nat.add_le_add_left (Nat.mul_le_mul_right _ b1) _
      _ = (k * p * k_c + kL K p k_c k) * padTo N n_c n_r := by ring
      _ ≤ _ := Nat.mul_le_mul_right _ x3
  have hCv : (cIndNE m p m_c (padTo N n_c n_r : Nat) (sL M (p * m_c) m_r m : Nat) n n_c).val +
      sL M (p * m_c) m_r m * sL N n_c n_r n ≤ padTo M (p * m_c) m_r * padTo N n_c n_r := by
    simp only [cIndNE, E.val_add, E.val_mul, E.val_lit]
    rw [Nat.mul_assoc m p m_c]
    exact cpN_bound g hm hn
  have hmk : ((sL M (p * m_c) m_r m : Nat) * (k : E) * p * k_c : E).Good := by
    rcases Nat.eq_zero_or_pos k with h0 | h0
    · subst h0
      exact .of ⟨⟨⟨E.fits_lit (by omega), E.fits_lit (by decide), by simp⟩, E.fits_lit hpi, by simp⟩,
        E.fits_lit hkci, by simp⟩
    · exact E.Good.mulL (E.Good.mulL (E.Good.mulL (.lit _) (by omega) h0) hpi h.p_pos) hkci h.k_c_pos
  have hnM : n ≤ n * n_c := Nat.le_mul_of_pos_right _ h.n_c_pos
  have hmn : ((sL M (p * m_c) m_r m : Nat) * (n : E) * n_c : E).Good := by
    rcases Nat.eq_zero_or_pos n with h0 | h0
    · subst h0
      exact .of ⟨⟨E.fits_lit (by omega), E.fits_lit (by decide), by simp⟩, E.fits_lit hnc, by simp⟩
    · exact E.Good.mulL (E.Good.mulL (.lit _) (by omega) h0) hnc h.n_c_pos
  have hA : (aIndNE m p m_c K (sL M (p * m_c) m_r m : Nat) k k_c core (kX K p k_c k : Nat)).Good :=
    E.Good.add (E.Good.add (E.Good.mulL (rowN_good h z m) hKi hK0) hmk)
      (E.Good.mulL (E.Good.mulL (.lit _) (by omega) a2) (by omega) x1)
  have hB : (bIndNE k p k_c (padTo N n_c n_r : Nat) n n_c (kL K p k_c k : Nat) core (kX K p k_c k : Nat)
      (sL N n_c n_r n : Nat)).Good :=
    E.Good.add (E.Good.add (E.Good.mulL (E.Good.mulL (E.Good.mulL (.lit _) hpi h.p_pos) hkci h.k_c_pos)
      hNp hNp0) (E.Good.mulL (E.Good.mulL (.lit _) hnc h.n_c_pos) (by omega) x4))
      (E.Good.mulL (E.Good.mulL (.lit _) (by omega) x1) (by omega) b2)
  have hC : (cIndNE m p m_c (padTo N n_c n_r : Nat) (sL M (p * m_c) m_r m : Nat) n n_c).Good :=
    E.Good.add (E.Good.mulL (rowN_good h z m) hNp hNp0) hmn
  refine AllFits.append (.cons ((E.Good.lit _).add .one ?_) <| .cons (hA (by omega)) <|
    .cons (hB (by omega)) <| .cons (hC (by omega)) .nil) ?_
  · simp only [E.val_add, E.val_lit, E.val_one]; omega
  · exact regIntsC_fits h.m_r_pos h.n_r_pos hmri hnri (mL_dvd g) (nL_dvd g) y2 (by omega) (by omega)
      (by omega) hA hB hC (by omega) (by omega) (by omega)

theorem sizeIntsN_fits : AllFits (sizeIntsN M N K p m_r (dimsNKM M N K p m_r n_r m_c k_c n_c)) ∧
    AllFits (dimsIntsN M N K p m_r n_r (dimsNKM M N K p m_r n_r m_c k_c n_c)) := by
  have g := h.geoN
  have hKi := z.Ki
  have hMp := z.Mp
  have hNp := z.Np
  have hmS := z.mS
  have hnc := z.nc
  have hMM := padTo_ge M (p * m_c) m_r h.m_r_pos
  have hNN := padTo_ge N n_c n_r h.n_r_pos
  have hMi : M < 2 ^ 31 := by omega
  have hNi : N < 2 ^ 31 := by omega
  obtain ⟨hpi, hmci⟩ := p_m_int h z
  have hmri : m_r < 2 ^ 31 := Nat.lt_of_le_of_lt (Nat.le_of_dvd h.m_c_pos h.m_dvd) hmci
  have hrem : cdiv (M % (p * m_c)) m_r * m_r ≤ padTo M (p * m_c) m_r := by unfold padTo; omega
  have hrr : cdiv (M % (p * m_c)) m_r ≤ M % (p * m_c) := cdiv_le_self' h.m_r_pos
  have hmm := Nat.mod_le M (p * m_c)
  have hq : (M / (p * m_c)) * (p * m_c) ≤ M := Nat.div_mul_le_self _ _
  have hPM : ((p : E) * m_c).Fits := E.Good.mulL (.lit _) hmci h.m_c_pos hmS
  have hr : ((cdiv (M % (p * m_c)) m_r : Nat) * (m_r : E) : E).Fits := by
    refine E.Good.mulL (.lit _) hmri h.m_r_pos ?_
    simp only [E.val_mul, E.val_lit]; omega
  have hr' : ((m_r : E) * (cdiv (M % (p * m_c)) m_r : Nat) : E).Fits := by
    refine ⟨E.fits_lit hmri, E.fits_lit (by omega), ?_⟩
    simp only [E.val_lit]; rw [Nat.mul_comm]; omega
  have hdiv : ((M : E) / ((p : E) * m_c) * ((p : E) * m_c)).Fits :=
    ⟨E.fits_div hMi hPM g.mS_pos, hPM, Nat.lt_of_le_of_lt hq hMi⟩
  have hMPf' : (mPaddedNE M p m_c (cdiv (M % (p * m_c)) m_r * m_r : Nat)).Fits :=
    E.Good.add (.of hdiv) (.lit _) (by simp only [E.val_add, E.val_mul, E.val_div, E.val_lit]; exact hMp)
  have hMPv : (mPaddedE M p m_r m_c (cdiv (M % (p * m_c)) m_r : Nat)).val = padTo M (p * m_c) m_r := by
    simp only [mPaddedE, E.val_add, E.val_mul, E.val_div, E.val_lit, padTo]; ring
  have hMPf : (mPaddedE M p m_r m_c (cdiv (M % (p * m_c)) m_r : Nat)).Fits := by
    refine E.Good.add (.of hr') (E.Good.mulL (E.Good.mulL (.of (E.fits_div hMi hPM g.mS_pos)) hpi h.p_pos)
      hmci h.m_c_pos) ?_
    have := hMPv
    unfold mPaddedE at this
    rw [this]; exact hMp
  have hNPv : (nPaddedE N n_c (cdiv (N % n_c) n_r * n_r : Nat)).val = padTo N n_c n_r := by
    simp only [nPaddedE, E.val_add, E.val_sub, E.val_mod, E.val_lit, padTo, sub_mod_eq]
  have hNPf : (nPaddedE N n_c (cdiv (N % n_c) n_r * n_r : Nat)).Fits := by
    refine E.Good.add (.of (E.Good.sub hNi (E.fits_mod hNi hnc h.n_c_pos) (Nat.mod_le _ _)
      (by simp only [E.val_sub, E.val_lit]; omega))) (.lit _) ?_
    have := hNPv
    unfold nPaddedE at this
    rw [this]; exact hNp
  constructor
  · refine .cons ⟨hMPf, hKi, ?_⟩ <| .cons ⟨hKi, hNPf, ?_⟩ <| .cons ⟨hMPf, hNPf, ?_⟩ .nil
    · show (mPaddedE M p m_r m_c (cdiv (M % (p * m_c)) m_r : Nat)).val * K < 2 ^ 31
      rw [hMPv]; exact z.MK
    · show K * (nPaddedE N n_c (cdiv (N % n_c) n_r * n_r : Nat)).val < 2 ^ 31
      rw [hNPv]; exact z.KN
    · show (mPaddedE M p m_r m_c (cdiv (M % (p * m_c)) m_r : Nat)).val *
        (nPaddedE N n_c (cdiv (N % n_c) n_r * n_r : Nat)).val < 2 ^ 31
      rw [hNPv, hMPv]; exact z.MN
  · have c1 : cdiv M (p * m_c) ≤ M := cdiv_le_self' g.mS_pos
    refine AllFits.append (.cons (E.fits_mod hMi hPM g.mS_pos) <| .cons hr <|
      .cons (E.Good.add (.of (E.fits_div hMi hPM g.mS_pos)) (.lit _) ?_) <| .cons hMPf' .nil)
      (dimsIntsK_fits g z rfl rfl rfl rfl rfl rfl rfl rfl rfl)
    exact Nat.lt_of_le_of_lt (Nat.le_of_eq (cdiv_eq_div_add M (p * m_c) g.mS_pos)) (by omega)

theorem nfirstInts_fits (accum : Bool) (hcp : accum = true → ∀ n, n < cdiv N n_c →
      padTo N n_c n_r * (cdiv M (p * m_c) - 1) * p * m_c + n * p * m_c * sL N n_c n_r n < 2 ^ 31) :
    AllFits (nfirstInts accum M N K p m_r n_r m_c k_c n_c) := by
  refine .append (.append (.append (.append (.append (.append (sizeIntsN_fits h z).2 (sizeIntsN_fits h z).1)
    (packAIntsN_fits h z)) (packBIntsN_fits h z)) ?_) (schedIntsN_fits h z))
    (cIntsN_fits h z false (by simp))
  split
  · rename_i ha
    exact cIntsN_fits h z true fun _ => hcp ha
  · exact .nil

end

include h in
theorem int32_of (hN : 0 < N) (hK : 0 < K)
    (hA : padTo M (p * m_c) m_r * K < 2 ^ 31) (hB : K * padTo N n_c n_r < 2 ^ 31)
    (hC : padTo M (p * m_c) m_r * padTo N n_c n_r < 2 ^ 31) (hpk : p * k_c < 2 ^ 31)
    (hpm : p * m_c < 2 ^ 31) (hn : n_c < 2 ^ 31) : Int32Sh M N K p m_r n_r (p * m_c) k_c n_c :=
  have h2 := padTo_ge N n_c n_r h.n_r_pos
  ⟨hA, hB, hC, Nat.lt_of_le_of_lt (Nat.le_mul_of_pos_right _ hK) hA,
      Nat.lt_of_le_of_lt (Nat.le_mul_of_pos_left _ hK) hB,
      Nat.lt_of_le_of_lt (Nat.le_mul_of_pos_right _ (by omega)) hB, hpk, hpm, hn⟩

/-- The block sizing and the packed sizes already evaluate these. -/
theorem nfirst_need (hf : ∀ e ∈ dimsIntsN M N K p m_r n_r (dimsNKM M N K p m_r n_r m_c k_c n_c) ++
        sizeIntsN M N K p m_r (dimsNKM M N K p m_r n_r m_c k_c n_c), e.Fits) :
    padTo M (p * m_c) m_r * K < 2 ^ 31 ∧ K * padTo N n_c n_r < 2 ^ 31 ∧
      padTo M (p * m_c) m_r * padTo N n_c n_r < 2 ^ 31 ∧ p * k_c < 2 ^ 31 ∧ p * m_c < 2 ^ 31 := by
  have s := fun e he => hf e (mem_append_right _ he)
  have d := fun e he => hf e (mem_append_left _ (mem_append_right _ (mem_append_left _ he)))
  have d' := fun e he => hf e (mem_append_left _ (mem_append_left _ he))
  have e1 : (mPaddedE M p m_r m_c (cdiv (M % (p * m_c)) m_r : Nat)).val = padTo M (p * m_c) m_r := by
    simp only [mPaddedE, E.val_add, E.val_mul, E.val_div, E.val_lit, padTo]; ring
  have e2 : (nPaddedE N n_c (cdiv (N % n_c) n_r * n_r : Nat)).val = padTo N n_c n_r := by
    simp only [nPaddedE, E.val_add, E.val_sub, E.val_mod, E.val_lit, padTo, sub_mod_eq]
  have s1 := (s (mPaddedE M p m_r m_c (cdiv (M % (p * m_c)) m_r : Nat) * K)
    (by simp [sizeIntsN, dimsNKM])).lt
  have s2 := (s ((K : E) * nPaddedE N n_c (cdiv (N % n_c) n_r * n_r : Nat))
    (by simp [sizeIntsN, dimsNKM])).lt
  have s3 := (s (mPaddedE M p m_r m_c (cdiv (M % (p * m_c)) m_r : Nat) *
    nPaddedE N n_c (cdiv (N % n_c) n_r * n_r : Nat)) (by simp [sizeIntsN, dimsNKM])).lt
  have s4 := (d ((K : E) % ((p : E) * k_c)) (by simp [dimsNKM])).2.1.lt
  have s5 := (d' ((M : E) % ((p : E) * m_c)) (by simp [dimsNKM])).2.1.lt
  rw [E.val_mul, e1] at s1
  rw [E.val_mul, e2] at s2
  rw [E.val_mul, e1, e2] at s3
  exact ⟨s1, s2, s3, s4, s5⟩

include h in
/-- Packing C evaluates the offset of every block of the last row of blocks. -/
theorem nfirst_need_c (hM : 0 < M)
    (hf : ∀ e ∈ (if true = true then cIntsN true M N p m_r n_r (dimsNKM M N K p m_r n_r m_c k_c n_c)
      else []), e.Fits) {n : Nat} (hn : n < cdiv N n_c) :
    padTo N n_c n_r * (cdiv M (p * m_c) - 1) * p * m_c +
      n * p * m_c * min n_c (padTo N n_c n_r - n * n_c) < 2 ^ 31 := by
  have g := h.geoN
  have hMb : 0 < cdiv M (p * m_c) := cdiv_pos hM g.mS_pos
  have hlt := (hf (cpNE (padTo N n_c n_r : Nat) (cdiv M (p * m_c) - 1 : Nat) p m_c n (sL N n_c n_r n : Nat))
    (by
      rw [if_pos rfl]
      unfold cIntsN
      simp only [nkm_Mb h.toN, nkm_Nb h.toN, nkm_m_pad, nkm_n_pad, nkm_m_c, nkm_n_c, nkm_m_c1, nkm_n_c1,
        nkm_N_padded]
      refine mem_flatMap.2 ⟨_, mem_range.2 (Nat.sub_lt hMb Nat.one_pos), mem_append_right _ ?_⟩
      refine mem_flatMap.2 ⟨n, mem_range.2 hn, mem_append_right _ ?_⟩
      rw [if_pos trivial, sL_eq h.n_c_pos h.n_r_pos h.n_dvd hn]
      exact mem_append_left _ (mem_singleton.2 rfl))).lt
  simp only [cpNE, E.val_add, E.val_mul, E.val_lit] at hlt
  exact hlt

end

end Cake
