/-
Property C19: the block dimensions partition the three index ranges.
-/
import Verif.Proofs.SchedM
import Verif.Proofs.SchedN
import Verif.Props.Demo

namespace Cake
open List

/-! ### What the block record says

These four readings of the record are the ones all packing, compute and unpacking loops use
(`src/cake_sgemm_k_first.cpp:41-88`, `src/cake_sgemm_m_first.cpp:30-90`, `src/pack_k_first.cpp:13-55`, …). -/

/-- Number of cores that get a strip of block `b` (of `nb`). -/
def coresOf (nb b p p_l : Nat) (pad : Bool) : Nat := if b = nb - 1 ∧ pad then p_l else p

/-- Distance between the strips of two neighbouring cores. -/
def strideOf (nb b full part : Nat) (pad : Bool) : Nat := if b = nb - 1 ∧ pad then part else full

/-- Size of the strip of `core` in block `b`. -/
def stripOf (nb b core p_l full part last : Nat) (pad : Bool) : Nat :=
  if b = nb - 1 ∧ pad then (if core = p_l - 1 then last else part) else full

/-- Size of block `b`. -/
def blockOf (nb b full part : Nat) (pad : Bool) : Nat := if b = nb - 1 ∧ pad then part else full

/-- `starts/sizes` cut `0 … T-1` into consecutive intervals: writing the intervals one after the other
gives exactly `0, 1, …, T-1`. So every index lies in exactly one interval, and no interval sticks out. -/
def Tiles (T : Nat) (I : List (Nat × Nat)) : Prop := (I.flatMap fun q => (range q.2).map fun y => q.1 + y) = range T

/-- `P` is the smallest multiple of `r` that is at least `T`. -/
def LeastCover (T r P : Nat) : Prop := r ∣ P ∧ T ≤ P ∧ ∀ Q, r ∣ Q → T ≤ Q → P ≤ Q

theorem leastCover_padTo {T s u : Nat} (hu : 0 < u) (hd : u ∣ s) : LeastCover T u (padTo T s u) := by
  refine ⟨padTo_dvd hd, padTo_ge _ _ _ hu, ?_⟩
  rintro Q ⟨q, rfl⟩ hQ
  rw [padTo_eq hu hd, Nat.mul_comm u q]
  exact Nat.mul_le_mul_right u (cdiv_le_of_le_mul hu (by rwa [Nat.mul_comm]))

theorem pad_cond {b nb : Nat} {pad : Bool} : (b = nb - 1 ∧ pad = true) ↔ (b == nb - 1 && pad) = true := by simp

/-- Two-level chopping. -/
theorem tiles_two {T S : Nat} (hS : 0 < S) (X : Nat → Nat)
    (hX : ∀ b, b < cdiv T S → 0 < X b) :
    Tiles T ((range (cdiv T S)).flatMap fun b => (range (cdiv (chopLen T S b) (X b))).map fun core =>
      (b * S + core * X b, chopLen (chopLen T S b) (X b) core)) := by
  unfold Tiles
  refine Eq.trans ?_ (chop_range (T := T) hS)
  rw [flatMap_assoc]
  apply flatMap_congr
  intro b hb
  rw [flatMap_map]
  conv_rhs => rw [← chop_range (T := chopLen T S b) (hX b (mem_range.1 hb)), map_flatMap]
  apply flatMap_congr
  intro core _
  rw [map_map]
  apply map_congr_left
  intro y _
  simp only [Function.comp]
  omega

theorem tiles_one {T S : Nat} (hS : 0 < S) :
    Tiles T ((range (cdiv T S)).map fun b => (b * S, chopLen T S b)) := by
  unfold Tiles
  rw [flatMap_map]
  exact chop_range hS

section
variable {M N K p m_r n_r m_c k_c n_c : Nat}

/-- K-first: the row strips of all (block, core) pairs are consecutive and cover exactly `M_padded` rows;
the column blocks cover `N_padded`, the depth blocks cover `K`. `M_padded` and `N_padded` are the least
multiples of the register tile that hold the matrix. Every strip is non-empty, a multiple of the register
tile, at most `m_c` rows, and no more than `p` cores are used. -/
theorem C19_kfirst (h : TileOK p m_r n_r m_c k_c n_c) :
    let x := dimsKMN M N K p m_r n_r m_c k_c n_c
    Tiles x.M_padded ((range x.Mb).flatMap fun m => (range (coresOf x.Mb m p x.p_l x.m_pad)).map fun core =>
      (m * p * x.m_c + core * strideOf x.Mb m x.m_c x.m_c1 x.m_pad,
        stripOf x.Mb m core x.p_l x.m_c x.m_c1 x.m_c1_last_core x.m_pad)) ∧
    Tiles x.N_padded ((range x.Nb).map fun n => (n * x.n_c, blockOf x.Nb n x.n_c x.n_c1 x.n_pad)) ∧
    Tiles K ((range x.Kb).map fun k => (k * x.k_c, blockOf x.Kb k x.k_c x.k_c1 x.k_pad)) ∧
    LeastCover M m_r x.M_padded ∧ LeastCover N n_r x.N_padded ∧
    ∀ m, m < x.Mb → coresOf x.Mb m p x.p_l x.m_pad ≤ p ∧
      ∀ core, core < coresOf x.Mb m p x.p_l x.m_pad →
        0 < stripOf x.Mb m core x.p_l x.m_c x.m_c1 x.m_c1_last_core x.m_pad ∧
        stripOf x.Mb m core x.p_l x.m_c x.m_c1 x.m_c1_last_core x.m_pad ≤ m_c ∧
        m_r ∣ stripOf x.Mb m core x.p_l x.m_c x.m_c1 x.m_c1_last_core x.m_pad := by
  intro x
  have eMb : x.Mb = cdiv M (p * m_c) := kmn_Mb h
  have eNb : x.Nb = cdiv N n_c := kmn_Nb h
  have eKb : x.Kb = cdiv K k_c := kmn_Kb h
  have hpad : x.m_pad = (M % (p * m_c) != 0) := rfl
  have hcore : ∀ m, m < cdiv M (p * m_c) → coresOf x.Mb m p x.p_l x.m_pad =
      cdiv (mLen M p m_r m_c m) (mX M p m_r m_c m) := by
    intro m hm
    rw [← (m_strips (N := N) (K := K) h hm).2.2.2.1]
    unfold coresOf
    simp only [pad_cond, eMb, hpad]
    rfl
  have hstride : ∀ m, strideOf x.Mb m x.m_c x.m_c1 x.m_pad = mX M p m_r m_c m := by
    intro m
    unfold strideOf mX
    simp only [pad_cond, eMb, hpad]
    rfl
  have hstrip : ∀ m, m < cdiv M (p * m_c) → ∀ core, core < cdiv (mLen M p m_r m_c m) (mX M p m_r m_c m) →
      stripOf x.Mb m core x.p_l x.m_c x.m_c1 x.m_c1_last_core x.m_pad =
        chopLen (mLen M p m_r m_c m) (mX M p m_r m_c m) core := by
    intro m hm core hc
    rw [← (m_strips (N := N) (K := K) h hm).2.2.2.2.2 core hc]
    unfold stripOf
    simp only [pad_cond, eMb, hpad]
    rfl
  refine ⟨?_, ?_, ?_, ?_, ?_, ?_⟩
  · have eP : x.M_padded = padTo M (p * m_c) m_r := kmn_M_padded
    rw [eP, eMb, mb_eq h]
    have := tiles_two (T := padTo M (p * m_c) m_r) h.S_pos (mX M p m_r m_c)
      (fun b hb => (m_strips (N := N) (K := K) h (by rwa [mb_eq h])).1)
    convert this using 1
    apply flatMap_congr
    intro m hm
    rw [mem_range, ← mb_eq h] at hm
    rw [← mb_eq h]
    have e1 := hcore m hm
    rw [eMb] at e1
    rw [e1]
    apply map_congr_left
    intro core hc
    rw [mem_range] at hc
    have e2 := hstride m
    have e3 := hstrip m hm core hc
    rw [eMb] at e2 e3
    rw [e2, e3, Nat.mul_assoc]
    rfl
  · have eP : x.N_padded = padTo N n_c n_r := kmn_N_padded
    rw [eP, eNb, nb_eq h (N := N)]
    have := tiles_one (T := padTo N n_c n_r) h.n_c_pos
    convert this using 1
    apply map_congr_left
    intro n hn
    rw [mem_range, ← nb_eq h] at hn
    rw [← n_len h hn]
    unfold blockOf
    simp only [pad_cond, ← nb_eq h]
    rfl
  · rw [eKb]
    have := tiles_one (T := K) h.k_c_pos
    convert this using 1
    apply map_congr_left
    intro k hk
    rw [mem_range] at hk
    rw [← k_len h.k_c_pos hk]
    unfold blockOf
    simp only [pad_cond]
    rfl
  · have eP : x.M_padded = padTo M (p * m_c) m_r := kmn_M_padded
    rw [eP]; exact leastCover_padTo h.m_r_pos h.S_dvd
  · have eP : x.N_padded = padTo N n_c n_r := kmn_N_padded
    rw [eP]; exact leastCover_padTo h.n_r_pos h.n_dvd
  · intro m hm
    rw [eMb] at hm
    obtain ⟨h1, h2, h3, h4, h5, h6⟩ := m_strips (N := N) (K := K) h hm
    rw [hcore m hm]
    refine ⟨h5, fun core hc => ?_⟩
    rw [hstrip m hm core hc]
    refine ⟨chopLen_pos h1 hc, Nat.le_trans (chopLen_le _ _ _) h2, ?_⟩
    exact chopLen_dvd (chopLen_dvd (padTo_dvd h.S_dvd) h.S_dvd) h3

example := C19_kfirst (M := 100) (N := 50) (K := 23) demo_tile
example : (dimsKMN 100 50 23 3 6 16 12 5 32).p_l = 3 ∧ (dimsKMN 100 50 23 3 6 16 12 5 32).m_c1 = 12 ∧
    (dimsKMN 100 50 23 3 6 16 12 5 32).m_c1_last_core = 6 := by decide +kernel

/-- The depth strips shared by the M-first and N-first schedules. -/
theorem k_tiles (hp : 0 < p) (hkc : 0 < k_c) {nb pl c1 kl : Nat} {pad : Bool} (hnb : nb = cdiv K (p * k_c))
    (hpad : pad = (K % (p * k_c) != 0)) (hc1 : c1 = cdiv (K % (p * k_c)) p)
    (hpl : pl = if cdiv (K % (p * k_c)) p ≠ 0 then cdiv (K % (p * k_c)) (cdiv (K % (p * k_c)) p) else 0)
    (hkl : kl = K % (p * k_c) - cdiv (K % (p * k_c)) p * (pl - 1)) :
    Tiles K ((range nb).flatMap fun k => (range (coresOf nb k p pl pad)).map fun core =>
      (k * p * k_c + core * strideOf nb k k_c c1 pad, stripOf nb k core pl k_c c1 kl pad)) ∧
    ∀ k, k < nb → coresOf nb k p pl pad ≤ p ∧ ∀ core, core < coresOf nb k p pl pad →
      0 < stripOf nb k core pl k_c c1 kl pad ∧ stripOf nb k core pl k_c c1 kl pad ≤ k_c := by
  subst hnb hpad hc1
  have hS : 0 < p * k_c := Nat.mul_pos hp hkc
  have hcore : ∀ k, k < cdiv K (p * k_c) → coresOf (cdiv K (p * k_c)) k p pl (K % (p * k_c) != 0) =
      kU K p k_c k := by
    intro k hk
    rw [← (k_strips' hp hkc hk hpl hkl).1]
    unfold coresOf
    simp only [pad_cond]
  have hstride : ∀ k, strideOf (cdiv K (p * k_c)) k k_c (cdiv (K % (p * k_c)) p) (K % (p * k_c) != 0) =
      kX K p k_c k := by
    intro k
    unfold strideOf kX
    simp only [pad_cond]
  have hstrip : ∀ k, k < cdiv K (p * k_c) → ∀ core, core < kU K p k_c k →
      stripOf (cdiv K (p * k_c)) k core pl k_c (cdiv (K % (p * k_c)) p) kl (K % (p * k_c) != 0) =
        kT K p k_c k core := by
    intro k hk core hc
    rw [← (k_strips' hp hkc hk hpl hkl).2.2.1 core hc]
    unfold stripOf
    simp only [pad_cond]
  constructor
  · have := tiles_two (T := K) hS (kX K p k_c) (fun b hb => kX_pos hp hkc hb)
    convert this using 1
    apply flatMap_congr
    intro k hk
    rw [mem_range] at hk
    rw [hcore k hk]
    apply map_congr_left
    intro core hc
    rw [mem_range] at hc
    rw [hstride, hstrip k hk core hc, Nat.mul_assoc]
    rfl
  · intro k hk
    rw [hcore k hk]
    have hks := k_strips hp hkc hk
    refine ⟨hks.2.2.2.1, fun core hc => ?_⟩
    rw [hstrip k hk core hc]
    exact ⟨chopLen_pos (kX_pos hp hkc hk) hc, Nat.le_trans (chopLen_le _ _ _) hks.2.1⟩

/-- Blocks along one dimension, padded to the register tile. -/
theorem blk_tiles {T S u nb c1 : Nat} {pad : Bool} (hS : 0 < S) (hu : 0 < u) (hd : u ∣ S)
    (hnb : nb = cdiv T S) (hpad : pad = (T % S != 0)) (hc1 : c1 = cdiv (T % S) u * u) :
    Tiles (padTo T S u) ((range nb).map fun n => (n * S, blockOf nb n S c1 pad)) ∧
    ∀ n, n < nb → 0 < blockOf nb n S c1 pad ∧ blockOf nb n S c1 pad ≤ S ∧ u ∣ blockOf nb n S c1 pad := by
  subst hnb hpad hc1
  have e : ∀ n, n < cdiv T S → blockOf (cdiv T S) n S (cdiv (T % S) u * u) (T % S != 0) = sL T S u n := by
    intro n hn
    rw [← sL_eq hS hu hd hn]
    unfold blockOf
    simp only [pad_cond]
  constructor
  · have := tiles_one (T := padTo T S u) hS
    rw [cdiv_padTo hS hu hd] at this
    convert this using 1
    apply map_congr_left
    intro n hn
    rw [e n (mem_range.1 hn)]
    rfl
  · intro n hn
    rw [e n hn]
    refine ⟨chopLen_pos hS (by rwa [cdiv_padTo hS hu hd]), chopLen_le _ _ _, ?_⟩
    exact chopLen_dvd (padTo_dvd hd) hd

/-- M-first: the depth strips of all (block, core) pairs cover `0 … K-1`; row and column blocks cover the
padded matrix; padding is minimal. -/
theorem C19_mfirst (h : TileOK p m_r n_r m_c k_c n_c) :
    let x := dimsMKN M N K p m_r n_r m_c k_c n_c
    Tiles K ((range x.Kb).flatMap fun k => (range (coresOf x.Kb k p x.p_l x.k_pad)).map fun core =>
      (k * p * x.k_c + core * strideOf x.Kb k x.k_c x.k_c1 x.k_pad,
        stripOf x.Kb k core x.p_l x.k_c x.k_c1 x.k_c1_last_core x.k_pad)) ∧
    Tiles x.M_padded ((range x.Mb).map fun m => (m * x.m_c, blockOf x.Mb m x.m_c x.m_c1 x.m_pad)) ∧
    Tiles x.N_padded ((range x.Nb).map fun n => (n * x.n_c, blockOf x.Nb n x.n_c x.n_c1 x.n_pad)) ∧
    LeastCover M m_r x.M_padded ∧ LeastCover N n_r x.N_padded ∧
    (∀ k, k < x.Kb → coresOf x.Kb k p x.p_l x.k_pad ≤ p ∧ ∀ core, core < coresOf x.Kb k p x.p_l x.k_pad →
      0 < stripOf x.Kb k core x.p_l x.k_c x.k_c1 x.k_c1_last_core x.k_pad ∧
      stripOf x.Kb k core x.p_l x.k_c x.k_c1 x.k_c1_last_core x.k_pad ≤ k_c) ∧
    (∀ m, m < x.Mb → 0 < blockOf x.Mb m x.m_c x.m_c1 x.m_pad ∧ blockOf x.Mb m x.m_c x.m_c1 x.m_pad ≤ m_c ∧
      m_r ∣ blockOf x.Mb m x.m_c x.m_c1 x.m_pad) := by
  intro x
  have hk := k_tiles (K := K) h.p_pos h.k_c_pos (nb := x.Kb) (pl := x.p_l) (c1 := x.k_c1)
    (kl := x.k_c1_last_core) (pad := x.k_pad) (mkn_Kb h) rfl rfl rfl rfl
  have hm := blk_tiles (T := M) h.m_c_pos h.m_r_pos h.m_dvd (nb := x.Mb) (c1 := x.m_c1) (pad := x.m_pad)
    (mkn_Mb h) rfl rfl
  have hn := blk_tiles (T := N) h.n_c_pos h.n_r_pos h.n_dvd (nb := x.Nb) (c1 := x.n_c1) (pad := x.n_pad)
    (mkn_Nb h) rfl rfl
  have eM : x.M_padded = padTo M m_c m_r := mkn_M_padded
  have eN : x.N_padded = padTo N n_c n_r := mkn_N_padded
  rw [eM, eN]
  exact ⟨hk.1, hm.1, hn.1, leastCover_padTo h.m_r_pos h.m_dvd, leastCover_padTo h.n_r_pos h.n_dvd, hk.2, hm.2⟩

example := C19_mfirst (M := 100) (N := 50) (K := 23) demo_tile

/-- N-first: as M-first, with row blocks of `p*m_c` rows. -/
theorem C19_nfirst (h : TileOK p m_r n_r m_c k_c n_c) :
    let x := dimsNKM M N K p m_r n_r m_c k_c n_c
    Tiles K ((range x.Kb).flatMap fun k => (range (coresOf x.Kb k p x.p_l x.k_pad)).map fun core =>
      (k * p * x.k_c + core * strideOf x.Kb k x.k_c x.k_c1 x.k_pad,
        stripOf x.Kb k core x.p_l x.k_c x.k_c1 x.k_c1_last_core x.k_pad)) ∧
    Tiles x.M_padded ((range x.Mb).map fun m => (m * (p * x.m_c), blockOf x.Mb m (p * x.m_c) x.m_c1 x.m_pad)) ∧
    Tiles x.N_padded ((range x.Nb).map fun n => (n * x.n_c, blockOf x.Nb n x.n_c x.n_c1 x.n_pad)) ∧
    LeastCover M m_r x.M_padded ∧ LeastCover N n_r x.N_padded ∧
    (∀ k, k < x.Kb → coresOf x.Kb k p x.p_l x.k_pad ≤ p ∧ ∀ core, core < coresOf x.Kb k p x.p_l x.k_pad →
      0 < stripOf x.Kb k core x.p_l x.k_c x.k_c1 x.k_c1_last_core x.k_pad ∧
      stripOf x.Kb k core x.p_l x.k_c x.k_c1 x.k_c1_last_core x.k_pad ≤ k_c) ∧
    (∀ n, n < x.Nb → 0 < blockOf x.Nb n x.n_c x.n_c1 x.n_pad ∧ blockOf x.Nb n x.n_c x.n_c1 x.n_pad ≤ n_c ∧
      n_r ∣ blockOf x.Nb n x.n_c x.n_c1 x.n_pad) := by
  intro x
  have hk := k_tiles (K := K) h.p_pos h.k_c_pos (nb := x.Kb) (pl := x.p_l) (c1 := x.k_c1)
    (kl := x.k_c1_last_core) (pad := x.k_pad) (nkm_Kb h.toN) rfl rfl rfl rfl
  have hm := blk_tiles (T := M) h.S_pos h.m_r_pos h.S_dvd (nb := x.Mb) (c1 := x.m_c1) (pad := x.m_pad)
    (nkm_Mb h.toN) rfl rfl
  have hn := blk_tiles (T := N) h.n_c_pos h.n_r_pos h.n_dvd (nb := x.Nb) (c1 := x.n_c1) (pad := x.n_pad)
    (nkm_Nb h.toN) rfl rfl
  have eM : x.M_padded = padTo M (p * m_c) m_r := nkm_M_padded
  have eN : x.N_padded = padTo N n_c n_r := nkm_N_padded
  rw [eM, eN]
  exact ⟨hk.1, hm.1, hn.1, leastCover_padTo h.m_r_pos h.S_dvd, leastCover_padTo h.n_r_pos h.n_dvd, hk.2, hn.2⟩

example := C19_nfirst (M := 100) (N := 50) (K := 23) demo_tile

end
end Cake
