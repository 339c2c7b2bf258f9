/-
N-first packing, schedule and unpacking are instances of the shared-C scheme.
-/
import Verif.Proofs.SchedM
import Verif.Model.NFirst

namespace Cake
open List

/-- What the N-first schedule needs of the tile sizes: `m_c` only occurs in the product `p * m_c`. -/
structure TileN (p m_r n_r m_c k_c n_c : Nat) : Prop where
  p_pos : 0 < p
  m_r_pos : 0 < m_r
  n_r_pos : 0 < n_r
  m_c_pos : 0 < m_c
  k_c_pos : 0 < k_c
  n_c_pos : 0 < n_c
  S_dvd : m_r ∣ p * m_c
  n_dvd : n_r ∣ n_c

theorem TileOK.toN {p m_r n_r m_c k_c n_c : Nat} (h : TileOK p m_r n_r m_c k_c n_c) : TileN p m_r n_r m_c k_c n_c :=
  ⟨h.p_pos, h.m_r_pos, h.n_r_pos, h.m_c_pos, h.k_c_pos, h.n_c_pos, h.S_dvd, h.n_dvd⟩

instance {p m_r n_r m_c k_c n_c : Nat} : Coe (TileOK p m_r n_r m_c k_c n_c) (TileN p m_r n_r m_c k_c n_c) := ⟨TileOK.toN⟩

theorem TileN.S_pos {p m_r n_r m_c k_c n_c : Nat} (h : TileN p m_r n_r m_c k_c n_c) : 0 < p * m_c :=
  Nat.mul_pos h.p_pos h.m_c_pos

theorem TileN.geoN {p m_r n_r m_c k_c n_c : Nat} (h : TileN p m_r n_r m_c k_c n_c) :
    GeoOK p m_r n_r (p * m_c) k_c n_c :=
  ⟨h.p_pos, h.m_r_pos, h.n_r_pos, h.S_pos, h.k_c_pos, h.n_c_pos, h.S_dvd, h.n_dvd⟩

section
variable {M N K p m_r n_r m_c k_c n_c : Nat} (h : TileN p m_r n_r m_c k_c n_c)

theorem nkm_Mb (h : TileN p m_r n_r m_c k_c n_c) :
    (dimsNKM M N K p m_r n_r m_c k_c n_c).Mb = cdiv M (p * m_c) := cdiv_eq_div_add _ _ h.S_pos
theorem nkm_Nb (h : TileN p m_r n_r m_c k_c n_c) :
    (dimsNKM M N K p m_r n_r m_c k_c n_c).Nb = cdiv N n_c := cdiv_eq_div_add _ _ h.n_c_pos
theorem nkm_Kb (h : TileN p m_r n_r m_c k_c n_c) :
    (dimsNKM M N K p m_r n_r m_c k_c n_c).Kb = cdiv K (p * k_c) :=
  cdiv_eq_div_add _ _ (Nat.mul_pos h.p_pos h.k_c_pos)
theorem nkm_M_padded : (dimsNKM M N K p m_r n_r m_c k_c n_c).M_padded = padTo M (p * m_c) m_r := rfl
theorem nkm_N_padded : (dimsNKM M N K p m_r n_r m_c k_c n_c).N_padded = padTo N n_c n_r := by
  simp only [dimsNKM, padTo, sub_mod_eq]
theorem nkm_m_pad : (dimsNKM M N K p m_r n_r m_c k_c n_c).m_pad = (M % (p * m_c) != 0) := rfl
theorem nkm_n_pad : (dimsNKM M N K p m_r n_r m_c k_c n_c).n_pad = (N % n_c != 0) := rfl
theorem nkm_k_pad : (dimsNKM M N K p m_r n_r m_c k_c n_c).k_pad = (K % (p * k_c) != 0) := rfl
theorem nkm_m_c : (dimsNKM M N K p m_r n_r m_c k_c n_c).m_c = m_c := rfl
theorem nkm_n_c : (dimsNKM M N K p m_r n_r m_c k_c n_c).n_c = n_c := rfl
theorem nkm_k_c : (dimsNKM M N K p m_r n_r m_c k_c n_c).k_c = k_c := rfl
theorem nkm_m_c1 : (dimsNKM M N K p m_r n_r m_c k_c n_c).m_c1 = cdiv (M % (p * m_c)) m_r * m_r := rfl
theorem nkm_n_c1 : (dimsNKM M N K p m_r n_r m_c k_c n_c).n_c1 = cdiv (N % n_c) n_r * n_r := rfl
theorem nkm_k_rem : (dimsNKM M N K p m_r n_r m_c k_c n_c).k_rem = K % (p * k_c) := rfl
theorem nkm_k_c1 : (dimsNKM M N K p m_r n_r m_c k_c n_c).k_c1 = cdiv (K % (p * k_c)) p := rfl
theorem nkm_p_l : (dimsNKM M N K p m_r n_r m_c k_c n_c).p_l =
  if cdiv (K % (p * k_c)) p ≠ 0 then cdiv (K % (p * k_c)) (cdiv (K % (p * k_c)) p) else 0 := rfl
theorem nkm_k_last : (dimsNKM M N K p m_r n_r m_c k_c n_c).k_c1_last_core =
  K % (p * k_c) - cdiv (K % (p * k_c)) p * ((dimsNKM M N K p m_r n_r m_c k_c n_c).p_l - 1) := rfl

include h

theorem packA_n_phases : pack_A_n_first ⟨.A, 0⟩ ⟨.Ap, 0⟩ M K p m_r (dimsNKM M N K p m_r n_r m_c k_c n_c) =
    (range (cdiv M (p * m_c))).flatMap fun m => (range (cdiv K (p * k_c))).flatMap fun k =>
      [(range (kU K p k_c k)).map fun core =>
        aStrip (layN M N K p m_r n_r (p * m_c) k_c n_c h.geoN) k m core] := by
  have g := h.geoN
  have hS : 0 < p * k_c := Nat.mul_pos h.p_pos h.k_c_pos
  unfold pack_A_n_first
  simp only [nkm_Mb h, nkm_Kb h, nkm_m_pad, nkm_k_pad, nkm_m_c, nkm_k_c, nkm_m_c1, nkm_k_rem, nkm_k_c1]
  have e := loop_chop2 (γ := List (List Op)) (T := padTo M (p * m_c) m_r) (T' := K) h.S_pos hS (fun m k =>
    (if (k == cdiv K (p * k_c) - 1 && K % (p * k_c) != 0) = true then K % (p * k_c) else
      (if (k == cdiv K (p * k_c) - 1 && K % (p * k_c) != 0) = true then
        (dimsNKM M N K p m_r n_r m_c k_c n_c).p_l else p) * k_c) *
    (if (m == cdiv M (p * m_c) - 1 && M % (p * m_c) != 0) = true then cdiv (M % (p * m_c)) m_r * m_r
      else p * m_c)) (by
      intro m k hm hk
      rw [mBlk g] at hm
      obtain ⟨_, h5, _⟩ := k_strips' h.p_pos h.k_c_pos hk
          (nkm_p_l (M := M) (N := N) (m_r := m_r) (n_r := n_r) (m_c := m_c) (n_c := n_c))
          (nkm_k_last (n_c := n_c))
      rw [h5, sL_eq h.S_pos h.m_r_pos h.S_dvd hm, Nat.mul_comm]; rfl)
  rw [mBlk g] at e
  rw [e]
  apply flatMap_congr
  intro m hm
  rw [mem_range] at hm
  apply flatMap_congr
  intro k hk
  rw [mem_range] at hk
  obtain ⟨h3, h5, h6, h7⟩ := k_strips' h.p_pos h.k_c_pos hk
          (nkm_p_l (M := M) (N := N) (m_r := m_r) (n_r := n_r) (m_c := m_c) (n_c := n_c))
          (nkm_k_last (n_c := n_c))
  rw [h3]
  congr 1
  apply map_congr_left
  intro core hc
  rw [mem_range] at hc
  rw [h6 core hc, kX_eq, sL_eq h.S_pos h.m_r_pos h.S_dvd hm, Nat.mul_assoc m p m_c]
  unfold aStrip layN
  simp only [Loc.off]
  congr 2
  · ring
  · unfold sL; ring

theorem packA_n : IsPackA (layN M N K p m_r n_r (p * m_c) k_c n_c h.geoN)
    (phaseOps (pack_A_n_first ⟨.A, 0⟩ ⟨.Ap, 0⟩ M K p m_r (dimsNKM M N K p m_r n_r m_c k_c n_c))) := by
  have g := h.geoN
  have e : phaseOps (pack_A_n_first ⟨.A, 0⟩ ⟨.Ap, 0⟩ M K p m_r (dimsNKM M N K p m_r n_r m_c k_c n_c)) =
      (range (cdiv M (p * m_c))).flatMap fun m => (range (cdiv K (p * k_c))).flatMap fun k =>
      (range (kU K p k_c k)).flatMap fun core =>
        aStrip (layN M N K p m_r n_r (p * m_c) k_c n_c h.geoN) k m core := by
    rw [packA_n_phases h, phaseOps_flatMap]
    apply flatMap_congr; intro k _
    rw [phaseOps_flatMap]
    apply flatMap_congr; intro m _
    simp [List.flatMap_def]
  rw [e]
  constructor
  · intro o
    simp only [mem_flatMap, mem_range]
    constructor
    · rintro ⟨m, hm, k, hk, core, hc, ho⟩; exact ⟨k, m, core, hk, hm, hc, ho⟩
    · rintro ⟨k, m, core, hk, hm, hc, ho⟩; exact ⟨m, hm, k, hk, core, hc, ho⟩
  · rw [← mBlk g]
    apply SeqW.chop h.S_pos
    intro m hm
    rw [Nat.mul_comm (chopLen (padTo M (p * m_c) m_r) (p * m_c) m)]
    apply SeqW.chop (Nat.mul_pos h.p_pos h.k_c_pos)
    intro k hk
    apply SeqW.chop (kX_pos h.p_pos h.k_c_pos hk)
    intro core hc
    have := aStrip_seqW g (layN M N K p m_r n_r (p * m_c) k_c n_c h.geoN) k m core
    rw [Nat.mul_comm (sL M (p * m_c) m_r m)] at this
    convert this using 1
    · simp only [layN, sL]
      omega
    · rfl

theorem packB_n_phases : pack_B_n_first ⟨.B, 0⟩ ⟨.Bp, 0⟩ N p n_r (dimsNKM M N K p m_r n_r m_c k_c n_c) =
    (range (cdiv K (p * k_c))).flatMap fun k => (range (cdiv N n_c)).flatMap fun n =>
      [(range (kU K p k_c k)).map fun core =>
        bStrip (layN M N K p m_r n_r (p * m_c) k_c n_c h.geoN) n k core] := by
  have g := h.geoN
  have hS : 0 < p * k_c := Nat.mul_pos h.p_pos h.k_c_pos
  unfold pack_B_n_first
  simp only [nkm_Nb h, nkm_Kb h, nkm_n_pad, nkm_k_pad, nkm_n_c, nkm_k_c, nkm_n_c1, nkm_k_rem, nkm_k_c1]
  have e := loop_chop2 (γ := List (List Op)) (T := K) (T' := padTo N n_c n_r) hS h.n_c_pos (fun k n =>
    (if (k == cdiv K (p * k_c) - 1 && K % (p * k_c) != 0) = true then K % (p * k_c) else
      (if (k == cdiv K (p * k_c) - 1 && K % (p * k_c) != 0) = true then
        (dimsNKM M N K p m_r n_r m_c k_c n_c).p_l else p) * k_c) *
    (if (n == cdiv N n_c - 1 && N % n_c != 0) = true then cdiv (N % n_c) n_r * n_r else n_c)) (by
      intro k n hk hn
      rw [nBlk g] at hn
      obtain ⟨_, h5, _⟩ := k_strips' h.p_pos h.k_c_pos hk
          (nkm_p_l (M := M) (N := N) (m_r := m_r) (n_r := n_r) (m_c := m_c) (n_c := n_c))
          (nkm_k_last (n_c := n_c))
      rw [h5, sL_eq h.n_c_pos h.n_r_pos h.n_dvd hn]; rfl)
  rw [nBlk g] at e
  rw [e]
  apply flatMap_congr
  intro k hk
  rw [mem_range] at hk
  apply flatMap_congr
  intro n hn
  rw [mem_range] at hn
  obtain ⟨h3, h5, h6, h7⟩ := k_strips' h.p_pos h.k_c_pos hk
          (nkm_p_l (M := M) (N := N) (m_r := m_r) (n_r := n_r) (m_c := m_c) (n_c := n_c))
          (nkm_k_last (n_c := n_c))
  rw [h3]
  congr 1
  apply map_congr_left
  intro core hc
  rw [mem_range] at hc
  rw [h6 core hc, kX_eq, sL_eq h.n_c_pos h.n_r_pos h.n_dvd hn, first_of_blk h.n_c_pos, h7]
  unfold bStrip layN
  simp only [Loc.off]
  congr 2
  · ring
  · unfold kL; ring

theorem packB_n : IsPackB (layN M N K p m_r n_r (p * m_c) k_c n_c h.geoN)
    (phaseOps (pack_B_n_first ⟨.B, 0⟩ ⟨.Bp, 0⟩ N p n_r (dimsNKM M N K p m_r n_r m_c k_c n_c))) := by
  have g := h.geoN
  have e : phaseOps (pack_B_n_first ⟨.B, 0⟩ ⟨.Bp, 0⟩ N p n_r (dimsNKM M N K p m_r n_r m_c k_c n_c)) =
      (range (cdiv K (p * k_c))).flatMap fun k => (range (cdiv N n_c)).flatMap fun n =>
      (range (kU K p k_c k)).flatMap fun core =>
        bStrip (layN M N K p m_r n_r (p * m_c) k_c n_c h.geoN) n k core := by
    rw [packB_n_phases h, phaseOps_flatMap]
    apply flatMap_congr; intro k _
    rw [phaseOps_flatMap]
    apply flatMap_congr; intro m _
    simp [List.flatMap_def]
  rw [e]
  constructor
  · intro o
    simp only [mem_flatMap, mem_range]
    constructor
    · rintro ⟨k, hk, n, hn, core, hc, ho⟩; exact ⟨n, k, core, hn, hk, hc, ho⟩
    · rintro ⟨n, k, core, hn, hk, hc, ho⟩; exact ⟨k, hk, n, hn, core, hc, ho⟩
  · rw [Nat.mul_comm]
    apply SeqW.chop (Nat.mul_pos h.p_pos h.k_c_pos)
    intro k hk
    rw [Nat.mul_comm (chopLen K (p * k_c) k), ← nBlk g]
    apply SeqW.chop h.n_c_pos
    intro n hn
    rw [Nat.mul_comm (chopLen (padTo N n_c n_r) n_c n)]
    apply SeqW.chop (kX_pos h.p_pos h.k_c_pos hk)
    intro core hc
    have := bStrip_seqW g (layN M N K p m_r n_r (p * m_c) k_c n_c h.geoN) n k core
    rw [Nat.mul_comm (sL N n_c n_r n)] at this
    convert this using 1
    · simp only [layN, sL, kL]
      omega
    · rfl

omit h in
/-- The two offset formulas used for a block of C (`pack_C_single_buf_n_first` writes it at
`n*p*m_c*n_c_t`, everything else expects it at `n*m_c_t*n_c`) agree on every block. -/
def PackCAgree (M N p m_r n_r m_c n_c : Nat) : Prop :=
  ∀ n m, n < cdiv N n_c → m < cdiv M (p * m_c) →
    n * (p * m_c) * sL N n_c n_r n = n * n_c * sL M (p * m_c) m_r m

theorem packC_n_phases (hC : PackCAgree M N p m_r n_r m_c n_c) :
    pack_C_n_first ⟨.C, 0⟩ ⟨.Cp, 0⟩ M N p m_r n_r (dimsNKM M N K p m_r n_r m_c k_c n_c) =
    (range (cdiv M (p * m_c))).map fun m => (range (cdiv N n_c)).map fun n =>
        cStrip (layN M N K p m_r n_r (p * m_c) k_c n_c h.geoN) n m := by
  unfold pack_C_n_first
  simp only [nkm_Mb h, nkm_Nb h, nkm_n_pad, nkm_m_pad, nkm_n_c, nkm_m_c, nkm_n_c1, nkm_m_c1, nkm_N_padded]
  apply map_congr_left
  intro m hm
  rw [mem_range] at hm
  apply map_congr_left
  intro n hn
  rw [mem_range] at hn
  have hm1 := first_of_blk (T := M) (i := m) h.S_pos
  conv_lhs at hm1 => rw [← Nat.mul_assoc]
  rw [sL_eq h.n_c_pos h.n_r_pos h.n_dvd hn, sL_eq h.S_pos h.m_r_pos h.S_dvd hm,
    first_of_blk h.n_c_pos, hm1]
  have := hC n m hn hm
  unfold cStrip layN
  simp only [Loc.off]
  rw [← this]
  congr 2
  · ring
  · ring

theorem packC_n (hC : PackCAgree M N p m_r n_r m_c n_c) :
    IsPackC (layN M N K p m_r n_r (p * m_c) k_c n_c h.geoN)
    (phaseOps (pack_C_n_first ⟨.C, 0⟩ ⟨.Cp, 0⟩ M N p m_r n_r (dimsNKM M N K p m_r n_r m_c k_c n_c))) := by
  have g := h.geoN
  have e : phaseOps (pack_C_n_first ⟨.C, 0⟩ ⟨.Cp, 0⟩ M N p m_r n_r (dimsNKM M N K p m_r n_r m_c k_c n_c)) =
      (range (cdiv M (p * m_c))).flatMap fun m => (range (cdiv N n_c)).flatMap fun n =>
        cStrip (layN M N K p m_r n_r (p * m_c) k_c n_c h.geoN) n m := by
    rw [packC_n_phases h hC, phaseOps_map]
    apply flatMap_congr; intro k _
    simp [List.flatMap_def]
  rw [e]
  constructor
  · intro o
    simp only [mem_flatMap, mem_range]
    constructor
    · rintro ⟨m, hm, n, hn, ho⟩; exact ⟨n, m, hn, hm, ho⟩
    · rintro ⟨n, m, hn, hm, ho⟩; exact ⟨m, hm, n, hn, ho⟩
  · rw [← mBlk g]
    apply SeqW.chop h.S_pos
    intro m hm
    rw [Nat.mul_comm (chopLen (padTo M (p * m_c) m_r) (p * m_c) m), ← nBlk g]
    apply SeqW.chop h.n_c_pos
    intro n hn
    have := cStrip_seqW g (layN M N K p m_r n_r (p * m_c) k_c n_c h.geoN) n m
    rw [Nat.mul_comm (sL M (p * m_c) m_r m)] at this
    convert this using 1
    · simp only [layN, sL]
      omega
    · rfl

theorem unpackC_n_phases : unpack_C_n_first ⟨.C, 0⟩ ⟨.Cp, 0⟩ M N p m_r n_r (dimsNKM M N K p m_r n_r m_c k_c n_c) =
      (range (cdiv M (p * m_c))).map fun m => (range (cdiv N n_c)).map fun n =>
        uStrip (layN M N K p m_r n_r (p * m_c) k_c n_c h.geoN) n m := by
  unfold unpack_C_n_first
  simp only [nkm_Mb h, nkm_Nb h, nkm_n_pad, nkm_m_pad, nkm_n_c, nkm_m_c, nkm_n_c1, nkm_m_c1,
    nkm_N_padded]
  apply map_congr_left
  intro m hm
  rw [mem_range] at hm
  apply map_congr_left
  intro n hn
  rw [mem_range] at hn
  have hm1 := first_of_blk (T := M) (i := m) h.S_pos
  conv_lhs at hm1 => rw [← Nat.mul_assoc]
  rw [sL_eq h.n_c_pos h.n_r_pos h.n_dvd hn, sL_eq h.S_pos h.m_r_pos h.S_dvd hm,
    first_of_blk h.n_c_pos, hm1]
  unfold uStrip layN
  simp only [Loc.off]
  congr 2
  · ring
  · ring

theorem unpackC_n : IsUnpackC (layN M N K p m_r n_r (p * m_c) k_c n_c h.geoN)
    (unpack_C_n_first ⟨.C, 0⟩ ⟨.Cp, 0⟩ M N p m_r n_r (dimsNKM M N K p m_r n_r m_c k_c n_c)) := by
  rw [unpackC_n_phases h]
  constructor
  · intro ts hts
    obtain ⟨n, _, rfl⟩ := mem_map.1 hts
    apply raceFree_map
    intro i j _ _ hne o ho o' ho'
    exact uStrip_noConflict h.geoN (Or.inl hne) o ho o' ho'
  · intro o
    rw [phaseOps_map]
    simp only [mem_flatMap, mem_flatten, mem_map, mem_range]
    constructor
    · rintro ⟨m, hm, t, ⟨n, hn, rfl⟩, ho⟩; exact ⟨n, m, hn, hm, ho⟩
    · rintro ⟨n, m, hn, hm, ho⟩; exact ⟨m, hm, _, ⟨n, hn, rfl⟩, ho⟩

omit h in
/-- Block products in program order, N-first. -/
def blocksNKM (Mb Kb Nb : Nat) : List (Nat × Nat × Nat × Nat) :=
  (range Mb).flatMap fun m => (serp (m % 2 != 0) Kb).flatMap fun k => (range Nb).map fun i =>
    (i, serpBlk (kDesc m k) Nb i, k, m)

variable {kd : KDim} (hk : kd.Fits m_r n_r)
include hk

omit hk in
/-- The schedule, with the block of each task. -/
theorem schedN_eq : schedule_NKM kd ⟨.Ap, 0⟩ ⟨.Bp, 0⟩ ⟨.Cp, 0⟩ K p m_r n_r (dimsNKM M N K p m_r n_r m_c k_c n_c) =
    (range (cdiv M (p * m_c))).flatMap fun m => (serp (m % 2 != 0) (cdiv K (p * k_c))).map fun k =>
      (range (cdiv N n_c)).map fun i => blkTask kd (layN M N K p m_r n_r (p * m_c) k_c n_c h.geoN) i
        (serpBlk (kDesc m k) (cdiv N n_c) i) k m := by
  unfold schedule_NKM
  simp only [nkm_Mb h, nkm_Nb h, nkm_Kb h, nkm_n_pad, nkm_m_pad, nkm_k_pad, nkm_n_c, nkm_m_c, nkm_k_c,
    nkm_n_c1, nkm_m_c1, nkm_N_padded, nkm_k_rem, nkm_k_c1]
  apply flatMap_congr
  intro m hm
  rw [mem_range] at hm
  apply map_congr_left
  intro k hkk
  rw [mem_serp] at hkk
  apply map_congr_left
  intro i hi
  rw [mem_range] at hi
  have hn : (if (if m % 2 ≠ 0 then if k % 2 ≠ 0 then false else true
      else if k % 2 ≠ 0 then true else false) = true then cdiv N n_c - 1 - i else i) =
      serpBlk (kDesc m k) (cdiv N n_c) i := rfl
  rw [hn]
  have hnlt := serpBlk_lt (desc := kDesc m k) hi
  generalize serpBlk (kDesc m k) (cdiv N n_c) i = n at hnlt
  rw [sL_eq h.n_c_pos h.n_r_pos h.n_dvd hnlt, sL_eq h.S_pos h.m_r_pos h.S_dvd hm]
  obtain ⟨h3, h5, h6, h7⟩ := k_strips' h.p_pos h.k_c_pos hkk
        (nkm_p_l (M := M) (N := N) (m_r := m_r) (n_r := n_r) (m_c := m_c) (n_c := n_c))
        (nkm_k_last (n_c := n_c))
  unfold blkTask
  rw [h5, h3]
  apply flatMap_congr
  intro core hc
  rw [mem_range] at hc
  have h6' := h6 core hc
  rw [h6', kX_eq]
  unfold layN
  simp only [Loc.off]
  congr 2 <;> ring

theorem schedN : IsSched kd (layN M N K p m_r n_r (p * m_c) k_c n_c h.geoN)
    (fun _ m => serp (m % 2 != 0) (cdiv K (p * k_c)))
    (blocksNKM (cdiv M (p * m_c)) (cdiv K (p * k_c)) (cdiv N n_c))
    (schedule_NKM kd ⟨.Ap, 0⟩ ⟨.Bp, 0⟩ ⟨.Cp, 0⟩ K p m_r n_r (dimsNKM M N K p m_r n_r m_c k_c n_c)) := by
  have e := schedN_eq (kd := kd) (M := M) (N := N) (K := K) h
  have ht : phaseOps (schedule_NKM kd ⟨.Ap, 0⟩ ⟨.Bp, 0⟩ ⟨.Cp, 0⟩ K p m_r n_r
      (dimsNKM M N K p m_r n_r m_c k_c n_c)) =
      (blocksNKM (cdiv M (p * m_c)) (cdiv K (p * k_c)) (cdiv N n_c)).flatMap fun q =>
        blkTask kd (layN M N K p m_r n_r (p * m_c) k_c n_c h.geoN) q.1 q.2.1 q.2.2.1 q.2.2.2 := by
    rw [e, phaseOps_flatMap]
    unfold blocksNKM
    rw [flatMap_assoc]
    apply flatMap_congr; intro n _
    rw [phaseOps_map, flatMap_assoc]
    apply flatMap_congr; intro k _
    rw [flatMap_map, List.flatMap_def]
  have hmem : ∀ q, q ∈ blocksNKM (cdiv M (p * m_c)) (cdiv K (p * k_c)) (cdiv N n_c) ↔
      ∃ m k i, m < cdiv M (p * m_c) ∧ k < cdiv K (p * k_c) ∧ i < cdiv N n_c ∧
        q = (i, serpBlk (kDesc m k) (cdiv N n_c) i, k, m) := by
    intro q
    unfold blocksNKM
    simp only [mem_flatMap, mem_map, mem_range, mem_serp]
    constructor
    · rintro ⟨n, hn, k, hkk, i, hi, rfl⟩; exact ⟨n, k, i, hn, hkk, hi, rfl⟩
    · rintro ⟨n, k, i, hn, hkk, hi, rfl⟩; exact ⟨n, hn, k, hkk, i, hi, rfl⟩
  refine ⟨?_, ?_, ht, ?_, ?_⟩
  · rw [e]
    intro ts hts
    obtain ⟨m, hm, hts⟩ := mem_flatMap.1 hts
    obtain ⟨k, _, rfl⟩ := mem_map.1 hts
    rw [mem_range] at hm
    apply raceFree_map
    intro i j hi hj hne o ho o' ho'
    exact blkTask_noConflict h.geoN hk _ (serpBlk_lt hi) hm (serpBlk_lt hj) hm hne
      (Or.inl fun e => hne (serpBlk_inj hi hj e)) o ho o' ho'
  · rw [e]
    intro ts hts t ht'
    obtain ⟨m, hm, hts⟩ := mem_flatMap.1 hts
    obtain ⟨k, hkk, rfl⟩ := mem_map.1 hts
    obtain ⟨i, hi, rfl⟩ := mem_map.1 ht'
    exact ⟨_, (hmem _).2 ⟨m, k, i, mem_range.1 hm, mem_serp.1 hkk, mem_range.1 hi, rfl⟩, rfl⟩
  · intro q hq
    obtain ⟨m, k, i, hm, hkk, hi, rfl⟩ := (hmem q).1 hq
    exact ⟨serpBlk_lt hi, hkk, hm⟩
  · intro n m hn hm
    unfold blocksNKM
    rw [flatMap_assoc, flatMap_single nodup_range (mem_range.2 hm)]
    · rw [flatMap_assoc]
      apply flatMap_congr
      intro k _
      rw [flatMap_map]
      obtain ⟨i, hi, hi'⟩ := serpBlk_surj (desc := kDesc m k) hn
      rw [flatMap_single nodup_range (mem_range.2 hi)]
      · simp [hi']
      · intro j hj hne
        rw [mem_range] at hj
        simp only [and_true]
        rw [if_neg]
        intro e'
        exact hne (serpBlk_inj hj hi (e'.trans hi'.symm))
    · intro m' _ hne
      rw [flatMap_eq_nil_iff]
      intro q hq
      obtain ⟨k, _, hq⟩ := mem_flatMap.1 hq
      obtain ⟨i, _, rfl⟩ := mem_map.1 hq
      simp [hne]

end
end Cake
