/-
M-first packing, schedule and unpacking are instances of the shared-C scheme.
-/
import Verif.Proofs.PackSh
import Verif.Model.MFirst

namespace Cake
open List

theorem TileOK.geoM {p m_r n_r m_c k_c n_c : Nat} (h : TileOK p m_r n_r m_c k_c n_c) :
    GeoOK p m_r n_r m_c k_c n_c :=
  ⟨h.p_pos, h.m_r_pos, h.n_r_pos, h.m_c_pos, h.k_c_pos, h.n_c_pos, h.m_dvd, h.n_dvd⟩

theorem TileOK.geoN {p m_r n_r m_c k_c n_c : Nat} (h : TileOK p m_r n_r m_c k_c n_c) :
    GeoOK p m_r n_r (p * m_c) k_c n_c :=
  ⟨h.p_pos, h.m_r_pos, h.n_r_pos, h.S_pos, h.k_c_pos, h.n_c_pos, h.S_dvd, h.n_dvd⟩

/-- `n1`/`m1` of the code is the first row/column of the block. -/
theorem first_of_blk {T S i : Nat} (hS : 0 < S) :
    (if (i == cdiv T S - 1 && T % S != 0) = true then T - T % S else i * S) = i * S := by
  split
  · rename_i hl
    simp only [Bool.and_eq_true, beq_iff_eq] at hl
    rw [sub_mod_eq]
    have := cdiv_eq_div_add T S hS
    rw [hl.2, Bool.toNat_true] at this
    have e : i = T / S := by
      rw [hl.1, ← this]; rfl
    rw [e]
  · rfl

theorem sL_eq {T S u i : Nat} (hS : 0 < S) (hu : 0 < u) (hd : u ∣ S) (hi : i < cdiv T S) :
    (if (i == cdiv T S - 1 && T % S != 0) = true then cdiv (T % S) u * u else S) = sL T S u i :=
  (chopLen_padTo hS hu hd hi).symm

section
variable {M N K p m_r n_r m_c k_c n_c : Nat} (h : TileOK p m_r n_r m_c k_c n_c)

theorem mkn_Mb (h : TileOK p m_r n_r m_c k_c n_c) :
    (dimsMKN M N K p m_r n_r m_c k_c n_c).Mb = cdiv M m_c := cdiv_eq_div_add _ _ h.m_c_pos
theorem mkn_Nb (h : TileOK p m_r n_r m_c k_c n_c) :
    (dimsMKN M N K p m_r n_r m_c k_c n_c).Nb = cdiv N n_c := cdiv_eq_div_add _ _ h.n_c_pos
theorem mkn_Kb (h : TileOK p m_r n_r m_c k_c n_c) :
    (dimsMKN M N K p m_r n_r m_c k_c n_c).Kb = cdiv K (p * k_c) :=
  cdiv_eq_div_add _ _ (Nat.mul_pos h.p_pos h.k_c_pos)
theorem mkn_M_padded : (dimsMKN M N K p m_r n_r m_c k_c n_c).M_padded = padTo M m_c m_r := rfl
theorem mkn_N_padded : (dimsMKN M N K p m_r n_r m_c k_c n_c).N_padded = padTo N n_c n_r := by
  simp only [dimsMKN, padTo, sub_mod_eq]
theorem mkn_m_pad : (dimsMKN M N K p m_r n_r m_c k_c n_c).m_pad = (M % m_c != 0) := rfl
theorem mkn_n_pad : (dimsMKN M N K p m_r n_r m_c k_c n_c).n_pad = (N % n_c != 0) := rfl
theorem mkn_k_pad : (dimsMKN M N K p m_r n_r m_c k_c n_c).k_pad = (K % (p * k_c) != 0) := rfl
theorem mkn_m_c : (dimsMKN M N K p m_r n_r m_c k_c n_c).m_c = m_c := rfl
theorem mkn_n_c : (dimsMKN M N K p m_r n_r m_c k_c n_c).n_c = n_c := rfl
theorem mkn_k_c : (dimsMKN M N K p m_r n_r m_c k_c n_c).k_c = k_c := rfl
theorem mkn_m_c1 : (dimsMKN M N K p m_r n_r m_c k_c n_c).m_c1 = cdiv (M % m_c) m_r * m_r := rfl
theorem mkn_n_c1 : (dimsMKN M N K p m_r n_r m_c k_c n_c).n_c1 = cdiv (N % n_c) n_r * n_r := rfl
theorem mkn_k_rem : (dimsMKN M N K p m_r n_r m_c k_c n_c).k_rem = K % (p * k_c) := rfl
theorem mkn_k_c1 : (dimsMKN M N K p m_r n_r m_c k_c n_c).k_c1 = cdiv (K % (p * k_c)) p := rfl
theorem mkn_p_l : (dimsMKN M N K p m_r n_r m_c k_c n_c).p_l =
  if cdiv (K % (p * k_c)) p ≠ 0 then cdiv (K % (p * k_c)) (cdiv (K % (p * k_c)) p) else 0 := rfl
theorem mkn_k_last : (dimsMKN M N K p m_r n_r m_c k_c n_c).k_c1_last_core =
  K % (p * k_c) - cdiv (K % (p * k_c)) p * ((if cdiv (K % (p * k_c)) p ≠ 0 then
    cdiv (K % (p * k_c)) (cdiv (K % (p * k_c)) p) else 0) - 1) := rfl

theorem kX_eq {k : Nat} : (if (k == cdiv K (p * k_c) - 1 && K % (p * k_c) != 0) = true then
    cdiv (K % (p * k_c)) p else k_c) = kX K p k_c k := rfl

/-- `k_strips` with the two fields of the block record left opaque. -/
theorem k_strips' {K p k_c k pl kl : Nat} (hp : 0 < p) (hkc : 0 < k_c) (hk : k < cdiv K (p * k_c))
    (hpl : pl = if cdiv (K % (p * k_c)) p ≠ 0 then cdiv (K % (p * k_c)) (cdiv (K % (p * k_c)) p) else 0)
    (hkl : kl = K % (p * k_c) - cdiv (K % (p * k_c)) p * (pl - 1)) :
    (if (k == cdiv K (p * k_c) - 1 && K % (p * k_c) != 0) = true then pl else p) = kU K p k_c k ∧
    (if (k == cdiv K (p * k_c) - 1 && K % (p * k_c) != 0) = true then K % (p * k_c)
      else (if (k == cdiv K (p * k_c) - 1 && K % (p * k_c) != 0) = true then pl else p) * k_c) = kL K p k_c k ∧
    (∀ core, core < kU K p k_c k →
      (if (k == cdiv K (p * k_c) - 1 && K % (p * k_c) != 0) = true then
        (if core = pl - 1 then kl else cdiv (K % (p * k_c)) p) else k_c) = kT K p k_c k core) ∧
    ∀ core, ((k == cdiv K (p * k_c) - 1 && K % (p * k_c) != 0) && core == pl - 1) =
      kPad K p k_c k core := by
  subst hpl hkl
  obtain ⟨_, _, h3, _, h5, h6⟩ := k_strips hp hkc hk
  refine ⟨h3, h5, h6, ?_⟩
  intro core
  unfold kPad
  cases hl : (k == cdiv K (p * k_c) - 1 && K % (p * k_c) != 0) with
  | false => rfl
  | true =>
    rw [hl, if_pos rfl] at h3
    rw [h3]

include h

theorem packA_m_phases : pack_A_m_first ⟨.A, 0⟩ ⟨.Ap, 0⟩ M K p m_r (dimsMKN M N K p m_r n_r m_c k_c n_c) =
    (range (cdiv K (p * k_c))).flatMap fun k => (range (cdiv M m_c)).flatMap fun m =>
      [(range (kU K p k_c k)).map fun core =>
        aStrip (layM M N K p m_r n_r m_c k_c n_c h.geoM) k m core] := by
  have g := h.geoM
  have hS : 0 < p * k_c := Nat.mul_pos h.p_pos h.k_c_pos
  unfold pack_A_m_first
  simp only [mkn_Mb h, mkn_Kb h, mkn_m_pad, mkn_k_pad, mkn_m_c, mkn_k_c, mkn_m_c1, mkn_k_rem, mkn_k_c1]
  have e := loop_chop2 (γ := List (List Op)) (T := K) (T' := padTo M m_c m_r) hS h.m_c_pos (fun k m =>
    (if (k == cdiv K (p * k_c) - 1 && K % (p * k_c) != 0) = true then K % (p * k_c) else
      (if (k == cdiv K (p * k_c) - 1 && K % (p * k_c) != 0) = true then
        (dimsMKN M N K p m_r n_r m_c k_c n_c).p_l else p) * k_c) *
    (if (m == cdiv M m_c - 1 && M % m_c != 0) = true then cdiv (M % m_c) m_r * m_r else m_c)) (by
      intro k m hk hm
      rw [mBlk g] at hm
      obtain ⟨_, h5, _⟩ := k_strips' h.p_pos h.k_c_pos hk
        (mkn_p_l (M := M) (N := N) (m_r := m_r) (n_r := n_r) (m_c := m_c) (n_c := n_c)) rfl
      rw [h5, sL_eq h.m_c_pos h.m_r_pos h.m_dvd hm]; rfl)
  rw [mBlk g] at e
  rw [e]
  apply flatMap_congr
  intro k hk
  rw [mem_range] at hk
  apply flatMap_congr
  intro m hm
  rw [mem_range] at hm
  obtain ⟨h3, h5, h6, h7⟩ := k_strips' h.p_pos h.k_c_pos hk
    (mkn_p_l (M := M) (N := N) (m_r := m_r) (n_r := n_r) (m_c := m_c) (n_c := n_c)) (mkn_k_last (n_c := n_c))
  rw [h3]
  congr 1
  apply map_congr_left
  intro core hc
  rw [mem_range] at hc
  rw [h6 core hc, kX_eq, sL_eq h.m_c_pos h.m_r_pos h.m_dvd hm]
  unfold aStrip layM
  simp only [Loc.off]
  congr 2
  · ring
  · unfold kL; ring

theorem packA_m : IsPackA (layM M N K p m_r n_r m_c k_c n_c h.geoM)
    (phaseOps (pack_A_m_first ⟨.A, 0⟩ ⟨.Ap, 0⟩ M K p m_r (dimsMKN M N K p m_r n_r m_c k_c n_c))) := by
  have g := h.geoM
  have e : phaseOps (pack_A_m_first ⟨.A, 0⟩ ⟨.Ap, 0⟩ M K p m_r (dimsMKN M N K p m_r n_r m_c k_c n_c)) =
      (range (cdiv K (p * k_c))).flatMap fun k => (range (cdiv M m_c)).flatMap fun m =>
      (range (kU K p k_c k)).flatMap fun core =>
        aStrip (layM M N K p m_r n_r m_c k_c n_c h.geoM) k m core := by
    rw [packA_m_phases h, phaseOps_flatMap]
    apply flatMap_congr; intro k _
    rw [phaseOps_flatMap]
    apply flatMap_congr; intro m _
    simp [List.flatMap_def]
  rw [e]
  constructor
  · intro o
    simp only [mem_flatMap, mem_range]
    constructor
    · rintro ⟨k, hk, m, hm, core, hc, ho⟩; exact ⟨k, m, core, hk, hm, hc, ho⟩
    · rintro ⟨k, m, core, hk, hm, hc, ho⟩; exact ⟨k, hk, m, hm, core, hc, ho⟩
  · rw [Nat.mul_comm]
    apply SeqW.chop (Nat.mul_pos h.p_pos h.k_c_pos)
    intro k hk
    rw [Nat.mul_comm (chopLen K (p * k_c) k), ← mBlk g]
    apply SeqW.chop h.m_c_pos
    intro m hm
    rw [Nat.mul_comm (chopLen (padTo M m_c m_r) m_c m)]
    apply SeqW.chop (kX_pos h.p_pos h.k_c_pos hk)
    intro core hc
    have := aStrip_seqW g (layM M N K p m_r n_r m_c k_c n_c h.geoM) k m core
    rw [Nat.mul_comm (sL M m_c m_r m)] at this
    convert this using 1
    · simp only [layM, sL, kL]
      omega
    · rfl

theorem packB_m_phases : pack_B_m_first ⟨.B, 0⟩ ⟨.Bp, 0⟩ N p n_r (dimsMKN M N K p m_r n_r m_c k_c n_c) =
    (range (cdiv N n_c)).flatMap fun n => (range (cdiv K (p * k_c))).flatMap fun k =>
      [(range (kU K p k_c k)).map fun core =>
        bStrip (layM M N K p m_r n_r m_c k_c n_c h.geoM) n k core] := by
  have g := h.geoM
  have hS : 0 < p * k_c := Nat.mul_pos h.p_pos h.k_c_pos
  unfold pack_B_m_first
  simp only [mkn_Nb h, mkn_Kb h, mkn_n_pad, mkn_k_pad, mkn_n_c, mkn_k_c, mkn_n_c1, mkn_k_rem, mkn_k_c1]
  have e := loop_chop2 (γ := List (List Op)) (T := padTo N n_c n_r) (T' := K) h.n_c_pos hS (fun n k =>
    (if (k == cdiv K (p * k_c) - 1 && K % (p * k_c) != 0) = true then K % (p * k_c) else
      (if (k == cdiv K (p * k_c) - 1 && K % (p * k_c) != 0) = true then
        (dimsMKN M N K p m_r n_r m_c k_c n_c).p_l else p) * k_c) *
    (if (n == cdiv N n_c - 1 && N % n_c != 0) = true then cdiv (N % n_c) n_r * n_r else n_c)) (by
      intro n k hn hk
      rw [nBlk g] at hn
      obtain ⟨_, h5, _⟩ := k_strips' h.p_pos h.k_c_pos hk
        (mkn_p_l (M := M) (N := N) (m_r := m_r) (n_r := n_r) (m_c := m_c) (n_c := n_c)) rfl
      rw [h5, sL_eq h.n_c_pos h.n_r_pos h.n_dvd hn, Nat.mul_comm]; rfl)
  rw [nBlk g] at e
  rw [e]
  apply flatMap_congr
  intro n hn
  rw [mem_range] at hn
  apply flatMap_congr
  intro k hk
  rw [mem_range] at hk
  obtain ⟨h3, h5, h6, h7⟩ := k_strips' h.p_pos h.k_c_pos hk
    (mkn_p_l (M := M) (N := N) (m_r := m_r) (n_r := n_r) (m_c := m_c) (n_c := n_c)) (mkn_k_last (n_c := n_c))
  rw [h3]
  congr 1
  apply map_congr_left
  intro core hc
  rw [mem_range] at hc
  rw [h6 core hc, kX_eq, sL_eq h.n_c_pos h.n_r_pos h.n_dvd hn, first_of_blk h.n_c_pos, h7]
  unfold bStrip layM
  simp only [Loc.off]
  congr 2
  · ring
  · unfold sL; ring

theorem packB_m : IsPackB (layM M N K p m_r n_r m_c k_c n_c h.geoM)
    (phaseOps (pack_B_m_first ⟨.B, 0⟩ ⟨.Bp, 0⟩ N p n_r (dimsMKN M N K p m_r n_r m_c k_c n_c))) := by
  have g := h.geoM
  have e : phaseOps (pack_B_m_first ⟨.B, 0⟩ ⟨.Bp, 0⟩ N p n_r (dimsMKN M N K p m_r n_r m_c k_c n_c)) =
      (range (cdiv N n_c)).flatMap fun n => (range (cdiv K (p * k_c))).flatMap fun k =>
      (range (kU K p k_c k)).flatMap fun core =>
        bStrip (layM M N K p m_r n_r m_c k_c n_c h.geoM) n k core := by
    rw [packB_m_phases h, phaseOps_flatMap]
    apply flatMap_congr; intro k _
    rw [phaseOps_flatMap]
    apply flatMap_congr; intro m _
    simp [List.flatMap_def]
  rw [e]
  constructor
  · intro o
    simp only [mem_flatMap, mem_range]
    constructor
    · rintro ⟨n, hn, k, hk, core, hc, ho⟩; exact ⟨n, k, core, hn, hk, hc, ho⟩
    · rintro ⟨n, k, core, hn, hk, hc, ho⟩; exact ⟨n, hn, k, hk, core, hc, ho⟩
  · rw [← nBlk g]
    apply SeqW.chop h.n_c_pos
    intro n hn
    rw [Nat.mul_comm (chopLen (padTo N n_c n_r) n_c n)]
    apply SeqW.chop (Nat.mul_pos h.p_pos h.k_c_pos)
    intro k hk
    apply SeqW.chop (kX_pos h.p_pos h.k_c_pos hk)
    intro core hc
    have := bStrip_seqW g (layM M N K p m_r n_r m_c k_c n_c h.geoM) n k core
    rw [Nat.mul_comm (sL N n_c n_r n)] at this
    convert this using 1
    · simp only [layM, sL]
      omega
    · rfl

theorem packC_m_phases : pack_C_m_first ⟨.C, 0⟩ ⟨.Cp, 0⟩ M N m_r n_r (dimsMKN M N K p m_r n_r m_c k_c n_c) =
    (range (cdiv N n_c)).map fun n => (range (cdiv M m_c)).map fun m =>
        cStrip (layM M N K p m_r n_r m_c k_c n_c h.geoM) n m := by
  unfold pack_C_m_first
  simp only [mkn_Mb h, mkn_Nb h, mkn_n_pad, mkn_m_pad, mkn_n_c, mkn_m_c, mkn_n_c1, mkn_m_c1, mkn_M_padded]
  apply map_congr_left
  intro n hn
  rw [mem_range] at hn
  apply map_congr_left
  intro m hm
  rw [mem_range] at hm
  rw [sL_eq h.n_c_pos h.n_r_pos h.n_dvd hn, sL_eq h.m_c_pos h.m_r_pos h.m_dvd hm,
    first_of_blk h.n_c_pos, first_of_blk h.m_c_pos]
  unfold cStrip layM
  simp only [Loc.off]
  congr 2
  · ring
  · ring

theorem packC_m : IsPackC (layM M N K p m_r n_r m_c k_c n_c h.geoM)
    (phaseOps (pack_C_m_first ⟨.C, 0⟩ ⟨.Cp, 0⟩ M N m_r n_r (dimsMKN M N K p m_r n_r m_c k_c n_c))) := by
  have g := h.geoM
  have e : phaseOps (pack_C_m_first ⟨.C, 0⟩ ⟨.Cp, 0⟩ M N m_r n_r (dimsMKN M N K p m_r n_r m_c k_c n_c)) =
      (range (cdiv N n_c)).flatMap fun n => (range (cdiv M m_c)).flatMap fun m =>
        cStrip (layM M N K p m_r n_r m_c k_c n_c h.geoM) n m := by
    rw [packC_m_phases h, phaseOps_map]
    apply flatMap_congr; intro k _
    simp [List.flatMap_def]
  rw [e]
  constructor
  · intro o
    simp only [mem_flatMap, mem_range]
    constructor
    · rintro ⟨n, hn, m, hm, ho⟩; exact ⟨n, m, hn, hm, ho⟩
    · rintro ⟨n, m, hn, hm, ho⟩; exact ⟨n, hn, m, hm, ho⟩
  · rw [← nBlk g, Nat.mul_comm]
    apply SeqW.chop h.n_c_pos
    intro n hn
    rw [Nat.mul_comm (chopLen (padTo N n_c n_r) n_c n), ← mBlk g]
    apply SeqW.chop h.m_c_pos
    intro m hm
    have := cStrip_seqW g (layM M N K p m_r n_r m_c k_c n_c h.geoM) n m
    convert this using 1
    · simp only [layM, sL]
      omega
    · rfl

theorem unpackC_m_phases : unpack_C_m_first ⟨.C, 0⟩ ⟨.Cp, 0⟩ M N m_r n_r (dimsMKN M N K p m_r n_r m_c k_c n_c) =
      (range (cdiv N n_c)).map fun n => (range (cdiv M m_c)).map fun m =>
        uStrip (layM M N K p m_r n_r m_c k_c n_c h.geoM) n m := by
  unfold unpack_C_m_first
  simp only [mkn_Mb h, mkn_Nb h, mkn_n_pad, mkn_m_pad, mkn_n_c, mkn_m_c, mkn_n_c1, mkn_m_c1,
    mkn_M_padded]
  apply map_congr_left
  intro n hn
  rw [mem_range] at hn
  apply map_congr_left
  intro m hm
  rw [mem_range] at hm
  rw [sL_eq h.n_c_pos h.n_r_pos h.n_dvd hn, sL_eq h.m_c_pos h.m_r_pos h.m_dvd hm,
    first_of_blk h.n_c_pos, first_of_blk h.m_c_pos]
  unfold uStrip layM
  simp only [Loc.off]
  congr 2
  · ring
  · ring

theorem unpackC_m : IsUnpackC (layM M N K p m_r n_r m_c k_c n_c h.geoM)
    (unpack_C_m_first ⟨.C, 0⟩ ⟨.Cp, 0⟩ M N m_r n_r (dimsMKN M N K p m_r n_r m_c k_c n_c)) := by
  rw [unpackC_m_phases h]
  constructor
  · intro ts hts
    obtain ⟨n, _, rfl⟩ := mem_map.1 hts
    apply raceFree_map
    intro i j _ _ hne o ho o' ho'
    exact uStrip_noConflict h.geoM (Or.inr hne) o ho o' ho'
  · intro o
    rw [phaseOps_map]
    simp only [mem_flatMap, mem_flatten, mem_map, mem_range]
    constructor
    · rintro ⟨n, hn, t, ⟨m, hm, rfl⟩, ho⟩; exact ⟨n, m, hn, hm, ho⟩
    · rintro ⟨n, m, hn, hm, ho⟩; exact ⟨n, hn, _, ⟨m, hm, rfl⟩, ho⟩

omit h in
/-- Block handled by iteration `i` of a parallel loop that may run backwards. -/
def serpBlk (desc : Bool) (b i : Nat) : Nat := if desc then b - 1 - i else i

omit h in
theorem serpBlk_lt {desc : Bool} {b i : Nat} (hi : i < b) : serpBlk desc b i < b := by
  unfold serpBlk; split <;> omega

omit h in
theorem serpBlk_inj {desc : Bool} {b i j : Nat} (hi : i < b) (hj : j < b)
    (e : serpBlk desc b i = serpBlk desc b j) : i = j := by
  unfold serpBlk at e; split at e <;> omega

omit h in
theorem serpBlk_surj {desc : Bool} {b j : Nat} (hj : j < b) : ∃ i, i < b ∧ serpBlk desc b i = j := by
  unfold serpBlk
  cases desc
  · exact ⟨j, hj, rfl⟩
  · refine ⟨b - 1 - j, by omega, ?_⟩
    simp only [if_true]; omega

omit h in
/-- Block products in program order, M-first. -/
def blocksMKN (Nb Kb Mb : Nat) : List (Nat × Nat × Nat × Nat) :=
  (range Nb).flatMap fun n => (serp (n % 2 != 0) Kb).flatMap fun k => (range Mb).map fun i =>
    (i, n, k, serpBlk (kDesc n k) Mb i)

variable {kd : KDim} (hk : kd.Fits m_r n_r)
include hk

omit hk in
/-- The schedule, with the block of each task. -/
theorem schedM_eq : schedule_MKN kd ⟨.Ap, 0⟩ ⟨.Bp, 0⟩ ⟨.Cp, 0⟩ K p m_r n_r (dimsMKN M N K p m_r n_r m_c k_c n_c) =
    (range (cdiv N n_c)).flatMap fun n => (serp (n % 2 != 0) (cdiv K (p * k_c))).map fun k =>
      (range (cdiv M m_c)).map fun i => blkTask kd (layM M N K p m_r n_r m_c k_c n_c h.geoM) i n k
        (serpBlk (kDesc n k) (cdiv M m_c) i) := by
  unfold schedule_MKN
  simp only [mkn_Mb h, mkn_Nb h, mkn_Kb h, mkn_n_pad, mkn_m_pad, mkn_k_pad, mkn_n_c, mkn_m_c, mkn_k_c,
    mkn_n_c1, mkn_m_c1, mkn_M_padded, mkn_k_rem, mkn_k_c1]
  apply flatMap_congr
  intro n hn
  rw [mem_range] at hn
  apply map_congr_left
  intro k hkk
  rw [mem_serp] at hkk
  apply map_congr_left
  intro i hi
  rw [mem_range] at hi
  have hm : (if (if n % 2 ≠ 0 then if k % 2 ≠ 0 then false else true
      else if k % 2 ≠ 0 then true else false) = true then cdiv M m_c - 1 - i else i) =
      serpBlk (kDesc n k) (cdiv M m_c) i := rfl
  rw [hm]
  have hmlt := serpBlk_lt (desc := kDesc n k) hi
  generalize serpBlk (kDesc n k) (cdiv M m_c) i = m at hmlt
  rw [sL_eq h.n_c_pos h.n_r_pos h.n_dvd hn, sL_eq h.m_c_pos h.m_r_pos h.m_dvd hmlt]
  obtain ⟨h3, h5, h6, h7⟩ := k_strips' h.p_pos h.k_c_pos hkk
      (mkn_p_l (M := M) (N := N) (m_r := m_r) (n_r := n_r) (m_c := m_c) (n_c := n_c)) (mkn_k_last (n_c := n_c))
  unfold blkTask
  rw [h5, h3]
  apply flatMap_congr
  intro core hc
  rw [mem_range] at hc
  have h6' := h6 core hc
  rw [h6', kX_eq]
  unfold layM
  simp only [Loc.off]
  congr 2 <;> ring

theorem schedM : IsSched kd (layM M N K p m_r n_r m_c k_c n_c h.geoM)
    (fun n _ => serp (n % 2 != 0) (cdiv K (p * k_c)))
    (blocksMKN (cdiv N n_c) (cdiv K (p * k_c)) (cdiv M m_c))
    (schedule_MKN kd ⟨.Ap, 0⟩ ⟨.Bp, 0⟩ ⟨.Cp, 0⟩ K p m_r n_r (dimsMKN M N K p m_r n_r m_c k_c n_c)) := by
  have e := schedM_eq (kd := kd) (M := M) (N := N) (K := K) h
  have ht : phaseOps (schedule_MKN kd ⟨.Ap, 0⟩ ⟨.Bp, 0⟩ ⟨.Cp, 0⟩ K p m_r n_r
      (dimsMKN M N K p m_r n_r m_c k_c n_c)) =
      (blocksMKN (cdiv N n_c) (cdiv K (p * k_c)) (cdiv M m_c)).flatMap fun q =>
        blkTask kd (layM M N K p m_r n_r m_c k_c n_c h.geoM) q.1 q.2.1 q.2.2.1 q.2.2.2 := by
    rw [e, phaseOps_flatMap]
    unfold blocksMKN
    rw [flatMap_assoc]
    apply flatMap_congr; intro n _
    rw [phaseOps_map, flatMap_assoc]
    apply flatMap_congr; intro k _
    rw [flatMap_map, List.flatMap_def]
  have hmem : ∀ q, q ∈ blocksMKN (cdiv N n_c) (cdiv K (p * k_c)) (cdiv M m_c) ↔
      ∃ n k i, n < cdiv N n_c ∧ k < cdiv K (p * k_c) ∧ i < cdiv M m_c ∧
        q = (i, n, k, serpBlk (kDesc n k) (cdiv M m_c) i) := by
    intro q
    unfold blocksMKN
    simp only [mem_flatMap, mem_map, mem_range, mem_serp]
    constructor
    · rintro ⟨n, hn, k, hkk, i, hi, rfl⟩; exact ⟨n, k, i, hn, hkk, hi, rfl⟩
    · rintro ⟨n, k, i, hn, hkk, hi, rfl⟩; exact ⟨n, hn, k, hkk, i, hi, rfl⟩
  refine ⟨?_, ?_, ht, ?_, ?_⟩
  · rw [e]
    intro ts hts
    obtain ⟨n, hn, hts⟩ := mem_flatMap.1 hts
    obtain ⟨k, _, rfl⟩ := mem_map.1 hts
    rw [mem_range] at hn
    apply raceFree_map
    intro i j hi hj hne o ho o' ho'
    exact blkTask_noConflict h.geoM hk _ hn (serpBlk_lt hi) hn (serpBlk_lt hj) hne
      (Or.inr fun e => hne (serpBlk_inj hi hj e)) o ho o' ho'
  · rw [e]
    intro ts hts t ht'
    obtain ⟨n, hn, hts⟩ := mem_flatMap.1 hts
    obtain ⟨k, hkk, rfl⟩ := mem_map.1 hts
    obtain ⟨i, hi, rfl⟩ := mem_map.1 ht'
    exact ⟨_, (hmem _).2 ⟨n, k, i, mem_range.1 hn, mem_serp.1 hkk, mem_range.1 hi, rfl⟩, rfl⟩
  · intro q hq
    obtain ⟨n, k, i, hn, hkk, hi, rfl⟩ := (hmem q).1 hq
    exact ⟨hn, hkk, serpBlk_lt hi⟩
  · intro n m hn hm
    unfold blocksMKN
    rw [flatMap_assoc, flatMap_single nodup_range (mem_range.2 hn)]
    · rw [flatMap_assoc]
      apply flatMap_congr
      intro k _
      rw [flatMap_map]
      obtain ⟨i, hi, hi'⟩ := serpBlk_surj (desc := kDesc n k) hm
      rw [flatMap_single nodup_range (mem_range.2 hi)]
      · simp [hi']
      · intro j hj hne
        rw [mem_range] at hj
        simp only [true_and]
        rw [if_neg]
        intro e'
        exact hne (serpBlk_inj hj hi (e'.trans hi'.symm))
    · intro n' _ hne
      rw [flatMap_eq_nil_iff]
      intro q hq
      obtain ⟨k, _, hq⟩ := mem_flatMap.1 hq
      obtain ⟨i, _, rfl⟩ := mem_map.1 hq
      simp [hne]

end
end Cake
