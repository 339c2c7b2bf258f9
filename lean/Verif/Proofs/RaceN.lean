/-
N-first with `beta ≠ 0`: exactly when packing C is free of data races.
-/
import Verif.Proofs.PackCN

namespace Cake
open List

theorem loopS_all {σ β : Type _} {P : Op → Prop} {f : β → σ → List Op × σ} (hf : ∀ b s, ∀ o ∈ (f b s).1, P o) :
    ∀ (l : List β) (s : σ), ∀ o ∈ (loopS l f s).1, P o := by
  intro l
  induction l with
  | nil => intro s o ho; simp [loopS] at ho
  | cons b l ih =>
    intro s o ho
    simp only [loopS, mem_append] at ho
    rcases ho with ho | ho
    · exact hf _ _ o ho
    · exact ih _ o ho

theorem packObC_reads {C C_p : Loc} {M N m1 n1 m2 m_c n_c m_r n_r : Nat} {pm pn : Bool} :
    ∀ o ∈ pack_ob_C_single_buf C C_p M N m1 n1 m2 m_c n_c m_r n_r pm pn, ∀ r ∈ o.reads, r.buf = C.buf := by
  unfold pack_ob_C_single_buf
  split
  · refine loopS_all (fun n2 _ => loopS_all (fun m3 _ => loopS_all (fun i _ => loopS_all (fun j s => ?_) _ _) _ _) _ _) _ _
    intro o ho r hr
    simp only [mem_singleton] at ho
    subst ho
    split at hr
    · simp [Op.reads] at hr
    · simp only [Op.reads, mem_singleton] at hr; subst hr; rfl
  · refine loopS_all (fun n2 _ => loopS_all (fun m3 _ => loopS_all (fun i _ => loopS_all (fun j s => ?_) _ _) _ _) _ _) _ _
    intro o ho r hr
    simp only [mem_singleton] at ho
    subst ho
    simp only [Op.reads, mem_singleton] at hr; subst hr; rfl

section
variable {M N K p m_r n_r m_c k_c n_c : Nat} (h : TileOK p m_r n_r m_c k_c n_c)
include h

theorem packC_n_form :
    pack_C_n_first ⟨.C, 0⟩ ⟨.Cp, 0⟩ M N p m_r n_r (dimsNKM M N K p m_r n_r m_c k_c n_c) =
      (range (cdiv M (p * m_c))).map fun m => (range (cdiv N n_c)).map fun n =>
        pack_ob_C_single_buf ⟨.C, m * (p * m_c) * N + n * n_c⟩
          ⟨.Cp, m * (p * m_c) * padTo N n_c n_r + n * (p * m_c) * sL N n_c n_r n⟩ M N (m * (p * m_c)) (n * n_c) 0
          (sL M (p * m_c) m_r m) (sL N n_c n_r n) m_r n_r
          (m == cdiv M (p * m_c) - 1 && M % (p * m_c) != 0) (n == cdiv N n_c - 1 && N % n_c != 0) := by
  unfold pack_C_n_first
  simp only [nkm_Mb h.toN, nkm_Nb h.toN, nkm_n_pad, nkm_m_pad, nkm_n_c, nkm_m_c, nkm_n_c1, nkm_m_c1, nkm_N_padded]
  apply map_congr_left
  intro m hm
  rw [mem_range] at hm
  apply map_congr_left
  intro n hn
  rw [mem_range] at hn
  have hm1 := first_of_blk (T := M) (i := m) h.S_pos
  conv_lhs at hm1 => rw [← Nat.mul_assoc]
  rw [sL_eq h.n_c_pos h.n_r_pos h.n_dvd hn, sL_eq h.S_pos h.m_r_pos h.S_dvd hm,
    first_of_blk h.n_c_pos, hm1]
  simp only [Loc.off]
  congr 2
  · ring
  · ring

/-- Packing C is free of data races exactly if the place of the last block of columns meets that of no other one. -/
theorem packC_n_race (hM : 0 < M) :
    (∀ ts ∈ pack_C_n_first ⟨.C, 0⟩ ⟨.Cp, 0⟩ M N p m_r n_r (dimsNKM M N K p m_r n_r m_c k_c n_c), RaceFree ts) ↔
    ∀ j, j + 1 < cdiv N n_c →
      j * (p * m_c) * n_c + min (p * m_c) (padTo M (p * m_c) m_r) * n_c ≤
          (cdiv N n_c - 1) * (p * m_c) * (padTo N n_c n_r - (cdiv N n_c - 1) * n_c) ∨
      (cdiv N n_c - 1) * (p * m_c) * (padTo N n_c n_r - (cdiv N n_c - 1) * n_c) +
          min (p * m_c) (padTo M (p * m_c) m_r) * (padTo N n_c n_r - (cdiv N n_c - 1) * n_c) ≤ j * (p * m_c) * n_c := by
  have hP := h.S_pos
  have g := h.geoN
  have hfull : ∀ n, n + 1 < cdiv N n_c → sL N n_c n_r n = n_c := fun n hn => by
    unfold sL
    exact chopLen_full h.n_c_pos (by rw [cdiv_padTo h.n_c_pos h.n_r_pos h.n_dvd]; exact hn)
  have hlast : 0 < cdiv N n_c → sL N n_c n_r (cdiv N n_c - 1) = padTo N n_c n_r - (cdiv N n_c - 1) * n_c := fun h0 => by
    have := chopLen_last (T := padTo N n_c n_r) (i := cdiv N n_c - 1) h.n_c_pos
      (by rw [cdiv_padTo h.n_c_pos h.n_r_pos h.n_dvd]; omega)
    unfold sL
    omega
  have hpos : 0 < cdiv N n_c → 0 < padTo N n_c n_r - (cdiv N n_c - 1) * n_c := fun h0 => by
    rw [← hlast h0]
    unfold sL
    exact chopLen_pos h.n_c_pos (by rw [cdiv_padTo h.n_c_pos h.n_r_pos h.n_dvd]; omega)
  have hrow0 : sL M (p * m_c) m_r 0 = min (p * m_c) (padTo M (p * m_c) m_r) := by
    unfold sL chopLen
    simp
  have hrow : ∀ m, sL M (p * m_c) m_r m ≤ min (p * m_c) (padTo M (p * m_c) m_r) := fun m => by
    unfold sL chopLen
    omega
  have hMb : 0 < cdiv M (p * m_c) := cdiv_pos hM hP
  have hrb : 0 < min (p * m_c) (padTo M (p * m_c) m_r) := by
    rw [← hrow0]
    unfold sL
    exact chopLen_pos hP (by rw [cdiv_padTo hP h.m_r_pos h.S_dvd]; exact hMb)
  have hs : ∀ m n, SeqW .Cp (m * (p * m_c) * padTo N n_c n_r + n * (p * m_c) * sL N n_c n_r n)
      (sL M (p * m_c) m_r m * sL N n_c n_r n) (pack_ob_C_single_buf ⟨.C, m * (p * m_c) * N + n * n_c⟩
          ⟨.Cp, m * (p * m_c) * padTo N n_c n_r + n * (p * m_c) * sL N n_c n_r n⟩ M N (m * (p * m_c)) (n * n_c) 0
          (sL M (p * m_c) m_r m) (sL N n_c n_r n) m_r n_r
          (m == cdiv M (p * m_c) - 1 && M % (p * m_c) != 0) (n == cdiv N n_c - 1 && N % n_c != 0)) := fun m n =>
    packObC_seqW _ (⟨.Cp, _⟩ : Loc) _ _ _ _ _ _ _ _ _ _ _ h.m_r_pos h.n_r_pos (mL_dvd h.geoN) (nL_dvd h.geoN)
  rw [packC_n_form h]
  generalize hw : padTo N n_c n_r - (cdiv N n_c - 1) * n_c = w at *
  generalize min (p * m_c) (padTo M (p * m_c) m_r) = rb at *
  constructor
  · intro hrf j hj
    by_contra hc
    rw [not_or, Nat.not_le, Nat.not_le] at hc
    have hrf := hrf _ (mem_map_of_mem (mem_range.2 hMb))
    unfold RaceFree at hrf
    rw [pairwise_map, pairwise_iff_getElem] at hrf
    have hrf := hrf j (cdiv N n_c - 1) (by rw [length_range]; omega) (by rw [length_range]; omega) (by omega)
    simp only [getElem_range] at hrf
    have h1 := hs 0 j
    have h2 := hs 0 (cdiv N n_c - 1)
    rw [hfull j hj] at h1
    rw [hlast (by omega)] at h2
    rw [hfull j hj, hlast (by omega)] at hrf
    rw [hrow0] at h1 h2 hrf
    have hw0 : 0 < rb * w := Nat.mul_pos hrb (hpos (by omega))
    have hn0 : 0 < rb * n_c := Nat.mul_pos hrb h.n_c_pos
    obtain ⟨o, ho, hd⟩ := (h1.mem_iff ⟨.Cp, max (j * (p * m_c) * n_c) ((cdiv N n_c - 1) * (p * m_c) * w)⟩).2
      ⟨rfl, by simp only [Nat.zero_mul, Nat.zero_add]; omega, by simp only [Nat.zero_mul, Nat.zero_add]; omega⟩
    obtain ⟨o', ho', hd'⟩ := (h2.mem_iff ⟨.Cp, max (j * (p * m_c) * n_c) ((cdiv N n_c - 1) * (p * m_c) * w)⟩).2
      ⟨rfl, by simp only [Nat.zero_mul, Nat.zero_add]; omega, by simp only [Nat.zero_mul, Nat.zero_add]; omega⟩
    exact hrf o ho o' ho' (Or.inl (hd.trans hd'.symm))
  · intro hdis ts hts
    obtain ⟨m, _, rfl⟩ := mem_map.1 hts
    apply raceFree_map
    intro i j hi hj hne o ho o' ho' hc
    have r1 := packObC_reads o ho
    have r2 := packObC_reads o' ho'
    obtain ⟨b1, l1, u1⟩ := (hs m i).dst_of_mem ho
    obtain ⟨b2, l2, u2⟩ := (hs m j).dst_of_mem ho'
    have hd : o.dst = o'.dst := by
      rcases hc with hc | hc | hc
      · exact hc
      · have := r2 _ hc; rw [b1] at this; cases this
      · have := r1 _ hc; rw [b2] at this; cases this
    rw [hd] at l1 u1
    have key : ∀ i j, i < j → j < cdiv N n_c →
        i * (p * m_c) * sL N n_c n_r i + sL M (p * m_c) m_r m * sL N n_c n_r i ≤ j * (p * m_c) * sL N n_c n_r j ∨
        j * (p * m_c) * sL N n_c n_r j + sL M (p * m_c) m_r m * sL N n_c n_r j ≤ i * (p * m_c) * sL N n_c n_r i := by
      intro i j hij hj
      rw [hfull i (by omega)]
      by_cases hjl : j + 1 < cdiv N n_c
      · left
        rw [hfull j hjl, ← Nat.add_mul]
        apply Nat.mul_le_mul_right
        have e1 : sL M (p * m_c) m_r m ≤ p * m_c := by unfold sL; exact chopLen_le _ _ _
        have e2 := Nat.mul_le_mul_right (p * m_c) (show i + 1 ≤ j by omega)
        rw [Nat.add_mul] at e2
        omega
      · have ej : j = cdiv N n_c - 1 := by omega
        subst ej
        rw [hlast (by omega)]
        have e1 := Nat.mul_le_mul_right n_c (hrow m)
        have e2 := Nat.mul_le_mul_right w (hrow m)
        rcases hdis i (by omega) with hx | hx
        · left; omega
        · right; omega
    rcases Nat.lt_or_gt_of_ne hne with hij | hij
    · rcases key i j hij hj with hx | hx <;> omega
    · rcases key j i hij hi with hx | hx <;> omega

end

/-- A parallel loop of the accumulating call is one of packing C or one of the call that does not accumulate. -/
theorem sgemmN_par {α : Type _} {nz : α → Bool} {cx : Cntx} {alpha beta : α} {M N K p m_c k_c n_c : Nat} (hb : nz beta = true)
    {A B : Loc} {packedA packedB : Bool} {prog prog' : Prog}
    (hprog : cake_sgemm nz cx A B ⟨.C, 0⟩ M N K p packedA packedB alpha beta m_c k_c n_c .NKM = some prog)
    (hprog' : cake_sgemm (fun _ => false) cx A B ⟨.C, 0⟩ M N K p packedA packedB alpha beta m_c k_c n_c .NKM = some prog')
    {ts : List (List Op)} (hts : Item.par ts ∈ prog) :
    ts ∈ pack_C_n_first ⟨.C, 0⟩ ⟨.Cp, 0⟩ M N p cx.m_r cx.n_r (dimsNKM M N K p cx.m_r cx.n_r m_c k_c n_c) ∨ Item.par ts ∈ prog' := by
  have hsch : (dimsNKM M N K p cx.m_r cx.n_r m_c k_c n_c).sch = .NKM := rfl
  simp only [cake_sgemm, init_block_dims, hsch, packedA_nkm, packedB_eq, packedC_nkm, pack_A, pack_B,
    pack_C, unpack_C, schedule, Option.bind_eq_bind, Option.bind_some, Option.some.injEq, hb, if_true,
    reduceCtorEq, if_false, Bool.false_eq_true] at hprog hprog'
  subst hprog
  subst hprog'
  simp only [mem_append, mem_cons, reduceCtorEq, false_or] at hts ⊢
  rcases hts with (((h | h) | h) | (((h | h) | h) | h)) | h
  · simp [h]
  · simp only [h, or_true, true_or]
  · simp only [h, or_true, true_or]
  · left
    obtain ⟨ts', h', e⟩ := mem_map.1 h
    cases e
    exact h'
  · simp only [h, or_true, true_or]
  · simp only [h, or_true, true_or]
  · simp only [h, or_true, true_or]
  · simp only [h, or_true]

end Cake
