/-
The hand-written NEON microkernel: value, frame, reads, safety.
-/
import Verif.Model.KernelArm
import Verif.Proofs.Kernel

namespace Cake
open List

variable {α : Type _} (F : Arith α)

def armHalfOps (t : Nat) (A : Loc) (h ao : Nat) : List Op :=
  ((range 4).flatMap fun i => (range 4).map fun l => Op.copy (rA4 t i l) (A +ₚ (ao + i))) ++
    ((range 4).flatMap fun i => (range 3).flatMap fun j => (range 4).map fun l =>
      Op.fma (rC 4 t (12 * h + 3 * i + j) l) (rA4 t i l) (rB 4 8 3 t j l))

def armLoadB (t : Nat) (B : Loc) (bo : Nat) : List Op :=
  (range 3).flatMap fun j => (range 4).map fun l => Op.copy (rB 4 8 3 t j l) (B +ₚ (bo + (4 * j + l)))

theorem armHalf_eq (t : Nat) (A : Loc) (h ao : Nat) :
    armHalf t A h ao = (armHalfOps t A h ao, ao + 4) := by
  unfold armHalf
  rw [loopS_range (c := 1) _ _ _ (fun i _ s => rfl)]
  simp [armHalfOps]

theorem armInner_eq (t : Nat) (A B : Loc) (ao bo : Nat) :
    armInner t A B ao bo =
      (armLoadB t B bo ++ (range 2).flatMap (fun h => armHalfOps t A h (ao + h * 4)), ao + 8) := by
  unfold armInner
  rw [loopS_range (c := 4) _ _ _ (fun i _ s => by rw [armHalf_eq])]
  simp [armLoadB, armHalf_eq]

theorem armLoop_eq (t : Nat) (A B : Loc) (narg k : Nat) :
    armLoop t A B narg k =
      (range k).flatMap fun kk => (armInner t A B (kk * 8) (kk * narg)).1 := by
  unfold armLoop
  have hin : ∀ (a b n : Nat),
      loopS (range n) (fun (_ : Nat) (s : Nat × Nat) =>
        ((armInner t A B s.1 s.2).1, ((armInner t A B s.1 s.2).2, s.2 + narg))) (a, b)
      = ((range n).flatMap (fun u => (armInner t A B (a + u * 8) (b + u * narg)).1),
          (a + n * 8, b + n * narg)) := by
    intro a b n
    have := loopS_range_st (fun (_ : Nat) (s : Nat × Nat) =>
        ((armInner t A B s.1 s.2).1, ((armInner t A B s.1 s.2).2, s.2 + narg)))
        (fun i => (a + i * 8, b + i * narg)) n (by
          intro i _
          simp only [armInner_eq, Prod.mk.injEq]
          constructor <;> ring)
    simpa using this
  have hk : k - k % 4 = k / 4 * 4 := by omega
  simp only [hk, cfor_zero_mul _ 4 (by omega : 0 < 4), cfor_one, loopS_map]
  have hmain : loopS (range (k / 4)) (fun (_ : Nat) (s : Nat × Nat) =>
      loopS (range 4) (fun (_ : Nat) (s : Nat × Nat) =>
        ((armInner t A B s.1 s.2).1,
          ((armInner t A B s.1 s.2).2, s.2 + narg))) s) (0, 0)
      = ((range (k / 4)).flatMap (fun q => (range 4).flatMap (fun u =>
          (armInner t A B ((q * 4 + u) * 8) ((q * 4 + u) * narg)).1)),
          (k / 4 * 4 * 8, k / 4 * 4 * narg)) := by
    have := loopS_range_st (fun (_ : Nat) (s : Nat × Nat) =>
      loopS (range 4) (fun (_ : Nat) (s : Nat × Nat) =>
        ((armInner t A B s.1 s.2).1,
          ((armInner t A B s.1 s.2).2, s.2 + narg))) s)
        (fun q => (q * 4 * 8, q * 4 * narg)) (k / 4) (by
          intro i _
          simp only [hin, Prod.mk.injEq]
          constructor <;> ring)
    simp only [hin] at this
    simp only [Nat.zero_mul] at this
    simp only [hin]
    rw [this]
    congr 1
    apply List.flatMap_congr
    intro q _
    apply List.flatMap_congr
    intro u _
    congr 2 <;> ring
  rw [hmain]
  simp only [hin]
  rw [← range_split4 k (fun kk => (armInner t A B (kk * 8) (kk * narg)).1)]
  congr 1
  apply List.flatMap_congr
  intro u _
  congr 2 <;> ring

theorem armLoadB_eq (t : Nat) (B : Loc) (bo : Nat) : armLoadB t B bo = kernLoadB 4 8 3 t B bo := by
  unfold armLoadB kernLoadB
  simp only [Nat.mul_comm 4]

theorem armHalfOps_dst (t : Nat) (A : Loc) (h ao : Nat) (o : Op) (ho : o ∈ armHalfOps t A h ao) :
    (∃ i l, i < 4 ∧ l < 4 ∧ o.dst = rA4 t i l) ∨
      ∃ i j l, i < 4 ∧ j < 3 ∧ l < 4 ∧ o.dst = rC 4 t (12 * h + 3 * i + j) l := by
  simp only [armHalfOps, mem_append, mem_flatMap, mem_map, mem_range] at ho
  rcases ho with ⟨i, hi, l, hl, rfl⟩ | ⟨i, hi, j, hj, l, hl, rfl⟩
  · exact Or.inl ⟨i, l, hi, hl, rfl⟩
  · exact Or.inr ⟨i, j, l, hi, hj, hl, rfl⟩

theorem armHalfOps_spec (t : Nat) (A : Loc) (hA : ∀ t, A.buf ≠ .reg t) (h ao : Nat) (M : Mem α)
    (i j l : Nat) (hh : h < 2) (hi : i < 4) (hj : j < 3) (hl : l < 4) :
    exec F (armHalfOps t A h ao) M (rC 4 t (12 * h + 3 * i + j) l) =
      F.fma (M (A +ₚ (ao + i))) (M (rB 4 8 3 t j l)) (M (rC 4 t (12 * h + 3 * i + j) l)) := by
  unfold armHalfOps
  rw [exec_append]
  set M1 := exec F ((range 4).flatMap fun i => (range 4).map fun l =>
    Op.copy (rA4 t i l) (A +ₚ (ao + i))) M with hM1
  have hAl : M1 (rA4 t i l) = M (A +ₚ (ao + i)) := by
    rw [hM1]
    apply exec_const
    · refine ⟨.copy (rA4 t i l) (A +ₚ (ao + i)), ?_, rfl⟩
      simp only [mem_flatMap, mem_map, mem_range]
      exact ⟨i, hi, l, hl, rfl⟩
    · intro o ho hd
      simp only [mem_flatMap, mem_map, mem_range] at ho
      obtain ⟨i', hi', l', hl', rfl⟩ := ho
      simp only [Op.dst, rA4, rA, Loc.mk.injEq, true_and] at hd
      obtain rfl : i' = i := by omega
      refine ⟨?_, rfl⟩
      intro r hr o' ho' e
      simp only [Op.reads, List.mem_singleton] at hr
      subst hr
      simp only [mem_flatMap, mem_map, mem_range] at ho'
      obtain ⟨_, _, _, _, rfl⟩ := ho'
      exact hA t (by have := congrArg Loc.buf e; simpa [Op.dst, rA4, rA] using this.symm)
  have hfr : ∀ x, (∀ i' l', i' < 4 → l' < 4 → rA4 t i' l' ≠ x) → M1 x = M x := by
    intro x hx
    rw [hM1]
    apply exec_frame
    intro o ho
    simp only [mem_flatMap, mem_map, mem_range] at ho
    obtain ⟨i', hi', l', hl', rfl⟩ := ho
    exact hx i' l' hi' hl'
  have hB1 : M1 (rB 4 8 3 t j l) = M (rB 4 8 3 t j l) := by
    apply hfr
    intro i' l' _ _ e
    simp only [rA4, rA, rB, Loc.mk.injEq, true_and] at e
    omega
  have hC1 : M1 (rC 4 t (12 * h + 3 * i + j) l) = M (rC 4 t (12 * h + 3 * i + j) l) := by
    apply hfr
    intro i' l' _ _ e
    simp only [rA4, rA, rC, Loc.mk.injEq, true_and] at e
    omega
  have key := exec_mem' F ((range 4).flatMap fun i => (range 3).flatMap fun j => (range 4).map fun l =>
      Op.fma (rC 4 t (12 * h + 3 * i + j) l) (rA4 t i l) (rB 4 8 3 t j l)) M1
      (Op.fma (rC 4 t (12 * h + 3 * i + j) l) (rA4 t i l) (rB 4 8 3 t j l))
      (by simp only [mem_flatMap, mem_map, mem_range]; exact ⟨i, hi, j, hj, l, hl, rfl⟩)
      (by
        have hs : SeqW (.reg t) (48 * h) (4 * (3 * 4)) ((range 4).flatMap fun i => (range 3).flatMap fun j =>
            (range 4).map fun l => Op.fma (rC 4 t (12 * h + 3 * i + j) l) (rA4 t i l) (rB 4 8 3 t j l)) := by
          apply SeqW.flatMap
          intro i' _
          apply SeqW.flatMap
          intro j' _
          apply SeqW.map
          intro l' _
          simp only [Op.dst, rC, Loc.mk.injEq, true_and]
          ring
        exact hs.nodup)
      (by
        intro r hr o' ho' hne e
        simp only [mem_flatMap, mem_map, mem_range] at ho'
        obtain ⟨i', hi', j', hj', l', hl', rfl⟩ := ho'
        simp only [Op.reads, List.mem_cons, List.not_mem_nil, or_false] at hr
        rcases hr with rfl | rfl | rfl
        · simp only [Op.dst, rC, rA4, rA, Loc.mk.injEq, true_and] at e
          omega
        · simp only [Op.dst, rC, rB, Loc.mk.injEq, true_and] at e
          omega
        · simp only [Op.dst, rC, Loc.mk.injEq, true_and] at e
          obtain ⟨rfl, rfl, rfl⟩ : i' = i ∧ j' = j ∧ l' = l := by omega
          exact hne rfl)
  simp only [Op.dst, Op.val] at key
  rw [key, hAl, hB1, hC1]

theorem armInner_reg (t : Nat) (A B : Loc) (ao bo : Nat) (o : Op)
    (ho : o ∈ (armInner t A B ao bo).1) : o.dst.buf = .reg t := by
  rw [armInner_eq] at ho
  rcases mem_append.1 ho with h | h
  · simp only [armLoadB, mem_flatMap, mem_map, mem_range] at h
    obtain ⟨_, _, _, _, rfl⟩ := h
    rfl
  · simp only [mem_flatMap, mem_range] at h
    obtain ⟨i, hi, h⟩ := h
    rcases armHalfOps_dst t A i _ o h with ⟨_, _, _, _, e⟩ | ⟨_, _, _, _, _, _, e⟩ <;> rw [e] <;> rfl

theorem armInner_spec (t : Nat) (A B : Loc) (hA : ∀ t, A.buf ≠ .reg t)
    (hB : ∀ t, B.buf ≠ .reg t) (ao bo : Nat) (M : Mem α)
    (i j l : Nat) (hi : i < 8) (hj : j < 3) (hl : l < 4) :
    exec F (armInner t A B ao bo).1 M (rC 4 t (i * 3 + j) l) =
      F.fma (M (A +ₚ (ao + i))) (M (B +ₚ (bo + (j * 4 + l)))) (M (rC 4 t (i * 3 + j) l)) := by
  rw [armInner_eq, armLoadB_eq]
  simp only
  rw [exec_append]
  set M1 := exec F (kernLoadB 4 8 3 t B bo) M with hM1
  have hb1 : M1 (rB 4 8 3 t j l) = M (B +ₚ (bo + (j * 4 + l))) :=
    kernLoadB_spec F 4 8 3 t B hB bo M j l hj hl
  have hc1 : M1 (rC 4 t (i * 3 + j) l) = M (rC 4 t (i * 3 + j) l) := by
    apply exec_frame
    intro o ho e
    simp only [kernLoadB, mem_flatMap, mem_map, mem_range] at ho
    obtain ⟨j', hj', l', hl', rfl⟩ := ho
    simp only [Op.dst, rB, rC, Loc.mk.injEq, true_and] at e
    omega
  have ha1 : M1 (A +ₚ (ao + i)) = M (A +ₚ (ao + i)) := by
    apply exec_frame
    intro o ho e
    simp only [kernLoadB, mem_flatMap, mem_map, mem_range] at ho
    obtain ⟨j', hj', l', hl', rfl⟩ := ho
    exact hA t (by have := congrArg Loc.buf e; simpa [Op.dst, rB] using this.symm)
  have hidx : i * 3 + j = 12 * (i / 4) + 3 * (i % 4) + j := by omega
  have hao : ao + i = ao + i / 4 * 4 + i % 4 := by omega
  apply exec_flatMap_at F (range 2) _ M1 (i / 4) (mem_range.2 (by omega)) nodup_range _ _
    (fun r => r = rC 4 t (i * 3 + j) l ∨ r = rB 4 8 3 t j l ∨ r = A +ₚ (ao + i)) (Or.inl rfl)
  · intro m' hm'
    have key := armHalfOps_spec F t A hA (i / 4) (ao + i / 4 * 4) m' (i % 4) j l (by omega) (by omega) hj hl
    rw [← hidx, ← hao, hm' _ (Or.inl rfl), hm' _ (Or.inr (Or.inl rfl)), hm' _ (Or.inr (Or.inr rfl)),
      hb1, hc1, ha1] at key
    exact key
  · intro h' hh' hne o ho hP
    rw [mem_range] at hh'
    rcases armHalfOps_dst t A h' _ o ho with ⟨i', l', hi', hl', e⟩ | ⟨i', j', l', hi', hj', hl', e⟩
    · rw [e] at hP
      rcases hP with h | h | h
      · simp only [rA4, rA, rC, Loc.mk.injEq, true_and] at h
        omega
      · simp only [rA4, rA, rB, Loc.mk.injEq, true_and] at h
        omega
      · exact hA t (by have := congrArg Loc.buf h; simpa [rA4, rA] using this.symm)
    · rw [e] at hP
      rcases hP with h | h | h
      · simp only [rC, Loc.mk.injEq, true_and] at h
        omega
      · simp only [rC, rB, Loc.mk.injEq, true_and] at h
        omega
      · exact hA t (by have := congrArg Loc.buf h; simpa [rC] using this.symm)

theorem armLoop_spec (t : Nat) (A B : Loc) (hA : ∀ t, A.buf ≠ .reg t)
    (hB : ∀ t, B.buf ≠ .reg t) (narg k : Nat) (M : Mem α)
    (i j l : Nat) (hi : i < 8) (hj : j < 3) (hl : l < 4) :
    exec F (armLoop t A B narg k) M (rC 4 t (i * 3 + j) l) =
      (range k).foldl (fun acc kk =>
        F.fma (M (A +ₚ (kk * 8 + i))) (M (B +ₚ (kk * narg + (j * 4 + l)))) acc)
        (M (rC 4 t (i * 3 + j) l)) := by
  rw [armLoop_eq]
  have := exec_range_induct F (fun kk => (armInner t A B (kk * 8) (kk * narg)).1) k M
    (fun n M' => M' (rC 4 t (i * 3 + j) l) =
      (range n).foldl (fun acc kk =>
        F.fma (M (A +ₚ (kk * 8 + i))) (M (B +ₚ (kk * narg + (j * 4 + l)))) acc)
        (M (rC 4 t (i * 3 + j) l)) ∧ ∀ x : Loc, x.buf ≠ .reg t → M' x = M x)
    ⟨rfl, fun _ _ => rfl⟩ (by
      intro n _ M' ⟨h1, h2⟩
      refine ⟨?_, ?_⟩
      · rw [armInner_spec F t A B hA hB _ _ _ i j l hi hj hl, List.range_succ, List.foldl_append,
          ← h1, h2 _ (by simpa using hA t), h2 _ (by simpa using hB t)]
        rfl
      · intro x hx
        rw [exec_frame, h2 x hx]
        intro o ho e
        exact hx (e ▸ armInner_reg t A B _ _ o ho))
  exact this.1

theorem armLoop_reg (t : Nat) (A B : Loc) (narg k : Nat) (o : Op)
    (ho : o ∈ armLoop t A B narg k) : o.dst.buf = .reg t := by
  rw [armLoop_eq] at ho
  obtain ⟨kk, _, ho⟩ := mem_flatMap.1 ho
  exact armInner_reg t A B _ _ o ho

theorem armKernel_eq (t : Nat) (A B C : Loc) (narg k : Nat) :
    armKernel t A B C narg k =
      kernLoadC 4 8 3 t C ++ armLoop t A B narg k ++ kernStoreC 4 8 3 t C := by
  unfold armKernel kernLoadC kernStoreC
  simp only [Nat.mul_comm 4]

theorem armKernel_dst (t : Nat) (A B C : Loc) (narg k : Nat) (o : Op)
    (ho : o ∈ armKernel t A B C narg k) :
    o.dst.buf = .reg t ∨ ∃ x, x < 96 ∧ o.dst = C +ₚ x := by
  rw [armKernel_eq] at ho
  rcases mem_append.1 ho with h | h
  · rcases mem_append.1 h with h | h
    · simp only [kernLoadC, mem_flatMap, mem_map, mem_range] at h
      obtain ⟨_, _, _, _, rfl⟩ := h
      exact Or.inl rfl
    · exact Or.inl (armLoop_reg t A B narg k o h)
  · simp only [kernStoreC, mem_flatMap, mem_map, mem_range] at h
    obtain ⟨q, hq, l, hl, rfl⟩ := h
    exact Or.inr ⟨q * 4 + l, by omega, rfl⟩

theorem armKernel_spec (t : Nat) (A B C : Loc) (hA : ∀ t, A.buf ≠ .reg t)
    (hB : ∀ t, B.buf ≠ .reg t) (hC : ∀ t, C.buf ≠ .reg t) (narg k : Nat) (M : Mem α)
    (i j : Nat) (hi : i < 8) (hj : j < 12) :
    exec F (armKernel t A B C narg k) M (C +ₚ (i * 12 + j)) =
      (range k).foldl (fun acc kk =>
        F.fma (M (A +ₚ (kk * 8 + i))) (M (B +ₚ (kk * narg + j))) acc)
        (M (C +ₚ (i * 12 + j))) := by
  have hjl : j % 4 < 4 := Nat.mod_lt _ (by omega)
  have hjq : j / 4 < 3 := by omega
  have hjd : j / 4 * 4 + j % 4 = j := by omega
  have hidx : i * 12 + j = (i * 3 + j / 4) * 4 + j % 4 := by omega
  have hq : i * 3 + j / 4 < 8 * 3 := by omega
  have hfr : ∀ x : Loc, x.buf ≠ .reg t → exec F (kernLoadC 4 8 3 t C) M x = M x := by
    intro x hx
    apply exec_frame
    intro o ho e
    simp only [kernLoadC, mem_flatMap, mem_map, mem_range] at ho
    obtain ⟨_, _, _, _, rfl⟩ := ho
    exact hx (by rw [← e]; rfl)
  rw [armKernel_eq, exec_append, exec_append, hidx, kernStoreC_spec F 4 8 3 t C hC _ _ _ hq hjl,
    armLoop_spec F t A B hA hB narg k _ i (j / 4) (j % 4) hi hjq hjl,
    kernLoadC_spec F 4 8 3 t C hC _ _ _ hq hjl]
  congr 1
  funext acc kk
  rw [hfr _ (by simpa using hA t), hfr _ (by simpa using hB t), hjd]

theorem armKernel_frame (t : Nat) (A B C : Loc) (narg k : Nat) (M : Mem α) (x : Loc)
    (hx : x.buf ≠ .reg t) (hC : ∀ d, d < 96 → x ≠ C +ₚ d) :
    exec F (armKernel t A B C narg k) M x = M x := by
  apply exec_frame
  intro o ho e
  rcases armKernel_dst t A B C narg k o ho with h | ⟨d, hd, h⟩
  · exact hx (e ▸ h)
  · exact hC d hd (e ▸ h)

theorem armKernel_reads (t : Nat) (A B C : Loc) (narg k : Nat) (o : Op)
    (ho : o ∈ armKernel t A B C narg k) (r : Loc) (hr : r ∈ o.reads) :
    r.buf = .reg t ∨ (∃ x, x < 96 ∧ r = C +ₚ x) ∨
      (∃ kk i, kk < k ∧ i < 8 ∧ r = A +ₚ (kk * 8 + i)) ∨
      (∃ kk j, kk < k ∧ j < 12 ∧ r = B +ₚ (kk * narg + j)) := by
  rw [armKernel_eq] at ho
  rcases mem_append.1 ho with h | h
  · rcases mem_append.1 h with h | h
    · simp only [kernLoadC, mem_flatMap, mem_map, mem_range] at h
      obtain ⟨q, hq, l, hl, rfl⟩ := h
      simp only [Op.reads, List.mem_singleton] at hr
      subst hr
      exact Or.inr (Or.inl ⟨_, by omega, rfl⟩)
    · rw [armLoop_eq] at h
      obtain ⟨kk, hkk, h⟩ := mem_flatMap.1 h
      rw [mem_range] at hkk
      rw [armInner_eq] at h
      rcases mem_append.1 h with h | h
      · simp only [armLoadB, mem_flatMap, mem_map, mem_range] at h
        obtain ⟨j, hj, l, hl, rfl⟩ := h
        simp only [Op.reads, List.mem_singleton] at hr
        subst hr
        exact Or.inr (Or.inr (Or.inr ⟨kk, _, hkk, by omega, rfl⟩))
      · simp only [mem_flatMap, mem_range, armHalfOps, mem_append, mem_map] at h
        obtain ⟨hf, hh, ⟨i, hi, l, hl, rfl⟩ | ⟨i, hi, j, hj, l, hl, rfl⟩⟩ := h
        · simp only [Op.reads, List.mem_singleton] at hr
          subst hr
          exact Or.inr (Or.inr (Or.inl ⟨kk, hf * 4 + i, hkk, by omega, by rw [Nat.add_assoc]⟩))
        · simp only [Op.reads, List.mem_cons, List.not_mem_nil, or_false] at hr
          rcases hr with rfl | rfl | rfl <;> exact Or.inl rfl
  · simp only [kernStoreC, mem_flatMap, mem_map, mem_range] at h
    obtain ⟨q, hq, l, hl, rfl⟩ := h
    simp only [Op.reads, List.mem_singleton] at hr
    subst hr
    exact Or.inl rfl

theorem armKernel_safe (t : Nat) (A B C : Loc) (narg k : Nat)
    (size : Buf → Option Nat) (init : Loc → Bool)
    (hCt : ∀ x, x < 96 → InB size (C +ₚ x) ∧ init (C +ₚ x) = true)
    (hAt : ∀ kk i, kk < k → i < 8 → InB size (A +ₚ (kk * 8 + i)) ∧ init (A +ₚ (kk * 8 + i)) = true)
    (hBt : ∀ kk j, kk < k → j < 12 →
      InB size (B +ₚ (kk * narg + j)) ∧ init (B +ₚ (kk * narg + j)) = true) :
    Safe size init (armKernel t A B C narg k) := by
  have inbReg : ∀ x : Loc, x.buf = .reg t → InB size x := by
    intro x hx; simp [InB, hx]
  rw [armKernel_eq]
  set i1 := initAfter (kernLoadC 4 8 3 t C) init with hi1
  have h_i1 : ∀ l, init l = true → i1 l = true := fun l h => initAfter_of_mem (Or.inl h)
  have hCreg : ∀ q l, q < 8 * 3 → l < 4 → i1 (rC 4 t q l) = true := by
    intro q l hq hl
    apply initAfter_of_mem
    right
    exact ⟨.copy (rC 4 t q l) (C +ₚ (q * 4 + l)),
      by simp only [kernLoadC, mem_flatMap, mem_map, mem_range]; exact ⟨q, hq, l, hl, rfl⟩, rfl⟩
  have hload : Safe size init (kernLoadC 4 8 3 t C) := by
    apply Safe.of_forall
    intro o ho
    simp only [kernLoadC, mem_flatMap, mem_map, mem_range] at ho
    obtain ⟨q, hq, l, hl, rfl⟩ := ho
    refine ⟨inbReg _ rfl, ?_⟩
    intro r hr
    simp only [Op.reads, List.mem_singleton] at hr
    subst hr
    exact hCt _ (by omega)
  have hloop : Safe size i1 (armLoop t A B narg k) := by
    rw [armLoop_eq]
    apply Safe.flatMap
    intro kk hkk
    rw [mem_range] at hkk
    rw [armInner_eq]
    simp only
    have hlb : Safe size i1 (armLoadB t B (kk * narg)) := by
      apply Safe.of_forall
      intro o ho
      simp only [armLoadB, mem_flatMap, mem_map, mem_range] at ho
      obtain ⟨j, hj, l, hl, rfl⟩ := ho
      refine ⟨inbReg _ rfl, ?_⟩
      intro r hr
      simp only [Op.reads, List.mem_singleton] at hr
      subst hr
      have := hBt kk (4 * j + l) hkk (by omega)
      exact ⟨this.1, h_i1 _ this.2⟩
    refine hlb.append ?_
    apply Safe.flatMap
    intro h hh
    rw [mem_range] at hh
    unfold armHalfOps
    refine Safe.append ?_ ?_
    · apply Safe.of_forall
      intro o ho
      simp only [mem_flatMap, mem_map, mem_range] at ho
      obtain ⟨i, hi, l, hl, rfl⟩ := ho
      refine ⟨inbReg _ rfl, ?_⟩
      intro r hr
      simp only [Op.reads, List.mem_singleton] at hr
      subst hr
      have := hAt kk (h * 4 + i) hkk (by omega)
      rw [← Nat.add_assoc] at this
      exact ⟨this.1, initAfter_of_mem (Or.inl (h_i1 _ this.2))⟩
    apply Safe.of_forall
    intro o ho
    simp only [mem_flatMap, mem_map, mem_range] at ho
    obtain ⟨i, hi, j, hj, l, hl, rfl⟩ := ho
    refine ⟨inbReg _ rfl, ?_⟩
    intro r hr
    simp only [Op.reads, List.mem_cons, List.not_mem_nil, or_false] at hr
    rcases hr with rfl | rfl | rfl
    · refine ⟨inbReg _ rfl, initAfter_of_mem (Or.inr ?_)⟩
      refine ⟨.copy (rA4 t i l) (A +ₚ (kk * 8 + h * 4 + i)), ?_, rfl⟩
      simp only [mem_flatMap, mem_map, mem_range]
      exact ⟨i, hi, l, hl, rfl⟩
    · refine ⟨inbReg _ rfl, initAfter_of_mem (Or.inl (initAfter_of_mem (Or.inr ?_)))⟩
      exact ⟨.copy (rB 4 8 3 t j l) (B +ₚ (kk * narg + (4 * j + l))),
        by simp only [armLoadB, mem_flatMap, mem_map, mem_range]; exact ⟨j, hj, l, hl, rfl⟩, rfl⟩
    · refine ⟨inbReg _ rfl, initAfter_of_mem (Or.inl (initAfter_of_mem (Or.inl ?_)))⟩
      exact hCreg _ _ (by omega) hl
  refine (hload.append hloop).append ?_
  apply Safe.of_forall
  intro o ho
  simp only [kernStoreC, mem_flatMap, mem_map, mem_range] at ho
  obtain ⟨q, hq, l, hl, rfl⟩ := ho
  refine ⟨(hCt _ (by omega)).1, ?_⟩
  intro r hr
  simp only [Op.reads, List.mem_singleton] at hr
  subst hr
  refine ⟨inbReg _ rfl, initAfter_of_mem (Or.inr ?_)⟩
  exact ⟨.copy (rC 4 t q l) (C +ₚ (q * 4 + l)),
    mem_append_left _ (by
      simp only [kernLoadC, mem_flatMap, mem_map, mem_range]; exact ⟨q, hq, l, hl, rfl⟩), rfl⟩

end Cake
