import Verif.Model.Unpacked
import Verif.Proofs.Kernel

namespace Cake
open List

variable {α : Type _} (F : Arith α)

theorem ukernLoop_eq (L m nl t : Nat) (A B : Loc) (astep bstep k : Nat) :
    ukernLoop L m nl t A B astep bstep k =
      (range k).flatMap fun kk => (kernInner L m nl t A B (kk * (m + astep)) (kk * bstep)).1 := by
  unfold ukernLoop
  have hin : ∀ (a b n : Nat),
      loopS (range n) (fun (_ : Nat) (s : Nat × Nat) =>
        ((kernInner L m nl t A B s.1 s.2).1,
          ((kernInner L m nl t A B s.1 s.2).2 + astep, s.2 + bstep))) (a, b)
      = ((range n).flatMap (fun u => (kernInner L m nl t A B (a + u * (m + astep)) (b + u * bstep)).1),
          (a + n * (m + astep), b + n * bstep)) := by
    intro a b n
    have := loopS_range_st (fun (_ : Nat) (s : Nat × Nat) =>
        ((kernInner L m nl t A B s.1 s.2).1,
          ((kernInner L m nl t A B s.1 s.2).2 + astep, s.2 + bstep)))
        (fun i => (a + i * (m + astep), b + i * bstep)) n (by
          intro i _
          simp only [kernInner_eq, Prod.mk.injEq]
          constructor <;> ring)
    simpa using this
  have hk : k - k % 4 = k / 4 * 4 := by omega
  simp only [hk, cfor_zero_mul _ 4 (by omega : 0 < 4), cfor_one, loopS_map]
  have hmain : loopS (range (k / 4)) (fun (_ : Nat) (s : Nat × Nat) =>
      loopS (range 4) (fun (_ : Nat) (s : Nat × Nat) =>
        ((kernInner L m nl t A B s.1 s.2).1,
          ((kernInner L m nl t A B s.1 s.2).2 + astep, s.2 + bstep))) s) (0, 0)
      = ((range (k / 4)).flatMap (fun q => (range 4).flatMap (fun u =>
          (kernInner L m nl t A B ((q * 4 + u) * (m + astep)) ((q * 4 + u) * bstep)).1)),
          (k / 4 * 4 * (m + astep), k / 4 * 4 * bstep)) := by
    have := loopS_range_st (fun (_ : Nat) (s : Nat × Nat) =>
      loopS (range 4) (fun (_ : Nat) (s : Nat × Nat) =>
        ((kernInner L m nl t A B s.1 s.2).1,
          ((kernInner L m nl t A B s.1 s.2).2 + astep, s.2 + bstep))) s)
        (fun q => (q * 4 * (m + astep), q * 4 * bstep)) (k / 4) (by
          intro i _
          simp only [hin, Prod.mk.injEq]
          constructor <;> ring)
    simp only [hin] at this
    simp only [Nat.zero_mul] at this
    simp only [hin]
    rw [this]
    congr 1
    apply List.flatMap_congr
    intro q _
    apply List.flatMap_congr
    intro u _
    congr 2 <;> ring
  rw [hmain]
  simp only [hin]
  rw [← range_split4 k (fun kk => (kernInner L m nl t A B (kk * (m + astep)) (kk * bstep)).1)]
  congr 1
  apply List.flatMap_congr
  intro u _
  congr 2 <;> ring

theorem ukernLoop_spec (L m nl t : Nat) (A B : Loc) (hA : ∀ t, A.buf ≠ .reg t)
    (hB : ∀ t, B.buf ≠ .reg t) (astep bstep k : Nat) (M : Mem α)
    (i j l : Nat) (hi : i < m) (hj : j < nl) (hl : l < L) :
    exec F (ukernLoop L m nl t A B astep bstep k) M (rC L t (i * nl + j) l) =
      (range k).foldl (fun acc kk =>
        F.fma (M (A +ₚ (kk * (m + astep) + i))) (M (B +ₚ (kk * bstep + (j * L + l)))) acc)
        (M (rC L t (i * nl + j) l)) := by
  rw [ukernLoop_eq]
  have := exec_range_induct F
    (fun kk => (kernInner L m nl t A B (kk * (m + astep)) (kk * bstep)).1) k M
    (fun n M' => M' (rC L t (i * nl + j) l) =
      (range n).foldl (fun acc kk =>
        F.fma (M (A +ₚ (kk * (m + astep) + i))) (M (B +ₚ (kk * bstep + (j * L + l)))) acc)
        (M (rC L t (i * nl + j) l)) ∧ ∀ x : Loc, x.buf ≠ .reg t → M' x = M x)
    ⟨rfl, fun _ _ => rfl⟩ (by
      intro n _ M' ⟨h1, h2⟩
      refine ⟨?_, ?_⟩
      · rw [kernInner_spec F L m nl t A B hA hB _ _ _ i j l hi hj hl, List.range_succ, List.foldl_append,
          ← h1, h2 _ (by simpa using hA t), h2 _ (by simpa using hB t)]
        rfl
      · intro x hx
        rw [exec_frame, h2 x hx]
        intro o ho e
        exact hx (e ▸ kernInner_reg L m nl t A B _ _ o ho))
  exact this.1

theorem ukernLoop_reg (L m nl t : Nat) (A B : Loc) (astep bstep k : Nat) (o : Op)
    (ho : o ∈ ukernLoop L m nl t A B astep bstep k) : o.dst.buf = .reg t := by
  rw [ukernLoop_eq] at ho
  obtain ⟨kk, _, ho⟩ := mem_flatMap.1 ho
  exact kernInner_reg L m nl t A B _ _ o ho

theorem mem_ukernLoadC {L m nl t : Nat} {C : Loc} {cs : Nat} {o : Op} :
    o ∈ ukernLoadC L m nl t C cs ↔ ∃ i j l, i < m ∧ j < nl ∧ l < L ∧
      o = .copy (rC L t (i * nl + j) l) (C +ₚ (i * cs + (j * L + l))) := by
  simp only [ukernLoadC, mem_flatMap, mem_map, mem_range]
  constructor
  · rintro ⟨i, hi, j, hj, l, hl, rfl⟩
    exact ⟨i, j, l, hi, hj, hl, rfl⟩
  · rintro ⟨i, j, l, hi, hj, hl, rfl⟩
    exact ⟨i, hi, j, hj, l, hl, rfl⟩

theorem mem_ukernStoreC {L m nl t : Nat} {C : Loc} {cs : Nat} {o : Op} :
    o ∈ ukernStoreC L m nl t C cs ↔ ∃ i j l, i < m ∧ j < nl ∧ l < L ∧
      o = .copy (C +ₚ (i * cs + (j * L + l))) (rC L t (i * nl + j) l) := by
  simp only [ukernStoreC, mem_flatMap, mem_map, mem_range]
  constructor
  · rintro ⟨i, hi, j, hj, l, hl, rfl⟩
    exact ⟨i, j, l, hi, hj, hl, rfl⟩
  · rintro ⟨i, j, l, hi, hj, hl, rfl⟩
    exact ⟨i, hi, j, hj, l, hl, rfl⟩

theorem rC_inj {L nl t i j l i' j' l' : Nat} (hj : j < nl) (hj' : j' < nl) (hl : l < L) (hl' : l' < L)
    (h : rC L t (i * nl + j) l = rC L t (i' * nl + j') l') : i = i' ∧ j = j' ∧ l = l' := by
  simp only [rC, Loc.mk.injEq, true_and] at h
  obtain ⟨h1, h2⟩ := mulAdd_inj hl hl' h
  obtain ⟨h3, h4⟩ := mulAdd_inj hj hj' h1
  exact ⟨h3, h4, h2⟩

theorem ukernLoadC_spec (L m nl t : Nat) (C : Loc) (hC : ∀ t, C.buf ≠ .reg t) (cs : Nat) (M : Mem α)
    (i j l : Nat) (hi : i < m) (hj : j < nl) (hl : l < L) :
    exec F (ukernLoadC L m nl t C cs) M (rC L t (i * nl + j) l) = M (C +ₚ (i * cs + (j * L + l))) := by
  apply exec_const
  · exact ⟨_, mem_ukernLoadC.2 ⟨i, j, l, hi, hj, hl, rfl⟩, rfl⟩
  · intro o ho hd
    obtain ⟨i', j', l', hi', hj', hl', rfl⟩ := mem_ukernLoadC.1 ho
    obtain ⟨rfl, rfl, rfl⟩ := rC_inj hj' hj hl' hl hd
    refine ⟨?_, rfl⟩
    intro r hr o' ho' e
    simp only [Op.reads, List.mem_singleton] at hr
    subst hr
    obtain ⟨_, _, _, _, _, _, rfl⟩ := mem_ukernLoadC.1 ho'
    exact hC t (by have := congrArg Loc.buf e; simpa [Op.dst, rC] using this.symm)

theorem ukernStoreC_spec (L m nl t : Nat) (C : Loc) (hC : ∀ t, C.buf ≠ .reg t) (cs : Nat)
    (hcs : nl * L ≤ cs) (M : Mem α) (i j l : Nat) (hi : i < m) (hj : j < nl) (hl : l < L) :
    exec F (ukernStoreC L m nl t C cs) M (C +ₚ (i * cs + (j * L + l))) = M (rC L t (i * nl + j) l) := by
  apply exec_const
  · exact ⟨_, mem_ukernStoreC.2 ⟨i, j, l, hi, hj, hl, rfl⟩, rfl⟩
  · intro o ho hd
    obtain ⟨i', j', l', hi', hj', hl', rfl⟩ := mem_ukernStoreC.1 ho
    simp only [Op.dst, off_inj] at hd
    have b1 := mulAdd_lt hj hl
    have b2 := mulAdd_lt hj' hl'
    obtain ⟨rfl, h2⟩ := mulAdd_inj (by omega) (by omega) hd
    obtain ⟨rfl, rfl⟩ := mulAdd_inj hl' hl h2
    refine ⟨?_, rfl⟩
    intro r hr o' ho' e
    simp only [Op.reads, List.mem_singleton] at hr
    subst hr
    obtain ⟨_, _, _, _, _, _, rfl⟩ := mem_ukernStoreC.1 ho'
    exact hC t (by have := congrArg Loc.buf e; simpa [Op.dst, rC] using this)

theorem ukernel_spec (L m nl t : Nat) (hL : 0 < L) (A B C : Loc) (hA : ∀ t, A.buf ≠ .reg t)
    (hB : ∀ t, B.buf ≠ .reg t) (hC : ∀ t, C.buf ≠ .reg t) (cs astep bstep k : Nat) (hcs : nl * L ≤ cs)
    (M : Mem α) (i j : Nat) (hi : i < m) (hj : j < nl * L) :
    exec F (ukernel L m nl t A B C cs astep bstep k) M (C +ₚ (i * cs + j)) =
      (range k).foldl (fun acc kk =>
        F.fma (M (A +ₚ (kk * (m + astep) + i))) (M (B +ₚ (kk * bstep + j))) acc)
        (M (C +ₚ (i * cs + j))) := by
  have hjl : j % L < L := Nat.mod_lt _ hL
  have hjq : j / L < nl := by
    rw [Nat.div_lt_iff_lt_mul hL]; exact hj
  have hjd : j / L * L + j % L = j := by
    have := Nat.div_add_mod j L
    rw [Nat.mul_comm] at this; exact this
  have hfr : ∀ x : Loc, x.buf ≠ .reg t → exec F (ukernLoadC L m nl t C cs) M x = M x := by
    intro x hx
    apply exec_frame
    intro o ho e
    obtain ⟨_, _, _, _, _, _, rfl⟩ := mem_ukernLoadC.1 ho
    exact hx (by rw [← e]; rfl)
  have key := ukernStoreC_spec F L m nl t C hC cs hcs
    (exec F (ukernLoadC L m nl t C cs ++ ukernLoop L m nl t A B astep bstep k) M) i (j / L) (j % L) hi
    hjq hjl
  rw [hjd] at key
  unfold ukernel
  rw [exec_append, key, exec_append,
    ukernLoop_spec F L m nl t A B hA hB astep bstep k _ i (j / L) (j % L) hi hjq hjl,
    ukernLoadC_spec F L m nl t C hC cs _ _ _ _ hi hjq hjl, hjd]
  congr 1
  funext acc kk
  rw [hfr _ (by simpa using hA t), hfr _ (by simpa using hB t)]

theorem ukernel_dst (L m nl t : Nat) (A B C : Loc) (cs astep bstep k : Nat) (o : Op)
    (ho : o ∈ ukernel L m nl t A B C cs astep bstep k) :
    o.dst.buf = .reg t ∨ ∃ i j, i < m ∧ j < nl * L ∧ o.dst = C +ₚ (i * cs + j) := by
  unfold ukernel at ho
  rcases mem_append.1 ho with h | h
  · rcases mem_append.1 h with h | h
    · obtain ⟨_, _, _, _, _, _, rfl⟩ := mem_ukernLoadC.1 h
      exact Or.inl rfl
    · exact Or.inl (ukernLoop_reg L m nl t A B astep bstep k o h)
  · obtain ⟨i, j, l, hi, hj, hl, rfl⟩ := mem_ukernStoreC.1 h
    exact Or.inr ⟨i, j * L + l, hi, mulAdd_lt hj hl, rfl⟩

theorem ukernel_frame (L m nl t : Nat) (A B C : Loc) (cs astep bstep k : Nat) (M : Mem α) (x : Loc)
    (hx : x.buf ≠ .reg t) (hC : ∀ i j, i < m → j < nl * L → x ≠ C +ₚ (i * cs + j)) :
    exec F (ukernel L m nl t A B C cs astep bstep k) M x = M x := by
  apply exec_frame
  intro o ho e
  rcases ukernel_dst L m nl t A B C cs astep bstep k o ho with h | ⟨i, j, hi, hj, h⟩
  · exact hx (e ▸ h)
  · exact hC i j hi hj (e ▸ h)

/-- One step of the outer-product loop is free of undefined behaviour. -/
theorem kernInner_safe (L m nl t : Nat) (A B : Loc) (ao bo : Nat) (size : Buf → Option Nat)
    (i1 : Loc → Bool) (hCreg : ∀ q l, q < m * nl → l < L → i1 (rC L t q l) = true)
    (hAt : ∀ i, i < m → InB size (A +ₚ (ao + i)) ∧ i1 (A +ₚ (ao + i)) = true)
    (hBt : ∀ j, j < nl * L → InB size (B +ₚ (bo + j)) ∧ i1 (B +ₚ (bo + j)) = true) :
    Safe size i1 (kernInner L m nl t A B ao bo).1 := by
  have inbReg : ∀ x : Loc, x.buf = .reg t → InB size x := by
    intro x hx; simp [InB, hx]
  rw [kernInner_eq]
  simp only
  set i2 := initAfter (kernLoadB L m nl t B bo) i1 with hi2
  have hlb : Safe size i1 (kernLoadB L m nl t B bo) := by
    apply Safe.of_forall
    intro o ho
    simp only [kernLoadB, mem_flatMap, mem_map, mem_range] at ho
    obtain ⟨j, hj, l, hl, rfl⟩ := ho
    refine ⟨inbReg _ rfl, ?_⟩
    intro r hr
    simp only [Op.reads, List.mem_singleton] at hr
    subst hr
    exact hBt _ (mulAdd_lt hj hl)
  refine hlb.append ?_
  apply Safe.flatMap
  intro i hi
  rw [mem_range] at hi
  unfold kernRow
  have hla : Safe size i2 ((range L).map fun l => Op.copy (rA L m nl t l) (A +ₚ (ao + i))) := by
    apply Safe.of_forall
    intro o ho
    obtain ⟨l, hl, rfl⟩ := mem_map.1 ho
    refine ⟨inbReg _ rfl, ?_⟩
    intro r hr
    simp only [Op.reads, List.mem_singleton] at hr
    subst hr
    have := hAt i hi
    exact ⟨this.1, initAfter_of_mem (Or.inl this.2)⟩
  refine hla.append ?_
  apply Safe.of_forall
  intro o ho
  simp only [mem_flatMap, mem_map, mem_range] at ho
  obtain ⟨j, hj, l, hl, rfl⟩ := ho
  refine ⟨inbReg _ rfl, ?_⟩
  intro r hr
  simp only [Op.reads, List.mem_cons, List.not_mem_nil, or_false] at hr
  rcases hr with rfl | rfl | rfl
  · refine ⟨inbReg _ rfl, initAfter_of_mem (Or.inr ?_)⟩
    exact ⟨_, mem_map.2 ⟨l, mem_range.2 hl, rfl⟩, rfl⟩
  · refine ⟨inbReg _ rfl, initAfter_of_mem (Or.inl (initAfter_of_mem (Or.inr ?_)))⟩
    exact ⟨.copy (rB L m nl t j l) (B +ₚ (bo + (j * L + l))),
      by simp only [kernLoadB, mem_flatMap, mem_map, mem_range]; exact ⟨j, hj, l, hl, rfl⟩, rfl⟩
  · refine ⟨inbReg _ rfl, initAfter_of_mem (Or.inl (initAfter_of_mem (Or.inl ?_)))⟩
    exact hCreg _ _ (mulAdd_lt hi hj) hl

theorem ukernel_safe (L m nl t : Nat) (A B C : Loc) (cs astep bstep k : Nat)
    (size : Buf → Option Nat) (init : Loc → Bool)
    (hCt : ∀ i j, i < m → j < nl * L →
      InB size (C +ₚ (i * cs + j)) ∧ init (C +ₚ (i * cs + j)) = true)
    (hAt : ∀ kk i, kk < k → i < m →
      InB size (A +ₚ (kk * (m + astep) + i)) ∧ init (A +ₚ (kk * (m + astep) + i)) = true)
    (hBt : ∀ kk j, kk < k → j < nl * L →
      InB size (B +ₚ (kk * bstep + j)) ∧ init (B +ₚ (kk * bstep + j)) = true) :
    Safe size init (ukernel L m nl t A B C cs astep bstep k) := by
  have inbReg : ∀ x : Loc, x.buf = .reg t → InB size x := by
    intro x hx; simp [InB, hx]
  unfold ukernel
  have h_i1 : ∀ l, init l = true → initAfter (ukernLoadC L m nl t C cs) init l = true :=
    fun l h => initAfter_of_mem (Or.inl h)
  have hCreg : ∀ i j l, i < m → j < nl → l < L →
      initAfter (ukernLoadC L m nl t C cs) init (rC L t (i * nl + j) l) = true := by
    intro i j l hi hj hl
    exact initAfter_of_mem (Or.inr ⟨_, mem_ukernLoadC.2 ⟨i, j, l, hi, hj, hl, rfl⟩, rfl⟩)
  have hload : Safe size init (ukernLoadC L m nl t C cs) := by
    apply Safe.of_forall
    intro o ho
    obtain ⟨i, j, l, hi, hj, hl, rfl⟩ := mem_ukernLoadC.1 ho
    refine ⟨inbReg _ rfl, ?_⟩
    intro r hr
    simp only [Op.reads, List.mem_singleton] at hr
    subst hr
    exact hCt i _ hi (mulAdd_lt hj hl)
  have hloop : Safe size (initAfter (ukernLoadC L m nl t C cs) init)
      (ukernLoop L m nl t A B astep bstep k) := by
    rw [ukernLoop_eq]
    apply Safe.flatMap
    intro kk hkk
    rw [mem_range] at hkk
    apply kernInner_safe
    · intro q l hq hl
      have hnl : 0 < nl := Nat.pos_of_ne_zero (by rintro rfl; simp at hq)
      have e : q = q / nl * nl + q % nl := by
        have := Nat.div_add_mod q nl; rw [Nat.mul_comm] at this; exact this.symm
      rw [e]
      exact hCreg _ _ _ ((Nat.div_lt_iff_lt_mul hnl).2 hq) (Nat.mod_lt _ hnl) hl
    · intro i hi
      exact ⟨(hAt kk i hkk hi).1, h_i1 _ (hAt kk i hkk hi).2⟩
    · intro j hj
      exact ⟨(hBt kk j hkk hj).1, h_i1 _ (hBt kk j hkk hj).2⟩
  refine (hload.append hloop).append ?_
  apply Safe.of_forall
  intro o ho
  obtain ⟨i, j, l, hi, hj, hl, rfl⟩ := mem_ukernStoreC.1 ho
  refine ⟨(hCt i _ hi (mulAdd_lt hj hl)).1, ?_⟩
  intro r hr
  simp only [Op.reads, List.mem_singleton] at hr
  subst hr
  refine ⟨inbReg _ rfl, initAfter_of_mem (Or.inr ?_)⟩
  exact ⟨_, mem_append_left _ (mem_ukernLoadC.2 ⟨i, j, l, hi, hj, hl, rfl⟩), rfl⟩

end Cake
