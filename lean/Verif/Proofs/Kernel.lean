import Verif.Model.Kernel
import Verif.LoopLemmas

namespace Cake
open List

theorem mulAdd_inj {L q q' l l' : Nat} (hl : l < L) (hl' : l' < L)
    (h : q * L + l = q' * L + l') : q = q' ∧ l = l' := by
  have hL : 0 < L := by omega
  have h1 : (q * L + l) / L = q := by
    rw [Nat.mul_comm, Nat.mul_add_div hL, Nat.div_eq_of_lt hl]; omega
  have h2 : (q' * L + l') / L = q' := by
    rw [Nat.mul_comm, Nat.mul_add_div hL, Nat.div_eq_of_lt hl']; omega
  have : q = q' := by rw [← h1, ← h2, h]
  subst this
  exact ⟨rfl, by omega⟩

theorem mulAdd_lt {L q l n : Nat} (hq : q < n) (hl : l < L) : q * L + l < n * L := by
  have : (q + 1) * L ≤ n * L := Nat.mul_le_mul_right L (by omega)
  rw [Nat.add_mul] at this
  omega

variable {α : Type _} (F : Arith α)

/-- Row `i` of the inner kernel. -/
def kernRow (L m nl t : Nat) (A : Loc) (ao i : Nat) : List Op :=
  ((range L).map fun l => Op.copy (rA L m nl t l) (A +ₚ ao)) ++
    ((range nl).flatMap fun j => (range L).map fun l =>
      Op.fma (rC L t (i * nl + j) l) (rA L m nl t l) (rB L m nl t j l))

def kernLoadB (L m nl t : Nat) (B : Loc) (boff : Nat) : List Op :=
  (range nl).flatMap fun j => (range L).map fun l =>
      Op.copy (rB L m nl t j l) (B +ₚ (boff + (j * L + l)))

theorem kernInner_eq (L m nl t : Nat) (A B : Loc) (ao bo : Nat) :
    kernInner L m nl t A B ao bo =
      (kernLoadB L m nl t B bo ++ (range m).flatMap (fun i => kernRow L m nl t A (ao + i) i),
        ao + m) := by
  unfold kernInner
  rw [loopS_range (c := 1) _ _ _ (fun i _ s => rfl)]
  simp [kernLoadB, kernRow]

theorem range_split4 (k : Nat) (f : Nat → List Op) :
    ((range (k / 4)).flatMap fun q => (range 4).flatMap fun u => f (q * 4 + u)) ++
      ((range (k % 4)).flatMap fun r => f (k / 4 * 4 + r)) = (range k).flatMap f := by
  have h1 : ∀ n, ((range n).flatMap fun q => (range 4).flatMap fun u => f (q * 4 + u)) =
      (range (n * 4)).flatMap f := by
    intro n
    induction n with
    | zero => simp
    | succ n ih =>
      rw [List.range_succ (n := n), List.flatMap_append, ih]
      have : (n + 1) * 4 = n * 4 + 4 := by ring
      rw [this, List.range_add, List.flatMap_append]
      simp [List.flatMap_map]
  rw [h1]
  have h2 : k = k / 4 * 4 + k % 4 := by omega
  conv_rhs => rw [h2, List.range_add, List.flatMap_append]
  simp [List.flatMap_map]

theorem kernLoop_eq (L m nl t : Nat) (A B : Loc) (narg k : Nat) :
    kernLoop L m nl t A B narg k =
      (range k).flatMap fun kk => (kernInner L m nl t A B (kk * m) (kk * narg)).1 := by
  unfold kernLoop
  have hin : ∀ (a b n : Nat),
      loopS (range n) (fun (_ : Nat) (s : Nat × Nat) =>
        ((kernInner L m nl t A B s.1 s.2).1, ((kernInner L m nl t A B s.1 s.2).2, s.2 + narg))) (a, b)
      = ((range n).flatMap (fun u => (kernInner L m nl t A B (a + u * m) (b + u * narg)).1),
          (a + n * m, b + n * narg)) := by
    intro a b n
    have := loopS_range_st (fun (_ : Nat) (s : Nat × Nat) =>
        ((kernInner L m nl t A B s.1 s.2).1, ((kernInner L m nl t A B s.1 s.2).2, s.2 + narg)))
        (fun i => (a + i * m, b + i * narg)) n (by
          intro i _
          simp only [kernInner_eq, Prod.mk.injEq]
          constructor <;> ring)
    simpa using this
  have hk : k - k % 4 = k / 4 * 4 := by omega
  simp only [hk, cfor_zero_mul _ 4 (by omega : 0 < 4), cfor_one, loopS_map]
  have hmain : loopS (range (k / 4)) (fun (_ : Nat) (s : Nat × Nat) =>
      loopS (range 4) (fun (_ : Nat) (s : Nat × Nat) =>
        ((kernInner L m nl t A B s.1 s.2).1,
          ((kernInner L m nl t A B s.1 s.2).2, s.2 + narg))) s) (0, 0)
      = ((range (k / 4)).flatMap (fun q => (range 4).flatMap (fun u =>
          (kernInner L m nl t A B ((q * 4 + u) * m) ((q * 4 + u) * narg)).1)),
          (k / 4 * 4 * m, k / 4 * 4 * narg)) := by
    have := loopS_range_st (fun (_ : Nat) (s : Nat × Nat) =>
      loopS (range 4) (fun (_ : Nat) (s : Nat × Nat) =>
        ((kernInner L m nl t A B s.1 s.2).1,
          ((kernInner L m nl t A B s.1 s.2).2, s.2 + narg))) s)
        (fun q => (q * 4 * m, q * 4 * narg)) (k / 4) (by
          intro i _
          simp only [hin, Prod.mk.injEq]
          constructor <;> ring)
    simp only [hin] at this
    simp only [Nat.zero_mul] at this
    simp only [hin]
    rw [this]
    congr 1
    apply List.flatMap_congr
    intro q _
    apply List.flatMap_congr
    intro u _
    congr 2 <;> ring
  rw [hmain]
  simp only [hin]
  rw [← range_split4 k (fun kk => (kernInner L m nl t A B (kk * m) (kk * narg)).1)]
  congr 1
  apply List.flatMap_congr
  intro u _
  congr 2 <;> ring

/-! ### Effect -/

theorem kernLoadB_spec (L m nl t : Nat) (B : Loc) (hB : ∀ t, B.buf ≠ .reg t) (bo : Nat) (M : Mem α)
    (j l : Nat) (hj : j < nl) (hl : l < L) :
    exec F (kernLoadB L m nl t B bo) M (rB L m nl t j l) = M (B +ₚ (bo + (j * L + l))) := by
  apply exec_const
  · exact ⟨.copy (rB L m nl t j l) (B +ₚ (bo + (j * L + l))),
      by simp only [kernLoadB, mem_flatMap, mem_map, mem_range]; exact ⟨j, hj, l, hl, rfl⟩, rfl⟩
  · intro o ho hd
    simp only [kernLoadB, mem_flatMap, mem_map, mem_range] at ho
    obtain ⟨j', hj', l', hl', rfl⟩ := ho
    simp only [Op.dst, rB, Loc.mk.injEq, true_and] at hd
    have := mulAdd_inj hl' hl (q := j') (q' := j) (by omega)
    obtain ⟨rfl, rfl⟩ := this
    refine ⟨?_, rfl⟩
    intro r hr o' ho' e
    simp only [Op.reads, List.mem_singleton] at hr
    subst hr
    simp only [kernLoadB, mem_flatMap, mem_map, mem_range] at ho'
    obtain ⟨_, _, _, _, rfl⟩ := ho'
    simp only [Op.dst, rB] at e
    exact hB t (by have := congrArg Loc.buf e; simpa using this.symm)

theorem kernRow_spec (L m nl t : Nat) (A : Loc) (hA : ∀ t, A.buf ≠ .reg t) (ao : Nat) (M : Mem α)
    (i j l : Nat) (hi : i < m) (hj : j < nl) (hl : l < L) :
    exec F (kernRow L m nl t A ao i) M (rC L t (i * nl + j) l) =
      F.fma (M (A +ₚ ao)) (M (rB L m nl t j l)) (M (rC L t (i * nl + j) l)) := by
  unfold kernRow
  rw [exec_append]
  set M1 := exec F ((range L).map fun l => Op.copy (rA L m nl t l) (A +ₚ ao)) M with hM1
  have hqlt : ∀ j' l', j' < nl → l' < L → (i * nl + j') * L + l' < m * nl * L := by
    intro j' l' hj' hl'
    exact mulAdd_lt (mulAdd_lt hi hj') hl'
  have hjlt : ∀ j' l', j' < nl → l' < L → j' * L + l' < nl * L := fun _ _ h h' => mulAdd_lt h h'
  have hAl : M1 (rA L m nl t l) = M (A +ₚ ao) := by
    rw [hM1]
    apply exec_const
    · exact ⟨_, mem_map.2 ⟨l, mem_range.2 hl, rfl⟩, rfl⟩
    · intro o ho hd
      obtain ⟨l', hl', rfl⟩ := mem_map.1 ho
      refine ⟨?_, rfl⟩
      intro r hr o' ho' e
      simp only [Op.reads, List.mem_singleton] at hr
      subst hr
      obtain ⟨l'', _, rfl⟩ := mem_map.1 ho'
      exact hA t (by have := congrArg Loc.buf e; simpa [Op.dst, rA] using this.symm)
  have hfr : ∀ x, (∀ l', l' < L → rA L m nl t l' ≠ x) → M1 x = M x := by
    intro x hx
    rw [hM1]
    apply exec_frame
    intro o ho
    obtain ⟨l', hl', rfl⟩ := mem_map.1 ho
    exact hx l' (mem_range.1 hl')
  have hB1 : M1 (rB L m nl t j l) = M (rB L m nl t j l) := by
    apply hfr
    intro l' _ e
    simp only [rA, rB, Loc.mk.injEq, true_and] at e
    have := hjlt j l hj hl
    omega
  have hC1 : M1 (rC L t (i * nl + j) l) = M (rC L t (i * nl + j) l) := by
    apply hfr
    intro l' _ e
    simp only [rA, rC, Loc.mk.injEq, true_and] at e
    have := hqlt j l hj hl
    omega
  have key := exec_mem' F ((range nl).flatMap fun j => (range L).map fun l =>
      Op.fma (rC L t (i * nl + j) l) (rA L m nl t l) (rB L m nl t j l)) M1
      (Op.fma (rC L t (i * nl + j) l) (rA L m nl t l) (rB L m nl t j l))
      (by simp only [mem_flatMap, mem_map, mem_range]; exact ⟨j, hj, l, hl, rfl⟩)
      (by
        have hs : SeqW (.reg t) (i * nl * L) (nl * L) ((range nl).flatMap fun j => (range L).map fun l =>
            Op.fma (rC L t (i * nl + j) l) (rA L m nl t l) (rB L m nl t j l)) := by
          apply SeqW.flatMap
          intro j' _
          apply SeqW.map
          intro l' _
          simp only [Op.dst, rC, Loc.mk.injEq, true_and]
          ring
        exact hs.nodup)
      (by
        intro r hr o' ho' hne e
        simp only [mem_flatMap, mem_map, mem_range] at ho'
        obtain ⟨j', hj', l', hl', rfl⟩ := ho'
        have h1 := hqlt j' l' hj' hl'
        simp only [Op.reads, List.mem_cons, List.not_mem_nil, or_false] at hr
        rcases hr with rfl | rfl | rfl
        · simp only [Op.dst, rC, rA, Loc.mk.injEq, true_and] at e
          omega
        · simp only [Op.dst, rC, rB, Loc.mk.injEq, true_and] at e
          omega
        · simp only [Op.dst, rC, Loc.mk.injEq, true_and] at e
          obtain ⟨h2, rfl⟩ := mulAdd_inj hl' hl e
          have : j' = j := by omega
          subst this
          exact hne rfl)
  simp only [Op.dst, Op.val] at key
  rw [key, hAl, hB1, hC1]

theorem kernRow_dst (L m nl t : Nat) (A : Loc) (ao i : Nat) (o : Op)
    (ho : o ∈ kernRow L m nl t A ao i) :
    (∃ l, l < L ∧ o.dst = rA L m nl t l) ∨
      ∃ j l, j < nl ∧ l < L ∧ o.dst = rC L t (i * nl + j) l := by
  unfold kernRow at ho
  rcases mem_append.1 ho with h | h
  · obtain ⟨l, hl, rfl⟩ := mem_map.1 h
    exact Or.inl ⟨l, mem_range.1 hl, rfl⟩
  · simp only [mem_flatMap, mem_map, mem_range] at h
    obtain ⟨j, hj, l, hl, rfl⟩ := h
    exact Or.inr ⟨j, l, hj, hl, rfl⟩

theorem kernInner_reg (L m nl t : Nat) (A B : Loc) (ao bo : Nat) (o : Op)
    (ho : o ∈ (kernInner L m nl t A B ao bo).1) : o.dst.buf = .reg t := by
  rw [kernInner_eq] at ho
  rcases mem_append.1 ho with h | h
  · simp only [kernLoadB, mem_flatMap, mem_map, mem_range] at h
    obtain ⟨_, _, _, _, rfl⟩ := h
    rfl
  · simp only [mem_flatMap, mem_range] at h
    obtain ⟨i, hi, h⟩ := h
    rcases kernRow_dst L m nl t A _ i o h with ⟨l, _, e⟩ | ⟨j, l, _, _, e⟩ <;> rw [e] <;> rfl

theorem kernInner_spec (L m nl t : Nat) (A B : Loc) (hA : ∀ t, A.buf ≠ .reg t)
    (hB : ∀ t, B.buf ≠ .reg t) (ao bo : Nat) (M : Mem α)
    (i j l : Nat) (hi : i < m) (hj : j < nl) (hl : l < L) :
    exec F (kernInner L m nl t A B ao bo).1 M (rC L t (i * nl + j) l) =
      F.fma (M (A +ₚ (ao + i))) (M (B +ₚ (bo + (j * L + l)))) (M (rC L t (i * nl + j) l)) := by
  rw [kernInner_eq]
  simp only
  rw [exec_append]
  set M1 := exec F (kernLoadB L m nl t B bo) M with hM1
  have hb1 : M1 (rB L m nl t j l) = M (B +ₚ (bo + (j * L + l))) :=
    kernLoadB_spec F L m nl t B hB bo M j l hj hl
  have hqlt : ∀ i' j' l', i' < m → j' < nl → l' < L → (i' * nl + j') * L + l' < m * nl * L := by
    intro i' j' l' hi' hj' hl'
    exact mulAdd_lt (mulAdd_lt hi' hj') hl'
  have hc1 : M1 (rC L t (i * nl + j) l) = M (rC L t (i * nl + j) l) := by
    apply exec_frame
    intro o ho e
    simp only [kernLoadB, mem_flatMap, mem_map, mem_range] at ho
    obtain ⟨j', hj', l', hl', rfl⟩ := ho
    simp only [Op.dst, rB, rC, Loc.mk.injEq, true_and] at e
    have := hqlt i j l hi hj hl
    omega
  have ha1 : M1 (A +ₚ (ao + i)) = M (A +ₚ (ao + i)) := by
    apply exec_frame
    intro o ho e
    simp only [kernLoadB, mem_flatMap, mem_map, mem_range] at ho
    obtain ⟨j', hj', l', hl', rfl⟩ := ho
    exact hA t (by have := congrArg Loc.buf e; simpa [Op.dst, rB] using this.symm)
  apply exec_flatMap_at F (range m) _ M1 i (mem_range.2 hi) nodup_range _ _
    (fun r => r = rC L t (i * nl + j) l ∨ r = rB L m nl t j l ∨ r = A +ₚ (ao + i)) (Or.inl rfl)
  · intro m' hm'
    rw [kernRow_spec F L m nl t A hA _ m' i j l hi hj hl, hm' _ (Or.inl rfl),
      hm' _ (Or.inr (Or.inl rfl)), hm' _ (Or.inr (Or.inr rfl)), hb1, hc1, ha1]
  · intro i' hi' hne o ho hP
    rw [mem_range] at hi'
    rcases kernRow_dst L m nl t A _ i' o ho with ⟨l', hl', e⟩ | ⟨j', l', hj', hl', e⟩
    · rw [e] at hP
      rcases hP with h | h | h
      · simp only [rA, rC, Loc.mk.injEq, true_and] at h
        have := hqlt i j l hi hj hl
        omega
      · simp only [rA, rB, Loc.mk.injEq, true_and] at h
        have := mulAdd_lt (L := L) hj hl
        omega
      · exact hA t (by have := congrArg Loc.buf h; simpa [rA] using this.symm)
    · rw [e] at hP
      rcases hP with h | h | h
      · simp only [rC, Loc.mk.injEq, true_and] at h
        obtain ⟨h2, _⟩ := mulAdd_inj hl' hl h
        exact hne (mulAdd_inj hj' hj h2).1
      · simp only [rC, rB, Loc.mk.injEq, true_and] at h
        have := hqlt i' j' l' hi' hj' hl'
        omega
      · exact hA t (by have := congrArg Loc.buf h; simpa [rC] using this.symm)

/-- One lane of the register accumulators after the outer-product loop. -/
theorem kernLoop_spec (L m nl t : Nat) (A B : Loc) (hA : ∀ t, A.buf ≠ .reg t)
    (hB : ∀ t, B.buf ≠ .reg t) (narg k : Nat) (M : Mem α)
    (i j l : Nat) (hi : i < m) (hj : j < nl) (hl : l < L) :
    exec F (kernLoop L m nl t A B narg k) M (rC L t (i * nl + j) l) =
      (range k).foldl (fun acc kk =>
        F.fma (M (A +ₚ (kk * m + i))) (M (B +ₚ (kk * narg + (j * L + l)))) acc)
        (M (rC L t (i * nl + j) l)) := by
  rw [kernLoop_eq]
  have := exec_range_induct F (fun kk => (kernInner L m nl t A B (kk * m) (kk * narg)).1) k M
    (fun n M' => M' (rC L t (i * nl + j) l) =
      (range n).foldl (fun acc kk =>
        F.fma (M (A +ₚ (kk * m + i))) (M (B +ₚ (kk * narg + (j * L + l)))) acc)
        (M (rC L t (i * nl + j) l)) ∧ ∀ x : Loc, x.buf ≠ .reg t → M' x = M x)
    ⟨rfl, fun _ _ => rfl⟩ (by
      intro n _ M' ⟨h1, h2⟩
      refine ⟨?_, ?_⟩
      · rw [kernInner_spec F L m nl t A B hA hB _ _ _ i j l hi hj hl, List.range_succ, List.foldl_append,
          ← h1, h2 _ (by simpa using hA t), h2 _ (by simpa using hB t)]
        rfl
      · intro x hx
        rw [exec_frame, h2 x hx]
        intro o ho e
        exact hx (e ▸ kernInner_reg L m nl t A B _ _ o ho))
  exact this.1

theorem kernLoop_reg (L m nl t : Nat) (A B : Loc) (narg k : Nat) (o : Op)
    (ho : o ∈ kernLoop L m nl t A B narg k) : o.dst.buf = .reg t := by
  rw [kernLoop_eq] at ho
  obtain ⟨kk, _, ho⟩ := mem_flatMap.1 ho
  exact kernInner_reg L m nl t A B _ _ o ho

theorem kernLoadC_spec (L m nl t : Nat) (C : Loc) (hC : ∀ t, C.buf ≠ .reg t) (M : Mem α)
    (q l : Nat) (hq : q < m * nl) (hl : l < L) :
    exec F (kernLoadC L m nl t C) M (rC L t q l) = M (C +ₚ (q * L + l)) := by
  apply exec_const
  · exact ⟨.copy (rC L t q l) (C +ₚ (q * L + l)),
      by simp only [kernLoadC, mem_flatMap, mem_map, mem_range]; exact ⟨q, hq, l, hl, rfl⟩, rfl⟩
  · intro o ho hd
    simp only [kernLoadC, mem_flatMap, mem_map, mem_range] at ho
    obtain ⟨q', hq', l', hl', rfl⟩ := ho
    simp only [Op.dst, rC, Loc.mk.injEq, true_and] at hd
    obtain ⟨rfl, rfl⟩ := mulAdd_inj hl' hl hd
    refine ⟨?_, rfl⟩
    intro r hr o' ho' e
    simp only [Op.reads, List.mem_singleton] at hr
    subst hr
    simp only [kernLoadC, mem_flatMap, mem_map, mem_range] at ho'
    obtain ⟨_, _, _, _, rfl⟩ := ho'
    exact hC t (by have := congrArg Loc.buf e; simpa [Op.dst, rC] using this.symm)

theorem kernStoreC_spec (L m nl t : Nat) (C : Loc) (hC : ∀ t, C.buf ≠ .reg t) (M : Mem α)
    (q l : Nat) (hq : q < m * nl) (hl : l < L) :
    exec F (kernStoreC L m nl t C) M (C +ₚ (q * L + l)) = M (rC L t q l) := by
  apply exec_const
  · exact ⟨.copy (C +ₚ (q * L + l)) (rC L t q l),
      by simp only [kernStoreC, mem_flatMap, mem_map, mem_range]; exact ⟨q, hq, l, hl, rfl⟩, rfl⟩
  · intro o ho hd
    simp only [kernStoreC, mem_flatMap, mem_map, mem_range] at ho
    obtain ⟨q', hq', l', hl', rfl⟩ := ho
    simp only [Op.dst, off_inj] at hd
    obtain ⟨rfl, rfl⟩ := mulAdd_inj hl' hl hd
    refine ⟨?_, rfl⟩
    intro r hr o' ho' e
    simp only [Op.reads, List.mem_singleton] at hr
    subst hr
    simp only [kernStoreC, mem_flatMap, mem_map, mem_range] at ho'
    obtain ⟨_, _, _, _, rfl⟩ := ho'
    exact hC t (by have := congrArg Loc.buf e; simpa [Op.dst, rC] using this)

/-- Destinations of the kernel: its registers and the C tile. -/
theorem kernel_dst (L m nl t : Nat) (A B C : Loc) (narg k : Nat) (o : Op)
    (ho : o ∈ kernel L m nl t A B C narg k) :
    o.dst.buf = .reg t ∨ ∃ x, x < m * nl * L ∧ o.dst = C +ₚ x := by
  unfold kernel at ho
  rcases mem_append.1 ho with h | h
  · rcases mem_append.1 h with h | h
    · simp only [kernLoadC, mem_flatMap, mem_map, mem_range] at h
      obtain ⟨_, _, _, _, rfl⟩ := h
      exact Or.inl rfl
    · exact Or.inl (kernLoop_reg L m nl t A B narg k o h)
  · simp only [kernStoreC, mem_flatMap, mem_map, mem_range] at h
    obtain ⟨q, hq, l, hl, rfl⟩ := h
    exact Or.inr ⟨q * L + l, mulAdd_lt hq hl, rfl⟩

/-- The kernel adds the product of the packed tiles to the C tile, element by element, `k` ascending.
Tile element `(i, j)`, `i < m`, `j < n = nl*L`, is at offset `i*n + j`. -/
theorem kernel_spec (L m nl t : Nat) (hL : 0 < L) (A B C : Loc) (hA : ∀ t, A.buf ≠ .reg t)
    (hB : ∀ t, B.buf ≠ .reg t) (hC : ∀ t, C.buf ≠ .reg t) (narg k : Nat) (M : Mem α)
    (i j : Nat) (hi : i < m) (hj : j < nl * L) :
    exec F (kernel L m nl t A B C narg k) M (C +ₚ (i * (nl * L) + j)) =
      (range k).foldl (fun acc kk =>
        F.fma (M (A +ₚ (kk * m + i))) (M (B +ₚ (kk * narg + j))) acc)
        (M (C +ₚ (i * (nl * L) + j))) := by
  have hjl : j % L < L := Nat.mod_lt _ hL
  have hjq : j / L < nl := by
    rw [Nat.div_lt_iff_lt_mul hL]; exact hj
  have hjd : j / L * L + j % L = j := by
    have := Nat.div_add_mod j L
    rw [Nat.mul_comm] at this; exact this
  have hidx : i * (nl * L) + j = (i * nl + j / L) * L + j % L := by
    rw [Nat.add_mul]
    conv_lhs => rw [← hjd]
    ring
  have hq : i * nl + j / L < m * nl := mulAdd_lt hi hjq
  have hfr : ∀ x : Loc, x.buf ≠ .reg t → exec F (kernLoadC L m nl t C) M x = M x := by
    intro x hx
    apply exec_frame
    intro o ho e
    simp only [kernLoadC, mem_flatMap, mem_map, mem_range] at ho
    obtain ⟨_, _, _, _, rfl⟩ := ho
    exact hx (by rw [← e]; rfl)
  unfold kernel
  rw [exec_append, exec_append, hidx, kernStoreC_spec F L m nl t C hC _ _ _ hq hjl,
    kernLoop_spec F L m nl t A B hA hB narg k _ i (j / L) (j % L) hi hjq hjl,
    kernLoadC_spec F L m nl t C hC _ _ _ hq hjl]
  congr 1
  funext acc kk
  rw [hfr _ (by simpa using hA t), hfr _ (by simpa using hB t), hjd]

/-- Everything but the registers of the task and the C tile is untouched. -/
theorem kernel_frame (L m nl t : Nat) (A B C : Loc) (narg k : Nat) (M : Mem α) (x : Loc)
    (hx : x.buf ≠ .reg t) (hC : ∀ d, d < m * nl * L → x ≠ C +ₚ d) :
    exec F (kernel L m nl t A B C narg k) M x = M x := by
  apply exec_frame
  intro o ho e
  rcases kernel_dst L m nl t A B C narg k o ho with h | ⟨d, hd, h⟩
  · exact hx (e ▸ h)
  · exact hC d hd (e ▸ h)

/-- Reads of the kernel: own registers, the C tile, `k` columns of the A tile, `k` rows of the
B tile. -/
theorem kernel_reads (L m nl t : Nat) (A B C : Loc) (narg k : Nat) (o : Op)
    (ho : o ∈ kernel L m nl t A B C narg k) (r : Loc) (hr : r ∈ o.reads) :
    r.buf = .reg t ∨ (∃ x, x < m * nl * L ∧ r = C +ₚ x) ∨
      (∃ kk i, kk < k ∧ i < m ∧ r = A +ₚ (kk * m + i)) ∨
      (∃ kk j, kk < k ∧ j < nl * L ∧ r = B +ₚ (kk * narg + j)) := by
  unfold kernel at ho
  rcases mem_append.1 ho with h | h
  · rcases mem_append.1 h with h | h
    · simp only [kernLoadC, mem_flatMap, mem_map, mem_range] at h
      obtain ⟨q, hq, l, hl, rfl⟩ := h
      simp only [Op.reads, List.mem_singleton] at hr
      subst hr
      exact Or.inr (Or.inl ⟨_, mulAdd_lt hq hl, rfl⟩)
    · rw [kernLoop_eq] at h
      obtain ⟨kk, hkk, h⟩ := mem_flatMap.1 h
      rw [mem_range] at hkk
      rw [kernInner_eq] at h
      rcases mem_append.1 h with h | h
      · simp only [kernLoadB, mem_flatMap, mem_map, mem_range] at h
        obtain ⟨j, hj, l, hl, rfl⟩ := h
        simp only [Op.reads, List.mem_singleton] at hr
        subst hr
        exact Or.inr (Or.inr (Or.inr ⟨kk, _, hkk, mulAdd_lt hj hl, rfl⟩))
      · simp only [mem_flatMap, mem_range, kernRow, mem_append, mem_map] at h
        obtain ⟨i, hi, h | h⟩ := h
        · obtain ⟨l, hl, rfl⟩ := h
          simp only [Op.reads, List.mem_singleton] at hr
          subst hr
          exact Or.inr (Or.inr (Or.inl ⟨kk, i, hkk, hi, rfl⟩))
        · obtain ⟨j, hj, l, hl, rfl⟩ := h
          simp only [Op.reads, List.mem_cons, List.not_mem_nil, or_false] at hr
          rcases hr with rfl | rfl | rfl <;> exact Or.inl rfl
  · simp only [kernStoreC, mem_flatMap, mem_map, mem_range] at h
    obtain ⟨q, hq, l, hl, rfl⟩ := h
    simp only [Op.reads, List.mem_singleton] at hr
    subst hr
    exact Or.inl rfl

theorem initAfter_of_mem {ops : List Op} {i : Loc → Bool} {l : Loc}
    (h : i l = true ∨ ∃ o ∈ ops, o.dst = l) : initAfter ops i l = true := by
  simp only [initAfter, Bool.or_eq_true, List.any_eq_true, decide_eq_true_eq]
  exact h.symm

/-- The kernel is free of undefined behaviour if its three tiles are accessible and initialised. -/
theorem kernel_safe (L m nl t : Nat) (A B C : Loc) (narg k : Nat)
    (size : Buf → Option Nat) (init : Loc → Bool)
    (hCt : ∀ x, x < m * nl * L → InB size (C +ₚ x) ∧ init (C +ₚ x) = true)
    (hAt : ∀ kk i, kk < k → i < m → InB size (A +ₚ (kk * m + i)) ∧ init (A +ₚ (kk * m + i)) = true)
    (hBt : ∀ kk j, kk < k → j < nl * L →
      InB size (B +ₚ (kk * narg + j)) ∧ init (B +ₚ (kk * narg + j)) = true) :
    Safe size init (kernel L m nl t A B C narg k) := by
  have inbReg : ∀ x : Loc, x.buf = .reg t → InB size x := by
    intro x hx; simp [InB, hx]
  unfold kernel
  set i1 := initAfter (kernLoadC L m nl t C) init with hi1
  have h_i1 : ∀ l, init l = true → i1 l = true := fun l h => initAfter_of_mem (Or.inl h)
  have hCreg : ∀ q l, q < m * nl → l < L → i1 (rC L t q l) = true := by
    intro q l hq hl
    apply initAfter_of_mem
    right
    exact ⟨.copy (rC L t q l) (C +ₚ (q * L + l)),
      by simp only [kernLoadC, mem_flatMap, mem_map, mem_range]; exact ⟨q, hq, l, hl, rfl⟩, rfl⟩
  have hload : Safe size init (kernLoadC L m nl t C) := by
    apply Safe.of_forall
    intro o ho
    simp only [kernLoadC, mem_flatMap, mem_map, mem_range] at ho
    obtain ⟨q, hq, l, hl, rfl⟩ := ho
    refine ⟨inbReg _ rfl, ?_⟩
    intro r hr
    simp only [Op.reads, List.mem_singleton] at hr
    subst hr
    exact hCt _ (mulAdd_lt hq hl)
  have hloop : Safe size i1 (kernLoop L m nl t A B narg k) := by
    rw [kernLoop_eq]
    apply Safe.flatMap
    intro kk hkk
    rw [mem_range] at hkk
    rw [kernInner_eq]
    simp only
    set i2 := initAfter (kernLoadB L m nl t B (kk * narg)) i1 with hi2
    have hlb : Safe size i1 (kernLoadB L m nl t B (kk * narg)) := by
      apply Safe.of_forall
      intro o ho
      simp only [kernLoadB, mem_flatMap, mem_map, mem_range] at ho
      obtain ⟨j, hj, l, hl, rfl⟩ := ho
      refine ⟨inbReg _ rfl, ?_⟩
      intro r hr
      simp only [Op.reads, List.mem_singleton] at hr
      subst hr
      have := hBt kk _ hkk (mulAdd_lt hj hl)
      exact ⟨this.1, h_i1 _ this.2⟩
    refine hlb.append ?_
    apply Safe.flatMap
    intro i hi
    rw [mem_range] at hi
    unfold kernRow
    have hla : Safe size i2 ((range L).map fun l => Op.copy (rA L m nl t l) (A +ₚ (kk * m + i))) := by
      apply Safe.of_forall
      intro o ho
      obtain ⟨l, hl, rfl⟩ := mem_map.1 ho
      refine ⟨inbReg _ rfl, ?_⟩
      intro r hr
      simp only [Op.reads, List.mem_singleton] at hr
      subst hr
      have := hAt kk i hkk hi
      exact ⟨this.1, initAfter_of_mem (Or.inl (h_i1 _ this.2))⟩
    refine hla.append ?_
    apply Safe.of_forall
    intro o ho
    simp only [mem_flatMap, mem_map, mem_range] at ho
    obtain ⟨j, hj, l, hl, rfl⟩ := ho
    refine ⟨inbReg _ rfl, ?_⟩
    intro r hr
    simp only [Op.reads, List.mem_cons, List.not_mem_nil, or_false] at hr
    rcases hr with rfl | rfl | rfl
    · refine ⟨inbReg _ rfl, initAfter_of_mem (Or.inr ?_)⟩
      exact ⟨_, mem_map.2 ⟨l, mem_range.2 hl, rfl⟩, rfl⟩
    · refine ⟨inbReg _ rfl, initAfter_of_mem (Or.inl (initAfter_of_mem (Or.inr ?_)))⟩
      exact ⟨.copy (rB L m nl t j l) (B +ₚ (kk * narg + (j * L + l))),
        by simp only [kernLoadB, mem_flatMap, mem_map, mem_range]; exact ⟨j, hj, l, hl, rfl⟩, rfl⟩
    · refine ⟨inbReg _ rfl, initAfter_of_mem (Or.inl (initAfter_of_mem (Or.inl ?_)))⟩
      exact hCreg _ _ (mulAdd_lt hi hj) hl
  refine (hload.append hloop).append ?_
  apply Safe.of_forall
  intro o ho
  simp only [kernStoreC, mem_flatMap, mem_map, mem_range] at ho
  obtain ⟨q, hq, l, hl, rfl⟩ := ho
  refine ⟨(hCt _ (mulAdd_lt hq hl)).1, ?_⟩
  intro r hr
  simp only [Op.reads, List.mem_singleton] at hr
  subst hr
  refine ⟨inbReg _ rfl, initAfter_of_mem (Or.inr ?_)⟩
  exact ⟨.copy (rC L t q l) (C +ₚ (q * L + l)),
    mem_append_left _ (by
      simp only [kernLoadC, mem_flatMap, mem_map, mem_range]; exact ⟨q, hq, l, hl, rfl⟩), rfl⟩

end Cake
