/-
The kernel of the matrix-vector example: effect and safety.
-/
import Verif.Model.Gemv
import Verif.Proofs.Acc

namespace Cake
open List

variable {α : Type _} (F : Arith α)

/-- The kernel without pointer arithmetic. -/
theorem gemvKernel_eq (t : Nat) (A B C : Loc) (S k : Nat) :
    gemvKernel t A B C S k =
      ((range 8).map fun l => Op.copy (gC t l) (C +ₚ l)) ++
      ((range (k / 8)).flatMap fun q => gemvStep t A B S 8 (q * (8 * S)) (q * 8)) ++
      ((range (k % 8)).flatMap fun r => gemvStep t A B S 1 (k / 8 * (8 * S) + r * S) (k / 8 * 8 + r)) ++
      ((range 8).map fun l => Op.copy (C +ₚ l) (gC t l)) := by
  unfold gemvKernel
  have hk : k - k % 8 = k / 8 * 8 := by omega
  simp only [hk, cfor_zero_mul _ 8 (by omega : 0 < 8), loopS_map]
  have h1 := loopS_range_st (fun (_ : Nat) (s : Nat × Nat) =>
    (gemvStep t A B S 8 s.1 s.2, (s.1 + 8 * S, s.2 + 8))) (fun q => (q * (8 * S), q * 8)) (k / 8) (by
      intro i _
      simp only [Prod.mk.injEq]
      constructor <;> ring)
  simp only [Nat.zero_mul] at h1
  rw [h1]
  have h2 := loopS_range_st (fun (_ : Nat) (s : Nat × Nat) =>
    (gemvStep t A B S 1 s.1 s.2, (s.1 + S, s.2 + 1)))
    (fun r => (k / 8 * (8 * S) + r * S, k / 8 * 8 + r)) (k % 8) (by
      intro i _
      simp only [Prod.mk.injEq]
      constructor <;> ring)
  simp only [Nat.zero_mul, Nat.add_zero] at h2
  rw [h2]

/-- Loading registers. -/
theorem gemv_load {t base n : Nat} {src : Nat → Nat → Loc} (hsrc : ∀ u l, (src u l).buf ≠ .reg t) (m : Mem α) :
    (∀ u l, u < n → l < 8 → exec F ((range n).flatMap fun u => (range 8).map fun l =>
      Op.copy ⟨.reg t, base + (u * 8 + l)⟩ (src u l)) m ⟨.reg t, base + (u * 8 + l)⟩ = m (src u l)) ∧
    ∀ x : Loc, (∀ i, i < n * 8 → x ≠ ⟨.reg t, base + i⟩) → exec F ((range n).flatMap fun u =>
      (range 8).map fun l => Op.copy ⟨.reg t, base + (u * 8 + l)⟩ (src u l)) m x = m x := by
  have hs : SeqW (.reg t) base (n * 8) ((range n).flatMap fun u => (range 8).map fun l =>
      Op.copy ⟨.reg t, base + (u * 8 + l)⟩ (src u l)) := by
    apply SeqW.flatMap
    intro u _
    apply SeqW.map
    intro l _
    simp only [Op.dst, Loc.mk.injEq, true_and]
    ring
  refine ⟨?_, ?_⟩
  · intro u l hu hl
    have := exec_mem F ((range n).flatMap fun u => (range 8).map fun l =>
      Op.copy ⟨.reg t, base + (u * 8 + l)⟩ (src u l)) m (Op.copy ⟨.reg t, base + (u * 8 + l)⟩ (src u l))
      (by simp only [mem_flatMap, mem_map, mem_range]; exact ⟨u, hu, l, hl, rfl⟩) hs.nodup (by
        intro r hr o' ho' e
        simp only [Op.reads, mem_singleton] at hr
        simp only [mem_flatMap, mem_map, mem_range] at ho'
        obtain ⟨_, _, _, _, rfl⟩ := ho'
        exact hsrc u l (by rw [← hr, ← e]; rfl))
    simpa [Op.dst, Op.val] using this
  · intro x hx
    apply exec_frame
    intro o ho e
    simp only [mem_flatMap, mem_map, mem_range] at ho
    obtain ⟨u, hu, l, hl, rfl⟩ := ho
    exact hx _ (mulAdd_lt hu hl) e.symm

theorem gemvStep_dst {t : Nat} {A B : Loc} {S n pA pB : Nat} (o : Op) (ho : o ∈ gemvStep t A B S n pA pB) :
    o.dst.buf = .reg t := by
  unfold gemvStep at ho
  simp only [mem_append, mem_flatMap, mem_map, mem_range] at ho
  rcases ho with (⟨_, _, _, _, rfl⟩ | ⟨_, _, _, _, rfl⟩) | ⟨_, _, _, _, rfl⟩ <;> rfl

/-- One pass adds `n` products to each lane. -/
theorem gemvStep_acc {t : Nat} {A B : Loc} (hA : A.buf ≠ .reg t) (hB : B.buf ≠ .reg t) {S n pA pB l : Nat}
    (hn : n ≤ 8) (hl : l < 8) :
    Accum F (fun x => x.buf ≠ .reg t) (gemvStep t A B S n pA pB) (gC t l)
      ((range n).map fun u => (A +ₚ (pA + u * S + l), B +ₚ (pB + u))) := by
  refine ⟨?_, ?_, ?_⟩
  · intro m
    unfold gemvStep
    rw [exec_append, exec_append]
    obtain ⟨a1, a2⟩ := gemv_load F (t := t) (base := 8) (n := n) (src := fun u l => A +ₚ (pA + u * S + l))
      (by intro u l; simpa using hA) m
    generalize hm1 : exec F ((range n).flatMap fun u => (range 8).map fun l =>
      Op.copy (gA t u l) (A +ₚ (pA + u * S + l))) m = m1
    have a1' : ∀ u, u < n → m1 (gA t u l) = m (A +ₚ (pA + u * S + l)) := by
      intro u hu; rw [← hm1]; exact a1 u l hu hl
    have a2' : ∀ x : Loc, (∀ i, i < n * 8 → x ≠ ⟨.reg t, 8 + i⟩) → m1 x = m x := by
      intro x hx; rw [← hm1]; exact a2 x hx
    obtain ⟨b1, b2⟩ := gemv_load F (t := t) (base := 72) (n := n) (src := fun u _ => B +ₚ (pB + u))
      (by intro u l; simpa using hB) m1
    generalize hm2 : exec F ((range n).flatMap fun u => (range 8).map fun l =>
      Op.copy (gB t u l) (B +ₚ (pB + u))) m1 = m2
    have b1' : ∀ u, u < n → m2 (gB t u l) = m1 (B +ₚ (pB + u)) := by
      intro u hu; rw [← hm2]; exact b1 u l hu hl
    have b2' : ∀ x : Loc, (∀ i, i < n * 8 → x ≠ ⟨.reg t, 72 + i⟩) → m2 x = m1 x := by
      intro x hx; rw [← hm2]; exact b2 x hx
    have acc : Accum F (fun x => x.buf = .reg t ∧ 8 ≤ x.idx) ((range n).flatMap fun u => (range 8).map fun l =>
        Op.fma (gC t l) (gA t u l) (gB t u l)) (gC t l) ((range n).flatMap fun u => [(gA t u l, gB t u l)]) := by
      apply Accum.flatMap
      intro u _
      rw [map_eq_flatMap]
      apply Accum.single nodup_range (mem_range.2 hl)
      · refine ⟨fun m => by simp [exec, Op.step, Op.dst, Op.val], fun m r hr => ?_, ?_⟩
        · apply exec_frame
          intro o ho e
          rw [mem_singleton.1 ho] at e
          rw [← e] at hr
          simp only [Op.dst, gC] at hr
          omega
        · intro ab hab
          rw [mem_singleton.1 hab]
          simp [gA, gB]
          omega
      · intro l' hl' hne
        rw [mem_range] at hl'
        apply Accum.none
        · intro o ho e
          rw [mem_singleton.1 ho] at e
          simp only [Op.dst, gC, Loc.mk.injEq, true_and] at e
          exact hne e
        · intro o ho hr
          rw [mem_singleton.1 ho] at hr
          simp only [Op.dst, gC] at hr
          omega
    rw [acc.val m2, ← map_eq_flatMap, foldl_map, foldl_map]
    have e0 : m2 (gC t l) = m (gC t l) := by
      rw [b2', a2']
      · intro i _; simp only [gC, ne_eq, Loc.mk.injEq, true_and]; omega
      · intro i _; simp only [gC, ne_eq, Loc.mk.injEq, true_and]; omega
    rw [e0]
    apply foldl_ext
    intro acc u hu
    rw [mem_range] at hu
    have e1 : m2 (gA t u l) = m (A +ₚ (pA + u * S + l)) := by
      rw [b2', a1' u hu]
      intro i _
      simp only [gA, ne_eq, Loc.mk.injEq, true_and]
      omega
    have e2 : m2 (gB t u l) = m (B +ₚ (pB + u)) := by
      rw [b1' u hu, a2']
      intro i _ e
      exact hB (by have := congrArg Loc.buf e; simpa using this)
    rw [e1, e2]
  · intro m r hr
    apply exec_frame
    intro o ho e
    exact hr (e ▸ gemvStep_dst o ho)
  · intro ab hab
    obtain ⟨u, _, rfl⟩ := mem_map.1 hab
    exact ⟨by simpa using hA, by simpa using hB⟩

theorem range_split8 {β : Type _} (k : Nat) (f : Nat → β) :
    ((range (k / 8)).flatMap fun q => (range 8).map fun u => f (q * 8 + u)) ++
      ((range (k % 8)).map fun r => f (k / 8 * 8 + r)) = (range k).map f := by
  have h1 : ∀ n, ((range n).flatMap fun q => (range 8).map fun u => f (q * 8 + u)) =
      (range (n * 8)).map f := by
    intro n
    induction n with
    | zero => simp
    | succ n ih =>
      rw [List.range_succ (n := n), List.flatMap_append, ih]
      have : (n + 1) * 8 = n * 8 + 8 := by ring
      rw [this, List.range_add, List.map_append]
      simp [List.map_map]
  rw [h1]
  have h2 : k = k / 8 * 8 + k % 8 := by omega
  conv_rhs => rw [h2, List.range_add, List.map_append]
  simp [List.map_map]

/-- The loop of the kernel adds the `k` products to each lane, in order. -/
theorem gemvLoop_acc {t : Nat} {A B : Loc} (hA : A.buf ≠ .reg t) (hB : B.buf ≠ .reg t) {S k l : Nat}
    (hl : l < 8) :
    Accum F (fun x => x.buf ≠ .reg t)
      (((range (k / 8)).flatMap fun q => gemvStep t A B S 8 (q * (8 * S)) (q * 8)) ++
      ((range (k % 8)).flatMap fun r => gemvStep t A B S 1 (k / 8 * (8 * S) + r * S) (k / 8 * 8 + r)))
      (gC t l) ((range k).map fun kk => (A +ₚ (kk * S + l), B +ₚ kk)) := by
  rw [← range_split8]
  apply Accum.append
  · apply Accum.flatMap
    intro q _
    have := gemvStep_acc F hA hB (S := S) (n := 8) (pA := q * (8 * S)) (pB := q * 8) (le_refl 8) hl
    refine (congrArg (Accum F _ _ _) ?_).mp this
    apply map_congr_left
    intro u _
    rw [show q * (8 * S) + u * S + l = (q * 8 + u) * S + l by ring]
  · rw [map_eq_flatMap]
    apply Accum.flatMap
    intro r _
    have := gemvStep_acc F hA hB (S := S) (n := 1) (pA := k / 8 * (8 * S) + r * S) (pB := k / 8 * 8 + r)
      (by omega) hl
    simp only [range_one, map_cons, map_nil, Nat.zero_mul, Nat.add_zero] at this
    convert this using 3
    · congr 1; ring

theorem mem_gemvKernel {t : Nat} {A B C : Loc} {S k : Nat} {o : Op} :
    o ∈ gemvKernel t A B C S k ↔ (∃ l, l < 8 ∧ o = .copy (gC t l) (C +ₚ l)) ∨
      (∃ q, q < k / 8 ∧ o ∈ gemvStep t A B S 8 (q * (8 * S)) (q * 8)) ∨
      (∃ r, r < k % 8 ∧ o ∈ gemvStep t A B S 1 (k / 8 * (8 * S) + r * S) (k / 8 * 8 + r)) ∨
      ∃ l, l < 8 ∧ o = .copy (C +ₚ l) (gC t l) := by
  rw [gemvKernel_eq]
  simp only [mem_append, mem_flatMap, mem_map, mem_range, or_assoc, eq_comm]

theorem gemvKernel_dst {t : Nat} {A B C : Loc} {S k : Nat} (o : Op) (ho : o ∈ gemvKernel t A B C S k) :
    o.dst.buf = .reg t ∨ ∃ l, l < 8 ∧ o.dst = C +ₚ l := by
  rcases mem_gemvKernel.1 ho with ⟨l, _, rfl⟩ | ⟨q, _, h⟩ | ⟨q, _, h⟩ | ⟨l, hl, rfl⟩
  · exact Or.inl rfl
  · exact Or.inl (gemvStep_dst o h)
  · exact Or.inl (gemvStep_dst o h)
  · exact Or.inr ⟨l, hl, rfl⟩

theorem gemvStep_reads {t : Nat} {A B : Loc} {S n pA pB : Nat} (o : Op) (ho : o ∈ gemvStep t A B S n pA pB)
    (x : Loc) (hx : x ∈ o.reads) : x.buf = .reg t ∨ x.buf = A.buf ∨ x.buf = B.buf := by
  unfold gemvStep at ho
  simp only [mem_append, mem_flatMap, mem_map, mem_range] at ho
  rcases ho with (⟨_, _, _, _, rfl⟩ | ⟨_, _, _, _, rfl⟩) | ⟨_, _, _, _, rfl⟩
  · rw [mem_singleton.1 hx]; exact Or.inr (Or.inl rfl)
  · rw [mem_singleton.1 hx]; exact Or.inr (Or.inr rfl)
  · simp only [Op.reads, mem_cons, not_mem_nil, or_false] at hx
    rcases hx with rfl | rfl | rfl <;> exact Or.inl rfl

theorem gemvKernel_reads {t : Nat} {A B C : Loc} {S k : Nat} (o : Op) (ho : o ∈ gemvKernel t A B C S k) (x : Loc)
    (hx : x ∈ o.reads) :
    x.buf = .reg t ∨ (∃ l, l < 8 ∧ x = C +ₚ l) ∨ x.buf = A.buf ∨ x.buf = B.buf := by
  rcases mem_gemvKernel.1 ho with ⟨l, hl, rfl⟩ | ⟨q, _, h⟩ | ⟨q, _, h⟩ | ⟨l, hl, rfl⟩
  · exact Or.inr (Or.inl ⟨l, hl, mem_singleton.1 hx⟩)
  · rcases gemvStep_reads o h x hx with h | h | h
    · exact Or.inl h
    · exact Or.inr (Or.inr (Or.inl h))
    · exact Or.inr (Or.inr (Or.inr h))
  · rcases gemvStep_reads o h x hx with h | h | h
    · exact Or.inl h
    · exact Or.inr (Or.inr (Or.inl h))
    · exact Or.inr (Or.inr (Or.inr h))
  · rw [mem_singleton.1 hx]; exact Or.inl rfl

/-- The kernel adds `k` products to each of its eight elements of C, in order. -/
theorem gemvKernel_acc {t : Nat} {A B C : Loc} (hA : ∀ t, A.buf ≠ .reg t) (hB : ∀ t, B.buf ≠ .reg t)
    (hC : ∀ t, C.buf ≠ .reg t) (hAC : A.buf ≠ C.buf) (hBC : B.buf ≠ C.buf) {S k l : Nat} (hl : l < 8) :
    Accum F (fun x => x.buf ≠ C.buf ∧ ∀ t, x.buf ≠ .reg t) (gemvKernel t A B C S k) (C +ₚ l)
      ((range k).map fun kk => (A +ₚ (kk * S + l), B +ₚ kk)) := by
  refine ⟨?_, ?_, ?_⟩
  · intro m
    rw [gemvKernel_eq, append_assoc (as := (range 8).map fun l => Op.copy (gC t l) (C +ₚ l)), exec_append,
      exec_append]
    have acc := gemvLoop_acc F (hA t) (hB t) (S := S) (k := k) hl
    have hld := gemv_load F (t := t) (base := 0) (n := 1) (src := fun _ l => C +ₚ l) (by intro _ l; simpa using hC t) m
    simp only [range_one, flatMap_cons, flatMap_nil, append_nil, Nat.zero_add] at hld
    obtain ⟨d1, d2⟩ := hld
    have d1' := d1 0 l (by omega) hl
    simp only [Nat.zero_mul, Nat.zero_add] at d1' d2
    generalize hm1 : exec F ((range 8).map fun l => Op.copy (gC t l) (C +ₚ l)) m = m1
    have e1 : m1 (gC t l) = m (C +ₚ l) := by rw [← hm1]; exact d1'
    have e2 : ∀ x : Loc, x.buf ≠ .reg t → m1 x = m x := by
      intro x hx
      rw [← hm1]
      apply d2
      intro i _ e
      rw [e] at hx
      exact hx rfl
    generalize hm2 : exec F (((range (k / 8)).flatMap fun q => gemvStep t A B S 8 (q * (8 * S)) (q * 8)) ++
      ((range (k % 8)).flatMap fun r => gemvStep t A B S 1 (k / 8 * (8 * S) + r * S) (k / 8 * 8 + r))) m1 = m2
    have e3 := acc.val m1
    rw [hm2] at e3
    have hs : SeqW C.buf C.idx 8 ((range 8).map fun l => Op.copy (C +ₚ l) (gC t l)) := by
      apply SeqW.map
      intro i _
      simp [Op.dst, Loc.off]
    have e4 := exec_mem F ((range 8).map fun l => Op.copy (C +ₚ l) (gC t l)) m2 (Op.copy (C +ₚ l) (gC t l))
      (mem_map.2 ⟨l, mem_range.2 hl, rfl⟩) hs.nodup (by
        intro r hr o' ho' e
        obtain ⟨l', _, rfl⟩ := mem_map.1 ho'
        rw [mem_singleton.1 hr] at e
        exact hC t (by have := congrArg Loc.buf e; simpa [Op.dst, gC] using this))
    simp only [Op.dst, Op.val] at e4
    rw [e4, e3, e1, foldl_map, foldl_map]
    apply foldl_ext
    intro acc kk _
    rw [e2 _ (by simpa using hA t), e2 _ (by simpa using hB t)]
  · intro m r hr
    apply exec_frame
    intro o ho e
    rcases gemvKernel_dst o ho with h | ⟨i, _, h⟩
    · exact hr.2 t (by rw [← e, h])
    · exact hr.1 (by rw [← e, h, off_buf])
  · intro ab hab
    obtain ⟨u, _, rfl⟩ := mem_map.1 hab
    exact ⟨⟨by simpa using hAC, by simpa using hA⟩, ⟨by simpa using hBC, by simpa using hB⟩⟩

theorem gemvStep_safe {t : Nat} {A B : Loc} {S n pA pB : Nat} {size : Buf → Option Nat} {init : Loc → Bool}
    (hc : ∀ l, l < 8 → init (gC t l) = true)
    (hA : ∀ u l, u < n → l < 8 → InB size (A +ₚ (pA + u * S + l)) ∧ init (A +ₚ (pA + u * S + l)) = true)
    (hB : ∀ u, u < n → InB size (B +ₚ (pB + u)) ∧ init (B +ₚ (pB + u)) = true) :
    Safe size init (gemvStep t A B S n pA pB) := by
  have inbReg : ∀ x : Loc, x.buf = .reg t → InB size x := by
    intro x hx; simp [InB, hx]
  unfold gemvStep
  refine Safe.append (Safe.append' ?_ ?_) ?_
  · apply Safe.of_forall
    intro o ho
    simp only [mem_flatMap, mem_map, mem_range] at ho
    obtain ⟨u, hu, l, hl, rfl⟩ := ho
    refine ⟨inbReg _ rfl, ?_⟩
    intro r hr
    rw [mem_singleton.1 hr]
    exact hA u l hu hl
  · apply Safe.of_forall
    intro o ho
    simp only [mem_flatMap, mem_map, mem_range] at ho
    obtain ⟨u, hu, l, hl, rfl⟩ := ho
    refine ⟨inbReg _ rfl, ?_⟩
    intro r hr
    rw [mem_singleton.1 hr]
    exact hB u hu
  · apply Safe.of_forall
    intro o ho
    simp only [mem_flatMap, mem_map, mem_range] at ho
    obtain ⟨u, hu, l, hl, rfl⟩ := ho
    refine ⟨inbReg _ rfl, ?_⟩
    intro r hr
    simp only [Op.reads, mem_cons, not_mem_nil, or_false] at hr
    rcases hr with rfl | rfl | rfl
    · refine ⟨inbReg _ rfl, initAfter_of_mem (Or.inr ⟨Op.copy (gA t u l) (A +ₚ (pA + u * S + l)),
        mem_append_left _ ?_, rfl⟩)⟩
      exact mem_flatMap.2 ⟨u, mem_range.2 hu, mem_map.2 ⟨l, mem_range.2 hl, rfl⟩⟩
    · refine ⟨inbReg _ rfl, initAfter_of_mem (Or.inr ⟨Op.copy (gB t u l) (B +ₚ (pB + u)),
        mem_append_right _ ?_, rfl⟩)⟩
      exact mem_flatMap.2 ⟨u, mem_range.2 hu, mem_map.2 ⟨l, mem_range.2 hl, rfl⟩⟩
    · exact ⟨inbReg _ rfl, initAfter_of_mem (Or.inl (hc l hl))⟩

theorem gemvKernel_safe {t : Nat} {A B C : Loc} {S k : Nat} {size : Buf → Option Nat} {init : Loc → Bool}
    (hC : ∀ l, l < 8 → InB size (C +ₚ l) ∧ init (C +ₚ l) = true)
    (hA : ∀ kk l, kk < k → l < 8 → InB size (A +ₚ (kk * S + l)) ∧ init (A +ₚ (kk * S + l)) = true)
    (hB : ∀ kk, kk < k → InB size (B +ₚ kk) ∧ init (B +ₚ kk) = true) :
    Safe size init (gemvKernel t A B C S k) := by
  have inbReg : ∀ x : Loc, x.buf = .reg t → InB size x := by
    intro x hx; simp [InB, hx]
  have hreg : ∀ l, l < 8 → initAfter ((range 8).map fun l => Op.copy (gC t l) (C +ₚ l)) init (gC t l) = true := by
    intro l hl
    exact initAfter_of_mem (Or.inr ⟨_, mem_map.2 ⟨l, mem_range.2 hl, rfl⟩, rfl⟩)
  rw [gemvKernel_eq, append_assoc (as := (range 8).map fun l => Op.copy (gC t l) (C +ₚ l))]
  refine Safe.append (Safe.append ?_ ?_) ?_
  · apply Safe.of_forall
    intro o ho
    obtain ⟨l, hl, rfl⟩ := mem_map.1 ho
    refine ⟨inbReg _ rfl, ?_⟩
    intro r hr
    rw [mem_singleton.1 hr]
    exact hC l (mem_range.1 hl)
  · refine Safe.append' (Safe.flatMap ?_) (Safe.flatMap ?_)
    · intro q hq
      rw [mem_range] at hq
      apply gemvStep_safe hreg
      · intro u l hu hl
        have := hA (q * 8 + u) l (by omega) hl
        have e : q * (8 * S) + u * S + l = (q * 8 + u) * S + l := by ring
        rw [e]
        exact ⟨this.1, initAfter_of_mem (Or.inl this.2)⟩
      · intro u hu
        have := hB (q * 8 + u) (by omega)
        exact ⟨this.1, initAfter_of_mem (Or.inl this.2)⟩
    · intro r hr
      rw [mem_range] at hr
      apply gemvStep_safe hreg
      · intro u l hu hl
        have := hA (k / 8 * 8 + r + u) l (by omega) hl
        have e : k / 8 * (8 * S) + r * S + u * S + l = (k / 8 * 8 + r + u) * S + l := by ring
        rw [e]
        exact ⟨this.1, initAfter_of_mem (Or.inl this.2)⟩
      · intro u hu
        have := hB (k / 8 * 8 + r + u) (by omega)
        exact ⟨this.1, initAfter_of_mem (Or.inl this.2)⟩
  · apply Safe.of_forall
    intro o ho
    obtain ⟨l, hl, rfl⟩ := mem_map.1 ho
    rw [mem_range] at hl
    refine ⟨(hC l hl).1, ?_⟩
    intro r hr
    rw [mem_singleton.1 hr]
    exact ⟨inbReg _ rfl, initAfter_of_mem (Or.inr ⟨_, mem_append_left _ (mem_map.2 ⟨l, mem_range.2 hl, rfl⟩), rfl⟩)⟩

end Cake
