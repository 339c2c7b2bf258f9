/-
Operations that add products to one location: which products, and in which order.
-/
import Verif.Proofs.Unpacked

namespace Cake
open List

variable {α : Type _} (F : Arith α)

/-- `ops` adds the products of the pairs in `c`, in this order, to location `l`; the factors are at locations
satisfying `ro`, and `ops` changes none of these. -/
structure Accum (ro : Loc → Prop) (ops : List Op) (l : Loc) (c : List (Loc × Loc)) : Prop where
  val : ∀ m : Mem α, exec F ops m l = c.foldl (fun acc ab => F.fma (m ab.1) (m ab.2) acc) (m l)
  keep : ∀ (m : Mem α) r, ro r → exec F ops m r = m r
  fac : ∀ ab ∈ c, ro ab.1 ∧ ro ab.2

variable {F} {ro : Loc → Prop} {l : Loc}

theorem Accum.nil : Accum F ro [] l [] := ⟨fun _ => rfl, fun _ _ _ => rfl, by simp⟩

theorem Accum.append {o1 o2 : List Op} {c1 c2 : List (Loc × Loc)} (h1 : Accum F ro o1 l c1)
    (h2 : Accum F ro o2 l c2) : Accum F ro (o1 ++ o2) l (c1 ++ c2) := by
  refine ⟨?_, ?_, ?_⟩
  · intro m
    rw [exec_append, h2.val, foldl_append, h1.val]
    apply foldl_ext
    intro acc ab hab
    rw [h1.keep m _ (h2.fac ab hab).1, h1.keep m _ (h2.fac ab hab).2]
  · intro m r hr
    rw [exec_append, h2.keep _ _ hr, h1.keep _ _ hr]
  · intro ab hab
    rcases mem_append.1 hab with h | h
    · exact h1.fac ab h
    · exact h2.fac ab h

theorem Accum.flatMap {β : Type _} {xs : List β} {f : β → List Op} {c : β → List (Loc × Loc)}
    (h : ∀ x ∈ xs, Accum F ro (f x) l (c x)) : Accum F ro (xs.flatMap f) l (xs.flatMap c) := by
  induction xs with
  | nil => exact Accum.nil
  | cons x xs ih =>
    rw [flatMap_cons, flatMap_cons]
    exact (h x (mem_cons_self ..)).append (ih (fun y hy => h y (mem_cons_of_mem _ hy)))

/-- Operations that do not touch `l`. -/
theorem Accum.none {ops : List Op} (h1 : ∀ o ∈ ops, o.dst ≠ l) (h2 : ∀ o ∈ ops, ¬ ro o.dst) :
    Accum F ro ops l [] := by
  refine ⟨fun m => exec_frame F _ _ _ h1, fun m r hr => exec_frame F _ _ _ ?_, by simp⟩
  intro o ho e
  exact h2 o ho (e ▸ hr)

theorem Accum.flatMap_none {β : Type _} {xs : List β} {f : β → List Op}
    (h : ∀ x ∈ xs, Accum F ro (f x) l []) : Accum F ro (xs.flatMap f) l [] := by
  induction xs with
  | nil => exact Accum.nil
  | cons x xs ih =>
    rw [flatMap_cons]
    exact (h x (mem_cons_self ..)).append (ih (fun y hy => h y (mem_cons_of_mem _ hy)))

/-- Only one pass of the loop touches `l`. -/
theorem Accum.single {β : Type _} {xs : List β} {f : β → List Op} {c : List (Loc × Loc)} {x0 : β}
    (hn : xs.Nodup) (hx : x0 ∈ xs) (h0 : Accum F ro (f x0) l c)
    (h : ∀ x ∈ xs, x ≠ x0 → Accum F ro (f x) l []) : Accum F ro (xs.flatMap f) l c := by
  obtain ⟨pre, post, rfl⟩ := List.append_of_mem hx
  have hd := nodup_append.1 hn
  have hpost := nodup_cons.1 hd.2.1
  have e1 : Accum F ro (pre.flatMap f) l [] :=
    Accum.flatMap_none (fun x hx' => h x (mem_append_left _ hx') (by
        rintro rfl
        exact hd.2.2 x hx' x (mem_cons_self ..) rfl))
  have e2 : Accum F ro (post.flatMap f) l [] :=
    Accum.flatMap_none (fun x hx' => h x (mem_append_right _ (mem_cons_of_mem _ hx')) (by
        rintro rfl
        exact hpost.1 hx'))
  rw [flatMap_append, flatMap_cons]
  have := e1.append (h0.append e2)
  simpa using this

/-- The microkernel adds `k` products to each element of its tile. -/
theorem Accum.ukernel {L m nl t : Nat} (hL : 0 < L) {A B C : Loc} (hA : ∀ t, A.buf ≠ .reg t)
    (hB : ∀ t, B.buf ≠ .reg t) (hC : ∀ t, C.buf ≠ .reg t) {cs astep bstep k : Nat} (hcs : nl * L ≤ cs)
    {i j : Nat} (hi : i < m) (hj : j < nl * L) (hro : ∀ l, ro l → l.buf ≠ C.buf ∧ ∀ t, l.buf ≠ .reg t)
    (hAro : ∀ x, ro (A +ₚ x)) (hBro : ∀ x, ro (B +ₚ x)) :
    Accum F ro (ukernel L m nl t A B C cs astep bstep k) (C +ₚ (i * cs + j))
      ((range k).map fun kk => (A +ₚ (kk * (m + astep) + i), B +ₚ (kk * bstep + j))) := by
  refine ⟨?_, ?_, ?_⟩
  · intro mem
    rw [ukernel_spec F L m nl t hL A B C hA hB hC cs astep bstep k hcs mem i j hi hj, foldl_map]
  · intro mem r hr
    apply ukernel_frame
    · exact (hro r hr).2 t
    · intro i j _ _ e
      exact (hro r hr).1 (by rw [e, off_buf])
  · intro ab hab
    obtain ⟨kk, _, rfl⟩ := mem_map.1 hab
    exact ⟨hAro _, hBro _⟩

theorem ukernel_reads (L m nl t : Nat) (A B C : Loc) (cs astep bstep k : Nat) (o : Op)
    (ho : o ∈ ukernel L m nl t A B C cs astep bstep k) (l : Loc) (hl : l ∈ o.reads) :
    l.buf = .reg t ∨ (∃ i j, i < m ∧ j < nl * L ∧ l = C +ₚ (i * cs + j)) ∨ l.buf = A.buf ∨
      l.buf = B.buf := by
  unfold Cake.ukernel at ho
  rcases mem_append.1 ho with h | h
  · rcases mem_append.1 h with h | h
    · obtain ⟨i, j, l', hi, hj, hl', rfl⟩ := mem_ukernLoadC.1 h
      simp only [Op.reads, mem_singleton] at hl
      exact Or.inr (Or.inl ⟨i, _, hi, mulAdd_lt hj hl', hl⟩)
    · rw [ukernLoop_eq] at h
      obtain ⟨kk, _, h⟩ := mem_flatMap.1 h
      rw [kernInner_eq] at h
      simp only at h
      rcases mem_append.1 h with h | h
      · simp only [kernLoadB, mem_flatMap, mem_map, mem_range] at h
        obtain ⟨j, _, l', _, rfl⟩ := h
        simp only [Op.reads, mem_singleton] at hl
        rw [hl]
        exact Or.inr (Or.inr (Or.inr rfl))
      · obtain ⟨i, _, h⟩ := mem_flatMap.1 h
        unfold kernRow at h
        rcases mem_append.1 h with h | h
        · obtain ⟨l', _, rfl⟩ := mem_map.1 h
          simp only [Op.reads, mem_singleton] at hl
          rw [hl]
          exact Or.inr (Or.inr (Or.inl rfl))
        · simp only [mem_flatMap, mem_map, mem_range] at h
          obtain ⟨j, _, l', _, rfl⟩ := h
          simp only [Op.reads, mem_cons, not_mem_nil, or_false] at hl
          rcases hl with rfl | rfl | rfl <;> exact Or.inl rfl
  · obtain ⟨i, j, l', hi, hj, hl', rfl⟩ := mem_ukernStoreC.1 h
    simp only [Op.reads, mem_singleton] at hl
    rw [hl]
    exact Or.inl rfl

end Cake
