/-
Property C46: the sparse microkernels.
-/
import Verif.Proofs.Sparse

namespace Cake
open List

variable {α : Type _} (F : Arith α)

/-- A tile with `m` rows and `k` columns in the format of the sparse kernels: for each column its number
and the rows of its nonzeros. The three index arrays are the number of nonzeros, the column number and
the rows of each column; columns without nonzeros come last. -/
structure SpTile (cols : List (Nat × List Nat)) (m k : Nat) : Prop where
  len : cols.length = k
  rows : ∀ c ∈ cols, ∀ r ∈ c.2, r < m
  last : cols.Pairwise fun c c' => c.2 = [] → c'.2 = []

theorem SpTile.stop {cols : List (Nat × List Nat)} {m k : Nat} (h : SpTile cols m k) : SpStop cols k := by
  intro q _ _ c hc hz q' c' hq hc'
  rcases Nat.eq_or_lt_of_le hq with rfl | hlt
  · rw [hc] at hc'
    obtain rfl := Option.some.inj hc'
    exact hz
  · obtain ⟨h1, rfl⟩ := List.getElem?_eq_some_iff.1 hc
    obtain ⟨h2, rfl⟩ := List.getElem?_eq_some_iff.1 hc'
    exact List.pairwise_iff_getElem.1 h.last q q' h1 h2 hlt hz

/-- Example tile: 6 rows, 6 columns, nine nonzeros, columns 4 and 1 empty. -/
def spDemo : List (Nat × List Nat) := [(2, [0, 3, 5]), (0, [1, 4]), (5, [2, 0]), (3, [5, 1]), (4, []), (1, [])]

theorem spDemo_ok : SpTile spDemo 6 6 := ⟨rfl, by decide, by decide⟩

/-- The specification of both kernels: the call is defined (index arrays are read in bounds, register
numbers are in bounds), every element of the tile of C gets its row's entries times the selected rows
of B added in storage order, nothing else is written, and no undefined behaviour occurs as soon as the
tile of C, the values and the selected rows of B can be read. -/
def SpSpec (m w : Nat) (call : Nat → Loc → Loc → Loc → Nat → Nat → List Nat → List Nat →
    List Nat → Option (List Op)) : Prop :=
  ∀ (t : Nat) (A B C : Loc), (∀ t, A.buf ≠ .reg t) → (∀ t, B.buf ≠ .reg t) → (∀ t, C.buf ≠ .reg t) →
  ∀ (n k : Nat) (cols : List (Nat × List Nat)), SpTile cols m k →
  ∃ ops, call t A B C n k (cols.map (·.2.length)) (cols.map (·.1)) (cols.flatMap (·.2)) = some ops ∧
    (∀ (mem : Mem α) (i j : Nat), i < m → j < w → exec F ops mem (C +ₚ (i * w + j)) =
      ((spList cols).filter (·.1.1 = i)).foldl (fun acc e =>
        F.fma (mem (A +ₚ e.2)) (mem (B +ₚ (n * e.1.2 + j))) acc) (mem (C +ₚ (i * w + j)))) ∧
    (∀ (mem : Mem α) (x : Loc), x.buf ≠ .reg t →
      ¬ (x.buf = C.buf ∧ C.idx ≤ x.idx ∧ x.idx < C.idx + m * w) → exec F ops mem x = mem x) ∧
    (∀ (size : Buf → Option Nat) (init : Loc → Bool),
      (∀ d, d < m * w → InB size (C +ₚ d) ∧ init (C +ₚ d) = true) →
      (∀ e, e < (spList cols).length → InB size (A +ₚ e) ∧ init (A +ₚ e) = true) →
      (∀ c ∈ cols, ∀ j, j < w → InB size (B +ₚ (n * c.1 + j)) ∧ init (B +ₚ (n * c.1 + j)) = true) →
      Safe size init ops)

theorem spSpec (L m nl : Nat) (hL : 0 < L) (k : Nat) (t : Nat) (A B C : Loc) (hA : ∀ t, A.buf ≠ .reg t)
    (hB : ∀ t, B.buf ≠ .reg t) (hC : ∀ t, C.buf ≠ .reg t) (n : Nat) (cols : List (Nat × List Nat))
    (h : SpTile cols m k) :
    ∃ ops, spKernel L m nl nl t A B C n k (cols.map (·.2.length)) (cols.map (·.1)) (cols.flatMap (·.2)) =
        some ops ∧
    (∀ (mem : Mem α) (i j : Nat), i < m → j < nl * L → exec F ops mem (C +ₚ (i * (nl * L) + j)) =
      ((spList cols).filter (·.1.1 = i)).foldl (fun acc e =>
        F.fma (mem (A +ₚ e.2)) (mem (B +ₚ (n * e.1.2 + j))) acc) (mem (C +ₚ (i * (nl * L) + j)))) ∧
    (∀ (mem : Mem α) (x : Loc), x.buf ≠ .reg t →
      ¬ (x.buf = C.buf ∧ C.idx ≤ x.idx ∧ x.idx < C.idx + m * (nl * L)) → exec F ops mem x = mem x) ∧
    (∀ (size : Buf → Option Nat) (init : Loc → Bool),
      (∀ d, d < m * (nl * L) → InB size (C +ₚ d) ∧ init (C +ₚ d) = true) →
      (∀ e, e < (spList cols).length → InB size (A +ₚ e) ∧ init (A +ₚ e) = true) →
      (∀ c ∈ cols, ∀ j, j < nl * L →
        InB size (B +ₚ (n * c.1 + j)) ∧ init (B +ₚ (n * c.1 + j)) = true) →
      Safe size init ops) := by
  obtain ⟨ops, ho, h1, h2, h3⟩ := spKernel_spec F L m nl t hL A B C hA hB hC n cols k ⟨h.len, h.rows⟩ h.stop
  refine ⟨ops, ho, h1, ?_, ?_⟩
  · intro mem x hx hd
    apply h2 mem x hx
    rintro d hd' rfl
    rw [Nat.mul_assoc] at hd'
    exact hd ⟨rfl, Nat.le_add_right _ _, Nat.add_lt_add_left hd' _⟩
  · intro size init hc
    exact h3 size init (by rw [Nat.mul_assoc]; exact hc)

/-- The 6 x 16 kernel (x86). -/
theorem C46_haswell_6x16_partial (m' : Nat) : SpSpec F 6 16 (fun t A B C n k =>
    cake_sp_sgemm_haswell_6x16 t A B C m' n k) :=
  fun t A B C hA hB hC n k cols h => spSpec F 8 6 2 (by decide) k t A B C hA hB hC n cols h

example := C46_haswell_6x16_partial (exact Int) 6 0 ⟨.Ap, 5⟩ ⟨.Bp, 32⟩ ⟨.Cp, 96⟩ (fun _ => by simp)
  (fun _ => by simp) (fun _ => by simp) 16 6 spDemo spDemo_ok

/-- The 8 x 12 kernel (ARM). -/
theorem C46_armv8_8x12_partial (m' : Nat) : SpSpec F 8 12 (fun t A B C n k =>
    cake_sp_sgemm_armv8_8x12 t A B C m' n k) :=
  fun t A B C hA hB hC n k cols h => spSpec F 4 8 3 (by decide) k t A B C hA hB hC n cols h

example := C46_armv8_8x12_partial (exact Int) 8 0 ⟨.Ap, 5⟩ ⟨.Bp, 32⟩ ⟨.Cp, 96⟩ (fun _ => by simp)
  (fun _ => by simp) (fun _ => by simp) 12 6 spDemo ⟨rfl, by decide, by decide⟩

/-- The index arrays and the values at `A` represent the dense tile `D`: each column number once, no row
twice in a column, the value of an entry is the element of `D`, and what is not listed is zero. -/
structure SpDense {R : Type _} [Zero R] (cols : List (Nat × List Nat)) (m k : Nat) (D : Nat → Nat → R)
    (val : Nat → R) : Prop where
  each : (cols.map (·.1)).Perm (range k)
  nodup : ∀ c ∈ cols, c.2.Nodup
  zero : ∀ c ∈ cols, ∀ i, i < m → i ∉ c.2 → D i c.1 = 0
  val : ∀ e ∈ spList cols, val e.2 = D e.1.1 e.1.2

/-- In exact arithmetic, both kernels add the product of the dense tile and the rows of B to C:
the sparse kernel computes what the dense kernel computes. -/
theorem C46_dense_partial {R : Type _} [CommSemiring R] (m w : Nat) (call) (hs : SpSpec (exact R) m w call)
    (t : Nat) (A B C : Loc) (hA : ∀ t, A.buf ≠ .reg t) (hB : ∀ t, B.buf ≠ .reg t)
    (hC : ∀ t, C.buf ≠ .reg t) (n k : Nat) (cols : List (Nat × List Nat)) (h : SpTile cols m k)
    (D : Nat → Nat → R) (mem : Mem R) (hD : SpDense cols m k D (fun e => mem (A +ₚ e))) :
    ∃ ops, call t A B C n k (cols.map (·.2.length)) (cols.map (·.1)) (cols.flatMap (·.2)) = some ops ∧
      ∀ i j, i < m → j < w → exec (exact R) ops mem (C +ₚ (i * w + j)) =
        mem (C +ₚ (i * w + j)) + ((range k).map fun q => D i q * mem (B +ₚ (n * q + j))).sum := by
  obtain ⟨ops, ho, h1, -, -⟩ := hs t A B C hA hB hC n k cols h
  refine ⟨ops, ho, fun i j hi hj => ?_⟩
  rw [h1 mem i j hi hj, foldl_fma_sum (fun e : (Nat × Nat) × Nat => mem (A +ₚ e.2))
    (fun e : (Nat × Nat) × Nat => mem (B +ₚ (n * e.1.2 + j)))]
  congr 1
  exact spList_sum cols k D (fun e => mem (A +ₚ e)) (fun q => mem (B +ₚ (n * q + j))) i hD.each hD.nodup
    (fun c hc hi' => hD.zero c hc i hi hi') (fun e he hr => by rw [hD.val e he, hr])

/-- The dense tile of the example: element (r, q) is the position of its entry plus 1. -/
def spDemoD (r q : Nat) : Int :=
  (((spList spDemo).find? fun e => e.1.1 = r ∧ e.1.2 = q).map fun e => (e.2 : Int) + 1).getD 0

example := C46_dense_partial 6 16 _ (C46_haswell_6x16_partial (exact Int) 6) 0 ⟨.Ap, 0⟩ ⟨.Bp, 32⟩ ⟨.Cp, 96⟩
  (fun _ => by simp) (fun _ => by simp) (fun _ => by simp) 16 6 spDemo spDemo_ok spDemoD
  (fun l => l.idx + 1) ⟨by decide, by decide, by decide, by
    intro e he
    simp only [Loc.off]
    revert e he
    decide⟩

/-- Memory in which the values are 1, B is 1 and C is 0. -/
def spOnes : Mem Int := fun l => if l.buf = .Cp then 0 else 1

/-- The order of the columns matters: if an empty column comes first, the kernel returns without adding
anything, although the tile has a nonzero in another column. -/
theorem C46_empty_first_refuted :
    ∃ (cols : List (Nat × List Nat)) (D : Nat → Nat → Int), cols.length = 4 ∧
      (∀ c ∈ cols, ∀ r ∈ c.2, r < 6) ∧ SpDense cols 6 4 D (fun e => spOnes (⟨.Ap, 0⟩ +ₚ e)) ∧
      ∃ ops, cake_sp_sgemm_haswell_6x16 0 ⟨.Ap, 0⟩ ⟨.Bp, 0⟩ ⟨.Cp, 0⟩ 6 16 4 (cols.map (·.2.length))
          (cols.map (·.1)) (cols.flatMap (·.2)) = some ops ∧
        exec (exact Int) ops spOnes (⟨.Cp, 0⟩ +ₚ (0 * 16 + 0)) = 0 ∧
        ((range 4).map fun q => D 0 q * spOnes (⟨.Bp, 0⟩ +ₚ (16 * q + 0))).sum = 1 := by
  refine ⟨[(0, []), (1, [0]), (2, []), (3, [])], fun r q => if r = 0 ∧ q = 1 then 1 else 0, rfl, by decide,
    ⟨by decide, by decide, by decide, by decide⟩, _, rfl, ?_, ?_⟩ <;> decide +kernel

/-- And with columns left over after a multiple of four, the entries are then taken from the wrong
position: five columns, the first empty; the last one gets the row and the value of the second. -/
theorem C46_tail_refuted :
    ∃ (cols : List (Nat × List Nat)) (mem : Mem Int) (D : Nat → Nat → Int), cols.length = 5 ∧
      (∀ c ∈ cols, ∀ r ∈ c.2, r < 6) ∧ SpDense cols 6 5 D (fun e => mem (⟨.Ap, 0⟩ +ₚ e)) ∧
      ∃ ops, cake_sp_sgemm_haswell_6x16 0 ⟨.Ap, 0⟩ ⟨.Bp, 0⟩ ⟨.Cp, 0⟩ 6 16 5 (cols.map (·.2.length))
          (cols.map (·.1)) (cols.flatMap (·.2)) = some ops ∧
        exec (exact Int) ops mem (⟨.Cp, 0⟩ +ₚ (1 * 16 + 0)) = 6 ∧
        ((range 5).map fun q => D 1 q * mem (⟨.Bp, 0⟩ +ₚ (16 * q + 0))).sum = 2 := by
  refine ⟨[(0, []), (1, [1]), (2, []), (3, []), (4, [2])],
    fun l => if l.buf = .Cp then 0 else if l = ⟨.Ap, 0⟩ then 2 else if l = ⟨.Ap, 1⟩ then 5 else
      if l.buf = .Bp ∧ 64 ≤ l.idx then 3 else 1,
    fun r q => if r = 1 ∧ q = 1 then 2 else if r = 2 ∧ q = 4 then 5 else 0, rfl, by decide,
    ⟨by decide, by decide, by decide, by decide⟩, _, rfl, ?_, ?_⟩ <;> decide +kernel

/-- The 3 x 32 kernel multiplies the row number by 2 although a row takes four registers: a single
entry in row 1 is added to the second half of row 0 and the first half of row 1. -/
theorem C46_haswell_3x32_refuted :
    ∃ (cols : List (Nat × List Nat)) (D : Nat → Nat → Int), SpTile cols 3 1 ∧
      SpDense cols 3 1 D (fun e => spOnes (⟨.Ap, 0⟩ +ₚ e)) ∧
      ∃ ops, cake_sp_sgemm_haswell_3x32 0 ⟨.Ap, 0⟩ ⟨.Bp, 0⟩ ⟨.Cp, 0⟩ 3 32 1 (cols.map (·.2.length))
          (cols.map (·.1)) (cols.flatMap (·.2)) = some ops ∧
        exec (exact Int) ops spOnes (⟨.Cp, 0⟩ +ₚ (0 * 32 + 16)) = 1 ∧
        ((range 1).map fun q => D 0 q * spOnes (⟨.Bp, 0⟩ +ₚ (32 * q + 16))).sum = 0 ∧
        exec (exact Int) ops spOnes (⟨.Cp, 0⟩ +ₚ (1 * 32 + 16)) = 0 ∧
        ((range 1).map fun q => D 1 q * spOnes (⟨.Bp, 0⟩ +ₚ (32 * q + 16))).sum = 1 := by
  refine ⟨[(0, [1])], fun r _ => if r = 1 then 1 else 0, ⟨rfl, by decide, by decide⟩,
    ⟨by decide, by decide, by decide, by decide⟩, _, rfl, ?_, ?_, ?_, ?_⟩ <;> decide +kernel

end Cake
