/-
Property C47: the microkernels for operands that are not packed.
-/
import Verif.Proofs.Unpacked
import Verif.Spec
import Verif.Props.Kernel

namespace Cake
open List

variable {α : Type _} (F : Arith α)

/-- The 6 x 16 tile at `C` of a row-major matrix with `N` columns gets the product of the six rows at
`A` of a column-major matrix with `M` rows and the sixteen columns at `B` of a row-major matrix with `N`
columns, `k` ascending, added; any depth `k`. -/
theorem C47_unpacked (t : Nat) (A B C : Loc) (hA : ∀ t, A.buf ≠ .reg t) (hB : ∀ t, B.buf ≠ .reg t)
    (hC : ∀ t, C.buf ≠ .reg t) (m n k M K N : Nat) (hM : 6 ≤ M) (hN : 16 ≤ N) (mem : Mem α) (i j : Nat)
    (hi : i < 6) (hj : j < 16) :
    exec F (cake_sgemm_haswell_6x16_unpacked t A B C m n k M K N) mem (C +ₚ (i * N + j)) =
      dotFrom F (fun q => mem (A +ₚ (q * M + i))) (fun q => mem (B +ₚ (q * N + j))) (range k)
        (mem (C +ₚ (i * N + j))) := by
  have := ukernel_spec F 8 6 2 t (by decide) A B C hA hB hC N (M - 6) N k (by omega) mem i j hi (by omega)
  rw [show 6 + (M - 6) = M by omega] at this
  exact this

example := C47_unpacked (exact Int) 0 ⟨.A, 3⟩ ⟨.B, 20⟩ ⟨.C, 41⟩ (fun _ => by simp) (fun _ => by simp)
  (fun _ => by simp) 6 16 7 9 7 20 (by decide) (by decide) (fun l => l.idx) 5 15 (by decide) (by decide)

/-- The same with A packed into a panel of six rows. -/
theorem C47_A_packed (t : Nat) (A B C : Loc) (hA : ∀ t, A.buf ≠ .reg t) (hB : ∀ t, B.buf ≠ .reg t)
    (hC : ∀ t, C.buf ≠ .reg t) (m n k M K N : Nat) (hN : 16 ≤ N) (mem : Mem α) (i j : Nat)
    (hi : i < 6) (hj : j < 16) :
    exec F (cake_sgemm_haswell_6x16_A_packed t A B C m n k M K N) mem (C +ₚ (i * N + j)) =
      dotFrom F (fun q => mem (A +ₚ (q * 6 + i))) (fun q => mem (B +ₚ (q * N + j))) (range k)
        (mem (C +ₚ (i * N + j))) :=
  ukernel_spec F 8 6 2 t (by decide) A B C hA hB hC N 0 N k (by omega) mem i j hi (by omega)

example := C47_A_packed (exact Int) 0 ⟨.Ap, 3⟩ ⟨.B, 20⟩ ⟨.C, 41⟩ (fun _ => by simp) (fun _ => by simp)
  (fun _ => by simp) 6 16 7 9 7 20 (by decide) (fun l => l.idx) 5 15 (by decide) (by decide)

/-- The same with B packed into a panel of `n` columns. -/
theorem C47_B_packed (t : Nat) (A B C : Loc) (hA : ∀ t, A.buf ≠ .reg t) (hB : ∀ t, B.buf ≠ .reg t)
    (hC : ∀ t, C.buf ≠ .reg t) (m n k M K N : Nat) (hM : 6 ≤ M) (hN : 16 ≤ N) (mem : Mem α) (i j : Nat)
    (hi : i < 6) (hj : j < 16) :
    exec F (cake_sgemm_haswell_6x16_B_packed t A B C m n k M K N) mem (C +ₚ (i * N + j)) =
      dotFrom F (fun q => mem (A +ₚ (q * M + i))) (fun q => mem (B +ₚ (q * n + j))) (range k)
        (mem (C +ₚ (i * N + j))) := by
  have := ukernel_spec F 8 6 2 t (by decide) A B C hA hB hC N (M - 6) n k (by omega) mem i j hi (by omega)
  rw [show 6 + (M - 6) = M by omega] at this
  exact this

example := C47_B_packed (exact Int) 0 ⟨.A, 3⟩ ⟨.Bp, 16⟩ ⟨.C, 41⟩ (fun _ => by simp) (fun _ => by simp)
  (fun _ => by simp) 6 16 7 9 7 20 (by decide) (by decide) (fun l => l.idx) 5 15 (by decide) (by decide)

/-- The same with C packed into a tile of sixteen columns. -/
theorem C47_C_packed (t : Nat) (A B C : Loc) (hA : ∀ t, A.buf ≠ .reg t) (hB : ∀ t, B.buf ≠ .reg t)
    (hC : ∀ t, C.buf ≠ .reg t) (m n k M K N : Nat) (hM : 6 ≤ M) (mem : Mem α) (i j : Nat)
    (hi : i < 6) (hj : j < 16) :
    exec F (cake_sgemm_haswell_6x16_C_packed t A B C m n k M K N) mem (C +ₚ (i * 16 + j)) =
      dotFrom F (fun q => mem (A +ₚ (q * M + i))) (fun q => mem (B +ₚ (q * N + j))) (range k)
        (mem (C +ₚ (i * 16 + j))) := by
  have := ukernel_spec F 8 6 2 t (by decide) A B C hA hB hC 16 (M - 6) N k (by omega) mem i j hi (by omega)
  rw [show 6 + (M - 6) = M by omega] at this
  exact this

example := C47_C_packed (exact Int) 0 ⟨.A, 3⟩ ⟨.B, 20⟩ ⟨.Cp, 96⟩ (fun _ => by simp) (fun _ => by simp)
  (fun _ => by simp) 6 16 7 9 7 20 (by decide) (fun l => l.idx) 5 15 (by decide) (by decide)

/-- Only the 6 x 16 tile of C is written: neither the inputs nor the rest of C, in particular not the
columns of C beside the tile. -/
theorem C47_frame (t : Nat) (A B C : Loc) (m n k M K N : Nat) (mem : Mem α) (x : Loc)
    (hx : x.buf ≠ .reg t) (hC : ∀ i j, i < 6 → j < 16 → x ≠ C +ₚ (i * N + j)) :
    exec F (cake_sgemm_haswell_6x16_unpacked t A B C m n k M K N) mem x = mem x ∧
    exec F (cake_sgemm_haswell_6x16_A_packed t A B C m n k M K N) mem x = mem x ∧
    exec F (cake_sgemm_haswell_6x16_B_packed t A B C m n k M K N) mem x = mem x :=
  ⟨ukernel_frame F 8 6 2 t A B C N (M - 6) N k mem x hx hC,
   ukernel_frame F 8 6 2 t A B C N 0 N k mem x hx hC,
   ukernel_frame F 8 6 2 t A B C N (M - 6) n k mem x hx hC⟩

/-- The element right of the first row of the tile. -/
example := C47_frame (exact Int) 0 ⟨.A, 3⟩ ⟨.B, 20⟩ ⟨.C, 41⟩ 6 16 7 9 7 20 (fun l => l.idx) ⟨.C, 41 + 16⟩
  (by simp) (by
    intro i j hi hj e
    have := congrArg Loc.idx e
    simp only [Loc.off] at this
    omega)

/-- For packed C: only the 96 elements of the tile are written. -/
theorem C47_frame_C_packed (t : Nat) (A B C : Loc) (m n k M K N : Nat) (mem : Mem α) (x : Loc)
    (hx : x.buf ≠ .reg t) (hC : ¬ (x.buf = C.buf ∧ C.idx ≤ x.idx ∧ x.idx < C.idx + 96)) :
    exec F (cake_sgemm_haswell_6x16_C_packed t A B C m n k M K N) mem x = mem x := by
  apply ukernel_frame F 8 6 2 t A B C 16 (M - 6) N k mem x hx
  rintro i j hi hj rfl
  exact hC ⟨rfl, Nat.le_add_right _ _, by simp only [Loc.off]; omega⟩

example := C47_frame_C_packed (exact Int) 0 ⟨.A, 3⟩ ⟨.B, 20⟩ ⟨.Cp, 96⟩ 6 16 7 9 7 20 (fun l => l.idx)
  ⟨.Cp, 192⟩ (by simp) (by simp)

/-- Memory safety: if the tile of C, the six rows of A and the sixteen columns of B, `k` deep, are
accessible and initialised, the kernel has no undefined behaviour. The three layouts
with rows of C `N` elements apart. -/
theorem C47_safe (t : Nat) (A B C : Loc) (m n k M K N : Nat) (hM : 6 ≤ M)
    (size : Buf → Option Nat) (init : Loc → Bool)
    (hC : ∀ i j, i < 6 → j < 16 → InB size (C +ₚ (i * N + j)) ∧ init (C +ₚ (i * N + j)) = true) :
    ((∀ q i, q < k → i < 6 → InB size (A +ₚ (q * M + i)) ∧ init (A +ₚ (q * M + i)) = true) →
      (∀ q j, q < k → j < 16 → InB size (B +ₚ (q * N + j)) ∧ init (B +ₚ (q * N + j)) = true) →
      Safe size init (cake_sgemm_haswell_6x16_unpacked t A B C m n k M K N)) ∧
    ((∀ q i, q < k → i < 6 → InB size (A +ₚ (q * 6 + i)) ∧ init (A +ₚ (q * 6 + i)) = true) →
      (∀ q j, q < k → j < 16 → InB size (B +ₚ (q * N + j)) ∧ init (B +ₚ (q * N + j)) = true) →
      Safe size init (cake_sgemm_haswell_6x16_A_packed t A B C m n k M K N)) ∧
    ((∀ q i, q < k → i < 6 → InB size (A +ₚ (q * M + i)) ∧ init (A +ₚ (q * M + i)) = true) →
      (∀ q j, q < k → j < 16 → InB size (B +ₚ (q * n + j)) ∧ init (B +ₚ (q * n + j)) = true) →
      Safe size init (cake_sgemm_haswell_6x16_B_packed t A B C m n k M K N)) := by
  have e : 6 + (M - 6) = M := by omega
  refine ⟨fun ha hb => ?_, fun ha hb => ?_, fun ha hb => ?_⟩
  · exact ukernel_safe 8 6 2 t A B C N (M - 6) N k size init hC (by rw [e]; exact ha) hb
  · exact ukernel_safe 8 6 2 t A B C N 0 N k size init hC ha hb
  · exact ukernel_safe 8 6 2 t A B C N (M - 6) n k size init hC (by rw [e]; exact ha) hb

/-- Matrices of exactly the size needed: A 9 x 7 (from row 3), B 7 x 20 (from column 4), C 8 x 20 (tile
at row 2, column 1). -/
example : Safe (fun b => if b = .A then some 63 else if b = .B then some 140 else some 160) (fun _ => true)
    (cake_sgemm_haswell_6x16_unpacked 0 ⟨.A, 3⟩ ⟨.B, 4⟩ ⟨.C, 41⟩ 6 16 7 9 7 20) := by
  refine (C47_safe 0 ⟨.A, 3⟩ ⟨.B, 4⟩ ⟨.C, 41⟩ 6 16 7 9 7 20 (by decide) _ _ ?_).1 ?_ ?_ <;>
  · intro i j hi hj
    simp [InB]
    omega

/-- In exact arithmetic: tile of C += rows of A times columns of B. -/
theorem C47_exact {R : Type _} [CommSemiring R] (t : Nat) (A B C : Loc) (hA : ∀ t, A.buf ≠ .reg t)
    (hB : ∀ t, B.buf ≠ .reg t) (hC : ∀ t, C.buf ≠ .reg t) (m n k M K N : Nat) (hM : 6 ≤ M) (hN : 16 ≤ N)
    (mem : Mem R) (i j : Nat) (hi : i < 6) (hj : j < 16) :
    exec (exact R) (cake_sgemm_haswell_6x16_unpacked t A B C m n k M K N) mem (C +ₚ (i * N + j)) =
      mem (C +ₚ (i * N + j)) +
        ((range k).map fun q => mem (A +ₚ (q * M + i)) * mem (B +ₚ (q * N + j))).sum := by
  rw [C47_unpacked (exact R) t A B C hA hB hC m n k M K N hM hN mem i j hi hj]
  generalize mem (C +ₚ (i * N + j)) = c
  unfold dotFrom
  induction range k generalizing c with
  | nil => simp
  | cons q qs ih =>
    rw [foldl_cons, ih, map_cons, sum_cons]
    simp only [exact]
    ring

example := C47_exact (R := Int) 0 ⟨.A, 3⟩ ⟨.B, 20⟩ ⟨.C, 41⟩ (fun _ => by simp) (fun _ => by simp)
  (fun _ => by simp) 6 16 7 9 7 20 (by decide) (by decide) (fun l => l.idx) 5 15 (by decide) (by decide)

/-- With fewer than sixteen columns in C the rows of the tile overlap and the result is wrong: with
`N = 8`, one row of A equal to 1 and the others 0, the elements of row 0 right of column 8 are
overwritten by row 1. So `16 ≤ N` cannot be dropped. -/
theorem C47_narrow_refuted : ∃ (mem : Mem Int),
    exec (exact Int) (cake_sgemm_haswell_6x16_unpacked 0 ⟨.A, 0⟩ ⟨.B, 0⟩ ⟨.C, 0⟩ 6 16 1 6 1 8) mem
      (⟨.C, 0⟩ +ₚ (0 * 8 + 8)) ≠
      dotFrom (exact Int) (fun q => mem (⟨.A, 0⟩ +ₚ (q * 6 + 0))) (fun q => mem (⟨.B, 0⟩ +ₚ (q * 8 + 8)))
        (range 1) (mem (⟨.C, 0⟩ +ₚ (0 * 8 + 8))) := by
  refine ⟨fun l => if l = ⟨.A, 0⟩ then 1 else if l.buf = .B then 1 else 0, ?_⟩
  decide +kernel

end Cake
