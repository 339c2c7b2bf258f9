/-
Property C26 for the hand-written NEON 8 x 12 microkernel.
-/
import Verif.Proofs.KernelArm
import Verif.Spec

namespace Cake
open List

variable {α : Type _} (F : Arith α)

/-- The hand-written 8 x 12 kernel: every element of the tile becomes the dot product, `k` ascending, added to
the old element; for every depth `k`. -/
theorem C26_armv8_hand (t : Nat) (A B C : Loc) (hA : ∀ t, A.buf ≠ .reg t) (hB : ∀ t, B.buf ≠ .reg t)
    (hC : ∀ t, C.buf ≠ .reg t) (k : Nat) (mem : Mem α) (i j : Nat) (hi : i < 8) (hj : j < 12) :
    exec F (armKernel t A B C 12 k) mem (C +ₚ (i * 12 + j)) =
      dotFrom F (fun q => mem (A +ₚ (q * 8 + i))) (fun q => mem (B +ₚ (q * 12 + j))) (range k)
        (mem (C +ₚ (i * 12 + j))) :=
  armKernel_spec F t A B C hA hB hC 12 k mem i j hi hj

example := C26_armv8_hand (exact Int) 0 ⟨.Ap, 0⟩ ⟨.Bp, 3⟩ ⟨.Cp, 96⟩
  (fun _ => by simp) (fun _ => by simp) (fun _ => by simp) 7 (fun l => l.idx) 5 11 (by decide) (by decide)

/-- It writes the tile only. -/
theorem C26_armv8_hand_frame (t : Nat) (A B C : Loc) (n k : Nat) (mem : Mem α) (x : Loc)
    (hx : x.buf ≠ .reg t) (hC : ¬ (x.buf = C.buf ∧ C.idx ≤ x.idx ∧ x.idx < C.idx + 8 * 12)) :
    exec F (armKernel t A B C n k) mem x = mem x := by
  apply armKernel_frame F t A B C n k mem x hx
  rintro d hd rfl
  exact hC ⟨rfl, Nat.le_add_right _ _, Nat.add_lt_add_left hd _⟩

example := C26_armv8_hand_frame (exact Int) 0 ⟨.Ap, 0⟩ ⟨.Bp, 3⟩ ⟨.Cp, 96⟩ 12 7 (fun l => l.idx) ⟨.Cp, 192⟩
  (by simp) (by simp)

/-- It reads `8*k` elements of A, `12*k` of B and the tile. -/
theorem C26_armv8_hand_reads (t : Nat) (A B C : Loc) (k : Nat) (o : Op)
    (ho : o ∈ armKernel t A B C 12 k) (r : Loc) (hr : r ∈ o.reads) :
    r.buf = .reg t ∨ (∃ x, x < 8 * 12 ∧ r = C +ₚ x) ∨ (∃ x, x < 8 * k ∧ r = A +ₚ x) ∨
      ∃ x, x < 12 * k ∧ r = B +ₚ x := by
  rcases armKernel_reads t A B C 12 k o ho r hr with h | ⟨x, hx, h⟩ | ⟨q, i, hq, hi, h⟩ | ⟨q, j, hq, hj, h⟩
  · exact Or.inl h
  · exact Or.inr (Or.inl ⟨x, hx, h⟩)
  · exact Or.inr (Or.inr (Or.inl ⟨_, by omega, h⟩))
  · exact Or.inr (Or.inr (Or.inr ⟨_, by omega, h⟩))

/-- If the panels and the tile are accessible and initialised it has no undefined behaviour. -/
theorem C26_armv8_hand_safe (t : Nat) (A B C : Loc) (k : Nat) (s : State α)
    (hC : ∀ x, x < 8 * 12 → InB s.size (C +ₚ x) ∧ s.init (C +ₚ x) = true)
    (hA : ∀ x, x < 8 * k → InB s.size (A +ₚ x) ∧ s.init (A +ₚ x) = true)
    (hB : ∀ x, x < 12 * k → InB s.size (B +ₚ x) ∧ s.init (B +ₚ x) = true) (out : Out α)
    (hr : RunOps F (armKernel t A B C 12 k) s out) : out ≠ .ub := by
  have hs : Safe s.size s.init (armKernel t A B C 12 k) :=
    armKernel_safe t A B C 12 k s.size s.init hC (fun q i hq hi => hA _ (by omega))
      (fun q j hq hj => hB _ (by omega))
  rw [runOps_safe F hs hr]
  simp

/-- Buffers of exactly the size needed for depth 7. -/
example (out : Out Int) (hr : RunOps (exact Int) (armKernel 0 ⟨.Ap, 0⟩ ⟨.Bp, 0⟩ ⟨.Cp, 0⟩ 12 7)
    ⟨fun b => if b = .Ap then some 56 else if b = .Bp then some 84 else some 96, fun l => l.idx, fun _ => true⟩
    out) : out ≠ .ub := by
  refine C26_armv8_hand_safe (exact Int) 0 ⟨.Ap, 0⟩ ⟨.Bp, 0⟩ ⟨.Cp, 0⟩ 7 _ ?_ ?_ ?_ out hr <;>
  · intro x hx
    simp [InB, Loc.off]
    omega

/-- It leaves in memory, for all inputs and every value of the argument `n`, what the generated 8 x 12 kernel leaves. -/
theorem C26_armv8_hand_same (t : Nat) (A B C : Loc) (hA : ∀ t, A.buf ≠ .reg t) (hB : ∀ t, B.buf ≠ .reg t)
    (hC : ∀ t, C.buf ≠ .reg t) (n k : Nat) (mem : Mem α) (x : Loc) (hx : x.buf ≠ .reg t) :
    exec F (armKernel t A B C n k) mem x = exec F (kernel 4 8 3 t A B C n k) mem x := by
  by_cases hc : ∃ d, d < 96 ∧ x = C +ₚ d
  · obtain ⟨d, hd, rfl⟩ := hc
    have e : d = d / 12 * 12 + d % 12 := by omega
    rw [e, armKernel_spec F t A B C hA hB hC n k mem (d / 12) (d % 12) (by omega) (by omega)]
    exact (kernel_spec F 4 8 3 t (by omega) A B C hA hB hC n k mem (d / 12) (d % 12) (by omega) (by omega)).symm
  · push Not at hc
    rw [armKernel_frame F t A B C n k mem x hx hc, kernel_frame F 4 8 3 t A B C n k mem x hx hc]

example := C26_armv8_hand_same (exact Int) 0 ⟨.Ap, 0⟩ ⟨.Bp, 3⟩ ⟨.Cp, 96⟩
  (fun _ => by simp) (fun _ => by simp) (fun _ => by simp) 24 7 (fun l => l.idx) ⟨.Cp, 100⟩ (by simp)

end Cake
