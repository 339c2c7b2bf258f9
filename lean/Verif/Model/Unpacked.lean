/-
The microkernels for operands that are not packed.
-/
import Verif.Model.Kernel

namespace Cake
open List

/-- `c[i*nl + j] = _mm256_loadu_ps(C + i*cs + j*L)`: the tile of C is loaded row by row, rows `cs`
elements apart. `src/kernels/haswell/dense.cpp:213-224` (`cs = N`), `:403-414` (`cs = N`),
`:585-596` (`cs = N`), `:772-783` (`cs = 16`). -/
def ukernLoadC (L m nl t : Nat) (C : Loc) (cs : Nat) : List Op :=
  (range m).flatMap fun i => (range nl).flatMap fun j => (range L).map fun l =>
    .copy (rC L t (i * nl + j) l) (C +ₚ (i * cs + (j * L + l)))

/-- `_mm256_storeu_ps(C + i*cs + j*L, c[i*nl + j])`. `src/kernels/haswell/dense.cpp:377-388`, `:562-573`,
`:749-760`, `:938-949`. -/
def ukernStoreC (L m nl t : Nat) (C : Loc) (cs : Nat) : List Op :=
  (range m).flatMap fun i => (range nl).flatMap fun j => (range L).map fun l =>
    .copy (C +ₚ (i * cs + (j * L + l))) (rC L t (i * nl + j) l)

/-- The outer-product loop `rem = k % 4; k -= rem; ...`, four steps per iteration and `rem` more, each
followed by `B += bstep` and (after the `m` increments of `A`) `A += astep`. The code broadcasts two
elements of A into `a1`, `a2` before using them; here each is used before the next is loaded, as in the
packed kernel. `src/kernels/haswell/dense.cpp:227-374`, `:417-559`, `:599-746`, `:786-935`. -/
def ukernLoop (L m nl t : Nat) (A B : Loc) (astep bstep k : Nat) : List Op :=
  let inner := fun (_ : Nat) (s : Nat × Nat) =>
    let r := kernInner L m nl t A B s.1 s.2
    (r.1, (r.2 + astep, s.2 + bstep))
  let rem := k % 4
  let main := loopS (cfor 0 (k - rem) 4) (fun _ s => loopS (range 4) inner s) (0, 0)
  let left := loopS (cfor 0 rem 1) inner main.2
  main.1 ++ left.1

/-- A kernel with arbitrary strides. -/
def ukernel (L m nl t : Nat) (A B C : Loc) (cs astep bstep k : Nat) : List Op :=
  ukernLoadC L m nl t C cs ++ ukernLoop L m nl t A B astep bstep k ++ ukernStoreC L m nl t C cs

/-- `cake_sgemm_haswell_6x16_unpacked`: A column-major with `M` rows (`A += M-6`; for `M < 6` the C++
difference is negative, here 0: the theorems ask for `6 ≤ M`), B and C row-major with `N` columns.
`src/kernels/haswell/dense.cpp:207-389`. Called by `cake_sgemm_small_ukernel`,
`include/kernel_wrapper.h:43-51`. -/
def cake_sgemm_haswell_6x16_unpacked (t : Nat) (A B C : Loc) (_m _n k M _K N : Nat) : List Op :=
  ukernel 8 6 2 t A B C N (M - 6) N k

/-- `cake_sgemm_haswell_6x16_A_packed`. `src/kernels/haswell/dense.cpp:397-574`. -/
def cake_sgemm_haswell_6x16_A_packed (t : Nat) (A B C : Loc) (_m _n k _M _K N : Nat) : List Op :=
  ukernel 8 6 2 t A B C N 0 N k

/-- `cake_sgemm_haswell_6x16_B_packed`. `src/kernels/haswell/dense.cpp:579-761`. -/
def cake_sgemm_haswell_6x16_B_packed (t : Nat) (A B C : Loc) (_m n k M _K N : Nat) : List Op :=
  ukernel 8 6 2 t A B C N (M - 6) n k

/-- `cake_sgemm_haswell_6x16_C_packed`. `src/kernels/haswell/dense.cpp:766-950`. -/
def cake_sgemm_haswell_6x16_C_packed (t : Nat) (A B C : Loc) (_m _n k M _K N : Nat) : List Op :=
  ukernel 8 6 2 t A B C 16 (M - 6) N k

end Cake
