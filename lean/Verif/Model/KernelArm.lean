/-
The hand-written NEON microkernel kept in `src/kernels/armv8/dense.cpp`. `install.sh:11-12` replaces this
file by the output of the kernel generator (modelled in `Verif.Model.Kernel`), so which of the two a library
contains depends on how it was built.
-/
import Verif.Model.Kernel

namespace Cake
open List

/-- Lane `l` of register `a{i+1}` (`a1 .. a4`), after the accumulators and `b1 .. b3`.
`src/kernels/armv8/dense.cpp:8-9`. -/
def rA4 (t i l : Nat) : Loc := rA 4 8 3 t (i * 4 + l)

/-- Half `h` of one step: four broadcasts `a1 = vld1q_dup_f32(A++) .. a4`, then the twelve
`c[q] = vfmaq_f32(c[q], b{j+1}, a{i+1})` with `q = 12*h + 3*i + j`. `Arith.fma a b c` stands for
`vfmaq_f32(c, b, a)`. The carried variable is the offset of the pointer `A`.
`src/kernels/armv8/dense.cpp:48-64` (`h = 0`) and `66-82` (`h = 1`); repeated at 93-127, 138-172, 183-217 and
230-264. -/
def armHalf (t : Nat) (A : Loc) (h aoff : Nat) : List Op × Nat :=
  let a := loopS (range 4) (fun i ao =>
    ((range 4).map fun l => Op.copy (rA4 t i l) (A +ₚ ao), ao + 1)) aoff
  (a.1 ++ ((range 4).flatMap fun i => (range 3).flatMap fun j => (range 4).map fun l =>
    Op.fma (rC 4 t (12 * h + 3 * i + j) l) (rA4 t i l) (rB 4 8 3 t j l)), a.2)

/-- One step: `b1 = vld1q_f32(B); b2 = vld1q_f32(B + 4); b3 = vld1q_f32(B + 8)`, then the two halves.
`B += n` is done by the caller. `src/kernels/armv8/dense.cpp:44-82`. -/
def armInner (t : Nat) (A B : Loc) (aoff boff : Nat) : List Op × Nat :=
  let r := loopS (range 2) (armHalf t A) aoff
  (((range 3).flatMap fun j => (range 4).map fun l =>
      Op.copy (rB 4 8 3 t j l) (B +ₚ (boff + (4 * j + l)))) ++ r.1, r.2)

/-- `rem = k % 4; k -= rem;` four steps per iteration of the main loop (lines 42-221), then `rem` single steps
(224-268). `narg` is the run-time argument `n` of `B += n`. `src/kernels/armv8/dense.cpp:38-268`. -/
def armLoop (t : Nat) (A B : Loc) (narg k : Nat) : List Op :=
  let inner := fun (_ : Nat) (s : Nat × Nat) =>
    let r := armInner t A B s.1 s.2
    (r.1, (r.2, s.2 + narg))
  let rem := k % 4
  let main := loopS (cfor 0 (k - rem) 4) (fun _ s => loopS (range 4) inner s) (0, 0)
  let left := loopS (cfor 0 rem 1) inner main.2
  main.1 ++ left.1

/-- `cake_sgemm_armv8_8x12(A, B, C, m, n, k)`, run by task `t`: `c[q] = vld1q_f32(C + 4*q)` for `q < 24`, the
loop, `vst1q_f32(C + 4*q, c[q])`. The argument `m` is not used by the code.
`src/kernels/armv8/dense.cpp:6-297`. -/
def armKernel (t : Nat) (A B C : Loc) (narg k : Nat) : List Op :=
  ((range 24).flatMap fun q => (range 4).map fun l => Op.copy (rC 4 t q l) (C +ₚ (4 * q + l))) ++
    armLoop t A B narg k ++
    ((range 24).flatMap fun q => (range 4).map fun l => Op.copy (C +ₚ (4 * q + l)) (rC 4 t q l))

end Cake
