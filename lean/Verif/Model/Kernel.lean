/-
Microkernels, at the level of vector registers.
-/
import Verif.Loops

namespace Cake
open List

/-- Lane `l` of register `c[q]` of the kernel (`__m256 c[m*nl]`), for task `t`.
`python/kernel_gen.py:13-22`, `src/kernels/haswell/dense.cpp:10-11`. -/
def rC (L t q l : Nat) : Loc := ⟨.reg t, q * L + l⟩

/-- Lane `l` of register `b{j+1}`. -/
def rB (L m nl t j l : Nat) : Loc := ⟨.reg t, m * nl * L + (j * L + l)⟩

/-- Lane `l` of register `a`. -/
def rA (L m nl t l : Nat) : Loc := ⟨.reg t, m * nl * L + nl * L + l⟩

/-- `gen_C_load`: `c[q] = _mm256_loadu_ps(C + q*L)` for `q < m*nl`.
`python/kernel_gen.py:24-31`; instance `src/kernels/haswell/dense.cpp:13-24`. -/
def kernLoadC (L m nl t : Nat) (C : Loc) : List Op :=
  (range (m * nl)).flatMap fun q => (range L).map fun l => .copy (rC L t q l) (C +ₚ (q * L + l))

/-- `gen_C_store`: `_mm256_storeu_ps(C + q*L, c[q])`. `python/kernel_gen.py:33-41`;
instance `src/kernels/haswell/dense.cpp:190-201`. -/
def kernStoreC (L m nl t : Nat) (C : Loc) : List Op :=
  (range (m * nl)).flatMap fun q => (range L).map fun l => .copy (C +ₚ (q * L + l)) (rC L t q l)

/-- `gen_inner_kernel`: load the `nl` registers of one row of B, then for each of the `m` rows
broadcast `*A++` and do `nl` fused multiply-adds. The carried variable is the offset of pointer `A`;
the second component of the result is the offset after the `m` increments. `B += n` is done by the caller.
`python/kernel_gen.py:55-73`; instance `src/kernels/haswell/dense.cpp:33-60`. The ARM generator
(`python/kernel_gen.py:250-268`) emits the same sequence with `vfmaq_f32(c, b, a)`:
there `Arith.fma a b c` stands for `vfmaq_f32(c, b, a)`. -/
def kernInner (L m nl t : Nat) (A B : Loc) (aoff boff : Nat) : List Op × Nat :=
  let r := loopS (range m) (fun i ao =>
      (((range L).map fun l => Op.copy (rA L m nl t l) (A +ₚ ao)) ++
        ((range nl).flatMap fun j => (range L).map fun l =>
          Op.fma (rC L t (i * nl + j) l) (rA L m nl t l) (rB L m nl t j l)), ao + 1)) aoff
  (((range nl).flatMap fun j => (range L).map fun l =>
      Op.copy (rB L m nl t j l) (B +ₚ (boff + (j * L + l)))) ++ r.1, r.2)

/-- The outer-product loop: `rem = k % 4; k -= rem;` four inner kernels per iteration, then `rem`
more. Carried variables: offsets of the pointers `A` and `B`; `narg` is the run-time argument `n`
of `B += n`. `python/kernel_gen.py:78-104`; instance `src/kernels/haswell/dense.cpp:26-188`. -/
def kernLoop (L m nl t : Nat) (A B : Loc) (narg k : Nat) : List Op :=
  let inner := fun (_ : Nat) (s : Nat × Nat) =>
    let r := kernInner L m nl t A B s.1 s.2
    (r.1, (r.2, s.2 + narg))
  let rem := k % 4
  let main := loopS (cfor 0 (k - rem) 4) (fun _ s => loopS (range 4) inner s) (0, 0)
  let left := loopS (cfor 0 rem 1) inner main.2
  main.1 ++ left.1

/-- The dense kernel `cake_sgemm_haswell_{m}x{n}(A, B, C, m, n, k)` with `n = nl*L` and vector length
`L` (8 for AVX2, 4 for NEON), run by task `t`. `python/kernel_gen.py`, class `Haswell.Dense`;
`src/kernels/haswell/dense.cpp:8-202` is the instance `L = 8, m = 6, nl = 2`. -/
def kernel (L m nl t : Nat) (A B C : Loc) (narg k : Nat) : List Op :=
  kernLoadC L m nl t C ++ kernLoop L m nl t A B narg k ++ kernStoreC L m nl t C

end Cake
