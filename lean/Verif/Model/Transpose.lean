/-
`transpose_mat` (`src/transpose.cpp`) and its two kernels (`src/kernels/haswell/transpose_haswell.cpp`).
-/
import Verif.Loops

namespace Cake
open List

/-! ### AVX lane shuffles, for any lane contents

A vector register is a function from the lane number (0..7) to its contents. -/

/-- `_mm256_unpacklo_ps(a, b)` = `a0 b0 a1 b1 | a4 b4 a5 b5`. -/
def unpacklo {β : Type _} (a b : Nat → β) (i : Nat) : β :=
  let h := i / 4 * 4
  match i % 4 with
  | 0 => a h
  | 1 => b h
  | 2 => a (h + 1)
  | _ => b (h + 1)

/-- `_mm256_unpackhi_ps(a, b)` = `a2 b2 a3 b3 | a6 b6 a7 b7`. -/
def unpackhi {β : Type _} (a b : Nat → β) (i : Nat) : β :=
  let h := i / 4 * 4
  match i % 4 with
  | 0 => a (h + 2)
  | 1 => b (h + 2)
  | 2 => a (h + 3)
  | _ => b (h + 3)

/-- `_mm256_shuffle_ps(a, b, imm)`: in each half two lanes of `a` and two lanes of `b`, selected by the
four 2-bit fields of `imm`. -/
def shuffle_ps {β : Type _} (a b : Nat → β) (imm i : Nat) : β :=
  let h := i / 4 * 4
  match i % 4 with
  | 0 => a (h + imm % 4)
  | 1 => a (h + imm / 4 % 4)
  | 2 => b (h + imm / 16 % 4)
  | _ => b (h + imm / 64 % 4)

/-- `_mm256_permute2f128_ps(a, b, imm)` for control bytes without the zeroing bits: each half is one of
`a` low, `a` high, `b` low, `b` high. -/
def permute2f128 {β : Type _} (a b : Nat → β) (imm i : Nat) : β :=
  let sel := if i / 4 = 0 then imm % 4 else imm / 16 % 4
  match sel with
  | 0 => a (i % 4)
  | 1 => a (4 + i % 4)
  | 2 => b (i % 4)
  | _ => b (4 + i % 4)

/-- The register network of `transpose_8x8`: rows in, rows out.
`src/kernels/haswell/transpose_haswell.cpp:26-56`. -/
def net8 {β : Type _} (row : Nat → Nat → β) : Nat → Nat → β :=
  let t0 := unpacklo (row 0) (row 1)
  let t2 := unpacklo (row 2) (row 3)
  let t4 := unpacklo (row 4) (row 5)
  let t6 := unpacklo (row 6) (row 7)
  let t1 := unpackhi (row 0) (row 1)
  let t3 := unpackhi (row 2) (row 3)
  let t5 := unpackhi (row 4) (row 5)
  let t7 := unpackhi (row 6) (row 7)
  let tt0 := shuffle_ps t0 t2 0x44
  let tt1 := shuffle_ps t0 t2 0xee
  let tt2 := shuffle_ps t1 t3 0x44
  let tt3 := shuffle_ps t1 t3 0xee
  let tt4 := shuffle_ps t4 t6 0x44
  let tt5 := shuffle_ps t4 t6 0xee
  let tt6 := shuffle_ps t5 t7 0x44
  let tt7 := shuffle_ps t5 t7 0xee
  fun i => match i with
    | 0 => permute2f128 tt0 tt4 0x20
    | 1 => permute2f128 tt1 tt5 0x20
    | 2 => permute2f128 tt2 tt6 0x20
    | 3 => permute2f128 tt3 tt7 0x20
    | 4 => permute2f128 tt0 tt4 0x31
    | 5 => permute2f128 tt1 tt5 0x31
    | 6 => permute2f128 tt2 tt6 0x31
    | _ => permute2f128 tt3 tt7 0x31

/-- `transpose_8x8(A, B, lda, ldb)`. The network only moves lanes, so it is applied to the addresses the
lanes were loaded from; the eight loads come before the eight stores, which makes no difference as A and B
are different objects. `src/kernels/haswell/transpose_haswell.cpp:15-65`. -/
def transpose_8x8 (A B : Loc) (lda ldb : Nat) : List Op :=
  (range 8).flatMap fun i => (range 8).map fun j =>
    .copy (B +ₚ (i * ldb + j)) (net8 (fun r c => A +ₚ (r * lda + c)) i j)

/-- `transpose_mxn`. `src/kernels/haswell/transpose_haswell.cpp:5-12`. -/
def transpose_mxn (A B : Loc) (lda ldb m n : Nat) : List Op :=
  (range m).flatMap fun i => (range n).map fun j => .copy (B +ₚ (i * ldb + j)) (A +ₚ (j * lda + i))

/-- `nt = (Nt/8)*8; nt = (nt == 0) ? 8 : nt`. `src/transpose.cpp:9-11`. -/
def tileOf (T : Nat) : Nat := if T / 8 * 8 = 0 then 8 else T / 8 * 8

/-- `transpose_mat(A_old, At, K, N, Kt, Nt)`: a phase per `k`, tasks = iterations over `n`. `N - nn` and
`K - kk` may be negative in C, giving no iterations; here the subtraction stops at 0. Pointers past the end
are formed but not used in that case. `src/transpose.cpp:5-28`. -/
def transpose_mat (A_old At : Loc) (K N Kt Nt : Nat) : List (List (List Op)) :=
  (cfor 0 K (tileOf Kt)).map fun k => (cfor 0 N (tileOf Nt)).map fun n =>
    (cfor n (n + tileOf Nt) 8).flatMap fun nn => (cfor k (k + tileOf Kt) 8).flatMap fun kk =>
      if nn + 8 > N ∨ kk + 8 > K then
        transpose_mxn (A_old +ₚ (kk * N + nn)) (At +ₚ (nn * K + kk)) N K (N - nn) (K - kk)
      else transpose_8x8 (A_old +ₚ (kk * N + nn)) (At +ₚ (nn * K + kk)) N K

end Cake
