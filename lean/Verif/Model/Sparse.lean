/-
The sparse microkernels. Their addresses depend on the index arrays `nnz_outer`, `k_inds`, `loc_m`,
which are therefore arguments of the model; reading one of them beyond its end, or using a register
number outside the array `c`, is the outcome `none`.
-/
import Verif.Model.Kernel

namespace Cake
open List

/-- `for(int j = 0; j < m_cnt; j++) { a = broadcast(A++); c[*loc_m * s + jj] = fmadd(a, b{jj}, ...); loc_m++; }`
with `nl` multiply-adds per iteration. Carried variables: the offsets of the pointers `A` and `loc_m`.
`s` is the literal factor of `*loc_m`. `src/kernels/haswell/sparse.cpp:46-51` (`nl = 2`, `s = 2`),
`:183-190` (`nl = 4`, `s = 2`), `src/kernels/armv8/sparse.cpp:61-67` (`nl = 3`, `s = 3`; there
`vfmaq_f32(c, b, a)` is `Arith.fma a b c`). -/
def spEntries (L m nl s t : Nat) (A : Loc) (locs : List Nat) :
    Nat → Nat × Nat → Option (List Op × (Nat × Nat))
  | 0, st => some ([], st)
  | cnt + 1, st => do
    let loc ← locs[st.2]?
    if loc * s + nl ≤ m * nl then
      let r ← spEntries L m nl s t A locs cnt (st.1 + 1, st.2 + 1)
      pure (((range L).map fun l => Op.copy (rA L m nl t l) (A +ₚ st.1)) ++
        ((range nl).flatMap fun j => (range L).map fun l =>
          Op.fma (rC L t (loc * s + j) l) (rA L m nl t l) (rB L m nl t j l)) ++ r.1, r.2)
    else none

/-- One column: `m_cnt = nnz_outer[kk]; k_ind = n*k_inds[kk];` load `nl` vectors of B, then the entries.
`src/kernels/haswell/sparse.cpp:54-65`, `:193-209`, `src/kernels/armv8/sparse.cpp:70-83`. -/
def spCol (L m nl s t : Nat) (A B : Loc) (n : Nat) (nnz kinds locs : List Nat) (kk : Nat)
    (st : Nat × Nat) : Option (List Op × (Nat × Nat)) := do
  let m_cnt ← nnz[kk]?
  let k_ind ← kinds[kk]?
  let r ← spEntries L m nl s t A locs m_cnt st
  pure (((range nl).flatMap fun j => (range L).map fun l =>
    Op.copy (rB L m nl t j l) (B +ₚ (n * k_ind + (j * L + l)))) ++ r.1, r.2)

/-- Several columns one after another. -/
def spCols (L m nl s t : Nat) (A B : Loc) (n : Nat) (nnz kinds locs : List Nat) :
    List Nat → Nat × Nat → Option (List Op × (Nat × Nat))
  | [], st => some ([], st)
  | kk :: rest, st => do
    let c ← spCol L m nl s t A B n nnz kinds locs kk st
    let r ← spCols L m nl s t A B n nnz kinds locs rest c.2
    pure (c.1 ++ r.1, r.2)

/-- `for(int kk = 0; kk < k; kk += 4)`: four columns per iteration; the loop is left at the first `kk`
with `nnz_outer[kk] == 0`. `src/kernels/haswell/sparse.cpp:32-94`, `:167-248`,
`src/kernels/armv8/sparse.cpp:46-116`. -/
def spMain (L m nl s t : Nat) (A B : Loc) (n : Nat) (nnz kinds locs : List Nat) :
    List Nat → Nat × Nat → Option (List Op × (Nat × Nat))
  | [], st => some ([], st)
  | kk :: rest, st => do
    let m_cnt ← nnz[kk]?
    if m_cnt = 0 then some ([], st)
    else
      let c ← spCols L m nl s t A B n nnz kinds locs [kk, kk + 1, kk + 2, kk + 3] st
      let r ← spMain L m nl s t A B n nnz kinds locs rest c.2
      pure (c.1 ++ r.1, r.2)

/-- The whole kernel. `rem = k % 4; k -= rem;` main loop, then the last `rem` columns. Loading and
storing C is as in the dense kernel. `src/kernels/haswell/sparse.cpp:7-126` is
`L = 8, m = 6, nl = 2, s = 2`; `:142-285` is `L = 8, m = 3, nl = 4, s = 2` (the text uses `b3` and `b4`
without declaring them; the model assumes `__m256 b3, b4`); `src/kernels/armv8/sparse.cpp:8-163` is
`L = 4, m = 8, nl = 3, s = 3`. -/
def spKernel (L m nl s t : Nat) (A B C : Loc) (n k : Nat) (nnz kinds locs : List Nat) :
    Option (List Op) := do
  let rem := k % 4
  let main ← spMain L m nl s t A B n nnz kinds locs (cfor 0 (k - rem) 4) (0, 0)
  let left ← spCols L m nl s t A B n nnz kinds locs ((cfor 0 rem 1).map fun kk => k - rem + kk) main.2
  pure (kernLoadC L m nl t C ++ main.1 ++ left.1 ++ kernStoreC L m nl t C)

/-- `cake_sp_sgemm_haswell_6x16`. `src/kernels/haswell/sparse.cpp:7-126`. -/
def cake_sp_sgemm_haswell_6x16 (t : Nat) (A B C : Loc) (_m n k : Nat) (nnz kinds locs : List Nat) :
    Option (List Op) := spKernel 8 6 2 2 t A B C n k nnz kinds locs

/-- `cake_sp_sgemm_haswell_3x32`. `src/kernels/haswell/sparse.cpp:142-285`. -/
def cake_sp_sgemm_haswell_3x32 (t : Nat) (A B C : Loc) (_m n k : Nat) (nnz kinds locs : List Nat) :
    Option (List Op) := spKernel 8 3 4 2 t A B C n k nnz kinds locs

/-- `cake_sp_sgemm_armv8_8x12`. `src/kernels/armv8/sparse.cpp:8-163`. -/
def cake_sp_sgemm_armv8_8x12 (t : Nat) (A B C : Loc) (_m n k : Nat) (nnz kinds locs : List Nat) :
    Option (List Op) := spKernel 4 8 3 3 t A B C n k nnz kinds locs

end Cake
