# Formal model of CAKE_on_CPU in Lean 4

The Lake project is `lean/`. `Verif/Core.lean` is the machine, `Verif/Spec.lean` the vocabulary of the
property statements, `Verif/Model/` the translation of the C++ code, `Verif/Proofs/` supporting lemmas,
`Verif/Props/` the property theorems (named after the property, e.g. `C01_kfirst_product`), each followed
by `example`s that instantiate its hypotheses with a concrete, non-trivial case.

## 1. How the code is modelled

**Traces.** Packing, the block schedules, the microkernels and unpacking are *data oblivious*: which
addresses they touch depends on sizes and tile sizes, never on matrix values. So each C++ function is a Lean
function that returns the list of its element operations:

| operation | C++ |
|---|---|
| `copy dst src` | `x = y`, one lane of a vector load, store or broadcast |
| `zero dst` | `x = 0.0`, one element of `memset` |
| `fma dst a b` | `x = a*b + x`, one lane of `_mm256_fmadd_ps` / `vfmaq_n_f32` |

A location is a buffer and an index; loops are `range`s, pointer increments are threaded as state.

**Parallel loops.** An `omp parallel for` is a list of tasks, one per iteration. If two tasks have conflicting
operations the loop has undefined behaviour. Otherwise it may run as *any* interleaving of single
element operations (`Interleave`), which covers every number of threads and every OpenMP schedule.

**Undefined behaviour is an outcome.** `Exec F prog s out` relates a program and a state to each possible
outcome: `ok s'`, `exit` (failed `posix_memalign`) or `ub`. The outcome `ub` arises from an access outside an
allocated object, a read of an element never written, a data race, a second `free`, or an
allocation whose pointer is lost. `Computes F call s Q` says: the call does not stop with "unknown schedule", it
can run to its end, no execution is `ub`, and every execution that is not stopped by a failed allocation
ends in `Q`.

**Arithmetic.** `Arith α` is a type with a constant `zero` and a ternary `fma`, *without laws*. A theorem about all
`Arith α` therefore holds for IEEE single precision with NaN, infinities and any rounding.
"Product" (`IsProduct`) means: `C[i,j]` is obtained from the start value by one `fma` per `k`, in an order that is a
permutation of `0..K-1`. Corollaries instantiate exact arithmetic (`exact R`, any commutative semiring, where the
result is the matrix product), a rounded `fma` with relative error `u` (C38), and correctly rounded
24-bit arithmetic on integers (C43).

**Integers.** `int` is modelled by `Nat` where the code's values are non-negative (C subtraction that could become
negative is treated case by case in the comments). Whether 32 bits suffice is property C36: every
`int` expression of the K-first path is listed as a syntax tree, tied to the model by `rfl`-style link theorems, and the
exact condition for no overflow is proved; C55 does the same for the M-first and N-first paths, C63 for the online, the
2-D and the small-matrix products.

**Floating point in the block-size code.** `get_cache_dims`, `derive_schedule` and the roots they use are modelled over
abstract operations `Flt D`; C20, C21 and C42 instantiate them with the IEEE model `ieee r rs nf` (any monotone
rounding with relative error 2^-53, exact on integers). `ceil((double) a / b)` is the exact ceiling, which is C37.

**Tensors (linear.cpp).** A tensor is a shape and an element function; the calls of ATen used there (`t()`, `contiguous`, `mm`-like
products through the library, `sum`, `expand_as`, `+`) are modelled by their documented meaning.

## 2. Trusted base

* Lean 4.33.0's kernel. Every property theorem depends on no axioms beyond `propext`, `Classical.choice` and `Quot.sound`
  (the complete list per theorem is printed by `#print axioms`; section 6 gives the result). There are no own axioms, no
  `sorry`/`admit`, no `native_decide`, no `bv_decide`. Witnesses are evaluated with `decide`/`decide +kernel`, i.e. by the kernel.
* The translation from C++ to Lean, done by hand; each definition cites the lines it translates.
* Race-free C++ programs are sequentially consistent, so interleavings of element operations are an adequate semantics.
* `_mm256_fmadd_ps` and its ARM counterpart apply one function to each lane; vector loads and stores copy lanes. Generated
  kernels (`python/kernel_gen.py`) are modelled as the text the generator emits.
* The caller's matrices A, B and C do not overlap (they are different buffers of the model).
* `malloc`/`calloc` succeed (the code does not check them; a failed `posix_memalign` is modelled), except in C66, which is about their failure.

### What is modelled

| file | parts | Lean |
|---|---|---|
| `src/cake_sgemm.cpp` | `cake_sgemm`, `cake_sgemm_test`, `cake_sgemm_online`, `cake_sgemm_2d`, `schedule` | `Model/Sgemm, Blis, Online, TwoD, CacheDims` |
| `src/cake_sgemm_k_first.cpp` | `schedule_KMN`, `schedule_KMN_online`, `schedule_KMN_2d` | `Model/KFirst, Online, SharedVar, TwoD` |
| `src/cake_sgemm_m_first.cpp`, `_n_first.cpp` | dense schedules | `Model/MFirst, NFirst` |
| `cake_sgemm.cpp`, `cake_sgemm_k_first.cpp` 159-, `block_sizing.cpp` 804- | `cake_sgemm_2d_small` with its dims and schedule | `Model/TwoD` |
| `src/pack_*.cpp`, `src/unpack_*.cpp`, `src/pack_ob.cpp`, `src/pack_helper.cpp` | all packing and unpacking the above use | `Model/PackOb, KFirst, MFirst, NFirst, Blis` |
| `src/block_sizing.cpp` | context queries and updates, schedule selection, dense tile sizes, block dims, packed sizes, core grid, lcm | `Model/Dims, CacheDims, Dispatch, Grid, TwoD` |
| `python/kernel_gen.py`, `include/kernel_wrapper.h` | generated dense kernels (both architectures), dispatch table | `Model/Kernel, Dispatch` |
| `python/grid_gen.py` | factor table | `Model/Grid` |
| `src/kernels/*/dense.cpp` | kernels with packed and unpacked operands | `Model/Kernel, Unpacked` |
| `src/kernels/*/sparse.cpp` | `cake_sp_sgemm_*` | `Model/Sparse` |
| `src/transpose.cpp`, `src/kernels/haswell/transpose_haswell.cpp` | `transpose_mat`, 8x8 shuffle network | `Model/Transpose` |
| `src/util.cpp` | checkers, `transpose` | `Model/Util` |
| `src/linear.cpp` | forward and backward pass | `Model/Linear` |
| `block_sizing.cpp` 662-680, 831; `cake_sgemm.cpp` 179-247, 253-318 | automatic 2-D tiles, whole calls with default tiles | `Model/TwoDApi` |
| `block_sizing.cpp` 85-302 | core count and cache sizes from the text of `/proc/cpuinfo` and `lscpu` (the shell tools are modelled by their effect on text, `popen` is assumed to succeed) | `Model/Detect` |
| `pack_ob.cpp` 173-213, 295-387; `pack_k_first.cpp` 83-94 | packing and unpacking of blocks at given positions, parallel packing of B, `pack_test1` | `Model/PackMulti` |
| `kernels/haswell/blis_pack_haswell.cpp`, `kernels/armv8/blis_pack_armv8.cpp` | packing kernels in vector registers (strides and sizes as natural numbers; prefetches left out) | `Model/PackAsm` |
| `kernels/armv8/dense.cpp` | the hand-written 8 x 12 NEON kernel (replaced by generated code when `install.sh` runs) | `Model/KernelArm` |
| `pack_m_first.cpp`, `pack_n_first.cpp`, `unpack_m_first.cpp`, `unpack_n_first.cpp`, `cake_sgemm_m_first.cpp`, `cake_sgemm_n_first.cpp`, `pack_helper.cpp`, `block_sizing.cpp` 517-587 | 32-bit `int` expressions of the M-first and N-first paths | `Model/IntRangeMN` |
| `examples/cake_conv.cpp` 31-258, 262-392, 424-449, 536-708, 765-848, 1178-1213 | kernel, tile sizes, packing, schedule and entry point of the convolution example; `im_2_col` | `Model/Conv` |
| `examples/cake_gemv.cpp` 24-33, 89-196, 273-490, 716-767 | kernels, tile sizes, block dimensions, schedule, entry point and checker loop of the matrix-vector example | `Model/Gemv` |
| `src/cake_sgemm.cpp` 397-468 | the online entry point from its first line | `Model/OnlineApi` |
| `src/util.cpp` 3-136 | the library's own test run | `Model/SelfTest` |
| `src/cake_sgemm.cpp` 9-175, 179-247, 253-318, 397-468; `src/block_sizing.cpp` 309-448, 469-470, 651-719, 813-831 | several calls at a time; accesses of the calls to the context's fields; pointers that overlap | `Model/Concurrent`, `Model/LibCall` |
| `cake_sgemm.cpp` 179-247, 397-468; `cake_sgemm_k_first.cpp` 279-486, 633-813; `block_sizing.cpp` 641-769 | 32-bit `int` expressions of `cake_sgemm_online` and `cake_sgemm_2d` | `Model/IntRangeOn` |
| `cake_sgemm.cpp` 253-318; `cake_sgemm_k_first.cpp` 159-271; `block_sizing.cpp` 800-855 | 32-bit `int` expressions of `cake_sgemm_2d_small` | `Model/IntRangeSmall` |
| `autotune_sa.cpp` 21-82 | `clamp_val_int`, `get_random_step`, `get_candidate`; hashing of the visited set not modelled | `Model/Autotune` |
| `util.cpp` 253-277 | `rand_gen`, `rand_init` (one element), `normalRandom` | `Model/Random` |
| all entry points | failure of `malloc` and `calloc` (C66 only; elsewhere they succeed) | `Model/OutOfMem` |
| K-first `cake_sgemm` once more | over 32-bit `int`, recording every `int` expression where it is evaluated (C36) | `Model/Checked` |
| `src/block_sizing.cpp` get_cache_dims, derive_schedule | the same over 32-bit `int` | `Model/Api32` |
| M-first and N-first `cake_sgemm` once more | over 32-bit `int`, recording every `int` expression where it is evaluated (C55) | `Model/CheckedMN` |
| `src/cake_sgemm.cpp` 9-175 | the whole call over 32-bit `int`, any schedule (C67) | `Model/Api32All` |
| `src/cake_sgemm.cpp` schedule with its flags, cake_gemm_small | what is left after the commented-out calls (C68) | `Model/Unused` |
| `src/cake_sgemm_small.cpp` | the three schedules for small operands; their kernel calls are commented out (C68) | `Model/Unused` |
| `src/cake_sgemm_k_first.cpp` schedule_KMN_C_unpacked | after packing A and B, on the caller's C (C68) | `Model/Unused` |
| `src/cake_sgemm.cpp` 397-468; `cake_sgemm_k_first.cpp` 633-813 | `cake_sgemm_online` once more over 32-bit `int`, every `int` expression recorded where it is evaluated; with the choice of tile sizes in front (C63, C67) | `Model/CheckedOn` |
| `src/cake_sgemm.cpp` 179-247; `cake_sgemm_k_first.cpp` 279-486; `block_sizing.cpp` 641-798 | `cake_sgemm_2d` once more over 32-bit `int`, every `int` expression recorded where it is evaluated, division by zero included; with the choice of grid and tile in front (C63, C67) | `Model/Checked2d` |
| `src/cake_sgemm.cpp` 253-318; `cake_sgemm_k_first.cpp` 159-271; `block_sizing.cpp` 804-857 | `cake_sgemm_2d_small` once more over 32-bit `int`, in the same way (C63, C67) | `Model/CheckedSmall` |
| `examples/cake_gemv.cpp` 200-270 | the row-major inner-product kernel, called only in commented-out code (C79) | `Model/GemvInner` |
| `examples/cake_sgemm_test.cpp` 5-90, `examples/cake_gemv.cpp` 774-785 | the benchmark program; the arguments of the matrix-vector program (C80) | `Model/Bench` |
| `src/block_sizing.cpp` 4-7 | `clamp_val` (C81); infinities not modelled | `Model/Clamp` |

### What is not modelled

* builds with `USE_BLIS`, which call BLIS kernels
  (reached only in builds that define the matching macros);
* the products take the core count and cache sizes as arbitrary inputs, whether detected (C50, C51) or set by the user;
* timing and printing;
* the sparse product path (`cake_sp_sgemm`, CSR files): only its microkernels exist in this repository and are modelled;
* the `main` programs of the convolution and matrix-vector examples beyond their arguments and sizes (their functions are modelled, C56, C57; the `main` of the benchmark is modelled, C80) and the experiment scripts.

## 3. Properties

Full statements are in `properties.jsonl`. `Model` names what is modelled, `Proof` how it is proved.

### C01 K-first product is correct — proved

* Model: `pack_A/B_k_first`, `schedule_KMN`, `unpack` per core block, allocation and release of `cake_sgemm`
* Proof: blocks partition the padded ranges (Chop), microkernel lemma, invariant over the blocks visited so far along the serpentine order, then unpacking; Hoare triples over all executions
* Status: any tile sizes that are multiples of the register tile; arithmetic without laws, plus exact version
* Theorems: `C01_kfirst_exact`, `C01_kfirst_product`

### C02 M-first product is correct — proved

* Model: as C01 with the shared packed C of M-first
* Proof: as C01; the packed columns beyond N hold arbitrary values, and no C entry depends on them
* Status: every execution that ends normally is correct, with no assumption on the memory behind B (C02_mfirst_if_ends); executions end normally exactly when the elements of B that packing reads are readable and initialised (C10_mfirst_ends_iff), which n_r | N or n_r-1 elements of slack guarantee; their values are arbitrary
* Theorems: `C02_mfirst_exact`, `C02_mfirst_if_ends`, `C02_mfirst_product`

### C03 N-first product is correct — proved

* Model: as C01 with the shared packed C of N-first
* Proof: as C02
* Status: every execution that ends normally is correct, with no assumption on the memory behind B (C03_nfirst_if_ends); executions end normally exactly when the elements of B that packing reads are readable and initialised (C10_nfirst_ends_iff), which n_r | N or n_r-1 elements of slack guarantee; their values are arbitrary
* Theorems: `C03_nfirst_exact`, `C03_nfirst_if_ends`, `C03_nfirst_product`

### C04 Online (pack-on-the-fly) product is correct — proved

* Model: `cake_sgemm_online`, `schedule_KMN_online` with on-the-fly packing and the skip tests
* Proof: invariant "the packed buffer holds block (m,k) / (k,n)" justifies each skipped packing; equality with C01 order
* Status: product under the hypothesis that the padding lanes are readable (whether they are is C11), for all their contents; also: any run that ends normally has C = A*B without that hypothesis; bit for bit the K-first result
* Theorems: `C04_online_eq_kfirst`, `C04_online_exact`, `C04_online_if_ends`, `C04_online_product`

### C05 2-D partitioned product is correct — partial

* Model: `cake_sgemm_2d`, `init_block_dims_2d`, `schedule_KMN_2d`, core grid pm x pn
* Proof: per-core blocks are disjoint rectangles covering C; otherwise as C04
* Status: proved for every non-empty C, every grid 1 <= pn <= p (also the one grid_dims_2d returns), every tile; the operands must be readable up to the next register tile (whether they are is C11), or the run must end normally. Refuted for M = 0 or N = 0: the call divides by zero (C05_2d_empty_refuted)
* Theorems: `C05_2d_any_grid`, `C05_2d_empty_refuted`, `C05_2d_eq_kfirst`, `C05_2d_exact_partial`, `C05_2d_grid_partial`, `C05_2d_if_ends_partial`, `C05_2d_product_partial`

### C06 Small 2-D product is correct — proved

* Model: `cake_sgemm_2d_small` and its dimensions
* Proof: as C05 for runs that end normally (no access outside the objects, no read of unwritten memory)
* Status: every run that ends normally (no access outside its objects, no read of memory never written) has C = A*B; when that is the case is C11_small_iff
* Theorems: `C06_small_exact`, `C06_small_if_ends`, `C06_small_product`

### C07 Thread interleaving never changes the result — partial

* Model: parallel loops as sets of tasks with interleaving semantics
* Proof: generic theorem: race-free tasks give the sequential effect in every interleaving; race freedom from footprints of the tasks
* Status: race freedom and determinism proved for all three schedules, the online and both 2-D products, except N-first with beta != 0 and ragged column blocks, where packing C can race: C07_nfirst_accumulate_refuted. C07_nfirst_race_iff states exactly when the accumulating N-first call is race free, C07_nfirst_race_whole_iff gives the condition in terms of the sizes when there is a whole row block
* Theorems: `C07_2d_deterministic`, `C07_kfirst_deterministic`, `C07_kfirst_raceFree`, `C07_mfirst_deterministic`, `C07_mfirst_raceFree`, `C07_nfirst_accumulate_refuted`, `C07_nfirst_deterministic`, `C07_nfirst_raceFree`, `C07_nfirst_race_iff`, `C07_nfirst_race_whole_iff`, `C07_online_deterministic`, `C07_small_deterministic`

### C08 Inputs and surrounding memory are preserved — proved

* Model: all written locations of the traces
* Proof: footprints; part of the postcondition of the triples
* Status: all three schedules, the online and both 2-D products; for M-first and N-first every execution that ends normally, whatever lies behind B and whatever beta is (N-first with beta != 0 needs K > 0); for N-first with beta != 0 and disagreeing C layouts no execution ends normally
* Theorems: `C08_2d_onlyC`, `C08_kfirst_onlyC`, `C08_mfirst_if_ends`, `C08_mfirst_onlyC`, `C08_nfirst_if_ends`, `C08_nfirst_onlyC`, `C08_online_onlyC`, `C08_small_onlyC`

### C09 K-first product is memory safe — proved

* Model: allocation, bounds, initialisation, release as in Core
* Proof: bounds of every index of the trace; packed buffers are completely written before they are read
* Status: no execution reaches undefined behaviour
* Theorems: `C09_kfirst_safe`

### C10 M-first and N-first products are memory safe — partial

* Model: as C02/C03
* Proof: witness of an over-read; safety from readability of n_r-1 more elements or n_r | N
* Status: the property does not hold: C10_mfirst_refuted, C10_nfirst_refuted (B is read beyond its end). C10_mfirst_ends_iff and C10_nfirst_ends_iff: a call can end normally exactly if the stated number of elements of B is readable and initialised; C10_mfirst_iff and C10_nfirst_iff say exactly for which sizes, threads and k_c a B of exactly K*N elements suffices.
* Theorems: `C10_mfirst_ends_iff`, `C10_mfirst_iff`, `C10_mfirst_overread`, `C10_mfirst_refuted`, `C10_mfirst_safe_dvd_partial`, `C10_mfirst_safe_partial`, `C10_nfirst_ends_iff`, `C10_nfirst_iff`, `C10_nfirst_overread`, `C10_nfirst_refuted`, `C10_nfirst_safe_dvd_partial`, `C10_nfirst_safe_partial`

### C11 Online and 2-D products are memory safe — partial

* Model: as C04-C06
* Proof: exact set of elements of A and B read by packing; iff-theorems for every size
* Status: the property does not hold: C11_online_refuted, C11_2d_refuted, C11_small_refuted; C11_online_iff, C11_2d_iff and C11_small_iff say exactly when it does
* Theorems: `C11_2d_iff`, `C11_2d_refuted`, `C11_2d_safe_partial`, `C11_online_iff`, `C11_online_refuted`, `C11_online_safe_partial`, `C11_small_iff`, `C11_small_refuted`, `C11_small_safe_partial`

### C12 alpha and beta are honoured — partial

* Model: `alpha`, `beta` as arguments of the modelled entry point
* Proof: the program is syntactically independent of alpha and of beta up to `beta != 0`; witnesses; cases alpha = 1
* Status: the property does not hold: alpha is never used and beta is only compared with 0 (C12_ignored, C12_*first_refuted). Proved for alpha=1 and beta=0 (K-first: any beta treated as 0; M/N-first: beta=1 too)
* Theorems: `C12_ignored`, `C12_kfirst_partial`, `C12_kfirst_refuted`, `C12_mfirst_partial`, `C12_mfirst_refuted`, `C12_nfirst_partial`, `C12_nfirst_refuted`

### C13 Accumulation into C with beta != 0 — partial

* Model: `pack_C_m_first`, `pack_C_n_first` and the schedules
* Proof: as C02 starting from the packed C; N-first witness for differing offsets
* Status: M-first proved; N-first refuted (C13_nfirst_refuted); exact characterisation C13_nfirst_iff: the N-first call accumulates iff N <= n_c, or the blocks tile the padded C evenly, or one row block and two column blocks of matching proportions; for every other size every execution is undefined (C13_nfirst_undefined)
* Theorems: `C13_mfirst_accumulate`, `C13_nfirst_accumulate_cases_partial`, `C13_nfirst_accumulate_partial`, `C13_nfirst_iff`, `C13_nfirst_refuted`, `C13_nfirst_undefined`

### C14 cake_sgemm_test computes the product — partial

* Model: `cake_sgemm_test` with `schedule()` as written
* Proof: the final C computed for all inputs
* Status: Refuted (C14_refuted): schedule() does nothing for K-first, so C is all zero (beta = 0) or unchanged (beta != 0) for all inputs. Partial: K = 0, and operands whose product is zero.
* Theorems: `C14_empty_partial`, `C14_iff_zero_partial`, `C14_refuted`, `C14_unchanged`, `C14_zeroes`

### C15 Packing fills exactly the advertised buffer — proved

* Model: packing traces
* Proof: destinations of the trace are 0..size-1 without repetition
* Status: A and B under every schedule; also C under K-first and M-first
* Theorems: `C15_packA`, `C15_packB`, `C15_packC`

### C16 Packed layout is the block layout the kernels expect — proved

* Model: packing traces
* Proof: index formula of each destination, inverse of the block layout
* Status: A under every schedule, B under K-first, as explicit index formulas, for every run
* Theorems: `C16_packA_kfirst`, `C16_packA_mfirst`, `C16_packA_nfirst`, `C16_packB_kfirst`

### C17 Pack/unpack of C round-trips — partial

* Model: `pack_C_*`, `unpack_C_*`
* Proof: round trip of the copies; N-first witness
* Status: K-first and M-first proved for all sizes; N-first refuted (C17_nfirst_refuted); exact characterisation C17_nfirst_iff, and for every other size an element of C is lost (C17_nfirst_broken)
* Theorems: `C17_kfirst`, `C17_mfirst`, `C17_nfirst_broken`, `C17_nfirst_iff`, `C17_nfirst_partial`, `C17_nfirst_refuted`

### C18 Pre-packed operands give the same result — proved

* Model: `packedA`/`packedB` branches of `cake_sgemm`
* Proof: both programs reach memories with the same packed operands, then the same schedule
* Status: all three schedules
* Theorems: `C18_kfirst_prepacked`, `C18_mfirst_prepacked`, `C18_nfirst_prepacked`

### C19 Block dimensions partition the matrix — proved

* Model: `init_block_dims`
* Proof: natural-number arithmetic on cdiv/mod
* Status: blocks, strips and tails tile the padded range exactly, for all three schedules
* Theorems: `C19_kfirst`, `C19_mfirst`, `C19_nfirst`

### C20 Automatic tile sizes are valid — proved

* Model: `get_cache_dims` dense branch, IEEE model
* Proof: interval bounds on the rounded roots; case analysis of the clamps
* Status: IEEE model: any monotone rounding with the standard error bound; m_r, n_r, cache sizes < 2^31, p <= 2^15, at most 2^20 cores. The L2 condition is shown necessary (C20_small_l2_undefined). 4-byte elements, the only size the library passes
* Theorems: `C20_auto_tiles`, `C20_small_l2_undefined`

### C21 Chosen tile fits the L2 cache — partial

* Model: as C20
* Proof: square-root inequality, monotone rounding; N-first witness for every rounding
* Status: K-first and M-first proved; N-first refuted for every rounding on a 256KB/20MB/4-core machine (C21_nfirst_refuted), proved when the L3-derived tile is not larger
* Theorems: `C21_fits_partial`, `C21_nfirst_partial`, `C21_nfirst_refuted`

### C22 User-chosen tile sizes give a correct product — partial

* Model: user tile branch (`mcu,kcu,ncu`)
* Proof: corollary of C01-C03; witnesses where every run leaves its buffer
* Status: proved for complete sizes that are multiples of the register tile, with every schedule (C22_user_tiles_partial); C22_kfirst_iff, C22_mfirst_iff and C22_nfirst_iff settle all positive sizes of non-empty products (beta = 0 and n_r - 1 readable elements behind B for the last two): the call is correct exactly when a size that is not a multiple exceeds the matrix (N-first: p*m_c counts, not m_c; K-first: also the largest padded block of a thread fits m_c*n_c). Otherwise it is wrong on all-ones operands, racy, or out of bounds (also C22_mcu_refuted, C22_ncu_refuted). The statement for all sizes is therefore false
* Theorems: `C22_kfirst_iff`, `C22_kfirst_partial`, `C22_mcu_refuted`, `C22_mfirst_iff`, `C22_mfirst_partial`, `C22_ncu_refuted`, `C22_nfirst_iff`, `C22_nfirst_partial`, `C22_user_tiles_partial`

### C23 Schedule selection is total and respects the caller — proved

* Model: `set_schedule`, `derive_schedule`
* Proof: case analysis for arbitrary floating-point operations
* Status: for arbitrary floating-point operations and comparisons
* Theorems: `C23_no_unknown_schedule`, `C23_schedule_total`, `C23_set_schedule`, `C23_set_schedule_rule`

### C24 Schedule selection minimises the modelled IO — proved

* Model: `derive_schedule` in exact arithmetic
* Proof: rational arithmetic
* Status: exact arithmetic for all sizes, plus minimality of the modelled traffic; under rounding the M/N direction is proved unaffected, and products no taller than a third of the block are M-first under every rounding
* Theorems: `C24_minimises`, `C24_rounded_direction`, `C24_rounded_small`, `C24_schedule_rule`

### C25 Serpentine traversal visits each block once and moves by one face — proved

* Model: `schedule_KMN`: reads of packed operands per core
* Proof: list induction over the traversal; position of each read determines its block
* Status: K-first: the packed-operand reads of every core follow one order that visits every block exactly once and moves one step in one coordinate at a time; blocks are disjoint; consecutive blocks share an operand.
* Theorems: `C25_blocks_disjoint`, `C25_reuse`, `C25_serpentine`

### C26 Microkernel computes the outer-product update — proved

* Model: generated kernel text: loads, unrolled loop, remainder, stores
* Proof: register-level symbolic execution for all m, n, k
* Status: dense microkernel, all tile sizes of both architectures; wrapper copy loops as written; the hand-written NEON kernel in the source tree (replaced by the generated one on installation) is modelled separately and proved to have the same effect (C26_armv8_hand_same)
* Theorems: `C26_armv8_hand`, `C26_armv8_hand_frame`, `C26_armv8_hand_reads`, `C26_armv8_hand_safe`, `C26_armv8_hand_same`, `C26_exact`, `C26_frame`, `C26_microkernel`, `C26_reads`

### C27 Kernel dispatch picks the kernel of the configured register tile — proved

* Model: `kernel_map`, `cake_query_cntx`, `update_mr_nr`
* Proof: finite case analysis over the whole table
* Status: for every kernel size in the dispatch table of both architectures and every size the query function selects
* Theorems: `C27_dispatch`, `C27_fits`, `C27_query`

### C28 Changing the register tile keeps every schedule correct — partial

* Model: `update_mr_nr` followed by a product
* Proof: C01 with the table kernel; witnesses for the fixed kernel
* Status: proved for K-first; false for M-first and N-first with every generated register tile other than the compiled-in one: C28_other_tiles_refuted (all sizes that contain a whole register tile, all thread counts and tile sizes), C28_unreached_refuted (smaller sizes), concrete C28_mfirst_refuted, C28_nfirst_refuted; C28_wide_refuted: with a context changed by hand so that the kernel is wider than the tile, K-first is undefined for all non-empty sizes
* Theorems: `C28_kfirst_partial`, `C28_mfirst_refuted`, `C28_nfirst_refuted`, `C28_other_tiles_refuted`, `C28_unreached_refuted`, `C28_wide_refuted`

### C29 Aligned vector loads are aligned — proved

* Model: addresses of vector loads of packed B in `cake_sgemm`, the online and grid products and the sparse kernels
* Proof: divisibility of every offset; for a caller-packed B the loads of the first block show that the pointer must be aligned
* Status: cake_sgemm in every schedule, also with a tile width that is no multiple of n_r but exceeds N (C29_aligned); online and both grid products for all tile sizes; the sparse kernels; B packed by the caller: all loads are aligned exactly if the caller's pointer is (C29_prepacked_iff)
* Theorems: `C29_2d`, `C29_aligned`, `C29_online`, `C29_prepacked_iff`, `C29_small`, `C29_sparse`

### C30 Core grid selection is defined and uses all cores — partial

* Model: `grid_dims_2d` with the uninitialised variable as an arbitrary value
* Proof: loop invariant of the search, witnesses
* Status: the property does not hold: the fallback row index is read uninitialised (C30_uninitialised, C30_refuted) and the table is read out of range for p > ncores; C30_iff says exactly for which p and which wish the function is defined
* Theorems: `C30_iff`, `C30_partial`, `C30_prime_refuted`, `C30_refuted`, `C30_too_many_refuted`, `C30_uninitialised`

### C31 Least common multiple helper — proved

* Model: `lcm`
* Proof: loop invariant, termination by the product
* Theorems: `C31_lcm`

### C32 Checker accepts exactly correct results — partial

* Model: `cake_sgemm_checker`, `mat_equals`, `add_checker`
* Proof: fold invariant; comparison as an arbitrary relation; NaN witness
* Status: the property does not hold for NaN: C32_refuted. C32_checker_partial and C32_exact give the exact meaning of the verdict
* Theorems: `C32_add_checker`, `C32_add_checker_exact`, `C32_checker_partial`, `C32_exact`, `C32_nan_partial`, `C32_refuted`

### C33 Matrix transpose — partial

* Model: `transpose_mat`, `transpose_8x8`, `transpose`
* Proof: overlapping writes carry equal values; shuffle network evaluated on symbolic lanes
* Status: value, safety and race freedom proved except when 8 does not divide K and N exceeds the tile: then two threads write the same (equal) values concurrently, proved as C33_race_refuted. C33_transpose_iff: the call is defined exactly when one of the two conditions holds
* Theorems: `C33_network`, `C33_plain`, `C33_race_refuted`, `C33_transpose_iff`, `C33_transpose_partial`, `C33_transpose_racefree_partial`

### C34 No leak, no double free — partial

* Model: allocation items of every entry point
* Proof: final allocation map equals the initial one; NULL context witness
* Status: proved for all three schedules, online and 2-D with an explicit context (and explicit NULL-context accounting in C42); false for a NULL context: C34_null_context_leaks
* Theorems: `C34_2d_no_leak`, `C34_kfirst_no_leak`, `C34_mfirst_no_leak`, `C34_nfirst_no_leak`, `C34_null_context_leaks`, `C34_online_no_leak`, `C34_small_no_leak`

### C35 Calls are history independent — proved

* Model: context transformer of each call
* Proof: the fields a call reads are not among those that calls write, or are overwritten first; induction over histories
* Status: for arbitrary floating-point operations; the context carries no other mutable state in the modelled code
* Theorems: `C35_histories_run`, `C35_history_independent`

### C36 No integer overflow for addressable sizes — partial

* Model: all int expressions of the K-first path as syntax trees; the same path as a program that records them as it evaluates them, with a 32-bit evaluator
* Proof: monotonicity bounds; equality of the recording program with the model; no negative difference, so undefined means overflow or division by zero; witnesses
* Status: every int expression of the K-first path is recorded by a monad at the place where the program uses it (Model/Checked) and evaluated over 32-bit int; no overflow, and the right product, proved when additionally p*m_c and m_c*n_c fit, and definedness exactly then (C36_run32_defined_iff, C36_no_overflow_iff); the statement without these two conditions is false: C36_refuted, C36_run32_refuted
* Theorems: `C36_large_overflows`, `C36_link_dims`, `C36_link_obA`, `C36_link_packA`, `C36_link_packB`, `C36_link_regTiles`, `C36_link_schedule`, `C36_link_unpack`, `C36_no_overflow_iff`, `C36_no_overflow_partial`, `C36_refuted`, `C36_run32_defined_iff`, `C36_run32_large`, `C36_run32_packed_partial`, `C36_run32_product_partial`, `C36_run32_refuted`, `C36_run32_same`, `C36_run32_undefined_iff`

### C37 Double-precision ceil is exact — proved

* Model: double-precision quotient and ceil
* Proof: real-number lemma on rounding near integers; round-to-nearest constructed
* Status: for every rounding that is monotone, exact on integers and has relative error 2^-53, in particular round to nearest (constructed)
* Theorems: `C37_cdiv`, `C37_ceil_exact`

### C38 Forward error bound independent of blocking — proved

* Model: arithmetic with relative error u
* Proof: induction over the fold; corollary of the product theorems
* Status: forward error bound for all three schedules and the default call, with separate constants for product and sum, underflow and an overflow condition; every rounding to single precision, fused or not, is shown to meet the hypothesis; for M-first, N-first and the default call it holds of every execution that ends normally (C38_*_if_ends)
* Theorems: `C38_default_bound`, `C38_default_if_ends`, `C38_fused`, `C38_kfirst_bound`, `C38_mfirst_bound`, `C38_mfirst_if_ends`, `C38_nfirst_bound`, `C38_nfirst_if_ends`, `C38_unfused`

### C39 Result depends on p and tiles only through the k-order — proved

* Model: as C01
* Proof: the order of C01 is `range K` when there is one k block
* Theorems: `C39_kfirst_single_block`

### C40 Generated factor table is correct — proved

* Model: `grid_gen.py`
* Proof: list indexing
* Theorems: `C40_bounds`, `C40_table`

### C41 BLIS-style packing equals plain packing — proved

* Model: `pack_*` fast paths
* Proof: equality of final states
* Status: From any state with A (B) readable and room for the packed buffer, every run of the fast path and of the checked path ends in the same state. The strip kernels are the plain loops; C53 shows that the register kernels of the other builds end each strip in the same state.
* Theorems: `C41_packA`, `C41_packB`

### C42 The default call is correct end to end — partial

* Model: context query, schedule choice, tile sizes, product
* Proof: composition of C20, C23 and C01-C03
* Status: false as written if B is an object of exactly K*N elements: C42_default_refuted (on every supported machine with large enough caches and p >= 2 the default call on 2x2 times 2x1 reads beyond B). C42_if_ends: whatever lies behind B, every execution that ends normally is correct. C42_default_partial: with n_r | N, or n_r-1 further readable elements, it always does. K-first without any condition (C42_kfirst); NULL context included (it is leaked, see C34)
* Theorems: `C42_default_partial`, `C42_default_refuted`, `C42_if_ends`, `C42_kfirst`

### C43 Integer-valued matrices are multiplied exactly — proved

* Model: correctly rounded fma
* Proof: all partial sums are integers below 2^24, so no rounding occurs
* Status: every correctly rounded fma with 24-bit significand; for M-first and N-first it holds of every execution that ends normally (C43_*_if_ends)
* Theorems: `C43_kfirst_int_exact`, `C43_mfirst_if_ends`, `C43_mfirst_int_exact`, `C43_nfirst_if_ends`, `C43_nfirst_int_exact`

### C44 Online product has no data race on its bookkeeping variables — partial

* Model: shared scalar in `schedule_KMN_online`
* Proof: trace of scalar accesses; every interleaving yields the right value
* Status: the property does not hold: C44_online_offset_race; every read still yields the right value in every interleaving
* Theorems: `C44_online_offset_race`, `C44_online_offset_read_race`, `C44_online_offset_value_partial`

### C45 2-D product: automatic tile sizes and default calls — partial

* Model: `Model/TwoDApi`: `toFloat`, `kcMax`, `autoMc2d`, `tiles2d`, `sgemm_2d_api`, `sgemm_2d_small_api`
* Proof: `Proofs/TwoDTiles`: exact values of the float and double expressions under any rounding with error below one half unit; then C05/C30 for the product
* Status: (a) proved (C45_tiles). (b) does not hold: on 32 KB/256 KB caches the tile takes 402176 bytes (C45_L2_refuted); it holds if depth and width do not exceed the height derived from L2 (C45_L2_partial). (c) proved where the grid is defined (C30) and the operands have readable slack (C11).
* Theorems: `C45_2d_default_partial`, `C45_L2_partial`, `C45_L2_refuted`, `C45_small_default_partial`, `C45_tiles`

### C46 Sparse microkernels compute the product of the tile they encode — partial

* Model: `cake_sp_sgemm_*` microkernels with index arrays
* Proof: induction over the encoded columns; witnesses
* Status: Proved for the 6x16 (x86) and 8x12 (ARM) kernels, for every tile whose empty columns come last: value, frame, memory safety, and equality with the dense product in exact arithmetic. Refuted without that order (early exit drops columns; leftover columns take entries from the wrong position) and for the 3x32 kernel (row factor 2 instead of 4).
* Theorems: `C46_armv8_8x12_partial`, `C46_dense_partial`, `C46_empty_first_refuted`, `C46_haswell_3x32_refuted`, `C46_haswell_6x16_partial`, `C46_tail_refuted`

### C47 Microkernels for unpacked operands — proved

* Model: `cake_sgemm_haswell_6x16_*` with unpacked operands
* Proof: as C26
* Status: All four kernels: value, frame, memory safety, exact arithmetic. That N >= 16 is needed is shown by a witness.
* Theorems: `C47_A_packed`, `C47_B_packed`, `C47_C_packed`, `C47_exact`, `C47_frame`, `C47_frame_C_packed`, `C47_narrow_refuted`, `C47_safe`, `C47_unpacked`

### C48 PyTorch forward pass — partial

* Model: `linear_forward`, `cake_query_cntx_torch`
* Proof: composition with the product theorem; uninitialised fields are arbitrary
* Status: Proved when the fields that cake_query_cntx_torch leaves uninitialised hold the right values and the number of output features is a multiple of the register tile. Refuted otherwise: if ncores happens to be 0 every run is undefined, for every shape.
* Theorems: `C48_context_refuted`, `C48_exact_partial`, `C48_forward_partial`

### C49 PyTorch backward pass — partial

* Model: `linear_backward`
* Proof: composition; exact characterisation of the bias gradient
* Status: Both products proved under the conditions of C48. The bias gradient is wrong: C49_bias_iff shows it is right for all gradients exactly if the batch has at most one sample or there is at most one output feature; C49_bias_refuted is a 2x2 witness.
* Theorems: `C49_bias_iff`, `C49_bias_refuted`, `C49_products_partial`

### C50 Cache sizes are those the system reports — partial

* Model: `Model/Detect`: `get_cache_size` on the text printed by `lscpu`; `fgets`, `atoi`, `grep`, `grep -Eo`, `tr` as functions on lists of characters
* Proof: induction on the text: a prefix without unit letters is skipped, a numeral followed by a unit is the match; decimal numerals via `Nat.ofDigits_digits`
* Status: Proved where the sizes are printed as whole numbers of K or M and the digits of the first Model line are not one of ten built-in numbers (C50_whole_partial). Does not hold otherwise: 1.3M is read as 3M (C50_fraction_refuted, for all digits), sizes in G are not recognised (C50_gibibytes_refuted), 2048M and more overflow (C50_overflow_refuted), a CPU name whose digits are a built-in number gives the built-in sizes (C50_builtin_refuted), a CPU name with too many digits is undefined behaviour (C50_model_overflow_refuted), and so is a missing Model number (C50_no_model_refuted).
* Theorems: `C50_builtin_refuted`, `C50_fraction_refuted`, `C50_gibibytes_refuted`, `C50_model_overflow_refuted`, `C50_no_model_refuted`, `C50_overflow_refuted`, `C50_whole_partial`

### C51 Number of physical cores — partial

* Model: `Model/Detect`: `get_num_physical_cores` on `/proc/cpuinfo` and `lscpu` text
* Proof: as C50; division of the counts
* Status: Proved for one socket with uniform cores (C51_cores_partial). In general the result is the number of cores per socket (C51_per_socket), so it is wrong with two or more sockets (C51_sockets_refuted), too small on machines with cores of one and of two threads (C51_mixed_refuted), and undefined where lscpu has no Thread or Socket line (C51_no_line_refuted).
* Theorems: `C51_cores_partial`, `C51_mixed_refuted`, `C51_no_line_refuted`, `C51_per_socket`, `C51_sockets_refuted`

### C52 Block packing functions of the public header — proved

* Model: `Model/PackMulti` and `Model/PackOb`: the functions as lists of element operations, one list per parallel iteration
* Proof: closed forms of the loops, each destination written once, `run_pack` for any interleaving; `phases_ok_inv` for the necessity of the conditions
* Status: Values, frame and every interleaving for each function; round trip; the conditions on padding (A) and on M (pack_test1) are shown to be necessary.
* Theorems: `C52_packA`, `C52_packA_needs_pad`, `C52_packB`, `C52_packB_parallel`, `C52_packC`, `C52_roundtrip`, `C52_test1`, `C52_test1_needs_six`, `C52_unpackC`

### C53 Packing kernels in vector registers pack exactly the panel — proved

* Model: `Model/PackAsm`: the four kernels as lists of vector instructions (loads, lane loads, stores, unpack, shuffle, blend, extract, transpose) over registers with polymorphic lanes; loads and stores check bounds and initialisation
* Proof: symbolic execution: registers hold the locations their lanes come from; a simulation theorem (`run_stored`) for any program, the stores of each loop body computed symbolically for all strides, loops by induction
* Status: Full statement, for each of the four kernels, from any state and any register contents; equality with the plain loops for the strides the library passes.
* Theorems: `C53_armv8_12`, `C53_armv8_8`, `C53_haswell_16`, `C53_haswell_6`, `C53_plain_A`, `C53_plain_B`

### C54 Packing kernels in vector registers honour all their arguments — partial

* Model: as C53, with the branches on the row count, the strides and kappa
* Proof: the program is empty in the refused cases; otherwise as C53
* Status: False. A row count below the panel height, two non-unit strides, or (x86) kappa other than 1 make the call do nothing (C54_nothing). The x86 kernels ignore the leading dimension of the panel (C54_haswell_ldp), the ARM kernels ignore kappa (C54_armv8_unscaled). The ARM kernels honour the leading dimension (C54_armv8_partial).
* Theorems: `C54_armv8_partial`, `C54_armv8_unscaled`, `C54_haswell_ldp`, `C54_nothing`

### C55 No integer overflow for addressable sizes in the M-first and N-first schedules — partial

* Model: `Model/IntRangeMN`: the `int` expressions of M-first and N-first calls as syntax trees, in the loops that evaluate them; `Model/CheckedMN`: both paths once more over 32-bit `int`, recording each expression where it is evaluated
* Proof: as C36: block geometry (`k_block`, `m_blk`, `n_blk`) bounds every offset by a padded size, `E.Good` propagates the bound to the subexpressions; carried offsets by `loop_chop2_fits`; necessity by exhibiting members of the list; for the recording programs `W.Run` (every recorded expression has a value) by the same bounds
* Status: every int expression of both paths listed as a syntax tree and tied to the model by rfl; the exact condition for no overflow is proved for M-first (any beta), N-first without and with accumulation; the statement as written is false: p*k_c (and p*m_c for N-first) must fit too (C55_m_refuted), and packing C for N-first computes offsets beyond the packed C (C55_n_refuted); the two paths are also written over 32-bit int with every expression recorded where it is evaluated: a defined call is the call of the unbounded model (C55_run32_same), exactly when it is defined (C55_run32_m_defined_iff, C55_run32_n_defined_iff, C55_run32_n_accum_defined_iff), and it computes the product (C55_run32_m_product_partial, C55_run32_n_product_partial)
* Theorems: `C55_large_overflows`, `C55_link_dims_m`, `C55_link_dims_n`, `C55_link_obB`, `C55_link_obC`, `C55_link_packA_m`, `C55_link_packA_n`, `C55_link_packB_m`, `C55_link_packB_n`, `C55_link_packC_m`, `C55_link_packC_n`, `C55_link_regTiles`, `C55_link_schedule_m`, `C55_link_schedule_n`, `C55_link_sizes`, `C55_link_unpackC_m`, `C55_link_unpackC_n`, `C55_m_no_overflow_iff`, `C55_m_no_overflow_partial`, `C55_m_refuted`, `C55_n_accum_no_overflow_iff`, `C55_n_accum_no_overflow_partial`, `C55_n_no_overflow_iff`, `C55_n_refuted`, `C55_run32_m_defined_iff`, `C55_run32_m_product_partial`, `C55_run32_n_accum_defined_iff`, `C55_run32_n_defined_iff`, `C55_run32_n_product_partial`, `C55_run32_n_refuted`, `C55_run32_packed_partial`, `C55_run32_same`, `C55_run32_undefined_iff`

### C56 The convolution example computes a convolution — partial

* Model: `Model/Conv`: 6 x 16 kernel with separate row strides, packing of the filters, schedule, entry point, tile sizes, `im_2_col`; specification in `ConvSpec`
* Proof: `Accum` (a list of operations adds a list of products to each cell of a tile) composed over the loop nest; packing by sequential-write lemmas; the tap order is a permutation of all taps; needs lemmas from any execution that ends normally for the refutations
* Status: proved for filters of nine elements, stride 1, an output object with room for the channel count rounded up to a multiple of 6, in the columns below the largest multiple of 16 (all of the output if 16 | Wout and 6 | Cout), any tile sizes; im_2_col and its equivalence to the convolution proved; the statement as written is false: refuted for every other filter size, every other stride, Wout not a multiple of 16, Cout not a multiple of 6 with an exact output object, an input with too few rows (the sizes in main), and for tile sizes with k_c = 0
* Theorems: `C56_all_outputs_partial`, `C56_channels_refuted`, `C56_columns_refuted`, `C56_convolution_partial`, `C56_exact`, `C56_example_main_refuted`, `C56_filter_refuted`, `C56_im2col`, `C56_im2col_product`, `C56_input_refuted`, `C56_stride_refuted`, `C56_tile_sizes`, `C56_tile_sizes_refuted`

### C57 The matrix-vector example computes alpha*A*x + beta*y — partial

* Model: `Model/Gemv`: both 8-row kernels, block dimensions (with the unset schedule field as an argument), schedule, entry point, tile sizes, the checker's loop
* Proof: kernel by induction over its steps of 8 and 1 columns (`Accum`), composed over the loop nest; needs lemmas from any execution that ends normally for the refutations; rounding bounds for the tile sizes
* Status: proved if the unset schedule field happens to contain KMN, with kernels of 8 rows and room for rounding M up to a multiple of 8 (exact objects if 8 | M): every element of y receives its K products in order, independent of threads and tile sizes; both kernels; computed tile sizes usable. The statement as written is false: refuted for alpha, beta other than 1, for the unset schedule field, for M not a multiple of 8, for the library's own 6-row context, and for the checker (data race)
* Theorems: `C57_alpha_beta_refuted`, `C57_checker_refuted`, `C57_exact_partial`, `C57_gemv_partial`, `C57_kernel_col`, `C57_kernel_packed`, `C57_rows_divisible_partial`, `C57_rows_refuted`, `C57_same_result_partial`, `C57_schedule_MKN_refuted`, `C57_schedule_refuted`, `C57_tile_sizes`

### C58 The default online call computes the product — partial

* Model: `Model/OnlineApi`: the entry point from its first line (context, tile sizes, block dimensions) on top of `Model/Online`
* Proof: the tile computation is shown to give usable tiles under every rounding (as for C42), then the schedule theorem of C20; the exact condition from the needs lemmas of C11
* Status: proved with readable slack behind A and B; with objects of exactly their sizes the call can end normally iff m_r | M and n_r | N (C58_online_iff), so the statement as written is false: refuted on every supported machine for 1 x 1 operands
* Theorems: `C58_online_default_partial`, `C58_online_iff`, `C58_online_refuted`

### C59 The library's own test run is well defined and reports failures — partial

* Model: `Model/SelfTest`: list of tests, the call of each, memory at the call, executions of the whole loop as an inductive relation (`TestRun`), the report
* Proof: refutation: the first test has no execution that ends normally (C11); positive part: induction over the list of tests, carrying that the context stays fit for use, with the products' theorems and the checker's theorem (C32) at each step
* Status: proved for every sequence of tests whose calls stay within their operands: no undefined behaviour and no failure counted (over the rationals for every tolerance; in rounded arithmetic where the error bound is below the tolerance). The statement as written is false: on every supported machine with two or more cores the run has undefined behaviour and never ends normally; the value returned is 0 whatever failed; on one core nothing is tested and success is reported
* Theorems: `C59_detects`, `C59_exact`, `C59_refuted`, `C59_return_refuted`, `C59_rounded`, `C59_single`, `C59_single_core_refuted`, `C59_sound_partial`

### C60 Calls made at the same time do not disturb each other — partial

* Model: `Model/Concurrent`: several programs of the trace model run on one memory, each through its own map from its objects to memory cells; steps in any order; races between calls, also on fields of a context, are undefined. `Model/LibCall`: the entry points
* Proof: footprint lemmas (`Proofs/Footprint`): which objects each part of the code reads, writes, allocates; a simulation invariant (`Proofs/Concurrent`): each call's view of the memory is a state of its own execution; refutation: both calls write `alpha_n`
* Status: proved for any number of calls of all four entry points, in any interleaving, if calls given the same context do not write a field that another accesses (2-D calls with automatic tiles and one other call may share a context: C60_context_shared_by_2d). The statement as written is false: two cake_sgemm calls on one context always race on its field alpha_n (C60_shared_context_refuted)
* Theorems: `C60_as_alone_partial`, `C60_can_end_partial`, `C60_context_shared_by_2d`, `C60_correct_partial`, `C60_iff_partial`, `C60_kfirst_partial`, `C60_shared_context_refuted`

### C61 Operands may overlap — partial

* Model: as C60, with one call whose map from objects to cells is not injective
* Proof: positive part: the same simulation, where C may share cells with A and B because packing is over before C is written; refutation (`Proofs/Alias`): an execution on separate objects gives one on overlapping ones, and the value of one cell of the one-task program is computed symbolically by the kernel
* Status: proved: A and B may overlap in every entry point; C may overlap them in cake_sgemm on operands that are not pre-packed, with any schedule. False for cake_sgemm_online in place: refuted with a concrete 12 x 16 product
* Theorems: `C61_in_place_kfirst_partial`, `C61_in_place_partial`, `C61_inputs_overlap_partial`, `C61_online_in_place_refuted`

### C62 An element of the result depends only on its row of A and its column of B — proved

* Model: the entry points of `Model/Dispatch`, `Model/OnlineApi`, `Model/TwoDApi`
* Proof: every schedule's theorem gives the order in which the K terms enter as a function of sizes and tiles only (`Ordered`); the same order on equal rows and columns gives equal values
* Status: two-execution (non-interference) theorems for all four entry points from their first lines; for the 2-D calls where the core grid is defined (otherwise no execution ends, C30)
* Theorems: `C62_2d`, `C62_2d_small`, `C62_online`, `C62_sgemm`

### C63 No 32-bit overflow in the on-the-fly, 2-D and small-matrix products — partial

* Model: `Model/IntRangeOn`, `Model/IntRangeSmall`: every int expression of the three products as a syntax tree, linked to the model functions by `C63_link_*`; `Model/CheckedOn`: `cake_sgemm_online` in the recording monad of C36; `Model/Checked2d`: `cake_sgemm_2d` likewise; `Model/CheckedSmall`: `cake_sgemm_2d_small` likewise
* Proof: each tree is bounded through the block/strip bounds of C36; the conditions are read back from listed expressions for the converse; refutation by concrete tiles and operands
* Status: false as stated: for large user tiles (C63_refuted), and for the small-matrix product because its tiles are rounded up past the operands (C63_small_refuted); exact conditions proved for all three products (for the small-matrix one on grids on which a call can end normally); cake_sgemm_online once more with every expression recorded where it is evaluated: C63_online_run32_*; cake_sgemm_2d likewise: C63_2d_run32_*; cake_sgemm_2d_small likewise, on grids that fit: C63_small_run32_*
* Theorems: `C63_2d_iff`, `C63_2d_partial`, `C63_2d_run32_defined_iff`, `C63_2d_run32_product_partial`, `C63_2d_run32_refuted`, `C63_2d_run32_same`, `C63_2d_run32_undefined_iff`, `C63_link_2d`, `C63_link_dims2d`, `C63_link_fit2d`, `C63_link_init2d`, `C63_link_initS`, `C63_link_online`, `C63_link_small`, `C63_online_beats_packed`, `C63_online_iff`, `C63_online_run32_defined_iff`, `C63_online_run32_product_partial`, `C63_online_run32_refuted`, `C63_online_run32_same`, `C63_online_run32_undefined_iff`, `C63_refuted`, `C63_small_iff`, `C63_small_refuted`, `C63_small_run32_defined_iff`, `C63_small_run32_product_partial`, `C63_small_run32_refuted`, `C63_small_run32_same`, `C63_small_run32_some`, `C63_small_run32_undefined_iff`

### C64 The tile-size search proposes new usable tiles and returns — partial

* Model: `Model/Autotune`: the loop as a relation between the numbers drawn and the outcome (undefined, no candidate, candidate); no outcome = it does not return
* Proof: inversion of the relation; counting argument on the points within seven steps (C65 bounds the steps)
* Status: bounds and freshness proved; multiples of the register tile proved where it divides the steps 30 and 128 (6 x 16), refuted for 8 x 12 (C64_multiple_refuted); that every call returns is false: C64_ends_iff and C64_endless_iff say exactly when a call cannot return; C64_endless_refuted: so for all sizes with max_cand above 3375
* Theorems: `C64_at_most`, `C64_bounds`, `C64_drawn`, `C64_endless_iff`, `C64_endless_refuted`, `C64_endless_small`, `C64_ends_iff`, `C64_largest`, `C64_limit`, `C64_multiple_partial`, `C64_multiple_refuted`, `C64_nearest`, `C64_visited`

### C65 Random numbers stay in their documented ranges — proved

* Model: `Model/Random`: the three functions over reals with the roundings of `Model/Double`
* Proof: monotonicity and exactness on integers give the ranges; log 2 < 0.6932 bounds the logarithm
* Status: reals with arbitrary monotone rounding; cos and log of the C library are assumed to lie in [-1,1] and to be non-positive and within 5%; overflow and NaN inputs cannot occur in these ranges
* Theorems: `C65_normal`, `C65_rand_gen`, `C65_rand_init`, `C65_rand_init_ends`

### C66 Refused memory does not lead to undefined behaviour — partial

* Model: `Model/OutOfMem`: executions in which any unchecked allocation may fail; a null struct is undefined at once, a null block is an object that does not exist, `free(NULL)` does nothing
* Proof: simulation by the execution in which the unused blocks are allocated; a phase that accesses an absent object is undefined in every interleaving
* Status: false for malloc and calloc, whose results are not checked (C66_kfirst_refuted, C66_2d_refuted: every K-first and 2-D call with a C that is not empty; C66_small_refuted: the block of any thread, also one that computes nothing); exact conditions proved: C66_call_iff for all four entry points, with the objects named for K-first and online (blocks of the cores that take part), M- and N-first (packed C if beta = 0 and C is not empty), 2-D (blocks of the cores that get a part of the first block) and small 2-D (blocks of all threads); C66_checked_partial: refused posix_memalign is handled
* Theorems: `C66_2d_iff`, `C66_2d_refuted`, `C66_call_iff`, `C66_checked_partial`, `C66_kfirst_iff`, `C66_kfirst_refuted`, `C66_kfirst_spare`, `C66_mfirst_iff`, `C66_nfirst_iff`, `C66_online_iff`, `C66_small_iff`, `C66_small_refuted`

### C67 No integer overflow with the default tile sizes — partial

* Model: `Model/Api32`: `get_cache_dims` and `derive_schedule` with every `int` operation checked, followed by the recording product of `Model/Checked`; `Model/Api32All`: the same with any schedule; `Model/CheckedOn`: `cake_sgemm_online` from its first line; `Model/Checked2d`: `cake_sgemm_2d` from its first line; `Model/CheckedSmall`: `cake_sgemm_2d_small` from its first line
* Proof: refinement of the unchecked choice; bounds on the chosen tiles from the L2 and L3 formulas under any rounding (`m_c <= 2^14`, `n_c <= mc_L3*p + 1`, `mc_L3*cores <= 2^14 + cores`), then C36_run32_defined_iff and C42_kfirst; other schedules: `(mc_L3/mc_L2)*m_c <= mc_L3 + 1` under any rounding, then C55_run32_m_defined_iff, C55_run32_n_defined_iff and C42_default_partial
* Status: every schedule, given or chosen by the library: C67_all_defined_iff (exactly when the 32-bit call is defined), C67_all_product_partial (defined and the product; ragged N needs room behind B, see C10), C67_all_same (a defined 32-bit call is the call of the unbounded model, for any floating-point operations). K-first alone: C67_auto_partial, C67_defined_iff, with any beta and nothing behind B. C67_threads_refuted: false for more threads than cores (K-first); C67_accum_refuted: false for N-first with beta != 0, where packing C computes offsets beyond the packed C; cake_sgemm_online from its first line: C67_online_same, C67_online_defined_iff, C67_online_product_partial; cake_sgemm_2d from its first line: C67_2d_same, C67_2d_product_partial; cake_sgemm_2d_small from its first line: C67_small_same, C67_small_product_partial
* Theorems: `C67_2d_product_partial`, `C67_2d_same`, `C67_accum_refuted`, `C67_all_defined_iff`, `C67_all_kfirst`, `C67_all_product_partial`, `C67_all_same`, `C67_auto_partial`, `C67_defined_iff`, `C67_online_defined_iff`, `C67_online_product_partial`, `C67_online_same`, `C67_same`, `C67_small_product_partial`, `C67_small_same`, `C67_threads_refuted`

### C68 The remaining functions of the public header do what their names say — partial

* Model: `Model/Unused`: `schedule` with both flags, the three small schedules (loops without accesses), `cake_gemm_small`, the unpacked K-first schedule and the sequence pack A, pack B, unpacked schedule on the caller's C
* Proof: the loops of the small schedules have empty tasks; for at most `n_r` columns the unpacked schedule is the K-first schedule on C as a packed block (tasks on disjoint row bands, fold over the depth blocks); for wider results the second step of the last depth block reads beyond the packed B in every execution
* Status: holds for schedule without flags (C68_plain) and for the unpacked K-first schedule up to n_r columns (C68_unpacked_partial); refuted for the flags, the small schedules and cake_gemm_small (they access nothing, C68_flags_refuted, C68_small_refuted, C68_gemm_small_refuted) and for wider results of the unpacked schedule (C68_unpacked_wide_refuted: undefined for all sizes with at least two steps in the last depth block; C68_unpacked_overlap_refuted: wrong sums at depth one)
* Theorems: `C68_flags_refuted`, `C68_gemm_small_refuted`, `C68_plain`, `C68_small_refuted`, `C68_unpacked_overlap_refuted`, `C68_unpacked_partial`, `C68_unpacked_wide_refuted`

### C69 Relations between operands carry over to results: order, sign, powers of two — proved

* Model: as C62
* Proof: every call ends with each C[i][j] a fold of `fma` over an order of `0..K-1` that does not depend on the memory (`Ordered`); the relation is carried through the fold
* Status: C69_monotone and C69_scale are the consequences for rounded arithmetic; they take what C69_sgemm, C69_online, C69_2d and C69_2d_small prove for the calls
* Theorems: `C69_2d`, `C69_2d_small`, `C69_monotone`, `C69_online`, `C69_scale`, `C69_sgemm`

### C70 Exactly when equal rows of A give equal rows of C, and equal columns of B equal columns of C — proved

* Model: as C01 to C06
* Proof: the order of the terms is a serpentine over the blocks of K whose direction is a function of the row block and the column block (`Blocked`); two equal directions give equal folds; where directions differ, one pair of products (`8193 * 8193` and `-16384 * 4097`) rounds to 0 in one direction and to 1 in the other
* Status: sufficient for every arithmetic: C70_kfirst, C70_online, C70_mfirst, C70_nfirst, C70_2d, C70_2d_small; necessary in single precision with fused multiply-add: the _iff theorems, for every rounding that drops the last bit of 2^26+2^14+1 (round to nearest does: nearest_drops); C70_refuted is a concrete call in which equal rows and columns give different results
* Theorems: `C70_2d`, `C70_2d_iff`, `C70_2d_small`, `C70_kfirst`, `C70_kfirst_iff`, `C70_mfirst`, `C70_mfirst_iff`, `C70_nfirst`, `C70_nfirst_iff`, `C70_online`, `C70_online_iff`, `C70_refuted`, `C70_sgemm_iff`

### C71 Multiplying by rows or columns of the identity copies exactly — proved

* Model: as C62
* Proof: in a permutation of `0..K-1` the one term that matters comes once, all others leave the sum alone
* Status: C71_copy is the consequence for rounded arithmetic
* Theorems: `C71_2d`, `C71_2d_small`, `C71_copy`, `C71_online`, `C71_sgemm`

### C72 A NaN in an operand reaches every element of C that depends on it — proved

* Model: as C62
* Proof: induction over the fold: once a NaN, always a NaN
* Theorems: `C72_2d`, `C72_2d_small`, `C72_online`, `C72_sgemm`

### C73 A call does exactly the multiply-adds its matrices need, whatever the tuning — proved

* Model: as C01 to C06
* Proof: `work` counts the `fma` of a program; packing and unpacking have none; a kernel call has m_r * n_r * k; the sums over register tiles, cores, blocks and the serpentine telescope to the rounded sides
* Status: counts the fma operations of the program that is run; for cake_sgemm_2d_small on grids that fit (on others the call is not defined, C11)
* Theorems: `C73_2d`, `C73_2d_small`, `C73_default`, `C73_exact`, `C73_independent`, `C73_online`, `C73_online_default`, `C73_sgemm`

### C74 The work is spread evenly over the threads — partial

* Model: as C73; iteration i of every parallel loop is thread i
* Proof: `coreWork i` sums the `fma` of iteration i of all parallel loops; for K-first the lengths of core i over all row blocks add up to at most those of core 0, whose sum is computed in closed form (`sum_first`)
* Status: proved for K-first and cake_sgemm_online (C74_kfirst_partial, C74_online); cake_sgemm_2d is even on the grid it uses (C74_2d_partial), which is the grid asked for unless C has exactly as many strips as the grid has rows or columns (C74_2d_even_partial), when it can be a single row of cores (C74_2d_refuted); M-first and N-first are limited by one tile per iteration (C74_mfirst_partial, C74_nfirst_partial) and run on one thread when M <= m_c or N <= n_c (C74_mfirst_refuted, C74_nfirst_refuted); cake_sgemm_2d_small gives the first cores one register tile too many on each side (C74_2d_small_partial is exact, C74_2d_small_refuted)
* Theorems: `C74_2d_even_partial`, `C74_2d_partial`, `C74_2d_refuted`, `C74_2d_small_partial`, `C74_2d_small_refuted`, `C74_kfirst_partial`, `C74_mfirst_partial`, `C74_mfirst_refuted`, `C74_nfirst_partial`, `C74_nfirst_refuted`, `C74_online`

### C75 Memory a call allocates — proved

* Model: as C01 to C06
* Proof: `workspace` adds up the sizes in the allocations of the program
* Status: posix_memalign and calloc of float arrays; the descriptors from malloc have fixed size and are not counted
* Theorems: `C75_2d`, `C75_2d_small`, `C75_kfirst`, `C75_mnfirst`, `C75_online`

### C76 A call reads each operand element once and writes each result once — partial

* Model: as C01 to C03
* Proof: `loads` and `stores` count the reads and writes of one location by the operations of a program; packing writes pairwise different places, and the block and strip coordinates of an element are unique and exist, so exactly one operation reads it; unpacking the same with sources and destinations swapped
* Status: proved for A, for C (read and written) and for B with K-first, all sizes; M-first and N-first read B once if n_r divides N (C76_B_mnfirst_partial, which also shows that no element is left out) and otherwise run over the end of the rows, so that elements are read twice (C76_B_mnfirst_refuted)
* Theorems: `C76_A`, `C76_B_kfirst`, `C76_B_mnfirst_partial`, `C76_B_mnfirst_refuted`, `C76_C`, `C76_C_loads`, `C76_default`

### C77 Traffic of the products that do not keep packed copies — proved

* Model: as C04, C05 and C06
* Proof: `bufLoads` counts the reads of one array; a packing loop reads one element per element of its block and the kernels read none of the caller's arrays; summed over the walk, a step whose block is already packed contributes nothing, which removes one term per turn; C as in C76
* Status: exact counts for all sizes (C77_online_A, C77_online_B, C77_2d_A, C77_2d_B, C77_2d_small), closed form without edges (C77_online_full), from the first line of the online call (C77_online_default)
* Theorems: `C77_2d_A`, `C77_2d_B`, `C77_2d_C`, `C77_2d_small`, `C77_online_A`, `C77_online_B`, `C77_online_C`, `C77_online_default`, `C77_online_full`

### C78 Exactly when transposed operands in the other order give the transposed result, and A times its transpose a symmetric one — proved

* Model: as C70
* Proof: the order of the terms of an element of C depends only on a direction bit (C70); the bits of (i, j) and of its mirror image are compared by the parity of block numbers; where they differ, one row of A and its transpose carry the operands of C70 whose sum depends on the order
* Status: sufficient in any arithmetic with fma a b c = fma b a c (C78_kfirst, C78_online, C78_mn, C78_mm, C78_nn, C78_2d, C78_2d_small); necessary in single precision (the _iff theorems); a concrete asymmetric product with rounding to nearest (C78_refuted); public call with given tiles (C78_sgemm_symmetric_iff). M-first and N-first with beta = 0. Two calls with different block depths are not compared.
* Theorems: `C78_2d`, `C78_2d_iff`, `C78_2d_small`, `C78_2d_small_symmetric`, `C78_2d_symmetric_iff`, `C78_kfirst`, `C78_kfirst_iff`, `C78_kfirst_symmetric_iff`, `C78_mfirst_symmetric_iff`, `C78_mm`, `C78_mm_iff`, `C78_mn`, `C78_mn_iff`, `C78_nfirst_symmetric_iff`, `C78_nn`, `C78_nn_iff`, `C78_online`, `C78_online_iff`, `C78_online_symmetric_iff`, `C78_refuted`, `C78_sgemm_symmetric_iff`

### C79 The inner-product kernel of the matrix-vector example adds each row times the vector — partial

* Model: `Model/GemvInner`: the kernel as a function on values, since it adds lanes of a register; a pointer is an offset, an unreadable element is `none`, an unwritten element of the result is undefined
* Proof: induction over the steps of 64 columns and over the rows: the outcome is defined iff all reads are; the sum of the lanes grows by 64 products per step
* Status: the property does not hold: C79_refuted, for every m, k and K. C79_defined_iff says exactly when the kernel is defined (eight rows, 64 readable elements of B, rows of A readable up to a multiple of 64); C79_value what it then computes (row l is added to all rows before it, and all of C to every element); C79_first_partial: the first element is right for 64 columns and C = 0
* Theorems: `C79_defined_iff`, `C79_first_partial`, `C79_refuted`, `C79_value`

### C80 The benchmark example measures and checks a product — partial

* Model: `Model/Bench`: the arguments as a list of numbers, the flush loop as a parallel loop on freshly allocated memory, the trials as a relation over the modelled `cake_sgemm`, then the modelled checker
* Proof: the first operation of any interleaving of the flush loop reads an unwritten element; the rest is case analysis, C32 for the checker, C42 for the product on ARM
* Status: the property does not hold. C80_missing_refuted: two to four arguments are undefined behaviour, not the message; C80_flush_refuted, C80_trials_refuted: with at least one trial every run is undefined; C80_race_refuted: the loop is also a data race; C80_refuted: a run that ends normally had no trial. C80_few: fewer than two arguments give the message; C80_no_trial_partial: exact behaviour without a trial. Apart from the flush, the product that is timed is right on ARM (C80_product_partial) and undefined on x86 (C80_tile_refuted, C80_product_refuted). The order of the printed lines and the times are not modelled
* Theorems: `C80_few`, `C80_flush_refuted`, `C80_gemv_iff`, `C80_missing_refuted`, `C80_no_trial_partial`, `C80_product_partial`, `C80_product_refuted`, `C80_race_refuted`, `C80_refuted`, `C80_tile_refuted`, `C80_trials_refuted`

### C81 clamp_val returns the nearest value within the limits — partial

* Model: `Model/Clamp`: the two comparisons, on real numbers or NaN (every comparison with a NaN is false); infinities are not modelled
* Proof: for numbers the result is `min (max d lo) hi`; case analysis on where the value lies
* Status: C81_nearest_partial: holds for numbers with the limits in order; C81_limits_iff: the result is within the limits exactly if they are in order; C81_crossed: out of order, the upper limit is returned. C81_nan_refuted: a NaN is returned unchanged. Doubles are real numbers or NaN; infinities are not modelled. Nothing in the library calls the function
* Theorems: `C81_crossed`, `C81_limits_iff`, `C81_nan_refuted`, `C81_nearest_partial`

## 4. Violations found

Each is a theorem with a concrete witness (or a characterisation for all inputs); the provable remainder is kept as `_partial`.

1. `cake_sgemm_test` never multiplies: `schedule()` does nothing for KMN (C14).
2. `alpha` is ignored, `beta` is only compared with 0 (C12).
3. `pack_C_n_first` uses another block offset than the schedule and unpacking: with `beta != 0` and ragged column blocks
   the result is wrong and packing has a data race (C07, C13, C17).
4. M-first and N-first packing of B reads beyond the end of B when `n_r` does not divide N (C10).
5. The online and 2-D products pack without bounds checks and read beyond A and B; the exact conditions are proved (C11).
6. After `update_mr_nr` the M-first and N-first products still call the kernel of the default size (C28).
7. User tile sizes that are not multiples of the register tile write outside the packed buffers, race, or leave entries of C zero, unless they exceed the matrix (C22; exact conditions in C22_kfirst_iff, C22_mfirst_iff, C22_nfirst_iff).
8. `grid_dims_2d` uses an uninitialised variable for some core counts and indexes its table out of range for others (C30).
9. `cake_sgemm_2d` divides by zero for M = 0 or N = 0 (C05).
10. `cake_sgemm_2d_small` always adds at least one whole tile of padding and over-reads because of it (C11).
11. L2 too small for a register tile: division by zero in the tile size computation (C20).
12. The automatic N-first tile can exceed L2 (C21).
13. Products of user-chosen tile sizes overflow `int` although all matrices are addressable (C36).
14. `mat_equals` accepts NaN as correct (C32).
15. `cake_sgemm_online` writes the shared variable `A_offset` in a parallel loop: a data race, with a benign value (C44).
16. `transpose_mat`: two threads write the same elements when 8 does not divide K (C33).
17. A NULL context is allocated inside the call and leaked (C34).
18. `cake_query_cntx_torch` leaves fields uninitialised that the product reads (C48).
19. `linear_backward` returns a wrong bias gradient (C49).
20. Sparse microkernels drop or misplace entries if an empty column is not last; the 3x32 kernel uses the wrong row factor (C46).
21. The tile that `init_block_dims_2d` derives from the caches need not fit L2: the depth comes from L1 alone, but the row tile is computed as if the depth equalled it. With L1 = 32 KB and L2 = 256 KB the tile takes 402176 bytes (`C45_L2_refuted`).
22. `get_cache_size` misreads sizes with a decimal point or in gibibytes, and uses the digits of the CPU name as model number (C50).
23. `get_num_physical_cores` returns the cores of one socket, and too few on machines with mixed cores (C51).
24. The register packing kernels do nothing when the row count is below the panel height, when neither stride is 1, or (x86) when kappa is not 1; the x86 ones ignore the leading dimension of the panel and the ARM ones ignore kappa (C54). The library's own calls avoid all of these.
25. Packing C for an accumulating N-first product computes block offsets beyond the packed C when the last row of blocks is ragged, which overflow `int` for wide C although every operand is addressable (C55).
26. The convolution example ignores the stride; fixes 3x3 filters in the packing while the schedule uses the given size (any other number of filter elements reads or writes outside the packed filters); never computes the output columns after the last multiple of 16; writes beyond an output whose channel count is not a multiple of 6; divides by zero for some sizes because a block can get 0 input channels; and the sizes in its own `main` read and write out of bounds (C56).
27. The matrix-vector example never sets the schedule field it then switches on: what `malloc` left there decides between the right schedule, an overrun of the result, and `exit`; it ignores alpha and beta (and adds to the result although beta is 0 by default); it reads and writes beyond the result if M is not a multiple of 8, and always with the library's own context of 6-row kernels; its checker adds into a shared array from all threads without synchronisation (C57).
28. `run_tests` begins with a 2-D product of 1 x 1 matrices that reads beyond both operands; returns 0 whatever failed; and with one core runs no test and prints that all passed (C59).
29. The default call reads beyond a B of exactly K*N elements: e.g. 2x2 times 2x1 on every supported machine with two cores and large enough caches is sent to the M-first schedule, which reads n_r elements of every row of B (C42_default_refuted).
30. Every `cake_sgemm` and `cake_sgemm_online` call writes `alpha_n` of the caller's context, so concurrent calls on one context race (C60_shared_context_refuted).
31. `cake_sgemm_online` in place (C on A) stores wrong results: it packs each block of A just before using it, after earlier blocks of C have been written (C61_online_in_place_refuted). `cake_sgemm` in place is right.
32. `cake_sgemm_2d` multiplies the user's row tile by the number of rows of the core grid in 32-bit `int` (lines 688, 712 of `block_sizing.cpp`) before it shrinks the tile to the operand, so a large tile overflows even for tiny operands (C63_refuted).
33. `get_candidate` loops until it finds a tile not yet visited, but its bound `max_cand` counts tiles that cannot be proposed (it ignores the core grid, and steps are at most seven), so from some state on it never returns (C64_endless_refuted, C64_endless_small).
34. `get_candidate` moves in steps of 30 rows and 128 columns, which are not multiples of the 8 x 12 register tile of ARM, so it proposes tiles that are not multiples of it (C64_multiple_refuted).
35. The results of `malloc` and `calloc` are not checked: a refused private C block of a core that takes part, a refused packed C or a refused struct is undefined behaviour (C66_kfirst_refuted, C66_call_iff).
36. The tile width grows with the thread count without bound: with 20000 threads on a 4-core machine with 1 MB L2 the block size `m_c*n_c` overflows `int` for matrices of moderate size (C67_threads_refuted).
37. N-first with `beta != 0` packs C at offsets computed with `p*m_c` rows even where M is smaller: on 4 cores a 6 x 1 times 1 x 10^8 call with automatic tiles overflows `int` (C67_accum_refuted, C55_run32_n_refuted).
38. `schedule` with the sparse or the small flag, the three `_small` schedules and `cake_gemm_small` perform no access; `cake_gemm_small` returns true all the same (C68_flags_refuted, C68_small_refuted, C68_gemm_small_refuted).
39. `schedule_KMN_C_unpacked` passes the row length of C as the kernel's column count, with which the kernel steps through the packed B: for more than `n_r` columns it reads beyond the packed B, and the tiles of C, which the kernel writes contiguously, overlap (C68_unpacked_wide_refuted, C68_unpacked_overlap_refuted).
40. With `packedB` the kernels' aligned loads go to the caller's pointer, and nothing in the interface asks for an aligned one: for every non-empty product, a pointer that is not aligned to the vector size leads to a misaligned aligned load (C29_prepacked_iff).
41. `cake_sgemm_2d_small` always rounds its tiles up by at least one element, so the private block of C is larger than C: for a 46338 x 46336 result on one core its size overflows an `int` although C and both operands fit (C63_small_refuted).
42. Equal rows of A (equal columns of B) can give different rows (columns) of C, in one call: the direction in which the blocks of K are added alternates with the row block and the column block (C70, C70_refuted). Results are therefore not reproducible under a permutation of the rows.
43. Work is not spread over the cores in three places (C74). M-first and N-first parallelise over tiles, not over cores: with M <= m_c (N <= n_c) one thread does everything. `cake_sgemm_2d` uses a single row (column) of cores when C has exactly as many strips as the grid has rows (columns) of cores. `cake_sgemm_2d_small` adds one register tile to every core's side when the division comes out even, so that 4 x 4 tiles per core become 5 x 5 for the first core and 3 x 3 for the last.
44. `cake_sgemv_haswell_inner_1x64x1` never clears its accumulator between rows, never advances in the vector, starts from the sum of eight elements of C, and stores eight results of which only `m` are written (C79_value, C79_refuted). It is called only in commented-out code.
45. The benchmark example reads five arguments but only insists on two, and flushes the caches by adding to memory it has just allocated and, from all threads without synchronisation, to a shared uninitialised array: every run with a trial is undefined (C80_missing_refuted, C80_trials_refuted, C80_race_refuted). `examples/cake_gemv.cpp` likewise reads one argument too many (C80_gemv_iff). On x86 the benchmark also combines `8 x 12` tiles with the `6 x 16` kernel, which reads beyond the packed B (C80_product_refuted).

Observed in the source but outside a property: `init_block_dims_2d` overwrites the user's `n_c`; `M_padded == p_m*m_r` sets
`p_m = 1` and loses parallelism; `linear.cpp` leaks its output buffer and context; `python/cake.py` calls the forward pass with three arguments.

## 5. Testing the theorems against wrong programs

`seeded/LOG.jsonl` has one line per seeded bug: the definition of the model that was edited, the edit, the claim it should
break, the theorems that failed (the one whose proof broke first, and the property theorems that depend on it), and what was
tightened. The edits are made in a scratch copy. A mutation counts as caught if some proof breaks; the property
theorems listed are those that use the broken definition or lemma. Edits that turned out to be equivalent programs, or repairs of a
bug (then the refutation theorems fail), are marked as such.

## 6. Axioms

Checked with `#print axioms` for every theorem named in `MANIFEST.json`: each uses a subset of
`propext`, `Classical.choice`, `Quot.sound`.
