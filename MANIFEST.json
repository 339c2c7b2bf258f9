{
 "claims": [
  {
   "property": "C01",
   "status": "proved",
   "theorems": [
    "Cake.C01_kfirst_exact",
    "Cake.C01_kfirst_product"
   ],
   "note": "any tile sizes that are multiples of the register tile; arithmetic without laws, plus exact version"
  },
  {
   "property": "C02",
   "status": "proved",
   "theorems": [
    "Cake.C02_mfirst_exact",
    "Cake.C02_mfirst_if_ends",
    "Cake.C02_mfirst_product"
   ],
   "note": "every execution that ends normally is correct, with no assumption on the memory behind B (C02_mfirst_if_ends); executions end normally exactly when the elements of B that packing reads are readable and initialised (C10_mfirst_ends_iff), which n_r | N or n_r-1 elements of slack guarantee; their values are arbitrary"
  },
  {
   "property": "C03",
   "status": "proved",
   "theorems": [
    "Cake.C03_nfirst_exact",
    "Cake.C03_nfirst_if_ends",
    "Cake.C03_nfirst_product"
   ],
   "note": "every execution that ends normally is correct, with no assumption on the memory behind B (C03_nfirst_if_ends); executions end normally exactly when the elements of B that packing reads are readable and initialised (C10_nfirst_ends_iff), which n_r | N or n_r-1 elements of slack guarantee; their values are arbitrary"
  },
  {
   "property": "C04",
   "status": "proved",
   "theorems": [
    "Cake.C04_online_eq_kfirst",
    "Cake.C04_online_exact",
    "Cake.C04_online_if_ends",
    "Cake.C04_online_product"
   ],
   "note": "product under the hypothesis that the padding lanes are readable (whether they are is C11), for all their contents; also: any run that ends normally has C = A*B without that hypothesis; bit for bit the K-first result"
  },
  {
   "property": "C05",
   "status": "partial",
   "theorems": [
    "Cake.C05_2d_any_grid",
    "Cake.C05_2d_empty_refuted",
    "Cake.C05_2d_eq_kfirst",
    "Cake.C05_2d_exact_partial",
    "Cake.C05_2d_grid_partial",
    "Cake.C05_2d_if_ends_partial",
    "Cake.C05_2d_product_partial"
   ],
   "note": "proved for every non-empty C, every grid 1 <= pn <= p (also the one grid_dims_2d returns), every tile; the operands must be readable up to the next register tile (whether they are is C11), or the run must end normally. Refuted for M = 0 or N = 0: the call divides by zero (C05_2d_empty_refuted)"
  },
  {
   "property": "C06",
   "status": "proved",
   "theorems": [
    "Cake.C06_small_exact",
    "Cake.C06_small_if_ends",
    "Cake.C06_small_product"
   ],
   "note": "every run that ends normally (no access outside its objects, no read of memory never written) has C = A*B; when that is the case is C11_small_iff"
  },
  {
   "property": "C07",
   "status": "partial",
   "theorems": [
    "Cake.C07_2d_deterministic",
    "Cake.C07_kfirst_deterministic",
    "Cake.C07_kfirst_raceFree",
    "Cake.C07_mfirst_deterministic",
    "Cake.C07_mfirst_raceFree",
    "Cake.C07_nfirst_accumulate_refuted",
    "Cake.C07_nfirst_deterministic",
    "Cake.C07_nfirst_raceFree",
    "Cake.C07_nfirst_race_iff",
    "Cake.C07_nfirst_race_whole_iff",
    "Cake.C07_online_deterministic",
    "Cake.C07_small_deterministic"
   ],
   "note": "race freedom and determinism proved for all three schedules, the online and both 2-D products, except N-first with beta != 0 and ragged column blocks, where packing C can race: C07_nfirst_accumulate_refuted. C07_nfirst_race_iff states exactly when the accumulating N-first call is race free, C07_nfirst_race_whole_iff gives the condition in terms of the sizes when there is a whole row block"
  },
  {
   "property": "C08",
   "status": "proved",
   "theorems": [
    "Cake.C08_2d_onlyC",
    "Cake.C08_kfirst_onlyC",
    "Cake.C08_mfirst_if_ends",
    "Cake.C08_mfirst_onlyC",
    "Cake.C08_nfirst_if_ends",
    "Cake.C08_nfirst_onlyC",
    "Cake.C08_online_onlyC",
    "Cake.C08_small_onlyC"
   ],
   "note": "all three schedules, the online and both 2-D products; for M-first and N-first every execution that ends normally, whatever lies behind B and whatever beta is (N-first with beta != 0 needs K > 0); for N-first with beta != 0 and disagreeing C layouts no execution ends normally"
  },
  {
   "property": "C09",
   "status": "proved",
   "theorems": [
    "Cake.C09_kfirst_safe"
   ],
   "note": "no execution reaches undefined behaviour"
  },
  {
   "property": "C10",
   "status": "partial",
   "theorems": [
    "Cake.C10_mfirst_ends_iff",
    "Cake.C10_mfirst_iff",
    "Cake.C10_mfirst_overread",
    "Cake.C10_mfirst_refuted",
    "Cake.C10_mfirst_safe_dvd_partial",
    "Cake.C10_mfirst_safe_partial",
    "Cake.C10_nfirst_ends_iff",
    "Cake.C10_nfirst_iff",
    "Cake.C10_nfirst_overread",
    "Cake.C10_nfirst_refuted",
    "Cake.C10_nfirst_safe_dvd_partial",
    "Cake.C10_nfirst_safe_partial"
   ],
   "note": "the property does not hold: C10_mfirst_refuted, C10_nfirst_refuted (B is read beyond its end). C10_mfirst_ends_iff and C10_nfirst_ends_iff: a call can end normally exactly if the stated number of elements of B is readable and initialised; C10_mfirst_iff and C10_nfirst_iff say exactly for which sizes, threads and k_c a B of exactly K*N elements suffices."
  },
  {
   "property": "C11",
   "status": "partial",
   "theorems": [
    "Cake.C11_2d_iff",
    "Cake.C11_2d_refuted",
    "Cake.C11_2d_safe_partial",
    "Cake.C11_online_iff",
    "Cake.C11_online_refuted",
    "Cake.C11_online_safe_partial",
    "Cake.C11_small_iff",
    "Cake.C11_small_refuted",
    "Cake.C11_small_safe_partial"
   ],
   "note": "the property does not hold: C11_online_refuted, C11_2d_refuted, C11_small_refuted; C11_online_iff, C11_2d_iff and C11_small_iff say exactly when it does"
  },
  {
   "property": "C12",
   "status": "partial",
   "theorems": [
    "Cake.C12_ignored",
    "Cake.C12_kfirst_partial",
    "Cake.C12_kfirst_refuted",
    "Cake.C12_mfirst_partial",
    "Cake.C12_mfirst_refuted",
    "Cake.C12_nfirst_partial",
    "Cake.C12_nfirst_refuted"
   ],
   "note": "the property does not hold: alpha is never used and beta is only compared with 0 (C12_ignored, C12_*first_refuted). Proved for alpha=1 and beta=0 (K-first: any beta treated as 0; M/N-first: beta=1 too)"
  },
  {
   "property": "C13",
   "status": "partial",
   "theorems": [
    "Cake.C13_mfirst_accumulate",
    "Cake.C13_nfirst_accumulate_cases_partial",
    "Cake.C13_nfirst_accumulate_partial",
    "Cake.C13_nfirst_iff",
    "Cake.C13_nfirst_refuted",
    "Cake.C13_nfirst_undefined"
   ],
   "note": "M-first proved; N-first refuted (C13_nfirst_refuted); exact characterisation C13_nfirst_iff: the N-first call accumulates iff N <= n_c, or the blocks tile the padded C evenly, or one row block and two column blocks of matching proportions; for every other size every execution is undefined (C13_nfirst_undefined)"
  },
  {
   "property": "C14",
   "status": "partial",
   "theorems": [
    "Cake.C14_empty_partial",
    "Cake.C14_iff_zero_partial",
    "Cake.C14_refuted",
    "Cake.C14_unchanged",
    "Cake.C14_zeroes"
   ],
   "note": "Refuted (C14_refuted): schedule() does nothing for K-first, so C is all zero (beta = 0) or unchanged (beta != 0) for all inputs. Partial: K = 0, and operands whose product is zero."
  },
  {
   "property": "C15",
   "status": "proved",
   "theorems": [
    "Cake.C15_packA",
    "Cake.C15_packB",
    "Cake.C15_packC"
   ],
   "note": "A and B under every schedule; also C under K-first and M-first"
  },
  {
   "property": "C16",
   "status": "proved",
   "theorems": [
    "Cake.C16_packA_kfirst",
    "Cake.C16_packA_mfirst",
    "Cake.C16_packA_nfirst",
    "Cake.C16_packB_kfirst"
   ],
   "note": "A under every schedule, B under K-first, as explicit index formulas, for every run"
  },
  {
   "property": "C17",
   "status": "partial",
   "theorems": [
    "Cake.C17_kfirst",
    "Cake.C17_mfirst",
    "Cake.C17_nfirst_broken",
    "Cake.C17_nfirst_iff",
    "Cake.C17_nfirst_partial",
    "Cake.C17_nfirst_refuted"
   ],
   "note": "K-first and M-first proved for all sizes; N-first refuted (C17_nfirst_refuted); exact characterisation C17_nfirst_iff, and for every other size an element of C is lost (C17_nfirst_broken)"
  },
  {
   "property": "C18",
   "status": "proved",
   "theorems": [
    "Cake.C18_kfirst_prepacked",
    "Cake.C18_mfirst_prepacked",
    "Cake.C18_nfirst_prepacked"
   ],
   "note": "all three schedules"
  },
  {
   "property": "C19",
   "status": "proved",
   "theorems": [
    "Cake.C19_kfirst",
    "Cake.C19_mfirst",
    "Cake.C19_nfirst"
   ],
   "note": "blocks, strips and tails tile the padded range exactly, for all three schedules"
  },
  {
   "property": "C20",
   "status": "proved",
   "theorems": [
    "Cake.C20_auto_tiles",
    "Cake.C20_small_l2_undefined"
   ],
   "note": "IEEE model: any monotone rounding with the standard error bound; m_r, n_r, cache sizes < 2^31, p <= 2^15, at most 2^20 cores. The L2 condition is shown necessary (C20_small_l2_undefined). 4-byte elements, the only size the library passes"
  },
  {
   "property": "C21",
   "status": "partial",
   "theorems": [
    "Cake.C21_fits_partial",
    "Cake.C21_nfirst_partial",
    "Cake.C21_nfirst_refuted"
   ],
   "note": "K-first and M-first proved; N-first refuted for every rounding on a 256KB/20MB/4-core machine (C21_nfirst_refuted), proved when the L3-derived tile is not larger"
  },
  {
   "property": "C22",
   "status": "partial",
   "theorems": [
    "Cake.C22_kfirst_iff",
    "Cake.C22_kfirst_partial",
    "Cake.C22_mcu_refuted",
    "Cake.C22_mfirst_iff",
    "Cake.C22_mfirst_partial",
    "Cake.C22_ncu_refuted",
    "Cake.C22_nfirst_iff",
    "Cake.C22_nfirst_partial",
    "Cake.C22_user_tiles_partial"
   ],
   "note": "proved for complete sizes that are multiples of the register tile, with every schedule (C22_user_tiles_partial); C22_kfirst_iff, C22_mfirst_iff and C22_nfirst_iff settle all positive sizes of non-empty products (beta = 0 and n_r - 1 readable elements behind B for the last two): the call is correct exactly when a size that is not a multiple exceeds the matrix (N-first: p*m_c counts, not m_c; K-first: also the largest padded block of a thread fits m_c*n_c). Otherwise it is wrong on all-ones operands, racy, or out of bounds (also C22_mcu_refuted, C22_ncu_refuted). The statement for all sizes is therefore false"
  },
  {
   "property": "C23",
   "status": "proved",
   "theorems": [
    "Cake.C23_no_unknown_schedule",
    "Cake.C23_schedule_total",
    "Cake.C23_set_schedule",
    "Cake.C23_set_schedule_rule"
   ],
   "note": "for arbitrary floating-point operations and comparisons"
  },
  {
   "property": "C24",
   "status": "proved",
   "theorems": [
    "Cake.C24_minimises",
    "Cake.C24_rounded_direction",
    "Cake.C24_rounded_small",
    "Cake.C24_schedule_rule"
   ],
   "note": "exact arithmetic for all sizes, plus minimality of the modelled traffic; under rounding the M/N direction is proved unaffected, and products no taller than a third of the block are M-first under every rounding"
  },
  {
   "property": "C25",
   "status": "proved",
   "theorems": [
    "Cake.C25_blocks_disjoint",
    "Cake.C25_reuse",
    "Cake.C25_serpentine"
   ],
   "note": "K-first: the packed-operand reads of every core follow one order that visits every block exactly once and moves one step in one coordinate at a time; blocks are disjoint; consecutive blocks share an operand."
  },
  {
   "property": "C26",
   "status": "proved",
   "theorems": [
    "Cake.C26_armv8_hand",
    "Cake.C26_armv8_hand_frame",
    "Cake.C26_armv8_hand_reads",
    "Cake.C26_armv8_hand_safe",
    "Cake.C26_armv8_hand_same",
    "Cake.C26_exact",
    "Cake.C26_frame",
    "Cake.C26_microkernel",
    "Cake.C26_reads"
   ],
   "note": "dense microkernel, all tile sizes of both architectures; wrapper copy loops as written; the hand-written NEON kernel in the source tree (replaced by the generated one on installation) is modelled separately and proved to have the same effect (C26_armv8_hand_same)"
  },
  {
   "property": "C27",
   "status": "proved",
   "theorems": [
    "Cake.C27_dispatch",
    "Cake.C27_fits",
    "Cake.C27_query"
   ],
   "note": "for every kernel size in the dispatch table of both architectures and every size the query function selects"
  },
  {
   "property": "C28",
   "status": "partial",
   "theorems": [
    "Cake.C28_kfirst_partial",
    "Cake.C28_mfirst_refuted",
    "Cake.C28_nfirst_refuted",
    "Cake.C28_other_tiles_refuted",
    "Cake.C28_unreached_refuted",
    "Cake.C28_wide_refuted"
   ],
   "note": "proved for K-first; false for M-first and N-first with every generated register tile other than the compiled-in one: C28_other_tiles_refuted (all sizes that contain a whole register tile, all thread counts and tile sizes), C28_unreached_refuted (smaller sizes), concrete C28_mfirst_refuted, C28_nfirst_refuted; C28_wide_refuted: with a context changed by hand so that the kernel is wider than the tile, K-first is undefined for all non-empty sizes"
  },
  {
   "property": "C29",
   "status": "proved",
   "theorems": [
    "Cake.C29_2d",
    "Cake.C29_aligned",
    "Cake.C29_online",
    "Cake.C29_prepacked_iff",
    "Cake.C29_small",
    "Cake.C29_sparse"
   ],
   "note": "cake_sgemm in every schedule, also with a tile width that is no multiple of n_r but exceeds N (C29_aligned); online and both grid products for all tile sizes; the sparse kernels; B packed by the caller: all loads are aligned exactly if the caller's pointer is (C29_prepacked_iff)"
  },
  {
   "property": "C30",
   "status": "partial",
   "theorems": [
    "Cake.C30_iff",
    "Cake.C30_partial",
    "Cake.C30_prime_refuted",
    "Cake.C30_refuted",
    "Cake.C30_too_many_refuted",
    "Cake.C30_uninitialised"
   ],
   "note": "the property does not hold: the fallback row index is read uninitialised (C30_uninitialised, C30_refuted) and the table is read out of range for p > ncores; C30_iff says exactly for which p and which wish the function is defined"
  },
  {
   "property": "C31",
   "status": "proved",
   "theorems": [
    "Cake.C31_lcm"
   ],
   "note": ""
  },
  {
   "property": "C32",
   "status": "partial",
   "theorems": [
    "Cake.C32_add_checker",
    "Cake.C32_add_checker_exact",
    "Cake.C32_checker_partial",
    "Cake.C32_exact",
    "Cake.C32_nan_partial",
    "Cake.C32_refuted"
   ],
   "note": "the property does not hold for NaN: C32_refuted. C32_checker_partial and C32_exact give the exact meaning of the verdict"
  },
  {
   "property": "C33",
   "status": "partial",
   "theorems": [
    "Cake.C33_network",
    "Cake.C33_plain",
    "Cake.C33_race_refuted",
    "Cake.C33_transpose_iff",
    "Cake.C33_transpose_partial",
    "Cake.C33_transpose_racefree_partial"
   ],
   "note": "value, safety and race freedom proved except when 8 does not divide K and N exceeds the tile: then two threads write the same (equal) values concurrently, proved as C33_race_refuted. C33_transpose_iff: the call is defined exactly when one of the two conditions holds"
  },
  {
   "property": "C34",
   "status": "partial",
   "theorems": [
    "Cake.C34_2d_no_leak",
    "Cake.C34_kfirst_no_leak",
    "Cake.C34_mfirst_no_leak",
    "Cake.C34_nfirst_no_leak",
    "Cake.C34_null_context_leaks",
    "Cake.C34_online_no_leak",
    "Cake.C34_small_no_leak"
   ],
   "note": "proved for all three schedules, online and 2-D with an explicit context (and explicit NULL-context accounting in C42); false for a NULL context: C34_null_context_leaks"
  },
  {
   "property": "C35",
   "status": "proved",
   "theorems": [
    "Cake.C35_histories_run",
    "Cake.C35_history_independent"
   ],
   "note": "for arbitrary floating-point operations; the context carries no other mutable state in the modelled code"
  },
  {
   "property": "C36",
   "status": "partial",
   "theorems": [
    "Cake.C36_large_overflows",
    "Cake.C36_link_dims",
    "Cake.C36_link_obA",
    "Cake.C36_link_packA",
    "Cake.C36_link_packB",
    "Cake.C36_link_regTiles",
    "Cake.C36_link_schedule",
    "Cake.C36_link_unpack",
    "Cake.C36_no_overflow_iff",
    "Cake.C36_no_overflow_partial",
    "Cake.C36_refuted",
    "Cake.C36_run32_defined_iff",
    "Cake.C36_run32_large",
    "Cake.C36_run32_packed_partial",
    "Cake.C36_run32_product_partial",
    "Cake.C36_run32_refuted",
    "Cake.C36_run32_same",
    "Cake.C36_run32_undefined_iff"
   ],
   "note": "every int expression of the K-first path is recorded by a monad at the place where the program uses it (Model/Checked) and evaluated over 32-bit int; no overflow, and the right product, proved when additionally p*m_c and m_c*n_c fit, and definedness exactly then (C36_run32_defined_iff, C36_no_overflow_iff); the statement without these two conditions is false: C36_refuted, C36_run32_refuted"
  },
  {
   "property": "C37",
   "status": "proved",
   "theorems": [
    "Cake.C37_cdiv",
    "Cake.C37_ceil_exact"
   ],
   "note": "for every rounding that is monotone, exact on integers and has relative error 2^-53, in particular round to nearest (constructed)"
  },
  {
   "property": "C38",
   "status": "proved",
   "theorems": [
    "Cake.C38_default_bound",
    "Cake.C38_default_if_ends",
    "Cake.C38_fused",
    "Cake.C38_kfirst_bound",
    "Cake.C38_mfirst_bound",
    "Cake.C38_mfirst_if_ends",
    "Cake.C38_nfirst_bound",
    "Cake.C38_nfirst_if_ends",
    "Cake.C38_unfused"
   ],
   "note": "forward error bound for all three schedules and the default call, with separate constants for product and sum, underflow and an overflow condition; every rounding to single precision, fused or not, is shown to meet the hypothesis; for M-first, N-first and the default call it holds of every execution that ends normally (C38_*_if_ends)"
  },
  {
   "property": "C39",
   "status": "proved",
   "theorems": [
    "Cake.C39_kfirst_single_block"
   ],
   "note": ""
  },
  {
   "property": "C40",
   "status": "proved",
   "theorems": [
    "Cake.C40_bounds",
    "Cake.C40_table"
   ],
   "note": ""
  },
  {
   "property": "C41",
   "status": "proved",
   "theorems": [
    "Cake.C41_packA",
    "Cake.C41_packB"
   ],
   "note": "From any state with A (B) readable and room for the packed buffer, every run of the fast path and of the checked path ends in the same state. The strip kernels are the plain loops; C53 shows that the register kernels of the other builds end each strip in the same state."
  },
  {
   "property": "C42",
   "status": "partial",
   "theorems": [
    "Cake.C42_default_partial",
    "Cake.C42_default_refuted",
    "Cake.C42_if_ends",
    "Cake.C42_kfirst"
   ],
   "note": "false as written if B is an object of exactly K*N elements: C42_default_refuted (on every supported machine with large enough caches and p >= 2 the default call on 2x2 times 2x1 reads beyond B). C42_if_ends: whatever lies behind B, every execution that ends normally is correct. C42_default_partial: with n_r | N, or n_r-1 further readable elements, it always does. K-first without any condition (C42_kfirst); NULL context included (it is leaked, see C34)"
  },
  {
   "property": "C43",
   "status": "proved",
   "theorems": [
    "Cake.C43_kfirst_int_exact",
    "Cake.C43_mfirst_if_ends",
    "Cake.C43_mfirst_int_exact",
    "Cake.C43_nfirst_if_ends",
    "Cake.C43_nfirst_int_exact"
   ],
   "note": "every correctly rounded fma with 24-bit significand; for M-first and N-first it holds of every execution that ends normally (C43_*_if_ends)"
  },
  {
   "property": "C44",
   "status": "partial",
   "theorems": [
    "Cake.C44_online_offset_race",
    "Cake.C44_online_offset_read_race",
    "Cake.C44_online_offset_value_partial"
   ],
   "note": "the property does not hold: C44_online_offset_race; every read still yields the right value in every interleaving"
  },
  {
   "property": "C45",
   "status": "partial",
   "theorems": [
    "Cake.C45_2d_default_partial",
    "Cake.C45_L2_partial",
    "Cake.C45_L2_refuted",
    "Cake.C45_small_default_partial",
    "Cake.C45_tiles"
   ],
   "note": "(a) proved (C45_tiles). (b) does not hold: on 32 KB/256 KB caches the tile takes 402176 bytes (C45_L2_refuted); it holds if depth and width do not exceed the height derived from L2 (C45_L2_partial). (c) proved where the grid is defined (C30) and the operands have readable slack (C11)."
  },
  {
   "property": "C46",
   "status": "partial",
   "theorems": [
    "Cake.C46_armv8_8x12_partial",
    "Cake.C46_dense_partial",
    "Cake.C46_empty_first_refuted",
    "Cake.C46_haswell_3x32_refuted",
    "Cake.C46_haswell_6x16_partial",
    "Cake.C46_tail_refuted"
   ],
   "note": "Proved for the 6x16 (x86) and 8x12 (ARM) kernels, for every tile whose empty columns come last: value, frame, memory safety, and equality with the dense product in exact arithmetic. Refuted without that order (early exit drops columns; leftover columns take entries from the wrong position) and for the 3x32 kernel (row factor 2 instead of 4)."
  },
  {
   "property": "C47",
   "status": "proved",
   "theorems": [
    "Cake.C47_A_packed",
    "Cake.C47_B_packed",
    "Cake.C47_C_packed",
    "Cake.C47_exact",
    "Cake.C47_frame",
    "Cake.C47_frame_C_packed",
    "Cake.C47_narrow_refuted",
    "Cake.C47_safe",
    "Cake.C47_unpacked"
   ],
   "note": "All four kernels: value, frame, memory safety, exact arithmetic. That N >= 16 is needed is shown by a witness."
  },
  {
   "property": "C48",
   "status": "partial",
   "theorems": [
    "Cake.C48_context_refuted",
    "Cake.C48_exact_partial",
    "Cake.C48_forward_partial"
   ],
   "note": "Proved when the fields that cake_query_cntx_torch leaves uninitialised hold the right values and the number of output features is a multiple of the register tile. Refuted otherwise: if ncores happens to be 0 every run is undefined, for every shape."
  },
  {
   "property": "C49",
   "status": "partial",
   "theorems": [
    "Cake.C49_bias_iff",
    "Cake.C49_bias_refuted",
    "Cake.C49_products_partial"
   ],
   "note": "Both products proved under the conditions of C48. The bias gradient is wrong: C49_bias_iff shows it is right for all gradients exactly if the batch has at most one sample or there is at most one output feature; C49_bias_refuted is a 2x2 witness."
  },
  {
   "property": "C50",
   "status": "partial",
   "theorems": [
    "Cake.C50_builtin_refuted",
    "Cake.C50_fraction_refuted",
    "Cake.C50_gibibytes_refuted",
    "Cake.C50_model_overflow_refuted",
    "Cake.C50_no_model_refuted",
    "Cake.C50_overflow_refuted",
    "Cake.C50_whole_partial"
   ],
   "note": "Proved where the sizes are printed as whole numbers of K or M and the digits of the first Model line are not one of ten built-in numbers (C50_whole_partial). Does not hold otherwise: 1.3M is read as 3M (C50_fraction_refuted, for all digits), sizes in G are not recognised (C50_gibibytes_refuted), 2048M and more overflow (C50_overflow_refuted), a CPU name whose digits are a built-in number gives the built-in sizes (C50_builtin_refuted), a CPU name with too many digits is undefined behaviour (C50_model_overflow_refuted), and so is a missing Model number (C50_no_model_refuted)."
  },
  {
   "property": "C51",
   "status": "partial",
   "theorems": [
    "Cake.C51_cores_partial",
    "Cake.C51_mixed_refuted",
    "Cake.C51_no_line_refuted",
    "Cake.C51_per_socket",
    "Cake.C51_sockets_refuted"
   ],
   "note": "Proved for one socket with uniform cores (C51_cores_partial). In general the result is the number of cores per socket (C51_per_socket), so it is wrong with two or more sockets (C51_sockets_refuted), too small on machines with cores of one and of two threads (C51_mixed_refuted), and undefined where lscpu has no Thread or Socket line (C51_no_line_refuted)."
  },
  {
   "property": "C52",
   "status": "proved",
   "theorems": [
    "Cake.C52_packA",
    "Cake.C52_packA_needs_pad",
    "Cake.C52_packB",
    "Cake.C52_packB_parallel",
    "Cake.C52_packC",
    "Cake.C52_roundtrip",
    "Cake.C52_test1",
    "Cake.C52_test1_needs_six",
    "Cake.C52_unpackC"
   ],
   "note": "Values, frame and every interleaving for each function; round trip; the conditions on padding (A) and on M (pack_test1) are shown to be necessary."
  },
  {
   "property": "C53",
   "status": "proved",
   "theorems": [
    "Cake.C53_armv8_12",
    "Cake.C53_armv8_8",
    "Cake.C53_haswell_16",
    "Cake.C53_haswell_6",
    "Cake.C53_plain_A",
    "Cake.C53_plain_B"
   ],
   "note": "Full statement, for each of the four kernels, from any state and any register contents; equality with the plain loops for the strides the library passes."
  },
  {
   "property": "C54",
   "status": "partial",
   "theorems": [
    "Cake.C54_armv8_partial",
    "Cake.C54_armv8_unscaled",
    "Cake.C54_haswell_ldp",
    "Cake.C54_nothing"
   ],
   "note": "False. A row count below the panel height, two non-unit strides, or (x86) kappa other than 1 make the call do nothing (C54_nothing). The x86 kernels ignore the leading dimension of the panel (C54_haswell_ldp), the ARM kernels ignore kappa (C54_armv8_unscaled). The ARM kernels honour the leading dimension (C54_armv8_partial)."
  },
  {
   "property": "C55",
   "status": "partial",
   "theorems": [
    "Cake.C55_large_overflows",
    "Cake.C55_link_dims_m",
    "Cake.C55_link_dims_n",
    "Cake.C55_link_obB",
    "Cake.C55_link_obC",
    "Cake.C55_link_packA_m",
    "Cake.C55_link_packA_n",
    "Cake.C55_link_packB_m",
    "Cake.C55_link_packB_n",
    "Cake.C55_link_packC_m",
    "Cake.C55_link_packC_n",
    "Cake.C55_link_regTiles",
    "Cake.C55_link_schedule_m",
    "Cake.C55_link_schedule_n",
    "Cake.C55_link_sizes",
    "Cake.C55_link_unpackC_m",
    "Cake.C55_link_unpackC_n",
    "Cake.C55_m_no_overflow_iff",
    "Cake.C55_m_no_overflow_partial",
    "Cake.C55_m_refuted",
    "Cake.C55_n_accum_no_overflow_iff",
    "Cake.C55_n_accum_no_overflow_partial",
    "Cake.C55_n_no_overflow_iff",
    "Cake.C55_n_refuted",
    "Cake.C55_run32_m_defined_iff",
    "Cake.C55_run32_m_product_partial",
    "Cake.C55_run32_n_accum_defined_iff",
    "Cake.C55_run32_n_defined_iff",
    "Cake.C55_run32_n_product_partial",
    "Cake.C55_run32_n_refuted",
    "Cake.C55_run32_packed_partial",
    "Cake.C55_run32_same",
    "Cake.C55_run32_undefined_iff"
   ],
   "note": "every int expression of both paths listed as a syntax tree and tied to the model by rfl; the exact condition for no overflow is proved for M-first (any beta), N-first without and with accumulation; the statement as written is false: p*k_c (and p*m_c for N-first) must fit too (C55_m_refuted), and packing C for N-first computes offsets beyond the packed C (C55_n_refuted); the two paths are also written over 32-bit int with every expression recorded where it is evaluated: a defined call is the call of the unbounded model (C55_run32_same), exactly when it is defined (C55_run32_m_defined_iff, C55_run32_n_defined_iff, C55_run32_n_accum_defined_iff), and it computes the product (C55_run32_m_product_partial, C55_run32_n_product_partial)"
  },
  {
   "property": "C56",
   "status": "partial",
   "theorems": [
    "Cake.C56_all_outputs_partial",
    "Cake.C56_channels_refuted",
    "Cake.C56_columns_refuted",
    "Cake.C56_convolution_partial",
    "Cake.C56_exact",
    "Cake.C56_example_main_refuted",
    "Cake.C56_filter_refuted",
    "Cake.C56_im2col",
    "Cake.C56_im2col_product",
    "Cake.C56_input_refuted",
    "Cake.C56_stride_refuted",
    "Cake.C56_tile_sizes",
    "Cake.C56_tile_sizes_refuted"
   ],
   "note": "proved for filters of nine elements, stride 1, an output object with room for the channel count rounded up to a multiple of 6, in the columns below the largest multiple of 16 (all of the output if 16 | Wout and 6 | Cout), any tile sizes; im_2_col and its equivalence to the convolution proved; the statement as written is false: refuted for every other filter size, every other stride, Wout not a multiple of 16, Cout not a multiple of 6 with an exact output object, an input with too few rows (the sizes in main), and for tile sizes with k_c = 0"
  },
  {
   "property": "C57",
   "status": "partial",
   "theorems": [
    "Cake.C57_alpha_beta_refuted",
    "Cake.C57_checker_refuted",
    "Cake.C57_exact_partial",
    "Cake.C57_gemv_partial",
    "Cake.C57_kernel_col",
    "Cake.C57_kernel_packed",
    "Cake.C57_rows_divisible_partial",
    "Cake.C57_rows_refuted",
    "Cake.C57_same_result_partial",
    "Cake.C57_schedule_MKN_refuted",
    "Cake.C57_schedule_refuted",
    "Cake.C57_tile_sizes"
   ],
   "note": "proved if the unset schedule field happens to contain KMN, with kernels of 8 rows and room for rounding M up to a multiple of 8 (exact objects if 8 | M): every element of y receives its K products in order, independent of threads and tile sizes; both kernels; computed tile sizes usable. The statement as written is false: refuted for alpha, beta other than 1, for the unset schedule field, for M not a multiple of 8, for the library's own 6-row context, and for the checker (data race)"
  },
  {
   "property": "C58",
   "status": "partial",
   "theorems": [
    "Cake.C58_online_default_partial",
    "Cake.C58_online_iff",
    "Cake.C58_online_refuted"
   ],
   "note": "proved with readable slack behind A and B; with objects of exactly their sizes the call can end normally iff m_r | M and n_r | N (C58_online_iff), so the statement as written is false: refuted on every supported machine for 1 x 1 operands"
  },
  {
   "property": "C59",
   "status": "partial",
   "theorems": [
    "Cake.C59_detects",
    "Cake.C59_exact",
    "Cake.C59_refuted",
    "Cake.C59_return_refuted",
    "Cake.C59_rounded",
    "Cake.C59_single",
    "Cake.C59_single_core_refuted",
    "Cake.C59_sound_partial"
   ],
   "note": "proved for every sequence of tests whose calls stay within their operands: no undefined behaviour and no failure counted (over the rationals for every tolerance; in rounded arithmetic where the error bound is below the tolerance). The statement as written is false: on every supported machine with two or more cores the run has undefined behaviour and never ends normally; the value returned is 0 whatever failed; on one core nothing is tested and success is reported"
  },
  {
   "property": "C60",
   "status": "partial",
   "theorems": [
    "Cake.C60_as_alone_partial",
    "Cake.C60_can_end_partial",
    "Cake.C60_context_shared_by_2d",
    "Cake.C60_correct_partial",
    "Cake.C60_iff_partial",
    "Cake.C60_kfirst_partial",
    "Cake.C60_shared_context_refuted"
   ],
   "note": "proved for any number of calls of all four entry points, in any interleaving, if calls given the same context do not write a field that another accesses (2-D calls with automatic tiles and one other call may share a context: C60_context_shared_by_2d). The statement as written is false: two cake_sgemm calls on one context always race on its field alpha_n (C60_shared_context_refuted)"
  },
  {
   "property": "C61",
   "status": "partial",
   "theorems": [
    "Cake.C61_in_place_kfirst_partial",
    "Cake.C61_in_place_partial",
    "Cake.C61_inputs_overlap_partial",
    "Cake.C61_online_in_place_refuted"
   ],
   "note": "proved: A and B may overlap in every entry point; C may overlap them in cake_sgemm on operands that are not pre-packed, with any schedule. False for cake_sgemm_online in place: refuted with a concrete 12 x 16 product"
  },
  {
   "property": "C62",
   "status": "proved",
   "theorems": [
    "Cake.C62_2d",
    "Cake.C62_2d_small",
    "Cake.C62_online",
    "Cake.C62_sgemm"
   ],
   "note": "two-execution (non-interference) theorems for all four entry points from their first lines; for the 2-D calls where the core grid is defined (otherwise no execution ends, C30)"
  },
  {
   "property": "C63",
   "status": "partial",
   "theorems": [
    "Cake.C63_2d_iff",
    "Cake.C63_2d_partial",
    "Cake.C63_2d_run32_defined_iff",
    "Cake.C63_2d_run32_product_partial",
    "Cake.C63_2d_run32_refuted",
    "Cake.C63_2d_run32_same",
    "Cake.C63_2d_run32_undefined_iff",
    "Cake.C63_link_2d",
    "Cake.C63_link_dims2d",
    "Cake.C63_link_fit2d",
    "Cake.C63_link_init2d",
    "Cake.C63_link_initS",
    "Cake.C63_link_online",
    "Cake.C63_link_small",
    "Cake.C63_online_beats_packed",
    "Cake.C63_online_iff",
    "Cake.C63_online_run32_defined_iff",
    "Cake.C63_online_run32_product_partial",
    "Cake.C63_online_run32_refuted",
    "Cake.C63_online_run32_same",
    "Cake.C63_online_run32_undefined_iff",
    "Cake.C63_refuted",
    "Cake.C63_small_iff",
    "Cake.C63_small_refuted",
    "Cake.C63_small_run32_defined_iff",
    "Cake.C63_small_run32_product_partial",
    "Cake.C63_small_run32_refuted",
    "Cake.C63_small_run32_same",
    "Cake.C63_small_run32_some",
    "Cake.C63_small_run32_undefined_iff"
   ],
   "note": "false as stated: for large user tiles (C63_refuted), and for the small-matrix product because its tiles are rounded up past the operands (C63_small_refuted); exact conditions proved for all three products (for the small-matrix one on grids on which a call can end normally); cake_sgemm_online once more with every expression recorded where it is evaluated: C63_online_run32_*; cake_sgemm_2d likewise: C63_2d_run32_*; cake_sgemm_2d_small likewise, on grids that fit: C63_small_run32_*"
  },
  {
   "property": "C64",
   "status": "partial",
   "theorems": [
    "Cake.C64_at_most",
    "Cake.C64_bounds",
    "Cake.C64_drawn",
    "Cake.C64_endless_iff",
    "Cake.C64_endless_refuted",
    "Cake.C64_endless_small",
    "Cake.C64_ends_iff",
    "Cake.C64_largest",
    "Cake.C64_limit",
    "Cake.C64_multiple_partial",
    "Cake.C64_multiple_refuted",
    "Cake.C64_nearest",
    "Cake.C64_visited"
   ],
   "note": "bounds and freshness proved; multiples of the register tile proved where it divides the steps 30 and 128 (6 x 16), refuted for 8 x 12 (C64_multiple_refuted); that every call returns is false: C64_ends_iff and C64_endless_iff say exactly when a call cannot return; C64_endless_refuted: so for all sizes with max_cand above 3375"
  },
  {
   "property": "C65",
   "status": "proved",
   "theorems": [
    "Cake.C65_normal",
    "Cake.C65_rand_gen",
    "Cake.C65_rand_init",
    "Cake.C65_rand_init_ends"
   ],
   "note": "reals with arbitrary monotone rounding; cos and log of the C library are assumed to lie in [-1,1] and to be non-positive and within 5%; overflow and NaN inputs cannot occur in these ranges"
  },
  {
   "property": "C66",
   "status": "partial",
   "theorems": [
    "Cake.C66_2d_iff",
    "Cake.C66_2d_refuted",
    "Cake.C66_call_iff",
    "Cake.C66_checked_partial",
    "Cake.C66_kfirst_iff",
    "Cake.C66_kfirst_refuted",
    "Cake.C66_kfirst_spare",
    "Cake.C66_mfirst_iff",
    "Cake.C66_nfirst_iff",
    "Cake.C66_online_iff",
    "Cake.C66_small_iff",
    "Cake.C66_small_refuted"
   ],
   "note": "false for malloc and calloc, whose results are not checked (C66_kfirst_refuted, C66_2d_refuted: every K-first and 2-D call with a C that is not empty; C66_small_refuted: the block of any thread, also one that computes nothing); exact conditions proved: C66_call_iff for all four entry points, with the objects named for K-first and online (blocks of the cores that take part), M- and N-first (packed C if beta = 0 and C is not empty), 2-D (blocks of the cores that get a part of the first block) and small 2-D (blocks of all threads); C66_checked_partial: refused posix_memalign is handled"
  },
  {
   "property": "C67",
   "status": "partial",
   "theorems": [
    "Cake.C67_2d_product_partial",
    "Cake.C67_2d_same",
    "Cake.C67_accum_refuted",
    "Cake.C67_all_defined_iff",
    "Cake.C67_all_kfirst",
    "Cake.C67_all_product_partial",
    "Cake.C67_all_same",
    "Cake.C67_auto_partial",
    "Cake.C67_defined_iff",
    "Cake.C67_online_defined_iff",
    "Cake.C67_online_product_partial",
    "Cake.C67_online_same",
    "Cake.C67_same",
    "Cake.C67_small_product_partial",
    "Cake.C67_small_same",
    "Cake.C67_threads_refuted"
   ],
   "note": "every schedule, given or chosen by the library: C67_all_defined_iff (exactly when the 32-bit call is defined), C67_all_product_partial (defined and the product; ragged N needs room behind B, see C10), C67_all_same (a defined 32-bit call is the call of the unbounded model, for any floating-point operations). K-first alone: C67_auto_partial, C67_defined_iff, with any beta and nothing behind B. C67_threads_refuted: false for more threads than cores (K-first); C67_accum_refuted: false for N-first with beta != 0, where packing C computes offsets beyond the packed C; cake_sgemm_online from its first line: C67_online_same, C67_online_defined_iff, C67_online_product_partial; cake_sgemm_2d from its first line: C67_2d_same, C67_2d_product_partial; cake_sgemm_2d_small from its first line: C67_small_same, C67_small_product_partial"
  },
  {
   "property": "C68",
   "status": "partial",
   "theorems": [
    "Cake.C68_flags_refuted",
    "Cake.C68_gemm_small_refuted",
    "Cake.C68_plain",
    "Cake.C68_small_refuted",
    "Cake.C68_unpacked_overlap_refuted",
    "Cake.C68_unpacked_partial",
    "Cake.C68_unpacked_wide_refuted"
   ],
   "note": "holds for schedule without flags (C68_plain) and for the unpacked K-first schedule up to n_r columns (C68_unpacked_partial); refuted for the flags, the small schedules and cake_gemm_small (they access nothing, C68_flags_refuted, C68_small_refuted, C68_gemm_small_refuted) and for wider results of the unpacked schedule (C68_unpacked_wide_refuted: undefined for all sizes with at least two steps in the last depth block; C68_unpacked_overlap_refuted: wrong sums at depth one)"
  },
  {
   "property": "C69",
   "status": "proved",
   "theorems": [
    "Cake.C69_2d",
    "Cake.C69_2d_small",
    "Cake.C69_monotone",
    "Cake.C69_online",
    "Cake.C69_scale",
    "Cake.C69_sgemm"
   ],
   "note": "C69_monotone and C69_scale are the consequences for rounded arithmetic; they take what C69_sgemm, C69_online, C69_2d and C69_2d_small prove for the calls"
  },
  {
   "property": "C70",
   "status": "proved",
   "theorems": [
    "Cake.C70_2d",
    "Cake.C70_2d_iff",
    "Cake.C70_2d_small",
    "Cake.C70_kfirst",
    "Cake.C70_kfirst_iff",
    "Cake.C70_mfirst",
    "Cake.C70_mfirst_iff",
    "Cake.C70_nfirst",
    "Cake.C70_nfirst_iff",
    "Cake.C70_online",
    "Cake.C70_online_iff",
    "Cake.C70_refuted",
    "Cake.C70_sgemm_iff"
   ],
   "note": "sufficient for every arithmetic: C70_kfirst, C70_online, C70_mfirst, C70_nfirst, C70_2d, C70_2d_small; necessary in single precision with fused multiply-add: the _iff theorems, for every rounding that drops the last bit of 2^26+2^14+1 (round to nearest does: nearest_drops); C70_refuted is a concrete call in which equal rows and columns give different results"
  },
  {
   "property": "C71",
   "status": "proved",
   "theorems": [
    "Cake.C71_2d",
    "Cake.C71_2d_small",
    "Cake.C71_copy",
    "Cake.C71_online",
    "Cake.C71_sgemm"
   ],
   "note": "C71_copy is the consequence for rounded arithmetic"
  },
  {
   "property": "C72",
   "status": "proved",
   "theorems": [
    "Cake.C72_2d",
    "Cake.C72_2d_small",
    "Cake.C72_online",
    "Cake.C72_sgemm"
   ],
   "note": ""
  },
  {
   "property": "C73",
   "status": "proved",
   "theorems": [
    "Cake.C73_2d",
    "Cake.C73_2d_small",
    "Cake.C73_default",
    "Cake.C73_exact",
    "Cake.C73_independent",
    "Cake.C73_online",
    "Cake.C73_online_default",
    "Cake.C73_sgemm"
   ],
   "note": "counts the fma operations of the program that is run; for cake_sgemm_2d_small on grids that fit (on others the call is not defined, C11)"
  },
  {
   "property": "C74",
   "status": "partial",
   "theorems": [
    "Cake.C74_2d_even_partial",
    "Cake.C74_2d_partial",
    "Cake.C74_2d_refuted",
    "Cake.C74_2d_small_partial",
    "Cake.C74_2d_small_refuted",
    "Cake.C74_kfirst_partial",
    "Cake.C74_mfirst_partial",
    "Cake.C74_mfirst_refuted",
    "Cake.C74_nfirst_partial",
    "Cake.C74_nfirst_refuted",
    "Cake.C74_online"
   ],
   "note": "proved for K-first and cake_sgemm_online (C74_kfirst_partial, C74_online); cake_sgemm_2d is even on the grid it uses (C74_2d_partial), which is the grid asked for unless C has exactly as many strips as the grid has rows or columns (C74_2d_even_partial), when it can be a single row of cores (C74_2d_refuted); M-first and N-first are limited by one tile per iteration (C74_mfirst_partial, C74_nfirst_partial) and run on one thread when M <= m_c or N <= n_c (C74_mfirst_refuted, C74_nfirst_refuted); cake_sgemm_2d_small gives the first cores one register tile too many on each side (C74_2d_small_partial is exact, C74_2d_small_refuted)"
  },
  {
   "property": "C75",
   "status": "proved",
   "theorems": [
    "Cake.C75_2d",
    "Cake.C75_2d_small",
    "Cake.C75_kfirst",
    "Cake.C75_mnfirst",
    "Cake.C75_online"
   ],
   "note": "posix_memalign and calloc of float arrays; the descriptors from malloc have fixed size and are not counted"
  },
  {
   "property": "C76",
   "status": "partial",
   "theorems": [
    "Cake.C76_A",
    "Cake.C76_B_kfirst",
    "Cake.C76_B_mnfirst_partial",
    "Cake.C76_B_mnfirst_refuted",
    "Cake.C76_C",
    "Cake.C76_C_loads",
    "Cake.C76_default"
   ],
   "note": "proved for A, for C (read and written) and for B with K-first, all sizes; M-first and N-first read B once if n_r divides N (C76_B_mnfirst_partial, which also shows that no element is left out) and otherwise run over the end of the rows, so that elements are read twice (C76_B_mnfirst_refuted)"
  },
  {
   "property": "C77",
   "status": "proved",
   "theorems": [
    "Cake.C77_2d_A",
    "Cake.C77_2d_B",
    "Cake.C77_2d_C",
    "Cake.C77_2d_small",
    "Cake.C77_online_A",
    "Cake.C77_online_B",
    "Cake.C77_online_C",
    "Cake.C77_online_default",
    "Cake.C77_online_full"
   ],
   "note": "exact counts for all sizes (C77_online_A, C77_online_B, C77_2d_A, C77_2d_B, C77_2d_small), closed form without edges (C77_online_full), from the first line of the online call (C77_online_default)"
  },
  {
   "property": "C78",
   "status": "proved",
   "theorems": [
    "Cake.C78_2d",
    "Cake.C78_2d_iff",
    "Cake.C78_2d_small",
    "Cake.C78_2d_small_symmetric",
    "Cake.C78_2d_symmetric_iff",
    "Cake.C78_kfirst",
    "Cake.C78_kfirst_iff",
    "Cake.C78_kfirst_symmetric_iff",
    "Cake.C78_mfirst_symmetric_iff",
    "Cake.C78_mm",
    "Cake.C78_mm_iff",
    "Cake.C78_mn",
    "Cake.C78_mn_iff",
    "Cake.C78_nfirst_symmetric_iff",
    "Cake.C78_nn",
    "Cake.C78_nn_iff",
    "Cake.C78_online",
    "Cake.C78_online_iff",
    "Cake.C78_online_symmetric_iff",
    "Cake.C78_refuted",
    "Cake.C78_sgemm_symmetric_iff"
   ],
   "note": "sufficient in any arithmetic with fma a b c = fma b a c (C78_kfirst, C78_online, C78_mn, C78_mm, C78_nn, C78_2d, C78_2d_small); necessary in single precision (the _iff theorems); a concrete asymmetric product with rounding to nearest (C78_refuted); public call with given tiles (C78_sgemm_symmetric_iff). M-first and N-first with beta = 0. Two calls with different block depths are not compared."
  },
  {
   "property": "C79",
   "status": "partial",
   "theorems": [
    "Cake.C79_defined_iff",
    "Cake.C79_first_partial",
    "Cake.C79_refuted",
    "Cake.C79_value"
   ],
   "note": "the property does not hold: C79_refuted, for every m, k and K. C79_defined_iff says exactly when the kernel is defined (eight rows, 64 readable elements of B, rows of A readable up to a multiple of 64); C79_value what it then computes (row l is added to all rows before it, and all of C to every element); C79_first_partial: the first element is right for 64 columns and C = 0"
  },
  {
   "property": "C80",
   "status": "partial",
   "theorems": [
    "Cake.C80_few",
    "Cake.C80_flush_refuted",
    "Cake.C80_gemv_iff",
    "Cake.C80_missing_refuted",
    "Cake.C80_no_trial_partial",
    "Cake.C80_product_partial",
    "Cake.C80_product_refuted",
    "Cake.C80_race_refuted",
    "Cake.C80_refuted",
    "Cake.C80_tile_refuted",
    "Cake.C80_trials_refuted"
   ],
   "note": "the property does not hold. C80_missing_refuted: two to four arguments are undefined behaviour, not the message; C80_flush_refuted, C80_trials_refuted: with at least one trial every run is undefined; C80_race_refuted: the loop is also a data race; C80_refuted: a run that ends normally had no trial. C80_few: fewer than two arguments give the message; C80_no_trial_partial: exact behaviour without a trial. Apart from the flush, the product that is timed is right on ARM (C80_product_partial) and undefined on x86 (C80_tile_refuted, C80_product_refuted). The order of the printed lines and the times are not modelled"
  },
  {
   "property": "C81",
   "status": "partial",
   "theorems": [
    "Cake.C81_crossed",
    "Cake.C81_limits_iff",
    "Cake.C81_nan_refuted",
    "Cake.C81_nearest_partial"
   ],
   "note": "C81_nearest_partial: holds for numbers with the limits in order; C81_limits_iff: the result is within the limits exactly if they are in order; C81_crossed: out of order, the upper limit is returned. C81_nan_refuted: a NaN is returned unchanged. Doubles are real numbers or NaN; infinities are not modelled. Nothing in the library calls the function"
  }
 ]
}