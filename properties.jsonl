{"id": "C01", "title": "K-first product is correct", "statement": "cake_sgemm with the K-first schedule (KMN) ends with C[i][j] equal to the K-term product of row i of A and column j of B, for every i<M, j<N, accumulated with one fused multiply-add per k starting from 0 in an order that is a permutation of 0..K-1; over exact arithmetic this is C = A*B.", "quantifier": "all M, N, K (including 0, 1 and ragged sizes), all thread counts p>=1, all positive tile sizes m_c, k_c, n_c with m_r | m_c and n_r | n_c, all matrices A and B, all prior contents of C and of freshly allocated memory, all interleavings of the parallel loops", "why_tests_cant": "Correctness depends on divisibility relations between M, N, K, p and five tile sizes; padded blocks, last-core blocks and serpentine turns combine in unboundedly many ways.", "anchors": ["src/cake_sgemm.cpp:cake_sgemm", "src/cake_sgemm_k_first.cpp:schedule_KMN", "src/pack_k_first.cpp", "src/unpack_k_first.cpp"]}
{"id": "C02", "title": "M-first product is correct", "statement": "Whenever it ends normally, cake_sgemm with the M-first schedule (MKN) and beta = 0 ends with C[i][j] equal to the product of row i of A and column j of B (one fused multiply-add per k, in a permutation of 0..K-1, starting from 0); C = A*B over exact arithmetic. It does end normally if the elements of B that packing reads are readable.", "quantifier": "all M, N, K (including 0, 1 and ragged sizes), all thread counts p>=1, all positive tile sizes m_c, k_c, n_c with m_r | m_c and n_r | n_c, all matrices A and B, all prior contents of C and of freshly allocated memory, all interleavings of the parallel loops, every element a short read past the end of a row of B may deliver", "why_tests_cant": "Same combinatorics as K-first, with the reduction dimension split over the p slots of a block and a shared packed C.", "anchors": ["src/cake_sgemm.cpp:cake_sgemm", "src/cake_sgemm_m_first.cpp:schedule_MKN", "src/pack_m_first.cpp", "src/unpack_m_first.cpp"]}
{"id": "C03", "title": "N-first product is correct", "statement": "Whenever it ends normally, cake_sgemm with the N-first schedule (NKM) and beta = 0 ends with C[i][j] equal to the product of row i of A and column j of B (one fused multiply-add per k, in a permutation of 0..K-1, starting from 0); C = A*B over exact arithmetic. It does end normally if the elements of B that packing reads are readable.", "quantifier": "all M, N, K (including 0, 1 and ragged sizes), all thread counts p>=1, all positive tile sizes m_c, k_c, n_c with m_r | m_c and n_r | n_c, all matrices A and B, all prior contents of C and of freshly allocated memory, all interleavings of the parallel loops, every element a short read past the end of a row of B may deliver", "why_tests_cant": "Same combinatorics as M-first with different strides; a stride error shows only for particular remainders.", "anchors": ["src/cake_sgemm.cpp:cake_sgemm", "src/cake_sgemm_n_first.cpp:schedule_NKM", "src/pack_n_first.cpp", "src/unpack_n_first.cpp"]}
{"id": "C04", "title": "Online (pack-on-the-fly) product is correct", "statement": "cake_sgemm_online ends with C[i][j] equal to the product of row i of A and column j of B for every i<M, j<N, although it skips re-packing A or B at every turn of the serpentine traversal; whatever values the over-read padding lanes hold, they never reach C.", "quantifier": "all M, N, K (including 0, 1 and ragged sizes), all thread counts p>=1, all positive tile sizes m_c, k_c, n_c with m_r | m_c and n_r | n_c, all matrices A and B, all prior contents of C and of freshly allocated memory, all interleavings of the parallel loops, all values of the elements read beyond row or column ends", "why_tests_cant": "Skipping a re-pack is only right if the buffer still holds the block of the previous step; that depends on the parities and sizes of all three block counts.", "anchors": ["src/cake_sgemm.cpp:cake_sgemm_online", "src/cake_sgemm_k_first.cpp:schedule_KMN_online"]}
{"id": "C05", "title": "2-D partitioned product is correct", "statement": "cake_sgemm_2d ends with C[i][j] equal to the product of row i of A and column j of B for every i<M, j<N, for every pm x pn core grid.", "quantifier": "all M, N, K (including 0, 1 and ragged sizes), all thread counts p>=1, all positive tile sizes m_c, k_c, n_c with m_r | m_c and n_r | n_c, all matrices A and B, all prior contents of C and of freshly allocated memory, all interleavings of the parallel loops, all core grids pm, pn >= 1", "why_tests_cant": "Grid shape, ragged edge cores and pack-skipping interact.", "anchors": ["src/cake_sgemm.cpp:cake_sgemm_2d", "src/cake_sgemm_k_first.cpp:schedule_KMN_2d", "src/block_sizing.cpp:init_block_dims_2d"]}
{"id": "C06", "title": "Small 2-D product is correct", "statement": "cake_sgemm_2d_small, when it does not touch memory outside its buffers, ends with C = A*B on the M x N matrix.", "quantifier": "all M, N, K (including 0, 1 and ragged sizes), all thread counts p>=1, all positive tile sizes m_c, k_c, n_c with m_r | m_c and n_r | n_c, all matrices A and B, all prior contents of C and of freshly allocated memory, all interleavings of the parallel loops, all core grids", "why_tests_cant": "Grid shape and ragged edges interact; the last row/column of cores may own zero or a negative number of rows.", "anchors": ["src/cake_sgemm.cpp:cake_sgemm_2d_small", "src/cake_sgemm_k_first.cpp:schedule_KMN_2d_small", "src/block_sizing.cpp:init_block_dims_2d_small"]}
{"id": "C07", "title": "Thread interleaving never changes the result", "statement": "No parallel loop of the K-first, M-first or N-first product has a data race on matrix or packed-buffer elements, and every interleaving of the loop's iterations leaves exactly the same memory as running them one after another; results are bit-identical for any OpenMP scheduling and any number of OS threads.", "quantifier": "all interleavings of all parallel regions, all sizes, tiles and p", "why_tests_cant": "A test observes a handful of interleavings; there are exponentially many.", "anchors": ["src/cake_sgemm_k_first.cpp:schedule_KMN", "src/cake_sgemm_m_first.cpp:schedule_MKN", "src/cake_sgemm_n_first.cpp:schedule_NKM", "src/pack_k_first.cpp", "src/pack_m_first.cpp", "src/pack_n_first.cpp"]}
{"id": "C08", "title": "Inputs and surrounding memory are preserved", "statement": "A K-first, M-first or N-first product never modifies A or B, and writes no element of C other than the M*N elements of the result.", "quantifier": "all M, N, K (including 0, 1 and ragged sizes), all thread counts p>=1, all positive tile sizes m_c, k_c, n_c with m_r | m_c and n_r | n_c, all matrices A and B, all prior contents of C and of freshly allocated memory, all interleavings of the parallel loops", "why_tests_cant": "A stray write shows only for some remainder combinations and only if the neighbouring memory is watched.", "anchors": ["src/cake_sgemm.cpp:cake_sgemm", "src/unpack_k_first.cpp", "src/pack_ob.cpp:unpack_ob_C_multiple_buf"]}
{"id": "C09", "title": "K-first product is memory safe", "statement": "The K-first product reads A only inside M*K elements, B only inside K*N, writes C only inside M*N, touches its packed buffers only inside their allocated sizes, never reads a packed element before writing it, and never uses a buffer after freeing it.", "quantifier": "all M, N, K (including 0, 1 and ragged sizes), all thread counts p>=1, all positive tile sizes m_c, k_c, n_c with m_r | m_c and n_r | n_c, all matrices A and B, all prior contents of C and of freshly allocated memory, all interleavings of the parallel loops", "why_tests_cant": "Out-of-bounds reads of a few floats rarely crash and depend on remainders.", "anchors": ["src/cake_sgemm.cpp:cake_sgemm", "src/pack_helper.cpp:cake_sgemm_packed_A_size", "src/pack_helper.cpp:cake_sgemm_packed_B_size", "src/pack_k_first.cpp"]}
{"id": "C10", "title": "M-first and N-first products are memory safe", "statement": "The M-first and N-first products (beta = 0) read B only inside its K*N elements and otherwise stay inside all buffers.", "quantifier": "all M, N, K (including 0, 1 and ragged sizes), all thread counts p>=1, all positive tile sizes m_c, k_c, n_c with m_r | m_c and n_r | n_c, all matrices A and B, all prior contents of C and of freshly allocated memory, all interleavings of the parallel loops", "why_tests_cant": "The over-read appears only when N is not a multiple of n_r, depends on K mod (p*k_c), and rarely crashes.", "anchors": ["src/pack_m_first.cpp:pack_B_m_first", "src/pack_n_first.cpp:pack_B_n_first", "src/pack_ob.cpp:pack_ob_B_single_buf"]}
{"id": "C11", "title": "Online and 2-D products are memory safe", "statement": "cake_sgemm_online, cake_sgemm_2d and cake_sgemm_2d_small read A only inside M*K elements and B only inside K*N elements.", "quantifier": "all M, N, K (including 0, 1 and ragged sizes), all thread counts p>=1, all positive tile sizes m_c, k_c, n_c with m_r | m_c and n_r | n_c, all matrices A and B, all prior contents of C and of freshly allocated memory, all interleavings of the parallel loops", "why_tests_cant": "The over-read appears only for ragged M or N and rarely crashes.", "anchors": ["src/cake_sgemm_k_first.cpp:schedule_KMN_online", "src/cake_sgemm_k_first.cpp:schedule_KMN_2d", "src/pack_ob.cpp:pack_A_mr_x_kc", "src/pack_ob.cpp:pack_B_nr_x_kc"]}
{"id": "C12", "title": "alpha and beta are honoured", "statement": "cake_sgemm computes C = alpha*A*B + beta*C as documented.", "quantifier": "all alpha, beta, A, B, C and sizes", "why_tests_cant": "Tests that fix alpha=1, beta=0 cannot see that the scalars are ignored.", "anchors": ["src/cake_sgemm.cpp:cake_sgemm", "src/pack_helper.cpp:pack_C"]}
{"id": "C13", "title": "Accumulation into C with beta != 0", "statement": "When beta != 0 the M-first and N-first products add A*B to the caller's C.", "quantifier": "all M, N, K (including 0, 1 and ragged sizes), all thread counts p>=1, all positive tile sizes m_c, k_c, n_c with m_r | m_c and n_r | n_c, all matrices A and B, all prior contents of C and of freshly allocated memory, all interleavings of the parallel loops", "why_tests_cant": "The N-first pack of C uses a different block offset from the schedule and the unpack; it differs only on ragged last blocks.", "anchors": ["src/pack_m_first.cpp:pack_C_single_buf_m_first", "src/pack_n_first.cpp:pack_C_single_buf_n_first", "src/unpack_n_first.cpp"]}
{"id": "C14", "title": "cake_sgemm_test computes the product", "statement": "cake_sgemm_test leaves C = A*B.", "quantifier": "all inputs", "why_tests_cant": "The call returns normally and reports times whether or not anything was computed.", "anchors": ["src/cake_sgemm.cpp:cake_sgemm_test", "src/cake_sgemm.cpp:schedule"]}
{"id": "C15", "title": "Packing fills exactly the advertised buffer", "statement": "pack_A and pack_B write every element of the packed buffer whose size cake_sgemm_packed_A_size / cake_sgemm_packed_B_size reports exactly once and nothing beyond it, for each schedule.", "quantifier": "all sizes, tiles, p and schedules", "why_tests_cant": "An element left unwritten or written twice only matters for particular remainders.", "anchors": ["src/pack_helper.cpp", "src/pack_k_first.cpp", "src/pack_m_first.cpp", "src/pack_n_first.cpp"]}
{"id": "C16", "title": "Packed layout is the block layout the kernels expect", "statement": "After pack_A (each schedule) and pack_B (K-first) the element of block (m,k), core, register tile, position is the matrix element at the corresponding row and column, or zero when that row or column lies outside the matrix.", "quantifier": "all sizes, tiles, p, blocks and positions", "why_tests_cant": "Unboundedly many block/position combinations.", "anchors": ["src/pack_k_first.cpp:pack_A_single_buf_k_first", "src/pack_k_first.cpp:pack_B_k_first", "src/pack_ob.cpp"]}
{"id": "C17", "title": "Pack/unpack of C round-trips", "statement": "For each schedule, packing C and unpacking it again restores every element of C.", "quantifier": "all sizes, tiles, p, contents", "why_tests_cant": "Fails only for ragged multi-block cases.", "anchors": ["src/pack_m_first.cpp:pack_C_single_buf_m_first", "src/unpack_m_first.cpp", "src/pack_n_first.cpp:pack_C_single_buf_n_first", "src/unpack_n_first.cpp", "src/pack_k_first.cpp:pack_C_single_buf_k_first", "src/unpack_k_first.cpp"]}
{"id": "C18", "title": "Pre-packed operands give the same result", "statement": "Passing a buffer previously produced by pack_A / pack_B (packedA / packedB) with the same sizes and context gives bit-for-bit the same C as passing the plain matrix.", "quantifier": "all M, N, K (including 0, 1 and ragged sizes), all thread counts p>=1, all positive tile sizes m_c, k_c, n_c with m_r | m_c and n_r | n_c, all matrices A and B, all prior contents of C and of freshly allocated memory, all interleavings of the parallel loops", "why_tests_cant": "Needs equality for all sizes, not sampled ones.", "anchors": ["src/cake_sgemm.cpp:cake_sgemm", "src/pack_helper.cpp:pack_A", "src/pack_helper.cpp:pack_B"]}
{"id": "C19", "title": "Block dimensions partition the matrix", "statement": "For every schedule the computed block counts, last-block sizes and last-core sizes partition 0..M, 0..N and 0..K: every row, column and depth index belongs to exactly one (block, core) strip, the padded row/column counts are the least multiples of m_r / n_r that cover the matrix, and no core gets a negative or oversized strip.", "quantifier": "all M, N, K, p >= 1, tiles with m_r | m_c, n_r | n_c", "why_tests_cant": "Nested ceil/remainder arithmetic over six free parameters.", "anchors": ["src/block_sizing.cpp:init_block_dims"]}
{"id": "C20", "title": "Automatic tile sizes are valid", "statement": "When the library chooses the tile sizes, m_c is a positive multiple of m_r, n_c is a positive multiple of n_r, and k_c is positive, whenever L2 is big enough for one register tile; no division by zero occurs.", "quantifier": "all M, N, K, p >= 1, cache sizes and floating-point roundings of the square roots", "why_tests_cant": "Depends on machine cache sizes and on rounding.", "anchors": ["src/block_sizing.cpp:get_cache_dims"]}
{"id": "C21", "title": "Chosen tile fits the L2 cache", "statement": "The tile chosen for a dense product satisfies the documented constraint 2*(m_c*k_c + k_c*n_r) + 2*m_c*n_r elements <= L2 (with k_c = m_c), also after clamping to small M.", "quantifier": "all M, p, L2 sizes", "why_tests_cant": "Universal over cache sizes and shapes.", "anchors": ["src/block_sizing.cpp:get_cache_dims"]}
{"id": "C22", "title": "User-chosen tile sizes give a correct product", "statement": "Any positive tile sizes passed by the user give C = A*B.", "quantifier": "all positive mcu, kcu, ncu", "why_tests_cant": "Only multiples of m_r and n_r work; tests use such values.", "anchors": ["src/block_sizing.cpp:get_cache_dims", "src/cake_sgemm_k_first.cpp:schedule_KMN"]}
{"id": "C23", "title": "Schedule selection is total and respects the caller", "statement": "An explicit schedule is always used unchanged; with no schedule given the library selects one of KMN, MKN, NKM (never an unknown one), so the 'unknown schedule' exit is unreachable.", "quantifier": "all M, N, K, p, tiles, and all comparisons' outcomes", "why_tests_cant": "Universally quantified over shapes.", "anchors": ["src/block_sizing.cpp:derive_schedule", "src/cake_sgemm.cpp:set_schedule", "src/cake_sgemm.cpp:schedule"]}
{"id": "C24", "title": "Schedule selection minimises the modelled IO", "statement": "derive_schedule returns M-first exactly when N<=M and K<=2M/(1+M/(p*m_c)), N-first exactly when not that and M<=N and K<=2N/(1+N/(p*m_c)), else K-first (exact arithmetic, alpha=1 cancels).", "quantifier": "all positive M, N, K, p, m_c and alpha", "why_tests_cant": "Algebraic identity over rationals.", "anchors": ["src/block_sizing.cpp:derive_schedule"]}
{"id": "C25", "title": "Serpentine traversal visits each block once and moves by one face", "statement": "The K-first block traversal visits every (n,m,k) block exactly once and consecutive blocks differ by one step in exactly one coordinate, so one operand or the result is always reused.", "quantifier": "all block counts Nb, Mb, Kb", "why_tests_cant": "Depends on parities of three unbounded counts.", "anchors": ["src/cake_sgemm_k_first.cpp:schedule_KMN"]}
{"id": "C26", "title": "Microkernel computes the outer-product update", "statement": "The generated m x n microkernel (any m, any n that is a multiple of the vector length, any k including k mod 4 != 0 and k = 0) adds A_tile*B_tile to the C tile, element by element, k in ascending order, touching nothing else. The hand-written 8 x 12 NEON kernel leaves in memory exactly what the generated one leaves.", "quantifier": "all m, n, k, all tile contents", "why_tests_cant": "Unrolled loop with remainder, for every generated kernel size and depth.", "anchors": ["python/kernel_gen.py:Haswell", "src/kernels/haswell/dense.cpp:cake_sgemm_haswell_6x16"]}
{"id": "C27", "title": "Kernel dispatch picks the kernel of the configured register tile", "statement": "For every register tile size the generator produced, kernel_map[m_map][n_map] with the map indices computed in the context is the kernel with that m_r and n_r.", "quantifier": "all generated m_r, n_r and generator limits", "why_tests_cant": "Range over generator parameters.", "anchors": ["src/block_sizing.cpp:update_mr_nr", "python/kernel_gen.py", "include/kernel_wrapper.h"]}
{"id": "C28", "title": "Changing the register tile keeps every schedule correct", "statement": "After update_mr_nr(cntx, m_r, n_r) with a generated kernel size, every schedule still computes A*B.", "quantifier": "all generated m_r, n_r, all schedules", "why_tests_cant": "Tests run with the default register tile.", "anchors": ["include/kernel_wrapper.h:cake_sgemm_ukernel", "src/cake_sgemm_m_first.cpp:schedule_MKN", "src/cake_sgemm_n_first.cpp:schedule_NKM", "src/block_sizing.cpp:update_mr_nr"]}
{"id": "C29", "title": "Aligned vector loads are aligned", "statement": "Every address from which the microkernels perform an aligned vector load of packed B is a multiple of the vector size, in every product call, given that the packed buffer starts at a 64-byte aligned address; for a B packed by the caller this is required of the caller's pointer.", "quantifier": "all sizes, schedules, entry points, tiles with n_r | n_c or n_c wider than the matrix, blocks, cores and k", "why_tests_cant": "Misalignment would appear only for particular block offsets.", "anchors": ["src/kernels/haswell/dense.cpp:cake_sgemm_haswell_6x16", "src/kernels/haswell/sparse.cpp:cake_sp_sgemm_haswell_6x16", "src/cake_sgemm_k_first.cpp:schedule_KMN", "src/cake_sgemm_k_first.cpp:schedule_KMN_online", "src/cake_sgemm_k_first.cpp:schedule_KMN_2d", "src/cake_sgemm_k_first.cpp:schedule_KMN_2d_small"]}
{"id": "C30", "title": "Core grid selection is defined and uses all cores", "statement": "grid_dims_2d returns pm, pn with pm*pn = p for every p in the generated factor table.", "quantifier": "all M, N, p <= ncores, ncores", "why_tests_cant": "A value is read uninitialised only for some (p, aspect ratio) pairs.", "anchors": ["src/block_sizing.cpp:grid_dims_2d", "python/grid_gen.py"]}
{"id": "C31", "title": "Least common multiple helper", "statement": "lcm(a,b) terminates and returns the least common multiple for all positive a and b.", "quantifier": "all positive a, b", "why_tests_cant": "Unbounded inputs, loop termination.", "anchors": ["src/block_sizing.cpp:lcm"]}
{"id": "C32", "title": "Checker accepts exactly correct results", "statement": "cake_sgemm_checker returns 0 (CORRECT) if and only if every element of C differs from the reference product by at most the tolerance, NaN included as incorrect.", "quantifier": "all matrices including NaN entries", "why_tests_cant": "NaN inputs need a semantic argument.", "anchors": ["src/util.cpp:mat_equals", "src/util.cpp:cake_sgemm_checker"]}
{"id": "C33", "title": "Matrix transpose", "statement": "transpose_mat writes the transpose of the K x N input for every size and every thread count, although threads write overlapping regions; the in-register 8x8 shuffle network is an exact transpose.", "quantifier": "all K, N, p, interleavings, contents", "why_tests_cant": "Edge blocks overlap between threads; all shuffles must compose to the transpose.", "anchors": ["src/transpose.cpp:transpose_mat", "src/kernels/haswell/transpose_haswell.cpp:transpose_8x8"]}
{"id": "C34", "title": "No leak, no double free", "statement": "Every buffer a product call allocates is freed exactly once before it returns, buffers passed by the caller are never freed, and nothing else remains allocated, also when cake_cntx is NULL.", "quantifier": "all flag combinations, schedules, sizes", "why_tests_cant": "Leaks are not visible in results.", "anchors": ["src/cake_sgemm.cpp:cake_sgemm", "src/cake_sgemm.cpp:cake_sgemm_2d", "src/cake_sgemm.cpp:cake_sgemm_online"]}
{"id": "C35", "title": "Calls are history independent", "statement": "The result of a product call does not depend on which calls were made earlier with the same context object, although the context is modified by each call.", "quantifier": "all finite histories of calls on one context", "why_tests_cant": "Unboundedly many histories.", "anchors": ["src/block_sizing.cpp:get_cache_dims", "src/block_sizing.cpp:derive_schedule"]}
{"id": "C36", "title": "No integer overflow for addressable sizes", "statement": "If the padded operand sizes M_padded*K, K*N_padded and M_padded*N_padded are below 2^31 then no index computed by the K-first pack, schedule and unpack overflows a 32-bit int.", "quantifier": "all M, N, K (including 0, 1 and ragged sizes), all thread counts p>=1, all positive tile sizes m_c, k_c, n_c with m_r | m_c and n_r | n_c, all matrices A and B, all prior contents of C and of freshly allocated memory, all interleavings of the parallel loops", "why_tests_cant": "Overflow needs gigabyte matrices.", "anchors": ["src/cake_sgemm_k_first.cpp:schedule_KMN", "src/pack_k_first.cpp", "src/pack_helper.cpp"]}
{"id": "C37", "title": "Double-precision ceil is exact", "statement": "The (int) ceil((double) a / b) idiom used for all block counts equals the exact integer ceiling for all 0 <= a < 2^53 and b > 0, for any rounding of the quotient within half a unit in the last place.", "quantifier": "all a, b, all rounding errors within the format's bound", "why_tests_cant": "Quadratically many pairs.", "anchors": ["src/block_sizing.cpp:init_block_dims"]}
{"id": "C38", "title": "Forward error bound independent of blocking", "statement": "With fused multiply-adds of relative error at most u, every computed C[i][j] differs from the exact dot product by at most ((1+u)^K - 1) * sum_k |a_ik||b_kj|, for every schedule, tile size and thread count.", "quantifier": "all real matrices, all roundings within u, all schedules, tiles, p", "why_tests_cant": "A bound over all inputs and roundings.", "anchors": ["src/cake_sgemm.cpp:cake_sgemm", "src/kernels/haswell/dense.cpp"]}
{"id": "C39", "title": "Result depends on p and tiles only through the k-order", "statement": "For K <= k_c the K-first product is bit-for-bit independent of p, m_c, n_c and of the block traversal: it is the plain ascending-k fused-multiply-add loop.", "quantifier": "all M, N, K (including 0, 1 and ragged sizes), all thread counts p>=1, all positive tile sizes m_c, k_c, n_c with m_r | m_c and n_r | n_c, all matrices A and B, all prior contents of C and of freshly allocated memory, all interleavings of the parallel loops with K <= k_c", "why_tests_cant": "Bitwise reproducibility across configurations.", "anchors": ["src/cake_sgemm_k_first.cpp:schedule_KMN"]}
{"id": "C40", "title": "Generated factor table is correct", "statement": "The generated grid_dims table row ncores-p column d-1 is 1 exactly when d divides p.", "quantifier": "all ncores, p, d", "why_tests_cant": "Generator parameters are unbounded.", "anchors": ["python/grid_gen.py:gen_factor_table"]}
{"id": "C41", "title": "BLIS-style packing equals plain packing", "statement": "The fast pack paths that skip bounds checks on all but the last core / last strip produce the same packed buffer as the fully checked paths.", "quantifier": "all M, N, K (including 0, 1 and ragged sizes), all thread counts p>=1, all positive tile sizes m_c, k_c, n_c with m_r | m_c and n_r | n_c, all matrices A and B, all prior contents of C and of freshly allocated memory, all interleavings of the parallel loops", "why_tests_cant": "The skipped checks are only redundant because of the block arithmetic.", "anchors": ["src/pack_k_first.cpp:pack_A_single_buf_k_first_blis", "src/pack_k_first.cpp:pack_B_k_first_blis"]}
{"id": "C42", "title": "The default call is correct end to end", "statement": "cake_sgemm called with default arguments (NULL or queried context, automatic schedule and tile sizes, alpha=1, beta=0) gets through the choice of schedule and tile sizes without undefined behaviour, leaves C = A*B, changes nothing else of the caller's, and leaves a context fit for the next call.", "quantifier": "all M, N, K, all p in 1..2^15, every machine with L2 large enough for one register tile, every rounding of the floating-point tile computation, all matrices, all interleavings", "why_tests_cant": "The chosen schedule and tiles depend on the machine and on roundings; a test sees one machine.", "anchors": ["src/cake_sgemm.cpp:cake_sgemm", "src/block_sizing.cpp:get_cache_dims", "src/block_sizing.cpp:cake_query_cntx"]}
{"id": "C43", "title": "Integer-valued matrices are multiplied exactly", "statement": "If A and B hold integers and every sum over k of |A[i,k]*B[k,j]| is at most 2^24, cake_sgemm leaves C exactly equal to the integer product, whatever schedule, tile sizes and thread count were used.", "quantifier": "all M, N, K, all integer matrices within the bound, all rounding modes of fused multiply-add, all tile sizes, thread counts and interleavings", "why_tests_cant": "Tests with small integers pass for the orders they happen to use; exactness for every order and every rounding needs a proof.", "anchors": ["src/cake_sgemm.cpp:cake_sgemm", "src/kernels/"]}
{"id": "C44", "title": "Online product has no data race on its bookkeeping variables", "statement": "The parallel loops of cake_sgemm_online do not access a shared scalar variable from two threads without synchronisation when one access is a write; and every thread computes its addresses from the value meant for it.", "quantifier": "all M, N, K, all thread counts p>=1, all positive tile sizes, all blocks, all interleavings of the threads, all prior values of the variable", "why_tests_cant": "The race writes the same value from each thread, so every run looks right; only a race detector or a proof over all interleavings shows it.", "anchors": ["src/cake_sgemm_k_first.cpp:schedule_KMN_online"]}
{"id": "C45", "title": "2-D product: automatic tile sizes and default calls", "statement": "cake_sgemm_2d and cake_sgemm_2d_small, called with the context, grid and tile sizes they work out themselves, (a) use a row tile that is a positive multiple of the kernel's rows, and the greatest positive depth for which a column of A, a row of B and a tile of C fit into L1; (b) use a tile of A, panel of B and tile of C that fit into L2; (c) reach the product and compute A*B, for every way the processor rounds.", "quantifier": "all cache sizes, register tiles, matrix sizes, core counts and floating-point roundings", "why_tests_cant": "The tile depends on the machine's cache sizes through square roots and single-precision divisions; a test runs on one machine. A wrong tile usually still gives the right product, only a cache overflow or, on another machine, a zero tile.", "anchors": ["src/block_sizing.cpp:init_block_dims_2d", "src/block_sizing.cpp:init_block_dims_2d_small", "src/cake_sgemm.cpp:cake_sgemm_2d", "src/cake_sgemm.cpp:cake_sgemm_2d_small"]}
{"id": "C46", "title": "Sparse microkernels compute the product of the tile they encode", "statement": "A sparse microkernel called with index arrays that encode a tile of A (for each column its number, how many nonzeros it has and their rows) and the list of nonzero values adds the product of that tile and the given rows of B to the tile of C, writes nothing else, and reads only the listed values, the rows of B named and the tile of C.", "quantifier": "all depths k, all numbers and positions of nonzeros, all column orders, all values, both x86 kernels and the ARM kernel", "why_tests_cant": "The addresses depend on the data in the index arrays; there are unboundedly many sparsity patterns, and the early exit at an empty column only matters for some orders.", "anchors": ["src/kernels/haswell/sparse.cpp:cake_sp_sgemm_haswell_6x16", "src/kernels/haswell/sparse.cpp:cake_sp_sgemm_haswell_3x32", "src/kernels/armv8/sparse.cpp:cake_sp_sgemm_armv8_8x12"]}
{"id": "C47", "title": "Microkernels for unpacked operands", "statement": "The microkernels that take A, B or C directly from matrices with a leading dimension add the 6xk by kx16 product to the 6x16 tile of C, touch no element of C beside the tile, and stay within the six rows of A and sixteen columns of B.", "quantifier": "all depths k, all leading dimensions M>=6, N>=16, all positions, all values", "why_tests_cant": "The unrolled code has a separate tail for k mod 4 and pointer steps that depend on M and N; sampled sizes leave combinations and the elements beside the tile unchecked.", "anchors": ["src/kernels/haswell/dense.cpp:cake_sgemm_haswell_6x16_unpacked", "src/kernels/haswell/dense.cpp:cake_sgemm_haswell_6x16_A_packed", "src/kernels/haswell/dense.cpp:cake_sgemm_haswell_6x16_B_packed", "src/kernels/haswell/dense.cpp:cake_sgemm_haswell_6x16_C_packed"]}
{"id": "C48", "title": "PyTorch forward pass", "statement": "linear_forward returns the tensor input * weight^T + bias (without bias if it is undefined), with input.size(0) rows and weight.size(0) columns, for any two-dimensional input and weight with equal numbers of columns, and has no undefined behaviour.", "quantifier": "all shapes, all values, all cache sizes passed in, all contents of newly allocated memory, all interleavings of the ten threads", "why_tests_cant": "Whether the run works depends on what malloc happens to return; a test process sees one such content.", "anchors": ["src/linear.cpp:linear_forward", "src/block_sizing.cpp:cake_query_cntx_torch"]}
{"id": "C49", "title": "PyTorch backward pass", "statement": "linear_backward returns grad_output * weight, grad_output^T * input, and (if bias is defined) for each output feature the sum of grad_output over the batch.", "quantifier": "all batch sizes and feature counts, all values, all interleavings", "why_tests_cant": "With a batch of one, one feature, or constant gradients the wrong bias gradient is indistinguishable from the right one; only a statement for all shapes and values settles it.", "anchors": ["src/linear.cpp:linear_backward"]}
{"id": "C50", "title": "Cache sizes are those the system reports", "statement": "get_cache_size(1|2|3) returns the size in bytes of the level-1 data, level-2 or level-3 cache that lscpu reports, for every machine on which lscpu reports it.", "quantifier": "all outputs of lscpu: all CPU names, all sizes and units", "why_tests_cant": "A test sees the one machine it runs on; the parsing depends on the text printed for every other machine.", "anchors": ["src/block_sizing.cpp:get_cache_size"]}
{"id": "C51", "title": "Number of physical cores", "statement": "get_num_physical_cores() returns the number of physical cores of the machine.", "quantifier": "all numbers of sockets, cores and threads per core, including machines whose cores differ", "why_tests_cant": "A test sees the one machine it runs on, usually with one socket and uniform cores, where the result is right.", "anchors": ["src/block_sizing.cpp:get_num_physical_cores"]}
{"id": "C52", "title": "Block packing functions of the public header", "statement": "pack_ob_A_multiple_buf, pack_ob_B_single_buf, pack_ob_B_parallel and pack_ob_C_multiple_buf copy the block at the given position into the buffer strip by strip, with zeros where a strip exceeds the matrix if padding is requested; each writes exactly the rounded-up block, each position once, and nothing else, in every order of the parallel iterations. unpack_ob_C_multiple_buf writes exactly the part of the block that lies in the matrix, and undoes the packing. Without padding a strip that exceeds the matrix is read out of bounds. pack_test1 packs A in strips of six rows when six divides M, and only then.", "quantifier": "all matrix sizes, block positions, block sizes, register tiles, contents, and interleavings", "why_tests_cant": "Boundary blocks, padding and interleavings of the parallel version form an unbounded family; a stray write beyond the block is not seen by comparing the packed values.", "anchors": ["src/pack_ob.cpp:pack_ob_A_multiple_buf", "src/pack_ob.cpp:pack_ob_B_single_buf", "src/pack_ob.cpp:pack_ob_B_parallel", "src/pack_ob.cpp:pack_ob_C_multiple_buf", "src/pack_ob.cpp:unpack_ob_C_multiple_buf", "src/pack_k_first.cpp:pack_test1"]}
{"id": "C53", "title": "Packing kernels in vector registers pack exactly the panel", "statement": "bli_spackm_haswell_asm_6xk_new and _16xk_new, bli_spackm_armv8a_int_8xk and _12xk, called with their own panel height, kappa = 1, one unit stride and a panel of that leading dimension, copy element (i,j) of the operand to p[j*height+i] for every row i and every j<k, write nothing else, read no element outside the operand panel, and end in the same state as the plain packing loops the other builds use in their place.", "quantifier": "all depths k (including those not divisible by 8 or 4, and 0), all strides with one of them 1, all operands, all positions, all prior register contents", "why_tests_cant": "Shuffle immediates, lane extractions and edge loops must be right for every residue of k and every stride; an over-read by a vector load is invisible to a test that compares packed values.", "anchors": ["src/kernels/haswell/blis_pack_haswell.cpp:bli_spackm_haswell_asm_6xk_new", "src/kernels/haswell/blis_pack_haswell.cpp:bli_spackm_haswell_asm_16xk_new", "src/kernels/armv8/blis_pack_armv8.cpp:bli_spackm_armv8a_int_8xk", "src/kernels/armv8/blis_pack_armv8.cpp:bli_spackm_armv8a_int_12xk", "include/packing.h:A_packing_kernel", "include/packing.h:B_packing_kernel"]}
{"id": "C54", "title": "Packing kernels in vector registers honour all their arguments", "statement": "Each of these kernels stores kappa times element (i,j) of the operand at p[j*ldp+i] for every i below the row count it is given and every j<k, for any row count up to the panel height, any kappa, any strides and any leading dimension of the panel.", "quantifier": "all row counts, depths, values of kappa, strides and leading dimensions", "why_tests_cant": "The library only uses one combination of the arguments; the others are part of the interface but not exercised.", "anchors": ["src/kernels/haswell/blis_pack_haswell.cpp:bli_spackm_haswell_asm_6xk_new", "src/kernels/haswell/blis_pack_haswell.cpp:bli_spackm_haswell_asm_16xk_new", "src/kernels/armv8/blis_pack_armv8.cpp:bli_spackm_armv8a_int_8xk", "src/kernels/armv8/blis_pack_armv8.cpp:bli_spackm_armv8a_int_12xk"]}
{"id": "C55", "title": "No integer overflow for addressable sizes in the M-first and N-first schedules", "statement": "If the padded operand sizes M_padded*K, K*N_padded and M_padded*N_padded are below 2^31 then no index computed by an M-first or N-first product, with or without accumulation into C, overflows a 32-bit int.", "quantifier": "all M, N, K, all thread counts p>=1, all positive tile sizes m_c, k_c, n_c with m_r | m_c and n_r | n_c, both values of beta==0", "why_tests_cant": "Overflow needs gigabyte matrices, or small matrices with particular tile sizes and thread counts.", "anchors": ["src/cake_sgemm_m_first.cpp:schedule_MKN", "src/cake_sgemm_n_first.cpp:schedule_NKM", "src/pack_m_first.cpp", "src/pack_n_first.cpp", "src/unpack_m_first.cpp", "src/unpack_n_first.cpp", "src/pack_helper.cpp", "src/block_sizing.cpp:init_block_dims"]}
{"id": "C56", "title": "The convolution example computes a convolution", "statement": "For a filter bank of Cout filters with Cin x Hf x Wf elements, an input of Cin x Hin x Win elements with Hin >= (Hout-1)*s+Hf and Win >= (Wout-1)*s+Wf, and an output of Cout x Hout x Wout elements, the convolution call adds to every output element (co,ho,wo) the sum over c, hf, wf of filter(co,c,hf,wf)*input(c,ho*s+hf,wo*s+wf), each tap once, and changes nothing else; the matrix that im_2_col builds turns the same sum into a matrix product.", "quantifier": "all channel counts, filter sizes, input and output sizes, strides s>=1, thread counts and tile sizes", "why_tests_cant": "The example runs one set of sizes; the result depends on divisibility of the output width and channel count, on the filter size and on the stride.", "anchors": ["examples/cake_conv.cpp:cake_sconv", "examples/cake_conv.cpp:schedule_KMN_conv", "examples/cake_conv.cpp:pack_filters", "examples/cake_conv.cpp:get_cache_dims_conv", "examples/cake_conv.cpp:im_2_col"]}
{"id": "C57", "title": "The matrix-vector example computes alpha*A*x + beta*y", "statement": "For an M x K matrix A stored column by column, a vector x of K elements and a result y of M elements, in objects of exactly these sizes, the matrix-vector call computes alpha*A*x + beta*y for every alpha and beta, without undefined behaviour, changing nothing but y; the result does not depend on the number of threads or the tile sizes; and the program's checker of the result is itself well defined.", "quantifier": "all M, K >= 1, thread counts, tile sizes, alpha, beta, contents, and contents of uninitialised memory", "why_tests_cant": "The example runs one size; the outcome depends on what malloc leaves in a field that is never set, on divisibility of M by 8, and on thread interleavings in the checker.", "anchors": ["examples/cake_gemv.cpp:cake_sgemv", "examples/cake_gemv.cpp:schedule_mvm", "examples/cake_gemv.cpp:init_block_dims_mvm", "examples/cake_gemv.cpp:get_cache_dims_mvm", "examples/cake_gemv.cpp:cake_sgemv_haswell_8x8_col", "examples/cake_gemv.cpp:cake_sgemv_checker"]}
{"id": "C58", "title": "The default online call computes the product", "statement": "A call of the online entry point with a caller's context or NULL, with tile sizes computed from the cache sizes or given by the caller, on operands in objects of exactly M*K, K*N and M*N elements, gets to its product on every supported machine, leaves C = A*B without undefined behaviour, changes nothing but C, leaves no object behind, and leaves the context fit for the next call.", "quantifier": "all M, N, K >= 1, thread counts, machines (cache sizes, cores, architecture), schedules requested, alpha, beta, floating-point rounding in the tile computation, and contents", "why_tests_cant": "The tile sizes depend on the machine the test runs on, and reads beyond the operands usually go unnoticed.", "anchors": ["src/cake_sgemm.cpp:cake_sgemm_online", "src/block_sizing.cpp:init_block_dims", "src/block_sizing.cpp:get_cache_dims_3"]}
{"id": "C59", "title": "The library's own test run is well defined and reports failures", "statement": "The library's test function runs every product entry point on its list of sizes without undefined behaviour, counts a failure exactly if a product is wrong, and its return value tells the caller whether any failed.", "quantifier": "all machines, core counts, contents of the random matrices, rounding directions in the tile computation, tolerances of the comparison", "why_tests_cant": "This is the test itself: it cannot observe its own out-of-bounds reads, and its return value is what a test harness would look at.", "anchors": ["src/util.cpp:run_tests", "src/util.cpp:cake_sgemm_checker", "src/util.cpp:mat_equals"]}
{"id": "C60", "title": "Calls made at the same time do not disturb each other", "statement": "When several threads of a program call product entry points at the same time, sharing or overlapping only their inputs A and B and possibly the context, no call has undefined behaviour that it would not have alone, every C is what its call alone would have produced, the inputs are unchanged, and nothing else is written; finitely many calls that can each end can end together.", "quantifier": "any number of concurrent calls, all entry points, arguments, machines, interleavings of their steps and of their worker threads, memory contents and pointer overlaps of inputs", "why_tests_cant": "Interleavings cannot be enumerated by running, and a race on a context field usually goes unnoticed.", "anchors": ["src/cake_sgemm.cpp:cake_sgemm", "src/cake_sgemm.cpp:cake_sgemm_online", "src/cake_sgemm.cpp:cake_sgemm_2d", "src/block_sizing.cpp:get_cache_dims_3"]}
{"id": "C61", "title": "Operands may overlap", "statement": "A product entry point stores the product of what A and B held before the call even if A and B overlap each other, or C overlaps A or B (in-place update), and changes nothing but C.", "quantifier": "all ways the three matrices can lie in memory relative to each other, all sizes, contents, schedules and thread counts", "why_tests_cant": "Whether an overwritten input element is read again depends on sizes, tile sizes and the interleaving of threads.", "anchors": ["src/cake_sgemm.cpp:cake_sgemm", "src/cake_sgemm.cpp:cake_sgemm_online", "src/cake_sgemm_k_first.cpp:schedule_KMN_online"]}
{"id": "C62", "title": "An element of the result depends only on its row of A and its column of B", "statement": "In any two calls of a product entry point with the same arguments and context (beta = 0, or K-first; operands not pre-packed) that end normally, C[i][j] is bit-for-bit the same if row i of A and column j of B are the same: other rows and columns (NaN or infinity in them included), old contents of C, memory allocated by the library, padding and thread interleaving have no influence.", "quantifier": "all sizes, contents of both memories, arithmetic (including non-associative and with NaN), schedules, tile sizes, thread counts, interleavings; entry points cake_sgemm, cake_sgemm_online, cake_sgemm_2d, cake_sgemm_2d_small", "why_tests_cant": "It compares all pairs of executions on all pairs of memories; a leak of one element into another tile shows only for particular contents such as NaN.", "anchors": ["src/cake_sgemm.cpp:cake_sgemm", "src/cake_sgemm.cpp:cake_sgemm_online", "src/cake_sgemm.cpp:cake_sgemm_2d", "src/cake_sgemm.cpp:cake_sgemm_2d_small"]}
{"id": "C63", "title": "No 32-bit overflow in the on-the-fly, 2-D and small-matrix products", "statement": "A call of cake_sgemm_online, cake_sgemm_2d or cake_sgemm_2d_small on operands that fit an int when padded to whole register tiles (rows x K, K x columns, rows x columns below 2^31) evaluates no int expression that overflows, is negative where an index is meant, or divides by zero.", "quantifier": "all sizes, thread counts, core grids, register tiles and tile sizes (user supplied ones included)", "why_tests_cant": "Overflow needs operands or tiles of gigabytes; which index overflows depends on the combination of sizes, tiles and grid.", "anchors": ["src/cake_sgemm.cpp:cake_sgemm_online", "src/cake_sgemm.cpp:cake_sgemm_2d", "src/cake_sgemm_k_first.cpp:schedule_KMN_online", "src/cake_sgemm_k_first.cpp:schedule_KMN_2d", "src/block_sizing.cpp:init_block_dims_2d", "src/cake_sgemm.cpp:cake_sgemm_2d_small", "src/cake_sgemm_k_first.cpp:schedule_KMN_2d_small", "src/block_sizing.cpp:init_block_dims_2d_small"]}
{"id": "C64", "title": "The tile-size search proposes new usable tiles and returns", "statement": "Every tile that get_candidate proposes lies between one register tile and one core's share of the operands (depth at most K), is a multiple of the register tile if the search started with one, and has not been proposed before; and every call returns.", "quantifier": "all sizes, core grids, register tiles, current points, sets of tiles already visited, sequences of random numbers", "why_tests_cant": "The loop is driven by random numbers and by a set that grows over the whole search; that it never returns from some state on cannot be observed by running it.", "anchors": ["src/autotune_sa.cpp:get_candidate", "src/autotune_sa.cpp:get_random_step", "src/autotune_sa.cpp:clamp_val_int"]}
{"id": "C65", "title": "Random numbers stay in their documented ranges", "statement": "Whatever rand() returns and however operations are rounded, rand_gen returns a number in (0,1], rand_init stores numbers in [-1,1], and normalRandom returns a finite number of magnitude at most 7.", "quantifier": "all values of rand() and RAND_MAX below 2^31, all monotone roundings of single and double precision with the standard error bound, any accuracy of cos and log within 5%", "why_tests_cant": "The critical values (0 and RAND_MAX, where log(0) or a value above 1 would arise) have probability 2^-31 each, and the claim is about every rounding mode.", "anchors": ["src/util.cpp:rand_gen", "src/util.cpp:rand_init", "src/util.cpp:normalRandom"]}
{"id": "C66", "title": "Refused memory does not lead to undefined behaviour", "statement": "If the system refuses any of the memory that a multiply call asks for, the call either ends the process with an error or computes the product as always; it never has undefined behaviour.", "quantifier": "all entry points, sizes, thread counts, schedules, tile sizes, and all subsets of the allocations that the system refuses", "why_tests_cant": "Any subset of the allocations may be refused, and whether a null pointer is ever accessed depends on how many cores take part; tests cannot enumerate the subsets for all sizes.", "anchors": ["src/cake_sgemm.cpp:cake_sgemm", "src/cake_sgemm.cpp:cake_sgemm_online", "src/cake_sgemm.cpp:cake_sgemm_2d", "src/cake_sgemm.cpp:cake_sgemm_2d_small", "src/block_sizing.cpp:get_cache_dims"]}
{"id": "C67", "title": "No integer overflow with the default tile sizes", "statement": "A multiply call that lets the library choose the tile sizes, with at most as many threads as the machine has cores, performs no int operation that overflows or divides by zero - neither in the choice of schedule and tile sizes nor in packing, blocking and unpacking - as long as A, B and C, padded to whole register tiles, have fewer than 2^31 elements each; and it leaves the product in C.", "quantifier": "all matrix sizes, thread counts up to the number of cores, cache sizes and core counts the library can detect, register tiles, all roundings of the floating-point tile computation", "why_tests_cant": "The tile sizes come from floating-point formulas over cache sizes and thread count, and overflow shows only for operands of gigabytes; no set of machines and sizes that a test could run covers the formulas.", "anchors": ["src/block_sizing.cpp:get_cache_dims", "src/block_sizing.cpp:derive_schedule", "src/block_sizing.cpp:init_block_dims", "src/cake_sgemm.cpp:cake_sgemm"]}
{"id": "C68", "title": "The remaining functions of the public header do what their names say", "statement": "The functions that the public header declares beside the multiply calls compute the product as well: `schedule` with its flags for sparse and for small operands, the three schedules for small operands, `cake_gemm_small` when it returns true, and the K-first schedule that works on a C that is not packed. After each of them C is the old C plus A times B; they access only the operands they are given and have no undefined behaviour.", "quantifier": "all matrix sizes, thread counts, tile sizes, register tiles and kernels, schedules, flag combinations, memory contents and interleavings", "why_tests_cant": "The project's tests never call these functions; whether they access memory outside the packed operands depends on the combination of sizes, and a run that reads beyond a buffer often still ends with a plausible result.", "anchors": ["src/cake_sgemm.cpp:schedule", "src/cake_sgemm.cpp:cake_gemm_small", "src/cake_sgemm_small.cpp:schedule_KMN_small", "src/cake_sgemm_small.cpp:schedule_MKN_small", "src/cake_sgemm_small.cpp:schedule_NKM_small", "src/cake_sgemm_k_first.cpp:schedule_KMN_C_unpacked"]}
{"id": "C69", "title": "Relations between operands carry over to results: order, sign, powers of two", "statement": "For two calls with the same arguments (beta = 0, or K-first): any relation between the entries of row i of the two matrices A and of column j of the two matrices B that one multiply-add keeps, holds between the two results C[i][j]. In particular, in rounded arithmetic with or without fused multiply-add: for non-negative matrices larger operands give larger or equal results; changing the sign of A changes the sign of C, and scaling rows of A and columns of B by powers of two scales C, exactly and bit for bit, whenever rounding itself commutes with the factor.", "quantifier": "all sizes, contents of the memories, arithmetics (no law assumed beyond the hypothesis), schedules, tile sizes, thread counts, interleavings; entry points cake_sgemm, cake_sgemm_online, cake_sgemm_2d, cake_sgemm_2d_small", "why_tests_cant": "A statement about all pairs of executions on all pairs of matrices; a schedule that added terms in an order depending on the data, or twice, would break it only for some contents.", "anchors": ["src/cake_sgemm.cpp:cake_sgemm", "src/cake_sgemm.cpp:cake_sgemm_online", "src/cake_sgemm.cpp:cake_sgemm_2d", "src/cake_sgemm.cpp:cake_sgemm_2d_small"]}
{"id": "C70", "title": "Exactly when equal rows of A give equal rows of C, and equal columns of B equal columns of C", "statement": "Two equal rows of A give bit-for-bit equal rows of C, in any arithmetic, if K fits in one block of depth or all M rows lie in one block of rows (p * m_c); always for the M-first schedule and for cake_sgemm_2d_small. Two equal columns of B give equal columns of C if K fits in one block of depth or N <= n_c; always for the N-first schedule and for cake_sgemm_2d_small. (The block of depth is k_c, and p * k_c for M-first and N-first.) In single precision with fused multiply-add these conditions are necessary: in every other case there are operands with equal rows (columns) and different results.", "quantifier": "all M, N, K, thread counts, tile sizes and schedules; all memories and interleavings; all entry points", "why_tests_cant": "Whether two equal rows get different results depends on the block they fall in and on the last bits of the entries; tests compare with a tolerance.", "anchors": ["src/cake_sgemm_k_first.cpp:schedule_KMN", "src/cake_sgemm_m_first.cpp:schedule_MKN", "src/cake_sgemm_n_first.cpp:schedule_NKM", "src/cake_sgemm.cpp:cake_sgemm", "src/cake_sgemm.cpp:cake_sgemm_online", "src/cake_sgemm.cpp:cake_sgemm_2d", "src/cake_sgemm.cpp:cake_sgemm_2d_small"]}
{"id": "C71", "title": "Multiplying by rows or columns of the identity copies exactly", "statement": "If row i of A is (0 ... 0 1 0 ... 0) with the 1 at k, then C[i][j] is exactly B[k][j], and if column j of B is such a vector then C[i][j] is exactly A[i][k], as long as the entries that are multiplied by zero are finite floats: no rounding, no dependence on tile sizes, schedule or thread count. Identity, permutation and selection matrices therefore copy.", "quantifier": "all sizes, contents of the memories, arithmetics (no law assumed beyond the hypothesis), schedules, tile sizes, thread counts, interleavings; entry points cake_sgemm, cake_sgemm_online, cake_sgemm_2d, cake_sgemm_2d_small", "why_tests_cant": "Tests compare random products with a tolerance; exactness for every size, position and schedule is a statement about all inputs.", "anchors": ["src/cake_sgemm.cpp:cake_sgemm", "src/cake_sgemm.cpp:cake_sgemm_online", "src/cake_sgemm.cpp:cake_sgemm_2d", "src/cake_sgemm.cpp:cake_sgemm_2d_small"]}
{"id": "C72", "title": "A NaN in an operand reaches every element of C that depends on it", "statement": "If row i of A or column j of B has a NaN (a value that makes every multiply-add it enters such a value), C[i][j] is a NaN: no term is skipped, also not in ragged blocks, and none is overwritten by later ones. Together with C62 the NaNs in C are caused by their own row and column only.", "quantifier": "all sizes, contents of the memories, arithmetics (no law assumed beyond the hypothesis), schedules, tile sizes, thread counts, interleavings; entry points cake_sgemm, cake_sgemm_online, cake_sgemm_2d, cake_sgemm_2d_small", "why_tests_cant": "Tests do not use NaN; a kernel that skips zero operands or drops a term of a ragged block gives a plausible finite number.", "anchors": ["src/cake_sgemm.cpp:cake_sgemm", "src/cake_sgemm.cpp:cake_sgemm_online", "src/cake_sgemm.cpp:cake_sgemm_2d", "src/cake_sgemm.cpp:cake_sgemm_2d_small"]}
{"id": "C73", "title": "A call does exactly the multiply-adds its matrices need, whatever the tuning", "statement": "A call does M' * N' * K multiply-adds, where M' and N' are M and N rounded up to the register tile: no block is computed twice or for nothing. The number does not depend on the number of threads, the tile sizes, the schedule or on who packs the operands, and is M * N * K when the register tile divides C.", "quantifier": "all M, N, K, thread counts, register tiles, valid tile sizes, schedules, packing flags, alpha, beta; entry points cake_sgemm, cake_sgemm_online, cake_sgemm_2d, cake_sgemm_2d_small", "why_tests_cant": "The result is the same if a zero block is multiplied or a whole panel is computed and thrown away; tests look at results. The count is a statement about all sizes and tilings.", "anchors": ["src/cake_sgemm.cpp:cake_sgemm", "src/cake_sgemm.cpp:cake_sgemm_online", "src/cake_sgemm.cpp:cake_sgemm_2d", "src/cake_sgemm.cpp:cake_sgemm_2d_small", "src/cake_sgemm_k_first.cpp:schedule_KMN", "src/cake_sgemm_m_first.cpp:schedule_MKN", "src/cake_sgemm_n_first.cpp:schedule_NKM"]}
{"id": "C74", "title": "The work is spread evenly over the threads", "statement": "With p threads no thread has to do more multiply-adds than the least possible maximum when whole strips of m_r rows are dealt out: ceil(ceil(M/m_r)/p) strips. No thread beyond p is used.", "quantifier": "all M, N, K, thread counts, register tiles, valid tile sizes, schedules, packing flags, alpha, beta; entry points cake_sgemm, cake_sgemm_online, cake_sgemm_2d, cake_sgemm_2d_small", "why_tests_cant": "Results do not depend on who computes them; an idle core shows only as time.", "anchors": ["src/cake_sgemm.cpp:cake_sgemm", "src/cake_sgemm.cpp:cake_sgemm_online", "src/cake_sgemm.cpp:cake_sgemm_2d", "src/cake_sgemm.cpp:cake_sgemm_2d_small", "src/cake_sgemm_k_first.cpp:schedule_KMN", "src/cake_sgemm_m_first.cpp:schedule_MKN", "src/cake_sgemm_n_first.cpp:schedule_NKM", "src/cake_sgemm_2d.cpp:schedule_KMN_2d"]}
{"id": "C75", "title": "Memory a call allocates", "statement": "K-first allocates room for A and for B with sides rounded up to register tiles (unless the caller packed them) and one tile of C per thread; M-first and N-first allocate room for all of C instead of the tiles; cake_sgemm_online allocates p*m_c*k_c + k_c*n_c + p*m_c*n_c floats whatever the sizes of the matrices; cake_sgemm_2d one block of A, one of B and p tiles of C; cake_sgemm_2d_small one slice of A, one of B and p tiles of C.", "quantifier": "all M, N, K, thread counts, register tiles, valid tile sizes, schedules, packing flags, alpha, beta; entry points cake_sgemm, cake_sgemm_online, cake_sgemm_2d, cake_sgemm_2d_small", "why_tests_cant": "Tests do not measure memory, and a few sizes say nothing about growth.", "anchors": ["src/cake_sgemm.cpp:cake_sgemm", "src/cake_sgemm.cpp:cake_sgemm_online", "src/cake_sgemm.cpp:cake_sgemm_2d", "src/cake_sgemm.cpp:cake_sgemm_2d_small", "src/pack_helper.cpp:cake_sgemm_packed_A_size", "src/pack_helper.cpp:cake_sgemm_packed_B_size", "src/pack_helper.cpp:cake_sgemm_packed_C_size"]}
{"id": "C76", "title": "A call reads each operand element once and writes each result once", "statement": "cake_sgemm reads every element of A and of B that it packs exactly once from the caller's arrays, and nothing beyond the M*K and K*N elements. It writes every element of C exactly once and nothing else of the array. It reads the old C once per element when it adds to it (M-first and N-first with non-zero beta) and never otherwise.", "quantifier": "all M, N, K, thread counts, register tiles, valid tile sizes, schedules, packing flags, alpha, beta", "why_tests_cant": "Reading an operand twice or writing partial results into C first gives the same result; a test sees only the final contents.", "anchors": ["src/cake_sgemm.cpp:cake_sgemm", "src/pack_k_first.cpp:pack_A_single_buf_k_first", "src/pack_k_first.cpp:pack_B_k_first", "src/pack_m_first.cpp:pack_A_single_buf_m_first", "src/pack_m_first.cpp:pack_B_m_first", "src/pack_n_first.cpp:pack_A_single_buf_n_first", "src/pack_n_first.cpp:pack_B_n_first", "src/cake_sgemm_k_first.cpp:schedule_KMN", "src/unpack_m_first.cpp:unpack_C_single_buf_m_first", "src/unpack_n_first.cpp:unpack_C_single_buf_n_first"]}
{"id": "C77", "title": "Traffic of the products that do not keep packed copies", "statement": "cake_sgemm_online and cake_sgemm_2d read A once per column of blocks of C and B once per row of blocks (rows rounded up to the register tile), less the blocks kept when the walk over the blocks turns: the first block of every further column for A, the first block of every further row of a column for B. cake_sgemm_2d_small reads A and B once. All three write every element of C exactly once, write nothing else of C, and never read C.", "quantifier": "all M, N, K, thread counts, grids, register tiles and valid tile sizes", "why_tests_cant": "A packing that is repeated needlessly, or a result written in several passes, gives the same C; only the number of accesses differs.", "anchors": ["src/cake_sgemm.cpp:cake_sgemm_online", "src/cake_sgemm.cpp:cake_sgemm_2d", "src/cake_sgemm.cpp:cake_sgemm_2d_small", "src/cake_sgemm_k_first.cpp:schedule_KMN_online", "src/cake_sgemm_k_first.cpp:schedule_KMN_2d", "src/cake_sgemm_k_first.cpp:schedule_KMN_2d_small"]}
{"id": "C78", "title": "Exactly when transposed operands in the other order give the transposed result, and A times its transpose a symmetric one", "statement": "Multiplying the transposed matrices in the other order (as a caller with column-major data does) gives bit for bit the transposed product, in any arithmetic whose multiply-add treats its two factors alike, if K fits in one block of depth or every row and column falls in blocks that the two calls walk alike: for K-first, the online product and cake_sgemm_2d, when the height of the block of rows of one call equals the width of the block of columns of the other, or the dimension fits in both; M-first against N-first in the same way; M-first against itself when each dimension fits in the block of columns, N-first when it fits in the block of rows; cake_sgemm_2d_small always. In particular A times its own transpose is bit for bit symmetric for K-first, online and cake_sgemm_2d exactly if K is one block of depth, or the blocks of C are square, or all of C is one block; for M-first exactly if K <= p * k_c or M <= n_c; for N-first exactly if K <= p * k_c or M <= p * m_c. In single precision with fused multiply-add these conditions are necessary: otherwise there are operands with a different result.", "quantifier": "all M, N, K, thread counts, tile sizes and schedules; all memories and interleavings; all entry points", "why_tests_cant": "Whether C[i][j] and C[j][i] differ depends on the blocks the two elements fall in and on the last bits of the entries; tests compare with a tolerance.", "anchors": ["src/cake_sgemm_k_first.cpp:schedule_KMN", "src/cake_sgemm_m_first.cpp:schedule_MKN", "src/cake_sgemm_n_first.cpp:schedule_NKM", "src/cake_sgemm.cpp:cake_sgemm", "src/cake_sgemm.cpp:cake_sgemm_online", "src/cake_sgemm.cpp:cake_sgemm_2d", "src/cake_sgemm.cpp:cake_sgemm_2d_small"]}
{"id": "C79", "title": "The inner-product kernel of the matrix-vector example adds each row times the vector", "statement": "cake_sgemv_haswell_inner_1x64x1(A, B, C, m, k, K) adds to C[l], for every l < m, the first k elements of row l of A (rows K elements apart) times the vector B, and accesses nothing else.", "quantifier": "all m, k, K with k <= K; all A, B, C, readable or not beyond their end", "why_tests_cant": "The kernel is not called by the example, so no test reaches it; whether the unwritten elements of the result matter depends on what happens to be in a register.", "anchors": ["examples/cake_gemv.cpp:cake_sgemv_haswell_inner_1x64x1"]}
{"id": "C80", "title": "The benchmark example measures and checks a product", "statement": "Run with M, K, N, p and a number of trials, the benchmark example performs that many products of random matrices without undefined behaviour and then reports whether the result agrees with the plain product; with missing arguments it prints a message and stops.", "quantifier": "all command lines of non-negative numbers; all contents of the matrices; all schedules of the threads; all arithmetics and comparisons", "why_tests_cant": "The flush loop before each product reads memory nobody wrote and lets threads race on shared variables; it usually appears to work, and whether a compiler may break it is not observable from one run.", "anchors": ["examples/cake_sgemm_test.cpp:main", "examples/cake_gemv.cpp:main"]}
{"id": "C81", "title": "clamp_val returns the nearest value within the limits", "statement": "clamp_val(d, min, max) returns a number between min and max that is as near to d as any such number, and d itself if it is between them.", "quantifier": "all doubles d, min and max", "why_tests_cant": "The claim ranges over all doubles, with NaN and limits out of order among them; a sample shows neither that no nearer value exists nor that these cases are the only exceptions.", "anchors": ["src/block_sizing.cpp:clamp_val", "include/tiling.h:clamp_val"]}
