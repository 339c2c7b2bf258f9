/-
32-bit `int` arithmetic of the M-first and N-first paths (`sch = MKN`, `sch = NKM`), in the style of
`Verif.Model.IntRange`: every `int` expression that `init_block_dims`, the packed-size functions, the
packing of A, B and C, `schedule_MKN`/`schedule_NKM` and the unpacking evaluate, as syntax trees, in the
loops in which the code evaluates them. `Verif.Props.IntRangeMN` checks that the index expressions used
here are the ones in the model.

Left out: conditions such as `n == Nb - 1` and `core == p_l - 1`, the serpentine steps
`m_start + m_ind*m_inc`, whose values lie between `-1` and a block or core count that is itself in the
list; pointer and `size_t` arithmetic; the casts of `ceil(...)`.
-/
import Verif.Model.IntRange
import Verif.Model.MFirst
import Verif.Model.NFirst

namespace Cake
open List

/-- `(M / m_c)*m_c + m_c1`: `src/block_sizing.cpp:544`, `src/pack_helper.cpp:19,65` (with `mr_rem*mr` for
`m_c1`). -/
def mPaddedME (M m_c m_c1 : E) : E := M / m_c * m_c + m_c1

/-- `(M / (p*m_c))*(p*m_c) + m_c1`: `src/block_sizing.cpp:580`. -/
def mPaddedNE (M p m_c m_c1 : E) : E := M / (p * m_c) * (p * m_c) + m_c1

/-- The parts of `init_block_dims` that the cases MKN and NKM share
(`src/block_sizing.cpp:519-541,556-578`). For `p_l = 0`, that is without a ragged K block,
`k_rem - k_c1*(p_l-1)` is `0 - 0*(-1)`, which this datatype cannot write and which cannot overflow. -/
def dimsIntsK (N K p n_r : Nat) (x : BlkDims) : List E :=
  [(K : E) % ((p : E) * x.k_c), (N : E) % x.n_c, (x.k_c1 : E), (x.p_l : E), (x.nr_rem : E) * n_r,
   (K : E) / ((p : E) * x.k_c) + x.k_pad.toNat, (N : E) / x.n_c + x.n_pad.toNat,
   nPaddedE N x.n_c x.n_c1] ++
  if x.p_l = 0 then [] else [(x.k_rem : E) - (x.k_c1 : E) * ((x.p_l : E) - 1)]

/-- `init_block_dims`, case MKN (`src/block_sizing.cpp:517-551`). -/
def dimsIntsM (M N K p m_r n_r : Nat) (x : BlkDims) : List E :=
  [(M : E) % x.m_c, (x.mr_rem : E) * m_r, (M : E) / x.m_c + x.m_pad.toNat,
   mPaddedME M x.m_c x.m_c1] ++ dimsIntsK N K p n_r x

/-- `init_block_dims`, case NKM (`src/block_sizing.cpp:554-587`). -/
def dimsIntsN (M N K p m_r n_r : Nat) (x : BlkDims) : List E :=
  [(M : E) % ((p : E) * x.m_c), (x.mr_rem : E) * m_r, (M : E) / ((p : E) * x.m_c) + x.m_pad.toNat,
   mPaddedNE M p x.m_c x.m_c1] ++ dimsIntsK N K p n_r x

/-- The packed sizes, M-first (`src/pack_helper.cpp:17-21,35,41-46,63-67,82-86`). -/
def sizeIntsM (M N K m_r : Nat) (x : BlkDims) : List E :=
  let Mp := mPaddedME M x.m_c ((x.mr_rem : E) * m_r)
  [Mp * K, (K : E) * nPaddedE N x.n_c x.n_c1, Mp * nPaddedE N x.n_c x.n_c1]

/-- The packed sizes, N-first (`src/pack_helper.cpp:23-27,35,41-46,69-73,82-86`). -/
def sizeIntsN (M N K p m_r : Nat) (x : BlkDims) : List E :=
  let Mp := mPaddedE M p m_r x.m_c x.mr_rem
  [Mp * K, (K : E) * nPaddedE N x.n_c x.n_c1, Mp * nPaddedE N x.n_c x.n_c1]

/-- `A_offset + core*k_c_x`, `row` being `m*m_c` or `m*p*m_c`. `src/pack_m_first.cpp:46,64`,
`src/pack_n_first.cpp:47,65`. -/
def aOffSE (row K k p k_c core k_c_x : E) : E := row * K + k * p * k_c + core * k_c_x

/-- One core's share of `pack_A`. `src/pack_m_first.cpp:48-67`, `src/pack_n_first.cpp:49-68`. -/
def packACore (row : E) (M K k p m_r k_c core k_c_x m_c_t k_c_t A_p_offset : Nat) : List E :=
  [aOffSE row K k p k_c core k_c_x, (A_p_offset : E) + (core : E) * k_c_x * m_c_t, row,
    (core : E) + 1] ++ obAInts M K row.val 0 m_c_t k_c_t m_r

/-- `pack_A_single_buf_m_first`. `src/pack_m_first.cpp:28-70`. -/
def packAIntsM (M K p m_r : Nat) (x : BlkDims) : List E :=
  (loopS (range x.Kb) (fun (k s : Nat) =>
    let last := k == x.Kb - 1 && x.k_pad
    let p_used := if last then x.p_l else p
    let k_cb : E := if last then (x.k_rem : E) else (p_used : E) * x.k_c
    loopS (range x.Mb) (fun (m A_p_offset : Nat) =>
      let m_c_t := if m == x.Mb - 1 && x.m_pad then x.m_c1 else x.m_c
      ([k_cb, (k : E) + 1, (m : E) + 1, (A_p_offset : E) + k_cb * m_c_t] ++
        (range p_used).flatMap (fun (core : Nat) =>
          let k_c_t := if last then (if core = x.p_l - 1 then x.k_c1_last_core else x.k_c1) else x.k_c
          let k_c_x := if last then x.k_c1 else x.k_c
          packACore ((m : E) * x.m_c) M K k p m_r x.k_c core k_c_x m_c_t k_c_t A_p_offset),
        A_p_offset + k_cb.val * m_c_t)) s) 0).1

/-- `pack_A_single_buf_n_first`; `p*m_c` is evaluated in every iteration. `src/pack_n_first.cpp:29-71`. -/
def packAIntsN (M K p m_r : Nat) (x : BlkDims) : List E :=
  (loopS (range x.Mb) (fun (m s : Nat) =>
    let m_c_t := if m == x.Mb - 1 && x.m_pad then x.m_c1 else p * x.m_c
    loopS (range x.Kb) (fun (k A_p_offset : Nat) =>
      let last := k == x.Kb - 1 && x.k_pad
      let p_used := if last then x.p_l else p
      let k_cb : E := if last then (x.k_rem : E) else (p_used : E) * x.k_c
      ([(p : E) * x.m_c, k_cb, (k : E) + 1, (m : E) + 1, (A_p_offset : E) + k_cb * m_c_t] ++
        (range p_used).flatMap (fun (core : Nat) =>
          let k_c_t := if last then (if core = x.p_l - 1 then x.k_c1_last_core else x.k_c1) else x.k_c
          let k_c_x := if last then x.k_c1 else x.k_c
          packACore (rowE m p x.m_c) M K k p m_r x.k_c core k_c_x m_c_t k_c_t A_p_offset),
        A_p_offset + k_cb.val * m_c_t)) s) 0).1

/-- `pack_ob_B_single_buf`; with `pad_n` the source index is only evaluated for columns below `N`, without
it always, also for the columns beyond `N` of a ragged block. `src/pack_ob.cpp:105-140`. -/
def obBInts (N n1 k_c n_c n_r : Nat) (pad_n : Bool) : List E :=
  (loopS (cfor 0 n_c n_r) (fun (n2 s : Nat) => loopS (range k_c) (fun (i s : Nat) => loopS (range n_r) (fun (j ind_ob : Nat) =>
    ([(n2 : E) + n_r, (i : E) + 1, (j : E) + 1, (ind_ob : E) + 1] ++
      (if pad_n then
        [(n1 : E) + n2 + j] ++ (if n1 + n2 + j ≥ N then [] else [(n2 : E) + i * N + j])
       else [(n2 : E) + i * N + j]), ind_ob + 1)) s) s) 0).1

/-- `B_offset + core*k_c_x*N`. `src/pack_m_first.cpp:119,137`, `src/pack_n_first.cpp:119,137`. -/
def bOffSE (k p k_c N n n_c core k_c_x : E) : E := k * p * k_c * N + n * n_c + core * k_c_x * N

/-- The body of the two block loops of `pack_B`, with `B_p_offset` on entry.
`src/pack_m_first.cpp:103-143`, `src/pack_n_first.cpp:101-141`. -/
def packBBlk (N p n_r : Nat) (x : BlkDims) (n k B_p_offset : Nat) : List E × Nat :=
  let nlast := n == x.Nb - 1 && x.n_pad
  let n_c_t := if nlast then x.n_c1 else x.n_c
  let n1 : E := if nlast then (N : E) - N % x.n_c else (n : E) * x.n_c
  let last := k == x.Kb - 1 && x.k_pad
  let p_used := if last then x.p_l else p
  let k_cb : E := if last then (x.k_rem : E) else (p_used : E) * x.k_c
  ([n1, k_cb, (n : E) + 1, (k : E) + 1, (B_p_offset : E) + k_cb * n_c_t] ++
    (range p_used).flatMap (fun (core : Nat) =>
      let k_c_t := if last then (if core = x.p_l - 1 then x.k_c1_last_core else x.k_c1) else x.k_c
      let k_c_x := if last then x.k_c1 else x.k_c
      [bOffSE k p x.k_c N n x.n_c core k_c_x, (B_p_offset : E) + (core : E) * k_c_x * n_c_t,
        (core : E) + 1] ++ obBInts N n1.val k_c_t n_c_t n_r (last && core == x.p_l - 1)),
    B_p_offset + k_cb.val * n_c_t)

/-- `pack_B_m_first`: `n` outside, `k` inside. `src/pack_m_first.cpp:98-143`. -/
def packBIntsM (N p n_r : Nat) (x : BlkDims) : List E :=
  (loopS (range x.Nb) (fun (n s : Nat) => loopS (range x.Kb) (fun (k s : Nat) => packBBlk N p n_r x n k s) s) 0).1

/-- `pack_B_n_first`: `k` outside, `n` inside. `src/pack_n_first.cpp:98-143`. -/
def packBIntsN (N p n_r : Nat) (x : BlkDims) : List E :=
  (loopS (range x.Kb) (fun (k s : Nat) => loopS (range x.Nb) (fun (n s : Nat) => packBBlk N p n_r x n k s) s) 0).1

/-- `pack_ob_C_single_buf`: with padding the same expressions as in `unpack_ob_C_single_buf` (of the two
tests the code may skip the second; both are listed). `src/pack_ob.cpp:253-288`. -/
def obCInts (M N m1 n1 m2 m_c n_c m_r n_r : Nat) (pad_m pad_n : Bool) : List E :=
  if pad_m || pad_n then unpackInts M N m1 n1 m2 m_c n_c m_r n_r
  else (loopS (cfor 0 n_c n_r) (fun (n2 s : Nat) => loopS (cfor 0 m_c m_r) (fun (m3 s : Nat) =>
    loopS (range m_r) (fun (i s : Nat) => loopS (range n_r) (fun (j ind_ob : Nat) =>
      ([(n2 : E) + n_r, (m3 : E) + m_r, (i : E) + 1, (j : E) + 1, (ind_ob : E) + 1,
        (n2 : E) + m3 * N + i * N + j], ind_ob + 1)) s) s) s) 0).1

/-- `C_offset`, `row` being `m*m_c` or `m*p*m_c`. `src/pack_m_first.cpp:194`, `src/pack_n_first.cpp:203`,
`src/unpack_m_first.cpp:43`, `src/unpack_n_first.cpp:43`. -/
def cOffSE (row N n n_c : E) : E := row * N + n * n_c

/-- `C_p_offset + m*m_c*n_c_t`. `src/pack_m_first.cpp:176,196`, `src/unpack_m_first.cpp:28,45`. -/
def cpME (M_padded n n_c m m_c n_c_t : E) : E := M_padded * n * n_c + m * m_c * n_c_t

/-- `C_p_offset + n*p*m_c*n_c_t` when packing. `src/pack_n_first.cpp:183,205`. -/
def cpNE (N_padded m p m_c n n_c_t : E) : E := N_padded * m * p * m_c + n * p * m_c * n_c_t

/-- `C_p_offset + n*m_c_t*n_c` when unpacking. `src/unpack_n_first.cpp:28,45`. -/
def cpUnNE (N_padded m p m_c n m_c_t n_c : E) : E := N_padded * m * p * m_c + n * m_c_t * n_c

/-- The `int` expressions of `pack_C` (`pack = true`) or `unpack_C` (`pack = false`), M-first.
`src/pack_m_first.cpp:162-199`, `src/unpack_m_first.cpp:16-48`. -/
def cIntsM (pack : Bool) (M N m_r n_r : Nat) (x : BlkDims) : List E :=
  (range x.Nb).flatMap fun (n : Nat) =>
    let nlast := n == x.Nb - 1 && x.n_pad
    let n_c_t := if nlast then x.n_c1 else x.n_c
    let n1 : E := if nlast then (N : E) - N % x.n_c else (n : E) * x.n_c
    [n1, (n : E) + 1, (x.M_padded : E) * n * x.n_c] ++ (range x.Mb).flatMap fun (m : Nat) =>
      let last := m == x.Mb - 1 && x.m_pad
      let m_c_t := if last then x.m_c1 else x.m_c
      let m1 : E := if last then (M : E) - M % x.m_c else (m : E) * x.m_c
      [m1, (m : E) + 1, cOffSE ((m : E) * x.m_c) N n x.n_c, cpME x.M_padded n x.n_c m x.m_c n_c_t] ++
        if pack then obCInts M N m1.val n1.val 0 m_c_t n_c_t m_r n_r last nlast
        else unpackInts M N m1.val n1.val 0 m_c_t n_c_t m_r n_r

/-- The `int` expressions of `pack_C` (`pack = true`) or `unpack_C` (`pack = false`), N-first.
`src/pack_n_first.cpp:168-208`, `src/unpack_n_first.cpp:16-48`. -/
def cIntsN (pack : Bool) (M N p m_r n_r : Nat) (x : BlkDims) : List E :=
  (range x.Mb).flatMap fun (m : Nat) =>
    let last := m == x.Mb - 1 && x.m_pad
    let m_c_t : E := if last then (x.m_c1 : E) else (p : E) * x.m_c
    let m1 : E := if last then (M : E) - M % ((p : E) * x.m_c) else rowE m p x.m_c
    [m_c_t, m1, (m : E) + 1, (x.N_padded : E) * m * p * x.m_c] ++ (range x.Nb).flatMap fun (n : Nat) =>
      let nlast := n == x.Nb - 1 && x.n_pad
      let n_c_t := if nlast then x.n_c1 else x.n_c
      let n1 : E := if nlast then (N : E) - N % x.n_c else (n : E) * x.n_c
      [n1, (n : E) + 1, cOffSE (rowE m p x.m_c) N n x.n_c] ++
        if pack then [cpNE x.N_padded m p x.m_c n n_c_t] ++
          obCInts M N m1.val n1.val 0 m_c_t.val n_c_t m_r n_r last nlast
        else [cpUnNE x.N_padded m p x.m_c n m_c_t.val x.n_c] ++
          unpackInts M N m1.val n1.val 0 m_c_t.val n_c_t m_r n_r

/-- The register-tile loops, with the tile of C inside the packed C.
`src/cake_sgemm_m_first.cpp:100-109`, `src/cake_sgemm_n_first.cpp:100-109`. -/
def regIntsC (a_ind b_ind c_ind : E) (m_r n_r m_c_t n_c_t k_c_t : Nat) : List E :=
  [(n_c_t : E) / n_r, (m_c_t : E) / m_r] ++
  (range (n_c_t / n_r)).flatMap fun (n_reg : Nat) => (range (m_c_t / m_r)).flatMap fun (m_reg : Nat) =>
    [a_ind + (m_reg : E) * m_r * k_c_t, b_ind + (n_reg : E) * k_c_t * n_r,
     c_ind + (n_reg : E) * m_c_t * n_r + (m_reg : E) * m_r * n_r, (n_reg : E) + 1, (m_reg : E) + 1]

/-- `a_ind`, M-first. `src/cake_sgemm_m_first.cpp:96`. -/
def aIndME (k M_padded p k_c m m_c k_cb core m_c_t k_c_x : E) : E :=
  k * M_padded * p * k_c + m * m_c * k_cb + core * m_c_t * k_c_x
/-- `b_ind`, M-first. `src/cake_sgemm_m_first.cpp:97`. -/
def bIndME (n K n_c k p k_c n_c_t core k_c_x : E) : E :=
  n * K * n_c + k * p * k_c * n_c_t + core * k_c_x * n_c_t
/-- `c_ind`, M-first. `src/cake_sgemm_m_first.cpp:98`. -/
def cIndME (n M_padded n_c m m_c n_c_t : E) : E := n * M_padded * n_c + m * m_c * n_c_t
/-- `a_ind`, N-first. `src/cake_sgemm_n_first.cpp:96`. -/
def aIndNE (m p m_c K m_c_t k k_c core k_c_x : E) : E :=
  m * p * m_c * K + m_c_t * k * p * k_c + core * m_c_t * k_c_x
/-- `b_ind`, N-first. `src/cake_sgemm_n_first.cpp:97`. -/
def bIndNE (k p k_c N_padded n n_c k_cb core k_c_x n_c_t : E) : E :=
  k * p * k_c * N_padded + n * n_c * k_cb + core * k_c_x * n_c_t
/-- `c_ind`, N-first. `src/cake_sgemm_n_first.cpp:98`. -/
def cIndNE (m p m_c N_padded m_c_t n n_c : E) : E := m * p * m_c * N_padded + m_c_t * n * n_c

/-- The `int` expressions of `schedule_MKN`. `src/cake_sgemm_m_first.cpp:21-112`. -/
def schedIntsM (K p m_r n_r : Nat) (x : BlkDims) : List E :=
  (range x.Nb).flatMap fun (n : Nat) =>
    let n_c_t := if n == x.Nb - 1 && x.n_pad then x.n_c1 else x.n_c
    [(n : E) + 1] ++ (serp (n % 2 != 0) x.Kb).flatMap fun (k : Nat) =>
      let mdesc := if n % 2 ≠ 0 then (if k % 2 ≠ 0 then false else true)
                   else (if k % 2 ≠ 0 then true else false)
      let last := k == x.Kb - 1 && x.k_pad
      let p_used := if last then x.p_l else p
      let k_cb : E := if last then (x.k_rem : E) else (p_used : E) * x.k_c
      [k_cb, (k : E) + 1] ++ (range x.Mb).flatMap fun (m_ind : Nat) =>
        let m := if mdesc then x.Mb - 1 - m_ind else m_ind
        let m_c_t := if m == x.Mb - 1 && x.m_pad then x.m_c1 else x.m_c
        [(m_ind : E) + 1] ++ (range p_used).flatMap fun (core : Nat) =>
          let k_c_t := if last then (if core = x.p_l - 1 then x.k_c1_last_core else x.k_c1) else x.k_c
          let k_c_x := if last then x.k_c1 else x.k_c
          let a_ind := aIndME k x.M_padded p x.k_c m x.m_c k_cb.val core m_c_t k_c_x
          let b_ind := bIndME n K x.n_c k p x.k_c n_c_t core k_c_x
          let c_ind := cIndME n x.M_padded x.n_c m x.m_c n_c_t
          [(core : E) + 1, a_ind, b_ind, c_ind] ++ regIntsC a_ind b_ind c_ind m_r n_r m_c_t n_c_t k_c_t

/-- The `int` expressions of `schedule_NKM`. `src/cake_sgemm_n_first.cpp:21-112`. -/
def schedIntsN (K p m_r n_r : Nat) (x : BlkDims) : List E :=
  (range x.Mb).flatMap fun (m : Nat) =>
    let m_c_t := if m == x.Mb - 1 && x.m_pad then x.m_c1 else p * x.m_c
    [(m : E) + 1, (p : E) * x.m_c] ++ (serp (m % 2 != 0) x.Kb).flatMap fun (k : Nat) =>
      let ndesc := if m % 2 ≠ 0 then (if k % 2 ≠ 0 then false else true)
                   else (if k % 2 ≠ 0 then true else false)
      let last := k == x.Kb - 1 && x.k_pad
      let p_used := if last then x.p_l else p
      let k_cb : E := if last then (x.k_rem : E) else (p_used : E) * x.k_c
      [k_cb, (k : E) + 1] ++ (range x.Nb).flatMap fun (n_ind : Nat) =>
        let n := if ndesc then x.Nb - 1 - n_ind else n_ind
        let n_c_t := if n == x.Nb - 1 && x.n_pad then x.n_c1 else x.n_c
        [(n_ind : E) + 1] ++ (range p_used).flatMap fun (core : Nat) =>
          let k_c_t := if last then (if core = x.p_l - 1 then x.k_c1_last_core else x.k_c1) else x.k_c
          let k_c_x := if last then x.k_c1 else x.k_c
          let a_ind := aIndNE m p x.m_c K m_c_t k x.k_c core k_c_x
          let b_ind := bIndNE k p x.k_c x.N_padded n x.n_c k_cb.val core k_c_x n_c_t
          let c_ind := cIndNE m p x.m_c x.N_padded m_c_t n x.n_c
          [(core : E) + 1, a_ind, b_ind, c_ind] ++ regIntsC a_ind b_ind c_ind m_r n_r m_c_t n_c_t k_c_t

/-- Every `int` expression of an M-first `cake_sgemm` with the given tile sizes; `accum` says whether
`beta != 0`, when C is packed too. A and B are packed by the call (`packedA = packedB = 0`). -/
def mfirstInts (accum : Bool) (M N K p m_r n_r m_c k_c n_c : Nat) : List E :=
  let x := dimsMKN M N K p m_r n_r m_c k_c n_c
  dimsIntsM M N K p m_r n_r x ++ sizeIntsM M N K m_r x ++ packAIntsM M K p m_r x ++
    packBIntsM N p n_r x ++ (if accum then cIntsM true M N m_r n_r x else []) ++
    schedIntsM K p m_r n_r x ++ cIntsM false M N m_r n_r x

/-- Every `int` expression of an N-first `cake_sgemm` with the given tile sizes; `accum` says whether
`beta != 0`, when C is packed too. A and B are packed by the call (`packedA = packedB = 0`). -/
def nfirstInts (accum : Bool) (M N K p m_r n_r m_c k_c n_c : Nat) : List E :=
  let x := dimsNKM M N K p m_r n_r m_c k_c n_c
  dimsIntsN M N K p m_r n_r x ++ sizeIntsN M N K p m_r x ++ packAIntsN M K p m_r x ++
    packBIntsN N p n_r x ++ (if accum then cIntsN true M N p m_r n_r x else []) ++
    schedIntsN K p m_r n_r x ++ cIntsN false M N p m_r n_r x

end Cake
