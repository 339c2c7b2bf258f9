/-
32-bit `int` arithmetic of `cake_sgemm_online` and `cake_sgemm_2d`: the `int` expressions of the block sizing, the
allocations, the schedule and the unpacking, as in `Verif.Model.IntRange`. Left out: the arguments handed on to the
packing kernels (64-bit there), conditions and serpentine steps as in `Verif.Model.IntRange`, and the choice of tile
sizes from the cache sizes (`Model/OnlineApi`, `Model/TwoDApi`: floating point).
-/
import Verif.Model.IntRange
import Verif.Model.TwoD

namespace Cake
open List

/-! ### `cake_sgemm_online` -/

/-- The `int` expressions of `schedule_KMN_online`. `src/cake_sgemm_k_first.cpp:633-813`. In `regInts 0 0` the first two
indices are `m_reg*m_r*k_c_t` and `n_reg*k_c_t*n_r` with `0 +` in front. -/
def schedOnInts (M N K p m_r n_r : Nat) (x : BlkDims) : List E :=
  (range x.Nb).flatMap fun (n : Nat) =>
    let m_start := if n % 2 ≠ 0 then x.Mb - 1 else 0
    let nlast := n == x.Nb - 1 && x.n_pad
    let n_c_t := if nlast then x.n_c1 else x.n_c
    let n1 : E := if nlast then (N : E) - N % x.n_c else (n : E) * x.n_c
    [n1, (n : E) + 1] ++ (serp (n % 2 != 0) x.Mb).flatMap fun (m : Nat) =>
      let kdesc := if n % 2 ≠ 0 then (if m % 2 ≠ 0 then false else true)
                   else (if m % 2 ≠ 0 then true else false)
      let k_start := if kdesc then x.Kb - 1 else 0
      let last := m == x.Mb - 1 && x.m_pad
      let p_used := if last then x.p_l else p
      let m_cb : E := if last then (m_r : E) * x.mr_rem else (p_used : E) * x.m_c
      let m1 : E := if last then (M : E) - M % ((p : E) * x.m_c) else rowE m p x.m_c
      [m_cb, m1, (m : E) + 1] ++ (serp kdesc x.Kb).flatMap (fun (k : Nat) =>
        let k_c_t := if k == x.Kb - 1 && x.k_pad then x.k_c1 else x.k_c
        [(k : E) + 1] ++
        (if k == k_start && m != m_start then [] else
          (cfor 0 n_c_t n_r).flatMap fun (n2 : Nat) =>
            [n1 + (k : E) * x.k_c * N + n2, (n2 : E) * k_c_t, (n2 : E) + n_r]) ++
        (range p_used).flatMap fun (core : Nat) =>
          let m_c_t := if last then (if core = x.p_l - 1 then x.m_c1_last_core else x.m_c1) else x.m_c
          let m_c_x := if last then x.m_c1 else x.m_c
          [(core : E) + 1, rowE m p x.m_c * K + (k : E) * x.k_c] ++
          (if k == k_start && m == m_start && n != 0 then [] else
            (cfor 0 m_c_t m_r).flatMap fun (m3 : Nat) =>
              [aOffE m p x.m_c K k x.k_c core m_c_x + (m3 : E) * K, (m3 : E) * k_c_t, (m3 : E) + m_r]) ++
          regInts 0 0 m_r n_r m_c_t n_c_t k_c_t) ++
      [rowE m p x.m_c * N + (n : E) * x.n_c] ++ (range p_used).flatMap fun (core : Nat) =>
        let m_c_t := if last then (if core = x.p_l - 1 then x.m_c1_last_core else x.m_c1) else x.m_c
        let m_c_x := if last then x.m_c1 else x.m_c
        [cOffE m p x.m_c N n x.n_c core m_c_x, (core : E) * m_c_x, (core : E) + 1, (x.m_c : E) * x.n_c] ++
        unpackInts M N m1.val n1.val (core * m_c_x) m_c_t n_c_t m_r n_r

/-- Every `int` expression of `cake_sgemm_online` with the given tile sizes; the three products are the sizes of the
buffers (`src/cake_sgemm.cpp:429,436,443`). -/
def onlineInts (M N K p m_r n_r m_c k_c n_c : Nat) : List E :=
  let x := dimsKMN M N K p m_r n_r m_c k_c n_c
  dimsInts M N K p m_r n_r x ++ [(x.m_c : E) * x.k_c, (x.k_c : E) * x.n_c, (x.m_c : E) * x.n_c] ++
    schedOnInts M N K p m_r n_r x

/-! ### `cake_sgemm_2d` -/

/-- `(x % r) ? (x + (r - (x % r))) : x`. `src/block_sizing.cpp:659-660,706`. -/
def roundUpE (x r : Nat) : E := if x % r ≠ 0 then (x : E) + ((r : E) - (x : E) % r) else x

/-- The `int` expressions of `fit2d`. `src/block_sizing.cpp:686-699,709-722`. -/
def fit2dInts (padded pm m_c mr : Nat) : List E :=
  [(pm : E) * mr] ++
  if padded = pm * mr then [] else [(pm : E) * m_c] ++
    if padded < pm * m_c then [(padded : E) / pm] ++
      (if padded / pm < mr then [(padded : E) / mr] else
        [((padded / pm : Nat) : E) % mr, roundUpE (padded / pm) mr])
    else []

/-- The `int` expressions of one side of the grid: `T` the length of the operand, `q` the number of cores along it, `t`
the tile, `r` the register tile. `src/block_sizing.cpp:728-740,760-769` (rows), `745-757` (columns). -/
def sideInts (T q r t rem per l : Nat) (pad : Bool) : List E :=
  [(T : E) % ((q : E) * t), rem, per, (per : E) * r, ((per : E) - ((l : E) * per - rem)) * r,
   (T : E) / ((q : E) * t) + pad.toNat, (r : E) * rem + (T : E) / ((q : E) * t) * q * t]

/-- The `int` expressions of `init_block_dims_2d`, `x` being the result. `m_r*n_r` and `m_r + n_r` are in line 663.
`src/block_sizing.cpp:641-769`. -/
def dims2dInts (M N K p m_r n_r pn m_c : Nat) (x : BlkDims2) : List E :=
  let f := fit2d (roundUpC M m_r) (p / pn) m_c m_r
  [(p : E) / pn, (M : E) % m_r, roundUpE M m_r, (N : E) % n_r, roundUpE N n_r, (m_r : E) * n_r, (m_r : E) + n_r,
    (K : E) % x.k_c, (K : E) / x.k_c + x.k_pad.toNat] ++
  fit2dInts (roundUpC M m_r) (p / pn) m_c m_r ++
  [(f.2 : E) % n_r, roundUpE f.2 n_r] ++
  fit2dInts (roundUpC N n_r) pn (roundUpC f.2 n_r) n_r ++
  sideInts M x.pm m_r x.m_c x.mr_rem (cdiv x.mr_rem x.pm) x.pm_l x.m_pad ++
  sideInts N x.pn n_r x.n_c x.nr_rem (cdiv x.nr_rem x.pn) x.pn_l x.n_pad

/-- The `int` expressions of `schedule_KMN_2d`. `src/cake_sgemm_k_first.cpp:279-486`. -/
def sched2dInts (M N K m_r n_r : Nat) (x : BlkDims2) : List E :=
  (range x.Nb).flatMap fun (n : Nat) =>
    let m_start := if n % 2 ≠ 0 then x.Mb - 1 else 0
    let nlast := n == x.Nb - 1 && x.n_pad
    let p_used_n := if nlast then x.pn_l else x.pn
    let n_cb : E := if nlast then (n_r : E) * x.nr_rem else (x.pn : E) * x.n_c
    let n1 : E := if nlast then (N : E) - N % ((x.pn : E) * x.n_c) else rowE n x.pn x.n_c
    [n_cb, n1, (n : E) + 1] ++ (serp (n % 2 != 0) x.Mb).flatMap fun (m : Nat) =>
      let kdesc := if n % 2 ≠ 0 then (if m % 2 ≠ 0 then false else true)
                   else (if m % 2 ≠ 0 then true else false)
      let k_start := if kdesc then x.Kb - 1 else 0
      let last := m == x.Mb - 1 && x.m_pad
      let p_used_m := if last then x.pm_l else x.pm
      let m_cb : E := if last then (m_r : E) * x.mr_rem else (x.pm : E) * x.m_c
      let m1 : E := if last then (M : E) - M % ((x.pm : E) * x.m_c) else rowE m x.pm x.m_c
      let C_offset : E := rowE m x.pm x.m_c * N + rowE n x.pn x.n_c
      [m_cb, m1, (m : E) + 1, (p_used_m : E) * p_used_n] ++ (serp kdesc x.Kb).flatMap (fun (k : Nat) =>
        let k_c_t := if k == x.Kb - 1 && x.k_pad then x.k_c1 else x.k_c
        let A_offset : E := rowE m x.pm x.m_c * K + (k : E) * x.k_c
        let B_offset : E := rowE n x.pn x.n_c + (k : E) * x.k_c * N
        [(k : E) + 1, A_offset, B_offset] ++
        (if k == k_start && m != m_start then [] else
          (cfor 0 n_cb.val n_r).flatMap fun (n2 : Nat) =>
            [B_offset + n2, (n2 : E) * k_c_t, (n2 : E) + n_r]) ++
        (if k == k_start && m == m_start && n != 0 then [] else
          (cfor 0 m_cb.val m_r).flatMap fun (m3 : Nat) =>
            [A_offset + (m3 : E) * K, (m3 : E) * k_c_t, (m3 : E) + m_r]) ++
        (range (p_used_m * p_used_n)).flatMap fun (core : Nat) =>
          let m_c_t := if last then (if core / p_used_n = x.pm_l - 1 then x.m_c1_last_core else x.m_c1)
                       else x.m_c
          let m_c_x := if last then x.m_c1 else x.m_c
          let n_c_t := if nlast then (if core % p_used_n = x.pn_l - 1 then x.n_c1_last_core else x.n_c1)
                       else x.n_c
          let n_c_x := if nlast then x.n_c1 else x.n_c
          [(core : E) + 1] ++
          regInts ((core : E) / p_used_n * m_c_x * k_c_t) ((core : E) % p_used_n * n_c_x * k_c_t)
            m_r n_r m_c_t n_c_t k_c_t) ++
      [C_offset] ++ (range (p_used_m * p_used_n)).flatMap fun (core : Nat) =>
        let m_c_t := if last then (if core / p_used_n = x.pm_l - 1 then x.m_c1_last_core else x.m_c1)
                     else x.m_c
        let m_c_x := if last then x.m_c1 else x.m_c
        let n_c_t := if nlast then (if core % p_used_n = x.pn_l - 1 then x.n_c1_last_core else x.n_c1)
                     else x.n_c
        let n_c_x := if nlast then x.n_c1 else x.n_c
        [C_offset + (core : E) / p_used_n * m_c_x * N + (core : E) % p_used_n * n_c_x,
          n1 + (core : E) % p_used_n * n_c_x, (core : E) / p_used_n * m_c_x, (core : E) + 1,
          (x.m_c : E) * x.n_c] ++
        unpackInts M N m1.val (n1.val + core % p_used_n * n_c_x) (core / p_used_n * m_c_x) m_c_t n_c_t m_r n_r

/-- Every `int` expression of `cake_sgemm_2d`, with `pn` the value returned by `grid_dims_2d` and `m_c`, `k_c` the tile
sizes chosen by lines 666-680 of `src/block_sizing.cpp`; the sizes of the buffers are in `src/cake_sgemm.cpp:210,216,223`. -/
def twoDInts (M N K p m_r n_r pn m_c k_c : Nat) : List E :=
  match init_block_dims_2d M N K p m_r n_r pn m_c k_c with
  | none => []
  | some x => dims2dInts M N K p m_r n_r pn m_c x ++
      [(x.pm : E) * x.m_c * x.k_c, (x.pn : E) * x.n_c * x.k_c, (x.m_c : E) * x.n_c] ++ sched2dInts M N K m_r n_r x

end Cake
