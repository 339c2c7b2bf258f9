/-
`cake_sgemm_2d` and `cake_sgemm_2d_small`: the K-first products on a pm x pn grid of cores.
-/
import Verif.Model.Online
import Verif.Model.Grid

namespace Cake
open List

/-- `blk_dims_t` with the fields used by the 2-D schedules only (`include/common.h:107-`). -/
structure BlkDims2 extends BlkDims where
  n_c1_last_core : Nat := 0
  pm_l : Nat := 0
  pn_l : Nat := 0
  deriving Repr

/-- `(x % r) ? (x + (r - (x % r))) : x`. `src/block_sizing.cpp:659-660`, `693`, `700`, `714` and `819-820`. -/
def roundUpC (x r : Nat) : Nat := if x % r ≠ 0 then x + (r - x % r) else x

/-- Shrinking of one side of the grid and of its tile when the operand is small: rows, lines 686-699; columns
(same code with `n` for `m`), lines 709-722. Returns the number of cores along this side and the tile size.
`src/block_sizing.cpp:686-722`. -/
def fit2d (padded pm m_c mr : Nat) : Nat × Nat :=
  if padded = pm * mr then (1, mr)
  else if padded < pm * m_c then
    let a := padded / pm
    if a < mr then (padded / mr, mr) else (pm, roundUpC a mr)
  else (pm, m_c)

/-- `init_block_dims_2d`, second part: everything computed from the final `pm`, `m_c`, `pn`, `n_c`, `k_c`.
`none` = division by zero. All values are non-negative; `ceil` of a quotient of doubles is `cdiv` (C37).
`src/block_sizing.cpp:728-793`. -/
def dims2d (M N K m_r n_r pm pn m_c k_c n_c : Nat) : Option BlkDims2 :=
  if pm * m_c = 0 ∨ pn * n_c = 0 ∨ k_c = 0 then none else
  let mr_rem := cdiv (M % (pm * m_c)) m_r
  let mr_per_core := cdiv mr_rem pm
  let pm_l := if mr_per_core ≠ 0 then cdiv mr_rem mr_per_core else 0
  let nr_rem := cdiv (N % (pn * n_c)) n_r
  let nr_per_core := cdiv nr_rem pn
  let pn_l := if nr_per_core ≠ 0 then cdiv nr_rem nr_per_core else 0
  let m_pad := M % (pm * m_c) != 0
  let k_pad := K % k_c != 0
  let n_pad := N % (pn * n_c) != 0
  some
  { m_c := m_c, k_c := k_c, n_c := n_c
    m_c1 := mr_per_core * m_r, k_c1 := K % k_c, n_c1 := nr_per_core * n_r
    m_c1_last_core := (mr_per_core - (pm_l * mr_per_core - mr_rem)) * m_r
    n_c1_last_core := (nr_per_core - (pn_l * nr_per_core - nr_rem)) * n_r
    mr_rem := mr_rem, nr_rem := nr_rem
    pm_l := pm_l, pn_l := pn_l, pm := pm, pn := pn
    m_pad := m_pad, k_pad := k_pad, n_pad := n_pad
    Mb := M / (pm * m_c) + m_pad.toNat
    Nb := N / (pn * n_c) + n_pad.toNat
    Kb := K / k_c + k_pad.toNat
    M_padded := m_r * mr_rem + (M / (pm * m_c)) * pm * m_c
    N_padded := n_r * nr_rem + (N / (pn * n_c)) * pn * n_c
    sch := .KMN }

/-- `init_block_dims_2d`. `pn` is the value returned by `grid_dims_2d` (line 656); `m_c`, `k_c` are the values
after lines 666-680: the user's `mcu`, `kcu` or the ones derived from the cache sizes; the
user's `ncu` is overwritten in line 706 whatever it is. `pn = 0` is a division by zero in line 657; when
`pm` becomes 0 in line 694 the divisions of line 728 on are by zero. `src/block_sizing.cpp:641-798`. -/
def init_block_dims_2d (M N K p m_r n_r pn m_c k_c : Nat) : Option BlkDims2 :=
  if pn = 0 then none else
  let pm := p / pn
  let f := fit2d (roundUpC M m_r) pm m_c m_r
  let n_c := roundUpC f.2 n_r
  let g := fit2d (roundUpC N n_r) pn n_c n_r
  dims2d M N K m_r n_r f.1 g.1 f.2 k_c g.2

/-- `schedule_KMN_2d`. `Mb - 1`, `Kb - 1`, `pm_l - 1`, `pn_l - 1` are `int` in the code and only compared
with non-negative values, so truncated subtraction makes no difference (`pm_l`, `pn_l` are positive where
they are used). `src/cake_sgemm_k_first.cpp:279-486`. -/
def schedule_KMN_2d (kd : KDim) (A B C : Loc) (M N K m_r n_r : Nat) (x : BlkDims2) :
    List (List (List Op)) :=
  (range x.Nb).flatMap fun n =>
    let m_start := if n % 2 ≠ 0 then x.Mb - 1 else 0
    let nlast := n == x.Nb - 1 && x.n_pad
    let p_used_n := if nlast then x.pn_l else x.pn
    let n_cb := if nlast then n_r * x.nr_rem else x.pn * x.n_c
    let n1 := if nlast then N - N % (x.pn * x.n_c) else n * x.pn * x.n_c
    (serp (n % 2 != 0) x.Mb).flatMap fun m =>
      let kdesc := if n % 2 ≠ 0 then (if m % 2 ≠ 0 then false else true)
                   else (if m % 2 ≠ 0 then true else false)
      let k_start := if kdesc then x.Kb - 1 else 0
      let last := m == x.Mb - 1 && x.m_pad
      let p_used_m := if last then x.pm_l else x.pm
      let m_cb := if last then m_r * x.mr_rem else x.pm * x.m_c
      let m1 := if last then M - M % (x.pm * x.m_c) else m * x.pm * x.m_c
      let p_used := p_used_m * p_used_n
      ((serp kdesc x.Kb).flatMap fun k =>
        let k_c_t := if k == x.Kb - 1 && x.k_pad then x.k_c1 else x.k_c
        let A_offset := m * x.pm * x.m_c * K + k * x.k_c
        let B_offset := n * x.pn * x.n_c + k * x.k_c * N
        let packB := if k == k_start && m != m_start then [] else
          [(cfor 0 n_cb n_r).map fun n2 =>
            B_packing_kernel n_r k_c_t (B +ₚ (B_offset + n2)) N (⟨.Bp, 0⟩ +ₚ (n2 * k_c_t))]
        let packA := if k == k_start && m == m_start && n != 0 then [] else
          [(cfor 0 m_cb m_r).map fun m3 =>
            A_packing_kernel m_r k_c_t (A +ₚ (A_offset + m3 * K)) K (⟨.Ap, 0⟩ +ₚ (m3 * k_c_t))]
        let compute := (range p_used).map fun core =>
          let m_c_t := if last then (if core / p_used_n = x.pm_l - 1 then x.m_c1_last_core else x.m_c1)
                       else x.m_c
          let m_c_x := if last then x.m_c1 else x.m_c
          let n_c_t := if nlast then (if core % p_used_n = x.pn_l - 1 then x.n_c1_last_core else x.n_c1)
                       else x.n_c
          let n_c_x := if nlast then x.n_c1 else x.n_c
          regTiles kd core (⟨.Ap, 0⟩ +ₚ ((core / p_used_n) * m_c_x * k_c_t))
            (⟨.Bp, 0⟩ +ₚ ((core % p_used_n) * n_c_x * k_c_t)) ⟨.CpC core, 0⟩ m_r n_r m_c_t n_c_t k_c_t
        packB ++ packA ++ [compute]) ++
      [(range p_used).map fun core =>
        let m_c_t := if last then (if core / p_used_n = x.pm_l - 1 then x.m_c1_last_core else x.m_c1)
                     else x.m_c
        let m_c_x := if last then x.m_c1 else x.m_c
        let n_c_t := if nlast then (if core % p_used_n = x.pn_l - 1 then x.n_c1_last_core else x.n_c1)
                     else x.n_c
        let n_c_x := if nlast then x.n_c1 else x.n_c
        let C_offset := m * x.pm * x.m_c * N + n * x.pn * x.n_c
        unpack_ob_C_single_buf
          (C +ₚ (C_offset + (core / p_used_n) * m_c_x * N + (core % p_used_n) * n_c_x)) ⟨.CpC core, 0⟩
          M N m1 (n1 + (core % p_used_n) * n_c_x) ((core / p_used_n) * m_c_x) m_c_t n_c_t m_r n_r ++
        memset0 ⟨.CpC core, 0⟩ (x.m_c * x.n_c)]

/-- The part of `cake_sgemm_2d` after `init_block_dims_2d`. The kernel is the one inlined in
`cake_sgemm_ukernel`. `src/cake_sgemm.cpp:203-246`. -/
def sgemm2dBody (cx : Cntx) (A B C : Loc) (M N K p : Nat) (x : BlkDims2) : Prog :=
  [.malloc .Blk 1] ++
    [.memalign .Ap (x.pm * x.m_c * x.k_c), .memalign .Bp (x.pn * x.n_c * x.k_c)] ++
    (range p).map (fun i => Item.calloc (.CpC i) (x.m_c * x.n_c)) ++
    phases (schedule_KMN_2d cx.kfix A B C M N K cx.m_r cx.n_r x) ++
    ([.free .Ap] ++ (range p).map (fun i => Item.free (.CpC i)) ++ [.free .Bp, .free .Blk])

/-- `cake_sgemm_2d` (`src/cake_sgemm.cpp:179-247`), with `pn` the value returned by `grid_dims_2d` and
`m_c`, `k_c` the tile sizes chosen by lines 666-680 of `src/block_sizing.cpp`. The argument `sch` is
overwritten with KMN; `packedA`, `packedB`, `alpha`, `beta` are not used. The allocation of a context when
the caller passes `NULL` is left out. -/
def cake_sgemm_2d {α : Type _} (cx : Cntx) (A B C : Loc) (M N K p : Nat)
    (_packedA _packedB : Bool) (_alpha _beta : α) (pn m_c k_c : Nat) : Option Prog := do
  let x ← init_block_dims_2d M N K p cx.m_r cx.n_r pn m_c k_c
  some (sgemm2dBody cx A B C M N K p x)

/-! ### The variant for small matrices -/

/-- `init_block_dims_2d_small`, with `pn` the value returned by `grid_dims_2d` and `kc_max` that of line 831.
`none` = division by zero. `m_c1` and `n_c1` can be negative in the code; they are only used as bounds of
loops that then do not run, so they are truncated at 0 here. `src/block_sizing.cpp:804-857`. -/
def init_block_dims_2d_small (M N K p m_r n_r pn kc_max : Nat) : Option BlkDims2 :=
  if pn = 0 then none else
  let pm := p / pn
  let M_padded := roundUpC M m_r
  let N_padded := roundUpC N n_r
  if pm = 0 then none else
  let m_c := M_padded / pm
  let m_c := m_c + (m_r - m_c % m_r)
  let n_c := N_padded / pn
  let n_c := n_c + (n_r - n_c % n_r)
  let k_c := if m_c > kc_max then kc_max else m_c
  if k_c = 0 then none else
  let k_pad := K % k_c != 0
  some
  { m_c := m_c, k_c := k_c, n_c := n_c
    m_c1 := M_padded - (pm - 1) * m_c
    n_c1 := N_padded - (pn - 1) * n_c
    k_c1 := K % k_c
    k_pad := k_pad, n_pad := N % n_c != 0, m_pad := M % m_c != 0
    Kb := K / k_c + k_pad.toNat
    M_padded := M_padded, N_padded := N_padded
    pm := pm, pn := pn, sch := .KMN }

/-- `schedule_KMN_2d_small`. All `p` threads work, also when `pm * pn < p`.
`src/cake_sgemm_k_first.cpp:159-271`. -/
def schedule_KMN_2d_small (kd : KDim) (A B C : Loc) (M N K p m_r n_r : Nat) (x : BlkDims2) :
    List (List (List Op)) :=
  ((cfor 0 x.Kb 1).flatMap fun k =>
    let k_c_t := if k == x.Kb - 1 && x.k_pad then x.k_c1 else x.k_c
    let packB := (cfor 0 x.N_padded n_r).map fun n2 =>
      B_packing_kernel n_r k_c_t (B +ₚ (k * x.k_c * N + n2)) N (⟨.Bp, 0⟩ +ₚ (n2 * k_c_t))
    let packA := (cfor 0 x.M_padded m_r).map fun m3 =>
      A_packing_kernel m_r k_c_t (A +ₚ (k * x.k_c + m3 * K)) K (⟨.Ap, 0⟩ +ₚ (m3 * k_c_t))
    let compute := (range p).map fun core =>
      let n_c_t := if core % x.pn == x.pn - 1 && x.n_pad then x.n_c1 else x.n_c
      let m_c_t := if core / x.pn == x.pm - 1 && x.m_pad then x.m_c1 else x.m_c
      regTiles kd core (⟨.Ap, 0⟩ +ₚ ((core / x.pn) * x.m_c * k_c_t))
        (⟨.Bp, 0⟩ +ₚ ((core % x.pn) * x.n_c * k_c_t)) ⟨.CpC core, 0⟩ m_r n_r m_c_t n_c_t k_c_t
    [packB, packA, compute]) ++
  [(range p).map fun core =>
    let m_c_t := if core / x.pn == x.pm - 1 && x.m_pad then x.m_c1 else x.m_c
    let n_c_t := if core % x.pn == x.pn - 1 && x.n_pad then x.n_c1 else x.n_c
    unpack_ob_C_single_buf (C +ₚ ((core / x.pn) * x.m_c * N + (core % x.pn) * x.n_c)) ⟨.CpC core, 0⟩
      M N 0 ((core % x.pn) * x.n_c) ((core / x.pn) * x.m_c) m_c_t n_c_t m_r n_r ++
    memset0 ⟨.CpC core, 0⟩ (x.m_c * x.n_c)]

/-- `cake_sgemm_2d_small` (`src/cake_sgemm.cpp:253-318`), with `pn` the value returned by `grid_dims_2d` and
`kc_max` the bound of line 831 of `src/block_sizing.cpp`. -/
def cake_sgemm_2d_small {α : Type _} (cx : Cntx) (A B C : Loc) (M N K p : Nat)
    (_packedA _packedB : Bool) (_alpha _beta : α) (pn kc_max : Nat) : Option Prog := do
  let x ← init_block_dims_2d_small M N K p cx.m_r cx.n_r pn kc_max
  some ([.malloc .Blk 1] ++
    [.memalign .Ap (x.M_padded * x.k_c), .memalign .Bp (x.k_c * x.N_padded)] ++
    (range p).map (fun i => Item.calloc (.CpC i) (x.m_c * x.n_c)) ++
    phases (schedule_KMN_2d_small cx.kfix A B C M N K p cx.m_r cx.n_r x) ++
    ([.free .Ap] ++ (range p).map (fun i => Item.free (.CpC i)) ++ [.free .Bp, .free .Blk]))

end Cake
