/-
32-bit `int` arithmetic of `cake_sgemm_2d_small`, as in `Verif.Model.IntRangeOn`. Left out: the bound `kc_max` (floating
point, `Model/TwoDApi`) except for its two `int` subexpressions, and conditions such as `k == Kb - 1`.
-/
import Verif.Model.IntRangeOn

namespace Cake
open List

/-- `x += (r - (x % r))`. `src/block_sizing.cpp:825,828`. -/
def tileSE (x r : Nat) : E := (x : E) + ((r : E) - (x : E) % r)

/-- The `int` expressions of `init_block_dims_2d_small`, `x` being the result. `src/block_sizing.cpp:818-851`. -/
def dimsSInts (M N K p m_r n_r pn : Nat) (x : BlkDims2) : List E :=
  [(p : E) / pn, (M : E) % m_r, roundUpE M m_r, (N : E) % n_r, roundUpE N n_r,
    (x.M_padded : E) / x.pm, tileSE (x.M_padded / x.pm) m_r,
    (x.N_padded : E) / x.pn, tileSE (x.N_padded / x.pn) n_r,
    (m_r : E) * n_r, (m_r : E) + n_r,
    (x.M_padded : E) - ((x.pm : E) - 1) * x.m_c, (x.N_padded : E) - ((x.pn : E) - 1) * x.n_c,
    (K : E) % x.k_c, (N : E) % x.n_c, (M : E) % x.m_c, (K : E) / x.k_c + x.k_pad.toNat]

/-- The `int` expressions of `schedule_KMN_2d_small`. `src/cake_sgemm_k_first.cpp:179-270`. -/
def schedSInts (M N K p m_r n_r : Nat) (x : BlkDims2) : List E :=
  ((range x.Kb).flatMap fun (k : Nat) =>
    let k_c_t := if k == x.Kb - 1 && x.k_pad then x.k_c1 else x.k_c
    [(k : E) + 1] ++
    ((cfor 0 x.N_padded n_r).flatMap fun (n2 : Nat) =>
      [(k : E) * x.k_c * N + n2, (n2 : E) * k_c_t, (n2 : E) + n_r]) ++
    ((cfor 0 x.M_padded m_r).flatMap fun (m3 : Nat) =>
      [(k : E) * x.k_c + (m3 : E) * K, (m3 : E) * k_c_t, (m3 : E) + m_r]) ++
    (range p).flatMap fun (core : Nat) =>
      let n_c_t := if core % x.pn == x.pn - 1 && x.n_pad then x.n_c1 else x.n_c
      let m_c_t := if core / x.pn == x.pm - 1 && x.m_pad then x.m_c1 else x.m_c
      let n1 : E := if core % x.pn == x.pn - 1 && x.n_pad then (N : E) - N % x.n_c else (core : E) % x.pn * x.n_c
      [n1, (core : E) + 1] ++
      regInts ((core : E) / x.pn * x.m_c * k_c_t) ((core : E) % x.pn * x.n_c * k_c_t) m_r n_r m_c_t n_c_t k_c_t) ++
  (range p).flatMap fun (core : Nat) =>
    let m_c_t := if core / x.pn == x.pm - 1 && x.m_pad then x.m_c1 else x.m_c
    let n_c_t := if core % x.pn == x.pn - 1 && x.n_pad then x.n_c1 else x.n_c
    [(core : E) / x.pn * x.m_c * N + (core : E) % x.pn * x.n_c, (core : E) % x.pn * x.n_c, (core : E) / x.pn * x.m_c,
      (core : E) + 1, (x.m_c : E) * x.n_c] ++
    unpackInts M N 0 (core % x.pn * x.n_c) (core / x.pn * x.m_c) m_c_t n_c_t m_r n_r

/-- Every `int` expression of `cake_sgemm_2d_small`, with `pn` the value returned by `grid_dims_2d` and `kc_max` the
bound of line 831 of `src/block_sizing.cpp`; the sizes of the buffers are in `src/cake_sgemm.cpp:282,288,295`. -/
def smallInts (M N K p m_r n_r pn kc_max : Nat) : List E :=
  match init_block_dims_2d_small M N K p m_r n_r pn kc_max with
  | none => []
  | some x => dimsSInts M N K p m_r n_r pn x ++
      [(x.M_padded : E) * x.k_c, (x.k_c : E) * x.N_padded, (x.m_c : E) * x.n_c] ++ schedSInts M N K p m_r n_r x

end Cake
