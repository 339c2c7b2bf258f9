/-
The convolution example (`examples/cake_conv.cpp`): kernel, tile sizes, packing of the filters, schedule,
entry point, and the reference `im_2_col`. Object names: A = filters (`Cout x Cin x Hf x Wf`), B = input
feature map (`Cin x Hin x Win`), C = output feature map (`Cout x Hout x Wout`), Ap = packed filters.
-/
import Verif.Model.Unpacked
import Verif.Model.CacheDims

namespace Cake
open List

/-- `cake_conv_haswell_6x16`: rows of the output tile are `n_out` apart, rows of the input `n_in` apart, the
filters are packed six per step. `examples/cake_conv.cpp:31-258`. -/
def cake_conv_haswell_6x16 (t : Nat) (A B C : Loc) (n_in n_out k : Nat) : List Op :=
  ukernel 8 6 2 t A B C n_out 0 n_in k

/-- `pack_ob_A_single_buf_conv` (`pad` is unused; `Wf = Hf = 3` is fixed inside the function). Carried:
`ind_ob`. `examples/cake_conv.cpp:424-449`. -/
def pack_ob_A_single_buf_conv (A A_p : Loc) (M K m1 m2 m_c k_c m_r : Nat) : List Op :=
  let Wf := 3
  let Hf := 3
  (loopS (cfor 0 m_c m_r) (fun m3 s => loopS (cfor 0 (Wf * Hf) 1) (fun ker s => loopS (range k_c) (fun i s =>
    loopS (range m_r) (fun j ind_ob =>
      ([if m1 + m2 + m3 + j ≥ M then Op.zero (A_p +ₚ ind_ob)
        else Op.copy (A_p +ₚ ind_ob) (A +ₚ (m3 * K + i * Wf * Hf + ker + j * K))], ind_ob + 1)) s) s) s) 0).1

/-- `pack_filters` (`Wf = Hf = 3` is fixed inside the function): one phase (tasks = cores) per `(m, k)`.
Carried: `A_p_offset`. `examples/cake_conv.cpp:536-610`. -/
def pack_filters (A A_p : Loc) (M K p m_r : Nat) (x : BlkDims) : List (List (List Op)) :=
  let Wf := 3
  let Hf := 3
  (loopS (range x.Mb) (fun m s =>
    let last := m == x.Mb - 1 && x.m_pad
    let p_used := if last then x.p_l else p
    let m_cb := if last then m_r * x.mr_rem else p_used * x.m_c
    loopS (range x.Kb) (fun k A_p_offset =>
      let k_c_t := if k == x.Kb - 1 && x.k_pad then x.k_c1 else x.k_c
      let A_offset := m * p * x.m_c * K + k * x.k_c * Wf * Hf
      ([(range p_used).map fun core =>
          let m_c_t := if last then (if core = x.p_l - 1 then x.m_c1_last_core else x.m_c1) else x.m_c
          let m_c_x := if last then x.m_c1 else x.m_c
          pack_ob_A_single_buf_conv (A +ₚ (A_offset + core * m_c_x * K))
            (A_p +ₚ (A_p_offset + core * m_c_x * k_c_t * Wf * Hf)) M K (m * p * x.m_c) (core * m_c_x)
            m_c_t k_c_t m_r],
        A_p_offset + m_cb * k_c_t * Wf * Hf)) s) 0).1

/-- `schedule_KMN_conv`: one phase (tasks = cores) per `(n, m)`. The stride `s` is a parameter that is not
used. `examples/cake_conv.cpp:614-708`. -/
def schedule_KMN_conv (F In Out : Loc) (Wf Hf Win Hin Wout Hout Cin p m_r n_r : Nat) (x : BlkDims) :
    List (List (List Op)) :=
  let K := Cin * Wf * Hf
  let N_in := Win * Hin
  let N_out := Wout * Hout
  (range x.Nb).flatMap fun n =>
    let n_c_t := if n == x.Nb - 1 && x.n_pad then x.n_c1 else x.n_c
    (range x.Mb).flatMap fun m =>
      let last := m == x.Mb - 1 && x.m_pad
      let p_used := if last then x.p_l else p
      let m_cb := if last then m_r * x.mr_rem else p_used * x.m_c
      [(range p_used).map fun core =>
        let m_c_t := if last then (if core = x.p_l - 1 then x.m_c1_last_core else x.m_c1) else x.m_c
        let m_c_x := if last then x.m_c1 else x.m_c
        (range x.Kb).flatMap fun k => (range n_c_t).flatMap fun ho => (range Hf).flatMap fun hf =>
          (range Wf).flatMap fun wf =>
            let k_c_t := if k == x.Kb - 1 && x.k_pad then x.k_c1 else x.k_c
            let f_ind := m * p * x.m_c * K + k * m_cb * x.k_c * Wf * Hf + core * m_c_x * k_c_t * Wf * Hf +
              m_r * k_c_t * (wf + hf * Wf)
            let in_ind := k * x.k_c * Hin * Win + n * x.n_c * Win + ho * Win + hf * Win + wf
            let out_ind := m * p * x.m_c * Hout * Wout + n * x.n_c * Wout + core * m_c_x * Hout * Wout +
              ho * Wout
            (range (Wout / n_r)).flatMap fun n_reg => (range (m_c_t / m_r)).flatMap fun m_reg =>
              cake_conv_haswell_6x16 core (F +ₚ (f_ind + m_reg * m_r * k_c_t * Wf * Hf))
                (In +ₚ (in_ind + n_reg * n_r)) (Out +ₚ (out_ind + n_reg * n_r + m_reg * m_r * Hout * Wout))
                N_in N_out k_c_t]

/-- `init_block_dims_conv`, schedule KMN, for the given tile sizes: as in the library with `M = Cout`,
`K = Cin`, `N = Hout`, except that `n_c1 = N % n_c` is not rounded to a register tile (hence `n_r = 1` here;
`nr_rem`, which the code does not set, is not read). `examples/cake_conv.cpp:333-392`. -/
def init_block_dims_conv (Cout Hout Cin p m_r m_c k_c n_c : Nat) : BlkDims :=
  dimsKMN Cout Hout Cin p m_r 1 m_c k_c n_c

/-- `cake_sconv`, after `get_cache_dims_conv` has fixed the tile sizes. `none`: a tile size is zero and the
`%` in `init_block_dims_conv` is undefined. The stride `s` and the argument `sch` are not used (`sch = KMN`
is set in the function). `examples/cake_conv.cpp:765-848`; allocation of the dimensions `:272,348`. -/
def cake_sconv (A B C : Loc) (Wf Hf Win Hin Wout Hout Cin Cout _s p m_r n_r : Nat) (packedA : Bool)
    (m_c k_c n_c : Nat) : Option Prog :=
  if k_c = 0 ∨ n_c = 0 ∨ p * m_c = 0 then none
  else do
    let x := init_block_dims_conv Cout Hout Cin p m_r m_c k_c n_c
    let aSz ← packedASize Cout (Cin * Wf * Hf) p m_r m_c .KMN
    let A_p := if packedA then A else ⟨.Ap, 0⟩
    some ([.malloc .Blk 1, .malloc .Dims 1, .free .Dims] ++
      (if packedA then [] else
        .memalign .Ap aSz :: phases (pack_filters A ⟨.Ap, 0⟩ Cout (Cin * Wf * Hf) p m_r x)) ++
      phases (schedule_KMN_conv A_p B C Wf Hf Win Hin Wout Hout Cin p m_r n_r x) ++
      (if packedA then [] else [.free .Ap]) ++ [.free .Blk])

/-- `im_2_col`: matrix `Cin*Wf*Hf x Hout*Wout`. Here `tmp` is the object Bp and the result `mat` is Cp; the
stride `s` is a parameter that is not used. First loop nest. `examples/cake_conv.cpp:1185-1200`. -/
def im_2_col_fill (In tmp : Loc) (Wf Hf Win Hin Wout Hout Cin : Nat) : List Op :=
  (loopS (range Hout) (fun h1 s => loopS (range Wout) (fun w1 s => loopS (range Cin) (fun k s =>
    loopS (range Hf) (fun h s => loopS (range Wf) (fun w ind =>
      ([Op.copy (tmp +ₚ ind) (In +ₚ (k * Hin * Win + w1 + h1 * Win + w + h * Win))], ind + 1)) s) s) s) s) 0).1

/-- The transposition in `im_2_col`. `examples/cake_conv.cpp:1202-1209`. -/
def im_2_col_transpose (tmp mat : Loc) (K N : Nat) : List Op :=
  (loopS (range K) (fun k s => loopS (range N) (fun n ind =>
    ([Op.copy (mat +ₚ ind) (tmp +ₚ (n * K + k))], ind + 1)) s) 0).1

/-- `im_2_col`, one thread. `examples/cake_conv.cpp:1178-1213`. -/
def im_2_col (In : Loc) (Wf Hf Win Hin Wout Hout Cin _s : Nat) : Prog :=
  [.malloc .Cp (Cin * Wf * Hf * (Win * Hin)), .malloc .Bp (Cin * Wf * Hf * (Win * Hin)),
    .par [im_2_col_fill In ⟨.Bp, 0⟩ Wf Hf Win Hin Wout Hout Cin],
    .par [im_2_col_transpose ⟨.Bp, 0⟩ ⟨.Cp, 0⟩ (Wf * Hf * Cin) (Hout * Wout)], .free .Bp]

section
variable {D : Type _} (fl : Flt D)

/-- `(int) ceil(a/b)` in `double`, as far as `Flt` provides it: truncation, plus one if something was cut
off a positive value. `none` of `trunc` is undefined behaviour. -/
def cCeil (x : D) : Except Fail Int := do
  let n ← cInt fl x
  pure (if fl.le x (fl.ofInt n) then n else n + 1)

/-- `(int) floor(x)`. -/
def cFloor (x : D) : Except Fail Int := do
  let n ← cInt fl x
  pure (if fl.le (fl.ofInt n) x then n else n - 1)

/-- `get_cache_dims_conv`. `nc_ret*Wout*mc_ret` and the divisor are `int` expressions; overflow of `int` is
not modelled here. `examples/cake_conv.cpp:262-329`. -/
def get_cache_dims_conv (cx : CCtx D) (Wf Hf Win Wout Cin Cout p : Int) : Except Fail CacheDims := do
  let Cm ← cCeil fl (fl.div (fl.ofInt Cout) (fl.ofInt p))
  let r ← cMod Cm cx.mr
  let Cm := Cm - r
  let mc_ret ← clampMc Cout p cx.mr Cm
  let Hc ← cFloor fl (fl.div (fl.mul (fl.mul cx.alpha_n (fl.ofInt p)) (fl.ofInt mc_ret)) (fl.ofInt Wout))
  let nc_ret := if Hc = 0 then 1 else Hc
  let Ck ← cCeil fl (fl.div (fl.sub (fl.div (fl.ofInt cx.L2) (fl.ofInt 4))
    (fl.ofInt (nc_ret * Wout * mc_ret))) (fl.ofInt (mc_ret * Wf * Hf + nc_ret * Win)))
  let Ck := if Ck > Cin then Cin else if Ck < 0 then 128 else Ck
  pure ⟨mc_ret, Ck, nc_ret, .KMN⟩

end
end Cake
