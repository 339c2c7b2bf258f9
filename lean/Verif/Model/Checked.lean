/-
The K-first path over 32-bit `int`. The functions below are the functions of `Verif.Model.KFirst` and `Verif.Model.Sgemm`
once more, written in a monad that records every `int` expression at the place where the code evaluates it. `E.eval32` evaluates an
expression over 32-bit `int`, where overflow and division by zero are undefined; a run is defined if every recorded
expression has a value there (`W.run`). Nothing here is listed by hand: an index can only be used after it has been evaluated.

Left out: the bounds and steps of the serpentine loops that run downwards (values between -1 and a block count), the
integer arithmetic inside the microkernel (`k % 4`, `kk += 4`, at most `k`), and pointer and `size_t` arithmetic. The choice
of the tile sizes over 32-bit `int` is in `Verif.Model.Api32`, the other two schedules are in `Verif.Model.CheckedMN`.
-/
import Verif.Model.IntRange

namespace Cake
open List

/-- The value of an `int` operation: undefined if it is not representable. -/
def inInt (v : Int) : Option Int := if -2 ^ 31 ≤ v ∧ v < 2 ^ 31 then some v else none

/-- An expression over 32-bit `int`: signed overflow and division by zero are undefined (`none`); division truncates. A
leaf is a variable or constant. -/
def E.eval32 : E → Option Int
  | .lit n => inInt n
  | .add a b => do inInt ((← a.eval32) + (← b.eval32))
  | .sub a b => do inInt ((← a.eval32) - (← b.eval32))
  | .mul a b => do inInt ((← a.eval32) * (← b.eval32))
  | .div a b => do
    let x ← a.eval32
    let y ← b.eval32
    if y = 0 then none else inInt (x.tdiv y)
  | .mod a b => do
    let x ← a.eval32
    let y ← b.eval32
    if y = 0 then none else inInt (x.tmod y)

/-- A value and the `int` expressions evaluated to get it. -/
structure W (α : Type) where
  val : α
  ints : List E

namespace W

instance : Monad W where
  pure a := ⟨a, []⟩
  bind w f := ⟨(f w.val).val, w.ints ++ (f w.val).ints⟩

/-- Evaluate an `int` expression. -/
def ev (e : E) : W Nat := ⟨e.val, [e]⟩

/-- `if(c) ... else ...` -/
def sel {α : Type} (c : Prop) [Decidable c] (a b : W α) : W α := if c then a else b

/-- `for(i = lo; i < hi; i += step)` over the values `l` of `i`, carrying variables `σ`; `i + step` is evaluated after each
round. -/
def loop {γ σ : Type} (step : Nat) : List Nat → (Nat → σ → W (List γ × σ)) → σ → W (List γ × σ)
  | [], _, s => pure ([], s)
  | i :: l, body, s => do
    let r ← body i s
    let _ ← ev ((i : E) + step)
    let r' ← loop step l body r.2
    pure (r.1 ++ r'.1, r'.2)

/-- The same without carried variables. -/
def each {γ : Type} (step : Nat) : List Nat → (Nat → W (List γ)) → W (List γ)
  | [], _ => pure []
  | i :: l, body => do
    let r ← body i
    let _ ← ev ((i : E) + step)
    let r' ← each step l body
    pure (r ++ r')

/-- A serpentine loop; `i + 1` is evaluated in the ascending case. -/
def eachSerp {γ : Type} (desc : Bool) (n : Nat) (body : Nat → W (List γ)) : W (List γ) :=
  let rec go : List Nat → W (List γ)
    | [] => pure []
    | i :: l => do
      let r ← body i
      let _ ← sel desc (pure 0) (ev ((i : E) + 1))
      let r' ← go l
      pure (r ++ r')
  go (serp desc n)

/-- `#pragma omp parallel for`: the tasks, and everything they evaluate. -/
def tasks {γ : Type} (step : Nat) : List Nat → (Nat → W γ) → W (List γ)
  | [], _ => pure []
  | i :: l, body => do
    let r ← body i
    let _ ← ev ((i : E) + step)
    let r' ← tasks step l body
    pure (r :: r')

/-- The value, if every evaluated expression has, over 32-bit `int`, the value used here; otherwise `none`. (A value other than
the one used here can only come from a negative difference; `C36_run32_undefined_iff` shows that there is none, so that `none` is
undefined behaviour.) -/
def run {α : Type} (w : W α) : Option α := if ∀ e ∈ w.ints, e.eval32 = some (e.val : Int) then some w.val else none

end W

open W

/-- `(i == n - 1) && pad`. -/
def isLastW (i n : Nat) (pad : Bool) : W Bool := do
  let e ← ev ((n : E) - 1)
  pure (i == e && pad)

/-- `if(per_core) p_l = (int) ceil(((double) rem) / per_core); else p_l = 0;`. `src/block_sizing.cpp:491-494`. -/
def coresW (rem per_core : Nat) : W Nat := if per_core ≠ 0 then ev (cdiv rem per_core : Nat) else pure 0

/-- `init_block_dims`, case KMN. `src/block_sizing.cpp:482-515`. `ev` of a single number is the conversion of `ceil(...)` to
`int`. -/
def dimsKMNW (M N K p m_r n_r m_c k_c n_c : Nat) : W BlkDims := do
  let k_pad := (← ev ((K : E) % k_c)) != 0
  let n_pad := (← ev ((N : E) % n_c)) != 0
  let m_pad := (← ev ((M : E) % ((p : E) * m_c))) != 0
  let mr_rem ← ev (cdiv (← ev ((M : E) % ((p : E) * m_c))) m_r : Nat)
  let mr_per_core ← ev (cdiv mr_rem p : Nat)
  let p_l ← coresW mr_rem mr_per_core
  let nr_rem ← ev (cdiv (← ev ((N : E) % n_c)) n_r : Nat)
  let n_c1 ← ev ((nr_rem : E) * n_r)
  let m_c1 ← ev ((mr_per_core : E) * m_r)
  let m_c1_last_core ← ev (((mr_per_core : E) - ((p_l : E) * mr_per_core - mr_rem)) * m_r)
  let k_c1 ← ev ((K : E) % k_c)
  let Mb ← ev ((M : E) / ((p : E) * m_c) + m_pad.toNat)
  let Nb ← ev ((N : E) / n_c + n_pad.toNat)
  let Kb ← ev ((K : E) / k_c + k_pad.toNat)
  let M_padded ← ev (mPaddedE M p m_r m_c mr_rem)
  let N_padded ← ev (nPaddedE N n_c n_c1)
  pure { m_c := m_c, k_c := k_c, n_c := n_c, m_pad := m_pad, k_pad := k_pad, n_pad := n_pad
         mr_rem := mr_rem, p_l := p_l, nr_rem := nr_rem, n_c1 := n_c1, m_c1 := m_c1
         m_c1_last_core := m_c1_last_core, k_c1 := k_c1, Mb := Mb, Nb := Nb, Kb := Kb
         M_padded := M_padded, N_padded := N_padded, pm := p, pn := 1, sch := .KMN }

/-- `cake_sgemm_packed_A_size`, case KMN. `src/pack_helper.cpp:11-15,35`. -/
def packedASizeW (M K p m_r m_c : Nat) : W Nat := do
  let mr_rem ← ev (cdiv (← ev ((M : E) % ((p : E) * m_c))) m_r : Nat)
  let M_padded ← ev (mPaddedE M p m_r m_c mr_rem)
  ev ((M_padded : E) * K)

/-- `cake_sgemm_packed_B_size`. `src/pack_helper.cpp:40-47`. -/
def packedBSizeW (K N n_r n_c : Nat) : W Nat := do
  let nr_rem ← ev (cdiv (← ev ((N : E) % n_c)) n_r : Nat)
  let n_c1 ← ev ((nr_rem : E) * n_r)
  let N_padded ← ev (nPaddedE N n_c n_c1)
  ev ((K : E) * N_padded)

/-- `pack_ob_A_single_buf`. `src/pack_ob.cpp:40-60`. -/
def obAW (A A_p : Loc) (M K m1 m2 m_c k_c m_r : Nat) : W (List Op) := do
  let r ← loop m_r (cfor 0 m_c m_r) (fun m3 s => loop 1 (range k_c) (fun i s => loop 1 (range m_r) (fun j (ind_ob : Nat) => do
    let row ← ev ((m1 : E) + m2 + m3 + j)
    let o ← sel (row ≥ M) (pure (Op.zero (A_p +ₚ ind_ob)))
      (do pure (Op.copy (A_p +ₚ ind_ob) (A +ₚ (← ev ((m3 : E) * K + i + j * K)))))
    pure ([o], ← ev ((ind_ob : E) + 1))) s) s) 0
  pure r.1

/-- `if(last) m_c_t = (core == (p_l - 1) ? m_c1_last_core : m_c1); else m_c_t = m_c;`. `src/pack_k_first.cpp:52-58`,
`src/cake_sgemm_k_first.cpp:92-98,138-144`. -/
def stripW (x : BlkDims) (last : Bool) (core : Nat) : W Nat :=
  sel last (do pure (if core = (← ev ((x.p_l : E) - 1)) then x.m_c1_last_core else x.m_c1)) (pure x.m_c)

/-- `pack_A_single_buf_k_first`. `src/pack_k_first.cpp:7-68`. -/
def packAW (A A_p : Loc) (M K p m_r : Nat) (x : BlkDims) : W (List (List (List Op))) := do
  let r ← loop 1 (range x.Mb) (fun m s => do
    let last ← isLastW m x.Mb x.m_pad
    let p_used := if last then x.p_l else p
    let m_cb ← sel last (ev ((m_r : E) * x.mr_rem)) (ev ((p_used : E) * x.m_c))
    loop 1 (range x.Kb) (fun k (A_p_offset : Nat) => do
      let k_c_t := if ← isLastW k x.Kb x.k_pad then x.k_c1 else x.k_c
      let A_offset ← ev ((m : E) * p * x.m_c * K + k * x.k_c)
      let ts ← tasks 1 (range p_used) fun core => do
        let last ← isLastW m x.Mb x.m_pad
        let m_c_t ← stripW x last core
        let m_c_x := if last then x.m_c1 else x.m_c
        let a ← ev ((A_offset : E) + core * m_c_x * K)
        let a_p ← ev ((A_p_offset : E) + core * m_c_x * k_c_t)
        let m1 ← ev ((m : E) * p * x.m_c)
        let m2 ← ev ((core : E) * m_c_x)
        obAW (A +ₚ a) (A_p +ₚ a_p) M K m1 m2 m_c_t k_c_t m_r
      pure ([ts], ← ev ((A_p_offset : E) + (m_cb : E) * k_c_t))) s) 0
  pure r.1

/-- `pack_B_k_first`. `src/pack_k_first.cpp:187-283`. -/
def packBW (B B_p : Loc) (K N n_r : Nat) (x : BlkDims) : W (List (List (List Op))) := do
  let k_c := x.k_c
  let n_c := x.n_c
  let k_c1 := x.k_c1
  let n_c1 := x.n_c1
  let main ← loop n_c (cfor 0 (← ev ((N : E) - (N : E) % n_c)) n_c) (fun n1 (ind1 : Nat) => do
    let ph1 ← tasks k_c (cfor 0 (← ev ((K : E) - (K : E) % k_c)) k_c) fun k1 => do
      let r ← loop n_r (cfor 0 n_c n_r) (fun n2 s => loop 1 (range k_c) (fun i s => loop 1 (range n_r)
        (fun j (local_ind : Nat) => do
          let d ← ev ((ind1 : E) + local_ind + (k1 : E) / k_c * k_c * n_c)
          let b ← ev ((n1 : E) + (k1 : E) * N + n2 + i * N + j)
          pure ([Op.copy (B_p +ₚ d) (B +ₚ b)], ← ev ((local_ind : E) + 1))) s) s) 0
      pure r.1
    let ind1 ← ev ((ind1 : E) + ((K : E) - (K : E) % k_c) * n_c)
    let k1 ← ev ((K : E) - (K : E) % k_c)
    sel (k_c1 ≠ 0) (do
      let ph2 ← tasks n_r (cfor 0 n_c n_r) fun n2 => do
        let r ← loop 1 (range k_c1) (fun i s => loop 1 (range n_r) (fun j (local_ind : Nat) => do
          let d ← ev ((ind1 : E) + local_ind + (n2 : E) * k_c1)
          let b ← ev ((n1 : E) + (k1 : E) * N + n2 + i * N + j)
          pure ([Op.copy (B_p +ₚ d) (B +ₚ b)], ← ev ((local_ind : E) + 1))) s) 0
        pure r.1
      pure ([ph1, ph2], ← ev ((ind1 : E) + (k_c1 : E) * n_c))) (pure ([ph1], ind1))) 0
  let ind1 := main.2
  let n1 ← ev ((N : E) - (N : E) % n_c)
  let rest ← sel (n_c1 ≠ 0) (do
      let ph1 ← tasks k_c (cfor 0 (← ev ((K : E) - (K : E) % k_c)) k_c) fun k1 => do
        let r ← loop n_r (cfor 0 n_c1 n_r) (fun n2 s => loop 1 (range k_c) (fun i s => loop 1 (range n_r)
          (fun j (local_ind : Nat) => do
            let col ← ev ((n1 : E) + n2 + j)
            let d ← ev ((ind1 : E) + local_ind + (k1 : E) / k_c * k_c * n_c1)
            let o ← sel (col ≥ N) (pure (Op.zero (B_p +ₚ d)))
              (do pure (Op.copy (B_p +ₚ d) (B +ₚ (← ev ((n1 : E) + (k1 : E) * N + n2 + i * N + j)))))
            pure ([o], ← ev ((local_ind : E) + 1))) s) s) 0
        pure r.1
      let ind1 ← ev ((ind1 : E) + ((K : E) - (K : E) % k_c) * n_c1)
      let k1 ← ev ((K : E) - (K : E) % k_c)
      sel (k_c1 ≠ 0) (do
        let ph2 ← tasks n_r (cfor 0 n_c1 n_r) fun n2 => do
          let r ← loop 1 (range k_c1) (fun i s => loop 1 (range n_r) (fun j (local_ind : Nat) => do
            let col ← ev ((n1 : E) + n2 + j)
            let d ← ev ((ind1 : E) + local_ind + (n2 : E) * k_c1)
            let o ← sel (col ≥ N) (pure (Op.zero (B_p +ₚ d)))
              (do pure (Op.copy (B_p +ₚ d) (B +ₚ (← ev ((n1 : E) + (k1 : E) * N + n2 + i * N + j)))))
            pure ([o], ← ev ((local_ind : E) + 1))) s) 0
          pure r.1
        let _ ← ev ((ind1 : E) + (k_c1 : E) * n_c1)
        pure [ph1, ph2]) (pure [ph1])) (pure [])
  pure (main.1 ++ rest)

/-- The register-tile loops. `src/cake_sgemm_k_first.cpp:109-125`. -/
def regTilesW (kd : KDim) (t : Nat) (A B C : Loc) (a_ind b_ind m_r n_r m_c_t n_c_t k_c_t : Nat) : W (List Op) := do
  each 1 (range (← ev ((n_c_t : E) / n_r))) fun n_reg => do
    each 1 (range (← ev ((m_c_t : E) / m_r))) fun m_reg => do
      let a ← ev ((a_ind : E) + (m_reg : E) * m_r * k_c_t)
      let b ← ev ((b_ind : E) + (n_reg : E) * k_c_t * n_r)
      let c ← ev ((n_reg : E) * m_c_t * n_r + (m_reg : E) * m_r * n_r)
      pure (kernel kd.L kd.m kd.nl t (A +ₚ a) (B +ₚ b) (C +ₚ c) n_r k_c_t)

/-- `unpack_ob_C_single_buf`; `&&` does not evaluate the second test if the first fails. `src/pack_ob.cpp:393-411`. -/
def unpackObW (C C_p : Loc) (M N m1 n1 m2 m_c n_c m_r n_r : Nat) : W (List Op) := do
  let r ← loop n_r (cfor 0 n_c n_r) (fun n2 s => loop m_r (cfor 0 m_c m_r) (fun m3 s =>
    loop 1 (range m_r) (fun i s => loop 1 (range n_r) (fun j (ind2 : Nat) => do
      let col ← ev ((n1 : E) + n2 + j)
      let inside ← sel (col < N) (do pure (decide ((← ev ((m1 : E) + m2 + m3 + i)) < M))) (pure false)
      let os ← sel inside (do pure [Op.copy (C +ₚ (← ev ((n2 : E) + m3 * N + i * N + j))) (C_p +ₚ ind2)]) (pure [])
      pure (os, ← ev ((ind2 : E) + 1))) s) s) s) 0
  pure r.1

/-- `schedule_KMN`. `src/cake_sgemm_k_first.cpp:9-153`. -/
def scheduleW (kd : KDim) (A_p B_p C : Loc) (M N K p m_r n_r : Nat) (x : BlkDims) : W (List (List (List Op))) :=
  each 1 (range x.Nb) fun n => do
    let nodd ← ev ((n : E) % (2 : Nat))
    let nlast ← isLastW n x.Nb x.n_pad
    let n_c_t := if nlast then x.n_c1 else x.n_c
    let n1 ← sel nlast (ev ((N : E) - (N : E) % x.n_c)) (ev ((n : E) * x.n_c))
    eachSerp (nodd != 0) x.Mb fun m => do
      let modd ← ev ((m : E) % (2 : Nat))
      let kdesc := if nodd ≠ 0 then (if modd ≠ 0 then false else true) else (if modd ≠ 0 then true else false)
      let last ← isLastW m x.Mb x.m_pad
      let p_used := if last then x.p_l else p
      let m_cb ← sel last (ev ((m_r : E) * x.mr_rem)) (ev ((p_used : E) * x.m_c))
      let m1 ← sel last (ev ((M : E) - (M : E) % ((p : E) * x.m_c))) (ev ((m : E) * p * x.m_c))
      let compute ← tasks 1 (range p_used) fun core => do
        let last ← isLastW m x.Mb x.m_pad
        let m_c_t ← stripW x last core
        let m_c_x := if last then x.m_c1 else x.m_c
        eachSerp kdesc x.Kb fun k => do
          let k_c_t := if ← isLastW k x.Kb x.k_pad then x.k_c1 else x.k_c
          let a_ind ← ev ((m : E) * p * x.m_c * K + (k : E) * m_cb * x.k_c + (core : E) * m_c_x * k_c_t)
          let b_ind ← ev ((n : E) * K * x.n_c + (k : E) * x.k_c * n_c_t)
          let _c_ind ← ev ((n : E) * x.M_padded * x.n_c + (m : E) * p * x.m_c * n_c_t + (core : E) * m_c_x * n_c_t)
          regTilesW kd core A_p B_p ⟨.CpC core, 0⟩ a_ind b_ind m_r n_r m_c_t n_c_t k_c_t
      let C_offset ← ev ((m : E) * p * x.m_c * N + (n : E) * x.n_c)
      let unpack ← tasks 1 (range p_used) fun core => do
        let last ← isLastW m x.Mb x.m_pad
        let m_c_t ← stripW x last core
        let m_c_x := if last then x.m_c1 else x.m_c
        let c ← ev ((C_offset : E) + (core : E) * m_c_x * N)
        let m2 ← ev ((core : E) * m_c_x)
        let u ← unpackObW (C +ₚ c) ⟨.CpC core, 0⟩ M N m1 n1 m2 m_c_t n_c_t m_r n_r
        pure (u ++ memset0 ⟨.CpC core, 0⟩ (← ev ((x.m_c : E) * x.n_c)))
      pure [compute, unpack]

/-- `cake_sgemm` with `sch = KMN`, as `cake_sgemm` in `Verif.Model.Sgemm`. `src/cake_sgemm.cpp:9-175`. -/
def cake_sgemmW (cx : Cntx) (A B C : Loc) (M N K p : Nat) (packedA packedB : Bool) (m_c k_c n_c : Nat) : W Prog := do
  let x ← dimsKMNW M N K p cx.m_r cx.n_r m_c k_c n_c
  let dims : Prog := [.malloc .Blk 1, .malloc .Dims 1, .free .Dims]
  let A_p := if packedA then A else ⟨.Ap, 0⟩
  let B_p := if packedB then B else ⟨.Bp, 0⟩
  let prepA ← sel packedA (pure []) (do
    pure (Item.memalign .Ap (← packedASizeW M K p cx.m_r x.m_c) :: phases (← packAW A ⟨.Ap, 0⟩ M K p cx.m_r x)))
  let prepB ← sel packedB (pure []) (do
    pure (Item.memalign .Bp (← packedBSizeW K N cx.n_r x.n_c) :: phases (← packBW B ⟨.Bp, 0⟩ K N cx.n_r x)))
  let callocs ← tasks 1 (range p) fun i => do pure (Item.calloc (.CpC i) (← ev ((x.m_c : E) * x.n_c)))
  let sc ← scheduleW cx.kmap A_p B_p C M N K p cx.m_r cx.n_r x
  let frees ← tasks 1 (range p) fun i => pure (Item.free (.CpC i))
  let fin : Prog := (if packedA then [] else [.free .Ap]) ++ (if packedB then [] else [.free .Bp]) ++ [.free .Blk]
  pure (dims ++ prepA ++ prepB ++ (callocs ++ phases sc ++ frees) ++ fin)

/-- `cake_sgemm` with `sch = KMN` over 32-bit `int`: the program run, or `none` for undefined behaviour of the integer
arithmetic. -/
def cake_sgemm32 (cx : Cntx) (A B C : Loc) (M N K p : Nat) (packedA packedB : Bool) (m_c k_c n_c : Nat) :
    Option Prog :=
  (cake_sgemmW cx A B C M N K p packedA packedB m_c k_c n_c).run

end Cake
