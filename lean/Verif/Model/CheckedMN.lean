/-
The M-first and N-first paths over 32-bit `int`, in the style of `Verif.Model.Checked`: the functions of
`Verif.Model.MFirst`, `Verif.Model.NFirst` and `Verif.Model.Sgemm` once more, in the monad that records every `int` expression
where the code evaluates it.

Left out: the bounds and steps of the serpentine loops that run downwards (values between -1 and a block count), the
integer arithmetic inside the microkernel, pointer and `size_t` arithmetic. A block number `m_start + m_ind*(-1)` is written
`m_start - m_ind`.
-/
import Verif.Model.Checked
import Verif.Model.IntRangeMN
import Verif.Model.Sgemm

namespace Cake
open List
open W

/-- `init_block_dims`, case MKN. `src/block_sizing.cpp:517-551`. For a K without remainder `p_l - 1` is `-1`; the product with
`k_c1 = 0` is then 0. -/
def dimsMKNW (M N K p m_r n_r m_c k_c n_c : Nat) : W BlkDims := do
  let k_pad := (← ev ((K : E) % ((p : E) * k_c))) != 0
  let m_pad := (← ev ((M : E) % m_c)) != 0
  let n_pad := (← ev ((N : E) % n_c)) != 0
  let k_rem ← ev ((K : E) % ((p : E) * k_c))
  let k_c1 ← ev (cdiv k_rem p : Nat)
  let p_l ← coresW k_rem k_c1
  let nr_rem ← ev (cdiv (← ev ((N : E) % n_c)) n_r : Nat)
  let n_c1 ← ev ((nr_rem : E) * n_r)
  let k_c1_last_core ← ev ((k_rem : E) - (k_c1 : E) * ((p_l : E) - 1))
  let mr_rem ← ev (cdiv (← ev ((M : E) % m_c)) m_r : Nat)
  let m_c1 ← ev ((mr_rem : E) * m_r)
  let Mb ← ev ((M : E) / m_c + m_pad.toNat)
  let Kb ← ev ((K : E) / ((p : E) * k_c) + k_pad.toNat)
  let Nb ← ev ((N : E) / n_c + n_pad.toNat)
  let M_padded ← ev (mPaddedME M m_c m_c1)
  let N_padded ← ev (nPaddedE N n_c n_c1)
  pure { m_c := m_c, k_c := k_c, n_c := n_c, m_pad := m_pad, k_pad := k_pad, n_pad := n_pad
         k_rem := k_rem, k_c1 := k_c1, p_l := p_l, nr_rem := nr_rem, n_c1 := n_c1
         k_c1_last_core := k_c1_last_core, mr_rem := mr_rem, m_c1 := m_c1, Mb := Mb, Kb := Kb, Nb := Nb
         M_padded := M_padded, N_padded := N_padded, pm := p, pn := 1, sch := .MKN }

/-- `init_block_dims`, case NKM. `src/block_sizing.cpp:554-587`. -/
def dimsNKMW (M N K p m_r n_r m_c k_c n_c : Nat) : W BlkDims := do
  let k_pad := (← ev ((K : E) % ((p : E) * k_c))) != 0
  let m_pad := (← ev ((M : E) % ((p : E) * m_c))) != 0
  let n_pad := (← ev ((N : E) % n_c)) != 0
  let k_rem ← ev ((K : E) % ((p : E) * k_c))
  let k_c1 ← ev (cdiv k_rem p : Nat)
  let p_l ← coresW k_rem k_c1
  let nr_rem ← ev (cdiv (← ev ((N : E) % n_c)) n_r : Nat)
  let n_c1 ← ev ((nr_rem : E) * n_r)
  let k_c1_last_core ← ev ((k_rem : E) - (k_c1 : E) * ((p_l : E) - 1))
  let mr_rem ← ev (cdiv (← ev ((M : E) % ((p : E) * m_c))) m_r : Nat)
  let m_c1 ← ev ((mr_rem : E) * m_r)
  let Mb ← ev ((M : E) / ((p : E) * m_c) + m_pad.toNat)
  let Kb ← ev ((K : E) / ((p : E) * k_c) + k_pad.toNat)
  let Nb ← ev ((N : E) / n_c + n_pad.toNat)
  let M_padded ← ev (mPaddedNE M p m_c m_c1)
  let N_padded ← ev (nPaddedE N n_c n_c1)
  pure { m_c := m_c, k_c := k_c, n_c := n_c, m_pad := m_pad, k_pad := k_pad, n_pad := n_pad
         k_rem := k_rem, k_c1 := k_c1, p_l := p_l, nr_rem := nr_rem, n_c1 := n_c1
         k_c1_last_core := k_c1_last_core, mr_rem := mr_rem, m_c1 := m_c1, Mb := Mb, Kb := Kb, Nb := Nb
         M_padded := M_padded, N_padded := N_padded, pm := 1, pn := p, sch := .NKM }

/-- `M_padded` in the packed-size functions, case MKN. `src/pack_helper.cpp:18-19,64-65`. -/
def mPaddedMW (M m_r m_c : Nat) : W Nat := do
  let mr_rem ← ev (cdiv (← ev ((M : E) % m_c)) m_r : Nat)
  ev (mPaddedME M m_c ((mr_rem : E) * m_r))

/-- The same, case NKM. `src/pack_helper.cpp:24-25,70-71`. -/
def mPaddedNW (M p m_r m_c : Nat) : W Nat := do
  let mr_rem ← ev (cdiv (← ev ((M : E) % ((p : E) * m_c))) m_r : Nat)
  ev (mPaddedE M p m_r m_c mr_rem)

/-- `N_padded` in the packed-size functions. `src/pack_helper.cpp:42-44,82-84`. -/
def nPaddedW (N n_r n_c : Nat) : W Nat := do
  let nr_rem ← ev (cdiv (← ev ((N : E) % n_c)) n_r : Nat)
  let n_c1 ← ev ((nr_rem : E) * n_r)
  ev (nPaddedE N n_c n_c1)

/-- `cake_sgemm_packed_A_size`, given `M_padded`. `src/pack_helper.cpp:35`. -/
def sizeAW (Mp : W Nat) (K : Nat) : W Nat := do ev (((← Mp) : E) * K)

/-- `cake_sgemm_packed_C_size`, given `M_padded`. `src/pack_helper.cpp:82-86`. -/
def sizeCW (Mp : W Nat) (N n_r n_c : Nat) : W Nat := do
  let Mp ← Mp
  let Np ← nPaddedW N n_r n_c
  ev ((Mp : E) * Np)

/-- The test for the last column block, `n_c_t` and `n1`. `src/pack_m_first.cpp:100-106` and five more places. -/
def colBlkW (x : BlkDims) (N n : Nat) : W (Bool × Nat × Nat) := do
  let l ← isLastW n x.Nb x.n_pad
  let n1 ← sel l (ev ((N : E) - (N : E) % x.n_c)) (ev ((n : E) * x.n_c))
  pure (l, if l then x.n_c1 else x.n_c, n1)

/-- The test for the last K block, `p_used` and `k_cb`. `src/pack_m_first.cpp:30-36` and five more places. -/
def kBlkW (x : BlkDims) (p k : Nat) : W (Bool × Nat × Nat) := do
  let l ← isLastW k x.Kb x.k_pad
  let p_used := if l then x.p_l else p
  let k_cb ← sel l (pure x.k_rem) (ev ((p_used : E) * x.k_c))
  pure (l, p_used, k_cb)

/-- The test for the last row block, `m_c_t` and `m1`, M-first. `src/pack_m_first.cpp:183-191`, `src/unpack_m_first.cpp:34-40`. -/
def rowBlkMW (x : BlkDims) (M m : Nat) : W (Bool × Nat × Nat) := do
  let l ← isLastW m x.Mb x.m_pad
  let m1 ← sel l (ev ((M : E) - (M : E) % x.m_c)) (ev ((m : E) * x.m_c))
  pure (l, if l then x.m_c1 else x.m_c, m1)

/-- The same, N-first. `src/pack_n_first.cpp:170-178`, `src/unpack_n_first.cpp:20-26`. -/
def rowBlkNW (x : BlkDims) (M p m : Nat) : W (Bool × Nat × Nat) := do
  let l ← isLastW m x.Mb x.m_pad
  let m_c_t ← sel l (pure x.m_c1) (ev ((p : E) * x.m_c))
  let m1 ← sel l (ev ((M : E) - (M : E) % ((p : E) * x.m_c))) (ev ((m : E) * p * x.m_c))
  pure (l, m_c_t, m1)

/-- `m_c_t = m_c; if((m == Mb - 1) && m_pad) m_c_t = m_c1;`. `src/pack_m_first.cpp:40-43`, `src/cake_sgemm_m_first.cpp:76-79`. -/
def mctMW (x : BlkDims) (m : Nat) : W Nat := do
  let l ← isLastW m x.Mb x.m_pad
  pure (if l then x.m_c1 else x.m_c)

/-- `m_c_t = p*m_c; if((m == Mb - 1) && m_pad) m_c_t = m_c1;`. `src/pack_n_first.cpp:31-34`, `src/cake_sgemm_n_first.cpp:33-36`. -/
def mctNW (x : BlkDims) (p m : Nat) : W Nat := do
  let pm ← ev ((p : E) * x.m_c)
  let l ← isLastW m x.Mb x.m_pad
  pure (if l then x.m_c1 else pm)

/-- `k_c_t` of a core. `src/pack_m_first.cpp:54-62` and five more places. -/
def stripKW (x : BlkDims) (last : Bool) (core : Nat) : W Nat :=
  sel last (do pure (if core = (← ev ((x.p_l : E) - 1)) then x.k_c1_last_core else x.k_c1)) (pure x.k_c)

/-- `pad = (core == (p_l - 1) ? 1 : 0)` in the last K block, else 0. `src/pack_m_first.cpp:57,61` and three more places. -/
def padKW (x : BlkDims) (last : Bool) (core : Nat) : W Bool :=
  sel last (do pure (core == (← ev ((x.p_l : E) - 1)))) (pure false)

/-- One core's share of `pack_A`; `row` is `m*m_c` or `m*p*m_c`. `pad` is computed and handed on, but not used by the callee.
`src/pack_m_first.cpp:48-67`, `src/pack_n_first.cpp:49-68`. -/
def packATaskW (A A_p : Loc) (row : E) (M K m_r : Nat) (x : BlkDims) (k A_offset A_p_offset m_c_t core : Nat) : W (List Op) := do
  let last ← isLastW k x.Kb x.k_pad
  let k_c_t ← stripKW x last core
  let k_c_x := if last then x.k_c1 else x.k_c
  let _ ← padKW x last core
  let a ← ev ((A_offset : E) + (core : E) * k_c_x)
  let a_p ← ev ((A_p_offset : E) + (core : E) * k_c_x * m_c_t)
  let m1 ← ev row
  obAW (A +ₚ a) (A_p +ₚ a_p) M K m1 0 m_c_t k_c_t m_r

/-- `pack_A_single_buf_m_first`. `src/pack_m_first.cpp:7-78`. -/
def packAMW (A A_p : Loc) (M K p m_r : Nat) (x : BlkDims) : W (List (List (List Op))) := do
  let r ← loop 1 (range x.Kb) (fun k s => do
    let b ← kBlkW x p k
    loop 1 (range x.Mb) (fun m (A_p_offset : Nat) => do
      let m_c_t ← mctMW x m
      let A_offset ← ev ((m : E) * x.m_c * K + (k : E) * p * x.k_c)
      let ts ← tasks 1 (range b.2.1) fun core =>
        packATaskW A A_p ((m : E) * x.m_c) M K m_r x k A_offset A_p_offset m_c_t core
      pure ([ts], ← ev ((A_p_offset : E) + (b.2.2 : E) * m_c_t))) s) 0
  pure r.1

/-- `pack_A_single_buf_n_first`. `src/pack_n_first.cpp:8-79`. -/
def packANW (A A_p : Loc) (M K p m_r : Nat) (x : BlkDims) : W (List (List (List Op))) := do
  let r ← loop 1 (range x.Mb) (fun m s => do
    let m_c_t ← mctNW x p m
    loop 1 (range x.Kb) (fun k (A_p_offset : Nat) => do
      let b ← kBlkW x p k
      let A_offset ← ev ((m : E) * p * x.m_c * K + (k : E) * p * x.k_c)
      let ts ← tasks 1 (range b.2.1) fun core =>
        packATaskW A A_p ((m : E) * p * x.m_c) M K m_r x k A_offset A_p_offset m_c_t core
      pure ([ts], ← ev ((A_p_offset : E) + (b.2.2 : E) * m_c_t))) s) 0
  pure r.1

/-- `pack_ob_B_single_buf`. `src/pack_ob.cpp:105-140`. -/
def obBW (B B_p : Loc) (N n1 k_c n_c n_r : Nat) (pad_n : Bool) : W (List Op) := do
  let r ← sel pad_n
    (loop n_r (cfor 0 n_c n_r) (fun n2 s => loop 1 (range k_c) (fun i s => loop 1 (range n_r) (fun j (ind_ob : Nat) => do
      let col ← ev ((n1 : E) + n2 + j)
      let o ← sel (col ≥ N) (pure (Op.zero (B_p +ₚ ind_ob)))
        (do pure (Op.copy (B_p +ₚ ind_ob) (B +ₚ (← ev ((n2 : E) + i * N + j)))))
      pure ([o], ← ev ((ind_ob : E) + 1))) s) s) 0)
    (loop n_r (cfor 0 n_c n_r) (fun n2 s => loop 1 (range k_c) (fun i s => loop 1 (range n_r) (fun j (ind_ob : Nat) => do
      let b ← ev ((n2 : E) + i * N + j)
      pure ([Op.copy (B_p +ₚ ind_ob) (B +ₚ b)], ← ev ((ind_ob : E) + 1))) s) s) 0)
  pure r.1

/-- The body of the inner block loop of `pack_B`, given the column block `c` and the K block `b`.
`src/pack_m_first.cpp:119-141`, `src/pack_n_first.cpp:119-141`. -/
def packBBlkW (B B_p : Loc) (N p n_r : Nat) (x : BlkDims) (c b : Bool × Nat × Nat) (n k B_p_offset : Nat) :
    W (List (List (List Op)) × Nat) := do
  let B_offset ← ev ((k : E) * p * x.k_c * N + (n : E) * x.n_c)
  let ts ← tasks 1 (range b.2.1) fun core => do
    let last ← isLastW k x.Kb x.k_pad
    let k_c_t ← stripKW x last core
    let k_c_x := if last then x.k_c1 else x.k_c
    let pad ← padKW x last core
    let o ← ev ((B_offset : E) + (core : E) * k_c_x * N)
    let o_p ← ev ((B_p_offset : E) + (core : E) * k_c_x * c.2.1)
    obBW (B +ₚ o) (B_p +ₚ o_p) N c.2.2 k_c_t c.2.1 n_r pad
  pure ([ts], ← ev ((B_p_offset : E) + (b.2.2 : E) * c.2.1))

/-- `pack_B_m_first`. `src/pack_m_first.cpp:83-144`. -/
def packBMW (B B_p : Loc) (N p n_r : Nat) (x : BlkDims) : W (List (List (List Op))) := do
  let r ← loop 1 (range x.Nb) (fun n s => do
    let c ← colBlkW x N n
    loop 1 (range x.Kb) (fun k (B_p_offset : Nat) => do
      let b ← kBlkW x p k
      packBBlkW B B_p N p n_r x c b n k B_p_offset) s) 0
  pure r.1

/-- `pack_B_n_first`. `src/pack_n_first.cpp:84-144`. -/
def packBNW (B B_p : Loc) (N p n_r : Nat) (x : BlkDims) : W (List (List (List Op))) := do
  let r ← loop 1 (range x.Kb) (fun k s => do
    let b ← kBlkW x p k
    loop 1 (range x.Nb) (fun n (B_p_offset : Nat) => do
      let c ← colBlkW x N n
      packBBlkW B B_p N p n_r x c b n k B_p_offset) s) 0
  pure r.1

/-- `pack_ob_C_single_buf`; `||` does not evaluate the second test if the first holds. `src/pack_ob.cpp:253-288`. -/
def obCW (C C_p : Loc) (M N m1 n1 m2 m_c n_c m_r n_r : Nat) (pad_m pad_n : Bool) : W (List Op) := do
  let r ← sel (pad_m || pad_n)
    (loop n_r (cfor 0 n_c n_r) (fun n2 s => loop m_r (cfor 0 m_c m_r) (fun m3 s =>
      loop 1 (range m_r) (fun i s => loop 1 (range n_r) (fun j (ind_ob : Nat) => do
        let col ← ev ((n1 : E) + n2 + j)
        let out ← sel (col ≥ N) (pure true) (do pure (decide ((← ev ((m1 : E) + m2 + m3 + i)) ≥ M)))
        let o ← sel out (pure (Op.zero (C_p +ₚ ind_ob)))
          (do pure (Op.copy (C_p +ₚ ind_ob) (C +ₚ (← ev ((n2 : E) + m3 * N + i * N + j)))))
        pure ([o], ← ev ((ind_ob : E) + 1))) s) s) s) 0)
    (loop n_r (cfor 0 n_c n_r) (fun n2 s => loop m_r (cfor 0 m_c m_r) (fun m3 s =>
      loop 1 (range m_r) (fun i s => loop 1 (range n_r) (fun j (ind_ob : Nat) => do
        let c ← ev ((n2 : E) + m3 * N + i * N + j)
        pure ([Op.copy (C_p +ₚ ind_ob) (C +ₚ c)], ← ev ((ind_ob : E) + 1))) s) s) s) 0)
  pure r.1

/-- `pack_C_single_buf_m_first` (`pack`) and `unpack_C_single_buf_m_first`. `src/pack_m_first.cpp:148-200`,
`src/unpack_m_first.cpp:5-49`. -/
def blocksCMW (pack : Bool) (C C_p : Loc) (M N m_r n_r : Nat) (x : BlkDims) : W (List (List (List Op))) :=
  tasks 1 (range x.Nb) fun n => do
    let c ← colBlkW x N n
    let C_p_offset ← ev ((x.M_padded : E) * n * x.n_c)
    tasks 1 (range x.Mb) fun m => do
      let b ← rowBlkMW x M m
      let C_offset ← ev ((m : E) * x.m_c * N + (n : E) * x.n_c)
      let o ← ev ((C_p_offset : E) + (m : E) * x.m_c * c.2.1)
      sel pack (obCW (C +ₚ C_offset) (C_p +ₚ o) M N b.2.2 c.2.2 0 b.2.1 c.2.1 m_r n_r b.1 c.1)
        (unpackObW (C +ₚ C_offset) (C_p +ₚ o) M N b.2.2 c.2.2 0 b.2.1 c.2.1 m_r n_r)

/-- `pack_C_single_buf_n_first` (`pack`) and `unpack_C_single_buf_n_first`, which differ in the offset into the packed C.
`src/pack_n_first.cpp:155-209`, `src/unpack_n_first.cpp:5-49`. -/
def blocksCNW (pack : Bool) (C C_p : Loc) (M N p m_r n_r : Nat) (x : BlkDims) : W (List (List (List Op))) :=
  tasks 1 (range x.Mb) fun m => do
    let b ← rowBlkNW x M p m
    let C_p_offset ← ev ((x.N_padded : E) * m * p * x.m_c)
    tasks 1 (range x.Nb) fun n => do
      let c ← colBlkW x N n
      let C_offset ← ev ((m : E) * p * x.m_c * N + (n : E) * x.n_c)
      sel pack
        (do
          let o ← ev ((C_p_offset : E) + (n : E) * p * x.m_c * c.2.1)
          obCW (C +ₚ C_offset) (C_p +ₚ o) M N b.2.2 c.2.2 0 b.2.1 c.2.1 m_r n_r b.1 c.1)
        (do
          let o ← ev ((C_p_offset : E) + (n : E) * b.2.1 * x.n_c)
          unpackObW (C +ₚ C_offset) (C_p +ₚ o) M N b.2.2 c.2.2 0 b.2.1 c.2.1 m_r n_r)

/-- The register-tile loops, the tile of C inside the packed C. `src/cake_sgemm_m_first.cpp:100-109`,
`src/cake_sgemm_n_first.cpp:100-109`. -/
def regTilesCW (kd : KDim) (t : Nat) (A B C : Loc) (a_ind b_ind c_ind m_r n_r m_c_t n_c_t k_c_t : Nat) : W (List Op) := do
  each 1 (range (← ev ((n_c_t : E) / n_r))) fun n_reg => do
    each 1 (range (← ev ((m_c_t : E) / m_r))) fun m_reg => do
      let a ← ev ((a_ind : E) + (m_reg : E) * m_r * k_c_t)
      let b ← ev ((b_ind : E) + (n_reg : E) * k_c_t * n_r)
      let c ← ev ((c_ind : E) + (n_reg : E) * m_c_t * n_r + (m_reg : E) * m_r * n_r)
      pure (kernel kd.L kd.m kd.nl t (A +ₚ a) (B +ₚ b) (C +ₚ c) n_r k_c_t)

/-- One core's share of a block. `src/cake_sgemm_m_first.cpp:83-110`, `src/cake_sgemm_n_first.cpp:83-110`; `a`, `b` and `c` are
the index expressions, the first two depending on `k_c_x`. -/
def coreW (kd : KDim) (t : Nat) (A_p B_p C_p : Loc) (m_r n_r : Nat) (x : BlkDims) (k m_c_t n_c_t core : Nat) (a b : Nat → E)
    (c : E) : W (List Op) := do
  let last ← isLastW k x.Kb x.k_pad
  let k_c_t ← stripKW x last core
  let k_c_x := if last then x.k_c1 else x.k_c
  let a_ind ← ev (a k_c_x)
  let b_ind ← ev (b k_c_x)
  let c_ind ← ev c
  regTilesCW kd t A_p B_p C_p a_ind b_ind c_ind m_r n_r m_c_t n_c_t k_c_t

/-- `m_start + m_ind*m_inc`. `src/cake_sgemm_m_first.cpp:74`, `src/cake_sgemm_n_first.cpp:74`. -/
def serpIdxW (desc : Bool) (n i : Nat) : W Nat := sel desc (ev ((n : E) - 1 - i)) (pure i)

/-- `schedule_MKN`. `src/cake_sgemm_m_first.cpp:4-113`. -/
def scheduleMW (kd : KDim) (A_p B_p C_p : Loc) (K p m_r n_r : Nat) (x : BlkDims) : W (List (List (List Op))) :=
  each 1 (range x.Nb) fun n => do
    let nodd ← ev ((n : E) % (2 : Nat))
    let n_c_t := if ← isLastW n x.Nb x.n_pad then x.n_c1 else x.n_c
    eachSerp (nodd != 0) x.Kb fun k => do
      let kodd ← ev ((k : E) % (2 : Nat))
      let mdesc := if nodd ≠ 0 then (if kodd ≠ 0 then false else true) else (if kodd ≠ 0 then true else false)
      let b ← kBlkW x p k
      let ts ← tasks 1 (range x.Mb) fun m_ind => do
        let m ← serpIdxW mdesc x.Mb m_ind
        let m_c_t ← mctMW x m
        each 1 (range b.2.1) fun core =>
          coreW kd m_ind A_p B_p C_p m_r n_r x k m_c_t n_c_t core
            (fun k_c_x => aIndME k x.M_padded p x.k_c m x.m_c b.2.2 core m_c_t k_c_x)
            (fun k_c_x => bIndME n K x.n_c k p x.k_c n_c_t core k_c_x)
            (cIndME n x.M_padded x.n_c m x.m_c n_c_t)
      pure [ts]

/-- `schedule_NKM`. `src/cake_sgemm_n_first.cpp:4-113`. -/
def scheduleNW (kd : KDim) (A_p B_p C_p : Loc) (K p m_r n_r : Nat) (x : BlkDims) : W (List (List (List Op))) :=
  each 1 (range x.Mb) fun m => do
    let modd ← ev ((m : E) % (2 : Nat))
    let m_c_t ← mctNW x p m
    eachSerp (modd != 0) x.Kb fun k => do
      let kodd ← ev ((k : E) % (2 : Nat))
      let ndesc := if modd ≠ 0 then (if kodd ≠ 0 then false else true) else (if kodd ≠ 0 then true else false)
      let b ← kBlkW x p k
      let ts ← tasks 1 (range x.Nb) fun n_ind => do
        let n ← serpIdxW ndesc x.Nb n_ind
        let n_c_t := if ← isLastW n x.Nb x.n_pad then x.n_c1 else x.n_c
        each 1 (range b.2.1) fun core =>
          coreW kd n_ind A_p B_p C_p m_r n_r x k m_c_t n_c_t core
            (fun k_c_x => aIndNE m p x.m_c K m_c_t k x.k_c core k_c_x)
            (fun k_c_x => bIndNE k p x.k_c x.N_padded n x.n_c b.2.2 core k_c_x n_c_t)
            (cIndNE m p x.m_c x.N_padded m_c_t n x.n_c)
      pure [ts]

/-- `cake_sgemm` with `sch = MKN`; `accum` says whether `beta != 0`. `src/cake_sgemm.cpp:9-175`. -/
def cake_sgemmMW (cx : Cntx) (A B C : Loc) (M N K p : Nat) (packedA packedB accum : Bool) (m_c k_c n_c : Nat) : W Prog := do
  let x ← dimsMKNW M N K p cx.m_r cx.n_r m_c k_c n_c
  let dims : Prog := [.malloc .Blk 1, .malloc .Dims 1, .free .Dims]
  let A_p := if packedA then A else ⟨.Ap, 0⟩
  let B_p := if packedB then B else ⟨.Bp, 0⟩
  let prepA ← sel packedA (pure []) (do
    pure (Item.memalign .Ap (← sizeAW (mPaddedMW M cx.m_r x.m_c) K) :: phases (← packAMW A ⟨.Ap, 0⟩ M K p cx.m_r x)))
  let prepB ← sel packedB (pure []) (do
    pure (Item.memalign .Bp (← packedBSizeW K N cx.n_r x.n_c) :: phases (← packBMW B ⟨.Bp, 0⟩ N p cx.n_r x)))
  let cSz ← sizeCW (mPaddedMW M cx.m_r x.m_c) N cx.n_r x.n_c
  let prepC ← sel accum (do pure (Item.memalign .Cp cSz :: phases (← blocksCMW true C ⟨.Cp, 0⟩ M N cx.m_r cx.n_r x)))
    (pure [Item.calloc .Cp cSz])
  let sc ← scheduleMW cx.kfix A_p B_p ⟨.Cp, 0⟩ K p cx.m_r cx.n_r x
  let uc ← blocksCMW false C ⟨.Cp, 0⟩ M N cx.m_r cx.n_r x
  let fin : Prog := (if packedA then [] else [.free .Ap]) ++ (if packedB then [] else [.free .Bp]) ++ [.free .Blk]
  pure (dims ++ prepA ++ prepB ++ (prepC ++ phases sc ++ phases uc ++ [.free .Cp]) ++ fin)

/-- `cake_sgemm` with `sch = NKM`. `src/cake_sgemm.cpp:9-175`. -/
def cake_sgemmNW (cx : Cntx) (A B C : Loc) (M N K p : Nat) (packedA packedB accum : Bool) (m_c k_c n_c : Nat) : W Prog := do
  let x ← dimsNKMW M N K p cx.m_r cx.n_r m_c k_c n_c
  let dims : Prog := [.malloc .Blk 1, .malloc .Dims 1, .free .Dims]
  let A_p := if packedA then A else ⟨.Ap, 0⟩
  let B_p := if packedB then B else ⟨.Bp, 0⟩
  let prepA ← sel packedA (pure []) (do
    pure (Item.memalign .Ap (← sizeAW (mPaddedNW M p cx.m_r x.m_c) K) :: phases (← packANW A ⟨.Ap, 0⟩ M K p cx.m_r x)))
  let prepB ← sel packedB (pure []) (do
    pure (Item.memalign .Bp (← packedBSizeW K N cx.n_r x.n_c) :: phases (← packBNW B ⟨.Bp, 0⟩ N p cx.n_r x)))
  let cSz ← sizeCW (mPaddedNW M p cx.m_r x.m_c) N cx.n_r x.n_c
  let prepC ← sel accum (do pure (Item.memalign .Cp cSz :: phases (← blocksCNW true C ⟨.Cp, 0⟩ M N p cx.m_r cx.n_r x)))
    (pure [Item.calloc .Cp cSz])
  let sc ← scheduleNW cx.kfix A_p B_p ⟨.Cp, 0⟩ K p cx.m_r cx.n_r x
  let uc ← blocksCNW false C ⟨.Cp, 0⟩ M N p cx.m_r cx.n_r x
  let fin : Prog := (if packedA then [] else [.free .Ap]) ++ (if packedB then [] else [.free .Bp]) ++ [.free .Blk]
  pure (dims ++ prepA ++ prepB ++ (prepC ++ phases sc ++ phases uc ++ [.free .Cp]) ++ fin)

/-- `cake_sgemm` with the given schedule over 32-bit `int`: the program run, or `none` for undefined behaviour of the integer
arithmetic (and for an unknown schedule, where the code exits). -/
def cake_sgemm32S (cx : Cntx) (A B C : Loc) (M N K p : Nat) (packedA packedB accum : Bool) (m_c k_c n_c : Nat) :
    Sched → Option Prog
  | .KMN => cake_sgemm32 cx A B C M N K p packedA packedB m_c k_c n_c
  | .MKN => (cake_sgemmMW cx A B C M N K p packedA packedB accum m_c k_c n_c).run
  | .NKM => (cake_sgemmNW cx A B C M N K p packedA packedB accum m_c k_c n_c).run
  | .NA => none

end Cake
