/-
32-bit `int` arithmetic of the K-first path (`sch = KMN`): every `int` expression that
`init_block_dims`, the packed-size functions, `pack_A`, `pack_B`, `schedule_KMN` and the unpacking
evaluate, as syntax trees, in the loops in which the code evaluates them. The rest of the model
computes with unbounded `Nat`; the lists below say when that is faithful. `Verif.Props.IntRange`
checks that the index expressions used here are the ones in the model.

Left out: conditions such as `n == Nb - 1`, `n % 2` and the serpentine steps, whose values lie between
`-1` and a block count that is itself in the list; pointer arithmetic and `size_t` arithmetic.
-/
import Verif.Model.Sgemm

namespace Cake
open List

/-- An `int` expression. -/
inductive E where
  | lit (n : Nat)
  | add (a b : E)
  | sub (a b : E)
  | mul (a b : E)
  | div (a b : E)
  | mod (a b : E)

namespace E

instance : Coe Nat E := ⟨lit⟩
instance (n : Nat) : OfNat E n := ⟨lit n⟩
instance : Add E := ⟨add⟩
instance : Sub E := ⟨sub⟩
instance : Mul E := ⟨mul⟩
instance : Div E := ⟨div⟩
instance : Mod E := ⟨mod⟩

/-- The value over unbounded naturals, as the rest of the model computes it. -/
def val : E → Nat
  | lit n => n
  | add a b => a.val + b.val
  | sub a b => a.val - b.val
  | mul a b => a.val * b.val
  | div a b => a.val / b.val
  | mod a b => a.val % b.val

/-- Evaluating the expression over 32-bit `int` is defined and gives `val`: no subexpression reaches
`2^31`, no difference is negative (no expression listed below needs a negative value), no division by
zero. -/
def Fits : E → Prop
  | lit n => n < 2 ^ 31
  | add a b => a.Fits ∧ b.Fits ∧ a.val + b.val < 2 ^ 31
  | sub a b => a.Fits ∧ b.Fits ∧ b.val ≤ a.val
  | mul a b => a.Fits ∧ b.Fits ∧ a.val * b.val < 2 ^ 31
  | div a b => a.Fits ∧ b.Fits ∧ b.val ≠ 0
  | mod a b => a.Fits ∧ b.Fits ∧ b.val ≠ 0

end E

/-- `m_r*mr_rem + (M / (p*m_c))*p*m_c`: `src/block_sizing.cpp:508`, `src/pack_helper.cpp:13`. -/
def mPaddedE (M p m_r m_c mr_rem : E) : E := m_r * mr_rem + M / (p * m_c) * p * m_c

/-- `(N - (N % n_c)) + n_c1`: `src/block_sizing.cpp:509`, `src/pack_helper.cpp:44`. -/
def nPaddedE (N n_c n_c1 : E) : E := N - N % n_c + n_c1

/-- The `int` expressions of `init_block_dims`, case KMN (`src/block_sizing.cpp:484-509`), `x` being
the result. -/
def dimsInts (M N K p m_r n_r : Nat) (x : BlkDims) : List E :=
  let m_c : E := x.m_c
  let k_c : E := x.k_c
  let n_c : E := x.n_c
  let mr_rem : E := x.mr_rem
  let mr_per_core : E := cdiv x.mr_rem p
  [(K : E) % k_c, (N : E) % n_c, (M : E) % (p * m_c), mr_rem, mr_per_core, (x.nr_rem : E) * n_r,
   mr_per_core * m_r, (mr_per_core - (x.p_l * mr_per_core - mr_rem)) * m_r,
   (M : E) / (p * m_c) + x.m_pad.toNat, (N : E) / n_c + x.n_pad.toNat, (K : E) / k_c + x.k_pad.toNat,
   mPaddedE M p m_r m_c mr_rem, nPaddedE N n_c x.n_c1]

/-- The `int` products of the packed sizes (`src/pack_helper.cpp:35,46`) and of the size of the private C
blocks (`src/cake_sgemm.cpp:92`, also `src/cake_sgemm_k_first.cpp:148`). -/
def sizeInts (M N K p m_r : Nat) (x : BlkDims) : List E :=
  [mPaddedE M p m_r x.m_c x.mr_rem * K, (K : E) * nPaddedE N x.n_c x.n_c1, (x.m_c : E) * x.n_c]

/-- `m*p*m_c` -/
def rowE (m p m_c : E) : E := m * p * m_c

/-- The `int` expressions of `pack_ob_A_single_buf`; `A[m3*K + i + j*K]` is only evaluated for rows below
`M`. `src/pack_ob.cpp:40-60`. -/
def obAInts (M K m1 m2 m_c k_c m_r : Nat) : List E :=
  (loopS (cfor 0 m_c m_r) (fun (m3 s : Nat) => loopS (range k_c) (fun (i s : Nat) => loopS (range m_r) (fun (j ind_ob : Nat) =>
    ([(m1 : E) + m2 + m3 + j, (m3 : E) + m_r, (i : E) + 1, (j : E) + 1, (ind_ob : E) + 1] ++
      (if m1 + m2 + m3 + j ≥ M then [] else [(m3 : E) * K + i + j * K]), ind_ob + 1)) s) s) 0).1

/-- `A_offset = m*p*m_c*K + k*k_c`; with the core's offset `core*m_c_x*K` added. -/
def aOffE (m p m_c K k k_c core m_c_x : E) : E := m * p * m_c * K + k * k_c + core * m_c_x * K

/-- The `int` expressions of `pack_A_single_buf_k_first`. `src/pack_k_first.cpp:26-66`. -/
def packAInts (M K p m_r : Nat) (x : BlkDims) : List E :=
  (loopS (range x.Mb) (fun (m s : Nat) =>
    let last := m == x.Mb - 1 && x.m_pad
    let p_used := if last then x.p_l else p
    let m_cb : E := if last then (m_r : E) * x.mr_rem else (p_used : E) * x.m_c
    loopS (range x.Kb) (fun (k A_p_offset : Nat) =>
      let k_c_t := if k == x.Kb - 1 && x.k_pad then x.k_c1 else x.k_c
      ([m_cb, (m : E) + 1, (k : E) + 1, (A_p_offset : E) + m_cb * k_c_t] ++
        (range p_used).flatMap (fun (core : Nat) =>
          let m_c_t := if last then (if core = x.p_l - 1 then x.m_c1_last_core else x.m_c1) else x.m_c
          let m_c_x := if last then x.m_c1 else x.m_c
          [aOffE m p x.m_c K k x.k_c core m_c_x, (A_p_offset : E) + core * m_c_x * k_c_t,
            rowE m p x.m_c, (core : E) * m_c_x, (core : E) + 1] ++
          obAInts M K (m * p * x.m_c) (core * m_c_x) m_c_t k_c_t m_r),
        A_p_offset + m_cb.val * k_c_t)) s) 0).1

/-- `B[n1 + k1*N + n2 + i*N + j]` -/
def bSrcE (n1 k1 N n2 i j : E) : E := n1 + k1 * N + n2 + i * N + j

/-- `B_p[ind1 + local_ind + (k1/k_c)*k_c*n_c]` -/
def bDst1E (ind1 local_ind k1 k_c n_c : E) : E := ind1 + local_ind + k1 / k_c * k_c * n_c

/-- `B_p[ind1 + local_ind + n2*k_c1]` -/
def bDst2E (ind1 local_ind n2 k_c1 : E) : E := ind1 + local_ind + n2 * k_c1

/-- The `int` expressions of one block column of `pack_B_k_first`, `w` columns wide from column `n1`:
`w = n_c` for the main part (`src/pack_k_first.cpp:206-236`), `w = n_c1` for the last block
(lines 242-280; there the source index is evaluated for columns below `N` only). -/
def packBCol (K N n_r k_c k_c1 n1 w ind1 : Nat) : List E :=
  let Kq := K - K % k_c
  [(K : E) - K % k_c, (ind1 : E) + ((K : E) - K % k_c) * w] ++
  (cfor 0 Kq k_c).flatMap (fun (k1 : Nat) => [(k1 : E) + k_c] ++
    (loopS (cfor 0 w n_r) (fun (n2 s : Nat) => loopS (range k_c) (fun (i s : Nat) => loopS (range n_r)
      (fun (j local_ind : Nat) => ([(n2 : E) + n_r, (i : E) + 1, (j : E) + 1, (local_ind : E) + 1,
        (n1 : E) + n2 + j, bDst1E ind1 local_ind k1 k_c w] ++
        (if n1 + n2 + j ≥ N then [] else [bSrcE n1 k1 N n2 i j]), local_ind + 1)) s) s) 0).1) ++
  (if k_c1 ≠ 0 then
    let ind1 := ind1 + Kq * w
    [(ind1 : E) + (k_c1 : E) * w] ++
    (cfor 0 w n_r).flatMap (fun (n2 : Nat) =>
      (loopS (range k_c1) (fun (i s : Nat) => loopS (range n_r) (fun (j local_ind : Nat) =>
        ([(n2 : E) + n_r, (i : E) + 1, (j : E) + 1, (local_ind : E) + 1, (n1 : E) + n2 + j,
          bDst2E ind1 local_ind n2 k_c1] ++
        (if n1 + n2 + j ≥ N then [] else [bSrcE n1 Kq N n2 i j]), local_ind + 1)) s) 0).1)
   else [])

/-- The `int` expressions of `pack_B_k_first`. `src/pack_k_first.cpp:187-283`. -/
def packBInts (K N n_r : Nat) (x : BlkDims) : List E :=
  let Kq := K - K % x.k_c
  let main := loopS (cfor 0 (N - N % x.n_c) x.n_c) (fun (n1 ind1 : Nat) =>
    ([(n1 : E) + x.n_c] ++ packBCol K N n_r x.k_c x.k_c1 n1 x.n_c ind1,
      if x.k_c1 ≠ 0 then ind1 + Kq * x.n_c + x.k_c1 * x.n_c else ind1 + Kq * x.n_c)) 0
  [(N : E) - N % x.n_c] ++ main.1 ++
    if x.n_c1 ≠ 0 then packBCol K N n_r x.k_c x.k_c1 (N - N % x.n_c) x.n_c1 main.2 else []

/-- `a_ind`. `src/cake_sgemm_k_first.cpp:105`. -/
def aIndE (m p m_c K k m_cb k_c core m_c_x k_c_t : E) : E :=
  m * p * m_c * K + k * m_cb * k_c + core * m_c_x * k_c_t

/-- `b_ind`. `src/cake_sgemm_k_first.cpp:106`. -/
def bIndE (n K n_c k k_c n_c_t : E) : E := n * K * n_c + k * k_c * n_c_t

/-- `c_ind`: computed, not used. `src/cake_sgemm_k_first.cpp:107`. -/
def cIndE (n M_padded n_c m p m_c n_c_t core m_c_x : E) : E :=
  n * M_padded * n_c + m * p * m_c * n_c_t + core * m_c_x * n_c_t

/-- `C_offset + core*m_c_x*N`. `src/cake_sgemm_k_first.cpp:129,145`. -/
def cOffE (m p m_c N n n_c core m_c_x : E) : E := m * p * m_c * N + n * n_c + core * m_c_x * N

/-- The `int` expressions of the register-tile loops. `src/cake_sgemm_k_first.cpp:109-125`. -/
def regInts (a_ind b_ind : E) (m_r n_r m_c_t n_c_t k_c_t : Nat) : List E :=
  [(n_c_t : E) / n_r, (m_c_t : E) / m_r] ++
  (range (n_c_t / n_r)).flatMap fun (n_reg : Nat) => (range (m_c_t / m_r)).flatMap fun (m_reg : Nat) =>
    [a_ind + (m_reg : E) * m_r * k_c_t, b_ind + (n_reg : E) * k_c_t * n_r,
     (n_reg : E) * m_c_t * n_r + (m_reg : E) * m_r * n_r, (n_reg : E) + 1, (m_reg : E) + 1]

/-- The `int` expressions of `unpack_ob_C_single_buf`. `src/pack_ob.cpp:393-411`. -/
def unpackInts (M N m1 n1 m2 m_c n_c m_r n_r : Nat) : List E :=
  (loopS (cfor 0 n_c n_r) (fun (n2 s : Nat) => loopS (cfor 0 m_c m_r) (fun (m3 s : Nat) =>
    loopS (range m_r) (fun (i s : Nat) => loopS (range n_r) (fun (j ind2 : Nat) =>
      ([(n2 : E) + n_r, (m3 : E) + m_r, (i : E) + 1, (j : E) + 1, (ind2 : E) + 1,
        (n1 : E) + n2 + j, (m1 : E) + m2 + m3 + i] ++
      (if n1 + n2 + j < N ∧ m1 + m2 + m3 + i < M then
        [(n2 : E) + m3 * N + i * N + j] else []), ind2 + 1)) s) s) s) 0).1

/-- The `int` expressions of `schedule_KMN`. `src/cake_sgemm_k_first.cpp:27-151`. -/
def schedInts (M N K p m_r n_r : Nat) (x : BlkDims) : List E :=
  (range x.Nb).flatMap fun (n : Nat) =>
    let nlast := n == x.Nb - 1 && x.n_pad
    let n_c_t := if nlast then x.n_c1 else x.n_c
    let n1 : E := if nlast then (N : E) - N % x.n_c else (n : E) * x.n_c
    [n1, (n : E) + 1] ++ (serp (n % 2 != 0) x.Mb).flatMap fun (m : Nat) =>
      let kdesc := if n % 2 ≠ 0 then (if m % 2 ≠ 0 then false else true)
                   else (if m % 2 ≠ 0 then true else false)
      let last := m == x.Mb - 1 && x.m_pad
      let p_used := if last then x.p_l else p
      let m_cb : E := if last then (m_r : E) * x.mr_rem else (p_used : E) * x.m_c
      let m1 : E := if last then (M : E) - M % ((p : E) * x.m_c) else rowE m p x.m_c
      [m_cb, m1, (m : E) + 1] ++ (range p_used).flatMap fun (core : Nat) =>
        let m_c_t := if last then (if core = x.p_l - 1 then x.m_c1_last_core else x.m_c1) else x.m_c
        let m_c_x := if last then x.m_c1 else x.m_c
        (serp kdesc x.Kb).flatMap (fun (k : Nat) =>
          let k_c_t := if k == x.Kb - 1 && x.k_pad then x.k_c1 else x.k_c
          [(k : E) + 1, aIndE m p x.m_c K k m_cb x.k_c core m_c_x k_c_t,
            bIndE n K x.n_c k x.k_c n_c_t,
            cIndE n x.M_padded x.n_c m p x.m_c n_c_t core m_c_x] ++
          regInts (aIndE m p x.m_c K k m_cb x.k_c core m_c_x k_c_t) (bIndE n K x.n_c k x.k_c n_c_t)
            m_r n_r m_c_t n_c_t k_c_t) ++
        [cOffE m p x.m_c N n x.n_c core m_c_x, (core : E) * m_c_x, (core : E) + 1,
          (x.m_c : E) * x.n_c] ++
        unpackInts M N m1.val n1.val (core * m_c_x) m_c_t n_c_t m_r n_r

/-- Every `int` expression of a K-first `cake_sgemm` with the given tile sizes. -/
def kfirstInts (M N K p m_r n_r m_c k_c n_c : Nat) : List E :=
  let x := dimsKMN M N K p m_r n_r m_c k_c n_c
  dimsInts M N K p m_r n_r x ++ sizeInts M N K p m_r x ++ packAInts M K p m_r x ++
    packBInts K N n_r x ++ schedInts M N K p m_r n_r x

end Cake
