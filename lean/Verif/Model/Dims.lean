/-
Block dimensions (`src/block_sizing.cpp`), pure integer part.
-/
import Verif.Loops

namespace Cake

/-- `enum sched` (`include/common.h:104`). -/
inductive Sched where
  | KMN | MKN | NKM | NA
  deriving DecidableEq, Repr

/-- `blk_dims_t` (`include/common.h:107-`). Fields the C code leaves unset for a schedule are 0 here
and are never read by the functions of that schedule. -/
structure BlkDims where
  m_c : Nat
  k_c : Nat
  n_c : Nat
  m_c1 : Nat := 0
  k_c1 : Nat := 0
  n_c1 : Nat := 0
  m_c1_last_core : Nat := 0
  k_c1_last_core : Nat := 0
  mr_rem : Nat := 0
  nr_rem : Nat := 0
  k_rem : Nat := 0
  p_l : Nat := 0
  m_pad : Bool := false
  k_pad : Bool := false
  n_pad : Bool := false
  Mb : Nat := 0
  Nb : Nat := 0
  Kb : Nat := 0
  M_padded : Nat := 0
  N_padded : Nat := 0
  pm : Nat := 0
  pn : Nat := 0
  sch : Sched
  deriving Repr

/-- `init_block_dims`, case KMN. `src/block_sizing.cpp:482-515`. All values are non-negative, so `int`
is modelled by `Nat`; `p_l*mr_per_core - mr_rem` and the subtraction from `mr_per_core` never
underflow (`Verif.Proofs.Dims`). -/
def dimsKMN (M N K p m_r n_r m_c k_c n_c : Nat) : BlkDims :=
  let mr_rem := cdiv (M % (p * m_c)) m_r
  let mr_per_core := cdiv mr_rem p
  let p_l := if mr_per_core ≠ 0 then cdiv mr_rem mr_per_core else 0
  let nr_rem := cdiv (N % n_c) n_r
  let n_c1 := nr_rem * n_r
  let m_pad := M % (p * m_c) != 0
  let k_pad := K % k_c != 0
  let n_pad := N % n_c != 0
  { m_c := m_c, k_c := k_c, n_c := n_c
    m_pad := m_pad, k_pad := k_pad, n_pad := n_pad
    mr_rem := mr_rem, p_l := p_l, nr_rem := nr_rem
    n_c1 := n_c1
    m_c1 := mr_per_core * m_r
    m_c1_last_core := (mr_per_core - (p_l * mr_per_core - mr_rem)) * m_r
    k_c1 := K % k_c
    Mb := M / (p * m_c) + m_pad.toNat
    Nb := N / n_c + n_pad.toNat
    Kb := K / k_c + k_pad.toNat
    M_padded := m_r * mr_rem + (M / (p * m_c)) * p * m_c
    N_padded := (N - N % n_c) + n_c1
    pm := p, pn := 1, sch := .KMN }

/-- `init_block_dims`, case MKN. `src/block_sizing.cpp:518-551`. `k_c1*(p_l-1)` is only used when
`p_l ≥ 1`. -/
def dimsMKN (M N K p m_r n_r m_c k_c n_c : Nat) : BlkDims :=
  let k_rem := K % (p * k_c)
  let k_c1 := cdiv k_rem p
  let p_l := if k_c1 ≠ 0 then cdiv k_rem k_c1 else 0
  let nr_rem := cdiv (N % n_c) n_r
  let n_c1 := nr_rem * n_r
  let mr_rem := cdiv (M % m_c) m_r
  let m_c1 := mr_rem * m_r
  let k_pad := K % (p * k_c) != 0
  let m_pad := M % m_c != 0
  let n_pad := N % n_c != 0
  { m_c := m_c, k_c := k_c, n_c := n_c
    m_pad := m_pad, k_pad := k_pad, n_pad := n_pad
    k_rem := k_rem, k_c1 := k_c1, p_l := p_l, nr_rem := nr_rem, n_c1 := n_c1
    k_c1_last_core := k_rem - k_c1 * (p_l - 1)
    mr_rem := mr_rem, m_c1 := m_c1
    Mb := M / m_c + m_pad.toNat
    Kb := K / (p * k_c) + k_pad.toNat
    Nb := N / n_c + n_pad.toNat
    M_padded := (M / m_c) * m_c + m_c1
    N_padded := (N - N % n_c) + n_c1
    pm := p, pn := 1, sch := .MKN }

/-- `init_block_dims`, case NKM. `src/block_sizing.cpp:554-587`. -/
def dimsNKM (M N K p m_r n_r m_c k_c n_c : Nat) : BlkDims :=
  let k_rem := K % (p * k_c)
  let k_c1 := cdiv k_rem p
  let p_l := if k_c1 ≠ 0 then cdiv k_rem k_c1 else 0
  let nr_rem := cdiv (N % n_c) n_r
  let n_c1 := nr_rem * n_r
  let mr_rem := cdiv (M % (p * m_c)) m_r
  let m_c1 := mr_rem * m_r
  let k_pad := K % (p * k_c) != 0
  let m_pad := M % (p * m_c) != 0
  let n_pad := N % n_c != 0
  { m_c := m_c, k_c := k_c, n_c := n_c
    m_pad := m_pad, k_pad := k_pad, n_pad := n_pad
    k_rem := k_rem, k_c1 := k_c1, p_l := p_l, nr_rem := nr_rem, n_c1 := n_c1
    k_c1_last_core := k_rem - k_c1 * (p_l - 1)
    mr_rem := mr_rem, m_c1 := m_c1
    Mb := M / (p * m_c) + m_pad.toNat
    Kb := K / (p * k_c) + k_pad.toNat
    Nb := N / n_c + n_pad.toNat
    M_padded := (M / (p * m_c)) * (p * m_c) + m_c1
    N_padded := (N - N % n_c) + n_c1
    pm := 1, pn := p, sch := .NKM }

/-- `cake_sgemm_packed_A_size` divided by `sizeof(float)`. `src/pack_helper.cpp:5-36`
(`none` = `exit(1)` on an unknown schedule). -/
def packedASize (M K p m_r m_c : Nat) : Sched → Option Nat
  | .KMN => some ((m_r * cdiv (M % (p * m_c)) m_r + (M / (p * m_c)) * p * m_c) * K)
  | .MKN => some (((M / m_c) * m_c + cdiv (M % m_c) m_r * m_r) * K)
  | .NKM => some ((m_r * cdiv (M % (p * m_c)) m_r + (M / (p * m_c)) * p * m_c) * K)
  | .NA => none

/-- `cake_sgemm_packed_B_size` divided by `sizeof(float)`. `src/pack_helper.cpp:40-47`. -/
def packedBSize (K N n_r n_c : Nat) : Nat :=
  K * ((N - N % n_c) + cdiv (N % n_c) n_r * n_r)

/-- `cake_sgemm_packed_C_size` divided by `sizeof(float)`. `src/pack_helper.cpp:51-87`. -/
def packedCSize (M N p m_r n_r m_c n_c : Nat) : Sched → Option Nat
  | .KMN => some ((m_r * cdiv (M % (p * m_c)) m_r + (M / (p * m_c)) * p * m_c) *
      ((N - N % n_c) + cdiv (N % n_c) n_r * n_r))
  | .MKN => some (((M / m_c) * m_c + cdiv (M % m_c) m_r * m_r) *
      ((N - N % n_c) + cdiv (N % n_c) n_r * n_r))
  | .NKM => some ((m_r * cdiv (M % (p * m_c)) m_r + (M / (p * m_c)) * p * m_c) *
      ((N - N % n_c) + cdiv (N % n_c) n_r * n_r))
  | .NA => none

end Cake
