/-
The matrix-vector example (`examples/cake_gemv.cpp`): kernels, tile sizes, schedule, entry point, and the
checker. Object names: A = matrix (`M x K`, column by column), B = vector of length K, C = result of length M.
-/
import Verif.Model.CacheDims

namespace Cake
open List

/-- Lane `l` of the register `c` of the kernel. `examples/cake_gemv.cpp:92`. -/
def gC (t l : Nat) : Loc := ⟨.reg t, l⟩
/-- Lane `l` of register `a[u]`. `examples/cake_gemv.cpp:91`. -/
def gA (t u l : Nat) : Loc := ⟨.reg t, 8 + (u * 8 + l)⟩
/-- Lane `l` of register `b[u]`. `examples/cake_gemv.cpp:91`. -/
def gB (t u l : Nat) : Loc := ⟨.reg t, 72 + (u * 8 + l)⟩

/-- One pass of the loop over `k` handling `n` columns: `n` loads of `a[u]` (columns `S` apart), `n` broadcasts
of `b[u]`, `n` multiply-adds into `c`. `pA`, `pB` are the offsets of the pointers `A`, `B`.
`examples/cake_gemv.cpp:102-128` (`n = 8`), `:132-136` (`n = 1`). -/
def gemvStep (t : Nat) (A B : Loc) (S n pA pB : Nat) : List Op :=
  ((range n).flatMap fun u => (range 8).map fun l => Op.copy (gA t u l) (A +ₚ (pA + u * S + l))) ++
  ((range n).flatMap fun u => (range 8).map fun l => Op.copy (gB t u l) (B +ₚ (pB + u))) ++
  ((range n).flatMap fun u => (range 8).map fun l => Op.fma (gC t l) (gA t u l) (gB t u l))

/-- Both kernels: the columns of A are `S` apart. Carried: the offsets of the pointers `A` and `B`. -/
def gemvKernel (t : Nat) (A B C : Loc) (S k : Nat) : List Op :=
  let rem := k % 8
  let main := loopS (cfor 0 (k - rem) 8) (fun _ (s : Nat × Nat) =>
    (gemvStep t A B S 8 s.1 s.2, (s.1 + 8 * S, s.2 + 8))) (0, 0)
  let left := loopS (range rem) (fun _ (s : Nat × Nat) =>
    (gemvStep t A B S 1 s.1 s.2, (s.1 + S, s.2 + 1))) main.2
  ((range 8).map fun l => Op.copy (gC t l) (C +ₚ l)) ++ main.1 ++ left.1 ++
    ((range 8).map fun l => Op.copy (C +ₚ l) (gC t l))

/-- `cake_sgemv_haswell_8x8_col` (the argument `m` is not used). `examples/cake_gemv.cpp:89-140`. -/
def cake_sgemv_haswell_8x8_col (t : Nat) (A B C : Loc) (_m k M : Nat) : List Op := gemvKernel t A B C M k

/-- `cake_sgemv_haswell_8x8`: A is packed, eight rows per step (the argument `m` is not used).
`examples/cake_gemv.cpp:145-196`. -/
def cake_sgemv_haswell_8x8 (t : Nat) (A B C : Loc) (_m k : Nat) : List Op := gemvKernel t A B C 8 k

/-- `init_block_dims_mvm` after `get_cache_dims_mvm` has given the tile sizes. `x` is what `malloc` left in
the object of block dimensions, and `sch` what `malloc` left in `cache_dims->sch`: `get_cache_dims_mvm` never
sets this field. `examples/cake_gemv.cpp:344-418`. -/
def init_block_dims_mvm (M K p m_r m_c k_c : Nat) (sch : Sched) (x : BlkDims) : Except Fail BlkDims :=
  match sch with
  | .KMN =>
    if k_c = 0 ∨ p * m_c = 0 ∨ m_r = 0 then .error .ub else
    let mr_rem := cdiv (M % (p * m_c)) m_r
    let mr_per_core := cdiv mr_rem p
    let p_l := if mr_per_core ≠ 0 then cdiv mr_rem mr_per_core else 0
    let m_pad := M % (p * m_c) != 0
    let k_pad := K % k_c != 0
    .ok { x with
      m_c := m_c, k_c := k_c, sch := .KMN, m_pad := m_pad, k_pad := k_pad, mr_rem := mr_rem, p_l := p_l
      m_c1 := mr_per_core * m_r
      m_c1_last_core := (mr_per_core - (p_l * mr_per_core - mr_rem)) * m_r
      k_c1 := K % k_c
      Mb := M / (p * m_c) + m_pad.toNat
      Kb := K / k_c + k_pad.toNat
      M_padded := m_r * mr_rem + (M / (p * m_c)) * p * m_c }
  | .MKN =>
    if p * k_c = 0 ∨ m_c = 0 ∨ m_r = 0 then .error .ub else
    let k_rem := K % (p * k_c)
    let k_c1 := cdiv k_rem p
    let p_l := if k_c1 ≠ 0 then cdiv k_rem k_c1 else 0
    let m_pad := M % m_c != 0
    let k_pad := K % (p * k_c) != 0
    let mr_rem := cdiv (M % m_c) m_r
    .ok { x with
      m_c := m_c, k_c := k_c, sch := .MKN, m_pad := m_pad, k_pad := k_pad, k_rem := k_rem, k_c1 := k_c1
      p_l := p_l
      k_c1_last_core := k_rem - k_c1 * (p_l - 1)
      mr_rem := mr_rem
      m_c1 := mr_rem * m_r
      Mb := M / m_c + m_pad.toNat
      Kb := K / (p * k_c) + k_pad.toNat
      M_padded := (M / m_c) * m_c + mr_rem * m_r }
  | _ => .error .exit

/-- `schedule_mvm`: one phase (tasks = cores) per `m`. `examples/cake_gemv.cpp:424-490`. -/
def schedule_mvm (A B C : Loc) (M p m_r : Nat) (x : BlkDims) : List (List (List Op)) :=
  (range x.Mb).flatMap fun m =>
    let last := m == x.Mb - 1 && x.m_pad
    let p_used := if last then x.p_l else p
    [(range p_used).map fun core =>
      let m_c_t := if last then (if core = x.p_l - 1 then x.m_c1_last_core else x.m_c1) else x.m_c
      let m_c_x := if last then x.m_c1 else x.m_c
      (range x.Kb).flatMap fun k =>
        let k_c_t := if k == x.Kb - 1 && x.k_pad then x.k_c1 else x.k_c
        let a_ind := m * p * x.m_c + k * x.k_c * M + core * m_c_x
        let b_ind := k * x.k_c
        let c_ind := m * p * x.m_c + core * m_c_x
        (range (m_c_t / m_r)).flatMap fun m_reg =>
          cake_sgemv_haswell_8x8_col core (A +ₚ (a_ind + m_reg * m_r)) (B +ₚ b_ind)
            (C +ₚ (c_ind + m_reg * m_r)) m_r k_c_t M]

/-- `cake_sgemv`, after `get_cache_dims_mvm` has fixed the tile sizes. `packedA`, `alpha`, `beta` and the
argument `sch` are not used. `sch`, `x` are what `malloc` left in memory (see `init_block_dims_mvm`).
`examples/cake_gemv.cpp:716-767`; the object freed inside `init_block_dims_mvm`: `:315,354`. -/
def cake_sgemv {α : Type _} (A B C : Loc) (M K p m_r : Nat) (_packedA : Bool) (_alpha _beta : α) (m_c k_c : Nat)
    (sch : Sched) (x : BlkDims) : Except Fail Prog := do
  let x ← init_block_dims_mvm M K p m_r m_c k_c sch x
  pure ([.malloc .Blk 1, .malloc .Dims 1, .free .Dims] ++ phases (schedule_mvm A B C M p m_r x) ++ [.free .Blk])

/-- The loop of `cake_sgemv_checker`: `parallel for` over the columns; every iteration is taken as a task (two
iterations may be given to different threads). The array `C_check` is the object Cp.
`examples/cake_gemv.cpp:24-33`. -/
def gemvCheckFill (M K : Nat) : Prog :=
  [.calloc .Cp M, .par ((range K).map fun k => (range M).map fun m =>
    Op.fma ⟨.Cp, m⟩ ⟨.A, k * M + m⟩ ⟨.B, k⟩)]

section
variable {D : Type _} (fl : Flt D)

/-- `mc_L2` in `get_cache_dims_mvm`. `examples/cake_gemv.cpp:281-285`. -/
def mcL2_mvm (cx : CCtx D) (type_size : D) : Except Fail Int := do
  let b := 2
  let mc_L2 ← cInt fl (fl.div (fl.add (fl.ofInt (-b)) (fl.sqrt (fl.add (fl.ofInt (b * b)) (fl.mul (fl.ofInt 4)
    (fl.div (fl.ofInt cx.L2) type_size))))) (fl.ofInt 2))
  let r ← cMod mc_L2 64
  pure (mc_L2 + (64 - r))

/-- `get_cache_dims_mvm`: `(m_c, k_c)`; `user` are the values of `argv[6]`, `argv[7]` if `argv` is given and
`argv[5]` is not zero. `mc_L3` is computed and not used (`mcL3` has the same expression).
`examples/cake_gemv.cpp:273-340`. -/
def get_cache_dims_mvm (cx : CCtx D) (type_size : D) (M p : Int) (user : Option (Int × Int)) :
    Except Fail (Int × Int) := do
  let mc ← mcL2_mvm fl cx type_size
  let _mc_L3 ← mcL3 fl cx type_size
  let mc_ret ← clampMc M p cx.mr mc
  pure (match user with
    | some mk => mk
    | none => (mc_ret, mc_ret))

end
end Cake
