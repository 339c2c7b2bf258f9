/-
Choice of schedule and tile sizes (`get_cache_dims`, `derive_schedule`), the context, and the public entry
point `cake_sgemm` from its first line.
-/
import Verif.Model.Dispatch

namespace Cake
open List

/-- The floating-point operations this code uses, on a type `D` of doubles: conversion from `int`, the
arithmetic operations, `sqrt`, rounding to `float`, the conversion `(int) x` (`none` if undefined), and `<=`.
No laws are assumed here; see `Verif.Model.Double` for IEEE arithmetic. -/
structure Flt (D : Type _) where
  ofInt : Int → D
  add : D → D → D
  sub : D → D → D
  mul : D → D → D
  div : D → D → D
  sqrt : D → D
  single : D → D
  trunc : D → Option Int
  le : D → D → Bool

/-- Abnormal ends: `exit(1)`, undefined behaviour. -/
inductive Fail where
  | exit | ub
  deriving DecidableEq, Repr

/-- `cake_cntx_t`, the fields the dense code uses. `include/common.h:138-151`. -/
structure CCtx (D : Type _) where
  alpha_n : D
  mr : Int
  nr : Int
  m_map : Int
  n_map : Int
  L2 : Int
  L3 : Int
  ncores : Int

/-- `cache_dims_t`. `include/common.h:154-159`. -/
structure CacheDims where
  m_c : Int
  k_c : Int
  n_c : Int
  sch : Sched
  deriving DecidableEq, Repr

/-- C's `a / b` on `int`; undefined for `b = 0`. -/
def cDiv (a b : Int) : Except Fail Int := if b = 0 then .error .ub else .ok (a.tdiv b)
/-- C's `a % b` on `int`; undefined for `b = 0`. -/
def cMod (a b : Int) : Except Fail Int := if b = 0 then .error .ub else .ok (a.tmod b)
/-- C's `(int) x`. -/
def cInt {D : Type _} (fl : Flt D) (x : D) : Except Fail Int := match fl.trunc x with
  | some n => .ok n
  | none => .error .ub

section
variable {D : Type _} (fl : Flt D)

/-- `derive_schedule`. `src/block_sizing.cpp:434-462`. In `N <= N_cut_M` the `int` is converted to `float`.
-/
def derive_schedule (cx : CCtx D) (M N K p mc_ret : Int) : Sched :=
  let i := fl.ofInt
  let m := fl.single (i (p * mc_ret))
  let k := fl.single (i (p * mc_ret))
  let n := fl.single (i (p * mc_ret))
  let K_cut_M := fl.single (fl.div (fl.mul (i 2) (i M))
    (fl.add (i 1) (fl.mul (i M) (fl.sub (fl.div (i 2) k) (fl.div (i 1) m)))))
  let K_cut_N := fl.single (fl.div (fl.mul (i 2) (i N))
    (fl.add (i 1) (fl.mul (i N) (fl.sub (fl.div (i 2) k) (fl.div (i 1) n)))))
  let m := fl.single (fl.mul (fl.mul cx.alpha_n (i p)) (i mc_ret))
  let n := fl.single (fl.mul (fl.mul cx.alpha_n (i p)) (i mc_ret))
  let N_cut_M := fl.single (fl.div (i M)
    (fl.add (i 1) (fl.mul (i M) (fl.sub (fl.div (i 1) n) (fl.div (i 1) m)))))
  let M_cut_N := fl.single (fl.div (i N)
    (fl.add (i 1) (fl.mul (i N) (fl.sub (fl.div (i 1) m) (fl.div (i 1) n)))))
  if fl.le (fl.single (i N)) N_cut_M && fl.le (fl.single (i K)) K_cut_M then .MKN
  else if fl.le (fl.single (i M)) M_cut_N && fl.le (fl.single (i K)) K_cut_N then .NKM
  else .KMN

/-- `set_schedule`. `src/cake_sgemm.cpp:768-788`. -/
def set_schedule (sch : Sched) (M N K : Int) : Sched :=
  if sch = .NA then
    if M ≥ 2 * K ∧ M ≥ N then .MKN
    else if K ≥ M ∧ K ≥ N then .KMN
    else if N ≥ 2 * K ∧ N ≥ M then .NKM
    else .KMN
  else sch

/-- `mc_L2`. `src/block_sizing.cpp:317-321`. -/
def mcL2 (cx : CCtx D) (type_size : D) : Except Fail Int := do
  let b := 2 * cx.nr
  let mc_L2 ← cInt fl (fl.div (fl.add (fl.ofInt (-b)) (fl.sqrt (fl.add (fl.ofInt (b * b)) (fl.mul (fl.ofInt 4)
    (fl.div (fl.ofInt cx.L2) (fl.single (fl.mul (fl.ofInt 2) type_size))))))) (fl.ofInt 2))
  let r ← cMod mc_L2 cx.mr
  pure (mc_L2 - r)

/-- `mc_L3`. `src/block_sizing.cpp:329-331`. -/
def mcL3 (cx : CCtx D) (type_size : D) : Except Fail Int := do
  let t := fl.ofInt cx.ncores
  let mc_L3 ← cInt fl (fl.sqrt (fl.div (fl.div (fl.ofInt cx.L3) (fl.single (fl.mul (fl.ofInt 2) type_size)))
    (fl.mul t (fl.add (fl.add (fl.ofInt 1) (fl.ofInt 1)) (fl.mul (fl.ofInt 1) t)))))
  let r ← cMod mc_L3 cx.mr
  pure (mc_L3 - r)

/-- Clamping of `mc` for small M. `src/block_sizing.cpp:340-354`. -/
def clampMc (M p mr mc : Int) : Except Fail Int :=
  if M < p * mr then pure mr
  else if M < p * mc then do
    let a ← cDiv M p
    if a < mr then pure mr
    else do
      let r ← cMod a mr
      pure (a + (mr - r))
  else pure mc

/-- `x -= x % r; x = x == 0 ? r : x`. `src/block_sizing.cpp:378-379` and three more places. -/
def roundDown (x r : Int) : Except Fail Int := do
  let m ← cMod x r
  pure (if x - m = 0 then r else x - m)

/-- `get_cache_dims`; the context is returned with its new `alpha_n`. `src/block_sizing.cpp:304-429`
(the allocation of `cache_dims_t` is in `cake_sgemm`). Overflow of `int` is not modelled here; see `get_cache_dims32` in `Verif.Model.Api32`. -/
def get_cache_dims (cx : CCtx D) (M N K p : Int) (sch : Sched) (type_size : D) (mcu kcu ncu : Int) :
    Except Fail (CacheDims × CCtx D) := do
  let mc_L2 ← mcL2 fl cx type_size
  let mc_L3 ← mcL3 fl cx type_size
  let cx := { cx with alpha_n := fl.div (fl.ofInt mc_L3) (fl.ofInt mc_L2) }
  let mc_ret ← clampMc M p cx.mr mc_L2
  let s := if sch = .NA then derive_schedule fl cx M N K p mc_ret else sch
  if mcu ≠ 0 ∧ ncu ≠ 0 ∧ kcu ≠ 0 then
    pure (⟨mcu, kcu, ncu, s⟩, { cx with alpha_n := fl.ofInt 1 })
  else match s with
    | .KMN => do
      let t ← cInt fl (fl.mul (fl.mul cx.alpha_n (fl.ofInt p)) (fl.ofInt mc_ret))
      let nc_ret ← roundDown t cx.nr
      pure (⟨mc_ret, mc_ret, nc_ret, s⟩, cx)
    | .MKN => do
      let t ← cInt fl (fl.mul (fl.mul cx.alpha_n (fl.ofInt p)) (fl.ofInt mc_ret))
      let nc_ret ← roundDown t cx.nr
      pure (⟨mc_ret, mc_ret, nc_ret, s⟩, cx)
    | .NKM => do
      let nc_ret ← roundDown mc_ret cx.nr
      let t ← cInt fl (fl.mul cx.alpha_n (fl.ofInt mc_ret))
      let mc_ret ← roundDown t cx.mr
      pure (⟨mc_ret, mc_ret, nc_ret, s⟩, cx)
    | .NA => .error .exit

/-- What `cake_query_cntx` and the compiled library contribute: cache sizes and core count of the machine
(`get_cache_size`, `get_num_physical_cores`: external commands, not modelled), generator constants, limits of
the generated kernel table, and the kernel inlined in `cake_sgemm_ukernel`. -/
structure Machine where
  arch : Arch
  m_lim : Nat
  n_lim : Nat
  kfix : KDim
  L2 : Int
  L3 : Int
  ncores : Int

/-- `cake_query_cntx` (without the allocation). `src/block_sizing.cpp:40-75`. -/
def query_cntx (mc : Machine) : CCtx D where
  alpha_n := fl.ofInt 1
  mr := mc.arch.sm
  nr := mc.arch.sn
  m_map := mc.arch.m_map mc.arch.sm
  n_map := mc.arch.n_map mc.arch.sn
  L2 := mc.L2
  L3 := mc.L3
  ncores := mc.ncores

/-- `update_mr_nr`. `src/block_sizing.cpp:78-83`. -/
def update_mr_nr {D : Type _} (mc : Machine) (cx : CCtx D) (m_r n_r : Nat) : CCtx D :=
  { cx with mr := m_r, nr := n_r, m_map := mc.arch.m_map m_r, n_map := mc.arch.n_map n_r }

/-- What the schedules get from a context. `kernel_map[m_map][n_map]` out of bounds is undefined behaviour;
here it is reported for every schedule, while the code evaluates it only in the K-first one. -/
def CCtx.view {D : Type _} (mc : Machine) (cx : CCtx D) : Except Fail Cntx :=
  match (idx? (mc.arch.kernel_map mc.m_lim mc.n_lim) cx.m_map).bind (fun row => idx? row cx.n_map) with
  | some k => .ok ⟨cx.mr.toNat, cx.nr.toNat, k, mc.kfix⟩
  | none => .error .ub

/-- Arguments of a call besides the matrices. `include/cake.h:12-14`. -/
structure Args (α : Type _) where
  M : Nat
  N : Nat
  K : Nat
  p : Nat
  packedA : Bool := false
  packedB : Bool := false
  alpha : α
  beta : α
  sch : Sched := .NA
  mcu : Nat := 0
  kcu : Nat := 0
  ncu : Nat := 0

/-- `cake_sgemm` from its first line: the context (allocated and never freed if the caller passes `NULL`), then
tile sizes and schedule, then the product. Returns the program that is run and the context afterwards.
A tile size below 1 leads to a division by zero in `init_block_dims` and is reported as undefined.
`src/cake_sgemm.cpp:9-175`, `src/block_sizing.cpp:465-480`. -/
def sgemm_api {α : Type _} (nz : α → Bool) (mc : Machine) (cntx : Option (CCtx D)) (A B C : Loc)
    (a : Args α) : Except Fail (Prog × CCtx D) := do
  let cx := cntx.getD (query_cntx fl mc)
  let (d, cx') ← get_cache_dims fl cx a.M a.N a.K a.p a.sch (fl.ofInt 4) a.mcu a.kcu a.ncu
  let v ← cx'.view mc
  if d.m_c ≤ 0 ∨ d.k_c ≤ 0 ∨ d.n_c ≤ 0 ∨ a.p = 0 then .error .ub
  else
    let call := cake_sgemm nz v A B C a.M a.N a.K a.p a.packedA a.packedB a.alpha a.beta d.m_c.toNat
      d.k_c.toNat d.n_c.toNat d.sch
    match call with
    | some prog => pure ((if cntx.isNone then [Item.malloc .Ctx 1] else []) ++ prog, cx')
    | none => .error .exit

end
end Cake
