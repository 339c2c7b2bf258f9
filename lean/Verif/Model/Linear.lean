/-
The PyTorch layer `linear_forward`, `linear_backward`. The tensor library itself is not part of the
repository: two-dimensional tensors are shapes with an element function, and the operations used
(`t`, `reshape`, `contiguous`, `from_blob`, `sum(0)`, broadcast `add_`) are given their documented meaning.
-/
import Verif.Model.CacheDims

namespace Cake
open List

/-- A two-dimensional tensor: `size(0)`, `size(1)`, elements. -/
structure Tensor (α : Type _) where
  rows : Nat
  cols : Nat
  at_ : Nat → Nat → α

/-- `x.t()`. -/
def Tensor.t {α : Type _} (x : Tensor α) : Tensor α := ⟨x.cols, x.rows, fun i j => x.at_ j i⟩

/-- `x.reshape({rows*cols}).contiguous()` followed by `data_ptr`: the elements in row-major order of the
tensor (of the view, not of the storage behind it). -/
def Tensor.flat {α : Type _} (x : Tensor α) : Nat → α := fun i => x.at_ (i / x.cols) (i % x.cols)

/-- `v.reshape({rows, cols})` of a one-dimensional contiguous tensor. -/
def unflat {α : Type _} (rows cols : Nat) (v : Nat → α) : Tensor α := ⟨rows, cols, fun i j => v (i * cols + j)⟩

/-- Outcome of a call that returns a value; `throw` is an exception of the tensor library. -/
inductive Ret (β : Type _) where
  | ok (v : β)
  | exit
  | ub
  | throw

/-- Continue after a call. -/
def Ret.andThen {β γ : Type _} (r : Ret β) (f : β → Ret γ → Prop) (o : Ret γ) : Prop :=
  match r with
  | .ok v => f v o
  | .exit => o = .exit
  | .ub => o = .ub
  | .throw => o = .throw

/-- The state in which `cake_sgemm` is called: A and B are the buffers of the tensors, exactly as long as
their elements; C is fresh from `calloc`; the context is allocated. -/
def gemmState {α : Type _} (zero : α) (a b : Nat → α) (na nb nc : Nat) : State α where
  size := fun x => match x with
    | .A => some na
    | .B => some nb
    | .C => some nc
    | .Ctx => some 1
    | _ => none
  mem := fun l => match l.buf with
    | .A => a l.idx
    | .B => b l.idx
    | _ => zero
  init := fun _ => true

section
variable {D : Type _} (fl : Flt D) {α : Type _} (F : Arith α) (one : α) (add : α → α → α) (nz : α → Bool)
variable (mc : Machine)

/-- `cake_query_cntx_torch`: `malloc`, then `alpha_n`, `mr`, `nr`, `L2`, `L3` are set. `raw` is what the
allocated memory contained; `m_map`, `n_map`, `ncores` (and `L1`, not modelled) keep it.
`src/block_sizing.cpp:10-37`. -/
def query_cntx_torch (raw : CCtx D) (L2 L3 : Int) : CCtx D :=
  { raw with alpha_n := fl.ofInt 1, mr := mc.arch.sm, nr := mc.arch.sn, L2 := L2, L3 := L3 }

/-- `cake_sgemm(a, b, c, M, N, K, 10, cake_cntx)` with the default arguments, `c` from `calloc`. The value
is the contents of `c` and the context afterwards. `src/linear.cpp:38`, `:67`, `:83`. -/
def gemm10 (cx : CCtx D) (M N K : Nat) (a b : Nat → α) (o : Ret ((Nat → α) × CCtx D)) : Prop :=
  match sgemm_api fl nz mc (some cx) ⟨.A, 0⟩ ⟨.B, 0⟩ ⟨.C, 0⟩
      { M := M, N := N, K := K, p := 10, alpha := one, beta := F.zero } with
  | .error .ub => o = .ub
  | .error .exit => o = .exit
  | .ok (prog, cx') => ∃ e, Exec F prog (gemmState F.zero a b (M * K) (K * N) (M * N)) e ∧
      o = match e with
        | .ok s => .ok (fun i => s.mem ⟨.C, i⟩, cx')
        | .exit => .exit
        | .ub => .ub

/-- `linear_forward`; `bias = none` is an undefined tensor. `src/linear.cpp:12-49`. The reassignment of the
reference arguments `input` and `weight` is not modelled; nor are the two leaked allocations (`output_c`,
the context). `reshape` to another number of elements throws. -/
def linear_forward (raw : CCtx D) (L2 L3 : Int) (input weight : Tensor α) (bias : Option (Nat → α))
    (o : Ret (Tensor α)) : Prop :=
  let M := input.rows
  let N := weight.rows
  let K := input.cols
  let input_c := input.flat
  let weight_c := weight.t.flat
  if weight.cols * weight.rows ≠ N * K then o = .throw else
  ∃ g, gemm10 fl F one nz mc (query_cntx_torch fl mc raw L2 L3) M N K input_c weight_c g ∧
    g.andThen (fun v o =>
      let output := unflat M N v.1
      o = .ok (match bias with
        | some b => ⟨M, N, fun i j => add (output.at_ i j) (b j)⟩
        | none => output)) o

/-- `grad_output.sum(0)` of a `rows x cols` tensor: one column sum per column, rows ascending.
(The library does not promise an order; the theorems use exact arithmetic.) -/
def sum0 (x : Tensor α) : Nat → α := fun j => (range x.rows).foldl (fun acc i => add acc (x.at_ i j)) F.zero

/-- What `linear_backward` computes for the gradient of the bias from `grad_output` (`M x K`): the transposed
tensor is stored contiguously (`M1 x K1`, `M1 = K`, `K1 = input.size(0)`), and that storage is read as a
`K1 x M1` tensor whose rows are summed. `src/linear.cpp:75-79`, `:89-90`. -/
def backward_bias (grad_output : Tensor α) (K1 : Nat) : Nat → α :=
  let t := grad_output.t
  sum0 F add (unflat K1 t.rows t.flat)

/-- `linear_backward`; the bias gradient is only defined if the bias is. `src/linear.cpp:52-104`. As above,
leaks and the reassigned references are not modelled. -/
def linear_backward (raw : CCtx D) (L2 L3 : Int) (grad_output input weight : Tensor α) (bias : Bool)
    (o : Ret (Tensor α × Tensor α × Option (Nat → α))) : Prop :=
  let M := grad_output.rows
  let N := weight.cols
  let K := grad_output.cols
  if weight.rows * weight.cols ≠ N * K then o = .throw else
  ∃ g, gemm10 fl F one nz mc (query_cntx_torch fl mc raw L2 L3) M N K grad_output.flat weight.flat g ∧
    g.andThen (fun v o =>
      let grad_input := unflat M N v.1
      let go := grad_output.t
      let M1 := go.rows
      let K1 := input.rows
      let N1 := input.cols
      if go.rows * go.cols ≠ M1 * K1 then o = .throw else
      ∃ g', gemm10 fl F one nz mc v.2 M1 N1 K1 go.flat input.flat g' ∧
        g'.andThen (fun w o =>
          let grad_weight := unflat M1 N1 w.1
          o = .ok (grad_input, grad_weight,
            if bias then some (backward_bias F add grad_output K1) else none)) o) o

end
end Cake
