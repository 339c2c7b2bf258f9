/-
The result checker and the plain transpose (`src/util.cpp`).
-/
import Verif.Model.Sgemm

namespace Cake
open List

/-- The loops of `cake_sgemm_checker` filling `C_check` (buffer `Cp` here): a phase per `k`, tasks =
rows. `C_check[..] += A[..] * B[..]` is one operation `fma` of the abstract arithmetic (compilers may or may
not fuse it; no law is assumed). `src/util.cpp:173-188`. -/
def checkPhases (M N K : Nat) : List (List (List Op)) :=
  (range K).map fun k => (range M).map fun m => (range N).map fun n =>
    .fma ⟨.Cp, m * N + n⟩ ⟨.A, m * K + k⟩ ⟨.B, k * N + n⟩

/-- `cake_sgemm_checker` up to the call of `mat_equals`. `src/util.cpp:173-191`. -/
def checkFill (M N K : Nat) : Prog := .calloc .Cp (M * N) :: phases (checkPhases M N K)

/-- `mat_equals`; `exceeds x y` is the test `fabs(x - y) > eps`. The loop carries `(ind1, cnt, CORRECT)`.
The result is `true` (1) for "WRONG". `src/util.cpp:139-168`. -/
def mat_equals {α : Type _} (exceeds : α → α → Bool) (C C_check : Nat → α) (M N : Nat) : Bool :=
  let r := (range M).foldl (fun st _ => (range N).foldl (fun (st : Nat × Nat × Bool) _ =>
    if exceeds (C_check st.1) (C st.1) then (st.1 + 1, st.2.1 + 1, false)
    else (st.1 + 1, st.2.1, st.2.2)) st) (0, 0, true)
  !r.2.2

/-- The verdict of `cake_sgemm_checker` in the state reached after `checkFill`. `src/util.cpp:193-195`. -/
def checkVerdict {α : Type _} (exceeds : α → α → Bool) (M N : Nat) (s : State α) : Bool :=
  mat_equals exceeds (fun i => s.mem ⟨.C, i⟩) (fun i => s.mem ⟨.Cp, i⟩) M N

/-- `add_checker`: `C_check[i] += C_arr[c][i]` for the `p` arrays `C_arr[c]` (buffers `CpC c`), then the
comparison. The addition is written `add acc x`. `src/util.cpp:207-246`. -/
def add_checker {α : Type _} (zero : α) (add : α → α → α) (exceeds : α → α → Bool)
    (C_arr : Nat → Nat → α) (C : Nat → α) (M N p : Nat) : Bool :=
  let chk := (range p).foldl (fun (chk : Nat → α) c =>
    (range (M * N)).foldl (fun chk i => fun j => if j = i then add (chk i) (C_arr c i) else chk j) chk)
    (fun _ => zero)
  let r := (range (M * N)).foldl (fun (st : Nat × Nat × Bool) _ =>
    if exceeds (chk st.1) (C st.1) then (st.1 + 1, st.2.1 + 1, false)
    else (st.1 + 1, st.2.1, st.2.2)) (0, 0, true)
  !r.2.2

/-- `transpose(At, A, M, K)`: sequential. `src/util.cpp:340-347`. `At` is buffer `C`. -/
def transposePlain (M K : Nat) : List Op :=
  (range K).flatMap fun k => (range M).map fun m => .copy ⟨.C, m + k * M⟩ ⟨.A, m * K + k⟩

end Cake
