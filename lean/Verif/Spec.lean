/-
Specification vocabulary used by the property theorems: what a caller provides, what "the product"
means, what must be left alone. Independent of packing, blocking and scheduling.
-/
import Verif.Core

namespace Cake
open List

/-- Add the products `a k * b k`, for `k` in the given order, to `c0`, one fused multiply-add each. -/
def dotFrom {α : Type _} (F : Arith α) (a b : Nat → α) (order : List Nat) (c0 : α) : α :=
  order.foldl (fun acc k => F.fma (a k) (b k) acc) c0

/-- Entry `(r, c)` of the row-major matrix with `cols` columns in buffer `b`. -/
def entry {α : Type _} (s : State α) (b : Buf) (cols r c : Nat) : α := s.mem ⟨b, r * cols + c⟩

/-- Buffer `b` is allocated with room for a `rows x cols` matrix. -/
def Room {α : Type _} (s : State α) (b : Buf) (rows cols : Nat) : Prop :=
  ∃ n, s.size b = some n ∧ rows * cols ≤ n

/-- Buffer `b` contains a fully initialised `rows x cols` matrix. -/
def Holds {α : Type _} (s : State α) (b : Buf) (rows cols : Nat) : Prop :=
  Room s b rows cols ∧ ∀ i, i < rows * cols → s.init ⟨b, i⟩ = true

/-- The caller's obligations: A is `M x K`, B is `K x N`, both initialised; C has room for `M x N`;
the internal object names are not in use. Nothing is required of the contents of C. -/
structure CallOK {α : Type _} (s : State α) (M N K : Nat) : Prop where
  a : Holds s .A M K
  b : Holds s .B K N
  c : Room s .C M N
  fresh : ∀ b, b ≠ .A → b ≠ .B → b ≠ .C → b ≠ .Ctx → s.size b = none

/-- Everything that existed at the call (`s`) is as before at the end (`s'`), except the first
`M*N` elements of C; and exactly the same objects are allocated. -/
structure OnlyC {α : Type _} (s s' : State α) (M N : Nat) : Prop where
  keep : ∀ l : Loc, s.size l.buf ≠ none → ¬ (l.buf = .C ∧ l.idx < M * N) →
    s'.mem l = s.mem l ∧ s'.init l = s.init l
  size : s'.size = s.size

/-- C holds the product: every entry is the dot product of a row of A and a column of B, each of the
`K` products entering exactly once, in some order, starting from `c0 r c`. -/
def IsProduct {α : Type _} (F : Arith α) (s s' : State α) (M N K : Nat) (c0 : Nat → Nat → α) : Prop :=
  ∀ r c, r < M → c < N → s'.init ⟨.C, r * N + c⟩ = true ∧ ∃ order : List Nat, order.Perm (range K) ∧
    entry s' .C N r c =
      dotFrom F (fun k => entry s .A K r k) (fun k => entry s .B N k c) order (c0 r c)

/-- The call yields a program (it does not stop with "unknown schedule"); the program can run to its
end; no execution has undefined behaviour; and every execution that is not stopped by a failed
allocation ends in a state satisfying `Q`. -/
def Computes {α : Type _} (F : Arith α) (call : Option Prog) (s : State α) (Q : State α → Prop) : Prop :=
  ∃ prog, call = some prog ∧ (∃ s', Exec F prog s (.ok s')) ∧
    ∀ out, Exec F prog s out → out = .exit ∨ ∃ s', out = .ok s' ∧ Q s'

/-- Exact arithmetic in a commutative semiring. -/
def exact (R : Type _) [Zero R] [Add R] [Mul R] : Arith R := ⟨0, fun a b c => a * b + c⟩

end Cake
