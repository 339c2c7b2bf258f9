/-
What a convolution is, for the convolution example. Independent of packing, blocking and scheduling.
-/
import Verif.Spec

namespace Cake
open List

/-- The taps of one output element: channel, filter row, filter column. -/
def convTaps (Cin Hf Wf : Nat) : List (Nat × Nat × Nat) :=
  (range Cin).flatMap fun c => (range Hf).flatMap fun hf => (range Wf).map fun wf => (c, hf, wf)

/-- Filter `co` at a tap: filters are stored as `Cout x Cin x Hf x Wf` in A. -/
def filterAt {α : Type _} (s : State α) (Cin Hf Wf co : Nat) (t : Nat × Nat × Nat) : α :=
  s.mem ⟨.A, ((co * Cin + t.1) * Hf + t.2.1) * Wf + t.2.2⟩

/-- The input element under a tap when the filter is at output position `(ho, wo)` with the given stride: the
input is stored as `Cin x Hin x Win` in B. -/
def inputAt {α : Type _} (s : State α) (Hin Win stride ho wo : Nat) (t : Nat × Nat × Nat) : α :=
  s.mem ⟨.B, (t.1 * Hin + (ho * stride + t.2.1)) * Win + (wo * stride + t.2.2)⟩

/-- Place of an output element: the output is stored as `Cout x Hout x Wout` in C. -/
def outLoc (Hout Wout co ho wo : Nat) : Loc := ⟨.C, (co * Hout + ho) * Wout + wo⟩

/-- Output element `(co, ho, wo)` has received the convolution: each tap exactly once, in some order, added to
the value that was there. -/
def ConvolvedAt {α : Type _} (F : Arith α) (s s' : State α) (Hf Wf Hin Win Hout Wout Cin stride co ho wo : Nat) :
    Prop :=
  s'.init (outLoc Hout Wout co ho wo) = true ∧ ∃ order : List (Nat × Nat × Nat), order.Perm (convTaps Cin Hf Wf) ∧
    s'.mem (outLoc Hout Wout co ho wo) =
      order.foldl (fun acc t => F.fma (filterAt s Cin Hf Wf co t) (inputAt s Hin Win stride ho wo t) acc)
        (s.mem (outLoc Hout Wout co ho wo))

/-- The caller's obligations: filters, input and an output of `rows` channels, all initialised; the internal
object names are not in use. -/
structure ConvOK {α : Type _} (s : State α) (Hf Wf Hin Win Hout Wout Cin Cout rows : Nat) : Prop where
  a : Holds s .A Cout (Cin * Hf * Wf)
  b : Holds s .B Cin (Hin * Win)
  c : Holds s .C rows (Hout * Wout)
  fresh : ∀ b, b ≠ .A → b ≠ .B → b ≠ .C → b ≠ .Ctx → s.size b = none

end Cake
