/-
Executions in which the system can refuse memory. `ItemExec` (Verif.Core) lets `posix_memalign` fail, which the code checks;
here `malloc` and `calloc`, which it does not check, can fail too.
-/
import Verif.Core

namespace Cake
open List

/-- The structs, whose fields are written right after their allocation: `x` (`src/cake_sgemm.cpp:18,35`,
`src/block_sizing.cpp:473`), the tile sizes (`src/block_sizing.cpp:354-357`), the context (`src/block_sizing.cpp:12-14,42-45`). -/
def Buf.isStruct : Buf → Bool
  | .Blk => true
  | .Dims => true
  | .Ctx => true
  | _ => false

/-- The object an item allocates without checking the result. -/
def Item.unchecked : Item → Option Buf
  | .malloc b _ => some b
  | .calloc b _ => some b
  | _ => none

/-- The object an item allocates. -/
def Item.alloc : Item → Option Buf
  | .memalign b _ => some b
  | .malloc b _ => some b
  | .calloc b _ => some b
  | _ => none

/-- Executions of a program with a list of the unchecked allocations that failed. `nul` tells which pointers are null because
their allocation failed. A failed allocation of a struct is undefined behaviour at the next statement, which writes a field. A
failed allocation of floats goes unnoticed: the pointer is null, that is, the object does not exist, so an access to it is
undefined (`Op.Defined`); `free(NULL)` does nothing. Everything else is as in `Exec`. -/
inductive FExec {α} (F : Arith α) : Prog → (Buf → Bool) → State α → List Buf → Out α → Prop
  | nil (nul s) : FExec F [] nul s [] (.ok s)
  | next (i is nul s s' fl out) : (∀ b, i = .free b → nul b = false) → ItemExec F i s (.ok s') →
      FExec F is (fun b => nul b && i.alloc != some b) s' fl out → FExec F (i :: is) nul s fl out
  | exit (i is nul s) : ItemExec F i s .exit → FExec F (i :: is) nul s [] .exit
  | ub (i is nul s) : (∀ b, i = .free b → nul b = false) → ItemExec F i s .ub → FExec F (i :: is) nul s [] .ub
  | failStruct (i b is nul s) : i.unchecked = some b → b.isStruct = true → FExec F (i :: is) nul s [b] .ub
  | fail (i b is nul s fl out) : i.unchecked = some b → b.isStruct = false → s.size b = none →
      FExec F is (fun b' => nul b' || b' == b) s fl out → FExec F (i :: is) nul s (b :: fl) out
  | freeNull (b is nul s fl out) : nul b = true → FExec F is (fun b' => nul b' && b' != b) s fl out →
      FExec F (.free b :: is) nul s fl out

/-- No pointer is null. -/
def noNull : Buf → Bool := fun _ => false

end Cake
