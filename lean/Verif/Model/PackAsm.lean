/-
The register packing kernels: x86 assembly (`src/kernels/haswell/blis_pack_haswell.cpp`) and ARM intrinsics
(`src/kernels/armv8/blis_pack_armv8.cpp`).

The kernels are data oblivious: which instructions run depends on the integer arguments (and, on x86, on whether
kappa equals 1). A kernel is therefore a list of vector instructions, obtained by running the scalar code
(pointer increments, loop counters, jumps), and a machine executes the list.
-/
import Verif.Model.Transpose

namespace Cake
open List

/-- Vector instructions. Registers are numbered; a register has lanes of 4 bytes. `ld d w a`: the `w` lanes of
`d` from `a`, `a+1`, ...; the lanes above become 0 (`vmovss`, `vmovsd`, `vmovups` of an xmm or ymm register,
`vld1q_f32`). `ldLane d i a`: only lane `i` (`vld1q_lane_f32`). `st a s lo w`: lanes `lo .. lo+w-1` to memory
(`vmovss`, `vmovups`, `vmovlpd`: `lo = 0`; `vmovhpd`: `lo = 2`; `vst1q_f32`). The others have no memory operand;
their operands are in the order destination, first source, second source (AT&T syntax, which the file uses, has
the opposite order). -/
inductive Ins where
  | ld (d w : Nat) (a : Loc)
  | ldLane (d i : Nat) (a : Loc)
  | st (a : Loc) (s lo w : Nat)
  | unpckl (d a b : Nat)
  | unpckh (d a b : Nat)
  | shuf (imm d a b : Nat)
  | blend (imm d a b : Nat)
  | extr (d s : Nat)
  | trn1 (d a b : Nat)
  | trn2 (d a b : Nat)
  | trn1d (d a b : Nat)
  | trn2d (d a b : Nat)

/-- `vblendps(imm, ...)`: lane `i` of `b` if bit `i` of `imm` is set, else of `a`. -/
def blendps {β : Type _} (imm : Nat) (a b : Nat → β) (i : Nat) : β := if imm.testBit i then b i else a i

/-- `vextractf128 $1`: lanes 4..7 become lanes 0..3. (The hardware sets lanes 4..7 of the destination to 0; the
kernels never read them, and here they are whatever `a` has beyond lane 7.) -/
def extract1 {β : Type _} (a : Nat → β) (i : Nat) : β := a (4 + i)

/-- `vtrn1q_f32(a, b)` = `a0 b0 a2 b2`. -/
def trn1q {β : Type _} (a b : Nat → β) (i : Nat) : β := if i % 2 = 0 then a i else b (i - 1)
/-- `vtrn2q_f32(a, b)` = `a1 b1 a3 b3`. -/
def trn2q {β : Type _} (a b : Nat → β) (i : Nat) : β := if i % 2 = 0 then a (i + 1) else b i
/-- `vtrn1q_f64(a, b)` = `a0 a1 b0 b1`. -/
def trn1qd {β : Type _} (a b : Nat → β) (i : Nat) : β := if i < 2 then a i else b (i - 2)
/-- `vtrn2q_f64(a, b)` = `a2 a3 b2 b3`. -/
def trn2qd {β : Type _} (a b : Nat → β) (i : Nat) : β := if i < 2 then a (i + 2) else b i

/-- Register file. -/
abbrev Regs (β : Type _) := Nat → Nat → β

/-- Register `d` becomes `x`. -/
def Regs.set {β : Type _} (v : Regs β) (d : Nat) (x : Nat → β) : Regs β := fun r => if r = d then x else v r

/-- The lane movement of an instruction without memory operand. -/
def Ins.move {β : Type _} : Ins → Regs β → Regs β
  | .unpckl d a b, v => v.set d (unpacklo (v a) (v b))
  | .unpckh d a b, v => v.set d (unpackhi (v a) (v b))
  | .shuf imm d a b, v => v.set d (shuffle_ps (v a) (v b) imm)
  | .blend imm d a b, v => v.set d (blendps imm (v a) (v b))
  | .extr d s, v => v.set d (extract1 (v s))
  | .trn1 d a b, v => v.set d (trn1q (v a) (v b))
  | .trn2 d a b, v => v.set d (trn2q (v a) (v b))
  | .trn1d d a b, v => v.set d (trn1qd (v a) (v b))
  | .trn2d d a b, v => v.set d (trn2qd (v a) (v b))
  | _, v => v

/-- A location that may be accessed, as a test. -/
def inB (size : Buf → Option Nat) (l : Loc) : Bool :=
  match size l.buf with
  | some n => decide (l.idx < n)
  | none => false

/-- One instruction. `none` is undefined behaviour: an access outside the object, or a load of an element
without a value. -/
def Ins.run {α : Type _} (F : Arith α) : Ins → State α × Regs α → Option (State α × Regs α)
  | .ld d w a, (s, v) =>
    if (range w).all fun i => inB s.size (a +ₚ i) && s.init (a +ₚ i) then
      some (s, v.set d fun i => if i < w then s.mem (a +ₚ i) else F.zero)
    else none
  | .ldLane d i a, (s, v) =>
    if inB s.size a && s.init a then some (s, v.set d fun j => if j = i then s.mem a else v d j) else none
  | .st a r lo w, (s, v) =>
    if (range w).all fun i => inB s.size (a +ₚ i) then
      some (⟨s.size, fun l => if l.buf = a.buf ∧ a.idx ≤ l.idx ∧ l.idx < a.idx + w then v r (lo + (l.idx - a.idx)) else s.mem l,
        fun l => if l.buf = a.buf ∧ a.idx ≤ l.idx ∧ l.idx < a.idx + w then true else s.init l⟩, v)
    else none
  | i, (s, v) => some (s, i.move v)

/-- A list of instructions. -/
def runIns {α : Type _} (F : Arith α) : List Ins → State α × Regs α → Option (State α × Regs α)
  | [], x => some x
  | i :: is, x => (i.run F x).bind (runIns F is)

/-- A loop of `n` iterations that advances the two pointers by `da` and `dp` each time (`add(r14, rax)`,
`add(imm(..), rbx)`, `dec(rsi)`, `jne`; `a_loc += ..`, `p_loc += ..`). -/
def loopIns (body : Loc → Loc → List Ins) (da dp : Nat) : Nat → Loc → Loc → List Ins
  | 0, _, _ => []
  | n + 1, a, p => body a p ++ loopIns body da dp n (a +ₚ da) (p +ₚ dp)

/-! ### x86 -/

/-- Rows 0-3 of the panel, 8 columns, in the main loop for row storage; the eight stores go to `q c` for column `c`.
`src/kernels/haswell/blis_pack_haswell.cpp:155-186` (6 rows), `495-526`, `534-565`, `573-604`, `612-643` (16 rows:
four times, `r12` and `rcx` advanced). -/
def rows4 (rax : Loc) (r8 r13 : Nat) (q : Nat → Loc) : List Ins :=
  [.ld 4 8 rax, .ld 6 8 (rax +ₚ r8), .ld 8 8 (rax +ₚ r8 * 2), .ld 10 8 (rax +ₚ r13),
   .unpckl 0 4 6, .unpckl 1 8 10, .shuf 0x4e 2 0 1, .blend 0xcc 0 0 2, .blend 0x33 1 1 2,
   .extr 2 0, .st (q 0) 0 0 4, .st (q 4) 2 0 4,
   .extr 2 1, .st (q 1) 1 0 4, .st (q 5) 2 0 4,
   .unpckh 0 4 6, .unpckh 1 8 10, .shuf 0x4e 2 0 1, .blend 0xcc 0 0 2, .blend 0x33 1 1 2,
   .extr 2 0, .st (q 2) 0 0 4, .st (q 6) 2 0 4,
   .extr 2 1, .st (q 3) 1 0 4, .st (q 7) 2 0 4]

/-- Main loop body of the 6-row kernel, row storage (offsets in elements: 24 bytes are 6).
`src/kernels/haswell/blis_pack_haswell.cpp:153-211`. -/
def row6 (r8 r13 r15 : Nat) (rax rbx : Loc) : List Ins :=
  rows4 rax r8 r13 (fun c => rbx +ₚ c * 6) ++
  [.ld 12 8 (rax +ₚ r8 * 4), .ld 14 8 (rax +ₚ r15),
   .unpckl 0 12 14, .extr 2 0, .st (rbx +ₚ (0 * 6 + 4)) 0 0 2, .st (rbx +ₚ (1 * 6 + 4)) 0 2 2,
   .st (rbx +ₚ (4 * 6 + 4)) 2 0 2, .st (rbx +ₚ (5 * 6 + 4)) 2 2 2,
   .unpckh 0 12 14, .extr 2 0, .st (rbx +ₚ (2 * 6 + 4)) 0 0 2, .st (rbx +ₚ (3 * 6 + 4)) 0 2 2,
   .st (rbx +ₚ (6 * 6 + 4)) 2 0 2, .st (rbx +ₚ (7 * 6 + 4)) 2 2 2]

/-- Edge loop body of the 6-row kernel, row storage. `src/kernels/haswell/blis_pack_haswell.cpp:224-244`. -/
def rowLeft6 (r8 r13 r15 : Nat) (rax rbx : Loc) : List Ins :=
  [.ld 0 1 rax, .ld 2 1 (rax +ₚ r8), .ld 4 1 (rax +ₚ r8 * 2), .ld 6 1 (rax +ₚ r13), .ld 1 1 (rax +ₚ r8 * 4),
   .ld 3 1 (rax +ₚ r15), .st rbx 0 0 1, .st (rbx +ₚ 1) 2 0 1, .st (rbx +ₚ 2) 4 0 1, .st (rbx +ₚ 3) 6 0 1,
   .st (rbx +ₚ 4) 1 0 1, .st (rbx +ₚ 5) 3 0 1]

/-- Main loop body of the 6-row kernel, column storage. `src/kernels/haswell/blis_pack_haswell.cpp:264-310`. -/
def col6 (r10 r13 r15 rdx : Nat) (rax rbx : Loc) : List Ins :=
  [.ld 0 4 rax, .ld 1 2 (rax +ₚ 4), .st rbx 0 0 4, .st (rbx +ₚ 4) 1 0 2,
   .ld 2 4 (rax +ₚ r10), .ld 3 2 (rax +ₚ (r10 + 4)), .st (rbx +ₚ 1 * 6) 2 0 4, .st (rbx +ₚ (1 * 6 + 4)) 3 0 2,
   .ld 4 4 (rax +ₚ r10 * 2), .ld 5 2 (rax +ₚ (r10 * 2 + 4)), .st (rbx +ₚ 2 * 6) 4 0 4, .st (rbx +ₚ (2 * 6 + 4)) 5 0 2,
   .ld 6 4 (rax +ₚ r13), .ld 7 2 (rax +ₚ (r13 + 4)), .st (rbx +ₚ 3 * 6) 6 0 4, .st (rbx +ₚ (3 * 6 + 4)) 7 0 2,
   .ld 8 4 (rax +ₚ r10 * 4), .ld 9 2 (rax +ₚ (r10 * 4 + 4)), .st (rbx +ₚ 4 * 6) 8 0 4, .st (rbx +ₚ (4 * 6 + 4)) 9 0 2,
   .ld 10 4 (rax +ₚ r15), .ld 11 2 (rax +ₚ (r15 + 4)), .st (rbx +ₚ 5 * 6) 10 0 4, .st (rbx +ₚ (5 * 6 + 4)) 11 0 2,
   .ld 12 4 (rax +ₚ r13 * 2), .ld 13 2 (rax +ₚ (r13 * 2 + 4)), .st (rbx +ₚ 6 * 6) 12 0 4, .st (rbx +ₚ (6 * 6 + 4)) 13 0 2,
   .ld 14 4 (rax +ₚ rdx), .ld 15 2 (rax +ₚ (rdx + 4)), .st (rbx +ₚ 7 * 6) 14 0 4, .st (rbx +ₚ (7 * 6 + 4)) 15 0 2]

/-- Edge loop body of the 6-row kernel, column storage. `src/kernels/haswell/blis_pack_haswell.cpp:322-333`. -/
def colLeft6 (rax rbx : Loc) : List Ins :=
  [.ld 0 4 rax, .ld 1 2 (rax +ₚ 4), .st rbx 0 0 4, .st (rbx +ₚ 4) 1 0 2]

/-- `bli_spackm_haswell_asm_6xk_new(cdim, k, kappa, a, inca, lda, p, ldp)`; `unit` is the zero flag of
`vucomiss(kappa, 1.0)`, which is set if kappa equals 1 and also if it is a NaN. `ldp` is not used. Strides are taken
as non-negative. `src/kernels/haswell/blis_pack_haswell.cpp:37-362`. -/
def spackm_haswell_6xk (cdim k : Nat) (unit : Bool) (a : Loc) (inca lda : Nat) (p : Loc) (_ldp : Nat) : List Ins :=
  let k_iter := k / 8
  let k_left := k % 8
  let gs := inca ≠ 1 ∧ lda ≠ 1
  if cdim = 6 ∧ ¬ gs then
    let r8 := inca
    let r10 := lda
    let r14 := r10 * 8
    if unit then
      if r8 = 1 then
        let r13 := r10 + r10 * 2
        let r15 := r13 + r10 * 2
        let rdx := r13 + r10 * 4
        loopIns (col6 r10 r13 r15 rdx) r14 (8 * 6) k_iter a p ++
          loopIns colLeft6 r10 6 k_left (a +ₚ k_iter * r14) (p +ₚ k_iter * (8 * 6))
      else
        let r13 := r8 + r8 * 2
        let r15 := r13 + r8 * 2
        loopIns (row6 r8 r13 r15) r14 (8 * 6) k_iter a p ++
          loopIns (rowLeft6 r8 r13 r15) r10 6 k_left (a +ₚ k_iter * r14) (p +ₚ k_iter * (8 * 6))
    else []
  else []

/-- Main loop body of the 16-row kernel, row storage. `src/kernels/haswell/blis_pack_haswell.cpp:489-651`. -/
def row16 (r8 r13 : Nat) (rax rbx : Loc) : List Ins :=
  rows4 rax r8 r13 (fun c => rbx +ₚ c * 16) ++
  rows4 (rax +ₚ r8 * 4) r8 r13 (fun c => rbx +ₚ 4 +ₚ c * 16) ++
  rows4 (rax +ₚ r8 * 4 +ₚ r8 * 4) r8 r13 (fun c => rbx +ₚ 4 +ₚ 4 +ₚ c * 16) ++
  rows4 (rax +ₚ r8 * 4 +ₚ r8 * 4 +ₚ r8 * 4) r8 r13 (fun c => rbx +ₚ 4 +ₚ 4 +ₚ 4 +ₚ c * 16)

/-- Edge loop body of the 16-row kernel, row storage. `src/kernels/haswell/blis_pack_haswell.cpp:663-708`. -/
def rowLeft16 (r8 r13 r15 rdx : Nat) (rax rbx : Loc) : List Ins :=
  let r12 := rax +ₚ r8 * 8
  [.ld 0 1 rax, .ld 2 1 (rax +ₚ r8), .ld 4 1 (rax +ₚ r8 * 2), .ld 6 1 (rax +ₚ r13), .ld 1 1 (rax +ₚ r8 * 4),
   .ld 3 1 (rax +ₚ r15), .ld 5 1 (rax +ₚ r13 * 2), .ld 7 1 (rax +ₚ rdx),
   .st rbx 0 0 1, .st (rbx +ₚ 1) 2 0 1, .st (rbx +ₚ 2) 4 0 1, .st (rbx +ₚ 3) 6 0 1,
   .st (rbx +ₚ 4) 1 0 1, .st (rbx +ₚ 5) 3 0 1, .st (rbx +ₚ 6) 5 0 1, .st (rbx +ₚ 7) 7 0 1,
   .ld 0 1 r12, .ld 2 1 (r12 +ₚ r8), .ld 4 1 (r12 +ₚ r8 * 2), .ld 6 1 (r12 +ₚ r13), .ld 1 1 (r12 +ₚ r8 * 4),
   .ld 3 1 (r12 +ₚ r15), .ld 5 1 (r12 +ₚ r13 * 2), .ld 7 1 (r12 +ₚ rdx),
   .st (rbx +ₚ 8) 0 0 1, .st (rbx +ₚ 9) 2 0 1, .st (rbx +ₚ 10) 4 0 1, .st (rbx +ₚ 11) 6 0 1,
   .st (rbx +ₚ 12) 1 0 1, .st (rbx +ₚ 13) 3 0 1, .st (rbx +ₚ 14) 5 0 1, .st (rbx +ₚ 15) 7 0 1]

/-- Main loop body of the 16-row kernel, column storage. `src/kernels/haswell/blis_pack_haswell.cpp:728-773`. -/
def col16 (r10 r13 r15 rdx : Nat) (rax rbx : Loc) : List Ins :=
  [.ld 0 8 rax, .ld 1 8 (rax +ₚ 8), .st rbx 0 0 8, .st (rbx +ₚ 8) 1 0 8,
   .ld 2 8 (rax +ₚ r10), .ld 3 8 (rax +ₚ (r10 + 8)), .st (rbx +ₚ 1 * 16) 2 0 8, .st (rbx +ₚ (1 * 16 + 8)) 3 0 8,
   .ld 4 8 (rax +ₚ r10 * 2), .ld 5 8 (rax +ₚ (r10 * 2 + 8)), .st (rbx +ₚ 2 * 16) 4 0 8, .st (rbx +ₚ (2 * 16 + 8)) 5 0 8,
   .ld 6 8 (rax +ₚ r13), .ld 7 8 (rax +ₚ (r13 + 8)), .st (rbx +ₚ 3 * 16) 6 0 8, .st (rbx +ₚ (3 * 16 + 8)) 7 0 8,
   .ld 8 8 (rax +ₚ r10 * 4), .ld 9 8 (rax +ₚ (r10 * 4 + 8)), .st (rbx +ₚ 4 * 16) 8 0 8, .st (rbx +ₚ (4 * 16 + 8)) 9 0 8,
   .ld 10 8 (rax +ₚ r15), .ld 11 8 (rax +ₚ (r15 + 8)), .st (rbx +ₚ 5 * 16) 10 0 8, .st (rbx +ₚ (5 * 16 + 8)) 11 0 8,
   .ld 12 8 (rax +ₚ r13 * 2), .ld 13 8 (rax +ₚ (r13 * 2 + 8)), .st (rbx +ₚ 6 * 16) 12 0 8, .st (rbx +ₚ (6 * 16 + 8)) 13 0 8,
   .ld 14 8 (rax +ₚ rdx), .ld 15 8 (rax +ₚ (rdx + 8)), .st (rbx +ₚ 7 * 16) 14 0 8, .st (rbx +ₚ (7 * 16 + 8)) 15 0 8]

/-- Edge loop body of the 16-row kernel, column storage. `src/kernels/haswell/blis_pack_haswell.cpp:785-796`. -/
def colLeft16 (rax rbx : Loc) : List Ins :=
  [.ld 0 8 rax, .ld 1 8 (rax +ₚ 8), .st rbx 0 0 8, .st (rbx +ₚ 8) 1 0 8]

/-- `bli_spackm_haswell_asm_16xk_new`. `src/kernels/haswell/blis_pack_haswell.cpp:372-830`. -/
def spackm_haswell_16xk (cdim k : Nat) (unit : Bool) (a : Loc) (inca lda : Nat) (p : Loc) (_ldp : Nat) : List Ins :=
  let k_iter := k / 8
  let k_left := k % 8
  let gs := inca ≠ 1 ∧ lda ≠ 1
  if cdim = 16 ∧ ¬ gs then
    let r8 := inca
    let r10 := lda
    let r14 := r10 * 8
    if unit then
      if r8 = 1 then
        let r13 := r10 + r10 * 2
        let r15 := r13 + r10 * 2
        let rdx := r13 + r10 * 4
        loopIns (col16 r10 r13 r15 rdx) r14 (8 * 16) k_iter a p ++
          loopIns colLeft16 r10 16 k_left (a +ₚ k_iter * r14) (p +ₚ k_iter * (8 * 16))
      else
        let r13 := r8 + r8 * 2
        let r15 := r13 + r8 * 2
        let rdx := r13 + r8 * 4
        loopIns (row16 r8 r13) r14 (8 * 16) k_iter a p ++
          loopIns (rowLeft16 r8 r13 r15 rdx) r10 16 k_left (a +ₚ k_iter * r14) (p +ₚ k_iter * (8 * 16))
    else []
  else []

/-! ### ARM

Registers 0..11 are `v0` .. `v11`, registers 12..15 are `vt0` .. `vt3`. -/

/-- Transpose of four rows in registers `r .. r+3`. `src/kernels/armv8/blis_pack_armv8.cpp:133-141, 142-150`
(and `290-298, 299-307, 308-316`). -/
def trn4 (r : Nat) : List Ins :=
  [.trn1 12 r (r + 1), .trn2 13 r (r + 1), .trn1 14 (r + 2) (r + 3), .trn2 15 (r + 2) (r + 3),
   .trn1d r 12 14, .trn1d (r + 1) 13 15, .trn2d (r + 2) 12 14, .trn2d (r + 3) 13 15]

/-- Body of the loop for column storage of the 8-row kernel. `src/kernels/armv8/blis_pack_armv8.cpp:92-102`. -/
def armCol8 (a p : Loc) : List Ins := [.ld 0 4 a, .ld 1 4 (a +ₚ 4), .st p 0 0 4, .st (p +ₚ 4) 1 0 4]

/-- Main loop body of the 8-row kernel, row storage. `src/kernels/armv8/blis_pack_armv8.cpp:120-168`. -/
def armRow8 (inca ldp : Nat) (a p : Loc) : List Ins :=
  ((range 8).map fun r => Ins.ld r 4 (a +ₚ inca * r)) ++ trn4 0 ++ trn4 4 ++
  ((range 4).flatMap fun c => [Ins.st (p +ₚ c * ldp) c 0 4, .st (p +ₚ c * ldp +ₚ 4) (4 + c) 0 4])

/-- Edge loop body of the 8-row kernel, row storage. `src/kernels/armv8/blis_pack_armv8.cpp:169-184`. -/
def armRowLeft8 (inca : Nat) (a p : Loc) : List Ins :=
  ((range 8).map fun r => Ins.ldLane (r / 4) (r % 4) (a +ₚ inca * r)) ++ [.st p 0 0 4, .st (p +ₚ 4) 1 0 4]

/-- `bli_spackm_armv8a_int_8xk`; kappa is not used. `src/kernels/armv8/blis_pack_armv8.cpp:49-188`. -/
def spackm_armv8_8xk (cdim k : Nat) (a : Loc) (inca lda : Nat) (p : Loc) (ldp : Nat) : List Ins :=
  let k_iter := k / 4
  let k_left := k % 4
  let gs := inca ≠ 1 ∧ lda ≠ 1
  if cdim = 8 ∧ ¬ gs then
    if inca = 1 then loopIns armCol8 lda ldp (k_iter * 4 + k_left) a p
    else loopIns (armRow8 inca ldp) (4 * lda) (4 * ldp) k_iter a p ++
      loopIns (armRowLeft8 inca) lda ldp k_left (a +ₚ k_iter * (4 * lda)) (p +ₚ k_iter * (4 * ldp))
  else []

/-- Body of the loop for column storage of the 12-row kernel. `src/kernels/armv8/blis_pack_armv8.cpp:239-251`. -/
def armCol12 (a p : Loc) : List Ins :=
  [.ld 0 4 a, .ld 1 4 (a +ₚ 4), .ld 2 4 (a +ₚ 8), .st p 0 0 4, .st (p +ₚ 4) 1 0 4, .st (p +ₚ 8) 2 0 4]

/-- Main loop body of the 12-row kernel, row storage. `src/kernels/armv8/blis_pack_armv8.cpp:273-338`. -/
def armRow12 (inca ldp : Nat) (a p : Loc) : List Ins :=
  ((range 12).map fun r => Ins.ld r 4 (a +ₚ inca * r)) ++ trn4 0 ++ trn4 4 ++ trn4 8 ++
  ((range 4).flatMap fun c =>
    [Ins.st (p +ₚ c * ldp) c 0 4, .st (p +ₚ c * ldp +ₚ 4) (4 + c) 0 4, .st (p +ₚ c * ldp +ₚ 8) (8 + c) 0 4])

/-- Edge loop body of the 12-row kernel, row storage. `src/kernels/armv8/blis_pack_armv8.cpp:339-359`. -/
def armRowLeft12 (inca : Nat) (a p : Loc) : List Ins :=
  ((range 12).map fun r => Ins.ldLane (r / 4) (r % 4) (a +ₚ inca * r)) ++
    [.st p 0 0 4, .st (p +ₚ 4) 1 0 4, .st (p +ₚ 8) 2 0 4]

/-- `bli_spackm_armv8a_int_12xk`; kappa is not used. `src/kernels/armv8/blis_pack_armv8.cpp:197-362`. -/
def spackm_armv8_12xk (cdim k : Nat) (a : Loc) (inca lda : Nat) (p : Loc) (ldp : Nat) : List Ins :=
  let k_iter := k / 4
  let k_left := k % 4
  let gs := inca ≠ 1 ∧ lda ≠ 1
  if cdim = 12 ∧ ¬ gs then
    if inca = 1 then loopIns armCol12 lda ldp (k_iter * 4 + k_left) a p
    else loopIns (armRow12 inca ldp) (4 * lda) (4 * ldp) k_iter a p ++
      loopIns (armRowLeft12 inca) lda ldp k_left (a +ₚ k_iter * (4 * lda)) (p +ₚ k_iter * (4 * ldp))
  else []

end Cake
