/-
Properties C53 and C54: the packing kernels that work in vector registers.
-/
import Verif.Proofs.PackAsm
import Verif.Spec

namespace Cake
open List

variable {α : Type _}

/-- What a caller of a packing kernel provides: an operand `a` whose elements `(i, j)`, `i < W`, `j < k`, at
distance `i * inca + j * lda`, exist and have values, and room for the elements `j * ldp + i` of `p`, in another
object. -/
structure PackOK (s : State α) (W k inca lda ldp : Nat) (a p : Loc) : Prop where
  apart : a.buf ≠ p.buf
  src : ∀ i j, i < W → j < k → ∃ n, s.size a.buf = some n ∧ a.idx + (i * inca + j * lda) < n ∧
    s.init ⟨a.buf, a.idx + (i * inca + j * lda)⟩ = true
  dst : ∀ i j, i < W → j < k → ∃ n, s.size p.buf = some n ∧ p.idx + (j * ldp + i) < n

/-- `s'` is `s` with element `(i, j)` of the operand copied to `p[j * ldp + i]`, for `i < W` and `j < k`, and
nothing else changed. -/
structure PanelPacked (s s' : State α) (W k inca lda ldp : Nat) (a p : Loc) : Prop where
  size : s'.size = s.size
  panel : ∀ i j, i < W → j < k →
    s'.mem ⟨p.buf, p.idx + (j * ldp + i)⟩ = s.mem ⟨a.buf, a.idx + (i * inca + j * lda)⟩ ∧
    s'.init ⟨p.buf, p.idx + (j * ldp + i)⟩ = true
  frame : ∀ l, (∀ i j, i < W → j < k → l ≠ ⟨p.buf, p.idx + (j * ldp + i)⟩) →
    s'.mem l = s.mem l ∧ s'.init l = s.init l

/-- The register program is defined from state `s`, whatever the registers hold, and packs the panel. -/
def PanelPacks (F : Arith α) (prog : List Ins) (s : State α) (W k inca lda ldp : Nat) (a p : Loc) : Prop :=
  ∀ v, ∃ s' v', runIns F prog (s, v) = some (s', v') ∧ PanelPacked s s' W k inca lda ldp a p

theorem PackOK.inB_src {s : State α} {W k inca lda ldp : Nat} {a p : Loc} (h : PackOK s W k inca lda ldp a p) {i j : Nat}
    (hi : i < W) (hj : j < k) :
    inB s.size (a +ₚ (i * inca + j * lda)) = true ∧ s.init (a +ₚ (i * inca + j * lda)) = true := by
  obtain ⟨n, h1, h2, h3⟩ := h.src i j hi hj
  refine ⟨?_, h3⟩
  simp only [inB, Loc.off, h1]
  exact decide_eq_true h2

theorem PackOK.inB_dst {s : State α} {W k inca lda ldp : Nat} {a p : Loc} (h : PackOK s W k inca lda ldp a p) {i j : Nat}
    (hi : i < W) (hj : j < k) : inB s.size (p +ₚ (j * ldp + i)) = true := by
  obtain ⟨n, h1, h2⟩ := h.dst i j hi hj
  simp only [inB, Loc.off, h1]
  exact decide_eq_true h2

theorem Panel.packs {F : Arith α} {W k inca lda ldp : Nat} {a p : Loc} {prog : List Ins}
    (h : Panel W inca lda ldp k a p prog) (hW : W ≤ ldp) {s : State α} (hs : PackOK s W k inca lda ldp a p) :
    PanelPacks F prog s W k inca lda ldp a p := by
  intro v
  obtain ⟨s', v', e, h1, h2, h3⟩ := h.run (F := F) hW hs.apart (fun i j hi hj => hs.inB_src hi hj)
    (fun i j hi hj => hs.inB_dst hi hj) v
  exact ⟨s', v', e, h1, h2, h3⟩

/-- The result is determined. -/
theorem PanelPacked.unique {s s₁ s₂ : State α} {W k inca lda ldp : Nat} {a p : Loc}
    (h₁ : PanelPacked s s₁ W k inca lda ldp a p) (h₂ : PanelPacked s s₂ W k inca lda ldp a p) : s₁ = s₂ := by
  have hm : ∀ l, s₁.mem l = s₂.mem l ∧ s₁.init l = s₂.init l := by
    intro l
    by_cases h : ∃ i j, i < W ∧ j < k ∧ l = ⟨p.buf, p.idx + (j * ldp + i)⟩
    · obtain ⟨i, j, hi, hj, rfl⟩ := h
      exact ⟨(h₁.panel i j hi hj).1.trans (h₂.panel i j hi hj).1.symm,
        (h₁.panel i j hi hj).2.trans (h₂.panel i j hi hj).2.symm⟩
    · have hl : ∀ i j, i < W → j < k → l ≠ ⟨p.buf, p.idx + (j * ldp + i)⟩ := fun i j hi hj e => h ⟨i, j, hi, hj, e⟩
      exact ⟨(h₁.frame l hl).1.trans (h₂.frame l hl).1.symm, (h₁.frame l hl).2.trans (h₂.frame l hl).2.symm⟩
  obtain ⟨z₁, m₁, i₁⟩ := s₁
  obtain ⟨z₂, m₂, i₂⟩ := s₂
  obtain rfl : z₁ = s.size := h₁.size
  obtain rfl : z₂ = s.size := h₂.size
  obtain rfl : m₁ = m₂ := funext fun l => (hm l).1
  obtain rfl : i₁ = i₂ := funext fun l => (hm l).2
  rfl

/-! ### C53 -/

/-- **C53 (x86, A).** The 6-row kernel, as the library calls it: kappa 1, one of the strides 1, panel height 6,
leading dimension of the panel 6. Every depth `k`, every content of the registers. -/
theorem C53_haswell_6 (F : Arith α) {s : State α} {k inca lda : Nat} {a p : Loc} (h1 : inca = 1 ∨ lda = 1)
    (hs : PackOK s 6 k inca lda 6 a p) :
    PanelPacks F (spackm_haswell_6xk 6 k true a inca lda p 6) s 6 k inca lda 6 a p :=
  (haswell6_panel k a p h1 6).packs (Nat.le_refl _) hs

/-- **C53 (x86, B).** The 16-row kernel. -/
theorem C53_haswell_16 (F : Arith α) {s : State α} {k inca lda : Nat} {a p : Loc} (h1 : inca = 1 ∨ lda = 1)
    (hs : PackOK s 16 k inca lda 16 a p) :
    PanelPacks F (spackm_haswell_16xk 16 k true a inca lda p 16) s 16 k inca lda 16 a p :=
  (haswell16_panel k a p h1 16).packs (Nat.le_refl _) hs

/-- **C53 (ARM, A).** The 8-row kernel. -/
theorem C53_armv8_8 (F : Arith α) {s : State α} {k inca lda : Nat} {a p : Loc} (h1 : inca = 1 ∨ lda = 1)
    (hs : PackOK s 8 k inca lda 8 a p) :
    PanelPacks F (spackm_armv8_8xk 8 k a inca lda p 8) s 8 k inca lda 8 a p :=
  (armv8_8_panel k a p h1 8).packs (Nat.le_refl _) hs

/-- **C53 (ARM, B).** The 12-row kernel. -/
theorem C53_armv8_12 (F : Arith α) {s : State α} {k inca lda : Nat} {a p : Loc} (h1 : inca = 1 ∨ lda = 1)
    (hs : PackOK s 12 k inca lda 12 a p) :
    PanelPacks F (spackm_armv8_12xk 12 k a inca lda p 12) s 12 k inca lda 12 a p :=
  (armv8_12_panel k a p h1 12).packs (Nat.le_refl _) hs

/-- The register program ends in the same state as the plain loops, and neither has undefined behaviour. -/
def SamePanel (F : Arith α) (prog : List Ins) (ops : List Op) (s : State α) : Prop :=
  ∃ s', RunOps F ops s (.ok s') ∧ (∀ out, RunOps F ops s out → out = .ok s') ∧
    ∀ v, ∃ v', runIns F prog (s, v) = some (s', v')

theorem InB_of {size : Buf → Option Nat} {l : Loc} (h : inB size l = true) : InB size l := by
  obtain ⟨b, x⟩ := l
  simp only [inB] at h
  split at h
  · rename_i n hn
    have hx := of_decide_eq_true h
    cases b <;> first | exact trivial | exact ⟨n, hn, hx⟩
  · cases h

theorem PanelPacks.same {F : Arith α} {prog : List Ins} {s : State α} {W k inca lda : Nat} {a p : Loc} {ops : List Op}
    (h : PanelPacks F prog s W k inca lda W a p) (hs : PackOK s W k inca lda W a p)
    (hops : ops = (range k).flatMap fun j => (range W).flatMap fun i =>
      [Op.copy (p +ₚ (j * W + i)) (a +ₚ (i * inca + j * lda))]) : SamePanel F prog ops s := by
  obtain ⟨s', hr, h1, h2, h3⟩ := copies_run (F := F) (src := fun i j => a +ₚ (i * inca + j * lda)) hops (s := s)
    (fun _ _ => hs.apart) (fun i j hi hj => ⟨InB_of (hs.inB_src hi hj).1, (hs.inB_src hi hj).2⟩)
    (fun i j hi hj => InB_of (hs.inB_dst hi hj))
  obtain ⟨out, ho, _⟩ := runOps_exists (F := F) ops s
  refine ⟨s', by rw [← hr out ho]; exact ho, hr, fun v => ?_⟩
  obtain ⟨s'', v', e, hp⟩ := h v
  obtain rfl : s'' = s' := hp.unique ⟨h1, h2, h3⟩
  exact ⟨v', e⟩

/-- **C53 (A, equal to the plain loops).** With the strides the library passes for A (`inca = K`, `lda = 1`) the
6-row and the 8-row kernel end in the state the plain packing loops end in. -/
theorem C53_plain_A (F : Arith α) {s : State α} {k K : Nat} {a p : Loc} :
    (PackOK s 6 k K 1 6 a p →
      SamePanel F (spackm_haswell_6xk 6 k true a K 1 p 6) (pack_A_mr_x_kc a p K k 6) s) ∧
    (PackOK s 8 k K 1 8 a p →
      SamePanel F (spackm_armv8_8xk 8 k a K 1 p 8) (pack_A_mr_x_kc a p K k 8) s) :=
  ⟨fun hs => (C53_haswell_6 F (Or.inr rfl) hs).same hs (packA_mr_eq a p K k 6),
    fun hs => (C53_armv8_8 F (Or.inr rfl) hs).same hs (packA_mr_eq a p K k 8)⟩

/-- **C53 (B, equal to the plain loops).** With the strides the library passes for B (`inca = 1`, `lda = N`) the
16-row and the 12-row kernel end in the state the plain packing loops end in. -/
theorem C53_plain_B (F : Arith α) {s : State α} {k N : Nat} {a p : Loc} :
    (PackOK s 16 k 1 N 16 a p →
      SamePanel F (spackm_haswell_16xk 16 k true a 1 N p 16) (pack_B_nr_x_kc a p N k 16) s) ∧
    (PackOK s 12 k 1 N 12 a p →
      SamePanel F (spackm_armv8_12xk 12 k a 1 N p 12) (pack_B_nr_x_kc a p N k 12) s) :=
  ⟨fun hs => (C53_haswell_16 F (Or.inl rfl) hs).same hs (packB_nr_eq a p N k 16),
    fun hs => (C53_armv8_12 F (Or.inl rfl) hs).same hs (packB_nr_eq a p N k 12)⟩

/-! ### C54 -/

/-- **C54 (ARM), partial.** The ARM kernels honour any leading dimension of the panel not below its height. Missing:
scaling by kappa, other strides, panels with fewer rows. -/
theorem C54_armv8_partial (F : Arith α) {s : State α} {k inca lda ldp : Nat} {a p : Loc} (h1 : inca = 1 ∨ lda = 1) :
    (8 ≤ ldp → PackOK s 8 k inca lda ldp a p →
      PanelPacks F (spackm_armv8_8xk 8 k a inca lda p ldp) s 8 k inca lda ldp a p) ∧
    (12 ≤ ldp → PackOK s 12 k inca lda ldp a p →
      PanelPacks F (spackm_armv8_12xk 12 k a inca lda p ldp) s 12 k inca lda ldp a p) :=
  ⟨fun hl hs => (armv8_8_panel k a p h1 ldp).packs hl hs, fun hl hs => (armv8_12_panel k a p h1 ldp).packs hl hs⟩

/-- **C54 (refuted).** Panels with fewer rows than the kernel has, and operands with both strides different from 1,
are not packed at all, for any depth: the call changes nothing. -/
theorem C54_nothing (F : Arith α) {cdim k inca lda ldp : Nat} {unit : Bool} {a p : Loc} (x : State α × Regs α) :
    (cdim ≠ 6 ∨ (inca ≠ 1 ∧ lda ≠ 1) ∨ unit = false → runIns F (spackm_haswell_6xk cdim k unit a inca lda p ldp) x = some x) ∧
    (cdim ≠ 16 ∨ (inca ≠ 1 ∧ lda ≠ 1) ∨ unit = false → runIns F (spackm_haswell_16xk cdim k unit a inca lda p ldp) x = some x) ∧
    (cdim ≠ 8 ∨ (inca ≠ 1 ∧ lda ≠ 1) → runIns F (spackm_armv8_8xk cdim k a inca lda p ldp) x = some x) ∧
    (cdim ≠ 12 ∨ (inca ≠ 1 ∧ lda ≠ 1) → runIns F (spackm_armv8_12xk cdim k a inca lda p ldp) x = some x) := by
  refine ⟨fun h => ?_, fun h => ?_, fun h => ?_, fun h => ?_⟩
  · have : spackm_haswell_6xk cdim k unit a inca lda p ldp = [] := by
      unfold spackm_haswell_6xk
      simp only
      split
      · rw [if_neg]
        rename_i hc
        rcases h with h | h | h
        · exact absurd hc.1 h
        · exact absurd h hc.2
        · simp [h]
      · rfl
    rw [this]; rfl
  · have : spackm_haswell_16xk cdim k unit a inca lda p ldp = [] := by
      unfold spackm_haswell_16xk
      simp only
      split
      · rw [if_neg]
        rename_i hc
        rcases h with h | h | h
        · exact absurd hc.1 h
        · exact absurd h hc.2
        · simp [h]
      · rfl
    rw [this]; rfl
  · have : spackm_armv8_8xk cdim k a inca lda p ldp = [] := by
      unfold spackm_armv8_8xk
      exact if_neg (by rintro ⟨h1, h2⟩; exact h.elim (fun h => h h1) h2)
    rw [this]; rfl
  · have : spackm_armv8_12xk cdim k a inca lda p ldp = [] := by
      unfold spackm_armv8_12xk
      exact if_neg (by rintro ⟨h1, h2⟩; exact h.elim (fun h => h h1) h2)
    rw [this]; rfl

/-- **C54 (refuted, x86 leading dimension).** The x86 kernels ignore the leading dimension of the panel: if it
exceeds the panel height and there are at least two columns, the element that should receive the last row of the
last column is not written, and column 1 lands where the padding of column 0 is. -/
theorem C54_haswell_ldp (F : Arith α) {s : State α} {k inca lda ldp W : Nat} {a p : Loc} (h1 : inca = 1 ∨ lda = 1)
    (hW : W < ldp) (hk : 2 ≤ k) (hs : PackOK s W k inca lda W a p) {prog : List Ins}
    (hprog : (W = 6 ∧ prog = spackm_haswell_6xk 6 k true a inca lda p ldp) ∨
      (W = 16 ∧ prog = spackm_haswell_16xk 16 k true a inca lda p ldp)) (v : Regs α) :
    ∃ s' v', runIns F prog (s, v) = some (s', v') ∧
      (s'.mem ⟨p.buf, p.idx + ((k - 1) * ldp + (W - 1))⟩ = s.mem ⟨p.buf, p.idx + ((k - 1) * ldp + (W - 1))⟩ ∧
        s'.init ⟨p.buf, p.idx + ((k - 1) * ldp + (W - 1))⟩ = s.init ⟨p.buf, p.idx + ((k - 1) * ldp + (W - 1))⟩) ∧
      s'.mem ⟨p.buf, p.idx + W⟩ = s.mem ⟨a.buf, a.idx + lda⟩ := by
  have hP : Panel W inca lda W k a p prog := by
    rcases hprog with ⟨rfl, rfl⟩ | ⟨rfl, rfl⟩
    · exact haswell6_panel k a p h1 ldp
    · exact haswell16_panel k a p h1 ldp
  have hWp : 0 < W := by omega
  obtain ⟨s', v', e, hp⟩ := hP.packs (F := F) (Nat.le_refl _) hs v
  refine ⟨s', v', e, hp.frame _ ?_, ?_⟩
  · intro i j hi hj e
    simp only [Loc.mk.injEq, true_and] at e
    have h2 : (k - 1) * ldp ≥ (k - 1) * (W + 1) := Nat.mul_le_mul_left _ hW
    have h3 : j * W ≤ (k - 1) * W := Nat.mul_le_mul_right _ (by omega)
    rw [Nat.mul_add, Nat.mul_one] at h2
    omega
  · have := (hp.panel 0 1 hWp (by omega)).1
    simpa using this

/-- **C54 (refuted, ARM kappa).** The ARM kernels copy without scaling: wherever scaling would change an element of
the operand (`scale` is multiplication by kappa, which the kernels do not read), the packed element is not the scaled
one. -/
theorem C54_armv8_unscaled (F : Arith α) {s : State α} {k inca lda ldp W : Nat} {a p : Loc} (h1 : inca = 1 ∨ lda = 1)
    (hW : W ≤ ldp) (hs : PackOK s W k inca lda ldp a p) {prog : List Ins}
    (hprog : (W = 8 ∧ prog = spackm_armv8_8xk 8 k a inca lda p ldp) ∨
      (W = 12 ∧ prog = spackm_armv8_12xk 12 k a inca lda p ldp)) (v : Regs α) (scale : α → α) {i j : Nat}
    (hi : i < W) (hj : j < k)
    (hsc : scale (s.mem ⟨a.buf, a.idx + (i * inca + j * lda)⟩) ≠ s.mem ⟨a.buf, a.idx + (i * inca + j * lda)⟩) :
    ∃ s' v', runIns F prog (s, v) = some (s', v') ∧
      s'.mem ⟨p.buf, p.idx + (j * ldp + i)⟩ ≠ scale (s.mem ⟨a.buf, a.idx + (i * inca + j * lda)⟩) := by
  have hP : Panel W inca lda ldp k a p prog := by
    rcases hprog with ⟨rfl, rfl⟩ | ⟨rfl, rfl⟩
    · exact armv8_8_panel k a p h1 ldp
    · exact armv8_12_panel k a p h1 ldp
  obtain ⟨s', v', e, hp⟩ := hP.packs (F := F) hW hs v
  exact ⟨s', v', e, by rw [(hp.panel i j hi hj).1]; exact hsc.symm⟩

/-! ### The hypotheses can be met -/

/-- Objects of the given sizes, everything readable in A and B. -/
def panelDemo (na np : Nat) : State Int where
  size := fun b => match b with
    | .A => some na
    | .Ap => some np
    | _ => none
  mem := fun l => 3 * l.idx - 7
  init := fun l => match l.buf with
    | .A => true
    | _ => false

/-- An 11-deep strip of 6 rows in the middle of a matrix with 40 columns. -/
example : PackOK (panelDemo 300 66) 6 11 40 1 6 ⟨.A, 20⟩ ⟨.Ap, 0⟩ :=
  ⟨by simp, fun i j hi hj => ⟨300, rfl, by simp only; omega, rfl⟩, fun i j hi hj => ⟨66, rfl, by simp only; omega⟩⟩

example := C53_haswell_6 (exact Int) (s := panelDemo 300 66) (k := 11) (inca := 40) (lda := 1) (a := ⟨.A, 20⟩)
  (p := ⟨.Ap, 0⟩) (Or.inr rfl)
  ⟨by simp, fun i j hi hj => ⟨300, rfl, by simp only; omega, rfl⟩, fun i j hi hj => ⟨66, rfl, by simp only; omega⟩⟩
example := C53_haswell_16 (exact Int) (s := panelDemo 800 176) (k := 11) (inca := 1) (lda := 40) (a := ⟨.A, 20⟩)
  (p := ⟨.Ap, 0⟩) (Or.inl rfl)
  ⟨by simp, fun i j hi hj => ⟨800, rfl, by simp only; omega, rfl⟩, fun i j hi hj => ⟨176, rfl, by simp only; omega⟩⟩
example := C53_armv8_8 (exact Int) (s := panelDemo 400 88) (k := 11) (inca := 40) (lda := 1) (a := ⟨.A, 20⟩)
  (p := ⟨.Ap, 0⟩) (Or.inr rfl)
  ⟨by simp, fun i j hi hj => ⟨400, rfl, by simp only; omega, rfl⟩, fun i j hi hj => ⟨88, rfl, by simp only; omega⟩⟩
example := C53_armv8_12 (exact Int) (s := panelDemo 800 132) (k := 11) (inca := 1) (lda := 40) (a := ⟨.A, 20⟩)
  (p := ⟨.Ap, 0⟩) (Or.inl rfl)
  ⟨by simp, fun i j hi hj => ⟨800, rfl, by simp only; omega, rfl⟩, fun i j hi hj => ⟨132, rfl, by simp only; omega⟩⟩
example := (C53_plain_A (exact Int) (s := panelDemo 300 66) (k := 11) (K := 40) (a := ⟨.A, 20⟩) (p := ⟨.Ap, 0⟩)).1
  ⟨by simp, fun i j hi hj => ⟨300, rfl, by simp only; omega, rfl⟩, fun i j hi hj => ⟨66, rfl, by simp only; omega⟩⟩
example := (C53_plain_B (exact Int) (s := panelDemo 800 132) (k := 11) (N := 40) (a := ⟨.A, 20⟩) (p := ⟨.Ap, 0⟩)).2
  ⟨by simp, fun i j hi hj => ⟨800, rfl, by simp only; omega, rfl⟩, fun i j hi hj => ⟨132, rfl, by simp only; omega⟩⟩
example := (C54_armv8_partial (exact Int) (s := panelDemo 400 200) (k := 11) (inca := 40) (lda := 1) (ldp := 10)
    (a := ⟨.A, 20⟩) (p := ⟨.Ap, 0⟩) (Or.inr rfl)).1 (by decide)
  ⟨by simp, fun i j hi hj => ⟨400, rfl, by simp only; omega, rfl⟩, fun i j hi hj => ⟨200, rfl, by simp only; omega⟩⟩
/-- Five rows of a 6-row panel: nothing is packed. -/
example := (C54_nothing (exact Int) (cdim := 5) (k := 11) (inca := 40) (lda := 1) (ldp := 6) (unit := true)
  (a := ⟨.A, 20⟩) (p := ⟨.Ap, 0⟩) (panelDemo 300 66, fun _ _ => 0)).1 (Or.inl (by decide))
/-- kappa different from 1: nothing is packed. -/
example := (C54_nothing (exact Int) (cdim := 6) (k := 11) (inca := 40) (lda := 1) (ldp := 6) (unit := false)
  (a := ⟨.A, 20⟩) (p := ⟨.Ap, 0⟩) (panelDemo 300 66, fun _ _ => 0)).1 (Or.inr (Or.inr rfl))
example := C54_haswell_ldp (exact Int) (s := panelDemo 300 100) (k := 11) (inca := 40) (lda := 1) (ldp := 8) (W := 6)
  (a := ⟨.A, 20⟩) (p := ⟨.Ap, 0⟩) (Or.inr rfl) (by decide) (by decide)
  ⟨by simp, fun i j hi hj => ⟨300, rfl, by simp only; omega, rfl⟩, fun i j hi hj => ⟨100, rfl, by simp only; omega⟩⟩
  (Or.inl ⟨rfl, rfl⟩) (fun _ _ => 0)
/-- kappa 2, element (3, 4): the packed element is not doubled. -/
example := C54_armv8_unscaled (exact Int) (s := panelDemo 400 88) (k := 11) (inca := 40) (lda := 1) (ldp := 8) (W := 8)
  (a := ⟨.A, 20⟩) (p := ⟨.Ap, 0⟩) (Or.inr rfl) (Nat.le_refl _)
  ⟨by simp, fun i j hi hj => ⟨400, rfl, by simp only; omega, rfl⟩, fun i j hi hj => ⟨88, rfl, by simp only; omega⟩⟩
  (Or.inl ⟨rfl, rfl⟩) (fun _ _ => 0) (fun x => 2 * x) (i := 3) (j := 4) (by decide) (by decide) (by decide)

end Cake
