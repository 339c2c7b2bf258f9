/-
Property C56: the convolution example.
-/
import Verif.ConvSpec
import Verif.Proofs.ConvNeeds
import Verif.Proofs.Im2col
import Verif.Proofs.Exact
import Verif.Proofs.CacheDims
import Verif.Model.Linear

namespace Cake
open List

/-- A caller's state: filters, input, output of `nc` elements, all initialised; output 0. -/
theorem convState_ok {α : Type _} (zero : α) (a b : Nat → α) (Hf Wf Hin Win Hout Wout Cin Cout rows : Nat) :
    ConvOK (gemmState zero a b (Cout * (Cin * Hf * Wf)) (Cin * (Hin * Win)) (rows * (Hout * Wout)))
      Hf Wf Hin Win Hout Wout Cin Cout rows :=
  ⟨⟨⟨_, rfl, Nat.le_refl _⟩, fun _ _ => rfl⟩, ⟨⟨_, rfl, Nat.le_refl _⟩, fun _ _ => rfl⟩,
    ⟨⟨_, rfl, Nat.le_refl _⟩, fun _ _ => rfl⟩, fun b h1 h2 h3 h4 => by cases b <;> first | rfl | contradiction⟩

theorem outLoc_eq (Hout Wout co ho wo : Nat) :
    outLoc Hout Wout co ho wo = ⟨.C, co * (Hout * Wout) + (ho * Wout + wo)⟩ := by
  unfold outLoc; congr 1; ring

section
variable {p m_c k_c n_c Wf Hf Win Hin Wout Hout Cin Cout : Nat} (h : TileOK p 6 1 m_c k_c n_c)
include h

theorem sconv_some (st : Nat) : ∃ prog,
    cake_sconv ⟨.A, 0⟩ ⟨.B, 0⟩ ⟨.C, 0⟩ Wf Hf Win Hin Wout Hout Cin Cout st p 6 16 false m_c k_c n_c = some prog := by
  have hz : ¬ (k_c = 0 ∨ n_c = 0 ∨ p * m_c = 0) := by
    have := h.k_c_pos
    have := h.n_c_pos
    have := h.S_pos
    omega
  obtain ⟨aSz, haSz⟩ : ∃ v, packedASize Cout (Cin * Wf * Hf) p 6 m_c .KMN = some v := ⟨_, rfl⟩
  simp only [cake_sconv, if_neg hz, haSz, Option.bind_eq_bind, Option.bind_some]
  exact ⟨_, rfl⟩

/-- **C56**, for filters of nine elements (3x3, also 1x9 and 9x1), stride 1, an input large enough for the
output, an output object with room for the number of channels rounded up to a multiple of 6, and every choice
of tile sizes: the call has no undefined behaviour; every output element in a column below the largest multiple
of 16 has received its convolution, added to what it contained; outside those columns and outside the rounded
number of channels nothing changes, and no object stays allocated. -/
theorem C56_convolution_partial {α : Type _} (F : Arith α) {s : State α} (hT : Wf * Hf = 9)
    (hH : Hout + Hf ≤ Hin + 1) (hW : Wout + Wf ≤ Win + 1)
    (hs : ConvOK s Hf Wf Hin Win Hout Wout Cin Cout ((Cout + 5) / 6 * 6)) :
    Computes F
      (cake_sconv ⟨.A, 0⟩ ⟨.B, 0⟩ ⟨.C, 0⟩ Wf Hf Win Hin Wout Hout Cin Cout 1 p 6 16 false m_c k_c n_c) s fun s' =>
      (∀ co ho wo, co < Cout → ho < Hout → wo < Wout / 16 * 16 →
        ConvolvedAt F s s' Hf Wf Hin Win Hout Wout Cin 1 co ho wo) ∧
      (∀ l : Loc, s.size l.buf ≠ none →
        (∀ row ho wo, row < (Cout + 5) / 6 * 6 → ho < Hout → wo < Wout / 16 * 16 → l ≠ outLoc Hout Wout row ho wo) →
        s'.mem l = s.mem l ∧ s'.init l = s.init l) ∧ s'.size = s.size := by
  obtain ⟨prog, hprog⟩ := sconv_some (Wf := Wf) (Hf := Hf) (Win := Win) (Hin := Hin) (Wout := Wout)
    (Hout := Hout) (Cin := Cin) (Cout := Cout) h 1
  have hpad : padTo Cout (p * m_c) 6 = (Cout + 5) / 6 * 6 := by
    rw [padTo_eq (by norm_num) (h.m_dvd.trans (Dvd.intro_left _ rfl))]; rfl
  refine .of_triple hprog ((sconv_triple h hT hH hW hs.a hs.b (by rw [hpad]; exact hs.c) hs.fresh 1 hprog).conseq
    (fun _ h => h) fun s' hs' => ⟨?_, ?_, hs'.size⟩)
  · intro co ho wo hco hho hwo
    obtain ⟨h1, h2⟩ := hs'.fact co ho wo hco hho hwo
    refine ⟨by rw [outLoc_eq]; exact h1, convOrder Wf Hf Cin k_c, convOrder_perm h.k_c_pos, ?_⟩
    rw [outLoc_eq, h2]
    apply foldl_ext
    intro acc t _
    unfold filterAt inputAt
    have e1 : co * (Cin * 9) + (t.1 * 9 + (t.2.2 + t.2.1 * Wf)) = ((co * Cin + t.1) * Hf + t.2.1) * Wf + t.2.2 := by
      rw [← hT]; ring
    have e2 : t.1 * (Hin * Win) + ((ho + t.2.1) * Win + (wo + t.2.2)) =
        (t.1 * Hin + (ho * 1 + t.2.1)) * Win + (wo * 1 + t.2.2) := by ring
    rw [e1, e2]
  · intro l hl hx
    refine hs'.keep l hl ?_
    rintro ⟨row, hh, wo, g1, g2, g3, rfl⟩
    rw [hpad] at g1
    exact hx row hh wo g1 g2 g3 (outLoc_eq ..).symm

/-- **C56**: with an output width divisible by 16 and a number of output channels divisible by 6 (and output
objects of exactly the right size), all of the output is the convolution. -/
theorem C56_all_outputs_partial {α : Type _} (F : Arith α) {s : State α} (hT : Wf * Hf = 9)
    (hH : Hout + Hf ≤ Hin + 1) (hW : Wout + Wf ≤ Win + 1) (h16 : 16 ∣ Wout) (h6 : 6 ∣ Cout)
    (hs : ConvOK s Hf Wf Hin Win Hout Wout Cin Cout Cout) :
    Computes F
      (cake_sconv ⟨.A, 0⟩ ⟨.B, 0⟩ ⟨.C, 0⟩ Wf Hf Win Hin Wout Hout Cin Cout 1 p 6 16 false m_c k_c n_c) s fun s' =>
      (∀ co ho wo, co < Cout → ho < Hout → wo < Wout → ConvolvedAt F s s' Hf Wf Hin Win Hout Wout Cin 1 co ho wo) ∧
      OnlyC s s' Cout (Hout * Wout) := by
  have e6 : (Cout + 5) / 6 * 6 = Cout := by omega
  have e16 : Wout / 16 * 16 = Wout := Nat.div_mul_cancel h16
  have := C56_convolution_partial h F hT hH hW (by rw [e6]; exact hs)
  refine this.mono fun s' ⟨h1, h2, h3⟩ => ⟨by rwa [e16] at h1, ⟨fun l hl hx => h2 l hl ?_, h3⟩⟩
  rintro row ho wo g1 g2 g3 rfl
  rw [e6] at g1
  rw [e16] at g3
  rw [outLoc_eq] at hx
  exact hx ⟨rfl, mulAdd_lt g1 (mulAdd_lt g2 g3)⟩

end

theorem foldl_taps {R : Type _} [CommSemiring R] (f : Nat × Nat × Nat → R) (l : List (Nat × Nat × Nat)) (x : R) :
    l.foldl (fun acc t => f t + acc) x = x + (l.map f).sum := by
  induction l generalizing x with
  | nil => simp
  | cons t l ih =>
    rw [foldl_cons, ih]
    simp only [map_cons, sum_cons]
    ring

theorem sum_flatMap_range {R : Type _} [AddCommMonoid R] (n : Nat) (g : Nat → List R) :
    ((range n).flatMap g).sum = ∑ i ∈ Finset.range n, (g i).sum := by
  induction n with
  | zero => simp
  | succ n ih => rw [range_succ, flatMap_append, sum_append, ih, Finset.sum_range_succ]; simp

theorem sum_map_range {R : Type _} [AddCommMonoid R] (n : Nat) (g : Nat → R) :
    ((range n).map g).sum = ∑ i ∈ Finset.range n, g i := by
  rw [map_eq_flatMap, sum_flatMap_range]; simp

theorem sum_taps {R : Type _} [CommSemiring R] (Cin Hf Wf : Nat) (f : Nat × Nat × Nat → R) :
    ((convTaps Cin Hf Wf).map f).sum =
      ∑ c ∈ Finset.range Cin, ∑ hf ∈ Finset.range Hf, ∑ wf ∈ Finset.range Wf, f (c, hf, wf) := by
  unfold convTaps
  rw [map_flatMap, sum_flatMap_range]
  refine Finset.sum_congr rfl fun c _ => ?_
  rw [map_flatMap, sum_flatMap_range]
  refine Finset.sum_congr rfl fun hf _ => ?_
  rw [map_map, sum_map_range]
  rfl

/-- **C56**: in exact arithmetic, "has received its convolution" determines the value: the old value plus the
sum over channels and filter positions. -/
theorem C56_exact {R : Type _} [CommSemiring R] {s s' : State R} {Hf Wf Hin Win Hout Wout Cin stride co ho wo : Nat}
    (hc : ConvolvedAt (exact R) s s' Hf Wf Hin Win Hout Wout Cin stride co ho wo) :
    s'.mem (outLoc Hout Wout co ho wo) = s.mem (outLoc Hout Wout co ho wo) +
      ∑ c ∈ Finset.range Cin, ∑ hf ∈ Finset.range Hf, ∑ wf ∈ Finset.range Wf,
        s.mem ⟨.A, ((co * Cin + c) * Hf + hf) * Wf + wf⟩ *
          s.mem ⟨.B, (c * Hin + (ho * stride + hf)) * Win + (wo * stride + wf)⟩ := by
  obtain ⟨_, order, hp, e⟩ := hc
  rw [e]
  have := foldl_taps (fun t => filterAt s Cin Hf Wf co t * inputAt s Hin Win stride ho wo t) order
    (s.mem (outLoc Hout Wout co ho wo))
  refine this.trans ?_
  rw [(hp.map _).sum_eq, sum_taps]
  rfl

section
variable {Wf Hf Win Hin Wout Hout Cin : Nat}

/-- **C56**: `im_2_col` with stride 1 on an input large enough for the output: no undefined behaviour; the new
object holds, in row `(c, hf, wf)` and column `(ho, wo)`, the input element of channel `c` at
`(ho + hf, wo + wf)`; nothing else changes. -/
theorem C56_im2col {α : Type _} (F : Arith α) {s : State α} (hH : Hout + Hf ≤ Hin + 1)
    (hW : Wout + Wf ≤ Win + 1) (hB : Holds s .B Cin (Hin * Win)) (hBp : s.size .Bp = none)
    (hCp : s.size .Cp = none) :
    Computes F (some (im_2_col ⟨.B, 0⟩ Wf Hf Win Hin Wout Hout Cin 1)) s fun s' =>
      (∀ c hf wf ho wo, c < Cin → hf < Hf → wf < Wf → ho < Hout → wo < Wout →
        s'.init ⟨.Cp, ((c * Hf + hf) * Wf + wf) * (Hout * Wout) + (ho * Wout + wo)⟩ = true ∧
        entry s' .Cp (Hout * Wout) ((c * Hf + hf) * Wf + wf) (ho * Wout + wo) =
          inputAt s Hin Win 1 ho wo (c, hf, wf)) ∧
      (∀ l : Loc, s.size l.buf ≠ none → s'.mem l = s.mem l ∧ s'.init l = s.init l) ∧
      ∀ b, b ≠ .Cp → s'.size b = s.size b := by
  refine .of_triple rfl ((im2col_triple hH hW hB hBp hCp 1).conseq (fun _ h => h) fun s' hs' => ⟨?_, ?_, ?_⟩)
  · intro c hf wf ho wo h1 h2 h3 h4 h5
    have := hs'.fact ho wo c hf wf h4 h5 h1 h2 h3
    have e1 : c * (Hf * Wf) + (hf * Wf + wf) = (c * Hf + hf) * Wf + wf := by ring
    have e2 : c * (Hin * Win) + ((ho + hf) * Win + (wo + wf)) = (c * Hin + (ho * 1 + hf)) * Win + (wo * 1 + wf) := by
      ring
    rw [e1, e2] at this
    exact this
  · exact fun l hl => hs'.keep l hl (fun h => h)
  · intro b hb
    rw [hs'.size, szSet_ne _ _ hb]

/-- **C56**: convolution and matrix product agree, in exact arithmetic: whatever has received its convolution
(stride 1) is the old value plus the entry of filters times `im_2_col`. This is what the example program compares.
-/
theorem C56_im2col_product {R : Type _} [CommSemiring R] {s s1 s' : State R} {co ho wo : Nat}
    (hH : Hout + Hf ≤ Hin + 1) (hW : Wout + Wf ≤ Win + 1) (hB : Holds s .B Cin (Hin * Win))
    (hBp : s.size .Bp = none) (hCp : s.size .Cp = none)
    (he : Exec (exact R) (im_2_col ⟨.B, 0⟩ Wf Hf Win Hin Wout Hout Cin 1) s (.ok s1))
    (hc : ConvolvedAt (exact R) s s' Hf Wf Hin Win Hout Wout Cin 1 co ho wo) (hho : ho < Hout)
    (hwo : wo < Wout) :
    s'.mem (outLoc Hout Wout co ho wo) = s.mem (outLoc Hout Wout co ho wo) +
      ∑ k ∈ Finset.range (Cin * Hf * Wf),
        entry s .A (Cin * Hf * Wf) co k * entry s1 .Cp (Hout * Wout) k (ho * Wout + wo) := by
  obtain ⟨h1, _, _⟩ := (C56_im2col (exact R) hH hW hB hBp hCp).of_exec rfl he
  rw [C56_exact hc]
  congr 1
  have e : ∀ g : Nat → R, ∑ k ∈ Finset.range (Cin * Hf * Wf), g k =
      ∑ c ∈ Finset.range Cin, ∑ hf ∈ Finset.range Hf, ∑ wf ∈ Finset.range Wf, g ((c * Hf + hf) * Wf + wf) := by
    intro g
    have two : ∀ (a b : Nat) (g : Nat → R), ∑ k ∈ Finset.range (a * b), g k =
        ∑ i ∈ Finset.range a, ∑ j ∈ Finset.range b, g (i * b + j) := by
      intro a b g
      induction a with
      | zero => simp
      | succ a ih => rw [Nat.succ_mul, Finset.sum_range_add, ih, Finset.sum_range_succ]
    rw [two, two]
  rw [e]
  refine Finset.sum_congr rfl fun c hc => Finset.sum_congr rfl fun hf hhf => Finset.sum_congr rfl fun wf hwf => ?_
  rw [(h1 c hf wf ho wo (Finset.mem_range.1 hc) (Finset.mem_range.1 hhf) (Finset.mem_range.1 hwf) hho hwo).2]
  unfold entry inputAt
  congr 3
  ring

end

/-! ### What the example gets wrong -/

/-- A program that cannot end normally has an execution with undefined behaviour. -/
theorem never_ok {α : Type _} {F : Arith α} {prog : Prog} {s : State α} (h : ∀ s', ¬ Exec F prog s (.ok s')) :
    Exec F prog s .ub ∧ ∀ out, Exec F prog s out → out = .exit ∨ out = .ub := by
  constructor
  · obtain ⟨out, h1, h2⟩ := exec_exists (F := F) prog s
    cases out with
    | ok s' => exact absurd h1 (h s')
    | exit => exact absurd rfl h2
    | ub => exact h1
  · intro out ho
    cases out with
    | ok s' => exact absurd ho (h s')
    | exit => exact Or.inl rfl
    | ub => exact Or.inr rfl

section
variable {p m_c k_c n_c Wf Hf Win Hin Wout Hout Cin Cout st : Nat} (h : TileOK p 6 1 m_c k_c n_c)
variable {α : Type _} {F : Arith α} {s : State α} {prog : Prog}
variable (hprog : cake_sconv ⟨.A, 0⟩ ⟨.B, 0⟩ ⟨.C, 0⟩ Wf Hf Win Hin Wout Hout Cin Cout st p 6 16 false m_c k_c n_c =
  some prog)
include h hprog

/-- **C56 refuted** for a number of output channels that is not a multiple of 6: with an output object of
exactly `Cout*Hout*Wout` elements the call writes beyond it. -/
theorem C56_channels_refuted (h6 : ¬ 6 ∣ Cout) (hHf : 0 < Hf) (hWf : 0 < Wf) (hCin : 0 < Cin) (hHout : 0 < Hout)
    (hWout : 16 ≤ Wout) (hC : s.size .C = some (Cout * (Hout * Wout))) :
    Exec F prog s .ub ∧ ∀ out, Exec F prog s out → out = .exit ∨ out = .ub := by
  refine never_ok fun s' he => ?_
  have hpad : padTo Cout (p * m_c) 6 = (Cout + 5) / 6 * 6 := by
    rw [padTo_eq (by norm_num) (h.m_dvd.trans (Dvd.intro_left _ rfl))]; rfl
  obtain ⟨⟨n, h1, h2⟩, _⟩ := conv_needs h hprog he (row := Cout) (ho := 0) (hf := 0) (wf := 0) (wo := 0) (c := 0)
    (by rw [hpad]; omega) hHout hHf hWf (by omega) hCin
  rw [hC] at h1
  cases h1
  simp at h2

/-- **C56 refuted** for an input that is too small for the output (fewer than `Hout + Hf - 1` rows): with an
input object of exactly `Cin*Hin*Win` elements the call reads beyond it. -/
theorem C56_input_refuted (hHf : 0 < Hf) (hWf : 0 < Wf) (hCin : 0 < Cin) (hCout : 0 < Cout) (hHout : 0 < Hout)
    (hWout : 16 ≤ Wout) (hin : Hin + 1 < Hout + Hf) (hB : s.size .B = some (Cin * (Hin * Win))) :
    Exec F prog s .ub ∧ ∀ out, Exec F prog s out → out = .exit ∨ out = .ub := by
  refine never_ok fun s' he => ?_
  have hpad : 0 < padTo Cout (p * m_c) 6 := Nat.lt_of_lt_of_le hCout (padTo_ge _ _ _ (by norm_num))
  obtain ⟨_, n, h1, h2⟩ := conv_needs h hprog he (row := 0) (ho := Hout - 1) (hf := Hf - 1) (wf := 0) (wo := 0)
    (c := Cin - 1) hpad (by omega) (by omega) hWf (by omega) (by omega)
  rw [hB] at h1
  cases h1
  simp only [Nat.add_zero] at h2
  obtain ⟨c, rfl⟩ : ∃ c, Cin = c + 1 := ⟨Cin - 1, by omega⟩
  have h3 : Hin * Win ≤ (Hout - 1 + (Hf - 1)) * Win := Nat.mul_le_mul_right _ (by omega)
  rw [Nat.add_sub_cancel, Nat.add_mul c, Nat.one_mul] at h2
  omega

/-- **C56 refuted** for every filter that does not have nine elements. -/
theorem C56_filter_refuted (hT : Wf * Hf ≠ 9) (hCin : 0 < Cin) (hCout : 0 < Cout) (hHout : 0 < Hout)
    (hWout : 16 ≤ Wout) : Exec F prog s .ub ∧ ∀ out, Exec F prog s out → out = .exit ∨ out = .ub := by
  rcases Nat.lt_or_gt_of_ne hT with hT | hT
  · exact never_ok fun s' => conv_small_filter h hprog hT hCin hCout
  · exact never_ok fun s' => conv_large_filter h hprog hT hCin hCout hHout hWout

end

section
variable {p m_c k_c n_c Wf Hf Win Hin Wout Hout Cin Cout : Nat} (h : TileOK p 6 1 m_c k_c n_c)
include h

/-- **C56 refuted** for an output width that is not a multiple of 16: the last columns are not computed. For
filters and input all 1 and output 0, the call ends normally and none of these elements is right. -/
theorem C56_columns_refuted (hT : Wf * Hf = 9) (hH : Hout + Hf ≤ Hin + 1) (hW : Wout + Wf ≤ Win + 1)
    (hCin : 0 < Cin) : ∃ s : State Nat, ConvOK s Hf Wf Hin Win Hout Wout Cin Cout ((Cout + 5) / 6 * 6) ∧
      Computes (exact Nat)
        (cake_sconv ⟨.A, 0⟩ ⟨.B, 0⟩ ⟨.C, 0⟩ Wf Hf Win Hin Wout Hout Cin Cout 1 p 6 16 false m_c k_c n_c) s fun s' =>
        ∀ co ho wo, co < Cout → ho < Hout → Wout / 16 * 16 ≤ wo → wo < Wout →
          ¬ ConvolvedAt (exact Nat) s s' Hf Wf Hin Win Hout Wout Cin 1 co ho wo := by
  refine ⟨gemmState 0 (fun _ => 1) (fun _ => 1) _ _ _, convState_ok .., ?_⟩
  refine (C56_convolution_partial h (exact Nat) hT hH hW (convState_ok ..)).mono ?_
  rintro s' ⟨_, h2, _⟩ co ho wo g1 g2 g3 g4 hc
  have e1 := (h2 (outLoc Hout Wout co ho wo) (by simp [outLoc, gemmState]) (by
    intro row ho' wo' r1 r2 r3 e
    rw [outLoc_eq, outLoc_eq] at e
    simp only [Loc.mk.injEq, true_and] at e
    have w1 : wo' < Wout := by omega
    have := mulAdd_inj (mulAdd_lt g2 g4) (mulAdd_lt r2 w1) e
    have := mulAdd_inj g4 w1 this.2
    omega)).1
  have e2 := C56_exact hc
  rw [e1] at e2
  have hHf : 0 < Hf := Nat.pos_of_ne_zero (by rintro rfl; simp at hT)
  have hWf : 0 < Wf := Nat.pos_of_ne_zero (by rintro rfl; simp at hT)
  simp [gemmState] at e2
  omega

omit h in
/-- **C56 refuted** for every stride other than 1: the stride is ignored. With one input channel, 3x3 filters of
all 1, and an input that is 1 in row 0, column 1 and 0 elsewhere, the call ends normally, and the output element
in row 0, column 1 is 1 instead of 0. -/
theorem C56_stride_refuted (h : TileOK p 6 1 m_c k_c n_c) {st : Nat} (hst : 2 ≤ st) :
    ∃ s : State Nat, ConvOK s 3 3 3 (15 * st + 3) 1 16 1 6 6 ∧
      Computes (exact Nat)
        (cake_sconv ⟨.A, 0⟩ ⟨.B, 0⟩ ⟨.C, 0⟩ 3 3 (15 * st + 3) 3 16 1 1 6 st p 6 16 false m_c k_c n_c) s fun s' =>
        ¬ ConvolvedAt (exact Nat) s s' 3 3 3 (15 * st + 3) 1 16 1 st 0 0 1 := by
  obtain ⟨b, hb1, hb⟩ : ∃ b : Nat → Nat, b 1 = 1 ∧ ∀ x, x ≠ 1 → b x = 0 :=
    ⟨fun x => if x = 1 then 1 else 0, rfl, fun x hx => if_neg hx⟩
  refine ⟨gemmState 0 (fun _ => 1) b _ _ _, convState_ok .., ?_⟩
  refine (C56_convolution_partial (Cout := 6) h (exact Nat) (by norm_num) (by norm_num) (by omega)
    (convState_ok ..)).mono ?_
  rintro s' ⟨h1, _, _⟩ hc
  have e1 := C56_exact (h1 0 0 1 (by norm_num) (by norm_num) (by norm_num))
  have e2 := C56_exact hc
  rw [e1] at e2
  simp only [gemmState, outLoc, Finset.sum_range_succ, Finset.sum_range_zero, Nat.zero_mul, Nat.zero_add,
    Nat.add_zero, Nat.mul_one, Nat.one_mul, hb1] at e2
  simp (disch := omega) only [hb] at e2
  omega

end

/-! ### Tile sizes -/

section
variable (r : Rounding 53) (rs : Rounding 24) (nf : Option ℝ → Option ℝ → Bool)

theorem cInt_ok_inv {x : Option ℝ} {n : ℤ} (h : cInt (ieee r rs nf) x = .ok n) :
    ∃ y, x = some y ∧ (n = if 0 ≤ y then ⌊y⌋ else ⌈y⌉) ∧ -2 ^ 31 ≤ n ∧ n < 2 ^ 31 := by
  unfold cInt ieee at h
  cases x with
  | none => simp at h
  | some y =>
    refine ⟨y, rfl, ?_⟩
    simp only [Option.bind_some] at h
    have key : ∀ z : ℤ, (match (if -2 ^ 31 ≤ z ∧ z < 2 ^ 31 then some z else none) with
        | some n => Except.ok n
        | none => (Except.error Fail.ub : Except Fail ℤ)) = Except.ok n → n = z ∧ -2 ^ 31 ≤ n ∧ n < 2 ^ 31 := by
      intro z hz
      by_cases hb : -2 ^ 31 ≤ z ∧ z < 2 ^ 31
      · rw [if_pos hb] at hz
        cases hz
        exact ⟨rfl, hb⟩
      · rw [if_neg hb] at hz
        cases hz
    by_cases hy : 0 ≤ y
    · simp only [if_pos hy] at h ⊢
      exact key _ h
    · simp only [if_neg hy] at h ⊢
      exact key _ h

theorem cCeil_ok_inv {x : Option ℝ} {n : ℤ} (h : cCeil (ieee r rs nf) x = .ok n) {m : ℤ} (hm : 0 ≤ m)
    (hx : ∀ y, x = some y → (m : ℝ) ≤ y) : m ≤ n := by
  unfold cCeil at h
  cases hc : cInt (ieee r rs nf) x with
  | error e => rw [hc] at h; cases h
  | ok k =>
    rw [hc] at h
    obtain ⟨y, rfl, hk, hlo, hhi⟩ := cInt_ok_inv r rs nf hc
    have hy := hx y rfl
    rw [if_pos (le_trans (by exact_mod_cast hm) hy)] at hk
    have : m ≤ k := by rw [hk]; exact Int.le_floor.2 hy
    have h : Except.ok (if (ieee r rs nf).le (some y) ((ieee r rs nf).ofInt k) then k else k + 1) = Except.ok n := h
    rw [Except.ok.injEq] at h
    split at h <;> omega

theorem cFloor_ok_inv {x : Option ℝ} {n : ℤ} (h : cFloor (ieee r rs nf) x = .ok n)
    (hx : ∀ y, x = some y → (0 : ℝ) ≤ y) : 0 ≤ n := by
  unfold cFloor at h
  cases hc : cInt (ieee r rs nf) x with
  | error e => rw [hc] at h; cases h
  | ok k =>
    rw [hc] at h
    obtain ⟨y, rfl, hk, hlo, hhi⟩ := cInt_ok_inv r rs nf hc
    have hy := hx y rfl
    rw [if_pos hy] at hk
    have h0 : 0 ≤ k := by rw [hk]; exact Int.floor_nonneg.2 hy
    have h : Except.ok (if (ieee r rs nf).le ((ieee r rs nf).ofInt k) (some y) then k else k - 1) = Except.ok n := h
    rw [Except.ok.injEq] at h
    have : (ieee r rs nf).le ((ieee r rs nf).ofInt k) (some y) = true := by
      simp only [ieee, decide_eq_true_eq]
      rw [r.int k (by rw [abs_le]; omega), hk]
      exact Int.floor_le y
    rw [if_pos this] at h
    omega


theorem Except.bind_ok {ε α β : Type _} {x : Except ε α} {f : α → Except ε β} {b : β}
    (h : (x >>= f) = .ok b) : ∃ a, x = .ok a ∧ f a = .ok b := by
  cases x with
  | error e => cases h
  | ok a => exact ⟨a, rfl, h⟩

/-- **C56**: the tile sizes the example computes, in IEEE arithmetic with any rounding, whenever the computation
has no undefined behaviour: the number of channels per core is a positive multiple of 6, the number of rows per
block is positive, and the number of input channels per block is positive or 0. -/
theorem C56_tile_sizes {cx : CCtx (Option ℝ)} {a : ℝ} (hmr : cx.mr = 6) (ha : cx.alpha_n = some a) (h0 : 0 ≤ a)
    {Wf Hf Win Wout Cin Cout p : Nat} (hp : 0 < p) (hp' : p ≤ 2 ^ 53) (hc' : Cout ≤ 2 ^ 53) {d : CacheDims}
    (hd : get_cache_dims_conv (ieee r rs nf) cx Wf Hf Win Wout Cin Cout p = .ok d) :
    d.sch = .KMN ∧ 0 ≤ d.m_c ∧ 0 ≤ d.k_c ∧ 0 ≤ d.n_c ∧
      (d.k_c = 0 ∨ TileOK p 6 1 d.m_c.toNat d.k_c.toNat d.n_c.toNat) := by
  unfold get_cache_dims_conv at hd
  obtain ⟨Cm, h1, hd⟩ := Except.bind_ok hd
  obtain ⟨rm, h2, hd⟩ := Except.bind_ok hd
  obtain ⟨mc, h3, hd⟩ := Except.bind_ok hd
  obtain ⟨Hc, h4, hd⟩ := Except.bind_ok hd
  obtain ⟨Ck, h5, hd⟩ := Except.bind_ok hd
  cases hd
  have hpr : (0 : ℝ) < p := by exact_mod_cast hp
  have erp : r.rnd ((p : ℤ) : ℝ) = p := by
    rw [r.int p (by rw [abs_of_nonneg (by positivity)]; exact_mod_cast hp')]; simp
  have erc : r.rnd ((Cout : ℤ) : ℝ) = Cout := by
    rw [r.int Cout (by rw [abs_of_nonneg (by positivity)]; exact_mod_cast hc')]; simp
  have hCm0 : 0 ≤ Cm := by
    refine cCeil_ok_inv r rs nf h1 (le_refl 0) ?_
    intro y hy
    simp only [ieee, Option.bind_some, erp, erc, if_neg hpr.ne', Option.some.injEq] at hy
    rw [← hy]
    exact_mod_cast r.nonneg (by positivity)
  have hCm : p * 6 ≤ Cout → 6 ≤ Cm := by
    intro hle
    refine cCeil_ok_inv r rs nf h1 (by norm_num) ?_
    intro y hy
    simp only [ieee, Option.bind_some, erp, erc, if_neg hpr.ne', Option.some.injEq] at hy
    rw [← hy]
    refine r.ge_int (by norm_num) ?_
    rw [le_div_iff₀ hpr]
    have : ((p * 6 : Nat) : ℝ) ≤ Cout := by exact_mod_cast hle
    push_cast at this ⊢
    linarith
  have hmc : 6 ∣ mc ∧ 6 ≤ mc := by
    rw [hmr] at h2 h3
    unfold cMod at h2
    rw [if_neg (by norm_num)] at h2
    cases h2
    have hdv : (6 : ℤ) ∣ Cm - Cm.tmod 6 := by
      rw [Int.tmod_eq_emod_of_nonneg hCm0]; omega
    unfold clampMc at h3
    split at h3
    · cases h3; exact ⟨dvd_rfl, le_rfl⟩
    · rename_i g1
      split at h3
      · obtain ⟨q, q1, h3⟩ := Except.bind_ok h3
        unfold cDiv at q1
        rw [if_neg (by omega)] at q1
        cases q1
        have hq : ((Cout : ℤ)).tdiv p = ((Cout / p : Nat) : ℤ) := by
          rw [Int.tdiv_eq_ediv_of_nonneg (by positivity)]; rfl
        rw [hq] at h3
        generalize Cout / p = q at h3
        split at h3
        · cases h3; exact ⟨dvd_rfl, le_rfl⟩
        · obtain ⟨q2, q3, h3⟩ := Except.bind_ok h3
          unfold cMod at q3
          rw [if_neg (by norm_num), Int.tmod_eq_emod_of_nonneg (by positivity)] at q3
          cases q3
          cases h3
          omega
      · cases h3
        refine ⟨hdv, ?_⟩
        have := hCm (by omega)
        rw [Int.tmod_eq_emod_of_nonneg hCm0]
        omega
  have hHc : 0 ≤ Hc := by
    refine cFloor_ok_inv r rs nf h4 ?_
    intro y hy
    simp only [ieee, Option.bind_some, ha] at hy
    split at hy
    · cases hy
    · cases hy
      refine r.nonneg (div_nonneg (r.nonneg (mul_nonneg (r.nonneg (mul_nonneg h0 (r.nonneg (by positivity))))
        (r.nonneg ?_))) (r.nonneg (by positivity)))
      exact_mod_cast (by omega : 0 ≤ mc)
  have hk : 0 ≤ (if Ck > (Cin : ℤ) then (Cin : ℤ) else if Ck < 0 then 128 else Ck) := by
    split
    · positivity
    · split <;> omega
  have hn : 0 < if Hc = 0 then 1 else Hc := by split <;> omega
  refine ⟨rfl, by show 0 ≤ mc; omega, hk, hn.le, ?_⟩
  rcases Classical.em ((if Ck > (Cin : ℤ) then (Cin : ℤ) else if Ck < 0 then 128 else Ck) = 0) with e | e
  · exact Or.inl e
  · refine Or.inr ⟨hp, by norm_num, by norm_num, ?_, ?_, ?_, ?_, one_dvd _⟩
    · show 0 < mc.toNat; omega
    · simp only; omega
    · simp only; omega
    · show 6 ∣ mc.toNat; omega

/-- **C56 refuted** for these tile sizes: for 258 output channels, 3x3 filters, an output of width 16 and a
level-2 cache of 256 KiB, one core, the number of input channels per block is 0, and the call divides by it. -/
theorem C56_tile_sizes_refuted {cx : CCtx (Option ℝ)} (hmr : cx.mr = 6) (ha : cx.alpha_n = some 1)
    (hL2 : cx.L2 = 262144) {Cin : Nat} (Hin Hout st : Nat) :
    get_cache_dims_conv (ieee r rs nf) cx 3 3 18 16 Cin 258 1 = .ok ⟨258, 0, 16, .KMN⟩ ∧
    cake_sconv ⟨.A, 0⟩ ⟨.B, 0⟩ ⟨.C, 0⟩ 3 3 18 Hin 16 Hout Cin 258 st 1 6 16 false 258 0 16 = none := by
  refine ⟨?_, rfl⟩
  have ei : ∀ n : ℤ, |n| ≤ 2 ^ 53 → r.rnd (n : ℝ) = n := r.int
  unfold get_cache_dims_conv
  have c1 : cCeil (ieee r rs nf) ((ieee r rs nf).div ((ieee r rs nf).ofInt 258) ((ieee r rs nf).ofInt 1)) = .ok 258 := by
    have e : (ieee r rs nf).div ((ieee r rs nf).ofInt 258) ((ieee r rs nf).ofInt 1) = some 258 := by
      simp only [ieee, Option.bind_some]
      rw [ei 258 (by norm_num), ei 1 (by norm_num), if_neg (by norm_num), Int.cast_one, div_one, ei 258 (by norm_num)]
      norm_num
    rw [e]
    unfold cCeil
    rw [cInt_some r rs nf (n := 258) (by norm_num) (by norm_num) (by norm_num) (by norm_num)]
    show Except.ok (if _ then _ else _) = _
    have : (ieee r rs nf).le (some 258) ((ieee r rs nf).ofInt 258) = true := by
      simp only [ieee, decide_eq_true_eq]
      rw [ei 258 (by norm_num)]; norm_num
    rw [if_pos this]
  have c2 : cFloor (ieee r rs nf) ((ieee r rs nf).div ((ieee r rs nf).mul ((ieee r rs nf).mul (some 1)
      ((ieee r rs nf).ofInt 1)) ((ieee r rs nf).ofInt 258)) ((ieee r rs nf).ofInt 16)) = .ok 16 := by
    obtain ⟨y, e, y1, y2⟩ : ∃ y : ℝ, (ieee r rs nf).div ((ieee r rs nf).mul ((ieee r rs nf).mul (some 1)
        ((ieee r rs nf).ofInt 1)) ((ieee r rs nf).ofInt 258)) ((ieee r rs nf).ofInt 16) = some y ∧ 16 ≤ y ∧ y < 17 := by
      simp only [ieee, Option.bind_some]
      rw [ei 258 (by norm_num), ei 16 (by norm_num), ei 1 (by norm_num), if_neg (by norm_num)]
      have e1 : r.rnd (1 * ((1 : ℤ) : ℝ)) = 1 := by rw [one_mul, ei 1 (by norm_num)]; simp
      have e2 : r.rnd (1 * ((258 : ℤ) : ℝ)) = 258 := by rw [one_mul, ei 258 (by norm_num)]; simp
      rw [e1, e2]
      refine ⟨_, rfl, ?_, ?_⟩
      · exact_mod_cast r.ge_int (n := 16) (by norm_num) (by norm_num)
      · have := r.err (258 / ((16 : ℤ) : ℝ)) (by norm_num [abs_of_pos]) (by norm_num [abs_of_pos])
        have := (abs_le.1 this).2
        rw [abs_of_pos (by norm_num)] at this
        norm_num at this ⊢
        linarith
    rw [e]
    unfold cFloor
    rw [cInt_some r rs nf (n := 16) (by exact_mod_cast y1) (by norm_num; linarith) (by norm_num) (by norm_num)]
    show Except.ok (if _ then _ else _) = _
    have : (ieee r rs nf).le ((ieee r rs nf).ofInt 16) (some y) = true := by
      simp only [ieee, decide_eq_true_eq]
      rw [ei 16 (by norm_num)]; exact_mod_cast y1
    rw [if_pos this]
  have c3 : cCeil (ieee r rs nf) ((ieee r rs nf).div ((ieee r rs nf).sub ((ieee r rs nf).div ((ieee r rs nf).ofInt 262144)
      ((ieee r rs nf).ofInt 4)) ((ieee r rs nf).ofInt 66048)) ((ieee r rs nf).ofInt 2610)) = .ok 0 := by
    obtain ⟨y, e, y1, y2⟩ : ∃ y : ℝ, (ieee r rs nf).div ((ieee r rs nf).sub ((ieee r rs nf).div
        ((ieee r rs nf).ofInt 262144) ((ieee r rs nf).ofInt 4)) ((ieee r rs nf).ofInt 66048))
        ((ieee r rs nf).ofInt 2610) = some y ∧ -1 < y ∧ y ≤ 0 := by
      simp only [ieee, Option.bind_some]
      rw [ei 262144 (by norm_num), ei 4 (by norm_num), ei 66048 (by norm_num), ei 2610 (by norm_num),
        if_neg (by norm_num), Option.bind_some, Option.bind_some,
        if_neg (show ¬ ((2610 : ℤ) : ℝ) = 0 by norm_num)]
      have e1 : r.rnd (((262144 : ℤ) : ℝ) / ((4 : ℤ) : ℝ)) = 65536 := by
        have : ((262144 : ℤ) : ℝ) / ((4 : ℤ) : ℝ) = ((65536 : ℤ) : ℝ) := by norm_num
        rw [this, ei 65536 (by norm_num)]; norm_num
      have e2 : r.rnd (65536 - ((66048 : ℤ) : ℝ)) = -512 := by
        have : (65536 : ℝ) - ((66048 : ℤ) : ℝ) = ((-512 : ℤ) : ℝ) := by norm_num
        rw [this, ei (-512) (by norm_num)]; norm_num
      rw [e1, e2]
      refine ⟨_, rfl, ?_, ?_⟩
      · have ab : |(-512 : ℝ) / ((2610 : ℤ) : ℝ)| = 512 / 2610 := by rw [abs_of_neg (by norm_num)]; norm_num
        have := r.err ((-512) / ((2610 : ℤ) : ℝ)) (by rw [ab]; norm_num) (by rw [ab]; norm_num)
        have := (abs_le.1 this).1
        rw [ab] at this
        norm_num at this ⊢
        linarith
      · have h0 : (-512 : ℝ) / ((2610 : ℤ) : ℝ) ≤ ((0 : ℤ) : ℝ) := by norm_num
        have := r.le_int (n := 0) (by norm_num) h0
        simpa using this
    rw [e]
    have hc : cInt (ieee r rs nf) (some y) = .ok 0 := by
      rcases eq_or_lt_of_le y2 with rfl | y3
      · exact cInt_some r rs nf (by norm_num) (by norm_num) (by norm_num) (by norm_num)
      · unfold cInt
        have : ⌈y⌉ = 0 := Int.ceil_eq_iff.2 ⟨by norm_num; exact y1, by exact_mod_cast y2⟩
        simp only [ieee, Option.bind_some, if_neg (not_le.2 y3), this]
        rfl
    unfold cCeil
    rw [hc]
    show Except.ok (if _ then _ else _) = _
    have : (ieee r rs nf).le (some y) ((ieee r rs nf).ofInt 0) = true := by
      simp only [ieee, decide_eq_true_eq]
      rw [ei 0 (by norm_num)]; exact_mod_cast y2
    rw [if_pos this]
  rw [c1, hmr, ha, hL2]
  show (Except.ok _ >>= _) = _
  have e3 : clampMc 258 1 6 (258 - (258 : ℤ).tmod 6) = .ok 258 := by decide
  show (clampMc 258 1 6 (258 - (258 : ℤ).tmod 6) >>= _) = _
  rw [e3]
  show (cFloor _ _ >>= _) = _
  have e0 : (258 : ℤ) - Int.tmod 258 6 = 258 := by decide
  rw [e0, c2]
  show (cCeil _ _ >>= _) = _
  have e4 : (16 : ℤ) * 16 * 258 = 66048 := by norm_num
  have e5 : (258 : ℤ) * 3 * 3 + 16 * 18 = 2610 := by norm_num
  rw [if_neg (by norm_num), e4, e5, c3]
  show Except.ok _ = _
  have e6 : (if (0 : ℤ) > (Cin : ℤ) then (Cin : ℤ) else if (0 : ℤ) < 0 then 128 else 0) = 0 := by
    rw [if_neg (by omega), if_neg (by norm_num)]
  rw [e6]

end

/-! ### Concrete cases -/

/-- A context of the example: 6 rows, `alpha_n = 1`, 256 KiB. -/
def convCx : CCtx (Option ℝ) := ⟨some 1, 6, 16, 0, 0, 262144, 6291456, 4⟩

/-- Hypotheses of the positive theorems: 6 channels, 3x3 filters, 18x18 input, 16x16 output, two cores. -/
example : TileOK 2 6 1 6 3 4 := ⟨by decide, by decide, by decide, by decide, by decide, by decide, by decide, by decide⟩

example : Computes (exact Int) (cake_sconv ⟨.A, 0⟩ ⟨.B, 0⟩ ⟨.C, 0⟩ 3 3 18 18 16 16 7 12 1 2 6 16 false 6 3 4)
    (gemmState 0 (fun i => i) (fun i => i + 1) (12 * (7 * 3 * 3)) (7 * (18 * 18)) (12 * (16 * 16))) fun s' =>
    OnlyC (gemmState (0 : Int) (fun i => i) (fun i => i + 1) (12 * (7 * 3 * 3)) (7 * (18 * 18)) (12 * (16 * 16))) s' 12
      (16 * 16) :=
  (C56_all_outputs_partial (p := 2) (m_c := 6) (k_c := 3) (n_c := 4)
    ⟨by decide, by decide, by decide, by decide, by decide, by decide, by decide, by decide⟩ (exact Int)
    (Hf := 3) (Wf := 3) (Hin := 18) (Win := 18) (Hout := 16) (Wout := 16) (Cin := 7) (Cout := 12) (by decide)
    (by decide) (by decide) (by decide) (by decide) (convState_ok ..)).mono fun _ h => h.2

/-- A width that is not a multiple of 16 and a number of channels that is not a multiple of 6 meet the hypotheses
of the first theorem, with a 9x1 filter. -/
example : Computes (exact Int) (cake_sconv ⟨.A, 0⟩ ⟨.B, 0⟩ ⟨.C, 0⟩ 1 9 20 24 20 16 5 7 1 2 6 16 false 6 3 4)
    (gemmState 0 (fun i => i) (fun i => i + 1) (7 * (5 * 9 * 1)) (5 * (24 * 20)) (12 * (16 * 20))) fun s' =>
    ConvolvedAt (exact Int) (gemmState 0 (fun i => i) (fun i => i + 1) (7 * (5 * 9 * 1)) (5 * (24 * 20))
      (12 * (16 * 20))) s' 9 1 24 20 16 20 5 1 6 15 15 :=
  (C56_convolution_partial (p := 2) (m_c := 6) (k_c := 3) (n_c := 4)
    ⟨by decide, by decide, by decide, by decide, by decide, by decide, by decide, by decide⟩ (exact Int)
    (Hf := 9) (Wf := 1) (Hin := 24) (Win := 20) (Hout := 16) (Wout := 20) (Cin := 5) (Cout := 7) (by decide)
    (by decide) (by decide) (convState_ok ..)).mono fun _ h => h.1 6 15 15 (by decide) (by decide) (by decide)

/-- The value of one element, computed by `C56_exact`: nine ones times nine ones, added to nothing. -/
example {s' : State Nat} (hc : ConvolvedAt (exact Nat) (gemmState 0 (fun _ => 1) (fun _ => 1) 54 324 1536) s'
    3 3 18 18 16 16 1 1 5 15 15) : s'.mem (outLoc 16 16 5 15 15) = 9 := by
  rw [C56_exact hc]; rfl

/-- `im_2_col` of an 18x18 input with 7 channels. -/
example : Computes (exact Int) (some (im_2_col ⟨.B, 0⟩ 3 3 18 18 16 16 7 1))
    (gemmState 0 (fun i => i) (fun i => i + 1) (12 * (7 * 3 * 3)) (7 * (18 * 18)) (12 * (16 * 16))) fun s' =>
    entry s' .Cp 256 ((6 * 3 + 2) * 3 + 2) (15 * 16 + 15) = 7 * 18 * 18 :=
  (C56_im2col (exact Int) (Hf := 3) (Wf := 3) (Hin := 18) (Win := 18) (Hout := 16) (Wout := 16) (Cin := 7)
    (by decide) (by decide) (convState_ok 0 (fun i => (i : Int)) (fun i => i + 1) 3 3 18 18 16 16 7 12 12).b rfl rfl).mono
    fun s' h => (h.1 6 2 2 15 15 (by decide) (by decide) (by decide) (by decide) (by decide)).2

/-- The hypotheses of `C56_im2col_product` can be met together. -/
example : ∃ s1 s' : State Int, Exec (exact Int) (im_2_col ⟨.B, 0⟩ 3 3 18 18 16 16 7 1)
      (gemmState 0 (fun i => i) (fun i => i + 1) (12 * (7 * 3 * 3)) (7 * (18 * 18)) (12 * (16 * 16))) (.ok s1) ∧
    ConvolvedAt (exact Int) (gemmState 0 (fun i => i) (fun i => i + 1) (12 * (7 * 3 * 3)) (7 * (18 * 18))
      (12 * (16 * 16))) s' 3 3 18 18 16 16 7 1 11 15 15 := by
  have hs := convState_ok (0 : Int) (fun i => (i : Int)) (fun i => i + 1) 3 3 18 18 16 16 7 12 12
  obtain ⟨prog, hp, ⟨s', he⟩, _⟩ := C56_all_outputs_partial (p := 2) (m_c := 6) (k_c := 3) (n_c := 4)
    ⟨by decide, by decide, by decide, by decide, by decide, by decide, by decide, by decide⟩ (exact Int)
    (Hf := 3) (Wf := 3) (Hin := 18) (Win := 18) (Hout := 16) (Wout := 16) (Cin := 7) (Cout := 12) (by decide)
    (by decide) (by decide) (by decide) (by decide) hs
  have h2 := (C56_all_outputs_partial (p := 2) (m_c := 6) (k_c := 3) (n_c := 4)
    ⟨by decide, by decide, by decide, by decide, by decide, by decide, by decide, by decide⟩ (exact Int)
    (Hf := 3) (Wf := 3) (Hin := 18) (Win := 18) (Hout := 16) (Wout := 16) (Cin := 7) (Cout := 12) (by decide)
    (by decide) (by decide) (by decide) (by decide) hs).of_exec hp he
  obtain ⟨_, e, ⟨s1, he1⟩, _⟩ := C56_im2col (exact Int) (Hf := 3) (Wf := 3) (Hin := 18) (Win := 18) (Hout := 16)
    (Wout := 16) (Cin := 7) (by decide) (by decide) hs.b rfl rfl
  cases e
  exact ⟨s1, s', he1, h2.1 11 15 15 (by decide) (by decide) (by decide)⟩

/-- The sizes in the example's `main` (512 channels in and out, 3x3 filters, 33x33 input, 32x32 output, ten cores):
undefined behaviour for all tile sizes, because of the input and because of the output. -/
theorem C56_example_main_refuted {α : Type _} (F : Arith α) {s : State α} {m_c k_c n_c : Nat}
    (h : TileOK 10 6 1 m_c k_c n_c) {prog : Prog}
    (hprog : cake_sconv ⟨.A, 0⟩ ⟨.B, 0⟩ ⟨.C, 0⟩ 3 3 33 33 32 32 512 512 1 10 6 16 false m_c k_c n_c = some prog)
    (hs : s.size .B = some (512 * (33 * 33)) ∨ s.size .C = some (512 * (32 * 32))) :
    Exec F prog s .ub ∧ ∀ out, Exec F prog s out → out = .exit ∨ out = .ub := by
  rcases hs with hs | hs
  · exact C56_input_refuted h hprog (by decide) (by decide) (by decide) (by decide) (by decide) (by decide) (by decide) hs
  · exact C56_channels_refuted h hprog (by decide) (by decide) (by decide) (by decide) (by decide) (by decide) hs

example : ∃ prog, cake_sconv ⟨.A, 0⟩ ⟨.B, 0⟩ ⟨.C, 0⟩ 3 3 33 33 32 32 512 512 1 10 6 16 false 48 64 16 = some prog :=
  sconv_some ⟨by decide, by decide, by decide, by decide, by decide, by decide, by decide, by decide⟩ 1

/-- A 5x5 filter and a 1x1 filter: hypotheses of `C56_filter_refuted`. -/
example : ∃ prog, cake_sconv ⟨.A, 0⟩ ⟨.B, 0⟩ ⟨.C, 0⟩ 5 5 20 20 16 16 3 6 1 1 6 16 false 6 3 4 = some prog ∧
    Exec (exact Int) prog (gemmState 0 (fun _ => 1) (fun _ => 1) (6 * (3 * 5 * 5)) (3 * (20 * 20)) (6 * (16 * 16))) .ub := by
  have h : TileOK 1 6 1 6 3 4 :=
    ⟨by decide, by decide, by decide, by decide, by decide, by decide, by decide, by decide⟩
  obtain ⟨prog, hp⟩ := sconv_some (Wf := 5) (Hf := 5) (Win := 20) (Hin := 20) (Wout := 16) (Hout := 16) (Cin := 3)
    (Cout := 6) h 1
  exact ⟨prog, hp, (C56_filter_refuted h hp (by decide) (by decide) (by decide) (by decide) (by decide)).1⟩

example : ∃ s : State Nat, ConvOK s 3 3 18 22 16 20 4 12 12 :=
  ⟨_, convState_ok 0 (fun _ => 1) (fun _ => 1) 3 3 18 22 16 20 4 12 12⟩

example (r : Rounding 53) (rs : Rounding 24) (nf : Option ℝ → Option ℝ → Bool) :
    get_cache_dims_conv (ieee r rs nf) convCx 3 3 18 16 64 258 1 = .ok ⟨258, 0, 16, .KMN⟩ :=
  (C56_tile_sizes_refuted r rs nf rfl rfl rfl 18 16 1).1

/-- The hypotheses of `C56_tile_sizes` can be met. -/
example (r : Rounding 53) (rs : Rounding 24) (nf : Option ℝ → Option ℝ → Bool) :
    (⟨258, 0, 16, .KMN⟩ : CacheDims).k_c = 0 ∨ TileOK 1 6 1 258 0 16 :=
  (C56_tile_sizes r rs nf (cx := convCx) (a := 1) rfl rfl zero_le_one (Wf := 3) (Hf := 3) (Win := 18) (Wout := 16)
    (Cin := 64) (Cout := 258) (p := 1) (by decide) (by norm_num) (by norm_num)
    (C56_tile_sizes_refuted r rs nf rfl rfl rfl 18 16 1).1).2.2.2.2

end Cake
