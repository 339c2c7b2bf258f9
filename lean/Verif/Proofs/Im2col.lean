/-
`im_2_col` of the convolution example.
-/
import Verif.Model.Conv
import Verif.Proofs.SgemmK

namespace Cake
open List

def im2colOp (In tmp : Loc) (Wf Hf Win Hin Wout Cin h1 w1 k h w : Nat) : Op :=
  .copy (tmp +ₚ (h1 * (Wout * (Cin * (Hf * Wf))) + (w1 * (Cin * (Hf * Wf)) + (k * (Hf * Wf) + (h * Wf + w)))))
    (In +ₚ (k * (Hin * Win) + ((h1 + h) * Win + (w1 + w))))

theorem im2col_fill_eq (In tmp : Loc) (Wf Hf Win Hin Wout Hout Cin : Nat) :
    im_2_col_fill In tmp Wf Hf Win Hin Wout Hout Cin =
      (range Hout).flatMap fun h1 => (range Wout).flatMap fun w1 => (range Cin).flatMap fun k =>
        (range Hf).flatMap fun h => (range Wf).flatMap fun w => [im2colOp In tmp Wf Hf Win Hin Wout Cin h1 w1 k h w] := by
  unfold im_2_col_fill
  have l1 : ∀ (g : Nat → Nat → Op) s, loopS (range Wf) (fun w ind => ([g w ind], ind + 1)) s =
      ((range Wf).flatMap fun w => [g w (s + w)], s + Wf) := by
    intro g s
    rw [loopS_range (c := 1) _ _ _ (fun i _ s => rfl)]
    simp
  have l2 : ∀ (g : Nat → Nat → Nat → Op) s, loopS (range Hf) (fun h s =>
      loopS (range Wf) (fun w ind => ([g h w ind], ind + 1)) s) s =
      ((range Hf).flatMap fun h => (range Wf).flatMap fun w => [g h w (s + (h * Wf + w))], s + Hf * Wf) := by
    intro g s
    rw [loopS_range (c := Wf) _ _ _ (fun i _ s => by rw [l1])]
    simp only [l1, Nat.add_assoc]
  have l3 : ∀ (g : Nat → Nat → Nat → Nat → Op) s, loopS (range Cin) (fun k s => loopS (range Hf) (fun h s =>
      loopS (range Wf) (fun w ind => ([g k h w ind], ind + 1)) s) s) s =
      ((range Cin).flatMap fun k => (range Hf).flatMap fun h => (range Wf).flatMap fun w =>
        [g k h w (s + (k * (Hf * Wf) + (h * Wf + w)))], s + Cin * (Hf * Wf)) := by
    intro g s
    rw [loopS_range (c := Hf * Wf) _ _ _ (fun i _ s => by rw [l2])]
    simp only [l2, Nat.add_assoc]
  have l4 : ∀ (g : Nat → Nat → Nat → Nat → Nat → Op) s, loopS (range Wout) (fun w1 s =>
      loopS (range Cin) (fun k s => loopS (range Hf) (fun h s =>
      loopS (range Wf) (fun w ind => ([g w1 k h w ind], ind + 1)) s) s) s) s =
      ((range Wout).flatMap fun w1 => (range Cin).flatMap fun k => (range Hf).flatMap fun h =>
        (range Wf).flatMap fun w => [g w1 k h w (s + (w1 * (Cin * (Hf * Wf)) + (k * (Hf * Wf) + (h * Wf + w))))],
        s + Wout * (Cin * (Hf * Wf))) := by
    intro g s
    rw [loopS_range (c := Cin * (Hf * Wf)) _ _ _ (fun i _ s => by rw [l3])]
    simp only [l3, Nat.add_assoc]
  rw [loopS_range (c := Wout * (Cin * (Hf * Wf))) _ _ _ (fun i _ s => by rw [l4])]
  simp only [l4, Nat.zero_add]
  apply flatMap_congr
  intro h1 _
  apply flatMap_congr
  intro w1 _
  apply flatMap_congr
  intro k _
  apply flatMap_congr
  intro h _
  apply flatMap_congr
  intro w _
  unfold im2colOp
  congr 3
  ring

theorem im2col_transpose_eq (tmp mat : Loc) (K N : Nat) :
    im_2_col_transpose tmp mat K N = (range K).flatMap fun k => (range N).flatMap fun n =>
      [Op.copy (mat +ₚ (k * N + n)) (tmp +ₚ (n * K + k))] := by
  unfold im_2_col_transpose
  have l1 : ∀ (k s : Nat), loopS (range N) (fun n ind => ([Op.copy (mat +ₚ ind) (tmp +ₚ (n * K + k))], ind + 1)) s =
      ((range N).flatMap fun n => [Op.copy (mat +ₚ (s + n)) (tmp +ₚ (n * K + k))], s + N) := by
    intro k s
    rw [loopS_range (c := 1) _ _ _ (fun i _ s => rfl)]
    simp
  rw [loopS_range (c := N) _ _ _ (fun i _ s => by rw [l1])]
  simp only [l1, Nat.zero_add]

theorem im2col_fill_seqW (In : Loc) (Wf Hf Win Hin Wout Hout Cin : Nat) :
    SeqW .Bp 0 (Hout * (Wout * (Cin * (Hf * Wf)))) (im_2_col_fill In ⟨.Bp, 0⟩ Wf Hf Win Hin Wout Hout Cin) := by
  rw [im2col_fill_eq]
  apply SeqW.flatMap
  intro h1 _
  apply seqW4
  intro w1 k h w
  simp [im2colOp, Op.dst, Loc.off]

theorem im2col_transpose_seqW (tmp : Loc) (K N : Nat) :
    SeqW .Cp 0 (K * N) (im_2_col_transpose tmp ⟨.Cp, 0⟩ K N) := by
  rw [im2col_transpose_eq]
  apply SeqW.flatMap
  intro k _
  have := SeqW.flatMap (b := .Cp) (base := 0 + k * N) (n := N) (c := 1)
    (f := fun n => [Op.copy ((⟨.Cp, 0⟩ : Loc) +ₚ (k * N + n)) (tmp +ₚ (n * K + k))])
    (fun j hj => SeqW.single _ _ (by simp [Op.dst, Loc.off]))
  simpa using this

section
variable {Wf Hf Win Hin Wout Hout Cin : Nat}

/-- The contents of the auxiliary matrix. -/
def TmpOk {α : Type _} (Wf Hf Win Hin Wout Hout Cin : Nat) (b : Nat → α) (mem : Mem α) : Prop :=
  ∀ h1 w1 k h w, h1 < Hout → w1 < Wout → k < Cin → h < Hf → w < Wf →
    mem ⟨.Bp, h1 * (Wout * (Cin * (Hf * Wf))) + (w1 * (Cin * (Hf * Wf)) + (k * (Hf * Wf) + (h * Wf + w)))⟩ =
      b (k * (Hin * Win) + ((h1 + h) * Win + (w1 + w)))

/-- The whole call. -/
theorem im2col_triple {α : Type _} {F : Arith α} {s0 : State α} (hH : Hout + Hf ≤ Hin + 1)
    (hW : Wout + Wf ≤ Win + 1) (hB : Holds s0 .B Cin (Hin * Win)) (hBp : s0.size .Bp = none)
    (hCp : s0.size .Cp = none) (st : Nat) :
    Triple F (· = s0) (im_2_col ⟨.B, 0⟩ Wf Hf Win Hin Wout Hout Cin st)
      (Env s0 (szSet s0.size .Cp (some (Cin * Wf * Hf * (Win * Hin)))) noX (fun m i =>
        ∀ h1 w1 k h w, h1 < Hout → w1 < Wout → k < Cin → h < Hf → w < Wf →
          i ⟨.Cp, (k * (Hf * Wf) + (h * Wf + w)) * (Hout * Wout) + (h1 * Wout + w1)⟩ = true ∧
          m ⟨.Cp, (k * (Hf * Wf) + (h * Wf + w)) * (Hout * Wout) + (h1 * Wout + w1)⟩ =
            s0.mem ⟨.B, k * (Hin * Win) + ((h1 + h) * Win + (w1 + w))⟩)) := by
  obtain ⟨⟨nB, hnB, hleB⟩, hiB⟩ := hB
  have hB0 : s0.size .B ≠ none := by simp [hnB]
  set n := Cin * Wf * Hf * (Win * Hin) with hn
  have hlen : Hout * (Wout * (Cin * (Hf * Wf))) ≤ n := by
    rcases Nat.eq_zero_or_pos Hf with h0 | h0
    · subst h0; simp
    rcases Nat.eq_zero_or_pos Wf with h1 | h1
    · subst h1; simp
    have : Hout * Wout ≤ Hin * Win := Nat.mul_le_mul (by omega) (by omega)
    calc _ = Cin * Wf * Hf * (Hout * Wout) := by ring
      _ ≤ Cin * Wf * Hf * (Hin * Win) := Nat.mul_le_mul_left _ this
      _ = _ := by rw [hn]; ring
  have hlen2 : Wf * Hf * Cin * (Hout * Wout) = Hout * (Wout * (Cin * (Hf * Wf))) := by ring
  set sz1 := szSet s0.size .Cp (some n) with hsz1
  set sz2 := szSet sz1 .Bp (some n) with hsz2
  have k2 : ∀ b, b ≠ .Cp → b ≠ .Bp → sz2 b = s0.size b := by
    intro b h1 h2
    rw [hsz2, szSet_ne _ _ h2, hsz1, szSet_ne _ _ h1]
  have t0 : Triple F (· = s0) [] (Env s0 s0.size noX (fun _ _ => True)) :=
    Triple.nil.conseq (fun _ h => h) (by rintro s rfl; exact ⟨rfl, fun _ _ _ => ⟨rfl, rfl⟩, trivial⟩)
  have t1 := Env.malloc (F := F) (s0 := s0) (sz := s0.size) (X := noX) (P := fun _ _ => True) .Cp n hCp hCp
    (Stable.true _)
  have t2 := Env.malloc (F := F) (s0 := s0) (sz := sz1) (X := noX) (P := fun _ _ => True) .Bp n hBp
    (by rw [hsz1, szSet_ne _ _ (by simp)]; exact hBp) (Stable.true _)
  have rdF : ∀ o ∈ im_2_col_fill ⟨.B, 0⟩ ⟨.Bp, 0⟩ Wf Hf Win Hin Wout Hout Cin, ∀ l ∈ o.reads,
      ∃ x, x < Cin * (Hin * Win) ∧ l = ⟨.B, x⟩ := by
    intro o ho l hl
    rw [im2col_fill_eq] at ho
    simp only [mem_flatMap, mem_range, mem_singleton] at ho
    obtain ⟨h1, g1, w1, g2, k, g3, h, g4, w, g5, rfl⟩ := ho
    simp only [im2colOp, Op.reads, mem_singleton, Loc.off, Nat.zero_add] at hl
    exact ⟨_, mulAdd_lt g3 (mulAdd_lt (show h1 + h < Hin by omega) (show w1 + w < Win by omega)), hl⟩
  have t3 := Env.pack (F := F) (s0 := s0) (sz := sz2) (X := noX) (P := fun _ _ => True)
    (R := TmpOk Wf Hf Win Hin Wout Hout Cin (fun x => s0.mem ⟨.B, x⟩)) (b := .Bp)
    [[im_2_col_fill ⟨.B, 0⟩ ⟨.Bp, 0⟩ Wf Hf Win Hin Wout Hout Cin]]
    (by simpa [phaseOps] using im2col_fill_seqW ⟨.B, 0⟩ Wf Hf Win Hin Wout Hout Cin)
    (by rw [hsz2, szSet_self]) hlen hBp
    (by
      intro s hs o ho l hl
      simp only [phaseOps_cons, phaseOps_nil, flatten_cons, flatten_nil, append_nil] at ho
      obtain ⟨x, hx, rfl⟩ := rdF o ho l hl
      refine ⟨inB_of (n := nB) (by rw [k2 _ (by simp) (by simp)]; exact hnB) (by omega), ?_⟩
      rw [(hs.keep ⟨.B, x⟩ hB0 (fun h => h)).2]
      exact hiB x hx)
    (by
      intro o ho l hl
      simp only [phaseOps_cons, phaseOps_nil, flatten_cons, flatten_nil, append_nil] at ho
      obtain ⟨x, hx, rfl⟩ := rdF o ho l hl
      simp)
    (Stable.true _)
    (by
      intro s hs h1 w1 k h w g1 g2 g3 g4 g5
      simp only [phaseOps_cons, phaseOps_nil, flatten_cons, flatten_nil, append_nil]
      have hin : im2colOp ⟨.B, 0⟩ ⟨.Bp, 0⟩ Wf Hf Win Hin Wout Cin h1 w1 k h w ∈
          im_2_col_fill ⟨.B, 0⟩ ⟨.Bp, 0⟩ Wf Hf Win Hin Wout Hout Cin := by
        rw [im2col_fill_eq]
        simp only [mem_flatMap, mem_range, mem_singleton]
        exact ⟨h1, g1, w1, g2, k, g3, h, g4, w, g5, rfl⟩
      have hsq := im2col_fill_seqW ⟨.B, 0⟩ Wf Hf Win Hin Wout Hout Cin
      have := exec_mem F _ s.mem _ hin hsq.nodup (by
        intro l hl o' ho' e
        obtain ⟨x, _, rfl⟩ := rdF _ hin l hl
        have := (hsq.dst_of_mem ho').1
        rw [e] at this
        simp at this)
      simp only [im2colOp, Op.dst, Op.val, Loc.off, Nat.zero_add] at this
      rw [this, (hs.keep ⟨.B, _⟩ hB0 (fun h => h)).1])
  have rdT : ∀ o ∈ im_2_col_transpose ⟨.Bp, 0⟩ ⟨.Cp, 0⟩ (Wf * Hf * Cin) (Hout * Wout), ∀ l ∈ o.reads,
      ∃ x, x < Hout * (Wout * (Cin * (Hf * Wf))) ∧ l = ⟨.Bp, x⟩ := by
    intro o ho l hl
    rw [im2col_transpose_eq] at ho
    simp only [mem_flatMap, mem_range, mem_singleton] at ho
    obtain ⟨k, g1, n, g2, rfl⟩ := ho
    simp only [Op.reads, mem_singleton, Loc.off, Nat.zero_add] at hl
    refine ⟨_, ?_, hl⟩
    have := mulAdd_lt g2 g1
    rw [← hlen2]
    exact this.trans_eq (Nat.mul_comm _ _)
  have t4 := Env.pack (F := F) (s0 := s0) (sz := sz2) (X := noX)
    (P := fun m i => True ∧ TmpOk Wf Hf Win Hin Wout Hout Cin (fun x => s0.mem ⟨.B, x⟩) m ∧
      ∀ x, x < Hout * (Wout * (Cin * (Hf * Wf))) → i ⟨.Bp, x⟩ = true)
    (R := fun m => ∀ h1 w1 k h w, h1 < Hout → w1 < Wout → k < Cin → h < Hf → w < Wf →
          m ⟨.Cp, (k * (Hf * Wf) + (h * Wf + w)) * (Hout * Wout) + (h1 * Wout + w1)⟩ =
            s0.mem ⟨.B, k * (Hin * Win) + ((h1 + h) * Win + (w1 + w))⟩) (b := .Cp)
    [[im_2_col_transpose ⟨.Bp, 0⟩ ⟨.Cp, 0⟩ (Wf * Hf * Cin) (Hout * Wout)]]
    (by simpa [phaseOps] using im2col_transpose_seqW ⟨.Bp, 0⟩ (Wf * Hf * Cin) (Hout * Wout))
    (by rw [hsz2, szSet_ne _ _ (by simp), hsz1, szSet_self]) (by rw [hlen2]; exact hlen) hCp
    (by
      intro s hs o ho l hl
      simp only [phaseOps_cons, phaseOps_nil, flatten_cons, flatten_nil, append_nil] at ho
      obtain ⟨x, hx, rfl⟩ := rdT o ho l hl
      exact ⟨inB_of (n := n) (by rw [hsz2, szSet_self]) (by omega), hs.fact.2.2 x hx⟩)
    (by
      intro o ho l hl
      simp only [phaseOps_cons, phaseOps_nil, flatten_cons, flatten_nil, append_nil] at ho
      obtain ⟨x, hx, rfl⟩ := rdT o ho l hl
      simp)
    (by
      intro m m' i i' hd hp
      refine ⟨trivial, ?_, ?_⟩
      · intro h1 w1 k h w g1 g2 g3 g4 g5
        rw [(hd ⟨.Bp, _⟩ (by simp)).1]
        exact hp.2.1 h1 w1 k h w g1 g2 g3 g4 g5
      · intro x hx
        rw [(hd ⟨.Bp, x⟩ (by simp)).2]
        exact hp.2.2 x hx)
    (by
      intro s hs h1 w1 k h w g1 g2 g3 g4 g5
      simp only [phaseOps_cons, phaseOps_nil, flatten_cons, flatten_nil, append_nil]
      have hk : k * (Hf * Wf) + (h * Wf + w) < Wf * Hf * Cin := by
        have := mulAdd_lt g3 (mulAdd_lt g4 g5)
        rwa [Nat.mul_comm Wf Hf, Nat.mul_comm _ Cin]
      have hn' := mulAdd_lt g1 g2
      have hin : Op.copy ((⟨.Cp, 0⟩ : Loc) +ₚ ((k * (Hf * Wf) + (h * Wf + w)) * (Hout * Wout) + (h1 * Wout + w1)))
          ((⟨.Bp, 0⟩ : Loc) +ₚ ((h1 * Wout + w1) * (Wf * Hf * Cin) + (k * (Hf * Wf) + (h * Wf + w)))) ∈
          im_2_col_transpose ⟨.Bp, 0⟩ ⟨.Cp, 0⟩ (Wf * Hf * Cin) (Hout * Wout) := by
        rw [im2col_transpose_eq]
        simp only [mem_flatMap, mem_range, mem_singleton]
        exact ⟨_, hk, _, hn', rfl⟩
      have hsq := im2col_transpose_seqW ⟨.Bp, 0⟩ (Wf * Hf * Cin) (Hout * Wout)
      have := exec_mem F _ s.mem _ hin hsq.nodup (by
        intro l hl o' ho' e
        obtain ⟨x, _, rfl⟩ := rdT _ hin l hl
        have := (hsq.dst_of_mem ho').1
        rw [e] at this
        simp at this)
      simp only [Op.dst, Op.val, Loc.off, Nat.zero_add] at this
      rw [this]
      refine Eq.trans ?_ (hs.fact.2.1 h1 w1 k h w g1 g2 g3 g4 g5)
      congr 2
      ring)
  have t5 := Env.free (F := F) (s0 := s0) (sz := sz2) (X := noX) (P := fun m i =>
    (True ∧ TmpOk Wf Hf Win Hin Wout Hout Cin (fun x => s0.mem ⟨.B, x⟩) m ∧
      ∀ x, x < Hout * (Wout * (Cin * (Hf * Wf))) → i ⟨.Bp, x⟩ = true) ∧
    (∀ h1 w1 k h w, h1 < Hout → w1 < Wout → k < Cin → h < Hf → w < Wf →
          m ⟨.Cp, (k * (Hf * Wf) + (h * Wf + w)) * (Hout * Wout) + (h1 * Wout + w1)⟩ =
            s0.mem ⟨.B, k * (Hin * Win) + ((h1 + h) * Win + (w1 + w))⟩) ∧
    ∀ x, x < Wf * Hf * Cin * (Hout * Wout) → i ⟨.Cp, x⟩ = true) .Bp (by rw [hsz2, szSet_self]; simp)
  have := (Triple.seq t0 (Triple.seq (Triple.seq (Triple.seq (Triple.seq t1 t2) t3) t4) t5))
  refine this.conseq (fun _ h => h) ?_
  intro s hs
  refine ⟨?_, hs.keep, ?_⟩
  · rw [hs.size, hsz2]
    funext b
    unfold szSet
    by_cases h1 : b = .Bp
    · subst h1; simp [hsz1, szSet, hBp]
    · simp [h1, hsz1, szSet]
  · intro h1 w1 k h w g1 g2 g3 g4 g5
    refine ⟨hs.fact.2.2 _ ?_, hs.fact.2.1 h1 w1 k h w g1 g2 g3 g4 g5⟩
    have hk : k * (Hf * Wf) + (h * Wf + w) < Wf * Hf * Cin := by
      have := mulAdd_lt g3 (mulAdd_lt g4 g5)
      rwa [Nat.mul_comm Wf Hf, Nat.mul_comm _ Cin]
    exact mulAdd_lt hk (mulAdd_lt g1 g2)

end
end Cake
