/-
Properties C14 and C41: `cake_sgemm_test`, and the packing routines that skip bounds checks.
-/
import Verif.Proofs.SgemmTest
import Verif.Props.Pack
import Verif.Props.AlphaBeta

namespace Cake
open List

variable {α : Type _} {M N K p m_r n_r m_c k_c n_c : Nat}

/-! ### C41 -/

/-- Started in `s`, the loops `ph` and the loops `ph'` both can run to the end, and whatever the
interleaving every run of either ends normally, in one and the same state. -/
def SameResult (F : Arith α) (ph ph' : List (List (List Op))) (s : State α) : Prop :=
  ∃ s', Exec F (phases ph) s (.ok s') ∧ Exec F (phases ph') s (.ok s') ∧
    (∀ out, Exec F (phases ph) s out → out = .ok s') ∧ (∀ out, Exec F (phases ph') s out → out = .ok s')

theorem SameResult.of_eq {F : Arith α} {ph ph' : List (List (List Op))} {s : State α} {b src : Buf} {len n : Nat}
    (he : ph = ph') (hseq : SeqW b 0 len (phaseOps ph')) (hsz : Room s b 1 len) (hne : src ≠ b)
    (hsrc : Holds s src 1 n) (hreads : ∀ o ∈ phaseOps ph', ∀ l ∈ o.reads, ∃ x, x < n ∧ l = ⟨src, x⟩) :
    SameResult F ph ph' s := by
  subst he
  obtain ⟨⟨s1, h1⟩, h2⟩ := run_pack (F := F) hseq hsz hne hsrc hreads
  have e := h2 _ h1
  rw [e] at h1
  exact ⟨_, h1, h1, h2, h2⟩

/-- **C41 (A).** Packing A through the strip kernels, which check bounds only in the last strip of the ragged
row block, ends in the same state as the fully checked packing, for every interleaving of both. -/
theorem C41_packA (F : Arith α) (h : TileOK p m_r n_r m_c k_c n_c) {s : State α} (hA : Holds s .A M K)
    {size : Nat} (hsz : packedASize M K p m_r m_c .KMN = some size) (hAp : Room s .Ap 1 size) {x : BlkDims}
    (hx : init_block_dims M N K p m_r n_r m_c k_c n_c .KMN = some x) :
    SameResult F (pack_A_k_first_blis ⟨.A, 0⟩ ⟨.Ap, 0⟩ M K p m_r x)
      (pack_A_k_first ⟨.A, 0⟩ ⟨.Ap, 0⟩ M K p m_r x) s := by
  simp only [init_block_dims, Option.some.injEq] at hx
  subst hx
  have hs : size = padTo M (p * m_c) m_r * K := by
    simp only [packedASize, Option.some.injEq] at hsz
    rw [← hsz]
    unfold padTo; ring
  rw [hs] at hAp
  refine SameResult.of_eq (packA_blis_eq h _ _) (packA_seqW h _ _) hAp (src := .A) (by simp) (holds_one hA) ?_
  intro o ho l hl
  obtain ⟨i, hi, e⟩ := packA_reads h _ _ o ho l hl
  exact ⟨i, hi, by rw [e, loc_zero]⟩

/-- **C41 (B).** Packing B through the strip kernels, which check bounds only in the ragged column block, ends
in the same state as the fully checked packing, for every interleaving of both. -/
theorem C41_packB (F : Arith α) (h : TileOK p m_r n_r m_c k_c n_c) {s : State α} (hB : Holds s .B K N)
    (hBp : Room s .Bp 1 (packedBSize K N n_r n_c)) {x : BlkDims}
    (hx : init_block_dims M N K p m_r n_r m_c k_c n_c .KMN = some x) :
    SameResult F (pack_B_k_first_blis ⟨.B, 0⟩ ⟨.Bp, 0⟩ K N n_r x)
      (pack_B_k_first ⟨.B, 0⟩ ⟨.Bp, 0⟩ K N n_r x) s := by
  simp only [init_block_dims, Option.some.injEq] at hx
  subst hx
  rw [packedB_eq] at hBp
  refine SameResult.of_eq (packB_blis_eq h.n_r_pos h.n_dvd _ _ rfl) (packB_seqW h _ _) hBp (src := .B) (by simp)
    (holds_one hB) ?_
  intro o ho l hl
  obtain ⟨i, hi, e⟩ := packB_reads h _ _ o ho l hl
  exact ⟨i, hi, by rw [e, loc_zero]⟩

example := C41_packA (M := 43) (N := 37) (K := 11) (exact Int) demo_tile (s := allFull 5000 fun i => (i : Int))
  (allFull_holds (by decide)) rfl (allFull_room (by decide)) rfl
example := C41_packB (M := 43) (N := 37) (K := 11) (exact Int) demo_tile (s := allFull 5000 fun i => (i : Int))
  (allFull_holds (by decide)) (allFull_room (by decide)) rfl

/-! ### C14 -/

section
variable (F : Arith α) (nz : α → Bool) (cx : Cntx)

/-- `cake_sgemm_test` on plain operands. -/
abbrev callT {α : Type _} (cx : Cntx) (nz : α → Bool) (M N K p : Nat) (alpha beta : α) (m_c k_c n_c : Nat) :
    Option Prog :=
  cake_sgemm_test nz cx ⟨.A, 0⟩ ⟨.B, 0⟩ ⟨.C, 0⟩ M N K p false false alpha beta m_c k_c n_c

/-- **C14, what the call does with `beta = 0`:** whatever A and B, it returns normally with every entry of C
equal to zero, and nothing else changed. -/
theorem C14_zeroes (h : TileOK p cx.m_r cx.n_r m_c k_c n_c) (alpha : α) {beta : α} (hb : nz beta = false)
    {s : State α} (hs : CallOK s M N K) :
    Computes F (callT cx nz M N K p alpha beta m_c k_c n_c) s (fun s' =>
      (∀ r c, r < M → c < N → s'.init ⟨.C, r * N + c⟩ = true ∧ entry s' .C N r c = F.zero) ∧ OnlyC s s' M N) :=
  (sgemmTest_call F nz cx h alpha beta hs (by simp [hb])).mono fun s' hs' => by
    refine ⟨fun r c hr hc => ?_, hs'.keep, hs'.size⟩
    have := hs'.fact r c hr hc
    rw [hb] at this
    exact this

/-- **C14, what the call does with `beta ≠ 0`:** it leaves everything, C included, as it was. -/
theorem C14_unchanged (h : TileOK p cx.m_r cx.n_r m_c k_c n_c) (alpha : α) {beta : α} (hb : nz beta = true)
    {s : State α} (hs : CallOK s M N K) (hC : Holds s .C M N) :
    Computes F (callT cx nz M N K p alpha beta m_c k_c n_c) s (fun s' =>
      s'.size = s.size ∧ ∀ l : Loc, s.size l.buf ≠ none → s'.mem l = s.mem l) :=
  (sgemmTest_call F nz cx h alpha beta hs (fun _ => hC)).mono fun s' hs' => by
    refine ⟨hs'.size, fun l hl => ?_⟩
    by_cases hX : cX M N l
    · obtain ⟨b, x⟩ := l
      obtain ⟨rfl, hx⟩ := hX
      simp only at hx
      have hN : 0 < N := Nat.pos_of_ne_zero (fun e => by subst e; simp at hx)
      have e : x = x / N * N + x % N := by
        have := Nat.div_add_mod x N
        rw [Nat.mul_comm] at this; omega
      have hr : x / N < M := (Nat.div_lt_iff_lt_mul hN).2 hx
      have := (hs'.fact _ _ hr (Nat.mod_lt x hN)).2
      rw [hb, ← e] at this
      exact this
    · exact (hs'.keep l hl hX).1

/-- **C14, the part that holds:** an empty sum. With `K = 0` and `beta = 0` the result, all zero, is the
product. Missing: every `K > 0`, see `C14_refuted`. -/
theorem C14_empty_partial (h : TileOK p cx.m_r cx.n_r m_c k_c n_c) (alpha : α) {beta : α} (hb : nz beta = false)
    {s : State α} (hs : CallOK s M N 0) :
    Computes F (callT cx nz M N 0 p alpha beta m_c k_c n_c) s
      (fun s' => IsProduct F s s' M N 0 (fun _ _ => F.zero)) :=
  (C14_zeroes F nz cx h alpha hb hs).mono fun s' hs' r c hr hc =>
    ⟨(hs'.1 r c hr hc).1, [], by simp, (hs'.1 r c hr hc).2⟩

/-- **C14, also part:** with `beta = 0` and exact arithmetic the result is the product for exactly the operands
whose product is zero. Missing: all other operands. -/
theorem C14_iff_zero_partial {R : Type _} [CommSemiring R] (nz : R → Bool)
    (h : TileOK p cx.m_r cx.n_r m_c k_c n_c) (alpha : R) {beta : R} (hb : nz beta = false)
    {s : State R} (hs : CallOK s M N K) :
    Computes (exact R) (callT cx nz M N K p alpha beta m_c k_c n_c) s (fun s' =>
      (∀ r c, r < M → c < N →
        entry s' .C N r c = ∑ k ∈ Finset.range K, entry s .A K r k * entry s .B N k c) ↔
      ∀ r c, r < M → c < N → ∑ k ∈ Finset.range K, entry s .A K r k * entry s .B N k c = 0) :=
  (C14_zeroes (exact R) nz cx h alpha hb hs).mono fun s' hs' =>
    forall_congr' fun r => forall_congr' fun c => imp_congr_right fun hr => imp_congr_right fun hc => by
      rw [(hs'.1 r c hr hc).2]
      exact eq_comm

end

/-- **C14 does not hold.** `6 x 1` times `1 x 16`: the call returns normally and C is not the product, with
`beta = 0` (C is all zero) and with `beta = 1` (C is what it was). -/
theorem C14_refuted :
    Breaks (callT haswell (· != 0) 6 16 1 1 1 0 6 4 16) (demoC 6 16 1) 6 16 1 1 0 ∧
    Breaks (callT haswell (· != 0) 6 16 1 1 1 1 6 4 16) (demoC 6 16 1) 6 16 1 1 1 := by
  constructor
  · refine Breaks.of (C14_zeroes (exact Int) (· != 0) haswell small_tile 1 (beta := 0) (by simp)
      (demoC_ok 6 16 1)) ?_
    intro s' hs' hh
    have h1 := (hs'.1 0 0 (by decide) (by decide)).2
    have h2 := hh 0 0 (by decide) (by decide)
    rw [h1] at h2
    simp [entry, demoC, demo, exact] at h2
  · refine Breaks.of (C14_unchanged (exact Int) (· != 0) haswell small_tile 1 (beta := 1) (by simp)
      (demoC_ok 6 16 1) (demoC_holds 6 16 1)) ?_
    intro s' hs' hh
    have h1 : entry s' .C 16 0 0 = entry (demoC 6 16 1) .C 16 0 0 :=
      hs'.2 ⟨.C, 0⟩ (by simp [demoC, demo])
    have h2 := hh 0 0 (by decide) (by decide)
    rw [h1] at h2
    simp [entry, demoC, demo] at h2

example := C14_zeroes (exact Int) (· != 0) haswell demo_tile 1 (beta := 0) (by simp) (demo_ok 43 37 11)
example := C14_unchanged (exact Int) (· != 0) haswell demo_tile 1 (beta := 2) (by simp) (roomy_ok 4 43 37 11 0)
  (roomy_C 4 43 37 11 0)
example := C14_empty_partial (exact Int) (· != 0) haswell demo_tile 1 (beta := 0) (by simp) (demo_ok 43 37 0)
example := C14_iff_zero_partial haswell (R := Int) (· != 0) demo_tile 1 (beta := 0) (by simp) (demo_ok 43 37 11)

end Cake
