/-
Property C12: `alpha` and `beta`.
-/
import Verif.Props.KFirst
import Verif.Props.MFirst
import Verif.Props.NFirst

namespace Cake
open List

/-- The promise `C = alpha*A*B + beta*C`, in exact arithmetic. -/
def Honoured {R : Type _} [CommSemiring R] (s s' : State R) (M N K : Nat) (alpha beta : R) : Prop :=
  ∀ r c, r < M → c < N → entry s' .C N r c =
    alpha * (∑ k ∈ Finset.range K, entry s .A K r k * entry s .B N k c) + beta * entry s .C N r c

/-- **C12 does not hold: `alpha` is ignored.** Whatever the arguments, the program a call runs is the same
for every `alpha`, and for every two `beta` that are both zero or both nonzero. -/
theorem C12_ignored {α : Type _} (nz : α → Bool) (cx : Cntx) (A B C : Loc) (M N K p : Nat)
    (packedA packedB : Bool) (a a' b b' : α) (hb : nz b = nz b') (m_c k_c n_c : Nat) (sch : Sched) :
    cake_sgemm nz cx A B C M N K p packedA packedB a b m_c k_c n_c sch =
      cake_sgemm nz cx A B C M N K p packedA packedB a' b' m_c k_c n_c sch := by
  unfold cake_sgemm
  rw [hb]

section
variable {R : Type _} [CommSemiring R] (nz : R → Bool) (cx : Cntx)
variable {M N K p m_c k_c n_c : Nat}

/-- **C12 (K-first), what holds:** `alpha = 1`, `beta = 0`. Missing: every other pair, see
`C12_kfirst_refuted`. -/
theorem C12_kfirst_partial (h : TileOK p cx.m_r cx.n_r m_c k_c n_c) (hk : cx.kmap.Fits cx.m_r cx.n_r)
    {s : State R} (hs : CallOK s M N K) :
    Computes (exact R) (callK cx nz M N K p 1 0 m_c k_c n_c) s (fun s' => Honoured s s' M N K 1 0) :=
  (C01_kfirst_exact cx nz h hk 1 0 hs).mono fun s' hs' r c hr hc => by
    rw [hs' r c hr hc, one_mul, zero_mul, add_zero]

/-- **C12 (M-first), what holds:** `alpha = 1` and `beta` 0 or 1. Missing: every other pair, see
`C12_mfirst_refuted`. -/
theorem C12_mfirst_partial (h : TileOK p cx.m_r cx.n_r m_c k_c n_c) (hk : cx.kfix.Fits cx.m_r cx.n_r)
    {beta : R} (hb : beta = 0 ∧ nz beta = false ∨ beta = 1 ∧ nz beta = true) {s : State R}
    (hs : CallOK s M N K) (hB : Holds s .B 1 (bNeed N K p cx.n_r k_c n_c)) (hC : Holds s .C M N) :
    Computes (exact R) (callM cx nz M N K p 1 beta m_c k_c n_c) s
      (fun s' => Honoured s s' M N K 1 beta) := by
  rcases hb with ⟨e, hb⟩ | ⟨e, hb⟩
  · refine (C02_mfirst_exact cx nz h hk 1 hb hs hB).mono fun s' hs' r c hr hc => ?_
    rw [hs' r c hr hc, e, one_mul, zero_mul, add_zero]
  · refine (C13_mfirst_accumulate (exact R) nz cx h hk 1 hb hs hB hC).mono fun s' hs' r c hr hc => ?_
    rw [hs'.exact hr hc, e, one_mul, one_mul, add_comm]

/-- **C12 (N-first), what holds:** `alpha = 1` and `beta = 0`, or `beta = 1` and sizes for which C13 holds.
Missing: everything else, see `C12_nfirst_refuted` and `C13_nfirst_refuted`. -/
theorem C12_nfirst_partial (h : TileOK p cx.m_r cx.n_r m_c k_c n_c) (hk : cx.kfix.Fits cx.m_r cx.n_r)
    {beta : R} (hb : beta = 0 ∧ nz beta = false ∨
      beta = 1 ∧ nz beta = true ∧ (N ≤ n_c ∨ p * m_c ∣ M ∧ n_c ∣ N)) {s : State R}
    (hs : CallOK s M N K) (hB : Holds s .B 1 (bNeed N K p cx.n_r k_c n_c)) (hC : Holds s .C M N) :
    Computes (exact R) (callN cx nz M N K p 1 beta m_c k_c n_c) s
      (fun s' => Honoured s s' M N K 1 beta) := by
  rcases hb with ⟨e, hb⟩ | ⟨e, hb, hc⟩
  · refine (C03_nfirst_exact cx nz h hk 1 hb hs hB).mono fun s' hs' r c hr hc => ?_
    rw [hs' r c hr hc, e, one_mul, zero_mul, add_zero]
  · refine (C13_nfirst_accumulate_cases_partial (exact R) nz cx h hk 1 hb hs hB hC hc).mono
      fun s' hs' r c hr hc => ?_
    rw [hs'.exact hr hc, e, one_mul, one_mul, add_comm]

end

example := C12_kfirst_partial (R := Int) (· != 0) haswell demo_tile haswell_fits (demoC_ok 43 37 11)
example := C12_mfirst_partial (R := Int) (· != 0) haswell demo_tile haswell_fits_fix (beta := 1) (by simp)
  (demoC_ok 43 37 11) demoC_readable (demoC_holds 43 37 11)
example := C12_nfirst_partial (R := Int) (· != 0) haswell demo_tile haswell_fits_fix (beta := 0) (by simp)
  (demoC_ok 43 37 11) demoC_readable (demoC_holds 43 37 11)

/-- The call yields a program, the program can run to its end, and every run that ends normally breaks the
promise. -/
def Breaks (call : Option Prog) (s : State Int) (M N K : Nat) (alpha beta : Int) : Prop :=
  ∃ prog, call = some prog ∧ (∃ s', Exec (exact Int) prog s (.ok s')) ∧
    ∀ s', Exec (exact Int) prog s (.ok s') → ¬ Honoured s s' M N K alpha beta

theorem Breaks.of {call : Option Prog} {s : State Int} {M N K : Nat} {alpha beta : Int} {Q : State Int → Prop}
    (h : Computes (exact Int) call s Q) (hQ : ∀ s', Q s' → ¬ Honoured s s' M N K alpha beta) :
    Breaks call s M N K alpha beta := by
  obtain ⟨prog, hp, he, hall⟩ := h
  refine ⟨prog, hp, he, fun s' hs' => ?_⟩
  rcases hall _ hs' with e | ⟨s'', e, hq⟩
  · cases e
  · cases e; exact hQ _ hq

theorem small_tile : TileOK 1 haswell.m_r haswell.n_r 6 4 16 :=
  ⟨by decide, by decide, by decide, by decide, by decide, by decide, by decide, by decide⟩

/-- **C12 (K-first) does not hold.** `2*A*B` comes out as `A*B`, and `A*B + C` as `A*B`: `6 x 1` times
`1 x 16`. -/
theorem C12_kfirst_refuted :
    Breaks (callK haswell (· != 0) 6 16 1 1 2 0 6 4 16) (demoC 6 16 1) 6 16 1 2 0 ∧
    Breaks (callK haswell (· != 0) 6 16 1 1 1 1 6 4 16) (demoC 6 16 1) 6 16 1 1 1 := by
  constructor
  · refine Breaks.of (C01_kfirst_exact (R := Int) haswell (· != 0) small_tile haswell_fits 2 0 (demoC_ok 6 16 1)) ?_
    intro s' hs' hh
    have h1 := hs' 0 0 (by decide) (by decide)
    have h2 := hh 0 0 (by decide) (by decide)
    rw [h1] at h2
    simp [entry, demoC, demo] at h2
  · refine Breaks.of (C01_kfirst_exact (R := Int) haswell (· != 0) small_tile haswell_fits 1 1 (demoC_ok 6 16 1)) ?_
    intro s' hs' hh
    have h1 := hs' 0 0 (by decide) (by decide)
    have h2 := hh 0 0 (by decide) (by decide)
    rw [h1] at h2
    simp [entry, demoC, demo] at h2

/-- **C12 (M-first) does not hold.** `2*A*B` comes out as `A*B`, and `A*B + 2*C` as `A*B + C`. -/
theorem C12_mfirst_refuted :
    Breaks (callM haswell (· != 0) 6 16 1 1 2 0 6 4 16) (demoC 6 16 1) 6 16 1 2 0 ∧
    Breaks (callM haswell (· != 0) 6 16 1 1 1 2 6 4 16) (demoC 6 16 1) 6 16 1 1 2 := by
  have hB := readable_of_dvd small_tile (demoC_ok 6 16 1) (by decide)
  constructor
  · refine Breaks.of (C02_mfirst_exact (R := Int) haswell (· != 0) small_tile haswell_fits_fix 2 (beta := 0)
      (by simp) (demoC_ok 6 16 1) hB) ?_
    intro s' hs' hh
    have h1 := hs' 0 0 (by decide) (by decide)
    have h2 := hh 0 0 (by decide) (by decide)
    rw [h1] at h2
    simp [entry, demoC, demo] at h2
  · refine Breaks.of (C13_mfirst_accumulate (exact Int) (· != 0) haswell small_tile haswell_fits_fix 1 (beta := 2)
      (by simp) (demoC_ok 6 16 1) hB (demoC_holds 6 16 1)) ?_
    intro s' hs' hh
    have h1 := hs'.exact (r := 0) (c := 0) (by decide) (by decide)
    have h2 := hh 0 0 (by decide) (by decide)
    rw [h1] at h2
    simp [entry, demoC, demo] at h2

/-- **C12 (N-first) does not hold**, likewise. -/
theorem C12_nfirst_refuted :
    Breaks (callN haswell (· != 0) 6 16 1 1 2 0 6 4 16) (demoC 6 16 1) 6 16 1 2 0 ∧
    Breaks (callN haswell (· != 0) 6 16 1 1 1 2 6 4 16) (demoC 6 16 1) 6 16 1 1 2 := by
  have hB := readable_of_dvd small_tile (demoC_ok 6 16 1) (by decide)
  constructor
  · refine Breaks.of (C03_nfirst_exact (R := Int) haswell (· != 0) small_tile haswell_fits_fix 2 (beta := 0)
      (by simp) (demoC_ok 6 16 1) hB) ?_
    intro s' hs' hh
    have h1 := hs' 0 0 (by decide) (by decide)
    have h2 := hh 0 0 (by decide) (by decide)
    rw [h1] at h2
    simp [entry, demoC, demo] at h2
  · refine Breaks.of (C13_nfirst_accumulate_cases_partial (exact Int) (· != 0) haswell small_tile haswell_fits_fix 1
      (beta := 2) (by simp) (demoC_ok 6 16 1) hB (demoC_holds 6 16 1) (Or.inl (by decide))) ?_
    intro s' hs' hh
    have h1 := hs'.exact (r := 0) (c := 0) (by decide) (by decide)
    have h2 := hh 0 0 (by decide) (by decide)
    rw [h1] at h2
    simp [entry, demoC, demo] at h2

end Cake
