/-
C68: the schedule functions of the public header that the library itself does not call.
-/
import Verif.Proofs.Unused
import Verif.Props.Api
import Verif.Proofs.PackRun

namespace Cake
open List

section
variable {α : Type _} (F : Arith α)

/-- Phases whose tasks perform no access leave the state as it is. -/
theorem phases_idle {ph : List (List (List Op))} (hph : ∀ ts ∈ ph, ∀ t ∈ ts, t = []) (s : State α) (out : Out α) :
    Exec F (phases ph) s out ↔ out = .ok s := by
  have e : phaseOps ph = [] := by
    unfold phaseOps
    rw [flatten_eq_nil_iff]
    intro l hl
    obtain ⟨ts, hts, rfl⟩ := mem_map.1 hl
    exact flatten_eq_nil_iff.2 (hph ts hts)
  have hst : stateAfter F (phaseOps ph) s = s := by
    rw [e]
    unfold stateAfter
    simp
  have T : Triple F (· = s) (phases ph) (· = s) := by
    refine Triple.phases ph ?_ ?_ ?_
    · intro ts hts
      unfold RaceFree
      rw [pairwise_iff_getElem]
      intro i j hi hj _ o ho
      rw [hph ts hts _ (getElem_mem hi)] at ho
      cases ho
    · intro s' _ ts hts t ht
      rw [hph ts hts t ht]
      trivial
    · rintro s' rfl
      exact hst
  constructor
  · intro he
    rcases T s out rfl he with h | ⟨s', h, rfl⟩
    · exact absurd h (exec_phases_ne_exit he)
    · exact h
  · rintro rfl
    obtain ⟨s', h1, rfl⟩ := T.exists_ok (s := s) rfl
    exact h1

/-- **C68, flags.** With the flag for sparse or for small operands set, `schedule` performs no access at all: whatever the
schedule, the packed operands and the block dimensions, it returns at once with every buffer as it was (or stops the process for
an unknown schedule). So it does not compute the product. -/
theorem C68_flags_refuted (kfix : KDim) (A_p B_p C_p : Loc) (K p m_r n_r : Nat) (x : BlkDims) {sparse small : Bool}
    (hf : sparse = true ∨ small = true) {sch : Sched} {ph : List (List (List Op))}
    (h : schedule_flags kfix A_p B_p C_p K p m_r n_r x sparse small sch = some ph) (s : State α) (out : Out α) :
    Exec F (phases ph) s out ↔ out = .ok s := by
  have e : ph = [] := by
    rcases hf with rfl | rfl <;> cases sch <;> simp [schedule_flags] at h <;> exact h
  subst e
  exact phases_idle F (by simp) s out

example := C68_flags_refuted (exact Int) ⟨8, 6, 2⟩ ⟨.Ap, 0⟩ ⟨.Bp, 0⟩ ⟨.C, 0⟩ 5 2 6 16 (dimsMKN 13 33 5 2 6 16 6 2 16)
  (sparse := false) (small := true) (Or.inr rfl) (sch := .MKN) rfl (demo 13 33 5)

/-- **C68, without flags.** With both flags off `schedule` is the function of the M-first and the N-first call, whose effect
C02, C03 and C04 describe; for the K-first schedule it does nothing. -/
theorem C68_plain (kfix : KDim) (A_p B_p C_p : Loc) (K p m_r n_r : Nat) (x : BlkDims) (sch : Sched) :
    schedule_flags kfix A_p B_p C_p K p m_r n_r x false false sch = schedule kfix A_p B_p C_p K p m_r n_r x sch := by
  cases sch <;> rfl

theorem smallTiles_nil (m_r n_r mt nt : Nat) : smallTiles m_r n_r mt nt = [] := by
  unfold smallTiles
  rw [flatMap_eq_nil_iff]
  intro _ _
  rw [flatMap_eq_nil_iff]
  intros
  rfl

/-- **C68, small operands.** The three schedules for small operands perform no access, for all thread counts, register tiles and
block dimensions. -/
theorem C68_small_refuted (p m_r n_r : Nat) (x : BlkDims) (s : State α) (out : Out α) :
    (Exec F (phases (schedule_KMN_small p m_r n_r x)) s out ↔ out = .ok s) ∧
    (Exec F (phases (schedule_MKN_small p m_r n_r x)) s out ↔ out = .ok s) ∧
    (Exec F (phases (schedule_NKM_small p m_r n_r x)) s out ↔ out = .ok s) := by
  refine ⟨phases_idle F ?_ s out, phases_idle F ?_ s out, phases_idle F ?_ s out⟩
  · unfold schedule_KMN_small
    intro ts hts t ht
    obtain ⟨n, _, hts⟩ := mem_flatMap.1 hts
    obtain ⟨m, _, rfl⟩ := mem_map.1 hts
    obtain ⟨core, _, rfl⟩ := mem_map.1 ht
    simp [smallTiles_nil]
  · unfold schedule_MKN_small
    intro ts hts t ht
    obtain ⟨n, _, hts⟩ := mem_flatMap.1 hts
    obtain ⟨m, _, rfl⟩ := mem_map.1 hts
    obtain ⟨core, _, rfl⟩ := mem_map.1 ht
    simp [smallTiles_nil]
  · unfold schedule_NKM_small
    intro ts hts t ht
    obtain ⟨n, _, hts⟩ := mem_flatMap.1 hts
    obtain ⟨m, _, rfl⟩ := mem_map.1 hts
    obtain ⟨core, _, rfl⟩ := mem_map.1 ht
    simp [smallTiles_nil]

/-- The loops do run: 6 phases of 2 tasks each. -/
example : (schedule_KMN_small 2 6 16 (dimsKMN 24 33 5 2 6 16 6 2 16)).map List.length = [2, 2, 2, 2, 2, 2] := by decide +kernel

/-- **C68, `cake_gemm_small`.** It reports success for every call and changes nothing; on all-ones operands and a zero C it so
reports success without the product, whatever the sizes. -/
theorem C68_gemm_small_refuted (A B C : Loc) {M N K : Nat} (hM : 0 < M) (hN : 0 < N) (hK : 0 < K) (p : Nat) (x : BlkDims) (sch : Sched) :
    (cake_gemm_small A B C M N K p x sch).1 = true ∧
    (∃ s', Exec (exact Int) (cake_gemm_small A B C M N K p x sch).2 (ones M N K) (.ok s')) ∧
    ∀ s', Exec (exact Int) (cake_gemm_small A B C M N K p x sch).2 (ones M N K) (.ok s') →
      ¬ IsProduct (exact Int) (ones M N K) s' M N K (fun _ _ => 0) := by
  refine ⟨rfl, ⟨_, .nil _⟩, fun s' he hpr => ?_⟩
  cases he
  have := IsProduct.exact hpr hM hN
  simp [entry, ones] at this
  omega

example := C68_gemm_small_refuted ⟨.A, 0⟩ ⟨.B, 0⟩ ⟨.C, 0⟩ (M := 13) (N := 33) (K := 5) (by decide) (by decide) (by decide) 2
  (dimsKMN 13 33 5 2 6 16 6 2 16) .KMN

/-- **C68, row-major C, up to one register tile of columns.** After packing A and B, `schedule_KMN_C_unpacked` adds the product to
a C with `m_r * ceil(M/m_r)` rows of `n_r` elements, if the result has at most `n_r` columns: every execution ends normally (or at
a failed allocation), every entry is its old value plus the products in the order of the K-first schedule, and outside C nothing
that was allocated before changes. All M, K, thread counts and tile sizes. Missing: wider results, where the function is wrong
(`C68_unpacked_wide_refuted`). -/
theorem C68_unpacked_partial {cx : Cntx} {M N K p m_c k_c n_c : Nat} (h : TileOK p cx.m_r cx.n_r m_c k_c n_c)
    (hk : cx.kfix.Fits cx.m_r cx.n_r) (hN0 : 0 < N) (hN : N ≤ cx.n_r) {s : State α} (hA : Holds s .A M K) (hB : Holds s .B K N)
    (hC : Holds s .C (cdiv M cx.m_r * cx.m_r) cx.n_r) (hAp : s.size .Ap = none) (hBp : s.size .Bp = none)
    (hreg : ∀ t, s.size (.reg t) = none) :
    Computes F (some (unpackedCall cx M N K p m_c k_c n_c)) s fun s' =>
      (∀ r c, r < M → c < N → ∃ order : List Nat, order.Perm (range K) ∧ entry s' .C cx.n_r r c =
        dotFrom F (fun k => entry s .A K r k) (fun k => entry s .B N k c) order (entry s .C cx.n_r r c)) ∧
      ∀ l, s.size l.buf ≠ none → l.buf ≠ .C → s'.mem l = s.mem l ∧ s'.init l = s.init l := by
  refine (Computes.of_triple rfl (unpacked_triple (F := F) h hk hN0 hN hA hB
    (by rw [padTo_eq h.m_r_pos h.S_dvd]; exact hC) hAp hBp hreg)).mono ?_
  rintro s' ⟨h1, h2⟩
  exact ⟨fun r c hr hc => ⟨_, orderKMN_perm h.k_c_pos r c, h2 r c hr hc⟩, fun l hl hne => h1 l hl fun hX => hne hX.1⟩

/-- A Haswell kernel, 3 threads, `13 x 5` times `5 x 11`, row-major C of 18 rows of 16. -/
example : ∃ s : State Int, Computes (exact Int) (some (unpackedCall ⟨6, 16, ⟨8, 6, 2⟩, ⟨8, 6, 2⟩⟩ 13 11 5 3 6 2 32)) s fun s' =>
    (∀ r c, r < 13 → c < 11 → ∃ order : List Nat, order.Perm (range 5) ∧ entry s' .C 16 r c =
        dotFrom (exact Int) (fun k => entry s .A 5 r k) (fun k => entry s .B 11 k c) order (entry s .C 16 r c)) ∧
      ∀ l, s.size l.buf ≠ none → l.buf ≠ .C → s'.mem l = s.mem l ∧ s'.init l = s.init l :=
  ⟨⟨fun b => if b = .A then some 65 else if b = .B then some 55 else if b = .C then some 288 else none, fun l => l.idx, fun _ => true⟩,
    C68_unpacked_partial (exact Int) (cx := ⟨6, 16, ⟨8, 6, 2⟩, ⟨8, 6, 2⟩⟩)
      ⟨by decide, by decide, by decide, by decide, by decide, by decide, by decide, by decide⟩
      ⟨by decide, rfl, rfl⟩ (by decide) (by decide) ⟨⟨65, rfl, by decide⟩, fun _ _ => rfl⟩ ⟨⟨55, rfl, by decide⟩, fun _ _ => rfl⟩
      ⟨⟨288, rfl, by decide⟩, fun _ _ => rfl⟩ rfl rfl (fun _ => rfl)⟩

/-- **C68, row-major C, wider results.** If the result has more than `n_r` columns and the last block of the depth has at least two
steps, no execution of the same program ends normally, and undefined behaviour is reachable: the kernel steps through the packed B
by the row length of C and reads beyond its end. All sizes, thread counts, tile sizes and states. -/
theorem C68_unpacked_wide_refuted {cx : Cntx} {M N K p m_c k_c n_c : Nat} (h : TileOK p cx.m_r cx.n_r m_c k_c n_c)
    (hk : cx.kfix.Fits cx.m_r cx.n_r) (hM : 0 < M) (hN : cx.n_r < N) (hK : 0 < K)
    (hd : 2 ≤ if K % k_c = 0 then k_c else K % k_c) (s : State α) :
    (∀ s', ¬ Exec F (unpackedCall cx M N K p m_c k_c n_c) s (.ok s')) ∧
      ∃ out, Exec F (unpackedCall cx M N K p m_c k_c n_c) s out ∧ out = .ub := by
  have hK0 : 0 < cdiv K k_c := by
    rw [Nat.pos_iff_ne_zero]; intro e
    have := cdiv_mul_ge K k_c h.k_c_pos
    rw [e] at this; omega
  have hno : ∀ s', ¬ Exec F (unpackedCall cx M N K p m_c k_c n_c) s (.ok s') := fun s' =>
    unpacked_no_ok h hk hM hN (by
      rw [← k_len h.k_c_pos (by omega)]
      by_cases e : K % k_c = 0
      · rw [if_pos e] at hd; simpa [e] using hd
      · rw [if_neg e] at hd; simpa [e] using hd)
  exact ⟨hno, .ub, ub_of_no_ok F hno, rfl⟩

example := C68_unpacked_wide_refuted (exact Int) (cx := ⟨6, 16, ⟨8, 6, 2⟩, ⟨8, 6, 2⟩⟩) (M := 13) (N := 17) (K := 5) (p := 3) (m_c := 6)
  (k_c := 3) (n_c := 32) ⟨by decide, by decide, by decide, by decide, by decide, by decide, by decide, by decide⟩
  ⟨by decide, rfl, rfl⟩ (by decide) (by decide) (by decide) (by decide) (demo 13 17 5)

/-- **C68, row-major C, depth one.** Even when every access is in bounds, the tiles of C overlap: with depth 1, a `6 x 32` result
and the Haswell kernel, packed all-ones operands and a zero C, the element of row 0 and column 16 becomes 2 instead of 1. -/
theorem C68_unpacked_overlap_refuted :
    exec (exact Int) (phaseOps (schedule_KMN_C_unpacked ⟨8, 6, 2⟩ ⟨.Ap, 0⟩ ⟨.Bp, 0⟩ ⟨.C, 0⟩ 1 1 6 16 (dimsKMN 6 32 1 1 6 16 6 1 32)))
      (fun l => if l.buf = .Ap ∨ l.buf = .Bp then 1 else 0) ⟨.C, 0 * 32 + 16⟩ = 2 := by
  decide +kernel

end
end Cake
