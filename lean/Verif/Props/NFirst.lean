/-
Properties of `cake_sgemm` with the N-first schedule (NKM).
-/
import Verif.Proofs.SgemmMN
import Verif.Proofs.PackCN
import Verif.Proofs.RaceN
import Verif.Props.Prepack
import Verif.Props.Slack

namespace Cake
open List

section
variable {α : Type _} (F : Arith α) (nz : α → Bool) (cx : Cntx)
variable {M N K p m_c k_c n_c : Nat}

/-- The N-first call on plain (unpacked) operands. -/
abbrev callN (cx : Cntx) (nz : α → Bool) (M N K p : Nat) (alpha beta : α) (m_c k_c n_c : Nat) :
    Option Prog :=
  cake_sgemm nz cx ⟨.A, 0⟩ ⟨.B, 0⟩ ⟨.C, 0⟩ M N K p false false alpha beta m_c k_c n_c .NKM

/-- **C03.** The N-first product with `beta = 0` puts into each `C[r][c]` the dot product of row `r`
of A and column `c` of B, starting from 0. `hB` says that the elements the packing of B reads are
readable (see `bNeed`, `readable_of_dvd`, `readable_of_slack`; C10 is about this condition); those
beyond `K*N` may have any value. -/
theorem C03_nfirst_product (h : TileOK p cx.m_r cx.n_r m_c k_c n_c)
    (hk : cx.kfix.Fits cx.m_r cx.n_r) (alpha : α) {beta : α} (hb : nz beta = false) {s : State α}
    (hs : CallOK s M N K) (hB : Holds s .B 1 (bNeed N K p cx.n_r k_c n_c)) :
    Computes F (callN cx nz M N K p alpha beta m_c k_c n_c) s
      (fun s' => IsProduct F s s' M N K (fun _ _ => F.zero)) :=
  (sgemmN_call F nz cx h hk alpha beta hs hB (by simp [hb])).mono fun _ hs' r c hr hc =>
    ⟨(hs'.fact r c hr hc).1, _, orderNKM_perm h.p_pos h.k_c_pos, by
      have := (hs'.fact r c hr hc).2
      rw [hb] at this
      exact this⟩

example : Computes (exact Int) (callN haswell (· != 0) 43 37 11 3 1 0 12 5 32) (demo 43 37 11)
    (fun s' => IsProduct (exact Int) (demo 43 37 11) s' 43 37 11 (fun _ _ => 0)) :=
  C03_nfirst_product (exact Int) (· != 0) haswell demo_tile haswell_fits_fix 1 (beta := 0) (by simp) (demo_ok 43 37 11)
    demo_readable

/-- **C03, exact arithmetic.** Over a commutative semiring the result is the matrix product. -/
theorem C03_nfirst_exact {R : Type _} [CommSemiring R] (nz : R → Bool)
    (h : TileOK p cx.m_r cx.n_r m_c k_c n_c)
    (hk : cx.kfix.Fits cx.m_r cx.n_r) (alpha : R) {beta : R} (hb : nz beta = false) {s : State R}
    (hs : CallOK s M N K) (hB : Holds s .B 1 (bNeed N K p cx.n_r k_c n_c)) :
    Computes (exact R) (callN cx nz M N K p alpha beta m_c k_c n_c) s (fun s' =>
      ∀ r c, r < M → c < N →
        entry s' .C N r c = ∑ k ∈ Finset.range K, entry s .A K r k * entry s .B N k c) :=
  (C03_nfirst_product (exact R) nz cx h hk alpha hb hs hB).mono fun _ hs' r c hr hc => by
    rw [hs'.exact hr hc]; exact zero_add _

example :=
  C03_nfirst_exact (R := Int) armv8 (· != 0) demo_tile_arm armv8_fits_fix 1 (beta := 0) (by simp)
    (demo_ok 43 36 28) (readable_of_dvd demo_tile_arm (demo_ok 43 36 28) (by decide))

/-- **C03, without any assumption on the memory behind B.** Any execution of the call that ends normally has the
product in C and has changed nothing else. -/
theorem C03_nfirst_if_ends (h : TileOK p cx.m_r cx.n_r m_c k_c n_c)
    (hk : cx.kfix.Fits cx.m_r cx.n_r) (alpha : α) {beta : α} (hb : nz beta = false) {s : State α}
    (hs : CallOK s M N K) {prog : Prog} (hp : callN cx nz M N K p alpha beta m_c k_c n_c = some prog)
    {s' : State α} (he : Exec F prog s (.ok s')) :
    IsProduct F s s' M N K (fun _ _ => F.zero) ∧ OnlyC s s' M N := by
  have hB := sgemmN_needs F nz cx h alpha beta hs hp he
  have e := (sgemmN_call F nz cx h hk alpha beta hs hB (by simp [hb])).of_exec hp he
  exact ⟨(C03_nfirst_product F nz cx h hk alpha hb hs hB).of_exec hp he, ⟨e.keep, e.size⟩⟩

/-- The hypotheses of `C03_nfirst_if_ends` and `C07_nfirst_deterministic` can be met. -/
example : ∃ prog s', callN haswell (· != 0) 43 37 11 3 1 (0 : Int) 12 5 32 = some prog ∧
    Exec (exact Int) prog (demo 43 37 11) (.ok s') := by
  obtain ⟨prog, h1, ⟨s', h2⟩, _⟩ := C03_nfirst_product (exact Int) (· != 0) haswell demo_tile haswell_fits_fix 1
    (beta := 0) (by simp) (demo_ok 43 37 11) demo_readable
  exact ⟨prog, s', h1, h2⟩

/-- **C13 (N-first), what holds.** With `beta ≠ 0` the products are added to the caller's C, provided
`pack_C` and the rest of the code place the blocks of C at the same offsets (`PackCAgree`). Missing with
respect to C13: other sizes, see `C13_nfirst_refuted`. -/
theorem C13_nfirst_accumulate_partial (h : TileOK p cx.m_r cx.n_r m_c k_c n_c)
    (hk : cx.kfix.Fits cx.m_r cx.n_r) (alpha : α) {beta : α} (hb : nz beta = true) {s : State α}
    (hs : CallOK s M N K) (hB : Holds s .B 1 (bNeed N K p cx.n_r k_c n_c)) (hC : Holds s .C M N)
    (hag : PackCAgree M N p cx.m_r cx.n_r m_c n_c) :
    Computes F (callN cx nz M N K p alpha beta m_c k_c n_c) s
      (fun s' => IsProduct F s s' M N K (fun r c => entry s .C N r c)) :=
  (sgemmN_call F nz cx h hk alpha beta hs hB (fun _ => ⟨hC, hag⟩)).mono fun _ hs' r c hr hc =>
    ⟨(hs'.fact r c hr hc).1, _, orderNKM_perm h.p_pos h.k_c_pos, by
      have := (hs'.fact r c hr hc).2
      rw [hb] at this
      exact this⟩

/-- **C13 (N-first), readable cases.** One block of columns (`N ≤ n_c`), or M a multiple of `p*m_c`
and N a multiple of `n_c`. -/
theorem C13_nfirst_accumulate_cases_partial (h : TileOK p cx.m_r cx.n_r m_c k_c n_c)
    (hk : cx.kfix.Fits cx.m_r cx.n_r) (alpha : α) {beta : α} (hb : nz beta = true) {s : State α}
    (hs : CallOK s M N K) (hB : Holds s .B 1 (bNeed N K p cx.n_r k_c n_c)) (hC : Holds s .C M N)
    (hcase : N ≤ n_c ∨ p * m_c ∣ M ∧ n_c ∣ N) :
    Computes F (callN cx nz M N K p alpha beta m_c k_c n_c) s
      (fun s' => IsProduct F s s' M N K (fun r c => entry s .C N r c)) :=
  C13_nfirst_accumulate_partial F nz cx h hk alpha hb hs hB hC
    (hcase.elim PackCAgree.of_le fun hc => PackCAgree.of_dvd h hc.1 hc.2)

example := C13_nfirst_accumulate_cases_partial (exact Int) (· != 0) haswell demo_tile haswell_fits_fix 1
  (beta := 1) (by simp) (demoC_ok 72 64 11) (readable_of_dvd demo_tile (demoC_ok 72 64 11) (by decide))
  (demoC_holds 72 64 11) (Or.inr (by decide))

/-- **C13 (N-first) does not hold.** `1 x 1` times `1 x 32` on one thread with `m_c = 12`, `n_c = 16`: the
second block of C is packed at offset 192 of a buffer of 192 elements, so every execution has
undefined behaviour (or stops because an allocation failed). -/
theorem C13_nfirst_refuted : ∃ prog, callN haswell (· != 0) 1 32 1 1 1 1 12 5 16 = some prog ∧
    CallOK (demoC 1 32 1) 1 32 1 ∧ Holds (demoC 1 32 1) .C 1 32 ∧
    Exec (exact Int) prog (demoC 1 32 1) .ub ∧
    ∀ s', ¬ Exec (exact Int) prog (demoC 1 32 1) (.ok s') := by
  have hpc : ∃ o ∈ phaseOps (pack_C_n_first ⟨.C, 0⟩ ⟨.Cp, 0⟩ 1 32 1 6 16 (dimsNKM 1 32 1 1 6 16 12 5 16)),
      o.dst = ⟨.Cp, 192⟩ := by decide +kernel
  have key : ∀ s', ¬ Exec (exact Int) ((callN haswell (· != 0) 1 32 1 1 1 1 12 5 16).get rfl)
      (demoC 1 32 1) (.ok s') := by
    intro s' he
    exact sgemmN_packC_oob (cx := haswell) (nz := (· != (0 : Int))) (alpha := 1) (beta := 1) (by decide)
      (x := 192) (by decide) hpc (packedA := false) (packedB := false) rfl he
  exact ⟨_, rfl, demoC_ok 1 32 1, demoC_holds 1 32 1, ub_of_no_ok _ key, key⟩

/-- **C13 (N-first), undefined elsewhere.** For every size other than those of `C13_nfirst_iff`, every execution
of the accumulating call has undefined behaviour (or stops because an allocation failed): the packing of C either
writes beyond the packed buffer or leaves elements unwritten that the products then read. -/
theorem C13_nfirst_undefined (h : TileOK p cx.m_r cx.n_r m_c k_c n_c)
    (hk : cx.kfix.Fits cx.m_r cx.n_r) (alpha : α) {beta : α} (hb : nz beta = true) (hM : 0 < M) (hK : 0 < K)
    (s : State α)
    (hnot : ¬ (N ≤ n_c ∨ (p * m_c ∣ cdiv M cx.m_r * cx.m_r ∧ n_c ∣ cdiv N cx.n_r * cx.n_r) ∨
      (cdiv M cx.m_r * cx.m_r ≤ p * m_c ∧ cdiv N cx.n_r * cx.n_r ≤ 2 * n_c ∧
        p * m_c * (cdiv N cx.n_r * cx.n_r - n_c) = n_c * (cdiv M cx.m_r * cx.m_r)))) :
    ∃ prog, callN cx nz M N K p alpha beta m_c k_c n_c = some prog ∧ Exec F prog s .ub ∧
      ∀ s', ¬ Exec F prog s (.ok s') := by
  rw [← packCAgree_iff h hM] at hnot
  have key : ∀ s', ¬ Exec F ((callN cx nz M N K p alpha beta m_c k_c n_c).get rfl) s (.ok s') := fun s' =>
    sgemmN_no_ok (cx := cx) (nz := nz) (alpha := alpha) (beta := beta) h hk hb hK hnot (packedA := false)
      (packedB := false) rfl
  exact ⟨_, rfl, ub_of_no_ok _ fun s' => key s', key⟩

example := C13_nfirst_undefined (exact Int) (· != 0) haswell demo_tile haswell_fits_fix 1 (beta := 1) (by simp)
  (M := 43) (N := 37) (K := 11) (by decide) (by decide) (demoC 43 37 11) (by decide)

/-- **C13 (N-first), exactly when.** For `beta ≠ 0` and nonempty products, the call adds the products to the
caller's C exactly when there is one block of columns (`N ≤ n_c`), or the blocks tile the padded C evenly, or
there is one block of rows and two of columns of matching proportions. -/
theorem C13_nfirst_iff (h : TileOK p cx.m_r cx.n_r m_c k_c n_c)
    (hk : cx.kfix.Fits cx.m_r cx.n_r) (alpha : α) {beta : α} (hb : nz beta = true) (hM : 0 < M) (hK : 0 < K)
    {s : State α} (hs : CallOK s M N K) (hB : Holds s .B 1 (bNeed N K p cx.n_r k_c n_c)) (hC : Holds s .C M N) :
    Computes F (callN cx nz M N K p alpha beta m_c k_c n_c) s
      (fun s' => IsProduct F s s' M N K (fun r c => entry s .C N r c)) ↔
    (N ≤ n_c ∨ (p * m_c ∣ cdiv M cx.m_r * cx.m_r ∧ n_c ∣ cdiv N cx.n_r * cx.n_r) ∨
      (cdiv M cx.m_r * cx.m_r ≤ p * m_c ∧ cdiv N cx.n_r * cx.n_r ≤ 2 * n_c ∧
        p * m_c * (cdiv N cx.n_r * cx.n_r - n_c) = n_c * (cdiv M cx.m_r * cx.m_r))) := by
  constructor
  · intro hcomp
    by_contra hnot
    obtain ⟨prog, hp, _, hno⟩ := C13_nfirst_undefined F nz cx h hk alpha hb hM hK s hnot
    obtain ⟨prog', hp', ⟨s', hs'⟩, _⟩ := hcomp
    rw [hp] at hp'
    cases hp'
    exact hno _ hs'
  · exact fun hc => C13_nfirst_accumulate_partial F nz cx h hk alpha hb hs hB hC ((packCAgree_iff h hM).2 hc)

example := C13_nfirst_iff (exact Int) (· != 0) haswell demo_tile haswell_fits_fix 1 (beta := 1) (by simp)
  (by decide) (by decide) (demoC_ok 72 64 11) (readable_of_dvd demo_tile (demoC_ok 72 64 11) (by decide))
  (demoC_holds 72 64 11)
/-- The third case occurs: 6 rows of one block of 12, and 48 columns in blocks of 32 and 16. -/
example : cdiv 5 6 * 6 ≤ 1 * 12 ∧ cdiv 45 16 * 16 ≤ 2 * 32 ∧ 1 * 12 * (cdiv 45 16 * 16 - 32) = 32 * (cdiv 5 6 * 6) := by
  decide

/-- **C07 (N-first, `beta ≠ 0`) does not hold.** Because of the same offset mix-up, packing C has a data
race when the last block of columns is narrower: `12 x 48` with `n_c = 32`, `m_c = 12`, one thread's
worth of rows; both column blocks write element 192 of the packed buffer. -/
theorem C07_nfirst_accumulate_refuted : ∃ prog, callN haswell (· != 0) 12 48 1 1 1 (1 : Int) 12 5 32 = some prog ∧
    ∃ ts, Item.par ts ∈ prog ∧ ¬ RaceFree ts := by
  have h1 : (pack_C_n_first ⟨.C, 0⟩ ⟨.Cp, 0⟩ 12 48 1 6 16 (dimsNKM 12 48 1 1 6 16 12 5 32)).head! ∈
      pack_C_n_first ⟨.C, 0⟩ ⟨.Cp, 0⟩ 12 48 1 6 16 (dimsNKM 12 48 1 1 6 16 12 5 32) := by
    decide +kernel
  have h2 : ∃ t0 t1, (pack_C_n_first ⟨.C, 0⟩ ⟨.Cp, 0⟩ 12 48 1 6 16 (dimsNKM 12 48 1 1 6 16 12 5 32)).head! =
      [t0, t1] ∧ (∃ o ∈ t0, o.dst = ⟨.Cp, 192⟩) ∧ (∃ o ∈ t1, o.dst = ⟨.Cp, 192⟩) :=
    ⟨_, _, rfl, by decide +kernel, by decide +kernel⟩
  refine ⟨_, rfl, (pack_C_n_first ⟨.C, 0⟩ ⟨.Cp, 0⟩ 12 48 1 6 16
    (dimsNKM 12 48 1 1 6 16 12 5 32)).head!, ?_, ?_⟩
  · exact sgemmN_packC_mem (cx := haswell) (nz := (· != (0 : Int))) (alpha := 1) (beta := 1) (by decide)
      (packedA := false) (packedB := false) rfl h1
  · obtain ⟨t0, t1, e, ⟨o, ho, ho'⟩, ⟨o', hp, hp'⟩⟩ := h2
    rw [e]
    intro hr
    exact (List.pairwise_cons.1 hr).1 t1 (by simp) o ho o' hp (Or.inl (by rw [ho', hp']))

/-- **C07 (N-first), race freedom.** No parallel loop of the call has a data race. -/
theorem C07_nfirst_raceFree (h : TileOK p cx.m_r cx.n_r m_c k_c n_c)
    (hk : cx.kfix.Fits cx.m_r cx.n_r) (alpha beta : α)
    (hag : nz beta = true → PackCAgree M N p cx.m_r cx.n_r m_c n_c) {prog : Prog}
    (hp : callN cx nz M N K p alpha beta m_c k_c n_c = some prog) :
    ∀ ts, Item.par ts ∈ prog → RaceFree ts :=
  (sgemmN_call ⟨alpha, fun _ _ _ => alpha⟩ nz cx h hk alpha beta
    (s := roomy alpha M N K (bNeed N K p cx.n_r k_c n_c)) (roomy_ok _ M N K _) (roomy_B _ M N K _)
    (fun hb => ⟨roomy_C _ M N K _, hag hb⟩)).raceFree hp

example {prog : Prog} (hp : callN haswell (· != 0) 43 37 11 3 1 (0 : Int) 12 5 32 = some prog) :
    ∀ ts, Item.par ts ∈ prog → RaceFree ts :=
  C07_nfirst_raceFree (· != 0) haswell demo_tile haswell_fits_fix 1 0 (by simp) hp

/-- **C07 (N-first, `beta ≠ 0`), exactly when.** The accumulating call is free of data races exactly if the place at which packing C
puts the last block of columns meets the place of no other block of columns (`j` runs over the others; the first row block has
`min (p*m_c) M'` rows, the last column block `w = N' - (Nb-1)*n_c` columns, with `M'`, `N'` the padded sizes). -/
theorem C07_nfirst_race_iff (h : TileOK p cx.m_r cx.n_r m_c k_c n_c) (hk : cx.kfix.Fits cx.m_r cx.n_r) (alpha : α) {beta : α}
    (hb : nz beta = true) (hM : 0 < M) {prog : Prog} (hp : callN cx nz M N K p alpha beta m_c k_c n_c = some prog) :
    (∀ ts, Item.par ts ∈ prog → RaceFree ts) ↔
    ∀ j, j + 1 < cdiv N n_c →
      j * (p * m_c) * n_c + min (p * m_c) (cdiv M cx.m_r * cx.m_r) * n_c ≤
          (cdiv N n_c - 1) * (p * m_c) * (cdiv N cx.n_r * cx.n_r - (cdiv N n_c - 1) * n_c) ∨
      (cdiv N n_c - 1) * (p * m_c) * (cdiv N cx.n_r * cx.n_r - (cdiv N n_c - 1) * n_c) +
          min (p * m_c) (cdiv M cx.m_r * cx.m_r) * (cdiv N cx.n_r * cx.n_r - (cdiv N n_c - 1) * n_c) ≤ j * (p * m_c) * n_c := by
  have key := packC_n_race (M := M) (N := N) (K := K) h hM
  rw [padTo_eq h.m_r_pos h.S_dvd, padTo_eq h.n_r_pos h.n_dvd] at key
  rw [← key]
  constructor
  · exact fun hr ts hts => hr ts (sgemmN_packC_mem (cx := cx) (nz := nz) (alpha := alpha) (beta := beta) hb
      (packedA := false) (packedB := false) hp hts)
  · intro hr ts hts
    rcases sgemmN_par (prog' := (callN cx (fun _ => false) M N K p alpha beta m_c k_c n_c).get rfl) hb hp rfl hts with h1 | h1
    · exact hr ts h1
    · exact C07_nfirst_raceFree (fun _ => false) cx h hk alpha beta (by simp) rfl ts h1

/-- A ragged last column block without a race: 6 rows of a block of 48, 48 columns in blocks of 32. -/
example {prog : Prog} (hp : callN haswell (· != 0) 6 48 11 4 1 (1 : Int) 12 5 32 = some prog) :
    ∀ ts, Item.par ts ∈ prog → RaceFree ts :=
  (C07_nfirst_race_iff (· != 0) haswell ⟨by decide, by decide, by decide, by decide, by decide, by decide, by decide, by decide⟩
    haswell_fits_fix 1 (by simp) (by decide) hp).2 (by
      intro j hj
      have : j = 0 := by
        have : cdiv 48 32 = 2 := rfl
        omega
      subst this
      decide)

/-- **C07 (N-first, `beta ≠ 0`), whole row blocks.** If the padded C has at least one whole block of `p*m_c` rows, the accumulating
call is free of data races exactly if it has one block of columns or the last one is as wide as the others. -/
theorem C07_nfirst_race_whole_iff (h : TileOK p cx.m_r cx.n_r m_c k_c n_c) (hk : cx.kfix.Fits cx.m_r cx.n_r) (alpha : α) {beta : α}
    (hb : nz beta = true) (hM : p * m_c ≤ cdiv M cx.m_r * cx.m_r) {prog : Prog}
    (hp : callN cx nz M N K p alpha beta m_c k_c n_c = some prog) :
    (∀ ts, Item.par ts ∈ prog → RaceFree ts) ↔ N ≤ n_c ∨ n_c ∣ cdiv N cx.n_r * cx.n_r := by
  have hP := h.S_pos
  have hM0 : 0 < M := by
    rcases Nat.eq_zero_or_pos M with rfl | h0
    · have : cdiv 0 cx.m_r = 0 := by unfold cdiv; exact Nat.div_eq_of_lt (by have := h.m_r_pos; omega)
      rw [this] at hM; omega
    · exact h0
  rw [C07_nfirst_race_iff nz cx h hk alpha hb hM0 hp, Nat.min_eq_left hM]
  have hcd := cdiv_padTo (T := N) h.n_c_pos h.n_r_pos h.n_dvd
  rw [padTo_eq h.n_r_pos h.n_dvd] at hcd
  have hge := cdiv_mul_ge (cdiv N cx.n_r * cx.n_r) n_c h.n_c_pos
  rw [hcd] at hge
  have hgN := cdiv_mul_ge N cx.n_r h.n_r_pos
  have hn0 := h.n_c_pos
  have hone : cdiv N n_c ≤ 1 ↔ N ≤ n_c := by
    constructor
    · intro h1
      have := cdiv_mul_ge N n_c hn0
      have := Nat.mul_le_mul_right n_c h1
      omega
    · exact fun h1 => cdiv_le_of_le_mul hn0 (by omega)
  by_cases h1 : N ≤ n_c
  · exact ⟨fun _ => Or.inl h1, fun _ j hj => absurd (hone.2 h1) (by omega)⟩
  have hNb : 1 < cdiv N n_c := by
    rcases Nat.lt_or_ge 1 (cdiv N n_c) with h2 | h2
    · exact h2
    · exact absurd (hone.1 h2) h1
  have hlt := chop_mul_lt (T := cdiv N cx.n_r * cx.n_r) (i := cdiv N n_c - 1) hn0 (by rw [hcd]; omega)
  obtain ⟨q, hq⟩ : ∃ q, cdiv N n_c = q + 1 := ⟨cdiv N n_c - 1, by omega⟩
  rw [hq] at hge hlt ⊢
  rw [Nat.add_sub_cancel] at hlt ⊢
  generalize hT : cdiv N cx.n_r * cx.n_r = T at *
  rw [Nat.add_mul, Nat.one_mul] at hge
  constructor
  · intro hd
    right
    by_contra hnd
    have hw : T - q * n_c < n_c := by
      rcases Nat.lt_or_ge (T - q * n_c) n_c with h2 | h2
      · exact h2
      · exfalso
        apply hnd
        exact ⟨q + 1, by rw [Nat.mul_comm, Nat.add_mul]; omega⟩
    -- the block that contains the start of the last one
    generalize hwe : T - q * n_c = w at *
    have hj : q * w / n_c < q := (Nat.div_lt_iff_lt_mul hn0).2 (Nat.mul_lt_mul_of_pos_left hw (by omega))
    have e1 := Nat.div_mul_le_self (q * w) n_c
    have e2 : q * w < (q * w / n_c + 1) * n_c := by
      rw [Nat.mul_comm (q * w / n_c + 1)]; exact Nat.lt_mul_div_succ _ hn0
    generalize q * w / n_c = j at *
    have f1 : q * (p * m_c) * w = p * m_c * (q * w) := by ring
    have f2 : j * (p * m_c) * n_c = p * m_c * (j * n_c) := by ring
    have f3 : j * (p * m_c) * n_c + p * m_c * n_c = p * m_c * ((j + 1) * n_c) := by ring
    have g1 := Nat.mul_le_mul_left (p * m_c) e1
    have g2 := Nat.mul_lt_mul_of_pos_left e2 hP
    have g3 : 0 < p * m_c * w := Nat.mul_pos hP (by omega)
    rcases hd j (by omega) with h2 | h2 <;> omega
  · rintro (h2 | ⟨c, hc⟩) j hj
    · omega
    · left
      have hcq : c = q + 1 := by
        have a1 : q < c := by
          apply Nat.lt_of_mul_lt_mul_right (a := n_c)
          rw [Nat.mul_comm c, ← hc]; exact hlt
        have a2 : c < q + 2 := by
          apply Nat.lt_of_mul_lt_mul_right (a := n_c)
          rw [Nat.mul_comm c, ← hc, Nat.add_mul]; omega
        omega
      subst hcq
      have : T - q * n_c = n_c := by rw [hc, Nat.mul_comm n_c, Nat.add_mul]; omega
      rw [this, ← Nat.add_mul]
      apply Nat.mul_le_mul_right
      have := Nat.mul_le_mul_right (p * m_c) (show j + 1 ≤ q by omega)
      rw [Nat.add_mul] at this
      omega

/-- `43 x 37` on 3 threads, tiles 12 and 32: the last block has 16 of 32 columns, so there is a race. -/
example {prog : Prog} (hp : callN haswell (· != 0) 43 37 11 3 1 (1 : Int) 12 5 32 = some prog) :
    ¬ ∀ ts, Item.par ts ∈ prog → RaceFree ts := by
  rw [C07_nfirst_race_whole_iff (· != 0) haswell demo_tile haswell_fits_fix 1 (by simp) (by decide) hp]
  decide

/-- **C07 (N-first).** Whatever the interleavings of the parallel loops and the contents of freshly
allocated memory, two executions leave the same contents in every object of the caller. -/
theorem C07_nfirst_deterministic (h : TileOK p cx.m_r cx.n_r m_c k_c n_c)
    (hk : cx.kfix.Fits cx.m_r cx.n_r) (alpha beta : α) {s : State α} (hs : CallOK s M N K)
    (hC : nz beta = true → Holds s .C M N ∧ PackCAgree M N p cx.m_r cx.n_r m_c n_c) {prog : Prog}
    (hp : callN cx nz M N K p alpha beta m_c k_c n_c = some prog)
    {s1 s2 : State α} (h1 : Exec F prog s (.ok s1)) (h2 : Exec F prog s (.ok s2)) :
    s1.size = s2.size ∧ ∀ l : Loc, s.size l.buf ≠ none → s1.mem l = s2.mem l ∧ s1.init l = s2.init l := by
  have hB := sgemmN_needs F nz cx h alpha beta hs hp h1
  have e1 := (sgemmN_call F nz cx h hk alpha beta hs hB hC).of_exec hp h1
  have e2 := (sgemmN_call F nz cx h hk alpha beta hs hB hC).of_exec hp h2
  exact ⟨by rw [e1.size, e2.size], fun l hl => Env.agree e1 e2
    (fun r c hr hc => by rw [(e1.fact r c hr hc).2, (e2.fact r c hr hc).2])
    (fun r c hr hc => by rw [(e1.fact r c hr hc).1, (e2.fact r c hr hc).1]) l hl⟩

/-- **C08 (N-first).** Nothing of the caller's changes but the `M*N` elements of C. -/
theorem C08_nfirst_onlyC (h : TileOK p cx.m_r cx.n_r m_c k_c n_c)
    (hk : cx.kfix.Fits cx.m_r cx.n_r) (alpha beta : α) {s : State α} (hs : CallOK s M N K)
    (hB : Holds s .B 1 (bNeed N K p cx.n_r k_c n_c)) 
    (hC : nz beta = true → Holds s .C M N ∧ PackCAgree M N p cx.m_r cx.n_r m_c n_c) :
    Computes F (callN cx nz M N K p alpha beta m_c k_c n_c) s (fun s' => OnlyC s s' M N) :=
  (sgemmN_call F nz cx h hk alpha beta hs hB hC).mono fun _ hs' => ⟨hs'.keep, hs'.size⟩

example : Computes (exact Int) (callN haswell (· != 0) 43 37 11 3 1 0 12 5 32) (demo 43 37 11)
    (fun s' => OnlyC (demo 43 37 11) s' 43 37) :=
  C08_nfirst_onlyC (exact Int) (· != 0) haswell demo_tile haswell_fits_fix 1 0 (demo_ok 43 37 11)
    demo_readable (by simp)

/-- **C08 (N-first), without any assumption on the memory behind B.** Any execution that ends normally, whatever
`beta`, has changed nothing of the caller's but the `M*N` elements of C. -/
theorem C08_nfirst_if_ends (h : TileOK p cx.m_r cx.n_r m_c k_c n_c)
    (hk : cx.kfix.Fits cx.m_r cx.n_r) (alpha beta : α) (hK : 0 < K) {s : State α} (hs : CallOK s M N K)
    (hC : nz beta = true → Holds s .C M N) {prog : Prog}
    (hp : callN cx nz M N K p alpha beta m_c k_c n_c = some prog) {s' : State α} (he : Exec F prog s (.ok s')) :
    OnlyC s s' M N := by
  have hB := sgemmN_needs F nz cx h alpha beta hs hp he
  refine (C08_nfirst_onlyC F nz cx h hk alpha beta hs hB fun hb => ⟨hC hb, ?_⟩).of_exec hp he
  by_contra hne
  exact sgemmN_no_ok (packedA := false) (packedB := false) h hk hb hK hne hp he

/-- Executions with `beta ≠ 0` that end normally exist. -/
example : ∃ prog s', callN haswell (· != 0) 43 32 11 3 1 (1 : Int) 12 5 32 = some prog ∧
    Exec (exact Int) prog (demoC 43 32 11) (.ok s') ∧ OnlyC (demoC 43 32 11) s' 43 32 := by
  obtain ⟨prog, h1, ⟨s', h2⟩, _⟩ := C08_nfirst_onlyC (exact Int) (· != 0) haswell demo_tile haswell_fits_fix 1 1
    (demoC_ok 43 32 11) (readable_of_dvd demo_tile (demoC_ok 43 32 11) (by decide))
    (fun _ => ⟨demoC_holds 43 32 11, PackCAgree.of_le (by decide)⟩)
  exact ⟨prog, s', h1, h2, C08_nfirst_if_ends (exact Int) (· != 0) haswell demo_tile haswell_fits_fix 1 1 (by decide)
    (demoC_ok 43 32 11) (fun _ => demoC_holds 43 32 11) h1 h2⟩

/-- **C10 (N-first), what holds.** If the object holding B has the `bNeed` elements the packing reads,
no execution of the call has undefined behaviour. Missing with respect to C10: the property asks for
this with an object of exactly `K*N` elements, see `C10_nfirst_refuted`. -/
theorem C10_nfirst_safe_partial (h : TileOK p cx.m_r cx.n_r m_c k_c n_c)
    (hk : cx.kfix.Fits cx.m_r cx.n_r) (alpha : α) {beta : α} (hb : nz beta = false) {s : State α}
    (hs : CallOK s M N K) (hB : Holds s .B 1 (bNeed N K p cx.n_r k_c n_c)) :
    ∃ prog, callN cx nz M N K p alpha beta m_c k_c n_c = some prog ∧ ∀ out, Exec F prog s out →
      out ≠ .ub := by
  obtain ⟨prog, hp, _, hall⟩ := sgemmN_call F nz cx h.toN hk alpha beta hs hB (by simp [hb])
  refine ⟨prog, hp, fun out ho e => ?_⟩
  rcases hall out ho with e' | ⟨s', e', _⟩ <;> rw [e] at e' <;> cases e'

/-- **C10 (N-first), N a multiple of `n_r`.** Then nothing beyond the `K*N` elements of B is read. -/
theorem C10_nfirst_safe_dvd_partial (h : TileOK p cx.m_r cx.n_r m_c k_c n_c)
    (hk : cx.kfix.Fits cx.m_r cx.n_r) (alpha : α) {beta : α} (hb : nz beta = false) {s : State α}
    (hs : CallOK s M N K) (hN : cx.n_r ∣ N) :
    ∃ prog, callN cx nz M N K p alpha beta m_c k_c n_c = some prog ∧ ∀ out, Exec F prog s out →
      out ≠ .ub :=
  C10_nfirst_safe_partial F nz cx h hk alpha hb hs (readable_of_dvd h hs hN)

example := C10_nfirst_safe_dvd_partial (exact Int) (· != 0) haswell demo_tile haswell_fits_fix 1
  (beta := 0) (by simp) (demo_ok 43 48 15) (by decide)

/-- **C10 (N-first) does not hold.** If the object holding B is smaller than `bNeed`, which happens with
exactly `K*N` elements as soon as `n_r ∤ N` and K is a positive multiple of `p*k_c`, then *every*
execution reads beyond the object holding B (or stops because an allocation failed). -/
theorem C10_nfirst_overread (h : TileOK p cx.m_r cx.n_r m_c k_c n_c) (alpha beta : α) {s : State α}
    (hs : CallOK s M N K) {nB : Nat} (hBs : s.size .B = some nB)
    (hlt : nB < bNeed N K p cx.n_r k_c n_c) :
    ∃ prog, callN cx nz M N K p alpha beta m_c k_c n_c = some prog ∧ Exec F prog s .ub ∧
      ∀ s', ¬ Exec F prog s (.ok s') :=
  ⟨_, rfl, ub_of_no_ok F fun _ => sgemmN_overread F nz cx h alpha beta hs hBs hlt rfl _,
    fun s' => sgemmN_overread F nz cx h alpha beta hs hBs hlt rfl s'⟩

/-- Witness: `43 x 15` times `15 x 37` with B of exactly `15*37` elements, 6 x 16 register tile. -/
theorem C10_nfirst_refuted : ∃ prog, callN haswell (· != 0) 43 37 15 3 1 0 12 5 32 = some prog ∧
    CallOK (demo 43 37 15) 43 37 15 ∧ Exec (exact Int) prog (demo 43 37 15) .ub := by
  obtain ⟨prog, h1, h2, _⟩ := C10_nfirst_overread (exact Int) (· != 0) haswell demo_tile 1 0
    (demo_ok 43 37 15) rfl (show 15 * 37 < bNeed 37 15 3 16 5 32 by decide)
  exact ⟨prog, h1, demo_ok 43 37 15, h2⟩

/-- **C10 (N-first), exactly when it is safe.** With a B object of exactly `K*N` elements the call (`beta = 0`) has
no undefined behaviour exactly if the last thread packs all rows of B, or the rows it packs are enough to cover the
columns by which N is rounded up to a multiple of `n_r`. In particular it is not if `n_r ∤ N` and K is a positive
multiple of `p*k_c`. -/
theorem C10_nfirst_iff (h : TileOK p cx.m_r cx.n_r m_c k_c n_c)
    (hk : cx.kfix.Fits cx.m_r cx.n_r) (alpha : α) {beta : α} (hb : nz beta = false) {s : State α}
    (hs : CallOK s M N K) (hBs : s.size .B = some (K * N)) :
    (∃ prog, callN cx nz M N K p alpha beta m_c k_c n_c = some prog ∧ ∀ out, Exec F prog s out → out ≠ .ub) ↔
      lastRows K p k_c = K ∨ cdiv N cx.n_r * cx.n_r ≤ (lastRows K p k_c + 1) * N := by
  rw [← bNeed_le_iff h.n_r_pos h.n_dvd]
  constructor
  · rintro ⟨prog, hp, hsafe⟩
    by_contra hc
    obtain ⟨prog', hp', hub, _⟩ := C10_nfirst_overread F nz cx h alpha beta hs hBs (by omega)
    rw [hp] at hp'
    cases hp'
    exact hsafe _ hub rfl
  · intro hle
    refine C10_nfirst_safe_partial F nz cx h hk alpha hb hs ⟨⟨_, hBs, by rwa [Nat.one_mul]⟩, fun i hi => ?_⟩
    exact hs.b.2 i (by omega)

/-- Both cases occur: `43 x 11` times `11 x 37` and `43 x 15` times `15 x 37`, three threads, `k_c = 5`. -/
example : (lastRows 11 3 5 = 11 ∨ cdiv 37 16 * 16 ≤ (lastRows 11 3 5 + 1) * 37) ∧
    ¬ (lastRows 15 3 5 = 15 ∨ cdiv 37 16 * 16 ≤ (lastRows 15 3 5 + 1) * 37) := by decide

example := C10_nfirst_iff (exact Int) (· != 0) haswell demo_tile haswell_fits_fix 1 (beta := 0) (by simp)
  (demo_ok 43 37 15) rfl

/-- **C10 (N-first), whatever object holds B.** The call (`beta = 0`) can end normally exactly if that object has
`bNeed` initialised elements; otherwise undefined behaviour is reached unless an allocation fails first. -/
theorem C10_nfirst_ends_iff (h : TileOK p cx.m_r cx.n_r m_c k_c n_c)
    (hk : cx.kfix.Fits cx.m_r cx.n_r) (alpha : α) {beta : α} (hb : nz beta = false) {s : State α}
    (hs : CallOK s M N K) :
    (∃ prog s', callN cx nz M N K p alpha beta m_c k_c n_c = some prog ∧ Exec F prog s (.ok s')) ↔
      Holds s .B 1 (bNeed N K p cx.n_r k_c n_c) := by
  constructor
  · rintro ⟨prog, s', hp, he⟩
    exact sgemmN_needs F nz cx h alpha beta hs hp he
  · intro hB
    obtain ⟨prog, hp, ⟨s', he⟩, -⟩ := sgemmN_call F nz cx h.toN hk alpha beta hs hB (by simp [hb])
    exact ⟨prog, s', hp, he⟩

example := C10_nfirst_ends_iff (exact Int) (· != 0) haswell demo_tile haswell_fits_fix 1 (beta := 0) (by simp)
  (demo_ok 43 37 15)

/-- **C34 (N-first).** At the end exactly the objects allocated at the call are allocated, with the
same sizes. -/
theorem C34_nfirst_no_leak (h : TileOK p cx.m_r cx.n_r m_c k_c n_c)
    (hk : cx.kfix.Fits cx.m_r cx.n_r) (alpha beta : α) {s : State α} (hs : CallOK s M N K)
    (hB : Holds s .B 1 (bNeed N K p cx.n_r k_c n_c)) 
    (hC : nz beta = true → Holds s .C M N ∧ PackCAgree M N p cx.m_r cx.n_r m_c n_c) :
    Computes F (callN cx nz M N K p alpha beta m_c k_c n_c) s (fun s' => s'.size = s.size) :=
  (sgemmN_call F nz cx h hk alpha beta hs hB hC).mono fun _ hs' => hs'.size

example := C34_nfirst_no_leak (exact Int) (· != 0) haswell demo_tile haswell_fits_fix 1 0
  (demo_ok 43 37 11) demo_readable (by simp)

/-- **C18 (N-first).** Packing A and/or B beforehand and passing the packed buffers gives bit for bit
the same C as the plain call; the packed buffers are not modified and stay allocated. -/
theorem C18_nfirst_prepacked (h : TileOK p cx.m_r cx.n_r m_c k_c n_c)
    (hk : cx.kfix.Fits cx.m_r cx.n_r) (alpha beta : α) {s : State α} (hs : CallOK s M N K)
    (hB' : Holds s .B 1 (bNeed N K p cx.n_r k_c n_c)) 
    (hC : nz beta = true → Holds s .C M N ∧ PackCAgree M N p cx.m_r cx.n_r m_c n_c)
    (packedA packedB : Bool) {prA prB plain packed : Prog}
    (hA : prepackA cx .NKM M N K p m_c k_c n_c = some prA)
    (hB : prepackB cx .NKM M N K p m_c k_c n_c = some prB)
    (hplain : callN cx nz M N K p alpha beta m_c k_c n_c = some plain)
    (hpacked : cake_sgemm nz cx ⟨if packedA then .Ap else .A, 0⟩ ⟨if packedB then .Bp else .B, 0⟩
      ⟨.C, 0⟩ M N K p packedA packedB alpha beta m_c k_c n_c .NKM = some packed)
    {s1 : State α}
    (h1 : Exec F ((if packedA then prA else []) ++ (if packedB then prB else [])) s (.ok s1)) :
    Computes F (some packed) s1 (fun s2 => s2.size = s1.size ∧
      (∀ l : Loc, s1.size l.buf ≠ none → ¬ (l.buf = .C ∧ l.idx < M * N) → s2.mem l = s1.mem l) ∧
      ∀ s', Exec F plain s (.ok s') → ∀ r c, r < M → c < N → entry s2 .C N r c = entry s' .C N r c) := by
  simp only [prepackA, init_block_dims, packedA_nkm, pack_A, Option.bind_eq_bind, Option.bind_some,
    Option.some.injEq] at hA
  simp only [prepackB, init_block_dims, packedB_eq, pack_B, Option.bind_eq_bind, Option.bind_some,
    Option.some.injEq] at hB
  subst hA hB
  have g := prepackS (F := F) h.geoN hs (fun _ => hB') (packA_n h.toN) (packB_n h.toN) h1
  obtain ⟨hA1, hB1⟩ := prepackS_in (F := F) h.geoN hs hB' (packA_n h.toN) (packB_n h.toN) h1
  obtain ⟨_, _, g3, _, _, g6⟩ := g
  have eC : ∀ r c, r < M → c < N → entry s1 .C N r c = entry s .C N r c := by
    obtain ⟨n, hn, hle⟩ := hs.c
    intro r c _ _
    exact (g6 ⟨.C, _⟩ (by simp [hn])).1
  have hC1 : Room s1 .C M N := by
    obtain ⟨n, hn, hle⟩ := hs.c
    exact ⟨n, by rw [g3 _ (by simp) (by simp), hn], hle⟩
  have hCh : Holds s .C M N → Holds s1 .C M N := by
    rintro ⟨⟨n, hn, hle⟩, hi⟩
    exact ⟨hC1, fun i hi' => by rw [(g6 ⟨.C, i⟩ (by simp [hn])).2]; exact hi i hi'⟩
  have fr : ∀ b, b ≠ .A → b ≠ .B → b ≠ .C → b ≠ .Ctx → b ≠ .Ap → b ≠ .Bp → s1.size b = none := by
    intro b h1 h2 h3 h4 h5 h6
    rw [g3 b h5 h6]; exact hs.fresh b h1 h2 h3 h4
  have t := sgemmN_triple (F := F) h hk hA1 hB1 hC1 (fun hb => ⟨hCh (hC hb).1, (hC hb).2⟩)
    (fr _ (by simp) (by simp) (by simp) (by simp) (by simp) (by simp))
    (fun i => fr _ (by simp) (by simp) (by simp) (by simp) (by simp) (by simp))
    (fr _ (by simp) (by simp) (by simp) (by simp) (by simp) (by simp))
    (fr _ (by simp) (by simp) (by simp) (by simp) (by simp) (by simp)) hpacked
  refine (Computes.of_triple rfl t).mono fun s2 hs2 => ⟨hs2.size, fun l hl hX => (hs2.keep l hl hX).1, ?_⟩
  intro s' hs' r c hr hc
  have e' := (sgemmN_call F nz cx h hk alpha beta hs hB' hC).of_exec hplain hs'
  have := eC r c hr hc
  unfold entry at this ⊢
  rw [(hs2.fact r c hr hc).2, (e'.fact r c hr hc).2, this]
  rfl

/-- The hypotheses of C18 can be met: packing runs to its end. -/
example : ∃ prA s1, prepackA haswell .NKM 43 37 11 3 12 5 32 = some prA ∧
    Exec (exact Int) prA (demo 43 37 11) (.ok s1) := by
  have hApn : (demo 43 37 11).size .Ap = none := rfl
  have t := prepAS (F := exact Int) (N := 37) (P := fun _ _ => True) (packed := false)
    (s0 := demo 43 37 11) (a := entry (demo 43 37 11) .A 11) demo_tile.geoN
    ⟨fun _ => ⟨(demo_ok 43 37 11).a, hApn, fun _ _ => rfl⟩, by simp⟩ (fun _ _ => rfl) (fun _ => hApn)
    (Stable.true _) (fun _ => packA_n demo_tile.toN)
  obtain ⟨s1, h1, _⟩ := t.exists_ok (s := demo 43 37 11) ⟨rfl, fun _ _ _ => ⟨rfl, rfl⟩, trivial⟩
  exact ⟨_, s1, rfl, h1⟩

end
end Cake
