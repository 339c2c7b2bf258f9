/-
C67 for every schedule: the call with automatic tile sizes over 32-bit `int`.
-/
import Verif.Proofs.Api32All
import Verif.Props.Api32
import Verif.Props.CheckedMN

namespace Cake
open List

section
variable {α : Type} (F : Arith α) (nz : α → Bool)

/-- **C67, no wrong index, any schedule.** Whatever the machine, the arguments and the floating-point operations: if the call over
32-bit `int` is defined, it performs exactly the accesses of the call over unbounded integers and leaves the same context. -/
theorem C67_all_same {D : Type _} (fl : Flt D) {mc : Machine} {cntx : Option (CCtx D)} {A B C : Loc} {a : Args α}
    {x : Prog × CCtx D} (h : sgemm_api32 fl nz mc cntx A B C a = .ok x) : sgemm_api fl nz mc cntx A B C a = .ok x := by
  revert x
  show Refines _ _
  unfold sgemm_api32 sgemm_api
  refine .bind (ref_get_cache_dims _ _ _ _ _ _ _ _ _ _ _) ?_
  rintro ⟨d, cx'⟩
  refine .bind .rfl fun v => .ite .rfl ?_
  intro x hx
  split at hx
  · rename_i prog hp
    show (match cake_sgemm nz v A B C _ _ _ _ _ _ _ _ _ _ _ d.sch with
      | some prog => _
      | none => _) = _
    rw [C55_run32_same nz v d.sch A B C _ _ a.alpha a.beta hp]
    exact hx
  · simp at hx

variable (r : Rounding 53) (rs : Rounding 24) (nf : Option ℝ → Option ℝ → Bool)

/-- **C67, any schedule, exactly.** Tile sizes chosen by the library; for the K-first schedule, and for the schedule chosen by the
library, at most as many threads as cores; for the N-first schedule, and for the schedule chosen by the library, `beta = 0`. Then a
call with a C whose padded size is below `2^31` is defined over 32-bit `int` if and only if the padded sizes of A and B are
below `2^31`. -/
theorem C67_all_defined_iff {mc : Machine} {cntx : Option (CCtx (Option ℝ))} {m_r n_r L2 L3 nc : Nat}
    (h : Ready mc (cntx.getD (query_cntx (ieee r rs nf) mc)) m_r n_r L2 L3 nc) (A B C : Loc)
    {a : Args α} (hpk : a.packedA = false ∧ a.packedB = false)
    (hp : 0 < a.p) (hp' : a.p ≤ 2 ^ 15) (hpn : a.sch = .KMN ∨ a.sch = .NA → a.p ≤ nc)
    (hb : a.sch = .NKM ∨ a.sch = .NA → nz a.beta = false) (l2 : 8 * (m_r * (m_r + 2 * n_r)) ≤ L2)
    (hu : a.mcu = 0 ∨ a.ncu = 0 ∨ a.kcu = 0) (hN : 0 < a.N) (hK : 0 < a.K)
    (hC : cdiv a.M m_r * m_r * (cdiv a.N n_r * n_r) < 2 ^ 31) :
    (∃ x, sgemm_api32 (ieee r rs nf) nz mc cntx A B C a = .ok x) ↔
      cdiv a.M m_r * m_r * a.K < 2 ^ 31 ∧ a.K * (cdiv a.N n_r * n_r) < 2 ^ 31 := by
  have hM : a.M < 2 ^ 31 := by
    have h1 := cdiv_mul_ge a.M m_r h.cache.mr_pos
    have h3 := cdiv_mul_ge a.N n_r h.cache.nr_pos
    have h2 : cdiv a.M m_r * m_r ≤ cdiv a.M m_r * m_r * (cdiv a.N n_r * n_r) := Nat.le_mul_of_pos_right _ (by omega)
    omega
  obtain ⟨kd, d, m_c, n_c, cx', hd, em, en, hT, hf, ⟨b1, b2, b3, b4, -⟩, hs1, hs2, e⟩ := apiAll_reduce r rs nf nz h A B C hp hp' l2 hu hM
  rw [hpk.1, hpk.2] at e
  rw [e, finishAll_ok]
  have hsch : ∀ s, d.sch = s → a.sch = s ∨ a.sch = .NA := by
    intro s hs
    by_cases hna : a.sch = .NA
    · exact Or.inr hna
    · exact Or.inl (by rw [← hs1 hna, hs])
  rcases hs2 with hs | hs | hs
  · have key := C36_run32_defined_iff (M := a.M) (N := a.N) (K := a.K) ⟨m_r, n_r, kd, mc.kfix⟩ hT A B C hN hK b2 hC
    rw [hs]
    refine key.trans ⟨fun k => ⟨k.1, k.2.1⟩, fun k => ⟨k.1, k.2, b1, b4 (hpn (hsch _ hs))⟩⟩
  · have key := C55_run32_m_defined_iff (M := a.M) (N := a.N) (K := a.K) ⟨m_r, n_r, kd, mc.kfix⟩ hT A B C (nz a.beta) hN hK b2 b3
    rw [hs]
    exact key.trans ⟨fun k => ⟨k.1, k.2.1⟩, fun k => ⟨k.1, k.2, hC, b1⟩⟩
  · have key := C55_run32_n_defined_iff (M := a.M) (N := a.N) (K := a.K) ⟨m_r, n_r, kd, mc.kfix⟩ hT A B C hN hK b3
    rw [hs, hb (hsch _ hs)]
    exact key.trans ⟨fun k => ⟨k.1, k.2.1⟩, fun k => ⟨k.1, k.2, hC, b1, b1⟩⟩

/-- **C67, any schedule.** Tile sizes chosen by the library, any schedule or none given, `beta = 0`, at most as many threads as
cores: if A, B and C, padded to whole register tiles, have fewer than `2^31` entries each, no `int` operation of the call is
undefined, and the call leaves the product in C and nothing else changed. Missing: `beta != 0` with the N-first schedule
(`C67_accum_refuted`), and a ragged N without room behind B (C10, C42). -/
theorem C67_all_product_partial {mc : Machine} {cntx : Option (CCtx (Option ℝ))} {m_r n_r L2 L3 nc : Nat}
    (h : Ready mc (cntx.getD (query_cntx (ieee r rs nf) mc)) m_r n_r L2 L3 nc) (hk : mc.kfix.Fits m_r n_r)
    {a : Args α} (hpk : a.packedA = false ∧ a.packedB = false)
    (hp : 0 < a.p) (hp' : a.p ≤ 2 ^ 15) (hpn : a.sch = .KMN ∨ a.sch = .NA → a.p ≤ nc) (hb : nz a.beta = false)
    (l2 : 8 * (m_r * (m_r + 2 * n_r)) ≤ L2) (hu : a.mcu = 0 ∨ a.ncu = 0 ∨ a.kcu = 0) (hN : 0 < a.N) (hK : 0 < a.K)
    (hA : cdiv a.M m_r * m_r * a.K < 2 ^ 31) (hB : a.K * (cdiv a.N n_r * n_r) < 2 ^ 31)
    (hC : cdiv a.M m_r * m_r * (cdiv a.N n_r * n_r) < 2 ^ 31)
    {s : State α} (hs : CallOK s a.M a.N a.K)
    (hB' : n_r ∣ a.N ∨ Holds s .B 1 (a.K * a.N + (n_r - 1))) (hctx : cntx = none → s.size .Ctx = none) :
    ∃ prog cx', sgemm_api32 (ieee r rs nf) nz mc cntx ⟨.A, 0⟩ ⟨.B, 0⟩ ⟨.C, 0⟩ a = .ok (prog, cx') ∧
      Ready mc cx' m_r n_r L2 L3 nc ∧ Computes F (some prog) s (fun s' => Correct F cntx.isNone s s' a.M a.N a.K) := by
  obtain ⟨⟨prog, cx'⟩, e⟩ := (C67_all_defined_iff nz r rs nf h ⟨.A, 0⟩ ⟨.B, 0⟩ ⟨.C, 0⟩ hpk hp hp' hpn (fun _ => hb) l2 hu hN hK hC).2 ⟨hA, hB⟩
  have e' := C67_all_same nz (ieee r rs nf) e
  obtain ⟨prog', cx'', e1, hR, hc⟩ := C42_default_partial F r rs nf nz h hk hpk hp (.auto hp' l2 hu) hb hs hB' hctx
  rw [show publicCall r rs nf nz mc cntx a = _ from e'] at e1
  cases e1
  exact ⟨_, _, e, hR, hc⟩

/-- **C67, K-first.** The call with the K-first schedule given is the call of `C67_auto_partial`. -/
theorem C67_all_kfirst {D : Type _} (fl : Flt D) {mc : Machine} {cntx : Option (CCtx D)} {A B C : Loc} {a : Args α}
    (hs : a.sch = .KMN) : sgemm_api32 fl nz mc cntx A B C a = sgemm_kfirst_api32 fl mc cntx A B C a := by
  unfold sgemm_api32 sgemm_kfirst_api32
  rw [hs]
  have h32 := ref_get_cache_dims fl (cntx.getD (query_cntx fl mc)) a.M a.N a.K a.p .KMN (fl.ofInt 4) a.mcu a.kcu a.ncu
  refine bind_congr_ok ?_
  rintro ⟨d, cx'⟩ hd
  have hsch : d.sch = .KMN := ((get_cache_dims_noExit _ _ _ _ _ _ _ _ _ _ _).of_ok (h32 _ hd)).1 (by simp)
  refine bind_congr_ok fun v _ => ?_
  have h1 : ∀ m k n, cake_sgemm32S v A B C a.M a.N a.K a.p a.packedA a.packedB (nz a.beta) m k n d.sch =
      cake_sgemm32 v A B C a.M a.N a.K a.p a.packedA a.packedB m k n := fun m k n => by rw [hsch]; unfold cake_sgemm32S; rfl
  have h2 : ∀ {c : Prop} [Decidable c] {β : Type _} {x y z : Except Fail β}, y = z → (if c then x else y) = (if c then x else z) := by
    intro c _ β x y z h; rw [h]
  refine h2 ?_
  generalize hg : cake_sgemm32 v A B C a.M a.N a.K a.p a.packedA a.packedB _ _ _ = o
  rw [h1, hg]
  cases o <;> rfl

end

section
variable (r : Rounding 53) (rs : Rounding 24) (nf : Option ℝ → Option ℝ → Bool)

/-- NULL context, nothing given: the library chooses schedule and tiles; A has more than 10^9 entries. -/
example := C67_all_product_partial (exact Int) (· != 0) r rs nf (cntx := none) (haswellMachine_ok.query (ieee r rs nf))
  haswellMachine_ok.kfix_fits
  (a := { M := 100003, N := 48, K := 11001, p := 4, alpha := 1, beta := 0 }) ⟨rfl, rfl⟩ (by decide) (by decide)
  (by decide) (by simp) (by decide) (Or.inl rfl) (by decide) (by decide) (by decide) (by decide) (by decide)
  (demo_ok 100003 48 11001) (Or.inl (by decide)) (fun _ => rfl)

/-- M-first with `beta != 0`, more threads than cores. -/
example (A B C : Loc) : ∃ x, sgemm_api32 (ieee r rs nf) (· != 0) haswellMachine none A B C
    ({ M := 100003, N := 47, K := 11001, p := 64, alpha := 1, beta := 3, sch := .MKN } : Args Int) = .ok x := by
  rw [C67_all_defined_iff _ r rs nf (haswellMachine_ok.query (ieee r rs nf)) A B C ⟨rfl, rfl⟩ (by decide) (by decide) (by decide)
    (by decide) (by decide) (Or.inl rfl) (by decide) (by decide) (by decide)]
  decide

/-- N-first, B has `2^31` entries. -/
example (A B C : Loc) : ¬ ∃ x, sgemm_api32 (ieee r rs nf) (· != 0) haswellMachine none A B C
    ({ M := 6, N := 65536, K := 32768, p := 1, alpha := 1, beta := 0, sch := .NKM } : Args Int) = .ok x := by
  rw [C67_all_defined_iff _ r rs nf (haswellMachine_ok.query (ieee r rs nf)) A B C ⟨rfl, rfl⟩ (by decide) (by decide) (by decide)
    (by simp) (by decide) (Or.inl rfl) (by decide) (by decide) (by decide)]
  decide

/-- The premise of `C67_all_same` is met by that call with a smaller K. -/
example {x : Prog × CCtx (Option ℝ)} (h : sgemm_api32 (ieee r rs nf) (· != 0) haswellMachine none ⟨.A, 0⟩ ⟨.B, 0⟩ ⟨.C, 0⟩
    ({ M := 6, N := 65536, K := 3276, p := 1, alpha := 1, beta := 0, sch := .NKM } : Args Int) = .ok x) :=
  C67_all_same (· != 0) (ieee r rs nf) h

example (A B C : Loc) := C67_all_kfirst (A := A) (B := B) (C := C) (· != 0) (ieee r rs nf) (mc := haswellMachine) (cntx := none)
  (a := ({ M := 6, N := 65536, K := 3276, p := 1, alpha := 1, beta := 0, sch := .KMN } : Args Int)) rfl

/-- **C67 is false for the N-first schedule with `beta != 0`**: on a machine with 4 cores a `6 x 1` times `1 x 10^8` product with 4
threads overflows when C is packed, although A, B and C have 6, `10^8` and `6 * 10^8` entries; with `beta = 0` the same call
is defined. -/
theorem C67_accum_refuted (A B C : Loc) :
    (¬ ∃ x, sgemm_api32 (ieee r rs nf) (· != 0) haswellMachine none A B C
      ({ M := 6, N := 100000000, K := 1, p := 4, alpha := 1, beta := 1, sch := .NKM } : Args Int) = .ok x) ∧
    ∃ x, sgemm_api32 (ieee r rs nf) (· != 0) haswellMachine none A B C
      ({ M := 6, N := 100000000, K := 1, p := 4, alpha := 1, beta := 0, sch := .NKM } : Args Int) = .ok x := by
  constructor
  · intro hx
    obtain ⟨kd, d, m_c, n_c, cx', hd, em, en, hT, hf, ⟨b1, b2, b3, b4, b5⟩, hs1, -, e⟩ := apiAll_reduce r rs nf (· != 0) (cntx := none)
      (haswellMachine_ok.query (ieee r rs nf)) A B C
      (a := ({ M := 6, N := 100000000, K := 1, p := 4, alpha := 1, beta := 1, sch := .NKM } : Args Int))
      (by decide) (by decide) (by decide) (Or.inl rfl) (by decide)
    have hs : d.sch = .NKM := hs1 (by simp)
    rw [e, finishAll_ok, hs] at hx
    have hn := b5 hs
    have hm : 0 < m_c := hT.m_c_pos
    have hm6 : 6 ∣ m_c := hT.m_dvd
    have hn0 : 0 < n_c := hT.n_c_pos
    have key := ((C55_run32_n_accum_defined_iff ⟨6, 16, kd, haswellMachine.kfix⟩ hT A B C (by decide) (by decide) (by decide)
      b3).1 hx).2
    have hN : cdiv 100000000 16 * 16 = 100000000 := by decide
    have hq : 100000000 / n_c * n_c ≤ 100000000 := Nat.div_mul_le_self _ _
    have hq1 : 100000000 < (100000000 / n_c + 1) * n_c := (Nat.div_lt_iff_lt_mul hn0).1 (Nat.lt_succ_self _)
    have hle : 1 ≤ 100000000 / n_c := (Nat.le_div_iff_mul_le hn0).2 (by omega)
    generalize hqd : 100000000 / n_c = q at hq hq1 hle
    have hlt : q - 1 < cdiv 100000000 n_c := by
      have : q ≤ cdiv 100000000 n_c := by
        have h1 := cdiv_mul_ge 100000000 n_c hn0
        exact Nat.le_of_mul_le_mul_right (hq.trans h1) hn0
      omega
    have k1 := key (q - 1) hlt
    simp only [hN] at k1
    have e1 : (q - 1) * n_c + n_c = q * n_c := by
      conv_rhs => rw [show q = q - 1 + 1 by omega, Nat.add_mul, Nat.one_mul]
    have hmin : min n_c (100000000 - (q - 1) * n_c) = n_c := Nat.min_eq_left (by omega)
    rw [hmin] at k1
    have h24 : 24 ≤ 4 * m_c := by omega
    have : (q - 1) * n_c * 24 ≤ (q - 1) * n_c * (4 * m_c) := Nat.mul_le_mul_left _ h24
    have e2 : (q - 1) * 4 * m_c * n_c = (q - 1) * n_c * (4 * m_c) := by ring
    rw [e2] at k1
    have e3 : (q + 1) * n_c = q * n_c + n_c := by ring
    omega
  · rw [C67_all_defined_iff _ r rs nf (haswellMachine_ok.query (ieee r rs nf)) A B C ⟨rfl, rfl⟩ (by decide) (by decide) (by decide)
      (by simp) (by decide) (Or.inl rfl) (by decide) (by decide) (by decide)]
    decide

end
end Cake
