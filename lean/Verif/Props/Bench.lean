/-
Property C80: the benchmark example.
-/
import Verif.Proofs.Bench
import Verif.Proofs.WideKernel
import Verif.Props.SelfTest

namespace Cake
open List

variable {α : Type _}

/-- **C80 fails: flushing the caches is undefined.** From every state, in every arithmetic: an execution of what a trial
does before the product, for a flush of at least one element, ends in undefined behaviour. -/
theorem C80_flush_refuted (F : Arith α) {z : Nat} (hz : 0 < z) (s : State α) (out : Out α) :
    Exec F (flush z) s out ↔ out = .ub := by
  have key : ∀ out, Exec F (flush z) s out → out = .ub := by
    intro out h
    unfold flush at h
    cases h with
    | next _ _ _ s1 _ h1 h2 =>
      cases h1 with
      | malloc _ _ _ m' _ _ =>
        cases h2 with
        | next _ _ _ _ _ h3 _ =>
          cases h3 with
          | par _ l _ _ hl hr =>
            have := flush_interleave F (fun d => by simp [dirty]) hz hl hr
            cases this
        | exit _ _ _ h3 =>
          cases h3 with
          | par _ l _ _ hl hr =>
            have := flush_interleave F (fun d => by simp [dirty]) hz hl hr
            cases this
        | ub => rfl
    | exit _ _ _ h1 => cases h1
    | ub => rfl
  refine ⟨key out, ?_⟩
  rintro rfl
  obtain ⟨out, h, -⟩ := exec_exists (F := F) (flush z) s
  rwa [key out h] at h

example (s : State Int) : Exec (exact Int) (flush flushsz) s .ub := (C80_flush_refuted _ (by decide) s _).2 rfl

/-- **C80 fails: flushing the caches is a data race**, whether or not the memory is initialised: with more than 18
elements two iterations of the parallel loop write the same variable. -/
theorem C80_race_refuted {z : Nat} (hz : 18 < z) : ¬ RaceFree (flushTasks z) := by
  intro h
  have := (List.pairwise_iff_getElem.1 h) 0 18 (by simp [flushTasks]; omega) (by simp [flushTasks]; omega) (by decide)
  simp only [flushTasks, getElem_map, getElem_range] at this
  exact this (.fma (tttmp 0) (dirty 0) (dirty 0)) (by simp) (.fma (tttmp 0) (dirty 18) (dirty 18)) (by simp) (.inl rfl)

example : ¬ RaceFree (flushTasks flushsz) := C80_race_refuted (by decide)

theorem trials_iff {C : Type _} (F : Arith α) (call : C → Except Fail (Prog × C)) (n : Nat) (cx : C) (s : State α)
    (out : Out α) : BenchTrials F call n cx s out ↔ if n = 0 then out = .ok s else out = .ub := by
  have key := C80_flush_refuted F (z := flushsz) (by decide) s
  have hno : ∀ {s1}, ¬ Exec F (flush flushsz) s (.ok s1) := fun h => nomatch (key _).1 h
  constructor
  · intro h
    cases h with
    | done => simp
    | flushUb => simp
    | flushExit _ _ _ h => exact nomatch (key _).1 h
    | callUb _ _ _ _ h => exact absurd h hno
    | callExit _ _ _ _ h => exact absurd h hno
    | ub _ _ _ _ _ _ h => exact absurd h hno
    | exit _ _ _ _ _ _ h => exact absurd h hno
    | step _ _ _ _ _ _ _ _ h => exact absurd h hno
  · intro h
    cases n with
    | zero => rw [if_pos rfl] at h; subst h; exact .done _ _
    | succ n => rw [if_neg (by omega)] at h; subst h; exact .flushUb _ _ _ ((key _).2 rfl)

/-! ### The program -/

section
variable {C : Type _} (F G : Arith α) {dom : α → Prop} (exceeds : α → α → Bool)
  (call : BenchArgs → C → Except Fail (Prog × C)) (cx : C)

/-- With fewer than two arguments the benchmark prints a message and stops. -/
theorem C80_few {argv : List Nat} (h : argv.length < 3) (e : BenchEnd) :
    BenchMain F G dom exceeds call cx argv e ↔ e = .exit := by
  have ea := benchArgs_few h
  constructor
  · intro hb
    cases hb with
    | argsExit => rfl
    | argsUb h1 => rw [ea] at h1; cases h1
    | _ => simp_all
  · rintro rfl; exact .argsExit ea

example (e : BenchEnd) : BenchMain F G dom exceeds call cx [0, 960] e ↔ e = .exit :=
  C80_few F G exceeds call cx (by decide) e

/-- **C80 fails: the message comes too late.** With two, three or four arguments (the message asks for three) every run is
undefined. -/
theorem C80_missing_refuted {argv : List Nat} (h3 : 3 ≤ argv.length) (h6 : argv.length < 6) (e : BenchEnd) :
    BenchMain F G dom exceeds call cx argv e ↔ e = .ub := by
  have ea : benchArgs argv = .error .ub := by
    rcases benchArgs_cases h3 with h | ⟨a, -, h⟩
    · exact h
    · obtain ⟨h1, -⟩ := List.getElem?_eq_some_iff.1 h.ntrials
      omega
  constructor
  · intro hb
    cases hb with
    | argsUb => rfl
    | argsExit h1 => rw [ea] at h1; cases h1
    | _ => simp_all
  · rintro rfl; exact .argsUb ea

example (e : BenchEnd) : BenchMain F G dom exceeds call cx [0, 960, 960, 960] e ↔ e = .ub :=
  C80_missing_refuted F G exceeds call cx (by decide) (by decide) e

/-- **C80 fails: every measurement is undefined.** With all arguments given and at least one trial, every run is
undefined: whatever the product does, whatever the matrices contain, in every arithmetic. -/
theorem C80_trials_refuted (hd : dom F.zero) {argv : List Nat} {a : BenchArgs} (h : GivesArgs argv a)
    (hn : 0 < a.ntrials) (e : BenchEnd) : BenchMain F G dom exceeds call cx argv e ↔ e = .ub := by
  have ea := h.eq
  have ht := fun s out => (trials_iff F (call a) a.ntrials cx s out).trans
    (by rw [if_neg (by omega)] : _ ↔ out = .ub)
  constructor
  · intro hb
    cases hb with
    | argsExit h1 => rw [ea] at h1; cases h1
    | argsUb => rfl
    | trialsUb => rfl
    | checkUb => rfl
    | trialsExit a' s h1 h2 h3 =>
      rw [ea] at h1; cases h1
      exact nomatch (ht _ _).1 h3
    | checkExit a' s s1 h1 h2 h3 =>
      rw [ea] at h1; cases h1
      exact nomatch (ht _ _).1 h3
    | verdict a' s s1 s2 h1 h2 h3 =>
      rw [ea] at h1; cases h1
      exact nomatch (ht _ _).1 h3
  · rintro rfl
    exact .trialsUb a _ ea (TestCase.Start.zero hd _) ((ht _ _).2 rfl)

example {D : Type _} (fl : Flt D) (e : BenchEnd) :
    BenchMain (exact Int) (exact Int) (fun x => |x| ≤ 1) (fun x y => decide (1 < |x - y|))
      (benchCall fl (· != 0) haswellMachine 1 0) (benchCntx fl haswellMachine) [0, 960, 960, 960, 4, 10] e ↔ e = .ub :=
  C80_trials_refuted _ _ _ _ _ (by simp [exact]) (a := ⟨960, 960, 960, 4, 10⟩)
    ⟨rfl, rfl, rfl, rfl, rfl, by
      intro i hi n _ h
      have : ∀ i < 6, ∀ n ∈ [0, 960, 960, 960, 4, 10][i]?, n < 2147483648 := by decide
      exact this i hi n h, by decide⟩ (by decide) e

/-- Without a trial the benchmark is defined, ends normally, and prints whether the product of A and B is within the
tolerance of the zero matrix. -/
theorem C80_no_trial_partial {argv : List Nat} {a : BenchArgs} (h : GivesArgs argv a) (hn : a.ntrials = 0)
    (e : BenchEnd) : BenchMain F G dom exceeds call cx argv e ↔
      ∃ s, a.Start F.zero dom s ∧ ∃ w, e = .verdict w ∧ (w = true ↔ ∃ r c, r < a.M ∧ c < a.N ∧
        exceeds (dotFrom G (fun k => entry s .A a.K r k) (fun k => entry s .B a.N k c) (range a.K) G.zero) F.zero = true) := by
  have ea := h.eq
  have ht := fun s out => (trials_iff F (call a) a.ntrials cx s out).trans (by rw [if_pos hn] : _ ↔ out = .ok s)
  have hc := fun s (hs : a.Start F.zero dom s) => C32_checker_partial G exceeds a.M a.N a.K s hs.ok
    ⟨⟨_, congrFun hs.sizes _, Nat.le_refl _⟩, fun i hi => (hs.c i hi).1⟩
  have hv : ∀ s, a.Start F.zero dom s → ∀ s2, (checkVerdict exceeds a.M a.N s2 = false ↔ ∀ r c, r < a.M → c < a.N →
        exceeds (dotFrom G (fun k => entry s .A a.K r k) (fun k => entry s .B a.N k c) (range a.K) G.zero)
          (entry s .C a.N r c) = false) → (checkVerdict exceeds a.M a.N s2 = true ↔ ∃ r c, r < a.M ∧ c < a.N ∧
        exceeds (dotFrom G (fun k => entry s .A a.K r k) (fun k => entry s .B a.N k c) (range a.K) G.zero) F.zero = true) := by
    intro s hs s2 h2
    have hz : ∀ r c, r < a.M → c < a.N → entry s .C a.N r c = F.zero := by
      intro r c hr hc
      refine (hs.c _ ?_).2
      show r * a.N + c < a.M * a.N
      have : (r + 1) * a.N ≤ a.M * a.N := Nat.mul_le_mul_right _ hr
      rw [Nat.add_mul] at this
      omega
    rw [← not_iff_not, Bool.not_eq_true, h2]
    constructor
    · rintro hh ⟨r, c, hr, hc, he⟩
      have := hh r c hr hc
      rw [hz r c hr hc, he] at this
      cases this
    · intro hh r c hr hc
      rw [hz r c hr hc, ← Bool.not_eq_true]
      exact fun he => hh ⟨r, c, hr, hc, he⟩
  constructor
  · intro hb
    cases hb with
    | argsExit h1 => rw [ea] at h1; cases h1
    | argsUb h1 => rw [ea] at h1; cases h1
    | trialsUb a' s h1 h2 h3 => rw [ea] at h1; cases h1; exact nomatch (ht _ _).1 h3
    | trialsExit a' s h1 h2 h3 => rw [ea] at h1; cases h1; exact nomatch (ht _ _).1 h3
    | checkUb a' s s1 h1 h2 h3 h4 =>
      rw [ea] at h1; cases h1
      cases (ht _ _).1 h3
      rcases hc s h2 s _ rfl h4 with e | ⟨_, e, _⟩ <;> cases e
    | checkExit a' s s1 h1 h2 h3 h4 => exact absurd rfl (exec_ne_exit (checkFill_no_memalign _ _ _) h4)
    | verdict a' s s1 s2 h1 h2 h3 h4 =>
      rw [ea] at h1; cases h1
      cases (ht _ _).1 h3
      rcases hc s h2 s _ rfl h4 with e | ⟨_, e, _, _, hq, _⟩
      · cases e
      · cases e
        exact ⟨s, h2, _, rfl, hv s h2 _ hq⟩
  · rintro ⟨s, hs, w, rfl, hw⟩
    obtain ⟨s2, hx, _, _, hq, _⟩ := (hc s hs).exists_ok rfl
    have : w = checkVerdict exceeds a.M a.N s2 := Bool.eq_iff_iff.2 (hw.trans (hv s hs s2 hq).symm)
    rw [this]
    exact .verdict a s s s2 ea hs ((ht _ _).2 rfl) hx

/-- One row, one column, no trial: the benchmark reports a wrong result although no product was computed, if the product
of the two entries is not nearly zero. -/
example (cx : Unit) : BenchMain (exact Int) (exact Int) (fun x => |x| ≤ 9) (fun x y => decide (1 < |x - y|))
    (fun _ _ => .error .ub) cx [0, 1, 1, 1, 1, 0] (.verdict true) := by
  refine (C80_no_trial_partial (exact Int) (exact Int) _ _ cx (a := ⟨1, 1, 1, 1, 0⟩)
    ⟨rfl, rfl, rfl, rfl, rfl, ?_, by decide⟩ rfl _).2
    ⟨⟨fun b => match b with
      | .A => some 1
      | .B => some 1
      | .C => some 1
      | .Ctx => some 1
      | _ => none, fun l => if l.buf = .C then 0 else 3, fun _ => true⟩,
    ⟨rfl, fun _ _ => ⟨rfl, by simp⟩, fun _ _ => ⟨rfl, by simp⟩, fun _ _ => ⟨rfl, rfl⟩⟩, true, rfl, by
      refine ⟨fun _ => ⟨0, 0, by decide, by decide, by decide⟩, fun _ => rfl⟩⟩
  intro i hi n _ h
  have : ∀ i < 6, ∀ n ∈ [0, 1, 1, 1, 1, 0][i]?, n < 2147483648 := by decide
  exact this i hi n h

/-- **C80 fails: the check never sees a product.** If a run of the benchmark ends normally, all arguments were given and
the number of trials is zero. -/
theorem C80_refuted (hd : dom F.zero) {argv : List Nat} {w : Bool}
    (h : BenchMain F G dom exceeds call cx argv (.verdict w)) : argv[5]? = some 0 := by
  by_cases h3 : argv.length < 3
  · exact nomatch (C80_few F G exceeds call cx h3 _).1 h
  rcases benchArgs_cases (by omega : 3 ≤ argv.length) with e | ⟨a, -, ha⟩
  · cases h with
    | verdict a' s s1 s2 h1 => rw [e] at h1; cases h1
  · by_cases hn : a.ntrials = 0
    · rw [ha.ntrials, hn]
    · exact nomatch (C80_trials_refuted F G exceeds call cx hd ha (by omega) _).1 h

example {w : Bool} (h : BenchMain (exact Int) (exact Int) (fun x => |x| ≤ 9) (fun x y => decide (1 < |x - y|))
    (fun _ _ => .error .ub) () [0, 1, 1, 1, 1, 0] (.verdict w)) : [0, 1, 1, 1, 1, 0][5]? = some 0 :=
  C80_refuted _ _ _ _ _ (by simp [exact]) h

end

/-! ### The product that is timed -/

section
variable (r : Rounding 53) (rs : Rounding 24) (nf : Option ℝ → Option ℝ → Bool)

/-- On ARM the context the benchmark fills in by hand is the one it was given. -/
theorem benchCntx_arm {D : Type _} (fl : Flt D) {mc : Machine} (h : mc.arch = archArmv8) :
    benchCntx fl mc = query_cntx fl mc := by
  unfold benchCntx query_cntx
  rw [h]
  rfl

/-- **C80 on ARM, but for the flush**: the product that is timed is defined and right, from the state the trials start in,
and leaves a context with which it is so again. -/
theorem C80_product_partial (F : Arith α) (nz : α → Bool) {mc : Machine} {L2 L3 nc : Nat} (h : MachineOK mc L2 L3 nc)
    (harm : mc.arch = archArmv8) (one zero : α) {a : BenchArgs} (hp : 0 < a.p)
    (ht : TilesOK 8 12 L2 ({ M := a.M, N := a.N, K := a.K, p := a.p, alpha := one, beta := zero, sch := .KMN } : Args α))
    {dom : α → Prop} {s : State α} (hs : a.Start F.zero dom s) :
    ∃ prog cx', benchCall (ieee r rs nf) nz mc one zero a (benchCntx (ieee r rs nf) mc) = .ok (prog, cx') ∧
      Ready mc cx' 8 12 L2 L3 nc ∧
      Computes F (some prog) s (fun s' => Correct F false s s' a.M a.N a.K) := by
  rw [benchCntx_arm _ harm]
  have hR := h.query (ieee r rs nf)
  rw [harm] at hR
  exact C42_kfirst F r rs nf nz (cntx := some _) hR ⟨rfl, rfl⟩ hp ht rfl hs.ok (by simp)

example {s : State Int} (hs : BenchArgs.Start 0 (fun x => |x| ≤ 9) ⟨960, 480, 1003, 4, 10⟩ s) :=
  C80_product_partial r rs nf (exact Int) (· != 0) armMachine_ok rfl 1 0 (by decide) (.auto (by decide) (by decide) (Or.inl rfl)) hs

/-- On x86 the hand-made context names a tile of one kernel and selects another: `8 x 12` tiles, computed by the
`6 x 16` kernel. -/
theorem C80_tile_refuted {D : Type _} (fl : Flt D) {mc : Machine} {L2 L3 nc : Nat} (h : MachineOK mc L2 L3 nc)
    (hx : mc.arch = archHaswell) :
    (benchCntx fl mc).view mc = .ok ⟨8, 12, ⟨8, 6, 2⟩, mc.kfix⟩ ∧ ¬ (⟨8, 6, 2⟩ : KDim).Fits 8 12 := by
  constructor
  · unfold CCtx.view
    have hm := h.m_lim
    have hn := h.n_lim
    rw [hx] at hm hn ⊢
    obtain ⟨t, et⟩ : ∃ t, cfor 6 (mc.m_lim + 1) 2 = 6 :: t := by
      rw [cfor_eq _ _ _ (by decide)]
      obtain ⟨k, hk⟩ : ∃ k, cdiv (mc.m_lim + 1 - 6) 2 = k + 1 := ⟨cdiv (mc.m_lim + 1 - 6) 2 - 1, by
        have : 6 ≤ mc.m_lim := hm
        unfold cdiv; omega⟩
      rw [hk, range_succ_eq_map]
      exact ⟨_, rfl⟩
    obtain ⟨t', et'⟩ : ∃ t, cfor 16 (mc.n_lim + 1) 16 = 16 :: t := by
      rw [cfor_eq _ _ _ (by decide)]
      obtain ⟨k, hk⟩ : ∃ k, cdiv (mc.n_lim + 1 - 16) 16 = k + 1 := ⟨cdiv (mc.n_lim + 1 - 16) 16 - 1, by
        have : 16 ≤ mc.n_lim := hn
        unfold cdiv; omega⟩
      rw [hk, range_succ_eq_map]
      exact ⟨_, rfl⟩
    have e : archHaswell.kernel_map mc.m_lim mc.n_lim = (6 :: t).map fun i => (16 :: t').map fun j => ⟨8, i, j / 8⟩ := by
      rw [← et, ← et']; rfl
    rw [e]
    rfl
  · rintro ⟨h1, h2⟩
    simp_all

example := C80_tile_refuted (ieee r rs nf) haswellMachine_ok rfl

/-- **C80 fails on x86 for another reason: the product that is timed is undefined**, for all matrices that are not empty,
from every state, in every arithmetic. (The kernel reads 16 columns of B where 12 are packed.) -/
theorem C80_product_refuted (F : Arith α) (nz : α → Bool) {mc : Machine} {L2 L3 nc : Nat} (h : MachineOK mc L2 L3 nc)
    (hx : mc.arch = archHaswell) (one zero : α) {a : BenchArgs} (hp : 0 < a.p) (hp' : a.p ≤ 2 ^ 15)
    (l2 : 8 * (8 * (8 + 2 * 12)) ≤ L2) (hM : 0 < a.M) (hN : 0 < a.N) (hK : 0 < a.K) :
    ∃ prog cx', benchCall (ieee r rs nf) nz mc one zero a (benchCntx (ieee r rs nf) mc) = .ok (prog, cx') ∧
      ∀ s : State α, Exec F prog s .ub ∧ ∀ s', ¬ Exec F prog s (.ok s') := by
  have hC : CacheOK (benchCntx (ieee r rs nf) mc) 8 12 L2 L3 nc :=
    ⟨rfl, rfl, h.l2_eq, h.l3_eq, h.nc_eq, by decide, by decide, by norm_num, h.l2_lt, h.l3_lt, h.nc_pos, h.nc_le⟩
  obtain ⟨t, e, c, d, cx', -, -, -, -, -, -, -, -, hd, ⟨⟨i, hi, hmi⟩, ⟨j, hj, hnj⟩, hk⟩, -, -, hs1, -⟩ :=
    dims_auto r rs nf hC l2 a.M a.N a.K a.p hp hp' .KMN 0 0 0 (by simp)
  obtain ⟨-, -, hcx⟩ := (get_cache_dims_noExit _ _ _ _ _ _ _ _ _ _ _).of_ok hd
  have hsch : d.sch = .KMN := hs1 (by simp)
  have hv : cx'.view mc = .ok ⟨8, 12, ⟨8, 6, 2⟩, mc.kfix⟩ := by
    have hcx' : cx' = _ := hcx.symm
    rw [hcx', ← (C80_tile_refuted (ieee r rs nf) h hx).1]
    rfl
  obtain ⟨prog, hprog⟩ := cake_sgemm_isSome nz ⟨8, 12, ⟨8, 6, 2⟩, mc.kfix⟩ ⟨.A, 0⟩ ⟨.B, 0⟩ ⟨.C, 0⟩ a.M a.N a.K a.p false false
    one zero d.m_c.toNat d.k_c.toNat d.n_c.toNat (.inl hsch)
  have hT : TileOK a.p 8 12 d.m_c.toNat d.k_c.toNat d.n_c.toNat := by
    rw [hmi, hnj, Int.toNat_natCast, Int.toNat_natCast]
    exact ⟨hp, by decide, by decide, by omega, by omega, by omega, ⟨i, Nat.mul_comm _ _⟩, ⟨j, Nat.mul_comm _ _⟩⟩
  refine ⟨prog, cx', ?_, fun s => ?_⟩
  · unfold benchCall sgemm_api
    simp only [bind, Except.bind, Option.getD_some, Nat.cast_zero]
    rw [hd]
    simp only
    rw [hv]
    simp only
    rw [if_neg (by rw [hmi, hnj]; omega), hprog]
    rfl
  · rw [hsch] at hprog
    have hno := sgemmK_wide_no_ok (F := F) hT rfl rfl (show 12 < 2 * 8 by decide) hM hN hK hprog s
    exact ⟨ub_of_no_ok F hno, hno⟩

example := C80_product_refuted r rs nf (exact Int) (· != 0) haswellMachine_ok rfl 1 0 (a := ⟨960, 480, 1003, 4, 10⟩)
  (by decide) (by decide) (by decide) (by decide) (by decide) (by decide)

end

/-- **C80 fails for the matrix-vector example too**: its message, which asks for three numbers, is printed with fewer than
two, and with exactly two the third is missing. -/
theorem C80_gemv_iff (argv : List Nat) : ((gemvArgs argv = .error .exit) ↔ argv.length < 3) ∧
    (argv.length = 3 → gemvArgs argv = .error .ub) ∧
    ∀ M K p, gemvArgs argv = .ok (M, K, p) ↔ argv[1]? = some M ∧ argv[2]? = some K ∧ argv[3]? = some p ∧
      M < 2147483648 ∧ K < 2147483648 ∧ p < 2147483648 := by
  by_cases h : argv.length < 3
  · have e : gemvArgs argv = .error .exit := by unfold gemvArgs; rw [if_pos h]; rfl
    refine ⟨by simp [e, h], by omega, fun M K p => ⟨fun he => (nomatch e.symm.trans he), fun ⟨_, _, h3, _⟩ => ?_⟩⟩
    obtain ⟨h1, -⟩ := List.getElem?_eq_some_iff.1 h3
    omega
  · have e : gemvArgs argv = (do
        let M ← argInt argv 1
        let K ← argInt argv 2
        let p ← argInt argv 3
        pure (M, K, p)) := by unfold gemvArgs; rw [if_neg h]
    have hi : ∀ M K p, (argv[1]? = some M ∧ argv[2]? = some K ∧ argv[3]? = some p ∧
      M < 2147483648 ∧ K < 2147483648 ∧ p < 2147483648) ↔
      (argInt argv 1 = .ok M ∧ argInt argv 2 = .ok K ∧ argInt argv 3 = .ok p) := by
      intro M K p
      constructor
      · rintro ⟨h1, h2, h3, h4, h5, h6⟩
        exact ⟨argInt_some h1 h4, argInt_some h2 h5, argInt_some h3 h6⟩
      · rintro ⟨h1, h2, h3⟩
        exact ⟨(argInt_ok h1).1, (argInt_ok h2).1, (argInt_ok h3).1, (argInt_ok h1).2, (argInt_ok h2).2, (argInt_ok h3).2⟩
    simp only [hi]
    rw [e]
    refine ⟨?_, fun h3 => ?_, fun M K p => ?_⟩
    · rcases argInt_cases argv 1 with e1 | ⟨M, e1⟩ <;> rcases argInt_cases argv 2 with e2 | ⟨K, e2⟩ <;>
        rcases argInt_cases argv 3 with e3 | ⟨p, e3⟩ <;> simp [e1, e2, e3, bind, Except.bind, pure, Except.pure, h]
    · rcases argInt_cases argv 1 with e1 | ⟨M, e1⟩ <;> rcases argInt_cases argv 2 with e2 | ⟨K, e2⟩ <;>
        simp [e1, e2, argInt_none (i := 3) (by omega : argv.length ≤ 3), bind, Except.bind]
    · rcases argInt_cases argv 1 with e1 | ⟨M, e1⟩ <;> rcases argInt_cases argv 2 with e2 | ⟨K, e2⟩ <;>
        rcases argInt_cases argv 3 with e3 | ⟨p, e3⟩ <;> simp [e1, e2, e3, bind, Except.bind, pure, Except.pure]

example : gemvArgs [0, 960, 960] = .error .ub := (C80_gemv_iff _).2.1 rfl
example : gemvArgs [0, 960, 640, 4] = .ok (960, 640, 4) := ((C80_gemv_iff _).2.2 _ _ _).2 (by decide)

end Cake
