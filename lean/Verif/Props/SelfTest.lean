/-
Property C59: the library's own test.
-/
import Verif.Model.SelfTest
import Verif.Props.OnlineApi
import Verif.Props.Checker
import Verif.Props.Error

namespace Cake
open List

section
variable (r : Rounding 53) (rs : Rounding 24) (nf : Option ℝ → Option ℝ → Bool)

/-- The call of a test on a given machine, `l1` elements of L1, grid table from `r0` on. -/
noncomputable abbrev testCall {α : Type _} (nz : α → Bool) (mc : Machine) (nc r0 l1 : Nat) (pn0 : Nat → Nat → Nat → Nat)
    (one zero : α) : TestCase → CCtx (Option ℝ) → Except Fail (Prog × CCtx (Option ℝ)) :=
  TestCase.call (ieee r rs nf) nz mc (gridTable nc r0) ((4 * l1 : Nat) : ℤ) pn0 one zero

theorem TestCase.Start.ok {α : Type _} {z : α} {dom : α → Prop} {t : TestCase} {s : State α} (h : t.Start z dom s) :
    CallOK s t.M t.N t.K := by
  have e := h.sizes
  refine ⟨⟨⟨_, by rw [e], Nat.le_refl _⟩, fun i hi => (h.a i hi).1⟩, ⟨⟨_, by rw [e], Nat.le_refl _⟩, fun i hi => (h.b i hi).1⟩,
    ⟨_, by rw [e], Nat.le_refl _⟩, fun b h1 h2 h3 h4 => ?_⟩
  rw [e]
  cases b <;> simp_all

/-- Every test can start. -/
theorem TestCase.Start.zero {α : Type _} {z : α} {dom : α → Prop} (hd : dom z) (t : TestCase) : t.Start z dom
    ⟨fun b => match b with
      | .A => some (t.M * t.K)
      | .B => some (t.K * t.N)
      | .C => some (t.M * t.N)
      | .Ctx => some 1
      | _ => none, fun _ => z, fun _ => true⟩ :=
  ⟨rfl, fun _ _ => ⟨rfl, hd⟩, fun _ _ => ⟨rfl, hd⟩, fun _ _ => ⟨rfl, rfl⟩⟩

theorem testCases_head {nc : Nat} (h : 2 ≤ nc) : ∃ ts, testCases nc = ⟨.twoD, 2, 1, 1, 1⟩ :: ts := by
  unfold testCases
  rw [cfor_eq _ _ _ (by decide)]
  obtain ⟨k, hk⟩ : ∃ k, cdiv (nc + 1 - 2) 1 = k + 1 := ⟨nc - 2, by unfold cdiv; omega⟩
  rw [hk, range_succ_eq_map]
  exact ⟨_, rfl⟩

/-- What a 2-D call comes down to, if the grid is defined. -/
theorem twoD_reduce {α : Type _} {mc : Machine} {cx : CCtx (Option ℝ)} {m_r n_r l1 L2 L3 nc r0 pn0 : Nat}
    (h : Ready mc cx m_r n_r L2 L3 nc) {a : Args α} (ht : Tiles2OK m_r n_r l1 L2 a) (hr : max 1 r0 ≤ a.p) (hp : a.p ≤ nc)
    (hw : clampPn pn0 a.p ∣ a.p ∨ ∃ d, d ∣ a.p ∧ 1 < d ∧ d < clampPn pn0 a.p) (hM : 0 < a.M) (hN : 0 < a.N) :
    ∃ prog kd pn m_c k_c, sgemm_2d_api (ieee r rs nf) mc (gridTable nc r0) (some cx) ((4 * l1 : Nat) : ℤ) pn0
        ⟨.A, 0⟩ ⟨.B, 0⟩ ⟨.C, 0⟩ a = .ok prog ∧
      call2 ⟨m_r, n_r, kd, mc.kfix⟩ a.M a.N a.K a.p a.packedA a.packedB a.alpha a.beta pn m_c k_c = some prog ∧
      Fit2 a.M a.N a.p m_r n_r pn m_c k_c := by
  obtain ⟨m_c, k_c, e, h1, h2, h3⟩ := ht.val r rs nf h.cache
  obtain ⟨kd, ev, -⟩ := h.view
  obtain ⟨pn, eg, hdv, h0, -⟩ := C30_partial hr hp hw
  have hf : Fit2 a.M a.N a.p m_r n_r pn m_c k_c :=
    ⟨hM, hN, h.cache.mr_pos, h.cache.nr_pos, h0, Nat.le_of_dvd (by omega) hdv, h1, h3, h2⟩
  obtain ⟨x, hx, ec⟩ := call2_body (α := α) ⟨m_r, n_r, kd, mc.kfix⟩ (K := a.K) hf a.packedA a.packedB a.alpha a.beta
  have enc : cx.ncores.toNat = nc := by rw [h.cache.nc_eq]; rfl
  refine ⟨_, kd, pn, m_c, k_c, ?_, ec, hf⟩
  unfold sgemm_2d_api
  simp only [bind, Except.bind, Option.getD_some]
  rw [enc, eg]
  simp only
  rw [e]
  simp only
  rw [ev]
  simp only
  rw [if_neg (by omega), Int.toNat_natCast, Int.toNat_natCast]
  unfold call2 at ec
  rw [ec]
  rfl

/-- **C59 fails: the tests have undefined behaviour.** On every supported machine with at least two cores whose caches
hold a register tile, under every rounding, in every arithmetic, whatever the matrices contain and whatever the checker
says: the tests run into undefined behaviour, and no execution of them ends normally. (The very first call, a `1 x 1`
product, reads beyond its operands.) -/
theorem C59_refuted {α : Type _} (F G : Arith α) {dom : α → Prop} (hd : dom F.zero) (exceeds : α → α → Bool) (nz : α → Bool) {mc : Machine}
    {L2 L3 nc r0 l1 : Nat} (h : MachineOK mc L2 L3 nc) (h2 : 2 ≤ nc) (hr : r0 ≤ 2)
    (hc : CachesHold l1 L2 mc.arch.sm mc.arch.sn) (pn0 : Nat → Nat → Nat → Nat) (one zero : α) :
    TestRun F G dom exceeds (testCall r rs nf nz mc nc r0 l1 pn0 one zero) (testCases nc) (query_cntx (ieee r rs nf) mc) 0 .ub ∧
    ∀ out, TestRun F G dom exceeds (testCall r rs nf nz mc nc r0 l1 pn0 one zero) (testCases nc)
      (query_cntx (ieee r rs nf) mc) 0 out → ∀ cnt, out ≠ .done cnt := by
  obtain ⟨ts, ets⟩ := testCases_head h2
  rw [ets]
  have hR := h.query (ieee r rs nf)
  have hw : clampPn (pn0 2 1 1) 2 ∣ 2 := by
    have : clampPn (pn0 2 1 1) 2 = 1 ∨ clampPn (pn0 2 1 1) 2 = 2 := by unfold clampPn; omega
    rcases this with e | e <;> simp [e]
  obtain ⟨prog, kd, pn, m_c, k_c, e1, e2, hf⟩ := twoD_reduce r rs nf (pn0 := pn0 2 1 1) (r0 := r0)
    (a := TestCase.args ⟨.twoD, 2, 1, 1, 1⟩ one zero) hR (.auto hc (Or.inl rfl))
    (by show max 1 r0 ≤ 2; omega) h2 (Or.inl hw) Nat.one_pos Nat.one_pos
  have ecall : testCall r rs nf nz mc nc r0 l1 pn0 one zero ⟨.twoD, 2, 1, 1, 1⟩ (query_cntx (ieee r rs nf) mc) =
      .ok (prog, query_cntx (ieee r rs nf) mc) := by
    unfold testCall TestCase.call
    simp only
    rw [e1]
    rfl
  have key : ∀ s s1, TestCase.Start F.zero dom ⟨.twoD, 2, 1, 1, 1⟩ s → ¬ Exec F prog s (.ok s1) := by
    intro s s1 hs he
    have hd1 : mc.arch.sm ∣ 1 := ((C11_2d_iff F ⟨mc.arch.sm, mc.arch.sn, kd, mc.kfix⟩ hf h.kfix_fits false false one zero
      hs.ok (by rw [hs.sizes]; rfl) (by rw [hs.sizes]; rfl) Nat.one_pos e2).1 ⟨s1, he⟩).1
    rcases h.arch with e | e <;> rw [e] at hd1 <;> revert hd1 <;> decide
  constructor
  · have hs := TestCase.Start.zero hd ⟨.twoD, 2, 1, 1, 1⟩
    exact .ub _ _ _ _ prog _ _ ecall hs (ub_of_no_ok F fun s1 => key _ s1 hs)
  · intro out hrun cnt
    cases hrun with
    | step _ _ _ _ prog' cx' s s1 s2 _ hcall hst he _ _ =>
      rw [ecall] at hcall
      cases hcall
      exact absurd he (key _ _ hst)
    | _ => simp

example := C59_refuted r rs nf (exact Int) (exact Int) (dom := fun x => |x| ≤ 1) (by simp [exact]) (fun x y => decide (1 < |x - y|)) (· != 0) haswellMachine_ok (nc := 4) (r0 := 0)
  (l1 := 8192) (by decide) (by decide) ⟨by norm_num, by decide, by decide⟩ (fun p N M => Nat.sqrt (p * N / M)) 1 0

/-- **C59 fails: no failure is reported to the caller.** Whatever the number of failed tests, the value returned is the one
returned when all tests pass. -/
theorem C59_return_refuted (cnt : Nat) : (testReport cnt).2 = (testReport 0).2 := rfl

/-- **C59 fails: success without a test.** On a machine with a single core no product is tested, and the tests report that
all passed. -/
theorem C59_single_core_refuted {α C : Type _} (F G : Arith α) (dom : α → Prop) (exceeds : α → α → Bool)
    (call : TestCase → C → Except Fail (Prog × C)) (cx : C) {nc : Nat} (h : nc ≤ 1) :
    testCases nc = [] ∧ (∀ out, TestRun F G dom exceeds call (testCases nc) cx 0 out ↔ out = .done 0) ∧
      (testReport 0).1 = "ALL TESTS PASSED!" := by
  have e : testCases nc = [] := by
    unfold testCases
    rw [cfor_eq _ _ _ (by decide), show cdiv (nc + 1 - 2) 1 = 0 by unfold cdiv; omega]
    rfl
  refine ⟨e, fun out => ?_, rfl⟩
  rw [e]
  exact ⟨fun hr => by cases hr; rfl, fun hr => by rw [hr]; exact .done _ _⟩

example := C59_single_core_refuted (C := Unit) (exact Int) (exact Int) (fun _ => True) (fun _ _ => true) (fun _ _ => .error .ub) () (nc := 1) (by decide)

/-! ### What the tests do establish -/

/-- The tests whose calls stay within their operands: on the caller's `nc` cores, with a grid that is defined (C30) for the
2-D product, M and N multiples of the register tile for the two products that pack as they go, N for the M-first and N-first
products, and all of them for the K-first product. -/
def TestCase.Sound (m_r n_r nc r0 : Nat) (pn0 : Nat → Nat → Nat → Nat) (t : TestCase) : Prop :=
  max 1 r0 ≤ t.p ∧ t.p ≤ nc ∧ t.p ≤ 2 ^ 15 ∧ 0 < t.M ∧ 0 < t.N ∧ match t.prod with
    | .twoD => m_r ∣ t.M ∧ n_r ∣ t.N ∧
        (clampPn (pn0 t.p t.N t.M) t.p ∣ t.p ∨ ∃ d, d ∣ t.p ∧ 1 < d ∧ d < clampPn (pn0 t.p t.N t.M) t.p)
    | .online => m_r ∣ t.M ∧ n_r ∣ t.N
    | .kfirst => True
    | .mfirst => n_r ∣ t.N
    | .nfirst => n_r ∣ t.N

/-- Such a call is made and computes the product, in any arithmetic. -/
theorem TestCase.Sound.computes {α : Type _} (F : Arith α) (nz : α → Bool) {mc : Machine} {cx : CCtx (Option ℝ)}
    {m_r n_r L2 L3 nc r0 l1 : Nat} {pn0 : Nat → Nat → Nat → Nat} (h : Ready mc cx m_r n_r L2 L3 nc) (hk : mc.kfix.Fits m_r n_r)
    (hl : 8 * (m_r * (m_r + 2 * n_r)) ≤ L2) (hc : CachesHold l1 L2 m_r n_r) (one : α) {zero : α} (hz : nz zero = false)
    {dom : α → Prop} (hd : dom F.zero) {t : TestCase} (ht : t.Sound m_r n_r nc r0 pn0) :
    ∃ prog cx', testCall r rs nf nz mc nc r0 l1 pn0 one zero t cx = .ok (prog, cx') ∧ Ready mc cx' m_r n_r L2 L3 nc ∧
      ∀ s, t.Start F.zero dom s → Computes F (some prog) s (fun s' => Correct F false s s' t.M t.N t.K) := by
  obtain ⟨prod, p, M, K, N⟩ := t
  obtain ⟨hp1, hp2, hp3, hM, hN, hcase⟩ := ht
  simp only at hp1 hp2 hp3 hM hN
  have hp : 0 < p := by omega
  cases prod with
  | twoD =>
    obtain ⟨dm, dn, hw⟩ := hcase
    obtain ⟨prog, kd, pn, m_c, k_c, e1, e2, hf⟩ := twoD_reduce r rs nf (pn0 := pn0 p N M) (r0 := r0)
      (a := TestCase.args ⟨.twoD, p, M, K, N⟩ one zero) h (.auto hc (Or.inl rfl)) hp1 hp2 hw hM hN
    refine ⟨prog, cx, ?_, h, fun s hs => ?_⟩
    · unfold testCall TestCase.call
      simp only
      rw [e1]
      rfl
    · rw [← e2]
      exact (sgemm2d_call F ⟨m_r, n_r, kd, mc.kfix⟩ hf hk _ _ _ _ hs.ok
        (Slack.of_dvd hs.ok h.cache.mr_pos h.cache.nr_pos dm dn)).mono fun s' hs' =>
          Correct.of_env (orderKMN_perm hf.k_c_pos) rfl hs'
  | online =>
    obtain ⟨dm, dn⟩ := hcase
    obtain ⟨prog, cx', kd, m_c, k_c, n_c, e1, e2, hf, hT, hR⟩ := online_reduce r rs nf (cntx := some cx) h
      (a := TestCase.args ⟨.online, p, M, K, N⟩ one zero) hp (.auto hp3 hl (Or.inl rfl))
    refine ⟨prog, cx', e1, hR, fun s hs => ?_⟩
    rw [← e2]
    exact (sgemm_online_call F ⟨m_r, n_r, kd, mc.kfix⟩ hT hf _ _ _ _ hs.ok
      (Slack.of_dvd hs.ok h.cache.mr_pos h.cache.nr_pos dm dn)).mono fun s' hs' =>
        Correct.of_env (orderKMN_perm hT.k_c_pos) rfl hs'
  | kfirst =>
    have hall := fun s (hs : TestCase.Start F.zero dom ⟨.kfirst, p, M, K, N⟩ s) => C42_kfirst F r rs nf nz (cntx := some cx) h
      (a := TestCase.args ⟨.kfirst, p, M, K, N⟩ one zero) ⟨rfl, rfl⟩ hp (.auto hp3 hl (Or.inl rfl)) rfl hs.ok (by simp)
    obtain ⟨prog, cx', e1, hR, -⟩ := hall _ (TestCase.Start.zero hd _)
    refine ⟨prog, cx', e1, hR, fun s hs => ?_⟩
    obtain ⟨prog', cx'', e2, -, hcomp⟩ := hall s hs
    rw [e1] at e2
    cases e2
    exact hcomp
  | mfirst =>
    have hall := fun s (hs : TestCase.Start F.zero dom ⟨.mfirst, p, M, K, N⟩ s) => C42_default_partial F r rs nf nz (cntx := some cx) h hk
      (a := TestCase.args ⟨.mfirst, p, M, K, N⟩ one zero) ⟨rfl, rfl⟩ hp (.auto hp3 hl (Or.inl rfl)) hz hs.ok (Or.inl hcase)
      (by simp)
    obtain ⟨prog, cx', e1, hR, -⟩ := hall _ (TestCase.Start.zero hd _)
    refine ⟨prog, cx', e1, hR, fun s hs => ?_⟩
    obtain ⟨prog', cx'', e2, -, hcomp⟩ := hall s hs
    rw [e1] at e2
    cases e2
    exact hcomp
  | nfirst =>
    have hall := fun s (hs : TestCase.Start F.zero dom ⟨.nfirst, p, M, K, N⟩ s) => C42_default_partial F r rs nf nz (cntx := some cx) h hk
      (a := TestCase.args ⟨.nfirst, p, M, K, N⟩ one zero) ⟨rfl, rfl⟩ hp (.auto hp3 hl (Or.inl rfl)) hz hs.ok (Or.inl hcase)
      (by simp)
    obtain ⟨prog, cx', e1, hR, -⟩ := hall _ (TestCase.Start.zero hd _)
    refine ⟨prog, cx', e1, hR, fun s hs => ?_⟩
    obtain ⟨prog', cx'', e2, -, hcomp⟩ := hall s hs
    rw [e1] at e2
    cases e2
    exact hcomp

/-- What the caller's state looks like after a correct call. -/
theorem Correct.callOK {α : Type _} {F : Arith α} {s s' : State α} {M N K : Nat} (h : Correct F false s s' M N K)
    (hs : CallOK s M N K) : CallOK s' M N K ∧ Holds s' .C M N ∧
      (∀ r k, r < M → k < K → entry s' .A K r k = entry s .A K r k) ∧
      ∀ k c, k < K → c < N → entry s' .B N k c = entry s .B N k c := by
  have hsz : ∀ b, s'.size b = s.size b := fun b => by rw [h.size]; simp [sizesAfter]
  have keep : ∀ b i, b ≠ .C → s.size b ≠ none → s'.mem ⟨b, i⟩ = s.mem ⟨b, i⟩ ∧ s'.init ⟨b, i⟩ = s.init ⟨b, i⟩ :=
    fun b i hb hn => h.keep ⟨b, i⟩ hn fun hx => hb hx.1
  obtain ⟨⟨nA, hA, hA'⟩, iA⟩ := hs.a
  obtain ⟨⟨nB, hB, hB'⟩, iB⟩ := hs.b
  obtain ⟨nC, hC, hC'⟩ := hs.c
  refine ⟨⟨⟨⟨nA, by rw [hsz, hA], hA'⟩, fun i hi => ?_⟩, ⟨⟨nB, by rw [hsz, hB], hB'⟩, fun i hi => ?_⟩, ⟨nC, by rw [hsz, hC], hC'⟩,
    fun b h1 h2 h3 h4 => ?_⟩, ⟨⟨nC, by rw [hsz, hC], hC'⟩, fun i hi => ?_⟩, fun r k _ _ => ?_, fun k c _ _ => ?_⟩
  · rw [(keep _ _ (by simp) (by rw [hA]; simp)).2]; exact iA i hi
  · rw [(keep _ _ (by simp) (by rw [hB]; simp)).2]; exact iB i hi
  · rw [hsz]; exact hs.fresh b h1 h2 h3 h4
  · have hN : 0 < N := Nat.pos_of_ne_zero fun e => by rw [e] at hi; simp at hi
    have := (h.product (i / N) (i % N) (Nat.div_lt_of_lt_mul (by rwa [Nat.mul_comm])) (Nat.mod_lt _ hN)).1
    rwa [Nat.mul_comm, Nat.div_add_mod] at this
  · exact (keep .A _ (by simp) (by rw [hA]; simp)).1
  · exact (keep .B _ (by simp) (by rw [hB]; simp)).1

theorem rowLt {i j m n : Nat} (hi : i < m) (hj : j < n) : i * n + j < m * n :=
  calc i * n + j < i * n + n := by omega
    _ = (i + 1) * n := by rw [Nat.succ_mul]
    _ ≤ m * n := Nat.mul_le_mul_right _ hi

/-- What it takes for the comparison to accept: however the products of a row with a column are summed up, the result is
within the tolerance of the checker's own sum. -/
def Accepts {α : Type _} (F G : Arith α) (dom : α → Prop) (exceeds : α → α → Bool) (K : Nat) : Prop :=
  ∀ (a b : Nat → α), (∀ k, k < K → dom (a k) ∧ dom (b k)) → ∀ order, order.Perm (range K) →
    exceeds (dotFrom G a b (range K) G.zero) (dotFrom F a b order F.zero) = false

/-- **C59, what holds.** Any sequence of tests whose calls stay within their operands (`TestCase.Sound`) and whose K is such
that the tolerance covers the rounding of the products and the checker (`Accepts`), from any context fit for use: no
execution has undefined behaviour, and unless an allocation fails, it ends without adding to the number of failures.
Missing: the other tests, which are in the list of `run_tests` as well (`C59_refuted`); the value returned
(`C59_return_refuted`). -/
theorem C59_sound_partial {α : Type _} (F G : Arith α) {dom : α → Prop} (hd : dom F.zero) (exceeds : α → α → Bool)
    (nz : α → Bool) (one : α) {zero : α} (hz : nz zero = false)
    {mc : Machine} {m_r n_r L2 L3 nc r0 l1 : Nat} (hk : mc.kfix.Fits m_r n_r)
    (hl : 8 * (m_r * (m_r + 2 * n_r)) ≤ L2) (hc : CachesHold l1 L2 m_r n_r) (pn0 : Nat → Nat → Nat → Nat)
    (ts : List TestCase) (hts : ∀ t ∈ ts, t.Sound m_r n_r nc r0 pn0 ∧ Accepts F G dom exceeds t.K) :
    ∀ (cx : CCtx (Option ℝ)) (cnt : Nat), Ready mc cx m_r n_r L2 L3 nc →
      TestRun F G dom exceeds (testCall r rs nf nz mc nc r0 l1 pn0 one zero) ts cx cnt (.done cnt) ∧
      ∀ out, TestRun F G dom exceeds (testCall r rs nf nz mc nc r0 l1 pn0 one zero) ts cx cnt
        out → out = .exit ∨ out = .done cnt := by
  induction ts with
  | nil =>
    intro cx cnt _
    exact ⟨.done _ _, fun out ho => by cases ho; exact Or.inr rfl⟩
  | cons t ts ih =>
    intro cx cnt h
    obtain ⟨prog, cx', e, hR, hall⟩ := TestCase.Sound.computes r rs nf F nz h hk hl hc one hz hd
      (hts t mem_cons_self).1
    obtain ⟨hgo, hend⟩ := ih (fun t' ht' => hts t' (mem_cons_of_mem _ ht')) cx' cnt hR
    have check : ∀ s, t.Start F.zero dom s → ∀ s1, Exec F prog s (.ok s1) →
        Triple G (· = s1) (checkFill t.M t.N t.K) (fun s2 => checkVerdict exceeds t.M t.N s2 = false) := by
      intro s hs s1 h1
      have hcor := (hall s hs).of_exec rfl h1
      obtain ⟨c1, c2, c3, c4⟩ := hcor.callOK hs.ok
      intro s' out hs' ho
      rcases C32_checker_partial G exceeds t.M t.N t.K s1 c1 c2 s' out hs' ho with hx | ⟨s2, e2, hq⟩
      · exact Or.inl hx
      · refine Or.inr ⟨s2, e2, hq.2.2.1.2 fun i j hi hj => ?_⟩
        obtain ⟨-, order, hperm, ep⟩ := hcor.product i j hi hj
        rw [ep]
        have ea : dotFrom G (fun k => entry s1 .A t.K i k) (fun k => entry s1 .B t.N k j) (range t.K) G.zero =
            dotFrom G (fun k => entry s .A t.K i k) (fun k => entry s .B t.N k j) (range t.K) G.zero :=
          foldl_ext _ _ _ fun acc k hk => by beta_reduce; rw [c3 i k hi (mem_range.1 hk), c4 k j (mem_range.1 hk) hj]
        rw [ea]
        refine (hts t mem_cons_self).2 _ _ (fun k hk => ⟨?_, ?_⟩) order hperm
        · exact (hs.a _ (rowLt hi hk)).2
        · exact (hs.b _ (rowLt hk hj)).2
    constructor
    · have hs := TestCase.Start.zero hd t
      obtain ⟨_, e', ⟨s1, h1⟩, _⟩ := hall _ hs
      cases e'
      obtain ⟨s2, h2, hv⟩ := (check _ hs s1 h1).exists_ok rfl
      refine .step _ _ _ _ prog cx' _ s1 s2 _ e hs h1 h2 ?_
      rw [hv]
      exact hgo
    · intro out ho
      cases ho with
      | callUb _ _ _ _ hcall => cases e.symm.trans hcall
      | callExit _ _ _ _ hcall => exact Or.inl rfl
      | ub _ _ _ _ prog' cx'' s hcall hs hx =>
        cases e.symm.trans hcall
        obtain ⟨_, e', -, hsafe⟩ := hall s hs
        cases e'
        rcases hsafe _ hx with hy | ⟨_, hy, _⟩ <;> cases hy
      | exit => exact Or.inl rfl
      | checkUb _ _ _ _ prog' cx'' s s1 hcall hs h1 hx =>
        cases e.symm.trans hcall
        rcases check s hs s1 h1 s1 _ rfl hx with hy | ⟨_, hy, _⟩ <;> cases hy
      | checkExit => exact Or.inl rfl
      | step _ _ _ _ prog' cx'' s s1 s2 _ hcall hs h1 h2 hrest =>
        cases e.symm.trans hcall
        rcases check s hs s1 h1 s1 _ rfl h2 with hy | ⟨_, hy, hv⟩
        · cases hy
        · cases hy
          rw [hv] at hrest
          exact hend out hrest

theorem TestRun.mono {α C : Type _} {F G : Arith α} {dom : α → Prop} {exceeds : α → α → Bool}
    {call : TestCase → C → Except Fail (Prog × C)} {ts : List TestCase} {cx : C} {cnt : Nat} {out : TestEnd}
    (h : TestRun F G dom exceeds call ts cx cnt out) : ∀ n, out = .done n → cnt ≤ n := by
  induction h with
  | done => intro n hn; cases hn; exact Nat.le_refl _
  | step _ _ _ _ _ _ _ _ _ _ _ _ _ _ _ ih =>
    intro n hn
    have := ih n hn
    split at this <;> omega
  | _ => intro n hn; cases hn

/-- **C59 (detection).** Whatever the product called does: if every execution of its call leaves the operands and a
C one of whose entries is out of tolerance with the checker's own sum, then the tests, if they end, have counted a
failure. -/
theorem C59_detects {α C : Type _} {F G : Arith α} {dom : α → Prop} {exceeds : α → α → Bool}
    {call : TestCase → C → Except Fail (Prog × C)} {t : TestCase} {ts : List TestCase} {cx : C}
    (hbad : ∀ prog cx' s s1, call t cx = .ok (prog, cx') → t.Start F.zero dom s → Exec F prog s (.ok s1) →
      CallOK s1 t.M t.N t.K ∧ Holds s1 .C t.M t.N ∧ ∃ i j, i < t.M ∧ j < t.N ∧
        exceeds (dotFrom G (fun k => entry s1 .A t.K i k) (fun k => entry s1 .B t.N k j) (range t.K) G.zero)
          (entry s1 .C t.N i j) = true)
    {cnt n : Nat} (h : TestRun F G dom exceeds call (t :: ts) cx cnt (.done n)) : cnt < n := by
  cases h with
  | step _ _ _ _ prog cx' s s1 s2 _ hcall hs h1 h2 hrest =>
    obtain ⟨c1, c2, i, j, hi, hj, hx⟩ := hbad prog cx' s s1 hcall hs h1
    have hv : checkVerdict exceeds t.M t.N s2 = true := by
      rcases C32_checker_partial G exceeds t.M t.N t.K s1 c1 c2 s1 _ rfl h2 with hy | ⟨_, hy, hq⟩
      · cases hy
      · cases hy
        rw [← Bool.not_eq_false]
        intro hf
        rw [hq.2.2.1.1 hf i j hi hj] at hx
        cases hx
    rw [if_pos hv] at hrest
    exact hrest.mono n rfl

/-- A product that leaves C as it is, tested with matrices of ones. -/
example {F : Arith Int} (hF : F = exact Int) {n : Nat}
    (h : TestRun F F (· = 1) (fun x y => decide (x ≠ y)) (fun _ (_ : Unit) => .ok ([], ())) [⟨.kfirst, 2, 10, 3, 10⟩] () 0
      (.done n)) : 0 < n := by
  subst hF
  refine C59_detects (fun prog cx' s s1 hcall hs h1 => ?_) h
  cases hcall
  cases h1
  refine ⟨hs.ok, ⟨hs.ok.c, fun i hi => (hs.c i hi).1⟩, 1, 2, by decide, by decide, ?_⟩
  have a : ∀ k, k < 3 → entry s .A 3 1 k = 1 := fun k hk => (hs.a _ (rowLt (by decide : 1 < 10) hk)).2
  have b : ∀ k, k < 3 → entry s .B 10 k 2 = 1 := fun k hk => (hs.b _ (rowLt hk (by decide : 2 < 10))).2
  have c : entry s .C 10 1 2 = 0 := (hs.c 12 (by decide)).2
  show decide (dotFrom (exact Int) (fun k => entry s .A 3 1 k) (fun k => entry s .B 10 k 2) [0, 1, 2] 0 ≠ entry s .C 10 1 2) = true
  rw [c]
  simp [dotFrom, a, b, exact]

/-- In exact arithmetic every tolerance accepts. -/
theorem C59_exact {eps : ℚ} (he : 0 ≤ eps) (dom : ℚ → Prop) (K : Nat) :
    Accepts (exact ℚ) (exact ℚ) dom (fun x y => decide (eps < |x - y|)) K := by
  intro a b _ order ho
  rw [dotFrom_exact _ _ ho, dotFrom_exact _ _ (Perm.refl _), decide_eq_false_iff_not, sub_self, abs_zero]
  exact not_lt.2 he

/-- The sum of `n` products of values in `[-1, 1]`, in any order. -/
theorem dot_error_unit {F : Arith ℝ} {u v η Ω : ℝ} (hF : Approx F u v η Ω) (a b : Nat → ℝ) (l : List Nat)
    (hab : ∀ k ∈ l, |a k| ≤ 1 ∧ |b k| ≤ 1)
    (hΩ : (1 + u) ^ l.length * (u * (l.length * (l.length + 1) / 2) + l.length * (v + η)) + l.length + (1 + v) + η ≤ Ω) :
    |dotFrom F a b l 0 - (l.map fun k => a k * b k).sum| ≤
      (1 + u) ^ l.length * (u * (l.length * (l.length + 1) / 2) + l.length * (v + η)) ∧
    |(l.map fun k => a k * b k).sum| ≤ l.length := by
  induction l using List.reverseRecOn with
  | nil => simp [dotFrom]
  | append_singleton l k ih =>
    have e : dotFrom F a b (l ++ [k]) 0 = F.fma (a k) (b k) (dotFrom F a b l 0) := by
      simp [dotFrom]
    rw [e]
    simp only [map_append, map_cons, map_nil, sum_append, sum_cons, sum_nil, add_zero, length_append, length_cons,
      length_nil, zero_add, pow_succ] at hΩ ⊢
    push_cast at hΩ ⊢
    have hu := hF.u_nonneg
    have hv := hF.v_nonneg
    have hη := hF.η_nonneg
    have hn : (0 : ℝ) ≤ l.length := by positivity
    have hx : |a k * b k| ≤ 1 := by
      obtain ⟨h1, h2⟩ := hab k (by simp)
      rw [abs_mul]
      exact mul_le_one₀ h1 (abs_nonneg _) h2
    have ih := ih (fun k' hk' => hab k' (by simp [hk']))
    have h1 := hF.fma (a k) (b k) (dotFrom F a b l 0)
    generalize F.fma (a k) (b k) (dotFrom F a b l 0) = f at h1 ⊢
    generalize dotFrom F a b l 0 = d at ih h1 ⊢
    generalize (l.map fun k => a k * b k).sum = S at ih ⊢
    have hq : 1 ≤ (1 + u) ^ l.length := one_le_pow₀ (by linarith)
    generalize (1 + u) ^ l.length = q at ih hq hΩ ⊢
    generalize (l.length : ℝ) = n at ih hn hΩ ⊢
    generalize a k * b k = x at h1 hx ⊢
    obtain ⟨w, hw⟩ : ∃ w, w = q * (u * (n * (n + 1) / 2) + n * (v + η)) := ⟨_, rfl⟩
    obtain ⟨z, hz⟩ : ∃ z, z = q * (u * (n + 1) + (v + η)) := ⟨_, rfl⟩
    have hw0 : 0 ≤ w := by rw [hw]; positivity
    have hz0 : u * (n + 1) + (v + η) ≤ z := by
      rw [hz]
      have : 0 ≤ u * (n + 1) + (v + η) := by positivity
      nlinarith
    have hwz : q * (1 + u) * (u * ((n + 1) * (n + 1 + 1) / 2) + (n + 1) * (v + η)) = (1 + u) * (w + z) := by
      rw [hw, hz]; ring
    rw [hwz] at hΩ ⊢
    have hz1 : 0 ≤ z := le_trans (by positivity) hz0
    have huw : 0 ≤ u * (w + z) := by positivity
    obtain ⟨i1, i2⟩ := ih (by rw [← hw]; nlinarith)
    rw [← hw] at i1
    have hd : |d| ≤ w + n := by
      have := abs_add_le (d - S) S
      rw [sub_add_cancel] at this
      linarith
    have hvx : v * |x| ≤ v := by nlinarith
    have h1 := h1 (by nlinarith)
    have h2 : |f - (S + x)| ≤ |f - (x + d)| + |d - S| := by
      have : f - (S + x) = (f - (x + d)) + (d - S) := by ring
      rw [this]
      exact abs_add_le _ _
    have h3 : |x + d| ≤ 1 + (w + n) := (abs_add_le _ _).trans (by linarith)
    have h4 : u * |x + d| ≤ u * (1 + (w + n)) := mul_le_mul_of_nonneg_left h3 hu
    refine ⟨?_, (abs_add_le _ _).trans (by linarith)⟩
    have h6 : 0 ≤ u * z := by positivity
    nlinarith

/-- The rounding error bound of `dot_error_unit` on both sides is within the tolerance. -/
theorem C59_rounded {F G : Arith ℝ} {u v η Ω eps : ℝ} (hF : Approx F u v η Ω) (hG : Approx G u v η Ω) {K : Nat}
    (hΩ : (1 + u) ^ K * (u * (K * (K + 1) / 2) + K * (v + η)) + K + (1 + v) + η ≤ Ω)
    (he : 2 * ((1 + u) ^ K * (u * (K * (K + 1) / 2) + K * (v + η))) ≤ eps)
    {exceeds : ℝ → ℝ → Bool} (hex : ∀ x y, exceeds x y = true → eps < |x - y|) :
    Accepts F G (fun x => |x| ≤ 1) exceeds K := by
  intro a b hab order ho
  rw [hF.zero, hG.zero, ← Bool.not_eq_true]
  intro hx
  have h1 := hex _ _ hx
  have hG' := (dot_error_unit hG a b (range K) (fun k hk => hab k (mem_range.1 hk)) (by simpa using hΩ)).1
  have hF' := (dot_error_unit hF a b order (fun k hk => hab k (mem_range.1 (ho.subset hk))) (by
    rw [ho.length_eq]; simpa using hΩ)).1
  rw [ho.length_eq, (ho.map fun k => a k * b k).sum_eq, abs_sub_comm] at hF'
  simp only [length_range] at hF' hG'
  have := abs_sub_le (dotFrom G a b (range K) 0) ((range K).map fun k => a k * b k).sum (dotFrom F a b order 0)
  linarith

theorem Approx.weaken {F : Arith ℝ} {u v v' η Ω : ℝ} (hF : Approx F u v η Ω) (h : v ≤ v') : Approx F u v' η Ω where
  u_nonneg := hF.u_nonneg
  v_nonneg := hF.v_nonneg.trans h
  η_nonneg := hF.η_nonneg
  zero := hF.zero
  fma a b c hx := by
    have : v * |a * b| ≤ v' * |a * b| := mul_le_mul_of_nonneg_right h (abs_nonneg _)
    have := hF.fma a b c (by linarith)
    linarith

open Classical in
/-- `fabs(C_check[ind1] - C[ind1]) > eps` with `float eps = 1e-3`, in single precision. `src/util.cpp:144-150`. -/
noncomputable def exceedsSingle (rc : Rounding 24) (x y : ℝ) : Bool := decide (rc.rnd (1 / 1000) < |rc.rnd (x - y)|)

/-- **C59 (single precision).** With the tolerance of the code and matrices in `[-1, 1]`, the products rounded in any direction
with fused multiply-adds, the checker rounded in any direction, fused or not: every test with `K ≤ 111` is accepted. -/
theorem C59_single {F G : Arith ℝ} (hF : ∃ r, F = fusedArith r) (hG : ∃ r, G = fusedArith r ∨ G = unfusedArith r)
    (rc : Rounding 24) {K : Nat} (hK : K ≤ 111) : Accepts F G (fun x => |x| ≤ 1) (exceedsSingle rc) K := by
  obtain ⟨r1, rfl⟩ := hF
  have hF := (C38_fused r1).weaken (v' := 2⁻¹ ^ 23) (by positivity)
  have hG : Approx G (2⁻¹ ^ 24) (2⁻¹ ^ 23) (2⁻¹ ^ 96) (2 ^ (100 : ℤ)) := by
    obtain ⟨r2, rfl | rfl⟩ := hG
    · exact (C38_fused r2).weaken (by positivity)
    · exact C38_unfused r2
  have hK' : (K : ℝ) ≤ 111 := by exact_mod_cast hK
  have hK0 : (0 : ℝ) ≤ K := by positivity
  have hq : (1 + (2⁻¹ : ℝ) ^ 24) ^ K ≤ (1 + 2⁻¹ ^ 24) ^ 111 := pow_le_pow_right₀ (by norm_num) hK
  have hq2 : (1 + (2⁻¹ : ℝ) ^ 24) ^ 111 ≤ 11 / 10 := by norm_num
  have hb : (1 + (2⁻¹ : ℝ) ^ 24) ^ K * (2⁻¹ ^ 24 * (K * (K + 1) / 2) + K * (2⁻¹ ^ 23 + 2⁻¹ ^ 96)) ≤
      11 / 10 * (2⁻¹ ^ 24 * (111 * (111 + 1) / 2) + 111 * (2⁻¹ ^ 23 + 2⁻¹ ^ 96)) := by
    refine mul_le_mul (hq.trans hq2) ?_ (by positivity) (by norm_num)
    refine add_le_add (mul_le_mul_of_nonneg_left ?_ (by positivity)) (mul_le_mul_of_nonneg_right hK' (by positivity))
    nlinarith
  have hb2 : 11 / 10 * ((2⁻¹ : ℝ) ^ 24 * (111 * (111 + 1) / 2) + 111 * (2⁻¹ ^ 23 + 2⁻¹ ^ 96)) ≤ 9 / 20000 := by norm_num
  refine C59_rounded hF hG (eps := 9 / 10000) ?_ (by linarith) fun x y hxy => ?_
  · have : (111 : ℝ) + (1 + 2⁻¹ ^ 23) + 2⁻¹ ^ 96 + 1 ≤ 2 ^ (100 : ℤ) := by norm_num
    linarith
  · unfold exceedsSingle at hxy
    rw [decide_eq_true_eq] at hxy
    by_contra hle
    rw [not_lt] at hle
    have e1 := rc.error (x - y) (hle.trans (by norm_num))
    have e2 := rc.err (1 / 1000) (by rw [abs_of_pos (by norm_num)]; norm_num) (by rw [abs_of_pos (by norm_num)]; norm_num)
    rw [abs_le] at e2
    rw [abs_of_pos (by norm_num : (0 : ℝ) < 1 / 1000)] at e2
    have e3 := abs_sub_abs_le_abs_sub (rc.rnd (x - y)) (x - y)
    have e4 : (2⁻¹ : ℝ) ^ 24 * |x - y| ≤ 2⁻¹ ^ 24 * (9 / 10000) := mul_le_mul_of_nonneg_left hle (by positivity)
    have e5 : (2⁻¹ : ℝ) ^ 24 * (9 / 10000) + 2⁻¹ ^ 98 + 9 / 10000 < 1 / 1000 - 1 / 1000 / 2 ^ 24 := by norm_num
    linarith [e2.1]

/-- Tests of `run_tests` on a 4-core Haswell machine, ragged sizes where that is sound. -/
def someTests : List TestCase :=
  [⟨.twoD, 2, 96, 111, 960⟩, ⟨.mfirst, 3, 10, 96, 96⟩, ⟨.online, 3, 960, 10, 96⟩, ⟨.kfirst, 4, 111, 10, 2111⟩, ⟨.nfirst, 4, 111, 1, 96⟩]

theorem someTests_sound : ∀ t ∈ someTests, t.Sound 6 16 4 0 (fun _ _ _ => 2) ∧ t.K ≤ 111 := by
  intro t ht
  simp only [someTests, mem_cons, not_mem_nil, or_false] at ht
  rcases ht with rfl | rfl | rfl | rfl | rfl
  · exact ⟨⟨by decide, by decide, by decide, by decide, by decide, by decide, by decide, Or.inl (by decide)⟩, by decide⟩
  · exact ⟨⟨by decide, by decide, by decide, by decide, by decide, (by decide : 16 ∣ 96)⟩, by decide⟩
  · exact ⟨⟨by decide, by decide, by decide, by decide, by decide, (by decide : 6 ∣ 960), (by decide : 16 ∣ 96)⟩, by decide⟩
  · exact ⟨⟨by decide, by decide, by decide, by decide, by decide, trivial⟩, by decide⟩
  · exact ⟨⟨by decide, by decide, by decide, by decide, by decide, (by decide : 16 ∣ 96)⟩, by decide⟩

/-- They are tests of `run_tests`. -/
example : someTests.all fun t => (testCases 4).any fun t' =>
    decide (t.prod = t'.prod ∧ t.p = t'.p ∧ t.M = t'.M ∧ t.K = t'.K ∧ t.N = t'.N) := by decide +kernel

example := C59_sound_partial r rs nf (exact ℚ) (exact ℚ) (dom := fun x => |x| ≤ 1) (by simp [exact])
  (fun x y => decide (1 / 1000 < |x - y|)) (· != 0) 1 (zero := 0) (by simp) haswellMachine_ok.kfix_fits (by decide) (l1 := 8192)
  (L2 := 262144) ⟨by norm_num, by decide, by decide⟩ (fun _ _ _ => 2) someTests
  (fun t ht => ⟨(someTests_sound t ht).1, C59_exact (by norm_num) _ _⟩)
  _ 0 (haswellMachine_ok.query (ieee r rs nf))

open Classical in
example (r1 r2 rc : Rounding 24) := C59_sound_partial r rs nf (fusedArith r1) (unfusedArith r2) (dom := fun x => |x| ≤ 1)
  (by simp [fusedArith]) (exceedsSingle rc) (fun x => decide (x ≠ 0)) 1 (zero := 0) (by simp) haswellMachine_ok.kfix_fits
  (by decide) (l1 := 8192) (L2 := 262144) ⟨by norm_num, by decide, by decide⟩ (fun _ _ _ => 2) someTests
  (fun t ht => ⟨(someTests_sound t ht).1, C59_single ⟨r1, rfl⟩ ⟨r2, Or.inr rfl⟩ rc (someTests_sound t ht).2⟩)
  _ 0 (haswellMachine_ok.query (ieee r rs nf))

end
end Cake
