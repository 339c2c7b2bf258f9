/-
C62: an element of the result depends on nothing but its row of A and its column of B.
-/
import Verif.Props.OnlineApi
import Verif.Props.TwoDApi

namespace Cake
open List

section
variable {α : Type _}

/-- In all executions of `prog` that end, from whatever memories, on `M x K` and `K x N` operands, an element of C is the
same if its row of A and its column of B are. -/
def Local (F : Arith α) (prog : Prog) (M N K : Nat) : Prop :=
  ∀ (s1 s2 s1' s2' : State α) (i j : Nat), CallOK s1 M N K → CallOK s2 M N K →
    Exec F prog s1 (.ok s1') → Exec F prog s2 (.ok s2') → i < M → j < N →
    (∀ k, k < K → s1.mem ⟨.A, i * K + k⟩ = s2.mem ⟨.A, i * K + k⟩) →
    (∀ k, k < K → s1.mem ⟨.B, k * N + j⟩ = s2.mem ⟨.B, k * N + j⟩) →
    s1'.mem ⟨.C, i * N + j⟩ = s2'.mem ⟨.C, i * N + j⟩

theorem dotFrom_congr (F : Arith α) {a b a' b' : Nat → α} {order : List Nat} (ha : ∀ k ∈ order, a k = a' k)
    (hb : ∀ k ∈ order, b k = b' k) (c : α) : dotFrom F a b order c = dotFrom F a' b' order c := by
  unfold dotFrom
  induction order generalizing c with
  | nil => rfl
  | cons x xs ih =>
    rw [foldl_cons, foldl_cons, ha x mem_cons_self, hb x mem_cons_self]
    exact ih (fun k hk => ha k (mem_cons_of_mem _ hk)) (fun k hk => hb k (mem_cons_of_mem _ hk)) _

/-- The order of the terms does not depend on the memory. -/
def Ordered (F : Arith α) (prog : Prog) (M N K : Nat) : Prop :=
  ∃ order : Nat → Nat → List Nat, (∀ i j, (order i j).Perm (range K)) ∧
    ∀ s s' : State α, CallOK s M N K → Exec F prog s (.ok s') → ∀ i j, i < M → j < N →
      s'.mem ⟨.C, i * N + j⟩ = dotFrom F (entry s .A K i) (fun k => entry s .B N k j) (order i j) F.zero

theorem Ordered.local {F : Arith α} {prog : Prog} {M N K : Nat} (h : Ordered F prog M N K) : Local F prog M N K := by
  obtain ⟨order, hp, h⟩ := h
  intro s1 s2 s1' s2' i j h1 h2 e1 e2 hi hj hA hB
  rw [h s1 s1' h1 e1 i j hi hj, h s2 s2' h2 e2 i j hi hj]
  have hk : ∀ k ∈ order i j, k < K := fun k hk => mem_range.1 ((hp i j).mem_iff.1 hk)
  exact dotFrom_congr F (fun k hk' => hA k (hk k hk')) (fun k hk' => hB k (hk k hk')) _

/-- From the call with an allocated context to the call with or without one. -/
theorem Ordered.ctx {F : Arith α} {prog : Prog} {M N K : Nat} (h : Ordered F prog M N K) (nullCtx : Bool) :
    Ordered F ((if nullCtx then [Item.malloc .Ctx 1] else []) ++ prog) M N K := by
  cases nullCtx with
  | false => exact h
  | true =>
    obtain ⟨order, hp, h⟩ := h
    refine ⟨order, hp, fun s s' hs he i j hi hj => ?_⟩
    cases he with
    | next _ _ _ s1 _ h1 h2 =>
      have w : WithCtx s s1 := by
        cases h1 with
        | malloc _ _ _ m' _ hm => exact ⟨fun l hl => ⟨hm l hl, by simp [hl]⟩, rfl⟩
      rw [h s1 s' (w.call hs) h2 i j hi hj]
      exact dotFrom_congr F (fun k _ => (w.same _ (by simp)).1) (fun k _ => (w.same _ (by simp)).1) _

variable (F : Arith α) (r : Rounding 53) (rs : Rounding 24) (nf : Option ℝ → Option ℝ → Bool) (nz : α → Bool)

theorem sgemm_ordered {mc : Machine} {cntx : Option (CCtx (Option ℝ))} {m_r n_r L2 L3 nc : Nat}
    (h : Ready mc (cntx.getD (query_cntx (ieee r rs nf) mc)) m_r n_r L2 L3 nc)
    {a : Args α} (hpk : a.packedA = false ∧ a.packedB = false) (hp : 0 < a.p) (ht : TilesOK m_r n_r L2 a)
    (hb : a.sch = .KMN ∨ (mc.kfix.Fits m_r n_r ∧ nz a.beta = false)) :
    ∃ prog cx', publicCall r rs nf nz mc cntx a = .ok (prog, cx') ∧ Ordered F prog a.M a.N a.K := by
  obtain ⟨prog, cx', kd, m_c, k_c, n_c, sch, e1, e2, hf, hT, hsch, hsch', -⟩ :=
    api_reduce r rs nf nz h ⟨.A, 0⟩ ⟨.B, 0⟩ ⟨.C, 0⟩ hp ht
  refine ⟨_, cx', e1, Ordered.ctx ?_ _⟩
  rw [hpk.1, hpk.2] at e2
  rcases hsch with rfl | rfl | rfl
  · exact ⟨_, orderKMN_perm hT.k_c_pos, fun s s' hs he i j hi hj =>
      (((sgemmK_call F nz ⟨m_r, n_r, kd, mc.kfix⟩ hT hf a.alpha a.beta hs).of_exec e2 he).fact i j hi hj).2⟩
  · obtain ⟨hk, hb⟩ := hb.resolve_left fun e => by
      have := hsch' (by rw [e]; simp)
      rw [e] at this; cases this
    refine ⟨fun _ j => orderMKN a.K a.p k_c n_c j, fun _ _ => orderMKN_perm hT.p_pos hT.k_c_pos, fun s s' hs he i j hi hj => ?_⟩
    have hB := sgemmM_needs F nz ⟨m_r, n_r, kd, mc.kfix⟩ hT a.alpha a.beta hs e2 he
    have := (((sgemmM_call F nz ⟨m_r, n_r, kd, mc.kfix⟩ hT hk a.alpha a.beta hs hB (by simp [hb])).of_exec e2 he).fact i j hi hj).2
    rw [hb] at this
    exact this
  · obtain ⟨hk, hb⟩ := hb.resolve_left fun e => by
      have := hsch' (by rw [e]; simp)
      rw [e] at this; cases this
    refine ⟨fun i _ => orderNKM a.K a.p m_c k_c i, fun _ _ => orderNKM_perm hT.p_pos hT.k_c_pos, fun s s' hs he i j hi hj => ?_⟩
    have hB := sgemmN_needs F nz ⟨m_r, n_r, kd, mc.kfix⟩ hT a.alpha a.beta hs e2 he
    have := (((sgemmN_call F nz ⟨m_r, n_r, kd, mc.kfix⟩ hT hk a.alpha a.beta hs hB (by simp [hb])).of_exec e2 he).fact i j hi hj).2
    rw [hb] at this
    exact this

/-- **C62, `cake_sgemm`.** Any schedule (with K-first asked for, also any `beta` and kernel), tile sizes automatic or
given: an element of C depends on its row of A and its column of B only, bit for bit: not on other rows and columns
(whatever they hold, NaN included), not on old contents of C, on memory the library allocates, or on the interleaving. -/
theorem C62_sgemm {mc : Machine} {cntx : Option (CCtx (Option ℝ))} {m_r n_r L2 L3 nc : Nat}
    (h : Ready mc (cntx.getD (query_cntx (ieee r rs nf) mc)) m_r n_r L2 L3 nc)
    {a : Args α} (hpk : a.packedA = false ∧ a.packedB = false) (hp : 0 < a.p) (ht : TilesOK m_r n_r L2 a)
    (hb : a.sch = .KMN ∨ (mc.kfix.Fits m_r n_r ∧ nz a.beta = false)) :
    ∃ prog cx', publicCall r rs nf nz mc cntx a = .ok (prog, cx') ∧ Local F prog a.M a.N a.K := by
  obtain ⟨prog, cx', e, h⟩ := sgemm_ordered F r rs nf nz h hpk hp ht hb
  exact ⟨prog, cx', e, h.local⟩

theorem online_ordered {mc : Machine} {cntx : Option (CCtx (Option ℝ))} {m_r n_r L2 L3 nc : Nat}
    (h : Ready mc (cntx.getD (query_cntx (ieee r rs nf) mc)) m_r n_r L2 L3 nc) {a : Args α} (hp : 0 < a.p)
    (ht : TilesOK m_r n_r L2 a) :
    ∃ prog cx', onlineCall r rs nf mc cntx a = .ok (prog, cx') ∧ Ordered F prog a.M a.N a.K := by
  obtain ⟨prog, cx', kd, m_c, k_c, n_c, e1, e2, hf, hT, hR⟩ := online_reduce r rs nf h hp ht
  refine ⟨_, cx', e1, Ordered.ctx ?_ _⟩
  exact ⟨_, orderKMN_perm hT.k_c_pos, fun s s' hs he i j hi hj =>
    (((sgemm_online_triple (S := False) (F := F) hT rfl rfl hf hs (fun h => h.elim) a.packedA a.packedB a.alpha a.beta
      e2).never he).fact i j hi hj).2⟩

theorem grid_ordered {mc : Machine} {cntx : Option (CCtx (Option ℝ))} {m_r n_r l1 L2 L3 nc r0 pn0 : Nat}
    (h : Ready mc (cntx.getD (query_cntx (ieee r rs nf) mc)) m_r n_r L2 L3 nc) (hk : mc.kfix.Fits m_r n_r)
    {a : Args α} (ht : Tiles2OK m_r n_r l1 L2 a) (hr : max 1 r0 ≤ a.p) (hp : a.p ≤ nc)
    (hw : clampPn pn0 a.p ∣ a.p ∨ ∃ d, d ∣ a.p ∧ 1 < d ∧ d < clampPn pn0 a.p) (hM : 0 < a.M) (hN : 0 < a.N) :
    ∃ prog, sgemm_2d_api (ieee r rs nf) mc (gridTable nc r0) cntx ((4 * l1 : Nat) : ℤ) pn0 ⟨.A, 0⟩ ⟨.B, 0⟩ ⟨.C, 0⟩ a =
        .ok prog ∧ Ordered F prog a.M a.N a.K := by
  obtain ⟨m_c, k_c, e, h1, h2, h3⟩ := ht.val r rs nf h.cache
  obtain ⟨kd, ev, -⟩ := h.view
  obtain ⟨pn, eg, hdv, h0, -⟩ := C30_partial hr hp hw
  have hf : Fit2 a.M a.N a.p m_r n_r pn m_c k_c :=
    ⟨hM, hN, h.cache.mr_pos, h.cache.nr_pos, h0, Nat.le_of_dvd (by omega) hdv, h1, h3, h2⟩
  obtain ⟨x, hx, ec⟩ := call2_body (α := α) ⟨m_r, n_r, kd, mc.kfix⟩ (K := a.K) hf a.packedA a.packedB a.alpha a.beta
  have enc : (cntx.getD (query_cntx (ieee r rs nf) mc)).ncores.toNat = nc := by rw [h.cache.nc_eq]; rfl
  refine ⟨_, ?_, Ordered.ctx (prog := sgemm2dBody ⟨m_r, n_r, kd, mc.kfix⟩ ⟨.A, 0⟩ ⟨.B, 0⟩ ⟨.C, 0⟩ a.M a.N a.K a.p x)
    ⟨_, orderKMN_perm h3, fun s s' hs he i j hi hj =>
      ((sgemm2d_ends F ⟨m_r, n_r, kd, mc.kfix⟩ hf hk a.packedA a.packedB a.alpha a.beta hs ec he).fact i j hi hj).2⟩
    cntx.isNone⟩
  unfold sgemm_2d_api
  simp only [bind, Except.bind]
  rw [enc, eg]
  simp only
  rw [e]
  simp only
  rw [ev]
  simp only
  rw [if_neg (by omega), Int.toNat_natCast, Int.toNat_natCast]
  unfold call2 at ec
  rw [ec]
  rfl

theorem small_ordered {mc : Machine} {cntx : Option (CCtx (Option ℝ))} {m_r n_r l1 L2 L3 nc r0 pn0 : Nat}
    (h : Ready mc (cntx.getD (query_cntx (ieee r rs nf) mc)) m_r n_r L2 L3 nc) (hk : mc.kfix.Fits m_r n_r)
    {a : Args α} (hl : l1 ≤ 2 ^ 22) (hl1 : m_r * n_r + (m_r + n_r) ≤ l1) (hr : max 1 r0 ≤ a.p) (hp : a.p ≤ nc)
    (hw : clampPn pn0 a.p ∣ a.p ∨ ∃ d, d ∣ a.p ∧ 1 < d ∧ d < clampPn pn0 a.p) :
    ∃ prog, sgemm_2d_small_api (ieee r rs nf) mc (gridTable nc r0) cntx ((4 * l1 : Nat) : ℤ) pn0 ⟨.A, 0⟩ ⟨.B, 0⟩ ⟨.C, 0⟩ a
        = .ok prog ∧ Ordered F prog a.M a.N a.K := by
  have hmr := h.cache.mr_pos
  have ek := kcMax_val r rs nf (l := l1) (mr := m_r) (nr := n_r) (by omega) hl (by omega) (by omega)
  have hkm : 0 < (l1 - m_r * n_r) / (m_r + n_r) := Nat.div_pos (by omega) (by omega)
  obtain ⟨kd, ev, -⟩ := h.view
  obtain ⟨pn, eg, hdv, h0, -⟩ := C30_partial hr hp hw
  have hpn : pn ≤ a.p := Nat.le_of_dvd (by omega) hdv
  obtain ⟨prog, ec⟩ := small_is_some (cx := ⟨m_r, n_r, kd, mc.kfix⟩) (M := a.M) (N := a.N) (K := a.K) hmr a.packedA
    a.packedB a.alpha a.beta h0 hpn hkm
  have enc : (cntx.getD (query_cntx (ieee r rs nf) mc)).ncores.toNat = nc := by rw [h.cache.nc_eq]; rfl
  refine ⟨_, ?_, Ordered.ctx (prog := prog) ⟨fun _ _ => range a.K, fun _ _ => Perm.refl _, fun s s' hs he i j hi hj =>
    ((small_ends F ⟨m_r, n_r, kd, mc.kfix⟩ hmr h.cache.nr_pos hk a.packedA a.packedB a.alpha a.beta hs ec he).fact i j hi
      hj).2⟩ cntx.isNone⟩
  unfold sgemm_2d_small_api
  simp only [bind, Except.bind]
  rw [enc, eg]
  simp only
  rw [h.cache.mr_eq, h.cache.nr_eq, ek]
  simp only
  rw [ev]
  simp only
  rw [if_neg (by omega), Int.toNat_natCast, ec]
  rfl

/-- **C62, `cake_sgemm_online`.** -/
theorem C62_online {mc : Machine} {cntx : Option (CCtx (Option ℝ))} {m_r n_r L2 L3 nc : Nat}
    (h : Ready mc (cntx.getD (query_cntx (ieee r rs nf) mc)) m_r n_r L2 L3 nc) {a : Args α} (hp : 0 < a.p)
    (ht : TilesOK m_r n_r L2 a) :
    ∃ prog cx', onlineCall r rs nf mc cntx a = .ok (prog, cx') ∧ Local F prog a.M a.N a.K := by
  obtain ⟨prog, cx', e, h⟩ := online_ordered F r rs nf h hp ht
  exact ⟨prog, cx', e, h.local⟩

/-- **C62, `cake_sgemm_2d`**, where the grid is defined (C30). -/
theorem C62_2d {mc : Machine} {cntx : Option (CCtx (Option ℝ))} {m_r n_r l1 L2 L3 nc r0 pn0 : Nat}
    (h : Ready mc (cntx.getD (query_cntx (ieee r rs nf) mc)) m_r n_r L2 L3 nc) (hk : mc.kfix.Fits m_r n_r)
    {a : Args α} (ht : Tiles2OK m_r n_r l1 L2 a) (hr : max 1 r0 ≤ a.p) (hp : a.p ≤ nc)
    (hw : clampPn pn0 a.p ∣ a.p ∨ ∃ d, d ∣ a.p ∧ 1 < d ∧ d < clampPn pn0 a.p) (hM : 0 < a.M) (hN : 0 < a.N) :
    ∃ prog, sgemm_2d_api (ieee r rs nf) mc (gridTable nc r0) cntx ((4 * l1 : Nat) : ℤ) pn0 ⟨.A, 0⟩ ⟨.B, 0⟩ ⟨.C, 0⟩ a =
        .ok prog ∧ Local F prog a.M a.N a.K := by
  obtain ⟨prog, e, h⟩ := grid_ordered F r rs nf h hk ht hr hp hw hM hN
  exact ⟨prog, e, h.local⟩

/-- **C62, `cake_sgemm_2d_small`**, where the grid is defined (C30). -/
theorem C62_2d_small {mc : Machine} {cntx : Option (CCtx (Option ℝ))} {m_r n_r l1 L2 L3 nc r0 pn0 : Nat}
    (h : Ready mc (cntx.getD (query_cntx (ieee r rs nf) mc)) m_r n_r L2 L3 nc) (hk : mc.kfix.Fits m_r n_r)
    {a : Args α} (hl : l1 ≤ 2 ^ 22) (hl1 : m_r * n_r + (m_r + n_r) ≤ l1) (hr : max 1 r0 ≤ a.p) (hp : a.p ≤ nc)
    (hw : clampPn pn0 a.p ∣ a.p ∨ ∃ d, d ∣ a.p ∧ 1 < d ∧ d < clampPn pn0 a.p) :
    ∃ prog, sgemm_2d_small_api (ieee r rs nf) mc (gridTable nc r0) cntx ((4 * l1 : Nat) : ℤ) pn0 ⟨.A, 0⟩ ⟨.B, 0⟩ ⟨.C, 0⟩ a
        = .ok prog ∧ Local F prog a.M a.N a.K := by
  obtain ⟨prog, e, h⟩ := small_ordered F r rs nf h hk (a := a) hl hl1 hr hp hw
  exact ⟨prog, e, h.local⟩

/-! ### Cases that meet the hypotheses -/

example := C62_sgemm (exact Int) r rs nf (· != 0) (cntx := none) (haswellMachine_ok.query (ieee r rs nf))
  (a := { M := 1003, N := 48, K := 77, p := 4, alpha := 1, beta := 0 }) ⟨rfl, rfl⟩ (by decide)
  (.auto (by decide) (by decide) (Or.inl rfl)) (Or.inr ⟨haswellMachine_ok.kfix_fits, rfl⟩)

/-- K-first, `beta = 3`. -/
example := C62_sgemm (exact Int) r rs nf (· != 0) (cntx := some _) (armMachine_ok.query (ieee r rs nf))
  (a := { M := 1003, N := 47, K := 77, p := 4, alpha := 1, beta := 3, sch := .KMN }) ⟨rfl, rfl⟩ (by decide)
  (.auto (by decide) (by decide) (Or.inl rfl)) (Or.inl rfl)

/-- The other hypotheses can be met, with two different memories: the first row of A times 10. -/
example : ∃ prog, ∃ s1 s2 s1' s2' : State Int, CallOK s1 1003 47 77 ∧ CallOK s2 1003 47 77 ∧ s1.mem ≠ s2.mem ∧
    Exec (exact Int) prog s1 (.ok s1') ∧ Exec (exact Int) prog s2 (.ok s2') ∧
    ∀ i j, 0 < i → i < 1003 → j < 47 → s1'.mem ⟨.C, i * 47 + j⟩ = s2'.mem ⟨.C, i * 47 + j⟩ := by
  let s2 : State Int := { demo 1003 47 77 with
    mem := fun l => if l.buf = .A ∧ l.idx < 77 then 10 * (demo 1003 47 77).mem l else (demo 1003 47 77).mem l }
  have h2 : CallOK s2 1003 47 77 := by
    have h := demo_ok 1003 47 77
    exact ⟨h.a, h.b, h.c, h.fresh⟩
  obtain ⟨prog, cx', e, hl⟩ := C62_sgemm (exact Int) r rs nf (fun x : Int => x != 0) (cntx := none)
    (haswellMachine_ok.query (ieee r rs nf)) (a := { M := 1003, N := 47, K := 77, p := 4, alpha := 1, beta := 0, sch := .KMN })
    ⟨rfl, rfl⟩ (by decide) (.auto (by decide) (by decide) (Or.inl rfl)) (Or.inl rfl)
  have run : ∀ s : State Int, CallOK s 1003 47 77 → s.size .Ctx = none → ∃ s', Exec (exact Int) prog s (.ok s') := by
    intro s hs hn
    obtain ⟨_, _, e', -, _, e2, h, -⟩ := C42_kfirst (exact Int) r rs nf (fun x : Int => x != 0) (cntx := none)
      (haswellMachine_ok.query (ieee r rs nf)) (a := { M := 1003, N := 47, K := 77, p := 4, alpha := 1, beta := 0, sch := .KMN })
      ⟨rfl, rfl⟩ (by decide) (.auto (by decide) (by decide) (Or.inl rfl)) rfl hs (fun _ => hn)
    cases e2
    rw [e] at e'
    cases e'
    exact h
  obtain ⟨s1', e1⟩ := run _ (demo_ok 1003 47 77) rfl
  obtain ⟨s2', e2⟩ := run s2 h2 rfl
  refine ⟨prog, _, s2, s1', s2', demo_ok 1003 47 77, h2, fun hm => ?_, e1, e2, fun i j h0 hi hj =>
    hl _ s2 s1' s2' i j (demo_ok 1003 47 77) h2 e1 e2 hi hj (fun k hk => ?_) (fun k hk => ?_)⟩
  · have := congrFun hm ⟨.A, 0⟩
    revert this
    decide
  · have : ¬ (i * 77 + k < 77) := by omega
    simp [s2, this]
  · simp [s2]

example := C62_online (exact Int) r rs nf (cntx := none) (haswellMachine_ok.query (ieee r rs nf))
  (a := { M := 79, N := 169, K := 11, p := 4, alpha := 1, beta := 0, sch := .NKM }) (by decide)
  (.auto (by decide) (by decide) (Or.inl rfl))

example := C62_2d (exact Int) r rs nf (cntx := none) (l1 := 8192) (r0 := 0) (pn0 := 3)
  (haswellMachine_ok.query (ieee r rs nf)) haswellMachine_ok.kfix_fits
  (a := { M := 79, N := 169, K := 11, p := 4, alpha := 1, beta := 0 })
  (.auto ⟨by norm_num, by decide, by decide⟩ (Or.inl rfl)) (by decide) (by decide)
  (Or.inr ⟨2, by decide, by decide, by decide⟩) (by decide) (by decide)

example := C62_2d_small (exact Int) r rs nf (cntx := some _) (l1 := 8192) (r0 := 0) (pn0 := 2)
  (haswellMachine_ok.query (ieee r rs nf)) haswellMachine_ok.kfix_fits
  (a := { M := 40, N := 50, K := 11, p := 4, alpha := 1, beta := 0 })
  (by norm_num) (by decide) (by decide) (by decide) (Or.inl (by decide))

end
end Cake
