/-
C69: relations between the operands of two calls carry over to the results. C71: a row of A that selects a row of B
copies it. C72: a NaN in an operand reaches every element of C that depends on it.
-/
import Verif.Props.Local
import Verif.Props.Error
import Verif.Proofs.Nearest

namespace Cake
open List

section
variable {α : Type _}

/-- For two executions of `prog`: if the entries of row `i` of the two matrices A are related by `RA`, those of column `j`
of the two matrices B by `RB`, and the arithmetic keeps the relations, then the two results `C[i][j]` are related
by `RC`. -/
def Lifts (F : Arith α) (prog : Prog) (M N K : Nat) : Prop :=
  ∀ RA RB RC : α → α → Prop, RC F.zero F.zero →
    (∀ a a' b b' c c', RA a a' → RB b b' → RC c c' → RC (F.fma a b c) (F.fma a' b' c')) →
    ∀ (s1 s2 s1' s2' : State α) (i j : Nat), CallOK s1 M N K → CallOK s2 M N K →
      Exec F prog s1 (.ok s1') → Exec F prog s2 (.ok s2') → i < M → j < N →
      (∀ k, k < K → RA (s1.mem ⟨.A, i * K + k⟩) (s2.mem ⟨.A, i * K + k⟩)) →
      (∀ k, k < K → RB (s1.mem ⟨.B, k * N + j⟩) (s2.mem ⟨.B, k * N + j⟩)) →
      RC (s1'.mem ⟨.C, i * N + j⟩) (s2'.mem ⟨.C, i * N + j⟩)

theorem dotFrom_rel (F : Arith α) {RA RB RC : α → α → Prop}
    (hf : ∀ a a' b b' c c', RA a a' → RB b b' → RC c c' → RC (F.fma a b c) (F.fma a' b' c'))
    {a b a' b' : Nat → α} {order : List Nat} (ha : ∀ k ∈ order, RA (a k) (a' k)) (hb : ∀ k ∈ order, RB (b k) (b' k))
    {c c' : α} (hc : RC c c') : RC (dotFrom F a b order c) (dotFrom F a' b' order c') := by
  unfold dotFrom
  induction order generalizing c c' with
  | nil => exact hc
  | cons x xs ih =>
    rw [foldl_cons, foldl_cons]
    exact ih (fun k hk => ha k (mem_cons_of_mem _ hk)) (fun k hk => hb k (mem_cons_of_mem _ hk))
      (hf _ _ _ _ _ _ (ha x mem_cons_self) (hb x mem_cons_self) hc)

theorem Ordered.lifts {F : Arith α} {prog : Prog} {M N K : Nat} (h : Ordered F prog M N K) : Lifts F prog M N K := by
  obtain ⟨order, hp, h⟩ := h
  intro RA RB RC h0 hf s1 s2 s1' s2' i j h1 h2 e1 e2 hi hj hA hB
  rw [h s1 s1' h1 e1 i j hi hj, h s2 s2' h2 e2 i j hi hj]
  have hk : ∀ k ∈ order i j, k < K := fun k hk => mem_range.1 ((hp i j).mem_iff.1 hk)
  exact dotFrom_rel F hf (fun k hk' => hA k (hk k hk')) (fun k hk' => hB k (hk k hk')) h0

/-- Whenever row `i` of A has `one` at `k0` and zeros elsewhere (`zero` times any entry of the column, added to anything, adds
nothing), `C[i][j]` is `B[k0][j]`; and likewise for a column of B. `rep` are the values that adding a zero product leaves
alone. -/
def Selects (F : Arith α) (prog : Prog) (M N K : Nat) : Prop :=
  ∀ (one : α) (rep : α → Prop) (s s' : State α) (i j k0 : Nat), CallOK s M N K → Exec F prog s (.ok s') →
    i < M → j < N → k0 < K → rep F.zero →
    (∀ x c, rep x → rep c → F.fma F.zero x c = c ∧ F.fma x F.zero c = c) →
    (∀ x, rep x → F.fma one x F.zero = x ∧ F.fma x one F.zero = x) →
    ((s.mem ⟨.A, i * K + k0⟩ = one ∧ (∀ k, k < K → k ≠ k0 → s.mem ⟨.A, i * K + k⟩ = F.zero) ∧
        (∀ k, k < K → rep (s.mem ⟨.B, k * N + j⟩)) → s'.mem ⟨.C, i * N + j⟩ = s.mem ⟨.B, k0 * N + j⟩) ∧
     (s.mem ⟨.B, k0 * N + j⟩ = one ∧ (∀ k, k < K → k ≠ k0 → s.mem ⟨.B, k * N + j⟩ = F.zero) ∧
        (∀ k, k < K → rep (s.mem ⟨.A, i * K + k⟩)) → s'.mem ⟨.C, i * N + j⟩ = s.mem ⟨.A, i * K + k0⟩))

theorem dotFrom_skip (F : Arith α) {a b : Nat → α} {order : List Nat} {c : α}
    (h : ∀ k ∈ order, F.fma (a k) (b k) c = c) : dotFrom F a b order c = c := by
  unfold dotFrom
  induction order with
  | nil => rfl
  | cons x xs ih =>
    rw [foldl_cons, h x mem_cons_self]
    exact ih fun k hk => h k (mem_cons_of_mem _ hk)

theorem dotFrom_append (F : Arith α) (a b : Nat → α) (l1 l2 : List Nat) (c : α) :
    dotFrom F a b (l1 ++ l2) c = dotFrom F a b l2 (dotFrom F a b l1 c) := by
  unfold dotFrom
  rw [foldl_append]

/-- One term that matters: it comes once. -/
theorem dotFrom_one (F : Arith α) {a b : Nat → α} {order : List Nat} {K k0 : Nat} {x : α} (hp : order.Perm (range K))
    (hk : k0 < K) (h0 : ∀ k, k < K → k ≠ k0 → F.fma (a k) (b k) F.zero = F.zero)
    (hx : ∀ k, k < K → k ≠ k0 → F.fma (a k) (b k) x = x) (h1 : F.fma (a k0) (b k0) F.zero = x) :
    dotFrom F a b order F.zero = x := by
  obtain ⟨l1, l2, rfl⟩ := append_of_mem (hp.mem_iff.2 (mem_range.2 hk))
  have hn : (l1 ++ k0 :: l2).Nodup := hp.nodup_iff.2 nodup_range
  have hlt : ∀ k ∈ l1 ++ k0 :: l2, k < K := fun k h => mem_range.1 (hp.mem_iff.1 h)
  rw [nodup_append] at hn
  rw [dotFrom_append, dotFrom_skip F (order := l1)]
  · show dotFrom F a b l2 (F.fma (a k0) (b k0) F.zero) = x
    rw [h1]
    refine dotFrom_skip F fun k h => hx k (hlt k (mem_append_right _ (mem_cons_of_mem _ h))) fun e => ?_
    subst e
    exact (nodup_cons.1 hn.2.1).1 h
  · exact fun k h => h0 k (hlt k (mem_append_left _ h)) (hn.2.2 k h k0 mem_cons_self)

theorem Ordered.selects {F : Arith α} {prog : Prog} {M N K : Nat} (h : Ordered F prog M N K) : Selects F prog M N K := by
  obtain ⟨order, hp, h⟩ := h
  intro one rep s s' i j k0 hs he hi hj hk h0 hz h1
  rw [h s s' hs he i j hi hj]
  refine ⟨fun ⟨e1, e0, hr⟩ => ?_, fun ⟨e1, e0, hr⟩ => ?_⟩
  · have hA : ∀ k, k < K → k ≠ k0 → entry s .A K i k = F.zero := e0
    refine dotFrom_one F (hp i j) hk (fun k hk hne => ?_) (fun k hk hne => ?_) ?_
    · rw [hA k hk hne]
      exact (hz _ _ (hr k hk) h0).1
    · rw [hA k hk hne]
      exact (hz _ _ (hr k hk) (hr k0 ‹_›)).1
    · rw [show entry s .A K i k0 = one from e1]
      exact (h1 _ (hr k0 hk)).1
  · have hB : ∀ k, k < K → k ≠ k0 → entry s .B N k j = F.zero := e0
    refine dotFrom_one F (hp i j) hk (fun k hk hne => ?_) (fun k hk hne => ?_) ?_
    · show F.fma _ (entry s .B N k j) _ = _
      rw [hB k hk hne]
      exact (hz _ _ (hr k hk) h0).2
    · show F.fma _ (entry s .B N k j) _ = _
      rw [hB k hk hne]
      exact (hz _ _ (hr k hk) (hr k0 ‹_›)).2
    · show F.fma _ (entry s .B N k0 j) _ = _
      rw [show entry s .B N k0 j = one from e1]
      exact (h1 _ (hr k0 hk)).2

/-- Values that make every result they enter such a value reach every element of C whose row of A or column of B has
one. -/
def Poisons (F : Arith α) (prog : Prog) (M N K : Nat) : Prop :=
  ∀ nan : α → Prop, (∀ a b c, nan a ∨ nan b ∨ nan c → nan (F.fma a b c)) →
    ∀ (s s' : State α) (i j : Nat), CallOK s M N K → Exec F prog s (.ok s') → i < M → j < N →
      (∃ k, k < K ∧ (nan (s.mem ⟨.A, i * K + k⟩) ∨ nan (s.mem ⟨.B, k * N + j⟩))) → nan (s'.mem ⟨.C, i * N + j⟩)

theorem dotFrom_nan (F : Arith α) {nan : α → Prop} (hn : ∀ a b c, nan a ∨ nan b ∨ nan c → nan (F.fma a b c))
    {a b : Nat → α} {order : List Nat} {c : α} (h : nan c ∨ ∃ k ∈ order, nan (a k) ∨ nan (b k)) :
    nan (dotFrom F a b order c) := by
  unfold dotFrom
  induction order generalizing c with
  | nil => exact h.resolve_right (by simp)
  | cons x xs ih =>
    rw [foldl_cons]
    refine ih ?_
    rcases h with h | ⟨k, hk, h⟩
    · exact Or.inl (hn _ _ _ (Or.inr (Or.inr h)))
    · rcases mem_cons.1 hk with rfl | hk
      · exact Or.inl (hn _ _ _ (by tauto))
      · exact Or.inr ⟨k, hk, h⟩

theorem Ordered.poisons {F : Arith α} {prog : Prog} {M N K : Nat} (h : Ordered F prog M N K) : Poisons F prog M N K := by
  obtain ⟨order, hp, h⟩ := h
  intro nan hn s s' i j hs he hi hj ⟨k, hk, e⟩
  rw [h s s' hs he i j hi hj]
  exact dotFrom_nan F hn (Or.inr ⟨k, (hp i j).mem_iff.2 (mem_range.2 hk), e⟩)

variable (F : Arith α) (r : Rounding 53) (rs : Rounding 24) (nf : Option ℝ → Option ℝ → Bool) (nz : α → Bool)

/-- **C69, `cake_sgemm`.** Any schedule (with K-first asked for, also any `beta` and kernel), tile sizes automatic or
given. -/
theorem C69_sgemm {mc : Machine} {cntx : Option (CCtx (Option ℝ))} {m_r n_r L2 L3 nc : Nat}
    (h : Ready mc (cntx.getD (query_cntx (ieee r rs nf) mc)) m_r n_r L2 L3 nc)
    {a : Args α} (hpk : a.packedA = false ∧ a.packedB = false) (hp : 0 < a.p) (ht : TilesOK m_r n_r L2 a)
    (hb : a.sch = .KMN ∨ (mc.kfix.Fits m_r n_r ∧ nz a.beta = false)) :
    ∃ prog cx', publicCall r rs nf nz mc cntx a = .ok (prog, cx') ∧ Lifts F prog a.M a.N a.K := by
  obtain ⟨prog, cx', e, h⟩ := sgemm_ordered F r rs nf nz h hpk hp ht hb
  exact ⟨prog, cx', e, h.lifts⟩

/-- **C69, `cake_sgemm_online`.** -/
theorem C69_online {mc : Machine} {cntx : Option (CCtx (Option ℝ))} {m_r n_r L2 L3 nc : Nat}
    (h : Ready mc (cntx.getD (query_cntx (ieee r rs nf) mc)) m_r n_r L2 L3 nc) {a : Args α} (hp : 0 < a.p)
    (ht : TilesOK m_r n_r L2 a) :
    ∃ prog cx', onlineCall r rs nf mc cntx a = .ok (prog, cx') ∧ Lifts F prog a.M a.N a.K := by
  obtain ⟨prog, cx', e, h⟩ := online_ordered F r rs nf h hp ht
  exact ⟨prog, cx', e, h.lifts⟩

/-- **C69, `cake_sgemm_2d`**, where the grid is defined (C30). -/
theorem C69_2d {mc : Machine} {cntx : Option (CCtx (Option ℝ))} {m_r n_r l1 L2 L3 nc r0 pn0 : Nat}
    (h : Ready mc (cntx.getD (query_cntx (ieee r rs nf) mc)) m_r n_r L2 L3 nc) (hk : mc.kfix.Fits m_r n_r)
    {a : Args α} (ht : Tiles2OK m_r n_r l1 L2 a) (hr : max 1 r0 ≤ a.p) (hp : a.p ≤ nc)
    (hw : clampPn pn0 a.p ∣ a.p ∨ ∃ d, d ∣ a.p ∧ 1 < d ∧ d < clampPn pn0 a.p) (hM : 0 < a.M) (hN : 0 < a.N) :
    ∃ prog, sgemm_2d_api (ieee r rs nf) mc (gridTable nc r0) cntx ((4 * l1 : Nat) : ℤ) pn0 ⟨.A, 0⟩ ⟨.B, 0⟩ ⟨.C, 0⟩ a =
        .ok prog ∧ Lifts F prog a.M a.N a.K := by
  obtain ⟨prog, e, h⟩ := grid_ordered F r rs nf h hk ht hr hp hw hM hN
  exact ⟨prog, e, h.lifts⟩

/-- **C69, `cake_sgemm_2d_small`**, where the grid is defined (C30). -/
theorem C69_2d_small {mc : Machine} {cntx : Option (CCtx (Option ℝ))} {m_r n_r l1 L2 L3 nc r0 pn0 : Nat}
    (h : Ready mc (cntx.getD (query_cntx (ieee r rs nf) mc)) m_r n_r L2 L3 nc) (hk : mc.kfix.Fits m_r n_r)
    {a : Args α} (hl : l1 ≤ 2 ^ 22) (hl1 : m_r * n_r + (m_r + n_r) ≤ l1) (hr : max 1 r0 ≤ a.p) (hp : a.p ≤ nc)
    (hw : clampPn pn0 a.p ∣ a.p ∨ ∃ d, d ∣ a.p ∧ 1 < d ∧ d < clampPn pn0 a.p) :
    ∃ prog, sgemm_2d_small_api (ieee r rs nf) mc (gridTable nc r0) cntx ((4 * l1 : Nat) : ℤ) pn0 ⟨.A, 0⟩ ⟨.B, 0⟩ ⟨.C, 0⟩ a
        = .ok prog ∧ Lifts F prog a.M a.N a.K := by
  obtain ⟨prog, e, h⟩ := small_ordered F r rs nf h hk (a := a) hl hl1 hr hp hw
  exact ⟨prog, e, h.lifts⟩

/-- **C71, `cake_sgemm`.** Any schedule (with K-first asked for, also any `beta` and kernel), tile sizes automatic or
given. -/
theorem C71_sgemm {mc : Machine} {cntx : Option (CCtx (Option ℝ))} {m_r n_r L2 L3 nc : Nat}
    (h : Ready mc (cntx.getD (query_cntx (ieee r rs nf) mc)) m_r n_r L2 L3 nc)
    {a : Args α} (hpk : a.packedA = false ∧ a.packedB = false) (hp : 0 < a.p) (ht : TilesOK m_r n_r L2 a)
    (hb : a.sch = .KMN ∨ (mc.kfix.Fits m_r n_r ∧ nz a.beta = false)) :
    ∃ prog cx', publicCall r rs nf nz mc cntx a = .ok (prog, cx') ∧ Selects F prog a.M a.N a.K := by
  obtain ⟨prog, cx', e, h⟩ := sgemm_ordered F r rs nf nz h hpk hp ht hb
  exact ⟨prog, cx', e, h.selects⟩

/-- **C71, `cake_sgemm_online`.** -/
theorem C71_online {mc : Machine} {cntx : Option (CCtx (Option ℝ))} {m_r n_r L2 L3 nc : Nat}
    (h : Ready mc (cntx.getD (query_cntx (ieee r rs nf) mc)) m_r n_r L2 L3 nc) {a : Args α} (hp : 0 < a.p)
    (ht : TilesOK m_r n_r L2 a) :
    ∃ prog cx', onlineCall r rs nf mc cntx a = .ok (prog, cx') ∧ Selects F prog a.M a.N a.K := by
  obtain ⟨prog, cx', e, h⟩ := online_ordered F r rs nf h hp ht
  exact ⟨prog, cx', e, h.selects⟩

/-- **C71, `cake_sgemm_2d`**, where the grid is defined (C30). -/
theorem C71_2d {mc : Machine} {cntx : Option (CCtx (Option ℝ))} {m_r n_r l1 L2 L3 nc r0 pn0 : Nat}
    (h : Ready mc (cntx.getD (query_cntx (ieee r rs nf) mc)) m_r n_r L2 L3 nc) (hk : mc.kfix.Fits m_r n_r)
    {a : Args α} (ht : Tiles2OK m_r n_r l1 L2 a) (hr : max 1 r0 ≤ a.p) (hp : a.p ≤ nc)
    (hw : clampPn pn0 a.p ∣ a.p ∨ ∃ d, d ∣ a.p ∧ 1 < d ∧ d < clampPn pn0 a.p) (hM : 0 < a.M) (hN : 0 < a.N) :
    ∃ prog, sgemm_2d_api (ieee r rs nf) mc (gridTable nc r0) cntx ((4 * l1 : Nat) : ℤ) pn0 ⟨.A, 0⟩ ⟨.B, 0⟩ ⟨.C, 0⟩ a =
        .ok prog ∧ Selects F prog a.M a.N a.K := by
  obtain ⟨prog, e, h⟩ := grid_ordered F r rs nf h hk ht hr hp hw hM hN
  exact ⟨prog, e, h.selects⟩

/-- **C71, `cake_sgemm_2d_small`**, where the grid is defined (C30). -/
theorem C71_2d_small {mc : Machine} {cntx : Option (CCtx (Option ℝ))} {m_r n_r l1 L2 L3 nc r0 pn0 : Nat}
    (h : Ready mc (cntx.getD (query_cntx (ieee r rs nf) mc)) m_r n_r L2 L3 nc) (hk : mc.kfix.Fits m_r n_r)
    {a : Args α} (hl : l1 ≤ 2 ^ 22) (hl1 : m_r * n_r + (m_r + n_r) ≤ l1) (hr : max 1 r0 ≤ a.p) (hp : a.p ≤ nc)
    (hw : clampPn pn0 a.p ∣ a.p ∨ ∃ d, d ∣ a.p ∧ 1 < d ∧ d < clampPn pn0 a.p) :
    ∃ prog, sgemm_2d_small_api (ieee r rs nf) mc (gridTable nc r0) cntx ((4 * l1 : Nat) : ℤ) pn0 ⟨.A, 0⟩ ⟨.B, 0⟩ ⟨.C, 0⟩ a
        = .ok prog ∧ Selects F prog a.M a.N a.K := by
  obtain ⟨prog, e, h⟩ := small_ordered F r rs nf h hk (a := a) hl hl1 hr hp hw
  exact ⟨prog, e, h.selects⟩

/-- **C72, `cake_sgemm`.** Any schedule (with K-first asked for, also any `beta` and kernel), tile sizes automatic or
given. -/
theorem C72_sgemm {mc : Machine} {cntx : Option (CCtx (Option ℝ))} {m_r n_r L2 L3 nc : Nat}
    (h : Ready mc (cntx.getD (query_cntx (ieee r rs nf) mc)) m_r n_r L2 L3 nc)
    {a : Args α} (hpk : a.packedA = false ∧ a.packedB = false) (hp : 0 < a.p) (ht : TilesOK m_r n_r L2 a)
    (hb : a.sch = .KMN ∨ (mc.kfix.Fits m_r n_r ∧ nz a.beta = false)) :
    ∃ prog cx', publicCall r rs nf nz mc cntx a = .ok (prog, cx') ∧ Poisons F prog a.M a.N a.K := by
  obtain ⟨prog, cx', e, h⟩ := sgemm_ordered F r rs nf nz h hpk hp ht hb
  exact ⟨prog, cx', e, h.poisons⟩

/-- **C72, `cake_sgemm_online`.** -/
theorem C72_online {mc : Machine} {cntx : Option (CCtx (Option ℝ))} {m_r n_r L2 L3 nc : Nat}
    (h : Ready mc (cntx.getD (query_cntx (ieee r rs nf) mc)) m_r n_r L2 L3 nc) {a : Args α} (hp : 0 < a.p)
    (ht : TilesOK m_r n_r L2 a) :
    ∃ prog cx', onlineCall r rs nf mc cntx a = .ok (prog, cx') ∧ Poisons F prog a.M a.N a.K := by
  obtain ⟨prog, cx', e, h⟩ := online_ordered F r rs nf h hp ht
  exact ⟨prog, cx', e, h.poisons⟩

/-- **C72, `cake_sgemm_2d`**, where the grid is defined (C30). -/
theorem C72_2d {mc : Machine} {cntx : Option (CCtx (Option ℝ))} {m_r n_r l1 L2 L3 nc r0 pn0 : Nat}
    (h : Ready mc (cntx.getD (query_cntx (ieee r rs nf) mc)) m_r n_r L2 L3 nc) (hk : mc.kfix.Fits m_r n_r)
    {a : Args α} (ht : Tiles2OK m_r n_r l1 L2 a) (hr : max 1 r0 ≤ a.p) (hp : a.p ≤ nc)
    (hw : clampPn pn0 a.p ∣ a.p ∨ ∃ d, d ∣ a.p ∧ 1 < d ∧ d < clampPn pn0 a.p) (hM : 0 < a.M) (hN : 0 < a.N) :
    ∃ prog, sgemm_2d_api (ieee r rs nf) mc (gridTable nc r0) cntx ((4 * l1 : Nat) : ℤ) pn0 ⟨.A, 0⟩ ⟨.B, 0⟩ ⟨.C, 0⟩ a =
        .ok prog ∧ Poisons F prog a.M a.N a.K := by
  obtain ⟨prog, e, h⟩ := grid_ordered F r rs nf h hk ht hr hp hw hM hN
  exact ⟨prog, e, h.poisons⟩

/-- **C72, `cake_sgemm_2d_small`**, where the grid is defined (C30). -/
theorem C72_2d_small {mc : Machine} {cntx : Option (CCtx (Option ℝ))} {m_r n_r l1 L2 L3 nc r0 pn0 : Nat}
    (h : Ready mc (cntx.getD (query_cntx (ieee r rs nf) mc)) m_r n_r L2 L3 nc) (hk : mc.kfix.Fits m_r n_r)
    {a : Args α} (hl : l1 ≤ 2 ^ 22) (hl1 : m_r * n_r + (m_r + n_r) ≤ l1) (hr : max 1 r0 ≤ a.p) (hp : a.p ≤ nc)
    (hw : clampPn pn0 a.p ∣ a.p ∨ ∃ d, d ∣ a.p ∧ 1 < d ∧ d < clampPn pn0 a.p) :
    ∃ prog, sgemm_2d_small_api (ieee r rs nf) mc (gridTable nc r0) cntx ((4 * l1 : Nat) : ℤ) pn0 ⟨.A, 0⟩ ⟨.B, 0⟩ ⟨.C, 0⟩ a
        = .ok prog ∧ Poisons F prog a.M a.N a.K := by
  obtain ⟨prog, e, h⟩ := small_ordered F r rs nf h hk (a := a) hl hl1 hr hp hw
  exact ⟨prog, e, h.poisons⟩

end

section
variable {prog : Prog} {M N K : Nat}

/-- **C69, order.** For non-negative matrices, larger entries of A and B give larger (or equal) entries of C, in rounded
arithmetic, fused or not. -/
theorem C69_monotone (r : Rounding 24) {F : Arith ℝ} (hF : F = fusedArith r ∨ F = unfusedArith r) (h : Lifts F prog M N K)
    {s1 s2 s1' s2' : State ℝ} {i j : Nat} (h1 : CallOK s1 M N K) (h2 : CallOK s2 M N K)
    (e1 : Exec F prog s1 (.ok s1')) (e2 : Exec F prog s2 (.ok s2')) (hi : i < M) (hj : j < N)
    (hA : ∀ k, k < K → 0 ≤ s1.mem ⟨.A, i * K + k⟩ ∧ s1.mem ⟨.A, i * K + k⟩ ≤ s2.mem ⟨.A, i * K + k⟩)
    (hB : ∀ k, k < K → 0 ≤ s1.mem ⟨.B, k * N + j⟩ ∧ s1.mem ⟨.B, k * N + j⟩ ≤ s2.mem ⟨.B, k * N + j⟩) :
    0 ≤ s1'.mem ⟨.C, i * N + j⟩ ∧ s1'.mem ⟨.C, i * N + j⟩ ≤ s2'.mem ⟨.C, i * N + j⟩ := by
  have z : r.rnd 0 = 0 := by simpa using r.int 0 (by norm_num)
  have nn : ∀ x, 0 ≤ x → 0 ≤ r.rnd x := fun x hx => z ▸ r.mono hx
  refine h (fun a a' => 0 ≤ a ∧ a ≤ a') (fun a a' => 0 ≤ a ∧ a ≤ a') (fun a a' => 0 ≤ a ∧ a ≤ a') ?_ ?_ s1 s2 s1' s2' i j
    h1 h2 e1 e2 hi hj hA hB
  · rcases hF with rfl | rfl <;> exact ⟨le_refl _, le_refl _⟩
  · intro a a' b b' c c' ⟨ha0, ha⟩ ⟨hb0, hb⟩ ⟨hc0, hc⟩
    have hm : a * b ≤ a' * b' := mul_le_mul ha hb hb0 (ha0.trans ha)
    have h0 : 0 ≤ a * b := mul_nonneg ha0 hb0
    rcases hF with rfl | rfl
    · exact ⟨nn _ (by positivity), r.mono (by linarith)⟩
    · have := nn _ h0
      exact ⟨nn _ (by positivity), r.mono (add_le_add (r.mono hm) hc)⟩

/-- **C69, factors.** If rounding commutes with the factors `u`, `v` (and `u * v`) - a sign for a symmetric rounding, powers
of two as long as nothing over- or underflows - then row `i` of A times `u` and column `j` of B times `v` give exactly
`u * v * C[i][j]`. -/
theorem C69_scale (r : Rounding 24) {F : Arith ℝ} (hF : F = fusedArith r ∨ F = unfusedArith r) (h : Lifts F prog M N K)
    {u v : ℝ} (hr : ∀ x, r.rnd (u * v * x) = u * v * r.rnd x)
    {s1 s2 s1' s2' : State ℝ} {i j : Nat} (h1 : CallOK s1 M N K) (h2 : CallOK s2 M N K)
    (e1 : Exec F prog s1 (.ok s1')) (e2 : Exec F prog s2 (.ok s2')) (hi : i < M) (hj : j < N)
    (hA : ∀ k, k < K → s2.mem ⟨.A, i * K + k⟩ = u * s1.mem ⟨.A, i * K + k⟩)
    (hB : ∀ k, k < K → s2.mem ⟨.B, k * N + j⟩ = v * s1.mem ⟨.B, k * N + j⟩) :
    s2'.mem ⟨.C, i * N + j⟩ = u * v * s1'.mem ⟨.C, i * N + j⟩ := by
  refine h (fun a a' => a' = u * a) (fun b b' => b' = v * b) (fun c c' => c' = u * v * c) ?_ ?_ s1 s2 s1' s2' i j
    h1 h2 e1 e2 hi hj hA hB
  · rcases hF with rfl | rfl <;> exact (mul_zero _).symm
  · rintro a _ b _ c _ rfl rfl rfl
    rcases hF with rfl | rfl
    · show r.rnd _ = u * v * r.rnd _
      rw [← hr]
      congr 1
      ring
    · show r.rnd (r.rnd _ + _) = u * v * r.rnd _
      rw [← hr, mul_add, ← hr (a * b)]
      congr 3
      ring

/-- **C71, rounded arithmetic.** A row `(0 … 0 1 0 … 0)` of A copies a row of B whose entries are floats, a column
`(0 … 0 1 0 … 0)` of B a column of A. -/
theorem C71_copy (r : Rounding 24) {F : Arith ℝ} (hF : F = fusedArith r ∨ F = unfusedArith r) (h : Selects F prog M N K)
    {s s' : State ℝ} {i j k0 : Nat} (hs : CallOK s M N K) (he : Exec F prog s (.ok s')) (hi : i < M) (hj : j < N)
    (hk : k0 < K) :
    ((∀ k, k < K → s.mem ⟨.A, i * K + k⟩ = if k = k0 then 1 else 0) →
      (∀ k, k < K → r.rnd (s.mem ⟨.B, k * N + j⟩) = s.mem ⟨.B, k * N + j⟩) →
      s'.mem ⟨.C, i * N + j⟩ = s.mem ⟨.B, k0 * N + j⟩) ∧
    ((∀ k, k < K → s.mem ⟨.B, k * N + j⟩ = if k = k0 then 1 else 0) →
      (∀ k, k < K → r.rnd (s.mem ⟨.A, i * K + k⟩) = s.mem ⟨.A, i * K + k⟩) →
      s'.mem ⟨.C, i * N + j⟩ = s.mem ⟨.A, i * K + k0⟩) := by
  have z : r.rnd 0 = 0 := by simpa using r.int 0 (by norm_num)
  have ez : F.zero = 0 := by rcases hF with rfl | rfl <;> rfl
  have key := h 1 (fun x => r.rnd x = x) s s' i j k0 hs he hi hj hk (by rw [ez]; exact z)
    (by
      intro x c hx hc
      rcases hF with rfl | rfl
      · constructor
        · show r.rnd (0 * x + c) = c
          rw [zero_mul, zero_add, hc]
        · show r.rnd (x * 0 + c) = c
          rw [mul_zero, zero_add, hc]
      · constructor
        · show r.rnd (r.rnd (0 * x) + c) = c
          rw [zero_mul, z, zero_add, hc]
        · show r.rnd (r.rnd (x * 0) + c) = c
          rw [mul_zero, z, zero_add, hc])
    (by
      intro x hx
      rcases hF with rfl | rfl
      · constructor
        · show r.rnd (1 * x + 0) = x
          rw [one_mul, add_zero, hx]
        · show r.rnd (x * 1 + 0) = x
          rw [mul_one, add_zero, hx]
      · constructor
        · show r.rnd (r.rnd (1 * x) + 0) = x
          rw [one_mul, hx, add_zero, hx]
        · show r.rnd (r.rnd (x * 1) + 0) = x
          rw [mul_one, hx, add_zero, hx])
  rw [ez] at key
  refine ⟨fun hA hB => key.1 ⟨?_, fun k hk hne => ?_, hB⟩, fun hB hA => key.2 ⟨?_, fun k hk hne => ?_, hA⟩⟩
  · rw [hA k0 hk, if_pos rfl]
  · rw [hA k hk, if_neg hne]
  · rw [hB k0 hk, if_pos rfl]
  · rw [hB k hk, if_neg hne]

end

/-! ### Cases that meet the hypotheses -/

section
variable (r : Rounding 53) (rs : Rounding 24) (nf : Option ℝ → Option ℝ → Bool)

example := C69_sgemm (exact Int) r rs nf (· != 0) (cntx := none) (haswellMachine_ok.query (ieee r rs nf))
  (a := { M := 1003, N := 48, K := 77, p := 4, alpha := 1, beta := 0 }) ⟨rfl, rfl⟩ (by decide)
  (.auto (by decide) (by decide) (Or.inl rfl)) (Or.inr ⟨haswellMachine_ok.kfix_fits, rfl⟩)

example := C69_online (exact Int) r rs nf (cntx := none) (haswellMachine_ok.query (ieee r rs nf))
  (a := { M := 79, N := 169, K := 11, p := 4, alpha := 1, beta := 0, sch := .NKM }) (by decide)
  (.auto (by decide) (by decide) (Or.inl rfl))

example := C69_2d (exact Int) r rs nf (cntx := none) (l1 := 8192) (r0 := 0) (pn0 := 3)
  (haswellMachine_ok.query (ieee r rs nf)) haswellMachine_ok.kfix_fits
  (a := { M := 79, N := 169, K := 11, p := 4, alpha := 1, beta := 0 })
  (.auto ⟨by norm_num, by decide, by decide⟩ (Or.inl rfl)) (by decide) (by decide)
  (Or.inr ⟨2, by decide, by decide, by decide⟩) (by decide) (by decide)

example := C69_2d_small (exact Int) r rs nf (cntx := some _) (l1 := 8192) (r0 := 0) (pn0 := 2)
  (haswellMachine_ok.query (ieee r rs nf)) haswellMachine_ok.kfix_fits
  (a := { M := 40, N := 50, K := 11, p := 4, alpha := 1, beta := 0 })
  (by norm_num) (by decide) (by decide) (by decide) (Or.inl (by decide))

/-- A memory whose A is the given matrix and whose B is another one. -/
noncomputable def twoMats (M N K : Nat) (f g : Nat → ℝ) : State ℝ :=
  { roomy 0 M N K 0 with mem := fun l => if l.buf = .A then f l.idx else if l.buf = .B then g l.idx else 0 }

theorem twoMats_ok (M N K : Nat) (f g : Nat → ℝ) : CallOK (twoMats M N K f g) M N K :=
  have h := roomy_ok (0 : ℝ) M N K 0
  ⟨h.a, h.b, h.c, h.fresh⟩

include r rs nf in
/-- A K-first call on 43 x 77 and 77 x 37 operands and its executions. -/
theorem demo_runs (F : Arith ℝ) : ∃ prog, Ordered F prog 43 37 77 ∧
    ∀ f g, ∃ s', Exec F prog (twoMats 43 37 77 f g) (.ok s') := by
  obtain ⟨prog, cx', e, hl⟩ := sgemm_ordered F r rs nf (fun _ => false) (cntx := none)
    (haswellMachine_ok.query (ieee r rs nf)) (a := { M := 43, N := 37, K := 77, p := 4, alpha := 1, beta := 0, sch := .KMN })
    ⟨rfl, rfl⟩ (by decide) (.auto (by decide) (by decide) (Or.inl rfl)) (Or.inl rfl)
  refine ⟨prog, hl, fun f g => ?_⟩
  obtain ⟨_, _, e', -, _, e2, h, -⟩ := C42_kfirst F r rs nf (fun _ => false) (cntx := none)
    (haswellMachine_ok.query (ieee r rs nf)) (a := { M := 43, N := 37, K := 77, p := 4, alpha := 1, beta := 0, sch := .KMN })
    ⟨rfl, rfl⟩ (by decide) (.auto (by decide) (by decide) (Or.inl rfl)) rfl (twoMats_ok 43 37 77 f g) (fun _ => rfl)
  cases e2
  rw [e] at e'
  cases e'
  exact h

/-- Larger operands: `A[i][k] = i * K + k`, `B[k][j] = 3`, then 7 more in each entry of A. -/
example : ∃ prog, ∃ s1 s2 : State ℝ, Exec (fusedArith (nearest 24 (by decide))) prog
      (twoMats 43 37 77 (fun x => x) fun _ => 3) (.ok s1) ∧
    Exec (fusedArith (nearest 24 (by decide))) prog (twoMats 43 37 77 (fun x => x + 7) fun _ => 3) (.ok s2) ∧
    s1.mem ⟨.C, 5 * 37 + 6⟩ ≤ s2.mem ⟨.C, 5 * 37 + 6⟩ := by
  obtain ⟨prog, ho, hr⟩ := demo_runs (nearest 53 (by decide)) (nearest 24 (by decide)) (fun _ _ => false)
    (fusedArith (nearest 24 (by decide)))
  obtain ⟨s1, e1⟩ := hr (fun x => x) fun _ => 3
  obtain ⟨s2, e2⟩ := hr (fun x => x + 7) fun _ => 3
  refine ⟨prog, s1, s2, e1, e2, (C69_monotone _ (Or.inl rfl) ho.lifts (twoMats_ok ..) (twoMats_ok ..) e1 e2 (by decide)
    (by decide) (fun k _ => ?_) (fun k _ => ?_)).2⟩
  · simp only [twoMats, if_true]
    exact ⟨by positivity, by linarith⟩
  · simp [twoMats]

/-- A times `-1`, ties away from zero. -/
example : ∃ prog, ∃ s1 s2 : State ℝ, Exec (unfusedArith (nearestAway 24 (by decide))) prog
      (twoMats 43 37 77 (fun x => x / 3) fun _ => 3) (.ok s1) ∧
    Exec (unfusedArith (nearestAway 24 (by decide))) prog (twoMats 43 37 77 (fun x => -1 * (x / 3)) fun _ => 3) (.ok s2) ∧
    s2.mem ⟨.C, 5 * 37 + 6⟩ = -1 * 1 * s1.mem ⟨.C, 5 * 37 + 6⟩ := by
  obtain ⟨prog, ho, hr⟩ := demo_runs (nearest 53 (by decide)) (nearest 24 (by decide)) (fun _ _ => false)
    (unfusedArith (nearestAway 24 (by decide)))
  obtain ⟨s1, e1⟩ := hr (fun x => x / 3) fun _ => 3
  obtain ⟨s2, e2⟩ := hr (fun x => -1 * (x / 3)) fun _ => 3
  refine ⟨prog, s1, s2, e1, e2, C69_scale _ (Or.inr rfl) ho.lifts (nearestAway_neg 24 (by decide)) (twoMats_ok ..)
    (twoMats_ok ..) e1 e2 (by decide) (by decide) (fun k _ => ?_) (fun k _ => ?_)⟩
  · simp [twoMats]
  · simp [twoMats]

/-- The hypothesis on the factors, for `2 ^ 10` and `2 ^ -3` and rounding to nearest. -/
example (x : ℝ) : (nearest 24 (by decide)).rnd (2 ^ (10 : ℤ) * 2 ^ (-3 : ℤ) * x) =
    2 ^ (10 : ℤ) * 2 ^ (-3 : ℤ) * (nearest 24 (by decide)).rnd x := by
  rw [← zpow_add₀ (by norm_num)]
  exact nearest_scale _ x

/-- Row 5 of A is the unit vector `e_8`. -/
example : ∃ prog, ∃ s' : State ℝ, Exec (fusedArith (nearest 24 (by decide))) prog
      (twoMats 43 37 77 (fun x => if x = 5 * 77 + 8 then 1 else 0) fun x => (x : ℤ) * 3) (.ok s') ∧
    s'.mem ⟨.C, 5 * 37 + 6⟩ = ((8 * 37 + 6 : Nat) : ℤ) * 3 := by
  obtain ⟨prog, ho, hr⟩ := demo_runs (nearest 53 (by decide)) (nearest 24 (by decide)) (fun _ _ => false)
    (fusedArith (nearest 24 (by decide)))
  obtain ⟨s', e⟩ := hr (fun x => if x = 5 * 77 + 8 then 1 else 0) fun x => (x : ℤ) * 3
  refine ⟨prog, s', e, ?_⟩
  have := (C71_copy _ (Or.inl rfl) ho.selects (twoMats_ok ..) e (i := 5) (j := 6) (k0 := 8) (by decide) (by decide)
    (by decide)).1 (fun k _ => ?_) (fun k hk => ?_)
  · rw [this]
    simp [twoMats]
  · have h : (5 * 77 + k = 5 * 77 + 8) = (k = 8) := propext (by omega)
    simp only [twoMats, if_true, h]
  · have h := (nearest 24 (by decide)).int (((k * 37 + 6 : Nat) : ℤ) * 3) (by
      rw [abs_of_nonneg (by positivity)]
      norm_num
      omega)
    simpa [twoMats] using h

/-- `none` is a NaN. -/
example := C72_sgemm (α := Option Int) ⟨some 0, fun a b c => a.bind fun a => b.bind fun b => c.map (a * b + ·)⟩ r rs nf
  (fun _ => true) (cntx := none) (haswellMachine_ok.query (ieee r rs nf))
  (a := { M := 1003, N := 48, K := 77, p := 4, alpha := none, beta := none, sch := .KMN }) ⟨rfl, rfl⟩ (by decide)
  (.auto (by decide) (by decide) (Or.inl rfl)) (Or.inl rfl)

/-- It makes every result it enters a NaN: the hypothesis of `Poisons`. -/
example (a b c : Option Int) (h : a = none ∨ b = none ∨ c = none) :
    (a.bind fun a => b.bind fun b => c.map (a * b + ·)) = none := by
  rcases h with rfl | rfl | rfl
  · rfl
  · cases a <;> rfl
  · cases a <;> cases b <;> rfl

end
end Cake
