/-
C28 for M-first and N-first: wrong with every generated register tile but the compiled-in one.
-/
import Verif.Proofs.WrongKernel
import Verif.Props.Api

namespace Cake
open List

section
variable (r : Rounding 53) (rs : Rounding 24) (nf : Option ℝ → Option ℝ → Bool)

/-- The M-first and N-first calls do not free C. -/
theorem keepsC_MN {nz : Int → Bool} {cx : Cntx} {M N K p : Nat} {alpha beta : Int} {m_c k_c n_c : Nat} {sch : Sched}
    (hs : sch = .MKN ∨ sch = .NKM) {prog : Prog}
    (e : cake_sgemm nz cx ⟨.A, 0⟩ ⟨.B, 0⟩ ⟨.C, 0⟩ M N K p false false alpha beta m_c k_c n_c sch = some prog)
    {F : Arith Int} {s s' : State Int} (h : Exec F prog s (.ok s')) (hC : s.size .C ≠ none) : s'.size .C ≠ none := by
  refine keepsC h hC ?_
  have hS : (Sched.MKN = Sched.KMN) = False := by simp
  have hS' : (Sched.NKM = Sched.KMN) = False := by simp
  have h1 : (dimsMKN M N K p cx.m_r cx.n_r m_c k_c n_c).sch = .MKN := rfl
  have h2 : (dimsNKM M N K p cx.m_r cx.n_r m_c k_c n_c).sch = .NKM := rfl
  rcases hs with rfl | rfl <;>
  · simp only [cake_sgemm, init_block_dims, h1, h2, packedASize, packedCSize, pack_A, pack_B, pack_C, unpack_C,
      schedule, Option.bind_eq_bind, Option.bind_some, Bool.false_eq_true, if_false, Option.some.injEq, hS, hS'] at e
    subst e
    cases nz beta <;> simp [phases]

/-- **C28 (M-first, N-first), whenever an entry lies beyond the compiled-in kernel.** Let the register tile of the context
be `m_r x n_r`, and let some entry `(r0, c0)` of the result in the first register tile stand at a position
`r0 * n_r + c0` that the compiled-in kernel, of `m x (nl*L)` elements, does not reach. Then for all thread counts, depths and
tile sizes the M-first and the N-first call leaves this entry zero on all-ones operands. -/
theorem C28_unreached_refuted (nz : Int → Bool) {mc : Machine} {cx : CCtx (Option ℝ)} {m_r n_r L2 L3 nc : Nat}
    (h : Ready mc cx m_r n_r L2 L3 nc)
    {a : Args Int} (hpk : a.packedA = false ∧ a.packedB = false) (hp : 0 < a.p) (ht : TilesOK m_r n_r L2 a)
    (hsch : a.sch = .MKN ∨ a.sch = .NKM) (hb : nz a.beta = false) (hK : 0 < a.K) {r0 c0 : Nat} (hr : r0 < m_r) (hc : c0 < n_r)
    (hrM : r0 < a.M) (hcN : c0 < a.N) (hbig : mc.kfix.m * (mc.kfix.nl * mc.kfix.L) ≤ r0 * n_r + c0) :
    ∃ prog cx', publicCall r rs nf nz mc (some cx) a = .ok (prog, cx') ∧ CallOK (ones a.M a.N a.K) a.M a.N a.K ∧
      ∀ s', Exec (exact Int) prog (ones a.M a.N a.K) (.ok s') →
        entry s' .C a.N r0 c0 = 0 ∧ ¬ IsProduct (exact Int) (ones a.M a.N a.K) s' a.M a.N a.K (fun _ _ => 0) := by
  obtain ⟨prog, cx', kd, m_c, k_c, n_c, sch, e1, e2, hf, hT, -, hsch', -⟩ :=
    api_reduce r rs nf nz (cntx := some cx) h ⟨.A, 0⟩ ⟨.B, 0⟩ ⟨.C, 0⟩ hp ht
  refine ⟨_, cx', e1, ones_ok _ _ _, fun s' he => ?_⟩
  rw [hpk.1, hpk.2] at e2
  have hC' : s'.size .C ≠ none :=
    keepsC_MN (by rw [hsch' (by rcases hsch with hs | hs <;> rw [hs] <;> simp)]; exact hsch) e2 he (by simp [ones, demoC, demo])
  have hbig' : mc.kfix.m * mc.kfix.nl * mc.kfix.L ≤ r0 * n_r + c0 := by rw [Nat.mul_assoc]; exact hbig
  have h0 : entry s' .C a.N r0 c0 = 0 := by
    rcases hsch with hs | hs
    · have : sch = .MKN := by rw [hsch' (by rw [hs]; simp), hs]
      subst this
      exact mfirst_zero (F := exact Int) (cx := ⟨m_r, n_r, kd, mc.kfix⟩) hT hb e2 hr hc hcN hbig' rfl rfl he hC'
    · have : sch = .NKM := by rw [hsch' (by rw [hs]; simp), hs]
      subst this
      exact nfirst_zero (F := exact Int) (cx := ⟨m_r, n_r, kd, mc.kfix⟩) hT hb e2 hr hc hcN hbig' rfl rfl he hC'
  refine ⟨h0, fun hpr => ?_⟩
  have := IsProduct.exact hpr hrM hcN
  rw [h0] at this
  simp [entry, ones] at this
  omega

/-- Haswell, register tile 6 x 32: a `7 x 5` result is wrong, with automatic tile sizes. -/
example := C28_unreached_refuted r rs nf (· != 0)
  ((haswellMachine_ok.query (ieee r rs nf)).update (m_r' := 6) (n_r' := 32) (by decide) (by decide) (by norm_num))
  (a := { M := 7, N := 5, K := 77, p := 4, alpha := 1, beta := 0, sch := .NKM }) ⟨rfl, rfl⟩ (by decide)
  (.auto (by decide) (by decide) (Or.inl rfl)) (Or.inr rfl) (by decide) (by decide) (r0 := 3) (c0 := 0) (by decide) (by decide)
  (by decide) (by decide) (by decide)

/-- **C28 (M-first, N-first) does not hold for any generated register tile but the compiled-in one.** On a machine set up as
installed, after `update_mr_nr(cntx, m_r', n_r')` with a generated size other than the smallest, which is the compiled-in one,
every M-first or N-first call whose result contains a whole register tile is wrong on all-ones operands, for all sizes,
thread counts and tile sizes. -/
theorem C28_other_tiles_refuted (nz : Int → Bool) {mc : Machine} {L2 L3 nc : Nat} (ok : MachineOK mc L2 L3 nc) {m_r' n_r' : Nat}
    (hm : m_r' ∈ cfor mc.arch.sm (mc.m_lim + 1) mc.arch.fact_m)
    (hn : n_r' ∈ cfor mc.arch.sn (mc.n_lim + 1) mc.arch.fact_n) (hn' : n_r' ≤ 2 ^ 10)
    (hne : ¬ (m_r' = mc.arch.sm ∧ n_r' = mc.arch.sn))
    {a : Args Int} (hpk : a.packedA = false ∧ a.packedB = false) (hp : 0 < a.p) (ht : TilesOK m_r' n_r' L2 a)
    (hsch : a.sch = .MKN ∨ a.sch = .NKM) (hb : nz a.beta = false) (hK : 0 < a.K) (hM : m_r' ≤ a.M) (hN : n_r' ≤ a.N) :
    ∃ prog cx', publicCall r rs nf nz mc (some (update_mr_nr mc (query_cntx (ieee r rs nf) mc) m_r' n_r')) a = .ok (prog, cx') ∧
      CallOK (ones a.M a.N a.K) a.M a.N a.K ∧
      ∀ s', Exec (exact Int) prog (ones a.M a.N a.K) (.ok s') →
        ¬ IsProduct (exact Int) (ones a.M a.N a.K) s' a.M a.N a.K (fun _ _ => 0) := by
  have hR := (ok.query (ieee r rs nf)).update hm hn hn'
  have pos : 0 < mc.arch.fact_m ∧ 0 < mc.arch.fact_n ∧ 0 < mc.arch.sm ∧ 0 < mc.arch.sn ∧
      mc.arch.sn / mc.arch.L * mc.arch.L = mc.arch.sn := by
    rcases ok.arch with e | e <;> rw [e] <;> decide
  have gm : mc.arch.sm ≤ m_r' := by
    rw [cfor_eq _ _ _ pos.1] at hm
    obtain ⟨t, -, rfl⟩ := mem_map.1 hm
    omega
  have gn : mc.arch.sn ≤ n_r' := by
    rw [cfor_eq _ _ _ pos.2.1] at hn
    obtain ⟨t, -, rfl⟩ := mem_map.1 hn
    omega
  have hlt : mc.arch.sm * mc.arch.sn < m_r' * n_r' := by
    rcases Nat.lt_or_ge mc.arch.sm m_r' with h | h
    · exact Nat.mul_lt_mul_of_lt_of_le h gn (by omega)
    · exact Nat.mul_lt_mul_of_le_of_lt gm (by omega) (by omega)
  have e : (m_r' - 1) * n_r' + (n_r' - 1) = m_r' * n_r' - 1 := by
    obtain ⟨q, rfl⟩ : ∃ q, m_r' = q + 1 := ⟨m_r' - 1, by omega⟩
    rw [Nat.add_sub_cancel, Nat.add_mul]
    omega
  obtain ⟨prog, cx', e1, e2, e3⟩ := C28_unreached_refuted r rs nf nz hR hpk hp ht hsch hb hK (r0 := m_r' - 1) (c0 := n_r' - 1)
    (by omega) (by omega) (by omega) (by omega) (by rw [ok.kfix, e]; simp only; rw [pos.2.2.2.2]; omega)
  exact ⟨prog, cx', e1, e2, fun s' hs' => (e3 s' hs').2⟩

/-- ARM, register tile 10 x 12, M-first, automatic tile sizes. -/
example := C28_other_tiles_refuted r rs nf (· != 0) armMachine_ok (m_r' := 10) (n_r' := 12) (by decide) (by decide) (by norm_num)
  (by decide) (a := { M := 1003, N := 47, K := 77, p := 4, alpha := 1, beta := 0, sch := .MKN }) ⟨rfl, rfl⟩ (by decide)
  (.auto (by decide) (by decide) (Or.inl rfl)) (Or.inl rfl) (by decide) (by decide) (by decide) (by decide)

end
end Cake
