/-
Property C58: the default call of `cake_sgemm_online`, from its first line.
-/
import Verif.Model.OnlineApi
import Verif.Props.TwoDApi
import Verif.Props.Online

namespace Cake
open List

section
variable {α : Type _}
variable (r : Rounding 53) (rs : Rounding 24) (nf : Option ℝ → Option ℝ → Bool)

/-- The tile sizes a call ends up with. -/
theorem dims_ok {mc : Machine} {cx : CCtx (Option ℝ)} {m_r n_r L2 L3 nc : Nat} (h : Ready mc cx m_r n_r L2 L3 nc)
    {a : Args α} (hp : 0 < a.p) (ht : TilesOK m_r n_r L2 a) (sch : Sched) :
    ∃ d cx', get_cache_dims (ieee r rs nf) cx a.M a.N a.K a.p sch ((ieee r rs nf).ofInt 4) a.mcu a.kcu a.ncu =
        .ok (d, cx') ∧ Ready mc cx' m_r n_r L2 L3 nc ∧
      ∃ m_c k_c n_c : Nat, d.m_c = m_c ∧ d.k_c = k_c ∧ d.n_c = n_c ∧ TileOK a.p m_r n_r m_c k_c n_c := by
  have key : ∃ d cx', get_cache_dims (ieee r rs nf) cx a.M a.N a.K a.p sch
      ((ieee r rs nf).ofInt 4) a.mcu a.kcu a.ncu = .ok (d, cx') ∧ ValidTile m_r n_r d := by
    cases ht with
    | auto hp' l2 u =>
      obtain ⟨t, e, c, d, cx', -, -, -, -, -, -, -, -, h, hv, -⟩ :=
        dims_auto r rs nf h.cache l2 a.M a.N a.K a.p hp hp' sch a.mcu a.kcu a.ncu (by omega)
      exact ⟨d, cx', h, hv⟩
    | user m k n hm hn =>
      obtain ⟨d, cx', h, e1, e2, e3⟩ := dims_user r rs nf h.cache a.M a.N a.K a.p hp sch m k n
      obtain ⟨i, hi⟩ := hm
      obtain ⟨j, hj⟩ := hn
      refine ⟨d, cx', h, ⟨i, ?_, ?_⟩, ⟨j, ?_, ?_⟩, ?_⟩
      · exact Nat.pos_of_ne_zero fun e => by rw [e] at hi; omega
      · rw [e1, hi, Nat.mul_comm]
      · exact Nat.pos_of_ne_zero fun e => by rw [e] at hj; omega
      · rw [e3, hj, Nat.mul_comm]
      · rw [e2]; exact_mod_cast k
  obtain ⟨d, cx', hd, ⟨⟨i, hi, hmi⟩, ⟨j, hj, hnj⟩, hk⟩⟩ := key
  obtain ⟨-, -, hcx⟩ := (get_cache_dims_noExit _ _ _ _ _ _ _ _ _ _ _).of_ok hd
  exact ⟨d, cx', hd, h.alpha hcx, _, d.k_c.toNat, _, hmi, (Int.toNat_of_nonneg (by omega)).symm, hnj, hp,
    h.cache.mr_pos, h.cache.nr_pos, Nat.mul_pos hi h.cache.mr_pos, by omega, Nat.mul_pos hj h.cache.nr_pos,
    ⟨i, Nat.mul_comm _ _⟩, ⟨j, Nat.mul_comm _ _⟩⟩

/-- The online call on plain operands, `cntx = none` for a NULL context. -/
noncomputable abbrev onlineCall (mc : Machine) (cntx : Option (CCtx (Option ℝ))) (a : Args α) :
    Except Fail (Prog × CCtx (Option ℝ)) :=
  sgemm_online_api (ieee r rs nf) mc cntx ⟨.A, 0⟩ ⟨.B, 0⟩ ⟨.C, 0⟩ a

theorem online_reduce {mc : Machine} {cntx : Option (CCtx (Option ℝ))} {m_r n_r L2 L3 nc : Nat}
    (h : Ready mc (cntx.getD (query_cntx (ieee r rs nf) mc)) m_r n_r L2 L3 nc) {a : Args α} (hp : 0 < a.p)
    (ht : TilesOK m_r n_r L2 a) :
    ∃ prog cx' kd m_c k_c n_c, onlineCall r rs nf mc cntx a =
        .ok ((if cntx.isNone then [Item.malloc .Ctx 1] else []) ++ prog, cx') ∧
      callO ⟨m_r, n_r, kd, mc.kfix⟩ a.M a.N a.K a.p a.packedA a.packedB a.alpha a.beta m_c k_c n_c = some prog ∧
      kd.Fits m_r n_r ∧ TileOK a.p m_r n_r m_c k_c n_c ∧ Ready mc cx' m_r n_r L2 L3 nc := by
  obtain ⟨d, cx', hd, hR, m_c, k_c, n_c, e1, e2, e3, hT⟩ := dims_ok r rs nf h hp ht .KMN
  obtain ⟨kd, hv, hf⟩ := hR.view
  obtain ⟨prog, hprog⟩ : ∃ prog, callO ⟨m_r, n_r, kd, mc.kfix⟩ a.M a.N a.K a.p a.packedA a.packedB a.alpha a.beta m_c k_c
      n_c = some prog := ⟨_, rfl⟩
  refine ⟨prog, cx', kd, m_c, k_c, n_c, ?_, hprog, hf, hT, hR⟩
  have := hT.m_c_pos
  have := hT.k_c_pos
  have := hT.n_c_pos
  unfold onlineCall sgemm_online_api
  simp only [bind, Except.bind]
  rw [hd]
  simp only
  rw [hv]
  simp only
  rw [if_neg (by rw [e1, e2, e3]; omega), e1, e2, e3]
  simp only [Int.toNat_natCast]
  have hprog' := hprog
  unfold callO at hprog'
  rw [hprog']
  rfl

/-- **C58, what holds.** The online call from its first line, whatever schedule, `alpha`, `beta` and packed flags are
passed: context or NULL, tile sizes from the cache sizes or the user. If the elements that packing reads beyond A and B
are readable, the call gets to its product under every rounding, computes it, changes nothing else, leaves no object
but the context of a NULL call, and leaves the context fit for the next call. Missing: operands in objects of exactly
their sizes with ragged M or N, see `C58_online_iff`. -/
theorem C58_online_default_partial (F : Arith α) {mc : Machine} {cntx : Option (CCtx (Option ℝ))}
    {m_r n_r L2 L3 nc : Nat} (h : Ready mc (cntx.getD (query_cntx (ieee r rs nf) mc)) m_r n_r L2 L3 nc)
    {a : Args α} (hp : 0 < a.p) (ht : TilesOK m_r n_r L2 a)
    {s : State α} (hs : CallOK s a.M a.N a.K) (hsl : Slack s a.M a.N a.K m_r n_r) (hctx : cntx = none → s.size .Ctx = none) :
    ∃ prog cx', onlineCall r rs nf mc cntx a = .ok (prog, cx') ∧ Ready mc cx' m_r n_r L2 L3 nc ∧
      Computes F (some prog) s (fun s' => Correct F cntx.isNone s s' a.M a.N a.K) := by
  obtain ⟨prog, cx', kd, m_c, k_c, n_c, e1, e2, hf, hT, hR⟩ := online_reduce r rs nf h hp ht
  refine ⟨_, cx', e1, hR, computes_ctx _ (fun e => hctx (by simpa using e)) fun s1 w1 w2 => ?_⟩
  have hs1 : CallOK s1 a.M a.N a.K ∧ Slack s1 a.M a.N a.K m_r n_r := by
    cases e : cntx.isNone with
    | true => exact ⟨(w1 e).call hs, (w1 e).slack hsl⟩
    | false => rw [w2 e]; exact ⟨hs, hsl⟩
  rw [← e2]
  exact (sgemm_online_call F ⟨m_r, n_r, kd, mc.kfix⟩ hT hf a.packedA a.packedB a.alpha a.beta hs1.1 hs1.2).mono fun s' hs' =>
    Correct.of_env (orderKMN_perm hT.k_c_pos) rfl hs'

/-- NULL context, N-first asked for (and ignored), ragged everywhere. -/
example := C58_online_default_partial r rs nf (exact Int) (cntx := none) (haswellMachine_ok.query (ieee r rs nf))
  (a := { M := 79, N := 169, K := 11, p := 4, alpha := 1, beta := 0, sch := .NKM }) (by decide)
  (.auto (by decide) (by decide) (Or.inl rfl)) (padded_ok 79 169 11 55 7 fun _ => 7)
  (padded_slack _ (by decide) (by decide)) (fun _ => rfl)

/-- **C58, exactly when it holds.** With a given context and objects of exactly `M*K` and `K*N` elements, all sizes
positive, the call from its first line can end normally if and only if `m_r` divides M and `n_r` divides N. -/
theorem C58_online_iff (F : Arith α) {mc : Machine} {cx : CCtx (Option ℝ)}
    {m_r n_r L2 L3 nc : Nat} (h : Ready mc cx m_r n_r L2 L3 nc) {a : Args α} (hp : 0 < a.p) (ht : TilesOK m_r n_r L2 a)
    {s : State α} (hs : CallOK s a.M a.N a.K) (hA : s.size .A = some (a.M * a.K)) (hB : s.size .B = some (a.K * a.N))
    (hM : 0 < a.M) (hN : 0 < a.N) (hK : 0 < a.K) :
    ∃ prog cx', onlineCall r rs nf mc (some cx) a = .ok (prog, cx') ∧ Ready mc cx' m_r n_r L2 L3 nc ∧
      ((∃ s', Exec F prog s (.ok s')) ↔ m_r ∣ a.M ∧ n_r ∣ a.N) := by
  obtain ⟨prog, cx', kd, m_c, k_c, n_c, e1, e2, hf, hT, hR⟩ := online_reduce r rs nf (cntx := some cx) h hp ht
  exact ⟨prog, cx', e1, hR,
    C11_online_iff F ⟨m_r, n_r, kd, mc.kfix⟩ hT hf a.packedA a.packedB a.alpha a.beta hs hA hB hM hN hK e2⟩

example := C58_online_iff r rs nf (exact Int) (haswellMachine_ok.query (ieee r rs nf))
  (a := { M := 96, N := 10, K := 10, p := 2, alpha := 1, beta := 0, sch := .KMN }) (by decide)
  (.auto (by decide) (by decide) (Or.inl rfl)) (demo_ok 96 10 10) rfl rfl (by decide) (by decide) (by decide)

/-- **C58 fails as stated.** On every supported machine whose L2 holds a register tile, the default call on
`1 x 1` operands in objects of one element has no execution that ends normally. -/
theorem C58_online_refuted (F : Arith α) {mc : Machine} {L2 L3 nc : Nat} (h : MachineOK mc L2 L3 nc)
    (hl : 8 * (mc.arch.sm * (mc.arch.sm + 2 * mc.arch.sn)) ≤ L2) (x y z alpha beta : α) :
    ∃ (s : State α) (prog : Prog) (cx' : CCtx (Option ℝ)), CallOK s 1 1 1 ∧
      onlineCall r rs nf mc (some (query_cntx (ieee r rs nf) mc)) { M := 1, N := 1, K := 1, p := 1, alpha, beta } =
        .ok (prog, cx') ∧ Exec F prog s .ub ∧ ∀ s', ¬ Exec F prog s (.ok s') := by
  have hs : CallOK (α := α) ⟨fun b => if b = .A ∨ b = .B ∨ b = .C then some 1 else none,
      fun l => if l.buf = .A then x else if l.buf = .B then y else z, fun _ => true⟩ 1 1 1 := by
    refine ⟨⟨⟨1, by simp, by simp⟩, fun _ _ => rfl⟩, ⟨⟨1, by simp, by simp⟩, fun _ _ => rfl⟩, ⟨1, by simp, by simp⟩, ?_⟩
    intro b h1 h2 h3 _
    simp [h1, h2, h3]
  obtain ⟨prog, cx', e, -, hiff⟩ := C58_online_iff r rs nf F (h.query (ieee r rs nf))
    (a := { M := 1, N := 1, K := 1, p := 1, alpha, beta }) Nat.one_pos (.auto (by show 1 ≤ 2 ^ 15; decide) hl (Or.inl rfl)) hs rfl rfl
    Nat.one_pos Nat.one_pos Nat.one_pos
  have hno : ∀ s', ¬ Exec F prog _ (.ok s') := fun s' he => by
    have hd : mc.arch.sm ∣ 1 := (hiff.1 ⟨s', he⟩).1
    rcases h.arch with e | e <;> rw [e] at hd <;> revert hd <;> decide
  exact ⟨_, prog, cx', hs, e, ub_of_no_ok F hno, hno⟩

example (x : Int) := C58_online_refuted r rs nf (exact Int) armMachine_ok (by decide) x 2 0 1 0

end
end Cake
