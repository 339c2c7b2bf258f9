/-
The public entry point from its first line: C42 (default call), C22 (user tile sizes), C28 (other register
tiles), C34 with a NULL context.
-/
import Verif.Proofs.Api
import Verif.Proofs.Refute
import Verif.Proofs.Nearest
import Verif.Props.KFirst
import Verif.Props.MFirst
import Verif.Props.NFirst
import Verif.Props.CacheDims

namespace Cake
open List

section
variable {α : Type _} (F : Arith α)

/-- The sizes of all objects after a call: as before, except that a call without a context leaves the context
it has allocated. -/
def sizesAfter (nullCtx : Bool) (sz : Buf → Option Nat) (b : Buf) : Option Nat :=
  if nullCtx = true ∧ b = .Ctx then some 1 else sz b

/-- A correct call: C is the product, nothing else of the caller's is changed, and the objects are as
`sizesAfter` says. -/
structure Correct (nullCtx : Bool) (s s' : State α) (M N K : Nat) : Prop where
  product : IsProduct F s s' M N K (fun _ _ => F.zero)
  keep : ∀ l : Loc, s.size l.buf ≠ none → ¬ (l.buf = .C ∧ l.idx < M * N) →
    s'.mem l = s.mem l ∧ s'.init l = s.init l
  size : ∀ b, s'.size b = sizesAfter nullCtx s.size b

variable {F}

theorem Correct.of_env {s s' : State α} {M N K : Nat} {order : Nat → Nat → List Nat}
    (ho : ∀ r c, (order r c).Perm (range K)) {c0 : Nat → Nat → α} (h0 : c0 = fun _ _ => F.zero)
    (h : Env s s.size (cX M N) (fun m i => ∀ r c, r < M → c < N →
        i ⟨.C, r * N + c⟩ = true ∧ m ⟨.C, r * N + c⟩ =
          dotFrom F (fun k => entry s .A K r k) (fun k => entry s .B N k c) (order r c) (c0 r c)) s') :
    Correct F false s s' M N K := by
  subst h0
  exact ⟨fun r c hr hc => ⟨(h.fact r c hr hc).1, _, ho r c, (h.fact r c hr hc).2⟩, h.keep, fun b => by
    rw [h.size]; simp [sizesAfter]⟩

/-- The state after the context has been allocated. -/
structure WithCtx (s s1 : State α) : Prop where
  same : ∀ l : Loc, l.buf ≠ .Ctx → s1.mem l = s.mem l ∧ s1.init l = s.init l
  size : s1.size = fun b => if b = .Ctx then some 1 else s.size b

theorem WithCtx.holds {s s1 : State α} (h : WithCtx s s1) {b : Buf} (hb : b ≠ .Ctx) {m n : Nat} (hh : Holds s b m n) :
    Holds s1 b m n := by
  obtain ⟨⟨k, hk, hle⟩, hi⟩ := hh
  exact ⟨⟨k, by rw [h.size]; simp [hb, hk], hle⟩, fun i hi' => by rw [(h.same ⟨b, i⟩ hb).2]; exact hi i hi'⟩

theorem WithCtx.call {s s1 : State α} (h : WithCtx s s1) {M N K : Nat} (hs : CallOK s M N K) : CallOK s1 M N K := by
  refine ⟨h.holds (by simp) hs.a, h.holds (by simp) hs.b, ?_, fun b h1 h2 h3 h4 => ?_⟩
  · obtain ⟨k, hk, hle⟩ := hs.c
    exact ⟨k, by rw [h.size]; simp [hk], hle⟩
  · rw [h.size]; simp [h4, hs.fresh b h1 h2 h3 h4]

/-- A correct call after the context has been allocated is a correct call without a context. -/
theorem Correct.of_ctx {s s1 s' : State α} {M N K : Nat} (hn : s.size .Ctx = none) (w : WithCtx s s1)
    (c : Correct F false s1 s' M N K) : Correct F true s s' M N K := by
  have ea : ∀ r k, entry s1 .A K r k = entry s .A K r k := fun r k => (w.same ⟨.A, _⟩ (by simp)).1
  have eb : ∀ r k, entry s1 .B N r k = entry s .B N r k := fun r k => (w.same ⟨.B, _⟩ (by simp)).1
  refine ⟨fun r c' hr hc => ?_, fun l hl hX => ?_, fun b => ?_⟩
  · have := c.product r c' hr hc
    simpa only [ea, eb] using this
  · have hne : l.buf ≠ .Ctx := fun e => hl (by rw [e, hn])
    have := c.keep l (by rw [w.size]; simp [hne, hl]) hX
    rw [this.1, this.2]; exact w.same l hne
  · rw [c.size b]
    simp [sizesAfter, w.size]

/-- From executions with an allocated context to executions with or without one. -/
theorem ends_ctx {prog : Prog} {s s' : State α} {M N K : Nat} (nullCtx : Bool) (hctx : nullCtx = true → s.size .Ctx = none)
    (h : ∀ s1, (nullCtx = true → WithCtx s s1) → (nullCtx = false → s1 = s) → Exec F prog s1 (.ok s') →
      Correct F false s1 s' M N K)
    (he : Exec F ((if nullCtx then [Item.malloc .Ctx 1] else []) ++ prog) s (.ok s')) : Correct F nullCtx s s' M N K := by
  cases nullCtx with
  | false => exact h s (by simp) (fun _ => rfl) he
  | true =>
    cases he with
    | next _ _ _ s1 _ h1 h2 =>
      have w : WithCtx s s1 := by
        cases h1 with
        | malloc _ _ _ m' _ hm => exact ⟨fun l hl => ⟨hm l hl, by simp [hl]⟩, rfl⟩
      exact .of_ctx (hctx rfl) w (h s1 (fun _ => w) (by simp) h2)

/-- From the call with an allocated context to the call with or without one. -/
theorem computes_ctx {prog : Prog} {s : State α} {M N K : Nat} (nullCtx : Bool)
    (hctx : nullCtx = true → s.size .Ctx = none)
    (h : ∀ s1, (nullCtx = true → WithCtx s s1) → (nullCtx = false → s1 = s) →
      Computes F (some prog) s1 (fun s' => Correct F false s1 s' M N K)) :
    Computes F (some ((if nullCtx then [Item.malloc .Ctx 1] else []) ++ prog)) s
      (fun s' => Correct F nullCtx s s' M N K) := by
  cases nullCtx with
  | false => exact h s (by simp) (fun _ => rfl)
  | true =>
    have hn := hctx rfl
    have step : ∀ s1, ItemExec F (.malloc .Ctx 1) s (.ok s1) → WithCtx s s1 := by
      intro s1 h1
      cases h1 with
      | malloc _ _ _ m' _ hm =>
        exact ⟨fun l hl => ⟨hm l hl, by simp [hl]⟩, rfl⟩
    have up := fun s1 s' w c => Correct.of_ctx (F := F) (s := s) (s1 := s1) (s' := s') (M := M) (N := N) (K := K) hn w c
    have hex : ItemExec F (.malloc .Ctx 1) s (.ok _) := .malloc .Ctx 1 s s.mem hn (fun _ _ => rfl)
    refine ⟨_, rfl, ?_, fun out ho => ?_⟩
    · obtain ⟨_, e, ⟨s', h1⟩, _⟩ := h _ (fun _ => step _ hex) (by simp)
      cases e
      exact ⟨s', .next _ _ _ _ _ hex h1⟩
    · cases ho with
      | next _ _ _ s1 _ h1 h2 =>
        have w := step s1 h1
        obtain ⟨_, e, _, hall⟩ := h s1 (fun _ => w) (by simp)
        cases e
        rcases hall out h2 with e | ⟨s', e, c⟩
        · exact Or.inl e
        · exact Or.inr ⟨s', e, up s1 s' w c⟩
      | exit _ _ _ h1 => exact Or.inl rfl
      | ub _ _ _ h1 =>
        cases h1 with
        | mallocUb _ _ _ h => exact absurd hn h

variable (r : Rounding 53) (rs : Rounding 24) (nf : Option ℝ → Option ℝ → Bool)
variable (F) (nz : α → Bool)

/-- The public call on plain operands, `cntx = none` for a NULL context. -/
noncomputable abbrev publicCall (mc : Machine) (cntx : Option (CCtx (Option ℝ))) (a : Args α) :
    Except Fail (Prog × CCtx (Option ℝ)) :=
  sgemm_api (ieee r rs nf) nz mc cntx ⟨.A, 0⟩ ⟨.B, 0⟩ ⟨.C, 0⟩ a

/-- **C42.** The default call, end to end: automatic schedule and tile sizes (or a given schedule, or complete
tile sizes that are multiples of the register tile), default or changed context or NULL. The call gets through
the choice of schedule and tiles, and its program computes the product, touches nothing else and is free of
undefined behaviour, under every rounding of the floating-point tile computation, and leaves a context fit for the next
call. Missing: objects of exactly the size of B when N is not a multiple of `n_r`, see `C42_default_refuted`; `hB` is the
condition that C10 is about; `hk` says that `m_r x n_r` is the compiled-in kernel's size,
which C28 is about. Neither is needed with the K-first schedule, see `C42_kfirst`. -/
theorem C42_default_partial {mc : Machine} {cntx : Option (CCtx (Option ℝ))} {m_r n_r L2 L3 nc : Nat}
    (h : Ready mc (cntx.getD (query_cntx (ieee r rs nf) mc)) m_r n_r L2 L3 nc) (hk : mc.kfix.Fits m_r n_r)
    {a : Args α} (hpk : a.packedA = false ∧ a.packedB = false) (hp : 0 < a.p) (ht : TilesOK m_r n_r L2 a)
    (hb : nz a.beta = false) {s : State α} (hs : CallOK s a.M a.N a.K)
    (hB : n_r ∣ a.N ∨ Holds s .B 1 (a.K * a.N + (n_r - 1))) (hctx : cntx = none → s.size .Ctx = none) :
    ∃ prog cx', publicCall r rs nf nz mc cntx a = .ok (prog, cx') ∧ Ready mc cx' m_r n_r L2 L3 nc ∧
      Computes F (some prog) s (fun s' => Correct F cntx.isNone s s' a.M a.N a.K) := by
  obtain ⟨prog, cx', kd, m_c, k_c, n_c, sch, e1, e2, hf, hT, hsch, -, hR⟩ :=
    api_reduce r rs nf nz h ⟨.A, 0⟩ ⟨.B, 0⟩ ⟨.C, 0⟩ hp ht
  refine ⟨_, cx', e1, hR, computes_ctx _ (fun e => hctx (by simpa using e)) fun s1 w1 w2 => ?_⟩
  have hs1 : CallOK s1 a.M a.N a.K := by
    cases e : cntx.isNone with
    | true => exact (w1 e).call hs
    | false => rw [w2 e]; exact hs
  have hB1 : n_r ∣ a.N ∨ Holds s1 .B 1 (a.K * a.N + (n_r - 1)) := by
    cases e : cntx.isNone with
    | true => exact hB.imp id fun h => (w1 e).holds (by simp) h
    | false => rw [w2 e]; exact hB
  have hB2 : Holds s1 .B 1 (bNeed a.N a.K a.p n_r k_c n_c) := by
    rcases hB1 with h | h
    · exact readable_of_dvd hT hs1 h
    · exact readable_of_slack hT h
  rw [hpk.1, hpk.2] at e2
  rw [← e2]
  rcases hsch with rfl | rfl | rfl
  · exact (sgemmK_call F nz ⟨m_r, n_r, kd, mc.kfix⟩ hT hf a.alpha a.beta hs1).mono fun s' hs' =>
      Correct.of_env (orderKMN_perm hT.k_c_pos) rfl hs'
  · exact (sgemmM_call F nz ⟨m_r, n_r, kd, mc.kfix⟩ hT hk a.alpha a.beta hs1 hB2 (by simp [hb])).mono fun s' hs' =>
      Correct.of_env (fun r c => orderMKN_perm hT.p_pos hT.k_c_pos) (by simp [hb]) hs'
  · exact (sgemmN_call F nz ⟨m_r, n_r, kd, mc.kfix⟩ hT hk a.alpha a.beta hs1 hB2 (by simp [hb])).mono fun s' hs' =>
      Correct.of_env (fun r c => orderNKM_perm hT.p_pos hT.k_c_pos) (by simp [hb]) hs'

/-- **C42, without any assumption on the memory behind B.** The call gets through the choice of schedule and tiles, and
any execution of its program that ends normally is correct. -/
theorem C42_if_ends {mc : Machine} {cntx : Option (CCtx (Option ℝ))} {m_r n_r L2 L3 nc : Nat}
    (h : Ready mc (cntx.getD (query_cntx (ieee r rs nf) mc)) m_r n_r L2 L3 nc) (hk : mc.kfix.Fits m_r n_r)
    {a : Args α} (hpk : a.packedA = false ∧ a.packedB = false) (hp : 0 < a.p) (ht : TilesOK m_r n_r L2 a)
    (hb : nz a.beta = false) {s : State α} (hs : CallOK s a.M a.N a.K) (hctx : cntx = none → s.size .Ctx = none) :
    ∃ prog cx', publicCall r rs nf nz mc cntx a = .ok (prog, cx') ∧ Ready mc cx' m_r n_r L2 L3 nc ∧
      ∀ s', Exec F prog s (.ok s') → Correct F cntx.isNone s s' a.M a.N a.K := by
  obtain ⟨prog, cx', kd, m_c, k_c, n_c, sch, e1, e2, hf, hT, hsch, -, hR⟩ :=
    api_reduce r rs nf nz h ⟨.A, 0⟩ ⟨.B, 0⟩ ⟨.C, 0⟩ hp ht
  refine ⟨_, cx', e1, hR, fun s' he => ends_ctx _ (fun e => hctx (by simpa using e)) (fun s1 w1 w2 he => ?_) he⟩
  have hs1 : CallOK s1 a.M a.N a.K := by
    cases e : cntx.isNone with
    | true => exact (w1 e).call hs
    | false => rw [w2 e]; exact hs
  rw [hpk.1, hpk.2] at e2
  rcases hsch with rfl | rfl | rfl
  · exact Correct.of_env (orderKMN_perm hT.k_c_pos) rfl
      ((sgemmK_call F nz ⟨m_r, n_r, kd, mc.kfix⟩ hT hf a.alpha a.beta hs1).of_exec e2 he)
  · have hB := sgemmM_needs F nz ⟨m_r, n_r, kd, mc.kfix⟩ hT a.alpha a.beta hs1 e2 he
    exact Correct.of_env (fun r c => orderMKN_perm hT.p_pos hT.k_c_pos) (by simp [hb])
      ((sgemmM_call F nz ⟨m_r, n_r, kd, mc.kfix⟩ hT hk a.alpha a.beta hs1 hB (by simp [hb])).of_exec e2 he)
  · have hB := sgemmN_needs F nz ⟨m_r, n_r, kd, mc.kfix⟩ hT a.alpha a.beta hs1 e2 he
    exact Correct.of_env (fun r c => orderNKM_perm hT.p_pos hT.k_c_pos) (by simp [hb])
      ((sgemmN_call F nz ⟨m_r, n_r, kd, mc.kfix⟩ hT hk a.alpha a.beta hs1 hB (by simp [hb])).of_exec e2 he)

/-- **C42 (K-first).** With the K-first schedule asked for, no condition on B beyond the caller's obligations,
on `beta`, or on the compiled-in kernel. -/
theorem C42_kfirst {mc : Machine} {cntx : Option (CCtx (Option ℝ))} {m_r n_r L2 L3 nc : Nat}
    (h : Ready mc (cntx.getD (query_cntx (ieee r rs nf) mc)) m_r n_r L2 L3 nc)
    {a : Args α} (hpk : a.packedA = false ∧ a.packedB = false) (hp : 0 < a.p) (ht : TilesOK m_r n_r L2 a)
    (hsch : a.sch = .KMN) {s : State α} (hs : CallOK s a.M a.N a.K) (hctx : cntx = none → s.size .Ctx = none) :
    ∃ prog cx', publicCall r rs nf nz mc cntx a = .ok (prog, cx') ∧ Ready mc cx' m_r n_r L2 L3 nc ∧
      Computes F (some prog) s (fun s' => Correct F cntx.isNone s s' a.M a.N a.K) := by
  obtain ⟨prog, cx', kd, m_c, k_c, n_c, sch, e1, e2, hf, hT, -, hsch', hR⟩ :=
    api_reduce r rs nf nz h ⟨.A, 0⟩ ⟨.B, 0⟩ ⟨.C, 0⟩ hp ht
  have : sch = .KMN := by rw [hsch' (by rw [hsch]; simp), hsch]
  subst this
  refine ⟨_, cx', e1, hR, computes_ctx _ (fun e => hctx (by simpa using e)) fun s1 w1 w2 => ?_⟩
  have hs1 : CallOK s1 a.M a.N a.K := by
    cases e : cntx.isNone with
    | true => exact (w1 e).call hs
    | false => rw [w2 e]; exact hs
  rw [hpk.1, hpk.2] at e2
  rw [← e2]
  exact (sgemmK_call F nz ⟨m_r, n_r, kd, mc.kfix⟩ hT hf a.alpha a.beta hs1).mono fun s' hs' =>
    Correct.of_env (orderKMN_perm hT.k_c_pos) rfl hs'

end

/-! ### Concrete machines -/

/-- A Haswell machine: 256 KB L2, 20 MB L3, 4 cores, kernels generated up to 20 x 96. -/
def haswellMachine : Machine := ⟨archHaswell, 20, 96, ⟨8, 6, 2⟩, 262144, 20971520, 4⟩

theorem haswellMachine_ok : MachineOK haswellMachine 262144 20971520 4 :=
  ⟨Or.inl rfl, by decide, by decide, rfl, rfl, rfl, rfl, by norm_num, by norm_num, by norm_num, by norm_num⟩

/-- An ARM machine: 1 MB L2, no L3, 4 cores. -/
def armMachine : Machine := ⟨archArmv8, 20, 84, ⟨4, 8, 3⟩, 1048576, 0, 4⟩

theorem armMachine_ok : MachineOK armMachine 1048576 0 4 :=
  ⟨Or.inr rfl, by decide, by decide, rfl, rfl, rfl, rfl, by norm_num, by norm_num, by norm_num, by norm_num⟩

section
variable (r : Rounding 53) (rs : Rounding 24) (nf : Option ℝ → Option ℝ → Bool)

/-- NULL context, everything automatic, ragged M, N a multiple of 16. -/
example := C42_default_partial (exact Int) r rs nf (· != 0) (cntx := none) (haswellMachine_ok.query (ieee r rs nf))
  haswellMachine_ok.kfix_fits (a := { M := 1003, N := 48, K := 77, p := 4, alpha := 1, beta := 0 }) ⟨rfl, rfl⟩ (by decide)
  (.auto (by decide) (by decide) (Or.inl rfl)) (by simp) (demo_ok 1003 48 77) (Or.inl (by decide)) (fun _ => rfl)

/-- Ragged N, nothing behind B. That such a call can end normally: `C42_kfirst`, `C10_mfirst_ends_iff`. -/
example := C42_if_ends (exact Int) r rs nf (· != 0) (cntx := none) (haswellMachine_ok.query (ieee r rs nf))
  haswellMachine_ok.kfix_fits (a := { M := 1003, N := 47, K := 77, p := 4, alpha := 1, beta := 0 }) ⟨rfl, rfl⟩ (by decide)
  (.auto (by decide) (by decide) (Or.inl rfl)) (by simp) (demo_ok 1003 47 77) (fun _ => rfl)

/-- Given context, K-first, ragged everywhere. -/
example := C42_kfirst (exact Int) r rs nf (· != 0) (cntx := some _) (armMachine_ok.query (ieee r rs nf))
  (a := { M := 1003, N := 47, K := 77, p := 4, alpha := 1, beta := 0, sch := .KMN }) ⟨rfl, rfl⟩ (by decide)
  (.auto (by decide) (by decide) (Or.inl rfl)) rfl (demo_ok 1003 47 77) (by simp)

/-- After `update_mr_nr(cntx, 10, 32)`, with user tiles. -/
example := C42_kfirst (exact Int) r rs nf (· != 0)
  (cntx := some (update_mr_nr haswellMachine (query_cntx (ieee r rs nf) haswellMachine) 10 32))
  ((haswellMachine_ok.query (ieee r rs nf)).update (m_r' := 10) (n_r' := 32) (by decide) (by decide) (by norm_num))
  (a := { M := 1003, N := 47, K := 77, p := 4, alpha := 1, beta := 0, sch := .KMN, mcu := 30, kcu := 7, ncu := 64 }) ⟨rfl, rfl⟩
  (by decide) (.user (by decide) (by decide) (by decide) (by decide) (by decide)) rfl (demo_ok 1003 47 77) (by simp)

/-- The schedule an automatic call ends up with. -/
theorem dims_sch {cx : CCtx (Option ℝ)} {mr nr L2 L3 nc : Nat} (ok : CacheOK cx mr nr L2 L3 nc)
    (big : 8 * (mr * (mr + 2 * nr)) ≤ L2) (big3 : 8 * (mr * mr * (nc * (2 + nc))) ≤ L3) (M N K p : Nat) (hp : 0 < p)
    {mcu kcu ncu : Int} {d : CacheDims} {cx' : CCtx (Option ℝ)}
    (hd : get_cache_dims (ieee r rs nf) cx M N K p .NA ((ieee r rs nf).ofInt 4) mcu kcu ncu = .ok (d, cx')) :
    ∃ (c : Nat) (alpha : ℝ), mr ≤ c ∧ c ≤ 2 ^ 14 ∧ 1 / 2 ^ 20 ≤ alpha ∧ alpha ≤ 2 ^ 20 ∧
      d.sch = derive_schedule (ieee r rs nf) { cx with alpha_n := some alpha } M N K p c := by
  obtain ⟨t, e, c, ht, h2, h3, hc, hd1, hge, hle, hT, hE, hlo, hcM⟩ := dims_values r rs nf ok big M p hp
  have mpos := ok.mr_pos
  have he : mr ≤ e := hlo mr (dvd_refl _) big3
  set T := t - t % mr with hTd
  have eT : r.rnd ((T : ℕ) : ℝ) = T := r.nat T (by omega)
  have eE : r.rnd ((e : ℕ) : ℝ) = e := r.nat e (by omega)
  have T1 : (1 : ℝ) ≤ T := by exact_mod_cast (show 1 ≤ T by omega)
  have T2 : (T : ℝ) ≤ 16384 := by exact_mod_cast (show T ≤ 16384 by omega)
  have E1 : (1 : ℝ) ≤ e := by exact_mod_cast (show 1 ≤ e by omega)
  have E2 : (e : ℝ) ≤ 16384 := by exact_mod_cast (show e ≤ 16384 by omega)
  have q1 : (1 : ℝ) / 16384 ≤ e / T := div_le_div₀ (by linarith) E1 (by linarith) T2
  have q2 : (e : ℝ) / T ≤ 16384 := by rw [div_le_iff₀ (by linarith)]; nlinarith
  have q0 : (0 : ℝ) < e / T := by linarith
  have err := r.err (e / T) (by rw [abs_of_pos q0]; exact le_trans (by norm_num) q1)
    (by rw [abs_of_pos q0]; exact q2.trans (by norm_num))
  rw [abs_of_pos q0] at err
  have err1 := abs_le.1 err
  have small : (e : ℝ) / T / 2 ^ 53 ≤ e / T / 2 := by apply div_le_div_of_nonneg_left q0.le <;> norm_num
  have hal : (ieee r rs nf).div ((ieee r rs nf).ofInt (e : ℤ)) ((ieee r rs nf).ofInt ((T : ℕ) : ℤ)) =
      some (r.rnd (e / T)) := by
    simp only [ieee, Option.bind_some, Int.cast_natCast, eT, eE, if_neg (show (T : ℝ) ≠ 0 by linarith)]
  refine ⟨c, r.rnd (e / T), hge, by omega, by norm_num at q1 ⊢; linarith [err1.1], by norm_num; linarith [err1.2], ?_⟩
  unfold get_cache_dims at hd
  rw [h2, h3] at hd
  simp only [bind, Except.bind] at hd
  rw [hc] at hd
  simp only [if_true, hal] at hd
  generalize derive_schedule (ieee r rs nf) { cx with alpha_n := some (r.rnd (e / T)) } M N K p c = s at hd
  split at hd
  · cases hd; rfl
  · cases s <;> simp only at hd
    · split at hd
      · cases hd
      · split at hd <;> cases hd; rfl
    · split at hd
      · cases hd
      · split at hd <;> cases hd; rfl
    · split at hd
      · cases hd
      · split at hd
        · cases hd
        · split at hd <;> cases hd; rfl
    · cases hd

theorem Ready.sizes {D : Type _} {mc : Machine} {cx : CCtx D} {m_r n_r L2 L3 nc : Nat} (h : Ready mc cx m_r n_r L2 L3 nc) :
    6 ≤ m_r ∧ 12 ≤ n_r := by
  have pos : 0 < mc.arch.fact_m ∧ 0 < mc.arch.fact_n ∧ 6 ≤ mc.arch.sm ∧ 12 ≤ mc.arch.sn := by
    rcases h.arch with e | e <;> rw [e] <;> decide
  have h1 := h.gen_m
  have h2 := h.gen_n
  rw [cfor_eq _ _ _ pos.1] at h1
  rw [cfor_eq _ _ _ pos.2.1] at h2
  obtain ⟨i, -, rfl⟩ := mem_map.1 h1
  obtain ⟨j, -, rfl⟩ := mem_map.1 h2
  omega

/-- **C42 does not hold** for a B of exactly its size: with two or more threads, on every machine whose L3 is large enough
for the cores, the default call on `2 x 2` times `2 x 1` operands chooses the M-first schedule and reads beyond B. No
execution ends normally. -/
theorem C42_default_refuted {α : Type _} (F : Arith α) (nz : α → Bool) {mc : Machine} {cntx : Option (CCtx (Option ℝ))}
    {m_r n_r L2 L3 nc : Nat} (h : Ready mc (cntx.getD (query_cntx (ieee r rs nf) mc)) m_r n_r L2 L3 nc)
    (big : 8 * (m_r * (m_r + 2 * n_r)) ≤ L2) (big3 : 8 * (m_r * m_r * (nc * (2 + nc))) ≤ L3)
    {p : Nat} (hp : 2 ≤ p) (hp' : p ≤ 2 ^ 15) (alpha beta : α) :
    ∃ prog cx', publicCall r rs nf nz mc cntx { M := 2, N := 1, K := 2, p := p, alpha := alpha, beta := beta } =
        .ok (prog, cx') ∧
      ∀ s : State α, CallOK s 2 1 2 → s.size .B = some (2 * 1) → Exec F prog s .ub ∧ ∀ s', ¬ Exec F prog s (.ok s') := by
  obtain ⟨prog, cx', kd, m_c, k_c, n_c, sch, d, hd, rfl, e1, e2, hf, hT, -, -, -⟩ :=
    api_reduce_dims r rs nf nz h ⟨.A, 0⟩ ⟨.B, 0⟩ ⟨.C, 0⟩ (a := { M := 2, N := 1, K := 2, p := p, alpha := alpha, beta := beta })
      (show 0 < p by omega) (.auto hp' big (Or.inl rfl))
  obtain ⟨c, al, hc, hc', hal, hal', hs⟩ := dims_sch r rs nf h.cache big big3 2 1 2 p (by omega) hd
  have sz := h.sizes
  have h6 : 3 * 2 ≤ p * c := Nat.le_trans (by norm_num) (Nat.mul_le_mul hp (sz.1.trans hc))
  have hsm := C24_rounded_small r rs nf { cntx.getD (query_cntx (ieee r rs nf) mc) with alpha_n := some al } (alpha := al) rfl
    hal hal' 2 1 2 p c (by omega) (by omega) hp' (by omega) (by norm_num) (by norm_num) h6 (by norm_num) (by norm_num)
  rw [hsm] at hs
  rw [hs] at e2
  have hneed : 2 * 1 < bNeed 1 2 p n_r k_c n_c := by
    by_contra hcon
    have := (bNeed_le_iff (N := 1) (K := 2) (p := p) (k_c := k_c) hT.n_r_pos hT.n_dvd).1 (by omega)
    have h1 : cdiv 1 n_r * n_r = n_r := by
      rw [show cdiv 1 n_r = 1 by unfold cdiv; rw [show 1 + n_r - 1 = n_r by omega]; exact Nat.div_self (by omega), Nat.one_mul]
    have h2 : lastRows 2 p k_c ≤ 1 := by
      unfold lastRows
      have hpk : 2 ≤ p * k_c := Nat.le_trans hp (Nat.le_mul_of_pos_right _ hT.k_c_pos)
      rcases Nat.lt_or_ge 2 (p * k_c) with hlt | hge
      · have c1 : cdiv 2 p = 1 := by
          unfold cdiv
          exact Nat.div_eq_of_lt_le (by omega) (by omega)
        rw [Nat.mod_eq_of_lt hlt, c1]
        decide
      · rw [show p * k_c = 2 by omega]
        simp
    rw [h1] at this
    omega
  have key : ∀ s : State α, CallOK s 2 1 2 → s.size .B = some (2 * 1) → ∀ s', ¬ Exec F prog s (.ok s') := fun s hs hB s' =>
    sgemmM_overread F nz ⟨m_r, n_r, kd, mc.kfix⟩ hT alpha beta hs hB hneed e2 s'
  refine ⟨_, cx', e1, fun s hs hB => ?_⟩
  have hno : ∀ s', ¬ Exec F ((if cntx.isNone then [Item.malloc .Ctx 1] else []) ++ prog) s (.ok s') := by
    intro s' he
    cases e : cntx.isNone with
    | false => rw [e] at he; exact key s hs hB s' he
    | true =>
      rw [e] at he
      cases he with
      | next _ _ _ s1 _ h1 h2 =>
        have w : WithCtx s s1 := by
          cases h1 with
          | malloc _ _ _ m' _ hm => exact ⟨fun l hl => ⟨hm l hl, by simp [hl]⟩, rfl⟩
        exact key s1 (w.call hs) (by rw [w.size]; simpa using hB) s' h2
  exact ⟨ub_of_no_ok _ hno, hno⟩

example := C42_default_refuted r rs nf (exact Int) (· != 0) (cntx := none) (haswellMachine_ok.query (ieee r rs nf))
  (by decide) (by decide) (p := 4) (by decide) (by decide) 1 0

/-! ### C35: histories that do run -/

/-- **C35 (histories run).** From a context fit for use, every finite sequence of calls with automatic or valid
user tile sizes, in any mixture of sizes, thread counts and schedules, runs through the choice of schedule and tiles,
and the context afterwards is again fit for use: the hypothesis of `C35_history_independent` is met. -/
theorem C35_histories_run {α : Type _} (nz : α → Bool) {mc : Machine} (A B C : Loc) {m_r n_r L2 L3 nc : Nat}
    (calls : List (Args α)) (hc : ∀ a ∈ calls, 0 < a.p ∧ TilesOK m_r n_r L2 a) (cx : CCtx (Option ℝ))
    (h : Ready mc cx m_r n_r L2 L3 nc) :
    ∃ cx', history (ieee r rs nf) nz mc A B C cx calls = .ok cx' ∧ Ready mc cx' m_r n_r L2 L3 nc := by
  induction calls generalizing cx with
  | nil => exact ⟨cx, rfl, h⟩
  | cons a as ih =>
    have ha := hc a (by simp)
    obtain ⟨prog, cx1, -, -, -, -, -, e, -, -, -, -, -, h1⟩ :=
      api_reduce r rs nf nz (cntx := some cx) h A B C ha.1 ha.2
    obtain ⟨cx', e', h'⟩ := ih (fun b hb => hc b (by simp [hb])) cx1 h1
    refine ⟨cx', ?_, h'⟩
    unfold history at e' ⊢
    rw [List.foldlM_cons, e]
    exact e'

/-- Three calls of different sizes, thread counts and schedules. -/
example := C35_histories_run r rs nf (fun x : Int => x != 0) ⟨.A, 0⟩ ⟨.B, 0⟩ ⟨.C, 0⟩
  [{ M := 1003, N := 48, K := 77, p := 4, alpha := 1, beta := 0 },
   { M := 5, N := 7, K := 2000, p := 2, alpha := 1, beta := 1, sch := .NKM },
   { M := 60, N := 64, K := 9, p := 3, alpha := 1, beta := 0, mcu := 30, kcu := 7, ncu := 64 }]
  (by
    intro a ha
    simp only [mem_cons, not_mem_nil, or_false] at ha
    rcases ha with rfl | rfl | rfl
    · exact ⟨by decide, .auto (by decide) (by decide) (Or.inl rfl)⟩
    · exact ⟨by decide, .auto (by decide) (by decide) (Or.inl rfl)⟩
    · exact ⟨by decide, .user (by decide) (by decide) (by decide) (by decide) (by decide)⟩)
  _ (haswellMachine_ok.query (ieee r rs nf))

/-! ### C22 -/

/-- **C22, what holds.** Complete user tile sizes that are multiples of the register tile give a correct product,
with any schedule. Missing: other positive sizes, see `C22_mcu_refuted`, `C22_ncu_refuted`. -/
theorem C22_user_tiles_partial {α : Type _} (F : Arith α) (nz : α → Bool) {mc : Machine} {cntx : Option (CCtx (Option ℝ))}
    {m_r n_r L2 L3 nc : Nat}
    (h : Ready mc (cntx.getD (query_cntx (ieee r rs nf) mc)) m_r n_r L2 L3 nc) (hk : mc.kfix.Fits m_r n_r)
    {a : Args α} (hpk : a.packedA = false ∧ a.packedB = false) (hp : 0 < a.p)
    (hm : 0 < a.mcu) (hkc : 0 < a.kcu) (hn : 0 < a.ncu) (dm : m_r ∣ a.mcu) (dn : n_r ∣ a.ncu)
    (hb : nz a.beta = false) {s : State α} (hs : CallOK s a.M a.N a.K)
    (hB : a.sch = .KMN ∨ n_r ∣ a.N ∨ Holds s .B 1 (a.K * a.N + (n_r - 1))) (hctx : cntx = none → s.size .Ctx = none) :
    ∃ prog cx', publicCall r rs nf nz mc cntx a = .ok (prog, cx') ∧
      Computes F (some prog) s (fun s' => Correct F cntx.isNone s s' a.M a.N a.K) := by
  have ht : TilesOK m_r n_r L2 a := .user hm hkc hn dm dn
  rcases hB with hB | hB
  · obtain ⟨prog, cx', h1, -, h2⟩ := C42_kfirst F r rs nf nz h hpk hp ht hB hs hctx
    exact ⟨prog, cx', h1, h2⟩
  · obtain ⟨prog, cx', h1, -, h2⟩ := C42_default_partial F r rs nf nz h hk hpk hp ht hb hs hB hctx
    exact ⟨prog, cx', h1, h2⟩

example := C22_user_tiles_partial r rs nf (exact Int) (· != 0) (cntx := none) (haswellMachine_ok.query (ieee r rs nf))
  haswellMachine_ok.kfix_fits
  (a := { M := 1003, N := 48, K := 77, p := 4, alpha := 1, beta := 0, mcu := 30, kcu := 7, ncu := 64 }) ⟨rfl, rfl⟩ (by decide)
  (by decide) (by decide) (by decide) (by decide) (by decide) (by simp) (demo_ok 1003 48 77) (Or.inr (Or.inl (by decide)))
  (fun _ => rfl)

/-- Positive user tiles, whatever they are, reach the product unchanged. -/
theorem api_user {mc : Machine} {cx : CCtx (Option ℝ)} {v : Cntx} {L2 L3 nc : Nat} (ok : CacheOK cx v.m_r v.n_r L2 L3 nc)
    (hv : ∀ y, ({ cx with alpha_n := y } : CCtx (Option ℝ)).view mc = .ok v)
    (nz : Int → Bool) {a : Args Int} (hp : 0 < a.p) (hm : 0 < a.mcu) (hkc : 0 < a.kcu) (hn : 0 < a.ncu) (hs : a.sch ≠ .NA)
    {prog : Prog} (e : cake_sgemm nz v ⟨.A, 0⟩ ⟨.B, 0⟩ ⟨.C, 0⟩ a.M a.N a.K a.p a.packedA a.packedB a.alpha a.beta
      a.mcu a.kcu a.ncu a.sch = some prog) :
    ∃ cx', publicCall r rs nf nz mc (some cx) a = .ok (prog, cx') := by
  obtain ⟨d, cx', hd, e1, e2, e3⟩ := dims_user r rs nf ok a.M a.N a.K a.p hp a.sch hm hkc hn
  obtain ⟨hs1, -, hcx⟩ := (get_cache_dims_noExit _ _ _ _ _ _ _ _ _ _ _).of_ok hd
  refine ⟨cx', ?_⟩
  simp only [publicCall]
  unfold sgemm_api
  simp only [bind, Except.bind, Option.getD_some]
  rw [hd]
  simp only
  have hv' : cx'.view mc = .ok v := by
    have := hv cx'.alpha_n
    rwa [show ({ cx with alpha_n := cx'.alpha_n } : CCtx (Option ℝ)) = cx' from hcx] at this
  rw [hv']
  simp only
  rw [if_neg (by rw [e1, e2, e3]; omega), e1, e2, e3, hs1 hs]
  simp only [Int.toNat_natCast]
  rw [e]
  rfl

/-- **C22 does not hold:** `m_c = 7` with the 6 x 16 register tile. `7 x 1` times `1 x 16`, K-first, one thread: every
run writes outside the packed A buffer. -/
theorem C22_mcu_refuted : ∃ prog cx',
    publicCall r rs nf (· != 0) haswellMachine (some (query_cntx (ieee r rs nf) haswellMachine))
      { M := 7, N := 16, K := 1, p := 1, alpha := 1, beta := 0, sch := .KMN, mcu := 7, kcu := 1, ncu := 16 } = .ok (prog, cx') ∧
    CallOK (demo 7 16 1) 7 16 1 ∧ Exec (exact Int) prog (demo 7 16 1) .ub ∧
    ∀ s', ¬ Exec (exact Int) prog (demo 7 16 1) (.ok s') := by
  obtain ⟨cx', h⟩ := api_user r rs nf (mc := haswellMachine) (v := haswell)
    (haswellMachine_ok.query (ieee r rs nf)).cache (fun y => rfl) (· != 0)
    (a := { M := 7, N := 16, K := 1, p := 1, alpha := 1, beta := 0, sch := .KMN, mcu := 7, kcu := 1, ncu := 16 })
    (by decide) (by decide) (by decide) (by decide) (by decide) rfl
  have hno := escapes_no_ok (F := exact Int) (s := demo 7 16 1)
    (prog := ((cake_sgemm (fun b : Int => b != 0) haswell ⟨.A, 0⟩ ⟨.B, 0⟩ ⟨.C, 0⟩ 7 16 1 1 false false 1 0 7 1 16 .KMN).get rfl))
    (by decide +kernel)
  exact ⟨_, cx', h, demo_ok 7 16 1, ub_of_no_ok _ hno, hno⟩

/-- **C22 does not hold:** `n_c = 17`. `6 x 1` times `1 x 17`: every run writes outside the packed B buffer. -/
theorem C22_ncu_refuted : ∃ prog cx',
    publicCall r rs nf (· != 0) haswellMachine (some (query_cntx (ieee r rs nf) haswellMachine))
      { M := 6, N := 17, K := 1, p := 1, alpha := 1, beta := 0, sch := .KMN, mcu := 6, kcu := 1, ncu := 17 } = .ok (prog, cx') ∧
    CallOK (demo 6 17 1) 6 17 1 ∧ Exec (exact Int) prog (demo 6 17 1) .ub ∧
    ∀ s', ¬ Exec (exact Int) prog (demo 6 17 1) (.ok s') := by
  obtain ⟨cx', h⟩ := api_user r rs nf (mc := haswellMachine) (v := haswell)
    (haswellMachine_ok.query (ieee r rs nf)).cache (fun y => rfl) (· != 0)
    (a := { M := 6, N := 17, K := 1, p := 1, alpha := 1, beta := 0, sch := .KMN, mcu := 6, kcu := 1, ncu := 17 })
    (by decide) (by decide) (by decide) (by decide) (by decide) rfl
  have hno := escapes_no_ok (F := exact Int) (s := demo 6 17 1)
    (prog := ((cake_sgemm (fun b : Int => b != 0) haswell ⟨.A, 0⟩ ⟨.B, 0⟩ ⟨.C, 0⟩ 6 17 1 1 false false 1 0 6 1 17 .KMN).get rfl))
    (by decide +kernel)
  exact ⟨_, cx', h, demo_ok 6 17 1, ub_of_no_ok _ hno, hno⟩

/-! ### C28 -/

/-- **C28, K-first.** After `update_mr_nr` with any generated kernel size the K-first product is correct. Missing: the
M-first and N-first schedules, which are wrong then (`C28_mfirst_refuted`, `C28_nfirst_refuted`). -/
theorem C28_kfirst_partial {α : Type _} (F : Arith α) (nz : α → Bool) {mc : Machine} {cx : CCtx (Option ℝ)}
    {m_r n_r L2 L3 nc : Nat} (h : Ready mc cx m_r n_r L2 L3 nc) {m_r' n_r' : Nat}
    (hm : m_r' ∈ cfor mc.arch.sm (mc.m_lim + 1) mc.arch.fact_m)
    (hn : n_r' ∈ cfor mc.arch.sn (mc.n_lim + 1) mc.arch.fact_n) (hn' : n_r' ≤ 2 ^ 10)
    {a : Args α} (hpk : a.packedA = false ∧ a.packedB = false) (hp : 0 < a.p) (ht : TilesOK m_r' n_r' L2 a)
    (hsch : a.sch = .KMN) {s : State α} (hs : CallOK s a.M a.N a.K) :
    ∃ prog cx', publicCall r rs nf nz mc (some (update_mr_nr mc cx m_r' n_r')) a = .ok (prog, cx') ∧
      Computes F (some prog) s (fun s' => Correct F false s s' a.M a.N a.K) := by
  obtain ⟨prog, cx', h1, -, h2⟩ := C42_kfirst F r rs nf nz (cntx := some (update_mr_nr mc cx m_r' n_r'))
    (h.update hm hn hn') hpk hp ht hsch hs (by simp)
  exact ⟨prog, cx', h1, h2⟩

example := C28_kfirst_partial r rs nf (exact Int) (· != 0) (haswellMachine_ok.query (ieee r rs nf)) (m_r' := 12) (n_r' := 48)
  (by decide) (by decide) (by norm_num) (a := { M := 1003, N := 47, K := 77, p := 4, alpha := 1, beta := 0, sch := .KMN }) ⟨rfl, rfl⟩
  (by decide) (.auto (by decide) (by decide) (Or.inl rfl)) rfl (demo_ok 1003 47 77)

/-- A caller's state with A and B all ones and C zero. -/
def ones (M N K : Nat) : State Int :=
  { demoC M N K with mem := fun l => match l.buf with | .A => 1 | .B => 1 | _ => 0 }

theorem ones_ok (M N K : Nat) : CallOK (ones M N K) M N K :=
  ⟨⟨⟨_, rfl, Nat.le_refl _⟩, fun _ _ => rfl⟩, ⟨⟨_, rfl, Nat.le_refl _⟩, fun _ _ => rfl⟩,
    ⟨_, rfl, Nat.le_refl _⟩, fun b h1 h2 h3 _ => by cases b <;> first | rfl | contradiction⟩

theorem not_product_of_zero {prog : Prog} {zs : List Loc} (hreg : ∀ z ∈ zs, ∀ t, z.buf ≠ .reg t)
    (hk : prog.all (itemKeeps zs) = true) (hz : Zeros (exact Int) zs (ones 8 16 1)) (hC : ⟨.C, 96⟩ ∈ zs) (s' : State Int)
    (h : Exec (exact Int) prog (ones 8 16 1) (.ok s')) (hsz : s'.size .C ≠ none) :
    ¬ IsProduct (exact Int) (ones 8 16 1) s' 8 16 1 (fun _ _ => 0) := by
  intro hp
  have h1 := hp.exact (r := 6) (c := 0) (by decide) (by decide)
  have h2 := zeros_exec hreg hk hz h _ hC hsz
  have h3 : entry s' .C 16 6 0 = 0 := h2
  rw [h3] at h1
  simp [entry, ones] at h1

theorem keepsC {prog : Prog} {F : Arith Int} {s s' : State Int} (h : Exec F prog s (.ok s')) (hs : s.size .C ≠ none)
    (hf : prog.all (fun i => match i with | .free .C => false | _ => true) = true) : s'.size .C ≠ none := by
  induction prog generalizing s with
  | nil => cases h; exact hs
  | cons i is ih =>
    simp only [all_cons, Bool.and_eq_true] at hf
    cases h with
    | next _ _ _ s1 _ h1 h2 =>
      refine ih h2 ?_ hf.2
      rw [h1.size]
      cases i with
      | par => exact hs
      | free b =>
        have : b ≠ .C := by rintro rfl; simp at hf
        simp only [sizeAfter]
        rw [if_neg (Ne.symm this)]; exact hs
      | memalign b n => simp only [sizeAfter]; split <;> simp_all
      | malloc b n => simp only [sizeAfter]; split <;> simp_all
      | calloc b n => simp only [sizeAfter]; split <;> simp_all

/-- The Haswell context after `update_mr_nr(cntx, 8, 16)`. -/
def haswell8 : Cntx := ⟨8, 16, ⟨8, 8, 2⟩, ⟨8, 6, 2⟩⟩

/-- **C28 (M-first) does not hold.** After `update_mr_nr(cntx, 8, 16)`, `8 x 1` times `1 x 16` with all entries 1: no run
leaves the product in C (row 6 stays zero), because the compiled-in 6 x 16 kernel is called. -/
theorem C28_mfirst_refuted : ∃ prog cx',
    publicCall r rs nf (· != 0) haswellMachine
      (some (update_mr_nr haswellMachine (query_cntx (ieee r rs nf) haswellMachine) 8 16))
      { M := 8, N := 16, K := 1, p := 1, alpha := 1, beta := 0, sch := .MKN, mcu := 8, kcu := 1, ncu := 16 } = .ok (prog, cx') ∧
    CallOK (ones 8 16 1) 8 16 1 ∧
    ∀ s', Exec (exact Int) prog (ones 8 16 1) (.ok s') →
      ¬ IsProduct (exact Int) (ones 8 16 1) s' 8 16 1 (fun _ _ => 0) := by
  obtain ⟨cx', h⟩ := api_user r rs nf (mc := haswellMachine) (v := haswell8)
    ((haswellMachine_ok.query (ieee r rs nf)).update (m_r' := 8) (n_r' := 16) (by decide) (by decide) (by norm_num)).cache
    (fun y => rfl) (· != 0)
    (a := { M := 8, N := 16, K := 1, p := 1, alpha := 1, beta := 0, sch := .MKN, mcu := 8, kcu := 1, ncu := 16 })
    (by decide) (by decide) (by decide) (by decide) (by decide)
    (prog := ((cake_sgemm (fun b : Int => b != 0) haswell8 ⟨.A, 0⟩ ⟨.B, 0⟩ ⟨.C, 0⟩ 8 16 1 1 false false 1 0 8 1 16 .MKN).get rfl))
    rfl
  refine ⟨_, cx', h, ones_ok 8 16 1, fun s' hs' => ?_⟩
  refine not_product_of_zero (zs := [⟨.C, 96⟩, ⟨.Cp, 96⟩]) (by simp) (by decide +kernel) ?_ (by simp) s' hs'
    (keepsC hs' (by simp [ones, demoC, demo]) (by decide +kernel))
  intro z hz hn
  rcases mem_cons.1 hz with rfl | hz
  · rfl
  · rcases mem_cons.1 hz with rfl | hz
    · exact absurd rfl hn
    · cases hz

/-- **C28 (N-first) does not hold**, in the same way. -/
theorem C28_nfirst_refuted : ∃ prog cx',
    publicCall r rs nf (· != 0) haswellMachine
      (some (update_mr_nr haswellMachine (query_cntx (ieee r rs nf) haswellMachine) 8 16))
      { M := 8, N := 16, K := 1, p := 1, alpha := 1, beta := 0, sch := .NKM, mcu := 8, kcu := 1, ncu := 16 } = .ok (prog, cx') ∧
    CallOK (ones 8 16 1) 8 16 1 ∧
    ∀ s', Exec (exact Int) prog (ones 8 16 1) (.ok s') →
      ¬ IsProduct (exact Int) (ones 8 16 1) s' 8 16 1 (fun _ _ => 0) := by
  obtain ⟨cx', h⟩ := api_user r rs nf (mc := haswellMachine) (v := haswell8)
    ((haswellMachine_ok.query (ieee r rs nf)).update (m_r' := 8) (n_r' := 16) (by decide) (by decide) (by norm_num)).cache
    (fun y => rfl) (· != 0)
    (a := { M := 8, N := 16, K := 1, p := 1, alpha := 1, beta := 0, sch := .NKM, mcu := 8, kcu := 1, ncu := 16 })
    (by decide) (by decide) (by decide) (by decide) (by decide)
    (prog := ((cake_sgemm (fun b : Int => b != 0) haswell8 ⟨.A, 0⟩ ⟨.B, 0⟩ ⟨.C, 0⟩ 8 16 1 1 false false 1 0 8 1 16 .NKM).get rfl))
    rfl
  refine ⟨_, cx', h, ones_ok 8 16 1, fun s' hs' => ?_⟩
  refine not_product_of_zero (zs := [⟨.C, 96⟩, ⟨.Cp, 96⟩]) (by simp) (by decide +kernel) ?_ (by simp) s' hs'
    (keepsC hs' (by simp [ones, demoC, demo]) (by decide +kernel))
  intro z hz hn
  rcases mem_cons.1 hz with rfl | hz
  · rfl
  · rcases mem_cons.1 hz with rfl | hz
    · exact absurd rfl hn
    · cases hz

/-! ### C34 with a NULL context -/

/-- The item neither allocates nor frees a context. -/
def noCtx : Item → Bool
  | .free .Ctx => false
  | .memalign .Ctx _ => false
  | .malloc .Ctx _ => false
  | .calloc .Ctx _ => false
  | _ => true

theorem noCtx_size {q : Prog} (hq : ∀ i ∈ q, noCtx i = true) {α : Type _} {F : Arith α} {s s' : State α}
    (h : Exec F q s (.ok s')) : s'.size .Ctx = s.size .Ctx := by
  induction q generalizing s with
  | nil => cases h; rfl
  | cons i is ih =>
    cases h with
    | next _ _ _ s1 _ h1 h2 =>
      rw [ih (fun i' hi => hq i' (mem_cons_of_mem _ hi)) h2, h1.size]
      have hi := hq i (mem_cons_self ..)
      cases i with
      | par => rfl
      | free b => simp only [sizeAfter]; rw [if_neg]; rintro rfl; cases hi
      | memalign b n => simp only [sizeAfter]; rw [if_neg]; rintro rfl; cases hi
      | malloc b n => simp only [sizeAfter]; rw [if_neg]; rintro rfl; cases hi
      | calloc b n => simp only [sizeAfter]; rw [if_neg]; rintro rfl; cases hi

theorem phases_noCtx {ph : List (List (List Op))} : ∀ i ∈ phases ph, noCtx i = true := by
  intro i hi
  obtain ⟨x, -, rfl⟩ := mem_map.1 hi
  rfl

theorem cake_sgemm_noCtx {α : Type _} {nz : α → Bool} {cx : Cntx} {A B C : Loc} {M N K p : Nat} {packedA packedB : Bool}
    {alpha beta : α} {m_c k_c n_c : Nat} {sch : Sched} {q : Prog}
    (h : cake_sgemm nz cx A B C M N K p packedA packedB alpha beta m_c k_c n_c sch = some q) : ∀ i ∈ q, noCtx i = true := by
  have app : ∀ {a b : Prog}, (∀ i ∈ a, noCtx i = true) → (∀ i ∈ b, noCtx i = true) → ∀ i ∈ a ++ b, noCtx i = true := by
    intro a b h1 h2 i hi
    exact (mem_append.1 hi).elim (h1 i) (h2 i)
  have ite' : ∀ {c : Prop} [Decidable c] {a b : Prog}, (∀ i ∈ a, noCtx i = true) → (∀ i ∈ b, noCtx i = true) →
      ∀ i ∈ (if c then a else b), noCtx i = true := by
    intro c _ a b h1 h2
    split <;> assumption
  have cons' : ∀ {a : Item} {b : Prog}, noCtx a = true → (∀ i ∈ b, noCtx i = true) → ∀ i ∈ a :: b, noCtx i = true := by
    intro a b h1 h2 i hi
    rcases mem_cons.1 hi with rfl | hi
    · exact h1
    · exact h2 i hi
  have nil' : ∀ i ∈ ([] : Prog), noCtx i = true := by simp
  have mp : ∀ {f : Nat → Item}, (∀ j, noCtx (f j) = true) → ∀ i ∈ (range p).map f, noCtx i = true := by
    intro f hf i hi
    obtain ⟨j, -, rfl⟩ := mem_map.1 hi
    exact hf j
  simp only [cake_sgemm, Option.bind_eq_bind, Option.bind_eq_some_iff, Option.some.injEq] at h
  obtain ⟨x, -, aSz, -, cSz, -, pa, -, pb, -, pc, -, uc, -, sc, -, rfl⟩ := h
  refine app (app (app (app (cons' rfl (cons' rfl (cons' rfl nil'))) (ite' nil' (cons' rfl phases_noCtx)))
    (ite' nil' (cons' rfl phases_noCtx))) (ite' ?_ ?_)) (app (app (ite' nil' (cons' rfl nil')) (ite' nil' (cons' rfl nil')))
    (cons' rfl nil'))
  · exact app (app (mp fun _ => rfl) phases_noCtx) (mp fun _ => rfl)
  · exact app (app (app (ite' (cons' rfl phases_noCtx) (cons' rfl nil')) phases_noCtx) phases_noCtx) (cons' rfl nil')

/-- **C34 does not hold for a NULL context.** Whatever the arguments and the machine, a call without a context that ends
normally leaves an object allocated that was not there before: the context. -/
theorem C34_null_context_leaks {α : Type _} (F : Arith α) (nz : α → Bool) (mc : Machine) (a : Args α) {prog : Prog}
    {cx' : CCtx (Option ℝ)} (h : publicCall r rs nf nz mc none a = .ok (prog, cx')) {s s' : State α}
    (he : Exec F prog s (.ok s')) : s.size .Ctx = none ∧ s'.size .Ctx = some 1 := by
  obtain ⟨q, hq, hpq⟩ : ∃ q, prog = Item.malloc .Ctx 1 :: q ∧ ∀ i ∈ q, noCtx i = true := by
    simp only [publicCall] at h
    unfold sgemm_api at h
    simp only [bind, Except.bind] at h
    split at h
    · cases h
    split at h
    · cases h
    split at h
    · cases h
    split at h
    · rename_i q hq
      cases h
      exact ⟨q, rfl, cake_sgemm_noCtx hq⟩
    · cases h
  subst hq
  cases he with
  | next _ _ _ s1 _ h1 h2 =>
    rw [noCtx_size hpq h2]
    cases h1 with
    | malloc _ _ _ m' hn hm => exact ⟨hn, by simp⟩

/-- There are such runs. -/
example : ∃ prog cx' s', publicCall r rs nf (· != 0) haswellMachine none
    { M := 1003, N := 48, K := 77, p := 4, alpha := 1, beta := 0 } = .ok (prog, cx') ∧
    Exec (exact Int) prog (demo 1003 48 77) (.ok s') ∧ s'.size .Ctx = some 1 := by
  obtain ⟨prog, cx', h, -, h'⟩ := C42_default_partial (exact Int) r rs nf (· != 0) (cntx := none)
    (haswellMachine_ok.query (ieee r rs nf)) haswellMachine_ok.kfix_fits
    (a := { M := 1003, N := 48, K := 77, p := 4, alpha := 1, beta := 0 }) ⟨rfl, rfl⟩ (by decide)
    (.auto (by decide) (by decide) (Or.inl rfl)) (by simp) (demo_ok 1003 48 77) (Or.inl (by decide)) (fun _ => rfl)
  obtain ⟨_, e, ⟨s', h1⟩, _⟩ := h'
  cases e
  exact ⟨prog, cx', s', h, h1, (C34_null_context_leaks r rs nf _ _ _ _ h h1).2⟩

end
end Cake
