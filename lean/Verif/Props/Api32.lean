/-
C67: the call with automatic tile sizes over 32-bit `int`, K-first schedule.
-/
import Verif.Proofs.Api32
import Verif.Props.Api
import Verif.Props.Checked

namespace Cake
open List

section
variable {α : Type} (F : Arith α) (nz : α → Bool)

/-- **C67, no wrong index.** Whatever the machine, the arguments and the floating-point operations: if the call over 32-bit `int`
is defined, it performs exactly the accesses of the call over unbounded integers and leaves the same context. -/
theorem C67_same {D : Type _} (fl : Flt D) {mc : Machine} {cntx : Option (CCtx D)} {A B C : Loc} {a : Args α}
    {x : Prog × CCtx D} (h : sgemm_kfirst_api32 fl mc cntx A B C a = .ok x) (hs : a.sch = .KMN) :
    sgemm_api fl nz mc cntx A B C a = .ok x := by
  revert x
  show Refines _ _
  unfold sgemm_kfirst_api32 sgemm_api
  rw [hs]
  refine .bind_ok (ref_get_cache_dims _ _ _ _ _ _ _ _ _ _ _) ?_
  rintro ⟨d, cx'⟩ hd
  have hsch : d.sch = .KMN := ((get_cache_dims_noExit _ _ _ _ _ _ _ _ _ _ _).of_ok hd).1 (by simp)
  refine .bind .rfl fun v => .ite .rfl ?_
  intro x hx
  split at hx
  · rename_i prog hp
    show (match cake_sgemm nz v A B C _ _ _ _ _ _ _ _ _ _ _ d.sch with
      | some prog => _
      | none => _) = _
    rw [hsch, C36_run32_same nz v A B C _ _ a.alpha a.beta hp]
    exact hx
  · simp at hx

variable (r : Rounding 53) (rs : Rounding 24) (nf : Option ℝ → Option ℝ → Bool)

/-- The end of the call: the program with the allocation of a context in front, if one was needed. -/
def finish32 {D : Type _} (null : Bool) (cx' : CCtx D) : Option Prog → Except Fail (Prog × CCtx D)
  | some prog => .ok ((if null then [Item.malloc .Ctx 1] else []) ++ prog, cx')
  | none => .error .ub

/-- The call, given the tile sizes. -/
theorem api32_run {D : Type _} (fl : Flt D) {mc : Machine} {cntx : Option (CCtx D)} {A B C : Loc} {a : Args α} {d : CacheDims}
    {cx' : CCtx D} {v : Cntx}
    (hd : get_cache_dims32 fl (cntx.getD (query_cntx fl mc)) a.M a.N a.K a.p .KMN (fl.ofInt 4) a.mcu a.kcu a.ncu = .ok (d, cx'))
    (hv : cx'.view mc = .ok v) (hn : ¬ (d.m_c ≤ 0 ∨ d.k_c ≤ 0 ∨ d.n_c ≤ 0 ∨ a.p = 0))
    {m k n : Nat} (em : d.m_c.toNat = m) (ek : d.k_c.toNat = k) (en : d.n_c.toNat = n) :
    sgemm_kfirst_api32 fl mc cntx A B C a =
      finish32 cntx.isNone cx' (cake_sgemm32 v A B C a.M a.N a.K a.p a.packedA a.packedB m k n) := by
  subst em ek en
  have h1 : ∀ {β γ : Type _} {x : Except Fail β} {b : β} (f : β → Except Fail γ), x = .ok b → (x >>= f) = f b := by
    intro β γ x b f h; rw [h]; rfl
  unfold sgemm_kfirst_api32
  refine (h1 _ hd).trans ?_
  refine (h1 _ hv).trans ?_
  refine (if_neg hn).trans ?_
  generalize cake_sgemm32 v A B C a.M a.N a.K a.p a.packedA a.packedB _ _ _ = o
  cases o <;> rfl

/-- The call with automatic tile sizes comes down to the product with the tiles chosen. -/
theorem api32_reduce {mc : Machine} {cntx : Option (CCtx (Option ℝ))} {m_r n_r L2 L3 nc : Nat}
    (h : Ready mc (cntx.getD (query_cntx (ieee r rs nf) mc)) m_r n_r L2 L3 nc) (A B C : Loc)
    {a : Args α} (hp : 0 < a.p) (hp' : a.p ≤ 2 ^ 15) (l2 : 8 * (m_r * (m_r + 2 * n_r)) ≤ L2)
    (hu : a.mcu = 0 ∨ a.ncu = 0 ∨ a.kcu = 0) (hM : a.M < 2 ^ 31) :
    ∃ (kd : KDim) (d : CacheDims) (m_c n_c : Nat) (cx' : CCtx (Option ℝ)), get_cache_dims (ieee r rs nf) (cntx.getD (query_cntx (ieee r rs nf) mc)) a.M a.N a.K a.p .KMN
        ((ieee r rs nf).ofInt 4) a.mcu a.kcu a.ncu = .ok (d, cx') ∧ d.m_c = (m_c : ℤ) ∧ d.n_c = (n_c : ℤ) ∧
      TileOK a.p m_r n_r m_c m_c n_c ∧ kd.Fits m_r n_r ∧
      sgemm_kfirst_api32 (ieee r rs nf) mc cntx A B C a =
        finish32 cntx.isNone cx'
          (cake_sgemm32 ⟨m_r, n_r, kd, mc.kfix⟩ A B C a.M a.N a.K a.p a.packedA a.packedB m_c m_c n_c) := by
  obtain ⟨d, cx', hd, hv⟩ := C20_auto_tiles r rs nf h.cache l2 a.M a.N a.K a.p hp hp' .KMN a.mcu a.kcu a.ncu (by omega)
  obtain ⟨t, e, c, x, j', -, -, -, -, -, -, -, -, -, e1, e2, -⟩ :=
    dims_kmn r rs nf h.cache l2 a.M a.N a.K a.p hp hp' a.mcu a.kcu a.ncu (by omega) hd
  obtain ⟨hs1, hs2, hcx⟩ := (get_cache_dims_noExit _ _ _ _ _ _ _ _ _ _ _).of_ok hd
  obtain ⟨kd, hv', hf⟩ := (h.alpha hcx).view
  obtain ⟨⟨i, hi, hmi⟩, ⟨j, hj, hnj⟩, -⟩ := hv
  have pm := Nat.mul_pos hi h.cache.mr_pos
  have pn := Nat.mul_pos hj h.cache.nr_pos
  refine ⟨kd, d, i * m_r, j * n_r, cx', hd, hmi, hnj,
    ⟨hp, h.cache.mr_pos, h.cache.nr_pos, by omega, by omega, by omega, ⟨i, Nat.mul_comm _ _⟩, ⟨j, Nat.mul_comm _ _⟩⟩, hf, ?_⟩
  have hd' := dims32_eq r rs nf h.cache l2 (a.N : ℤ) (a.K : ℤ) hp hp' hM .KMN a.mcu a.kcu a.ncu
  rw [hd] at hd'
  exact api32_run (ieee r rs nf) (A := A) (B := B) (C := C) hd' hv' (by omega) (by omega) (by omega) (by omega)

/-- The tiles chosen are small. -/
theorem small32 {cx : CCtx (Option ℝ)} {mr nr L2 L3 nc : Nat} (ok : CacheOK cx mr nr L2 L3 nc) {a : Args α} (hp : 0 < a.p)
    (hp' : a.p ≤ 2 ^ 15) (hpn : a.p ≤ nc) (l2 : 8 * (mr * (mr + 2 * nr)) ≤ L2) (hu : a.mcu = 0 ∨ a.ncu = 0 ∨ a.kcu = 0)
    {d : CacheDims} {cx' : CCtx (Option ℝ)}
    (hd : get_cache_dims (ieee r rs nf) cx a.M a.N a.K a.p .KMN ((ieee r rs nf).ofInt 4) a.mcu a.kcu a.ncu = .ok (d, cx'))
    {m_c n_c : Nat} (em : d.m_c = (m_c : ℤ)) (en : d.n_c = (n_c : ℤ)) :
    a.p * m_c < 2 ^ 31 ∧ m_c * n_c < 2 ^ 31 ∧ m_c < 2 ^ 31 := by
  obtain ⟨m, n, em', -, en', b⟩ := dims_small r rs nf ok l2 a.M a.N a.K a.p hp hp' hpn a.mcu a.kcu a.ncu (by omega) hd
  rw [show m_c = m by omega, show n_c = n by omega]
  exact b

/-- **C67.** Tile sizes chosen by the library, K-first schedule, at most as many threads as cores: if A, B and C, padded to whole
register tiles, have fewer than `2^31` entries each, no `int` operation of the call is undefined, neither in the choice of
the tile sizes nor in packing, blocking and unpacking, and the call leaves the product in C and nothing else changed. Missing: the other two schedules. -/
theorem C67_auto_partial {mc : Machine} {cntx : Option (CCtx (Option ℝ))} {m_r n_r L2 L3 nc : Nat}
    (h : Ready mc (cntx.getD (query_cntx (ieee r rs nf) mc)) m_r n_r L2 L3 nc)
    {a : Args α} (hsch : a.sch = .KMN) (hpk : a.packedA = false ∧ a.packedB = false)
    (hp : 0 < a.p) (hp' : a.p ≤ 2 ^ 15) (hpn : a.p ≤ nc) (l2 : 8 * (m_r * (m_r + 2 * n_r)) ≤ L2)
    (hu : a.mcu = 0 ∨ a.ncu = 0 ∨ a.kcu = 0) (hN : 0 < a.N) (hK : 0 < a.K)
    (hA : cdiv a.M m_r * m_r * a.K < 2 ^ 31) (hB : a.K * (cdiv a.N n_r * n_r) < 2 ^ 31)
    (hC : cdiv a.M m_r * m_r * (cdiv a.N n_r * n_r) < 2 ^ 31)
    {s : State α} (hs : CallOK s a.M a.N a.K) (hctx : cntx = none → s.size .Ctx = none) :
    ∃ prog cx', sgemm_kfirst_api32 (ieee r rs nf) mc cntx ⟨.A, 0⟩ ⟨.B, 0⟩ ⟨.C, 0⟩ a = .ok (prog, cx') ∧
      Ready mc cx' m_r n_r L2 L3 nc ∧ Computes F (some prog) s (fun s' => Correct F cntx.isNone s s' a.M a.N a.K) := by
  have hM : a.M < 2 ^ 31 := by
    have h1 := cdiv_mul_ge a.M m_r h.cache.mr_pos
    have h2 : cdiv a.M m_r * m_r ≤ cdiv a.M m_r * m_r * a.K := Nat.le_mul_of_pos_right _ hK
    omega
  obtain ⟨kd, d, m_c, n_c, cx', hd, em, en, hT, hf, e⟩ := api32_reduce r rs nf h ⟨.A, 0⟩ ⟨.B, 0⟩ ⟨.C, 0⟩ hp hp' l2 hu hM
  obtain ⟨b1, b2, b3⟩ := small32 r rs nf h.cache hp hp' hpn l2 hu hd em en
  obtain ⟨prog, e32⟩ := (C36_run32_defined_iff (M := a.M) (N := a.N) (K := a.K) ⟨m_r, n_r, kd, mc.kfix⟩ hT ⟨.A, 0⟩ ⟨.B, 0⟩ ⟨.C, 0⟩ hN
    hK b3 hC).2 ⟨hA, hB, b1, b2⟩
  rw [hpk.1, hpk.2, e32] at e
  have e' := C67_same (fun _ => false) (ieee r rs nf) e hsch
  obtain ⟨prog', cx'', e1, hR, hc⟩ := C42_kfirst F r rs nf (fun _ => false) h hpk hp (.auto hp' l2 hu) hsch hs hctx
  rw [show publicCall r rs nf (fun _ => false) mc cntx a = _ from e'] at e1
  cases e1
  exact ⟨_, _, e, hR, hc⟩

/-- **C67, exactly.** With automatic tile sizes and at most as many threads as cores, a call with an M below `2^31` and a C whose
padded size is below `2^31` is defined over 32-bit `int` if and only if the padded sizes of A and B are below `2^31`. -/
theorem C67_defined_iff {mc : Machine} {cntx : Option (CCtx (Option ℝ))} {m_r n_r L2 L3 nc : Nat}
    (h : Ready mc (cntx.getD (query_cntx (ieee r rs nf) mc)) m_r n_r L2 L3 nc) (A B C : Loc)
    {a : Args α} (hpk : a.packedA = false ∧ a.packedB = false)
    (hp : 0 < a.p) (hp' : a.p ≤ 2 ^ 15) (hpn : a.p ≤ nc) (l2 : 8 * (m_r * (m_r + 2 * n_r)) ≤ L2)
    (hu : a.mcu = 0 ∨ a.ncu = 0 ∨ a.kcu = 0) (hN : 0 < a.N) (hK : 0 < a.K)
    (hC : cdiv a.M m_r * m_r * (cdiv a.N n_r * n_r) < 2 ^ 31) :
    (∃ x, sgemm_kfirst_api32 (ieee r rs nf) mc cntx A B C a = .ok x) ↔
      cdiv a.M m_r * m_r * a.K < 2 ^ 31 ∧ a.K * (cdiv a.N n_r * n_r) < 2 ^ 31 := by
  have hM : a.M < 2 ^ 31 := by
    have h1 := cdiv_mul_ge a.M m_r h.cache.mr_pos
    have h3 := cdiv_mul_ge a.N n_r h.cache.nr_pos
    have h2 : cdiv a.M m_r * m_r ≤ cdiv a.M m_r * m_r * (cdiv a.N n_r * n_r) := Nat.le_mul_of_pos_right _ (by omega)
    omega
  obtain ⟨kd, d, m_c, n_c, cx', hd, em, en, hT, hf, e⟩ := api32_reduce r rs nf h A B C hp hp' l2 hu hM
  obtain ⟨b1, b2, b3⟩ := small32 r rs nf h.cache hp hp' hpn l2 hu hd em en
  have key := C36_run32_defined_iff (M := a.M) (N := a.N) (K := a.K) ⟨m_r, n_r, kd, mc.kfix⟩ hT A B C hN hK b3 hC
  rw [hpk.1, hpk.2] at e
  rw [e]
  constructor
  · rintro ⟨x, hx⟩
    have : ∃ prog, cake_sgemm32 ⟨m_r, n_r, kd, mc.kfix⟩ A B C a.M a.N a.K a.p false false m_c m_c n_c = some prog := by
      generalize cake_sgemm32 _ A B C _ _ _ _ _ _ _ _ _ = o at hx
      cases o with
      | none => exact absurd hx (by simp [finish32])
      | some prog => exact ⟨prog, rfl⟩
    exact ⟨(key.1 this).1, (key.1 this).2.1⟩
  · rintro ⟨h1, h2⟩
    obtain ⟨prog, hprog⟩ := key.2 ⟨h1, h2, b1, b2⟩
    exact ⟨_, congrArg (finish32 cntx.isNone cx') hprog⟩

end

section
variable (r : Rounding 53) (rs : Rounding 24) (nf : Option ℝ → Option ℝ → Bool)

/-- NULL context, four threads on four cores, ragged everywhere, A with more than 10^9 entries. -/
example := C67_auto_partial (exact Int) r rs nf (cntx := none) (haswellMachine_ok.query (ieee r rs nf))
  (a := { M := 100003, N := 47, K := 11001, p := 4, alpha := 1, beta := 0, sch := .KMN }) rfl ⟨rfl, rfl⟩ (by decide) (by decide)
  (by decide) (by decide) (Or.inl rfl) (by decide) (by decide) (by decide) (by decide) (by decide) (demo_ok 100003 47 11001)
  (fun _ => rfl)

/-- The premise of `C67_same` is met by that call. -/
example {x : Prog × CCtx (Option ℝ)} (h : sgemm_kfirst_api32 (ieee r rs nf) haswellMachine none ⟨.A, 0⟩ ⟨.B, 0⟩ ⟨.C, 0⟩
    ({ M := 100003, N := 47, K := 11001, p := 4, alpha := 1, beta := 0, sch := .KMN } : Args Int) = .ok x) :=
  C67_same (· != 0) (ieee r rs nf) h rfl

/-- On the other side of the equivalence: B has `2^31` entries. -/
example (A B C : Loc) : ¬ ∃ x, sgemm_kfirst_api32 (ieee r rs nf) haswellMachine none A B C
    ({ M := 6, N := 65536, K := 32768, p := 1, alpha := 1, beta := 0, sch := .KMN } : Args Int) = .ok x := by
  rw [C67_defined_iff r rs nf (haswellMachine_ok.query (ieee r rs nf)) A B C ⟨rfl, rfl⟩ (by decide) (by decide) (by decide) (by decide)
    (Or.inl rfl) (by decide) (by decide) (by decide)]
  decide

/-- A server: 1 MB L2, 40 MB L3, 4 cores. -/
def serverMachine : Machine := { haswellMachine with L2 := 1048576, L3 := 41943040 }

theorem serverMachine_ok : MachineOK serverMachine 1048576 41943040 4 :=
  ⟨Or.inl rfl, by decide, by decide, rfl, rfl, rfl, rfl, by norm_num, by norm_num, by norm_num, by norm_num⟩

/-- **C67 is false for any number of threads**: the tile width grows with the number of threads, and with 20000 of them on this
machine the size `m_c*n_c` of a thread's block of C overflows, although the matrices are small enough (A and B have at most
`7 * 10^6` entries, C `1.1 * 10^8`). -/
theorem C67_threads_refuted (A B C : Loc) : ¬ ∃ x, sgemm_kfirst_api32 (ieee r rs nf) serverMachine none A B C
    ({ M := 6840000, N := 16, K := 1, p := 20000, alpha := 1, beta := 0, sch := .KMN } : Args Int) = .ok x := by
  rintro ⟨x, hx⟩
  have hR := serverMachine_ok.query (ieee r rs nf)
  obtain ⟨kd, d, m_c, n_c, cx', hd, em, en, hT, hf, e⟩ := api32_reduce r rs nf (cntx := none) hR A B C
    (a := ({ M := 6840000, N := 16, K := 1, p := 20000, alpha := 1, beta := 0, sch := .KMN } : Args Int))
    (by decide) (by decide) (by decide) (Or.inl rfl) (by decide)
  obtain ⟨t, e3, c, y, j, ht, -, hlo, hcM, hc, -, hyl, -, hj, e1, -, e2⟩ := dims_kmn r rs nf hR.cache (by decide) 6840000 16 1 20000
    (by norm_num) (by norm_num) 0 0 0 (by simp) hd
  have t346 : t = 346 := by
    have h1 : 8 * (t * (t + 2 * 16)) ≤ 1048576 := ht.1
    have h2 : 1048576 < 8 * ((t + 1) * (t + 1 + 2 * 16)) := ht.2
    rcases Nat.lt_trichotomy t 346 with h | h | h
    · have : (t + 1) * (t + 1 + 2 * 16) ≤ 346 * (346 + 2 * 16) := Nat.mul_le_mul (by omega) (by omega)
      omega
    · exact h
    · have : 347 * (347 + 2 * 16) ≤ t * (t + 2 * 16) := Nat.mul_le_mul (by omega) (by omega)
      omega
  subst t346
  have c342 : c = 342 := hcM (by decide)
  subst c342
  have he : 462 ≤ e3 := hlo 462 (by decide) (by decide)
  have hy : 20000 * 342 ≤ y := hyl (le_trans (by decide) he)
  have hj' : y < (j + 1) * 16 := hj
  have em' : m_c = 342 := by omega
  have en' : n_c = j * 16 := by
    have e2' : d.n_c = ((j * 16 : ℕ) : ℤ) := e2
    omega
  rw [e] at hx
  have : ∃ prog, cake_sgemm32 ⟨6, 16, kd, serverMachine.kfix⟩ A B C 6840000 16 1 20000 false false m_c m_c n_c = some prog := by
    generalize ho : cake_sgemm32 _ A B C _ _ _ _ _ _ _ _ _ = o at hx
    cases o with
    | none => exact absurd hx (by simp [finish32])
    | some prog => exact ⟨prog, ho⟩
  have key := (C36_run32_defined_iff ⟨6, 16, kd, serverMachine.kfix⟩ hT A B C (by decide) (by decide) (by omega) (show cdiv 6840000 6 * 6 * (cdiv 16 16 * 16) < 2 ^ 31 by decide)).1 this
  have := key.2.2.2
  rw [em', en'] at this
  omega

end
end Cake
