/-
C63 and C67 for `cake_sgemm_online`, with every `int` expression recorded where the code evaluates it.
-/
import Verif.Proofs.CheckedOn
import Verif.Props.Api32
import Verif.Props.OnlineApi

namespace Cake
open List

section
variable {α : Type} (F : Arith α) (cx : Cntx) {M N K p m_c k_c n_c : Nat}

/-- **C63, no wrong index.** If the online call over 32-bit `int` is defined, it performs exactly the accesses of the call over
unbounded integers. -/
theorem C63_online_run32_same (A B C : Loc) (packedA packedB : Bool) (alpha beta : α) {prog : Prog}
    (h : cake_sgemm_online32 cx A B C M N K p m_c k_c n_c = some prog) :
    cake_sgemm_online cx A B C M N K p packedA packedB alpha beta m_c k_c n_c = some prog := by
  rw [val_cake_sgemm_onlineW]
  unfold cake_sgemm_online32 W.run at h
  split at h
  · exact h
  · exact absurd h (by simp)

/-- **C63, exactly.** For operands whose own sizes fit an `int`, the online call over 32-bit `int` is defined if and only if M and
N rounded up to whole register tiles, `p*m_c` and the sizes of the three block buffers are below `2^31`. -/
theorem C63_online_run32_defined_iff (h : TileOK p cx.m_r cx.n_r m_c k_c n_c) (A B C : Loc) (hM : 0 < M)
    (hMK : M * K < 2 ^ 31) (hKN : K * N < 2 ^ 31) (hMN : M * N < 2 ^ 31) :
    (∃ prog, cake_sgemm_online32 cx A B C M N K p m_c k_c n_c = some prog) ↔
      cdiv M cx.m_r * cx.m_r < 2 ^ 31 ∧ cdiv N cx.n_r * cx.n_r < 2 ^ 31 ∧ p * m_c < 2 ^ 31 ∧
        m_c * k_c < 2 ^ 31 ∧ k_c * n_c < 2 ^ 31 ∧ m_c * n_c < 2 ^ 31 := by
  constructor
  · rintro ⟨prog, hp⟩
    have hok := ok_of_online32 cx h hp
    simp only [cake_sgemm_onlineW, W.ok_bind, W.ok_pure, W.ok_tasks, W.ok_ev, and_true, val_dimsKMNW] at hok
    obtain ⟨hd, ha, hb, hc, -⟩ := hok
    have a := (ha 0 (mem_range.2 h.p_pos)).1.lt
    have b := hb.lt
    have c := (hc 0 (mem_range.2 h.p_pos)).1.lt
    simp only [dimsKMNW, W.ok_bind, W.ok_pure, W.ok_ev, and_true] at hd
    obtain ⟨-, -, d1, -, -, -, -, -, -, -, -, -, -, -, -, -, d2, d3⟩ := hd
    rw [← padTo_eq h.m_r_pos h.S_dvd, ← padTo_eq h.n_r_pos h.n_dvd]
    have e1 : (mPaddedE M p cx.m_r m_c (cdiv (M % (p * m_c)) cx.m_r : Nat)).val = padTo M (p * m_c) cx.m_r := by
      simp only [mPaddedE, E.val_add, E.val_mul, E.val_div, E.val_lit, padTo]; ring
    have e2 : (nPaddedE N n_c (cdiv (N % n_c) cx.n_r * cx.n_r : Nat)).val = padTo N n_c cx.n_r := by
      simp only [nPaddedE, E.val_add, E.val_sub, E.val_mod, E.val_lit, padTo, sub_mod_eq]
    rw [← e1, ← e2]
    exact ⟨d2.lt, d3.lt, d1.2.1.lt, a, b, c⟩
  · rintro ⟨h1, h2, h3, h4, h5, h6⟩
    rw [← padTo_eq h.m_r_pos h.S_dvd] at h1
    rw [← padTo_eq h.n_r_pos h.n_dvd] at h2
    refine ⟨_, online32_of_ok cx (ok_cake_sgemm_onlineW cx h A B C ⟨h1, h2, ?_, ?_, h3, h6⟩ hMK hKN hMN h4 h5)⟩
    · exact Nat.lt_of_le_of_lt (Nat.le_mul_of_pos_left _ hM) hMK
    · exact Nat.lt_of_le_of_lt (Nat.le_mul_of_pos_left _ h.m_c_pos) h4

/-- **C63, what undefined means.** The online call over 32-bit `int` is undefined only by an overflow or a division by zero. -/
theorem C63_online_run32_undefined_iff (h : TileOK p cx.m_r cx.n_r m_c k_c n_c) (A B C : Loc) :
    cake_sgemm_online32 cx A B C M N K p m_c k_c n_c = none ↔
      ∃ e ∈ (cake_sgemm_onlineW cx A B C M N K p m_c k_c n_c).ints, e.eval32 = none := by
  unfold cake_sgemm_online32 W.run
  constructor
  · intro hn
    split at hn
    · exact absurd hn (by simp)
    · rename_i hv
      by_contra hne
      refine hv fun e he => E.eval32_of_fits (E.fits_of_eval32 (pos_cake_sgemm_onlineW cx h A B C e he)
        fun h0 => hne ⟨e, he, h0⟩)
  · rintro ⟨e, he, h0⟩
    refine if_neg fun hv => ?_
    rw [hv e he] at h0
    exact absurd h0 (by simp)

/-- **C63, the 32-bit online call computes the product**, if the elements that packing reads beyond A and B are readable. Missing from
the full statement: the sizes of the tiles, see `C63_online_run32_defined_iff`, and operands without room behind them (C11). -/
theorem C63_online_run32_product_partial (h : TileOK p cx.m_r cx.n_r m_c k_c n_c) (hk : cx.kmap.Fits cx.m_r cx.n_r)
    {s : State α} (hs : CallOK s M N K) (hsl : Slack s M N K cx.m_r cx.n_r) (hM : 0 < M)
    (hMK : M * K < 2 ^ 31) (hKN : K * N < 2 ^ 31) (hMN : M * N < 2 ^ 31)
    (h1 : cdiv M cx.m_r * cx.m_r < 2 ^ 31) (h2 : cdiv N cx.n_r * cx.n_r < 2 ^ 31) (h3 : p * m_c < 2 ^ 31)
    (h4 : m_c * k_c < 2 ^ 31) (h5 : k_c * n_c < 2 ^ 31) (h6 : m_c * n_c < 2 ^ 31) :
    Computes F (cake_sgemm_online32 cx ⟨.A, 0⟩ ⟨.B, 0⟩ ⟨.C, 0⟩ M N K p m_c k_c n_c) s
      (fun s' => IsProduct F s s' M N K (fun _ _ => F.zero)) := by
  obtain ⟨prog, e⟩ := (C63_online_run32_defined_iff cx h ⟨.A, 0⟩ ⟨.B, 0⟩ ⟨.C, 0⟩ hM hMK hKN hMN).2 ⟨h1, h2, h3, h4, h5, h6⟩
  rw [e, ← C63_online_run32_same cx _ _ _ false false F.zero F.zero e]
  exact C04_online_product F cx h hk false false F.zero F.zero hs hsl

example := C63_online_run32_product_partial (exact Int) haswell demo_tile haswell_fits (padded_ok 43 37 11 55 11 fun _ => 7)
  (padded_slack _ (by decide) (by decide)) (by decide) (by decide) (by decide) (by decide) (by decide) (by decide) (by decide)
  (by decide) (by decide) (by decide)

/-- A, B and C with a little more than `2^30`, and a little less than `2^31` entries: defined. -/
example (A B C : Loc) : ∃ prog, cake_sgemm_online32 haswell A B C 32768 65535 32767 8 96 96 768 = some prog :=
  (C63_online_run32_defined_iff haswell ⟨by decide, by decide, by decide, by decide, by decide, by decide, by decide, by decide⟩
    A B C (by decide) (by decide) (by decide) (by decide)).2 (by decide)

/-- **C63 fails with large tiles**: a `1 x 1` product with a tile of 49152 rows and 65536 columns overflows. -/
theorem C63_online_run32_refuted (A B C : Loc) : cake_sgemm_online32 haswell A B C 1 1 1 1 49152 1 65536 = none := by
  by_contra hne
  obtain ⟨prog, hp⟩ := Option.ne_none_iff_exists'.1 hne
  have := (C63_online_run32_defined_iff haswell (N := 1) (K := 1) (M := 1)
    ⟨by decide, by decide, by decide, by decide, by decide, by decide, by decide, by decide⟩ A B C (by decide) (by decide)
    (by decide) (by decide)).1 ⟨prog, hp⟩
  exact absurd this.2.2.2.2.2 (by decide)

example := (C63_online_run32_undefined_iff haswell (M := 1) (N := 1) (K := 1)
  ⟨by decide, by decide, by decide, by decide, by decide, by decide, by decide, by decide⟩ ⟨.A, 0⟩ ⟨.B, 0⟩ ⟨.C, 0⟩).1
  (C63_online_run32_refuted _ _ _)

end

/-! ### The call from its first line -/

section
variable {α : Type} (F : Arith α)

/-- **C67, no wrong index, online.** Whatever the machine, the arguments and the floating-point operations: if the online call over
32-bit `int` is defined, it performs exactly the accesses of the call over unbounded integers and leaves the same context. -/
theorem C67_online_same {D : Type _} (fl : Flt D) {mc : Machine} {cntx : Option (CCtx D)} {A B C : Loc} {a : Args α}
    {x : Prog × CCtx D} (h : sgemm_online_api32 fl mc cntx A B C a = .ok x) : sgemm_online_api fl mc cntx A B C a = .ok x := by
  revert x
  show Refines _ _
  unfold sgemm_online_api32 sgemm_online_api
  refine .bind (ref_get_cache_dims _ _ _ _ _ _ _ _ _ _ _) ?_
  rintro ⟨d, cx'⟩
  refine .bind .rfl fun v => .ite .rfl ?_
  intro x hx
  split at hx
  · rename_i prog hp
    show (match cake_sgemm_online v A B C a.M a.N a.K a.p a.packedA a.packedB a.alpha a.beta d.m_c.toNat d.k_c.toNat
        d.n_c.toNat with
      | some prog => (pure ((if cntx.isNone then [Item.malloc .Ctx 1] else []) ++ prog, cx') : Except Fail (Prog × CCtx D))
      | none => .error .exit) = _
    rw [C63_online_run32_same v A B C a.packedA a.packedB a.alpha a.beta hp]
    exact hx
  · simp at hx

variable (r : Rounding 53) (rs : Rounding 24) (nf : Option ℝ → Option ℝ → Bool)

/-- **C67, online, exactly.** Tile sizes chosen by the library, at most as many threads as cores, any schedule asked for (it is
ignored), operands whose own sizes are below `2^31`: the call is defined over 32-bit `int` if and only if M and N, rounded up to
whole register tiles, are below `2^31`. -/
theorem C67_online_defined_iff {mc : Machine} {cntx : Option (CCtx (Option ℝ))} {m_r n_r L2 L3 nc : Nat}
    (h : Ready mc (cntx.getD (query_cntx (ieee r rs nf) mc)) m_r n_r L2 L3 nc) (A B C : Loc)
    {a : Args α} (hp : 0 < a.p) (hp' : a.p ≤ 2 ^ 15) (hpn : a.p ≤ nc) (l2 : 8 * (m_r * (m_r + 2 * n_r)) ≤ L2)
    (hu : a.mcu = 0 ∨ a.ncu = 0 ∨ a.kcu = 0) (hM : 0 < a.M) (hMi : a.M < 2 ^ 31)
    (hMK : a.M * a.K < 2 ^ 31) (hKN : a.K * a.N < 2 ^ 31) (hMN : a.M * a.N < 2 ^ 31) :
    (∃ x, sgemm_online_api32 (ieee r rs nf) mc cntx A B C a = .ok x) ↔
      cdiv a.M m_r * m_r < 2 ^ 31 ∧ cdiv a.N n_r * n_r < 2 ^ 31 := by
  obtain ⟨d, cx', hd, hv⟩ := C20_auto_tiles r rs nf h.cache l2 a.M a.N a.K a.p hp hp' .KMN a.mcu a.kcu a.ncu (by omega)
  obtain ⟨t, e, c, x, j', -, -, -, -, hc, -, -, -, -, e1, e2, -⟩ :=
    dims_kmn r rs nf h.cache l2 a.M a.N a.K a.p hp hp' a.mcu a.kcu a.ncu (by omega) hd
  obtain ⟨hs1, hs2, hcx⟩ := (get_cache_dims_noExit _ _ _ _ _ _ _ _ _ _ _).of_ok hd
  obtain ⟨kd, hv', hf⟩ := (h.alpha hcx).view
  obtain ⟨⟨i, hi, hmi⟩, ⟨j, hj, hnj⟩, -⟩ := hv
  have pm := Nat.mul_pos hi h.cache.mr_pos
  have pn := Nat.mul_pos hj h.cache.nr_pos
  obtain ⟨b1, b2, -⟩ := small32 r rs nf h.cache hp hp' hpn l2 hu hd hmi hnj
  have hT : TileOK a.p m_r n_r (i * m_r) (i * m_r) (j * n_r) :=
    ⟨hp, h.cache.mr_pos, h.cache.nr_pos, by omega, by omega, by omega, ⟨i, Nat.mul_comm _ _⟩, ⟨j, Nat.mul_comm _ _⟩⟩
  have hd' := dims32_eq r rs nf h.cache l2 (a.N : ℤ) (a.K : ℤ) hp hp' hMi .KMN a.mcu a.kcu a.ncu
  rw [hd] at hd'
  have b3 : i * m_r * (i * m_r) < 2 ^ 31 := by
    have : i * m_r ≤ 2 ^ 14 := by omega
    have := Nat.mul_le_mul this this
    omega
  have key := C63_online_run32_defined_iff (M := a.M) (N := a.N) (K := a.K) ⟨m_r, n_r, kd, mc.kfix⟩ hT A B C hM hMK hKN hMN
  have run : ∀ {β γ : Type _} {x : Except Fail β} {b : β} (f : β → Except Fail γ), x = .ok b → (x >>= f) = f b := by
    intro β γ x b f h; rw [h]; rfl
  have e3 : sgemm_online_api32 (ieee r rs nf) mc cntx A B C a = finish32 cntx.isNone cx'
      (cake_sgemm_online32 ⟨m_r, n_r, kd, mc.kfix⟩ A B C a.M a.N a.K a.p (i * m_r) (i * m_r) (j * n_r)) := by
    unfold sgemm_online_api32
    refine (run _ hd').trans ?_
    refine (run _ hv').trans ?_
    refine (if_neg (by omega)).trans ?_
    have t1 : d.m_c.toNat = i * m_r := by omega
    have t2 : d.k_c.toNat = i * m_r := by omega
    have t3 : d.n_c.toNat = j * n_r := by omega
    rw [t1, t2, t3]
    generalize cake_sgemm_online32 _ A B C a.M a.N a.K a.p _ _ _ = o
    cases o <;> rfl
  rw [e3]
  have fin : ∀ {o : Option Prog}, (∃ x, finish32 cntx.isNone cx' o = .ok x) ↔ ∃ prog, o = some prog := by
    intro o
    cases o <;> simp [finish32]
  rw [fin]
  exact key.trans ⟨fun k => ⟨k.1, k.2.1⟩, fun k => ⟨k.1, k.2, b1, b3, b2, b2⟩⟩

/-- **C67, online.** The online call from its first line, tile sizes chosen by the library, at most as many threads as cores, operands
whose own sizes, and whose numbers of rows and columns rounded up to whole register tiles, are below `2^31`: no `int` operation is
undefined, neither in the choice of the tile sizes nor in the product, and the call computes the product and changes nothing
else, if the elements that packing reads beyond A and B are readable. Missing: operands without room behind them (C58). -/
theorem C67_online_product_partial {mc : Machine} {cntx : Option (CCtx (Option ℝ))} {m_r n_r L2 L3 nc : Nat}
    (h : Ready mc (cntx.getD (query_cntx (ieee r rs nf) mc)) m_r n_r L2 L3 nc)
    {a : Args α} (hp : 0 < a.p) (hp' : a.p ≤ 2 ^ 15) (hpn : a.p ≤ nc) (l2 : 8 * (m_r * (m_r + 2 * n_r)) ≤ L2)
    (hu : a.mcu = 0 ∨ a.ncu = 0 ∨ a.kcu = 0) (hM : 0 < a.M)
    (hMK : a.M * a.K < 2 ^ 31) (hKN : a.K * a.N < 2 ^ 31) (hMN : a.M * a.N < 2 ^ 31)
    (hMp : cdiv a.M m_r * m_r < 2 ^ 31) (hNp : cdiv a.N n_r * n_r < 2 ^ 31)
    {s : State α} (hs : CallOK s a.M a.N a.K) (hsl : Slack s a.M a.N a.K m_r n_r) (hctx : cntx = none → s.size .Ctx = none) :
    ∃ prog cx', sgemm_online_api32 (ieee r rs nf) mc cntx ⟨.A, 0⟩ ⟨.B, 0⟩ ⟨.C, 0⟩ a = .ok (prog, cx') ∧
      Ready mc cx' m_r n_r L2 L3 nc ∧ Computes F (some prog) s (fun s' => Correct F cntx.isNone s s' a.M a.N a.K) := by
  have hMi := Nat.lt_of_le_of_lt (cdiv_mul_ge a.M m_r h.cache.mr_pos) hMp
  obtain ⟨⟨prog, cx'⟩, e⟩ := (C67_online_defined_iff r rs nf h ⟨.A, 0⟩ ⟨.B, 0⟩ ⟨.C, 0⟩ hp hp' hpn l2 hu hM hMi hMK hKN hMN).2
    ⟨hMp, hNp⟩
  have e' := C67_online_same (ieee r rs nf) e
  obtain ⟨prog', cx'', e1, hR, hc⟩ := C58_online_default_partial r rs nf F h hp (.auto hp' l2 hu) hs hsl hctx
  rw [show onlineCall r rs nf mc cntx a = _ from e'] at e1
  cases e1
  exact ⟨_, _, e, hR, hc⟩

/-- NULL context, ragged sizes. -/
example := C67_online_product_partial (exact Int) r rs nf (cntx := none) (haswellMachine_ok.query (ieee r rs nf))
  (a := { M := 100003, N := 169, K := 11001, p := 4, alpha := 1, beta := 0, sch := .NKM }) (by decide) (by decide) (by decide)
  (by decide) (Or.inl rfl) (by decide) (by decide) (by decide) (by decide) (by decide) (by decide)
  (padded_ok 100003 169 11001 55005 7 fun _ => 7) (padded_slack _ (by decide) (by decide)) (fun _ => rfl)

/-- A B of one row and `2^31 - 1` columns does not fit: N is rounded up to `2^31`. -/
example (A B C : Loc) : ¬ ∃ x, sgemm_online_api32 (ieee r rs nf) haswellMachine none A B C
    ({ M := 1, N := 2 ^ 31 - 1, K := 1, p := 4, alpha := 1, beta := 0 } : Args Int) = .ok x := by
  rw [C67_online_defined_iff r rs nf (haswellMachine_ok.query (ieee r rs nf)) A B C (by decide) (by decide) (by decide)
    (by decide) (Or.inl rfl) (by decide) (by decide) (by decide) (by decide) (by decide)]
  decide

end
end Cake
