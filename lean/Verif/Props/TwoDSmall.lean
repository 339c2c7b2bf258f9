/-
Properties of `cake_sgemm_2d_small`: C06, and its share of C07, C08, C11 and C34.
-/
import Verif.Proofs.TwoDSmallNeeds
import Verif.Props.TwoD

namespace Cake
open List

section
variable {α : Type _} (F : Arith α) (cx : Cntx)
variable {M N K p pn kc_max : Nat}

/-- `cake_sgemm_2d_small` on plain operands, `pn` columns of cores, L1 bound `kc_max` on the depth. -/
abbrev callS (cx : Cntx) (M N K p : Nat) (packedA packedB : Bool) (alpha beta : α) (pn kc_max : Nat) :
    Option Prog :=
  cake_sgemm_2d_small cx ⟨.A, 0⟩ ⟨.B, 0⟩ ⟨.C, 0⟩ M N K p packedA packedB alpha beta pn kc_max

/-- The grid has no core too many and the strips of all cores end inside the padded operands. -/
def GridFits (M N p m_r n_r pn : Nat) : Prop :=
  pn ∣ p ∧ SmallFits (roundUp M m_r) (p / pn) m_r M ∧ SmallFits (roundUp N n_r) pn n_r N

abbrev AfterS (s : State α) (M N K : Nat) : State α → Prop :=
  Env s s.size (cX M N) (fun mem init => ∀ r c, r < M → c < N →
    init ⟨.C, r * N + c⟩ = true ∧ mem ⟨.C, r * N + c⟩ =
      dotFrom F (entry s .A K r) (fun k => entry s .B N k c) (range K) F.zero)

theorem small_call (hm : 0 < cx.m_r) (hn : 0 < cx.n_r) (hk : cx.kfix.Fits cx.m_r cx.n_r)
    (hpn : 0 < pn) (hp : pn ≤ p) (hkm : 0 < kc_max) (hg : 0 < K → GridFits M N p cx.m_r cx.n_r pn)
    (packedA packedB : Bool) (alpha beta : α) {s : State α} (hs : CallOK s M N K)
    (hsl : Slack s M N K cx.m_r cx.n_r) :
    Computes F (callS cx M N K p packedA packedB alpha beta pn kc_max) s (AfterS F s M N K) := by
  obtain ⟨prog, e⟩ := small_is_some (cx := cx) (M := M) (N := N) (K := K) hm packedA packedB alpha beta hpn hp hkm
  unfold callS
  have hr := hsl.readable hm hn (Nat.dvd_refl _) (Nat.dvd_refl _)
  rw [roundUp_eq hm (Nat.dvd_refl _), roundUp_eq hn (Nat.dvd_refl _), ← roundUpC_eq hm, ← roundUpC_eq hn] at hr
  unfold GridFits at hg
  rw [← roundUpC_eq hm, ← roundUpC_eq hn] at hg
  have t := sgemm_small_triple (S := True) (F := F) hm hn hpn hp rfl rfl hk hkm packedA packedB alpha beta e hs
    (fun _ => hr) (fun _ => hg)
  rw [e]
  exact t.computes rfl trivial

theorem small_ends (hm : 0 < cx.m_r) (hn : 0 < cx.n_r) (hk : cx.kfix.Fits cx.m_r cx.n_r)
    (packedA packedB : Bool) (alpha beta : α) {s : State α} (hs : CallOK s M N K) {prog : Prog}
    (e : callS cx M N K p packedA packedB alpha beta pn kc_max = some prog)
    {s' : State α} (he : Exec F prog s (.ok s')) : AfterS F s M N K s' := by
  obtain ⟨hpn, hp, hkm⟩ := small_some hm packedA packedB alpha beta e
  exact (sgemm_small_triple (S := False) (F := F) hm hn hpn hp rfl rfl hk hkm packedA packedB alpha beta e hs
    (fun h => h.elim) (fun h => h.elim)).never he

/-- **C06.** Every execution that ends normally, i.e. that never leaves the objects it may access, has in each
`C[r][c]` the dot product of row `r` of A and column `c` of B, summed from 0 in ascending order, and has
changed nothing else. No assumption on the grid, on the L1 bound or on what is behind the operands; M, N
and K can be 0. -/
theorem C06_small_if_ends (hm : 0 < cx.m_r) (hn : 0 < cx.n_r) (hk : cx.kfix.Fits cx.m_r cx.n_r)
    (packedA packedB : Bool) (alpha beta : α) {s : State α} (hs : CallOK s M N K) {prog : Prog}
    (e : callS cx M N K p packedA packedB alpha beta pn kc_max = some prog)
    {s' : State α} (he : Exec F prog s (.ok s')) :
    (∀ r c, r < M → c < N → entry s' .C N r c =
      dotFrom F (entry s .A K r) (fun k => entry s .B N k c) (range K) F.zero) ∧
    IsProduct F s s' M N K (fun _ _ => F.zero) ∧ OnlyC s s' M N := by
  have h := small_ends F cx hm hn hk packedA packedB alpha beta hs e he
  exact ⟨fun r c hr hc => (h.fact r c hr hc).2,
    fun r c hr hc => ⟨(h.fact r c hr hc).1, _, Perm.refl _, (h.fact r c hr hc).2⟩, ⟨h.keep, h.size⟩⟩

/-- **C06, executions that are safe exist.** With a grid that fits and readable slack behind the operands all
executions end normally with the product in C. -/
theorem C06_small_product (hm : 0 < cx.m_r) (hn : 0 < cx.n_r) (hk : cx.kfix.Fits cx.m_r cx.n_r)
    (hpn : 0 < pn) (hp : pn ≤ p) (hkm : 0 < kc_max) (hg : 0 < K → GridFits M N p cx.m_r cx.n_r pn)
    (packedA packedB : Bool) (alpha beta : α) {s : State α} (hs : CallOK s M N K)
    (hsl : Slack s M N K cx.m_r cx.n_r) :
    Computes F (callS cx M N K p packedA packedB alpha beta pn kc_max) s
      (fun s' => IsProduct F s s' M N K (fun _ _ => F.zero)) :=
  (small_call F cx hm hn hk hpn hp hkm hg packedA packedB alpha beta hs hsl).mono fun _ hs' r c hr hc =>
    ⟨(hs'.fact r c hr hc).1, _, Perm.refl _, (hs'.fact r c hr hc).2⟩

/-- Four cores as 2 x 2 on a 40 x 50 matrix: tiles of 24 x 48, the last row of cores has 18 rows, the last
column 16 columns. -/
theorem demo_gridFits : GridFits 40 50 4 haswell.m_r haswell.n_r 2 := by
  refine ⟨by decide, ⟨by decide, by decide⟩, ⟨by decide, by decide⟩⟩

theorem demo_small (lane : Nat → Int) :
    Computes (exact Int) (callS haswell 40 50 11 4 false false 1 0 2 5) (padded 40 50 11 22 14 lane)
      (fun s' => IsProduct (exact Int) (padded 40 50 11 22 14 lane) s' 40 50 11 (fun _ _ => 0)) :=
  C06_small_product (exact Int) haswell (by decide) (by decide) haswell_fits_fix (by decide) (by decide) (by decide)
    (fun _ => demo_gridFits) false false 1 0 (padded_ok ..) (padded_slack lane (by decide) (by decide))

/-- The hypotheses of `C06_small_if_ends` and `C07_small_deterministic` can be met. -/
example : ∃ prog s', callS haswell 40 50 11 4 false false 1 (0 : Int) 2 5 = some prog ∧
    Exec (exact Int) prog (padded 40 50 11 22 14 fun _ => 7) (.ok s') := by
  obtain ⟨prog, h1, ⟨s', h2⟩, _⟩ := demo_small fun _ => 7
  exact ⟨prog, s', h1, h2⟩

/-- **C06, exact arithmetic.** Over a commutative semiring the result is the matrix product. -/
theorem C06_small_exact {R : Type _} [CommSemiring R] (hm : 0 < cx.m_r) (hn : 0 < cx.n_r)
    (hk : cx.kfix.Fits cx.m_r cx.n_r) (packedA packedB : Bool) (alpha beta : R) {s : State R} (hs : CallOK s M N K)
    {prog : Prog} (e : callS cx M N K p packedA packedB alpha beta pn kc_max = some prog)
    {s' : State R} (he : Exec (exact R) prog s (.ok s')) {r c : Nat} (hr : r < M) (hc : c < N) :
    entry s' .C N r c = ∑ k ∈ Finset.range K, entry s .A K r k * entry s .B N k c := by
  rw [(C06_small_if_ends (exact R) cx hm hn hk packedA packedB alpha beta hs e he).2.1.exact hr hc]
  exact zero_add _

/-- **C07 (small 2-D).** Two executions that end normally leave the same contents in every object of the
caller. -/
theorem C07_small_deterministic (hm : 0 < cx.m_r) (hn : 0 < cx.n_r) (hk : cx.kfix.Fits cx.m_r cx.n_r)
    (packedA packedB : Bool) (alpha beta : α) {s : State α} (hs : CallOK s M N K) {prog : Prog}
    (e : callS cx M N K p packedA packedB alpha beta pn kc_max = some prog)
    {s1 s2 : State α} (h1 : Exec F prog s (.ok s1)) (h2 : Exec F prog s (.ok s2)) :
    s1.size = s2.size ∧ ∀ l : Loc, s.size l.buf ≠ none → s1.mem l = s2.mem l ∧ s1.init l = s2.init l := by
  have e1 := small_ends F cx hm hn hk packedA packedB alpha beta hs e h1
  have e2 := small_ends F cx hm hn hk packedA packedB alpha beta hs e h2
  exact ⟨by rw [e1.size, e2.size], fun l hl => Env.agree e1 e2
    (fun r c hr hc => by rw [(e1.fact r c hr hc).2, (e2.fact r c hr hc).2])
    (fun r c hr hc => by rw [(e1.fact r c hr hc).1, (e2.fact r c hr hc).1]) l hl⟩

/-- **C08 and C34 (small 2-D).** Nothing of the caller's changes but the `M*N` elements of C, and at the end
exactly the objects allocated at the call are allocated. -/
theorem C08_small_onlyC (hm : 0 < cx.m_r) (hn : 0 < cx.n_r) (hk : cx.kfix.Fits cx.m_r cx.n_r)
    (packedA packedB : Bool) (alpha beta : α) {s : State α} (hs : CallOK s M N K) {prog : Prog}
    (e : callS cx M N K p packedA packedB alpha beta pn kc_max = some prog)
    {s' : State α} (he : Exec F prog s (.ok s')) : OnlyC s s' M N :=
  (C06_small_if_ends F cx hm hn hk packedA packedB alpha beta hs e he).2.2

theorem C34_small_no_leak (hm : 0 < cx.m_r) (hn : 0 < cx.n_r) (hk : cx.kfix.Fits cx.m_r cx.n_r)
    (packedA packedB : Bool) (alpha beta : α) {s : State α} (hs : CallOK s M N K) {prog : Prog}
    (e : callS cx M N K p packedA packedB alpha beta pn kc_max = some prog)
    {s' : State α} (he : Exec F prog s (.ok s')) : s'.size = s.size :=
  (small_ends F cx hm hn hk packedA packedB alpha beta hs e he).size

/-- The hypotheses of the last three theorems are met by every execution of `demo_small`. -/
example : ∃ prog, callS haswell 40 50 11 4 false false 1 (0 : Int) 2 5 = some prog ∧
    ∃ s', Exec (exact Int) prog (padded 40 50 11 22 14 fun _ => 7) (.ok s') ∧
      s'.size = (padded 40 50 11 22 14 fun _ => 7).size := by
  obtain ⟨prog, h1, ⟨s', h2⟩, _⟩ := demo_small fun _ => 7
  exact ⟨prog, h1, s', h2, C34_small_no_leak (exact Int) haswell (by decide) (by decide) haswell_fits_fix false false
    1 0 (padded_ok ..) h1 h2⟩

/-- **C11 (small 2-D), what holds.** With a grid that fits and readable slack no execution has undefined
behaviour. Missing with respect to C11: everything else, see `C11_small_iff` and `C11_small_refuted`. -/
theorem C11_small_safe_partial (hm : 0 < cx.m_r) (hn : 0 < cx.n_r) (hk : cx.kfix.Fits cx.m_r cx.n_r)
    (hpn : 0 < pn) (hp : pn ≤ p) (hkm : 0 < kc_max) (hg : 0 < K → GridFits M N p cx.m_r cx.n_r pn)
    (packedA packedB : Bool) (alpha beta : α) {s : State α} (hs : CallOK s M N K)
    (hsl : Slack s M N K cx.m_r cx.n_r) :
    ∃ prog, callS cx M N K p packedA packedB alpha beta pn kc_max = some prog ∧ ∀ out, Exec F prog s out →
      out ≠ .ub := by
  obtain ⟨prog, e, _, hall⟩ := small_call F cx hm hn hk hpn hp hkm hg packedA packedB alpha beta hs hsl
  refine ⟨prog, e, fun out ho e => ?_⟩
  rcases hall out ho with e' | ⟨s', e', _⟩ <;> rw [e] at e' <;> cases e'

example := C11_small_safe_partial (exact Int) haswell (kc_max := 5) (by decide) (by decide) haswell_fits_fix (by decide)
  (by decide) (by decide) (fun _ => demo_gridFits) false false 1 0 (padded_ok 40 50 11 22 14 fun _ => 7)
  (padded_slack _ (by decide) (by decide))

/-- **C11 (small 2-D), exactly when it fails.** With objects of exactly `M*K` and `K*N` elements and all sizes
positive the call can end normally if and only if `m_r` divides M, `n_r` divides N, `pn` divides p, and in
both directions the tile (the even share rounded up, always at least one element) divides the operand
size *not* evenly and leaves the last core a non-negative share. -/
theorem C11_small_iff (hm : 0 < cx.m_r) (hn : 0 < cx.n_r) (hk : cx.kfix.Fits cx.m_r cx.n_r)
    (packedA packedB : Bool) (alpha beta : α) {s : State α} (hs : CallOK s M N K)
    (hA : s.size .A = some (M * K)) (hB : s.size .B = some (K * N)) (hM : 0 < M) (hN : 0 < N) (hK : 0 < K)
    {prog : Prog} (e : callS cx M N K p packedA packedB alpha beta pn kc_max = some prog) :
    (∃ s', Exec F prog s (.ok s')) ↔ cx.m_r ∣ M ∧ cx.n_r ∣ N ∧ pn ∣ p ∧
      SmallFits M (p / pn) cx.m_r M ∧ SmallFits N pn cx.n_r N := by
  obtain ⟨hpn, hp, hkm⟩ := small_some hm packedA packedB alpha beta e
  constructor
  · rintro ⟨s', he⟩
    obtain ⟨k_c, na, nb, hk0, e'⟩ := small_prog hm hn hpn hp rfl rfl hkm packedA packedB alpha beta e
    rw [e'] at he
    obtain ⟨h1, h2, h3, h4⟩ := small_needs hm hn hpn hp hk hk0 hK he
    have hf := small_fits hm hn hpn hp hM hN h1 h2
    have d1 : cx.m_r ∣ M := by
      by_contra hd
      obtain ⟨n, hn, hlt⟩ := h3 M 0 (by rw [roundUpC_eq hm]; exact roundUp_lt hm hd) hK
      rw [hA] at hn; cases hn; simp at hlt
    have d2 : cx.n_r ∣ N := by
      by_contra hd
      obtain ⟨n, hn, hlt⟩ := h4 (K - 1) N (by omega) (by rw [roundUpC_eq hn]; exact roundUp_lt hn hd)
      rw [hB] at hn; cases hn
      simp only at hlt
      have : (K - 1) * N + N = K * N := by
        rw [← Nat.succ_mul]; congr 1; omega
      omega
    rw [roundUpC_eq hm, roundUpC_eq hn, roundUp_of_dvd hm d1, roundUp_of_dvd hn d2] at hf
    exact ⟨d1, d2, hf⟩
  · rintro ⟨d1, d2, hf⟩
    obtain ⟨prog', e', hex, _⟩ := small_call F cx hm hn hk hpn hp hkm (fun _ => by
      unfold GridFits; rw [roundUp_of_dvd hm d1, roundUp_of_dvd hn d2]; exact hf) packedA packedB alpha beta hs
      (Slack.of_dvd hs hm hn d1 d2)
    rw [e] at e'; cases e'
    exact hex

example := fun prog => C11_small_iff (exact Int) haswell (p := 4) (pn := 2) (kc_max := 5) (by decide) (by decide)
  haswell_fits_fix false false 1 0 (demo_ok 40 50 11) rfl rfl (by decide) (by decide) (by decide) (prog := prog)

/-- The right hand side of `C11_small_iff` can hold: 42 x 64 on 2 x 2 cores. -/
example : haswell.m_r ∣ 42 ∧ haswell.n_r ∣ 64 ∧ 2 ∣ 4 ∧ SmallFits 42 (4 / 2) haswell.m_r 42 ∧
    SmallFits 64 2 haswell.n_r 64 :=
  ⟨by decide, by decide, by decide, ⟨by decide, by decide⟩, ⟨by decide, by decide⟩⟩

/-- **C11 does not hold for the small 2-D call**, not even when M, N are multiples of the register tile and the
grid uses all cores: `36 x 11` times `11 x 80` on 2 x 5 cores of the Haswell kernel leaves the last column of
cores a negative number of columns. The call has undefined behaviour and no run of it ends normally. -/
theorem C11_small_refuted : ∃ prog, callS haswell 36 80 11 10 false false 1 (0 : Int) 5 5 = some prog ∧
    CallOK (demo 36 80 11) 36 80 11 ∧ Exec (exact Int) prog (demo 36 80 11) .ub ∧
    ∀ s', ¬ Exec (exact Int) prog (demo 36 80 11) (.ok s') := by
  obtain ⟨prog, e⟩ := small_is_some (cx := haswell) (M := 36) (N := 80) (K := 11) (p := 10) (pn := 5) (kc_max := 5)
    (by decide) false false (1 : Int) 0 (by decide) (by decide) (by decide)
  have hno : ∀ s', ¬ Exec (exact Int) prog (demo 36 80 11) (.ok s') := fun s' he =>
    absurd ((C11_small_iff (exact Int) haswell (by decide) (by decide) haswell_fits_fix false false 1 0
      (demo_ok 36 80 11) rfl rfl (by decide) (by decide) (by decide) e).1 ⟨s', he⟩).2.2.2.2.2 (by decide)
  exact ⟨_, e, demo_ok 36 80 11, ub_of_no_ok _ hno, hno⟩

end
end Cake
