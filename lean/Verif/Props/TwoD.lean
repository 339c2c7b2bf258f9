/-
Properties of `cake_sgemm_2d`: C05, and its share of C07, C08, C11, C28 and C34.
-/
import Verif.Proofs.TwoDNeeds
import Verif.Props.Grid
import Verif.Props.Online

namespace Cake
open List

section
variable {α : Type _} (F : Arith α) (nz : α → Bool) (cx : Cntx)
variable {M N K p pn m_c k_c : Nat}

/-- `cake_sgemm_2d` on plain operands, `pn` columns of cores. -/
abbrev call2 (cx : Cntx) (M N K p : Nat) (packedA packedB : Bool) (alpha beta : α) (pn m_c k_c : Nat) :
    Option Prog :=
  cake_sgemm_2d cx ⟨.A, 0⟩ ⟨.B, 0⟩ ⟨.C, 0⟩ M N K p packedA packedB alpha beta pn m_c k_c

theorem haswell_fits_fix : haswell.kfix.Fits haswell.m_r haswell.n_r := ⟨by decide, rfl, rfl⟩
theorem armv8_fits_fix : armv8.kfix.Fits armv8.m_r armv8.n_r := ⟨by decide, rfl, rfl⟩

theorem call2_body (h : Fit2 M N p cx.m_r cx.n_r pn m_c k_c) (packedA packedB : Bool) (alpha beta : α) :
    ∃ x, dims2d M N K cx.m_r cx.n_r (grid2 M N p cx.m_r cx.n_r pn m_c).pm
        (grid2 M N p cx.m_r cx.n_r pn m_c).pn (grid2 M N p cx.m_r cx.n_r pn m_c).m_c k_c
        (grid2 M N p cx.m_r cx.n_r pn m_c).n_c = some x ∧
      call2 cx M N K p packedA packedB alpha beta pn m_c k_c =
        some (sgemm2dBody cx ⟨.A, 0⟩ ⟨.B, 0⟩ ⟨.C, 0⟩ M N K p x) := by
  obtain ⟨x, hx⟩ := dims2d_some (M := M) (N := N) (K := K) h.grid.1 h.grid.2.1.p_pos
  refine ⟨x, hx, ?_⟩
  unfold call2 cake_sgemm_2d
  rw [init2d_eq h.pn_pos, hx]
  rfl

/-- What is known after `cake_sgemm_2d`, for the grid and the tile it ends up with. -/
abbrev After2 (s : State α) (M N K : Nat) (m_r n_r p pn m_c k_c : Nat) : State α → Prop :=
  Env s s.size (cX M N) (fun mem init => ∀ r c, r < M → c < N →
    init ⟨.C, r * N + c⟩ = true ∧ mem ⟨.C, r * N + c⟩ =
      dotFrom F (entry s .A K r) (fun k => entry s .B N k c)
        (orderKMN K (grid2 M N p m_r n_r pn m_c).pm (grid2 M N p m_r n_r pn m_c).m_c k_c
          ((grid2 M N p m_r n_r pn m_c).pn * (grid2 M N p m_r n_r pn m_c).n_c) r c) F.zero)

theorem sgemm2d_call (h : Fit2 M N p cx.m_r cx.n_r pn m_c k_c) (hk : cx.kfix.Fits cx.m_r cx.n_r)
    (packedA packedB : Bool) (alpha beta : α) {s : State α} (hs : CallOK s M N K)
    (hsl : Slack s M N K cx.m_r cx.n_r) :
    Computes F (call2 cx M N K p packedA packedB alpha beta pn m_c k_c) s
      (After2 F s M N K cx.m_r cx.n_r p pn m_c k_c) := by
  obtain ⟨h1, h2, h3⟩ := h.grid
  obtain ⟨x, hx, e⟩ := call2_body cx (K := K) h packedA packedB alpha beta
  rw [e]
  exact (sgemm2d_triple (S := True) h1 h2 h3 rfl rfl hk hx hs (fun _ => hsl.readable h1.m_r_pos h1.n_r_pos
    (h1.m_dvd.mul_left _) (h2.m_dvd.mul_left _))).computes rfl trivial

theorem sgemm2d_ends (h : Fit2 M N p cx.m_r cx.n_r pn m_c k_c) (hk : cx.kfix.Fits cx.m_r cx.n_r)
    (packedA packedB : Bool) (alpha beta : α) {s : State α} (hs : CallOK s M N K) {prog : Prog}
    (hp : call2 cx M N K p packedA packedB alpha beta pn m_c k_c = some prog)
    {s' : State α} (he : Exec F prog s (.ok s')) : After2 F s M N K cx.m_r cx.n_r p pn m_c k_c s' := by
  obtain ⟨h1, h2, h3⟩ := h.grid
  obtain ⟨x, hx, e⟩ := call2_body cx (K := K) h packedA packedB alpha beta
  rw [e, Option.some.injEq] at hp
  rw [← hp] at he
  exact (sgemm2d_triple (S := False) (F := F) h1 h2 h3 rfl rfl hk hx hs (fun h => h.elim)).never he

/-- **C05, the product.** For every grid with `pn` columns, `1 ≤ pn ≤ p`, every row tile that is a multiple of
`m_r`, every `k_c` and non-empty C: the call puts into each `C[r][c]` the dot product of row `r` of A and
column `c` of B, starting from 0. The elements that packing reads beyond A and B must be readable (see
C11); what they contain does not matter. -/
theorem C05_2d_product_partial (h : Fit2 M N p cx.m_r cx.n_r pn m_c k_c) (hk : cx.kfix.Fits cx.m_r cx.n_r)
    (packedA packedB : Bool) (alpha beta : α) {s : State α} (hs : CallOK s M N K)
    (hsl : Slack s M N K cx.m_r cx.n_r) :
    Computes F (call2 cx M N K p packedA packedB alpha beta pn m_c k_c) s
      (fun s' => IsProduct F s s' M N K (fun _ _ => F.zero)) :=
  (sgemm2d_call F cx h hk packedA packedB alpha beta hs hsl).mono fun _ hs' r c hr hc =>
    ⟨(hs'.fact r c hr hc).1, _, orderKMN_perm h.k_c_pos r c, (hs'.fact r c hr hc).2⟩

/-- Six cores as 3 x 2, several blocks in each direction, ragged rows, columns and depth. -/
theorem demo_fit2 : Fit2 79 169 6 haswell.m_r haswell.n_r 2 12 5 :=
  ⟨by decide, by decide, by decide, by decide, by decide, by decide, by decide, by decide, by decide⟩

/-- Four cores as 2 x 2 on the ARM tile; C is so small that both the grid and the tile shrink. -/
theorem demo_fit2_arm : Fit2 13 9 4 armv8.m_r armv8.n_r 2 64 7 :=
  ⟨by decide, by decide, by decide, by decide, by decide, by decide, by decide, by decide, by decide⟩

example (lane : Nat → Int) :
    Computes (exact Int) (call2 haswell 79 169 11 6 false false 1 0 2 12 5) (padded 79 169 11 55 7 lane)
      (fun s' => IsProduct (exact Int) (padded 79 169 11 55 7 lane) s' 79 169 11 (fun _ _ => 0)) :=
  C05_2d_product_partial (exact Int) haswell demo_fit2 haswell_fits_fix false false 1 0 (padded_ok ..)
    (padded_slack lane (by decide) (by decide))

example : grid2 79 169 6 6 16 2 12 = ⟨3, 2, 12, 16⟩ ∧ grid2 13 9 4 8 12 2 64 = ⟨1, 1, 8, 12⟩ := by decide

/-- **C05, exact arithmetic.** Over a commutative semiring the result is the matrix product. -/
theorem C05_2d_exact_partial {R : Type _} [CommSemiring R]
    (h : Fit2 M N p cx.m_r cx.n_r pn m_c k_c) (hk : cx.kfix.Fits cx.m_r cx.n_r)
    (packedA packedB : Bool) (alpha beta : R) {s : State R} (hs : CallOK s M N K)
    (hsl : Slack s M N K cx.m_r cx.n_r) :
    Computes (exact R) (call2 cx M N K p packedA packedB alpha beta pn m_c k_c) s (fun s' =>
      ∀ r c, r < M → c < N →
        entry s' .C N r c = ∑ k ∈ Finset.range K, entry s .A K r k * entry s .B N k c) :=
  (C05_2d_product_partial (exact R) cx h hk packedA packedB alpha beta hs hsl).mono fun _ hs' r c hr hc => by
    rw [hs'.exact hr hc]; exact zero_add _

example := C05_2d_exact_partial (R := Int) armv8 demo_fit2_arm armv8_fits_fix false false 1 0
  (padded_ok 13 9 11 99 11 fun _ => 7) (padded_slack _ (by decide) (by decide))

/-- **C05, any grid.** The part of the call after the choice of grid and tile is right for every `pm x pn` grid
of at most `p` cores and every tile of whole register tiles, also for empty matrices. -/
theorem C05_2d_any_grid {pm m_c' n_c : Nat} (h : TileOK pm cx.m_r cx.n_r m_c' k_c n_c)
    (h' : TileOK pn cx.n_r cx.m_r n_c k_c m_c') (hp : pm * pn ≤ p) (hk : cx.kfix.Fits cx.m_r cx.n_r)
    {s : State α} (hs : CallOK s M N K) (hsl : Slack s M N K cx.m_r cx.n_r) :
    Computes F ((dims2d M N K cx.m_r cx.n_r pm pn m_c' k_c n_c).map
        (sgemm2dBody cx ⟨.A, 0⟩ ⟨.B, 0⟩ ⟨.C, 0⟩ M N K p)) s
      (fun s' => IsProduct F s s' M N K (fun _ _ => F.zero)) := by
  obtain ⟨x, hx⟩ := dims2d_some (M := M) (N := N) (K := K) h h'.p_pos
  rw [hx]
  refine Computes.mono ((sgemm2d_triple (S := True) h h' hp rfl rfl hk hx hs (fun _ => hsl.readable h.m_r_pos
    h.n_r_pos (h.m_dvd.mul_left _) (h'.m_dvd.mul_left _))).computes rfl trivial) ?_
  exact fun _ hs' r c hr hc =>
    ⟨(hs'.fact r c hr hc).1, _, orderKMN_perm h.k_c_pos r c, (hs'.fact r c hr hc).2⟩

example := C05_2d_any_grid (exact Int) haswell (pn := 3) (p := 6) (pm := 2) (m_c' := 12) (k_c := 5) (n_c := 48)
  ⟨by decide, by decide, by decide, by decide, by decide, by decide, by decide, by decide⟩
  ⟨by decide, by decide, by decide, by decide, by decide, by decide, by decide, by decide⟩
  (by decide) haswell_fits_fix (padded_ok 79 169 11 55 7 fun _ => 7) (padded_slack _ (by decide) (by decide))

/-- **C05, without any assumption on the memory behind the operands.** Any execution that ends normally has
the product in C and has changed nothing else. -/
theorem C05_2d_if_ends_partial (h : Fit2 M N p cx.m_r cx.n_r pn m_c k_c) (hk : cx.kfix.Fits cx.m_r cx.n_r)
    (packedA packedB : Bool) (alpha beta : α) {s : State α} (hs : CallOK s M N K) {prog : Prog}
    (hp : call2 cx M N K p packedA packedB alpha beta pn m_c k_c = some prog)
    {s' : State α} (he : Exec F prog s (.ok s')) :
    IsProduct F s s' M N K (fun _ _ => F.zero) ∧ OnlyC s s' M N := by
  have e := sgemm2d_ends F cx h hk packedA packedB alpha beta hs hp he
  exact ⟨fun r c hr hc => ⟨(e.fact r c hr hc).1, _, orderKMN_perm h.k_c_pos r c, (e.fact r c hr hc).2⟩,
    ⟨e.keep, e.size⟩⟩

/-- The hypotheses of `C05_2d_if_ends_partial` and `C07_2d_deterministic` can be met. -/
example : ∃ prog s', call2 haswell 79 169 11 6 false false 1 (0 : Int) 2 12 5 = some prog ∧
    Exec (exact Int) prog (padded 79 169 11 55 7 fun _ => 7) (.ok s') := by
  obtain ⟨prog, h1, ⟨s', h2⟩, _⟩ := C05_2d_product_partial (exact Int) haswell demo_fit2 haswell_fits_fix
    false false 1 0 (padded_ok 79 169 11 55 7 fun _ => 7) (padded_slack _ (by decide) (by decide))
  exact ⟨prog, s', h1, h2⟩

/-- **C05 with the grid the library chooses.** Whenever `grid_dims_2d` has a defined result (C30), the call with
that grid computes the product. -/
theorem C05_2d_grid_partial {ncores r pn0 : Nat} (hr : max 1 r ≤ p) (hp : p ≤ ncores)
    (hw : clampPn pn0 p ∣ p ∨ ∃ d, d ∣ p ∧ 1 < d ∧ d < clampPn pn0 p)
    (hM : 0 < M) (hN : 0 < N) (hm : 0 < cx.m_r) (hn : 0 < cx.n_r) (hmc : 0 < m_c) (hkc : 0 < k_c) (hd : cx.m_r ∣ m_c)
    (hk : cx.kfix.Fits cx.m_r cx.n_r) (packedA packedB : Bool) (alpha beta : α) {s : State α}
    (hs : CallOK s M N K) (hsl : Slack s M N K cx.m_r cx.n_r) :
    Computes F ((grid_dims_2d (gridTable ncores r) pn0 p ncores).bind fun pn =>
        call2 cx M N K p packedA packedB alpha beta pn m_c k_c) s
      (fun s' => IsProduct F s s' M N K (fun _ _ => F.zero)) := by
  obtain ⟨pn, e, hdv, h0, _⟩ := C30_partial hr hp hw
  rw [e]
  exact C05_2d_product_partial F cx ⟨hM, hN, hm, hn, h0, Nat.le_of_dvd (by omega) hdv, hmc, hkc, hd⟩ hk packedA packedB
    alpha beta hs hsl

example := C05_2d_grid_partial (exact Int) haswell (p := 6) (ncores := 8) (r := 0) (pn0 := 4) (m_c := 12) (k_c := 5)
  (by decide) (by decide) (Or.inr ⟨2, by decide, by decide, by decide⟩) (by decide) (by decide) (by decide) (by decide)
  (by decide) (by decide) (by decide) haswell_fits_fix false false 1 0
  (padded_ok 79 169 11 55 7 fun _ => 7) (padded_slack _ (by decide) (by decide))

/-- **C05 does not hold for an empty C**: with `M = 0` or `N = 0` the call divides by zero before it does
anything, for every grid, tile and K. -/
theorem C05_2d_empty_refuted (hm : 0 < cx.m_r) (hn : 0 < cx.n_r) (hpn : 0 < pn) (hp : pn ≤ p) (h : M = 0 ∨ N = 0)
    (packedA packedB : Bool) (alpha beta : α) :
    call2 cx M N K p packedA packedB alpha beta pn m_c k_c = none := by
  unfold call2 cake_sgemm_2d
  rw [init2d_empty hm hn hpn hp h]
  rfl

example : call2 haswell 0 37 11 6 false false 1 (0 : Int) 2 12 5 = none :=
  C05_2d_empty_refuted haswell (by decide) (by decide) (by decide) (by decide) (Or.inl rfl) ..

/-- **C05, bit for bit.** The result is the one of the K-first `cake_sgemm` with `pm` threads, the same `m_c` and
`k_c`, and `n_c` the width of a whole row of the grid. -/
theorem C05_2d_eq_kfirst (h : Fit2 M N p cx.m_r cx.n_r pn m_c k_c) (hk : cx.kfix.Fits cx.m_r cx.n_r)
    (hk' : cx.kmap.Fits cx.m_r cx.n_r)
    (packedA packedB : Bool) (alpha beta alpha' beta' : α) {s : State α} (hs : CallOK s M N K)
    (hsl : Slack s M N K cx.m_r cx.n_r) {plain : Prog}
    (hplain : callK cx nz M N K (grid2 M N p cx.m_r cx.n_r pn m_c).pm alpha' beta'
      (grid2 M N p cx.m_r cx.n_r pn m_c).m_c k_c
      ((grid2 M N p cx.m_r cx.n_r pn m_c).pn * (grid2 M N p cx.m_r cx.n_r pn m_c).n_c) = some plain) :
    Computes F (call2 cx M N K p packedA packedB alpha beta pn m_c k_c) s (fun s1 =>
      ∀ s2, Exec F plain s (.ok s2) → ∀ r c, r < M → c < N → entry s1 .C N r c = entry s2 .C N r c) :=
  (sgemm2d_call F cx h hk packedA packedB alpha beta hs hsl).mono fun s1 e1 s2 h2 r c hr hc => by
    obtain ⟨h1, h2', _⟩ := h.grid
    have ht : TileOK (grid2 M N p cx.m_r cx.n_r pn m_c).pm cx.m_r cx.n_r (grid2 M N p cx.m_r cx.n_r pn m_c).m_c k_c
        ((grid2 M N p cx.m_r cx.n_r pn m_c).pn * (grid2 M N p cx.m_r cx.n_r pn m_c).n_c) :=
      ⟨h1.p_pos, h1.m_r_pos, h1.n_r_pos, h1.m_c_pos, h1.k_c_pos, h2'.S_pos, h1.m_dvd, h2'.m_dvd.mul_left _⟩
    have e2 := (sgemmK_call F nz cx ht hk' alpha' beta' hs).of_exec hplain h2
    unfold entry
    rw [(e1.fact r c hr hc).2, (e2.fact r c hr hc).2]

example := C05_2d_eq_kfirst (exact Int) (· != 0) haswell demo_fit2 haswell_fits_fix haswell_fits false false 1 0 1 0
  (padded_ok 79 169 11 55 7 fun _ => 7) (padded_slack _ (by decide) (by decide)) rfl

/-- **C07 (2-D).** Whatever the interleavings and the contents of freshly allocated memory, two executions
leave the same contents in every object of the caller. -/
theorem C07_2d_deterministic (h : Fit2 M N p cx.m_r cx.n_r pn m_c k_c) (hk : cx.kfix.Fits cx.m_r cx.n_r)
    (packedA packedB : Bool) (alpha beta : α) {s : State α} (hs : CallOK s M N K) {prog : Prog}
    (hp : call2 cx M N K p packedA packedB alpha beta pn m_c k_c = some prog)
    {s1 s2 : State α} (h1 : Exec F prog s (.ok s1)) (h2 : Exec F prog s (.ok s2)) :
    s1.size = s2.size ∧ ∀ l : Loc, s.size l.buf ≠ none → s1.mem l = s2.mem l ∧ s1.init l = s2.init l := by
  have e1 := sgemm2d_ends F cx h hk packedA packedB alpha beta hs hp h1
  have e2 := sgemm2d_ends F cx h hk packedA packedB alpha beta hs hp h2
  exact ⟨by rw [e1.size, e2.size], fun l hl => Env.agree e1 e2
    (fun r c hr hc => by rw [(e1.fact r c hr hc).2, (e2.fact r c hr hc).2])
    (fun r c hr hc => by rw [(e1.fact r c hr hc).1, (e2.fact r c hr hc).1]) l hl⟩

/-- **C08 (2-D).** Nothing of the caller's changes but the `M*N` elements of C. -/
theorem C08_2d_onlyC (h : Fit2 M N p cx.m_r cx.n_r pn m_c k_c) (hk : cx.kfix.Fits cx.m_r cx.n_r)
    (packedA packedB : Bool) (alpha beta : α) {s : State α} (hs : CallOK s M N K)
    (hsl : Slack s M N K cx.m_r cx.n_r) :
    Computes F (call2 cx M N K p packedA packedB alpha beta pn m_c k_c) s (fun s' => OnlyC s s' M N) :=
  (sgemm2d_call F cx h hk packedA packedB alpha beta hs hsl).mono fun _ hs' => ⟨hs'.keep, hs'.size⟩

example := C08_2d_onlyC (exact Int) haswell demo_fit2 haswell_fits_fix false false 1 0
  (padded_ok 79 169 11 55 7 fun _ => 7) (padded_slack _ (by decide) (by decide))

/-- **C34 (2-D).** At the end exactly the objects allocated at the call are allocated, with the same sizes. -/
theorem C34_2d_no_leak (h : Fit2 M N p cx.m_r cx.n_r pn m_c k_c) (hk : cx.kfix.Fits cx.m_r cx.n_r)
    (packedA packedB : Bool) (alpha beta : α) {s : State α} (hs : CallOK s M N K)
    (hsl : Slack s M N K cx.m_r cx.n_r) :
    Computes F (call2 cx M N K p packedA packedB alpha beta pn m_c k_c) s (fun s' => s'.size = s.size) :=
  (sgemm2d_call F cx h hk packedA packedB alpha beta hs hsl).mono fun _ hs' => hs'.size

example := C34_2d_no_leak (exact Int) haswell demo_fit2 haswell_fits_fix false false 1 0
  (padded_ok 79 169 11 55 7 fun _ => 7) (padded_slack _ (by decide) (by decide))

/-- **C11 (2-D), what holds.** If M is a multiple of `m_r` and N of `n_r` (or the operands are followed by
enough readable memory) no execution has undefined behaviour. Missing with respect to C11: ragged M or N
with objects of exactly the needed sizes, see `C11_2d_iff` and `C11_2d_refuted`. -/
theorem C11_2d_safe_partial (h : Fit2 M N p cx.m_r cx.n_r pn m_c k_c) (hk : cx.kfix.Fits cx.m_r cx.n_r)
    (packedA packedB : Bool) (alpha beta : α) {s : State α} (hs : CallOK s M N K)
    (hsl : Slack s M N K cx.m_r cx.n_r) :
    ∃ prog, call2 cx M N K p packedA packedB alpha beta pn m_c k_c = some prog ∧ ∀ out, Exec F prog s out →
      out ≠ .ub := by
  obtain ⟨prog, hp, _, hall⟩ := sgemm2d_call F cx h hk packedA packedB alpha beta hs hsl
  refine ⟨prog, hp, fun out ho e => ?_⟩
  rcases hall out ho with e' | ⟨s', e', _⟩ <;> rw [e] at e' <;> cases e'

example := C11_2d_safe_partial (exact Int) haswell demo_fit2 haswell_fits_fix false false 1 0
  (padded_ok 79 169 11 55 7 fun _ => 7) (padded_slack _ (by decide) (by decide))

/-- **C11 (2-D), exactly when it fails.** With objects of exactly `M*K` and `K*N` elements, all sizes
positive, the call can end normally if and only if `m_r` divides M and `n_r` divides N. -/
theorem C11_2d_iff (h : Fit2 M N p cx.m_r cx.n_r pn m_c k_c) (hk : cx.kfix.Fits cx.m_r cx.n_r)
    (packedA packedB : Bool) (alpha beta : α) {s : State α} (hs : CallOK s M N K)
    (hA : s.size .A = some (M * K)) (hB : s.size .B = some (K * N)) (hK : 0 < K)
    {prog : Prog} (hp : call2 cx M N K p packedA packedB alpha beta pn m_c k_c = some prog) :
    (∃ s', Exec F prog s (.ok s')) ↔ cx.m_r ∣ M ∧ cx.n_r ∣ N := by
  constructor
  · rintro ⟨s', he⟩
    obtain ⟨h1, h2, _⟩ := h.grid
    obtain ⟨x, hx, e⟩ := call2_body cx (K := K) h packedA packedB alpha beta
    rw [e, Option.some.injEq] at hp
    rw [← hp] at he
    obtain ⟨hneA, hneB⟩ := twoD_needs h1 h2 rfl rfl hx he
    constructor
    · by_contra hd
      obtain ⟨n, hn, hlt⟩ := hneA h.N_pos M 0 (by
        rw [roundUp_eq h.m_r_pos (h1.m_dvd.mul_left _)]; exact roundUp_lt h.m_r_pos hd) hK
      rw [hA] at hn; cases hn; simp at hlt
    · by_contra hd
      obtain ⟨n, hn, hlt⟩ := hneB h.M_pos (K - 1) N (by omega) (by
        rw [roundUp_eq h.n_r_pos (h2.m_dvd.mul_left _)]; exact roundUp_lt h.n_r_pos hd)
      rw [hB] at hn; cases hn
      simp only at hlt
      have : (K - 1) * N + N = K * N := by
        rw [← Nat.succ_mul]; congr 1; omega
      omega
  · rintro ⟨h1, h2⟩
    obtain ⟨prog', hp', hex, _⟩ := sgemm2d_call F cx h hk packedA packedB alpha beta hs
      (Slack.of_dvd hs h.m_r_pos h.n_r_pos h1 h2)
    rw [hp] at hp'; cases hp'
    exact hex

example := fun prog => C11_2d_iff (exact Int) haswell demo_fit2 haswell_fits_fix false false 1 0
  (demo_ok 79 169 11) rfl rfl (by decide) (prog := prog)

/-- **C11 does not hold for the 2-D call.** Witness: `79 x 11` times `11 x 169`, 6 x 16 register tile: the call
has undefined behaviour and no run of it ends normally. -/
theorem C11_2d_refuted : ∃ prog, call2 haswell 79 169 11 6 false false 1 (0 : Int) 2 12 5 = some prog ∧
    CallOK (demo 79 169 11) 79 169 11 ∧ Exec (exact Int) prog (demo 79 169 11) .ub ∧
    ∀ s', ¬ Exec (exact Int) prog (demo 79 169 11) (.ok s') := by
  obtain ⟨x, _, hp⟩ := call2_body haswell (K := 11) demo_fit2 false false (1 : Int) 0
  have hno : ∀ s', ¬ Exec (exact Int) _ (demo 79 169 11) (.ok s') := fun s' he =>
    absurd ((C11_2d_iff (exact Int) haswell demo_fit2 haswell_fits_fix false false 1 0
      (demo_ok 79 169 11) rfl rfl (by decide) hp).1 ⟨s', he⟩).1 (by decide)
  exact ⟨_, hp, demo_ok 79 169 11, ub_of_no_ok _ hno, hno⟩

end
end Cake
