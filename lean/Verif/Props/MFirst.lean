/-
Properties of `cake_sgemm` with the M-first schedule (MKN).
-/
import Verif.Proofs.SgemmMN
import Verif.Props.Prepack
import Verif.Props.Slack

namespace Cake
open List

section
variable {α : Type _} (F : Arith α) (nz : α → Bool) (cx : Cntx)
variable {M N K p m_c k_c n_c : Nat}

/-- The M-first call on plain (unpacked) operands. -/
abbrev callM (cx : Cntx) (nz : α → Bool) (M N K p : Nat) (alpha beta : α) (m_c k_c n_c : Nat) :
    Option Prog :=
  cake_sgemm nz cx ⟨.A, 0⟩ ⟨.B, 0⟩ ⟨.C, 0⟩ M N K p false false alpha beta m_c k_c n_c .MKN

/-- **C02.** The M-first product with `beta = 0` puts into each `C[r][c]` the dot product of row `r`
of A and column `c` of B, starting from 0. `hB` says that the elements the packing of B reads are
readable (see `bNeed`, `readable_of_dvd`, `readable_of_slack`; C10 is about this condition); those
beyond `K*N` may have any value. -/
theorem C02_mfirst_product (h : TileOK p cx.m_r cx.n_r m_c k_c n_c)
    (hk : cx.kfix.Fits cx.m_r cx.n_r) (alpha : α) {beta : α} (hb : nz beta = false) {s : State α}
    (hs : CallOK s M N K) (hB : Holds s .B 1 (bNeed N K p cx.n_r k_c n_c)) :
    Computes F (callM cx nz M N K p alpha beta m_c k_c n_c) s
      (fun s' => IsProduct F s s' M N K (fun _ _ => F.zero)) :=
  (sgemmM_call F nz cx h hk alpha beta hs hB (by simp [hb])).mono fun _ hs' r c hr hc =>
    ⟨(hs'.fact r c hr hc).1, _, orderMKN_perm h.p_pos h.k_c_pos, by
      have := (hs'.fact r c hr hc).2
      rw [hb] at this
      exact this⟩

example : Computes (exact Int) (callM haswell (· != 0) 43 37 11 3 1 0 12 5 32) (demo 43 37 11)
    (fun s' => IsProduct (exact Int) (demo 43 37 11) s' 43 37 11 (fun _ _ => 0)) :=
  C02_mfirst_product (exact Int) (· != 0) haswell demo_tile haswell_fits_fix 1 (beta := 0) (by simp) (demo_ok 43 37 11)
    demo_readable

/-- **C02, exact arithmetic.** Over a commutative semiring the result is the matrix product. -/
theorem C02_mfirst_exact {R : Type _} [CommSemiring R] (nz : R → Bool)
    (h : TileOK p cx.m_r cx.n_r m_c k_c n_c)
    (hk : cx.kfix.Fits cx.m_r cx.n_r) (alpha : R) {beta : R} (hb : nz beta = false) {s : State R}
    (hs : CallOK s M N K) (hB : Holds s .B 1 (bNeed N K p cx.n_r k_c n_c)) :
    Computes (exact R) (callM cx nz M N K p alpha beta m_c k_c n_c) s (fun s' =>
      ∀ r c, r < M → c < N →
        entry s' .C N r c = ∑ k ∈ Finset.range K, entry s .A K r k * entry s .B N k c) :=
  (C02_mfirst_product (exact R) nz cx h hk alpha hb hs hB).mono fun _ hs' r c hr hc => by
    rw [hs'.exact hr hc]; exact zero_add _

example :=
  C02_mfirst_exact (R := Int) armv8 (· != 0) demo_tile_arm armv8_fits_fix 1 (beta := 0) (by simp)
    (demo_ok 43 36 28) (readable_of_dvd demo_tile_arm (demo_ok 43 36 28) (by decide))

/-- **C02, without any assumption on the memory behind B.** Any execution of the call that ends normally has the
product in C and has changed nothing else. -/
theorem C02_mfirst_if_ends (h : TileOK p cx.m_r cx.n_r m_c k_c n_c)
    (hk : cx.kfix.Fits cx.m_r cx.n_r) (alpha : α) {beta : α} (hb : nz beta = false) {s : State α}
    (hs : CallOK s M N K) {prog : Prog} (hp : callM cx nz M N K p alpha beta m_c k_c n_c = some prog)
    {s' : State α} (he : Exec F prog s (.ok s')) :
    IsProduct F s s' M N K (fun _ _ => F.zero) ∧ OnlyC s s' M N := by
  have hB := sgemmM_needs F nz cx h alpha beta hs hp he
  have e := (sgemmM_call F nz cx h hk alpha beta hs hB (by simp [hb])).of_exec hp he
  exact ⟨(C02_mfirst_product F nz cx h hk alpha hb hs hB).of_exec hp he, ⟨e.keep, e.size⟩⟩

/-- The hypotheses of `C02_mfirst_if_ends` and `C07_mfirst_deterministic` can be met. -/
example : ∃ prog s', callM haswell (· != 0) 43 37 11 3 1 (0 : Int) 12 5 32 = some prog ∧
    Exec (exact Int) prog (demo 43 37 11) (.ok s') := by
  obtain ⟨prog, h1, ⟨s', h2⟩, _⟩ := C02_mfirst_product (exact Int) (· != 0) haswell demo_tile haswell_fits_fix 1
    (beta := 0) (by simp) (demo_ok 43 37 11) demo_readable
  exact ⟨prog, s', h1, h2⟩

/-- **C13 (M-first).** With `beta ≠ 0` the products are added to the caller's C. -/
theorem C13_mfirst_accumulate (h : TileOK p cx.m_r cx.n_r m_c k_c n_c)
    (hk : cx.kfix.Fits cx.m_r cx.n_r) (alpha : α) {beta : α} (hb : nz beta = true) {s : State α}
    (hs : CallOK s M N K) (hB : Holds s .B 1 (bNeed N K p cx.n_r k_c n_c)) (hC : Holds s .C M N) :
    Computes F (callM cx nz M N K p alpha beta m_c k_c n_c) s
      (fun s' => IsProduct F s s' M N K (fun r c => entry s .C N r c)) :=
  (sgemmM_call F nz cx h hk alpha beta hs hB (fun _ => hC)).mono fun _ hs' r c hr hc =>
    ⟨(hs'.fact r c hr hc).1, _, orderMKN_perm h.p_pos h.k_c_pos, by
      have := (hs'.fact r c hr hc).2
      rw [hb] at this
      exact this⟩

example : Computes (exact Int) (callM haswell (· != 0) 43 37 11 3 1 1 12 5 32) (demoC 43 37 11)
    (fun s' => IsProduct (exact Int) (demoC 43 37 11) s' 43 37 11
      (fun r c => entry (demoC 43 37 11) .C 37 r c)) :=
  C13_mfirst_accumulate (exact Int) (· != 0) haswell demo_tile haswell_fits_fix 1 (beta := 1) (by simp) (demoC_ok 43 37 11)
    demoC_readable (demoC_holds 43 37 11)

/-- **C07 (M-first), race freedom.** No parallel loop of the call has a data race. -/
theorem C07_mfirst_raceFree (h : TileOK p cx.m_r cx.n_r m_c k_c n_c)
    (hk : cx.kfix.Fits cx.m_r cx.n_r) (alpha beta : α) {prog : Prog}
    (hp : callM cx nz M N K p alpha beta m_c k_c n_c = some prog) :
    ∀ ts, Item.par ts ∈ prog → RaceFree ts :=
  (sgemmM_call ⟨alpha, fun _ _ _ => alpha⟩ nz cx h hk alpha beta
    (s := roomy alpha M N K (bNeed N K p cx.n_r k_c n_c)) (roomy_ok _ M N K _) (roomy_B _ M N K _)
    (fun _ => roomy_C _ M N K _)).raceFree hp

example {prog : Prog} (hp : callM haswell (· != 0) 43 37 11 3 1 (0 : Int) 12 5 32 = some prog) :
    ∀ ts, Item.par ts ∈ prog → RaceFree ts :=
  C07_mfirst_raceFree (· != 0) haswell demo_tile haswell_fits_fix 1 0 hp

/-- **C07 (M-first).** Whatever the interleavings of the parallel loops and the contents of freshly
allocated memory, two executions leave the same contents in every object of the caller. -/
theorem C07_mfirst_deterministic (h : TileOK p cx.m_r cx.n_r m_c k_c n_c)
    (hk : cx.kfix.Fits cx.m_r cx.n_r) (alpha beta : α) {s : State α} (hs : CallOK s M N K)
    (hC : nz beta = true → Holds s .C M N) {prog : Prog}
    (hp : callM cx nz M N K p alpha beta m_c k_c n_c = some prog)
    {s1 s2 : State α} (h1 : Exec F prog s (.ok s1)) (h2 : Exec F prog s (.ok s2)) :
    s1.size = s2.size ∧ ∀ l : Loc, s.size l.buf ≠ none → s1.mem l = s2.mem l ∧ s1.init l = s2.init l := by
  have hB := sgemmM_needs F nz cx h alpha beta hs hp h1
  have e1 := (sgemmM_call F nz cx h hk alpha beta hs hB hC).of_exec hp h1
  have e2 := (sgemmM_call F nz cx h hk alpha beta hs hB hC).of_exec hp h2
  exact ⟨by rw [e1.size, e2.size], fun l hl => Env.agree e1 e2
    (fun r c hr hc => by rw [(e1.fact r c hr hc).2, (e2.fact r c hr hc).2])
    (fun r c hr hc => by rw [(e1.fact r c hr hc).1, (e2.fact r c hr hc).1]) l hl⟩

/-- **C08 (M-first).** Nothing of the caller's changes but the `M*N` elements of C. -/
theorem C08_mfirst_onlyC (h : TileOK p cx.m_r cx.n_r m_c k_c n_c)
    (hk : cx.kfix.Fits cx.m_r cx.n_r) (alpha beta : α) {s : State α} (hs : CallOK s M N K)
    (hB : Holds s .B 1 (bNeed N K p cx.n_r k_c n_c)) 
    (hC : nz beta = true → Holds s .C M N) :
    Computes F (callM cx nz M N K p alpha beta m_c k_c n_c) s (fun s' => OnlyC s s' M N) :=
  (sgemmM_call F nz cx h hk alpha beta hs hB hC).mono fun _ hs' => ⟨hs'.keep, hs'.size⟩

example : Computes (exact Int) (callM haswell (· != 0) 43 37 11 3 1 0 12 5 32) (demo 43 37 11)
    (fun s' => OnlyC (demo 43 37 11) s' 43 37) :=
  C08_mfirst_onlyC (exact Int) (· != 0) haswell demo_tile haswell_fits_fix 1 0 (demo_ok 43 37 11)
    demo_readable (by simp)

/-- **C08 (M-first), without any assumption on the memory behind B.** Any execution that ends normally, whatever
`beta`, has changed nothing of the caller's but the `M*N` elements of C. -/
theorem C08_mfirst_if_ends (h : TileOK p cx.m_r cx.n_r m_c k_c n_c)
    (hk : cx.kfix.Fits cx.m_r cx.n_r) (alpha beta : α) {s : State α} (hs : CallOK s M N K)
    (hC : nz beta = true → Holds s .C M N) {prog : Prog}
    (hp : callM cx nz M N K p alpha beta m_c k_c n_c = some prog) {s' : State α} (he : Exec F prog s (.ok s')) :
    OnlyC s s' M N := by
  have hB := sgemmM_needs F nz cx h alpha beta hs hp he
  exact (C08_mfirst_onlyC F nz cx h hk alpha beta hs hB hC).of_exec hp he

/-- Executions with `beta ≠ 0` that end normally exist. -/
example : ∃ prog s', callM haswell (· != 0) 43 37 11 3 1 (1 : Int) 12 5 32 = some prog ∧
    Exec (exact Int) prog (demoC 43 37 11) (.ok s') ∧ OnlyC (demoC 43 37 11) s' 43 37 := by
  obtain ⟨prog, h1, ⟨s', h2⟩, _⟩ := C08_mfirst_onlyC (exact Int) (· != 0) haswell demo_tile haswell_fits_fix 1 1
    (demoC_ok 43 37 11) demoC_readable (fun _ => demoC_holds 43 37 11)
  exact ⟨prog, s', h1, h2, C08_mfirst_if_ends (exact Int) (· != 0) haswell demo_tile haswell_fits_fix 1 1
    (demoC_ok 43 37 11) (fun _ => demoC_holds 43 37 11) h1 h2⟩

/-- **C10 (M-first), what holds.** If the object holding B has the `bNeed` elements the packing reads,
no execution of the call has undefined behaviour. Missing with respect to C10: the property asks for
this with an object of exactly `K*N` elements, see `C10_mfirst_refuted`. -/
theorem C10_mfirst_safe_partial (h : TileOK p cx.m_r cx.n_r m_c k_c n_c)
    (hk : cx.kfix.Fits cx.m_r cx.n_r) (alpha : α) {beta : α} (hb : nz beta = false) {s : State α}
    (hs : CallOK s M N K) (hB : Holds s .B 1 (bNeed N K p cx.n_r k_c n_c)) :
    ∃ prog, callM cx nz M N K p alpha beta m_c k_c n_c = some prog ∧ ∀ out, Exec F prog s out →
      out ≠ .ub := by
  obtain ⟨prog, hp, _, hall⟩ := sgemmM_call F nz cx h hk alpha beta hs hB (by simp [hb])
  refine ⟨prog, hp, fun out ho e => ?_⟩
  rcases hall out ho with e' | ⟨s', e', _⟩ <;> rw [e] at e' <;> cases e'

/-- **C10 (M-first), N a multiple of `n_r`.** Then nothing beyond the `K*N` elements of B is read. -/
theorem C10_mfirst_safe_dvd_partial (h : TileOK p cx.m_r cx.n_r m_c k_c n_c)
    (hk : cx.kfix.Fits cx.m_r cx.n_r) (alpha : α) {beta : α} (hb : nz beta = false) {s : State α}
    (hs : CallOK s M N K) (hN : cx.n_r ∣ N) :
    ∃ prog, callM cx nz M N K p alpha beta m_c k_c n_c = some prog ∧ ∀ out, Exec F prog s out →
      out ≠ .ub :=
  C10_mfirst_safe_partial F nz cx h hk alpha hb hs (readable_of_dvd h hs hN)

example := C10_mfirst_safe_dvd_partial (exact Int) (· != 0) haswell demo_tile haswell_fits_fix 1
  (beta := 0) (by simp) (demo_ok 43 48 15) (by decide)

/-- **C10 (M-first) does not hold.** If the object holding B is smaller than `bNeed`, which happens with
exactly `K*N` elements as soon as `n_r ∤ N` and K is a positive multiple of `p*k_c`, then *every*
execution reads beyond the object holding B (or stops because an allocation failed). -/
theorem C10_mfirst_overread (h : TileOK p cx.m_r cx.n_r m_c k_c n_c) (alpha beta : α) {s : State α}
    (hs : CallOK s M N K) {nB : Nat} (hBs : s.size .B = some nB)
    (hlt : nB < bNeed N K p cx.n_r k_c n_c) :
    ∃ prog, callM cx nz M N K p alpha beta m_c k_c n_c = some prog ∧ Exec F prog s .ub ∧
      ∀ s', ¬ Exec F prog s (.ok s') :=
  ⟨_, rfl, ub_of_no_ok F fun _ => sgemmM_overread F nz cx h alpha beta hs hBs hlt rfl _,
    fun s' => sgemmM_overread F nz cx h alpha beta hs hBs hlt rfl s'⟩

/-- Witness: `43 x 15` times `15 x 37` with B of exactly `15*37` elements, 6 x 16 register tile. -/
theorem C10_mfirst_refuted : ∃ prog, callM haswell (· != 0) 43 37 15 3 1 0 12 5 32 = some prog ∧
    CallOK (demo 43 37 15) 43 37 15 ∧ Exec (exact Int) prog (demo 43 37 15) .ub := by
  obtain ⟨prog, h1, h2, _⟩ := C10_mfirst_overread (exact Int) (· != 0) haswell demo_tile 1 0
    (demo_ok 43 37 15) rfl (show 15 * 37 < bNeed 37 15 3 16 5 32 by decide)
  exact ⟨prog, h1, demo_ok 43 37 15, h2⟩

/-- **C10 (M-first), exactly when it is safe.** With a B object of exactly `K*N` elements the call (`beta = 0`) has
no undefined behaviour exactly if the last thread packs all rows of B, or the rows it packs are enough to cover the
columns by which N is rounded up to a multiple of `n_r`. In particular it is not if `n_r ∤ N` and K is a positive
multiple of `p*k_c`. -/
theorem C10_mfirst_iff (h : TileOK p cx.m_r cx.n_r m_c k_c n_c)
    (hk : cx.kfix.Fits cx.m_r cx.n_r) (alpha : α) {beta : α} (hb : nz beta = false) {s : State α}
    (hs : CallOK s M N K) (hBs : s.size .B = some (K * N)) :
    (∃ prog, callM cx nz M N K p alpha beta m_c k_c n_c = some prog ∧ ∀ out, Exec F prog s out → out ≠ .ub) ↔
      lastRows K p k_c = K ∨ cdiv N cx.n_r * cx.n_r ≤ (lastRows K p k_c + 1) * N := by
  rw [← bNeed_le_iff h.n_r_pos h.n_dvd]
  constructor
  · rintro ⟨prog, hp, hsafe⟩
    by_contra hc
    obtain ⟨prog', hp', hub, _⟩ := C10_mfirst_overread F nz cx h alpha beta hs hBs (by omega)
    rw [hp] at hp'
    cases hp'
    exact hsafe _ hub rfl
  · intro hle
    refine C10_mfirst_safe_partial F nz cx h hk alpha hb hs ⟨⟨_, hBs, by rwa [Nat.one_mul]⟩, fun i hi => ?_⟩
    exact hs.b.2 i (by omega)

/-- Both cases occur: `43 x 11` times `11 x 37` and `43 x 15` times `15 x 37`, three threads, `k_c = 5`. -/
example : (lastRows 11 3 5 = 11 ∨ cdiv 37 16 * 16 ≤ (lastRows 11 3 5 + 1) * 37) ∧
    ¬ (lastRows 15 3 5 = 15 ∨ cdiv 37 16 * 16 ≤ (lastRows 15 3 5 + 1) * 37) := by decide

example := C10_mfirst_iff (exact Int) (· != 0) haswell demo_tile haswell_fits_fix 1 (beta := 0) (by simp)
  (demo_ok 43 37 15) rfl

/-- **C10 (M-first), whatever object holds B.** The call (`beta = 0`) can end normally exactly if that object has
`bNeed` initialised elements; otherwise undefined behaviour is reached unless an allocation fails first. -/
theorem C10_mfirst_ends_iff (h : TileOK p cx.m_r cx.n_r m_c k_c n_c)
    (hk : cx.kfix.Fits cx.m_r cx.n_r) (alpha : α) {beta : α} (hb : nz beta = false) {s : State α}
    (hs : CallOK s M N K) :
    (∃ prog s', callM cx nz M N K p alpha beta m_c k_c n_c = some prog ∧ Exec F prog s (.ok s')) ↔
      Holds s .B 1 (bNeed N K p cx.n_r k_c n_c) := by
  constructor
  · rintro ⟨prog, s', hp, he⟩
    exact sgemmM_needs F nz cx h alpha beta hs hp he
  · intro hB
    obtain ⟨prog, hp, ⟨s', he⟩, -⟩ := sgemmM_call F nz cx h hk alpha beta hs hB (by simp [hb])
    exact ⟨prog, s', hp, he⟩

example := C10_mfirst_ends_iff (exact Int) (· != 0) haswell demo_tile haswell_fits_fix 1 (beta := 0) (by simp)
  (demo_ok 43 37 15)

/-- **C34 (M-first).** At the end exactly the objects allocated at the call are allocated, with the
same sizes. -/
theorem C34_mfirst_no_leak (h : TileOK p cx.m_r cx.n_r m_c k_c n_c)
    (hk : cx.kfix.Fits cx.m_r cx.n_r) (alpha beta : α) {s : State α} (hs : CallOK s M N K)
    (hB : Holds s .B 1 (bNeed N K p cx.n_r k_c n_c)) 
    (hC : nz beta = true → Holds s .C M N) :
    Computes F (callM cx nz M N K p alpha beta m_c k_c n_c) s (fun s' => s'.size = s.size) :=
  (sgemmM_call F nz cx h hk alpha beta hs hB hC).mono fun _ hs' => hs'.size

example := C34_mfirst_no_leak (exact Int) (· != 0) haswell demo_tile haswell_fits_fix 1 0
  (demo_ok 43 37 11) demo_readable (by simp)

/-- **C18 (M-first).** Packing A and/or B beforehand and passing the packed buffers gives bit for bit
the same C as the plain call; the packed buffers are not modified and stay allocated. -/
theorem C18_mfirst_prepacked (h : TileOK p cx.m_r cx.n_r m_c k_c n_c)
    (hk : cx.kfix.Fits cx.m_r cx.n_r) (alpha beta : α) {s : State α} (hs : CallOK s M N K)
    (hB' : Holds s .B 1 (bNeed N K p cx.n_r k_c n_c)) 
    (hC : nz beta = true → Holds s .C M N)
    (packedA packedB : Bool) {prA prB plain packed : Prog}
    (hA : prepackA cx .MKN M N K p m_c k_c n_c = some prA)
    (hB : prepackB cx .MKN M N K p m_c k_c n_c = some prB)
    (hplain : callM cx nz M N K p alpha beta m_c k_c n_c = some plain)
    (hpacked : cake_sgemm nz cx ⟨if packedA then .Ap else .A, 0⟩ ⟨if packedB then .Bp else .B, 0⟩
      ⟨.C, 0⟩ M N K p packedA packedB alpha beta m_c k_c n_c .MKN = some packed)
    {s1 : State α}
    (h1 : Exec F ((if packedA then prA else []) ++ (if packedB then prB else [])) s (.ok s1)) :
    Computes F (some packed) s1 (fun s2 => s2.size = s1.size ∧
      (∀ l : Loc, s1.size l.buf ≠ none → ¬ (l.buf = .C ∧ l.idx < M * N) → s2.mem l = s1.mem l) ∧
      ∀ s', Exec F plain s (.ok s') → ∀ r c, r < M → c < N → entry s2 .C N r c = entry s' .C N r c) := by
  simp only [prepackA, init_block_dims, packedA_mkn, pack_A, Option.bind_eq_bind, Option.bind_some,
    Option.some.injEq] at hA
  simp only [prepackB, init_block_dims, packedB_eq, pack_B, Option.bind_eq_bind, Option.bind_some,
    Option.some.injEq] at hB
  subst hA hB
  have g := prepackS (F := F) h.geoM hs (fun _ => hB') (packA_m h) (packB_m h) h1
  obtain ⟨hA1, hB1⟩ := prepackS_in (F := F) h.geoM hs hB' (packA_m h) (packB_m h) h1
  obtain ⟨_, _, g3, _, _, g6⟩ := g
  have eC : ∀ r c, r < M → c < N → entry s1 .C N r c = entry s .C N r c := by
    obtain ⟨n, hn, hle⟩ := hs.c
    intro r c _ _
    exact (g6 ⟨.C, _⟩ (by simp [hn])).1
  have hC1 : Room s1 .C M N := by
    obtain ⟨n, hn, hle⟩ := hs.c
    exact ⟨n, by rw [g3 _ (by simp) (by simp), hn], hle⟩
  have hCh : Holds s .C M N → Holds s1 .C M N := by
    rintro ⟨⟨n, hn, hle⟩, hi⟩
    exact ⟨hC1, fun i hi' => by rw [(g6 ⟨.C, i⟩ (by simp [hn])).2]; exact hi i hi'⟩
  have fr : ∀ b, b ≠ .A → b ≠ .B → b ≠ .C → b ≠ .Ctx → b ≠ .Ap → b ≠ .Bp → s1.size b = none := by
    intro b h1 h2 h3 h4 h5 h6
    rw [g3 b h5 h6]; exact hs.fresh b h1 h2 h3 h4
  have t := sgemmM_triple (F := F) h hk hA1 hB1 hC1 (fun hb => hCh (hC hb))
    (fr _ (by simp) (by simp) (by simp) (by simp) (by simp) (by simp))
    (fun i => fr _ (by simp) (by simp) (by simp) (by simp) (by simp) (by simp))
    (fr _ (by simp) (by simp) (by simp) (by simp) (by simp) (by simp))
    (fr _ (by simp) (by simp) (by simp) (by simp) (by simp) (by simp)) hpacked
  refine (Computes.of_triple rfl t).mono fun s2 hs2 => ⟨hs2.size, fun l hl hX => (hs2.keep l hl hX).1, ?_⟩
  intro s' hs' r c hr hc
  have e' := (sgemmM_call F nz cx h hk alpha beta hs hB' hC).of_exec hplain hs'
  have := eC r c hr hc
  unfold entry at this ⊢
  rw [(hs2.fact r c hr hc).2, (e'.fact r c hr hc).2, this]
  rfl

/-- The hypotheses of C18 can be met: packing runs to its end. -/
example : ∃ prA s1, prepackA haswell .MKN 43 37 11 3 12 5 32 = some prA ∧
    Exec (exact Int) prA (demo 43 37 11) (.ok s1) := by
  have hApn : (demo 43 37 11).size .Ap = none := rfl
  have t := prepAS (F := exact Int) (N := 37) (P := fun _ _ => True) (packed := false)
    (s0 := demo 43 37 11) (a := entry (demo 43 37 11) .A 11) demo_tile.geoM
    ⟨fun _ => ⟨(demo_ok 43 37 11).a, hApn, fun _ _ => rfl⟩, by simp⟩ (fun _ _ => rfl) (fun _ => hApn)
    (Stable.true _) (fun _ => packA_m demo_tile)
  obtain ⟨s1, h1, _⟩ := t.exists_ok (s := demo 43 37 11) ⟨rfl, fun _ _ _ => ⟨rfl, rfl⟩, trivial⟩
  exact ⟨_, s1, rfl, h1⟩

end
end Cake
