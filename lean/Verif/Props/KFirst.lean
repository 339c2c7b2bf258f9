/-
Properties of `cake_sgemm` with the K-first schedule (KMN).
-/
import Verif.Proofs.SgemmK
import Verif.Proofs.Exact
import Verif.Props.Prepack

namespace Cake
open List

section
variable {α : Type _} (F : Arith α) (nz : α → Bool) (cx : Cntx)
variable {M N K p m_c k_c n_c : Nat}

/-- The K-first call on plain (unpacked) operands. -/
abbrev callK (cx : Cntx) (nz : α → Bool) (M N K p : Nat) (alpha beta : α) (m_c k_c n_c : Nat) :
    Option Prog :=
  cake_sgemm nz cx ⟨.A, 0⟩ ⟨.B, 0⟩ ⟨.C, 0⟩ M N K p false false alpha beta m_c k_c n_c .KMN

/-- **C01.** The K-first product puts into each `C[r][c]` the dot product of row `r` of A and column
`c` of B, starting from 0. -/
theorem C01_kfirst_product (h : TileOK p cx.m_r cx.n_r m_c k_c n_c)
    (hk : cx.kmap.Fits cx.m_r cx.n_r) (alpha beta : α) {s : State α} (hs : CallOK s M N K) :
    Computes F (callK cx nz M N K p alpha beta m_c k_c n_c) s
      (fun s' => IsProduct F s s' M N K (fun _ _ => F.zero)) :=
  (sgemmK_call F nz cx h hk alpha beta hs).mono fun _ hs' r c hr hc =>
    ⟨(hs'.fact r c hr hc).1, _, orderKMN_perm h.k_c_pos r c, (hs'.fact r c hr hc).2⟩

example : Computes (exact Int) (callK haswell (· != 0) 43 37 11 3 1 0 12 5 32) (demo 43 37 11)
    (fun s' => IsProduct (exact Int) (demo 43 37 11) s' 43 37 11 (fun _ _ => 0)) :=
  C01_kfirst_product (exact Int) (· != 0) haswell demo_tile haswell_fits 1 0 (demo_ok 43 37 11)

/-- **C01, exact arithmetic.** Over a commutative semiring the result is the matrix product. -/
theorem C01_kfirst_exact {R : Type _} [CommSemiring R] (nz : R → Bool)
    (h : TileOK p cx.m_r cx.n_r m_c k_c n_c)
    (hk : cx.kmap.Fits cx.m_r cx.n_r) (alpha beta : R) {s : State R} (hs : CallOK s M N K) :
    Computes (exact R) (callK cx nz M N K p alpha beta m_c k_c n_c) s (fun s' =>
      ∀ r c, r < M → c < N →
        entry s' .C N r c = ∑ k ∈ Finset.range K, entry s .A K r k * entry s .B N k c) :=
  (C01_kfirst_product (exact R) nz cx h hk alpha beta hs).mono fun _ hs' r c hr hc => by
    rw [hs'.exact hr hc]; exact zero_add _

example :=
  C01_kfirst_exact (R := Int) armv8 (· != 0) demo_tile_arm armv8_fits 1 0 (demo_ok 43 37 11)

/-- **C07 (K-first), race freedom.** No parallel loop of the call has a data race. -/
theorem C07_kfirst_raceFree (h : TileOK p cx.m_r cx.n_r m_c k_c n_c)
    (hk : cx.kmap.Fits cx.m_r cx.n_r) (alpha beta : α) {prog : Prog}
    (hp : callK cx nz M N K p alpha beta m_c k_c n_c = some prog) :
    ∀ ts, Item.par ts ∈ prog → RaceFree ts :=
  (sgemmK_call ⟨alpha, fun _ _ _ => alpha⟩ nz cx h hk alpha beta (s := roomy alpha M N K 0)
    (roomy_ok _ M N K 0)).raceFree hp

/-- **C07 (K-first).** Whatever the interleavings of the parallel loops and the contents of freshly
allocated memory, two executions leave the same contents in every object of the caller. -/
theorem C07_kfirst_deterministic (h : TileOK p cx.m_r cx.n_r m_c k_c n_c)
    (hk : cx.kmap.Fits cx.m_r cx.n_r) (alpha beta : α) {s : State α} (hs : CallOK s M N K) {prog : Prog}
    (hp : callK cx nz M N K p alpha beta m_c k_c n_c = some prog)
    {s1 s2 : State α} (h1 : Exec F prog s (.ok s1)) (h2 : Exec F prog s (.ok s2)) :
    s1.size = s2.size ∧ ∀ l : Loc, s.size l.buf ≠ none → s1.mem l = s2.mem l ∧ s1.init l = s2.init l := by
  have e1 := (sgemmK_call F nz cx h hk alpha beta hs).of_exec hp h1
  have e2 := (sgemmK_call F nz cx h hk alpha beta hs).of_exec hp h2
  exact ⟨by rw [e1.size, e2.size], fun l hl => Env.agree e1 e2
    (fun r c hr hc => by rw [(e1.fact r c hr hc).2, (e2.fact r c hr hc).2])
    (fun r c hr hc => by rw [(e1.fact r c hr hc).1, (e2.fact r c hr hc).1]) l hl⟩

example {prog : Prog} (hp : callK haswell (· != 0) 43 37 11 3 1 (0 : Int) 12 5 32 = some prog) :
    ∀ ts, Item.par ts ∈ prog → RaceFree ts :=
  C07_kfirst_raceFree (· != 0) haswell demo_tile haswell_fits 1 (0 : Int) hp

/-- **C08 (K-first).** Nothing of the caller's changes but the `M*N` elements of C. -/
theorem C08_kfirst_onlyC (h : TileOK p cx.m_r cx.n_r m_c k_c n_c)
    (hk : cx.kmap.Fits cx.m_r cx.n_r) (alpha beta : α) {s : State α} (hs : CallOK s M N K) :
    Computes F (callK cx nz M N K p alpha beta m_c k_c n_c) s (fun s' => OnlyC s s' M N) :=
  (sgemmK_call F nz cx h hk alpha beta hs).mono fun _ hs' => ⟨hs'.keep, hs'.size⟩

example : Computes (exact Int) (callK haswell (· != 0) 43 37 11 3 1 0 12 5 32) (demo 43 37 11)
    (fun s' => OnlyC (demo 43 37 11) s' 43 37) :=
  C08_kfirst_onlyC (exact Int) (· != 0) haswell demo_tile haswell_fits 1 0 (demo_ok 43 37 11)

/-- **C09.** No execution of the K-first call has undefined behaviour: no access outside an allocated
object, no read of an element never written, no use after free, no double free, no data race. -/
theorem C09_kfirst_safe (h : TileOK p cx.m_r cx.n_r m_c k_c n_c)
    (hk : cx.kmap.Fits cx.m_r cx.n_r) (alpha beta : α) {s : State α} (hs : CallOK s M N K) :
    ∃ prog, callK cx nz M N K p alpha beta m_c k_c n_c = some prog ∧ ∀ out, Exec F prog s out →
      out ≠ .ub := by
  obtain ⟨prog, hp, _, hall⟩ := sgemmK_call F nz cx h hk alpha beta hs
  refine ⟨prog, hp, fun out ho e => ?_⟩
  rcases hall out ho with e' | ⟨s', e', _⟩ <;> rw [e] at e' <;> cases e'

example : ∃ prog, callK haswell (· != 0) 43 37 11 3 1 0 12 5 32 = some prog ∧
    ∀ out, Exec (exact Int) prog (demo 43 37 11) out → out ≠ .ub :=
  C09_kfirst_safe (exact Int) (· != 0) haswell demo_tile haswell_fits 1 0 (demo_ok 43 37 11)

/-- **C34 (K-first).** At the end exactly the objects allocated at the call are allocated, with the
same sizes: nothing leaked, nothing of the caller's freed (and by C09 nothing freed twice). -/
theorem C34_kfirst_no_leak (h : TileOK p cx.m_r cx.n_r m_c k_c n_c)
    (hk : cx.kmap.Fits cx.m_r cx.n_r) (alpha beta : α) {s : State α} (hs : CallOK s M N K) :
    Computes F (callK cx nz M N K p alpha beta m_c k_c n_c) s (fun s' => s'.size = s.size) :=
  (sgemmK_call F nz cx h hk alpha beta hs).mono fun _ hs' => hs'.size

/-- **C39.** If `K ≤ k_c` the result is the plain loop over ascending `k`, whatever `p`, `m_c`, `n_c`. -/
theorem C39_kfirst_single_block (h : TileOK p cx.m_r cx.n_r m_c k_c n_c)
    (hk : cx.kmap.Fits cx.m_r cx.n_r) (hK : K ≤ k_c) (alpha beta : α) {s : State α}
    (hs : CallOK s M N K) :
    Computes F (callK cx nz M N K p alpha beta m_c k_c n_c) s (fun s' => ∀ r c, r < M → c < N →
      entry s' .C N r c = (range K).foldl
        (fun acc k => F.fma (entry s .A K r k) (entry s .B N k c) acc) F.zero) :=
  (sgemmK_call F nz cx h hk alpha beta hs).mono fun _ hs' r c hr hc => by
    have := (hs'.fact r c hr hc).2
    rw [orderKMN_single h.k_c_pos hK] at this
    exact this

example : Computes (exact Int) (callK haswell (· != 0) 43 37 5 3 1 0 12 5 32) (demo 43 37 5)
    (fun s' => ∀ r c, r < 43 → c < 37 → entry s' .C 37 r c = (range 5).foldl
        (fun acc k => entry (demo 43 37 5) .A 5 r k * entry (demo 43 37 5) .B 37 k c + acc) 0) :=
  C39_kfirst_single_block (exact Int) (· != 0) haswell demo_tile haswell_fits (by decide) 1 0 (demo_ok 43 37 5)

/-- **C18 (K-first).** Packing A and/or B beforehand and passing the packed buffers gives bit for bit
the same C as the plain call; the packed buffers are not modified and stay allocated. -/
theorem C18_kfirst_prepacked (h : TileOK p cx.m_r cx.n_r m_c k_c n_c)
    (hk : cx.kmap.Fits cx.m_r cx.n_r) (alpha beta : α) {s : State α} (hs : CallOK s M N K)
    (packedA packedB : Bool) {prA prB plain packed : Prog}
    (hA : prepackA cx .KMN M N K p m_c k_c n_c = some prA) (hB : prepackB cx .KMN M N K p m_c k_c n_c = some prB)
    (hplain : callK cx nz M N K p alpha beta m_c k_c n_c = some plain)
    (hpacked : cake_sgemm nz cx ⟨if packedA then .Ap else .A, 0⟩ ⟨if packedB then .Bp else .B, 0⟩
      ⟨.C, 0⟩ M N K p packedA packedB alpha beta m_c k_c n_c .KMN = some packed)
    {s1 : State α}
    (h1 : Exec F ((if packedA then prA else []) ++ (if packedB then prB else [])) s (.ok s1)) :
    Computes F (some packed) s1 (fun s2 => s2.size = s1.size ∧
      (∀ l : Loc, s1.size l.buf ≠ none → ¬ (l.buf = .C ∧ l.idx < M * N) → s2.mem l = s1.mem l) ∧
      ∀ s', Exec F plain s (.ok s') → ∀ r c, r < M → c < N → entry s2 .C N r c = entry s' .C N r c) := by
  have hf : ∀ b : Buf, b ≠ .A → b ≠ .B → b ≠ .C → b ≠ .Ctx → s.size b = none := hs.fresh
  have hApn : s.size .Ap = none := hf _ (by simp) (by simp) (by simp) (by simp)
  have hBpn : s.size .Bp = none := hf _ (by simp) (by simp) (by simp) (by simp)
  obtain ⟨aSz, haSz⟩ : ∃ v, packedASize M K p cx.m_r m_c .KMN = some v := ⟨_, rfl⟩
  simp only [prepackA, init_block_dims, haSz, pack_A, Option.bind_eq_bind, Option.bind_some, Option.some.injEq] at hA
  simp only [prepackB, init_block_dims, pack_B, Option.bind_eq_bind, Option.bind_some, Option.some.injEq] at hB
  subst hA hB
  set sz1 := (if packedA then szSet s.size .Ap (some aSz) else s.size) with hsz1
  set sz2 := (if packedB then szSet sz1 .Bp (some (packedBSize K N cx.n_r n_c)) else sz1) with hsz2
  have k1 : ∀ b, s.size b ≠ none → sz1 b = s.size b := by
    intro b hb
    rw [hsz1]; split
    · rw [szSet_ne _ _ (by rintro rfl; exact hb hApn)]
    · rfl
  have k2 : ∀ b, s.size b ≠ none → sz2 b = s.size b := by
    intro b hb
    rw [hsz2]; split
    · rw [szSet_ne _ _ (by rintro rfl; exact hb hBpn)]; exact k1 b hb
    · exact k1 b hb
  have n1 : sz1 .Bp = none := by
    rw [hsz1]; split
    · rw [szSet_ne _ _ (by simp)]; exact hBpn
    · exact hBpn
  have n2 : ∀ b, b ≠ .Ap → b ≠ .Bp → sz2 b = s.size b := by
    intro b ha hb
    rw [hsz2, hsz1]
    cases packedA <;> cases packedB <;> simp [szSet, ha, hb]
  have hAin : AInK s false M K p cx.m_r m_c k_c (entry s .A K) := ⟨fun _ => ⟨hs.a, hApn, fun _ _ => rfl⟩, by simp⟩
  have hBin : BInK s false N K cx.n_r k_c n_c (entry s .B N) := ⟨fun _ => ⟨hs.b, hBpn, fun _ _ => rfl⟩, by simp⟩
  have tA : Triple F (· = s) (if packedA then .memalign .Ap aSz ::
        phases (pack_A_k_first ⟨.A, 0⟩ ⟨.Ap, 0⟩ M K p cx.m_r (dimsKMN M N K p cx.m_r cx.n_r m_c k_c n_c))
        else []) (Env s sz1 noX
        (fun m i => packedA = true → AOk M K p cx.m_r m_c k_c (entry s .A K) m i)) := by
    rw [hsz1]
    cases packedA with
    | true =>
      refine (prepA_triple (F := F) (N := N) (P := fun _ _ => True) h hAin (fun _ _ => rfl) (fun _ => hApn)
        (Stable.true _) haSz ⟨.A, 0⟩ (fun _ => rfl)).conseq ?_ ?_
      · rintro _ rfl; exact ⟨rfl, fun _ _ _ => ⟨rfl, rfl⟩, trivial⟩
      · intro s' hs'; exact ⟨hs'.size, hs'.keep, fun _ => hs'.fact.2⟩
    | false =>
      refine Triple.nil.conseq (fun _ h => h) ?_
      rintro _ rfl; exact ⟨rfl, fun _ _ _ => ⟨rfl, rfl⟩, by simp⟩
  have tB : Triple F (Env s sz1 noX
        (fun m i => packedA = true → AOk M K p cx.m_r m_c k_c (entry s .A K) m i))
      (if packedB then .memalign .Bp (packedBSize K N cx.n_r n_c) ::
        phases (pack_B_k_first ⟨.B, 0⟩ ⟨.Bp, 0⟩ K N cx.n_r (dimsKMN M N K p cx.m_r cx.n_r m_c k_c n_c))
        else []) (Env s sz2 noX (fun m i =>
        (packedA = true → AOk M K p cx.m_r m_c k_c (entry s .A K) m i) ∧
        (packedB = true → BOk N K cx.n_r k_c n_c (entry s .B N) m i))) := by
    rw [hsz2]
    cases packedB with
    | true =>
      have hst : Stable (· = .Bp) (fun m i =>
          packedA = true → AOk M K p cx.m_r m_c k_c (entry s .A K) m i) :=
        fun m m' i i' hd hp hpa => AOk.stable (D := (· = .Bp)) (by simp) _ m m' i i' hd (hp hpa)
      refine (prepB_triple (F := F) (M := M) h hBin k1 (fun _ => n1) hst ⟨.B, 0⟩ (fun _ => rfl)).conseq
        (fun _ h => h) ?_
      intro s' hs'; exact ⟨hs'.size, hs'.keep, hs'.fact.1, fun _ => hs'.fact.2⟩
    | false =>
      refine Triple.nil.conseq (fun _ h => h) ?_
      intro s' hs'; exact ⟨hs'.size, hs'.keep, hs'.fact, by simp⟩
  have e1 : Env s sz2 noX (fun m i =>
        (packedA = true → AOk M K p cx.m_r m_c k_c (entry s .A K) m i) ∧
        (packedB = true → BOk N K cx.n_r k_c n_c (entry s .B N) m i)) s1 := by
    rcases (tA.seq tB) s _ rfl h1 with e | ⟨s', e, hs'⟩
    · cases e
    · cases e; exact hs'
  have hA1 : AInK s1 packedA M K p cx.m_r m_c k_c (entry s .A K) := by
    refine ⟨fun hp => ⟨⟨?_, ?_⟩, ?_, ?_⟩, fun hp => ⟨?_, (e1.fact.1 hp).2, (e1.fact.1 hp).1⟩⟩
    · obtain ⟨n, hn, hle⟩ := hs.a.1
      exact ⟨n, by rw [e1.size, k2 _ (by simp [hn]), hn], hle⟩
    · obtain ⟨n, hn, hle⟩ := hs.a.1
      intro i hi
      rw [(e1.keep ⟨.A, i⟩ (by simp [hn]) (fun h => h)).2]
      exact hs.a.2 i hi
    · rw [e1.size, hsz2, hsz1, hp]; cases packedB <;> simp [szSet, hApn]
    · obtain ⟨n, hn, hle⟩ := hs.a.1
      intro r k
      exact ((e1.keep ⟨.A, r * K + k⟩ (by simp [hn]) (fun h => h)).1).symm
    · refine ⟨aSz, by rw [e1.size, hsz2, hsz1, hp]; cases packedB <;> simp [szSet], ?_⟩
      simp only [packedASize, Option.some.injEq] at haSz
      rw [← haSz]
      unfold padTo
      exact Nat.le_of_eq (by ring)
  have hB1 : BInK s1 packedB N K cx.n_r k_c n_c (entry s .B N) := by
    refine ⟨fun hp => ⟨⟨?_, ?_⟩, ?_, ?_⟩, fun hp => ⟨?_, (e1.fact.2 hp).2, (e1.fact.2 hp).1⟩⟩
    · obtain ⟨n, hn, hle⟩ := hs.b.1
      exact ⟨n, by rw [e1.size, k2 _ (by simp [hn]), hn], hle⟩
    · obtain ⟨n, hn, hle⟩ := hs.b.1
      intro i hi
      rw [(e1.keep ⟨.B, i⟩ (by simp [hn]) (fun h => h)).2]
      exact hs.b.2 i hi
    · rw [e1.size, hsz2, hp]; simpa using n1
    · obtain ⟨n, hn, hle⟩ := hs.b.1
      intro r k
      exact ((e1.keep ⟨.B, r * N + k⟩ (by simp [hn]) (fun h => h)).1).symm
    · refine ⟨packedBSize K N cx.n_r n_c, by rw [e1.size, hsz2, hp]; simp [szSet], ?_⟩
      unfold packedBSize
      rw [sub_mod_eq]
      unfold padTo
      exact Nat.le_of_eq (by ring)
  have hC1 : Room s1 .C M N := by
    obtain ⟨n, hn, hle⟩ := hs.c
    exact ⟨n, by rw [e1.size, k2 _ (by simp [hn]), hn], hle⟩
  have fr : ∀ b, b ≠ .A → b ≠ .B → b ≠ .C → b ≠ .Ctx → b ≠ .Ap → b ≠ .Bp → s1.size b = none := by
    intro b g1 g2 g3 g4 g5 g6
    rw [e1.size, n2 b g5 g6]; exact hf b g1 g2 g3 g4
  have t := sgemmK_triple (F := F) h rfl rfl hk hA1 hB1 hC1
    (fun i => fr _ (by simp) (by simp) (by simp) (by simp) (by simp) (by simp))
    (fun i => fr _ (by simp) (by simp) (by simp) (by simp) (by simp) (by simp))
    (fr _ (by simp) (by simp) (by simp) (by simp) (by simp) (by simp))
    (fr _ (by simp) (by simp) (by simp) (by simp) (by simp) (by simp)) alpha beta hpacked
  refine (Computes.of_triple rfl t).mono fun s2 hs2 => ⟨hs2.size, fun l hl hX => (hs2.keep l hl hX).1, ?_⟩
  intro s' hs' r c hr hc
  have e' := (sgemmK_call F nz cx h hk alpha beta hs).of_exec hplain hs'
  unfold entry
  rw [(hs2.fact r c hr hc).2, (e'.fact r c hr hc).2]

/-- The hypotheses of C18 can be met: packing runs to its end. -/
example : ∃ prA s1, prepackA haswell .KMN 43 37 11 3 12 5 32 = some prA ∧
    Exec (exact Int) prA (demo 43 37 11) (.ok s1) := by
  have hApn : (demo 43 37 11).size .Ap = none := rfl
  have t := prepA_triple (F := exact Int) (N := 37) (P := fun _ _ => True) (packed := false) demo_tile
    ⟨fun _ => ⟨(demo_ok 43 37 11).a, hApn, fun _ _ => rfl⟩, by simp⟩ (fun _ _ => rfl) (fun _ => hApn)
    (Stable.true _) rfl ⟨.A, 0⟩ (fun _ => rfl)
  obtain ⟨s1, h1, _⟩ := t.exists_ok (s := demo 43 37 11) ⟨rfl, fun _ _ _ => ⟨rfl, rfl⟩, trivial⟩
  exact ⟨_, s1, rfl, h1⟩

end
end Cake
