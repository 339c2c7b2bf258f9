/-
What `cake_sgemm_test` does: it packs A, B and C, performs no multiplication, and unpacks C.
-/
import Verif.Proofs.Blis
import Verif.Proofs.PackRun
import Verif.Proofs.SgemmK

namespace Cake
open List

section
variable {α : Type _} {F : Arith α}
variable {M N K p m_r n_r m_c k_c n_c : Nat}

/-- The packed C holds matrix `cm`, and is initialised. -/
def CPk (M N p m_r n_r m_c n_c : Nat) (cm : Nat → Nat → α) (mem : Mem α) (init : Loc → Bool) : Prop :=
  (∀ n m core r c, n < cdiv N n_c → m < cdiv M (p * m_c) → core < mU M p m_r m_c m →
      r < mT M p m_r m_c m core → c < nLen N n_r n_c n → n * n_c + c < N →
      rowOf M p m_r m_c m core r < M →
      mem ⟨.Cp, cInd M N p m_r n_r m_c n_c n m core + cIdx m_r n_r (mT M p m_r m_c m core) r c⟩ =
        cm (rowOf M p m_r m_c m core r) (n * n_c + c)) ∧
  ∀ x, x < padTo M (p * m_c) m_r * padTo N n_c n_r → init ⟨.Cp, x⟩ = true

variable (h : TileOK p m_r n_r m_c k_c n_c)
include h

theorem unpackK_triple {s0 : State α} {sz : Buf → Option Nat} {cm : Nat → Nat → α} {nC nP : Nat}
    (hC : sz .C = some nC) (hleC : M * N ≤ nC) (hP : sz .Cp = some nP)
    (hleP : padTo M (p * m_c) m_r * padTo N n_c n_r ≤ nP) :
    Triple F (Env s0 sz noX (CPk M N p m_r n_r m_c n_c cm))
      (phases (unpack_C_k_first ⟨.C, 0⟩ ⟨.Cp, 0⟩ M N p m_r n_r (dimsKMN M N K p m_r n_r m_c k_c n_c)))
      (Env s0 sz (cX M N) (fun m i => ∀ r c, r < M → c < N → i ⟨.C, r * N + c⟩ = true ∧
        m ⟨.C, r * N + c⟩ = cm r c)) := by
  have off0 : ∀ (b : Buf) x, (⟨b, 0⟩ : Loc) +ₚ x = ⟨b, x⟩ := by intro b x; simp [Loc.off]
  have hmem : ∀ o ∈ phaseOps (unpack_C_k_first ⟨.C, 0⟩ ⟨.Cp, 0⟩ M N p m_r n_r
      (dimsKMN M N K p m_r n_r m_c k_c n_c)),
      ∃ x y, x < M * N ∧ y < padTo M (p * m_c) m_r * padTo N n_c n_r ∧ o = .copy ⟨.C, x⟩ ⟨.Cp, y⟩ := by
    intro o ho
    obtain ⟨n, m, core, r, c, hn, hm, hcore, hr, hc, hN, hM, rfl⟩ := (unpackCK_mem h _ _ o).1 ho
    rw [off0, off0]
    exact ⟨_, _, mulAdd_lt hM hN, cInd_bound h hn hm hcore hr hc, rfl⟩
  apply Env.phases
  · exact unpackCK_raceFree h
  · intro s hs ts hts t ht
    apply Safe.of_forall
    intro o ho
    obtain ⟨x, y, hx, hy, rfl⟩ := hmem o (mem_flatten.2 ⟨_, mem_map_of_mem hts, mem_flatten.2 ⟨t, ht, ho⟩⟩)
    refine ⟨inB_of hC (by omega), ?_⟩
    intro l hl
    simp only [Op.reads, mem_singleton] at hl
    rw [hl]
    exact ⟨inB_of hP (by omega), hs.fact.2 y hy⟩
  · intro s hs
    refine ⟨hs.size, ?_, ?_⟩
    · intro l hl hX
      have hno : ∀ o ∈ phaseOps (unpack_C_k_first ⟨.C, 0⟩ ⟨.Cp, 0⟩ M N p m_r n_r
          (dimsKMN M N K p m_r n_r m_c k_c n_c)), o.dst ≠ l := by
        intro o ho e
        obtain ⟨x, y, hx, hy, rfl⟩ := hmem o ho
        subst e
        exact hX ⟨rfl, hx⟩
      have := hs.keep l hl (fun h => h)
      exact ⟨(exec_frame F _ _ _ hno).trans this.1, (initAfter_eq_of_not_dst hno).trans this.2⟩
    · intro r c hr hc
      constructor
      · apply initAfter_of_mem
        right
        obtain ⟨m, core, r', hm, hcore, hr', rfl⟩ := rowOf_cover h hr
        obtain ⟨n, c', hn, hc', rfl⟩ := colOf_cover h hc
        exact ⟨_, (unpackCK_mem (K := K) h _ _ _).2
          ⟨n, m, core, r', c', hn, hm, hcore, hr', hc', hc, hr, rfl⟩, by simp [Op.dst, Loc.off]⟩
      · have := unpackCK_val (K := K) h F ⟨.C, 0⟩ ⟨.Cp, 0⟩ (by simp) s.mem cm (by
          intro n m core r c hn hm hcore hr hc hN hM
          rw [off0]
          exact hs.fact.1 _ _ _ _ _ hn hm hcore hr hc hN hM) hr hc
        rw [off0] at this
        exact this

/-- The whole call on plain operands. -/
theorem sgemmTest_triple {nz : α → Bool} {cx : Cntx} (hmr : cx.m_r = m_r) (hnr : cx.n_r = n_r)
    {s0 : State α} (hs : CallOK s0 M N K) (alpha beta : α) (hCh : nz beta = true → Holds s0 .C M N)
    {prog : Prog} (hprog : cake_sgemm_test nz cx ⟨.A, 0⟩ ⟨.B, 0⟩ ⟨.C, 0⟩ M N K p false false alpha beta
      m_c k_c n_c = some prog) :
    Triple F (· = s0) prog (Env s0 s0.size (cX M N) (fun m i => ∀ r c, r < M → c < N →
      i ⟨.C, r * N + c⟩ = true ∧
      m ⟨.C, r * N + c⟩ = if nz beta then s0.mem ⟨.C, r * N + c⟩ else F.zero)) := by
  have hf : ∀ b : Buf, b ≠ .A → b ≠ .B → b ≠ .C → b ≠ .Ctx → s0.size b = none := hs.fresh
  have hAp := hf .Ap (by simp) (by simp) (by simp) (by simp)
  have hBp := hf .Bp (by simp) (by simp) (by simp) (by simp)
  have hCp := hf .Cp (by simp) (by simp) (by simp) (by simp)
  have hblk := hf .Blk (by simp) (by simp) (by simp) (by simp)
  have hdims := hf .Dims (by simp) (by simp) (by simp) (by simp)
  obtain ⟨aSz, haSz⟩ : ∃ v, packedASize M K p m_r m_c .KMN = some v := ⟨_, rfl⟩
  obtain ⟨cSz, hcSz⟩ : ∃ v, packedCSize M N p m_r n_r m_c n_c .KMN = some v := ⟨_, rfl⟩
  have hcS : cSz = padTo M (p * m_c) m_r * padTo N n_c n_r := by
    simp only [packedCSize, Option.some.injEq] at hcSz
    rw [← hcSz, sub_mod_eq]
    unfold padTo; ring
  subst hmr hnr
  have hsch : (dimsKMN M N K p cx.m_r cx.n_r m_c k_c n_c).sch = .KMN := rfl
  have eB := packB_blis_eq (K := K) (N := N) h.n_r_pos h.n_dvd ⟨.B, 0⟩ ⟨.Bp, 0⟩
    (x := dimsKMN M N K p cx.m_r cx.n_r m_c k_c n_c) rfl
  simp only [cake_sgemm_test, init_block_dims, hsch, haSz, hcSz, pack_C, unpack_C,
    schedule, Option.bind_eq_bind, Option.bind_some, Option.some.injEq, Bool.false_eq_true, if_false,
    packA_blis_eq h, eB] at hprog
  subst hprog
  obtain ⟨nC, hnC, hleC⟩ := hs.c
  set sz1 := szSet s0.size .Blk (some 1) with hsz1
  set sz2 := szSet sz1 .Ap (some aSz) with hsz2
  set sz3 := szSet sz2 .Bp (some (packedBSize K N cx.n_r n_c)) with hsz3
  set sz4 := szSet sz3 .Cp (some cSz) with hsz4
  have ne1 : ∀ b, b ≠ .Blk → sz1 b = s0.size b := fun b hb => szSet_ne _ _ hb
  have ne2 : ∀ b, b ≠ .Blk → b ≠ .Ap → sz2 b = s0.size b := fun b hb ha => by
    rw [hsz2, szSet_ne _ _ ha, ne1 b hb]
  have ne3 : ∀ b, b ≠ .Blk → b ≠ .Ap → b ≠ .Bp → sz3 b = s0.size b := fun b hb ha hc => by
    rw [hsz3, szSet_ne _ _ hc, ne2 b hb ha]
  have hz : ∀ {b : Buf}, s0.size b = none → ∀ {b'}, s0.size b' ≠ none → b' ≠ b := by
    rintro b hb b' hb' rfl; exact hb' hb
  have t1 := dims_triple (F := F) hblk hdims
  have t2 := prepA_triple (F := F) (N := N) h (a := entry s0 .A K) (s0 := s0) (sz := sz1) (packed := false)
    ⟨fun _ => ⟨hs.a, hAp, fun _ _ => rfl⟩, by simp⟩ (fun b hb => ne1 b (hz hblk hb))
    (fun _ => by rw [ne1 _ (by simp)]; exact hAp) (Stable.true _) haSz ⟨.A, 0⟩ (fun _ => rfl)
  have t3 := prepB_triple (F := F) (M := M) h (b := entry s0 .B N) (s0 := s0) (sz := sz2) (packed := false)
    ⟨fun _ => ⟨hs.b, hBp, fun _ _ => rfl⟩, by simp⟩ (fun b hb => ne2 b (hz hblk hb) (hz hAp hb))
    (fun _ => by rw [ne2 _ (by simp) (by simp)]; exact hBp)
    (Stable.true _) ⟨.B, 0⟩ (fun _ => rfl)
  simp only [Bool.false_eq_true, if_false] at t2 t3
  have hC4 : sz4 .C = some nC := by
    rw [hsz4, szSet_ne _ _ (by simp), ne3 _ (by simp) (by simp) (by simp), hnC]
  have hC3 : sz3 .Cp = none := by rw [ne3 _ (by simp) (by simp) (by simp)]; exact hCp
  have t4 : Triple F (Env s0 sz3 noX (fun _ _ => True))
      (if nz beta then .memalign .Cp cSz :: phases (pack_C_k_first ⟨.C, 0⟩ ⟨.Cp, 0⟩ M N p cx.m_r cx.n_r
          (dimsKMN M N K p cx.m_r cx.n_r m_c k_c n_c)) else [.calloc .Cp cSz])
      (Env s0 sz4 noX (CPk M N p cx.m_r cx.n_r m_c n_c (fun r c =>
        if nz beta then s0.mem ⟨.C, r * N + c⟩ else F.zero))) := by
    cases hb : nz beta with
    | false =>
      simp only [Bool.false_eq_true, if_false]
      refine (Env.calloc (F := F) (s0 := s0) (sz := sz3) (X := noX) .Cp cSz hCp hC3
        (Stable.true _)).conseq (fun _ h => h) ?_
      intro s hs
      exact ⟨hs.size, hs.keep, fun _ _ _ _ _ _ _ _ _ _ _ _ => (hs.fact.2 _).1,
        fun x _ => (hs.fact.2 x).2⟩
    | true =>
      simp only [if_true]
      obtain ⟨_, hiC⟩ := hCh hb
      have u1 := Env.memalign (F := F) (s0 := s0) (sz := sz3) (X := noX) .Cp cSz hCp hC3 (Stable.true _)
      refine Triple.seq u1 ?_
      refine (Env.pack (R := fun mem => CPk M N p cx.m_r cx.n_r m_c n_c
          (fun r c => s0.mem ⟨.C, r * N + c⟩) mem (fun _ => true)) _
        (packC_seqW (K := K) h ⟨.C, 0⟩ ⟨.Cp, 0⟩) (szSet_self _ _ _) (by rw [hcS]) hCp ?_ ?_
        (Stable.true _) ?_).conseq (fun _ h => h) ?_
      · intro s hs o ho l hl
        obtain ⟨x, hx, rfl⟩ := packCK_reads h _ _ o ho l hl
        have hC0 : s0.size .C ≠ none := by simp [hnC]
        simp only [Loc.off, Nat.zero_add]
        refine ⟨inB_of (n := nC) hC4 (by omega), ?_⟩
        rw [(hs.keep ⟨.C, x⟩ hC0 (fun h => h)).2]
        exact hiC x hx
      · intro o ho l hl
        obtain ⟨x, _, rfl⟩ := packCK_reads h _ _ o ho l hl
        simp
      · intro s hs
        refine ⟨?_, fun _ _ => rfl⟩
        intro n m core r c hn hm hcore hr hc hN hM
        have hv := packCK_val (K := K) h F ⟨.C, 0⟩ ⟨.Cp, 0⟩ (by simp) s.mem hn hm hcore hr hc
        rw [if_neg (by omega)] at hv
        simp only [Loc.off, Nat.zero_add] at hv
        rw [hv, (hs.keep ⟨.C, _⟩ (by simp [hnC]) (fun h => h)).1]
      · intro s hs
        exact ⟨hs.size, hs.keep, hs.fact.2.1.1, hs.fact.2.2⟩
  have t5 := unpackK_triple (F := F) (K := K) h (s0 := s0) (sz := sz4)
    (cm := fun r c => if nz beta then s0.mem ⟨.C, r * N + c⟩ else F.zero) hC4 hleC (szSet_self _ _ _)
    (nP := cSz) (by rw [hcS])
  set Q : Mem α → (Loc → Bool) → Prop := (fun m i => ∀ r c, r < M → c < N →
      i ⟨.C, r * N + c⟩ = true ∧
      m ⟨.C, r * N + c⟩ = if nz beta then s0.mem ⟨.C, r * N + c⟩ else F.zero) with hQ
  have f1 := Env.free (F := F) (s0 := s0) (sz := sz4) (X := cX M N) (P := Q) .Ap
    (by simp [hsz4, hsz3, hsz2, szSet])
  have f2 := Env.free (F := F) (s0 := s0) (sz := szSet sz4 .Ap none) (X := cX M N) (P := Q) .Bp
    (by simp [hsz4, hsz3, hsz2, szSet])
  have f3 := Env.free (F := F) (s0 := s0) (sz := szSet (szSet sz4 .Ap none) .Bp none) (X := cX M N) (P := Q) .Cp
    (by simp [hsz4, hsz3, hsz2, szSet])
  have f4 := Env.free (F := F) (s0 := s0) (sz := szSet (szSet (szSet sz4 .Ap none) .Bp none) .Cp none)
    (X := cX M N) (P := Q) .Blk (by simp [hsz4, hsz3, hsz2, hsz1, szSet])
  have tt := (((t1.seq t2).seq ((t3.conseq (P' := Env s0 sz2 noX (fun m i => True ∧
      AOk M K p cx.m_r m_c k_c (entry s0 .A K) m i))
      (fun s hs => ⟨hs.size, hs.keep, trivial⟩) (fun s hs => ⟨hs.size, hs.keep, trivial⟩)).seq t4)).seq t5).seq
      (f1.seq (f2.seq (f3.seq f4)))
  have ttt := tt.conseq (fun _ h => h) (Q' := Env s0 s0.size (cX M N) Q) (by
    intro s hs
    refine ⟨?_, hs.keep, hs.fact⟩
    rw [hs.size]
    funext b
    simp only [hsz4, hsz3, hsz2, hsz1, szSet]
    by_cases h1 : b = .Blk
    · simp [h1, hblk]
    by_cases h2 : b = .Cp
    · simp [h2, hCp]
    by_cases h3 : b = .Bp
    · simp [h3, hBp]
    by_cases h4 : b = .Ap
    · simp [h4, hAp]
    simp [h1, h2, h3, h4])
  simpa [List.append_assoc, phases] using ttt

omit h in
theorem sgemmTest_call (F : Arith α) (nz : α → Bool) (cx : Cntx) (h : TileOK p cx.m_r cx.n_r m_c k_c n_c)
    (alpha beta : α) {s : State α} (hs : CallOK s M N K) (hCh : nz beta = true → Holds s .C M N) :
    Computes F (cake_sgemm_test nz cx ⟨.A, 0⟩ ⟨.B, 0⟩ ⟨.C, 0⟩ M N K p false false alpha beta m_c k_c n_c) s
      (Env s s.size (cX M N) (fun m i => ∀ r c, r < M → c < N →
        i ⟨.C, r * N + c⟩ = true ∧
        m ⟨.C, r * N + c⟩ = if nz beta then s.mem ⟨.C, r * N + c⟩ else F.zero)) :=
  Computes.of_triple rfl (sgemmTest_triple (F := F) h rfl rfl hs alpha beta hCh rfl)

end
end Cake
