/-
`cake_sgemm` with the M-first and N-first schedules: the complete program, in terms of the shared-C
scheme.
-/
import Verif.Proofs.SchedN
import Verif.Proofs.SgemmK

namespace Cake
open List

section
variable {α : Type _} {F : Arith α}

/-- The program around packing and computation: block-dimension record, optional packing of A and B,
work, release of everything. -/
theorem skel {s0 : State α} {packedA packedB : Bool} {aSz bSz : Nat} {pA pB work : Prog}
    {X : Loc → Prop} {QA QB Q : Mem α → (Loc → Bool) → Prop}
    (hAp : packedA = false → s0.size .Ap = none) (hBp : packedB = false → s0.size .Bp = none)
    (hblk : s0.size .Blk = none) (hdims : s0.size .Dims = none)
    (tA : ∀ sz, (∀ b, s0.size b ≠ none → sz b = s0.size b) → (packedA = false → sz .Ap = none) →
      Triple F (Env s0 sz noX (fun _ _ => True)) pA
        (Env s0 (if packedA then sz else szSet sz .Ap (some aSz)) noX QA))
    (tB : ∀ sz, (∀ b, s0.size b ≠ none → sz b = s0.size b) → (packedB = false → sz .Bp = none) →
      Triple F (Env s0 sz noX QA) pB
        (Env s0 (if packedB then sz else szSet sz .Bp (some bSz)) noX QB))
    (tW : ∀ sz, (∀ b, s0.size b ≠ none → sz b = s0.size b) →
      (∀ b, b ≠ .Blk → b ≠ .Ap → b ≠ .Bp → sz b = s0.size b) →
      (packedA = false → sz .Ap = some aSz) → (packedB = false → sz .Bp = some bSz) →
      Triple F (Env s0 sz noX QB) work (Env s0 sz X Q)) :
    Triple F (· = s0) ([.malloc .Blk 1, .malloc .Dims 1, .free .Dims] ++ pA ++ pB ++ work ++
      ((if packedA then [] else [.free .Ap]) ++ (if packedB then [] else [.free .Bp]) ++ [.free .Blk]))
      (Env s0 s0.size X Q) := by
  set sz1 := szSet s0.size .Blk (some 1) with hsz1
  set sz2 := (if packedA then sz1 else szSet sz1 .Ap (some aSz)) with hsz2
  set sz3 := (if packedB then sz2 else szSet sz2 .Bp (some bSz)) with hsz3
  have k1 : ∀ b, s0.size b ≠ none → sz1 b = s0.size b := by
    intro b hb
    rw [hsz1, szSet_ne]
    rintro rfl; exact hb hblk
  have k2 : ∀ b, s0.size b ≠ none → sz2 b = s0.size b := by
    intro b hb
    rw [hsz2]
    split
    · exact k1 b hb
    · rename_i hp
      rw [szSet_ne _ _ (by rintro rfl; exact hb (hAp (by simpa using hp)))]
      exact k1 b hb
  have k3 : ∀ b, s0.size b ≠ none → sz3 b = s0.size b := by
    intro b hb
    rw [hsz3]
    split
    · exact k2 b hb
    · rename_i hp
      rw [szSet_ne _ _ (by rintro rfl; exact hb (hBp (by simpa using hp)))]
      exact k2 b hb
  have n2 : ∀ b, b ≠ .Blk → b ≠ .Ap → sz2 b = s0.size b := by
    intro b h1 h2
    rw [hsz2]
    split
    · rw [hsz1, szSet_ne _ _ h1]
    · rw [szSet_ne _ _ h2, hsz1, szSet_ne _ _ h1]
  have n3 : ∀ b, b ≠ .Blk → b ≠ .Ap → b ≠ .Bp → sz3 b = s0.size b := by
    intro b h1 h2 h3
    rw [hsz3]
    split
    · exact n2 b h1 h2
    · rw [szSet_ne _ _ h3]; exact n2 b h1 h2
  have hap2 : sz3 .Ap = sz2 .Ap := by
    rw [hsz3]; split
    · rfl
    · rw [szSet_ne _ _ (by simp)]
  have hblk3 : sz3 .Blk = some 1 := by
    rw [hsz3]
    have : sz2 .Blk = some 1 := by
      rw [hsz2]; split
      · rw [hsz1, szSet_self]
      · rw [szSet_ne _ _ (by simp), hsz1, szSet_self]
    split
    · exact this
    · rw [szSet_ne _ _ (by simp)]; exact this
  have t1 := dims_triple (F := F) hblk hdims
  have t2 := tA sz1 k1 (fun hp => by rw [hsz1, szSet_ne _ _ (by simp)]; exact hAp hp)
  have t3 := tB sz2 k2 (fun hp => by rw [n2 _ (by simp) (by simp)]; exact hBp hp)
  have t4 := tW sz3 k3 n3 (fun hp => by rw [hap2, hsz2, hp]; simp [szSet])
    (fun hp => by rw [hsz3, hp]; simp [szSet])
  set sz5 := (if packedA then sz3 else szSet sz3 .Ap none) with hsz5
  set sz6 := (if packedB then sz5 else szSet sz5 .Bp none) with hsz6
  have t5 : Triple F (Env s0 sz3 X Q) (if packedA then [] else [.free .Ap]) (Env s0 sz5 X Q) := by
    rw [hsz5]
    cases packedA with
    | true => exact Triple.nil
    | false => exact Env.free _ (by rw [hap2, hsz2]; simp [szSet])
  have t6 : Triple F (Env s0 sz5 X Q) (if packedB then [] else [.free .Bp]) (Env s0 sz6 X Q) := by
    rw [hsz6]
    cases packedB with
    | true => exact Triple.nil
    | false =>
      apply Env.free
      rw [hsz5, hsz3]
      split <;> simp [szSet]
  have t7 : Triple F (Env s0 sz6 X Q) [.free .Blk] (Env s0 (szSet sz6 .Blk none) X Q) := by
    apply Env.free
    have : sz5 .Blk ≠ none := by
      rw [hsz5]; split
      · rw [hblk3]; simp
      · rw [szSet_ne _ _ (by simp), hblk3]; simp
    rw [hsz6]; split
    · exact this
    · rw [szSet_ne _ _ (by simp)]; exact this
  refine ((((t1.seq t2).seq t3).seq t4).seq ((t5.seq t6).seq t7)).conseq (fun _ h => h) ?_
  intro s hs
  refine ⟨?_, hs.keep, hs.fact⟩
  rw [hs.size]
  funext b'
  by_cases h1 : b' = .Blk
  · subst h1; rw [szSet_self, hblk]
  rw [szSet_ne _ _ h1, hsz6]
  by_cases h2 : b' = .Bp
  · subst h2
    cases packedB with
    | false => simp only [Bool.false_eq_true, if_false, szSet_self]; rw [hBp rfl]
    | true =>
      simp only [if_true]
      rw [hsz5]
      have : sz3 .Bp = s0.size .Bp := by
        rw [hsz3, if_pos rfl, n2 _ (by simp) (by simp)]
      split
      · exact this
      · rw [szSet_ne _ _ (by simp)]; exact this
  · have e6 : (if packedB then sz5 else szSet sz5 .Bp none) b' = sz5 b' := by
      split
      · rfl
      · rw [szSet_ne _ _ h2]
    rw [e6, hsz5]
    by_cases h3 : b' = .Ap
    · subst h3
      cases packedA with
      | false => simp only [Bool.false_eq_true, if_false, szSet_self]; rw [hAp rfl]
      | true =>
        simp only [if_true]
        rw [hap2, hsz2, if_pos rfl, hsz1, szSet_ne _ _ (by simp)]
    · have e5 : (if packedA then sz3 else szSet sz3 .Ap none) b' = sz3 b' := by
        split
        · rfl
        · rw [szSet_ne _ _ h3]
      rw [e5, n3 _ h1 h3 h2]

end

section
variable {α : Type _} {F : Arith α} {M N K p m_r n_r mS k_c n_c : Nat}

/-- What the call needs of operand A: a plain matrix, or a buffer already packed. -/
structure AInS (s0 : State α) (packed : Bool) (ly : Lay M N K p m_r n_r mS k_c n_c)
    (a : Nat → Nat → α) : Prop where
  plain : packed = false → Holds s0 .A M K ∧ s0.size .Ap = none ∧
    ∀ r k, a r k = s0.mem ⟨.A, r * K + k⟩
  pre : packed = true → (∃ n, s0.size .Ap = some n ∧ padTo M mS m_r * K ≤ n) ∧
    (∀ x, x < padTo M mS m_r * K → s0.init ⟨.Ap, x⟩ = true) ∧ ASh ly s0.mem a

/-- What the call needs of operand B: a plain matrix in an object with `bNeed` initialised elements
(what the packing reads), or a buffer already packed. -/
structure BInS (s0 : State α) (packed : Bool) (ly : Lay M N K p m_r n_r mS k_c n_c)
    (b : Nat → Nat → α) : Prop where
  plain : packed = false → (∃ n, s0.size .B = some n ∧ bNeed N K p n_r k_c n_c ≤ n) ∧
    (∀ x, x < bNeed N K p n_r k_c n_c → s0.init ⟨.B, x⟩ = true) ∧ s0.size .Bp = none ∧
    ∀ k c, b k c = s0.mem ⟨.B, k * N + c⟩
  pre : packed = true → (∃ n, s0.size .Bp = some n ∧ padTo N n_c n_r * K ≤ n) ∧
    (∀ x, x < padTo N n_c n_r * K → s0.init ⟨.Bp, x⟩ = true) ∧ BSh ly s0.mem b

def AOkS (ly : Lay M N K p m_r n_r mS k_c n_c) (a : Nat → Nat → α) (mem : Mem α) (init : Loc → Bool) :
    Prop := ASh ly mem a ∧ ∀ x, x < padTo M mS m_r * K → init ⟨.Ap, x⟩ = true

def BOkS (ly : Lay M N K p m_r n_r mS k_c n_c) (b : Nat → Nat → α) (mem : Mem α) (init : Loc → Bool) :
    Prop := BSh ly mem b ∧ ∀ x, x < padTo N n_c n_r * K → init ⟨.Bp, x⟩ = true

def COkS (ly : Lay M N K p m_r n_r mS k_c n_c) (c : Nat → Nat → α) (mem : Mem α) (init : Loc → Bool) :
    Prop := CSh ly mem c ∧ ∀ x, x < padTo M mS m_r * padTo N n_c n_r → init ⟨.Cp, x⟩ = true

theorem AOkS.stable {D : Buf → Prop} (hD : ¬ D .Ap) (ly : Lay M N K p m_r n_r mS k_c n_c)
    (a : Nat → Nat → α) : Stable D (AOkS ly a) := by
  intro m m' i i' h hp
  refine ⟨?_, fun x hx => by rw [(h ⟨.Ap, x⟩ hD).2]; exact hp.2 x hx⟩
  intro _ _ _ _ _ g1 g2 g3 g4 g5 g6
  rw [(h ⟨.Ap, _⟩ hD).1]
  exact hp.1 _ _ _ _ _ g1 g2 g3 g4 g5 g6

theorem BOkS.stable {D : Buf → Prop} (hD : ¬ D .Bp) (ly : Lay M N K p m_r n_r mS k_c n_c)
    (b : Nat → Nat → α) : Stable D (BOkS ly b) := by
  intro m m' i i' h hp
  refine ⟨?_, fun x hx => by rw [(h ⟨.Bp, x⟩ hD).2]; exact hp.2 x hx⟩
  intro _ _ _ _ _ g1 g2 g3 g4 g5 g6
  rw [(h ⟨.Bp, _⟩ hD).1]
  exact hp.1 _ _ _ _ _ g1 g2 g3 g4 g5 g6

variable (h : GeoOK p m_r n_r mS k_c n_c) {ly : Lay M N K p m_r n_r mS k_c n_c}
include h

theorem prepAS {s0 : State α} {sz : Buf → Option Nat} {P : Mem α → (Loc → Bool) → Prop}
    {a : Nat → Nat → α} {packed : Bool} (hin : AInS s0 packed ly a)
    (hsz : ∀ b, s0.size b ≠ none → sz b = s0.size b) (hfr : packed = false → sz .Ap = none)
    (hst : Stable (· = .Ap) P) {pa : List (List (List Op))}
    (hpa : packed = false → IsPackA ly (phaseOps pa)) :
    Triple F (Env s0 sz noX P)
      (if packed then [] else .memalign .Ap (padTo M mS m_r * K) :: phases pa)
      (Env s0 (if packed then sz else szSet sz .Ap (some (padTo M mS m_r * K))) noX
        (fun m i => P m i ∧ AOkS ly a m i)) := by
  cases packed with
  | true =>
    obtain ⟨⟨n, hn, hle⟩, hinit, hpk⟩ := hin.pre rfl
    refine Triple.nil.conseq (fun _ h => h) ?_
    intro s hs
    have hk : ∀ x, s.mem ⟨.Ap, x⟩ = s0.mem ⟨.Ap, x⟩ ∧ s.init ⟨.Ap, x⟩ = s0.init ⟨.Ap, x⟩ := fun x =>
      hs.keep ⟨.Ap, x⟩ (by simp [hn]) (fun h => h)
    refine ⟨hs.size, hs.keep, hs.fact, ?_, ?_⟩
    · intro _ _ _ _ _ g1 g2 g3 g4 g5 g6
      rw [(hk _).1]
      exact hpk _ _ _ _ _ g1 g2 g3 g4 g5 g6
    · intro x hx
      rw [(hk x).2]; exact hinit x hx
  | false =>
    obtain ⟨⟨⟨nA, hnA, hleA⟩, hinit⟩, hAp, ha⟩ := hin.plain rfl
    have hpa := hpa rfl
    simp only [Bool.false_eq_true, if_false]
    have t1 := Env.memalign (F := F) (s0 := s0) (sz := sz) (X := noX) .Ap (padTo M mS m_r * K) hAp
      (hfr rfl) hst
    refine Triple.seq t1 ?_
    have hA0 : s0.size .A ≠ none := by simp [hnA]
    refine (Env.pack (R := fun mem => ASh ly mem a) _ hpa.seq
      (szSet_self _ _ _) (Nat.le_refl _) hAp ?_ ?_ hst ?_).conseq (fun _ h => h) (fun s hs => hs)
    · intro s hs o ho l hl
      obtain ⟨x, hx, rfl⟩ := hpa.reads h o ho l hl
      refine ⟨?_, ?_⟩
      · apply inB_of (n := nA) _ (by omega)
        rw [szSet_ne _ _ (by simp), hsz _ hA0, hnA]
      · rw [(hs.keep ⟨.A, x⟩ hA0 (fun h => h)).2]
        exact hinit x hx
    · intro o ho l hl
      obtain ⟨x, _, rfl⟩ := hpa.reads h o ho l hl
      simp
    · intro s hs
      have := hpa.val h F s.mem
      intro k m core r i g1 g2 g3 g4 g5 g6
      rw [this _ _ _ _ _ g1 g2 g3 g4 g5 g6, ha]
      exact (hs.keep ⟨.A, _⟩ hA0 (fun h => h)).1

theorem prepBS {s0 : State α} {sz : Buf → Option Nat} {P : Mem α → (Loc → Bool) → Prop}
    {b : Nat → Nat → α} {packed : Bool} (hin : BInS s0 packed ly b)
    (hsz : ∀ b, s0.size b ≠ none → sz b = s0.size b) (hfr : packed = false → sz .Bp = none)
    (hst : Stable (· = .Bp) P) {pb : List (List (List Op))}
    (hpb : packed = false → IsPackB ly (phaseOps pb)) :
    Triple F (Env s0 sz noX P)
      (if packed then [] else .memalign .Bp (padTo N n_c n_r * K) :: phases pb)
      (Env s0 (if packed then sz else szSet sz .Bp (some (padTo N n_c n_r * K))) noX
        (fun m i => P m i ∧ BOkS ly b m i)) := by
  cases packed with
  | true =>
    obtain ⟨⟨n, hn, hle⟩, hinit, hpk⟩ := hin.pre rfl
    refine Triple.nil.conseq (fun _ h => h) ?_
    intro s hs
    have hk : ∀ x, s.mem ⟨.Bp, x⟩ = s0.mem ⟨.Bp, x⟩ ∧ s.init ⟨.Bp, x⟩ = s0.init ⟨.Bp, x⟩ := fun x =>
      hs.keep ⟨.Bp, x⟩ (by simp [hn]) (fun h => h)
    refine ⟨hs.size, hs.keep, hs.fact, ?_, ?_⟩
    · intro _ _ _ _ _ g1 g2 g3 g4 g5 g6
      rw [(hk _).1]
      exact hpk _ _ _ _ _ g1 g2 g3 g4 g5 g6
    · intro x hx
      rw [(hk x).2]; exact hinit x hx
  | false =>
    obtain ⟨⟨nB, hnB, hleB⟩, hinit, hBp, hb⟩ := hin.plain rfl
    have hpb := hpb rfl
    simp only [Bool.false_eq_true, if_false]
    have t1 := Env.memalign (F := F) (s0 := s0) (sz := sz) (X := noX) .Bp (padTo N n_c n_r * K) hBp
      (hfr rfl) hst
    refine Triple.seq t1 ?_
    have hB0 : s0.size .B ≠ none := by simp [hnB]
    refine (Env.pack (R := fun mem => BSh ly mem b) _ hpb.seq
      (szSet_self _ _ _) (Nat.le_refl _) hBp ?_ ?_ hst ?_).conseq (fun _ h => h) (fun s hs => hs)
    · intro s hs o ho l hl
      obtain ⟨x, hx, rfl⟩ := hpb.reads h o ho l hl
      refine ⟨?_, ?_⟩
      · apply inB_of (n := nB) _ (by omega)
        rw [szSet_ne _ _ (by simp), hsz _ hB0, hnB]
      · rw [(hs.keep ⟨.B, x⟩ hB0 (fun h => h)).2]
        exact hinit x hx
    · intro o ho l hl
      obtain ⟨x, _, rfl⟩ := hpb.reads h o ho l hl
      simp
    · intro s hs
      have := hpb.val h F s.mem
      intro n k core c i g1 g2 g3 g4 g5 g6
      rw [this _ _ _ _ _ g1 g2 g3 g4 g5 g6, hb]
      exact (hs.keep ⟨.B, _⟩ hB0 (fun h => h)).1

/-- Preparing the buffer for C. -/
theorem prepCS {s0 : State α} {sz : Buf → Option Nat} {P : Mem α → (Loc → Bool) → Prop} {useC : Bool}
    (hsz : ∀ b, s0.size b ≠ none → sz b = s0.size b) (h0 : s0.size .Cp = none) (hfr : sz .Cp = none)
    (hC : useC = true → Holds s0 .C M N) (hst : Stable (· = .Cp) P) {pc : List (List (List Op))}
    (hpc : useC = true → IsPackC ly (phaseOps pc)) :
    Triple F (Env s0 sz noX P)
      (if useC then .memalign .Cp (padTo M mS m_r * padTo N n_c n_r) :: phases pc
        else [.calloc .Cp (padTo M mS m_r * padTo N n_c n_r)])
      (Env s0 (szSet sz .Cp (some (padTo M mS m_r * padTo N n_c n_r))) noX (fun m i => P m i ∧
        COkS ly (fun r c => if useC then s0.mem ⟨.C, r * N + c⟩ else F.zero) m i)) := by
  cases useC with
  | false =>
    refine (Env.calloc .Cp _ h0 hfr hst).conseq (fun _ h => h) ?_
    intro s hs
    refine ⟨hs.size, hs.keep, hs.fact.1, ?_, fun x _ => (hs.fact.2 x).2⟩
    intro n m r c _ _ _ _ _ _
    simpa using (hs.fact.2 _).1
  | true =>
    obtain ⟨⟨nC, hnC, hleC⟩, hinit⟩ := hC rfl
    have hpc := hpc rfl
    simp only [if_true]
    have t1 := Env.memalign (F := F) (s0 := s0) (sz := sz) (X := noX) .Cp
      (padTo M mS m_r * padTo N n_c n_r) h0 hfr hst
    refine Triple.seq t1 ?_
    have hC0 : s0.size .C ≠ none := by simp [hnC]
    refine (Env.pack (R := fun mem => CSh ly mem (fun r c => s0.mem ⟨.C, r * N + c⟩)) _ hpc.seq
      (szSet_self _ _ _) (Nat.le_refl _) h0 ?_ ?_ hst ?_).conseq (fun _ h => h) (fun s hs => hs)
    · intro s hs o ho l hl
      obtain ⟨x, hx, rfl⟩ := hpc.reads h o ho l hl
      refine ⟨?_, ?_⟩
      · apply inB_of (n := nC) _ (by omega)
        rw [szSet_ne _ _ (by simp), hsz _ hC0, hnC]
      · rw [(hs.keep ⟨.C, x⟩ hC0 (fun h => h)).2]
        exact hinit x hx
    · intro o ho l hl
      obtain ⟨x, _, rfl⟩ := hpc.reads h o ho l hl
      simp
    · intro s hs
      have := hpc.val h F s.mem
      intro n m r c g1 g2 g3 g4 g5 g6
      rw [this _ _ _ _ g1 g2 g3 g4 g5 g6]
      exact (hs.keep ⟨.C, _⟩ hC0 (fun h => h)).1

/-- Schedule, unpacking and release of the C buffer. -/
theorem workS {kd : KDim} (hkd : kd.Fits m_r n_r) {order : Nat → Nat → List Nat}
    {L : List (Nat × Nat × Nat × Nat)} {sc uc : List (List (List Op))} (hsc : IsSched kd ly order L sc)
    (huc : IsUnpackC ly uc) {s0 : State α} {sz : Buf → Option Nat} {a b c0 : Nat → Nat → α}
    (hsz : ∀ b, s0.size b ≠ none → sz b = s0.size b)
    (hap : ∃ n, sz .Ap = some n ∧ padTo M mS m_r * K ≤ n)
    (hbp : ∃ n, sz .Bp = some n ∧ padTo N n_c n_r * K ≤ n)
    (hcp : sz .Cp = some (padTo M mS m_r * padTo N n_c n_r)) (hcp0 : s0.size .Cp = none)
    (hC : Room s0 .C M N) (hreg : ∀ t, s0.size (.reg t) = none) :
    Triple F (Env s0 sz noX (fun m i => (AOkS ly a m i ∧ BOkS ly b m i) ∧ COkS ly c0 m i))
      (phases sc ++ phases uc ++ [.free .Cp])
      (Env s0 (szSet sz .Cp none) (cX M N) (fun m i => ∀ r c, r < M → c < N →
        i ⟨.C, r * N + c⟩ = true ∧ m ⟨.C, r * N + c⟩ = dotFrom F (a r) (fun k => b k c)
          ((order (c / n_c) (r / mS)).flatMap (kOrd K p k_c)) (c0 r c))) := by
  obtain ⟨nC, hnC, hleC⟩ := hC
  obtain ⟨nA, hnA, hleA⟩ := hap
  obtain ⟨nB, hnB, hleB⟩ := hbp
  have t1 : Triple F (Env s0 sz noX (fun m i => (AOkS ly a m i ∧ BOkS ly b m i) ∧ COkS ly c0 m i))
      (phases sc) (Env s0 sz noX (COkS ly (fun row col => dotFrom F (a row) (fun kk => b kk col)
      ((order (col / n_c) (row / mS)).flatMap (kOrd K p k_c)) (c0 row col)))) := by
    apply Env.phases
    · exact hsc.rf
    · intro s hs
      apply hsc.safe h hkd
      exact ⟨fun x hx => ⟨inB_of hnA (by omega), hs.fact.1.1.2 x hx⟩,
        fun x hx => ⟨inB_of hnB (by omega), hs.fact.1.2.2 x hx⟩,
        fun x hx => ⟨inB_of hcp hx, hs.fact.2.2 x hx⟩⟩
    · intro s hs
      refine ⟨hs.size, ?_, hsc.val h F hkd s.mem a b c0 hs.fact.1.1.1 hs.fact.1.2.1 hs.fact.2.1, ?_⟩
      · intro l hl hX
        have hno : ∀ o ∈ phaseOps sc, o.dst ≠ l := by
          intro o ho e
          rcases hsc.dst h hkd o ho with ⟨t, e'⟩ | e'
          · rw [e] at e'; rw [e'] at hl; exact hl (hreg t)
          · rw [e] at e'; rw [e'] at hl; exact hl hcp0
        have := hs.keep l hl (fun h => h)
        exact ⟨(exec_frame F _ _ _ hno).trans this.1, (initAfter_eq_of_not_dst hno).trans this.2⟩
      · intro x hx
        exact initAfter_of_mem (Or.inl (hs.fact.2.2 x hx))
  have t2 : Triple F (Env s0 sz noX (COkS ly (fun row col => dotFrom F (a row) (fun kk => b kk col)
      ((order (col / n_c) (row / mS)).flatMap (kOrd K p k_c)) (c0 row col)))) (phases uc)
      (Env s0 sz (cX M N) (fun m i => ∀ r c, r < M → c < N →
        i ⟨.C, r * N + c⟩ = true ∧ m ⟨.C, r * N + c⟩ = dotFrom F (a r) (fun k => b k c)
          ((order (c / n_c) (r / mS)).flatMap (kOrd K p k_c)) (c0 r c))) := by
    apply Env.phases
    · exact huc.rf
    · intro s hs ts hts t ht
      apply Safe.of_forall
      intro o ho
      have ho' : o ∈ phaseOps uc := mem_flatten.2 ⟨_, mem_map_of_mem hts, mem_flatten.2 ⟨t, ht, ho⟩⟩
      refine ⟨?_, ?_⟩
      · obtain ⟨x, hx, e⟩ := huc.dst h o ho'
        rw [e]
        exact inB_of (by rw [hsz _ (by simp [hnC]), hnC]) (by omega)
      · intro l hl
        obtain ⟨x, hx, rfl⟩ := huc.reads h o ho' l hl
        exact ⟨inB_of hcp hx, hs.fact.2 x hx⟩
    · intro s hs
      refine ⟨hs.size, ?_, ?_⟩
      · intro l hl hX
        have hno : ∀ o ∈ phaseOps uc, o.dst ≠ l := by
          intro o ho e
          obtain ⟨x, hx, e'⟩ := huc.dst h o ho
          rw [e] at e'; subst e'; exact hX ⟨rfl, hx⟩
        have := hs.keep l hl (fun h => h)
        exact ⟨(exec_frame F _ _ _ hno).trans this.1, (initAfter_eq_of_not_dst hno).trans this.2⟩
      · intro r c hr hc
        have := huc.val h F s.mem _ hs.fact.1 hr hc
        exact ⟨initAfter_of_mem (Or.inr this.2), this.1⟩
  exact (t1.seq t2).seq (Env.free _ (by rw [hcp]; simp))

/-- The complete call in the shared-C scheme. -/
theorem sgemmS_triple {kd : KDim} (hkd : kd.Fits m_r n_r) {order : Nat → Nat → List Nat}
    {L : List (Nat × Nat × Nat × Nat)} {pa pb pc sc uc : List (List (List Op))}
    {packedA packedB useC : Bool}
    (hpa : packedA = false → IsPackA ly (phaseOps pa)) (hpb : packedB = false → IsPackB ly (phaseOps pb))
    (hpc : useC = true → IsPackC ly (phaseOps pc))
    (hsc : IsSched kd ly order L sc) (huc : IsUnpackC ly uc) {s0 : State α} {a b : Nat → Nat → α}
    (hA : AInS s0 packedA ly a) (hB : BInS s0 packedB ly b) (hC : Room s0 .C M N)
    (hC' : useC = true → Holds s0 .C M N) (hcp : s0.size .Cp = none)
    (hreg : ∀ t, s0.size (.reg t) = none)
    (hblk : s0.size .Blk = none) (hdims : s0.size .Dims = none) :
    Triple F (· = s0) ([.malloc .Blk 1, .malloc .Dims 1, .free .Dims] ++
      (if packedA then [] else .memalign .Ap (padTo M mS m_r * K) :: phases pa) ++
      (if packedB then [] else .memalign .Bp (padTo N n_c n_r * K) :: phases pb) ++
      ((if useC then .memalign .Cp (padTo M mS m_r * padTo N n_c n_r) :: phases pc
        else [.calloc .Cp (padTo M mS m_r * padTo N n_c n_r)]) ++ phases sc ++ phases uc ++ [.free .Cp]) ++
      ((if packedA then [] else [.free .Ap]) ++ (if packedB then [] else [.free .Bp]) ++ [.free .Blk]))
      (Env s0 s0.size (cX M N) (fun m i => ∀ r c, r < M → c < N →
        i ⟨.C, r * N + c⟩ = true ∧ m ⟨.C, r * N + c⟩ = dotFrom F (a r) (fun k => b k c)
          ((order (c / n_c) (r / mS)).flatMap (kOrd K p k_c))
          (if useC then s0.mem ⟨.C, r * N + c⟩ else F.zero))) := by
  refine skel (QA := fun m i => True ∧ AOkS ly a m i)
    (QB := fun m i => (True ∧ AOkS ly a m i) ∧ BOkS ly b m i)
    (fun hp => (hA.plain hp).2.1) (fun hp => (hB.plain hp).2.2.1) hblk hdims
    (fun sz k1 k2 => prepAS h hA k1 k2 (Stable.true _) hpa)
    (fun sz k1 k2 => prepBS h hB k1 k2 (Stable.and (Stable.true _) (AOkS.stable (by simp) ly a)) hpb) ?_
  intro sz k1 k2 k3 k4
  have hcps : sz .Cp = none := by rw [k2 _ (by simp) (by simp) (by simp), hcp]
  have t1 := prepCS (F := F) (ly := ly) (sz := sz) h k1 hcp hcps hC'
    (P := fun m i => (True ∧ AOkS ly a m i) ∧ BOkS ly b m i)
    (Stable.and (Stable.and (Stable.true _) (AOkS.stable (by simp) ly a)) (BOkS.stable (by simp) ly b)) hpc
  have t2 := workS (F := F) h hkd hsc huc (a := a) (b := b)
    (c0 := fun r c => if useC then s0.mem ⟨.C, r * N + c⟩ else F.zero)
    (sz := szSet sz .Cp (some (padTo M mS m_r * padTo N n_c n_r)))
    (fun b hb => by rw [szSet_ne _ _ (by rintro rfl; exact hb hcp)]; exact k1 b hb)
    (by
      rw [szSet_ne _ _ (by simp)]
      cases packedA with
      | true =>
        obtain ⟨n, hn, hle⟩ := (hA.pre rfl).1
        exact ⟨n, by rw [k1 _ (by simp [hn]), hn], hle⟩
      | false => exact ⟨_, k3 rfl, Nat.le_refl _⟩)
    (by
      rw [szSet_ne _ _ (by simp)]
      cases packedB with
      | true =>
        obtain ⟨n, hn, hle⟩ := (hB.pre rfl).1
        exact ⟨n, by rw [k1 _ (by simp [hn]), hn], hle⟩
      | false => exact ⟨_, k4 rfl, Nat.le_refl _⟩)
    (szSet_self _ _ _) hcp hC hreg
  have t3 := t1.seq (t2.conseq (fun s hs => ⟨hs.size, hs.keep, ⟨hs.fact.1.1.2, hs.fact.1.2⟩, hs.fact.2⟩)
    (fun _ h => h))
  rw [← List.append_assoc, ← List.append_assoc] at t3
  refine t3.conseq (fun _ h => h) ?_
  intro s hs
  refine ⟨?_, hs.keep, hs.fact⟩
  rw [hs.size]
  funext b'
  unfold szSet
  by_cases hb : b' = .Cp
  · subst hb; simp [hcps]
  · simp [hb]

end

section
variable {α : Type _} (F : Arith α) {M N K p m_c k_c n_c : Nat}

/-- Sizes computed by the code. -/
theorem packedA_mkn (M K p m_r m_c : Nat) : packedASize M K p m_r m_c .MKN = some (padTo M m_c m_r * K) :=
  rfl

theorem packedA_nkm (M K p m_r m_c : Nat) :
    packedASize M K p m_r m_c .NKM = some (padTo M (p * m_c) m_r * K) := by
  unfold packedASize padTo
  congr 1; ring

theorem packedB_eq (K N n_r n_c : Nat) : packedBSize K N n_r n_c = padTo N n_c n_r * K := by
  unfold packedBSize
  rw [sub_mod_eq]
  unfold padTo
  ring

theorem packedC_mkn (M N p m_r n_r m_c n_c : Nat) :
    packedCSize M N p m_r n_r m_c n_c .MKN = some (padTo M m_c m_r * padTo N n_c n_r) := by
  unfold packedCSize
  rw [sub_mod_eq]
  rfl

theorem packedC_nkm (M N p m_r n_r m_c n_c : Nat) :
    packedCSize M N p m_r n_r m_c n_c .NKM = some (padTo M (p * m_c) m_r * padTo N n_c n_r) := by
  unfold packedCSize
  rw [sub_mod_eq]
  unfold padTo
  congr 1; ring

/-- The order in which the products of entry `(row, col)` are added, M-first. -/
def orderMKN (K p k_c n_c col : Nat) : List Nat :=
  (serp (col / n_c % 2 != 0) (cdiv K (p * k_c))).flatMap (kOrd K p k_c)

/-- The order in which the products of entry `(row, col)` are added, N-first. -/
def orderNKM (K p m_c k_c row : Nat) : List Nat :=
  (serp (row / (p * m_c) % 2 != 0) (cdiv K (p * k_c))).flatMap (kOrd K p k_c)

theorem orderMKN_perm {K p k_c n_c col : Nat} (hp : 0 < p) (hk : 0 < k_c) :
    (orderMKN K p k_c n_c col).Perm (range K) := kOrd_perm hp hk (serp_perm _ _)

theorem orderNKM_perm {K p m_c k_c row : Nat} (hp : 0 < p) (hk : 0 < k_c) :
    (orderNKM K p m_c k_c row).Perm (range K) := kOrd_perm hp hk (serp_perm _ _)

variable {F}

theorem sgemmM_triple {nz : α → Bool} {cx : Cntx} (h : TileOK p cx.m_r cx.n_r m_c k_c n_c)
    (hk : cx.kfix.Fits cx.m_r cx.n_r) {s0 : State α} {a b : Nat → Nat → α} {packedA packedB : Bool}
    {alpha beta : α}
    (hA : AInS s0 packedA (layM M N K p cx.m_r cx.n_r m_c k_c n_c h.geoM) a)
    (hB : BInS s0 packedB (layM M N K p cx.m_r cx.n_r m_c k_c n_c h.geoM) b)
    (hC : Room s0 .C M N) (hC' : nz beta = true → Holds s0 .C M N)
    (hcp : s0.size .Cp = none) (hreg : ∀ t, s0.size (.reg t) = none)
    (hblk : s0.size .Blk = none) (hdims : s0.size .Dims = none) {prog : Prog}
    (hprog : cake_sgemm nz cx ⟨if packedA then .Ap else .A, 0⟩ ⟨if packedB then .Bp else .B, 0⟩ ⟨.C, 0⟩
      M N K p packedA packedB alpha beta m_c k_c n_c .MKN = some prog) :
    Triple F (· = s0) prog (Env s0 s0.size (cX M N) (fun m i => ∀ r c, r < M → c < N →
      i ⟨.C, r * N + c⟩ = true ∧ m ⟨.C, r * N + c⟩ = dotFrom F (a r) (fun k => b k c)
        (orderMKN K p k_c n_c c) (if nz beta then s0.mem ⟨.C, r * N + c⟩ else F.zero))) := by
  have hAp : (if packedA then (⟨if packedA then Buf.Ap else Buf.A, 0⟩ : Loc) else ⟨.Ap, 0⟩) = ⟨.Ap, 0⟩ := by
    cases packedA <;> rfl
  have hBp : (if packedB then (⟨if packedB then Buf.Bp else Buf.B, 0⟩ : Loc) else ⟨.Bp, 0⟩) = ⟨.Bp, 0⟩ := by
    cases packedB <;> rfl
  have hsch : (dimsMKN M N K p cx.m_r cx.n_r m_c k_c n_c).sch = .MKN := rfl
  simp only [cake_sgemm, init_block_dims, hsch, packedA_mkn, packedB_eq, packedC_mkn, pack_A, pack_B,
    pack_C, unpack_C, schedule, Option.bind_eq_bind, Option.bind_some, Option.some.injEq, hAp, hBp,
    reduceCtorEq, if_false] at hprog
  subst hprog
  exact sgemmS_triple h.geoM hk (order := fun n _ => serp (n % 2 != 0) (cdiv K (p * k_c)))
    (fun hp => by subst hp; exact packA_m h)
    (fun hp => by subst hp; exact packB_m h) (fun _ => packC_m h) (schedM h hk) (unpackC_m h)
    hA hB hC hC' hcp hreg hblk hdims

theorem sgemmN_triple {nz : α → Bool} {cx : Cntx} (h : TileN p cx.m_r cx.n_r m_c k_c n_c)
    (hk : cx.kfix.Fits cx.m_r cx.n_r) {s0 : State α} {a b : Nat → Nat → α} {packedA packedB : Bool}
    {alpha beta : α}
    (hA : AInS s0 packedA (layN M N K p cx.m_r cx.n_r (p * m_c) k_c n_c h.geoN) a)
    (hB : BInS s0 packedB (layN M N K p cx.m_r cx.n_r (p * m_c) k_c n_c h.geoN) b)
    (hC : Room s0 .C M N)
    (hC' : nz beta = true → Holds s0 .C M N ∧ PackCAgree M N p cx.m_r cx.n_r m_c n_c)
    (hcp : s0.size .Cp = none) (hreg : ∀ t, s0.size (.reg t) = none)
    (hblk : s0.size .Blk = none) (hdims : s0.size .Dims = none) {prog : Prog}
    (hprog : cake_sgemm nz cx ⟨if packedA then .Ap else .A, 0⟩ ⟨if packedB then .Bp else .B, 0⟩ ⟨.C, 0⟩
      M N K p packedA packedB alpha beta m_c k_c n_c .NKM = some prog) :
    Triple F (· = s0) prog (Env s0 s0.size (cX M N) (fun m i => ∀ r c, r < M → c < N →
      i ⟨.C, r * N + c⟩ = true ∧ m ⟨.C, r * N + c⟩ = dotFrom F (a r) (fun k => b k c)
        (orderNKM K p m_c k_c r) (if nz beta then s0.mem ⟨.C, r * N + c⟩ else F.zero))) := by
  have hAp : (if packedA then (⟨if packedA then Buf.Ap else Buf.A, 0⟩ : Loc) else ⟨.Ap, 0⟩) = ⟨.Ap, 0⟩ := by
    cases packedA <;> rfl
  have hBp : (if packedB then (⟨if packedB then Buf.Bp else Buf.B, 0⟩ : Loc) else ⟨.Bp, 0⟩) = ⟨.Bp, 0⟩ := by
    cases packedB <;> rfl
  have hsch : (dimsNKM M N K p cx.m_r cx.n_r m_c k_c n_c).sch = .NKM := rfl
  simp only [cake_sgemm, init_block_dims, hsch, packedA_nkm, packedB_eq, packedC_nkm, pack_A, pack_B,
    pack_C, unpack_C, schedule, Option.bind_eq_bind, Option.bind_some, Option.some.injEq, hAp, hBp,
    reduceCtorEq, if_false] at hprog
  subst hprog
  exact sgemmS_triple h.geoN hk (order := fun _ m => serp (m % 2 != 0) (cdiv K (p * k_c)))
    (fun hp => by subst hp; exact packA_n h)
    (fun hp => by subst hp; exact packB_n h) (fun hp => packC_n h (hC' hp).2) (schedN h hk) (unpackC_n h)
    hA hB hC (fun hp => (hC' hp).1) hcp hreg hblk hdims

end
end Cake
