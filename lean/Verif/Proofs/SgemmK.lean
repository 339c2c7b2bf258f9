/-
`cake_sgemm` with the K-first schedule: the complete program.
-/
import Verif.Proofs.SchedK
import Verif.Model.Sgemm
import Verif.Proofs.Exact
import Mathlib.Tactic.IntervalCases

namespace Cake
open List

/-- The order in which the products of entry `(row, col)` are added: K blocks forwards or backwards,
each block forwards. -/
def orderKMN (K p m_c k_c n_c row col : Nat) : List Nat :=
  kOrder K k_c (serp (kDesc (col / n_c) (row / (p * m_c))) (cdiv K k_c))

theorem orderKMN_perm {K p m_c k_c n_c : Nat} (hk : 0 < k_c) (row col : Nat) :
    (orderKMN K p m_c k_c n_c row col).Perm (range K) :=
  kOrder_perm hk (serp_perm _ _)

section
variable {α : Type _} (F : Arith α)
variable {M N K p m_r n_r m_c k_c n_c Z : Nat} (h : TileOK p m_r n_r m_c k_c n_c)
variable {kd : KDim} (hk : kd.Fits m_r n_r)
include h

/-- Values of C after the schedule. -/
theorem schedK_entry {kd : KDim} (hk : kd.Fits m_r n_r) (hZ : ZOK M N p m_r n_r m_c n_c Z) (mem : Mem α) (a b : Nat → Nat → α)
    (hA : APacked mem M K p m_r m_c k_c a) (hB : BPacked mem N K n_r k_c n_c b)
    (hz : ∀ core x, core < p → x < Z → mem ⟨.CpC core, x⟩ = F.zero)
    {row col : Nat} (hrow : row < M) (hcol : col < N) :
    exec F (phaseOps (schedKZ kd ⟨.Ap, 0⟩ ⟨.Bp, 0⟩ ⟨.C, 0⟩ M N K p m_r n_r m_c k_c n_c Z)) mem ⟨.C, row * N + col⟩ =
    dotFrom F (a row) (fun k => b k col) (orderKMN K p m_c k_c n_c row col) F.zero := by
  obtain ⟨m, core, r, hm, hcore, hr, rfl⟩ := rowOf_cover h hrow
  obtain ⟨n, c, hn, hc, rfl⟩ := colOf_cover h hcol
  rw [schedK_val F h hk hZ mem a b hA hB hz hm hn hcore hr hc hrow hcol]
  have e1 : rowOf M p m_r m_c m core r / (p * m_c) = m := mulAdd_div (strip_in_block hr)
  have e2 : (n * n_c + c) / n_c = n := mulAdd_div (Nat.lt_of_lt_of_le hc (chopLen_le _ _ _))
  unfold dotFrom orderKMN
  rw [e1, e2]

/-- Everything in C that belongs to the matrix is written. -/
theorem schedK_covers {kd : KDim} {row col : Nat} (hrow : row < M) (hcol : col < N) :
    ∃ o ∈ phaseOps (schedKZ kd ⟨.Ap, 0⟩ ⟨.Bp, 0⟩ ⟨.C, 0⟩ M N K p m_r n_r m_c k_c n_c Z), o.dst = ⟨.C, row * N + col⟩ := by
  obtain ⟨m, core, r, hm, hcore, hr, rfl⟩ := rowOf_cover h hrow
  obtain ⟨n, c, hn, hc, rfl⟩ := colOf_cover h hcol
  rw [schedK_ops]
  refine ⟨.copy ⟨.C, rowOf M p m_r m_c m core r * N + (n * n_c + c)⟩
    ⟨.CpC core, cIdx m_r n_r (mT M p m_r m_c m core) r c⟩,
    mem_flatMap.2 ⟨(n, m), mem_blocksKMN.2 ⟨hn, hm⟩, mem_append_right _ (mem_flatMap.2 ⟨core,
      mem_range.2 hcore, ?_⟩)⟩, rfl⟩
  rw [unpackTask_mem h hm]
  left
  exact ⟨r, c, hr, hc, hcol, hrow, by simp [Loc.off]⟩

end

/-- What the K-first call needs of operand A: either a plain matrix and no packed buffer yet, or
a buffer already packed by `pack_A`. -/
structure AInK {α : Type _} (s0 : State α) (packed : Bool) (M K p m_r m_c k_c : Nat)
    (a : Nat → Nat → α) : Prop where
  plain : packed = false → Holds s0 .A M K ∧ s0.size .Ap = none ∧
    ∀ r k, a r k = s0.mem ⟨.A, r * K + k⟩
  pre : packed = true → (∃ n, s0.size .Ap = some n ∧ padTo M (p * m_c) m_r * K ≤ n) ∧
    (∀ x, x < padTo M (p * m_c) m_r * K → s0.init ⟨.Ap, x⟩ = true) ∧
    APacked s0.mem M K p m_r m_c k_c a

structure BInK {α : Type _} (s0 : State α) (packed : Bool) (N K n_r k_c n_c : Nat)
    (b : Nat → Nat → α) : Prop where
  plain : packed = false → Holds s0 .B K N ∧ s0.size .Bp = none ∧
    ∀ k c, b k c = s0.mem ⟨.B, k * N + c⟩
  pre : packed = true → (∃ n, s0.size .Bp = some n ∧ padTo N n_c n_r * K ≤ n) ∧
    (∀ x, x < padTo N n_c n_r * K → s0.init ⟨.Bp, x⟩ = true) ∧
    BPacked s0.mem N K n_r k_c n_c b

section
variable {α : Type _} {F : Arith α}
variable {M N K p m_r n_r m_c k_c n_c Z : Nat}

def AOk (M K p m_r m_c k_c : Nat) (a : Nat → Nat → α) (mem : Mem α) (init : Loc → Bool) : Prop :=
  APacked mem M K p m_r m_c k_c a ∧ ∀ x, x < padTo M (p * m_c) m_r * K → init ⟨.Ap, x⟩ = true

def BOk (N K n_r k_c n_c : Nat) (b : Nat → Nat → α) (mem : Mem α) (init : Loc → Bool) : Prop :=
  BPacked mem N K n_r k_c n_c b ∧ ∀ x, x < padTo N n_c n_r * K → init ⟨.Bp, x⟩ = true

theorem AOk.stable {D : Buf → Prop} (hD : ¬ D .Ap) (a : Nat → Nat → α) :
    Stable D (AOk M K p m_r m_c k_c a) := by
  intro m m' i i' h hp
  refine ⟨?_, fun x hx => by rw [(h ⟨.Ap, x⟩ hD).2]; exact hp.2 x hx⟩
  intro _ _ _ _ _ g1 g2 g3 g4 g5 g6
  rw [(h ⟨.Ap, _⟩ hD).1]
  exact hp.1 _ _ _ _ _ g1 g2 g3 g4 g5 g6

theorem BOk.stable {D : Buf → Prop} (hD : ¬ D .Bp) (b : Nat → Nat → α) :
    Stable D (BOk N K n_r k_c n_c b) := by
  intro m m' i i' h hp
  refine ⟨?_, fun x hx => by rw [(h ⟨.Bp, x⟩ hD).2]; exact hp.2 x hx⟩
  intro _ _ _ _ g1 g2 g3 g4 g5
  rw [(h ⟨.Bp, _⟩ hD).1]
  exact hp.1 _ _ _ _ g1 g2 g3 g4 g5

/-- No location is exempt. -/
def noX : Loc → Prop := fun _ => False

/-- The `M x N` part of C. -/
def cX (M N : Nat) : Loc → Prop := fun l => l.buf = .C ∧ l.idx < M * N

/-- The three `malloc`/`free` items at the start of every entry point. -/
theorem dims_triple {s0 : State α} (hB : s0.size .Blk = none) (hD : s0.size .Dims = none) :
    Triple F (· = s0) [.malloc .Blk 1, .malloc .Dims 1, .free .Dims]
      (Env s0 (szSet s0.size .Blk (some 1)) noX (fun _ _ => True)) := by
  have t0 : Triple F (· = s0) [] (Env s0 s0.size noX (fun _ _ => True)) :=
    Triple.nil.conseq (fun _ h => h) (by rintro s rfl; exact ⟨rfl, fun _ _ _ => ⟨rfl, rfl⟩, trivial⟩)
  have t1 := Env.malloc (F := F) (s0 := s0) (sz := s0.size) (X := noX) .Blk 1 hB hB (Stable.true _)
  have t2 := Env.malloc (F := F) (s0 := s0) (sz := szSet s0.size .Blk (some 1)) (X := noX) .Dims 1 hD
    (by simpa [szSet] using hD) (Stable.true _)
  have t3 := Env.free (F := F) (s0 := s0) (sz := szSet (szSet s0.size .Blk (some 1)) .Dims (some 1))
    (X := noX) (P := fun _ _ => True) .Dims (by simp [szSet])
  refine (Triple.seq (Triple.seq t1 t2) t3).conseq ?_ ?_
  · rintro s rfl; exact ⟨rfl, fun _ _ _ => ⟨rfl, rfl⟩, trivial⟩
  · intro s hs
    refine ⟨?_, hs.keep, trivial⟩
    rw [hs.size]
    funext b
    unfold szSet
    by_cases h1 : b = .Dims
    · subst h1; simp [hD]
    · simp [h1]

variable (h : TileOK p m_r n_r m_c k_c n_c)
include h

theorem prepA_triple {s0 : State α} {sz : Buf → Option Nat} {P : Mem α → (Loc → Bool) → Prop}
    {a : Nat → Nat → α} {packed : Bool}
    (hin : AInK s0 packed M K p m_r m_c k_c a) (hsz : ∀ b, s0.size b ≠ none → sz b = s0.size b)
    (hfr : packed = false → sz .Ap = none) (hst : Stable (· = .Ap) P) {aSz : Nat}
    (haSz : packedASize M K p m_r m_c .KMN = some aSz) (A : Loc) (hAl : packed = false → A = ⟨.A, 0⟩) :
    Triple F (Env s0 sz noX P)
      (if packed then [] else .memalign .Ap aSz ::
        phases (pack_A_k_first A ⟨.Ap, 0⟩ M K p m_r (dimsKMN M N K p m_r n_r m_c k_c n_c)))
      (Env s0 (if packed then sz else szSet sz .Ap (some aSz)) noX
        (fun m i => P m i ∧ AOk M K p m_r m_c k_c a m i)) := by
  cases packed with
  | true =>
    obtain ⟨⟨n, hn, hle⟩, hinit, hpk⟩ := hin.pre rfl
    refine Triple.nil.conseq (fun _ h => h) ?_
    intro s hs
    have hk : ∀ x, s.mem ⟨.Ap, x⟩ = s0.mem ⟨.Ap, x⟩ ∧ s.init ⟨.Ap, x⟩ = s0.init ⟨.Ap, x⟩ := fun x =>
      hs.keep ⟨.Ap, x⟩ (by simp [hn]) (fun h => h)
    refine ⟨hs.size, hs.keep, hs.fact, ?_, ?_⟩
    · intro _ _ _ _ _ g1 g2 g3 g4 g5 g6
      rw [(hk _).1]
      exact hpk _ _ _ _ _ g1 g2 g3 g4 g5 g6
    · intro x hx
      rw [(hk x).2]; exact hinit x hx
  | false =>
    obtain ⟨⟨⟨nA, hnA, hleA⟩, hinit⟩, hAp, ha⟩ := hin.plain rfl
    obtain rfl := hAl rfl
    have haS : aSz = padTo M (p * m_c) m_r * K := by
      simp only [packedASize, Option.some.injEq] at haSz
      rw [← haSz]
      unfold padTo
      ring
    simp only [Bool.false_eq_true, if_false]
    have t1 := Env.memalign (F := F) (s0 := s0) (sz := sz) (X := noX) .Ap aSz hAp (hfr rfl) hst
    refine Triple.seq t1 ?_
    refine (Env.pack (R := fun mem => APacked mem M K p m_r m_c k_c a) _ (packA_seqW (N := N) h ⟨.A, 0⟩ ⟨.Ap, 0⟩)
      (szSet_self _ _ _) (by rw [haS]) hAp ?_ ?_ hst ?_).conseq (fun _ h => h) (fun s hs => hs)
    · intro s hs o ho l hl
      obtain ⟨x, hx, rfl⟩ := packA_reads h _ _ o ho l hl
      have hA0 : s0.size .A ≠ none := by simp [hnA]
      refine ⟨?_, ?_⟩
      · simp only [Loc.off, Nat.zero_add]
        apply inB_of (n := nA) _ (by omega)
        rw [szSet_ne _ _ (by simp), hsz _ hA0, hnA]
      · simp only [Loc.off, Nat.zero_add]
        rw [(hs.keep ⟨.A, x⟩ hA0 (fun h => h)).2]
        exact hinit x hx
    · intro o ho l hl
      obtain ⟨x, _, rfl⟩ := packA_reads h _ _ o ho l hl
      simp
    · intro s hs m k core r i hm hk hcore hr hi hrow
      have e := packA_val (N := N) h F ⟨.A, 0⟩ ⟨.Ap, 0⟩ (by simp) s.mem hm hk hcore hr hi
      simp only [Loc.off, Nat.zero_add] at e
      have hro : m * p * m_c + core * mX M p m_r m_c m + r = rowOf M p m_r m_c m core r := by
        unfold rowOf; ring
      rw [hro, if_neg (by omega)] at e
      rw [e, (hs.keep ⟨.A, _⟩ (by simp [hnA]) (fun h => h)).1, ha]

theorem prepB_triple {s0 : State α} {sz : Buf → Option Nat} {P : Mem α → (Loc → Bool) → Prop}
    {b : Nat → Nat → α} {packed : Bool}
    (hin : BInK s0 packed N K n_r k_c n_c b) (hsz : ∀ b, s0.size b ≠ none → sz b = s0.size b)
    (hfr : packed = false → sz .Bp = none) (hst : Stable (· = .Bp) P)
    (B : Loc) (hBl : packed = false → B = ⟨.B, 0⟩) :
    Triple F (Env s0 sz noX P)
      (if packed then [] else .memalign .Bp (packedBSize K N n_r n_c) ::
        phases (pack_B_k_first B ⟨.Bp, 0⟩ K N n_r (dimsKMN M N K p m_r n_r m_c k_c n_c)))
      (Env s0 (if packed then sz else szSet sz .Bp (some (packedBSize K N n_r n_c))) noX
        (fun m i => P m i ∧ BOk N K n_r k_c n_c b m i)) := by
  cases packed with
  | true =>
    obtain ⟨⟨n, hn, hle⟩, hinit, hpk⟩ := hin.pre rfl
    refine Triple.nil.conseq (fun _ h => h) ?_
    intro s hs
    have hk : ∀ x, s.mem ⟨.Bp, x⟩ = s0.mem ⟨.Bp, x⟩ ∧ s.init ⟨.Bp, x⟩ = s0.init ⟨.Bp, x⟩ := fun x =>
      hs.keep ⟨.Bp, x⟩ (by simp [hn]) (fun h => h)
    refine ⟨hs.size, hs.keep, hs.fact, ?_, ?_⟩
    · intro _ _ _ _ g1 g2 g3 g4 g5
      rw [(hk _).1]
      exact hpk _ _ _ _ g1 g2 g3 g4 g5
    · intro x hx
      rw [(hk x).2]; exact hinit x hx
  | false =>
    obtain ⟨⟨⟨nB, hnB, hleB⟩, hinit⟩, hBp, hb⟩ := hin.plain rfl
    obtain rfl := hBl rfl
    have hbS : packedBSize K N n_r n_c = padTo N n_c n_r * K := by
      unfold packedBSize
      rw [sub_mod_eq]
      unfold padTo
      ring
    simp only [Bool.false_eq_true, if_false]
    have t1 := Env.memalign (F := F) (s0 := s0) (sz := sz) (X := noX) .Bp (packedBSize K N n_r n_c) hBp
      (hfr rfl) hst
    refine Triple.seq t1 ?_
    refine (Env.pack (R := fun mem => BPacked mem N K n_r k_c n_c b) _ (packB_seqW (M := M) h ⟨.B, 0⟩ ⟨.Bp, 0⟩)
      (szSet_self _ _ _) (by rw [hbS]) hBp ?_ ?_ hst ?_).conseq (fun _ h => h) (fun s hs => hs)
    · intro s hs o ho l hl
      obtain ⟨x, hx, rfl⟩ := packB_reads h _ _ o ho l hl
      have hB0 : s0.size .B ≠ none := by simp [hnB]
      refine ⟨?_, ?_⟩
      · simp only [Loc.off, Nat.zero_add]
        apply inB_of (n := nB) _ (by omega)
        rw [szSet_ne _ _ (by simp), hsz _ hB0, hnB]
      · simp only [Loc.off, Nat.zero_add]
        rw [(hs.keep ⟨.B, x⟩ hB0 (fun h => h)).2]
        exact hinit x hx
    · intro o ho l hl
      obtain ⟨x, _, rfl⟩ := packB_reads h _ _ o ho l hl
      simp
    · intro s hs n k c i hn hk hc hi hcol
      have e := packB_val (M := M) h F ⟨.B, 0⟩ ⟨.Bp, 0⟩ (by simp) s.mem hn hk hc hi
      simp only [Loc.off, Nat.zero_add] at e
      rw [if_neg (by omega)] at e
      rw [e, (hs.keep ⟨.B, _⟩ (by simp [hnB]) (fun h => h)).1, hb]

/-- Computation with the K-first schedule, from packed operands to the final C. -/
theorem workK_triple {kd : KDim} (hk : kd.Fits m_r n_r) (hZ : ZOK M N p m_r n_r m_c n_c Z) {s0 : State α} {sz : Buf → Option Nat}
    {a b : Nat → Nat → α} (hsz : ∀ b, s0.size b ≠ none → sz b = s0.size b)
    (hap : ∃ n, sz .Ap = some n ∧ padTo M (p * m_c) m_r * K ≤ n)
    (hbp : ∃ n, sz .Bp = some n ∧ padTo N n_c n_r * K ≤ n)
    (hC : Room s0 .C M N) (hfc : ∀ i, s0.size (.CpC i) = none) (hfc' : ∀ i, sz (.CpC i) = none)
    (hreg : ∀ t, s0.size (.reg t) = none) :
    Triple F (Env s0 sz noX (fun m i => AOk M K p m_r m_c k_c a m i ∧ BOk N K n_r k_c n_c b m i))
      ((range p).map (fun i => Item.calloc (.CpC i) Z) ++
        phases (schedKZ kd ⟨.Ap, 0⟩ ⟨.Bp, 0⟩ ⟨.C, 0⟩ M N K p m_r n_r m_c k_c n_c Z) ++
        (range p).map (fun i => Item.free (.CpC i)))
      (Env s0 sz (cX M N) (fun m i => ∀ r c, r < M → c < N → i ⟨.C, r * N + c⟩ = true ∧
        m ⟨.C, r * N + c⟩ =
          dotFrom F (a r) (fun k => b k c) (orderKMN K p m_c k_c n_c r c) F.zero)) := by
  have hinj : Function.Injective Buf.CpC := fun x y e => by simpa using e
  obtain ⟨nC, hnC, hleC⟩ := hC
  have hszC : sz .C = some nC := by rw [hsz _ (by simp [hnC]), hnC]
  have t1 := Env.callocs (F := F) (s0 := s0) (sz := sz) (X := noX) Buf.CpC hinj p Z
    (P := fun m i => AOk M K p m_r m_c k_c a m i ∧ BOk N K n_r k_c n_c b m i)
    (fun i _ => hfc i) (fun i _ => hfc' i)
    (Stable.and (AOk.stable (by simp) a) (BOk.stable (by simp) b))
  have hne : ∀ b : Buf, (∀ i, b ≠ .CpC i) → szSets sz Buf.CpC (some Z) p b = sz b :=
    fun b hb => szSets_of_ne _ _ _ (fun i _ => hb i)
  have t3 := Env.frees (F := F) (s0 := s0) (sz := szSets sz Buf.CpC (some Z) p)
    (X := cX M N) (P := fun m i => ∀ r c, r < M → c < N → i ⟨.C, r * N + c⟩ = true ∧
        m ⟨.C, r * N + c⟩ =
          dotFrom F (a r) (fun k => b k c) (orderKMN K p m_c k_c n_c r c) F.zero)
    Buf.CpC hinj p (fun i hi => by rw [szSets_of_lt _ _ _ hi]; simp)
  refine Triple.seq (Triple.seq t1 ?_) (t3.conseq (fun _ h => h) ?_)
  · have hready : ∀ s : State α, Env s0 (szSets sz Buf.CpC (some Z) p) noX (fun m i =>
        (AOk M K p m_r m_c k_c a m i ∧ BOk N K n_r k_c n_c b m i) ∧
        ∀ j x, j < p → m ⟨.CpC j, x⟩ = F.zero ∧ i ⟨.CpC j, x⟩ = true) s →
        KReady M N K p m_r n_r m_c n_c Z (szSets sz Buf.CpC (some Z) p) s.init := by
      intro s hs
      obtain ⟨nA, hnA, hleA⟩ := hap
      obtain ⟨nB, hnB, hleB⟩ := hbp
      refine ⟨?_, ?_, ?_, ?_⟩
      · intro x hx
        exact ⟨inB_of (by rw [hne _ (by simp)]; exact hnA) (by omega), hs.fact.1.1.2 x hx⟩
      · intro x hx
        exact ⟨inB_of (by rw [hne _ (by simp)]; exact hnB) (by omega), hs.fact.1.2.2 x hx⟩
      · intro core x hc hx
        exact ⟨inB_of (szSets_of_lt _ _ _ hc) hx, (hs.fact.2 core x hc).2⟩
      · intro x hx
        exact inB_of (by rw [hne _ (by simp)]; exact hszC) (by omega)
    apply Env.phases
    · exact schedK_raceFree h hk
    · intro s hs
      exact schedK_safe h hk hZ (hready s hs)
    · intro s hs
      refine ⟨hs.size, ?_, ?_⟩
      · intro l hl hX
        have hno : ∀ o ∈ phaseOps (schedKZ kd ⟨.Ap, 0⟩ ⟨.Bp, 0⟩ ⟨.C, 0⟩ M N K p m_r n_r m_c k_c n_c Z), o.dst ≠ l := by
          intro o ho e
          rcases schedK_dst h hk o ho with ⟨x, hx, e'⟩ | ⟨core, e'⟩ | ⟨t, e'⟩
          · rw [e] at e'; subst e'; exact hX ⟨rfl, hx⟩
          · rw [e] at e'; rw [e'] at hl; exact hl (hfc core)
          · rw [e] at e'; rw [e'] at hl; exact hl (hreg t)
        have := hs.keep l hl (fun h => h)
        exact ⟨(exec_frame F _ _ _ hno).trans this.1, (initAfter_eq_of_not_dst hno).trans this.2⟩
      · intro r c hr hc
        refine ⟨?_, ?_⟩
        · exact initAfter_of_mem (Or.inr (schedK_covers h hr hc))
        · exact schedK_entry F h hk hZ s.mem a b hs.fact.1.1.1 hs.fact.1.2.1
            (fun core x hc _ => (hs.fact.2 core x hc).1) hr hc
  · intro s hs
    refine ⟨?_, hs.keep, hs.fact⟩
    rw [hs.size]
    funext b'
    by_cases hb : ∃ i, i < p ∧ b' = .CpC i
    · obtain ⟨i, hi, rfl⟩ := hb
      rw [szSets_of_lt _ _ _ hi, hfc']
    · rw [szSets_of_ne, szSets_of_ne]
      · intro i hi e; exact hb ⟨i, hi, e⟩
      · intro i hi e; exact hb ⟨i, hi, e⟩

omit h in
/-- The K-first call, with per-core buffers of `Z` elements. -/
def progKZ (cx : Cntx) (A B : Loc) (M N K p : Nat) (packedA packedB : Bool) (m_c k_c n_c Z : Nat) : Prog :=
  [.malloc .Blk 1, .malloc .Dims 1, .free .Dims] ++
  (if packedA then [] else .memalign .Ap ((cx.m_r * cdiv (M % (p * m_c)) cx.m_r + (M / (p * m_c)) * p * m_c) * K) ::
    phases (pack_A_k_first A ⟨.Ap, 0⟩ M K p cx.m_r (dimsKMN M N K p cx.m_r cx.n_r m_c k_c n_c))) ++
  (if packedB then [] else .memalign .Bp (packedBSize K N cx.n_r n_c) ::
    phases (pack_B_k_first B ⟨.Bp, 0⟩ K N cx.n_r (dimsKMN M N K p cx.m_r cx.n_r m_c k_c n_c))) ++
  ((range p).map (fun i => Item.calloc (.CpC i) Z) ++
    phases (schedKZ cx.kmap ⟨.Ap, 0⟩ ⟨.Bp, 0⟩ ⟨.C, 0⟩ M N K p cx.m_r cx.n_r m_c k_c n_c Z) ++
    (range p).map (fun i => Item.free (.CpC i))) ++
  ((if packedA then [] else [.free .Ap]) ++ (if packedB then [] else [.free .Bp]) ++ [.free .Blk])

theorem progKZ_triple {cx : Cntx} (hmr : cx.m_r = m_r) (hnr : cx.n_r = n_r)
    (hk : cx.kmap.Fits m_r n_r) (hZ : ZOK M N p m_r n_r m_c n_c Z) {s0 : State α} {a b : Nat → Nat → α}
    {packedA packedB : Bool}
    (hA : AInK s0 packedA M K p m_r m_c k_c a) (hB : BInK s0 packedB N K n_r k_c n_c b)
    (hC : Room s0 .C M N) (hfc : ∀ i, s0.size (.CpC i) = none) (hreg : ∀ t, s0.size (.reg t) = none)
    (hblk : s0.size .Blk = none) (hdims : s0.size .Dims = none) :
    Triple F (· = s0) (progKZ cx ⟨if packedA then .Ap else .A, 0⟩ ⟨if packedB then .Bp else .B, 0⟩ M N K p
        packedA packedB m_c k_c n_c Z)
      (Env s0 s0.size (cX M N) (fun m i => ∀ r c, r < M → c < N →
      i ⟨.C, r * N + c⟩ = true ∧ m ⟨.C, r * N + c⟩ =
        dotFrom F (a r) (fun k => b k c) (orderKMN K p m_c k_c n_c r c) F.zero)) := by
  obtain ⟨aSz, haSz⟩ : ∃ v, packedASize M K p m_r m_c .KMN = some v := ⟨_, rfl⟩
  subst hmr hnr
  have haSz' := haSz
  simp only [packedASize, Option.some.injEq] at haSz'
  unfold progKZ
  rw [haSz']
  set sz1 := szSet s0.size .Blk (some 1) with hsz1
  set sz2 := (if packedA then sz1 else szSet sz1 .Ap (some aSz)) with hsz2
  set sz3 := (if packedB then sz2 else szSet sz2 .Bp (some (packedBSize K N cx.n_r n_c))) with hsz3
  have k1 : ∀ b, s0.size b ≠ none → sz1 b = s0.size b := by
    intro b hb
    rw [hsz1, szSet_ne]
    rintro rfl; exact hb hblk
  have k2 : ∀ b, s0.size b ≠ none → sz2 b = s0.size b := by
    intro b hb
    rw [hsz2]
    split
    · exact k1 b hb
    · rename_i hp
      rw [szSet_ne _ _ (by rintro rfl; exact hb (hA.plain (by simpa using hp)).2.1)]
      exact k1 b hb
  have k3 : ∀ b, s0.size b ≠ none → sz3 b = s0.size b := by
    intro b hb
    rw [hsz3]
    split
    · exact k2 b hb
    · rename_i hp
      rw [szSet_ne _ _ (by rintro rfl; exact hb (hB.plain (by simpa using hp)).2.1)]
      exact k2 b hb
  have n2 : ∀ b, b ≠ .Blk → b ≠ .Ap → sz2 b = s0.size b := by
    intro b h1 h2
    rw [hsz2]
    split
    · rw [hsz1, szSet_ne _ _ h1]
    · rw [szSet_ne _ _ h2, hsz1, szSet_ne _ _ h1]
  have n3 : ∀ b, b ≠ .Blk → b ≠ .Ap → b ≠ .Bp → sz3 b = s0.size b := by
    intro b h1 h2 h3
    rw [hsz3]
    split
    · exact n2 b h1 h2
    · rw [szSet_ne _ _ h3]; exact n2 b h1 h2
  have hap2 : sz3 .Ap = sz2 .Ap := by
    rw [hsz3]; split
    · rfl
    · rw [szSet_ne _ _ (by simp)]
  have hblk3 : sz3 .Blk = some 1 := by
    rw [hsz3]
    have : sz2 .Blk = some 1 := by
      rw [hsz2]; split
      · rw [hsz1, szSet_self]
      · rw [szSet_ne _ _ (by simp), hsz1, szSet_self]
    split
    · exact this
    · rw [szSet_ne _ _ (by simp)]; exact this
  have t1 := dims_triple (F := F) hblk hdims
  have t2 := prepA_triple (F := F) (N := N) h hA k1
    (fun hp => by rw [hsz1, szSet_ne _ _ (by simp)]; exact (hA.plain hp).2.1)
    (Stable.true _) haSz ⟨if packedA then .Ap else .A, 0⟩ (by rintro rfl; rfl)
  have t3 := prepB_triple (F := F) (M := M) h hB k2
    (fun hp => by rw [n2 _ (by simp) (by simp)]; exact (hB.plain hp).2.1)
    (P := fun m i => True ∧ AOk M K p cx.m_r m_c k_c a m i)
    (Stable.and (Stable.true _) (AOk.stable (by simp) a)) ⟨if packedB then .Bp else .B, 0⟩ (by rintro rfl; rfl)
  have t4 := workK_triple (F := F) (K := K) h hk hZ (a := a) (b := b) k3 (by
      rw [hap2, hsz2]
      cases packedA with
      | true =>
        obtain ⟨n, hn, hle⟩ := (hA.pre rfl).1
        exact ⟨n, by simpa [hsz1, szSet] using hn, hle⟩
      | false =>
        refine ⟨aSz, by simp [szSet], ?_⟩
        simp only [packedASize, Option.some.injEq] at haSz
        rw [← haSz]
        unfold padTo
        exact Nat.le_of_eq (by ring)) (by
      rw [hsz3]
      cases packedB with
      | true =>
        obtain ⟨n, hn, hle⟩ := (hB.pre rfl).1
        exact ⟨n, by rw [if_pos rfl, n2 _ (by simp) (by simp)]; exact hn, hle⟩
      | false =>
        refine ⟨packedBSize K N cx.n_r n_c, by simp [szSet], ?_⟩
        unfold packedBSize
        rw [sub_mod_eq]
        unfold padTo
        exact Nat.le_of_eq (by ring)) hC hfc
    (fun i => by rw [n3 _ (by simp) (by simp) (by simp)]; exact hfc i) hreg
  set Q : Mem α → (Loc → Bool) → Prop := (fun m i => ∀ r c, r < M → c < N →
      i ⟨.C, r * N + c⟩ = true ∧ m ⟨.C, r * N + c⟩ =
        dotFrom F (a r) (fun k => b k c) (orderKMN K p m_c k_c n_c r c) F.zero) with hQ
  set sz5 := (if packedA then sz3 else szSet sz3 .Ap none) with hsz5
  set sz6 := (if packedB then sz5 else szSet sz5 .Bp none) with hsz6
  have t5 : Triple F (Env s0 sz3 (cX M N) Q) (if packedA then [] else [.free .Ap])
      (Env s0 sz5 (cX M N) Q) := by
    rw [hsz5]
    cases packedA with
    | true => exact Triple.nil
    | false => exact Env.free _ (by rw [hap2, hsz2]; simp [szSet])
  have t6 : Triple F (Env s0 sz5 (cX M N) Q) (if packedB then [] else [.free .Bp])
      (Env s0 sz6 (cX M N) Q) := by
    rw [hsz6]
    cases packedB with
    | true => exact Triple.nil
    | false =>
      apply Env.free
      rw [hsz5, hsz3]
      split <;> simp [szSet]
  have t7 : Triple F (Env s0 sz6 (cX M N) Q) [.free .Blk] (Env s0 (szSet sz6 .Blk none) (cX M N) Q) := by
    apply Env.free
    have : sz5 .Blk ≠ none := by
      rw [hsz5]; split
      · rw [hblk3]; simp
      · rw [szSet_ne _ _ (by simp), hblk3]; simp
    rw [hsz6]; split
    · exact this
    · rw [szSet_ne _ _ (by simp)]; exact this
  refine ((((t1.seq t2).seq t3).seq (t4.conseq ?_ (fun _ h => h))).seq ((t5.seq t6).seq t7)).conseq
    (fun _ h => h) ?_
  · intro s hs
    exact ⟨hs.size, hs.keep, hs.fact.1.2, hs.fact.2⟩
  · intro s hs
    refine ⟨?_, hs.keep, hs.fact⟩
    rw [hs.size]
    funext b'
    by_cases h1 : b' = .Blk
    · subst h1; rw [szSet_self, hblk]
    rw [szSet_ne _ _ h1, hsz6]
    by_cases h2 : b' = .Bp
    · subst h2
      cases packedB with
      | false => simp only [Bool.false_eq_true, if_false, szSet_self]; rw [(hB.plain rfl).2.1]
      | true =>
        simp only [if_true]
        rw [hsz5]
        have : sz3 .Bp = s0.size .Bp := by
          rw [hsz3, if_pos rfl, n2 _ (by simp) (by simp)]
        split
        · exact this
        · rw [szSet_ne _ _ (by simp)]; exact this
    · have e6 : (if packedB then sz5 else szSet sz5 .Bp none) b' = sz5 b' := by
        split
        · rfl
        · rw [szSet_ne _ _ h2]
      rw [e6, hsz5]
      by_cases h3 : b' = .Ap
      · subst h3
        cases packedA with
        | false => simp only [Bool.false_eq_true, if_false, szSet_self]; rw [(hA.plain rfl).2.1]
        | true =>
          simp only [if_true]
          rw [hap2, hsz2, if_pos rfl, hsz1, szSet_ne _ _ (by simp)]
      · have e5 : (if packedA then sz3 else szSet sz3 .Ap none) b' = sz3 b' := by
          split
          · rfl
          · rw [szSet_ne _ _ h3]
        rw [e5, n3 _ h1 h3 h2]

/-- The full K-first call. -/
theorem sgemmK_triple {nz : α → Bool} {cx : Cntx} (hmr : cx.m_r = m_r) (hnr : cx.n_r = n_r)
    (hk : cx.kmap.Fits m_r n_r) {s0 : State α} {a b : Nat → Nat → α} {packedA packedB : Bool}
    (hA : AInK s0 packedA M K p m_r m_c k_c a) (hB : BInK s0 packedB N K n_r k_c n_c b)
    (hC : Room s0 .C M N) (hfc : ∀ i, s0.size (.CpC i) = none) (hreg : ∀ t, s0.size (.reg t) = none)
    (hblk : s0.size .Blk = none) (hdims : s0.size .Dims = none) (alpha beta : α) {prog : Prog}
    (hprog : cake_sgemm nz cx ⟨if packedA then .Ap else .A, 0⟩ ⟨if packedB then .Bp else .B, 0⟩ ⟨.C, 0⟩
      M N K p packedA packedB alpha beta m_c k_c n_c .KMN = some prog) :
    Triple F (· = s0) prog (Env s0 s0.size (cX M N) (fun m i => ∀ r c, r < M → c < N →
      i ⟨.C, r * N + c⟩ = true ∧ m ⟨.C, r * N + c⟩ =
        dotFrom F (a r) (fun k => b k c) (orderKMN K p m_c k_c n_c r c) F.zero)) := by
  have t := progKZ_triple (F := F) h hmr hnr hk (ZOK.self h) hA hB hC hfc hreg hblk hdims
  have hAp : (if packedA then (⟨if packedA then Buf.Ap else Buf.A, 0⟩ : Loc) else ⟨.Ap, 0⟩) = ⟨.Ap, 0⟩ := by
    cases packedA <;> rfl
  have hBp : (if packedB then (⟨if packedB then Buf.Bp else Buf.B, 0⟩ : Loc) else ⟨.Bp, 0⟩) = ⟨.Bp, 0⟩ := by
    cases packedB <;> rfl
  subst hmr hnr
  have hsch : (dimsKMN M N K p cx.m_r cx.n_r m_c k_c n_c).sch = .KMN := rfl
  simp only [cake_sgemm, init_block_dims, hsch, packedASize, packedCSize, pack_A, pack_B, pack_C, unpack_C,
    schedule, Option.bind_eq_bind, Option.bind_some, if_true, Option.some.injEq, hAp, hBp] at hprog
  subst hprog
  rw [schedK_phases h]
  exact t

omit h in
theorem orderKMN_single (hk : 0 < k_c) (hK : K ≤ k_c) (row col : Nat) :
    orderKMN K p m_c k_c n_c row col = range K := by
  unfold orderKMN
  have h1 : cdiv K k_c ≤ 1 := cdiv_le_of_le_mul hk (by omega)
  have h2 : serp (kDesc (col / n_c) (row / (p * m_c))) (cdiv K k_c) = range (cdiv K k_c) := by
    rw [serp_eq]
    split
    · interval_cases cdiv K k_c <;> rfl
    · rfl
  rw [h2]
  exact chop_range hk

omit h in
/-- Two end states agree on the caller's objects if they agree on the entries of C. -/
theorem Env.agree {s0 s1 s2 : State α} {sz1 sz2 : Buf → Option Nat}
    {P1 P2 : Mem α → (Loc → Bool) → Prop} (e1 : Env s0 sz1 (cX M N) P1 s1)
    (e2 : Env s0 sz2 (cX M N) P2 s2)
    (hv : ∀ r c, r < M → c < N → s1.mem ⟨.C, r * N + c⟩ = s2.mem ⟨.C, r * N + c⟩)
    (hi : ∀ r c, r < M → c < N → s1.init ⟨.C, r * N + c⟩ = s2.init ⟨.C, r * N + c⟩)
    (l : Loc) (hl : s0.size l.buf ≠ none) : s1.mem l = s2.mem l ∧ s1.init l = s2.init l := by
  by_cases hX : cX M N l
  · obtain ⟨b, x⟩ := l
    obtain ⟨rfl, hx⟩ := hX
    simp only at hx
    have hN : 0 < N := Nat.pos_of_ne_zero (fun e => by subst e; simp at hx)
    have e : x = x / N * N + x % N := by
      have := Nat.div_add_mod x N
      rw [Nat.mul_comm] at this; omega
    have hr : x / N < M := (Nat.div_lt_iff_lt_mul hN).2 hx
    rw [e]
    exact ⟨hv _ _ hr (Nat.mod_lt _ hN), hi _ _ hr (Nat.mod_lt _ hN)⟩
  · have h1 := e1.keep l hl hX
    have h2 := e2.keep l hl hX
    exact ⟨h1.1.trans h2.1.symm, h1.2.trans h2.2.symm⟩

omit h in
/-- The full K-first call on plain operands. -/
theorem sgemmK_call (F : Arith α) (nz : α → Bool) (cx : Cntx) (h : TileOK p cx.m_r cx.n_r m_c k_c n_c)
    (hk : cx.kmap.Fits cx.m_r cx.n_r) (alpha beta : α) {s : State α} (hs : CallOK s M N K) :
    Computes F (cake_sgemm nz cx ⟨.A, 0⟩ ⟨.B, 0⟩ ⟨.C, 0⟩ M N K p false false alpha beta m_c k_c n_c .KMN) s
      (Env s s.size (cX M N) (fun m i => ∀ r c, r < M → c < N →
        i ⟨.C, r * N + c⟩ = true ∧ m ⟨.C, r * N + c⟩ =
          dotFrom F (fun k => entry s .A K r k) (fun k => entry s .B N k c)
            (orderKMN K p m_c k_c n_c r c) F.zero)) := by
  have hf : ∀ b : Buf, b ≠ .A → b ≠ .B → b ≠ .C → b ≠ .Ctx → s.size b = none := hs.fresh
  refine Computes.of_triple rfl (sgemmK_triple (F := F) (a := entry s .A K) (b := entry s .B N) h rfl rfl hk
    (packedA := false) (packedB := false) ⟨fun _ => ⟨hs.a, ?_, fun _ _ => rfl⟩, by simp⟩
    ⟨fun _ => ⟨hs.b, ?_, fun _ _ => rfl⟩, by simp⟩ hs.c ?_ ?_ ?_ ?_ alpha beta rfl)
  · exact hf _ (by simp) (by simp) (by simp) (by simp)
  · exact hf _ (by simp) (by simp) (by simp) (by simp)
  · exact fun i => hf _ (by simp) (by simp) (by simp) (by simp)
  · exact fun i => hf _ (by simp) (by simp) (by simp) (by simp)
  · exact hf _ (by simp) (by simp) (by simp) (by simp)
  · exact hf _ (by simp) (by simp) (by simp) (by simp)

end
end Cake
