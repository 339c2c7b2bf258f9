/-
One block of C in a schedule that packs on the fly: packing phases, compute phase, unpack phase.
-/
import Verif.Proofs.Partial
import Verif.Proofs.SgemmK
import Verif.Proofs.Blis

namespace Cake
open List

variable {α : Type _} {F : Arith α} {S : Prop}

/-! ### Parallel phases relative to the state at the call -/

theorem Env.parS {s0 : State α} {sz : Buf → Option Nat} {X : Loc → Prop}
    {P P' : Mem α → (Loc → Bool) → Prop} (ts : List (List Op)) (hrf : RaceFree ts)
    (hsafe : S → ∀ s : State α, Env s0 sz X P s → ∀ t ∈ ts, Safe sz s.init t)
    (hdst : ∀ o ∈ ts.flatten, s0.size o.dst.buf = none ∨ X o.dst)
    (h : ∀ s : State α, Env s0 sz X P s → P' (exec F ts.flatten s.mem) (initAfter ts.flatten s.init)) :
    STriple S F (Env s0 sz X P) [.par ts] (Env s0 sz X P') := by
  refine STriple.par ts hrf (fun hS s hs t ht => by rw [hs.size]; exact hsafe hS s hs t ht) ?_
  intro s hs
  refine ⟨hs.size, ?_, h s hs⟩
  intro l hl hX
  have hno : ∀ o ∈ ts.flatten, o.dst ≠ l := by
    intro o ho e
    rcases hdst o ho with h1 | h1
    · rw [e] at h1; exact hl h1
    · rw [e] at h1; exact hX h1
  have := hs.keep l hl hX
  exact ⟨(exec_frame F _ _ _ hno).trans this.1,
    (initAfter_eq_of_not_dst (l := l) hno).trans this.2⟩

theorem initAfter_mono {ops : List Op} {i : Loc → Bool} {l : Loc} (h : i l = true) :
    initAfter ops i l = true := initAfter_of_mem (Or.inl h)

/-! ### Packing one block, strip by strip, without bounds checks -/

/-- Strips of `d` lanes, `n` lanes in all, depth `k`; lane `r`, depth `i` comes from `src + f r i`. -/
def gstrips (dst : Buf) (src : Loc) (d n k : Nat) (f : Nat → Nat → Nat) : List (List Op) :=
  (cfor 0 n d).map fun t => (range k).flatMap fun i => (range d).flatMap fun j =>
    [Op.copy ⟨dst, t * k + (i * d + j)⟩ (src +ₚ f (t + j) i)]

theorem gstrips_flat {dst : Buf} {src : Loc} {d q k : Nat} {f : Nat → Nat → Nat} (hd : 0 < d) :
    (gstrips dst src d (q * d) k f).flatten = (range q).flatMap fun t => (range k).flatMap fun i =>
      (range d).flatMap fun j => [Op.copy ⟨dst, t * d * k + (i * d + j)⟩ (src +ₚ f (t * d + j) i)] := by
  unfold gstrips
  rw [cfor_zero_mul _ _ hd, map_map, ← flatMap_def]
  rfl

theorem gstrips_mem {dst : Buf} {src : Loc} {d n k : Nat} {f : Nat → Nat → Nat} (hd : 0 < d)
    (hdn : d ∣ n) (o : Op) : o ∈ (gstrips dst src d n k f).flatten ↔
      ∃ r i, r < n ∧ i < k ∧ o = .copy ⟨dst, aIdx d k r i⟩ (src +ₚ f r i) := by
  obtain ⟨q, rfl⟩ := hdn
  rw [Nat.mul_comm d q, gstrips_flat hd]
  apply mem3
  intro t i j _ _ hj
  unfold aIdx
  rw [mulAdd_div hj, mulAdd_mod hj]
  congr 2
  ring

theorem gstrips_seq {dst : Buf} {src : Loc} {d n k : Nat} {f : Nat → Nat → Nat} (hd : 0 < d)
    (hdn : d ∣ n) : SeqW dst 0 (n * k) (gstrips dst src d n k f).flatten := by
  obtain ⟨q, rfl⟩ := hdn
  rw [Nat.mul_comm d q, gstrips_flat hd, show q * d * k = q * (k * d) by ring]
  apply SeqW.flatMap
  intro t _
  apply SeqW.flatMap
  intro i _
  have := SeqW.flatMap (b := dst) (base := 0 + t * (k * d) + i * d) (n := d) (c := 1)
    (f := fun j => [Op.copy ⟨dst, t * d * k + (i * d + j)⟩ (src +ₚ f (t * d + j) i)]) (by
      intro j _
      apply SeqW.single
      simp only [Op.dst, Loc.mk.injEq, true_and]
      ring)
  rwa [Nat.mul_one] at this

theorem gstrips_val {dst : Buf} {src : Loc} {d n k : Nat} {f : Nat → Nat → Nat} (hd : 0 < d)
    (hdn : d ∣ n) (hne : src.buf ≠ dst) (mem : Mem α) {r i : Nat} (hr : r < n) (hi : i < k) :
    exec F (gstrips dst src d n k f).flatten mem ⟨dst, aIdx d k r i⟩ = mem (src +ₚ f r i) := by
  have hm : Op.copy ⟨dst, aIdx d k r i⟩ (src +ₚ f r i) ∈ (gstrips dst src d n k f).flatten :=
    (gstrips_mem hd hdn _).2 ⟨r, i, hr, hi, rfl⟩
  have := exec_mem F _ mem _ hm (gstrips_seq hd hdn).nodup (by
    intro l hl o' ho' e
    simp only [Op.reads, mem_singleton] at hl
    subst hl
    have := ((gstrips_seq hd hdn).dst_of_mem ho').1
    rw [e] at this
    exact hne this)
  exact this

theorem kernelsA_eq (dst : Buf) (src : Loc) (m_r n k K : Nat) :
    ((cfor 0 n m_r).map fun m3 => A_packing_kernel m_r k (src +ₚ (m3 * K)) K (⟨dst, 0⟩ +ₚ (m3 * k))) =
      gstrips dst src m_r n k (fun r i => r * K + i) := by
  unfold gstrips
  apply map_congr_left
  intro t _
  rw [packA_kernel_eq]
  apply flatMap_congr
  intro i _
  apply flatMap_congr
  intro j _
  simp only [Loc.off, Nat.zero_add]
  congr 3
  ring

theorem kernelsB_eq (dst : Buf) (src : Loc) (n_r n k N : Nat) :
    ((cfor 0 n n_r).map fun n2 => B_packing_kernel n_r k (src +ₚ n2) N (⟨dst, 0⟩ +ₚ (n2 * k))) =
      gstrips dst src n_r n k (fun c i => i * N + c) := by
  unfold gstrips
  apply map_congr_left
  intro t _
  rw [packB_kernel_eq]
  apply flatMap_congr
  intro i _
  apply flatMap_congr
  intro j _
  simp only [Loc.off, Nat.zero_add]
  congr 3
  ring

/-- A phase that packs a block: it replaces the contents of `dst` and touches nothing else. -/
theorem pack_phase {s0 : State α} {sz : Buf → Option Nat} {X : Loc → Prop}
    {P : Mem α → (Loc → Bool) → Prop} {dst : Buf} {src : Loc} {d n k len : Nat}
    {f : Nat → Nat → Nat} (hd : 0 < d) (hdn : d ∣ n) (hne : src.buf ≠ dst)
    (h0 : s0.size dst = none) (hst : Stable (· = dst) P)
    (hsz : S → sz dst = some len ∧ n * k ≤ len)
    (hread : S → ∀ r i, r < n → i < k → InB sz (src +ₚ f r i) ∧ s0.init (src +ₚ f r i) = true)
    (hs0 : s0.size src.buf ≠ none) (hX : ∀ l, X l → l.buf ≠ src.buf) :
    STriple S F (Env s0 sz X P) [.par (gstrips dst src d n k f)]
      (Env s0 sz X (fun mem init => P mem init ∧
        (∀ r i, r < n → i < k → mem ⟨dst, aIdx d k r i⟩ = s0.mem (src +ₚ f r i)) ∧
        ∀ x, x < n * k → init ⟨dst, x⟩ = true)) := by
  have hseq := gstrips_seq (dst := dst) (src := src) (k := k) (f := f) hd hdn
  have hrd : ∀ o ∈ (gstrips dst src d n k f).flatten, ∀ l ∈ o.reads, l.buf = src.buf ∧
      ∃ r i, r < n ∧ i < k ∧ l = src +ₚ f r i := by
    intro o ho l hl
    obtain ⟨r, i, hr, hi, rfl⟩ := (gstrips_mem hd hdn _).1 ho
    simp only [Op.reads, mem_singleton] at hl
    subst hl
    exact ⟨rfl, r, i, hr, hi, rfl⟩
  have hdst : ∀ o ∈ (gstrips dst src d n k f).flatten, o.dst.buf = dst := fun o ho => (hseq.dst_of_mem ho).1
  apply Env.parS
  · refine raceFree_of_nodup (ph := [gstrips dst src d n k f]) (b := dst) ?_ ?_ ?_ _ (by simp)
    · simpa [phaseOps] using hseq.nodup
    · simpa [phaseOps] using hdst
    · intro o ho l hl
      have ho' : o ∈ (gstrips dst src d n k f).flatten := by simpa [phaseOps] using ho
      rw [(hrd o ho' l hl).1]
      exact hne
  · intro hS s hs t ht
    apply Safe.of_forall
    intro o ho
    have ho' : o ∈ (gstrips dst src d n k f).flatten := mem_flatten.2 ⟨t, ht, ho⟩
    have := hseq.dst_of_mem ho'
    refine ⟨?_, ?_⟩
    · have e : o.dst = ⟨dst, o.dst.idx⟩ := by rw [← this.1]
      rw [e]
      exact inB_of (hsz hS).1 (by have := (hsz hS).2; omega)
    · intro l hl
      obtain ⟨_, r, i, hr, hi, rfl⟩ := hrd o ho' l hl
      refine ⟨(hread hS r i hr hi).1, ?_⟩
      rw [(hs.keep _ (show s0.size (src +ₚ f r i).buf ≠ none from hs0) (fun h => hX _ h rfl)).2]
      exact (hread hS r i hr hi).2
  · intro o ho; rw [hdst o ho]; exact Or.inl h0
  · intro s hs
    refine ⟨?_, ?_, ?_⟩
    · refine hst _ _ _ _ ?_ hs.fact
      intro l hl
      have hno : ∀ o ∈ (gstrips dst src d n k f).flatten, o.dst ≠ l := fun o ho e => hl (e ▸ hdst o ho)
      exact ⟨exec_frame F _ _ _ hno, initAfter_eq_of_not_dst hno⟩
    · intro r i hr hi
      rw [gstrips_val hd hdn hne _ hr hi]
      exact (hs.keep _ (show s0.size (src +ₚ f r i).buf ≠ none from hs0) (fun h => hX _ h rfl)).1
    · intro x hx
      apply initAfter_of_mem
      right
      exact (hseq.mem_iff ⟨dst, x⟩).2 ⟨rfl, Nat.zero_le _, by simpa using hx⟩

/-! ### Geometry of a block of C -/

/-- What the cores do in one block: how many there are, and the rectangle of C each handles. -/
structure Geo where
  u : Nat
  rb : Nat → Nat
  cb : Nat → Nat
  mt : Nat → Nat
  nt : Nat → Nat

structure Geo.OK (g : Geo) (M N p m_r n_r m_c n_c : Nat) : Prop where
  u_le : g.u ≤ p
  m_pos : 0 < m_r
  n_pos : 0 < n_r
  m_dvd : ∀ i, i < g.u → m_r ∣ g.mt i
  n_dvd : ∀ i, i < g.u → n_r ∣ g.nt i
  m_le : ∀ i, i < g.u → g.mt i ≤ m_c
  n_le : ∀ i, i < g.u → g.nt i ≤ n_c
  disj : ∀ i j, i < g.u → j < g.u → ∀ r r' c c', r < g.mt i → r' < g.mt j → c < g.nt i → c' < g.nt j →
    g.rb i + r = g.rb j + r' → g.cb i + c = g.cb j + c' → g.rb i + r < M → g.cb i + c < N → i = j

section geo
variable {g : Geo} {M N K p m_r n_r m_c k_c n_c : Nat}
variable {kd : KDim}

/-- The tasks of a compute phase: what the core does first (`pre`), then its register tiles. -/
def gTasks (g : Geo) (kd : KDim) (pre : Nat → List Op) (aL bL : Nat → Loc) (m_r n_r kc : Nat) :
    List (List Op) :=
  (range g.u).map fun core => pre core ++
    regTiles kd core (aL core) (bL core) ⟨.CpC core, 0⟩ m_r n_r (g.mt core) (g.nt core) kc

/-- What a core does before its register tiles, and where it finds its operands. -/
structure PreOK (g : Geo) (pre : Nat → List Op) (aL bL : Nat → Loc) : Prop where
  dst : ∀ i, i < g.u → ∀ o ∈ pre i, o.dst.buf = .ApC i
  reads : ∀ i, i < g.u → ∀ o ∈ pre i, ∀ l ∈ o.reads, l.buf = .A
  a : ∀ i, i < g.u → (aL i).buf = .Ap ∨ (aL i).buf = .ApC i
  b : ∀ i, i < g.u → (bL i).buf = .Bp

section compute
variable {pre : Nat → List Op} {aL bL : Nat → Loc} {kc : Nat}
variable (hg : g.OK M N p m_r n_r m_c n_c) (hp : PreOK g pre aL bL) (hk : kd.Fits m_r n_r)
include hg hp hk

theorem gTask_dst {i : Nat} (hi : i < g.u) (o : Op) (ho : o ∈ pre i ++
    regTiles kd i (aL i) (bL i) ⟨.CpC i, 0⟩ m_r n_r (g.mt i) (g.nt i) kc) :
    o.dst.buf = .ApC i ∨ o.dst.buf = .reg i ∨ o.dst.buf = .CpC i := by
  rcases mem_append.1 ho with ho | ho
  · exact Or.inl (hp.dst i hi o ho)
  · rcases regTiles_dst' hk hg.m_pos hg.n_pos (hg.m_dvd i hi) (hg.n_dvd i hi) _ _ _ _ _ o ho with
      h1 | ⟨_, _, _, _, h1⟩
    · exact Or.inr (Or.inl h1)
    · rw [h1]; exact Or.inr (Or.inr rfl)

theorem gTask_reads {i : Nat} (hi : i < g.u) (o : Op) (ho : o ∈ pre i ++
    regTiles kd i (aL i) (bL i) ⟨.CpC i, 0⟩ m_r n_r (g.mt i) (g.nt i) kc) (l : Loc) (hl : l ∈ o.reads) :
    l.buf = .A ∨ l.buf = .Ap ∨ l.buf = .ApC i ∨ l.buf = .Bp ∨ l.buf = .reg i ∨ l.buf = .CpC i := by
  rcases mem_append.1 ho with ho | ho
  · exact Or.inl (hp.reads i hi o ho l hl)
  · rcases regTiles_reads' hk hg.m_pos hg.n_pos (hg.m_dvd i hi) (hg.n_dvd i hi) _ _ _ _ _ o ho l hl with
      h1 | ⟨_, _, _, _, h1⟩ | ⟨_, _, _, _, h1⟩ | ⟨_, _, _, _, h1⟩
    · simp [h1]
    · rw [h1]; simp
    · rw [h1]
      rcases hp.a i hi with e | e
      · simp [e]
      · simp [e]
    · rw [h1]; simp [hp.b i hi]

theorem gTasks_raceFree : RaceFree (gTasks g kd pre aL bL m_r n_r kc) := by
  apply raceFree_map
  intro i j hi hj hne o ho o' ho' hc
  have d1 := gTask_dst hg hp hk hi o ho
  have d2 := gTask_dst hg hp hk hj o' ho'
  have r1 := fun l hl => gTask_reads hg hp hk hi o ho l hl
  have r2 := fun l hl => gTask_reads hg hp hk hj o' ho' l hl
  rcases hc with e | e | e
  · rw [e] at d1
    rcases d1 with d1 | d1 | d1 <;> rcases d2 with d2 | d2 | d2 <;> rw [d1] at d2 <;> simp_all
  · rcases r2 _ e with h1 | h1 | h1 | h1 | h1 | h1 <;> rcases d1 with d1 | d1 | d1 <;> rw [d1] at h1 <;>
      simp_all
  · rcases r1 _ e with h1 | h1 | h1 | h1 | h1 | h1 <;> rcases d2 with d2 | d2 | d2 <;> rw [d2] at h1 <;>
      simp_all

theorem gTasks_dst (o : Op) (ho : o ∈ (gTasks g kd pre aL bL m_r n_r kc).flatten) :
    ∃ i, i < g.u ∧ (o.dst.buf = .ApC i ∨ o.dst.buf = .reg i ∨ o.dst.buf = .CpC i) := by
  unfold gTasks at ho
  rw [← flatMap_def, mem_flatMap] at ho
  obtain ⟨i, hi, ho⟩ := ho
  rw [mem_range] at hi
  exact ⟨i, hi, gTask_dst hg hp hk hi o ho⟩

/-- Values of a core's buffer of packed A after the phase. -/
theorem gTasks_preVal (mem : Mem α) {i : Nat} (hi : i < g.u) (l : Loc) (hl : l.buf = .ApC i) (v : α)
    (hv : ∀ m' : Mem α, (∀ x : Loc, x.buf = .A ∨ x.buf = .ApC i → m' x = mem x) → exec F (pre i) m' l = v) :
    exec F (gTasks g kd pre aL bL m_r n_r kc).flatten mem l = v := by
  unfold gTasks
  rw [← flatMap_def]
  apply exec_flatMap_at F (range g.u) _ mem i (mem_range.2 hi) nodup_range _ _
    (fun x => x.buf = .A ∨ x.buf = .ApC i) (Or.inr hl)
  · intro m' hm'
    rw [exec_append, regTiles_frame' F hk hg.m_pos hg.n_pos (hg.m_dvd i hi) (hg.n_dvd i hi)]
    · exact hv m' hm'
    · rw [hl]; simp
    · intro r c _ _ e; rw [e] at hl; simp at hl
  · intro j hj hne o ho hP
    rcases gTask_dst hg hp hk (mem_range.1 hj) o ho with h1 | h1 | h1 <;> rw [h1] at hP <;> simp at hP
    exact hne hP

/-- Values of a core's buffer of packed C after the phase. -/
theorem gTasks_val (mem : Mem α) {i r c : Nat} (hi : i < g.u) (hr : r < g.mt i) (hc : c < g.nt i)
    (a b : Nat → α)
    (hA : ∀ m' : Mem α, (∀ x : Loc, x.buf = .A ∨ x.buf = .Ap ∨ x.buf = .ApC i → m' x = mem x) →
      ∀ kk, kk < kc → exec F (pre i) m' (aL i +ₚ aIdx m_r kc r kk) = a kk)
    (hB : ∀ kk, kk < kc → mem (bL i +ₚ bIdx n_r kc c kk) = b kk) :
    exec F (gTasks g kd pre aL bL m_r n_r kc).flatten mem ⟨.CpC i, cIdx m_r n_r (g.mt i) r c⟩ =
      (range kc).foldl (fun acc kk => F.fma (a kk) (b kk) acc)
        (mem ⟨.CpC i, cIdx m_r n_r (g.mt i) r c⟩) := by
  unfold gTasks
  rw [← flatMap_def]
  apply exec_flatMap_at F (range g.u) _ mem i (mem_range.2 hi) nodup_range _ _
    (fun x => x.buf = .A ∨ x.buf = .Ap ∨ x.buf = .ApC i ∨ x.buf = .Bp ∨ x.buf = .CpC i) (by simp)
  · intro m' hm'
    have key := regTiles_spec' F hk hg.m_pos hg.n_pos (hg.m_dvd i hi) (hg.n_dvd i hi) i (aL i) (bL i)
      ⟨.CpC i, 0⟩ (fun t => by rcases hp.a i hi with e | e <;> rw [e] <;> simp)
      (by intro t; rw [hp.b i hi]; simp) (by simp)
      (by rcases hp.a i hi with e | e <;> rw [e] <;> simp) (by rw [hp.b i hi]; simp) kc
      (exec F (pre i) m') r c hr hc
    have e0 : (⟨.CpC i, 0⟩ : Loc) +ₚ cIdx m_r n_r (g.mt i) r c = ⟨.CpC i, cIdx m_r n_r (g.mt i) r c⟩ := by
      simp [Loc.off]
    rw [e0] at key
    have hfr : ∀ x : Loc, x.buf = .Bp ∨ x.buf = .CpC i → exec F (pre i) m' x = mem x := by
      intro x hx
      rw [exec_frame]
      · apply hm'; rcases hx with hx | hx <;> simp [hx]
      · intro o ho e
        have := hp.dst i hi o ho
        rw [e] at this
        rcases hx with hx | hx <;> rw [hx] at this <;> simp at this
    rw [exec_append, key, hfr _ (Or.inr rfl)]
    apply List.foldl_ext
    intro acc kk hkk
    rw [mem_range] at hkk
    rw [hA m' (fun x hx => hm' x (by rcases hx with h | h | h <;> simp [h])) kk hkk,
      hfr _ (Or.inl (by simpa [Loc.off] using hp.b i hi)), hB kk hkk]
  · intro j hj hne o ho hP
    rcases gTask_dst hg hp hk (mem_range.1 hj) o ho with h1 | h1 | h1 <;> rw [h1] at hP <;> simp at hP
    · exact hne hP
    · exact hne hP

theorem gTasks_safe {size : Buf → Option Nat} {init : Loc → Bool}
    (hpre : ∀ i, i < g.u → Safe size init (pre i))
    (hA : ∀ i, i < g.u → ∀ x, x < g.mt i * kc → InB size (aL i +ₚ x) ∧
      initAfter (pre i) init (aL i +ₚ x) = true)
    (hB : ∀ i, i < g.u → ∀ x, x < g.nt i * kc → InB size (bL i +ₚ x) ∧ init (bL i +ₚ x) = true)
    (hC : ∀ i x, i < g.u → x < m_c * n_c → InB size ⟨.CpC i, x⟩ ∧ init ⟨.CpC i, x⟩ = true) :
    ∀ t ∈ gTasks g kd pre aL bL m_r n_r kc, Safe size init t := by
  intro t ht
  obtain ⟨i, hi, rfl⟩ := mem_map.1 ht
  rw [mem_range] at hi
  apply Safe.append (hpre i hi)
  apply regTiles_safe' hk hg.m_pos hg.n_pos (hg.m_dvd i hi) (hg.n_dvd i hi)
  · intro x hx
    have := hC i x hi (Nat.lt_of_lt_of_le hx (Nat.mul_le_mul (hg.m_le i hi) (hg.n_le i hi)))
    simp only [Loc.off, Nat.zero_add]
    exact ⟨this.1, initAfter_mono this.2⟩
  · exact hA i hi
  · intro x hx
    exact ⟨(hB i hi x hx).1, initAfter_mono (hB i hi x hx).2⟩

end compute

/-! ### Unpacking -/

/-- The tasks of an unpack phase; core `i` writes its rectangle of C and clears its buffer. -/
def gUnpack (g : Geo) (unp : Nat → List Op) (m_c n_c : Nat) : List (List Op) :=
  (range g.u).map fun core => unp core ++ memset0 ⟨.CpC core, 0⟩ (m_c * n_c)

/-- `unp` copies each core's rectangle, as far as it is inside C. -/
def UnpOK (g : Geo) (unp : Nat → List Op) (M N m_r n_r : Nat) : Prop :=
  ∀ i, i < g.u → ∀ o, o ∈ unp i ↔ ∃ r c, r < g.mt i ∧ c < g.nt i ∧ g.rb i + r < M ∧ g.cb i + c < N ∧
    o = .copy ⟨.C, (g.rb i + r) * N + (g.cb i + c)⟩ ⟨.CpC i, cIdx m_r n_r (g.mt i) r c⟩

section unpack
variable {unp : Nat → List Op} (hg : g.OK M N p m_r n_r m_c n_c) (hu : UnpOK g unp M N m_r n_r)
include hg hu

omit hg in
theorem gUnp_mem {i : Nat} (hi : i < g.u) (o : Op) :
    o ∈ unp i ++ memset0 ⟨.CpC i, 0⟩ (m_c * n_c) ↔
    (∃ r c, r < g.mt i ∧ c < g.nt i ∧ g.rb i + r < M ∧ g.cb i + c < N ∧
      o = .copy ⟨.C, (g.rb i + r) * N + (g.cb i + c)⟩ ⟨.CpC i, cIdx m_r n_r (g.mt i) r c⟩) ∨
    ∃ x, x < m_c * n_c ∧ o = .zero ⟨.CpC i, x⟩ := by
  rw [mem_append, hu i hi]
  apply or_congr Iff.rfl
  simp only [memset0, mem_map, mem_range]
  constructor
  · rintro ⟨x, hx, rfl⟩; exact ⟨x, hx, by simp [Loc.off]⟩
  · rintro ⟨x, hx, rfl⟩; exact ⟨x, hx, by simp [Loc.off]⟩

omit hg in
theorem gUnpack_mem (o : Op) : o ∈ (gUnpack g unp m_c n_c).flatten ↔ ∃ i, i < g.u ∧
    ((∃ r c, r < g.mt i ∧ c < g.nt i ∧ g.rb i + r < M ∧ g.cb i + c < N ∧
      o = .copy ⟨.C, (g.rb i + r) * N + (g.cb i + c)⟩ ⟨.CpC i, cIdx m_r n_r (g.mt i) r c⟩) ∨
    ∃ x, x < m_c * n_c ∧ o = .zero ⟨.CpC i, x⟩) := by
  unfold gUnpack
  rw [← flatMap_def, mem_flatMap]
  constructor
  · rintro ⟨i, hi, ho⟩
    rw [mem_range] at hi
    exact ⟨i, hi, (gUnp_mem hu hi o).1 ho⟩
  · rintro ⟨i, hi, ho⟩
    exact ⟨i, mem_range.2 hi, (gUnp_mem hu hi o).2 ho⟩

theorem gUnpack_raceFree : RaceFree (gUnpack g unp m_c n_c) := by
  apply raceFree_map
  intro i j hi hj hne o ho o' ho' hc
  rw [gUnp_mem hu hi] at ho
  rw [gUnp_mem hu hj] at ho'
  rcases ho with ⟨r, c, hr, hcc, hM, hN, rfl⟩ | ⟨x, hx, rfl⟩ <;>
  rcases ho' with ⟨r', c', hr', hcc', hM', hN', rfl⟩ | ⟨x', hx', rfl⟩ <;>
  simp only [Op.Conflict, Op.dst, Op.reads, mem_singleton, not_mem_nil, or_false, false_or,
    Loc.mk.injEq, true_and, reduceCtorEq, false_and, Buf.CpC.injEq] at hc
  · obtain ⟨e1, e2⟩ := mulAdd_inj hN hN' hc
    exact hne (hg.disj i j hi hj r r' c c' hr hr' hcc hcc' e1 e2 hM hN)
  · exact hne hc.1.symm
  · exact hne hc.1
  · exact hne hc.1

theorem gUnpack_safe {size : Buf → Option Nat} {init : Loc → Bool}
    (hC : ∀ i x, i < g.u → x < m_c * n_c → InB size ⟨.CpC i, x⟩ ∧ init ⟨.CpC i, x⟩ = true)
    (hc : ∀ x, x < M * N → InB size ⟨.C, x⟩) :
    ∀ t ∈ gUnpack g unp m_c n_c, Safe size init t := by
  intro t ht
  obtain ⟨i, hi, rfl⟩ := mem_map.1 ht
  rw [mem_range] at hi
  apply Safe.of_forall
  intro o ho
  rw [gUnp_mem hu hi] at ho
  rcases ho with ⟨r, c, hr, hcc, hM, hN, rfl⟩ | ⟨x, hx, rfl⟩
  · refine ⟨hc _ (mulAdd_lt hM hN), ?_⟩
    intro l hl
    simp only [Op.reads, mem_singleton] at hl
    subst hl
    exact hC i _ hi (Nat.lt_of_lt_of_le (cIdx_lt' (hg.m_dvd i hi) (hg.n_dvd i hi) hr hcc)
      (Nat.mul_le_mul (hg.m_le i hi) (hg.n_le i hi)))
  · exact ⟨(hC i x hi hx).1, by simp [Op.reads]⟩

theorem gUnpack_val (mem : Mem α) {i r c : Nat} (hi : i < g.u) (hr : r < g.mt i) (hc : c < g.nt i)
    (hM : g.rb i + r < M) (hN : g.cb i + c < N) :
    exec F (gUnpack g unp m_c n_c).flatten mem ⟨.C, (g.rb i + r) * N + (g.cb i + c)⟩ =
      mem ⟨.CpC i, cIdx m_r n_r (g.mt i) r c⟩ := by
  unfold gUnpack
  rw [← flatMap_def]
  apply exec_flatMap_at F (range g.u) _ mem i (mem_range.2 hi) nodup_range _ _
    (fun x => x.buf = .CpC i ∨ x = ⟨.C, (g.rb i + r) * N + (g.cb i + c)⟩) (Or.inr rfl)
  · intro m' hm'
    rw [exec_append, exec_frame_buf]
    · apply exec_const
      · exact ⟨_, (hu i hi _).2 ⟨r, c, hr, hc, hM, hN, rfl⟩, rfl⟩
      · intro o ho e
        obtain ⟨r', c', hr', hc', hM', hN', rfl⟩ := (hu i hi _).1 ho
        simp only [Op.dst, Loc.mk.injEq, true_and] at e
        obtain ⟨e3, e4⟩ := mulAdd_inj hN' hN e
        have e5 : r' = r := by omega
        have e6 : c' = c := by omega
        subst e5 e6
        refine ⟨?_, ?_⟩
        · intro l hl o' ho' e'
          simp only [Op.reads, mem_singleton] at hl
          subst hl
          obtain ⟨_, _, _, _, _, _, rfl⟩ := (hu i hi _).1 ho'
          simp [Op.dst] at e'
        · simp only [Op.val]
          exact hm' _ (Or.inl rfl)
    · intro o ho
      simp only [memset0, mem_map] at ho
      obtain ⟨_, _, rfl⟩ := ho
      simp [Op.dst]
  · intro j hj hne o ho hP
    rw [mem_range] at hj
    rw [gUnp_mem hu hj] at ho
    rcases ho with ⟨r', c', hr', hc', hM', hN', rfl⟩ | ⟨x, hx, rfl⟩
    · simp only [Op.dst, reduceCtorEq, Loc.mk.injEq, true_and, false_or] at hP
      obtain ⟨e3, e4⟩ := mulAdd_inj hN' hN hP
      exact hne (hg.disj j i hj hi r' r c' c hr' hr hc' hc e3 e4 hM' hN')
    · simp only [Op.dst, Buf.CpC.injEq, Loc.mk.injEq, reduceCtorEq, false_and, or_false] at hP
      exact hne hP

omit hg in
theorem gUnpack_zero (mem : Mem α) {i x : Nat} (hx : x < m_c * n_c)
    (hz : mem ⟨.CpC i, x⟩ = F.zero ∨ i < g.u) :
    exec F (gUnpack g unp m_c n_c).flatten mem ⟨.CpC i, x⟩ = F.zero := by
  have hval : ∀ o ∈ (gUnpack g unp m_c n_c).flatten, o.dst = ⟨.CpC i, x⟩ → o = .zero ⟨.CpC i, x⟩ := by
    intro o ho e
    obtain ⟨j, hj, ho⟩ := (gUnpack_mem hu o).1 ho
    rcases ho with ⟨r, c, hr, hc, hM, hN, rfl⟩ | ⟨x', _, rfl⟩
    · simp [Op.dst] at e
    · simp only [Op.dst] at e
      rw [e]
  by_cases hi : i < g.u
  · apply exec_const
    · exact ⟨.zero ⟨.CpC i, x⟩, (gUnpack_mem hu _).2 ⟨i, hi, Or.inr ⟨x, hx, rfl⟩⟩, rfl⟩
    · intro o ho e
      rw [hval o ho e]
      exact ⟨by simp [Op.reads], rfl⟩
  · rw [exec_frame]
    · exact hz.resolve_right hi
    · intro o ho e
      obtain ⟨j, hj, ho⟩ := (gUnpack_mem hu o).1 ho
      rcases ho with ⟨r, c, hr, hc, hM, hN, rfl⟩ | ⟨x', _, rfl⟩
      · simp [Op.dst] at e
      · simp only [Op.dst, Loc.mk.injEq, Buf.CpC.injEq] at e
        exact hi (e.1 ▸ hj)

theorem gUnpack_frameC (mem : Mem α) {row col : Nat} (hcol : col < N)
    (hno : ∀ i r c, i < g.u → r < g.mt i → c < g.nt i → g.rb i + r = row → g.cb i + c = col → False) :
    exec F (gUnpack g unp m_c n_c).flatten mem ⟨.C, row * N + col⟩ = mem ⟨.C, row * N + col⟩ := by
  apply exec_frame
  intro o ho e
  obtain ⟨j, hj, ho⟩ := (gUnpack_mem hu o).1 ho
  rcases ho with ⟨r, c, hr, hc, hM, hN, rfl⟩ | ⟨x', _, rfl⟩
  · simp only [Op.dst, Loc.mk.injEq, true_and] at e
    obtain ⟨e1, e2⟩ := mulAdd_inj hN hcol e
    exact hno j r c hj hr hc e1 e2
  · simp [Op.dst] at e

end unpack

/-! ### Blocks in progress -/

section run
variable (F) (geo : Nat → Nat → Geo) (ord : Nat → Nat → List Nat) (Nb Mb : Nat)
variable (M N K p m_r n_r m_c k_c n_c : Nat) (a b : Nat → Nat → α)

/-- Partial sums over the K blocks `ks` are in the packed C of the cores at work; the others' are zero. -/
def Acc (g : Geo) (ks : List Nat) (mem : Mem α) : Prop :=
  (∀ i r c, i < g.u → r < g.mt i → c < g.nt i → g.rb i + r < M → g.cb i + c < N →
    mem ⟨.CpC i, cIdx m_r n_r (g.mt i) r c⟩ =
      dotFrom F (a (g.rb i + r)) (fun k => b k (g.cb i + c)) (kOrder K k_c ks) F.zero) ∧
  ∀ i x, g.u ≤ i → i < p → x < m_c * n_c → mem ⟨.CpC i, x⟩ = F.zero

/-- The blocks `bl` of C are finished. -/
def DoneB (bl : List (Nat × Nat)) (mem : Mem α) (init : Loc → Bool) : Prop :=
  ∀ x ∈ bl, x.1 < Nb ∧ x.2 < Mb ∧ ∀ i r c, i < (geo x.1 x.2).u → r < (geo x.1 x.2).mt i →
    c < (geo x.1 x.2).nt i → (geo x.1 x.2).rb i + r < M → (geo x.1 x.2).cb i + c < N →
    mem ⟨.C, ((geo x.1 x.2).rb i + r) * N + ((geo x.1 x.2).cb i + c)⟩ =
      dotFrom F (a ((geo x.1 x.2).rb i + r)) (fun k => b k ((geo x.1 x.2).cb i + c))
        (kOrder K k_c (ord x.1 x.2)) F.zero ∧
    init ⟨.C, ((geo x.1 x.2).rb i + r) * N + ((geo x.1 x.2).cb i + c)⟩ = true

def CInit (init : Loc → Bool) : Prop := ∀ i x, i < p → x < m_c * n_c → init ⟨.CpC i, x⟩ = true

/-- Between blocks. -/
def RunR (bl : List (Nat × Nat)) (mem : Mem α) (init : Loc → Bool) : Prop :=
  DoneB F geo ord Nb Mb M N K k_c a b bl mem init ∧
  (∀ i x, i < p → x < m_c * n_c → mem ⟨.CpC i, x⟩ = F.zero) ∧ CInit p m_c n_c init

/-- Within block `(n, m)`, after the K blocks `ks`. -/
def RunW (bl : List (Nat × Nat)) (n m : Nat) (ks : List Nat) (mem : Mem α) (init : Loc → Bool) : Prop :=
  DoneB F geo ord Nb Mb M N K k_c a b bl mem init ∧
  Acc F M N K p m_r n_r m_c k_c n_c a b (geo n m) ks mem ∧ CInit p m_c n_c init

variable {F geo ord Nb Mb M N K p m_r n_r m_c k_c n_c a b}

theorem DoneB.stable {D : Buf → Prop} (hD : ¬ D .C) {bl : List (Nat × Nat)} :
    Stable D (DoneB F geo ord Nb Mb M N K k_c a b bl) := by
  intro m m' i i' h hd x hx
  obtain ⟨h1, h2, h3⟩ := hd x hx
  refine ⟨h1, h2, ?_⟩
  intro j r c hj hr hc hM hN
  have := h ⟨.C, ((geo x.1 x.2).rb j + r) * N + ((geo x.1 x.2).cb j + c)⟩ hD
  rw [this.1, this.2]
  exact h3 j r c hj hr hc hM hN

theorem RunW.stable {D : Buf → Prop} (hD : ¬ D .C) (hD2 : ∀ i, ¬ D (.CpC i)) {bl : List (Nat × Nat)}
    {n m : Nat} {ks : List Nat} :
    Stable D (RunW F geo ord Nb Mb M N K p m_r n_r m_c k_c n_c a b bl n m ks) := by
  intro mem mem' i i' h hw
  refine ⟨DoneB.stable hD mem mem' i i' h hw.1, ⟨?_, ?_⟩, ?_⟩
  · intro j r c hj hr hc hM hN
    rw [(h ⟨.CpC j, _⟩ (hD2 j)).1]
    exact hw.2.1.1 j r c hj hr hc hM hN
  · intro j x h1 h2 h3
    rw [(h ⟨.CpC j, _⟩ (hD2 j)).1]
    exact hw.2.1.2 j x h1 h2 h3
  · intro j x h1 h2
    rw [(h ⟨.CpC j, _⟩ (hD2 j)).2]
    exact hw.2.2 j x h1 h2

theorem RunR.start {bl : List (Nat × Nat)} {n m : Nat} (hg : (geo n m).OK M N p m_r n_r m_c n_c)
    {mem : Mem α} {init : Loc → Bool}
    (h : RunR F geo ord Nb Mb M N K p m_c k_c n_c a b bl mem init) :
    RunW F geo ord Nb Mb M N K p m_r n_r m_c k_c n_c a b bl n m [] mem init := by
  refine ⟨h.1, ⟨?_, fun i x _ h1 h2 => h.2.1 i x h1 h2⟩, h.2.2⟩
  intro i r c hi hr hc _ _
  rw [h.2.1 i _ (Nat.lt_of_lt_of_le hi hg.u_le)]
  · rfl
  · exact Nat.lt_of_lt_of_le (cIdx_lt' (hg.m_dvd i hi) (hg.n_dvd i hi) hr hc)
      (Nat.mul_le_mul (hg.m_le i hi) (hg.n_le i hi))

/-- The compute phase of K block `k`. -/
theorem compute_phase {s0 : State α} {sz : Buf → Option Nat}
    {PA QA PB : Mem α → (Loc → Bool) → Prop} {bl : List (Nat × Nat)} {n m k : Nat} {ks : List Nat}
    {pre : Nat → List Op} {aL bL : Nat → Loc} {kd : KDim}
    (hg : (geo n m).OK M N p m_r n_r m_c n_c) (hp : PreOK (geo n m) pre aL bL) (hk : kd.Fits m_r n_r)
    (hf : ∀ b : Buf, b ≠ .A → b ≠ .B → b ≠ .C → b ≠ .Ctx → s0.size b = none)
    (hAval : ∀ s : State α, Env s0 sz (cX M N) PA s → ∀ i, i < (geo n m).u → ∀ m' : Mem α,
      (∀ x : Loc, x.buf = .A ∨ x.buf = .Ap ∨ x.buf = .ApC i → m' x = s.mem x) →
      ∀ r kk, r < (geo n m).mt i → (geo n m).rb i + r < M → kk < chopLen K k_c k →
      exec F (pre i) m' (aL i +ₚ aIdx m_r (chopLen K k_c k) r kk) = a ((geo n m).rb i + r) (k * k_c + kk))
    (hAsafe : S → ∀ s : State α, Env s0 sz (cX M N) PA s → ∀ i, i < (geo n m).u →
      Safe sz s.init (pre i) ∧ ∀ x, x < (geo n m).mt i * chopLen K k_c k →
        InB sz (aL i +ₚ x) ∧ initAfter (pre i) s.init (aL i +ₚ x) = true)
    (hBval : ∀ mem init, PB mem init → ∀ i c kk, i < (geo n m).u → c < (geo n m).nt i →
      (geo n m).cb i + c < N → kk < chopLen K k_c k →
      mem (bL i +ₚ bIdx n_r (chopLen K k_c k) c kk) = b (k * k_c + kk) ((geo n m).cb i + c))
    (hBsafe : S → ∀ mem init, PB mem init → ∀ i x, i < (geo n m).u → x < (geo n m).nt i * chopLen K k_c k →
      InB sz (bL i +ₚ x) ∧ init (bL i +ₚ x) = true)
    (hBst : Stable (fun b => (∃ i, b = .ApC i) ∨ (∃ i, b = .reg i) ∨ ∃ i, b = .CpC i) PB)
    (hQA : ∀ s : State α, Env s0 sz (cX M N) PA s →
      QA (exec F (gTasks (geo n m) kd pre aL bL m_r n_r (chopLen K k_c k)).flatten s.mem)
        (initAfter (gTasks (geo n m) kd pre aL bL m_r n_r (chopLen K k_c k)).flatten s.init))
    (hCsz : ∀ i, i < p → sz (.CpC i) = some (m_c * n_c)) :
    STriple S F
      (Env s0 sz (cX M N) fun mem init =>
        RunW F geo ord Nb Mb M N K p m_r n_r m_c k_c n_c a b bl n m ks mem init ∧ PA mem init ∧ PB mem init)
      [.par (gTasks (geo n m) kd pre aL bL m_r n_r (chopLen K k_c k))]
      (Env s0 sz (cX M N) fun mem init =>
        RunW F geo ord Nb Mb M N K p m_r n_r m_c k_c n_c a b bl n m (ks ++ [k]) mem init ∧
          QA mem init ∧ PB mem init) := by
  have hdst := gTasks_dst (kc := chopLen K k_c k) hg hp hk
  have hfr : ∀ (mem : Mem α) (init : Loc → Bool) (l : Loc),
      ¬ ((∃ i, l.buf = .ApC i) ∨ (∃ i, l.buf = .reg i) ∨ ∃ i, l.buf = .CpC i) →
      exec F (gTasks (geo n m) kd pre aL bL m_r n_r (chopLen K k_c k)).flatten mem l = mem l ∧
      initAfter (gTasks (geo n m) kd pre aL bL m_r n_r (chopLen K k_c k)).flatten init l = init l := by
    intro mem init l hl
    have hno : ∀ o ∈ (gTasks (geo n m) kd pre aL bL m_r n_r (chopLen K k_c k)).flatten, o.dst ≠ l := by
      intro o ho e
      obtain ⟨i, _, h1⟩ := hdst o ho
      rw [e] at h1
      rcases h1 with h1 | h1 | h1
      · exact hl (Or.inl ⟨i, h1⟩)
      · exact hl (Or.inr (Or.inl ⟨i, h1⟩))
      · exact hl (Or.inr (Or.inr ⟨i, h1⟩))
    exact ⟨exec_frame F _ _ _ hno, initAfter_eq_of_not_dst hno⟩
  apply Env.parS
  · exact gTasks_raceFree hg hp hk
  · intro hS s hs
    have hsA : Env s0 sz (cX M N) PA s := ⟨hs.size, hs.keep, hs.fact.2.1⟩
    apply gTasks_safe hg hp hk
    · intro i hi; exact (hAsafe hS s hsA i hi).1
    · intro i hi; exact (hAsafe hS s hsA i hi).2
    · intro i hi x hx; exact hBsafe hS _ _ hs.fact.2.2 i x hi hx
    · intro i x hi hx
      have hip := Nat.lt_of_lt_of_le hi hg.u_le
      exact ⟨inB_of (hCsz i hip) hx, hs.fact.1.2.2 i x hip hx⟩
  · intro o ho
    left
    obtain ⟨i, _, h1⟩ := hdst o ho
    apply hf <;> rcases h1 with h1 | h1 | h1 <;> rw [h1] <;> simp
  · intro s hs
    have hsA : Env s0 sz (cX M N) PA s := ⟨hs.size, hs.keep, hs.fact.2.1⟩
    refine ⟨⟨?_, ⟨?_, ?_⟩, ?_⟩, hQA s hsA, hBst _ _ _ _ (hfr s.mem s.init) hs.fact.2.2⟩
    · exact DoneB.stable (D := fun b => (∃ i, b = .ApC i) ∨ (∃ i, b = .reg i) ∨ ∃ i, b = .CpC i)
        (by simp) _ _ _ _ (hfr s.mem s.init) hs.fact.1.1
    · intro i r c hi hr hc hM hN
      rw [gTasks_val (F := F) hg hp hk s.mem hi hr hc (fun kk => a ((geo n m).rb i + r) (k * k_c + kk))
        (fun kk => b (k * k_c + kk) ((geo n m).cb i + c))
        (fun m' hm' kk hkk => hAval s hsA i hi m' hm' r kk hr hM hkk)
        (fun kk hkk => hBval _ _ hs.fact.2.2 i c kk hi hc hN hkk),
        hs.fact.1.2.1.1 i r c hi hr hc hM hN]
      unfold dotFrom kOrder
      rw [flatMap_append, foldl_append]
      simp only [flatMap_cons, flatMap_nil, append_nil, foldl_map]
    · intro i x h1 h2 h3
      rw [exec_frame]
      · exact hs.fact.1.2.1.2 i x h1 h2 h3
      · intro o ho e
        obtain ⟨j, hj, h4⟩ := hdst o ho
        rw [e] at h4
        simp only [reduceCtorEq, Buf.CpC.injEq, false_or] at h4
        omega
    · intro i x h1 h2
      exact initAfter_mono (hs.fact.1.2.2 i x h1 h2)

/-- The unpack phase that ends block `(n, m)`. -/
theorem unpack_phase {s0 : State α} {sz : Buf → Option Nat}
    {PP : Mem α → (Loc → Bool) → Prop} {bl : List (Nat × Nat)} {n m : Nat} {unp : Nat → List Op}
    (hg : ∀ n m, n < Nb → m < Mb → (geo n m).OK M N p m_r n_r m_c n_c)
    (hcross : ∀ n m n' m', n < Nb → m < Mb → n' < Nb → m' < Mb → ∀ i j r r' c c',
      i < (geo n m).u → j < (geo n' m').u → r < (geo n m).mt i → r' < (geo n' m').mt j →
      c < (geo n m).nt i → c' < (geo n' m').nt j → (geo n m).rb i + r = (geo n' m').rb j + r' →
      (geo n m).cb i + c = (geo n' m').cb j + c' → (geo n m).rb i + r < M → (geo n m).cb i + c < N →
      n = n' ∧ m = m')
    (hu : UnpOK (geo n m) unp M N m_r n_r) (hn : n < Nb) (hm : m < Mb)
    (hf : ∀ b : Buf, b ≠ .A → b ≠ .B → b ≠ .C → b ≠ .Ctx → s0.size b = none)
    (hPP : Stable (fun b => b = .C ∨ ∃ i, b = .CpC i) PP)
    (hCsz : ∀ i, i < p → sz (.CpC i) = some (m_c * n_c))
    (hc : ∀ x, x < M * N → InB sz ⟨.C, x⟩) :
    STriple S F
      (Env s0 sz (cX M N) fun mem init =>
        RunW F geo ord Nb Mb M N K p m_r n_r m_c k_c n_c a b bl n m (ord n m) mem init ∧ PP mem init)
      [.par (gUnpack (geo n m) unp m_c n_c)]
      (Env s0 sz (cX M N) fun mem init =>
        RunR F geo ord Nb Mb M N K p m_c k_c n_c a b (bl ++ [(n, m)]) mem init ∧ PP mem init) := by
  have hgm := hg n m hn hm
  have hmem := fun o => (gUnpack_mem (m_c := m_c) (n_c := n_c) hu o)
  apply Env.parS
  · exact gUnpack_raceFree hgm hu
  · intro _ s hs
    apply gUnpack_safe hgm hu
    · intro i x hi hx
      have hip := Nat.lt_of_lt_of_le hi hgm.u_le
      exact ⟨inB_of (hCsz i hip) hx, hs.fact.1.2.2 i x hip hx⟩
    · exact hc
  · intro o ho
    obtain ⟨i, hi, h1⟩ := (hmem o).1 ho
    rcases h1 with ⟨r, c, hr, hcc, hM, hN, rfl⟩ | ⟨x, _, rfl⟩
    · right; exact ⟨rfl, mulAdd_lt hM hN⟩
    · left; apply hf <;> simp [Op.dst]
  · intro s hs
    obtain ⟨⟨hd, hacc, hci⟩, hpp⟩ := hs.fact
    refine ⟨⟨?_, ?_, ?_⟩, ?_⟩
    · -- finished blocks
      have hnew : ∀ i r c, i < (geo n m).u → r < (geo n m).mt i →
          c < (geo n m).nt i → (geo n m).rb i + r < M → (geo n m).cb i + c < N →
          exec F (gUnpack (geo n m) unp m_c n_c).flatten s.mem
            ⟨.C, ((geo n m).rb i + r) * N + ((geo n m).cb i + c)⟩ =
          dotFrom F (a ((geo n m).rb i + r)) (fun k => b k ((geo n m).cb i + c))
            (kOrder K k_c (ord n m)) F.zero ∧
          initAfter (gUnpack (geo n m) unp m_c n_c).flatten s.init
            ⟨.C, ((geo n m).rb i + r) * N + ((geo n m).cb i + c)⟩ = true := by
        intro i r c hi hr hcc hM hN
        refine ⟨?_, ?_⟩
        · rw [gUnpack_val (F := F) hgm hu s.mem hi hr hcc hM hN]
          exact hacc.1 i r c hi hr hcc hM hN
        · apply initAfter_of_mem
          right
          exact ⟨_, (hmem _).2 ⟨i, hi, Or.inl ⟨r, c, hr, hcc, hM, hN, rfl⟩⟩, rfl⟩
      intro x hx
      rcases mem_append.1 hx with hx | hx
      · obtain ⟨h1, h2, h3⟩ := hd x hx
        refine ⟨h1, h2, ?_⟩
        by_cases hsame : x = (n, m)
        · subst hsame; exact hnew
        intro i r c hi hr hcc hM hN
        obtain ⟨h4, h5⟩ := h3 i r c hi hr hcc hM hN
        refine ⟨?_, initAfter_mono h5⟩
        rw [gUnpack_frameC hgm hu s.mem hN]
        · exact h4
        · intro j r' c' hj hr' hc' e1 e2
          have := hcross x.1 x.2 n m h1 h2 hn hm i j r r' c c' hi hj hr hr' hcc hc' e1.symm e2.symm hM hN
          exact hsame (Prod.ext this.1 this.2)
      · simp only [mem_singleton] at hx
        subst hx
        exact ⟨hn, hm, hnew⟩
    · intro i x hi hx
      apply gUnpack_zero hu s.mem hx
      rcases Nat.lt_or_ge i (geo n m).u with h | h
      · exact Or.inr h
      · exact Or.inl (hacc.2 i x h hi hx)
    · intro i x h1 h2
      exact initAfter_mono (hci i x h1 h2)
    · refine hPP _ _ _ _ ?_ hpp
      intro l hl
      have hno : ∀ o ∈ (gUnpack (geo n m) unp m_c n_c).flatten, o.dst ≠ l := by
        intro o ho e
        obtain ⟨i, _, h1⟩ := (hmem o).1 ho
        apply hl
        rw [← e]
        rcases h1 with ⟨r, c, hr, hcc, hM, hN, rfl⟩ | ⟨x, _, rfl⟩
        · exact Or.inl rfl
        · exact Or.inr ⟨i, rfl⟩
      exact ⟨exec_frame F _ _ _ hno, initAfter_eq_of_not_dst hno⟩

end run
end geo
end Cake
