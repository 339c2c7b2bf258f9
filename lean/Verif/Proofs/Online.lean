/-
`cake_sgemm_online`: the complete program.
-/
import Verif.Model.Online
import Verif.Proofs.Block

namespace Cake
open List

variable {α : Type _} {F : Arith α} {S : Prop}

section rules
variable {s0 : State α} {sz : Buf → Option Nat} {X : Loc → Prop} {P : Mem α → (Loc → Bool) → Prop}

/-- Allocating `f 0 … f (n-1)` with `posix_memalign`. -/
theorem Env.memaligns (f : Nat → Buf) (hf : Function.Injective f) (n m : Nat)
    (h0 : ∀ i, i < n → s0.size (f i) = none) (hsz : ∀ i, i < n → sz (f i) = none)
    (hst : Stable (fun b => ∃ i, b = f i) P) :
    Triple F (Env s0 sz X P) ((range n).map fun i => .memalign (f i) m)
      (Env s0 (szSets sz f (some m) n) X P) := by
  induction n with
  | zero => exact Triple.nil
  | succ n ih =>
    rw [range_succ, map_append]
    refine Triple.seq (ih (fun i hi => h0 i (by omega)) (fun i hi => hsz i (by omega))) ?_
    refine (Env.memalign (f n) m (h0 n (by omega)) ?_ ?_).conseq (fun _ h => h) (fun _ h => h)
    · rw [szSets_of_ne]
      · exact hsz n (by omega)
      · intro i hi e
        exact absurd (hf e) (by omega)
    · intro m m' i i' h hp
      exact hst m m' i i' (fun l hl => h l (fun e => hl ⟨n, e⟩)) hp

/-- Freeing a list of distinct objects. -/
theorem Env.freeBufs : ∀ (bs : List Buf) {sz : Buf → Option Nat}, bs.Nodup → (∀ b ∈ bs, sz b ≠ none) →
    Triple F (Env s0 sz X P) (bs.map Item.free) (Env s0 (fun b => if b ∈ bs then none else sz b) X P)
  | [], sz, _, _ => by
    refine Triple.nil.conseq (fun _ h => h) ?_
    intro s hs
    exact ⟨by rw [hs.size]; funext b; simp, hs.keep, hs.fact⟩
  | b :: bs, sz, hn, ha => by
    rw [nodup_cons] at hn
    have t1 := Env.free (F := F) (s0 := s0) (sz := sz) (X := X) (P := P) b (ha b (by simp))
    have t2 := Env.freeBufs bs (sz := szSet sz b none) hn.2 (by
      intro b' hb'
      have hne : b' ≠ b := by rintro rfl; exact hn.1 hb'
      rw [szSet_ne _ _ hne]
      exact ha b' (by simp [hb']))
    refine (Triple.seq t1 t2).conseq (fun _ h => h) ?_
    intro s hs
    refine ⟨?_, hs.keep, hs.fact⟩
    rw [hs.size]
    funext b'
    by_cases h1 : b' = b
    · subst h1; simp [hn.1, szSet]
    · simp [h1, szSet]

end rules

/-- Total reading of a conditional triple. -/
theorem STriple.computes {call : Option Prog} {prog : Prog} (hcall : call = some prog) {s : State α}
    {Q : State α → Prop} (h : STriple S F (· = s) prog Q) (hS : S) : Computes F call s Q := by
  have ht := h.total hS
  refine ⟨prog, hcall, ?_, ?_⟩
  · obtain ⟨s', h1, _⟩ := ht.exists_ok rfl
    exact ⟨s', h1⟩
  · intro out he
    exact ht s out rfl he

/-- Partial reading of a conditional triple. -/
theorem STriple.never {prog : Prog} {s : State α}
    {Q : State α → Prop} (h : STriple S F (· = s) prog Q) {s' : State α} (he : Exec F prog s (.ok s')) :
    Q s' := by
  rcases h s _ rfl he with e | e | ⟨s'', e, hq⟩
  · cases e
  · cases e.1
  · cases e; exact hq

section
variable {M N K p m_r n_r m_c k_c n_c : Nat}

/-- Rectangles of the K-first schedules with one column of cores. -/
def geoK (M N p m_r n_r m_c n_c n m : Nat) : Geo where
  u := mU M p m_r m_c m
  rb i := m * (p * m_c) + i * mX M p m_r m_c m
  cb _ := n * n_c
  mt i := mT M p m_r m_c m i
  nt _ := nLen N n_r n_c n

theorem geoK_row (n m i r : Nat) :
    (geoK M N p m_r n_r m_c n_c n m).rb i + r = rowOf M p m_r m_c m i r := by
  simp only [geoK, rowOf]; omega

variable (h : TileOK p m_r n_r m_c k_c n_c)
include h

theorem geoK_ok {n m : Nat} (hm : m < cdiv M (p * m_c)) :
    (geoK M N p m_r n_r m_c n_c n m).OK M N p m_r n_r m_c n_c where
  u_le := mU_le h hm
  m_pos := h.m_r_pos
  n_pos := h.n_r_pos
  m_dvd _ _ := mT_dvd h hm
  n_dvd _ _ := nLen_dvd h
  m_le _ _ := mT_le h hm
  n_le _ _ := nLen_le
  disj := by
    intro i j _ _ r r' c c' hr hr' _ _ e _ _ _
    rw [geoK_row, geoK_row] at e
    exact (rowOf_inj hr hr' e).2.1

omit h in
theorem geoK_cross {n m n' m' i j r r' c c' : Nat}
    (hr : r < mT M p m_r m_c m i) (hr' : r' < mT M p m_r m_c m' j)
    (hc : c < nLen N n_r n_c n) (hc' : c' < nLen N n_r n_c n')
    (e1 : (geoK M N p m_r n_r m_c n_c n m).rb i + r = (geoK M N p m_r n_r m_c n_c n' m').rb j + r')
    (e2 : n * n_c + c = n' * n_c + c') : n = n' ∧ m = m' := by
  rw [geoK_row, geoK_row] at e1
  exact ⟨(colOf_inj hc hc' e2).1, (rowOf_inj hr hr' e1).1⟩

/-! ### The schedule as a snake of packing, compute and unpack phases -/

omit h in
/-- What core `i` packs in step `(m, k)`. -/
def onPre (M K p m_r m_c k_c m k : Nat) (rA : Bool) (i : Nat) : List Op :=
  if rA then [] else (gstrips (.ApC i) (⟨.A, 0⟩ +ₚ (m * p * m_c * K + k * k_c + i * mX M p m_r m_c m * K))
    m_r (mT M p m_r m_c m i) (chopLen K k_c k) (fun r i => r * K + i)).flatten

omit h in
def onStep (kd : KDim) (M N K p m_r n_r m_c k_c n_c n m k : Nat) (rA rB : Bool) : Prog :=
  (if rB then [] else [.par (gstrips .Bp (⟨.B, 0⟩ +ₚ (n * n_c + k * k_c * N)) n_r (nLen N n_r n_c n)
    (chopLen K k_c k) (fun c i => i * N + c))]) ++
  [.par (gTasks (geoK M N p m_r n_r m_c n_c n m) kd (onPre M K p m_r m_c k_c m k rA)
    (fun i => ⟨.ApC i, 0⟩) (fun _ => ⟨.Bp, 0⟩) m_r n_r (chopLen K k_c k))]

omit h in
def onUnp (M N p m_r n_r m_c n_c n m core : Nat) : List Op :=
  unpack_ob_C_single_buf (⟨.C, 0⟩ +ₚ (m * p * m_c * N + n * n_c + core * mX M p m_r m_c m * N))
    ⟨.CpC core, 0⟩ M N (m * p * m_c) (n * n_c) (core * mX M p m_r m_c m)
    (mT M p m_r m_c m core) (nLen N n_r n_c n) m_r n_r

omit h in
def onFin (M N p m_r n_r m_c n_c n m : Nat) : Prog :=
  [.par (gUnpack (geoK M N p m_r n_r m_c n_c n m) (onUnp M N p m_r n_r m_c n_c n m) m_c n_c)]

theorem online_snake (kd : KDim) :
    phases (schedule_KMN_online kd ⟨.A, 0⟩ ⟨.B, 0⟩ ⟨.C, 0⟩ M N K p m_r n_r
      (dimsKMN M N K p m_r n_r m_c k_c n_c)) =
    snakeProg (cdiv N n_c) (cdiv M (p * m_c)) (cdiv K k_c)
      (onStep kd M N K p m_r n_r m_c k_c n_c) (onFin M N p m_r n_r m_c n_c) := by
  unfold phases schedule_KMN_online snakeProg
  rw [kmn_Mb h, kmn_Kb h, kmn_Nb h]
  have hpad : (dimsKMN M N K p m_r n_r m_c k_c n_c).m_pad = (M % (p * m_c) != 0) := rfl
  have hkpad : (dimsKMN M N K p m_r n_r m_c k_c n_c).k_pad = (K % k_c != 0) := rfl
  have hnpad : (dimsKMN M N K p m_r n_r m_c k_c n_c).n_pad = (N % n_c != 0) := rfl
  have hmc : (dimsKMN M N K p m_r n_r m_c k_c n_c).m_c = m_c := rfl
  have hkc : (dimsKMN M N K p m_r n_r m_c k_c n_c).k_c = k_c := rfl
  have hkc1 : (dimsKMN M N K p m_r n_r m_c k_c n_c).k_c1 = K % k_c := rfl
  have hnc : (dimsKMN M N K p m_r n_r m_c k_c n_c).n_c = n_c := rfl
  have hnc1 : (dimsKMN M N K p m_r n_r m_c k_c n_c).n_c1 = cdiv (N % n_c) n_r * n_r := rfl
  rw [hpad, hkpad, hnpad, hmc, hkc, hkc1, hnc, hnc1]
  rw [map_flatMap]
  apply flatMap_congr
  intro n hn
  rw [mem_range] at hn
  rw [map_flatMap]
  apply flatMap_congr
  intro m hm
  rw [mem_serp] at hm
  obtain ⟨_, _, _, h4, _, h6⟩ := m_strips (N := N) (K := K) (k_c := k_c) (n_r := n_r) (n_c := n_c) h hm
  have hn1 : (if (n == cdiv N n_c - 1 && N % n_c != 0) = true then N - N % n_c else n * n_c) =
      n * n_c := by
    split
    · rename_i hl
      simp only [Bool.and_eq_true, beq_iff_eq] at hl
      rw [sub_mod_eq]
      have := cdiv_eq_div_add N n_c h.n_c_pos
      rw [hl.2] at this
      simp only [Bool.toNat_true] at this
      congr 1; omega
    · rfl
  have hm1 : (if (m == cdiv M (p * m_c) - 1 && M % (p * m_c) != 0) = true then M - M % (p * m_c)
      else m * p * m_c) = m * p * m_c := by
    split
    · rename_i hl
      simp only [Bool.and_eq_true, beq_iff_eq] at hl
      rw [sub_mod_eq, Nat.mul_assoc m]
      have := cdiv_eq_div_add M (p * m_c) h.S_pos
      rw [hl.2] at this
      simp only [Bool.toNat_true] at this
      congr 1; omega
    · rfl
  have hx : (if (m == cdiv M (p * m_c) - 1 && M % (p * m_c) != 0) = true then
        (dimsKMN M N K p m_r n_r m_c k_c n_c).m_c1 else m_c) = mX M p m_r m_c m := rfl
  have hms : (if n % 2 ≠ 0 then cdiv M (p * m_c) - 1 else 0) =
      serpStart (n % 2 != 0) (cdiv M (p * m_c)) := by
    unfold serpStart; simp only [bne_iff_ne]
  simp only [hn1, hm1, n_len h hn, hms]
  rw [h4, hx, map_append]
  refine congrArg₂ (· ++ ·) ?_ ?_
  · rw [map_flatMap]
    apply flatMap_congr
    intro k hk
    have hk' := hk
    rw [mem_serp] at hk
    rw [k_len h.k_c_pos hk]
    have hks : (if (if n % 2 ≠ 0 then (if m % 2 ≠ 0 then false else true)
        else (if m % 2 ≠ 0 then true else false)) = true then cdiv K k_c - 1 else 0) =
        serpStart (kDesc n m) (cdiv K k_c) := rfl
    rw [hks, map_append]
    unfold onStep
    refine congrArg₂ (· ++ ·) ?_ ?_
    · split
      · rfl
      · rw [map_singleton]
        refine congrArg (fun t => [Item.par t]) ?_
        have := kernelsB_eq .Bp (⟨.B, 0⟩ +ₚ (n * n_c + k * k_c * N)) n_r (nLen N n_r n_c n) (chopLen K k_c k) N
        simp only [off_off] at this
        exact this
    · rw [map_singleton]
      refine congrArg (fun t => [Item.par t]) ?_
      unfold gTasks
      apply map_congr_left
      intro core hcore
      rw [mem_range] at hcore
      rw [h6 core hcore]
      refine congrArg₂ (· ++ ·) ?_ rfl
      unfold onPre
      split
      · rfl
      · have := kernelsA_eq (.ApC core) (⟨.A, 0⟩ +ₚ (m * p * m_c * K + k * k_c + core * mX M p m_r m_c m * K))
          m_r (mT M p m_r m_c m core) (chopLen K k_c k) K
        simp only [off_off] at this
        rw [← this, ← flatMap_def]
        rfl
  · rw [map_singleton]
    refine congrArg (fun t => [Item.par t]) ?_
    unfold gUnpack
    apply map_congr_left
    intro core hcore
    rw [mem_range] at hcore
    rw [h6 core hcore]
    rfl


/-! ### The schedule -/

omit h in
/-- Core `i`'s buffer holds its strip of block `(m, k)` of A. -/
def onA (M K p m_r m_c k_c : Nat) (a : Nat → Nat → α) (m k : Nat) (mem : Mem α) (init : Loc → Bool) : Prop :=
  ∀ i, i < mU M p m_r m_c m →
    (∀ r kk, r < mT M p m_r m_c m i → kk < chopLen K k_c k → rowOf M p m_r m_c m i r < M →
      mem ⟨.ApC i, aIdx m_r (chopLen K k_c k) r kk⟩ = a (rowOf M p m_r m_c m i r) (k * k_c + kk)) ∧
    ∀ x, x < mT M p m_r m_c m i * chopLen K k_c k → init ⟨.ApC i, x⟩ = true

omit h in
/-- The shared buffer holds block `(n, k)` of B. -/
def onB (N K n_r k_c n_c : Nat) (b : Nat → Nat → α) (n k : Nat) (mem : Mem α) (init : Loc → Bool) : Prop :=
  (∀ c kk, c < nLen N n_r n_c n → kk < chopLen K k_c k → n * n_c + c < N →
    mem ⟨.Bp, bIdx n_r (chopLen K k_c k) c kk⟩ = b (k * k_c + kk) (n * n_c + c)) ∧
  ∀ x, x < nLen N n_r n_c n * chopLen K k_c k → init ⟨.Bp, x⟩ = true

omit h in
theorem onA.stable {D : Buf → Prop} (hD : ∀ i, ¬ D (.ApC i)) {a : Nat → Nat → α} {m k : Nat} :
    Stable D (onA M K p m_r m_c k_c a m k) := by
  intro mem mem' i i' h hp j hj
  refine ⟨?_, ?_⟩
  · intro r kk h1 h2 h3
    rw [(h ⟨.ApC j, _⟩ (hD j)).1]; exact (hp j hj).1 r kk h1 h2 h3
  · intro x hx
    rw [(h ⟨.ApC j, _⟩ (hD j)).2]; exact (hp j hj).2 x hx

omit h in
theorem onB.stable {D : Buf → Prop} (hD : ¬ D .Bp) {b : Nat → Nat → α} {n k : Nat} :
    Stable D (onB N K n_r k_c n_c b n k) := by
  intro mem mem' i i' h hp
  refine ⟨?_, ?_⟩
  · intro r kk h1 h2 h3
    rw [(h ⟨.Bp, _⟩ hD).1]; exact hp.1 r kk h1 h2 h3
  · intro x hx
    rw [(h ⟨.Bp, _⟩ hD).2]; exact hp.2 x hx

omit h in
theorem Stable.imp {D : Buf → Prop} {P : Mem α → (Loc → Bool) → Prop} (q : Prop) (hP : Stable D P) :
    Stable D (fun m i => q → P m i) :=
  fun m m' i i' h hp hq => hP m m' i i' h (hp hq)

omit h in
/-- The elements of A and B that packing without bounds checks reads: whole padded strips. -/
def PadReadable (s : State α) (Mp Np N K : Nat) : Prop :=
  (∀ r k, r < Mp → k < K → InB s.size ⟨.A, r * K + k⟩ ∧ s.init ⟨.A, r * K + k⟩ = true) ∧
  (∀ k c, k < K → c < Np → InB s.size ⟨.B, k * N + c⟩ ∧ s.init ⟨.B, k * N + c⟩ = true)

omit h in
theorem InB.mono {sz sz' : Buf → Option Nat} {l : Loc} (hsz : ∀ b, sz b ≠ none → sz' b = sz b) (hb : InB sz l) :
    InB sz' l := by
  unfold InB at *
  split
  · trivial
  · rename_i h'
    obtain ⟨n, hn, hx⟩ := by simpa [h'] using hb
    exact ⟨n, by rw [hsz _ (by simp [hn]), hn], hx⟩

theorem online_sched {kd : KDim} (hk : kd.Fits m_r n_r) {s0 : State α} {sz : Buf → Option Nat}
    (hf : ∀ b : Buf, b ≠ .A → b ≠ .B → b ≠ .C → b ≠ .Ctx → s0.size b = none)
    (hsz : ∀ b, s0.size b ≠ none → sz b = s0.size b)
    (hA : s0.size .A ≠ none) (hB : s0.size .B ≠ none) (hC : Room s0 .C M N)
    (hS : S → PadReadable s0 (padTo M (p * m_c) m_r) (padTo N n_c n_r) N K)
    (hapc : ∀ i, i < p → sz (.ApC i) = some (m_c * k_c)) (hbp : sz .Bp = some (k_c * n_c))
    (hcp : ∀ i, i < p → sz (.CpC i) = some (m_c * n_c)) :
    STriple S F
      (Env s0 sz (cX M N) fun mem init =>
        ∀ i x, i < p → mem ⟨.CpC i, x⟩ = F.zero ∧ init ⟨.CpC i, x⟩ = true)
      (phases (schedule_KMN_online kd ⟨.A, 0⟩ ⟨.B, 0⟩ ⟨.C, 0⟩ M N K p m_r n_r
        (dimsKMN M N K p m_r n_r m_c k_c n_c)))
      (Env s0 sz (cX M N) fun mem init => ∀ r c, r < M → c < N →
        init ⟨.C, r * N + c⟩ = true ∧ mem ⟨.C, r * N + c⟩ =
          dotFrom F (entry s0 .A K r) (fun k => entry s0 .B N k c) (orderKMN K p m_c k_c n_c r c) F.zero) := by
  rw [online_snake h]
  obtain ⟨nC, hnC, hleC⟩ := hC
  have hCin : ∀ x, x < M * N → InB sz ⟨.C, x⟩ := fun x hx =>
    inB_of (by rw [hsz _ (by simp [hnC])]; exact hnC) (by omega)
  let a := entry s0 .A K
  let b := entry s0 .B N
  let geo := geoK M N p m_r n_r m_c n_c
  let ord := fun n m => serp (kDesc n m) (cdiv K k_c)
  have key := snake_triple (S := S) (F := F) (Nb := cdiv N n_c) (Mb := cdiv M (p * m_c)) (Kb := cdiv K k_c)
    (step := onStep kd M N K p m_r n_r m_c k_c n_c) (fin := onFin M N p m_r n_r m_c n_c)
    (AH := fun m k s => onA M K p m_r m_c k_c a m k s.mem s.init)
    (BH := fun n k s => onB N K n_r k_c n_c b n k s.mem s.init)
    (R := fun bl s => Env s0 sz (cX M N)
      (RunR F geo ord (cdiv N n_c) (cdiv M (p * m_c)) M N K p m_c k_c n_c a b bl) s)
    (W := fun bl n m ks s => m < cdiv M (p * m_c) → Env s0 sz (cX M N)
      (RunW F geo ord (cdiv N n_c) (cdiv M (p * m_c)) M N K p m_r n_r m_c k_c n_c a b bl n m ks) s)
    ?_ ?_ ?_
  · refine key.conseq ?_ ?_
    · intro s hs
      exact ⟨hs.size, hs.keep, by intro x hx; simp at hx, fun i x hi _ => (hs.fact i x hi).1,
        fun i x hi _ => (hs.fact i x hi).2⟩
    · intro s hs
      refine ⟨hs.size, hs.keep, ?_⟩
      intro row col hrow hcol
      obtain ⟨m, core, r, hm, hcore, hr, rfl⟩ := rowOf_cover h hrow
      obtain ⟨n, c, hn, hc, rfl⟩ := colOf_cover h hcol
      have hmem : (n, m) ∈ snakeBlocks (cdiv N n_c) (cdiv M (p * m_c)) := by
        unfold snakeBlocks
        exact mem_flatMap.2 ⟨n, mem_range.2 hn, mem_map.2 ⟨m, mem_serp.2 hm, rfl⟩⟩
      obtain ⟨_, _, h3⟩ := hs.fact.1 (n, m) hmem
      have := h3 core r c hcore hr hc (by rw [geoK_row]; exact hrow) hcol
      rw [geoK_row] at this
      refine ⟨this.2, this.1.trans ?_⟩
      have e1 : rowOf M p m_r m_c m core r / (p * m_c) = m := mulAdd_div (strip_in_block hr)
      have e2 : (n * n_c + c) / n_c = n := mulAdd_div (Nat.lt_of_lt_of_le hc (chopLen_le _ _ _))
      unfold orderKMN
      rw [e1, e2]
      rfl
  · intro bl n m s hs hm
    exact ⟨hs.size, hs.keep, RunR.start (geoK_ok h hm) hs.fact⟩
  · -- one step
    intro bl n m ks k rA rB hn hm hkk
    have hg : (geo n m).OK M N p m_r n_r m_c n_c := geoK_ok h hm
    have hu : mU M p m_r m_c m ≤ p := mU_le h hm
    have hkc : chopLen K k_c k ≤ k_c := chopLen_le _ _ _
    have hkb : ∀ kk, kk < chopLen K k_c k → k * k_c + kk < K := fun kk hkk => chop_bound hkk
    unfold onStep
    have hBphase : STriple S F
        (Env s0 sz (cX M N) fun mem init =>
          (RunW F geo ord (cdiv N n_c) (cdiv M (p * m_c)) M N K p m_r n_r m_c k_c n_c a b bl n m ks mem init ∧
            (rA = true → onA M K p m_r m_c k_c a m k mem init)) ∧
          (rB = true → onB N K n_r k_c n_c b n k mem init))
        (if rB then [] else [.par (gstrips .Bp (⟨.B, 0⟩ +ₚ (n * n_c + k * k_c * N)) n_r (nLen N n_r n_c n)
          (chopLen K k_c k) (fun c i => i * N + c))])
        (Env s0 sz (cX M N) fun mem init =>
          RunW F geo ord (cdiv N n_c) (cdiv M (p * m_c)) M N K p m_r n_r m_c k_c n_c a b bl n m ks mem init ∧
            (rA = true → onA M K p m_r m_c k_c a m k mem init) ∧
            onB N K n_r k_c n_c b n k mem init) := by
      cases rB with
      | true =>
        refine STriple.nil.conseq (fun _ h => h) ?_
        intro s hs
        exact ⟨hs.size, hs.keep, hs.fact.1.1, hs.fact.1.2, hs.fact.2 rfl⟩
      | false =>
        simp only [Bool.false_eq_true, if_false]
        have hsrc : ∀ c i, i < chopLen K k_c k → (⟨.B, 0⟩ : Loc) +ₚ (n * n_c + k * k_c * N) +ₚ (i * N + c) =
            ⟨.B, (k * k_c + i) * N + (n * n_c + c)⟩ := by
          intro c i _
          simp only [Loc.off, Loc.mk.injEq, true_and]
          ring
        refine (pack_phase (S := S) (F := F) (s0 := s0) (sz := sz) (X := cX M N) (len := k_c * n_c)
          (P := fun mem init => RunW F geo ord (cdiv N n_c) (cdiv M (p * m_c)) M N K p m_r n_r m_c k_c n_c a b
            bl n m ks mem init ∧ (rA = true → onA M K p m_r m_c k_c a m k mem init))
          (dst := .Bp) h.n_r_pos (nLen_dvd h) (by simp) (hf _ (by simp) (by simp) (by simp) (by simp)) ?_ ?_ ?_ ?_ ?_).conseq ?_ ?_
        · exact Stable.and (RunW.stable (by simp) (by simp)) (Stable.imp _ (onA.stable (by simp)))
        · intro _
          refine ⟨hbp, ?_⟩
          rw [Nat.mul_comm k_c]
          exact Nat.mul_le_mul nLen_le hkc
        · intro hs r i hr hi
          rw [hsrc r i hi]
          have := (hS hs).2 (k * k_c + i) (n * n_c + r) (hkb i hi) (chop_bound hr)
          exact ⟨InB.mono hsz this.1, this.2⟩
        · exact hB
        · intro l hl; rw [hl.1]; simp
        · intro s hs
          exact ⟨hs.size, hs.keep, hs.fact.1⟩
        · intro s hs
          refine ⟨hs.size, hs.keep, hs.fact.1.1, hs.fact.1.2, ?_, hs.fact.2.2⟩
          intro c kk hc hkk' _
          have := hs.fact.2.1 c kk hc hkk'
          rw [hsrc c kk hkk'] at this
          exact this
    refine (STriple.seq hBphase (compute_phase (S := S) (F := F) (s0 := s0) (sz := sz) (geo := geo) (ord := ord)
      (Nb := cdiv N n_c) (Mb := cdiv M (p * m_c)) (a := a) (b := b) (k_c := k_c) (K := K) (k := k)
      (QA := onA M K p m_r m_c k_c a m k) (pre := onPre M K p m_r m_c k_c m k rA)
      (aL := fun i => ⟨.ApC i, 0⟩) (bL := fun _ => ⟨.Bp, 0⟩) (kd := kd) hg ?_ hk hf ?_ ?_ ?_ ?_ ?_ ?_ hcp)).conseq ?_ ?_
    · -- PreOK
      refine ⟨?_, ?_, fun _ _ => Or.inr rfl, fun _ _ => rfl⟩
      · intro i hi o ho
        unfold onPre at ho
        split at ho
        · simp at ho
        · obtain ⟨r, kk, _, _, rfl⟩ := (gstrips_mem h.m_r_pos (mT_dvd h hm) _).1 ho
          rfl
      · intro i hi o ho l hl
        unfold onPre at ho
        split at ho
        · simp at ho
        · obtain ⟨r, kk, _, _, rfl⟩ := (gstrips_mem h.m_r_pos (mT_dvd h hm) _).1 ho
          simp only [Op.reads, mem_singleton] at hl
          subst hl
          rfl
    · -- values of A
      intro s hs i hi m' hm' r kk hr hrow hkk'
      have e0 : (⟨.ApC i, 0⟩ : Loc) +ₚ aIdx m_r (chopLen K k_c k) r kk =
        ⟨.ApC i, aIdx m_r (chopLen K k_c k) r kk⟩ := by simp [Loc.off]
      rw [e0]
      unfold onPre
      cases rA with
      | true =>
        simp only [if_true]
        rw [exec_nil, hm' _ (by simp)]
        rw [geoK_row] at hrow ⊢
        exact (hs.fact rfl i hi).1 r kk hr hkk' hrow
      | false =>
        simp only [Bool.false_eq_true, if_false]
        rw [gstrips_val h.m_r_pos (mT_dvd h hm) (by simp) _ hr hkk', hm' _ (by simp [Loc.off]),
          (hs.keep _ (by simpa [Loc.off] using hA) (by simp [cX, Loc.off])).1]
        rw [geoK_row]
        show s0.mem _ = s0.mem _
        congr 1
        simp only [Loc.off, Loc.mk.injEq, true_and, rowOf]
        ring
    · -- safety of A
      intro hs' s hs i hi
      have hip : i < p := Nat.lt_of_lt_of_le hi hu
      unfold onPre
      cases rA with
      | true =>
        simp only [if_true]
        refine ⟨Safe.of_forall (by simp), ?_⟩
        intro x hx
        simp only [Loc.off, Nat.zero_add]
        refine ⟨inB_of (hapc i hip) (Nat.lt_of_lt_of_le hx (Nat.mul_le_mul (mT_le h hm) hkc)), ?_⟩
        exact initAfter_mono ((hs.fact rfl i hi).2 x hx)
      | false =>
        simp only [Bool.false_eq_true, if_false]
        have hseq := gstrips_seq (dst := .ApC i)
          (src := (⟨.A, 0⟩ : Loc) +ₚ (m * p * m_c * K + k * k_c + i * mX M p m_r m_c m * K))
          (k := chopLen K k_c k) (f := fun r i => r * K + i) h.m_r_pos (mT_dvd (core := i) h hm)
        refine ⟨?_, ?_⟩
        · apply Safe.of_forall
          intro o ho
          have hd := hseq.dst_of_mem ho
          obtain ⟨r, kk, hr, hkk', rfl⟩ := (gstrips_mem h.m_r_pos (mT_dvd h hm) _).1 ho
          refine ⟨?_, ?_⟩
          · refine inB_of (hapc i hip) ?_
            have h1 := hd.2.2
            simp only [Op.dst] at h1
            have := Nat.mul_le_mul (mT_le (core := i) h hm) hkc
            omega
          · intro l hl
            simp only [Op.reads, mem_singleton] at hl
            have e : l = ⟨.A, rowOf M p m_r m_c m i r * K + (k * k_c + kk)⟩ := by
              rw [hl]
              simp only [Loc.off, Loc.mk.injEq, true_and, rowOf]
              ring
            rw [e]
            have := (hS hs').1 _ (k * k_c + kk) (rowOf_lt hr) (hkb kk hkk')
            refine ⟨InB.mono hsz this.1, ?_⟩
            rw [(hs.keep _ (by simpa using hA) (by simp [cX])).2]
            exact this.2
        · intro x hx
          simp only [Loc.off, Nat.zero_add]
          refine ⟨inB_of (hapc i hip) (Nat.lt_of_lt_of_le hx (Nat.mul_le_mul (mT_le h hm) hkc)), ?_⟩
          apply initAfter_of_mem
          right
          have h' := (hseq.mem_iff ⟨.ApC i, x⟩).2 ⟨rfl, Nat.zero_le _, by have := hx; simp only [Nat.zero_add]; exact this⟩
          simpa only [Loc.off, Nat.zero_add] using h'
    · -- values of B
      intro mem init hb i c kk hi hc hN hkk'
      have := hb.1 c kk hc hkk' hN
      simp only [Loc.off, Nat.zero_add]
      exact this
    · -- safety of B
      intro _ mem init hb i x hi hx
      simp only [Loc.off, Nat.zero_add]
      refine ⟨inB_of hbp ?_, hb.2 x hx⟩
      rw [Nat.mul_comm k_c]
      exact Nat.lt_of_lt_of_le hx (Nat.mul_le_mul nLen_le hkc)
    · exact onB.stable (by simp)
    · -- packed A afterwards
      intro s hs i hi
      have hpok : PreOK (geo n m) (onPre M K p m_r m_c k_c m k rA) (fun i => ⟨.ApC i, 0⟩) (fun _ => ⟨.Bp, 0⟩) := by
        refine ⟨?_, ?_, fun _ _ => Or.inr rfl, fun _ _ => rfl⟩
        · intro i hi o ho
          unfold onPre at ho
          split at ho
          · simp at ho
          · obtain ⟨r, kk, _, _, rfl⟩ := (gstrips_mem h.m_r_pos (mT_dvd h hm) _).1 ho
            rfl
        · intro i hi o ho l hl
          unfold onPre at ho
          split at ho
          · simp at ho
          · obtain ⟨r, kk, _, _, rfl⟩ := (gstrips_mem h.m_r_pos (mT_dvd h hm) _).1 ho
            simp only [Op.reads, mem_singleton] at hl
            subst hl
            rfl
      refine ⟨?_, ?_⟩
      · intro r kk hr hkk' hrow
        apply gTasks_preVal hg hpok hk s.mem hi _ rfl
        intro m' hm'
        unfold onPre
        cases rA with
        | true =>
          simp only [if_true]
          rw [exec_nil, hm' _ (by simp)]
          exact (hs.fact rfl i hi).1 r kk hr hkk' hrow
        | false =>
          simp only [Bool.false_eq_true, if_false]
          rw [gstrips_val h.m_r_pos (mT_dvd h hm) (by simp) _ hr hkk', hm' _ (by simp [Loc.off]),
            (hs.keep _ (by simpa [Loc.off] using hA) (by simp [cX, Loc.off])).1]
          show s0.mem _ = s0.mem _
          congr 1
          simp only [Loc.off, Loc.mk.injEq, true_and, rowOf]
          ring
      · intro x hx
        cases rA with
        | true => exact initAfter_mono ((hs.fact rfl i hi).2 x hx)
        | false =>
          apply initAfter_of_mem
          right
          have hseq := gstrips_seq (dst := .ApC i)
            (src := (⟨.A, 0⟩ : Loc) +ₚ (m * p * m_c * K + k * k_c + i * mX M p m_r m_c m * K))
            (k := chopLen K k_c k) (f := fun r i => r * K + i) h.m_r_pos (mT_dvd (core := i) h hm)
          obtain ⟨o, ho, e⟩ := (hseq.mem_iff ⟨.ApC i, x⟩).2 ⟨rfl, Nat.zero_le _, by simpa using hx⟩
          refine ⟨o, ?_, e⟩
          unfold gTasks
          rw [← flatMap_def, mem_flatMap]
          refine ⟨i, mem_range.2 hi, mem_append_left _ ?_⟩
          unfold onPre
          simpa using ho
    · rintro s ⟨h1, h2, h3⟩
      have h1 := h1 hm
      exact ⟨h1.size, h1.keep, ⟨h1.fact, h2⟩, h3⟩
    · intro s hs
      exact ⟨fun _ => ⟨hs.size, hs.keep, hs.fact.1⟩, hs.fact.2.1, hs.fact.2.2⟩
  · -- end of a block
    intro bl n m hn hm q k
    unfold onFin
    refine (unpack_phase (S := S) (F := F) (s0 := s0) (sz := sz) (geo := geo) (ord := ord) (n := n) (m := m)
      (Nb := cdiv N n_c) (Mb := cdiv M (p * m_c)) (a := a) (b := b) (k_c := k_c) (K := K) (bl := bl)
      (PP := fun mem init => q → onA M K p m_r m_c k_c a m k mem init ∧ onB N K n_r k_c n_c b n k mem init)
      (fun n m _ hm => geoK_ok h hm) ?_ ?_ hn hm hf ?_ hcp hCin).conseq ?_ ?_
    · intro n m n' m' _ _ _ _ i j r r' c c' _ _ hr hr' hc hc' e1 e2 _ _
      exact geoK_cross hr hr' hc hc' e1 e2
    · intro i hi o
      unfold onUnp
      rw [unpackC_mem _ _ _ _ _ _ _ _ _ _ _ h.m_r_pos h.n_r_pos (mT_dvd h hm) (nLen_dvd h)]
      constructor
      · rintro ⟨r, c, hr, hc, h1, h2, rfl⟩
        refine ⟨r, c, hr, hc, ?_, h1, ?_⟩
        · rw [geoK_row]; unfold rowOf; rw [← Nat.mul_assoc, ← Nat.add_assoc]; exact h2
        · rw [off_off]
          simp only [Loc.off, geo, geoK]
          congr 2
          · ring
          · omega
      · rintro ⟨r, c, hr, hc, h1, h2, rfl⟩
        refine ⟨r, c, hr, hc, h2, ?_, ?_⟩
        · rw [geoK_row] at h1; unfold rowOf at h1; rwa [← Nat.mul_assoc, ← Nat.add_assoc] at h1
        · rw [off_off]
          simp only [Loc.off, geo, geoK]
          congr 2
          · ring
          · omega
    · exact Stable.imp _ (Stable.and (onA.stable (by simp)) (onB.stable (by simp)))
    · rintro s ⟨h1, h2⟩
      have h1 := h1 hm
      exact ⟨h1.size, h1.keep, h1.fact, h2⟩
    · intro s hs
      exact ⟨⟨hs.size, hs.keep, hs.fact.1⟩, hs.fact.2⟩

/-- The complete call. -/
theorem sgemm_online_triple {cx : Cntx} (hmr : cx.m_r = m_r) (hnr : cx.n_r = n_r)
    (hk : cx.kmap.Fits m_r n_r) {s0 : State α} (hs0 : CallOK s0 M N K)
    (hS : S → PadReadable s0 (padTo M (p * m_c) m_r) (padTo N n_c n_r) N K)
    (packedA packedB : Bool) (alpha beta : α) {prog : Prog}
    (hprog : cake_sgemm_online cx ⟨.A, 0⟩ ⟨.B, 0⟩ ⟨.C, 0⟩ M N K p packedA packedB alpha beta m_c k_c n_c =
      some prog) :
    STriple S F (· = s0) prog (Env s0 s0.size (cX M N) (fun mem init => ∀ r c, r < M → c < N →
      init ⟨.C, r * N + c⟩ = true ∧ mem ⟨.C, r * N + c⟩ =
        dotFrom F (entry s0 .A K r) (fun k => entry s0 .B N k c) (orderKMN K p m_c k_c n_c r c) F.zero)) := by
  subst hmr hnr
  simp only [cake_sgemm_online, init_block_dims, Option.bind_eq_bind, Option.bind_some, Option.some.injEq] at hprog
  subst hprog
  have hf := hs0.fresh
  have injA : Function.Injective Buf.ApC := fun x y e => by simpa using e
  have injC : Function.Injective Buf.CpC := fun x y e => by simpa using e
  have f1 : s0.size .Blk = none := hf _ (by simp) (by simp) (by simp) (by simp)
  have f2 : s0.size .Dims = none := hf _ (by simp) (by simp) (by simp) (by simp)
  have f3 : s0.size .Bp = none := hf _ (by simp) (by simp) (by simp) (by simp)
  have f4 : ∀ i, s0.size (.ApC i) = none := fun i => hf _ (by simp) (by simp) (by simp) (by simp)
  have f5 : ∀ i, s0.size (.CpC i) = none := fun i => hf _ (by simp) (by simp) (by simp) (by simp)
  obtain ⟨⟨nA, hnA, _⟩, _⟩ := hs0.a
  obtain ⟨⟨nB, hnB, _⟩, _⟩ := hs0.b
  set sz1 := szSet s0.size .Blk (some 1) with hsz1
  set sz2 := szSets sz1 Buf.ApC (some (m_c * k_c)) p with hsz2
  set sz3 := szSet sz2 .Bp (some (k_c * n_c)) with hsz3
  set sz4 := szSets sz3 Buf.CpC (some (m_c * n_c)) p with hsz4
  have v4 : ∀ b, b ≠ .Blk → (∀ i, i < p → b ≠ .ApC i) → b ≠ .Bp → (∀ i, i < p → b ≠ .CpC i) →
      sz4 b = s0.size b := by
    intro b h1 h2 h3 h4
    rw [hsz4, szSets_of_ne _ _ _ h4, hsz3, szSet_ne _ _ h3, hsz2, szSets_of_ne _ _ _ h2, hsz1, szSet_ne _ _ h1]
  have vA : ∀ i, i < p → sz4 (.ApC i) = some (m_c * k_c) := by
    intro i hi
    rw [hsz4, szSets_of_ne _ _ _ (by simp), hsz3, szSet_ne _ _ (by simp), hsz2, szSets_of_lt _ _ _ hi]
  have vB : sz4 .Bp = some (k_c * n_c) := by
    rw [hsz4, szSets_of_ne _ _ _ (by simp), hsz3, szSet_self]
  have vC : ∀ i, i < p → sz4 (.CpC i) = some (m_c * n_c) := by
    intro i hi
    rw [hsz4, szSets_of_lt _ _ _ hi]
  have vK : sz4 .Blk = some 1 := by
    rw [hsz4, szSets_of_ne _ _ _ (by simp), hsz3, szSet_ne _ _ (by simp), hsz2, szSets_of_ne _ _ _ (by simp), hsz1,
      szSet_self]
  have hmono : ∀ b, s0.size b ≠ none → sz4 b = s0.size b := by
    intro b hb
    apply v4
    · rintro rfl; exact hb f1
    · rintro i _ rfl; exact hb (f4 i)
    · rintro rfl; exact hb f3
    · rintro i _ rfl; exact hb (f5 i)
  have hnd : (((range p).flatMap fun i => [Buf.ApC i, Buf.CpC i]) ++ [Buf.Bp, Buf.Blk]).Nodup := by
    rw [nodup_append]
    refine ⟨?_, by simp, ?_⟩
    · rw [nodup_flatMap]
      refine ⟨by simp, ?_⟩
      refine (nodup_range (n := p)).imp ?_
      intro i j hij
      simp [Function.onFun, Ne.symm hij]
    · simp
      rintro b i _ (rfl | rfl) <;> simp
  have hal : ∀ b ∈ ((range p).flatMap fun i => [Buf.ApC i, Buf.CpC i]) ++ [Buf.Bp, Buf.Blk], sz4 b ≠ none := by
    intro b hb
    simp only [mem_append, mem_flatMap, mem_range, mem_cons, not_mem_nil, or_false] at hb
    rcases hb with ⟨i, hi, rfl | rfl⟩ | rfl | rfl
    · rw [vA i hi]; simp
    · rw [vC i hi]; simp
    · rw [vB]; simp
    · rw [vK]; simp
  have t1 := dims_triple (F := F) f1 f2
  have t2 := Env.memaligns (F := F) (s0 := s0) (sz := sz1) (X := noX) (P := fun _ _ => True) Buf.ApC injA p (m_c * k_c)
    (fun i _ => f4 i) (fun i _ => by rw [hsz1, szSet_ne _ _ (by simp)]; exact f4 i) (Stable.true _)
  have t3 := Env.memalign (F := F) (s0 := s0) (sz := sz2) (X := noX) (P := fun _ _ => True) .Bp (k_c * n_c) f3
    (by rw [hsz2, szSets_of_ne _ _ _ (by simp), hsz1, szSet_ne _ _ (by simp)]; exact f3) (Stable.true _)
  have t4 := Env.callocs (F := F) (s0 := s0) (sz := sz3) (X := noX) (P := fun _ _ => True) Buf.CpC injC p (m_c * n_c)
    (fun i _ => f5 i) (fun i _ => by
      rw [hsz3, szSet_ne _ _ (by simp), hsz2, szSets_of_ne _ _ _ (by simp), hsz1, szSet_ne _ _ (by simp)]; exact f5 i)
    (Stable.true _)
  have t5 := online_sched (S := S) (F := F) h hk (s0 := s0) (sz := sz4) hf hmono (by simp [hnA]) (by simp [hnB]) hs0.c hS
    vA vB vC
  have t6 := Env.freeBufs (F := F) (s0 := s0) (sz := sz4) (X := cX M N)
    (P := fun mem init => ∀ r c, r < M → c < N →
      init ⟨.C, r * N + c⟩ = true ∧ mem ⟨.C, r * N + c⟩ =
        dotFrom F (entry s0 .A K r) (fun k => entry s0 .B N k c) (orderKMN K p m_c k_c n_c r c) F.zero)
    (((range p).flatMap fun i => [Buf.ApC i, Buf.CpC i]) ++ [.Bp, .Blk]) hnd hal
  · have e : ((range p).flatMap fun i => [Item.free (.ApC i), Item.free (.CpC i)]) ++ [.free .Bp, .free .Blk] =
        (((range p).flatMap fun i => [Buf.ApC i, Buf.CpC i]) ++ [Buf.Bp, Buf.Blk]).map Item.free := by
      rw [map_append, map_flatMap]; rfl
    rw [append_assoc _ ((range p).flatMap _), e]
    refine STriple.seq (STriple.seq (((t1.seq t2).seq t3).seq t4).toS (t5.conseq ?_ (fun _ h => h))) (t6.toS.conseq (fun _ h => h) ?_)
    · intro s hs
      exact ⟨hs.size, fun l hl _ => hs.keep l hl (fun h => h), hs.fact.2⟩
    · intro s hs
      refine ⟨?_, hs.keep, hs.fact⟩
      rw [hs.size]
      funext b
      split
      · rename_i hb
        simp only [mem_append, mem_flatMap, mem_range, mem_cons, not_mem_nil, or_false] at hb
        rcases hb with ⟨i, _, rfl | rfl⟩ | rfl | rfl
        · exact (f4 i).symm
        · exact (f5 i).symm
        · exact f3.symm
        · exact f1.symm
      · rename_i hb
        simp only [mem_append, mem_flatMap, mem_range, mem_cons, not_mem_nil, or_false, not_or, not_exists, not_and] at hb
        exact v4 b hb.2.2 (fun i hi => (hb.1 i hi).1) hb.2.1 (fun i hi => (hb.1 i hi).2)

end
end Cake
