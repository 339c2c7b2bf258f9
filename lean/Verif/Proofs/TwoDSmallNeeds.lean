/-
When `cake_sgemm_2d_small` runs out of its packed buffers: the converse of its safety.
-/
import Verif.Proofs.TwoDSmall

namespace Cake
open List

variable {α : Type _} {F : Arith α}

theorem RunOps.ok_init {l : List Op} {x : Loc} (hw : ∀ o ∈ l, o.dst ≠ x) {s s' : State α}
    (h : RunOps F l s (.ok s')) (hi : s.init x = false) : s'.init x = false ∧ ∀ o ∈ l, x ∉ o.reads := by
  generalize ho : Out.ok s' = out at h
  induction h with
  | nil s => cases ho; exact ⟨hi, by simp⟩
  | undef => cases ho
  | step o os s out hd _ ih =>
    have hne : x ≠ o.dst := fun e => hw o (by simp) e.symm
    obtain ⟨h1, h2⟩ := ih (fun o ho => hw o (by simp [ho])) (by simp [hne, hi]) ho
    refine ⟨h1, ?_⟩
    intro o' ho'
    rcases mem_cons.1 ho' with rfl | hm
    · intro hr
      rw [(hd.2 x hr).2] at hi
      cases hi
    · exact h2 o' hm

/-- An element that is uninitialised and that nothing writes is read by no program that runs to its end. -/
theorem ok_not_read {prog : Prog} {x : Loc} (hc : ∀ n, Item.calloc x.buf n ∉ prog)
    (hw : ∀ ts, Item.par ts ∈ prog → ∀ o ∈ ts.flatten, o.dst ≠ x) {s s' : State α}
    (he : Exec F prog s (.ok s')) (hi : s.init x = false) :
    ∀ ts, Item.par ts ∈ prog → ∀ o ∈ ts.flatten, x ∉ o.reads := by
  induction prog generalizing s with
  | nil => simp
  | cons i is ih =>
    cases he with
    | next _ _ _ s1 _ h1 h2 =>
      have key : s1.init x = false ∧ ∀ ts, i = Item.par ts → ∀ o ∈ ts.flatten, x ∉ o.reads := by
        cases h1 with
        | memalign b n _ m' => exact ⟨by simp only; split <;> simp [hi], by simp⟩
        | malloc b n _ m' => exact ⟨by simp only; split <;> simp [hi], by simp⟩
        | calloc b n =>
          refine ⟨?_, by simp⟩
          simp only
          split
          · rename_i e
            subst e
            exact absurd (mem_cons_self ..) (hc n)
          · exact hi
        | free => exact ⟨hi, by simp⟩
        | par ts l _ _ hl hr =>
          have := RunOps.ok_init (x := x) (fun o ho => hw ts (by simp) o (hl.perm.mem_iff.1 ho)) hr hi
          refine ⟨this.1, ?_⟩
          intro ts' e o ho
          cases e
          exact this.2 o (hl.perm.mem_iff.2 ho)
      intro ts hts
      rcases mem_cons.1 hts with e | hts
      · exact key.2 ts e.symm
      · exact ih (fun n hn => hc n (by simp [hn])) (fun ts h => hw ts (by simp [h])) h2 key.1 ts hts

theorem mem_cfor_div {d n r : Nat} (hd : 0 < d) (hdn : d ∣ n) (hr : r < n) : r / d < n / d := by
  obtain ⟨q, rfl⟩ := hdn
  rw [Nat.mul_div_cancel_left _ hd]
  exact Nat.div_lt_of_lt_mul hr

section
variable {kd : KDim} {m_r n_r mt nt : Nat} (hk : kd.Fits m_r n_r) (hm : 0 < m_r) (hn : 0 < n_r)
  (hdm : m_r ∣ mt) (hdn : n_r ∣ nt)
include hk hm hn hdm hdn

/-- The register tiles read every element of their strip of A. -/
theorem regTiles_readA (t : Nat) (A B C : Loc) {k r i : Nat} (hr : r < mt) (hi : i < k) (hnt : 0 < nt) :
    ∃ o ∈ regTiles kd t A B C m_r n_r mt nt k, (A +ₚ aIdx m_r k r i) ∈ o.reads := by
  have hm_eq := hk.m_eq
  refine ⟨.copy (rA kd.L kd.m kd.nl t 0) (A +ₚ (r / m_r * m_r * k) +ₚ (i * m_r + r % m_r)), ?_, ?_⟩
  · unfold regTiles
    refine mem_flatMap.2 ⟨0, mem_range.2 (Nat.div_pos (Nat.le_of_dvd hnt hdn) hn), mem_flatMap.2 ⟨r / m_r,
      mem_range.2 (mem_cfor_div hm hdm hr), ?_⟩⟩
    unfold kernel
    apply mem_append_left
    apply mem_append_right
    rw [kernLoop_eq]
    refine mem_flatMap.2 ⟨i, mem_range.2 hi, ?_⟩
    rw [kernInner_eq]
    apply mem_append_right
    refine mem_flatMap.2 ⟨r % m_r, mem_range.2 (by rw [hm_eq]; exact Nat.mod_lt _ hm), ?_⟩
    unfold kernRow
    apply mem_append_left
    refine mem_map.2 ⟨0, mem_range.2 hk.L_pos, ?_⟩
    rw [hm_eq]
  · simp only [Op.reads, mem_singleton]
    simp only [Loc.off, aIdx, Loc.mk.injEq, true_and]
    ring

/-- The register tiles read every element of their strip of B. -/
theorem regTiles_readB (t : Nat) (A B C : Loc) {k c i : Nat} (hc : c < nt) (hi : i < k) (hmt : 0 < mt) :
    ∃ o ∈ regTiles kd t A B C m_r n_r mt nt k, (B +ₚ bIdx n_r k c i) ∈ o.reads := by
  have hlt : c % n_r < kd.nl * kd.L := by rw [hk.n_eq]; exact Nat.mod_lt _ hn
  have hj : c % n_r / kd.L < kd.nl := Nat.div_lt_of_lt_mul (by rw [Nat.mul_comm]; exact hlt)
  have hl : c % n_r % kd.L < kd.L := Nat.mod_lt _ hk.L_pos
  refine ⟨.copy (rB kd.L kd.m kd.nl t (c % n_r / kd.L) (c % n_r % kd.L))
    (B +ₚ (c / n_r * k * n_r) +ₚ (i * n_r + (c % n_r / kd.L * kd.L + c % n_r % kd.L))), ?_, ?_⟩
  · unfold regTiles
    refine mem_flatMap.2 ⟨c / n_r, mem_range.2 (mem_cfor_div hn hdn hc), mem_flatMap.2 ⟨0,
      mem_range.2 (Nat.div_pos (Nat.le_of_dvd hmt hdm) hm), ?_⟩⟩
    unfold kernel
    apply mem_append_left
    apply mem_append_right
    rw [kernLoop_eq]
    refine mem_flatMap.2 ⟨i, mem_range.2 hi, ?_⟩
    rw [kernInner_eq]
    apply mem_append_left
    unfold kernLoadB
    exact mem_flatMap.2 ⟨_, mem_range.2 hj, mem_map.2 ⟨_, mem_range.2 hl, rfl⟩⟩
  · simp only [Op.reads, mem_singleton]
    have e : c % n_r / kd.L * kd.L + c % n_r % kd.L = c % n_r := by
      rw [Nat.mul_comm]; exact Nat.div_add_mod _ _
    rw [e]
    simp only [Loc.off, bIdx, Loc.mk.injEq, true_and]
    ring

end

theorem aIdx_lt' {d k n r i : Nat} (hdn : d ∣ n) (hr : r < n) (hi : i < k) : aIdx d k r i < n * k := by
  obtain ⟨q, rfl⟩ := hdn
  rw [Nat.mul_comm d q] at *
  exact aIdx_lt hi hr

theorem aIdx_ge {d k n r i : Nat} (hd : 0 < d) (hdn : d ∣ n) (hr : n ≤ r) : n * k ≤ aIdx d k r i := by
  obtain ⟨q, rfl⟩ := hdn
  have h1 : q ≤ r / d := (Nat.le_div_iff_mul_le hd).2 (by rw [Nat.mul_comm]; exact hr)
  unfold aIdx
  calc d * q * k = q * (k * d) := by ring
    _ ≤ r / d * (k * d) := Nat.mul_le_mul_right _ h1
    _ ≤ _ := Nat.le_add_right _ _

section
variable {M N K p pn m_r n_r k_c : Nat}
variable (hm : 0 < m_r) (hn : 0 < n_r) (hpn : 0 < pn) (hp : pn ≤ p)
include hm hn hpn hp

omit hpn hp in
/-- Writes to the packed buffers stay below the padded operand. -/
theorem small_writes {kd : KDim} (hk : kd.Fits m_r n_r) (hpn : 0 < pn) (hp : pn ≤ p) {k : Nat} {ts : List (List Op)}
    (hts : Item.par ts ∈ smStep kd M N K p pn m_r n_r k_c k) :
    ∀ o ∈ ts.flatten, (o.dst.buf = .Ap → o.dst.idx < roundUpC M m_r * chopLen K k_c k) ∧
      (o.dst.buf = .Bp → o.dst.idx < roundUpC N n_r * chopLen K k_c k) := by
  intro o ho
  unfold smStep at hts
  simp only [mem_append, mem_cons, not_mem_nil, or_false, Item.par.injEq] at hts
  rcases hts with (rfl | rfl) | rfl
  · obtain ⟨r, i, hr, hi, rfl⟩ := (gstrips_mem hn (roundUpC_dvd hn) _).1 ho
    refine ⟨by simp [Op.dst], fun _ => ?_⟩
    exact aIdx_lt' (roundUpC_dvd hn) hr hi
  · obtain ⟨r, i, hr, hi, rfl⟩ := (gstrips_mem hm (roundUpC_dvd hm) _).1 ho
    refine ⟨fun _ => ?_, by simp [Op.dst]⟩
    exact aIdx_lt' (roundUpC_dvd hm) hr hi
  · have hg : (geoS M N p pn m_r n_r).OK M N p m_r n_r _ _ := geoS_ok hm hn hpn hp
    have hpok : PreOK (geoS M N p pn m_r n_r) (fun _ => [])
        (fun i => ⟨.Ap, (geoS M N p pn m_r n_r).rb i * chopLen K k_c k⟩)
        (fun i => ⟨.Bp, (geoS M N p pn m_r n_r).cb i * chopLen K k_c k⟩) :=
      ⟨by simp, by simp, fun _ _ => Or.inl rfl, fun _ _ => rfl⟩
    obtain ⟨i, _, h1⟩ := gTasks_dst hg hpok hk o ho
    rcases h1 with h1 | h1 | h1 <;> rw [h1] <;> simp

omit hm hn hpn hp in
theorem chopLen_le_first {K s k : Nat} : chopLen K s k ≤ chopLen K s 0 := by
  unfold chopLen
  rw [Nat.zero_mul]
  omega

/-- The program that is run, after its three allocations. -/
def smallRest (kd : KDim) (M N K p pn m_r n_r k_c : Nat) : Prog :=
  let m_c := smallTile (roundUpC M m_r) (p / pn) m_r
  let n_c := smallTile (roundUpC N n_r) pn n_r
  (range p).map (fun i => Item.calloc (.CpC i) (m_c * n_c)) ++
    ((range (cdiv K k_c)).flatMap (smStep kd M N K p pn m_r n_r k_c) ++
      [.par (gUnpack (geoS M N p pn m_r n_r) (smUnp M N p pn m_r n_r) m_c n_c)]) ++
    ([.free .Ap] ++ (range p).map (fun i => Item.free (.CpC i)) ++ [.free .Bp, .free .Blk])

omit hm hn hpn hp in
theorem smallRest_par {kd : KDim} {ts : List (List Op)} (h : Item.par ts ∈ smallRest kd M N K p pn m_r n_r k_c) :
    (∃ k, k < cdiv K k_c ∧ Item.par ts ∈ smStep kd M N K p pn m_r n_r k_c k) ∨
    ts = gUnpack (geoS M N p pn m_r n_r) (smUnp M N p pn m_r n_r) (smallTile (roundUpC M m_r) (p / pn) m_r)
      (smallTile (roundUpC N n_r) pn n_r) := by
  unfold smallRest at h
  simp only [mem_append, mem_cons, mem_map, mem_flatMap, mem_range, not_mem_nil, or_false, reduceCtorEq,
    and_false, exists_false, false_or, Item.par.injEq] at h
  exact h

theorem smallUnp_ok : UnpOK (geoS M N p pn m_r n_r) (smUnp M N p pn m_r n_r) M N m_r n_r := by
  have hg := geoS_ok (M := M) (N := N) hm hn hpn hp
  intro i hi o
  unfold smUnp
  rw [unpackC_mem _ _ _ _ _ _ _ _ _ _ _ hm hn (hg.m_dvd i hi) (hg.n_dvd i hi)]
  constructor
  · rintro ⟨r, c, hr, hc, h1, h2, rfl⟩
    refine ⟨r, c, hr, hc, by simpa using h2, h1, ?_⟩
    rw [off_off]
    simp only [Loc.off]
    congr 2
    · ring
    · exact Nat.zero_add _
  · rintro ⟨r, c, hr, hc, h1, h2, rfl⟩
    refine ⟨r, c, hr, hc, h2, by simpa using h1, ?_⟩
    rw [off_off]
    simp only [Loc.off]
    congr 2
    · ring
    · exact (Nat.zero_add _).symm

/-- Writes to the packed buffers in the whole program. -/
theorem smallRest_writes {kd : KDim} (hk : kd.Fits m_r n_r) {ts : List (List Op)}
    (h : Item.par ts ∈ smallRest kd M N K p pn m_r n_r k_c) :
    ∀ o ∈ ts.flatten, (o.dst.buf = .Ap → o.dst.idx < roundUpC M m_r * chopLen K k_c 0) ∧
      (o.dst.buf = .Bp → o.dst.idx < roundUpC N n_r * chopLen K k_c 0) := by
  intro o ho
  rcases smallRest_par h with ⟨k, hk', h1⟩ | rfl
  · have := small_writes hm hn hk hpn hp h1 o ho
    exact ⟨fun e => Nat.lt_of_lt_of_le (this.1 e) (Nat.mul_le_mul_left _ chopLen_le_first),
      fun e => Nat.lt_of_lt_of_le (this.2 e) (Nat.mul_le_mul_left _ chopLen_le_first)⟩
  · obtain ⟨i, _, ⟨r, c, _, _, _, _, rfl⟩ | ⟨x, _, rfl⟩⟩ := (gUnpack_mem (smallUnp_ok hm hn hpn hp) o).1 ho
    all_goals simp [Op.dst]

/-- A run that ends normally never leaves the part of the packed buffers that packing fills, and finds whole
padded strips of A and B in the caller's objects. -/
theorem small_needs {kd : KDim} (hk : kd.Fits m_r n_r) (hkc : 0 < k_c) (hK : 0 < K) {na nb : Nat} {s s' : State α}
    (he : Exec F ([.malloc .Blk 1, .memalign .Ap na, .memalign .Bp nb] ++
      smallRest kd M N K p pn m_r n_r k_c) s (.ok s')) :
    (∀ i r, i < p → r < (geoS M N p pn m_r n_r).mt i → 0 < (geoS M N p pn m_r n_r).nt i →
      (geoS M N p pn m_r n_r).rb i + r < roundUpC M m_r) ∧
    (∀ i c, i < p → c < (geoS M N p pn m_r n_r).nt i → 0 < (geoS M N p pn m_r n_r).mt i →
      (geoS M N p pn m_r n_r).cb i + c < roundUpC N n_r) ∧
    (∀ row k, row < roundUpC M m_r → k < K → InB s.size ⟨.A, row * K + k⟩) ∧
    (∀ k col, k < K → col < roundUpC N n_r → InB s.size ⟨.B, k * N + col⟩) := by
  have hg := geoS_ok (M := M) (N := N) hm hn hpn hp
  have h0 : 0 < cdiv K k_c := cdiv_pos hK hkc
  have hkc0 : 0 < chopLen K k_c 0 := chopLen_pos hkc h0
  have hcomp : Item.par (gTasks (geoS M N p pn m_r n_r) kd (fun _ => [])
      (fun i => ⟨.Ap, (geoS M N p pn m_r n_r).rb i * chopLen K k_c 0⟩)
      (fun i => ⟨.Bp, (geoS M N p pn m_r n_r).cb i * chopLen K k_c 0⟩) m_r n_r (chopLen K k_c 0)) ∈
      smallRest kd M N K p pn m_r n_r k_c := by
    unfold smallRest
    refine mem_append_left _ (mem_append_right _ (mem_append_left _ (mem_flatMap.2 ⟨0, mem_range.2 h0, ?_⟩)))
    unfold smStep
    simp
  have hcalloc : ∀ b : Buf, b = .Ap ∨ b = .Bp → ∀ n, Item.calloc b n ∉ smallRest kd M N K p pn m_r n_r k_c := by
    intro b hb n hmem
    unfold smallRest at hmem
    simp only [mem_append, mem_cons, mem_map, mem_flatMap, mem_range, not_mem_nil, or_false, reduceCtorEq,
      and_false, exists_false, Item.calloc.injEq] at hmem
    rcases hmem with ⟨i, _, e, _⟩ | ⟨k, _, hmem⟩
    · rcases hb with rfl | rfl <;> cases e
    · unfold smStep at hmem
      simp at hmem
  have hfix : ∀ b, b = .A ∨ b = .B → ∀ i ∈ [.malloc .Blk 1, .memalign .Ap na, .memalign .Bp nb] ++
      smallRest kd M N K p pn m_r n_r k_c, i.Fixes b := by
    intro b hb i hi
    rcases mem_append.1 hi with hi | hi
    · simp only [mem_cons, not_mem_nil, or_false] at hi
      rcases hi with rfl | rfl | rfl <;> rcases hb with rfl | rfl <;> simp [Item.Fixes]
    · unfold smallRest at hi
      simp only [mem_append, mem_cons, mem_map, mem_flatMap, mem_range, not_mem_nil, or_false] at hi
      rcases hi with (⟨j, _, rfl⟩ | ⟨k, _, hi⟩ | rfl) | (rfl | ⟨j, _, rfl⟩) | rfl | rfl
      all_goals first
        | (rcases hb with rfl | rfl <;> simp [Item.Fixes]; done)
        | skip
      unfold smStep at hi
      simp only [mem_append, mem_cons, not_mem_nil, or_false] at hi
      rcases hi with (rfl | rfl) | rfl <;> trivial
  have hstep : ∀ k, k < cdiv K k_c → ∀ i ∈ smStep kd M N K p pn m_r n_r k_c k, i ∈
      [.malloc .Blk 1, .memalign .Ap na, .memalign .Bp nb] ++ smallRest kd M N K p pn m_r n_r k_c := by
    intro k hk i hi
    unfold smallRest
    exact mem_append_right _ (mem_append_left _ (mem_append_right _ (mem_append_left _
      (mem_flatMap.2 ⟨k, mem_range.2 hk, hi⟩))))
  refine ⟨?_, ?_, ?_, ?_⟩
  · intro i r hi hr hnt
    by_contra hge
    have hx := aIdx_ge (k := chopLen K k_c 0) (i := 0) hm (roundUpC_dvd (x := M) hm) (Nat.le_of_not_lt hge)
    obtain ⟨o, ho, hread⟩ := regTiles_readA hk hm hn (hg.m_dvd i hi) (hg.n_dvd i hi) i
      ⟨.Ap, (geoS M N p pn m_r n_r).rb i * chopLen K k_c 0⟩ ⟨.Bp, (geoS M N p pn m_r n_r).cb i * chopLen K k_c 0⟩
      ⟨.CpC i, 0⟩ hr hkc0 hnt
    have ex : (⟨.Ap, (geoS M N p pn m_r n_r).rb i * chopLen K k_c 0⟩ : Loc) +ₚ aIdx m_r (chopLen K k_c 0) r 0 =
        ⟨.Ap, aIdx m_r (chopLen K k_c 0) ((geoS M N p pn m_r n_r).rb i + r) 0⟩ := by
      simp only [Loc.off, Loc.mk.injEq, true_and]
      exact aIdx_off hm (Dvd.dvd.mul_left (smallTile_dvd hm) _)
    rw [ex] at hread
    cases he with
    | next _ _ _ s1 _ e1 he =>
      cases he with
      | next _ _ _ s2 _ e2 he =>
        have hin : s2.init ⟨.Ap, aIdx m_r (chopLen K k_c 0) ((geoS M N p pn m_r n_r).rb i + r) 0⟩ = false := by
          cases e2; simp
        refine ok_not_read (prog := .memalign .Bp nb :: smallRest kd M N K p pn m_r n_r k_c) ?_ ?_ he hin _
          (mem_cons_of_mem _ hcomp) o ?_ hread
        · intro n hmem
          rcases mem_cons.1 hmem with e | e
          · cases e
          · exact hcalloc _ (Or.inl rfl) n e
        · intro ts hts o' ho' e
          rcases mem_cons.1 hts with e' | hts
          · cases e'
          · have := (smallRest_writes hm hn hpn hp hk hts o' ho').1 (by rw [e])
            rw [e] at this
            exact absurd this (Nat.not_lt.2 hx)
        · exact mem_flatten.2 ⟨_, mem_map.2 ⟨i, mem_range.2 hi, rfl⟩, mem_append_right _ ho⟩
  · intro i c hi hc hmt
    by_contra hge
    have hx := aIdx_ge (k := chopLen K k_c 0) (i := 0) hn (roundUpC_dvd (x := N) hn) (Nat.le_of_not_lt hge)
    obtain ⟨o, ho, hread⟩ := regTiles_readB hk hm hn (hg.m_dvd i hi) (hg.n_dvd i hi) i
      ⟨.Ap, (geoS M N p pn m_r n_r).rb i * chopLen K k_c 0⟩ ⟨.Bp, (geoS M N p pn m_r n_r).cb i * chopLen K k_c 0⟩
      ⟨.CpC i, 0⟩ hc hkc0 hmt
    have ex : (⟨.Bp, (geoS M N p pn m_r n_r).cb i * chopLen K k_c 0⟩ : Loc) +ₚ bIdx n_r (chopLen K k_c 0) c 0 =
        ⟨.Bp, aIdx n_r (chopLen K k_c 0) ((geoS M N p pn m_r n_r).cb i + c) 0⟩ := by
      simp only [Loc.off, Loc.mk.injEq, true_and]
      exact aIdx_off hn (Dvd.dvd.mul_left (smallTile_dvd hn) _)
    rw [ex] at hread
    cases he with
    | next _ _ _ s1 _ e1 he =>
      cases he with
      | next _ _ _ s2 _ e2 he =>
        cases he with
        | next _ _ _ s3 _ e3 he =>
          have hin : s3.init ⟨.Bp, aIdx n_r (chopLen K k_c 0) ((geoS M N p pn m_r n_r).cb i + c) 0⟩ = false := by
            cases e3; simp
          refine ok_not_read (prog := smallRest kd M N K p pn m_r n_r k_c) ?_ ?_ he hin _ hcomp o ?_ hread
          · exact hcalloc _ (Or.inr rfl)
          · intro ts hts o' ho' e
            have := (smallRest_writes hm hn hpn hp hk hts o' ho').2 (by rw [e])
            rw [e] at this
            exact absurd this (Nat.not_lt.2 hx)
          · exact mem_flatten.2 ⟨_, mem_map.2 ⟨i, mem_range.2 hi, rfl⟩, mem_append_right _ ho⟩
  · intro row k hrow hk'
    obtain ⟨hb, hi, hkk⟩ := chop_cover hkc hk'
    have hmem := hstep (k / k_c) hb (.par (gstrips .Ap (⟨.A, 0⟩ +ₚ (k / k_c * k_c)) m_r (roundUpC M m_r)
      (chopLen K k_c (k / k_c)) (fun r i => r * K + i))) (by unfold smStep; simp)
    have ho := (gstrips_mem (dst := .Ap) (src := (⟨.A, 0⟩ : Loc) +ₚ (k / k_c * k_c))
      (k := chopLen K k_c (k / k_c)) (f := fun r i => r * K + i) hm (roundUpC_dvd hm) _).2 ⟨row, k % k_c, hrow, hi, rfl⟩
    obtain ⟨t, ht, hot⟩ := mem_flatten.1 ho
    have := ok_inB (b := .A) (by simp) (hfix _ (Or.inl rfl)) he hmem ht hot (by simp [Op.reads]; rfl) rfl
    have e : (⟨.A, 0⟩ : Loc) +ₚ (k / k_c * k_c) +ₚ (row * K + k % k_c) = ⟨.A, row * K + k⟩ := by
      simp only [Loc.off, Loc.mk.injEq, true_and]
      have : k / k_c * k_c + k % k_c = k := hkk
      calc _ = row * K + (k / k_c * k_c + k % k_c) := by ring
        _ = _ := by rw [this]
    rwa [e] at this
  · intro k col hk' hcol
    obtain ⟨hb, hi, hkk⟩ := chop_cover hkc hk'
    have hmem := hstep (k / k_c) hb (.par (gstrips .Bp (⟨.B, 0⟩ +ₚ (k / k_c * k_c * N)) n_r (roundUpC N n_r)
      (chopLen K k_c (k / k_c)) (fun c i => i * N + c))) (by unfold smStep; simp)
    have ho := (gstrips_mem (dst := .Bp) (src := (⟨.B, 0⟩ : Loc) +ₚ (k / k_c * k_c * N))
      (k := chopLen K k_c (k / k_c)) (f := fun c i => i * N + c) hn (roundUpC_dvd hn) _).2 ⟨col, k % k_c, hcol, hi, rfl⟩
    obtain ⟨t, ht, hot⟩ := mem_flatten.1 ho
    have := ok_inB (b := .B) (by simp) (hfix _ (Or.inr rfl)) he hmem ht hot (by simp [Op.reads]; rfl) rfl
    have e : (⟨.B, 0⟩ : Loc) +ₚ (k / k_c * k_c * N) +ₚ (k % k_c * N + col) = ⟨.B, k * N + col⟩ := by
      simp only [Loc.off, Loc.mk.injEq, true_and]
      have : k / k_c * k_c + k % k_c = k := hkk
      calc _ = (k / k_c * k_c + k % k_c) * N + col := by ring
        _ = _ := by rw [this]
    rwa [e] at this

omit hm hn hpn hp in
/-- If the strips of all core rows end before `T` then they fit. -/
theorem smallFits_of {T q r n : Nat} (hr : 0 < r) (hq : 0 < q)
    (h : ∀ a x, a < q → x < smallLen T q r n a → a * smallTile T q r + x < T) : SmallFits T q r n := by
  have hb := smallTile_big (T := T) hr hq
  have hp : 0 < smallTile T q r := Nat.lt_of_le_of_lt (Nat.zero_le _) (smallTile_gt hr)
  constructor
  · intro h0
    have := h (q - 1) (smallTile T q r - 1) (by omega) (by
      unfold smallLen; rw [if_neg (by simp [h0])]; omega)
    have e : (q - 1) * smallTile T q r + smallTile T q r = q * smallTile T q r := by
      rw [← Nat.succ_mul]; congr 1; omega
    omega
  · by_contra hlt
    rcases Nat.lt_or_ge q 2 with h2 | h2
    · have : q - 1 = 0 := by omega
      rw [this] at hlt
      omega
    · have := h (q - 2) (smallTile T q r - 1) (by omega) (by
        unfold smallLen; rw [if_neg (by simp; omega)]; omega)
      have e : (q - 2) * smallTile T q r + smallTile T q r = (q - 1) * smallTile T q r := by
        rw [← Nat.succ_mul]; congr 1; omega
      omega

omit hm hn hpn hp in
theorem smallLen_zero_pos {T q r n : Nat} (hr : 0 < r) (hT : 0 < T) : 0 < smallLen T q r n 0 := by
  unfold smallLen
  split
  · rename_i h
    simp only [Bool.and_eq_true, beq_iff_eq] at h
    rw [← h.1]
    omega
  · exact Nat.lt_of_le_of_lt (Nat.zero_le _) (smallTile_gt hr)

theorem small_fits (hM : 0 < M) (hN : 0 < N)
    (h1 : ∀ i r, i < p → r < (geoS M N p pn m_r n_r).mt i → 0 < (geoS M N p pn m_r n_r).nt i →
      (geoS M N p pn m_r n_r).rb i + r < roundUpC M m_r)
    (h2 : ∀ i c, i < p → c < (geoS M N p pn m_r n_r).nt i → 0 < (geoS M N p pn m_r n_r).mt i →
      (geoS M N p pn m_r n_r).cb i + c < roundUpC N n_r) :
    pn ∣ p ∧ SmallFits (roundUpC M m_r) (p / pn) m_r M ∧ SmallFits (roundUpC N n_r) pn n_r N := by
  have hq : 0 < p / pn := Nat.div_pos hp hpn
  have hTM : 0 < roundUpC M m_r := Nat.lt_of_lt_of_le hM (roundUpC_ge _ _)
  have hTN : 0 < roundUpC N n_r := Nat.lt_of_lt_of_le hN (roundUpC_ge _ _)
  have hle : p / pn * pn ≤ p := Nat.div_mul_le_self _ _
  simp only [geoS] at h1 h2
  refine ⟨?_, ?_, ?_⟩
  · by_contra hd
    have hlt : p / pn * pn < p := Nat.lt_of_le_of_ne hle fun e => hd ⟨p / pn, by rw [Nat.mul_comm]; exact e.symm⟩
    have := h1 (p / pn * pn) 0 hlt (by
      rw [Nat.mul_div_cancel _ hpn]
      unfold smallLen
      rw [if_neg (by simp; omega)]
      exact Nat.lt_of_le_of_lt (Nat.zero_le _) (smallTile_gt hm)) (by
      rw [Nat.mul_mod_left]; exact smallLen_zero_pos hn hTN)
    rw [Nat.mul_div_cancel _ hpn] at this
    have := smallTile_big (T := roundUpC M m_r) hm hq
    omega
  · apply smallFits_of hm hq
    intro a x ha hx
    have := h1 (a * pn) x (Nat.lt_of_lt_of_le (Nat.mul_lt_mul_of_pos_right ha hpn) hle) (by
      rw [Nat.mul_div_cancel _ hpn]; exact hx) (by
      rw [Nat.mul_mod_left]; exact smallLen_zero_pos hn hTN)
    rwa [Nat.mul_div_cancel _ hpn] at this
  · apply smallFits_of hn hpn
    intro a x ha hx
    have := h2 a x (by omega) (by rw [Nat.mod_eq_of_lt ha]; exact hx) (by
      rw [Nat.div_eq_of_lt ha]; exact smallLen_zero_pos hm hTM)
    rwa [Nat.mod_eq_of_lt ha] at this

/-- The program that is run. -/
theorem small_prog {kc_max : Nat} {cx : Cntx} (hmr : cx.m_r = m_r) (hnr : cx.n_r = n_r) (hkm : 0 < kc_max)
    (packedA packedB : Bool) (alpha beta : α) {prog : Prog}
    (hprog : cake_sgemm_2d_small cx ⟨.A, 0⟩ ⟨.B, 0⟩ ⟨.C, 0⟩ M N K p packedA packedB alpha beta pn kc_max = some prog) :
    ∃ k_c na nb, 0 < k_c ∧ prog = [.malloc .Blk 1, .memalign .Ap na, .memalign .Bp nb] ++
      smallRest cx.kfix M N K p pn m_r n_r k_c := by
  subst hmr hnr
  have hk0 : 0 < (if smallTile (roundUpC M cx.m_r) (p / pn) cx.m_r > kc_max then kc_max
      else smallTile (roundUpC M cx.m_r) (p / pn) cx.m_r) := by
    split
    · exact hkm
    · exact Nat.lt_of_le_of_lt (Nat.zero_le _) (smallTile_gt hm)
  obtain ⟨x, hx, e1, e2, e3, e4, e5, e6, e7, e8, e9, e10, e11, e12, e13, e14⟩ :=
    init_small_eq (M := M) (N := N) (K := K) (m_r := cx.m_r) (n_r := cx.n_r) hpn (Nat.div_pos hp hpn) rfl hk0
  unfold cake_sgemm_2d_small at hprog
  rw [hx] at hprog
  simp only [Option.bind_eq_bind, Option.bind_some, Option.some.injEq] at hprog
  rw [← hprog, small_eq cx.kfix hk0 e1 e2 e3 e4 e5 e6 e7 e8 e9 e10 e11 e12 e13 e14, e1, e2]
  refine ⟨_, x.M_padded * x.k_c, x.k_c * x.N_padded, hk0, ?_⟩
  unfold smallRest
  simp only [append_assoc, cons_append, nil_append]

end

/-- When the call is defined up to its first access to memory. -/
theorem small_some {α : Type _} {kc_max M N K p pn : Nat} {cx : Cntx} (hm : 0 < cx.m_r)
    (packedA packedB : Bool) (alpha beta : α) {prog : Prog}
    (hprog : cake_sgemm_2d_small cx ⟨.A, 0⟩ ⟨.B, 0⟩ ⟨.C, 0⟩ M N K p packedA packedB alpha beta pn kc_max = some prog) :
    0 < pn ∧ pn ≤ p ∧ 0 < kc_max := by
  unfold cake_sgemm_2d_small init_block_dims_2d_small at hprog
  by_cases h0 : pn = 0
  · rw [if_pos h0] at hprog; cases hprog
  rw [if_neg h0] at hprog
  have hpn : 0 < pn := by omega
  by_cases h1 : p / pn = 0
  · simp only [if_pos h1] at hprog; cases hprog
  have hp : pn ≤ p := by
    by_contra hlt
    exact h1 (Nat.div_eq_of_lt (by omega))
  refine ⟨hpn, hp, ?_⟩
  by_contra hk
  have hk : kc_max = 0 := by omega
  subst hk
  simp only [if_neg h1] at hprog
  have h2 : roundUpC M cx.m_r / (p / pn) + (cx.m_r - roundUpC M cx.m_r / (p / pn) % cx.m_r) > 0 :=
    Nat.lt_of_le_of_lt (Nat.zero_le _) (smallTile_gt (T := roundUpC M cx.m_r) (q := p / pn) hm)
  rw [if_pos h2, if_pos rfl] at hprog
  cases hprog

theorem small_is_some {α : Type _} {kc_max M N K p pn : Nat} {cx : Cntx} (hm : 0 < cx.m_r)
    (packedA packedB : Bool) (alpha beta : α) (hpn : 0 < pn) (hp : pn ≤ p) (hkm : 0 < kc_max) :
    ∃ prog, cake_sgemm_2d_small cx ⟨.A, 0⟩ ⟨.B, 0⟩ ⟨.C, 0⟩ M N K p packedA packedB alpha beta pn kc_max = some prog := by
  have hk0 : 0 < (if smallTile (roundUpC M cx.m_r) (p / pn) cx.m_r > kc_max then kc_max
      else smallTile (roundUpC M cx.m_r) (p / pn) cx.m_r) := by
    split
    · exact hkm
    · exact Nat.lt_of_le_of_lt (Nat.zero_le _) (smallTile_gt hm)
  obtain ⟨x, hx, _⟩ :=
    init_small_eq (M := M) (N := N) (K := K) (m_r := cx.m_r) (n_r := cx.n_r) hpn (Nat.div_pos hp hpn) rfl hk0
  unfold cake_sgemm_2d_small
  rw [hx]
  exact ⟨_, rfl⟩

end Cake
