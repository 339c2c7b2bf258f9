/-
Reaching undefined behaviour: a parallel phase that contains an out-of-bounds access never ends
normally.
-/
import Verif.Proofs.SgemmS

namespace Cake
open List

variable {α : Type _} {F : Arith α}

theorem RunOps.ok_inv {l : List Op} {s s' : State α} (h : RunOps F l s (.ok s')) :
    s'.size = s.size ∧ ∀ o ∈ l, InB s.size o.dst ∧ ∀ r ∈ o.reads, InB s.size r := by
  generalize ho : Out.ok s' = out at h
  induction h with
  | nil s => cases ho; exact ⟨rfl, by simp⟩
  | undef => cases ho
  | step o os s out hd _ ih =>
    obtain ⟨h1, h2⟩ := ih ho
    refine ⟨h1, ?_⟩
    intro o' ho'
    rcases mem_cons.1 ho' with rfl | hm
    · exact ⟨hd.1, fun r hr => (hd.2 r hr).1⟩
    · exact h2 o' hm

/-- If phases end normally, every access was in bounds. -/
theorem phases_ok_inv {ph : List (List (List Op))} {s s' : State α}
    (h : Exec F (phases ph) s (.ok s')) :
    s'.size = s.size ∧ ∀ o ∈ phaseOps ph, InB s.size o.dst ∧ ∀ r ∈ o.reads, InB s.size r := by
  induction ph generalizing s with
  | nil => cases h; exact ⟨rfl, by simp [phaseOps]⟩
  | cons ts ph ih =>
    have h : Exec F (Item.par ts :: phases ph) s (.ok s') := h
    cases h with
    | next _ _ _ s1 _ h1 h2 =>
      cases h1 with
      | par _ l _ _ hl hr =>
        obtain ⟨e1, g1⟩ := hr.ok_inv
        obtain ⟨e2, g2⟩ := ih h2
        refine ⟨e2.trans e1, ?_⟩
        intro o ho
        rw [phaseOps_cons] at ho
        rcases mem_append.1 ho with ho | ho
        · exact g1 o (hl.perm.mem_iff.2 ho)
        · rw [← e1]; exact g2 o ho

/-- If operations that do not write `b` end normally, what they read of `b` was initialised before. -/
theorem RunOps.ok_init_buf {b : Buf} {l : List Op} {s s' : State α} (h : RunOps F l s (.ok s'))
    (hw : ∀ o ∈ l, o.dst.buf ≠ b) : (∀ x, s'.init ⟨b, x⟩ = s.init ⟨b, x⟩) ∧
      ∀ o ∈ l, ∀ x, (⟨b, x⟩ : Loc) ∈ o.reads → s.init ⟨b, x⟩ = true := by
  generalize ho : Out.ok s' = out at h
  induction h with
  | nil s => cases ho; exact ⟨fun _ => rfl, by simp⟩
  | undef => cases ho
  | step o os s out hd _ ih =>
    obtain ⟨h1, h2⟩ := ih (fun o' ho' => hw o' (mem_cons_of_mem _ ho')) ho
    have hne : ∀ x, (⟨b, x⟩ : Loc) ≠ o.dst := fun x e => hw o (by simp) (by rw [← e])
    simp only [hne, decide_false, Bool.false_or] at h1 h2
    refine ⟨h1, ?_⟩
    intro o' ho' x hx
    rcases mem_cons.1 ho' with rfl | hm
    · exact (hd.2 _ hx).2
    · exact h2 o' hm x hx

/-- If phases that do not write `b` end normally, what they read of `b` was initialised before. -/
theorem phases_ok_init_buf {b : Buf} {ph : List (List (List Op))} {s s' : State α}
    (h : Exec F (phases ph) s (.ok s')) (hw : ∀ o ∈ phaseOps ph, o.dst.buf ≠ b) :
    ∀ o ∈ phaseOps ph, ∀ x, (⟨b, x⟩ : Loc) ∈ o.reads → s.init ⟨b, x⟩ = true := by
  induction ph generalizing s with
  | nil => simp [phaseOps]
  | cons ts ph ih =>
    have h : Exec F (Item.par ts :: phases ph) s (.ok s') := h
    rw [phaseOps_cons] at hw ⊢
    cases h with
    | next _ _ _ s1 _ h1 h2 =>
      cases h1 with
      | par _ l _ _ hl hr =>
        obtain ⟨e1, g1⟩ := hr.ok_init_buf (b := b) (fun o ho => hw o (mem_append_left _ (hl.perm.mem_iff.1 ho)))
        have g2 := ih h2 (fun o ho => hw o (mem_append_right _ ho))
        intro o ho x hx
        rcases mem_append.1 ho with ho | ho
        · exact g1 o (hl.perm.mem_iff.2 ho) x hx
        · rw [← e1]; exact g2 o ho x hx

section
variable {M N K p m_r n_r mS k_c n_c : Nat} (h : GeoOK p m_r n_r mS k_c n_c)
  {ly : Lay M N K p m_r n_r mS k_c n_c}
include h

/-- Every index beyond `K*N` up to `bNeed` is read. -/
theorem IsPackB.overread {ops : List Op} (hp : IsPackB ly ops) {x : Nat} (hx : K * N ≤ x)
    (hn : x < bNeed N K p n_r k_c n_c) : ∃ o ∈ ops, (⟨.B, x⟩ : Loc) ∈ o.reads := by
  have hS : 0 < p * k_c := Nat.mul_pos h.p_pos h.k_c_pos
  unfold bNeed at hn
  split at hn
  · omega
  · rename_i hu
    have hu0 : 0 < uncheckedRows K p k_c := Nat.pos_of_ne_zero hu
    have huK : uncheckedRows K p k_c ≤ K := by unfold uncheckedRows; split <;> omega
    have hx2 : x < uncheckedRows K p k_c * N + (padTo N n_c n_r - N) := by omega
    have hge := padTo_ge N n_c n_r h.n_r_pos
    have huN : uncheckedRows K p k_c * N ≤ K * N := Nat.mul_le_mul_right _ huK
    set row := uncheckedRows K p k_c - 1 with hrow
    have hrowK : row < K := by omega
    have hrowN : uncheckedRows K p k_c * N = row * N + N := by
      rw [show uncheckedRows K p k_c = row + 1 by omega]; ring
    -- the column of the padded matrix
    obtain ⟨hb1, hb2, hb3⟩ := chop_cover h.n_c_pos (show x - row * N < padTo N n_c n_r by omega)
    rw [nBlk h] at hb1
    obtain ⟨hk1, hk2, hk3⟩ := chop_cover hS hrowK
    obtain ⟨hc1, hc2, hc3⟩ := chop_cover (kX_pos h.p_pos h.k_c_pos hk1) hk2
    refine ⟨_, (hp.mem _).2 ⟨_, _, _, hb1, hk1, hc1, (bStrip_mem h hk1 hc1 _).2 ⟨_, _, hb2, hc2, rfl⟩⟩, ?_⟩
    have hkO : kO K p k_c (row / (p * k_c)) (row % (p * k_c) / kX K p k_c (row / (p * k_c))) +
        row % (p * k_c) % kX K p k_c (row / (p * k_c)) = row := by
      unfold kO
      rw [Nat.add_assoc, hc3, hk3]
    unfold packBOpS
    rw [hkO, hb3, if_neg (by omega)]
    simp only [Op.reads, mem_singleton, Loc.mk.injEq, true_and]
    omega

end

section
variable {N K p n_r k_c n_c : Nat}

/-- If `n_r` divides N nothing beyond `K*N` is read. -/
theorem bNeed_of_dvd (hr : 0 < n_r) (hd : n_r ∣ n_c) (hN : n_r ∣ N) :
    bNeed N K p n_r k_c n_c = K * N := by
  have e : padTo N n_c n_r = N := by
    obtain ⟨q, rfl⟩ := hN
    rw [padTo_eq hr hd, Nat.mul_comm n_r q, cdiv_mul_self _ _ hr]
  have huK : uncheckedRows K p k_c ≤ K := by unfold uncheckedRows; split <;> omega
  have := Nat.mul_le_mul_right N huK
  unfold bNeed
  rw [e]
  split <;> omega

/-- At most `n_r - 1` elements beyond `K*N` are read. -/
theorem bNeed_le (hr : 0 < n_r) : bNeed N K p n_r k_c n_c ≤ K * N + (n_r - 1) := by
  have huK : uncheckedRows K p k_c ≤ K := by unfold uncheckedRows; split <;> omega
  have h1 := Nat.mul_le_mul_right N huK
  have h2 := padTo_lt N n_c n_r hr
  unfold bNeed
  split <;> omega

theorem le_bNeed : K * N ≤ bNeed N K p n_r k_c n_c := by
  unfold bNeed; split <;> omega

/-- If `n_r` does not divide N and K is a positive multiple of `p*k_c`, elements beyond `K*N` are read. -/
theorem lt_bNeed (hr : 0 < n_r) (hd : n_r ∣ n_c) (hN : ¬ n_r ∣ N) (hK : 0 < K) (hKd : K % (p * k_c) = 0) :
    K * N < bNeed N K p n_r k_c n_c := by
  have e : uncheckedRows K p k_c = K := by unfold uncheckedRows; rw [if_pos hKd]
  have h1 := padTo_ge N n_c n_r hr
  have h2 : padTo N n_c n_r ≠ N := fun e' => hN (e' ▸ padTo_dvd hd)
  unfold bNeed
  rw [e, if_neg (by omega)]
  omega

/-- Number of rows of B that the last thread packs in the last block of rows if that block is ragged; 0 if K is
a multiple of `p*k_c`. -/
def lastRows (K p k_c : Nat) : Nat :=
  K % (p * k_c) - cdiv (K % (p * k_c)) p * (cdiv (K % (p * k_c)) (cdiv (K % (p * k_c)) p) - 1)

theorem uncheckedRows_eq : uncheckedRows K p k_c = K - lastRows K p k_c := by
  unfold uncheckedRows lastRows
  split
  · rename_i e
    rw [e]; omega
  · rfl

/-- The elements of B read are all among the first `K*N` exactly if the last thread packs all rows, or its rows
cover the rounding of N. -/
theorem bNeed_le_iff (hr : 0 < n_r) (hd : n_r ∣ n_c) : bNeed N K p n_r k_c n_c ≤ K * N ↔
    lastRows K p k_c = K ∨ cdiv N n_r * n_r ≤ (lastRows K p k_c + 1) * N := by
  have hl : lastRows K p k_c ≤ K := by
    have := Nat.mod_le K (p * k_c)
    unfold lastRows; omega
  have hp := padTo_ge N n_c n_r hr
  unfold bNeed
  rw [uncheckedRows_eq, padTo_eq hr hd]
  rw [padTo_eq hr hd] at hp
  generalize lastRows K p k_c = L at *
  generalize cdiv N n_r * n_r = W at *
  split
  · constructor
    · intro; left; omega
    · intro; exact le_rfl
  · obtain ⟨d, rfl⟩ : ∃ d, K = L + d := ⟨K - L, by omega⟩
    rw [Nat.add_sub_cancel_left, Nat.add_mul, Nat.add_mul, Nat.one_mul]
    constructor
    · intro h; right
      have := (Nat.max_le.1 h).2
      omega
    · rintro (h | h)
      · omega
      · exact Nat.max_le.2 ⟨by omega, by omega⟩

end

section
variable {M N K p m_r n_r mS k_c n_c : Nat} (h : GeoOK p m_r n_r mS k_c n_c)
  {ly : Lay M N K p m_r n_r mS k_c n_c}
include h

/-- If the program ends normally, the object holding B has the `bNeed` initialised elements that packing reads. -/
theorem sgemmS_needs {pa pb : List (List (List Op))} {rest : Prog} {packedA : Bool}
    (hpa : packedA = false → IsPackA ly (phaseOps pa)) (hpb : IsPackB ly (phaseOps pb))
    {s0 : State α} {a : Nat → Nat → α} (hA : AInS s0 packedA ly a) (hB : Holds s0 .B K N)
    (hblk : s0.size .Blk = none) (hdims : s0.size .Dims = none) {s' : State α}
    (he : Exec F ([.malloc .Blk 1, .malloc .Dims 1, .free .Dims] ++
      (if packedA then [] else .memalign .Ap (padTo M mS m_r * K) :: phases pa) ++
      (.memalign .Bp (padTo N n_c n_r * K) :: phases pb) ++ rest) s0 (.ok s')) :
    Holds s0 .B 1 (bNeed N K p n_r k_c n_c) := by
  have nok : ∀ {P Q : Prog} {s t : State α}, Exec F (P ++ Q) s (.ok t) →
      ∃ u, Exec F P s (.ok u) ∧ Exec F Q u (.ok t) := by
    intro P Q s t hx
    rcases hx.append_inv with hx | ⟨_, e | e⟩
    · exact hx
    · cases e
    · cases e
  obtain ⟨⟨nB, hBs, hle⟩, hBi⟩ := hB
  obtain ⟨s2, h2, _⟩ := nok he
  obtain ⟨s1, h1, h2⟩ := nok h2
  have t1 := dims_triple (F := F) hblk hdims
  have t2 := prepAS (F := F) (sz := szSet s0.size .Blk (some 1)) (P := fun _ _ => True) h hA
    (fun b hb => szSet_ne _ _ (by rintro rfl; exact hb hblk))
    (fun hp => by rw [szSet_ne _ _ (by simp)]; exact (hA.plain hp).2.1) (Stable.true _) hpa
  have e1 : s1.size .B = some nB ∧ ∀ x, s1.init ⟨.B, x⟩ = s0.init ⟨.B, x⟩ := by
    rcases (t1.seq t2) s0 _ rfl h1 with e | ⟨s'', e, hs⟩
    · cases e
    · cases e
      refine ⟨?_, fun x => (hs.keep ⟨.B, x⟩ (by simp [hBs]) (fun h => h)).2⟩
      rw [hs.size]
      split
      · rw [szSet_ne _ _ (by simp)]; exact hBs
      · rw [szSet_ne _ _ (by simp), szSet_ne _ _ (by simp)]; exact hBs
  obtain ⟨s3, h3, h4⟩ := nok (P := [.memalign .Bp (padTo N n_c n_r * K)]) (Q := phases pb) h2
  have e3 : s3.size .B = some nB ∧ ∀ x, s3.init ⟨.B, x⟩ = s0.init ⟨.B, x⟩ := by
    have := h3.single_inv
    cases this
    simpa using e1
  obtain ⟨_, g⟩ := phases_ok_inv h4
  have hw : ∀ o ∈ phaseOps pb, o.dst.buf ≠ .B := by
    intro o ho e
    obtain ⟨n, k, core, -, hk, hc, ho⟩ := (hpb.mem o).1 ho
    obtain ⟨c, i, -, -, rfl⟩ := (bStrip_mem h hk hc _).1 ho
    rw [packBOpS_dst] at e
    cases e
  have gi := phases_ok_init_buf h4 hw
  have key : ∀ x, x < bNeed N K p n_r k_c n_c → x < nB ∧ s0.init ⟨.B, x⟩ = true := by
    intro x hx
    by_cases hxk : x < K * N
    · exact ⟨by omega, hBi x hxk⟩
    · obtain ⟨o, ho, hr⟩ := hpb.overread h (by omega) hx
      have := (g o ho).2 _ hr
      unfold InB at this
      obtain ⟨n, hn, hx'⟩ := this
      rw [e3.1] at hn
      cases hn
      exact ⟨hx', by rw [← e3.2]; exact gi o ho x hr⟩
  refine ⟨⟨nB, hBs, ?_⟩, fun i hi => (key i (by omega)).2⟩
  rw [Nat.one_mul]
  by_contra hc
  exact absurd (key nB (by omega)).1 (by omega)

/-- Packing beforehand establishes what the call needs of packed operands. -/
theorem prepackS {s : State α} (hs : CallOK s M N K) {packedA packedB : Bool}
    (hB : packedB = true → Holds s .B 1 (bNeed N K p n_r k_c n_c))
    {pa pb : List (List (List Op))}
    (hpa : IsPackA ly (phaseOps pa)) (hpb : IsPackB ly (phaseOps pb)) {s1 : State α}
    (h1 : Exec F ((if packedA then .memalign .Ap (padTo M mS m_r * K) :: phases pa else []) ++
      (if packedB then .memalign .Bp (padTo N n_c n_r * K) :: phases pb else [])) s (.ok s1)) :
    (packedA = true → (∃ n, s1.size .Ap = some n ∧ padTo M mS m_r * K ≤ n) ∧
      (∀ x, x < padTo M mS m_r * K → s1.init ⟨.Ap, x⟩ = true) ∧ ASh ly s1.mem (entry s .A K)) ∧
    (packedB = true → (∃ n, s1.size .Bp = some n ∧ padTo N n_c n_r * K ≤ n) ∧
      (∀ x, x < padTo N n_c n_r * K → s1.init ⟨.Bp, x⟩ = true) ∧ BSh ly s1.mem (entry s .B N)) ∧
    (∀ b, b ≠ .Ap → b ≠ .Bp → s1.size b = s.size b) ∧ (packedA = false → s1.size .Ap = none) ∧
    (packedB = false → s1.size .Bp = none) ∧
    ∀ l : Loc, s.size l.buf ≠ none → s1.mem l = s.mem l ∧ s1.init l = s.init l := by
  have hApn : s.size .Ap = none := hs.fresh _ (by simp) (by simp) (by simp) (by simp)
  have hBpn : s.size .Bp = none := hs.fresh _ (by simp) (by simp) (by simp) (by simp)
  have tA : Triple F (· = s) (if packedA then .memalign .Ap (padTo M mS m_r * K) :: phases pa else [])
      (Env s (if packedA then szSet s.size .Ap (some (padTo M mS m_r * K)) else s.size) noX
        (fun m i => packedA = true → AOkS ly (entry s .A K) m i)) := by
    cases packedA with
    | true =>
      refine (prepAS (F := F) (P := fun _ _ => True) (packed := false) (a := entry s .A K) (sz := s.size) h
        ⟨fun _ => ⟨hs.a, hApn, fun _ _ => rfl⟩, by simp⟩ (fun _ _ => rfl) (fun _ => hApn)
        (Stable.true _) (fun _ => hpa)).conseq ?_ ?_
      · rintro _ rfl; exact ⟨rfl, fun _ _ _ => ⟨rfl, rfl⟩, trivial⟩
      · intro s' hs'; exact ⟨hs'.size, hs'.keep, fun _ => hs'.fact.2⟩
    | false =>
      refine Triple.nil.conseq (fun _ h => h) ?_
      rintro _ rfl; exact ⟨rfl, fun _ _ _ => ⟨rfl, rfl⟩, by simp⟩
  set sz1 := (if packedA then szSet s.size .Ap (some (padTo M mS m_r * K)) else s.size) with hsz1
  have k1 : ∀ b, s.size b ≠ none → sz1 b = s.size b := by
    intro b hb
    rw [hsz1]; split
    · rw [szSet_ne _ _ (by rintro rfl; exact hb hApn)]
    · rfl
  have n1 : sz1 .Bp = none := by
    rw [hsz1]; split
    · rw [szSet_ne _ _ (by simp)]; exact hBpn
    · exact hBpn
  have tB : Triple F (Env s sz1 noX (fun m i => packedA = true → AOkS ly (entry s .A K) m i))
      (if packedB then .memalign .Bp (padTo N n_c n_r * K) :: phases pb else [])
      (Env s (if packedB then szSet sz1 .Bp (some (padTo N n_c n_r * K)) else sz1) noX
        (fun m i => (packedA = true → AOkS ly (entry s .A K) m i) ∧
          (packedB = true → BOkS ly (entry s .B N) m i))) := by
    cases packedB with
    | true =>
      obtain ⟨⟨n, hn, hle⟩, hi⟩ := hB rfl
      rw [Nat.one_mul] at hle hi
      refine (prepBS (F := F) (packed := false) (b := entry s .B N) (sz := sz1)
        (P := fun m i => packedA = true → AOkS ly (entry s .A K) m i) h
        ⟨fun _ => ⟨⟨n, hn, hle⟩, hi, hBpn, fun _ _ => rfl⟩, by simp⟩ k1 (fun _ => n1)
        (fun m m' i i' hd hp hpa => AOkS.stable (D := (· = .Bp)) (by simp) ly _ m m' i i' hd (hp hpa))
        (fun _ => hpb)).conseq (fun _ h => h) ?_
      intro s' hs'; exact ⟨hs'.size, hs'.keep, hs'.fact.1, fun _ => hs'.fact.2⟩
    | false =>
      refine Triple.nil.conseq (fun _ h => h) ?_
      intro s' hs'; exact ⟨hs'.size, hs'.keep, hs'.fact, by simp⟩
  rcases (tA.seq tB) s _ rfl h1 with e | ⟨s', e, e1⟩
  · cases e
  · cases e
    refine ⟨fun hp => ⟨⟨_, ?_, Nat.le_refl _⟩, (e1.fact.1 hp).2, (e1.fact.1 hp).1⟩,
      fun hp => ⟨⟨_, ?_, Nat.le_refl _⟩, (e1.fact.2 hp).2, (e1.fact.2 hp).1⟩, ?_, ?_, ?_,
      fun l hl => e1.keep l hl (fun h => h)⟩
    · rw [e1.size, hsz1, hp]; cases packedB <;> simp [szSet]
    · rw [e1.size, hp]; simp [szSet]
    · intro b g1 g2
      rw [e1.size, hsz1]
      cases packedA <;> cases packedB <;> simp [szSet, g1, g2]
    · intro hp
      rw [e1.size, hsz1, hp]; cases packedB <;> simp [szSet, hApn]
    · intro hp
      rw [e1.size, hp]; simpa using n1

/-- The prepared operands, as seen by the call that follows. -/
theorem prepackS_in {s : State α} (hs : CallOK s M N K) {packedA packedB : Bool}
    (hB : Holds s .B 1 (bNeed N K p n_r k_c n_c))
    {pa pb : List (List (List Op))}
    (hpa : IsPackA ly (phaseOps pa)) (hpb : IsPackB ly (phaseOps pb)) {s1 : State α}
    (h1 : Exec F ((if packedA then .memalign .Ap (padTo M mS m_r * K) :: phases pa else []) ++
      (if packedB then .memalign .Bp (padTo N n_c n_r * K) :: phases pb else [])) s (.ok s1)) :
    AInS s1 packedA ly (entry s .A K) ∧ BInS s1 packedB ly (entry s .B N) := by
  obtain ⟨g1, g2, g3, g4, g5, g6⟩ := prepackS h hs (fun _ => hB) hpa hpb h1
  constructor
  · refine ⟨fun hp => ⟨⟨?_, ?_⟩, g4 hp, ?_⟩, g1⟩
    · obtain ⟨n, hn, hle⟩ := hs.a.1
      exact ⟨n, by rw [g3 _ (by simp) (by simp)]; exact hn, hle⟩
    · obtain ⟨n, hn, hle⟩ := hs.a.1
      intro i hi
      rw [(g6 ⟨.A, i⟩ (by simp [hn])).2]
      exact hs.a.2 i hi
    · obtain ⟨n, hn, hle⟩ := hs.a.1
      intro r k
      exact ((g6 ⟨.A, r * K + k⟩ (by simp [hn])).1).symm
  · obtain ⟨⟨n, hn, hle⟩, hi⟩ := hB
    rw [Nat.one_mul] at hle hi
    refine ⟨fun hp => ⟨⟨n, by rw [g3 _ (by simp) (by simp)]; exact hn, hle⟩, ?_, g5 hp, ?_⟩, g2⟩
    · intro i hx
      rw [(g6 ⟨.B, i⟩ (by simp [hn])).2]
      exact hi i hx
    · intro r k
      exact ((g6 ⟨.B, r * N + k⟩ (by simp [hn])).1).symm

end
end Cake
