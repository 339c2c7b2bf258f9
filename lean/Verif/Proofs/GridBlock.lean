/-
A block of C computed by a grid of cores from one packed block of A and one packed block of B, both shared.
-/
import Verif.Proofs.Online

namespace Cake
open List

variable {α : Type _} {F : Arith α} {S : Prop}

theorem aIdx_off {d kc off r i : Nat} (hd : 0 < d) (h : d ∣ off) :
    off * kc + aIdx d kc r i = aIdx d kc (off + r) i := by
  obtain ⟨q, rfl⟩ := h
  unfold aIdx
  rw [Nat.mul_add_div hd, Nat.mul_add_mod]
  ring

theorem bIdx_off {d kc off r i : Nat} (hd : 0 < d) (h : d ∣ off) :
    off * kc + bIdx d kc r i = bIdx d kc (off + r) i := aIdx_off hd h

/-- `buf` holds lanes `base … base + len` of an operand with `T` lanes, restricted to K block `k`; lanes beyond
`T` hold anything. -/
def Packed (buf : Buf) (u len base T K k_c : Nat) (v : Nat → Nat → α) (k : Nat) (mem : Mem α)
    (init : Loc → Bool) : Prop :=
  (∀ r kk, r < len → kk < chopLen K k_c k → base + r < T →
    mem ⟨buf, aIdx u (chopLen K k_c k) r kk⟩ = v (base + r) (k * k_c + kk)) ∧
  ∀ x, x < len * chopLen K k_c k → init ⟨buf, x⟩ = true

theorem Packed.stable {D : Buf → Prop} {buf : Buf} (hD : ¬ D buf) {u len base T K k_c k : Nat}
    {v : Nat → Nat → α} : Stable D (Packed buf u len base T K k_c v k) := by
  intro mem mem' i i' h hp
  refine ⟨?_, ?_⟩
  · intro r kk h1 h2 h3
    rw [(h ⟨buf, _⟩ hD).1]; exact hp.1 r kk h1 h2 h3
  · intro x hx
    rw [(h ⟨buf, _⟩ hD).2]; exact hp.2 x hx

/-- The packing phase of one operand, skipped when the block is the one already there. -/
theorem packed_phase {s0 : State α} {sz : Buf → Option Nat} {X : Loc → Prop}
    {P : Mem α → (Loc → Bool) → Prop} {dst : Buf} {src : Loc} {u len base T K k_c k sz' : Nat}
    {f : Nat → Nat → Nat} {v : Nat → Nat → α} (skip : Bool) (hd : 0 < u) (hdn : u ∣ len)
    (hne : src.buf ≠ dst) (h0 : s0.size dst = none) (hst : Stable (· = dst) P)
    (hsz : S → sz dst = some sz' ∧ len * chopLen K k_c k ≤ sz')
    (hread : S → ∀ r i, r < len → i < chopLen K k_c k → InB sz (src +ₚ f r i) ∧ s0.init (src +ₚ f r i) = true)
    (hval : ∀ r i, r < len → i < chopLen K k_c k → base + r < T → s0.mem (src +ₚ f r i) = v (base + r) (k * k_c + i))
    (hs0 : s0.size src.buf ≠ none) (hX : ∀ l, X l → l.buf ≠ src.buf) :
    STriple S F
      (Env s0 sz X fun mem init => P mem init ∧ (skip = true → Packed dst u len base T K k_c v k mem init))
      (if skip then [] else [.par (gstrips dst src u len (chopLen K k_c k) f)])
      (Env s0 sz X fun mem init => P mem init ∧ Packed dst u len base T K k_c v k mem init) := by
  cases skip with
  | true =>
    refine STriple.nil.conseq (fun _ h => h) ?_
    intro s hs
    exact ⟨hs.size, hs.keep, hs.fact.1, hs.fact.2 rfl⟩
  | false =>
    simp only [Bool.false_eq_true, if_false]
    refine (pack_phase (S := S) (F := F) (s0 := s0) (sz := sz) (X := X) (len := sz') (P := P)
      (dst := dst) hd hdn hne h0 hst hsz hread hs0 hX).conseq ?_ ?_
    · intro s hs
      exact ⟨hs.size, hs.keep, hs.fact.1⟩
    · intro s hs
      refine ⟨hs.size, hs.keep, hs.fact.1, ?_, hs.fact.2.2⟩
      intro r kk hr hkk hT
      rw [hs.fact.2.1 r kk hr hkk]
      exact hval r kk hr hkk hT

section
variable {geo : Nat → Nat → Geo} {ord : Nat → Nat → List Nat} {Nb Mb : Nat}
variable {M N K p m_r n_r m_c k_c n_c : Nat} {a b : Nat → Nat → α}

/-- The compute phase of K block `k` on a grid of cores: core `i` uses lanes `offA i …` of the packed A and
lanes `offB i …` of the packed B. -/
theorem grid_compute {s0 : State α} {sz : Buf → Option Nat} {bl : List (Nat × Nat)} {n m k : Nat}
    {ks : List Nat} {kd : KDim} {lenA baseA lenB baseB szA szB : Nat} {offA offB : Nat → Nat}
    (hg : (geo n m).OK M N p m_r n_r m_c n_c) (hk : kd.Fits m_r n_r)
    (hf : ∀ b : Buf, b ≠ .A → b ≠ .B → b ≠ .C → b ≠ .Ctx → s0.size b = none)
    (hA : ∀ i, i < (geo n m).u → m_r ∣ offA i ∧ baseA + offA i = (geo n m).rb i)
    (hB : ∀ i, i < (geo n m).u → n_r ∣ offB i ∧ baseB + offB i = (geo n m).cb i)
    (hAv : ∀ i r, i < (geo n m).u → r < (geo n m).mt i → (geo n m).rb i + r < M → offA i + r < lenA)
    (hBv : ∀ i c, i < (geo n m).u → c < (geo n m).nt i → (geo n m).cb i + c < N → offB i + c < lenB)
    (hAs : S → ∀ i, i < (geo n m).u → 0 < (geo n m).mt i → offA i + (geo n m).mt i ≤ lenA)
    (hBs : S → ∀ i, i < (geo n m).u → 0 < (geo n m).nt i → offB i + (geo n m).nt i ≤ lenB)
    (hszA : S → sz .Ap = some szA ∧ lenA * chopLen K k_c k ≤ szA)
    (hszB : S → sz .Bp = some szB ∧ lenB * chopLen K k_c k ≤ szB)
    (hCsz : ∀ i, i < p → sz (.CpC i) = some (m_c * n_c)) :
    STriple S F
      (Env s0 sz (cX M N) fun mem init =>
        RunW F geo ord Nb Mb M N K p m_r n_r m_c k_c n_c a b bl n m ks mem init ∧
        Packed .Ap m_r lenA baseA M K k_c a k mem init ∧
        Packed .Bp n_r lenB baseB N K k_c (fun c k => b k c) k mem init)
      [.par (gTasks (geo n m) kd (fun _ => []) (fun i => ⟨.Ap, offA i * chopLen K k_c k⟩)
        (fun i => ⟨.Bp, offB i * chopLen K k_c k⟩) m_r n_r (chopLen K k_c k))]
      (Env s0 sz (cX M N) fun mem init =>
        RunW F geo ord Nb Mb M N K p m_r n_r m_c k_c n_c a b bl n m (ks ++ [k]) mem init ∧
        Packed .Ap m_r lenA baseA M K k_c a k mem init ∧
        Packed .Bp n_r lenB baseB N K k_c (fun c k => b k c) k mem init) := by
  have hpok : PreOK (geo n m) (fun _ => []) (fun i => ⟨.Ap, offA i * chopLen K k_c k⟩)
      (fun i => ⟨.Bp, offB i * chopLen K k_c k⟩) :=
    ⟨by simp, by simp, fun _ _ => Or.inl rfl, fun _ _ => rfl⟩
  apply compute_phase hg hpok hk hf
  · intro s hs i hi m' hm' r kk hr hrow hkk
    rw [exec_nil, hm' _ (Or.inr (Or.inl rfl))]
    obtain ⟨h1, h2⟩ := hA i hi
    have := hs.fact.1 (offA i + r) kk (hAv i r hi hr hrow) hkk (by omega)
    simp only [Loc.off]
    rw [aIdx_off hg.m_pos h1, this, ← Nat.add_assoc, h2]
  · intro hS s hs i hi
    refine ⟨Safe.of_forall (by simp), ?_⟩
    intro x hx
    have hpos : 0 < (geo n m).mt i := by
      rcases Nat.eq_zero_or_pos ((geo n m).mt i) with e | e
      · rw [e] at hx; omega
      · exact e
    have hlt : offA i * chopLen K k_c k + x < lenA * chopLen K k_c k := by
      have := Nat.mul_le_mul_right (chopLen K k_c k) (hAs hS i hi hpos)
      rw [Nat.add_mul] at this
      omega
    obtain ⟨e1, e2⟩ := hszA hS
    exact ⟨inB_of e1 (Nat.lt_of_lt_of_le hlt e2), initAfter_mono (hs.fact.2 _ hlt)⟩
  · intro mem init hb i c kk hi hc hcol hkk
    obtain ⟨h1, h2⟩ := hB i hi
    have := hb.1 (offB i + c) kk (hBv i c hi hc hcol) hkk (by omega)
    simp only [Loc.off]
    rw [bIdx_off hg.n_pos h1]
    refine this.trans ?_
    rw [← Nat.add_assoc, h2]
  · intro hS mem init hb i x hi hx
    have hpos : 0 < (geo n m).nt i := by
      rcases Nat.eq_zero_or_pos ((geo n m).nt i) with e | e
      · rw [e] at hx; omega
      · exact e
    have hlt : offB i * chopLen K k_c k + x < lenB * chopLen K k_c k := by
      have := Nat.mul_le_mul_right (chopLen K k_c k) (hBs hS i hi hpos)
      rw [Nat.add_mul] at this
      omega
    obtain ⟨e1, e2⟩ := hszB hS
    exact ⟨inB_of e1 (Nat.lt_of_lt_of_le hlt e2), hb.2 _ hlt⟩
  · exact Packed.stable (by simp)
  · intro s hs
    have hno : ∀ x, ∀ o ∈ (gTasks (geo n m) kd (fun _ => []) (fun i => ⟨.Ap, offA i * chopLen K k_c k⟩)
        (fun i => ⟨.Bp, offB i * chopLen K k_c k⟩) m_r n_r (chopLen K k_c k)).flatten,
        o.dst ≠ ⟨.Ap, x⟩ := by
      intro x o ho e
      obtain ⟨i, _, h1⟩ := gTasks_dst hg hpok hk o ho
      rw [e] at h1
      simp at h1
    refine ⟨?_, ?_⟩
    · intro r kk hr hkk hT
      rw [exec_frame F _ _ _ (hno _)]
      exact hs.fact.1 r kk hr hkk hT
    · intro x hx
      exact initAfter_mono (hs.fact.2 x hx)
  · exact hCsz

end
/-- Allocation and release around a schedule on a grid of cores. -/
theorem grid_call {M N K p na nb nc : Nat} {s0 : State α} (hs0 : CallOK s0 M N K) {sched : Prog}
    {Q : Mem α → (Loc → Bool) → Prop}
    (hsched : ∀ sz : Buf → Option Nat, (∀ b, s0.size b ≠ none → sz b = s0.size b) → sz .Ap = some na →
      sz .Bp = some nb → (∀ i, i < p → sz (.CpC i) = some nc) →
      STriple S F
        (Env s0 sz (cX M N) fun mem init =>
          ∀ i x, i < p → mem ⟨.CpC i, x⟩ = F.zero ∧ init ⟨.CpC i, x⟩ = true)
        sched (Env s0 sz (cX M N) Q)) :
    STriple S F (· = s0)
      ([.malloc .Blk 1] ++ [.memalign .Ap na, .memalign .Bp nb] ++
        (range p).map (fun i => Item.calloc (.CpC i) nc) ++ sched ++
        ([.free .Ap] ++ (range p).map (fun i => Item.free (.CpC i)) ++ [.free .Bp, .free .Blk]))
      (Env s0 s0.size (cX M N) Q) := by
  have hf := hs0.fresh
  have injC : Function.Injective Buf.CpC := fun x y e => by simpa using e
  have f1 : s0.size .Blk = none := hf _ (by simp) (by simp) (by simp) (by simp)
  have f2 : s0.size .Ap = none := hf _ (by simp) (by simp) (by simp) (by simp)
  have f3 : s0.size .Bp = none := hf _ (by simp) (by simp) (by simp) (by simp)
  have f5 : ∀ i, s0.size (.CpC i) = none := fun i => hf _ (by simp) (by simp) (by simp) (by simp)
  set sz1 := szSet s0.size .Blk (some 1) with hsz1
  set sz2 := szSet sz1 .Ap (some na) with hsz2
  set sz3 := szSet sz2 .Bp (some nb) with hsz3
  set sz4 := szSets sz3 Buf.CpC (some nc) p with hsz4
  have v4 : ∀ b, b ≠ .Blk → b ≠ .Ap → b ≠ .Bp → (∀ i, i < p → b ≠ .CpC i) → sz4 b = s0.size b := by
    intro b h1 h2 h3 h4
    rw [hsz4, szSets_of_ne _ _ _ h4, hsz3, szSet_ne _ _ h3, hsz2, szSet_ne _ _ h2, hsz1, szSet_ne _ _ h1]
  have vA : sz4 .Ap = some na := by
    rw [hsz4, szSets_of_ne _ _ _ (by simp), hsz3, szSet_ne _ _ (by simp), hsz2, szSet_self]
  have vB : sz4 .Bp = some nb := by
    rw [hsz4, szSets_of_ne _ _ _ (by simp), hsz3, szSet_self]
  have vC : ∀ i, i < p → sz4 (.CpC i) = some nc := by
    intro i hi
    rw [hsz4, szSets_of_lt _ _ _ hi]
  have vK : sz4 .Blk = some 1 := by
    rw [hsz4, szSets_of_ne _ _ _ (by simp), hsz3, szSet_ne _ _ (by simp), hsz2, szSet_ne _ _ (by simp), hsz1,
      szSet_self]
  have hmono : ∀ b, s0.size b ≠ none → sz4 b = s0.size b := by
    intro b hb
    apply v4
    · rintro rfl; exact hb f1
    · rintro rfl; exact hb f2
    · rintro rfl; exact hb f3
    · rintro i _ rfl; exact hb (f5 i)
  have hnd : ([Buf.Ap] ++ (range p).map Buf.CpC ++ [Buf.Bp, Buf.Blk]).Nodup := by
    rw [nodup_append]
    refine ⟨?_, by simp, ?_⟩
    · rw [nodup_append]
      refine ⟨by simp, (nodup_map_iff injC).2 nodup_range, by simp⟩
    · intro b hb b' hb'
      simp only [mem_append, mem_map, mem_range, mem_cons, not_mem_nil, or_false] at hb hb'
      rcases hb with rfl | ⟨i, _, rfl⟩ <;> rcases hb' with rfl | rfl <;> simp
  have hal : ∀ b ∈ [Buf.Ap] ++ (range p).map Buf.CpC ++ [Buf.Bp, Buf.Blk], sz4 b ≠ none := by
    intro b hb
    simp only [mem_append, mem_map, mem_range, mem_cons, not_mem_nil, or_false] at hb
    rcases hb with (rfl | ⟨i, hi, rfl⟩) | rfl | rfl
    · rw [vA]; simp
    · rw [vC i hi]; simp
    · rw [vB]; simp
    · rw [vK]; simp
  have t0 : Triple F (· = s0) [] (Env s0 s0.size noX (fun _ _ => True)) :=
    Triple.nil.conseq (fun _ h => h) (by rintro s rfl; exact ⟨rfl, fun _ _ _ => ⟨rfl, rfl⟩, trivial⟩)
  have t1 := Env.malloc (F := F) (s0 := s0) (sz := s0.size) (X := noX) .Blk 1 f1 f1 (Stable.true _)
  have t2 := Env.memalign (F := F) (s0 := s0) (sz := sz1) (X := noX) (P := fun _ _ => True) .Ap na f2
    (by rw [hsz1, szSet_ne _ _ (by simp)]; exact f2) (Stable.true _)
  have t3 := Env.memalign (F := F) (s0 := s0) (sz := sz2) (X := noX) (P := fun _ _ => True) .Bp nb f3
    (by rw [hsz2, szSet_ne _ _ (by simp), hsz1, szSet_ne _ _ (by simp)]; exact f3) (Stable.true _)
  have t4 := Env.callocs (F := F) (s0 := s0) (sz := sz3) (X := noX) (P := fun _ _ => True) Buf.CpC injC p nc
    (fun i _ => f5 i) (fun i _ => by
      rw [hsz3, szSet_ne _ _ (by simp), hsz2, szSet_ne _ _ (by simp), hsz1, szSet_ne _ _ (by simp)]; exact f5 i)
    (Stable.true _)
  have t5 := hsched sz4 hmono vA vB vC
  have t6 := Env.freeBufs (F := F) (s0 := s0) (sz := sz4) (X := cX M N) (P := Q) _ hnd hal
  have e : ([.free .Ap] ++ (range p).map (fun i => Item.free (.CpC i)) ++ [.free .Bp, .free .Blk] : Prog) =
      ([Buf.Ap] ++ (range p).map Buf.CpC ++ [Buf.Bp, Buf.Blk]).map Item.free := by
    rw [map_append, map_append, map_map]; rfl
  rw [e]
  refine STriple.seq (STriple.seq (Triple.toS (Triple.seq (Triple.seq (t0.seq t1) (t2.seq t3)) t4))
    (t5.conseq ?_ (fun _ h => h))) (t6.toS.conseq (fun _ h => h) ?_)
  · intro s hs
    exact ⟨hs.size, fun l hl _ => hs.keep l hl (fun h => h), hs.fact.2⟩
  · intro s hs
    refine ⟨?_, hs.keep, hs.fact⟩
    rw [hs.size]
    funext b
    split
    · rename_i hb
      simp only [mem_append, mem_map, mem_range, mem_cons, not_mem_nil, or_false] at hb
      rcases hb with (rfl | ⟨i, _, rfl⟩) | rfl | rfl
      · exact f2.symm
      · exact (f5 i).symm
      · exact f3.symm
      · exact f1.symm
    · rename_i hb
      simp only [mem_append, mem_map, mem_range, mem_cons, not_mem_nil, or_false, not_or, not_exists, not_and] at hb
      exact v4 b hb.2.2 hb.1.1 hb.2.1 (fun i hi e => hb.1.2 i hi e.symm)

end Cake
