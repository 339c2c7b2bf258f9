/-
N-first with `beta ≠ 0`: unless the two offset formulas for the blocks of C agree, no execution ends normally.
-/
import Verif.Proofs.SgemmMN
import Verif.Proofs.Gaps

namespace Cake
open List

variable {α : Type _} {F : Arith α}

/-! ### Reading an element that was never written -/

/-- Before the list writes `x` it reads `x`. -/
def ReadFirst (x : Loc) : List Op → Prop
  | [] => True
  | o :: os => x ∈ o.reads ∨ o.dst ≠ x ∧ ReadFirst x os

theorem ReadFirst.of_ne {x : Loc} {l : List Op} (h : ∀ o ∈ l, o.dst ≠ x) : ReadFirst x l := by
  induction l with
  | nil => trivial
  | cons o os ih => exact Or.inr ⟨h o (by simp), ih fun o' ho' => h o' (by simp [ho'])⟩

theorem ReadFirst.append {x : Loc} {l l' : List Op} (h : ReadFirst x l) (h' : ReadFirst x l') :
    ReadFirst x (l ++ l') := by
  induction l with
  | nil => exact h'
  | cons o os ih =>
    rcases h with h | ⟨h1, h2⟩
    · exact Or.inl h
    · exact Or.inr ⟨h1, ih h2⟩

/-- Once `x` is read, anything may follow. -/
theorem ReadFirst.append_of_read {x : Loc} {l : List Op} (h : ReadFirst x l) (hr : ∃ o ∈ l, x ∈ o.reads) (l' : List Op) :
    ReadFirst x (l ++ l') := by
  induction l with
  | nil => simp at hr
  | cons o os ih =>
    rcases h with h | ⟨h1, h2⟩
    · exact Or.inl h
    · obtain ⟨o', ho', hx⟩ := hr
      rcases mem_cons.1 ho' with rfl | hm
      · exact Or.inl hx
      · exact Or.inr ⟨h1, ih h2 ⟨o', hm, hx⟩⟩

theorem ReadFirst.flatMap {β : Type _} {x : Loc} {l : List β} {f : β → List Op} (h : ∀ b ∈ l, ReadFirst x (f b)) :
    ReadFirst x (l.flatMap f) := by
  induction l with
  | nil => trivial
  | cons b bs ih =>
    rw [flatMap_cons]
    exact (h b (by simp)).append (ih fun b' hb' => h b' (by simp [hb']))

/-- Tasks that read `x` before writing it do not touch an uninitialised `x` in a run that ends normally. -/
theorem RunOps.untouched {x : Loc} {ts : List (List Op)} {l : List Op} (hi : Interleave ts l)
    (hts : ∀ t ∈ ts, ReadFirst x t) {s s' : State α} (hx : s.init x = false) (hr : RunOps F l s (.ok s')) :
    s'.init x = false ∧ ∀ o ∈ l, x ∉ o.reads := by
  induction hi generalizing s with
  | done ts h => cases hr; exact ⟨hx, by simp⟩
  | step pre o t post l hi ih =>
    cases hr with
    | step _ _ _ _ hd hr =>
      have hnr : x ∉ o.reads := fun h => by
        have := (hd.2 x h).2
        rw [hx] at this
        cases this
      have h0 := hts (o :: t) (by simp)
      obtain ⟨hne, ht⟩ : o.dst ≠ x ∧ ReadFirst x t := h0.resolve_left hnr
      have hts' : ∀ t' ∈ pre ++ t :: post, ReadFirst x t' := by
        intro t' ht'
        rcases mem_append.1 ht' with h1 | h1
        · exact hts t' (by simp [h1])
        · rcases mem_cons.1 h1 with rfl | h2
          · exact ht
          · exact hts t' (by simp [h2])
      obtain ⟨g1, g2⟩ := ih hts' (by simp [hx, Ne.symm hne]) hr
      refine ⟨g1, ?_⟩
      intro o' ho'
      rcases mem_cons.1 ho' with rfl | hm
      · exact hnr
      · exact g2 o' hm

theorem phases_untouched {x : Loc} {ph : List (List (List Op))} (hph : ∀ ts ∈ ph, ∀ t ∈ ts, ReadFirst x t)
    {s s' : State α} (hx : s.init x = false) (he : Exec F (phases ph) s (.ok s')) :
    s'.init x = false ∧ ∀ o ∈ phaseOps ph, x ∉ o.reads := by
  induction ph generalizing s with
  | nil => cases he; exact ⟨hx, by simp [phaseOps]⟩
  | cons ts ph ih =>
    have he : Exec F (Item.par ts :: phases ph) s (.ok s') := he
    cases he with
    | next _ _ _ s1 _ h1 h2 =>
      cases h1 with
      | par _ l _ _ hl hr =>
        obtain ⟨e1, g1⟩ := hr.untouched hl (hph ts (by simp)) hx
        obtain ⟨e2, g2⟩ := ih (fun ts' hts' => hph ts' (by simp [hts'])) e1 h2
        refine ⟨e2, ?_⟩
        intro o ho
        rw [phaseOps_cons] at ho
        rcases mem_append.1 ho with ho | ho
        · exact g1 o (hl.perm.mem_iff.2 ho)
        · exact g2 o ho

/-! ### The kernel reads the tile of C first -/

theorem kernLoadC_dst {L m nl t : Nat} {C : Loc} {o : Op} (ho : o ∈ kernLoadC L m nl t C) : o.dst.buf = .reg t := by
  unfold kernLoadC at ho
  simp only [mem_flatMap, mem_map, mem_range] at ho
  obtain ⟨q, _, l, _, rfl⟩ := ho
  rfl

theorem kernel_readFirst {kd : KDim} {t : Nat} {A B C x : Loc} {n k : Nat} (hx : x.buf ≠ .reg t) :
    ReadFirst x (kernel kd.L kd.m kd.nl t A B C n k) := by
  unfold kernel
  by_cases hc : ∃ q l, q < kd.m * kd.nl ∧ l < kd.L ∧ x = C +ₚ (q * kd.L + l)
  · obtain ⟨q, l, hq, hl, rfl⟩ := hc
    rw [append_assoc]
    apply ReadFirst.append_of_read
    · exact ReadFirst.of_ne fun o ho e => hx (e ▸ kernLoadC_dst ho)
    · refine ⟨.copy (rC kd.L t q l) (C +ₚ (q * kd.L + l)), ?_, by simp [Op.reads]⟩
      unfold kernLoadC
      simp only [mem_flatMap, mem_map, mem_range]
      exact ⟨q, hq, l, hl, rfl⟩
  · apply ReadFirst.of_ne
    intro o ho e
    rcases mem_append.1 ho with ho | ho
    · rcases mem_append.1 ho with ho | ho
      · exact hx (e ▸ kernLoadC_dst ho)
      · exact hx (e ▸ kernLoop_reg _ _ _ _ _ _ _ _ o ho)
    · unfold kernStoreC at ho
      simp only [mem_flatMap, mem_map, mem_range] at ho
      obtain ⟨q, hq, l, hl, rfl⟩ := ho
      exact hc ⟨q, l, hq, hl, e.symm⟩

theorem regTiles_readFirst {kd : KDim} {t : Nat} {A B C x : Loc} {m_r n_r mt nt k : Nat} (hx : x.buf ≠ .reg t) :
    ReadFirst x (regTiles kd t A B C m_r n_r mt nt k) :=
  ReadFirst.flatMap fun _ _ => ReadFirst.flatMap fun _ _ => kernel_readFirst hx

theorem regTiles_read_all {kd : KDim} {m_r n_r mt nt : Nat} (hk : kd.Fits m_r n_r) (hm : 0 < m_r) (hn : 0 < n_r)
    (hdm : m_r ∣ mt) (hdn : n_r ∣ nt) {t : Nat} {A B C : Loc} {k y : Nat} (hy : y < mt * nt) :
    ∃ o ∈ regTiles kd t A B C m_r n_r mt nt k, C +ₚ y ∈ o.reads := by
  obtain ⟨q, rfl⟩ := hdm
  obtain ⟨q', rfl⟩ := hdn
  have hq : 0 < q := by
    rcases Nat.eq_zero_or_pos q with rfl | h
    · simp at hy
    · exact h
  have hT : 0 < m_r * n_r := Nat.mul_pos hm hn
  have hS : 0 < q * (m_r * n_r) := Nat.mul_pos hq hT
  have e0 : m_r * q * (n_r * q') = q' * (q * (m_r * n_r)) := by ring
  rw [e0] at hy
  have h1 : y / (q * (m_r * n_r)) < q' := (Nat.div_lt_iff_lt_mul hS).2 hy
  have h2 : y % (q * (m_r * n_r)) < q * (m_r * n_r) := Nat.mod_lt _ hS
  have h3 : y % (q * (m_r * n_r)) / (m_r * n_r) < q := (Nat.div_lt_iff_lt_mul hT).2 h2
  have h4 : y % (q * (m_r * n_r)) % (m_r * n_r) < m_r * n_r := Nat.mod_lt _ hT
  have d1 := Nat.div_add_mod y (q * (m_r * n_r))
  have d2 := Nat.div_add_mod (y % (q * (m_r * n_r))) (m_r * n_r)
  generalize y / (q * (m_r * n_r)) = u at h1 d1
  generalize hv : y % (q * (m_r * n_r)) / (m_r * n_r) = v at h3 d2
  generalize y % (q * (m_r * n_r)) % (m_r * n_r) = w at h4 d2
  unfold regTiles
  rw [Nat.mul_comm n_r q', Nat.mul_div_cancel _ hn, Nat.mul_comm m_r q, Nat.mul_div_cancel _ hm]
  have hw : w < kd.m * kd.nl * kd.L := by
    rw [hk.m_eq, Nat.mul_assoc, hk.n_eq]; exact h4
  have hL : 0 < kd.L := by
    rcases Nat.eq_zero_or_pos kd.L with h | h
    · rw [h] at hw; simp at hw
    · exact h
  refine ⟨.copy (rC kd.L t (w / kd.L) (w % kd.L)) (C +ₚ (u * (q * m_r) * n_r + v * m_r * n_r) +ₚ (w / kd.L * kd.L + w % kd.L)),
    mem_flatMap.2 ⟨u, mem_range.2 h1, mem_flatMap.2 ⟨v, mem_range.2 h3, ?_⟩⟩, ?_⟩
  · unfold kernel kernLoadC
    refine mem_append_left _ (mem_append_left _ ?_)
    simp only [mem_flatMap, mem_map, mem_range]
    exact ⟨w / kd.L, (Nat.div_lt_iff_lt_mul hL).2 hw, w % kd.L, Nat.mod_lt _ hL, rfl⟩
  · have e1 : w / kd.L * kd.L + w % kd.L = w := by rw [Nat.mul_comm]; exact Nat.div_add_mod w kd.L
    have e2 : u * (q * m_r) * n_r = q * (m_r * n_r) * u := by ring
    have e3 : v * m_r * n_r = m_r * n_r * v := by ring
    simp only [Op.reads, mem_singleton, Loc.off, e1, e2, e3, Loc.mk.injEq, true_and]
    omega

section
variable {M N K p m_r n_r mS k_c n_c : Nat} (h : GeoOK p m_r n_r mS k_c n_c) {kd : KDim} (hk : kd.Fits m_r n_r)
include h hk

omit h hk in
theorem blkTask_readFirst (ly : Lay M N K p m_r n_r mS k_c n_c) {t n k m i : Nat} :
    ReadFirst ⟨.Cp, i⟩ (blkTask kd ly t n k m) :=
  ReadFirst.flatMap fun _ _ => regTiles_readFirst (by simp)

theorem blkTask_read_all (ly : Lay M N K p m_r n_r mS k_c n_c) {t n k m y : Nat} (hkb : k < cdiv K (p * k_c))
    (hy : y < sL M mS m_r m * sL N n_c n_r n) : ∃ o ∈ blkTask kd ly t n k m, (⟨.Cp, ly.cO n m + y⟩ : Loc) ∈ o.reads := by
  have hpos : 0 < kU K p k_c k := by
    unfold kU
    exact cdiv_pos (chopLen_pos (Nat.mul_pos h.p_pos h.k_c_pos) hkb) (kX_pos h.p_pos h.k_c_pos hkb)
  obtain ⟨o, ho, hr⟩ := regTiles_read_all (t := t) (A := ⟨.Ap, ly.aO k m 0⟩) (B := ⟨.Bp, ly.bO n k 0⟩)
    (C := ⟨.Cp, ly.cO n m⟩) (k := kT K p k_c k 0) hk h.m_r_pos h.n_r_pos (mL_dvd h) (nL_dvd h) hy
  exact ⟨o, mem_flatMap.2 ⟨0, mem_range.2 hpos, ho⟩, hr⟩

end

theorem cover1 {T S w x : Nat} (hS : 0 < S) (hx : x < T * w) :
    ∃ i z, i < cdiv T S ∧ z < chopLen T S i * w ∧ x = i * S * w + z := by
  have hw : 0 < w := by
    rcases Nat.eq_zero_or_pos w with rfl | h
    · simp at hx
    · exact h
  have hrow : x / w < T := (Nat.div_lt_iff_lt_mul hw).2 hx
  obtain ⟨h1, h2, h3⟩ := chop_cover hS hrow
  have d := Nat.div_add_mod x w
  have hm := Nat.mod_lt x hw
  refine ⟨x / w / S, x / w % S * w + x % w, h1, mulAdd_lt h2 hm, ?_⟩
  have : x / w / S * S * w + x / w % S * w = w * (x / w) := by
    rw [← Nat.add_mul, h3, Nat.mul_comm]
  omega

theorem cover2 {T S T' S' x : Nat} (hS : 0 < S) (hS' : 0 < S') (hx : x < T * T') :
    ∃ i j y, i < cdiv T S ∧ j < cdiv T' S' ∧ y < chopLen T S i * chopLen T' S' j ∧
      x = i * S * T' + j * S' * chopLen T S i + y := by
  obtain ⟨i, z, hi, hz, e⟩ := cover1 hS hx
  rw [Nat.mul_comm] at hz
  obtain ⟨j, y, hj, hy, e'⟩ := cover1 hS' hz
  exact ⟨i, j, y, hi, hj, by rwa [Nat.mul_comm], by omega⟩

section
variable {M N K p m_r n_r m_c k_c n_c : Nat} (h : TileOK p m_r n_r m_c k_c n_c)
include h

/-- The operations of `pack_C_single_buf_n_first`. -/
theorem packC_n_mem (o : Op) :
    o ∈ phaseOps (pack_C_n_first ⟨.C, 0⟩ ⟨.Cp, 0⟩ M N p m_r n_r (dimsNKM M N K p m_r n_r m_c k_c n_c)) ↔
      ∃ m n, m < cdiv M (p * m_c) ∧ n < cdiv N n_c ∧ o ∈ pack_ob_C_single_buf ⟨.C, m * (p * m_c) * N + n * n_c⟩
          ⟨.Cp, m * (p * m_c) * padTo N n_c n_r + n * (p * m_c) * sL N n_c n_r n⟩ M N (m * (p * m_c)) (n * n_c) 0
          (sL M (p * m_c) m_r m) (sL N n_c n_r n) m_r n_r
          (m == cdiv M (p * m_c) - 1 && M % (p * m_c) != 0) (n == cdiv N n_c - 1 && N % n_c != 0) := by
  have e : pack_C_n_first ⟨.C, 0⟩ ⟨.Cp, 0⟩ M N p m_r n_r (dimsNKM M N K p m_r n_r m_c k_c n_c) =
      (range (cdiv M (p * m_c))).map fun m => (range (cdiv N n_c)).map fun n =>
        pack_ob_C_single_buf ⟨.C, m * (p * m_c) * N + n * n_c⟩
          ⟨.Cp, m * (p * m_c) * padTo N n_c n_r + n * (p * m_c) * sL N n_c n_r n⟩ M N (m * (p * m_c)) (n * n_c) 0
          (sL M (p * m_c) m_r m) (sL N n_c n_r n) m_r n_r
          (m == cdiv M (p * m_c) - 1 && M % (p * m_c) != 0) (n == cdiv N n_c - 1 && N % n_c != 0) := by
    unfold pack_C_n_first
    simp only [nkm_Mb h.toN, nkm_Nb h.toN, nkm_n_pad, nkm_m_pad, nkm_n_c, nkm_m_c, nkm_n_c1, nkm_m_c1, nkm_N_padded]
    apply map_congr_left
    intro m hm
    rw [mem_range] at hm
    apply map_congr_left
    intro n hn
    rw [mem_range] at hn
    have hm1 := first_of_blk (T := M) (i := m) h.S_pos
    conv_lhs at hm1 => rw [← Nat.mul_assoc]
    rw [sL_eq h.n_c_pos h.n_r_pos h.n_dvd hn, sL_eq h.S_pos h.m_r_pos h.S_dvd hm,
      first_of_blk h.n_c_pos, hm1]
    simp only [Loc.off]
    congr 2
    · ring
    · ring
  rw [e, phaseOps_map]
  simp only [mem_flatMap, mem_flatten, mem_map, mem_range]
  constructor
  · rintro ⟨m, hm, _, ⟨n, hn, rfl⟩, ho⟩; exact ⟨m, n, hm, hn, ho⟩
  · rintro ⟨m, n, hm, hn, ho⟩; exact ⟨m, hm, _, ⟨n, hn, rfl⟩, ho⟩

/-- The cells `pack_C_single_buf_n_first` writes. -/
theorem packC_n_writes (l : Loc) :
    (∃ o ∈ phaseOps (pack_C_n_first ⟨.C, 0⟩ ⟨.Cp, 0⟩ M N p m_r n_r (dimsNKM M N K p m_r n_r m_c k_c n_c)), o.dst = l) ↔
    l.buf = .Cp ∧ Written (cdiv M (p * m_c)) (cdiv N n_c) (p * m_c) (padTo N n_c n_r) (sL M (p * m_c) m_r)
      (sL N n_c n_r) l.idx := by
  have hs : ∀ m n, SeqW .Cp (m * (p * m_c) * padTo N n_c n_r + n * (p * m_c) * sL N n_c n_r n)
      (sL M (p * m_c) m_r m * sL N n_c n_r n) (pack_ob_C_single_buf ⟨.C, m * (p * m_c) * N + n * n_c⟩
          ⟨.Cp, m * (p * m_c) * padTo N n_c n_r + n * (p * m_c) * sL N n_c n_r n⟩ M N (m * (p * m_c)) (n * n_c) 0
          (sL M (p * m_c) m_r m) (sL N n_c n_r n) m_r n_r
          (m == cdiv M (p * m_c) - 1 && M % (p * m_c) != 0) (n == cdiv N n_c - 1 && N % n_c != 0)) := fun m n =>
    packObC_seqW _ (⟨.Cp, _⟩ : Loc) _ _ _ _ _ _ _ _ _ _ _ h.m_r_pos h.n_r_pos (mL_dvd h.geoN) (nL_dvd h.geoN)
  have e2 := packC_n_mem (M := M) (N := N) (K := K) h
  constructor
  · rintro ⟨o, ho, rfl⟩
    obtain ⟨m, n, hm, hn, ho⟩ := (e2 o).1 ho
    obtain ⟨h1, h2, h3⟩ := (hs m n).dst_of_mem ho
    exact ⟨h1, m, n, o.dst.idx - (m * (p * m_c) * padTo N n_c n_r + n * (p * m_c) * sL N n_c n_r n), hm, hn,
      by omega, by omega⟩
  · rintro ⟨h1, m, n, y, hm, hn, hy, e'⟩
    obtain ⟨o, ho, hd⟩ := ((hs m n).mem_iff l).2 ⟨h1, by omega, by omega⟩
    exact ⟨o, (e2 o).2 ⟨m, n, hm, hn, ho⟩, hd⟩

/-- Every cell of the packed C is read by the schedule. -/
theorem schedN_reads {kd : KDim} (hk : kd.Fits m_r n_r) (hK : 0 < K) {A_p B_p : Loc} (hA : A_p = ⟨.Ap, 0⟩)
    (hB : B_p = ⟨.Bp, 0⟩) {x : Nat} (hx : x < padTo M (p * m_c) m_r * padTo N n_c n_r) :
    (∀ ts ∈ schedule_NKM kd A_p B_p ⟨.Cp, 0⟩ K p m_r n_r (dimsNKM M N K p m_r n_r m_c k_c n_c), ∀ t ∈ ts,
      ReadFirst ⟨.Cp, x⟩ t) ∧
    ∃ o ∈ phaseOps (schedule_NKM kd A_p B_p ⟨.Cp, 0⟩ K p m_r n_r (dimsNKM M N K p m_r n_r m_c k_c n_c)),
      (⟨.Cp, x⟩ : Loc) ∈ o.reads := by
  subst hA hB
  have hs := schedN (M := M) (N := N) (K := K) h.toN hk
  have g := h.geoN
  refine ⟨?_, ?_⟩
  · intro ts hts t ht
    obtain ⟨q, _, rfl⟩ := hs.tasks ts hts t ht
    exact blkTask_readFirst _
  · obtain ⟨m, n, y, h1, c1, hy, hxe⟩ := cover2 h.S_pos h.n_c_pos hx
    rw [mBlk g] at h1
    rw [nBlk g] at c1
    have hkb : 0 < cdiv K (p * k_c) := cdiv_pos hK (Nat.mul_pos h.p_pos h.k_c_pos)
    -- the task for block (n, m) and some k
    have hex : ∃ q ∈ blocksNKM (cdiv M (p * m_c)) (cdiv K (p * k_c)) (cdiv N n_c),
        q.2.1 = n ∧ q.2.2.1 = 0 ∧ q.2.2.2 = m := by
      obtain ⟨i, hi, hi'⟩ := serpBlk_surj (desc := kDesc m 0) c1
      refine ⟨(i, n, 0, m), ?_, rfl, rfl, rfl⟩
      unfold blocksNKM
      simp only [mem_flatMap, mem_map, mem_range, mem_serp]
      exact ⟨m, h1, 0, hkb, i, hi, by rw [hi']⟩
    obtain ⟨q, hq, e1, e2, e3⟩ := hex
    obtain ⟨o, ho, hr⟩ := blkTask_read_all g hk (layN M N K p m_r n_r (p * m_c) k_c n_c h.geoN) (t := q.1) hkb hy
    refine ⟨o, ?_, ?_⟩
    · rw [hs.ops]
      refine mem_flatMap.2 ⟨q, hq, ?_⟩
      rw [e1, e2, e3]
      exact ho
    · rw [hxe]
      exact hr

end

/-- Unless the offsets agree, packing C leaves the buffer or leaves out a cell. -/
theorem packC_n_gap {M N K p m_r n_r m_c k_c n_c : Nat} (h : TileOK p m_r n_r m_c k_c n_c)
    (hne : ¬ PackCAgree M N p m_r n_r m_c n_c) :
    ∃ x, (∃ o ∈ phaseOps (pack_C_n_first ⟨.C, 0⟩ ⟨.Cp, 0⟩ M N p m_r n_r (dimsNKM M N K p m_r n_r m_c k_c n_c)),
        o.dst = ⟨.Cp, x⟩) ∧ padTo M (p * m_c) m_r * padTo N n_c n_r ≤ x ∨
      (∀ o ∈ phaseOps (pack_C_n_first ⟨.C, 0⟩ ⟨.Cp, 0⟩ M N p m_r n_r (dimsNKM M N K p m_r n_r m_c k_c n_c)),
        o.dst ≠ ⟨.Cp, x⟩) ∧ x < padTo M (p * m_c) m_r * padTo N n_c n_r := by
  have g := h.geoN
  have full : ∀ {T S u i : Nat}, 0 < S → 0 < u → u ∣ S → i < cdiv T S →
      (i + 1 < cdiv T S → sL T S u i = S) ∧ (0 < sL T S u i ∧ sL T S u i ≤ S) ∧
      (cdiv T S - 1) * S + sL T S u (cdiv T S - 1) = padTo T S u := by
    intro T S u i hS hu hd hi
    have e := cdiv_padTo (T := T) hS hu hd
    refine ⟨fun hi' => chopLen_full hS (by rw [e]; exact hi'), ⟨chopLen_pos hS (by rw [e]; exact hi), chopLen_le _ _ _⟩, ?_⟩
    exact chopLen_last hS (by rw [e]; omega)
  by_cases hN : 0 < cdiv N n_c
  swap
  · exact absurd (fun n m hn _ => absurd hn (by omega)) hne
  by_cases hM : 0 < cdiv M (p * m_c)
  swap
  · exact absurd (fun n m _ hm => absurd hm (by omega)) hne
  have eM := (full (u := m_r) h.S_pos h.m_r_pos h.S_dvd hM).2.2
  have eN := (full (u := n_r) h.n_c_pos h.n_r_pos h.n_dvd hN).2.2
  obtain ⟨x, hx⟩ := gap (Mb := cdiv M (p * m_c)) (Nb := cdiv N n_c) (P := p * m_c) (c := n_c)
    (H := sL M (p * m_c) m_r) (L := sL N n_c n_r) h.S_pos h.n_c_pos
    (fun m hm => (full h.S_pos h.m_r_pos h.S_dvd (by omega)).1 hm)
    (fun n hn => (full h.n_c_pos h.n_r_pos h.n_dvd (by omega)).1 hn)
    (fun m hm => (full h.S_pos h.m_r_pos h.S_dvd hm).2.1)
    (fun n hn => (full h.n_c_pos h.n_r_pos h.n_dvd hn).2.1) hne
  rw [eM, eN] at hx
  refine ⟨x, hx.imp (fun ⟨h1, h2⟩ => ⟨(packC_n_writes h ⟨.Cp, x⟩).2 ⟨rfl, h1⟩, h2⟩) fun ⟨h1, h2⟩ => ⟨?_, h2⟩⟩
  intro o ho e
  exact h1 ((packC_n_writes h ⟨.Cp, x⟩).1 ⟨o, ho, e⟩).2

/-- If packing C leaves out a cell that the schedule reads, the program never ends normally. -/
theorem packC_gap_no_ok {pre r2 r3 r4 : Prog} {pc sc : List (List (List Op))} {cSz x : Nat}
    (hpc : ∀ o ∈ phaseOps pc, o.dst ≠ ⟨.Cp, x⟩) (hsc : ∀ ts ∈ sc, ∀ t ∈ ts, ReadFirst ⟨.Cp, x⟩ t)
    (hrd : ∃ o ∈ phaseOps sc, (⟨.Cp, x⟩ : Loc) ∈ o.reads) {s0 s' : State α} :
    ¬ Exec F (pre ++ ((.memalign .Cp cSz :: phases pc) ++ phases sc ++ r2 ++ r3) ++ r4) s0 (.ok s') := by
  intro he
  have he : Exec F (pre ++ ((.memalign .Cp cSz :: phases pc) ++ (phases sc ++ (r2 ++ (r3 ++ r4))))) s0 (.ok s') := by
    simpa only [List.append_assoc] using he
  have nok : ∀ {P Q : Prog} {s t : State α}, Exec F (P ++ Q) s (.ok t) →
      ∃ u, Exec F P s (.ok u) ∧ Exec F Q u (.ok t) := by
    intro P Q s t hx
    rcases hx.append_inv with hx | ⟨_, e | e⟩
    · exact hx
    · cases e
    · cases e
  obtain ⟨s2, _, h2⟩ := nok he
  obtain ⟨s3, h3, h3'⟩ := nok h2
  obtain ⟨s4, h4, h5⟩ := nok (P := [.memalign .Cp cSz]) (Q := phases pc) h3
  obtain ⟨s5, h6, _⟩ := nok h3'
  have e4 : s4.init ⟨.Cp, x⟩ = false := by
    have := h4.single_inv
    cases this
    simp
  have hpc' : ∀ ts ∈ pc, ∀ t ∈ ts, ReadFirst ⟨.Cp, x⟩ t := fun ts hts t ht =>
    ReadFirst.of_ne fun o ho => hpc o (mem_flatten.2 ⟨_, mem_map_of_mem hts, mem_flatten.2 ⟨t, ht, ho⟩⟩)
  obtain ⟨e5, _⟩ := phases_untouched hpc' e4 h5
  obtain ⟨_, g⟩ := phases_untouched hsc e5 h6
  obtain ⟨o, ho, hr⟩ := hrd
  exact g o ho hr

theorem sgemmN_no_ok {M N K p m_c k_c n_c : Nat} {nz : α → Bool} {cx : Cntx} {alpha beta : α}
    (h : TileOK p cx.m_r cx.n_r m_c k_c n_c) (hk : cx.kfix.Fits cx.m_r cx.n_r) (hb : nz beta = true) (hK : 0 < K)
    (hne : ¬ PackCAgree M N p cx.m_r cx.n_r m_c n_c) {packedA packedB : Bool} {prog : Prog}
    (hprog : cake_sgemm nz cx ⟨if packedA then .Ap else .A, 0⟩ ⟨if packedB then .Bp else .B, 0⟩ ⟨.C, 0⟩ M N K p packedA packedB
      alpha beta m_c k_c n_c .NKM = some prog) {s s' : State α} : ¬ Exec F prog s (.ok s') := by
  obtain ⟨x, ⟨h1, h2⟩ | ⟨h1, h2⟩⟩ := packC_n_gap (K := K) h hne
  · exact sgemmN_packC_oob hb h2 h1 hprog
  · have hsch : (dimsNKM M N K p cx.m_r cx.n_r m_c k_c n_c).sch = .NKM := rfl
    simp only [cake_sgemm, init_block_dims, hsch, packedA_nkm, packedB_eq, packedC_nkm, pack_A, pack_B,
      pack_C, unpack_C, schedule, Option.bind_eq_bind, Option.bind_some, Option.some.injEq, hb, if_true,
      reduceCtorEq, if_false] at hprog
    subst hprog
    obtain ⟨g1, g2⟩ := schedN_reads h hk hK (A_p := if packedA then ⟨if packedA then .Ap else .A, 0⟩ else ⟨.Ap, 0⟩)
      (B_p := if packedB then ⟨if packedB then .Bp else .B, 0⟩ else ⟨.Bp, 0⟩)
      (by cases packedA <;> rfl) (by cases packedB <;> rfl) h2
    exact packC_gap_no_ok h1 g1 g2

/-! ### Round trip -/

theorem phases_inv {Q : Mem α → Prop} {ph : List (List (List Op))}
    (hst : ∀ o ∈ phaseOps ph, ∀ mem, Q mem → Q (o.step F mem)) {s s' : State α} (h0 : Q s.mem)
    (he : Exec F (phases ph) s (.ok s')) : Q s'.mem := by
  have run : ∀ {l : List Op} {s s' : State α}, (∀ o ∈ l, ∀ mem, Q mem → Q (o.step F mem)) → Q s.mem →
      RunOps F l s (.ok s') → Q s'.mem := by
    intro l
    induction l with
    | nil => intro s s' _ h hr; cases hr; exact h
    | cons o os ih =>
      intro s s' hst h hr
      cases hr with
      | step _ _ _ _ _ hr =>
        exact ih (fun o' ho' => hst o' (by simp [ho'])) (hst o (by simp) _ h) hr
  induction ph generalizing s with
  | nil => cases he; exact h0
  | cons ts ph ih =>
    have he : Exec F (Item.par ts :: phases ph) s (.ok s') := he
    cases he with
    | next _ _ _ s1 _ h1 h2 =>
      cases h1 with
      | par _ l _ _ hl hr =>
        refine ih (fun o ho => hst o (by rw [phaseOps_cons]; exact mem_append_right _ ho)) ?_ h2
        exact run (fun o ho => hst o (by rw [phaseOps_cons]; exact mem_append_left _ (hl.perm.mem_iff.1 ho))) h0 hr

section
variable {M N K p m_r n_r m_c k_c n_c : Nat} (h : TileOK p m_r n_r m_c k_c n_c)
include h

/-- If the offsets of some block disagree, its first element is not packed to where it is unpacked from. -/
theorem packC_n_wrong {n0 m0 : Nat} (hn0 : n0 < cdiv N n_c) (hm0 : m0 < cdiv M (p * m_c))
    (hne : n0 * (p * m_c) * sL N n_c n_r n0 ≠ n0 * n_c * sL M (p * m_c) m_r m0) (o : Op)
    (ho : o ∈ phaseOps (pack_C_n_first ⟨.C, 0⟩ ⟨.Cp, 0⟩ M N p m_r n_r (dimsNKM M N K p m_r n_r m_c k_c n_c))) :
    (∃ d, o = .zero ⟨.Cp, d⟩) ∨ ∃ d i, o = .copy ⟨.Cp, d⟩ ⟨.C, i⟩ ∧ i < M * N ∧
      (d = m0 * (p * m_c) * padTo N n_c n_r + n0 * n_c * sL M (p * m_c) m_r m0 → i ≠ m0 * (p * m_c) * N + n0 * n_c) := by
  have g := h.geoN
  obtain ⟨m, n, hm, hn, ho⟩ := (packC_n_mem (M := M) (N := N) (K := K) h o).1 ho
  rw [packObC_mem _ _ _ _ _ _ _ _ _ _ _ _ _ h.m_r_pos h.n_r_pos (mL_dvd g) (nL_dvd g)] at ho
  swap
  · intro hp
    rw [Bool.or_eq_false_iff] at hp
    exact ⟨full_in h.S_pos h.m_r_pos h.S_dvd hm hp.1, full_in h.n_c_pos h.n_r_pos h.n_dvd hn hp.2⟩
  obtain ⟨r, c, hr, hc, rfl⟩ := ho
  unfold packCOp
  split
  · exact Or.inl ⟨_, rfl⟩
  · rename_i hlt
    refine Or.inr ⟨_, _, rfl, ?_, ?_⟩
    · have := mulAdd_lt (q := m * (p * m_c) + r) (l := n * n_c + c) (n := M) (L := N) (by omega) (by omega)
      refine lt_of_eq_of_lt ?_ this
      simp only; ring
    intro hd hi
    have e1 : (m * (p * m_c) + r) * N + (n * n_c + c) = m0 * (p * m_c) * N + n0 * n_c := by
      rw [← hi]; simp only; ring
    have hN0 : n0 * n_c < N := chop_mul_lt h.n_c_pos hn0
    obtain ⟨e2, e3⟩ := mulAdd_inj (by omega) hN0 e1
    have hr' : r < p * m_c := Nat.lt_of_lt_of_le hr (chopLen_le _ _ _)
    have hc' : c < n_c := Nat.lt_of_lt_of_le hc (chopLen_le _ _ _)
    obtain ⟨rfl, rfl⟩ := mulAdd_inj hr' h.S_pos (e2.trans (Nat.add_zero _).symm)
    obtain ⟨rfl, rfl⟩ := mulAdd_inj hc' h.n_c_pos (e3.trans (Nat.add_zero _).symm)
    apply hne
    simp only [cIdx, Nat.zero_div, Nat.zero_mod, Nat.zero_mul, Nat.add_zero] at hd
    omega

theorem packCAgree_iff (hM : 0 < M) : PackCAgree M N p m_r n_r m_c n_c ↔
    N ≤ n_c ∨ (p * m_c ∣ cdiv M m_r * m_r ∧ n_c ∣ cdiv N n_r * n_r) ∨
      (cdiv M m_r * m_r ≤ p * m_c ∧ cdiv N n_r * n_r ≤ 2 * n_c ∧
        p * m_c * (cdiv N n_r * n_r - n_c) = n_c * (cdiv M m_r * m_r)) := by
  have full : ∀ {T S u : Nat}, 0 < T → 0 < S → 0 < u → u ∣ S → 0 < cdiv T S ∧
      (∀ i, i + 1 < cdiv T S → sL T S u i = S) ∧ (0 < sL T S u (cdiv T S - 1) ∧ sL T S u (cdiv T S - 1) ≤ S) ∧
      (cdiv T S - 1) * S + sL T S u (cdiv T S - 1) = cdiv T u * u := by
    intro T S u hT hS hu hd
    have e := cdiv_padTo (T := T) hS hu hd
    have hp := cdiv_pos hT hS
    refine ⟨hp, fun i hi' => chopLen_full hS (by rw [e]; exact hi'),
      ⟨chopLen_pos hS (by rw [e]; omega), chopLen_le _ _ _⟩, ?_⟩
    rw [← padTo_eq hu hd]
    exact chopLen_last hS (by rw [e]; omega)
  rcases Nat.lt_or_ge n_c N with hN | hN
  swap
  · exact ⟨fun _ => Or.inl hN, fun _ => PackCAgree.of_le hN⟩
  obtain ⟨b0, bf, ⟨bl, bu⟩, be⟩ := full (T := M) (u := m_r) hM h.S_pos h.m_r_pos h.S_dvd
  obtain ⟨a0, af, ⟨al, au⟩, ae⟩ := full (T := N) (u := n_r) (by omega) h.n_c_pos h.n_r_pos h.n_dvd
  have ha : 2 ≤ cdiv N n_c := by
    by_contra hcon
    have e1 : cdiv N n_c = 1 := by omega
    have := cdiv_mul_ge N n_c h.n_c_pos
    rw [e1] at this
    omega
  have hP := h.S_pos
  have hcp := h.n_c_pos
  unfold PackCAgree
  set P := p * m_c with hPd
  obtain ⟨a, ea⟩ : ∃ a, cdiv N n_c = a + 2 := ⟨cdiv N n_c - 2, by omega⟩
  obtain ⟨b, eb⟩ : ∃ b, cdiv M P = b + 1 := ⟨cdiv M P - 1, by omega⟩
  rw [ea] at af al au ae ⊢
  rw [eb] at bf bl bu be ⊢
  rw [show a + 2 - 1 = a + 1 by omega] at al au ae
  rw [show b + 1 - 1 = b by omega] at bl bu be
  set l := sL N n_c n_r (a + 1) with hl
  set hh := sL M P m_r b with hhd
  rw [← ae, ← be]
  constructor
  · intro hag
    right
    have key : ∀ n m, n < a + 1 → m < b + 1 → P * sL N n_c n_r (n + 1) = n_c * sL M P m_r m := by
      intro n m hn hm
      have := hag (n + 1) m (by omega) hm
      have t : (n + 1) * (P * sL N n_c n_r (n + 1)) = (n + 1) * (n_c * sL M P m_r m) := by
        rw [← Nat.mul_assoc (n + 1) P, ← Nat.mul_assoc (n + 1) n_c]; exact this
      exact Nat.eq_of_mul_eq_mul_left (Nat.succ_pos n) t
    by_cases hfull : l = n_c
    · left
      have k1 := key a b (by omega) (by omega)
      rw [← hl, hfull, ← hhd, Nat.mul_comm P] at k1
      have : P = hh := Nat.eq_of_mul_eq_mul_left hcp k1
      rw [← this, hfull]
      exact ⟨⟨b + 1, by ring⟩, ⟨a + 2, by ring⟩⟩
    · right
      have hb : b = 0 := by
        by_contra hb
        have k1 := key a 0 (by omega) (by omega)
        rw [bf 0 (by omega), ← hl, Nat.mul_comm n_c] at k1
        exact hfull (Nat.eq_of_mul_eq_mul_left hP k1)
      have k2 := key a b (by omega) (by omega)
      rw [← hl, ← hhd] at k2
      have hhne : hh < P := by
        by_contra hcon
        have : hh = P := by omega
        rw [this, Nat.mul_comm n_c] at k2
        exact hfull (Nat.eq_of_mul_eq_mul_left hP k2)
      have ha0 : a = 0 := by
        by_contra ha0
        have k1 := key 0 b (by omega) (by omega)
        rw [af (0 + 1) (by omega), ← hhd, Nat.mul_comm P] at k1
        have := Nat.eq_of_mul_eq_mul_left hcp k1
        omega
      rw [hb, ha0] at *
      refine ⟨by omega, by omega, ?_⟩
      simp only [Nat.zero_add, Nat.one_mul, Nat.zero_mul, Nat.add_sub_cancel_left]
      exact k2
  · rintro (h1 | ⟨⟨u, h1⟩, ⟨v, h2⟩⟩ | ⟨h1, h2, h3⟩)
    · omega
    · have el : l = n_c := by
        have : a + 1 < v := by
          by_contra hcon
          have := Nat.mul_le_mul_left n_c (Nat.le_of_not_lt hcon)
          have e : n_c * (a + 1) = (a + 1) * n_c := Nat.mul_comm _ _
          omega
        have := Nat.mul_le_mul_left n_c (Nat.succ_le_of_lt this)
        have e : n_c * (a + 1).succ = (a + 1) * n_c + n_c := by rw [Nat.mul_succ, Nat.mul_comm]
        omega
      have eh : hh = P := by
        have : b < u := by
          by_contra hcon
          have := Nat.mul_le_mul_left P (Nat.le_of_not_lt hcon)
          have e : P * b = b * P := Nat.mul_comm _ _
          omega
        have := Nat.mul_le_mul_left P (Nat.succ_le_of_lt this)
        have e : P * b.succ = b * P + P := by rw [Nat.mul_succ, Nat.mul_comm]
        omega
      intro n m hn hm
      have e1 : sL N n_c n_r n = n_c := by
        rcases Nat.lt_or_ge (n + 1) (a + 2) with g | g
        · exact af n g
        · rw [show n = a + 1 by omega, ← hl, el]
      have e2 : sL M P m_r m = P := by
        rcases Nat.lt_or_ge (m + 1) (b + 1) with g | g
        · exact bf m g
        · rw [show m = b by omega, ← hhd, eh]
      rw [e1, e2]; ring
    · have ha0 : a = 0 := by
        by_contra ha0
        have : 2 * n_c ≤ (a + 1) * n_c := Nat.mul_le_mul_right _ (by omega)
        omega
      have hb0 : b = 0 := by
        by_contra hb0
        have : 1 * P ≤ b * P := Nat.mul_le_mul_right _ (by omega)
        omega
      subst ha0 hb0
      have h3 : P * l = n_c * hh := by
        have e1 : (0 + 1) * n_c + l - n_c = l := by omega
        have e2 : 0 * P + hh = hh := by omega
        rw [e1, e2] at h3
        exact h3
      intro n m hn hm
      rcases Nat.eq_zero_or_pos n with rfl | hn'
      · rw [Nat.zero_mul, Nat.zero_mul, Nat.zero_mul, Nat.zero_mul]
      · rw [show n = 0 + 1 by omega, show m = 0 by omega, ← hl, ← hhd]
        rw [Nat.zero_add, Nat.one_mul, Nat.one_mul]
        exact h3

end

end Cake
