/-
K-first with a kernel wider than the register tile: it reads beyond the packed B.
-/
import Verif.Proofs.OnlineNeeds
import Verif.Proofs.SgemmK

namespace Cake
open List

variable {α : Type _} {F : Arith α}

/-- A kernel reads `n_r` columns from the start of the last row of its B panel, if it is wider than that. -/
theorem kernel_reads_wide {L m nl t : Nat} (A B C : Loc) {n_r k : Nat} (hk : 0 < k) (hw : n_r < nl * L) :
    ∃ o ∈ kernel L m nl t A B C n_r k, B +ₚ (k * n_r) ∈ o.reads := by
  have hL : 0 < L := Nat.pos_of_ne_zero fun e => by rw [e] at hw; omega
  refine ⟨Op.copy (rB L m nl t (n_r / L) (n_r % L)) (B +ₚ ((k - 1) * n_r + (n_r / L * L + n_r % L))), ?_, ?_⟩
  · unfold kernel
    rw [mem_append, mem_append, kernLoop_eq]
    refine .inl (.inr (mem_flatMap.2 ⟨k - 1, mem_range.2 (by omega), ?_⟩))
    unfold kernInner
    refine mem_append.2 (.inl (mem_flatMap.2 ⟨n_r / L, mem_range.2 ?_, mem_map.2 ⟨n_r % L, mem_range.2 (Nat.mod_lt _ hL), rfl⟩⟩))
    exact (Nat.div_lt_iff_lt_mul hL).2 hw
  · obtain ⟨j, rfl⟩ : ∃ j, k = j + 1 := ⟨k - 1, by omega⟩
    have e : j * n_r + (n_r / L * L + n_r % L) = (j + 1) * n_r := by
      rw [Nat.mul_comm (n_r / L), Nat.div_add_mod, Nat.add_mul, Nat.one_mul]
    simp only [Op.reads, Nat.add_sub_cancel, e, mem_singleton]

section
variable {M N K p m_r n_r m_c k_c n_c : Nat} (h : TileOK p m_r n_r m_c k_c n_c)
include h

/-- The schedule reads the element after the packed B. -/
theorem schedK_reads_wide {kd : KDim} (hw : n_r < kd.nl * kd.L) (hM : 0 < M) (hN : 0 < N) (hK : 0 < K) (A_p B_p C : Loc) (Z : Nat) :
    ∃ ts ∈ schedKZ kd A_p B_p C M N K p m_r n_r m_c k_c n_c Z, ∃ t ∈ ts, ∃ o ∈ t,
      B_p +ₚ (padTo N n_c n_r * K) ∈ o.reads := by
  obtain ⟨m, core, r, hm, hcore, hr, -⟩ := rowOf_cover h hM
  have hNp : 0 < padTo N n_c n_r := Nat.lt_of_lt_of_le hN (padTo_ge _ _ _ h.n_r_pos)
  obtain ⟨n, c, hn, hc, ec⟩ := colOf_cover_pad h (show padTo N n_c n_r - 1 < padTo N n_c n_r by omega)
  obtain ⟨hk1, hk2, hk3⟩ := chop_cover h.k_c_pos (show K - 1 < K by omega)
  set k := (K - 1) / k_c with hkdef
  have eK : k * k_c + chopLen K k_c k = K := by unfold chopLen at hk2 ⊢; omega
  have eN : n * n_c + nLen N n_r n_c n = padTo N n_c n_r := by unfold nLen chopLen at hc ⊢; omega
  obtain ⟨v, hv⟩ := mT_dvd (core := core) h hm
  obtain ⟨u, hu⟩ := nLen_dvd (N := N) (n := n) h
  have hv0 : 0 < v := Nat.pos_of_ne_zero fun e => by rw [hv, e] at hr; omega
  have hu0 : 0 < u := Nat.pos_of_ne_zero fun e => by rw [hu, e] at hc; omega
  have hkc : 0 < chopLen K k_c k := by omega
  obtain ⟨o, ho, hor⟩ := kernel_reads_wide (m := kd.m) (t := core)
    (A_p +ₚ aInd M K p m_r m_c k_c m k core +ₚ (0 * m_r * chopLen K k_c k))
    (B_p +ₚ bInd N K n_r k_c n_c n k +ₚ ((u - 1) * chopLen K k_c k * n_r))
    ((⟨.CpC core, 0⟩ : Loc) +ₚ ((u - 1) * mT M p m_r m_c m core * n_r + 0 * m_r * n_r)) hkc hw
  refine ⟨(range (mU M p m_r m_c m)).map fun core => computeTask kd A_p B_p M N K p m_r n_r m_c k_c n_c n m core, ?_,
    _, mem_map.2 ⟨core, mem_range.2 hcore, rfl⟩, o, ?_, ?_⟩
  · unfold schedKZ
    exact mem_flatMap.2 ⟨n, mem_range.2 hn, mem_flatMap.2 ⟨m, mem_serp.2 hm, by simp⟩⟩
  · unfold computeTask regTiles
    refine mem_flatMap.2 ⟨k, mem_serp.2 hk1, mem_flatMap.2 ⟨u - 1, mem_range.2 ?_, mem_flatMap.2 ⟨0, mem_range.2 ?_, ho⟩⟩⟩
    · rw [hu, Nat.mul_div_cancel_left _ h.n_r_pos]; omega
    · rw [hv, Nat.mul_div_cancel_left _ h.m_r_pos]; omega
  · have e : B_p +ₚ bInd N K n_r k_c n_c n k +ₚ ((u - 1) * chopLen K k_c k * n_r) +ₚ (chopLen K k_c k * n_r) =
        B_p +ₚ (padTo N n_c n_r * K) := by
      simp only [Loc.off, Loc.mk.injEq, true_and]
      unfold bInd
      have hu' : chopLen (padTo N n_c n_r) n_c n = n_r * u := hu
      obtain ⟨w, rfl⟩ : ∃ w, u = w + 1 := ⟨u - 1, by omega⟩
      rw [hu', ← eN, hu, Nat.add_sub_cancel]
      have : (n * n_c + n_r * (w + 1)) * K = n * n_c * K + n_r * (w + 1) * (k * k_c + chopLen K k_c k) := by rw [eK]; ring
      rw [this]
      ring
    rw [← e]
    exact hor

/-- With such a kernel no K-first product of non-empty matrices that packs B itself ends normally. -/
theorem sgemmK_wide_no_ok {nz : α → Bool} {cx : Cntx} (hmr : cx.m_r = m_r) (hnr : cx.n_r = n_r)
    (hw : n_r < cx.kmap.nl * cx.kmap.L) (hM : 0 < M) (hN : 0 < N) (hK : 0 < K) {A B C : Loc} {packedA : Bool} {alpha beta : α}
    {prog : Prog} (hprog : cake_sgemm nz cx A B C M N K p packedA false alpha beta m_c k_c n_c .KMN = some prog)
    (s s' : State α) : ¬ Exec F prog s (.ok s') := by
  intro he
  subst hmr hnr
  have hsch : (dimsKMN M N K p cx.m_r cx.n_r m_c k_c n_c).sch = .KMN := rfl
  simp only [cake_sgemm, init_block_dims, Option.bind_eq_bind, Option.bind_some] at hprog
  simp only [hsch, packedASize, packedCSize, pack_A, pack_B, pack_C, unpack_C, schedule, Option.bind_some, if_true,
    Bool.false_eq_true, if_false, Option.some.injEq] at hprog
  rw [schedK_phases h] at hprog
  set D : Prog := [.malloc .Blk 1, .malloc .Dims 1, .free .Dims]
  set PA : Prog := if packedA then [] else _ with hPA
  set PB := phases (pack_B_k_first B ⟨.Bp, 0⟩ K N cx.n_r (dimsKMN M N K p cx.m_r cx.n_r m_c k_c n_c))
  set cs := (range p).map (fun i => Item.calloc (.CpC i) (m_c * n_c))
  set sc := schedKZ cx.kmap (if packedA then A else ⟨.Ap, 0⟩) ⟨.Bp, 0⟩ C M N K p cx.m_r cx.n_r m_c k_c n_c (m_c * n_c) with hsc
  obtain ⟨rest, erest⟩ : ∃ rest, prog = (D ++ PA) ++ (.memalign .Bp (packedBSize K N cx.n_r n_c) :: ((PB ++ cs ++ phases sc) ++ rest)) :=
    ⟨_, by rw [← hprog]; simp only [append_assoc, cons_append]; rfl⟩
  rw [erest] at he
  have ok : ∀ {P Q : Prog} {s t : State α}, Exec F (P ++ Q) s (.ok t) → ∃ u, Exec F P s (.ok u) ∧ Exec F Q u (.ok t) := by
    intro P Q s t he
    rcases he.append_inv with h | ⟨-, e | e⟩
    · exact h
    · cases e
    · cases e
  obtain ⟨s1, -, he⟩ := ok he
  cases he with
  | next _ _ _ s2 _ h1 he =>
    have hsz : s2.size .Bp = some (packedBSize K N cx.n_r n_c) := by
      rw [h1.size]; simp [sizeAfter]
    obtain ⟨s3, he, -⟩ := ok he
    obtain ⟨ts, hts, t, ht, o, ho, hr⟩ := schedK_reads_wide h hw hM hN hK (if packedA then A else ⟨.Ap, 0⟩) ⟨.Bp, 0⟩ C (m_c * n_c)
    rw [← hsc] at hts
    have := ok_inB (b := .Bp) (by simp) (by
      intro i hi
      simp only [mem_append] at hi
      rcases hi with (hi | hi) | hi
      · obtain ⟨_, _, rfl⟩ := mem_map.1 hi; trivial
      · obtain ⟨_, _, rfl⟩ := mem_map.1 hi; simp [Item.Fixes]
      · obtain ⟨_, _, rfl⟩ := mem_map.1 hi; trivial) he (ts := ts)
      (mem_append.2 (.inr (mem_map.2 ⟨ts, hts, rfl⟩))) ht ho hr rfl
    obtain ⟨n, hn, hlt⟩ := this
    have hbS : packedBSize K N cx.n_r n_c = padTo N n_c cx.n_r * K := by
      unfold packedBSize
      rw [sub_mod_eq]
      unfold padTo
      ring
    simp only [Loc.off] at hn hlt
    rw [hsz] at hn
    cases hn
    omega

end
end Cake
