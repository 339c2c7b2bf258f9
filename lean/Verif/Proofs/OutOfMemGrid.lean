/-
The private blocks that the 2-D products access: those of the cores that get a part of the first block of C, and all of them.
-/
import Verif.Props.OutOfMem
import Verif.Props.TwoDSmall

namespace Cake
open List

variable {M N K p m_c k_c n_c : Nat}

/-- The number of cores of the 2-D product that take part, for the grid and the tile the call ends up with. -/
def coresUsed2 (M N m_r n_r : Nat) (g : Grid2) : Nat := coresUsed M N g.pm m_r g.m_c * coresUsed N M g.pn n_r g.n_c

theorem coresUsed_pos {M N p m_r m_c : Nat} (hM : 0 < M) (hN : 0 < N) (hp : 0 < p) (hr : 0 < m_r) : 0 < coresUsed M N p m_r m_c := by
  unfold coresUsed
  rw [if_neg (by omega)]
  split
  · exact hp
  · exact cdiv_pos (cdiv_pos hM hr) (cdiv_pos (cdiv_pos hM hr) hp)

/-- The private block of core `i` is accessed by the 2-D schedule exactly if the core takes part. -/
theorem touches_2d {m_r n_r pm pn : Nat} (h : TileOK pm m_r n_r m_c k_c n_c) (h' : TileOK pn n_r m_r n_c k_c m_c) {kd : KDim}
    {A B C : Loc} {x : BlkDims2} (hx : dims2d M N K m_r n_r pm pn m_c k_c n_c = some x) (i : Nat)
    (hA : A.buf ≠ .CpC i) (hB : B.buf ≠ .CpC i) (hC : C.buf ≠ .CpC i) :
    ProgTouches ((schedule_KMN_2d kd A B C M N K m_r n_r x).map Item.par) (.CpC i) ↔ i < coresUsed2 M N m_r n_r ⟨pm, pn, m_c, n_c⟩ := by
  have h1 := h.S_pos
  have h2 := h'.S_pos
  have h3 := h.k_c_pos
  unfold dims2d at hx
  rw [if_neg (by omega), Option.some.injEq] at hx
  have eMb : x.Mb = (dimsKMN M N K pm m_r n_r m_c k_c n_c).Mb := by rw [← hx]; rfl
  have eNb : x.Nb = (dimsKMN N M K pn n_r m_r n_c k_c m_c).Mb := by rw [← hx]; rfl
  have em : ∀ m, (if (m == x.Mb - 1 && x.m_pad) = true then x.pm_l else x.pm) = coresAt pm m (dimsKMN M N K pm m_r n_r m_c k_c n_c) := by
    intro m; rw [← hx]; rfl
  have en : ∀ n, (if (n == x.Nb - 1 && x.n_pad) = true then x.pn_l else x.pn) = coresAt pn n (dimsKMN N M K pn n_r m_r n_c k_c m_c) := by
    intro n; rw [← hx]; rfl
  have ez : x.m_c * x.n_c = m_c * n_c := by rw [← hx]
  clear hx
  rw [progTouches_phases]
  constructor
  · rintro ⟨ts, h1, t, h2, o, h3, h4⟩
    obtain ⟨n, hn, h1⟩ := mem_flatMap.1 h1
    obtain ⟨m, hm, h1⟩ := mem_flatMap.1 h1
    rw [mem_serp, eMb] at hm
    rw [mem_range, eNb] at hn
    have hN : 0 < N := by
      rcases Nat.eq_zero_or_pos N with rfl | h0
      · simp [dimsKMN] at hn
      · exact h0
    have hM : 0 < M := by
      rcases Nat.eq_zero_or_pos M with rfl | h0
      · simp [dimsKMN] at hm
      · exact h0
    refine lt_of_lt_of_le ?_ (Nat.mul_le_mul (coresAt_le (K := K) h hN hm) (coresAt_le (K := K) h' hM hn))
    rw [← em, ← en]
    have key : ∀ core, ∀ l : List Op, (core ≠ i → All (FOp (· ≠ .CpC i) (· ≠ .CpC i)) l) → o ∈ l → core = i := by
      intro core l hl ho
      by_contra hne
      exact (hl hne o ho).not_touches h4
    have off : ∀ core, core ≠ i → Buf.CpC core ≠ Buf.CpC i := fun core hne e => hne (by simpa using e)
    have hf : ∀ l, ts ∈ l → All (All (All (FOp (· ≠ .CpC i) (· ≠ .CpC i)))) l → False :=
      fun l hl ha => (ha ts hl t h2 o h3).not_touches h4
    rcases mem_append.1 h1 with h1 | h1
    · obtain ⟨k, hk, h1⟩ := mem_flatMap.1 h1
      rcases mem_append.1 h1 with h1 | h1
      · exfalso
        rcases mem_append.1 h1 with h1 | h1
        · refine hf _ h1 (.ite .nil ?_)
          unfold B_packing_kernel
          foot
          exact nofun
        · refine hf _ h1 (.ite .nil ?_)
          unfold A_packing_kernel
          foot
          exact nofun
      · rw [mem_singleton] at h1
        subst h1
        obtain ⟨core, hc, rfl⟩ := mem_map.1 h2
        have e : core = i := by
          refine key core _ (fun hne => ?_) h3
          exact regTiles_foot (Wr := (· ≠ .CpC i)) (Rd := (· ≠ .CpC i)) (nofun) (nofun) (nofun) (nofun) (off core hne) (off core hne)
        subst e
        exact mem_range.1 hc
    · rw [mem_singleton] at h1
      subst h1
      obtain ⟨core, hc, rfl⟩ := mem_map.1 h2
      have e : core = i := by
        refine key core _ (fun hne => ?_) h3
        exact .append (unpackC_ob_foot (Wr := (· ≠ .CpC i)) (Rd := (· ≠ .CpC i)) hC (off core hne))
          (memset_foot (Wr := (· ≠ .CpC i)) (off core hne))
      subst e
      exact mem_range.1 hc
  · intro hi
    have hMN : 0 < M ∧ 0 < N := by
      unfold coresUsed2 coresUsed at hi
      by_contra hc
      rw [if_pos (by omega)] at hi
      omega
    obtain ⟨h0, e⟩ := coresAt_first (K := K) h hMN.1 hMN.2
    obtain ⟨h0', e'⟩ := coresAt_first (K := K) h' hMN.2 hMN.1
    refine Ex.flatMap (mem_range.2 (eNb ▸ h0')) (Ex.flatMap (mem_serp.2 (eMb ▸ h0)) (.right ⟨_, mem_singleton.2 rfl, ?_⟩))
    exact Ex.map (mem_range.2 (by rw [em, en, e, e']; exact hi)) (.right (memset_ex (by rw [ez]; exact Nat.mul_pos h.m_c_pos h.n_c_pos)))

/-- The small 2-D schedule clears the private blocks of all `p` threads, also of those that compute nothing. -/
theorem touches_small {kd : KDim} {A B C : Loc} {x : BlkDims2} {m_r n_r : Nat} (hc : 0 < x.m_c * x.n_c) {i : Nat} (hi : i < p) :
    ProgTouches ((schedule_KMN_2d_small kd A B C M N K p m_r n_r x).map Item.par) (.CpC i) := by
  rw [progTouches_phases]
  refine Ex.right ⟨_, mem_singleton.2 rfl, ?_⟩
  exact Ex.map (mem_range.2 hi) (.right (memset_ex hc))

/-- ... and accesses no other private block. -/
theorem touches_small_lt {kd : KDim} {A B C : Loc} {x : BlkDims2} {m_r n_r i : Nat} (hA : A.buf ≠ .CpC i) (hB : B.buf ≠ .CpC i)
    (hC : C.buf ≠ .CpC i) (ht : ProgTouches ((schedule_KMN_2d_small kd A B C M N K p m_r n_r x).map Item.par) (.CpC i)) : i < p := by
  rw [progTouches_phases] at ht
  obtain ⟨ts, h1, t, h2, o, h3, h4⟩ := ht
  have key : ∀ core, ∀ l : List Op, (core ≠ i → All (FOp (· ≠ .CpC i) (· ≠ .CpC i)) l) → o ∈ l → core = i := by
    intro core l hl ho
    by_contra hne
    exact (hl hne o ho).not_touches h4
  have off : ∀ core, core ≠ i → Buf.CpC core ≠ Buf.CpC i := fun core hne e => hne (by simpa using e)
  have hf : ∀ l, t ∈ l → All (All (FOp (· ≠ .CpC i) (· ≠ .CpC i))) l → False :=
    fun l hl ha => (ha t hl o h3).not_touches h4
  rcases mem_append.1 h1 with h1 | h1
  · obtain ⟨k, hk, h1⟩ := mem_flatMap.1 h1
    simp only [mem_cons, not_mem_nil, or_false] at h1
    rcases h1 with rfl | rfl | rfl
    · exfalso
      refine hf _ h2 ?_
      unfold B_packing_kernel
      foot
      exact nofun
    · exfalso
      refine hf _ h2 ?_
      unfold A_packing_kernel
      foot
      exact nofun
    · obtain ⟨core, hc, rfl⟩ := mem_map.1 h2
      have e : core = i := by
        refine key core _ (fun hne => ?_) h3
        exact regTiles_foot (Wr := (· ≠ .CpC i)) (Rd := (· ≠ .CpC i)) (nofun) (nofun) (nofun) (nofun) (off core hne) (off core hne)
      subst e
      exact mem_range.1 hc
  · rw [mem_singleton] at h1
    subst h1
    obtain ⟨core, hc, rfl⟩ := mem_map.1 h2
    have e : core = i := by
      refine key core _ (fun hne => ?_) h3
      exact .append (unpackC_ob_foot (Wr := (· ≠ .CpC i)) (Rd := (· ≠ .CpC i)) hC (off core hne))
        (memset_foot (Wr := (· ≠ .CpC i)) (off core hne))
    subst e
    exact mem_range.1 hc

/-- If the system refuses one needed block and nothing else, the behaviour is undefined. -/
theorem Refusal.refused {α : Type _} {F : Arith α} {prog : Prog} {s : State α} {needed : Buf → Prop} {Q : State α → Prop}
    (h : Refusal F prog s needed Q) {b : Buf} {n : Nat} (hb : needed b) (hm : Item.calloc b n ∈ prog) :
    ∃ fl, FExec F prog noNull s fl .ub ∧ ∀ b' ∈ fl, b' = b := by
  obtain ⟨fl, out, h1, -, h3, h4⟩ := FExec.exists (F := F) (fun b' => decide (b' = b)) prog noNull s
  refine ⟨fl, ?_, fun b' hb' => by simpa using h3 b' hb'⟩
  rcases h4 with rfl | h4
  · exact h1
  · have : out = .ub := (h fl out h1).1.2 ⟨b, h4 _ hm _ rfl (by simp), hb⟩
    exact this ▸ h1

end Cake
