/-
Alignment of the vector loads from packed B: the online and 2-D products, and B packed by the caller.
-/
import Verif.Proofs.Align
import Verif.Proofs.UserTilesNeg
import Verif.Model.TwoD
import Verif.Model.Sparse

namespace Cake
open List

/-! ### Products that pack on the fly -/

theorem Bkernel_reads {n_r k lda : Nat} {b p : Loc} :
    ∀ o ∈ B_packing_kernel n_r k b lda p, ∀ l ∈ o.reads, l.buf = b.buf := by
  unfold B_packing_kernel pack_B_nr_x_kc
  refine loopS_forall (fun _ _ s => loopS_forall (fun _ _ s => ?_) _) _
  exact copy_reads rfl

theorem Akernel_reads {m_r k inca : Nat} {a p : Loc} :
    ∀ o ∈ A_packing_kernel m_r k a inca p, ∀ l ∈ o.reads, l.buf = a.buf := by
  unfold A_packing_kernel pack_A_mr_x_kc
  refine loopS_forall (fun _ _ s => loopS_forall (fun _ _ s => ?_) _) _
  exact copy_reads rfl

theorem mem_ite_nil {γ : Type _} {c : Prop} [Decidable c] {a b : γ} (h : a ∈ if c then [] else [b]) : a = b := by
  split at h
  · simp at h
  · exact mem_singleton.1 h

theorem mem_ite_else {γ : Type _} {c : Prop} [Decidable c] {a : γ} {l : List γ} (h : a ∈ if c then [] else l) : a ∈ l := by
  split at h
  · simp at h
  · exact h

theorem memset0_reads {l : Loc} {n : Nat} : ∀ o ∈ memset0 l n, ∀ x ∈ o.reads, False := by
  intro o ho x hx
  obtain ⟨i, _, rfl⟩ := mem_map.1 ho
  simp [Op.reads] at hx

theorem unpMem_lane {L : Nat} {b : Buf} (hb' : ∀ i, b ≠ .CpC i) {C C_p : Loc} {core : Nat} (hC : C_p.buf = .CpC core)
    {M N m1 n1 m2 m_c n_c m_r n_r k : Nat} {o : Op}
    (ho : o ∈ unpack_ob_C_single_buf C C_p M N m1 n1 m2 m_c n_c m_r n_r ++ memset0 C_p k) : LaneOK L b o := by
  apply LaneOK.of_no_read
  intro l hl
  rcases mem_append.1 ho with ho | ho
  · rw [unpack_ob_reads o ho l hl, hC]
    exact fun e => hb' core e.symm
  · exact (memset0_reads o ho l hl).elim

section
variable {kd : KDim} {A B C : Loc} {M N K p m_r n_r : Nat}

/-- The tile width is of no importance here: only one block of B is packed at a time. -/
theorem schedO_lane (hA : A.buf ≠ .Bp) (hB : B.buf ≠ .Bp) (hn : kd.L ∣ n_r) {x : BlkDims} :
    PhLane kd.L .Bp (schedule_KMN_online kd A B C M N K p m_r n_r x) := by
  unfold schedule_KMN_online
  intro ts hts task ht o ho
  simp only [mem_flatMap, mem_append, mem_singleton] at hts
  obtain ⟨n, _, m, _, hts⟩ := hts
  rcases hts with ⟨k, _, hts | rfl⟩ | rfl
  · cases mem_ite_nil hts
    obtain ⟨n2, _, rfl⟩ := mem_map.1 ht
    exact .of_no_read fun l hl => (Bkernel_reads o ho l hl).trans_ne hB
  · obtain ⟨core, _, rfl⟩ := mem_map.1 ht
    rcases mem_append.1 ho with ho | ho
    · obtain ⟨m3, _, ho⟩ := mem_flatMap.1 (mem_ite_else ho)
      exact .of_no_read fun l hl => (Akernel_reads o ho l hl).trans_ne hA
    · exact regTiles_lane (by simp) (by simp) (by simp) (by simp) hn ho
  · obtain ⟨core, _, rfl⟩ := mem_map.1 ht
    exact unpMem_lane (by simp) rfl ho

theorem sched2_lane (hA : A.buf ≠ .Bp) (hB : B.buf ≠ .Bp) (hn : kd.L ∣ n_r) {x : BlkDims2} (hc : n_r ∣ x.n_c)
    (hc1 : n_r ∣ x.n_c1) : PhLane kd.L .Bp (schedule_KMN_2d kd A B C M N K m_r n_r x) := by
  unfold schedule_KMN_2d
  intro ts hts task ht o ho
  simp only [mem_flatMap, mem_append, mem_singleton] at hts
  obtain ⟨n, _, m, _, hts⟩ := hts
  rcases hts with ⟨k, _, (hts | hts) | rfl⟩ | rfl
  · cases mem_ite_nil hts
    obtain ⟨n2, _, rfl⟩ := mem_map.1 ht
    exact .of_no_read fun l hl => (Bkernel_reads o ho l hl).trans_ne hB
  · cases mem_ite_nil hts
    obtain ⟨m3, _, rfl⟩ := mem_map.1 ht
    exact .of_no_read fun l hl => (Akernel_reads o ho l hl).trans_ne hA
  · obtain ⟨core, _, rfl⟩ := mem_map.1 ht
    refine regTiles_lane (by simp [Loc.off]) (by simp) (by simp) ?_ hn ho
    intro _
    simp only [Loc.off, Nat.zero_add]
    exact ((dvd_ite' hc1 hc).mul_left _).mul_right _
  · obtain ⟨core, _, rfl⟩ := mem_map.1 ht
    exact unpMem_lane (by simp) rfl ho

theorem schedS_lane (hA : A.buf ≠ .Bp) (hB : B.buf ≠ .Bp) (hn : kd.L ∣ n_r) {x : BlkDims2} (hc : n_r ∣ x.n_c) :
    PhLane kd.L .Bp (schedule_KMN_2d_small kd A B C M N K p m_r n_r x) := by
  unfold schedule_KMN_2d_small
  intro ts hts task ht o ho
  simp only [mem_flatMap, mem_append, mem_cons, not_mem_nil, or_false] at hts
  rcases hts with ⟨k, _, rfl | rfl | rfl⟩ | rfl
  · obtain ⟨n2, _, rfl⟩ := mem_map.1 ht
    exact .of_no_read fun l hl => (Bkernel_reads o ho l hl).trans_ne hB
  · obtain ⟨m3, _, rfl⟩ := mem_map.1 ht
    exact .of_no_read fun l hl => (Akernel_reads o ho l hl).trans_ne hA
  · obtain ⟨core, _, rfl⟩ := mem_map.1 ht
    refine regTiles_lane (by simp [Loc.off]) (by simp) (by simp) ?_ hn ho
    intro _
    simp only [Loc.off, Nat.zero_add]
    exact (hc.mul_left _).mul_right _
  · obtain ⟨core, _, rfl⟩ := mem_map.1 ht
    exact unpMem_lane (by simp) rfl ho

end

theorem dvd_roundUpC {x r : Nat} (hr : 0 < r) : r ∣ roundUpC x r := by
  unfold roundUpC
  split
  · refine ⟨x / r + 1, ?_⟩
    have := Nat.div_add_mod x r
    have := Nat.mod_lt x hr
    rw [Nat.mul_add, Nat.mul_one]
    omega
  · rename_i h
    exact Nat.dvd_of_mod_eq_zero (not_not.1 h)

theorem dvd_fit2d {padded pn n_c n_r : Nat} (hr : 0 < n_r) (h : n_r ∣ n_c) : n_r ∣ (fit2d padded pn n_c n_r).2 := by
  unfold fit2d
  split
  · exact Nat.dvd_refl _
  · split
    · dsimp only
      split
      · exact Nat.dvd_refl _
      · exact dvd_roundUpC hr
    · exact h

theorem widths2d {M N K p m_r n_r pn m_c k_c : Nat} (hr : 0 < n_r) {x : BlkDims2}
    (hx : init_block_dims_2d M N K p m_r n_r pn m_c k_c = some x) : n_r ∣ x.n_c ∧ n_r ∣ x.n_c1 := by
  unfold init_block_dims_2d at hx
  split at hx
  · cases hx
  · dsimp only [dims2d] at hx
    split at hx
    · cases hx
    · rw [Option.some.injEq] at hx
      rw [← hx]
      exact ⟨dvd_fit2d hr (dvd_roundUpC hr), Nat.dvd_mul_left _ _⟩

theorem widthSmall {M N K p m_r n_r pn kc : Nat} (hr : 0 < n_r) {x : BlkDims2}
    (hx : init_block_dims_2d_small M N K p m_r n_r pn kc = some x) : n_r ∣ x.n_c := by
  unfold init_block_dims_2d_small at hx
  split at hx
  · cases hx
  · dsimp only at hx
    split at hx
    · cases hx
    · generalize (if roundUpC M m_r / (p / pn) + (m_r - roundUpC M m_r / (p / pn) % m_r) > kc then kc else
        roundUpC M m_r / (p / pn) + (m_r - roundUpC M m_r / (p / pn) % m_r)) = q at hx
      split at hx
      · cases hx
      · rw [Option.some.injEq] at hx
        rw [← hx]
        dsimp only
        generalize roundUpC N n_r / pn = a
        refine ⟨a / n_r + 1, ?_⟩
        have := Nat.div_add_mod a n_r
        have := Nat.mod_lt a hr
        rw [Nat.mul_add, Nat.mul_one]
        omega

theorem online_lane {β : Type _} (cx : Cntx) (M N K p : Nat) (packedA packedB : Bool) (alpha beta : β) (m_c k_c n_c : Nat)
    (hn : cx.kmap.L ∣ cx.n_r) (prog : Prog)
    (hp : cake_sgemm_online cx ⟨.A, 0⟩ ⟨.B, 0⟩ ⟨.C, 0⟩ M N K p packedA packedB alpha beta m_c k_c n_c = some prog) :
    ProgLane cx.kmap.L .Bp prog := by
  simp only [cake_sgemm_online, init_block_dims, Option.bind_eq_bind, Option.bind_some, Option.some.injEq] at hp
  subst hp
  refine .append (.append (.append (.append (.append (.append ?_ ?_) ?_) ?_) ?_) ?_) ?_
  · exact .cons (by simp) (.cons (by simp) (.cons (by simp) .nil))
  · exact .map (by simp)
  · exact .cons (by simp) .nil
  · exact .map (by simp)
  · exact (schedO_lane (by simp) (by simp) hn).prog
  · intro ph h; simp at h
  · exact .cons (by simp) (.cons (by simp) .nil)

theorem body2_lane (cx : Cntx) (M N K p : Nat) {x : BlkDims2} (hn : cx.kfix.L ∣ cx.n_r) (hc : cx.n_r ∣ x.n_c)
    (hc1 : cx.n_r ∣ x.n_c1) : ProgLane cx.kfix.L .Bp (sgemm2dBody cx ⟨.A, 0⟩ ⟨.B, 0⟩ ⟨.C, 0⟩ M N K p x) := by
  unfold sgemm2dBody
  refine .append (.append (.append (.append ?_ ?_) ?_) ?_) ?_
  · exact .cons (by simp) .nil
  · exact .cons (by simp) (.cons (by simp) .nil)
  · exact .map (by simp)
  · exact (sched2_lane (by simp) (by simp) hn hc hc1).prog
  · intro ph h; simp at h

theorem small_lane {β : Type _} (cx : Cntx) (M N K p : Nat) (packedA packedB : Bool) (alpha beta : β) (pn kc : Nat)
    (hr : 0 < cx.n_r) (hn : cx.kfix.L ∣ cx.n_r) (prog : Prog)
    (hp : cake_sgemm_2d_small cx ⟨.A, 0⟩ ⟨.B, 0⟩ ⟨.C, 0⟩ M N K p packedA packedB alpha beta pn kc = some prog) :
    ProgLane cx.kfix.L .Bp prog := by
  unfold cake_sgemm_2d_small at hp
  rcases hx : init_block_dims_2d_small M N K p cx.m_r cx.n_r pn kc with _ | x
  · rw [hx] at hp; cases hp
  · rw [hx, Option.bind_eq_bind, Option.bind_some, Option.some.injEq] at hp
    subst hp
    refine .append (.append (.append (.append ?_ ?_) ?_) ?_) ?_
    · exact .cons (by simp) .nil
    · exact .cons (by simp) (.cons (by simp) .nil)
    · exact .map (by simp)
    · exact (schedS_lane (by simp) (by simp) hn (widthSmall hr hx)).prog
    · intro ph h; simp at h

/-! ### There are loads -/

theorem kernel_loads {L m nl t : Nat} {A B C : Loc} {narg k : Nat} (hL : 0 < L) (hnl : 0 < nl) (hk : 0 < k) :
    Op.copy ⟨.reg t, m * nl * L⟩ B ∈ kernel L m nl t A B C narg k := by
  unfold kernel
  refine mem_append.2 (Or.inl (mem_append.2 (Or.inr ?_)))
  rw [kernLoop_eq]
  refine mem_flatMap.2 ⟨0, mem_range.2 hk, ?_⟩
  rw [kernInner_eq]
  refine mem_append.2 (Or.inl ?_)
  unfold kernLoadB
  refine mem_flatMap.2 ⟨0, mem_range.2 hnl, mem_map.2 ⟨0, mem_range.2 hL, ?_⟩⟩
  simp [rB, Loc.off]

/-- A register tile of positive depth loads the first vector of its panel of B. -/
theorem regTiles_loads {kd : KDim} {m_r n_r t mt nt kt : Nat} {A B C : Loc} (hk : kd.Fits m_r n_r) (hn : 0 < n_r)
    (hm : 0 < mt / m_r) (hnt : 0 < nt / n_r) (hkt : 0 < kt) :
    Op.copy ⟨.reg t, kd.m * kd.nl * kd.L⟩ B ∈ regTiles kd t A B C m_r n_r mt nt kt := by
  unfold regTiles
  refine mem_flatMap.2 ⟨0, mem_range.2 hnt, mem_flatMap.2 ⟨0, mem_range.2 hm, ?_⟩⟩
  have hnl : 0 < kd.nl := by
    rcases Nat.eq_zero_or_pos kd.nl with h | h
    · have := hk.n_eq
      rw [h, Nat.zero_mul] at this
      omega
    · exact h
  have := kernel_loads (L := kd.L) (m := kd.m) (nl := kd.nl) (t := t) (A := A) (B := B) (C := C) (narg := n_r) (k := kt)
    hk.L_pos hnl hkt
  simpa [Loc.off] using this

/-- Block count. -/
theorem blocks_pos {T S : Nat} (hT : 0 < T) : 0 < T / S + (T % S != 0).toNat := by
  rcases Nat.eq_zero_or_pos (T % S) with h | h
  · rcases Nat.eq_zero_or_pos (T / S) with h' | h'
    · have := Nat.div_add_mod T S
      rw [h, h', Nat.mul_zero] at this
      omega
    · omega
  · have : (T % S != 0) = true := by simp; omega
    rw [this]; simp

/-- A block has at least one register tile. -/
theorem tiles_pos {T S r len : Nat} {b : Bool} (hr : 0 < r) (hS : 0 < S) (hd : r ∣ S)
    (h : len = if (b && T % S != 0) = true then cdiv (T % S) r * r else S) : 0 < len / r := by
  subst h
  split
  · rename_i h
    simp only [Bool.and_eq_true, bne_iff_ne, ne_eq] at h
    rw [Nat.mul_div_cancel _ hr]
    exact cdiv_pos (Nat.pos_of_ne_zero h.2) hr
  · exact Nat.div_pos (Nat.le_of_dvd hS hd) hr

/-- The first strip of a K block is not empty. -/
theorem depth_pos {T p S len : Nat} {b : Bool} (hp : 0 < p) (hS : 0 < S) {p_l : Nat}
    (h : len = if (b && T % (p * S) != 0) = true then
      (if 0 = p_l - 1 then T % (p * S) - cdiv (T % (p * S)) p * (p_l - 1) else cdiv (T % (p * S)) p) else S) : 0 < len := by
  subst h
  split
  · rename_i h
    simp only [Bool.and_eq_true, bne_iff_ne, ne_eq] at h
    split
    · rename_i h'
      rw [← h', Nat.mul_zero, Nat.sub_zero]
      exact Nat.pos_of_ne_zero h.2
    · exact cdiv_pos (Nat.pos_of_ne_zero h.2) hp
  · exact hS

/-- Some core works on a K block. -/
theorem used_pos {T p S len : Nat} {b : Bool} (hp : 0 < p)
    (h : len = if (b && T % (p * S) != 0) = true then
      (if cdiv (T % (p * S)) p ≠ 0 then cdiv (T % (p * S)) (cdiv (T % (p * S)) p) else 0) else p) : 0 < len := by
  subst h
  split
  · rename_i h
    simp only [Bool.and_eq_true, bne_iff_ne, ne_eq] at h
    have h1 := Nat.pos_of_ne_zero h.2
    have h2 := cdiv_pos h1 hp
    rw [if_pos (by omega)]
    exact cdiv_pos h1 h2
  · exact hp

/-- A load of the first lane of a vector from `b`, in the parallel loops `ph`. -/
def Loads (L : Nat) (b : Buf) (ph : List (List (List Op))) : Prop :=
  ∃ ts ∈ ph, ∃ task ∈ ts, ∃ t y x, y % L = 0 ∧ Op.copy ⟨.reg t, y⟩ ⟨b, x⟩ ∈ task

section
variable {kd : KDim} {A_p B_p C C_p : Loc} {M N K p m_r n_r m_c k_c n_c : Nat}

theorem schedK_loads (h : TileOK p m_r n_r m_c k_c n_c) (hk : kd.Fits m_r n_r) (hM : 0 < M) (hN : 0 < N) (hK : 0 < K) :
    Loads kd.L B_p.buf (schedule_KMN kd A_p B_p C M N K p m_r n_r (dimsKMN M N K p m_r n_r m_c k_c n_c)) := by
  have hS : 0 < p * m_c := Nat.mul_pos h.p_pos h.m_c_pos
  rw [schedule_KMN_blocks]
  refine ⟨_, mem_flatMap.2 ⟨0, mem_range.2 (blocks_pos hN), mem_flatMap.2 ⟨0, mem_serp.2 (blocks_pos hM), mem_cons_self ..⟩⟩, ?_⟩
  have hu : 0 < usedK (dimsKMN M N K p m_r n_r m_c k_c n_c) p 0 := by
    unfold usedK
    split
    · rename_i hl
      have h0 : M % (p * m_c) ≠ 0 := by
        simp only [mLast, dimsKMN, Bool.and_eq_true, bne_iff_ne, ne_eq] at hl
        exact hl.2
      have h1 : 0 < cdiv (M % (p * m_c)) m_r := cdiv_pos (Nat.pos_of_ne_zero h0) h.m_r_pos
      have h2 := cdiv_pos h1 h.p_pos
      simp only [dimsKMN]
      rw [if_pos (by omega)]
      exact cdiv_pos h1 h2
    · exact h.p_pos
  have hkt : ∀ b : Bool, 0 < if (b && (K % k_c != 0)) = true then K % k_c else k_c := by
    intro b
    split
    · rename_i h'
      simp only [Bool.and_eq_true, bne_iff_ne, ne_eq] at h'
      exact Nat.pos_of_ne_zero h'.2
    · exact h.k_c_pos
  have hmt : 0 < mtK (dimsKMN M N K p m_r n_r m_c k_c n_c) 0 0 / m_r := by
    unfold mtK
    split
    · rename_i hl
      have h0 : M % (p * m_c) ≠ 0 := by
        simp only [mLast, dimsKMN, Bool.and_eq_true, bne_iff_ne, ne_eq] at hl
        exact hl.2
      have h1 : 0 < cdiv (M % (p * m_c)) m_r := cdiv_pos (Nat.pos_of_ne_zero h0) h.m_r_pos
      have h2 := cdiv_pos h1 h.p_pos
      split
      · rename_i e
        simp only [dimsKMN] at e ⊢
        rw [Nat.mul_div_cancel _ h.m_r_pos]
        rw [if_pos (by omega)] at e ⊢
        have h3 := cdiv_pos h1 h2
        have h4 : cdiv (cdiv (M % (p * m_c)) m_r) (cdiv (cdiv (M % (p * m_c)) m_r) p) = 1 := by omega
        rw [h4]
        omega
      · simp only [dimsKMN]
        rw [Nat.mul_div_cancel _ h.m_r_pos]
        exact h2
    · exact Nat.div_pos (Nat.le_of_dvd h.m_c_pos h.m_dvd) h.m_r_pos
  have hnt : 0 < ntK (dimsKMN M N K p m_r n_r m_c k_c n_c) 0 / n_r :=
    tiles_pos (T := N) (S := n_c) h.n_r_pos h.n_c_pos h.n_dvd rfl
  refine ⟨_, mem_map.2 ⟨0, mem_range.2 hu, rfl⟩, 0, ?_⟩
  exact ⟨kd.m * kd.nl * kd.L, _, Nat.mul_mod_left _ _, mem_flatMap.2 ⟨0, mem_serp.2 (blocks_pos hK),
    regTiles_loads hk h.n_r_pos hmt hnt (hkt (0 == (dimsKMN M N K p m_r n_r m_c k_c n_c).Kb - 1))⟩⟩

theorem schedM_loads (h : TileOK p m_r n_r m_c k_c n_c) (hk : kd.Fits m_r n_r) (hM : 0 < M) (hN : 0 < N) (hK : 0 < K) :
    Loads kd.L B_p.buf (schedule_MKN kd A_p B_p C_p K p m_r n_r (dimsMKN M N K p m_r n_r m_c k_c n_c)) := by
  have hS : 0 < p * k_c := Nat.mul_pos h.p_pos h.k_c_pos
  unfold schedule_MKN
  refine ⟨_, mem_flatMap.2 ⟨0, mem_range.2 (blocks_pos hN), mem_map.2 ⟨0, mem_serp.2 (blocks_pos hK), rfl⟩⟩, ?_⟩
  refine ⟨_, mem_map.2 ⟨0, mem_range.2 (blocks_pos hM), rfl⟩, 0, ?_⟩
  have hu := used_pos (T := K) (S := k_c) (b := 0 == (dimsMKN M N K p m_r n_r m_c k_c n_c).Kb - 1) h.p_pos rfl
  have hkt := depth_pos (T := K) (S := k_c) (b := 0 == (dimsMKN M N K p m_r n_r m_c k_c n_c).Kb - 1)
    (p_l := (dimsMKN M N K p m_r n_r m_c k_c n_c).p_l) h.p_pos h.k_c_pos rfl
  have hmt := tiles_pos (T := M) (S := m_c) (r := m_r) (b := 0 == (dimsMKN M N K p m_r n_r m_c k_c n_c).Mb - 1)
    h.m_r_pos h.m_c_pos h.m_dvd rfl
  have hnt := tiles_pos (T := N) (S := n_c) (r := n_r) (b := 0 == (dimsMKN M N K p m_r n_r m_c k_c n_c).Nb - 1)
    h.n_r_pos h.n_c_pos h.n_dvd rfl
  exact ⟨kd.m * kd.nl * kd.L, _, Nat.mul_mod_left _ _, mem_flatMap.2 ⟨0, mem_range.2 hu,
    regTiles_loads hk h.n_r_pos hmt hnt hkt⟩⟩

theorem schedN_loads (h : TileOK p m_r n_r m_c k_c n_c) (hk : kd.Fits m_r n_r) (hM : 0 < M) (hN : 0 < N) (hK : 0 < K) :
    Loads kd.L B_p.buf (schedule_NKM kd A_p B_p C_p K p m_r n_r (dimsNKM M N K p m_r n_r m_c k_c n_c)) := by
  unfold schedule_NKM
  refine ⟨_, mem_flatMap.2 ⟨0, mem_range.2 (blocks_pos hM), mem_map.2 ⟨0, mem_serp.2 (blocks_pos hK), rfl⟩⟩, ?_⟩
  refine ⟨_, mem_map.2 ⟨0, mem_range.2 (blocks_pos hN), rfl⟩, 0, ?_⟩
  have hu := used_pos (T := K) (S := k_c) (b := 0 == (dimsNKM M N K p m_r n_r m_c k_c n_c).Kb - 1) h.p_pos rfl
  have hkt := depth_pos (T := K) (S := k_c) (b := 0 == (dimsNKM M N K p m_r n_r m_c k_c n_c).Kb - 1)
    (p_l := (dimsNKM M N K p m_r n_r m_c k_c n_c).p_l) h.p_pos h.k_c_pos rfl
  have hmt := tiles_pos (T := M) (S := p * m_c) (r := m_r) (b := 0 == (dimsNKM M N K p m_r n_r m_c k_c n_c).Mb - 1)
    h.m_r_pos (Nat.mul_pos h.p_pos h.m_c_pos) (h.m_dvd.mul_left _) rfl
  have hnt := tiles_pos (T := N) (S := n_c) (r := n_r) (b := 0 == (dimsNKM M N K p m_r n_r m_c k_c n_c).Nb - 1)
    h.n_r_pos h.n_c_pos h.n_dvd rfl
  exact ⟨kd.m * kd.nl * kd.L, _, Nat.mul_mod_left _ _, mem_flatMap.2 ⟨0, mem_range.2 hu,
    regTiles_loads hk h.n_r_pos hmt hnt hkt⟩⟩

/-- B packed by the caller is loaded from whenever the product is not empty. -/
theorem sgemm_loads {β : Type _} (nz : β → Bool) (cx : Cntx) (packedA : Bool) (alpha beta : β) (sch : Sched)
    (h : TileOK p cx.m_r cx.n_r m_c k_c n_c) (hk : cx.kmap.Fits cx.m_r cx.n_r) (hf : cx.kfix.Fits cx.m_r cx.n_r)
    (hM : 0 < M) (hN : 0 < N) (hK : 0 < K) (prog : Prog)
    (hp : cake_sgemm nz cx ⟨.A, 0⟩ ⟨.B, 0⟩ ⟨.C, 0⟩ M N K p packedA true alpha beta m_c k_c n_c sch = some prog) :
    ∃ ph, Item.par ph ∈ prog ∧ ∃ task ∈ ph, ∃ t y x, y % kernL cx sch = 0 ∧ Op.copy ⟨.reg t, y⟩ ⟨.B, x⟩ ∈ task := by
  have go : ∀ {L : Nat} {ph : List (List (List Op))}, Loads L .B ph → (∀ ts ∈ ph, Item.par ts ∈ prog) →
      ∃ ph, Item.par ph ∈ prog ∧ ∃ task ∈ ph, ∃ t y x, y % L = 0 ∧ Op.copy ⟨.reg t, y⟩ ⟨.B, x⟩ ∈ task := by
    rintro L ph ⟨ts, hts, h'⟩ hin
    exact ⟨ts, hin ts hts, h'⟩
  cases sch with
  | NA => simp [cake_sgemm, init_block_dims] at hp
  | KMN =>
    simp only [kernL, if_true]
    refine go (schedK_loads (A_p := if packedA then ⟨.A, 0⟩ else ⟨.Ap, 0⟩) (B_p := ⟨.B, 0⟩) (C := ⟨.C, 0⟩) h hk hM hN hK) ?_
    intro ts hts
    simp only [cake_sgemm, init_block_dims, packedASize, packedCSize, pack_A, pack_B, pack_C, unpack_C,
      schedule, show (dimsKMN M N K p cx.m_r cx.n_r m_c k_c n_c).sch = .KMN from rfl,
      Option.bind_eq_bind, Option.bind_some, if_true, Option.some.injEq] at hp
    rw [← hp]
    refine mem_append.2 (Or.inl (mem_append.2 (Or.inr ?_)))
    exact mem_append.2 (Or.inl (mem_append.2 (Or.inr (mem_map.2 ⟨ts, hts, rfl⟩))))
  | MKN =>
    simp only [kernL, reduceCtorEq, if_false]
    refine go (schedM_loads (A_p := if packedA then ⟨.A, 0⟩ else ⟨.Ap, 0⟩) (B_p := ⟨.B, 0⟩) (C_p := ⟨.Cp, 0⟩) h hf hM hN hK) ?_
    intro ts hts
    simp only [cake_sgemm, init_block_dims, packedASize, packedCSize, pack_A, pack_B, pack_C, unpack_C,
      schedule, show (dimsMKN M N K p cx.m_r cx.n_r m_c k_c n_c).sch = .MKN from rfl,
      Option.bind_eq_bind, Option.bind_some, if_true, reduceCtorEq, if_false, Option.some.injEq] at hp
    rw [← hp]
    refine mem_append.2 (Or.inl (mem_append.2 (Or.inr ?_)))
    exact mem_append.2 (Or.inl (mem_append.2 (Or.inl (mem_append.2 (Or.inr (mem_map.2 ⟨ts, hts, rfl⟩))))))
  | NKM =>
    simp only [kernL, reduceCtorEq, if_false]
    refine go (schedN_loads (A_p := if packedA then ⟨.A, 0⟩ else ⟨.Ap, 0⟩) (B_p := ⟨.B, 0⟩) (C_p := ⟨.Cp, 0⟩) h hf hM hN hK) ?_
    intro ts hts
    simp only [cake_sgemm, init_block_dims, packedASize, packedCSize, pack_A, pack_B, pack_C, unpack_C,
      schedule, show (dimsNKM M N K p cx.m_r cx.n_r m_c k_c n_c).sch = .NKM from rfl,
      Option.bind_eq_bind, Option.bind_some, if_true, reduceCtorEq, if_false, Option.some.injEq] at hp
    rw [← hp]
    refine mem_append.2 (Or.inl (mem_append.2 (Or.inr ?_)))
    exact mem_append.2 (Or.inl (mem_append.2 (Or.inl (mem_append.2 (Or.inr (mem_map.2 ⟨ts, hts, rfl⟩))))))

end

/-! ### Sparse kernels -/

section
variable {L m nl s t : Nat} {A B C : Loc} {b : Buf} {n : Nat} {nnz kinds locs : List Nat}

theorem spEntries_lane (hA : A.buf ≠ b) (hb : ∀ t, b ≠ .reg t) : ∀ (cnt : Nat) (st : Nat × Nat) (r : List Op × (Nat × Nat)),
    spEntries L m nl s t A locs cnt st = some r → ∀ o ∈ r.1, LaneOK L b o
  | 0, st, r, h, o, ho => by
    simp only [spEntries, Option.some.injEq] at h
    rw [← h] at ho
    simp at ho
  | cnt + 1, st, r, h, o, ho => by
    unfold spEntries at h
    obtain ⟨loc, _, h⟩ := Option.bind_eq_some_iff.1 h
    split at h
    · obtain ⟨r', h', h⟩ := Option.bind_eq_some_iff.1 h
      simp only [Option.pure_def, Option.some.injEq] at h
      rw [← h] at ho
      rcases mem_append.1 ho with ho | ho
      · apply LaneOK.of_no_read
        rcases mem_append.1 ho with ho | ho
        · obtain ⟨l, _, rfl⟩ := mem_map.1 ho
          intro l' hl
          simp only [Op.reads, mem_singleton] at hl
          subst hl; exact hA
        · simp only [mem_flatMap, mem_map, mem_range] at ho
          obtain ⟨j, _, l, _, rfl⟩ := ho
          intro l' hl
          simp only [Op.reads, mem_cons, not_mem_nil, or_false] at hl
          rcases hl with rfl | rfl | rfl <;> exact fun e => hb t e.symm
      · exact spEntries_lane hA hb cnt _ r' h' o ho
    · cases h

theorem spCol_lane (hA : A.buf ≠ b) (hb : ∀ t, b ≠ .reg t) (hBi : B.buf = b → L ∣ B.idx) (hn : L ∣ n) {kk : Nat} {st : Nat × Nat}
    {r : List Op × (Nat × Nat)} (h : spCol L m nl s t A B n nnz kinds locs kk st = some r) : ∀ o ∈ r.1, LaneOK L b o := by
  intro o ho
  unfold spCol at h
  obtain ⟨m_cnt, _, h⟩ := Option.bind_eq_some_iff.1 h
  obtain ⟨k_ind, _, h⟩ := Option.bind_eq_some_iff.1 h
  obtain ⟨r', h', h⟩ := Option.bind_eq_some_iff.1 h
  simp only [Option.pure_def, Option.some.injEq] at h
  rw [← h] at ho
  rcases mem_append.1 ho with ho | ho
  · simp only [mem_flatMap, mem_map, mem_range] at ho
    obtain ⟨j, _, l, _, rfl⟩ := ho
    intro x hx
    simp only [Op.reads, mem_singleton] at hx
    obtain ⟨B0, Bi⟩ := B
    simp only [Loc.off, Loc.mk.injEq] at hx
    obtain ⟨rfl, rfl⟩ := hx
    refine ⟨t, _, rfl, ?_⟩
    obtain ⟨u, hu⟩ := hBi rfl
    obtain ⟨v, rfl⟩ := hn
    simp only at hu
    subst hu
    have e1 : L * u + (L * v * k_ind + (j * L + l)) = l + L * (u + v * k_ind + j) := by ring
    have e2 : m * nl * L + (j * L + l) = l + L * (m * nl + j) := by ring
    rw [e1, e2, Nat.add_mul_mod_self_left, Nat.add_mul_mod_self_left]
  · exact spEntries_lane hA hb _ _ r' h' o ho

theorem spCols_lane (hA : A.buf ≠ b) (hb : ∀ t, b ≠ .reg t) (hBi : B.buf = b → L ∣ B.idx) (hn : L ∣ n) :
    ∀ (ks : List Nat) (st : Nat × Nat) (r : List Op × (Nat × Nat)),
      spCols L m nl s t A B n nnz kinds locs ks st = some r → ∀ o ∈ r.1, LaneOK L b o
  | [], st, r, h, o, ho => by
    simp only [spCols, Option.some.injEq] at h
    rw [← h] at ho
    simp at ho
  | kk :: rest, st, r, h, o, ho => by
    unfold spCols at h
    obtain ⟨c, hc, h⟩ := Option.bind_eq_some_iff.1 h
    obtain ⟨r', h', h⟩ := Option.bind_eq_some_iff.1 h
    simp only [Option.pure_def, Option.some.injEq] at h
    rw [← h] at ho
    rcases mem_append.1 ho with ho | ho
    · exact spCol_lane hA hb hBi hn hc o ho
    · exact spCols_lane hA hb hBi hn rest _ r' h' o ho

theorem spMain_lane (hA : A.buf ≠ b) (hb : ∀ t, b ≠ .reg t) (hBi : B.buf = b → L ∣ B.idx) (hn : L ∣ n) :
    ∀ (ks : List Nat) (st : Nat × Nat) (r : List Op × (Nat × Nat)),
      spMain L m nl s t A B n nnz kinds locs ks st = some r → ∀ o ∈ r.1, LaneOK L b o
  | [], st, r, h, o, ho => by
    simp only [spMain, Option.some.injEq] at h
    rw [← h] at ho
    simp at ho
  | kk :: rest, st, r, h, o, ho => by
    unfold spMain at h
    obtain ⟨m_cnt, _, h⟩ := Option.bind_eq_some_iff.1 h
    split at h
    · rw [Option.some.injEq] at h
      rw [← h] at ho
      simp at ho
    · obtain ⟨c, hc, h⟩ := Option.bind_eq_some_iff.1 h
      obtain ⟨r', h', h⟩ := Option.bind_eq_some_iff.1 h
      simp only [Option.pure_def, Option.some.injEq] at h
      rw [← h] at ho
      rcases mem_append.1 ho with ho | ho
      · exact spCols_lane hA hb hBi hn _ _ c hc o ho
      · exact spMain_lane hA hb hBi hn rest _ r' h' o ho

theorem spKernel_lane (hA : A.buf ≠ b) (hC : C.buf ≠ b) (hb : ∀ t, b ≠ .reg t) (hBi : B.buf = b → L ∣ B.idx) (hn : L ∣ n)
    {k : Nat} {ops : List Op} (h : spKernel L m nl s t A B C n k nnz kinds locs = some ops) : ∀ o ∈ ops, LaneOK L b o := by
  intro o ho
  unfold spKernel at h
  obtain ⟨main, hm, h⟩ := Option.bind_eq_some_iff.1 h
  obtain ⟨left, hl, h⟩ := Option.bind_eq_some_iff.1 h
  simp only [Option.pure_def, Option.some.injEq] at h
  rw [← h] at ho
  rcases mem_append.1 ho with ho | ho
  · rcases mem_append.1 ho with ho | ho
    · rcases mem_append.1 ho with ho | ho
      · apply LaneOK.of_no_read
        simp only [kernLoadC, mem_flatMap, mem_map, mem_range] at ho
        obtain ⟨_, _, _, _, rfl⟩ := ho
        intro l hl
        simp only [Op.reads, mem_singleton] at hl
        subst hl; exact hC
      · exact spMain_lane hA hb hBi hn _ _ main hm o ho
    · exact spCols_lane hA hb hBi hn _ _ left hl o ho
  · apply LaneOK.of_no_read
    simp only [kernStoreC, mem_flatMap, mem_map, mem_range] at ho
    obtain ⟨_, _, _, _, rfl⟩ := ho
    intro l hl
    simp only [Op.reads, mem_singleton] at hl
    subst hl; exact fun e => hb t e.symm

end

end Cake
