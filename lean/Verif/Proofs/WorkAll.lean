/-
Multiply-adds of the complete programs: in total, and per iteration of the parallel loops.
-/
import Verif.Proofs.Work
import Verif.Proofs.IntRangeOn
import Verif.Proofs.TwoDSmallNeeds

namespace Cake
open List

/-! ### Sizes -/

theorem chopLen_end {T s i : Nat} (hs : 0 < s) (hi : cdiv T s ≤ i) : chopLen T s i = 0 := by
  have h1 := cdiv_mul_ge T s hs
  have h2 := Nat.mul_le_mul_right s hi
  unfold chopLen
  omega

/-- Pieces of pieces add up. -/
theorem sum_sL {T S u : Nat} (hS : 0 < S) (hu : 0 < u) (hd : u ∣ S) :
    ((range (cdiv T S)).map (chopLen (padTo T S u) S)).sum = cdiv T u * u := by
  rw [← cdiv_padTo hS hu hd, sum_chop hS, padTo_eq hu hd]

section side
variable {T q r n_r t k_c n_c : Nat} (h : TileOK q r n_r t k_c n_c)
include h

theorem sum_mT {m : Nat} (hm : m < cdiv T (q * t)) : ((range (mU T q r t m)).map (mT T q r t m)).sum = mLen T q r t m :=
  sum_chop (m_strips (N := 0) (K := 0) h hm).1

/-- All strips of one side. -/
theorem sum_side : ((range (cdiv T (q * t))).map fun m => ((range (mU T q r t m)).map (mT T q r t m)).sum).sum = cdiv T r * r := by
  rw [sum_congr (g := mLen T q r t) fun m hm => sum_mT h (mem_range.1 hm)]
  exact sum_sL h.S_pos h.m_r_pos h.S_dvd

theorem mT_zero {m i : Nat} (hm : m < cdiv T (q * t)) (hi : mU T q r t m ≤ i) : mT T q r t m i = 0 :=
  chopLen_end (m_strips (N := 0) (K := 0) h hm).1 hi

omit h in
theorem mT_first {m i : Nat} : mT T q r t m i ≤ mT T q r t m 0 := chopLen_le_first

/-- The strips of the first core. -/
theorem sum_first : ((range (cdiv T (q * t))).map fun m => mT T q r t m 0).sum = cdiv (cdiv T r) q * r := by
  have hS := h.S_pos
  have full : ∀ m, m < T / (q * t) → mT T q r t m 0 = t := by
    intro m hm
    have hm' : m < cdiv T (q * t) := by
      have := cdiv_eq_div_add T (q * t) hS; omega
    have hl : (m == cdiv T (q * t) - 1 && T % (q * t) != 0) = false := by
      have := cdiv_eq_div_add T (q * t) hS
      cases hb : (T % (q * t) != 0) with
      | false => rw [Bool.and_false]
      | true => rw [hb] at this; simp only [Bool.toNat_true] at this; simp; omega
    unfold mT
    rw [← m_len h hm']
    unfold mX
    rw [hl]
    simp only [Bool.false_eq_true, if_false]
    unfold chopLen
    rw [Nat.zero_mul, Nat.sub_zero]
    exact Nat.min_eq_left (Nat.le_mul_of_pos_left t h.p_pos)
  have hT := Nat.div_add_mod T (q * t)
  obtain ⟨c, hc⟩ := h.m_dvd
  have key : cdiv (cdiv T r) q * r = T / (q * t) * t + cdiv (cdiv (T % (q * t)) r) q * r := by
    have e1 : cdiv T r = T / (q * t) * c * q + cdiv (T % (q * t)) r := by
      have p1 := cdiv_mul_ge (T % (q * t)) r h.m_r_pos
      have p2 := cdiv_mul_lt (T % (q * t)) r h.m_r_pos
      have e : (T / (q * t) * c * q + cdiv (T % (q * t)) r) * r = q * t * (T / (q * t)) + cdiv (T % (q * t)) r * r := by
        rw [Nat.add_mul]; congr 1; generalize T / (q * t) = y; rw [hc]; ring
      apply cdiv_eq_of <;> rw [e] <;> omega
    have e2 : cdiv (cdiv T r) q = T / (q * t) * c + cdiv (cdiv (T % (q * t)) r) q := by
      rw [e1]
      have p1 := cdiv_mul_ge (cdiv (T % (q * t)) r) q h.p_pos
      have p2 := cdiv_mul_lt (cdiv (T % (q * t)) r) q h.p_pos
      apply cdiv_eq_of <;> rw [Nat.add_mul] <;> omega
    rw [e2, Nat.add_mul]
    congr 1
    generalize T / (q * t) = y
    rw [hc]; ring
  rw [key]
  have hb := cdiv_eq_div_add T (q * t) hS
  have sumf : ((range (T / (q * t))).map fun m => mT T q r t m 0).sum = T / (q * t) * t := by
    rw [sum_congr (g := fun _ => t) fun m hm => full m (mem_range.1 hm)]
    simp
  by_cases h0 : T % (q * t) = 0
  · rw [h0] at hb
    simp only [bne_self_eq_false, Bool.toNat_false, Nat.add_zero] at hb
    rw [← hb, sumf, h0, show cdiv 0 r = 0 from by
      unfold cdiv; exact Nat.div_eq_of_lt (by have := h.m_r_pos; omega), show cdiv 0 q = 0 from by
      unfold cdiv; exact Nat.div_eq_of_lt (by have := h.p_pos; omega), Nat.zero_mul, Nat.add_zero]
  · have hne : (T % (q * t) != 0) = true := by simpa using h0
    rw [hne] at hb
    simp only [Bool.toNat_true] at hb
    rw [← hb, range_succ, map_append, sum_append_nat, sumf, map_singleton, sum_singleton]
    congr 1
    have hl : (T / (q * t) == cdiv T (q * t) - 1 && T % (q * t) != 0) = true := by
      rw [← hb, hne]; simp
    unfold mT
    rw [← m_len h (show T / (q * t) < cdiv T (q * t) by omega)]
    unfold mX
    rw [if_pos hl, if_pos hl]
    unfold chopLen
    rw [Nat.zero_mul, Nat.sub_zero]
    apply Nat.min_eq_left
    rw [Nat.mul_comm r]
    apply Nat.mul_le_mul_right
    exact cdiv_le_of_le_mul h.p_pos (Nat.le_mul_of_pos_right _ h.p_pos)

/-- Strips of core `i` over all blocks. -/
theorem sum_core (i : Nat) : ((range (cdiv T (q * t))).map fun m => mT T q r t m i).sum ≤ cdiv (cdiv T r) q * r := by
  rw [← sum_first h]
  exact sum_le fun _ _ => mT_first

theorem sum_beyond {i : Nat} (hi : q ≤ i) : ((range (cdiv T (q * t))).map fun m => mT T q r t m i).sum = 0 :=
  sum_zero fun _ hm => mT_zero h (mem_range.1 hm) (Nat.le_trans (mU_le h (mem_range.1 hm)) hi)

end side

/-! ### Items without multiply-adds -/

theorem noFma_gstrips {dst : Buf} {src : Loc} {d n k : Nat} {f : Nat → Nat → Nat} : All NoFma (gstrips dst src d n k f) := by
  unfold gstrips; plainops

theorem All.flatten {β : Type _} {P : β → Prop} {ll : List (List β)} (h : All (All P) ll) : All P ll.flatten := by
  intro x hx
  obtain ⟨l, hl, hx⟩ := mem_flatten.1 hx
  exact h l hl x hx

theorem noFma_memset {d : Loc} {n : Nat} : NoFma (memset0 d n) := by unfold memset0; plainops

theorem noFma_unpackSingle {C C_p : Loc} {M N m1 n1 m2 m_c n_c m_r n_r : Nat} :
    NoFma (unpack_ob_C_single_buf C C_p M N m1 n1 m2 m_c n_c m_r n_r) := by
  unfold unpack_ob_C_single_buf; plainops

theorem noFma_gUnpack {g : Geo} {unp : Nat → List Op} {m_c n_c : Nat} (h : ∀ i, NoFma (unp i)) :
    All NoFma (gUnpack g unp m_c n_c) := by
  unfold gUnpack
  exact .map fun i => .append (h i) noFma_memset

/-! ### K-first -/

section
variable {M N K p m_r n_r m_c k_c n_c : Nat} (h : TileOK p m_r n_r m_c k_c n_c) {kd : KDim} (hk : kd.Fits m_r n_r)
include h hk

theorem compute_work (A_p B_p : Loc) {n m core : Nat} (hm : m < cdiv M (p * m_c)) :
    mulAdds (computeTask kd A_p B_p M N K p m_r n_r m_c k_c n_c n m core) = mT M p m_r m_c m core * nLen N n_r n_c n * K := by
  unfold computeTask
  rw [mulAdds_flatMap, sum_serp, sum_congr (g := fun k => mT M p m_r m_c m core * nLen N n_r n_c n * chopLen K k_c k)
    fun k _ => mulAdds_tiles hk _ _ _ _ _ (mT_dvd h hm) (nLen_dvd h), sum_mull, sum_chop h.k_c_pos]

omit h hk in
theorem phases_flatMap {β : Type _} (l : List β) (f : β → List (List (List Op))) :
    phases (l.flatMap f) = l.flatMap fun x => phases (f x) := by
  unfold phases; rw [map_flatMap]

omit h hk in
theorem phases_two (a b : List (List Op)) : phases [a, b] = [.par a] ++ [.par b] := rfl

omit hk in
theorem schedK_count {μ : Prog → Nat} (hμ : Counts μ) {W : Nat → Nat → Nat} (A_p B_p C : Loc)
    (hW : ∀ n m, m < cdiv M (p * m_c) → μ [.par ((range (mU M p m_r m_c m)).map fun core =>
      computeTask kd A_p B_p M N K p m_r n_r m_c k_c n_c n m core)] = W m n) :
    μ (phases (schedule_KMN kd A_p B_p C M N K p m_r n_r (dimsKMN M N K p m_r n_r m_c k_c n_c))) =
      ((range (cdiv N n_c)).map fun n => ((range (cdiv M (p * m_c))).map fun m => W m n).sum).sum := by
  rw [schedK_phases h]
  unfold schedKZ
  rw [phases_flatMap, hμ.flatMap]
  apply sum_congr
  intro n _
  rw [phases_flatMap, hμ.flatMap, sum_serp]
  apply sum_congr
  intro m hm
  rw [phases_two, hμ.append, hW n m (mem_range.1 hm), hμ.plain _ ?_, Nat.add_zero]
  exact .map fun core => .append noFma_unpackSingle noFma_memset

omit h hk in
theorem sum_prod (Nb Mb : Nat) (f g : Nat → Nat) (K : Nat) :
    ((range Nb).map fun n => ((range Mb).map fun m => f m * g n * K).sum).sum =
      ((range Mb).map f).sum * ((range Nb).map g).sum * K := by
  rw [sum_congr (g := fun n => ((range Mb).map f).sum * g n * K) fun n _ => by rw [sum_mulr, sum_mulr], sum_mulr, sum_mull]

theorem schedK_work (A_p B_p C : Loc) :
    work (phases (schedule_KMN kd A_p B_p C M N K p m_r n_r (dimsKMN M N K p m_r n_r m_c k_c n_c))) =
      cdiv M m_r * m_r * (cdiv N n_r * n_r) * K := by
  rw [schedK_count h work_counts (W := fun m n =>
    ((range (mU M p m_r m_c m)).map (mT M p m_r m_c m)).sum * nLen N n_r n_c n * K) A_p B_p C, sum_prod, sum_side h]
  · congr 2
    exact sum_sL h.n_c_pos h.n_r_pos h.n_dvd
  · intro n m hm
    rw [work_par, map_map, ← sum_mulr, ← sum_mulr]
    exact sum_congr fun core _ => compute_work h hk A_p B_p hm

theorem schedK_core (A_p B_p C : Loc) (i : Nat) :
    coreWork i (phases (schedule_KMN kd A_p B_p C M N K p m_r n_r (dimsKMN M N K p m_r n_r m_c k_c n_c))) =
      ((range (cdiv M (p * m_c))).map fun m => mT M p m_r m_c m i).sum * (cdiv N n_r * n_r) * K := by
  rw [schedK_count h (coreWork_counts i) (W := fun m n => mT M p m_r m_c m i * nLen N n_r n_c n * K) A_p B_p C,
    sum_prod (f := fun m => mT M p m_r m_c m i)]
  · congr 2
    exact sum_sL h.n_c_pos h.n_r_pos h.n_dvd
  · intro n m hm
    rw [coreWork_par, getD_mapRange]
    split
    · exact compute_work h hk A_p B_p hm
    · rename_i hi
      rw [mT_zero h hm (by omega), mulAdds_nil, Nat.zero_mul, Nat.zero_mul]

/-! ### Online -/

omit h hk in
theorem noFma_onPre {m k : Nat} {rA : Bool} {i : Nat} : NoFma (onPre M K p m_r m_c k_c m k rA i) := by
  unfold onPre
  exact .ite .nil (.flatten noFma_gstrips)

omit h hk in
theorem onStep_count {μ : Prog → Nat} (hμ : Counts μ) {n m k : Nat} {rA rB : Bool} :
    μ (onStep kd M N K p m_r n_r m_c k_c n_c n m k rA rB) =
      μ [.par (gTasks (geoK M N p m_r n_r m_c n_c n m) kd (onPre M K p m_r m_c k_c m k rA)
    (fun i => ⟨.ApC i, 0⟩) (fun _ => ⟨.Bp, 0⟩) m_r n_r (chopLen K k_c k))] := by
  unfold onStep
  rw [hμ.append]
  split
  · rw [hμ.nil, Nat.zero_add]
  · rw [hμ.plain _ noFma_gstrips, Nat.zero_add]

omit h hk in
theorem sum_prod2 (Nb Mb : Nat) (f g : Nat → Nat) :
    ((range Nb).map fun n => ((range Mb).map fun m => f m * g n).sum).sum = ((range Mb).map f).sum * ((range Nb).map g).sum := by
  rw [sum_congr (g := fun n => ((range Mb).map f).sum * g n) fun n _ => by rw [sum_mulr], sum_mull]

theorem schedO_work :
    work (phases (schedule_KMN_online kd ⟨.A, 0⟩ ⟨.B, 0⟩ ⟨.C, 0⟩ M N K p m_r n_r (dimsKMN M N K p m_r n_r m_c k_c n_c))) =
      cdiv M m_r * m_r * (cdiv N n_r * n_r) * K := by
  rw [online_snake h, snake_count work_sums h.k_c_pos (W := fun n m =>
    ((range (mU M p m_r m_c m)).map (mT M p m_r m_c m)).sum * nLen N n_r n_c n), sum_prod2, sum_side h]
  · congr 2
    exact sum_sL h.n_c_pos h.n_r_pos h.n_dvd
  · intro n m k a b _ hm _
    rw [onStep_count work_counts, work_tasks (geoK_ok h hm) hk fun i => noFma_onPre]
    congr 1
    exact sum_mulr ..
  · intro n m _ _
    exact work_plain (noFma_gUnpack fun i => noFma_unpackSingle)

theorem schedO_core (i : Nat) :
    coreWork i (phases (schedule_KMN_online kd ⟨.A, 0⟩ ⟨.B, 0⟩ ⟨.C, 0⟩ M N K p m_r n_r (dimsKMN M N K p m_r n_r m_c k_c n_c))) =
      ((range (cdiv M (p * m_c))).map fun m => mT M p m_r m_c m i).sum * (cdiv N n_r * n_r) * K := by
  rw [online_snake h, snake_count (coreWork_sums i) h.k_c_pos (W := fun n m => mT M p m_r m_c m i * nLen N n_r n_c n),
    sum_prod2 (f := fun m => mT M p m_r m_c m i)]
  · congr 2
    exact sum_sL h.n_c_pos h.n_r_pos h.n_dvd
  · intro n m k a b _ hm _
    rw [onStep_count (coreWork_counts i), coreWork_tasks (geoK_ok h hm) hk fun i => noFma_onPre]
    congr 1
    split
    · rfl
    · rename_i hi
      rw [mT_zero h hm (by simpa [geoK] using hi), Nat.zero_mul]
  · intro n m _ _
    exact coreWork_plain i (noFma_gUnpack fun i => noFma_unpackSingle)

end

/-! ### 2-D -/

section
variable {M N K pm pn m_r n_r m_c k_c n_c : Nat} (h : TileOK pm m_r n_r m_c k_c n_c) (h' : TileOK pn n_r m_r n_c k_c m_c)
  {kd : KDim} (hk : kd.Fits m_r n_r)
include h h' hk

omit h h' hk in
theorem tdStep_count {μ : Prog → Nat} (hμ : Counts μ) {n m k : Nat} {rA rB : Bool} :
    μ (tdStep kd M N K pm pn m_r n_r m_c k_c n_c n m k rA rB) =
      μ [.par (gTasks (geo2 M N pm pn m_r n_r m_c n_c n m) kd (fun _ => [])
    (fun i => ⟨.Ap, i / mU N pn n_r n_c n * mX M pm m_r m_c m * chopLen K k_c k⟩)
    (fun i => ⟨.Bp, i % mU N pn n_r n_c n * mX N pn n_r n_c n * chopLen K k_c k⟩) m_r n_r (chopLen K k_c k))] := by
  unfold tdStep
  rw [hμ.append, hμ.append]
  have e1 : ∀ (c : Bool) (ts : List (List Op)), All NoFma ts → μ (if c = true then [] else [.par ts]) = 0 := by
    intro c ts hts
    split
    · exact hμ.nil
    · exact hμ.plain _ hts
  rw [e1 _ _ noFma_gstrips, e1 _ _ noFma_gstrips, Nat.add_zero, Nat.zero_add]

theorem sched2_work {x : BlkDims2} (hx : dims2d M N K m_r n_r pm pn m_c k_c n_c = some x) :
    work (phases (schedule_KMN_2d kd ⟨.A, 0⟩ ⟨.B, 0⟩ ⟨.C, 0⟩ M N K m_r n_r x)) =
      cdiv M m_r * m_r * (cdiv N n_r * n_r) * K := by
  rw [twoD_snake h h' kd hx, snake_count work_sums h.k_c_pos (W := fun n m =>
    ((range (mU M pm m_r m_c m)).map (mT M pm m_r m_c m)).sum * ((range (mU N pn n_r n_c n)).map (mT N pn n_r n_c n)).sum),
    sum_prod2 (g := fun n => ((range (mU N pn n_r n_c n)).map (mT N pn n_r n_c n)).sum), sum_side h, sum_side h']
  · intro n m k a b hn hm _
    rw [tdStep_count work_counts, work_tasks (geo2_ok h h' (Nat.le_refl _) hn hm) hk fun _ => .nil]
    congr 1
    exact sum_grid (mU M pm m_r m_c m) (mU N pn n_r n_c n) (mT M pm m_r m_c m) (mT N pn n_r n_c n)
  · intro n m _ _
    exact work_plain (noFma_gUnpack fun i => noFma_unpackSingle)

theorem sched2_core {x : BlkDims2} (hx : dims2d M N K m_r n_r pm pn m_c k_c n_c = some x) (i : Nat) :
    coreWork i (phases (schedule_KMN_2d kd ⟨.A, 0⟩ ⟨.B, 0⟩ ⟨.C, 0⟩ M N K m_r n_r x)) =
      ((range (cdiv N (pn * n_c))).map fun n => ((range (cdiv M (pm * m_c))).map fun m =>
        if i < mU M pm m_r m_c m * mU N pn n_r n_c n then
          mT M pm m_r m_c m (i / mU N pn n_r n_c n) * mT N pn n_r n_c n (i % mU N pn n_r n_c n) else 0).sum).sum * K := by
  rw [twoD_snake h h' kd hx, snake_count (coreWork_sums i) h.k_c_pos (W := fun n m =>
    if i < mU M pm m_r m_c m * mU N pn n_r n_c n then
          mT M pm m_r m_c m (i / mU N pn n_r n_c n) * mT N pn n_r n_c n (i % mU N pn n_r n_c n) else 0)]
  · intro n m k a b hn hm _
    rw [tdStep_count (coreWork_counts i), coreWork_tasks (geo2_ok h h' (Nat.le_refl _) hn hm) hk fun _ => .nil]
    rfl
  · intro n m _ _
    exact coreWork_plain i (noFma_gUnpack fun i => noFma_unpackSingle)

/-- No core does more than the one in the corner of the grid. -/
theorem sched2_core_le {x : BlkDims2} (hx : dims2d M N K m_r n_r pm pn m_c k_c n_c = some x) (i : Nat) :
    coreWork i (phases (schedule_KMN_2d kd ⟨.A, 0⟩ ⟨.B, 0⟩ ⟨.C, 0⟩ M N K m_r n_r x)) ≤
      cdiv (cdiv M m_r) pm * m_r * (cdiv (cdiv N n_r) pn * n_r) * K := by
  rw [sched2_core h h' hk hx, ← sum_first h, ← sum_first h', ← sum_prod2]
  apply Nat.mul_le_mul_right
  refine sum_le fun n _ => sum_le fun m _ => ?_
  split
  · exact Nat.mul_le_mul mT_first mT_first
  · exact Nat.zero_le _

theorem sched2_core_zero {x : BlkDims2} (hx : dims2d M N K m_r n_r pm pn m_c k_c n_c = some x) :
    coreWork 0 (phases (schedule_KMN_2d kd ⟨.A, 0⟩ ⟨.B, 0⟩ ⟨.C, 0⟩ M N K m_r n_r x)) =
      cdiv (cdiv M m_r) pm * m_r * (cdiv (cdiv N n_r) pn * n_r) * K := by
  rw [sched2_core h h' hk hx, ← sum_first h, ← sum_first h', ← sum_prod2]
  congr 1
  refine sum_congr fun n hn => sum_congr fun m hm => ?_
  rw [Nat.zero_div, Nat.zero_mod]
  split
  · rfl
  · rename_i hi
    have hp1 : 0 < mU M pm m_r m_c m := by
      rcases Nat.eq_zero_or_pos (mU M pm m_r m_c m) with e | e
      · have hs := m_strips (N := 0) (K := 0) h (mem_range.1 hm)
        have := cdiv_pos (a := mLen M pm m_r m_c m) (b := mX M pm m_r m_c m)
          (chopLen_pos h.S_pos (by rw [← mb_eq h]; exact mem_range.1 hm)) hs.1
        unfold mU at e; omega
      · exact e
    have hp2 : 0 < mU N pn n_r n_c n := by
      rcases Nat.eq_zero_or_pos (mU N pn n_r n_c n) with e | e
      · have hs := m_strips (N := 0) (K := 0) h' (mem_range.1 hn)
        have := cdiv_pos (a := mLen N pn n_r n_c n) (b := mX N pn n_r n_c n)
          (chopLen_pos h'.S_pos (by rw [← mb_eq h']; exact mem_range.1 hn)) hs.1
        unfold mU at e; omega
      · exact e
    exact absurd (Nat.mul_pos hp1 hp2) hi

theorem sched2_core_beyond {x : BlkDims2} (hx : dims2d M N K m_r n_r pm pn m_c k_c n_c = some x) {i : Nat} (hi : pm * pn ≤ i) :
    coreWork i (phases (schedule_KMN_2d kd ⟨.A, 0⟩ ⟨.B, 0⟩ ⟨.C, 0⟩ M N K m_r n_r x)) = 0 := by
  rw [sched2_core h h' hk hx, Nat.mul_eq_zero]
  left
  refine sum_zero fun n hn => sum_zero fun m hm => ?_
  rw [if_neg]
  have := Nat.mul_le_mul (mU_le h (mem_range.1 hm)) (mU_le h' (mem_range.1 hn))
  omega

end

/-! ### 2-D, small -/

section
variable {M N K p pn m_r n_r k_c : Nat}

theorem SmallFits.sum {T q r n : Nat} (hq : 0 < q) (h : SmallFits T q r n) : ((range q).map (smallLen T q r n)).sum = T := by
  obtain ⟨q, rfl⟩ : ∃ j, q = j + 1 := ⟨q - 1, by omega⟩
  rw [range_succ, map_append, sum_append_nat, map_singleton, sum_singleton,
    sum_congr (g := fun _ => smallTile T (q + 1) r)]
  · have h2 := h.2
    simp only [Nat.add_sub_cancel] at h2
    have h1 := h.1
    simp only [map_const', length_range, sum_replicate_nat, smallLen, Nat.add_sub_cancel, beq_self_eq_true, Bool.true_and]
    rw [if_pos (by simpa using h1)]
    omega
  · intro a ha
    rw [mem_range] at ha
    unfold smallLen
    rw [if_neg]
    simp; omega


theorem smStep_count {μ : Prog → Nat} (hμ : Counts μ) {kd : KDim} {k : Nat} :
    μ (smStep kd M N K p pn m_r n_r k_c k) = μ [.par (gTasks (geoS M N p pn m_r n_r) kd (fun _ => [])
    (fun i => ⟨.Ap, (geoS M N p pn m_r n_r).rb i * chopLen K k_c k⟩)
    (fun i => ⟨.Bp, (geoS M N p pn m_r n_r).cb i * chopLen K k_c k⟩) m_r n_r (chopLen K k_c k))] := by
  unfold smStep
  rw [hμ.append, hμ.append, hμ.plain _ noFma_gstrips, hμ.plain _ noFma_gstrips, Nat.add_zero, Nat.zero_add]

theorem small_count {μ : Prog → Nat} (hμ : Counts μ) {kd : KDim} {c : Nat} (hk : 0 < k_c)
    (hc : ∀ k, μ [.par (gTasks (geoS M N p pn m_r n_r) kd (fun _ => [])
      (fun i => ⟨.Ap, (geoS M N p pn m_r n_r).rb i * chopLen K k_c k⟩)
      (fun i => ⟨.Bp, (geoS M N p pn m_r n_r).cb i * chopLen K k_c k⟩) m_r n_r (chopLen K k_c k))] = c * chopLen K k_c k) :
    μ (smallRest kd M N K p pn m_r n_r k_c) = c * K := by
  unfold smallRest
  dsimp only
  rw [hμ.append, hμ.append, hμ.append, hμ.plainProg (prog := map _ (range p)), hμ.plainProg (prog := _ ++ _), hμ.flatMap,
    sum_congr (g := fun k => c * chopLen K k_c k) (fun k _ => by rw [smStep_count hμ, hc]), sum_mull, sum_chop hk,
    hμ.plain (gUnpack _ (smUnp M N p pn m_r n_r) _ _) (noFma_gUnpack fun i => noFma_unpackSingle), Nat.zero_add, Nat.add_zero]
  · intro it hit ts e; subst e; simp at hit
  · intro it hit ts e; subst e; simp at hit

section
variable (hm : 0 < m_r) (hn : 0 < n_r) (hpn : 0 < pn) (hp : pn ≤ p) {kd : KDim} (hk : kd.Fits m_r n_r) (hkc : 0 < k_c)
include hm hn hpn hp hk hkc

theorem small_work (hd : pn ∣ p) (fm : SmallFits (roundUpC M m_r) (p / pn) m_r M) (fn : SmallFits (roundUpC N n_r) pn n_r N) :
    work (smallRest kd M N K p pn m_r n_r k_c) = cdiv M m_r * m_r * (cdiv N n_r * n_r) * K := by
  apply small_count work_counts hkc
  intro k
  rw [work_tasks (geoS_ok hm hn hpn hp) hk fun _ => .nil]
  congr 1
  have := sum_grid (p / pn) pn (smallLen (roundUpC M m_r) (p / pn) m_r M) (smallLen (roundUpC N n_r) pn n_r N)
  rw [fm.sum (Nat.div_pos hp hpn), fn.sum hpn, Nat.div_mul_cancel hd] at this
  rw [← roundUpC_cdiv hm, ← roundUpC_cdiv hn, ← this]
  rfl

theorem small_core (i : Nat) : coreWork i (smallRest kd M N K p pn m_r n_r k_c) =
    (if i < p then smallLen (roundUpC M m_r) (p / pn) m_r M (i / pn) * smallLen (roundUpC N n_r) pn n_r N (i % pn) else 0) * K := by
  apply small_count (coreWork_counts i) hkc
  intro k
  rw [coreWork_tasks (geoS_ok hm hn hpn hp) hk fun _ => .nil]
  rfl

end
end

/-! ### M-first and N-first -/

/-- Multiply-adds of each task of each phase. -/
def profile (ph : List (List (List Op))) : List (List Nat) := ph.map fun ts => ts.map mulAdds

theorem work_profile (ph : List (List (List Op))) : work (phases ph) = ((profile ph).map List.sum).sum := by
  unfold phases profile
  induction ph with
  | nil => rfl
  | cons t ph ih => rw [map_cons, ← singleton_append, work_sums.append, ih, work_par, map_cons, map_cons, sum_cons]

theorem coreWork_profile (i : Nat) (ph : List (List (List Op))) :
    coreWork i (phases ph) = ((profile ph).map fun l => l.getD i 0).sum := by
  unfold phases profile
  induction ph with
  | nil => rfl
  | cons t ph ih =>
    rw [map_cons, ← singleton_append, (coreWork_sums i).append, ih, coreWork_par, map_cons, map_cons, sum_cons]
    congr 1
    rw [getD_eq_getElem?_getD, getD_eq_getElem?_getD, getElem?_map]
    cases t[i]? <;> rfl

theorem mulAdds_regTiles (kd : KDim) (t : Nat) (A B C : Loc) (m_r n_r mt nt k : Nat) :
    mulAdds (regTiles kd t A B C m_r n_r mt nt k) = nt / n_r * (mt / m_r * (kd.m * (kd.nl * kd.L) * k)) := by
  unfold regTiles
  rw [mulAdds_const (c := mt / m_r * (kd.m * (kd.nl * kd.L) * k)), length_range]
  intro _ _
  rw [mulAdds_const (c := kd.m * (kd.nl * kd.L) * k), length_range]
  intro _ _
  rw [mulAdds_kernel]

/-- The counts do not depend on where the operands are. -/
theorem profile_MKN (kd : KDim) (A B C A' B' C' : Loc) (K p m_r n_r : Nat) (x : BlkDims) :
    profile (schedule_MKN kd A B C K p m_r n_r x) = profile (schedule_MKN kd A' B' C' K p m_r n_r x) := by
  unfold profile schedule_MKN
  simp only [map_flatMap, map_map, Function.comp_def, mulAdds_flatMap, mulAdds_regTiles]

theorem profile_NKM (kd : KDim) (A B C A' B' C' : Loc) (K p m_r n_r : Nat) (x : BlkDims) :
    profile (schedule_NKM kd A B C K p m_r n_r x) = profile (schedule_NKM kd A' B' C' K p m_r n_r x) := by
  unfold profile schedule_NKM
  simp only [map_flatMap, map_map, Function.comp_def, mulAdds_flatMap, mulAdds_regTiles]

section
variable {M N K p m_r n_r mS k_c n_c : Nat}

theorem blkTask_work (h : GeoOK p m_r n_r mS k_c n_c) {kd : KDim} (hk : kd.Fits m_r n_r) (ly : Lay M N K p m_r n_r mS k_c n_c)
    {t n k m : Nat} (hkb : k < cdiv K (p * k_c)) :
    mulAdds (blkTask kd ly t n k m) = sL M mS m_r m * sL N n_c n_r n * kL K p k_c k := by
  unfold blkTask
  rw [mulAdds_flatMap, sum_congr (g := fun core => sL M mS m_r m * sL N n_c n_r n * kT K p k_c k core)
    fun core _ => mulAdds_tiles hk _ _ _ _ _ (mL_dvd h) (nL_dvd h), sum_mull]
  congr 1
  exact sum_chop (kX_pos h.p_pos h.k_c_pos hkb)

theorem sum_serpBlk (d : Bool) (b : Nat) (f : Nat → Nat) : ((range b).map fun i => f (serpBlk d b i)).sum = ((range b).map f).sum := by
  cases d with
  | false => rfl
  | true =>
    have e : ((range b).map fun i => f (serpBlk true b i)) = ((range b).map f).reverse := by
      apply ext_getElem
      · simp
      · intro i h1 h2
        simp [serpBlk]
    rw [e, sum_reverse]
end

section
variable {M N K p m_r n_r m_c k_c n_c : Nat} (h : TileOK p m_r n_r m_c k_c n_c) {kd : KDim} (hk : kd.Fits m_r n_r)
include h hk

theorem profile_M (A B C : Loc) : profile (schedule_MKN kd A B C K p m_r n_r (dimsMKN M N K p m_r n_r m_c k_c n_c)) =
    (range (cdiv N n_c)).flatMap fun n => (serp (n % 2 != 0) (cdiv K (p * k_c))).map fun k =>
      (range (cdiv M m_c)).map fun i =>
        sL M m_c m_r (serpBlk (kDesc n k) (cdiv M m_c) i) * sL N n_c n_r n * kL K p k_c k := by
  rw [profile_MKN kd A B C ⟨.Ap, 0⟩ ⟨.Bp, 0⟩ ⟨.Cp, 0⟩, schedM_eq h]
  unfold profile
  rw [map_flatMap]
  apply flatMap_congr
  intro n _
  rw [map_map]
  apply map_congr_left
  intro k hkk
  rw [mem_serp] at hkk
  simp only [Function.comp]
  rw [map_map]
  apply map_congr_left
  intro i _
  exact blkTask_work h.geoM hk _ hkk

theorem profile_N (A B C : Loc) : profile (schedule_NKM kd A B C K p m_r n_r (dimsNKM M N K p m_r n_r m_c k_c n_c)) =
    (range (cdiv M (p * m_c))).flatMap fun m => (serp (m % 2 != 0) (cdiv K (p * k_c))).map fun k =>
      (range (cdiv N n_c)).map fun i =>
        sL M (p * m_c) m_r m * sL N n_c n_r (serpBlk (kDesc m k) (cdiv N n_c) i) * kL K p k_c k := by
  rw [profile_NKM kd A B C ⟨.Ap, 0⟩ ⟨.Bp, 0⟩ ⟨.Cp, 0⟩, schedN_eq h]
  unfold profile
  rw [map_flatMap]
  apply flatMap_congr
  intro m _
  rw [map_map]
  apply map_congr_left
  intro k hkk
  rw [mem_serp] at hkk
  simp only [Function.comp]
  rw [map_map]
  apply map_congr_left
  intro i _
  exact blkTask_work h.geoN hk _ hkk

omit h hk in
/-- Sum of a function of the phases of a serpentine. -/
theorem sum_phases {f : List Nat → Nat} {Ob Kb : Nat} {d : Nat → Bool} {l : Nat → Nat → List Nat} :
    (((range Ob).flatMap fun n => (serp (d n) Kb).map fun k => l n k).map f).sum =
      ((range Ob).map fun n => ((range Kb).map fun k => f (l n k)).sum).sum := by
  rw [map_flatMap, List.flatMap_def, sum_flatten, map_map]
  apply sum_congr
  intro n _
  simp only [Function.comp]
  rw [map_map]
  exact sum_serp _ _ _

theorem schedM_work (A B C : Loc) :
    work (phases (schedule_MKN kd A B C K p m_r n_r (dimsMKN M N K p m_r n_r m_c k_c n_c))) =
      cdiv M m_r * m_r * (cdiv N n_r * n_r) * K := by
  rw [work_profile, profile_M h hk, sum_phases,
    sum_congr (g := fun n => cdiv M m_r * m_r * sL N n_c n_r n * K), sum_mulr, sum_mull]
  · congr 2
    exact sum_sL h.n_c_pos h.n_r_pos h.n_dvd
  · intro n _
    rw [sum_congr (g := fun k => cdiv M m_r * m_r * sL N n_c n_r n * kL K p k_c k), sum_mull]
    · congr 1
      exact sum_chop (Nat.mul_pos h.p_pos h.k_c_pos)
    · intro k _
      rw [sum_mulr, sum_mulr, sum_serpBlk]
      congr 2
      exact sum_sL h.m_c_pos h.m_r_pos h.m_dvd

theorem schedN_work (A B C : Loc) :
    work (phases (schedule_NKM kd A B C K p m_r n_r (dimsNKM M N K p m_r n_r m_c k_c n_c))) =
      cdiv M m_r * m_r * (cdiv N n_r * n_r) * K := by
  rw [work_profile, profile_N h hk, sum_phases,
    sum_congr (g := fun m => sL M (p * m_c) m_r m * (cdiv N n_r * n_r) * K), sum_mulr, sum_mulr]
  · congr 2
    exact sum_sL h.S_pos h.m_r_pos h.S_dvd
  · intro m _
    rw [sum_congr (g := fun k => sL M (p * m_c) m_r m * (cdiv N n_r * n_r) * kL K p k_c k), sum_mull]
    · congr 1
      exact sum_chop (Nat.mul_pos h.p_pos h.k_c_pos)
    · intro k _
      rw [sum_mulr, sum_mull, sum_serpBlk]
      congr 2
      exact sum_sL h.n_c_pos h.n_r_pos h.n_dvd

/-- M-first: iteration `i` of the parallel loop has at most one tile of rows. -/
theorem schedM_core (A B C : Loc) (i : Nat) :
    coreWork i (phases (schedule_MKN kd A B C K p m_r n_r (dimsMKN M N K p m_r n_r m_c k_c n_c))) ≤
      (if i < cdiv M m_c then m_c else 0) * (cdiv N n_r * n_r) * K := by
  rw [coreWork_profile, profile_M h hk, sum_phases]
  refine Nat.le_trans (sum_le (g := fun n => (if i < cdiv M m_c then m_c else 0) * sL N n_c n_r n * K) fun n _ => ?_) ?_
  · refine Nat.le_trans (sum_le (g := fun k => (if i < cdiv M m_c then m_c else 0) * sL N n_c n_r n * kL K p k_c k)
      fun k _ => ?_) ?_
    · rw [getD_mapRange]
      split
      · exact Nat.mul_le_mul_right _ (Nat.mul_le_mul_right _ (chopLen_le _ _ _))
      · exact Nat.zero_le _
    · rw [sum_mull]
      exact Nat.le_of_eq (congrArg _ (sum_chop (Nat.mul_pos h.p_pos h.k_c_pos)))
  · rw [sum_mulr, sum_mull]
    exact Nat.le_of_eq (congrArg (_ * · * K) (sum_sL h.n_c_pos h.n_r_pos h.n_dvd))

/-- N-first: iteration `i` of the parallel loop has at most one tile of columns. -/
theorem schedN_core (A B C : Loc) (i : Nat) :
    coreWork i (phases (schedule_NKM kd A B C K p m_r n_r (dimsNKM M N K p m_r n_r m_c k_c n_c))) ≤
      cdiv M m_r * m_r * (if i < cdiv N n_c then n_c else 0) * K := by
  rw [coreWork_profile, profile_N h hk, sum_phases]
  refine Nat.le_trans (sum_le (g := fun m => sL M (p * m_c) m_r m * (if i < cdiv N n_c then n_c else 0) * K) fun m _ => ?_) ?_
  · refine Nat.le_trans (sum_le (g := fun k => sL M (p * m_c) m_r m * (if i < cdiv N n_c then n_c else 0) * kL K p k_c k)
      fun k _ => ?_) ?_
    · rw [getD_mapRange]
      split
      · exact Nat.mul_le_mul_right _ (Nat.mul_le_mul_left _ (chopLen_le _ _ _))
      · exact Nat.zero_le _
    · rw [sum_mull]
      exact Nat.le_of_eq (congrArg _ (sum_chop (Nat.mul_pos h.p_pos h.k_c_pos)))
  · rw [sum_mulr, sum_mulr]
    exact Nat.le_of_eq (congrArg (· * _ * K) (sum_sL h.S_pos h.m_r_pos h.S_dvd))

/-- M-first with one block of rows: everything is in the first iteration. -/
theorem schedM_single (A B C : Loc) (h1 : cdiv M m_c ≤ 1) :
    coreWork 0 (phases (schedule_MKN kd A B C K p m_r n_r (dimsMKN M N K p m_r n_r m_c k_c n_c))) =
      work (phases (schedule_MKN kd A B C K p m_r n_r (dimsMKN M N K p m_r n_r m_c k_c n_c))) := by
  rw [coreWork_profile, work_profile, profile_M h hk, sum_phases, sum_phases]
  refine sum_congr fun n _ => sum_congr fun k _ => ?_
  rcases Nat.eq_zero_or_pos (cdiv M m_c) with e | e
  · rw [e]; rfl
  · rw [show cdiv M m_c = 1 by omega]; simp

theorem schedN_single (A B C : Loc) (h1 : cdiv N n_c ≤ 1) :
    coreWork 0 (phases (schedule_NKM kd A B C K p m_r n_r (dimsNKM M N K p m_r n_r m_c k_c n_c))) =
      work (phases (schedule_NKM kd A B C K p m_r n_r (dimsNKM M N K p m_r n_r m_c k_c n_c))) := by
  rw [coreWork_profile, work_profile, profile_N h hk, sum_phases, sum_phases]
  refine sum_congr fun n _ => sum_congr fun k _ => ?_
  rcases Nat.eq_zero_or_pos (cdiv N n_c) with e | e
  · rw [e]; rfl
  · rw [show cdiv N n_c = 1 by omega]; simp

end

/-! ### Complete calls -/

section
variable {α : Type _} {nz : α → Bool} {cx : Cntx} {M N K p m_c k_c n_c : Nat}

theorem Counts.ite {μ : Prog → Nat} (_ : Counts μ) {c : Prop} [Decidable c] {a b : Prog} (ha : μ a = 0) (hb : μ b = 0) :
    μ (if c then a else b) = 0 := by split <;> assumption

theorem Counts.cons {μ : Prog → Nat} (hμ : Counts μ) {it : Item} {q : Prog} (hit : ∀ ts, it ≠ Item.par ts) (hq : μ q = 0) :
    μ (it :: q) = 0 := by rw [← singleton_append, hμ.append, hμ.other it hit, hq]

/-- The multiply-adds of a call are those of its schedule. -/
theorem call_count {μ : Prog → Nat} (hμ : Counts μ) {A B C : Loc}
    {packedA packedB : Bool} {alpha beta : α} {sch : Sched} {prog : Prog}
    (e : cake_sgemm nz cx A B C M N K p packedA packedB alpha beta m_c k_c n_c sch = some prog) :
    ∃ A_p B_p, (sch = .KMN ∧ μ prog = μ (phases (schedule_KMN cx.kmap A_p B_p C M N K p cx.m_r cx.n_r
        (dimsKMN M N K p cx.m_r cx.n_r m_c k_c n_c)))) ∨
      (sch = .MKN ∧ μ prog = μ (phases (schedule_MKN cx.kfix A_p B_p ⟨.Cp, 0⟩ K p cx.m_r cx.n_r
        (dimsMKN M N K p cx.m_r cx.n_r m_c k_c n_c)))) ∨
      (sch = .NKM ∧ μ prog = μ (phases (schedule_NKM cx.kfix A_p B_p ⟨.Cp, 0⟩ K p cx.m_r cx.n_r
        (dimsNKM M N K p cx.m_r cx.n_r m_c k_c n_c)))) := by
  unfold cake_sgemm at e
  simp only [Option.bind_eq_bind, Option.bind_eq_some_iff, Option.some.injEq] at e
  obtain ⟨x, hx, aSz, -, cSz, -, pa, hpa, pb, hpb, pc, hpc, uc, huc, sc, hsc, rfl⟩ := e
  refine ⟨if packedA then A else ⟨.Ap, 0⟩, if packedB then B else ⟨.Bp, 0⟩, ?_⟩
  have zA : μ (if packedA = true then [] else .memalign .Ap aSz :: phases pa) = 0 :=
    hμ.ite hμ.nil (hμ.cons (by simp) (hμ.phases (noFma_packA hpa)))
  have zB : μ (if packedB = true then [] else .memalign .Bp (packedBSize K N cx.n_r n_c) :: phases pb) = 0 :=
    hμ.ite hμ.nil (hμ.cons (by simp) (hμ.phases (noFma_packB hpb)))
  have zF : μ ((if packedA = true then [] else [.free .Ap]) ++ (if packedB = true then [] else [.free .Bp]) ++ [.free .Blk]) = 0 := by
    rw [hμ.append, hμ.append, hμ.ite hμ.nil (hμ.other _ (by simp)), hμ.ite hμ.nil (hμ.other _ (by simp)), hμ.other _ (by simp)]
  have zD : μ [.malloc .Blk 1, .malloc .Dims 1, .free .Dims] = 0 :=
    hμ.cons (by simp) (hμ.cons (by simp) (hμ.other _ (by simp)))
  have zC : μ (if nz beta = true then .memalign .Cp cSz :: phases pc else [.calloc .Cp cSz]) = 0 :=
    hμ.ite (hμ.cons (by simp) (hμ.phases (noFma_packC hpc))) (hμ.other _ (by simp))
  have zU : μ (phases uc) = 0 := hμ.phases (noFma_unpackC huc)
  have z1 : μ ((range p).map fun i => Item.calloc (.CpC i) (m_c * n_c)) = 0 :=
    hμ.plainProg (by intro it hit ts e; subst e; simp at hit)
  have z2 : μ ((range p).map fun i => Item.free (.CpC i)) = 0 :=
    hμ.plainProg (by intro it hit ts e; subst e; simp at hit)
  cases sch with
  | KMN =>
    simp only [init_block_dims, Option.some.injEq] at hx
    subst hx
    refine Or.inl ⟨rfl, ?_⟩
    rw [hμ.append, hμ.append, hμ.append, hμ.append, zA, zB, zF, zD, if_pos (show (dimsKMN ..).sch = .KMN from rfl), hμ.append, hμ.append, z1, z2]
    simp only [Nat.zero_add, Nat.add_zero]
  | MKN =>
    simp only [init_block_dims, Option.some.injEq] at hx
    subst hx
    refine Or.inr (Or.inl ⟨rfl, ?_⟩)
    cases hsc
    rw [hμ.append, hμ.append, hμ.append, hμ.append, zA, zB, zF, zD, if_neg (by intro e; cases e), hμ.append, hμ.append, hμ.append,
      zC, zU, hμ.other _ (by simp)]
    simp only [Nat.zero_add, Nat.add_zero]
  | NKM =>
    simp only [init_block_dims, Option.some.injEq] at hx
    subst hx
    refine Or.inr (Or.inr ⟨rfl, ?_⟩)
    cases hsc
    rw [hμ.append, hμ.append, hμ.append, hμ.append, zA, zB, zF, zD, if_neg (by intro e; cases e), hμ.append, hμ.append, hμ.append,
      zC, zU, hμ.other _ (by simp)]
    simp only [Nat.zero_add, Nat.add_zero]
  | NA => cases hx

theorem online_count {μ : Prog → Nat} (hμ : Counts μ) {A B C : Loc} {packedA packedB : Bool} {alpha beta : α} {prog : Prog}
    (e : cake_sgemm_online cx A B C M N K p packedA packedB alpha beta m_c k_c n_c = some prog) :
    μ prog = μ (phases (schedule_KMN_online cx.kmap A B C M N K p cx.m_r cx.n_r (dimsKMN M N K p cx.m_r cx.n_r m_c k_c n_c))) := by
  unfold cake_sgemm_online at e
  simp only [Option.bind_eq_bind, Option.bind_eq_some_iff, Option.some.injEq] at e
  obtain ⟨x, hx, rfl⟩ := e
  cases hx
  rw [hμ.append, hμ.append, hμ.append, hμ.append, hμ.append, hμ.append, hμ.plainProg (prog := map _ _),
    hμ.plainProg (prog := map _ _), hμ.plainProg (prog := flatMap _ _), hμ.plainProg (prog := [_, _]),
    hμ.plainProg (prog := [_]), hμ.plainProg (prog := [_, _, _])]
  · simp only [Nat.zero_add, Nat.add_zero]
  all_goals intro it hit ts e; subst e; simp at hit

theorem twoD_count {μ : Prog → Nat} (hμ : Counts μ) {A B C : Loc} {x : BlkDims2} :
    μ (sgemm2dBody cx A B C M N K p x) = μ (phases (schedule_KMN_2d cx.kfix A B C M N K cx.m_r cx.n_r x)) := by
  unfold sgemm2dBody
  rw [hμ.append, hμ.append, hμ.append, hμ.append, hμ.plainProg (prog := map _ _), hμ.plainProg (prog := [_, _]),
    hμ.plainProg (prog := _ ++ _), hμ.plainProg (prog := [_])]
  · simp only [Nat.zero_add, Nat.add_zero]
  all_goals intro it hit ts e; subst e; simp at hit

theorem small_prog_count {μ : Prog → Nat} (hμ : Counts μ) {q : Prog} {na nb : Nat} :
    μ ([.malloc .Blk 1, .memalign .Ap na, .memalign .Bp nb] ++ q) = μ q := by
  rw [hμ.append, hμ.plainProg (prog := [_, _, _]), Nat.zero_add]
  intro it hit ts e; subst e; simp at hit

end
end Cake
