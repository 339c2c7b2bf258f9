/-
`cake_sgemm_2d`: the complete program.
-/
import Verif.Model.TwoD
import Verif.Proofs.GridBlock

namespace Cake
open List

variable {α : Type _} {F : Arith α} {S : Prop}

section
variable {M N K p pm pn m_r n_r m_c k_c n_c : Nat}

/-- Rectangles of the 2-D schedule. -/
def geo2 (M N pm pn m_r n_r m_c n_c n m : Nat) : Geo where
  u := mU M pm m_r m_c m * mU N pn n_r n_c n
  rb i := m * (pm * m_c) + i / mU N pn n_r n_c n * mX M pm m_r m_c m
  cb i := n * (pn * n_c) + i % mU N pn n_r n_c n * mX N pn n_r n_c n
  mt i := mT M pm m_r m_c m (i / mU N pn n_r n_c n)
  nt i := mT N pn n_r n_c n (i % mU N pn n_r n_c n)

theorem geo2_row (n m i r : Nat) : (geo2 M N pm pn m_r n_r m_c n_c n m).rb i + r =
    rowOf M pm m_r m_c m (i / mU N pn n_r n_c n) r := by
  simp only [geo2, rowOf]; omega

theorem geo2_col (n m i c : Nat) : (geo2 M N pm pn m_r n_r m_c n_c n m).cb i + c =
    rowOf N pn n_r n_c n (i % mU N pn n_r n_c n) c := by
  simp only [geo2, rowOf]; omega

theorem geo2_div {n m i : Nat} (hi : i < (geo2 M N pm pn m_r n_r m_c n_c n m).u) :
    i / mU N pn n_r n_c n < mU M pm m_r m_c m :=
  Nat.div_lt_of_lt_mul (by rw [Nat.mul_comm]; exact hi)

theorem geo2_mod {n m i : Nat} (hi : i < (geo2 M N pm pn m_r n_r m_c n_c n m).u) :
    i % mU N pn n_r n_c n < mU N pn n_r n_c n := by
  apply Nat.mod_lt
  rcases Nat.eq_zero_or_pos (mU N pn n_r n_c n) with e | e
  · have : (geo2 M N pm pn m_r n_r m_c n_c n m).u = 0 := by simp only [geo2]; rw [e, Nat.mul_zero]
    omega
  · exact e

variable (h : TileOK pm m_r n_r m_c k_c n_c) (h' : TileOK pn n_r m_r n_c k_c m_c)
include h h'

theorem geo2_ok (hp : pm * pn ≤ p) {n m : Nat} (hn : n < cdiv N (pn * n_c)) (hm : m < cdiv M (pm * m_c)) :
    (geo2 M N pm pn m_r n_r m_c n_c n m).OK M N p m_r n_r m_c n_c where
  u_le := Nat.le_trans (Nat.mul_le_mul (mU_le h hm) (mU_le h' hn)) hp
  m_pos := h.m_r_pos
  n_pos := h.n_r_pos
  m_dvd _ _ := mT_dvd h hm
  n_dvd _ _ := mT_dvd h' hn
  m_le _ _ := mT_le h hm
  n_le _ _ := mT_le h' hn
  disj := by
    intro i j hi hj r r' c c' hr hr' hc hc' e e' _ _
    rw [geo2_row, geo2_row] at e
    rw [geo2_col, geo2_col] at e'
    have e1 := (rowOf_inj hr hr' e).2.1
    have e2 := (rowOf_inj hc hc' e').2.1
    rw [← Nat.div_add_mod i (mU N pn n_r n_c n), ← Nat.div_add_mod j (mU N pn n_r n_c n), e1, e2]

/-! ### The schedule as a snake -/

omit h h' in
def tdStep (kd : KDim) (M N K pm pn m_r n_r m_c k_c n_c n m k : Nat) (rA rB : Bool) : Prog :=
  (if rB then [] else [.par (gstrips .Bp (⟨.B, 0⟩ +ₚ (n * pn * n_c + k * k_c * N)) n_r (mLen N pn n_r n_c n)
    (chopLen K k_c k) (fun c i => i * N + c))]) ++
  (if rA then [] else [.par (gstrips .Ap (⟨.A, 0⟩ +ₚ (m * pm * m_c * K + k * k_c)) m_r (mLen M pm m_r m_c m)
    (chopLen K k_c k) (fun r i => r * K + i))]) ++
  [.par (gTasks (geo2 M N pm pn m_r n_r m_c n_c n m) kd (fun _ => [])
    (fun i => ⟨.Ap, i / mU N pn n_r n_c n * mX M pm m_r m_c m * chopLen K k_c k⟩)
    (fun i => ⟨.Bp, i % mU N pn n_r n_c n * mX N pn n_r n_c n * chopLen K k_c k⟩) m_r n_r (chopLen K k_c k))]

omit h h' in
def tdUnp (M N pm pn m_r n_r m_c n_c n m core : Nat) : List Op :=
  unpack_ob_C_single_buf (⟨.C, 0⟩ +ₚ (m * pm * m_c * N + n * pn * n_c +
      core / mU N pn n_r n_c n * mX M pm m_r m_c m * N + core % mU N pn n_r n_c n * mX N pn n_r n_c n))
    ⟨.CpC core, 0⟩ M N (m * pm * m_c) (n * pn * n_c + core % mU N pn n_r n_c n * mX N pn n_r n_c n)
    (core / mU N pn n_r n_c n * mX M pm m_r m_c m)
    (mT M pm m_r m_c m (core / mU N pn n_r n_c n)) (mT N pn n_r n_c n (core % mU N pn n_r n_c n)) m_r n_r

omit h h' in
def tdFin (M N pm pn m_r n_r m_c n_c n m : Nat) : Prog :=
  [.par (gUnpack (geo2 M N pm pn m_r n_r m_c n_c n m) (tdUnp M N pm pn m_r n_r m_c n_c n m) m_c n_c)]

omit h h' in
/-- First row of a block as the code computes it. -/
theorem blk_start {T s m : Nat} (hs : 0 < s) :
    (if (m == cdiv T s - 1 && T % s != 0) = true then T - T % s else m * s) = m * s := by
  split
  · rename_i hl
    simp only [Bool.and_eq_true, beq_iff_eq] at hl
    rw [sub_mod_eq]
    have := cdiv_eq_div_add T s hs
    rw [hl.2] at this
    simp only [Bool.toNat_true] at this
    rw [show T / s = m by rw [hl.1, ← this, Nat.add_sub_cancel]]
  · rfl

theorem twoD_snake (kd : KDim) {x : BlkDims2} (hx : dims2d M N K m_r n_r pm pn m_c k_c n_c = some x) :
    phases (schedule_KMN_2d kd ⟨.A, 0⟩ ⟨.B, 0⟩ ⟨.C, 0⟩ M N K m_r n_r x) =
    snakeProg (cdiv N (pn * n_c)) (cdiv M (pm * m_c)) (cdiv K k_c)
      (tdStep kd M N K pm pn m_r n_r m_c k_c n_c) (tdFin M N pm pn m_r n_r m_c n_c) := by
  have hne : ¬ (pm * m_c = 0 ∨ pn * n_c = 0 ∨ k_c = 0) := by
    have := h.S_pos; have := h'.S_pos; have := h.k_c_pos; omega
  unfold dims2d at hx
  rw [if_neg hne, Option.some.injEq] at hx
  have hMb : x.Mb = cdiv M (pm * m_c) := by rw [← hx]; exact cdiv_eq_div_add _ _ h.S_pos
  have hNb : x.Nb = cdiv N (pn * n_c) := by rw [← hx]; exact cdiv_eq_div_add _ _ h'.S_pos
  have hKb : x.Kb = cdiv K k_c := by rw [← hx]; exact cdiv_eq_div_add _ _ h.k_c_pos
  have hpad : x.m_pad = (M % (pm * m_c) != 0) := by rw [← hx]
  have hnpad : x.n_pad = (N % (pn * n_c) != 0) := by rw [← hx]
  have hkpad : x.k_pad = (K % k_c != 0) := by rw [← hx]
  have hmc : x.m_c = m_c := by rw [← hx]
  have hnc : x.n_c = n_c := by rw [← hx]
  have hkc : x.k_c = k_c := by rw [← hx]
  have hkc1 : x.k_c1 = K % k_c := by rw [← hx]
  have hpm : x.pm = pm := by rw [← hx]
  have hpn : x.pn = pn := by rw [← hx]
  have hmr : x.mr_rem = cdiv (M % (pm * m_c)) m_r := by rw [← hx]
  have hnr : x.nr_rem = cdiv (N % (pn * n_c)) n_r := by rw [← hx]
  have hpml : x.pm_l = (dimsKMN M 0 0 pm m_r n_r m_c k_c n_c).p_l := by rw [← hx]; rfl
  have hpnl : x.pn_l = (dimsKMN N 0 0 pn n_r m_r n_c k_c m_c).p_l := by rw [← hx]; rfl
  have hm1 : x.m_c1 = (dimsKMN M 0 0 pm m_r n_r m_c k_c n_c).m_c1 := by rw [← hx]; rfl
  have hn1 : x.n_c1 = (dimsKMN N 0 0 pn n_r m_r n_c k_c m_c).m_c1 := by rw [← hx]; rfl
  have hml : x.m_c1_last_core = (dimsKMN M 0 0 pm m_r n_r m_c k_c n_c).m_c1_last_core := by rw [← hx]; rfl
  have hnl : x.n_c1_last_core = (dimsKMN N 0 0 pn n_r m_r n_c k_c m_c).m_c1_last_core := by rw [← hx]; rfl
  clear hx
  unfold phases schedule_KMN_2d snakeProg
  rw [hMb, hNb, hKb, hpad, hnpad, hkpad, hmc, hnc, hkc, hkc1, hpm, hpn, hmr, hnr, hpml, hpnl, hm1, hn1, hml, hnl]
  rw [map_flatMap]
  apply flatMap_congr
  intro n hn
  rw [mem_range] at hn
  rw [map_flatMap]
  apply flatMap_congr
  intro m hm
  rw [mem_serp] at hm
  obtain ⟨_, _, _, h4, _, h6⟩ := m_strips (N := 0) (K := 0) (k_c := k_c) (n_r := n_r) (n_c := n_c) h hm
  obtain ⟨_, _, _, h4', _, h6'⟩ := m_strips (N := 0) (K := 0) (k_c := k_c) (n_r := m_r) (n_c := m_c) h' hn
  change _ = mU M pm m_r m_c m at h4
  change _ = mU N pn n_r n_c n at h4'
  have e1 := blk_start (T := M) (m := m) h.S_pos
  have e2 := blk_start (T := N) (m := n) h'.S_pos
  rw [← Nat.mul_assoc] at e1 e2
  have hx : (if (m == cdiv M (pm * m_c) - 1 && M % (pm * m_c) != 0) = true then
        (dimsKMN M 0 0 pm m_r n_r m_c k_c n_c).m_c1 else m_c) = mX M pm m_r m_c m := rfl
  have hx' : (if (n == cdiv N (pn * n_c) - 1 && N % (pn * n_c) != 0) = true then
        (dimsKMN N 0 0 pn n_r m_r n_c k_c m_c).m_c1 else n_c) = mX N pn n_r n_c n := rfl
  have hms : (if n % 2 ≠ 0 then cdiv M (pm * m_c) - 1 else 0) =
      serpStart (n % 2 != 0) (cdiv M (pm * m_c)) := by
    unfold serpStart; simp only [bne_iff_ne]
  simp only [e1, e2, m_len h hm, m_len h' hn, hms]
  rw [h4, h4', hx, hx', map_append]
  refine congrArg₂ (· ++ ·) ?_ ?_
  · rw [map_flatMap]
    apply flatMap_congr
    intro k hk
    rw [mem_serp] at hk
    rw [k_len h.k_c_pos hk]
    have hks : (if (if n % 2 ≠ 0 then (if m % 2 ≠ 0 then false else true)
        else (if m % 2 ≠ 0 then true else false)) = true then cdiv K k_c - 1 else 0) =
        serpStart (kDesc n m) (cdiv K k_c) := rfl
    rw [hks, map_append, map_append]
    unfold tdStep
    refine congrArg₂ (· ++ ·) (congrArg₂ (· ++ ·) ?_ ?_) ?_
    · split
      · rfl
      · rw [map_singleton]
        refine congrArg (fun t => [Item.par t]) ?_
        have := kernelsB_eq .Bp (⟨.B, 0⟩ +ₚ (n * pn * n_c + k * k_c * N)) n_r (mLen N pn n_r n_c n) (chopLen K k_c k) N
        simp only [off_off] at this
        exact this
    · split
      · rfl
      · rw [map_singleton]
        refine congrArg (fun t => [Item.par t]) ?_
        have := kernelsA_eq .Ap (⟨.A, 0⟩ +ₚ (m * pm * m_c * K + k * k_c)) m_r (mLen M pm m_r m_c m) (chopLen K k_c k) K
        simp only [off_off] at this
        exact this
    · rw [map_singleton]
      refine congrArg (fun t => [Item.par t]) ?_
      unfold gTasks
      apply map_congr_left
      intro core hcore
      rw [mem_range] at hcore
      rw [h6 _ (geo2_div (n := n) (m := m) hcore), h6' _ (geo2_mod (n := n) (m := m) hcore)]
      simp only [Loc.off, Nat.zero_add, nil_append]
      rfl
  · rw [map_singleton]
    refine congrArg (fun t => [Item.par t]) ?_
    unfold gUnpack
    apply map_congr_left
    intro core hcore
    rw [mem_range] at hcore
    rw [h6 _ (geo2_div (n := n) (m := m) hcore), h6' _ (geo2_mod (n := n) (m := m) hcore)]
    rfl

/-! ### The schedule -/

theorem twoD_sched (hp : pm * pn ≤ p) {kd : KDim} (hk : kd.Fits m_r n_r) {s0 : State α}
    {sz : Buf → Option Nat} {x : BlkDims2} (hx : dims2d M N K m_r n_r pm pn m_c k_c n_c = some x)
    (hf : ∀ b : Buf, b ≠ .A → b ≠ .B → b ≠ .C → b ≠ .Ctx → s0.size b = none)
    (hsz : ∀ b, s0.size b ≠ none → sz b = s0.size b)
    (hA : s0.size .A ≠ none) (hB : s0.size .B ≠ none) (hC : Room s0 .C M N)
    (hS : S → PadReadable s0 (padTo M (pm * m_c) m_r) (padTo N (pn * n_c) n_r) N K)
    (hap : sz .Ap = some (pm * m_c * k_c)) (hbp : sz .Bp = some (pn * n_c * k_c))
    (hcp : ∀ i, i < p → sz (.CpC i) = some (m_c * n_c)) :
    STriple S F
      (Env s0 sz (cX M N) fun mem init =>
        ∀ i x, i < p → mem ⟨.CpC i, x⟩ = F.zero ∧ init ⟨.CpC i, x⟩ = true)
      (phases (schedule_KMN_2d kd ⟨.A, 0⟩ ⟨.B, 0⟩ ⟨.C, 0⟩ M N K m_r n_r x))
      (Env s0 sz (cX M N) fun mem init => ∀ r c, r < M → c < N →
        init ⟨.C, r * N + c⟩ = true ∧ mem ⟨.C, r * N + c⟩ =
          dotFrom F (entry s0 .A K r) (fun k => entry s0 .B N k c)
            (orderKMN K pm m_c k_c (pn * n_c) r c) F.zero) := by
  rw [twoD_snake h h' kd hx]
  obtain ⟨nC, hnC, hleC⟩ := hC
  have hCin : ∀ x, x < M * N → InB sz ⟨.C, x⟩ := fun x hx =>
    inB_of (by rw [hsz _ (by simp [hnC])]; exact hnC) (by omega)
  let a := entry s0 .A K
  let b := entry s0 .B N
  let geo := geo2 M N pm pn m_r n_r m_c n_c
  let ord := fun n m => serp (kDesc n m) (cdiv K k_c)
  let PA := fun m k => Packed (α := α) .Ap m_r (mLen M pm m_r m_c m) (m * (pm * m_c)) M K k_c a k
  let PB := fun n k => Packed (α := α) .Bp n_r (mLen N pn n_r n_c n) (n * (pn * n_c)) N K k_c (fun c k => b k c) k
  have key := snake_triple (S := S) (F := F) (Nb := cdiv N (pn * n_c)) (Mb := cdiv M (pm * m_c)) (Kb := cdiv K k_c)
    (step := tdStep kd M N K pm pn m_r n_r m_c k_c n_c) (fin := tdFin M N pm pn m_r n_r m_c n_c)
    (AH := fun m k s => PA m k s.mem s.init)
    (BH := fun n k s => PB n k s.mem s.init)
    (R := fun bl s => Env s0 sz (cX M N)
      (RunR F geo ord (cdiv N (pn * n_c)) (cdiv M (pm * m_c)) M N K p m_c k_c n_c a b bl) s)
    (W := fun bl n m ks s => n < cdiv N (pn * n_c) → m < cdiv M (pm * m_c) → Env s0 sz (cX M N)
      (RunW F geo ord (cdiv N (pn * n_c)) (cdiv M (pm * m_c)) M N K p m_r n_r m_c k_c n_c a b bl n m ks) s)
    ?_ ?_ ?_
  · refine key.conseq ?_ ?_
    · intro s hs
      exact ⟨hs.size, hs.keep, by intro x hx; simp at hx, fun i x hi _ => (hs.fact i x hi).1,
        fun i x hi _ => (hs.fact i x hi).2⟩
    · intro s hs
      refine ⟨hs.size, hs.keep, ?_⟩
      intro row col hrow hcol
      obtain ⟨m, i, r, hm, hi, hr, rfl⟩ := rowOf_cover h hrow
      obtain ⟨n, j, c, hn, hj, hc, rfl⟩ := rowOf_cover h' hcol
      have hmem : (n, m) ∈ snakeBlocks (cdiv N (pn * n_c)) (cdiv M (pm * m_c)) := by
        unfold snakeBlocks
        exact mem_flatMap.2 ⟨n, mem_range.2 hn, mem_map.2 ⟨m, mem_serp.2 hm, rfl⟩⟩
      obtain ⟨_, _, h3⟩ := hs.fact.1 (n, m) hmem
      have hd : (i * mU N pn n_r n_c n + j) / mU N pn n_r n_c n = i := mulAdd_div hj
      have hmo : (i * mU N pn n_r n_c n + j) % mU N pn n_r n_c n = j := mulAdd_mod hj
      have := h3 (i * mU N pn n_r n_c n + j) r c (mulAdd_lt hi hj)
        (by simp only [geo, geo2]; rw [hd]; exact hr) (by simp only [geo, geo2]; rw [hmo]; exact hc)
        (by rw [geo2_row, hd]; exact hrow) (by rw [geo2_col, hmo]; exact hcol)
      rw [geo2_row, geo2_col, hd, hmo] at this
      refine ⟨this.2, this.1.trans ?_⟩
      have e1 : rowOf M pm m_r m_c m i r / (pm * m_c) = m := mulAdd_div (strip_in_block hr)
      have e2 : rowOf N pn n_r n_c n j c / (pn * n_c) = n := mulAdd_div (strip_in_block hc)
      unfold orderKMN
      rw [e1, e2]
  · intro bl n m s hs hn hm
    exact ⟨hs.size, hs.keep, RunR.start (geo2_ok h h' hp hn hm) hs.fact⟩
  · -- one step
    intro bl n m ks k rA rB hn hm hkk
    have hg : (geo n m).OK M N p m_r n_r m_c n_c := geo2_ok h h' hp hn hm
    have hkc : chopLen K k_c k ≤ k_c := chopLen_le _ _ _
    have hkb : ∀ kk, kk < chopLen K k_c k → k * k_c + kk < K := fun kk hkk => chop_bound hkk
    have hms := m_strips (N := 0) (K := 0) h hm
    have hns := m_strips (N := 0) (K := 0) h' hn
    have dvdA : m_r ∣ mLen M pm m_r m_c m := chopLen_dvd (padTo_dvd h.S_dvd) h.S_dvd
    have dvdB : n_r ∣ mLen N pn n_r n_c n := chopLen_dvd (padTo_dvd h'.S_dvd) h'.S_dvd
    have hszA : sz .Ap = some (pm * m_c * k_c) ∧ mLen M pm m_r m_c m * chopLen K k_c k ≤ pm * m_c * k_c :=
      ⟨hap, Nat.mul_le_mul (chopLen_le _ _ _) hkc⟩
    have hszB : sz .Bp = some (pn * n_c * k_c) ∧ mLen N pn n_r n_c n * chopLen K k_c k ≤ pn * n_c * k_c :=
      ⟨hbp, Nat.mul_le_mul (chopLen_le _ _ _) hkc⟩
    have srcB : ∀ c i, (⟨.B, 0⟩ : Loc) +ₚ (n * pn * n_c + k * k_c * N) +ₚ (i * N + c) =
        ⟨.B, (k * k_c + i) * N + (n * (pn * n_c) + c)⟩ := by
      intro c i
      simp only [Loc.off, Loc.mk.injEq, true_and]
      ring
    have srcA : ∀ r i, (⟨.A, 0⟩ : Loc) +ₚ (m * pm * m_c * K + k * k_c) +ₚ (r * K + i) =
        ⟨.A, (m * (pm * m_c) + r) * K + (k * k_c + i)⟩ := by
      intro r i
      simp only [Loc.off, Loc.mk.injEq, true_and]
      ring
    let W := RunW F geo ord (cdiv N (pn * n_c)) (cdiv M (pm * m_c)) M N K p m_r n_r m_c k_c n_c a b bl n m ks
    have tB := packed_phase (S := S) (F := F) (s0 := s0) (sz := sz) (X := cX M N)
      (P := fun mem init => W mem init ∧ (rA = true → PA m k mem init)) (dst := .Bp)
      (src := ⟨.B, 0⟩ +ₚ (n * pn * n_c + k * k_c * N)) (u := n_r) (len := mLen N pn n_r n_c n)
      (base := n * (pn * n_c)) (T := N) (K := K) (k_c := k_c) (k := k) (f := fun c i => i * N + c)
      (v := fun c k => b k c) rB h.n_r_pos dvdB (by simp [Loc.off]) (hf _ (by simp) (by simp) (by simp) (by simp))
      (Stable.and (RunW.stable (by simp) (by simp)) (Stable.imp _ (Packed.stable (by simp))))
      (fun _ => hszB)
      (by
        intro hs r i hr hi
        rw [srcB r i]
        have := (hS hs).2 (k * k_c + i) (n * (pn * n_c) + r) (hkb i hi) (chop_bound hr)
        exact ⟨InB.mono hsz this.1, this.2⟩)
      (by intro r i _ _ _; rw [srcB r i]; rfl)
      hB (by intro l hl; rw [hl.1]; simp [Loc.off])
    have tA := packed_phase (S := S) (F := F) (s0 := s0) (sz := sz) (X := cX M N)
      (P := fun mem init => W mem init ∧ PB n k mem init) (dst := .Ap)
      (src := ⟨.A, 0⟩ +ₚ (m * pm * m_c * K + k * k_c)) (u := m_r) (len := mLen M pm m_r m_c m)
      (base := m * (pm * m_c)) (T := M) (K := K) (k_c := k_c) (k := k) (f := fun r i => r * K + i)
      (v := a) rA h.m_r_pos dvdA (by simp [Loc.off]) (hf _ (by simp) (by simp) (by simp) (by simp))
      (Stable.and (RunW.stable (by simp) (by simp)) (Packed.stable (by simp)))
      (fun _ => hszA)
      (by
        intro hs r i hr hi
        rw [srcA r i]
        have := (hS hs).1 (m * (pm * m_c) + r) (k * k_c + i) (chop_bound hr) (hkb i hi)
        exact ⟨InB.mono hsz this.1, this.2⟩)
      (by intro r i _ _ _; rw [srcA r i]; rfl)
      hA (by intro l hl; rw [hl.1]; simp [Loc.off])
    have tC := grid_compute (S := S) (F := F) (s0 := s0) (sz := sz) (geo := geo) (ord := ord)
      (Nb := cdiv N (pn * n_c)) (Mb := cdiv M (pm * m_c)) (a := a) (b := b) (k_c := k_c) (K := K) (k := k)
      (bl := bl) (n := n) (m := m) (ks := ks) (kd := kd)
      (lenA := mLen M pm m_r m_c m) (baseA := m * (pm * m_c)) (lenB := mLen N pn n_r n_c n)
      (baseB := n * (pn * n_c)) (offA := fun i => i / mU N pn n_r n_c n * mX M pm m_r m_c m)
      (offB := fun i => i % mU N pn n_r n_c n * mX N pn n_r n_c n) hg hk hf
      (fun i _ => ⟨Dvd.dvd.mul_left hms.2.2.1 _, rfl⟩) (fun i _ => ⟨Dvd.dvd.mul_left hns.2.2.1 _, rfl⟩)
      (fun i r _ hr _ => chop_bound hr) (fun i c _ hc _ => chop_bound hc)
      (fun _ i hi _ => chop_bound' hms.1 (geo2_div hi)) (fun _ i hi _ => chop_bound' hns.1 (geo2_mod hi))
      (fun _ => hszA) (fun _ => hszB) hcp
    unfold tdStep
    refine STriple.seq (STriple.seq (tB.conseq ?_ (fun _ h => h)) (tA.conseq ?_ (fun _ h => h))) (tC.conseq ?_ ?_)
    · rintro s ⟨h1, h2, h3⟩
      have h1 := h1 hn hm
      exact ⟨h1.size, h1.keep, ⟨h1.fact, h2⟩, h3⟩
    · intro s hs
      exact ⟨hs.size, hs.keep, ⟨hs.fact.1.1, hs.fact.2⟩, hs.fact.1.2⟩
    · intro s hs
      exact ⟨hs.size, hs.keep, hs.fact.1.1, hs.fact.2, hs.fact.1.2⟩
    · intro s hs
      exact ⟨fun _ _ => ⟨hs.size, hs.keep, hs.fact.1⟩, hs.fact.2.1, hs.fact.2.2⟩
  · -- end of a block
    intro bl n m hn hm q k
    unfold tdFin
    refine (unpack_phase (S := S) (F := F) (s0 := s0) (sz := sz) (geo := geo) (ord := ord) (n := n) (m := m)
      (Nb := cdiv N (pn * n_c)) (Mb := cdiv M (pm * m_c)) (a := a) (b := b) (k_c := k_c) (K := K) (bl := bl)
      (PP := fun mem init => q → PA m k mem init ∧ PB n k mem init)
      (fun n m hn hm => geo2_ok h h' hp hn hm) ?_ ?_ hn hm hf ?_ hcp hCin).conseq ?_ ?_
    · intro n m n' m' _ _ _ _ i j r r' c c' _ _ hr hr' hc hc' e1 e2 _ _
      rw [geo2_row, geo2_row] at e1
      rw [geo2_col, geo2_col] at e2
      exact ⟨(rowOf_inj hc hc' e2).1, (rowOf_inj hr hr' e1).1⟩
    · intro i hi o
      unfold tdUnp
      rw [unpackC_mem _ _ _ _ _ _ _ _ _ _ _ h.m_r_pos h.n_r_pos (mT_dvd h hm) (mT_dvd h' hn)]
      have ec : ∀ c, n * pn * n_c + i % mU N pn n_r n_c n * mX N pn n_r n_c n + c = (geo n m).cb i + c := by
        intro c; simp only [geo, geo2]; rw [Nat.mul_assoc n]
      have er : ∀ r, m * pm * m_c + i / mU N pn n_r n_c n * mX M pm m_r m_c m + r = (geo n m).rb i + r := by
        intro r; simp only [geo, geo2]; rw [Nat.mul_assoc m]
      constructor
      · rintro ⟨r, c, hr, hc, h1, h2, rfl⟩
        refine ⟨r, c, hr, hc, ?_, ?_, ?_⟩
        · rw [← er]; exact h2
        · rw [← ec]; exact h1
        · rw [off_off]
          simp only [Loc.off, geo, geo2]
          congr 2
          · ring
          · omega
      · rintro ⟨r, c, hr, hc, h1, h2, rfl⟩
        refine ⟨r, c, hr, hc, ?_, ?_, ?_⟩
        · rw [ec]; exact h2
        · rw [er]; exact h1
        · rw [off_off]
          simp only [Loc.off, geo, geo2]
          congr 2
          · ring
          · omega
    · exact Stable.imp _ (Stable.and (Packed.stable (by simp)) (Packed.stable (by simp)))
    · rintro s ⟨h1, h2⟩
      have h1 := h1 hn hm
      exact ⟨h1.size, h1.keep, h1.fact, h2⟩
    · intro s hs
      exact ⟨⟨hs.size, hs.keep, hs.fact.1⟩, hs.fact.2⟩

/-- The complete call. -/
theorem sgemm2d_triple (hp : pm * pn ≤ p) {cx : Cntx} (hmr : cx.m_r = m_r) (hnr : cx.n_r = n_r)
    (hk : cx.kfix.Fits m_r n_r) {x : BlkDims2} (hx : dims2d M N K m_r n_r pm pn m_c k_c n_c = some x)
    {s0 : State α} (hs0 : CallOK s0 M N K)
    (hS : S → PadReadable s0 (padTo M (pm * m_c) m_r) (padTo N (pn * n_c) n_r) N K) :
    STriple S F (· = s0) (sgemm2dBody cx ⟨.A, 0⟩ ⟨.B, 0⟩ ⟨.C, 0⟩ M N K p x)
      (Env s0 s0.size (cX M N) (fun mem init => ∀ r c, r < M → c < N →
        init ⟨.C, r * N + c⟩ = true ∧ mem ⟨.C, r * N + c⟩ =
          dotFrom F (entry s0 .A K r) (fun k => entry s0 .B N k c)
            (orderKMN K pm m_c k_c (pn * n_c) r c) F.zero)) := by
  subst hmr hnr
  obtain ⟨⟨nA, hnA, _⟩, _⟩ := hs0.a
  obtain ⟨⟨nB, hnB, _⟩, _⟩ := hs0.b
  have hne : ¬ (pm * m_c = 0 ∨ pn * n_c = 0 ∨ k_c = 0) := by
    have := h.S_pos; have := h'.S_pos; have := h.k_c_pos; omega
  have hx' := hx
  unfold dims2d at hx'
  rw [if_neg hne, Option.some.injEq] at hx'
  have hmc : x.m_c = m_c := by rw [← hx']
  have hnc : x.n_c = n_c := by rw [← hx']
  have hkc : x.k_c = k_c := by rw [← hx']
  have hpm : x.pm = pm := by rw [← hx']
  have hpn : x.pn = pn := by rw [← hx']
  unfold sgemm2dBody
  rw [hmc, hnc, hkc, hpm, hpn]
  apply grid_call hs0
  intro sz hsz hap hbp hcp
  exact twoD_sched h h' hp hk hx hs0.fresh hsz (by simp [hnA]) (by simp [hnB]) hs0.c hS hap hbp hcp

end
end Cake
