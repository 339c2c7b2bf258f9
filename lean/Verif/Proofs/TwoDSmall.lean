/-
`cake_sgemm_2d_small`: the complete program.
-/
import Verif.Proofs.TwoD
import Verif.Proofs.TwoDDims

namespace Cake
open List

variable {α : Type _} {F : Arith α} {S : Prop}

/-- The tile chosen by `init_block_dims_2d_small` along one side: `T` padded to register tiles, over `q` cores,
rounded to the next multiple of `r`, always upwards. -/
def smallTile (T q r : Nat) : Nat := T / q + (r - T / q % r)

theorem smallTile_dvd {T q r : Nat} (hr : 0 < r) : r ∣ smallTile T q r := by
  unfold smallTile
  have h1 := Nat.div_add_mod (T / q) r
  have h2 := Nat.mod_lt (T / q) hr
  refine ⟨T / q / r + 1, ?_⟩
  rw [Nat.mul_add, Nat.mul_one]
  omega

theorem smallTile_gt {T q r : Nat} (hr : 0 < r) : T / q < smallTile T q r := by
  have := Nat.mod_lt (T / q) hr
  unfold smallTile
  omega

theorem smallTile_big {T q r : Nat} (hr : 0 < r) (hq : 0 < q) : T < q * smallTile T q r := by
  have := (Nat.div_lt_iff_lt_mul hq).1 (smallTile_gt (T := T) (q := q) hr)
  rwa [Nat.mul_comm]

/-- Rows (columns) of core row (column) `a` of `q`. -/
def smallLen (T q r n a : Nat) : Nat :=
  if (a == q - 1 && n % smallTile T q r != 0) = true then T - (q - 1) * smallTile T q r else smallTile T q r

theorem smallLen_dvd {T q r n a : Nat} (hr : 0 < r) (hT : r ∣ T) : r ∣ smallLen T q r n a := by
  unfold smallLen
  split
  · exact Nat.dvd_sub hT (Dvd.dvd.mul_left (smallTile_dvd hr) _)
  · exact smallTile_dvd hr

theorem smallLen_le {T q r n a : Nat} (hr : 0 < r) (hq : 0 < q) : smallLen T q r n a ≤ smallTile T q r := by
  unfold smallLen
  split
  · have := smallTile_big (T := T) hr hq
    have e : q * smallTile T q r = (q - 1) * smallTile T q r + smallTile T q r := by
      rw [← Nat.succ_mul]; congr 1; omega
    omega
  · exact Nat.le_refl _

/-- Every lane is in the strip of one core row. -/
theorem smallLen_cover {T q r n x : Nat} (hr : 0 < r) (hq : 0 < q) (hx : x < T) :
    x / smallTile T q r < q ∧ x % smallTile T q r < smallLen T q r n (x / smallTile T q r) := by
  have hb := smallTile_big (T := T) hr hq
  have hp : 0 < smallTile T q r := Nat.lt_of_le_of_lt (Nat.zero_le _) (smallTile_gt hr)
  have h1 := Nat.div_add_mod x (smallTile T q r)
  have h2 := Nat.mod_lt x hp
  refine ⟨Nat.div_lt_of_lt_mul (by rw [Nat.mul_comm]; omega), ?_⟩
  unfold smallLen
  split
  · rename_i h
    simp only [Bool.and_eq_true, beq_iff_eq] at h
    rw [← h.1, Nat.mul_comm]
    omega
  · exact h2

/-- The packed operand has room for what the cores read. -/
def SmallFits (T q r n : Nat) : Prop := n % smallTile T q r ≠ 0 ∧ (q - 1) * smallTile T q r ≤ T

theorem SmallFits.le {T q r n a : Nat} (h : SmallFits T q r n) (ha : a < q) :
    a * smallTile T q r + smallLen T q r n a ≤ T := by
  unfold smallLen
  split
  · rename_i h'
    simp only [Bool.and_eq_true, beq_iff_eq] at h'
    have := h.2
    rw [h'.1]
    omega
  · rename_i h'
    have hne : a ≠ q - 1 := by
      intro e; apply h'; simp [e, h.1]
    have : (a + 1) * smallTile T q r ≤ (q - 1) * smallTile T q r := Nat.mul_le_mul_right _ (by omega)
    rw [Nat.add_mul] at this
    have := h.2
    omega

section
variable {M N K p pn m_r n_r k_c : Nat}

/-- Rectangles of the schedule for small matrices. -/
def geoS (M N p pn m_r n_r : Nat) : Geo where
  u := p
  rb i := i / pn * smallTile (roundUpC M m_r) (p / pn) m_r
  cb i := i % pn * smallTile (roundUpC N n_r) pn n_r
  mt i := smallLen (roundUpC M m_r) (p / pn) m_r M (i / pn)
  nt i := smallLen (roundUpC N n_r) pn n_r N (i % pn)

variable (hm : 0 < m_r) (hn : 0 < n_r) (hpn : 0 < pn) (hp : pn ≤ p)
include hm hn hpn hp

theorem geoS_ok : (geoS M N p pn m_r n_r).OK M N p m_r n_r (smallTile (roundUpC M m_r) (p / pn) m_r)
    (smallTile (roundUpC N n_r) pn n_r) where
  u_le := Nat.le_refl _
  m_pos := hm
  n_pos := hn
  m_dvd _ _ := smallLen_dvd hm (roundUpC_dvd hm)
  n_dvd _ _ := smallLen_dvd hn (roundUpC_dvd hn)
  m_le _ _ := smallLen_le hm (Nat.div_pos hp hpn)
  n_le _ _ := smallLen_le hn hpn
  disj := by
    intro i j hi hj r r' c c' hr hr' hc hc' e e' _ _
    have lr := Nat.lt_of_lt_of_le hr (smallLen_le hm (Nat.div_pos hp hpn))
    have lr' := Nat.lt_of_lt_of_le hr' (smallLen_le hm (Nat.div_pos hp hpn))
    have lc := Nat.lt_of_lt_of_le hc (smallLen_le hn hpn)
    have lc' := Nat.lt_of_lt_of_le hc' (smallLen_le hn hpn)
    have e1 : i / pn = j / pn := by
      have := congrArg (· / smallTile (roundUpC M m_r) (p / pn) m_r) e
      simp only [geoS] at this
      rwa [mulAdd_div lr, mulAdd_div lr'] at this
    have e2 : i % pn = j % pn := by
      have := congrArg (· / smallTile (roundUpC N n_r) pn n_r) e'
      simp only [geoS] at this
      rwa [mulAdd_div lc, mulAdd_div lc'] at this
    rw [← Nat.div_add_mod i pn, ← Nat.div_add_mod j pn, e1, e2]

omit hm hn hpn hp in
def smStep (kd : KDim) (M N K p pn m_r n_r k_c k : Nat) : Prog :=
  [.par (gstrips .Bp (⟨.B, 0⟩ +ₚ (k * k_c * N)) n_r (roundUpC N n_r) (chopLen K k_c k) (fun c i => i * N + c))] ++
  [.par (gstrips .Ap (⟨.A, 0⟩ +ₚ (k * k_c)) m_r (roundUpC M m_r) (chopLen K k_c k) (fun r i => r * K + i))] ++
  [.par (gTasks (geoS M N p pn m_r n_r) kd (fun _ => [])
    (fun i => ⟨.Ap, (geoS M N p pn m_r n_r).rb i * chopLen K k_c k⟩)
    (fun i => ⟨.Bp, (geoS M N p pn m_r n_r).cb i * chopLen K k_c k⟩) m_r n_r (chopLen K k_c k))]

omit hm hn hpn hp in
def smUnp (M N p pn m_r n_r core : Nat) : List Op :=
  let g := geoS M N p pn m_r n_r
  unpack_ob_C_single_buf (⟨.C, 0⟩ +ₚ (g.rb core * N + g.cb core)) ⟨.CpC core, 0⟩ M N 0 (g.cb core) (g.rb core)
    (g.mt core) (g.nt core) m_r n_r

omit hm hn hpn hp in
theorem small_eq (kd : KDim) (hkc : 0 < k_c) {x : BlkDims2}
    (e1 : x.m_c = smallTile (roundUpC M m_r) (p / pn) m_r) (e2 : x.n_c = smallTile (roundUpC N n_r) pn n_r)
    (e3 : x.k_c = k_c) (e4 : x.m_c1 = roundUpC M m_r - (p / pn - 1) * x.m_c)
    (e5 : x.n_c1 = roundUpC N n_r - (pn - 1) * x.n_c) (e6 : x.k_c1 = K % k_c)
    (e7 : x.k_pad = (K % k_c != 0)) (e8 : x.n_pad = (N % x.n_c != 0)) (e9 : x.m_pad = (M % x.m_c != 0))
    (e10 : x.Kb = cdiv K k_c) (e11 : x.M_padded = roundUpC M m_r) (e12 : x.N_padded = roundUpC N n_r)
    (e13 : x.pm = p / pn) (e14 : x.pn = pn) :
    phases (schedule_KMN_2d_small kd ⟨.A, 0⟩ ⟨.B, 0⟩ ⟨.C, 0⟩ M N K p m_r n_r x) =
      (range (cdiv K k_c)).flatMap (smStep kd M N K p pn m_r n_r k_c) ++
      [.par (gUnpack (geoS M N p pn m_r n_r) (smUnp M N p pn m_r n_r) (smallTile (roundUpC M m_r) (p / pn) m_r)
        (smallTile (roundUpC N n_r) pn n_r))] := by
  unfold phases schedule_KMN_2d_small
  rw [e4, e5, e6, e7, e8, e9, e10, e11, e12, e13, e14, e3, e1, e2, cfor_one, map_append]
  refine congrArg₂ (· ++ ·) ?_ ?_
  · rw [map_flatMap]
    apply flatMap_congr
    intro k hk
    rw [mem_range] at hk
    simp only [k_len hkc hk]
    have hB := kernelsB_eq .Bp (⟨.B, 0⟩ +ₚ (k * k_c * N)) n_r (roundUpC N n_r) (chopLen K k_c k) N
    have hA := kernelsA_eq .Ap (⟨.A, 0⟩ +ₚ (k * k_c)) m_r (roundUpC M m_r) (chopLen K k_c k) K
    simp only [off_off] at hA hB
    rw [hA, hB]
    unfold smStep gTasks
    simp only [map_cons, map_nil, Loc.off, Nat.zero_add, nil_append]
    rfl
  · rfl

/-! ### The schedule -/

theorem small_sched {kd : KDim} (hkc : 0 < k_c) (hk : kd.Fits m_r n_r) {s0 : State α}
    {sz : Buf → Option Nat}
    (hf : ∀ b : Buf, b ≠ .A → b ≠ .B → b ≠ .C → b ≠ .Ctx → s0.size b = none)
    (hsz : ∀ b, s0.size b ≠ none → sz b = s0.size b)
    (hA : s0.size .A ≠ none) (hB : s0.size .B ≠ none) (hC : Room s0 .C M N)
    (hS : S → PadReadable s0 (roundUpC M m_r) (roundUpC N n_r) N K)
    (hfit : S → 0 < K → pn ∣ p ∧ SmallFits (roundUpC M m_r) (p / pn) m_r M ∧ SmallFits (roundUpC N n_r) pn n_r N)
    (hap : sz .Ap = some (roundUpC M m_r * k_c)) (hbp : sz .Bp = some (k_c * roundUpC N n_r))
    (hcp : ∀ i, i < p → sz (.CpC i) =
      some (smallTile (roundUpC M m_r) (p / pn) m_r * smallTile (roundUpC N n_r) pn n_r)) :
    STriple S F
      (Env s0 sz (cX M N) fun mem init =>
        ∀ i x, i < p → mem ⟨.CpC i, x⟩ = F.zero ∧ init ⟨.CpC i, x⟩ = true)
      ((range (cdiv K k_c)).flatMap (smStep kd M N K p pn m_r n_r k_c) ++
        [.par (gUnpack (geoS M N p pn m_r n_r) (smUnp M N p pn m_r n_r) (smallTile (roundUpC M m_r) (p / pn) m_r)
          (smallTile (roundUpC N n_r) pn n_r))])
      (Env s0 sz (cX M N) fun mem init => ∀ r c, r < M → c < N →
        init ⟨.C, r * N + c⟩ = true ∧ mem ⟨.C, r * N + c⟩ =
          dotFrom F (entry s0 .A K r) (fun k => entry s0 .B N k c) (range K) F.zero) := by
  obtain ⟨nC, hnC, hleC⟩ := hC
  have hCin : ∀ x, x < M * N → InB sz ⟨.C, x⟩ := fun x hx =>
    inB_of (by rw [hsz _ (by simp [hnC])]; exact hnC) (by omega)
  let a := entry s0 .A K
  let b := entry s0 .B N
  let g := geoS M N p pn m_r n_r
  let m_c := smallTile (roundUpC M m_r) (p / pn) m_r
  let n_c := smallTile (roundUpC N n_r) pn n_r
  let geo : Nat → Nat → Geo := fun _ _ => g
  let ord : Nat → Nat → List Nat := fun _ _ => range (cdiv K k_c)
  have hg : g.OK M N p m_r n_r m_c n_c := geoS_ok hm hn hpn hp
  let W := fun ks => RunW F geo ord 1 1 M N K p m_r n_r m_c k_c n_c a b [] 0 0 ks
  have hstep : ∀ k, k < cdiv K k_c → ∀ ks, STriple S F (Env s0 sz (cX M N) (W ks))
      (smStep kd M N K p pn m_r n_r k_c k) (Env s0 sz (cX M N) (W (ks ++ [k]))) := by
    intro k hkk ks
    have hKpos : 0 < K := Nat.lt_of_le_of_lt (Nat.zero_le _) (chop_mul_lt hkc hkk)
    have hkle : chopLen K k_c k ≤ k_c := chopLen_le _ _ _
    have hkb : ∀ kk, kk < chopLen K k_c k → k * k_c + kk < K := fun kk hkk => chop_bound hkk
    have hszA : sz .Ap = some (roundUpC M m_r * k_c) ∧ roundUpC M m_r * chopLen K k_c k ≤ roundUpC M m_r * k_c :=
      ⟨hap, Nat.mul_le_mul_left _ hkle⟩
    have hszB : sz .Bp = some (k_c * roundUpC N n_r) ∧ roundUpC N n_r * chopLen K k_c k ≤ k_c * roundUpC N n_r :=
      ⟨hbp, by rw [Nat.mul_comm k_c]; exact Nat.mul_le_mul_left _ hkle⟩
    have srcB : ∀ c i, (⟨.B, 0⟩ : Loc) +ₚ (k * k_c * N) +ₚ (i * N + c) = ⟨.B, (k * k_c + i) * N + c⟩ := by
      intro c i
      simp only [Loc.off, Loc.mk.injEq, true_and]
      ring
    have srcA : ∀ r i, (⟨.A, 0⟩ : Loc) +ₚ (k * k_c) +ₚ (r * K + i) = ⟨.A, r * K + (k * k_c + i)⟩ := by
      intro r i
      simp only [Loc.off, Loc.mk.injEq, true_and]
      ring
    let PA := Packed (α := α) .Ap m_r (roundUpC M m_r) 0 M K k_c a k
    let PB := Packed (α := α) .Bp n_r (roundUpC N n_r) 0 N K k_c (fun c k => b k c) k
    have tB := packed_phase (S := S) (F := F) (s0 := s0) (sz := sz) (X := cX M N)
      (P := W ks) (dst := .Bp)
      (src := ⟨.B, 0⟩ +ₚ (k * k_c * N)) (u := n_r) (len := roundUpC N n_r)
      (base := 0) (T := N) (K := K) (k_c := k_c) (k := k) (f := fun c i => i * N + c)
      (v := fun c k => b k c) false hn (roundUpC_dvd hn) (by simp [Loc.off]) (hf _ (by simp) (by simp) (by simp) (by simp))
      (RunW.stable (by simp) (by simp))
      (fun _ => hszB)
      (by
        intro hs r i hr hi
        rw [srcB r i]
        have := (hS hs).2 (k * k_c + i) r (hkb i hi) hr
        exact ⟨InB.mono hsz this.1, this.2⟩)
      (by intro r i _ _ _; rw [srcB r i, Nat.zero_add]; rfl)
      hB (by intro l hl; rw [hl.1]; simp [Loc.off])
    have tA := packed_phase (S := S) (F := F) (s0 := s0) (sz := sz) (X := cX M N)
      (P := fun mem init => W ks mem init ∧ PB mem init) (dst := .Ap)
      (src := ⟨.A, 0⟩ +ₚ (k * k_c)) (u := m_r) (len := roundUpC M m_r)
      (base := 0) (T := M) (K := K) (k_c := k_c) (k := k) (f := fun r i => r * K + i)
      (v := a) false hm (roundUpC_dvd hm) (by simp [Loc.off]) (hf _ (by simp) (by simp) (by simp) (by simp))
      (Stable.and (RunW.stable (by simp) (by simp)) (Packed.stable (by simp)))
      (fun _ => hszA)
      (by
        intro hs r i hr hi
        rw [srcA r i]
        have := (hS hs).1 r (k * k_c + i) hr (hkb i hi)
        exact ⟨InB.mono hsz this.1, this.2⟩)
      (by intro r i _ _ _; rw [srcA r i, Nat.zero_add]; rfl)
      hA (by intro l hl; rw [hl.1]; simp [Loc.off])
    have hdiv : ∀ i, pn ∣ p → i < p → i / pn < p / pn := fun i hd hi =>
      Nat.div_lt_of_lt_mul (by rw [Nat.mul_div_cancel' hd]; exact hi)
    have tC := grid_compute (S := S) (F := F) (s0 := s0) (sz := sz) (geo := geo) (ord := ord)
      (Nb := 1) (Mb := 1) (a := a) (b := b) (k_c := k_c) (K := K) (k := k)
      (bl := []) (n := 0) (m := 0) (ks := ks) (kd := kd)
      (lenA := roundUpC M m_r) (baseA := 0) (lenB := roundUpC N n_r)
      (baseB := 0) (offA := g.rb) (offB := g.cb) hg hk hf
      (fun i _ => ⟨Dvd.dvd.mul_left (smallTile_dvd hm) _, Nat.zero_add _⟩)
      (fun i _ => ⟨Dvd.dvd.mul_left (smallTile_dvd hn) _, Nat.zero_add _⟩)
      (fun i r _ _ h => Nat.lt_of_lt_of_le h (roundUpC_ge _ _))
      (fun i c _ _ h => Nat.lt_of_lt_of_le h (roundUpC_ge _ _))
      (fun hs i hi _ => (hfit hs hKpos).2.1.le (hdiv i (hfit hs hKpos).1 hi))
      (fun hs i _ _ => (hfit hs hKpos).2.2.le (Nat.mod_lt _ hpn))
      (fun _ => hszA) (fun _ => hszB) hcp
    unfold smStep
    refine STriple.seq (STriple.seq (tB.conseq ?_ (fun _ h => h)) (tA.conseq ?_ (fun _ h => h))) (tC.conseq ?_ ?_)
    · intro s hs
      exact ⟨hs.size, hs.keep, hs.fact, by simp⟩
    · intro s hs
      exact ⟨hs.size, hs.keep, hs.fact, by simp⟩
    · intro s hs
      exact ⟨hs.size, hs.keep, hs.fact.1.1, hs.fact.2, hs.fact.1.2⟩
    · intro s hs
      exact ⟨hs.size, hs.keep, hs.fact.1⟩
  have t1 := STriple.list (S := S) (F := F) (smStep kd M N K p pn m_r n_r k_c)
    (fun ks s => Env s0 sz (cX M N) (W ks) s) [] (range (cdiv K k_c)) (by
      intro d k t e
      apply hstep
      have : k ∈ range (cdiv K k_c) := by rw [nil_append] at e; rw [e]; simp
      exact mem_range.1 this)
  have t2 := unpack_phase (S := S) (F := F) (s0 := s0) (sz := sz) (geo := geo) (ord := ord) (n := 0) (m := 0)
      (Nb := 1) (Mb := 1) (a := a) (b := b) (k_c := k_c) (K := K) (bl := [])
      (PP := fun _ _ => True) (unp := smUnp M N p pn m_r n_r)
      (fun _ _ _ _ => hg) (by intros; omega) (by
        intro i hi o
        unfold smUnp
        rw [unpackC_mem _ _ _ _ _ _ _ _ _ _ _ hm hn (hg.m_dvd i hi) (hg.n_dvd i hi)]
        constructor
        · rintro ⟨r, c, hr, hc, h1, h2, rfl⟩
          refine ⟨r, c, hr, hc, by simpa using h2, h1, ?_⟩
          rw [off_off]
          simp only [Loc.off]
          congr 2
          · simp only [geo, g]; ring
          · exact Nat.zero_add _
        · rintro ⟨r, c, hr, hc, h1, h2, rfl⟩
          refine ⟨r, c, hr, hc, h2, by simpa using h1, ?_⟩
          rw [off_off]
          simp only [Loc.off]
          congr 2
          · simp only [geo, g]; ring
          · exact (Nat.zero_add _).symm) (by omega) (by omega) hf (Stable.true _) hcp hCin
  refine STriple.seq (t1.conseq ?_ (fun _ h => h)) (t2.conseq ?_ ?_)
  · intro s hs
    refine ⟨hs.size, hs.keep, RunR.start hg ⟨by intro x hx; simp at hx, fun i x hi _ => (hs.fact i x hi).1,
        fun i x hi _ => (hs.fact i x hi).2⟩⟩
  · intro s hs
    exact ⟨hs.size, hs.keep, hs.fact, trivial⟩
  · intro s hs
    refine ⟨hs.size, hs.keep, ?_⟩
    intro row col hrow hcol
    obtain ⟨_, _, h3⟩ := hs.fact.1.1 (0, 0) (by simp)
    have hppos : 0 < p / pn := Nat.div_pos hp hpn
    obtain ⟨c1, c2⟩ := smallLen_cover (n := M) hm hppos (Nat.lt_of_lt_of_le hrow (roundUpC_ge M m_r))
    obtain ⟨d1, d2⟩ := smallLen_cover (n := N) hn hpn (Nat.lt_of_lt_of_le hcol (roundUpC_ge N n_r))
    have hd : (row / m_c * pn + col / n_c) / pn = row / m_c := mulAdd_div d1
    have hmo : (row / m_c * pn + col / n_c) % pn = col / n_c := mulAdd_mod d1
    have er : g.rb (row / m_c * pn + col / n_c) + row % m_c = row := by
      simp only [g, geoS]; rw [hd, Nat.mul_comm]; exact Nat.div_add_mod _ _
    have ec : g.cb (row / m_c * pn + col / n_c) + col % n_c = col := by
      simp only [g, geoS]; rw [hmo, Nat.mul_comm]; exact Nat.div_add_mod _ _
    have := h3 (row / m_c * pn + col / n_c) (row % m_c) (col % n_c)
      (Nat.lt_of_lt_of_le (mulAdd_lt c1 d1) (Nat.div_mul_le_self _ _))
      (by simp only [geo, g, geoS]; rw [hd]; exact c2) (by simp only [geo, g, geoS]; rw [hmo]; exact d2)
      (by simp only [geo]; rw [er]; exact hrow) (by simp only [geo]; rw [ec]; exact hcol)
    simp only [geo] at this
    rw [er, ec] at this
    refine ⟨this.2, this.1.trans ?_⟩
    have hord : kOrder K k_c (range (cdiv K k_c)) = range K := chop_range hkc
    simp only [ord]
    rw [hord]

omit hm hn hp in
theorem init_small_eq {kc_max : Nat} (hpm : 0 < p / pn)
    (hkc : k_c = if smallTile (roundUpC M m_r) (p / pn) m_r > kc_max then kc_max
      else smallTile (roundUpC M m_r) (p / pn) m_r) (hk0 : 0 < k_c) :
    ∃ x, init_block_dims_2d_small M N K p m_r n_r pn kc_max = some x ∧
      x.m_c = smallTile (roundUpC M m_r) (p / pn) m_r ∧ x.n_c = smallTile (roundUpC N n_r) pn n_r ∧
      x.k_c = k_c ∧ x.m_c1 = roundUpC M m_r - (p / pn - 1) * x.m_c ∧
      x.n_c1 = roundUpC N n_r - (pn - 1) * x.n_c ∧ x.k_c1 = K % k_c ∧
      x.k_pad = (K % k_c != 0) ∧ x.n_pad = (N % x.n_c != 0) ∧ x.m_pad = (M % x.m_c != 0) ∧
      x.Kb = cdiv K k_c ∧ x.M_padded = roundUpC M m_r ∧ x.N_padded = roundUpC N n_r ∧
      x.pm = p / pn ∧ x.pn = pn := by
  unfold init_block_dims_2d_small
  rw [if_neg (by omega)]
  simp only
  rw [if_neg (by omega)]
  change ∃ x, (if (if smallTile (roundUpC M m_r) (p / pn) m_r > kc_max then kc_max
      else smallTile (roundUpC M m_r) (p / pn) m_r) = 0 then none else _) = some x ∧ _
  rw [← hkc, if_neg (by omega)]
  refine ⟨_, rfl, rfl, rfl, hkc.symm, rfl, rfl, ?_, ?_, rfl, rfl, ?_, rfl, rfl, rfl, rfl⟩
  · simp only [hkc]; rfl
  · simp only [hkc]; rfl
  · rw [← cdiv_eq_div_add _ _ hk0]
    simp only [hkc]; rfl

/-- The complete call. -/
theorem sgemm_small_triple {kc_max : Nat} {cx : Cntx} (hmr : cx.m_r = m_r) (hnr : cx.n_r = n_r)
    (hk : cx.kfix.Fits m_r n_r) (hkm : 0 < kc_max)
    (packedA packedB : Bool) (alpha beta : α) {prog : Prog}
    (hprog : cake_sgemm_2d_small cx ⟨.A, 0⟩ ⟨.B, 0⟩ ⟨.C, 0⟩ M N K p packedA packedB alpha beta pn kc_max = some prog)
    {s0 : State α} (hs0 : CallOK s0 M N K)
    (hS : S → PadReadable s0 (roundUpC M m_r) (roundUpC N n_r) N K)
    (hfit : S → 0 < K → pn ∣ p ∧ SmallFits (roundUpC M m_r) (p / pn) m_r M ∧
      SmallFits (roundUpC N n_r) pn n_r N) :
    STriple S F (· = s0) prog
      (Env s0 s0.size (cX M N) (fun mem init => ∀ r c, r < M → c < N →
        init ⟨.C, r * N + c⟩ = true ∧ mem ⟨.C, r * N + c⟩ =
          dotFrom F (entry s0 .A K r) (fun k => entry s0 .B N k c) (range K) F.zero)) := by
  subst hmr hnr
  obtain ⟨⟨nA, hnA, _⟩, _⟩ := hs0.a
  obtain ⟨⟨nB, hnB, _⟩, _⟩ := hs0.b
  have hk0 : 0 < (if smallTile (roundUpC M cx.m_r) (p / pn) cx.m_r > kc_max then kc_max
      else smallTile (roundUpC M cx.m_r) (p / pn) cx.m_r) := by
    split
    · exact hkm
    · exact Nat.lt_of_le_of_lt (Nat.zero_le _) (smallTile_gt hm)
  obtain ⟨x, hx, e1, e2, e3, e4, e5, e6, e7, e8, e9, e10, e11, e12, e13, e14⟩ :=
    init_small_eq (M := M) (N := N) (K := K) (m_r := cx.m_r) (n_r := cx.n_r) hpn (Nat.div_pos hp hpn) rfl hk0
  unfold cake_sgemm_2d_small at hprog
  rw [hx] at hprog
  simp only [Option.bind_eq_bind, Option.bind_some, Option.some.injEq] at hprog
  rw [← hprog, small_eq cx.kfix hk0 e1 e2 e3 e4 e5 e6 e7 e8 e9 e10 e11 e12 e13 e14, e1, e2, e3, e11, e12]
  apply grid_call hs0
  intro sz hsz hap hbp hcp
  exact small_sched hm hn hpn hp hk0 hk hs0.fresh hsz (by simp [hnA]) (by simp [hnB]) hs0.c hS hfit hap hbp hcp

end
end Cake
