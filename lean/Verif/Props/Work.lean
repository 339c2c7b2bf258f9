/-
C73: number of multiply-adds of a call. C74: how they are spread over the threads. C75: memory a call allocates.
-/
import Verif.Proofs.WorkAll
import Verif.Props.TwoDSmall
import Verif.Props.OnlineApi
import Verif.Props.Api

namespace Cake
open List

variable {α : Type _} {nz : α → Bool} {cx : Cntx} {M N K p m_c k_c n_c : Nat} {packedA packedB : Bool} {alpha beta : α}
  {prog : Prog}

/-- Multiply-adds of `K` outer products on a C whose sides are rounded up to whole register tiles. -/
def fullWork (M N K m_r n_r : Nat) : Nat := cdiv M m_r * m_r * (cdiv N n_r * n_r) * K

/-! ### C73 -/

/-- **C73.** Whatever the schedule, the number of threads and the tile sizes, with operands packed by the caller or not, wherever
the operands are: the call does as many multiply-adds as a C of whole register tiles needs, none twice and none for a block that
does not exist. -/
theorem C73_sgemm (h : TileOK p cx.m_r cx.n_r m_c k_c n_c) (hk : cx.kmap.Fits cx.m_r cx.n_r) (hk' : cx.kfix.Fits cx.m_r cx.n_r)
    {A B C : Loc} {sch : Sched}
    (e : cake_sgemm nz cx A B C M N K p packedA packedB alpha beta m_c k_c n_c sch = some prog) :
    work prog = fullWork M N K cx.m_r cx.n_r := by
  obtain ⟨A_p, B_p, ⟨_, e⟩ | ⟨_, e⟩ | ⟨_, e⟩⟩ := call_count work_counts e <;> rw [e]
  · exact schedK_work h hk _ _ _
  · exact schedM_work h hk' _ _ _
  · exact schedN_work h hk' _ _ _

/-- All three schedules produce a program. -/
example (sch : Sched) (hs : sch ≠ .NA) : ∃ prog, cake_sgemm (fun x : Int => x != 0) haswell ⟨.A, 0⟩ ⟨.B, 0⟩ ⟨.C, 0⟩ 79 169 11 3
    false true 1 1 12 5 32 sch = some prog ∧ work prog = 84 * 176 * 11 := by
  have key : ∀ prog, cake_sgemm (fun x : Int => x != 0) haswell ⟨.A, 0⟩ ⟨.B, 0⟩ ⟨.C, 0⟩ 79 169 11 3
    false true 1 1 12 5 32 sch = some prog → work prog = 84 * 176 * 11 := fun prog e =>
      (C73_sgemm demo_tile haswell_fits haswell_fits_fix e).trans (by decide)
  cases sch
  · exact ⟨_, rfl, key _ rfl⟩
  · exact ⟨_, rfl, key _ rfl⟩
  · exact ⟨_, rfl, key _ rfl⟩
  · exact absurd rfl hs

/-- **C73, consequence.** Two calls on operands of the same size do the same number of multiply-adds, with any two schedules, thread
counts, tile sizes and flags. -/
theorem C73_independent (h : TileOK p cx.m_r cx.n_r m_c k_c n_c) {p' m_c' k_c' n_c' : Nat}
    (h' : TileOK p' cx.m_r cx.n_r m_c' k_c' n_c') (hk : cx.kmap.Fits cx.m_r cx.n_r) (hk' : cx.kfix.Fits cx.m_r cx.n_r)
    {A B C A' B' C' : Loc} {sch sch' : Sched} {packedA' packedB' : Bool} {alpha' beta' : α} {prog' : Prog}
    (e : cake_sgemm nz cx A B C M N K p packedA packedB alpha beta m_c k_c n_c sch = some prog)
    (e' : cake_sgemm nz cx A' B' C' M N K p' packedA' packedB' alpha' beta' m_c' k_c' n_c' sch' = some prog') :
    work prog = work prog' := by
  rw [C73_sgemm h hk hk' e, C73_sgemm h' hk hk' e']

example := fun prog prog' => C73_independent (nz := fun x : Int => x != 0) demo_tile
  (p' := 1) (m_c' := 6) (k_c' := 4) (n_c' := 16) (A := ⟨.A, 0⟩) (B := ⟨.B, 0⟩) (C := ⟨.C, 0⟩) (A' := ⟨.A, 0⟩) (B' := ⟨.B, 0⟩)
  (C' := ⟨.C, 0⟩) ⟨by decide, by decide, by decide, by decide, by decide, by decide, by decide, by decide⟩
  haswell_fits haswell_fits_fix (M := 79) (N := 169) (K := 11) (sch := .KMN) (sch' := .NKM) (packedA := false) (packedB := true)
  (packedA' := false) (packedB' := false) (alpha := 1) (beta := 0) (alpha' := 1) (beta' := 1) (prog := prog) (prog' := prog')

/-- **C73, consequence.** When register tiles divide C nothing is computed in vain. -/
theorem C73_exact (h : TileOK p cx.m_r cx.n_r m_c k_c n_c) (hk : cx.kmap.Fits cx.m_r cx.n_r) (hk' : cx.kfix.Fits cx.m_r cx.n_r)
    {A B C : Loc} {sch : Sched} (hM : cx.m_r ∣ M) (hN : cx.n_r ∣ N)
    (e : cake_sgemm nz cx A B C M N K p packedA packedB alpha beta m_c k_c n_c sch = some prog) : work prog = M * N * K := by
  rw [C73_sgemm h hk hk' e]
  unfold fullWork
  obtain ⟨i, rfl⟩ := hM
  obtain ⟨j, hj⟩ := hN
  rw [hj, Nat.mul_comm cx.m_r i, Nat.mul_comm cx.n_r j, cdiv_mul_self _ _ h.m_r_pos, cdiv_mul_self _ _ h.n_r_pos]

example := fun prog => C73_exact (nz := fun x : Int => x != 0) demo_tile haswell_fits haswell_fits_fix (M := 84) (N := 176)
  (K := 11) (A := ⟨.A, 0⟩) (B := ⟨.B, 0⟩) (C := ⟨.C, 0⟩) (sch := .MKN) (packedA := false) (packedB := false) (alpha := 1)
  (beta := 0) (by decide) (by decide) (prog := prog)

/-- **C73** for the product that packs on the fly. -/
theorem C73_online (h : TileOK p cx.m_r cx.n_r m_c k_c n_c) (hk : cx.kmap.Fits cx.m_r cx.n_r)
    (e : callO cx M N K p packedA packedB alpha beta m_c k_c n_c = some prog) :
    work prog = fullWork M N K cx.m_r cx.n_r := by
  rw [online_count work_counts e]
  exact schedO_work h hk

example : ∃ prog, callO haswell 79 169 11 3 false false (1 : Int) 0 12 5 32 = some prog ∧ work prog = 84 * 176 * 11 :=
  ⟨_, rfl, (C73_online (packedA := false) (packedB := false) (alpha := (1 : Int)) (beta := 0) demo_tile haswell_fits rfl).trans (by decide)⟩

/-- **C73** for the product on a grid of cores. -/
theorem C73_2d {pn : Nat} (h : Fit2 M N p cx.m_r cx.n_r pn m_c k_c) (hk : cx.kfix.Fits cx.m_r cx.n_r)
    (e : call2 cx M N K p packedA packedB alpha beta pn m_c k_c = some prog) : work prog = fullWork M N K cx.m_r cx.n_r := by
  unfold call2 cake_sgemm_2d at e
  rw [init2d_eq h.pn_pos] at e
  simp only [Option.bind_eq_bind, Option.bind_eq_some_iff, Option.some.injEq] at e
  obtain ⟨x, hx, rfl⟩ := e
  rw [twoD_count work_counts]
  exact sched2_work h.grid.1 h.grid.2.1 hk hx

example := fun prog => C73_2d (α := Int) (cx := haswell) (K := 11) (packedA := false) (packedB := false) (alpha := 1) (beta := 0)
  demo_fit2 haswell_fits_fix (prog := prog)

/-- **C73** for the product on a grid of cores for small matrices, on grids that fit. -/
theorem C73_2d_small {pn kc_max : Nat} (hm : 0 < cx.m_r) (hn : 0 < cx.n_r) (hk : cx.kfix.Fits cx.m_r cx.n_r) (hpn : 0 < pn)
    (hp : pn ≤ p) (hkm : 0 < kc_max) (hg : GridFits M N p cx.m_r cx.n_r pn)
    (e : callS cx M N K p packedA packedB alpha beta pn kc_max = some prog) : work prog = fullWork M N K cx.m_r cx.n_r := by
  obtain ⟨k_c, na, nb, hkc, rfl⟩ := small_prog hm hn hpn hp rfl rfl hkm packedA packedB alpha beta e
  rw [small_prog_count work_counts]
  unfold GridFits at hg
  rw [← roundUpC_eq hm, ← roundUpC_eq hn] at hg
  exact small_work hm hn hpn hp hk hkc hg.1 hg.2.1 hg.2.2

example := fun prog => C73_2d_small (α := Int) (cx := haswell) (K := 11) (kc_max := 5) (packedA := false) (packedB := false)
  (alpha := 1) (beta := 0) (by decide) (by decide) haswell_fits_fix (by decide) (by decide) (by decide) demo_gridFits (prog := prog)

section api
variable (r : Rounding 53) (rs : Rounding 24) (nf : Option ℝ → Option ℝ → Bool)

theorem Counts.ctx {μ : Prog → Nat} (hμ : Counts μ) (c : Bool) (q : Prog) :
    μ ((if c = true then [Item.malloc .Ctx 1] else []) ++ q) = μ q := by
  rw [hμ.append, hμ.ite (hμ.other _ (by simp)) hμ.nil, Nat.zero_add]

/-- **C73** from the first line of the public call: automatic or valid user tile sizes, any schedule or none, with a context or
without. -/
theorem C73_default (nz : α → Bool) {mc : Machine} {cntx : Option (CCtx (Option ℝ))} {m_r n_r L2 L3 nc : Nat}
    (h : Ready mc (cntx.getD (query_cntx (ieee r rs nf) mc)) m_r n_r L2 L3 nc) (hfix : mc.kfix.Fits m_r n_r) {a : Args α}
    (hp : 0 < a.p) (ht : TilesOK m_r n_r L2 a) :
    ∃ prog cx', publicCall r rs nf nz mc cntx a = .ok (prog, cx') ∧ work prog = fullWork a.M a.N a.K m_r n_r := by
  obtain ⟨prog, cx', kd, m_c, k_c, n_c, sch, d, -, -, e1, e2, hf, hT, -⟩ :=
    api_reduce_dims r rs nf nz h ⟨.A, 0⟩ ⟨.B, 0⟩ ⟨.C, 0⟩ hp ht
  refine ⟨_, cx', e1, ?_⟩
  rw [work_counts.ctx]
  exact C73_sgemm (cx := ⟨m_r, n_r, kd, mc.kfix⟩) hT hf hfix e2

example := C73_default r rs nf (fun x : Int => x != 0) (cntx := none) (haswellMachine_ok.query (ieee r rs nf)) haswell_fits_fix
  (a := { M := 1003, N := 48, K := 77, p := 4, alpha := 1, beta := 0 }) (by decide) (.auto (by decide) (by decide) (Or.inl rfl))

/-- **C73** from the first line of the call that packs on the fly. -/
theorem C73_online_default {mc : Machine} {cntx : Option (CCtx (Option ℝ))} {m_r n_r L2 L3 nc : Nat}
    (h : Ready mc (cntx.getD (query_cntx (ieee r rs nf) mc)) m_r n_r L2 L3 nc) {a : Args α} (hp : 0 < a.p)
    (ht : TilesOK m_r n_r L2 a) :
    ∃ prog cx', onlineCall r rs nf mc cntx a = .ok (prog, cx') ∧ work prog = fullWork a.M a.N a.K m_r n_r := by
  obtain ⟨prog, cx', kd, m_c, k_c, n_c, e1, e2, hf, hT, -⟩ := online_reduce r rs nf h hp ht
  refine ⟨_, cx', e1, ?_⟩
  rw [work_counts.ctx]
  exact C73_online (cx := ⟨m_r, n_r, kd, mc.kfix⟩) hT hf e2

example := C73_online_default r rs nf (cntx := none) (haswellMachine_ok.query (ieee r rs nf))
  (a := { M := 1003, N := 48, K := 77, p := 4, alpha := (1 : Int), beta := 0 }) (by decide)
  (.auto (by decide) (by decide) (Or.inl rfl))

end api

/-! ### C74 -/

/-- The largest share of the work when the strips of `m_r` rows of C are dealt out to `p` threads as evenly as possible. -/
def share (M N K p m_r n_r : Nat) : Nat := cdiv (cdiv M m_r) p * m_r * (cdiv N n_r * n_r) * K

/-- No dealing out of whole strips of rows can do better: with less than `share` per thread, `p` threads do not do all the work. -/
theorem share_least {M N K p m_r n_r s : Nat} (hp : 0 < p) (h : fullWork M N K m_r n_r ≤ p * (s * m_r * (cdiv N n_r * n_r) * K))
    (hpos : 0 < m_r * (cdiv N n_r * n_r) * K) : share M N K p m_r n_r ≤ s * m_r * (cdiv N n_r * n_r) * K := by
  unfold fullWork at h
  unfold share
  generalize cdiv N n_r * n_r = n at *
  have h' : cdiv M m_r * (m_r * n * K) ≤ p * s * (m_r * n * K) := by
    calc _ = cdiv M m_r * m_r * n * K := by ring
      _ ≤ _ := h
      _ = _ := by ring
  have h2 := Nat.le_of_mul_le_mul_right h' hpos
  have h3 : cdiv (cdiv M m_r) p ≤ s := cdiv_le_of_le_mul hp (by rwa [Nat.mul_comm s])
  gcongr

/-- How the work of a program is spread over `p` threads: no iteration of its parallel loops has more than the least possible
share, the first has exactly that, and there are at most `p` iterations with work. -/
structure Balanced (prog : Prog) (p share : Nat) : Prop where
  le : ∀ i, coreWork i prog ≤ share
  first : coreWork 0 prog = share
  idle : ∀ i, p ≤ i → coreWork i prog = 0

/-- **C74, K-first.** The work is spread evenly over the `p` threads, whatever the tile sizes. Missing with respect to C74: M-first
and N-first, see `C74_mfirst_refuted` and `C74_nfirst_refuted`. -/
theorem C74_kfirst_partial (h : TileOK p cx.m_r cx.n_r m_c k_c n_c) (hk : cx.kmap.Fits cx.m_r cx.n_r) {A B C : Loc}
    (e : cake_sgemm nz cx A B C M N K p packedA packedB alpha beta m_c k_c n_c .KMN = some prog) :
    Balanced prog p (share M N K p cx.m_r cx.n_r) := by
  have key : ∀ i, coreWork i prog = ((range (cdiv M (p * m_c))).map fun m => mT M p cx.m_r m_c m i).sum *
      (cdiv N cx.n_r * cx.n_r) * K := by
    intro i
    obtain ⟨A_p, B_p, ⟨_, e⟩ | ⟨e, _⟩ | ⟨e, _⟩⟩ := call_count (coreWork_counts i) e
    · rw [e]; exact schedK_core h hk _ _ _ i
    · cases e
    · cases e
  refine ⟨fun i => ?_, ?_, fun i hi => ?_⟩
  · rw [key]; exact Nat.mul_le_mul_right _ (Nat.mul_le_mul_right _ (sum_core h i))
  · rw [key, sum_first h]; rfl
  · rw [key, sum_beyond h hi, Nat.zero_mul, Nat.zero_mul]

/-- 79 rows are 14 strips; with 3 threads the busiest has 5 of them, 30 rows. -/
example : ∃ prog, cake_sgemm (fun x : Int => x != 0) haswell ⟨.A, 0⟩ ⟨.B, 0⟩ ⟨.C, 0⟩ 79 169 11 3 false false 1 0 12 5 32 .KMN =
    some prog ∧ Balanced prog 3 (30 * 176 * 11) :=
  ⟨_, rfl, C74_kfirst_partial (alpha := 1) demo_tile haswell_fits rfl⟩

/-- **C74** for the product that packs on the fly. -/
theorem C74_online (h : TileOK p cx.m_r cx.n_r m_c k_c n_c) (hk : cx.kmap.Fits cx.m_r cx.n_r)
    (e : callO cx M N K p packedA packedB alpha beta m_c k_c n_c = some prog) :
    Balanced prog p (share M N K p cx.m_r cx.n_r) := by
  have key : ∀ i, coreWork i prog = ((range (cdiv M (p * m_c))).map fun m => mT M p cx.m_r m_c m i).sum *
      (cdiv N cx.n_r * cx.n_r) * K := fun i => by
    rw [online_count (coreWork_counts i) e]; exact schedO_core h hk i
  refine ⟨fun i => ?_, ?_, fun i hi => ?_⟩
  · rw [key]; exact Nat.mul_le_mul_right _ (Nat.mul_le_mul_right _ (sum_core h i))
  · rw [key, sum_first h]; rfl
  · rw [key, sum_beyond h hi, Nat.zero_mul, Nat.zero_mul]

example : ∃ prog, callO haswell 79 169 11 3 false false (1 : Int) 0 12 5 32 = some prog ∧ Balanced prog 3 (30 * 176 * 11) :=
  ⟨_, rfl, C74_online (packedA := false) (packedB := false) (alpha := (1 : Int)) (beta := 0) demo_tile haswell_fits rfl⟩

/-- **C74, 2-D.** The work is spread evenly over the grid of cores that the call uses. Missing with respect to C74: that grid can be
smaller than the one asked for, see `C74_2d_refuted`. -/
theorem C74_2d_partial {pn : Nat} (h : Fit2 M N p cx.m_r cx.n_r pn m_c k_c) (hk : cx.kfix.Fits cx.m_r cx.n_r)
    (e : call2 cx M N K p packedA packedB alpha beta pn m_c k_c = some prog) :
    Balanced prog ((grid2 M N p cx.m_r cx.n_r pn m_c).pm * (grid2 M N p cx.m_r cx.n_r pn m_c).pn)
      (cdiv (cdiv M cx.m_r) (grid2 M N p cx.m_r cx.n_r pn m_c).pm * cx.m_r *
        (cdiv (cdiv N cx.n_r) (grid2 M N p cx.m_r cx.n_r pn m_c).pn * cx.n_r) * K) := by
  unfold call2 cake_sgemm_2d at e
  rw [init2d_eq h.pn_pos] at e
  simp only [Option.bind_eq_bind, Option.bind_eq_some_iff, Option.some.injEq] at e
  obtain ⟨x, hx, rfl⟩ := e
  refine ⟨fun i => ?_, ?_, fun i hi => ?_⟩
  · rw [twoD_count (coreWork_counts i)]; exact sched2_core_le h.grid.1 h.grid.2.1 hk hx i
  · rw [twoD_count (coreWork_counts 0)]; exact sched2_core_zero h.grid.1 h.grid.2.1 hk hx
  · rw [twoD_count (coreWork_counts i)]; exact sched2_core_beyond h.grid.1 h.grid.2.1 hk hx hi

/-- A 3 x 2 grid on 14 x 11 register tiles: the busiest core has 5 x 6 of them. -/
example (prog : Prog) (e : call2 haswell 79 169 11 6 false false (1 : Int) 0 2 12 5 = some prog) :
    Balanced prog 6 (30 * 96 * 11) := by
  have := C74_2d_partial demo_fit2 haswell_fits_fix e
  exact this

/-- A side of the grid when the strips are not exactly as many as the cores along it: every core of the side has a strip, or every
strip its own core. -/
theorem fit2d_even {T q r t : Nat} (hr : 0 < r) (hq : 0 < q) (ht : r ≤ t) (hne : cdiv T r ≠ q) :
    (fit2d (roundUpC T r) q t r).1 = min q (cdiv T r) := by
  have hne' : ¬ roundUpC T r = q * r := by
    rw [roundUpC_cdiv hr]
    exact fun e => hne (Nat.eq_of_mul_eq_mul_right hr e)
  unfold fit2d
  rw [if_neg hne', roundUpC_cdiv hr]
  by_cases hlt : cdiv T r * r / q < r
  · have h1 : cdiv T r * r < r * q := (Nat.div_lt_iff_lt_mul hq).1 hlt
    have h2 : cdiv T r < q := Nat.lt_of_mul_lt_mul_right (a := r) (by rwa [Nat.mul_comm q])
    have hb : cdiv T r * r < q * t := Nat.lt_of_lt_of_le h1 (by rw [Nat.mul_comm]; exact Nat.mul_le_mul_left _ ht)
    simp only [if_pos hb, if_pos hlt, Nat.mul_div_cancel _ hr]
    omega
  · have h1 : ¬ cdiv T r * r < r * q := fun h => hlt ((Nat.div_lt_iff_lt_mul hq).2 h)
    have h2 : q ≤ cdiv T r := by
      by_contra hc
      exact h1 (by rw [Nat.mul_comm r]; exact Nat.mul_lt_mul_of_pos_right (by omega) hr)
    split
    · simp only [if_neg hlt]; omega
    · simp only; omega

theorem cdiv_min {s q : Nat} (hs : 0 < s) : cdiv s (min q s) = cdiv s q := by
  by_cases h : q ≤ s
  · rw [Nat.min_eq_left h]
  · rw [Nat.min_eq_right (by omega), cdiv_eq_of (q := 1) (by omega) (by omega), cdiv_eq_of (q := 1) (by omega) (by omega)]

/-- **C74, 2-D.** Unless C has exactly as many strips of rows as the grid has rows of cores, or as many strips of columns as columns of
cores, the work is spread evenly over the grid asked for. Missing with respect to C74: those two cases, see `C74_2d_refuted`. -/
theorem C74_2d_even_partial {pn : Nat} (h : Fit2 M N p cx.m_r cx.n_r pn m_c k_c) (hk : cx.kfix.Fits cx.m_r cx.n_r)
    (hM : cdiv M cx.m_r ≠ p / pn) (hN : cdiv N cx.n_r ≠ pn)
    (e : call2 cx M N K p packedA packedB alpha beta pn m_c k_c = some prog) :
    Balanced prog (p / pn * pn) (cdiv (cdiv M cx.m_r) (p / pn) * cx.m_r * (cdiv (cdiv N cx.n_r) pn * cx.n_r) * K) := by
  have hb := C74_2d_partial h hk e
  have hq : 0 < p / pn := Nat.div_pos h.pn_le h.pn_pos
  have f := fit2d_ok (pm := p / pn) hq h.m_r_pos h.m_dvd h.m_c_pos
    (Nat.lt_of_lt_of_le h.M_pos (roundUpC_ge M cx.m_r)) (roundUpC_dvd h.m_r_pos)
  have e1 : (grid2 M N p cx.m_r cx.n_r pn m_c).pm = min (p / pn) (cdiv M cx.m_r) :=
    fit2d_even h.m_r_pos hq (Nat.le_of_dvd h.m_c_pos h.m_dvd) hM
  have e2 : (grid2 M N p cx.m_r cx.n_r pn m_c).pn = min pn (cdiv N cx.n_r) :=
    fit2d_even h.n_r_pos h.pn_pos (Nat.le_of_dvd (Nat.lt_of_lt_of_le f.2.2.1 (roundUpC_ge _ _)) (roundUpC_dvd h.n_r_pos)) hN
  rw [e1, e2, cdiv_min (cdiv_pos h.M_pos h.m_r_pos), cdiv_min (cdiv_pos h.N_pos h.n_r_pos)] at hb
  exact ⟨hb.le, hb.first, fun i hi => hb.idle i
    (Nat.le_trans (Nat.mul_le_mul (Nat.min_le_left ..) (Nat.min_le_left ..)) hi)⟩

example (prog : Prog) (e : call2 haswell 79 169 11 6 false false (1 : Int) 0 2 12 5 = some prog) :
    Balanced prog 6 (30 * 96 * 11) :=
  C74_2d_even_partial demo_fit2 haswell_fits_fix (by decide) (by decide) e

/-- **C74 does not hold for the 2-D product**: whenever a C has exactly as many strips of rows as the grid has rows of cores, all
strips go to one row of cores and the other cores have nothing to do. -/
theorem C74_2d_refuted {pn : Nat} (h : Fit2 M N p cx.m_r cx.n_r pn m_c k_c) (hk : cx.kfix.Fits cx.m_r cx.n_r)
    (hM : cdiv M cx.m_r = p / pn) (e : call2 cx M N K p packedA packedB alpha beta pn m_c k_c = some prog) :
    coreWork 0 prog = cdiv M cx.m_r * cx.m_r *
        (cdiv (cdiv N cx.n_r) (grid2 M N p cx.m_r cx.n_r pn m_c).pn * cx.n_r) * K ∧ ∀ i, pn ≤ i → coreWork i prog = 0 := by
  have hb := C74_2d_partial h hk e
  have hpm : (grid2 M N p cx.m_r cx.n_r pn m_c).pm = 1 := by
    show (fit2d (roundUpC M cx.m_r) (p / pn) m_c cx.m_r).1 = 1
    unfold fit2d
    rw [if_pos (by rw [roundUpC_cdiv h.m_r_pos, hM])]
  have hle : (grid2 M N p cx.m_r cx.n_r pn m_c).pn ≤ pn :=
    (fit2d_ok (pm := pn) h.pn_pos h.n_r_pos (roundUpC_dvd h.n_r_pos)
      (Nat.lt_of_lt_of_le (fit2d_ok (pm := p / pn) (Nat.div_pos h.pn_le h.pn_pos) h.m_r_pos h.m_dvd h.m_c_pos
        (Nat.lt_of_lt_of_le h.M_pos (roundUpC_ge M cx.m_r)) (roundUpC_dvd h.m_r_pos)).2.2.1 (roundUpC_ge _ _))
      (Nat.lt_of_lt_of_le h.N_pos (roundUpC_ge N cx.n_r)) (roundUpC_dvd h.n_r_pos)).2.1
  rw [hpm, Nat.one_mul] at hb
  refine ⟨?_, fun i hi => hb.idle i (hle.trans hi)⟩
  rw [hb.first]
  rw [show cdiv (cdiv M cx.m_r) 1 = cdiv M cx.m_r by simp [cdiv]]

/-- Six cores as 3 x 2 on 18 x 64: three strips of rows, all of them in one row of cores. -/
example (prog : Prog) (e : call2 haswell 18 64 11 6 false false (1 : Int) 0 2 12 5 = some prog) :
    coreWork 0 prog = 18 * 32 * 11 ∧ ∀ i, 2 ≤ i → coreWork i prog = 0 :=
  C74_2d_refuted (cx := haswell) ⟨by decide, by decide, by decide, by decide, by decide, by decide, by decide, by decide, by decide⟩
    haswell_fits_fix (by decide) e

/-- **C74, small 2-D product:** exact work of every core, on grids that fit. -/
theorem C74_2d_small_partial {pn kc_max : Nat} (hm : 0 < cx.m_r) (hn : 0 < cx.n_r) (hk : cx.kfix.Fits cx.m_r cx.n_r) (hpn : 0 < pn)
    (hp : pn ≤ p) (hkm : 0 < kc_max) (e : callS cx M N K p packedA packedB alpha beta pn kc_max = some prog) (i : Nat) :
    coreWork i prog = (if i < p then smallLen (roundUp M cx.m_r) (p / pn) cx.m_r M (i / pn) *
      smallLen (roundUp N cx.n_r) pn cx.n_r N (i % pn) else 0) * K := by
  obtain ⟨k_c, na, nb, hkc, rfl⟩ := small_prog hm hn hpn hp rfl rfl hkm packedA packedB alpha beta e
  rw [small_prog_count (coreWork_counts i), ← roundUpC_eq hm, ← roundUpC_eq hn]
  exact small_core hm hn hpn hp hk hkc i

/-- **C74 does not hold for the small 2-D product**: 48 x 128 on a 2 x 2 grid (a grid that fits) has 8 x 8 register tiles, 4 x 4 for
each core; the first core gets 5 x 5 of them and the last 3 x 3. -/
theorem C74_2d_small_refuted (e : callS haswell 48 128 K 4 packedA packedB alpha beta 2 5 = some prog) :
    GridFits 48 128 4 haswell.m_r haswell.n_r 2 ∧ coreWork 0 prog = 30 * 80 * K ∧ coreWork 3 prog = 18 * 48 * K := by
  refine ⟨⟨by decide, ⟨by decide, by decide⟩, ⟨by decide, by decide⟩⟩, ?_, ?_⟩
  · rw [C74_2d_small_partial (by decide) (by decide) haswell_fits_fix (by decide) (by decide) (by decide) e]
    congr 1
  · rw [C74_2d_small_partial (by decide) (by decide) haswell_fits_fix (by decide) (by decide) (by decide) e]
    congr 1

example : ∃ prog, callS haswell 48 128 11 4 false false (1 : Int) 0 2 5 = some prog :=
  small_is_some (by decide) false false 1 0 (by decide) (by decide) (by decide)

/-- **C74, M-first and N-first.** What holds: an iteration of the parallel loops has at most one tile of rows (of columns), so that
tiles small enough for the number of threads spread the work. Missing with respect to C74: larger tiles, see `C74_mfirst_refuted` and
`C74_nfirst_refuted`. -/
theorem C74_mfirst_partial (h : TileOK p cx.m_r cx.n_r m_c k_c n_c) (hk : cx.kfix.Fits cx.m_r cx.n_r) {A B C : Loc}
    (e : cake_sgemm nz cx A B C M N K p packedA packedB alpha beta m_c k_c n_c .MKN = some prog) (i : Nat) :
    coreWork i prog ≤ (if i < cdiv M m_c then m_c else 0) * (cdiv N cx.n_r * cx.n_r) * K := by
  obtain ⟨A_p, B_p, ⟨e, _⟩ | ⟨_, e⟩ | ⟨e, _⟩⟩ := call_count (coreWork_counts i) e
  · cases e
  · rw [e]; exact schedM_core h hk _ _ _ i
  · cases e

example := fun prog => C74_mfirst_partial (nz := fun x : Int => x != 0) demo_tile haswell_fits_fix (M := 79) (N := 169) (K := 11)
  (A := ⟨.A, 0⟩) (B := ⟨.B, 0⟩) (C := ⟨.C, 0⟩) (packedA := false) (packedB := false) (alpha := 1) (beta := 0) (prog := prog)

@[inherit_doc C74_mfirst_partial]
theorem C74_nfirst_partial (h : TileOK p cx.m_r cx.n_r m_c k_c n_c) (hk : cx.kfix.Fits cx.m_r cx.n_r) {A B C : Loc}
    (e : cake_sgemm nz cx A B C M N K p packedA packedB alpha beta m_c k_c n_c .NKM = some prog) (i : Nat) :
    coreWork i prog ≤ cdiv M cx.m_r * cx.m_r * (if i < cdiv N n_c then n_c else 0) * K := by
  obtain ⟨A_p, B_p, ⟨e, _⟩ | ⟨e, _⟩ | ⟨_, e⟩⟩ := call_count (coreWork_counts i) e
  · cases e
  · cases e
  · rw [e]; exact schedN_core h hk _ _ _ i

example := fun prog => C74_nfirst_partial (nz := fun x : Int => x != 0) demo_tile haswell_fits_fix (M := 79) (N := 169) (K := 11)
  (A := ⟨.A, 0⟩) (B := ⟨.B, 0⟩) (C := ⟨.C, 0⟩) (packedA := false) (packedB := false) (alpha := 1) (beta := 0) (prog := prog)

theorem cdiv_le_one {a b : Nat} (hb : 0 < b) (h : a ≤ b) : cdiv a b ≤ 1 := cdiv_le_of_le_mul hb (by omega)

/-- The first iteration has more than its share when it has everything and there are at least two strips and two threads. -/
theorem share_lt {M N K p m_r n_r : Nat} (hm : 0 < m_r) (hn : 0 < n_r) (hp : 2 ≤ p) (hM : m_r < M) (hN : 0 < N) (hK : 0 < K) :
    share M N K p m_r n_r < fullWork M N K m_r n_r := by
  have h2 : 2 ≤ cdiv M m_r := by
    by_contra hc
    have h1 := cdiv_mul_ge M m_r hm
    have : cdiv M m_r * m_r ≤ 1 * m_r := Nat.mul_le_mul_right _ (by omega)
    omega
  have h3 : cdiv (cdiv M m_r) p < cdiv M m_r := by
    have := cdiv_le_of_le_mul (a := cdiv M m_r) (b := p) (q := cdiv M m_r - 1) (by omega) (by
      have : (cdiv M m_r - 1) * 2 ≤ (cdiv M m_r - 1) * p := Nat.mul_le_mul_left _ hp
      omega)
    omega
  have hN' := Nat.mul_pos (cdiv_pos hN hn) hn
  unfold share fullWork
  gcongr

/-- **C74 does not hold for M-first**: when all rows of C are in one tile (`M ≤ m_c`), one iteration of the parallel loop does all
the work, however many threads there are; for more than one strip of rows and more than one thread this is more than its share. -/
theorem C74_mfirst_refuted (h : TileOK p cx.m_r cx.n_r m_c k_c n_c) (hk : cx.kfix.Fits cx.m_r cx.n_r) {A B C : Loc}
    (hM : M ≤ m_c) (e : cake_sgemm nz cx A B C M N K p packedA packedB alpha beta m_c k_c n_c .MKN = some prog) :
    coreWork 0 prog = fullWork M N K cx.m_r cx.n_r ∧
      (2 ≤ p → cx.m_r < M → 0 < N → 0 < K → share M N K p cx.m_r cx.n_r < coreWork 0 prog) := by
  have key : coreWork 0 prog = fullWork M N K cx.m_r cx.n_r := by
    obtain ⟨A_p, B_p, ⟨e, _⟩ | ⟨_, e⟩ | ⟨e, _⟩⟩ := call_count (coreWork_counts 0) e
    · cases e
    · rw [e, schedM_single h hk _ _ _ (cdiv_le_one h.m_c_pos hM)]; exact schedM_work h hk _ _ _
    · cases e
  exact ⟨key, fun hp hM hN hK => key ▸ share_lt h.m_r_pos h.n_r_pos hp hM hN hK⟩

/-- Three threads, two strips of rows, all 12 rows in one iteration. -/
example : ∃ prog, cake_sgemm (fun x : Int => x != 0) haswell ⟨.A, 0⟩ ⟨.B, 0⟩ ⟨.C, 0⟩ 12 169 11 3 false false 1 0 12 5 32 .MKN =
    some prog ∧ coreWork 0 prog = 12 * 176 * 11 :=
  ⟨_, rfl, (C74_mfirst_refuted (alpha := 1) demo_tile haswell_fits_fix (by decide) rfl).1⟩

/-- **C74 does not hold for N-first**: when all columns of C are in one tile (`N ≤ n_c`), one iteration of the parallel loop does all
the work. -/
theorem C74_nfirst_refuted (h : TileOK p cx.m_r cx.n_r m_c k_c n_c) (hk : cx.kfix.Fits cx.m_r cx.n_r) {A B C : Loc}
    (hN : N ≤ n_c) (e : cake_sgemm nz cx A B C M N K p packedA packedB alpha beta m_c k_c n_c .NKM = some prog) :
    coreWork 0 prog = fullWork M N K cx.m_r cx.n_r ∧
      (2 ≤ p → cx.m_r < M → 0 < N → 0 < K → share M N K p cx.m_r cx.n_r < coreWork 0 prog) := by
  have key : coreWork 0 prog = fullWork M N K cx.m_r cx.n_r := by
    obtain ⟨A_p, B_p, ⟨e, _⟩ | ⟨e, _⟩ | ⟨_, e⟩⟩ := call_count (coreWork_counts 0) e
    · cases e
    · cases e
    · rw [e, schedN_single h hk _ _ _ (cdiv_le_one h.n_c_pos hN)]; exact schedN_work h hk _ _ _
  exact ⟨key, fun hp hM hN hK => key ▸ share_lt h.m_r_pos h.n_r_pos hp hM hN hK⟩

example : ∃ prog, cake_sgemm (fun x : Int => x != 0) haswell ⟨.A, 0⟩ ⟨.B, 0⟩ ⟨.C, 0⟩ 79 32 11 3 false false 1 0 12 5 32 .NKM =
    some prog ∧ coreWork 0 prog = 84 * 32 * 11 :=
  ⟨_, rfl, (C74_nfirst_refuted (alpha := 1) demo_tile haswell_fits_fix (by decide) rfl).1⟩

/-! ### C75 -/

/-- Floats that an item allocates. Structures of fixed size (`malloc`) do not count. -/
def Item.floats : Item → Nat
  | .memalign _ n => n
  | .calloc _ n => n
  | _ => 0

/-- Floats that a program allocates in all. -/
def workspace (prog : Prog) : Nat := (prog.map Item.floats).sum

theorem workspace_append (a b : Prog) : workspace (a ++ b) = workspace a + workspace b := by simp [workspace]

theorem workspace_phases (ph : List (List (List Op))) : workspace (phases ph) = 0 :=
  sum_zero (by intro it hit; simp only [phases, mem_map] at hit; obtain ⟨_, _, rfl⟩ := hit; rfl)

theorem workspace_cons (it : Item) (q : Prog) : workspace (it :: q) = it.floats + workspace q := by simp [workspace]

theorem workspace_nil : workspace [] = 0 := rfl

theorem workspace_callocs (p n : Nat) (b : Nat → Buf) : workspace ((range p).map fun i => Item.calloc (b i) n) = p * n := by
  simp [workspace, Function.comp_def, Item.floats]

theorem workspace_memaligns (p n : Nat) (b : Nat → Buf) : workspace ((range p).map fun i => Item.memalign (b i) n) = p * n := by
  simp [workspace, Function.comp_def, Item.floats]

theorem workspace_frees {q : Prog} (h : ∀ it ∈ q, ∃ b, it = Item.free b) : workspace q = 0 :=
  sum_zero (by intro it hit; obtain ⟨b, rfl⟩ := h it hit; rfl)

theorem workspace_ite {c : Prop} [Decidable c] (a b : Prog) : workspace (if c then a else b) = if c then workspace a else workspace b := by
  split <;> rfl

/-- **C75, K-first.** The call allocates a copy of A and of B with sides rounded up to register tiles, unless the caller packed them,
and one tile of C for each thread: nothing that grows with both M and N. -/
theorem C75_kfirst (h : TileOK p cx.m_r cx.n_r m_c k_c n_c) {A B C : Loc}
    (e : cake_sgemm nz cx A B C M N K p packedA packedB alpha beta m_c k_c n_c .KMN = some prog) :
    workspace prog = (if packedA then 0 else cdiv M cx.m_r * cx.m_r * K) + (if packedB then 0 else cdiv N cx.n_r * cx.n_r * K) +
      p * (m_c * n_c) := by
  unfold cake_sgemm at e
  simp only [Option.bind_eq_bind, Option.bind_eq_some_iff, Option.some.injEq] at e
  obtain ⟨x, hx, aSz, hA, cSz, -, pa, -, pb, -, pc, -, uc, -, sc, -, rfl⟩ := e
  simp only [init_block_dims, Option.some.injEq] at hx
  subst hx
  have hA' : aSz = cdiv M cx.m_r * cx.m_r * K := by
    have : packedASize M K p cx.m_r m_c .NKM = some aSz := hA
    rw [packedA_nkm, Option.some.injEq] at this
    rw [← this, padTo_eq h.m_r_pos h.S_dvd]
  rw [if_pos (show (dimsKMN ..).sch = .KMN from rfl)]
  simp only [workspace_append, workspace_phases, workspace_callocs, workspace_cons, workspace_nil, workspace_ite, Item.floats,
    workspace_frees (q := (range p).map fun i => Item.free (.CpC i)) (by intro it hit; simp at hit; obtain ⟨i, _, rfl⟩ := hit; exact ⟨_, rfl⟩),
    packedB_eq, padTo_eq h.n_r_pos h.n_dvd, hA', Nat.add_zero, Nat.zero_add, ite_self]

example : ∃ prog, cake_sgemm (fun x : Int => x != 0) haswell ⟨.A, 0⟩ ⟨.B, 0⟩ ⟨.C, 0⟩ 79 169 11 3 false true 1 0 12 5 32 .KMN =
    some prog ∧ workspace prog = 84 * 11 + 3 * (12 * 32) :=
  ⟨_, rfl, C75_kfirst (alpha := 1) demo_tile rfl⟩

/-- **C75, M-first and N-first.** The call allocates a copy of all of C, rounded up to register tiles, besides the copies of A and B. -/
theorem C75_mnfirst (h : TileOK p cx.m_r cx.n_r m_c k_c n_c) {A B C : Loc} {sch : Sched} (hs : sch ≠ .KMN)
    (e : cake_sgemm nz cx A B C M N K p packedA packedB alpha beta m_c k_c n_c sch = some prog) :
    workspace prog = (if packedA then 0 else cdiv M cx.m_r * cx.m_r * K) + (if packedB then 0 else cdiv N cx.n_r * cx.n_r * K) +
      cdiv M cx.m_r * cx.m_r * (cdiv N cx.n_r * cx.n_r) := by
  unfold cake_sgemm at e
  simp only [Option.bind_eq_bind, Option.bind_eq_some_iff, Option.some.injEq] at e
  obtain ⟨x, hx, aSz, hA, cSz, hC, pa, -, pb, -, pc, -, uc, -, sc, -, rfl⟩ := e
  cases sch with
  | KMN => exact absurd rfl hs
  | NA => cases hx
  | MKN =>
    simp only [init_block_dims, Option.some.injEq] at hx
    subst hx
    have hA' : aSz = cdiv M cx.m_r * cx.m_r * K := by
      have : packedASize M K p cx.m_r m_c .MKN = some aSz := hA
      rw [packedA_mkn, Option.some.injEq] at this
      rw [← this, padTo_eq h.m_r_pos h.m_dvd]
    have hC' : cSz = cdiv M cx.m_r * cx.m_r * (cdiv N cx.n_r * cx.n_r) := by
      have : packedCSize M N p cx.m_r cx.n_r m_c n_c .MKN = some cSz := hC
      rw [packedC_mkn, Option.some.injEq] at this
      rw [← this, padTo_eq h.m_r_pos h.m_dvd, padTo_eq h.n_r_pos h.n_dvd]
    rw [if_neg (show ¬ (dimsMKN ..).sch = .KMN by intro e; cases e)]
    simp only [workspace_append, workspace_phases, workspace_cons, workspace_nil, workspace_ite, Item.floats,
      packedB_eq, padTo_eq h.n_r_pos h.n_dvd, hA', hC', Nat.add_zero, Nat.zero_add, ite_self]
  | NKM =>
    simp only [init_block_dims, Option.some.injEq] at hx
    subst hx
    have hA' : aSz = cdiv M cx.m_r * cx.m_r * K := by
      have : packedASize M K p cx.m_r m_c .NKM = some aSz := hA
      rw [packedA_nkm, Option.some.injEq] at this
      rw [← this, padTo_eq h.m_r_pos h.S_dvd]
    have hC' : cSz = cdiv M cx.m_r * cx.m_r * (cdiv N cx.n_r * cx.n_r) := by
      have : packedCSize M N p cx.m_r cx.n_r m_c n_c .NKM = some cSz := hC
      rw [packedC_nkm, Option.some.injEq] at this
      rw [← this, padTo_eq h.m_r_pos h.S_dvd, padTo_eq h.n_r_pos h.n_dvd]
    rw [if_neg (show ¬ (dimsNKM ..).sch = .KMN by intro e; cases e)]
    simp only [workspace_append, workspace_phases, workspace_cons, workspace_nil, workspace_ite, Item.floats,
      packedB_eq, padTo_eq h.n_r_pos h.n_dvd, hA', hC', Nat.add_zero, Nat.zero_add, ite_self]

example : ∃ prog, cake_sgemm (fun x : Int => x != 0) haswell ⟨.A, 0⟩ ⟨.B, 0⟩ ⟨.C, 0⟩ 79 169 11 3 false true 1 0 12 5 32 .NKM =
    some prog ∧ workspace prog = 84 * 11 + 84 * 176 :=
  ⟨_, rfl, C75_mnfirst (alpha := 1) (sch := .NKM) demo_tile (by decide) rfl⟩

/-- **C75, packing on the fly.** The call allocates one tile of A and one of C for each thread and one tile of B: the sizes of the
matrices do not matter. -/
theorem C75_online {A B C : Loc}
    (e : cake_sgemm_online cx A B C M N K p packedA packedB alpha beta m_c k_c n_c = some prog) :
    workspace prog = p * (m_c * k_c) + k_c * n_c + p * (m_c * n_c) := by
  unfold cake_sgemm_online at e
  simp only [Option.bind_eq_bind, Option.bind_eq_some_iff, Option.some.injEq] at e
  obtain ⟨x, hx, rfl⟩ := e
  cases hx
  simp only [workspace_append, workspace_phases, workspace_callocs, workspace_memaligns, workspace_cons, workspace_nil, Item.floats,
    workspace_frees (q := (range p).flatMap fun i => [Item.free (.ApC i), Item.free (.CpC i)]) (by
      intro it hit; simp at hit; obtain ⟨i, _, rfl | rfl⟩ := hit <;> exact ⟨_, rfl⟩), Nat.add_zero, Nat.zero_add]

example : ∃ prog, callO haswell 79 169 11 3 false false (1 : Int) 0 12 5 32 = some prog ∧
    workspace prog = 3 * (12 * 5) + 5 * 32 + 3 * (12 * 32) :=
  ⟨_, rfl, C75_online (packedA := false) (packedB := false) (alpha := (1 : Int)) (beta := 0) rfl⟩

/-- **C75, 2-D.** One block of A, one of B and one tile of C for each thread asked for. -/
theorem C75_2d {pn : Nat} (h : Fit2 M N p cx.m_r cx.n_r pn m_c k_c)
    (e : call2 cx M N K p packedA packedB alpha beta pn m_c k_c = some prog) :
    workspace prog = (grid2 M N p cx.m_r cx.n_r pn m_c).pm * (grid2 M N p cx.m_r cx.n_r pn m_c).m_c * k_c +
      (grid2 M N p cx.m_r cx.n_r pn m_c).pn * (grid2 M N p cx.m_r cx.n_r pn m_c).n_c * k_c +
      p * ((grid2 M N p cx.m_r cx.n_r pn m_c).m_c * (grid2 M N p cx.m_r cx.n_r pn m_c).n_c) := by
  unfold call2 cake_sgemm_2d at e
  rw [init2d_eq h.pn_pos] at e
  simp only [Option.bind_eq_bind, Option.bind_eq_some_iff, Option.some.injEq] at e
  obtain ⟨x, hx, rfl⟩ := e
  unfold dims2d at hx
  split at hx
  · cases hx
  cases hx
  unfold sgemm2dBody
  simp only [workspace_append, workspace_phases, workspace_callocs, workspace_cons, workspace_nil, Item.floats,
    workspace_frees (q := (range p).map fun i => Item.free (.CpC i)) (by intro it hit; simp at hit; obtain ⟨i, _, rfl⟩ := hit; exact ⟨_, rfl⟩),
    Nat.add_zero, Nat.zero_add]

example := fun prog => C75_2d (α := Int) (cx := haswell) (K := 11) (packedA := false) (packedB := false) (alpha := 1) (beta := 0)
  demo_fit2 (prog := prog)

/-- **C75, small 2-D.** A slice of A and one of B, `k_c` deep and rounded up to register tiles, and one tile of C for each thread. -/
theorem C75_2d_small {pn kc_max : Nat} (hm : 0 < cx.m_r) (hn : 0 < cx.n_r)
    (e : callS cx M N K p packedA packedB alpha beta pn kc_max = some prog) :
    ∃ m_c n_c, m_c = smallTile (roundUp M cx.m_r) (p / pn) cx.m_r ∧ n_c = smallTile (roundUp N cx.n_r) pn cx.n_r ∧
      workspace prog = (roundUp M cx.m_r + roundUp N cx.n_r) * min m_c kc_max + p * (m_c * n_c) := by
  obtain ⟨hpn, hp, hkm⟩ := small_some hm packedA packedB alpha beta e
  have hk0 : 0 < (if smallTile (roundUpC M cx.m_r) (p / pn) cx.m_r > kc_max then kc_max
      else smallTile (roundUpC M cx.m_r) (p / pn) cx.m_r) := by
    split
    · exact hkm
    · exact Nat.lt_of_le_of_lt (Nat.zero_le _) (smallTile_gt hm)
  obtain ⟨x, hx, e1, e2, e3, e4, e5, e6, e7, e8, e9, e10, e11, e12, e13, e14⟩ :=
    init_small_eq (M := M) (N := N) (K := K) (m_r := cx.m_r) (n_r := cx.n_r) hpn (Nat.div_pos hp hpn) rfl hk0
  unfold callS cake_sgemm_2d_small at e
  rw [hx] at e
  simp only [Option.bind_eq_bind, Option.bind_some, Option.some.injEq] at e
  refine ⟨_, _, rfl, rfl, ?_⟩
  rw [← e]
  simp only [workspace_append, workspace_phases, workspace_callocs, workspace_cons, workspace_nil, Item.floats,
    workspace_frees (q := (range p).map fun i => Item.free (.CpC i)) (by intro it hit; simp at hit; obtain ⟨i, _, rfl⟩ := hit; exact ⟨_, rfl⟩),
    Nat.add_zero, Nat.zero_add, e1, e2, e3, e11, e12, roundUpC_eq hm, roundUpC_eq hn]
  rw [show (if smallTile (roundUp M cx.m_r) (p / pn) cx.m_r > kc_max then kc_max else smallTile (roundUp M cx.m_r) (p / pn) cx.m_r) =
    min (smallTile (roundUp M cx.m_r) (p / pn) cx.m_r) kc_max by split <;> omega]
  ring

/-- 42 x 64 after rounding, tiles of 24 x 48, slices five deep. -/
example (prog : Prog) (e : callS haswell 40 50 11 4 false false (1 : Int) 0 2 5 = some prog) :
    workspace prog = (42 + 64) * 5 + 4 * (24 * 48) := by
  obtain ⟨m, n, rfl, rfl, h⟩ := C75_2d_small (by decide) (by decide) e
  exact h.trans (by decide)

end Cake
