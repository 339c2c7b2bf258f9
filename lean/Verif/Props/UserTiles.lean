/-
C22 for the K-first schedule: for exactly which user tile sizes the product is right.
-/
import Verif.Proofs.UserTilesNeg
import Verif.Props.Api

namespace Cake
open List

section
variable (r : Rounding 53) (rs : Rounding 24) (nf : Option ℝ → Option ℝ → Bool)

/-- Positive user tiles, whatever they are, reach the product unchanged, with or without a context. -/
theorem api_user_tiles {α : Type _} (nz : α → Bool) {mc : Machine} {cntx : Option (CCtx (Option ℝ))} {m_r n_r L2 L3 nc : Nat}
    (h : Ready mc (cntx.getD (query_cntx (ieee r rs nf) mc)) m_r n_r L2 L3 nc) {a : Args α} (hp : 0 < a.p)
    (hm : 0 < a.mcu) (hkc : 0 < a.kcu) (hn : 0 < a.ncu) (hs : a.sch ≠ .NA) :
    ∃ prog cx' kd, publicCall r rs nf nz mc cntx a =
        .ok ((if cntx.isNone then [Item.malloc .Ctx 1] else []) ++ prog, cx') ∧
      cake_sgemm nz ⟨m_r, n_r, kd, mc.kfix⟩ ⟨.A, 0⟩ ⟨.B, 0⟩ ⟨.C, 0⟩ a.M a.N a.K a.p a.packedA a.packedB a.alpha a.beta
        a.mcu a.kcu a.ncu a.sch = some prog ∧ kd.Fits m_r n_r ∧ Ready mc cx' m_r n_r L2 L3 nc := by
  obtain ⟨d, cx', hd, e1, e2, e3⟩ := dims_user r rs nf h.cache a.M a.N a.K a.p hp a.sch hm hkc hn
  obtain ⟨hs1, hs2, hcx⟩ := (get_cache_dims_noExit _ _ _ _ _ _ _ _ _ _ _).of_ok hd
  have hR := h.alpha hcx
  obtain ⟨kd, hv, hf⟩ := hR.view
  obtain ⟨prog, hprog⟩ := cake_sgemm_isSome nz ⟨m_r, n_r, kd, mc.kfix⟩ ⟨.A, 0⟩ ⟨.B, 0⟩ ⟨.C, 0⟩ a.M a.N a.K a.p a.packedA
    a.packedB a.alpha a.beta a.mcu a.kcu a.ncu (hs1 hs ▸ hs2)
  refine ⟨prog, cx', kd, ?_, hprog, hf, hR⟩
  simp only [publicCall]
  unfold sgemm_api
  simp only [bind, Except.bind]
  rw [hd]
  simp only
  rw [hv]
  simp only
  rw [if_neg (by rw [e1, e2, e3]; omega), e1, e2, e3, hs1 hs]
  simp only [Int.toNat_natCast]
  rw [hprog]
  rfl

/-- The user tiles with which the K-first schedule works, for an `M x N` result on `p` threads: a tile size that is not a
multiple of the register tile must exceed the matrix (`p * m_c` rows, `n_c` columns), so that only the ragged block
is used, and the largest block of one thread, which is padded to register tiles, must not exceed `m_c * n_c`. -/
def KTilesFit (M N p m_r n_r m_c n_c : Nat) : Prop :=
  (m_r ∣ m_c ∨ M < p * m_c) ∧ (n_r ∣ n_c ∨ N < n_c) ∧
    (if M < p * m_c then cdiv (cdiv M m_r) p * m_r else m_c) * (if N < n_c then cdiv N n_r * n_r else n_c) ≤ m_c * n_c

instance (M N p m_r n_r m_c n_c : Nat) : Decidable (KTilesFit M N p m_r n_r m_c n_c) := by
  unfold KTilesFit; infer_instance

/-- **C22, K-first, what holds.** With any positive user tile sizes that fit in the sense of `KTilesFit`, multiples of the
register tile or not, the K-first call is correct, in any arithmetic. Missing: the tile sizes that do not fit, with
which it is wrong (`C22_kfirst_iff`). -/
theorem C22_kfirst_partial {α : Type _} (F : Arith α) (nz : α → Bool) {mc : Machine} {cntx : Option (CCtx (Option ℝ))}
    {m_r n_r L2 L3 nc : Nat}
    (h : Ready mc (cntx.getD (query_cntx (ieee r rs nf) mc)) m_r n_r L2 L3 nc)
    {a : Args α} (hpk : a.packedA = false ∧ a.packedB = false) (hp : 0 < a.p)
    (hm : 0 < a.mcu) (hkc : 0 < a.kcu) (hn : 0 < a.ncu) (hsch : a.sch = .KMN) (hM : 0 < a.M) (hN : 0 < a.N)
    (hfit : KTilesFit a.M a.N a.p m_r n_r a.mcu a.ncu) :
    ∃ prog cx', publicCall r rs nf nz mc cntx a = .ok (prog, cx') ∧ Ready mc cx' m_r n_r L2 L3 nc ∧
      ∀ s, CallOK s a.M a.N a.K → (cntx = none → s.size .Ctx = none) →
        Computes F (some prog) s (fun s' => Correct F cntx.isNone s s' a.M a.N a.K) := by
  obtain ⟨prog, cx', kd, e1, e2, hf, hR⟩ := api_user_tiles r rs nf nz h hp hm hkc hn (by rw [hsch]; simp)
  refine ⟨_, cx', e1, hR, fun s hs hctx => computes_ctx _ (fun e => hctx (by simpa using e)) fun s1 w1 w2 => ?_⟩
  have hs1 : CallOK s1 a.M a.N a.K := by
    cases e : cntx.isNone with
    | true => exact (w1 e).call hs
    | false => rw [w2 e]; exact hs
  obtain ⟨f1, f2, f3⟩ := hfit
  have hmr := h.cache.mr_pos
  have hnr := h.cache.nr_pos
  rw [hpk.1, hpk.2, hsch, sgemmK_up nz (cx := ⟨m_r, n_r, kd, mc.kfix⟩) a.alpha a.beta hp hmr hnr hm hkc hn hM hN f1 f2] at e2
  rw [← e2]
  have hT := upTile_tile (k_c := a.kcu) hp hmr hnr hm hkc hn
  have fr : ∀ b : Buf, b ≠ .A → b ≠ .B → b ≠ .C → b ≠ .Ctx → s1.size b = none := hs1.fresh
  refine (Computes.of_triple rfl (progKZ_triple (F := F) (a := entry s1 .A a.K) (b := entry s1 .B a.N)
    (cx := ⟨m_r, n_r, kd, mc.kfix⟩) hT rfl rfl hf
    (ZOK.up hp hmr hnr hm hkc hn f1 f2 f3) (packedA := false) (packedB := false) ⟨fun _ => ⟨hs1.a, ?_, fun _ _ => rfl⟩, by simp⟩
    ⟨fun _ => ⟨hs1.b, ?_, fun _ _ => rfl⟩, by simp⟩ hs1.c ?_ ?_ ?_ ?_)).mono fun s' hs' =>
      Correct.of_env (orderKMN_perm hT.k_c_pos) rfl hs'
  · exact fr _ (by simp) (by simp) (by simp) (by simp)
  · exact fr _ (by simp) (by simp) (by simp) (by simp)
  · exact fun i => fr _ (by simp) (by simp) (by simp) (by simp)
  · exact fun i => fr _ (by simp) (by simp) (by simp) (by simp)
  · exact fr _ (by simp) (by simp) (by simp) (by simp)
  · exact fr _ (by simp) (by simp) (by simp) (by simp)

/-- Tiles `m_c = 25` and `n_c = 50`, neither a multiple of the 6 x 16 register tile. -/
example := C22_kfirst_partial r rs nf (exact Int) (· != 0) (cntx := none) (haswellMachine_ok.query (ieee r rs nf))
  (a := { M := 93, N := 40, K := 77, p := 4, alpha := 1, beta := 0, sch := .KMN, mcu := 25, kcu := 7, ncu := 50 }) ⟨rfl, rfl⟩
  (by decide) (by decide) (by decide) (by decide) rfl (by decide) (by decide) (by decide)

/-- With tiles that do not fit, the K-first call fails on all-ones operands: it does not end normally or an entry of C is
zero. -/
theorem kfirst_nofit {cx : Cntx} (hk : cx.kmap.Fits cx.m_r cx.n_r) {M N K p m_c k_c n_c : Nat} (hp : 0 < p)
    (hmr : 0 < cx.m_r) (hnr : 0 < cx.n_r)
    (hm : 0 < m_c) (hkc : 0 < k_c) (hn : 0 < n_c) (hM : 0 < M) (hN : 0 < N) (hK : 0 < K)
    (hfit : ¬ KTilesFit M N p cx.m_r cx.n_r m_c n_c) (nz : Int → Bool) (alpha beta : Int) {prog : Prog}
    (hprog : cake_sgemm nz cx ⟨.A, 0⟩ ⟨.B, 0⟩ ⟨.C, 0⟩ M N K p false false alpha beta m_c k_c n_c .KMN = some prog)
    {s s' : State Int} (hfc : s.size (.CpC 0) = none) (hC : ∀ l : Loc, l.buf = .C → s.mem l = 0)
    (he : Exec (exact Int) prog s (.ok s')) (hC' : s'.size .C ≠ none) :
    ∃ row col, row < M ∧ col < N ∧ entry s' .C N row col = 0 := by
  rw [sgemmK_prog, Option.some.injEq] at hprog
  subst hprog
  have hS : 0 < p * m_c := Nat.mul_pos hp hm
  have hle : m_c ≤ p * m_c := Nat.le_mul_of_pos_left _ hp
  by_cases f1 : cx.m_r ∣ m_c ∨ M < p * m_c
  · by_cases f2 : cx.n_r ∣ n_c ∨ N < n_c
    · exfalso
      refine kfirst_small_no_ok (F := exact Int) rfl hp hm hkc hn hmr hnr hk hM hN hK f1 f2 ?_ he
      by_contra hz
      exact hfit ⟨f1, f2, Nat.le_of_not_lt hz⟩
    · rw [not_or, Nat.not_lt] at f2
      obtain ⟨d2, l2⟩ := f2
      have hlt : n_c / cx.n_r * cx.n_r < n_c := by
        have := Nat.div_mul_le_self n_c cx.n_r
        rcases Nat.lt_or_ge (n_c / cx.n_r * cx.n_r) n_c with h | h
        · exact h
        · exact absurd ⟨n_c / cx.n_r, by rw [Nat.mul_comm]; omega⟩ d2
      refine ⟨0, n_c / cx.n_r * cx.n_r, hM, by omega, ?_⟩
      have hnt : ntK (dimsKMN M N K p cx.m_r cx.n_r m_c k_c n_c) 0 = n_c := by
        rw [ntK_max rfl hn hN]; unfold maxCols; rw [if_neg (by omega)]
      refine kfirst_zero (F := exact Int) rfl hp hm hn hmr hnr hk (row := 0) (mxK_pos rfl hp hm hmr 0) hM hS hlt (by omega) rfl ?_
        (hC _ rfl) hfc he hC'
      intro u v y hu hv hy
      rw [hnt] at hu
      have e : cIdx cx.m_r cx.n_r (cdiv (mtK (dimsKMN M N K p cx.m_r cx.n_r m_c k_c n_c) 0 0) cx.m_r * cx.m_r) 0
          (n_c / cx.n_r * cx.n_r) =
          n_c / cx.n_r * (cdiv (mtK (dimsKMN M N K p cx.m_r cx.n_r m_c k_c n_c) 0 0) cx.m_r * cx.m_r * cx.n_r) := by
        unfold cIdx
        rw [Nat.mul_div_cancel _ hnr, Nat.mul_mod_left]
        simp
      rw [e]
      exact tile_misses_col hmr hu hv hy
  · rw [not_or, Nat.not_lt] at f1
    obtain ⟨d1, l1⟩ := f1
    have hlt : m_c / cx.m_r * cx.m_r < m_c := by
      have := Nat.div_mul_le_self m_c cx.m_r
      rcases Nat.lt_or_ge (m_c / cx.m_r * cx.m_r) m_c with h | h
      · exact h
      · exact absurd ⟨m_c / cx.m_r, by rw [Nat.mul_comm]; omega⟩ d1
    have hml := mLast_false (x := dimsKMN M N K p cx.m_r cx.n_r m_c k_c n_c) rfl l1 hS
    have hmt : mtK (dimsKMN M N K p cx.m_r cx.n_r m_c k_c n_c) 0 0 = m_c := by
      unfold mtK; rw [hml]; rfl
    have hmx : mxK (dimsKMN M N K p cx.m_r cx.n_r m_c k_c n_c) 0 = m_c := by
      unfold mxK; rw [hml]; rfl
    refine ⟨m_c / cx.m_r * cx.m_r, 0, by omega, hN, ?_⟩
    refine kfirst_zero (F := exact Int) rfl hp hm hn hmr hnr hk (row := m_c / cx.m_r * cx.m_r) (col := 0)
      (by rw [hmx]; exact hlt) (by omega) (by omega) hn hN rfl ?_ (hC _ rfl) hfc he hC'
    intro u v y hu hv hy
    rw [hmt] at hv ⊢
    have e : cIdx cx.m_r cx.n_r (cdiv m_c cx.m_r * cx.m_r) (m_c / cx.m_r * cx.m_r) 0 = m_c / cx.m_r * cx.m_r * cx.n_r := by
      unfold cIdx
      rw [Nat.mul_div_cancel _ hmr, Nat.mul_mod_left]
      simp [Nat.mul_assoc]
    rw [e]
    exact tile_misses_row hnr d1 hv hy

/-- **C22 (K-first), exactly.** For every non-empty product, every thread count and all positive user tile sizes: the
K-first call is correct on all operands if and only if the tiles fit in the sense of `KTilesFit`. -/
theorem C22_kfirst_iff (nz : Int → Bool) {mc : Machine} {cntx : Option (CCtx (Option ℝ))} {m_r n_r L2 L3 nc : Nat}
    (h : Ready mc (cntx.getD (query_cntx (ieee r rs nf) mc)) m_r n_r L2 L3 nc)
    {a : Args Int} (hpk : a.packedA = false ∧ a.packedB = false) (hp : 0 < a.p)
    (hm : 0 < a.mcu) (hkc : 0 < a.kcu) (hn : 0 < a.ncu) (hsch : a.sch = .KMN) (hM : 0 < a.M) (hN : 0 < a.N) (hK : 0 < a.K) :
    (∃ prog cx', publicCall r rs nf nz mc cntx a = .ok (prog, cx') ∧
      ∀ s, CallOK s a.M a.N a.K → (cntx = none → s.size .Ctx = none) →
        Computes (exact Int) (some prog) s (fun s' => Correct (exact Int) cntx.isNone s s' a.M a.N a.K)) ↔
    KTilesFit a.M a.N a.p m_r n_r a.mcu a.ncu := by
  constructor
  · rintro ⟨prog, cx', e, hall⟩
    by_contra hfit
    obtain ⟨prog', cx'', kd, e1, e2, hf, -⟩ := api_user_tiles r rs nf nz h hp hm hkc hn (by rw [hsch]; simp)
    rw [e] at e1
    simp only [Except.ok.injEq, Prod.mk.injEq] at e1
    obtain ⟨rfl, -⟩ := e1
    obtain ⟨_, e', ⟨s', hex⟩, hQ⟩ := hall (ones a.M a.N a.K) (ones_ok _ _ _) (fun _ => rfl)
    rw [Option.some.injEq] at e'
    subst e'
    rcases hQ _ hex with e' | ⟨s'', e', hcor⟩
    · cases e'
    cases e'
    obtain ⟨s1, h1, h2⟩ := hex.append_ok
    have hs1 : s1.size (.CpC 0) = none ∧ ∀ l : Loc, l.buf = .C → s1.mem l = 0 := by
      have h0 : (ones a.M a.N a.K).size (.CpC 0) = none ∧ ∀ l : Loc, l.buf = .C → (ones a.M a.N a.K).mem l = 0 := by
        refine ⟨rfl, ?_⟩
        rintro ⟨b, i⟩ rfl
        rfl
      split at h1
      · cases h1 with
        | next _ _ _ s2 _ h1 h2 =>
          cases h2
          cases h1 with
          | malloc _ _ _ m' _ hm =>
            refine ⟨?_, fun l hl => ?_⟩
            · have := h0.1
              simpa using this
            · show m' l = 0
              rw [hm l (by rw [hl]; simp)]; exact h0.2 l hl
      · cases h1; exact h0
    rw [hpk.1, hpk.2, hsch] at e2
    have hC' : s'.size .C ≠ none := by
      rw [hcor.size]
      simp [sizesAfter, ones, demoC, demo]
    obtain ⟨row, col, hr, hc, h0⟩ := kfirst_nofit (cx := ⟨m_r, n_r, kd, mc.kfix⟩) hf hp h.cache.mr_pos h.cache.nr_pos
      hm hkc hn hM hN hK hfit nz _ _ e2 hs1.1 hs1.2 h2 hC'
    have := hcor.product.exact hr hc
    rw [h0] at this
    simp [entry, ones] at this
    have hz : (exact Int).zero = 0 := rfl
    omega
  · intro hfit
    obtain ⟨prog, cx', e, -, hall⟩ := C22_kfirst_partial r rs nf (exact Int) nz h hpk hp hm hkc hn hsch hM hN hfit
    exact ⟨prog, cx', e, hall⟩

/-- Of `m_c = 25`, `n_c = 50` on 4 threads: right for `93 x 40`, wrong for `100 x 40` (a full block of rows), for `93 x 50`
(a full block of columns). -/
example := (C22_kfirst_iff r rs nf (· != 0) (cntx := none) (haswellMachine_ok.query (ieee r rs nf))
  (a := { M := 93, N := 40, K := 77, p := 4, alpha := 1, beta := 0, sch := .KMN, mcu := 25, kcu := 7, ncu := 50 }) ⟨rfl, rfl⟩
  (by decide) (by decide) (by decide) (by decide) rfl (by decide) (by decide) (by decide)).2 (by decide)

example := mt (C22_kfirst_iff r rs nf (· != 0) (cntx := none) (haswellMachine_ok.query (ieee r rs nf))
  (a := { M := 100, N := 40, K := 77, p := 4, alpha := 1, beta := 0, sch := .KMN, mcu := 25, kcu := 7, ncu := 50 }) ⟨rfl, rfl⟩
  (by decide) (by decide) (by decide) (by decide) rfl (by decide) (by decide) (by decide)).1 (by decide)

example := mt (C22_kfirst_iff r rs nf (· != 0) (cntx := none) (haswellMachine_ok.query (ieee r rs nf))
  (a := { M := 93, N := 50, K := 77, p := 4, alpha := 1, beta := 0, sch := .KMN, mcu := 25, kcu := 7, ncu := 50 }) ⟨rfl, rfl⟩
  (by decide) (by decide) (by decide) (by decide) rfl (by decide) (by decide) (by decide)).1 (by decide)

/-- A tile smaller than one register tile: the per-core buffer is too small. -/
example := mt (C22_kfirst_iff r rs nf (· != 0) (cntx := none) (haswellMachine_ok.query (ieee r rs nf))
  (a := { M := 3, N := 5, K := 2, p := 1, alpha := 1, beta := 0, sch := .KMN, mcu := 4, kcu := 2, ncu := 6 }) ⟨rfl, rfl⟩
  (by decide) (by decide) (by decide) (by decide) rfl (by decide) (by decide) (by decide)).1 (by decide)

end
end Cake
