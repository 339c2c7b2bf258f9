/-
C22 for the M-first and the N-first schedule: for exactly which user tile sizes the product is right.
-/
import Verif.Proofs.UserTilesMNNeg
import Verif.Props.UserTiles

namespace Cake
open List

section
variable (r : Rounding 53) (rs : Rounding 24) (nf : Option ℝ → Option ℝ → Bool)

/-- The user tiles with which the M-first schedule works, for an `M x N` result: a tile size that is not a multiple of the
register tile must exceed the matrix, so that only the ragged block is used. -/
def MTilesFit (M N m_r n_r m_c n_c : Nat) : Prop := (m_r ∣ m_c ∨ M < m_c) ∧ (n_r ∣ n_c ∨ N < n_c)

/-- The user tiles with which the N-first schedule works, for an `M x N` result on `p` threads: here the block of rows has
height `p * m_c`, and only that height matters. -/
def NTilesFit (M N p m_r n_r m_c n_c : Nat) : Prop := (m_r ∣ p * m_c ∨ M < p * m_c) ∧ (n_r ∣ n_c ∨ N < n_c)

instance (M N m_r n_r m_c n_c : Nat) : Decidable (MTilesFit M N m_r n_r m_c n_c) := by
  unfold MTilesFit; infer_instance

instance (M N p m_r n_r m_c n_c : Nat) : Decidable (NTilesFit M N p m_r n_r m_c n_c) := by
  unfold NTilesFit; infer_instance

/-- `ones` with `e` further readable elements behind B. -/
def onesSlack (M N K e : Nat) : State Int :=
  { ones M N K with size := fun b => if b = .B then some (K * N + e) else (ones M N K).size b }

theorem onesSlack_ok (M N K e : Nat) : CallOK (onesSlack M N K e) M N K :=
  ⟨⟨⟨_, rfl, Nat.le_refl _⟩, fun _ _ => rfl⟩, ⟨⟨_, rfl, Nat.le_add_right _ _⟩, fun _ _ => rfl⟩,
    ⟨_, rfl, Nat.le_refl _⟩, fun b h1 h2 h3 _ => by cases b <;> first | rfl | contradiction⟩

theorem onesSlack_holds (M N K e : Nat) : Holds (onesSlack M N K e) .B 1 (K * N + e) :=
  ⟨⟨_, rfl, by omega⟩, fun _ _ => rfl⟩

/-- **C22, M-first, what holds.** With any positive user tile sizes that fit in the sense of `MTilesFit`, multiples of the
register tile or not, and beta = 0, the M-first call is correct, in any arithmetic, provided B's rows are whole register
tiles or `n_r - 1` elements behind B may be read (`C21`). Missing: the tile sizes that do not fit, with which it is
wrong (`C22_mfirst_iff`). -/
theorem C22_mfirst_partial {α : Type _} (F : Arith α) (nz : α → Bool) {mc : Machine} {cntx : Option (CCtx (Option ℝ))}
    {m_r n_r L2 L3 nc : Nat}
    (h : Ready mc (cntx.getD (query_cntx (ieee r rs nf) mc)) m_r n_r L2 L3 nc) (hk : mc.kfix.Fits m_r n_r)
    {a : Args α} (hpk : a.packedA = false ∧ a.packedB = false) (hp : 0 < a.p)
    (hm : 0 < a.mcu) (hkc : 0 < a.kcu) (hn : 0 < a.ncu) (hsch : a.sch = .MKN) (hb : nz a.beta = false)
    (hM : 0 < a.M) (hN : 0 < a.N) (hfit : MTilesFit a.M a.N m_r n_r a.mcu a.ncu) :
    ∃ prog cx', publicCall r rs nf nz mc cntx a = .ok (prog, cx') ∧ Ready mc cx' m_r n_r L2 L3 nc ∧
      ∀ s, CallOK s a.M a.N a.K → (n_r ∣ a.N ∨ Holds s .B 1 (a.K * a.N + (n_r - 1))) → (cntx = none → s.size .Ctx = none) →
        Computes F (some prog) s (fun s' => Correct F cntx.isNone s s' a.M a.N a.K) := by
  obtain ⟨prog, cx', kd, e1, e2, hf, hR⟩ := api_user_tiles r rs nf nz h hp hm hkc hn (by rw [hsch]; simp)
  refine ⟨_, cx', e1, hR, fun s hs hB hctx => computes_ctx _ (fun e => hctx (by simpa using e)) fun s1 w1 w2 => ?_⟩
  have hs1 : CallOK s1 a.M a.N a.K := by
    cases e : cntx.isNone with
    | true => exact (w1 e).call hs
    | false => rw [w2 e]; exact hs
  have hB1 : n_r ∣ a.N ∨ Holds s1 .B 1 (a.K * a.N + (n_r - 1)) := by
    cases e : cntx.isNone with
    | true => exact hB.imp id fun h => (w1 e).holds (by simp) h
    | false => rw [w2 e]; exact hB
  obtain ⟨f1, f2⟩ := hfit
  have hmr := h.cache.mr_pos
  have hnr := h.cache.nr_pos
  rw [hpk.1, hpk.2, hsch, sgemmM_up nz ⟨m_r, n_r, kd, mc.kfix⟩ a.alpha a.beta hmr hnr hM hN f1 f2] at e2
  rw [← e2]
  have hT := upTile_tile (k_c := a.kcu) hp hmr hnr hm hkc hn
  have hB2 : Holds s1 .B 1 (bNeed a.N a.K a.p n_r a.kcu (upTile n_r a.ncu)) := by
    rcases hB1 with h | h
    · exact readable_of_dvd (upTile_tile (k_c := a.kcu) hp hmr hnr hm hkc hn) hs1 h
    · exact readable_of_slack (upTile_tile (k_c := a.kcu) hp hmr hnr hm hkc hn) h
  exact (sgemmM_call F nz ⟨m_r, n_r, kd, mc.kfix⟩ hT hk a.alpha a.beta hs1 hB2 (by simp [hb])).mono fun s' hs' =>
    Correct.of_env (fun r c => orderMKN_perm hT.p_pos hT.k_c_pos) (by simp [hb]) hs'

/-- Tiles `m_c = 100` and `n_c = 50`, neither a multiple of the 6 x 16 register tile. -/
example := C22_mfirst_partial r rs nf (exact Int) (· != 0) (cntx := none) (haswellMachine_ok.query (ieee r rs nf))
  haswellMachine_ok.kfix_fits
  (a := { M := 93, N := 40, K := 77, p := 4, alpha := 1, beta := 0, sch := .MKN, mcu := 100, kcu := 7, ncu := 50 }) ⟨rfl, rfl⟩
  (by decide) (by decide) (by decide) (by decide) rfl rfl (by decide) (by decide) (by decide)

/-- **C22 (M-first), exactly.** For every non-empty product with beta = 0, every thread count and all positive user tile
sizes: the M-first call is correct on all operands with `n_r - 1` readable elements behind B if and only if the tiles fit
in the sense of `MTilesFit`. -/
theorem C22_mfirst_iff (nz : Int → Bool) {mc : Machine} {cntx : Option (CCtx (Option ℝ))} {m_r n_r L2 L3 nc : Nat}
    (h : Ready mc (cntx.getD (query_cntx (ieee r rs nf) mc)) m_r n_r L2 L3 nc) (hk : mc.kfix.Fits m_r n_r)
    {a : Args Int} (hpk : a.packedA = false ∧ a.packedB = false) (hp : 0 < a.p)
    (hm : 0 < a.mcu) (hkc : 0 < a.kcu) (hn : 0 < a.ncu) (hsch : a.sch = .MKN) (hb : nz a.beta = false)
    (hM : 0 < a.M) (hN : 0 < a.N) (hK : 0 < a.K) :
    (∃ prog cx', publicCall r rs nf nz mc cntx a = .ok (prog, cx') ∧
      ∀ s, CallOK s a.M a.N a.K → Holds s .B 1 (a.K * a.N + (n_r - 1)) → (cntx = none → s.size .Ctx = none) →
        Computes (exact Int) (some prog) s (fun s' => Correct (exact Int) cntx.isNone s s' a.M a.N a.K)) ↔
    MTilesFit a.M a.N m_r n_r a.mcu a.ncu := by
  constructor
  · rintro ⟨prog, cx', e, hall⟩
    by_contra hfit
    obtain ⟨prog', cx'', kd, e1, e2, hf, -⟩ := api_user_tiles r rs nf nz h hp hm hkc hn (by rw [hsch]; simp)
    rw [e] at e1
    simp only [Except.ok.injEq, Prod.mk.injEq] at e1
    obtain ⟨rfl, -⟩ := e1
    have hcomp := hall (onesSlack a.M a.N a.K (n_r - 1)) (onesSlack_ok _ _ _ _) (onesSlack_holds _ _ _ _) (fun _ => rfl)
    have hrace := fun ts hts => hcomp.raceFree rfl ts hts
    obtain ⟨_, e', ⟨s', hex⟩, hQ⟩ := hcomp
    rw [Option.some.injEq] at e'
    subst e'
    rcases hQ _ hex with e' | ⟨s'', e', hcor⟩
    · cases e'
    cases e'
    obtain ⟨s1, h1, h2⟩ := hex.append_ok
    have hs1 : s1.size .Cp = none ∧ ∀ l : Loc, l.buf = .C → s1.mem l = 0 := by
      have h0 : (onesSlack a.M a.N a.K (n_r - 1)).size .Cp = none ∧
          ∀ l : Loc, l.buf = .C → (onesSlack a.M a.N a.K (n_r - 1)).mem l = 0 := by
        refine ⟨rfl, ?_⟩
        rintro ⟨b, i⟩ rfl
        rfl
      split at h1
      · cases h1 with
        | next _ _ _ s2 _ h1 h2 =>
          cases h2
          cases h1 with
          | malloc _ _ _ m' _ hm =>
            refine ⟨?_, fun l hl => ?_⟩
            · have := h0.1
              simpa using this
            · show m' l = 0
              rw [hm l (by rw [hl]; simp)]; exact h0.2 l hl
      · cases h1; exact h0
    rw [hpk.1, hpk.2, hsch] at e2
    have hC' : s'.size .C ≠ none := by
      rw [hcor.size]
      simp [sizesAfter, onesSlack, ones, demoC, demo]
    obtain ⟨row, col, hr, hc, h0⟩ := mfirst_nofit (F := exact Int) (cx := ⟨m_r, n_r, kd, mc.kfix⟩) hk h.cache.mr_pos
      h.cache.nr_pos hm hn hM hN hfit hb e2 (fun ts hts => hrace ts (mem_append_right _ hts)) hs1.2 hs1.1 h2 hC'
    have := hcor.product.exact hr hc
    rw [h0] at this
    simp [entry, onesSlack, ones] at this
    have hz : (exact Int).zero = 0 := rfl
    omega
  · intro hfit
    obtain ⟨prog, cx', e, -, hall⟩ := C22_mfirst_partial r rs nf (exact Int) nz h hk hpk hp hm hkc hn hsch hb hM hN hfit
    exact ⟨prog, cx', e, fun s hs hB => hall s hs (.inr hB)⟩

/-- Of `m_c = 100`, `n_c = 50`: right for `93 x 40`, wrong for `101 x 40` (two blocks of rows: a race), for `100 x 40` (one full
block: a row stays zero) and for `93 x 50` (a column stays zero). -/
example :=(C22_mfirst_iff r rs nf (· != 0) (cntx := none) (haswellMachine_ok.query (ieee r rs nf))
  haswellMachine_ok.kfix_fits
  (a := { M := 93, N := 40, K := 77, p := 4, alpha := 1, beta := 0, sch := .MKN, mcu := 100, kcu := 7, ncu := 50 }) ⟨rfl, rfl⟩
  (by decide) (by decide) (by decide) (by decide) rfl rfl (by decide) (by decide) (by decide)).2 (by decide)

example := mt (C22_mfirst_iff r rs nf (· != 0) (cntx := none) (haswellMachine_ok.query (ieee r rs nf))
  haswellMachine_ok.kfix_fits
  (a := { M := 101, N := 40, K := 77, p := 4, alpha := 1, beta := 0, sch := .MKN, mcu := 100, kcu := 7, ncu := 50 }) ⟨rfl, rfl⟩
  (by decide) (by decide) (by decide) (by decide) rfl rfl (by decide) (by decide) (by decide)).1 (by decide)

example := mt (C22_mfirst_iff r rs nf (· != 0) (cntx := none) (haswellMachine_ok.query (ieee r rs nf))
  haswellMachine_ok.kfix_fits
  (a := { M := 100, N := 40, K := 77, p := 4, alpha := 1, beta := 0, sch := .MKN, mcu := 100, kcu := 7, ncu := 50 }) ⟨rfl, rfl⟩
  (by decide) (by decide) (by decide) (by decide) rfl rfl (by decide) (by decide) (by decide)).1 (by decide)

example := mt (C22_mfirst_iff r rs nf (· != 0) (cntx := none) (haswellMachine_ok.query (ieee r rs nf))
  haswellMachine_ok.kfix_fits
  (a := { M := 93, N := 50, K := 77, p := 4, alpha := 1, beta := 0, sch := .MKN, mcu := 100, kcu := 7, ncu := 50 }) ⟨rfl, rfl⟩
  (by decide) (by decide) (by decide) (by decide) rfl rfl (by decide) (by decide) (by decide)).1 (by decide)

/-- **C22, N-first, what holds.** With any positive user tile sizes that fit in the sense of `NTilesFit`, multiples of the
register tile or not, and beta = 0, the N-first call is correct, in any arithmetic, provided B's rows are whole register
tiles or `n_r - 1` elements behind B may be read (`C21`). Missing: the tile sizes that do not fit, with which it is
wrong (`C22_nfirst_iff`). -/
theorem C22_nfirst_partial {α : Type _} (F : Arith α) (nz : α → Bool) {mc : Machine} {cntx : Option (CCtx (Option ℝ))}
    {m_r n_r L2 L3 nc : Nat}
    (h : Ready mc (cntx.getD (query_cntx (ieee r rs nf) mc)) m_r n_r L2 L3 nc) (hk : mc.kfix.Fits m_r n_r)
    {a : Args α} (hpk : a.packedA = false ∧ a.packedB = false) (hp : 0 < a.p)
    (hm : 0 < a.mcu) (hkc : 0 < a.kcu) (hn : 0 < a.ncu) (hsch : a.sch = .NKM) (hb : nz a.beta = false)
    (hM : 0 < a.M) (hN : 0 < a.N) (hfit : NTilesFit a.M a.N a.p m_r n_r a.mcu a.ncu) :
    ∃ prog cx', publicCall r rs nf nz mc cntx a = .ok (prog, cx') ∧ Ready mc cx' m_r n_r L2 L3 nc ∧
      ∀ s, CallOK s a.M a.N a.K → (n_r ∣ a.N ∨ Holds s .B 1 (a.K * a.N + (n_r - 1))) → (cntx = none → s.size .Ctx = none) →
        Computes F (some prog) s (fun s' => Correct F cntx.isNone s s' a.M a.N a.K) := by
  obtain ⟨prog, cx', kd, e1, e2, hf, hR⟩ := api_user_tiles r rs nf nz h hp hm hkc hn (by rw [hsch]; simp)
  refine ⟨_, cx', e1, hR, fun s hs hB hctx => computes_ctx _ (fun e => hctx (by simpa using e)) fun s1 w1 w2 => ?_⟩
  have hs1 : CallOK s1 a.M a.N a.K := by
    cases e : cntx.isNone with
    | true => exact (w1 e).call hs
    | false => rw [w2 e]; exact hs
  have hB1 : n_r ∣ a.N ∨ Holds s1 .B 1 (a.K * a.N + (n_r - 1)) := by
    cases e : cntx.isNone with
    | true => exact hB.imp id fun h => (w1 e).holds (by simp) h
    | false => rw [w2 e]; exact hB
  obtain ⟨f1, f2⟩ := hfit
  have hmr := h.cache.mr_pos
  have hnr := h.cache.nr_pos
  rw [hpk.1, hpk.2, hsch, sgemmN_up nz ⟨m_r, n_r, kd, mc.kfix⟩ a.alpha a.beta hb hmr hnr hM hN f1 f2] at e2
  rw [← e2]
  have hT := upTileN_tile (k_c := a.kcu) hp hmr hnr hm hkc hn
  have hB2 : Holds s1 .B 1 (bNeed a.N a.K a.p n_r a.kcu (upTile n_r a.ncu)) := by
    rcases hB1 with h | h
    · exact readable_of_dvd (upTile_tile (k_c := a.kcu) hp hmr hnr hm hkc hn) hs1 h
    · exact readable_of_slack (upTile_tile (k_c := a.kcu) hp hmr hnr hm hkc hn) h
  exact (sgemmN_call F nz ⟨m_r, n_r, kd, mc.kfix⟩ hT hk a.alpha a.beta hs1 hB2 (by simp [hb])).mono fun s' hs' =>
    Correct.of_env (fun r c => orderNKM_perm hT.p_pos hT.k_c_pos) (by simp [hb]) hs'

/-- `m_c = 3` is no multiple of the 6-row register tile, but two threads together take 6 rows. -/
example := C22_nfirst_partial r rs nf (exact Int) (· != 0) (cntx := none) (haswellMachine_ok.query (ieee r rs nf))
  haswellMachine_ok.kfix_fits
  (a := { M := 93, N := 40, K := 77, p := 2, alpha := 1, beta := 0, sch := .NKM, mcu := 3, kcu := 7, ncu := 48 }) ⟨rfl, rfl⟩
  (by decide) (by decide) (by decide) (by decide) rfl rfl (by decide) (by decide) (by decide)

/-- **C22 (N-first), exactly.** For every non-empty product with beta = 0, every thread count and all positive user tile
sizes: the N-first call is correct on all operands with `n_r - 1` readable elements behind B if and only if the tiles fit
in the sense of `NTilesFit`. -/
theorem C22_nfirst_iff (nz : Int → Bool) {mc : Machine} {cntx : Option (CCtx (Option ℝ))} {m_r n_r L2 L3 nc : Nat}
    (h : Ready mc (cntx.getD (query_cntx (ieee r rs nf) mc)) m_r n_r L2 L3 nc) (hk : mc.kfix.Fits m_r n_r)
    {a : Args Int} (hpk : a.packedA = false ∧ a.packedB = false) (hp : 0 < a.p)
    (hm : 0 < a.mcu) (hkc : 0 < a.kcu) (hn : 0 < a.ncu) (hsch : a.sch = .NKM) (hb : nz a.beta = false)
    (hM : 0 < a.M) (hN : 0 < a.N) (hK : 0 < a.K) :
    (∃ prog cx', publicCall r rs nf nz mc cntx a = .ok (prog, cx') ∧
      ∀ s, CallOK s a.M a.N a.K → Holds s .B 1 (a.K * a.N + (n_r - 1)) → (cntx = none → s.size .Ctx = none) →
        Computes (exact Int) (some prog) s (fun s' => Correct (exact Int) cntx.isNone s s' a.M a.N a.K)) ↔
    NTilesFit a.M a.N a.p m_r n_r a.mcu a.ncu := by
  constructor
  · rintro ⟨prog, cx', e, hall⟩
    by_contra hfit
    obtain ⟨prog', cx'', kd, e1, e2, hf, -⟩ := api_user_tiles r rs nf nz h hp hm hkc hn (by rw [hsch]; simp)
    rw [e] at e1
    simp only [Except.ok.injEq, Prod.mk.injEq] at e1
    obtain ⟨rfl, -⟩ := e1
    have hcomp := hall (onesSlack a.M a.N a.K (n_r - 1)) (onesSlack_ok _ _ _ _) (onesSlack_holds _ _ _ _) (fun _ => rfl)
    have hrace := fun ts hts => hcomp.raceFree rfl ts hts
    obtain ⟨_, e', ⟨s', hex⟩, hQ⟩ := hcomp
    rw [Option.some.injEq] at e'
    subst e'
    rcases hQ _ hex with e' | ⟨s'', e', hcor⟩
    · cases e'
    cases e'
    obtain ⟨s1, h1, h2⟩ := hex.append_ok
    have hs1 : s1.size .Cp = none ∧ ∀ l : Loc, l.buf = .C → s1.mem l = 0 := by
      have h0 : (onesSlack a.M a.N a.K (n_r - 1)).size .Cp = none ∧
          ∀ l : Loc, l.buf = .C → (onesSlack a.M a.N a.K (n_r - 1)).mem l = 0 := by
        refine ⟨rfl, ?_⟩
        rintro ⟨b, i⟩ rfl
        rfl
      split at h1
      · cases h1 with
        | next _ _ _ s2 _ h1 h2 =>
          cases h2
          cases h1 with
          | malloc _ _ _ m' _ hm =>
            refine ⟨?_, fun l hl => ?_⟩
            · have := h0.1
              simpa using this
            · show m' l = 0
              rw [hm l (by rw [hl]; simp)]; exact h0.2 l hl
      · cases h1; exact h0
    rw [hpk.1, hpk.2, hsch] at e2
    have hC' : s'.size .C ≠ none := by
      rw [hcor.size]
      simp [sizesAfter, onesSlack, ones, demoC, demo]
    obtain ⟨row, col, hr, hc, h0⟩ := nfirst_nofit (F := exact Int) (cx := ⟨m_r, n_r, kd, mc.kfix⟩) hk h.cache.mr_pos
      h.cache.nr_pos (Nat.mul_pos hp hm) hn hM hN hfit hb e2 (fun ts hts => hrace ts (mem_append_right _ hts)) hs1.2 hs1.1 h2 hC'
    have := hcor.product.exact hr hc
    rw [h0] at this
    simp [entry, onesSlack, ones] at this
    have hz : (exact Int).zero = 0 := rfl
    omega
  · intro hfit
    obtain ⟨prog, cx', e, -, hall⟩ := C22_nfirst_partial r rs nf (exact Int) nz h hk hpk hp hm hkc hn hsch hb hM hN hfit
    exact ⟨prog, cx', e, fun s hs hB => hall s hs (.inr hB)⟩

/-- Of `m_c = 3`, `n_c = 48`: right on 2 threads, wrong on 1 and on 3 threads; and with `n_c = 40` wrong on 2 threads, for one full
block of columns and for several. -/
example := (C22_nfirst_iff r rs nf (· != 0) (cntx := none) (haswellMachine_ok.query (ieee r rs nf))
  haswellMachine_ok.kfix_fits
  (a := { M := 93, N := 40, K := 77, p := 2, alpha := 1, beta := 0, sch := .NKM, mcu := 3, kcu := 7, ncu := 48 }) ⟨rfl, rfl⟩
  (by decide) (by decide) (by decide) (by decide) rfl rfl (by decide) (by decide) (by decide)).2 (by decide)

example := mt (C22_nfirst_iff r rs nf (· != 0) (cntx := none) (haswellMachine_ok.query (ieee r rs nf))
  haswellMachine_ok.kfix_fits
  (a := { M := 93, N := 40, K := 77, p := 1, alpha := 1, beta := 0, sch := .NKM, mcu := 3, kcu := 7, ncu := 48 }) ⟨rfl, rfl⟩
  (by decide) (by decide) (by decide) (by decide) rfl rfl (by decide) (by decide) (by decide)).1 (by decide)

example := mt (C22_nfirst_iff r rs nf (· != 0) (cntx := none) (haswellMachine_ok.query (ieee r rs nf))
  haswellMachine_ok.kfix_fits
  (a := { M := 93, N := 40, K := 77, p := 3, alpha := 1, beta := 0, sch := .NKM, mcu := 3, kcu := 7, ncu := 48 }) ⟨rfl, rfl⟩
  (by decide) (by decide) (by decide) (by decide) rfl rfl (by decide) (by decide) (by decide)).1 (by decide)

example := mt (C22_nfirst_iff r rs nf (· != 0) (cntx := none) (haswellMachine_ok.query (ieee r rs nf))
  haswellMachine_ok.kfix_fits
  (a := { M := 93, N := 40, K := 77, p := 2, alpha := 1, beta := 0, sch := .NKM, mcu := 3, kcu := 7, ncu := 40 }) ⟨rfl, rfl⟩
  (by decide) (by decide) (by decide) (by decide) rfl rfl (by decide) (by decide) (by decide)).1 (by decide)

example := mt (C22_nfirst_iff r rs nf (· != 0) (cntx := none) (haswellMachine_ok.query (ieee r rs nf))
  haswellMachine_ok.kfix_fits
  (a := { M := 93, N := 41, K := 77, p := 2, alpha := 1, beta := 0, sch := .NKM, mcu := 3, kcu := 7, ncu := 40 }) ⟨rfl, rfl⟩
  (by decide) (by decide) (by decide) (by decide) rfl rfl (by decide) (by decide) (by decide)).1 (by decide)

end
end Cake
