/-
C78: exactly when the product of the transposed matrices, in the other order, is the transposed product, and when a matrix
times its own transpose gives a symmetric result.
-/
import Verif.Proofs.Transposed

namespace Cake
open List

section
variable {α : Type _}

/-- `prog` computes an `M x N` product, `prog'` an `N x M` product. Whenever both end and the operands of the second are the
transposed operands of the first in the other order, the second result is bit for bit the first one transposed. -/
def Mirrors (F : Arith α) (prog prog' : Prog) (M N K : Nat) : Prop :=
  ∀ s s' t t' : State α, CallOK s M N K → CallOK t N M K → Exec F prog s (.ok s') → Exec F prog' t (.ok t') →
    (∀ j k, j < N → k < K → t.mem ⟨.A, j * K + k⟩ = s.mem ⟨.B, k * N + j⟩) →
    (∀ i k, i < M → k < K → t.mem ⟨.B, k * M + i⟩ = s.mem ⟨.A, i * K + k⟩) →
    ∀ i j, i < M → j < N → t'.mem ⟨.C, j * M + i⟩ = s'.mem ⟨.C, i * N + j⟩

/-- In every execution of `prog` that ends, if B is the transpose of A then C is bit for bit symmetric. -/
def Symmetric (F : Arith α) (prog : Prog) (M K : Nat) : Prop :=
  ∀ s s' : State α, CallOK s M M K → Exec F prog s (.ok s') →
    (∀ i k, i < M → k < K → s.mem ⟨.B, k * M + i⟩ = s.mem ⟨.A, i * K + k⟩) →
    ∀ i j, i < M → j < M → s'.mem ⟨.C, i * M + j⟩ = s'.mem ⟨.C, j * M + i⟩

variable {F : Arith α} {prog prog' : Prog} {M N K S : Nat} {dir dir' : Nat → Nat → Bool}

theorem Mirrors.symmetric (h : Mirrors F prog prog M M K) : Symmetric F prog M K := fun s s' hs he ht i j hi hj =>
  h s s' s s' hs hs he he (fun j k hj hk => (ht j k hj hk).symm) ht j i hj hi

theorem Blocked.mirrors (hc : ∀ a b c, F.fma a b c = F.fma b a c) (h : Blocked F prog M N K S dir)
    (h' : Blocked F prog' N M K S dir') (hS : 0 < S)
    (hd : K ≤ S ∨ ∀ i j, i < M → j < N → dir i j = dir' j i) : Mirrors F prog prog' M N K := by
  intro s s' t t' hs ht he he' hA hB i j hi hj
  rw [h s s' hs he i j hi hj, h' t t' ht he' j i hj hi]
  have hord : kOrder K S (serp (dir' j i) (cdiv K S)) = kOrder K S (serp (dir i j) (cdiv K S)) := by
    rcases hd with hK | hd
    · rw [kOrder_single hS hK, kOrder_single hS hK]
    · rw [hd i j hi hj]
  rw [hord, dotFrom_comm hc]
  exact dotFrom_congr F (fun k hk => hB i k hi (kOrder_lt hS k hk)) (fun k hk => hA j k hj (kOrder_lt hS k hk)) _

section
variable {r : Rounding 24} (hr : Drops r)
include hr

theorem Blocked.mirrors_iff (h : Blocked (fusedArith r) prog M N K S dir) (h' : Blocked (fusedArith r) prog' N M K S dir')
    (hS : 0 < S) {na nb na' nb' : Nat} (hrun : ∃ s', Exec (fusedArith r) prog (witS M N K S na nb) (.ok s'))
    (hrun' : ∃ s', Exec (fusedArith r) prog' (mirS M N K S na' nb') (.ok s')) :
    Mirrors (fusedArith r) prog prog' M N K ↔ K ≤ S ∨ ∀ i j, i < M → j < N → dir i j = dir' j i := by
  refine ⟨fun hq => ?_, Blocked.mirrors (fused_comm r) h h' hS⟩
  by_contra hc
  simp only [not_or, not_forall] at hc
  obtain ⟨hK, i, j, hi, hj, hne⟩ := hc
  obtain ⟨s', he⟩ := hrun
  obtain ⟨t', he'⟩ := hrun'
  have := hq _ s' _ t' (witS_ok ..) (mirS_ok ..) he he' (fun j k hj hk => by rw [mirS_A hk, witS_B hj])
    (fun i k hi hk => by rw [mirS_B hi, witS_A hk]) i j hi hj
  rw [h.wit hr hS (by omega) he hi hj, h' _ t' (mirS_ok ..) he' j i hj hi, dotFrom_comm (fused_comm r)] at this
  have e0 := (dotFrom_congr (a := fun k => entry (mirS M N K S na' nb') .B M k i) (b := entry (mirS M N K S na' nb') .A K j)
    (a' := witA S) (b' := witB S) (fusedArith r) (fun k _ => mirS_B hi) (fun k hk => mirS_A (kOrder_lt hS k hk)) 0).trans
    (wit_dir hr hS (by omega : S < K) (dir' j i))
  have e := e0.symm.trans this
  cases h1 : dir i j <;> cases h2 : dir' j i <;> simp [h1, h2] at e hne

theorem Blocked.symmetric_iff (h : Blocked (fusedArith r) prog M M K S dir) (hS : 0 < S) {na nb : Nat}
    (hrun : ∀ i0, ∃ s', Exec (fusedArith r) prog (gramS M K S na nb i0) (.ok s')) :
    Symmetric (fusedArith r) prog M K ↔ K ≤ S ∨ ∀ i j, i < M → j < M → dir i j = dir j i := by
  refine ⟨fun hq => ?_, fun hd => (Blocked.mirrors (fused_comm r) h h hS hd).symmetric⟩
  by_contra hc
  simp only [not_or, not_forall] at hc
  obtain ⟨hK, i, j, hi, hj, hne⟩ := hc
  have hij : j ≠ i := fun e => hne (by rw [e])
  obtain ⟨s', he⟩ := hrun i
  have := hq _ s' (gramS_ok ..) he (fun i k hi hk => by rw [gramS_A hk, gramS_B hi]) i j hi hj
  rw [h _ s' (gramS_ok ..) he i j hi hj, h _ s' (gramS_ok ..) he j i hj hi, dotFrom_comm (fused_comm r)
    (entry _ .A K j)] at this
  have e1 : ∀ b, dotFrom (fusedArith r) (entry (gramS M K S na nb i) .A K i) (fun k => entry (gramS M K S na nb i) .B M k j)
      (kOrder K S (serp b (cdiv K S))) (fusedArith r).zero = if b then 1 else 0 := fun b =>
    (dotFrom_congr (a' := witA S) (b' := witB S) (fusedArith r)
      (fun k hk => (gramS_A (kOrder_lt hS k hk)).trans (if_pos rfl)) (fun k _ => (gramS_B hj).trans (if_neg hij)) _).trans
      (wit_dir hr hS (by omega) b)
  have e2 : ∀ b, dotFrom (fusedArith r) (fun k => entry (gramS M K S na nb i) .B M k i) (entry (gramS M K S na nb i) .A K j)
      (kOrder K S (serp b (cdiv K S))) (fusedArith r).zero = if b then 1 else 0 := fun b =>
    (dotFrom_congr (a' := witA S) (b' := witB S) (fusedArith r)
      (fun k _ => (gramS_B hi).trans (if_pos rfl)) (fun k hk => (gramS_A (kOrder_lt hS k hk)).trans (if_neg hij)) _).trans
      (wit_dir hr hS (by omega) b)
  rw [e1, e2] at this
  cases h1 : dir i j <;> cases h2 : dir j i <;> simp [h1, h2] at this hne

end
end

/-! ### The calls, in any arithmetic whose multiply-add treats its two factors alike -/

section
variable {α : Type _} {F : Arith α} (hc : ∀ a b c, F.fma a b c = F.fma b a c) (nz : α → Bool) (cx : Cntx)
  {M N K p m_c k_c n_c : Nat}
include hc

/-- **C78, K-first.** Two calls, of sizes `M x N` and `N x M`, with blocks of the same depth. -/
theorem C78_kfirst (cx' : Cntx) {p' m_c' n_c' : Nat} (h : TileOK p cx.m_r cx.n_r m_c k_c n_c)
    (h' : TileOK p' cx'.m_r cx'.n_r m_c' k_c n_c')
    (hk : cx.kmap.Fits cx.m_r cx.n_r) (hk' : cx'.kmap.Fits cx'.m_r cx'.n_r) (hM : 0 < M) (hN : 0 < N)
    {alpha beta : α} {prog prog' : Prog} (e : callK cx nz M N K p alpha beta m_c k_c n_c = some prog)
    (e' : callK cx' nz N M K p' alpha beta m_c' k_c n_c' = some prog')
    (hq : K ≤ k_c ∨ (p * m_c = n_c' ∨ M ≤ min (p * m_c) n_c') ∧ (n_c = p' * m_c' ∨ N ≤ min n_c (p' * m_c'))) :
    Mirrors F prog prog' M N K :=
  Blocked.mirrors hc (kfirst_blocked F nz cx h hk e) (kfirst_blocked F nz cx' h' hk' e') h.k_c_pos
    (hq.imp_right (kDesc_mirror (Nat.mul_pos h.p_pos h.m_c_pos) h.n_c_pos (Nat.mul_pos h'.p_pos h'.m_c_pos) h'.n_c_pos
      hM hN).2)

/-- **C78, `cake_sgemm_online`.** -/
theorem C78_online (cx' : Cntx) {p' m_c' n_c' : Nat} (h : TileOK p cx.m_r cx.n_r m_c k_c n_c)
    (h' : TileOK p' cx'.m_r cx'.n_r m_c' k_c n_c')
    (hk : cx.kmap.Fits cx.m_r cx.n_r) (hk' : cx'.kmap.Fits cx'.m_r cx'.n_r) (hM : 0 < M) (hN : 0 < N)
    {pa pb : Bool} {alpha beta : α} {prog prog' : Prog} (e : callO cx M N K p pa pb alpha beta m_c k_c n_c = some prog)
    (e' : callO cx' N M K p' pa pb alpha beta m_c' k_c n_c' = some prog')
    (hq : K ≤ k_c ∨ (p * m_c = n_c' ∨ M ≤ min (p * m_c) n_c') ∧ (n_c = p' * m_c' ∨ N ≤ min n_c (p' * m_c'))) :
    Mirrors F prog prog' M N K :=
  Blocked.mirrors hc (online_blocked F cx h hk e) (online_blocked F cx' h' hk' e') h.k_c_pos
    (hq.imp_right (kDesc_mirror (Nat.mul_pos h.p_pos h.m_c_pos) h.n_c_pos (Nat.mul_pos h'.p_pos h'.m_c_pos) h'.n_c_pos
      hM hN).2)

/-- **C78, M-first against N-first**, `beta = 0`, blocks of the same total depth: the two schedules mirror each other. -/
theorem C78_mn (cx' : Cntx) {p' m_c' k_c' n_c' : Nat} (h : TileOK p cx.m_r cx.n_r m_c k_c n_c)
    (h' : TileOK p' cx'.m_r cx'.n_r m_c' k_c' n_c') (hkk : p' * k_c' = p * k_c)
    (hk : cx.kfix.Fits cx.m_r cx.n_r) (hk' : cx'.kfix.Fits cx'.m_r cx'.n_r)
    {alpha beta : α} (hb : nz beta = false) {prog prog' : Prog} (e : callM cx nz M N K p alpha beta m_c k_c n_c = some prog)
    (e' : callN cx' nz N M K p' alpha beta m_c' k_c' n_c' = some prog')
    (hq : K ≤ p * k_c ∨ n_c = p' * m_c' ∨ N ≤ min n_c (p' * m_c')) :
    Mirrors F prog prog' M N K :=
  Blocked.mirrors hc (mfirst_blocked F nz cx h hk hb e) (hkk ▸ nfirst_blocked F nz cx' h' hk' hb e')
    (Nat.mul_pos h.p_pos h.k_c_pos)
    (hq.imp_right fun hq _ j _ hj =>
      (odd_eq _ _).2 ((parity_iff h.n_c_pos (Nat.mul_pos h'.p_pos h'.m_c_pos)).2 hq j hj))

/-- **C78, M-first for both calls**, `beta = 0`. -/
theorem C78_mm (cx' : Cntx) {p' m_c' k_c' n_c' : Nat} (h : TileOK p cx.m_r cx.n_r m_c k_c n_c)
    (h' : TileOK p' cx'.m_r cx'.n_r m_c' k_c' n_c') (hkk : p' * k_c' = p * k_c)
    (hk : cx.kfix.Fits cx.m_r cx.n_r) (hk' : cx'.kfix.Fits cx'.m_r cx'.n_r)
    {alpha beta : α} (hb : nz beta = false) {prog prog' : Prog} (e : callM cx nz M N K p alpha beta m_c k_c n_c = some prog)
    (e' : callM cx' nz N M K p' alpha beta m_c' k_c' n_c' = some prog')
    (hM : 0 < M) (hN : 0 < N) (hq : K ≤ p * k_c ∨ N ≤ n_c ∧ M ≤ n_c') : Mirrors F prog prog' M N K :=
  Blocked.mirrors hc (mfirst_blocked F nz cx h hk hb e) (hkk ▸ mfirst_blocked F nz cx' h' hk' hb e')
    (Nat.mul_pos h.p_pos h.k_c_pos) (hq.imp_right (odd_pair h'.n_c_pos h.n_c_pos hM hN).2)

/-- **C78, N-first for both calls**, `beta = 0`. -/
theorem C78_nn (cx' : Cntx) {p' m_c' k_c' n_c' : Nat} (h : TileOK p cx.m_r cx.n_r m_c k_c n_c)
    (h' : TileOK p' cx'.m_r cx'.n_r m_c' k_c' n_c') (hkk : p' * k_c' = p * k_c)
    (hk : cx.kfix.Fits cx.m_r cx.n_r) (hk' : cx'.kfix.Fits cx'.m_r cx'.n_r)
    {alpha beta : α} (hb : nz beta = false) {prog prog' : Prog} (e : callN cx nz M N K p alpha beta m_c k_c n_c = some prog)
    (e' : callN cx' nz N M K p' alpha beta m_c' k_c' n_c' = some prog')
    (hM : 0 < M) (hN : 0 < N) (hq : K ≤ p * k_c ∨ M ≤ p * m_c ∧ N ≤ p' * m_c') : Mirrors F prog prog' M N K :=
  Blocked.mirrors hc (nfirst_blocked F nz cx h hk hb e) (hkk ▸ nfirst_blocked F nz cx' h' hk' hb e')
    (Nat.mul_pos h.p_pos h.k_c_pos) (hq.imp_right fun hq i j hi hj =>
      ((odd_pair (Nat.mul_pos h.p_pos h.m_c_pos) (Nat.mul_pos h'.p_pos h'.m_c_pos) hM hN).2 hq.symm i j hi hj).symm)

/-- **C78, `cake_sgemm_2d_small`**: always, whatever the cores and tiles of the two calls. -/
theorem C78_2d_small (cx' : Cntx) {pn kc_max p' pn' kc_max' : Nat} (hm : 0 < cx.m_r) (hn : 0 < cx.n_r)
    (hk : cx.kfix.Fits cx.m_r cx.n_r) (hm' : 0 < cx'.m_r) (hn' : 0 < cx'.n_r) (hk' : cx'.kfix.Fits cx'.m_r cx'.n_r)
    {pa pb pa' pb' : Bool} {alpha beta alpha' beta' : α} {prog prog' : Prog}
    (e : callS cx M N K p pa pb alpha beta pn kc_max = some prog)
    (e' : callS cx' N M K p' pa' pb' alpha' beta' pn' kc_max' = some prog') : Mirrors F prog prog' M N K := by
  intro s s' t t' hs ht he he' hA hB i j hi hj
  rw [((small_ends F cx hm hn hk pa pb alpha beta hs e he).fact i j hi hj).2,
    ((small_ends F cx' hm' hn' hk' pa' pb' alpha' beta' ht e' he').fact j i hj hi).2, dotFrom_comm hc]
  exact dotFrom_congr F (fun k hk => hB i k hi (mem_range.1 hk)) (fun k hk => hA j k hj (mem_range.1 hk)) _

/-- **C78, `cake_sgemm_2d_small`**: a matrix times its transpose is always symmetric. -/
theorem C78_2d_small_symmetric {pn kc_max : Nat} (hm : 0 < cx.m_r) (hn : 0 < cx.n_r) (hk : cx.kfix.Fits cx.m_r cx.n_r)
    {pa pb : Bool} {alpha beta : α} {prog : Prog} (e : callS cx M M K p pa pb alpha beta pn kc_max = some prog) :
    Symmetric F prog M K :=
  (C78_2d_small hc cx cx hm hn hk hm hn hk e e).symmetric

end

section
variable {α : Type _} (F : Arith α) (cx : Cntx) {M N K p m_c k_c : Nat}

theorem twoD_blocked {pn : Nat} (h : Fit2 M N p cx.m_r cx.n_r pn m_c k_c) (hk : cx.kfix.Fits cx.m_r cx.n_r) {pa pb : Bool}
    {alpha beta : α} {prog : Prog} (e : call2 cx M N K p pa pb alpha beta pn m_c k_c = some prog) :
    Blocked F prog M N K k_c fun i j =>
      kDesc (j / ((grid2 M N p cx.m_r cx.n_r pn m_c).pn * (grid2 M N p cx.m_r cx.n_r pn m_c).n_c))
        (i / ((grid2 M N p cx.m_r cx.n_r pn m_c).pm * (grid2 M N p cx.m_r cx.n_r pn m_c).m_c)) :=
  fun _ _ hs he i j hi hj => ((sgemm2d_ends F cx h hk pa pb alpha beta hs e he).fact i j hi hj).2

end

/-- **C78, `cake_sgemm_2d`**, two calls with blocks of the same depth; the block of C is the core grid times the tile each
call ends up with. -/
theorem C78_2d {α : Type _} {F : Arith α} (hc : ∀ a b c, F.fma a b c = F.fma b a c) (cx cx' : Cntx)
    {M N K p m_c k_c p' m_c' pn pn' : Nat} (h : Fit2 M N p cx.m_r cx.n_r pn m_c k_c)
    (h' : Fit2 N M p' cx'.m_r cx'.n_r pn' m_c' k_c) (hk : cx.kfix.Fits cx.m_r cx.n_r) (hk' : cx'.kfix.Fits cx'.m_r cx'.n_r)
    {pa pb pa' pb' : Bool} {alpha beta alpha' beta' : α} {prog prog' : Prog}
    (e : call2 cx M N K p pa pb alpha beta pn m_c k_c = some prog)
    (e' : call2 cx' N M K p' pa' pb' alpha' beta' pn' m_c' k_c = some prog') :
    let g := grid2 M N p cx.m_r cx.n_r pn m_c
    let g' := grid2 N M p' cx'.m_r cx'.n_r pn' m_c'
    (K ≤ k_c ∨ (g.pm * g.m_c = g'.pn * g'.n_c ∨ M ≤ min (g.pm * g.m_c) (g'.pn * g'.n_c)) ∧
      (g.pn * g.n_c = g'.pm * g'.m_c ∨ N ≤ min (g.pn * g.n_c) (g'.pm * g'.m_c))) → Mirrors F prog prog' M N K := by
  intro g g' hq
  obtain ⟨h1, h2, -⟩ := h.grid
  obtain ⟨h1', h2', -⟩ := h'.grid
  exact Blocked.mirrors hc (twoD_blocked F cx h hk e) (twoD_blocked F cx' h' hk' e') h.k_c_pos
    (hq.imp_right (kDesc_mirror (Nat.mul_pos h1.p_pos h1.m_c_pos) (Nat.mul_pos h2.p_pos h2.m_c_pos)
      (Nat.mul_pos h1'.p_pos h1'.m_c_pos) (Nat.mul_pos h2'.p_pos h2'.m_c_pos) h.M_pos h.N_pos).2)

/-! ### Single precision: these conditions are exact -/

section
variable {r : Rounding 24} (hr : Drops r) (nz : ℝ → Bool) (cx : Cntx) {M N K p m_c k_c n_c : Nat}
include hr

/-- **C78, K-first, single precision** with fused multiply-add: the condition of `C78_kfirst` is necessary. -/
theorem C78_kfirst_iff (cx' : Cntx) {p' m_c' n_c' : Nat} (h : TileOK p cx.m_r cx.n_r m_c k_c n_c)
    (h' : TileOK p' cx'.m_r cx'.n_r m_c' k_c n_c')
    (hk : cx.kmap.Fits cx.m_r cx.n_r) (hk' : cx'.kmap.Fits cx'.m_r cx'.n_r) (hM : 0 < M) (hN : 0 < N)
    {alpha beta : ℝ} {prog prog' : Prog} (e : callK cx nz M N K p alpha beta m_c k_c n_c = some prog)
    (e' : callK cx' nz N M K p' alpha beta m_c' k_c n_c' = some prog') :
    Mirrors (fusedArith r) prog prog' M N K ↔
      K ≤ k_c ∨ (p * m_c = n_c' ∨ M ≤ min (p * m_c) n_c') ∧ (n_c = p' * m_c' ∨ N ≤ min n_c (p' * m_c')) :=
  (Blocked.mirrors_iff hr (kfirst_blocked (fusedArith r) nz cx h hk e) (kfirst_blocked (fusedArith r) nz cx' h' hk' e')
    h.k_c_pos (computes_run (sgemmK_call (fusedArith r) nz cx h hk alpha beta (witS_ok M N K k_c 0 0)) e)
    (computes_run (sgemmK_call (fusedArith r) nz cx' h' hk' alpha beta (mirS_ok M N K k_c 0 0)) e')).trans
    (or_congr_right (kDesc_mirror (Nat.mul_pos h.p_pos h.m_c_pos) h.n_c_pos (Nat.mul_pos h'.p_pos h'.m_c_pos) h'.n_c_pos
      hM hN))

/-- **C78, K-first, a matrix times its transpose**: symmetric exactly when K is one block, or M is one block of rows and of
columns, or the blocks of C are square. -/
theorem C78_kfirst_symmetric_iff (h : TileOK p cx.m_r cx.n_r m_c k_c n_c) (hk : cx.kmap.Fits cx.m_r cx.n_r) (hM : 0 < M)
    {alpha beta : ℝ} {prog : Prog} (e : callK cx nz M M K p alpha beta m_c k_c n_c = some prog) :
    Symmetric (fusedArith r) prog M K ↔ K ≤ k_c ∨ p * m_c = n_c ∨ M ≤ min (p * m_c) n_c := by
  refine (Blocked.symmetric_iff hr (kfirst_blocked (fusedArith r) nz cx h hk e) h.k_c_pos (na := 0) (nb := 0) fun i0 =>
    computes_run (sgemmK_call (fusedArith r) nz cx h hk alpha beta (gramS_ok M K k_c 0 0 i0)) e).trans (or_congr_right ?_)
  rw [kDesc_mirror (Nat.mul_pos h.p_pos h.m_c_pos) h.n_c_pos (Nat.mul_pos h.p_pos h.m_c_pos) h.n_c_pos hM hM]
  omega

/-- **C78, `cake_sgemm_online`, single precision.** -/
theorem C78_online_iff (cx' : Cntx) {p' m_c' n_c' : Nat} (h : TileOK p cx.m_r cx.n_r m_c k_c n_c)
    (h' : TileOK p' cx'.m_r cx'.n_r m_c' k_c n_c')
    (hk : cx.kmap.Fits cx.m_r cx.n_r) (hk' : cx'.kmap.Fits cx'.m_r cx'.n_r) (hM : 0 < M) (hN : 0 < N)
    {pa pb : Bool} {alpha beta : ℝ} {prog prog' : Prog} (e : callO cx M N K p pa pb alpha beta m_c k_c n_c = some prog)
    (e' : callO cx' N M K p' pa pb alpha beta m_c' k_c n_c' = some prog') :
    Mirrors (fusedArith r) prog prog' M N K ↔
      K ≤ k_c ∨ (p * m_c = n_c' ∨ M ≤ min (p * m_c) n_c') ∧ (n_c = p' * m_c' ∨ N ≤ min n_c (p' * m_c')) :=
  (Blocked.mirrors_iff hr (online_blocked (fusedArith r) cx h hk e) (online_blocked (fusedArith r) cx' h' hk' e')
    h.k_c_pos (computes_run (sgemm_online_call (fusedArith r) cx h hk pa pb alpha beta (witS_ok M N K k_c _ _)
      (witS_slack M N K k_c cx.m_r cx.n_r)) e)
    (computes_run (sgemm_online_call (fusedArith r) cx' h' hk' pa pb alpha beta (mirS_ok M N K k_c _ _)
      (mirS_slack M N K k_c cx'.m_r cx'.n_r)) e')).trans
    (or_congr_right (kDesc_mirror (Nat.mul_pos h.p_pos h.m_c_pos) h.n_c_pos (Nat.mul_pos h'.p_pos h'.m_c_pos) h'.n_c_pos
      hM hN))

/-- **C78, `cake_sgemm_online`, a matrix times its transpose.** -/
theorem C78_online_symmetric_iff (h : TileOK p cx.m_r cx.n_r m_c k_c n_c) (hk : cx.kmap.Fits cx.m_r cx.n_r) (hM : 0 < M)
    {pa pb : Bool} {alpha beta : ℝ} {prog : Prog} (e : callO cx M M K p pa pb alpha beta m_c k_c n_c = some prog) :
    Symmetric (fusedArith r) prog M K ↔ K ≤ k_c ∨ p * m_c = n_c ∨ M ≤ min (p * m_c) n_c := by
  refine (Blocked.symmetric_iff hr (online_blocked (fusedArith r) cx h hk e) h.k_c_pos fun i0 =>
    computes_run (sgemm_online_call (fusedArith r) cx h hk pa pb alpha beta (gramS_ok M K k_c _ _ i0)
      (gramS_slack M K k_c cx.m_r cx.n_r i0)) e).trans (or_congr_right ?_)
  rw [kDesc_mirror (Nat.mul_pos h.p_pos h.m_c_pos) h.n_c_pos (Nat.mul_pos h.p_pos h.m_c_pos) h.n_c_pos hM hM]
  omega

/-- **C78, M-first against N-first, single precision.** -/
theorem C78_mn_iff (cx' : Cntx) {p' m_c' k_c' n_c' : Nat} (h : TileOK p cx.m_r cx.n_r m_c k_c n_c)
    (h' : TileOK p' cx'.m_r cx'.n_r m_c' k_c' n_c') (hkk : p' * k_c' = p * k_c)
    (hk : cx.kfix.Fits cx.m_r cx.n_r) (hk' : cx'.kfix.Fits cx'.m_r cx'.n_r) (hM : 0 < M)
    {alpha beta : ℝ} (hb : nz beta = false) {prog prog' : Prog} (e : callM cx nz M N K p alpha beta m_c k_c n_c = some prog)
    (e' : callN cx' nz N M K p' alpha beta m_c' k_c' n_c' = some prog') :
    Mirrors (fusedArith r) prog prog' M N K ↔ K ≤ p * k_c ∨ n_c = p' * m_c' ∨ N ≤ min n_c (p' * m_c') := by
  have hrun := computes_run (sgemmM_call (fusedArith r) nz cx h hk alpha beta
    (witS_ok M N K (p * k_c) 0 (bNeed N K p cx.n_r k_c n_c)) ⟨⟨_, rfl, by omega⟩, fun _ _ => rfl⟩ (by simp [hb])) e
  have hrun' := computes_run (sgemmN_call (fusedArith r) nz cx' h' hk' alpha beta
    (mirS_ok M N K (p * k_c) 0 (bNeed M K p' cx'.n_r k_c' n_c')) ⟨⟨_, rfl, by omega⟩, fun _ _ => rfl⟩ (by simp [hb])) e'
  refine (Blocked.mirrors_iff hr (mfirst_blocked (fusedArith r) nz cx h hk hb e)
    (hkk ▸ nfirst_blocked (fusedArith r) nz cx' h' hk' hb e') (Nat.mul_pos h.p_pos h.k_c_pos) hrun hrun').trans
    (or_congr_right ?_)
  rw [← parity_iff h.n_c_pos (Nat.mul_pos h'.p_pos h'.m_c_pos)]
  exact ⟨fun hq j hj => (odd_eq _ _).1 (hq 0 j hM hj), fun hq _ j _ hj => (odd_eq _ _).2 (hq j hj)⟩

/-- **C78, M-first for both calls, single precision.** -/
theorem C78_mm_iff (cx' : Cntx) {p' m_c' k_c' n_c' : Nat} (h : TileOK p cx.m_r cx.n_r m_c k_c n_c)
    (h' : TileOK p' cx'.m_r cx'.n_r m_c' k_c' n_c') (hkk : p' * k_c' = p * k_c)
    (hk : cx.kfix.Fits cx.m_r cx.n_r) (hk' : cx'.kfix.Fits cx'.m_r cx'.n_r) (hM : 0 < M) (hN : 0 < N)
    {alpha beta : ℝ} (hb : nz beta = false) {prog prog' : Prog} (e : callM cx nz M N K p alpha beta m_c k_c n_c = some prog)
    (e' : callM cx' nz N M K p' alpha beta m_c' k_c' n_c' = some prog') :
    Mirrors (fusedArith r) prog prog' M N K ↔ K ≤ p * k_c ∨ N ≤ n_c ∧ M ≤ n_c' := by
  have hrun := computes_run (sgemmM_call (fusedArith r) nz cx h hk alpha beta
    (witS_ok M N K (p * k_c) 0 (bNeed N K p cx.n_r k_c n_c)) ⟨⟨_, rfl, by omega⟩, fun _ _ => rfl⟩ (by simp [hb])) e
  have hrun' := computes_run (sgemmM_call (fusedArith r) nz cx' h' hk' alpha beta
    (mirS_ok M N K (p * k_c) 0 (bNeed M K p' cx'.n_r k_c' n_c')) ⟨⟨_, rfl, by omega⟩, fun _ _ => rfl⟩ (by simp [hb])) e'
  refine (Blocked.mirrors_iff hr (mfirst_blocked (fusedArith r) nz cx h hk hb e)
    (hkk ▸ mfirst_blocked (fusedArith r) nz cx' h' hk' hb e') (Nat.mul_pos h.p_pos h.k_c_pos) hrun hrun').trans
    (or_congr_right ?_)
  exact odd_pair h'.n_c_pos h.n_c_pos hM hN

/-- **C78, N-first for both calls, single precision.** -/
theorem C78_nn_iff (cx' : Cntx) {p' m_c' k_c' n_c' : Nat} (h : TileOK p cx.m_r cx.n_r m_c k_c n_c)
    (h' : TileOK p' cx'.m_r cx'.n_r m_c' k_c' n_c') (hkk : p' * k_c' = p * k_c)
    (hk : cx.kfix.Fits cx.m_r cx.n_r) (hk' : cx'.kfix.Fits cx'.m_r cx'.n_r) (hM : 0 < M) (hN : 0 < N)
    {alpha beta : ℝ} (hb : nz beta = false) {prog prog' : Prog} (e : callN cx nz M N K p alpha beta m_c k_c n_c = some prog)
    (e' : callN cx' nz N M K p' alpha beta m_c' k_c' n_c' = some prog') :
    Mirrors (fusedArith r) prog prog' M N K ↔ K ≤ p * k_c ∨ M ≤ p * m_c ∧ N ≤ p' * m_c' := by
  have hrun := computes_run (sgemmN_call (fusedArith r) nz cx h hk alpha beta
    (witS_ok M N K (p * k_c) 0 (bNeed N K p cx.n_r k_c n_c)) ⟨⟨_, rfl, by omega⟩, fun _ _ => rfl⟩ (by simp [hb])) e
  have hrun' := computes_run (sgemmN_call (fusedArith r) nz cx' h' hk' alpha beta
    (mirS_ok M N K (p * k_c) 0 (bNeed M K p' cx'.n_r k_c' n_c')) ⟨⟨_, rfl, by omega⟩, fun _ _ => rfl⟩ (by simp [hb])) e'
  refine (Blocked.mirrors_iff hr (nfirst_blocked (fusedArith r) nz cx h hk hb e)
    (hkk ▸ nfirst_blocked (fusedArith r) nz cx' h' hk' hb e') (Nat.mul_pos h.p_pos h.k_c_pos) hrun hrun').trans
    (or_congr_right ?_)
  rw [and_comm, ← odd_pair (Nat.mul_pos h.p_pos h.m_c_pos) (Nat.mul_pos h'.p_pos h'.m_c_pos) hM hN]
  exact ⟨fun hq i j hi hj => (hq i j hi hj).symm, fun hq i j hi hj => (hq i j hi hj).symm⟩

/-- **C78, M-first, a matrix times its transpose**: square blocks do not help. -/
theorem C78_mfirst_symmetric_iff (h : TileOK p cx.m_r cx.n_r m_c k_c n_c) (hk : cx.kfix.Fits cx.m_r cx.n_r)
    {alpha beta : ℝ} (hb : nz beta = false) {prog : Prog} (e : callM cx nz M M K p alpha beta m_c k_c n_c = some prog) :
    Symmetric (fusedArith r) prog M K ↔ K ≤ p * k_c ∨ M ≤ n_c :=
  (Blocked.symmetric_iff hr (mfirst_blocked (fusedArith r) nz cx h hk hb e) (Nat.mul_pos h.p_pos h.k_c_pos) fun i0 =>
    computes_run (sgemmM_call (fusedArith r) nz cx h hk alpha beta (gramS_ok M K (p * k_c) 0 (bNeed M K p cx.n_r k_c n_c) i0)
      ⟨⟨_, rfl, by omega⟩, fun _ _ => rfl⟩ (by simp [hb])) e).trans (or_congr_right (odd_const h.n_c_pos))

/-- **C78, N-first, a matrix times its transpose.** -/
theorem C78_nfirst_symmetric_iff (h : TileOK p cx.m_r cx.n_r m_c k_c n_c) (hk : cx.kfix.Fits cx.m_r cx.n_r)
    {alpha beta : ℝ} (hb : nz beta = false) {prog : Prog} (e : callN cx nz M M K p alpha beta m_c k_c n_c = some prog) :
    Symmetric (fusedArith r) prog M K ↔ K ≤ p * k_c ∨ M ≤ p * m_c :=
  (Blocked.symmetric_iff hr (nfirst_blocked (fusedArith r) nz cx h hk hb e) (Nat.mul_pos h.p_pos h.k_c_pos) fun i0 =>
    computes_run (sgemmN_call (fusedArith r) nz cx h hk alpha beta (gramS_ok M K (p * k_c) 0 (bNeed M K p cx.n_r k_c n_c) i0)
      ⟨⟨_, rfl, by omega⟩, fun _ _ => rfl⟩ (by simp [hb])) e).trans
    (or_congr_right (Iff.trans ⟨fun h i j hi hj => h j i hj hi, fun h i j hi hj => h j i hj hi⟩
      (odd_const (Nat.mul_pos h.p_pos h.m_c_pos))))

/-- **C78, `cake_sgemm_2d`, single precision.** -/
theorem C78_2d_iff (cx' : Cntx) {p' m_c' pn pn' : Nat} (h : Fit2 M N p cx.m_r cx.n_r pn m_c k_c)
    (h' : Fit2 N M p' cx'.m_r cx'.n_r pn' m_c' k_c) (hk : cx.kfix.Fits cx.m_r cx.n_r) (hk' : cx'.kfix.Fits cx'.m_r cx'.n_r)
    {pa pb pa' pb' : Bool} {alpha beta alpha' beta' : ℝ} {prog prog' : Prog}
    (e : call2 cx M N K p pa pb alpha beta pn m_c k_c = some prog)
    (e' : call2 cx' N M K p' pa' pb' alpha' beta' pn' m_c' k_c = some prog') :
    let g := grid2 M N p cx.m_r cx.n_r pn m_c
    let g' := grid2 N M p' cx'.m_r cx'.n_r pn' m_c'
    Mirrors (fusedArith r) prog prog' M N K ↔
      K ≤ k_c ∨ (g.pm * g.m_c = g'.pn * g'.n_c ∨ M ≤ min (g.pm * g.m_c) (g'.pn * g'.n_c)) ∧
        (g.pn * g.n_c = g'.pm * g'.m_c ∨ N ≤ min (g.pn * g.n_c) (g'.pm * g'.m_c)) := by
  intro g g'
  obtain ⟨h1, h2, -⟩ := h.grid
  obtain ⟨h1', h2', -⟩ := h'.grid
  exact (Blocked.mirrors_iff hr (twoD_blocked (fusedArith r) cx h hk e) (twoD_blocked (fusedArith r) cx' h' hk' e') h.k_c_pos
    (computes_run (sgemm2d_call (fusedArith r) cx h hk pa pb alpha beta (witS_ok M N K k_c _ _)
      (witS_slack M N K k_c cx.m_r cx.n_r)) e)
    (computes_run (sgemm2d_call (fusedArith r) cx' h' hk' pa' pb' alpha' beta' (mirS_ok M N K k_c _ _)
      (mirS_slack M N K k_c cx'.m_r cx'.n_r)) e')).trans
    (or_congr_right (kDesc_mirror (Nat.mul_pos h1.p_pos h1.m_c_pos) (Nat.mul_pos h2.p_pos h2.m_c_pos)
      (Nat.mul_pos h1'.p_pos h1'.m_c_pos) (Nat.mul_pos h2'.p_pos h2'.m_c_pos) h.M_pos h.N_pos))

/-- **C78, `cake_sgemm_2d`, a matrix times its transpose**: the block of C is the core grid times the tile the call ends up
with. -/
theorem C78_2d_symmetric_iff {pn : Nat} (h : Fit2 M M p cx.m_r cx.n_r pn m_c k_c) (hk : cx.kfix.Fits cx.m_r cx.n_r)
    {pa pb : Bool} {alpha beta : ℝ} {prog : Prog} (e : call2 cx M M K p pa pb alpha beta pn m_c k_c = some prog) :
    let g := grid2 M M p cx.m_r cx.n_r pn m_c
    Symmetric (fusedArith r) prog M K ↔
      K ≤ k_c ∨ g.pm * g.m_c = g.pn * g.n_c ∨ M ≤ min (g.pm * g.m_c) (g.pn * g.n_c) := by
  intro g
  obtain ⟨h1, h2, -⟩ := h.grid
  have hX := Nat.mul_pos h1.p_pos h1.m_c_pos
  have hY := Nat.mul_pos h2.p_pos h2.m_c_pos
  refine (Blocked.symmetric_iff hr (twoD_blocked (fusedArith r) cx h hk e) h.k_c_pos fun i0 =>
    computes_run (sgemm2d_call (fusedArith r) cx h hk pa pb alpha beta (gramS_ok M K k_c _ _ i0)
      (gramS_slack M K k_c cx.m_r cx.n_r i0)) e).trans (or_congr_right ?_)
  rw [kDesc_mirror hX hY hX hY h.M_pos h.M_pos]
  show _ ↔ g.pm * g.m_c = g.pn * g.n_c ∨ _
  constructor
  · exact fun hq => hq.1
  · exact fun hq => ⟨hq, hq.imp Eq.symm fun h => by rwa [Nat.min_comm]⟩

end

/-! ### The public call, tile sizes given by the caller -/

section
variable {r : Rounding 24} (hr : Drops r) (r' : Rounding 53) (rs : Rounding 24) (nf : Option ℝ → Option ℝ → Bool)
  (nz : ℝ → Bool)
include hr

/-- **C78, `cake_sgemm`, single precision**, for given tile sizes, an allocated context and each schedule: when a matrix
times its transpose is symmetric. -/
theorem C78_sgemm_symmetric_iff {mc : Machine} {cx : CCtx (Option ℝ)} {m_r n_r L2 L3 nc : Nat}
    (h : Ready mc cx m_r n_r L2 L3 nc) (hkf : mc.kfix.Fits m_r n_r)
    {a : Args ℝ} (hpk : a.packedA = false ∧ a.packedB = false) (hp : 0 < a.p) (hm : 0 < a.mcu) (hkc : 0 < a.kcu)
    (hn : 0 < a.ncu) (hdm : m_r ∣ a.mcu) (hdn : n_r ∣ a.ncu) (hb : nz a.beta = false) (hM : 0 < a.M) (hMN : a.N = a.M)
    (hs : a.sch = .KMN ∨ a.sch = .MKN ∨ a.sch = .NKM) :
    ∃ prog cx', publicCall r' rs nf nz mc (some cx) a = .ok (prog, cx') ∧
      (Symmetric (fusedArith r) prog a.M a.K ↔
        a.K ≤ (if a.sch = .KMN then a.kcu else a.p * a.kcu) ∨
        (a.sch = .KMN ∧ (a.p * a.mcu = a.ncu ∨ a.M ≤ min (a.p * a.mcu) a.ncu)) ∨
        (a.sch = .MKN ∧ a.M ≤ a.ncu) ∨ (a.sch = .NKM ∧ a.M ≤ a.p * a.mcu)) := by
  obtain ⟨prog, cx', kd, e1, e2, hf, -⟩ := api_user_tiles r' rs nf nz (cntx := some cx) h hp hm hkc hn
    (by rcases hs with e | e | e <;> rw [e] <;> simp)
  have hT : TileOK a.p m_r n_r a.mcu a.kcu a.ncu := ⟨hp, h.cache.mr_pos, h.cache.nr_pos, hm, hkc, hn, hdm, hdn⟩
  rw [hpk.1, hpk.2, hMN] at e2
  refine ⟨prog, cx', e1, ?_⟩
  rcases hs with e | e | e <;> rw [e] at e2 ⊢
  · simpa using C78_kfirst_symmetric_iff hr nz ⟨m_r, n_r, kd, mc.kfix⟩ hT hf hM e2
  · simpa using C78_mfirst_symmetric_iff hr nz ⟨m_r, n_r, kd, mc.kfix⟩ hT hkf hb e2
  · simpa using C78_nfirst_symmetric_iff hr nz ⟨m_r, n_r, kd, mc.kfix⟩ hT hkf hb e2

end

/-! ### Cases that meet the hypotheses -/

/-- 43 x 43 result, 3 threads, tiles 12, 5, 32: blocks of C of 36 rows and 32 columns, three of depth. A times its own
transpose is not symmetric. -/
theorem C78_refuted : ∃ prog, callK haswell (fun _ => false) 43 43 11 3 1 (0 : ℝ) 12 5 32 = some prog ∧
    ¬ Symmetric (fusedArith (nearest 24 (by decide))) prog 43 11 := by
  have h := C78_kfirst_symmetric_iff nearest_drops (M := 43) (K := 11) (fun _ => false) haswell demo_tile haswell_fits
    (by decide) (alpha := 1) (beta := 0) rfl
  exact ⟨_, rfl, fun hq => absurd (h.1 hq) (by decide)⟩

theorem demo_square : TileOK 4 haswell.m_r haswell.n_r 12 5 48 := by constructor <;> decide

/-- Square blocks of C, 4 threads of 12 rows and 48 columns: 100 x 100 stays symmetric. -/
example : ∃ prog, callK haswell (fun _ => false) 100 100 11 4 1 (0 : ℝ) 12 5 48 = some prog ∧
    Symmetric (fusedArith (nearest 24 (by decide))) prog 100 11 :=
  ⟨_, rfl, (C78_kfirst_symmetric_iff nearest_drops (fun _ => false) haswell demo_square haswell_fits (by decide) (alpha := 1)
    (beta := 0) rfl).2 (by decide)⟩

/-- The same blocks, M-first: not symmetric. -/
example : ∃ prog, callM haswell (fun _ => false) 100 100 21 4 1 (0 : ℝ) 12 5 48 = some prog ∧
    ¬ Symmetric (fusedArith (nearest 24 (by decide))) prog 100 21 :=
  ⟨_, rfl, fun hq => absurd ((C78_mfirst_symmetric_iff nearest_drops (fun _ => false) haswell demo_square haswell_fits_fix
    (alpha := 1) (beta := 0) rfl rfl).1 hq) (by decide)⟩

example : ∃ prog, callN haswell (fun _ => false) 48 48 21 4 1 (0 : ℝ) 12 5 48 = some prog ∧
    Symmetric (fusedArith (nearest 24 (by decide))) prog 48 21 :=
  ⟨_, rfl, (C78_nfirst_symmetric_iff nearest_drops (fun _ => false) haswell demo_square haswell_fits_fix
    (alpha := 1) (beta := 0) rfl rfl).2 (by decide)⟩

example : ∃ prog, callO haswell 43 43 11 3 false false 1 (0 : ℝ) 12 5 32 = some prog ∧
    ¬ Symmetric (fusedArith (nearest 24 (by decide))) prog 43 11 :=
  ⟨_, rfl, fun hq => absurd ((C78_online_symmetric_iff nearest_drops haswell demo_tile haswell_fits (by decide) (pa := false)
    (pb := false) (alpha := 1) (beta := 0) rfl).1 hq) (by decide)⟩

/-- Column-major operands passed in the other order, 100 x 70 and 70 x 100. -/
example : ∃ prog prog', callK haswell (· != 0) 100 70 11 4 1 (0 : Int) 12 5 48 = some prog ∧
    callK haswell (· != 0) 70 100 11 4 1 (0 : Int) 12 5 48 = some prog' ∧ Mirrors (exact Int) prog prog' 100 70 11 :=
  ⟨_, _, rfl, rfl, C78_kfirst (F := exact Int) (fun a b c => by show a * b + c = b * a + c; rw [Int.mul_comm]) (· != 0)
    haswell haswell demo_square demo_square haswell_fits haswell_fits (by decide) (by decide) (alpha := 1) (beta := 0) rfl rfl
    (by decide)⟩

example : ∃ prog prog', callK haswell (fun _ => false) 43 37 11 3 1 (0 : ℝ) 12 5 32 = some prog ∧
    callK haswell (fun _ => false) 37 43 11 3 1 (0 : ℝ) 12 5 32 = some prog' ∧
    ¬ Mirrors (fusedArith (nearest 24 (by decide))) prog prog' 43 37 11 :=
  ⟨_, _, rfl, rfl, fun hq => absurd ((C78_kfirst_iff nearest_drops (fun _ => false) haswell haswell demo_tile demo_tile
    haswell_fits haswell_fits (by decide) (by decide) (alpha := 1) (beta := 0) rfl rfl).1 hq) (by decide)⟩

example : ∃ prog prog', callO haswell 100 70 11 4 false false 1 (0 : Int) 12 5 48 = some prog ∧
    callO haswell 70 100 11 4 false false 1 (0 : Int) 12 5 48 = some prog' ∧ Mirrors (exact Int) prog prog' 100 70 11 :=
  ⟨_, _, rfl, rfl, C78_online (F := exact Int) (fun a b c => by show a * b + c = b * a + c; rw [Int.mul_comm])
    haswell haswell demo_square demo_square haswell_fits haswell_fits (by decide) (by decide) (pa := false) (pb := false)
    (alpha := 1) (beta := 0) rfl rfl (by decide)⟩

example : ∃ prog prog', callO haswell 43 37 11 3 false false 1 (0 : ℝ) 12 5 32 = some prog ∧
    callO haswell 37 43 11 3 false false 1 (0 : ℝ) 12 5 32 = some prog' ∧
    ¬ Mirrors (fusedArith (nearest 24 (by decide))) prog prog' 43 37 11 :=
  ⟨_, _, rfl, rfl, fun hq => absurd ((C78_online_iff nearest_drops haswell haswell demo_tile demo_tile
    haswell_fits haswell_fits (by decide) (by decide) (pa := false) (pb := false) (alpha := 1) (beta := 0) rfl rfl).1 hq)
    (by decide)⟩

/-- M-first for 100 x 70 and N-first for 70 x 100, square blocks: the same bits. -/
example : ∃ prog prog', callM haswell (· != 0) 100 70 41 4 1 (0 : Int) 12 5 48 = some prog ∧
    callN haswell (· != 0) 70 100 41 4 1 (0 : Int) 12 5 48 = some prog' ∧ Mirrors (exact Int) prog prog' 100 70 41 :=
  ⟨_, _, rfl, rfl, C78_mn (F := exact Int) (fun a b c => by show a * b + c = b * a + c; rw [Int.mul_comm]) (· != 0)
    haswell haswell demo_square demo_square rfl haswell_fits_fix haswell_fits_fix (alpha := 1) (beta := 0) rfl rfl rfl
    (by decide)⟩

example : ∃ prog prog', callM haswell (fun _ => false) 43 37 28 3 1 (0 : ℝ) 12 5 32 = some prog ∧
    callN haswell (fun _ => false) 37 43 28 3 1 (0 : ℝ) 12 5 32 = some prog' ∧
    ¬ Mirrors (fusedArith (nearest 24 (by decide))) prog prog' 43 37 28 :=
  ⟨_, _, rfl, rfl, fun hq => absurd ((C78_mn_iff nearest_drops (fun _ => false) haswell haswell demo_tile demo_tile rfl
    haswell_fits_fix haswell_fits_fix (by decide) (alpha := 1) (beta := 0) rfl rfl rfl).1 hq) (by decide)⟩

example : ∃ prog prog', callM haswell (· != 0) 30 32 41 3 1 (0 : Int) 12 5 32 = some prog ∧
    callM haswell (· != 0) 32 30 41 3 1 (0 : Int) 12 5 32 = some prog' ∧ Mirrors (exact Int) prog prog' 30 32 41 :=
  ⟨_, _, rfl, rfl, C78_mm (F := exact Int) (fun a b c => by show a * b + c = b * a + c; rw [Int.mul_comm]) (· != 0)
    haswell haswell demo_tile demo_tile rfl haswell_fits_fix haswell_fits_fix (alpha := 1) (beta := 0) rfl rfl rfl
    (by decide) (by decide) (by decide)⟩

example : ∃ prog prog', callM haswell (fun _ => false) 43 30 28 3 1 (0 : ℝ) 12 5 32 = some prog ∧
    callM haswell (fun _ => false) 30 43 28 3 1 (0 : ℝ) 12 5 32 = some prog' ∧
    ¬ Mirrors (fusedArith (nearest 24 (by decide))) prog prog' 43 30 28 :=
  ⟨_, _, rfl, rfl, fun hq => absurd ((C78_mm_iff nearest_drops (fun _ => false) haswell haswell demo_tile demo_tile rfl
    haswell_fits_fix haswell_fits_fix (by decide) (by decide) (alpha := 1) (beta := 0) rfl rfl rfl).1 hq) (by decide)⟩

example : ∃ prog prog', callN haswell (· != 0) 36 30 41 3 1 (0 : Int) 12 5 32 = some prog ∧
    callN haswell (· != 0) 30 36 41 3 1 (0 : Int) 12 5 32 = some prog' ∧ Mirrors (exact Int) prog prog' 36 30 41 :=
  ⟨_, _, rfl, rfl, C78_nn (F := exact Int) (fun a b c => by show a * b + c = b * a + c; rw [Int.mul_comm]) (· != 0)
    haswell haswell demo_tile demo_tile rfl haswell_fits_fix haswell_fits_fix (alpha := 1) (beta := 0) rfl rfl rfl
    (by decide) (by decide) (by decide)⟩

example : ∃ prog prog', callN haswell (fun _ => false) 43 30 28 3 1 (0 : ℝ) 12 5 32 = some prog ∧
    callN haswell (fun _ => false) 30 43 28 3 1 (0 : ℝ) 12 5 32 = some prog' ∧
    ¬ Mirrors (fusedArith (nearest 24 (by decide))) prog prog' 43 30 28 :=
  ⟨_, _, rfl, rfl, fun hq => absurd ((C78_nn_iff nearest_drops (fun _ => false) haswell haswell demo_tile demo_tile rfl
    haswell_fits_fix haswell_fits_fix (by decide) (by decide) (alpha := 1) (beta := 0) rfl rfl rfl).1 hq) (by decide)⟩

theorem demo_fit2_square : Fit2 150 150 6 haswell.m_r haswell.n_r 2 12 5 := by constructor <;> decide

/-- `cake_sgemm_2d`, six cores as 3 x 2, 150 x 150. -/
example : ∃ prog, call2 haswell 150 150 11 6 false false 1 (0 : ℝ) 2 12 5 = some prog ∧
    ¬ Symmetric (fusedArith (nearest 24 (by decide))) prog 150 11 := by
  obtain ⟨x, -, e⟩ := call2_body (α := ℝ) haswell (K := 11) demo_fit2_square false false 1 0
  exact ⟨_, e, fun hq => absurd ((C78_2d_symmetric_iff nearest_drops haswell demo_fit2_square haswell_fits_fix e).1 hq)
    (by decide)⟩

theorem demo_fit2_mirror : Fit2 169 79 6 haswell.m_r haswell.n_r 2 12 5 := by constructor <;> decide

/-- 79 x 169 and 169 x 79, the same cores and tiles. -/
example : ∃ prog prog', call2 haswell 79 169 5 6 false false 1 (0 : Int) 2 12 5 = some prog ∧
    call2 haswell 169 79 5 6 false false 1 (0 : Int) 2 12 5 = some prog' ∧ Mirrors (exact Int) prog prog' 79 169 5 := by
  obtain ⟨x, -, e⟩ := call2_body (α := Int) haswell (K := 5) demo_fit2 false false 1 0
  obtain ⟨x', -, e'⟩ := call2_body (α := Int) haswell (K := 5) demo_fit2_mirror false false 1 0
  exact ⟨_, _, e, e', C78_2d (F := exact Int) (fun a b c => by show a * b + c = b * a + c; rw [Int.mul_comm]) haswell haswell
    demo_fit2 demo_fit2_mirror haswell_fits_fix haswell_fits_fix e e' (by decide)⟩

example : ∃ prog prog', call2 haswell 79 169 11 6 false false 1 (0 : ℝ) 2 12 5 = some prog ∧
    call2 haswell 169 79 11 6 false false 1 (0 : ℝ) 2 12 5 = some prog' ∧
    ¬ Mirrors (fusedArith (nearest 24 (by decide))) prog prog' 79 169 11 := by
  obtain ⟨x, -, e⟩ := call2_body (α := ℝ) haswell (K := 11) demo_fit2 false false 1 0
  obtain ⟨x', -, e'⟩ := call2_body (α := ℝ) haswell (K := 11) demo_fit2_mirror false false 1 0
  exact ⟨_, _, e, e', fun hq => absurd ((C78_2d_iff nearest_drops haswell haswell demo_fit2 demo_fit2_mirror haswell_fits_fix
    haswell_fits_fix e e').1 hq) (by decide)⟩

example {prog prog' : Prog} (e : callS haswell 40 50 11 4 false false 1 (0 : ℝ) 2 100 = some prog)
    (e' : callS haswell 50 40 11 4 false false 1 (0 : ℝ) 2 100 = some prog') :=
  C78_2d_small (fused_comm (nearest 24 (by decide))) haswell haswell (by decide) (by decide) haswell_fits_fix (by decide)
    (by decide) haswell_fits_fix e e'

example {prog : Prog} (e : callS haswell 40 40 11 4 false false 1 (0 : ℝ) 2 100 = some prog) :=
  C78_2d_small_symmetric (fused_comm (nearest 24 (by decide))) haswell (by decide) (by decide) haswell_fits_fix e

/-- The public call, K-first, 43 x 43 x 11. -/
example (r' : Rounding 53) (rs : Rounding 24) (nf : Option ℝ → Option ℝ → Bool) :=
  C78_sgemm_symmetric_iff nearest_drops r' rs nf (fun _ => false) (haswellMachine_ok.query (ieee r' rs nf))
    haswellMachine_ok.kfix_fits
    (a := { M := 43, N := 43, K := 11, p := 3, alpha := 1, beta := 0, sch := .KMN, mcu := 12, kcu := 5, ncu := 32 })
    ⟨rfl, rfl⟩ (by decide) (by decide) (by decide) (by decide) (by decide) (by decide) rfl (by decide) rfl (Or.inl rfl)

end Cake
