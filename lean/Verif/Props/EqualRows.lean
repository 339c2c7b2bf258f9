/-
C70: exactly when equal rows of A give equal rows of C, and equal columns of B equal columns of C.
-/
import Verif.Props.Local
import Verif.Props.UserTiles
import Verif.Props.Metamorphic
import Verif.Proofs.BlockOrder

namespace Cake
open List

section
variable {α : Type _}

/-- In every execution of `prog` that ends, equal rows of A give bit for bit equal rows of C. -/
def EqRows (F : Arith α) (prog : Prog) (M N K : Nat) : Prop :=
  ∀ (s s' : State α) (i i' : Nat), CallOK s M N K → Exec F prog s (.ok s') → i < M → i' < M →
    (∀ k, k < K → s.mem ⟨.A, i * K + k⟩ = s.mem ⟨.A, i' * K + k⟩) →
    ∀ j, j < N → s'.mem ⟨.C, i * N + j⟩ = s'.mem ⟨.C, i' * N + j⟩

/-- In every execution of `prog` that ends, equal columns of B give bit for bit equal columns of C. -/
def EqCols (F : Arith α) (prog : Prog) (M N K : Nat) : Prop :=
  ∀ (s s' : State α) (j j' : Nat), CallOK s M N K → Exec F prog s (.ok s') → j < N → j' < N →
    (∀ k, k < K → s.mem ⟨.B, k * N + j⟩ = s.mem ⟨.B, k * N + j'⟩) →
    ∀ i, i < M → s'.mem ⟨.C, i * N + j⟩ = s'.mem ⟨.C, i * N + j'⟩

/-- Which order the terms are added in: blocks of `S`, backwards where `dir` says so. -/
def Blocked (F : Arith α) (prog : Prog) (M N K S : Nat) (dir : Nat → Nat → Bool) : Prop :=
  ∀ s s' : State α, CallOK s M N K → Exec F prog s (.ok s') → ∀ i j, i < M → j < N →
    s'.mem ⟨.C, i * N + j⟩ = dotFrom F (entry s .A K i) (fun k => entry s .B N k j)
      (kOrder K S (serp (dir i j) (cdiv K S))) F.zero

variable {F : Arith α} {prog : Prog} {M N K S : Nat} {dir : Nat → Nat → Bool}

theorem kOrder_lt (hS : 0 < S) {b : Bool} : ∀ k ∈ kOrder K S (serp b (cdiv K S)), k < K :=
  fun _ hk => mem_range.1 ((kOrder_perm hS (serp_perm _ _)).mem_iff.1 hk)

theorem Blocked.rows (h : Blocked F prog M N K S dir) (hS : 0 < S)
    (hd : K ≤ S ∨ ∀ i i' j, i < M → i' < M → j < N → dir i j = dir i' j) : EqRows F prog M N K := by
  intro s s' i i' hs he hi hi' e j hj
  rw [h s s' hs he i j hi hj, h s s' hs he i' j hi' hj]
  have hord : kOrder K S (serp (dir i j) (cdiv K S)) = kOrder K S (serp (dir i' j) (cdiv K S)) := by
    rcases hd with hK | hd
    · rw [kOrder_single hS hK, kOrder_single hS hK]
    · rw [hd i i' j hi hi' hj]
  rw [hord]
  exact dotFrom_congr F (fun k hk => e k (kOrder_lt hS k hk)) (fun _ _ => rfl) _

theorem Blocked.cols (h : Blocked F prog M N K S dir) (hS : 0 < S)
    (hd : K ≤ S ∨ ∀ i j j', i < M → j < N → j' < N → dir i j = dir i j') : EqCols F prog M N K := by
  intro s s' j j' hs he hj hj' e i hi
  rw [h s s' hs he i j hi hj, h s s' hs he i j' hi hj']
  have hord : kOrder K S (serp (dir i j) (cdiv K S)) = kOrder K S (serp (dir i j') (cdiv K S)) := by
    rcases hd with hK | hd
    · rw [kOrder_single hS hK, kOrder_single hS hK]
    · rw [hd i j j' hi hj hj']
  rw [hord]
  exact dotFrom_congr F (fun _ _ => rfl) (fun k hk => e k (kOrder_lt hS k hk)) _

/-- The operands that tell the two directions apart; `na` and `nb` elements behind them. -/
noncomputable def witS (M N K S na nb : Nat) : State ℝ where
  size := fun b => match b with
    | .A => some (M * K + na)
    | .B => some (K * N + nb)
    | .C => some (M * N)
    | _ => none
  mem := fun l => if l.buf = .A then witA S (l.idx % K) else if l.buf = .B then witB S (l.idx / N) else 0
  init := fun _ => true

theorem witS_ok (M N K S na nb : Nat) : CallOK (witS M N K S na nb) M N K :=
  ⟨⟨⟨_, rfl, Nat.le_add_right _ _⟩, fun _ _ => rfl⟩, ⟨⟨_, rfl, Nat.le_add_right _ _⟩, fun _ _ => rfl⟩,
    ⟨_, rfl, Nat.le_refl _⟩, fun b h1 h2 h3 _ => by cases b <;> first | rfl | contradiction⟩

theorem witS_A {M N K S na nb i k : Nat} (hk : k < K) : (witS M N K S na nb).mem ⟨.A, i * K + k⟩ = witA S k := by
  simp only [witS, if_true]
  rw [Nat.mul_comm i K, Nat.mul_add_mod, Nat.mod_eq_of_lt hk]

theorem witS_B {M N K S na nb k j : Nat} (hj : j < N) : (witS M N K S na nb).mem ⟨.B, k * N + j⟩ = witB S k := by
  simp only [witS, if_true]
  rw [if_neg (by simp), Nat.mul_comm k N, Nat.mul_add_div (by omega), Nat.div_eq_of_lt hj, Nat.add_zero]

theorem witS_slack (M N K S m_r n_r : Nat) :
    Slack (witS M N K S (roundUp M m_r * K) (roundUp N n_r)) M N K m_r n_r :=
  ⟨⟨⟨_, rfl, by omega⟩, fun _ _ => rfl⟩, ⟨⟨_, rfl, by omega⟩, fun _ _ => rfl⟩⟩

section
variable {r : Rounding 24} (hr : Drops r)
include hr

/-- What an execution on these operands leaves in C. -/
theorem Blocked.wit (h : Blocked (fusedArith r) prog M N K S dir) (hS : 0 < S) (hK : S < K) {na nb : Nat} {s' : State ℝ}
    (he : Exec (fusedArith r) prog (witS M N K S na nb) (.ok s')) {i j : Nat} (hi : i < M) (hj : j < N) :
    s'.mem ⟨.C, i * N + j⟩ = if dir i j then 1 else 0 := by
  rw [h _ s' (witS_ok ..) he i j hi hj]
  refine (dotFrom_congr (a' := witA S) (b' := witB S) (fusedArith r) (fun k hk => witS_A (kOrder_lt hS k hk))
    (fun k _ => witS_B hj) _).trans ?_
  have hn : ∀ b, (kOrder K S (serp b (cdiv K S))).Nodup := fun b =>
    (kOrder_perm hS (serp_perm _ _)).nodup_iff.2 nodup_range
  cases hd : dir i j with
  | false =>
    refine wit_up hr hS (hn _) ?_
    rw [kOrder_up hS]
    have h1 : [0] <+ range S := singleton_sublist.2 (mem_range.2 hS)
    have h2 : [0] ++ [S] <+ range (S + 1) := by
      rw [range_succ]
      exact h1.append (Sublist.refl _)
    exact h2.trans (range_sublist.2 (by omega))
  | true => exact wit_down hr hS (hn _) (kOrder_down hS hK)

theorem Blocked.rows_iff (h : Blocked (fusedArith r) prog M N K S dir) (hS : 0 < S)
    {na nb : Nat} (hrun : ∃ s', Exec (fusedArith r) prog (witS M N K S na nb) (.ok s')) :
    EqRows (fusedArith r) prog M N K ↔ K ≤ S ∨ ∀ i i' j, i < M → i' < M → j < N → dir i j = dir i' j := by
  refine ⟨fun hq => ?_, h.rows hS⟩
  by_contra hc
  simp only [not_or, not_forall] at hc
  obtain ⟨hK, i, i', j, hi, hi', hj, hne⟩ := hc
  obtain ⟨s', he⟩ := hrun
  have := hq _ s' i i' (witS_ok ..) he hi hi' (fun k hk => by rw [witS_A hk, witS_A hk]) j hj
  rw [h.wit hr hS (by omega) he hi hj, h.wit hr hS (by omega) he hi' hj] at this
  cases h1 : dir i j <;> cases h2 : dir i' j <;> simp [h1, h2] at this hne

theorem Blocked.cols_iff (h : Blocked (fusedArith r) prog M N K S dir) (hS : 0 < S)
    {na nb : Nat} (hrun : ∃ s', Exec (fusedArith r) prog (witS M N K S na nb) (.ok s')) :
    EqCols (fusedArith r) prog M N K ↔ K ≤ S ∨ ∀ i j j', i < M → j < N → j' < N → dir i j = dir i j' := by
  refine ⟨fun hq => ?_, h.cols hS⟩
  by_contra hc
  simp only [not_or, not_forall] at hc
  obtain ⟨hK, i, j, j', hi, hj, hj', hne⟩ := hc
  obtain ⟨s', he⟩ := hrun
  have := hq _ s' j j' (witS_ok ..) he hj hj' (fun k _ => by rw [witS_B hj, witS_B hj']) i hi
  rw [h.wit hr hS (by omega) he hi hj, h.wit hr hS (by omega) he hi hj'] at this
  cases h1 : dir i j <;> cases h2 : dir i j' <;> simp [h1, h2] at this hne

end

/-! ### Where the direction changes -/

theorem bands {T X : Nat} (hX : 0 < X) {f : Nat → Bool} (h01 : f 0 ≠ f 1) :
    (∀ i i', i < T → i' < T → f (i / X) = f (i' / X)) ↔ T ≤ X := by
  constructor
  · intro h
    by_contra hc
    apply h01
    have := h 0 X (by omega) (by omega)
    rwa [Nat.zero_div, Nat.div_self hX] at this
  · intro h i i' hi hi'
    rw [Nat.div_eq_of_lt (by omega), Nat.div_eq_of_lt (by omega)]

theorem kDesc_rows {M N X Y : Nat} (hX : 0 < X) (hN : 0 < N) :
    (∀ i i' j, i < M → i' < M → j < N → kDesc (j / Y) (i / X) = kDesc (j / Y) (i' / X)) ↔ M ≤ X := by
  have h01 : ∀ n, kDesc n 0 ≠ kDesc n 1 := fun n => by unfold kDesc; split <;> simp
  exact ⟨fun h => (bands hX (f := kDesc (0 / Y)) (h01 _)).1 fun i i' hi hi' => h i i' 0 hi hi' hN,
    fun h i i' j hi hi' _ => (bands hX (f := kDesc (j / Y)) (h01 _)).2 h i i' hi hi'⟩

theorem kDesc_cols {M N X Y : Nat} (hY : 0 < Y) (hM : 0 < M) :
    (∀ i j j', i < M → j < N → j' < N → kDesc (j / Y) (i / X) = kDesc (j' / Y) (i / X)) ↔ N ≤ Y := by
  have h01 : ∀ m, (fun n => kDesc n m) 0 ≠ (fun n => kDesc n m) 1 := fun n => by
    show kDesc 0 n ≠ kDesc 1 n
    by_cases e : n % 2 = 0 <;> simp [kDesc, e]
  exact ⟨fun h => (bands hY (f := fun n => kDesc n (0 / X)) (h01 _)).1 fun i i' hi hi' => h 0 i i' hM hi hi',
    fun h i j j' _ hj hj' => (bands hY (f := fun n => kDesc n (i / X)) (h01 _)).2 h j j' hj hj'⟩

end

/-! ### The calls -/

section
variable {α : Type _} (F : Arith α) (nz : α → Bool) (cx : Cntx) {M N K p m_c k_c n_c : Nat}

theorem kfirst_blocked (h : TileOK p cx.m_r cx.n_r m_c k_c n_c) (hk : cx.kmap.Fits cx.m_r cx.n_r) {alpha beta : α}
    {prog : Prog} (e : callK cx nz M N K p alpha beta m_c k_c n_c = some prog) :
    Blocked F prog M N K k_c fun i j => kDesc (j / n_c) (i / (p * m_c)) := fun _ _ hs he i j hi hj =>
  (((sgemmK_call F nz cx h hk alpha beta hs).of_exec e he).fact i j hi hj).2

theorem mfirst_blocked (h : TileOK p cx.m_r cx.n_r m_c k_c n_c) (hk : cx.kfix.Fits cx.m_r cx.n_r) {alpha beta : α}
    (hb : nz beta = false) {prog : Prog} (e : callM cx nz M N K p alpha beta m_c k_c n_c = some prog) :
    Blocked F prog M N K (p * k_c) fun _ j => j / n_c % 2 != 0 := fun s s' hs he i j hi hj => by
  have hB := sgemmM_needs F nz cx h alpha beta hs e he
  have := (((sgemmM_call F nz cx h hk alpha beta hs hB (by simp [hb])).of_exec e he).fact i j hi hj).2
  rw [hb, orderMKN_eq h.p_pos h.k_c_pos] at this
  exact this

theorem nfirst_blocked (h : TileOK p cx.m_r cx.n_r m_c k_c n_c) (hk : cx.kfix.Fits cx.m_r cx.n_r) {alpha beta : α}
    (hb : nz beta = false) {prog : Prog} (e : callN cx nz M N K p alpha beta m_c k_c n_c = some prog) :
    Blocked F prog M N K (p * k_c) fun i _ => i / (p * m_c) % 2 != 0 := fun s s' hs he i j hi hj => by
  have hB := sgemmN_needs F nz cx h alpha beta hs e he
  have := (((sgemmN_call F nz cx h hk alpha beta hs hB (by simp [hb])).of_exec e he).fact i j hi hj).2
  rw [hb, orderNKM_eq h.p_pos h.k_c_pos] at this
  exact this

theorem online_blocked (h : TileOK p cx.m_r cx.n_r m_c k_c n_c) (hk : cx.kmap.Fits cx.m_r cx.n_r) {pa pb : Bool}
    {alpha beta : α} {prog : Prog} (e : callO cx M N K p pa pb alpha beta m_c k_c n_c = some prog) :
    Blocked F prog M N K k_c fun i j => kDesc (j / n_c) (i / (p * m_c)) := fun _ _ hs he i j hi hj =>
  (((sgemm_online_triple (S := False) (F := F) h rfl rfl hk hs (fun h => h.elim) pa pb alpha beta e).never he).fact
    i j hi hj).2

variable {F nz cx} in
theorem computes_run {call : Option Prog} {s : State α} {Q : State α → Prop} (h : Computes F call s Q) {prog : Prog}
    (e : call = some prog) : ∃ s', Exec F prog s (.ok s') := by
  obtain ⟨_, e', hr, -⟩ := h
  rw [e] at e'
  cases e'
  exact hr

/-- **C70, K-first.** Bit for bit, in any arithmetic: with one block of rows or one block of depth equal rows of A give
equal rows of C, with one block of columns or one block of depth equal columns of B give equal columns of C. -/
theorem C70_kfirst (h : TileOK p cx.m_r cx.n_r m_c k_c n_c) (hk : cx.kmap.Fits cx.m_r cx.n_r) {alpha beta : α}
    {prog : Prog} (e : callK cx nz M N K p alpha beta m_c k_c n_c = some prog) :
    (K ≤ k_c ∨ M ≤ p * m_c → EqRows F prog M N K) ∧ (K ≤ k_c ∨ N ≤ n_c → EqCols F prog M N K) := by
  have hb := kfirst_blocked F nz cx h hk e
  refine ⟨fun hc => hb.rows h.k_c_pos (hc.imp_right fun hM i i' j hi hi' _ => ?_),
    fun hc => hb.cols h.k_c_pos (hc.imp_right fun hN i j j' _ hj hj' => ?_)⟩
  · rw [Nat.div_eq_of_lt (by omega : i < p * m_c), Nat.div_eq_of_lt (by omega : i' < p * m_c)]
  · rw [Nat.div_eq_of_lt (by omega : j < n_c), Nat.div_eq_of_lt (by omega : j' < n_c)]

/-- **C70, `cake_sgemm_online`**, the same. -/
theorem C70_online (h : TileOK p cx.m_r cx.n_r m_c k_c n_c) (hk : cx.kmap.Fits cx.m_r cx.n_r) {pa pb : Bool}
    {alpha beta : α} {prog : Prog} (e : callO cx M N K p pa pb alpha beta m_c k_c n_c = some prog) :
    (K ≤ k_c ∨ M ≤ p * m_c → EqRows F prog M N K) ∧ (K ≤ k_c ∨ N ≤ n_c → EqCols F prog M N K) := by
  have hb := online_blocked F cx h hk e
  refine ⟨fun hc => hb.rows h.k_c_pos (hc.imp_right fun hM i i' j hi hi' _ => ?_),
    fun hc => hb.cols h.k_c_pos (hc.imp_right fun hN i j j' _ hj hj' => ?_)⟩
  · rw [Nat.div_eq_of_lt (by omega : i < p * m_c), Nat.div_eq_of_lt (by omega : i' < p * m_c)]
  · rw [Nat.div_eq_of_lt (by omega : j < n_c), Nat.div_eq_of_lt (by omega : j' < n_c)]

/-- **C70, M-first**, `beta = 0`: equal rows of A always give equal rows of C. -/
theorem C70_mfirst (h : TileOK p cx.m_r cx.n_r m_c k_c n_c) (hk : cx.kfix.Fits cx.m_r cx.n_r) {alpha beta : α}
    (hb : nz beta = false) {prog : Prog} (e : callM cx nz M N K p alpha beta m_c k_c n_c = some prog) :
    EqRows F prog M N K ∧ (K ≤ p * k_c ∨ N ≤ n_c → EqCols F prog M N K) := by
  have hS := Nat.mul_pos h.p_pos h.k_c_pos
  have hb := mfirst_blocked F nz cx h hk hb e
  refine ⟨hb.rows hS (Or.inr fun _ _ _ _ _ _ => rfl), fun hc => hb.cols hS (hc.imp_right fun hN i j j' _ hj hj' => ?_)⟩
  rw [Nat.div_eq_of_lt (by omega : j < n_c), Nat.div_eq_of_lt (by omega : j' < n_c)]

/-- **C70, N-first**, `beta = 0`: equal columns of B always give equal columns of C. -/
theorem C70_nfirst (h : TileOK p cx.m_r cx.n_r m_c k_c n_c) (hk : cx.kfix.Fits cx.m_r cx.n_r) {alpha beta : α}
    (hb : nz beta = false) {prog : Prog} (e : callN cx nz M N K p alpha beta m_c k_c n_c = some prog) :
    (K ≤ p * k_c ∨ M ≤ p * m_c → EqRows F prog M N K) ∧ EqCols F prog M N K := by
  have hS := Nat.mul_pos h.p_pos h.k_c_pos
  have hb := nfirst_blocked F nz cx h hk hb e
  refine ⟨fun hc => hb.rows hS (hc.imp_right fun hM i i' j hi hi' _ => ?_), hb.cols hS (Or.inr fun _ _ _ _ _ _ => rfl)⟩
  rw [Nat.div_eq_of_lt (by omega : i < p * m_c), Nat.div_eq_of_lt (by omega : i' < p * m_c)]

/-- **C70, `cake_sgemm_2d`**: with the core grid and the tile the call ends up with, as for the K-first schedule. -/
theorem C70_2d {pn : Nat} (h : Fit2 M N p cx.m_r cx.n_r pn m_c k_c) (hk : cx.kfix.Fits cx.m_r cx.n_r) {pa pb : Bool}
    {alpha beta : α} {prog : Prog} (e : call2 cx M N K p pa pb alpha beta pn m_c k_c = some prog) :
    (K ≤ k_c ∨ M ≤ (grid2 M N p cx.m_r cx.n_r pn m_c).pm * (grid2 M N p cx.m_r cx.n_r pn m_c).m_c → EqRows F prog M N K) ∧
    (K ≤ k_c ∨ N ≤ (grid2 M N p cx.m_r cx.n_r pn m_c).pn * (grid2 M N p cx.m_r cx.n_r pn m_c).n_c → EqCols F prog M N K) := by
  have hb : Blocked F prog M N K k_c fun i j =>
      kDesc (j / ((grid2 M N p cx.m_r cx.n_r pn m_c).pn * (grid2 M N p cx.m_r cx.n_r pn m_c).n_c))
        (i / ((grid2 M N p cx.m_r cx.n_r pn m_c).pm * (grid2 M N p cx.m_r cx.n_r pn m_c).m_c)) :=
    fun s s' hs he i j hi hj => ((sgemm2d_ends F cx h hk pa pb alpha beta hs e he).fact i j hi hj).2
  refine ⟨fun hc => hb.rows h.k_c_pos (hc.imp_right fun hM i i' j hi hi' _ => ?_),
    fun hc => hb.cols h.k_c_pos (hc.imp_right fun hN i j j' _ hj hj' => ?_)⟩
  · rw [Nat.div_eq_of_lt (by omega : i < _), Nat.div_eq_of_lt (by omega : i' < _)]
  · rw [Nat.div_eq_of_lt (by omega : j < _), Nat.div_eq_of_lt (by omega : j' < _)]

/-- **C70, `cake_sgemm_2d_small`**: always. -/
theorem C70_2d_small {pn kc_max : Nat} (hm : 0 < cx.m_r) (hn : 0 < cx.n_r) (hk : cx.kfix.Fits cx.m_r cx.n_r)
    {pa pb : Bool} {alpha beta : α} {prog : Prog} (e : callS cx M N K p pa pb alpha beta pn kc_max = some prog) :
    EqRows F prog M N K ∧ EqCols F prog M N K := by
  refine ⟨fun s s' i i' hs he hi hi' hq j hj => ?_, fun s s' j j' hs he hj hj' hq i hi => ?_⟩
  · have h := small_ends F cx hm hn hk pa pb alpha beta hs e he
    rw [(h.fact i j hi hj).2, (h.fact i' j hi' hj).2]
    exact dotFrom_congr F (fun k hk => hq k (mem_range.1 hk)) (fun _ _ => rfl) _
  · have h := small_ends F cx hm hn hk pa pb alpha beta hs e he
    rw [(h.fact i j hi hj).2, (h.fact i j' hi hj').2]
    exact dotFrom_congr F (fun _ _ => rfl) (fun k hk => hq k (mem_range.1 hk)) _

end

/-! ### Single precision: these conditions are exact -/

section
variable {r : Rounding 24} (hr : Drops r) (nz : ℝ → Bool) (cx : Cntx) {M N K p m_c k_c n_c : Nat}
include hr

/-- **C70, K-first, single precision** with fused multiply-add: the conditions of `C70_kfirst` are necessary. -/
theorem C70_kfirst_iff (h : TileOK p cx.m_r cx.n_r m_c k_c n_c) (hk : cx.kmap.Fits cx.m_r cx.n_r) (hM : 0 < M) (hN : 0 < N)
    {alpha beta : ℝ} {prog : Prog} (e : callK cx nz M N K p alpha beta m_c k_c n_c = some prog) :
    (EqRows (fusedArith r) prog M N K ↔ K ≤ k_c ∨ M ≤ p * m_c) ∧
    (EqCols (fusedArith r) prog M N K ↔ K ≤ k_c ∨ N ≤ n_c) := by
  have hb := kfirst_blocked (fusedArith r) nz cx h hk e
  have hrun := computes_run (sgemmK_call (fusedArith r) nz cx h hk alpha beta (witS_ok M N K k_c 0 0)) e
  exact ⟨(hb.rows_iff hr h.k_c_pos hrun).trans
      (or_congr_right (kDesc_rows (Nat.mul_pos h.p_pos h.m_c_pos) hN)),
    (hb.cols_iff hr h.k_c_pos hrun).trans (or_congr_right (kDesc_cols h.n_c_pos hM))⟩

/-- **C70, `cake_sgemm_online`, single precision.** -/
theorem C70_online_iff (h : TileOK p cx.m_r cx.n_r m_c k_c n_c) (hk : cx.kmap.Fits cx.m_r cx.n_r) (hM : 0 < M) (hN : 0 < N)
    {pa pb : Bool} {alpha beta : ℝ} {prog : Prog} (e : callO cx M N K p pa pb alpha beta m_c k_c n_c = some prog) :
    (EqRows (fusedArith r) prog M N K ↔ K ≤ k_c ∨ M ≤ p * m_c) ∧
    (EqCols (fusedArith r) prog M N K ↔ K ≤ k_c ∨ N ≤ n_c) := by
  have hb := online_blocked (fusedArith r) cx h hk e
  have hrun := computes_run (sgemm_online_call (fusedArith r) cx h hk pa pb alpha beta (witS_ok M N K k_c _ _)
    (witS_slack M N K k_c cx.m_r cx.n_r)) e
  exact ⟨(hb.rows_iff hr h.k_c_pos hrun).trans
      (or_congr_right (kDesc_rows (Nat.mul_pos h.p_pos h.m_c_pos) hN)),
    (hb.cols_iff hr h.k_c_pos hrun).trans (or_congr_right (kDesc_cols h.n_c_pos hM))⟩

/-- **C70, M-first, single precision.** -/
theorem C70_mfirst_iff (h : TileOK p cx.m_r cx.n_r m_c k_c n_c) (hk : cx.kfix.Fits cx.m_r cx.n_r) (hM : 0 < M)
    {alpha beta : ℝ} (hb : nz beta = false) {prog : Prog} (e : callM cx nz M N K p alpha beta m_c k_c n_c = some prog) :
    EqCols (fusedArith r) prog M N K ↔ K ≤ p * k_c ∨ N ≤ n_c := by
  have hrun := computes_run (sgemmM_call (fusedArith r) nz cx h hk alpha beta
    (witS_ok M N K (p * k_c) 0 (bNeed N K p cx.n_r k_c n_c)) ⟨⟨_, rfl, by omega⟩, fun _ _ => rfl⟩ (by simp [hb])) e
  have hb := mfirst_blocked (fusedArith r) nz cx h hk hb e
  refine (hb.cols_iff hr (Nat.mul_pos h.p_pos h.k_c_pos) hrun).trans (or_congr_right ?_)
  refine Iff.trans ⟨fun h j j' hj hj' => h 0 j j' hM hj hj', fun h _ j j' _ hj hj' => h j j' hj hj'⟩
    (bands h.n_c_pos (f := fun n => n % 2 != 0) (by decide))

/-- **C70, N-first, single precision.** -/
theorem C70_nfirst_iff (h : TileOK p cx.m_r cx.n_r m_c k_c n_c) (hk : cx.kfix.Fits cx.m_r cx.n_r) (hN : 0 < N)
    {alpha beta : ℝ} (hb : nz beta = false) {prog : Prog} (e : callN cx nz M N K p alpha beta m_c k_c n_c = some prog) :
    EqRows (fusedArith r) prog M N K ↔ K ≤ p * k_c ∨ M ≤ p * m_c := by
  have hrun := computes_run (sgemmN_call (fusedArith r) nz cx h hk alpha beta
    (witS_ok M N K (p * k_c) 0 (bNeed N K p cx.n_r k_c n_c)) ⟨⟨_, rfl, by omega⟩, fun _ _ => rfl⟩ (by simp [hb])) e
  have hb := nfirst_blocked (fusedArith r) nz cx h hk hb e
  refine (hb.rows_iff hr (Nat.mul_pos h.p_pos h.k_c_pos) hrun).trans (or_congr_right ?_)
  refine Iff.trans ⟨fun h i i' hi hi' => h i i' 0 hi hi' hN, fun h i i' _ hi hi' _ => h i i' hi hi'⟩
    (bands (Nat.mul_pos h.p_pos h.m_c_pos) (f := fun n => n % 2 != 0) (by decide))

/-- **C70, `cake_sgemm_2d`, single precision.** -/
theorem C70_2d_iff {pn : Nat} (h : Fit2 M N p cx.m_r cx.n_r pn m_c k_c) (hk : cx.kfix.Fits cx.m_r cx.n_r) {pa pb : Bool}
    {alpha beta : ℝ} {prog : Prog} (e : call2 cx M N K p pa pb alpha beta pn m_c k_c = some prog) :
    (EqRows (fusedArith r) prog M N K ↔
      K ≤ k_c ∨ M ≤ (grid2 M N p cx.m_r cx.n_r pn m_c).pm * (grid2 M N p cx.m_r cx.n_r pn m_c).m_c) ∧
    (EqCols (fusedArith r) prog M N K ↔
      K ≤ k_c ∨ N ≤ (grid2 M N p cx.m_r cx.n_r pn m_c).pn * (grid2 M N p cx.m_r cx.n_r pn m_c).n_c) := by
  have hb : Blocked (fusedArith r) prog M N K k_c fun i j =>
      kDesc (j / ((grid2 M N p cx.m_r cx.n_r pn m_c).pn * (grid2 M N p cx.m_r cx.n_r pn m_c).n_c))
        (i / ((grid2 M N p cx.m_r cx.n_r pn m_c).pm * (grid2 M N p cx.m_r cx.n_r pn m_c).m_c)) :=
    fun s s' hs he i j hi hj => ((sgemm2d_ends (fusedArith r) cx h hk pa pb alpha beta hs e he).fact i j hi hj).2
  have hrun := computes_run (sgemm2d_call (fusedArith r) cx h hk pa pb alpha beta (witS_ok M N K k_c _ _)
    (witS_slack M N K k_c cx.m_r cx.n_r)) e
  obtain ⟨h1, h2, -⟩ := h.grid
  exact ⟨(hb.rows_iff hr h.k_c_pos hrun).trans
      (or_congr_right (kDesc_rows (Nat.mul_pos h1.p_pos h1.m_c_pos) h.N_pos)),
    (hb.cols_iff hr h.k_c_pos hrun).trans (or_congr_right (kDesc_cols (Nat.mul_pos h2.p_pos h2.m_c_pos) h.M_pos))⟩

end

/-! ### The public call, tile sizes given by the caller -/

section
variable {α : Type _} {F : Arith α} {prog : Prog} {M N K S : Nat} {dir : Nat → Nat → Bool}

theorem Blocked.ctx (h : Blocked F prog M N K S dir) (nullCtx : Bool) :
    Blocked F ((if nullCtx then [Item.malloc .Ctx 1] else []) ++ prog) M N K S dir := by
  cases nullCtx with
  | false => exact h
  | true =>
    refine fun s s' hs he i j hi hj => ?_
    cases he with
    | next _ _ _ s1 _ h1 h2 =>
      have w : WithCtx s s1 := by
        cases h1 with
        | malloc _ _ _ m' _ hm => exact ⟨fun l hl => ⟨hm l hl, by simp [hl]⟩, rfl⟩
      rw [h s1 s' (w.call hs) h2 i j hi hj]
      exact dotFrom_congr F (fun k _ => (w.same _ (by simp)).1) (fun k _ => (w.same _ (by simp)).1) _

end

section
variable {r : Rounding 24} (hr : Drops r) (r' : Rounding 53) (rs : Rounding 24) (nf : Option ℝ → Option ℝ → Bool)
  (nz : ℝ → Bool)
include hr

/-- **C70, `cake_sgemm`, single precision**, for given tile sizes, an allocated context and each schedule. -/
theorem C70_sgemm_iff {mc : Machine} {cx : CCtx (Option ℝ)} {m_r n_r L2 L3 nc : Nat}
    (h : Ready mc cx m_r n_r L2 L3 nc) (hkf : mc.kfix.Fits m_r n_r)
    {a : Args ℝ} (hpk : a.packedA = false ∧ a.packedB = false) (hp : 0 < a.p) (hm : 0 < a.mcu) (hkc : 0 < a.kcu)
    (hn : 0 < a.ncu) (hdm : m_r ∣ a.mcu) (hdn : n_r ∣ a.ncu) (hb : nz a.beta = false) (hM : 0 < a.M) (hN : 0 < a.N)
    (hs : a.sch = .KMN ∨ a.sch = .MKN ∨ a.sch = .NKM) :
    ∃ prog cx', publicCall r' rs nf nz mc (some cx) a = .ok (prog, cx') ∧
      (EqRows (fusedArith r) prog a.M a.N a.K ↔
        a.sch = .MKN ∨ a.M ≤ a.p * a.mcu ∨ a.K ≤ (if a.sch = .KMN then a.kcu else a.p * a.kcu)) ∧
      (EqCols (fusedArith r) prog a.M a.N a.K ↔
        a.sch = .NKM ∨ a.N ≤ a.ncu ∨ a.K ≤ (if a.sch = .KMN then a.kcu else a.p * a.kcu)) := by
  obtain ⟨prog, cx', kd, e1, e2, hf, -⟩ := api_user_tiles r' rs nf nz (cntx := some cx) h hp hm hkc hn
    (by rcases hs with e | e | e <;> rw [e] <;> simp)
  have hT : TileOK a.p m_r n_r a.mcu a.kcu a.ncu := ⟨hp, h.cache.mr_pos, h.cache.nr_pos, hm, hkc, hn, hdm, hdn⟩
  rw [hpk.1, hpk.2] at e2
  refine ⟨prog, cx', e1, ?_⟩
  rcases hs with e | e | e <;> rw [e] at e2 ⊢
  · have := C70_kfirst_iff hr nz ⟨m_r, n_r, kd, mc.kfix⟩ hT hf hM hN e2
    simp only [reduceCtorEq, false_or, if_true]
    rwa [Or.comm, Or.comm (a := a.N ≤ a.ncu)]
  · have h1 := C70_mfirst (fusedArith r) nz ⟨m_r, n_r, kd, mc.kfix⟩ hT hkf hb e2
    have h2 := C70_mfirst_iff hr nz ⟨m_r, n_r, kd, mc.kfix⟩ hT hkf hM hb e2
    simp only [reduceCtorEq, false_or, true_or, if_false, iff_true]
    rw [Or.comm (a := a.N ≤ a.ncu)]
    exact ⟨h1.1, h2⟩
  · have h1 := C70_nfirst (fusedArith r) nz ⟨m_r, n_r, kd, mc.kfix⟩ hT hkf hb e2
    have h2 := C70_nfirst_iff hr nz ⟨m_r, n_r, kd, mc.kfix⟩ hT hkf hN hb e2
    simp only [reduceCtorEq, false_or, true_or, if_false, iff_true]
    rw [Or.comm (a := a.M ≤ _)]
    exact ⟨h2, h1.2⟩

end

/-! ### Cases that meet the hypotheses -/

/-- Rounding to nearest meets `Drops`. 43 x 37 result, 3 threads, tiles 12, 5, 32: two blocks of rows and of columns, three
of depth. -/
theorem C70_refuted : ∃ prog, callK haswell (fun _ => false) 43 37 11 3 1 (0 : ℝ) 12 5 32 = some prog ∧
    ¬ EqRows (fusedArith (nearest 24 (by decide))) prog 43 37 11 ∧
    ¬ EqCols (fusedArith (nearest 24 (by decide))) prog 43 37 11 := by
  have h := C70_kfirst_iff nearest_drops (M := 43) (N := 37) (K := 11) (fun _ => false) haswell demo_tile haswell_fits
    (by decide) (by decide) (alpha := 1) (beta := 0) rfl
  exact ⟨_, rfl, fun hq => absurd (h.1.1 hq) (by decide), fun hq => absurd (h.2.1 hq) (by decide)⟩

example : ∃ prog, callK haswell (· != 0) 36 37 11 3 1 (0 : Int) 12 5 32 = some prog ∧ EqRows (exact Int) prog 36 37 11 :=
  ⟨_, rfl, (C70_kfirst (exact Int) (· != 0) haswell demo_tile haswell_fits (alpha := 1) (beta := 0) rfl).1 (by decide)⟩

example : ∃ prog, callO haswell 43 32 11 3 false false 1 (0 : Int) 12 5 32 = some prog ∧ EqCols (exact Int) prog 43 32 11 :=
  ⟨_, rfl, (C70_online (exact Int) haswell demo_tile haswell_fits (pa := false) (pb := false) (alpha := 1) (beta := 0) rfl).2
    (by decide)⟩

example : ∃ prog, callO haswell 43 32 11 3 false false 1 (0 : ℝ) 12 5 32 = some prog ∧
    ¬ EqRows (fusedArith (nearest 24 (by decide))) prog 43 32 11 :=
  ⟨_, rfl, fun h => absurd ((C70_online_iff nearest_drops haswell demo_tile haswell_fits (by decide) (by decide)
    (pa := false) (pb := false) (alpha := 1) (beta := 0) rfl).1.1 h) (by decide)⟩

example : ∃ prog, callM armv8 (· != 0) 43 37 29 4 1 (0 : Int) 16 7 24 = some prog ∧ EqRows (exact Int) prog 43 37 29 :=
  ⟨_, rfl, (C70_mfirst (exact Int) (· != 0) armv8 demo_tile_arm armv8_fits_fix (alpha := 1) (beta := 0) rfl rfl).1⟩

example : ∃ prog, callM haswell (fun _ => false) 43 37 28 3 1 (0 : ℝ) 12 5 32 = some prog ∧
    ¬ EqCols (fusedArith (nearest 24 (by decide))) prog 43 37 28 :=
  ⟨_, rfl, fun h => absurd ((C70_mfirst_iff nearest_drops (fun _ => false) haswell demo_tile haswell_fits_fix (by decide)
    (alpha := 1) (beta := 0) rfl rfl).1 h) (by decide)⟩

example : ∃ prog, callN haswell (· != 0) 43 37 28 3 1 (0 : Int) 12 5 32 = some prog ∧ EqCols (exact Int) prog 43 37 28 :=
  ⟨_, rfl, (C70_nfirst (exact Int) (· != 0) haswell demo_tile haswell_fits_fix (alpha := 1) (beta := 0) rfl rfl).2⟩

example : ∃ prog, callN haswell (fun _ => false) 43 37 28 3 1 (0 : ℝ) 12 5 32 = some prog ∧
    ¬ EqRows (fusedArith (nearest 24 (by decide))) prog 43 37 28 :=
  ⟨_, rfl, fun h => absurd ((C70_nfirst_iff nearest_drops (fun _ => false) haswell demo_tile haswell_fits_fix (by decide)
    (alpha := 1) (beta := 0) rfl rfl).1 h) (by decide)⟩

/-- `cake_sgemm_2d`, six cores as 3 x 2: 79 rows are three bands, 169 columns more than one. -/
example : ∃ prog, call2 haswell 79 169 11 6 false false 1 (0 : ℝ) 2 12 5 = some prog ∧
    ¬ EqRows (fusedArith (nearest 24 (by decide))) prog 79 169 11 ∧
    ¬ EqCols (fusedArith (nearest 24 (by decide))) prog 79 169 11 := by
  obtain ⟨x, -, e⟩ := call2_body (α := ℝ) haswell (K := 11) demo_fit2 false false 1 0
  have h := C70_2d_iff nearest_drops haswell demo_fit2 haswell_fits_fix e
  exact ⟨_, e, fun hq => absurd (h.1.1 hq) (by decide), fun hq => absurd (h.2.1 hq) (by decide)⟩

example : ∃ prog, call2 haswell 79 169 5 6 false false 1 (0 : Int) 2 12 5 = some prog ∧ EqRows (exact Int) prog 79 169 5 := by
  obtain ⟨x, -, e⟩ := call2_body (α := Int) haswell (K := 5) demo_fit2 false false 1 0
  exact ⟨_, e, (C70_2d (exact Int) haswell demo_fit2 haswell_fits_fix e).1 (by decide)⟩

example {prog : Prog} (e : callS haswell 40 50 11 4 false false 1 (0 : Int) 2 100 = some prog) :=
  C70_2d_small (exact Int) haswell (by decide) (by decide) haswell_fits_fix e

/-- The public call, M-first, 43 x 37 x 28, tiles 12, 5, 32: equal rows stay equal, equal columns do not. -/
example (r' : Rounding 53) (rs : Rounding 24) (nf : Option ℝ → Option ℝ → Bool) :=
  C70_sgemm_iff nearest_drops r' rs nf (fun _ => false) (haswellMachine_ok.query (ieee r' rs nf)) haswellMachine_ok.kfix_fits
    (a := { M := 43, N := 37, K := 28, p := 3, alpha := 1, beta := 0, sch := .MKN, mcu := 12, kcu := 5, ncu := 32 })
    ⟨rfl, rfl⟩ (by decide) (by decide) (by decide) (by decide) (by decide) (by decide) rfl (by decide) (by decide)
    (Or.inr (Or.inl rfl))

end Cake
