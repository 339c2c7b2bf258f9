/-
Property C33: the blocked matrix transpose.
-/
import Verif.Model.Transpose
import Verif.Model.Util
import Verif.Proofs.Exact
import Verif.Proofs.Driver
import Verif.Proofs.Kernel
import Verif.Props.Demo

namespace Cake
open List

variable {α : Type _} {F : Arith α}

/-! ### Specification -/

/-- C holds the transpose (`N x K`) of the `K x N` matrix in A, and nothing else has changed. -/
structure IsTranspose (s s' : State α) (K N : Nat) : Prop where
  val : ∀ n k, n < N → k < K → s'.init ⟨.C, n * K + k⟩ = true ∧ entry s' .C K n k = entry s .A N k n
  only : OnlyC s s' N K

/-! ### The shuffle network -/

/-- The unpack/shuffle/permute network of the 8 x 8 kernel is an exact transpose, for all lane contents. -/
theorem C33_network {β : Type _} (row : Nat → Nat → β) (i j : Nat) (hi : i < 8) (hj : j < 8) :
    net8 row i j = row j i := by
  match i, j with
  | 0, 0 | 0, 1 | 0, 2 | 0, 3 | 0, 4 | 0, 5 | 0, 6 | 0, 7 => rfl
  | 1, 0 | 1, 1 | 1, 2 | 1, 3 | 1, 4 | 1, 5 | 1, 6 | 1, 7 => rfl
  | 2, 0 | 2, 1 | 2, 2 | 2, 3 | 2, 4 | 2, 5 | 2, 6 | 2, 7 => rfl
  | 3, 0 | 3, 1 | 3, 2 | 3, 3 | 3, 4 | 3, 5 | 3, 6 | 3, 7 => rfl
  | 4, 0 | 4, 1 | 4, 2 | 4, 3 | 4, 4 | 4, 5 | 4, 6 | 4, 7 => rfl
  | 5, 0 | 5, 1 | 5, 2 | 5, 3 | 5, 4 | 5, 5 | 5, 6 | 5, 7 => rfl
  | 6, 0 | 6, 1 | 6, 2 | 6, 3 | 6, 4 | 6, 5 | 6, 6 | 6, 7 => rfl
  | 7, 0 | 7, 1 | 7, 2 | 7, 3 | 7, 4 | 7, 5 | 7, 6 | 7, 7 => rfl
  | i + 8, _ => omega
  | _, j + 8 => omega

example : net8 (fun r c => (r, c)) 2 5 = (5, 2) := C33_network _ 2 5 (by decide) (by decide)

/-! ### Which operations are performed -/

/-- The operation `At[n][k] = A[k][n]`. -/
def trOp (K N n k : Nat) : Op := .copy ⟨.C, n * K + k⟩ ⟨.A, k * N + n⟩

theorem tileOf_pos (T : Nat) : 0 < tileOf T := by unfold tileOf; split <;> omega

theorem tileOf_dvd (T : Nat) : ∃ q, tileOf T = q * 8 ∧ 0 < q := by
  unfold tileOf
  split
  · exact ⟨1, rfl, by omega⟩
  · exact ⟨T / 8, rfl, by omega⟩

theorem mem_cfor {lo hi step x : Nat} (hs : 0 < step) :
    x ∈ cfor lo hi step ↔ ∃ t, x = lo + t * step ∧ x < hi := by
  rw [cfor_eq _ _ _ hs, mem_map]
  constructor
  · rintro ⟨t, ht, rfl⟩
    refine ⟨t, rfl, ?_⟩
    have := chop_mul_lt hs (mem_range.1 ht)
    omega
  · rintro ⟨t, rfl, hlt⟩
    refine ⟨t, mem_range.2 ?_, rfl⟩
    by_contra hc
    have h1 := cdiv_mul_ge (hi - lo) step hs
    have h2 := Nat.mul_le_mul_right step (Nat.le_of_not_lt hc)
    omega

theorem mxn_op (K N nn kk i j : Nat) :
    Op.copy ((⟨.C, 0⟩ : Loc) +ₚ (nn * K + kk) +ₚ (i * K + j)) ((⟨.A, 0⟩ : Loc) +ₚ (kk * N + nn) +ₚ (j * N + i)) =
      trOp K N (nn + i) (kk + j) := by
  unfold trOp Loc.off
  simp only [Nat.add_mul]
  congr 2 <;> omega

/-- The operations of one `(nn, kk)` step. -/
def trStep (K N nn kk : Nat) : List Op :=
  if nn + 8 > N ∨ kk + 8 > K then
    transpose_mxn ((⟨.A, 0⟩ : Loc) +ₚ (kk * N + nn)) ((⟨.C, 0⟩ : Loc) +ₚ (nn * K + kk)) N K (N - nn) (K - kk)
  else transpose_8x8 ((⟨.A, 0⟩ : Loc) +ₚ (kk * N + nn)) ((⟨.C, 0⟩ : Loc) +ₚ (nn * K + kk)) N K

theorem mem_trStep {K N nn kk : Nat} {o : Op} : o ∈ trStep K N nn kk ↔
    ∃ i j, o = trOp K N (nn + i) (kk + j) ∧ nn + i < N ∧ kk + j < K ∧
      (nn + 8 > N ∨ kk + 8 > K ∨ (i < 8 ∧ j < 8)) := by
  unfold trStep
  split
  · rename_i h
    unfold transpose_mxn
    simp only [mem_flatMap, mem_map, mem_range]
    constructor
    · rintro ⟨i, hi, j, hj, rfl⟩
      exact ⟨i, j, mxn_op .., by omega, by omega, by omega⟩
    · rintro ⟨i, j, rfl, hi, hj, _⟩
      exact ⟨i, by omega, j, by omega, mxn_op ..⟩
  · rename_i h
    unfold transpose_8x8
    simp only [mem_flatMap, mem_map, mem_range]
    constructor
    · rintro ⟨i, hi, j, hj, rfl⟩
      refine ⟨i, j, ?_, by omega, by omega, by omega⟩
      rw [C33_network _ _ _ hi hj]
      exact mxn_op ..
    · rintro ⟨i, j, rfl, hi, hj, h'⟩
      refine ⟨i, by omega, j, by omega, ?_⟩
      rw [C33_network _ _ _ (by omega) (by omega)]
      exact mxn_op ..

/-- The task of iteration `n` in the phase `k`. -/
def trTask (K N Kt Nt k n : Nat) : List Op :=
  (cfor n (n + tileOf Nt) 8).flatMap fun nn => (cfor k (k + tileOf Kt) 8).flatMap fun kk => trStep K N nn kk

theorem transpose_mat_eq (K N Kt Nt : Nat) : transpose_mat ⟨.A, 0⟩ ⟨.C, 0⟩ K N Kt Nt =
    (cfor 0 K (tileOf Kt)).map fun k => (cfor 0 N (tileOf Nt)).map fun n => trTask K N Kt Nt k n := rfl

theorem mem_trTask {K N Kt Nt k n : Nat} {o : Op} : o ∈ trTask K N Kt Nt k n ↔
    ∃ nn kk, (∃ t, nn = n + t * 8 ∧ nn < n + tileOf Nt) ∧ (∃ t, kk = k + t * 8 ∧ kk < k + tileOf Kt) ∧
      o ∈ trStep K N nn kk := by
  unfold trTask
  simp only [mem_flatMap, mem_cfor (show 0 < 8 by omega)]
  exact ⟨fun ⟨a, h1, b, h2, h3⟩ => ⟨a, b, h1, h2, h3⟩, fun ⟨a, b, h1, h2, h3⟩ => ⟨a, h1, b, h2, h3⟩⟩

theorem tr_ops {K N Kt Nt k n : Nat} {o : Op} (h : o ∈ trTask K N Kt Nt k n) :
    ∃ n' k', o = trOp K N n' k' ∧ n' < N ∧ k' < K := by
  obtain ⟨nn, kk, _, _, ho⟩ := mem_trTask.1 h
  obtain ⟨i, j, rfl, h1, h2, _⟩ := mem_trStep.1 ho
  exact ⟨_, _, rfl, h1, h2⟩

/-- Block decomposition of an index. -/
theorem tile_split (Kt x : Nat) : ∃ t u, t * tileOf Kt + u * 8 ≤ x ∧ x < t * tileOf Kt + u * 8 + 8 ∧
    u * 8 < tileOf Kt := by
  obtain ⟨q, hq, hq0⟩ := tileOf_dvd Kt
  refine ⟨x / tileOf Kt, x % tileOf Kt / 8, ?_, ?_, ?_⟩
  all_goals
    have h1 := Nat.div_add_mod x (tileOf Kt)
    have h2 := Nat.mod_lt x (tileOf_pos Kt)
    rw [Nat.mul_comm] at h1
    omega

theorem tr_cover {K N Kt Nt n' k' : Nat} (hn : n' < N) (hk : k' < K) :
    ∃ k ∈ cfor 0 K (tileOf Kt), ∃ n ∈ cfor 0 N (tileOf Nt), trOp K N n' k' ∈ trTask K N Kt Nt k n := by
  obtain ⟨t, u, h1, h2, h3⟩ := tile_split Kt k'
  obtain ⟨t', u', h1', h2', h3'⟩ := tile_split Nt n'
  refine ⟨t * tileOf Kt, (mem_cfor (tileOf_pos _)).2 ⟨t, by simp, by omega⟩,
    t' * tileOf Nt, (mem_cfor (tileOf_pos _)).2 ⟨t', by simp, by omega⟩, ?_⟩
  refine mem_trTask.2 ⟨t' * tileOf Nt + u' * 8, t * tileOf Kt + u * 8, ⟨u', rfl, by omega⟩, ⟨u, rfl, by omega⟩, ?_⟩
  refine mem_trStep.2 ⟨n' - (t' * tileOf Nt + u' * 8), k' - (t * tileOf Kt + u * 8), ?_, by omega, by omega, ?_⟩
  · congr 1 <;> omega
  · right; right; omega

/-! ### Any list of these operations -/

/-- A list consisting of transposing copies, and containing each of them. -/
structure AllTr (K N : Nat) (l : List Op) : Prop where
  only : ∀ o ∈ l, ∃ n k, o = trOp K N n k ∧ n < N ∧ k < K
  all : ∀ n k, n < N → k < K → trOp K N n k ∈ l

theorem AllTr.safe {K N : Nat} {l : List Op} (h : AllTr K N l) {s : State α} (hA : Holds s .A K N)
    (hC : Room s .C N K) : Safe s.size s.init l := by
  apply Safe.of_forall
  intro o ho
  obtain ⟨n, k, rfl, hn, hk⟩ := h.only o ho
  obtain ⟨na, ha, hale⟩ := hA.1
  obtain ⟨nc, hc, hcle⟩ := hC
  have b1 := mulAdd_lt hn hk
  have b2 := mulAdd_lt hk hn
  refine ⟨inB_of hc (by omega), ?_⟩
  intro r hr
  simp only [trOp, Op.reads, mem_cons, not_mem_nil, or_false] at hr
  subst hr
  exact ⟨inB_of ha (by omega), hA.2 _ b2⟩

theorem AllTr.transpose {K N : Nat} {l : List Op} (h : AllTr K N l) (s : State α) :
    IsTranspose s (stateAfter F l s) K N := by
  refine ⟨fun n k hn hk => ⟨initAfter_of_mem (Or.inr ⟨_, h.all n k hn hk, rfl⟩), ?_⟩, ⟨?_, rfl⟩⟩
  · show exec F l s.mem _ = s.mem _
    refine exec_const F l s.mem _ _ ⟨_, h.all n k hn hk, rfl⟩ ?_
    intro o ho e
    obtain ⟨n', k', rfl, hn', hk'⟩ := h.only o ho
    constructor
    · intro r hr o' ho' e'
      simp only [trOp, Op.reads, mem_cons, not_mem_nil, or_false] at hr
      obtain ⟨n'', k'', rfl, _, _⟩ := h.only o' ho'
      rw [hr] at e'
      simp [trOp, Op.dst] at e'
    · simp only [trOp, Op.dst, Loc.mk.injEq, true_and] at e
      obtain ⟨rfl, rfl⟩ := mulAdd_inj hk' hk e
      rfl
  · intro l' _ hl'
    have hnd : ∀ o ∈ l, o.dst ≠ l' := by
      intro o ho e
      obtain ⟨n', k', rfl, hn', hk'⟩ := h.only o ho
      exact hl' (by rw [← e]; exact ⟨rfl, mulAdd_lt hn' hk'⟩)
    exact ⟨exec_frame F l s.mem l' hnd, initAfter_eq_of_not_dst hnd⟩

theorem allTr_phases (K N Kt Nt : Nat) :
    AllTr K N (phaseOps (transpose_mat ⟨.A, 0⟩ ⟨.C, 0⟩ K N Kt Nt)) := by
  have hm : ∀ o, o ∈ phaseOps (transpose_mat ⟨.A, 0⟩ ⟨.C, 0⟩ K N Kt Nt) ↔
      ∃ k ∈ cfor 0 K (tileOf Kt), ∃ n ∈ cfor 0 N (tileOf Nt), o ∈ trTask K N Kt Nt k n := by
    intro o
    rw [transpose_mat_eq, phaseOps_map]
    simp only [mem_flatMap, mem_flatten, mem_map]
    constructor
    · rintro ⟨k, hk, t, ⟨n, hn, rfl⟩, ho⟩; exact ⟨k, hk, n, hn, ho⟩
    · rintro ⟨k, hk, n, hn, ho⟩; exact ⟨k, hk, _, ⟨n, hn, rfl⟩, ho⟩
  constructor
  · intro o ho
    obtain ⟨k, _, n, _, ho⟩ := (hm o).1 ho
    exact tr_ops ho
  · intro n k hn hk
    exact (hm _).2 (tr_cover hn hk)

theorem forall₂_perm : ∀ {ph : List (List (List Op))} {ls : List (List Op)},
    List.Forall₂ Interleave ph ls → ls.flatten.Perm (phaseOps ph)
  | [], [], .nil => by simp [phaseOps]
  | ts :: ph, l :: ls, .cons h hs => by
    rw [flatten_cons, phaseOps_cons]
    exact (h.perm).append (forall₂_perm hs)

theorem AllTr.perm {K N : Nat} {l l' : List Op} (h : AllTr K N l) (hp : l'.Perm l) : AllTr K N l' :=
  ⟨fun o ho => h.only o (hp.mem_iff.1 ho), fun n k hn hk => hp.mem_iff.2 (h.all n k hn hk)⟩

/-! ### C33 -/

/-- For every size and tile, and every order in which the threads' element copies may be carried out:
`transpose_mat` stays inside both matrices, leaves the transpose in C and changes nothing else.

Partial: copies are taken as atomic. Threads may write the same element (with the same value), which the
C++ standard calls a data race; see `C33_race_refuted` and `C33_transpose_racefree_partial`. -/
theorem C33_transpose_partial (F : Arith α) (K N Kt Nt : Nat) (s : State α) (hA : Holds s .A K N)
    (hC : Room s .C N K) (ls : List (List Op))
    (hi : List.Forall₂ Interleave (transpose_mat ⟨.A, 0⟩ ⟨.C, 0⟩ K N Kt Nt) ls) (out : Out α)
    (hr : RunOps F ls.flatten s out) : ∃ s', out = .ok s' ∧ IsTranspose s s' K N := by
  have h := (allTr_phases K N Kt Nt).perm (forall₂_perm hi)
  exact ⟨_, runOps_safe F (h.safe hA hC) hr, h.transpose s⟩

/-- Such an order exists for any size (here: one thread after the other). -/
example : ∃ s : State Int, ∃ ls out, Holds s .A 5 9 ∧ Room s .C 9 5 ∧
    List.Forall₂ Interleave (transpose_mat ⟨.A, 0⟩ ⟨.C, 0⟩ 5 9 3 8) ls ∧
    RunOps (exact Int) ls.flatten s out := by
  obtain ⟨out, h, _⟩ := runOps_exists (F := exact Int)
    ((transpose_mat ⟨.A, 0⟩ ⟨.C, 0⟩ 5 9 3 8).map List.flatten).flatten (roomy 7 5 9 9 0)
  refine ⟨roomy 7 5 9 9 0, _, out, (roomy_ok 7 5 9 9 0).a, ⟨_, rfl, by decide⟩, ?_, h⟩
  exact List.forall₂_map_right_iff.2 (List.forall₂_same.2 fun ts _ => interleave_flatten ts)

theorem tr_rows {K N Kt Nt k n : Nat} (h8 : 8 ∣ K) (hk : ∃ t, k = t * tileOf Kt) {o : Op}
    (ho : o ∈ trTask K N Kt Nt k n) :
    ∃ n' k', o = trOp K N n' k' ∧ k' < K ∧ n ≤ n' ∧ n' < n + tileOf Nt := by
  obtain ⟨nn, kk, ⟨t, rfl, ht⟩, ⟨u, rfl, hu⟩, ho⟩ := mem_trTask.1 ho
  obtain ⟨i, j, rfl, h1, h2, h3⟩ := mem_trStep.1 ho
  refine ⟨_, _, rfl, h2, by omega, ?_⟩
  obtain ⟨q, hq, _⟩ := tileOf_dvd Nt
  obtain ⟨q', hq', _⟩ := tileOf_dvd Kt
  obtain ⟨v, rfl⟩ := hk
  obtain ⟨w, rfl⟩ := h8
  rw [hq'] at h2 h3 hu
  rw [← Nat.mul_assoc] at h2 h3 hu
  generalize v * q' = z at *
  rw [hq] at ht ⊢
  omega

theorem tr_raceFree {K N Kt Nt : Nat} (h : 8 ∣ K ∨ N ≤ tileOf Nt) :
    ∀ ts ∈ transpose_mat ⟨.A, 0⟩ ⟨.C, 0⟩ K N Kt Nt, RaceFree ts := by
  intro ts hts
  rw [transpose_mat_eq] at hts
  obtain ⟨k, hk, rfl⟩ := mem_map.1 hts
  rw [mem_cfor (tileOf_pos _)] at hk
  unfold RaceFree
  rw [pairwise_map, cfor_eq _ _ _ (tileOf_pos Nt), pairwise_map]
  rcases h with h8 | h1
  · apply Nodup.pairwise_of_forall_ne nodup_range
    intro a _ b _ hne o ho o' ho' hc
    obtain ⟨n, x, rfl, hx, h1, h2⟩ := tr_rows h8 ⟨hk.choose, by simpa using hk.choose_spec.1⟩ ho
    obtain ⟨n', x', rfl, hx', h1', h2'⟩ := tr_rows h8 ⟨hk.choose, by simpa using hk.choose_spec.1⟩ ho'
    simp only [trOp, Op.Conflict, Op.dst, Op.reads, mem_cons, not_mem_nil, or_false, Loc.mk.injEq,
      reduceCtorEq, false_and, true_and] at hc
    obtain ⟨rfl, _⟩ := mulAdd_inj hx hx' hc
    rcases Nat.lt_or_gt_of_ne hne with hlt | hlt
    · have := Nat.mul_le_mul_right (tileOf Nt) (Nat.succ_le_of_lt hlt)
      rw [Nat.succ_mul] at this
      omega
    · have := Nat.mul_le_mul_right (tileOf Nt) (Nat.succ_le_of_lt hlt)
      rw [Nat.succ_mul] at this
      omega
  · have : cdiv (N - 0) (tileOf Nt) ≤ 1 := cdiv_le_of_le_mul (tileOf_pos _) (by omega)
    generalize cdiv (N - 0) (tileOf Nt) = c at this
    match c, this with
    | 0, _ => simp
    | 1, _ => simp

/-- When `8 ∣ K`, or all columns fit one tile, there is no data race and every execution leaves the
transpose. -/
theorem C33_transpose_racefree_partial (F : Arith α) (K N Kt Nt : Nat) (h : 8 ∣ K ∨ N ≤ tileOf Nt)
    (s : State α) (hA : Holds s .A K N) (hC : Room s .C N K) :
    Computes F (some ((transpose_mat ⟨.A, 0⟩ ⟨.C, 0⟩ K N Kt Nt).map Item.par)) s
      (fun s' => IsTranspose s s' K N) := by
  refine Computes.of_triple rfl (Triple.phases _ (tr_raceFree h) ?_ ?_)
  · rintro s' rfl ts hts t ht
    have hall := (allTr_phases K N Kt Nt).safe hA hC
    apply Safe.of_forall
    intro o ho
    have ho' : o ∈ phaseOps (transpose_mat ⟨.A, 0⟩ ⟨.C, 0⟩ K N Kt Nt) :=
      mem_flatten.2 ⟨_, mem_map_of_mem hts, mem_flatten.2 ⟨t, ht, ho⟩⟩
    obtain ⟨n, k, rfl, hn, hk⟩ := (allTr_phases K N Kt Nt).only o ho'
    obtain ⟨na, ha, hale⟩ := hA.1
    obtain ⟨nc, hc, hcle⟩ := hC
    have b1 := mulAdd_lt hn hk
    have b2 := mulAdd_lt hk hn
    refine ⟨inB_of hc (by omega), ?_⟩
    intro r hr
    simp only [trOp, Op.reads, mem_cons, not_mem_nil, or_false] at hr
    subst hr
    exact ⟨inB_of ha (by omega), hA.2 _ b2⟩
  · rintro s' rfl
    exact (allTr_phases K N Kt Nt).transpose _

example := C33_transpose_racefree_partial (exact Int) 16 21 9 8 (Or.inl (by decide)) (roomy 7 16 21 21 0)
  (roomy_ok 7 16 21 21 0).a ⟨_, rfl, by decide⟩

example := C33_transpose_racefree_partial (exact Int) 5 15 9 17 (Or.inr (by decide)) (roomy 7 5 15 15 0)
  (roomy_ok 7 5 15 15 0).a ⟨_, rfl, by decide⟩

/-- In all other cases two threads write the same element without synchronisation: undefined behaviour
in C++. (The hypotheses are the exact complement of those of `C33_transpose_racefree_partial`.) -/
theorem C33_race_refuted (F : Arith α) (K N Kt Nt : Nat) (h8 : ¬ 8 ∣ K) (hN : tileOf Nt < N) (s : State α) :
    Exec F ((transpose_mat ⟨.A, 0⟩ ⟨.C, 0⟩ K N Kt Nt).map Item.par) s .ub := by
  obtain ⟨t, u, h1, h2, h3⟩ := tile_split Kt (K / 8 * 8)
  obtain ⟨q, hq, hq0⟩ := tileOf_dvd Kt
  have hK : K / 8 * 8 < K := by omega
  have e : t * tileOf Kt + u * 8 = K / 8 * 8 := by
    rw [hq, ← Nat.mul_assoc] at h1 h2 ⊢
    omega
  have hts : (cfor 0 N (tileOf Nt)).map (trTask K N Kt Nt (t * tileOf Kt)) ∈
      transpose_mat ⟨.A, 0⟩ ⟨.C, 0⟩ K N Kt Nt := by
    rw [transpose_mat_eq]
    exact mem_map.2 ⟨_, (mem_cfor (tileOf_pos _)).2 ⟨t, by simp, by omega⟩, rfl⟩
  have hrace : ¬ RaceFree ((cfor 0 N (tileOf Nt)).map (trTask K N Kt Nt (t * tileOf Kt))) := by
    intro hrf
    have hc2 : cdiv (N - 0) (tileOf Nt) = (cdiv (N - 0) (tileOf Nt) - 2) + 2 := by
      have : ¬ cdiv (N - 0) (tileOf Nt) ≤ 1 := by
        intro hle
        have h := cdiv_mul_ge (N - 0) (tileOf Nt) (tileOf_pos _)
        have h' := Nat.mul_le_mul_right (tileOf Nt) hle
        omega
      omega
    rw [cfor_eq _ _ _ (tileOf_pos Nt), hc2, Nat.add_comm _ 2, range_add] at hrf
    unfold RaceFree at hrf
    rw [map_append, map_append, pairwise_append] at hrf
    have h01 := hrf.1
    rw [show range 2 = [0, 1] from rfl] at h01
    simp only [map_cons, map_nil, pairwise_cons, mem_cons, not_mem_nil, or_false, forall_eq] at h01
    have hm : ∀ nn, nn ≤ tileOf Nt → (nn = 0 ∨ nn = tileOf Nt) →
        trOp K N (tileOf Nt) (K / 8 * 8) ∈ trTask K N Kt Nt (t * tileOf Kt) nn := by
      intro nn hnn _
      refine mem_trTask.2 ⟨nn, K / 8 * 8, ⟨0, by omega, by have := tileOf_pos Nt; omega⟩,
        ⟨u, e.symm, by omega⟩, mem_trStep.2 ⟨tileOf Nt - nn, 0, ?_, by omega, by omega, by omega⟩⟩
      congr 1
      omega
    refine h01.1 (trOp K N (tileOf Nt) (K / 8 * 8)) ?_ (trOp K N (tileOf Nt) (K / 8 * 8)) ?_ (Or.inl rfl)
    · have := hm 0 (by omega) (Or.inl rfl)
      simpa using this
    · have := hm (tileOf Nt) (by omega) (Or.inr rfl)
      simpa using this
  obtain ⟨pre, post, hpp⟩ := append_of_mem hts
  have hgo : ∀ (ph post : List (List (List Op))) (ts : List (List Op)), ¬ RaceFree ts →
      ∀ s : State α, Exec F ((ph ++ ts :: post).map Item.par) s .ub := by
    intro ph
    induction ph with
    | nil => intro post ts hr s; exact .ub _ _ _ (.race _ _ hr)
    | cons p ph ih =>
      intro post ts hr s
      obtain ⟨out, hrun, hne⟩ := runOps_exists (F := F) p.flatten s
      match out, hrun, hne with
      | .ok s', hrun, _ => exact .next _ _ _ _ _ (.par _ _ _ _ (interleave_flatten p) hrun) (ih post ts hr _)
      | .ub, hrun, _ => exact .ub _ _ _ (.par _ _ _ _ (interleave_flatten p) hrun)
      | .exit, _, hne => exact absurd rfl hne
  rw [hpp]
  exact hgo _ _ _ hrace s

example : ∃ s : State Int, Holds s .A 5 9 ∧ Room s .C 9 5 ∧
    Exec (exact Int) ((transpose_mat ⟨.A, 0⟩ ⟨.C, 0⟩ 5 9 5 8).map Item.par) s .ub :=
  ⟨roomy 7 5 9 9 0, (roomy_ok 7 5 9 9 0).a, ⟨_, rfl, by decide⟩,
    C33_race_refuted (exact Int) 5 9 5 8 (by decide) (by decide) (roomy 7 5 9 9 0)⟩

/-- **C33, exactly when.** `transpose_mat` is free of undefined behaviour and leaves the transpose exactly if `8 ∣ K` or all columns
fit one tile. -/
theorem C33_transpose_iff (F : Arith α) (K N Kt Nt : Nat) (s : State α) (hA : Holds s .A K N) (hC : Room s .C N K) :
    Computes F (some ((transpose_mat ⟨.A, 0⟩ ⟨.C, 0⟩ K N Kt Nt).map Item.par)) s (fun s' => IsTranspose s s' K N) ↔
      8 ∣ K ∨ N ≤ tileOf Nt := by
  refine ⟨fun hc => ?_, fun h => C33_transpose_racefree_partial F K N Kt Nt h s hA hC⟩
  by_contra hn
  rw [not_or, Nat.not_le] at hn
  obtain ⟨prog, hp, _, hall⟩ := hc
  cases hp
  have := hall _ (C33_race_refuted F K N Kt Nt hn.1 hn.2 s)
  simp at this

example := C33_transpose_iff (exact Int) 5 9 5 8 (roomy 7 5 9 9 0) (roomy_ok 7 5 9 9 0).a ⟨_, rfl, by decide⟩

/-- The plain (sequential) transpose of an `M x K` matrix. -/
theorem C33_plain (F : Arith α) (M K : Nat) (s : State α) (hA : Holds s .A M K) (hC : Room s .C K M) :
    Computes F (some [.par [transposePlain M K]]) s (fun s' => IsTranspose s s' M K) := by
  have hall : AllTr M K (transposePlain M K) := by
    constructor
    · intro o ho
      simp only [transposePlain, mem_flatMap, mem_map, mem_range] at ho
      obtain ⟨k, hk, m, hm, rfl⟩ := ho
      refine ⟨k, m, ?_, hk, hm⟩
      unfold trOp
      rw [Nat.add_comm]
    · intro n k hn hk
      simp only [transposePlain, mem_flatMap, mem_map, mem_range]
      refine ⟨n, hn, k, hk, ?_⟩
      unfold trOp
      rw [Nat.add_comm]
  refine Computes.of_triple rfl ?_
  have := Triple.phases (F := F) (P := (· = s)) (Q := fun s' => IsTranspose s s' M K) [[transposePlain M K]]
    (by simp [RaceFree]) ?_ ?_
  · exact this
  · rintro s' rfl ts hts t ht
    simp only [mem_cons, not_mem_nil, or_false] at hts
    subst hts
    simp only [mem_cons, not_mem_nil, or_false] at ht
    subst ht
    exact hall.safe hA hC
  · rintro s' rfl
    have e : phaseOps [[transposePlain M K]] = transposePlain M K := by simp [phaseOps]
    rw [e]
    exact hall.transpose _

example := C33_plain (exact Int) 4 7 (roomy 7 4 7 7 0) (roomy_ok 7 4 7 7 0).a ⟨_, rfl, by decide⟩

end Cake
