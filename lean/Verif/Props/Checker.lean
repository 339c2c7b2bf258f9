/-
Property C32: the result checker.
-/
import Verif.Model.Util
import Verif.Proofs.Exact
import Verif.Props.Demo
import Mathlib.Algebra.Order.Ring.Rat

namespace Cake
open List

variable {α : Type _} {F : Arith α}

/-! ### The comparison loop -/

theorem cmp_fold (e : Nat → Bool) (n i cnt : Nat) (ok : Bool) :
    ∃ cnt', (range n).foldl (fun (st : Nat × Nat × Bool) _ =>
      if e st.1 then (st.1 + 1, st.2.1 + 1, false) else (st.1 + 1, st.2.1, st.2.2)) (i, cnt, ok) =
    (i + n, cnt', ok && (range n).all fun j => !e (i + j)) := by
  induction n with
  | zero => exact ⟨cnt, by simp⟩
  | succ n ih =>
    obtain ⟨c, h⟩ := ih
    rw [range_succ, foldl_append, h]
    simp only [foldl_cons, foldl_nil]
    by_cases he : e (i + n) = true
    · refine ⟨c + 1, ?_⟩
      rw [if_pos he]
      simp [he, Nat.add_assoc]
    · refine ⟨c, ?_⟩
      rw [if_neg he]
      simp only [Bool.not_eq_true] at he
      simp [he, Nat.add_assoc]

theorem mat_equals_iff (exceeds : α → α → Bool) (C chk : Nat → α) (M N : Nat) :
    mat_equals exceeds C chk M N = false ↔ ∀ i, i < M * N → exceeds (chk i) (C i) = false := by
  have key : ∀ M, ∃ cnt, (range M).foldl (fun st _ => (range N).foldl (fun (st : Nat × Nat × Bool) _ =>
      if exceeds (chk st.1) (C st.1) then (st.1 + 1, st.2.1 + 1, false)
      else (st.1 + 1, st.2.1, st.2.2)) st) (0, 0, true) =
      (M * N, cnt, (range (M * N)).all fun j => !exceeds (chk j) (C j)) := by
    intro M
    induction M with
    | zero => exact ⟨0, by simp⟩
    | succ M ih =>
      obtain ⟨c, h⟩ := ih
      obtain ⟨c', h'⟩ := cmp_fold (fun i => exceeds (chk i) (C i)) N (M * N) c
        ((range (M * N)).all fun j => !exceeds (chk j) (C j))
      refine ⟨c', ?_⟩
      rw [range_succ, foldl_append, h]
      simp only [foldl_cons, foldl_nil]
      rw [h', Nat.succ_mul, range_add]
      simp [all_append, all_map, Function.comp_def]
  obtain ⟨c, h⟩ := key M
  unfold mat_equals
  simp only [h]
  simp

/-! ### The reference product -/

theorem check_row (M N K k : Nat) : SeqW .Cp 0 (M * N) (phaseOps
    [(range M).map fun m => (range N).map fun n =>
      Op.fma ⟨.Cp, m * N + n⟩ ⟨.A, m * K + k⟩ ⟨.B, k * N + n⟩]) := by
  have : phaseOps [(range M).map fun m => (range N).map fun n =>
      Op.fma ⟨.Cp, m * N + n⟩ ⟨.A, m * K + k⟩ ⟨.B, k * N + n⟩] =
      (range M).flatMap fun m => (range N).map fun n =>
        Op.fma ⟨.Cp, m * N + n⟩ ⟨.A, m * K + k⟩ ⟨.B, k * N + n⟩ := by
    simp [phaseOps, flatMap_def]
  rw [this]
  refine SeqW.flatMap (b := .Cp) fun m _ => SeqW.map fun n _ => ?_
  simp [Op.dst]

theorem mem_check {M N K : Nat} {o : Op} : o ∈ phaseOps (checkPhases M N K) ↔
    ∃ k m n, k < K ∧ m < M ∧ n < N ∧ o = .fma ⟨.Cp, m * N + n⟩ ⟨.A, m * K + k⟩ ⟨.B, k * N + n⟩ := by
  unfold checkPhases
  rw [phaseOps_map]
  simp only [mem_flatMap, mem_range, mem_flatten, mem_map]
  constructor
  · rintro ⟨k, hk, t, ⟨m, hm, rfl⟩, ho⟩
    obtain ⟨n, hn, rfl⟩ := mem_map.1 ho
    exact ⟨k, m, n, hk, hm, mem_range.1 hn, rfl⟩
  · rintro ⟨k, m, n, hk, hm, hn, rfl⟩
    exact ⟨k, hk, _, ⟨m, hm, rfl⟩, mem_map.2 ⟨n, mem_range.2 hn, rfl⟩⟩

theorem check_value (M N K : Nat) (mem : Mem α) (hz : ∀ i, i < M * N → mem ⟨.Cp, i⟩ = F.zero) (r c : Nat)
    (hr : r < M) (hc : c < N) :
    exec F (phaseOps (checkPhases M N K)) mem ⟨.Cp, r * N + c⟩ =
      dotFrom F (fun k => mem ⟨.A, r * K + k⟩) (fun k => mem ⟨.B, k * N + c⟩) (range K) F.zero := by
  unfold checkPhases
  rw [phaseOps_map]
  have hrow : ∀ k, ((range M).map fun m => (range N).map fun n =>
      Op.fma ⟨.Cp, m * N + n⟩ ⟨.A, m * K + k⟩ ⟨.B, k * N + n⟩).flatten = phaseOps
      [(range M).map fun m => (range N).map fun n =>
        Op.fma ⟨.Cp, m * N + n⟩ ⟨.A, m * K + k⟩ ⟨.B, k * N + n⟩] := by simp [phaseOps]
  have := exec_range_induct F (fun k => ((range M).map fun m => (range N).map fun n =>
      Op.fma ⟨.Cp, m * N + n⟩ ⟨.A, m * K + k⟩ ⟨.B, k * N + n⟩).flatten) K mem
    (fun k m' => (∀ l, l.buf ≠ .Cp → m' l = mem l) ∧ m' ⟨.Cp, r * N + c⟩ =
      dotFrom F (fun k => mem ⟨.A, r * K + k⟩) (fun k => mem ⟨.B, k * N + c⟩) (range k) F.zero)
    ⟨fun _ _ => rfl, by simpa [dotFrom] using hz _ (mulAdd_lt hr hc)⟩ ?_
  · exact this.2
  · intro k hk m' ⟨h1, h2⟩
    have hs := check_row M N K k
    rw [← hrow] at hs
    constructor
    · intro l hl
      rw [exec_frame_buf, h1 l hl]
      intro o ho e
      exact hl (e ▸ (hs.dst_of_mem ho).1)
    · have ho : Op.fma ⟨.Cp, r * N + c⟩ ⟨.A, r * K + k⟩ ⟨.B, k * N + c⟩ ∈
          ((range M).map fun m => (range N).map fun n =>
            Op.fma ⟨.Cp, m * N + n⟩ ⟨.A, m * K + k⟩ ⟨.B, k * N + n⟩).flatten :=
        mem_flatten.2 ⟨_, mem_map.2 ⟨r, mem_range.2 hr, rfl⟩, mem_map.2 ⟨c, mem_range.2 hc, rfl⟩⟩
      have := exec_mem' F _ m' _ ho hs.nodup (by
        intro l hl o' ho' hne e
        simp only [Op.reads, mem_cons, not_mem_nil, or_false] at hl
        have hb := (hs.dst_of_mem ho').1
        rcases hl with rfl | rfl | rfl
        · rw [e] at hb; cases hb
        · rw [e] at hb; cases hb
        · exact hne (inj_on_of_nodup_map hs.nodup ho' ho e))
      have e2 : (Op.fma ⟨.Cp, r * N + c⟩ ⟨.A, r * K + k⟩ ⟨.B, k * N + c⟩).dst = ⟨.Cp, r * N + c⟩ := rfl
      rw [e2] at this
      rw [this]
      simp only [Op.val, h2, dotFrom, range_succ, foldl_append, foldl_cons, foldl_nil]
      rw [h1 _ (by simp), h1 _ (by simp)]

theorem check_raceFree (M N K : Nat) : ∀ ts ∈ checkPhases M N K, RaceFree ts := by
  intro ts hts
  obtain ⟨k, _, rfl⟩ := mem_map.1 hts
  unfold RaceFree
  rw [pairwise_map]
  apply Nodup.pairwise_of_forall_ne nodup_range
  intro m _ m' _ hne o ho o' ho' hc
  obtain ⟨n, hn, rfl⟩ := mem_map.1 ho
  obtain ⟨n', hn', rfl⟩ := mem_map.1 ho'
  have key : m * N + n ≠ m' * N + n' := fun e =>
    hne (mulAdd_inj (mem_range.1 hn) (mem_range.1 hn') e).1
  simp only [Op.Conflict, Op.dst, Op.reads, mem_cons, not_mem_nil, or_false, Loc.mk.injEq, reduceCtorEq,
    false_and, false_or, true_and] at hc
  rcases hc with h | h | h
  · exact key h
  · exact key h
  · exact key h.symm

/-! ### C32 -/

/-- Whatever the arithmetic and whatever the comparison: the checker runs without undefined behaviour,
changes nothing the caller can see, frees its buffer, and answers 0 exactly when no entry of C "exceeds"
the tolerance against the plain product (`k` ascending, starting from 0). -/
theorem C32_checker_partial (F : Arith α) (exceeds : α → α → Bool) (M N K : Nat) (s : State α)
    (hs : CallOK s M N K) (hC : Holds s .C M N) :
    Triple F (· = s) (checkFill M N K) (fun s1 =>
      Holds s1 .C M N ∧ Holds s1 .Cp M N ∧
      (checkVerdict exceeds M N s1 = false ↔ ∀ r c, r < M → c < N →
        exceeds (dotFrom F (fun k => entry s .A K r k) (fun k => entry s .B N k c) (range K) F.zero)
          (entry s .C N r c) = false) ∧
      Triple F (· = s1) [.free .Cp] (fun s2 => s2.size = s.size ∧
        ∀ l, s.size l.buf ≠ none → s2.mem l = s.mem l ∧ s2.init l = s.init l)) := by
  have hfree : s.size .Cp = none := hs.fresh _ (by simp) (by simp) (by simp) (by simp)
  have e : checkFill M N K = [.calloc .Cp (M * N)] ++ (checkPhases M N K).map Item.par := rfl
  rw [e]
  refine Triple.seq (Q := fun s1 => s1.size = (fun b => if b = .Cp then some (M * N) else s.size b) ∧
      s1.mem = (fun l => if l.buf = .Cp then F.zero else s.mem l) ∧
      s1.init = fun l => if l.buf = .Cp then true else s.init l) ?_ ?_
  · apply Triple.calloc
    · rintro s' rfl; exact hfree
    · rintro s' rfl; exact ⟨rfl, rfl, rfl⟩
  · apply Triple.phases _ (check_raceFree M N K)
    · rintro s1 ⟨h1, h2, h3⟩ ts hts t ht
      apply Safe.of_forall
      intro o ho
      have ho' : o ∈ phaseOps (checkPhases M N K) :=
        mem_flatten.2 ⟨_, mem_map_of_mem hts, mem_flatten.2 ⟨t, ht, ho⟩⟩
      obtain ⟨k, m, n, hk, hm, hn, rfl⟩ := mem_check.1 ho'
      obtain ⟨na, ha, hale⟩ := hs.a.1
      obtain ⟨nb, hb, hble⟩ := hs.b.1
      have b1 := mulAdd_lt hm hn
      have b2 := mulAdd_lt hm hk
      have b3 := mulAdd_lt hk hn
      refine ⟨inB_of (by rw [h1]; simp) b1, ?_⟩
      intro r hr
      simp only [Op.reads, mem_cons, not_mem_nil, or_false] at hr
      rcases hr with rfl | rfl | rfl
      · exact ⟨inB_of (n := na) (by rw [h1]; simpa using ha) (by omega), by
          rw [h3]; simpa using hs.a.2 _ b2⟩
      · exact ⟨inB_of (n := nb) (by rw [h1]; simpa using hb) (by omega), by
          rw [h3]; simpa using hs.b.2 _ b3⟩
      · exact ⟨inB_of (by rw [h1]; simp) b1, by rw [h3]; simp⟩
    · rintro s1 ⟨h1, h2, h3⟩
      have hdst : ∀ o ∈ phaseOps (checkPhases M N K), o.dst.buf = .Cp := by
        intro o ho
        obtain ⟨k, m, n, _, _, _, rfl⟩ := mem_check.1 ho
        rfl
      have hfr : ∀ l : Loc, l.buf ≠ .Cp →
          (stateAfter F (phaseOps (checkPhases M N K)) s1).mem l = s.mem l ∧
          (stateAfter F (phaseOps (checkPhases M N K)) s1).init l = s.init l := by
        intro l hl
        constructor
        · show exec F _ s1.mem l = _
          rw [exec_frame_buf F _ _ _ (fun o ho e => hl (e ▸ hdst o ho)), h2]
          exact if_neg hl
        · show initAfter _ _ l = _
          rw [initAfter_eq_of_not_dst (l := l) (fun o ho e => hl (by rw [← e]; exact hdst o ho)), h3]
          exact if_neg hl
      have hval : ∀ r c, r < M → c < N →
          (stateAfter F (phaseOps (checkPhases M N K)) s1).mem ⟨.Cp, r * N + c⟩ =
          dotFrom F (fun k => entry s .A K r k) (fun k => entry s .B N k c) (range K) F.zero := by
        intro r c hr hc
        show exec F _ s1.mem _ = _
        rw [check_value M N K s1.mem (by intro i _; rw [h2]; simp) r c hr hc, h2]
        simp [entry]
      refine ⟨⟨?_, ?_⟩, ⟨⟨M * N, by simp [stateAfter, h1], Nat.le_refl _⟩, ?_⟩, ?_, ?_⟩
      · obtain ⟨n, h, hle⟩ := hC.1
        exact ⟨n, by simp [stateAfter, h1, h], hle⟩
      · intro i hi
        rw [(hfr ⟨.C, i⟩ (by simp)).2]
        exact hC.2 i hi
      · intro i hi
        show initAfter _ _ _ = true
        apply initAfter_of_mem
        left; rw [h3]; simp
      · unfold checkVerdict
        rw [mat_equals_iff]
        constructor
        · intro h r c hr hc
          have := h (r * N + c) (mulAdd_lt hr hc)
          rwa [hval r c hr hc, (hfr ⟨.C, _⟩ (by simp)).1] at this
        · intro h i hi
          have hN : 0 < N := by
            rcases Nat.eq_zero_or_pos N with h | h
            · subst h; simp at hi
            · exact h
          have hc := Nat.mod_lt i hN
          have hr : i / N < M := Nat.div_lt_of_lt_mul (by rwa [Nat.mul_comm])
          have ei : i / N * N + i % N = i := by rw [Nat.mul_comm]; exact Nat.div_add_mod i N
          have := h _ _ hr hc
          rw [← hval _ _ hr hc] at this
          unfold entry at this
          rwa [ei, ← (hfr ⟨.C, i⟩ (by simp)).1] at this
      · apply Triple.free
        · rintro s2 rfl; simp [stateAfter, h1]
        · rintro s2 rfl
          refine ⟨?_, ?_⟩
          · funext b
            simp only [stateAfter, h1]
            split
            · rename_i hb; rw [hb, hfree]
            · rfl
          · intro l hl
            exact hfr l (fun e => hl (e ▸ hfree))

/-- The example state: 3 x 4 x 2 product, C present. -/
def demoFull (M N K : Nat) : State Int := { demo M N K with init := fun _ => true }

example := C32_checker_partial (exact Int) (fun x y => decide (1 < |x - y|)) 3 4 2 (demoFull 3 4 2)
  ⟨⟨(demo_ok 3 4 2).a.1, fun _ _ => rfl⟩, ⟨(demo_ok 3 4 2).b.1, fun _ _ => rfl⟩, (demo_ok 3 4 2).c,
    (demo_ok 3 4 2).fresh⟩ ⟨(demo_ok 3 4 2).c, fun _ _ => rfl⟩

/-- With exact rational arithmetic and `|x - y| > eps`: the answer is 0 iff every entry is within `eps` of
the mathematical product. -/
theorem C32_exact (eps : ℚ) (M N K : Nat) (s : State ℚ) (hs : CallOK s M N K) (hC : Holds s .C M N)
    (s1 : State ℚ) (h1 : Exec (exact ℚ) (checkFill M N K) s (.ok s1)) :
    checkVerdict (fun x y => decide (eps < |x - y|)) M N s1 = false ↔ ∀ r c, r < M → c < N →
      |(∑ k ∈ Finset.range K, entry s .A K r k * entry s .B N k c) - entry s .C N r c| ≤ eps := by
  rcases C32_checker_partial (exact ℚ) (fun x y => decide (eps < |x - y|)) M N K s hs hC s _ rfl h1 with
    h | ⟨s', e, h⟩
  · cases h
  · cases e
    rw [h.2.2.1]
    refine forall_congr' fun r => forall_congr' fun c => forall_congr' fun _ => forall_congr' fun _ => ?_
    rw [decide_eq_false_iff_not, not_lt, dotFrom_exact _ _ (Perm.refl _)]
    simp [exact]

/-! ### NaN -/

/-- Rationals with a NaN (`none`): every operation with a NaN operand gives NaN. -/
def nanArith : Arith (Option ℚ) := ⟨some 0, fun a b c => do return (← a) * (← b) + (← c)⟩

/-- `fabs(x - y) > eps` in IEEE arithmetic: false when an operand is NaN. -/
def nanExceeds (eps : ℚ) (x y : Option ℚ) : Bool :=
  match x, y with
  | some x, some y => decide (eps < |x - y|)
  | _, _ => false

/-- The property as stated fails: a C full of NaN is accepted as correct, for all sizes and all A, B. -/
theorem C32_refuted (eps : ℚ) (M N K : Nat) (s : State (Option ℚ)) (hs : CallOK s M N K)
    (hC : Holds s .C M N) (hnan : ∀ r c, r < M → c < N → entry s .C N r c = none) :
    ∃ s1, Exec nanArith (checkFill M N K) s (.ok s1) ∧ checkVerdict (nanExceeds eps) M N s1 = false := by
  obtain ⟨s1, h1, h⟩ := (C32_checker_partial nanArith (nanExceeds eps) M N K s hs hC).exists_ok rfl
  refine ⟨s1, h1, h.2.2.1.2 fun r c hr hc => ?_⟩
  rw [hnan r c hr hc]
  unfold nanExceeds
  split <;> simp_all

/-- Such a state exists, with finite A and B. -/
example : ∃ s : State (Option ℚ), CallOK s 2 3 4 ∧ Holds s .C 2 3 ∧
    (∀ r c, r < 2 → c < 3 → entry s .C 3 r c = none) ∧ entry s .A 4 1 1 = some 1 :=
  ⟨{ roomy (none : Option ℚ) 2 3 4 0 with mem := fun l => if l.buf = .C then none else some 1 },
    ⟨(roomy_ok (none : Option ℚ) 2 3 4 0).a, (roomy_ok (none : Option ℚ) 2 3 4 0).b, (roomy_ok (none : Option ℚ) 2 3 4 0).c, (roomy_ok (none : Option ℚ) 2 3 4 0).fresh⟩,
    roomy_C (none : Option ℚ) 2 3 4 0, fun _ _ _ _ => by simp [entry], by simp [entry]⟩

/-- What does hold with NaN: the answer is 0 iff every entry of C is NaN, or the reference is NaN, or they
are within `eps`. -/
theorem C32_nan_partial (eps : ℚ) (M N K : Nat) (s : State (Option ℚ)) (hs : CallOK s M N K)
    (hC : Holds s .C M N) (s1 : State (Option ℚ)) (h1 : Exec nanArith (checkFill M N K) s (.ok s1)) :
    checkVerdict (nanExceeds eps) M N s1 = false ↔ ∀ r c, r < M → c < N → ∀ x y,
      dotFrom nanArith (fun k => entry s .A K r k) (fun k => entry s .B N k c) (range K) (some 0) = some x →
      entry s .C N r c = some y → |x - y| ≤ eps := by
  rcases C32_checker_partial nanArith (nanExceeds eps) M N K s hs hC s _ rfl h1 with h | ⟨s', e, h⟩
  · cases h
  · cases e
    rw [h.2.2.1]
    refine forall_congr' fun r => forall_congr' fun c => forall_congr' fun _ => forall_congr' fun _ => ?_
    have e0 : nanArith.zero = some 0 := rfl
    rw [e0]
    generalize dotFrom nanArith (fun k => entry s .A K r k) (fun k => entry s .B N k c) (range K) (some 0) = x
    generalize entry s .C N r c = y
    cases x <;> cases y <;> simp [nanExceeds]

/-! ### The sum checker -/

theorem add_fold (add : α → α → α) (x : Nat → α) (n : Nat) (chk : Nat → α) (j : Nat) :
    (range n).foldl (fun (chk : Nat → α) i => fun j => if j = i then add (chk i) (x i) else chk j) chk j =
      if j < n then add (chk j) (x j) else chk j := by
  induction n with
  | zero => simp
  | succ n ih =>
    rw [range_succ, foldl_append]
    simp only [foldl_cons, foldl_nil]
    by_cases hj : j = n
    · subst hj
      simp only [if_true, Nat.lt_succ_self]
      rw [ih, if_neg (Nat.lt_irrefl j)]
    · rw [if_neg hj, ih]
      by_cases h : j < n
      · rw [if_pos h, if_pos (by omega)]
      · rw [if_neg h, if_neg (by omega)]

theorem add_folds (add : α → α → α) (x : Nat → Nat → α) (n p : Nat) (z : α) (j : Nat) (hj : j < n) :
    (range p).foldl (fun (chk : Nat → α) c => (range n).foldl
      (fun (chk : Nat → α) i => fun j => if j = i then add (chk i) (x c i) else chk j) chk) (fun _ => z) j =
      (range p).foldl (fun acc c => add acc (x c j)) z := by
  induction p with
  | zero => simp
  | succ p ih =>
    rw [range_succ, foldl_append, foldl_append]
    simp only [foldl_cons, foldl_nil]
    rw [add_fold, if_pos hj, ih]

/-- `add_checker` reports "correct" exactly if no entry of C differs by more than the tolerance from the sum of
the corresponding entries of the `p` arrays, added one after another starting from 0. -/
theorem C32_add_checker (zero : α) (add : α → α → α) (exceeds : α → α → Bool) (C_arr : Nat → Nat → α)
    (C : Nat → α) (M N p : Nat) :
    add_checker zero add exceeds C_arr C M N p = false ↔
      ∀ i, i < M * N → exceeds ((range p).foldl (fun acc c => add acc (C_arr c i)) zero) (C i) = false := by
  unfold add_checker
  obtain ⟨c, h⟩ := cmp_fold (fun i => exceeds ((range p).foldl (fun (chk : Nat → α) c =>
    (range (M * N)).foldl (fun (chk : Nat → α) i => fun j => if j = i then add (chk i) (C_arr c i) else chk j) chk)
    (fun _ => zero) i) (C i)) (M * N) 0 0 true
  simp only [h]
  simp only [Bool.true_and, Bool.not_eq_false', all_eq_true, mem_range, Bool.not_eq_true', Nat.zero_add]
  exact forall₂_congr fun i hi => by rw [add_folds _ _ _ _ _ _ hi]

/-- Over the rationals with the tolerance of the code: correct means every entry is within 1/1000 of the sum. -/
theorem C32_add_checker_exact (C_arr : Nat → Nat → ℚ) (C : Nat → ℚ) (M N p : Nat) :
    add_checker (0 : ℚ) (· + ·) (fun x y => decide (|x - y| > 1 / 1000)) C_arr C M N p = false ↔
      ∀ i, i < M * N → |((range p).map fun c => C_arr c i).sum - C i| ≤ 1 / 1000 := by
  rw [C32_add_checker]
  refine forall₂_congr fun i _ => ?_
  have : ∀ p, (range p).foldl (fun acc c => acc + C_arr c i) 0 = ((range p).map fun c => C_arr c i).sum := by
    intro p
    induction p with
    | zero => simp
    | succ p ih => simp [range_succ, ih]
  rw [this]
  simp

/-- A sum of three arrays that is accepted, and one that is off by one in the last entry and rejected. -/
example : add_checker (0 : Int) (· + ·) (fun x y => decide (x ≠ y)) (fun c i => c + i) (fun i => 3 + 3 * i) 2 2 3
    = false := by decide +kernel
example : add_checker (0 : Int) (· + ·) (fun x y => decide (x ≠ y)) (fun c i => c + i)
    (fun i => if i = 3 then 13 else 3 + 3 * i) 2 2 3 = true := by decide +kernel

end Cake
