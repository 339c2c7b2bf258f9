/-
Lemmas on the benchmark example.
-/
import Verif.Model.Bench
import Verif.CoreLemmas

namespace Cake
open List

variable {α : Type _}

/-! ### Arguments -/

theorem argInt_some {argv : List Nat} {i n : Nat} (h : argv[i]? = some n) (hn : isInt n) : argInt argv i = .ok n := by
  unfold argInt; rw [h]; simp [hn]

theorem argInt_none {argv : List Nat} {i : Nat} (h : argv.length ≤ i) : argInt argv i = .error .ub := by
  unfold argInt; rw [List.getElem?_eq_none h]

theorem argInt_ok {argv : List Nat} {i n : Nat} (h : argInt argv i = .ok n) : argv[i]? = some n ∧ isInt n := by
  unfold argInt at h
  cases e : argv[i]? with
  | none => rw [e] at h; cases h
  | some m =>
    rw [e] at h
    simp only at h
    split at h
    · rename_i hm; cases h; exact ⟨rfl, hm⟩
    · cases h

theorem argInt_cases (argv : List Nat) (i : Nat) : argInt argv i = .error .ub ∨ ∃ n, argInt argv i = .ok n := by
  unfold argInt
  cases argv[i]? with
  | none => exact .inl rfl
  | some m =>
    by_cases h : isInt m
    · exact .inr ⟨m, by simp [h]⟩
    · exact .inl (by simp [h])

/-- The command line has the five numbers the benchmark reads, and the matrices are not too large. -/
structure GivesArgs (argv : List Nat) (a : BenchArgs) : Prop where
  M : argv[1]? = some a.M
  K : argv[2]? = some a.K
  N : argv[3]? = some a.N
  p : argv[4]? = some a.p
  ntrials : argv[5]? = some a.ntrials
  ints : ∀ i < 6, ∀ n, 0 < i → argv[i]? = some n → n < 2147483648
  sizes : a.M * a.K < 2147483648 ∧ a.K * a.N < 2147483648 ∧ a.M * a.N < 2147483648

theorem benchArgs_eq {argv : List Nat} (h : 3 ≤ argv.length) : benchArgs argv = (do
    let M ← argInt argv 1
    let K ← argInt argv 2
    let N ← argInt argv 3
    let p ← argInt argv 4
    if ¬ isInt (M * K) ∨ ¬ isInt (K * N) ∨ ¬ isInt (M * N) then .error .ub
    let ntrials ← argInt argv 5
    pure ⟨M, K, N, p, ntrials⟩) := by
  unfold benchArgs
  rw [if_neg (by omega)]

theorem benchArgs_few {argv : List Nat} (h : argv.length < 3) : benchArgs argv = .error .exit := by
  unfold benchArgs
  rw [if_pos h]
  rfl

theorem benchArgs_cases {argv : List Nat} (h : 3 ≤ argv.length) :
    benchArgs argv = .error .ub ∨ ∃ a, benchArgs argv = .ok a ∧ GivesArgs argv a := by
  rw [benchArgs_eq h]
  rcases argInt_cases argv 1 with e1 | ⟨M, e1⟩
  · rw [e1]; exact .inl rfl
  rcases argInt_cases argv 2 with e2 | ⟨K, e2⟩
  · rw [e1, e2]; exact .inl rfl
  rcases argInt_cases argv 3 with e3 | ⟨N, e3⟩
  · rw [e1, e2, e3]; exact .inl rfl
  rcases argInt_cases argv 4 with e4 | ⟨p, e4⟩
  · rw [e1, e2, e3, e4]; exact .inl rfl
  rw [e1, e2, e3, e4]
  simp only [bind, Except.bind]
  by_cases hs : ¬ isInt (M * K) ∨ ¬ isInt (K * N) ∨ ¬ isInt (M * N)
  · rw [if_pos hs]; exact .inl rfl
  rw [if_neg hs]
  rcases argInt_cases argv 5 with e5 | ⟨n, e5⟩
  · rw [e5]; exact .inl rfl
  rw [e5]
  refine .inr ⟨_, rfl, (argInt_ok e1).1, (argInt_ok e2).1, (argInt_ok e3).1, (argInt_ok e4).1, (argInt_ok e5).1, ?_, ?_⟩
  · intro i hi m h0 hm
    have key : ∀ j x, argInt argv j = .ok x → argv[j]? = some m → m < 2147483648 := by
      intro j x hj hx
      obtain ⟨h1, h2⟩ := argInt_ok hj
      rw [h1] at hx
      cases hx
      exact h2
    rcases (by omega : i = 1 ∨ i = 2 ∨ i = 3 ∨ i = 4 ∨ i = 5) with rfl | rfl | rfl | rfl | rfl
    · exact key _ _ e1 hm
    · exact key _ _ e2 hm
    · exact key _ _ e3 hm
    · exact key _ _ e4 hm
    · exact key _ _ e5 hm
  · simp only [not_or, not_not] at hs
    exact hs

theorem GivesArgs.eq {argv : List Nat} {a : BenchArgs} (h : GivesArgs argv a) : benchArgs argv = .ok a := by
  have hl : 3 ≤ argv.length := by
    obtain ⟨h1, -⟩ := List.getElem?_eq_some_iff.1 h.ntrials
    omega
  have hi := h.ints
  rw [benchArgs_eq hl, argInt_some h.M (hi 1 (by decide) _ (by decide) h.M),
    argInt_some h.K (hi 2 (by decide) _ (by decide) h.K), argInt_some h.N (hi 3 (by decide) _ (by decide) h.N),
    argInt_some h.p (hi 4 (by decide) _ (by decide) h.p), argInt_some h.ntrials (hi 5 (by decide) _ (by decide) h.ntrials)]
  simp only [bind, Except.bind]
  rw [if_neg (by simp only [not_or, not_not]; exact h.sizes)]
  rfl

/-! ### The flush loop -/

theorem flush_interleave (F : Arith α) {z : Nat} {s : State α} (hi : ∀ d, s.init (dirty d) = false) {l : List Op}
    {out : Out α} (hz : 0 < z) (hl : Interleave (flushTasks z) l) (h : RunOps F l s out) : out = .ub := by
  generalize e : flushTasks z = ts at hl
  cases hl with
  | done _ hd =>
    have : [Op.copy (dirty 0) (dirty 0), .fma (tttmp (0 % 18)) (dirty 0) (dirty 0)] ∈ ts := by
      rw [← e]; exact mem_map.2 ⟨0, mem_range.2 hz, rfl⟩
    exact absurd (hd _ this) (by simp)
  | step pre o t post l _ =>
    have hm : (o :: t) ∈ flushTasks z := by rw [e]; simp
    obtain ⟨d, -, hd⟩ := mem_map.1 hm
    cases hd
    cases h with
    | undef => rfl
    | step _ _ _ _ hdef _ =>
      have := (hdef.2 (dirty d) (by simp [Op.reads])).2
      rw [hi] at this
      cases this

/-! ### Programs that cannot exit -/

theorem runOps_ne_exit {F : Arith α} {l : List Op} {s : State α} {out : Out α} (h : RunOps F l s out) : out ≠ .exit := by
  induction h with
  | nil => simp
  | undef => simp
  | step _ _ _ _ _ _ ih => exact ih

theorem exec_ne_exit {F : Arith α} {p : Prog} (hp : ∀ b n, Item.memalign b n ∉ p) {s : State α} {out : Out α}
    (h : Exec F p s out) : out ≠ .exit := by
  induction h with
  | nil => simp
  | next _ _ _ _ _ _ _ ih => exact ih fun b n hm => hp b n (mem_cons_of_mem _ hm)
  | exit i is s h =>
    exfalso
    generalize e : Out.exit = o at h
    cases h with
    | memalignFail b n => exact hp b n mem_cons_self
    | par _ _ _ _ _ hr => exact runOps_ne_exit hr e.symm
    | _ => cases e
  | ub => simp

theorem checkFill_no_memalign (M N K : Nat) (b : Buf) (n : Nat) : Item.memalign b n ∉ checkFill M N K := by
  simp [checkFill, phases]

end Cake
