/-
No difference that the K-first path evaluates is negative, whatever the sizes; so over 32-bit `int` an expression either has the
value of the model or is undefined.
-/
import Verif.Proofs.CheckedOk

namespace Cake
open List
open W

namespace E

/-- No difference in the expression is negative. -/
def Pos : E → Prop
  | lit _ => True
  | add a b => a.Pos ∧ b.Pos
  | sub a b => a.Pos ∧ b.Pos ∧ b.val ≤ a.val
  | mul a b => a.Pos ∧ b.Pos
  | div a b => a.Pos ∧ b.Pos
  | mod a b => a.Pos ∧ b.Pos

@[simp] theorem pos_lit (n : Nat) : (lit n).Pos := trivial
@[simp] theorem pos_one : (1 : E).Pos := trivial
@[simp] theorem pos_add (a b : E) : (a + b).Pos ↔ a.Pos ∧ b.Pos := Iff.rfl
@[simp] theorem pos_sub (a b : E) : (a - b).Pos ↔ a.Pos ∧ b.Pos ∧ b.val ≤ a.val := Iff.rfl
@[simp] theorem pos_mul (a b : E) : (a * b).Pos ↔ a.Pos ∧ b.Pos := Iff.rfl
@[simp] theorem pos_div (a b : E) : (a / b).Pos ↔ a.Pos ∧ b.Pos := Iff.rfl
@[simp] theorem pos_mod (a b : E) : (a % b).Pos ↔ a.Pos ∧ b.Pos := Iff.rfl

theorem inInt_nat {n : Nat} : inInt n = if n < 2 ^ 31 then some (n : Int) else none := by
  unfold inInt
  by_cases h : n < 2 ^ 31
  · rw [if_pos h, if_pos]; constructor <;> omega
  · rw [if_neg h, if_neg]; omega

theorem inInt_of_lt {n : Nat} (h : n < 2 ^ 31) : inInt n = some (n : Int) := inInt_nat.trans (if_pos h)
theorem inInt_ne {n : Nat} (h : inInt n ≠ none) : n < 2 ^ 31 := by
  by_contra hn
  exact h (inInt_nat.trans (if_neg hn))

theorem eval_add (a b : E) : (add a b).eval32 = a.eval32.bind fun x => b.eval32.bind fun y => inInt (x + y) := rfl
theorem eval_sub (a b : E) : (sub a b).eval32 = a.eval32.bind fun x => b.eval32.bind fun y => inInt (x - y) := rfl
theorem eval_mul (a b : E) : (mul a b).eval32 = a.eval32.bind fun x => b.eval32.bind fun y => inInt (x * y) := rfl
theorem eval_div (a b : E) : (div a b).eval32 =
    a.eval32.bind fun x => b.eval32.bind fun y => if y = 0 then none else inInt (x.tdiv y) := rfl
theorem eval_mod (a b : E) : (mod a b).eval32 =
    a.eval32.bind fun x => b.eval32.bind fun y => if y = 0 then none else inInt (x.tmod y) := rfl

/-- An expression without negative differences is defined over 32-bit `int` exactly if it fits, and then has the value of the
model. -/
theorem eval32_of_fits {e : E} (h : e.Fits) : e.eval32 = some (e.val : Int) := by
  induction e with
  | lit n => exact inInt_of_lt h
  | add a b iha ihb =>
    obtain ⟨h1, h2, h3⟩ := h
    rw [eval_add, iha h1, ihb h2, Option.bind_some, Option.bind_some, ← Int.natCast_add, inInt_of_lt h3]
    rfl
  | sub a b iha ihb =>
    have hlt : a.val - b.val < 2 ^ 31 := Fits.lt h
    obtain ⟨h1, h2, h3⟩ := h
    rw [eval_sub, iha h1, ihb h2, Option.bind_some, Option.bind_some, ← Int.ofNat_sub h3, inInt_of_lt hlt]
    rfl
  | mul a b iha ihb =>
    obtain ⟨h1, h2, h3⟩ := h
    rw [eval_mul, iha h1, ihb h2, Option.bind_some, Option.bind_some, ← Int.natCast_mul, inInt_of_lt h3]
    rfl
  | div a b iha ihb =>
    have hlt : a.val / b.val < 2 ^ 31 := Fits.lt h
    obtain ⟨h1, h2, h3⟩ := h
    have h4 : (b.val : Int) ≠ 0 := Int.natCast_ne_zero.2 h3
    rw [eval_div, iha h1, ihb h2, Option.bind_some, Option.bind_some, if_neg h4, ← Int.ofNat_tdiv, inInt_of_lt hlt]
    rfl
  | mod a b iha ihb =>
    have hlt : a.val % b.val < 2 ^ 31 := Fits.lt h
    obtain ⟨h1, h2, h3⟩ := h
    have h4 : (b.val : Int) ≠ 0 := Int.natCast_ne_zero.2 h3
    rw [eval_mod, iha h1, ihb h2, Option.bind_some, Option.bind_some, if_neg h4, ← Int.ofNat_tmod, inInt_of_lt hlt]
    rfl

theorem fits_of_eval32 {e : E} (hp : e.Pos) (h : e.eval32 ≠ none) : e.Fits := by
  have step : ∀ {a b : E} {f : Int → Int → Option Int},
      (a.eval32.bind fun x => b.eval32.bind fun y => f x y) ≠ none → a.eval32 ≠ none ∧ b.eval32 ≠ none := by
    intro a b f h
    constructor
    · intro ha; rw [ha] at h; exact h rfl
    · intro hb
      cases ha : a.eval32 with
      | none => rw [ha] at h; exact h rfl
      | some x => rw [ha, hb] at h; exact h rfl
  induction e with
  | lit n => exact inInt_ne h
  | add a b iha ihb =>
    rw [eval_add] at h
    have f1 := iha hp.1 (step h).1
    have f2 := ihb hp.2 (step h).2
    rw [eval32_of_fits f1, eval32_of_fits f2, Option.bind_some, Option.bind_some, ← Int.natCast_add] at h
    exact ⟨f1, f2, inInt_ne h⟩
  | sub a b iha ihb =>
    rw [eval_sub] at h
    exact ⟨iha hp.1 (step h).1, ihb hp.2.1 (step h).2, hp.2.2⟩
  | mul a b iha ihb =>
    rw [eval_mul] at h
    have f1 := iha hp.1 (step h).1
    have f2 := ihb hp.2 (step h).2
    rw [eval32_of_fits f1, eval32_of_fits f2, Option.bind_some, Option.bind_some, ← Int.natCast_mul] at h
    exact ⟨f1, f2, inInt_ne h⟩
  | div a b iha ihb =>
    rw [eval_div] at h
    have f1 := iha hp.1 (step h).1
    have f2 := ihb hp.2 (step h).2
    refine ⟨f1, f2, fun h0 => ?_⟩
    rw [eval32_of_fits f1, eval32_of_fits f2, Option.bind_some, Option.bind_some, if_pos (by rw [h0]; rfl)] at h
    exact h rfl
  | mod a b iha ihb =>
    rw [eval_mod] at h
    have f1 := iha hp.1 (step h).1
    have f2 := ihb hp.2 (step h).2
    refine ⟨f1, f2, fun h0 => ?_⟩
    rw [eval32_of_fits f1, eval32_of_fits f2, Option.bind_some, Option.bind_some, if_pos (by rw [h0]; rfl)] at h
    exact h rfl

end E

namespace W
variable {α β γ σ : Type}

/-- Nothing recorded has a negative difference. -/
def Pos (w : W α) : Prop := ∀ e ∈ w.ints, e.Pos

@[simp] theorem pos_pure (a : α) : Pos (pure a : W α) := fun _ h => absurd h (by simp [Pure.pure])
@[simp] theorem pos_ev (e : E) : Pos (ev e) ↔ e.Pos :=
  ⟨fun h => h e (mem_singleton.2 rfl), fun h x hx => by rw [mem_singleton.1 hx]; exact h⟩
@[simp] theorem pos_bind (w : W α) (f : α → W β) : Pos (w >>= f) ↔ Pos w ∧ Pos (f w.val) :=
  ⟨fun h => ⟨fun e he => h e (mem_append_left _ he), fun e he => h e (mem_append_right _ he)⟩,
    fun h e he => (mem_append.1 he).elim (h.1 e) (h.2 e)⟩
@[simp] theorem pos_sel (c : Prop) [Decidable c] (a b : W α) : Pos (sel c a b) ↔ (c → Pos a) ∧ (¬ c → Pos b) := by
  unfold sel; split <;> simp [*]

theorem pos_loop {step : Nat} {l : List Nat} {body : Nat → σ → W (List γ × σ)} {s : σ}
    (h : ∀ i ∈ l, ∀ s, Pos (body i s)) : Pos (loop step l body s) := by
  induction l generalizing s with
  | nil => exact pos_pure _
  | cons i l ih =>
    simp only [loop, pos_bind, pos_pure, pos_ev, and_true]
    exact ⟨h i (mem_cons_self ..) s, ⟨trivial, trivial⟩, ih fun j hj => h j (mem_cons_of_mem _ hj)⟩

theorem pos_each {step : Nat} {l : List Nat} {body : Nat → W (List γ)} (h : ∀ i ∈ l, Pos (body i)) :
    Pos (each step l body) := by
  induction l with
  | nil => exact pos_pure _
  | cons i l ih =>
    simp only [each, pos_bind, pos_pure, pos_ev, and_true]
    exact ⟨h i (mem_cons_self ..), ⟨trivial, trivial⟩, ih fun j hj => h j (mem_cons_of_mem _ hj)⟩

theorem pos_tasks {step : Nat} {l : List Nat} {body : Nat → W γ} (h : ∀ i ∈ l, Pos (body i)) :
    Pos (tasks step l body) := by
  induction l with
  | nil => exact pos_pure _
  | cons i l ih =>
    simp only [tasks, pos_bind, pos_pure, pos_ev, and_true]
    exact ⟨h i (mem_cons_self ..), ⟨trivial, trivial⟩, ih fun j hj => h j (mem_cons_of_mem _ hj)⟩

theorem pos_eachSerp {desc : Bool} {n : Nat} {body : Nat → W (List γ)} (h : ∀ i, i < n → Pos (body i)) :
    Pos (eachSerp desc n body) := by
  have h' : ∀ i ∈ serp desc n, Pos (body i) := fun i hi => h i (mem_serp.1 hi)
  unfold eachSerp
  generalize serp desc n = l at h' ⊢
  induction l with
  | nil => exact pos_pure _
  | cons i l ih =>
    simp only [eachSerp.go, pos_bind, pos_pure, and_true, pos_sel, pos_ev]
    exact ⟨h' i (mem_cons_self ..), ⟨fun _ => trivial, fun _ => ⟨trivial, trivial⟩⟩,
      ih fun j hj => h' j (mem_cons_of_mem _ hj)⟩

end W

theorem pos_isLastW {i n : Nat} {pad : Bool} (h : 0 < n) : W.Pos (isLastW i n pad) := by
  simp only [isLastW, W.pos_bind, W.pos_ev, W.pos_pure, and_true]
  exact ⟨trivial, trivial, h⟩

/-- Closes goals about expressions without differences. -/
macro "plain" : tactic => `(tactic| simp only [W.pos_bind, W.pos_ev, W.pos_pure, W.pos_sel, E.pos_add, E.pos_mul, E.pos_div,
  E.pos_lit, E.pos_one, and_true, implies_true])

theorem pos_obAW (A A_p : Loc) (M K m1 m2 m_c k_c m_r : Nat) : W.Pos (obAW A A_p M K m1 m2 m_c k_c m_r) := by
  simp only [obAW, W.pos_bind, W.pos_pure, and_true]
  refine W.pos_loop fun _ _ _ => W.pos_loop fun _ _ _ => W.pos_loop fun _ _ _ => ?_
  plain

theorem pos_unpackObW (C C_p : Loc) (M N m1 n1 m2 m_c n_c m_r n_r : Nat) :
    W.Pos (unpackObW C C_p M N m1 n1 m2 m_c n_c m_r n_r) := by
  simp only [unpackObW, W.pos_bind, W.pos_pure, and_true]
  refine W.pos_loop fun _ _ _ => W.pos_loop fun _ _ _ => W.pos_loop fun _ _ _ => W.pos_loop fun _ _ _ => ?_
  plain

theorem pos_regTilesW (kd : KDim) (t : Nat) (A B C : Loc) (a_ind b_ind m_r n_r m_c_t n_c_t k_c_t : Nat) :
    W.Pos (regTilesW kd t A B C a_ind b_ind m_r n_r m_c_t n_c_t k_c_t) := by
  simp only [regTilesW, W.pos_bind, W.pos_ev]
  refine ⟨by simp, W.pos_each fun _ _ => ?_⟩
  simp only [W.pos_bind, W.pos_ev]
  refine ⟨by simp, W.pos_each fun _ _ => ?_⟩
  plain

theorem pos_packBW (B B_p : Loc) (K N n_r : Nat) (x : BlkDims) : W.Pos (packBW B B_p K N n_r x) := by
  have hs : ∀ a b : Nat, ((a : E) - (a : E) % (b : E)).Pos := fun a b => ⟨trivial, ⟨trivial, trivial⟩, Nat.mod_le _ _⟩
  simp only [packBW, W.pos_bind, W.pos_pure, and_true, W.pos_ev, W.pos_sel]
  refine ⟨hs _ _, W.pos_loop fun n1 _ s => ?_, hs _ _, fun _ => ⟨hs _ _, W.pos_tasks fun _ _ => ?_, ⟨trivial, hs _ _, trivial⟩,
    hs _ _, fun _ => ⟨W.pos_tasks fun _ _ => ?_, by simp⟩, fun _ => trivial⟩, fun _ => trivial⟩
  · simp only [W.pos_bind, W.pos_pure, and_true, W.pos_ev, W.pos_sel]
    refine ⟨hs _ _, W.pos_tasks fun _ _ => ?_, ⟨trivial, hs _ _, trivial⟩, hs _ _, fun _ => ⟨W.pos_tasks fun _ _ => ?_, by simp⟩,
      fun _ => trivial⟩
    · simp only [W.pos_bind, W.pos_pure, and_true]
      refine W.pos_loop fun _ _ _ => W.pos_loop fun _ _ _ => W.pos_loop fun _ _ _ => ?_
      plain
    · simp only [W.pos_bind, W.pos_pure, and_true]
      refine W.pos_loop fun _ _ _ => W.pos_loop fun _ _ _ => ?_
      plain
  · simp only [W.pos_bind, W.pos_pure, and_true]
    refine W.pos_loop fun _ _ _ => W.pos_loop fun _ _ _ => W.pos_loop fun _ _ _ => ?_
    plain
  · simp only [W.pos_bind, W.pos_pure, and_true]
    refine W.pos_loop fun _ _ _ => W.pos_loop fun _ _ _ => ?_
    plain

section
variable {x : BlkDims}

theorem pos_stripW (hpl : x.m_pad = true → 0 < x.p_l) {b : Bool} (hb : b = true → x.m_pad = true) (core : Nat) :
    W.Pos (stripW x b core) := by
  simp only [stripW, W.pos_sel, W.pos_bind, W.pos_ev, W.pos_pure, and_true, implies_true]
  exact fun h => ⟨trivial, trivial, hpl (hb h)⟩

theorem pos_packAW (hpl : x.m_pad = true → 0 < x.p_l) (A A_p : Loc) (M K p m_r : Nat) : W.Pos (packAW A A_p M K p m_r x) := by
  simp only [packAW, W.pos_bind, W.pos_pure, and_true]
  refine W.pos_loop fun m hm s => ?_
  have hM0 : 0 < x.Mb := by rw [mem_range] at hm; omega
  simp only [W.pos_bind, W.pos_sel, W.pos_ev]
  refine ⟨pos_isLastW hM0, ⟨fun _ => by simp, fun _ => by simp⟩, W.pos_loop fun k hk s => ?_⟩
  have hK0 : 0 < x.Kb := by rw [mem_range] at hk; omega
  simp only [W.pos_bind, W.pos_ev, W.pos_pure, and_true]
  refine ⟨pos_isLastW hK0, by simp, W.pos_tasks fun core _ => ?_, by simp⟩
  simp only [W.pos_bind, W.pos_ev]
  exact ⟨pos_isLastW hM0, pos_stripW hpl lastPad core, by simp, by simp, by simp, by simp, pos_obAW _ _ _ _ _ _ _ _ _⟩

theorem pos_scheduleW (hpl : x.m_pad = true → 0 < x.p_l) (kd : KDim) (A_p B_p C : Loc) (M N K p m_r n_r : Nat) :
    W.Pos (scheduleW kd A_p B_p C M N K p m_r n_r x) := by
  have hs : ∀ (a : Nat) (b : E), b.Pos → ((a : E) - (a : E) % b).Pos := fun a b hb => ⟨trivial, ⟨trivial, hb⟩, Nat.mod_le _ _⟩
  refine W.pos_each fun n hn => ?_
  have hN0 : 0 < x.Nb := by rw [mem_range] at hn; omega
  simp only [W.pos_bind, W.pos_ev, W.pos_sel]
  refine ⟨by simp, pos_isLastW hN0, ⟨fun _ => hs _ _ (by simp), fun _ => by simp⟩, W.pos_eachSerp fun m hm => ?_⟩
  have hM0 : 0 < x.Mb := by omega
  simp only [W.pos_bind, W.pos_ev, W.pos_sel, W.pos_pure, and_true]
  refine ⟨by simp, pos_isLastW hM0, ⟨fun _ => by simp, fun _ => by simp⟩, ⟨fun _ => hs _ _ (by simp), fun _ => by simp⟩,
    W.pos_tasks fun core _ => ?_, by simp, W.pos_tasks fun core _ => ?_⟩
  · simp only [W.pos_bind]
    refine ⟨pos_isLastW hM0, pos_stripW hpl lastPad core, W.pos_eachSerp fun k hk => ?_⟩
    have hK0 : 0 < x.Kb := by omega
    simp only [W.pos_bind, W.pos_ev]
    exact ⟨pos_isLastW hK0, by simp, by simp, by simp, pos_regTilesW _ _ _ _ _ _ _ _ _ _ _ _⟩
  · simp only [W.pos_bind, W.pos_ev, W.pos_pure, and_true]
    exact ⟨pos_isLastW hM0, pos_stripW hpl lastPad core, by simp, by simp, pos_unpackObW _ _ _ _ _ _ _ _ _ _ _, by simp⟩

end

section
variable {M N K p m_r n_r m_c k_c n_c : Nat} (h : TileOK p m_r n_r m_c k_c n_c)
include h

theorem pl_bounds : ((dimsKMN M N K p m_r n_r m_c k_c n_c).m_pad = true → 0 < (dimsKMN M N K p m_r n_r m_c k_c n_c).p_l) ∧
    cdiv (M % (p * m_c)) m_r ≤ (dimsKMN M N K p m_r n_r m_c k_c n_c).p_l * cdiv (cdiv (M % (p * m_c)) m_r) p ∧
    (dimsKMN M N K p m_r n_r m_c k_c n_c).p_l * cdiv (cdiv (M % (p * m_c)) m_r) p - cdiv (M % (p * m_c)) m_r ≤
      cdiv (cdiv (M % (p * m_c)) m_r) p := by
  obtain ⟨pl, hpl⟩ : ∃ pl, (dimsKMN M N K p m_r n_r m_c k_c n_c).p_l = pl := ⟨_, rfl⟩
  rw [hpl]
  simp only [dimsKMN] at hpl
  rcases Nat.eq_zero_or_pos (cdiv (M % (p * m_c)) m_r) with h0 | h0
  · rw [h0] at hpl ⊢
    simp only [cdiv_zero, ne_eq, not_true_eq_false, if_false] at hpl
    subst hpl
    refine ⟨fun hp => ?_, by simp⟩
    have hp' : M % (p * m_c) ≠ 0 := by simpa [dimsKMN] using hp
    have := cdiv_pos (b := m_r) (a := M % (p * m_c)) (by omega) h.m_r_pos
    omega
  · have hx := cdiv_pos h0 h.p_pos
    rw [if_pos (by omega)] at hpl
    have a1 := cdiv_mul_ge (cdiv (M % (p * m_c)) m_r) _ hx
    have a2 := cdiv_mul_lt (cdiv (M % (p * m_c)) m_r) _ hx
    have a3 := cdiv_pos h0 hx
    rw [hpl] at a1 a2 a3
    exact ⟨fun _ => a3, a1, by omega⟩

theorem pos_cake_sgemmW (cx : Cntx) (A B C : Loc) (packedA packedB : Bool) (hm : cx.m_r = m_r) (hn : cx.n_r = n_r) :
    W.Pos (cake_sgemmW cx A B C M N K p packedA packedB m_c k_c n_c) := by
  subst hm hn
  obtain ⟨h1, h2, h3⟩ := pl_bounds (M := M) (N := N) (K := K) h
  have hd : W.Pos (dimsKMNW M N K p cx.m_r cx.n_r m_c k_c n_c) := by
    simp only [dimsKMNW, W.pos_bind, W.pos_pure, and_true, W.pos_ev, val_coresW]
    refine ⟨by simp, by simp, by simp, by simp, by simp, by simp, ?_, by simp, by simp, by simp, by simp,
      ⟨⟨trivial, ⟨⟨trivial, trivial⟩, trivial, h2⟩, h3⟩, trivial⟩, by simp, by simp, by simp, by simp, by simp [mPaddedE],
      ⟨⟨trivial, ⟨trivial, trivial⟩, Nat.mod_le _ _⟩, trivial⟩⟩
    unfold coresW
    split <;> simp
  simp only [cake_sgemmW, W.pos_bind, W.pos_pure, W.pos_sel, and_true, implies_true, true_and, val_dimsKMNW]
  refine ⟨hd, fun _ => ⟨?_, pos_packAW h1 _ _ _ _ _ _⟩, fun _ => ⟨?_, pos_packBW _ _ _ _ _ _⟩, W.pos_tasks fun _ _ => by simp,
    pos_scheduleW h1 _ _ _ _ _ _ _ _ _ _, W.pos_tasks fun _ _ => by simp⟩
  · simp [packedASizeW, mPaddedE]
  · simp only [packedBSizeW, W.pos_bind, W.pos_ev]
    exact ⟨by simp, by simp, by simp, ⟨⟨trivial, ⟨trivial, trivial⟩, Nat.mod_le _ _⟩, trivial⟩, by simp⟩

end

section
variable (cx : Cntx) {M N K p m_c k_c n_c : Nat}

/-- The 32-bit program is defined as soon as everything it evaluates fits. -/
theorem run32_of_ok {A B C : Loc} {packedA packedB : Bool}
    (h : W.Ok (cake_sgemmW cx A B C M N K p packedA packedB m_c k_c n_c)) :
    cake_sgemm32 cx A B C M N K p packedA packedB m_c k_c n_c =
      some (cake_sgemmW cx A B C M N K p packedA packedB m_c k_c n_c).val := by
  unfold cake_sgemm32 W.run
  exact if_pos fun e he => E.eval32_of_fits (h e he)

theorem ok_of_run32 (ht : TileOK p cx.m_r cx.n_r m_c k_c n_c) {A B C : Loc} {packedA packedB : Bool} {prog : Prog}
    (h : cake_sgemm32 cx A B C M N K p packedA packedB m_c k_c n_c = some prog) :
    W.Ok (cake_sgemmW cx A B C M N K p packedA packedB m_c k_c n_c) := by
  unfold cake_sgemm32 W.run at h
  split at h
  · rename_i hv
    exact fun e he => E.fits_of_eval32 (pos_cake_sgemmW ht cx A B C packedA packedB rfl rfl e he) (by rw [hv e he]; simp)
  · exact absurd h (by simp)

theorem int32_of_sizes {m_r n_r : Nat} (h : TileOK p m_r n_r m_c k_c n_c) (hN : 0 < N) (hK : 0 < K)
    (hA : cdiv M m_r * m_r * K < 2 ^ 31) (hB : K * (cdiv N n_r * n_r) < 2 ^ 31)
    (hC : cdiv M m_r * m_r * (cdiv N n_r * n_r) < 2 ^ 31)
    (hk : k_c < 2 ^ 31) (hpm : p * m_c < 2 ^ 31) (hmn : m_c * n_c < 2 ^ 31) :
    Int32OK M N K p m_r n_r m_c k_c n_c := by
  rw [← padTo_eq h.m_r_pos h.S_dvd] at hA hC
  rw [← padTo_eq h.n_r_pos h.n_dvd] at hB hC
  have h2 := padTo_ge N n_c n_r h.n_r_pos
  refine ⟨⟨?_, ?_, ?_, hk, hpm, hmn⟩, hA, hB, hC⟩
  · exact Nat.lt_of_le_of_lt (Nat.le_mul_of_pos_right _ hK) hA
  · exact Nat.lt_of_le_of_lt (Nat.le_mul_of_pos_left _ hK) hB
  · exact Nat.lt_of_le_of_lt (Nat.le_mul_of_pos_right _ (by omega)) hB

end

end Cake
