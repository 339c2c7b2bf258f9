/-
Helper lemmas for C78: the direction in which terms are added, for an element of C and its mirror image.
-/
import Verif.Props.EqualRows

namespace Cake
open List

/-! ### Two factors swapped -/

section
variable {α : Type _} {F : Arith α}

theorem dotFrom_comm (hc : ∀ a b c, F.fma a b c = F.fma b a c) (a b : Nat → α) (l : List Nat) (c : α) :
    dotFrom F a b l c = dotFrom F b a l c := by
  unfold dotFrom
  congr 1
  funext acc k
  exact hc _ _ _

theorem fused_comm (r : Rounding 24) (a b c : ℝ) : (fusedArith r).fma a b c = (fusedArith r).fma b a c := by
  show r.rnd (a * b + c) = r.rnd (b * a + c)
  rw [mul_comm]

end

/-! ### Which blocks an index lies in -/

theorem parity_iff {T X Y : Nat} (hX : 0 < X) (hY : 0 < Y) :
    (∀ i, i < T → i / X % 2 = i / Y % 2) ↔ X = Y ∨ T ≤ min X Y := by
  constructor
  · intro h
    by_contra hc
    rw [not_or, Nat.not_le] at hc
    obtain ⟨hne, hT⟩ := hc
    rcases Nat.lt_or_ge X Y with hl | hl
    · have := h X (by omega)
      rw [Nat.div_self hX, Nat.div_eq_of_lt hl] at this
      omega
    · have := h Y (by omega)
      rw [Nat.div_self hY, Nat.div_eq_of_lt (by omega)] at this
      omega
  · rintro (rfl | h) i hi
    · rfl
    · rw [Nat.div_eq_of_lt (by omega), Nat.div_eq_of_lt (by omega)]

theorem kDesc_eq (n m n' m' : Nat) : kDesc n m = kDesc n' m' ↔ (n + m) % 2 = (n' + m') % 2 := by
  unfold kDesc
  split <;> split <;> split <;> split <;> simp <;> omega

/-- The K-first walk of an `M x N` result, and that of the mirrored `N x M` result. -/
theorem kDesc_mirror {M N X Y X' Y' : Nat} (hX : 0 < X) (hY : 0 < Y) (hX' : 0 < X') (hY' : 0 < Y') (hM : 0 < M) (hN : 0 < N) :
    (∀ i j, i < M → j < N → kDesc (j / Y) (i / X) = kDesc (i / Y') (j / X')) ↔
      (X = Y' ∨ M ≤ min X Y') ∧ (Y = X' ∨ N ≤ min Y X') := by
  rw [← parity_iff hX hY', ← parity_iff hY hX']
  constructor
  · intro h
    refine ⟨fun i hi => ?_, fun j hj => ?_⟩
    · have := (kDesc_eq _ _ _ _).1 (h i 0 hi hN)
      simpa using this
    · have := (kDesc_eq _ _ _ _).1 (h 0 j hM hj)
      simpa using this
  · rintro ⟨h1, h2⟩ i j hi hj
    rw [kDesc_eq]
    have := h1 i hi
    have := h2 j hj
    omega

theorem odd_eq (n m : Nat) : ((n % 2 != 0) = (m % 2 != 0)) ↔ n % 2 = m % 2 := by
  rcases Nat.mod_two_eq_zero_or_one n with h | h <;> rcases Nat.mod_two_eq_zero_or_one m with h' | h' <;> simp [h, h']

/-- M-first and N-first: the direction follows one index alone. -/
theorem odd_const {T X : Nat} (hX : 0 < X) :
    (∀ i j, i < T → j < T → (j / X % 2 != 0) = (i / X % 2 != 0)) ↔ T ≤ X := by
  refine Iff.trans ⟨fun h i i' hi hi' => h i' i hi' hi, fun h i j hi hj => h j i hj hi⟩
    (bands hX (f := fun n => n % 2 != 0) (by decide))

theorem odd_pair {M N X Y : Nat} (hX : 0 < X) (hY : 0 < Y) (hM : 0 < M) (hN : 0 < N) :
    (∀ i j, i < M → j < N → (j / Y % 2 != 0) = (i / X % 2 != 0)) ↔ N ≤ Y ∧ M ≤ X := by
  constructor
  · intro h
    have h0 : ∀ j, j < N → j / Y % 2 = 0 := fun j hj => by simpa using (odd_eq _ _).1 (h 0 j hM hj)
    have h1 : ∀ i, i < M → i / X % 2 = 0 := fun i hi => by simpa using ((odd_eq _ _).1 (h i 0 hi hN)).symm
    constructor <;> by_contra hc
    · have := h0 Y (by omega)
      rw [Nat.div_self hY] at this
      omega
    · have := h1 X (by omega)
      rw [Nat.div_self hX] at this
      omega
  · rintro ⟨h1, h2⟩ i j hi hj
    rw [Nat.div_eq_of_lt (by omega : j < Y), Nat.div_eq_of_lt (by omega : i < X)]

/-! ### Operands that tell the directions apart -/

/-- `witS` with the two matrices transposed and swapped: an `N x M` product. -/
noncomputable def mirS (M N K S na nb : Nat) : State ℝ where
  size := fun b => match b with
    | .A => some (N * K + na)
    | .B => some (K * M + nb)
    | .C => some (N * M)
    | _ => none
  mem := fun l => if l.buf = .A then witB S (l.idx % K) else if l.buf = .B then witA S (l.idx / M) else 0
  init := fun _ => true

theorem mirS_ok (M N K S na nb : Nat) : CallOK (mirS M N K S na nb) N M K :=
  ⟨⟨⟨_, rfl, Nat.le_add_right _ _⟩, fun _ _ => rfl⟩, ⟨⟨_, rfl, Nat.le_add_right _ _⟩, fun _ _ => rfl⟩,
    ⟨_, rfl, Nat.le_refl _⟩, fun b h1 h2 h3 _ => by cases b <;> first | rfl | contradiction⟩

theorem mirS_A {M N K S na nb j k : Nat} (hk : k < K) : (mirS M N K S na nb).mem ⟨.A, j * K + k⟩ = witB S k := by
  simp only [mirS, if_true]
  rw [Nat.mul_comm j K, Nat.mul_add_mod, Nat.mod_eq_of_lt hk]

theorem mirS_B {M N K S na nb k i : Nat} (hi : i < M) : (mirS M N K S na nb).mem ⟨.B, k * M + i⟩ = witA S k := by
  simp only [mirS, if_true]
  rw [if_neg (by simp), Nat.mul_comm k M, Nat.mul_add_div (by omega), Nat.div_eq_of_lt hi, Nat.add_zero]

theorem mirS_slack (M N K S m_r n_r : Nat) :
    Slack (mirS M N K S (roundUp N m_r * K) (roundUp M n_r)) N M K m_r n_r :=
  ⟨⟨⟨_, rfl, by omega⟩, fun _ _ => rfl⟩, ⟨⟨_, rfl, by omega⟩, fun _ _ => rfl⟩⟩

/-- A matrix with row `i0` apart from the others, and its transpose. -/
noncomputable def gramS (M K S na nb i0 : Nat) : State ℝ where
  size := fun b => match b with
    | .A => some (M * K + na)
    | .B => some (K * M + nb)
    | .C => some (M * M)
    | _ => none
  mem := fun l =>
    if l.buf = .A then (if l.idx / K = i0 then witA S (l.idx % K) else witB S (l.idx % K))
    else if l.buf = .B then (if l.idx % M = i0 then witA S (l.idx / M) else witB S (l.idx / M))
    else 0
  init := fun _ => true

theorem gramS_ok (M K S na nb i0 : Nat) : CallOK (gramS M K S na nb i0) M M K :=
  ⟨⟨⟨_, rfl, Nat.le_add_right _ _⟩, fun _ _ => rfl⟩, ⟨⟨_, rfl, Nat.le_add_right _ _⟩, fun _ _ => rfl⟩,
    ⟨_, rfl, Nat.le_refl _⟩, fun b h1 h2 h3 _ => by cases b <;> first | rfl | contradiction⟩

theorem gramS_A {M K S na nb i0 i k : Nat} (hk : k < K) :
    (gramS M K S na nb i0).mem ⟨.A, i * K + k⟩ = if i = i0 then witA S k else witB S k := by
  simp only [gramS, if_true]
  rw [Nat.mul_comm i K, Nat.mul_add_mod, Nat.mod_eq_of_lt hk, Nat.mul_add_div (by omega), Nat.div_eq_of_lt hk, Nat.add_zero]

theorem gramS_B {M K S na nb i0 k i : Nat} (hi : i < M) :
    (gramS M K S na nb i0).mem ⟨.B, k * M + i⟩ = if i = i0 then witA S k else witB S k := by
  simp only [gramS, if_true]
  rw [if_neg (by simp), Nat.mul_comm k M, Nat.mul_add_div (by omega), Nat.div_eq_of_lt hi, Nat.add_zero, Nat.mul_add_mod,
    Nat.mod_eq_of_lt hi]

theorem gramS_slack (M K S m_r n_r i0 : Nat) :
    Slack (gramS M K S (roundUp M m_r * K) (roundUp M n_r) i0) M M K m_r n_r :=
  ⟨⟨⟨_, rfl, by omega⟩, fun _ _ => rfl⟩, ⟨⟨_, rfl, by omega⟩, fun _ _ => rfl⟩⟩

theorem wit_dir {r : Rounding 24} (hr : Drops r) {K S : Nat} (hS : 0 < S) (hK : S < K) (b : Bool) :
    dotFrom (fusedArith r) (witA S) (witB S) (kOrder K S (serp b (cdiv K S))) 0 = if b then 1 else 0 := by
  have hn : (kOrder K S (serp b (cdiv K S))).Nodup := (kOrder_perm hS (serp_perm _ _)).nodup_iff.2 nodup_range
  cases b with
  | false =>
    refine wit_up hr hS hn ?_
    rw [kOrder_up hS]
    have h1 : [0] <+ range S := singleton_sublist.2 (mem_range.2 hS)
    have h2 : [0] ++ [S] <+ range (S + 1) := by
      rw [range_succ]
      exact h1.append (Sublist.refl _)
    exact h2.trans (range_sublist.2 (by omega))
  | true => exact wit_down hr hS hn (kOrder_down hS hK)

end Cake
