/-
The recording functions of `Verif.Model.Checked`: their values are those of the model, and what they record is covered by the
lists of `Verif.Model.IntRange`.
-/
import Verif.Model.Checked
import Verif.Proofs.IntRange

namespace Cake
open List

namespace W

variable {α β γ σ : Type}

@[simp] theorem val_pure (a : α) : (pure a : W α).val = a := rfl
@[simp] theorem val_bind (w : W α) (f : α → W β) : (w >>= f).val = (f w.val).val := rfl
@[simp] theorem val_ev (e : E) : (ev e).val = e.val := rfl
@[simp] theorem val_sel (c : Prop) [Decidable c] (a b : W α) : (sel c a b).val = if c then a.val else b.val := by
  unfold sel; split <;> rfl

theorem val_loop (step : Nat) (l : List Nat) (body : Nat → σ → W (List γ × σ)) (s : σ) :
    (loop step l body s).val = loopS l (fun i s => (body i s).val) s := by
  induction l generalizing s with
  | nil => rfl
  | cons i l ih => simp only [loop, loopS, val_bind, val_pure, ih]

theorem val_each (step : Nat) (l : List Nat) (body : Nat → W (List γ)) :
    (each step l body).val = l.flatMap fun i => (body i).val := by
  induction l with
  | nil => rfl
  | cons i l ih => simp only [each, val_bind, val_pure, ih, flatMap_cons]

theorem val_tasks (step : Nat) (l : List Nat) (body : Nat → W γ) :
    (tasks step l body).val = l.map fun i => (body i).val := by
  induction l with
  | nil => rfl
  | cons i l ih => simp only [tasks, val_bind, val_pure, ih, map_cons]

theorem val_eachSerp (desc : Bool) (n : Nat) (body : Nat → W (List γ)) :
    (eachSerp desc n body).val = (serp desc n).flatMap fun i => (body i).val := by
  unfold eachSerp
  induction serp desc n with
  | nil => rfl
  | cons i l ih => simp only [eachSerp.go, val_bind, val_pure, flatMap_cons, ih]

/-- Everything recorded fits. -/
def Ok (w : W α) : Prop := AllFits w.ints

@[simp] theorem ok_pure (a : α) : Ok (pure a : W α) := AllFits.nil
@[simp] theorem ok_ev (e : E) : Ok (ev e) ↔ e.Fits :=
  ⟨fun h => h e (mem_singleton.2 rfl), fun h => .cons h .nil⟩
@[simp] theorem ok_bind (w : W α) (f : α → W β) : Ok (w >>= f) ↔ Ok w ∧ Ok (f w.val) :=
  ⟨fun h => ⟨fun e he => h e (mem_append_left _ he), fun e he => h e (mem_append_right _ he)⟩, fun h => h.1.append h.2⟩
theorem ok_sel (c : Prop) [Decidable c] (a b : W α) : Ok (sel c a b) ↔ (c → Ok a) ∧ (¬ c → Ok b) := by
  unfold sel; split <;> simp [*]

theorem ok_each (step : Nat) (l : List Nat) (body : Nat → W (List γ)) :
    Ok (each step l body) ↔ ∀ i ∈ l, Ok (body i) ∧ ((i : E) + (step : E)).Fits := by
  induction l with
  | nil => simp [each]
  | cons i l ih => simp only [each, ok_bind, ok_ev, ok_pure, ih, forall_mem_cons, and_true, and_assoc]

theorem ok_tasks (step : Nat) (l : List Nat) (body : Nat → W γ) :
    Ok (tasks step l body) ↔ ∀ i ∈ l, Ok (body i) ∧ ((i : E) + (step : E)).Fits := by
  induction l with
  | nil => simp [tasks]
  | cons i l ih => simp only [tasks, ok_bind, ok_ev, ok_pure, ih, forall_mem_cons, and_true, and_assoc]

theorem ok_eachSerp (desc : Bool) (n : Nat) (body : Nat → W (List γ))
    (h : ∀ i, i < n → Ok (body i) ∧ ((i : E) + 1).Fits) : Ok (eachSerp desc n body) := by
  have h' : ∀ i ∈ serp desc n, Ok (body i) ∧ ((i : E) + 1).Fits := fun i hi => h i (mem_serp.1 hi)
  unfold eachSerp
  generalize serp desc n = l at h' ⊢
  induction l with
  | nil => exact ok_pure _
  | cons i l ih =>
    simp only [eachSerp.go, ok_bind, ok_pure, and_true, ok_sel, ok_ev]
    have hi := h' i (mem_cons_self ..)
    exact ⟨hi.1, ⟨fun _ => trivial, fun _ => hi.2⟩, ih fun j hj => h' j (mem_cons_of_mem _ hj)⟩

/-- A recording loop is covered by a loop over lists of expressions with the same states. -/
theorem ok_loop {step : Nat} {l : List Nat} {body : Nat → σ → W (List γ × σ)} {g : Nat → σ → List E × σ} {s : σ}
    (hg : AllFits (loopS l g s).1)
    (h : ∀ i ∈ l, ∀ s, (body i s).val.2 = (g i s).2 ∧
      (AllFits (g i s).1 → Ok (body i s) ∧ ((i : E) + (step : E)).Fits)) : Ok (loop step l body s) := by
  induction l generalizing s with
  | nil => exact ok_pure _
  | cons i l ih =>
    simp only [loop, ok_bind, ok_pure, ok_ev, and_true]
    simp only [loopS] at hg
    have hi := h i (mem_cons_self ..) s
    obtain ⟨h1, h2⟩ := hi.2 fun e he => hg e (mem_append_left _ he)
    refine ⟨h1, h2, ?_⟩
    rw [hi.1]
    exact ih (fun e he => hg e (mem_append_right _ he)) fun j hj => h j (mem_cons_of_mem _ hj)

theorem loopS_snd_congr {δ : Type} {l : List Nat} {f : Nat → σ → List γ × σ} {g : Nat → σ → List δ × σ} {s : σ}
    (h : ∀ i ∈ l, ∀ s, (f i s).2 = (g i s).2) : (loopS l f s).2 = (loopS l g s).2 := by
  induction l generalizing s with
  | nil => rfl
  | cons i l ih =>
    simp only [loopS]
    rw [h i (mem_cons_self ..) s]
    exact ih fun j hj => h j (mem_cons_of_mem _ hj)

end W

open W

/-! ### The values -/

theorem val_isLastW (i n : Nat) (pad : Bool) : (isLastW i n pad).val = (i == n - 1 && pad) := rfl

theorem val_coresW (rem per_core : Nat) : (coresW rem per_core).val = if per_core ≠ 0 then cdiv rem per_core else 0 := by
  unfold coresW; split <;> rfl

theorem val_dimsKMNW (M N K p m_r n_r m_c k_c n_c : Nat) :
    (dimsKMNW M N K p m_r n_r m_c k_c n_c).val = dimsKMN M N K p m_r n_r m_c k_c n_c := by
  simp only [dimsKMNW, val_bind, val_pure, val_ev, val_coresW]
  rfl

theorem val_packedASizeW (M K p m_r m_c : Nat) :
    packedASize M K p m_r m_c .KMN = some (packedASizeW M K p m_r m_c).val := rfl

theorem val_packedBSizeW (K N n_r n_c : Nat) : (packedBSizeW K N n_r n_c).val = packedBSize K N n_r n_c := rfl

theorem val_obAW (A A_p : Loc) (M K m1 m2 m_c k_c m_r : Nat) :
    (obAW A A_p M K m1 m2 m_c k_c m_r).val = pack_ob_A_single_buf A A_p M K m1 m2 m_c k_c m_r := by
  simp only [obAW, val_bind, val_pure, val_loop, val_sel]
  rfl

theorem val_stripW (x : BlkDims) (last : Bool) (core : Nat) : (stripW x last core).val =
    if last = true then (if core = x.p_l - 1 then x.m_c1_last_core else x.m_c1) else x.m_c := by
  unfold stripW; rw [val_sel]; rfl

theorem val_packAW (A A_p : Loc) (M K p m_r : Nat) (x : BlkDims) :
    (packAW A A_p M K p m_r x).val = pack_A_k_first A A_p M K p m_r x := by
  simp only [packAW, val_bind, val_pure, val_loop, val_sel, val_tasks, val_obAW, val_stripW]
  rfl

theorem val_packBW (B B_p : Loc) (K N n_r : Nat) (x : BlkDims) :
    (packBW B B_p K N n_r x).val = pack_B_k_first B B_p K N n_r x := by
  simp only [packBW, val_bind, val_pure, val_loop, val_sel, val_tasks]
  rfl

theorem val_regTilesW (kd : KDim) (t : Nat) (A B C : Loc) (a_ind b_ind m_r n_r m_c_t n_c_t k_c_t : Nat) :
    (regTilesW kd t A B C a_ind b_ind m_r n_r m_c_t n_c_t k_c_t).val =
      regTiles kd t (A +ₚ a_ind) (B +ₚ b_ind) C m_r n_r m_c_t n_c_t k_c_t := by
  simp only [regTilesW, val_bind, val_pure, val_each, val_ev, regTiles]
  refine flatMap_congr fun n_reg _ => flatMap_congr fun m_reg _ => ?_
  simp only [Loc.off, Nat.add_assoc, E.val_add, E.val_mul, E.val_lit]

theorem val_unpackObW (C C_p : Loc) (M N m1 n1 m2 m_c n_c m_r n_r : Nat) :
    (unpackObW C C_p M N m1 n1 m2 m_c n_c m_r n_r).val = unpack_ob_C_single_buf C C_p M N m1 n1 m2 m_c n_c m_r n_r := by
  simp only [unpackObW, val_bind, val_pure, val_loop, val_sel]
  unfold unpack_ob_C_single_buf
  congr 2
  funext n2 s
  congr 1
  funext m3 s
  congr 1
  funext i s
  congr 1
  funext j s
  congr 1
  by_cases h : n1 + n2 + j < N <;> by_cases h' : m1 + m2 + m3 + i < M <;> simp [h, h']

theorem val_scheduleW (kd : KDim) (A_p B_p C : Loc) (M N K p m_r n_r : Nat) (x : BlkDims) :
    (scheduleW kd A_p B_p C M N K p m_r n_r x).val = schedule_KMN kd A_p B_p C M N K p m_r n_r x := by
  simp only [scheduleW, val_bind, val_pure, val_each, val_eachSerp, val_sel, val_tasks, val_regTilesW,
    val_unpackObW, val_stripW]
  rfl

end Cake
