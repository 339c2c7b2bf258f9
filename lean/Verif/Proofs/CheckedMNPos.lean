/-
No expression of the M-first and N-first paths has another value over 32-bit `int` than in the model: no difference is negative,
except for `p_l - 1` in a call whose K has no remainder, where the product with `k_c1 = 0` is 0.
-/
import Verif.Proofs.CheckedMNRun

namespace Cake
open List
open W

namespace W
variable {α β : Type}

/-- Everything recorded is undefined over 32-bit `int` or has the value of the model. -/
def Sound (w : W α) : Prop := ∀ e ∈ w.ints, e.eval32 ≠ none → e.eval32 = some (e.val : Int)

theorem sound_pure (a : α) : Sound (pure a : W α) := fun _ h => absurd h (by simp [Pure.pure])
theorem sound_bind (w : W α) (f : α → W β) : Sound (w >>= f) ↔ Sound w ∧ Sound (f w.val) :=
  ⟨fun h => ⟨fun e he => h e (mem_append_left _ he), fun e he => h e (mem_append_right _ he)⟩,
    fun h e he => (mem_append.1 he).elim (h.1 e) (h.2 e)⟩
theorem sound_sel (c : Prop) [Decidable c] (a b : W α) : Sound (sel c a b) ↔ (c → Sound a) ∧ (¬ c → Sound b) := by
  unfold sel; split <;> simp [*]
theorem sound_of_pos {w : W α} (h : Pos w) : Sound w :=
  fun e he hn => E.eval32_of_fits (E.fits_of_eval32 (h e he) hn)
theorem sound_ev (e : E) : Sound (ev e) ↔ (e.eval32 ≠ none → e.eval32 = some (e.val : Int)) :=
  ⟨fun h => h e (mem_singleton.2 rfl), fun h x hx => by rw [mem_singleton.1 hx]; exact h⟩

theorem run_none {w : W α} (h : Sound w) : w.run = none ↔ ∃ e ∈ w.ints, e.eval32 = none := by
  unfold W.run
  constructor
  · intro hn
    split at hn
    · exact absurd hn (by simp)
    · rename_i hv
      by_contra hne
      exact hv fun e he => h e he fun h0 => hne ⟨e, he, h0⟩
  · rintro ⟨e, he, h0⟩
    rw [if_neg]
    intro hv
    rw [hv e he] at h0
    exact absurd h0 (by simp)

end W

/-- Closes goals about expressions without differences. -/
macro "plain'" : tactic => `(tactic| simp only [W.pos_bind, W.pos_ev, W.pos_pure, W.pos_sel, E.pos_add, E.pos_mul, E.pos_div,
  E.pos_mod, E.pos_lit, E.pos_one, and_true, implies_true])

section
variable {x : BlkDims}

theorem pos_rem (a : Nat) {b : E} (hb : b.Pos) : ((a : E) - (a : E) % b).Pos := ⟨trivial, ⟨trivial, hb⟩, Nat.mod_le _ _⟩

theorem pos_kBlkW {p k : Nat} (hk : 0 < x.Kb) : W.Pos (kBlkW x p k) := by
  simp only [kBlkW, W.pos_bind, W.pos_sel, W.pos_ev, W.pos_pure, and_true, implies_true, true_and]
  exact ⟨pos_isLastW hk, fun _ => by simp⟩

theorem pos_colBlkW {N n : Nat} (hn : 0 < x.Nb) : W.Pos (colBlkW x N n) := by
  simp only [colBlkW, W.pos_bind, W.pos_sel, W.pos_ev, W.pos_pure, and_true]
  exact ⟨pos_isLastW hn, fun _ => pos_rem _ trivial, fun _ => by simp⟩

theorem pos_rowBlkMW {M m : Nat} (hm : 0 < x.Mb) : W.Pos (rowBlkMW x M m) := by
  simp only [rowBlkMW, W.pos_bind, W.pos_sel, W.pos_ev, W.pos_pure, and_true]
  exact ⟨pos_isLastW hm, fun _ => pos_rem _ trivial, fun _ => by simp⟩

theorem pos_rowBlkNW {M p m : Nat} (hm : 0 < x.Mb) : W.Pos (rowBlkNW x M p m) := by
  simp only [rowBlkNW, W.pos_bind, W.pos_sel, W.pos_ev, W.pos_pure, and_true, implies_true, true_and]
  exact ⟨pos_isLastW hm, fun _ => by simp, fun _ => pos_rem _ (by simp), fun _ => by simp⟩

theorem pos_mctMW {m : Nat} (hm : 0 < x.Mb) : W.Pos (mctMW x m) := by
  simp only [mctMW, W.pos_bind, W.pos_pure, and_true]
  exact pos_isLastW hm

theorem pos_mctNW {p m : Nat} (hm : 0 < x.Mb) : W.Pos (mctNW x p m) := by
  simp only [mctNW, W.pos_bind, W.pos_ev, W.pos_pure, and_true]
  exact ⟨by simp, pos_isLastW hm⟩

variable (hpl : x.k_pad = true → 0 < x.p_l)
include hpl

theorem pos_stripKW {b : Bool} (hb : b = true → x.k_pad = true) (core : Nat) : W.Pos (stripKW x b core) := by
  simp only [stripKW, W.pos_sel, W.pos_bind, W.pos_ev, W.pos_pure, and_true, implies_true]
  exact fun h => ⟨trivial, trivial, hpl (hb h)⟩

theorem pos_padKW {b : Bool} (hb : b = true → x.k_pad = true) (core : Nat) : W.Pos (padKW x b core) := by
  simp only [padKW, W.pos_sel, W.pos_bind, W.pos_ev, W.pos_pure, and_true, implies_true]
  exact fun h => ⟨trivial, trivial, hpl (hb h)⟩

theorem pos_packATaskW (A A_p : Loc) {row : E} (hr : row.Pos) (M K m_r : Nat) {k : Nat} (hk : 0 < x.Kb)
    (A_offset A_p_offset m_c_t core : Nat) : W.Pos (packATaskW A A_p row M K m_r x k A_offset A_p_offset m_c_t core) := by
  simp only [packATaskW, W.pos_bind, W.pos_ev]
  exact ⟨pos_isLastW hk, pos_stripKW hpl lastPad core, pos_padKW hpl lastPad core, by simp, by simp, hr,
    pos_obAW _ _ _ _ _ _ _ _ _⟩

theorem pos_packAMW (A A_p : Loc) (M K p m_r : Nat) : W.Pos (packAMW A A_p M K p m_r x) := by
  simp only [packAMW, W.pos_bind, W.pos_pure, and_true]
  refine W.pos_loop fun k hk s => ?_
  have hk0 : 0 < x.Kb := by rw [mem_range] at hk; omega
  simp only [W.pos_bind]
  refine ⟨pos_kBlkW hk0, W.pos_loop fun m hm s => ?_⟩
  have hm0 : 0 < x.Mb := by rw [mem_range] at hm; omega
  simp only [W.pos_bind, W.pos_ev, W.pos_pure, and_true]
  exact ⟨pos_mctMW hm0, by simp, W.pos_tasks fun _ _ => pos_packATaskW hpl _ _ (by simp) _ _ _ hk0 _ _ _ _, by simp⟩

theorem pos_packANW (A A_p : Loc) (M K p m_r : Nat) : W.Pos (packANW A A_p M K p m_r x) := by
  simp only [packANW, W.pos_bind, W.pos_pure, and_true]
  refine W.pos_loop fun m hm s => ?_
  have hm0 : 0 < x.Mb := by rw [mem_range] at hm; omega
  simp only [W.pos_bind]
  refine ⟨pos_mctNW hm0, W.pos_loop fun k hk s => ?_⟩
  have hk0 : 0 < x.Kb := by rw [mem_range] at hk; omega
  simp only [W.pos_bind, W.pos_ev, W.pos_pure, and_true]
  exact ⟨pos_kBlkW hk0, by simp, W.pos_tasks fun _ _ => pos_packATaskW hpl _ _ (by simp) _ _ _ hk0 _ _ _ _, by simp⟩

omit hpl in
theorem pos_obBW (B B_p : Loc) (N n1 k_c n_c n_r : Nat) (pad : Bool) : W.Pos (obBW B B_p N n1 k_c n_c n_r pad) := by
  simp only [obBW, W.pos_bind, W.pos_pure, and_true, W.pos_sel]
  refine ⟨fun _ => ?_, fun _ => ?_⟩
  · refine W.pos_loop fun _ _ _ => W.pos_loop fun _ _ _ => W.pos_loop fun _ _ _ => ?_
    plain'
  · refine W.pos_loop fun _ _ _ => W.pos_loop fun _ _ _ => W.pos_loop fun _ _ _ => ?_
    plain'

theorem pos_packBBlkW (B B_p : Loc) (N p n_r : Nat) (c b : Bool × Nat × Nat) (n : Nat) {k : Nat} (hk : 0 < x.Kb) (off : Nat) :
    W.Pos (packBBlkW B B_p N p n_r x c b n k off) := by
  simp only [packBBlkW, W.pos_bind, W.pos_ev, W.pos_pure, and_true]
  refine ⟨by simp, W.pos_tasks fun core _ => ?_, by simp⟩
  simp only [W.pos_bind, W.pos_ev]
  exact ⟨pos_isLastW hk, pos_stripKW hpl lastPad core, pos_padKW hpl lastPad core, by simp, by simp, pos_obBW _ _ _ _ _ _ _ _⟩

theorem pos_packBMW (B B_p : Loc) (N p n_r : Nat) : W.Pos (packBMW B B_p N p n_r x) := by
  simp only [packBMW, W.pos_bind, W.pos_pure, and_true]
  refine W.pos_loop fun n hn s => ?_
  simp only [W.pos_bind]
  refine ⟨pos_colBlkW (by rw [mem_range] at hn; omega), W.pos_loop fun k hk s => ?_⟩
  have hk0 : 0 < x.Kb := by rw [mem_range] at hk; omega
  rw [W.pos_bind]
  exact ⟨pos_kBlkW hk0, pos_packBBlkW hpl _ _ _ _ _ _ _ _ hk0 _⟩

theorem pos_packBNW (B B_p : Loc) (N p n_r : Nat) : W.Pos (packBNW B B_p N p n_r x) := by
  simp only [packBNW, W.pos_bind, W.pos_pure, and_true]
  refine W.pos_loop fun k hk s => ?_
  have hk0 : 0 < x.Kb := by rw [mem_range] at hk; omega
  simp only [W.pos_bind]
  refine ⟨pos_kBlkW hk0, W.pos_loop fun n hn s => ?_⟩
  rw [W.pos_bind]
  exact ⟨pos_colBlkW (by rw [mem_range] at hn; omega), pos_packBBlkW hpl _ _ _ _ _ _ _ _ hk0 _⟩

omit hpl in
theorem pos_obCW (C C_p : Loc) (M N m1 n1 m2 m_c n_c m_r n_r : Nat) (pm pn : Bool) :
    W.Pos (obCW C C_p M N m1 n1 m2 m_c n_c m_r n_r pm pn) := by
  simp only [obCW, W.pos_bind, W.pos_pure, and_true, W.pos_sel]
  refine ⟨fun _ => ?_, fun _ => ?_⟩
  · refine W.pos_loop fun _ _ _ => W.pos_loop fun _ _ _ => W.pos_loop fun _ _ _ => W.pos_loop fun _ _ _ => ?_
    plain'
  · refine W.pos_loop fun _ _ _ => W.pos_loop fun _ _ _ => W.pos_loop fun _ _ _ => W.pos_loop fun _ _ _ => ?_
    plain'

omit hpl in
theorem pos_blocksCMW (pack : Bool) (C C_p : Loc) (M N m_r n_r : Nat) : W.Pos (blocksCMW pack C C_p M N m_r n_r x) := by
  refine W.pos_tasks fun n hn => ?_
  simp only [W.pos_bind, W.pos_ev]
  refine ⟨pos_colBlkW (by rw [mem_range] at hn; omega), by simp, W.pos_tasks fun m hm => ?_⟩
  simp only [W.pos_bind, W.pos_ev, W.pos_sel]
  exact ⟨pos_rowBlkMW (by rw [mem_range] at hm; omega), by simp, by simp, fun _ => pos_obCW _ _ _ _ _ _ _ _ _ _ _ _ _,
    fun _ => pos_unpackObW _ _ _ _ _ _ _ _ _ _ _⟩

omit hpl in
theorem pos_blocksCNW (pack : Bool) (C C_p : Loc) (M N p m_r n_r : Nat) : W.Pos (blocksCNW pack C C_p M N p m_r n_r x) := by
  refine W.pos_tasks fun m hm => ?_
  simp only [W.pos_bind, W.pos_ev]
  refine ⟨pos_rowBlkNW (by rw [mem_range] at hm; omega), by simp, W.pos_tasks fun n hn => ?_⟩
  simp only [W.pos_bind, W.pos_ev, W.pos_sel]
  exact ⟨pos_colBlkW (by rw [mem_range] at hn; omega), by simp, fun _ => ⟨by simp, pos_obCW _ _ _ _ _ _ _ _ _ _ _ _ _⟩,
    fun _ => ⟨by simp, pos_unpackObW _ _ _ _ _ _ _ _ _ _ _⟩⟩

omit hpl in
theorem pos_regTilesCW (kd : KDim) (t : Nat) (A B C : Loc) (a b c m_r n_r m_c_t n_c_t k_c_t : Nat) :
    W.Pos (regTilesCW kd t A B C a b c m_r n_r m_c_t n_c_t k_c_t) := by
  simp only [regTilesCW, W.pos_bind, W.pos_ev]
  refine ⟨by simp, W.pos_each fun _ _ => ?_⟩
  simp only [W.pos_bind, W.pos_ev]
  refine ⟨by simp, W.pos_each fun _ _ => ?_⟩
  plain'

theorem pos_coreW (kd : KDim) (t : Nat) (A_p B_p C_p : Loc) (m_r n_r : Nat) {k : Nat} (hk : 0 < x.Kb) (m_c_t n_c_t core : Nat)
    {a b : Nat → E} {c : E} (ha : ∀ i, (a i).Pos) (hb : ∀ i, (b i).Pos) (hc : c.Pos) :
    W.Pos (coreW kd t A_p B_p C_p m_r n_r x k m_c_t n_c_t core a b c) := by
  simp only [coreW, W.pos_bind, W.pos_ev]
  exact ⟨pos_isLastW hk, pos_stripKW hpl lastPad core, ha _, hb _, hc, pos_regTilesCW _ _ _ _ _ _ _ _ _ _ _ _ _⟩

omit hpl in
theorem pos_serpIdxW {desc : Bool} {n i : Nat} (hi : i < n) : W.Pos (serpIdxW desc n i) := by
  simp only [serpIdxW, W.pos_sel, W.pos_ev, W.pos_pure, implies_true, and_true]
  exact fun _ => ⟨⟨trivial, trivial, show 1 ≤ n by omega⟩, trivial, show i ≤ n - 1 by omega⟩

theorem pos_scheduleMW (kd : KDim) (A_p B_p C_p : Loc) (K p m_r n_r : Nat) : W.Pos (scheduleMW kd A_p B_p C_p K p m_r n_r x) := by
  refine W.pos_each fun n hn => ?_
  simp only [W.pos_bind, W.pos_ev]
  refine ⟨by simp, pos_isLastW (by rw [mem_range] at hn; omega), W.pos_eachSerp fun k hk => ?_⟩
  have hk0 : 0 < x.Kb := by omega
  simp only [W.pos_bind, W.pos_ev, W.pos_pure, and_true]
  refine ⟨by simp, pos_kBlkW hk0, W.pos_tasks fun m hm => ?_⟩
  rw [mem_range] at hm
  simp only [W.pos_bind]
  exact ⟨pos_serpIdxW hm, pos_mctMW (by omega), W.pos_each fun core _ => pos_coreW hpl _ _ _ _ _ _ _ hk0 _ _ _
    (fun _ => by simp [aIndME]) (fun _ => by simp [bIndME]) (by simp [cIndME])⟩

theorem pos_scheduleNW (kd : KDim) (A_p B_p C_p : Loc) (K p m_r n_r : Nat) : W.Pos (scheduleNW kd A_p B_p C_p K p m_r n_r x) := by
  refine W.pos_each fun m hm => ?_
  simp only [W.pos_bind, W.pos_ev]
  refine ⟨by simp, pos_mctNW (by rw [mem_range] at hm; omega), W.pos_eachSerp fun k hk => ?_⟩
  have hk0 : 0 < x.Kb := by omega
  simp only [W.pos_bind, W.pos_ev, W.pos_pure, and_true]
  refine ⟨by simp, pos_kBlkW hk0, W.pos_tasks fun n hn => ?_⟩
  rw [mem_range] at hn
  simp only [W.pos_bind]
  exact ⟨pos_serpIdxW hn, pos_isLastW (by omega), W.pos_each fun core _ => pos_coreW hpl _ _ _ _ _ _ _ hk0 _ _ _
    (fun _ => by simp [aIndNE]) (fun _ => by simp [bIndNE]) (by simp [cIndNE])⟩

end

section
variable {M N K p m_r n_r m_c k_c n_c : Nat}

theorem pl_pos (hp : 0 < p) (hk : K % (p * k_c) ≠ 0) : 0 < (if cdiv (K % (p * k_c)) p ≠ 0 then
    cdiv (K % (p * k_c)) (cdiv (K % (p * k_c)) p) else 0) := by
  have h1 : 0 < cdiv (K % (p * k_c)) p := cdiv_pos (by omega) hp
  rw [if_pos (by omega)]
  exact cdiv_pos (by omega) h1

theorem lastCore_sound {a : Nat} (hp : 0 < p) : ∀ {b c : Nat}, b = cdiv a p → c = (if b ≠ 0 then cdiv a b else 0) →
    ((a : E) - (b : E) * ((c : E) - 1)).eval32 ≠ none →
    ((a : E) - (b : E) * ((c : E) - 1)).eval32 = some (((a : E) - (b : E) * ((c : E) - 1)).val : Int) := by
  intro b c hb hc hn
  by_cases ha : a = 0
  · subst ha
    have hb0 : b = 0 := by rw [hb]; simp [cdiv, Nat.div_eq_of_lt (Nat.sub_lt hp Nat.one_pos)]
    subst hb0
    rw [if_neg (by simp)] at hc
    subst hc
    decide
  · have h1 : 0 < cdiv a p := cdiv_pos (by omega) hp
    rw [← hb] at h1
    rw [if_pos (by omega)] at hc
    have h2 := cdiv_pos (Nat.pos_of_ne_zero ha) h1
    have a2 := cdiv_mul_lt a _ h1
    have hle : b * (c - 1) ≤ a := by
      rw [hc, Nat.mul_sub_one, Nat.mul_comm]
      omega
    refine E.eval32_of_fits (E.fits_of_eval32 ⟨trivial, ⟨trivial, trivial, trivial, ?_⟩, hle⟩ hn)
    show 1 ≤ c
    omega

theorem sound_dimsMKNW (hp : 0 < p) : Sound (dimsMKNW M N K p m_r n_r m_c k_c n_c) := by
  have f : ∀ {e : E}, e.Pos → Sound (ev e) := fun h => sound_of_pos ((W.pos_ev _).2 h)
  have hc : ∀ a b, Sound (coresW a b) := fun a b => by
    unfold coresW; split
    · exact f trivial
    · exact sound_pure _
  simp only [dimsMKNW, sound_bind, sound_pure, and_true, val_coresW]
  exact ⟨f (by simp), f (by simp), f (by simp), f (by simp), f (by simp), hc _ _, f (by simp), f (by simp), f (by simp),
    (sound_ev _).2 (lastCore_sound hp rfl rfl), f (by simp), f (by simp), f (by simp), f (by simp), f (by simp), f (by simp),
    f (by simp [mPaddedME]), f ⟨pos_rem _ trivial, trivial⟩⟩

theorem sound_dimsNKMW (hp : 0 < p) : Sound (dimsNKMW M N K p m_r n_r m_c k_c n_c) := by
  have f : ∀ {e : E}, e.Pos → Sound (ev e) := fun h => sound_of_pos ((W.pos_ev _).2 h)
  have hc : ∀ a b, Sound (coresW a b) := fun a b => by
    unfold coresW; split
    · exact f trivial
    · exact sound_pure _
  simp only [dimsNKMW, sound_bind, sound_pure, and_true, val_coresW]
  exact ⟨f (by simp), f (by simp), f (by simp), f (by simp), f (by simp), hc _ _, f (by simp), f (by simp), f (by simp),
    (sound_ev _).2 (lastCore_sound hp rfl rfl), f (by simp), f (by simp), f (by simp), f (by simp), f (by simp), f (by simp),
    f (by simp [mPaddedNE]), f ⟨pos_rem _ trivial, trivial⟩⟩

theorem pos_nPaddedW : W.Pos (nPaddedW N n_r n_c) := by
  simp only [nPaddedW, W.pos_bind, W.pos_ev]
  exact ⟨by simp, by simp, by simp, pos_rem _ trivial, trivial⟩

theorem pos_packedBSizeW : W.Pos (packedBSizeW K N n_r n_c) := by
  simp only [packedBSizeW, W.pos_bind, W.pos_ev]
  exact ⟨by simp, by simp, by simp, ⟨pos_rem _ trivial, trivial⟩, by simp⟩

theorem sound_cake_sgemmMW (hp : 0 < p) (cx : Cntx) (A B C : Loc) (packedA packedB accum : Bool) :
    Sound (cake_sgemmMW cx A B C M N K p packedA packedB accum m_c k_c n_c) := by
  have hpl : (dimsMKN M N K p cx.m_r cx.n_r m_c k_c n_c).k_pad = true → 0 < (dimsMKN M N K p cx.m_r cx.n_r m_c k_c n_c).p_l :=
    fun h => pl_pos hp (by simpa [dimsMKN] using h)
  have hmp : W.Pos (mPaddedMW M cx.m_r m_c) := by simp [mPaddedMW, mPaddedME]
  simp only [cake_sgemmMW, sound_bind, sound_pure, sound_sel, and_true, implies_true, true_and, val_dimsMKNW]
  refine ⟨sound_dimsMKNW hp, fun _ => ⟨sound_of_pos ?_, sound_of_pos (pos_packAMW hpl _ _ _ _ _ _)⟩,
    fun _ => ⟨sound_of_pos pos_packedBSizeW, sound_of_pos (pos_packBMW hpl _ _ _ _ _)⟩, sound_of_pos ?_,
    fun _ => sound_of_pos (pos_blocksCMW _ _ _ _ _ _ _), sound_of_pos (pos_scheduleMW hpl _ _ _ _ _ _ _ _),
    sound_of_pos (pos_blocksCMW _ _ _ _ _ _ _)⟩
  · simp only [sizeAW, W.pos_bind, W.pos_ev]
    exact ⟨hmp, by simp⟩
  · simp only [sizeCW, W.pos_bind, W.pos_ev]
    exact ⟨hmp, pos_nPaddedW, by simp⟩

theorem sound_cake_sgemmNW (hp : 0 < p) (cx : Cntx) (A B C : Loc) (packedA packedB accum : Bool) :
    Sound (cake_sgemmNW cx A B C M N K p packedA packedB accum m_c k_c n_c) := by
  have hpl : (dimsNKM M N K p cx.m_r cx.n_r m_c k_c n_c).k_pad = true → 0 < (dimsNKM M N K p cx.m_r cx.n_r m_c k_c n_c).p_l :=
    fun h => pl_pos hp (by simpa [dimsNKM] using h)
  have hmp : W.Pos (mPaddedNW M p cx.m_r m_c) := by simp [mPaddedNW, mPaddedE]
  simp only [cake_sgemmNW, sound_bind, sound_pure, sound_sel, and_true, implies_true, true_and, val_dimsNKMW]
  refine ⟨sound_dimsNKMW hp, fun _ => ⟨sound_of_pos ?_, sound_of_pos (pos_packANW hpl _ _ _ _ _ _)⟩,
    fun _ => ⟨sound_of_pos pos_packedBSizeW, sound_of_pos (pos_packBNW hpl _ _ _ _ _)⟩, sound_of_pos ?_,
    fun _ => sound_of_pos (pos_blocksCNW _ _ _ _ _ _ _ _), sound_of_pos (pos_scheduleNW hpl _ _ _ _ _ _ _ _),
    sound_of_pos (pos_blocksCNW _ _ _ _ _ _ _ _)⟩
  · simp only [sizeAW, W.pos_bind, W.pos_ev]
    exact ⟨hmp, by simp⟩
  · simp only [sizeCW, W.pos_bind, W.pos_ev]
    exact ⟨hmp, pos_nPaddedW, by simp⟩

/-- The offset of a block of C when the N-first path packs C. -/
theorem ints_blocksCNW {C C_p : Loc} {x : BlkDims} {m n : Nat} (hm : m < x.Mb) (hn : n < x.Nb) :
    ((((x.N_padded : E) * m * p * x.m_c).val : E) + (n : E) * p * x.m_c * (colBlkW x N n).val.2.1) ∈
      (blocksCNW true C C_p M N p m_r n_r x).ints := by
  have hin : ∀ {β γ : Type} (w : W β) (f : β → W γ) (e : E), e ∈ (f w.val).ints → e ∈ (w >>= f).ints :=
    fun w f e he => mem_append_right _ he
  have hin' : ∀ {β γ : Type} (w : W β) (f : β → W γ) (e : E), e ∈ w.ints → e ∈ (w >>= f).ints :=
    fun w f e he => mem_append_left _ he
  have ht : ∀ {γ : Type} (l : List Nat) (body : Nat → W γ) (i : Nat) (e : E), i ∈ l → e ∈ (body i).ints →
      e ∈ (tasks 1 l body).ints := by
    intro γ l body i e hi he
    induction l with
    | nil => exact absurd hi (by simp)
    | cons j l ih =>
      rcases mem_cons.1 hi with rfl | hi
      · exact hin' _ _ _ he
      · exact hin _ _ _ (hin _ _ _ (hin' _ _ _ (ih hi)))
  refine ht _ _ m _ (mem_range.2 hm) (hin _ _ _ (hin _ _ _ (ht _ _ n _ (mem_range.2 hn) (hin _ _ _ (hin _ _ _ ?_)))))
  rw [sel, if_pos rfl]
  exact hin' _ _ _ (mem_singleton.2 rfl)

end

end Cake
