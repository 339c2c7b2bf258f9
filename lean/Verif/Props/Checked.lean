/-
C36 once more, for the K-first path written over 32-bit `int` (`Verif.Model.Checked`): there an index can only be used after
its expression has been evaluated and recorded, so no expression can be forgotten.
-/
import Verif.Proofs.CheckedPos
import Verif.Props.KFirst
import Verif.Props.IntRange

namespace Cake
open List

variable {α : Type} (F : Arith α) (nz : α → Bool) (cx : Cntx)
variable {M N K p m_c k_c n_c : Nat}

/-- **C36, the 32-bit program.** Whenever a call is defined over 32-bit `int`, it performs exactly the accesses of the model
with unbounded integers: no index is ever wrapped around. -/
theorem C36_run32_same (A B C : Loc) (packedA packedB : Bool) (alpha beta : α) {prog : Prog}
    (h : cake_sgemm32 cx A B C M N K p packedA packedB m_c k_c n_c = some prog) :
    cake_sgemm nz cx A B C M N K p packedA packedB alpha beta m_c k_c n_c .KMN = some prog := by
  rw [val_cake_sgemmW]
  unfold cake_sgemm32 W.run at h
  split at h
  · exact h
  · exact absurd h (by simp)

/-- **C36, the 32-bit program computes the product.** If the sizes of A, B and C padded to whole register tiles, `p*m_c` and
`m_c*n_c` are below `2^31`, the call over 32-bit `int` is defined and leaves the product in C. Missing from the full
statement: the conditions on `p*m_c`, `m_c*n_c` and `k_c`, of which `C36_run32_refuted` shows that they cannot be dropped. -/
theorem C36_run32_product_partial (h : TileOK p cx.m_r cx.n_r m_c k_c n_c) (hk : cx.kmap.Fits cx.m_r cx.n_r)
    {s : State α} (hs : CallOK s M N K) (hN : 0 < N) (hK : 0 < K)
    (hA : cdiv M cx.m_r * cx.m_r * K < 2 ^ 31) (hB : K * (cdiv N cx.n_r * cx.n_r) < 2 ^ 31)
    (hC : cdiv M cx.m_r * cx.m_r * (cdiv N cx.n_r * cx.n_r) < 2 ^ 31)
    (hkc : k_c < 2 ^ 31) (hpm : p * m_c < 2 ^ 31) (hmn : m_c * n_c < 2 ^ 31) :
    Computes F (cake_sgemm32 cx ⟨.A, 0⟩ ⟨.B, 0⟩ ⟨.C, 0⟩ M N K p false false m_c k_c n_c) s
      (fun s' => IsProduct F s s' M N K (fun _ _ => F.zero)) := by
  rw [run32_of_ok cx (ok_cake_sgemmW h (int32_of_sizes h hN hK hA hB hC hkc hpm hmn) cx _ _ _ _ _ rfl rfl),
    ← val_cake_sgemmW (fun _ => false) cx _ _ _ _ _ _ _ _ _ F.zero F.zero]
  exact C01_kfirst_product F (fun _ => false) cx h hk F.zero F.zero hs

example : Computes (exact Int) (cake_sgemm32 haswell ⟨.A, 0⟩ ⟨.B, 0⟩ ⟨.C, 0⟩ 43 37 11 3 false false 12 5 32) (demo 43 37 11)
    (fun s' => IsProduct (exact Int) (demo 43 37 11) s' 43 37 11 (fun _ _ => 0)) :=
  C36_run32_product_partial (exact Int) haswell demo_tile haswell_fits (demo_ok 43 37 11) (by decide) (by decide)
    (by decide) (by decide) (by decide) (by decide) (by decide) (by decide)

/-- **C36, exactly.** For a C whose padded size is below `2^31`, the call over 32-bit `int` is defined if and only if the padded
sizes of A and B, `p*m_c` and `m_c*n_c` are below `2^31`. -/
theorem C36_run32_defined_iff (h : TileOK p cx.m_r cx.n_r m_c k_c n_c) (A B C : Loc) (hN : 0 < N) (hK : 0 < K)
    (hkc : k_c < 2 ^ 31) (hC : cdiv M cx.m_r * cx.m_r * (cdiv N cx.n_r * cx.n_r) < 2 ^ 31) :
    (∃ prog, cake_sgemm32 cx A B C M N K p false false m_c k_c n_c = some prog) ↔
      cdiv M cx.m_r * cx.m_r * K < 2 ^ 31 ∧ K * (cdiv N cx.n_r * cx.n_r) < 2 ^ 31 ∧ p * m_c < 2 ^ 31 ∧
        m_c * n_c < 2 ^ 31 := by
  constructor
  · rintro ⟨prog, hp⟩
    have hok := ok_of_run32 cx h hp
    simp only [cake_sgemmW, W.ok_bind, W.ok_pure, W.ok_sel, W.ok_tasks, W.ok_ev, and_true, implies_true, true_and,
      val_dimsKMNW, packedASizeW, packedBSizeW] at hok
    obtain ⟨hd, ha, hb, hc, -⟩ := hok
    have a := (ha (by decide)).1.2.2.2.lt
    have b := (hb (by decide)).1.2.2.2.2.lt
    have c := (hc 0 (mem_range.2 h.p_pos)).1.lt
    have d := (ha (by decide)).1.1.2.1.lt
    rw [← padTo_eq h.m_r_pos h.S_dvd, ← padTo_eq h.n_r_pos h.n_dvd]
    have e1 : (mPaddedE M p cx.m_r m_c (cdiv (M % (p * m_c)) cx.m_r : Nat)).val = padTo M (p * m_c) cx.m_r := by
      simp only [mPaddedE, E.val_add, E.val_mul, E.val_div, E.val_lit, padTo]; ring
    have e2 : (nPaddedE N n_c (cdiv (N % n_c) cx.n_r * cx.n_r : Nat)).val = padTo N n_c cx.n_r := by
      simp only [nPaddedE, E.val_add, E.val_sub, E.val_mod, E.val_lit, padTo, sub_mod_eq]
    rw [← e1, ← e2]
    exact ⟨a, b, d, c⟩
  · rintro ⟨h1, h2, h3, h4⟩
    exact ⟨_, run32_of_ok cx (ok_cake_sgemmW h (int32_of_sizes h hN hK h1 h2 hC hkc h3 h4) cx _ _ _ _ _ rfl rfl)⟩

/-- **C36, what undefined means.** The 32-bit call is undefined only by an overflow or a division by zero: over 32-bit `int` every
other expression has the value that the model gives it. -/
theorem C36_run32_undefined_iff (h : TileOK p cx.m_r cx.n_r m_c k_c n_c) (A B C : Loc) (packedA packedB : Bool) :
    cake_sgemm32 cx A B C M N K p packedA packedB m_c k_c n_c = none ↔
      ∃ e ∈ (cake_sgemmW cx A B C M N K p packedA packedB m_c k_c n_c).ints, e.eval32 = none := by
  unfold cake_sgemm32 W.run
  constructor
  · intro hn
    split at hn
    · exact absurd hn (by simp)
    · rename_i hv
      by_contra hne
      refine hv fun e he => E.eval32_of_fits (E.fits_of_eval32 (pos_cake_sgemmW h cx A B C packedA packedB rfl rfl e he)
        fun h0 => hne ⟨e, he, h0⟩)
  · rintro ⟨e, he, h0⟩
    rw [if_neg]
    intro hv
    rw [hv e he] at h0
    exact absurd h0 (by simp)

/-- The premises are met, on both sides of the equivalence, by a 6 x 65536 C on the Haswell register tile. -/
example : TileOK 1 haswell.m_r haswell.n_r 96 96 96 ∧
    cdiv 6 haswell.m_r * haswell.m_r * (cdiv 65536 haswell.n_r * haswell.n_r) < 2 ^ 31 :=
  ⟨⟨by decide, by decide, by decide, by decide, by decide, by decide, by decide, by decide⟩, by decide⟩

/-- **C36, a large B.** A 32768 x 65536 B has `2^31` entries and the call has undefined behaviour, on any pointers. -/
theorem C36_run32_large (A B C : Loc) : cake_sgemm32 haswell A B C 6 65536 32768 1 false false 96 96 96 = none := by
  by_contra hne
  obtain ⟨prog, hp⟩ := Option.ne_none_iff_exists'.1 hne
  have := (C36_run32_defined_iff haswell (N := 65536) (K := 32768) (M := 6)
    ⟨by decide, by decide, by decide, by decide, by decide, by decide, by decide, by decide⟩ A B C (by decide) (by decide)
    (by decide) (by decide)).1 ⟨prog, hp⟩
  exact absurd this.2.1 (by decide)

/-- Both sides hold for the 32768 x 65536 B of `C36_run32_large`, neither for the small call of `C36_run32_product_partial`. -/
example : ∃ e ∈ (cake_sgemmW haswell ⟨.A, 0⟩ ⟨.B, 0⟩ ⟨.C, 0⟩ 6 65536 32768 1 false false 96 96 96).ints, e.eval32 = none :=
  (C36_run32_undefined_iff haswell ⟨by decide, by decide, by decide, by decide, by decide, by decide, by decide, by decide⟩
    _ _ _ _ _).1 (C36_run32_large _ _ _)

/-- **C36 as stated is false**: with tile sizes of 49152 x 65536 even a 1 x 1 product is undefined. -/
theorem C36_run32_refuted (A B C : Loc) : cake_sgemm32 haswell A B C 1 1 1 1 false false 49152 1 65536 = none := by
  by_contra hne
  obtain ⟨prog, hp⟩ := Option.ne_none_iff_exists'.1 hne
  have := (C36_run32_defined_iff haswell (N := 1) (K := 1) (M := 1)
    ⟨by decide, by decide, by decide, by decide, by decide, by decide, by decide, by decide⟩ A B C (by decide) (by decide)
    (by decide) (by decide)).1 ⟨prog, hp⟩
  exact absurd this.2.2.2 (by decide)

/-- **C36, operands packed beforehand.** Under the same size conditions the 32-bit call is also defined, and is the call of the
model, when A or B or both have been packed before. -/
theorem C36_run32_packed_partial (h : TileOK p cx.m_r cx.n_r m_c k_c n_c) (A B C : Loc) (packedA packedB : Bool)
    (alpha beta : α) (hN : 0 < N) (hK : 0 < K)
    (hA : cdiv M cx.m_r * cx.m_r * K < 2 ^ 31) (hB : K * (cdiv N cx.n_r * cx.n_r) < 2 ^ 31)
    (hC : cdiv M cx.m_r * cx.m_r * (cdiv N cx.n_r * cx.n_r) < 2 ^ 31)
    (hkc : k_c < 2 ^ 31) (hpm : p * m_c < 2 ^ 31) (hmn : m_c * n_c < 2 ^ 31) :
    cake_sgemm32 cx A B C M N K p packedA packedB m_c k_c n_c =
      cake_sgemm nz cx A B C M N K p packedA packedB alpha beta m_c k_c n_c .KMN := by
  rw [run32_of_ok cx (ok_cake_sgemmW h (int32_of_sizes h hN hK hA hB hC hkc hpm hmn) cx _ _ _ _ _ rfl rfl), ← val_cake_sgemmW]

example := C36_run32_packed_partial (α := Int) (M := 43) (N := 37) (K := 11) (· != 0) haswell demo_tile ⟨.A, 0⟩ ⟨.B, 0⟩
  ⟨.C, 0⟩ true false 1 0 (by decide) (by decide) (by decide) (by decide) (by decide) (by decide) (by decide) (by decide)

/-- A defined call exists, so the premise of `C36_run32_same` can be met. -/
example : ∃ prog, cake_sgemm32 haswell ⟨.A, 0⟩ ⟨.B, 0⟩ ⟨.C, 0⟩ 43 37 11 3 false false 12 5 32 = some prog :=
  (C36_run32_defined_iff haswell (N := 37) (K := 11) (M := 43) demo_tile _ _ _ (by decide) (by decide) (by decide)
    (by decide)).2 (by decide)

end Cake
