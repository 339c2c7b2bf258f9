/-
C55 once more, for the M-first and N-first paths written over 32-bit `int` (`Verif.Model.CheckedMN`): there an index can only be
used after its expression has been evaluated and recorded, so no expression can be forgotten.
-/
import Verif.Proofs.CheckedMNPos
import Verif.Props.Checked
import Verif.Props.MFirst
import Verif.Props.NFirst
import Verif.Props.IntRangeMN

namespace Cake
open List

variable {α : Type} (F : Arith α) (nz : α → Bool) (cx : Cntx)
variable {M N K p m_c k_c n_c : Nat}

/-- **C55, the 32-bit program.** Whatever the schedule, whenever a call is defined over 32-bit `int`, it performs exactly the
accesses of the model with unbounded integers: no index is ever wrapped around. -/
theorem C55_run32_same (sch : Sched) (A B C : Loc) (packedA packedB : Bool) (alpha beta : α) {prog : Prog}
    (h : cake_sgemm32S cx A B C M N K p packedA packedB (nz beta) m_c k_c n_c sch = some prog) :
    cake_sgemm nz cx A B C M N K p packedA packedB alpha beta m_c k_c n_c sch = some prog := by
  cases sch with
  | KMN => exact C36_run32_same nz cx A B C packedA packedB alpha beta h
  | MKN => rw [val_cake_sgemmMW, (W.run_some.1 h).2]
  | NKM => rw [val_cake_sgemmNW, (W.run_some.1 h).2]
  | NA => exact absurd h (by simp [cake_sgemm32S])

/-- **C55, what undefined means.** A 32-bit call with one of the three schedules is undefined only by an overflow or a division
by zero: every other `int` expression has the value that the model gives it. -/
theorem C55_run32_undefined_iff (hp : 0 < p) (A B C : Loc) (packedA packedB accum : Bool) :
    (cake_sgemm32S cx A B C M N K p packedA packedB accum m_c k_c n_c .MKN = none ↔
      ∃ e ∈ (cake_sgemmMW cx A B C M N K p packedA packedB accum m_c k_c n_c).ints, e.eval32 = none) ∧
    (cake_sgemm32S cx A B C M N K p packedA packedB accum m_c k_c n_c .NKM = none ↔
      ∃ e ∈ (cake_sgemmNW cx A B C M N K p packedA packedB accum m_c k_c n_c).ints, e.eval32 = none) :=
  ⟨W.run_none (sound_cake_sgemmMW hp cx A B C packedA packedB accum),
    W.run_none (sound_cake_sgemmNW hp cx A B C packedA packedB accum)⟩

/-- A product that is defined fits. -/
theorem lt_of_eval32_mul {a b : Nat} {v : Int} (h : ((a : E) * (b : E)).eval32 = some v) : a * b < 2 ^ 31 :=
  (E.fits_of_eval32 (e := (a : E) * (b : E)) ⟨trivial, trivial⟩ (by rw [h]; simp)).2.2

theorem lt_of_eval32 {e : E} {v : Int} (h : e.eval32 = some v) (hp : e.Pos) : e.val < 2 ^ 31 :=
  (E.fits_of_eval32 hp (by rw [h]; simp)).lt

theorem lt_of_eval32_mod {a b c : Nat} {v : Int} (h : ((a : E) % ((b : E) * (c : E))).eval32 = some v) : b * c < 2 ^ 31 :=
  (E.fits_of_eval32 (e := (a : E) % ((b : E) * (c : E))) ⟨trivial, trivial, trivial⟩ (by rw [h]; simp)).2.1.2.2

/-- **C55, M-first, exactly.** With or without accumulation the 32-bit M-first call is defined if and only if the padded sizes of
A, B and C and the depth `p*k_c` of a K block are below `2^31`. -/
theorem C55_run32_m_defined_iff (h : TileOK p cx.m_r cx.n_r m_c k_c n_c) (A B C : Loc) (accum : Bool) (hN : 0 < N) (hK : 0 < K)
    (hm : m_c < 2 ^ 31) (hn : n_c < 2 ^ 31) :
    (∃ prog, cake_sgemm32S cx A B C M N K p false false accum m_c k_c n_c .MKN = some prog) ↔
      cdiv M cx.m_r * cx.m_r * K < 2 ^ 31 ∧ K * (cdiv N cx.n_r * cx.n_r) < 2 ^ 31 ∧
        cdiv M cx.m_r * cx.m_r * (cdiv N cx.n_r * cx.n_r) < 2 ^ 31 ∧ p * k_c < 2 ^ 31 := by
  rw [← padTo_eq h.m_r_pos h.m_dvd, ← padTo_eq h.n_r_pos h.n_dvd]
  constructor
  · rintro ⟨prog, hp⟩
    have hr := (W.run_some.1 hp).1
    simp only [cake_sgemmMW, W.run_bind, W.run_sel, W.run_ev, val_dimsMKNW, sizeAW, sizeCW, packedBSizeW] at hr
    obtain ⟨hd, ha, hb, hc, -⟩ := hr
    have e2 : (nPaddedE N n_c (cdiv (N % n_c) cx.n_r * cx.n_r : Nat)).val = padTo N n_c cx.n_r := by
      simp only [nPaddedE, E.val_add, E.val_sub, E.val_mod, E.val_lit, padTo, sub_mod_eq]
    have s1 := lt_of_eval32_mul (ha.2 (by decide)).1.2
    have s2 := lt_of_eval32_mul (hb.2 (by decide)).1.2.2.2.2
    have s3 := lt_of_eval32_mul hc.2.2
    simp only [dimsMKNW, W.run_bind, W.run_ev] at hd
    refine ⟨s1, ?_, ?_, lt_of_eval32_mod hd.1⟩
    · rw [← e2]; exact s2
    · rw [← e2]; exact s3
  · rintro ⟨hA, hB, hC, hpk⟩
    have h2 := padTo_ge N n_c cx.n_r h.n_r_pos
    exact ⟨_, W.run_eq (run_cake_sgemmMW h ⟨hA, hB, hC, Nat.lt_of_le_of_lt (Nat.le_mul_of_pos_right _ hK) hA,
      Nat.lt_of_le_of_lt (Nat.le_mul_of_pos_left _ hK) hB,
      Nat.lt_of_le_of_lt (Nat.le_mul_of_pos_right _ (by omega)) hB, hpk, hm, hn⟩ cx A B C false false accum rfl rfl)⟩

/-- Both the defined and the undefined case occur. -/
example : (∃ prog, cake_sgemm32S haswell ⟨.A, 0⟩ ⟨.B, 0⟩ ⟨.C, 0⟩ 43 37 11 3 false false true 12 5 32 .MKN = some prog) ∧
    ¬ ∃ prog, cake_sgemm32S haswell ⟨.A, 0⟩ ⟨.B, 0⟩ ⟨.C, 0⟩ 6 65536 32768 1 false false true 96 96 96 .MKN = some prog :=
  ⟨(C55_run32_m_defined_iff haswell demo_tile _ _ _ true (by decide) (by decide) (by decide) (by decide)).2 (by decide),
    fun h => absurd ((C55_run32_m_defined_iff haswell
      ⟨by decide, by decide, by decide, by decide, by decide, by decide, by decide, by decide⟩ _ _ _ true (by decide) (by decide)
      (by decide) (by decide)).1 h) (by decide)⟩

/-- What the N-first call needs in any case. -/
theorem nfirst_run_need {A B C : Loc} {accum : Bool}
    (hr : W.Run (cake_sgemmNW cx A B C M N K p false false accum m_c k_c n_c)) :
    padTo M (p * m_c) cx.m_r * K < 2 ^ 31 ∧ K * padTo N n_c cx.n_r < 2 ^ 31 ∧
      padTo M (p * m_c) cx.m_r * padTo N n_c cx.n_r < 2 ^ 31 ∧ p * k_c < 2 ^ 31 ∧ p * m_c < 2 ^ 31 := by
  simp only [cake_sgemmNW, W.run_bind, W.run_sel, W.run_ev, val_dimsNKMW, sizeAW, sizeCW, packedBSizeW] at hr
  obtain ⟨hd, ha, hb, hc, -⟩ := hr
  have e1 : (mPaddedE M p cx.m_r m_c (cdiv (M % (p * m_c)) cx.m_r : Nat)).val = padTo M (p * m_c) cx.m_r := by
    simp only [mPaddedE, E.val_add, E.val_mul, E.val_div, E.val_lit, padTo]; ring
  have e2 : (nPaddedE N n_c (cdiv (N % n_c) cx.n_r * cx.n_r : Nat)).val = padTo N n_c cx.n_r := by
    simp only [nPaddedE, E.val_add, E.val_sub, E.val_mod, E.val_lit, padTo, sub_mod_eq]
  have s1 := lt_of_eval32_mul (ha.2 (by decide)).1.2
  have s2 := lt_of_eval32_mul (hb.2 (by decide)).1.2.2.2.2
  have s3 := lt_of_eval32_mul hc.2.2
  simp only [dimsNKMW, W.run_bind, W.run_ev] at hd
  refine ⟨?_, ?_, ?_, lt_of_eval32_mod hd.1, lt_of_eval32_mod hd.2.1⟩
  · rw [← e1]; exact s1
  · rw [← e2]; exact s2
  · rw [← e1, ← e2]; exact s3

/-- **C55, N-first without accumulation, exactly.** The 32-bit N-first call with `beta = 0` is defined if and only if the padded
sizes of A, B and C, the depth `p*k_c` of a K block and the height `p*m_c` of a row block are below `2^31`. -/
theorem C55_run32_n_defined_iff (h : TileOK p cx.m_r cx.n_r m_c k_c n_c) (A B C : Loc) (hN : 0 < N) (hK : 0 < K)
    (hn : n_c < 2 ^ 31) :
    (∃ prog, cake_sgemm32S cx A B C M N K p false false false m_c k_c n_c .NKM = some prog) ↔
      cdiv M cx.m_r * cx.m_r * K < 2 ^ 31 ∧ K * (cdiv N cx.n_r * cx.n_r) < 2 ^ 31 ∧
        cdiv M cx.m_r * cx.m_r * (cdiv N cx.n_r * cx.n_r) < 2 ^ 31 ∧ p * k_c < 2 ^ 31 ∧ p * m_c < 2 ^ 31 := by
  rw [← padTo_eq h.m_r_pos h.S_dvd, ← padTo_eq h.n_r_pos h.n_dvd]
  constructor
  · rintro ⟨prog, hp⟩
    exact nfirst_run_need cx (W.run_some.1 hp).1
  · rintro ⟨hA, hB, hC, hpk, hpm⟩
    exact ⟨_, W.run_eq (run_cake_sgemmNW h (int32_of h hN hK hA hB hC hpk hpm hn) cx A B C false false false rfl rfl
      (by simp))⟩

example : (∃ prog, cake_sgemm32S haswell ⟨.A, 0⟩ ⟨.B, 0⟩ ⟨.C, 0⟩ 43 37 11 3 false false false 12 5 32 .NKM = some prog) ∧
    ¬ ∃ prog, cake_sgemm32S haswell ⟨.A, 0⟩ ⟨.B, 0⟩ ⟨.C, 0⟩ 6 65536 32768 1 false false false 96 96 96 .NKM = some prog :=
  ⟨(C55_run32_n_defined_iff haswell demo_tile _ _ _ (by decide) (by decide) (by decide)).2 (by decide),
    fun h => absurd ((C55_run32_n_defined_iff haswell
      ⟨by decide, by decide, by decide, by decide, by decide, by decide, by decide, by decide⟩ _ _ _ (by decide) (by decide)
      (by decide)).1 h) (by decide)⟩

/-- **C55, N-first with accumulation, exactly.** With `beta != 0` the offsets at which the last row of blocks of C would be packed
must be below `2^31` as well. -/
theorem C55_run32_n_accum_defined_iff (h : TileOK p cx.m_r cx.n_r m_c k_c n_c) (A B C : Loc) (hM : 0 < M) (hN : 0 < N)
    (hK : 0 < K) (hn : n_c < 2 ^ 31) :
    (∃ prog, cake_sgemm32S cx A B C M N K p false false true m_c k_c n_c .NKM = some prog) ↔
      (cdiv M cx.m_r * cx.m_r * K < 2 ^ 31 ∧ K * (cdiv N cx.n_r * cx.n_r) < 2 ^ 31 ∧
        cdiv M cx.m_r * cx.m_r * (cdiv N cx.n_r * cx.n_r) < 2 ^ 31 ∧ p * k_c < 2 ^ 31 ∧ p * m_c < 2 ^ 31) ∧
      ∀ n, n < cdiv N n_c → cdiv N cx.n_r * cx.n_r * (cdiv M (p * m_c) - 1) * p * m_c +
        n * p * m_c * min n_c (cdiv N cx.n_r * cx.n_r - n * n_c) < 2 ^ 31 := by
  rw [← padTo_eq h.m_r_pos h.S_dvd, ← padTo_eq h.n_r_pos h.n_dvd]
  constructor
  · rintro ⟨prog, hp⟩
    have hr := (W.run_some.1 hp).1
    refine ⟨nfirst_run_need cx hr, fun n hnb => ?_⟩
    simp only [cake_sgemmNW, W.run_bind, W.run_sel, val_dimsNKMW] at hr
    have hb := (hr.2.2.2.2.1.1 trivial).1
    have hMb : 0 < cdiv M (p * m_c) := cdiv_pos hM h.geoN.mS_pos
    have he := hb _ (ints_blocksCNW (m := cdiv M (p * m_c) - 1) (n := n) (by rw [nkm_Mb h.toN]; omega) (by rw [nkm_Nb h.toN]; exact hnb))
    have hf := lt_of_eval32 he ⟨trivial, ⟨⟨trivial, trivial⟩, trivial⟩, trivial⟩
    rw [val_colBlkW] at hf
    simp only [nkm_Nb h.toN, nkm_n_pad, nkm_n_c, nkm_n_c1, nkm_N_padded, nkm_m_c, E.val_add, E.val_mul, E.val_lit] at hf
    rw [sL_eq h.n_c_pos h.n_r_pos h.n_dvd hnb] at hf
    exact hf
  · rintro ⟨⟨hA, hB, hC, hpk, hpm⟩, hcp⟩
    exact ⟨_, W.run_eq (run_cake_sgemmNW h (int32_of h hN hK hA hB hC hpk hpm hn) cx A B C false false true rfl rfl
      fun _ => hcp)⟩

example : (∃ prog, cake_sgemm32S haswell ⟨.A, 0⟩ ⟨.B, 0⟩ ⟨.C, 0⟩ 43 37 11 3 false false true 12 5 32 .NKM = some prog) :=
  (C55_run32_n_accum_defined_iff haswell demo_tile _ _ _ (by decide) (by decide) (by decide) (by decide)).2
    ⟨by decide, by decide⟩

/-- **C55, accumulation can overflow.** On 8 cores with `m_c = k_c = n_c = 960` a 6 x 1 times 1 x 300480 product is defined with
`beta = 0`, and has undefined behaviour with `beta != 0`, on any pointers. -/
theorem C55_run32_n_refuted (A B C : Loc) :
    (∃ prog, cake_sgemm32S haswell A B C 6 300480 1 8 false false false 960 960 960 .NKM = some prog) ∧
      cake_sgemm32S haswell A B C 6 300480 1 8 false false true 960 960 960 .NKM = none := by
  have ht : TileOK 8 haswell.m_r haswell.n_r 960 960 960 :=
    ⟨by decide, by decide, by decide, by decide, by decide, by decide, by decide, by decide⟩
  refine ⟨(C55_run32_n_defined_iff haswell ht A B C (by decide) (by decide) (by decide)).2 (by decide), ?_⟩
  by_contra hne
  obtain ⟨prog, hp⟩ := Option.ne_none_iff_exists'.1 hne
  have := ((C55_run32_n_accum_defined_iff haswell ht A B C (by decide) (by decide) (by decide) (by decide)).1 ⟨prog, hp⟩).2 312
    (by decide)
  exact absurd this (by decide)

/-- **C55, the 32-bit M-first program computes the product** when the padded operands are addressable and B has the room that the
code reads. Missing from the full statement: the condition on `p*k_c`, which `C55_run32_m_defined_iff` shows to be necessary, and
the room behind B (C10). -/
theorem C55_run32_m_product_partial (h : TileOK p cx.m_r cx.n_r m_c k_c n_c) (hk : cx.kfix.Fits cx.m_r cx.n_r)
    {s : State α} (hs : CallOK s M N K) (hB' : Holds s .B 1 (bNeed N K p cx.n_r k_c n_c)) (hN : 0 < N) (hK : 0 < K)
    (hA : cdiv M cx.m_r * cx.m_r * K < 2 ^ 31) (hB : K * (cdiv N cx.n_r * cx.n_r) < 2 ^ 31)
    (hC : cdiv M cx.m_r * cx.m_r * (cdiv N cx.n_r * cx.n_r) < 2 ^ 31)
    (hpk : p * k_c < 2 ^ 31) (hm : m_c < 2 ^ 31) (hn : n_c < 2 ^ 31) :
    Computes F (cake_sgemm32S cx ⟨.A, 0⟩ ⟨.B, 0⟩ ⟨.C, 0⟩ M N K p false false false m_c k_c n_c .MKN) s
      (fun s' => IsProduct F s s' M N K (fun _ _ => F.zero)) := by
  obtain ⟨prog, hp⟩ := (C55_run32_m_defined_iff cx h ⟨.A, 0⟩ ⟨.B, 0⟩ ⟨.C, 0⟩ false hN hK hm hn).2 ⟨hA, hB, hC, hpk⟩
  rw [hp, ← C55_run32_same (fun _ => false) cx .MKN _ _ _ _ _ F.zero F.zero hp]
  exact C02_mfirst_product F (fun _ => false) cx h hk F.zero rfl hs hB'

example : Computes (exact Int) (cake_sgemm32S haswell ⟨.A, 0⟩ ⟨.B, 0⟩ ⟨.C, 0⟩ 43 37 11 3 false false false 12 5 32 .MKN)
    (demo 43 37 11) (fun s' => IsProduct (exact Int) (demo 43 37 11) s' 43 37 11 (fun _ _ => 0)) :=
  C55_run32_m_product_partial (exact Int) haswell demo_tile haswell_fits_fix (demo_ok 43 37 11)
    demo_readable (by decide) (by decide)
    (by decide) (by decide) (by decide) (by decide) (by decide) (by decide)

/-- **C55, the 32-bit N-first program computes the product**, under the same conditions and `p*m_c < 2^31`. -/
theorem C55_run32_n_product_partial (h : TileOK p cx.m_r cx.n_r m_c k_c n_c) (hk : cx.kfix.Fits cx.m_r cx.n_r)
    {s : State α} (hs : CallOK s M N K) (hB' : Holds s .B 1 (bNeed N K p cx.n_r k_c n_c)) (hN : 0 < N) (hK : 0 < K)
    (hA : cdiv M cx.m_r * cx.m_r * K < 2 ^ 31) (hB : K * (cdiv N cx.n_r * cx.n_r) < 2 ^ 31)
    (hC : cdiv M cx.m_r * cx.m_r * (cdiv N cx.n_r * cx.n_r) < 2 ^ 31)
    (hpk : p * k_c < 2 ^ 31) (hpm : p * m_c < 2 ^ 31) (hn : n_c < 2 ^ 31) :
    Computes F (cake_sgemm32S cx ⟨.A, 0⟩ ⟨.B, 0⟩ ⟨.C, 0⟩ M N K p false false false m_c k_c n_c .NKM) s
      (fun s' => IsProduct F s s' M N K (fun _ _ => F.zero)) := by
  obtain ⟨prog, hp⟩ := (C55_run32_n_defined_iff cx h ⟨.A, 0⟩ ⟨.B, 0⟩ ⟨.C, 0⟩ hN hK hn).2 ⟨hA, hB, hC, hpk, hpm⟩
  rw [hp, ← C55_run32_same (fun _ => false) cx .NKM _ _ _ _ _ F.zero F.zero hp]
  exact C03_nfirst_product F (fun _ => false) cx h hk F.zero rfl hs hB'

example : Computes (exact Int) (cake_sgemm32S haswell ⟨.A, 0⟩ ⟨.B, 0⟩ ⟨.C, 0⟩ 43 37 11 3 false false false 12 5 32 .NKM)
    (demo 43 37 11) (fun s' => IsProduct (exact Int) (demo 43 37 11) s' 43 37 11 (fun _ _ => 0)) :=
  C55_run32_n_product_partial (exact Int) haswell demo_tile haswell_fits_fix (demo_ok 43 37 11)
    demo_readable (by decide) (by decide)
    (by decide) (by decide) (by decide) (by decide) (by decide) (by decide)

/-- **C55, operands packed beforehand.** Under the same size conditions the 32-bit calls are also defined, and are the calls of the
model, when A or B or both have been packed before. -/
theorem C55_run32_packed_partial (h : TileOK p cx.m_r cx.n_r m_c k_c n_c) (A B C : Loc) (packedA packedB : Bool)
    (alpha beta : α) (hN : 0 < N) (hK : 0 < K)
    (hA : cdiv M cx.m_r * cx.m_r * K < 2 ^ 31) (hB : K * (cdiv N cx.n_r * cx.n_r) < 2 ^ 31)
    (hC : cdiv M cx.m_r * cx.m_r * (cdiv N cx.n_r * cx.n_r) < 2 ^ 31)
    (hpk : p * k_c < 2 ^ 31) (hm : m_c < 2 ^ 31) (hn : n_c < 2 ^ 31) :
    cake_sgemm32S cx A B C M N K p packedA packedB (nz beta) m_c k_c n_c .MKN =
      cake_sgemm nz cx A B C M N K p packedA packedB alpha beta m_c k_c n_c .MKN ∧
    (p * m_c < 2 ^ 31 → nz beta = false → cake_sgemm32S cx A B C M N K p packedA packedB (nz beta) m_c k_c n_c .NKM =
      cake_sgemm nz cx A B C M N K p packedA packedB alpha beta m_c k_c n_c .NKM) := by
  rw [← padTo_eq h.n_r_pos h.n_dvd] at hB hC
  have h2 := padTo_ge N n_c cx.n_r h.n_r_pos
  constructor
  · rw [← padTo_eq h.m_r_pos h.m_dvd] at hA hC
    rw [val_cake_sgemmMW]
    exact W.run_eq (run_cake_sgemmMW h ⟨hA, hB, hC, Nat.lt_of_le_of_lt (Nat.le_mul_of_pos_right _ hK) hA,
      Nat.lt_of_le_of_lt (Nat.le_mul_of_pos_left _ hK) hB,
      Nat.lt_of_le_of_lt (Nat.le_mul_of_pos_right _ (by omega)) hB, hpk, hm, hn⟩ cx A B C packedA packedB _ rfl rfl)
  · intro hpm hb
    rw [← padTo_eq h.m_r_pos h.S_dvd] at hA hC
    rw [val_cake_sgemmNW]
    exact W.run_eq (run_cake_sgemmNW h (int32_of h hN hK hA hB hC hpk hpm hn) cx A B C packedA packedB _ rfl rfl
      (by simp [hb]))

example := C55_run32_packed_partial (α := Int) (M := 43) (N := 37) (K := 11) (· != 0) haswell demo_tile ⟨.A, 0⟩ ⟨.B, 0⟩
  ⟨.C, 0⟩ true false 1 0 (by decide) (by decide) (by decide) (by decide) (by decide) (by decide) (by decide) (by decide)

/-- The undefined side of `C55_run32_undefined_iff`. -/
example : ∃ e ∈ (cake_sgemmNW haswell ⟨.A, 0⟩ ⟨.B, 0⟩ ⟨.C, 0⟩ 6 300480 1 8 false false true 960 960 960).ints, e.eval32 = none :=
  (C55_run32_undefined_iff haswell (by decide) _ _ _ _ _ _).2.1 (C55_run32_n_refuted _ _ _).2

end Cake
