/-
The recording functions of `Verif.Model.CheckedMN`: their values are those of the model.
-/
import Verif.Model.CheckedMN
import Verif.Proofs.CheckedOk
import Verif.Proofs.IntRangeMN

namespace Cake
open List
open W

theorem val_dimsMKNW (M N K p m_r n_r m_c k_c n_c : Nat) :
    (dimsMKNW M N K p m_r n_r m_c k_c n_c).val = dimsMKN M N K p m_r n_r m_c k_c n_c := by
  simp only [dimsMKNW, val_bind, val_pure, val_ev, val_coresW]
  rfl

theorem val_dimsNKMW (M N K p m_r n_r m_c k_c n_c : Nat) :
    (dimsNKMW M N K p m_r n_r m_c k_c n_c).val = dimsNKM M N K p m_r n_r m_c k_c n_c := by
  simp only [dimsNKMW, val_bind, val_pure, val_ev, val_coresW]
  rfl

theorem val_colBlkW (x : BlkDims) (N n : Nat) : (colBlkW x N n).val =
    ((n == x.Nb - 1 && x.n_pad), (if (n == x.Nb - 1 && x.n_pad) = true then x.n_c1 else x.n_c),
      (if (n == x.Nb - 1 && x.n_pad) = true then N - N % x.n_c else n * x.n_c)) := by
  simp only [colBlkW, val_bind, val_pure, val_sel]
  rfl

theorem val_kBlkW (x : BlkDims) (p k : Nat) : (kBlkW x p k).val =
    ((k == x.Kb - 1 && x.k_pad), (if (k == x.Kb - 1 && x.k_pad) = true then x.p_l else p),
      (if (k == x.Kb - 1 && x.k_pad) = true then x.k_rem else
        (if (k == x.Kb - 1 && x.k_pad) = true then x.p_l else p) * x.k_c)) := by
  simp only [kBlkW, val_bind, val_pure, val_sel]
  rfl

theorem val_rowBlkMW (x : BlkDims) (M m : Nat) : (rowBlkMW x M m).val =
    ((m == x.Mb - 1 && x.m_pad), (if (m == x.Mb - 1 && x.m_pad) = true then x.m_c1 else x.m_c),
      (if (m == x.Mb - 1 && x.m_pad) = true then M - M % x.m_c else m * x.m_c)) := by
  simp only [rowBlkMW, val_bind, val_pure, val_sel]
  rfl

theorem val_rowBlkNW (x : BlkDims) (M p m : Nat) : (rowBlkNW x M p m).val =
    ((m == x.Mb - 1 && x.m_pad), (if (m == x.Mb - 1 && x.m_pad) = true then x.m_c1 else p * x.m_c),
      (if (m == x.Mb - 1 && x.m_pad) = true then M - M % (p * x.m_c) else m * p * x.m_c)) := by
  simp only [rowBlkNW, val_bind, val_pure, val_sel]
  rfl

theorem val_mctMW (x : BlkDims) (m : Nat) :
    (mctMW x m).val = if (m == x.Mb - 1 && x.m_pad) = true then x.m_c1 else x.m_c := rfl

theorem val_mctNW (x : BlkDims) (p m : Nat) :
    (mctNW x p m).val = if (m == x.Mb - 1 && x.m_pad) = true then x.m_c1 else p * x.m_c := rfl

theorem val_stripKW (x : BlkDims) (last : Bool) (core : Nat) : (stripKW x last core).val =
    if last = true then (if core = x.p_l - 1 then x.k_c1_last_core else x.k_c1) else x.k_c := by
  unfold stripKW; rw [val_sel]; rfl

theorem val_padKW (x : BlkDims) (last : Bool) (core : Nat) : (padKW x last core).val = (last && core == x.p_l - 1) := by
  unfold padKW; rw [val_sel]; cases last <;> rfl

theorem val_packATaskW (A A_p : Loc) (row : E) (M K m_r : Nat) (x : BlkDims) (k A_offset A_p_offset m_c_t core : Nat) :
    (packATaskW A A_p row M K m_r x k A_offset A_p_offset m_c_t core).val =
      (let last := k == x.Kb - 1 && x.k_pad
       let k_c_t := if last then (if core = x.p_l - 1 then x.k_c1_last_core else x.k_c1) else x.k_c
       let k_c_x := if last then x.k_c1 else x.k_c
       pack_ob_A_single_buf (A +ₚ (A_offset + core * k_c_x)) (A_p +ₚ (A_p_offset + core * k_c_x * m_c_t)) M K row.val 0
         m_c_t k_c_t m_r) := by
  simp only [packATaskW, val_bind, val_obAW, val_stripKW, val_isLastW]
  rfl

theorem val_packAMW (A A_p : Loc) (M K p m_r : Nat) (x : BlkDims) :
    (packAMW A A_p M K p m_r x).val = pack_A_m_first A A_p M K p m_r x := by
  simp only [packAMW, val_bind, val_pure, val_loop, val_tasks, val_packATaskW, val_kBlkW, val_mctMW]
  rfl

theorem val_packANW (A A_p : Loc) (M K p m_r : Nat) (x : BlkDims) :
    (packANW A A_p M K p m_r x).val = pack_A_n_first A A_p M K p m_r x := by
  simp only [packANW, val_bind, val_pure, val_loop, val_tasks, val_packATaskW, val_kBlkW, val_mctNW]
  rfl

theorem val_obBW (B B_p : Loc) (N n1 k_c n_c n_r : Nat) (pad_n : Bool) :
    (obBW B B_p N n1 k_c n_c n_r pad_n).val = pack_ob_B_single_buf B B_p N n1 k_c n_c n_r pad_n := by
  simp only [obBW, val_bind, val_pure, val_loop, val_sel]
  unfold pack_ob_B_single_buf
  cases pad_n <;> rfl

theorem val_packBBlkW (B B_p : Loc) (N p n_r : Nat) (x : BlkDims) (c b : Bool × Nat × Nat) (n k B_p_offset : Nat) :
    (packBBlkW B B_p N p n_r x c b n k B_p_offset).val =
      (let last := k == x.Kb - 1 && x.k_pad
       let B_offset := k * p * x.k_c * N + n * x.n_c
       ([(range b.2.1).map fun core =>
          let k_c_t := if last then (if core = x.p_l - 1 then x.k_c1_last_core else x.k_c1) else x.k_c
          let k_c_x := if last then x.k_c1 else x.k_c
          let pad := last && core == x.p_l - 1
          pack_ob_B_single_buf (B +ₚ (B_offset + core * k_c_x * N))
            (B_p +ₚ (B_p_offset + core * k_c_x * c.2.1)) N c.2.2 k_c_t c.2.1 n_r pad],
        B_p_offset + b.2.2 * c.2.1)) := by
  simp only [packBBlkW, val_bind, val_pure, val_tasks, val_obBW, val_stripKW, val_isLastW, val_padKW]
  rfl

theorem val_packBMW (B B_p : Loc) (N p n_r : Nat) (x : BlkDims) :
    (packBMW B B_p N p n_r x).val = pack_B_m_first B B_p N p n_r x := by
  simp only [packBMW, val_bind, val_pure, val_loop, val_packBBlkW, val_kBlkW, val_colBlkW]
  rfl

theorem val_packBNW (B B_p : Loc) (N p n_r : Nat) (x : BlkDims) :
    (packBNW B B_p N p n_r x).val = pack_B_n_first B B_p N p n_r x := by
  simp only [packBNW, val_bind, val_pure, val_loop, val_packBBlkW, val_kBlkW, val_colBlkW]
  rfl

theorem val_obCW (C C_p : Loc) (M N m1 n1 m2 m_c n_c m_r n_r : Nat) (pad_m pad_n : Bool) :
    (obCW C C_p M N m1 n1 m2 m_c n_c m_r n_r pad_m pad_n).val =
      pack_ob_C_single_buf C C_p M N m1 n1 m2 m_c n_c m_r n_r pad_m pad_n := by
  simp only [obCW, val_bind, val_pure, val_sel]
  unfold pack_ob_C_single_buf
  split
  · simp only [val_loop, val_bind, val_pure, val_sel]
    congr 2
    funext n2 s
    congr 1
    funext m3 s
    congr 1
    funext i s
    congr 1
    funext j s
    congr 1
    by_cases h : n1 + n2 + j ≥ N <;> by_cases h' : m1 + m2 + m3 + i ≥ M <;> simp [h, h']
  · simp only [val_loop, val_bind, val_pure]
    rfl

theorem val_blocksCMW (pack : Bool) (C C_p : Loc) (M N m_r n_r : Nat) (x : BlkDims) :
    (blocksCMW pack C C_p M N m_r n_r x).val =
      if pack then pack_C_m_first C C_p M N m_r n_r x else unpack_C_m_first C C_p M N m_r n_r x := by
  simp only [blocksCMW, val_bind, val_tasks, val_sel, val_obCW, val_unpackObW, val_colBlkW, val_rowBlkMW]
  cases pack <;> rfl

theorem val_blocksCNW (pack : Bool) (C C_p : Loc) (M N p m_r n_r : Nat) (x : BlkDims) :
    (blocksCNW pack C C_p M N p m_r n_r x).val =
      if pack then pack_C_n_first C C_p M N p m_r n_r x else unpack_C_n_first C C_p M N p m_r n_r x := by
  simp only [blocksCNW, val_bind, val_tasks, val_sel, val_obCW, val_unpackObW, val_colBlkW, val_rowBlkNW]
  cases pack <;> rfl

theorem val_regTilesCW (kd : KDim) (t : Nat) (A B C : Loc) (a_ind b_ind c_ind m_r n_r m_c_t n_c_t k_c_t : Nat) :
    (regTilesCW kd t A B C a_ind b_ind c_ind m_r n_r m_c_t n_c_t k_c_t).val =
      regTiles kd t (A +ₚ a_ind) (B +ₚ b_ind) (C +ₚ c_ind) m_r n_r m_c_t n_c_t k_c_t := by
  simp only [regTilesCW, val_bind, val_pure, val_each, val_ev, regTiles]
  refine flatMap_congr fun n_reg _ => flatMap_congr fun m_reg _ => ?_
  simp only [Loc.off, Nat.add_assoc, E.val_add, E.val_mul, E.val_lit]

theorem val_coreW (kd : KDim) (t : Nat) (A_p B_p C_p : Loc) (m_r n_r : Nat) (x : BlkDims) (k m_c_t n_c_t core : Nat)
    (a b : Nat → E) (c : E) : (coreW kd t A_p B_p C_p m_r n_r x k m_c_t n_c_t core a b c).val =
      (let last := k == x.Kb - 1 && x.k_pad
       let k_c_t := if last then (if core = x.p_l - 1 then x.k_c1_last_core else x.k_c1) else x.k_c
       let k_c_x := if last then x.k_c1 else x.k_c
       regTiles kd t (A_p +ₚ (a k_c_x).val) (B_p +ₚ (b k_c_x).val) (C_p +ₚ c.val) m_r n_r m_c_t n_c_t k_c_t) := by
  simp only [coreW, val_bind, val_regTilesCW, val_stripKW, val_isLastW]
  rfl

theorem val_serpIdxW (desc : Bool) (n i : Nat) : (serpIdxW desc n i).val = if desc = true then n - 1 - i else i := by
  unfold serpIdxW; rw [val_sel]; rfl

theorem val_scheduleMW (kd : KDim) (A_p B_p C_p : Loc) (K p m_r n_r : Nat) (x : BlkDims) :
    (scheduleMW kd A_p B_p C_p K p m_r n_r x).val = schedule_MKN kd A_p B_p C_p K p m_r n_r x := by
  simp only [scheduleMW, val_bind, val_pure, val_each, val_eachSerp, val_tasks, val_coreW, val_kBlkW, val_mctMW, val_serpIdxW,
    val_isLastW, ← map_eq_flatMap]
  rfl

theorem val_scheduleNW (kd : KDim) (A_p B_p C_p : Loc) (K p m_r n_r : Nat) (x : BlkDims) :
    (scheduleNW kd A_p B_p C_p K p m_r n_r x).val = schedule_NKM kd A_p B_p C_p K p m_r n_r x := by
  simp only [scheduleNW, val_bind, val_pure, val_each, val_eachSerp, val_tasks, val_coreW, val_kBlkW, val_mctNW, val_serpIdxW,
    val_isLastW, ← map_eq_flatMap]
  rfl

theorem val_cake_sgemmMW {α : Type} (nz : α → Bool) (cx : Cntx) (A B C : Loc) (M N K p : Nat) (packedA packedB : Bool)
    (alpha beta : α) (m_c k_c n_c : Nat) :
    cake_sgemm nz cx A B C M N K p packedA packedB alpha beta m_c k_c n_c .MKN =
      some (cake_sgemmMW cx A B C M N K p packedA packedB (nz beta) m_c k_c n_c).val := by
  simp only [cake_sgemmMW, val_bind, val_pure, val_dimsMKNW, val_packAMW, val_packBMW, val_sel, val_scheduleMW,
    val_packedBSizeW, val_blocksCMW]
  rfl

theorem val_cake_sgemmNW {α : Type} (nz : α → Bool) (cx : Cntx) (A B C : Loc) (M N K p : Nat) (packedA packedB : Bool)
    (alpha beta : α) (m_c k_c n_c : Nat) :
    cake_sgemm nz cx A B C M N K p packedA packedB alpha beta m_c k_c n_c .NKM =
      some (cake_sgemmNW cx A B C M N K p packedA packedB (nz beta) m_c k_c n_c).val := by
  simp only [cake_sgemmNW, val_bind, val_pure, val_dimsNKMW, val_packANW, val_packBNW, val_sel, val_scheduleNW,
    val_packedBSizeW, val_blocksCNW]
  rfl

end Cake
