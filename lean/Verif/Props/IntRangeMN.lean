/-
C55: 32-bit `int` arithmetic in the M-first and N-first paths.
-/
import Verif.Proofs.IntRangeMN
import Verif.Props.Demo

namespace Cake
open List

/-! ### The expressions of `Verif.Model.IntRangeMN` are the ones the model computes with

Each theorem is the definition of the model function with every index replaced by the value of the
syntax tree listed in `mfirstInts` or `nfirstInts`. The packing of A inside a block and the unpacking of C
inside a block are `C36_link_obA` and `C36_link_unpack`. -/

theorem C55_link_dims_m (M N K p m_r n_r m_c k_c n_c : Nat) :
    let x := dimsMKN M N K p m_r n_r m_c k_c n_c
    x.k_rem = ((K : E) % ((p : E) * k_c)).val ∧
    x.nr_rem = cdiv ((N : E) % n_c).val n_r ∧
    x.mr_rem = cdiv ((M : E) % m_c).val m_r ∧
    x.n_c1 = ((x.nr_rem : E) * n_r).val ∧
    x.m_c1 = ((x.mr_rem : E) * m_r).val ∧
    x.k_c1_last_core = ((x.k_rem : E) - (x.k_c1 : E) * ((x.p_l : E) - 1)).val ∧
    x.Mb = ((M : E) / m_c + x.m_pad.toNat).val ∧
    x.Kb = ((K : E) / ((p : E) * k_c) + x.k_pad.toNat).val ∧
    x.Nb = ((N : E) / n_c + x.n_pad.toNat).val ∧
    x.M_padded = (mPaddedME M m_c x.m_c1).val ∧
    x.N_padded = (nPaddedE N n_c x.n_c1).val :=
  ⟨rfl, rfl, rfl, rfl, rfl, rfl, rfl, rfl, rfl, rfl, rfl⟩

theorem C55_link_dims_n (M N K p m_r n_r m_c k_c n_c : Nat) :
    let x := dimsNKM M N K p m_r n_r m_c k_c n_c
    x.k_rem = ((K : E) % ((p : E) * k_c)).val ∧
    x.nr_rem = cdiv ((N : E) % n_c).val n_r ∧
    x.mr_rem = cdiv ((M : E) % ((p : E) * m_c)).val m_r ∧
    x.n_c1 = ((x.nr_rem : E) * n_r).val ∧
    x.m_c1 = ((x.mr_rem : E) * m_r).val ∧
    x.k_c1_last_core = ((x.k_rem : E) - (x.k_c1 : E) * ((x.p_l : E) - 1)).val ∧
    x.Mb = ((M : E) / ((p : E) * m_c) + x.m_pad.toNat).val ∧
    x.Kb = ((K : E) / ((p : E) * k_c) + x.k_pad.toNat).val ∧
    x.Nb = ((N : E) / n_c + x.n_pad.toNat).val ∧
    x.M_padded = (mPaddedNE M p m_c x.m_c1).val ∧
    x.N_padded = (nPaddedE N n_c x.n_c1).val :=
  ⟨rfl, rfl, rfl, rfl, rfl, rfl, rfl, rfl, rfl, rfl, rfl⟩

theorem C55_link_sizes (M N K p m_r n_r m_c k_c n_c : Nat) :
    let x := dimsMKN M N K p m_r n_r m_c k_c n_c
    let y := dimsNKM M N K p m_r n_r m_c k_c n_c
    packedASize M K p m_r m_c .MKN = some (mPaddedME M m_c ((x.mr_rem : E) * m_r) * K).val ∧
    packedASize M K p m_r m_c .NKM = some (mPaddedE M p m_r m_c y.mr_rem * K).val ∧
    packedBSize K N n_r n_c = ((K : E) * nPaddedE N n_c x.n_c1).val ∧
    packedBSize K N n_r n_c = ((K : E) * nPaddedE N n_c y.n_c1).val :=
  ⟨rfl, rfl, rfl, rfl⟩

theorem C55_link_obB (B B_p : Loc) (N n1 k_c n_c n_r : Nat) (pad_n : Bool) :
    pack_ob_B_single_buf B B_p N n1 k_c n_c n_r pad_n =
    if pad_n then
      (loopS (cfor 0 n_c n_r) (fun n2 s => loopS (range k_c) (fun i s => loopS (range n_r)
        (fun (j ind_ob : Nat) =>
          ([if ((n1 : E) + n2 + j).val ≥ N then Op.zero (B_p +ₚ ind_ob)
            else Op.copy (B_p +ₚ ind_ob) (B +ₚ ((n2 : E) + i * N + j).val)],
            ((ind_ob : E) + 1).val)) s) s) 0).1
    else
      (loopS (cfor 0 n_c n_r) (fun n2 s => loopS (range k_c) (fun i s => loopS (range n_r)
        (fun (j ind_ob : Nat) =>
          ([Op.copy (B_p +ₚ ind_ob) (B +ₚ ((n2 : E) + i * N + j).val)],
            ((ind_ob : E) + 1).val)) s) s) 0).1 := rfl

theorem C55_link_obC (C C_p : Loc) (M N m1 n1 m2 m_c n_c m_r n_r : Nat) (pad_m pad_n : Bool) :
    pack_ob_C_single_buf C C_p M N m1 n1 m2 m_c n_c m_r n_r pad_m pad_n =
    if pad_m || pad_n then
      (loopS (cfor 0 n_c n_r) (fun n2 s => loopS (cfor 0 m_c m_r) (fun m3 s =>
        loopS (range m_r) (fun i s => loopS (range n_r) (fun (j ind_ob : Nat) =>
          ([if ((n1 : E) + n2 + j).val ≥ N ∨ ((m1 : E) + m2 + m3 + i).val ≥ M then
              Op.zero (C_p +ₚ ind_ob)
            else Op.copy (C_p +ₚ ind_ob) (C +ₚ ((n2 : E) + m3 * N + i * N + j).val)],
            ((ind_ob : E) + 1).val)) s) s) s) 0).1
    else
      (loopS (cfor 0 n_c n_r) (fun n2 s => loopS (cfor 0 m_c m_r) (fun m3 s =>
        loopS (range m_r) (fun i s => loopS (range n_r) (fun (j ind_ob : Nat) =>
          ([Op.copy (C_p +ₚ ind_ob) (C +ₚ ((n2 : E) + m3 * N + i * N + j).val)],
            ((ind_ob : E) + 1).val)) s) s) s) 0).1 := rfl

theorem C55_link_packA_m (A A_p : Loc) (M K p m_r : Nat) (x : BlkDims) :
    pack_A_m_first A A_p M K p m_r x =
    (loopS (range x.Kb) (fun (k : Nat) s =>
      let last := k == x.Kb - 1 && x.k_pad
      let p_used := if last then x.p_l else p
      let k_cb := if last then x.k_rem else ((p_used : E) * x.k_c).val
      loopS (range x.Mb) (fun (m A_p_offset : Nat) =>
        let m_c_t := if m == x.Mb - 1 && x.m_pad then x.m_c1 else x.m_c
        ([(range p_used).map fun (core : Nat) =>
            let k_c_t := if last then (if core = x.p_l - 1 then x.k_c1_last_core else x.k_c1) else x.k_c
            let k_c_x := if last then x.k_c1 else x.k_c
            pack_ob_A_single_buf (A +ₚ (aOffSE ((m : E) * x.m_c) K k p x.k_c core k_c_x).val)
              (A_p +ₚ ((A_p_offset : E) + (core : E) * k_c_x * m_c_t).val) M K ((m : E) * x.m_c).val 0
              m_c_t k_c_t m_r],
          ((A_p_offset : E) + (k_cb : E) * m_c_t).val)) s) 0).1 := rfl

theorem C55_link_packA_n (A A_p : Loc) (M K p m_r : Nat) (x : BlkDims) :
    pack_A_n_first A A_p M K p m_r x =
    (loopS (range x.Mb) (fun (m : Nat) s =>
      let m_c_t := if m == x.Mb - 1 && x.m_pad then x.m_c1 else ((p : E) * x.m_c).val
      loopS (range x.Kb) (fun (k A_p_offset : Nat) =>
        let last := k == x.Kb - 1 && x.k_pad
        let p_used := if last then x.p_l else p
        let k_cb := if last then x.k_rem else ((p_used : E) * x.k_c).val
        ([(range p_used).map fun (core : Nat) =>
            let k_c_t := if last then (if core = x.p_l - 1 then x.k_c1_last_core else x.k_c1) else x.k_c
            let k_c_x := if last then x.k_c1 else x.k_c
            pack_ob_A_single_buf (A +ₚ (aOffSE (rowE m p x.m_c) K k p x.k_c core k_c_x).val)
              (A_p +ₚ ((A_p_offset : E) + (core : E) * k_c_x * m_c_t).val) M K (rowE m p x.m_c).val 0
              m_c_t k_c_t m_r],
          ((A_p_offset : E) + (k_cb : E) * m_c_t).val)) s) 0).1 := rfl

theorem C55_link_packB_m (B B_p : Loc) (N p n_r : Nat) (x : BlkDims) :
    pack_B_m_first B B_p N p n_r x =
    (loopS (range x.Nb) (fun (n : Nat) s =>
      let nlast := n == x.Nb - 1 && x.n_pad
      let n_c_t := if nlast then x.n_c1 else x.n_c
      let n1 := if nlast then ((N : E) - N % x.n_c).val else ((n : E) * x.n_c).val
      loopS (range x.Kb) (fun (k B_p_offset : Nat) =>
        let last := k == x.Kb - 1 && x.k_pad
        let p_used := if last then x.p_l else p
        let k_cb := if last then x.k_rem else ((p_used : E) * x.k_c).val
        ([(range p_used).map fun (core : Nat) =>
            let k_c_t := if last then (if core = x.p_l - 1 then x.k_c1_last_core else x.k_c1) else x.k_c
            let k_c_x := if last then x.k_c1 else x.k_c
            pack_ob_B_single_buf (B +ₚ (bOffSE k p x.k_c N n x.n_c core k_c_x).val)
              (B_p +ₚ ((B_p_offset : E) + (core : E) * k_c_x * n_c_t).val) N n1 k_c_t n_c_t n_r
              (last && core == x.p_l - 1)],
          ((B_p_offset : E) + (k_cb : E) * n_c_t).val)) s) 0).1 := rfl

theorem C55_link_packB_n (B B_p : Loc) (N p n_r : Nat) (x : BlkDims) :
    pack_B_n_first B B_p N p n_r x =
    (loopS (range x.Kb) (fun (k : Nat) s =>
      let last := k == x.Kb - 1 && x.k_pad
      let p_used := if last then x.p_l else p
      let k_cb := if last then x.k_rem else ((p_used : E) * x.k_c).val
      loopS (range x.Nb) (fun (n B_p_offset : Nat) =>
        let nlast := n == x.Nb - 1 && x.n_pad
        let n_c_t := if nlast then x.n_c1 else x.n_c
        let n1 := if nlast then ((N : E) - N % x.n_c).val else ((n : E) * x.n_c).val
        ([(range p_used).map fun (core : Nat) =>
            let k_c_t := if last then (if core = x.p_l - 1 then x.k_c1_last_core else x.k_c1) else x.k_c
            let k_c_x := if last then x.k_c1 else x.k_c
            pack_ob_B_single_buf (B +ₚ (bOffSE k p x.k_c N n x.n_c core k_c_x).val)
              (B_p +ₚ ((B_p_offset : E) + (core : E) * k_c_x * n_c_t).val) N n1 k_c_t n_c_t n_r
              (last && core == x.p_l - 1)],
          ((B_p_offset : E) + (k_cb : E) * n_c_t).val)) s) 0).1 := rfl

theorem C55_link_packC_m (C C_p : Loc) (M N m_r n_r : Nat) (x : BlkDims) :
    pack_C_m_first C C_p M N m_r n_r x =
    (range x.Nb).map fun (n : Nat) =>
      let nlast := n == x.Nb - 1 && x.n_pad
      let n_c_t := if nlast then x.n_c1 else x.n_c
      let n1 := if nlast then ((N : E) - N % x.n_c).val else ((n : E) * x.n_c).val
      (range x.Mb).map fun (m : Nat) =>
        let last := m == x.Mb - 1 && x.m_pad
        let m_c_t := if last then x.m_c1 else x.m_c
        let m1 := if last then ((M : E) - M % x.m_c).val else ((m : E) * x.m_c).val
        pack_ob_C_single_buf (C +ₚ (cOffSE ((m : E) * x.m_c) N n x.n_c).val)
          (C_p +ₚ (cpME x.M_padded n x.n_c m x.m_c n_c_t).val) M N m1 n1 0 m_c_t n_c_t m_r n_r last
          nlast := rfl

theorem C55_link_unpackC_m (C C_p : Loc) (M N m_r n_r : Nat) (x : BlkDims) :
    unpack_C_m_first C C_p M N m_r n_r x =
    (range x.Nb).map fun (n : Nat) =>
      let nlast := n == x.Nb - 1 && x.n_pad
      let n_c_t := if nlast then x.n_c1 else x.n_c
      let n1 := if nlast then ((N : E) - N % x.n_c).val else ((n : E) * x.n_c).val
      (range x.Mb).map fun (m : Nat) =>
        let last := m == x.Mb - 1 && x.m_pad
        let m_c_t := if last then x.m_c1 else x.m_c
        let m1 := if last then ((M : E) - M % x.m_c).val else ((m : E) * x.m_c).val
        unpack_ob_C_single_buf (C +ₚ (cOffSE ((m : E) * x.m_c) N n x.n_c).val)
          (C_p +ₚ (cpME x.M_padded n x.n_c m x.m_c n_c_t).val) M N m1 n1 0 m_c_t n_c_t m_r n_r := rfl

theorem C55_link_packC_n (C C_p : Loc) (M N p m_r n_r : Nat) (x : BlkDims) :
    pack_C_n_first C C_p M N p m_r n_r x =
    (range x.Mb).map fun (m : Nat) =>
      let last := m == x.Mb - 1 && x.m_pad
      let m_c_t := if last then x.m_c1 else ((p : E) * x.m_c).val
      let m1 := if last then ((M : E) - M % ((p : E) * x.m_c)).val else (rowE m p x.m_c).val
      (range x.Nb).map fun (n : Nat) =>
        let nlast := n == x.Nb - 1 && x.n_pad
        let n_c_t := if nlast then x.n_c1 else x.n_c
        let n1 := if nlast then ((N : E) - N % x.n_c).val else ((n : E) * x.n_c).val
        pack_ob_C_single_buf (C +ₚ (cOffSE (rowE m p x.m_c) N n x.n_c).val)
          (C_p +ₚ (cpNE x.N_padded m p x.m_c n n_c_t).val) M N m1 n1 0 m_c_t n_c_t m_r n_r last
          nlast := rfl

theorem C55_link_unpackC_n (C C_p : Loc) (M N p m_r n_r : Nat) (x : BlkDims) :
    unpack_C_n_first C C_p M N p m_r n_r x =
    (range x.Mb).map fun (m : Nat) =>
      let last := m == x.Mb - 1 && x.m_pad
      let m_c_t := if last then x.m_c1 else ((p : E) * x.m_c).val
      let m1 := if last then ((M : E) - M % ((p : E) * x.m_c)).val else (rowE m p x.m_c).val
      (range x.Nb).map fun (n : Nat) =>
        let nlast := n == x.Nb - 1 && x.n_pad
        let n_c_t := if nlast then x.n_c1 else x.n_c
        let n1 := if nlast then ((N : E) - N % x.n_c).val else ((n : E) * x.n_c).val
        unpack_ob_C_single_buf (C +ₚ (cOffSE (rowE m p x.m_c) N n x.n_c).val)
          (C_p +ₚ (cpUnNE x.N_padded m p x.m_c n m_c_t x.n_c).val) M N m1 n1 0 m_c_t n_c_t m_r n_r := rfl

theorem C55_link_regTiles (kd : KDim) (t : Nat) (A B C : Loc) (a_ind b_ind c_ind : E)
    (m_r n_r m_c_t n_c_t k_c_t : Nat) :
    regTiles kd t (A +ₚ a_ind.val) (B +ₚ b_ind.val) (C +ₚ c_ind.val) m_r n_r m_c_t n_c_t k_c_t =
    (range ((n_c_t : E) / n_r).val).flatMap fun (n_reg : Nat) =>
      (range ((m_c_t : E) / m_r).val).flatMap fun (m_reg : Nat) =>
        kernel kd.L kd.m kd.nl t (A +ₚ (a_ind + (m_reg : E) * m_r * k_c_t).val)
          (B +ₚ (b_ind + (n_reg : E) * k_c_t * n_r).val)
          (C +ₚ (c_ind + (n_reg : E) * m_c_t * n_r + (m_reg : E) * m_r * n_r).val) n_r k_c_t := by
  unfold regTiles
  refine flatMap_congr fun n_reg _ => flatMap_congr fun m_reg _ => ?_
  simp only [Loc.off, Nat.add_assoc, E.val_add, E.val_mul, E.val_lit]

theorem C55_link_schedule_m (kd : KDim) (A_p B_p C_p : Loc) (K p m_r n_r : Nat) (x : BlkDims) :
    schedule_MKN kd A_p B_p C_p K p m_r n_r x =
    (range x.Nb).flatMap fun (n : Nat) =>
      let n_c_t := if n == x.Nb - 1 && x.n_pad then x.n_c1 else x.n_c
      (serp (n % 2 != 0) x.Kb).map fun (k : Nat) =>
        let mdesc := if n % 2 ≠ 0 then (if k % 2 ≠ 0 then false else true)
                     else (if k % 2 ≠ 0 then true else false)
        let last := k == x.Kb - 1 && x.k_pad
        let p_used := if last then x.p_l else p
        let k_cb := if last then x.k_rem else ((p_used : E) * x.k_c).val
        (range x.Mb).map fun (m_ind : Nat) =>
          let m := if mdesc then x.Mb - 1 - m_ind else m_ind
          let m_c_t := if m == x.Mb - 1 && x.m_pad then x.m_c1 else x.m_c
          (range p_used).flatMap fun (core : Nat) =>
            let k_c_t := if last then (if core = x.p_l - 1 then x.k_c1_last_core else x.k_c1) else x.k_c
            let k_c_x := if last then x.k_c1 else x.k_c
            regTiles kd m_ind
              (A_p +ₚ (aIndME k x.M_padded p x.k_c m x.m_c k_cb core m_c_t k_c_x).val)
              (B_p +ₚ (bIndME n K x.n_c k p x.k_c n_c_t core k_c_x).val)
              (C_p +ₚ (cIndME n x.M_padded x.n_c m x.m_c n_c_t).val) m_r n_r m_c_t n_c_t k_c_t := rfl

theorem C55_link_schedule_n (kd : KDim) (A_p B_p C_p : Loc) (K p m_r n_r : Nat) (x : BlkDims) :
    schedule_NKM kd A_p B_p C_p K p m_r n_r x =
    (range x.Mb).flatMap fun (m : Nat) =>
      let m_c_t := if m == x.Mb - 1 && x.m_pad then x.m_c1 else ((p : E) * x.m_c).val
      (serp (m % 2 != 0) x.Kb).map fun (k : Nat) =>
        let ndesc := if m % 2 ≠ 0 then (if k % 2 ≠ 0 then false else true)
                     else (if k % 2 ≠ 0 then true else false)
        let last := k == x.Kb - 1 && x.k_pad
        let p_used := if last then x.p_l else p
        let k_cb := if last then x.k_rem else ((p_used : E) * x.k_c).val
        (range x.Nb).map fun (n_ind : Nat) =>
          let n := if ndesc then x.Nb - 1 - n_ind else n_ind
          let n_c_t := if n == x.Nb - 1 && x.n_pad then x.n_c1 else x.n_c
          (range p_used).flatMap fun (core : Nat) =>
            let k_c_t := if last then (if core = x.p_l - 1 then x.k_c1_last_core else x.k_c1) else x.k_c
            let k_c_x := if last then x.k_c1 else x.k_c
            regTiles kd n_ind
              (A_p +ₚ (aIndNE m p x.m_c K m_c_t k x.k_c core k_c_x).val)
              (B_p +ₚ (bIndNE k p x.k_c x.N_padded n x.n_c k_cb core k_c_x n_c_t).val)
              (C_p +ₚ (cIndNE m p x.m_c x.N_padded m_c_t n x.n_c).val) m_r n_r m_c_t n_c_t k_c_t := rfl

/-! ### M-first -/

/-- C55, M-first. The `int` expressions of an M-first call all stay below `2^31` exactly when the sizes
of the padded A, of the padded B and of the padded C do and the depth `p*k_c` of a K block does,
with or without accumulation into C. Missing from the full statement: the last condition, which
`C55_m_refuted` shows to be necessary. -/
theorem C55_m_no_overflow_iff {M N K p m_r n_r m_c k_c n_c : Nat} (accum : Bool)
    (h : TileOK p m_r n_r m_c k_c n_c) (hN : 0 < N) (hK : 0 < K) (hm : m_c < 2 ^ 31) (hn : n_c < 2 ^ 31) :
    (∀ e ∈ mfirstInts accum M N K p m_r n_r m_c k_c n_c, e.Fits) ↔
      cdiv M m_r * m_r * K < 2 ^ 31 ∧ K * (cdiv N n_r * n_r) < 2 ^ 31 ∧
        cdiv M m_r * m_r * (cdiv N n_r * n_r) < 2 ^ 31 ∧ p * k_c < 2 ^ 31 := by
  rw [← padTo_eq h.m_r_pos h.m_dvd, ← padTo_eq h.n_r_pos h.n_dvd]
  constructor
  · intro hf
    have mem : ∀ e ∈ dimsIntsM M N K p m_r n_r (dimsMKN M N K p m_r n_r m_c k_c n_c) ++
        sizeIntsM M N K m_r (dimsMKN M N K p m_r n_r m_c k_c n_c), e.Fits := fun e he =>
      hf e (mem_append_left _ (mem_append_left _ (mem_append_left _ (mem_append_left _
        (mem_append_left _ he)))))
    have s := fun e he => mem e (mem_append_right _ he)
    have d := fun e he => mem e (mem_append_left _ (mem_append_right _ (mem_append_left _ he)))
    have e2 : (nPaddedE N n_c (cdiv (N % n_c) n_r * n_r : Nat)).val = padTo N n_c n_r := by
      simp only [nPaddedE, E.val_add, E.val_sub, E.val_mod, E.val_lit, padTo, sub_mod_eq]
    have s1 := (s (mPaddedME M m_c ((cdiv (M % m_c) m_r : Nat) * (m_r : E)) * K)
      (by simp [sizeIntsM, dimsMKN])).lt
    have s2 := (s ((K : E) * nPaddedE N n_c (cdiv (N % n_c) n_r * n_r : Nat))
      (by simp [sizeIntsM, dimsMKN])).lt
    have s3 := (s (mPaddedME M m_c ((cdiv (M % m_c) m_r : Nat) * (m_r : E)) *
      nPaddedE N n_c (cdiv (N % n_c) n_r * n_r : Nat)) (by simp [sizeIntsM, dimsMKN])).lt
    have s4 := (d ((K : E) % ((p : E) * k_c)) (by simp [dimsMKN])).2.1.lt
    rw [E.val_mul, e2] at s2 s3
    exact ⟨s1, s2, s3, s4⟩
  · rintro ⟨hA, hB, hC, hpk⟩
    have h2 := padTo_ge N n_c n_r h.n_r_pos
    exact mfirstInts_fits h ⟨hA, hB, hC, Nat.lt_of_le_of_lt (Nat.le_mul_of_pos_right _ hK) hA,
      Nat.lt_of_le_of_lt (Nat.le_mul_of_pos_left _ hK) hB,
      Nat.lt_of_le_of_lt (Nat.le_mul_of_pos_right _ (by omega)) hB, hpk, hm, hn⟩ accum

/-- The conditions are met by a 1000 x 2000 times 2000 x 3000 product on 8 cores with the Haswell
register tile, with accumulation. -/
example : ∀ e ∈ mfirstInts true 1000 3000 2000 8 6 16 96 96 768, e.Fits :=
  (C55_m_no_overflow_iff true
    ⟨by omega, by omega, by omega, by omega, by omega, by omega, by decide, by decide⟩
    (by omega) (by omega) (by decide) (by decide)).2 ⟨by decide, by decide, by decide, by decide⟩

/-- C55, M-first, one direction alone: addressable sizes and an addressable K block suffice. -/
theorem C55_m_no_overflow_partial {M N K p m_r n_r m_c k_c n_c : Nat} (accum : Bool)
    (h : TileOK p m_r n_r m_c k_c n_c) (hN : 0 < N) (hK : 0 < K) (hm : m_c < 2 ^ 31) (hn : n_c < 2 ^ 31)
    (hA : cdiv M m_r * m_r * K < 2 ^ 31) (hB : K * (cdiv N n_r * n_r) < 2 ^ 31)
    (hC : cdiv M m_r * m_r * (cdiv N n_r * n_r) < 2 ^ 31) (hpk : p * k_c < 2 ^ 31) :
    ∀ e ∈ mfirstInts accum M N K p m_r n_r m_c k_c n_c, e.Fits :=
  (C55_m_no_overflow_iff accum h hN hK hm hn).2 ⟨hA, hB, hC, hpk⟩

/-- A ragged case: 7 x 11 times 11 x 35 on 3 cores. -/
example : ∀ e ∈ mfirstInts false 7 35 11 3 6 16 12 2 32, e.Fits :=
  C55_m_no_overflow_partial false
    ⟨by omega, by omega, by omega, by omega, by omega, by omega, by decide, by decide⟩
    (by omega) (by omega) (by decide) (by decide) (by decide) (by decide) (by decide) (by decide)

/-- C55 as stated is false for M-first: with 65536 threads and `k_c = 32768`, `p*k_c` overflows even for
a 1 x 1 product. -/
theorem C55_m_refuted : ¬ ∀ M N K p m_r n_r m_c k_c n_c : Nat, TileOK p m_r n_r m_c k_c n_c →
    cdiv M m_r * m_r * K < 2 ^ 31 → K * (cdiv N n_r * n_r) < 2 ^ 31 →
    cdiv M m_r * m_r * (cdiv N n_r * n_r) < 2 ^ 31 →
    m_c < 2 ^ 31 → k_c < 2 ^ 31 → n_c < 2 ^ 31 → p < 2 ^ 31 →
    ∀ e ∈ mfirstInts false M N K p m_r n_r m_c k_c n_c, e.Fits := by
  intro hall
  have hf := hall 1 1 1 65536 6 16 6 32768 16
    ⟨by omega, by omega, by omega, by omega, by omega, by omega, by decide, by decide⟩
    (by decide) (by decide) (by decide) (by decide) (by decide) (by decide) (by decide)
  have := (C55_m_no_overflow_iff false
    ⟨by omega, by omega, by omega, by omega, by omega, by omega, by decide, by decide⟩
    (by omega) (by omega) (by decide) (by decide)).1 hf
  exact absurd this.2.2.2 (by decide)

/-! ### N-first -/

/-- C55, N-first without accumulation (`beta = 0`): exactly the sizes of the padded operands, the depth
`p*k_c` of a K block and the height `p*m_c` of a row block must be below `2^31`. -/
theorem C55_n_no_overflow_iff {M N K p m_r n_r m_c k_c n_c : Nat}
    (h : TileOK p m_r n_r m_c k_c n_c) (hN : 0 < N) (hK : 0 < K) (hn : n_c < 2 ^ 31) :
    (∀ e ∈ nfirstInts false M N K p m_r n_r m_c k_c n_c, e.Fits) ↔
      cdiv M m_r * m_r * K < 2 ^ 31 ∧ K * (cdiv N n_r * n_r) < 2 ^ 31 ∧
        cdiv M m_r * m_r * (cdiv N n_r * n_r) < 2 ^ 31 ∧ p * k_c < 2 ^ 31 ∧ p * m_c < 2 ^ 31 := by
  rw [← padTo_eq h.m_r_pos h.S_dvd, ← padTo_eq h.n_r_pos h.n_dvd]
  constructor
  · intro hf
    exact nfirst_need (fun e he => hf e (mem_append_left _ (mem_append_left _ (mem_append_left _
      (mem_append_left _ (mem_append_left _ he))))))
  · rintro ⟨hA, hB, hC, hpk, hpm⟩
    exact nfirstInts_fits h (int32_of h hN hK hA hB hC hpk hpm hn) false (by simp)

/-- The conditions are met by a 1000 x 2000 times 2000 x 3000 product on 8 cores. -/
example : ∀ e ∈ nfirstInts false 1000 3000 2000 8 6 16 96 96 768, e.Fits :=
  (C55_n_no_overflow_iff
    ⟨by omega, by omega, by omega, by omega, by omega, by omega, by decide, by decide⟩
    (by omega) (by omega) (by decide)).2 ⟨by decide, by decide, by decide, by decide, by decide⟩

/-- C55, N-first with accumulation (`beta != 0`). Packing C places block `(m, n)` at
`N_padded*m*p*m_c + n*p*m_c*n_c_t`, so that in the last row of blocks the offset can pass the end of the
packed C; exactly these offsets must be below `2^31` as well. -/
theorem C55_n_accum_no_overflow_iff {M N K p m_r n_r m_c k_c n_c : Nat}
    (h : TileOK p m_r n_r m_c k_c n_c) (hM : 0 < M) (hN : 0 < N) (hK : 0 < K) (hn : n_c < 2 ^ 31) :
    (∀ e ∈ nfirstInts true M N K p m_r n_r m_c k_c n_c, e.Fits) ↔
      (cdiv M m_r * m_r * K < 2 ^ 31 ∧ K * (cdiv N n_r * n_r) < 2 ^ 31 ∧
        cdiv M m_r * m_r * (cdiv N n_r * n_r) < 2 ^ 31 ∧ p * k_c < 2 ^ 31 ∧ p * m_c < 2 ^ 31) ∧
      ∀ n, n < cdiv N n_c → cdiv N n_r * n_r * (cdiv M (p * m_c) - 1) * p * m_c +
        n * p * m_c * min n_c (cdiv N n_r * n_r - n * n_c) < 2 ^ 31 := by
  rw [← padTo_eq h.m_r_pos h.S_dvd, ← padTo_eq h.n_r_pos h.n_dvd]
  constructor
  · intro hf
    refine ⟨nfirst_need (fun e he => hf e (mem_append_left _ (mem_append_left _ (mem_append_left _
      (mem_append_left _ (mem_append_left _ he)))))), fun n hnb => ?_⟩
    exact nfirst_need_c h hM (fun e he => hf e (mem_append_left _ (mem_append_left _
      (mem_append_right _ he)))) hnb
  · rintro ⟨⟨hA, hB, hC, hpk, hpm⟩, hcp⟩
    exact nfirstInts_fits h (int32_of h hN hK hA hB hC hpk hpm hn) true fun _ => hcp

/-- Without a ragged last row of blocks (`M` a multiple of `p*m_c`) accumulation adds no condition. -/
theorem C55_n_accum_no_overflow_partial {M N K p m_r n_r m_c k_c n_c : Nat}
    (h : TileOK p m_r n_r m_c k_c n_c) (hM : 0 < M) (hN : 0 < N) (hK : 0 < K) (hn : n_c < 2 ^ 31)
    (hd : p * m_c ∣ M) (hA : M * K < 2 ^ 31) (hB : K * (cdiv N n_r * n_r) < 2 ^ 31)
    (hC : M * (cdiv N n_r * n_r) < 2 ^ 31) (hpk : p * k_c < 2 ^ 31) :
    ∀ e ∈ nfirstInts true M N K p m_r n_r m_c k_c n_c, e.Fits := by
  have hMr : cdiv M m_r * m_r = M := by
    rw [← padTo_eq h.m_r_pos h.S_dvd, padTo, Nat.mod_eq_zero_of_dvd hd, Nat.div_mul_cancel hd]
    simp [cdiv, Nat.div_eq_of_lt (Nat.sub_lt h.m_r_pos Nat.one_pos)]
  have hpm : p * m_c < 2 ^ 31 :=
    Nat.lt_of_le_of_lt (Nat.le_trans (Nat.le_of_dvd hM hd) (Nat.le_mul_of_pos_right _ hK)) hA
  refine (C55_n_accum_no_overflow_iff h hM hN hK hn).2
    ⟨⟨by rwa [hMr], hB, by rwa [hMr], hpk, hpm⟩, fun n hnb => Nat.lt_of_le_of_lt ?_ hC⟩
  obtain ⟨q, rfl⟩ := hd
  have g := h.geoN
  have hcd : cdiv (p * m_c * q) (p * m_c) = q := by
    rw [Nat.mul_comm]; exact cdiv_mul_self _ _ g.mS_pos
  have hq : 0 < q := Nat.pos_of_ne_zero fun h0 => by simp [h0] at hM
  obtain ⟨b1, _, _, _⟩ := n_blk (N := N) g hnb
  rw [padTo_eq h.n_r_pos h.n_dvd] at b1
  have e : sL N n_c n_r n = min n_c (cdiv N n_r * n_r - n * n_c) := by
    unfold sL chopLen; rw [padTo_eq h.n_r_pos h.n_dvd]
  rw [e] at b1
  rw [hcd]
  have hx : n * min n_c (cdiv N n_r * n_r - n * n_c) ≤ cdiv N n_r * n_r :=
    Nat.le_trans (Nat.mul_le_mul_left _ (Nat.min_le_left _ _)) (by omega)
  calc _ = p * m_c * (cdiv N n_r * n_r * (q - 1)) +
        p * m_c * (n * min n_c (cdiv N n_r * n_r - n * n_c)) := by ring
    _ ≤ p * m_c * (cdiv N n_r * n_r * (q - 1)) + p * m_c * (cdiv N n_r * n_r) :=
        Nat.add_le_add_left (Nat.mul_le_mul_left _ hx) _
    _ = p * m_c * (cdiv N n_r * n_r) * (q - 1 + 1) := by ring
    _ = _ := by rw [Nat.sub_add_cancel hq]; ring

/-- A 1536 x 2000 times 2000 x 3000 product on 8 cores, accumulated into C. -/
example : ∀ e ∈ nfirstInts true 1536 3000 2000 8 6 16 96 96 768, e.Fits :=
  C55_n_accum_no_overflow_partial
    ⟨by omega, by omega, by omega, by omega, by omega, by omega, by decide, by decide⟩
    (by omega) (by omega) (by omega) (by decide) ⟨2, rfl⟩ (by decide) (by decide) (by decide) (by decide)

/-- C55 as stated is false for N-first: on 8 cores with `m_c = n_c = 960` a 6 x 1 times 1 x 300480 product
accumulated into C computes a packing offset of 300480*7680 - 960*7680 = 2300313600 although the padded
operands have at most 1802880 elements. -/
theorem C55_n_refuted : ¬ ∀ M N K p m_r n_r m_c k_c n_c : Nat, TileOK p m_r n_r m_c k_c n_c →
    cdiv M m_r * m_r * K < 2 ^ 31 → K * (cdiv N n_r * n_r) < 2 ^ 31 →
    cdiv M m_r * m_r * (cdiv N n_r * n_r) < 2 ^ 31 → p * k_c < 2 ^ 31 → p * m_c < 2 ^ 31 → n_c < 2 ^ 31 →
    ∀ e ∈ nfirstInts true M N K p m_r n_r m_c k_c n_c, e.Fits := by
  intro hall
  have ht : TileOK 8 6 16 960 960 960 :=
    ⟨by omega, by omega, by omega, by omega, by omega, by omega, by decide, by decide⟩
  have hf := hall 6 300480 1 8 6 16 960 960 960 ht
    (by decide) (by decide) (by decide) (by decide) (by decide) (by decide)
  have := ((C55_n_accum_no_overflow_iff ht (by omega) (by omega) (by omega) (by decide)).1 hf).2 312
    (by decide)
  exact absurd this (by decide)

/-- Too large an operand does overflow: here `K*N_padded = 2^31` for a B of 32768 x 65536 on one core with
ordinary tile sizes, in both schedules. -/
theorem C55_large_overflows :
    (¬ ∀ e ∈ mfirstInts false 6 65536 32768 1 6 16 96 96 96, e.Fits) ∧
    ¬ ∀ e ∈ nfirstInts false 6 65536 32768 1 6 16 96 96 96, e.Fits := by
  have ht : TileOK 1 6 16 96 96 96 :=
    ⟨by omega, by omega, by omega, by omega, by omega, by omega, by decide, by decide⟩
  refine ⟨fun hf => ?_, fun hf => ?_⟩
  · exact absurd ((C55_m_no_overflow_iff false ht (by omega) (by omega) (by decide) (by decide)).1 hf).2.1
      (by decide)
  · exact absurd ((C55_n_no_overflow_iff ht (by omega) (by omega) (by decide)).1 hf).2.1 (by decide)

end Cake
