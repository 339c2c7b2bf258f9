/-
C36: 32-bit `int` arithmetic in the K-first path.
-/
import Verif.Proofs.IntRange
import Verif.Props.Demo

namespace Cake
open List

/-! ### The expressions of `Verif.Model.IntRange` are the ones the model computes with

Each theorem is the definition of the model function with every index replaced by the value of the
syntax tree listed in `kfirstInts`. -/

theorem C36_link_dims (M N K p m_r n_r m_c k_c n_c : Nat) :
    let x := dimsKMN M N K p m_r n_r m_c k_c n_c
    let mr_per_core : E := cdiv x.mr_rem p
    x.mr_rem = cdiv ((M : E) % ((p : E) * m_c)).val m_r ∧
    x.nr_rem = cdiv ((N : E) % n_c).val n_r ∧
    x.n_c1 = ((x.nr_rem : E) * n_r).val ∧
    x.m_c1 = (mr_per_core * m_r).val ∧
    x.m_c1_last_core = ((mr_per_core - (x.p_l * mr_per_core - x.mr_rem)) * m_r).val ∧
    x.k_c1 = ((K : E) % k_c).val ∧
    x.Mb = ((M : E) / ((p : E) * m_c) + x.m_pad.toNat).val ∧
    x.Nb = ((N : E) / n_c + x.n_pad.toNat).val ∧
    x.Kb = ((K : E) / k_c + x.k_pad.toNat).val ∧
    x.M_padded = (mPaddedE M p m_r m_c x.mr_rem).val ∧
    x.N_padded = (nPaddedE N n_c x.n_c1).val :=
  ⟨rfl, rfl, rfl, rfl, rfl, rfl, rfl, rfl, rfl, rfl, rfl⟩

theorem C36_link_obA (A A_p : Loc) (M K m1 m2 m_c k_c m_r : Nat) :
    pack_ob_A_single_buf A A_p M K m1 m2 m_c k_c m_r =
    (loopS (cfor 0 m_c m_r) (fun m3 s => loopS (range k_c) (fun i s => loopS (range m_r)
      (fun (j ind_ob : Nat) =>
        ([if ((m1 : E) + m2 + m3 + j).val ≥ M then Op.zero (A_p +ₚ ind_ob)
          else Op.copy (A_p +ₚ ind_ob) (A +ₚ ((m3 : E) * K + i + j * K).val)],
          ((ind_ob : E) + 1).val)) s) s) 0).1 := rfl

theorem C36_link_packA (A A_p : Loc) (M K p m_r : Nat) (x : BlkDims) :
    pack_A_k_first A A_p M K p m_r x =
    (loopS (range x.Mb) (fun m s =>
      let last := m == x.Mb - 1 && x.m_pad
      let p_used := if last then x.p_l else p
      let m_cb := if last then ((m_r : E) * x.mr_rem).val else ((p_used : E) * x.m_c).val
      loopS (range x.Kb) (fun (k A_p_offset : Nat) =>
        let k_c_t := if k == x.Kb - 1 && x.k_pad then x.k_c1 else x.k_c
        ([(range p_used).map fun core =>
            let m_c_t := if last then (if core = x.p_l - 1 then x.m_c1_last_core else x.m_c1)
              else x.m_c
            let m_c_x := if last then x.m_c1 else x.m_c
            pack_ob_A_single_buf (A +ₚ (aOffE m p x.m_c K k x.k_c core m_c_x).val)
              (A_p +ₚ ((A_p_offset : E) + core * m_c_x * k_c_t).val) M K (rowE m p x.m_c).val
              ((core : E) * m_c_x).val m_c_t k_c_t m_r],
          ((A_p_offset : E) + (m_cb : E) * k_c_t).val)) s) 0).1 := rfl

theorem C36_link_packB (B B_p : Loc) (K N n_r : Nat) (x : BlkDims) :
    pack_B_k_first B B_p K N n_r x =
    (let k_c := x.k_c
     let n_c := x.n_c
     let k_c1 := x.k_c1
     let n_c1 := x.n_c1
     let Kq : E := (K : E) - K % k_c
     let main := loopS (cfor 0 ((N : E) - N % n_c).val n_c) (fun (n1 ind1 : Nat) =>
       let ph1 := (cfor 0 Kq.val k_c).map fun (k1 : Nat) =>
         (loopS (cfor 0 n_c n_r) (fun n2 s => loopS (range k_c) (fun i s => loopS (range n_r)
           (fun (j local_ind : Nat) =>
             ([Op.copy (B_p +ₚ (bDst1E ind1 local_ind k1 k_c n_c).val)
                 (B +ₚ (bSrcE n1 k1 N n2 i j).val)], ((local_ind : E) + 1).val)) s) s) 0).1
       let ind1 := ((ind1 : E) + Kq * n_c).val
       if k_c1 ≠ 0 then
         let ph2 := (cfor 0 n_c n_r).map fun (n2 : Nat) =>
           (loopS (range k_c1) (fun i s => loopS (range n_r) (fun (j local_ind : Nat) =>
             ([Op.copy (B_p +ₚ (bDst2E ind1 local_ind n2 k_c1).val)
                 (B +ₚ (bSrcE n1 Kq.val N n2 i j).val)], ((local_ind : E) + 1).val)) s) 0).1
         ([ph1, ph2], ((ind1 : E) + (k_c1 : E) * n_c).val)
       else ([ph1], ind1)) 0
     let ind1 := main.2
     let n1 : Nat := ((N : E) - N % n_c).val
     main.1 ++
       if n_c1 ≠ 0 then
         let ph1 := (cfor 0 Kq.val k_c).map fun (k1 : Nat) =>
           (loopS (cfor 0 n_c1 n_r) (fun n2 s => loopS (range k_c) (fun i s => loopS (range n_r)
             (fun (j local_ind : Nat) =>
               ([if ((n1 : E) + n2 + j).val ≥ N then
                   Op.zero (B_p +ₚ (bDst1E ind1 local_ind k1 k_c n_c1).val)
                 else Op.copy (B_p +ₚ (bDst1E ind1 local_ind k1 k_c n_c1).val)
                   (B +ₚ (bSrcE n1 k1 N n2 i j).val)], ((local_ind : E) + 1).val)) s) s) 0).1
         let ind1 := ((ind1 : E) + Kq * n_c1).val
         if k_c1 ≠ 0 then
           let ph2 := (cfor 0 n_c1 n_r).map fun (n2 : Nat) =>
             (loopS (range k_c1) (fun i s => loopS (range n_r) (fun (j local_ind : Nat) =>
               ([if ((n1 : E) + n2 + j).val ≥ N then
                   Op.zero (B_p +ₚ (bDst2E ind1 local_ind n2 k_c1).val)
                 else Op.copy (B_p +ₚ (bDst2E ind1 local_ind n2 k_c1).val)
                   (B +ₚ (bSrcE n1 Kq.val N n2 i j).val)], ((local_ind : E) + 1).val)) s) 0).1
           [ph1, ph2]
         else [ph1]
       else []) := rfl

theorem C36_link_unpack (C C_p : Loc) (M N m1 n1 m2 m_c n_c m_r n_r : Nat) :
    unpack_ob_C_single_buf C C_p M N m1 n1 m2 m_c n_c m_r n_r =
    (loopS (cfor 0 n_c n_r) (fun n2 s => loopS (cfor 0 m_c m_r) (fun m3 s =>
      loopS (range m_r) (fun i s => loopS (range n_r) (fun (j ind2 : Nat) =>
        (if ((n1 : E) + n2 + j).val < N ∧ ((m1 : E) + m2 + m3 + i).val < M then
          [Op.copy (C +ₚ ((n2 : E) + m3 * N + i * N + j).val) (C_p +ₚ ind2)] else [],
          ((ind2 : E) + 1).val)) s) s) s) 0).1 := rfl

theorem C36_link_regTiles (kd : KDim) (t : Nat) (A B C : Loc) (a_ind b_ind : E)
    (m_r n_r m_c_t n_c_t k_c_t : Nat) :
    regTiles kd t (A +ₚ a_ind.val) (B +ₚ b_ind.val) C m_r n_r m_c_t n_c_t k_c_t =
    (range ((n_c_t : E) / n_r).val).flatMap fun (n_reg : Nat) =>
      (range ((m_c_t : E) / m_r).val).flatMap fun (m_reg : Nat) =>
        kernel kd.L kd.m kd.nl t (A +ₚ (a_ind + (m_reg : E) * m_r * k_c_t).val)
          (B +ₚ (b_ind + (n_reg : E) * k_c_t * n_r).val)
          (C +ₚ ((n_reg : E) * m_c_t * n_r + (m_reg : E) * m_r * n_r).val) n_r k_c_t := by
  unfold regTiles
  refine flatMap_congr fun n_reg _ => flatMap_congr fun m_reg _ => ?_
  simp only [Loc.off, Nat.add_assoc, E.val_add, E.val_mul, E.val_lit]

theorem C36_link_schedule (kd : KDim) (A_p B_p C : Loc) (M N K p m_r n_r : Nat) (x : BlkDims) :
    schedule_KMN kd A_p B_p C M N K p m_r n_r x =
    (range x.Nb).flatMap fun (n : Nat) =>
      let nlast := n == x.Nb - 1 && x.n_pad
      let n_c_t := if nlast then x.n_c1 else x.n_c
      let n1 := if nlast then ((N : E) - N % x.n_c).val else ((n : E) * x.n_c).val
      (serp (n % 2 != 0) x.Mb).flatMap fun (m : Nat) =>
        let kdesc := if n % 2 ≠ 0 then (if m % 2 ≠ 0 then false else true)
                     else (if m % 2 ≠ 0 then true else false)
        let last := m == x.Mb - 1 && x.m_pad
        let p_used := if last then x.p_l else p
        let m_cb := if last then ((m_r : E) * x.mr_rem).val else ((p_used : E) * x.m_c).val
        let m1 := if last then ((M : E) - M % ((p : E) * x.m_c)).val else (rowE m p x.m_c).val
        let compute := (range p_used).map fun (core : Nat) =>
          let m_c_t := if last then (if core = x.p_l - 1 then x.m_c1_last_core else x.m_c1) else x.m_c
          let m_c_x := if last then x.m_c1 else x.m_c
          (serp kdesc x.Kb).flatMap fun (k : Nat) =>
            let k_c_t := if k == x.Kb - 1 && x.k_pad then x.k_c1 else x.k_c
            regTiles kd core (A_p +ₚ (aIndE m p x.m_c K k m_cb x.k_c core m_c_x k_c_t).val)
              (B_p +ₚ (bIndE n K x.n_c k x.k_c n_c_t).val) ⟨.CpC core, 0⟩ m_r n_r m_c_t n_c_t k_c_t
        let unpack := (range p_used).map fun (core : Nat) =>
          let m_c_t := if last then (if core = x.p_l - 1 then x.m_c1_last_core else x.m_c1) else x.m_c
          let m_c_x := if last then x.m_c1 else x.m_c
          unpack_ob_C_single_buf (C +ₚ (cOffE m p x.m_c N n x.n_c core m_c_x).val) ⟨.CpC core, 0⟩
            M N m1 n1 ((core : E) * m_c_x).val m_c_t n_c_t m_r n_r ++
          memset0 ⟨.CpC core, 0⟩ ((x.m_c : E) * x.n_c).val
        [compute, unpack] := rfl

/-! ### The property -/

/-- C36. If the sizes of A padded to whole register tiles of rows, of B padded to whole register tiles
of columns and of C padded both ways are below `2^31`, then no `int` expression of the K-first block
sizing, packing, schedule and unpacking overflows (nor is a negative difference or a division by zero
evaluated). Missing from the full statement: it also needs `p*m_c` and `m_c*n_c` to fit, which
`C36_refuted` shows to be necessary, and `k_c` to be an `int` at all. -/
theorem C36_no_overflow_partial {M N K p m_r n_r m_c k_c n_c : Nat}
    (h : TileOK p m_r n_r m_c k_c n_c) (hN : 0 < N) (hK : 0 < K)
    (hA : cdiv M m_r * m_r * K < 2 ^ 31) (hB : K * (cdiv N n_r * n_r) < 2 ^ 31)
    (hC : cdiv M m_r * m_r * (cdiv N n_r * n_r) < 2 ^ 31)
    (hk : k_c < 2 ^ 31) (hpm : p * m_c < 2 ^ 31) (hmn : m_c * n_c < 2 ^ 31) :
    ∀ e ∈ kfirstInts M N K p m_r n_r m_c k_c n_c, e.Fits := by
  rw [← padTo_eq h.m_r_pos h.S_dvd] at hA hC
  rw [← padTo_eq h.n_r_pos h.n_dvd] at hB hC
  have h1 := padTo_ge M (p * m_c) m_r h.m_r_pos
  have h2 := padTo_ge N n_c n_r h.n_r_pos
  refine kfirstInts_fits h ⟨⟨?_, ?_, ?_, hk, hpm, hmn⟩, hA, hB, hC⟩
  · exact Nat.lt_of_le_of_lt (Nat.le_mul_of_pos_right _ hK) hA
  · exact Nat.lt_of_le_of_lt (Nat.le_mul_of_pos_left _ hK) hB
  · exact Nat.lt_of_le_of_lt (Nat.le_mul_of_pos_right _ (by omega)) hB

/-- The hypotheses are met by a 1000 x 2000 times 2000 x 3000 product on 8 cores with the Haswell
register tile. -/
example : ∀ e ∈ kfirstInts 1000 3000 2000 8 6 16 96 96 768, e.Fits :=
  C36_no_overflow_partial (p := 8)
    ⟨by omega, by omega, by omega, by omega, by omega, by omega, by decide, by decide⟩
    (by omega) (by omega) (by decide) (by decide) (by decide) (by decide) (by decide)
    (by decide)

/-- The size conditions other than the one on C are also necessary: a call evaluates
`M_padded*K`, `K*N_padded`, `p*m_c` and `m_c*n_c` before anything else. So, for a C whose padded size is
below `2^31`, they decide exactly whether a call overflows. -/
theorem C36_no_overflow_iff {M N K p m_r n_r m_c k_c n_c : Nat}
    (h : TileOK p m_r n_r m_c k_c n_c) (hN : 0 < N) (hK : 0 < K) (hk : k_c < 2 ^ 31)
    (hC : cdiv M m_r * m_r * (cdiv N n_r * n_r) < 2 ^ 31) :
    (∀ e ∈ kfirstInts M N K p m_r n_r m_c k_c n_c, e.Fits) ↔
      cdiv M m_r * m_r * K < 2 ^ 31 ∧ K * (cdiv N n_r * n_r) < 2 ^ 31 ∧ p * m_c < 2 ^ 31 ∧
        m_c * n_c < 2 ^ 31 := by
  constructor
  · intro hf
    have mem : ∀ e ∈ dimsInts M N K p m_r n_r (dimsKMN M N K p m_r n_r m_c k_c n_c) ++
        sizeInts M N K p m_r (dimsKMN M N K p m_r n_r m_c k_c n_c), e.Fits := by
      intro e he
      exact hf e (mem_append_left _ (mem_append_left _ (mem_append_left _ he)))
    have s := fun e he => mem e (mem_append_right _ he)
    have d := fun e he => mem e (mem_append_left _ he)
    have s1 := (s (mPaddedE M p m_r m_c (cdiv (M % (p * m_c)) m_r : Nat) * K)
      (by simp [sizeInts, dimsKMN])).lt
    have s2 := (s ((K : E) * nPaddedE N n_c (cdiv (N % n_c) n_r * n_r : Nat))
      (by simp [sizeInts, dimsKMN])).lt
    have s3 := (s ((m_c : E) * n_c) (by simp [sizeInts, dimsKMN])).lt
    have s4 := (d ((M : E) % ((p : E) * m_c)) (by simp [dimsInts, dimsKMN])).2.1.lt
    rw [← padTo_eq h.m_r_pos h.S_dvd, ← padTo_eq h.n_r_pos h.n_dvd]
    have e1 : (mPaddedE M p m_r m_c (cdiv (M % (p * m_c)) m_r : Nat)).val =
        padTo M (p * m_c) m_r := by
      simp only [mPaddedE, E.val_add, E.val_mul, E.val_div, E.val_lit, padTo]; ring
    have e2 : (nPaddedE N n_c (cdiv (N % n_c) n_r * n_r : Nat)).val = padTo N n_c n_r := by
      simp only [nPaddedE, E.val_add, E.val_sub, E.val_mod, E.val_lit, padTo, sub_mod_eq]
    rw [E.val_mul, e1] at s1
    rw [E.val_mul, e2] at s2
    exact ⟨s1, s2, s4, s3⟩
  · rintro ⟨h1, h2, h3, h4⟩
    exact C36_no_overflow_partial h hN hK h1 h2 hC hk h3 h4

/-- C36 as stated is false: with tile sizes of 49152 x 65536 (whole multiples of the Haswell register
tile) even a 1 x 1 product overflows, in the size `m_c*n_c` of the private C block. -/
theorem C36_refuted : ¬ ∀ M N K p m_r n_r m_c k_c n_c : Nat, TileOK p m_r n_r m_c k_c n_c →
    cdiv M m_r * m_r * K < 2 ^ 31 → K * (cdiv N n_r * n_r) < 2 ^ 31 →
    cdiv M m_r * m_r * (cdiv N n_r * n_r) < 2 ^ 31 →
    m_c < 2 ^ 31 → k_c < 2 ^ 31 → n_c < 2 ^ 31 →
    ∀ e ∈ kfirstInts M N K p m_r n_r m_c k_c n_c, e.Fits := by
  intro hall
  have hf := hall 1 1 1 1 6 16 49152 1 65536
    ⟨by omega, by omega, by omega, by omega, by omega, by omega, by decide, by decide⟩
    (by decide) (by decide) (by decide) (by decide) (by decide) (by decide)
  have := (C36_no_overflow_iff
    ⟨by omega, by omega, by omega, by omega, by omega, by omega, by decide, by decide⟩
    (by omega) (by omega) (by decide) (by decide)).1 hf
  exact absurd this.2.2.2 (by decide)

/-- With A or B or C too large the call does overflow: here K*N_padded = 2^31 for a B of 32768 x 65536
on one core with ordinary tile sizes. -/
theorem C36_large_overflows :
    ¬ ∀ e ∈ kfirstInts 6 65536 32768 1 6 16 96 96 96, e.Fits := by
  intro hf
  have := (C36_no_overflow_iff
    ⟨by omega, by omega, by omega, by omega, by omega, by omega, by decide, by decide⟩
    (by omega) (by omega) (by decide) (by decide)).1 hf
  exact absurd this.2.1 (by decide)

end Cake
