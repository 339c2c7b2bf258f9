/-
C63: 32-bit `int` arithmetic of `cake_sgemm_online` and `cake_sgemm_2d`.
-/
import Verif.Proofs.IntRangeOn
import Verif.Props.Demo

namespace Cake
open List

/-! ### The expressions of `Verif.Model.IntRangeOn` are the ones the model computes with

Each theorem is the definition of the model function with every index replaced by the value of the syntax tree listed in
`onlineInts` or `twoDInts`. (For the block sizing of `cake_sgemm_online` and for the unpacking see `C36_link_dims` and
`C36_link_unpack`.) -/

theorem C63_link_online (kd : KDim) (A B C : Loc) (M N K p m_r n_r : Nat) (x : BlkDims) :
    schedule_KMN_online kd A B C M N K p m_r n_r x =
    (range x.Nb).flatMap fun (n : Nat) =>
      let m_start := if n % 2 ≠ 0 then x.Mb - 1 else 0
      let nlast := n == x.Nb - 1 && x.n_pad
      let n_c_t := if nlast then x.n_c1 else x.n_c
      let n1 := if nlast then ((N : E) - N % x.n_c).val else ((n : E) * x.n_c).val
      (serp (n % 2 != 0) x.Mb).flatMap fun (m : Nat) =>
        let kdesc := if n % 2 ≠ 0 then (if m % 2 ≠ 0 then false else true)
                     else (if m % 2 ≠ 0 then true else false)
        let k_start := if kdesc then x.Kb - 1 else 0
        let last := m == x.Mb - 1 && x.m_pad
        let p_used := if last then x.p_l else p
        let m1 := if last then ((M : E) - M % ((p : E) * x.m_c)).val else (rowE m p x.m_c).val
        ((serp kdesc x.Kb).flatMap fun (k : Nat) =>
          let k_c_t := if k == x.Kb - 1 && x.k_pad then x.k_c1 else x.k_c
          let packB := if k == k_start && m != m_start then [] else
            [(cfor 0 n_c_t n_r).map fun (n2 : Nat) =>
              B_packing_kernel n_r k_c_t (B +ₚ ((n1 : E) + (k : E) * x.k_c * N + n2).val) N
                (⟨.Bp, 0⟩ +ₚ ((n2 : E) * k_c_t).val)]
          let compute := (range p_used).map fun (core : Nat) =>
            let m_c_t := if last then (if core = x.p_l - 1 then x.m_c1_last_core else x.m_c1) else x.m_c
            let m_c_x := if last then x.m_c1 else x.m_c
            (if k == k_start && m == m_start && n != 0 then [] else
              (cfor 0 m_c_t m_r).flatMap fun (m3 : Nat) =>
                A_packing_kernel m_r k_c_t (A +ₚ (aOffE m p x.m_c K k x.k_c core m_c_x + (m3 : E) * K).val) K
                  (⟨.ApC core, 0⟩ +ₚ ((m3 : E) * k_c_t).val)) ++
            regTiles kd core (⟨.ApC core, 0⟩ +ₚ (0 : E).val) (⟨.Bp, 0⟩ +ₚ (0 : E).val) ⟨.CpC core, 0⟩ m_r n_r
              m_c_t n_c_t k_c_t
          packB ++ [compute]) ++
        [(range p_used).map fun (core : Nat) =>
          let m_c_t := if last then (if core = x.p_l - 1 then x.m_c1_last_core else x.m_c1) else x.m_c
          let m_c_x := if last then x.m_c1 else x.m_c
          unpack_ob_C_single_buf (C +ₚ (cOffE m p x.m_c N n x.n_c core m_c_x).val) ⟨.CpC core, 0⟩ M N m1 n1
            ((core : E) * m_c_x).val m_c_t n_c_t m_r n_r ++
          memset0 ⟨.CpC core, 0⟩ ((x.m_c : E) * x.n_c).val] := rfl

theorem C63_link_dims2d {M N K m_r n_r pm pn m_c k_c n_c : Nat} {x : BlkDims2}
    (hx : dims2d M N K m_r n_r pm pn m_c k_c n_c = some x) :
    let mr_per_core : E := cdiv x.mr_rem pm
    let nr_per_core : E := cdiv x.nr_rem pn
    x.mr_rem = cdiv ((M : E) % ((pm : E) * m_c)).val m_r ∧
    x.nr_rem = cdiv ((N : E) % ((pn : E) * n_c)).val n_r ∧
    x.m_c1 = (mr_per_core * m_r).val ∧
    x.n_c1 = (nr_per_core * n_r).val ∧
    x.m_c1_last_core = ((mr_per_core - (x.pm_l * mr_per_core - x.mr_rem)) * m_r).val ∧
    x.n_c1_last_core = ((nr_per_core - (x.pn_l * nr_per_core - x.nr_rem)) * n_r).val ∧
    x.k_c1 = ((K : E) % k_c).val ∧
    x.Mb = ((M : E) / ((pm : E) * m_c) + x.m_pad.toNat).val ∧
    x.Nb = ((N : E) / ((pn : E) * n_c) + x.n_pad.toNat).val ∧
    x.Kb = ((K : E) / k_c + x.k_pad.toNat).val ∧
    x.M_padded = ((m_r : E) * x.mr_rem + (M : E) / ((pm : E) * m_c) * pm * m_c).val ∧
    x.N_padded = ((n_r : E) * x.nr_rem + (N : E) / ((pn : E) * n_c) * pn * n_c).val := by
  unfold dims2d at hx
  split at hx
  · exact absurd hx (by simp)
  · rw [Option.some.injEq] at hx
    subst hx
    exact ⟨rfl, rfl, rfl, rfl, rfl, rfl, rfl, rfl, rfl, rfl, rfl, rfl⟩

theorem C63_link_fit2d (padded pm m_c mr : Nat) :
    fit2d padded pm m_c mr =
    if padded = ((pm : E) * mr).val then (1, mr)
    else if padded < ((pm : E) * m_c).val then
      let a := ((padded : E) / pm).val
      if a < mr then (((padded : E) / mr).val, mr) else (pm, (roundUpE a mr).val)
    else (pm, m_c) := by
  simp only [roundUpE_val]
  rfl

theorem C63_link_init2d (M N K p m_r n_r pn m_c k_c : Nat) :
    init_block_dims_2d M N K p m_r n_r pn m_c k_c =
    if pn = 0 then none else
    let pm := ((p : E) / pn).val
    let f := fit2d (roundUpE M m_r).val pm m_c m_r
    let n_c := (roundUpE f.2 n_r).val
    let g := fit2d (roundUpE N n_r).val pn n_c n_r
    dims2d M N K m_r n_r f.1 g.1 f.2 k_c g.2 := by
  simp only [roundUpE_val]
  rfl

theorem C63_link_2d (kd : KDim) (A B C : Loc) (M N K m_r n_r : Nat) (x : BlkDims2) :
    schedule_KMN_2d kd A B C M N K m_r n_r x =
    (range x.Nb).flatMap fun (n : Nat) =>
      let m_start := if n % 2 ≠ 0 then x.Mb - 1 else 0
      let nlast := n == x.Nb - 1 && x.n_pad
      let p_used_n := if nlast then x.pn_l else x.pn
      let n_cb := if nlast then ((n_r : E) * x.nr_rem).val else ((x.pn : E) * x.n_c).val
      let n1 := if nlast then ((N : E) - N % ((x.pn : E) * x.n_c)).val else (rowE n x.pn x.n_c).val
      (serp (n % 2 != 0) x.Mb).flatMap fun (m : Nat) =>
        let kdesc := if n % 2 ≠ 0 then (if m % 2 ≠ 0 then false else true)
                     else (if m % 2 ≠ 0 then true else false)
        let k_start := if kdesc then x.Kb - 1 else 0
        let last := m == x.Mb - 1 && x.m_pad
        let p_used_m := if last then x.pm_l else x.pm
        let m_cb := if last then ((m_r : E) * x.mr_rem).val else ((x.pm : E) * x.m_c).val
        let m1 := if last then ((M : E) - M % ((x.pm : E) * x.m_c)).val else (rowE m x.pm x.m_c).val
        let p_used := ((p_used_m : E) * p_used_n).val
        ((serp kdesc x.Kb).flatMap fun (k : Nat) =>
          let k_c_t := if k == x.Kb - 1 && x.k_pad then x.k_c1 else x.k_c
          let A_offset : E := rowE m x.pm x.m_c * K + (k : E) * x.k_c
          let B_offset : E := rowE n x.pn x.n_c + (k : E) * x.k_c * N
          let packB := if k == k_start && m != m_start then [] else
            [(cfor 0 n_cb n_r).map fun (n2 : Nat) =>
              B_packing_kernel n_r k_c_t (B +ₚ (B_offset + n2).val) N (⟨.Bp, 0⟩ +ₚ ((n2 : E) * k_c_t).val)]
          let packA := if k == k_start && m == m_start && n != 0 then [] else
            [(cfor 0 m_cb m_r).map fun (m3 : Nat) =>
              A_packing_kernel m_r k_c_t (A +ₚ (A_offset + (m3 : E) * K).val) K (⟨.Ap, 0⟩ +ₚ ((m3 : E) * k_c_t).val)]
          let compute := (range p_used).map fun (core : Nat) =>
            let m_c_t := if last then (if core / p_used_n = x.pm_l - 1 then x.m_c1_last_core else x.m_c1)
                         else x.m_c
            let m_c_x := if last then x.m_c1 else x.m_c
            let n_c_t := if nlast then (if core % p_used_n = x.pn_l - 1 then x.n_c1_last_core else x.n_c1)
                         else x.n_c
            let n_c_x := if nlast then x.n_c1 else x.n_c
            regTiles kd core (⟨.Ap, 0⟩ +ₚ ((core : E) / p_used_n * m_c_x * k_c_t).val)
              (⟨.Bp, 0⟩ +ₚ ((core : E) % p_used_n * n_c_x * k_c_t).val) ⟨.CpC core, 0⟩ m_r n_r m_c_t n_c_t k_c_t
          packB ++ packA ++ [compute]) ++
        [(range p_used).map fun (core : Nat) =>
          let m_c_t := if last then (if core / p_used_n = x.pm_l - 1 then x.m_c1_last_core else x.m_c1)
                       else x.m_c
          let m_c_x := if last then x.m_c1 else x.m_c
          let n_c_t := if nlast then (if core % p_used_n = x.pn_l - 1 then x.n_c1_last_core else x.n_c1)
                       else x.n_c
          let n_c_x := if nlast then x.n_c1 else x.n_c
          let C_offset : E := rowE m x.pm x.m_c * N + rowE n x.pn x.n_c
          unpack_ob_C_single_buf
            (C +ₚ (C_offset + (core : E) / p_used_n * m_c_x * N + (core : E) % p_used_n * n_c_x).val) ⟨.CpC core, 0⟩
            M N m1 ((n1 : E) + (core : E) % p_used_n * n_c_x).val ((core : E) / p_used_n * m_c_x).val m_c_t n_c_t
            m_r n_r ++
          memset0 ⟨.CpC core, 0⟩ ((x.m_c : E) * x.n_c).val] := rfl

/-! ### `cake_sgemm_online` -/

/-- C63 for `cake_sgemm_online`: for operands whose own sizes fit an `int`, exactly when no `int` expression of a call
overflows (nor a negative difference or a division by zero is evaluated): when the two padded dimensions, the number of
rows of a block of A and the three buffers fit. Unlike the packed product (`C36_no_overflow_iff`) the padded operands
need not fit, since they are never stored. -/
theorem C63_online_iff {M N K p m_r n_r m_c k_c n_c : Nat} (h : TileOK p m_r n_r m_c k_c n_c) (hM : 0 < M)
    (hMK : M * K < 2 ^ 31) (hKN : K * N < 2 ^ 31) (hMN : M * N < 2 ^ 31) :
    (∀ e ∈ onlineInts M N K p m_r n_r m_c k_c n_c, e.Fits) ↔
      cdiv M m_r * m_r < 2 ^ 31 ∧ cdiv N n_r * n_r < 2 ^ 31 ∧ p * m_c < 2 ^ 31 ∧
        m_c * k_c < 2 ^ 31 ∧ k_c * n_c < 2 ^ 31 ∧ m_c * n_c < 2 ^ 31 := by
  constructor
  · intro hf
    have hf' : ∀ e ∈ dimsInts M N K p m_r n_r (dimsKMN M N K p m_r n_r m_c k_c n_c) ++
        [(m_c : E) * k_c, (k_c : E) * n_c, (m_c : E) * n_c], e.Fits := fun e he => hf e (mem_append_left _ he)
    have d := fun e he => hf' e (mem_append_left _ he)
    have s := fun e he => hf' e (mem_append_right _ he)
    have s1 := (s ((m_c : E) * k_c) (by simp)).lt
    have s2 := (s ((k_c : E) * n_c) (by simp)).lt
    have s3 := (s ((m_c : E) * n_c) (by simp)).lt
    have d1 := (d ((M : E) % ((p : E) * m_c)) (by simp [dimsInts, dimsKMN])).2.1.lt
    have d2 := (d (mPaddedE M p m_r m_c (cdiv (M % (p * m_c)) m_r : Nat)) (by simp [dimsInts, dimsKMN])).lt
    have d3 := (d (nPaddedE N n_c (cdiv (N % n_c) n_r * n_r : Nat)) (by simp [dimsInts, dimsKMN])).lt
    have e1 : (mPaddedE M p m_r m_c (cdiv (M % (p * m_c)) m_r : Nat)).val = padTo M (p * m_c) m_r := by
      simp only [mPaddedE, E.val_add, E.val_mul, E.val_div, E.val_lit, padTo]; ring
    have e2 : (nPaddedE N n_c (cdiv (N % n_c) n_r * n_r : Nat)).val = padTo N n_c n_r := by
      simp only [nPaddedE, E.val_add, E.val_sub, E.val_mod, E.val_lit, padTo, sub_mod_eq]
    rw [e1, padTo_eq h.m_r_pos h.S_dvd] at d2
    rw [e2, padTo_eq h.n_r_pos h.n_dvd] at d3
    exact ⟨d2, d3, d1, s1, s2, s3⟩
  · rintro ⟨h1, h2, h3, h4, h5, h6⟩
    rw [← padTo_eq h.m_r_pos h.S_dvd] at h1
    rw [← padTo_eq h.n_r_pos h.n_dvd] at h2
    refine onlineInts_fits h ⟨h1, h2, ?_, ?_, h3, h6⟩ hMK hKN hMN h4 h5
    · exact Nat.lt_of_le_of_lt (Nat.le_mul_of_pos_left _ hM) hMK
    · exact Nat.lt_of_le_of_lt (Nat.le_mul_of_pos_left _ h.m_c_pos) h4

/-- The conditions hold for a 1000 x 2000 times 2000 x 3000 product on 8 cores with the Haswell register tile. -/
example : ∀ e ∈ onlineInts 1000 3000 2000 8 6 16 96 96 768, e.Fits :=
  (C63_online_iff ⟨by omega, by omega, by omega, by omega, by omega, by omega, by decide, by decide⟩
    (by omega) (by decide) (by decide) (by decide)).2
    ⟨by decide, by decide, by decide, by decide, by decide, by decide⟩

/-- The product on the fly fits where the packed one does not: M = 2 rows and K = 2^30 - 1, where the packed A has a
multiple of 6 rows. -/
theorem C63_online_beats_packed :
    (∀ e ∈ onlineInts 2 2 (2 ^ 30 - 1) 1 6 16 96 96 96, e.Fits) ∧
    ¬ ∀ e ∈ kfirstInts 2 2 (2 ^ 30 - 1) 1 6 16 96 96 96, e.Fits := by
  have h : TileOK 1 6 16 96 96 96 :=
    ⟨by omega, by omega, by omega, by omega, by omega, by omega, by decide, by decide⟩
  refine ⟨(C63_online_iff h (by omega) (by decide) (by decide) (by decide)).2
    ⟨by decide, by decide, by decide, by decide, by decide, by decide⟩, fun hf => ?_⟩
  have := (hf (mPaddedE (2 : Nat) (1 : Nat) (6 : Nat) (96 : Nat) (cdiv (2 % (1 * 96)) 6 : Nat) * (2 ^ 30 - 1 : Nat))
    (mem_append_left _ (mem_append_left _ (mem_append_left _ (mem_append_right _ (by simp [sizeInts, dimsKMN])))))).lt
  revert this
  decide

/-! ### `cake_sgemm_2d` -/

/-- C63 for `cake_sgemm_2d`: for operands whose own sizes fit an `int`, exactly when no `int` expression of a call
overflows, with `g` the grid and tile after they have been shrunk to small operands (`grid2`). -/
theorem C63_2d_iff {M N K p m_r n_r pn m_c k_c : Nat} (h : Fit2 M N p m_r n_r pn m_c k_c) (hp : p < 2 ^ 31)
    (hmc : m_c < 2 ^ 31) (hMK : M * K < 2 ^ 31) (hKN : K * N < 2 ^ 31) (hMN : M * N < 2 ^ 31) :
    let g := grid2 M N p m_r n_r pn m_c
    (∀ e ∈ twoDInts M N K p m_r n_r pn m_c k_c, e.Fits) ↔
      cdiv M m_r * m_r < 2 ^ 31 ∧ cdiv N n_r * n_r < 2 ^ 31 ∧ m_r + n_r < 2 ^ 31 ∧ m_r * n_r < 2 ^ 31 ∧
      (cdiv M m_r * m_r = p / pn * m_r ∨ p / pn * m_c < 2 ^ 31) ∧ cdiv g.m_c n_r * n_r < 2 ^ 31 ∧
      (cdiv N n_r * n_r = pn * n_r ∨ pn * (cdiv g.m_c n_r * n_r) < 2 ^ 31) ∧
      g.m_c * g.n_c < 2 ^ 31 ∧ g.pm * g.m_c * k_c < 2 ^ 31 ∧ g.pn * g.n_c * k_c < 2 ^ 31 := by
  intro g
  have hmr := h.m_r_pos
  have hnr := h.n_r_pos
  rw [← roundUpC_cdiv hmr, ← roundUpC_cdiv hnr, ← roundUpC_cdiv hnr]
  constructor
  · intro hf
    obtain ⟨g1, g2, g3⟩ := h.grid
    obtain ⟨x, hx⟩ := dims2d_some (M := M) (N := N) (K := K) g1 g2.p_pos
    have hi := hx
    rw [← init2d_eq h.pn_pos] at hi
    unfold twoDInts at hf
    rw [hi] at hf
    obtain ⟨⟨e1, e2, e3, e4, e5⟩, -⟩ := dims2d_fields hx
    have hf' := fun e he => hf e (mem_append_left _ he)
    have s := fun e he => hf' e (mem_append_right _ he)
    have d := fun e he => hf' e (mem_append_left _ he)
    rw [e1, e2, e3, e4, e5] at s
    have s1 := (s _ (.head _)).lt
    have s2 := (s _ (.tail _ (.head _))).lt
    have s3 := (s _ (.tail _ (.tail _ (.head _)))).lt
    unfold dims2dInts at d
    have d0 := fun e he => d e (mem_append_left _ (mem_append_left _ (mem_append_left _ he)))
    have dc := fun e he => d e (mem_append_left _ (mem_append_left _ (mem_append_right _ he)))
    have dr := fun e he => d0 e (mem_append_left _ (mem_append_right _ he))
    have dm := fun e he => d0 e (mem_append_right _ he)
    have d1 := (d0 (roundUpE M m_r) (by simp)).lt
    have d2 := (d0 (roundUpE N n_r) (by simp)).lt
    have d3 := (d0 ((m_r : E) + n_r) (by simp)).lt
    have d4 := (d0 ((m_r : E) * n_r) (by simp)).lt
    have d5 := (dm _ (.tail _ (.head _))).lt
    rw [roundUpE_val] at d1 d2 d5
    have d6 : roundUpC M m_r = p / pn * m_r ∨ p / pn * m_c < 2 ^ 31 := by
      rcases Classical.em (roundUpC M m_r = p / pn * m_r) with he | he
      · exact .inl he
      · refine .inr (dr ((p / pn : Nat) * (m_c : E)) ?_).lt
        unfold fit2dInts
        rw [if_neg he]
        exact mem_append_right _ (mem_append_left _ (.head _))
    have d7 : roundUpC N n_r = pn * n_r ∨ pn * roundUpC g.m_c n_r < 2 ^ 31 := by
      rcases Classical.em (roundUpC N n_r = pn * n_r) with he | he
      · exact .inl he
      · refine .inr (dc ((pn : E) * (roundUpC g.m_c n_r : Nat)) ?_).lt
        unfold fit2dInts
        rw [if_neg he]
        exact mem_append_right _ (mem_append_left _ (.head _))
    exact ⟨d1, d2, d3, d4, d6, d5, d7, s3, s1, s2⟩
  · rintro ⟨h1, h2, h3, h4, h5, h6, h7, h8, h9, h10⟩
    exact twoDInts_fits h ⟨h1, h2, h3, h4, h5, h6, h7, h8, h9, h10⟩ hp hmc
      (Nat.lt_of_le_of_lt (Nat.le_mul_of_pos_left _ h.M_pos) hMK) hMK hKN hMN

/-- The conditions hold for a 1000 x 2000 times 2000 x 3000 product on a grid of 2 x 4 cores with the Haswell register
tile. -/
example : ∀ e ∈ twoDInts 1000 3000 2000 8 6 16 4 96 96, e.Fits :=
  (C63_2d_iff ⟨by omega, by omega, by omega, by omega, by omega, by omega, by omega, by omega, by decide⟩
    (by decide) (by decide) (by decide) (by decide) (by decide)).2
    ⟨by decide, by decide, by decide, by decide, by decide, by decide, by decide, by decide, by decide, by decide⟩

/-- A sufficient condition in terms of the arguments only: padded operands and whole-grid tiles that fit. -/
theorem C63_2d_partial {M N K p m_r n_r pn m_c k_c : Nat} (h : Fit2 M N p m_r n_r pn m_c k_c) (hp : p < 2 ^ 31)
    (hMK : M * K < 2 ^ 31) (hKN : K * N < 2 ^ 31) (hMN : M * N < 2 ^ 31)
    (hM : cdiv M m_r * m_r < 2 ^ 31) (hN : cdiv N n_r * n_r < 2 ^ 31) (hr : m_r * n_r + (m_r + n_r) < 2 ^ 31)
    (hA : p / pn * m_c * k_c < 2 ^ 31) (hB : pn * (cdiv m_c n_r * n_r) * k_c < 2 ^ 31)
    (hC : m_c * (cdiv m_c n_r * n_r) < 2 ^ 31) :
    ∀ e ∈ twoDInts M N K p m_r n_r pn m_c k_c, e.Fits := by
  have hmr := h.m_r_pos
  have hnr := h.n_r_pos
  have hk := h.k_c_pos
  have hpq : 0 < p / pn := Nat.div_pos h.pn_le h.pn_pos
  have f := fit2d_ok (pm := p / pn) hpq hmr h.m_dvd h.m_c_pos
    (Nat.lt_of_lt_of_le h.M_pos (roundUpC_ge M m_r)) (roundUpC_dvd hmr)
  have hfle : (fit2d (roundUpC M m_r) (p / pn) m_c m_r).2 ≤ m_c := fit2d_le' hmr h.m_dvd h.m_c_pos
  have hg0 : 0 < roundUpC (fit2d (roundUpC M m_r) (p / pn) m_c m_r).2 n_r :=
    Nat.lt_of_lt_of_le f.2.2.1 (roundUpC_ge _ _)
  have g := fit2d_ok (pm := pn) h.pn_pos hnr (roundUpC_dvd hnr) hg0
    (Nat.lt_of_lt_of_le h.N_pos (roundUpC_ge N n_r)) (roundUpC_dvd hnr)
  have hgle := fit2d_le' (padded := roundUpC N n_r) (pm := pn) hnr (roundUpC_dvd hnr) hg0
  have hrle : roundUpC (fit2d (roundUpC M m_r) (p / pn) m_c m_r).2 n_r ≤ cdiv m_c n_r * n_r := by
    rw [roundUpC_cdiv hnr]
    exact Nat.mul_le_mul_right _ (Nat.div_le_div_right (by omega))
  rw [← roundUpC_cdiv hnr] at hB hC hrle
  have hpm : p / pn * m_c < 2 ^ 31 := Nat.lt_of_le_of_lt (Nat.le_mul_of_pos_right _ hk) hA
  have hpn : pn * roundUpC m_c n_r < 2 ^ 31 := Nat.lt_of_le_of_lt (Nat.le_mul_of_pos_right _ hk) hB
  refine (C63_2d_iff h hp (Nat.lt_of_le_of_lt (Nat.le_mul_of_pos_left _ hpq) hpm) hMK hKN hMN).2
    ⟨hM, hN, by omega, by omega, .inr hpm, ?_, .inr ?_, ?_, ?_, ?_⟩
  · rw [← roundUpC_cdiv hnr]
    exact Nat.lt_of_le_of_lt (Nat.le_trans hrle (Nat.le_mul_of_pos_left _ h.pn_pos)) hpn
  · rw [← roundUpC_cdiv hnr]
    exact Nat.lt_of_le_of_lt (Nat.mul_le_mul_left _ hrle) hpn
  · exact Nat.lt_of_le_of_lt (Nat.mul_le_mul hfle (Nat.le_trans hgle hrle)) hC
  · exact Nat.lt_of_le_of_lt (Nat.mul_le_mul_right _ (Nat.mul_le_mul f.2.1 hfle)) hA
  · exact Nat.lt_of_le_of_lt (Nat.mul_le_mul_right _ (Nat.mul_le_mul g.2.1 (Nat.le_trans hgle hrle))) hB

example : ∀ e ∈ twoDInts 1000 3000 2000 8 6 16 4 96 96, e.Fits :=
  C63_2d_partial ⟨by omega, by omega, by omega, by omega, by omega, by omega, by omega, by omega, by decide⟩
    (by decide) (by decide) (by decide) (by decide) (by decide) (by decide) (by decide) (by decide) (by decide) (by decide)

/-! ### Large tiles -/

/-- C63 as stated is false, for both products: with tiles of 49152 rows a 1 x 1 product on one core overflows in
the size of a buffer, and with a tile of 6 * 2^26 rows a 7 x 1 product on a grid of 6 cores in `pm*m_c`. -/
theorem C63_refuted :
    (¬ ∀ M N K p m_r n_r m_c k_c n_c : Nat, TileOK p m_r n_r m_c k_c n_c →
      cdiv M m_r * m_r * K < 2 ^ 31 → K * (cdiv N n_r * n_r) < 2 ^ 31 →
      cdiv M m_r * m_r * (cdiv N n_r * n_r) < 2 ^ 31 → m_c < 2 ^ 31 → k_c < 2 ^ 31 → n_c < 2 ^ 31 →
      ∀ e ∈ onlineInts M N K p m_r n_r m_c k_c n_c, e.Fits) ∧
    ¬ ∀ M N K p m_r n_r pn m_c k_c : Nat, Fit2 M N p m_r n_r pn m_c k_c →
      cdiv M m_r * m_r * K < 2 ^ 31 → K * (cdiv N n_r * n_r) < 2 ^ 31 →
      cdiv M m_r * m_r * (cdiv N n_r * n_r) < 2 ^ 31 → m_c < 2 ^ 31 → k_c < 2 ^ 31 →
      ∀ e ∈ twoDInts M N K p m_r n_r pn m_c k_c, e.Fits := by
  constructor
  · intro hall
    have h : TileOK 1 6 16 49152 1 65536 :=
      ⟨by omega, by omega, by omega, by omega, by omega, by omega, by decide, by decide⟩
    have hf := hall 1 1 1 1 6 16 49152 1 65536 h (by decide) (by decide) (by decide) (by decide) (by decide) (by decide)
    have := (C63_online_iff h (by omega) (by decide) (by decide) (by decide)).1 hf
    exact absurd this.2.2.2.2.2 (by decide)
  · intro hall
    have h : Fit2 7 1 6 6 16 1 (6 * 2 ^ 26) 1 :=
      ⟨by omega, by omega, by omega, by omega, by omega, by omega, by omega, by omega, by decide⟩
    have hf := hall 7 1 1 6 6 16 1 (6 * 2 ^ 26) 1 h (by decide) (by decide) (by decide) (by decide) (by decide)
    have := (C63_2d_iff h (by omega) (by decide) (by decide) (by decide) (by decide)).1 hf
    exact absurd this.2.2.2.2.1 (by decide)

end Cake
