/-
M-first and N-first with tile sizes that are not multiples of the register tile and exceed the matrix: the program is
that of rounded tile sizes.
-/
import Verif.Proofs.UserTiles
import Verif.Proofs.SgemmMN

namespace Cake
open List

section
variable {M N K p m_r n_r m_c k_c n_c m' n' : Nat}

/-! ### M-first -/

theorem dimsM_m (h1 : M < m_c) (h2 : M < m') :
    dimsMKN M N K p m_r n_r m' k_c n_c = { dimsMKN M N K p m_r n_r m_c k_c n_c with m_c := m' } := by
  unfold dimsMKN
  simp only [Nat.mod_eq_of_lt h1, Nat.mod_eq_of_lt h2, Nat.div_eq_of_lt h1, Nat.div_eq_of_lt h2, Nat.zero_mul]

theorem dimsM_n (h1 : N < n_c) (h2 : N < n') :
    dimsMKN M N K p m_r n_r m_c k_c n' = { dimsMKN M N K p m_r n_r m_c k_c n_c with n_c := n' } := by
  unfold dimsMKN
  simp only [Nat.mod_eq_of_lt h1, Nat.mod_eq_of_lt h2, Nat.div_eq_of_lt h1, Nat.div_eq_of_lt h2]

theorem dimsM_Mb (hM : 0 < M) (h1 : M < m_c) : (dimsMKN M N K p m_r n_r m_c k_c n_c).Mb = 1 ∧
    (dimsMKN M N K p m_r n_r m_c k_c n_c).m_pad = true := by
  have : M ≠ 0 := by omega
  simp [dimsMKN, Nat.mod_eq_of_lt h1, Nat.div_eq_of_lt h1, this]

theorem dimsM_Nb (hN : 0 < N) (h1 : N < n_c) : (dimsMKN M N K p m_r n_r m_c k_c n_c).Nb = 1 ∧
    (dimsMKN M N K p m_r n_r m_c k_c n_c).n_pad = true := by
  have : N ≠ 0 := by omega
  simp [dimsMKN, Nat.mod_eq_of_lt h1, Nat.div_eq_of_lt h1, this]

section
variable {x : BlkDims}

theorem m_packA_m (A A_p : Loc) (hb : x.Mb = 1) (hp : x.m_pad = true) :
    pack_A_m_first A A_p M K p m_r { x with m_c := m' } = pack_A_m_first A A_p M K p m_r x := by
  unfold pack_A_m_first
  simp only [hb, hp, range_one, loopS, Nat.sub_self, beq_self_eq_true, Bool.and_self, if_true, Nat.zero_mul]

theorem m_packC_m (C C_p : Loc) (hb : x.Mb = 1) (hp : x.m_pad = true) (h1 : M < x.m_c) (h2 : M < m') :
    pack_C_m_first C C_p M N m_r n_r { x with m_c := m' } = pack_C_m_first C C_p M N m_r n_r x := by
  unfold pack_C_m_first
  simp only [hb, hp, range_one, map_cons, map_nil, Nat.sub_self, beq_self_eq_true, Bool.and_self, if_true, Nat.zero_mul,
    Nat.mod_eq_of_lt h1, Nat.mod_eq_of_lt h2]

theorem m_unpackC_m (C C_p : Loc) (hb : x.Mb = 1) (hp : x.m_pad = true) (h1 : M < x.m_c) (h2 : M < m') :
    unpack_C_m_first C C_p M N m_r n_r { x with m_c := m' } = unpack_C_m_first C C_p M N m_r n_r x := by
  unfold unpack_C_m_first
  simp only [hb, hp, range_one, map_cons, map_nil, Nat.sub_self, beq_self_eq_true, Bool.and_self, if_true, Nat.zero_mul,
    Nat.mod_eq_of_lt h1, Nat.mod_eq_of_lt h2]

theorem m_sched_m (kd : KDim) (A_p B_p C_p : Loc) (hb : x.Mb = 1) (hp : x.m_pad = true) :
    schedule_MKN kd A_p B_p C_p K p m_r n_r { x with m_c := m' } = schedule_MKN kd A_p B_p C_p K p m_r n_r x := by
  unfold schedule_MKN
  simp only [hb, hp, range_one, map_cons, map_nil, Nat.sub_self, ite_self, beq_self_eq_true, Bool.and_self, if_true,
    Nat.zero_mul]

theorem m_packB_n (B B_p : Loc) (hb : x.Nb = 1) (hp : x.n_pad = true) (h1 : N < x.n_c) (h2 : N < n') :
    pack_B_m_first B B_p N p n_r { x with n_c := n' } = pack_B_m_first B B_p N p n_r x := by
  unfold pack_B_m_first
  simp only [hb, hp, range_one, loopS, Nat.sub_self, beq_self_eq_true, Bool.and_self, if_true, Nat.zero_mul,
    Nat.mod_eq_of_lt h1, Nat.mod_eq_of_lt h2]

theorem m_packC_n (C C_p : Loc) (hb : x.Nb = 1) (hp : x.n_pad = true) (h1 : N < x.n_c) (h2 : N < n') :
    pack_C_m_first C C_p M N m_r n_r { x with n_c := n' } = pack_C_m_first C C_p M N m_r n_r x := by
  unfold pack_C_m_first
  simp only [hb, hp, range_one, map_cons, map_nil, Nat.sub_self, beq_self_eq_true, Bool.and_self, if_true, Nat.zero_mul,
    Nat.mul_zero, Nat.mod_eq_of_lt h1, Nat.mod_eq_of_lt h2]

theorem m_unpackC_n (C C_p : Loc) (hb : x.Nb = 1) (hp : x.n_pad = true) (h1 : N < x.n_c) (h2 : N < n') :
    unpack_C_m_first C C_p M N m_r n_r { x with n_c := n' } = unpack_C_m_first C C_p M N m_r n_r x := by
  unfold unpack_C_m_first
  simp only [hb, hp, range_one, map_cons, map_nil, Nat.sub_self, beq_self_eq_true, Bool.and_self, if_true, Nat.zero_mul,
    Nat.mul_zero, Nat.mod_eq_of_lt h1, Nat.mod_eq_of_lt h2]

theorem m_sched_n (kd : KDim) (A_p B_p C_p : Loc) (hb : x.Nb = 1) (hp : x.n_pad = true) :
    schedule_MKN kd A_p B_p C_p K p m_r n_r { x with n_c := n' } = schedule_MKN kd A_p B_p C_p K p m_r n_r x := by
  unfold schedule_MKN
  simp only [hb, hp, range_one, flatMap_cons, flatMap_nil, append_nil, Nat.sub_self, beq_self_eq_true, Bool.and_self, if_true,
    Nat.zero_mul]

/-! ### N-first -/

theorem n_packA_m (A A_p : Loc) (hb : x.Mb = 1) (hp : x.m_pad = true) :
    pack_A_n_first A A_p M K p m_r { x with m_c := m' } = pack_A_n_first A A_p M K p m_r x := by
  unfold pack_A_n_first
  simp only [hb, hp, range_one, loopS, Nat.sub_self, beq_self_eq_true, Bool.and_self, if_true, Nat.zero_mul]

theorem n_unpackC_m (C C_p : Loc) (hb : x.Mb = 1) (hp : x.m_pad = true) (h1 : M < p * x.m_c) (h2 : M < p * m') :
    unpack_C_n_first C C_p M N p m_r n_r { x with m_c := m' } = unpack_C_n_first C C_p M N p m_r n_r x := by
  unfold unpack_C_n_first
  simp only [hb, hp, range_one, map_cons, map_nil, Nat.sub_self, beq_self_eq_true, Bool.and_self, if_true, Nat.zero_mul,
    Nat.mod_eq_of_lt h1, Nat.mod_eq_of_lt h2, Nat.mul_zero]

theorem n_sched_m (kd : KDim) (A_p B_p C_p : Loc) (hb : x.Mb = 1) (hp : x.m_pad = true) :
    schedule_NKM kd A_p B_p C_p K p m_r n_r { x with m_c := m' } = schedule_NKM kd A_p B_p C_p K p m_r n_r x := by
  unfold schedule_NKM
  simp only [hb, hp, range_one, flatMap_cons, flatMap_nil, append_nil, Nat.sub_self, beq_self_eq_true, Bool.and_self, if_true,
    Nat.zero_mul]

theorem n_packB_n (B B_p : Loc) (hb : x.Nb = 1) (hp : x.n_pad = true) (h1 : N < x.n_c) (h2 : N < n') :
    pack_B_n_first B B_p N p n_r { x with n_c := n' } = pack_B_n_first B B_p N p n_r x := by
  unfold pack_B_n_first
  simp only [hb, hp, range_one, loopS, Nat.sub_self, beq_self_eq_true, Bool.and_self, if_true, Nat.zero_mul,
    Nat.mod_eq_of_lt h1, Nat.mod_eq_of_lt h2]

theorem n_unpackC_n (C C_p : Loc) (hb : x.Nb = 1) (hp : x.n_pad = true) (h1 : N < x.n_c) (h2 : N < n') :
    unpack_C_n_first C C_p M N p m_r n_r { x with n_c := n' } = unpack_C_n_first C C_p M N p m_r n_r x := by
  unfold unpack_C_n_first
  simp only [hb, hp, range_one, map_cons, map_nil, Nat.sub_self, beq_self_eq_true, Bool.and_self, if_true, Nat.zero_mul,
    Nat.mod_eq_of_lt h1, Nat.mod_eq_of_lt h2]

theorem n_sched_n (kd : KDim) (A_p B_p C_p : Loc) (hb : x.Nb = 1) (hp : x.n_pad = true) :
    schedule_NKM kd A_p B_p C_p K p m_r n_r { x with n_c := n' } = schedule_NKM kd A_p B_p C_p K p m_r n_r x := by
  unfold schedule_NKM
  simp only [hb, hp, range_one, map_cons, map_nil, Nat.sub_self, ite_self, beq_self_eq_true, Bool.and_self, if_true,
    Nat.zero_mul, Nat.mul_zero]

end

theorem dimsN_m (h1 : M < p * m_c) (h2 : M < p * m') :
    dimsNKM M N K p m_r n_r m' k_c n_c = { dimsNKM M N K p m_r n_r m_c k_c n_c with m_c := m' } := by
  unfold dimsNKM
  simp only [Nat.mod_eq_of_lt h1, Nat.mod_eq_of_lt h2, Nat.div_eq_of_lt h1, Nat.div_eq_of_lt h2, Nat.zero_mul]

theorem dimsN_n (h1 : N < n_c) (h2 : N < n') :
    dimsNKM M N K p m_r n_r m_c k_c n' = { dimsNKM M N K p m_r n_r m_c k_c n_c with n_c := n' } := by
  unfold dimsNKM
  simp only [Nat.mod_eq_of_lt h1, Nat.mod_eq_of_lt h2, Nat.div_eq_of_lt h1, Nat.div_eq_of_lt h2]

theorem dimsN_Mb (hM : 0 < M) (h1 : M < p * m_c) : (dimsNKM M N K p m_r n_r m_c k_c n_c).Mb = 1 ∧
    (dimsNKM M N K p m_r n_r m_c k_c n_c).m_pad = true := by
  have : M ≠ 0 := by omega
  simp [dimsNKM, Nat.mod_eq_of_lt h1, Nat.div_eq_of_lt h1, this]

theorem dimsN_Nb (hN : 0 < N) (h1 : N < n_c) : (dimsNKM M N K p m_r n_r m_c k_c n_c).Nb = 1 ∧
    (dimsNKM M N K p m_r n_r m_c k_c n_c).n_pad = true := by
  have : N ≠ 0 := by omega
  simp [dimsNKM, Nat.mod_eq_of_lt h1, Nat.div_eq_of_lt h1, this]

/-! ### The programs -/

variable {α : Type _} (nz : α → Bool) (cx : Cntx) (alpha beta : α)

theorem sgemmM_m (hM : 0 < M) (h1 : M < m_c) (h2 : M < m') :
    cake_sgemm nz cx ⟨.A, 0⟩ ⟨.B, 0⟩ ⟨.C, 0⟩ M N K p false false alpha beta m' k_c n_c .MKN =
      cake_sgemm nz cx ⟨.A, 0⟩ ⟨.B, 0⟩ ⟨.C, 0⟩ M N K p false false alpha beta m_c k_c n_c .MKN := by
  obtain ⟨b1, b2⟩ := dimsM_Mb (N := N) (K := K) (p := p) (m_r := cx.m_r) (n_r := cx.n_r) (k_c := k_c) (n_c := n_c) hM h1
  have hsch : ∀ m_c, (dimsMKN M N K p cx.m_r cx.n_r m_c k_c n_c).sch = .MKN := fun _ => rfl
  simp only [cake_sgemm, init_block_dims, hsch, packedASize, packedCSize, pack_A, pack_B, pack_C, unpack_C,
    schedule, Option.bind_eq_bind, Option.bind_some, reduceCtorEq, if_false, Bool.false_eq_true]
  rw [dimsM_m h1 h2, m_packA_m _ _ b1 b2, m_packC_m _ _ b1 b2 h1 h2, m_unpackC_m _ _ b1 b2 h1 h2, m_sched_m _ _ _ _ b1 b2]
  have e : ∀ x : BlkDims, pack_B_m_first ⟨.B, 0⟩ ⟨.Bp, 0⟩ N p cx.n_r { x with m_c := m' } =
    pack_B_m_first ⟨.B, 0⟩ ⟨.Bp, 0⟩ N p cx.n_r x := fun _ => rfl
  rw [e]
  simp only [Nat.mod_eq_of_lt h1, Nat.mod_eq_of_lt h2, Nat.div_eq_of_lt h1, Nat.div_eq_of_lt h2, Nat.zero_mul]

theorem sgemmM_n (hN : 0 < N) (h1 : N < n_c) (h2 : N < n') :
    cake_sgemm nz cx ⟨.A, 0⟩ ⟨.B, 0⟩ ⟨.C, 0⟩ M N K p false false alpha beta m_c k_c n' .MKN =
      cake_sgemm nz cx ⟨.A, 0⟩ ⟨.B, 0⟩ ⟨.C, 0⟩ M N K p false false alpha beta m_c k_c n_c .MKN := by
  obtain ⟨b1, b2⟩ := dimsM_Nb (M := M) (K := K) (p := p) (m_r := cx.m_r) (n_r := cx.n_r) (m_c := m_c) (k_c := k_c) hN h1
  have hsch : ∀ n_c, (dimsMKN M N K p cx.m_r cx.n_r m_c k_c n_c).sch = .MKN := fun _ => rfl
  simp only [cake_sgemm, init_block_dims, hsch, packedASize, packedBSize, packedCSize, pack_A, pack_B, pack_C, unpack_C,
    schedule, Option.bind_eq_bind, Option.bind_some, reduceCtorEq, if_false, Bool.false_eq_true]
  rw [dimsM_n h1 h2, m_packB_n _ _ b1 b2 h1 h2, m_packC_n _ _ b1 b2 h1 h2, m_unpackC_n _ _ b1 b2 h1 h2, m_sched_n _ _ _ _ b1 b2]
  have e : ∀ x : BlkDims, pack_A_m_first ⟨.A, 0⟩ ⟨.Ap, 0⟩ M K p cx.m_r { x with n_c := n' } =
    pack_A_m_first ⟨.A, 0⟩ ⟨.Ap, 0⟩ M K p cx.m_r x := fun _ => rfl
  rw [e]
  simp only [Nat.mod_eq_of_lt h1, Nat.mod_eq_of_lt h2]

/-- The M-first call with arbitrary tile sizes is the call with rounded ones. -/
theorem sgemmM_up (hmr : 0 < cx.m_r) (hnr : 0 < cx.n_r) (hM : 0 < M) (hN : 0 < N)
    (h1 : cx.m_r ∣ m_c ∨ M < m_c) (h2 : cx.n_r ∣ n_c ∨ N < n_c) :
    cake_sgemm nz cx ⟨.A, 0⟩ ⟨.B, 0⟩ ⟨.C, 0⟩ M N K p false false alpha beta m_c k_c n_c .MKN =
      cake_sgemm nz cx ⟨.A, 0⟩ ⟨.B, 0⟩ ⟨.C, 0⟩ M N K p false false alpha beta (upTile cx.m_r m_c) k_c
        (upTile cx.n_r n_c) .MKN := by
  have e1 : cake_sgemm nz cx ⟨.A, 0⟩ ⟨.B, 0⟩ ⟨.C, 0⟩ M N K p false false alpha beta m_c k_c n_c .MKN =
      cake_sgemm nz cx ⟨.A, 0⟩ ⟨.B, 0⟩ ⟨.C, 0⟩ M N K p false false alpha beta (upTile cx.m_r m_c) k_c n_c .MKN := by
    by_cases hd : cx.m_r ∣ m_c
    · unfold upTile; rw [if_pos hd]
    · have hlt := h1.resolve_left hd
      exact (sgemmM_m nz cx alpha beta hM hlt (Nat.lt_of_lt_of_le hlt (upTile_ge _ hmr))).symm
  rw [e1]
  by_cases hd : cx.n_r ∣ n_c
  · unfold upTile; rw [if_pos hd]
  · have hlt := h2.resolve_left hd
    exact (sgemmM_n nz cx alpha beta hN hlt (Nat.lt_of_lt_of_le hlt (upTile_ge _ hnr))).symm

theorem sgemmN_m (hb : nz beta = false) (hM : 0 < M) (h1 : M < p * m_c) (h2 : M < p * m') :
    cake_sgemm nz cx ⟨.A, 0⟩ ⟨.B, 0⟩ ⟨.C, 0⟩ M N K p false false alpha beta m' k_c n_c .NKM =
      cake_sgemm nz cx ⟨.A, 0⟩ ⟨.B, 0⟩ ⟨.C, 0⟩ M N K p false false alpha beta m_c k_c n_c .NKM := by
  obtain ⟨b1, b2⟩ := dimsN_Mb (N := N) (K := K) (m_r := cx.m_r) (n_r := cx.n_r) (k_c := k_c) (n_c := n_c) hM h1
  have hsch : ∀ m_c, (dimsNKM M N K p cx.m_r cx.n_r m_c k_c n_c).sch = .NKM := fun _ => rfl
  simp only [cake_sgemm, init_block_dims, hsch, packedASize, packedCSize, pack_A, pack_B, pack_C, unpack_C,
    schedule, Option.bind_eq_bind, Option.bind_some, reduceCtorEq, if_false, Bool.false_eq_true, hb]
  rw [dimsN_m h1 h2, n_packA_m _ _ b1 b2, n_unpackC_m _ _ b1 b2 h1 h2, n_sched_m _ _ _ _ b1 b2]
  have e : ∀ x : BlkDims, pack_B_n_first ⟨.B, 0⟩ ⟨.Bp, 0⟩ N p cx.n_r { x with m_c := m' } =
    pack_B_n_first ⟨.B, 0⟩ ⟨.Bp, 0⟩ N p cx.n_r x := fun _ => rfl
  rw [e]
  simp only [Nat.mod_eq_of_lt h1, Nat.mod_eq_of_lt h2, Nat.div_eq_of_lt h1, Nat.div_eq_of_lt h2, Nat.zero_mul]

theorem sgemmN_n (hb : nz beta = false) (hN : 0 < N) (h1 : N < n_c) (h2 : N < n') :
    cake_sgemm nz cx ⟨.A, 0⟩ ⟨.B, 0⟩ ⟨.C, 0⟩ M N K p false false alpha beta m_c k_c n' .NKM =
      cake_sgemm nz cx ⟨.A, 0⟩ ⟨.B, 0⟩ ⟨.C, 0⟩ M N K p false false alpha beta m_c k_c n_c .NKM := by
  obtain ⟨b1, b2⟩ := dimsN_Nb (M := M) (K := K) (p := p) (m_r := cx.m_r) (n_r := cx.n_r) (m_c := m_c) (k_c := k_c) hN h1
  have hsch : ∀ n_c, (dimsNKM M N K p cx.m_r cx.n_r m_c k_c n_c).sch = .NKM := fun _ => rfl
  simp only [cake_sgemm, init_block_dims, hsch, packedASize, packedBSize, packedCSize, pack_A, pack_B, pack_C, unpack_C,
    schedule, Option.bind_eq_bind, Option.bind_some, reduceCtorEq, if_false, Bool.false_eq_true, hb]
  rw [dimsN_n h1 h2, n_packB_n _ _ b1 b2 h1 h2, n_unpackC_n _ _ b1 b2 h1 h2, n_sched_n _ _ _ _ b1 b2]
  have e : ∀ x : BlkDims, pack_A_n_first ⟨.A, 0⟩ ⟨.Ap, 0⟩ M K p cx.m_r { x with n_c := n' } =
    pack_A_n_first ⟨.A, 0⟩ ⟨.Ap, 0⟩ M K p cx.m_r x := fun _ => rfl
  rw [e]
  simp only [Nat.mod_eq_of_lt h1, Nat.mod_eq_of_lt h2]

/-- The tile height used for N-first: unchanged if `p * m_c` is a multiple of `m_r`. -/
def upTileN (p u m : Nat) : Nat := if u ∣ p * m then m else m * u

theorem upTileN_tile (hp : 0 < p) (hmr : 0 < m_r) (hnr : 0 < n_r) (hm : 0 < m_c) (hk : 0 < k_c) (hn : 0 < n_c) :
    TileN p m_r n_r (upTileN p m_r m_c) k_c (upTile n_r n_c) := by
  refine ⟨hp, hmr, hnr, ?_, hk, Nat.lt_of_lt_of_le hn (upTile_ge _ hnr), ?_, upTile_dvd _ _⟩
  · unfold upTileN; split
    · exact hm
    · exact Nat.mul_pos hm hmr
  · unfold upTileN; split
    · assumption
    · rw [← Nat.mul_assoc]; exact Nat.dvd_mul_left _ _

/-- The N-first call with arbitrary tile sizes is the call with rounded ones. -/
theorem sgemmN_up (hb : nz beta = false) (hmr : 0 < cx.m_r) (hnr : 0 < cx.n_r) (hM : 0 < M) (hN : 0 < N)
    (h1 : cx.m_r ∣ p * m_c ∨ M < p * m_c) (h2 : cx.n_r ∣ n_c ∨ N < n_c) :
    cake_sgemm nz cx ⟨.A, 0⟩ ⟨.B, 0⟩ ⟨.C, 0⟩ M N K p false false alpha beta m_c k_c n_c .NKM =
      cake_sgemm nz cx ⟨.A, 0⟩ ⟨.B, 0⟩ ⟨.C, 0⟩ M N K p false false alpha beta (upTileN p cx.m_r m_c) k_c
        (upTile cx.n_r n_c) .NKM := by
  have e1 : cake_sgemm nz cx ⟨.A, 0⟩ ⟨.B, 0⟩ ⟨.C, 0⟩ M N K p false false alpha beta m_c k_c n_c .NKM =
      cake_sgemm nz cx ⟨.A, 0⟩ ⟨.B, 0⟩ ⟨.C, 0⟩ M N K p false false alpha beta (upTileN p cx.m_r m_c) k_c n_c .NKM := by
    unfold upTileN
    split
    · rfl
    · rename_i hd
      have hlt := h1.resolve_left hd
      exact (sgemmN_m nz cx alpha beta hb hM hlt (Nat.lt_of_lt_of_le hlt
        (Nat.mul_le_mul_left _ (Nat.le_mul_of_pos_right _ hmr)))).symm
  rw [e1]
  by_cases hd : cx.n_r ∣ n_c
  · unfold upTile; rw [if_pos hd]
  · have hlt := h2.resolve_left hd
    exact (sgemmN_n nz cx alpha beta hb hN hlt (Nat.lt_of_lt_of_le hlt (upTile_ge _ hnr))).symm

end
end Cake
