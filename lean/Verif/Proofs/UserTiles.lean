/-
K-first with tile sizes that are not multiples of the register tile.
-/
import Verif.Proofs.SgemmK

namespace Cake
open List

section
variable {M N K p m_r n_r m_c k_c n_c m' n' : Nat}

/-! ### Block dimensions when one block covers everything -/

theorem dimsK_m (h1 : M < p * m_c) (h2 : M < p * m') :
    dimsKMN M N K p m_r n_r m' k_c n_c = { dimsKMN M N K p m_r n_r m_c k_c n_c with m_c := m' } := by
  unfold dimsKMN
  simp only [Nat.mod_eq_of_lt h1, Nat.mod_eq_of_lt h2, Nat.div_eq_of_lt h1, Nat.div_eq_of_lt h2, Nat.zero_mul]

theorem dimsK_n (h1 : N < n_c) (h2 : N < n') :
    dimsKMN M N K p m_r n_r m_c k_c n' = { dimsKMN M N K p m_r n_r m_c k_c n_c with n_c := n' } := by
  unfold dimsKMN
  simp only [Nat.mod_eq_of_lt h1, Nat.mod_eq_of_lt h2, Nat.div_eq_of_lt h1, Nat.div_eq_of_lt h2]

theorem packA_m_up {x : BlkDims} (A A_p : Loc) (hb : x.Mb = 1) (hp : x.m_pad = true) :
    pack_A_k_first A A_p M K p m_r { x with m_c := m' } = pack_A_k_first A A_p M K p m_r x := by
  unfold pack_A_k_first
  simp only [hb, hp, range_one, loopS, Nat.sub_self, beq_self_eq_true, Bool.and_self, if_true, Nat.zero_mul]

theorem sched_m_up {x : BlkDims} {Z : Nat} (kd : KDim) (A_p B_p C : Loc) (hb : x.Mb = 1) (hp : x.m_pad = true)
    (h1 : M < p * x.m_c) (h2 : M < p * m') :
    schedKMNZ kd A_p B_p C M N K p m_r n_r { x with m_c := m' } Z = schedKMNZ kd A_p B_p C M N K p m_r n_r x Z := by
  have e : ∀ d, serp d 1 = [0] := by decide
  unfold schedKMNZ
  simp only [hb, hp, e, flatMap_cons, flatMap_nil, append_nil, Nat.sub_self, beq_self_eq_true, Bool.and_self, if_true,
    Nat.zero_mul, Nat.mod_eq_of_lt h1, Nat.mod_eq_of_lt h2]

theorem sched_n_up {x : BlkDims} {Z : Nat} (kd : KDim) (A_p B_p C : Loc) (hb : x.Nb = 1) (hp : x.n_pad = true)
    (h1 : N < x.n_c) (h2 : N < n') :
    schedKMNZ kd A_p B_p C M N K p m_r n_r { x with n_c := n' } Z = schedKMNZ kd A_p B_p C M N K p m_r n_r x Z := by
  unfold schedKMNZ
  simp only [hb, hp, range_one, flatMap_cons, flatMap_nil, append_nil, Nat.sub_self, beq_self_eq_true, Bool.and_self, if_true,
    Nat.zero_mul, Nat.mod_eq_of_lt h1, Nat.mod_eq_of_lt h2]

theorem packB_n_up {x : BlkDims} (B B_p : Loc) (h1 : N < x.n_c) (h2 : N < n') :
    pack_B_k_first B B_p K N n_r { x with n_c := n' } = pack_B_k_first B B_p K N n_r x := by
  have e : ∀ s, cfor 0 0 s = [] := fun s => rfl
  unfold pack_B_k_first
  simp only [Nat.mod_eq_of_lt h1, Nat.mod_eq_of_lt h2, Nat.sub_self, e, loopS]

/-! ### The program -/

/-- The tile size rounded to a multiple of `u` when it is not one. -/
def upTile (u m : Nat) : Nat := if u ∣ m then m else m * u

theorem upTile_dvd (u m : Nat) : u ∣ upTile u m := by
  unfold upTile; split
  · assumption
  · exact Nat.dvd_mul_left _ _

theorem upTile_ge {u : Nat} (m : Nat) (hu : 0 < u) : m ≤ upTile u m := by
  unfold upTile; split
  · exact Nat.le_refl _
  · exact Nat.le_mul_of_pos_right _ hu

theorem upTile_tile (hp : 0 < p) (hmr : 0 < m_r) (hnr : 0 < n_r) (hm : 0 < m_c) (hk : 0 < k_c) (hn : 0 < n_c) :
    TileOK p m_r n_r (upTile m_r m_c) k_c (upTile n_r n_c) :=
  ⟨hp, hmr, hnr, Nat.lt_of_lt_of_le hm (upTile_ge _ hmr), hk, Nat.lt_of_lt_of_le hn (upTile_ge _ hnr),
    upTile_dvd _ _, upTile_dvd _ _⟩

theorem dimsK_Mb (hM : 0 < M) (h1 : M < p * m_c) : (dimsKMN M N K p m_r n_r m_c k_c n_c).Mb = 1 ∧
    (dimsKMN M N K p m_r n_r m_c k_c n_c).m_pad = true := by
  have : M ≠ 0 := by omega
  simp [dimsKMN, Nat.mod_eq_of_lt h1, Nat.div_eq_of_lt h1, this]

theorem dimsK_Nb (hN : 0 < N) (h1 : N < n_c) : (dimsKMN M N K p m_r n_r m_c k_c n_c).Nb = 1 ∧
    (dimsKMN M N K p m_r n_r m_c k_c n_c).n_pad = true := by
  have : N ≠ 0 := by omega
  simp [dimsKMN, Nat.mod_eq_of_lt h1, Nat.div_eq_of_lt h1, this]

theorem upTile_mlt (hu : 0 < m_r) (h : M < p * m_c) : M < p * upTile m_r m_c :=
  Nat.lt_of_lt_of_le h (Nat.mul_le_mul_left _ (upTile_ge _ hu))

/-- The call with arbitrary tile sizes is the call with rounded ones, but for the size of the per-core buffers. -/
theorem sgemmK_up {α : Type _} (nz : α → Bool) (cx : Cntx) (alpha beta : α) (hp : 0 < p) (hmr : 0 < cx.m_r)
    (hnr : 0 < cx.n_r) (hm : 0 < m_c) (hk : 0 < k_c) (hn : 0 < n_c) (hM : 0 < M) (hN : 0 < N)
    (h1 : cx.m_r ∣ m_c ∨ M < p * m_c) (h2 : cx.n_r ∣ n_c ∨ N < n_c) :
    cake_sgemm nz cx ⟨.A, 0⟩ ⟨.B, 0⟩ ⟨.C, 0⟩ M N K p false false alpha beta m_c k_c n_c .KMN =
      some (progKZ cx ⟨.A, 0⟩ ⟨.B, 0⟩ M N K p false false (upTile cx.m_r m_c) k_c (upTile cx.n_r n_c) (m_c * n_c)) := by
  have hT := upTile_tile (k_c := k_c) hp hmr hnr hm hk hn
  have hsch : (dimsKMN M N K p cx.m_r cx.n_r m_c k_c n_c).sch = .KMN := rfl
  simp only [cake_sgemm, init_block_dims, hsch, packedASize, packedCSize, pack_A, pack_B, pack_C, unpack_C,
    schedule, Option.bind_eq_bind, Option.bind_some, if_true, Bool.false_eq_true, if_false]
  rw [schedule_KMN_eq]
  unfold progKZ
  rw [← schedKMNZ_phases hT]
  simp only [Bool.false_eq_true, if_false]
  have eM : ∀ n_c : Nat,
      (cx.m_r * cdiv (M % (p * m_c)) cx.m_r + (M / (p * m_c)) * p * m_c) * K =
        (cx.m_r * cdiv (M % (p * upTile cx.m_r m_c)) cx.m_r + (M / (p * upTile cx.m_r m_c)) * p * upTile cx.m_r m_c) * K ∧
      pack_A_k_first ⟨.A, 0⟩ ⟨.Ap, 0⟩ M K p cx.m_r (dimsKMN M N K p cx.m_r cx.n_r m_c k_c n_c) =
        pack_A_k_first ⟨.A, 0⟩ ⟨.Ap, 0⟩ M K p cx.m_r (dimsKMN M N K p cx.m_r cx.n_r (upTile cx.m_r m_c) k_c n_c) ∧
      pack_B_k_first ⟨.B, 0⟩ ⟨.Bp, 0⟩ K N cx.n_r (dimsKMN M N K p cx.m_r cx.n_r m_c k_c n_c) =
        pack_B_k_first ⟨.B, 0⟩ ⟨.Bp, 0⟩ K N cx.n_r (dimsKMN M N K p cx.m_r cx.n_r (upTile cx.m_r m_c) k_c n_c) ∧
      ∀ Z, schedKMNZ cx.kmap ⟨.Ap, 0⟩ ⟨.Bp, 0⟩ ⟨.C, 0⟩ M N K p cx.m_r cx.n_r
          (dimsKMN M N K p cx.m_r cx.n_r m_c k_c n_c) Z =
        schedKMNZ cx.kmap ⟨.Ap, 0⟩ ⟨.Bp, 0⟩ ⟨.C, 0⟩ M N K p cx.m_r cx.n_r
          (dimsKMN M N K p cx.m_r cx.n_r (upTile cx.m_r m_c) k_c n_c) Z := by
    intro n_c
    by_cases hd : cx.m_r ∣ m_c
    · unfold upTile
      simp only [if_pos hd, true_and, implies_true]
    · have hlt := h1.resolve_left hd
      have hlt' := upTile_mlt (m_r := cx.m_r) hmr hlt
      obtain ⟨b1, b2⟩ := dimsK_Mb (N := N) (K := K) (m_r := cx.m_r) (n_r := cx.n_r) (k_c := k_c) (n_c := n_c) hM hlt
      rw [dimsK_m hlt hlt']
      refine ⟨?_, (packA_m_up _ _ b1 b2).symm, rfl, fun Z => (sched_m_up _ _ _ _ b1 b2 hlt hlt').symm⟩
      simp only [Nat.mod_eq_of_lt hlt, Nat.mod_eq_of_lt hlt', Nat.div_eq_of_lt hlt, Nat.div_eq_of_lt hlt', Nat.zero_mul]
  have eN : ∀ m_c : Nat,
      packedBSize K N cx.n_r n_c = packedBSize K N cx.n_r (upTile cx.n_r n_c) ∧
      pack_A_k_first ⟨.A, 0⟩ ⟨.Ap, 0⟩ M K p cx.m_r (dimsKMN M N K p cx.m_r cx.n_r m_c k_c n_c) =
        pack_A_k_first ⟨.A, 0⟩ ⟨.Ap, 0⟩ M K p cx.m_r (dimsKMN M N K p cx.m_r cx.n_r m_c k_c (upTile cx.n_r n_c)) ∧
      pack_B_k_first ⟨.B, 0⟩ ⟨.Bp, 0⟩ K N cx.n_r (dimsKMN M N K p cx.m_r cx.n_r m_c k_c n_c) =
        pack_B_k_first ⟨.B, 0⟩ ⟨.Bp, 0⟩ K N cx.n_r (dimsKMN M N K p cx.m_r cx.n_r m_c k_c (upTile cx.n_r n_c)) ∧
      ∀ Z, schedKMNZ cx.kmap ⟨.Ap, 0⟩ ⟨.Bp, 0⟩ ⟨.C, 0⟩ M N K p cx.m_r cx.n_r
          (dimsKMN M N K p cx.m_r cx.n_r m_c k_c n_c) Z =
        schedKMNZ cx.kmap ⟨.Ap, 0⟩ ⟨.Bp, 0⟩ ⟨.C, 0⟩ M N K p cx.m_r cx.n_r
          (dimsKMN M N K p cx.m_r cx.n_r m_c k_c (upTile cx.n_r n_c)) Z := by
    intro m_c
    by_cases hd : cx.n_r ∣ n_c
    · unfold upTile
      simp only [if_pos hd, true_and, implies_true]
    · have hlt := h2.resolve_left hd
      have hlt' : N < upTile cx.n_r n_c := Nat.lt_of_lt_of_le hlt (upTile_ge _ hnr)
      obtain ⟨b1, b2⟩ := dimsK_Nb (M := M) (K := K) (p := p) (m_r := cx.m_r) (n_r := cx.n_r) (m_c := m_c) (k_c := k_c) hN hlt
      rw [dimsK_n hlt hlt']
      refine ⟨?_, rfl, (packB_n_up _ _ hlt hlt').symm, fun Z => (sched_n_up _ _ _ _ b1 b2 hlt hlt').symm⟩
      unfold packedBSize
      rw [Nat.mod_eq_of_lt hlt, Nat.mod_eq_of_lt hlt']
  obtain ⟨a1, a2, a3, a4⟩ := eM n_c
  obtain ⟨b1, b2, b3, b4⟩ := eN (upTile cx.m_r m_c)
  have e1 : (dimsKMN M N K p cx.m_r cx.n_r m_c k_c n_c).m_c = m_c := rfl
  have e2 : (dimsKMN M N K p cx.m_r cx.n_r m_c k_c n_c).n_c = n_c := rfl
  rw [e1, e2, a1, a2, a3, a4, b1, b2, b3, b4]

/-! ### Size of the per-core buffers -/

/-- Rows of the largest strip of one core. -/
def maxStrip (M p m_r m_c : Nat) : Nat := if M < p * m_c then cdiv (cdiv M m_r) p * m_r else m_c

/-- Columns of the largest block. -/
def maxCols (N n_r n_c : Nat) : Nat := if N < n_c then cdiv N n_r * n_r else n_c

theorem maxCols_ge (hn : 0 < n_r) (h2 : n_r ∣ n_c ∨ N < n_c) (n : Nat) :
    nLen N n_r (upTile n_r n_c) n ≤ maxCols N n_r n_c := by
  unfold maxCols nLen
  split
  · rename_i hlt
    have hlt' : N < upTile n_r n_c := Nat.lt_of_lt_of_le hlt (upTile_ge _ hn)
    unfold chopLen padTo
    rw [Nat.div_eq_of_lt hlt', Nat.mod_eq_of_lt hlt']
    exact Nat.le_trans (Nat.min_le_right _ _) (by omega)
  · rename_i hlt
    have hd := h2.resolve_right hlt
    have : upTile n_r n_c = n_c := by unfold upTile; rw [if_pos hd]
    rw [this]
    exact chopLen_le _ _ _

theorem maxStrip_ge (hT : TileOK p m_r n_r (upTile m_r m_c) k_c n') (h1 : m_r ∣ m_c ∨ M < p * m_c)
    {m core : Nat} (hm : m < cdiv M (p * upTile m_r m_c)) :
    mT M p m_r (upTile m_r m_c) m core ≤ maxStrip M p m_r m_c := by
  unfold maxStrip
  split
  · rename_i hlt
    have hlt' := upTile_mlt (m_r := m_r) hT.m_r_pos hlt
    have hM : 0 < M := by
      rcases Nat.eq_zero_or_pos M with rfl | hM
      · simp at hm
      · exact hM
    have hc : cdiv M (p * upTile m_r m_c) = 1 := cdiv_eq_of (by omega) (by omega)
    rw [hc] at hm
    obtain rfl : m = 0 := by omega
    refine Nat.le_trans (chopLen_le _ _ _) ?_
    unfold mX
    rw [hc, Nat.mod_eq_of_lt hlt', if_pos (by simp; omega)]
  · rename_i hlt
    have hd := h1.resolve_right hlt
    have : upTile m_r m_c = m_c := by unfold upTile; rw [if_pos hd]
    rw [this] at hT hm ⊢
    exact mT_le hT hm

theorem ZOK.up (hp : 0 < p) (hmr : 0 < m_r) (hnr : 0 < n_r) (hm : 0 < m_c) (hk : 0 < k_c) (hn : 0 < n_c)
    (h1 : m_r ∣ m_c ∨ M < p * m_c) (h2 : n_r ∣ n_c ∨ N < n_c) {Z : Nat}
    (hZ : maxStrip M p m_r m_c * maxCols N n_r n_c ≤ Z) : ZOK M N p m_r n_r (upTile m_r m_c) (upTile n_r n_c) Z :=
  fun n _ _ hm' => Nat.le_trans (Nat.mul_le_mul (maxStrip_ge (upTile_tile hp hmr hnr hm hk hn) h1 hm')
    (maxCols_ge hnr h2 n)) hZ

end
end Cake
