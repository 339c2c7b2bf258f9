/-
Packing through strip kernels performs the same operations, in the same order, as plain packing.
-/
import Verif.Model.Blis
import Verif.Proofs.PackCK

namespace Cake
open List

theorem packA_kernel_eq (m_r k K : Nat) (a p : Loc) :
    A_packing_kernel m_r k a K p = (range k).flatMap fun i => (range m_r).flatMap fun j =>
      [Op.copy (p +ₚ (i * m_r + j)) (a +ₚ (i + j * K))] := by
  unfold A_packing_kernel pack_A_mr_x_kc
  rw [loop2_eq]
  simp

theorem packB_kernel_eq (n_r k N : Nat) (b p : Loc) :
    B_packing_kernel n_r k b N p = (range k).flatMap fun i => (range n_r).flatMap fun j =>
      [Op.copy (p +ₚ (i * n_r + j)) (b +ₚ (i * N + j))] := by
  unfold B_packing_kernel pack_B_nr_x_kc
  rw [loop2_eq]
  simp

theorem packObA_kernels (A A_p : Loc) {M K m1 m2 m_c k m_r : Nat} (hm : 0 < m_r) (hd : m_r ∣ m_c)
    (hM : m1 + m2 + m_c ≤ M) :
    pack_ob_A_single_buf A A_p M K m1 m2 m_c k m_r =
      (cfor 0 m_c m_r).flatMap fun m3 => A_packing_kernel m_r k (A +ₚ (m3 * K)) K (A_p +ₚ (m3 * k)) := by
  obtain ⟨q, rfl⟩ := hd
  rw [Nat.mul_comm m_r q] at *
  rw [packObA_eq _ _ _ _ _ _ _ _ _ hm, cfor_zero_mul _ _ hm, flatMap_map]
  apply flatMap_congr
  intro t ht
  rw [mem_range] at ht
  rw [packA_kernel_eq]
  apply flatMap_congr
  intro i _
  apply flatMap_congr
  intro j hj
  rw [mem_range] at hj
  have := mulAdd_lt (q := t) (n := q) ht hj
  rw [if_neg (by omega)]
  simp only [off_off]
  congr 3
  · ring
  · ring

section
variable {M N K p m_r n_r m_c k_c n_c : Nat}

theorem packA_blis_eq (h : TileOK p m_r n_r m_c k_c n_c) (A A_p : Loc) :
    pack_A_k_first_blis A A_p M K p m_r (dimsKMN M N K p m_r n_r m_c k_c n_c) =
      pack_A_k_first A A_p M K p m_r (dimsKMN M N K p m_r n_r m_c k_c n_c) := by
  unfold pack_A_k_first_blis pack_A_k_first
  congr 1
  apply loopS_congr
  intro m hm s
  apply loopS_congr
  intro k _ s
  rw [kmn_Mb h, mem_range] at hm
  have hpad : (dimsKMN M N K p m_r n_r m_c k_c n_c).m_pad = (M % (p * m_c) != 0) := rfl
  have hmc : (dimsKMN M N K p m_r n_r m_c k_c n_c).m_c = m_c := rfl
  rw [kmn_Mb h, hpad, hmc]
  obtain ⟨_, _, _, h4, _, h6⟩ := m_strips (N := N) (K := K) (k_c := k_c) (n_r := n_r) (n_c := n_c) h hm
  refine Prod.ext (congrArg (fun t => [t]) (map_congr_left ?_)) rfl
  intro core hcore
  rw [mem_range, h4] at hcore
  rw [h6 core hcore]
  have hx : (if (m == cdiv M (p * m_c) - 1 && M % (p * m_c) != 0) = true then
        (dimsKMN M N K p m_r n_r m_c k_c n_c).m_c1 else m_c) = mX M p m_r m_c m := rfl
  simp only [hx]
  split
  · rfl
  · rename_i hl
    have hl' : ((m == cdiv M (p * m_c) - 1 && M % (p * m_c) != 0) && core == mU M p m_r m_c m - 1) = false := by
      rw [← Bool.not_eq_true]
      intro e
      apply hl
      rw [Bool.and_eq_true] at e
      rw [Bool.and_eq_true]
      refine ⟨e.1, ?_⟩
      rw [if_pos e.1] at h4
      rw [h4]
      exact e.2
    have hf := strip_full h hm hcore hl'
    refine Eq.symm ((packObA_kernels _ _ h.m_r_pos (mT_dvd h hm) hf).trans ?_)
    simp only [off_off]
    rfl

theorem packB_blis_eq (hn : 0 < n_r) (hd : n_r ∣ n_c) (B B_p : Loc) {x : BlkDims} (hx : x.n_c = n_c) :
    pack_B_k_first_blis B B_p K N n_r x = pack_B_k_first B B_p K N n_r x := by
  unfold pack_B_k_first_blis pack_B_k_first
  rw [hx]
  have e : (loopS (cfor 0 (N - N % n_c) n_c) (fun n1 ind1 =>
      let ph1 := (cfor 0 (K - K % x.k_c) x.k_c).map fun k1 => (cfor 0 n_c n_r).flatMap fun n2 =>
        B_packing_kernel n_r x.k_c (B +ₚ (n1 + k1 * N + n2)) N
          (B_p +ₚ (ind1 + (k1 / x.k_c) * x.k_c * n_c + n2 * x.k_c))
      let ind1 := ind1 + (K - K % x.k_c) * n_c
      let k1 := K - K % x.k_c
      if x.k_c1 ≠ 0 then
        let ph2 := (cfor 0 n_c n_r).map fun n2 =>
          B_packing_kernel n_r x.k_c1 (B +ₚ (n1 + k1 * N + n2)) N (B_p +ₚ (ind1 + n2 * x.k_c1))
        ([ph1, ph2], ind1 + x.k_c1 * n_c)
      else ([ph1], ind1)) 0) =
    (loopS (cfor 0 (N - N % n_c) n_c) (fun n1 ind1 =>
      let ph1 := (cfor 0 (K - K % x.k_c) x.k_c).map fun k1 =>
        (loopS (cfor 0 n_c n_r) (fun n2 s => loopS (range x.k_c) (fun i s => loopS (range n_r)
          (fun j local_ind =>
            ([Op.copy (B_p +ₚ (ind1 + local_ind + (k1 / x.k_c) * x.k_c * n_c))
                (B +ₚ (n1 + k1 * N + n2 + i * N + j))], local_ind + 1)) s) s) 0).1
      let ind1 := ind1 + (K - K % x.k_c) * n_c
      let k1 := K - K % x.k_c
      if x.k_c1 ≠ 0 then
        let ph2 := (cfor 0 n_c n_r).map fun n2 =>
          (loopS (range x.k_c1) (fun i s => loopS (range n_r) (fun j local_ind =>
            ([Op.copy (B_p +ₚ (ind1 + local_ind + n2 * x.k_c1))
                (B +ₚ (n1 + k1 * N + n2 + i * N + j))], local_ind + 1)) s) 0).1
        ([ph1, ph2], ind1 + x.k_c1 * n_c)
      else ([ph1], ind1)) 0) := by
    apply loopS_congr
    intro n1 _ ind1
    obtain ⟨q, rfl⟩ := hd
    rw [Nat.mul_comm n_r q]
    have h1 : ∀ k1, ((cfor 0 (q * n_r) n_r).flatMap fun n2 =>
        B_packing_kernel n_r x.k_c (B +ₚ (n1 + k1 * N + n2)) N
          (B_p +ₚ (ind1 + (k1 / x.k_c) * x.k_c * (q * n_r) + n2 * x.k_c))) =
        (loopS (cfor 0 (q * n_r) n_r) (fun n2 s => loopS (range x.k_c) (fun i s => loopS (range n_r)
          (fun j local_ind =>
            ([Op.copy (B_p +ₚ (ind1 + local_ind + (k1 / x.k_c) * x.k_c * (q * n_r)))
                (B +ₚ (n1 + k1 * N + n2 + i * N + j))], local_ind + 1)) s) s) 0).1 := by
      intro k1
      rw [loop3_eq _ _ _ _ _ hn, cfor_zero_mul _ _ hn, flatMap_map]
      apply flatMap_congr
      intro t _
      rw [packB_kernel_eq]
      apply flatMap_congr
      intro i _
      apply flatMap_congr
      intro j _
      simp only [off_off]
      congr 3
      · ring
      · ring
    have h2 : ∀ ind1 n2 k1, B_packing_kernel n_r x.k_c1 (B +ₚ (n1 + k1 * N + n2)) N (B_p +ₚ (ind1 + n2 * x.k_c1)) =
        (loopS (range x.k_c1) (fun i s => loopS (range n_r) (fun j local_ind =>
            ([Op.copy (B_p +ₚ (ind1 + local_ind + n2 * x.k_c1))
                (B +ₚ (n1 + k1 * N + n2 + i * N + j))], local_ind + 1)) s) 0).1 := by
      intro ind1 n2 k1
      rw [loop2_eq, packB_kernel_eq]
      apply flatMap_congr
      intro i _
      apply flatMap_congr
      intro j _
      simp only [off_off]
      congr 3
      · ring
      · ring
    simp only [h1, h2]
  simp only [e]

end

end Cake
