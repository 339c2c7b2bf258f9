/-
The register-tile loops around the microkernel: effect and safety.
-/
import Verif.Proofs.Strip

namespace Cake
open List

variable {α : Type _} (F : Arith α)

/-- `kd` is the kernel for `m_r x n_r` tiles. -/
structure KDim.Fits (kd : KDim) (m_r n_r : Nat) : Prop where
  L_pos : 0 < kd.L
  m_eq : kd.m = m_r
  n_eq : kd.nl * kd.L = n_r

theorem tile_idx {m_r n_r q u t i j : Nat} (hi : i < m_r) (hj : j < n_r) :
    cIdx m_r n_r (q * m_r) (u * m_r + i) (t * n_r + j) =
      t * (q * m_r) * n_r + u * m_r * n_r + (i * n_r + j) := by
  unfold cIdx
  rw [mulAdd_div hi, mulAdd_mod hi, mulAdd_div hj, mulAdd_mod hj]
  ring

theorem regTiles_dst {kd : KDim} {m_r n_r : Nat} (hk : kd.Fits m_r n_r) (hm : 0 < m_r) (hn : 0 < n_r)
    (t : Nat) (A B C : Loc) (q q' k : Nat) (o : Op)
    (ho : o ∈ regTiles kd t A B C m_r n_r (q * m_r) (q' * n_r) k) :
    o.dst.buf = .reg t ∨ ∃ r c, r < q * m_r ∧ c < q' * n_r ∧
      o.dst = C +ₚ cIdx m_r n_r (q * m_r) r c := by
  unfold regTiles at ho
  rw [Nat.mul_div_cancel _ hm, Nat.mul_div_cancel _ hn] at ho
  simp only [mem_flatMap, mem_range] at ho
  obtain ⟨n_reg, hn', m_reg, hm', ho⟩ := ho
  rcases kernel_dst _ _ _ _ _ _ _ _ _ o ho with h | ⟨x, hx, h⟩
  · exact Or.inl h
  · right
    rw [Nat.mul_assoc, hk.n_eq, hk.m_eq] at hx
    have hx1 : x / n_r < m_r := div_lt_of_lt_mul' hx
    have hx2 : x % n_r < n_r := Nat.mod_lt _ hn
    refine ⟨m_reg * m_r + x / n_r, n_reg * n_r + x % n_r, mulAdd_lt hm' hx1, mulAdd_lt hn' hx2, ?_⟩
    rw [tile_idx hx1 hx2, h, off_off, divmod_eq]

theorem regTiles_spec {kd : KDim} {m_r n_r : Nat} (hk : kd.Fits m_r n_r) (hm : 0 < m_r) (hn : 0 < n_r)
    (t : Nat) (A B C : Loc) (hA : ∀ t, A.buf ≠ .reg t)
    (hB : ∀ t, B.buf ≠ .reg t) (hC : ∀ t, C.buf ≠ .reg t) (hAC : A.buf ≠ C.buf)
    (hBC : B.buf ≠ C.buf) (q q' k : Nat) (M : Mem α) (r c : Nat) (hr : r < q * m_r)
    (hc : c < q' * n_r) :
    exec F (regTiles kd t A B C m_r n_r (q * m_r) (q' * n_r) k) M
        (C +ₚ cIdx m_r n_r (q * m_r) r c) =
      (range k).foldl (fun acc kk => F.fma (M (A +ₚ aIdx m_r k r kk)) (M (B +ₚ bIdx n_r k c kk)) acc)
        (M (C +ₚ cIdx m_r n_r (q * m_r) r c)) := by
  have hr2 := Nat.mod_lt r hm
  have hc2 := Nat.mod_lt c hn
  have hr1 := div_lt_of_lt_mul' hr
  have hc1 := div_lt_of_lt_mul' hc
  unfold regTiles
  rw [Nat.mul_div_cancel _ hm, Nat.mul_div_cancel _ hn]
  set tgt := C +ₚ cIdx m_r n_r (q * m_r) r c with htgt
  let P : Loc → Prop := fun x => x = tgt ∨ (x.buf ≠ C.buf ∧ x.buf ≠ .reg t)
  -- other tiles do not touch P
  have other : ∀ n_reg m_reg, n_reg < q' → m_reg < q → (n_reg ≠ c / n_r ∨ m_reg ≠ r / m_r) →
      ∀ o ∈ kernel kd.L kd.m kd.nl t (A +ₚ (m_reg * m_r * k)) (B +ₚ (n_reg * k * n_r))
        (C +ₚ (n_reg * (q * m_r) * n_r + m_reg * m_r * n_r)) n_r k, ¬ P o.dst := by
    intro n_reg m_reg hnr hmr hne o ho hP
    rcases kernel_dst _ _ _ _ _ _ _ _ _ o ho with h | ⟨x, hx, h⟩
    · rcases hP with e | ⟨_, e⟩
      · rw [e] at h; exact hC t h
      · exact e h
    · rw [Nat.mul_assoc, hk.n_eq, hk.m_eq] at hx
      have hx1 : x / n_r < m_r := div_lt_of_lt_mul' hx
      have hx2 : x % n_r < n_r := Nat.mod_lt _ hn
      rcases hP with e | ⟨e, _⟩
      · rw [h, off_off, htgt, off_inj] at e
        have e2 := tile_idx (m_r := m_r) (n_r := n_r) (q := q) (u := m_reg) (t := n_reg) hx1 hx2
        rw [divmod_eq n_r x, e] at e2
        obtain ⟨e3, e4⟩ := cIdx_inj hm hn (mulAdd_lt hmr hx1) hr e2
        apply hne.elim
        · intro hh; apply hh; rw [← e4, mulAdd_div hx2]
        · intro hh; apply hh; rw [← e3, mulAdd_div hx1]
      · rw [h] at e; exact e rfl
  apply exec_flatMap_at F (range q') _ M (c / n_r) (mem_range.2 hc1) nodup_range tgt _ P (Or.inl rfl)
  · intro M1 h1
    apply exec_flatMap_at F (range q) _ M1 (r / m_r) (mem_range.2 hr1) nodup_range tgt _ P (Or.inl rfl)
    · intro M2 h2
      have h12 : ∀ x, P x → M2 x = M x := fun x hx => (h2 x hx).trans (h1 x hx)
      have key := kernel_spec F kd.L kd.m kd.nl t hk.L_pos (A +ₚ (r / m_r * m_r * k))
        (B +ₚ (c / n_r * k * n_r))
        (C +ₚ (c / n_r * (q * m_r) * n_r + r / m_r * m_r * n_r)) hA hB hC n_r k M2
        (r % m_r) (c % n_r) (by rw [hk.m_eq]; exact hr2) (by rw [hk.n_eq]; exact hc2)
      rw [hk.n_eq, off_off, ← tile_idx hr2 hc2, divmod_eq, divmod_eq] at key
      rw [key, h12 tgt (Or.inl rfl)]
      congr 1
      funext acc kk
      rw [off_off, off_off, hk.m_eq]
      have ea : r / m_r * m_r * k + (kk * m_r + r % m_r) = aIdx m_r k r kk := by unfold aIdx; ring
      have eb : c / n_r * k * n_r + (kk * n_r + c % n_r) = bIdx n_r k c kk := by unfold bIdx; ring
      rw [ea, eb]
      congr 1
      · exact h12 _ (Or.inr ⟨hAC, hA t⟩)
      · exact h12 _ (Or.inr ⟨hBC, hB t⟩)
    · intro u hu hne o ho
      exact other _ _ hc1 (mem_range.1 hu) (Or.inr hne) o ho
  · intro u hu hne o ho
    obtain ⟨v, hv, ho⟩ := mem_flatMap.1 ho
    exact other _ _ (mem_range.1 hu) (mem_range.1 hv) (Or.inl hne) o ho

/-- Everything but the registers of the task and the C strip is untouched. -/
theorem regTiles_frame {kd : KDim} {m_r n_r : Nat} (hk : kd.Fits m_r n_r) (hm : 0 < m_r) (hn : 0 < n_r)
    (t : Nat) (A B C : Loc) (q q' k : Nat) (M : Mem α) (x : Loc) (hx : x.buf ≠ .reg t)
    (hC : ∀ r c, r < q * m_r → c < q' * n_r → x ≠ C +ₚ cIdx m_r n_r (q * m_r) r c) :
    exec F (regTiles kd t A B C m_r n_r (q * m_r) (q' * n_r) k) M x = M x := by
  apply exec_frame
  intro o ho e
  rcases regTiles_dst hk hm hn t A B C q q' k o ho with h | ⟨r, c, h1, h2, h⟩
  · exact hx (e ▸ h)
  · exact hC r c h1 h2 (e ▸ h)

theorem regTiles_reads {kd : KDim} {m_r n_r : Nat} (hk : kd.Fits m_r n_r) (hm : 0 < m_r) (hn : 0 < n_r)
    (t : Nat) (A B C : Loc) (q q' k : Nat) (o : Op)
    (ho : o ∈ regTiles kd t A B C m_r n_r (q * m_r) (q' * n_r) k) (l : Loc) (hl : l ∈ o.reads) :
    l.buf = .reg t ∨ (∃ r c, r < q * m_r ∧ c < q' * n_r ∧ l = C +ₚ cIdx m_r n_r (q * m_r) r c) ∨
      (∃ r i, r < q * m_r ∧ i < k ∧ l = A +ₚ aIdx m_r k r i) ∨
      (∃ c i, c < q' * n_r ∧ i < k ∧ l = B +ₚ bIdx n_r k c i) := by
  unfold regTiles at ho
  rw [Nat.mul_div_cancel _ hm, Nat.mul_div_cancel _ hn] at ho
  simp only [mem_flatMap, mem_range] at ho
  obtain ⟨n_reg, hn', m_reg, hm', ho⟩ := ho
  rcases kernel_reads _ _ _ _ _ _ _ _ _ o ho l hl with h | ⟨x, hx, h⟩ | ⟨kk, i, hkk, hi, h⟩ |
      ⟨kk, j, hkk, hj, h⟩
  · exact Or.inl h
  · right; left
    rw [Nat.mul_assoc, hk.n_eq, hk.m_eq] at hx
    have hx1 : x / n_r < m_r := div_lt_of_lt_mul' hx
    have hx2 : x % n_r < n_r := Nat.mod_lt _ hn
    refine ⟨m_reg * m_r + x / n_r, n_reg * n_r + x % n_r, mulAdd_lt hm' hx1, mulAdd_lt hn' hx2, ?_⟩
    rw [tile_idx hx1 hx2, h, off_off, divmod_eq]
  · right; right; left
    rw [hk.m_eq] at hi h
    refine ⟨m_reg * m_r + i, kk, mulAdd_lt hm' hi, hkk, ?_⟩
    unfold aIdx
    rw [mulAdd_div hi, mulAdd_mod hi, h, off_off]
    congr 1; ring
  · right; right; right
    rw [hk.n_eq] at hj
    refine ⟨n_reg * n_r + j, kk, mulAdd_lt hn' hj, hkk, ?_⟩
    unfold bIdx
    rw [mulAdd_div hj, mulAdd_mod hj, h, off_off]
    congr 1; ring

theorem regTiles_safe {kd : KDim} {m_r n_r : Nat} (hk : kd.Fits m_r n_r) (hm : 0 < m_r) (hn : 0 < n_r)
    (t : Nat) (A B C : Loc) (q q' k : Nat) (size : Buf → Option Nat) (init : Loc → Bool)
    (hC : ∀ x, x < q * m_r * (q' * n_r) → InB size (C +ₚ x) ∧ init (C +ₚ x) = true)
    (hA : ∀ x, x < q * m_r * k → InB size (A +ₚ x) ∧ init (A +ₚ x) = true)
    (hB : ∀ x, x < q' * n_r * k → InB size (B +ₚ x) ∧ init (B +ₚ x) = true) :
    Safe size init (regTiles kd t A B C m_r n_r (q * m_r) (q' * n_r) k) := by
  unfold regTiles
  rw [Nat.mul_div_cancel _ hm, Nat.mul_div_cancel _ hn]
  apply Safe.flatMap
  intro n_reg hn'
  rw [mem_range] at hn'
  apply Safe.flatMap
  intro m_reg hm'
  rw [mem_range] at hm'
  apply kernel_safe
  · intro x hx
    rw [Nat.mul_assoc, hk.n_eq, hk.m_eq] at hx
    have hx1 : x / n_r < m_r := div_lt_of_lt_mul' hx
    have hx2 : x % n_r < n_r := Nat.mod_lt _ hn
    have := hC _ (cIdx_lt (mulAdd_lt hm' hx1) (mulAdd_lt hn' hx2))
    rw [tile_idx hx1 hx2, divmod_eq] at this
    rwa [off_off]
  · intro kk i hkk hi
    rw [hk.m_eq] at hi ⊢
    have := hA _ (aIdx_lt hkk (mulAdd_lt hm' hi))
    unfold aIdx at this
    rw [mulAdd_div hi, mulAdd_mod hi] at this
    rw [off_off]
    have e : m_reg * m_r * k + (kk * m_r + i) = m_reg * (k * m_r) + (kk * m_r + i) := by ring
    rwa [e]
  · intro kk j hkk hj
    rw [hk.n_eq] at hj
    have := hB _ (bIdx_lt hkk (mulAdd_lt hn' hj))
    unfold bIdx at this
    rw [mulAdd_div hj, mulAdd_mod hj] at this
    rw [off_off]
    have e : n_reg * k * n_r + (kk * n_r + j) = n_reg * (k * n_r) + (kk * n_r + j) := by ring
    rwa [e]

/-! ### The same with divisibility hypotheses -/

section dvd
variable {kd : KDim} {m_r n_r mt nt : Nat} (hk : kd.Fits m_r n_r) (hm : 0 < m_r) (hn : 0 < n_r)
  (hdm : m_r ∣ mt) (hdn : n_r ∣ nt)
include hk hm hn hdm hdn

theorem regTiles_dst' (t : Nat) (A B C : Loc) (k : Nat) (o : Op)
    (ho : o ∈ regTiles kd t A B C m_r n_r mt nt k) :
    o.dst.buf = .reg t ∨ ∃ r c, r < mt ∧ c < nt ∧ o.dst = C +ₚ cIdx m_r n_r mt r c := by
  obtain ⟨q, rfl⟩ := hdm
  obtain ⟨q', rfl⟩ := hdn
  rw [Nat.mul_comm m_r q, Nat.mul_comm n_r q'] at *
  exact regTiles_dst hk hm hn t A B C q q' k o ho

theorem regTiles_spec' (t : Nat) (A B C : Loc) (hA : ∀ t, A.buf ≠ .reg t)
    (hB : ∀ t, B.buf ≠ .reg t) (hC : ∀ t, C.buf ≠ .reg t) (hAC : A.buf ≠ C.buf)
    (hBC : B.buf ≠ C.buf) (k : Nat) (M : Mem α) (r c : Nat) (hr : r < mt) (hc : c < nt) :
    exec F (regTiles kd t A B C m_r n_r mt nt k) M (C +ₚ cIdx m_r n_r mt r c) =
      (range k).foldl (fun acc kk => F.fma (M (A +ₚ aIdx m_r k r kk)) (M (B +ₚ bIdx n_r k c kk)) acc)
        (M (C +ₚ cIdx m_r n_r mt r c)) := by
  obtain ⟨q, rfl⟩ := hdm
  obtain ⟨q', rfl⟩ := hdn
  rw [Nat.mul_comm m_r q, Nat.mul_comm n_r q'] at *
  exact regTiles_spec F hk hm hn t A B C hA hB hC hAC hBC q q' k M r c hr hc

theorem regTiles_frame' (t : Nat) (A B C : Loc) (k : Nat) (M : Mem α) (x : Loc)
    (hx : x.buf ≠ .reg t)
    (hC : ∀ r c, r < mt → c < nt → x ≠ C +ₚ cIdx m_r n_r mt r c) :
    exec F (regTiles kd t A B C m_r n_r mt nt k) M x = M x := by
  obtain ⟨q, rfl⟩ := hdm
  obtain ⟨q', rfl⟩ := hdn
  rw [Nat.mul_comm m_r q, Nat.mul_comm n_r q'] at *
  exact regTiles_frame F hk hm hn t A B C q q' k M x hx hC

theorem regTiles_reads' (t : Nat) (A B C : Loc) (k : Nat) (o : Op)
    (ho : o ∈ regTiles kd t A B C m_r n_r mt nt k) (l : Loc) (hl : l ∈ o.reads) :
    l.buf = .reg t ∨ (∃ r c, r < mt ∧ c < nt ∧ l = C +ₚ cIdx m_r n_r mt r c) ∨
      (∃ r i, r < mt ∧ i < k ∧ l = A +ₚ aIdx m_r k r i) ∨
      (∃ c i, c < nt ∧ i < k ∧ l = B +ₚ bIdx n_r k c i) := by
  obtain ⟨q, rfl⟩ := hdm
  obtain ⟨q', rfl⟩ := hdn
  rw [Nat.mul_comm m_r q, Nat.mul_comm n_r q'] at *
  exact regTiles_reads hk hm hn t A B C q q' k o ho l hl

theorem regTiles_safe' (t : Nat) (A B C : Loc) (k : Nat) (size : Buf → Option Nat)
    (init : Loc → Bool)
    (hC : ∀ x, x < mt * nt → InB size (C +ₚ x) ∧ init (C +ₚ x) = true)
    (hA : ∀ x, x < mt * k → InB size (A +ₚ x) ∧ init (A +ₚ x) = true)
    (hB : ∀ x, x < nt * k → InB size (B +ₚ x) ∧ init (B +ₚ x) = true) :
    Safe size init (regTiles kd t A B C m_r n_r mt nt k) := by
  obtain ⟨q, rfl⟩ := hdm
  obtain ⟨q', rfl⟩ := hdn
  rw [Nat.mul_comm m_r q, Nat.mul_comm n_r q'] at *
  exact regTiles_safe hk hm hn t A B C q q' k size init hC hA hB

omit hk hm hn in
theorem cIdx_lt' {r c : Nat} (hr : r < mt) (hc : c < nt) : cIdx m_r n_r mt r c < mt * nt := by
  obtain ⟨q, rfl⟩ := hdm
  obtain ⟨q', rfl⟩ := hdn
  rw [Nat.mul_comm m_r q, Nat.mul_comm n_r q'] at *
  exact cIdx_lt hr hc

omit hk hdn in
theorem cIdx_inj' {r r' c c' : Nat} (hr : r < mt) (hr' : r' < mt)
    (e : cIdx m_r n_r mt r c = cIdx m_r n_r mt r' c') : r = r' ∧ c = c' := by
  obtain ⟨q, rfl⟩ := hdm
  rw [Nat.mul_comm m_r q] at *
  exact cIdx_inj hm hn hr hr' e

end dvd

end Cake
