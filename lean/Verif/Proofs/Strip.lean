/-
Packing, register tiling and unpacking of one strip (the part of an operand one core handles in one
block): closed forms, destinations, effects.
-/
import Verif.Model.KFirst
import Verif.Proofs.Kernel
import Verif.Chop

namespace Cake
open List

/-! ### Packed indices within a strip -/

/-- Packed A strip of depth `k`: index of row `r`, column `i`. -/
def aIdx (m_r k r i : Nat) : Nat := r / m_r * (k * m_r) + (i * m_r + r % m_r)
/-- Packed B strip of depth `k`: index of row `i`, column `c`. -/
def bIdx (n_r k c i : Nat) : Nat := c / n_r * (k * n_r) + (i * n_r + c % n_r)
/-- Packed C strip of `m_c` rows: index of row `r`, column `c`. -/
def cIdx (m_r n_r m_c r c : Nat) : Nat :=
  c / n_r * (m_c * n_r) + (r / m_r * (m_r * n_r) + (r % m_r * n_r + c % n_r))

theorem mulAdd_div {d t j : Nat} (hj : j < d) : (t * d + j) / d = t := by
  have hd : 0 < d := by omega
  rw [Nat.mul_comm, Nat.mul_add_div hd, Nat.div_eq_of_lt hj]; omega

theorem mulAdd_mod {d t j : Nat} (hj : j < d) : (t * d + j) % d = j := by
  rw [Nat.mul_comm, Nat.mul_add_mod, Nat.mod_eq_of_lt hj]

theorem divmod_eq (d r : Nat) : r / d * d + r % d = r := by
  have := Nat.div_add_mod r d
  rwa [Nat.mul_comm] at this

theorem div_lt_of_lt_mul' {r q d : Nat} (h : r < q * d) : r / d < q := by
  have hd : 0 < d := by
    rcases Nat.eq_zero_or_pos d with h' | h'
    · subst h'; simp at h
    · exact h'
  rwa [Nat.div_lt_iff_lt_mul hd]

theorem aIdx_inj {m_r k r r' i i' : Nat} (hm : 0 < m_r) (hi : i < k) (hi' : i' < k)
    (h : aIdx m_r k r i = aIdx m_r k r' i') : r = r' ∧ i = i' := by
  unfold aIdx at h
  have h1 := Nat.mod_lt r hm
  have h2 := Nat.mod_lt r' hm
  obtain ⟨e1, e2⟩ := mulAdd_inj (mulAdd_lt hi h1) (mulAdd_lt hi' h2) h
  obtain ⟨e3, e4⟩ := mulAdd_inj h1 h2 e2
  refine ⟨?_, e3⟩
  rw [← divmod_eq m_r r, ← divmod_eq m_r r', e1, e4]

theorem aIdx_lt {m_r k r i q : Nat} (hi : i < k) (hr : r < q * m_r) :
    aIdx m_r k r i < q * m_r * k := by
  have hm : 0 < m_r := by
    rcases Nat.eq_zero_or_pos m_r with h' | h'
    · subst h'; simp at hr
    · exact h'
  have := mulAdd_lt (div_lt_of_lt_mul' hr) (mulAdd_lt hi (Nat.mod_lt r hm))
  unfold aIdx
  calc _ < q * (k * m_r) := this
    _ = _ := by ring

theorem bIdx_lt {n_r k c i q : Nat} (hi : i < k) (hc : c < q * n_r) :
    bIdx n_r k c i < q * n_r * k := aIdx_lt hi hc

theorem cIdx_inj {m_r n_r q r r' c c' : Nat} (hm : 0 < m_r) (hn : 0 < n_r) (hr : r < q * m_r)
    (hr' : r' < q * m_r) (h : cIdx m_r n_r (q * m_r) r c = cIdx m_r n_r (q * m_r) r' c') :
    r = r' ∧ c = c' := by
  unfold cIdx at h
  have h1 := Nat.mod_lt r hm
  have h2 := Nat.mod_lt r' hm
  have h3 := Nat.mod_lt c hn
  have h4 := Nat.mod_lt c' hn
  have l1 := mulAdd_lt (div_lt_of_lt_mul' hr) (mulAdd_lt h1 h3)
  have l2 := mulAdd_lt (div_lt_of_lt_mul' hr') (mulAdd_lt h2 h4)
  rw [← Nat.mul_assoc q] at l1 l2
  obtain ⟨e1, e2⟩ := mulAdd_inj l1 l2 h
  obtain ⟨e3, e4⟩ := mulAdd_inj (mulAdd_lt h1 h3) (mulAdd_lt h2 h4) e2
  obtain ⟨e5, e6⟩ := mulAdd_inj h3 h4 e4
  refine ⟨?_, ?_⟩
  · rw [← divmod_eq m_r r, ← divmod_eq m_r r', e3, e5]
  · rw [← divmod_eq n_r c, ← divmod_eq n_r c', e1, e6]

theorem cIdx_lt {m_r n_r q q' r c : Nat} (hr : r < q * m_r) (hc : c < q' * n_r) :
    cIdx m_r n_r (q * m_r) r c < q * m_r * (q' * n_r) := by
  have hm : 0 < m_r := by
    rcases Nat.eq_zero_or_pos m_r with h' | h'
    · subst h'; simp at hr
    · exact h'
  have hn : 0 < n_r := by
    rcases Nat.eq_zero_or_pos n_r with h' | h'
    · subst h'; simp at hc
    · exact h'
  have l1 := mulAdd_lt (div_lt_of_lt_mul' hr) (mulAdd_lt (Nat.mod_lt r hm) (Nat.mod_lt c hn))
  rw [← Nat.mul_assoc q] at l1
  have := mulAdd_lt (div_lt_of_lt_mul' hc) l1
  unfold cIdx
  calc _ < q' * (q * m_r * n_r) := this
    _ = _ := by ring

/-! ### Counter loops -/

section
variable {γ : Type _}

theorem loop2_eq (k r c0 : Nat) (g : Nat → Nat → Nat → List γ) :
    loopS (range k) (fun i s => loopS (range r) (fun j c => (g i j c, c + 1)) s) c0 =
      ((range k).flatMap fun i => (range r).flatMap fun j => g i j (c0 + (i * r + j)),
        c0 + k * r) := by
  have h1 : ∀ i s, loopS (range r) (fun j c => (g i j c, c + 1)) s =
      ((range r).flatMap fun j => g i j (s + j), s + r) := by
    intro i s
    rw [loopS_range (c := 1) _ _ _ (fun _ _ _ => rfl)]
    simp
  rw [loopS_range (c := r) _ _ _ (fun i _ s => by rw [h1])]
  simp only [h1, Nat.add_assoc]

theorem loop3_eq (q st k r c0 : Nat) (hst : 0 < st) (g : Nat → Nat → Nat → Nat → List γ) :
    loopS (cfor 0 (q * st) st) (fun a s => loopS (range k) (fun i s =>
        loopS (range r) (fun j c => (g a i j c, c + 1)) s) s) c0 =
      ((range q).flatMap fun t => (range k).flatMap fun i => (range r).flatMap fun j =>
        g (t * st) i j (c0 + (t * (k * r) + (i * r + j))), c0 + q * (k * r)) := by
  rw [cfor_zero_mul _ _ hst, loopS_map]
  rw [loopS_range (c := k * r) _ _ _ (fun i _ s => by rw [loop2_eq])]
  simp only [loop2_eq, Nat.add_assoc]

theorem loop4_eq (q st q' st' k r c0 : Nat) (hst : 0 < st) (hst' : 0 < st')
    (g : Nat → Nat → Nat → Nat → Nat → List γ) :
    loopS (cfor 0 (q * st) st) (fun a s => loopS (cfor 0 (q' * st') st') (fun b s =>
      loopS (range k) (fun i s =>
        loopS (range r) (fun j c => (g a b i j c, c + 1)) s) s) s) c0 =
      ((range q).flatMap fun t => (range q').flatMap fun u => (range k).flatMap fun i =>
        (range r).flatMap fun j =>
        g (t * st) (u * st') i j (c0 + (t * (q' * (k * r)) + (u * (k * r) + (i * r + j)))),
        c0 + q * (q' * (k * r))) := by
  rw [cfor_zero_mul _ _ hst, loopS_map]
  rw [loopS_range (c := q' * (k * r)) _ _ _ (fun i _ s => by rw [loop3_eq _ _ _ _ _ hst'])]
  simp only [loop3_eq _ _ _ _ _ hst', Nat.add_assoc]

end

/-- Writers in three nested loops with consecutive destinations. -/
theorem seqW3 {b : Buf} {base q k r : Nat} {f : Nat → Nat → Nat → Op}
    (h : ∀ t i j, j < r → (f t i j).dst = ⟨b, base + (t * (k * r) + (i * r + j))⟩) :
    SeqW b base (q * (k * r)) ((range q).flatMap fun t => (range k).flatMap fun i =>
      (range r).flatMap fun j => [f t i j]) := by
  apply SeqW.flatMap
  intro t _
  apply SeqW.flatMap
  intro i _
  have := SeqW.flatMap (b := b) (base := base + t * (k * r) + i * r) (n := r) (c := 1)
    (f := fun j => [f t i j]) (fun j hj => SeqW.single _ _ (by rw [h _ _ _ hj]; simp [Nat.add_assoc]))
  simpa using this

theorem seqW4 {b : Buf} {base q q' k r : Nat} {f : Nat → Nat → Nat → Nat → Op}
    (h : ∀ t u i j, (f t u i j).dst =
      ⟨b, base + (t * (q' * (k * r)) + (u * (k * r) + (i * r + j)))⟩) :
    SeqW b base (q * (q' * (k * r))) ((range q).flatMap fun t => (range q').flatMap fun u =>
      (range k).flatMap fun i => (range r).flatMap fun j => [f t u i j]) := by
  apply SeqW.flatMap
  intro t _
  apply seqW3
  intro u i j _
  rw [h]; simp [Nat.add_assoc]

/-- Membership in three nested loops, with the outer and inner index joined to a row index. -/
theorem mem3 {q k d : Nat} {f : Nat → Nat → Nat → Op} {g : Nat → Nat → Op}
    (h : ∀ t i j, t < q → i < k → j < d → f t i j = g (t * d + j) i) (o : Op) :
    o ∈ ((range q).flatMap fun t => (range k).flatMap fun i =>
      (range d).flatMap fun j => [f t i j]) ↔ ∃ r i, r < q * d ∧ i < k ∧ o = g r i := by
  simp only [mem_flatMap, mem_range, mem_singleton]
  constructor
  · rintro ⟨t, ht, i, hi, j, hj, rfl⟩
    exact ⟨t * d + j, i, mulAdd_lt ht hj, hi, h t i j ht hi hj⟩
  · rintro ⟨r, i, hr, hi, rfl⟩
    have hd : 0 < d := by
      rcases Nat.eq_zero_or_pos d with h' | h'
      · subst h'; simp at hr
      · exact h'
    refine ⟨r / d, div_lt_of_lt_mul' hr, i, hi, r % d, Nat.mod_lt r hd, ?_⟩
    rw [h _ _ _ (div_lt_of_lt_mul' hr) hi (Nat.mod_lt r hd), divmod_eq]

/-! ### Packing a strip of A -/

def packAOp (A A_p : Loc) (M K m1 m_r k r i : Nat) : Op :=
  if m1 + r ≥ M then Op.zero (A_p +ₚ aIdx m_r k r i)
  else Op.copy (A_p +ₚ aIdx m_r k r i) (A +ₚ (r * K + i))

theorem packObA_eq (A A_p : Loc) (M K m1 m2 q k m_r : Nat) (hm : 0 < m_r) :
    pack_ob_A_single_buf A A_p M K m1 m2 (q * m_r) k m_r =
      (range q).flatMap fun t => (range k).flatMap fun i => (range m_r).flatMap fun j =>
        [if m1 + m2 + t * m_r + j ≥ M then Op.zero (A_p +ₚ (0 + (t * (k * m_r) + (i * m_r + j))))
          else Op.copy (A_p +ₚ (0 + (t * (k * m_r) + (i * m_r + j)))) (A +ₚ (t * m_r * K + i + j * K))] := by
  unfold pack_ob_A_single_buf
  rw [loop3_eq _ _ _ _ _ hm]

theorem packObA_seqW (A A_p : Loc) (M K m1 m2 k m_r m_c : Nat) (hm : 0 < m_r) (hd : m_r ∣ m_c) :
    SeqW A_p.buf A_p.idx (m_c * k) (pack_ob_A_single_buf A A_p M K m1 m2 m_c k m_r) := by
  obtain ⟨q, rfl⟩ := hd
  rw [Nat.mul_comm m_r q, packObA_eq _ _ _ _ _ _ _ _ _ hm]
  have := seqW3 (b := A_p.buf) (base := A_p.idx) (q := q) (k := k) (r := m_r)
    (f := fun t i j =>
        if m1 + m2 + t * m_r + j ≥ M then Op.zero (A_p +ₚ (0 + (t * (k * m_r) + (i * m_r + j))))
          else Op.copy (A_p +ₚ (0 + (t * (k * m_r) + (i * m_r + j)))) (A +ₚ (t * m_r * K + i + j * K)))
    (by intro t i j _; split <;> simp [Op.dst, Loc.off])
  have e : q * (k * m_r) = q * m_r * k := by ring
  rwa [e] at this

theorem packObA_mem (A A_p : Loc) (M K m1 m2 k m_r m_c : Nat) (hm : 0 < m_r) (hd : m_r ∣ m_c)
    (o : Op) : o ∈ pack_ob_A_single_buf A A_p M K m1 m2 m_c k m_r ↔
      ∃ r i, r < m_c ∧ i < k ∧ o = packAOp A A_p M K (m1 + m2) m_r k r i := by
  obtain ⟨q, rfl⟩ := hd
  rw [Nat.mul_comm m_r q, packObA_eq _ _ _ _ _ _ _ _ _ hm]
  apply mem3
  intro t i j _ _ hj
  unfold packAOp aIdx
  rw [mulAdd_div hj, mulAdd_mod hj]
  simp only [Nat.zero_add, Nat.add_assoc]
  congr 3
  ring

theorem packAOp_dst (A A_p : Loc) (M K m1 m_r k r i : Nat) :
    (packAOp A A_p M K m1 m_r k r i).dst = A_p +ₚ aIdx m_r k r i := by
  unfold packAOp; split <;> rfl

/-! ### Packing a strip of B -/

def packBOp (B B_p : Loc) (N n1 n_r k c i : Nat) : Op :=
  if n1 + c ≥ N then Op.zero (B_p +ₚ bIdx n_r k c i)
  else Op.copy (B_p +ₚ bIdx n_r k c i) (B +ₚ (i * N + c))

theorem packBOp_dst (B B_p : Loc) (N n1 n_r k c i : Nat) :
    (packBOp B B_p N n1 n_r k c i).dst = B_p +ₚ bIdx n_r k c i := by
  unfold packBOp; split <;> rfl

theorem packObB_seqW (B B_p : Loc) (N n1 k n_c n_r : Nat) (pad : Bool) (hn : 0 < n_r)
    (hd : n_r ∣ n_c) :
    SeqW B_p.buf B_p.idx (n_c * k) (pack_ob_B_single_buf B B_p N n1 k n_c n_r pad) := by
  obtain ⟨q, rfl⟩ := hd
  rw [Nat.mul_comm n_r q]
  have e : q * (k * n_r) = q * n_r * k := by ring
  unfold pack_ob_B_single_buf
  rw [loop3_eq _ _ _ _ _ hn, loop3_eq _ _ _ _ _ hn, ← e]
  split
  · apply seqW3 (f := fun t i j =>
      if n1 + t * n_r + j ≥ N then Op.zero (B_p +ₚ (0 + (t * (k * n_r) + (i * n_r + j))))
        else Op.copy (B_p +ₚ (0 + (t * (k * n_r) + (i * n_r + j)))) (B +ₚ (t * n_r + i * N + j)))
    intro t i j _; split <;> simp [Op.dst, Loc.off]
  · apply seqW3 (f := fun t i j =>
        Op.copy (B_p +ₚ (0 + (t * (k * n_r) + (i * n_r + j)))) (B +ₚ (t * n_r + i * N + j)))
    intro t i j _; simp [Op.dst, Loc.off]

/-- With the column check. -/
theorem packObB_mem_pad (B B_p : Loc) (N n1 k n_c n_r : Nat) (hn : 0 < n_r)
    (hd : n_r ∣ n_c) (o : Op) :
    o ∈ pack_ob_B_single_buf B B_p N n1 k n_c n_r true ↔
      ∃ c i, c < n_c ∧ i < k ∧ o = packBOp B B_p N n1 n_r k c i := by
  obtain ⟨q, rfl⟩ := hd
  rw [Nat.mul_comm n_r q]
  unfold pack_ob_B_single_buf
  rw [loop3_eq _ _ _ _ _ hn, if_pos rfl]
  apply mem3
  intro t i j _ _ hj
  unfold packBOp bIdx
  rw [mulAdd_div hj, mulAdd_mod hj]
  simp only [Nat.zero_add, Nat.add_assoc]
  congr 3
  ring

/-- Without the column check everything is copied. -/
theorem packObB_mem_nopad (B B_p : Loc) (N n1 k n_c n_r : Nat) (hn : 0 < n_r)
    (hd : n_r ∣ n_c) (o : Op) :
    o ∈ pack_ob_B_single_buf B B_p N n1 k n_c n_r false ↔
      ∃ c i, c < n_c ∧ i < k ∧ o = Op.copy (B_p +ₚ bIdx n_r k c i) (B +ₚ (i * N + c)) := by
  obtain ⟨q, rfl⟩ := hd
  rw [Nat.mul_comm n_r q]
  unfold pack_ob_B_single_buf
  rw [loop3_eq _ _ _ _ _ hn, if_neg (by simp), loop3_eq _ _ _ _ _ hn]
  apply mem3
  intro t i j _ _ hj
  unfold bIdx
  rw [mulAdd_div hj, mulAdd_mod hj]
  simp only [Nat.zero_add]
  congr 2
  ring

/-! ### Packing and unpacking a strip of C -/

/-- Membership in four nested loops, indices joined to a row and a column. -/
theorem mem4 {q q' d e : Nat} {f : Nat → Nat → Nat → Nat → List Op} {g : Nat → Nat → List Op}
    (h : ∀ t u i j, t < q → u < q' → i < d → j < e → f t u i j = g (u * d + i) (t * e + j)) (o : Op) :
    o ∈ ((range q).flatMap fun t => (range q').flatMap fun u => (range d).flatMap fun i =>
      (range e).flatMap fun j => f t u i j) ↔
      ∃ r c, r < q' * d ∧ c < q * e ∧ o ∈ g r c := by
  simp only [mem_flatMap, mem_range]
  constructor
  · rintro ⟨t, ht, u, hu, i, hi, j, hj, ho⟩
    exact ⟨u * d + i, t * e + j, mulAdd_lt hu hi, mulAdd_lt ht hj, h t u i j ht hu hi hj ▸ ho⟩
  · rintro ⟨r, c, hr, hc, ho⟩
    have hd : 0 < d := by
      rcases Nat.eq_zero_or_pos d with h' | h'
      · subst h'; simp at hr
      · exact h'
    have he : 0 < e := by
      rcases Nat.eq_zero_or_pos e with h' | h'
      · subst h'; simp at hc
      · exact h'
    refine ⟨c / e, div_lt_of_lt_mul' hc, r / d, div_lt_of_lt_mul' hr, r % d, Nat.mod_lt r hd,
      c % e, Nat.mod_lt c he, ?_⟩
    rw [h _ _ _ _ (div_lt_of_lt_mul' hc) (div_lt_of_lt_mul' hr) (Nat.mod_lt r hd)
      (Nat.mod_lt c he), divmod_eq, divmod_eq]
    exact ho

theorem unpackC_mem (C C_p : Loc) (M N m1 n1 m2 m_c n_c m_r n_r : Nat) (hm : 0 < m_r) (hn : 0 < n_r)
    (hdm : m_r ∣ m_c) (hdn : n_r ∣ n_c) (o : Op) :
    o ∈ unpack_ob_C_single_buf C C_p M N m1 n1 m2 m_c n_c m_r n_r ↔
      ∃ r c, r < m_c ∧ c < n_c ∧ n1 + c < N ∧ m1 + m2 + r < M ∧
        o = Op.copy (C +ₚ (r * N + c)) (C_p +ₚ cIdx m_r n_r m_c r c) := by
  obtain ⟨q, rfl⟩ := hdm
  obtain ⟨q', rfl⟩ := hdn
  rw [Nat.mul_comm m_r q, Nat.mul_comm n_r q']
  unfold unpack_ob_C_single_buf
  rw [loop4_eq _ _ _ _ _ _ _ hn hm]
  rw [mem4 (g := fun r c => if n1 + c < N ∧ m1 + m2 + r < M then
    [Op.copy (C +ₚ (r * N + c)) (C_p +ₚ cIdx m_r n_r (q * m_r) r c)] else [])]
  · constructor
    · rintro ⟨r, c, hr, hc, ho⟩
      split at ho
      · rename_i h
        exact ⟨r, c, hr, hc, h.1, h.2, by simpa using ho⟩
      · simp at ho
    · rintro ⟨r, c, hr, hc, h1, h2, rfl⟩
      refine ⟨r, c, hr, hc, ?_⟩
      rw [if_pos ⟨h1, h2⟩]; simp
  · intro t u i j _ _ hi hj
    unfold cIdx
    rw [mulAdd_div hi, mulAdd_mod hi, mulAdd_div hj, mulAdd_mod hj]
    simp only [Nat.zero_add, Nat.add_assoc]
    congr 3
    · congr 1; ring
    · congr 1; ring

def packCOp (C C_p : Loc) (M N m1 n1 m_r n_r m_c r c : Nat) : Op :=
  if n1 + c ≥ N ∨ m1 + r ≥ M then Op.zero (C_p +ₚ cIdx m_r n_r m_c r c)
  else Op.copy (C_p +ₚ cIdx m_r n_r m_c r c) (C +ₚ (r * N + c))

theorem packCOp_dst (C C_p : Loc) (M N m1 n1 m_r n_r m_c r c : Nat) :
    (packCOp C C_p M N m1 n1 m_r n_r m_c r c).dst = C_p +ₚ cIdx m_r n_r m_c r c := by
  unfold packCOp; split <;> rfl

theorem packObC_seqW (C C_p : Loc) (M N m1 n1 m2 m_c n_c m_r n_r : Nat) (pm pn : Bool)
    (hm : 0 < m_r) (hn : 0 < n_r) (hdm : m_r ∣ m_c) (hdn : n_r ∣ n_c) :
    SeqW C_p.buf C_p.idx (m_c * n_c)
      (pack_ob_C_single_buf C C_p M N m1 n1 m2 m_c n_c m_r n_r pm pn) := by
  obtain ⟨q, rfl⟩ := hdm
  obtain ⟨q', rfl⟩ := hdn
  rw [Nat.mul_comm m_r q, Nat.mul_comm n_r q']
  have e : q' * (q * (m_r * n_r)) = q * m_r * (q' * n_r) := by ring
  unfold pack_ob_C_single_buf
  rw [loop4_eq _ _ _ _ _ _ _ hn hm, loop4_eq _ _ _ _ _ _ _ hn hm, ← e]
  split
  · apply seqW4 (f := fun t u i j =>
      if n1 + t * n_r + j ≥ N ∨ m1 + m2 + u * m_r + i ≥ M then
        Op.zero (C_p +ₚ (0 + (t * (q * (m_r * n_r)) + (u * (m_r * n_r) + (i * n_r + j)))))
        else Op.copy (C_p +ₚ (0 + (t * (q * (m_r * n_r)) + (u * (m_r * n_r) + (i * n_r + j)))))
          (C +ₚ (t * n_r + u * m_r * N + i * N + j)))
    intro t u i j; split <;> simp [Op.dst, Loc.off]
  · apply seqW4 (f := fun t u i j =>
      Op.copy (C_p +ₚ (0 + (t * (q * (m_r * n_r)) + (u * (m_r * n_r) + (i * n_r + j)))))
          (C +ₚ (t * n_r + u * m_r * N + i * N + j)))
    intro t u i j; simp [Op.dst, Loc.off]

/-- With the boundary check, or where the check is not needed. -/
theorem packObC_mem (C C_p : Loc) (M N m1 n1 m2 m_c n_c m_r n_r : Nat) (pm pn : Bool)
    (hm : 0 < m_r) (hn : 0 < n_r) (hdm : m_r ∣ m_c) (hdn : n_r ∣ n_c)
    (hpad : (pm || pn) = false → m1 + m2 + m_c ≤ M ∧ n1 + n_c ≤ N) (o : Op) :
    o ∈ pack_ob_C_single_buf C C_p M N m1 n1 m2 m_c n_c m_r n_r pm pn ↔
      ∃ r c, r < m_c ∧ c < n_c ∧ o = packCOp C C_p M N (m1 + m2) n1 m_r n_r m_c r c := by
  obtain ⟨q, rfl⟩ := hdm
  obtain ⟨q', rfl⟩ := hdn
  rw [Nat.mul_comm m_r q, Nat.mul_comm n_r q'] at *
  unfold pack_ob_C_single_buf
  rw [loop4_eq _ _ _ _ _ _ _ hn hm, loop4_eq _ _ _ _ _ _ _ hn hm]
  have key : ∀ (f : Nat → Nat → Nat → Nat → List Op),
      (∀ t u i j, t < q' → u < q → i < m_r → j < n_r → f t u i j =
        [packCOp C C_p M N (m1 + m2) n1 m_r n_r (q * m_r) (u * m_r + i) (t * n_r + j)]) →
      (o ∈ ((range q').flatMap fun t => (range q).flatMap fun u => (range m_r).flatMap fun i =>
        (range n_r).flatMap fun j => f t u i j) ↔
      ∃ r c, r < q * m_r ∧ c < q' * n_r ∧
        o = packCOp C C_p M N (m1 + m2) n1 m_r n_r (q * m_r) r c) := by
    intro f hf
    rw [mem4 (g := fun r c => [packCOp C C_p M N (m1 + m2) n1 m_r n_r (q * m_r) r c]) hf]
    simp
  split
  · apply key
    intro t u i j _ _ hi hj
    unfold packCOp cIdx
    rw [mulAdd_div hi, mulAdd_mod hi, mulAdd_div hj, mulAdd_mod hj]
    simp only [Nat.zero_add, Nat.add_assoc]
    congr 4 <;> ring
  · rename_i hp
    have hb := hpad (by simpa using hp)
    apply key
    intro t u i j ht hu hi hj
    have h1 := mulAdd_lt ht hj
    have h2 := mulAdd_lt hu hi
    unfold packCOp cIdx
    rw [mulAdd_div hi, mulAdd_mod hi, mulAdd_div hj, mulAdd_mod hj, if_neg (by omega)]
    simp only [Nat.zero_add]
    congr 2
    · congr 1; ring
    · congr 1; ring

end Cake
