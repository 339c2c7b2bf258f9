/-
How often a program reads and writes each element of the caller's matrices.
-/
import Verif.Proofs.WorkAll
import Verif.Proofs.Footprint
import Verif.Proofs.RaceN

namespace Cake
open List

/-- How often the operations read `l`. -/
def readCount (l : Loc) (os : List Op) : Nat := (os.flatMap Op.reads).count l

/-- How often the operations write `l`. -/
def writeCount (l : Loc) (os : List Op) : Nat := (os.map Op.dst).count l

/-- How often a program reads `l`. -/
def loads (l : Loc) (prog : Prog) : Nat := readCount l (progOps prog)

/-- How often a program writes `l`. -/
def stores (l : Loc) (prog : Prog) : Nat := writeCount l (progOps prog)

theorem loads_sums (l : Loc) : Sums (loads l) where
  nil := rfl
  append a b := by unfold loads readCount progOps; rw [flatMap_append, flatMap_append, count_append]

theorem stores_sums (l : Loc) : Sums (stores l) where
  nil := rfl
  append a b := by unfold stores writeCount progOps; rw [flatMap_append, map_append, count_append]

theorem progOps_phases' (ph : List (List (List Op))) : progOps (phases ph) = phaseOps ph := by
  unfold phases phaseOps progOps
  rw [flatMap_map]
  induction ph with
  | nil => rfl
  | cons t ph ih => rw [flatMap_cons, map_cons, flatten_cons, ih]

theorem readCount_sum (l : Loc) (os : List Op) : readCount l os = (os.map fun o => o.reads.count l).sum := by
  unfold readCount
  induction os with
  | nil => rfl
  | cons o os ih => rw [flatMap_cons, count_append, ih, map_cons, sum_cons]

theorem writeCount_sum (l : Loc) (os : List Op) : writeCount l os = (os.map fun o => if o.dst = l then 1 else 0).sum := by
  unfold writeCount
  induction os with
  | nil => rfl
  | cons o os ih => rw [map_cons, count_cons, ih, map_cons, sum_cons, Nat.add_comm]; simp

theorem readCount_zero {l : Loc} {os : List Op} (h : ∀ o ∈ os, l ∉ o.reads) : readCount l os = 0 := by
  rw [readCount_sum]
  exact sum_zero fun o ho => count_eq_zero_of_not_mem (h o ho)

theorem writeCount_zero {l : Loc} {os : List Op} (h : ∀ o ∈ os, o.dst ≠ l) : writeCount l os = 0 := by
  rw [writeCount_sum]
  exact sum_zero fun o ho => if_neg (h o ho)

theorem readCount_append (l : Loc) (a b : List Op) : readCount l (a ++ b) = readCount l a + readCount l b := by
  unfold readCount; rw [flatMap_append, count_append]

theorem writeCount_append (l : Loc) (a b : List Op) : writeCount l (a ++ b) = writeCount l a + writeCount l b := by
  unfold writeCount; rw [map_append, count_append]

theorem writeCount_flatMap {β : Type _} (l : Loc) (xs : List β) (f : β → List Op) :
    writeCount l (xs.flatMap f) = (xs.map fun x => writeCount l (f x)).sum := by
  induction xs with
  | nil => rfl
  | cons x xs ih => rw [flatMap_cons, writeCount_append, ih, map_cons, sum_cons]

/-- A sum with a single non-zero term. -/
theorem sum_one {β : Type _} {l : List β} {f : β → Nat} (hn : l.Nodup) {a : β} (ha : a ∈ l) (h : ∀ x ∈ l, x ≠ a → f x = 0) :
    (l.map f).sum = f a := by
  induction l with
  | nil => cases ha
  | cons x l ih =>
    rw [nodup_cons] at hn
    rw [map_cons, sum_cons]
    rcases mem_cons.1 ha with rfl | ha
    · rw [sum_zero fun y hy => h y (.tail _ hy) fun e => hn.1 (e ▸ hy), Nat.add_zero]
    · rw [h x (.head _) (fun e => hn.1 (e ▸ ha)), ih hn.2 ha fun y hy => h y (.tail _ hy), Nat.zero_add]

/-- Exactly one operation reads `l`, once. -/
theorem readCount_one {l : Loc} {os : List Op} (hn : (os.map Op.dst).Nodup) {o : Op} (ho : o ∈ os) (hr : o.reads = [l])
    (hu : ∀ o' ∈ os, l ∈ o'.reads → o' = o) : readCount l os = 1 := by
  rw [readCount_sum, sum_one hn.of_map ho, hr]
  · simp
  · intro x hx hne
    exact count_eq_zero_of_not_mem fun hl => hne (hu x hx hl)

/-- Exactly one operation writes `l`. -/
theorem writeCount_one {l : Loc} {os : List Op} (hn : os.Nodup) {o : Op} (ho : o ∈ os) (hr : o.dst = l)
    (hu : ∀ o' ∈ os, o'.dst = l → o' = o) : writeCount l os = 1 := by
  rw [writeCount_sum, sum_one hn ho, if_pos hr]
  intro x hx hne
  exact if_neg fun hl => hne (hu x hx hl)

theorem loads_foot {l : Loc} {Wr Rd Ob : Buf → Prop} {q : Prog} (h : All (IFoot Wr Rd Ob) q) (hl : ¬ Rd l.buf) :
    loads l q = 0 :=
  readCount_zero fun o ho hm => hl ((IFoot.ops h o ho).2 _ hm)

theorem stores_foot {l : Loc} {Wr Rd Ob : Buf → Prop} {q : Prog} (h : All (IFoot Wr Rd Ob) q) (hl : ¬ Wr l.buf) :
    stores l q = 0 :=
  writeCount_zero fun o ho hm => hl (hm ▸ (IFoot.ops h o ho).1)

theorem divmod_cover {x T K : Nat} (h : x < T * K) : ∃ a b, a < T ∧ b < K ∧ x = a * K + b := by
  have hK : 0 < K := Nat.pos_of_mul_pos_left (Nat.lt_of_le_of_lt (Nat.zero_le _) h)
  exact ⟨_, _, Nat.div_lt_of_lt_mul (by rwa [Nat.mul_comm]), Nat.mod_lt _ hK, (divmod_eq K x).symm⟩

theorem chop_cover' {T s x : Nat} (hs : 0 < s) (hx : x < T) : ∃ k i, k < cdiv T s ∧ i < chopLen T s k ∧ k * s + i = x :=
  ⟨_, _, chop_cover hs hx⟩

/-! ### Packing, K-first -/

section
variable {M N K p m_r n_r m_c k_c n_c : Nat} (h : TileOK p m_r n_r m_c k_c n_c)
include h

theorem packA_k_loads (x : Nat) : readCount ⟨.A, x⟩
    (phaseOps (pack_A_k_first ⟨.A, 0⟩ ⟨.Ap, 0⟩ M K p m_r (dimsKMN M N K p m_r n_r m_c k_c n_c))) = if x < M * K then 1 else 0 := by
  have key : ∀ o ∈ phaseOps (pack_A_k_first ⟨.A, 0⟩ ⟨.Ap, 0⟩ M K p m_r (dimsKMN M N K p m_r n_r m_c k_c n_c)),
      (⟨.A, x⟩ : Loc) ∈ o.reads → ∃ m k core r i, m < cdiv M (p * m_c) ∧ k < cdiv K k_c ∧ core < mU M p m_r m_c m ∧
        r < mT M p m_r m_c m core ∧ i < chopLen K k_c k ∧ rowOf M p m_r m_c m core r < M ∧
        x = rowOf M p m_r m_c m core r * K + (k * k_c + i) ∧
        o = packAOp ⟨.A, m * p * m_c * K + k * k_c + core * mX M p m_r m_c m * K⟩
          ⟨.Ap, aInd M K p m_r m_c k_c m k core⟩ M K (m * p * m_c + core * mX M p m_r m_c m) m_r (chopLen K k_c k) r i := by
    intro o ho hl
    obtain ⟨m, k, core, r, i, hm, hk, hc, hr, hi, rfl⟩ := (packA_mem h _ _ _).1 ho
    simp only [Loc.off, Nat.zero_add] at hl ⊢
    refine ⟨m, k, core, r, i, hm, hk, hc, hr, hi, ?_⟩
    unfold packAOp at hl
    split at hl
    · simp [Op.reads] at hl
    · rename_i hlt
      simp only [Op.reads, mem_singleton, Loc.off, Loc.mk.injEq, true_and] at hl
      refine ⟨?_, ?_, rfl⟩
      · unfold rowOf; rw [← Nat.mul_assoc]; omega
      · rw [hl]; unfold rowOf; ring
  split
  · rename_i hx
    obtain ⟨row, col, h1, h2, h3⟩ := divmod_cover hx
    obtain ⟨m, core, r, hm, hc, hr, er⟩ := rowOf_cover h h1
    obtain ⟨k, i, hk, hi, ek⟩ := chop_cover' h.k_c_pos h2
    have hin := (packA_mem h (N := N) ⟨.A, 0⟩ ⟨.Ap, 0⟩ _).2 ⟨m, _, core, r, _, hm, hk, hc, hr, hi, rfl⟩
    refine readCount_one (packA_seqW h _ _).nodup hin ?_ ?_
    · unfold packAOp
      rw [if_neg (by unfold rowOf at er; rw [← Nat.mul_assoc] at er; omega)]
      simp only [Op.reads, Loc.off, Nat.zero_add, cons.injEq, Loc.mk.injEq, true_and, and_true]
      rw [h3, ← er, ← ek]
      unfold rowOf
      ring
    · intro o' ho' hl
      obtain ⟨m', k', core', r', i', hm', hk', hc', hr', hi', hM', e, rfl⟩ := key o' ho' hl
      rw [h3] at e
      obtain ⟨e1, e2⟩ := mulAdd_inj h2 (chop_bound hi') e
      rw [← ek] at e2
      obtain ⟨rfl, e4⟩ := mulAdd_inj (Nat.lt_of_lt_of_le hi (chopLen_le _ _ _)) (Nat.lt_of_lt_of_le hi' (chopLen_le _ _ _)) e2
      rw [← er] at e1
      obtain ⟨rfl, rfl, rfl⟩ := rowOf_inj hr hr' e1
      rw [e4]
      simp only [Loc.off, Nat.zero_add]
  · rename_i hx
    apply readCount_zero
    intro o ho hl
    obtain ⟨m', k', core', r', i', hm', hk', hc', hr', hi', hM', e, rfl⟩ := key o ho hl
    exact hx (e ▸ mulAdd_lt hM' (chop_bound hi'))

theorem packB_k_loads (x : Nat) : readCount ⟨.B, x⟩
    (phaseOps (pack_B_k_first ⟨.B, 0⟩ ⟨.Bp, 0⟩ K N n_r (dimsKMN M N K p m_r n_r m_c k_c n_c))) = if x < K * N then 1 else 0 := by
  have key : ∀ o ∈ phaseOps (pack_B_k_first ⟨.B, 0⟩ ⟨.Bp, 0⟩ K N n_r (dimsKMN M N K p m_r n_r m_c k_c n_c)),
      (⟨.B, x⟩ : Loc) ∈ o.reads → ∃ n k c i, n < cdiv N n_c ∧ k < cdiv K k_c ∧ c < nLen N n_r n_c n ∧ i < chopLen K k_c k ∧
        n * n_c + c < N ∧ x = (k * k_c + i) * N + (n * n_c + c) ∧
        o = packBOp ⟨.B, k * k_c * N + n * n_c⟩ ⟨.Bp, bInd N K n_r k_c n_c n k⟩ N (n * n_c) n_r (chopLen K k_c k) c i := by
    intro o ho hl
    obtain ⟨n, k, c, i, hn, hk, hc, hi, rfl⟩ := (packB_mem h _ _ _).1 ho
    simp only [Loc.off, Nat.zero_add] at hl ⊢
    refine ⟨n, k, c, i, hn, hk, hc, hi, ?_⟩
    unfold packBOp at hl
    split at hl
    · simp [Op.reads] at hl
    · rename_i hlt
      simp only [Op.reads, mem_singleton, Loc.off, Loc.mk.injEq, true_and] at hl
      refine ⟨by omega, ?_, rfl⟩
      rw [hl]; ring
  split
  · rename_i hx
    obtain ⟨row, col, h1, h2, h3⟩ := divmod_cover hx
    obtain ⟨n, c, hn, hc, ec⟩ := colOf_cover h h2
    obtain ⟨k, i, hk, hi, ek⟩ := chop_cover' h.k_c_pos h1
    have hin := (packB_mem h (M := M) ⟨.B, 0⟩ ⟨.Bp, 0⟩ _).2 ⟨n, _, c, _, hn, hk, hc, hi, rfl⟩
    refine readCount_one (packB_seqW h _ _).nodup hin ?_ ?_
    · unfold packBOp
      rw [if_neg (by omega)]
      simp only [Op.reads, Loc.off, Nat.zero_add, cons.injEq, Loc.mk.injEq, true_and, and_true]
      rw [h3, ← ec, ← ek]
      ring
    · intro o' ho' hl
      obtain ⟨n', k', c', i', hn', hk', hc', hi', hN', e, rfl⟩ := key o' ho' hl
      rw [h3] at e
      obtain ⟨e1, e2⟩ := mulAdd_inj h2 hN' e
      rw [← ek] at e1
      obtain ⟨rfl, e4⟩ := mulAdd_inj (Nat.lt_of_lt_of_le hi (chopLen_le _ _ _)) (Nat.lt_of_lt_of_le hi' (chopLen_le _ _ _)) e1
      rw [← ec] at e2
      obtain ⟨rfl, rfl⟩ := colOf_inj hc hc' e2
      rw [e4]
      simp only [Loc.off, Nat.zero_add]
  · rename_i hx
    apply readCount_zero
    intro o ho hl
    obtain ⟨n', k', c', i', hn', hk', hc', hi', hN', e, rfl⟩ := key o ho hl
    exact hx (e ▸ mulAdd_lt (chop_bound hi') hN')

end

/-! ### Packing, M-first and N-first -/

section
variable {M N K p m_r n_r mS k_c n_c : Nat} (h : GeoOK p m_r n_r mS k_c n_c) {ly : Lay M N K p m_r n_r mS k_c n_c}

theorem kO_inj {k k' core core' i i' : Nat} (hi : i < kT K p k_c k core) (hi' : i' < kT K p k_c k' core')
    (e : kO K p k_c k core + i = kO K p k_c k' core' + i') : k = k' ∧ core = core' ∧ i = i' := by
  unfold kO at e
  rw [Nat.add_assoc, Nat.add_assoc] at e
  obtain ⟨rfl, e2⟩ := mulAdd_inj (Nat.lt_of_lt_of_le (chop_bound hi) (chopLen_le _ _ _))
    (Nat.lt_of_lt_of_le (chop_bound hi') (chopLen_le _ _ _)) e
  obtain ⟨e3, e4⟩ := mulAdd_inj (Nat.lt_of_lt_of_le hi (chopLen_le _ _ _)) (Nat.lt_of_lt_of_le hi' (chopLen_le _ _ _)) e2
  exact ⟨rfl, e3, e4⟩

include h

theorem kO_cover {x : Nat} (hx : x < K) : ∃ k core i, k < cdiv K (p * k_c) ∧ core < kU K p k_c k ∧ i < kT K p k_c k core ∧
    kO K p k_c k core + i = x := by
  obtain ⟨k, y, hk, hy, e⟩ := chop_cover' (Nat.mul_pos h.p_pos h.k_c_pos) hx
  obtain ⟨core, i, hc, hi, e'⟩ := chop_cover' (kX_pos h.p_pos h.k_c_pos hk) hy
  refine ⟨k, core, i, hk, hc, hi, ?_⟩
  unfold kO
  omega

theorem packA_sh_loads {ops : List Op} (hp : IsPackA ly ops) (x : Nat) :
    readCount ⟨.A, x⟩ ops = if x < M * K then 1 else 0 := by
  split
  · rename_i hx
    obtain ⟨row, col, h1, h2, h3⟩ := divmod_cover hx
    obtain ⟨m, r, hm, hr, er⟩ := blk_cover h.mS_pos h.m_r_pos h.m_dvd h1
    obtain ⟨k, core, i, hk, hc, hi, ek⟩ := kO_cover h h2
    have hin := (hp.mem _).2 ⟨k, m, core, hk, hm, hc, (aStrip_mem h _ _ _ _).2 ⟨r, i, hr, hi, rfl⟩⟩
    refine readCount_one hp.seq.nodup hin ?_ ?_
    · unfold packAOp
      rw [if_neg (by omega)]
      simp only [Op.reads, Loc.off, cons.injEq, Loc.mk.injEq, true_and, and_true]
      rw [h3, ← er, ← ek]
      unfold kO
      ring
    · intro o' ho' hl
      obtain ⟨k', m', core', hk', hm', hc', ho'⟩ := (hp.mem o').1 ho'
      obtain ⟨r', i', hr', hi', rfl⟩ := (aStrip_mem h _ _ _ _).1 ho'
      unfold packAOp at hl
      split at hl
      · simp [Op.reads] at hl
      · simp only [Op.reads, mem_singleton, Loc.off, Loc.mk.injEq, true_and] at hl
        have e : row * K + col = (m' * mS + r') * K + (kO K p k_c k' core' + i') := by
          rw [← h3, hl]; unfold kO; ring
        obtain ⟨e1, e2⟩ := mulAdd_inj h2 (kO_bound hi') e
        rw [← ek] at e2
        obtain ⟨rfl, rfl, rfl⟩ := kO_inj hi hi' e2
        rw [← er] at e1
        obtain ⟨rfl, rfl⟩ := blk_inj hr hr' e1
        rfl
  · rename_i hx
    apply readCount_zero
    intro o ho hl
    obtain ⟨y, hy, e⟩ := hp.reads h o ho _ hl
    simp only [Loc.mk.injEq, true_and] at e
    omega

/-- Packing reads elements of C once. -/
theorem packC_sh_loads {ops : List Op} (hp : IsPackC ly ops) (x : Nat) :
    readCount ⟨.C, x⟩ ops = if x < M * N then 1 else 0 := by
  split
  · rename_i hx
    obtain ⟨row, col, h1, h2, h3⟩ := divmod_cover hx
    obtain ⟨m, r, hm, hr, er⟩ := blk_cover h.mS_pos h.m_r_pos h.m_dvd h1
    obtain ⟨n, c, hn, hc, ec⟩ := blk_cover h.n_c_pos h.n_r_pos h.n_dvd h2
    have hin := (hp.mem _).2 ⟨n, m, hn, hm, (cStrip_mem h hn hm _).2 ⟨r, c, hr, hc, rfl⟩⟩
    refine readCount_one hp.seq.nodup hin ?_ ?_
    · unfold packCOp
      rw [if_neg (by omega)]
      simp only [Op.reads, Loc.off, cons.injEq, Loc.mk.injEq, true_and, and_true]
      rw [h3, ← er, ← ec]
      ring
    · intro o' ho' hl
      obtain ⟨n', m', hn', hm', ho'⟩ := (hp.mem o').1 ho'
      obtain ⟨r', c', hr', hc', rfl⟩ := (cStrip_mem h hn' hm' _).1 ho'
      unfold packCOp at hl
      split at hl
      · simp [Op.reads] at hl
      · rename_i hlt
        simp only [Op.reads, mem_singleton, Loc.off, Loc.mk.injEq, true_and] at hl
        have e : row * N + col = (m' * mS + r') * N + (n' * n_c + c') := by
          rw [← h3, hl]; ring
        obtain ⟨e1, e2⟩ := mulAdd_inj h2 (by omega) e
        rw [← ec] at e2
        obtain ⟨rfl, rfl⟩ := blk_inj hc hc' e2
        rw [← er] at e1
        obtain ⟨rfl, rfl⟩ := blk_inj hr hr' e1
        rfl
  · rename_i hx
    apply readCount_zero
    intro o ho hl
    obtain ⟨y, hy, e⟩ := hp.reads h o ho _ hl
    simp only [Loc.mk.injEq, true_and] at e
    omega

/-- Rows of whole register tiles of B are read once. -/
theorem packB_sh_loads {ops : List Op} (hp : IsPackB ly ops) (hN : n_r ∣ N) (x : Nat) :
    readCount ⟨.B, x⟩ ops = if x < K * N then 1 else 0 := by
  have hpad : padTo N n_c n_r = N := by
    rw [padTo_eq h.n_r_pos h.n_dvd]
    obtain ⟨q, rfl⟩ := hN
    rw [Nat.mul_comm n_r q, cdiv_mul_self _ _ h.n_r_pos]
  have hin' : ∀ n c, c < sL N n_c n_r n → n * n_c + c < N := by
    intro n c hc
    have := chop_bound hc
    rwa [hpad] at this
  have key : ∀ o ∈ ops, (⟨.B, x⟩ : Loc) ∈ o.reads → ∃ n k core c i, n < cdiv N n_c ∧ k < cdiv K (p * k_c) ∧
      core < kU K p k_c k ∧ c < sL N n_c n_r n ∧ i < kT K p k_c k core ∧
      x = (kO K p k_c k core + i) * N + (n * n_c + c) ∧ o = packBOpS ly n k core c i := by
    intro o ho hl
    obtain ⟨n, k, core, hn, hk, hc, ho⟩ := (hp.mem o).1 ho
    obtain ⟨c, i, hcc, hi, rfl⟩ := (bStrip_mem h hk hc _).1 ho
    refine ⟨n, k, core, c, i, hn, hk, hc, hcc, hi, ?_, rfl⟩
    unfold packBOpS at hl
    split at hl
    · simp [Op.reads] at hl
    · simpa only [Op.reads, mem_singleton, Loc.mk.injEq, true_and] using hl
  split
  · rename_i hx
    obtain ⟨row, col, h1, h2, h3⟩ := divmod_cover hx
    obtain ⟨n, c, hn, hcc, ec⟩ := blk_cover h.n_c_pos h.n_r_pos h.n_dvd h2
    obtain ⟨k, core, i, hk, hc, hi, ek⟩ := kO_cover h h1
    have hin := (hp.mem _).2 ⟨n, k, core, hn, hk, hc, (bStrip_mem h hk hc _).2 ⟨c, i, hcc, hi, rfl⟩⟩
    refine readCount_one hp.seq.nodup hin ?_ ?_
    · unfold packBOpS
      rw [if_neg (by have := hin' n c hcc; omega)]
      simp only [Op.reads, cons.injEq, Loc.mk.injEq, true_and, and_true]
      rw [h3, ← ec, ← ek]
    · intro o' ho' hl
      obtain ⟨n', k', core', c', i', hn', hk', hc', hcc', hi', e, rfl⟩ := key o' ho' hl
      rw [h3] at e
      obtain ⟨e1, e2⟩ := mulAdd_inj h2 (hin' _ _ hcc') e
      rw [← ek] at e1
      obtain ⟨rfl, rfl, rfl⟩ := kO_inj hi hi' e1
      rw [← ec] at e2
      obtain ⟨rfl, rfl⟩ := blk_inj hcc hcc' e2
      rfl
  · rename_i hx
    apply readCount_zero
    intro o ho hl
    obtain ⟨n', k', core', c', i', hn', hk', hc', hcc', hi', e, rfl⟩ := key o ho hl
    exact hx (e ▸ mulAdd_lt (kO_bound hi') (hin' _ _ hcc'))

/-- Whatever the size, every element of B is read. -/
theorem packB_sh_loads_pos {ops : List Op} (hp : IsPackB ly ops) {x : Nat} (hx : x < K * N) : 0 < readCount ⟨.B, x⟩ ops := by
  obtain ⟨row, col, h1, h2, h3⟩ := divmod_cover hx
  obtain ⟨n, c, hn, hcc, ec⟩ := blk_cover h.n_c_pos h.n_r_pos h.n_dvd h2
  obtain ⟨k, core, i, hk, hc, hi, ek⟩ := kO_cover h h1
  have hin := (hp.mem _).2 ⟨n, k, core, hn, hk, hc, (bStrip_mem h hk hc _).2 ⟨c, i, hcc, hi, rfl⟩⟩
  unfold readCount
  rw [count_pos_iff]
  refine mem_flatMap.2 ⟨_, hin, ?_⟩
  unfold packBOpS
  rw [if_neg (by omega)]
  simp only [Op.reads, mem_singleton, Loc.mk.injEq, true_and]
  rw [h3, ← ec, ← ek]

end

/-! ### Unpacking -/

theorem flatMap_sub {β γ : Type _} {f g : β → List γ} (h : ∀ x, f x <+ g x) (l : List β) : l.flatMap f <+ l.flatMap g := by
  induction l with
  | nil => exact .slnil
  | cons x l ih => rw [flatMap_cons, flatMap_cons]; exact (h x).append ih

/-- The location an operation copies from, as an operation on it. -/
def Op.flip : Op → Op
  | .copy _ s => .zero s
  | o => o

/-- Unpacking does not do the same thing twice. -/
theorem unpack_nodup (C C_p : Loc) (M N m1 n1 m2 m_c n_c m_r n_r : Nat) (hm : 0 < m_r) (hn : 0 < n_r)
    (hdm : m_r ∣ m_c) (hdn : n_r ∣ n_c) : (unpack_ob_C_single_buf C C_p M N m1 n1 m2 m_c n_c m_r n_r).Nodup := by
  obtain ⟨q, rfl⟩ := hdm
  obtain ⟨q', rfl⟩ := hdn
  rw [Nat.mul_comm m_r q, Nat.mul_comm n_r q']
  unfold unpack_ob_C_single_buf
  rw [loop4_eq _ _ _ _ _ _ _ hn hm]
  simp only
  refine Nodup.sublist (l₂ := (range q').flatMap fun t => (range q).flatMap fun u => (range m_r).flatMap fun i =>
      (range n_r).flatMap fun j => [Op.copy (C +ₚ (t * n_r + u * m_r * N + i * N + j))
        (C_p +ₚ (0 + (t * (q * (m_r * n_r)) + (u * (m_r * n_r) + (i * n_r + j)))))]) ?_ ?_
  · refine flatMap_sub (fun t => flatMap_sub (fun u => flatMap_sub (fun i => flatMap_sub (fun j => ?_) _) _) _) _
    split
    · exact .refl _
    · exact nil_sublist _
  · apply Nodup.of_map Op.flip
    simp only [map_flatMap, map_cons, map_nil, Op.flip]
    exact (seqW4 (b := C_p.buf) (base := C_p.idx) (q := q') (q' := q) (k := m_r) (r := n_r)
      (f := fun t u i j => Op.zero (C_p +ₚ (0 + (t * (q * (m_r * n_r)) + (u * (m_r * n_r) + (i * n_r + j))))))
      (fun t u i j => by simp [Op.dst, Loc.off])).nodup.of_map

section
variable {M N K p m_r n_r m_c k_c n_c : Nat} (h : TileOK p m_r n_r m_c k_c n_c) {kd : KDim} (hk : kd.Fits m_r n_r)
include h

theorem unpackTask_stores {n m core Z : Nat} (hm : m < cdiv M (p * m_c)) {n0 m0 core0 r0 c0 : Nat}
    (hr : r0 < mT M p m_r m_c m0 core0) (hc : c0 < nLen N n_r n_c n0) (hN : n0 * n_c + c0 < N) (hM : rowOf M p m_r m_c m0 core0 r0 < M) :
    writeCount ⟨.C, rowOf M p m_r m_c m0 core0 r0 * N + (n0 * n_c + c0)⟩
      (unpackTask ⟨.C, 0⟩ M N p m_r n_r m_c n_c Z n m core) = if n = n0 ∧ m = m0 ∧ core = core0 then 1 else 0 := by
  have key : ∀ o ∈ unpackTask ⟨.C, 0⟩ M N p m_r n_r m_c n_c Z n m core,
      o.dst = ⟨.C, rowOf M p m_r m_c m0 core0 r0 * N + (n0 * n_c + c0)⟩ → (n = n0 ∧ m = m0 ∧ core = core0) ∧
      o = .copy ⟨.C, rowOf M p m_r m_c m0 core0 r0 * N + (n0 * n_c + c0)⟩
          ⟨.CpC core, cIdx m_r n_r (mT M p m_r m_c m core) r0 c0⟩ := by
    intro o ho e
    rcases (unpackTask_mem h hm _ _).1 ho with ⟨r, c, hr', hc', hN', hM', rfl⟩ | ⟨x, _, rfl⟩
    · simp only [Op.dst, Loc.off, Loc.mk.injEq, true_and, Nat.zero_add] at e
      obtain ⟨e1, e2⟩ := mulAdd_inj hN' hN e
      obtain ⟨rfl, rfl, rfl⟩ := rowOf_inj hr' hr e1
      obtain ⟨rfl, rfl⟩ := colOf_inj hc' hc e2
      simp [Loc.off]
    · simp [Op.dst] at e
  split
  · rename_i hh
    obtain ⟨rfl, rfl, rfl⟩ := hh
    unfold unpackTask
    rw [writeCount_append, writeCount_zero (os := memset0 _ _), Nat.add_zero]
    · have hin := (unpackC_mem (⟨.C, 0⟩ +ₚ (m * p * m_c * N + n * n_c + core * mX M p m_r m_c m * N))
        ⟨.CpC core, 0⟩ M N (m * p * m_c) (n * n_c) (core * mX M p m_r m_c m)
        (mT M p m_r m_c m core) (nLen N n_r n_c n) m_r n_r h.m_r_pos h.n_r_pos (mT_dvd h hm) (nLen_dvd h) _).2
        ⟨r0, c0, hr, hc, hN, by unfold rowOf at hM; rw [← Nat.mul_assoc] at hM; omega, rfl⟩
      refine writeCount_one (unpack_nodup _ _ _ _ _ _ _ _ _ _ _ h.m_r_pos h.n_r_pos (mT_dvd h hm) (nLen_dvd h)) hin ?_ ?_
      · simp only [Op.dst, Loc.off, Loc.mk.injEq, true_and]
        unfold rowOf
        ring
      · intro o' ho' e
        rw [(key o' (mem_append_left _ ho') e).2]
        simp only [Loc.off, Op.copy.injEq, Loc.mk.injEq, true_and]
        unfold rowOf
        exact ⟨by ring, by omega⟩
    · intro o ho e
      obtain ⟨i, _, rfl⟩ := mem_map.1 ho
      simp [Op.dst, Loc.off] at e
  · rename_i hh
    exact writeCount_zero fun o ho e => hh (key o ho e).1

include hk
/-- K-first writes elements of C once. -/
theorem schedK_stores (A_p B_p : Loc) (x : Nat) : writeCount ⟨.C, x⟩
    (phaseOps (schedule_KMN kd A_p B_p ⟨.C, 0⟩ M N K p m_r n_r (dimsKMN M N K p m_r n_r m_c k_c n_c))) =
      if x < M * N then 1 else 0 := by
  rw [schedK_phases h]
  unfold schedKZ
  rw [phaseOps_flatMap, writeCount_flatMap]
  have blk : ∀ n m, m < cdiv M (p * m_c) → writeCount ⟨.C, x⟩ (phaseOps
      [(range (mU M p m_r m_c m)).map fun core => computeTask kd A_p B_p M N K p m_r n_r m_c k_c n_c n m core,
       (range (mU M p m_r m_c m)).map fun core => unpackTask ⟨.C, 0⟩ M N p m_r n_r m_c n_c (m_c * n_c) n m core]) =
      ((range (mU M p m_r m_c m)).map fun core =>
        writeCount ⟨.C, x⟩ (unpackTask ⟨.C, 0⟩ M N p m_r n_r m_c n_c (m_c * n_c) n m core)).sum := by
    intro n m hm
    rw [phaseOps_cons, phaseOps_cons, phaseOps_nil, append_nil, writeCount_append, ← flatMap_def, ← flatMap_def,
      writeCount_flatMap, writeCount_flatMap, sum_zero, Nat.zero_add]
    intro core _
    apply writeCount_zero
    intro o ho e
    rcases computeTask_dst h hk hm A_p B_p o ho with e' | ⟨_, _, e'⟩
    · rw [e] at e'; simp at e'
    · rw [e] at e'; simp at e'
  split
  · rename_i hx
    obtain ⟨row, col, h1, h2, h3⟩ := divmod_cover hx
    obtain ⟨n, c, hn, hc, ec⟩ := colOf_cover h h2
    obtain ⟨m, core, r, hm, hcore, hr, er⟩ := rowOf_cover h h1
    subst ec er h3
    have z : ∀ n' m', m' < cdiv M (p * m_c) → (n' ≠ n ∨ m' ≠ m) → writeCount ⟨.C, rowOf M p m_r m_c m core r * N + (n * n_c + c)⟩
        (phaseOps [(range (mU M p m_r m_c m')).map fun core => computeTask kd A_p B_p M N K p m_r n_r m_c k_c n_c n' m' core,
       (range (mU M p m_r m_c m')).map fun core => unpackTask ⟨.C, 0⟩ M N p m_r n_r m_c n_c (m_c * n_c) n' m' core]) = 0 := by
      intro n' m' hm' hne
      rw [blk n' m' hm']
      apply sum_zero
      intro core' _
      rw [unpackTask_stores h hm' hr hc h2 h1, if_neg]
      rintro ⟨e1, e2, _⟩
      rcases hne with hne | hne
      · exact hne e1
      · exact hne e2
    rw [sum_one nodup_range (mem_range.2 hn), phaseOps_flatMap, writeCount_flatMap, sum_one (serp_nodup _ _) (mem_serp.2 hm),
      blk n m hm, sum_one nodup_range (mem_range.2 hcore), unpackTask_stores h hm hr hc h2 h1, if_pos ⟨rfl, rfl, rfl⟩]
    · intro core' _ hne
      rw [unpackTask_stores h hm hr hc h2 h1, if_neg]
      rintro ⟨_, _, e⟩
      exact hne e
    · intro m' hm' hne
      exact z n m' (mem_serp.1 hm') (.inr hne)
    · intro n' _ hne
      rw [phaseOps_flatMap, writeCount_flatMap]
      exact sum_zero fun m' hm' => z n' m' (mem_serp.1 hm') (.inl hne)
  · rename_i hx
    apply sum_zero
    intro n _
    rw [phaseOps_flatMap, writeCount_flatMap]
    apply sum_zero
    intro m hm
    rw [blk n m (mem_serp.1 hm)]
    apply sum_zero
    intro core _
    apply writeCount_zero
    intro o ho e
    rcases (unpackTask_mem h (mem_serp.1 hm) _ _).1 ho with ⟨r, c, hr', hc', hN', hM', rfl⟩ | ⟨x, _, rfl⟩
    · simp only [Op.dst, Loc.off, Loc.mk.injEq, true_and, Nat.zero_add] at e
      exact hx (e ▸ mulAdd_lt hM' hN')
    · simp [Op.dst] at e

end

section
variable {M N K p m_r n_r mS k_c n_c : Nat} (h : GeoOK p m_r n_r mS k_c n_c) {ly : Lay M N K p m_r n_r mS k_c n_c}
include h

theorem uStrip_stores {n m n0 m0 r0 c0 : Nat} (hr : r0 < sL M mS m_r m0) (hc : c0 < sL N n_c n_r n0) (hN : n0 * n_c + c0 < N)
    (hM : m0 * mS + r0 < M) : writeCount ⟨.C, (m0 * mS + r0) * N + (n0 * n_c + c0)⟩ (uStrip ly n m) =
      if n = n0 ∧ m = m0 then 1 else 0 := by
  have hin := (uStrip_mem h (ly := ly) (n := n0) (m := m0) _).2 ⟨r0, c0, hr, hc, hN, hM, rfl⟩
  have key : ∀ o ∈ uStrip ly n m, o.dst = ⟨.C, (m0 * mS + r0) * N + (n0 * n_c + c0)⟩ → (n = n0 ∧ m = m0) ∧ _ :=
    fun o ho e => by
      obtain ⟨e1, e2, e3⟩ := uStrip_inj h ho hin e
      exact And.intro ⟨e1, e2⟩ e3
  split
  · rename_i hh
    obtain ⟨rfl, rfl⟩ := hh
    refine writeCount_one ?_ hin rfl fun o ho e => (key o ho e).2
    exact unpack_nodup _ _ _ _ _ _ _ _ _ _ _ h.m_r_pos h.n_r_pos (mL_dvd h) (nL_dvd h)
  · rename_i hh
    exact writeCount_zero fun o ho e => hh (key o ho e).1

theorem uStrip_stores_out {n m x : Nat} (hx : ¬ x < M * N) : writeCount ⟨.C, x⟩ (uStrip ly n m) = 0 := by
  apply writeCount_zero
  intro o ho e
  obtain ⟨r, c, _, _, hN, hM, rfl⟩ := (uStrip_mem h o).1 ho
  simp only [Op.dst, Loc.mk.injEq, true_and] at e
  exact hx (e ▸ mulAdd_lt hM hN)

/-- Unpacking writes elements of C once, column blocks first. -/
theorem unpackNM_stores (x : Nat) : writeCount ⟨.C, x⟩ (phaseOps ((range (cdiv N n_c)).map fun n => (range (cdiv M mS)).map fun m =>
    uStrip ly n m)) = if x < M * N then 1 else 0 := by
  rw [phaseOps_map, writeCount_flatMap]
  simp only [← flatMap_def, writeCount_flatMap]
  split
  · rename_i hx
    obtain ⟨row, col, h1, h2, h3⟩ := divmod_cover hx
    obtain ⟨m, r, hm, hr, er⟩ := blk_cover h.mS_pos h.m_r_pos h.m_dvd h1
    obtain ⟨n, c, hn, hc, ec⟩ := blk_cover h.n_c_pos h.n_r_pos h.n_dvd h2
    subst ec er h3
    rw [sum_one nodup_range (mem_range.2 hn), sum_one nodup_range (mem_range.2 hm), uStrip_stores h hr hc h2 h1, if_pos ⟨rfl, rfl⟩]
    · intro m' _ hne
      rw [uStrip_stores h hr hc h2 h1, if_neg fun e => hne e.2]
    · intro n' _ hne
      apply sum_zero
      intro m' _
      rw [uStrip_stores h hr hc h2 h1, if_neg fun e => hne e.1]
  · rename_i hx
    exact sum_zero fun n _ => sum_zero fun m _ => uStrip_stores_out h hx

/-- Unpacking writes elements of C once, row blocks first. -/
theorem unpackMN_stores (x : Nat) : writeCount ⟨.C, x⟩ (phaseOps ((range (cdiv M mS)).map fun m => (range (cdiv N n_c)).map fun n =>
    uStrip ly n m)) = if x < M * N then 1 else 0 := by
  rw [phaseOps_map, writeCount_flatMap]
  simp only [← flatMap_def, writeCount_flatMap]
  split
  · rename_i hx
    obtain ⟨row, col, h1, h2, h3⟩ := divmod_cover hx
    obtain ⟨m, r, hm, hr, er⟩ := blk_cover h.mS_pos h.m_r_pos h.m_dvd h1
    obtain ⟨n, c, hn, hc, ec⟩ := blk_cover h.n_c_pos h.n_r_pos h.n_dvd h2
    subst ec er h3
    rw [sum_one nodup_range (mem_range.2 hm), sum_one nodup_range (mem_range.2 hn), uStrip_stores h hr hc h2 h1, if_pos ⟨rfl, rfl⟩]
    · intro n' _ hne
      rw [uStrip_stores h hr hc h2 h1, if_neg fun e => hne e.1]
    · intro m' _ hne
      apply sum_zero
      intro n' _
      rw [uStrip_stores h hr hc h2 h1, if_neg fun e => hne e.2]
  · rename_i hx
    exact sum_zero fun n _ => sum_zero fun m _ => uStrip_stores_out h hx

end

/-! ### Packing C, N-first -/

theorem readCount_flatMap {β : Type _} (l : Loc) (xs : List β) (f : β → List Op) :
    readCount l (xs.flatMap f) = (xs.map fun x => readCount l (f x)).sum := by
  induction xs with
  | nil => rfl
  | cons x xs ih => rw [flatMap_cons, readCount_append, ih, map_cons, sum_cons]

section
variable {M N K p m_r n_r m_c k_c n_c : Nat} (h : TileOK p m_r n_r m_c k_c n_c)
include h

/-- The wrong place of the last column block does not change what is read. -/
theorem packC_n_loads (x : Nat) : readCount ⟨.C, x⟩ (phaseOps
    (pack_C_n_first ⟨.C, 0⟩ ⟨.Cp, 0⟩ M N p m_r n_r (dimsNKM M N K p m_r n_r m_c k_c n_c))) = if x < M * N then 1 else 0 := by
  have g := h.geoN
  rw [packC_n_form h, phaseOps_map, readCount_flatMap]
  simp only [← flatMap_def, readCount_flatMap]
  have key : ∀ n m, n < cdiv N n_c → m < cdiv M (p * m_c) → ∀ o, o ∈ pack_ob_C_single_buf ⟨.C, m * (p * m_c) * N + n * n_c⟩
          ⟨.Cp, m * (p * m_c) * padTo N n_c n_r + n * (p * m_c) * sL N n_c n_r n⟩ M N (m * (p * m_c)) (n * n_c) 0
          (sL M (p * m_c) m_r m) (sL N n_c n_r n) m_r n_r
          (m == cdiv M (p * m_c) - 1 && M % (p * m_c) != 0) (n == cdiv N n_c - 1 && N % n_c != 0) ↔
        ∃ r c, r < sL M (p * m_c) m_r m ∧ c < sL N n_c n_r n ∧
      o = packCOp ⟨.C, m * (p * m_c) * N + n * n_c⟩ ⟨.Cp, m * (p * m_c) * padTo N n_c n_r + n * (p * m_c) * sL N n_c n_r n⟩
        M N (m * (p * m_c)) (n * n_c) m_r n_r (sL M (p * m_c) m_r m) r c := by
    intro n m hn hm o
    rw [packObC_mem _ _ _ _ _ _ _ _ _ _ _ _ _ h.m_r_pos h.n_r_pos (mL_dvd g) (nL_dvd g)]
    · rfl
    · intro hp
      rw [Bool.or_eq_false_iff] at hp
      exact ⟨full_in h.S_pos h.m_r_pos h.S_dvd hm hp.1, full_in h.n_c_pos h.n_r_pos h.n_dvd hn hp.2⟩
  have rd : ∀ n m, n < cdiv N n_c → m < cdiv M (p * m_c) → ∀ o, o ∈ pack_ob_C_single_buf ⟨.C, m * (p * m_c) * N + n * n_c⟩
          ⟨.Cp, m * (p * m_c) * padTo N n_c n_r + n * (p * m_c) * sL N n_c n_r n⟩ M N (m * (p * m_c)) (n * n_c) 0
          (sL M (p * m_c) m_r m) (sL N n_c n_r n) m_r n_r
          (m == cdiv M (p * m_c) - 1 && M % (p * m_c) != 0) (n == cdiv N n_c - 1 && N % n_c != 0) →
        (⟨.C, x⟩ : Loc) ∈ o.reads → ∃ r c, r < sL M (p * m_c) m_r m ∧ c < sL N n_c n_r n ∧ m * (p * m_c) + r < M ∧
          n * n_c + c < N ∧ x = (m * (p * m_c) + r) * N + (n * n_c + c) ∧
      o = packCOp ⟨.C, m * (p * m_c) * N + n * n_c⟩ ⟨.Cp, m * (p * m_c) * padTo N n_c n_r + n * (p * m_c) * sL N n_c n_r n⟩
        M N (m * (p * m_c)) (n * n_c) m_r n_r (sL M (p * m_c) m_r m) r c := by
    intro n m hn hm o ho hl
    obtain ⟨r, c, hr, hc, rfl⟩ := (key n m hn hm o).1 ho
    refine ⟨r, c, hr, hc, ?_⟩
    unfold packCOp at hl
    split at hl
    · simp [Op.reads] at hl
    · simp only [Op.reads, mem_singleton, Loc.off, Loc.mk.injEq, true_and] at hl
      refine ⟨by omega, by omega, ?_, rfl⟩
      rw [hl]; ring
  split
  · rename_i hx
    obtain ⟨row, col, h1, h2, h3⟩ := divmod_cover hx
    obtain ⟨m, r, hm, hr, er⟩ := blk_cover h.S_pos h.m_r_pos h.S_dvd h1
    obtain ⟨n, c, hn, hc, ec⟩ := blk_cover h.n_c_pos h.n_r_pos h.n_dvd h2
    subst ec er
    have uniq : ∀ m' n' r' c', r' < sL M (p * m_c) m_r m' → c' < sL N n_c n_r n' → n' * n_c + c' < N →
        x = (m' * (p * m_c) + r') * N + (n' * n_c + c') → m = m' ∧ r = r' ∧ n = n' ∧ c = c' := by
      intro m' n' r' c' hr' hc' hN' e
      obtain ⟨e1, e2⟩ := mulAdd_inj h2 hN' (h3.symm.trans e)
      obtain ⟨rfl, rfl⟩ := blk_inj hr hr' e1
      obtain ⟨rfl, rfl⟩ := blk_inj hc hc' e2
      exact ⟨rfl, rfl, rfl, rfl⟩
    rw [sum_one nodup_range (mem_range.2 hm), sum_one nodup_range (mem_range.2 hn)]
    · refine readCount_one (packObC_seqW _ _ _ _ _ _ _ _ _ _ _ _ _ h.m_r_pos h.n_r_pos (mL_dvd g) (nL_dvd g)).nodup
        ((key n m hn hm _).2 ⟨r, c, hr, hc, rfl⟩) ?_ ?_
      · unfold packCOp
        rw [if_neg (by omega)]
        simp only [Op.reads, Loc.off, cons.injEq, Loc.mk.injEq, true_and, and_true]
        rw [h3]
        ring
      · intro o' ho' hl
        obtain ⟨r', c', hr', hc', _, hN', e, rfl⟩ := rd n m hn hm o' ho' hl
        obtain ⟨_, rfl, _, rfl⟩ := uniq _ _ _ _ hr' hc' hN' e
        rfl
    · intro n' hn' hne
      apply readCount_zero
      intro o ho hl
      obtain ⟨r', c', hr', hc', _, hN', e, rfl⟩ := rd n' m (mem_range.1 hn') hm o ho hl
      exact hne (uniq _ _ _ _ hr' hc' hN' e).2.2.1.symm
    · intro m' hm' hne
      apply sum_zero
      intro n' hn'
      apply readCount_zero
      intro o ho hl
      obtain ⟨r', c', hr', hc', _, hN', e, rfl⟩ := rd n' m' (mem_range.1 hn') (mem_range.1 hm') o ho hl
      exact hne (uniq _ _ _ _ hr' hc' hN' e).1.symm
  · rename_i hx
    refine sum_zero fun m hm => sum_zero fun n hn => readCount_zero fun o ho hl => ?_
    obtain ⟨r', c', hr', hc', hM', hN', e, rfl⟩ := rd n m (mem_range.1 hn) (mem_range.1 hm) o ho hl
    exact hx (e ▸ mulAdd_lt hM' hN')

end

/-! ### The complete programs -/

section
variable {α : Type _} {nz : α → Bool} {cx : Cntx} {M N K p : Nat} {packedA packedB : Bool} {alpha beta : α} {m_c k_c n_c : Nat}
  {sch : Sched} {prog : Prog}

/-- A quantity that adds up along a program and to which only the parallel loops contribute. -/
structure Flows (μ : Prog → Nat) : Prop extends Sums μ where
  other : ∀ it : Item, (∀ ts, it ≠ .par ts) → μ [it] = 0

theorem loads_flows (l : Loc) : Flows (loads l) where
  toSums := loads_sums l
  other it h := by cases it <;> first | rfl | exact absurd rfl (h _)

theorem stores_flows (l : Loc) : Flows (stores l) where
  toSums := stores_sums l
  other it h := by cases it <;> first | rfl | exact absurd rfl (h _)

theorem Flows.cons {μ : Prog → Nat} (h : Flows μ) {it : Item} (hi : ∀ ts, it ≠ .par ts) (q : Prog) : μ (it :: q) = μ q := by
  rw [← singleton_append, h.append, h.other it hi, Nat.zero_add]

theorem Flows.none {μ : Prog → Nat} (h : Flows μ) {q : Prog} (hq : ∀ it ∈ q, ∀ ts, it ≠ .par ts) : μ q = 0 := by
  induction q with
  | nil => exact h.nil
  | cons it q ih => rw [h.cons (hq it (.head _)), ih fun i hi => hq i (.tail _ hi)]

theorem Flows.ctx {μ : Prog → Nat} (h : Flows μ) (c : Bool) (q : Prog) :
    μ ((if c = true then [Item.malloc .Ctx 1] else []) ++ q) = μ q := by
  rw [h.append, h.none, Nat.zero_add]
  intro it hit ts e
  subst e
  split at hit <;> simp at hit

/-- The parts of a call that contribute. -/
theorem call_flow {A B C : Loc} (e : cake_sgemm nz cx A B C M N K p packedA packedB alpha beta m_c k_c n_c sch = some prog) :
    ∃ x pa pb pc uc sc, init_block_dims M N K p cx.m_r cx.n_r m_c k_c n_c sch = some x ∧
      pack_A A ⟨.Ap, 0⟩ M K p cx.m_r x x.sch = some pa ∧ pack_B B ⟨.Bp, 0⟩ K N p cx.n_r x x.sch = some pb ∧
      pack_C C ⟨.Cp, 0⟩ M N p cx.m_r cx.n_r x x.sch = some pc ∧ unpack_C C ⟨.Cp, 0⟩ M N p cx.m_r cx.n_r x x.sch = some uc ∧
      schedule cx.kfix (if packedA then A else ⟨.Ap, 0⟩) (if packedB then B else ⟨.Bp, 0⟩) ⟨.Cp, 0⟩ K p cx.m_r cx.n_r x x.sch = some sc ∧
      ∀ μ, Flows μ → μ prog = (if packedA then 0 else μ (phases pa)) + (if packedB then 0 else μ (phases pb)) +
        (if x.sch = .KMN then μ (phases (schedule_KMN cx.kmap (if packedA then A else ⟨.Ap, 0⟩) (if packedB then B else ⟨.Bp, 0⟩) C
          M N K p cx.m_r cx.n_r x))
        else (if nz beta then μ (phases pc) else 0) + μ (phases sc) + μ (phases uc)) := by
  unfold cake_sgemm at e
  simp only [Option.bind_eq_bind, Option.bind_eq_some_iff, Option.some.injEq] at e
  obtain ⟨x, hx, aSz, ha, cSz, hc, pa, hpa, pb, hpb, pc, hpc, uc, huc, sc, hsc, rfl⟩ := e
  refine ⟨x, pa, pb, pc, uc, sc, hx, hpa, hpb, hpc, huc, hsc, fun μ h => ?_⟩
  rw [h.append, h.append, h.append, h.append, h.none (q := [_, _, _]), h.none (q := _ ++ [Item.free .Blk]), Nat.zero_add, Nat.add_zero]
  · congr 1
    · congr 1
      · split
        · exact h.nil
        · exact h.cons (by simp) _
      · split
        · exact h.nil
        · exact h.cons (by simp) _
    · split
      · rw [h.append, h.append, h.none (q := map _ _), h.none (q := map _ _), Nat.zero_add, Nat.add_zero]
        · intro it hit ts e; subst e; simp at hit
        · intro it hit ts e; subst e; simp at hit
      · rw [h.append, h.append, h.append, h.other _ (by simp), Nat.add_zero]
        congr 2
        split
        · exact h.cons (by simp) _
        · exact h.other _ (by simp)
  · intro it hit ts e
    subst e
    cases packedA <;> cases packedB <;> simp at hit
  · intro it hit ts e; subst e; simp at hit

theorem loads_phases {l : Loc} {Wr Rd : Buf → Prop} {ph : List (List (List Op))} (h : PFoot Wr Rd ph) (hl : ¬ Rd l.buf) :
    loads l (phases ph) = 0 :=
  loads_foot (Ob := fun _ => True) (phases_foot h) hl

theorem stores_phases {l : Loc} {Wr Rd : Buf → Prop} {ph : List (List (List Op))} (h : PFoot Wr Rd ph) (hl : ¬ Wr l.buf) :
    stores l (phases ph) = 0 :=
  stores_foot (Ob := fun _ => True) (phases_foot h) hl

/-- A program that packs A reads it while packing it. -/
theorem call_loads_A (e : cake_sgemm nz cx ⟨.A, 0⟩ ⟨.B, 0⟩ ⟨.C, 0⟩ M N K p false packedB alpha beta m_c k_c n_c sch = some prog) :
    ∃ x pa, init_block_dims M N K p cx.m_r cx.n_r m_c k_c n_c sch = some x ∧ pack_A ⟨.A, 0⟩ ⟨.Ap, 0⟩ M K p cx.m_r x x.sch = some pa ∧
      ∀ i, loads ⟨.A, i⟩ prog = readCount ⟨.A, i⟩ (phaseOps pa) := by
  obtain ⟨x, pa, pb, pc, uc, sc, hx, hpa, hpb, hpc, huc, hsc, hμ⟩ := call_flow e
  refine ⟨x, pa, hx, hpa, fun i => ?_⟩
  rw [hμ _ (loads_flows _), ← progOps_phases']
  have hB : (if packedB then (⟨.B, 0⟩ : Loc) else ⟨.Bp, 0⟩).buf ≠ .A := by split <;> simp
  rw [loads_phases (ph := pb) (packB_foot (Wr := fun _ => True) (Rd := (· ≠ .A)) trivial (by simp) hpb) (by simp),
    loads_phases (ph := pc) (packC_foot (Wr := fun _ => True) (Rd := (· ≠ .A)) trivial (by simp) hpc) (by simp),
    loads_phases (ph := uc) (unpackC_foot (Wr := fun _ => True) (Rd := (· ≠ .A)) trivial (by simp) huc) (by simp),
    loads_phases (ph := sc) (sched_foot (Wr := fun _ => True) (Rd := (· ≠ .A)) (fun _ => trivial) (by simp) (by simp) hB trivial
      (by simp) hsc) (by simp),
    loads_phases (ph := schedule_KMN _ _ _ _ _ _ _ _ _ _ _) (schedK_foot (Wr := fun _ => True) (Rd := (· ≠ .A)) (fun _ => trivial)
      (by simp) (by simp) hB trivial (fun _ => trivial) (by simp)) (by simp)]
  simp [loads]

/-- A program that packs B reads it while packing it. -/
theorem call_loads_B (e : cake_sgemm nz cx ⟨.A, 0⟩ ⟨.B, 0⟩ ⟨.C, 0⟩ M N K p packedA false alpha beta m_c k_c n_c sch = some prog) :
    ∃ x pb, init_block_dims M N K p cx.m_r cx.n_r m_c k_c n_c sch = some x ∧ pack_B ⟨.B, 0⟩ ⟨.Bp, 0⟩ K N p cx.n_r x x.sch = some pb ∧
      ∀ i, loads ⟨.B, i⟩ prog = readCount ⟨.B, i⟩ (phaseOps pb) := by
  obtain ⟨x, pa, pb, pc, uc, sc, hx, hpa, hpb, hpc, huc, hsc, hμ⟩ := call_flow e
  refine ⟨x, pb, hx, hpb, fun i => ?_⟩
  rw [hμ _ (loads_flows _), ← progOps_phases']
  have hA : (if packedA then (⟨.A, 0⟩ : Loc) else ⟨.Ap, 0⟩).buf ≠ .B := by split <;> simp
  rw [loads_phases (ph := pa) (packA_foot (Wr := fun _ => True) (Rd := (· ≠ .B)) trivial (by simp) hpa) (by simp),
    loads_phases (ph := pc) (packC_foot (Wr := fun _ => True) (Rd := (· ≠ .B)) trivial (by simp) hpc) (by simp),
    loads_phases (ph := uc) (unpackC_foot (Wr := fun _ => True) (Rd := (· ≠ .B)) trivial (by simp) huc) (by simp),
    loads_phases (ph := sc) (sched_foot (Wr := fun _ => True) (Rd := (· ≠ .B)) (fun _ => trivial) (by simp) hA (by simp) trivial
      (by simp) hsc) (by simp),
    loads_phases (ph := schedule_KMN _ _ _ _ _ _ _ _ _ _ _) (schedK_foot (Wr := fun _ => True) (Rd := (· ≠ .B)) (fun _ => trivial)
      (by simp) hA (by simp) trivial (fun _ => trivial) (by simp)) (by simp)]
  simp [loads]

/-- C is read when it is packed, if it is. -/
theorem call_loads_C (e : cake_sgemm nz cx ⟨.A, 0⟩ ⟨.B, 0⟩ ⟨.C, 0⟩ M N K p packedA packedB alpha beta m_c k_c n_c sch = some prog) :
    ∃ x pc, init_block_dims M N K p cx.m_r cx.n_r m_c k_c n_c sch = some x ∧
      pack_C ⟨.C, 0⟩ ⟨.Cp, 0⟩ M N p cx.m_r cx.n_r x x.sch = some pc ∧
      ∀ i, loads ⟨.C, i⟩ prog = if x.sch ≠ .KMN ∧ nz beta = true then readCount ⟨.C, i⟩ (phaseOps pc) else 0 := by
  obtain ⟨x, pa, pb, pc, uc, sc, hx, hpa, hpb, hpc, huc, hsc, hμ⟩ := call_flow e
  refine ⟨x, pc, hx, hpc, fun i => ?_⟩
  rw [hμ _ (loads_flows _), ← progOps_phases']
  have hA : (if packedA then (⟨.A, 0⟩ : Loc) else ⟨.Ap, 0⟩).buf ≠ .C := by split <;> simp
  have hB : (if packedB then (⟨.B, 0⟩ : Loc) else ⟨.Bp, 0⟩).buf ≠ .C := by split <;> simp
  rw [loads_phases (ph := pa) (packA_foot (Wr := fun _ => True) (Rd := (· ≠ .C)) trivial (by simp) hpa) (by simp),
    loads_phases (ph := pb) (packB_foot (Wr := fun _ => True) (Rd := (· ≠ .C)) trivial (by simp) hpb) (by simp),
    loads_phases (ph := uc) (unpackC_foot (Wr := fun _ => True) (Rd := (· ≠ .C)) trivial (by simp) huc) (by simp),
    loads_phases (ph := sc) (sched_foot (Wr := fun _ => True) (Rd := (· ≠ .C)) (fun _ => trivial) (by simp) hA hB trivial
      (by simp) hsc) (by simp),
    loads_phases (ph := schedule_KMN _ _ _ _ _ _ _ _ _ _ _) (schedK_foot (Wr := fun _ => True) (Rd := (· ≠ .C)) (fun _ => trivial)
      (by simp) hA hB trivial (fun _ => trivial) (by simp)) (by simp)]
  by_cases hs : x.sch = .KMN <;> by_cases hb : nz beta = true <;> simp [loads, hs, hb]

/-- C is written by the schedule (K-first) or when it is unpacked. -/
theorem call_stores_C (e : cake_sgemm nz cx ⟨.A, 0⟩ ⟨.B, 0⟩ ⟨.C, 0⟩ M N K p packedA packedB alpha beta m_c k_c n_c sch = some prog) :
    ∃ x uc A_p B_p, init_block_dims M N K p cx.m_r cx.n_r m_c k_c n_c sch = some x ∧
      unpack_C ⟨.C, 0⟩ ⟨.Cp, 0⟩ M N p cx.m_r cx.n_r x x.sch = some uc ∧
      ∀ i, stores ⟨.C, i⟩ prog = writeCount ⟨.C, i⟩ (phaseOps (if x.sch = .KMN then
        schedule_KMN cx.kmap A_p B_p ⟨.C, 0⟩ M N K p cx.m_r cx.n_r x else uc)) := by
  obtain ⟨x, pa, pb, pc, uc, sc, hx, hpa, hpb, hpc, huc, hsc, hμ⟩ := call_flow e
  refine ⟨x, uc, if packedA then ⟨.A, 0⟩ else ⟨.Ap, 0⟩, if packedB then ⟨.B, 0⟩ else ⟨.Bp, 0⟩, hx, huc, fun i => ?_⟩
  rw [hμ _ (stores_flows _), ← progOps_phases']
  rw [stores_phases (ph := pa) (packA_foot (Wr := (· ≠ .C)) (Rd := fun _ => True) (by simp) trivial hpa) (by simp),
    stores_phases (ph := pb) (packB_foot (Wr := (· ≠ .C)) (Rd := fun _ => True) (by simp) trivial hpb) (by simp),
    stores_phases (ph := pc) (packC_foot (Wr := (· ≠ .C)) (Rd := fun _ => True) (by simp) trivial hpc) (by simp),
    stores_phases (ph := sc) (sched_foot (Wr := (· ≠ .C)) (Rd := fun _ => True) (by simp) (fun _ => trivial) trivial trivial (by simp)
      trivial hsc) (by simp)]
  by_cases hs : x.sch = .KMN <;> simp [stores, hs]

end
end Cake
