/-
Packing and unpacking for the schedules with one shared packed C (M-first, N-first).
-/
import Verif.Proofs.Shared
import Verif.Proofs.SchedK

namespace Cake
open List

/-! ### Loops -/

/-- Two nested loops over chunks, carrying the offset of the next packed block. -/
theorem loop_chop2 {γ : Type _} {T s T' s' : Nat} (hs : 0 < s) (hs' : 0 < s') (w : Nat → Nat → Nat)
    (hw : ∀ i j, i < cdiv T s → j < cdiv T' s' → w i j = chopLen T s i * chopLen T' s' j)
    (g : Nat → Nat → Nat → γ) :
    (loopS (range (cdiv T s)) (fun i st =>
      loopS (range (cdiv T' s')) (fun j off => ([g i j off], off + w i j)) st) 0).1 =
    (range (cdiv T s)).flatMap fun i => (range (cdiv T' s')).flatMap fun j =>
      [g i j (i * s * T' + j * s' * chopLen T s i)] := by
  have inner : ∀ i st, i < cdiv T s →
      loopS (range (cdiv T' s')) (fun j off => ([g i j off], off + w i j)) st =
      ((range (cdiv T' s')).flatMap fun j => [g i j (st + chopOff T' s' j * chopLen T s i)],
        st + T' * chopLen T s i) := by
    intro i st hi
    rw [loopS_range_var _ (fun j => chopOff T' s' j * chopLen T s i)]
    · rw [chopOff_end hs']
    · intro j hj
      simp only
      rw [hw i j hi hj, chopOff_succ]; ring
    · simp [chopOff_zero]
  rw [loopS_range_var _ (fun i => chopOff T s i * T')]
  · simp only
    apply flatMap_congr
    intro i hi
    rw [mem_range] at hi
    rw [inner i _ hi]
    simp only
    apply flatMap_congr
    intro j hj
    rw [mem_range] at hj
    rw [chopOff_eq hs hi, chopOff_eq hs' hj, Nat.zero_add]
  · intro i hi
    rw [inner i _ hi, chopOff_succ]
    simp only
    ring
  · simp [chopOff_zero]

theorem flatMap_single {β γ : Type _} {xs : List β} (hn : xs.Nodup) {x0 : β} (hx : x0 ∈ xs)
    (f : β → List γ) (h : ∀ x ∈ xs, x ≠ x0 → f x = []) : xs.flatMap f = f x0 := by
  obtain ⟨pre, post, rfl⟩ := List.append_of_mem hx
  have hn2 := List.nodup_append.1 hn
  have hn3 := List.nodup_cons.1 hn2.2.1
  rw [flatMap_append, flatMap_cons]
  have e1 : pre.flatMap f = [] := by
    rw [flatMap_eq_nil_iff]
    intro x hx'
    exact h x (by simp [hx']) (fun e => hn2.2.2 x hx' x0 (by simp) e)
  have e2 : post.flatMap f = [] := by
    rw [flatMap_eq_nil_iff]
    intro x hx'
    exact h x (by simp [hx']) (fun e => hn3.1 (e ▸ hx'))
  rw [e1, e2]; simp

section
variable {M N K p m_r n_r mS k_c n_c : Nat}

/-! ### A -/

def aStrip (ly : Lay M N K p m_r n_r mS k_c n_c) (k m core : Nat) : List Op :=
  pack_ob_A_single_buf ⟨.A, m * mS * K + k * (p * k_c) + core * kX K p k_c k⟩ ⟨.Ap, ly.aO k m core⟩
    M K (m * mS) 0 (sL M mS m_r m) (kT K p k_c k core) m_r

/-- `ops` packs A. -/
structure IsPackA (ly : Lay M N K p m_r n_r mS k_c n_c) (ops : List Op) : Prop where
  mem : ∀ o, o ∈ ops ↔ ∃ k m core, k < cdiv K (p * k_c) ∧ m < cdiv M mS ∧ core < kU K p k_c k ∧
    o ∈ aStrip ly k m core
  seq : SeqW .Ap 0 (padTo M mS m_r * K) ops

variable (h : GeoOK p m_r n_r mS k_c n_c) {ly : Lay M N K p m_r n_r mS k_c n_c}
include h

theorem aStrip_seqW (ly : Lay M N K p m_r n_r mS k_c n_c) (k m core : Nat) :
    SeqW .Ap (ly.aO k m core) (sL M mS m_r m * kT K p k_c k core) (aStrip ly k m core) :=
  packObA_seqW _ (⟨.Ap, ly.aO k m core⟩ : Loc) _ _ _ _ _ _ _ h.m_r_pos (mL_dvd h)

theorem aStrip_mem (k m core : Nat) (o : Op) : o ∈ aStrip ly k m core ↔
    ∃ r i, r < sL M mS m_r m ∧ i < kT K p k_c k core ∧
      o = packAOp ⟨.A, m * mS * K + k * (p * k_c) + core * kX K p k_c k⟩ ⟨.Ap, ly.aO k m core⟩
        M K (m * mS) m_r (kT K p k_c k core) r i := by
  unfold aStrip
  rw [packObA_mem _ _ _ _ _ _ _ _ _ h.m_r_pos (mL_dvd h)]
  rfl

theorem IsPackA.reads {ops : List Op} (hp : IsPackA ly ops) (o : Op) (ho : o ∈ ops) (l : Loc)
    (hl : l ∈ o.reads) : ∃ x, x < M * K ∧ l = ⟨.A, x⟩ := by
  obtain ⟨k, m, core, hk, hm, hc, ho⟩ := (hp.mem o).1 ho
  obtain ⟨r, i, hr, hi, rfl⟩ := (aStrip_mem h _ _ _ _).1 ho
  unfold packAOp at hl
  split at hl
  · simp [Op.reads] at hl
  · rename_i hlt
    simp only [Op.reads, mem_singleton] at hl
    refine ⟨(m * mS + r) * K + (kO K p k_c k core + i), mulAdd_lt (by omega) (kO_bound hi), ?_⟩
    rw [hl]
    unfold kO
    simp only [Loc.off, Loc.mk.injEq, true_and]
    ring

theorem IsPackA.val {α : Type _} (F : Arith α) {ops : List Op} (hp : IsPackA ly ops) (mem : Mem α) :
    ASh ly (exec F ops mem) (fun r k => mem ⟨.A, r * K + k⟩) := by
  intro k m core r i hk hm hc hr hi hrow
  have hin := (hp.mem _).2 ⟨k, m, core, hk, hm, hc, (aStrip_mem h _ _ _ _).2 ⟨r, i, hr, hi, rfl⟩⟩
  have := exec_mem F _ mem _ hin hp.seq.nodup (by
    intro l hl o' ho' e
    obtain ⟨x, _, rfl⟩ := hp.reads h _ hin l hl
    have := (hp.seq.dst_of_mem ho').1
    rw [e] at this
    simp at this)
  rw [packAOp_dst] at this
  simp only [Loc.off] at this
  rw [this]
  unfold packAOp
  rw [if_neg (by omega)]
  simp only [Op.val, Loc.off]
  unfold kO
  congr 2
  ring

/-! ### B -/

omit h in
/-- The flag passed to `pack_ob_B_single_buf`. -/
def kPad (K p k_c k core : Nat) : Bool :=
  (k == cdiv K (p * k_c) - 1 && K % (p * k_c) != 0) && core == kU K p k_c k - 1

omit h in
def bStrip (ly : Lay M N K p m_r n_r mS k_c n_c) (n k core : Nat) : List Op :=
  pack_ob_B_single_buf ⟨.B, k * (p * k_c) * N + n * n_c + core * kX K p k_c k * N⟩ ⟨.Bp, ly.bO n k core⟩
    N (n * n_c) (kT K p k_c k core) (sL N n_c n_r n) n_r (kPad K p k_c k core)

omit h in
/-- `ops` packs B. -/
structure IsPackB (ly : Lay M N K p m_r n_r mS k_c n_c) (ops : List Op) : Prop where
  mem : ∀ o, o ∈ ops ↔ ∃ n k core, n < cdiv N n_c ∧ k < cdiv K (p * k_c) ∧ core < kU K p k_c k ∧
    o ∈ bStrip ly n k core
  seq : SeqW .Bp 0 (padTo N n_c n_r * K) ops

theorem bStrip_seqW (ly : Lay M N K p m_r n_r mS k_c n_c) (n k core : Nat) :
    SeqW .Bp (ly.bO n k core) (sL N n_c n_r n * kT K p k_c k core) (bStrip ly n k core) :=
  packObB_seqW _ (⟨.Bp, ly.bO n k core⟩ : Loc) _ _ _ _ _ _ h.n_r_pos (nL_dvd h)

omit h in
/-- Number of leading rows of B that are copied without looking at the column. -/
def uncheckedRows (K p k_c : Nat) : Nat :=
  if K % (p * k_c) = 0 then K
  else K - (K % (p * k_c) - cdiv (K % (p * k_c)) p *
    (cdiv (K % (p * k_c)) (cdiv (K % (p * k_c)) p) - 1))

omit h in
/-- Elements of B that the packing reads: one past the largest index. -/
def bNeed (N K p n_r k_c n_c : Nat) : Nat :=
  if uncheckedRows K p k_c = 0 then K * N
  else max (K * N) (uncheckedRows K p k_c * N + (padTo N n_c n_r - N))

/-- Rows are checked exactly from `uncheckedRows` on. -/
theorem kPad_iff {k core i : Nat} (hk : k < cdiv K (p * k_c)) (hc : core < kU K p k_c k)
    (hi : i < kT K p k_c k core) :
    kPad K p k_c k core = true ↔ uncheckedRows K p k_c ≤ kO K p k_c k core + i := by
  have hS : 0 < p * k_c := Nat.mul_pos h.p_pos h.k_c_pos
  have hlt := kO_bound hi
  have hcd := cdiv_eq_div_add K (p * k_c) hS
  have hdm := divmod_eq (p * k_c) K
  unfold uncheckedRows
  by_cases hr : K % (p * k_c) = 0
  · rw [if_pos hr]
    have : kPad K p k_c k core = false := by unfold kPad; simp [hr]
    rw [this]
    simp only [Bool.false_eq_true, false_iff]
    omega
  · rw [if_neg hr]
    have e : (K % (p * k_c) != 0) = true := by simpa using hr
    rw [e] at hcd
    simp only [Bool.toNat_true] at hcd
    set rem := K % (p * k_c) with hrem
    have hx : 0 < cdiv rem p := cdiv_pos (by omega) h.p_pos
    have hl := core_last' (t := rem) hx (by omega)
    have hu := cdiv_pos (a := rem) (by omega) hx
    have hlast := chopLen_last (T := rem) (i := cdiv rem (cdiv rem p) - 1) hx (by omega)
    rw [hl]
    by_cases hkl : k = cdiv K (p * k_c) - 1
    · -- last K block
      have hcond : (k == cdiv K (p * k_c) - 1 && rem != 0) = true := by simp [hkl, e]
      have hX : kX K p k_c k = cdiv rem p := by unfold kX; rw [← hrem, if_pos hcond]
      have hL : kL K p k_c k = rem := by
        have := k_len hS hk
        rw [← hrem, if_pos hcond] at this
        exact this.symm
      have hU : kU K p k_c k = cdiv rem (cdiv rem p) := by unfold kU; rw [hX, hL]
      have hO : kO K p k_c k core = K / (p * k_c) * (p * k_c) + core * cdiv rem p := by
        unfold kO; rw [hX, hkl]; congr 2; omega
      rw [hU] at hc
      by_cases hcl : core = cdiv rem (cdiv rem p) - 1
      · have : kPad K p k_c k core = true := by unfold kPad; rw [← hrem, hcond, hU]; simp [hcl]
        rw [this, hO, hcl]
        simp only [true_iff]
        omega
      · have : kPad K p k_c k core = false := by unfold kPad; rw [hU]; simp [hcl]
        rw [this, hO]
        simp only [Bool.false_eq_true, false_iff, Nat.not_le]
        have h1 : i < cdiv rem p := by
          unfold kT at hi; rw [hX] at hi
          exact Nat.lt_of_lt_of_le hi (chopLen_le _ _ _)
        have h2 : (core + 1) * cdiv rem p ≤ (cdiv rem (cdiv rem p) - 1) * cdiv rem p :=
          Nat.mul_le_mul_right _ (by omega)
        rw [Nat.add_mul] at h2
        omega
    · have : kPad K p k_c k core = false := by unfold kPad; simp [hkl]
      rw [this]
      simp only [Bool.false_eq_true, false_iff, Nat.not_le]
      have h1 : core * kX K p k_c k + i < p * k_c :=
        Nat.lt_of_lt_of_le (chop_bound hi) (chopLen_le _ _ _)
      have h2 : (k + 1) * (p * k_c) ≤ K / (p * k_c) * (p * k_c) := Nat.mul_le_mul_right _ (by omega)
      rw [Nat.add_mul] at h2
      unfold kO
      omega

omit h in
/-- One packing operation of B. -/
def packBOpS (ly : Lay M N K p m_r n_r mS k_c n_c) (n k core c i : Nat) : Op :=
  if uncheckedRows K p k_c ≤ kO K p k_c k core + i ∧ N ≤ n * n_c + c then
    Op.zero ⟨.Bp, ly.bO n k core + bIdx n_r (kT K p k_c k core) c i⟩
  else Op.copy ⟨.Bp, ly.bO n k core + bIdx n_r (kT K p k_c k core) c i⟩
    ⟨.B, (kO K p k_c k core + i) * N + (n * n_c + c)⟩

omit h in
theorem packBOpS_dst (n k core c i : Nat) : (packBOpS ly n k core c i).dst =
    ⟨.Bp, ly.bO n k core + bIdx n_r (kT K p k_c k core) c i⟩ := by
  unfold packBOpS; split <;> rfl

theorem bStrip_mem {n k core : Nat} (hk : k < cdiv K (p * k_c)) (hc : core < kU K p k_c k) (o : Op) :
    o ∈ bStrip ly n k core ↔ ∃ c i, c < sL N n_c n_r n ∧ i < kT K p k_c k core ∧
      o = packBOpS ly n k core c i := by
  have e1 : ∀ c i, k * (p * k_c) * N + n * n_c + core * kX K p k_c k * N + (i * N + c) =
      (kO K p k_c k core + i) * N + (n * n_c + c) := by intro c i; unfold kO; ring
  unfold bStrip
  cases hp : kPad K p k_c k core with
  | true =>
    rw [packObB_mem_pad _ _ _ _ _ _ _ h.n_r_pos (nL_dvd h)]
    apply exists_congr; intro c
    apply exists_congr; intro i
    apply and_congr_right; intro _
    apply and_congr_right; intro hi
    unfold packBOp packBOpS
    have := (kPad_iff h hk hc hi).1 hp
    simp only [this, true_and, Loc.off, e1, ge_iff_le]
  | false =>
    rw [packObB_mem_nopad _ _ _ _ _ _ _ h.n_r_pos (nL_dvd h)]
    apply exists_congr; intro c
    apply exists_congr; intro i
    apply and_congr_right; intro _
    apply and_congr_right; intro hi
    unfold packBOpS
    have := (not_congr (kPad_iff h hk hc hi)).1 (by simp [hp])
    simp only [this, false_and, if_false, Loc.off, e1]

theorem IsPackB.reads {ops : List Op} (hp : IsPackB ly ops) (o : Op) (ho : o ∈ ops) (l : Loc)
    (hl : l ∈ o.reads) : ∃ x, x < bNeed N K p n_r k_c n_c ∧ l = ⟨.B, x⟩ := by
  obtain ⟨n, k, core, hn, hk, hc, ho⟩ := (hp.mem o).1 ho
  obtain ⟨c, i, hcc, hi, rfl⟩ := (bStrip_mem h hk hc _).1 ho
  unfold packBOpS at hl
  split at hl
  · simp [Op.reads] at hl
  · rename_i hlt
    simp only [Op.reads, mem_singleton] at hl
    refine ⟨_, ?_, hl⟩
    have hkk := kO_bound hi
    have hcol := chop_bound hcc
    have hge := padTo_ge N n_c n_r h.n_r_pos
    by_cases hN : n * n_c + c < N
    · have h1 := mulAdd_lt hkk hN
      unfold bNeed
      split
      · exact h1
      · omega
    · have hu : kO K p k_c k core + i < uncheckedRows K p k_c := by
        by_contra hcon
        exact hlt ⟨by omega, by omega⟩
      unfold bNeed
      rw [if_neg (by omega)]
      have h2 : (kO K p k_c k core + i + 1) * N ≤ uncheckedRows K p k_c * N :=
        Nat.mul_le_mul_right _ hu
      rw [Nat.add_mul, Nat.one_mul] at h2
      omega

theorem IsPackB.val {α : Type _} (F : Arith α) {ops : List Op} (hp : IsPackB ly ops) (mem : Mem α) :
    BSh ly (exec F ops mem) (fun k c => mem ⟨.B, k * N + c⟩) := by
  intro n k core c i hn hk hc hcc hi hcol
  have hin := (hp.mem _).2 ⟨n, k, core, hn, hk, hc, (bStrip_mem h hk hc _).2 ⟨c, i, hcc, hi, rfl⟩⟩
  have := exec_mem F _ mem _ hin hp.seq.nodup (by
    intro l hl o' ho' e
    obtain ⟨x, _, rfl⟩ := hp.reads h _ hin l hl
    have := (hp.seq.dst_of_mem ho').1
    rw [e] at this
    simp at this)
  rw [packBOpS_dst] at this
  rw [this]
  unfold packBOpS
  rw [if_neg (by omega)]
  rfl

/-! ### C -/

omit h in
/-- The packed C holds matrix `c`. -/
def CSh {α : Type _} (ly : Lay M N K p m_r n_r mS k_c n_c) (mem : Mem α) (cm : Nat → Nat → α) : Prop :=
  ∀ n m r c, n < cdiv N n_c → m < cdiv M mS → r < sL M mS m_r m → c < sL N n_c n_r n →
    m * mS + r < M → n * n_c + c < N →
    mem ⟨.Cp, ly.cO n m + cIdx m_r n_r (sL M mS m_r m) r c⟩ = cm (m * mS + r) (n * n_c + c)

omit h in
def cStrip (ly : Lay M N K p m_r n_r mS k_c n_c) (n m : Nat) : List Op :=
  pack_ob_C_single_buf ⟨.C, m * mS * N + n * n_c⟩ ⟨.Cp, ly.cO n m⟩ M N (m * mS) (n * n_c) 0
    (sL M mS m_r m) (sL N n_c n_r n) m_r n_r
    (m == cdiv M mS - 1 && M % mS != 0) (n == cdiv N n_c - 1 && N % n_c != 0)

omit h in
structure IsPackC (ly : Lay M N K p m_r n_r mS k_c n_c) (ops : List Op) : Prop where
  mem : ∀ o, o ∈ ops ↔ ∃ n m, n < cdiv N n_c ∧ m < cdiv M mS ∧ o ∈ cStrip ly n m
  seq : SeqW .Cp 0 (padTo M mS m_r * padTo N n_c n_r) ops

theorem cStrip_seqW (ly : Lay M N K p m_r n_r mS k_c n_c) (n m : Nat) :
    SeqW .Cp (ly.cO n m) (sL M mS m_r m * sL N n_c n_r n) (cStrip ly n m) :=
  packObC_seqW _ (⟨.Cp, ly.cO n m⟩ : Loc) _ _ _ _ _ _ _ _ _ _ _ h.m_r_pos h.n_r_pos (mL_dvd h) (nL_dvd h)

omit h in
/-- A block that is not the ragged last one lies inside the matrix. -/
theorem full_in {T S u i : Nat} (hS : 0 < S) (hu : 0 < u) (hd : u ∣ S) (hi : i < cdiv T S)
    (hl : (i == cdiv T S - 1 && T % S != 0) = false) : i * S + sL T S u i ≤ T := by
  have h1 := chopLen_padTo hS hu hd hi
  rw [if_neg (by simp [hl])] at h1
  unfold sL
  rw [h1]
  have hcd := cdiv_eq_div_add T S hS
  have hdm := divmod_eq S T
  have : i + 1 ≤ T / S := by
    by_cases hr : T % S = 0
    · have e : (T % S != 0) = false := by simpa using hr
      rw [e] at hcd
      simp only [Bool.toNat_false, Nat.add_zero] at hcd
      omega
    · have e : (T % S != 0) = true := by simpa using hr
      rw [e] at hcd hl
      simp only [Bool.toNat_true, Bool.and_true, beq_eq_false_iff_ne] at hcd hl
      omega
  have := Nat.mul_le_mul_right S this
  rw [Nat.add_mul] at this
  omega

theorem cStrip_mem {n m : Nat} (hn : n < cdiv N n_c) (hm : m < cdiv M mS) (o : Op) :
    o ∈ cStrip ly n m ↔ ∃ r c, r < sL M mS m_r m ∧ c < sL N n_c n_r n ∧
      o = packCOp ⟨.C, m * mS * N + n * n_c⟩ ⟨.Cp, ly.cO n m⟩ M N (m * mS) (n * n_c) m_r n_r
        (sL M mS m_r m) r c := by
  unfold cStrip
  rw [packObC_mem _ _ _ _ _ _ _ _ _ _ _ _ _ h.m_r_pos h.n_r_pos (mL_dvd h) (nL_dvd h)]
  · rfl
  · intro hp
    rw [Bool.or_eq_false_iff] at hp
    exact ⟨full_in h.mS_pos h.m_r_pos h.m_dvd hm hp.1, full_in h.n_c_pos h.n_r_pos h.n_dvd hn hp.2⟩

theorem IsPackC.reads {ops : List Op} (hp : IsPackC ly ops) (o : Op) (ho : o ∈ ops) (l : Loc)
    (hl : l ∈ o.reads) : ∃ x, x < M * N ∧ l = ⟨.C, x⟩ := by
  obtain ⟨n, m, hn, hm, ho⟩ := (hp.mem o).1 ho
  obtain ⟨r, c, hr, hc, rfl⟩ := (cStrip_mem h hn hm _).1 ho
  unfold packCOp at hl
  split at hl
  · simp [Op.reads] at hl
  · rename_i hlt
    simp only [Op.reads, mem_singleton] at hl
    refine ⟨(m * mS + r) * N + (n * n_c + c), mulAdd_lt (by omega) (by omega), ?_⟩
    rw [hl]
    simp only [Loc.off, Loc.mk.injEq, true_and]
    ring

theorem IsPackC.val {α : Type _} (F : Arith α) {ops : List Op} (hp : IsPackC ly ops) (mem : Mem α) :
    CSh ly (exec F ops mem) (fun r c => mem ⟨.C, r * N + c⟩) := by
  intro n m r c hn hm hr hc hrow hcol
  have hin := (hp.mem _).2 ⟨n, m, hn, hm, (cStrip_mem h hn hm _).2 ⟨r, c, hr, hc, rfl⟩⟩
  have := exec_mem F _ mem _ hin hp.seq.nodup (by
    intro l hl o' ho' e
    obtain ⟨x, _, rfl⟩ := hp.reads h _ hin l hl
    have := (hp.seq.dst_of_mem ho').1
    rw [e] at this
    simp at this)
  rw [packCOp_dst] at this
  simp only [Loc.off] at this
  rw [this]
  unfold packCOp
  rw [if_neg (by omega)]
  simp only [Op.val, Loc.off]
  congr 2
  ring

/-! ### Unpacking C -/

omit h in
def uStrip (ly : Lay M N K p m_r n_r mS k_c n_c) (n m : Nat) : List Op :=
  unpack_ob_C_single_buf ⟨.C, m * mS * N + n * n_c⟩ ⟨.Cp, ly.cO n m⟩ M N (m * mS) (n * n_c) 0
    (sL M mS m_r m) (sL N n_c n_r n) m_r n_r

theorem uStrip_mem {n m : Nat} (o : Op) :
    o ∈ uStrip ly n m ↔ ∃ r c, r < sL M mS m_r m ∧ c < sL N n_c n_r n ∧ n * n_c + c < N ∧
      m * mS + r < M ∧ o = .copy ⟨.C, (m * mS + r) * N + (n * n_c + c)⟩
        ⟨.Cp, ly.cO n m + cIdx m_r n_r (sL M mS m_r m) r c⟩ := by
  unfold uStrip
  rw [unpackC_mem _ _ _ _ _ _ _ _ _ _ _ h.m_r_pos h.n_r_pos (mL_dvd h) (nL_dvd h)]
  have e : ∀ r c, m * mS * N + n * n_c + (r * N + c) = (m * mS + r) * N + (n * n_c + c) := by
    intro r c; ring
  simp only [Loc.off, e, Nat.add_zero]

omit h in
theorem blk_inj {S T u i i' x x' : Nat} (hx : x < sL T S u i) (hx' : x' < sL T S u i')
    (e : i * S + x = i' * S + x') : i = i' ∧ x = x' :=
  mulAdd_inj (Nat.lt_of_lt_of_le hx (chopLen_le _ _ _)) (Nat.lt_of_lt_of_le hx' (chopLen_le _ _ _)) e

theorem uStrip_inj {n m n' m' : Nat} {o o' : Op} (ho : o ∈ uStrip ly n m) (ho' : o' ∈ uStrip ly n' m')
    (e : o.dst = o'.dst) : n = n' ∧ m = m' ∧ o = o' := by
  obtain ⟨r, c, hr, hc, hN, hM, rfl⟩ := (uStrip_mem h o).1 ho
  obtain ⟨r', c', hr', hc', hN', hM', rfl⟩ := (uStrip_mem h o').1 ho'
  simp only [Op.dst, Loc.mk.injEq, true_and] at e
  obtain ⟨e1, e2⟩ := mulAdd_inj hN hN' e
  obtain ⟨rfl, rfl⟩ := blk_inj hr hr' e1
  obtain ⟨rfl, rfl⟩ := blk_inj hc hc' e2
  exact ⟨rfl, rfl, rfl⟩

theorem uStrip_noConflict {n m n' m' : Nat} (hne : n ≠ n' ∨ m ≠ m') (o : Op) (ho : o ∈ uStrip ly n m)
    (o' : Op) (ho' : o' ∈ uStrip ly n' m') : ¬ o.Conflict o' := by
  intro hc
  rcases hc with e | e | e
  · obtain ⟨e1, e2, _⟩ := uStrip_inj h ho ho' e
    omega
  · obtain ⟨r, c, _, _, _, _, rfl⟩ := (uStrip_mem h o).1 ho
    obtain ⟨r', c', _, _, _, _, rfl⟩ := (uStrip_mem h o').1 ho'
    simp [Op.dst, Op.reads] at e
  · obtain ⟨r, c, _, _, _, _, rfl⟩ := (uStrip_mem h o).1 ho
    obtain ⟨r', c', _, _, _, _, rfl⟩ := (uStrip_mem h o').1 ho'
    simp [Op.dst, Op.reads] at e

omit h in
/-- `ph` unpacks C. -/
structure IsUnpackC (ly : Lay M N K p m_r n_r mS k_c n_c) (ph : List (List (List Op))) : Prop where
  rf : ∀ ts ∈ ph, RaceFree ts
  mem : ∀ o, o ∈ phaseOps ph ↔ ∃ n m, n < cdiv N n_c ∧ m < cdiv M mS ∧ o ∈ uStrip ly n m

omit h in
theorem blk_cover {T S u x : Nat} (hS : 0 < S) (hu : 0 < u) (hd : u ∣ S) (hx : x < T) :
    ∃ i y, i < cdiv T S ∧ y < sL T S u i ∧ i * S + y = x := by
  have hlt : x < padTo T S u := Nat.lt_of_lt_of_le hx (padTo_ge _ _ _ hu)
  obtain ⟨h1, h2, h3⟩ := chop_cover hS hlt
  rw [cdiv_padTo hS hu hd] at h1
  exact ⟨_, _, h1, h2, h3⟩

theorem IsUnpackC.val {α : Type _} (F : Arith α) {ph : List (List (List Op))} (hp : IsUnpackC ly ph)
    (mem : Mem α) (cm : Nat → Nat → α) (hC : CSh ly mem cm) {row col : Nat} (hrow : row < M)
    (hcol : col < N) : exec F (phaseOps ph) mem ⟨.C, row * N + col⟩ = cm row col ∧
      ∃ o ∈ phaseOps ph, o.dst = ⟨.C, row * N + col⟩ := by
  obtain ⟨m, r, hm, hr, rfl⟩ := blk_cover h.mS_pos h.m_r_pos h.m_dvd hrow
  obtain ⟨n, c, hn, hc, rfl⟩ := blk_cover h.n_c_pos h.n_r_pos h.n_dvd hcol
  have ho := (uStrip_mem h (ly := ly) _).2 ⟨r, c, hr, hc, hcol, hrow, rfl⟩
  have hin := (hp.mem _).2 ⟨n, m, hn, hm, ho⟩
  have hex : ∃ o ∈ phaseOps ph, o.dst = ⟨.C, (m * mS + r) * N + (n * n_c + c)⟩ := ⟨_, hin, rfl⟩
  refine ⟨?_, hex⟩
  apply exec_const F _ _ _ _ hex
  intro o' ho' e
  obtain ⟨n', m', hn', hm', hu'⟩ := (hp.mem _).1 ho'
  obtain ⟨rfl, rfl, rfl⟩ := uStrip_inj h hu' ho e
  refine ⟨?_, hC n' m' r c hn' hm' hr hc hrow hcol⟩
  intro l hl o'' ho'' e''
  obtain ⟨n2, m2, _, _, hu2⟩ := (hp.mem _).1 ho''
  obtain ⟨_, _, _, _, _, _, rfl⟩ := (uStrip_mem h _).1 hu2
  simp only [Op.reads, mem_singleton] at hl
  rw [hl] at e''
  simp [Op.dst] at e''

theorem IsUnpackC.dst {ph : List (List (List Op))} (hp : IsUnpackC ly ph) (o : Op)
    (ho : o ∈ phaseOps ph) : ∃ x, x < M * N ∧ o.dst = ⟨.C, x⟩ := by
  obtain ⟨n, m, hn, hm, hu⟩ := (hp.mem _).1 ho
  obtain ⟨r, c, hr, hc, hN, hM, rfl⟩ := (uStrip_mem h _).1 hu
  exact ⟨_, mulAdd_lt hM hN, rfl⟩

theorem IsUnpackC.reads {ph : List (List (List Op))} (hp : IsUnpackC ly ph) (o : Op)
    (ho : o ∈ phaseOps ph) (l : Loc) (hl : l ∈ o.reads) :
    ∃ x, x < padTo M mS m_r * padTo N n_c n_r ∧ l = ⟨.Cp, x⟩ := by
  obtain ⟨n, m, hn, hm, hu⟩ := (hp.mem _).1 ho
  obtain ⟨r, c, hr, hc, hN, hM, rfl⟩ := (uStrip_mem h _).1 hu
  simp only [Op.reads, mem_singleton] at hl
  exact ⟨_, ly.cB hn hm (cIdx_lt' (mL_dvd h) (nL_dvd h) hr hc), hl⟩

/-! ### The schedule -/

/-- Effect of a sequence of block products on one entry of the packed C. -/
theorem blks_val {α : Type _} (F : Arith α) {kd : KDim} (hkd : kd.Fits m_r n_r)
    (L : List (Nat × Nat × Nat × Nat))
    (hL : ∀ q ∈ L, q.2.1 < cdiv N n_c ∧ q.2.2.1 < cdiv K (p * k_c) ∧ q.2.2.2 < cdiv M mS)
    (mem : Mem α) (a b : Nat → Nat → α) (hA : ASh ly mem a) (hB : BSh ly mem b)
    {n m r c : Nat} (hn : n < cdiv N n_c) (hm : m < cdiv M mS)
    (hr : r < sL M mS m_r m) (hc : c < sL N n_c n_r n) (hrow : m * mS + r < M) (hcol : n * n_c + c < N) :
    exec F (L.flatMap fun q => blkTask kd ly q.1 q.2.1 q.2.2.1 q.2.2.2) mem
      ⟨.Cp, ly.cO n m + cIdx m_r n_r (sL M mS m_r m) r c⟩ =
    dotFrom F (a (m * mS + r)) (fun kk => b kk (n * n_c + c))
      (L.flatMap fun q => if q.2.1 = n ∧ q.2.2.2 = m then kOrd K p k_c q.2.2.1 else [])
      (mem ⟨.Cp, ly.cO n m + cIdx m_r n_r (sL M mS m_r m) r c⟩) := by
  have key := exec_list_induct F L (fun q => blkTask kd ly q.1 q.2.1 q.2.2.1 q.2.2.2) mem
    (fun done mem' => (∀ x : Loc, x.buf = .Ap ∨ x.buf = .Bp → mem' x = mem x) ∧
      mem' ⟨.Cp, ly.cO n m + cIdx m_r n_r (sL M mS m_r m) r c⟩ =
        dotFrom F (a (m * mS + r)) (fun kk => b kk (n * n_c + c))
        (done.flatMap fun q => if q.2.1 = n ∧ q.2.2.2 = m then kOrd K p k_c q.2.2.1 else [])
        (mem ⟨.Cp, ly.cO n m + cIdx m_r n_r (sL M mS m_r m) r c⟩))
    ⟨fun _ _ => rfl, rfl⟩ (by
      rintro done ⟨t, n', k, m'⟩ rest hsplit mem' ⟨h1, h2⟩
      have hq := hL (t, n', k, m') (by rw [hsplit]; simp)
      simp only at hq
      refine ⟨?_, ?_⟩
      · intro x hx
        rw [blkTask_frame h hkd ly F]
        · exact h1 x hx
        · rcases hx with hx | hx <;> rw [hx] <;> simp
        · intro _ _ _ _ e
          rw [e] at hx
          simp at hx
      · have hA' : ASh ly mem' a := by
          intro _ _ _ _ _ g1 g2 g3 g4 g5 g6
          rw [h1 _ (Or.inl rfl)]
          exact hA _ _ _ _ _ g1 g2 g3 g4 g5 g6
        have hB' : BSh ly mem' b := by
          intro _ _ _ _ _ g1 g2 g3 g4 g5 g6
          rw [h1 _ (Or.inr rfl)]
          exact hB _ _ _ _ _ g1 g2 g3 g4 g5 g6
        rw [flatMap_append, flatMap_cons, flatMap_nil, append_nil]
        unfold dotFrom
        rw [foldl_append]
        unfold dotFrom at h2
        rw [← h2]
        by_cases hsame : n' = n ∧ m' = m
        · obtain ⟨rfl, rfl⟩ := hsame
          rw [if_pos ⟨rfl, rfl⟩]
          exact blkTask_val h hkd ly F mem' a b hA' hB' hn hq.2.1 hm hr hc hrow hcol
        · rw [if_neg hsame]
          simp only [foldl_nil]
          apply blkTask_frame h hkd ly F
          · simp
          · intro r' c' hr' hc' e
            simp only [Loc.mk.injEq, true_and] at e
            obtain ⟨e1, e2, _⟩ := ly.cInj hn hm hq.1 hq.2.2 (cIdx_lt' (mL_dvd h) (nL_dvd h) hr hc)
              (cIdx_lt' (mL_dvd h) (nL_dvd h) hr' hc') e
            exact hsame ⟨e1.symm, e2.symm⟩)
  exact key.2

omit h in
/-- `ph` is a schedule of block products; `order n m` is the order of the K blocks of C block
`(n, m)`. -/
structure IsSched (kd : KDim) (ly : Lay M N K p m_r n_r mS k_c n_c) (order : Nat → Nat → List Nat)
    (L : List (Nat × Nat × Nat × Nat)) (ph : List (List (List Op))) : Prop where
  rf : ∀ ts ∈ ph, RaceFree ts
  tasks : ∀ ts ∈ ph, ∀ t ∈ ts, ∃ q ∈ L, t = blkTask kd ly q.1 q.2.1 q.2.2.1 q.2.2.2
  ops : phaseOps ph = L.flatMap fun q => blkTask kd ly q.1 q.2.1 q.2.2.1 q.2.2.2
  range : ∀ q ∈ L, q.2.1 < cdiv N n_c ∧ q.2.2.1 < cdiv K (p * k_c) ∧ q.2.2.2 < cdiv M mS
  order : ∀ n m, n < cdiv N n_c → m < cdiv M mS →
    (L.flatMap fun q => if q.2.1 = n ∧ q.2.2.2 = m then kOrd K p k_c q.2.2.1 else []) =
      (order n m).flatMap (kOrd K p k_c)

theorem IsSched.val {α : Type _} (F : Arith α) {kd : KDim} (hkd : kd.Fits m_r n_r)
    {order : Nat → Nat → List Nat} {L : List (Nat × Nat × Nat × Nat)} {ph : List (List (List Op))}
    (hp : IsSched kd ly order L ph) (mem : Mem α) (a b cm : Nat → Nat → α) (hA : ASh ly mem a)
    (hB : BSh ly mem b) (hC : CSh ly mem cm) :
    CSh ly (exec F (phaseOps ph) mem) (fun row col => dotFrom F (a row) (fun kk => b kk col)
      ((order (col / n_c) (row / mS)).flatMap (kOrd K p k_c)) (cm row col)) := by
  intro n m r c hn hm hr hc hrow hcol
  rw [hp.ops, blks_val h F hkd L hp.range mem a b hA hB hn hm hr hc hrow hcol, hp.order n m hn hm,
    hC n m r c hn hm hr hc hrow hcol]
  have e1 : (m * mS + r) / mS = m := mulAdd_div (Nat.lt_of_lt_of_le hr (chopLen_le _ _ _))
  have e2 : (n * n_c + c) / n_c = n := mulAdd_div (Nat.lt_of_lt_of_le hc (chopLen_le _ _ _))
  simp only [e1, e2]

theorem IsSched.dst {kd : KDim} (hkd : kd.Fits m_r n_r)
    {order : Nat → Nat → List Nat} {L : List (Nat × Nat × Nat × Nat)} {ph : List (List (List Op))}
    (hp : IsSched kd ly order L ph) (o : Op) (ho : o ∈ phaseOps ph) :
    (∃ t, o.dst.buf = .reg t) ∨ o.dst.buf = .Cp := by
  rw [hp.ops] at ho
  obtain ⟨q, _, ho⟩ := mem_flatMap.1 ho
  rcases blkTask_dst h hkd ly o ho with h1 | ⟨_, _, _, _, h1⟩
  · exact Or.inl ⟨_, h1⟩
  · rw [h1]; exact Or.inr rfl

theorem IsSched.safe {kd : KDim} (hkd : kd.Fits m_r n_r)
    {order : Nat → Nat → List Nat} {L : List (Nat × Nat × Nat × Nat)} {ph : List (List (List Op))}
    (hp : IsSched kd ly order L ph) {size : Buf → Option Nat} {init : Loc → Bool}
    (hr : ShReady M N K m_r n_r mS n_c size init) : ∀ ts ∈ ph, ∀ t ∈ ts, Safe size init t := by
  intro ts hts t ht
  obtain ⟨q, hq, rfl⟩ := hp.tasks ts hts t ht
  have := hp.range q hq
  exact blkTask_safe h hkd ly this.1 this.2.1 this.2.2 hr

end
end Cake
