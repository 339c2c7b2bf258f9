/-
M-first and N-first with a compiled-in kernel smaller than the register tile: the elements of a tile beyond the kernel's
size are never computed.
-/
import Verif.Proofs.UserTilesNeg

namespace Cake
open List

section
variable {M N K p m_r n_r m_c k_c n_c : Nat}

theorem packB_ob_dst {B B_p : Loc} {N n1 k_c n_c n_r : Nat} {pad : Bool} :
    ∀ o ∈ pack_ob_B_single_buf B B_p N n1 k_c n_c n_r pad, o.dst.buf = B_p.buf := by
  unfold pack_ob_B_single_buf
  split
  · refine loopS_forall (fun _ _ s => loopS_forall (fun _ _ s => loopS_forall (fun _ _ s => ?_) _) _) _
    exact ite_dst rfl
  · refine loopS_forall (fun _ _ s => loopS_forall (fun _ _ s => loopS_forall (fun _ _ s => ?_) _) _) _
    exact copy_dst rfl

theorem packA_m_dst {A A_p : Loc} {M K p m_r : Nat} {x : BlkDims} :
    PhWrites A_p.buf (pack_A_m_first A A_p M K p m_r x) := by
  unfold pack_A_m_first PhWrites
  refine loopS_forall (fun _ _ s => loopS_forall (fun _ _ s ts hts => ?_) _) _
  simp only [mem_singleton] at hts
  subst hts
  exact forall_map_task (P := fun o => o.dst.buf = A_p.buf) fun i _ o ho => (packA_ob_dst o ho : _)

theorem packA_n_dst {A A_p : Loc} {M K p m_r : Nat} {x : BlkDims} :
    PhWrites A_p.buf (pack_A_n_first A A_p M K p m_r x) := by
  unfold pack_A_n_first PhWrites
  refine loopS_forall (fun _ _ s => loopS_forall (fun _ _ s ts hts => ?_) _) _
  simp only [mem_singleton] at hts
  subst hts
  exact forall_map_task (P := fun o => o.dst.buf = A_p.buf) fun i _ o ho => (packA_ob_dst o ho : _)

theorem packB_m_dst {B B_p : Loc} {N p n_r : Nat} {x : BlkDims} :
    PhWrites B_p.buf (pack_B_m_first B B_p N p n_r x) := by
  unfold pack_B_m_first PhWrites
  refine loopS_forall (fun _ _ s => loopS_forall (fun _ _ s ts hts => ?_) _) _
  simp only [mem_singleton] at hts
  subst hts
  exact forall_map_task (P := fun o => o.dst.buf = B_p.buf) fun i _ o ho => (packB_ob_dst o ho : _)

theorem packB_n_dst {B B_p : Loc} {N p n_r : Nat} {x : BlkDims} :
    PhWrites B_p.buf (pack_B_n_first B B_p N p n_r x) := by
  unfold pack_B_n_first PhWrites
  refine loopS_forall (fun _ _ s => loopS_forall (fun _ _ s ts hts => ?_) _) _
  simp only [mem_singleton] at hts
  subst hts
  exact forall_map_task (P := fun o => o.dst.buf = B_p.buf) fun i _ o ho => (packB_ob_dst o ho : _)

/-- What the register-tile loops write, whatever kernel is called. -/
theorem regTiles_dst_any {kd : KDim} (t : Nat) (A B C : Loc) (mt nt k : Nat) (hd : m_r ∣ mt) (hc : m_r * n_r ∣ C.idx) (o : Op)
    (ho : o ∈ regTiles kd t A B C m_r n_r mt nt k) :
    o.dst.buf = .reg t ∨ ∃ q y, y < kd.m * kd.nl * kd.L ∧ o.dst = ⟨C.buf, q * (m_r * n_r) + y⟩ := by
  unfold regTiles at ho
  simp only [mem_flatMap, mem_range] at ho
  obtain ⟨u, hu, v, hv, ho⟩ := ho
  rcases kernel_dst _ _ _ _ _ _ _ _ _ o ho with h | ⟨x, hx, h⟩
  · exact Or.inl h
  · right
    obtain ⟨q, rfl⟩ := hd
    obtain ⟨w, hw⟩ := hc
    refine ⟨w + u * q + v, x, hx, ?_⟩
    rw [h]
    simp only [Loc.off, Loc.mk.injEq, true_and, hw]
    ring

/-- Elements of the first tile beyond the kernel's size are not written. -/
theorem regTiles_keeps {kd : KDim} {t : Nat} {A B C : Loc} {mt nt k : Nat} (hd : m_r ∣ mt) (hc : m_r * n_r ∣ C.idx) {e z : Nat}
    (h1 : kd.m * kd.nl * kd.L ≤ e) (h2 : e < m_r * n_r) (hC : C.buf = .Cp) {o : Op}
    (ho : o ∈ regTiles kd t A B C m_r n_r mt nt k) : o.dst ≠ ⟨.C, z⟩ ∧ o.dst ≠ ⟨.Cp, e⟩ := by
  rcases regTiles_dst_any t A B C mt nt k hd hc o ho with h | ⟨q, y, hy, h⟩
  · constructor <;> intro e <;> rw [e] at h <;> cases h
  · rw [h, hC]
    constructor
    · simp
    · intro e'
      simp only [Loc.mk.injEq, true_and] at e'
      rcases Nat.eq_zero_or_pos q with rfl | hq
      · omega
      · have : 1 * (m_r * n_r) ≤ q * (m_r * n_r) := Nat.mul_le_mul_right _ hq
        omega

/-- Copying one block of packed C back: what is written to `C[r0][c0]` comes from position `r0 * n_r + c0`. -/
theorem unpackBlock_keeps {m n bm bn r0 c0 mt nt off m1 n1 : Nat} (hm : 0 < m_r) (hn : 0 < n_r)
    (hm1 : m1 = m * bm) (hn1 : n1 = n * bn) (hr : r0 < m_r) (hc : c0 < n_r) (hrb : m_r ≤ bm) (hcb : n_r ≤ bn) (hcN : c0 < N)
    (h0 : m = 0 → n = 0 → off = 0)
    {o : Op} (ho : o ∈ unpack_ob_C_single_buf ((⟨.C, 0⟩ : Loc) +ₚ (m * bm * N + n * bn)) ((⟨.Cp, 0⟩ : Loc) +ₚ off) M N m1 n1 0 mt nt m_r n_r) :
    (o.dst ≠ ⟨.C, r0 * N + c0⟩ ∧ o.dst ≠ ⟨.Cp, r0 * n_r + c0⟩) ∨ (∃ d, o = .zero d) ∨
      o = .copy ⟨.C, r0 * N + c0⟩ ⟨.Cp, r0 * n_r + c0⟩ := by
  rw [unpackAny_mem _ _ _ _ _ _ _ _ _ hm hn] at ho
  obtain ⟨r, c, hr', hc', h1, h2, rfl⟩ := ho
  by_cases hd : (⟨.C, r0 * N + c0⟩ : Loc) = (⟨.C, 0⟩ : Loc) +ₚ (m * bm * N + n * bn) +ₚ (r * N + c)
  · right; right
    have hd' := hd
    simp only [Loc.off, Loc.mk.injEq, true_and, Nat.zero_add] at hd'
    have e : m * bm * N + n * bn + (r * N + c) = (m * bm + r) * N + (n * bn + c) := by ring
    rw [e] at hd'
    subst hn1
    obtain ⟨e1, e2⟩ := mulAdd_inj hcN h1 hd'
    have hm0 : m = 0 := by
      rcases Nat.eq_zero_or_pos m with h | h
      · exact h
      · have : 1 * bm ≤ m * bm := Nat.mul_le_mul_right _ h
        omega
    have hn0 : n = 0 := by
      rcases Nat.eq_zero_or_pos n with h | h
      · exact h
      · have : 1 * bn ≤ n * bn := Nat.mul_le_mul_right _ h
        omega
    have ho := h0 hm0 hn0
    subst hm0 hn0
    rw [Nat.zero_mul, Nat.zero_add] at e1 e2
    subst e1 e2
    rw [← hd, ho]
    simp only [Loc.off, Op.copy.injEq, Loc.mk.injEq, true_and, Nat.zero_add]
    unfold cIdx
    rw [Nat.div_eq_of_lt hr, Nat.div_eq_of_lt hc, Nat.mod_eq_of_lt hr, Nat.mod_eq_of_lt hc]
    simp
  · left
    refine ⟨fun e => hd e.symm, ?_⟩
    simp [Op.dst, Loc.off]

theorem first_last {b T S : Nat} {f : Bool} :
    (if (b == T / S + f.toNat - 1 && f) = true then T - T % S else b * S) = b * S := by
  split
  · rename_i hl
    simp only [Bool.and_eq_true, beq_iff_eq] at hl
    rw [sub_mod_eq, hl.1, hl.2]
    simp
  · rfl

/-! ### M-first -/

theorem mfirst_zero {α : Type _} {F : Arith α} {nz : α → Bool} {cx : Cntx} (h : TileOK p cx.m_r cx.n_r m_c k_c n_c)
    {alpha beta : α} (hb : nz beta = false) {prog : Prog}
    (hprog : cake_sgemm nz cx ⟨.A, 0⟩ ⟨.B, 0⟩ ⟨.C, 0⟩ M N K p false false alpha beta m_c k_c n_c .MKN = some prog)
    {r0 c0 : Nat} (hr : r0 < cx.m_r) (hc : c0 < cx.n_r) (hcN : c0 < N)
    (hk : cx.kfix.m * cx.kfix.nl * cx.kfix.L ≤ r0 * cx.n_r + c0)
    {s s' : State α} (hC : s.mem ⟨.C, r0 * N + c0⟩ = F.zero) (hfc : s.size .Cp = none)
    (he : Exec F prog s (.ok s')) (hC' : s'.size .C ≠ none) : s'.mem ⟨.C, r0 * N + c0⟩ = F.zero := by
  have he2 : r0 * cx.n_r + c0 < cx.m_r * cx.n_r := mulAdd_lt hr hc
  have hsch : (dimsMKN M N K p cx.m_r cx.n_r m_c k_c n_c).sch = .MKN := rfl
  have hS : (Sched.MKN = Sched.KMN) = False := by simp
  simp only [cake_sgemm, init_block_dims, hsch, packedASize, packedCSize, pack_A, pack_B, pack_C, unpack_C,
    schedule, Option.bind_eq_bind, Option.bind_some, Bool.false_eq_true, if_false, Option.some.injEq, hb, hS] at hprog
  subst hprog
  have z0 : Zeros F [⟨.C, r0 * N + c0⟩, ⟨.Cp, r0 * cx.n_r + c0⟩] s := by
    intro z hz hn
    simp only [mem_cons, not_mem_nil, or_false] at hz
    rcases hz with rfl | rfl
    · exact hC
    · exact absurd hfc hn
  refine zeros_exec (by simp) ?_ z0 he _ (by simp) hC'
  simp only [all_append, all_cons, all_nil, Bool.and_true, Bool.and_eq_true]
  refine ⟨⟨⟨⟨by simp [itemKeeps], by simp [itemKeeps], packA_m_dst.keeps (by simp)⟩, by simp [itemKeeps], packB_m_dst.keeps (by simp)⟩,
    ⟨⟨by simp [itemKeeps], ?_⟩, ?_⟩, by simp [itemKeeps]⟩, by simp [itemKeeps]⟩
  · simp only [phases, all_map, all_eq_true, Function.comp]
    intro ts hts
    refine phase_keeps_two fun t ht o ho => Or.inl ?_
    simp only [schedule_MKN, mem_flatMap, mem_map] at hts
    obtain ⟨n, hn, k, hkk, rfl⟩ := hts
    obtain ⟨i, hi, rfl⟩ := mem_map.1 ht
    obtain ⟨core, -, ho⟩ := mem_flatMap.1 ho
    have hnt : ∀ c : Prop, [Decidable c] → cx.n_r ∣ if c then (dimsMKN M N K p cx.m_r cx.n_r m_c k_c n_c).n_c1 else
        (dimsMKN M N K p cx.m_r cx.n_r m_c k_c n_c).n_c := fun c _ => dvd_ite' (Nat.dvd_mul_left _ _) h.n_dvd
    refine regTiles_keeps ?_ ?_ hk he2 rfl ho
    · exact dvd_ite' (Nat.dvd_mul_left _ _) h.m_dvd
    · simp only [Loc.off, Nat.zero_add]
      refine Nat.dvd_add ?_ ?_
      · rw [Nat.mul_assoc n]
        refine Dvd.dvd.mul_left (Nat.mul_dvd_mul ?_ h.n_dvd) _
        exact Nat.dvd_add (Dvd.dvd.mul_left h.m_dvd _) (Nat.dvd_mul_left _ _)
      · exact Nat.mul_dvd_mul (Dvd.dvd.mul_left h.m_dvd _) (hnt _)
  · simp only [phases, all_map, all_eq_true, Function.comp]
    intro ts hts
    refine phase_keeps_two fun t ht o ho => ?_
    simp only [unpack_C_m_first, mem_map] at hts
    obtain ⟨n, hn, rfl⟩ := hts
    obtain ⟨m, hm, rfl⟩ := mem_map.1 ht
    refine unpackBlock_keeps (m := m) (n := n) (bm := m_c) (bn := n_c) h.m_r_pos h.n_r_pos ?_ ?_ hr hc
      (Nat.le_of_dvd h.m_c_pos h.m_dvd) (Nat.le_of_dvd h.n_c_pos h.n_dvd) hcN ?_ ho
    · exact first_last
    · exact first_last
    · rintro rfl rfl; simp

/-! ### N-first -/

theorem nfirst_zero {α : Type _} {F : Arith α} {nz : α → Bool} {cx : Cntx} (h : TileOK p cx.m_r cx.n_r m_c k_c n_c)
    {alpha beta : α} (hb : nz beta = false) {prog : Prog}
    (hprog : cake_sgemm nz cx ⟨.A, 0⟩ ⟨.B, 0⟩ ⟨.C, 0⟩ M N K p false false alpha beta m_c k_c n_c .NKM = some prog)
    {r0 c0 : Nat} (hr : r0 < cx.m_r) (hc : c0 < cx.n_r) (hcN : c0 < N)
    (hk : cx.kfix.m * cx.kfix.nl * cx.kfix.L ≤ r0 * cx.n_r + c0)
    {s s' : State α} (hC : s.mem ⟨.C, r0 * N + c0⟩ = F.zero) (hfc : s.size .Cp = none)
    (he : Exec F prog s (.ok s')) (hC' : s'.size .C ≠ none) : s'.mem ⟨.C, r0 * N + c0⟩ = F.zero := by
  have he2 : r0 * cx.n_r + c0 < cx.m_r * cx.n_r := mulAdd_lt hr hc
  have hpm : 0 < p * m_c := Nat.mul_pos h.p_pos h.m_c_pos
  have hsch : (dimsNKM M N K p cx.m_r cx.n_r m_c k_c n_c).sch = .NKM := rfl
  have hS : (Sched.NKM = Sched.KMN) = False := by simp
  simp only [cake_sgemm, init_block_dims, hsch, packedASize, packedCSize, pack_A, pack_B, pack_C, unpack_C,
    schedule, Option.bind_eq_bind, Option.bind_some, Bool.false_eq_true, if_false, Option.some.injEq, hb, hS] at hprog
  subst hprog
  have z0 : Zeros F [⟨.C, r0 * N + c0⟩, ⟨.Cp, r0 * cx.n_r + c0⟩] s := by
    intro z hz hn
    simp only [mem_cons, not_mem_nil, or_false] at hz
    rcases hz with rfl | rfl
    · exact hC
    · exact absurd hfc hn
  refine zeros_exec (by simp) ?_ z0 he _ (by simp) hC'
  simp only [all_append, all_cons, all_nil, Bool.and_true, Bool.and_eq_true]
  refine ⟨⟨⟨⟨by simp [itemKeeps], by simp [itemKeeps], packA_n_dst.keeps (by simp)⟩, by simp [itemKeeps], packB_n_dst.keeps (by simp)⟩,
    ⟨⟨by simp [itemKeeps], ?_⟩, ?_⟩, by simp [itemKeeps]⟩, by simp [itemKeeps]⟩
  · simp only [phases, all_map, all_eq_true, Function.comp]
    intro ts hts
    refine phase_keeps_two fun t ht o ho => Or.inl ?_
    simp only [schedule_NKM, mem_flatMap, mem_map] at hts
    obtain ⟨m, hm, k, hkk, rfl⟩ := hts
    obtain ⟨i, hi, rfl⟩ := mem_map.1 ht
    obtain ⟨core, -, ho⟩ := mem_flatMap.1 ho
    have hmt : ∀ c : Prop, [Decidable c] → cx.m_r ∣ if c then (dimsNKM M N K p cx.m_r cx.n_r m_c k_c n_c).m_c1 else
        p * (dimsNKM M N K p cx.m_r cx.n_r m_c k_c n_c).m_c :=
      fun c _ => dvd_ite' (Nat.dvd_mul_left _ _) (Dvd.dvd.mul_left h.m_dvd _)
    refine regTiles_keeps (hmt _) ?_ hk he2 rfl ho
    simp only [Loc.off, Nat.zero_add]
    refine Nat.dvd_add ?_ ?_
    · refine Nat.mul_dvd_mul (Dvd.dvd.mul_left h.m_dvd _) ?_
      refine Nat.dvd_add ?_ (Nat.dvd_mul_left _ _)
      show cx.n_r ∣ N - N % n_c
      rw [sub_mod_eq]
      exact Dvd.dvd.mul_left h.n_dvd _
    · rw [Nat.mul_assoc]
      exact Nat.mul_dvd_mul (hmt _) (Dvd.dvd.mul_left h.n_dvd _)
  · simp only [phases, all_map, all_eq_true, Function.comp]
    intro ts hts
    refine phase_keeps_two fun t ht o ho => ?_
    simp only [unpack_C_n_first, mem_map] at hts
    obtain ⟨m, hm, rfl⟩ := hts
    obtain ⟨n, hn, rfl⟩ := mem_map.1 ht
    rw [Nat.mul_assoc m p] at ho
    refine unpackBlock_keeps (m := m) (n := n) (bm := p * m_c) (bn := n_c) h.m_r_pos h.n_r_pos ?_ ?_ hr hc
      (Nat.le_of_dvd hpm (Dvd.dvd.mul_left h.m_dvd _)) (Nat.le_of_dvd h.n_c_pos h.n_dvd) hcN ?_ ho
    · exact first_last
    · exact first_last
    · rintro rfl rfl; simp

end
end Cake
