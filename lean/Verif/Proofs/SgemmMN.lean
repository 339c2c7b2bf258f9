/-
M-first and N-first calls on plain operands, prepacked operands, the over-read of B, and the
pack/unpack round trip of C.
-/
import Verif.Proofs.Undef
import Verif.Proofs.Exact

namespace Cake
open List

section
variable {α : Type _} {M N K p m_c k_c n_c : Nat}

theorem sgemmM_call (F : Arith α) (nz : α → Bool) (cx : Cntx) (h : TileOK p cx.m_r cx.n_r m_c k_c n_c)
    (hk : cx.kfix.Fits cx.m_r cx.n_r) (alpha beta : α) {s : State α} (hs : CallOK s M N K)
    (hB : Holds s .B 1 (bNeed N K p cx.n_r k_c n_c)) (hC : nz beta = true → Holds s .C M N) :
    Computes F (cake_sgemm nz cx ⟨.A, 0⟩ ⟨.B, 0⟩ ⟨.C, 0⟩ M N K p false false alpha beta m_c k_c n_c .MKN) s
      (Env s s.size (cX M N) (fun m i => ∀ r c, r < M → c < N →
        i ⟨.C, r * N + c⟩ = true ∧ m ⟨.C, r * N + c⟩ =
          dotFrom F (fun k => entry s .A K r k) (fun k => entry s .B N k c)
            (orderMKN K p k_c n_c c) (if nz beta then entry s .C N r c else F.zero))) := by
  have hf : ∀ b : Buf, b ≠ .A → b ≠ .B → b ≠ .C → b ≠ .Ctx → s.size b = none := hs.fresh
  obtain ⟨⟨n, hn, hle⟩, hi⟩ := hB
  rw [Nat.one_mul] at hle hi
  refine Computes.of_triple rfl (sgemmM_triple (F := F) (a := entry s .A K) (b := entry s .B N) h hk
    (packedA := false) (packedB := false) ⟨fun _ => ⟨hs.a, ?_, fun _ _ => rfl⟩, by simp⟩
    ⟨fun _ => ⟨⟨n, hn, hle⟩, hi, ?_, fun _ _ => rfl⟩, by simp⟩ hs.c hC ?_ ?_ ?_ ?_
    (alpha := alpha) (beta := beta) rfl)
  · exact hf _ (by simp) (by simp) (by simp) (by simp)
  · exact hf _ (by simp) (by simp) (by simp) (by simp)
  · exact hf _ (by simp) (by simp) (by simp) (by simp)
  · exact fun i => hf _ (by simp) (by simp) (by simp) (by simp)
  · exact hf _ (by simp) (by simp) (by simp) (by simp)
  · exact hf _ (by simp) (by simp) (by simp) (by simp)

theorem sgemmN_call (F : Arith α) (nz : α → Bool) (cx : Cntx) (h : TileN p cx.m_r cx.n_r m_c k_c n_c)
    (hk : cx.kfix.Fits cx.m_r cx.n_r) (alpha beta : α) {s : State α} (hs : CallOK s M N K)
    (hB : Holds s .B 1 (bNeed N K p cx.n_r k_c n_c))
    (hC : nz beta = true → Holds s .C M N ∧ PackCAgree M N p cx.m_r cx.n_r m_c n_c) :
    Computes F (cake_sgemm nz cx ⟨.A, 0⟩ ⟨.B, 0⟩ ⟨.C, 0⟩ M N K p false false alpha beta m_c k_c n_c .NKM) s
      (Env s s.size (cX M N) (fun m i => ∀ r c, r < M → c < N →
        i ⟨.C, r * N + c⟩ = true ∧ m ⟨.C, r * N + c⟩ =
          dotFrom F (fun k => entry s .A K r k) (fun k => entry s .B N k c)
            (orderNKM K p m_c k_c r) (if nz beta then entry s .C N r c else F.zero))) := by
  have hf : ∀ b : Buf, b ≠ .A → b ≠ .B → b ≠ .C → b ≠ .Ctx → s.size b = none := hs.fresh
  obtain ⟨⟨n, hn, hle⟩, hi⟩ := hB
  rw [Nat.one_mul] at hle hi
  refine Computes.of_triple rfl (sgemmN_triple (F := F) (a := entry s .A K) (b := entry s .B N) h hk
    (packedA := false) (packedB := false) ⟨fun _ => ⟨hs.a, ?_, fun _ _ => rfl⟩, by simp⟩
    ⟨fun _ => ⟨⟨n, hn, hle⟩, hi, ?_, fun _ _ => rfl⟩, by simp⟩ hs.c hC ?_ ?_ ?_ ?_
    (alpha := alpha) (beta := beta) rfl)
  · exact hf _ (by simp) (by simp) (by simp) (by simp)
  · exact hf _ (by simp) (by simp) (by simp) (by simp)
  · exact hf _ (by simp) (by simp) (by simp) (by simp)
  · exact fun i => hf _ (by simp) (by simp) (by simp) (by simp)
  · exact hf _ (by simp) (by simp) (by simp) (by simp)
  · exact hf _ (by simp) (by simp) (by simp) (by simp)

/-- No normal end, hence undefined behaviour is reachable. -/
theorem ub_of_no_ok (F : Arith α) {prog : Prog} {s : State α} (hno : ∀ s', ¬ Exec F prog s (.ok s')) :
    Exec F prog s .ub := by
  obtain ⟨out, ho, hne⟩ := exec_exists (F := F) prog s
  cases out with
  | ok s' => exact absurd ho (hno s')
  | exit => exact absurd rfl hne
  | ub => exact ho

/-- If the call ends normally, the object holding B has the elements that packing reads. -/
theorem sgemmM_needs (F : Arith α) (nz : α → Bool) (cx : Cntx) (h : TileOK p cx.m_r cx.n_r m_c k_c n_c)
    (alpha beta : α) {s : State α} (hs : CallOK s M N K) {prog : Prog}
    (hprog : cake_sgemm nz cx ⟨.A, 0⟩ ⟨.B, 0⟩ ⟨.C, 0⟩ M N K p false false alpha beta m_c k_c n_c .MKN =
      some prog) {s' : State α} (he : Exec F prog s (.ok s')) :
    Holds s .B 1 (bNeed N K p cx.n_r k_c n_c) := by
  have hf : ∀ b : Buf, b ≠ .A → b ≠ .B → b ≠ .C → b ≠ .Ctx → s.size b = none := hs.fresh
  have hsch : (dimsMKN M N K p cx.m_r cx.n_r m_c k_c n_c).sch = .MKN := rfl
  simp only [cake_sgemm, init_block_dims, hsch, packedA_mkn, packedB_eq, packedC_mkn, pack_A, pack_B,
    pack_C, unpack_C, schedule, Option.bind_eq_bind, Option.bind_some, Option.some.injEq] at hprog
  subst hprog
  rw [List.append_assoc] at he
  exact sgemmS_needs (F := F) (packedA := false) (a := entry s .A K) h.geoM (fun _ => packA_m h) (packB_m h)
    ⟨fun _ => ⟨hs.a, hf _ (by simp) (by simp) (by simp) (by simp), fun _ _ => rfl⟩, by simp⟩ hs.b
    (hf _ (by simp) (by simp) (by simp) (by simp)) (hf _ (by simp) (by simp) (by simp) (by simp)) he

theorem sgemmM_overread (F : Arith α) (nz : α → Bool) (cx : Cntx) (h : TileOK p cx.m_r cx.n_r m_c k_c n_c)
    (alpha beta : α) {s : State α} (hs : CallOK s M N K) {nB : Nat} (hBs : s.size .B = some nB)
    (hlt : nB < bNeed N K p cx.n_r k_c n_c) {prog : Prog}
    (hprog : cake_sgemm nz cx ⟨.A, 0⟩ ⟨.B, 0⟩ ⟨.C, 0⟩ M N K p false false alpha beta m_c k_c n_c .MKN =
      some prog) (s' : State α) : ¬ Exec F prog s (.ok s') := fun he => by
  obtain ⟨n, hn, hle⟩ := (sgemmM_needs F nz cx h alpha beta hs hprog he).1
  rw [hBs] at hn
  cases hn
  omega

/-- If the call ends normally, the object holding B has the elements that packing reads. -/
theorem sgemmN_needs (F : Arith α) (nz : α → Bool) (cx : Cntx) (h : TileN p cx.m_r cx.n_r m_c k_c n_c)
    (alpha beta : α) {s : State α} (hs : CallOK s M N K) {prog : Prog}
    (hprog : cake_sgemm nz cx ⟨.A, 0⟩ ⟨.B, 0⟩ ⟨.C, 0⟩ M N K p false false alpha beta m_c k_c n_c .NKM =
      some prog) {s' : State α} (he : Exec F prog s (.ok s')) :
    Holds s .B 1 (bNeed N K p cx.n_r k_c n_c) := by
  have hf : ∀ b : Buf, b ≠ .A → b ≠ .B → b ≠ .C → b ≠ .Ctx → s.size b = none := hs.fresh
  have hsch : (dimsNKM M N K p cx.m_r cx.n_r m_c k_c n_c).sch = .NKM := rfl
  simp only [cake_sgemm, init_block_dims, hsch, packedA_nkm, packedB_eq, packedC_nkm, pack_A, pack_B,
    pack_C, unpack_C, schedule, Option.bind_eq_bind, Option.bind_some, Option.some.injEq] at hprog
  subst hprog
  rw [List.append_assoc] at he
  exact sgemmS_needs (F := F) (packedA := false) (a := entry s .A K) h.geoN (fun _ => packA_n h) (packB_n h)
    ⟨fun _ => ⟨hs.a, hf _ (by simp) (by simp) (by simp) (by simp), fun _ _ => rfl⟩, by simp⟩ hs.b
    (hf _ (by simp) (by simp) (by simp) (by simp)) (hf _ (by simp) (by simp) (by simp) (by simp)) he

theorem sgemmN_overread (F : Arith α) (nz : α → Bool) (cx : Cntx) (h : TileN p cx.m_r cx.n_r m_c k_c n_c)
    (alpha beta : α) {s : State α} (hs : CallOK s M N K) {nB : Nat} (hBs : s.size .B = some nB)
    (hlt : nB < bNeed N K p cx.n_r k_c n_c) {prog : Prog}
    (hprog : cake_sgemm nz cx ⟨.A, 0⟩ ⟨.B, 0⟩ ⟨.C, 0⟩ M N K p false false alpha beta m_c k_c n_c .NKM =
      some prog) (s' : State α) : ¬ Exec F prog s (.ok s') := fun he => by
  obtain ⟨n, hn, hle⟩ := (sgemmN_needs F nz cx h alpha beta hs hprog he).1
  rw [hBs] at hn
  cases hn
  omega

/-- Readable sufficient conditions for the layouts of `pack_C` and `unpack_C` (N-first) to agree. -/
theorem PackCAgree.of_le {m_r n_r : Nat} (hN : N ≤ n_c) :
    PackCAgree M N p m_r n_r m_c n_c := by
  intro n m hn hm
  have : n = 0 := by
    by_contra hne
    have : cdiv N n_c ≤ 1 := by
      unfold cdiv
      rcases Nat.eq_zero_or_pos n_c with rfl | hc
      · simp
      · exact Nat.lt_succ_iff.1 ((Nat.div_lt_iff_lt_mul hc).2 (by omega))
    omega
  subst this; simp

theorem PackCAgree.of_dvd {m_r n_r : Nat} (h : TileOK p m_r n_r m_c k_c n_c) (hM : p * m_c ∣ M)
    (hN : n_c ∣ N) : PackCAgree M N p m_r n_r m_c n_c := by
  have key : ∀ {T S u i : Nat}, 0 < S → S ∣ T → i < cdiv T S → sL T S u i = S := by
    intro T S u i hS hd hi
    obtain ⟨q, rfl⟩ := hd
    rw [Nat.mul_comm, cdiv_mul_self _ _ hS] at hi
    have e : padTo (S * q) S u = S * q := by
      unfold padTo
      rw [Nat.mul_mod_right, cdiv_zero, Nat.mul_div_cancel_left _ hS]; ring
    unfold sL chopLen
    rw [e]
    have : S * (i + 1) ≤ S * q := Nat.mul_le_mul_left _ hi
    have : S * (i + 1) = i * S + S := by ring
    omega
  intro n m hn hm
  rw [key h.n_c_pos hN hn, key (Nat.mul_pos h.p_pos h.m_c_pos) hM hm]
  ring

/-- If packing C writes beyond the packed buffer, the program never ends normally. -/
theorem packC_no_ok {F : Arith α} {pre r1 r2 r3 r4 : Prog} {pc : List (List (List Op))} {cSz x : Nat}
    (hx : cSz ≤ x) (hpc : ∃ o ∈ phaseOps pc, o.dst = ⟨.Cp, x⟩) {s0 s' : State α} :
    ¬ Exec F (pre ++ ((.memalign .Cp cSz :: phases pc) ++ r1 ++ r2 ++ r3) ++ r4) s0 (.ok s') := by
  intro he
  have he : Exec F (pre ++ ((.memalign .Cp cSz :: phases pc) ++ (r1 ++ (r2 ++ (r3 ++ r4))))) s0 (.ok s') := by
    simpa only [List.append_assoc] using he
  have nok : ∀ {P Q : Prog} {s t : State α}, Exec F (P ++ Q) s (.ok t) →
      ∃ u, Exec F P s (.ok u) ∧ Exec F Q u (.ok t) := by
    intro P Q s t hx
    rcases hx.append_inv with hx | ⟨_, e | e⟩
    · exact hx
    · cases e
    · cases e
  obtain ⟨s2, _, h2⟩ := nok he
  obtain ⟨s3, h3, _⟩ := nok h2
  obtain ⟨s4, h4, h5⟩ := nok (P := [.memalign .Cp cSz]) (Q := phases pc) h3
  have e4 : s4.size .Cp = some cSz := by
    have := h4.single_inv
    cases this
    simp
  obtain ⟨_, g⟩ := phases_ok_inv h5
  obtain ⟨o, ho, hd⟩ := hpc
  have := (g o ho).1
  rw [hd] at this
  obtain ⟨n, hn, hx'⟩ := this
  rw [e4] at hn
  cases hn
  simp only at hx'
  omega

theorem sgemmN_packC_oob {F : Arith α} {nz : α → Bool} {cx : Cntx} {alpha beta : α} (hb : nz beta = true)
    {x : Nat} (hx : padTo M (p * m_c) cx.m_r * padTo N n_c cx.n_r ≤ x)
    (hpc : ∃ o ∈ phaseOps (pack_C_n_first ⟨.C, 0⟩ ⟨.Cp, 0⟩ M N p cx.m_r cx.n_r
      (dimsNKM M N K p cx.m_r cx.n_r m_c k_c n_c)), o.dst = ⟨.Cp, x⟩) {A B : Loc} {packedA packedB : Bool}
    {prog : Prog} (hprog : cake_sgemm nz cx A B ⟨.C, 0⟩ M N K p packedA packedB alpha beta m_c k_c n_c .NKM =
      some prog) {s s' : State α} : ¬ Exec F prog s (.ok s') := by
  have hsch : (dimsNKM M N K p cx.m_r cx.n_r m_c k_c n_c).sch = .NKM := rfl
  simp only [cake_sgemm, init_block_dims, hsch, packedA_nkm, packedB_eq, packedC_nkm, pack_A, pack_B,
    pack_C, unpack_C, schedule, Option.bind_eq_bind, Option.bind_some, Option.some.injEq, hb, if_true,
    reduceCtorEq, if_false] at hprog
  subst hprog
  exact packC_no_ok (F := F) hx hpc

theorem sgemmN_packC_mem {nz : α → Bool} {cx : Cntx} {alpha beta : α} (hb : nz beta = true)
    {A B : Loc} {packedA packedB : Bool} {prog : Prog}
    (hprog : cake_sgemm nz cx A B ⟨.C, 0⟩ M N K p packedA packedB alpha beta m_c k_c n_c .NKM = some prog)
    {ts : List (List Op)} (hts : ts ∈ pack_C_n_first ⟨.C, 0⟩ ⟨.Cp, 0⟩ M N p cx.m_r cx.n_r
      (dimsNKM M N K p cx.m_r cx.n_r m_c k_c n_c)) : Item.par ts ∈ prog := by
  have hsch : (dimsNKM M N K p cx.m_r cx.n_r m_c k_c n_c).sch = .NKM := rfl
  simp only [cake_sgemm, init_block_dims, hsch, packedA_nkm, packedB_eq, packedC_nkm, pack_A, pack_B,
    pack_C, unpack_C, schedule, Option.bind_eq_bind, Option.bind_some, Option.some.injEq, hb, if_true,
    reduceCtorEq, if_false] at hprog
  subst hprog
  refine mem_append_left _ (mem_append_right _ (mem_append_left _ (mem_append_left _ (mem_append_left _ ?_))))
  exact mem_cons_of_mem _ (mem_map_of_mem hts)

end
end Cake
