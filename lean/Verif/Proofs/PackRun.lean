/-
Running packing and unpacking on their own: helpers for `Verif.Props.Pack`.
-/
import Verif.Proofs.PackCK
import Verif.Proofs.SgemmMN

namespace Cake
open List

variable {α : Type _} {F : Arith α}

/-- Parallel loops never call `exit`. -/
theorem exec_phases_ne_exit {ph : List (List (List Op))} {s : State α} {out : Out α}
    (h : Exec F (phases ph) s out) : out ≠ .exit := by
  have runOps : ∀ {l : List Op} {s : State α} {out}, RunOps F l s out → out ≠ .exit := by
    intro l s out h
    induction h with
    | nil => simp
    | undef => simp
    | step _ _ _ _ _ _ ih => exact ih
  induction ph generalizing s with
  | nil => cases h; simp
  | cons ts ph ih =>
    cases h with
    | next _ _ _ s' _ _ h2 => exact ih h2
    | exit _ _ _ h1 =>
      cases h1 with
      | par _ _ _ _ _ hr => exact absurd rfl (runOps hr)
    | ub => simp

/-- Race-free loops whose operations are all in bounds and read initialised memory end normally, with
the effect of running the tasks one after the other. -/
theorem run_phases {ph : List (List (List Op))} {s : State α} (hrf : ∀ ts ∈ ph, RaceFree ts)
    (hsafe : ∀ o ∈ phaseOps ph, o.Defined s.size s.init) :
    (∃ s', Exec F (phases ph) s (.ok s')) ∧
    ∀ out, Exec F (phases ph) s out → out = .ok (stateAfter F (phaseOps ph) s) := by
  have key : Triple F (· = s) (phases ph) (· = stateAfter F (phaseOps ph) s) := by
    apply Triple.phases ph hrf
    · rintro _ rfl ts hts t ht
      apply Safe.of_forall
      intro o ho
      exact hsafe o (mem_flatten.2 ⟨_, mem_map_of_mem hts, mem_flatten.2 ⟨t, ht, ho⟩⟩)
    · rintro _ rfl; rfl
  refine ⟨?_, ?_⟩
  · obtain ⟨s', h1, _⟩ := key.exists_ok rfl
    exact ⟨s', h1⟩
  · intro out ho
    rcases key s out rfl ho with e | ⟨s', e, rfl⟩
    · exact absurd e (exec_phases_ne_exit ho)
    · exact e

/-- Packing loops: destinations written once, one source buffer. -/
theorem run_pack {ph : List (List (List Op))} {s : State α} {b src : Buf} {len n : Nat}
    (hseq : SeqW b 0 len (phaseOps ph)) (hsz : Room s b 1 len) (hne : src ≠ b)
    (hsrc : Holds s src 1 n) (hreads : ∀ o ∈ phaseOps ph, ∀ l ∈ o.reads, ∃ x, x < n ∧ l = ⟨src, x⟩) :
    (∃ s', Exec F (phases ph) s (.ok s')) ∧
    ∀ out, Exec F (phases ph) s out → out = .ok (stateAfter F (phaseOps ph) s) := by
  have hd : ∀ o ∈ phaseOps ph, o.dst.buf = b := fun o ho => (hseq.dst_of_mem ho).1
  obtain ⟨nb, hnb, hle⟩ := hsz
  obtain ⟨⟨ns, hns, hle'⟩, hin⟩ := hsrc
  rw [Nat.one_mul] at hle hle' hin
  apply run_phases
  · apply raceFree_of_nodup hseq.nodup hd
    intro o ho l hl
    obtain ⟨x, _, rfl⟩ := hreads o ho l hl
    exact hne
  · intro o ho
    constructor
    · have := hseq.dst_of_mem ho
      have e : o.dst = ⟨b, o.dst.idx⟩ := by rw [← this.1]
      rw [e]
      exact inB_of hnb (by omega)
    · intro l hl
      obtain ⟨x, hx, rfl⟩ := hreads o ho l hl
      exact ⟨inB_of hns (by omega), hin x hx⟩

section
variable {M N K p m_r n_r mS k_c n_c : Nat} (h : GeoOK p m_r n_r mS k_c n_c)
  {ly : Lay M N K p m_r n_r mS k_c n_c}
include h

theorem IsPackA.val_full (F : Arith α) {ops : List Op} (hp : IsPackA ly ops) (mem : Mem α)
    {k m core r i : Nat} (hk : k < cdiv K (p * k_c)) (hm : m < cdiv M mS) (hc : core < kU K p k_c k)
    (hr : r < sL M mS m_r m) (hi : i < kT K p k_c k core) :
    exec F ops mem ⟨.Ap, ly.aO k m core + aIdx m_r (kT K p k_c k core) r i⟩ =
      if m * mS + r < M then mem ⟨.A, (m * mS + r) * K + (kO K p k_c k core + i)⟩ else F.zero := by
  have hin := (hp.mem _).2 ⟨k, m, core, hk, hm, hc, (aStrip_mem h _ _ _ _).2 ⟨r, i, hr, hi, rfl⟩⟩
  have := exec_mem F _ mem _ hin hp.seq.nodup (by
    intro l hl o' ho' e
    obtain ⟨x, _, rfl⟩ := hp.reads h _ hin l hl
    have := (hp.seq.dst_of_mem ho').1
    rw [e] at this
    simp at this)
  rw [packAOp_dst] at this
  simp only [Loc.off] at this
  rw [this]
  unfold packAOp
  split
  · rw [if_neg (by omega)]; rfl
  · rw [if_pos (by omega)]
    simp only [Op.val, Loc.off]
    unfold kO
    congr 2
    ring

theorem IsPackB.val_full (F : Arith α) {ops : List Op} (hp : IsPackB ly ops) (mem : Mem α)
    {n k core c i : Nat} (hn : n < cdiv N n_c) (hk : k < cdiv K (p * k_c)) (hc : core < kU K p k_c k)
    (hcc : c < sL N n_c n_r n) (hi : i < kT K p k_c k core) :
    exec F ops mem ⟨.Bp, ly.bO n k core + bIdx n_r (kT K p k_c k core) c i⟩ =
      if uncheckedRows K p k_c ≤ kO K p k_c k core + i ∧ N ≤ n * n_c + c then F.zero
      else mem ⟨.B, (kO K p k_c k core + i) * N + (n * n_c + c)⟩ := by
  have hin := (hp.mem _).2 ⟨n, k, core, hn, hk, hc, (bStrip_mem h hk hc _).2 ⟨c, i, hcc, hi, rfl⟩⟩
  have := exec_mem F _ mem _ hin hp.seq.nodup (by
    intro l hl o' ho' e
    obtain ⟨x, _, rfl⟩ := hp.reads h _ hin l hl
    have := (hp.seq.dst_of_mem ho').1
    rw [e] at this
    simp at this)
  rw [packBOpS_dst] at this
  rw [this]
  unfold packBOpS
  split <;> rfl

/-- Round trip through the packed C of the schedules with a shared packed C. -/
theorem roundTrip_shared (F : Arith α) {pc uc : List (List (List Op))} (hp : IsPackC ly (phaseOps pc))
    (hu : IsUnpackC ly uc) {s : State α} (hC : Holds s .C M N)
    (hCp : Room s .Cp 1 (padTo M mS m_r * padTo N n_c n_r)) :
    (∃ s1, Exec F (phases pc) s (.ok s1)) ∧ ∀ out, Exec F (phases pc) s out → ∃ s1, out = .ok s1 ∧
      (∀ l : Loc, l.buf ≠ .Cp → s1.mem l = s.mem l) ∧
      ∀ s2 : State α, s2.size = s1.size →
        (∀ x, s2.mem ⟨.Cp, x⟩ = s1.mem ⟨.Cp, x⟩ ∧ s2.init ⟨.Cp, x⟩ = s1.init ⟨.Cp, x⟩) →
        (∃ s3, Exec F (phases uc) s2 (.ok s3)) ∧ ∀ out, Exec F (phases uc) s2 out → ∃ s3, out = .ok s3 ∧
          (∀ l : Loc, l.buf ≠ .C → s3.mem l = s2.mem l) ∧
          ∀ r c, r < M → c < N → s3.mem ⟨.C, r * N + c⟩ = s.mem ⟨.C, r * N + c⟩ := by
  obtain ⟨nc, hnc, hcle⟩ := hC.1
  obtain ⟨np, hnp, hple⟩ := hCp
  rw [Nat.one_mul] at hple
  have h1 := run_pack (F := F) (src := .C) (n := M * N) hp.seq ⟨np, hnp, by rwa [Nat.one_mul]⟩ (by simp)
    ⟨⟨nc, hnc, by rwa [Nat.one_mul]⟩, by rw [Nat.one_mul]; exact hC.2⟩ (fun o ho l hl => hp.reads h o ho l hl)
  refine ⟨h1.1, fun out ho => ⟨_, h1.2 out ho, ?_, ?_⟩⟩
  · intro l hl
    exact exec_frame F _ _ _ fun o ho e => hl (by rw [← e]; exact (hp.seq.dst_of_mem ho).1)
  · intro s2 hs2 hcp
    have hinit : ∀ x, x < padTo M mS m_r * padTo N n_c n_r → s2.init ⟨.Cp, x⟩ = true := by
      intro x hx
      rw [(hcp x).2]
      apply initAfter_of_mem
      right
      exact (hp.seq.mem_iff ⟨.Cp, x⟩).2 ⟨rfl, Nat.zero_le _, by simpa using hx⟩
    have hsz : s2.size = s.size := hs2
    have h2 := run_phases (F := F) (s := s2) hu.rf (by
      intro o ho
      constructor
      · obtain ⟨x, hx, e⟩ := hu.dst h o ho
        rw [e]
        exact inB_of (n := nc) (by rw [hsz]; exact hnc) (by omega)
      · intro l hl
        obtain ⟨x, hx, rfl⟩ := hu.reads h o ho l hl
        exact ⟨inB_of (n := np) (by rw [hsz]; exact hnp) (by omega), hinit x hx⟩)
    refine ⟨h2.1, fun out ho => ⟨_, h2.2 out ho, ?_, ?_⟩⟩
    · intro l hl
      exact exec_frame F _ _ _ fun o ho e => hl (by
        obtain ⟨x, hx, e'⟩ := hu.dst h o ho
        rw [← e, e'])
    · intro r c hr hc
      refine (hu.val h F s2.mem (fun r c => s.mem ⟨.C, r * N + c⟩) ?_ hr hc).1
      intro n m r' c' g1 g2 g3 g4 g5 g6
      rw [(hcp _).1]
      exact hp.val h F s.mem n m r' c' g1 g2 g3 g4 g5 g6

end

section
variable {M N K p m_r n_r m_c k_c n_c : Nat} (h : TileOK p m_r n_r m_c k_c n_c)
include h

theorem unpackCStrip_mem {C C_p : Loc} {n m core : Nat} (hm : m < cdiv M (p * m_c)) (o : Op) :
    o ∈ unpackCStrip C C_p M N p m_r n_r m_c n_c n m core ↔
      ∃ r c, r < mT M p m_r m_c m core ∧ c < nLen N n_r n_c n ∧ n * n_c + c < N ∧
        rowOf M p m_r m_c m core r < M ∧
        o = .copy (C +ₚ (rowOf M p m_r m_c m core r * N + (n * n_c + c)))
          (C_p +ₚ (cInd M N p m_r n_r m_c n_c n m core + cIdx m_r n_r (mT M p m_r m_c m core) r c)) := by
  unfold unpackCStrip
  rw [unpackC_mem _ _ _ _ _ _ _ _ _ _ _ h.m_r_pos h.n_r_pos (mT_dvd h hm) (nLen_dvd h)]
  have e1 : ∀ r c, C +ₚ cOrg M N p m_r m_c n_c n m core +ₚ (r * N + c) =
      C +ₚ (rowOf M p m_r m_c m core r * N + (n * n_c + c)) := by
    intro r c
    rw [off_off]; congr 1; unfold cOrg rowOf; ring
  have e2 : ∀ r, m * p * m_c + core * mX M p m_r m_c m + r = rowOf M p m_r m_c m core r := by
    intro r; unfold rowOf; ring
  simp only [e1, e2, off_off]

theorem unpackCK_raceFree : ∀ ts ∈ unpack_C_k_first ⟨.C, 0⟩ ⟨.Cp, 0⟩ M N p m_r n_r
    (dimsKMN M N K p m_r n_r m_c k_c n_c), RaceFree ts := by
  intro ts hts
  rw [unpackC_phases h] at hts
  simp only [mem_flatMap, mem_range, mem_singleton] at hts
  obtain ⟨n, _, m, hm, rfl⟩ := hts
  apply raceFree_map
  intro i j _ _ hne o ho o' ho' hc
  obtain ⟨r, c, hr, hcc, hN, hM, rfl⟩ := (unpackCStrip_mem h hm o).1 ho
  obtain ⟨r', c', hr', hcc', hN', hM', rfl⟩ := (unpackCStrip_mem h hm o').1 ho'
  rcases hc with e | e | e
  · simp only [Op.dst, Loc.off, Loc.mk.injEq, true_and, Nat.zero_add] at e
    obtain ⟨e1, _⟩ := mulAdd_inj hN hN' e
    exact hne (rowOf_inj hr hr' e1).2.1
  · simp [Op.dst, Op.reads, Loc.off] at e
  · simp [Op.dst, Op.reads, Loc.off] at e

theorem cInd_bound {n m core r c : Nat} (hn : n < cdiv N n_c) (hm : m < cdiv M (p * m_c))
    (hcore : core < mU M p m_r m_c m) (hr : r < mT M p m_r m_c m core) (hc : c < nLen N n_r n_c n) :
    cInd M N p m_r n_r m_c n_c n m core + cIdx m_r n_r (mT M p m_r m_c m core) r c <
      padTo M (p * m_c) m_r * padTo N n_c n_r := by
  have h0 := cIdx_lt' (mT_dvd h hm) (nLen_dvd h) hr hc
  have h1 := chop_mul_bound (w := nLen N n_r n_c n) (m_strips (N := 0) (K := 0) h hm).1 hcore h0
  have h2 := chop_mul_bound (T := padTo M (p * m_c) m_r) (i := m) (w := nLen N n_r n_c n) h.S_pos
    (by rwa [← mb_eq h]) h1
  have h3 := chop_mul_bound (T := padTo N n_c n_r) (i := n) (w := padTo M (p * m_c) m_r) h.n_c_pos
    (by rwa [← nb_eq h]) (by rw [Nat.mul_comm]; exact h2)
  rw [Nat.mul_comm (padTo M _ _)]
  unfold cInd
  omega

theorem roundTrip_k (F : Arith α) {s : State α} (hC : Holds s .C M N)
    (hCp : Room s .Cp 1 (padTo M (p * m_c) m_r * padTo N n_c n_r)) :
    let pc := pack_C_k_first ⟨.C, 0⟩ ⟨.Cp, 0⟩ M N p m_r n_r (dimsKMN M N K p m_r n_r m_c k_c n_c)
    let uc := unpack_C_k_first ⟨.C, 0⟩ ⟨.Cp, 0⟩ M N p m_r n_r (dimsKMN M N K p m_r n_r m_c k_c n_c)
    (∃ s1, Exec F (phases pc) s (.ok s1)) ∧ ∀ out, Exec F (phases pc) s out → ∃ s1, out = .ok s1 ∧
      (∀ l : Loc, l.buf ≠ .Cp → s1.mem l = s.mem l) ∧
      ∀ s2 : State α, s2.size = s1.size →
        (∀ x, s2.mem ⟨.Cp, x⟩ = s1.mem ⟨.Cp, x⟩ ∧ s2.init ⟨.Cp, x⟩ = s1.init ⟨.Cp, x⟩) →
        (∃ s3, Exec F (phases uc) s2 (.ok s3)) ∧ ∀ out, Exec F (phases uc) s2 out → ∃ s3, out = .ok s3 ∧
          (∀ l : Loc, l.buf ≠ .C → s3.mem l = s2.mem l) ∧
          ∀ r c, r < M → c < N → s3.mem ⟨.C, r * N + c⟩ = s.mem ⟨.C, r * N + c⟩ := by
  intro pc uc
  have hseq := packC_seqW (M := M) (N := N) (K := K) h ⟨.C, 0⟩ ⟨.Cp, 0⟩
  obtain ⟨nc, hnc, hcle⟩ := hC.1
  obtain ⟨np, hnp, hple⟩ := hCp
  rw [Nat.one_mul] at hple
  have off0 : ∀ (b : Buf) x, (⟨b, 0⟩ : Loc) +ₚ x = ⟨b, x⟩ := by intro b x; simp [Loc.off]
  have h1 := run_pack (F := F) (s := s) (src := .C) (n := M * N) hseq ⟨np, hnp, by rwa [Nat.one_mul]⟩ (by simp)
    ⟨⟨nc, hnc, by rwa [Nat.one_mul]⟩, by rw [Nat.one_mul]; exact hC.2⟩ (fun o ho l hl => by
      obtain ⟨x, hx, e⟩ := packCK_reads h _ _ o ho l hl
      exact ⟨x, hx, by rw [e, off0]⟩)
  refine ⟨h1.1, fun out ho => ⟨_, h1.2 out ho, ?_, ?_⟩⟩
  · intro l hl
    exact exec_frame F _ _ _ fun o ho e => hl (by rw [← e]; exact (hseq.dst_of_mem ho).1)
  · intro s2 hs2 hcp
    have hinit : ∀ x, x < padTo M (p * m_c) m_r * padTo N n_c n_r → s2.init ⟨.Cp, x⟩ = true := by
      intro x hx
      rw [(hcp x).2]
      apply initAfter_of_mem
      right
      exact (hseq.mem_iff ⟨.Cp, x⟩).2 ⟨rfl, Nat.zero_le _, by simpa using hx⟩
    have hsz : s2.size = s.size := hs2
    have hmem : ∀ o ∈ phaseOps uc, ∃ x y, x < M * N ∧ y < padTo M (p * m_c) m_r * padTo N n_c n_r ∧
        o = .copy ⟨.C, x⟩ ⟨.Cp, y⟩ := by
      intro o ho
      obtain ⟨n, m, core, r, c, hn, hm, hcore, hr, hc, hN, hM, rfl⟩ := (unpackCK_mem h _ _ o).1 ho
      rw [off0, off0]
      exact ⟨_, _, mulAdd_lt hM hN, cInd_bound h hn hm hcore hr hc, rfl⟩
    have h2 := run_phases (F := F) (s := s2) (ph := uc) (unpackCK_raceFree h) (by
      intro o ho
      obtain ⟨x, y, hx, hy, rfl⟩ := hmem o ho
      constructor
      · exact inB_of (n := nc) (by rw [hsz]; exact hnc) (by omega)
      · intro l hl
        simp only [Op.reads, mem_singleton] at hl
        rw [hl]
        exact ⟨inB_of (n := np) (by rw [hsz]; exact hnp) (by omega), hinit y hy⟩)
    refine ⟨h2.1, fun out ho => ⟨_, h2.2 out ho, ?_, ?_⟩⟩
    · intro l hl
      exact exec_frame F _ _ _ fun o ho e => hl (by
        obtain ⟨x, y, hx, hy, rfl⟩ := hmem o ho
        rw [← e]; rfl)
    · intro r c hr hc
      have := unpackCK_val (K := K) h F ⟨.C, 0⟩ ⟨.Cp, 0⟩ (by simp) s2.mem
        (fun r c => s.mem ⟨.C, r * N + c⟩) (by
          intro n m core r c hn hm hcore hr hc hN hM
          have hv := packCK_val (K := K) h F ⟨.C, 0⟩ ⟨.Cp, 0⟩ (by simp) s.mem hn hm hcore hr hc
          rw [if_neg (by omega)] at hv
          rw [off0, off0] at hv
          rw [off0, (hcp _).1]
          exact hv) hr hc
      rw [off0] at this
      exact this

end
end Cake
