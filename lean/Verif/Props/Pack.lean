/-
Properties C15, C16, C17: what packing writes, the packed layout, and the round trip of C.
-/
import Verif.Proofs.PackRun
import Verif.Props.Dims
import Verif.Proofs.PackCN

namespace Cake
open List

variable {α : Type _}

/-- Every object has `n` elements, all initialised; element `i` of any object is `v i`. -/
def allFull (n : Nat) (v : Nat → α) : State α where
  size := fun _ => some n
  mem := fun l => v l.idx
  init := fun _ => true

theorem allFull_room {n : Nat} {v : Nat → α} {b : Buf} {r c : Nat} (h : r * c ≤ n) :
    Room (allFull n v) b r c := ⟨n, rfl, h⟩
theorem allFull_holds {n : Nat} {v : Nat → α} {b : Buf} {r c : Nat} (h : r * c ≤ n) :
    Holds (allFull n v) b r c := ⟨⟨n, rfl, h⟩, fun _ _ => rfl⟩

/-! ### C15 -/

section
variable {M N K p m_r n_r m_c k_c n_c : Nat}

theorem seqW_range {b : Buf} {len : Nat} {ops : List Op} (h : SeqW b 0 len ops) :
    ops.map Op.dst = (range len).map fun i => (⟨b, i⟩ : Loc) := by
  rw [range_eq_range']; exact h

/-- **C15 (A).** Whatever the schedule, packing A writes the elements `0, 1, …, size-1` of the packed
buffer, each exactly once, and nothing else; `size` is what `cake_sgemm_packed_A_size` reports. -/
theorem C15_packA (h : TileOK p m_r n_r m_c k_c n_c) {sch : Sched} {x : BlkDims}
    {pa : List (List (List Op))} {size : Nat}
    (hx : init_block_dims M N K p m_r n_r m_c k_c n_c sch = some x)
    (hsz : packedASize M K p m_r m_c sch = some size)
    (hpa : pack_A ⟨.A, 0⟩ ⟨.Ap, 0⟩ M K p m_r x sch = some pa) :
    (phaseOps pa).map Op.dst = (range size).map fun i => (⟨.Ap, i⟩ : Loc) := by
  cases sch <;> simp only [init_block_dims, packedASize, pack_A, Option.some.injEq, reduceCtorEq] at hx hsz hpa
  · subst hx hsz hpa
    have := packA_seqW (M := M) (N := N) (K := K) h ⟨.A, 0⟩ ⟨.Ap, 0⟩
    convert seqW_range this using 3
    unfold padTo; ring
  · subst hx hsz hpa
    exact seqW_range (packA_m (M := M) (N := N) (K := K) h).seq
  · subst hx hsz hpa
    have := (packA_n (M := M) (N := N) (K := K) h.toN).seq
    convert seqW_range this using 3
    unfold padTo; ring

/-- **C15 (B).** The same for packing B, whose advertised size does not depend on the schedule. -/
theorem C15_packB (h : TileOK p m_r n_r m_c k_c n_c) {sch : Sched} {x : BlkDims}
    {pb : List (List (List Op))}
    (hx : init_block_dims M N K p m_r n_r m_c k_c n_c sch = some x)
    (hpb : pack_B ⟨.B, 0⟩ ⟨.Bp, 0⟩ K N p n_r x sch = some pb) :
    (phaseOps pb).map Op.dst = (range (packedBSize K N n_r n_c)).map fun i => (⟨.Bp, i⟩ : Loc) := by
  rw [packedB_eq]
  cases sch <;> simp only [init_block_dims, pack_B, Option.some.injEq, reduceCtorEq] at hx hpb
  · subst hx hpb
    exact seqW_range (packB_seqW (M := M) (N := N) (K := K) h ⟨.B, 0⟩ ⟨.Bp, 0⟩)
  · subst hx hpb
    exact seqW_range (packB_m (M := M) (N := N) (K := K) h).seq
  · subst hx hpb
    exact seqW_range (packB_n (M := M) (N := N) (K := K) h).seq

/-- **C15, for C.** The same for packing C under the K-first and M-first schedules (not under N-first,
see `C17_nfirst_refuted`). -/
theorem C15_packC (h : TileOK p m_r n_r m_c k_c n_c) {sch : Sched} {x : BlkDims} (hs : sch ≠ .NKM)
    {pc : List (List (List Op))} {size : Nat}
    (hx : init_block_dims M N K p m_r n_r m_c k_c n_c sch = some x)
    (hsz : packedCSize M N p m_r n_r m_c n_c sch = some size)
    (hpc : pack_C ⟨.C, 0⟩ ⟨.Cp, 0⟩ M N p m_r n_r x sch = some pc) :
    (phaseOps pc).map Op.dst = (range size).map fun i => (⟨.Cp, i⟩ : Loc) := by
  have e : N - N % n_c + cdiv (N % n_c) n_r * n_r = padTo N n_c n_r := by
    unfold padTo; rw [sub_mod_eq]
  cases sch <;> simp only [init_block_dims, packedCSize, pack_C, Option.some.injEq, reduceCtorEq, e] at hx hsz hpc
  · subst hx hsz hpc
    have := packC_seqW (M := M) (N := N) (K := K) h ⟨.C, 0⟩ ⟨.Cp, 0⟩
    convert seqW_range this using 3
    unfold padTo; ring
  · subst hx hsz hpc
    exact seqW_range (packC_m (M := M) (N := N) (K := K) h).seq
  · exact absurd rfl hs

example := C15_packA (M := 43) (N := 37) (K := 11) demo_tile (sch := .NKM) rfl rfl rfl
example := C15_packB (M := 43) (N := 37) (K := 11) demo_tile (sch := .MKN) rfl rfl
example := C15_packC (M := 43) (N := 37) (K := 11) demo_tile (sch := .KMN) (by simp) rfl rfl rfl

/-! ### C16 -/

theorem kmn_cores (h : TileOK p m_r n_r m_c k_c n_c) {m : Nat} (hm : m < cdiv M (p * m_c)) :
    let x := dimsKMN M N K p m_r n_r m_c k_c n_c
    coresOf x.Mb m p x.p_l x.m_pad = mU M p m_r m_c m ∧
    blockOf x.Mb m (p * x.m_c) (m_r * x.mr_rem) x.m_pad = mLen M p m_r m_c m ∧
    ∀ core, core < mU M p m_r m_c m →
      stripOf x.Mb m core x.p_l x.m_c x.m_c1 x.m_c1_last_core x.m_pad = mT M p m_r m_c m core := by
  intro x
  have eMb : x.Mb = cdiv M (p * m_c) := kmn_Mb h
  have hpad : x.m_pad = (M % (p * m_c) != 0) := rfl
  have hms := m_strips (N := N) (K := K) h hm
  refine ⟨?_, ?_, ?_⟩
  · have := hms.2.2.2.1
    unfold mU
    rw [← this]
    unfold coresOf
    simp only [pad_cond, eMb, hpad]
    rfl
  · rw [← m_len h hm]
    unfold blockOf
    simp only [pad_cond, eMb, hpad]
    rfl
  · intro core hc
    unfold mT
    rw [← hms.2.2.2.2.2 core hc]
    unfold stripOf
    simp only [pad_cond, eMb, hpad]
    rfl

theorem kmn_stride (h : TileOK p m_r n_r m_c k_c n_c) {m : Nat} :
    let x := dimsKMN M N K p m_r n_r m_c k_c n_c
    strideOf x.Mb m x.m_c x.m_c1 x.m_pad = mX M p m_r m_c m := by
  intro x
  have eMb : x.Mb = cdiv M (p * m_c) := kmn_Mb h
  have hpad : x.m_pad = (M % (p * m_c) != 0) := rfl
  unfold strideOf mX
  simp only [pad_cond, eMb, hpad]
  rfl

theorem block_k {nb T S c1 k : Nat} {pad : Bool} (hS : 0 < S) (hnb : nb = cdiv T S)
    (hpad : pad = (T % S != 0)) (hc1 : c1 = T % S) (hk : k < cdiv T S) :
    blockOf nb k S c1 pad = chopLen T S k := by
  subst hnb hpad hc1
  rw [← k_len hS hk]
  unfold blockOf
  simp only [pad_cond]

theorem block_pad {nb T S u c1 k : Nat} {pad : Bool} (hS : 0 < S) (hu : 0 < u) (hd : u ∣ S)
    (hnb : nb = cdiv T S) (hpad : pad = (T % S != 0)) (hc1 : c1 = cdiv (T % S) u * u) (hk : k < cdiv T S) :
    blockOf nb k S c1 pad = sL T S u k := by
  subst hnb hpad hc1
  rw [← sL_eq hS hu hd hk]
  unfold blockOf
  simp only [pad_cond]

theorem k_cores (hp : 0 < p) (hkc : 0 < k_c) {nb pl c1 kl k : Nat} {pad : Bool} (hnb : nb = cdiv K (p * k_c))
    (hpad : pad = (K % (p * k_c) != 0)) (hc1 : c1 = cdiv (K % (p * k_c)) p)
    (hpl : pl = if cdiv (K % (p * k_c)) p ≠ 0 then cdiv (K % (p * k_c)) (cdiv (K % (p * k_c)) p) else 0)
    (hkl : kl = K % (p * k_c) - cdiv (K % (p * k_c)) p * (pl - 1)) (hk : k < cdiv K (p * k_c)) :
    coresOf nb k p pl pad = kU K p k_c k ∧ strideOf nb k k_c c1 pad = kX K p k_c k ∧
    ∀ core, core < kU K p k_c k → stripOf nb k core pl k_c c1 kl pad = kT K p k_c k core := by
  subst hnb hpad hc1
  refine ⟨?_, ?_, ?_⟩
  · rw [← (k_strips' hp hkc hk hpl hkl).1]
    unfold coresOf
    simp only [pad_cond]
  · unfold strideOf kX
    simp only [pad_cond]
  · intro core hc
    rw [← (k_strips' hp hkc hk hpl hkl).2.2.1 core hc]
    unfold stripOf
    simp only [pad_cond]

/-- Every run of the loops `ph` from `s` ends normally, changes no object but `b`, and leaves in `b` contents
satisfying `Q`. -/
def PacksInto (F : Arith α) (ph : List (List (List Op))) (s : State α) (b : Buf) (Q : (Nat → α) → Prop) : Prop :=
  (∃ s', Exec F (phases ph) s (.ok s')) ∧ ∀ out, Exec F (phases ph) s out → ∃ s', out = .ok s' ∧
    s'.size = s.size ∧ (∀ l : Loc, l.buf ≠ b → s'.mem l = s.mem l) ∧ Q (fun i => s'.mem ⟨b, i⟩)

theorem packsInto_of {F : Arith α} {ph : List (List (List Op))} {s : State α} {b src : Buf} {len n : Nat}
    {Q : (Nat → α) → Prop} (hseq : SeqW b 0 len (phaseOps ph)) (hsz : Room s b 1 len) (hne : src ≠ b)
    (hsrc : Holds s src 1 n) (hreads : ∀ o ∈ phaseOps ph, ∀ l ∈ o.reads, ∃ x, x < n ∧ l = ⟨src, x⟩)
    (hQ : Q (fun i => exec F (phaseOps ph) s.mem ⟨b, i⟩)) : PacksInto F ph s b Q := by
  have h1 := run_pack (F := F) hseq hsz hne hsrc hreads
  refine ⟨h1.1, fun out ho => ⟨_, h1.2 out ho, rfl, ?_, hQ⟩⟩
  intro l hl
  exact exec_frame F _ _ _ fun o ho e => hl (by rw [← e]; exact (hseq.dst_of_mem ho).1)

theorem holds_one {s : State α} {b : Buf} {r c : Nat} (h : Holds s b r c) : Holds s b 1 (r * c) := by
  obtain ⟨⟨n, h1, h2⟩, h3⟩ := h
  exact ⟨⟨n, h1, by rwa [Nat.one_mul]⟩, by rwa [Nat.one_mul]⟩

theorem loc_zero (b : Buf) (x : Nat) : (⟨b, 0⟩ : Loc) +ₚ x = ⟨b, x⟩ := by simp [Loc.off]

/-- **C16 (A, K-first).** In the packed A, block `(m, k)`, strip `core`, row `r` of the strip and depth `i`
are found at the offset written out below: blocks of rows, then blocks of depth, then strips, then register
tiles of `m_r` rows stored column by column. The value is the matrix element, or zero below the matrix. -/
theorem C16_packA_kfirst (F : Arith α) (h : TileOK p m_r n_r m_c k_c n_c) {s : State α}
    (hA : Holds s .A M K) {size : Nat} (hsz : packedASize M K p m_r m_c .KMN = some size)
    (hAp : Room s .Ap 1 size) :
    let x := dimsKMN M N K p m_r n_r m_c k_c n_c
    PacksInto F (pack_A_k_first ⟨.A, 0⟩ ⟨.Ap, 0⟩ M K p m_r x) s .Ap fun out =>
      ∀ m k core r i, m < x.Mb → k < x.Kb → core < coresOf x.Mb m p x.p_l x.m_pad →
        r < stripOf x.Mb m core x.p_l x.m_c x.m_c1 x.m_c1_last_core x.m_pad →
        i < blockOf x.Kb k x.k_c x.k_c1 x.k_pad →
        let row := m * p * x.m_c + core * strideOf x.Mb m x.m_c x.m_c1 x.m_pad + r
        let depth := blockOf x.Kb k x.k_c x.k_c1 x.k_pad
        out (m * p * x.m_c * K + k * x.k_c * blockOf x.Mb m (p * x.m_c) (m_r * x.mr_rem) x.m_pad +
            core * strideOf x.Mb m x.m_c x.m_c1 x.m_pad * depth +
            r / m_r * (depth * m_r) + i * m_r + r % m_r) =
          if row < M then s.mem ⟨.A, row * K + (k * x.k_c + i)⟩ else F.zero := by
  intro x
  have esz : size = padTo M (p * m_c) m_r * K := by
    simp only [packedASize, Option.some.injEq] at hsz
    rw [← hsz]; unfold padTo; ring
  rw [esz] at hAp
  refine packsInto_of (packA_seqW (N := N) h ⟨.A, 0⟩ ⟨.Ap, 0⟩) hAp (by simp) (holds_one hA) ?_ ?_
  · intro o ho l hl
    obtain ⟨y, hy, e⟩ := packA_reads h _ _ o ho l hl
    exact ⟨y, hy, by rw [e, loc_zero]⟩
  · intro m k core r i hm hk hc hr hi row depth
    have eMb : x.Mb = cdiv M (p * m_c) := kmn_Mb h
    have eKb : x.Kb = cdiv K k_c := kmn_Kb h
    have hm' : m < cdiv M (p * m_c) := by rwa [eMb] at hm
    have hk' : k < cdiv K k_c := by rwa [eKb] at hk
    obtain ⟨h1, h2, h3⟩ := kmn_cores (N := N) (K := K) h hm'
    rw [h1] at hc
    rw [h3 core hc] at hr
    have hd : depth = chopLen K k_c k := block_k h.k_c_pos eKb rfl rfl hk'
    have hi' : i < chopLen K k_c k := by rw [← hd]; exact hi
    have hX : strideOf x.Mb m x.m_c x.m_c1 x.m_pad = mX M p m_r m_c m := kmn_stride h
    have := packA_val (N := N) h F ⟨.A, 0⟩ ⟨.Ap, 0⟩ (by simp) s.mem hm' hk' hc hr hi'
    rw [loc_zero, loc_zero] at this
    have er : row = m * p * m_c + core * mX M p m_r m_c m + r := by
      show m * p * m_c + _ * strideOf _ _ _ _ _ + r = _
      rw [hX]
    rw [hX, h2, hd, er]
    have ei : m * p * x.m_c * K + k * x.k_c * mLen M p m_r m_c m + core * mX M p m_r m_c m * chopLen K k_c k +
        r / m_r * (chopLen K k_c k * m_r) + i * m_r + r % m_r =
        aInd M K p m_r m_c k_c m k core + aIdx m_r (chopLen K k_c k) r i := by
      have e1 : x.m_c = m_c := rfl
      have e2 : x.k_c = k_c := rfl
      rw [e1, e2]
      unfold aInd aIdx
      ring
    rw [ei]
    refine this.trans ?_
    split
    · rw [if_neg (by omega)]
    · rw [if_pos (by omega)]
      rfl

example := C16_packA_kfirst (N := 37) (M := 43) (K := 11) (exact Int) demo_tile
  (s := allFull 1000 fun i => (i : Int)) (allFull_holds (by decide)) rfl (allFull_room (by decide))

/-- **C16 (B, K-first).** Blocks of columns, then blocks of depth, then register tiles of `n_r` columns
stored row by row; zero right of the matrix. -/
theorem C16_packB_kfirst (F : Arith α) (h : TileOK p m_r n_r m_c k_c n_c) {s : State α}
    (hB : Holds s .B K N) (hBp : Room s .Bp 1 (packedBSize K N n_r n_c)) :
    let x := dimsKMN M N K p m_r n_r m_c k_c n_c
    PacksInto F (pack_B_k_first ⟨.B, 0⟩ ⟨.Bp, 0⟩ K N n_r x) s .Bp fun out =>
      ∀ n k c i, n < x.Nb → k < x.Kb → c < blockOf x.Nb n x.n_c x.n_c1 x.n_pad →
        i < blockOf x.Kb k x.k_c x.k_c1 x.k_pad →
        let depth := blockOf x.Kb k x.k_c x.k_c1 x.k_pad
        out (n * x.n_c * K + k * x.k_c * blockOf x.Nb n x.n_c x.n_c1 x.n_pad +
            c / n_r * (depth * n_r) + i * n_r + c % n_r) =
          if n * x.n_c + c < N then s.mem ⟨.B, (k * x.k_c + i) * N + (n * x.n_c + c)⟩ else F.zero := by
  intro x
  rw [packedB_eq] at hBp
  refine packsInto_of (packB_seqW (M := M) h ⟨.B, 0⟩ ⟨.Bp, 0⟩) hBp (by simp) (holds_one hB) ?_ ?_
  · intro o ho l hl
    obtain ⟨y, hy, e⟩ := packB_reads h _ _ o ho l hl
    exact ⟨y, hy, by rw [e, loc_zero]⟩
  · intro n k c i hn hk hc hi depth
    have eNb : x.Nb = cdiv N n_c := kmn_Nb h
    have eKb : x.Kb = cdiv K k_c := kmn_Kb h
    have hn' : n < cdiv N n_c := by rwa [eNb] at hn
    have hk' : k < cdiv K k_c := by rwa [eKb] at hk
    have hd : depth = chopLen K k_c k := block_k h.k_c_pos eKb rfl rfl hk'
    have hw : blockOf x.Nb n x.n_c x.n_c1 x.n_pad = chopLen (padTo N n_c n_r) n_c n :=
      block_pad h.n_c_pos h.n_r_pos h.n_dvd eNb rfl rfl hn'
    have hi' : i < chopLen K k_c k := by rw [← hd]; exact hi
    rw [hw] at hc
    have := packB_val (M := M) h F ⟨.B, 0⟩ ⟨.Bp, 0⟩ (by simp) s.mem hn' hk' hc hi'
    rw [loc_zero, loc_zero] at this
    have e1 : x.n_c = n_c := rfl
    have e2 : x.k_c = k_c := rfl
    rw [hw, hd, e1, e2]
    have ei : n * n_c * K + k * k_c * chopLen (padTo N n_c n_r) n_c n + c / n_r * (chopLen K k_c k * n_r) +
        i * n_r + c % n_r = bInd N K n_r k_c n_c n k + bIdx n_r (chopLen K k_c k) c i := by
      unfold bInd bIdx
      ring
    rw [ei]
    refine this.trans ?_
    split
    · rw [if_neg (by omega)]
    · rw [if_pos (by omega)]

example := C16_packB_kfirst (M := 43) (N := 37) (K := 11) (exact Int) demo_tile
  (s := allFull 1000 fun i => (i : Int)) (allFull_holds (by decide)) (allFull_room (by decide))

/-- **C16 (A, M-first).** Blocks of depth (`p*k_c`), then blocks of rows, then per-core strips of depth,
then register tiles. -/
theorem C16_packA_mfirst (F : Arith α) (h : TileOK p m_r n_r m_c k_c n_c) {s : State α}
    (hA : Holds s .A M K) {size : Nat} (hsz : packedASize M K p m_r m_c .MKN = some size)
    (hAp : Room s .Ap 1 size) :
    let x := dimsMKN M N K p m_r n_r m_c k_c n_c
    PacksInto F (pack_A_m_first ⟨.A, 0⟩ ⟨.Ap, 0⟩ M K p m_r x) s .Ap fun out =>
      ∀ k m core r i, k < x.Kb → m < x.Mb → core < coresOf x.Kb k p x.p_l x.k_pad →
        r < blockOf x.Mb m x.m_c x.m_c1 x.m_pad →
        i < stripOf x.Kb k core x.p_l x.k_c x.k_c1 x.k_c1_last_core x.k_pad →
        let row := m * x.m_c + r
        let kk := k * p * x.k_c + core * strideOf x.Kb k x.k_c x.k_c1 x.k_pad + i
        let depth := stripOf x.Kb k core x.p_l x.k_c x.k_c1 x.k_c1_last_core x.k_pad
        out (k * p * x.k_c * x.M_padded + m * x.m_c * blockOf x.Kb k (p * x.k_c) x.k_rem x.k_pad +
            core * strideOf x.Kb k x.k_c x.k_c1 x.k_pad * blockOf x.Mb m x.m_c x.m_c1 x.m_pad +
            r / m_r * (depth * m_r) + i * m_r + r % m_r) =
          if row < M then s.mem ⟨.A, row * K + kk⟩ else F.zero := by
  intro x
  have hp := packA_m (M := M) (N := N) (K := K) h
  rw [packedA_mkn, Option.some.injEq] at hsz
  subst hsz
  refine packsInto_of hp.seq hAp (by simp) (holds_one hA) (fun o ho l hl => hp.reads h.geoM o ho l hl) ?_
  intro k m core r i hk hm hc hr hi row kk depth
  have eKb : x.Kb = cdiv K (p * k_c) := mkn_Kb h
  have eMb : x.Mb = cdiv M m_c := mkn_Mb h
  have hk' : k < cdiv K (p * k_c) := by rwa [eKb] at hk
  have hm' : m < cdiv M m_c := by rwa [eMb] at hm
  obtain ⟨h1, h2, h3⟩ := k_cores (K := K) h.p_pos h.k_c_pos (nb := x.Kb) (pl := x.p_l) (c1 := x.k_c1)
    (kl := x.k_c1_last_core) (pad := x.k_pad) eKb rfl rfl rfl rfl hk'
  rw [h1] at hc
  have hd : depth = kT K p k_c k core := h3 core hc
  have hi' : i < kT K p k_c k core := by rw [← hd]; exact hi
  have hb : blockOf x.Mb m x.m_c x.m_c1 x.m_pad = sL M m_c m_r m :=
    block_pad h.m_c_pos h.m_r_pos h.m_dvd eMb rfl rfl hm'
  have hkb : blockOf x.Kb k (p * x.k_c) x.k_rem x.k_pad = kL K p k_c k :=
    block_k (Nat.mul_pos h.p_pos h.k_c_pos) eKb rfl rfl hk'
  rw [hb] at hr
  have hX : strideOf x.Kb k x.k_c x.k_c1 x.k_pad = kX K p k_c k := h2
  have := hp.val_full h.geoM F s.mem hk' hm' hc hr hi'
  have ekk : kk = kO K p k_c k core + i := by
    show k * p * k_c + core * strideOf x.Kb k x.k_c x.k_c1 x.k_pad + i = _
    rw [hX]; unfold kO; ring
  have erow : row = m * m_c + r := rfl
  have eP : x.M_padded = padTo M m_c m_r := mkn_M_padded
  have e1 : x.m_c = m_c := rfl
  have e2 : x.k_c = k_c := rfl
  rw [hX, hb, hd, hkb, ekk, erow, eP, e1, e2]
  have ei : k * p * k_c * padTo M m_c m_r + m * m_c * kL K p k_c k + core * kX K p k_c k * sL M m_c m_r m +
      r / m_r * (kT K p k_c k core * m_r) + i * m_r + r % m_r =
      (layM M N K p m_r n_r m_c k_c n_c h.geoM).aO k m core + aIdx m_r (kT K p k_c k core) r i := by
    unfold layM aIdx
    ring
  rw [ei]
  exact this

example := C16_packA_mfirst (N := 37) (M := 43) (K := 11) (exact Int) demo_tile
  (s := allFull 1000 fun i => (i : Int)) (allFull_holds (by decide)) rfl (allFull_room (by decide))

/-- **C16 (A, N-first).** Blocks of rows (`p*m_c`), then blocks of depth, then per-core strips of depth. -/
theorem C16_packA_nfirst (F : Arith α) (h : TileOK p m_r n_r m_c k_c n_c) {s : State α}
    (hA : Holds s .A M K) {size : Nat} (hsz : packedASize M K p m_r m_c .NKM = some size)
    (hAp : Room s .Ap 1 size) :
    let x := dimsNKM M N K p m_r n_r m_c k_c n_c
    PacksInto F (pack_A_n_first ⟨.A, 0⟩ ⟨.Ap, 0⟩ M K p m_r x) s .Ap fun out =>
      ∀ k m core r i, k < x.Kb → m < x.Mb → core < coresOf x.Kb k p x.p_l x.k_pad →
        r < blockOf x.Mb m (p * x.m_c) x.m_c1 x.m_pad →
        i < stripOf x.Kb k core x.p_l x.k_c x.k_c1 x.k_c1_last_core x.k_pad →
        let row := m * p * x.m_c + r
        let kk := k * p * x.k_c + core * strideOf x.Kb k x.k_c x.k_c1 x.k_pad + i
        let depth := stripOf x.Kb k core x.p_l x.k_c x.k_c1 x.k_c1_last_core x.k_pad
        out (m * p * x.m_c * K + k * p * x.k_c * blockOf x.Mb m (p * x.m_c) x.m_c1 x.m_pad +
            core * strideOf x.Kb k x.k_c x.k_c1 x.k_pad * blockOf x.Mb m (p * x.m_c) x.m_c1 x.m_pad +
            r / m_r * (depth * m_r) + i * m_r + r % m_r) =
          if row < M then s.mem ⟨.A, row * K + kk⟩ else F.zero := by
  intro x
  have hp := packA_n (M := M) (N := N) (K := K) h.toN
  rw [packedA_nkm, Option.some.injEq] at hsz
  subst hsz
  refine packsInto_of hp.seq hAp (by simp) (holds_one hA) (fun o ho l hl => hp.reads h.geoN o ho l hl) ?_
  intro k m core r i hk hm hc hr hi row kk depth
  have eKb : x.Kb = cdiv K (p * k_c) := nkm_Kb h.toN
  have eMb : x.Mb = cdiv M (p * m_c) := nkm_Mb h.toN
  have hk' : k < cdiv K (p * k_c) := by rwa [eKb] at hk
  have hm' : m < cdiv M (p * m_c) := by rwa [eMb] at hm
  obtain ⟨h1, h2, h3⟩ := k_cores (K := K) h.p_pos h.k_c_pos (nb := x.Kb) (pl := x.p_l) (c1 := x.k_c1)
    (kl := x.k_c1_last_core) (pad := x.k_pad) eKb rfl rfl rfl rfl hk'
  rw [h1] at hc
  have hd : depth = kT K p k_c k core := h3 core hc
  have hi' : i < kT K p k_c k core := by rw [← hd]; exact hi
  have hb : blockOf x.Mb m (p * x.m_c) x.m_c1 x.m_pad = sL M (p * m_c) m_r m :=
    block_pad h.S_pos h.m_r_pos h.S_dvd eMb rfl rfl hm'
  rw [hb] at hr
  have hX : strideOf x.Kb k x.k_c x.k_c1 x.k_pad = kX K p k_c k := h2
  have := hp.val_full h.geoN F s.mem hk' hm' hc hr hi'
  have ekk : kk = kO K p k_c k core + i := by
    show k * p * k_c + core * strideOf x.Kb k x.k_c x.k_c1 x.k_pad + i = _
    rw [hX]; unfold kO; ring
  have erow : row = m * (p * m_c) + r := by
    show m * p * m_c + r = _
    ring
  have e1 : x.m_c = m_c := rfl
  have e2 : x.k_c = k_c := rfl
  rw [e1] at hb
  rw [e1, hX, hb, hd, ekk, erow, e2]
  have ei : m * p * m_c * K + k * p * k_c * sL M (p * m_c) m_r m + core * kX K p k_c k * sL M (p * m_c) m_r m +
      r / m_r * (kT K p k_c k core * m_r) + i * m_r + r % m_r =
      (layN M N K p m_r n_r (p * m_c) k_c n_c h.geoN).aO k m core + aIdx m_r (kT K p k_c k core) r i := by
    unfold layN aIdx
    ring
  rw [ei]
  exact this

example := C16_packA_nfirst (N := 37) (M := 43) (K := 11) (exact Int) demo_tile
  (s := allFull 1000 fun i => (i : Int)) (allFull_holds (by decide)) rfl (allFull_room (by decide))

/-! ### C17 -/

/-- Packing C and, after anything that leaves the packed C alone, unpacking it restores C: all runs of both
end normally; packing touches nothing but the packed buffer and unpacking nothing but C; afterwards C has the
elements it had before packing, whatever happened to C in between. -/
def RoundTrip (F : Arith α) (pc uc : List (List (List Op))) (s : State α) (M N : Nat) : Prop :=
  (∃ s1, Exec F (phases pc) s (.ok s1)) ∧ ∀ out, Exec F (phases pc) s out → ∃ s1, out = .ok s1 ∧
    (∀ l : Loc, l.buf ≠ .Cp → s1.mem l = s.mem l) ∧
    ∀ s2 : State α, s2.size = s1.size →
      (∀ x, s2.mem ⟨.Cp, x⟩ = s1.mem ⟨.Cp, x⟩ ∧ s2.init ⟨.Cp, x⟩ = s1.init ⟨.Cp, x⟩) →
      (∃ s3, Exec F (phases uc) s2 (.ok s3)) ∧ ∀ out, Exec F (phases uc) s2 out → ∃ s3, out = .ok s3 ∧
        (∀ l : Loc, l.buf ≠ .C → s3.mem l = s2.mem l) ∧
        ∀ r c, r < M → c < N → s3.mem ⟨.C, r * N + c⟩ = s.mem ⟨.C, r * N + c⟩

theorem C17_kfirst (F : Arith α) (h : TileOK p m_r n_r m_c k_c n_c) {s : State α} (hC : Holds s .C M N)
    {size : Nat} (hsz : packedCSize M N p m_r n_r m_c n_c .KMN = some size) (hCp : Room s .Cp 1 size) :
    let x := dimsKMN M N K p m_r n_r m_c k_c n_c
    RoundTrip F (pack_C_k_first ⟨.C, 0⟩ ⟨.Cp, 0⟩ M N p m_r n_r x)
      (unpack_C_k_first ⟨.C, 0⟩ ⟨.Cp, 0⟩ M N p m_r n_r x) s M N := by
  have e : size = padTo M (p * m_c) m_r * padTo N n_c n_r := by
    simp only [packedCSize, Option.some.injEq] at hsz
    rw [← hsz]; unfold padTo; rw [sub_mod_eq]; ring
  rw [e] at hCp
  exact roundTrip_k h F hC hCp

theorem C17_mfirst (F : Arith α) (h : TileOK p m_r n_r m_c k_c n_c) {s : State α} (hC : Holds s .C M N)
    {size : Nat} (hsz : packedCSize M N p m_r n_r m_c n_c .MKN = some size) (hCp : Room s .Cp 1 size) :
    let x := dimsMKN M N K p m_r n_r m_c k_c n_c
    RoundTrip F (pack_C_m_first ⟨.C, 0⟩ ⟨.Cp, 0⟩ M N m_r n_r x)
      (unpack_C_m_first ⟨.C, 0⟩ ⟨.Cp, 0⟩ M N m_r n_r x) s M N := by
  rw [packedC_mkn, Option.some.injEq] at hsz
  subst hsz
  exact roundTrip_shared h.geoM F (packC_m h) (unpackC_m h) hC hCp

/-- **C17 (N-first), what holds:** the sizes for which `pack_C` and the rest of the code agree on the
offsets of the blocks of C. Missing: all other sizes, see `C17_nfirst_refuted`. -/
theorem C17_nfirst_partial (F : Arith α) (h : TileOK p m_r n_r m_c k_c n_c) {s : State α} (hC : Holds s .C M N)
    {size : Nat} (hsz : packedCSize M N p m_r n_r m_c n_c .NKM = some size) (hCp : Room s .Cp 1 size)
    (hcase : N ≤ n_c ∨ p * m_c ∣ M ∧ n_c ∣ N) :
    let x := dimsNKM M N K p m_r n_r m_c k_c n_c
    RoundTrip F (pack_C_n_first ⟨.C, 0⟩ ⟨.Cp, 0⟩ M N p m_r n_r x)
      (unpack_C_n_first ⟨.C, 0⟩ ⟨.Cp, 0⟩ M N p m_r n_r x) s M N := by
  rw [packedC_nkm, Option.some.injEq] at hsz
  subst hsz
  have hag : PackCAgree M N p m_r n_r m_c n_c :=
    hcase.elim PackCAgree.of_le fun hc => PackCAgree.of_dvd h hc.1 hc.2
  exact roundTrip_shared h.geoN F (packC_n h.toN hag) (unpackC_n h.toN) hC hCp

example := C17_kfirst (K := 11) (exact Int) demo_tile (s := allFull 3000 fun i => (i : Int)) (M := 43) (N := 37)
  (allFull_holds (by decide)) rfl (allFull_room (by decide))
example := C17_mfirst (K := 11) (exact Int) demo_tile (s := allFull 3000 fun i => (i : Int)) (M := 43) (N := 37)
  (allFull_holds (by decide)) rfl (allFull_room (by decide))
example := C17_nfirst_partial (K := 11) (exact Int) demo_tile (s := allFull 9999 fun i => (i : Int)) (M := 72)
  (N := 64) (allFull_holds (by decide)) rfl (allFull_room (by decide)) (Or.inr (by decide))

end

/-- A run of race-free loops that ends normally executed every operation in bounds. -/
theorem phases_ok_inB {F : Arith α} {ph : List (List (List Op))} {s s' : State α}
    (h : Exec F (phases ph) s (.ok s')) : ∀ o ∈ phaseOps ph, InB s.size o.dst := by
  have runOps : ∀ {l : List Op} {s : State α} {out}, RunOps F l s out → ∀ s', out = .ok s' →
      (∀ o ∈ l, InB s.size o.dst) ∧ s'.size = s.size := by
    intro l s out h
    induction h with
    | nil => rintro s' ⟨⟩; simp
    | undef => rintro s' ⟨⟩
    | step o os s out hd _ ih =>
      rintro s' e
      obtain ⟨h1, h2⟩ := ih s' e
      exact ⟨by simpa using ⟨hd.1, h1⟩, h2⟩
  induction ph generalizing s with
  | nil => simp
  | cons ts ph ih =>
    cases h with
    | next _ _ _ s1 _ h1 h2 =>
      cases h1 with
      | par _ l _ _ hi hr =>
        obtain ⟨g1, g2⟩ := runOps hr s1 rfl
        intro o ho
        rw [phaseOps_cons, mem_append] at ho
        rcases ho with ho | ho
        · exact g1 o (hi.perm.mem_iff.2 ho)
        · rw [← g2]
          exact ih h2 o ho

section
variable {α : Type _} {M N K p m_r n_r m_c k_c n_c : Nat}

/-- **C17 (N-first), what is lost elsewhere.** For every size other than those of `C17_nfirst_iff` the round trip
loses an element of C: it fails whenever the elements of C are distinct, none is zero and none is in the packed
buffer beforehand. -/
theorem C17_nfirst_broken (F : Arith α) (h : TileOK p m_r n_r m_c k_c n_c) (hM : 0 < M) {s : State α}
    (hinj : ∀ i j, i < M * N → j < M * N → s.mem ⟨.C, i⟩ = s.mem ⟨.C, j⟩ → i = j)
    (hz : ∀ i, i < M * N → s.mem ⟨.C, i⟩ ≠ F.zero) (hn : ∀ i x, i < M * N → s.mem ⟨.Cp, x⟩ ≠ s.mem ⟨.C, i⟩)
    (hnot : ¬ (N ≤ n_c ∨ (p * m_c ∣ cdiv M m_r * m_r ∧ n_c ∣ cdiv N n_r * n_r) ∨
      (cdiv M m_r * m_r ≤ p * m_c ∧ cdiv N n_r * n_r ≤ 2 * n_c ∧
        p * m_c * (cdiv N n_r * n_r - n_c) = n_c * (cdiv M m_r * m_r)))) :
    let x := dimsNKM M N K p m_r n_r m_c k_c n_c
    ¬ RoundTrip F (pack_C_n_first ⟨.C, 0⟩ ⟨.Cp, 0⟩ M N p m_r n_r x)
      (unpack_C_n_first ⟨.C, 0⟩ ⟨.Cp, 0⟩ M N p m_r n_r x) s M N := by
  rw [← packCAgree_iff h hM] at hnot
  unfold PackCAgree at hnot
  push Not at hnot
  obtain ⟨n0, m0, hn0, hm0, hne⟩ := hnot
  rintro x ⟨⟨s1, h1⟩, hall⟩
  obtain ⟨_, e, hC1, hrest⟩ := hall _ h1
  cases e
  have hM0 : m0 * (p * m_c) < M := chop_mul_lt h.S_pos hm0
  have hN0 : n0 * n_c < N := chop_mul_lt h.n_c_pos hn0
  set t := m0 * (p * m_c) * N + n0 * n_c with ht
  set y := m0 * (p * m_c) * padTo N n_c n_r + n0 * n_c * sL M (p * m_c) m_r m0 with hy
  have htl : t < M * N := mulAdd_lt hM0 hN0
  -- the cell the element is unpacked from never gets its value
  have hcell : s1.mem ⟨.Cp, y⟩ ≠ s.mem ⟨.C, t⟩ := by
    refine (phases_inv (F := F) (Q := fun mem => mem ⟨.Cp, y⟩ ≠ s.mem ⟨.C, t⟩ ∧ ∀ i, mem ⟨.C, i⟩ = s.mem ⟨.C, i⟩)
      ?_ ⟨hn t y htl, fun _ => rfl⟩ h1).1
    intro o ho mem hq
    have hdst := packC_n_wrong h hn0 hm0 hne o ho
    rcases hdst with ⟨d, rfl⟩ | ⟨d, i, rfl, hi, hdi⟩
    · refine ⟨?_, fun i => ?_⟩
      · unfold Op.step
        split
        · exact (hz t htl).symm
        · exact hq.1
      · unfold Op.step
        rw [if_neg (by simp [Op.dst])]
        exact hq.2 i
    · refine ⟨?_, fun i' => ?_⟩
      · unfold Op.step
        split
        · rename_i e
          change mem ⟨.C, i⟩ ≠ _
          rw [hq.2 i]
          simp only [Op.dst, Loc.mk.injEq, true_and] at e
          exact fun e' => hdi e.symm (hinj _ _ hi htl e')
        · exact hq.1
      · unfold Op.step
        rw [if_neg (by simp [Op.dst])]
        exact hq.2 i'
  obtain ⟨⟨s3, h3⟩, hall3⟩ := hrest ⟨s1.size, fun l => if l.buf = .C then F.zero else s1.mem l, s1.init⟩ rfl
    (fun x => ⟨by simp, rfl⟩)
  obtain ⟨_, e, _, hC3⟩ := hall3 _ h3
  cases e
  refine absurd (hC3 _ _ hM0 hN0) ?_
  refine (phases_inv (F := F) (Q := fun mem => mem ⟨.C, t⟩ ≠ s.mem ⟨.C, t⟩ ∧ mem ⟨.Cp, y⟩ ≠ s.mem ⟨.C, t⟩)
    ?_ ⟨by simpa using (hz t htl).symm, by simpa using hcell⟩ h3).1
  intro o ho mem hq
  obtain ⟨n, m, hn', hm', hu⟩ := ((unpackC_n h.toN).mem o).1 ho
  obtain ⟨r, c, hr, hc, hcN, hrM, rfl⟩ := (uStrip_mem h.geoN o).1 hu
  unfold Op.step
  refine ⟨?_, by rw [if_neg (by simp [Op.dst])]; exact hq.2⟩
  split
  · rename_i e
    simp only [Op.dst, Loc.mk.injEq, true_and] at e
    obtain ⟨e2, e3⟩ := mulAdd_inj hN0 hcN (ht.symm.trans e)
    have hr' : r < p * m_c := Nat.lt_of_lt_of_le hr (chopLen_le _ _ _)
    have hc' : c < n_c := Nat.lt_of_lt_of_le hc (chopLen_le _ _ _)
    obtain ⟨rfl, rfl⟩ := mulAdd_inj h.S_pos hr' ((Nat.add_zero _).trans e2)
    obtain ⟨rfl, rfl⟩ := mulAdd_inj h.n_c_pos hc' ((Nat.add_zero _).trans e3)
    have ey : (layN M N K p m_r n_r (p * m_c) k_c n_c h.geoN).cO n0 m0 + cIdx m_r n_r (sL M (p * m_c) m_r m0) 0 0 = y := by
      simp [layN, cIdx, hy]
    rw [ey]
    exact hq.2
  · exact hq.1

example := C17_nfirst_broken (K := 11) (exact Int) demo_tile (M := 43) (N := 37)
  (s := ⟨fun _ => some 9999, fun l => if l.buf = .C then (l.idx : Int) + 1 else 0, fun _ => true⟩) (by decide)
  (fun i j _ _ => by simp) (fun i _ => by simp only [if_true]; exact (by omega : ((i : Int) + 1 ≠ 0)))
  (fun i x _ => by simp only [if_true, reduceCtorEq, if_false]; exact (by omega : (0 : Int) ≠ (i : Int) + 1))
  (by decide)

/-- **C17 (N-first), exactly when.** The round trip restores C, whatever its contents, exactly when there is one
block of columns, or the blocks tile the padded C evenly, or there is one block of rows and two of columns of
matching proportions. -/
theorem C17_nfirst_iff (h : TileOK p m_r n_r m_c k_c n_c) (hM : 0 < M) {size : Nat}
    (hsz : packedCSize M N p m_r n_r m_c n_c .NKM = some size) :
    let x := dimsNKM M N K p m_r n_r m_c k_c n_c
    (∀ s : State Int, Holds s .C M N → Room s .Cp 1 size →
      RoundTrip (exact Int) (pack_C_n_first ⟨.C, 0⟩ ⟨.Cp, 0⟩ M N p m_r n_r x)
        (unpack_C_n_first ⟨.C, 0⟩ ⟨.Cp, 0⟩ M N p m_r n_r x) s M N) ↔
    (N ≤ n_c ∨ (p * m_c ∣ cdiv M m_r * m_r ∧ n_c ∣ cdiv N n_r * n_r) ∨
      (cdiv M m_r * m_r ≤ p * m_c ∧ cdiv N n_r * n_r ≤ 2 * n_c ∧
        p * m_c * (cdiv N n_r * n_r - n_c) = n_c * (cdiv M m_r * m_r))) := by
  intro x
  constructor
  · intro hall
    by_contra hnot
    refine C17_nfirst_broken (K := K) (exact Int) h hM
      (s := ⟨fun _ => some (M * N + size), fun l => if l.buf = .C then (l.idx : Int) + 1 else 0, fun _ => true⟩)
      (fun i j _ _ => by simp) (fun i _ => by simp only [if_true]; exact (by omega : ((i : Int) + 1 ≠ 0)))
      (fun i x _ => by simp only [if_true, reduceCtorEq, if_false]; exact (by omega : (0 : Int) ≠ (i : Int) + 1))
      hnot (hall _ ⟨⟨_, rfl, by omega⟩, fun _ _ => rfl⟩ ⟨_, rfl, by omega⟩)
  · intro hc s hC hCp
    rw [packedC_nkm, Option.some.injEq] at hsz
    subst hsz
    exact roundTrip_shared h.geoN _ (packC_n h.toN ((packCAgree_iff h hM).2 hc)) (unpackC_n h.toN) hC hCp

/-- Both sides occur: `72 x 64` holds, `43 x 37` does not (3 threads, `m_c = 12`, `n_c = 32`). -/
example := C17_nfirst_iff (M := 43) (N := 37) (K := 11) demo_tile (by decide) rfl
example : 3 * 12 ∣ cdiv 72 6 * 6 ∧ 32 ∣ cdiv 64 16 * 16 := by decide

end

/-- **C17 (N-first) does not hold.** C of `1 x 32` on one thread with `m_c = 12`, `n_c = 16`: packing into a
buffer of the advertised size never ends normally. -/
theorem C17_nfirst_refuted :
    packedCSize 1 32 1 6 16 12 16 .NKM = some 192 ∧ Holds (allFull 192 fun i => (i : Int)) .C 1 32 ∧
    Room (allFull 192 fun i => (i : Int)) .Cp 1 192 ∧
    ¬ RoundTrip (exact Int) (pack_C_n_first ⟨.C, 0⟩ ⟨.Cp, 0⟩ 1 32 1 6 16 (dimsNKM 1 32 1 1 6 16 12 5 16))
      (unpack_C_n_first ⟨.C, 0⟩ ⟨.Cp, 0⟩ 1 32 1 6 16 (dimsNKM 1 32 1 1 6 16 12 5 16))
      (allFull 192 fun i => (i : Int)) 1 32 := by
  refine ⟨rfl, allFull_holds (by decide), allFull_room (by decide), ?_⟩
  rintro ⟨⟨s1, h1⟩, _⟩
  have hpc : ∃ o ∈ phaseOps (pack_C_n_first ⟨.C, 0⟩ ⟨.Cp, 0⟩ 1 32 1 6 16 (dimsNKM 1 32 1 1 6 16 12 5 16)),
      o.dst = ⟨.Cp, 192⟩ := by decide +kernel
  obtain ⟨o, ho, e⟩ := hpc
  have := phases_ok_inB h1 o ho
  rw [e] at this
  obtain ⟨n, hn, hlt⟩ := this
  simp only [allFull, Option.some.injEq] at hn
  subst hn
  exact absurd hlt (by decide)

end Cake
