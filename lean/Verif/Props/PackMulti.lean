/-
C52: the public block packing functions.
-/
import Verif.Model.PackMulti
import Verif.Proofs.PackRun
import Verif.Proofs.Undef
import Verif.Props.Pack

namespace Cake
open List

variable {α : Type _} {F : Arith α}

/-- The parallel loop over the tasks `ts` (one task: sequential code) can run, has no undefined behaviour, changes nothing
but the first `len` elements of `b`, and leaves these initialised and such that `V` holds of their values. -/
def Packs (F : Arith α) (ts : List (List Op)) (s : State α) (b : Buf) (len : Nat) (V : (Nat → α) → Prop) : Prop :=
  (∃ s', Exec F [.par ts] s (.ok s')) ∧ ∀ out, Exec F [.par ts] s out → ∃ s', out = .ok s' ∧ s'.size = s.size ∧
    (∀ l : Loc, ¬ (l.buf = b ∧ l.idx < len) → s'.mem l = s.mem l ∧ s'.init l = s.init l) ∧
    (∀ x, x < len → s'.init ⟨b, x⟩ = true) ∧ V fun x => s'.mem ⟨b, x⟩

theorem packs_of {ts : List (List Op)} {s : State α} {b src : Buf} {len n : Nat} {V : (Nat → α) → Prop}
    (hseq : SeqW b 0 len ts.flatten) (hsz : Room s b 1 len) (hne : src ≠ b) (hsrc : Holds s src 1 n)
    (hreads : ∀ o ∈ ts.flatten, ∀ l ∈ o.reads, ∃ x, x < n ∧ l = ⟨src, x⟩)
    (hV : ∀ mem' : Mem α, (∀ o ∈ ts.flatten, mem' o.dst = o.val F s.mem) → V fun x => mem' ⟨b, x⟩) :
    Packs F ts s b len V := by
  have e : phaseOps [ts] = ts.flatten := by simp [phaseOps]
  have h := run_pack (F := F) (ph := [ts]) (s := s) (b := b) (src := src) (len := len) (n := n) (by rw [e]; exact hseq) hsz hne hsrc
    (by rw [e]; exact hreads)
  refine ⟨h.1, fun out ho => ⟨_, h.2 out ho, rfl, ?_, ?_, ?_⟩⟩
  · intro l hl
    rw [e]
    have hnot : ∀ o ∈ ts.flatten, o.dst ≠ l := fun o ho e => hl (by
      have := (hseq.mem_iff l).1 ⟨o, ho, e⟩
      exact ⟨this.1, by omega⟩)
    refine ⟨exec_frame F _ _ _ hnot, ?_⟩
    show initAfter ts.flatten s.init l = s.init l
    unfold initAfter
    rw [show (ts.flatten.any fun o => decide (o.dst = l)) = false by
      rw [any_eq_false]; intro o ho; simpa using hnot o ho]
    simp
  · intro x hx
    rw [e]
    exact initAfter_of_mem (Or.inr ((hseq.mem_iff ⟨b, x⟩).2 ⟨rfl, Nat.zero_le _, by simpa using hx⟩))
  · apply hV
    intro o ho
    rw [e]
    exact exec_mem F _ _ o ho hseq.nodup (by
      intro l hl o' ho' e'
      obtain ⟨x, _, rfl⟩ := hreads o ho l hl
      have := (hseq.dst_of_mem ho').1
      rw [e'] at this
      exact hne this)

/-- Rounding up to a whole number of strips. -/
theorem cfor_round (n d : Nat) (hd : 0 < d) : cfor 0 n d = cfor 0 (cdiv n d * d) d := by
  rw [cfor_eq _ _ _ hd, cfor_zero_mul _ _ hd]
  simp

theorem packA_multi_true (A A_p : Loc) (M K m1 k1 m2 m_c k_c m_r : Nat) :
    pack_ob_A_multiple_buf A A_p M K m1 k1 m2 m_c k_c m_r true =
      pack_ob_A_single_buf (A +ₚ ((m1 + m2) * K + k1)) A_p M K m1 m2 m_c k_c m_r := by
  unfold pack_ob_A_multiple_buf pack_ob_A_single_buf
  rw [if_pos rfl]
  have e : ∀ m3 i j, A +ₚ (m1 * K + k1 + m2 * K + m3 * K + i + j * K) =
      A +ₚ ((m1 + m2) * K + k1) +ₚ (m3 * K + i + j * K) := by
    intro m3 i j; rw [off_off]; congr 1; ring
  simp only [e]

theorem packA_multi_false {A A_p : Loc} {M K m1 k1 m2 q k_c m_r : Nat} (hm : 0 < m_r) (h : m1 + m2 + q * m_r ≤ M) :
    pack_ob_A_multiple_buf A A_p M K m1 k1 m2 (q * m_r) k_c m_r false =
      pack_ob_A_multiple_buf A A_p M K m1 k1 m2 (q * m_r) k_c m_r true := by
  unfold pack_ob_A_multiple_buf
  rw [if_pos rfl, if_neg (by simp), loop3_eq _ _ _ _ _ hm, loop3_eq _ _ _ _ _ hm]
  apply flatMap_congr
  intro t ht
  apply flatMap_congr
  intro i _
  apply flatMap_congr
  intro j hj
  have := mulAdd_lt (mem_range.1 ht) (mem_range.1 hj)
  rw [if_neg (by omega)]

/-- **A block of A.** Rows `m1 + m2 ..`, columns `k1 ..` of A, in strips of `m_r` rows, each strip stored column by column;
rows beyond the matrix are zero. Without `pad` the strips must lie within the matrix. -/
theorem C52_packA {s : State α} {M K m1 k1 m2 m_c k_c m_r : Nat} {pad : Bool} (hm : 0 < m_r) (hk : k1 + k_c ≤ K)
    (hpad : pad = false → m1 + m2 + cdiv m_c m_r * m_r ≤ M) (hA : Holds s .A M K)
    (hAp : Room s .Ap 1 (cdiv m_c m_r * m_r * k_c)) :
    Packs F [pack_ob_A_multiple_buf ⟨.A, 0⟩ ⟨.Ap, 0⟩ M K m1 k1 m2 m_c k_c m_r pad] s .Ap (cdiv m_c m_r * m_r * k_c) fun v =>
      ∀ r i, r < cdiv m_c m_r * m_r → i < k_c →
        v (r / m_r * (k_c * m_r) + (i * m_r + r % m_r)) =
          if m1 + m2 + r < M then entry s .A K (m1 + m2 + r) (k1 + i) else F.zero := by
  set q := cdiv m_c m_r with hq
  have e : pack_ob_A_multiple_buf ⟨.A, 0⟩ ⟨.Ap, 0⟩ M K m1 k1 m2 m_c k_c m_r pad =
      pack_ob_A_single_buf ((⟨.A, 0⟩ : Loc) +ₚ ((m1 + m2) * K + k1)) ⟨.Ap, 0⟩ M K m1 m2 (q * m_r) k_c m_r := by
    rw [← packA_multi_true]
    have e1 : pack_ob_A_multiple_buf ⟨.A, 0⟩ ⟨.Ap, 0⟩ M K m1 k1 m2 m_c k_c m_r pad =
        pack_ob_A_multiple_buf ⟨.A, 0⟩ ⟨.Ap, 0⟩ M K m1 k1 m2 (q * m_r) k_c m_r pad := by
      unfold pack_ob_A_multiple_buf; rw [cfor_round m_c m_r hm]
    rw [e1]
    cases pad
    · exact packA_multi_false hm (hpad rfl)
    · rfl
  rw [e]
  have hmem := packObA_mem ((⟨.A, 0⟩ : Loc) +ₚ ((m1 + m2) * K + k1)) ⟨.Ap, 0⟩ M K m1 m2 k_c m_r (q * m_r) hm ⟨q, by ring⟩
  apply packs_of (src := .A) (n := M * K)
  · rw [flatten_singleton]
    exact packObA_seqW _ ⟨.Ap, 0⟩ M K m1 m2 k_c m_r (q * m_r) hm ⟨q, by ring⟩
  · exact hAp
  · simp
  · obtain ⟨⟨n, h1, h2⟩, h3⟩ := hA
    exact ⟨⟨n, h1, by rwa [Nat.one_mul]⟩, by rwa [Nat.one_mul]⟩
  · intro o ho l hl
    rw [flatten_singleton] at ho
    obtain ⟨r, i, hr, hi, rfl⟩ := (hmem o).1 ho
    unfold packAOp at hl
    split at hl
    · simp [Op.reads] at hl
    · rename_i hlt
      simp only [Op.reads, mem_singleton] at hl
      refine ⟨(m1 + m2 + r) * K + (k1 + i), mulAdd_lt (by omega) (by omega), ?_⟩
      rw [hl]
      simp only [Loc.off, Loc.mk.injEq, true_and]
      ring
  · intro mem' hv r i hr hi
    have := hv _ (by rw [flatten_singleton]; exact (hmem _).2 ⟨r, i, hr, hi, rfl⟩)
    rw [packAOp_dst] at this
    have e0 : (⟨.Ap, 0⟩ : Loc) +ₚ aIdx m_r k_c r i = ⟨.Ap, r / m_r * (k_c * m_r) + (i * m_r + r % m_r)⟩ := by
      simp [Loc.off, aIdx]
    rw [e0] at this
    refine this.trans ?_
    unfold packAOp
    by_cases h : m1 + m2 + r < M
    · rw [if_neg (by omega), if_pos h]
      simp only [Op.val, Loc.off, entry]
      congr 2
      ring
    · rw [if_pos (by omega), if_neg h]; rfl

theorem packB_flatten (B B_p : Loc) (N n1 k_c n_c n_r : Nat) (pad : Bool) (hn : 0 < n_r) :
    (pack_ob_B_parallel B B_p N n1 k_c n_c n_r pad).flatten =
      pack_ob_B_single_buf B B_p N n1 k_c (cdiv n_c n_r * n_r) n_r pad := by
  unfold pack_ob_B_parallel pack_ob_B_single_buf
  have e : ∀ t i j, B_p +ₚ (t * n_r * k_c + (0 + (i * n_r + j))) = B_p +ₚ (0 + (t * (k_c * n_r) + (i * n_r + j))) := by
    intro t i j; congr 1; ring
  rw [loop3_eq _ _ _ _ _ hn, loop3_eq _ _ _ _ _ hn, cfor_round n_c n_r hn, cfor_zero_mul _ _ hn]
  split
  · rw [map_map, ← flatMap_def]
    simp only [Function.comp_def, loop2_eq, e]
  · rw [map_map, ← flatMap_def]
    simp only [Function.comp_def, loop2_eq, e]

theorem packB_round (B B_p : Loc) (N n1 k_c n_c n_r : Nat) (pad : Bool) (hn : 0 < n_r) :
    pack_ob_B_single_buf B B_p N n1 k_c n_c n_r pad =
      pack_ob_B_single_buf B B_p N n1 k_c (cdiv n_c n_r * n_r) n_r pad := by
  unfold pack_ob_B_single_buf
  rw [cfor_round n_c n_r hn]

theorem packsB {s : State α} {ts : List (List Op)} {N K n1 k1 k_c n_c n_r : Nat} {pad : Bool} (hn : 0 < n_r)
    (hts : ts.flatten = pack_ob_B_single_buf ⟨.B, k1 * N + n1⟩ ⟨.Bp, 0⟩ N n1 k_c (cdiv n_c n_r * n_r) n_r pad)
    (hk : k1 + k_c ≤ K) (hpad : pad = false → n1 + cdiv n_c n_r * n_r ≤ N) (hB : Holds s .B K N)
    (hBp : Room s .Bp 1 (cdiv n_c n_r * n_r * k_c)) :
    Packs F ts s .Bp (cdiv n_c n_r * n_r * k_c) fun v => ∀ c i, c < cdiv n_c n_r * n_r → i < k_c →
      v (c / n_r * (k_c * n_r) + (i * n_r + c % n_r)) =
        if n1 + c < N then entry s .B N (k1 + i) (n1 + c) else F.zero := by
  generalize cdiv n_c n_r = q at *
  have hmem : ∀ o, o ∈ pack_ob_B_single_buf ⟨.B, k1 * N + n1⟩ ⟨.Bp, 0⟩ N n1 k_c (q * n_r) n_r pad ↔
      ∃ c i, c < q * n_r ∧ i < k_c ∧ o = packBOp ⟨.B, k1 * N + n1⟩ ⟨.Bp, 0⟩ N n1 n_r k_c c i := by
    intro o
    cases pad
    · rw [packObB_mem_nopad _ _ _ _ _ _ _ hn ⟨q, by ring⟩]
      have := hpad rfl
      constructor <;>
      · rintro ⟨c, i, hc, hi, rfl⟩
        refine ⟨c, i, hc, hi, ?_⟩
        unfold packBOp
        rw [if_neg (by omega)]
    · exact packObB_mem_pad _ _ _ _ _ _ _ hn ⟨q, by ring⟩ o
  apply packs_of (src := .B) (n := K * N)
  · rw [hts]
    exact packObB_seqW _ ⟨.Bp, 0⟩ N n1 k_c (q * n_r) n_r pad hn ⟨q, by ring⟩
  · exact hBp
  · simp
  · obtain ⟨⟨n, h1, h2⟩, h3⟩ := hB
    exact ⟨⟨n, h1, by rwa [Nat.one_mul]⟩, by rwa [Nat.one_mul]⟩
  · intro o ho l hl
    rw [hts] at ho
    obtain ⟨c, i, hc, hi, rfl⟩ := (hmem o).1 ho
    unfold packBOp at hl
    split at hl
    · simp [Op.reads] at hl
    · rename_i hlt
      simp only [Op.reads, mem_singleton] at hl
      refine ⟨(k1 + i) * N + (n1 + c), mulAdd_lt (by omega) (by omega), ?_⟩
      rw [hl]
      simp only [Loc.off, Loc.mk.injEq, true_and]
      ring
  · intro mem' hv c i hc hi
    have := hv _ (by rw [hts]; exact (hmem _).2 ⟨c, i, hc, hi, rfl⟩)
    rw [packBOp_dst] at this
    have e0 : (⟨.Bp, 0⟩ : Loc) +ₚ bIdx n_r k_c c i = ⟨.Bp, c / n_r * (k_c * n_r) + (i * n_r + c % n_r)⟩ := by
      simp [Loc.off, bIdx]
    rw [e0] at this
    refine this.trans ?_
    unfold packBOp
    by_cases h : n1 + c < N
    · rw [if_neg (by omega), if_pos h]
      simp only [Op.val, Loc.off, entry]
      congr 2
      ring
    · rw [if_pos (by omega), if_neg h]; rfl

/-- **A block of B, in parallel.** Columns `n1 ..`, rows `k1 ..` of B, in strips of `n_r` columns, each stored row by row;
columns beyond the matrix are zero. No two threads conflict. Without `pad_n` the strips must lie within the matrix. -/
theorem C52_packB_parallel {s : State α} {N K n1 k1 k_c n_c n_r : Nat} {pad : Bool} (hn : 0 < n_r) (hk : k1 + k_c ≤ K)
    (hpad : pad = false → n1 + cdiv n_c n_r * n_r ≤ N) (hB : Holds s .B K N) (hBp : Room s .Bp 1 (cdiv n_c n_r * n_r * k_c)) :
    Packs F (pack_ob_B_parallel ⟨.B, k1 * N + n1⟩ ⟨.Bp, 0⟩ N n1 k_c n_c n_r pad) s .Bp (cdiv n_c n_r * n_r * k_c) fun v =>
      ∀ c i, c < cdiv n_c n_r * n_r → i < k_c → v (c / n_r * (k_c * n_r) + (i * n_r + c % n_r)) =
        if n1 + c < N then entry s .B N (k1 + i) (n1 + c) else F.zero :=
  packsB hn (packB_flatten _ _ _ _ _ _ _ _ hn) hk hpad hB hBp

/-- **A block of B, in sequence:** the same layout. -/
theorem C52_packB {s : State α} {N K n1 k1 k_c n_c n_r : Nat} {pad : Bool} (hn : 0 < n_r) (hk : k1 + k_c ≤ K)
    (hpad : pad = false → n1 + cdiv n_c n_r * n_r ≤ N) (hB : Holds s .B K N) (hBp : Room s .Bp 1 (cdiv n_c n_r * n_r * k_c)) :
    Packs F [pack_ob_B_single_buf ⟨.B, k1 * N + n1⟩ ⟨.Bp, 0⟩ N n1 k_c n_c n_r pad] s .Bp (cdiv n_c n_r * n_r * k_c) fun v =>
      ∀ c i, c < cdiv n_c n_r * n_r → i < k_c → v (c / n_r * (k_c * n_r) + (i * n_r + c % n_r)) =
        if n1 + c < N then entry s .B N (k1 + i) (n1 + c) else F.zero :=
  packsB hn (by rw [flatten_singleton]; exact packB_round _ _ _ _ _ _ _ _ hn) hk hpad hB hBp

theorem packC_multi (C C_p : Loc) (M N m1 n1 m2 m_c n_c m_r n_r : Nat) (pad : Bool) (hm : 0 < m_r) (hn : 0 < n_r) :
    pack_ob_C_multiple_buf C C_p M N m1 n1 m2 m_c n_c m_r n_r pad =
      pack_ob_C_single_buf (C +ₚ ((m1 + m2) * N + n1)) C_p M N m1 n1 m2 (cdiv m_c m_r * m_r) (cdiv n_c n_r * n_r) m_r n_r
        pad false := by
  unfold pack_ob_C_multiple_buf pack_ob_C_single_buf
  have e : ∀ n2 m3 i j, C +ₚ (n1 + m1 * N + m2 * N + n2 + m3 * N + i * N + j) =
      C +ₚ ((m1 + m2) * N + n1) +ₚ (n2 + m3 * N + i * N + j) := by
    intro n2 m3 i j; rw [off_off]; congr 1; ring
  simp only [e, Bool.or_false, ← cfor_round _ _ hm, ← cfor_round _ _ hn]

theorem unpackC_multi (C C_p : Loc) (M N m1 n1 m2 m_c n_c m_r n_r : Nat) (hm : 0 < m_r) (hn : 0 < n_r) :
    unpack_ob_C_multiple_buf C C_p M N m1 n1 m2 m_c n_c m_r n_r =
      unpack_ob_C_single_buf (C +ₚ ((m1 + m2) * N + n1)) C_p M N m1 n1 m2 (cdiv m_c m_r * m_r) (cdiv n_c n_r * n_r) m_r n_r := by
  unfold unpack_ob_C_multiple_buf unpack_ob_C_single_buf
  have e : ∀ n2 m3 i j, C +ₚ (n1 + m1 * N + m2 * N + n2 + m3 * N + i * N + j) =
      C +ₚ ((m1 + m2) * N + n1) +ₚ (n2 + m3 * N + i * N + j) := by
    intro n2 m3 i j; rw [off_off]; congr 1; ring
  simp only [e, ← cfor_round _ _ hm, ← cfor_round _ _ hn]

/-- **A block of C.** Rows `m1 + m2 ..`, columns `n1 ..` of C in register tiles, row by row within the tile, the tiles of a
column strip below each other; what lies beyond the matrix is zero. Without `pad` the tiles must lie within the matrix. -/
theorem C52_packC {s : State α} {M N m1 n1 m2 m_c n_c m_r n_r : Nat} {pad : Bool} (hm : 0 < m_r) (hn : 0 < n_r)
    (hpad : pad = false → m1 + m2 + cdiv m_c m_r * m_r ≤ M ∧ n1 + cdiv n_c n_r * n_r ≤ N) (hC : Holds s .C M N)
    (hCp : Room s .Cp 1 (cdiv m_c m_r * m_r * (cdiv n_c n_r * n_r))) :
    Packs F [pack_ob_C_multiple_buf ⟨.C, 0⟩ ⟨.Cp, 0⟩ M N m1 n1 m2 m_c n_c m_r n_r pad] s .Cp
      (cdiv m_c m_r * m_r * (cdiv n_c n_r * n_r)) fun v => ∀ r c, r < cdiv m_c m_r * m_r → c < cdiv n_c n_r * n_r →
        v (c / n_r * (cdiv m_c m_r * m_r * n_r) + (r / m_r * (m_r * n_r) + (r % m_r * n_r + c % n_r))) =
          if m1 + m2 + r < M ∧ n1 + c < N then entry s .C N (m1 + m2 + r) (n1 + c) else F.zero := by
  rw [packC_multi _ _ _ _ _ _ _ _ _ _ _ _ hm hn]
  generalize cdiv m_c m_r = q at *
  generalize cdiv n_c n_r = q' at *
  have hmem := packObC_mem ((⟨.C, 0⟩ : Loc) +ₚ ((m1 + m2) * N + n1)) ⟨.Cp, 0⟩ M N m1 n1 m2 (q * m_r) (q' * n_r) m_r n_r
    pad false hm hn ⟨q, by ring⟩ ⟨q', by ring⟩ (by simpa using hpad)
  apply packs_of (src := .C) (n := M * N)
  · rw [flatten_singleton]
    exact packObC_seqW _ ⟨.Cp, 0⟩ M N m1 n1 m2 (q * m_r) (q' * n_r) m_r n_r pad false hm hn ⟨q, by ring⟩ ⟨q', by ring⟩
  · exact hCp
  · simp
  · obtain ⟨⟨n, h1, h2⟩, h3⟩ := hC
    exact ⟨⟨n, h1, by rwa [Nat.one_mul]⟩, by rwa [Nat.one_mul]⟩
  · intro o ho l hl
    rw [flatten_singleton] at ho
    obtain ⟨r, c, hr, hc, rfl⟩ := (hmem o).1 ho
    unfold packCOp at hl
    split at hl
    · simp [Op.reads] at hl
    · rename_i hlt
      simp only [Op.reads, mem_singleton] at hl
      refine ⟨(m1 + m2 + r) * N + (n1 + c), mulAdd_lt (by omega) (by omega), ?_⟩
      rw [hl]
      simp only [Loc.off, Loc.mk.injEq, true_and]
      ring
  · intro mem' hv r c hr hc
    have := hv _ (by rw [flatten_singleton]; exact (hmem _).2 ⟨r, c, hr, hc, rfl⟩)
    rw [packCOp_dst] at this
    have e0 : (⟨.Cp, 0⟩ : Loc) +ₚ cIdx m_r n_r (q * m_r) r c =
        ⟨.Cp, c / n_r * (q * m_r * n_r) + (r / m_r * (m_r * n_r) + (r % m_r * n_r + c % n_r))⟩ := by
      simp [Loc.off, cIdx]
    rw [e0] at this
    refine this.trans ?_
    unfold packCOp
    by_cases h : m1 + m2 + r < M ∧ n1 + c < N
    · rw [if_neg (by omega), if_pos h]
      simp only [Op.val, Loc.off, entry]
      congr 2
      ring
    · rw [if_pos (by omega), if_neg h]; rfl

/-- **Unpacking a block of C.** The elements of the block that lie in the matrix get the packed values; nothing else changes. -/
theorem C52_unpackC {s : State α} {M N m1 n1 m2 m_c n_c m_r n_r : Nat} (hm : 0 < m_r) (hn : 0 < n_r) (hC : Room s .C M N)
    (hCp : Holds s .Cp 1 (cdiv m_c m_r * m_r * (cdiv n_c n_r * n_r))) :
    let u := unpack_ob_C_multiple_buf ⟨.C, 0⟩ ⟨.Cp, 0⟩ M N m1 n1 m2 m_c n_c m_r n_r
    (∃ s', Exec F [.par [u]] s (.ok s')) ∧ ∀ out, Exec F [.par [u]] s out → ∃ s', out = .ok s' ∧ s'.size = s.size ∧
      (∀ l : Loc, l.buf ≠ .C → s'.mem l = s.mem l ∧ s'.init l = s.init l) ∧
      ∀ i j, i < M → j < N → s'.mem ⟨.C, i * N + j⟩ =
        if m1 + m2 ≤ i ∧ i < m1 + m2 + cdiv m_c m_r * m_r ∧ n1 ≤ j ∧ j < n1 + cdiv n_c n_r * n_r then
          s.mem ⟨.Cp, (j - n1) / n_r * (cdiv m_c m_r * m_r * n_r) + ((i - (m1 + m2)) / m_r * (m_r * n_r) +
            ((i - (m1 + m2)) % m_r * n_r + (j - n1) % n_r))⟩
        else s.mem ⟨.C, i * N + j⟩ := by
  intro u
  have hu : u = unpack_ob_C_single_buf ((⟨.C, 0⟩ : Loc) +ₚ ((m1 + m2) * N + n1)) ⟨.Cp, 0⟩ M N m1 n1 m2 (cdiv m_c m_r * m_r)
    (cdiv n_c n_r * n_r) m_r n_r := unpackC_multi _ _ _ _ _ _ _ _ _ _ _ hm hn
  generalize cdiv m_c m_r = q at *
  generalize cdiv n_c n_r = q' at *
  have hmem : ∀ o, o ∈ u ↔ ∃ r c, r < q * m_r ∧ c < q' * n_r ∧ n1 + c < N ∧ m1 + m2 + r < M ∧
      o = Op.copy ⟨.C, (m1 + m2 + r) * N + (n1 + c)⟩ ⟨.Cp, cIdx m_r n_r (q * m_r) r c⟩ := by
    intro o
    rw [hu, unpackC_mem _ _ _ _ _ _ _ _ _ _ _ hm hn ⟨q, by ring⟩ ⟨q', by ring⟩]
    have e : ∀ r c, (⟨.C, 0⟩ : Loc) +ₚ ((m1 + m2) * N + n1) +ₚ (r * N + c) = ⟨.C, (m1 + m2 + r) * N + (n1 + c)⟩ := by
      intro r c; simp only [Loc.off, Loc.mk.injEq, true_and]; ring
    have e' : ∀ x, (⟨.Cp, 0⟩ : Loc) +ₚ x = ⟨.Cp, x⟩ := by intro x; simp [Loc.off]
    simp only [e, e']
  obtain ⟨nc, hnc, hcle⟩ := hC
  obtain ⟨⟨np, hnp, hple⟩, hin⟩ := hCp
  rw [Nat.one_mul] at hple hin
  have hrun := run_phases (F := F) (ph := [[u]]) (s := s) (by
    intro ts hts
    rw [mem_singleton.1 hts]
    exact pairwise_singleton _ _) (by
    intro o ho
    have ho : o ∈ u := by simpa [phaseOps] using ho
    obtain ⟨r, c, hr, hc, h1, h2, rfl⟩ := (hmem o).1 ho
    refine ⟨inB_of hnc (lt_of_lt_of_le (mulAdd_lt h2 h1) hcle), ?_⟩
    intro l hl
    simp only [Op.reads, mem_singleton] at hl
    have := cIdx_lt hr hc
    rw [hl]
    exact ⟨inB_of hnp (lt_of_lt_of_le this hple), hin _ this⟩)
  have e : phaseOps [[u]] = u := by simp [phaseOps]
  refine ⟨hrun.1, fun out ho => ⟨_, hrun.2 out ho, rfl, ?_, ?_⟩⟩
  · intro l hl
    rw [e]
    have hnot : ∀ o ∈ u, o.dst ≠ l := fun o ho e => hl (by
      obtain ⟨r, c, hr, hc, h1, h2, rfl⟩ := (hmem o).1 ho
      rw [← e]; rfl)
    refine ⟨exec_frame F _ _ _ hnot, ?_⟩
    show initAfter u s.init l = s.init l
    unfold initAfter
    rw [show (u.any fun o => decide (o.dst = l)) = false by
      rw [any_eq_false]; intro o ho; simpa using hnot o ho]
    simp
  · intro i j hi hj
    show exec F (phaseOps [[u]]) s.mem _ = _
    rw [e]
    split
    · rename_i h
      refine exec_const F u s.mem _ _ ⟨_, (hmem _).2 ⟨i - (m1 + m2), j - n1, by omega, by omega, by omega, by omega, rfl⟩, ?_⟩ ?_
      · simp only [Op.dst, Loc.mk.injEq, true_and]
        rw [Nat.add_sub_cancel' h.1, Nat.add_sub_cancel' h.2.2.1]
      · intro o ho he
        obtain ⟨r, c, hr, hc, h1, h2, rfl⟩ := (hmem o).1 ho
        simp only [Op.dst, Loc.mk.injEq, true_and] at he
        obtain ⟨e1, e2⟩ := mulAdd_inj h1 hj he
        refine ⟨?_, ?_⟩
        · intro l hl o' ho' he'
          obtain ⟨r', c', hr', hc', h1', h2', rfl⟩ := (hmem o').1 ho'
          simp only [Op.reads, mem_singleton] at hl
          rw [hl] at he'
          simp [Op.dst] at he'
        · have e3 : i - (m1 + m2) = r := by omega
          have e4 : j - n1 = c := by omega
          rw [e3, e4]
          rfl
    · rename_i h
      apply exec_frame
      intro o ho he
      obtain ⟨r, c, hr, hc, h1, h2, rfl⟩ := (hmem o).1 ho
      simp only [Op.dst, Loc.mk.injEq, true_and] at he
      obtain ⟨e1, e2⟩ := mulAdd_inj h1 hj he
      exact h (by omega)

/-- Packing a block of C and unpacking it again restores the matrix, whatever happened to it in between. -/
theorem C52_roundtrip {s : State α} {M N m1 n1 m2 m_c n_c m_r n_r : Nat} (hm : 0 < m_r) (hn : 0 < n_r) (hC : Holds s .C M N)
    (hCp : Room s .Cp 1 (cdiv m_c m_r * m_r * (cdiv n_c n_r * n_r))) :
    ∀ out, Exec F [.par [pack_ob_C_multiple_buf ⟨.C, 0⟩ ⟨.Cp, 0⟩ M N m1 n1 m2 m_c n_c m_r n_r true]] s out →
      ∃ s1, out = .ok s1 ∧ ∀ s2 : State α, s2.size = s1.size →
        (∀ x, s2.mem ⟨.Cp, x⟩ = s1.mem ⟨.Cp, x⟩ ∧ s2.init ⟨.Cp, x⟩ = s1.init ⟨.Cp, x⟩) →
        ∀ out', Exec F [.par [unpack_ob_C_multiple_buf ⟨.C, 0⟩ ⟨.Cp, 0⟩ M N m1 n1 m2 m_c n_c m_r n_r]] s2 out' →
          ∃ s3, out' = .ok s3 ∧ ∀ i j, m1 + m2 ≤ i → i < m1 + m2 + m_c → i < M → n1 ≤ j → j < n1 + n_c → j < N →
            s3.mem ⟨.C, i * N + j⟩ = s.mem ⟨.C, i * N + j⟩ := by
  intro out ho
  obtain ⟨s1, e1, hsz, -, hinit, hV⟩ := (C52_packC (F := F) (m1 := m1) (n1 := n1) (m2 := m2) (pad := true) hm hn (by simp) hC hCp).2 out ho
  refine ⟨s1, e1, fun s2 hs2 hcp out' ho' => ?_⟩
  obtain ⟨nc, hnc, hcle⟩ := hC.1
  obtain ⟨np, hnp, hple⟩ := hCp
  obtain ⟨s3, e3, -, -, hU⟩ := (C52_unpackC (F := F) (s := s2) (m1 := m1) (n1 := n1) (m2 := m2) (m_c := m_c) (n_c := n_c) hm hn
    ⟨nc, by rw [hs2, hsz]; exact hnc, hcle⟩ ⟨⟨np, by rw [hs2, hsz]; exact hnp, hple⟩, fun x hx => by
      rw [(hcp x).2]; exact hinit x (by rwa [Nat.one_mul] at hx)⟩).2 out' ho'
  refine ⟨s3, e3, fun i j h1 h2 h3 h4 h5 h6 => ?_⟩
  have r1 := cdiv_mul_ge m_c m_r hm
  have r2 := cdiv_mul_ge n_c n_r hn
  rw [hU i j h3 h6, if_pos (by omega), (hcp _).1]
  have := hV (i - (m1 + m2)) (j - n1) (by omega) (by omega)
  refine this.trans ?_
  rw [if_pos (by omega), Nat.add_sub_cancel' h1, Nat.add_sub_cancel' h4]
  rfl

/-- Without `pad` the condition on the strips is necessary: if A has no more than its `M*K` elements and the strips reach
below the matrix, no execution ends normally. -/
theorem C52_packA_needs_pad {s : State α} {M K m1 k1 m2 m_c k_c m_r : Nat} (hm : 0 < m_r) (hk0 : 0 < k_c)
    (h : M < m1 + m2 + cdiv m_c m_r * m_r) (hq : 0 < m_c) (hA : s.size .A = some (M * K)) :
    ∀ out, Exec F [.par [pack_ob_A_multiple_buf ⟨.A, 0⟩ ⟨.Ap, 0⟩ M K m1 k1 m2 m_c k_c m_r false]] s out → out = .ub := by
  intro out ho
  have hnx := exec_phases_ne_exit (F := F) (ph := [[pack_ob_A_multiple_buf ⟨.A, 0⟩ ⟨.Ap, 0⟩ M K m1 k1 m2 m_c k_c m_r false]]) ho
  match out, ho, hnx with
  | .ub, _, _ => rfl
  | .exit, _, hnx => exact absurd rfl hnx
  | .ok s', ho, _ =>
    exfalso
    have hin := (phases_ok_inv (F := F)
      (ph := [[pack_ob_A_multiple_buf ⟨.A, 0⟩ ⟨.Ap, 0⟩ M K m1 k1 m2 m_c k_c m_r false]]) ho).2
    have hqp : 0 < cdiv m_c m_r := cdiv_pos hq hm
    set q := cdiv m_c m_r with hqd
    have hmem : Op.copy (⟨.Ap, 0⟩ +ₚ (0 + ((q - 1) * (k_c * m_r) + (0 * m_r + (m_r - 1)))))
        ((⟨.A, 0⟩ : Loc) +ₚ (m1 * K + k1 + m2 * K + (q - 1) * m_r * K + 0 + (m_r - 1) * K)) ∈
        pack_ob_A_multiple_buf ⟨.A, 0⟩ ⟨.Ap, 0⟩ M K m1 k1 m2 m_c k_c m_r false := by
      unfold pack_ob_A_multiple_buf
      rw [if_neg (by simp), cfor_round m_c m_r hm, loop3_eq _ _ _ _ _ hm]
      simp only [mem_flatMap, mem_range, mem_singleton]
      exact ⟨q - 1, by omega, 0, hk0, m_r - 1, by omega, rfl⟩
    have := (hin _ (by simpa [phaseOps] using hmem)).2 _ (List.mem_singleton.2 rfl)
    unfold InB at this
    simp only [Loc.off] at this
    obtain ⟨n, h1, h2⟩ := this
    rw [hA] at h1
    cases h1
    have e : (q - 1) * m_r + (m_r - 1) + 1 = q * m_r := by
      obtain ⟨t, ht⟩ : ∃ t, q = t + 1 := ⟨q - 1, by omega⟩
      rw [ht, Nat.add_sub_cancel, Nat.add_mul, Nat.one_mul]
      omega
    have h3 : M * K ≤ (m1 + m2 + ((q - 1) * m_r + (m_r - 1))) * K := Nat.mul_le_mul_right K (by omega)
    have h4 : (m1 + m2 + ((q - 1) * m_r + (m_r - 1))) * K =
      m1 * K + m2 * K + (q - 1) * m_r * K + (m_r - 1) * K := by ring
    omega

theorem test1_eq (A A_p : Loc) (M K : Nat) : (pack_test1 A A_p M K).flatten =
    (range (cdiv M 6)).flatMap fun t => (range K).flatMap fun i => (range 6).flatMap fun j =>
      [Op.copy (A_p +ₚ (t * (K * 6) + (i * 6 + j))) (A +ₚ (t * 6 * K + (i + j * K)))] := by
  unfold pack_test1 pack_A_mr_x_kc
  rw [cfor_round M 6 (by omega), cfor_zero_mul _ _ (by omega), map_map, ← flatMap_def]
  simp only [Function.comp_def, loop2_eq, off_off]
  have e : ∀ t i j : Nat, t * 6 * K + (0 + (i * 6 + j)) = t * (K * 6) + (i * 6 + j) := by intro t i j; ring
  simp only [e]

/-- **`pack_test1`** packs all of A in strips of six rows if six divides M. -/
theorem C52_test1 {s : State α} {M K : Nat} (h6 : 6 ∣ M) (hA : Holds s .A M K) (hAp : Room s .Ap M K) :
    Packs F (pack_test1 ⟨.A, 0⟩ ⟨.Ap, 0⟩ M K) s .Ap (M * K) fun v => ∀ r i, r < M → i < K →
      v (r / 6 * (K * 6) + (i * 6 + r % 6)) = entry s .A K r i := by
  obtain ⟨q, rfl⟩ := h6
  rw [Nat.mul_comm 6 q] at *
  have hf := test1_eq ⟨.A, 0⟩ ⟨.Ap, 0⟩ (q * 6) K
  rw [cdiv_mul_self q 6 (by omega)] at hf
  have hmem : ∀ o, o ∈ (pack_test1 ⟨.A, 0⟩ ⟨.Ap, 0⟩ (q * 6) K).flatten ↔ ∃ r i, r < q * 6 ∧ i < K ∧
      o = Op.copy ⟨.Ap, r / 6 * (K * 6) + (i * 6 + r % 6)⟩ ⟨.A, r * K + i⟩ := by
    intro o
    rw [hf]
    apply mem3
    intro t i j _ _ hj
    rw [mulAdd_div hj, mulAdd_mod hj]
    simp only [Loc.off, Nat.zero_add]
    congr 2
    ring
  apply packs_of (src := .A) (n := q * 6 * K)
  · rw [hf]
    have := seqW3 (b := .Ap) (base := 0) (q := q) (k := K) (r := 6)
      (f := fun t i j => Op.copy ((⟨.Ap, 0⟩ : Loc) +ₚ (t * (K * 6) + (i * 6 + j))) ((⟨.A, 0⟩ : Loc) +ₚ (t * 6 * K + (i + j * K))))
      (by intro t i j _; simp [Op.dst, Loc.off])
    have e : q * (K * 6) = q * 6 * K := by ring
    rwa [e] at this
  · obtain ⟨n, h1, h2⟩ := hAp
    exact ⟨n, h1, by rwa [Nat.one_mul]⟩
  · simp
  · obtain ⟨⟨n, h1, h2⟩, h3⟩ := hA
    exact ⟨⟨n, h1, by rwa [Nat.one_mul]⟩, by rwa [Nat.one_mul]⟩
  · intro o ho l hl
    obtain ⟨r, i, hr, hi, rfl⟩ := (hmem o).1 ho
    simp only [Op.reads, mem_singleton] at hl
    exact ⟨_, mulAdd_lt hr hi, hl⟩
  · intro mem' hv r i hr hi
    exact hv _ ((hmem _).2 ⟨r, i, hr, hi, rfl⟩)

/-- If six does not divide M, `pack_test1` leaves an A of `M*K` elements, in every execution. -/
theorem C52_test1_needs_six {s : State α} {M K : Nat} (h6 : ¬ 6 ∣ M) (hK : 0 < K) (hA : s.size .A = some (M * K)) :
    ∀ out, Exec F [.par (pack_test1 ⟨.A, 0⟩ ⟨.Ap, 0⟩ M K)] s out → out = .ub := by
  intro out ho
  have hnx := exec_phases_ne_exit (F := F) (ph := [pack_test1 ⟨.A, 0⟩ ⟨.Ap, 0⟩ M K]) ho
  match out, ho, hnx with
  | .ub, _, _ => rfl
  | .exit, _, hnx => exact absurd rfl hnx
  | .ok s', ho, _ =>
    exfalso
    have hin := (phases_ok_inv (F := F) (ph := [pack_test1 ⟨.A, 0⟩ ⟨.Ap, 0⟩ M K]) ho).2
    have h1 : cdiv M 6 = M / 6 + 1 := by apply cdiv_eq_of <;> omega
    have hmem : Op.copy (⟨.Ap, 0⟩ +ₚ (M / 6 * (K * 6) + (0 * 6 + 5)))
        ((⟨.A, 0⟩ : Loc) +ₚ (M / 6 * 6 * K + (0 + 5 * K))) ∈ (pack_test1 ⟨.A, 0⟩ ⟨.Ap, 0⟩ M K).flatten := by
      rw [test1_eq, h1]
      simp only [mem_flatMap, mem_range, mem_singleton]
      exact ⟨M / 6, by omega, 0, hK, 5, by omega, rfl⟩
    have := (hin _ (by simpa [phaseOps] using hmem)).2 _ (List.mem_singleton.2 rfl)
    unfold InB at this
    simp only [Loc.off] at this
    obtain ⟨n, h1, h2⟩ := this
    rw [hA] at h1
    cases h1
    have h3 : M * K ≤ (M / 6 * 6 + 5) * K := Nat.mul_le_mul_right K (by omega)
    have h4 : (M / 6 * 6 + 5) * K = M / 6 * 6 * K + 5 * K := by ring
    omega

/-! ### Concrete cases -/

example := C52_packA (F := exact Int) (s := allFull 1000 fun i => (i : Int)) (M := 10) (K := 7) (m1 := 6) (k1 := 2) (m2 := 0)
  (m_c := 6) (k_c := 5) (m_r := 6) (pad := true) (by norm_num) (by norm_num) (by simp) (allFull_holds (by norm_num))
  (allFull_room (by decide))
example := C52_packB_parallel (F := exact Int) (s := allFull 1000 fun i => (i : Int)) (N := 37) (K := 7) (n1 := 16) (k1 := 2)
  (k_c := 5) (n_c := 24) (n_r := 16) (pad := true) (by norm_num) (by norm_num) (by simp) (allFull_holds (by norm_num))
  (allFull_room (by decide))
example := C52_packB (F := exact Int) (s := allFull 1000 fun i => (i : Int)) (N := 48) (K := 7) (n1 := 16) (k1 := 2)
  (k_c := 5) (n_c := 24) (n_r := 16) (pad := false) (by norm_num) (by norm_num) (by decide) (allFull_holds (by norm_num))
  (allFull_room (by decide))
example := C52_packC (F := exact Int) (s := allFull 1000 fun i => (i : Int)) (M := 10) (N := 20) (m1 := 6) (n1 := 16) (m2 := 0)
  (m_c := 6) (n_c := 16) (m_r := 6) (n_r := 16) (pad := true) (by norm_num) (by norm_num) (by simp) (allFull_holds (by norm_num))
  (allFull_room (by decide))
example := C52_unpackC (F := exact Int) (s := allFull 1000 fun i => (i : Int)) (M := 10) (N := 20) (m1 := 6) (n1 := 16) (m2 := 0)
  (m_c := 6) (n_c := 16) (m_r := 6) (n_r := 16) (by norm_num) (by norm_num) (allFull_room (by norm_num))
  (allFull_holds (by decide))
example := C52_roundtrip (F := exact Int) (s := allFull 1000 fun i => (i : Int)) (M := 10) (N := 20) (m1 := 6) (n1 := 16)
  (m2 := 0) (m_c := 6) (n_c := 16) (m_r := 6) (n_r := 16) (by norm_num) (by norm_num) (allFull_holds (by norm_num))
  (allFull_room (by decide))
example := C52_packA_needs_pad (F := exact Int) (s := allFull 70 fun i => (i : Int)) (M := 10) (K := 7) (m1 := 6) (k1 := 2)
  (m2 := 0) (m_c := 6) (k_c := 5) (m_r := 6) (by norm_num) (by norm_num) (by decide) (by norm_num) rfl
example := C52_test1 (F := exact Int) (s := allFull 1000 fun i => (i : Int)) (M := 12) (K := 7) (by decide)
  (allFull_holds (by norm_num)) (allFull_room (by norm_num))
example := C52_test1_needs_six (F := exact Int) (s := allFull 91 fun i => (i : Int)) (M := 13) (K := 7) (by decide) (by norm_num) rfl

end Cake
