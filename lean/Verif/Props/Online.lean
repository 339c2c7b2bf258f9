/-
Properties of `cake_sgemm_online`: C04, and its share of C07, C08, C11 and C34; C44.
-/
import Verif.Proofs.Readable
import Verif.Props.KFirst
import Verif.Proofs.SgemmMN
import Verif.Model.SharedVar

namespace Cake
open List

section
variable {α : Type _} (F : Arith α) (nz : α → Bool) (cx : Cntx)
variable {M N K p m_c k_c n_c : Nat}

/-- `cake_sgemm_online` on plain operands. -/
abbrev callO (cx : Cntx) (M N K p : Nat) (packedA packedB : Bool) (alpha beta : α) (m_c k_c n_c : Nat) :
    Option Prog :=
  cake_sgemm_online cx ⟨.A, 0⟩ ⟨.B, 0⟩ ⟨.C, 0⟩ M N K p packedA packedB alpha beta m_c k_c n_c

theorem sgemm_online_call (h : TileOK p cx.m_r cx.n_r m_c k_c n_c) (hk : cx.kmap.Fits cx.m_r cx.n_r)
    (packedA packedB : Bool) (alpha beta : α) {s : State α} (hs : CallOK s M N K)
    (hsl : Slack s M N K cx.m_r cx.n_r) :
    Computes F (callO cx M N K p packedA packedB alpha beta m_c k_c n_c) s
      (Env s s.size (cX M N) (fun m i => ∀ r c, r < M → c < N →
        i ⟨.C, r * N + c⟩ = true ∧ m ⟨.C, r * N + c⟩ =
          dotFrom F (entry s .A K r) (fun k => entry s .B N k c) (orderKMN K p m_c k_c n_c r c) F.zero)) :=
  (sgemm_online_triple (S := True) h rfl rfl hk hs
    (fun _ => hsl.readable h.m_r_pos h.n_r_pos (h.m_dvd.mul_left p) h.n_dvd)
    packedA packedB alpha beta rfl).computes rfl trivial

/-- **C04.** If the elements that packing reads beyond A and B are readable, the call puts into each `C[r][c]`
the dot product of row `r` of A and column `c` of B, starting from 0, whatever those elements contain.
(Whether they are readable is C11.) -/
theorem C04_online_product (h : TileOK p cx.m_r cx.n_r m_c k_c n_c) (hk : cx.kmap.Fits cx.m_r cx.n_r)
    (packedA packedB : Bool) (alpha beta : α) {s : State α} (hs : CallOK s M N K)
    (hsl : Slack s M N K cx.m_r cx.n_r) :
    Computes F (callO cx M N K p packedA packedB alpha beta m_c k_c n_c) s
      (fun s' => IsProduct F s s' M N K (fun _ _ => F.zero)) :=
  (sgemm_online_call F cx h hk packedA packedB alpha beta hs hsl).mono fun _ hs' r c hr hc =>
    ⟨(hs'.fact r c hr hc).1, _, orderKMN_perm h.k_c_pos r c, (hs'.fact r c hr hc).2⟩

/-- A case with 5 ragged rows, 11 ragged columns, several blocks in each direction and arbitrary contents
behind the operands. -/
example (lane : Nat → Int) :
    Computes (exact Int) (callO haswell 79 69 11 3 false false 1 0 12 5 32) (padded 79 69 11 55 11 lane)
      (fun s' => IsProduct (exact Int) (padded 79 69 11 55 11 lane) s' 79 69 11 (fun _ _ => 0)) :=
  C04_online_product (exact Int) haswell demo_tile haswell_fits false false 1 0 (padded_ok ..)
    (padded_slack lane (by decide) (by decide))

/-- **C04, exact arithmetic.** Over a commutative semiring the result is the matrix product. -/
theorem C04_online_exact {R : Type _} [CommSemiring R]
    (h : TileOK p cx.m_r cx.n_r m_c k_c n_c) (hk : cx.kmap.Fits cx.m_r cx.n_r)
    (packedA packedB : Bool) (alpha beta : R) {s : State R} (hs : CallOK s M N K)
    (hsl : Slack s M N K cx.m_r cx.n_r) :
    Computes (exact R) (callO cx M N K p packedA packedB alpha beta m_c k_c n_c) s (fun s' =>
      ∀ r c, r < M → c < N →
        entry s' .C N r c = ∑ k ∈ Finset.range K, entry s .A K r k * entry s .B N k c) :=
  (C04_online_product (exact R) cx h hk packedA packedB alpha beta hs hsl).mono fun _ hs' r c hr hc => by
    rw [hs'.exact hr hc]; exact zero_add _

example := C04_online_exact (R := Int) armv8 demo_tile_arm armv8_fits false false 1 0
  (padded_ok 43 37 11 55 11 fun _ => 7) (padded_slack _ (by decide) (by decide))

/-- **C04, without any assumption on the memory behind the operands.** Any execution that ends normally has
the product in C. -/
theorem C04_online_if_ends (h : TileOK p cx.m_r cx.n_r m_c k_c n_c) (hk : cx.kmap.Fits cx.m_r cx.n_r)
    (packedA packedB : Bool) (alpha beta : α) {s : State α} (hs : CallOK s M N K) {prog : Prog}
    (hp : callO cx M N K p packedA packedB alpha beta m_c k_c n_c = some prog)
    {s' : State α} (he : Exec F prog s (.ok s')) :
    IsProduct F s s' M N K (fun _ _ => F.zero) ∧ OnlyC s s' M N := by
  have e := (sgemm_online_triple (S := False) (F := F) h rfl rfl hk hs (fun h => h.elim)
    packedA packedB alpha beta hp).never he
  exact ⟨fun r c hr hc => ⟨(e.fact r c hr hc).1, _, orderKMN_perm h.k_c_pos r c, (e.fact r c hr hc).2⟩,
    ⟨e.keep, e.size⟩⟩

/-- **C04, bit for bit.** The result is the one of the K-first `cake_sgemm` with the same tile sizes: the two
calls add the products in the same order. -/
theorem C04_online_eq_kfirst (h : TileOK p cx.m_r cx.n_r m_c k_c n_c) (hk : cx.kmap.Fits cx.m_r cx.n_r)
    (packedA packedB : Bool) (alpha beta alpha' beta' : α) {s : State α} (hs : CallOK s M N K)
    (hsl : Slack s M N K cx.m_r cx.n_r) {plain : Prog}
    (hplain : callK cx nz M N K p alpha' beta' m_c k_c n_c = some plain) :
    Computes F (callO cx M N K p packedA packedB alpha beta m_c k_c n_c) s (fun s1 =>
      ∀ s2, Exec F plain s (.ok s2) → ∀ r c, r < M → c < N → entry s1 .C N r c = entry s2 .C N r c) :=
  (sgemm_online_call F cx h hk packedA packedB alpha beta hs hsl).mono fun s1 e1 s2 h2 r c hr hc => by
    have e2 := (sgemmK_call F nz cx h hk alpha' beta' hs).of_exec hplain h2
    unfold entry
    rw [(e1.fact r c hr hc).2, (e2.fact r c hr hc).2]

example := C04_online_eq_kfirst (exact Int) (· != 0) haswell demo_tile haswell_fits false false 1 0 1 0
  (padded_ok 79 69 11 55 11 fun _ => 7) (padded_slack _ (by decide) (by decide)) rfl

/-- **C07 (online).** Whatever the interleavings and the contents of freshly allocated memory, two executions
leave the same contents in every object of the caller. -/
theorem C07_online_deterministic (h : TileOK p cx.m_r cx.n_r m_c k_c n_c) (hk : cx.kmap.Fits cx.m_r cx.n_r)
    (packedA packedB : Bool) (alpha beta : α) {s : State α} (hs : CallOK s M N K) {prog : Prog}
    (hp : callO cx M N K p packedA packedB alpha beta m_c k_c n_c = some prog)
    {s1 s2 : State α} (h1 : Exec F prog s (.ok s1)) (h2 : Exec F prog s (.ok s2)) :
    s1.size = s2.size ∧ ∀ l : Loc, s.size l.buf ≠ none → s1.mem l = s2.mem l ∧ s1.init l = s2.init l := by
  have t := sgemm_online_triple (S := False) (F := F) h rfl rfl hk hs (fun h => h.elim) packedA packedB alpha beta hp
  have e1 := t.never h1
  have e2 := t.never h2
  exact ⟨by rw [e1.size, e2.size], fun l hl => Env.agree e1 e2
    (fun r c hr hc => by rw [(e1.fact r c hr hc).2, (e2.fact r c hr hc).2])
    (fun r c hr hc => by rw [(e1.fact r c hr hc).1, (e2.fact r c hr hc).1]) l hl⟩

/-- The hypotheses of `C04_online_if_ends` and `C07_online_deterministic` can be met. -/
example : ∃ prog s', callO haswell 79 69 11 3 false false 1 (0 : Int) 12 5 32 = some prog ∧
    Exec (exact Int) prog (padded 79 69 11 55 11 fun _ => 7) (.ok s') := by
  obtain ⟨prog, h1, ⟨s', h2⟩, _⟩ := C04_online_product (exact Int) haswell demo_tile haswell_fits false false 1 0
    (padded_ok 79 69 11 55 11 fun _ => 7) (padded_slack _ (by decide) (by decide))
  exact ⟨prog, s', h1, h2⟩

/-- **C08 (online).** Nothing of the caller's changes but the `M*N` elements of C. -/
theorem C08_online_onlyC (h : TileOK p cx.m_r cx.n_r m_c k_c n_c) (hk : cx.kmap.Fits cx.m_r cx.n_r)
    (packedA packedB : Bool) (alpha beta : α) {s : State α} (hs : CallOK s M N K)
    (hsl : Slack s M N K cx.m_r cx.n_r) :
    Computes F (callO cx M N K p packedA packedB alpha beta m_c k_c n_c) s (fun s' => OnlyC s s' M N) :=
  (sgemm_online_call F cx h hk packedA packedB alpha beta hs hsl).mono fun _ hs' => ⟨hs'.keep, hs'.size⟩

example := C08_online_onlyC (exact Int) haswell demo_tile haswell_fits false false 1 0
  (padded_ok 79 69 11 55 11 fun _ => 7) (padded_slack _ (by decide) (by decide))

/-- **C34 (online).** At the end exactly the objects allocated at the call are allocated, with the same sizes. -/
theorem C34_online_no_leak (h : TileOK p cx.m_r cx.n_r m_c k_c n_c) (hk : cx.kmap.Fits cx.m_r cx.n_r)
    (packedA packedB : Bool) (alpha beta : α) {s : State α} (hs : CallOK s M N K)
    (hsl : Slack s M N K cx.m_r cx.n_r) :
    Computes F (callO cx M N K p packedA packedB alpha beta m_c k_c n_c) s (fun s' => s'.size = s.size) :=
  (sgemm_online_call F cx h hk packedA packedB alpha beta hs hsl).mono fun _ hs' => hs'.size

example := C34_online_no_leak (exact Int) haswell demo_tile haswell_fits false false 1 0
  (padded_ok 79 69 11 55 11 fun _ => 7) (padded_slack _ (by decide) (by decide))

/-- **C11 (online), what holds.** If M is a multiple of `m_r` and N of `n_r` (or the operands are followed by
enough readable memory) no execution has undefined behaviour. Missing with respect to C11: ragged M or N
with objects of exactly the needed sizes, see `C11_online_iff` and `C11_online_refuted`. -/
theorem C11_online_safe_partial (h : TileOK p cx.m_r cx.n_r m_c k_c n_c) (hk : cx.kmap.Fits cx.m_r cx.n_r)
    (packedA packedB : Bool) (alpha beta : α) {s : State α} (hs : CallOK s M N K)
    (hsl : Slack s M N K cx.m_r cx.n_r) :
    ∃ prog, callO cx M N K p packedA packedB alpha beta m_c k_c n_c = some prog ∧ ∀ out, Exec F prog s out →
      out ≠ .ub := by
  obtain ⟨prog, hp, _, hall⟩ := sgemm_online_call F cx h hk packedA packedB alpha beta hs hsl
  refine ⟨prog, hp, fun out ho e => ?_⟩
  rcases hall out ho with e' | ⟨s', e', _⟩ <;> rw [e] at e' <;> cases e'

example := C11_online_safe_partial (exact Int) haswell demo_tile haswell_fits false false 1 0
  (padded_ok 79 69 11 55 11 fun _ => 7) (padded_slack _ (by decide) (by decide))
example := C11_online_safe_partial (exact Int) haswell demo_tile haswell_fits false false 1 0
  (demo_ok 78 80 11) (Slack.of_dvd (demo_ok 78 80 11) (by decide) (by decide) (by decide) (by decide))

/-- **C11 (online), exactly when it fails.** With objects of exactly `M*K` and `K*N` elements, all sizes
positive, the call can end normally if and only if `m_r` divides M and `n_r` divides N. -/
theorem C11_online_iff (h : TileOK p cx.m_r cx.n_r m_c k_c n_c) (hk : cx.kmap.Fits cx.m_r cx.n_r)
    (packedA packedB : Bool) (alpha beta : α) {s : State α} (hs : CallOK s M N K)
    (hA : s.size .A = some (M * K)) (hB : s.size .B = some (K * N)) (hM : 0 < M) (hN : 0 < N) (hK : 0 < K)
    {prog : Prog} (hp : callO cx M N K p packedA packedB alpha beta m_c k_c n_c = some prog) :
    (∃ s', Exec F prog s (.ok s')) ↔ cx.m_r ∣ M ∧ cx.n_r ∣ N := by
  constructor
  · rintro ⟨s', he⟩
    obtain ⟨hneA, hneB⟩ := online_needs h rfl rfl packedA packedB alpha beta hp he
    constructor
    · by_contra hd
      obtain ⟨n, hn, hlt⟩ := hneA hN M 0 (by
        rw [roundUp_eq h.m_r_pos (h.m_dvd.mul_left p)]; exact roundUp_lt h.m_r_pos hd) hK
      rw [hA] at hn; cases hn; simp at hlt
    · by_contra hd
      obtain ⟨n, hn, hlt⟩ := hneB hM (K - 1) N (by omega) (by
        rw [roundUp_eq h.n_r_pos h.n_dvd]; exact roundUp_lt h.n_r_pos hd)
      rw [hB] at hn; cases hn
      simp only at hlt
      have : (K - 1) * N + N = K * N := by
        rw [← Nat.succ_mul]; congr 1; omega
      omega
  · rintro ⟨h1, h2⟩
    obtain ⟨prog', hp', hex, _⟩ := sgemm_online_call F cx h hk packedA packedB alpha beta hs
      (Slack.of_dvd hs h.m_r_pos h.n_r_pos h1 h2)
    rw [hp] at hp'; cases hp'
    exact hex

example := fun prog => C11_online_iff (exact Int) haswell demo_tile haswell_fits false false 1 0
  (demo_ok 43 37 11) rfl rfl (by decide) (by decide) (by decide) (prog := prog)

/-- **C11 does not hold.** Witness: `43 x 11` times `11 x 37`, 6 x 16 register tile: the call has undefined
behaviour and no run of it ends normally. -/
theorem C11_online_refuted : ∃ prog, callO haswell 43 37 11 3 false false 1 (0 : Int) 12 5 32 = some prog ∧
    CallOK (demo 43 37 11) 43 37 11 ∧ Exec (exact Int) prog (demo 43 37 11) .ub ∧
    ∀ s', ¬ Exec (exact Int) prog (demo 43 37 11) (.ok s') := by
  obtain ⟨prog, hp⟩ : ∃ prog, callO haswell 43 37 11 3 false false 1 (0 : Int) 12 5 32 = some prog := ⟨_, rfl⟩
  have hno : ∀ s', ¬ Exec (exact Int) prog (demo 43 37 11) (.ok s') := fun s' he =>
    absurd ((C11_online_iff (exact Int) haswell demo_tile haswell_fits false false 1 0
      (demo_ok 43 37 11) rfl rfl (by decide) (by decide) (by decide) hp).1 ⟨s', he⟩).1 (by decide)
  exact ⟨prog, hp, demo_ok 43 37 11, ub_of_no_ok _ hno, hno⟩

end

/-! ### C44: the shared variable -/

/-- A thread that has not started begins by writing `v`; one that has started only reads, and then the
variable is `v`. -/
theorem vreads_all {v v0 : Nat} {ts : List (List VOp)} {l : List VOp} (hl : VInterleave ts l)
    (hw : ∀ t ∈ ts, ∀ o ∈ t, o = .write v ∨ o = .read)
    (hs : v0 = v ∨ ∀ t ∈ ts, t = [] ∨ ∃ t', t = .write v :: t') : ∀ x ∈ vreads v0 l, x = v := by
  induction hl generalizing v0 with
  | done => simp [vreads]
  | step pre o t post l _ ih =>
    have ho := hw (o :: t) (by simp) o (by simp)
    have hw' : ∀ t' ∈ pre ++ t :: post, ∀ o ∈ t', o = .write v ∨ o = .read := by
      intro t' ht' o' ho'
      simp only [mem_append, mem_cons] at ht'
      rcases ht' with h1 | rfl | h1
      · exact hw t' (by simp [h1]) o' ho'
      · exact hw (o :: t') (by simp) o' (by simp [ho'])
      · exact hw t' (by simp [h1]) o' ho'
    rcases ho with rfl | rfl
    · exact ih hw' (Or.inl rfl)
    · have hv : v0 = v := by
        rcases hs with h | h
        · exact h
        · rcases h (.read :: t) (by simp) with e | ⟨t', e⟩ <;> simp at e
      intro x hx
      simp only [vreads, mem_cons] at hx
      rcases hx with rfl | hx
      · exact hv
      · exact ih hw' (Or.inl hv) x hx

/-- **C44, what holds.** In every interleaving each thread reads the value it needs from the shared variable.
Missing with respect to C44: the accesses are unsynchronised, see `C44_online_offset_race`. -/
theorem C44_online_offset_value_partial (M K p m_r : Nat) (x : BlkDims) (m k : Nat) (reuse : Bool) (v0 : Nat)
    {l : List VOp} (hl : VInterleave (A_offset_tasks M K p m_r x m k reuse) l) :
    ∀ v ∈ vreads v0 l, v = m * p * x.m_c * K + k * x.k_c := by
  refine vreads_all hl ?_ (Or.inr ?_)
  · intro t ht o ho
    obtain ⟨core, _, rfl⟩ := mem_map.1 ht
    unfold A_offset_task at ho
    rcases mem_cons.1 ho with rfl | ho
    · exact Or.inl rfl
    · split at ho
      · simp at ho
      · obtain ⟨_, _, rfl⟩ := mem_map.1 ho; exact Or.inr rfl
  · intro t ht
    obtain ⟨core, _, rfl⟩ := mem_map.1 ht
    exact Or.inr ⟨_, rfl⟩

/-- Sequential execution of the tasks is an interleaving; with 3 threads and 2 strips each, 6 values are read. -/
example : ∃ l, VInterleave (A_offset_tasks 43 11 3 6 (dimsKMN 43 37 11 3 6 16 12 5 32) 0 1 false) l ∧
    vreads 99 l = [5, 5, 5, 5, 5, 5] := by
  refine ⟨[.write 5, .read, .read, .write 5, .read, .read, .write 5, .read, .read], ?_, rfl⟩
  have e : A_offset_tasks 43 11 3 6 (dimsKMN 43 37 11 3 6 16 12 5 32) 0 1 false =
      [[.write 5, .read, .read], [.write 5, .read, .read], [.write 5, .read, .read]] := by decide +kernel
  rw [e]
  exact .step [] _ _ _ _ (.step [] _ _ _ _ (.step [] _ _ _ _ (.step [[]] _ _ _ _ (.step [[]] _ _ _ _
    (.step [[]] _ _ _ _ (.step [[], []] _ _ _ _ (.step [[], []] _ _ _ _ (.step [[], []] _ _ _ _
      (.done _ (by simp))))))))))

/-- **C44 does not hold.** Whenever at least two threads work on a block, their accesses to the shared variable
are a data race, which in C++ is undefined behaviour. -/
theorem C44_online_offset_race (M K p m_r : Nat) (x : BlkDims) (m k : Nat) (reuse : Bool)
    (h2 : 2 ≤ (A_offset_tasks M K p m_r x m k reuse).length) :
    ¬ VRaceFree (A_offset_tasks M K p m_r x m k reuse) := by
  intro hr
  have hlen : 2 ≤ (if m == x.Mb - 1 && x.m_pad then x.p_l else p) := by
    simpa [A_offset_tasks] using h2
  unfold VRaceFree at hr
  rw [pairwise_iff_getElem] at hr
  have := hr 0 1 (by omega) (by omega) (by omega)
  unfold A_offset_tasks at this
  simp only [getElem_map, getElem_range] at this
  exact this (.write (m * p * x.m_c * K + k * x.k_c)) (by unfold A_offset_task; simp)
    (.write (m * p * x.m_c * K + k * x.k_c)) (by unfold A_offset_task; simp) trivial

example : ¬ VRaceFree (A_offset_tasks 43 11 3 6 (dimsKMN 43 37 11 3 6 16 12 5 32) 0 1 false) :=
  C44_online_offset_race 43 11 3 6 _ 0 1 false (by decide +kernel)

/-- Nor is it only the assignments: a read of thread `c` races with the assignment of any other thread `c'`, whichever of
the two comes first. -/
theorem C44_online_offset_read_race (M K p m_r : Nat) (x : BlkDims) (m k : Nat) (reuse : Bool) (c c' : Nat)
    (hr : VOp.read ∈ A_offset_task M K p m_r x m k reuse c) :
    ¬ VRaceFree [A_offset_task M K p m_r x m k reuse c, A_offset_task M K p m_r x m k reuse c'] ∧
    ¬ VRaceFree [A_offset_task M K p m_r x m k reuse c', A_offset_task M K p m_r x m k reuse c] ∧
      ∃ v, VOp.write v ∈ A_offset_task M K p m_r x m k reuse c' ∧
        VOp.Conflict .read (.write v) ∧ VOp.Conflict (.write v) .read := by
  have hw : VOp.write (m * p * x.m_c * K + k * x.k_c) ∈ A_offset_task M K p m_r x m k reuse c' := by
    unfold A_offset_task
    exact mem_cons_self
  refine ⟨fun h => ?_, fun h => ?_, _, hw, trivial, trivial⟩
  · exact (pairwise_cons.1 h).1 _ (by simp) _ hr _ hw trivial
  · exact (pairwise_cons.1 h).1 _ (by simp) _ hw _ hr trivial

example := C44_online_offset_read_race 43 11 3 6 (dimsKMN 43 37 11 3 6 16 12 5 32) 0 1 false 0 2 (by decide)

end Cake
