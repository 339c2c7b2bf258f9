/-
Property C57: the matrix-vector example.
-/
import Verif.Proofs.GemvNeeds
import Verif.Proofs.Exact
import Verif.Props.Conv
import Verif.Props.CacheDims

namespace Cake
open List

/-- The caller's obligations for `y += A*x`, `A` an `M x K` matrix stored column by column in the object A with
`extra` further elements behind it, `x` in B, `y` in C with `extra` further elements. -/
structure MvOK {α : Type _} (s : State α) (M K extra : Nat) : Prop where
  a : Holds s .A 1 (K * M + extra)
  b : Holds s .B 1 K
  c : Holds s .C 1 (M + extra)
  fresh : ∀ b, b ≠ .A → b ≠ .B → b ≠ .C → b ≠ .Ctx → s.size b = none

theorem mvState_ok {α : Type _} (zero : α) (a b : Nat → α) (M K extra : Nat) :
    MvOK (gemmState zero a b (K * M + extra) K (M + extra)) M K extra :=
  ⟨⟨⟨_, rfl, by rw [Nat.one_mul]⟩, fun _ _ => rfl⟩, ⟨⟨_, rfl, by rw [Nat.one_mul]⟩, fun _ _ => rfl⟩,
    ⟨⟨_, rfl, by rw [Nat.one_mul]⟩, fun _ _ => rfl⟩, fun b h1 h2 h3 h4 => by cases b <;> first | rfl | contradiction⟩

section
variable {M K p m_c k_c : Nat} (h : TileOK p 8 1 m_c k_c 1)
include h

theorem mvm_pad : padTo M (p * m_c) 8 = M + (8 - M % 8) % 8 := by
  rw [padTo_eq (by norm_num) (h.m_dvd.trans (Dvd.intro_left _ rfl))]
  unfold cdiv
  omega

/-- **C57**, when the field for the schedule happens to contain `KMN` and the objects A and C have room behind
them for rounding the number of rows up to a multiple of 8: for every choice of tile sizes (`m_c` a multiple of
8), every number of threads and every alpha, beta, the call has no undefined behaviour, and element `r` of the
result has had the products `A[r,0]*x[0], ..., A[r,K-1]*x[K-1]` added to it, in this order. Nothing else changes
but the rounding, and no object stays allocated. -/
theorem C57_gemv_partial {α : Type _} (F : Arith α) (pk : Bool) (al be : α) (x : BlkDims) {s : State α}
    (hs : MvOK s M K ((8 - M % 8) % 8)) :
    Computes F (cake_sgemv ⟨.A, 0⟩ ⟨.B, 0⟩ ⟨.C, 0⟩ M K p 8 pk al be m_c k_c .KMN x).toOption s fun s' =>
      (∀ r, r < M → s'.init ⟨.C, r⟩ = true ∧ s'.mem ⟨.C, r⟩ =
        dotFrom F (fun k => s.mem ⟨.A, k * M + r⟩) (fun k => s.mem ⟨.B, k⟩) (range K) (s.mem ⟨.C, r⟩)) ∧
      OnlyC s s' 1 (M + (8 - M % 8) % 8) := by
  rw [sgemv_prog h]
  have e := mvm_pad (M := M) h
  refine .of_triple rfl ((sgemv_triple (k_c := k_c) h (by rw [e, Nat.add_sub_cancel_left]; exact hs.a) hs.b
    (by rw [e]; exact hs.c) hs.fresh).conseq (fun _ h => h) fun s' hs' => ⟨hs'.fact, ⟨fun l hl hx => ?_, hs'.size⟩⟩)
  refine hs'.keep l hl fun hX => hx ?_
  rw [e] at hX
  rw [Nat.one_mul]
  exact hX

/-- **C57**: with a number of rows divisible by 8, objects of exactly the right size are enough, and exactly the
result changes. -/
theorem C57_rows_divisible_partial {α : Type _} (F : Arith α) (pk : Bool) (al be : α) (x : BlkDims) {s : State α}
    (h8 : 8 ∣ M) (hs : MvOK s M K 0) :
    Computes F (cake_sgemv ⟨.A, 0⟩ ⟨.B, 0⟩ ⟨.C, 0⟩ M K p 8 pk al be m_c k_c .KMN x).toOption s fun s' =>
      (∀ r, r < M → s'.init ⟨.C, r⟩ = true ∧ s'.mem ⟨.C, r⟩ =
        dotFrom F (fun k => s.mem ⟨.A, k * M + r⟩) (fun k => s.mem ⟨.B, k⟩) (range K) (s.mem ⟨.C, r⟩)) ∧
      OnlyC s s' M 1 := by
  have e : (8 - M % 8) % 8 = 0 := by omega
  refine (C57_gemv_partial h F pk al be x (by rw [e]; exact hs)).mono fun s' ⟨h1, h2⟩ => ⟨h1, ?_⟩
  rw [e, Nat.add_zero] at h2
  exact ⟨fun l hl hx => h2.keep l hl (by rwa [Nat.one_mul, ← Nat.mul_one M]), h2.size⟩

/-- **C57** in exact arithmetic: the old value plus the row of A times the vector. -/
theorem C57_exact_partial {R : Type _} [CommSemiring R] (pk : Bool) (al be : R) (x : BlkDims) {s : State R}
    (hs : MvOK s M K ((8 - M % 8) % 8)) :
    Computes (exact R) (cake_sgemv ⟨.A, 0⟩ ⟨.B, 0⟩ ⟨.C, 0⟩ M K p 8 pk al be m_c k_c .KMN x).toOption s fun s' =>
      ∀ r, r < M → s'.mem ⟨.C, r⟩ =
        s.mem ⟨.C, r⟩ + ∑ k ∈ Finset.range K, s.mem ⟨.A, k * M + r⟩ * s.mem ⟨.B, k⟩ := by
  refine (C57_gemv_partial h (exact R) pk al be x hs).mono fun s' ⟨h1, _⟩ r hr => ?_
  rw [(h1 r hr).2]
  have key : ∀ (l : List Nat) (f g : Nat → R) (c : R),
      dotFrom (exact R) f g l c = c + (l.map fun k => f k * g k).sum := by
    intro l f g
    unfold dotFrom
    induction l with
    | nil => intro c; simp
    | cons k l ih =>
      intro c
      rw [foldl_cons, ih]
      simp only [exact, map_cons, sum_cons]
      ring
  rw [key, sum_map_range]

/-- **C57**: the result is the same, bit for bit, for every number of threads, all tile sizes, every alpha, beta
and "packed" flag, and whatever `malloc` leaves in memory - as long as it leaves `KMN` in the field for the
schedule. No law of arithmetic is used. -/
theorem C57_same_result_partial {p' m_c' k_c' : Nat} (h' : TileOK p' 8 1 m_c' k_c' 1) {α : Type _} (F : Arith α)
    (pk pk' : Bool) (al be al' be' : α) (x x' : BlkDims) {s s1 s2 : State α} {prog prog' : Prog}
    (hs : MvOK s M K ((8 - M % 8) % 8))
    (hp : cake_sgemv ⟨.A, 0⟩ ⟨.B, 0⟩ ⟨.C, 0⟩ M K p 8 pk al be m_c k_c .KMN x = .ok prog)
    (hp' : cake_sgemv ⟨.A, 0⟩ ⟨.B, 0⟩ ⟨.C, 0⟩ M K p' 8 pk' al' be' m_c' k_c' .KMN x' = .ok prog')
    (he : Exec F prog s (.ok s1)) (he' : Exec F prog' s (.ok s2)) :
    ∀ r, r < M → s1.mem ⟨.C, r⟩ = s2.mem ⟨.C, r⟩ := by
  intro r hr
  have g1 := ((C57_gemv_partial h F pk al be x hs).of_exec (by rw [hp]; rfl) he).1 r hr
  have g2 := ((C57_gemv_partial h' F pk' al' be' x' hs).of_exec (by rw [hp']; rfl) he').1 r hr
  rw [g1.2, g2.2]

end

/-- 19 rows, 11 columns, 2 threads: five elements of rounding. -/
example : ∃ s : State Nat, MvOK s 19 11 5 ∧ TileOK 2 8 1 16 4 1 :=
  ⟨_, mvState_ok 0 (fun i => i) (fun i => i + 1) 19 11 5,
    ⟨by norm_num, by norm_num, by norm_num, by norm_num, by norm_num, by norm_num, by norm_num, by norm_num⟩⟩

example (x : BlkDims) : Computes (exact Nat)
    (cake_sgemv ⟨.A, 0⟩ ⟨.B, 0⟩ ⟨.C, 0⟩ 19 11 2 8 false 1 0 16 4 .KMN x).toOption
    (gemmState 0 (fun i => i) (fun i => i + 1) (11 * 19 + 5) 11 (19 + 5)) fun s' =>
    s'.mem ⟨.C, 18⟩ = 0 + ∑ k ∈ Finset.range 11, (k * 19 + 18) * (k + 1) :=
  (C57_exact_partial ⟨by norm_num, by norm_num, by norm_num, by norm_num, by norm_num, by norm_num, by norm_num,
    by norm_num⟩ false 1 0 x (mvState_ok 0 (fun i => i) (fun i => i + 1) 19 11 5)).mono
    fun _ h => h 18 (by norm_num)

/-! ### The kernels -/

section
variable {α : Type _} (F : Arith α) {t : Nat} {A B C : Loc}

/-- **C57**: the kernel used: to each of the eight elements at C it adds the `k` products of its row of A
(columns `M` apart) with the vector, in order. -/
theorem C57_kernel_col (hA : ∀ t, A.buf ≠ .reg t) (hB : ∀ t, B.buf ≠ .reg t) (hC : ∀ t, C.buf ≠ .reg t)
    (hAC : A.buf ≠ C.buf) (hBC : B.buf ≠ C.buf) (m k M : Nat) {l : Nat} (hl : l < 8) (mem : Mem α) :
    exec F (cake_sgemv_haswell_8x8_col t A B C m k M) mem (C +ₚ l) =
      dotFrom F (fun i => mem (A +ₚ (i * M + l))) (fun i => mem (B +ₚ i)) (range k) (mem (C +ₚ l)) := by
  have := (gemvKernel_acc (S := M) (k := k) (t := t) F hA hB hC hAC hBC hl).val mem
  unfold cake_sgemv_haswell_8x8_col
  rw [this, foldl_map]
  rfl

/-- **C57**: the kernel for a packed matrix (eight rows per step), not used by the example. -/
theorem C57_kernel_packed (hA : ∀ t, A.buf ≠ .reg t) (hB : ∀ t, B.buf ≠ .reg t) (hC : ∀ t, C.buf ≠ .reg t)
    (hAC : A.buf ≠ C.buf) (hBC : B.buf ≠ C.buf) (m k : Nat) {l : Nat} (hl : l < 8) (mem : Mem α) :
    exec F (cake_sgemv_haswell_8x8 t A B C m k) mem (C +ₚ l) =
      dotFrom F (fun i => mem (A +ₚ (i * 8 + l))) (fun i => mem (B +ₚ i)) (range k) (mem (C +ₚ l)) := by
  have := (gemvKernel_acc (S := 8) (k := k) (t := t) F hA hB hC hAC hBC hl).val mem
  unfold cake_sgemv_haswell_8x8
  rw [this, foldl_map]
  rfl

end

/-- Eleven columns, 19 apart. -/
example (mem : Mem Nat) : exec (exact Nat) (cake_sgemv_haswell_8x8_col 0 ⟨.A, 8⟩ ⟨.B, 0⟩ ⟨.C, 8⟩ 8 11 19) mem ⟨.C, 10⟩ =
    dotFrom (exact Nat) (fun i => mem ⟨.A, 8 + (i * 19 + 2)⟩) (fun i => mem ⟨.B, 0 + i⟩) (range 11) (mem ⟨.C, 10⟩) :=
  C57_kernel_col (exact Nat) (A := ⟨.A, 8⟩) (B := ⟨.B, 0⟩) (C := ⟨.C, 8⟩) (by simp) (by simp) (by simp) (by simp)
    (by simp) 8 11 19 (l := 2) (by norm_num) mem

example (mem : Mem Nat) : exec (exact Nat) (cake_sgemv_haswell_8x8 0 ⟨.A, 0⟩ ⟨.B, 0⟩ ⟨.C, 8⟩ 8 11) mem ⟨.C, 10⟩ =
    dotFrom (exact Nat) (fun i => mem ⟨.A, 0 + (i * 8 + 2)⟩) (fun i => mem ⟨.B, 0 + i⟩) (range 11) (mem ⟨.C, 10⟩) :=
  C57_kernel_packed (exact Nat) (A := ⟨.A, 0⟩) (B := ⟨.B, 0⟩) (C := ⟨.C, 8⟩) (by simp) (by simp) (by simp) (by simp)
    (by simp) 8 11 (l := 2) (by norm_num) mem

/-! ### What the example gets wrong -/

/-- **C57 refuted**: the field for the schedule is never set, and what `malloc` left there decides. For a value
that is neither `KMN` nor `MKN` the program ends with `exit`. -/
theorem C57_schedule_refuted {α : Type _} (A B C : Loc) (M K p m_r : Nat) (pk : Bool) (al be : α) (m_c k_c : Nat)
    {sch : Sched} (h1 : sch ≠ .KMN) (h2 : sch ≠ .MKN) (x : BlkDims) :
    cake_sgemv A B C M K p m_r pk al be m_c k_c sch x = .error .exit := by
  unfold cake_sgemv init_block_dims_mvm
  cases sch <;> first | contradiction | rfl

example (x : BlkDims) : cake_sgemv ⟨.A, 0⟩ ⟨.B, 0⟩ ⟨.C, 0⟩ 16 8 2 8 false 1 0 8 4 .NKM x = .error .exit :=
  C57_schedule_refuted _ _ _ 16 8 2 8 false (1 : Nat) 0 8 4 (by simp) (by simp) x

section
variable {M K p m_c k_c : Nat} {α : Type _} {F : Arith α} {s : State α} {prog : Prog} {pk : Bool} {al be : α}
variable {x : BlkDims}

/-- **C57 refuted**: if the field for the schedule happens to contain `MKN`, there are at least two threads and
the number of rows is a multiple of the tile size, then the call accesses the result at element `p*M - 1`: with a
result of `M` elements this is undefined behaviour. -/
theorem C57_schedule_MKN_refuted (h : TileOK p 8 1 m_c k_c 1) (hp : 2 ≤ p) (hd : m_c ∣ M) (hM : 0 < M) (hK : 0 < K)
    (hprog : cake_sgemv ⟨.A, 0⟩ ⟨.B, 0⟩ ⟨.C, 0⟩ M K p 8 pk al be m_c k_c .MKN x = .ok prog)
    (hC : s.size .C = some M) :
    Exec F prog s .ub ∧ ∀ out, Exec F prog s out → out = .exit ∨ out = .ub := by
  refine never_ok fun s' he => ?_
  obtain ⟨n, h1, h2⟩ := mvm_needs_MKN h hd hM hK hprog he
  rw [hC] at h1
  cases h1
  have : 2 * M ≤ p * M := Nat.mul_le_mul_right _ hp
  simp only at h2
  omega

/-- **C57 refuted**: whatever the number `m_r` of rows per kernel call in the context (8 or less), the call
accesses eight elements of the result from a multiple of `m_r` on. If `M` is not a multiple of 8, a result of
exactly `M` elements is not enough. -/
theorem C57_rows_refuted {m_r : Nat} (h : TileOK p m_r 1 m_c k_c 1) (hr : m_r ≤ 8) (h8 : m_r = 8 → ¬ 8 ∣ M)
    (hM : 0 < M) (hK : 0 < K)
    (hprog : cake_sgemv ⟨.A, 0⟩ ⟨.B, 0⟩ ⟨.C, 0⟩ M K p m_r pk al be m_c k_c .KMN x = .ok prog)
    (hC : s.size .C = some M) :
    Exec F prog s .ub ∧ ∀ out, Exec F prog s out → out = .exit ∨ out = .ub := by
  refine never_ok fun s' he => ?_
  rw [sgemv_prog h] at hprog
  cases hprog
  have hpad : padTo M (p * m_c) m_r = cdiv M m_r * m_r := padTo_eq h.m_r_pos (h.m_dvd.trans (Dvd.intro_left _ rfl))
  have hge : M ≤ padTo M (p * m_c) m_r := padTo_ge _ _ _ h.m_r_pos
  obtain ⟨base, b1, b2, b3⟩ := mvm_needs h hK he (row := padTo M (p * m_c) m_r - 1) (by omega)
  obtain ⟨n, h1, h2⟩ := b3 7 (by norm_num)
  rw [hC] at h1
  cases h1
  simp only at h2
  have e : m_r = 8 := by omega
  subst e
  have : M = cdiv M 8 * 8 := by omega
  exact h8 rfl (Dvd.intro_left _ this.symm)

/-- Not a multiple of 8; and the default context of the library (6 rows per kernel call), also with a multiple of
8. -/
example (s : State Nat) (hC : s.size .C = some 19)
    (hprog : cake_sgemv ⟨.A, 0⟩ ⟨.B, 0⟩ ⟨.C, 0⟩ 19 11 2 8 false 1 0 16 4 .KMN x = .ok prog) :
    Exec (exact Nat) prog s .ub :=
  (C57_rows_refuted ⟨by norm_num, by norm_num, by norm_num, by norm_num, by norm_num, by norm_num, by norm_num,
    by norm_num⟩ (by norm_num) (by norm_num) (by norm_num) (by norm_num) hprog hC).1

example (s : State Nat) (hC : s.size .C = some 24)
    (hprog : cake_sgemv ⟨.A, 0⟩ ⟨.B, 0⟩ ⟨.C, 0⟩ 24 11 2 6 false 1 0 12 4 .KMN x = .ok prog) :
    Exec (exact Nat) prog s .ub :=
  (C57_rows_refuted ⟨by norm_num, by norm_num, by norm_num, by norm_num, by norm_num, by norm_num, by norm_num,
    by norm_num⟩ (by norm_num) (by norm_num) (by norm_num) (by norm_num) hprog hC).1

example (s : State Nat) (hC : s.size .C = some 32)
    (hprog : cake_sgemv ⟨.A, 0⟩ ⟨.B, 0⟩ ⟨.C, 0⟩ 32 11 2 8 false 1 0 16 4 .MKN x = .ok prog) :
    Exec (exact Nat) prog s .ub :=
  (C57_schedule_MKN_refuted ⟨by norm_num, by norm_num, by norm_num, by norm_num, by norm_num, by norm_num,
    by norm_num, by norm_num⟩ (by norm_num) (by norm_num) (by norm_num) (by norm_num) hprog hC).1

end

/-- **C57 refuted** for alpha and beta: `alpha*A*x + beta*y` is not what is computed, for any alpha, beta other
than `alpha = beta = 1`. One witness for all: `A` and `x` all 1; a result that was 1 (or 0) becomes `1 + K`
(or `K`). -/
theorem C57_alpha_beta_refuted {M K p m_c k_c : Nat} (h : TileOK p 8 1 m_c k_c 1) (hM : 0 < M) (hK : 0 < K) (pk : Bool)
    (al be : ℤ) (hab : al ≠ 1 ∨ be ≠ 1) (x : BlkDims) :
    ∃ s : State ℤ, MvOK s M K ((8 - M % 8) % 8) ∧
      Computes (exact ℤ) (cake_sgemv ⟨.A, 0⟩ ⟨.B, 0⟩ ⟨.C, 0⟩ M K p 8 pk al be m_c k_c .KMN x).toOption s fun s' =>
        s'.mem ⟨.C, 0⟩ ≠ al * (∑ k ∈ Finset.range K, s.mem ⟨.A, k * M + 0⟩ * s.mem ⟨.B, k⟩) + be * s.mem ⟨.C, 0⟩ := by
  by_cases ha : al = 1
  · refine ⟨gemmState 1 (fun _ => 1) (fun _ => 1) _ _ _, mvState_ok .., ?_⟩
    refine (C57_exact_partial h pk al be x (mvState_ok ..)).mono fun s' h1 => ?_
    rw [h1 0 hM]
    simp only [gemmState, ha]
    intro e
    apply (hab.resolve_left (not_not.2 ha))
    linarith
  · refine ⟨gemmState 0 (fun _ => 1) (fun _ => 1) _ _ _, mvState_ok .., ?_⟩
    refine (C57_exact_partial h pk al be x (mvState_ok ..)).mono fun s' h1 => ?_
    rw [h1 0 hM]
    simp only [gemmState]
    intro e
    apply ha
    simp only [mul_one, Finset.sum_const, Finset.card_range, nsmul_eq_mul, zero_add, mul_zero, add_zero] at e
    have hK' : (K : ℤ) ≠ 0 := by exact_mod_cast hK.ne'
    exact (mul_right_cancel₀ hK' (by rw [one_mul]; exact e)).symm

example (x : BlkDims) := C57_alpha_beta_refuted (M := 16) (K := 4) (p := 2) (m_c := 8) (k_c := 4)
  ⟨by norm_num, by norm_num, by norm_num, by norm_num, by norm_num, by norm_num, by norm_num, by norm_num⟩
  (by norm_num) (by norm_num) false 1 0 (Or.inr (by norm_num)) x

/-- **C57 refuted** for the checker of the example: with at least two columns its loop is a data race. -/
theorem C57_checker_refuted {α : Type _} (F : Arith α) {M K : Nat} (hM : 0 < M) (hK : 2 ≤ K) (s : State α)
    (hs : s.size .Cp = none) : Exec F (gemvCheckFill M K) s .ub := by
  refine Exec.next _ _ _ _ _ (ItemExec.calloc _ _ _ hs) (Exec.ub _ _ _ (ItemExec.race _ _ fun hr => ?_))
  unfold RaceFree at hr
  rw [pairwise_map] at hr
  have h1 : (0 : Nat) < (range K).length := by rw [length_range]; omega
  have h2 : (1 : Nat) < (range K).length := by rw [length_range]; omega
  have := pairwise_iff_getElem.1 hr 0 1 h1 h2 (by norm_num)
  simp only [getElem_range] at this
  exact this _ (mem_map_of_mem (mem_range.2 hM)) _ (mem_map_of_mem (mem_range.2 hM)) (by simp [Op.Conflict, Op.dst])

example : Exec (exact Nat) (gemvCheckFill 16 4) (gemmState 0 (fun i => i) (fun i => i) 64 4 16) .ub :=
  C57_checker_refuted _ (by norm_num) (by norm_num) _ rfl

/-! ### Tile sizes -/

/-- **C57**: the tile sizes the example computes (in IEEE arithmetic, with any rounding; kernels of 8 rows) are
usable: positive, and the number of rows a multiple of 8. -/
theorem C57_tile_sizes (r : Rounding 53) (rs : Rounding 24) (nf : Option ℝ → Option ℝ → Bool)
    {cx : CCtx (Option ℝ)} {nr L2 L3 nc : Nat} (ok : CacheOK cx 8 nr L2 L3 nc) {M p : Nat} (hp : 0 < p) :
    ∃ c : Nat, get_cache_dims_mvm (ieee r rs nf) cx ((ieee r rs nf).ofInt 4) M p none = .ok ((c : ℤ), (c : ℤ)) ∧
      TileOK p 8 1 c c 1 := by
  obtain ⟨q, h1⟩ := mcL2_mvm_val r rs nf cx ok.l2_eq ok.l2_lt
  obtain ⟨t, _, _, _, h2⟩ := mcL3_val r rs nf cx ok.mr_eq (by norm_num) ok.l3_eq ok.l3_lt ok.nc_eq ok.nc_pos ok.nc_le
  obtain ⟨c, h3, d, h4, _⟩ := clampMc_val (M := M) (p := p) (mr := 8) (mc := (q + 1) * 64) hp (by norm_num)
    ⟨(q + 1) * 8, by ring⟩ (by omega)
  refine ⟨c, ?_, hp, by norm_num, by norm_num, by omega, by omega, by norm_num, d, by norm_num⟩
  unfold get_cache_dims_mvm
  rw [h1, h2, ok.mr_eq]
  show (Except.bind (clampMc _ _ _ _) _) = _
  rw [h3]
  rfl

/-- The context of the example: that of the library with kernels of 8 rows. -/
example (r : Rounding 53) (rs : Rounding 24) (nf : Option ℝ → Option ℝ → Bool) :
    ∃ c : Nat, get_cache_dims_mvm (ieee r rs nf) { haswellCtx with mr := 8 } ((ieee r rs nf).ofInt 4) 1000 4 none =
      .ok ((c : ℤ), (c : ℤ)) ∧ TileOK 4 8 1 c c 1 :=
  C57_tile_sizes r rs nf (cx := { haswellCtx with mr := 8 }) (nr := 16) (L2 := 262144) (L3 := 20971520) (nc := 4)
    ⟨rfl, rfl, rfl, rfl, rfl, by norm_num, by norm_num, by norm_num, by norm_num, by norm_num, by norm_num,
      by norm_num⟩ (M := 1000) (p := 4) (by norm_num)

end Cake
