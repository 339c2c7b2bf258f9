/-
Choice of tile sizes and of the schedule: C20, C21, C23, C24, C35.
-/
import Verif.Proofs.CacheDims
import Verif.Proofs.Nearest

namespace Cake

/-! ### Concrete machines: 256 KB L2, 20 MB L3, 4 cores, 6x16 tile -/

/-- A context such as `cake_query_cntx` fills it in on a Haswell machine. -/
noncomputable def haswellCtx : CCtx (Option ℝ) where
  alpha_n := some 1
  mr := 6
  nr := 16
  m_map := 0
  n_map := 0
  L2 := 262144
  L3 := 20971520
  ncores := 4

theorem haswellCtx_ok : CacheOK haswellCtx 6 16 262144 20971520 4 where
  mr_eq := rfl
  nr_eq := rfl
  l2_eq := rfl
  l3_eq := rfl
  nc_eq := rfl
  mr_pos := by norm_num
  nr_pos := by norm_num
  nr_le := by norm_num
  l2_lt := by norm_num
  l3_lt := by norm_num
  nc_pos := by norm_num
  nc_le := by norm_num

section
variable (r : Rounding 53) (rs : Rounding 24) (nf : Option ℝ → Option ℝ → Bool)

/-! ### C20 -/

/-- **C20.** When the library chooses the tile sizes (no complete set of user sizes) and L2 has room for one
register tile's working set, `get_cache_dims` ends normally, whatever the roundings of the floating-point
operations: `m_c` is a positive multiple of `m_r`, `n_c` a positive multiple of `n_r`, `k_c` positive. -/
theorem C20_auto_tiles {cx : CCtx (Option ℝ)} {mr nr L2 L3 nc : Nat} (ok : CacheOK cx mr nr L2 L3 nc)
    (big : 8 * (mr * (mr + 2 * nr)) ≤ L2) (M N K p : Nat) (hp : 0 < p) (hp' : p ≤ 2 ^ 15) (sch : Sched)
    (mcu kcu ncu : Int) (hu : mcu = 0 ∨ ncu = 0 ∨ kcu = 0) :
    ∃ d cx', get_cache_dims (ieee r rs nf) cx M N K p sch ((ieee r rs nf).ofInt 4) mcu kcu ncu = .ok (d, cx') ∧
      ValidTile mr nr d := by
  obtain ⟨t, e, c, d, cx', -, -, -, -, -, -, -, -, h, hv, -⟩ := dims_auto r rs nf ok big M N K p hp hp' sch mcu kcu ncu hu
  exact ⟨d, cx', h, hv⟩

example := C20_auto_tiles r rs nf haswellCtx_ok (by norm_num) 1000 37 2000 4 (by norm_num) (by norm_num) .NA 0 0 0 (by simp)
example := C20_auto_tiles (nearest 53 (by norm_num)) (nearest 24 (by norm_num)) (fun _ _ => false) haswellCtx_ok
  (by norm_num) 7 0 1 3 (by norm_num) (by norm_num) .NKM 0 0 0 (by simp)

/-- **C20, the condition on L2 is necessary.** With a smaller L2 the code divides by zero (`mc_L2 = 0`) and then
converts a non-finite double to `int`: undefined behaviour for every input. -/
theorem C20_small_l2_undefined {cx : CCtx (Option ℝ)} {mr nr L2 L3 nc : Nat} (ok : CacheOK cx mr nr L2 L3 nc)
    (small : L2 < 8 * (mr * (mr + 2 * nr))) (M N K p : Nat) (sch : Sched)
    (mcu kcu ncu : Int) (hu : mcu = 0 ∨ ncu = 0 ∨ kcu = 0) :
    get_cache_dims (ieee r rs nf) cx M N K p sch ((ieee r rs nf).ofInt 4) mcu kcu ncu = .error .ub := by
  obtain ⟨t, ht⟩ := isL2Side_exists nr L2
  obtain ⟨h2, tlt⟩ := mcL2_val r rs nf cx ok.mr_eq ok.mr_pos ok.nr_eq ok.nr_le ok.l2_eq ok.l2_lt ht
  obtain ⟨t3, -, -, -, h3⟩ := mcL3_val r rs nf cx ok.mr_eq ok.mr_pos ok.l3_eq ok.l3_lt ok.nc_eq ok.nc_pos ok.nc_le
  have hlt : t < mr := by
    by_contra h
    have := ht.fits (c := mr) (by omega)
    omega
  have hu' : ¬ (mcu ≠ 0 ∧ ncu ≠ 0 ∧ kcu ≠ 0) := by rintro ⟨a, b, c⟩; rcases hu with h | h | h <;> contradiction
  have ez : (ieee r rs nf).ofInt ((t - t % mr : ℕ) : ℤ) = some 0 := by
    rw [Nat.mod_eq_of_lt hlt, Nat.sub_self]
    simp only [ieee, Nat.cast_zero, Int.cast_zero]
    rw [r.zero]
  have ediv : ∀ x, (ieee r rs nf).div x ((ieee r rs nf).ofInt ((t - t % mr : ℕ) : ℤ)) = none := by
    intro x
    rw [ez]
    cases x <;> simp [ieee]
  have emul : ∀ x, (ieee r rs nf).mul none x = none := fun x => rfl
  have ecast : cInt (ieee r rs nf) none = .error .ub := rfl
  obtain ⟨c, hc⟩ : ∃ c : Nat, clampMc M p cx.mr ((t - t % mr : Nat) : ℤ) = .ok (c : ℤ) := by
    rw [Nat.mod_eq_of_lt hlt, Nat.sub_self, ok.mr_eq]
    unfold clampMc
    split
    · exact ⟨mr, rfl⟩
    · rw [if_neg (by omega)]; exact ⟨0, rfl⟩
  unfold get_cache_dims
  rw [h2, h3]
  simp only [bind, Except.bind]
  rw [hc]
  simp only [ediv, emul, ecast]
  rw [if_neg hu']
  generalize hs : (if sch = Sched.NA then _ else sch) = s
  have hs3 : s ≠ .NA := by
    subst hs
    split
    · simp only [derive_schedule]
      split
      · simp
      · split <;> simp
    · assumption
  clear hs
  obtain ⟨j', hj', hjv', -, hjb⟩ := roundDown_val (x := c) ok.nr_pos
  cases s with
  | KMN => rfl
  | MKN => rfl
  | NKM => simp only [ok.nr_eq]; rw [hjv']
  | NA => exact absurd rfl hs3

/-- 1 KB of L2, or an L2 whose size could not be determined. -/
example := C20_small_l2_undefined r rs nf (cx := { haswellCtx with L2 := 1024 }) (mr := 6) (nr := 16) (L2 := 1024)
  (L3 := 20971520) (nc := 4) { haswellCtx_ok with l2_eq := rfl, l2_lt := by norm_num } (by norm_num) 100 100 100 4
  .NA 0 0 0 (by simp)

/-! ### C21 -/

/-- The documented constraint (`src/block_sizing.cpp:316`): two copies of the A tile, the B panel and the C
panel, in 4-byte elements. -/
def FitsL2 (nr L2 : Nat) (d : CacheDims) : Prop :=
  4 * (2 * (d.m_c * d.k_c + d.k_c * nr) + 2 * (d.m_c * nr)) ≤ L2

/-- **C21 (K-first, M-first).** The chosen tile satisfies the documented constraint, with `k_c = m_c`, also
when `m_c` is clamped to a small M. Missing: the N-first schedule, for which it is false (`C21_nfirst_refuted`).
-/
theorem C21_fits_partial {cx : CCtx (Option ℝ)} {mr nr L2 L3 nc : Nat} (ok : CacheOK cx mr nr L2 L3 nc)
    (big : 8 * (mr * (mr + 2 * nr)) ≤ L2) (M N K p : Nat) (hp : 0 < p) (hp' : p ≤ 2 ^ 15) (sch : Sched)
    {d : CacheDims} {cx' : CCtx (Option ℝ)}
    (h : get_cache_dims (ieee r rs nf) cx M N K p sch ((ieee r rs nf).ofInt 4) 0 0 0 = .ok (d, cx'))
    (hs : d.sch ≠ .NKM) : d.k_c = d.m_c ∧ FitsL2 nr L2 d := by
  obtain ⟨t, e, c, d', cx'', -, -, ht, -, -, hle, -, -, h', -, hk, -, -, hm, -⟩ :=
    dims_auto r rs nf ok big M N K p hp hp' sch 0 0 0 (by simp)
  rw [h] at h'
  injection h' with h'
  injection h' with e1 e2
  subst e1
  refine ⟨hk, ?_⟩
  have hf := ht.fits (c := c) (by omega)
  unfold FitsL2
  rw [hk, hm hs]
  have : (4 * (2 * (c * c + c * nr) + 2 * (c * nr)) : ℕ) ≤ L2 := by
    have : 4 * (2 * (c * c + c * nr) + 2 * (c * nr)) = 8 * (c * (c + 2 * nr)) := by ring
    omega
  exact_mod_cast this

example {d cx'} (h : get_cache_dims (ieee r rs nf) haswellCtx (1000 : ℕ) (37 : ℕ) (2000 : ℕ) (4 : ℕ) .KMN
    ((ieee r rs nf).ofInt 4) 0 0 0 = .ok (d, cx')) (hs : d.sch ≠ .NKM) :=
  C21_fits_partial r rs nf haswellCtx_ok (by norm_num) 1000 37 2000 4 (by norm_num) (by norm_num) .KMN h hs

/-- **C21 (N-first), when the tile is not enlarged.** If the L3-derived tile is no larger than the L2-derived
one (`alpha ≤ 1`), the N-first tile satisfies the constraint too. -/
theorem C21_nfirst_partial {cx : CCtx (Option ℝ)} {mr nr L2 L3 nc : Nat} (ok : CacheOK cx mr nr L2 L3 nc)
    (big : 8 * (mr * (mr + 2 * nr)) ≤ L2) (M N K p : Nat) (hp : 0 < p) (hp' : p ≤ 2 ^ 15) (sch : Sched)
    {a b : Int} (ha : mcL2 (ieee r rs nf) cx ((ieee r rs nf).ofInt 4) = .ok a)
    (hb : mcL3 (ieee r rs nf) cx ((ieee r rs nf).ofInt 4) = .ok b) (hba : b ≤ a)
    {d : CacheDims} {cx' : CCtx (Option ℝ)}
    (h : get_cache_dims (ieee r rs nf) cx M N K p sch ((ieee r rs nf).ofInt 4) 0 0 0 = .ok (d, cx')) :
    FitsL2 nr L2 d := by
  obtain ⟨t, e, c, d', cx'', h2, h3, ht, -, -, hle, -, -, h', ⟨⟨i, hi, hmi⟩, -, -⟩, hk, -, -, hm, hm', -⟩ :=
    dims_auto r rs nf ok big M N K p hp hp' sch 0 0 0 (by simp)
  rw [h] at h'
  injection h' with h'
  injection h' with e1 e2
  subst e1
  rw [h2] at ha
  rw [h3] at hb
  injection ha with ha
  injection hb with hb
  have hmc : d.m_c ≤ c := by
    by_cases hs : d.sch = .NKM
    · exact hm' hs (by omega)
    · exact (hm hs).le
  unfold FitsL2
  rw [hk, hmi]
  rw [hmi] at hmc
  have hf := ht.fits (c := i * mr) (by omega)
  generalize i * mr = c' at *
  have : (4 * (2 * (c' * c' + c' * nr) + 2 * (c' * nr)) : ℕ) ≤ L2 := by
    have : 4 * (2 * (c' * c' + c' * nr) + 2 * (c' * nr)) = 8 * (c' * (c' + 2 * nr)) := by ring
    omega
  exact_mod_cast this

/-- With 2 MB of L3 the L3-derived tile is the smaller one. -/
example : ∃ a b : ℤ, mcL2 (ieee r rs nf) { haswellCtx with L3 := 2097152 } ((ieee r rs nf).ofInt 4) = .ok a ∧
    mcL3 (ieee r rs nf) { haswellCtx with L3 := 2097152 } ((ieee r rs nf).ofInt 4) = .ok b ∧ b ≤ a := by
  have h2 := mcL2_val r rs nf { haswellCtx with L3 := 2097152 } (mr := 6) (nr := 16) (L2 := 262144) (t := 165) rfl
    (by norm_num) rfl (by norm_num) rfl (by norm_num) (by unfold IsL2Side; norm_num)
  obtain ⟨t, -, -, hu, h3⟩ := mcL3_val r rs nf { haswellCtx with L3 := 2097152 } (mr := 6) (L3 := 2097152) (nc := 4) rfl
    (by norm_num) rfl (by norm_num) rfl (by norm_num) (by norm_num)
  have := hu 105 (by norm_num) (by norm_num) (by norm_num)
  exact ⟨_, _, h2.1, h3, by omega⟩

/-- A tile that breaks the constraint. -/
theorem C21_nfirst_refuted : ∃ d cx',
    get_cache_dims (ieee r rs nf) haswellCtx (10000 : ℕ) (10000 : ℕ) (10000 : ℕ) (4 : ℕ) .NKM ((ieee r rs nf).ofInt 4) 0 0 0 =
      .ok (d, cx') ∧ ¬ FitsL2 16 262144 d ∧
      ¬ (4 * (2 * (d.k_c * d.n_c + d.k_c * 6) + 2 * (d.n_c * 6)) ≤ (262144 : ℤ)) := by
  obtain ⟨t, e, c, d, cx', -, -, ht, -, -, hle, hlo, hcM, h, ⟨_, ⟨j, hj, hn⟩, _⟩, hk, -, hs, -, -, hge, hn'⟩ :=
    dims_auto r rs nf haswellCtx_ok (by norm_num) 10000 10000 10000 4 (by norm_num) (by norm_num) .NKM 0 0 0 (by simp)
  have t165 : t = 165 := by
    have h1 := ht.1
    have h2 := ht.2
    have : t < 166 := by
      by_contra h
      have : 166 * 198 ≤ t * (t + 2 * 16) := Nat.mul_le_mul (by omega) (by omega)
      omega
    have : 164 < t := by
      by_contra h
      have : (t + 1) * (t + 1 + 2 * 16) ≤ 165 * 197 := Nat.mul_le_mul (by omega) (by omega)
      omega
    omega
  subst t165
  have hc : c = 162 := by simpa using hcM (by norm_num)
  subst hc
  have he : 324 ≤ e := hlo 324 (by norm_num) (by norm_num)
  have hm : (324 : ℤ) ≤ d.m_c := by simpa using hge (hs (by simp)) 2 (by norm_num) (by norm_num) (by norm_num; omega)
  obtain ⟨j, -, hnj, hjc⟩ := hn' (hs (by simp))
  have hn : (160 : ℤ) ≤ d.n_c := by
    rw [hnj]
    have : 10 ≤ j := by omega
    push_cast
    omega
  refine ⟨d, cx', h, ?_, ?_⟩
  · unfold FitsL2
    rw [hk]
    intro hf
    have : (324 : ℤ) * 324 ≤ d.m_c * d.m_c := mul_le_mul hm hm (by norm_num) (by omega)
    push_cast at hf
    omega
  · rw [hk]
    intro hf
    have : (324 : ℤ) * 160 ≤ d.m_c * d.n_c := mul_le_mul hm hn (by norm_num) (by omega)
    omega

end

/-! ### C23 -/

section
variable {D : Type _} (fl : Flt D)

/-- **C23.** Whatever the floating-point operations and comparisons return: `get_cache_dims` never stops with
"unknown schedule"; an explicit schedule is used unchanged; otherwise one of the three is selected. -/
theorem C23_schedule_total (cx : CCtx D) (M N K p : Int) (sch : Sched) (ts : D) (mcu kcu ncu : Int) :
    get_cache_dims fl cx M N K p sch ts mcu kcu ncu ≠ .error .exit ∧
    ∀ d cx', get_cache_dims fl cx M N K p sch ts mcu kcu ncu = .ok (d, cx') →
      (sch ≠ .NA → d.sch = sch) ∧ (d.sch = .KMN ∨ d.sch = .MKN ∨ d.sch = .NKM) := by
  have h := get_cache_dims_noExit fl cx M N K p sch ts mcu kcu ncu
  exact ⟨h.ne, fun d cx' e => ⟨(h.of_ok e).1, (h.of_ok e).2.1⟩⟩

/-- **C23, the whole call.** `cake_sgemm` never ends with "unknown schedule". -/
theorem C23_no_unknown_schedule {α : Type _} (nz : α → Bool) (mc : Machine) (cntx : Option (CCtx D))
    (A B C : Loc) (a : Args α) : sgemm_api fl nz mc cntx A B C a ≠ .error .exit :=
  (sgemm_api_noExit fl nz mc cntx A B C a).ne

/-- **C23, the rule used when the dimensions alone decide** (`set_schedule`). -/
theorem C23_set_schedule (sch : Sched) (M N K : Int) :
    (sch ≠ .NA → set_schedule sch M N K = sch) ∧ set_schedule sch M N K ≠ .NA := by
  unfold set_schedule
  constructor
  · intro h; rw [if_neg h]
  · split
    · split
      · simp
      · split
        · simp
        · split <;> simp
    · assumption

/-- **C23, which schedule `set_schedule` picks** for a non-empty product: the larger of the two output dimensions
is swept first, provided it is at least twice the depth; otherwise K is swept first. -/
theorem C23_set_schedule_rule (M N K : Int) (hK : 0 < K) :
    (set_schedule .NA M N K = .KMN ↔ max M N < 2 * K) ∧
    (set_schedule .NA M N K = .MKN ↔ 2 * K ≤ max M N ∧ N ≤ M) ∧
    (set_schedule .NA M N K = .NKM ↔ 2 * K ≤ max M N ∧ M < N) := by
  unfold set_schedule
  rw [if_pos rfl]
  by_cases h1 : M ≥ 2 * K ∧ M ≥ N
  · rw [if_pos h1]
    simp only [reduceCtorEq, false_iff, true_iff]
    omega
  · rw [if_neg h1]
    by_cases h2 : K ≥ M ∧ K ≥ N
    · rw [if_pos h2]
      simp only [reduceCtorEq, false_iff, true_iff]
      omega
    · rw [if_neg h2]
      by_cases h3 : N ≥ 2 * K ∧ N ≥ M
      · rw [if_pos h3]
        simp only [reduceCtorEq, false_iff, true_iff]
        omega
      · rw [if_neg h3]
        simp only [reduceCtorEq, false_iff, true_iff]
        omega

/-- All three cases occur. -/
example : set_schedule .NA 1000 900 100 = .MKN ∧ set_schedule .NA 900 1000 100 = .NKM ∧
    set_schedule .NA 1000 1000 1000 = .KMN := by decide

/-! ### C35 -/

/-- A history of product calls on one context; the context after it (`none`: one of them was undefined). -/
def history {α : Type _} (nz : α → Bool) (mc : Machine) (A B C : Loc) (cx : CCtx D) (calls : List (Args α)) :
    Except Fail (CCtx D) :=
  calls.foldlM (fun cx a => (sgemm_api fl nz mc (some cx) A B C a).map Prod.snd) cx

/-- **C35.** After any finite history of product calls on a context, the next call runs exactly the program
it would have run on the context as it was before the history, and leaves the same context. -/
theorem C35_history_independent {α : Type _} (nz : α → Bool) (mc : Machine) (A B C : Loc) (cx cx' : CCtx D)
    (calls : List (Args α)) (h : history fl nz mc A B C cx calls = .ok cx') (a : Args α) :
    sgemm_api fl nz mc (some cx') A B C a = sgemm_api fl nz mc (some cx) A B C a := by
  induction calls generalizing cx with
  | nil => cases h; rfl
  | cons b bs ih =>
    unfold history at h
    rw [List.foldlM_cons] at h
    cases hb : sgemm_api fl nz mc (some cx) A B C b with
    | error e => rw [hb] at h; cases h
    | ok v =>
      rw [hb] at h
      have h1 := ih v.2 h
      rw [h1]
      exact sgemm_api_alpha fl nz mc A B C a ((sgemm_api_noExit fl nz mc (some cx) A B C b).of_ok hb).symm

end

/-! ### C24 -/

section

/-- What the comparisons amount to in exact arithmetic. -/
theorem ieee_exact_le (nf : Option ℝ → Option ℝ → Bool) (x y : ℝ) :
    (ieee (noRounding 53) (noRounding 24) nf).le (some x) (some y) = (open Classical in decide (x ≤ y)) := rfl

/-- **C24.** In exact arithmetic, for positive sizes: M-first exactly when `N ≤ M` and
`K ≤ 2M/(1 + M/(p*m_c))`; N-first exactly when not that and `M ≤ N` and `K ≤ 2N/(1 + N/(p*m_c))`; else K-first. -/
theorem C24_schedule_rule (nf : Option ℝ → Option ℝ → Bool) (cx : CCtx (Option ℝ)) {alpha : ℝ}
    (ha : cx.alpha_n = some alpha) (hal : 0 < alpha) (M N K p mc : Nat) (hp : 0 < p) (hmc : 0 < mc) :
    derive_schedule (ieee (noRounding 53) (noRounding 24) nf) cx M N K p mc =
      (open Classical in
      if N ≤ M ∧ (K : ℝ) ≤ 2 * M / (1 + M / (p * mc)) then Sched.MKN
      else if M ≤ N ∧ (K : ℝ) ≤ 2 * N / (1 + N / (p * mc)) then Sched.NKM
      else Sched.KMN) := by
  have hpR : (0 : ℝ) < p := by exact_mod_cast hp
  have hcR : (0 : ℝ) < mc := by exact_mod_cast hmc
  have hS : (p : ℝ) * mc ≠ 0 := by positivity
  have hA : alpha * p * mc ≠ 0 := by positivity
  have hD : ∀ X : Nat, (1 : ℝ) + X * (2 / (p * mc) - 1 / (p * mc)) ≠ 0 := by
    intro X
    have : (2 : ℝ) / (p * mc) - 1 / (p * mc) = 1 / (p * mc) := by rw [← sub_div]; norm_num
    rw [this]
    positivity
  have e : ∀ X : Nat, (2 : ℝ) * X / (1 + X * (2 / (p * mc) - 1 / (p * mc))) = 2 * X / (1 + X / (p * mc)) := by
    intro X
    have : (2 : ℝ) / (p * mc) - 1 / (p * mc) = 1 / (p * mc) := by rw [← sub_div]; norm_num
    rw [this, mul_one_div]
  simp only [derive_schedule, ha, ieee, noRounding, id, Option.bind_some, Int.cast_natCast, Int.cast_mul, Int.cast_ofNat,
    Int.cast_one, if_neg hS, if_neg hA, sub_self, mul_zero, add_zero, one_ne_zero, if_false, div_one, if_neg (hD _), e,
    Nat.cast_le, Bool.and_eq_true, decide_eq_true_eq]

/-- All three schedules are selected, e.g. on 4 cores with 162 x 162 tiles. -/
example (nf) : derive_schedule (ieee (noRounding 53) (noRounding 24) nf) haswellCtx (4096 : ℕ) (1024 : ℕ) (512 : ℕ) (4 : ℕ) (162 : ℕ) = .MKN ∧
    derive_schedule (ieee (noRounding 53) (noRounding 24) nf) haswellCtx (1024 : ℕ) (4096 : ℕ) (512 : ℕ) (4 : ℕ) (162 : ℕ) = .NKM ∧
    derive_schedule (ieee (noRounding 53) (noRounding 24) nf) haswellCtx (1024 : ℕ) (4096 : ℕ) (5120 : ℕ) (4 : ℕ) (162 : ℕ) = .KMN := by
  rw [C24_schedule_rule nf haswellCtx (alpha := 1) rfl one_pos _ _ _ _ _ (by norm_num) (by norm_num),
    C24_schedule_rule nf haswellCtx (alpha := 1) rfl one_pos _ _ _ _ _ (by norm_num) (by norm_num),
    C24_schedule_rule nf haswellCtx (alpha := 1) rfl one_pos _ _ _ _ _ (by norm_num) (by norm_num)]
  norm_num

/-- External traffic, in elements, of an `M x N x K` product in cubic blocks of side `s` (the MEMA model behind
`derive_schedule`): the operand that does not depend on the innermost loop is moved once, the other one once
per block of the third dimension, partial results are written and read once per block along K; K-first keeps the
partial results and moves C twice. -/
noncomputable def traffic (M N K s : ℝ) : Sched → ℝ
  | .MKN => K * N + M * K * N / s + 2 * M * N * K / s
  | .NKM => M * K + M * K * N / s + 2 * M * N * K / s
  | _ => M * K * N / s + M * K * N / s + 2 * M * N

/-- **C24, why this rule.** The schedule selected moves the least data in that model. -/
theorem C24_minimises (nf : Option ℝ → Option ℝ → Bool) (cx : CCtx (Option ℝ)) {alpha : ℝ}
    (ha : cx.alpha_n = some alpha) (hal : 0 < alpha) (M N K p mc : Nat) (hp : 0 < p) (hmc : 0 < mc) (sch : Sched) :
    traffic M N K (p * mc) (derive_schedule (ieee (noRounding 53) (noRounding 24) nf) cx M N K p mc) ≤
      traffic M N K (p * mc) sch := by
  rw [C24_schedule_rule nf cx ha hal M N K p mc hp hmc]
  have hpR : (0 : ℝ) < p := by exact_mod_cast hp
  have hcR : (0 : ℝ) < mc := by exact_mod_cast hmc
  have hS : (0 : ℝ) < p * mc := by positivity
  generalize (p : ℝ) * mc = S at *
  have cut : ∀ X : Nat, ((K : ℝ) ≤ 2 * X / (1 + X / S) ↔ (K : ℝ) + K * X / S ≤ 2 * X) := by
    intro X
    rw [le_div_iff₀ (by positivity), mul_add, mul_one, mul_div_assoc]
  simp only [cut]
  have hM : (0 : ℝ) ≤ M := by positivity
  have hN : (0 : ℝ) ≤ N := by positivity
  have hK : (0 : ℝ) ≤ K := by positivity
  -- differences of the three traffics
  have mk : traffic M N K S .KMN - traffic M N K S .MKN = N * (2 * M - (K + K * M / S)) := by
    simp only [traffic]; field_simp; ring
  have nk : traffic M N K S .KMN - traffic M N K S .NKM = M * (2 * N - (K + K * N / S)) := by
    simp only [traffic]; field_simp; ring
  have mn : traffic M N K S .NKM - traffic M N K S .MKN = K * (M - N) := by
    simp only [traffic]; ring
  have na : traffic M N K S .NA = traffic M N K S .KMN := rfl
  have all : ∀ x, x ≤ traffic M N K S .KMN → x ≤ traffic M N K S .MKN → x ≤ traffic M N K S .NKM → x ≤ traffic M N K S sch := by
    intro x h1 h2 h3
    cases sch
    · exact h1
    · exact h2
    · exact h3
    · rw [na]; exact h1
  have hMN : ∀ {a b : Nat}, a ≤ b → (0 : ℝ) ≤ K * (b - a) := by
    intro a b h
    have : (a : ℝ) ≤ b := by exact_mod_cast h
    exact mul_nonneg hK (by linarith)
  split
  · rename_i h
    have g1 := hMN h.1
    have g2 : (0 : ℝ) ≤ N * (2 * M - (K + K * M / S)) := mul_nonneg hN (by linarith [h.2])
    exact all _ (by linarith) le_rfl (by linarith)
  · rename_i h1
    split
    · rename_i h
      have g1 := hMN h.1
      have g2 : (0 : ℝ) ≤ M * (2 * N - (K + K * N / S)) := mul_nonneg hM (by linarith [h.2])
      have g3 : (K : ℝ) * (N - M) = -(K * (M - N)) := by ring
      exact all _ (by linarith) (by linarith) le_rfl
    · rename_i h2
      by_cases hNM : N ≤ M
      · have g1 := hMN hNM
        have hc : ¬ ((K : ℝ) + K * M / S ≤ 2 * M) := fun hc => h1 ⟨hNM, hc⟩
        have g2 : (0 : ℝ) ≤ N * ((K + K * M / S) - 2 * M) := mul_nonneg hN (by linarith)
        have g3 : (N : ℝ) * ((K + K * M / S) - 2 * M) = -(N * (2 * M - (K + K * M / S))) := by ring
        exact all _ le_rfl (by linarith) (by linarith)
      · have hNM' : M ≤ N := by omega
        have g1 := hMN hNM'
        have hc : ¬ ((K : ℝ) + K * N / S ≤ 2 * N) := fun hc => h2 ⟨hNM', hc⟩
        have g2 : (0 : ℝ) ≤ M * ((K + K * N / S) - 2 * N) := mul_nonneg hM (by linarith)
        have g3 : (M : ℝ) * ((K + K * N / S) - 2 * N) = -(M * (2 * N - (K + K * N / S))) := by ring
        have g4 : (K : ℝ) * (N - M) = -(K * (M - N)) := by ring
        exact all _ le_rfl (by linarith) (by linarith)

example (nf) := C24_minimises nf haswellCtx (alpha := 1) rfl one_pos 4096 1024 512 4 162 (by norm_num) (by norm_num) .KMN

/-- The bound on K below which `derive_schedule` chooses the schedule that keeps a block of C of `X` rows (columns). -/
noncomputable def cutK (r : Rounding 53) (rs : Rounding 24) (nf : Option ℝ → Option ℝ → Bool) (X p mc : Nat) : Option ℝ :=
  let fl := ieee r rs nf
  let k := fl.single (fl.ofInt ((p : ℤ) * mc))
  fl.single (fl.div (fl.mul (fl.ofInt 2) (fl.ofInt X))
    (fl.add (fl.ofInt 1) (fl.mul (fl.ofInt X) (fl.sub (fl.div (fl.ofInt 2) k) (fl.div (fl.ofInt 1) k)))))

/-- Under any rounding, for sizes up to 2^24, the comparisons of M with N are exact. -/
theorem derive_rounded (r : Rounding 53) (rs : Rounding 24) (nf : Option ℝ → Option ℝ → Bool)
    (cx : CCtx (Option ℝ)) {alpha : ℝ} (ha : cx.alpha_n = some alpha) (hal : 1 / 2 ^ 20 ≤ alpha) (hal' : alpha ≤ 2 ^ 20)
    (M N K p mc : Nat) (hp : 0 < p) (hmc : 0 < mc) (hp' : p ≤ 2 ^ 15) (hmc' : mc ≤ 2 ^ 15) (hM : M ≤ 2 ^ 24) (hN : N ≤ 2 ^ 24) :
    derive_schedule (ieee r rs nf) cx M N K p mc =
      if decide (N ≤ M) && (ieee r rs nf).le ((ieee r rs nf).single ((ieee r rs nf).ofInt K)) (cutK r rs nf M p mc) then .MKN
      else if decide (M ≤ N) && (ieee r rs nf).le ((ieee r rs nf).single ((ieee r rs nf).ofInt K)) (cutK r rs nf N p mc)
      then .NKM else .KMN := by
  have hpR : (1 : ℝ) ≤ p := by exact_mod_cast hp
  have hcR : (1 : ℝ) ≤ mc := by exact_mod_cast hmc
  have ep : r.rnd (p : ℝ) = p := r.nat p (by omega)
  have ec : r.rnd (mc : ℝ) = mc := r.nat mc (by omega)
  have eM : r.rnd (M : ℝ) = M := r.nat M (by omega)
  have eN : r.rnd (N : ℝ) = N := r.nat N (by omega)
  have e1 : r.rnd (1 : ℝ) = 1 := by have := r.nat 1 (by norm_num); simpa using this
  have sM : rs.rnd (M : ℝ) = M := rs.nat M (by omega)
  have sN : rs.rnd (N : ℝ) = N := rs.nat N (by omega)
  -- the block side is not rounded to zero
  have half : ∀ {pr : Nat} (q : Rounding pr) (x : ℝ), 1 ≤ pr → 1 / 2 ^ 40 ≤ x → x ≤ 2 ^ 60 → x / 2 ≤ q.rnd x ∧ q.rnd x ≤ 2 * x := by
    intro pr q x hpr h1 h2
    have hx : 0 < x := lt_of_lt_of_le (by positivity) h1
    have := q.err x (by rw [abs_of_pos hx]; exact le_trans (by norm_num) h1) (by rw [abs_of_pos hx]; exact h2.trans (by norm_num))
    rw [abs_of_pos hx] at this
    have h3 := abs_le.1 this
    have h4 : x / 2 ^ pr ≤ x / 2 := by
      apply div_le_div_of_nonneg_left hx.le (by norm_num)
      calc (2 : ℝ) = 2 ^ 1 := by norm_num
        _ ≤ 2 ^ pr := pow_le_pow_right₀ (by norm_num) hpr
    constructor <;> linarith [h3.1, h3.2]
  have hp15 : (p : ℝ) ≤ 32768 := by exact_mod_cast (show p ≤ 32768 by omega)
  have hc15 : (mc : ℝ) ≤ 32768 := by exact_mod_cast (show mc ≤ 32768 by omega)
  have hal0 : 0 < alpha := lt_of_lt_of_le (by positivity) hal
  have b1 : alpha ≤ alpha * p := le_mul_of_one_le_right hal0.le hpR
  have b1' : alpha * p ≤ 2 ^ 20 * 32768 := mul_le_mul hal' hp15 (by linarith) (by positivity)
  obtain ⟨l1, u1⟩ := half r (alpha * p) (by norm_num) (by norm_num at hal ⊢; linarith) (by norm_num at b1' ⊢; linarith)
  set y := r.rnd (alpha * p) with hy
  have y0 : 0 < y := by linarith
  have b2 : y ≤ y * mc := le_mul_of_one_le_right y0.le hcR
  have b2' : y * mc ≤ (2 * (2 ^ 20 * 32768)) * 32768 := mul_le_mul (by linarith) hc15 (by linarith) (by positivity)
  obtain ⟨l2, u2⟩ := half r (y * mc) (by norm_num) (by norm_num at hal ⊢; linarith) (by norm_num at b2' ⊢; linarith)
  set z := r.rnd (y * mc) with hz
  obtain ⟨l3, -⟩ := half rs z (by norm_num) (by norm_num at hal ⊢; linarith) (by norm_num at b2' u2 ⊢; linarith)
  set w := rs.rnd z with hw
  have w0 : w ≠ 0 := by
    have : 0 < w := by linarith
    exact this.ne'
  have key : ∀ X : Nat, r.rnd (X : ℝ) = X → rs.rnd (X : ℝ) = X →
      (ieee r rs nf).single ((ieee r rs nf).div ((ieee r rs nf).ofInt X) ((ieee r rs nf).add ((ieee r rs nf).ofInt 1)
        ((ieee r rs nf).mul ((ieee r rs nf).ofInt X) ((ieee r rs nf).sub ((ieee r rs nf).div ((ieee r rs nf).ofInt 1) (some w))
          ((ieee r rs nf).div ((ieee r rs nf).ofInt 1) (some w)))))) = some (X : ℝ) := by
    intro X hX hX'
    simp only [ieee, Option.bind_some, Int.cast_natCast, Int.cast_one, if_neg w0, sub_self, r.zero, mul_zero, add_zero, e1,
      one_ne_zero, if_false, div_one, hX, hX']
  have hside : (ieee r rs nf).single ((ieee r rs nf).mul ((ieee r rs nf).mul cx.alpha_n ((ieee r rs nf).ofInt p))
      ((ieee r rs nf).ofInt mc)) = some w := by
    rw [ha]
    simp only [ieee, Option.bind_some, Int.cast_natCast, ep, ec, ← hy, ← hz, ← hw]
  have hone : ∀ X : Nat, r.rnd (X : ℝ) = X → rs.rnd (X : ℝ) = X →
      (ieee r rs nf).single ((ieee r rs nf).ofInt X) = some (X : ℝ) := by
    intro X hX hX'
    simp only [ieee, Option.bind_some, Int.cast_natCast, hX, hX']
  have hle : ∀ X Y : Nat, (ieee r rs nf).le (some (X : ℝ)) (some (Y : ℝ)) = decide (X ≤ Y) := by
    intro X Y
    simp only [ieee, Nat.cast_le]
  unfold derive_schedule
  simp only
  rw [hside, key M eM sM, key N eN sN, hone M eM sM, hone N eN sN, hle, hle]
  rfl

/-- **C24 with rounding.** Under any rounding, for sizes up to 2^24, the choice between M-first and N-first is not
affected by rounding errors: M-first is selected only if `N ≤ M`, N-first only if `M ≤ N`. -/
theorem C24_rounded_direction (r : Rounding 53) (rs : Rounding 24) (nf : Option ℝ → Option ℝ → Bool)
    (cx : CCtx (Option ℝ)) {alpha : ℝ} (ha : cx.alpha_n = some alpha) (hal : 1 / 2 ^ 20 ≤ alpha) (hal' : alpha ≤ 2 ^ 20)
    (M N K p mc : Nat) (hp : 0 < p) (hmc : 0 < mc) (hp' : p ≤ 2 ^ 15) (hmc' : mc ≤ 2 ^ 15) (hM : M ≤ 2 ^ 24) (hN : N ≤ 2 ^ 24) :
    (derive_schedule (ieee r rs nf) cx M N K p mc = .MKN → N ≤ M) ∧
    (derive_schedule (ieee r rs nf) cx M N K p mc = .NKM → M ≤ N) := by
  rw [derive_rounded r rs nf cx ha hal hal' M N K p mc hp hmc hp' hmc' hM hN]
  constructor
  · intro h
    by_contra hc
    rw [if_neg (by simp [hc])] at h
    split at h <;> cases h
  · intro h
    split at h
    · cases h
    · split at h
      · rename_i h2
        simp only [Bool.and_eq_true, decide_eq_true_eq] at h2
        exact h2.1
      · cases h

example (r rs nf) := C24_rounded_direction r rs nf haswellCtx (alpha := 1) rfl (by norm_num) (by norm_num) 4096 1024 512 4 162
  (by norm_num) (by norm_num) (by norm_num) (by norm_num) (by norm_num) (by norm_num)

/-- If the rows fit a third of the threads' block, the bound on K is at least the number of rows. -/
theorem cutK_ge (r : Rounding 53) (rs : Rounding 24) (nf : Option ℝ → Option ℝ → Bool) {X p mc : Nat} (hX : 0 < X)
    (h3 : 3 * X ≤ p * mc) (hS : p * mc ≤ 2 ^ 30) (hX' : X ≤ 2 ^ 22) : ∃ c : ℝ, cutK r rs nf X p mc = some c ∧ (X : ℝ) ≤ c := by
  have hXR : (1 : ℝ) ≤ X := by exact_mod_cast hX
  have hXU : (X : ℝ) ≤ 4194304 := by exact_mod_cast (show X ≤ 4194304 by omega)
  have eS : r.rnd ((p * mc : ℕ) : ℝ) = (p * mc : ℕ) := r.nat _ (by omega)
  have e1 : r.rnd (1 : ℝ) = 1 := by have := r.nat 1 (by norm_num); simpa using this
  have e2 : r.rnd (2 : ℝ) = 2 := by have := r.nat 2 (by norm_num); simpa using this
  have eX : r.rnd (X : ℝ) = X := r.nat X (by omega)
  have e2X : r.rnd (2 * (X : ℝ)) = 2 * X := by have := r.nat (2 * X) (by omega); push_cast at this; exact this
  -- the block side in single precision
  set κ := rs.rnd ((p * mc : ℕ) : ℝ) with hκ
  have κ3 : 3 * (X : ℝ) ≤ κ := by
    have h1 : ((3 * X : ℕ) : ℝ) ≤ ((p * mc : ℕ) : ℝ) := by exact_mod_cast h3
    have h2 := rs.mono h1
    rw [rs.nat (3 * X) (by omega)] at h2
    calc 3 * (X : ℝ) = ((3 * X : ℕ) : ℝ) := by push_cast; ring
      _ ≤ κ := h2
  have κ0 : 0 < κ := by linarith
  -- the quotients
  have up : ∀ (x b : ℝ), 0 < b → 2 ^ (-60 : ℤ) ≤ b → b ≤ 2 → x ≤ b → r.rnd x ≤ b * (1 + 1 / 100) := by
    intro x b hb h1 h2 hx
    have h := r.err b (by rw [abs_of_pos hb]; exact le_trans (by norm_num) h1) (by rw [abs_of_pos hb]; exact h2.trans (by norm_num))
    rw [abs_of_pos hb] at h
    have h4 := (abs_le.1 h).2
    have h5 : b / 2 ^ 53 ≤ b * (1 / 100) := by rw [div_eq_mul_one_div]; exact mul_le_mul_of_nonneg_left (by norm_num) hb.le
    have := r.mono hx
    linarith
  have X0 : (0 : ℝ) < X := by linarith
  have inv : (1 : ℝ) / 4194304 ≤ 1 / X := one_div_le_one_div_of_le X0 hXU
  have inv1 : 1 / (X : ℝ) ≤ 1 := by rw [div_le_one X0]; exact hXR
  have q2 : 2 / κ ≤ 2 / 3 * (1 / X) := by
    rw [div_le_iff₀ κ0]
    have : 2 / 3 * (1 / (X : ℝ)) * (3 * X) = 2 := by field_simp
    calc (2 : ℝ) = 2 / 3 * (1 / (X : ℝ)) * (3 * X) := this.symm
      _ ≤ _ := mul_le_mul_of_nonneg_left κ3 (by positivity)
  have a1 := up (2 / κ) (2 / 3 * (1 / X)) (by positivity) (by norm_num at inv ⊢; linarith) (by linarith) q2
  have a0 : r.rnd (1 / κ) ≤ r.rnd (2 / κ) := r.mono (by gcongr; norm_num)
  have b0 : 0 ≤ r.rnd (1 / κ) := r.nonneg (by positivity)
  set d := r.rnd (2 / κ) - r.rnd (1 / κ) with hd
  have d0 : 0 ≤ d := by rw [hd]; linarith
  have d1 : d ≤ 7 / 10 * (1 / X) := by
    have : 2 / 3 * (1 / (X : ℝ)) * (1 + 1 / 100) ≤ 7 / 10 * (1 / X) := by
      have : (0 : ℝ) < 1 / X := by positivity
      nlinarith
    rw [hd]; linarith
  have c1 := up d (7 / 10 * (1 / X)) (by positivity) (by norm_num at inv ⊢; linarith) (by linarith) d1
  have c0 : 0 ≤ r.rnd d := r.nonneg d0
  have m1 : (X : ℝ) * r.rnd d ≤ 1 := by
    have h1 := mul_le_mul_of_nonneg_left c1 X0.le
    have h2 : (X : ℝ) * (7 / 10 * (1 / X) * (1 + 1 / 100)) = 707 / 1000 := by field_simp; norm_num
    linarith
  have m0 : 0 ≤ (X : ℝ) * r.rnd d := mul_nonneg X0.le c0
  have n1 : r.rnd (X * r.rnd d) ≤ 1 := by have := r.mono m1; rwa [e1] at this
  have n0 : 0 ≤ r.rnd (X * r.rnd d) := r.nonneg m0
  set D := r.rnd (1 + r.rnd (X * r.rnd d)) with hD
  have D2 : D ≤ 2 := by have := r.mono (show 1 + r.rnd (X * r.rnd d) ≤ 2 by linarith); rwa [e2] at this
  have D1 : 1 ≤ D := by have := r.mono (show 1 ≤ 1 + r.rnd (X * r.rnd d) by linarith); rwa [e1] at this
  have q : (X : ℝ) ≤ 2 * X / D := by
    rw [le_div_iff₀ (by linarith)]
    nlinarith
  refine ⟨rs.rnd (r.rnd (2 * X / D)), ?_, ?_⟩
  · have hS' : (((p : ℤ) * (mc : ℤ) : ℤ) : ℝ) = ((p * mc : ℕ) : ℝ) := by push_cast; ring
    simp only [cutK, ieee, Option.bind_some, Int.cast_natCast, Int.cast_one, Int.cast_ofNat, hS', eS, ← hκ, e1, e2, eX, e2X,
      if_neg κ0.ne', ← hd, ← hD, if_neg (show D ≠ 0 by linarith)]
  · have h1 := r.mono q
    rw [eX] at h1
    have h2 := rs.mono h1
    rwa [rs.nat X (by omega)] at h2

/-- **C24 with rounding, small products.** Under any rounding: if the rows fit a third of the threads' block, and
neither N nor K exceeds M, the M-first schedule is chosen. -/
theorem C24_rounded_small (r : Rounding 53) (rs : Rounding 24) (nf : Option ℝ → Option ℝ → Bool)
    (cx : CCtx (Option ℝ)) {alpha : ℝ} (ha : cx.alpha_n = some alpha) (hal : 1 / 2 ^ 20 ≤ alpha) (hal' : alpha ≤ 2 ^ 20)
    (M N K p mc : Nat) (hp : 0 < p) (hmc : 0 < mc) (hp' : p ≤ 2 ^ 15) (hmc' : mc ≤ 2 ^ 15) (hM : 0 < M) (hM' : M ≤ 2 ^ 22)
    (h3 : 3 * M ≤ p * mc) (hN : N ≤ M) (hK : K ≤ M) :
    derive_schedule (ieee r rs nf) cx M N K p mc = .MKN := by
  rw [derive_rounded r rs nf cx ha hal hal' M N K p mc hp hmc hp' hmc' (by omega) (by omega)]
  have hS : p * mc ≤ 2 ^ 30 := by
    calc p * mc ≤ 2 ^ 15 * 2 ^ 15 := Nat.mul_le_mul hp' hmc'
      _ = 2 ^ 30 := by norm_num
  obtain ⟨c, hc, hle⟩ := cutK_ge r rs nf hM h3 hS hM'
  have hKc : (ieee r rs nf).le ((ieee r rs nf).single ((ieee r rs nf).ofInt K)) (cutK r rs nf M p mc) = true := by
    rw [hc]
    have h1 : ((K : ℕ) : ℝ) ≤ M := by exact_mod_cast hK
    simp only [ieee, Option.bind_some, Int.cast_natCast, r.nat K (by omega), rs.nat K (by omega), decide_eq_true_eq]
    exact h1.trans hle
  rw [hKc]
  simp [hN]

example (r rs nf) := C24_rounded_small r rs nf haswellCtx (alpha := 1) rfl (by norm_num) (by norm_num) 200 100 150 4 162
  (by norm_num) (by norm_num) (by norm_num) (by norm_num) (by norm_num) (by norm_num) (by norm_num) (by norm_num) (by norm_num)

end

end Cake
