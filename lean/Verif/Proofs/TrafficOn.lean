/-
How often the products that pack on the fly read their operands, and how often they write C.
-/
import Verif.Proofs.Traffic

namespace Cake
open List

/-- Reads from an array by a list of operations. -/
def bufReads (b : Buf) (os : List Op) : Nat := (os.flatMap Op.reads).countP fun l => decide (l.buf = b)

/-- Reads from an array by a program. -/
def bufLoads (b : Buf) (prog : Prog) : Nat := bufReads b (progOps prog)

theorem bufReads_append (b : Buf) (x y : List Op) : bufReads b (x ++ y) = bufReads b x + bufReads b y := by
  unfold bufReads; rw [flatMap_append, countP_append]

theorem bufReads_flatMap {β : Type _} (b : Buf) (xs : List β) (f : β → List Op) :
    bufReads b (xs.flatMap f) = (xs.map fun x => bufReads b (f x)).sum := by
  induction xs with
  | nil => rfl
  | cons x xs ih => rw [flatMap_cons, bufReads_append, ih, map_cons, sum_cons]

theorem bufReads_foot {b : Buf} {os : List Op} {Wr : Buf → Prop} (h : All (FOp Wr fun b' => b' ≠ b) os) : bufReads b os = 0 := by
  unfold bufReads
  rw [countP_eq_zero]
  intro l hl
  obtain ⟨o, ho, hl⟩ := mem_flatMap.1 hl
  simpa using (h o ho).2 l hl

theorem bufLoads_flows (b : Buf) : Flows (bufLoads b) where
  nil := rfl
  append x y := by unfold bufLoads progOps; rw [flatMap_append, bufReads_append]
  other it h := by cases it <;> first | rfl | exact absurd rfl (h _)

theorem progOps_one (ts : List (List Op)) : progOps [.par ts] = ts.flatten := by
  unfold progOps; rw [flatMap_cons, flatMap_nil, append_nil]

theorem bufLoads_par (b : Buf) (ts : List (List Op)) : bufLoads b [.par ts] = (ts.map (bufReads b)).sum := by
  unfold bufLoads
  rw [progOps_one, ← bufReads_flatMap, flatMap_id']

theorem stores_par (l : Loc) (ts : List (List Op)) : stores l [.par ts] = (ts.map (writeCount l)).sum := by
  unfold stores
  rw [progOps_one, ← writeCount_flatMap, flatMap_id']

/-- A packing loop reads one element per element of the block. -/
theorem gstrips_reads {dst : Buf} {src : Loc} {d n k : Nat} {f : Nat → Nat → Nat} (hd : 0 < d) (hn : d ∣ n) :
    bufReads src.buf (gstrips dst src d n k f).flatten = n * k := by
  obtain ⟨q, rfl⟩ := hn
  rw [Nat.mul_comm d q, gstrips_flat hd, bufReads_flatMap]
  have e : ∀ t : Nat, bufReads src.buf ((range k).flatMap fun i => (range d).flatMap fun j =>
      [Op.copy ⟨dst, t * d * k + (i * d + j)⟩ (src +ₚ f (t * d + j) i)]) = k * d := by
    intro t
    rw [bufReads_flatMap, sum_congr (g := fun _ => d)]
    · simp
    · intro i _
      rw [bufReads_flatMap, sum_congr (g := fun _ => 1)]
      · simp
      · intro j _
        simp [bufReads, Op.reads, Loc.off]
  rw [sum_congr (g := fun _ => k * d) fun t _ => e t]
  simp only [map_const', length_range, sum_replicate_nat]
  ring

theorem gstrips_foot {Wr Rd : Buf → Prop} {dst : Buf} {src : Loc} {d n k : Nat} {f : Nat → Nat → Nat} (h : Wr dst) (h' : Rd src.buf) :
    All (FOp Wr Rd) (gstrips dst src d n k f).flatten := by
  unfold gstrips
  rw [← flatMap_def]
  foot

/-- A sum without one of its terms. -/
theorem sum_skip {β : Type _} [DecidableEq β] {l : List β} (hn : l.Nodup) {a : β} (ha : a ∈ l) (f : β → Nat) :
    (l.map fun x => if x = a then 0 else f x).sum + f a = (l.map f).sum := by
  induction l with
  | nil => cases ha
  | cons x l ih =>
    rw [nodup_cons] at hn
    rw [map_cons, sum_cons, map_cons, sum_cons]
    rcases mem_cons.1 ha with rfl | ha
    · rw [if_pos rfl, sum_congr (g := f), Nat.zero_add, Nat.add_comm]
      intro y hy
      rw [if_neg]
      rintro rfl
      exact hn.1 hy
    · rw [if_neg (fun e : x = a => hn.1 (e ▸ ha)), ← ih hn.2 ha, Nat.add_assoc]

theorem sum_add {β : Type _} (l : List β) (f g : β → Nat) : (l.map fun x => f x + g x).sum = (l.map f).sum + (l.map g).sum := by
  induction l with
  | nil => rfl
  | cons x l ih => rw [map_cons, sum_cons, ih, map_cons, map_cons, sum_cons, sum_cons]; omega

/-- First block of K of a pair of blocks of N and M. -/
def kFirst (Kb n m : Nat) : Nat := serpStart (kDesc n m) Kb

/-- First row of blocks in column `n` of blocks. -/
def mFirst (Mb n : Nat) : Nat := serpStart (n % 2 != 0) Mb

theorem serpStart_lt {d : Bool} {n : Nat} (h : 0 < n) : serpStart d n < n := by
  unfold serpStart; split <;> omega

/-- What a snake moves, with the blocks it finds already packed: `sel` chooses the flag for the operand, which is set in the first step
of the blocks in `c`. -/
theorem snake_flow {μ : Prog → Nat} (hμ : Sums μ) {Nb Mb Kb : Nat} (hk : 0 < Kb)
    {step : Nat → Nat → Nat → Bool → Bool → Prog} {fin : Nat → Nat → Prog} {W : Nat → Nat → Nat → Nat}
    {c : Nat → Nat → Bool}
    (hs : ∀ n m k, n < Nb → m < Mb → k < Kb → μ (step n m k (k == kFirst Kb n m && m == mFirst Mb n && n != 0)
      (k == kFirst Kb n m && m != mFirst Mb n)) = if k = kFirst Kb n m ∧ c n m then 0 else W n m k)
    (hf : ∀ n m, n < Nb → m < Mb → μ (fin n m) = 0) :
    μ (snakeProg Nb Mb Kb step fin) +
      ((range Nb).map fun n => ((range Mb).map fun m => if c n m then W n m (kFirst Kb n m) else 0).sum).sum =
      ((range Nb).map fun n => ((range Mb).map fun m => ((range Kb).map (W n m)).sum).sum).sum := by
  unfold snakeProg
  rw [hμ.flatMap, ← sum_add]
  apply sum_congr
  intro n hn
  rw [mem_range] at hn
  rw [hμ.flatMap, sum_serp, ← sum_add]
  apply sum_congr
  intro m hm
  rw [mem_range] at hm
  rw [hμ.append, hf n m hn hm, hμ.flatMap, Nat.add_zero, sum_serp]
  change (map (fun k => μ (step n m k (k == kFirst Kb n m && m == mFirst Mb n && n != 0)
      (k == kFirst Kb n m && m != mFirst Mb n))) (range Kb)).sum + _ = _
  rw [sum_congr (g := fun k => if k = kFirst Kb n m ∧ c n m then 0 else W n m k) fun k hk => hs n m k hn hm (mem_range.1 hk)]
  split
  · rename_i hc
    simp only [hc, and_true]
    exact sum_skip nodup_range (mem_range.2 (serpStart_lt hk)) _
  · rename_i hc
    simp [hc]

/-- A snake in which only the ends of blocks count, and of those only one. -/
theorem snake_once {μ : Prog → Nat} (hμ : Sums μ) {Nb Mb Kb : Nat}
    {step : Nat → Nat → Nat → Bool → Bool → Prog} {fin : Nat → Nat → Prog}
    (hs : ∀ n m k a b, n < Nb → m < Mb → k < Kb → μ (step n m k a b) = 0) :
    (∀ n0 m0, n0 < Nb → m0 < Mb → (∀ n m, n < Nb → m < Mb → (n ≠ n0 ∨ m ≠ m0) → μ (fin n m) = 0) →
      μ (snakeProg Nb Mb Kb step fin) = μ (fin n0 m0)) ∧
    ((∀ n m, n < Nb → m < Mb → μ (fin n m) = 0) → μ (snakeProg Nb Mb Kb step fin) = 0) := by
  have e : μ (snakeProg Nb Mb Kb step fin) = ((range Nb).map fun n => ((range Mb).map fun m => μ (fin n m)).sum).sum := by
    unfold snakeProg
    rw [hμ.flatMap]
    apply sum_congr
    intro n hn
    rw [mem_range] at hn
    rw [hμ.flatMap, sum_serp]
    apply sum_congr
    intro m hm
    rw [mem_range] at hm
    rw [hμ.append, hμ.flatMap, sum_serp, sum_zero fun k hk => hs n m k _ _ hn hm (mem_range.1 hk), Nat.zero_add]
  rw [e]
  constructor
  · intro n0 m0 hn0 hm0 hz
    rw [sum_one nodup_range (mem_range.2 hn0), sum_one nodup_range (mem_range.2 hm0)]
    · intro m hm hne
      exact hz _ _ hn0 (mem_range.1 hm) (.inr hne)
    · intro n hn hne
      exact sum_zero fun m hm => hz _ _ (mem_range.1 hn) (mem_range.1 hm) (.inl hne)
  · intro hz
    exact sum_zero fun n hn => sum_zero fun m hm => hz _ _ (mem_range.1 hn) (mem_range.1 hm)

/-! ### Writes to C -/

section
variable {g : Geo} {M N p m_r n_r m_c n_c : Nat} {unp : Nat → List Op} (hg : g.OK M N p m_r n_r m_c n_c)
  (hu : UnpOK g unp M N m_r n_r)
include hu

/-- A core writes the element of its rectangle at a place. -/
theorem gUnp_dst {i row col z : Nat} (hi : i < g.u) (hcol : col < N) {o : Op}
    (ho : o ∈ unp i ++ memset0 ⟨.CpC i, 0⟩ z) (e : o.dst = ⟨.C, row * N + col⟩) :
    ∃ r c, r < g.mt i ∧ c < g.nt i ∧ g.rb i + r = row ∧ g.cb i + c = col ∧
      o = .copy ⟨.C, (g.rb i + r) * N + (g.cb i + c)⟩ ⟨.CpC i, cIdx m_r n_r (g.mt i) r c⟩ := by
  rcases mem_append.1 ho with ho | ho
  · obtain ⟨r, c, hr, hc, h1, h2, rfl⟩ := (hu i hi o).1 ho
    simp only [Op.dst, Loc.mk.injEq, true_and] at e
    obtain ⟨e1, e2⟩ := mulAdd_inj h2 hcol e
    exact ⟨r, c, hr, hc, e1, e2, rfl⟩
  · obtain ⟨x, _, rfl⟩ := mem_map.1 ho
    simp [Op.dst, Loc.off] at e

theorem gUnpack_none {row col : Nat} (hcol : col < N)
    (h : ∀ i r c, i < g.u → r < g.mt i → c < g.nt i → g.rb i + r = row → g.cb i + c = col → False) :
    stores ⟨.C, row * N + col⟩ [.par (gUnpack g unp m_c n_c)] = 0 := by
  unfold gUnpack
  rw [stores_par, map_map]
  refine sum_zero fun i hi => writeCount_zero fun o ho e => ?_
  obtain ⟨r, c, hr, hc, e1, e2, _⟩ := gUnp_dst hu (mem_range.1 hi) hcol ho e
  exact h i r c (mem_range.1 hi) hr hc e1 e2

theorem gUnpack_out {x : Nat} (hx : M * N ≤ x) : stores ⟨.C, x⟩ [.par (gUnpack g unp m_c n_c)] = 0 := by
  unfold gUnpack
  rw [stores_par, map_map]
  refine sum_zero fun i hi => writeCount_zero fun o ho e => ?_
  rcases mem_append.1 ho with ho | ho
  · obtain ⟨r, c, hr, hc, h1, h2, rfl⟩ := (hu i (mem_range.1 hi) o).1 ho
    simp only [Op.dst, Loc.mk.injEq, true_and] at e
    have := mulAdd_lt h1 h2
    omega
  · obtain ⟨x, _, rfl⟩ := mem_map.1 ho
    simp [Op.dst, Loc.off] at e

include hg
theorem gUnpack_one (hnd : ∀ i, i < g.u → (unp i).Nodup) {i r c : Nat} (hi : i < g.u) (hr : r < g.mt i) (hc : c < g.nt i)
    (hrow : g.rb i + r < M) (hcol : g.cb i + c < N) :
    stores ⟨.C, (g.rb i + r) * N + (g.cb i + c)⟩ [.par (gUnpack g unp m_c n_c)] = 1 := by
  unfold gUnpack
  rw [stores_par, map_map, sum_one nodup_range (mem_range.2 hi)]
  · simp only [Function.comp_apply]
    rw [writeCount_append, writeCount_zero (os := memset0 _ _), Nat.add_zero]
    · refine writeCount_one (hnd i hi) ((hu i hi _).2 ⟨r, c, hr, hc, hrow, hcol, rfl⟩) rfl ?_
      intro o' ho' e
      obtain ⟨r', c', hr', hc', e1, e2, rfl⟩ := gUnp_dst (z := 0) hu hi hcol (mem_append_left _ ho') e
      obtain rfl : r' = r := by omega
      obtain rfl : c' = c := by omega
      rfl
    · intro o ho e
      obtain ⟨x, _, rfl⟩ := mem_map.1 ho
      simp [Op.dst, Loc.off] at e
  · intro j hj hne
    refine writeCount_zero fun o ho e => ?_
    obtain ⟨r', c', hr', hc', e1, e2, _⟩ := gUnp_dst hu (mem_range.1 hj) hcol ho e
    exact hne (hg.disj j i (mem_range.1 hj) hi r' r c' c hr' hr hc' hc e1 e2 (e1 ▸ hrow) (e2 ▸ hcol))

end

theorem gTasks_foot {g : Geo} {kd : KDim} {pre : Nat → List Op} {aL bL : Nat → Loc} {m_r n_r kc : Nat} {Wr Rd : Buf → Prop}
    (hp : ∀ i, All (FOp Wr Rd) (pre i)) (hr : ∀ i, Wr (.reg i) ∧ Rd (.reg i)) (hc : ∀ i, Wr (.CpC i) ∧ Rd (.CpC i))
    (ha : ∀ i, Rd (aL i).buf) (hb : ∀ i, Rd (bL i).buf) :
    All (IFoot Wr Rd fun _ => True) [.par (gTasks g kd pre aL bL m_r n_r kc)] := by
  refine .cons ?_ .nil
  show All (All (FOp Wr Rd)) _
  unfold gTasks
  exact .map fun i => (hp i).append (regTiles_foot (hr i).1 (hr i).2 (ha i) (hb i) (hc i).1 (hc i).2)

theorem bufLoads_foot {b : Buf} {Wr Ob : Buf → Prop} {q : Prog} (h : All (IFoot Wr (fun b' => b' ≠ b) Ob) q) : bufLoads b q = 0 :=
  bufReads_foot (IFoot.ops h)

/-- The operand that stays while the snake turns. -/
theorem snake_loads_A {μ : Prog → Nat} (hμ : Sums μ) {Nb Mb K k_c : Nat} (hK : 0 < K) (hkc : 0 < k_c) (hM : 0 < Mb)
    {step : Nat → Nat → Nat → Bool → Bool → Prog} {fin : Nat → Nat → Prog} {w : Nat → Nat}
    (hs : ∀ n m k a b, n < Nb → m < Mb → k < cdiv K k_c → μ (step n m k a b) = if a then 0 else w m * chopLen K k_c k)
    (hf : ∀ n m, n < Nb → m < Mb → μ (fin n m) = 0) :
    μ (snakeProg Nb Mb (cdiv K k_c) step fin) + ((range (Nb - 1)).map fun n =>
        w (mFirst Mb (n + 1)) * chopLen K k_c (kFirst (cdiv K k_c) (n + 1) (mFirst Mb (n + 1)))).sum =
      Nb * (((range Mb).map w).sum * K) := by
  have key := snake_flow hμ (cdiv_pos hK hkc) (step := step) (W := fun _ m k => w m * chopLen K k_c k)
    (c := fun n m => m == mFirst Mb n && n != 0) (Nb := Nb) (Mb := Mb) (fin := fin) (by
      intro n m k hn hm hk
      rw [hs n m k _ _ hn hm hk]
      congr 1
      simp [and_assoc]) hf
  have e1 : ((range Nb).map fun n => ((range Mb).map fun m => ((range (cdiv K k_c)).map fun k => w m * chopLen K k_c k).sum).sum).sum =
      Nb * (((range Mb).map w).sum * K) := by
    rw [sum_congr (g := fun _ => ((range Mb).map w).sum * K)]
    · simp
    · intro n _
      rw [← sum_mulr]
      apply sum_congr
      intro m _
      rw [sum_mull, sum_chop hkc]
  rw [e1] at key
  rw [← key]
  congr 1
  have e2 : ∀ n, ((range Mb).map fun m => if (m == mFirst Mb n && n != 0) = true then
      w m * chopLen K k_c (kFirst (cdiv K k_c) n m) else 0).sum =
      if n = 0 then 0 else w (mFirst Mb n) * chopLen K k_c (kFirst (cdiv K k_c) n (mFirst Mb n)) := by
    intro n
    rw [sum_one nodup_range (mem_range.2 (serpStart_lt (d := n % 2 != 0) hM))]
    · change (if (mFirst Mb n == mFirst Mb n && n != 0) = true then
        w (mFirst Mb n) * chopLen K k_c (kFirst (cdiv K k_c) n (mFirst Mb n)) else 0) = _
      by_cases h0 : n = 0 <;> simp [h0]
    · intro m _ hne
      rw [if_neg]
      have : m ≠ mFirst Mb n := hne
      simp [this]
  rw [sum_congr fun n _ => e2 n]
  cases Nb with
  | zero => rfl
  | succ N0 =>
    rw [Nat.add_sub_cancel, range_succ_eq_map, map_cons, sum_cons, if_pos rfl, Nat.zero_add, map_map]
    apply sum_congr
    intro n _
    simp

/-- The operand that changes at every step but the turns. -/
theorem snake_loads_B {μ : Prog → Nat} (hμ : Sums μ) {Nb Mb K k_c : Nat} (hK : 0 < K) (hkc : 0 < k_c)
    {step : Nat → Nat → Nat → Bool → Bool → Prog} {fin : Nat → Nat → Prog} {w : Nat → Nat}
    (hs : ∀ n m k a b, n < Nb → m < Mb → k < cdiv K k_c → μ (step n m k a b) = if b then 0 else w n * chopLen K k_c k)
    (hf : ∀ n m, n < Nb → m < Mb → μ (fin n m) = 0) :
    μ (snakeProg Nb Mb (cdiv K k_c) step fin) + ((range Nb).map fun n => ((range Mb).map fun m =>
        if m = mFirst Mb n then 0 else w n * chopLen K k_c (kFirst (cdiv K k_c) n m)).sum).sum =
      Mb * (((range Nb).map w).sum * K) := by
  have key := snake_flow hμ (cdiv_pos hK hkc) (step := step) (W := fun n _ k => w n * chopLen K k_c k)
    (c := fun n m => m != mFirst Mb n) (Nb := Nb) (Mb := Mb) (fin := fin) (by
      intro n m k hn hm hk
      rw [hs n m k _ _ hn hm hk]
      congr 1
      simp) hf
  have e1 : ((range Nb).map fun n => ((range Mb).map fun _ => ((range (cdiv K k_c)).map fun k => w n * chopLen K k_c k).sum).sum).sum =
      Mb * (((range Nb).map w).sum * K) := by
    rw [sum_congr (g := fun n => (Mb * K) * w n)]
    · rw [sum_mull]; ring
    · intro n _
      rw [sum_mull, sum_chop hkc]
      simp only [map_const', length_range, sum_replicate_nat]
      ring
  rw [e1] at key
  rw [← key]
  congr 1
  refine sum_congr fun n _ => sum_congr fun m _ => ?_
  by_cases h0 : m = mFirst Mb n <;> simp [h0]

theorem gTasks_loads {g : Geo} {kd : KDim} {pre : Nat → List Op} {aL bL : Nat → Loc} {m_r n_r kc : Nat} {b : Buf}
    (hr : ∀ i, .reg i ≠ b) (hc : ∀ i, .CpC i ≠ b) (ha : ∀ i, (aL i).buf ≠ b) (hb : ∀ i, (bL i).buf ≠ b) :
    bufLoads b [.par (gTasks g kd pre aL bL m_r n_r kc)] = ((range g.u).map fun i => bufReads b (pre i)).sum := by
  unfold gTasks
  rw [bufLoads_par, map_map]
  apply sum_congr
  intro i _
  simp only [Function.comp_apply]
  rw [bufReads_append, bufReads_foot (Wr := fun _ => True) (os := regTiles _ _ _ _ _ _ _ _ _ _), Nat.add_zero]
  exact regTiles_foot trivial (hr i) (ha i) (hb i) trivial (hc i)

theorem gUnpack_loads {g : Geo} {unp : Nat → List Op} {m_c n_c : Nat} {b : Buf} (h : ∀ i, bufReads b (unp i) = 0) :
    bufLoads b [.par (gUnpack g unp m_c n_c)] = 0 := by
  unfold gUnpack
  rw [bufLoads_par, map_map]
  apply sum_zero
  intro i _
  simp only [Function.comp_apply]
  rw [bufReads_append, h, bufReads_foot (Wr := fun _ => True) (memset_foot trivial)]

/-! ### Online -/

section
variable {M N K p m_r n_r m_c k_c n_c : Nat} (h : TileOK p m_r n_r m_c k_c n_c) {kd : KDim}

theorem onUnp_reads {b : Buf} (hc : ∀ i, .CpC i ≠ b) {n m i : Nat} : bufReads b (onUnp M N p m_r n_r m_c n_c n m i) = 0 :=
  bufReads_foot (Wr := fun _ => True) (unpackC_ob_foot trivial (hc i))

theorem onStep_C {x n m k : Nat} {a b : Bool} : stores ⟨.C, x⟩ (onStep kd M N K p m_r n_r m_c k_c n_c n m k a b) = 0 := by
  unfold onStep
  rw [(stores_sums _).append, stores_foot (gTasks_foot (Wr := fun b' => b' ≠ .C) (Rd := fun _ => True) (fun i => ?_)
    (fun i => by simp) (fun i => by simp) (fun i => trivial) (fun i => trivial)) (by simp), Nat.add_zero]
  · split
    · rfl
    · rw [stores_par, ← writeCount_flatMap, flatMap_id']
      exact writeCount_zero fun o ho e =>
        (gstrips_foot (Wr := fun b' => b' ≠ .C) (Rd := fun _ => True) (by simp) trivial o ho).1 (by rw [e])
  · unfold onPre
    exact .ite .nil (gstrips_foot (by simp) trivial)

include h

theorem onStep_A {n m k : Nat} {a b : Bool} (hm : m < cdiv M (p * m_c)) :
    bufLoads .A (onStep kd M N K p m_r n_r m_c k_c n_c n m k a b) = if a then 0 else mLen M p m_r m_c m * chopLen K k_c k := by
  unfold onStep
  rw [(bufLoads_flows _).append, gTasks_loads (by simp) (by simp) (by simp) (by simp)]
  have e1 : bufLoads .A (if b = true then [] else [.par (gstrips .Bp (⟨.B, 0⟩ +ₚ (n * n_c + k * k_c * N)) n_r (nLen N n_r n_c n)
    (chopLen K k_c k) (fun c i => i * N + c))]) = 0 := by
    split
    · rfl
    · rw [bufLoads_par, ← bufReads_flatMap, flatMap_id']
      exact bufReads_foot (Wr := fun _ => True) (gstrips_foot trivial (by simp [Loc.off]))
  rw [e1, Nat.zero_add]
  split
  · rename_i ha
    refine sum_zero fun i _ => ?_
    unfold onPre
    rw [if_pos ha]
    rfl
  · rename_i ha
    rw [← sum_mT h hm, ← sum_mulr]
    refine sum_congr fun i _ => ?_
    unfold onPre
    rw [if_neg ha]
    exact gstrips_reads (src := ⟨.A, 0⟩ +ₚ _) h.m_r_pos (mT_dvd h hm)

theorem onStep_B {n m k : Nat} {a b : Bool} :
    bufLoads .B (onStep kd M N K p m_r n_r m_c k_c n_c n m k a b) = if b then 0 else nLen N n_r n_c n * chopLen K k_c k := by
  unfold onStep
  rw [(bufLoads_flows _).append, gTasks_loads (by simp) (by simp) (by simp) (by simp), sum_zero, Nat.add_zero]
  · split
    · rfl
    · rw [bufLoads_par, ← bufReads_flatMap, flatMap_id']
      exact gstrips_reads (src := ⟨.B, 0⟩ +ₚ _) h.n_r_pos (nLen_dvd h)
  · intro i _
    unfold onPre
    split
    · rfl
    · exact bufReads_foot (Wr := fun _ => True) (gstrips_foot trivial (by simp [Loc.off]))

theorem onUnp_ok {n m : Nat} (hm : m < cdiv M (p * m_c)) :
    UnpOK (geoK M N p m_r n_r m_c n_c n m) (onUnp M N p m_r n_r m_c n_c n m) M N m_r n_r := by
  intro i hi o
  unfold onUnp
  rw [unpackC_mem _ _ _ _ _ _ _ _ _ _ _ h.m_r_pos h.n_r_pos (mT_dvd h hm) (nLen_dvd h)]
  constructor
  · rintro ⟨r, c, hr, hc, h1, h2, rfl⟩
    refine ⟨r, c, hr, hc, ?_, h1, ?_⟩
    · rw [geoK_row]; unfold rowOf; rw [← Nat.mul_assoc, ← Nat.add_assoc]; exact h2
    · rw [off_off]
      simp only [Loc.off, geoK]
      congr 2
      · ring
      · omega
  · rintro ⟨r, c, hr, hc, h1, h2, rfl⟩
    refine ⟨r, c, hr, hc, h2, ?_, ?_⟩
    · rw [geoK_row] at h1; unfold rowOf at h1; rwa [← Nat.mul_assoc, ← Nat.add_assoc] at h1
    · rw [off_off]
      simp only [Loc.off, geoK]
      congr 2
      · ring
      · omega

theorem schedO_loads_A (hK : 0 < K) (hM : 0 < M) :
    bufLoads .A (phases (schedule_KMN_online kd ⟨.A, 0⟩ ⟨.B, 0⟩ ⟨.C, 0⟩ M N K p m_r n_r (dimsKMN M N K p m_r n_r m_c k_c n_c))) +
      ((range (cdiv N n_c - 1)).map fun n => mLen M p m_r m_c (mFirst (cdiv M (p * m_c)) (n + 1)) *
        chopLen K k_c (kFirst (cdiv K k_c) (n + 1) (mFirst (cdiv M (p * m_c)) (n + 1)))).sum =
      cdiv N n_c * (cdiv M m_r * m_r * K) := by
  rw [online_snake h, snake_loads_A (bufLoads_flows .A).toSums hK h.k_c_pos (cdiv_pos hM h.S_pos) (w := mLen M p m_r m_c)
    (Nb := cdiv N n_c) (step := onStep kd M N K p m_r n_r m_c k_c n_c) (fin := onFin M N p m_r n_r m_c n_c) (fun n m k a b _ hm _ => onStep_A h hm) (fun n m _ _ => gUnpack_loads fun i => onUnp_reads (by simp))]
  congr 2
  exact sum_sL h.S_pos h.m_r_pos h.S_dvd

theorem schedO_loads_B (hK : 0 < K) :
    bufLoads .B (phases (schedule_KMN_online kd ⟨.A, 0⟩ ⟨.B, 0⟩ ⟨.C, 0⟩ M N K p m_r n_r (dimsKMN M N K p m_r n_r m_c k_c n_c))) +
      ((range (cdiv N n_c)).map fun n => ((range (cdiv M (p * m_c))).map fun m =>
        if m = mFirst (cdiv M (p * m_c)) n then 0 else nLen N n_r n_c n * chopLen K k_c (kFirst (cdiv K k_c) n m)).sum).sum =
      cdiv M (p * m_c) * (cdiv N n_r * n_r * K) := by
  rw [online_snake h, snake_loads_B (bufLoads_flows .B).toSums hK h.k_c_pos (w := nLen N n_r n_c)
    (Nb := cdiv N n_c) (Mb := cdiv M (p * m_c)) (step := onStep kd M N K p m_r n_r m_c k_c n_c) (fin := onFin M N p m_r n_r m_c n_c) (fun n m k a b _ _ _ => onStep_B h) (fun n m _ _ => gUnpack_loads fun i => onUnp_reads (by simp))]
  congr 2
  exact sum_sL h.n_c_pos h.n_r_pos h.n_dvd

omit h in
theorem schedO_loads_C :
    bufLoads .C (phases (schedule_KMN_online kd ⟨.A, 0⟩ ⟨.B, 0⟩ ⟨.C, 0⟩ M N K p m_r n_r (dimsKMN M N K p m_r n_r m_c k_c n_c))) = 0 :=
  bufLoads_foot (Wr := fun _ => True) (Ob := fun _ => True) (phases_foot (schedO_foot (by simp) (by simp) (by simp) (by simp) (by simp)
    (by simp) (by simp) (by simp) (by simp) (by simp) (by simp)))

theorem schedO_stores (x : Nat) :
    stores ⟨.C, x⟩ (phases (schedule_KMN_online kd ⟨.A, 0⟩ ⟨.B, 0⟩ ⟨.C, 0⟩ M N K p m_r n_r (dimsKMN M N K p m_r n_r m_c k_c n_c))) =
      if x < M * N then 1 else 0 := by
  rw [online_snake h]
  have so := snake_once (stores_sums ⟨.C, x⟩) (Nb := cdiv N n_c) (Mb := cdiv M (p * m_c)) (Kb := cdiv K k_c)
    (step := onStep kd M N K p m_r n_r m_c k_c n_c) (fin := onFin M N p m_r n_r m_c n_c) (fun _ _ _ _ _ _ _ _ => onStep_C)
  split
  · rename_i hx
    obtain ⟨row, col, h1, h2, h3⟩ := divmod_cover hx
    obtain ⟨n, c, hn, hc, ec⟩ := colOf_cover h h2
    obtain ⟨m, i, r, hm, hi, hr, er⟩ := rowOf_cover h h1
    rw [so.1 n m hn hm, h3, ← er, ← ec, ← geoK_row (N := N) (n_r := n_r) (n_c := n_c) n m i r]
    · refine gUnpack_one (geoK_ok h hm) (onUnp_ok h hm) (fun j _ => ?_) hi hr hc ?_ ?_
      · exact unpack_nodup _ _ _ _ _ _ _ _ _ _ _ h.m_r_pos h.n_r_pos (mT_dvd h hm) (nLen_dvd h)
      · rw [geoK_row, er]; exact h1
      · show n * n_c + c < N
        omega
    · intro n' m' _ hm' hne
      rw [h3]
      refine gUnpack_none (onUnp_ok h hm') h2 fun i' r' c' hi' hr' hc' e1 e2 => ?_
      have := geoK_cross (N := N) (n_r := n_r) (n_c := n_c) hr hr' hc hc' (by rw [e1, geoK_row, er]) (ec.trans e2.symm)
      omega
  · rename_i hx
    exact so.2 fun n m _ hm => gUnpack_out (onUnp_ok h hm) (Nat.le_of_not_lt hx)

end

/-! ### 2-D -/

section
variable {M N K pm pn m_r n_r m_c k_c n_c : Nat} (h : TileOK pm m_r n_r m_c k_c n_c) (h' : TileOK pn n_r m_r n_c k_c m_c)
  {kd : KDim}

theorem tdUnp_reads {b : Buf} (hc : ∀ i, .CpC i ≠ b) {n m i : Nat} : bufReads b (tdUnp M N pm pn m_r n_r m_c n_c n m i) = 0 :=
  bufReads_foot (Wr := fun _ => True) (unpackC_ob_foot trivial (hc i))

theorem packPhase_loads {b dst : Buf} {src : Loc} {d n k : Nat} {f : Nat → Nat → Nat} {c : Bool} (h : src.buf ≠ b) :
    bufLoads b (if c = true then [] else [.par (gstrips dst src d n k f)]) = 0 := by
  split
  · rfl
  · rw [bufLoads_par, ← bufReads_flatMap, flatMap_id']
    exact bufReads_foot (Wr := fun _ => True) (gstrips_foot trivial h)

theorem packPhase_stores {l : Loc} {dst : Buf} {src : Loc} {d n k : Nat} {f : Nat → Nat → Nat} {c : Bool} (h : dst ≠ l.buf) :
    stores l (if c = true then [] else [.par (gstrips dst src d n k f)]) = 0 := by
  split
  · rfl
  · rw [stores_par, ← writeCount_flatMap, flatMap_id']
    exact writeCount_zero fun o ho e =>
      (gstrips_foot (Wr := fun b' => b' ≠ l.buf) (Rd := fun _ => True) h trivial o ho).1 (by rw [e])

theorem tdStep_C {x n m k : Nat} {a b : Bool} : stores ⟨.C, x⟩ (tdStep kd M N K pm pn m_r n_r m_c k_c n_c n m k a b) = 0 := by
  unfold tdStep
  rw [(stores_sums _).append, (stores_sums _).append, stores_foot (gTasks_foot (Wr := fun b' => b' ≠ .C) (Rd := fun _ => True)
    (fun i => .nil) (fun i => by simp) (fun i => by simp) (fun i => trivial) (fun i => trivial)) (by simp), Nat.add_zero,
    packPhase_stores (by simp), packPhase_stores (by simp)]

theorem gTasks_none {g : Geo} {kd : KDim} {aL bL : Nat → Loc} {m_r n_r kc : Nat} {b : Buf}
    (hr : ∀ i, .reg i ≠ b) (hc : ∀ i, .CpC i ≠ b) (ha : ∀ i, (aL i).buf ≠ b) (hb : ∀ i, (bL i).buf ≠ b) :
    bufLoads b [.par (gTasks g kd (fun _ => []) aL bL m_r n_r kc)] = 0 := by
  rw [gTasks_loads hr hc ha hb]
  exact sum_zero fun _ _ => rfl

include h in
theorem tdStep_A {n m k : Nat} {a b : Bool} :
    bufLoads .A (tdStep kd M N K pm pn m_r n_r m_c k_c n_c n m k a b) = if a then 0 else mLen M pm m_r m_c m * chopLen K k_c k := by
  unfold tdStep
  rw [(bufLoads_flows _).append, (bufLoads_flows _).append, gTasks_none (by simp) (by simp) (by simp) (by simp),
    packPhase_loads (by simp [Loc.off]), Nat.add_zero, Nat.zero_add]
  split
  · rfl
  · rw [bufLoads_par, ← bufReads_flatMap, flatMap_id']
    exact gstrips_reads (src := ⟨.A, 0⟩ +ₚ _) h.m_r_pos (chopLen_dvd (padTo_dvd h.S_dvd) h.S_dvd)

include h' in
theorem tdStep_B {n m k : Nat} {a b : Bool} :
    bufLoads .B (tdStep kd M N K pm pn m_r n_r m_c k_c n_c n m k a b) = if b then 0 else mLen N pn n_r n_c n * chopLen K k_c k := by
  unfold tdStep
  rw [(bufLoads_flows _).append, (bufLoads_flows _).append, gTasks_none (by simp) (by simp) (by simp) (by simp),
    packPhase_loads (c := a) (by simp [Loc.off]), Nat.add_zero]
  split
  · rfl
  · rw [bufLoads_par, ← bufReads_flatMap, flatMap_id']
    exact gstrips_reads (src := ⟨.B, 0⟩ +ₚ _) h'.m_r_pos (chopLen_dvd (padTo_dvd h'.S_dvd) h'.S_dvd)

include h h'

theorem tdUnp_ok {n m : Nat} (hm : m < cdiv M (pm * m_c)) (hn : n < cdiv N (pn * n_c)) :
    UnpOK (geo2 M N pm pn m_r n_r m_c n_c n m) (tdUnp M N pm pn m_r n_r m_c n_c n m) M N m_r n_r := by
  intro i hi o
  unfold tdUnp
  rw [unpackC_mem _ _ _ _ _ _ _ _ _ _ _ h.m_r_pos h.n_r_pos (mT_dvd h hm) (mT_dvd h' hn)]
  have ec : ∀ c, n * pn * n_c + i % mU N pn n_r n_c n * mX N pn n_r n_c n + c = (geo2 M N pm pn m_r n_r m_c n_c n m).cb i + c := by
    intro c; simp only [geo2]; rw [Nat.mul_assoc n]
  have er : ∀ r, m * pm * m_c + i / mU N pn n_r n_c n * mX M pm m_r m_c m + r = (geo2 M N pm pn m_r n_r m_c n_c n m).rb i + r := by
    intro r; simp only [geo2]; rw [Nat.mul_assoc m]
  constructor
  · rintro ⟨r, c, hr, hc, h1, h2, rfl⟩
    refine ⟨r, c, hr, hc, ?_, ?_, ?_⟩
    · rw [← er]; exact h2
    · rw [← ec]; exact h1
    · rw [off_off]
      simp only [Loc.off, geo2]
      congr 2
      · ring
      · omega
  · rintro ⟨r, c, hr, hc, h1, h2, rfl⟩
    refine ⟨r, c, hr, hc, ?_, ?_, ?_⟩
    · rw [ec]; exact h2
    · rw [er]; exact h1
    · rw [off_off]
      simp only [Loc.off, geo2]
      congr 2
      · ring
      · omega

theorem sched2_loads_A {x : BlkDims2} (hx : dims2d M N K m_r n_r pm pn m_c k_c n_c = some x) (hK : 0 < K) (hM : 0 < M) :
    bufLoads .A (phases (schedule_KMN_2d kd ⟨.A, 0⟩ ⟨.B, 0⟩ ⟨.C, 0⟩ M N K m_r n_r x)) +
      ((range (cdiv N (pn * n_c) - 1)).map fun n => mLen M pm m_r m_c (mFirst (cdiv M (pm * m_c)) (n + 1)) *
        chopLen K k_c (kFirst (cdiv K k_c) (n + 1) (mFirst (cdiv M (pm * m_c)) (n + 1)))).sum =
      cdiv N (pn * n_c) * (cdiv M m_r * m_r * K) := by
  rw [twoD_snake h h' kd hx, snake_loads_A (bufLoads_flows .A).toSums hK h.k_c_pos (cdiv_pos hM h.S_pos) (w := mLen M pm m_r m_c)
    (Nb := cdiv N (pn * n_c)) (step := tdStep kd M N K pm pn m_r n_r m_c k_c n_c) (fin := tdFin M N pm pn m_r n_r m_c n_c)
    (fun n m k a b _ hm _ => tdStep_A h) (fun n m _ _ => gUnpack_loads fun i => tdUnp_reads (by simp))]
  congr 2
  exact sum_sL h.S_pos h.m_r_pos h.S_dvd

theorem sched2_loads_B {x : BlkDims2} (hx : dims2d M N K m_r n_r pm pn m_c k_c n_c = some x) (hK : 0 < K) :
    bufLoads .B (phases (schedule_KMN_2d kd ⟨.A, 0⟩ ⟨.B, 0⟩ ⟨.C, 0⟩ M N K m_r n_r x)) +
      ((range (cdiv N (pn * n_c))).map fun n => ((range (cdiv M (pm * m_c))).map fun m =>
        if m = mFirst (cdiv M (pm * m_c)) n then 0 else mLen N pn n_r n_c n * chopLen K k_c (kFirst (cdiv K k_c) n m)).sum).sum =
      cdiv M (pm * m_c) * (cdiv N n_r * n_r * K) := by
  rw [twoD_snake h h' kd hx, snake_loads_B (bufLoads_flows .B).toSums hK h.k_c_pos (w := mLen N pn n_r n_c)
    (Nb := cdiv N (pn * n_c)) (Mb := cdiv M (pm * m_c)) (step := tdStep kd M N K pm pn m_r n_r m_c k_c n_c)
    (fin := tdFin M N pm pn m_r n_r m_c n_c)
    (fun n m k a b _ hm _ => tdStep_B h') (fun n m _ _ => gUnpack_loads fun i => tdUnp_reads (by simp))]
  congr 2
  exact sum_sL h'.S_pos h'.m_r_pos h'.S_dvd

omit h h' in
theorem sched2_loads_C {x : BlkDims2} : bufLoads .C (phases (schedule_KMN_2d kd ⟨.A, 0⟩ ⟨.B, 0⟩ ⟨.C, 0⟩ M N K m_r n_r x)) = 0 :=
  bufLoads_foot (Wr := fun _ => True) (Ob := fun _ => True) (phases_foot (sched2_foot (by simp) (by simp) (by simp) (by simp) (by simp)
    (by simp) (by simp) (by simp) (by simp) (by simp) (by simp)))

theorem sched2_stores {x : BlkDims2} (hx : dims2d M N K m_r n_r pm pn m_c k_c n_c = some x) (y : Nat) :
    stores ⟨.C, y⟩ (phases (schedule_KMN_2d kd ⟨.A, 0⟩ ⟨.B, 0⟩ ⟨.C, 0⟩ M N K m_r n_r x)) = if y < M * N then 1 else 0 := by
  rw [twoD_snake h h' kd hx]
  have so := snake_once (stores_sums ⟨.C, y⟩) (Nb := cdiv N (pn * n_c)) (Mb := cdiv M (pm * m_c)) (Kb := cdiv K k_c)
    (step := tdStep kd M N K pm pn m_r n_r m_c k_c n_c) (fin := tdFin M N pm pn m_r n_r m_c n_c) (fun _ _ _ _ _ _ _ _ => tdStep_C)
  split
  · rename_i hy
    obtain ⟨row, col, h1, h2, h3⟩ := divmod_cover hy
    obtain ⟨m, i, r, hm, hi, hr, er⟩ := rowOf_cover h h1
    obtain ⟨n, j, c, hn, hj, hc, ec⟩ := rowOf_cover h' h2
    have hd : (i * mU N pn n_r n_c n + j) / mU N pn n_r n_c n = i := mulAdd_div hj
    have hmo : (i * mU N pn n_r n_c n + j) % mU N pn n_r n_c n = j := mulAdd_mod hj
    have er' : (geo2 M N pm pn m_r n_r m_c n_c n m).rb (i * mU N pn n_r n_c n + j) + r = row := by rw [geo2_row, hd, er]
    have ec' : (geo2 M N pm pn m_r n_r m_c n_c n m).cb (i * mU N pn n_r n_c n + j) + c = col := by rw [geo2_col, hmo, ec]
    rw [so.1 n m hn hm]
    · rw [h3, ← er', ← ec']
      refine gUnpack_one (geo2_ok h h' (Nat.le_refl _) hn hm) (tdUnp_ok h h' hm hn) (fun j _ => ?_) (mulAdd_lt hi hj) ?_ ?_ ?_ ?_
      · exact unpack_nodup _ _ _ _ _ _ _ _ _ _ _ h.m_r_pos h.n_r_pos (mT_dvd h hm) (mT_dvd h' hn)
      · simp only [geo2]; rw [hd]; exact hr
      · simp only [geo2]; rw [hmo]; exact hc
      · rw [er']; exact h1
      · rw [ec']; exact h2
    · intro n' m' hn' hm' hne
      rw [h3]
      refine gUnpack_none (tdUnp_ok h h' hm' hn') h2 fun i' r' c' hi' hr' hc' e1 e2 => ?_
      rw [geo2_row] at e1
      rw [geo2_col] at e2
      have a1 := (rowOf_inj hr' hr (e1.trans er.symm)).1
      have a2 := (rowOf_inj hc' hc (e2.trans ec.symm)).1
      omega
  · rename_i hy
    exact so.2 fun n m hn hm => gUnpack_out (tdUnp_ok h h' hm hn) (Nat.le_of_not_lt hy)

end

/-! ### 2-D, small -/

section
variable {M N K p pn m_r n_r k_c : Nat} {kd : KDim}

/-- Only the phases of the small product count. -/
theorem smallRest_flow {μ : Prog → Nat} (hμ : Flows μ) : μ (smallRest kd M N K p pn m_r n_r k_c) =
    ((range (cdiv K k_c)).map fun k => μ (smStep kd M N K p pn m_r n_r k_c k)).sum +
      μ [.par (gUnpack (geoS M N p pn m_r n_r) (smUnp M N p pn m_r n_r) (smallTile (roundUpC M m_r) (p / pn) m_r)
        (smallTile (roundUpC N n_r) pn n_r))] := by
  unfold smallRest
  dsimp only
  rw [hμ.append, hμ.append, hμ.append, hμ.none (q := map _ (range p)), hμ.none (q := _ ++ _), hμ.flatMap, Nat.zero_add, Nat.add_zero]
  · intro it hit ts e; subst e; simp at hit
  · intro it hit ts e; subst e; simp at hit

theorem smUnp_reads {b : Buf} (hc : ∀ i, .CpC i ≠ b) {i : Nat} : bufReads b (smUnp M N p pn m_r n_r i) = 0 :=
  bufReads_foot (Wr := fun _ => True) (unpackC_ob_foot trivial (hc i))

theorem small_loads_A (hm : 0 < m_r) (hk : 0 < k_c) :
    bufLoads .A (smallRest kd M N K p pn m_r n_r k_c) = cdiv M m_r * m_r * K := by
  rw [smallRest_flow (bufLoads_flows .A), gUnpack_loads fun i => smUnp_reads (by simp), Nat.add_zero,
    sum_congr (g := fun k => cdiv M m_r * m_r * chopLen K k_c k), sum_mull, sum_chop hk]
  intro k _
  unfold smStep
  rw [(bufLoads_flows _).append, (bufLoads_flows _).append, gTasks_none (by simp) (by simp) (by simp) (by simp), Nat.add_zero,
    bufLoads_par, bufLoads_par, ← bufReads_flatMap, ← bufReads_flatMap, flatMap_id', flatMap_id',
    bufReads_foot (Wr := fun _ => True) (gstrips_foot trivial (by simp [Loc.off])), Nat.zero_add]
  refine (gstrips_reads (src := ⟨.A, 0⟩ +ₚ _) hm (roundUpC_dvd hm)).trans ?_
  rw [roundUpC_cdiv hm]

theorem small_loads_B (hn : 0 < n_r) (hk : 0 < k_c) :
    bufLoads .B (smallRest kd M N K p pn m_r n_r k_c) = cdiv N n_r * n_r * K := by
  rw [smallRest_flow (bufLoads_flows .B), gUnpack_loads fun i => smUnp_reads (by simp), Nat.add_zero,
    sum_congr (g := fun k => cdiv N n_r * n_r * chopLen K k_c k), sum_mull, sum_chop hk]
  intro k _
  unfold smStep
  rw [(bufLoads_flows _).append, (bufLoads_flows _).append, gTasks_none (by simp) (by simp) (by simp) (by simp), Nat.add_zero,
    bufLoads_par, bufLoads_par, ← bufReads_flatMap, ← bufReads_flatMap, flatMap_id', flatMap_id',
    bufReads_foot (Wr := fun _ => True) (os := (gstrips .Ap _ _ _ _ _).flatten) (gstrips_foot trivial (by simp [Loc.off])), Nat.add_zero]
  refine (gstrips_reads (src := ⟨.B, 0⟩ +ₚ _) hn (roundUpC_dvd hn)).trans ?_
  rw [roundUpC_cdiv hn]

theorem small_loads_C : bufLoads .C (smallRest kd M N K p pn m_r n_r k_c) = 0 := by
  rw [smallRest_flow (bufLoads_flows .C), gUnpack_loads fun i => smUnp_reads (by simp), Nat.add_zero]
  apply sum_zero
  intro k _
  unfold smStep
  rw [(bufLoads_flows _).append, (bufLoads_flows _).append, gTasks_none (by simp) (by simp) (by simp) (by simp), Nat.add_zero,
    bufLoads_par, bufLoads_par, ← bufReads_flatMap, ← bufReads_flatMap, flatMap_id', flatMap_id',
    bufReads_foot (Wr := fun _ => True) (os := (gstrips .Ap _ _ _ _ _).flatten) (gstrips_foot trivial (by simp [Loc.off])), Nat.add_zero,
    bufReads_foot (Wr := fun _ => True) (gstrips_foot trivial (by simp [Loc.off]))]

theorem small_stores (hm : 0 < m_r) (hn : 0 < n_r) (hpn : 0 < pn) (hp : pn ≤ p) (x : Nat) :
    stores ⟨.C, x⟩ (smallRest kd M N K p pn m_r n_r k_c) = if x < M * N then 1 else 0 := by
  rw [smallRest_flow (stores_flows _), sum_zero, Nat.zero_add]
  · have hg := geoS_ok (M := M) (N := N) hm hn hpn hp
    have hu := smallUnp_ok (M := M) (N := N) hm hn hpn hp
    split
    · rename_i hx
      obtain ⟨row, col, h1, h2, h3⟩ := divmod_cover hx
      obtain ⟨c1, c2⟩ := smallLen_cover (n := M) hm (Nat.div_pos hp hpn) (Nat.lt_of_lt_of_le h1 (roundUpC_ge M m_r))
      obtain ⟨d1, d2⟩ := smallLen_cover (n := N) hn hpn (Nat.lt_of_lt_of_le h2 (roundUpC_ge N n_r))
      generalize hi : row / smallTile (roundUpC M m_r) (p / pn) m_r = i at c1 c2
      generalize hj : col / smallTile (roundUpC N n_r) pn n_r = j at d1 d2
      have hd : (i * pn + j) / pn = i := mulAdd_div d1
      have hmo : (i * pn + j) % pn = j := mulAdd_mod d1
      have er : (geoS M N p pn m_r n_r).rb (i * pn + j) + row % smallTile (roundUpC M m_r) (p / pn) m_r = row := by
        simp only [geoS]; rw [hd, Nat.mul_comm, ← hi]; exact Nat.div_add_mod _ _
      have ec : (geoS M N p pn m_r n_r).cb (i * pn + j) + col % smallTile (roundUpC N n_r) pn n_r = col := by
        simp only [geoS]; rw [hmo, Nat.mul_comm, ← hj]; exact Nat.div_add_mod _ _
      have key := gUnpack_one hg hu (fun i hi => unpack_nodup _ _ _ _ _ _ _ _ _ _ _ hm hn (hg.m_dvd i hi) (hg.n_dvd i hi))
        (i := i * pn + j) (r := row % smallTile (roundUpC M m_r) (p / pn) m_r) (c := col % smallTile (roundUpC N n_r) pn n_r)
        (Nat.lt_of_lt_of_le (mulAdd_lt c1 d1) (Nat.div_mul_le_self _ _)) (by simp only [geoS]; rw [hd]; exact c2)
        (by simp only [geoS]; rw [hmo]; exact d2) (by rw [er]; exact h1) (by rw [ec]; exact h2)
      rw [er, ec, ← h3] at key
      exact key
    · rename_i hx
      exact gUnpack_out hu (Nat.le_of_not_lt hx)
  · intro k _
    unfold smStep
    rw [(stores_sums _).append, (stores_sums _).append, stores_foot (gTasks_foot (Wr := fun b' => b' ≠ .C) (Rd := fun _ => True)
      (fun i => .nil) (fun i => by simp) (fun i => by simp) (fun i => trivial) (fun i => trivial)) (by simp), Nat.add_zero]
    have z := fun (dst : Buf) (hd : dst ≠ .C) (src : Loc) (d n k : Nat) (f : Nat → Nat → Nat) =>
      packPhase_stores (l := ⟨.C, x⟩) (dst := dst) (src := src) (d := d) (n := n) (k := k) (f := f) (c := false) hd
    simp only [Bool.false_eq_true, if_false] at z
    rw [z _ (by simp), z _ (by simp)]

end

/-! ### Complete programs -/

section
variable {α : Type _} {cx : Cntx} {M N K p m_c k_c n_c : Nat}

theorem online_flow {μ : Prog → Nat} (hμ : Flows μ) {A B C : Loc} {packedA packedB : Bool} {alpha beta : α} {prog : Prog}
    (e : cake_sgemm_online cx A B C M N K p packedA packedB alpha beta m_c k_c n_c = some prog) :
    μ prog = μ (phases (schedule_KMN_online cx.kmap A B C M N K p cx.m_r cx.n_r (dimsKMN M N K p cx.m_r cx.n_r m_c k_c n_c))) := by
  unfold cake_sgemm_online at e
  simp only [Option.bind_eq_bind, Option.bind_eq_some_iff, Option.some.injEq] at e
  obtain ⟨x, hx, rfl⟩ := e
  cases hx
  rw [hμ.append, hμ.append, hμ.append, hμ.append, hμ.append, hμ.append, hμ.none (q := map _ _),
    hμ.none (q := map _ _), hμ.none (q := flatMap _ _), hμ.none (q := [_, _]),
    hμ.none (q := [_]), hμ.none (q := [_, _, _])]
  · simp only [Nat.zero_add, Nat.add_zero]
  all_goals intro it hit ts e; subst e; simp at hit

theorem twoD_flow {μ : Prog → Nat} (hμ : Flows μ) {A B C : Loc} {x : BlkDims2} :
    μ (sgemm2dBody cx A B C M N K p x) = μ (phases (schedule_KMN_2d cx.kfix A B C M N K cx.m_r cx.n_r x)) := by
  unfold sgemm2dBody
  rw [hμ.append, hμ.append, hμ.append, hμ.append, hμ.none (q := map _ _), hμ.none (q := [_, _]),
    hμ.none (q := _ ++ _), hμ.none (q := [_])]
  · simp only [Nat.zero_add, Nat.add_zero]
  all_goals intro it hit ts e; subst e; simp at hit

theorem small_prog_flow {μ : Prog → Nat} (hμ : Flows μ) {q : Prog} {na nb : Nat} :
    μ ([.malloc .Blk 1, .memalign .Ap na, .memalign .Bp nb] ++ q) = μ q := by
  rw [hμ.append, hμ.none (q := [_, _, _]), Nat.zero_add]
  intro it hit ts e; subst e; simp at hit

end

end Cake
