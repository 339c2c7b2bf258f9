/-
Counting multiply-adds: what a program does in total, and in the `i`-th iteration of each of its parallel loops.
-/
import Verif.Proofs.Footprint
import Verif.Proofs.SchedM
import Verif.Proofs.SchedN
import Verif.Proofs.TwoDSmall
import Verif.Proofs.TwoDDims
import Mathlib.Algebra.BigOperators.Ring.List

namespace Cake
open List

/-- A multiply-add of one element (one lane of a vector instruction). -/
def Op.isFma : Op → Bool
  | .fma .. => true
  | _ => false

/-- Number of multiply-adds among the operations. -/
def mulAdds (os : List Op) : Nat := os.countP Op.isFma

/-- Number of multiply-adds of a program. -/
def work (prog : Prog) : Nat := mulAdds (progOps prog)

/-- Number of multiply-adds in iteration `i` of an item that is a parallel loop. -/
def itemWork (i : Nat) : Item → Nat
  | .par ts => mulAdds (ts.getD i [])
  | _ => 0

/-- Number of multiply-adds in iteration `i` of the parallel loops of a program, over all of them. With one thread per iteration this
is what core `i` does. -/
def coreWork (i : Nat) (prog : Prog) : Nat := (prog.map (itemWork i)).sum

/-! ### Lists of operations -/

theorem mulAdds_nil : mulAdds [] = 0 := rfl

theorem mulAdds_append (a b : List Op) : mulAdds (a ++ b) = mulAdds a + mulAdds b := countP_append ..

theorem mulAdds_flatten (ts : List (List Op)) : mulAdds ts.flatten = (ts.map mulAdds).sum := countP_flatten ..

theorem mulAdds_flatMap {β : Type _} (l : List β) (f : β → List Op) :
    mulAdds (l.flatMap f) = (l.map fun x => mulAdds (f x)).sum := by
  rw [List.flatMap_def, mulAdds_flatten, map_map]; rfl

theorem mulAdds_const {β : Type _} {l : List β} {f : β → List Op} {c : Nat} (h : ∀ x ∈ l, mulAdds (f x) = c) :
    mulAdds (l.flatMap f) = l.length * c := by
  rw [mulAdds_flatMap, map_congr_left h, map_const', sum_replicate_nat]

theorem mulAdds_loop {β σ : Type _} {body : β → σ → List Op × σ} {c : Nat} (h : ∀ x s, mulAdds (body x s).1 = c)
    (l : List β) (s : σ) : mulAdds (loopS l body s).1 = l.length * c := by
  induction l generalizing s with
  | nil => rw [length_nil, Nat.zero_mul]; rfl
  | cons x l ih => rw [loopS, mulAdds_append, h, ih, length_cons, Nat.add_one_mul, Nat.add_comm]

/-- Not a multiply-add. -/
def PlainOp (o : Op) : Prop := o.isFma = false

theorem PlainOp.copy {d r : Loc} : PlainOp (.copy d r) := rfl
theorem PlainOp.zero {d : Loc} : PlainOp (.zero d) := rfl
theorem PlainOp.ite {c : Prop} [Decidable c] {o o' : Op} (h : PlainOp o) (h' : PlainOp o') : PlainOp (if c then o else o') := by
  split <;> assumption

/-- No multiply-add. -/
abbrev NoFma (os : List Op) : Prop := All PlainOp os

theorem mulAdds_zero {os : List Op} (h : NoFma os) : mulAdds os = 0 :=
  countP_eq_zero.2 fun o ho => by rw [show o.isFma = false from h o ho]; exact Bool.false_ne_true

/-- Decomposes a claim that a list built from loops contains no multiply-add. -/
macro "plainops" : tactic => `(tactic| repeat' first
  | with_reducible exact All.nil
  | refine All.loop (fun _ _ => ?_) _
  | refine All.flatMap fun _ => ?_
  | refine All.map fun _ => ?_
  | refine All.append ?_ ?_
  | refine All.ite ?_ ?_
  | refine All.cons ?_ ?_
  | refine PlainOp.ite ?_ ?_
  | with_reducible exact PlainOp.copy
  | with_reducible exact PlainOp.zero)

/-- No multiply-add in any phase. -/
abbrev NoFmaP (ph : List (List (List Op))) : Prop := All (All NoFma) ph

theorem noFma_packA {A A_p : Loc} {M K p m_r : Nat} {x : BlkDims} {sch : Sched} {ph : List (List (List Op))}
    (e : pack_A A A_p M K p m_r x sch = some ph) : NoFmaP ph := by
  cases sch <;> simp only [pack_A, Option.some.injEq, reduceCtorEq] at e <;> subst e
  · unfold pack_A_k_first; plainops
  · unfold pack_A_m_first; plainops
  · unfold pack_A_n_first; plainops

theorem noFma_packB {B B_p : Loc} {K N p n_r : Nat} {x : BlkDims} {sch : Sched} {ph : List (List (List Op))}
    (e : pack_B B B_p K N p n_r x sch = some ph) : NoFmaP ph := by
  cases sch <;> simp only [pack_B, Option.some.injEq, reduceCtorEq] at e <;> subst e
  · unfold pack_B_k_first
    refine .append (.loop (fun n1 s => ?_) _) (.ite ?_ .nil)
    · dsimp only; split <;> plainops
    · plainops
  · unfold pack_B_m_first; plainops
  · unfold pack_B_n_first; plainops

theorem noFma_packC {C C_p : Loc} {M N p m_r n_r : Nat} {x : BlkDims} {sch : Sched} {ph : List (List (List Op))}
    (e : pack_C C C_p M N p m_r n_r x sch = some ph) : NoFmaP ph := by
  cases sch <;> simp only [pack_C, Option.some.injEq, reduceCtorEq] at e <;> subst e
  · unfold pack_C_k_first; plainops
  · unfold pack_C_m_first; plainops
  · unfold pack_C_n_first; plainops

theorem noFma_unpackC {C C_p : Loc} {M N p m_r n_r : Nat} {x : BlkDims} {sch : Sched} {ph : List (List (List Op))}
    (e : unpack_C C C_p M N p m_r n_r x sch = some ph) : NoFmaP ph := by
  cases sch <;> simp only [unpack_C, Option.some.injEq, reduceCtorEq] at e <;> subst e
  · unfold unpack_C_k_first; plainops
  · unfold unpack_C_m_first; plainops
  · unfold unpack_C_n_first; plainops

/-! ### The kernel -/

theorem mulAdds_map_fma {β : Type _} (l : List β) (f : β → Op) (h : ∀ x, (f x).isFma = true) : mulAdds (l.map f) = l.length := by
  unfold mulAdds
  rw [countP_map]
  exact countP_eq_length.2 fun x _ => h x

theorem mulAdds_inner (L m nl t : Nat) (A B : Loc) (a b : Nat) : mulAdds (kernInner L m nl t A B a b).1 = m * (nl * L) := by
  unfold kernInner
  dsimp only
  rw [mulAdds_append, mulAdds_zero (by plainops), Nat.zero_add]
  rw [mulAdds_loop (c := nl * L), length_range]
  intro i s
  dsimp only
  rw [mulAdds_append, mulAdds_zero (by plainops), Nat.zero_add, mulAdds_const (c := L), length_range]
  intro j _
  rw [mulAdds_map_fma _ _ fun _ => rfl, length_range]

theorem mulAdds_kernel (L m nl t : Nat) (A B C : Loc) (narg k : Nat) :
    mulAdds (kernel L m nl t A B C narg k) = m * (nl * L) * k := by
  unfold kernel kernLoadC kernStoreC kernLoop
  dsimp only
  rw [mulAdds_append, mulAdds_append, mulAdds_zero (by plainops), mulAdds_append,
    mulAdds_zero (os := flatMap _ _) (by plainops)]
  rw [mulAdds_loop (c := 4 * (m * (nl * L))), mulAdds_loop (c := m * (nl * L))]
  · rw [cfor_one, length_range, show k - k % 4 = k / 4 * 4 by omega, cfor_zero_mul _ _ (by decide), length_map, length_range]
    have h : k = 4 * (k / 4) + k % 4 := by omega
    generalize m * (nl * L) = c
    calc 0 + (k / 4 * (4 * c) + k % 4 * c) + 0 = (4 * (k / 4) + k % 4) * c := by ring
      _ = c * k := by rw [← h, Nat.mul_comm]
  · intro _ s; exact mulAdds_inner ..
  · intro _ s
    rw [mulAdds_loop (c := m * (nl * L)), length_range]
    intro _ s; exact mulAdds_inner ..

theorem mulAdds_tiles {kd : KDim} {m_r n_r : Nat} (hk : kd.Fits m_r n_r) (t : Nat) (A B C : Loc) {mt nt : Nat} (k : Nat)
    (hm : m_r ∣ mt) (hn : n_r ∣ nt) : mulAdds (regTiles kd t A B C m_r n_r mt nt k) = mt * nt * k := by
  unfold regTiles
  rw [mulAdds_const (c := mt / m_r * (m_r * n_r * k)), length_range]
  · have e1 := Nat.div_mul_cancel hm
    have e2 := Nat.div_mul_cancel hn
    calc nt / n_r * (mt / m_r * (m_r * n_r * k)) = (mt / m_r * m_r) * (nt / n_r * n_r) * k := by ring
      _ = _ := by rw [e1, e2]
  · intro _ _
    rw [mulAdds_const (c := m_r * n_r * k), length_range]
    intro _ _
    rw [mulAdds_kernel]
    rw [hk.m_eq, hk.n_eq]

/-! ### Programs -/

theorem sum_zero {β : Type _} {l : List β} {f : β → Nat} (h : ∀ x ∈ l, f x = 0) : (l.map f).sum = 0 := by
  induction l with
  | nil => rfl
  | cons x l ih => rw [map_cons, sum_cons, h x (.head _), ih fun y hy => h y (.tail _ hy)]

/-- A quantity that adds up along a program. -/
structure Sums (μ : Prog → Nat) : Prop where
  nil : μ [] = 0
  append : ∀ a b, μ (a ++ b) = μ a + μ b

theorem Sums.flatMap {μ : Prog → Nat} (h : Sums μ) {β : Type _} (l : List β) (f : β → Prog) :
    μ (l.flatMap f) = (l.map fun x => μ (f x)).sum := by
  induction l with
  | nil => exact h.nil
  | cons x l ih => rw [flatMap_cons, h.append, ih, map_cons, sum_cons]

theorem work_sums : Sums work where
  nil := rfl
  append a b := by unfold work progOps; rw [flatMap_append, mulAdds_append]

theorem coreWork_sums (i : Nat) : Sums (coreWork i) where
  nil := rfl
  append a b := by unfold coreWork; rw [map_append, sum_append_nat]

theorem work_par (ts : List (List Op)) : work [.par ts] = (ts.map mulAdds).sum := by
  show mulAdds (flatMap _ [Item.par ts]) = _
  rw [flatMap_singleton]
  exact mulAdds_flatten ts

theorem coreWork_par (i : Nat) (ts : List (List Op)) : coreWork i [.par ts] = mulAdds (ts.getD i []) := by
  show (map (itemWork i) [Item.par ts]).sum = _
  rw [map_singleton, sum_singleton]
  rfl

theorem mulAdds_getD {ts : List (List Op)} (h : All NoFma ts) (i : Nat) : mulAdds (ts.getD i []) = 0 := by
  rw [getD_eq_getElem?_getD]
  rcases Nat.lt_or_ge i ts.length with hi | hi
  · rw [getElem?_eq_getElem hi]
    exact mulAdds_zero (h _ (getElem_mem hi))
  · rw [getElem?_eq_none hi]
    exact mulAdds_nil

theorem work_plain {ts : List (List Op)} (h : All NoFma ts) : work [.par ts] = 0 := by
  rw [work_par]
  exact sum_zero fun t ht => mulAdds_zero (h t ht)

theorem coreWork_plain {ts : List (List Op)} (i : Nat) (h : All NoFma ts) : coreWork i [.par ts] = 0 := by
  rw [coreWork_par, mulAdds_getD h]

/-- A quantity that counts multiply-adds: it adds up, and is 0 for items without multiply-adds. -/
structure Counts (μ : Prog → Nat) : Prop extends Sums μ where
  plain : ∀ ts, All NoFma ts → μ [.par ts] = 0
  other : ∀ it, (∀ ts, it ≠ Item.par ts) → μ [it] = 0

theorem work_counts : Counts work where
  toSums := work_sums
  plain _ h := work_plain h
  other it h := by
    cases it <;> first | rfl | exact absurd rfl (h _)

theorem coreWork_counts (i : Nat) : Counts (coreWork i) where
  toSums := coreWork_sums i
  plain _ h := coreWork_plain i h
  other it h := by
    cases it <;> first | rfl | exact absurd rfl (h _)

theorem Counts.phases {μ : Prog → Nat} (h : Counts μ) {ph : List (List (List Op))} (hp : NoFmaP ph) : μ (phases ph) = 0 := by
  unfold Cake.phases
  induction ph with
  | nil => exact h.nil
  | cons t ph ih =>
    rw [map_cons, ← singleton_append, h.append, h.plain _ (hp _ (.head _)), ih fun x hx => hp x (.tail _ hx)]

theorem Counts.plainProg {μ : Prog → Nat} (h : Counts μ) {prog : Prog} (hp : ∀ it ∈ prog, ∀ ts, it ≠ Item.par ts) :
    μ prog = 0 := by
  induction prog with
  | nil => exact h.nil
  | cons t ph ih =>
    rw [← singleton_append, h.append, h.other _ (hp _ (.head _)), ih fun x hx => hp x (.tail _ hx)]

/-! ### Sums -/

theorem sum_congr {β : Type _} {l : List β} {f g : β → Nat} (h : ∀ x ∈ l, f x = g x) : (l.map f).sum = (l.map g).sum := by
  rw [map_congr_left h]

theorem sum_le {β : Type _} {l : List β} {f g : β → Nat} (h : ∀ x ∈ l, f x ≤ g x) : (l.map f).sum ≤ (l.map g).sum := by
  induction l with
  | nil => exact Nat.le_refl _
  | cons x l ih =>
    rw [map_cons, map_cons, sum_cons, sum_cons]
    exact Nat.add_le_add (h x (.head _)) (ih fun y hy => h y (.tail _ hy))

theorem sum_mulr {β : Type _} (l : List β) (f : β → Nat) (c : Nat) : (l.map fun x => f x * c).sum = (l.map f).sum * c :=
  List.sum_map_mul_right l f c

theorem sum_mull {β : Type _} (l : List β) (f : β → Nat) (c : Nat) : (l.map fun x => c * f x).sum = c * (l.map f).sum :=
  List.sum_map_mul_left l f c

theorem sum_serp (d : Bool) (n : Nat) (f : Nat → Nat) : ((serp d n).map f).sum = ((range n).map f).sum :=
  ((serp_perm d n).map f).sum_nat

/-- The pieces of a range add up to it. -/
theorem sum_chop {T s : Nat} (hs : 0 < s) : ((range (cdiv T s)).map (chopLen T s)).sum = T := by
  have : ∀ n, ((range n).map (chopLen T s)).sum = chopOff T s n := by
    intro n
    induction n with
    | zero => exact (chopOff_zero T s).symm
    | succ n ih => rw [range_succ, map_append, sum_append_nat, ih, map_singleton, sum_singleton, chopOff_succ]
  rw [this, chopOff_end hs]

theorem sum_grid (a b : Nat) (f g : Nat → Nat) :
    ((range (a * b)).map fun i => f (i / b) * g (i % b)).sum = ((range a).map f).sum * ((range b).map g).sum := by
  induction a with
  | zero => rw [Nat.zero_mul]; simp
  | succ a ih =>
    rw [Nat.add_one_mul, range_add, map_append, sum_append_nat, ih, map_map, range_succ, map_append, sum_append_nat,
      map_singleton, sum_singleton, Nat.add_mul]
    congr 1
    rw [← sum_mull (range b) g (f a)]
    apply sum_congr
    intro i hi
    rw [mem_range] at hi
    simp only [Function.comp]
    rw [mulAdd_div hi, show (a * b + i) % b = i by rw [Nat.mul_add_mod_self_right]; exact Nat.mod_eq_of_lt hi]

/-- Total of a serpentine schedule in which block `(n, m)` costs `W n m` per unit of depth. -/
theorem snake_count {μ : Prog → Nat} (hμ : Sums μ) {Nb Mb K k_c : Nat} (hk : 0 < k_c)
    {step : Nat → Nat → Nat → Bool → Bool → Prog} {fin : Nat → Nat → Prog} {W : Nat → Nat → Nat}
    (hs : ∀ n m k a b, n < Nb → m < Mb → k < cdiv K k_c → μ (step n m k a b) = W n m * chopLen K k_c k)
    (hf : ∀ n m, n < Nb → m < Mb → μ (fin n m) = 0) :
    μ (snakeProg Nb Mb (cdiv K k_c) step fin) = ((range Nb).map fun n => ((range Mb).map (W n)).sum).sum * K := by
  unfold snakeProg
  rw [hμ.flatMap, ← sum_mulr]
  apply sum_congr
  intro n hn
  rw [mem_range] at hn
  rw [hμ.flatMap, sum_serp, ← sum_mulr]
  apply sum_congr
  intro m hm
  rw [mem_range] at hm
  rw [hμ.append, hf n m hn hm, hμ.flatMap, Nat.add_zero, sum_serp]
  rw [sum_congr (g := fun k => W n m * chopLen K k_c k) fun k hk => hs n m k _ _ hn hm (mem_range.1 hk), sum_mull, sum_chop hk]

/-- Cost of the tasks of a block per unit of depth: in total, and for one core. -/
theorem work_tasks {g : Geo} {kd : KDim} {M N p m_r n_r m_c n_c : Nat} (hg : g.OK M N p m_r n_r m_c n_c) (hk : kd.Fits m_r n_r)
    {pre : Nat → List Op} (hp : ∀ i, NoFma (pre i)) (aL bL : Nat → Loc) (kc : Nat) :
    work [.par (gTasks g kd pre aL bL m_r n_r kc)] = ((range g.u).map fun i => g.mt i * g.nt i).sum * kc := by
  unfold gTasks
  rw [work_par, map_map, ← sum_mulr]
  apply sum_congr
  intro i hi
  rw [mem_range] at hi
  simp only [Function.comp]
  rw [mulAdds_append, mulAdds_zero (hp i), Nat.zero_add, mulAdds_tiles hk _ _ _ _ _ (hg.m_dvd i hi) (hg.n_dvd i hi)]

theorem getD_mapRange {β : Type _} (u i : Nat) (f : Nat → β) (d : β) : ((range u).map f).getD i d = if i < u then f i else d := by
  rw [getD_eq_getElem?_getD]
  split
  · rename_i h
    rw [getElem?_eq_getElem (by simpa using h)]
    simp
  · rename_i h
    rw [getElem?_eq_none (by simpa using h)]
    rfl

theorem coreWork_tasks {g : Geo} {kd : KDim} {M N p m_r n_r m_c n_c : Nat} (hg : g.OK M N p m_r n_r m_c n_c)
    (hk : kd.Fits m_r n_r) {pre : Nat → List Op} (hp : ∀ i, NoFma (pre i)) (aL bL : Nat → Loc) (kc i : Nat) :
    coreWork i [.par (gTasks g kd pre aL bL m_r n_r kc)] = (if i < g.u then g.mt i * g.nt i else 0) * kc := by
  unfold gTasks
  rw [coreWork_par, getD_mapRange]
  split
  · rename_i hi
    rw [mulAdds_append, mulAdds_zero (hp i), Nat.zero_add, mulAdds_tiles hk _ _ _ _ _ (hg.m_dvd i hi) (hg.n_dvd i hi)]
  · rw [mulAdds_nil, Nat.zero_mul]

end Cake
