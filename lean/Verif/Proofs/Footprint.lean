/-
Which objects the programs of the library write, read, allocate and free: no entry point writes its operands, and
`cake_sgemm` reads them only before it writes C.
-/
import Verif.Proofs.Concurrent
import Verif.Model.Online
import Verif.Model.TwoD

namespace Cake
open List

/-- All elements of a list satisfy `P`. -/
def All {β : Type _} (P : β → Prop) (l : List β) : Prop := ∀ o ∈ l, P o

namespace All
variable {β β' σ : Type _} {P : β → Prop}

theorem nil : All P [] := fun _ h => absurd h not_mem_nil

theorem cons {a : β} {l : List β} (h : P a) (hl : All P l) : All P (a :: l) := forall_mem_cons.2 ⟨h, hl⟩

theorem append {l l' : List β} (h : All P l) (h' : All P l') : All P (l ++ l') := fun o ho =>
  (mem_append.1 ho).elim (h o) (h' o)

theorem map {f : β' → β} {l : List β'} (h : ∀ x, P (f x)) : All P (l.map f) := fun o ho => by
  obtain ⟨x, -, rfl⟩ := mem_map.1 ho; exact h x

theorem flatMap {f : β' → List β} {l : List β'} (h : ∀ x, All P (f x)) : All P (l.flatMap f) := fun o ho => by
  obtain ⟨x, -, hx⟩ := mem_flatMap.1 ho; exact h x o hx

theorem ite {c : Prop} [Decidable c] {l l' : List β} (h : All P l) (h' : All P l') : All P (if c then l else l') := by
  split <;> assumption

theorem loop {xs : List β'} {body : β' → σ → List β × σ} (h : ∀ x s, All P (body x s).1) (s : σ) :
    All P (loopS xs body s).1 := by
  induction xs generalizing s with
  | nil => exact nil
  | cons x xs ih => exact append (h x s) (ih _)

end All

/-- The operation writes only objects in `Wr` and reads only objects in `Rd`. -/
def FOp (Wr Rd : Buf → Prop) (o : Op) : Prop := Wr o.dst.buf ∧ ∀ x ∈ o.reads, Rd x.buf

section
variable {Wr Rd : Buf → Prop}

theorem FOp.copy {d r : Loc} (h : Wr d.buf) (h' : Rd r.buf) : FOp Wr Rd (.copy d r) :=
  ⟨h, fun x hx => by rw [mem_singleton.1 hx]; exact h'⟩

theorem FOp.zero {d : Loc} (h : Wr d.buf) : FOp Wr Rd (.zero d) := ⟨h, fun _ hx => absurd hx not_mem_nil⟩

theorem FOp.fma {d a b : Loc} (h : Wr d.buf) (hd : Rd d.buf) (ha : Rd a.buf) (hb : Rd b.buf) : FOp Wr Rd (.fma d a b) := by
  refine ⟨h, fun x hx => ?_⟩
  simp only [Op.reads, mem_cons, not_mem_nil, or_false] at hx
  rcases hx with rfl | rfl | rfl <;> assumption

theorem FOp.ite {c : Prop} [Decidable c] {o o' : Op} (h : FOp Wr Rd o) (h' : FOp Wr Rd o') :
    FOp Wr Rd (if c then o else o') := by
  split <;> assumption

/-- Decomposes lists built from loops. -/
macro "foot" : tactic => `(tactic| repeat' first
  | assumption
  | with_reducible exact All.nil
  | refine All.loop (fun _ _ => ?_) _
  | refine All.flatMap fun _ => ?_
  | refine All.map fun _ => ?_
  | refine All.append ?_ ?_
  | refine All.ite ?_ ?_
  | refine All.cons ?_ ?_
  | refine FOp.ite ?_ ?_
  | refine FOp.copy ?_ ?_
  | refine FOp.zero ?_
  | refine FOp.fma ?_ ?_ ?_ ?_)

theorem kernel_foot {L m nl t : Nat} {A B C : Loc} {narg k : Nat} (hr : Wr (.reg t)) (hr' : Rd (.reg t)) (hA : Rd A.buf)
    (hB : Rd B.buf) (hC : Wr C.buf) (hC' : Rd C.buf) : All (FOp Wr Rd) (kernel L m nl t A B C narg k) := by
  have inner : ∀ a b, All (FOp Wr Rd) (kernInner L m nl t A B a b).1 := fun a b => by
    unfold kernInner
    foot
  unfold kernel kernLoadC kernStoreC kernLoop
  have h : ∀ s : Nat × Nat, All (FOp Wr Rd) ((kernInner L m nl t A B s.1 s.2).1, ((kernInner L m nl t A B s.1 s.2).2, s.2 + narg)).1 :=
    fun s => inner s.1 s.2
  refine .append (.append ?_ (.append (.loop (fun _ s => .loop (fun _ s => h s) _) _) (.loop (fun _ s => h s) _))) ?_
  · foot
  · foot

theorem regTiles_foot {kd : KDim} {t : Nat} {A B C : Loc} {m_r n_r mt nt k : Nat} (hr : Wr (.reg t)) (hr' : Rd (.reg t))
    (hA : Rd A.buf) (hB : Rd B.buf) (hC : Wr C.buf) (hC' : Rd C.buf) :
    All (FOp Wr Rd) (regTiles kd t A B C m_r n_r mt nt k) :=
  .flatMap fun _ => .flatMap fun _ => kernel_foot hr hr' hA hB hC hC'

theorem packA_ob_foot {A A_p : Loc} {M K m1 m2 m_c k_c m_r : Nat} (h : Wr A_p.buf) (h' : Rd A.buf) :
    All (FOp Wr Rd) (pack_ob_A_single_buf A A_p M K m1 m2 m_c k_c m_r) := by
  unfold pack_ob_A_single_buf; foot

theorem packB_ob_foot {B B_p : Loc} {N n1 k_c n_c n_r : Nat} {pad : Bool} (h : Wr B_p.buf) (h' : Rd B.buf) :
    All (FOp Wr Rd) (pack_ob_B_single_buf B B_p N n1 k_c n_c n_r pad) := by
  unfold pack_ob_B_single_buf; foot

theorem packBk_foot {B B_p : Loc} {N k_c n_r : Nat} (h : Wr B_p.buf) (h' : Rd B.buf) :
    All (FOp Wr Rd) (B_packing_kernel n_r k_c B N B_p) := by
  unfold B_packing_kernel pack_B_nr_x_kc; foot

theorem packAk_foot {A A_p : Loc} {K k_c m_r : Nat} (h : Wr A_p.buf) (h' : Rd A.buf) :
    All (FOp Wr Rd) (A_packing_kernel m_r k_c A K A_p) := by
  unfold A_packing_kernel pack_A_mr_x_kc; foot

theorem packC_ob_foot {C C_p : Loc} {M N m1 n1 m2 m_c n_c m_r n_r : Nat} {pm pn : Bool} (h : Wr C_p.buf) (h' : Rd C.buf) :
    All (FOp Wr Rd) (pack_ob_C_single_buf C C_p M N m1 n1 m2 m_c n_c m_r n_r pm pn) := by
  unfold pack_ob_C_single_buf; foot

theorem unpackC_ob_foot {C C_p : Loc} {M N m1 n1 m2 m_c n_c m_r n_r : Nat} (h : Wr C.buf) (h' : Rd C_p.buf) :
    All (FOp Wr Rd) (unpack_ob_C_single_buf C C_p M N m1 n1 m2 m_c n_c m_r n_r) := by
  unfold unpack_ob_C_single_buf; foot

theorem memset_foot {p : Loc} {n : Nat} (h : Wr p.buf) : All (FOp Wr Rd) (memset0 p n) := by
  unfold memset0; foot

/-- All operations of all phases. -/
abbrev PFoot (Wr Rd : Buf → Prop) (ph : List (List (List Op))) : Prop := All (All (All (FOp Wr Rd))) ph

theorem packA_foot {A A_p : Loc} {M K p m_r : Nat} {x : BlkDims} {sch : Sched} {ph : List (List (List Op))}
    (h : Wr A_p.buf) (h' : Rd A.buf) (e : pack_A A A_p M K p m_r x sch = some ph) : PFoot Wr Rd ph := by
  cases sch <;> simp only [pack_A, Option.some.injEq, reduceCtorEq] at e <;> subst e
  · unfold pack_A_k_first; foot
  · unfold pack_A_m_first; foot
  · unfold pack_A_n_first; foot

theorem packB_foot {B B_p : Loc} {K N p n_r : Nat} {x : BlkDims} {sch : Sched} {ph : List (List (List Op))}
    (h : Wr B_p.buf) (h' : Rd B.buf) (e : pack_B B B_p K N p n_r x sch = some ph) : PFoot Wr Rd ph := by
  cases sch <;> simp only [pack_B, Option.some.injEq, reduceCtorEq] at e <;> subst e
  · unfold pack_B_k_first
    refine .append (.loop (fun n1 s => ?_) _) (.ite ?_ .nil)
    · dsimp only; split <;> foot
    · foot
  · unfold pack_B_m_first; foot
  · unfold pack_B_n_first; foot

theorem packC_foot {C C_p : Loc} {M N p m_r n_r : Nat} {x : BlkDims} {sch : Sched} {ph : List (List (List Op))}
    (h : Wr C_p.buf) (h' : Rd C.buf) (e : pack_C C C_p M N p m_r n_r x sch = some ph) : PFoot Wr Rd ph := by
  cases sch <;> simp only [pack_C, Option.some.injEq, reduceCtorEq] at e <;> subst e
  · unfold pack_C_k_first; foot
  · unfold pack_C_m_first; foot
  · unfold pack_C_n_first; foot

theorem unpackC_foot {C C_p : Loc} {M N p m_r n_r : Nat} {x : BlkDims} {sch : Sched} {ph : List (List (List Op))}
    (h : Wr C.buf) (h' : Rd C_p.buf) (e : unpack_C C C_p M N p m_r n_r x sch = some ph) : PFoot Wr Rd ph := by
  cases sch <;> simp only [unpack_C, Option.some.injEq, reduceCtorEq] at e <;> subst e
  · unfold unpack_C_k_first; foot
  · unfold unpack_C_m_first; foot
  · unfold unpack_C_n_first; foot

theorem sched_foot {kd : KDim} {A B C : Loc} {K p m_r n_r : Nat} {x : BlkDims} {sch : Sched} {ph : List (List (List Op))}
    (hr : ∀ t, Wr (.reg t)) (hr' : ∀ t, Rd (.reg t)) (hA : Rd A.buf) (hB : Rd B.buf) (hC : Wr C.buf) (hC' : Rd C.buf)
    (e : schedule kd A B C K p m_r n_r x sch = some ph) : PFoot Wr Rd ph := by
  cases sch <;> simp only [schedule, Option.some.injEq, reduceCtorEq] at e <;> subst e
  · exact .nil
  · unfold schedule_MKN; foot <;> first | exact hr _ | exact hr' _
  · unfold schedule_NKM; foot <;> first | exact hr _ | exact hr' _

theorem schedK_foot {kd : KDim} {A B C : Loc} {M N K p m_r n_r : Nat} {x : BlkDims}
    (hr : ∀ t, Wr (.reg t)) (hr' : ∀ t, Rd (.reg t)) (hA : Rd A.buf) (hB : Rd B.buf) (hC : Wr C.buf)
    (hc : ∀ i, Wr (.CpC i)) (hc' : ∀ i, Rd (.CpC i)) : PFoot Wr Rd (schedule_KMN kd A B C M N K p m_r n_r x) := by
  unfold schedule_KMN
  foot <;> first | exact hr _ | exact hr' _ | exact hc _ | exact hc' _

theorem schedO_foot {kd : KDim} {A B C : Loc} {M N K p m_r n_r : Nat} {x : BlkDims}
    (hr : ∀ t, Wr (.reg t)) (hr' : ∀ t, Rd (.reg t)) (hA : Rd A.buf) (hB : Rd B.buf) (hC : Wr C.buf)
    (hc : ∀ i, Wr (.CpC i)) (hc' : ∀ i, Rd (.CpC i)) (ha : ∀ i, Wr (.ApC i)) (ha' : ∀ i, Rd (.ApC i)) (hb : Wr .Bp)
    (hb' : Rd .Bp) : PFoot Wr Rd (schedule_KMN_online kd A B C M N K p m_r n_r x) := by
  unfold schedule_KMN_online
  foot <;> first | exact hr _ | exact hr' _ | exact hc _ | exact hc' _ | exact ha _ | exact ha' _

theorem sched2_foot {kd : KDim} {A B C : Loc} {M N K m_r n_r : Nat} {x : BlkDims2}
    (hr : ∀ t, Wr (.reg t)) (hr' : ∀ t, Rd (.reg t)) (hA : Rd A.buf) (hB : Rd B.buf) (hC : Wr C.buf)
    (hc : ∀ i, Wr (.CpC i)) (hc' : ∀ i, Rd (.CpC i)) (ha : Wr .Ap) (ha' : Rd .Ap) (hb : Wr .Bp)
    (hb' : Rd .Bp) : PFoot Wr Rd (schedule_KMN_2d kd A B C M N K m_r n_r x) := by
  unfold schedule_KMN_2d
  foot <;> first | exact hr _ | exact hr' _ | exact hc _ | exact hc' _

theorem sched2s_foot {kd : KDim} {A B C : Loc} {M N K p m_r n_r : Nat} {x : BlkDims2}
    (hr : ∀ t, Wr (.reg t)) (hr' : ∀ t, Rd (.reg t)) (hA : Rd A.buf) (hB : Rd B.buf) (hC : Wr C.buf)
    (hc : ∀ i, Wr (.CpC i)) (hc' : ∀ i, Rd (.CpC i)) (ha : Wr .Ap) (ha' : Rd .Ap) (hb : Wr .Bp)
    (hb' : Rd .Bp) : PFoot Wr Rd (schedule_KMN_2d_small kd A B C M N K p m_r n_r x) := by
  unfold schedule_KMN_2d_small
  foot <;> first | exact hr _ | exact hr' _ | exact hc _ | exact hc' _

/-- The item's operations are as `FOp` says, and it allocates or frees only objects in `Ob`. -/
def IFoot (Wr Rd Ob : Buf → Prop) : Item → Prop
  | .par ts => All (All (FOp Wr Rd)) ts
  | .memalign b _ => Ob b
  | .malloc b _ => Ob b
  | .calloc b _ => Ob b
  | .free b => Ob b

theorem IFoot.ops {Ob : Buf → Prop} {p : Prog} (h : All (IFoot Wr Rd Ob) p) : All (FOp Wr Rd) (progOps p) := by
  unfold progOps
  intro o ho
  obtain ⟨i, hi, ho⟩ := mem_flatMap.1 ho
  have := h i hi
  cases i <;> try exact absurd ho not_mem_nil
  obtain ⟨t, ht, ho⟩ := mem_flatten.1 ho
  exact this t ht o ho

theorem IFoot.objs {Ob : Buf → Prop} {p : Prog} (h : All (IFoot Wr Rd Ob) p) : All Ob (progObjs p) := by
  unfold progObjs
  intro b hb
  obtain ⟨i, hi, hb⟩ := mem_flatMap.1 hb
  have := h i hi
  cases i <;> first | exact absurd hb not_mem_nil | (rw [mem_singleton.1 hb]; exact this)

theorem phases_foot {Ob : Buf → Prop} {ph : List (List (List Op))} (h : PFoot Wr Rd ph) : All (IFoot Wr Rd Ob) (phases ph) := by
  intro i hi
  obtain ⟨ts, hts, rfl⟩ := mem_map.1 hi
  exact h ts hts

/-- Programs that write no operand. -/
theorem Proper.of_foot {p : Prog} (h : All (IFoot (fun b => ¬ Inp b) (fun _ => True) (fun b => ¬ Inp b)) p) :
    Proper (fun _ => False) p :=
  ⟨fun o ho => (IFoot.ops h o ho).1, fun b hb => ⟨IFoot.objs h b hb, id⟩, .none⟩

/-- Programs that read the operands only before they write C. -/
theorem Proper.of_parts {p q : Prog}
    (hp : All (IFoot (fun b => ¬ Inp b ∧ b ≠ .C) (fun _ => True) (fun b => ¬ Inp b ∧ b ≠ .C)) p)
    (hq : All (IFoot (fun b => ¬ Inp b) (fun b => ¬ Inp b) (fun b => ¬ Inp b ∧ b ≠ .C)) q) :
    Proper (fun b => b = .C) (p ++ q) := by
  refine ⟨fun o ho => ?_, fun b hb => ?_, .append (fun o ho => (IFoot.ops hp o ho).1.2) ?_⟩
  · rw [progOps_append] at ho
    rcases mem_append.1 ho with ho | ho
    · exact (IFoot.ops hp o ho).1.1
    · exact (IFoot.ops hq o ho).1
  · rw [progObjs_append] at hb
    rcases mem_append.1 hb with hb | hb
    · exact IFoot.objs hp b hb
    · exact IFoot.objs hq b hb
  · rintro ⟨o, ho, x, hx, hi⟩
    exact (IFoot.ops hq o ho).2 x hx hi

end

/-- Objects that are neither A nor B nor C. -/
syntax "own" : tactic
macro_rules | `(tactic| own) => `(tactic| first | trivial | (intros; simp [Inp]) | simp [Inp])

/-- Decomposes programs. -/
macro "items" : tactic => `(tactic| repeat' first
  | with_reducible exact All.nil
  | with_reducible refine All.append ?_ ?_
  | with_reducible refine All.ite ?_ ?_
  | with_reducible refine phases_foot ?_
  | with_reducible refine All.cons ?_ ?_
  | with_reducible refine All.map fun _ => ?_
  | with_reducible refine All.flatMap fun _ => ?_)

section
variable {α : Type _}

/-- `cake_sgemm` on plain operands reads A and B only before it writes C. -/
theorem cake_sgemm_proper {nz : α → Bool} {cx : Cntx} {M N K p : Nat} {alpha beta : α} {m_c k_c n_c : Nat} {sch : Sched}
    {prog : Prog}
    (e : cake_sgemm nz cx ⟨.A, 0⟩ ⟨.B, 0⟩ ⟨.C, 0⟩ M N K p false false alpha beta m_c k_c n_c sch = some prog) :
    Proper (fun b => b = .C) prog := by
  unfold cake_sgemm at e
  simp only [Option.bind_eq_bind, Option.bind_eq_some_iff, Option.some.injEq] at e
  obtain ⟨x, hx, aSz, ha, cSz, hc, pa, hpa, pb, hpb, pc, hpc, uc, huc, sc, hsc, rfl⟩ := e
  rw [List.append_assoc]
  refine .of_parts ?_ ?_
  · items <;> first
      | exact packA_foot (by own) trivial hpa
      | exact packB_foot (by own) trivial hpb
      | (show ¬ Inp _ ∧ _; own)
  · items <;> first
      | exact schedK_foot (by own) (by own) (by own) (by own) (by own) (by own) (by own)
      | exact packC_foot (by own) (by own) hpc
      | exact sched_foot (by own) (by own) (by own) (by own) (by own) (by own) hsc
      | exact unpackC_foot (by own) (by own) huc
      | (show ¬ Inp _ ∧ _; own)

/-- `cake_sgemm`, also on pre-packed operands, does not write its operands. -/
theorem cake_sgemm_proper_any {nz : α → Bool} {cx : Cntx} {M N K p : Nat} {pA pB : Bool} {alpha beta : α} {m_c k_c n_c : Nat}
    {sch : Sched} {prog : Prog}
    (e : cake_sgemm nz cx ⟨.A, 0⟩ ⟨.B, 0⟩ ⟨.C, 0⟩ M N K p pA pB alpha beta m_c k_c n_c sch = some prog) :
    Proper (fun _ => False) prog := by
  unfold cake_sgemm at e
  simp only [Option.bind_eq_bind, Option.bind_eq_some_iff, Option.some.injEq] at e
  obtain ⟨x, hx, aSz, ha, cSz, hc, pa, hpa, pb, hpb, pc, hpc, uc, huc, sc, hsc, rfl⟩ := e
  refine .of_foot ?_
  items <;> first
    | exact packA_foot (by own) trivial hpa
    | exact packB_foot (by own) trivial hpb
    | exact schedK_foot (by own) (by own) (by own) (by own) (by own) (by own) (by own)
    | exact packC_foot (by own) (by own) hpc
    | exact sched_foot (by own) (by own) (by own) (by own) (by own) (by own) hsc
    | exact unpackC_foot (by own) (by own) huc
    | (show ¬ Inp _; own)

theorem cake_sgemm_online_proper {cx : Cntx} {M N K p : Nat} {pA pB : Bool} {alpha beta : α} {m_c k_c n_c : Nat}
    {prog : Prog}
    (e : cake_sgemm_online cx ⟨.A, 0⟩ ⟨.B, 0⟩ ⟨.C, 0⟩ M N K p pA pB alpha beta m_c k_c n_c = some prog) :
    Proper (fun _ => False) prog := by
  unfold cake_sgemm_online at e
  simp only [Option.bind_eq_bind, Option.bind_eq_some_iff, Option.some.injEq] at e
  obtain ⟨x, hx, rfl⟩ := e
  refine .of_foot ?_
  items <;> first
    | exact schedO_foot (by own) (by own) (by own) (by own) (by own) (by own) (by own) (by own) (by own) (by own) (by own)
    | (show ¬ Inp _; own)

theorem cake_sgemm_2d_proper {cx : Cntx} {M N K p : Nat} {pA pB : Bool} {alpha beta : α} {pn m_c k_c : Nat}
    {prog : Prog}
    (e : cake_sgemm_2d cx ⟨.A, 0⟩ ⟨.B, 0⟩ ⟨.C, 0⟩ M N K p pA pB alpha beta pn m_c k_c = some prog) :
    Proper (fun _ => False) prog := by
  unfold cake_sgemm_2d sgemm2dBody at e
  simp only [Option.bind_eq_bind, Option.bind_eq_some_iff, Option.some.injEq] at e
  obtain ⟨x, hx, rfl⟩ := e
  refine .of_foot ?_
  items <;> first
    | exact sched2_foot (by own) (by own) (by own) (by own) (by own) (by own) (by own) (by own) (by own) (by own) (by own)
    | (show ¬ Inp _; own)

theorem cake_sgemm_2d_small_proper {cx : Cntx} {M N K p : Nat} {pA pB : Bool} {alpha beta : α} {pn kc_max : Nat}
    {prog : Prog}
    (e : cake_sgemm_2d_small cx ⟨.A, 0⟩ ⟨.B, 0⟩ ⟨.C, 0⟩ M N K p pA pB alpha beta pn kc_max = some prog) :
    Proper (fun _ => False) prog := by
  unfold cake_sgemm_2d_small at e
  simp only [Option.bind_eq_bind, Option.bind_eq_some_iff, Option.some.injEq] at e
  obtain ⟨x, hx, rfl⟩ := e
  refine .of_foot ?_
  items <;> first
    | exact sched2s_foot (by own) (by own) (by own) (by own) (by own) (by own) (by own) (by own) (by own) (by own) (by own)
    | (show ¬ Inp _; own)

/-- The allocation of a context in front of a program. -/
theorem Proper.ctx {W : Buf → Prop} (hW : ¬ W .Ctx) {p : Prog} (h : Proper W p) (b : Bool) :
    Proper W ((if b then [Item.malloc .Ctx 1] else []) ++ p) := by
  cases b with
  | false => exact h
  | true =>
    refine ⟨fun o ho => h.wr o ho, fun b hb => ?_, fun _ o ho => absurd ho not_mem_nil, h.staged⟩
    rcases mem_cons.1 hb with rfl | hb
    · exact ⟨by simp [Inp], hW⟩
    · exact h.ob b hb

end
end Cake
