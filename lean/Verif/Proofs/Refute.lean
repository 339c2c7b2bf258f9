/-
Two decidable checks of a program that refute properties of it: it cannot run to its end; it leaves
certain elements zero.
-/
import Verif.Proofs.Undef
import Verif.Proofs.Exact

namespace Cake
open List

variable {α : Type _} {F : Arith α}

/-- Is the location outside the allocated objects? -/
def outside (sz : Buf → Option Nat) (l : Loc) : Bool := match l.buf with
  | .reg _ => false
  | b => match sz b with
    | some n => decide (n ≤ l.idx)
    | none => true

theorem outside_spec {sz : Buf → Option Nat} {l : Loc} (h : outside sz l = true) : ¬ InB sz l := by
  obtain ⟨b, i⟩ := l
  unfold outside at h
  unfold InB
  cases b <;> simp only at h ⊢ <;> first
    | cases h
    | (split at h
       · rename_i n hn
         rintro ⟨m, hm, hlt⟩
         have : n ≤ i := of_decide_eq_true h
         rw [hn] at hm; cases hm; omega
       · rename_i hn
         rintro ⟨m, hm, hlt⟩
         rw [hn] at hm; cases hm)

/-- The sizes after an item. -/
def sizeAfter (sz : Buf → Option Nat) : Item → Buf → Option Nat
  | .memalign b n => fun b' => if b' = b then some n else sz b'
  | .malloc b n => fun b' => if b' = b then some n else sz b'
  | .calloc b n => fun b' => if b' = b then some n else sz b'
  | .free b => fun b' => if b' = b then none else sz b'
  | .par _ => sz

/-- Some operation accesses memory outside the objects allocated at that point. -/
def escapes : Prog → (Buf → Option Nat) → Bool
  | [], _ => false
  | .par ts :: is, sz => ts.any (fun t => t.any fun o => outside sz o.dst || o.reads.any (outside sz)) || escapes is sz
  | i :: is, sz => escapes is (sizeAfter sz i)

theorem ItemExec.size {i : Item} {s s' : State α} (h : ItemExec F i s (.ok s')) : s'.size = sizeAfter s.size i := by
  cases h with
  | memalign => rfl
  | malloc => rfl
  | calloc => rfl
  | free => rfl
  | par ts l _ _ hl hr => exact (RunOps.ok_inv hr).1

/-- A program with such an operation has no run that ends normally. -/
theorem escapes_no_ok {prog : Prog} {s : State α} (h : escapes prog s.size = true) (s' : State α) :
    ¬ Exec F prog s (.ok s') := by
  induction prog generalizing s with
  | nil => cases h
  | cons i is ih =>
    intro he
    cases he with
    | next _ _ _ s1 _ h1 h2 =>
      have hsz := h1.size
      cases i with
      | par ts =>
        simp only [escapes, Bool.or_eq_true] at h
        rcases h with h | h
        · cases h1 with
          | par _ l _ _ hl hr =>
            obtain ⟨t, ht, hto⟩ := any_eq_true.1 h
            obtain ⟨o, ho, hoo⟩ := any_eq_true.1 hto
            have hm : o ∈ l := hl.perm.mem_iff.2 (mem_flatten.2 ⟨t, ht, ho⟩)
            obtain ⟨g1, g2⟩ := (RunOps.ok_inv hr).2 o hm
            simp only [Bool.or_eq_true] at hoo
            rcases hoo with hoo | hoo
            · exact outside_spec hoo g1
            · obtain ⟨r, hr, hro⟩ := any_eq_true.1 hoo
              exact outside_spec hro (g2 r hr)
        · exact ih (by rw [hsz]; exact h) h2
      | memalign b n => exact ih (by rw [hsz]; exact h) h2
      | malloc b n => exact ih (by rw [hsz]; exact h) h2
      | calloc b n => exact ih (by rw [hsz]; exact h) h2
      | free b => exact ih (by rw [hsz]; exact h) h2

/-- The operation keeps the elements `zs` zero. -/
def opKeeps (zs : List Loc) (o : Op) : Bool := match o with
  | .copy d r => !zs.contains d || zs.contains r
  | .zero _ => true
  | .fma d _ _ => !zs.contains d

def itemKeeps (zs : List Loc) : Item → Bool
  | .memalign b _ => !(zs.map (·.buf)).contains b
  | .malloc b _ => !(zs.map (·.buf)).contains b
  | .calloc _ _ => true
  | .free _ => true
  | .par ts => ts.all fun t => t.all (opKeeps zs)

/-- The elements `zs` of objects that are allocated are zero. -/
def Zeros (F : Arith α) (zs : List Loc) (s : State α) : Prop := ∀ z ∈ zs, s.size z.buf ≠ none → s.mem z = F.zero

theorem InB.alloc {sz : Buf → Option Nat} {l : Loc} (h : InB sz l) (hr : ∀ t, l.buf ≠ .reg t) : sz l.buf ≠ none := by
  obtain ⟨b, i⟩ := l
  unfold InB at h
  cases b <;> simp only at h hr ⊢ <;> first
    | (obtain ⟨n, hn, _⟩ := h; rw [hn]; simp)
    | exact absurd rfl (hr _)

theorem zeros_runOps {zs : List Loc} (hreg : ∀ z ∈ zs, ∀ t, z.buf ≠ .reg t) {l : List Op}
    (hl : ∀ o ∈ l, opKeeps zs o = true) {s s' : State α} (hz : Zeros F zs s) (h : RunOps F l s (.ok s')) : Zeros F zs s' := by
  generalize ho : Out.ok s' = out at h
  induction h with
  | nil s => cases ho; exact hz
  | undef => cases ho
  | step o os s out hd _ ih =>
    refine ih (fun o' h' => hl o' (mem_cons_of_mem _ h')) ?_ ho
    intro z hz' hsz
    have hk := hl o (mem_cons_self ..)
    show o.step F s.mem z = F.zero
    unfold Op.step
    by_cases he : z = o.dst
    · rw [if_pos he]
      cases o with
      | copy d r =>
        simp only [Op.dst] at he
        subst he
        simp only [opKeeps, Bool.or_eq_true, Bool.not_eq_true', contains_eq_mem, decide_eq_true_eq, decide_eq_false_iff_not] at hk
        rcases hk with hk | hk
        · exact absurd hz' hk
        · exact hz r hk ((hd.2 r (by simp [Op.reads])).1.alloc (hreg r hk))
      | zero d => rfl
      | fma d a b =>
        simp only [Op.dst] at he
        subst he
        simp only [opKeeps, Bool.not_eq_true', contains_eq_mem, decide_eq_false_iff_not] at hk
        exact absurd hz' hk
    · rw [if_neg he]
      exact hz z hz' hsz

/-- A program all of whose items keep `zs` zero leaves them zero, in every run that ends normally. -/
theorem zeros_exec {zs : List Loc} (hreg : ∀ z ∈ zs, ∀ t, z.buf ≠ .reg t) {prog : Prog}
    (hp : prog.all (itemKeeps zs) = true) {s s' : State α} (hz : Zeros F zs s) (h : Exec F prog s (.ok s')) :
    Zeros F zs s' := by
  induction prog generalizing s with
  | nil => cases h; exact hz
  | cons i is ih =>
    simp only [all_cons, Bool.and_eq_true] at hp
    cases h with
    | next _ _ _ s1 _ h1 h2 =>
      refine ih hp.2 ?_ h2
      have hi := hp.1
      cases h1 with
      | memalign b n _ m' hb hm =>
        intro z hz' hsz
        simp only [itemKeeps, Bool.not_eq_true', contains_eq_mem, decide_eq_false_iff_not] at hi
        have hne : z.buf ≠ b := fun e => hi (mem_map.2 ⟨z, hz', e⟩)
        show m' z = _
        rw [hm z hne]
        exact hz z hz' (by simpa [hne] using hsz)
      | malloc b n _ m' hb hm =>
        intro z hz' hsz
        simp only [itemKeeps, Bool.not_eq_true', contains_eq_mem, decide_eq_false_iff_not] at hi
        have hne : z.buf ≠ b := fun e => hi (mem_map.2 ⟨z, hz', e⟩)
        show m' z = _
        rw [hm z hne]
        exact hz z hz' (by simpa [hne] using hsz)
      | calloc b n _ hb =>
        intro z hz' hsz
        show (if z.buf = b then F.zero else s.mem z) = _
        split
        · rfl
        · rename_i hne
          exact hz z hz' (by simpa [hne] using hsz)
      | free b _ hb =>
        intro z hz' hsz
        refine hz z hz' ?_
        intro e
        apply hsz
        show (if z.buf = b then none else s.size z.buf) = none
        rw [e]; simp
      | par ts l _ _ hl hr =>
        refine zeros_runOps hreg ?_ hz hr
        intro o ho
        obtain ⟨t, ht, hot⟩ := mem_flatten.1 (hl.perm.mem_iff.1 ho)
        exact all_eq_true.1 (all_eq_true.1 hi t ht) o hot

end Cake
