/-
Executions of one call on overlapping objects, where the result is not the one on separate objects: such executions exist
as well, and with one task per parallel loop the values they compute are determined.
-/
import Verif.Proofs.Footprint

namespace Cake
open List

section
variable {ι γ α : Type _} {F : Arith α} {ren : ι → Loc → γ}

/-- As large and at least as initialised. -/
structure Covers (ren : ι → Loc → γ) (i : ι) (G : GState ι γ α) (s : State α) : Prop where
  size : G.size i = s.size
  init : ∀ l, s.init l = true → G.init (ren i l) = true

theorem Covers.defined {i : ι} {G : GState ι γ α} {s : State α} (h : Covers ren i G s) {o : Op} (hd : o.Defined s.size s.init) :
    o.Defined (G.size i) (fun l => G.init (ren i l)) := by
  rw [h.size]
  exact ⟨hd.1, fun x hx => ⟨(hd.2 x hx).1, h.init x (hd.2 x hx).2⟩⟩

theorem covers_ops {i : ι} {ts : List (List Op)} {l : List Op} (hi : Interleave ts l) {is : Prog}
    {G : GState ι γ α} {s s' : State α} (h : RunOps F l s (.ok s')) (hs : Covers ren i G s) :
    ∃ G', Runs F ren i (.par ts :: is) G is G' ∧ Covers ren i G' s' := by
  induction hi generalizing G s with
  | done ts h0 =>
    cases h
    exact ⟨G, .one (.done ts is G h0), hs⟩
  | step pre o t post l _ ih =>
    classical
    cases h with
    | step _ _ _ _ hd hr =>
      have hst : GStep F ren i (.par (pre ++ (o :: t) :: post) :: is) G (.par (pre ++ t :: post) :: is)
          ⟨G.size, fun g => if g = ren i o.dst then o.val F (fun l => G.mem (ren i l)) else G.mem g,
            fun g => if g = ren i o.dst then true else G.init g⟩ :=
        .op pre o t post is G _ (hs.defined hd) rfl (fun g hg => ⟨if_neg hg, if_neg hg⟩) (if_pos rfl) (if_pos rfl)
      obtain ⟨G', hG, hS⟩ := ih (G := ⟨G.size, fun g => if g = ren i o.dst then o.val F (fun l => G.mem (ren i l)) else G.mem g,
            fun g => if g = ren i o.dst then true else G.init g⟩) hr ⟨hs.size, fun l hl => by
        dsimp only at hl ⊢
        split
        · rfl
        · rename_i hne
          by_cases e : l = o.dst
          · exact absurd (by rw [e]) hne
          · exact hs.init l (by simpa [e] using hl)⟩
      exact ⟨G', .step _ _ _ _ _ _ hst hG, hS⟩

/-- Object `b` of call `i` overlaps nothing. -/
def Alone (ren : ι → Loc → γ) (i : ι) (b : Buf) : Prop := ∀ k l', ren i l' = ren i ⟨b, k⟩ → l' = ⟨b, k⟩

theorem exists_fresh_alone {i : ι} {b : Buf} (G : GState ι γ α) (n : Nat) (ini : Bool) (z : α) :
    ∃ G' : GState ι γ α, Fresh ren i b ini G G' n ∧ ∀ k, G'.mem (ren i ⟨b, k⟩) = z := by
  classical
  refine ⟨⟨fun j b' => if j = i then (if b' = b then some n else G.size i b') else G.size j b',
    fun g => if ∃ k, ren i ⟨b, k⟩ = g then z else G.mem g,
    fun g => if ∃ k, ren i ⟨b, k⟩ = g then ini else G.init g⟩, ⟨?_, ?_, ?_, ?_, ?_⟩, ?_⟩
  · funext b'; simp
  · intro j hj; funext b'; simp [hj]
  · intro g hg; dsimp only; rw [if_neg (by simpa using hg)]
  · intro g hg; dsimp only; rw [if_neg (by simpa using hg)]
  · intro k; dsimp only; rw [if_pos ⟨k, rfl⟩]
  · intro k; dsimp only; rw [if_pos ⟨k, rfl⟩]

theorem Covers.fresh {i : ι} {b : Buf} (hb : Alone ren i b) {ini : Bool} {G G' : GState ι γ α} {s : State α} {n : Nat}
    (hs : Covers ren i G s) (hf : Fresh ren i b ini G G' n) {m : Loc → α} :
    Covers ren i G' ⟨fun b' => if b' = b then some n else s.size b', m, fun l => if l.buf = b then ini else s.init l⟩ := by
  refine ⟨by rw [hf.size, hs.size], fun l hl => ?_⟩
  dsimp only at hl
  split at hl
  · rename_i e; subst e; rw [show l = ⟨l.buf, l.idx⟩ from rfl, hf.ini, hl]
  · rename_i e
    rw [hf.init _ fun k e' => e (by rw [hb k l e'.symm])]
    exact hs.init l hl

/-- What can run to its end on separate objects can do so on overlapping ones, as far as these are not allocated by it. -/
theorem Exec.covers {i : ι} {p : Prog} {s : State α} {out : Out α} (he : Exec F p s out) {s' : State α} (hout : out = .ok s')
    {G : GState ι γ α} (hs : Covers ren i G s) (hp : ∀ b ∈ progObjs p, Alone ren i b) :
    ∃ G', Runs F ren i p G [] G' := by
  induction he generalizing G with
  | nil s => exact ⟨G, .refl [] G⟩
  | exit _ _ _ _ => cases hout
  | ub _ _ _ _ => cases hout
  | next it is s s1 out h1 _ ih =>
    suffices H : ∃ G1, Runs F ren i (it :: is) G is G1 ∧ Covers ren i G1 s1 by
      obtain ⟨G1, r1, m1⟩ := H
      obtain ⟨G2, r2⟩ := ih hout m1 fun b hb => hp b (by rw [progObjs_cons]; exact mem_append_right _ hb)
      exact ⟨G2, r1.trans r2⟩
    cases h1 with
    | memalign b n s m' h0 hm =>
      have hb := hp b (by simp [progObjs])
      obtain ⟨G1, hf, -⟩ := exists_fresh_alone (b := b) G n false F.zero
      exact ⟨G1, .one (.memalign b n is G G1 (hs.size ▸ h0) hf), hs.fresh hb hf⟩
    | malloc b n s m' h0 hm =>
      have hb := hp b (by simp [progObjs])
      obtain ⟨G1, hf, -⟩ := exists_fresh_alone (b := b) G n false F.zero
      exact ⟨G1, .one (.malloc b n is G G1 (hs.size ▸ h0) hf), hs.fresh hb hf⟩
    | calloc b n s h0 =>
      have hb := hp b (by simp [progObjs])
      obtain ⟨G1, hf, hz⟩ := exists_fresh_alone (b := b) G n true F.zero
      exact ⟨G1, .one (.calloc b n is G G1 (hs.size ▸ h0) hf hz), hs.fresh hb hf⟩
    | free b s h0 =>
      classical
      refine ⟨⟨fun j b' => if j = i then (if b' = b then none else G.size i b') else G.size j b', G.mem, G.init⟩,
        .one (.free b is G _ (hs.size ▸ h0) (by funext b'; simp) (fun j hj => by funext b'; simp [hj]) rfl rfl), ⟨?_, hs.init⟩⟩
      funext b'
      simp [hs.size]
    | par ts l s _ hi hr => exact covers_ops hi hr hs

end

/-! ### Values computed by one task after the other -/

/-- How a value was computed. -/
inductive Expr' where
  | base (g : Loc)
  | zero
  | fma (a b c : Expr')
  deriving DecidableEq

def Expr'.eval {α : Type _} (F : Arith α) (m : Loc → α) : Expr' → α
  | .base g => m g
  | .zero => F.zero
  | .fma a b c => F.fma (a.eval F m) (b.eval F m) (c.eval F m)

/-- The value of cell `g` after the operations, given last first. -/
def slice (rn : Loc → Loc) : List Op → Loc → Expr'
  | [], g => .base g
  | .copy d r :: os, g => if g = rn d then slice rn os (rn r) else slice rn os g
  | .zero d :: os, g => if g = rn d then .zero else slice rn os g
  | .fma d a b :: os, g => if g = rn d then .fma (slice rn os (rn a)) (slice rn os (rn b)) (slice rn os (rn d)) else slice rn os g

/-- Every parallel loop has one task. -/
def OneTask : Prog → Prop
  | [] => True
  | .par [_] :: is => OneTask is
  | .free _ :: is => OneTask is
  | _ :: _ => False

theorem slice_snoc {α : Type _} (F : Arith α) (rn : Loc → Loc) (m m1 : Loc → α) (o : Op)
    (h1 : ∀ g, g ≠ rn o.dst → m1 g = m g) (h2 : m1 (rn o.dst) = o.val F fun l => m (rn l)) (os : List Op) (g : Loc) :
    (slice rn (os ++ [o]) g).eval F m = (slice rn os g).eval F m1 := by
  induction os generalizing g with
  | nil =>
    cases o <;> simp only [nil_append, slice] <;> simp only [Op.dst] at h1 h2 <;> split <;> first
      | (rename_i e; subst e; simp only [Expr'.eval]; rw [h2]; rfl)
      | (rename_i e; simp only [Expr'.eval]; rw [h1 _ e])
  | cons o' os ih =>
    cases o' <;> simp only [cons_append, slice] <;> split <;> simp only [Expr'.eval, ih]

section
variable {α : Type _} {F : Arith α} {rn : Loc → Loc} {κ : Type _}

theorem OneTask.par {ts : List (List Op)} {is : Prog} (h : OneTask (.par ts :: is)) : ∃ t, ts = [t] ∧ OneTask is := by
  match ts, h with
  | [t], h => exact ⟨t, rfl, h⟩

/-- One call, one task at a time: what it computes is determined. -/
theorem CExec.det {c : Calls Unit κ} {G G' : GState Unit Loc α} {out : COut Unit Loc α}
    (he : CExec F (fun _ => rn) c G out) (ho : out = .ok G') (h1 : OneTask (c.prog ())) (g : Loc) :
    G'.mem g = (slice rn (progOps (c.prog ())).reverse g).eval F G.mem := by
  induction he with
  | done c G h0 => cases ho; rw [h0]; rfl
  | exit _ _ _ _ _ _ _ => cases ho
  | ub _ _ _ _ => cases ho
  | race _ _ _ => cases ho
  | step i c G q G1 out hst hq _ ih =>
    dsimp only at ih
    generalize c.prog () = p at *
    generalize q () = p' at *
    cases hst with
    | memalign b n is G G' h0 hf => exact h1.elim
    | malloc b n is G G' h0 hf => exact h1.elim
    | calloc b n is G G' h0 hf hz => exact h1.elim
    | free b is G G' h0 h2 h3 h4 h5 =>
      rw [ih ho h1, h4, progOps_cons (.free b)]
      rfl
    | op pre o t post is G G' hd h2 h3 h4 h5 =>
      obtain ⟨t', e, hi⟩ := h1.par
      obtain ⟨rfl, e⟩ : pre = [] ∧ (o :: t) :: post = [t'] := by
        cases pre with
        | nil => exact ⟨rfl, e⟩
        | cons _ _ => simp at e
      obtain ⟨rfl, rfl⟩ : o :: t = t' ∧ post = [] := by simpa using e
      rw [ih ho hi, progOps_par, progOps_par]
      simp only [nil_append, flatten_cons, flatten_nil, append_nil, cons_append, reverse_cons]
      exact (slice_snoc F rn G.mem _ o (fun g hg => (h3 g hg).1) h4 _ g).symm
    | done ts is G h0 =>
      obtain ⟨t, rfl, hi⟩ := h1.par
      rw [ih ho hi, progOps_par, h0 t (by simp)]
      rfl

/-- Allocations in front of the rest of a call. -/
theorem CExec.front {pre : Prog} (hpre : progOps pre = []) {q : Prog} {ctx : Unit → κ} {acc : Unit → List CtxAcc}
    {G G' : GState Unit Loc α} (hpar : ∀ ts, Item.par ts ∉ pre)
    (he : CExec F (fun _ => rn) ⟨fun _ => pre ++ q, ctx, acc⟩ G (.ok G')) :
    ∃ G1, CExec F (fun _ => rn) ⟨fun _ => q, ctx, acc⟩ G1 (.ok G') ∧
      ∀ g, (∀ b ∈ progObjs pre, ∀ k, rn ⟨b, k⟩ ≠ g) → G1.mem g = G.mem g := by
  induction pre generalizing G with
  | nil => exact ⟨G, he, fun _ _ => rfl⟩
  | cons it is ih =>
    have hq : ∀ (qq : Unit → Prog), qq = fun _ => qq () := fun qq => rfl
    suffices H : ∃ G2, CExec F (fun _ => rn) ⟨fun _ => is ++ q, ctx, acc⟩ G2 (.ok G') ∧
        ∀ g, (∀ b ∈ progObjs [it], ∀ k, rn ⟨b, k⟩ ≠ g) → G2.mem g = G.mem g by
      obtain ⟨G2, h2, e2⟩ := H
      obtain ⟨G1, h1, e1⟩ := ih (by rw [progOps_cons] at hpre; exact (append_eq_nil_iff.1 hpre).2)
        (fun ts h => hpar ts (mem_cons_of_mem _ h)) h2
      refine ⟨G1, h1, fun g hg => ?_⟩
      rw [progObjs_cons] at hg
      rw [e1 g fun b hb => hg b (mem_append_right _ hb), e2 g fun b hb => hg b (mem_append_left _ hb)]
    cases he with
    | done _ _ h0 => exact absurd (h0 ()) (by simp)
    | step i _ _ qq G2 _ hst _ h =>
      dsimp only at hst h
      generalize hp' : qq i = p' at hst
      have e : qq = fun _ => p' := by funext x; exact hp'
      subst e
      simp only [cons_append] at hst
      cases hst with
      | memalign b n _ _ _ h0 hf => exact ⟨G2, h, fun g hg => hf.mem g fun k => hg b (by simp [progObjs]) k⟩
      | malloc b n _ _ _ h0 hf => exact ⟨G2, h, fun g hg => hf.mem g fun k => hg b (by simp [progObjs]) k⟩
      | calloc b n _ _ _ h0 hf hz => exact ⟨G2, h, fun g hg => hf.mem g fun k => hg b (by simp [progObjs]) k⟩
      | free b _ _ _ h0 h2 h3 h4 h5 => exact ⟨G2, h, fun g _ => by rw [h4]⟩
      | op pre o t post _ _ _ hd h2 h3 h4 h5 => exact absurd (mem_cons_self ..) (hpar _)
      | done ts _ _ h0 => exact absurd (mem_cons_self ..) (hpar _)

/-- Zero-filled memory. -/
theorem CExec.calloc {b : Buf} {n : Nat} {q : Prog} {ctx : Unit → κ} {acc : Unit → List CtxAcc}
    {G G' : GState Unit Loc α} (he : CExec F (fun _ => rn) ⟨fun _ => .calloc b n :: q, ctx, acc⟩ G (.ok G')) :
    ∃ G1, CExec F (fun _ => rn) ⟨fun _ => q, ctx, acc⟩ G1 (.ok G') ∧
      (∀ g, (∀ k, rn ⟨b, k⟩ ≠ g) → G1.mem g = G.mem g) ∧ ∀ k, G1.mem (rn ⟨b, k⟩) = F.zero := by
  cases he with
  | done _ _ h0 => exact absurd (h0 ()) (by simp)
  | step i _ _ qq G2 _ hst _ h =>
    dsimp only at hst h
    generalize hp' : qq i = p' at hst
    have e : qq = fun _ => p' := by funext x; exact hp'
    subst e
    cases hst with
    | calloc b n _ _ _ h0 hf hz => exact ⟨G2, h, hf.mem, hz⟩

end

end Cake
