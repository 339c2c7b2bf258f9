/-
C66: what happens when the system refuses memory.
-/
import Verif.Proofs.OutOfMem
import Verif.Proofs.Footprint
import Verif.Props.Concurrent

namespace Cake
open List

section
variable {α : Type _} {F : Arith α}

/-- What refused memory does to the program `prog`: in every execution, whatever allocations fail, the behaviour is undefined
exactly if an unchecked allocation of an object in `needed` failed; otherwise the program exits or ends as `Q` says. -/
def Refusal (F : Arith α) (prog : Prog) (s : State α) (needed : Buf → Prop) (Q : State α → Prop) : Prop :=
  ∀ fl out, FExec F prog noNull s fl out →
    (out = .ub ↔ ∃ b ∈ fl, needed b) ∧ (out ≠ .ub → out = .exit ∨ ∃ s', out = .ok s' ∧ Q s')

theorem Refusal.mono {prog : Prog} {s : State α} {n n' : Buf → Prop} {Q Q' : State α → Prop} (h : Refusal F prog s n Q)
    (hn : ∀ b, n b ↔ n' b) (hQ : ∀ s', Q s' → Q' s') : Refusal F prog s n' Q' := by
  intro fl out he
  obtain ⟨h1, h2⟩ := h fl out he
  refine ⟨h1.trans (exists_congr fun b => and_congr_right fun _ => hn b), fun hne => ?_⟩
  rcases h2 hne with e | ⟨s', e, hq⟩
  · exact .inl e
  · exact .inr ⟨s', e, hQ s' hq⟩

theorem Correct.closed {nullCtx : Bool} {s : State α} {M N K : Nat} (hC : s.size .C ≠ none) :
    Closed (fun s' => Correct F nullCtx s s' M N K) s := by
  intro s1 s2 h hsz hs
  refine ⟨fun r c hr hc => ?_, fun l hl hX => ?_, fun b => by rw [hsz]; exact h.size b⟩
  · have := h.product r c hr hc
    rw [(hs ⟨.C, r * N + c⟩ hC).2]
    unfold entry at this ⊢
    rw [(hs ⟨.C, r * N + c⟩ hC).1]
    exact this
  · rw [(hs l hl).1, (hs l hl).2]; exact h.keep l hl hX

/-! ### Which objects a program accesses -/

/-- Some element satisfies `P`. -/
def Ex {β : Type _} (P : β → Prop) (l : List β) : Prop := ∃ o ∈ l, P o

namespace Ex
variable {β β' σ : Type _} {P : β → Prop}

theorem left {l l' : List β} (h : Ex P l) : Ex P (l ++ l') := by
  obtain ⟨o, h, hp⟩ := h; exact ⟨o, mem_append_left _ h, hp⟩

theorem right {l l' : List β} (h : Ex P l') : Ex P (l ++ l') := by
  obtain ⟨o, h, hp⟩ := h; exact ⟨o, mem_append_right _ h, hp⟩

theorem map {f : β' → β} {l : List β'} {x : β'} (hx : x ∈ l) (h : P (f x)) : Ex P (l.map f) :=
  ⟨_, mem_map_of_mem hx, h⟩

theorem flatMap {f : β' → List β} {l : List β'} {x : β'} (hx : x ∈ l) (h : Ex P (f x)) : Ex P (l.flatMap f) := by
  obtain ⟨o, h, hp⟩ := h; exact ⟨o, mem_flatMap.2 ⟨x, hx, h⟩, hp⟩

theorem loop {xs : List β'} {body : β' → σ → List β × σ} {x : β'} (hx : x ∈ xs) (h : ∀ s, Ex P (body x s).1) (s : σ) :
    Ex P (loopS xs body s).1 := by
  induction xs generalizing s with
  | nil => cases hx
  | cons y ys ih =>
    rcases mem_cons.1 hx with rfl | hx
    · exact left (h s)
    · exact right (ih hx _)

end Ex

theorem progTouches_phases {ph : List (List (List Op))} {b : Buf} :
    ProgTouches (ph.map Item.par) b ↔ Ex (Ex (Ex fun o : Op => o.Touches b)) ph := by
  constructor
  · rintro ⟨ts, h, r⟩
    obtain ⟨ts', h', e⟩ := mem_map.1 h
    cases e
    exact ⟨ts, h', r⟩
  · rintro ⟨ts, h, r⟩
    exact ⟨ts, mem_map_of_mem h, r⟩

theorem FOp.not_touches {b : Buf} {o : Op} (h : FOp (· ≠ b) (· ≠ b) o) : ¬ o.Touches b := by
  rintro (e | ⟨r, hr, e⟩)
  · exact h.1 e
  · exact h.2 r hr e

theorem PFoot.not_touches {b : Buf} {ph : List (List (List Op))} (h : PFoot (· ≠ b) (· ≠ b) ph) :
    ¬ ProgTouches (ph.map Item.par) b := by
  rw [progTouches_phases]
  rintro ⟨ts, h1, t, h2, o, h3, h4⟩
  exact (h ts h1 t h2 o h3).not_touches h4

theorem unpack_ex {C C_p : Loc} {M N m1 n1 m2 m_c n_c m_r n_r : Nat} (hmc : 0 < m_c) (hnc : 0 < n_c) (hmr : 0 < m_r)
    (hnr : 0 < n_r) (hm : m1 + m2 < M) (hn : n1 < N) :
    Ex (fun o : Op => o.Touches C_p.buf) (unpack_ob_C_single_buf C C_p M N m1 n1 m2 m_c n_c m_r n_r) := by
  have z : ∀ {n r : Nat}, 0 < n → 0 ∈ cfor 0 n r := by
    intro n r hn
    obtain ⟨n, rfl⟩ : ∃ k, n = k + 1 := ⟨n - 1, by omega⟩
    unfold cfor cforAux
    simp
  refine Ex.loop (z hnc) (fun s => Ex.loop (z hmc) (fun s => Ex.loop (mem_range.2 hmr) (fun s =>
    Ex.loop (mem_range.2 hnr) (fun s => ?_) _) _) _) _
  dsimp only
  rw [if_pos (by omega)]
  exact ⟨_, mem_singleton.2 rfl, .inr ⟨_, mem_singleton.2 rfl, rfl⟩⟩

/-! ### `cake_sgemm`, K-first -/

/-- The number of cores that take part: all of them if one row block is full, otherwise as many as get register tiles when
the tiles of the rows are divided evenly. -/
def coresUsed (M N p m_r m_c : Nat) : Nat :=
  if M = 0 ∨ N = 0 then 0 else if p * m_c ≤ M then p else cdiv (cdiv M m_r) (cdiv (cdiv M m_r) p)

variable {M N K p m_c k_c n_c : Nat}

/-- The cores working on block row `m`. -/
def coresAt (p m : Nat) (x : BlkDims) : Nat := if (m == x.Mb - 1 && x.m_pad) = true then x.p_l else p

theorem coresAt_le {m_r n_r : Nat} (h : TileOK p m_r n_r m_c k_c n_c) {m : Nat} (hN : 0 < N)
    (hm : m < (dimsKMN M N K p m_r n_r m_c k_c n_c).Mb) :
    coresAt p m (dimsKMN M N K p m_r n_r m_c k_c n_c) ≤ coresUsed M N p m_r m_c := by
  have hM : 0 < M := by
    rcases Nat.eq_zero_or_pos M with rfl | h0
    · simp [dimsKMN] at hm
    · exact h0
  rw [(kmn_Mb h)] at hm
  unfold coresAt coresUsed
  rw [if_neg (show ¬ (M = 0 ∨ N = 0) by omega), (kmn_Mb h)]
  by_cases hb : p * m_c ≤ M
  · rw [if_pos hb]
    exact (m_strips (N := N) (K := K) h hm).2.2.2.1.trans_le (m_strips (N := N) (K := K) h hm).2.2.2.2.1
  · rw [if_neg hb]
    rw [not_le] at hb
    have e : M % (p * m_c) = M := Nat.mod_eq_of_lt hb
    have e1 : cdiv M (p * m_c) = 1 := cdiv_eq_of (by omega) (by omega)
    rw [e1] at hm ⊢
    have hpad : (dimsKMN M N K p m_r n_r m_c k_c n_c).m_pad = true := by
      show (M % (p * m_c) != 0) = true
      rw [e]; simp; omega
    rw [hpad, if_pos (by simp; omega)]
    show (if cdiv (cdiv (M % (p * m_c)) m_r) p ≠ 0 then _ else 0) ≤ _
    rw [e]
    split
    · exact Nat.le_refl _
    · exact Nat.zero_le _

theorem coresAt_first {m_r n_r : Nat} (h : TileOK p m_r n_r m_c k_c n_c) (hM : 0 < M) (hN : 0 < N) :
    0 < (dimsKMN M N K p m_r n_r m_c k_c n_c).Mb ∧
    coresAt p 0 (dimsKMN M N K p m_r n_r m_c k_c n_c) = coresUsed M N p m_r m_c := by
  rw [(kmn_Mb h)]
  refine ⟨cdiv_pos hM h.S_pos, ?_⟩
  unfold coresAt coresUsed
  rw [if_neg (show ¬ (M = 0 ∨ N = 0) by omega), (kmn_Mb h)]
  by_cases hb : p * m_c ≤ M
  · rw [if_pos hb, if_neg]
    intro hl
    simp only [Bool.and_eq_true, beq_iff_eq] at hl
    have hp : M % (p * m_c) ≠ 0 := by
      have : (M % (p * m_c) != 0) = true := hl.2
      simpa using this
    have h1 : cdiv M (p * m_c) = 1 := by
      have := cdiv_pos hM h.S_pos
      omega
    have h2 := cdiv_mul_ge M (p * m_c) h.S_pos
    rw [h1, Nat.one_mul] at h2
    have : M = p * m_c := by omega
    rw [this, Nat.mod_self] at hp
    exact hp rfl
  · rw [if_neg hb]
    rw [not_le] at hb
    have e : M % (p * m_c) = M := Nat.mod_eq_of_lt hb
    have e1 : cdiv M (p * m_c) = 1 := cdiv_eq_of (by omega) (by omega)
    have hpad : (dimsKMN M N K p m_r n_r m_c k_c n_c).m_pad = true := by
      show (M % (p * m_c) != 0) = true
      rw [e]; simp; omega
    rw [hpad, e1, if_pos (by simp)]
    show (if cdiv (cdiv (M % (p * m_c)) m_r) p ≠ 0 then _ else 0) = _
    rw [e, if_pos]
    exact Nat.ne_of_gt (cdiv_pos (cdiv_pos hM h.m_r_pos) h.p_pos)

theorem memset_ex {b : Buf} {n : Nat} (hn : 0 < n) : Ex (fun o : Op => o.Touches b) (memset0 ⟨b, 0⟩ n) :=
  Ex.map (mem_range.2 hn) (.inl rfl)

/-- The private block of core `i` is accessed exactly if the core takes part. -/
theorem touches_kmn {m_r n_r : Nat} (h : TileOK p m_r n_r m_c k_c n_c) {kd : KDim} {A_p B_p C : Loc} (i : Nat)
    (hA : A_p.buf ≠ .CpC i) (hB : B_p.buf ≠ .CpC i) (hC : C.buf ≠ .CpC i) :
    ProgTouches ((schedule_KMN kd A_p B_p C M N K p m_r n_r (dimsKMN M N K p m_r n_r m_c k_c n_c)).map Item.par) (.CpC i) ↔
      i < coresUsed M N p m_r m_c := by
  rw [progTouches_phases]
  constructor
  · rintro ⟨ts, h1, t, h2, o, h3, h4⟩
    obtain ⟨n, hn, h1⟩ := mem_flatMap.1 h1
    obtain ⟨m, hm, h1⟩ := mem_flatMap.1 h1
    rw [mem_serp] at hm
    have hN : 0 < N := by
      rcases Nat.eq_zero_or_pos N with rfl | h0
      · simp [dimsKMN] at hn
      · exact h0
    refine lt_of_lt_of_le ?_ (coresAt_le h hN hm)
    have key : ∀ core, ∀ l : List Op, (core ≠ i → All (FOp (· ≠ .CpC i) (· ≠ .CpC i)) l) → o ∈ l → core = i := by
      intro core l hl ho
      by_contra hne
      exact (hl hne o ho).not_touches h4
    have off : ∀ core, core ≠ i → Buf.CpC core ≠ Buf.CpC i := fun core hne e => hne (by simpa using e)
    rcases mem_cons.1 h1 with rfl | h1
    · obtain ⟨core, hc, rfl⟩ := mem_map.1 h2
      have e : core = i := by
        refine key core _ (fun hne => ?_) h3
        refine .flatMap fun k => ?_
        exact regTiles_foot (Wr := (· ≠ .CpC i)) (Rd := (· ≠ .CpC i)) (nofun) (nofun) hA hB (off core hne) (off core hne)
      subst e
      exact mem_range.1 hc
    · rw [mem_singleton] at h1
      subst h1
      obtain ⟨core, hc, rfl⟩ := mem_map.1 h2
      have e : core = i := by
        refine key core _ (fun hne => ?_) h3
        exact .append (unpackC_ob_foot (Wr := (· ≠ .CpC i)) (Rd := (· ≠ .CpC i)) hC (off core hne))
          (memset_foot (Wr := (· ≠ .CpC i)) (off core hne))
      subst e
      exact mem_range.1 hc
  · intro hi
    have hMN : 0 < M ∧ 0 < N := by
      unfold coresUsed at hi
      by_contra hc
      rw [if_pos (by omega)] at hi
      omega
    obtain ⟨h0, e⟩ := coresAt_first (K := K) h hMN.1 hMN.2
    have hNb : 0 < (dimsKMN M N K p m_r n_r m_c k_c n_c).Nb := by rw [(kmn_Nb h)]; exact cdiv_pos hMN.2 h.n_c_pos
    refine Ex.flatMap (mem_range.2 hNb) (Ex.flatMap (mem_serp.2 h0) ⟨_, mem_cons_of_mem _ (mem_singleton.2 rfl), ?_⟩)
    exact Ex.map (mem_range.2 (by rw [← e] at hi; exact hi)) (.right (memset_ex (Nat.mul_pos h.m_c_pos h.n_c_pos)))

theorem ctx_pre {nullCtx : Bool} : ∀ i ∈ (if nullCtx then [Item.malloc .Ctx 1] else []), ∀ b, i.unchecked = some b → b.isStruct = true := by
  intro i hi b hb
  cases nullCtx with
  | false => cases hi
  | true => rw [mem_singleton.1 hi] at hb; cases hb; rfl

/-- The program of a K-first call: its shape. -/
theorem sgemmK_shape {nz : α → Bool} {cx : Cntx} {A B C : Loc} {packedA packedB : Bool} {alpha beta : α} {prog : Prog}
    (hprog : cake_sgemm nz cx A B C M N K p packedA packedB alpha beta m_c k_c n_c .KMN = some prog) (nullCtx : Bool) :
    ∃ pre post, Shape ((if nullCtx then [Item.malloc .Ctx 1] else []) ++ prog) pre
        ((range p).map fun i => (.CpC i, m_c * n_c))
        (schedule_KMN cx.kmap (if packedA then A else ⟨.Ap, 0⟩) (if packedB then B else ⟨.Bp, 0⟩) C M N K p cx.m_r cx.n_r
          (dimsKMN M N K p cx.m_r cx.n_r m_c k_c n_c)) post ∧
      ∀ i, A.buf ≠ .CpC i → B.buf ≠ .CpC i → ¬ ProgTouches pre (.CpC i) := by
  have hsch : (dimsKMN M N K p cx.m_r cx.n_r m_c k_c n_c).sch = .KMN := rfl
  obtain ⟨pa, epa⟩ : ∃ pa, pack_A A ⟨.Ap, 0⟩ M K p cx.m_r (dimsKMN M N K p cx.m_r cx.n_r m_c k_c n_c) .KMN = some pa := ⟨_, rfl⟩
  obtain ⟨pb, epb⟩ : ∃ pb, pack_B B ⟨.Bp, 0⟩ K N p cx.n_r (dimsKMN M N K p cx.m_r cx.n_r m_c k_c n_c) .KMN = some pb := ⟨_, rfl⟩
  obtain ⟨aSz, ea⟩ : ∃ a, packedASize M K p cx.m_r m_c .KMN = some a := ⟨_, rfl⟩
  obtain ⟨cSz, ec⟩ : ∃ a, packedCSize M N p cx.m_r cx.n_r m_c n_c .KMN = some a := ⟨_, rfl⟩
  obtain ⟨ph, eph⟩ : ∃ ph, schedule_KMN cx.kmap (if packedA then A else ⟨.Ap, 0⟩) (if packedB then B else ⟨.Bp, 0⟩) C M N K p
    cx.m_r cx.n_r (dimsKMN M N K p cx.m_r cx.n_r m_c k_c n_c) = ph := ⟨_, rfl⟩
  simp only [cake_sgemm, init_block_dims, hsch, ea, ec, epa, epb, eph,
    pack_C, unpack_C, schedule, Option.bind_eq_bind, Option.bind_some, Option.some.injEq, if_true] at hprog
  rw [eph]
  subst hprog
  refine ⟨(if nullCtx then [Item.malloc .Ctx 1] else []) ++ ([.malloc .Blk 1, .malloc .Dims 1, .free .Dims] ++
    (if packedA then [] else .memalign .Ap aSz :: phases pa) ++ (if packedB then [] else .memalign .Bp (packedBSize K N cx.n_r n_c) :: phases pb)),
    (range p).map (fun i => Item.free (.CpC i)) ++
      ((if packedA then [] else [.free .Ap]) ++ (if packedB then [] else [.free .Bp]) ++ [.free .Blk]),
    ⟨?_, ?_, ?_, ?_, ?_⟩, ?_⟩
  · simp only [List.append_assoc, List.map_map, phases, Function.comp_def]
  · intro i hi b hb
    rcases mem_append.1 hi with hi | hi
    · exact ctx_pre i hi b hb
    · rcases mem_append.1 hi with hi | hi
      · rcases mem_append.1 hi with hi | hi
        · simp only [mem_cons, not_mem_nil, or_false] at hi
          rcases hi with rfl | rfl | rfl <;> cases hb <;> rfl
        · split at hi
          · cases hi
          · rcases mem_cons.1 hi with rfl | hi
            · cases hb
            · obtain ⟨_, -, rfl⟩ := mem_map.1 hi; cases hb
      · split at hi
        · cases hi
        · rcases mem_cons.1 hi with rfl | hi
          · cases hb
          · obtain ⟨_, -, rfl⟩ := mem_map.1 hi; cases hb
  · intro c hc
    obtain ⟨i, -, rfl⟩ := mem_map.1 hc
    exact ⟨rfl, fun t => by simp⟩
  · rw [List.map_map]
    exact nodup_range.map fun a b e => by simpa using e
  · intro i hi
    rcases mem_append.1 hi with hi | hi
    · obtain ⟨j, -, rfl⟩ := mem_map.1 hi; exact ⟨_, rfl⟩
    · rcases mem_append.1 hi with hi | hi
      · rcases mem_append.1 hi with hi | hi <;> split at hi <;> first | cases hi; done | exact ⟨_, mem_singleton.1 hi⟩
      · exact ⟨_, mem_singleton.1 hi⟩
  · intro i hA hB
    have h1 := (packA_foot (Wr := (· ≠ .CpC i)) (Rd := (· ≠ .CpC i)) (by simp) hA epa).not_touches
    have h2 := (packB_foot (Wr := (· ≠ .CpC i)) (Rd := (· ≠ .CpC i)) (by simp) hB epb).not_touches
    rintro ⟨ts, h, r⟩
    rcases mem_append.1 h with h | h
    · cases nullCtx with
      | false => cases h
      | true => cases mem_singleton.1 h
    · rcases mem_append.1 h with h | h
      · rcases mem_append.1 h with h | h
        · simp at h
        · split at h
          · cases h
          · rcases mem_cons.1 h with h | h
            · cases h
            · exact h1 ⟨ts, h, r⟩
      · split at h
        · cases h
        · rcases mem_cons.1 h with h | h
          · cases h
          · exact h2 ⟨ts, h, r⟩

/-- Which unchecked allocations a K-first call needs: its structs and the private blocks of the cores that take part. -/
def neededK (M N p m_r m_c : Nat) (b : Buf) : Prop := b.isStruct = true ∨ ∃ i, b = .CpC i ∧ i < coresUsed M N p m_r m_c

/-- **C66, K-first, exactly.** Whatever memory the system refuses: if a struct or the private C block of a core that takes
part is refused, the behaviour is undefined, in every execution; otherwise the call exits or computes the product as always. -/
theorem C66_kfirst_iff (nz : α → Bool) (cx : Cntx) (h : TileOK p cx.m_r cx.n_r m_c k_c n_c) (hk : cx.kmap.Fits cx.m_r cx.n_r)
    (alpha beta : α) {s : State α} (hs : CallOK s M N K) :
    ∃ prog, cake_sgemm nz cx ⟨.A, 0⟩ ⟨.B, 0⟩ ⟨.C, 0⟩ M N K p false false alpha beta m_c k_c n_c .KMN = some prog ∧
      Refusal F prog s (neededK M N p cx.m_r m_c) (fun s' => Correct F false s s' M N K) := by
  obtain ⟨prog, e, -, hall⟩ := sgemmK_call F nz cx h hk alpha beta hs
  refine ⟨prog, e, fun fl out he => ?_⟩
  obtain ⟨pre, post, hS, hpre⟩ := sgemmK_shape e false
  have hC : s.size .C ≠ none := by obtain ⟨n, hn, -⟩ := hs.c; rw [hn]; simp
  have hfr : ∀ i, s.size (.CpC i) = none := fun i => hs.fresh _ (by simp) (by simp) (by simp) (by simp)
  obtain ⟨h1, h2⟩ := Shape.exact (prog := [] ++ prog) hS (Q := fun s' => Correct F false s s' M N K) (fun out ho => by
      rcases hall out ho with e | ⟨s', e, hq⟩
      · exact .inl e
      · exact .inr ⟨s', e, Correct.of_env (orderKMN_perm h.k_c_pos) rfl hq⟩) (Correct.closed hC)
    (fun c hc => by
      obtain ⟨i, -, rfl⟩ := mem_map.1 hc
      exact hpre i (by simp) (by simp))
    (fun c hc => by obtain ⟨i, -, rfl⟩ := mem_map.1 hc; exact hfr i)
    (fun s' hq c hc => by
      obtain ⟨i, -, rfl⟩ := mem_map.1 hc
      rw [hq.size]; simp [sizesAfter, hfr i]) he
  refine ⟨h1.trans (exists_congr fun b => and_congr_right fun hb => ?_), h2⟩
  unfold neededK
  refine or_congr_right' fun hst => ?_
  obtain ⟨c, hc, rfl⟩ := mem_map.1 ((hS.fails he b hb).resolve_left hst)
  obtain ⟨i, -, rfl⟩ := mem_map.1 hc
  dsimp only
  rw [touches_kmn h i (by simp) (by simp) (by simp)]
  constructor
  · exact fun hi => ⟨i, rfl, hi⟩
  · rintro ⟨j, e, hj⟩
    cases e
    exact hj

/-! ### `cake_sgemm`, M- and N-first -/

theorem ab_pre {pA pB : Bool} {aSz bSz : Nat} {pa pb : List (List (List Op))} : ∀ i ∈ ([.malloc .Blk 1, .malloc .Dims 1, .free .Dims] ++
    (if pA then [] else .memalign .Ap aSz :: phases pa) ++ (if pB then [] else .memalign .Bp bSz :: phases pb) : Prog),
    ∀ b, i.unchecked = some b → b.isStruct = true := by
  intro i hi b hb
  rcases mem_append.1 hi with hi | hi
  · rcases mem_append.1 hi with hi | hi
    · simp only [mem_cons, not_mem_nil, or_false] at hi
      rcases hi with rfl | rfl | rfl <;> cases hb <;> rfl
    · split at hi
      · cases hi
      · rcases mem_cons.1 hi with rfl | hi
        · cases hb
        · obtain ⟨_, -, rfl⟩ := mem_map.1 hi; cases hb
  · split at hi
    · cases hi
    · rcases mem_cons.1 hi with rfl | hi
      · cases hb
      · obtain ⟨_, -, rfl⟩ := mem_map.1 hi; cases hb

theorem ab_touches {nullCtx pA pB : Bool} {aSz bSz : Nat} {pa pb : List (List (List Op))} {b : Buf}
    (h1 : ¬ ProgTouches (pa.map Item.par) b) (h2 : ¬ ProgTouches (pb.map Item.par) b) :
    ¬ ProgTouches ((if nullCtx then [Item.malloc .Ctx 1] else []) ++ ([.malloc .Blk 1, .malloc .Dims 1, .free .Dims] ++
      (if pA then [] else .memalign .Ap aSz :: phases pa) ++ (if pB then [] else .memalign .Bp bSz :: phases pb))) b := by
  rintro ⟨ts, h, r⟩
  rcases mem_append.1 h with h | h
  · cases nullCtx with
    | false => cases h
    | true => cases mem_singleton.1 h
  · rcases mem_append.1 h with h | h
    · rcases mem_append.1 h with h | h
      · simp at h
      · split at h
        · cases h
        · rcases mem_cons.1 h with h | h
          · cases h
          · exact h1 ⟨ts, h, r⟩
    · split at h
      · cases h
      · rcases mem_cons.1 h with h | h
        · cases h
        · exact h2 ⟨ts, h, r⟩

/-- The program of an M- or N-first call: its shape. -/
theorem sgemmMN_shape {nz : α → Bool} {cx : Cntx} {A B C : Loc} {packedA packedB : Bool} {alpha beta : α} {sch : Sched} {prog : Prog}
    (hsch : sch = .MKN ∨ sch = .NKM)
    (hprog : cake_sgemm nz cx A B C M N K p packedA packedB alpha beta m_c k_c n_c sch = some prog) (nullCtx : Bool) :
    ∃ x pre cSz sc uc post, init_block_dims M N K p cx.m_r cx.n_r m_c k_c n_c sch = some x ∧
      schedule cx.kfix (if packedA then A else ⟨.Ap, 0⟩) (if packedB then B else ⟨.Bp, 0⟩) ⟨.Cp, 0⟩ K p cx.m_r cx.n_r x sch = some sc ∧
      unpack_C C ⟨.Cp, 0⟩ M N p cx.m_r cx.n_r x sch = some uc ∧
      Shape ((if nullCtx then [Item.malloc .Ctx 1] else []) ++ prog) pre (if nz beta then [] else [(.Cp, cSz)]) (sc ++ uc) post ∧
      (A.buf ≠ .Cp → B.buf ≠ .Cp → nz beta = false → ¬ ProgTouches pre .Cp) := by
  unfold cake_sgemm at hprog
  simp only [Option.bind_eq_bind, Option.bind_eq_some_iff, Option.some.injEq] at hprog
  obtain ⟨x, hx, aSz, ha, cSz, hc, pa, hpa, pb, hpb, pc, hpc, uc, huc, sc, hsc, rfl⟩ := hprog
  have hxs : x.sch = sch := by
    rcases hsch with rfl | rfl <;> (cases hx; rfl)
  have hnk : x.sch ≠ .KMN := by rw [hxs]; rcases hsch with rfl | rfl <;> simp
  rw [if_neg hnk]
  rw [hxs] at hpa hpb hsc huc
  refine ⟨x, (if nullCtx then [Item.malloc .Ctx 1] else []) ++ ([.malloc .Blk 1, .malloc .Dims 1, .free .Dims] ++
    (if packedA then [] else .memalign .Ap aSz :: phases pa) ++
    (if packedB then [] else .memalign .Bp (packedBSize K N cx.n_r n_c) :: phases pb)) ++
    (if nz beta then .memalign .Cp cSz :: phases pc else []), cSz, sc, uc,
    .free .Cp :: ((if packedA then [] else [.free .Ap]) ++ (if packedB then [] else [.free .Bp]) ++ [.free .Blk]),
    hx, hsc, huc, ⟨?_, ?_, ?_, ?_, ?_⟩, ?_⟩
  · cases nz beta <;>
      simp only [List.append_assoc, List.map_append, phases, if_true, if_false, Bool.false_eq_true, List.map_cons, List.map_nil,
        List.nil_append, List.append_nil, List.cons_append]
  · intro i hi b hb
    rcases mem_append.1 hi with hi | hi
    · rcases mem_append.1 hi with hi | hi
      · exact ctx_pre i hi b hb
      · exact ab_pre i hi b hb
    · split at hi
      · rcases mem_cons.1 hi with rfl | hi
        · cases hb
        · obtain ⟨_, -, rfl⟩ := mem_map.1 hi; cases hb
      · cases hi
  · intro c hc
    split at hc
    · cases hc
    · rw [mem_singleton.1 hc]; exact ⟨rfl, nofun⟩
  · split <;> simp
  · intro i hi
    rcases mem_cons.1 hi with rfl | hi
    · exact ⟨_, rfl⟩
    · rcases mem_append.1 hi with hi | hi
      · rcases mem_append.1 hi with hi | hi <;> split at hi <;> first | cases hi; done | exact ⟨_, mem_singleton.1 hi⟩
      · exact ⟨_, mem_singleton.1 hi⟩
  · intro hA hB hz
    rw [hz, if_neg (show ¬ (false = true) by simp), List.append_nil]
    exact ab_touches (packA_foot (Wr := (· ≠ .Cp)) (Rd := (· ≠ .Cp)) (by simp) hA hpa).not_touches
      (packB_foot (Wr := (· ≠ .Cp)) (Rd := (· ≠ .Cp)) (by simp) hB hpb).not_touches

theorem first_len {n c r z : Nat} (hn : 0 < n) (hc : 0 < c) (hr : 0 < r) (b : Bool) (hb : b = true → (n % c != 0) = true)
    (hz : z = 0) : 0 < (if b then cdiv (n % c) r * r else c) ∧ (if b then n - n % c else z) < n := by
  subst hz
  cases b with
  | false => exact ⟨hc, hn⟩
  | true =>
    have h0 : n % c ≠ 0 := by simpa using hb rfl
    exact ⟨Nat.mul_pos (cdiv_pos (by omega) hr) hr, by simp only [if_true]; have := Nat.mod_le n c; omega⟩

theorem touches_mkn {m_r n_r : Nat} (h : TileOK p m_r n_r m_c k_c n_c) {kd : KDim} {A_p B_p C : Loc} :
    ProgTouches ((schedule_MKN kd A_p B_p ⟨.Cp, 0⟩ K p m_r n_r (dimsMKN M N K p m_r n_r m_c k_c n_c) ++
      unpack_C_m_first C ⟨.Cp, 0⟩ M N m_r n_r (dimsMKN M N K p m_r n_r m_c k_c n_c)).map Item.par) .Cp ↔ 0 < M ∧ 0 < N := by
  rw [progTouches_phases]
  have eM := mkn_Mb (M := M) (N := N) (K := K) h
  have eN := mkn_Nb (M := M) (N := N) (K := K) h
  constructor
  · rintro ⟨ts, h1, t, h2, o, h3, h4⟩
    have hb : (∃ n, n < cdiv N n_c) ∧ ∃ m, m < cdiv M m_c := by
      rw [← eM, ← eN]
      rcases mem_append.1 h1 with h1 | h1
      · obtain ⟨n, hn, h1⟩ := mem_flatMap.1 h1
        obtain ⟨k, hk, rfl⟩ := mem_map.1 h1
        obtain ⟨m, hm, rfl⟩ := mem_map.1 h2
        exact ⟨⟨n, mem_range.1 hn⟩, m, mem_range.1 hm⟩
      · obtain ⟨n, hn, rfl⟩ := mem_map.1 h1
        obtain ⟨m, hm, rfl⟩ := mem_map.1 h2
        exact ⟨⟨n, mem_range.1 hn⟩, m, mem_range.1 hm⟩
    obtain ⟨⟨n, hn⟩, m, hm⟩ := hb
    constructor
    · rcases Nat.eq_zero_or_pos M with rfl | h0
      · rw [cdiv_zero] at hm; omega
      · exact h0
    · rcases Nat.eq_zero_or_pos N with rfl | h0
      · rw [cdiv_zero] at hn; omega
      · exact h0
  · rintro ⟨hM, hN⟩
    refine .right (Ex.map (mem_range.2 (show 0 < _ from ?_)) (Ex.map (mem_range.2 (show 0 < _ from ?_)) ?_))
    · rw [eN]; exact cdiv_pos hN h.n_c_pos
    · rw [eM]; exact cdiv_pos hM h.m_c_pos
    · obtain ⟨h1, h2⟩ := first_len hM h.m_c_pos h.m_r_pos (0 == (dimsMKN M N K p m_r n_r m_c k_c n_c).Mb - 1 && (M % m_c != 0))
        (by simp) (Nat.zero_mul m_c)
      obtain ⟨h3, h4⟩ := first_len hN h.n_c_pos h.n_r_pos (0 == (dimsMKN M N K p m_r n_r m_c k_c n_c).Nb - 1 && (N % n_c != 0))
        (by simp) (Nat.zero_mul n_c)
      exact unpack_ex (C_p := ⟨.Cp, 0⟩ +ₚ _) h1 h3 h.m_r_pos h.n_r_pos h2 h4

theorem touches_nkm {m_r n_r : Nat} (h : TileOK p m_r n_r m_c k_c n_c) {kd : KDim} {A_p B_p C : Loc} :
    ProgTouches ((schedule_NKM kd A_p B_p ⟨.Cp, 0⟩ K p m_r n_r (dimsNKM M N K p m_r n_r m_c k_c n_c) ++
      unpack_C_n_first C ⟨.Cp, 0⟩ M N p m_r n_r (dimsNKM M N K p m_r n_r m_c k_c n_c)).map Item.par) .Cp ↔ 0 < M ∧ 0 < N := by
  rw [progTouches_phases]
  have eM := nkm_Mb (M := M) (N := N) (K := K) h.toN
  have eN := nkm_Nb (M := M) (N := N) (K := K) h.toN
  constructor
  · rintro ⟨ts, h1, t, h2, o, h3, h4⟩
    have hb : (∃ n, n < cdiv N n_c) ∧ ∃ m, m < cdiv M (p * m_c) := by
      rw [← eM, ← eN]
      rcases mem_append.1 h1 with h1 | h1
      · obtain ⟨n, hn, h1⟩ := mem_flatMap.1 h1
        obtain ⟨k, hk, rfl⟩ := mem_map.1 h1
        obtain ⟨m, hm, rfl⟩ := mem_map.1 h2
        exact ⟨⟨m, mem_range.1 hm⟩, n, mem_range.1 hn⟩
      · obtain ⟨n, hn, rfl⟩ := mem_map.1 h1
        obtain ⟨m, hm, rfl⟩ := mem_map.1 h2
        exact ⟨⟨m, mem_range.1 hm⟩, n, mem_range.1 hn⟩
    obtain ⟨⟨n, hn⟩, m, hm⟩ := hb
    constructor
    · rcases Nat.eq_zero_or_pos M with rfl | h0
      · rw [cdiv_zero] at hm; omega
      · exact h0
    · rcases Nat.eq_zero_or_pos N with rfl | h0
      · rw [cdiv_zero] at hn; omega
      · exact h0
  · rintro ⟨hM, hN⟩
    refine .right (Ex.map (mem_range.2 (show 0 < _ from ?_)) (Ex.map (mem_range.2 (show 0 < _ from ?_)) ?_))
    · rw [eM]; exact cdiv_pos hM h.S_pos
    · rw [eN]; exact cdiv_pos hN h.n_c_pos
    · obtain ⟨h1, h2⟩ := first_len hM h.S_pos h.m_r_pos (0 == (dimsNKM M N K p m_r n_r m_c k_c n_c).Mb - 1 && (M % (p * m_c) != 0))
        (by simp) (show 0 * p * m_c = 0 by simp)
      obtain ⟨h3, h4⟩ := first_len hN h.n_c_pos h.n_r_pos (0 == (dimsNKM M N K p m_r n_r m_c k_c n_c).Nb - 1 && (N % n_c != 0))
        (by simp) (Nat.zero_mul n_c)
      exact unpack_ex (C_p := ⟨.Cp, 0⟩ +ₚ _) h1 h3 h.m_r_pos h.n_r_pos h2 h4

/-- The result of an M- or N-first call: C has become the product, added to what it held unless `beta` is zero, and nothing else
of the caller's has changed. -/
def Updated (F : Arith α) (nz : α → Bool) (beta : α) (s s' : State α) (M N K : Nat) : Prop :=
  IsProduct F s s' M N K (fun r c => if nz beta then entry s .C N r c else F.zero) ∧ OnlyC s s' M N

theorem Updated.closed {nz : α → Bool} {beta : α} {s : State α} (hC : s.size .C ≠ none) :
    Closed (fun s' => Updated F nz beta s s' M N K) s := by
  intro s1 s2 h hsz hs
  refine ⟨fun r c hr hc => ?_, fun l hl hX => ?_, by rw [hsz]; exact h.2.size⟩
  · have := h.1 r c hr hc
    rw [(hs ⟨.C, r * N + c⟩ hC).2]
    refine ⟨this.1, ?_⟩
    obtain ⟨o, ho, e⟩ := this.2
    exact ⟨o, ho, by rw [← e]; exact (hs ⟨.C, r * N + c⟩ hC).1⟩
  · rw [(hs l hl).1, (hs l hl).2]; exact h.2.keep l hl hX

/-- Which unchecked allocations an M- or N-first call needs: its structs and, unless `beta` is not zero or C is empty, the packed C. -/
def neededMN (zero : Bool) (M N : Nat) (b : Buf) : Prop := b.isStruct = true ∨ (b = .Cp ∧ zero = true ∧ 0 < M ∧ 0 < N)

theorem refusalMN {nz : α → Bool} {cx : Cntx} {alpha beta : α} {sch : Sched} (hsch : sch = .MKN ∨ sch = .NKM)
    (h : TileOK p cx.m_r cx.n_r m_c k_c n_c) {s : State α} (hs : CallOK s M N K)
    (hc : Computes F (cake_sgemm nz cx ⟨.A, 0⟩ ⟨.B, 0⟩ ⟨.C, 0⟩ M N K p false false alpha beta m_c k_c n_c sch) s
      (fun s' => Updated F nz beta s s' M N K)) :
    ∃ prog, cake_sgemm nz cx ⟨.A, 0⟩ ⟨.B, 0⟩ ⟨.C, 0⟩ M N K p false false alpha beta m_c k_c n_c sch = some prog ∧
      Refusal F prog s (neededMN (!nz beta) M N) (fun s' => Updated F nz beta s s' M N K) := by
  obtain ⟨prog, e, -, hall⟩ := hc
  refine ⟨prog, e, fun fl out he => ?_⟩
  obtain ⟨x, pre, cSz, sc, uc, post, hx, hsc, huc, hS, hpre⟩ := sgemmMN_shape hsch e false
  have hC : s.size .C ≠ none := by obtain ⟨n, hn, -⟩ := hs.c; rw [hn]; simp
  have hfr : s.size .Cp = none := hs.fresh _ (by simp) (by simp) (by simp) (by simp)
  have mem : ∀ c, c ∈ (if nz beta then [] else [(Buf.Cp, cSz)]) → c = (.Cp, cSz) ∧ nz beta = false := by
    intro c hc
    cases hz : nz beta <;> rw [hz] at hc
    · exact ⟨mem_singleton.1 hc, rfl⟩
    · cases hc
  obtain ⟨h1, h2⟩ := Shape.exact (prog := [] ++ prog) hS (Q := fun s' => Updated F nz beta s s' M N K) hall (Updated.closed hC)
    (fun c hc => by obtain ⟨rfl, hz⟩ := mem c hc; exact hpre (by simp) (by simp) hz)
    (fun c hc => by obtain ⟨rfl, hz⟩ := mem c hc; exact hfr)
    (fun s' hq c hc => by obtain ⟨rfl, hz⟩ := mem c hc; rw [hq.2.size]; exact hfr) he
  refine ⟨h1.trans (exists_congr fun b => and_congr_right fun hb => ?_), h2⟩
  unfold neededMN
  refine or_congr_right' fun hst => ?_
  obtain ⟨c, hc, rfl⟩ := mem_map.1 ((hS.fails he b hb).resolve_left hst)
  obtain ⟨rfl, hz⟩ := mem c hc
  dsimp only
  have key : ProgTouches ((sc ++ uc).map Item.par) .Cp ↔ 0 < M ∧ 0 < N := by
    rcases hsch with rfl | rfl
    · cases hx; cases hsc; cases huc
      exact touches_mkn h
    · cases hx; cases hsc; cases huc
      exact touches_nkm h
  rw [key, hz]
  simp

/-- **C66, M-first, exactly.** -/
theorem C66_mfirst_iff (nz : α → Bool) (cx : Cntx) (h : TileOK p cx.m_r cx.n_r m_c k_c n_c) (hk : cx.kfix.Fits cx.m_r cx.n_r)
    (alpha beta : α) {s : State α} (hs : CallOK s M N K) (hB : Holds s .B 1 (bNeed N K p cx.n_r k_c n_c))
    (hC : nz beta = true → Holds s .C M N) :
    ∃ prog, cake_sgemm nz cx ⟨.A, 0⟩ ⟨.B, 0⟩ ⟨.C, 0⟩ M N K p false false alpha beta m_c k_c n_c .MKN = some prog ∧
      Refusal F prog s (neededMN (!nz beta) M N) (fun s' => Updated F nz beta s s' M N K) :=
  refusalMN (.inl rfl) h hs ((sgemmM_call F nz cx h hk alpha beta hs hB hC).mono fun _ hs' =>
    ⟨fun r c hr hc => ⟨(hs'.fact r c hr hc).1, _, orderMKN_perm h.p_pos h.k_c_pos, (hs'.fact r c hr hc).2⟩, hs'.keep, hs'.size⟩)

/-- **C66, N-first, exactly.** With `beta ≠ 0` under the condition of C07 and C08 on the shape of the blocks. -/
theorem C66_nfirst_iff (nz : α → Bool) (cx : Cntx) (h : TileOK p cx.m_r cx.n_r m_c k_c n_c) (hk : cx.kfix.Fits cx.m_r cx.n_r)
    (alpha beta : α) {s : State α} (hs : CallOK s M N K) (hB : Holds s .B 1 (bNeed N K p cx.n_r k_c n_c))
    (hC : nz beta = true → Holds s .C M N ∧ PackCAgree M N p cx.m_r cx.n_r m_c n_c) :
    ∃ prog, cake_sgemm nz cx ⟨.A, 0⟩ ⟨.B, 0⟩ ⟨.C, 0⟩ M N K p false false alpha beta m_c k_c n_c .NKM = some prog ∧
      Refusal F prog s (neededMN (!nz beta) M N) (fun s' => Updated F nz beta s s' M N K) :=
  refusalMN (.inr rfl) h hs ((sgemmN_call F nz cx h hk alpha beta hs hB hC).mono fun _ hs' =>
    ⟨fun r c hr hc => ⟨(hs'.fact r c hr hc).1, _, orderNKM_perm h.p_pos h.k_c_pos, (hs'.fact r c hr hc).2⟩, hs'.keep, hs'.size⟩)

/-! ### `cake_sgemm_online` -/

/-- The private block of core `i` is accessed exactly if the core takes part. -/
theorem touches_online {m_r n_r : Nat} (h : TileOK p m_r n_r m_c k_c n_c) {kd : KDim} {A B C : Loc} (i : Nat)
    (hA : A.buf ≠ .CpC i) (hB : B.buf ≠ .CpC i) (hC : C.buf ≠ .CpC i) :
    ProgTouches ((schedule_KMN_online kd A B C M N K p m_r n_r (dimsKMN M N K p m_r n_r m_c k_c n_c)).map Item.par) (.CpC i) ↔
      i < coresUsed M N p m_r m_c := by
  rw [progTouches_phases]
  constructor
  · rintro ⟨ts, h1, t, h2, o, h3, h4⟩
    obtain ⟨n, hn, h1⟩ := mem_flatMap.1 h1
    obtain ⟨m, hm, h1⟩ := mem_flatMap.1 h1
    rw [mem_serp] at hm
    have hN : 0 < N := by
      rcases Nat.eq_zero_or_pos N with rfl | h0
      · simp [dimsKMN] at hn
      · exact h0
    refine lt_of_lt_of_le ?_ (coresAt_le h hN hm)
    have key : ∀ core, ∀ l : List Op, (core ≠ i → All (FOp (· ≠ .CpC i) (· ≠ .CpC i)) l) → o ∈ l → core = i := by
      intro core l hl ho
      by_contra hne
      exact (hl hne o ho).not_touches h4
    have off : ∀ core, core ≠ i → Buf.CpC core ≠ Buf.CpC i := fun core hne e => hne (by simpa using e)
    rcases mem_append.1 h1 with h1 | h1
    · obtain ⟨k, hk, h1⟩ := mem_flatMap.1 h1
      rcases mem_append.1 h1 with h1 | h1
      · exfalso
        have hf : ∀ l, ts ∈ l → All (All (All (FOp (· ≠ .CpC i) (· ≠ .CpC i)))) l → False :=
          fun l hl ha => (ha ts hl t h2 o h3).not_touches h4
        refine hf _ h1 (.ite .nil ?_)
        unfold B_packing_kernel
        foot
        exact nofun
      · rw [mem_singleton] at h1
        subst h1
        obtain ⟨core, hc, rfl⟩ := mem_map.1 h2
        have e : core = i := by
          refine key core _ (fun hne => ?_) h3
          refine .append (.ite .nil (.flatMap fun m3 => ?_)) ?_
          · unfold A_packing_kernel
            foot
            exact nofun
          · exact regTiles_foot (Wr := (· ≠ .CpC i)) (Rd := (· ≠ .CpC i)) (nofun) (nofun) (nofun) (nofun) (off core hne) (off core hne)
        subst e
        exact mem_range.1 hc
    · rw [mem_singleton] at h1
      subst h1
      obtain ⟨core, hc, rfl⟩ := mem_map.1 h2
      have e : core = i := by
        refine key core _ (fun hne => ?_) h3
        exact .append (unpackC_ob_foot (Wr := (· ≠ .CpC i)) (Rd := (· ≠ .CpC i)) hC (off core hne))
          (memset_foot (Wr := (· ≠ .CpC i)) (off core hne))
      subst e
      exact mem_range.1 hc
  · intro hi
    have hMN : 0 < M ∧ 0 < N := by
      unfold coresUsed at hi
      by_contra hc
      rw [if_pos (by omega)] at hi
      omega
    obtain ⟨h0, e⟩ := coresAt_first (K := K) h hMN.1 hMN.2
    have hNb : 0 < (dimsKMN M N K p m_r n_r m_c k_c n_c).Nb := by rw [(kmn_Nb h)]; exact cdiv_pos hMN.2 h.n_c_pos
    refine Ex.flatMap (mem_range.2 hNb) (Ex.flatMap (mem_serp.2 h0) (.right ⟨_, mem_singleton.2 rfl, ?_⟩))
    exact Ex.map (mem_range.2 (by rw [← e] at hi; exact hi)) (.right (memset_ex (Nat.mul_pos h.m_c_pos h.n_c_pos)))

/-! ### All entry points -/

/-- Objects that an entry point allocates without checking and that are not structs. -/
def Buf.isBlock (b : Buf) : Prop := b = .Cp ∨ ∃ i, b = .CpC i

/-- A program of the shape above whose unchecked blocks are not accessed before they have all been asked for. -/
def Shaped (prog : Prog) : Prop := ∃ pre cs ph post, Shape prog pre cs ph post ∧ (∀ c ∈ cs, c.1.isBlock) ∧
  ∀ c ∈ cs, ¬ ProgTouches pre c.1

/-- Private blocks per core, allocated before any of the loops. -/
theorem shaped_cores {nullCtx : Bool} {pre : Prog} {p sz : Nat} {ph : List (List (List Op))} {post : Prog}
    (hpre : ∀ i ∈ pre, (∃ b, i = .malloc b 1 ∧ b.isStruct = true) ∨ (∃ b, i = .free b) ∨ ∃ b n, i = .memalign b n)
    (hpost : ∀ i ∈ post, ∃ b, i = .free b) :
    Shaped ((if nullCtx then [Item.malloc .Ctx 1] else []) ++ (pre ++ ((range p).map (fun i => Item.calloc (.CpC i) sz) ++
      (phases ph ++ post)))) := by
  refine ⟨(if nullCtx then [Item.malloc .Ctx 1] else []) ++ pre, (range p).map fun i => (.CpC i, sz), ph, post, ⟨?_, ?_, ?_, ?_, hpost⟩,
    ?_, ?_⟩
  · simp only [List.append_assoc, List.map_map, phases, Function.comp_def]
  · intro i hi b hb
    rcases mem_append.1 hi with hi | hi
    · exact ctx_pre i hi b hb
    · rcases hpre i hi with ⟨b', rfl, h⟩ | ⟨b', rfl⟩ | ⟨b', n, rfl⟩ <;> cases hb
      exact h
  · intro c hc
    obtain ⟨i, -, rfl⟩ := mem_map.1 hc
    exact ⟨rfl, fun t => by simp⟩
  · rw [List.map_map]
    exact nodup_range.map fun a b e => by simpa using e
  · intro c hc
    obtain ⟨i, -, rfl⟩ := mem_map.1 hc
    exact .inr ⟨i, rfl⟩
  · rintro c - ⟨ts, h, -⟩
    rcases mem_append.1 h with h | h
    · cases nullCtx with
      | false => cases h
      | true => cases mem_singleton.1 h
    · rcases hpre _ h with ⟨b', e, h⟩ | ⟨b', e⟩ | ⟨b', n, e⟩ <;> cases e

theorem sgemm_shaped {nz : α → Bool} {cx : Cntx} {A B C : Loc} {packedA packedB : Bool} {alpha beta : α} {sch : Sched} {prog : Prog}
    (hA : ¬ A.buf.isBlock) (hB : ¬ B.buf.isBlock)
    (hprog : cake_sgemm nz cx A B C M N K p packedA packedB alpha beta m_c k_c n_c sch = some prog) (nullCtx : Bool) :
    Shaped ((if nullCtx then [Item.malloc .Ctx 1] else []) ++ prog) := by
  cases sch with
  | KMN =>
    obtain ⟨pre, post, hS, h⟩ := sgemmK_shape hprog nullCtx
    refine ⟨pre, _, _, post, hS, fun c hc => ?_, fun c hc => ?_⟩ <;> obtain ⟨i, -, rfl⟩ := mem_map.1 hc
    · exact .inr ⟨i, rfl⟩
    · exact h i (fun e => hA (.inr ⟨i, e⟩)) (fun e => hB (.inr ⟨i, e⟩))
  | NA => simp [cake_sgemm, init_block_dims] at hprog
  | MKN =>
    obtain ⟨x, pre, cSz, sc, uc, post, -, -, -, hS, hpre⟩ := sgemmMN_shape (.inl rfl) hprog nullCtx
    refine ⟨pre, _, _, post, hS, fun c hc => ?_, fun c hc => ?_⟩ <;> cases hz : nz beta <;> rw [hz] at hc <;>
      first | cases hc; done | rw [mem_singleton.1 hc]
    · exact .inl rfl
    · exact hpre (fun e => hA (.inl e)) (fun e => hB (.inl e)) hz
  | NKM =>
    obtain ⟨x, pre, cSz, sc, uc, post, -, -, -, hS, hpre⟩ := sgemmMN_shape (.inr rfl) hprog nullCtx
    refine ⟨pre, _, _, post, hS, fun c hc => ?_, fun c hc => ?_⟩ <;> cases hz : nz beta <;> rw [hz] at hc <;>
      first | cases hc; done | rw [mem_singleton.1 hc]
    · exact .inl rfl
    · exact hpre (fun e => hA (.inl e)) (fun e => hB (.inl e)) hz

theorem online_shaped {cx : Cntx} {A B C : Loc} {packedA packedB : Bool} {alpha beta : α} {prog : Prog}
    (hprog : cake_sgemm_online cx A B C M N K p packedA packedB alpha beta m_c k_c n_c = some prog) (nullCtx : Bool) :
    Shaped ((if nullCtx then [Item.malloc .Ctx 1] else []) ++ prog) := by
  unfold cake_sgemm_online at hprog
  simp only [Option.bind_eq_bind, Option.bind_eq_some_iff, Option.some.injEq] at hprog
  obtain ⟨x, -, rfl⟩ := hprog
  have := shaped_cores (nullCtx := nullCtx) (pre := [.malloc .Blk 1, .malloc .Dims 1, .free .Dims] ++
    ((range p).map (fun i => Item.memalign (.ApC i) (m_c * k_c)) ++ [.memalign .Bp (k_c * n_c)])) (p := p) (sz := m_c * n_c)
    (ph := schedule_KMN_online cx.kmap A B C M N K p cx.m_r cx.n_r x)
    (post := ((range p).flatMap fun i => [Item.free (.ApC i), Item.free (.CpC i)]) ++ [.free .Bp, .free .Blk]) ?_ ?_
  · simpa only [List.append_assoc] using this
  · intro i hi
    rcases mem_append.1 hi with hi | hi
    · simp only [mem_cons, not_mem_nil, or_false] at hi
      rcases hi with rfl | rfl | rfl
      · exact .inl ⟨_, rfl, rfl⟩
      · exact .inl ⟨_, rfl, rfl⟩
      · exact .inr (.inl ⟨_, rfl⟩)
    · rcases mem_append.1 hi with hi | hi
      · obtain ⟨j, -, rfl⟩ := mem_map.1 hi; exact .inr (.inr ⟨_, _, rfl⟩)
      · rw [mem_singleton.1 hi]; exact .inr (.inr ⟨_, _, rfl⟩)
  · intro i hi
    rcases mem_append.1 hi with hi | hi
    · obtain ⟨j, -, hi⟩ := mem_flatMap.1 hi
      simp only [mem_cons, not_mem_nil, or_false] at hi
      rcases hi with rfl | rfl <;> exact ⟨_, rfl⟩
    · simp only [mem_cons, not_mem_nil, or_false] at hi
      rcases hi with rfl | rfl <;> exact ⟨_, rfl⟩

theorem twoD_shaped {nullCtx : Bool} {p a b c : Nat} {ph : List (List (List Op))} :
    Shaped ((if nullCtx then [Item.malloc .Ctx 1] else []) ++ ([Item.malloc .Blk 1] ++ [.memalign .Ap a, .memalign .Bp b] ++
      (range p).map (fun i => Item.calloc (.CpC i) c) ++ phases ph ++
      ([.free .Ap] ++ (range p).map (fun i => Item.free (.CpC i)) ++ [.free .Bp, .free .Blk]))) := by
  have := shaped_cores (nullCtx := nullCtx) (pre := [Item.malloc .Blk 1] ++ [.memalign .Ap a, .memalign .Bp b]) (p := p) (sz := c)
    (ph := ph) (post := [.free .Ap] ++ ((range p).map (fun i => Item.free (.CpC i)) ++ [.free .Bp, .free .Blk])) ?_ ?_
  · simpa only [List.append_assoc] using this
  · intro i hi
    simp only [cons_append, nil_append, mem_cons, not_mem_nil, or_false] at hi
    rcases hi with rfl | rfl | rfl
    · exact .inl ⟨_, rfl, rfl⟩
    · exact .inr (.inr ⟨_, _, rfl⟩)
    · exact .inr (.inr ⟨_, _, rfl⟩)
  · intro i hi
    rcases mem_append.1 hi with hi | hi
    · rw [mem_singleton.1 hi]; exact ⟨_, rfl⟩
    · rcases mem_append.1 hi with hi | hi
      · obtain ⟨j, -, rfl⟩ := mem_map.1 hi; exact ⟨_, rfl⟩
      · simp only [mem_cons, not_mem_nil, or_false] at hi
        rcases hi with rfl | rfl <;> exact ⟨_, rfl⟩

theorem LibCall.shaped {D : Type _} {fl : Flt D} {nz : α → Bool} {mc : Machine} {tbl : List (List Bool)} {prog : Prog}
    {acc : List CtxAcc} (h : LibCall fl nz mc tbl prog acc) : Shaped prog := by
  have nA : ¬ Buf.A.isBlock := by rintro (e | ⟨i, e⟩) <;> cases e
  have nB : ¬ Buf.B.isBlock := by rintro (e | ⟨i, e⟩) <;> cases e
  cases h with
  | sgemm cntx a _ cx' h =>
    obtain ⟨v, q, m_c, k_c, n_c, sch, e, rfl⟩ := sgemm_api_prog h
    exact sgemm_shaped nA nB e _
  | online cntx a _ cx' h =>
    unfold sgemm_online_api at h
    simp only [bind, Except.bind] at h
    split at h
    · cases h
    split at h
    · cases h
    split at h
    · cases h
    split at h
    · rename_i q hq
      cases h
      exact online_shaped hq _
    · cases h
  | twoD cntx L1 pn0 a _ h =>
    unfold sgemm_2d_api at h
    simp only [bind, Except.bind] at h
    split at h
    swap
    · cases h
    split at h
    · cases h
    split at h
    · cases h
    split at h
    · cases h
    split at h
    · rename_i q hq
      cases h
      unfold cake_sgemm_2d sgemm2dBody at hq
      simp only [Option.bind_eq_bind, Option.bind_eq_some_iff, Option.some.injEq] at hq
      obtain ⟨x, hx, rfl⟩ := hq
      exact twoD_shaped
    · cases h
  | twoDSmall cntx L1 pn0 a _ h =>
    unfold sgemm_2d_small_api at h
    simp only [bind, Except.bind] at h
    split at h
    swap
    · cases h
    split at h
    · cases h
    split at h
    · cases h
    split at h
    · cases h
    split at h
    · rename_i q hq
      cases h
      unfold cake_sgemm_2d_small at hq
      simp only [Option.bind_eq_bind, Option.bind_eq_some_iff, Option.some.injEq] at hq
      obtain ⟨x, hx, rfl⟩ := hq
      exact twoD_shaped
    · cases h

theorem refusal_shaped {prog : Prog} (hl : Shaped prog) {nullCtx : Bool} {s : State α} (hs : CallOK s M N K)
    (hc : Computes F (some prog) s (fun s' => Correct F nullCtx s s' M N K)) {needed : Buf → Prop}
    (hn : ∀ b : Buf, b.isStruct = true ∨ b.isBlock → (needed b ↔ b.isStruct = true ∨ ProgTouches prog b)) :
    Refusal F prog s needed (fun s' => Correct F nullCtx s s' M N K) := by
  intro fl out he
  obtain ⟨pre, cs, ph, post, hS, hblk, hpre⟩ := hl
  obtain ⟨prog', e, -, hall⟩ := hc
  cases e
  have hC : s.size .C ≠ none := by obtain ⟨n, hn, -⟩ := hs.c; rw [hn]; simp
  have hfr : ∀ b : Buf, b.isBlock → s.size b = none ∧ b ≠ .Ctx := by
    rintro b (rfl | ⟨i, rfl⟩) <;> exact ⟨hs.fresh _ (by simp) (by simp) (by simp) (by simp), by simp⟩
  obtain ⟨h1, h2⟩ := Shape.exact hS hall (Correct.closed hC) hpre (fun c hc => (hfr _ (hblk c hc)).1)
    (fun s' hq c hc => by rw [hq.size]; simp [sizesAfter, hfr _ (hblk c hc)]) he
  refine ⟨h1.trans (exists_congr fun b => and_congr_right fun hb => ?_), h2⟩
  rcases hS.fails he b hb with hst | hst
  · rw [hn b (.inl hst)]; simp [hst]
  · obtain ⟨c, hc, rfl⟩ := mem_map.1 hst
    rw [hn _ (.inr (hblk c hc))]
    refine or_congr_right ⟨?_, fun ht => (hS.touches ht).resolve_left (hpre c hc)⟩
    rintro ⟨ts, h, r⟩
    refine ⟨ts, ?_, r⟩
    rw [hS.eq]
    exact mem_append_right _ (mem_append_right _ (mem_append_left _ h))

/-- **C66, all four entry points, any arguments.** If a call computes its product when memory suffices, then, whatever memory the
system refuses: the behaviour is undefined, in every execution, exactly if a refused `malloc` or `calloc` was for a struct or
for an object the call accesses; otherwise the call exits or computes the product as always. -/
theorem C66_call_iff {D : Type _} {fl : Flt D} {nz : α → Bool} {mc : Machine} {tbl : List (List Bool)} {prog : Prog}
    {acc : List CtxAcc} (hl : LibCall fl nz mc tbl prog acc) {nullCtx : Bool} {s : State α} (hs : CallOK s M N K)
    (hc : Computes F (some prog) s (fun s' => Correct F nullCtx s s' M N K)) :
    Refusal F prog s (fun b => b.isStruct = true ∨ ProgTouches prog b) (fun s' => Correct F nullCtx s s' M N K) :=
  refusal_shaped hl.shaped hs hc fun _ _ => Iff.rfl

/-- **C66, `cake_sgemm_online`, exactly.** As the K-first call: structs and the private C blocks of the cores that take part. -/
theorem C66_online_iff (cx : Cntx) (h : TileOK p cx.m_r cx.n_r m_c k_c n_c) (hk : cx.kmap.Fits cx.m_r cx.n_r)
    (packedA packedB : Bool) (alpha beta : α) {s : State α} (hs : CallOK s M N K) (hsl : Slack s M N K cx.m_r cx.n_r) :
    ∃ prog, callO cx M N K p packedA packedB alpha beta m_c k_c n_c = some prog ∧
      Refusal F prog s (neededK M N p cx.m_r m_c) (fun s' => Correct F false s s' M N K) := by
  have hc := (sgemm_online_call F cx h hk packedA packedB alpha beta hs hsl).mono fun s' hs' =>
    Correct.of_env (orderKMN_perm h.k_c_pos) rfl hs'
  obtain ⟨prog, e, -⟩ := id hc
  refine ⟨prog, e, refusal_shaped (prog := prog) (online_shaped e false) hs (e ▸ hc) fun b hb => or_congr_right' fun hst => ?_⟩
  have hcall : cake_sgemm_online cx ⟨.A, 0⟩ ⟨.B, 0⟩ ⟨.C, 0⟩ M N K p packedA packedB alpha beta m_c k_c n_c = some prog := e
  unfold cake_sgemm_online at hcall
  simp only [init_block_dims, Option.bind_eq_bind, Option.bind_some, Option.some.injEq] at hcall
  have key : ∀ b, ProgTouches prog b ↔ ProgTouches ((schedule_KMN_online cx.kmap ⟨.A, 0⟩ ⟨.B, 0⟩ ⟨.C, 0⟩ M N K p cx.m_r cx.n_r
      (dimsKMN M N K p cx.m_r cx.n_r m_c k_c n_c)).map Item.par) b := by
    intro b
    refine exists_congr fun ts => and_congr_left fun _ => ?_
    rw [← hcall]
    simp [phases]
  rcases hb.resolve_left hst with rfl | ⟨i, rfl⟩
  · rw [key]
    refine ⟨fun h => ?_, fun ht => absurd ht ?_⟩
    · obtain ⟨i, e, -⟩ := h
      cases e
    · exact (schedO_foot (Wr := (· ≠ .Cp)) (Rd := (· ≠ .Cp)) (by simp) (by simp) (by simp) (by simp) (by simp) (by simp) (by simp) (by simp) (by simp) (by simp) (by simp)).not_touches
  · rw [key, touches_online h i (by simp) (by simp) (by simp)]
    constructor
    · rintro ⟨j, e, hj⟩
      cases e
      exact hj
    · exact fun hi => ⟨i, rfl, hi⟩

/-- **C66, what holds.** If the system refuses nothing but memory asked for with `posix_memalign`, a call that computes its
product when memory suffices either exits or computes it. Missing: refused `malloc` and `calloc`, see `C66_kfirst_refuted`. -/
theorem C66_checked_partial {D : Type _} {fl : Flt D} {nz : α → Bool} {mc : Machine} {tbl : List (List Bool)} {prog : Prog}
    {acc : List CtxAcc} (hl : LibCall fl nz mc tbl prog acc) {nullCtx : Bool} {s : State α} (hs : CallOK s M N K)
    (hc : Computes F (some prog) s (fun s' => Correct F nullCtx s s' M N K)) {out : Out α} (he : FExec F prog noNull s [] out) :
    out = .exit ∨ ∃ s', out = .ok s' ∧ Correct F nullCtx s s' M N K := by
  obtain ⟨h1, h2⟩ := C66_call_iff hl hs hc [] out he
  refine h2 fun e => ?_
  obtain ⟨b, hb, -⟩ := h1.1 e
  cases hb

/-- **C66 fails as stated.** Every K-first call with a C that is not empty: if the system refuses the private block of core 0 and
nothing else, the behaviour is undefined. -/
theorem C66_kfirst_refuted (nz : α → Bool) (cx : Cntx) (h : TileOK p cx.m_r cx.n_r m_c k_c n_c) (hk : cx.kmap.Fits cx.m_r cx.n_r)
    (alpha beta : α) {s : State α} (hs : CallOK s M N K) (hM : 0 < M) (hN : 0 < N) :
    ∃ prog fl, cake_sgemm nz cx ⟨.A, 0⟩ ⟨.B, 0⟩ ⟨.C, 0⟩ M N K p false false alpha beta m_c k_c n_c .KMN = some prog ∧
      FExec F prog noNull s fl .ub ∧ ∀ b ∈ fl, b = .CpC 0 := by
  obtain ⟨prog, e, hR⟩ := C66_kfirst_iff (F := F) nz cx h hk alpha beta hs
  obtain ⟨fl, out, h1, h2, h3, h4⟩ := FExec.exists (F := F) (fun b => decide (b = .CpC 0)) prog noNull s
  have h3' : ∀ b ∈ fl, b = .CpC 0 := fun b hb => by simpa using h3 b hb
  refine ⟨prog, fl, e, ?_, h3'⟩
  rcases h4 with rfl | h4
  · exact h1
  · have hmem : Buf.CpC 0 ∈ fl := by
      obtain ⟨pre, post, hS, -⟩ := sgemmK_shape e false
      refine h4 (.calloc (.CpC 0) (m_c * n_c)) ?_ _ rfl (by simp)
      show Item.calloc (.CpC 0) (m_c * n_c) ∈ (if false = true then [Item.malloc .Ctx 1] else []) ++ prog
      rw [hS.eq]
      refine mem_append_right _ (mem_append_left _ (mem_map.2 ⟨(.CpC 0, m_c * n_c), mem_map.2 ⟨0, mem_range.2 h.p_pos, rfl⟩, rfl⟩))
    have : out = .ub := (hR fl out h1).1.2 ⟨_, hmem, .inr ⟨0, rfl, ?_⟩⟩
    · rw [← this]; exact h1
    · unfold coresUsed
      rw [if_neg (by omega)]
      split
      · exact h.p_pos
      · have h1 := cdiv_pos hM h.m_r_pos
        exact cdiv_pos h1 (cdiv_pos h1 h.p_pos)

/-- **C66, the cores that take no part.** Every K-first call has an execution in which the private blocks of all cores that take
no part are refused and which ends normally, with the product. -/
theorem C66_kfirst_spare (nz : α → Bool) (cx : Cntx) (h : TileOK p cx.m_r cx.n_r m_c k_c n_c) (hk : cx.kmap.Fits cx.m_r cx.n_r)
    (alpha beta : α) {s : State α} (hs : CallOK s M N K) :
    ∃ prog fl s', cake_sgemm nz cx ⟨.A, 0⟩ ⟨.B, 0⟩ ⟨.C, 0⟩ M N K p false false alpha beta m_c k_c n_c .KMN = some prog ∧
      FExec F prog noNull s fl (.ok s') ∧ (∀ i, Buf.CpC i ∈ fl ↔ coresUsed M N p cx.m_r m_c ≤ i ∧ i < p) ∧
      Correct F false s s' M N K := by
  obtain ⟨prog, e, hR⟩ := C66_kfirst_iff (F := F) nz cx h hk alpha beta hs
  obtain ⟨pre, post, hS, -⟩ := sgemmK_shape e false
  obtain ⟨fl, out, h1, h2, h3, h4⟩ := FExec.exists (F := F)
    (fun b => match b with | .CpC i => decide (coresUsed M N p cx.m_r m_c ≤ i) | _ => false) prog noNull s
  have hno : out ≠ .ub := by
    intro eu
    obtain ⟨b, hb, hn⟩ := (hR fl out h1).1.1 eu
    have hT := h3 b hb
    rcases hn with hn | ⟨i, rfl, hi⟩
    · cases b <;> first | cases hn; done | cases hT
    · simp only [decide_eq_true_eq] at hT
      omega
  rcases (hR fl out h1).2 hno with eo | ⟨s', eo, hq⟩
  · exact absurd eo h2
  · subst eo
    refine ⟨prog, fl, s', e, h1, fun i => ⟨fun hi => ⟨by simpa using h3 _ hi, ?_⟩, fun hi => ?_⟩, hq⟩
    · rcases hS.fails h1 _ hi with hst | hst
      · cases hst
      · obtain ⟨c, hc, ec⟩ := mem_map.1 hst
        obtain ⟨j, hj, rfl⟩ := mem_map.1 hc
        cases ec
        exact mem_range.1 hj
    · refine (h4.resolve_left (by simp)) (.calloc (.CpC i) (m_c * n_c)) ?_ _ rfl (by simpa using hi.1)
      show Item.calloc (.CpC i) (m_c * n_c) ∈ (if false = true then [Item.malloc .Ctx 1] else []) ++ prog
      rw [hS.eq]
      exact mem_append_right _ (mem_append_left _ (mem_map.2 ⟨(.CpC i, m_c * n_c), mem_map.2 ⟨i, mem_range.2 hi.2, rfl⟩, rfl⟩))

/-! ### Concrete cases -/

/-- All three cores take part in 43 rows; only one in 5 rows, two in 12. -/
example : coresUsed 43 37 3 6 12 = 3 ∧ coresUsed 5 37 3 6 12 = 1 ∧ coresUsed 12 37 3 6 12 = 2 := by decide

example := C66_kfirst_iff (F := exact Int) (· != 0) haswell demo_tile haswell_fits 1 0 (demo_ok 43 37 11)
example := C66_kfirst_refuted (F := exact Int) (· != 0) haswell demo_tile haswell_fits 1 0 (demo_ok 43 37 11) (by decide) (by decide)
example := C66_kfirst_spare (F := exact Int) (· != 0) haswell demo_tile haswell_fits 1 0 (demo_ok 5 37 11)
example := C66_mfirst_iff (F := exact Int) (· != 0) haswell demo_tile haswell_fits_fix 1 0 (demo_ok 43 37 11) demo_readable (by simp)
example := C66_mfirst_iff (F := exact Int) (· != 0) haswell demo_tile haswell_fits_fix 1 1 (demoC_ok 43 37 11) demoC_readable
  (fun _ => demoC_holds 43 37 11)
example := C66_nfirst_iff (F := exact Int) (· != 0) haswell demo_tile haswell_fits_fix 1 0 (demo_ok 43 37 11) demo_readable (by simp)
example := C66_online_iff (F := exact Int) haswell demo_tile haswell_fits false false 1 0 (padded_ok 43 37 11 55 20 fun _ => 7)
  (padded_slack _ (by decide) (by decide))

/-- NULL context, everything automatic: the call is one of the library's and computes its product. -/
example (r : Rounding 53) (rs : Rounding 24) (nf : Option ℝ → Option ℝ → Bool) :
    ∃ prog, Refusal (exact Int) prog (demo 1003 48 77) (fun b => b.isStruct = true ∨ ProgTouches prog b)
      (fun s' => Correct (exact Int) true (demo 1003 48 77) s' 1003 48 77) := by
  obtain ⟨prog, cx', e, -, hc⟩ := C42_default_partial (exact Int) r rs nf (· != 0) (cntx := none)
    (haswellMachine_ok.query (ieee r rs nf)) haswellMachine_ok.kfix_fits
    (a := { M := 1003, N := 48, K := 77, p := 4, alpha := 1, beta := 0 }) ⟨rfl, rfl⟩ (by decide)
    (.auto (by decide) (by decide) (Or.inl rfl)) (by simp) (demo_ok 1003 48 77) (Or.inl (by decide)) (fun _ => rfl)
  exact ⟨prog, C66_call_iff (tbl := []) (.sgemm none _ _ _ e) (demo_ok 1003 48 77) hc⟩

end
end Cake
