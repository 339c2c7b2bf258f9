/-
What memory `cake_sgemm_online` has to find readable: the converse of its safety.
-/
import Verif.Proofs.Online
import Verif.Proofs.Refute

namespace Cake
open List

variable {α : Type _} {F : Arith α}

/-- The item neither allocates nor frees `b`. -/
def Item.Fixes (b : Buf) : Item → Prop
  | .memalign b' _ => b' ≠ b
  | .malloc b' _ => b' ≠ b
  | .calloc b' _ => b' ≠ b
  | .free b' => b' ≠ b
  | .par _ => True

theorem Item.Fixes.size {b : Buf} {i : Item} (h : i.Fixes b) (sz : Buf → Option Nat) : sizeAfter sz i b = sz b := by
  cases i <;> simp only [Item.Fixes, sizeAfter, ite_eq_right_iff] at h ⊢ <;> intro e <;> exact absurd e.symm h

/-- If a program runs to its end, each access to an object that exists throughout is within that object. -/
theorem ok_inB {prog : Prog} {b : Buf} (hreg : ∀ t, b ≠ .reg t) (hfix : ∀ i ∈ prog, i.Fixes b) {s s' : State α}
    (he : Exec F prog s (.ok s')) {ts : List (List Op)} (hts : Item.par ts ∈ prog) {t : List Op} (ht : t ∈ ts)
    {o : Op} (ho : o ∈ t) {l : Loc} (hl : l ∈ o.reads) (hb : l.buf = b) : InB s.size l := by
  induction prog generalizing s with
  | nil => simp at hts
  | cons i is ih =>
    cases he with
    | next _ _ _ s1 _ h1 h2 =>
      have hsz : s1.size b = s.size b := by
        rw [h1.size]; exact (hfix i (by simp)).size _
      rcases mem_cons.1 hts with e | hts'
      · subst e
        cases h1 with
        | par _ l' _ _ hl' hr =>
          exact ((RunOps.ok_inv hr).2 o (hl'.perm.mem_iff.2 (mem_flatten.2 ⟨t, ht, ho⟩))).2 l hl
      · have := ih (fun i hi => hfix i (by simp [hi])) h2 hts'
        obtain ⟨lb, li⟩ := l
        simp only at hb
        subst hb
        unfold InB at this ⊢
        cases lb <;> first
          | exact absurd rfl (hreg _)
          | (simp only [hsz] at this; exact this)

section
variable {M N K p m_r n_r m_c k_c n_c : Nat} (h : TileOK p m_r n_r m_c k_c n_c)
include h

theorem rowOf_cover_pad {row : Nat} (hlt : row < padTo M (p * m_c) m_r) : ∃ m core r, m < cdiv M (p * m_c) ∧
    core < mU M p m_r m_c m ∧ r < mT M p m_r m_c m core ∧ rowOf M p m_r m_c m core r = row := by
  obtain ⟨h1, h2, h3⟩ := chop_cover h.S_pos hlt
  rw [← mb_eq h] at h1
  obtain ⟨h4, h5, h6⟩ := chop_cover (m_strips (N := 0) (K := 0) h h1).1
    (show row % (p * m_c) < mLen M p m_r m_c (row / (p * m_c)) from h2)
  refine ⟨row / (p * m_c), _, _, h1, h4, h5, ?_⟩
  unfold rowOf
  rw [h6]
  exact h3

theorem colOf_cover_pad {col : Nat} (hlt : col < padTo N n_c n_r) : ∃ n c, n < cdiv N n_c ∧
    c < nLen N n_r n_c n ∧ n * n_c + c = col := by
  obtain ⟨h1, h2, h3⟩ := chop_cover h.n_c_pos hlt
  rw [← nb_eq h] at h1
  exact ⟨_, _, h1, h2, h3⟩

/-- A normal run needs whole padded strips of A and B to be within the caller's objects. -/
theorem online_needs {cx : Cntx} (hmr : cx.m_r = m_r) (hnr : cx.n_r = n_r) {s s' : State α}
    (packedA packedB : Bool) (alpha beta : α) {prog : Prog}
    (hprog : cake_sgemm_online cx ⟨.A, 0⟩ ⟨.B, 0⟩ ⟨.C, 0⟩ M N K p packedA packedB alpha beta m_c k_c n_c =
      some prog) (he : Exec F prog s (.ok s')) :
    (0 < N → ∀ row k, row < padTo M (p * m_c) m_r → k < K → InB s.size ⟨.A, row * K + k⟩) ∧
    (0 < M → ∀ k col, k < K → col < padTo N n_c n_r → InB s.size ⟨.B, k * N + col⟩) := by
  subst hmr hnr
  simp only [cake_sgemm_online, init_block_dims, Option.bind_eq_bind, Option.bind_some, Option.some.injEq] at hprog
  rw [online_snake h] at hprog
  have hsub : ∀ {i}, i ∈ snakeProg (cdiv N n_c) (cdiv M (p * m_c)) (cdiv K k_c)
      (onStep cx.kmap M N K p cx.m_r cx.n_r m_c k_c n_c) (onFin M N p cx.m_r cx.n_r m_c n_c) → i ∈ prog := by
    intro i hi
    rw [← hprog]
    simp [hi]
  have hfix : ∀ b, b = .A ∨ b = .B → ∀ i ∈ prog, i.Fixes b := by
    intro b hb i hi
    rw [← hprog] at hi
    simp only [mem_append, mem_cons, mem_map, mem_range, mem_flatMap, not_mem_nil, or_false] at hi
    have hpar : ∀ n m k rA rB, i ∈ onStep cx.kmap M N K p cx.m_r cx.n_r m_c k_c n_c n m k rA rB → i.Fixes b := by
      intro n m k rA rB hi
      unfold onStep at hi
      simp only [mem_append, mem_cons, not_mem_nil, or_false] at hi
      rcases hi with hi | rfl
      · split at hi
        · simp at hi
        · simp only [mem_cons, not_mem_nil, or_false] at hi; subst hi; trivial
      · trivial
    rcases hi with ((((((rfl | rfl | rfl) | ⟨j, _, rfl⟩) | rfl) | ⟨j, _, rfl⟩) | hi) | ⟨j, _, rfl | rfl⟩) | rfl | rfl
    all_goals first
      | (rcases hb with rfl | rfl <;> simp [Item.Fixes]; done)
      | skip
    unfold snakeProg at hi
    simp only [mem_append, mem_flatMap, mem_range] at hi
    obtain ⟨n, _, m, _, ⟨k, _, hi⟩ | hi⟩ := hi
    · exact hpar _ _ _ _ _ hi
    · unfold onFin at hi
      simp only [mem_cons, not_mem_nil, or_false] at hi
      subst hi; trivial
  refine ⟨?_, ?_⟩
  · intro hN row k hrow hk
    obtain ⟨m, core, r, hm, hcore, hr, rfl⟩ := rowOf_cover_pad h hrow
    obtain ⟨hb, hi, hkk⟩ := chop_cover h.k_c_pos hk
    have hNb : 0 < cdiv N n_c := by
      exact Nat.lt_of_le_of_lt (Nat.zero_le _) (chop_cover h.n_c_pos hN).1
    have hmem : Item.par (gTasks (geoK M N p cx.m_r cx.n_r m_c n_c 0 m) cx.kmap
        (onPre M K p cx.m_r m_c k_c m (k / k_c) false)
        (fun i => ⟨.ApC i, 0⟩) (fun _ => ⟨.Bp, 0⟩) cx.m_r cx.n_r (chopLen K k_c (k / k_c))) ∈ prog := by
      apply hsub
      unfold snakeProg
      refine mem_flatMap.2 ⟨0, mem_range.2 hNb, mem_flatMap.2 ⟨m, mem_serp.2 hm, mem_append_left _
        (mem_flatMap.2 ⟨k / k_c, mem_serp.2 hb, ?_⟩)⟩⟩
      unfold onStep
      exact mem_append_right _ (by simp)
    have ho : (Op.copy ⟨.ApC core, aIdx cx.m_r (chopLen K k_c (k / k_c)) r (k % k_c)⟩
        (⟨.A, 0⟩ +ₚ (m * p * m_c * K + k / k_c * k_c + core * mX M p cx.m_r m_c m * K) +ₚ (r * K + k % k_c))) ∈
        (gstrips (.ApC core) (⟨.A, 0⟩ +ₚ (m * p * m_c * K + k / k_c * k_c + core * mX M p cx.m_r m_c m * K))
          cx.m_r (mT M p cx.m_r m_c m core) (chopLen K k_c (k / k_c)) (fun r i => r * K + i)).flatten :=
      (gstrips_mem h.m_r_pos (mT_dvd h hm) _).2 ⟨r, k % k_c, hr, hi, rfl⟩
    have := ok_inB (b := .A) (by simp) (hfix _ (Or.inl rfl)) he hmem
      (t := onPre M K p cx.m_r m_c k_c m (k / k_c) false core ++ regTiles cx.kmap core ⟨.ApC core, 0⟩ ⟨.Bp, 0⟩ ⟨.CpC core, 0⟩ cx.m_r cx.n_r
        (mT M p cx.m_r m_c m core) (nLen N cx.n_r n_c 0) (chopLen K k_c (k / k_c)))
      (mem_map.2 ⟨core, mem_range.2 hcore, rfl⟩)
      (mem_append_left _ (by unfold onPre; simpa using ho)) (by simp [Op.reads]; rfl) rfl
    have e : (⟨.A, 0⟩ : Loc) +ₚ (m * p * m_c * K + k / k_c * k_c + core * mX M p cx.m_r m_c m * K) +ₚ
        (r * K + k % k_c) = ⟨.A, rowOf M p cx.m_r m_c m core r * K + k⟩ := by
      simp only [Loc.off, Loc.mk.injEq, true_and, rowOf]
      have : k / k_c * k_c + k % k_c = k := hkk
      calc _ = (m * (p * m_c) + (core * mX M p cx.m_r m_c m + r)) * K + (k / k_c * k_c + k % k_c) := by ring
        _ = _ := by rw [this]
    rwa [e] at this
  · intro hM k col hk hcol
    obtain ⟨n, c, hn, hc, rfl⟩ := colOf_cover_pad h hcol
    obtain ⟨hb, hi, hkk⟩ := chop_cover h.k_c_pos hk
    have hMb : 0 < cdiv M (p * m_c) := by
      exact Nat.lt_of_le_of_lt (Nat.zero_le _) (chop_cover h.S_pos hM).1
    have hmem : Item.par (gstrips .Bp (⟨.B, 0⟩ +ₚ (n * n_c + k / k_c * k_c * N)) cx.n_r (nLen N cx.n_r n_c n)
        (chopLen K k_c (k / k_c)) (fun c i => i * N + c)) ∈ prog := by
      apply hsub
      unfold snakeProg
      refine mem_flatMap.2 ⟨n, mem_range.2 hn, mem_flatMap.2 ⟨serpStart (n % 2 != 0) (cdiv M (p * m_c)), ?_, mem_append_left _
        (mem_flatMap.2 ⟨k / k_c, mem_serp.2 hb, ?_⟩)⟩⟩
      · rw [mem_serp]; unfold serpStart; split <;> omega
      unfold onStep
      simp
    have ho := (gstrips_mem (dst := .Bp) (src := (⟨.B, 0⟩ : Loc) +ₚ (n * n_c + k / k_c * k_c * N))
      (k := chopLen K k_c (k / k_c)) (f := fun c i => i * N + c) h.n_r_pos (nLen_dvd (n := n) (N := N) h) _).2
      ⟨c, k % k_c, hc, hi, rfl⟩
    obtain ⟨t, ht, hot⟩ := mem_flatten.1 ho
    have := ok_inB (b := .B) (by simp) (hfix _ (Or.inr rfl)) he hmem ht hot (by simp [Op.reads]; rfl) rfl
    have e : (⟨.B, 0⟩ : Loc) +ₚ (n * n_c + k / k_c * k_c * N) +ₚ (k % k_c * N + c) =
        ⟨.B, k * N + (n * n_c + c)⟩ := by
      simp only [Loc.off, Loc.mk.injEq, true_and]
      have : k / k_c * k_c + k % k_c = k := hkk
      calc _ = (k / k_c * k_c + k % k_c) * N + (n * n_c + c) := by ring
        _ = _ := by rw [this]
    rwa [e] at this

end
end Cake
