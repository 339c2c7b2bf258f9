/-
What memory `cake_sgemm_2d` has to find readable: the converse of its safety.
-/
import Verif.Proofs.TwoD
import Verif.Proofs.TwoDDims

namespace Cake
open List

variable {α : Type _} {F : Arith α}

section
variable {M N K p pm pn m_r n_r m_c k_c n_c : Nat}
variable (h : TileOK pm m_r n_r m_c k_c n_c) (h' : TileOK pn n_r m_r n_c k_c m_c)
include h h'

/-- A normal run needs whole padded strips of A and B to be within the caller's objects. -/
theorem twoD_needs {cx : Cntx} (hmr : cx.m_r = m_r) (hnr : cx.n_r = n_r)
    {x : BlkDims2} (hx : dims2d M N K m_r n_r pm pn m_c k_c n_c = some x) {s s' : State α}
    (he : Exec F (sgemm2dBody cx ⟨.A, 0⟩ ⟨.B, 0⟩ ⟨.C, 0⟩ M N K p x) s (.ok s')) :
    (0 < N → ∀ row k, row < padTo M (pm * m_c) m_r → k < K → InB s.size ⟨.A, row * K + k⟩) ∧
    (0 < M → ∀ k col, k < K → col < padTo N (pn * n_c) n_r → InB s.size ⟨.B, k * N + col⟩) := by
  subst hmr hnr
  obtain ⟨prog, hprog⟩ : ∃ prog, prog = sgemm2dBody cx ⟨.A, 0⟩ ⟨.B, 0⟩ ⟨.C, 0⟩ M N K p x := ⟨_, rfl⟩
  rw [← hprog] at he
  unfold sgemm2dBody at hprog
  rw [twoD_snake h h' cx.kfix hx] at hprog
  have hsub : ∀ {i}, i ∈ snakeProg (cdiv N (pn * n_c)) (cdiv M (pm * m_c)) (cdiv K k_c)
      (tdStep cx.kfix M N K pm pn cx.m_r cx.n_r m_c k_c n_c) (tdFin M N pm pn cx.m_r cx.n_r m_c n_c) →
      i ∈ prog := by
    intro i hi
    rw [hprog]
    simp [hi]
  have hfix : ∀ b, b = .A ∨ b = .B → ∀ i ∈ prog, i.Fixes b := by
    intro b hb i hi
    rw [hprog] at hi
    simp only [mem_append, mem_cons, mem_map, mem_range, not_mem_nil, or_false] at hi
    rcases hi with (((rfl | rfl | rfl) | ⟨j, _, rfl⟩) | hi) | (rfl | ⟨j, _, rfl⟩) | rfl | rfl
    all_goals first
      | (rcases hb with rfl | rfl <;> simp [Item.Fixes]; done)
      | skip
    unfold snakeProg at hi
    simp only [mem_append, mem_flatMap, mem_range] at hi
    obtain ⟨n, _, m, _, ⟨k, _, hi⟩ | hi⟩ := hi
    · unfold tdStep at hi
      simp only [mem_append, mem_cons, not_mem_nil, or_false] at hi
      rcases hi with (hi | hi) | rfl
      · split at hi
        · simp at hi
        · simp only [mem_cons, not_mem_nil, or_false] at hi; subst hi; trivial
      · split at hi
        · simp at hi
        · simp only [mem_cons, not_mem_nil, or_false] at hi; subst hi; trivial
      · trivial
    · unfold tdFin at hi
      simp only [mem_cons, not_mem_nil, or_false] at hi
      subst hi; trivial
  refine ⟨?_, ?_⟩
  · intro hN row k hrow hk
    obtain ⟨m, r, hm, hr, rfl⟩ : ∃ m r, m < cdiv M (pm * m_c) ∧ r < mLen M pm cx.m_r m_c m ∧
        m * (pm * m_c) + r = row := by
      obtain ⟨h1, h2, h3⟩ := chop_cover h.S_pos hrow
      rw [← mb_eq h] at h1
      exact ⟨_, _, h1, h2, h3⟩
    obtain ⟨hb, hi, hkk⟩ := chop_cover h.k_c_pos hk
    have hNb : 0 < cdiv N (pn * n_c) := Nat.lt_of_le_of_lt (Nat.zero_le _) (chop_cover h'.S_pos hN).1
    have dvdA : cx.m_r ∣ mLen M pm cx.m_r m_c m := chopLen_dvd (padTo_dvd h.S_dvd) h.S_dvd
    have hmem : Item.par (gstrips .Ap (⟨.A, 0⟩ +ₚ (m * pm * m_c * K + k / k_c * k_c)) cx.m_r
        (mLen M pm cx.m_r m_c m) (chopLen K k_c (k / k_c)) (fun r i => r * K + i)) ∈ prog := by
      apply hsub
      unfold snakeProg
      refine mem_flatMap.2 ⟨0, mem_range.2 hNb, mem_flatMap.2 ⟨m, mem_serp.2 hm, mem_append_left _
        (mem_flatMap.2 ⟨k / k_c, mem_serp.2 hb, ?_⟩)⟩⟩
      unfold tdStep
      simp
    have ho := (gstrips_mem (dst := .Ap) (src := (⟨.A, 0⟩ : Loc) +ₚ (m * pm * m_c * K + k / k_c * k_c))
      (k := chopLen K k_c (k / k_c)) (f := fun r i => r * K + i) h.m_r_pos dvdA _).2
      ⟨r, k % k_c, hr, hi, rfl⟩
    obtain ⟨t, ht, hot⟩ := mem_flatten.1 ho
    have := ok_inB (b := .A) (by simp) (hfix _ (Or.inl rfl)) he hmem ht hot (by simp [Op.reads]; rfl) rfl
    have e : (⟨.A, 0⟩ : Loc) +ₚ (m * pm * m_c * K + k / k_c * k_c) +ₚ (r * K + k % k_c) =
        ⟨.A, (m * (pm * m_c) + r) * K + k⟩ := by
      simp only [Loc.off, Loc.mk.injEq, true_and]
      have : k / k_c * k_c + k % k_c = k := hkk
      calc _ = (m * (pm * m_c) + r) * K + (k / k_c * k_c + k % k_c) := by ring
        _ = _ := by rw [this]
    rwa [e] at this
  · intro hM k col hk hcol
    obtain ⟨n, c, hn, hc, rfl⟩ : ∃ n c, n < cdiv N (pn * n_c) ∧ c < mLen N pn cx.n_r n_c n ∧
        n * (pn * n_c) + c = col := by
      obtain ⟨h1, h2, h3⟩ := chop_cover h'.S_pos hcol
      rw [← mb_eq h'] at h1
      exact ⟨_, _, h1, h2, h3⟩
    obtain ⟨hb, hi, hkk⟩ := chop_cover h.k_c_pos hk
    have hMb : 0 < cdiv M (pm * m_c) := Nat.lt_of_le_of_lt (Nat.zero_le _) (chop_cover h.S_pos hM).1
    have dvdB : cx.n_r ∣ mLen N pn cx.n_r n_c n := chopLen_dvd (padTo_dvd h'.S_dvd) h'.S_dvd
    have hmem : Item.par (gstrips .Bp (⟨.B, 0⟩ +ₚ (n * pn * n_c + k / k_c * k_c * N)) cx.n_r
        (mLen N pn cx.n_r n_c n) (chopLen K k_c (k / k_c)) (fun c i => i * N + c)) ∈ prog := by
      apply hsub
      unfold snakeProg
      refine mem_flatMap.2 ⟨n, mem_range.2 hn, mem_flatMap.2 ⟨serpStart (n % 2 != 0) (cdiv M (pm * m_c)), ?_,
        mem_append_left _ (mem_flatMap.2 ⟨k / k_c, mem_serp.2 hb, ?_⟩)⟩⟩
      · rw [mem_serp]; unfold serpStart; split <;> omega
      unfold tdStep
      simp
    have ho := (gstrips_mem (dst := .Bp) (src := (⟨.B, 0⟩ : Loc) +ₚ (n * pn * n_c + k / k_c * k_c * N))
      (k := chopLen K k_c (k / k_c)) (f := fun c i => i * N + c) h.n_r_pos dvdB _).2
      ⟨c, k % k_c, hc, hi, rfl⟩
    obtain ⟨t, ht, hot⟩ := mem_flatten.1 ho
    have := ok_inB (b := .B) (by simp) (hfix _ (Or.inr rfl)) he hmem ht hot (by simp [Op.reads]; rfl) rfl
    have e : (⟨.B, 0⟩ : Loc) +ₚ (n * pn * n_c + k / k_c * k_c * N) +ₚ (k % k_c * N + c) =
        ⟨.B, k * N + (n * (pn * n_c) + c)⟩ := by
      simp only [Loc.off, Loc.mk.injEq, true_and]
      have : k / k_c * k_c + k % k_c = k := hkk
      calc _ = (k / k_c * k_c + k % k_c) * N + (n * (pn * n_c) + c) := by ring
        _ = _ := by rw [this]
    rwa [e] at this

end
end Cake
