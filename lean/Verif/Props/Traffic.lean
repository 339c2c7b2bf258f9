/-
C76: how often the elements of the caller's matrices are read and written.
-/
import Verif.Proofs.Traffic
import Verif.Props.Work

namespace Cake
open List

section
variable {α : Type _} {nz : α → Bool} {cx : Cntx} {M N K p : Nat} {packedA packedB : Bool} {alpha beta : α} {m_c k_c n_c : Nat}
  {sch : Sched} {prog : Prog}

/-- **C76, A.** Whatever the schedule, a call that packs A reads every element of A exactly once, and nothing else of the array. -/
theorem C76_A (h : TileOK p cx.m_r cx.n_r m_c k_c n_c)
    (e : cake_sgemm nz cx ⟨.A, 0⟩ ⟨.B, 0⟩ ⟨.C, 0⟩ M N K p false packedB alpha beta m_c k_c n_c sch = some prog) (i : Nat) :
    loads ⟨.A, i⟩ prog = if i < M * K then 1 else 0 := by
  obtain ⟨x, pa, hx, hpa, hl⟩ := call_loads_A e
  rw [hl]
  cases sch <;> cases hx
  · cases hpa
    exact packA_k_loads h i
  · cases hpa
    exact packA_sh_loads h.geoM (packA_m h) i
  · cases hpa
    exact packA_sh_loads h.geoN (packA_n h.toN) i

example : ∃ prog, cake_sgemm (fun x : Int => x != 0) haswell ⟨.A, 0⟩ ⟨.B, 0⟩ ⟨.C, 0⟩ 79 169 11 3 false true 1 1 12 5 32 .NKM =
    some prog ∧ loads ⟨.A, 868⟩ prog = 1 ∧ loads ⟨.A, 869⟩ prog = 0 := by
  have key : ∀ prog, cake_sgemm (fun x : Int => x != 0) haswell ⟨.A, 0⟩ ⟨.B, 0⟩ ⟨.C, 0⟩ 79 169 11 3 false true 1 1 12 5 32 .NKM =
    some prog → loads ⟨.A, 868⟩ prog = 1 ∧ loads ⟨.A, 869⟩ prog = 0 := fun _ e =>
      ⟨(C76_A demo_tile e _).trans (by decide), (C76_A demo_tile e _).trans (by decide)⟩
  exact ⟨_, rfl, key _ rfl⟩

/-- **C76, B, K-first.** Every element of B is read exactly once, and nothing else of the array. -/
theorem C76_B_kfirst (h : TileOK p cx.m_r cx.n_r m_c k_c n_c)
    (e : cake_sgemm nz cx ⟨.A, 0⟩ ⟨.B, 0⟩ ⟨.C, 0⟩ M N K p packedA false alpha beta m_c k_c n_c .KMN = some prog) (i : Nat) :
    loads ⟨.B, i⟩ prog = if i < K * N then 1 else 0 := by
  obtain ⟨x, pb, hx, hpb, hl⟩ := call_loads_B e
  rw [hl]
  cases hx
  cases hpb
  exact packB_k_loads h i

example : ∃ prog, cake_sgemm (fun x : Int => x != 0) haswell ⟨.A, 0⟩ ⟨.B, 0⟩ ⟨.C, 0⟩ 79 169 11 3 false false 1 1 12 5 32 .KMN =
    some prog ∧ loads ⟨.B, 1858⟩ prog = 1 ∧ loads ⟨.B, 1859⟩ prog = 0 := by
  have key : ∀ prog, cake_sgemm (fun x : Int => x != 0) haswell ⟨.A, 0⟩ ⟨.B, 0⟩ ⟨.C, 0⟩ 79 169 11 3 false false 1 1 12 5 32 .KMN =
    some prog → loads ⟨.B, 1858⟩ prog = 1 ∧ loads ⟨.B, 1859⟩ prog = 0 := fun _ e =>
      ⟨(C76_B_kfirst demo_tile e _).trans (by decide), (C76_B_kfirst demo_tile e _).trans (by decide)⟩
  exact ⟨_, rfl, key _ rfl⟩

/-- **C76, B, M-first and N-first**: the same if the register tile divides the rows of B; whatever the size every element is read. -/
theorem C76_B_mnfirst_partial (h : TileOK p cx.m_r cx.n_r m_c k_c n_c) (hs : sch ≠ .KMN)
    (e : cake_sgemm nz cx ⟨.A, 0⟩ ⟨.B, 0⟩ ⟨.C, 0⟩ M N K p packedA false alpha beta m_c k_c n_c sch = some prog) (i : Nat) :
    (cx.n_r ∣ N → loads ⟨.B, i⟩ prog = if i < K * N then 1 else 0) ∧ (i < K * N → 0 < loads ⟨.B, i⟩ prog) := by
  obtain ⟨x, pb, hx, hpb, hl⟩ := call_loads_B e
  rw [hl]
  cases sch <;> cases hx
  · exact absurd rfl hs
  · cases hpb
    exact ⟨fun hN => packB_sh_loads h.geoM (packB_m h) hN i, packB_sh_loads_pos h.geoM (packB_m h)⟩
  · cases hpb
    exact ⟨fun hN => packB_sh_loads h.geoN (packB_n h.toN) hN i, packB_sh_loads_pos h.geoN (packB_n h.toN)⟩

example : ∃ prog, cake_sgemm (fun x : Int => x != 0) haswell ⟨.A, 0⟩ ⟨.B, 0⟩ ⟨.C, 0⟩ 79 176 11 3 false false 1 1 12 5 32 .MKN =
    some prog ∧ loads ⟨.B, 1935⟩ prog = 1 ∧ loads ⟨.B, 1936⟩ prog = 0 := by
  have key : ∀ prog, cake_sgemm (fun x : Int => x != 0) haswell ⟨.A, 0⟩ ⟨.B, 0⟩ ⟨.C, 0⟩ 79 176 11 3 false false 1 1 12 5 32 .MKN =
    some prog → loads ⟨.B, 1935⟩ prog = 1 ∧ loads ⟨.B, 1936⟩ prog = 0 := fun _ e =>
      ⟨((C76_B_mnfirst_partial demo_tile (by decide) e _).1 (by decide)).trans (by decide), ((C76_B_mnfirst_partial demo_tile (by decide) e _).1 (by decide)).trans (by decide)⟩
  exact ⟨_, rfl, key _ rfl⟩

/-- **C76 does not hold for B** in general: packing runs over the end of the rows, so that the second row of a B of two rows and one
column is read twice. -/
theorem C76_B_mnfirst_refuted : ∃ sch prog, cake_sgemm (fun x : Int => x != 0) haswell ⟨.A, 0⟩ ⟨.B, 0⟩ ⟨.C, 0⟩ 1 1 2 1 false false
    1 0 6 2 16 sch = some prog ∧ TileOK 1 haswell.m_r haswell.n_r 6 2 16 ∧ loads ⟨.B, 1⟩ prog = 2 :=
  ⟨.MKN, _, rfl, ⟨by decide, by decide, by decide, by decide, by decide, by decide, by decide, by decide⟩, by decide +kernel⟩

/-- **C76, results.** Whatever the schedule and whoever packed the operands, every element of C is written exactly once, and nothing
else of the array. -/
theorem C76_C (h : TileOK p cx.m_r cx.n_r m_c k_c n_c) (hk : cx.kmap.Fits cx.m_r cx.n_r)
    (e : cake_sgemm nz cx ⟨.A, 0⟩ ⟨.B, 0⟩ ⟨.C, 0⟩ M N K p packedA packedB alpha beta m_c k_c n_c sch = some prog) (i : Nat) :
    stores ⟨.C, i⟩ prog = if i < M * N then 1 else 0 := by
  obtain ⟨x, uc, A_p, B_p, hx, huc, hl⟩ := call_stores_C e
  rw [hl]
  cases sch <;> cases hx
  · exact schedK_stores h hk A_p B_p i
  · cases huc
    rw [if_neg (show ¬ (dimsMKN M N K p cx.m_r cx.n_r m_c k_c n_c).sch = .KMN by intro e; cases e), unpackC_m_phases h]
    exact unpackNM_stores h.geoM i
  · cases huc
    rw [if_neg (show ¬ (dimsNKM M N K p cx.m_r cx.n_r m_c k_c n_c).sch = .KMN by intro e; cases e), unpackC_n_phases h.toN]
    exact unpackMN_stores h.geoN i

example : ∃ prog, cake_sgemm (fun x : Int => x != 0) haswell ⟨.A, 0⟩ ⟨.B, 0⟩ ⟨.C, 0⟩ 79 169 11 3 false true 1 1 12 5 32 .NKM =
    some prog ∧ stores ⟨.C, 13350⟩ prog = 1 ∧ stores ⟨.C, 13351⟩ prog = 0 := by
  have key : ∀ prog, cake_sgemm (fun x : Int => x != 0) haswell ⟨.A, 0⟩ ⟨.B, 0⟩ ⟨.C, 0⟩ 79 169 11 3 false true 1 1 12 5 32 .NKM =
    some prog → stores ⟨.C, 13350⟩ prog = 1 ∧ stores ⟨.C, 13351⟩ prog = 0 := fun _ e =>
      ⟨(C76_C demo_tile haswell_fits e _).trans (by decide), (C76_C demo_tile haswell_fits e _).trans (by decide)⟩
  exact ⟨_, rfl, key _ rfl⟩

/-- **C76, old contents of C.** They are read once each if the call adds to them, which only M-first and N-first with a non-zero
`beta` do, and not at all otherwise. -/
theorem C76_C_loads (h : TileOK p cx.m_r cx.n_r m_c k_c n_c)
    (e : cake_sgemm nz cx ⟨.A, 0⟩ ⟨.B, 0⟩ ⟨.C, 0⟩ M N K p packedA packedB alpha beta m_c k_c n_c sch = some prog) (i : Nat) :
    loads ⟨.C, i⟩ prog = if sch ≠ .KMN ∧ nz beta = true ∧ i < M * N then 1 else 0 := by
  obtain ⟨x, pc, hx, hpc, hl⟩ := call_loads_C e
  rw [hl]
  have key : ∀ n, (if sch ≠ .KMN ∧ nz beta = true then (if i < M * N then 1 else 0) else n * 0) =
      if sch ≠ .KMN ∧ nz beta = true ∧ i < M * N then 1 else 0 := by
    intro n
    by_cases h1 : sch = .KMN <;> by_cases h2 : nz beta = true <;> by_cases h3 : i < M * N <;> simp [h1, h2, h3]
  rw [← key 0]
  cases sch <;> cases hx
  · rfl
  · cases hpc
    rw [packC_sh_loads h.geoM (packC_m h)]
    rfl
  · cases hpc
    rw [packC_n_loads h]
    rfl

example : ∃ prog, cake_sgemm (fun x : Int => x != 0) haswell ⟨.A, 0⟩ ⟨.B, 0⟩ ⟨.C, 0⟩ 79 169 11 3 false true 1 1 12 5 32 .NKM =
    some prog ∧ loads ⟨.C, 13350⟩ prog = 1 ∧ loads ⟨.C, 13351⟩ prog = 0 := by
  have key : ∀ prog, cake_sgemm (fun x : Int => x != 0) haswell ⟨.A, 0⟩ ⟨.B, 0⟩ ⟨.C, 0⟩ 79 169 11 3 false true 1 1 12 5 32 .NKM =
    some prog → loads ⟨.C, 13350⟩ prog = 1 ∧ loads ⟨.C, 13351⟩ prog = 0 := fun _ e =>
      ⟨(C76_C_loads demo_tile e _).trans (by decide), (C76_C_loads demo_tile e _).trans (by decide)⟩
  exact ⟨_, rfl, key _ rfl⟩

section api
variable (r : Rounding 53) (rs : Rounding 24) (nf : Option ℝ → Option ℝ → Bool)

/-- **C76** from the first line of the public call: automatic or valid user tile sizes, any schedule or none, with a context or
without. -/
theorem C76_default (nz : α → Bool) {mc : Machine} {cntx : Option (CCtx (Option ℝ))} {m_r n_r L2 L3 nc : Nat}
    (h : Ready mc (cntx.getD (query_cntx (ieee r rs nf) mc)) m_r n_r L2 L3 nc) {a : Args α} (hp : 0 < a.p)
    (ht : TilesOK m_r n_r L2 a) (hA : a.packedA = false) (hB : a.packedB = false) :
    ∃ prog cx', publicCall r rs nf nz mc cntx a = .ok (prog, cx') ∧ ∀ i,
      loads ⟨.A, i⟩ prog = (if i < a.M * a.K then 1 else 0) ∧ stores ⟨.C, i⟩ prog = (if i < a.M * a.N then 1 else 0) ∧
      (i < a.K * a.N → 0 < loads ⟨.B, i⟩ prog) ∧
      (a.sch = .KMN ∨ n_r ∣ a.N → loads ⟨.B, i⟩ prog = if i < a.K * a.N then 1 else 0) ∧
      (nz a.beta = false → loads ⟨.C, i⟩ prog = 0) := by
  obtain ⟨prog, cx', kd, m_c, k_c, n_c, sch, d, -, -, e1, e2, hf, hT, -, hs, -⟩ :=
    api_reduce_dims r rs nf nz h ⟨.A, 0⟩ ⟨.B, 0⟩ ⟨.C, 0⟩ hp ht
  refine ⟨_, cx', e1, fun i => ?_⟩
  rw [(loads_flows _).ctx, (loads_flows _).ctx, (loads_flows _).ctx, (stores_flows _).ctx]
  have eC := C76_C (cx := ⟨m_r, n_r, kd, mc.kfix⟩) hT hf e2 i
  have eL := C76_C_loads (cx := ⟨m_r, n_r, kd, mc.kfix⟩) hT e2 i
  rw [hA, hB] at e2
  refine ⟨C76_A (cx := ⟨m_r, n_r, kd, mc.kfix⟩) hT e2 i, eC, fun hi => ?_, fun hd => ?_, fun hb => ?_⟩
  · by_cases hk : sch = .KMN
    · subst hk
      rw [C76_B_kfirst (cx := ⟨m_r, n_r, kd, mc.kfix⟩) hT e2 i, if_pos hi]
      exact Nat.one_pos
    · exact (C76_B_mnfirst_partial (cx := ⟨m_r, n_r, kd, mc.kfix⟩) hT hk e2 i).2 hi
  · by_cases hk : sch = .KMN
    · subst hk
      exact C76_B_kfirst (cx := ⟨m_r, n_r, kd, mc.kfix⟩) hT e2 i
    · refine (C76_B_mnfirst_partial (cx := ⟨m_r, n_r, kd, mc.kfix⟩) hT hk e2 i).1 (hd.resolve_left fun h0 => hk ?_)
      rw [hs (by rw [h0]; simp), h0]
  · rw [eL, if_neg]
    rintro ⟨-, h1, -⟩
    rw [hb] at h1
    cases h1

example := C76_default r rs nf (fun x : Int => x != 0) (cntx := none) (haswellMachine_ok.query (ieee r rs nf))
  (a := { M := 1003, N := 48, K := 77, p := 4, alpha := 1, beta := 0 }) (by decide) (.auto (by decide) (by decide) (Or.inl rfl)) rfl rfl

end api

end
end Cake
