/-
The public entry point reduced to the product with fixed tile sizes.
-/
import Verif.Proofs.CacheDims
import Verif.Proofs.Dims
import Verif.Proofs.Exact
import Verif.Props.Kernel

namespace Cake
open List

section
variable (r : Rounding 53) (rs : Rounding 24) (nf : Option ℝ → Option ℝ → Bool)

/-- User tile sizes are taken over unchanged. -/
theorem dims_user {cx : CCtx (Option ℝ)} {mr nr L2 L3 nc : Nat} (ok : CacheOK cx mr nr L2 L3 nc)
    (M N K p : Nat) (hp : 0 < p) (sch : Sched) {mcu kcu ncu : Nat} (h1 : 0 < mcu) (h2 : 0 < kcu) (h3 : 0 < ncu) :
    ∃ d cx', get_cache_dims (ieee r rs nf) cx M N K p sch ((ieee r rs nf).ofInt 4) mcu kcu ncu = .ok (d, cx') ∧
      d.m_c = mcu ∧ d.k_c = kcu ∧ d.n_c = ncu := by
  obtain ⟨t, ht⟩ := isL2Side_exists nr L2
  obtain ⟨e2, -⟩ := mcL2_val r rs nf cx ok.mr_eq ok.mr_pos ok.nr_eq ok.nr_le ok.l2_eq ok.l2_lt ht
  obtain ⟨t3, -, -, -, e3⟩ := mcL3_val r rs nf cx ok.mr_eq ok.mr_pos ok.l3_eq ok.l3_lt ok.nc_eq ok.nc_pos ok.nc_le
  obtain ⟨c, hc⟩ : ∃ c : ℤ, clampMc M p cx.mr ((t - t % mr : Nat) : ℤ) = .ok c := by
    rw [ok.mr_eq]
    unfold clampMc cDiv cMod
    split
    · exact ⟨_, rfl⟩
    split
    · rw [if_neg (by omega)]
      simp only [bind, Except.bind]
      split
      · exact ⟨_, rfl⟩
      · rw [if_neg (by have := ok.mr_pos; omega)]; exact ⟨_, rfl⟩
    · exact ⟨_, rfl⟩
  unfold get_cache_dims
  rw [e2, e3]
  simp only [bind, Except.bind]
  rw [hc]
  simp only
  rw [if_pos ⟨by omega, by omega, by omega⟩]
  exact ⟨_, _, rfl, rfl, rfl, rfl⟩

end

/-- A context as `cake_query_cntx` and `update_mr_nr` produce it, for a register tile `m_r x n_r` among the
generated kernels, on a machine whose cache sizes and core count are in range. -/
structure Ready {D : Type _} (mc : Machine) (cx : CCtx D) (m_r n_r L2 L3 nc : Nat) : Prop where
  cache : CacheOK cx m_r n_r L2 L3 nc
  m_map : cx.m_map = mc.arch.m_map m_r
  n_map : cx.n_map = mc.arch.n_map n_r
  arch : mc.arch = archHaswell ∨ mc.arch = archArmv8
  gen_m : m_r ∈ cfor mc.arch.sm (mc.m_lim + 1) mc.arch.fact_m
  gen_n : n_r ∈ cfor mc.arch.sn (mc.n_lim + 1) mc.arch.fact_n

theorem Ready.alpha {D : Type _} {mc : Machine} {cx cx' : CCtx D} {m_r n_r L2 L3 nc : Nat}
    (h : Ready mc cx m_r n_r L2 L3 nc) (e : { cx with alpha_n := cx'.alpha_n } = cx') : Ready mc cx' m_r n_r L2 L3 nc := by
  rw [← e]
  exact ⟨⟨h.cache.1, h.cache.2, h.cache.3, h.cache.4, h.cache.5, h.cache.6, h.cache.7, h.cache.8, h.cache.9,
    h.cache.10, h.cache.11, h.cache.12⟩, h.m_map, h.n_map, h.arch, h.gen_m, h.gen_n⟩

theorem Ready.view {D : Type _} {mc : Machine} {cx : CCtx D} {m_r n_r L2 L3 nc : Nat}
    (h : Ready mc cx m_r n_r L2 L3 nc) : ∃ kd, cx.view mc = .ok ⟨m_r, n_r, kd, mc.kfix⟩ ∧ kd.Fits m_r n_r := by
  obtain ⟨kd, e, h1, h2, h3⟩ := C27_fits mc.arch h.arch mc.m_lim mc.n_lim m_r n_r h.gen_m h.gen_n
  refine ⟨kd, ?_, ⟨h3, h1, h2⟩⟩
  unfold CCtx.view
  unfold Arch.dispatch at e
  rw [h.m_map, h.n_map, e, h.cache.mr_eq, h.cache.nr_eq]
  rfl

/-- Machines covered: one of the two architectures, generator limits that include the default kernel, which is
the one inlined in `cake_sgemm_ukernel`; cache sizes and core count in range. -/
structure MachineOK (mc : Machine) (L2 L3 nc : Nat) : Prop where
  arch : mc.arch = archHaswell ∨ mc.arch = archArmv8
  m_lim : mc.arch.sm ≤ mc.m_lim
  n_lim : mc.arch.sn ≤ mc.n_lim
  kfix : mc.kfix = ⟨mc.arch.L, mc.arch.sm, mc.arch.sn / mc.arch.L⟩
  l2_eq : mc.L2 = L2
  l3_eq : mc.L3 = L3
  nc_eq : mc.ncores = nc
  l2_lt : L2 < 2 ^ 31
  l3_lt : L3 < 2 ^ 31
  nc_pos : 0 < nc
  nc_le : nc ≤ 2 ^ 20

theorem mem_cfor_first {lo hi st : Nat} (hs : 0 < st) (h : lo ≤ hi) : lo ∈ cfor lo (hi + 1) st := by
  rw [cfor_eq _ _ _ hs]
  refine mem_map.2 ⟨0, ?_, by simp⟩
  rw [mem_range]
  unfold cdiv
  exact Nat.div_pos (by omega) hs

theorem MachineOK.query {D : Type _} (fl : Flt D) {mc : Machine} {L2 L3 nc : Nat} (h : MachineOK mc L2 L3 nc) :
    Ready mc (query_cntx fl mc) mc.arch.sm mc.arch.sn L2 L3 nc := by
  have pos : 0 < mc.arch.fact_m ∧ 0 < mc.arch.fact_n ∧ 0 < mc.arch.sm ∧ 0 < mc.arch.sn ∧ mc.arch.sn ≤ 2 ^ 10 := by
    rcases h.arch with e | e <;> rw [e] <;> decide
  exact ⟨⟨rfl, rfl, h.l2_eq, h.l3_eq, h.nc_eq, pos.2.2.1, pos.2.2.2.1, pos.2.2.2.2, h.l2_lt, h.l3_lt, h.nc_pos, h.nc_le⟩,
    rfl, rfl, h.arch, mem_cfor_first pos.1 h.m_lim, mem_cfor_first pos.2.1 h.n_lim⟩

theorem Ready.update {D : Type _} {mc : Machine} {cx : CCtx D} {m_r n_r L2 L3 nc : Nat}
    (h : Ready mc cx m_r n_r L2 L3 nc) {m_r' n_r' : Nat} (hm : m_r' ∈ cfor mc.arch.sm (mc.m_lim + 1) mc.arch.fact_m)
    (hn : n_r' ∈ cfor mc.arch.sn (mc.n_lim + 1) mc.arch.fact_n) (hn' : n_r' ≤ 2 ^ 10) :
    Ready mc (update_mr_nr mc cx m_r' n_r') m_r' n_r' L2 L3 nc := by
  have pos : 0 < mc.arch.fact_m ∧ 0 < mc.arch.fact_n ∧ 0 < mc.arch.sm ∧ 0 < mc.arch.sn := by
    rcases h.arch with e | e <;> rw [e] <;> decide
  have pm : 0 < m_r' := by
    rw [cfor_eq _ _ _ pos.1] at hm
    obtain ⟨t, -, rfl⟩ := mem_map.1 hm
    have := pos.2.2.1; omega
  have pn : 0 < n_r' := by
    rw [cfor_eq _ _ _ pos.2.1] at hn
    obtain ⟨t, -, rfl⟩ := mem_map.1 hn
    have := pos.2.2.2; omega
  exact ⟨⟨rfl, rfl, h.cache.l2_eq, h.cache.l3_eq, h.cache.nc_eq, pm, pn, hn', h.cache.l2_lt, h.cache.l3_lt, h.cache.nc_pos,
    h.cache.nc_le⟩, rfl, rfl, h.arch, hm, hn⟩

theorem MachineOK.kfix_fits {mc : Machine} {L2 L3 nc : Nat} (h : MachineOK mc L2 L3 nc) :
    mc.kfix.Fits mc.arch.sm mc.arch.sn := by
  rw [h.kfix]
  rcases h.arch with e | e <;> rw [e] <;> exact ⟨by decide, rfl, rfl⟩

section
variable (r : Rounding 53) (rs : Rounding 24) (nf : Option ℝ → Option ℝ → Bool)

/-- What a call comes down to: no user tiles and room for one register tile in L2, or complete user tiles that are
multiples of the register tile. -/
inductive TilesOK {α : Type _} (m_r n_r L2 : Nat) (a : Args α) : Prop
  | auto (hp : a.p ≤ 2 ^ 15) (l2 : 8 * (m_r * (m_r + 2 * n_r)) ≤ L2) (u : a.mcu = 0 ∨ a.ncu = 0 ∨ a.kcu = 0)
  | user (m : 0 < a.mcu) (k : 0 < a.kcu) (n : 0 < a.ncu) (hm : m_r ∣ a.mcu) (hn : n_r ∣ a.ncu)

/-- The call, with the schedule and tile sizes that `get_cache_dims` returned. -/
theorem api_reduce_dims {α : Type _} (nz : α → Bool) {mc : Machine} {cntx : Option (CCtx (Option ℝ))} {m_r n_r L2 L3 nc : Nat}
    (h : Ready mc (cntx.getD (query_cntx (ieee r rs nf) mc)) m_r n_r L2 L3 nc)
    (A B C : Loc) {a : Args α} (hp : 0 < a.p) (ht : TilesOK m_r n_r L2 a) :
    ∃ prog cx' kd m_c k_c n_c sch d, get_cache_dims (ieee r rs nf) (cntx.getD (query_cntx (ieee r rs nf) mc)) a.M a.N a.K
        a.p a.sch ((ieee r rs nf).ofInt 4) a.mcu a.kcu a.ncu = .ok (d, cx') ∧ d.sch = sch ∧
      sgemm_api (ieee r rs nf) nz mc cntx A B C a =
        .ok ((if cntx.isNone then [Item.malloc .Ctx 1] else []) ++ prog, cx') ∧
      cake_sgemm nz ⟨m_r, n_r, kd, mc.kfix⟩ A B C a.M a.N a.K a.p a.packedA a.packedB a.alpha a.beta m_c k_c n_c sch =
        some prog ∧
      kd.Fits m_r n_r ∧ TileOK a.p m_r n_r m_c k_c n_c ∧ (sch = .KMN ∨ sch = .MKN ∨ sch = .NKM) ∧
      (a.sch ≠ .NA → sch = a.sch) ∧
      Ready mc cx' m_r n_r L2 L3 nc := by
  have key : ∃ d cx', get_cache_dims (ieee r rs nf) (cntx.getD (query_cntx (ieee r rs nf) mc)) a.M a.N a.K a.p a.sch
      ((ieee r rs nf).ofInt 4) a.mcu a.kcu a.ncu = .ok (d, cx') ∧ ValidTile m_r n_r d := by
    cases ht with
    | auto hp' l2 u =>
      obtain ⟨t, e, c, d, cx', -, -, -, -, -, -, -, -, h, hv, -⟩ :=
        dims_auto r rs nf h.cache l2 a.M a.N a.K a.p hp hp' a.sch a.mcu a.kcu a.ncu (by omega)
      exact ⟨d, cx', h, hv⟩
    | user m k n hm hn =>
      obtain ⟨d, cx', h, e1, e2, e3⟩ := dims_user r rs nf h.cache a.M a.N a.K a.p hp a.sch m k n
      obtain ⟨i, hi⟩ := hm
      obtain ⟨j, hj⟩ := hn
      refine ⟨d, cx', h, ⟨i, ?_, ?_⟩, ⟨j, ?_, ?_⟩, ?_⟩
      · exact Nat.pos_of_ne_zero fun e => by rw [e] at hi; omega
      · rw [e1, hi, Nat.mul_comm]
      · exact Nat.pos_of_ne_zero fun e => by rw [e] at hj; omega
      · rw [e3, hj, Nat.mul_comm]
      · rw [e2]; exact_mod_cast k
  obtain ⟨d, cx', hd, ⟨⟨i, hi, hmi⟩, ⟨j, hj, hnj⟩, hk⟩⟩ := key
  obtain ⟨hs1, hs2, hcx⟩ := (get_cache_dims_noExit _ _ _ _ _ _ _ _ _ _ _).of_ok hd
  have hR := h.alpha hcx
  obtain ⟨kd, hv, hf⟩ := hR.view
  have pm := Nat.mul_pos hi h.cache.mr_pos
  have pn := Nat.mul_pos hj h.cache.nr_pos
  obtain ⟨prog, hprog⟩ := cake_sgemm_isSome nz ⟨m_r, n_r, kd, mc.kfix⟩ A B C a.M a.N a.K a.p a.packedA a.packedB a.alpha a.beta
    d.m_c.toNat d.k_c.toNat d.n_c.toNat hs2
  refine ⟨prog, cx', kd, d.m_c.toNat, d.k_c.toNat, d.n_c.toNat, d.sch, d, hd, rfl, ?_, hprog, hf, ?_, hs2, hs1, hR⟩
  · unfold sgemm_api
    simp only [bind, Except.bind]
    rw [hd]
    simp only
    rw [hv]
    simp only
    rw [if_neg (by rw [hmi, hnj]; omega), hprog]
    rfl
  · rw [hmi, hnj, Int.toNat_natCast, Int.toNat_natCast]
    exact ⟨hp, h.cache.mr_pos, h.cache.nr_pos, pm, by omega, pn, ⟨i, Nat.mul_comm _ _⟩, ⟨j, Nat.mul_comm _ _⟩⟩

theorem api_reduce {α : Type _} (nz : α → Bool) {mc : Machine} {cntx : Option (CCtx (Option ℝ))} {m_r n_r L2 L3 nc : Nat}
    (h : Ready mc (cntx.getD (query_cntx (ieee r rs nf) mc)) m_r n_r L2 L3 nc)
    (A B C : Loc) {a : Args α} (hp : 0 < a.p) (ht : TilesOK m_r n_r L2 a) :
    ∃ prog cx' kd m_c k_c n_c sch,
      sgemm_api (ieee r rs nf) nz mc cntx A B C a =
        .ok ((if cntx.isNone then [Item.malloc .Ctx 1] else []) ++ prog, cx') ∧
      cake_sgemm nz ⟨m_r, n_r, kd, mc.kfix⟩ A B C a.M a.N a.K a.p a.packedA a.packedB a.alpha a.beta m_c k_c n_c sch =
        some prog ∧
      kd.Fits m_r n_r ∧ TileOK a.p m_r n_r m_c k_c n_c ∧ (sch = .KMN ∨ sch = .MKN ∨ sch = .NKM) ∧
      (a.sch ≠ .NA → sch = a.sch) ∧
      Ready mc cx' m_r n_r L2 L3 nc := by
  obtain ⟨prog, cx', kd, m_c, k_c, n_c, sch, -, -, -, h1⟩ := api_reduce_dims r rs nf nz h A B C hp ht
  exact ⟨prog, cx', kd, m_c, k_c, n_c, sch, h1⟩

end
end Cake
