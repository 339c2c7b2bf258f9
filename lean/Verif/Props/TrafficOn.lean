/-
C77: how much the products that pack on the fly read of their operands, and how often they write C.
-/
import Verif.Proofs.TrafficOn
import Verif.Props.Work

namespace Cake
open List

/-- Length of piece `i` of `T` elements cut into pieces of `s`. -/
def piece (T s i : Nat) : Nat := min s (T - i * s)

/-- The row of blocks at which column `n` of blocks starts: columns are walked alternately down and up. -/
def turnRow (Mb n : Nat) : Nat := if n % 2 = 0 then 0 else Mb - 1

/-- The block of K at which the block in row `m` and column `n` starts: also alternately up and down. -/
def turnK (Kb n m : Nat) : Nat := if (n + m) % 2 = 0 then 0 else Kb - 1

theorem mFirst_eq (Mb n : Nat) : mFirst Mb n = turnRow Mb n := by
  unfold mFirst turnRow serpStart
  by_cases h : n % 2 = 0 <;> simp [h]

theorem kFirst_eq (Kb n m : Nat) : kFirst Kb n m = turnK Kb n m := by
  unfold kFirst turnK serpStart kDesc
  rcases Nat.mod_two_eq_zero_or_one n with h | h <;> rcases Nat.mod_two_eq_zero_or_one m with h' | h' <;>
    simp [h, h', Nat.add_mod]

/-- Elements of A not read again when the walk turns: the first block of every column of blocks but the first. -/
def savedA (M' S K k_c Mb Kb Nb : Nat) : Nat := ((range (Nb - 1)).map fun n =>
  piece M' S (turnRow Mb (n + 1)) * piece K k_c (turnK Kb (n + 1) (turnRow Mb (n + 1)))).sum

/-- Elements of B not read again within a column of blocks: the first block of every row of blocks but the first visited. -/
def savedB (N' S K k_c Mb Kb Nb : Nat) : Nat := ((range Nb).map fun n => ((range Mb).map fun m =>
  if m = turnRow Mb n then 0 else piece N' S n * piece K k_c (turnK Kb n m)).sum).sum

theorem savedA_eq {T q r n_r t k_c n_c K Nb : Nat} (h : TileOK q r n_r t k_c n_c) :
    ((range (Nb - 1)).map fun n => mLen T q r t (mFirst (cdiv T (q * t)) (n + 1)) *
        chopLen K k_c (kFirst (cdiv K k_c) (n + 1) (mFirst (cdiv T (q * t)) (n + 1)))).sum =
      savedA (cdiv T r * r) (q * t) K k_c (cdiv T (q * t)) (cdiv K k_c) Nb := by
  unfold savedA
  refine sum_congr fun n _ => ?_
  rw [kFirst_eq, mFirst_eq]
  unfold mLen
  rw [padTo_eq h.m_r_pos h.S_dvd]
  rfl

theorem savedB_eq {T S u K k_c Mb Nb : Nat} (hu : 0 < u) (hd : u ∣ S) :
    ((range Nb).map fun n => ((range Mb).map fun m =>
        if m = mFirst Mb n then 0 else chopLen (padTo T S u) S n * chopLen K k_c (kFirst (cdiv K k_c) n m)).sum).sum =
      savedB (cdiv T u * u) S K k_c Mb (cdiv K k_c) Nb := by
  unfold savedB
  refine sum_congr fun n _ => sum_congr fun m _ => ?_
  rw [kFirst_eq, mFirst_eq, padTo_eq hu hd]
  rfl

theorem piece_full {S q i : Nat} (h : i < q) : piece (S * q) S i = S := by
  have := Nat.mul_le_mul_left S (Nat.succ_le_of_lt h)
  rw [Nat.mul_succ] at this
  unfold piece
  rw [Nat.mul_comm i S]
  omega

theorem turnRow_lt {Mb n : Nat} (h : 0 < Mb) : turnRow Mb n < Mb := by unfold turnRow; split <;> omega

theorem turnK_lt {Kb n m : Nat} (h : 0 < Kb) : turnK Kb n m < Kb := by unfold turnK; split <;> omega

/-- Without edges every turn saves one full block of A. -/
theorem savedA_full {S k_c Mb Kb Nb : Nat} (hM : 0 < Mb) (hK : 0 < Kb) :
    savedA (S * Mb) S (k_c * Kb) k_c Mb Kb Nb = (Nb - 1) * (S * k_c) := by
  unfold savedA
  rw [sum_congr (g := fun _ => S * k_c)]
  · simp
  · intro n _
    rw [piece_full (turnRow_lt hM), piece_full (turnK_lt hK)]

/-- Without edges every step to another row of blocks saves one full block of B. -/
theorem savedB_full {S k_c Mb Kb Nb : Nat} (hM : 0 < Mb) (hK : 0 < Kb) :
    savedB (S * Nb) S (k_c * Kb) k_c Mb Kb Nb = Nb * ((Mb - 1) * (S * k_c)) := by
  unfold savedB
  rw [sum_congr (g := fun _ => (Mb - 1) * (S * k_c))]
  · simp
  · intro n hn
    have key := sum_skip (l := range Mb) nodup_range (mem_range.2 (turnRow_lt (n := n) hM)) fun _ => S * k_c
    rw [sum_congr (g := fun m => if m = turnRow Mb n then 0 else S * k_c)]
    · simp only [map_const', length_range, sum_replicate_nat] at key
      rw [Nat.sub_mul, Nat.one_mul]
      omega
    · intro m _
      rw [piece_full (mem_range.1 hn), piece_full (turnK_lt hK)]

section
variable {α : Type _} {cx : Cntx} {M N K p : Nat} {packedA packedB : Bool} {alpha beta : α} {m_c k_c n_c : Nat} {prog : Prog}

/-- **C77, A, on the fly.** The number of reads from A: all of A (rows rounded up to the register tile) for each column of blocks,
except that the block at which the walk turns is not read again. -/
theorem C77_online_A (h : TileOK p cx.m_r cx.n_r m_c k_c n_c) (hM : 0 < M) (hK : 0 < K)
    (e : callO cx M N K p packedA packedB alpha beta m_c k_c n_c = some prog) :
    bufLoads .A prog + savedA (cdiv M cx.m_r * cx.m_r) (p * m_c) K k_c (cdiv M (p * m_c)) (cdiv K k_c) (cdiv N n_c) =
      cdiv N n_c * (cdiv M cx.m_r * cx.m_r * K) := by
  rw [online_flow (bufLoads_flows .A) e, ← savedA_eq h]
  exact schedO_loads_A h hK hM

/-- **C77, B, on the fly.** The number of reads from B: all of B (rows rounded up to the register tile) for each row of blocks, except
that the first block of a row of blocks is the last of the row before. -/
theorem C77_online_B (h : TileOK p cx.m_r cx.n_r m_c k_c n_c) (hK : 0 < K)
    (e : callO cx M N K p packedA packedB alpha beta m_c k_c n_c = some prog) :
    bufLoads .B prog + savedB (cdiv N cx.n_r * cx.n_r) n_c K k_c (cdiv M (p * m_c)) (cdiv K k_c) (cdiv N n_c) =
      cdiv M (p * m_c) * (cdiv N cx.n_r * cx.n_r * K) := by
  rw [online_flow (bufLoads_flows .B) e, ← savedB_eq h.n_r_pos h.n_dvd]
  exact schedO_loads_B h hK

/-- **C77, on the fly, sizes without edges**: `Nb` reads of A less `Nb - 1` blocks, `Mb` reads of B less `Mb - 1` blocks per column. -/
theorem C77_online_full {Mb Nb Kb : Nat} (h : TileOK p cx.m_r cx.n_r m_c k_c n_c) (hM : 0 < Mb) (hK : 0 < Kb)
    (e : callO cx (p * m_c * Mb) (n_c * Nb) (k_c * Kb) p packedA packedB alpha beta m_c k_c n_c = some prog) :
    bufLoads .A prog + (Nb - 1) * (p * m_c * k_c) = Nb * (p * m_c * Mb * (k_c * Kb)) ∧
      bufLoads .B prog + Nb * ((Mb - 1) * (n_c * k_c)) = Mb * (n_c * Nb * (k_c * Kb)) := by
  have eM : cdiv (p * m_c * Mb) cx.m_r * cx.m_r = p * m_c * Mb := by
    obtain ⟨q, hq⟩ := h.S_dvd
    rw [hq, Nat.mul_assoc, Nat.mul_comm cx.m_r, cdiv_mul_self _ _ h.m_r_pos]
  have eN : cdiv (n_c * Nb) cx.n_r * cx.n_r = n_c * Nb := by
    obtain ⟨q, hq⟩ := h.n_dvd
    rw [hq, Nat.mul_assoc, Nat.mul_comm cx.n_r, cdiv_mul_self _ _ h.n_r_pos]
  have a := C77_online_A h (Nat.mul_pos h.S_pos hM) (Nat.mul_pos h.k_c_pos hK) e
  have b := C77_online_B h (Nat.mul_pos h.k_c_pos hK) e
  have c1 : cdiv (p * m_c * Mb) (p * m_c) = Mb := by rw [Nat.mul_comm _ Mb, cdiv_mul_self _ _ h.S_pos]
  have c2 : cdiv (n_c * Nb) n_c = Nb := by rw [Nat.mul_comm _ Nb, cdiv_mul_self _ _ h.n_c_pos]
  have c3 : cdiv (k_c * Kb) k_c = Kb := by rw [Nat.mul_comm _ Kb, cdiv_mul_self _ _ h.k_c_pos]
  rw [eM, c1, c2, c3, savedA_full hM hK] at a
  rw [eN, c1, c2, c3, savedB_full hM hK] at b
  exact ⟨a, b⟩

/-- **C77, C, on the fly.** Every element of C is written exactly once, nothing else of the array is, and the old C is not read. -/
theorem C77_online_C (h : TileOK p cx.m_r cx.n_r m_c k_c n_c)
    (e : callO cx M N K p packedA packedB alpha beta m_c k_c n_c = some prog) :
    (∀ i, stores ⟨.C, i⟩ prog = if i < M * N then 1 else 0) ∧ bufLoads .C prog = 0 :=
  ⟨fun i => (online_flow (stores_flows _) e).trans (schedO_stores h i), (online_flow (bufLoads_flows _) e).trans schedO_loads_C⟩

example : ∃ prog, callO haswell 79 169 11 3 false false (1 : Int) 0 12 5 32 = some prog ∧
    bufLoads .A prog = 6 * (84 * 11) - (12 * 1 + 36 * 5 + 12 * 1 + 36 * 5 + 12 * 1) ∧ stores ⟨.C, 13350⟩ prog = 1 := by
  have key : ∀ prog, callO haswell 79 169 11 3 false false (1 : Int) 0 12 5 32 = some prog →
      bufLoads .A prog = 6 * (84 * 11) - (12 * 1 + 36 * 5 + 12 * 1 + 36 * 5 + 12 * 1) ∧ stores ⟨.C, 13350⟩ prog = 1 := by
    intro prog e
    have := C77_online_A demo_tile (by decide) (by decide) e
    have s : savedA (cdiv 79 haswell.m_r * haswell.m_r) (3 * 12) 11 5 (cdiv 79 (3 * 12)) (cdiv 11 5) (cdiv 169 32) = 396 := by decide
    have s' : cdiv 169 32 * (cdiv 79 haswell.m_r * haswell.m_r * 11) = 5544 := by decide
    exact ⟨by omega, ((C77_online_C demo_tile e).1 _).trans (by decide)⟩
  exact ⟨_, rfl, key _ rfl⟩

example : ∃ prog, callO haswell 72 64 10 3 false false (1 : Int) 0 12 5 32 = some prog ∧
    bufLoads .A prog = 2 * 720 - 180 ∧ bufLoads .B prog = 2 * 640 - 2 * 160 := by
  have key : ∀ prog, callO haswell 72 64 10 3 false false (1 : Int) 0 12 5 32 = some prog →
      bufLoads .A prog = 2 * 720 - 180 ∧ bufLoads .B prog = 2 * 640 - 2 * 160 := by
    intro prog e
    have := C77_online_full (Mb := 2) (Nb := 2) (Kb := 2) demo_tile (by decide) (by decide) e
    omega
  exact ⟨_, rfl, key _ rfl⟩

section api
variable (r : Rounding 53) (rs : Rounding 24) (nf : Option ℝ → Option ℝ → Bool)

/-- **C77** from the first line of the call that packs on the fly. -/
theorem C77_online_default {mc : Machine} {cntx : Option (CCtx (Option ℝ))} {m_r n_r L2 L3 nc : Nat}
    (h : Ready mc (cntx.getD (query_cntx (ieee r rs nf) mc)) m_r n_r L2 L3 nc) {a : Args α} (hp : 0 < a.p)
    (ht : TilesOK m_r n_r L2 a) (hM : 0 < a.M) (hK : 0 < a.K) :
    ∃ prog cx' m_c k_c n_c, onlineCall r rs nf mc cntx a = .ok (prog, cx') ∧ TileOK a.p m_r n_r m_c k_c n_c ∧
      bufLoads .A prog + savedA (cdiv a.M m_r * m_r) (a.p * m_c) a.K k_c (cdiv a.M (a.p * m_c)) (cdiv a.K k_c) (cdiv a.N n_c) =
        cdiv a.N n_c * (cdiv a.M m_r * m_r * a.K) ∧
      bufLoads .B prog + savedB (cdiv a.N n_r * n_r) n_c a.K k_c (cdiv a.M (a.p * m_c)) (cdiv a.K k_c) (cdiv a.N n_c) =
        cdiv a.M (a.p * m_c) * (cdiv a.N n_r * n_r * a.K) ∧
      bufLoads .C prog = 0 ∧ ∀ i, stores ⟨.C, i⟩ prog = if i < a.M * a.N then 1 else 0 := by
  obtain ⟨prog, cx', kd, m_c, k_c, n_c, e1, e2, hf, hT, -⟩ := online_reduce r rs nf h hp ht
  refine ⟨_, cx', m_c, k_c, n_c, e1, hT, ?_, ?_, ?_, fun i => ?_⟩
  · rw [(bufLoads_flows _).ctx]; exact C77_online_A (cx := ⟨m_r, n_r, kd, mc.kfix⟩) hT hM hK e2
  · rw [(bufLoads_flows _).ctx]; exact C77_online_B (cx := ⟨m_r, n_r, kd, mc.kfix⟩) hT hK e2
  · rw [(bufLoads_flows _).ctx]; exact (C77_online_C (cx := ⟨m_r, n_r, kd, mc.kfix⟩) hT e2).2
  · rw [(stores_flows _).ctx]; exact (C77_online_C (cx := ⟨m_r, n_r, kd, mc.kfix⟩) hT e2).1 i

example := C77_online_default r rs nf (cntx := none) (haswellMachine_ok.query (ieee r rs nf))
  (a := { M := 1003, N := 48, K := 77, p := 4, alpha := (1 : Int), beta := 0 }) (by decide)
  (.auto (by decide) (by decide) (Or.inl rfl)) (by decide) (by decide)

end api

/-- **C77, A, grid**: as on the fly, with the blocks of the grid of cores actually used. -/
theorem C77_2d_A {pn : Nat} (h : Fit2 M N p cx.m_r cx.n_r pn m_c k_c) (hK : 0 < K)
    (e : call2 cx M N K p packedA packedB alpha beta pn m_c k_c = some prog) {pm' pn' m_c' n_c' : Nat}
    (hg : grid2 M N p cx.m_r cx.n_r pn m_c = ⟨pm', pn', m_c', n_c'⟩) :
    bufLoads .A prog + savedA (cdiv M cx.m_r * cx.m_r) (pm' * m_c') K k_c (cdiv M (pm' * m_c')) (cdiv K k_c) (cdiv N (pn' * n_c')) =
      cdiv N (pn' * n_c') * (cdiv M cx.m_r * cx.m_r * K) := by
  unfold call2 cake_sgemm_2d at e
  rw [init2d_eq h.pn_pos] at e
  simp only [Option.bind_eq_bind, Option.bind_eq_some_iff, Option.some.injEq] at e
  obtain ⟨x, hx, rfl⟩ := e
  have t := h.grid
  rw [hg] at hx t
  rw [twoD_flow (bufLoads_flows .A), ← savedA_eq t.1]
  exact sched2_loads_A t.1 t.2.1 hx hK h.M_pos

/-- The first and last of the three rows of blocks are 36 and 12 rows; six columns of blocks. -/
example (prog : Prog) (e : call2 haswell 79 169 11 6 false false (1 : Int) 0 2 12 5 = some prog) :
    bufLoads .A prog = 6 * (84 * 11) - (12 * 1 + 36 * 5 + 12 * 1 + 36 * 5 + 12 * 1) := by
  have := C77_2d_A demo_fit2 (by decide) e (pm' := 3) (pn' := 2) (m_c' := 12) (n_c' := 16) (by decide)
  have s : savedA (cdiv 79 haswell.m_r * haswell.m_r) (3 * 12) 11 5 (cdiv 79 (3 * 12)) (cdiv 11 5) (cdiv 169 (2 * 16)) = 396 := by decide
  have s' : cdiv 169 (2 * 16) * (cdiv 79 haswell.m_r * haswell.m_r * 11) = 5544 := by decide
  omega

/-- **C77, B, grid.** -/
theorem C77_2d_B {pn : Nat} (h : Fit2 M N p cx.m_r cx.n_r pn m_c k_c) (hK : 0 < K)
    (e : call2 cx M N K p packedA packedB alpha beta pn m_c k_c = some prog) {pm' pn' m_c' n_c' : Nat}
    (hg : grid2 M N p cx.m_r cx.n_r pn m_c = ⟨pm', pn', m_c', n_c'⟩) :
    bufLoads .B prog + savedB (cdiv N cx.n_r * cx.n_r) (pn' * n_c') K k_c (cdiv M (pm' * m_c')) (cdiv K k_c) (cdiv N (pn' * n_c')) =
      cdiv M (pm' * m_c') * (cdiv N cx.n_r * cx.n_r * K) := by
  unfold call2 cake_sgemm_2d at e
  rw [init2d_eq h.pn_pos] at e
  simp only [Option.bind_eq_bind, Option.bind_eq_some_iff, Option.some.injEq] at e
  obtain ⟨x, hx, rfl⟩ := e
  have t := h.grid
  rw [hg] at hx t
  rw [twoD_flow (bufLoads_flows .B), ← savedB_eq t.2.1.m_r_pos t.2.1.S_dvd]
  exact sched2_loads_B t.1 t.2.1 hx hK

example (prog : Prog) (e : call2 haswell 79 169 11 6 false false (1 : Int) 0 2 12 5 = some prog) :
    bufLoads .B prog ≤ 3 * (176 * 11) := by
  have := C77_2d_B demo_fit2 (by decide) e (pm' := 3) (pn' := 2) (m_c' := 12) (n_c' := 16) (by decide)
  have s' : cdiv 79 (3 * 12) * (cdiv 169 haswell.n_r * haswell.n_r * 11) = 3 * (176 * 11) := by decide
  omega

/-- **C77, C, grid.** -/
theorem C77_2d_C {pn : Nat} (h : Fit2 M N p cx.m_r cx.n_r pn m_c k_c)
    (e : call2 cx M N K p packedA packedB alpha beta pn m_c k_c = some prog) :
    (∀ i, stores ⟨.C, i⟩ prog = if i < M * N then 1 else 0) ∧ bufLoads .C prog = 0 := by
  unfold call2 cake_sgemm_2d at e
  rw [init2d_eq h.pn_pos] at e
  simp only [Option.bind_eq_bind, Option.bind_eq_some_iff, Option.some.injEq] at e
  obtain ⟨x, hx, rfl⟩ := e
  exact ⟨fun i => by rw [twoD_flow (stores_flows _)]; exact sched2_stores h.grid.1 h.grid.2.1 hx i,
    by rw [twoD_flow (bufLoads_flows _)]; exact sched2_loads_C⟩

example (prog : Prog) (e : call2 haswell 79 169 11 6 false false (1 : Int) 0 2 12 5 = some prog) : stores ⟨.C, 13350⟩ prog = 1 :=
  ((C77_2d_C demo_fit2 e).1 _).trans (by decide)

/-- **C77, grid, small matrices**: A and B are each read once (rows rounded up to the register tile), every element of C is written
exactly once, nothing else of the array is, and the old C is not read. -/
theorem C77_2d_small {pn kc_max : Nat} (hm : 0 < cx.m_r) (hn : 0 < cx.n_r)
    (e : callS cx M N K p packedA packedB alpha beta pn kc_max = some prog) :
    bufLoads .A prog = cdiv M cx.m_r * cx.m_r * K ∧ bufLoads .B prog = cdiv N cx.n_r * cx.n_r * K ∧ bufLoads .C prog = 0 ∧
      ∀ i, stores ⟨.C, i⟩ prog = if i < M * N then 1 else 0 := by
  obtain ⟨hpn, hp, hkm⟩ := small_some hm packedA packedB alpha beta e
  obtain ⟨k_c, na, nb, hkc, rfl⟩ := small_prog hm hn hpn hp rfl rfl hkm packedA packedB alpha beta e
  refine ⟨?_, ?_, ?_, fun i => ?_⟩
  · rw [small_prog_flow (bufLoads_flows .A)]; exact small_loads_A hm hkc
  · rw [small_prog_flow (bufLoads_flows .B)]; exact small_loads_B hn hkc
  · rw [small_prog_flow (bufLoads_flows .C)]; exact small_loads_C
  · rw [small_prog_flow (stores_flows _)]; exact small_stores hm hn hpn hp i

example : ∃ prog, callS haswell 40 50 11 4 false false (1 : Int) 0 2 5 = some prog ∧ bufLoads .A prog = 42 * 11 ∧
    stores ⟨.C, 1999⟩ prog = 1 ∧ stores ⟨.C, 2000⟩ prog = 0 := by
  have key : ∀ prog, callS haswell 40 50 11 4 false false (1 : Int) 0 2 5 = some prog → bufLoads .A prog = 42 * 11 ∧
    stores ⟨.C, 1999⟩ prog = 1 ∧ stores ⟨.C, 2000⟩ prog = 0 := by
    intro prog e
    obtain ⟨h1, -, -, h4⟩ := C77_2d_small (by decide) (by decide) e
    exact ⟨h1.trans (by decide), (h4 _).trans (by decide), (h4 _).trans (by decide)⟩
  exact ⟨_, rfl, key _ rfl⟩

end
end Cake
