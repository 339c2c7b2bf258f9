/-
Properties C26 (microkernel), C27 (kernel dispatch), C29 (aligned loads).
-/
import Verif.Proofs.Align
import Verif.Proofs.RegTiles
import Verif.Model.Dispatch
import Verif.Props.Demo
import Verif.Spec

namespace Cake
open List

variable {α : Type _} (F : Arith α)

/-! ### C26 -/

/-- Running the `m x (nl*L)` microkernel on an `m`-row panel of A (column by column), an
`nl*L`-column panel of B and a row-major tile of C: every element of the tile becomes the dot product,
`k` ascending, added to the old element; for every depth `k`. -/
theorem C26_microkernel (L m nl t : Nat) (hL : 0 < L) (A B C : Loc) (hA : ∀ t, A.buf ≠ .reg t)
    (hB : ∀ t, B.buf ≠ .reg t) (hC : ∀ t, C.buf ≠ .reg t) (k : Nat) (mem : Mem α) (i j : Nat)
    (hi : i < m) (hj : j < nl * L) :
    exec F (kernel L m nl t A B C (nl * L) k) mem (C +ₚ (i * (nl * L) + j)) =
      dotFrom F (fun q => mem (A +ₚ (q * m + i))) (fun q => mem (B +ₚ (q * (nl * L) + j))) (range k)
        (mem (C +ₚ (i * (nl * L) + j))) :=
  kernel_spec F L m nl t hL A B C hA hB hC (nl * L) k mem i j hi hj

example := C26_microkernel (exact Int) 8 6 2 0 (by decide) ⟨.Ap, 0⟩ ⟨.Bp, 3⟩ ⟨.Cp, 96⟩
  (fun _ => by simp) (fun _ => by simp) (fun _ => by simp) 7 (fun l => l.idx) 5 15 (by decide) (by decide)

/-- Nothing but the tile of C (and the registers) is written. -/
theorem C26_frame (L m nl t : Nat) (A B C : Loc) (n k : Nat) (mem : Mem α) (x : Loc)
    (hx : x.buf ≠ .reg t) (hC : ¬ (x.buf = C.buf ∧ C.idx ≤ x.idx ∧ x.idx < C.idx + m * (nl * L))) :
    exec F (kernel L m nl t A B C n k) mem x = mem x := by
  apply kernel_frame F L m nl t A B C n k mem x hx
  rintro d hd rfl
  refine hC ⟨rfl, Nat.le_add_right _ _, ?_⟩
  rw [← Nat.mul_assoc]
  exact Nat.add_lt_add_left hd _

example := C26_frame (exact Int) 8 6 2 0 ⟨.Ap, 0⟩ ⟨.Bp, 3⟩ ⟨.Cp, 96⟩ 16 7 (fun l => l.idx) ⟨.Cp, 192⟩
  (by simp) (by simp)

/-- Only the panels and the tile are read: `m*k` elements of A, `nl*L*k` of B, the tile of C. -/
theorem C26_reads (L m nl t : Nat) (A B C : Loc) (k : Nat) (o : Op)
    (ho : o ∈ kernel L m nl t A B C (nl * L) k) (r : Loc) (hr : r ∈ o.reads) :
    r.buf = .reg t ∨ (∃ x, x < m * (nl * L) ∧ r = C +ₚ x) ∨ (∃ x, x < m * k ∧ r = A +ₚ x) ∨
      ∃ x, x < nl * L * k ∧ r = B +ₚ x := by
  rcases kernel_reads L m nl t A B C (nl * L) k o ho r hr with h | ⟨x, hx, h⟩ | ⟨q, i, hq, hi, h⟩ |
    ⟨q, j, hq, hj, h⟩
  · exact Or.inl h
  · exact Or.inr (Or.inl ⟨x, by rw [← Nat.mul_assoc]; exact hx, h⟩)
  · exact Or.inr (Or.inr (Or.inl ⟨_, by rw [Nat.mul_comm m k]; exact mulAdd_lt hq hi, h⟩))
  · exact Or.inr (Or.inr (Or.inr ⟨_, by rw [Nat.mul_comm _ k]; exact mulAdd_lt hq hj, h⟩))

/-- In exact arithmetic: tile += panel product. -/
theorem C26_exact {R : Type _} [CommSemiring R] (L m nl t : Nat) (hL : 0 < L) (A B C : Loc)
    (hA : ∀ t, A.buf ≠ .reg t) (hB : ∀ t, B.buf ≠ .reg t) (hC : ∀ t, C.buf ≠ .reg t) (k : Nat)
    (mem : Mem R) (i j : Nat) (hi : i < m) (hj : j < nl * L) :
    exec (exact R) (kernel L m nl t A B C (nl * L) k) mem (C +ₚ (i * (nl * L) + j)) =
      mem (C +ₚ (i * (nl * L) + j)) +
        ((range k).map fun q => mem (A +ₚ (q * m + i)) * mem (B +ₚ (q * (nl * L) + j))).sum := by
  rw [C26_microkernel (exact R) L m nl t hL A B C hA hB hC k mem i j hi hj]
  generalize mem (C +ₚ (i * (nl * L) + j)) = c
  unfold dotFrom
  induction range k generalizing c with
  | nil => simp
  | cons q qs ih =>
    rw [foldl_cons, ih, map_cons, sum_cons]
    simp only [exact]
    ring

example := C26_exact (R := Int) 4 8 3 0 (by decide) ⟨.Ap, 0⟩ ⟨.Bp, 3⟩ ⟨.Cp, 96⟩
  (fun _ => by simp) (fun _ => by simp) (fun _ => by simp) 6 (fun l => l.idx) 7 11 (by decide) (by decide)

/-! ### C27 -/

/-- The number of `range(lo, hi, step)` values before `v`. -/
theorem cfor_get {lo hi step v : Nat} (hs : 0 < step) (hv : v ∈ cfor lo hi step) :
    v / step - lo / step < (cfor lo hi step).length ∧ lo / step ≤ v / step ∧
      (cfor lo hi step)[v / step - lo / step]? = some v := by
  rw [cfor_eq lo hi step hs] at *
  obtain ⟨t, ht, rfl⟩ := mem_map.1 hv
  have e : (lo + t * step) / step = lo / step + t := by
    rw [Nat.add_mul_div_right _ _ hs]
  rw [e, Nat.add_sub_cancel_left]
  have ht' := mem_range.1 ht
  refine ⟨by simpa using ht', Nat.le_add_right _ _, ?_⟩
  rw [getElem?_map, getElem?_range ht']
  rfl

/-- For every architecture description with positive steps, and every tile size the generator emits,
the table lookup is in bounds and yields the kernel generated for that size. -/
theorem C27_dispatch (a : Arch) (hm : 0 < a.fact_m) (hn : 0 < a.fact_n) (m_lim n_lim m_r n_r : Nat)
    (hmr : m_r ∈ cfor a.sm (m_lim + 1) a.fact_m) (hnr : n_r ∈ cfor a.sn (n_lim + 1) a.fact_n) :
    a.dispatch m_lim n_lim m_r n_r = some ⟨a.L, m_r, n_r / a.L⟩ := by
  obtain ⟨_, h2, h3⟩ := cfor_get hm hmr
  obtain ⟨_, h5, h6⟩ := cfor_get hn hnr
  have e1 : a.m_map m_r = ((m_r / a.fact_m - a.sm / a.fact_m : Nat) : Int) := by
    unfold Arch.m_map; omega
  have e2 : a.n_map n_r = ((n_r / a.fact_n - a.sn / a.fact_n : Nat) : Int) := by
    unfold Arch.n_map; omega
  unfold Arch.dispatch idx?
  rw [e1, e2, if_neg (by omega), Int.toNat_natCast]
  unfold Arch.kernel_map Arch.mrs Arch.nrs
  rw [getElem?_map, h3]
  simp only [Option.map_some, Option.bind_some]
  rw [if_neg (by omega), Int.toNat_natCast, getElem?_map, h6]
  rfl

example : archHaswell.dispatch 20 96 14 64 = some ⟨8, 14, 8⟩ :=
  C27_dispatch archHaswell (by decide) (by decide) 20 96 14 64 (by decide) (by decide)

/-- On both architectures the selected kernel fits the register tile: it has `m_r` rows and `n_r`
columns in whole vectors. -/
theorem C27_fits (a : Arch) (ha : a = archHaswell ∨ a = archArmv8) (m_lim n_lim m_r n_r : Nat)
    (hmr : m_r ∈ cfor a.sm (m_lim + 1) a.fact_m) (hnr : n_r ∈ cfor a.sn (n_lim + 1) a.fact_n) :
    ∃ kd, a.dispatch m_lim n_lim m_r n_r = some kd ∧ kd.m = m_r ∧ kd.nl * kd.L = n_r ∧ 0 < kd.L := by
  have pos : 0 < a.fact_m ∧ 0 < a.fact_n ∧ 0 < a.L ∧ a.L ∣ a.sn ∧ a.L ∣ a.fact_n := by
    rcases ha with rfl | rfl <;> decide
  obtain ⟨p1, p2, p3, p4, p5⟩ := pos
  refine ⟨_, C27_dispatch a p1 p2 m_lim n_lim m_r n_r hmr hnr, rfl, ?_, p3⟩
  rw [cfor_eq _ _ _ p2] at hnr
  obtain ⟨t, _, rfl⟩ := mem_map.1 hnr
  exact Nat.div_mul_cancel (Nat.dvd_add p4 (p5.mul_left _))

example := C27_fits archArmv8 (Or.inr rfl) 20 60 10 36 (by decide) (by decide)

/-- The default context selects the smallest kernel, which the generator always emits as long as its
limits admit it. -/
theorem C27_query (a : Arch) (ha : a = archHaswell ∨ a = archArmv8) (m_lim n_lim : Nat) (kfix : KDim)
    (hm : a.sm ≤ m_lim) (hn : a.sn ≤ n_lim) :
    ∃ cx, a.query_cntx m_lim n_lim kfix = some cx ∧ cx.m_r = a.sm ∧ cx.n_r = a.sn ∧
      cx.kmap.Fits cx.m_r cx.n_r := by
  have pos : 0 < a.fact_m ∧ 0 < a.fact_n := by
    rcases ha with rfl | rfl <;> decide
  have h1 : ∀ lo hi st, 0 < st → lo ≤ hi → lo ∈ cfor lo (hi + 1) st := by
    intro lo hi st hs h
    rw [cfor_eq _ _ _ hs]
    refine mem_map.2 ⟨0, mem_range.2 ?_, by simp⟩
    exact cdiv_pos (by omega) hs
  obtain ⟨kd, e, h2, h3, h4⟩ := C27_fits a ha m_lim n_lim a.sm a.sn (h1 _ _ _ pos.1 hm) (h1 _ _ _ pos.2 hn)
  refine ⟨⟨a.sm, a.sn, kd, kfix⟩, ?_, rfl, rfl, ⟨h4, h2, h3⟩⟩
  simp only [Arch.query_cntx, Arch.update_mr_nr, e, Option.map_some]

example := C27_query archHaswell (Or.inl rfl) 20 96 ⟨8, 6, 2⟩ (by decide) (by decide)

/-! ### C29 -/

/-- In every product call, for every schedule: packed B is only read by vector loads, one element per
lane, and lane number and element number agree modulo the vector length. So if the buffer starts at an
address `base` divisible by 64, as returned by the aligned allocation, every vector load (lane 0) of
`L` 4-byte elements is from an address divisible by `4*L`. The tile width is a multiple of the register tile, or wider than
the matrix. -/
theorem C29_aligned {β : Type _} (nz : β → Bool) (cx : Cntx) (M N K p : Nat) (packedA packedB : Bool)
    (alpha beta : β) (m_c k_c n_c : Nat) (sch : Sched) (hL : kernL cx sch ∣ 16)
    (hn : kernL cx sch ∣ cx.n_r) (hc : cx.n_r ∣ n_c ∨ N < n_c) (prog : Prog)
    (hp : cake_sgemm nz cx ⟨.A, 0⟩ ⟨.B, 0⟩ ⟨.C, 0⟩ M N K p packedA packedB alpha beta m_c k_c n_c sch =
      some prog)
    (ph : List (List Op)) (hph : Item.par ph ∈ prog) (task : List Op) (ht : task ∈ ph) (o : Op)
    (ho : o ∈ task) (x : Nat) (hx : ⟨.Bp, x⟩ ∈ o.reads) :
    ∃ t y, o = .copy ⟨.reg t, y⟩ ⟨.Bp, x⟩ ∧ x % kernL cx sch = y % kernL cx sch ∧
      ∀ base, 64 ∣ base → y % kernL cx sch = 0 → 4 * kernL cx sch ∣ base + 4 * x := by
  suffices H : ProgLane (kernL cx sch) .Bp prog by
    obtain ⟨t, y, e, h⟩ := H ph hph task ht o ho x hx
    refine ⟨t, y, e, h, fun base hb hy => Nat.dvd_add ?_ ?_⟩
    · exact (Nat.mul_dvd_mul_left 4 hL).trans hb
    · exact Nat.mul_dvd_mul_left 4 (Nat.dvd_of_mod_eq_zero (h.trans hy))
  exact sgemm_lane nz cx M N K p packedA packedB alpha beta m_c k_c n_c sch hn hc (Or.inl rfl) prog hp

/-- The hypotheses are met by both shipped contexts, for every schedule. -/
example (sch : Sched) : kernL haswell sch ∣ 16 ∧ kernL haswell sch ∣ haswell.n_r ∧ haswell.n_r ∣ 64 ∧
    kernL armv8 sch ∣ 16 ∧ kernL armv8 sch ∣ armv8.n_r ∧ armv8.n_r ∣ 48 := by
  cases sch <;> decide

/-- And there are such loads: the second vector of row 1 of packed B in a 2 x 20 x 3 product. -/
example : ((cake_sgemm (fun b : Int => b != 0) haswell ⟨.A, 0⟩ ⟨.B, 0⟩ ⟨.C, 0⟩ 2 20 3 2 false false 1 0
    12 5 32 .KMN).any fun prog => prog.any fun i => match i with
      | .par ph => ph.any fun task => task.any fun o => o == .copy ⟨.reg 0, 104⟩ ⟨.Bp, 24⟩
      | _ => false) = true := by
  decide +kernel

end Cake
