/-
Property C29 for the other products: the online product, the products on a grid of cores, and B packed by the caller.
-/
import Verif.Proofs.AlignMore
import Verif.Props.TwoDSmall
import Verif.Props.Kernel
import Verif.Props.Sparse

namespace Cake
open List

/-- In all parallel loops of `prog`, the elements of buffer `b` are only read by vector loads of `L` floats; and if the buffer
starts at an address divisible by 64, as one from the aligned allocation does, each of these loads (lane 0) is from an address
divisible by its size. -/
def AlignedLoads (L : Nat) (b : Buf) (prog : Prog) : Prop :=
  ∀ ph, Item.par ph ∈ prog → ∀ task ∈ ph, ∀ o ∈ task, ∀ x, ⟨b, x⟩ ∈ o.reads →
    ∃ t y, o = .copy ⟨.reg t, y⟩ ⟨b, x⟩ ∧ x % L = y % L ∧ ∀ base, 64 ∣ base → y % L = 0 → 4 * L ∣ base + 4 * x

theorem ProgLane.aligned {L : Nat} {b : Buf} {prog : Prog} (h : ProgLane L b prog) (hL : L ∣ 16) : AlignedLoads L b prog := by
  intro ph hph task ht o ho x hx
  obtain ⟨t, y, e, h⟩ := h ph hph task ht o ho x hx
  refine ⟨t, y, e, h, fun base hb hy => Nat.dvd_add ?_ ?_⟩
  · exact (Nat.mul_dvd_mul_left 4 hL).trans hb
  · exact Nat.mul_dvd_mul_left 4 (Nat.dvd_of_mod_eq_zero (h.trans hy))

section
variable {β : Type _} (cx : Cntx) (M N K p : Nat) (packedA packedB : Bool) (alpha beta : β)

/-- **C29, online product**: for all sizes, numbers of cores and tile sizes, also tile widths that are no multiple of the
register tile. -/
theorem C29_online (m_c k_c n_c : Nat) (hL : cx.kmap.L ∣ 16) (hn : cx.kmap.L ∣ cx.n_r) (prog : Prog)
    (hp : callO cx M N K p packedA packedB alpha beta m_c k_c n_c = some prog) : AlignedLoads cx.kmap.L .Bp prog :=
  (online_lane cx M N K p packedA packedB alpha beta m_c k_c n_c hn prog hp).aligned hL

example : ∃ prog, callO haswell 43 37 11 3 false false 1 (0 : Int) 12 5 32 = some prog ∧ AlignedLoads 8 .Bp prog :=
  ⟨_, rfl, C29_online haswell 43 37 11 3 false false 1 (0 : Int) 12 5 32 (by decide) (by decide) _ rfl⟩

/-- **C29, product on a grid of cores**: for all sizes, grids and tile sizes. -/
theorem C29_2d (pn m_c k_c : Nat) (hr : 0 < cx.n_r) (hL : cx.kfix.L ∣ 16) (hn : cx.kfix.L ∣ cx.n_r) (prog : Prog)
    (hp : call2 cx M N K p packedA packedB alpha beta pn m_c k_c = some prog) : AlignedLoads cx.kfix.L .Bp prog := by
  unfold call2 cake_sgemm_2d at hp
  rcases hx : init_block_dims_2d M N K p cx.m_r cx.n_r pn m_c k_c with _ | x
  · rw [hx] at hp; cases hp
  · rw [hx, Option.bind_eq_bind, Option.bind_some, Option.some.injEq] at hp
    subst hp
    obtain ⟨h1, h2⟩ := widths2d hr hx
    exact (body2_lane cx M N K p hn h1 h2).aligned hL

example : ∃ prog, call2 haswell 79 169 11 6 false false 1 (0 : Int) 2 12 5 = some prog ∧ AlignedLoads 8 .Bp prog :=
  ⟨_, rfl, C29_2d haswell 79 169 11 6 false false 1 (0 : Int) 2 12 5 (by decide) (by decide) (by decide) _ rfl⟩

/-- **C29, product of small matrices on a grid of cores**: for all sizes, grids and bounds on the depth. -/
theorem C29_small (pn kc_max : Nat) (hr : 0 < cx.n_r) (hL : cx.kfix.L ∣ 16) (hn : cx.kfix.L ∣ cx.n_r) (prog : Prog)
    (hp : callS cx M N K p packedA packedB alpha beta pn kc_max = some prog) : AlignedLoads cx.kfix.L .Bp prog :=
  (small_lane cx M N K p packedA packedB alpha beta pn kc_max hr hn prog hp).aligned hL

example : ∃ prog, callS haswell 36 80 11 10 false false 1 (0 : Int) 5 5 = some prog ∧ AlignedLoads 8 .Bp prog :=
  ⟨_, rfl, C29_small haswell 36 80 11 10 false false 1 (0 : Int) 5 5 (by decide) (by decide) (by decide) _ rfl⟩

/-- All vector loads (lane 0) from buffer `b`, if this starts at address `base`, are from multiples of their size. -/
def LoadsFrom (L : Nat) (b : Buf) (base : Nat) (prog : Prog) : Prop :=
  ∀ ph, Item.par ph ∈ prog → ∀ task ∈ ph, ∀ t y x, Op.copy ⟨.reg t, y⟩ ⟨b, x⟩ ∈ task → y % L = 0 → 4 * L ∣ base + 4 * x

/-- **C29, B packed by the caller**: the aligned loads are from the caller's buffer, so the pointer passed must itself be
aligned to the vector size; exactly then all loads are aligned. For every schedule and non-empty product. -/
theorem C29_prepacked_iff (nz : β → Bool) {m_c k_c n_c : Nat} (sch : Sched) (h : TileOK p cx.m_r cx.n_r m_c k_c n_c)
    (hk : cx.kmap.Fits cx.m_r cx.n_r) (hf : cx.kfix.Fits cx.m_r cx.n_r) (hM : 0 < M) (hN : 0 < N) (hK : 0 < K) (prog : Prog)
    (hp : cake_sgemm nz cx ⟨.A, 0⟩ ⟨.B, 0⟩ ⟨.C, 0⟩ M N K p packedA true alpha beta m_c k_c n_c sch = some prog) (base : Nat) :
    LoadsFrom (kernL cx sch) .B base prog ↔ 4 * kernL cx sch ∣ base := by
  have hn : kernL cx sch ∣ cx.n_r := by
    unfold kernL
    split
    · exact ⟨_, by rw [Nat.mul_comm]; exact hk.n_eq.symm⟩
    · exact ⟨_, by rw [Nat.mul_comm]; exact hf.n_eq.symm⟩
  have lane := sgemm_lane nz cx M N K p packedA true alpha beta m_c k_c n_c sch hn (Or.inl h.n_dvd) (Or.inr ⟨rfl, rfl⟩) prog hp
  have dvd : ∀ ph, Item.par ph ∈ prog → ∀ task ∈ ph, ∀ t y x, Op.copy ⟨.reg t, y⟩ ⟨.B, x⟩ ∈ task → y % kernL cx sch = 0 →
      4 * kernL cx sch ∣ 4 * x := by
    intro ph hph task ht t y x ho hy
    obtain ⟨t', y', e, h'⟩ := lane ph hph task ht _ ho x (by simp [Op.reads])
    simp only [Op.copy.injEq, Loc.mk.injEq, and_true] at e
    obtain ⟨_, rfl⟩ := e
    exact Nat.mul_dvd_mul_left 4 (Nat.dvd_of_mod_eq_zero (h'.trans hy))
  constructor
  · intro hl
    obtain ⟨ph, hph, task, ht, t, y, x, hy, ho⟩ := sgemm_loads nz cx packedA alpha beta sch h hk hf hM hN hK prog hp
    exact (Nat.dvd_add_left (dvd ph hph task ht t y x ho hy)).1 (hl ph hph task ht t y x ho hy)
  · intro hb ph hph task ht t y x ho hy
    exact Nat.dvd_add hb (dvd ph hph task ht t y x ho hy)

/-- With a 16-byte aligned but not 32-byte aligned pointer, as `malloc` may return, there are misaligned loads in every
schedule of the AVX2 build. -/
example (sch : Sched) (prog : Prog)
    (hp : cake_sgemm (fun b : Int => b != 0) haswell ⟨.A, 0⟩ ⟨.B, 0⟩ ⟨.C, 0⟩ 43 37 11 3 false true 1 0 12 5 32 sch = some prog) :
    LoadsFrom (kernL haswell sch) .B 4096 prog ∧ ¬ LoadsFrom (kernL haswell sch) .B 4112 prog := by
  have H := C29_prepacked_iff haswell 43 37 11 3 false (1 : Int) 0 (fun b => b != 0) sch (m_c := 12) (k_c := 5) (n_c := 32)
    demo_tile haswell_fits haswell_fits_fix (by decide) (by decide) (by decide) prog hp
  rw [H, H]
  cases sch <;> decide

end

/-- **C29, sparse kernels**: with a panel of B that starts at a multiple of the vector length and a row width that is one, each
vector load (lane 0) of the AVX2 and ARM kernels is from a multiple of its size, whatever the index arrays contain. `w` is the
vector length. -/
theorem C29_sparse (w m nl s t : Nat) (A C : Loc) (b : Buf) (i0 : Nat) (hA : A.buf ≠ b) (hC : C.buf ≠ b) (hb : ∀ t, b ≠ .reg t)
    (n k : Nat) (nnz kinds locs : List Nat) (hw : w ∣ 16) (hi : w ∣ i0) (hn : w ∣ n) (ops : List Op)
    (h : spKernel w m nl s t A ⟨b, i0⟩ C n k nnz kinds locs = some ops) (o : Op) (ho : o ∈ ops) (x : Nat)
    (hx : ⟨b, x⟩ ∈ o.reads) :
    ∃ t y, o = .copy ⟨.reg t, y⟩ ⟨b, x⟩ ∧ x % w = y % w ∧ ∀ base, 64 ∣ base → y % w = 0 → 4 * w ∣ base + 4 * x := by
  obtain ⟨t, y, e, h⟩ := spKernel_lane hA hC hb (fun _ => hi) hn h o ho x hx
  refine ⟨t, y, e, h, fun base hb hy => Nat.dvd_add ?_ ?_⟩
  · exact (Nat.mul_dvd_mul_left 4 hw).trans hb
  · exact Nat.mul_dvd_mul_left 4 (Nat.dvd_of_mod_eq_zero (h.trans hy))

example := C29_sparse 8 6 2 2 0 ⟨.Ap, 5⟩ ⟨.Cp, 96⟩ .Bp 32 (by simp) (by simp) (by simp) 16 6 (spDemo.map (·.2.length))
  (spDemo.map (·.1)) (spDemo.flatMap (·.2)) (by decide) (by decide) (by decide) _ rfl

/-- The sparse kernels of the library are such calls. -/
example (t : Nat) (A B C : Loc) (m n k : Nat) (nnz kinds locs : List Nat) :
    cake_sp_sgemm_haswell_6x16 t A B C m n k nnz kinds locs = spKernel 8 6 2 2 t A B C n k nnz kinds locs ∧
    cake_sp_sgemm_armv8_8x12 t A B C m n k nnz kinds locs = spKernel 4 8 3 3 t A B C n k nnz kinds locs := ⟨rfl, rfl⟩

end Cake
