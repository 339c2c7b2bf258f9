/-
C63: 32-bit `int` arithmetic of `cake_sgemm_2d_small`.
-/
import Verif.Proofs.IntRangeSmall
import Verif.Props.TwoDSmall
import Verif.Props.IntRangeOn

namespace Cake
open List

/-! ### The expressions of `Verif.Model.IntRangeSmall` are the ones the model computes with -/

theorem C63_link_initS (M N K p m_r n_r pn kc_max : Nat) :
    init_block_dims_2d_small M N K p m_r n_r pn kc_max =
    if pn = 0 then none else
    let pm := ((p : E) / pn).val
    let M_padded := (roundUpE M m_r).val
    let N_padded := (roundUpE N n_r).val
    if pm = 0 then none else
    let m_c := (tileSE ((M_padded : E) / pm).val m_r).val
    let n_c := (tileSE ((N_padded : E) / pn).val n_r).val
    let k_c := if m_c > kc_max then kc_max else m_c
    if k_c = 0 then none else
    let k_pad := ((K : E) % k_c).val != 0
    some
    { m_c := m_c, k_c := k_c, n_c := n_c
      m_c1 := ((M_padded : E) - ((pm : E) - 1) * m_c).val
      n_c1 := ((N_padded : E) - ((pn : E) - 1) * n_c).val
      k_c1 := ((K : E) % k_c).val
      k_pad := k_pad, n_pad := ((N : E) % n_c).val != 0, m_pad := ((M : E) % m_c).val != 0
      Kb := ((K : E) / k_c + k_pad.toNat).val
      M_padded := M_padded, N_padded := N_padded
      pm := pm, pn := pn, sch := .KMN } := by
  simp only [roundUpE_val]
  rfl

theorem C63_link_small (kd : KDim) (A B C : Loc) (M N K p m_r n_r : Nat) (x : BlkDims2) :
    schedule_KMN_2d_small kd A B C M N K p m_r n_r x =
    ((cfor 0 x.Kb 1).flatMap fun (k : Nat) =>
      let k_c_t := if k == x.Kb - 1 && x.k_pad then x.k_c1 else x.k_c
      let packB := (cfor 0 x.N_padded n_r).map fun (n2 : Nat) =>
        B_packing_kernel n_r k_c_t (B +ₚ ((k : E) * x.k_c * N + n2).val) N (⟨.Bp, 0⟩ +ₚ ((n2 : E) * k_c_t).val)
      let packA := (cfor 0 x.M_padded m_r).map fun (m3 : Nat) =>
        A_packing_kernel m_r k_c_t (A +ₚ ((k : E) * x.k_c + (m3 : E) * K).val) K (⟨.Ap, 0⟩ +ₚ ((m3 : E) * k_c_t).val)
      let compute := (range p).map fun (core : Nat) =>
        let n_c_t := if core % x.pn == x.pn - 1 && x.n_pad then x.n_c1 else x.n_c
        let m_c_t := if core / x.pn == x.pm - 1 && x.m_pad then x.m_c1 else x.m_c
        regTiles kd core (⟨.Ap, 0⟩ +ₚ ((core : E) / x.pn * x.m_c * k_c_t).val)
          (⟨.Bp, 0⟩ +ₚ ((core : E) % x.pn * x.n_c * k_c_t).val) ⟨.CpC core, 0⟩ m_r n_r m_c_t n_c_t k_c_t
      [packB, packA, compute]) ++
    [(range p).map fun (core : Nat) =>
      let m_c_t := if core / x.pn == x.pm - 1 && x.m_pad then x.m_c1 else x.m_c
      let n_c_t := if core % x.pn == x.pn - 1 && x.n_pad then x.n_c1 else x.n_c
      unpack_ob_C_single_buf (C +ₚ ((core : E) / x.pn * x.m_c * N + (core : E) % x.pn * x.n_c).val) ⟨.CpC core, 0⟩
        M N 0 ((core : E) % x.pn * x.n_c).val ((core : E) / x.pn * x.m_c).val m_c_t n_c_t m_r n_r ++
      memset0 ⟨.CpC core, 0⟩ ((x.m_c : E) * x.n_c).val] := rfl

/-! ### `cake_sgemm_2d_small` -/

/-- C63 for `cake_sgemm_2d_small`, on a grid that fits (on the others no call ends normally, `C11_small_iff`): for
operands whose own sizes fit an `int`, exactly when no `int` expression of a call overflows (nor a negative difference
or a division by zero is evaluated): when the padded dimensions, the three buffers and the index in C of the first
element of the last core fit. -/
theorem C63_small_iff {M N K p m_r n_r pn kc_max : Nat} (hm : 0 < m_r) (hn : 0 < n_r) (hpn : 0 < pn) (hp : pn ≤ p)
    (hkm : 0 < kc_max) (hpi : p < 2 ^ 31) (hg : GridFits M N p m_r n_r pn)
    (hMK : M * K < 2 ^ 31) (hKN : K * N < 2 ^ 31) (hMN : M * N < 2 ^ 31) :
    let Mp := cdiv M m_r * m_r
    let Np := cdiv N n_r * n_r
    let m_c := (Mp / (p / pn) / m_r + 1) * m_r
    let n_c := (Np / pn / n_r + 1) * n_r
    (∀ e ∈ smallInts M N K p m_r n_r pn kc_max, e.Fits) ↔
      Mp < 2 ^ 31 ∧ Np < 2 ^ 31 ∧ m_r + n_r < 2 ^ 31 ∧ m_r * n_r < 2 ^ 31 ∧
      Mp * min m_c kc_max < 2 ^ 31 ∧ min m_c kc_max * Np < 2 ^ 31 ∧ m_c * n_c < 2 ^ 31 ∧
      (p / pn - 1) * m_c * N + (pn - 1) * n_c < 2 ^ 31 := by
  intro Mp Np m_c n_c
  have hq : 0 < p / pn := Nat.div_pos hp hpn
  obtain ⟨hpd, fm, fn⟩ := hg
  rw [← roundUpC_eq hm] at fm
  rw [← roundUpC_eq hn] at fn
  have eM : Mp = roundUpC M m_r := (roundUpC_cdiv hm).symm
  have eN : Np = roundUpC N n_r := (roundUpC_cdiv hn).symm
  have tile : ∀ {T q r : Nat}, 0 < r → (T / q / r + 1) * r = smallTile T q r := by
    intro T q r hr
    have h1 := Nat.div_add_mod (T / q) r
    have h2 := Nat.mod_lt (T / q) hr
    unfold smallTile
    rw [Nat.add_mul, Nat.one_mul, Nat.mul_comm (T / q / r)]
    omega
  have em : m_c = smallTile (roundUpC M m_r) (p / pn) m_r := by rw [← eM]; exact tile hm
  have en : n_c = smallTile (roundUpC N n_r) pn n_r := by rw [← eN]; exact tile hn
  clear_value Mp Np m_c n_c
  subst eM eN em en
  have hM0 : 0 < M := by
    rcases Nat.eq_zero_or_pos M with e | e
    · exact absurd (by rw [e, Nat.zero_mod]) fm.1
    · exact e
  have tm0 : 0 < smallTile (roundUpC M m_r) (p / pn) m_r := Nat.lt_of_le_of_lt (Nat.zero_le _) (smallTile_gt hm)
  constructor
  · intro hf
    obtain ⟨x, hx, e1, e2, e3, e4, e5, e6, e7, e8, e9, e10, e11, e12, e13, e14⟩ :=
      init_small_eq (M := M) (N := N) (K := K) (k_c := min (smallTile (roundUpC M m_r) (p / pn) m_r) kc_max)
        (kc_max := kc_max) (n_r := n_r) (m_r := m_r) hpn hq (by split <;> omega) (by omega)
    unfold smallInts at hf
    rw [hx] at hf
    have hf' := fun e he => hf e (mem_append_left _ he)
    have s := fun e he => hf' e (mem_append_right _ he)
    have d := fun e he => hf' e (mem_append_left _ he)
    have c := fun e he => hf e (mem_append_right _ (mem_append_right _ he))
    rw [e11, e12, e3, e1, e2] at s
    have s1 := (s _ (.head _)).lt
    have s2 := (s _ (.tail _ (.head _))).lt
    have s3 := (s _ (.tail _ (.tail _ (.head _)))).lt
    unfold dimsSInts at d
    have d1 := (d (roundUpE M m_r) (by simp)).lt
    have d2 := (d (roundUpE N n_r) (by simp)).lt
    have d3 := (d ((m_r : E) + n_r) (by simp)).lt
    have d4 := (d ((m_r : E) * n_r) (by simp)).lt
    rw [roundUpE_val] at d1 d2
    have c1 := (c _ (mem_flatMap.2 ⟨p - 1, mem_range.2 (by omega), .head _⟩)).lt
    obtain ⟨t, rfl⟩ := hpd
    rw [Nat.mul_div_cancel_left _ hpn] at *
    have e0 : pn * (t - 1) + pn = pn * t := by
      rw [← Nat.mul_succ]; congr 1; omega
    have a1 : (pn * t - 1) / pn = t - 1 := by
      rw [show pn * t - 1 = (t - 1) * pn + (pn - 1) by rw [Nat.mul_comm (t - 1)]; omega]
      exact mulAdd_div (by omega)
    have a2 : (pn * t - 1) % pn = pn - 1 := by
      have h1 := Nat.div_add_mod (pn * t - 1) pn
      rw [a1] at h1
      omega
    have c2 : ((pn * t - 1 : Nat) / x.pn * x.m_c * N + (pn * t - 1) % x.pn * x.n_c) < 2 ^ 31 := c1
    rw [e14, a1, a2, e1, e2] at c2
    exact ⟨d1, d2, d3, d4, s1, s2, s3, c2⟩
  · rintro ⟨h1, h2, h3, h4, h5, h6, h7, h8⟩
    exact smallInts_fits hm hn hpn hp hkm rfl ⟨h1, h2, h3, h4, h5, h6, h7, h8⟩ hpi
      (Nat.lt_of_le_of_lt (Nat.le_mul_of_pos_left _ hM0) hMK) hMK hKN hMN hpd fm fn

/-- The conditions hold for a 40 x 11 times 11 x 50 product on a grid of 2 x 2 cores with the Haswell register tile. -/
example : ∀ e ∈ smallInts 40 50 11 4 6 16 2 360, e.Fits :=
  (C63_small_iff (by decide) (by decide) (by decide) (by decide) (by decide) (by decide) demo_gridFits (by decide)
    (by decide) (by decide)).2
    ⟨by decide, by decide, by decide, by decide, by decide, by decide, by decide, by decide⟩

/-- C63 is false for this product too, although its tiles follow from the operands: they are rounded up past them. One
core, 46338 x 1 times 1 x 46336: the operands fit an `int` and need no padding, the private block of C does not. -/
theorem C63_small_refuted :
    ¬ ∀ M N K p m_r n_r pn kc_max : Nat, 0 < m_r → 0 < n_r → 0 < pn → pn ≤ p → 0 < kc_max → p < 2 ^ 31 →
      GridFits M N p m_r n_r pn → cdiv M m_r * m_r * K < 2 ^ 31 → K * (cdiv N n_r * n_r) < 2 ^ 31 →
      cdiv M m_r * m_r * (cdiv N n_r * n_r) < 2 ^ 31 →
      ∀ e ∈ smallInts M N K p m_r n_r pn kc_max, e.Fits := by
  intro hall
  have hg : GridFits 46338 46336 1 6 16 1 := ⟨by decide, ⟨by decide, by decide⟩, ⟨by decide, by decide⟩⟩
  have hf := hall 46338 46336 1 1 6 16 1 360 (by decide) (by decide) (by decide) (by decide) (by decide) (by decide) hg
    (by decide) (by decide) (by decide)
  have := (C63_small_iff (by decide) (by decide) (by decide) (by decide) (by decide) (by decide) hg
    (by decide) (by decide) (by decide)).1 hf
  exact absurd this.2.2.2.2.2.2.1 (by decide)

end Cake
