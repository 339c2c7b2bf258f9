/-
`init_block_dims_2d` and `init_block_dims_2d_small`: when they give usable tile sizes.
-/
import Verif.Model.TwoD
import Verif.Proofs.Dims
import Verif.Proofs.Readable

namespace Cake

theorem roundUpC_dvd {x r : Nat} (hr : 0 < r) : r ∣ roundUpC x r := by
  unfold roundUpC
  have h1 := Nat.div_add_mod x r
  have h2 := Nat.mod_lt x hr
  split
  · refine ⟨x / r + 1, ?_⟩
    rw [Nat.mul_add, Nat.mul_one]
    omega
  · exact Nat.dvd_of_mod_eq_zero (by omega)

theorem roundUpC_ge (x r : Nat) : x ≤ roundUpC x r := by
  unfold roundUpC; split <;> omega

theorem roundUpC_eq {x r : Nat} (hr : 0 < r) : roundUpC x r = roundUp x r := by
  unfold roundUpC roundUp
  have h1 := Nat.div_add_mod x r
  have h2 := Nat.mod_lt x hr
  split
  · have : (x + r - 1) / r = x / r + 1 := by
      rw [show x + r - 1 = (x % r + r - 1) + r * (x / r) by omega, Nat.add_mul_div_left _ _ hr]
      rw [show x % r + r - 1 = (x % r - 1) + r by omega, Nat.add_div_right _ hr,
        Nat.div_eq_of_lt (by omega)]
      omega
    rw [this, Nat.add_mul, Nat.mul_comm]
    omega
  · have : (x + r - 1) / r = x / r := by
      rw [show x + r - 1 = (r - 1) + r * (x / r) by omega, Nat.add_mul_div_left _ _ hr,
        Nat.div_eq_of_lt (by omega)]
      omega
    rw [this, Nat.mul_comm]
    omega

/-- Shrinking leaves at least one core, no more than there were, and a tile that is a positive multiple of the
register tile. -/
theorem fit2d_ok {padded pm m_c mr : Nat} (hpm : 0 < pm) (hmr : 0 < mr) (hd : mr ∣ m_c) (hmc : 0 < m_c)
    (hp : 0 < padded) (hpd : mr ∣ padded) :
    0 < (fit2d padded pm m_c mr).1 ∧ (fit2d padded pm m_c mr).1 ≤ pm ∧
    0 < (fit2d padded pm m_c mr).2 ∧ mr ∣ (fit2d padded pm m_c mr).2 := by
  unfold fit2d
  split
  · exact ⟨Nat.one_pos, hpm, hmr, Nat.dvd_refl _⟩
  · split
    · dsimp only
      split
      · rename_i h1 _ h
        have h2 : padded < mr * pm := (Nat.div_lt_iff_lt_mul hpm).1 h
        refine ⟨Nat.div_pos (Nat.le_of_dvd hp hpd) hmr, Nat.le_of_lt (Nat.div_lt_of_lt_mul h2), hmr,
          Nat.dvd_refl _⟩
      · rename_i h
        exact ⟨hpm, Nat.le_refl _, Nat.lt_of_lt_of_le (by omega) (roundUpC_ge _ _), roundUpC_dvd hmr⟩
    · exact ⟨hpm, Nat.le_refl _, hmc, hd⟩

/-- The grid and the tile used by `cake_sgemm_2d`. -/
structure Grid2 where
  pm : Nat
  pn : Nat
  m_c : Nat
  n_c : Nat
  deriving DecidableEq

/-- Values of `pm`, `pn`, `m_c`, `n_c` after the adjustments of `src/block_sizing.cpp:686-722`. -/
def grid2 (M N p m_r n_r pn m_c : Nat) : Grid2 :=
  let f := fit2d (roundUpC M m_r) (p / pn) m_c m_r
  let g := fit2d (roundUpC N n_r) pn (roundUpC f.2 n_r) n_r
  ⟨f.1, g.1, f.2, g.2⟩

theorem init2d_eq {M N K p m_r n_r pn m_c k_c : Nat} (hpn : 0 < pn) :
    init_block_dims_2d M N K p m_r n_r pn m_c k_c =
      dims2d M N K m_r n_r (grid2 M N p m_r n_r pn m_c).pm (grid2 M N p m_r n_r pn m_c).pn
        (grid2 M N p m_r n_r pn m_c).m_c k_c (grid2 M N p m_r n_r pn m_c).n_c := by
  unfold init_block_dims_2d
  rw [if_neg (by omega)]
  rfl

theorem dims2d_some {M N K m_r n_r pm pn m_c k_c n_c : Nat} (h : TileOK pm m_r n_r m_c k_c n_c) (hpn : 0 < pn) :
    ∃ x, dims2d M N K m_r n_r pm pn m_c k_c n_c = some x := by
  have h1 := h.S_pos
  have h2 : 0 < pn * n_c := Nat.mul_pos hpn h.n_c_pos
  have h3 := h.k_c_pos
  unfold dims2d
  rw [if_neg (by omega)]
  exact ⟨_, rfl⟩

/-- A call of `cake_sgemm_2d` whose parameters make sense: non-empty C, a grid that fits the cores, a row tile
that is a multiple of the register tile. -/
structure Fit2 (M N p m_r n_r pn m_c k_c : Nat) : Prop where
  M_pos : 0 < M
  N_pos : 0 < N
  m_r_pos : 0 < m_r
  n_r_pos : 0 < n_r
  pn_pos : 0 < pn
  pn_le : pn ≤ p
  m_c_pos : 0 < m_c
  k_c_pos : 0 < k_c
  m_dvd : m_r ∣ m_c

theorem Fit2.grid {M N p m_r n_r pn m_c k_c : Nat} (h : Fit2 M N p m_r n_r pn m_c k_c) :
    TileOK (grid2 M N p m_r n_r pn m_c).pm m_r n_r (grid2 M N p m_r n_r pn m_c).m_c k_c
      (grid2 M N p m_r n_r pn m_c).n_c ∧
    TileOK (grid2 M N p m_r n_r pn m_c).pn n_r m_r (grid2 M N p m_r n_r pn m_c).n_c k_c
      (grid2 M N p m_r n_r pn m_c).m_c ∧
    (grid2 M N p m_r n_r pn m_c).pm * (grid2 M N p m_r n_r pn m_c).pn ≤ p := by
  have f := fit2d_ok (pm := p / pn) (Nat.div_pos h.pn_le h.pn_pos) h.m_r_pos h.m_dvd h.m_c_pos
    (Nat.lt_of_lt_of_le h.M_pos (roundUpC_ge M m_r)) (roundUpC_dvd h.m_r_pos)
  have hn : 0 < roundUpC (fit2d (roundUpC M m_r) (p / pn) m_c m_r).2 n_r :=
    Nat.lt_of_lt_of_le f.2.2.1 (roundUpC_ge _ _)
  have g := fit2d_ok (pm := pn) h.pn_pos h.n_r_pos (roundUpC_dvd h.n_r_pos) hn
    (Nat.lt_of_lt_of_le h.N_pos (roundUpC_ge N n_r)) (roundUpC_dvd h.n_r_pos)
  refine ⟨⟨f.1, h.m_r_pos, h.n_r_pos, f.2.2.1, h.k_c_pos, g.2.2.1, f.2.2.2, g.2.2.2⟩,
    ⟨g.1, h.n_r_pos, h.m_r_pos, g.2.2.1, h.k_c_pos, f.2.2.1, g.2.2.2, f.2.2.2⟩, ?_⟩
  calc _ ≤ p / pn * pn := Nat.mul_le_mul f.2.1 g.2.1
    _ ≤ p := Nat.div_mul_le_self _ _

/-- With an empty C, `init_block_dims_2d` divides by zero, whatever the tile sizes. -/
theorem init2d_empty {M N K p m_r n_r pn m_c k_c : Nat} (hm : 0 < m_r) (hn : 0 < n_r) (hpn : 0 < pn)
    (hp : pn ≤ p) (h : M = 0 ∨ N = 0) : init_block_dims_2d M N K p m_r n_r pn m_c k_c = none := by
  have z : ∀ c s r, 0 < r → 0 < c → (fit2d (roundUpC 0 r) c s r).1 * (fit2d (roundUpC 0 r) c s r).2 = 0 := by
    intro c s r hr hc
    have e : roundUpC 0 r = 0 := by simp [roundUpC]
    have := Nat.mul_pos hc hr
    rw [e]
    unfold fit2d
    rw [if_neg (by omega)]
    split
    · simp [hr]
    · rename_i h; simp only; omega
  rw [init2d_eq hpn]
  unfold dims2d
  rw [if_pos]
  rcases h with rfl | rfl
  · exact Or.inl (z _ _ _ hm (Nat.div_pos hp hpn))
  · exact Or.inr (Or.inl (z _ _ _ hn hpn))

end Cake
