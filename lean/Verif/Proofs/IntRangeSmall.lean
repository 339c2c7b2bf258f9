/-
Bounds on the `int` expressions of `cake_sgemm_2d_small` (`Verif.Model.IntRangeSmall`).
-/
import Verif.Model.IntRangeSmall
import Verif.Proofs.IntRangeOn
import Verif.Proofs.TwoDSmall

namespace Cake
open List

theorem tileSE_val (T q r : Nat) : (tileSE (T / q) r).val = smallTile T q r := rfl

theorem tileSE_fits {T q r : Nat} (hr : 0 < r) (hri : r < 2 ^ 31) (h : smallTile T q r < 2 ^ 31) :
    (tileSE (T / q) r).Fits := by
  have h1 := smallTile_gt (T := T) (q := q) hr
  have h2 := Nat.mod_lt (T / q) hr
  have hT : T / q < 2 ^ 31 := by omega
  refine ⟨hT, ⟨hri, E.fits_mod hT hri hr, ?_⟩, h⟩
  show T / q % r ≤ r
  omega

/-- What has to fit in a call of `cake_sgemm_2d_small`, apart from the operands: the padded dimensions, the buffers and
the place in C of the last core. -/
structure IntS (M N p m_r n_r pn k_c : Nat) : Prop where
  Mp : roundUpC M m_r < 2 ^ 31
  Np : roundUpC N n_r < 2 ^ 31
  rr : m_r + n_r < 2 ^ 31
  rr' : m_r * n_r < 2 ^ 31
  Mk : roundUpC M m_r * k_c < 2 ^ 31
  kN : k_c * roundUpC N n_r < 2 ^ 31
  mn : smallTile (roundUpC M m_r) (p / pn) m_r * smallTile (roundUpC N n_r) pn n_r < 2 ^ 31
  off : (p / pn - 1) * smallTile (roundUpC M m_r) (p / pn) m_r * N + (pn - 1) * smallTile (roundUpC N n_r) pn n_r < 2 ^ 31

section
variable {M N K p pn m_r n_r k_c : Nat} (hm : 0 < m_r) (hn : 0 < n_r) (hpn : 0 < pn) (hp : pn ≤ p)
include hm hn hpn hp

theorem schedSInts_fits (z : IntS M N p m_r n_r pn k_c) (hpi : p < 2 ^ 31) (hkc : 0 < k_c) (hK : K < 2 ^ 31)
    (hMK : M * K < 2 ^ 31) (hKN : K * N < 2 ^ 31) (hMN : M * N < 2 ^ 31) (hpd : pn ∣ p)
    (fm : SmallFits (roundUpC M m_r) (p / pn) m_r M) (fn : SmallFits (roundUpC N n_r) pn n_r N) {x : BlkDims2}
    (e1 : x.m_c = smallTile (roundUpC M m_r) (p / pn) m_r) (e2 : x.n_c = smallTile (roundUpC N n_r) pn n_r)
    (e3 : x.k_c = k_c) (e4 : x.m_c1 = roundUpC M m_r - (p / pn - 1) * x.m_c)
    (e5 : x.n_c1 = roundUpC N n_r - (pn - 1) * x.n_c) (e6 : x.k_c1 = K % k_c)
    (e7 : x.k_pad = (K % k_c != 0)) (e8 : x.n_pad = (N % x.n_c != 0)) (e9 : x.m_pad = (M % x.m_c != 0))
    (e10 : x.Kb = cdiv K k_c) (e11 : x.M_padded = roundUpC M m_r) (e12 : x.N_padded = roundUpC N n_r)
    (e13 : x.pm = p / pn) (e14 : x.pn = pn) : AllFits (schedSInts M N K p m_r n_r x) := by
  have hq : 0 < p / pn := Nat.div_pos hp hpn
  have tm0 : 0 < smallTile (roundUpC M m_r) (p / pn) m_r := Nat.lt_of_le_of_lt (Nat.zero_le _) (smallTile_gt hm)
  have tn0 : 0 < smallTile (roundUpC N n_r) pn n_r := Nat.lt_of_le_of_lt (Nat.zero_le _) (smallTile_gt hn)
  have tmi : smallTile (roundUpC M m_r) (p / pn) m_r < 2 ^ 31 :=
    Nat.lt_of_le_of_lt (Nat.le_mul_of_pos_right _ tn0) z.mn
  have tni : smallTile (roundUpC N n_r) pn n_r < 2 ^ 31 :=
    Nat.lt_of_le_of_lt (Nat.le_mul_of_pos_left _ tm0) z.mn
  have hmri : m_r < 2 ^ 31 := by have := z.rr; omega
  have hnri : n_r < 2 ^ 31 := by have := z.rr; omega
  have hM0 : 0 < M := by
    rcases Nat.eq_zero_or_pos M with e | e
    · exact absurd (by rw [e, Nat.zero_mod]) fm.1
    · exact e
  have hN0 : 0 < N := by
    rcases Nat.eq_zero_or_pos N with e | e
    · exact absurd (by rw [e, Nat.zero_mod]) fn.1
    · exact e
  have hNi := Nat.lt_of_le_of_lt (roundUpC_ge N n_r) z.Np
  have hMr : roundUpC M m_r < M + m_r := by
    rw [roundUpC_cdiv hm]
    have := Nat.div_mul_le_self (M + m_r - 1) m_r
    unfold cdiv
    omega
  have hNr : roundUpC N n_r < N + n_r := by
    rw [roundUpC_cdiv hn]
    have := Nat.div_mul_le_self (N + n_r - 1) n_r
    unfold cdiv
    omega
  have hki : k_c < 2 ^ 31 := Nat.lt_of_le_of_lt
    (Nat.le_mul_of_pos_left _ (Nat.lt_of_lt_of_le hM0 (roundUpC_ge M m_r))) z.Mk
  have hpni : pn < 2 ^ 31 := by omega
  have hKb : cdiv K k_c ≤ K := cdiv_le_self' hkc
  have zMp := z.Mp
  have zNp := z.Np
  unfold schedSInts
  rw [e4, e5, e6, e7, e8, e9, e10, e11, e12, e13, e14, e3, e1, e2]
  have core_ok : ∀ core < p, core / pn < p / pn ∧ core % pn < pn := fun core hc =>
    ⟨by rw [Nat.div_lt_iff_lt_mul hpn, Nat.div_mul_cancel hpd]; exact hc, Nat.mod_lt _ hpn⟩
  refine .append (AllFits.flatMap fun k hk => ?_) (AllFits.flatMap fun core hcore => ?_)
  · rw [mem_range] at hk
    have hkk := chop_mul_lt hkc hk
    have hK0 : 0 < K := by omega
    have hKl := chopLen_pos hkc hk
    have hklc := chopLen_le K k_c k
    have hkt : chopLen K k_c k < 2 ^ 31 := by omega
    simp only [k_len hkc hk]
    have hmk : roundUpC M m_r * chopLen K k_c k < 2 ^ 31 := Nat.lt_of_le_of_lt (Nat.mul_le_mul_left _ hklc) z.Mk
    have hnk : roundUpC N n_r * chopLen K k_c k < 2 ^ 31 := by
      refine Nat.lt_of_le_of_lt (Nat.mul_le_mul_left _ hklc) ?_
      rw [Nat.mul_comm]
      exact z.kN
    refine .append (.append (.append (.cons ((E.Good.lit _).add .one ?_) .nil) ?_) ?_)
      (AllFits.flatMap fun core hcore => ?_)
    · simp only [E.val_add, E.val_lit, E.val_one]; omega
    · refine strips_fits (g := fun n2 => (k : E) * k_c * N + (n2 : E)) hn (roundUpC_dvd hn) zNp hKl hkt hnk
        fun y hy => ?_
      refine E.Good.add (E.Good.mulL (E.Good.mulL (.lit _) hki hkc) hNi hN0) (.lit _) ?_
      show k * k_c * N + y < 2 ^ 31
      have := idx_lt hkk (show y < N by omega)
      omega
    · refine strips_fits (g := fun m3 => (k : E) * k_c + (m3 : E) * K) hm (roundUpC_dvd hm) zMp hKl hkt hmk
        fun y hy => ?_
      refine E.Good.add (E.Good.mulL (.lit _) hki hkc) (E.Good.mulL (.lit _) hK hK0) ?_
      show k * k_c + y * K < 2 ^ 31
      have := idx_lt (show y < M by omega) hkk
      omega
    · rw [mem_range] at hcore
      obtain ⟨hci, hcj⟩ := core_ok core hcore
      have a1 := fm.le hci
      have b1 := fn.le hcj
      have l1 := smallLen_le (T := roundUpC M m_r) (n := M) (a := core / pn) hm hq
      have l2 := smallLen_le (T := roundUpC N n_r) (n := N) (a := core % pn) hn hpn
      have hcoreI : core < 2 ^ 31 := by omega
      have gI : ((core : E) / pn * (smallTile (roundUpC M m_r) (p / pn) m_r : Nat)).Good :=
        E.Good.mulL (.of (E.fits_div hcoreI hpni hpn)) tmi tm0
      have gJ : ((core : E) % pn * (smallTile (roundUpC N n_r) pn n_r : Nat)).Good :=
        E.Good.mulL (.of (E.fits_mod hcoreI hpni hpn)) tni tn0
      refine .append (.cons ?_ <| .cons ((E.Good.lit _).add .one ?_) .nil) ?_
      · split
        · refine ⟨hNi, E.fits_mod hNi tni tn0, ?_⟩
          exact Nat.mod_le _ _
        · refine gJ ?_
          show core % pn * smallTile (roundUpC N n_r) pn n_r < 2 ^ 31
          omega
      · simp only [E.val_add, E.val_lit, E.val_one]; omega
      · refine regInts_fits hm hn hmri hnri (smallLen_dvd hm (roundUpC_dvd hm)) (smallLen_dvd hn (roundUpC_dvd hn))
          (show smallLen (roundUpC M m_r) (p / pn) m_r M (core / pn) < 2 ^ 31 by omega)
          (show smallLen (roundUpC N n_r) pn n_r N (core % pn) < 2 ^ 31 by omega) hKl hkt
          (E.Good.mulL gI hkt hKl) (E.Good.mulL gJ hkt hKl) ?_ ?_ ?_
        · refine Nat.lt_of_le_of_lt ?_ hmk
          show core / pn * smallTile (roundUpC M m_r) (p / pn) m_r * chopLen K k_c k +
            smallLen (roundUpC M m_r) (p / pn) m_r M (core / pn) * chopLen K k_c k ≤ _
          rw [← Nat.add_mul]
          exact Nat.mul_le_mul_right _ a1
        · refine Nat.lt_of_le_of_lt ?_ hnk
          show core % pn * smallTile (roundUpC N n_r) pn n_r * chopLen K k_c k +
            chopLen K k_c k * smallLen (roundUpC N n_r) pn n_r N (core % pn) ≤ _
          rw [Nat.mul_comm (chopLen K k_c k), ← Nat.add_mul]
          exact Nat.mul_le_mul_right _ b1
        · exact Nat.lt_of_le_of_lt (Nat.mul_le_mul l1 l2) z.mn
  · rw [mem_range] at hcore
    obtain ⟨hci, hcj⟩ := core_ok core hcore
    have a1 := fm.le hci
    have b1 := fn.le hcj
    have l1 := smallLen_le (T := roundUpC M m_r) (n := M) (a := core / pn) hm hq
    have l2 := smallLen_le (T := roundUpC N n_r) (n := N) (a := core % pn) hn hpn
    have hcoreI : core < 2 ^ 31 := by omega
    have gI : ((core : E) / pn * (smallTile (roundUpC M m_r) (p / pn) m_r : Nat)).Good :=
      E.Good.mulL (.of (E.fits_div hcoreI hpni hpn)) tmi tm0
    have gJ : ((core : E) % pn * (smallTile (roundUpC N n_r) pn n_r : Nat)).Good :=
      E.Good.mulL (.of (E.fits_mod hcoreI hpni hpn)) tni tn0
    refine .append (.cons (E.Good.add (E.Good.mulL gI hNi hN0) gJ ?_) <| .cons (gJ ?_) <| .cons (gI ?_) <|
      .cons ((E.Good.lit _).add .one ?_) <| .cons (E.Good.mulL (.lit _) tni tn0 z.mn) .nil) ?_
    · refine Nat.lt_of_le_of_lt ?_ z.off
      exact Nat.add_le_add (Nat.mul_le_mul_right _ (Nat.mul_le_mul_right _ (show core / pn ≤ p / pn - 1 by omega)))
        (Nat.mul_le_mul_right _ (show core % pn ≤ pn - 1 by omega))
    · show core % pn * smallTile (roundUpC N n_r) pn n_r < 2 ^ 31
      omega
    · show core / pn * smallTile (roundUpC M m_r) (p / pn) m_r < 2 ^ 31
      omega
    · simp only [E.val_add, E.val_lit, E.val_one]; omega
    · refine unpackInts_fits hm hn (smallLen_dvd (n := M) (a := core / pn) hm (roundUpC_dvd hm))
        (smallLen_dvd (n := N) (a := core % pn) hn (roundUpC_dvd hn))
        (show 0 + core / pn * smallTile (roundUpC M m_r) (p / pn) m_r +
          smallLen (roundUpC M m_r) (p / pn) m_r M (core / pn) < 2 ^ 31 by omega)
        (show core % pn * smallTile (roundUpC N n_r) pn n_r +
          smallLen (roundUpC N n_r) pn n_r N (core % pn) < 2 ^ 31 by omega) hNi ?_ hMN
      exact Nat.lt_of_le_of_lt (Nat.mul_le_mul l1 l2) z.mn

theorem smallInts_fits {kc_max : Nat} (hkm : 0 < kc_max)
    (hkd : k_c = min (smallTile (roundUpC M m_r) (p / pn) m_r) kc_max)
    (z : IntS M N p m_r n_r pn k_c) (hpi : p < 2 ^ 31) (hK : K < 2 ^ 31)
    (hMK : M * K < 2 ^ 31) (hKN : K * N < 2 ^ 31) (hMN : M * N < 2 ^ 31) (hpd : pn ∣ p)
    (fm : SmallFits (roundUpC M m_r) (p / pn) m_r M) (fn : SmallFits (roundUpC N n_r) pn n_r N) :
    AllFits (smallInts M N K p m_r n_r pn kc_max) := by
  have hq : 0 < p / pn := Nat.div_pos hp hpn
  have tm0 : 0 < smallTile (roundUpC M m_r) (p / pn) m_r := Nat.lt_of_le_of_lt (Nat.zero_le _) (smallTile_gt hm)
  have tn0 : 0 < smallTile (roundUpC N n_r) pn n_r := Nat.lt_of_le_of_lt (Nat.zero_le _) (smallTile_gt hn)
  have tmi : smallTile (roundUpC M m_r) (p / pn) m_r < 2 ^ 31 :=
    Nat.lt_of_le_of_lt (Nat.le_mul_of_pos_right _ tn0) z.mn
  have tni : smallTile (roundUpC N n_r) pn n_r < 2 ^ 31 :=
    Nat.lt_of_le_of_lt (Nat.le_mul_of_pos_left _ tm0) z.mn
  have hk0 : 0 < k_c := by omega
  obtain ⟨x, hx, e1, e2, e3, e4, e5, e6, e7, e8, e9, e10, e11, e12, e13, e14⟩ :=
    init_small_eq (M := M) (N := N) (K := K) (k_c := k_c) (kc_max := kc_max) (n_r := n_r) (m_r := m_r) hpn hq
      (by split <;> omega) hk0
  unfold smallInts
  rw [hx]
  have hmri : m_r < 2 ^ 31 := by have := z.rr; omega
  have hnri : n_r < 2 ^ 31 := by have := z.rr; omega
  have zMp := z.Mp
  have zNp := z.Np
  have hMi := Nat.lt_of_le_of_lt (roundUpC_ge M m_r) zMp
  have hNi := Nat.lt_of_le_of_lt (roundUpC_ge N n_r) zNp
  have hki : k_c < 2 ^ 31 := by omega
  have hpni : pn < 2 ^ 31 := by omega
  have hqi : p / pn < 2 ^ 31 := Nat.lt_of_le_of_lt (Nat.div_le_self _ _) hpi
  have hM0 : 0 < roundUpC M m_r := by
    refine Nat.lt_of_lt_of_le ?_ (roundUpC_ge M m_r)
    rcases Nat.eq_zero_or_pos M with e | e
    · exact absurd (by rw [e, Nat.zero_mod]) fm.1
    · exact e
  have hN0 : 0 < roundUpC N n_r := by
    refine Nat.lt_of_lt_of_le ?_ (roundUpC_ge N n_r)
    rcases Nat.eq_zero_or_pos N with e | e
    · exact absurd (by rw [e, Nat.zero_mod]) fn.1
    · exact e
  refine .append (.append ?_ ?_) (schedSInts_fits hm hn hpn hp z hpi hk0 hK hMK hKN hMN hpd fm fn e1 e2 e3 e4 e5 e6 e7 e8
    e9 e10 e11 e12 e13 e14)
  · unfold dimsSInts
    rw [e7, e11, e12, e13, e14, e3, e1, e2]
    have sub : ∀ {T q t : Nat}, 0 < q → q < 2 ^ 31 → T < 2 ^ 31 → 0 < t → t < 2 ^ 31 → (q - 1) * t ≤ T →
        ((T : E) - ((q : E) - 1) * t).Fits := by
      intro T q t h1 h2 h3 h4 h5 h6
      refine ⟨h3, E.Good.mulL (a := (q : E) - 1) (fun _ => ⟨h2, (by decide : (1 : Nat) < 2 ^ 31), h1⟩) h5 h4 ?_, h6⟩
      show (q - 1) * t < 2 ^ 31
      omega
    refine .cons (E.fits_div hpi hpni hpn) <| .cons (E.fits_mod hMi hmri hm) <| .cons (roundUpE_fits hm hmri zMp) <|
      .cons (E.fits_mod hNi hnri hn) <| .cons (roundUpE_fits hn hnri zNp) <| .cons (E.fits_div zMp hqi hq) <|
      .cons (tileSE_fits hm hmri tmi) <| .cons (E.fits_div zNp hpni hpn) <| .cons (tileSE_fits hn hnri tni) <|
      .cons (E.Good.mulL (.lit _) hnri hn z.rr') <| .cons ((E.Good.lit _).add (.lit _) z.rr) <|
      .cons (sub hq hqi zMp tm0 tmi fm.2) <| .cons (sub hpn hpni zNp tn0 tni fn.2) <|
      .cons (E.fits_mod hK hki hk0) <| .cons (E.fits_mod hNi tni tn0) <| .cons (E.fits_mod hMi tmi tm0) <|
      .cons ((E.Good.of (E.fits_div (a := (K : E)) (b := (k_c : E)) hK hki hk0)).add (.lit _) ?_) .nil
    show K / k_c + (K % k_c != 0).toNat < 2 ^ 31
    have := cdiv_le_self' (a := K) hk0
    rw [cdiv_eq_div_add _ _ hk0]
    omega
  · rw [e11, e12, e3, e1, e2]
    exact .cons (E.Good.mulL (.lit _) hki hk0 z.Mk) <| .cons (E.Good.mulL (.lit _) zNp hN0 z.kN) <|
      .cons (E.Good.mulL (.lit _) tni tn0 z.mn) .nil

end
end Cake
