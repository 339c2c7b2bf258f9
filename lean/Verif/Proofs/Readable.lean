/-
Slack behind the operands that packing without bounds checks reads.
-/
import Verif.Proofs.Online
import Verif.Proofs.OnlineNeeds
import Verif.Props.Demo

namespace Cake
open List

variable {α : Type _}

/-- `x` rounded up to a multiple of `d`. -/
def roundUp (x d : Nat) : Nat := (x + d - 1) / d * d

theorem roundUp_eq {x s d : Nat} (hd : 0 < d) (hs : d ∣ s) : padTo x s d = roundUp x d := by
  rw [padTo_eq hd hs]; rfl

theorem roundUp_of_dvd {x d : Nat} (hd : 0 < d) (h : d ∣ x) : roundUp x d = x := by
  obtain ⟨q, rfl⟩ := h
  unfold roundUp
  have : (d * q + d - 1) / d = q := by
    rw [show d * q + d - 1 = (d - 1) + d * q by omega, Nat.add_mul_div_left _ _ hd,
      Nat.div_eq_of_lt (by omega)]
    omega
  rw [this, Nat.mul_comm]

theorem le_roundUp {x d : Nat} (hd : 0 < d) : x ≤ roundUp x d := by
  unfold roundUp
  have := Nat.div_add_mod (x + d - 1) d
  have := Nat.mod_lt (x + d - 1) hd
  rw [Nat.mul_comm]
  omega

theorem roundUp_lt {x d : Nat} (hd : 0 < d) (h : ¬ d ∣ x) : x < roundUp x d := by
  refine Nat.lt_of_le_of_ne (le_roundUp hd) (fun e => h ?_)
  rw [e]
  exact Nat.dvd_mul_left _ _

/-- The operands are followed by as much initialised memory as the unchecked packing reads. -/
structure Slack (s : State α) (M N K m_r n_r : Nat) : Prop where
  a : Holds s .A (roundUp M m_r) K
  b : Holds s .B 1 (K * N + (roundUp N n_r - N))

theorem Slack.readable {s : State α} {M N K m_r n_r sm sn : Nat} (hs : Slack s M N K m_r n_r)
    (hm : 0 < m_r) (hn : 0 < n_r) (hdm : m_r ∣ sm) (hdn : n_r ∣ sn) :
    PadReadable s (padTo M sm m_r) (padTo N sn n_r) N K := by
  rw [roundUp_eq hm hdm, roundUp_eq hn hdn]
  obtain ⟨⟨⟨nA, hnA, hlA⟩, hiA⟩, ⟨⟨nB, hnB, hlB⟩, hiB⟩⟩ := hs
  refine ⟨?_, ?_⟩
  · intro r k hr hk
    have : r * K + k < roundUp M m_r * K := by
      calc r * K + k < (r + 1) * K := by rw [Nat.add_mul]; omega
        _ ≤ _ := Nat.mul_le_mul_right _ hr
    exact ⟨inB_of hnA (by omega), hiA _ this⟩
  · intro k c hk hc
    have h2 := le_roundUp (x := N) hn
    have : k * N + c < 1 * (K * N + (roundUp N n_r - N)) := by
      have : (k + 1) * N ≤ K * N := Nat.mul_le_mul_right _ hk
      rw [Nat.add_mul] at this
      omega
    exact ⟨inB_of hnB (by omega), hiB _ this⟩

theorem Slack.of_dvd {s : State α} {M N K m_r n_r : Nat} (hs : CallOK s M N K)
    (hm : 0 < m_r) (hn : 0 < n_r) (hdm : m_r ∣ M) (hdn : n_r ∣ N) : Slack s M N K m_r n_r := by
  refine ⟨by rw [roundUp_of_dvd hm hdm]; exact hs.a, ?_⟩
  rw [roundUp_of_dvd hn hdn, Nat.sub_self, Nat.add_zero]
  obtain ⟨⟨n, hn, hle⟩, hi⟩ := hs.b
  exact ⟨⟨n, hn, by omega⟩, fun i h => hi i (by omega)⟩

/-- A caller's state with `x` elements behind A and `y` behind B, all with contents chosen by the caller. -/
def padded (M N K x y : Nat) (lane : Nat → Int) : State Int where
  size := fun b => match b with
    | .A => some (M * K + x)
    | .B => some (K * N + y)
    | .C => some (M * N)
    | _ => none
  mem := fun l => match l.buf with
    | .A => if l.idx < M * K then 3 * l.idx - 7 else lane l.idx
    | .B => if l.idx < K * N then 5 - 2 * l.idx else lane l.idx
    | _ => 99
  init := fun l => match l.buf with
    | .A => true
    | .B => true
    | _ => false

theorem padded_ok (M N K x y : Nat) (lane : Nat → Int) : CallOK (padded M N K x y lane) M N K :=
  ⟨⟨⟨_, rfl, Nat.le_add_right _ _⟩, fun _ _ => rfl⟩, ⟨⟨_, rfl, Nat.le_add_right _ _⟩, fun _ _ => rfl⟩,
    ⟨_, rfl, Nat.le_refl _⟩, fun b h1 h2 h3 _ => by cases b <;> first | rfl | contradiction⟩

theorem padded_slack {M N K m_r n_r x y : Nat} (lane : Nat → Int) (h1 : roundUp M m_r * K ≤ M * K + x)
    (h2 : roundUp N n_r - N ≤ y) : Slack (padded M N K x y lane) M N K m_r n_r :=
  ⟨⟨⟨_, rfl, h1⟩, fun _ _ => rfl⟩, ⟨⟨_, rfl, by omega⟩, fun _ _ => rfl⟩⟩

end Cake
