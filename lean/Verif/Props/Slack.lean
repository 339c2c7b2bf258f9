/-
Readable conditions under which the elements of B that the M-first and N-first packing reads are
available, and the demo states for these schedules.
-/
import Verif.Proofs.Undef
import Verif.Props.Demo

namespace Cake

section
variable {α : Type _} {M N K p m_r n_r m_c k_c n_c : Nat}

/-- If `n_r ∣ N`, the `K*N` elements every caller provides are enough. -/
theorem readable_of_dvd (h : TileOK p m_r n_r m_c k_c n_c) {s : State α} (hs : CallOK s M N K)
    (hN : n_r ∣ N) : Holds s .B 1 (bNeed N K p n_r k_c n_c) := by
  rw [bNeed_of_dvd h.n_r_pos h.n_dvd hN]
  obtain ⟨⟨n, hn, hle⟩, hi⟩ := hs.b
  exact ⟨⟨n, hn, by omega⟩, fun i hi' => hi i (by omega)⟩

/-- `n_r - 1` further elements after B are always enough. -/
theorem readable_of_slack (h : TileOK p m_r n_r m_c k_c n_c) {s : State α}
    (hB : Holds s .B 1 (K * N + (n_r - 1))) : Holds s .B 1 (bNeed N K p n_r k_c n_c) := by
  have := bNeed_le (N := N) (K := K) (p := p) (k_c := k_c) (n_c := n_c) h.n_r_pos
  obtain ⟨⟨n, hn, hle⟩, hi⟩ := hB
  exact ⟨⟨n, hn, by omega⟩, fun i hi' => hi i (by omega)⟩

end

theorem demo_readable : Holds (demo 43 37 11) .B 1 (bNeed 37 11 3 haswell.n_r 5 32) :=
  ⟨⟨11 * 37, rfl, by decide⟩, fun _ _ => rfl⟩

theorem haswell_fits_fix : haswell.kfix.Fits haswell.m_r haswell.n_r := ⟨by decide, rfl, rfl⟩
theorem armv8_fits_fix : armv8.kfix.Fits armv8.m_r armv8.n_r := ⟨by decide, rfl, rfl⟩

/-- Like `demo`, with C filled by the caller. -/
def demoC (M N K : Nat) : State Int :=
  { demo M N K with init := fun l => match l.buf with | .A => true | .B => true | .C => true | _ => false }

theorem demoC_ok (M N K : Nat) : CallOK (demoC M N K) M N K :=
  ⟨⟨⟨_, rfl, Nat.le_refl _⟩, fun _ _ => rfl⟩, ⟨⟨_, rfl, Nat.le_refl _⟩, fun _ _ => rfl⟩,
    ⟨_, rfl, Nat.le_refl _⟩, fun b h1 h2 h3 _ => by cases b <;> first | rfl | contradiction⟩

theorem demoC_holds (M N K : Nat) : Holds (demoC M N K) .C M N :=
  ⟨⟨_, rfl, Nat.le_refl _⟩, fun _ _ => rfl⟩

theorem demoC_readable : Holds (demoC 43 37 11) .B 1 (bNeed 37 11 3 haswell.n_r 5 32) :=
  ⟨⟨11 * 37, rfl, by decide⟩, fun _ _ => rfl⟩

end Cake
