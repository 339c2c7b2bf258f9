/-
A concrete caller state, used to show that the hypotheses of the property theorems can be met.
-/
import Verif.Spec
import Verif.Model.Sgemm
import Verif.Proofs.Dims
import Verif.Proofs.RegTiles

namespace Cake

/-- A caller's state: A, B, C of exactly the needed sizes, A and B filled with some integers, C
uninitialised, nothing else allocated. -/
def demo (M N K : Nat) : State Int where
  size := fun b => match b with
    | .A => some (M * K)
    | .B => some (K * N)
    | .C => some (M * N)
    | _ => none
  mem := fun l => match l.buf with
    | .A => 3 * l.idx - 7
    | .B => 5 - 2 * l.idx
    | _ => 99
  init := fun l => match l.buf with
    | .A => true
    | .B => true
    | _ => false

theorem demo_ok (M N K : Nat) : CallOK (demo M N K) M N K :=
  ⟨⟨⟨_, rfl, Nat.le_refl _⟩, fun _ _ => rfl⟩, ⟨⟨_, rfl, Nat.le_refl _⟩, fun _ _ => rfl⟩,
    ⟨_, rfl, Nat.le_refl _⟩, fun b h1 h2 h3 _ => by cases b <;> first | rfl | contradiction⟩

/-- A state in which every object is initialised and B has room for `nb` elements. -/
def roomy {α : Type _} (z : α) (M N K nb : Nat) : State α where
  size := fun b => match b with
    | .A => some (M * K)
    | .B => some (K * N + nb)
    | .C => some (M * N)
    | _ => none
  mem := fun _ => z
  init := fun _ => true

theorem roomy_ok {α : Type _} (z : α) (M N K nb : Nat) : CallOK (roomy z M N K nb) M N K :=
  ⟨⟨⟨_, rfl, Nat.le_refl _⟩, fun _ _ => rfl⟩, ⟨⟨_, rfl, Nat.le_add_right _ _⟩, fun _ _ => rfl⟩,
    ⟨_, rfl, Nat.le_refl _⟩, fun b h1 h2 h3 _ => by cases b <;> first | rfl | contradiction⟩

theorem roomy_B {α : Type _} (z : α) (M N K nb : Nat) : Holds (roomy z M N K nb) .B 1 nb :=
  ⟨⟨_, rfl, by omega⟩, fun _ _ => rfl⟩

theorem roomy_C {α : Type _} (z : α) (M N K nb : Nat) : Holds (roomy z M N K nb) .C M N :=
  ⟨⟨_, rfl, Nat.le_refl _⟩, fun _ _ => rfl⟩

/-- The Haswell context: 6 x 16 register tile, AVX2 kernel. -/
def haswell : Cntx := ⟨6, 16, ⟨8, 6, 2⟩, ⟨8, 6, 2⟩⟩

/-- The ARM context: 8 x 12 register tile, NEON kernel. -/
def armv8 : Cntx := ⟨8, 12, ⟨4, 8, 3⟩, ⟨4, 8, 3⟩⟩

theorem haswell_fits : haswell.kmap.Fits haswell.m_r haswell.n_r := ⟨by decide, rfl, rfl⟩
theorem armv8_fits : armv8.kmap.Fits armv8.m_r armv8.n_r := ⟨by decide, rfl, rfl⟩

/-- Tiles of the demo runs: 3 threads, `m_c = 12`, `k_c = 5`, `n_c = 32`. -/
theorem demo_tile : TileOK 3 haswell.m_r haswell.n_r 12 5 32 :=
  ⟨by decide, by decide, by decide, by decide, by decide, by decide, by decide, by decide⟩

theorem demo_tile_arm : TileOK 4 armv8.m_r armv8.n_r 16 7 24 :=
  ⟨by decide, by decide, by decide, by decide, by decide, by decide, by decide, by decide⟩

end Cake
