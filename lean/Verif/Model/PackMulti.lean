/-
The block packing functions that are given positions instead of pointers into the matrix, the parallel packing of a
block of B, and the whole-matrix packing test function (`src/pack_ob.cpp`, `src/pack_k_first.cpp`). They are part of the
public header `include/packing.h`; the products do not call them.
-/
import Verif.Model.PackOb

namespace Cake
open List

/-- `pack_ob_A_multiple_buf`. `src/pack_ob.cpp:295-326`. -/
def pack_ob_A_multiple_buf (A A_p : Loc) (M K m1 k1 m2 m_c k_c m_r : Nat) (pad : Bool) : List Op :=
  if pad then
    (loopS (cfor 0 m_c m_r) (fun m3 s => loopS (range k_c) (fun i s => loopS (range m_r) (fun j ind2 =>
      ([if m1 + m2 + m3 + j ≥ M then Op.zero (A_p +ₚ ind2)
        else Op.copy (A_p +ₚ ind2) (A +ₚ (m1 * K + k1 + m2 * K + m3 * K + i + j * K))], ind2 + 1)) s) s) 0).1
  else
    (loopS (cfor 0 m_c m_r) (fun m3 s => loopS (range k_c) (fun i s => loopS (range m_r) (fun j ind2 =>
      ([Op.copy (A_p +ₚ ind2) (A +ₚ (m1 * K + k1 + m2 * K + m3 * K + i + j * K))], ind2 + 1)) s) s) 0).1

/-- `pack_ob_C_multiple_buf`. `src/pack_ob.cpp:330-365`. -/
def pack_ob_C_multiple_buf (C C_p : Loc) (M N m1 n1 m2 m_c n_c m_r n_r : Nat) (pad : Bool) : List Op :=
  if pad then
    (loopS (cfor 0 n_c n_r) (fun n2 s => loopS (cfor 0 m_c m_r) (fun m3 s =>
      loopS (range m_r) (fun i s => loopS (range n_r) (fun j ind2 =>
        ([if n1 + n2 + j ≥ N ∨ m1 + m2 + m3 + i ≥ M then Op.zero (C_p +ₚ ind2)
          else Op.copy (C_p +ₚ ind2) (C +ₚ (n1 + m1 * N + m2 * N + n2 + m3 * N + i * N + j))], ind2 + 1)) s) s) s) 0).1
  else
    (loopS (cfor 0 n_c n_r) (fun n2 s => loopS (cfor 0 m_c m_r) (fun m3 s =>
      loopS (range m_r) (fun i s => loopS (range n_r) (fun j ind2 =>
        ([Op.copy (C_p +ₚ ind2) (C +ₚ (n1 + m1 * N + m2 * N + n2 + m3 * N + i * N + j))], ind2 + 1)) s) s) s) 0).1

/-- `unpack_ob_C_multiple_buf`. `src/pack_ob.cpp:369-387`. -/
def unpack_ob_C_multiple_buf (C C_p : Loc) (M N m1 n1 m2 m_c n_c m_r n_r : Nat) : List Op :=
  (loopS (cfor 0 n_c n_r) (fun n2 s => loopS (cfor 0 m_c m_r) (fun m3 s =>
    loopS (range m_r) (fun i s => loopS (range n_r) (fun j ind2 =>
      (if n1 + n2 + j < N ∧ m1 + m2 + m3 + i < M then
        [Op.copy (C +ₚ (n1 + m1 * N + m2 * N + n2 + m3 * N + i * N + j)) (C_p +ₚ ind2)] else [], ind2 + 1)) s) s) s) 0).1

/-- `pack_ob_B_parallel` (`K` is unused): one task per iteration of the outer loop; `ind_ob` is private.
`src/pack_ob.cpp:173-213`. -/
def pack_ob_B_parallel (B B_p : Loc) (N n1 k_c n_c n_r : Nat) (pad_n : Bool) : List (List Op) :=
  if pad_n then
    (cfor 0 n_c n_r).map fun n2 => (loopS (range k_c) (fun i s => loopS (range n_r) (fun j ind_ob =>
      ([if n1 + n2 + j ≥ N then Op.zero (B_p +ₚ (n2 * k_c + ind_ob))
        else Op.copy (B_p +ₚ (n2 * k_c + ind_ob)) (B +ₚ (n2 + i * N + j))], ind_ob + 1)) s) 0).1
  else
    (cfor 0 n_c n_r).map fun n2 => (loopS (range k_c) (fun i s => loopS (range n_r) (fun j ind_ob =>
      ([Op.copy (B_p +ₚ (n2 * k_c + ind_ob)) (B +ₚ (n2 + i * N + j))], ind_ob + 1)) s) 0).1

/-- `pack_test1` in builds that pack with `pack_A_mr_x_kc` (`p` and the context are unused): one task per strip of six
rows. `src/pack_k_first.cpp:83-94`, `include/packing.h:82-99`. -/
def pack_test1 (A A_p : Loc) (M K : Nat) : List (List Op) :=
  (cfor 0 M 6).map fun m3 => pack_A_mr_x_kc (A +ₚ m3 * K) (A_p +ₚ m3 * K) K K 6

end Cake
