/-
Packing and unpacking of one operation block (`src/pack_ob.cpp`).
-/
import Verif.Loops

namespace Cake
open List

/-- `pack_ob_A_single_buf` (the parameter `pad` is unused by the C code). The carried variable is
`ind_ob`. `src/pack_ob.cpp:40-60`. -/
def pack_ob_A_single_buf (A A_p : Loc) (M K m1 m2 m_c k_c m_r : Nat) : List Op :=
  (loopS (cfor 0 m_c m_r) (fun m3 s => loopS (range k_c) (fun i s => loopS (range m_r) (fun j ind_ob =>
    ([if m1 + m2 + m3 + j ≥ M then Op.zero (A_p +ₚ ind_ob)
      else Op.copy (A_p +ₚ ind_ob) (A +ₚ (m3 * K + i + j * K))], ind_ob + 1)) s) s) 0).1

/-- `pack_ob_B_single_buf` (`K` is unused). `src/pack_ob.cpp:105-140`. -/
def pack_ob_B_single_buf (B B_p : Loc) (N n1 k_c n_c n_r : Nat) (pad_n : Bool) : List Op :=
  if pad_n then
    (loopS (cfor 0 n_c n_r) (fun n2 s => loopS (range k_c) (fun i s => loopS (range n_r) (fun j ind_ob =>
      ([if n1 + n2 + j ≥ N then Op.zero (B_p +ₚ ind_ob)
        else Op.copy (B_p +ₚ ind_ob) (B +ₚ (n2 + i * N + j))], ind_ob + 1)) s) s) 0).1
  else
    (loopS (cfor 0 n_c n_r) (fun n2 s => loopS (range k_c) (fun i s => loopS (range n_r) (fun j ind_ob =>
      ([Op.copy (B_p +ₚ ind_ob) (B +ₚ (n2 + i * N + j))], ind_ob + 1)) s) s) 0).1

/-- `pack_B_nr_x_kc`. `src/pack_ob.cpp:145-155`. -/
def pack_B_nr_x_kc (B B_p : Loc) (N k_c n_r : Nat) : List Op :=
  (loopS (range k_c) (fun i s => loopS (range n_r) (fun j ind_ob =>
    ([Op.copy (B_p +ₚ ind_ob) (B +ₚ (i * N + j))], ind_ob + 1)) s) 0).1

/-- `pack_A_mr_x_kc`. `src/pack_ob.cpp:159-169`. -/
def pack_A_mr_x_kc (A A_p : Loc) (K k_c m_r : Nat) : List Op :=
  (loopS (range k_c) (fun i s => loopS (range m_r) (fun j ind_ob =>
    ([Op.copy (A_p +ₚ ind_ob) (A +ₚ (i + j * K))], ind_ob + 1)) s) 0).1

/-- `pack_ob_C_single_buf`. `src/pack_ob.cpp:253-288`. -/
def pack_ob_C_single_buf (C C_p : Loc) (M N m1 n1 m2 m_c n_c m_r n_r : Nat) (pad_m pad_n : Bool) :
    List Op :=
  if pad_m || pad_n then
    (loopS (cfor 0 n_c n_r) (fun n2 s => loopS (cfor 0 m_c m_r) (fun m3 s =>
      loopS (range m_r) (fun i s => loopS (range n_r) (fun j ind_ob =>
        ([if n1 + n2 + j ≥ N ∨ m1 + m2 + m3 + i ≥ M then Op.zero (C_p +ₚ ind_ob)
          else Op.copy (C_p +ₚ ind_ob) (C +ₚ (n2 + m3 * N + i * N + j))], ind_ob + 1)) s) s) s) 0).1
  else
    (loopS (cfor 0 n_c n_r) (fun n2 s => loopS (cfor 0 m_c m_r) (fun m3 s =>
      loopS (range m_r) (fun i s => loopS (range n_r) (fun j ind_ob =>
        ([Op.copy (C_p +ₚ ind_ob) (C +ₚ (n2 + m3 * N + i * N + j))], ind_ob + 1)) s) s) s) 0).1

/-- `unpack_ob_C_single_buf`. `src/pack_ob.cpp:393-411`. -/
def unpack_ob_C_single_buf (C C_p : Loc) (M N m1 n1 m2 m_c n_c m_r n_r : Nat) : List Op :=
  (loopS (cfor 0 n_c n_r) (fun n2 s => loopS (cfor 0 m_c m_r) (fun m3 s =>
    loopS (range m_r) (fun i s => loopS (range n_r) (fun j ind2 =>
      (if n1 + n2 + j < N ∧ m1 + m2 + m3 + i < M then
        [Op.copy (C +ₚ (n2 + m3 * N + i * N + j)) (C_p +ₚ ind2)] else [], ind2 + 1)) s) s) s) 0).1

end Cake
