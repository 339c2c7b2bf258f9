/-
Alignment of the vector loads from packed B.
-/
import Verif.Proofs.Kernel
import Verif.Proofs.PackSh
import Verif.Model.Sgemm

namespace Cake
open List

/-- Every read of buffer `b` by `o` is one lane of a vector load, and lane and address agree modulo
the vector length. -/
def LaneOK (L : Nat) (b : Buf) (o : Op) : Prop :=
  ∀ x, ⟨b, x⟩ ∈ o.reads → ∃ t y, o = .copy ⟨.reg t, y⟩ ⟨b, x⟩ ∧ x % L = y % L

theorem LaneOK.of_no_read {L : Nat} {b : Buf} {o : Op} (h : ∀ l ∈ o.reads, l.buf ≠ b) : LaneOK L b o :=
  fun _ hx => absurd rfl (h _ hx)

theorem kernel_lane {L m nl t : Nat} {A B C : Loc} {narg k : Nat} {b : Buf} (hA : A.buf ≠ b)
    (hC : C.buf ≠ b) (hb : ∀ t, b ≠ .reg t) (hBi : B.buf = b → L ∣ B.idx) (hn : L ∣ narg) {o : Op}
    (ho : o ∈ kernel L m nl t A B C narg k) : LaneOK L b o := by
  unfold kernel at ho
  rcases mem_append.1 ho with h | h
  · rcases mem_append.1 h with h | h
    · apply LaneOK.of_no_read
      simp only [kernLoadC, mem_flatMap, mem_map, mem_range] at h
      obtain ⟨_, _, _, _, rfl⟩ := h
      intro l hl
      simp only [Op.reads, mem_singleton] at hl
      subst hl; exact hC
    · rw [kernLoop_eq] at h
      obtain ⟨kk, _, h⟩ := mem_flatMap.1 h
      rw [kernInner_eq] at h
      rcases mem_append.1 h with h | h
      · simp only [kernLoadB, mem_flatMap, mem_map, mem_range] at h
        obtain ⟨j, _, l, _, rfl⟩ := h
        intro x hx
        simp only [Op.reads, mem_singleton] at hx
        obtain ⟨B0, Bi⟩ := B
        simp only [Loc.off, Loc.mk.injEq] at hx
        obtain ⟨rfl, rfl⟩ := hx
        refine ⟨t, _, rfl, ?_⟩
        obtain ⟨u, hu⟩ := hBi rfl
        obtain ⟨v, rfl⟩ := hn
        simp only at hu
        subst hu
        have e1 : L * u + (kk * (L * v) + (j * L + l)) = l + L * (u + kk * v + j) := by ring
        have e2 : m * nl * L + (j * L + l) = l + L * (m * nl + j) := by ring
        rw [e1, e2, Nat.add_mul_mod_self_left, Nat.add_mul_mod_self_left]
      · simp only [mem_flatMap, mem_range] at h
        obtain ⟨i, _, h⟩ := h
        apply LaneOK.of_no_read
        unfold kernRow at h
        rcases mem_append.1 h with h | h
        · obtain ⟨l, _, rfl⟩ := mem_map.1 h
          intro l' hl
          simp only [Op.reads, mem_singleton] at hl
          subst hl; exact hA
        · simp only [mem_flatMap, mem_map, mem_range] at h
          obtain ⟨j, _, l, _, rfl⟩ := h
          intro l' hl
          simp only [Op.reads, mem_cons, not_mem_nil, or_false] at hl
          rcases hl with rfl | rfl | rfl <;> exact fun e => hb t e.symm
  · apply LaneOK.of_no_read
    simp only [kernStoreC, mem_flatMap, mem_map, mem_range] at h
    obtain ⟨_, _, _, _, rfl⟩ := h
    intro l hl
    simp only [Op.reads, mem_singleton] at hl
    subst hl; exact fun e => hb t e.symm

theorem regTiles_lane {kd : KDim} {t m_r n_r mt nt kt : Nat} {A B C : Loc} {b : Buf}
    (hA : A.buf ≠ b) (hC : C.buf ≠ b) (hb : ∀ t, b ≠ .reg t) (hBi : B.buf = b → n_r ∣ B.idx)
    (hn : kd.L ∣ n_r) {o : Op} (ho : o ∈ regTiles kd t A B C m_r n_r mt nt kt) : LaneOK kd.L b o := by
  unfold regTiles at ho
  simp only [mem_flatMap, mem_range] at ho
  obtain ⟨q, _, r, _, ho⟩ := ho
  refine kernel_lane (by simpa [Loc.off] using hA) (by simpa [Loc.off] using hC) hb ?_ hn ho
  intro e
  exact Nat.dvd_add (hn.trans (hBi e)) (hn.trans (Nat.dvd_mul_left _ _))

/-- All tasks of all phases. -/
def PhLane (L : Nat) (b : Buf) (ph : List (List (List Op))) : Prop :=
  ∀ tasks ∈ ph, ∀ task ∈ tasks, ∀ o ∈ task, LaneOK L b o

theorem loopS_forall {β γ σ : Type _} {P : γ → Prop} {body : β → σ → List γ × σ} {xs : List β}
    (h : ∀ x ∈ xs, ∀ s, ∀ o ∈ (body x s).1, P o) (s : σ) : ∀ o ∈ (loopS xs body s).1, P o := by
  induction xs generalizing s with
  | nil => simp [loopS]
  | cons x xs ih =>
    intro o ho
    simp only [loopS, mem_append] at ho
    rcases ho with ho | ho
    · exact h x (by simp) s o ho
    · exact ih (fun y hy => h y (by simp [hy])) _ o ho

theorem packA_ob_reads {A A_p : Loc} {M K m1 m2 m_c k_c m_r : Nat} :
    ∀ o ∈ pack_ob_A_single_buf A A_p M K m1 m2 m_c k_c m_r, ∀ l ∈ o.reads, l.buf = A.buf := by
  unfold pack_ob_A_single_buf
  refine loopS_forall (fun _ _ s => loopS_forall (fun _ _ s => loopS_forall (fun _ _ s => ?_) _) _) _
  intro o ho l hl
  simp only [mem_singleton] at ho
  subst ho
  split at hl
  · simp [Op.reads] at hl
  · simp only [Op.reads, mem_singleton] at hl
    subst hl; rfl

theorem packB_ob_reads {B B_p : Loc} {N n1 k_c n_c n_r : Nat} {pad : Bool} :
    ∀ o ∈ pack_ob_B_single_buf B B_p N n1 k_c n_c n_r pad, ∀ l ∈ o.reads, l.buf = B.buf := by
  unfold pack_ob_B_single_buf
  split
  · refine loopS_forall (fun _ _ s => loopS_forall (fun _ _ s => loopS_forall (fun _ _ s => ?_) _) _) _
    intro o ho l hl
    simp only [mem_singleton] at ho
    subst ho
    split at hl
    · simp [Op.reads] at hl
    · simp only [Op.reads, mem_singleton] at hl
      subst hl; rfl
  · refine loopS_forall (fun _ _ s => loopS_forall (fun _ _ s => loopS_forall (fun _ _ s => ?_) _) _) _
    intro o ho l hl
    simp only [mem_singleton] at ho
    subst ho
    simp only [Op.reads, mem_singleton] at hl
    subst hl; rfl

theorem packC_ob_reads {C C_p : Loc} {M N m1 n1 m2 m_c n_c m_r n_r : Nat} {pm pn : Bool} :
    ∀ o ∈ pack_ob_C_single_buf C C_p M N m1 n1 m2 m_c n_c m_r n_r pm pn, ∀ l ∈ o.reads,
      l.buf = C.buf := by
  unfold pack_ob_C_single_buf
  split
  · refine loopS_forall (fun _ _ s => loopS_forall (fun _ _ s => loopS_forall (fun _ _ s =>
      loopS_forall (fun _ _ s => ?_) _) _) _) _
    intro o ho l hl
    simp only [mem_singleton] at ho
    subst ho
    split at hl
    · simp [Op.reads] at hl
    · simp only [Op.reads, mem_singleton] at hl
      subst hl; rfl
  · refine loopS_forall (fun _ _ s => loopS_forall (fun _ _ s => loopS_forall (fun _ _ s =>
      loopS_forall (fun _ _ s => ?_) _) _) _) _
    intro o ho l hl
    simp only [mem_singleton] at ho
    subst ho
    simp only [Op.reads, mem_singleton] at hl
    subst hl; rfl

theorem unpack_ob_reads {C C_p : Loc} {M N m1 n1 m2 m_c n_c m_r n_r : Nat} :
    ∀ o ∈ unpack_ob_C_single_buf C C_p M N m1 n1 m2 m_c n_c m_r n_r, ∀ l ∈ o.reads,
      l.buf = C_p.buf := by
  unfold unpack_ob_C_single_buf
  refine loopS_forall (fun _ _ s => loopS_forall (fun _ _ s => loopS_forall (fun _ _ s =>
    loopS_forall (fun _ _ s => ?_) _) _) _) _
  intro o ho l hl
  dsimp only at ho
  split at ho
  · simp only [mem_singleton] at ho
    subst ho
    simp only [Op.reads, mem_singleton] at hl
    subst hl; rfl
  · simp at ho

/-- Every op of the phases reads only buffer `b`. -/
def PhReads (b : Buf) (ph : List (List (List Op))) : Prop :=
  ∀ tasks ∈ ph, ∀ task ∈ tasks, ∀ o ∈ task, ∀ l ∈ o.reads, l.buf = b

theorem PhReads.lane {b b' : Buf} {ph : List (List (List Op))} {L : Nat} (h : PhReads b' ph)
    (hb : b' ≠ b) : PhLane L b ph :=
  fun ts hts t ht o ho => .of_no_read fun l hl => (h ts hts t ht o ho l hl).trans_ne hb

theorem forall_map_task {f : Nat → List Op} {u : Nat} {P : Op → Prop}
    (h : ∀ i, i < u → ∀ o ∈ f i, P o) : ∀ task ∈ (range u).map f, ∀ o ∈ task, P o := by
  intro task ht o ho
  obtain ⟨i, hi, rfl⟩ := mem_map.1 ht
  exact h i (mem_range.1 hi) o ho

theorem packA_k_reads {A A_p : Loc} {M K p m_r : Nat} {x : BlkDims} :
    PhReads A.buf (pack_A_k_first A A_p M K p m_r x) := by
  unfold pack_A_k_first PhReads
  refine loopS_forall (fun _ _ s => loopS_forall (fun _ _ s ts hts => ?_) _) _
  simp only [mem_singleton] at hts
  subst hts
  exact forall_map_task fun i _ o ho l hl => packA_ob_reads o ho l hl

theorem packA_m_reads {A A_p : Loc} {M K p m_r : Nat} {x : BlkDims} :
    PhReads A.buf (pack_A_m_first A A_p M K p m_r x) := by
  unfold pack_A_m_first PhReads
  refine loopS_forall (fun _ _ s => loopS_forall (fun _ _ s ts hts => ?_) _) _
  simp only [mem_singleton] at hts
  subst hts
  exact forall_map_task fun i _ o ho l hl => packA_ob_reads o ho l hl

theorem packA_n_reads {A A_p : Loc} {M K p m_r : Nat} {x : BlkDims} :
    PhReads A.buf (pack_A_n_first A A_p M K p m_r x) := by
  unfold pack_A_n_first PhReads
  refine loopS_forall (fun _ _ s => loopS_forall (fun _ _ s ts hts => ?_) _) _
  simp only [mem_singleton] at hts
  subst hts
  exact forall_map_task fun i _ o ho l hl => packA_ob_reads o ho l hl

theorem packB_m_reads {B B_p : Loc} {N p n_r : Nat} {x : BlkDims} :
    PhReads B.buf (pack_B_m_first B B_p N p n_r x) := by
  unfold pack_B_m_first PhReads
  refine loopS_forall (fun _ _ s => loopS_forall (fun _ _ s ts hts => ?_) _) _
  simp only [mem_singleton] at hts
  subst hts
  exact forall_map_task fun i _ o ho l hl => packB_ob_reads o ho l hl

theorem packB_n_reads {B B_p : Loc} {N p n_r : Nat} {x : BlkDims} :
    PhReads B.buf (pack_B_n_first B B_p N p n_r x) := by
  unfold pack_B_n_first PhReads
  refine loopS_forall (fun _ _ s => loopS_forall (fun _ _ s ts hts => ?_) _) _
  simp only [mem_singleton] at hts
  subst hts
  exact forall_map_task fun i _ o ho l hl => packB_ob_reads o ho l hl

theorem copy_reads {b : Buf} {d r : Loc} {n : Nat} (h : r.buf = b) :
    ∀ o ∈ (([Op.copy d r], n) : List Op × Nat).1, ∀ l ∈ o.reads, l.buf = b := by
  intro o ho l hl
  simp only [mem_singleton] at ho
  subst ho
  simp only [Op.reads, mem_singleton] at hl
  subst hl; exact h

theorem ite_reads {b : Buf} {d r : Loc} {n : Nat} {c : Prop} [Decidable c] (h : r.buf = b) :
    ∀ o ∈ (([if c then Op.zero d else Op.copy d r], n) : List Op × Nat).1, ∀ l ∈ o.reads, l.buf = b := by
  intro o ho l hl
  simp only [mem_singleton] at ho
  subst ho
  split at hl
  · simp [Op.reads] at hl
  · simp only [Op.reads, mem_singleton] at hl
    subst hl; exact h

theorem packB_k_reads {B B_p : Loc} {K N n_r : Nat} {x : BlkDims} :
    PhReads B.buf (pack_B_k_first B B_p K N n_r x) := by
  unfold pack_B_k_first PhReads
  intro ts hts
  rcases mem_append.1 hts with hts | hts
  · refine loopS_forall (P := fun ts => ∀ task ∈ ts, ∀ o ∈ task, ∀ l ∈ o.reads, l.buf = B.buf) ?_ _ ts
      hts
    intro n1 _ s ts hts
    dsimp only at hts
    split at hts <;> simp only [mem_cons, not_mem_nil, or_false] at hts
    · rcases hts with rfl | rfl <;> intro task ht <;> obtain ⟨k1, _, rfl⟩ := mem_map.1 ht
      · refine loopS_forall (fun _ _ s => loopS_forall (fun _ _ s => loopS_forall
          (fun _ _ s => ?_) _) _) _
        exact copy_reads rfl
      · refine loopS_forall (fun _ _ s => loopS_forall (fun _ _ s => ?_) _) _
        exact copy_reads rfl
    · subst hts
      intro task ht
      obtain ⟨k1, _, rfl⟩ := mem_map.1 ht
      refine loopS_forall (fun _ _ s => loopS_forall (fun _ _ s => loopS_forall
        (fun _ _ s => ?_) _) _) _
      exact copy_reads rfl
  · dsimp only at hts
    split at hts
    · split at hts <;> simp only [mem_cons, not_mem_nil, or_false] at hts
      · rcases hts with rfl | rfl <;> intro task ht <;> obtain ⟨k1, _, rfl⟩ := mem_map.1 ht
        · refine loopS_forall (fun _ _ s => loopS_forall (fun _ _ s => loopS_forall
            (fun _ _ s => ?_) _) _) _
          exact ite_reads rfl
        · refine loopS_forall (fun _ _ s => loopS_forall (fun _ _ s => ?_) _) _
          exact ite_reads rfl
      · subst hts
        intro task ht
        obtain ⟨k1, _, rfl⟩ := mem_map.1 ht
        refine loopS_forall (fun _ _ s => loopS_forall (fun _ _ s => loopS_forall
          (fun _ _ s => ?_) _) _) _
        exact ite_reads rfl
    · simp at hts

theorem packC_k_reads {C C_p : Loc} {M N p m_r n_r : Nat} {x : BlkDims} :
    PhReads C.buf (pack_C_k_first C C_p M N p m_r n_r x) := by
  unfold pack_C_k_first PhReads
  refine loopS_forall (fun _ _ s => loopS_forall (fun _ _ s ts hts => ?_) _) _
  simp only [mem_singleton] at hts
  subst hts
  exact forall_map_task fun i _ o ho l hl => packC_ob_reads o ho l hl

theorem forall_map_map {f : Nat → Nat → List Op} {g : Nat → Nat} {u : Nat} {P : Op → Prop}
    (h : ∀ n i, ∀ o ∈ f n i, P o) :
    ∀ tasks ∈ (range u).map (fun n => (range (g n)).map (f n)), ∀ task ∈ tasks, ∀ o ∈ task, P o := by
  intro ts hts
  obtain ⟨n, _, rfl⟩ := mem_map.1 hts
  exact forall_map_task fun i _ => h n i

theorem packC_m_reads {C C_p : Loc} {M N m_r n_r : Nat} {x : BlkDims} :
    PhReads C.buf (pack_C_m_first C C_p M N m_r n_r x) :=
  forall_map_map (P := fun o => ∀ l ∈ o.reads, l.buf = C.buf)
    fun _ _ o ho l hl => packC_ob_reads o ho l hl

theorem unpackC_m_reads {C C_p : Loc} {M N m_r n_r : Nat} {x : BlkDims} :
    PhReads C_p.buf (unpack_C_m_first C C_p M N m_r n_r x) :=
  forall_map_map (P := fun o => ∀ l ∈ o.reads, l.buf = C_p.buf)
    fun _ _ o ho l hl => unpack_ob_reads o ho l hl

theorem packC_n_reads {C C_p : Loc} {M N p m_r n_r : Nat} {x : BlkDims} :
    PhReads C.buf (pack_C_n_first C C_p M N p m_r n_r x) :=
  forall_map_map (P := fun o => ∀ l ∈ o.reads, l.buf = C.buf)
    fun _ _ o ho l hl => packC_ob_reads o ho l hl

theorem unpackC_n_reads {C C_p : Loc} {M N p m_r n_r : Nat} {x : BlkDims} :
    PhReads C_p.buf (unpack_C_n_first C C_p M N p m_r n_r x) :=
  forall_map_map (P := fun o => ∀ l ∈ o.reads, l.buf = C_p.buf)
    fun _ _ o ho l hl => unpack_ob_reads o ho l hl

/-! ### The schedules -/

theorem dvd_ite' {n a b : Nat} {c : Prop} [Decidable c] (h : n ∣ a) (h' : n ∣ b) :
    n ∣ if c then a else b := by split <;> assumption


section
variable {kd : KDim} {C : Loc} {M N K p m_r n_r m_c k_c n_c : Nat}

/-- Every column block starts at a multiple of `n_r` and its width is one. -/
def WidthOK (n_r : Nat) (x : BlkDims) : Prop :=
  ∀ n, n < x.Nb → n_r ∣ n * x.n_c ∧ n_r ∣ (if (n == x.Nb - 1 && x.n_pad) = true then x.n_c1 else x.n_c)

/-- The widths are multiples of the register tile if `n_c` is one or the only block is ragged. -/
theorem WidthOK.of {x : BlkDims} (h : n_r ∣ n_c ∨ N < n_c) (h1 : x.n_c = n_c) (h2 : x.n_c1 = cdiv (N % n_c) n_r * n_r)
    (h3 : x.n_pad = (N % n_c != 0)) (h4 : x.Nb = N / n_c + (N % n_c != 0).toNat) : WidthOK n_r x := by
  intro n hn
  rw [h1, h2]
  rcases h with h | h
  · exact ⟨h.mul_left _, by split; exacts [Nat.dvd_mul_left _ _, h]⟩
  · rw [Nat.div_eq_of_lt h, Nat.mod_eq_of_lt h, Nat.zero_add] at h4
    rw [Nat.mod_eq_of_lt h] at h3
    rcases Nat.eq_zero_or_pos N with rfl | hN
    · simp at h4; omega
    have e : (N != 0) = true := by simp; omega
    rw [e] at h3 h4
    have h4' : x.Nb = 1 := h4
    have hn0 : n = 0 := by omega
    subst hn0
    rw [h3, h4']
    simp

theorem schedK_lane {A_p B_p : Loc} {b : Buf} {x : BlkDims} (hA : A_p.buf ≠ b) (hb : ∀ t, b ≠ .reg t)
    (hb' : ∀ i, b ≠ .CpC i) (hBi : B_p.buf = b → B_p.idx = 0) (hn : kd.L ∣ n_r) (hc : WidthOK n_r x) :
    PhLane kd.L b (schedule_KMN kd A_p B_p C M N K p m_r n_r x) := by
  unfold schedule_KMN
  intro ts hts task ht o ho
  simp only [mem_flatMap, mem_cons, not_mem_nil, or_false] at hts
  obtain ⟨n, hn', m, _, hts⟩ := hts
  have hc := hc n (mem_range.1 hn')
  rcases hts with rfl | rfl
  · obtain ⟨core, _, rfl⟩ := mem_map.1 ht
    obtain ⟨k, _, ho⟩ := mem_flatMap.1 ho
    refine regTiles_lane (C := ⟨.CpC core, 0⟩) ?_ (fun e => hb' core e.symm) hb ?_ hn ho
    · exact hA
    intro e
    simp only [Loc.off, hBi e, Nat.zero_add]
    rw [Nat.mul_assoc, Nat.mul_left_comm]
    exact Nat.dvd_add (hc.1.mul_left _) (hc.2.mul_left _)
  · obtain ⟨core, _, rfl⟩ := mem_map.1 ht
    apply LaneOK.of_no_read
    intro l hl
    rcases mem_append.1 ho with ho | ho
    · rw [unpack_ob_reads o ho l hl]
      exact fun e => hb' core e.symm
    · obtain ⟨i, _, rfl⟩ := mem_map.1 ho
      simp [Op.reads] at hl

theorem schedM_lane {A_p B_p C_p : Loc} {b : Buf} {x : BlkDims} (hA : A_p.buf ≠ b) (hb : ∀ t, b ≠ .reg t)
    (hb' : C_p.buf ≠ b) (hBi : B_p.buf = b → B_p.idx = 0) (hn : kd.L ∣ n_r) (hc : WidthOK n_r x) :
    PhLane kd.L b (schedule_MKN kd A_p B_p C_p K p m_r n_r x) := by
  unfold schedule_MKN
  intro ts hts task ht o ho
  simp only [mem_flatMap, mem_map] at hts
  obtain ⟨n, hn', k, _, rfl⟩ := hts
  obtain ⟨i, _, rfl⟩ := mem_map.1 ht
  obtain ⟨core, _, ho⟩ := mem_flatMap.1 ho
  have hc := hc n (mem_range.1 hn')
  refine regTiles_lane ?_ ?_ hb ?_ hn ho
  · exact hA
  · exact hb'
  intro e
  simp only [Loc.off, hBi e, Nat.zero_add]
  rw [Nat.mul_assoc n K, Nat.mul_left_comm n K]
  exact Nat.dvd_add (Nat.dvd_add (hc.1.mul_left _) (hc.2.mul_left _)) (hc.2.mul_left _)

theorem schedN_lane {A_p B_p C_p : Loc} {b : Buf} {x : BlkDims} (hA : A_p.buf ≠ b) (hb : ∀ t, b ≠ .reg t)
    (hb' : C_p.buf ≠ b) (hBi : B_p.buf = b → B_p.idx = 0) (hn : kd.L ∣ n_r) (hc : WidthOK n_r x) (hN : n_r ∣ x.N_padded) :
    PhLane kd.L b (schedule_NKM kd A_p B_p C_p K p m_r n_r x) := by
  unfold schedule_NKM
  intro ts hts task ht o ho
  simp only [mem_flatMap, mem_map] at hts
  obtain ⟨m, _, k, _, rfl⟩ := hts
  obtain ⟨i, hi, rfl⟩ := mem_map.1 ht
  obtain ⟨core, _, ho⟩ := mem_flatMap.1 ho
  have hi := mem_range.1 hi
  generalize (if m % 2 ≠ 0 then if k % 2 ≠ 0 then false else true else if k % 2 ≠ 0 then true else false) = b' at ho
  have hc := hc (if b' = true then x.Nb - 1 - i else i) (by split <;> omega)
  refine regTiles_lane ?_ ?_ hb ?_ hn ho
  · exact hA
  · exact hb'
  intro e
  simp only [Loc.off, hBi e, Nat.zero_add]
  exact Nat.dvd_add (Nat.dvd_add (hN.mul_left _) (hc.1.mul_right _)) (hc.2.mul_left _)

end

/-- Every parallel loop of a program. -/
def ProgLane (L : Nat) (b : Buf) (prog : Prog) : Prop :=
  ∀ ph, Item.par ph ∈ prog → ∀ task ∈ ph, ∀ o ∈ task, LaneOK L b o

theorem ProgLane.append {L : Nat} {b : Buf} {p q : Prog} (h : ProgLane L b p) (h' : ProgLane L b q) :
    ProgLane L b (p ++ q) := by
  intro ph hp
  rcases mem_append.1 hp with h1 | h1
  · exact h ph h1
  · exact h' ph h1

theorem ProgLane.cons {L : Nat} {b : Buf} {i : Item} {q : Prog} (h : ∀ ph, i ≠ .par ph)
    (h' : ProgLane L b q) : ProgLane L b (i :: q) := by
  intro ph hp
  rcases mem_cons.1 hp with h1 | h1
  · exact absurd h1.symm (h ph)
  · exact h' ph h1

theorem ProgLane.nil {L : Nat} {b : Buf} : ProgLane L b [] := by intro ph hp; simp at hp

theorem PhLane.prog {L : Nat} {b : Buf} {ph : List (List (List Op))} (h : PhLane L b ph) :
    ProgLane L b (phases ph) := by
  intro q hq
  obtain ⟨ts, hts, e⟩ := mem_map.1 hq
  cases e
  exact h _ hts

theorem ProgLane.map {L : Nat} {b : Buf} {f : Nat → Item} {p : Nat} (h : ∀ i ph, f i ≠ .par ph) :
    ProgLane L b ((range p).map f) := by
  intro q hq
  obtain ⟨i, _, e⟩ := mem_map.1 hq
  exact absurd e (h i q)

/-- Vector length of the kernel a schedule calls. -/
def kernL (cx : Cntx) (sch : Sched) : Nat := if sch = .KMN then cx.kmap.L else cx.kfix.L

/-- All reads of the packed B, be it the library's buffer or the one passed by the caller, are lanes of vector loads. -/
theorem sgemm_lane {β : Type _} (nz : β → Bool) (cx : Cntx) (M N K p : Nat) (packedA packedB : Bool)
    (alpha beta : β) (m_c k_c n_c : Nat) (sch : Sched) (hn : kernL cx sch ∣ cx.n_r) (hc : cx.n_r ∣ n_c ∨ N < n_c)
    {b : Buf} (hb : b = .Bp ∨ b = .B ∧ packedB = true) (prog : Prog)
    (hp : cake_sgemm nz cx ⟨.A, 0⟩ ⟨.B, 0⟩ ⟨.C, 0⟩ M N K p packedA packedB alpha beta m_c k_c n_c sch =
      some prog) : ProgLane (kernL cx sch) b prog := by
  have bA : Buf.A ≠ b := by rcases hb with rfl | ⟨rfl, _⟩ <;> simp
  have bAp : Buf.Ap ≠ b := by rcases hb with rfl | ⟨rfl, _⟩ <;> simp
  have bC : Buf.C ≠ b := by rcases hb with rfl | ⟨rfl, _⟩ <;> simp
  have bCp : Buf.Cp ≠ b := by rcases hb with rfl | ⟨rfl, _⟩ <;> simp
  have breg : ∀ t, b ≠ .reg t := by rcases hb with rfl | ⟨rfl, _⟩ <;> simp
  have bCpC : ∀ t, b ≠ .CpC t := by rcases hb with rfl | ⟨rfl, _⟩ <;> simp
  have hB : ∀ ph : List (List (List Op)), PhReads .B ph → packedB = false → ProgLane (kernL cx sch) b (phases ph) := by
    intro ph h e
    rcases hb with rfl | ⟨rfl, h'⟩
    · exact (h.lane (by simp)).prog
    · rw [e] at h'; cases h'
  have hN : cx.n_r ∣ (N - N % n_c) + cdiv (N % n_c) cx.n_r * cx.n_r :=
    Nat.dvd_add (by
      rcases hc with hc | hc
      · exact hc.trans (Nat.dvd_sub_mod _)
      · rw [Nat.mod_eq_of_lt hc, Nat.sub_self]; exact Nat.dvd_zero _) (Nat.dvd_mul_left _ _)
  have hd : ProgLane (kernL cx sch) b [.malloc .Blk 1, .malloc .Dims 1, .free .Dims] := by
    intro ph h; simp at h
  have hf : ProgLane (kernL cx sch) b ((if packedA then [] else [.free .Ap]) ++
      (if packedB then [] else [.free .Bp]) ++ [.free .Blk]) := by
    intro ph h
    cases packedA <;> cases packedB <;> simp at h
  have hA0 : ((if packedA then ⟨.A, 0⟩ else ⟨.Ap, 0⟩ : Loc)).buf ≠ b := by
    cases packedA
    · exact bAp
    · exact bA
  have hB0 : ∀ b : Buf, ((if packedB then ⟨.B, 0⟩ else ⟨.Bp, 0⟩ : Loc)).buf = b →
      ((if packedB then ⟨.B, 0⟩ else ⟨.Bp, 0⟩ : Loc)).idx = 0 := by
    intro _ _; cases packedB <;> simp
  have prep : ∀ (c : Bool) (i : Item) (q : Prog), (∀ ph, i ≠ .par ph) →
      (c = false → ProgLane (kernL cx sch) b q) → ProgLane (kernL cx sch) b (if c then [] else i :: q) := by
    intro c i q h h'
    cases c
    · exact .cons h (h' rfl)
    · exact .nil
  cases sch with
  | NA => simp [cake_sgemm, init_block_dims] at hp
  | KMN =>
    simp only [kernL, if_true] at *
    simp only [cake_sgemm, init_block_dims, packedASize, packedCSize, pack_A, pack_B, pack_C, unpack_C,
      schedule, Option.bind_eq_bind, Option.bind_some, dimsKMN, if_true, Option.some.injEq] at hp
    subst hp
    refine .append (.append (.append (.append hd (prep _ _ _ (by simp) ?_)) (prep _ _ _ (by simp) ?_))
      (.append (.append (.map (by simp)) ?_) (.map (by simp)))) hf
    · exact fun _ => (packA_k_reads.lane bA).prog
    · exact hB _ packB_k_reads
    · exact (schedK_lane hA0 breg bCpC (hB0 _) hn (.of hc rfl rfl rfl rfl)).prog
  | MKN =>
    simp only [kernL, reduceCtorEq, if_false] at *
    simp only [cake_sgemm, init_block_dims, packedASize, packedCSize, pack_A, pack_B, pack_C, unpack_C,
      schedule, Option.bind_eq_bind, Option.bind_some, dimsMKN, reduceCtorEq, if_false, Option.some.injEq] at hp
    subst hp
    refine .append (.append (.append (.append hd (prep _ _ _ (by simp) ?_)) (prep _ _ _ (by simp) ?_))
      (.append (.append (.append ?_ ?_) ?_) (.cons (by simp) .nil))) hf
    · exact fun _ => (packA_m_reads.lane bA).prog
    · exact hB _ packB_m_reads
    · split
      · exact .cons (by simp) (packC_m_reads.lane bC).prog
      · exact .cons (by simp) .nil
    · exact (schedM_lane hA0 breg bCp (hB0 _) hn (.of hc rfl rfl rfl rfl)).prog
    · exact (unpackC_m_reads.lane bCp).prog
  | NKM =>
    simp only [kernL, reduceCtorEq, if_false] at *
    simp only [cake_sgemm, init_block_dims, packedASize, packedCSize, pack_A, pack_B, pack_C, unpack_C,
      schedule, Option.bind_eq_bind, Option.bind_some, dimsNKM, reduceCtorEq, if_false, Option.some.injEq] at hp
    subst hp
    refine .append (.append (.append (.append hd (prep _ _ _ (by simp) ?_)) (prep _ _ _ (by simp) ?_))
      (.append (.append (.append ?_ ?_) ?_) (.cons (by simp) .nil))) hf
    · exact fun _ => (packA_n_reads.lane bA).prog
    · exact hB _ packB_n_reads
    · split
      · exact .cons (by simp) (packC_n_reads.lane bC).prog
      · exact .cons (by simp) .nil
    · exact (schedN_lane hA0 breg bCp (hB0 _) hn (.of hc rfl rfl rfl rfl) hN).prog
    · exact (unpackC_n_reads.lane bCp).prog

end Cake
