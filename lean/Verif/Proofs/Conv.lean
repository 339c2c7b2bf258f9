/-
`schedule_KMN_conv`: closed form, race freedom, safety, effect.
-/
import Verif.Proofs.ConvPack
import Verif.Proofs.Acc
import Verif.Proofs.SgemmK
import Verif.ConvSpec

namespace Cake
open List

/-- One call of the microkernel. -/
def convTileG (m_r n_r : Nat) (Fp In Out : Loc) (Wf Hf Win Hin Wout Hout Cin Cout p m_c k_c n_c n m core k ho hf
    wf n_reg m_reg : Nat) : List Op :=
  ukernel 8 6 2 core
    (Fp +ₚ (Wf * Hf * aInd Cout Cin p m_r m_c k_c m k core +
      (m_reg * (Wf * Hf * chopLen Cin k_c k * m_r) + (wf + hf * Wf) * chopLen Cin k_c k * m_r)))
    (In +ₚ (k * k_c * (Hin * Win) + ((n * n_c + ho + hf) * Win + (n_reg * n_r + wf))))
    (Out +ₚ (rowOf Cout p m_r m_c m core (m_reg * m_r) * (Hout * Wout) +
      ((n * n_c + ho) * Wout + n_reg * n_r)))
    (Hout * Wout) 0 (Hin * Win) (chopLen Cin k_c k)

/-- As called with the register tile of the kernel. -/
abbrev convTile := convTileG 6 16

def convTask (Fp In Out : Loc) (Wf Hf Win Hin Wout Hout Cin Cout p m_c k_c n_c n m core : Nat) : List Op :=
  (range (cdiv Cin k_c)).flatMap fun k => (range (chopLen Hout n_c n)).flatMap fun ho =>
    (range Hf).flatMap fun hf => (range Wf).flatMap fun wf => (range (Wout / 16)).flatMap fun n_reg =>
      (range (mT Cout p 6 m_c m core / 6)).flatMap fun m_reg =>
        convTile Fp In Out Wf Hf Win Hin Wout Hout Cin Cout p m_c k_c n_c n m core k ho hf wf n_reg m_reg

section
variable {Wf Hf Win Hin Wout Hout Cin Cout p m_c k_c n_c : Nat}

/-- The schedule for any register tile sizes in the addressing. -/
theorem schedConv_phasesG {m_r n_r : Nat} (h : TileOK p m_r 1 m_c k_c n_c) (Fp In Out : Loc) :
    schedule_KMN_conv Fp In Out Wf Hf Win Hin Wout Hout Cin p m_r n_r
        (dimsKMN Cout Hout Cin p m_r 1 m_c k_c n_c) =
      (range (cdiv Hout n_c)).flatMap fun n => (range (cdiv Cout (p * m_c))).flatMap fun m =>
        [(range (mU Cout p m_r m_c m)).map fun core =>
          (range (cdiv Cin k_c)).flatMap fun k => (range (chopLen Hout n_c n)).flatMap fun ho =>
            (range Hf).flatMap fun hf => (range Wf).flatMap fun wf => (range (Wout / n_r)).flatMap fun n_reg =>
              (range (mT Cout p m_r m_c m core / m_r)).flatMap fun m_reg =>
                convTileG m_r n_r Fp In Out Wf Hf Win Hin Wout Hout Cin Cout p m_c k_c n_c n m core k ho hf wf
                  n_reg m_reg] := by
  unfold schedule_KMN_conv
  rw [kmn_Mb h, kmn_Kb h, kmn_Nb h]
  have hpad : (dimsKMN Cout Hout Cin p m_r 1 m_c k_c n_c).m_pad = (Cout % (p * m_c) != 0) := rfl
  have hkpad : (dimsKMN Cout Hout Cin p m_r 1 m_c k_c n_c).k_pad = (Cin % k_c != 0) := rfl
  have hnpad : (dimsKMN Cout Hout Cin p m_r 1 m_c k_c n_c).n_pad = (Hout % n_c != 0) := rfl
  have hmc : (dimsKMN Cout Hout Cin p m_r 1 m_c k_c n_c).m_c = m_c := rfl
  have hmr : (dimsKMN Cout Hout Cin p m_r 1 m_c k_c n_c).mr_rem = cdiv (Cout % (p * m_c)) m_r := rfl
  have hkc : (dimsKMN Cout Hout Cin p m_r 1 m_c k_c n_c).k_c = k_c := rfl
  have hkc1 : (dimsKMN Cout Hout Cin p m_r 1 m_c k_c n_c).k_c1 = Cin % k_c := rfl
  have hnc : (dimsKMN Cout Hout Cin p m_r 1 m_c k_c n_c).n_c = n_c := rfl
  have hnc1 : (dimsKMN Cout Hout Cin p m_r 1 m_c k_c n_c).n_c1 = Hout % n_c := by
    change cdiv (Hout % n_c) 1 * 1 = _
    simp [cdiv]
  rw [hpad, hkpad, hnpad, hmc, hmr, hkc, hkc1, hnc, hnc1]
  apply flatMap_congr
  intro n hn
  rw [mem_range] at hn
  apply flatMap_congr
  intro m hm
  rw [mem_range] at hm
  obtain ⟨_, _, _, h4, _, h6⟩ := m_strips (N := Hout) (K := Cin) (k_c := k_c) (n_r := 1) (n_c := n_c) h hm
  have hlen : (if (m == cdiv Cout (p * m_c) - 1 && Cout % (p * m_c) != 0) = true then
        m_r * cdiv (Cout % (p * m_c)) m_r
       else (if (m == cdiv Cout (p * m_c) - 1 && Cout % (p * m_c) != 0) = true then
        (dimsKMN Cout Hout Cin p m_r 1 m_c k_c n_c).p_l else p) * m_c) = mLen Cout p m_r m_c m := by
    rw [← m_len h hm]
    split <;> rfl
  have hx : (if (m == cdiv Cout (p * m_c) - 1 && Cout % (p * m_c) != 0) = true then
        (dimsKMN Cout Hout Cin p m_r 1 m_c k_c n_c).m_c1 else m_c) = mX Cout p m_r m_c m := rfl
  simp only [k_len h.n_c_pos hn]
  rw [hlen, h4, hx]
  refine congrArg (fun a => [a]) ?_
  apply map_congr_left
  intro core hcore
  rw [mem_range] at hcore
  rw [h6 core hcore]
  apply flatMap_congr
  intro k hk
  rw [mem_range] at hk
  rw [k_len h.k_c_pos hk]
  apply flatMap_congr
  intro ho _
  apply flatMap_congr
  intro hf _
  apply flatMap_congr
  intro wf _
  apply flatMap_congr
  intro n_reg _
  apply flatMap_congr
  intro m_reg _
  unfold convTileG cake_conv_haswell_6x16 aInd rowOf
  congr 1
  · congr 1; ring
  · congr 1; ring
  · congr 1; ring
  · ring
  · ring


variable (h : TileOK p 6 1 m_c k_c n_c)
include h

theorem schedConv_phases (Fp In Out : Loc) :
    schedule_KMN_conv Fp In Out Wf Hf Win Hin Wout Hout Cin p 6 16 (dimsKMN Cout Hout Cin p 6 1 m_c k_c n_c) =
      (range (cdiv Hout n_c)).flatMap fun n => (range (cdiv Cout (p * m_c))).flatMap fun m =>
        [(range (mU Cout p 6 m_c m)).map fun core =>
          convTask Fp In Out Wf Hf Win Hin Wout Hout Cin Cout p m_c k_c n_c n m core] :=
  schedConv_phasesG h Fp In Out

omit h in
theorem convTile_dst {Fp In Out : Loc} {n m core k ho hf wf n_reg m_reg : Nat} (o : Op)
    (ho' : o ∈ convTile Fp In Out Wf Hf Win Hin Wout Hout Cin Cout p m_c k_c n_c n m core k ho hf wf n_reg
      m_reg) :
    o.dst.buf = .reg core ∨ ∃ i j, i < 6 ∧ j < 16 ∧ o.dst = Out +ₚ
      (rowOf Cout p 6 m_c m core (m_reg * 6 + i) * (Hout * Wout) + ((n * n_c + ho) * Wout + (n_reg * 16 + j))) := by
  rcases ukernel_dst _ _ _ _ _ _ _ _ _ _ _ o ho' with h1 | ⟨i, j, hi, hj, h1⟩
  · exact Or.inl h1
  · refine Or.inr ⟨i, j, hi, hj, ?_⟩
    rw [h1, off_off]
    unfold rowOf
    congr 1
    ring

omit h in
/-- Where one element of the output is handled. -/
theorem conv_inj {n m core ho r wo n' m' core' ho' r' wo' : Nat}
    (hr : r < mT Cout p 6 m_c m core) (hr' : r' < mT Cout p 6 m_c m' core')
    (hho : ho < chopLen Hout n_c n) (hho' : ho' < chopLen Hout n_c n') (hwo : wo < Wout) (hwo' : wo' < Wout)
    (e : rowOf Cout p 6 m_c m core r * (Hout * Wout) + ((n * n_c + ho) * Wout + wo) =
      rowOf Cout p 6 m_c m' core' r' * (Hout * Wout) + ((n' * n_c + ho') * Wout + wo')) :
    m = m' ∧ core = core' ∧ r = r' ∧ n = n' ∧ ho = ho' ∧ wo = wo' := by
  obtain ⟨e1, e2⟩ := mulAdd_inj (mulAdd_lt (chop_bound hho) hwo) (mulAdd_lt (chop_bound hho') hwo') e
  obtain ⟨e3, e4⟩ := mulAdd_inj hwo hwo' e2
  obtain ⟨e5, e6⟩ := mulAdd_inj (Nat.lt_of_lt_of_le hho (chopLen_le _ _ _))
    (Nat.lt_of_lt_of_le hho' (chopLen_le _ _ _)) e3
  obtain ⟨e7, e8, e9⟩ := rowOf_inj hr hr' e1
  exact ⟨e7, e8, e9, e5, e6, e4⟩

omit h in
theorem reg_col {n_reg j : Nat} (h1 : n_reg < Wout / 16) (h2 : j < 16) : n_reg * 16 + j < Wout / 16 * 16 := by
  omega

theorem convTask_dst {Fp In Out : Loc} {n m core : Nat} (hm : m < cdiv Cout (p * m_c)) (o : Op)
    (ho' : o ∈ convTask Fp In Out Wf Hf Win Hin Wout Hout Cin Cout p m_c k_c n_c n m core) :
    o.dst.buf = .reg core ∨ ∃ r ho wo, r < mT Cout p 6 m_c m core ∧ ho < chopLen Hout n_c n ∧
      wo < Wout / 16 * 16 ∧ o.dst = Out +ₚ
      (rowOf Cout p 6 m_c m core r * (Hout * Wout) + ((n * n_c + ho) * Wout + wo)) := by
  simp only [convTask, mem_flatMap, mem_range] at ho'
  obtain ⟨k, hk, ho, hho, hf, hhf, wf, hwf, n_reg, hnr, m_reg, hmr, hin⟩ := ho'
  rcases convTile_dst o hin with h1 | ⟨i, j, hi, hj, h1⟩
  · exact Or.inl h1
  · refine Or.inr ⟨m_reg * 6 + i, ho, n_reg * 16 + j, ?_, hho, reg_col hnr hj, h1⟩
    have := mulAdd_lt hmr hi
    rwa [Nat.div_mul_cancel (mT_dvd h hm)] at this

theorem convTask_reads {Fp In Out : Loc} {n m core : Nat} (hm : m < cdiv Cout (p * m_c)) (o : Op)
    (ho' : o ∈ convTask Fp In Out Wf Hf Win Hin Wout Hout Cin Cout p m_c k_c n_c n m core) (l : Loc)
    (hl : l ∈ o.reads) :
    l.buf = .reg core ∨ (∃ r ho wo, r < mT Cout p 6 m_c m core ∧ ho < chopLen Hout n_c n ∧
      wo < Wout / 16 * 16 ∧ l = Out +ₚ
      (rowOf Cout p 6 m_c m core r * (Hout * Wout) + ((n * n_c + ho) * Wout + wo))) ∨ l.buf = Fp.buf ∨
      l.buf = In.buf := by
  simp only [convTask, mem_flatMap, mem_range] at ho'
  obtain ⟨k, hk, ho, hho, hf, hhf, wf, hwf, n_reg, hnr, m_reg, hmr, hin⟩ := ho'
  rcases ukernel_reads _ _ _ _ _ _ _ _ _ _ _ o hin l hl with h1 | ⟨i, j, hi, hj, h1⟩ | h1 | h1
  · exact Or.inl h1
  · refine Or.inr (Or.inl ⟨m_reg * 6 + i, ho, n_reg * 16 + j, ?_, hho, reg_col hnr hj, ?_⟩)
    · have := mulAdd_lt hmr hi
      rwa [Nat.div_mul_cancel (mT_dvd h hm)] at this
    · rw [h1, off_off]
      unfold rowOf
      congr 1
      ring
  · exact Or.inr (Or.inr (Or.inl h1))
  · exact Or.inr (Or.inr (Or.inr h1))

/-- Tasks of one phase never touch each other's part of the output. -/
theorem conv_raceFree : ∀ ts ∈ schedule_KMN_conv ⟨.Ap, 0⟩ ⟨.B, 0⟩ ⟨.C, 0⟩ Wf Hf Win Hin Wout Hout Cin p 6 16
    (dimsKMN Cout Hout Cin p 6 1 m_c k_c n_c), RaceFree ts := by
  intro ts hts
  rw [schedConv_phases h] at hts
  simp only [mem_flatMap, mem_range, mem_singleton] at hts
  obtain ⟨n, hn, m, hm, rfl⟩ := hts
  apply raceFree_map
  intro i j hi hj hne o ho o' ho' hc
  have hW : Wout / 16 * 16 ≤ Wout := Nat.div_mul_le_self _ _
  have d1 := convTask_dst h hm o ho
  have d2 := convTask_dst h hm o' ho'
  have sep : ∀ {r ho wo r' ho' wo' : Nat}, r < mT Cout p 6 m_c m i → r' < mT Cout p 6 m_c m j →
      ho < chopLen Hout n_c n → ho' < chopLen Hout n_c n → wo < Wout / 16 * 16 → wo' < Wout / 16 * 16 →
      (⟨.C, 0⟩ : Loc) +ₚ (rowOf Cout p 6 m_c m i r * (Hout * Wout) + ((n * n_c + ho) * Wout + wo)) ≠
      (⟨.C, 0⟩ : Loc) +ₚ (rowOf Cout p 6 m_c m j r' * (Hout * Wout) + ((n * n_c + ho') * Wout + wo')) := by
    intro r ho wo r' ho' wo' g1 g2 g3 g4 g5 g6 e
    exact hne (conv_inj g1 g2 g3 g4 (by omega) (by omega) ((off_inj _ _ _).1 e)).2.1
  rcases hc with e | e | e
  · rcases d1 with d1 | ⟨r, ho1, wo, g1, g2, g3, d1⟩ <;> rcases d2 with d2 | ⟨r', ho2, wo', g1', g2', g3', d2⟩
    · rw [e, d2] at d1; simp at d1; exact hne d1.symm
    · rw [e, d2] at d1; simp at d1
    · rw [e] at d1; rw [d1] at d2; simp at d2
    · rw [e, d2] at d1; exact sep g1 g1' g2 g2' g3 g3' d1.symm
  · rcases convTask_reads h hm o' ho' _ e with r2 | ⟨r', ho2, wo', g1', g2', g3', r2⟩ | r2 | r2 <;>
      rcases d1 with d1 | ⟨r, ho1, wo, g1, g2, g3, d1⟩
    · rw [d1] at r2; simp at r2; exact hne r2
    · rw [d1] at r2; simp at r2
    · rw [r2] at d1; simp at d1
    · rw [d1] at r2; exact sep g1 g1' g2 g2' g3 g3' r2
    · rw [d1] at r2; simp at r2
    · rw [d1] at r2; simp at r2
    · rw [d1] at r2; simp at r2
    · rw [d1] at r2; simp at r2
  · rcases convTask_reads h hm o ho _ e with r2 | ⟨r', ho2, wo', g1', g2', g3', r2⟩ | r2 | r2 <;>
      rcases d2 with d1 | ⟨r, ho1, wo, g1, g2, g3, d1⟩
    · rw [d1] at r2; simp at r2; exact hne r2.symm
    · rw [d1] at r2; simp at r2
    · rw [r2] at d1; simp at d1
    · rw [d1] at r2; exact sep g1' g1 g2' g2 g3' g3 r2.symm
    · rw [d1] at r2; simp at r2
    · rw [d1] at r2; simp at r2
    · rw [d1] at r2; simp at r2
    · rw [d1] at r2; simp at r2

omit h in
theorem fIdx_eq {T k r ker kk : Nat} {q i : Nat} (hq : r = q * 6 + i) (hi : i < 6) :
    q * (T * k * 6) + ker * k * 6 + (kk * (6 + 0) + i) = aIdx 6 (T * k) r (ker * k + kk) := by
  subst hq
  unfold aIdx
  rw [mulAdd_div hi, mulAdd_mod hi]
  ring

/-- Index into the packed filters. -/
theorem fInd_bound {T m k core r d : Nat} (hm : m < cdiv Cout (p * m_c)) (hk : k < cdiv Cin k_c)
    (hcore : core < mU Cout p 6 m_c m) (hr : r < mT Cout p 6 m_c m core) (hd : d < T * chopLen Cin k_c k) :
    T * aInd Cout Cin p 6 m_c k_c m k core + aIdx 6 (T * chopLen Cin k_c k) r d <
      padTo Cout (p * m_c) 6 * (T * Cin) := by
  have hT : 0 < T := Nat.pos_of_ne_zero (by rintro rfl; simp at hd)
  have h1 : aIdx 6 (T * chopLen Cin k_c k) r d < T * (mT Cout p 6 m_c m core * chopLen Cin k_c k) := by
    obtain ⟨q, hq⟩ := mT_dvd (core := core) h hm
    have := aIdx_lt (m_r := 6) (q := q) hd (by rw [Nat.mul_comm]; rwa [hq] at hr)
    rw [hq]
    calc _ < q * 6 * (T * chopLen Cin k_c k) := this
      _ = _ := by ring
  have hpos : 0 < mT Cout p 6 m_c m core * chopLen Cin k_c k := by
    apply Nat.pos_of_ne_zero
    intro e; rw [e] at h1; simp at h1
  have h2 := aInd_bound h hm hk hcore (x := mT Cout p 6 m_c m core * chopLen Cin k_c k - 1) (by omega)
  have h3 : aInd Cout Cin p 6 m_c k_c m k core + mT Cout p 6 m_c m core * chopLen Cin k_c k ≤
      padTo Cout (p * m_c) 6 * Cin := by omega
  calc _ < T * aInd Cout Cin p 6 m_c k_c m k core + T * (mT Cout p 6 m_c m core * chopLen Cin k_c k) := by
        omega
    _ = T * (aInd Cout Cin p 6 m_c k_c m k core + mT Cout p 6 m_c m core * chopLen Cin k_c k) := by ring
    _ ≤ T * (padTo Cout (p * m_c) 6 * Cin) := Nat.mul_le_mul_left _ h3
    _ = _ := by ring

/-- What the schedule needs. -/
structure ConvReady (Wf Hf Win Hin Wout Hout Cin Cout p m_c : Nat) (size : Buf → Option Nat)
    (init : Loc → Bool) : Prop where
  ap : ∀ x, x < padTo Cout (p * m_c) 6 * (Wf * Hf * Cin) → InB size ⟨.Ap, x⟩ ∧ init ⟨.Ap, x⟩ = true
  b : ∀ x, x < Cin * (Hin * Win) → InB size ⟨.B, x⟩ ∧ init ⟨.B, x⟩ = true
  c : ∀ x, x < padTo Cout (p * m_c) 6 * (Hout * Wout) → InB size ⟨.C, x⟩ ∧ init ⟨.C, x⟩ = true

theorem conv_safe (hH : Hout + Hf ≤ Hin + 1) (hW : Wout + Wf ≤ Win + 1) {size : Buf → Option Nat}
    {init : Loc → Bool} (hs : ConvReady Wf Hf Win Hin Wout Hout Cin Cout p m_c size init) :
    ∀ ts ∈ schedule_KMN_conv ⟨.Ap, 0⟩ ⟨.B, 0⟩ ⟨.C, 0⟩ Wf Hf Win Hin Wout Hout Cin p 6 16
      (dimsKMN Cout Hout Cin p 6 1 m_c k_c n_c), ∀ t ∈ ts, Safe size init t := by
  intro ts hts t ht
  rw [schedConv_phases h] at hts
  simp only [mem_flatMap, mem_range, mem_singleton] at hts
  obtain ⟨n, hn, m, hm, rfl⟩ := hts
  obtain ⟨core, hcore, rfl⟩ := mem_map.1 ht
  rw [mem_range] at hcore
  unfold convTask
  apply Safe.flatMap
  intro k hk
  apply Safe.flatMap
  intro ho hho
  apply Safe.flatMap
  intro hf hhf
  apply Safe.flatMap
  intro wf hwf
  apply Safe.flatMap
  intro n_reg hnr
  apply Safe.flatMap
  intro m_reg hmr
  rw [mem_range] at hk hho hhf hwf hnr hmr
  have hWo : Wout / 16 * 16 ≤ Wout := Nat.div_mul_le_self _ _
  have hrow : ∀ i, i < 6 → m_reg * 6 + i < mT Cout p 6 m_c m core := by
    intro i hi
    have := mulAdd_lt hmr hi
    rwa [Nat.div_mul_cancel (mT_dvd h hm)] at this
  have hcol := chop_bound hho
  unfold convTile convTileG
  apply ukernel_safe
  · intro i j hi hj
    have := hs.c (rowOf Cout p 6 m_c m core (m_reg * 6 + i) * (Hout * Wout) +
      ((n * n_c + ho) * Wout + (n_reg * 16 + j))) (mulAdd_lt (rowOf_lt (hrow i hi))
        (mulAdd_lt hcol (Nat.lt_of_lt_of_le (reg_col hnr hj) hWo)))
    rw [off_off]
    have e : rowOf Cout p 6 m_c m core (m_reg * 6) * (Hout * Wout) + ((n * n_c + ho) * Wout + n_reg * 16) +
        (i * (Hout * Wout) + j) = rowOf Cout p 6 m_c m core (m_reg * 6 + i) * (Hout * Wout) +
      ((n * n_c + ho) * Wout + (n_reg * 16 + j)) := by unfold rowOf; ring
    rw [e]
    simpa [Loc.off] using this
  · intro kk i hkk hi
    have hker : wf + hf * Wf < Wf * Hf := by
      have := mulAdd_lt hhf hwf
      rw [Nat.mul_comm Wf, Nat.add_comm]; exact this
    have := hs.ap _ (fInd_bound (T := Wf * Hf) h hm hk hcore (hrow i hi)
      (mulAdd_lt hker hkk))
    rw [off_off, Nat.add_assoc, fIdx_eq rfl hi]
    simpa [Loc.off] using this
  · intro kk j hkk hj
    have h1 : n * n_c + ho + hf < Hin := by omega
    have h2 : n_reg * 16 + wf + j < Win := by
      have := reg_col hnr hj
      omega
    have := hs.b ((k * k_c + kk) * (Hin * Win) + ((n * n_c + ho + hf) * Win + (n_reg * 16 + wf + j)))
      (mulAdd_lt (chop_bound hkk) (mulAdd_lt h1 h2))
    rw [off_off]
    have e : k * k_c * (Hin * Win) + ((n * n_c + ho + hf) * Win + (n_reg * 16 + wf)) + (kk * (Hin * Win) + j) =
        (k * k_c + kk) * (Hin * Win) + ((n * n_c + ho + hf) * Win + (n_reg * 16 + wf + j)) := by ring
    rw [e]
    simpa [Loc.off] using this

/-! ### Effect -/

omit h in
/-- The passes of the inner loops that contribute to one element of the output. -/
def convQ (Wf Hf Cin k_c : Nat) : List (Nat × Nat × Nat × Nat) :=
  (range (cdiv Cin k_c)).flatMap fun k => (range Hf).flatMap fun hf => (range Wf).flatMap fun wf =>
    (range (chopLen Cin k_c k)).map fun kk => (k, hf, wf, kk)

omit h in
theorem mem_convQ {q : Nat × Nat × Nat × Nat} : q ∈ convQ Wf Hf Cin k_c ↔
    q.1 < cdiv Cin k_c ∧ q.2.1 < Hf ∧ q.2.2.1 < Wf ∧ q.2.2.2 < chopLen Cin k_c q.1 := by
  obtain ⟨k, hf, wf, kk⟩ := q
  simp only [convQ, mem_flatMap, mem_range, mem_map, Prod.mk.injEq]
  constructor
  · rintro ⟨k', h1, hf', h2, wf', h3, kk', h4, rfl, rfl, rfl, rfl⟩
    exact ⟨h1, h2, h3, h4⟩
  · rintro ⟨h1, h2, h3, h4⟩
    exact ⟨k, h1, hf, h2, wf, h3, kk, h4, rfl, rfl, rfl, rfl⟩

omit h in
/-- The factors multiplied in one pass. -/
def convPair (Wf Hf Win Hin Cin Cout p m_c k_c n_c n m core r ho wo : Nat) (q : Nat × Nat × Nat × Nat) :
    Loc × Loc :=
  (⟨.Ap, Wf * Hf * aInd Cout Cin p 6 m_c k_c m q.1 core +
      aIdx 6 (Wf * Hf * chopLen Cin k_c q.1) r ((q.2.2.1 + q.2.1 * Wf) * chopLen Cin k_c q.1 + q.2.2.2)⟩,
    ⟨.B, (q.1 * k_c + q.2.2.2) * (Hin * Win) + ((n * n_c + ho + q.2.1) * Win + (wo + q.2.2.1))⟩)

omit h in
/-- Locations the schedule does not change. -/
def convRo (l : Loc) : Prop := l.buf = .Ap ∨ l.buf = .B

theorem convTask_ro {n m core : Nat} (hm : m < cdiv Cout (p * m_c)) :
    ∀ o ∈ convTask ⟨.Ap, 0⟩ ⟨.B, 0⟩ ⟨.C, 0⟩ Wf Hf Win Hin Wout Hout Cin Cout p m_c k_c n_c n m core,
      ¬ convRo o.dst := by
  intro o ho
  rcases convTask_dst h hm o ho with h1 | ⟨_, _, _, _, _, _, h1⟩
  · unfold convRo; rw [h1]; simp
  · unfold convRo; rw [h1]; simp

omit h in
theorem convTile_acc {F : Type _} (ar : Arith F) {n m core k ho hf wf r wo : Nat}
    (hcs : 16 ≤ Hout * Wout) :
    Accum ar convRo (convTile ⟨.Ap, 0⟩ ⟨.B, 0⟩ ⟨.C, 0⟩ Wf Hf Win Hin Wout Hout Cin Cout p m_c k_c n_c n m core k ho
      hf wf (wo / 16) (r / 6))
      ⟨.C, rowOf Cout p 6 m_c m core r * (Hout * Wout) + ((n * n_c + ho) * Wout + wo)⟩
      ((range (chopLen Cin k_c k)).map fun kk =>
        convPair Wf Hf Win Hin Cin Cout p m_c k_c n_c n m core r ho wo (k, hf, wf, kk)) := by
  have key := Accum.ukernel (F := ar) (ro := convRo) (L := 8) (m := 6) (nl := 2) (t := core) (by omega)
    (A := (⟨.Ap, 0⟩ : Loc) +ₚ (Wf * Hf * aInd Cout Cin p 6 m_c k_c m k core +
      (r / 6 * (Wf * Hf * chopLen Cin k_c k * 6) + (wf + hf * Wf) * chopLen Cin k_c k * 6)))
    (B := (⟨.B, 0⟩ : Loc) +ₚ (k * k_c * (Hin * Win) + ((n * n_c + ho + hf) * Win + (wo / 16 * 16 + wf))))
    (C := (⟨.C, 0⟩ : Loc) +ₚ (rowOf Cout p 6 m_c m core (r / 6 * 6) * (Hout * Wout) +
      ((n * n_c + ho) * Wout + wo / 16 * 16)))
    (by simp) (by simp) (by simp) (cs := Hout * Wout) (astep := 0) (bstep := Hin * Win)
    (k := chopLen Cin k_c k) (by omega) (i := r % 6) (j := wo % 16) (Nat.mod_lt _ (by omega))
    (Nat.mod_lt _ (by omega)) (by
      intro l hl
      rcases hl with hl | hl <;> rw [hl] <;> simp)
    (by intro x; exact Or.inl (by simp)) (by intro x; exact Or.inr (by simp))
  have e1 : (⟨.C, 0⟩ : Loc) +ₚ (rowOf Cout p 6 m_c m core (r / 6 * 6) * (Hout * Wout) +
      ((n * n_c + ho) * Wout + wo / 16 * 16)) +ₚ (r % 6 * (Hout * Wout) + wo % 16) =
      ⟨.C, rowOf Cout p 6 m_c m core r * (Hout * Wout) + ((n * n_c + ho) * Wout + wo)⟩ := by
    simp only [Loc.off, Loc.mk.injEq, true_and]
    have d1 : rowOf Cout p 6 m_c m core r = rowOf Cout p 6 m_c m core (r / 6 * 6) + r % 6 := by
      unfold rowOf; omega
    have d2 := Nat.div_add_mod wo 16
    rw [d1, Nat.add_mul (rowOf Cout p 6 m_c m core (r / 6 * 6))]
    generalize rowOf Cout p 6 m_c m core (r / 6 * 6) * (Hout * Wout) = a
    generalize r % 6 * (Hout * Wout) = b
    generalize (n * n_c + ho) * Wout = c
    omega
  rw [e1] at key
  unfold convTile convTileG
  convert key using 2
  funext kk
  unfold convPair
  refine congrArg₂ Prod.mk ?_ ?_
  · rw [off_off, Nat.add_assoc, fIdx_eq (divmod_eq 6 r).symm (Nat.mod_lt _ (by omega))]
    simp [Loc.off]
  · rw [off_off]
    simp only [Loc.off, Loc.mk.injEq, true_and]
    have d2 := Nat.div_add_mod wo 16
    have d3 : wo + wf = wo / 16 * 16 + wf + wo % 16 := by omega
    rw [d3]
    ring

/-- A loop pass that cannot reach the element. -/
theorem convTask_none {F : Type _} (ar : Arith F) {n m core n' m' core' ho' r' wo' : Nat}
    (hm : m < cdiv Cout (p * m_c)) (hr' : r' < mT Cout p 6 m_c m' core') (hho' : ho' < chopLen Hout n_c n')
    (hwo' : wo' < Wout) (hne : ¬ (m = m' ∧ core = core' ∧ n = n')) :
    Accum ar convRo (convTask ⟨.Ap, 0⟩ ⟨.B, 0⟩ ⟨.C, 0⟩ Wf Hf Win Hin Wout Hout Cin Cout p m_c k_c n_c n m core)
      ⟨.C, rowOf Cout p 6 m_c m' core' r' * (Hout * Wout) + ((n' * n_c + ho') * Wout + wo')⟩ [] := by
  have hW : Wout / 16 * 16 ≤ Wout := Nat.div_mul_le_self _ _
  refine Accum.none ?_ (convTask_ro h hm)
  intro o ho e
  rcases convTask_dst h hm o ho with d1 | ⟨r, ho1, wo, g1, g2, g3, d1⟩
  · rw [e] at d1; simp at d1
  · rw [e] at d1
    simp only [Loc.off, Nat.zero_add, Loc.mk.injEq, true_and] at d1
    obtain ⟨e1, e2, _, e3, _⟩ := conv_inj g1 hr' g2 hho' (by omega) hwo' d1.symm
    exact hne ⟨e1, e2, e3⟩

omit h in
/-- A kernel call that cannot reach the element. -/
theorem convTile_none {F : Type _} (ar : Arith F) {n m core k ho hf wf n_reg m_reg ho' r' wo' : Nat}
    (hho : ho < chopLen Hout n_c n) (hnr : n_reg < Wout / 16)
    (hmr : ∀ i, i < 6 → m_reg * 6 + i < mT Cout p 6 m_c m core)
    (hr' : r' < mT Cout p 6 m_c m core) (hho' : ho' < chopLen Hout n_c n)
    (hwo' : wo' < Wout) (hne : ¬ (ho = ho' ∧ n_reg = wo' / 16 ∧ m_reg = r' / 6)) :
    Accum ar convRo (convTile ⟨.Ap, 0⟩ ⟨.B, 0⟩ ⟨.C, 0⟩ Wf Hf Win Hin Wout Hout Cin Cout p m_c k_c n_c n m core k ho
      hf wf n_reg m_reg)
      ⟨.C, rowOf Cout p 6 m_c m core r' * (Hout * Wout) + ((n * n_c + ho') * Wout + wo')⟩ [] := by
  have hW : Wout / 16 * 16 ≤ Wout := Nat.div_mul_le_self _ _
  refine Accum.none ?_ ?_
  · intro o ho1 e
    rcases convTile_dst o ho1 with d1 | ⟨i, j, hi, hj, d1⟩
    · rw [e] at d1; simp at d1
    · rw [e] at d1
      simp only [Loc.off, Nat.zero_add, Loc.mk.injEq, true_and] at d1
      have hc := reg_col hnr hj
      obtain ⟨_, _, e1, _, e2, e3⟩ := conv_inj (hmr i hi) hr' hho hho' (by omega) hwo' d1.symm
      exact hne ⟨e2, by omega, by omega⟩
  · intro o ho1
    rcases convTile_dst o ho1 with d1 | ⟨i, j, hi, hj, d1⟩ <;> unfold convRo <;> rw [d1] <;> simp

/-- One task adds every tap of one element once. -/
theorem convTask_acc {F : Type _} (ar : Arith F) {n m core ho r wo : Nat}
    (hm : m < cdiv Cout (p * m_c)) (hr : r < mT Cout p 6 m_c m core) (hho : ho < chopLen Hout n_c n)
    (hwo : wo < Wout / 16 * 16) :
    Accum ar convRo (convTask ⟨.Ap, 0⟩ ⟨.B, 0⟩ ⟨.C, 0⟩ Wf Hf Win Hin Wout Hout Cin Cout p m_c k_c n_c n m core)
      ⟨.C, rowOf Cout p 6 m_c m core r * (Hout * Wout) + ((n * n_c + ho) * Wout + wo)⟩
      ((convQ Wf Hf Cin k_c).map (convPair Wf Hf Win Hin Cin Cout p m_c k_c n_c n m core r ho wo)) := by
  have hW : Wout / 16 * 16 ≤ Wout := Nat.div_mul_le_self _ _
  have hH : 0 < Hout := by have := chop_bound hho; omega
  have hcs : 16 ≤ Hout * Wout := by
    have h1 : 16 ≤ Wout := by omega
    calc 16 ≤ Wout := h1
      _ = 1 * Wout := by omega
      _ ≤ _ := Nat.mul_le_mul_right _ hH
  have hmr : ∀ m_reg, m_reg < mT Cout p 6 m_c m core / 6 → ∀ i, i < 6 →
      m_reg * 6 + i < mT Cout p 6 m_c m core := by
    intro m_reg hmr i hi
    have := mulAdd_lt hmr hi
    rwa [Nat.div_mul_cancel (mT_dvd h hm)] at this
  have hd6 : r / 6 < mT Cout p 6 m_c m core / 6 := by
    obtain ⟨q, hq⟩ := mT_dvd (core := core) h hm
    rw [hq] at hr ⊢
    rw [Nat.mul_div_cancel_left _ (by omega)]
    omega
  have e : (convQ Wf Hf Cin k_c).map (convPair Wf Hf Win Hin Cin Cout p m_c k_c n_c n m core r ho wo) =
      (range (cdiv Cin k_c)).flatMap fun k => (range Hf).flatMap fun hf => (range Wf).flatMap fun wf =>
        (range (chopLen Cin k_c k)).map fun kk =>
          convPair Wf Hf Win Hin Cin Cout p m_c k_c n_c n m core r ho wo (k, hf, wf, kk) := by
    unfold convQ
    simp only [map_flatMap, map_map]
    rfl
  rw [e]
  unfold convTask
  apply Accum.flatMap
  intro k _
  apply Accum.single nodup_range (mem_range.2 hho)
  · apply Accum.flatMap
    intro hf _
    apply Accum.flatMap
    intro wf _
    apply Accum.single nodup_range (x0 := wo / 16) (mem_range.2 (by omega))
    · apply Accum.single nodup_range (x0 := r / 6) (mem_range.2 hd6)
      · exact convTile_acc ar hcs
      · intro m_reg h1 hne
        exact convTile_none ar hho (by omega) (hmr _ (mem_range.1 h1)) hr hho (by omega)
          (fun hh => hne hh.2.2)
    · intro n_reg h1 hne
      apply Accum.flatMap_none
      intro m_reg h2
      exact convTile_none ar hho (mem_range.1 h1) (hmr _ (mem_range.1 h2)) hr hho (by omega)
        (fun hh => hne hh.2.1)
  · intro ho1 h1 hne
    apply Accum.flatMap_none
    intro hf _
    apply Accum.flatMap_none
    intro wf _
    apply Accum.flatMap_none
    intro n_reg h3
    apply Accum.flatMap_none
    intro m_reg h2
    exact convTile_none ar (mem_range.1 h1) (mem_range.1 h3) (hmr _ (mem_range.1 h2)) hr hho (by omega)
      (fun hh => hne hh.1)

theorem schedConv_ops (Fp In Out : Loc) :
    phaseOps (schedule_KMN_conv Fp In Out Wf Hf Win Hin Wout Hout Cin p 6 16
      (dimsKMN Cout Hout Cin p 6 1 m_c k_c n_c)) =
    (range (cdiv Hout n_c)).flatMap fun n => (range (cdiv Cout (p * m_c))).flatMap fun m =>
      (range (mU Cout p 6 m_c m)).flatMap fun core =>
        convTask Fp In Out Wf Hf Win Hin Wout Hout Cin Cout p m_c k_c n_c n m core := by
  rw [schedConv_phases h, phaseOps_flatMap]
  apply flatMap_congr
  intro n _
  rw [phaseOps_flatMap]
  apply flatMap_congr
  intro m _
  simp [List.flatMap_def]

/-- The whole schedule adds every tap of one element once. -/
theorem schedConv_acc {F : Type _} (ar : Arith F) {n m core ho r wo : Nat} (hn : n < cdiv Hout n_c)
    (hm : m < cdiv Cout (p * m_c)) (hcore : core < mU Cout p 6 m_c m) (hr : r < mT Cout p 6 m_c m core)
    (hho : ho < chopLen Hout n_c n) (hwo : wo < Wout / 16 * 16) :
    Accum ar convRo (phaseOps (schedule_KMN_conv ⟨.Ap, 0⟩ ⟨.B, 0⟩ ⟨.C, 0⟩ Wf Hf Win Hin Wout Hout Cin p 6 16
      (dimsKMN Cout Hout Cin p 6 1 m_c k_c n_c)))
      ⟨.C, rowOf Cout p 6 m_c m core r * (Hout * Wout) + ((n * n_c + ho) * Wout + wo)⟩
      ((convQ Wf Hf Cin k_c).map (convPair Wf Hf Win Hin Cin Cout p m_c k_c n_c n m core r ho wo)) := by
  have hW : Wout / 16 * 16 ≤ Wout := Nat.div_mul_le_self _ _
  rw [schedConv_ops h]
  apply Accum.single nodup_range (mem_range.2 hn)
  · apply Accum.single nodup_range (mem_range.2 hm)
    · apply Accum.single nodup_range (mem_range.2 hcore)
      · exact convTask_acc h ar hm hr hho hwo
      · intro c' _ hne
        exact convTask_none h ar hm hr hho (by omega) (fun hh => hne hh.2.1)
    · intro m' h2 hne
      apply Accum.flatMap_none
      intro c' _
      exact convTask_none h ar (mem_range.1 h2) hr hho (by omega) (fun hh => hne hh.1)
  · intro n' _ hne
    apply Accum.flatMap_none
    intro m' h2
    apply Accum.flatMap_none
    intro c' _
    exact convTask_none h ar (mem_range.1 h2) hr hho (by omega) (fun hh => hne hh.2.2)

/-- Destinations of the schedule. -/
theorem schedConv_dst (o : Op) (ho : o ∈ phaseOps (schedule_KMN_conv ⟨.Ap, 0⟩ ⟨.B, 0⟩ ⟨.C, 0⟩ Wf Hf Win Hin Wout
      Hout Cin p 6 16 (dimsKMN Cout Hout Cin p 6 1 m_c k_c n_c))) :
    (∃ t, o.dst.buf = .reg t) ∨ ∃ row hh wo, row < padTo Cout (p * m_c) 6 ∧ hh < Hout ∧ wo < Wout / 16 * 16 ∧
      o.dst = ⟨.C, row * (Hout * Wout) + (hh * Wout + wo)⟩ := by
  rw [schedConv_ops h] at ho
  simp only [mem_flatMap, mem_range] at ho
  obtain ⟨n, hn, m, hm, core, hcore, ho⟩ := ho
  rcases convTask_dst h hm o ho with d1 | ⟨r, ho1, wo, g1, g2, g3, d1⟩
  · exact Or.inl ⟨_, d1⟩
  · exact Or.inr ⟨_, _, _, rowOf_lt g1, chop_bound g2, g3, by rw [d1]; simp [Loc.off]⟩

omit h in
theorem flatMap_swap {α β γ : Type _} (xs : List α) (ys : List β) (f : α → β → List γ) :
    (xs.flatMap fun a => ys.flatMap fun b => f a b).Perm (ys.flatMap fun b => xs.flatMap fun a => f a b) := by
  induction xs with
  | nil => simp
  | cons x xs ih =>
    simp only [flatMap_cons]
    exact ((Perm.refl _).append ih).trans (List.flatMap_append_perm ys (f x) _)

omit h in
/-- The order in which the taps are added. -/
def convOrder (Wf Hf Cin k_c : Nat) : List (Nat × Nat × Nat) :=
  (convQ Wf Hf Cin k_c).map fun q => (q.1 * k_c + q.2.2.2, q.2.1, q.2.2.1)

omit h in
theorem convOrder_perm (hk : 0 < k_c) : (convOrder Wf Hf Cin k_c).Perm (convTaps Cin Hf Wf) := by
  have e1 : convOrder Wf Hf Cin k_c = (range (cdiv Cin k_c)).flatMap fun k => (range Hf).flatMap fun hf =>
      (range Wf).flatMap fun wf => (range (chopLen Cin k_c k)).flatMap fun kk => [(k * k_c + kk, hf, wf)] := by
    unfold convOrder convQ
    simp only [map_flatMap, map_map, ← map_eq_flatMap]
    rfl
  have e2 : convTaps Cin Hf Wf = (range (cdiv Cin k_c)).flatMap fun k => (range (chopLen Cin k_c k)).flatMap
      fun kk => (range Hf).flatMap fun hf => (range Wf).flatMap fun wf => [(k * k_c + kk, hf, wf)] := by
    unfold convTaps
    conv_lhs => rw [← chop_range (T := Cin) hk, flatMap_assoc]
    apply flatMap_congr
    intro k _
    rw [flatMap_map]
    simp only [← map_eq_flatMap]
  rw [e1, e2]
  refine Perm.flatMap_left _ fun k _ => ?_
  refine Perm.trans ?_ (flatMap_swap _ _ _)
  refine Perm.flatMap_left _ fun hf _ => ?_
  exact flatMap_swap _ _ _

omit h in
/-- The filters are packed in Ap. -/
def FOk {F : Type _} (Cin Cout p m_c k_c : Nat) (a : Nat → Nat → Nat → F) (mem : Mem F) (init : Loc → Bool) :
    Prop :=
  (∀ m k core r ker i, m < cdiv Cout (p * m_c) → k < cdiv Cin k_c → core < mU Cout p 6 m_c m →
    r < mT Cout p 6 m_c m core → ker < 9 → i < chopLen Cin k_c k → rowOf Cout p 6 m_c m core r < Cout →
    mem ⟨.Ap, 9 * aInd Cout Cin p 6 m_c k_c m k core +
      aIdx 6 (9 * chopLen Cin k_c k) r (ker * chopLen Cin k_c k + i)⟩ =
      a (rowOf Cout p 6 m_c m core r) (k * k_c + i) ker) ∧
  ∀ x, x < padTo Cout (p * m_c) 6 * (9 * Cin) → init ⟨.Ap, x⟩ = true

/-- Value of an output element after the schedule. -/
theorem schedConv_val {F : Type _} (ar : Arith F) (hT : Wf * Hf = 9) {a : Nat → Nat → Nat → F} {mem : Mem F}
    {init : Loc → Bool} (hp : FOk Cin Cout p m_c k_c a mem init) {co ho wo : Nat} (hco : co < Cout)
    (hho : ho < Hout) (hwo : wo < Wout / 16 * 16) :
    exec ar (phaseOps (schedule_KMN_conv ⟨.Ap, 0⟩ ⟨.B, 0⟩ ⟨.C, 0⟩ Wf Hf Win Hin Wout Hout Cin p 6 16
      (dimsKMN Cout Hout Cin p 6 1 m_c k_c n_c))) mem ⟨.C, co * (Hout * Wout) + (ho * Wout + wo)⟩ =
    (convOrder Wf Hf Cin k_c).foldl (fun acc t => ar.fma (a co t.1 (t.2.2 + t.2.1 * Wf))
      (mem ⟨.B, t.1 * (Hin * Win) + ((ho + t.2.1) * Win + (wo + t.2.2))⟩) acc)
      (mem ⟨.C, co * (Hout * Wout) + (ho * Wout + wo)⟩) := by
  obtain ⟨m, core, r, hm, hcore, hr, rfl⟩ := rowOf_cover h hco
  obtain ⟨h1, h2, h3⟩ := chop_cover h.n_c_pos hho
  have key := (schedConv_acc (Wf := Wf) (Hf := Hf) (Win := Win) (Hin := Hin) (Cin := Cin) h ar h1 hm hcore hr h2
    hwo).val mem
  rw [h3, foldl_map] at key
  rw [key]
  unfold convOrder
  rw [foldl_map]
  apply foldl_ext
  intro acc q hq
  obtain ⟨q1, q2, q3, q4⟩ := mem_convQ.1 hq
  unfold convPair
  have hker : q.2.2.1 + q.2.1 * Wf < 9 := by
    have := mulAdd_lt q2 q3
    rw [Nat.mul_comm Hf, hT] at this
    omega
  rw [hT, hp.1 m q.1 core r _ q.2.2.2 hm q1 hcore hr hker q4 hco, h3]

/-- Filters packed by the call. -/
theorem prepF_triple {F : Type _} {ar : Arith F} {s0 : State F} {sz : Buf → Option Nat} (hT : Wf * Hf = 9)
    (hA : Holds s0 .A Cout (Cin * Hf * Wf)) (hAp : s0.size .Ap = none)
    (hsz : ∀ b, s0.size b ≠ none → sz b = s0.size b) (hfr : sz .Ap = none) {aSz : Nat}
    (haSz : packedASize Cout (Cin * Wf * Hf) p 6 m_c .KMN = some aSz) :
    Triple ar (Env s0 sz noX (fun _ _ => True))
      (.memalign .Ap aSz :: phases (pack_filters ⟨.A, 0⟩ ⟨.Ap, 0⟩ Cout (Cin * Wf * Hf) p 6
        (dimsKMN Cout Hout Cin p 6 1 m_c k_c n_c)))
      (Env s0 (szSet sz .Ap (some aSz)) noX (fun m i => True ∧
        FOk Cin Cout p m_c k_c (fun co c ker => s0.mem ⟨.A, co * (Cin * 9) + (c * 9 + ker)⟩) m i)) := by
  have hK : Cin * Wf * Hf = Cin * 9 := by rw [Nat.mul_assoc, hT]
  obtain ⟨⟨nA, hnA, hleA⟩, hinit⟩ := hA
  have hK' : Cin * Hf * Wf = Cin * 9 := by rw [Nat.mul_assoc, Nat.mul_comm Hf, hT]
  rw [hK'] at hleA hinit
  have haS : aSz = padTo Cout (p * m_c) 6 * (9 * Cin) := by
    simp only [packedASize, Option.some.injEq] at haSz
    rw [← haSz, hK]
    unfold padTo
    ring
  have t1 := Env.memalign (F := ar) (s0 := s0) (sz := sz) (X := noX) .Ap aSz hAp hfr
    (P := fun _ _ => True) (Stable.true _)
  refine Triple.seq t1 ?_
  refine (Env.pack (R := fun mem => ∀ m k core r ker i, m < cdiv Cout (p * m_c) → k < cdiv Cin k_c →
      core < mU Cout p 6 m_c m → r < mT Cout p 6 m_c m core → ker < 9 → i < chopLen Cin k_c k →
      rowOf Cout p 6 m_c m core r < Cout →
      mem ⟨.Ap, 9 * aInd Cout Cin p 6 m_c k_c m k core +
        aIdx 6 (9 * chopLen Cin k_c k) r (ker * chopLen Cin k_c k + i)⟩ =
        s0.mem ⟨.A, rowOf Cout p 6 m_c m core r * (Cin * 9) + ((k * k_c + i) * 9 + ker)⟩) _
    (packF_seqW (N := Hout) h ⟨.A, 0⟩ ⟨.Ap, 0⟩) (szSet_self _ _ _) (by rw [haS]) hAp ?_ ?_ (Stable.true _)
    ?_).conseq (fun _ h => h) (fun s hs => hs)
  · intro s hs o ho l hl
    obtain ⟨x, hx, rfl⟩ := packF_reads h _ _ hK o ho l hl
    rw [hK] at hx
    have hA0 : s0.size .A ≠ none := by simp [hnA]
    refine ⟨?_, ?_⟩
    · simp only [Loc.off, Nat.zero_add]
      apply inB_of (n := nA) _ (by omega)
      rw [szSet_ne _ _ (by simp), hsz _ hA0, hnA]
    · simp only [Loc.off, Nat.zero_add]
      rw [(hs.keep ⟨.A, x⟩ hA0 (fun h => h)).2]
      exact hinit x hx
  · intro o ho l hl
    obtain ⟨x, _, rfl⟩ := packF_reads h _ _ hK o ho l hl
    simp
  · intro s hs m k core r ker i hm hk hcore hr hker hi hrow
    have e := packF_val (N := Hout) (K := Cin * Wf * Hf) h ar ⟨.A, 0⟩ ⟨.Ap, 0⟩ (by simp) s.mem hm hk hcore hr
      hker hi
    simp only [Loc.off, Nat.zero_add] at e
    rw [if_neg (by omega), hK] at e
    rw [hK, e, (hs.keep ⟨.A, _⟩ (by simp [hnA]) (fun h => h)).1]

omit h in
/-- The part of the output object that is written. -/
def convX (Cout p m_c Hout Wout : Nat) : Loc → Prop := fun l =>
  ∃ row hh wo, row < padTo Cout (p * m_c) 6 ∧ hh < Hout ∧ wo < Wout / 16 * 16 ∧
    l = ⟨.C, row * (Hout * Wout) + (hh * Wout + wo)⟩

/-- The convolution, after packing. -/
theorem workConv_triple {F : Type _} {ar : Arith F} {s0 : State F} {sz : Buf → Option Nat} (hT : Wf * Hf = 9)
    (hH : Hout + Hf ≤ Hin + 1) (hW : Wout + Wf ≤ Win + 1)
    {a : Nat → Nat → Nat → F} (hsz : ∀ b, s0.size b ≠ none → sz b = s0.size b)
    (hap : ∃ n, sz .Ap = some n ∧ padTo Cout (p * m_c) 6 * (9 * Cin) ≤ n)
    (hB : Holds s0 .B Cin (Hin * Win)) (hC : Holds s0 .C (padTo Cout (p * m_c) 6) (Hout * Wout))
    (hreg : ∀ t, s0.size (.reg t) = none) :
    Triple ar (Env s0 sz noX (fun m i => FOk Cin Cout p m_c k_c a m i))
      (phases (schedule_KMN_conv ⟨.Ap, 0⟩ ⟨.B, 0⟩ ⟨.C, 0⟩ Wf Hf Win Hin Wout Hout Cin p 6 16
        (dimsKMN Cout Hout Cin p 6 1 m_c k_c n_c)))
      (Env s0 sz (convX Cout p m_c Hout Wout) (fun m i => ∀ co ho wo, co < Cout → ho < Hout →
        wo < Wout / 16 * 16 → i ⟨.C, co * (Hout * Wout) + (ho * Wout + wo)⟩ = true ∧
        m ⟨.C, co * (Hout * Wout) + (ho * Wout + wo)⟩ =
          (convOrder Wf Hf Cin k_c).foldl (fun acc t => ar.fma (a co t.1 (t.2.2 + t.2.1 * Wf))
            (s0.mem ⟨.B, t.1 * (Hin * Win) + ((ho + t.2.1) * Win + (wo + t.2.2))⟩) acc)
            (s0.mem ⟨.C, co * (Hout * Wout) + (ho * Wout + wo)⟩))) := by
  obtain ⟨⟨nB, hnB, hleB⟩, hiB⟩ := hB
  obtain ⟨⟨nC, hnC, hleC⟩, hiC⟩ := hC
  obtain ⟨nA, hnA, hleA⟩ := hap
  have hsB : sz .B = some nB := by rw [hsz _ (by simp [hnB]), hnB]
  have hsC : sz .C = some nC := by rw [hsz _ (by simp [hnC]), hnC]
  have hW16 : Wout / 16 * 16 ≤ Wout := Nat.div_mul_le_self _ _
  have hCB : ∀ {co ho wo}, co < Cout → ho < Hout → wo < Wout / 16 * 16 →
      co * (Hout * Wout) + (ho * Wout + wo) < padTo Cout (p * m_c) 6 * (Hout * Wout) := by
    intro co ho wo h1 h2 h3
    exact mulAdd_lt (Nat.lt_of_lt_of_le h1 (padTo_ge _ _ _ (by omega))) (mulAdd_lt h2 (by omega))
  apply Env.phases
  · exact conv_raceFree h
  · intro s hs
    apply conv_safe h hH hW
    refine ⟨?_, ?_, ?_⟩
    · intro x hx
      rw [hT] at hx
      exact ⟨inB_of hnA (by omega), hs.fact.2 x hx⟩
    · intro x hx
      refine ⟨inB_of hsB (by omega), ?_⟩
      rw [(hs.keep ⟨.B, x⟩ (by simp [hnB]) (fun h => h)).2]
      exact hiB x hx
    · intro x hx
      refine ⟨inB_of hsC (by omega), ?_⟩
      rw [(hs.keep ⟨.C, x⟩ (by simp [hnC]) (fun h => h)).2]
      exact hiC x hx
  · intro s hs
    refine ⟨hs.size, ?_, ?_⟩
    · intro l hl hX
      have hno : ∀ o ∈ phaseOps (schedule_KMN_conv ⟨.Ap, 0⟩ ⟨.B, 0⟩ ⟨.C, 0⟩ Wf Hf Win Hin Wout Hout Cin p 6 16
          (dimsKMN Cout Hout Cin p 6 1 m_c k_c n_c)), o.dst ≠ l := by
        intro o ho e
        rcases schedConv_dst h o ho with ⟨t, e'⟩ | ⟨row, hh, wo, g1, g2, g3, e'⟩
        · rw [e] at e'; rw [e'] at hl; exact hl (hreg t)
        · rw [e] at e'; exact hX ⟨row, hh, wo, g1, g2, g3, e'⟩
      have := hs.keep l hl (fun h => h)
      exact ⟨(exec_frame ar _ _ _ hno).trans this.1, (initAfter_eq_of_not_dst hno).trans this.2⟩
    · intro co ho wo hco hho hwo
      have hkC := hs.keep ⟨.C, co * (Hout * Wout) + (ho * Wout + wo)⟩ (by simp [hnC]) (fun h => h)
      refine ⟨?_, ?_⟩
      · apply initAfter_of_mem
        left
        rw [hkC.2]
        exact hiC _ (hCB hco hho hwo)
      · have e := schedConv_val (Win := Win) (Hin := Hin) h ar hT hs.fact hco hho hwo
        refine e.trans ?_
        rw [hkC.1]
        apply foldl_ext
        intro acc t _
        rw [(hs.keep ⟨.B, _⟩ (by simp [hnB]) (fun h => h)).1]

/-- The whole call. -/
theorem sconv_triple {F : Type _} {ar : Arith F} {s0 : State F} (hT : Wf * Hf = 9)
    (hH : Hout + Hf ≤ Hin + 1) (hW : Wout + Wf ≤ Win + 1) (hA : Holds s0 .A Cout (Cin * Hf * Wf))
    (hB : Holds s0 .B Cin (Hin * Win)) (hC : Holds s0 .C (padTo Cout (p * m_c) 6) (Hout * Wout))
    (hfr : ∀ b, b ≠ .A → b ≠ .B → b ≠ .C → b ≠ .Ctx → s0.size b = none) (st : Nat) {prog : Prog}
    (hprog : cake_sconv ⟨.A, 0⟩ ⟨.B, 0⟩ ⟨.C, 0⟩ Wf Hf Win Hin Wout Hout Cin Cout st p 6 16 false m_c k_c n_c =
      some prog) :
    Triple ar (· = s0) prog (Env s0 s0.size (convX Cout p m_c Hout Wout) (fun m i => ∀ co ho wo,
        co < Cout → ho < Hout →
        wo < Wout / 16 * 16 → i ⟨.C, co * (Hout * Wout) + (ho * Wout + wo)⟩ = true ∧
        m ⟨.C, co * (Hout * Wout) + (ho * Wout + wo)⟩ =
          (convOrder Wf Hf Cin k_c).foldl (fun acc t => ar.fma
            (s0.mem ⟨.A, co * (Cin * 9) + (t.1 * 9 + (t.2.2 + t.2.1 * Wf))⟩)
            (s0.mem ⟨.B, t.1 * (Hin * Win) + ((ho + t.2.1) * Win + (wo + t.2.2))⟩) acc)
            (s0.mem ⟨.C, co * (Hout * Wout) + (ho * Wout + wo)⟩))) := by
  obtain ⟨aSz, haSz⟩ : ∃ v, packedASize Cout (Cin * Wf * Hf) p 6 m_c .KMN = some v := ⟨_, rfl⟩
  have hz : ¬ (k_c = 0 ∨ n_c = 0 ∨ p * m_c = 0) := by
    have := h.k_c_pos
    have := h.n_c_pos
    have := h.S_pos
    omega
  simp only [cake_sconv, if_neg hz, init_block_dims_conv, haSz, Option.bind_eq_bind, Option.bind_some,
    Bool.false_eq_true, if_false, Option.some.injEq] at hprog
  subst hprog
  have hblk := hfr .Blk (by simp) (by simp) (by simp) (by simp)
  have hdims := hfr .Dims (by simp) (by simp) (by simp) (by simp)
  have hap := hfr .Ap (by simp) (by simp) (by simp) (by simp)
  set sz1 := szSet s0.size .Blk (some 1) with hsz1
  set sz2 := szSet sz1 .Ap (some aSz) with hsz2
  have k1 : ∀ b, s0.size b ≠ none → sz1 b = s0.size b := by
    intro b hb
    rw [hsz1, szSet_ne]
    rintro rfl; exact hb hblk
  have k2 : ∀ b, s0.size b ≠ none → sz2 b = s0.size b := by
    intro b hb
    rw [hsz2, szSet_ne _ _ (by rintro rfl; exact hb hap)]
    exact k1 b hb
  have t1 := dims_triple (F := ar) hblk hdims
  have t2 := prepF_triple (ar := ar) (Hout := Hout) (n_c := n_c) (k_c := k_c) h hT hA hap k1
    (by rw [hsz1, szSet_ne _ _ (by simp)]; exact hap) haSz
  have t3 := workConv_triple (ar := ar) (k_c := k_c) (n_c := n_c) h hT hH hW
    (a := fun co c ker => s0.mem ⟨.A, co * (Cin * 9) + (c * 9 + ker)⟩) k2
    ⟨aSz, by rw [hsz2, szSet_self], by
      simp only [packedASize, Option.some.injEq] at haSz
      rw [← haSz, Nat.mul_assoc Cin, hT]
      unfold padTo
      exact Nat.le_of_eq (by ring)⟩ hB hC
    (fun t => hfr _ (by simp) (by simp) (by simp) (by simp))
  have t4 := Env.free (F := ar) (s0 := s0) (sz := sz2) (X := convX Cout p m_c Hout Wout)
    (P := fun m i => ∀ co ho wo,
        co < Cout → ho < Hout →
        wo < Wout / 16 * 16 → i ⟨.C, co * (Hout * Wout) + (ho * Wout + wo)⟩ = true ∧
        m ⟨.C, co * (Hout * Wout) + (ho * Wout + wo)⟩ =
          (convOrder Wf Hf Cin k_c).foldl (fun acc t => ar.fma
            (s0.mem ⟨.A, co * (Cin * 9) + (t.1 * 9 + (t.2.2 + t.2.1 * Wf))⟩)
            (s0.mem ⟨.B, t.1 * (Hin * Win) + ((ho + t.2.1) * Win + (wo + t.2.2))⟩) acc)
            (s0.mem ⟨.C, co * (Hout * Wout) + (ho * Wout + wo)⟩)) .Ap (by rw [hsz2, szSet_self]; simp)
  have t5 := Env.free (F := ar) (s0 := s0) (sz := szSet sz2 .Ap none) (X := convX Cout p m_c Hout Wout)
    (P := fun m i => ∀ co ho wo,
        co < Cout → ho < Hout →
        wo < Wout / 16 * 16 → i ⟨.C, co * (Hout * Wout) + (ho * Wout + wo)⟩ = true ∧
        m ⟨.C, co * (Hout * Wout) + (ho * Wout + wo)⟩ =
          (convOrder Wf Hf Cin k_c).foldl (fun acc t => ar.fma
            (s0.mem ⟨.A, co * (Cin * 9) + (t.1 * 9 + (t.2.2 + t.2.1 * Wf))⟩)
            (s0.mem ⟨.B, t.1 * (Hin * Win) + ((ho + t.2.1) * Win + (wo + t.2.2))⟩) acc)
            (s0.mem ⟨.C, co * (Hout * Wout) + (ho * Wout + wo)⟩)) .Blk
    (by rw [szSet_ne _ _ (by simp), hsz2, szSet_ne _ _ (by simp), hsz1, szSet_self]; simp)
  refine (Triple.seq (Triple.seq (Triple.seq (Triple.seq t1 t2) (t3.conseq
    (fun s hs => ⟨hs.size, hs.keep, hs.fact.2⟩) (fun _ h => h))) t4) t5).conseq (fun _ h => h) ?_
  intro s hs
  refine ⟨?_, hs.keep, hs.fact⟩
  rw [hs.size, hsz2, hsz1]
  funext b
  unfold szSet
  by_cases h1 : b = .Blk
  · subst h1; simp [hblk]
  · by_cases h2 : b = .Ap
    · subst h2; simp [hap]
    · simp [h1, h2]

end
end Cake
