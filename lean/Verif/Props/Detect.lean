/-
C50: the cache sizes the library finds are those `lscpu` reports.
C51: the number of cores the library finds is the number of physical cores.
-/
import Verif.Proofs.Detect
import Mathlib.Tactic.Ring
import Mathlib.Tactic.NormNum

namespace Cake
open List

/-! ### What the listings say -/

/-- `l` is the first line of `ls` that contains the word `w`. -/
def FirstWith (w : String) (ls : List Text) (l : Text) : Prop :=
  ∃ pre post, ls = pre ++ l :: post ∧ (∀ x ∈ pre, ¬ w.toList <:+: x) ∧ w.toList <:+: l

/-- The digits on the line, run together, are the number `n`. -/
def Number (l : Text) (n : Nat) : Prop := l.filter Char.isDigit = dec n

/-- The lines of the cache listing for one level, in order. -/
def CacheLines (level : Nat) (caches ls : List Text) : Prop :=
  caches.filter (fun l => decide (('L' :: dec level) <:+: l)) = ls

/-- The name column: it has none of the letters that also are units. -/
def Name (x : Text) : Prop := ∀ c ∈ x, c ≠ 'M' ∧ c ≠ 'K' ∧ c ≠ 'G'

/-- Bytes per unit. -/
def unit (u : Char) : Nat := if u = 'K' then 1024 else if u = 'M' then 1048576 else 1073741824

/-- One line of the listing: name, blank, size with unit. -/
def sizeLine (name : Text) (n : Nat) (u : Char) : Text := name ++ ' ' :: (dec n ++ [u])

theorem filter_hasPat {level : Nat} {caches ls : List Text} (h : CacheLines level caches ls) :
    caches.filter (hasPat ('L' :: dec level)) = ls := by
  rw [← h]
  congr 1
  funext l
  rw [Bool.eq_iff_iff, hasPat_iff, decide_eq_true_iff]

theorem sep_blank : Sep ' ' := by unfold Sep; decide
theorem sep_dot : Sep '.' := by unfold Sep; decide

theorem grepEo_sizeLine {name : Text} (hn : Name name) (n : Nat) {u : Char} (hu : u = 'M' ∨ u = 'K') :
    grepEo (sizeLine name n u) 0 = dec n ++ [u] := by
  unfold sizeLine
  rw [grepEo_sep sep_blank hn, grepEo_dec n hu]
  rfl

theorem ret_model {lscpu : List Text} {l : Text} {id : Nat} (hl : FirstWith "Model" lscpu l) (hid : Number l id)
    (hi : id < 10 ^ 15) : (fgets16 (digitsOf (grepFirst "Model".toList lscpu)) none).1 = some (dec id) := by
  obtain ⟨pre, post, rfl, hp, hm⟩ := hl
  rw [grepFirst_eq hp hm, digitsOf, hid, fgets16_dec hi]

/-- The run of `get_cache_size` once the model number is known and is not in the table. -/
theorem get_cache_size_default {level : Nat} {lscpu caches : List Text} {l : Text} {id : Nat} (hl : FirstWith "Model" lscpu l)
    (hid : Number l id) (hi : id < 2 ^ 31) (ht : cacheTable level id = none) :
    get_cache_size level lscpu caches =
      (let r := fgets16 ((caches.filter (hasPat ('L' :: dec level))).flatMap fun l => grepEo l 0) (some (dec id))
       if r.2 = false ∧ level = 2 then .ok (32 * 2 ^ 10)
       else if r.2 = false ∧ level = 3 then .ok (512 * 2 ^ 10)
       else match r.1 with
        | some s => sizeText s
        | none => .error .ub) := by
  unfold get_cache_size
  rw [ret_model hl hid (by omega)]
  dsimp only
  rw [atoi_dec hi]
  show (match cacheTable level (id : Int) with | some v => _ | none => _) = _
  rw [ht]
  rfl

theorem unit_M : unit 'M' = 1048576 := by unfold unit; rw [if_neg (by decide), if_pos rfl]

theorem unit_K : unit 'K' = 1024 := by unfold unit; rw [if_pos rfl]

theorem ok_bind {α β : Type} (a : α) (f : α → Except Fail β) : (Except.ok a >>= f) = f a := rfl

theorem sizeText_M {s : Text} {n : Int} (h : atoi (some s) = .ok n) : sizeText (s ++ ['M']) = mkInt (n * 1048576) := by
  have e : getLast? (s ++ ['M']) = some 'M' := getLast?_concat
  have e2 : dropLast (s ++ ['M']) = s := dropLast_concat
  unfold sizeText
  rw [e, e2, h, if_neg (by simp), if_pos rfl, ok_bind]

theorem sizeText_K {s : Text} {n : Int} (h : atoi (some s) = .ok n) : sizeText (s ++ ['K']) = mkInt (n * 1024) := by
  have e : getLast? (s ++ ['K']) = some 'K' := getLast?_concat
  have e2 : dropLast (s ++ ['K']) = s := dropLast_concat
  unfold sizeText
  rw [e, e2, h, if_pos rfl, ok_bind]

theorem sizeText_unit {s : Text} {u : Char} (hu : u = 'M' ∨ u = 'K') {n : Nat} (h : atoi (some s) = .ok n) :
    sizeText (s ++ [u]) = mkInt (n * unit u) := by
  rcases hu with rfl | rfl
  · rw [sizeText_M h, unit_M, Nat.cast_ofNat]
  · rw [sizeText_K h, unit_K, Nat.cast_ofNat]

/-- The CPU model numbers for which the sizes are built in. -/
def builtin : List Nat := [1, 3, 4, 17, 33, 49, 69, 85, 142, 165]

theorem cacheTable_none (level : Nat) {id : Nat} (ht : id ∉ builtin) : cacheTable level (id : Int) = none := by
  have ht : ∀ i ∈ [1, 3, 4, 17, 33, 49, 69, 85, 142, 165], id ≠ i := fun i hi e => ht (e ▸ hi)
  have h1 := ht 1 (by simp); have h3 := ht 3 (by simp); have h4 := ht 4 (by simp); have h17 := ht 17 (by simp)
  have h33 := ht 33 (by simp); have h49 := ht 49 (by simp); have h69 := ht 69 (by simp); have h85 := ht 85 (by simp)
  have h142 := ht 142 (by simp); have h165 := ht 165 (by simp)
  unfold cacheTable
  split
  · split <;> first | rfl | omega
  · split
    · split <;> first | rfl | omega
    · split
      · split <;> first | rfl | omega
      · rfl

/-! ### C50 -/

/-- The sizes are right when every line for the level shows a whole number of kibibytes or mebibytes, in the same unit, the
text fits the buffer of the code, the size is an `int`, and the number on the first `Model` line is not one of those with
built-in sizes. For level 1 the lines are those of the data and of the instruction cache: the first counts. -/
theorem C50_whole_partial {level : Nat} {lscpu caches : List Text} {l : Text} {id : Nat} (hl : FirstWith "Model" lscpu l)
    (hid : Number l id) (hi : id < 2 ^ 31) (ht : id ∉ builtin)
    {name : Text} {n : Nat} {u : Char} {more : List (Text × Nat)} (hu : u = 'M' ∨ u = 'K')
    (hc : CacheLines level caches (sizeLine name n u :: more.map fun q => sizeLine q.1 q.2 u))
    (hn : Name name) (hm : ∀ q ∈ more, Name q.1)
    (hlen : ((dec n).length + 1) + (more.map fun q => (dec q.2).length + 1).sum ≤ 15) (hs : n * unit u < 2 ^ 31) :
    get_cache_size level lscpu caches = .ok ((n * unit u : Nat) : Int) := by
  have ht' := cacheTable_none level ht
  have hud : u.isDigit = false := by rcases hu with rfl | rfl <;> decide
  have hun : u ≠ '\n' := by rcases hu with rfl | rfl <;> decide
  have hpos : 0 < unit u := by rcases hu with rfl | rfl <;> decide
  have hn31 : n < 2 ^ 31 := lt_of_le_of_lt (Nat.le_mul_of_pos_right n hpos) hs
  rw [get_cache_size_default hl hid hi ht', filter_hasPat hc, flatMap_cons, grepEo_sizeLine hn n hu]
  have em : ∀ more : List (Text × Nat), (∀ q ∈ more, Name q.1) →
      (more.map fun q => sizeLine q.1 q.2 u).flatMap (fun l => grepEo l 0) = more.flatMap fun q => dec q.2 ++ [u] := by
    intro more h
    induction more with
    | nil => rfl
    | cons q more ih =>
      rw [map_cons, flatMap_cons, flatMap_cons, grepEo_sizeLine (h q mem_cons_self) q.2 hu,
        ih fun x hx => h x (mem_cons_of_mem _ hx)]
  have hd : ∀ more : List (Text × Nat), (∀ c ∈ more.flatMap (fun q => dec q.2 ++ [u]), c ≠ '\n') ∧
      (more.flatMap fun q => dec q.2 ++ [u]).length = (more.map fun q => (dec q.2).length + 1).sum ∧
      ∃ s, (more.flatMap fun q => dec q.2 ++ [u]) = [] ∧ s = ([] : Text) ∨
        (more.flatMap fun q => dec q.2 ++ [u]) = s ++ [u] := by
    intro more
    induction more with
    | nil => exact ⟨by simp, rfl, [], Or.inl ⟨rfl, rfl⟩⟩
    | cons q more ih =>
      obtain ⟨i1, i2, s, i3⟩ := ih
      refine ⟨?_, ?_, ?_⟩
      · intro c hc
        rw [flatMap_cons, mem_append, mem_append] at hc
        rcases hc with (hc | hc) | hc
        · exact dec_no_newline _ c hc
        · rw [mem_singleton.1 hc]; exact hun
        · exact i1 c hc
      · rw [flatMap_cons, length_append, length_append, i2, map_cons, sum_cons]; rfl
      · rw [flatMap_cons]
        rcases i3 with ⟨i3, -⟩ | i3
        · exact ⟨dec q.2, Or.inr (by rw [i3, append_nil])⟩
        · exact ⟨dec q.2 ++ [u] ++ s, Or.inr (by rw [i3, append_assoc (dec q.2 ++ [u])])⟩
  obtain ⟨d1, d2, s, d3⟩ := hd more
  rw [em more hm, fgets16_short (by simp) ?_ ?_]
  · dsimp only
    rw [if_neg (by simp), if_neg (by simp)]
    have hr : mkInt ((n : Int) * (unit u : Nat)) = .ok ((n * unit u : Nat) : Int) := by
      have e : (n : Int) * (unit u : Nat) = ((n * unit u : Nat) : Int) := by push_cast; rfl
      rw [e]
      unfold mkInt
      rw [if_pos (by omega)]
    rcases d3 with ⟨d3, -⟩ | d3
    · rw [d3, append_nil, sizeText_unit hu (atoi_dec hn31), hr]
    · rw [d3, ← append_assoc, sizeText_unit hu (n := n) ?_, hr]
      rw [append_assoc]
      exact atoi_dec_append hn31 hud s
  · intro c hc
    rw [mem_append, mem_append] at hc
    rcases hc with (hc | hc) | hc
    · exact dec_no_newline _ c hc
    · rw [mem_singleton.1 hc]; exact hun
    · exact d1 c hc
  · rw [length_append, length_append, d2]
    exact hlen

/-- A laptop: the digits of the model name are not in the table, both first-level caches are 32K. -/
example : get_cache_size 1 ["Model name:  Intel(R) Core(TM) i9-10900K CPU @ 3.70GHz".toList]
    ["NAME ONE-SIZE".toList, "L1d       32K".toList, "L1i       32K".toList, "L2       256K".toList] = .ok 32768 :=
  C50_whole_partial (l := "Model name:  Intel(R) Core(TM) i9-10900K CPU @ 3.70GHz".toList) (id := 910900370)
    ⟨[], [], rfl, by simp, by decide +kernel⟩ (by unfold Number; decide +kernel) (by norm_num) (by decide)
    (name := "L1d      ".toList) (n := 32) (u := 'K') (more := [("L1i      ".toList, 32)]) (by decide)
    (by unfold CacheLines; decide +kernel) (by unfold Name; decide +kernel) (by unfold Name; decide +kernel)
    (by decide +kernel) (by decide +kernel)

/-- A size with a fraction, the way `lscpu` prints the 1280K second-level cache of many machines: the digits after the
point are taken for the whole size. Whatever the digits, the result is not the size printed. -/
theorem C50_fraction_refuted {level : Nat} {lscpu caches : List Text} {l : Text} {id : Nat} (hl : FirstWith "Model" lscpu l)
    (hid : Number l id) (hi : id < 2 ^ 31) (ht : id ∉ builtin) {name : Text} {a f : Nat} (hn : Name name)
    (ha : 1 ≤ a) (hf : f ≤ 9) (hc : CacheLines level caches [name ++ ' ' :: (dec a ++ '.' :: (dec f ++ ['M']))]) :
    ∃ v : Nat, get_cache_size level lscpu caches = .ok (v : Int) ∧ v = f * 2 ^ 20 ∧ 10 * v ≠ (10 * a + f) * 2 ^ 20 := by
  refine ⟨f * 2 ^ 20, ?_, rfl, by omega⟩
  have hda : ∀ c ∈ dec a, c ≠ 'M' ∧ c ≠ 'K' ∧ c ≠ 'G' := fun c hc => by
    have := dec_isDigit a c hc
    refine ⟨?_, ?_, ?_⟩ <;> (rintro rfl; revert this; decide)
  rw [get_cache_size_default hl hid hi (cacheTable_none level ht), filter_hasPat hc, flatMap_cons, flatMap_nil, append_nil, grepEo_sep sep_blank hn,
    grepEo_sep sep_dot hda, grepEo_dec f (Or.inl rfl)]
  have e : grepEo [] 0 = [] := rfl
  have hl : (dec f).length ≤ 1 := dec_length_le (by omega) (by omega)
  rw [e, fgets16_short (by simp) ?_ (by rw [length_append, length_singleton]; omega)]
  · dsimp only
    rw [if_neg (by simp), if_neg (by simp), sizeText_M (atoi_dec (by omega))]
    have e : (f : Int) * 1048576 = ((f * 2 ^ 20 : Nat) : Int) := by push_cast; rfl
    rw [e]
    unfold mkInt
    rw [if_pos (by omega)]
  · intro c hc
    rcases mem_append.1 hc with hc | hc
    · exact dec_no_newline _ c hc
    · rw [mem_singleton.1 hc]; decide

/-- 1.3M, that is 1280K, becomes 3M. -/
example : get_cache_size 2 ["Model name:  Intel(R) Xeon(R) Silver 4310".toList] ["NAME ONE-SIZE".toList, "L2 1.3M".toList] =
    .ok (3 * 2 ^ 20) := by
  obtain ⟨v, h, rfl, -⟩ := C50_fraction_refuted (level := 2) (lscpu := ["Model name:  Intel(R) Xeon(R) Silver 4310".toList])
    (caches := ["NAME ONE-SIZE".toList, "L2 1.3M".toList]) (id := 4310)
    ⟨[], [], rfl, by simp, by decide +kernel⟩ (by unfold Number; decide +kernel) (by norm_num) (by decide) (name := "L2".toList)
    (a := 1) (f := 3) (by unfold Name; decide +kernel) (by norm_num) (by norm_num) (by unfold CacheLines; decide +kernel)
  exact h

/-- A size in gibibytes is not recognised, whole or not: the third alternative of the pattern lacks its brackets. A
second-level cache then counts as 32K, a third-level cache as 512K, a first-level cache as 0. -/
theorem C50_gibibytes_refuted {level : Nat} {lscpu caches : List Text} {l : Text} {id : Nat} (hl : FirstWith "Model" lscpu l)
    (hid : Number l id) (hi : id < 2 ^ 31) (ht : id ∉ builtin) {name : Text} {n : Nat} (hn : Name name)
    (hc : CacheLines level caches [sizeLine name n 'G']) :
    get_cache_size level lscpu caches = .ok (if level = 2 then 32 * 2 ^ 10 else if level = 3 then 512 * 2 ^ 10 else 0) := by
  have hG : ∀ x : Text, (∀ c ∈ x, c.isDigit = true) → grepEo (x ++ ['G']) 0 = [] := by
    intro x
    induction x with
    | nil => intro _; rfl
    | cons a x ih =>
      intro hx
      have hm : matchLen (a :: (x ++ ['G'])) = 0 := by
        have e : (a :: (x ++ ['G'])).dropWhile Char.isDigit = ['G'] := by
          rw [← cons_append, dropWhile_append_of_pos hx]; rfl
        unfold matchLen
        rw [e]
        split
        · rename_i h; injection h with h; exact absurd h (by decide)
        · rename_i h; injection h with h; exact absurd h (by decide)
        · split
          · rename_i t h
            cases x with
            | nil => injection h with _ h; injection h with h _; exact absurd h (by decide)
            | cons b x =>
              injection h with _ h; injection h with h _
              exact absurd (hx b (by simp)) (by rw [h]; decide)
          · rfl
      rw [cons_append, grepEo, hm]
      exact ih fun c hc => hx c (mem_cons_of_mem _ hc)
  have he : grepEo (sizeLine name n 'G') 0 = [] := by
    unfold sizeLine
    rw [grepEo_sep sep_blank hn, hG _ (dec_isDigit n)]
  rw [get_cache_size_default hl hid hi (cacheTable_none level ht), filter_hasPat hc, flatMap_cons, flatMap_nil, append_nil, he]
  show (if (false = false ∧ level = 2) then _ else if (false = false ∧ level = 3) then _ else sizeText (dec id)) = _
  by_cases h2 : level = 2
  · rw [if_pos ⟨rfl, h2⟩, if_pos h2]
  by_cases h3 : level = 3
  · rw [if_neg (by tauto), if_pos ⟨rfl, h3⟩, if_neg h2, if_pos h3]
  rw [if_neg (by tauto), if_neg (by tauto), if_neg h2, if_neg h3]
  have hlast : ∀ u : Char, u.isDigit = false → (dec id).getLast? ≠ some u := by
    intro u hu h
    have := dec_isDigit id u (mem_of_getLast? h)
    rw [hu] at this
    exact absurd this (by simp)
  unfold sizeText
  rw [if_neg (hlast _ (by decide)), if_neg (hlast _ (by decide)), if_neg (hlast _ (by decide))]

/-- A third-level cache of 1G, found to be 512K. -/
example : get_cache_size 3 ["Model name:  AMD EPYC 9684X 96-Core Processor".toList] ["NAME ALL-SIZE".toList, "L3 1G".toList] =
    .ok (512 * 2 ^ 10) :=
  C50_gibibytes_refuted (l := "Model name:  AMD EPYC 9684X 96-Core Processor".toList) (id := 968496)
    ⟨[], [], rfl, by simp, by decide +kernel⟩ (by unfold Number; decide +kernel) (by norm_num) (by decide)
    (name := "L3".toList) (n := 1) (by unfold Name; decide +kernel) (by unfold CacheLines; decide +kernel)

/-- A size of 2048M or more, printed in mebibytes, overflows. -/
theorem C50_overflow_refuted {level : Nat} {lscpu caches : List Text} {l : Text} {id : Nat} (hl : FirstWith "Model" lscpu l)
    (hid : Number l id) (hi : id < 2 ^ 31) (ht : id ∉ builtin) {name : Text} {n : Nat} (hn : Name name)
    (hc : CacheLines level caches [sizeLine name n 'M']) (h : 2048 ≤ n) (h' : n < 10 ^ 6) :
    get_cache_size level lscpu caches = .error .ub := by
  rw [get_cache_size_default hl hid hi (cacheTable_none level ht), filter_hasPat hc, flatMap_cons, flatMap_nil, append_nil,
    grepEo_sizeLine hn n (Or.inl rfl)]
  have hl : (dec n).length ≤ 6 := dec_length_le h' (by omega)
  rw [fgets16_short (by simp) ?_ (by rw [length_append, length_singleton]; omega)]
  · dsimp only
    rw [if_neg (by simp), if_neg (by simp), sizeText_M (atoi_dec (by omega))]
    unfold mkInt
    rw [if_neg (by omega)]
  · intro c hc
    rcases mem_append.1 hc with hc | hc
    · exact dec_no_newline _ c hc
    · rw [mem_singleton.1 hc]; decide

example : get_cache_size 3 ["Model name:  AMD EPYC 9684X 96-Core Processor".toList]
    ["NAME ALL-SIZE".toList, "L3 2304M".toList] = .error .ub :=
  C50_overflow_refuted (l := "Model name:  AMD EPYC 9684X 96-Core Processor".toList) (id := 968496)
    ⟨[], [], rfl, by simp, by decide +kernel⟩ (by unfold Number; decide +kernel) (by norm_num) (by decide)
    (name := "L3".toList) (n := 2304) (by unfold Name; decide +kernel) (by unfold CacheLines; decide +kernel) (by norm_num)
    (by norm_num)

/-- The digits of the CPU name decide: if they are one of the built-in model numbers, the sizes are those built in, whatever
`lscpu` reports. Here the name is that of a server CPU whose second-level cache is 1M. -/
theorem C50_builtin_refuted {lscpu : List Text} (caches : List Text)
    (hl : FirstWith "Model" lscpu "Model name:  Neoverse-N1".toList) :
    get_cache_size 1 lscpu caches = .ok (32 * 2 ^ 10) ∧ get_cache_size 2 lscpu caches = .ok (512 * 2 ^ 10) ∧
      get_cache_size 3 lscpu caches = .ok (64 * 2 ^ 20) := by
  have hid : Number "Model name:  Neoverse-N1".toList 1 := by unfold Number; decide +kernel
  have ha : atoi (some (dec 1)) = .ok 1 := atoi_dec (n := 1) (by norm_num)
  refine ⟨?_, ?_, ?_⟩ <;>
  · unfold get_cache_size
    rw [ret_model hl hid (by norm_num)]
    dsimp only
    rw [ha]
    rfl

example : FirstWith "Model" ["Architecture:  aarch64".toList, "Model name:  Neoverse-N1".toList, "Model:  1".toList]
    "Model name:  Neoverse-N1".toList :=
  ⟨["Architecture:  aarch64".toList], ["Model:  1".toList], rfl, by decide +kernel, by decide +kernel⟩

/-- The digits of the CPU name need not fit an `int`: then the behaviour is undefined, for every level and every listing. -/
theorem C50_model_overflow_refuted {lscpu : List Text} {l : Text} {id : Nat} (hl : FirstWith "Model" lscpu l)
    (hid : Number l id) (hi : 2 ^ 31 ≤ id) (hi' : id < 10 ^ 15) (level : Nat) (caches : List Text) :
    get_cache_size level lscpu caches = .error .ub := by
  unfold get_cache_size
  rw [ret_model hl hid hi']
  dsimp only
  have ha : atoi (some (dec id)) = .error .ub := by
    obtain ⟨c, t, e⟩ := exists_cons_of_ne_nil (dec_ne_nil id)
    rw [atoi_digits e (dec_isDigit id c (by rw [e]; exact mem_cons_self)), takeWhile_dec', digitsVal_dec]
    unfold mkInt
    rw [if_neg (by omega)]
  rw [ha]
  rfl

example (level : Nat) (caches : List Text) :
    get_cache_size level ["Model name:  11th Gen Intel(R) Core(TM) i7-1165G7 @ 2.80GHz".toList] caches = .error .ub :=
  C50_model_overflow_refuted (l := "Model name:  11th Gen Intel(R) Core(TM) i7-1165G7 @ 2.80GHz".toList) (id := 11711657280)
    ⟨[], [], rfl, by simp, by decide +kernel⟩ (by unfold Number; decide +kernel) (by norm_num) (by norm_num) level caches

/-- Without a `Model` line, or without digits on it, the code reads an array it has not written. -/
theorem C50_no_model_refuted {lscpu : List Text} (h : ∀ l ∈ lscpu, "Model".toList <:+: l → l.filter Char.isDigit = [])
    (level : Nat) (caches : List Text) : get_cache_size level lscpu caches = .error .ub := by
  have e : digitsOf (grepFirst "Model".toList lscpu) = [] := by
    unfold grepFirst
    cases hf : lscpu.find? (hasPat "Model".toList) with
    | none => rfl
    | some l => exact h l (mem_of_find?_eq_some hf) ((hasPat_iff _ _).1 (by simpa using find?_some hf))
  unfold get_cache_size
  rw [e]
  rfl

example : ∀ l ∈ ["Architecture:  riscv64".toList, "Model name:  SiFive".toList],
    "Model".toList <:+: l → l.filter Char.isDigit = [] := by decide +kernel

/-! ### C51 -/

theorem ret_first {w : String} {ls : List Text} {l : Text} {n : Nat} (hl : FirstWith w ls l) (hn : Number l n)
    (h : n < 10 ^ 15) : (fgets16 (digitsOf (grepFirst w.toList ls)) none).1 = some (dec n) := by
  obtain ⟨pre, post, rfl, hp, hm⟩ := hl
  rw [grepFirst_eq hp hm, digitsOf, hn, fgets16_dec h]

/-- What the code computes: logical processors, divided by threads per core times sockets. -/
theorem cores_eq {cpuinfo lscpu : List Text} {lt ls : Text} {count t s : Nat}
    (hcount : (cpuinfo.countP fun l => decide ("processor".toList <+: l)) = count)
    (ht : FirstWith "Thread" lscpu lt) (hnt : Number lt t) (hs : FirstWith "Socket" lscpu ls) (hns : Number ls s)
    (h1 : count < 2 ^ 31) (h2 : t < 2 ^ 31) (h3 : s < 2 ^ 31) (h4 : t * s < 2 ^ 31) (h5 : 0 < t) (h6 : 0 < s) :
    get_num_physical_cores cpuinfo lscpu = .ok ((count / (t * s) : Nat) : Int) := by
  unfold get_num_physical_cores
  rw [ret_first ht hnt (by omega), ret_first hs hns (by omega), countLines_eq, hcount]
  have hl : (dec count).length ≤ 10 := dec_length_le (by omega) (by omega)
  rw [fgets16_line (dec_no_newline _) (by omega)]
  dsimp only
  rw [atoi_dec_append h1 (by decide), atoi_dec h2, atoi_dec h3]
  rw [ok_bind, ok_bind, ok_bind]
  have e : (t : Int) * s = ((t * s : Nat) : Int) := by push_cast; rfl
  rw [e]
  have hm : mkInt ((t * s : Nat) : Int) = .ok ((t * s : Nat) : Int) := by
    unfold mkInt; rw [if_pos (by omega)]
  rw [hm, ok_bind]
  have hp : 0 < t * s := Nat.mul_pos h5 h6
  unfold cDiv
  rw [if_neg (by omega), ← Int.ofNat_tdiv]

/-- The result is the number of cores of one socket, whenever all cores have the same number of threads. -/
theorem C51_per_socket {cpuinfo lscpu : List Text} {lt ls : Text} {t s c : Nat}
    (hcount : (cpuinfo.countP fun l => decide ("processor".toList <+: l)) = t * s * c)
    (ht : FirstWith "Thread" lscpu lt) (hnt : Number lt t) (hs : FirstWith "Socket" lscpu ls) (hns : Number ls s)
    (h1 : t * s * c < 2 ^ 31) (h5 : 0 < t) (h6 : 0 < s) (h7 : 0 < c) :
    get_num_physical_cores cpuinfo lscpu = .ok (c : Int) := by
  have h4 : t * s ≤ t * s * c := Nat.le_mul_of_pos_right _ h7
  have h2 : t ≤ t * s := Nat.le_mul_of_pos_right _ h6
  have h3 : s ≤ t * s := Nat.le_mul_of_pos_left _ h5
  rw [cores_eq hcount ht hnt hs hns h1 (by omega) (by omega) (by omega) h5 h6, Nat.mul_div_cancel_left _ (Nat.mul_pos h5 h6)]

/-- On a machine with one socket whose cores have the same number of threads, the result is the number of cores. -/
theorem C51_cores_partial {cpuinfo lscpu : List Text} {lt ls : Text} {t c : Nat}
    (hcount : (cpuinfo.countP fun l => decide ("processor".toList <+: l)) = t * c)
    (ht : FirstWith "Thread" lscpu lt) (hnt : Number lt t) (hs : FirstWith "Socket" lscpu ls) (hns : Number ls 1)
    (h1 : t * c < 2 ^ 31) (h5 : 0 < t) (h7 : 0 < c) : get_num_physical_cores cpuinfo lscpu = .ok (c : Int) :=
  C51_per_socket (s := 1) (by rw [hcount, Nat.mul_one]) ht hnt hs hns (by rw [Nat.mul_one]; exact h1) h5 Nat.one_pos h7

example : get_num_physical_cores (replicate 8 "processor : 0".toList)
    ["Thread(s) per core:  2".toList, "Core(s) per socket:  4".toList, "Socket(s):  1".toList] = .ok 4 :=
  C51_cores_partial (t := 2) (c := 4) (by decide +kernel)
    (lt := "Thread(s) per core:  2".toList) ⟨[], _, rfl, by simp, by decide +kernel⟩ (by unfold Number; decide +kernel)
    (ls := "Socket(s):  1".toList)
    ⟨["Thread(s) per core:  2".toList, "Core(s) per socket:  4".toList], [], rfl, by decide +kernel, by decide +kernel⟩
    (by unfold Number; decide +kernel) (by norm_num) (by norm_num) (by norm_num)

/-- On a machine with two or more sockets the result is not the number of cores: all sockets but one are forgotten. -/
theorem C51_sockets_refuted {cpuinfo lscpu : List Text} {lt ls : Text} {t s c : Nat}
    (hcount : (cpuinfo.countP fun l => decide ("processor".toList <+: l)) = t * s * c)
    (ht : FirstWith "Thread" lscpu lt) (hnt : Number lt t) (hs : FirstWith "Socket" lscpu ls) (hns : Number ls s)
    (h1 : t * s * c < 2 ^ 31) (h5 : 0 < t) (h6 : 2 ≤ s) (h7 : 0 < c) :
    ∃ v : Nat, get_num_physical_cores cpuinfo lscpu = .ok (v : Int) ∧ v < s * c :=
  ⟨c, C51_per_socket hcount ht hnt hs hns h1 h5 (by omega) h7, by nlinarith⟩

example : get_num_physical_cores (replicate 16 "processor : 0".toList)
    ["Thread(s) per core:  2".toList, "Core(s) per socket:  4".toList, "Socket(s):  2".toList] = .ok 4 :=
  C51_per_socket (t := 2) (s := 2) (c := 4) (by decide +kernel)
    (lt := "Thread(s) per core:  2".toList) ⟨[], _, rfl, by simp, by decide +kernel⟩ (by unfold Number; decide +kernel)
    (ls := "Socket(s):  2".toList)
    ⟨["Thread(s) per core:  2".toList, "Core(s) per socket:  4".toList], [], rfl, by decide +kernel, by decide +kernel⟩
    (by unfold Number; decide +kernel) (by norm_num) (by norm_num) (by norm_num) (by norm_num)

/-- On a machine with `b` cores of two threads and `e ≥ 1` cores of one thread the result is too small. -/
theorem C51_mixed_refuted {cpuinfo lscpu : List Text} {lt ls : Text} {b e : Nat}
    (hcount : (cpuinfo.countP fun l => decide ("processor".toList <+: l)) = 2 * b + e)
    (ht : FirstWith "Thread" lscpu lt) (hnt : Number lt 2) (hs : FirstWith "Socket" lscpu ls) (hns : Number ls 1)
    (h1 : 2 * b + e < 2 ^ 31) (he : 1 ≤ e) :
    ∃ v : Nat, get_num_physical_cores cpuinfo lscpu = .ok (v : Int) ∧ v < b + e :=
  ⟨(2 * b + e) / (2 * 1), cores_eq hcount ht hnt hs hns h1 (by norm_num) (by norm_num) (by norm_num) (by norm_num) (by norm_num),
    by omega⟩

/-- Eight cores of two threads and eight of one: the library uses twelve. -/
example : get_num_physical_cores (replicate 24 "processor : 0".toList)
    ["Thread(s) per core:  2".toList, "Core(s) per socket:  16".toList, "Socket(s):  1".toList] = .ok 12 := by
  decide +kernel

/-- Where `lscpu` has no line with `Thread` (or `Socket`), as on several other architectures, the behaviour is undefined. -/
theorem C51_no_line_refuted {lscpu : List Text}
    (h : (∀ l ∈ lscpu, ¬ "Thread".toList <:+: l) ∨ ∀ l ∈ lscpu, ¬ "Socket".toList <:+: l) (cpuinfo : List Text) :
    get_num_physical_cores cpuinfo lscpu = .error .ub := by
  have hmk : ∀ v, mkInt v = .error .ub ∨ ∃ w, mkInt v = .ok w := by
    intro v; unfold mkInt; split
    · exact Or.inr ⟨_, rfl⟩
    · exact Or.inl rfl
  have hat : ∀ b, atoi b = .error .ub ∨ ∃ w, atoi b = .ok w := by
    intro b; unfold atoi
    split
    · exact Or.inl rfl
    · split <;> exact hmk _
  have hno : ∀ w : String, (∀ l ∈ lscpu, ¬ w.toList <:+: l) →
      atoi (fgets16 (digitsOf (grepFirst w.toList lscpu)) none).1 = .error .ub := by
    intro w hw; rw [grepFirst_none hw]; rfl
  unfold get_num_physical_cores
  dsimp only
  rcases hat (fgets16 (dec (countLines cpuinfo) ++ ['\n']) none).1 with e1 | ⟨a, e1⟩
  · rw [e1]; rfl
  rw [e1, ok_bind]
  rcases h with h | h
  · rw [hno _ h]; rfl
  · rcases hat (fgets16 (digitsOf (grepFirst "Thread".toList lscpu)) none).1 with e2 | ⟨b, e2⟩
    · rw [e2]; rfl
    · rw [e2, ok_bind, hno _ h]; rfl

example : ∀ l ∈ ["Architecture:  aarch64".toList, "Cluster(s):  1".toList], ¬ "Socket".toList <:+: l := by decide +kernel

end Cake
