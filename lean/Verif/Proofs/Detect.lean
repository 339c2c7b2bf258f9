/-
Lemmas about numerals, `atoi` and the text the detection code extracts.
-/
import Verif.Model.Detect
import Mathlib.Data.Nat.Digits.Lemmas
import Mathlib.Tactic.IntervalCases
import Mathlib.Data.List.TakeWhile

namespace Cake
open List

theorem digitChar_isDigit {d : Nat} (h : d < 10) : (Char.ofNat (48 + d)).isDigit = true := by
  interval_cases d <;> decide

theorem digitChar_val {d : Nat} (h : d < 10) : ((Char.ofNat (48 + d)).toNat : Int) - 48 = d := by
  interval_cases d <;> decide

theorem dec_isDigit (n : Nat) : ∀ c ∈ dec n, c.isDigit = true := by
  unfold dec
  split
  · simp
  · intro c hc
    obtain ⟨d, hd, rfl⟩ := mem_map.1 hc
    exact digitChar_isDigit (Nat.digits_lt_base (by norm_num) (mem_reverse.1 hd))

theorem dec_ne_nil (n : Nat) : dec n ≠ [] := by
  unfold dec
  split
  · simp
  · rename_i h
    simp [Nat.digits_eq_nil_iff_eq_zero, h]

theorem digitsVal_append (s t : Text) : digitsVal (s ++ t) = t.foldl (fun a c => 10 * a + ((c.toNat : Int) - 48)) (digitsVal s) := by
  unfold digitsVal
  rw [foldl_append]

theorem digitsVal_rev (l : List Nat) (h : ∀ d ∈ l, d < 10) :
    digitsVal (l.reverse.map fun d => Char.ofNat (48 + d)) = (Nat.ofDigits 10 l : Nat) := by
  induction l with
  | nil => simp [digitsVal]
  | cons d l ih =>
    rw [reverse_cons, map_append, digitsVal_append, ih fun x hx => h x (mem_cons_of_mem _ hx), map_cons, map_nil, foldl_cons,
      foldl_nil, digitChar_val (h d mem_cons_self), Nat.ofDigits_cons]
    push_cast
    ring

theorem digitsVal_dec (n : Nat) : digitsVal (dec n) = n := by
  unfold dec
  split
  · rename_i h; subst h; decide
  · rw [digitsVal_rev _ fun d hd => Nat.digits_lt_base (by norm_num) hd, Nat.ofDigits_digits]

theorem dec_length_le {n k : Nat} (h : n < 10 ^ k) (hk : 0 < k) : (dec n).length ≤ k := by
  unfold dec
  split
  · simp; omega
  · rename_i h0
    rw [length_map, length_reverse]
    exact (Nat.digits_length_le_iff (by norm_num) n).2 h

theorem takeWhile_dec (n : Nat) {c : Char} (hc : c.isDigit = false) (t : Text) :
    (dec n ++ c :: t).takeWhile Char.isDigit = dec n := by
  rw [takeWhile_append_of_pos (dec_isDigit n), takeWhile_cons_of_neg (by simp [hc]), append_nil]

theorem takeWhile_dec' (n : Nat) : (dec n).takeWhile Char.isDigit = dec n :=
  takeWhile_eq_self_iff.2 (dec_isDigit n)

theorem dropWhile_dec (n : Nat) {c : Char} (hc : c.isDigit = false) (t : Text) :
    (dec n ++ c :: t).dropWhile Char.isDigit = c :: t := by
  rw [dropWhile_append_of_pos (dec_isDigit n), dropWhile_cons_of_neg (by simp [hc])]

theorem isDigit_not_space {c : Char} (h : c.isDigit = true) : isSpace c = false := by
  unfold Char.isDigit at h
  unfold isSpace
  have h1 : 48 ≤ c.toNat := by
    have := (Bool.and_eq_true _ _ ▸ h).1
    have := of_decide_eq_true this
    exact this
  simp
  omega

theorem isDigit_ne {c : Char} (h : c.isDigit = true) : c ≠ '-' ∧ c ≠ '+' ∧ c ≠ '\n' := by
  refine ⟨?_, ?_, ?_⟩ <;> (rintro rfl; revert h; decide)

/-- `atoi` of a text that starts with a digit. -/
theorem atoi_digits {s : Text} {c : Char} {t : Text} (e : s = c :: t) (hc : c.isDigit = true) :
    atoi (some s) = mkInt (digitsVal (s.takeWhile Char.isDigit)) := by
  subst e
  unfold atoi
  dsimp only
  rw [dropWhile_cons_of_neg (by simp [isDigit_not_space hc])]
  obtain ⟨h1, h2, -⟩ := isDigit_ne hc
  split
  · rename_i h; cases h; exact absurd rfl h1
  · rename_i h; cases h; exact absurd rfl h2
  · rfl

theorem atoi_dec {n : Nat} (h : n < 2 ^ 31) : atoi (some (dec n)) = .ok n := by
  obtain ⟨c, t, e⟩ := exists_cons_of_ne_nil (dec_ne_nil n)
  rw [atoi_digits e (dec_isDigit n c (by rw [e]; exact mem_cons_self)), takeWhile_dec', digitsVal_dec]
  unfold mkInt
  rw [if_pos (by omega)]

theorem atoi_dec_append {n : Nat} (h : n < 2 ^ 31) {c : Char} (hc : c.isDigit = false) (u : Text) :
    atoi (some (dec n ++ c :: u)) = .ok n := by
  obtain ⟨a, t, e⟩ := exists_cons_of_ne_nil (dec_ne_nil n)
  rw [atoi_digits (c := a) (t := t ++ c :: u) (by rw [e]; rfl) (dec_isDigit n a (by rw [e]; exact mem_cons_self)),
    takeWhile_dec n hc, digitsVal_dec]
  unfold mkInt
  rw [if_pos (by omega)]

/-- `fgets` of a short text without newline. -/
theorem fgets16_short {s : Text} (h0 : s ≠ []) (hn : ∀ c ∈ s, c ≠ '\n') (hl : s.length ≤ 15) (old : CharBuf) :
    fgets16 s old = (some s, true) := by
  unfold fgets16
  split
  · contradiction
  · have e1 : s.takeWhile (· ≠ '\n') = s := takeWhile_eq_self_iff.2 (by simpa using hn)
    have e2 : s.dropWhile (· ≠ '\n') = [] := dropWhile_eq_nil_iff.2 (by simpa using hn)
    rw [e1, e2, take_nil, append_nil, take_of_length_le hl]

theorem fgets16_line {s : Text} (hn : ∀ c ∈ s, c ≠ '\n') (hl : s.length ≤ 14) (old : CharBuf) :
    fgets16 (s ++ ['\n']) old = (some (s ++ ['\n']), true) := by
  unfold fgets16
  split
  · rename_i h; simp at h
  · have e1 : (s ++ ['\n']).takeWhile (· ≠ '\n') = s := by
      rw [takeWhile_append_of_pos (by simpa using hn)]; simp
    have e2 : (s ++ ['\n']).dropWhile (· ≠ '\n') = ['\n'] := by
      rw [dropWhile_append_of_pos (by simpa using hn)]; simp
    have h15 : (s ++ ['\n']).length ≤ 15 := by rw [length_append, length_singleton]; omega
    rw [e1, e2, take_of_length_le (l := ['\n']) (by simp), take_of_length_le h15]

theorem dec_no_newline (n : Nat) : ∀ c ∈ dec n, c ≠ '\n' := fun c hc => (isDigit_ne (dec_isDigit n c hc)).2.2

theorem fgets16_dec {n : Nat} (h : n < 10 ^ 15) (old : CharBuf) : fgets16 (dec n) old = (some (dec n), true) :=
  fgets16_short (dec_ne_nil n) (dec_no_newline n) (dec_length_le h (by norm_num)) old

/-! ### What `grep -Eo` extracts -/

/-- A character that no match contains and that ends no number. -/
def Sep (c : Char) : Prop := c.isDigit = false ∧ c ≠ 'M' ∧ c ≠ 'K' ∧ c ≠ 'G' ∧ c ≠ '-'

theorem dropWhile_sep {p : Char → Bool} {sep : Char} (hs : p sep = false) (x rest : Text) :
    ∃ y, (x ++ sep :: rest).dropWhile p = y ++ sep :: rest ∧ ∀ c ∈ y, c ∈ x := by
  induction x with
  | nil => exact ⟨[], by rw [nil_append, dropWhile_cons_of_neg (by simp [hs])], by simp⟩
  | cons a x ih =>
    obtain ⟨y, e, hy⟩ := ih
    by_cases ha : p a = true
    · exact ⟨y, by rw [cons_append, dropWhile_cons_of_pos ha, e], fun c hc => mem_cons_of_mem _ (hy c hc)⟩
    · exact ⟨a :: x, by rw [cons_append, dropWhile_cons_of_neg ha, ← cons_append], fun c hc => hc⟩

theorem matchLen_sep {sep : Char} (hs : Sep sep) {x : Text} (hx : ∀ c ∈ x, c ≠ 'M' ∧ c ≠ 'K' ∧ c ≠ 'G') (rest : Text) :
    matchLen (x ++ sep :: rest) = 0 := by
  obtain ⟨h1, h2, h3, h4, h5⟩ := hs
  have key : ∀ {p : Char → Bool} {w : Text} (q : Char), p sep = false → sep ≠ q → (∀ c ∈ w, c ≠ q) →
      ∀ t, (w ++ sep :: rest).dropWhile p ≠ q :: t := by
    intro p w q hp hq hw t e
    obtain ⟨y, e', hy⟩ := dropWhile_sep hp w rest
    rw [e'] at e
    cases y with
    | nil => exact hq (by injection e)
    | cons b y => exact hw b (hy b mem_cons_self) (by injection e)
  unfold matchLen
  split
  · rename_i h; exact absurd h (key 'M' h1 h2 (fun c hc => (hx c hc).1) _)
  · rename_i h; exact absurd h (key 'K' h1 h3 (fun c hc => (hx c hc).2.1) _)
  · split
    · rename_i t e
      -- the text starts with `0-`
      have : ∃ w, t = w ++ sep :: rest ∧ ∀ c ∈ w, c ∈ x := by
        match x, e with
        | [], e => injection e with e1 _; subst e1; exact absurd h1 (by decide)
        | [a], e => injection e with _ e2; injection e2 with e3 _; exact absurd e3 h5
        | a :: b :: w, e =>
          injection e with _ e2; injection e2 with _ e3
          exact ⟨w, e3.symm, fun c hc => by simp [hc]⟩
      obtain ⟨w, rfl, hw⟩ := this
      have h9 : decide (sep = '9') = false := by
        by_contra hc
        have : sep = '9' := by simpa using hc
        subst this; exact absurd h1 (by decide)
      split
      · rename_i h; exact absurd h (key (p := fun c => decide (c = '9')) 'G' h9 h4 (fun c hc => (hx c (hw c hc)).2.2) _)
      · rfl
    · rfl

theorem grepEo_sep {sep : Char} (hs : Sep sep) : ∀ {x : Text}, (∀ c ∈ x, c ≠ 'M' ∧ c ≠ 'K' ∧ c ≠ 'G') → ∀ rest : Text,
    grepEo (x ++ sep :: rest) 0 = grepEo rest 0 := by
  intro x
  induction x with
  | nil =>
    intro hx rest
    have := matchLen_sep hs hx rest
    rw [nil_append] at this ⊢
    rw [grepEo, this]
  | cons a x ih =>
    intro hx rest
    have := matchLen_sep hs hx rest
    rw [cons_append] at this ⊢
    rw [grepEo, this]
    exact ih (fun c hc => hx c (mem_cons_of_mem _ hc)) rest

theorem matchLen_dec (n : Nat) {u : Char} (hu : u = 'M' ∨ u = 'K') (rest : Text) :
    matchLen (dec n ++ u :: rest) = (dec n).length + 1 := by
  have hd : u.isDigit = false := by rcases hu with rfl | rfl <;> decide
  unfold matchLen
  rw [dropWhile_dec n hd, takeWhile_dec n hd]
  rcases hu with rfl | rfl <;> rfl

theorem grepEo_skip : ∀ (s t : Text), grepEo (s ++ t) s.length = grepEo t 0
  | [], t => rfl
  | c :: s, t => by
    rw [cons_append, length_cons, grepEo]
    exact grepEo_skip s t

theorem grepEo_dec (n : Nat) {u : Char} (hu : u = 'M' ∨ u = 'K') (rest : Text) :
    grepEo (dec n ++ u :: rest) 0 = dec n ++ u :: grepEo rest 0 := by
  obtain ⟨c, t, e⟩ := exists_cons_of_ne_nil (dec_ne_nil n)
  have h := matchLen_dec n hu rest
  have e2 : dec n ++ u :: rest = c :: (t ++ u :: rest) := by rw [e]; rfl
  have hl : (dec n).length = t.length + 1 := by rw [e]; rfl
  rw [e2] at h ⊢
  rw [grepEo, h]
  show (c :: (t ++ u :: rest)).take ((dec n).length + 1) ++ grepEo (t ++ u :: rest) (dec n).length = _
  have e3 : t ++ u :: rest = (t ++ [u]) ++ rest := by simp
  have e4 : (dec n).length = (t ++ [u]).length := by rw [hl]; simp
  rw [e4]
  conv_lhs => rw [e3]
  rw [grepEo_skip, ← cons_append, take_left' (by simp), e]
  simp

/-! ### `grep` -/

theorem hasPat_iff (pat : Text) : ∀ s : Text, hasPat pat s = true ↔ pat <:+: s
  | [] => by
    rw [hasPat]
    constructor
    · intro h; rw [isEmpty_iff.1 h]
    · intro h; rw [infix_nil.1 h, isEmpty_nil]
  | c :: t => by
    rw [hasPat, Bool.or_eq_true, hasPat_iff pat t, isPrefixOf_iff_prefix, infix_cons_iff]

theorem grepFirst_eq {pat : Text} {pre post : List Text} {l : Text} (hpre : ∀ x ∈ pre, ¬ pat <:+: x) (hl : pat <:+: l) :
    grepFirst pat (pre ++ l :: post) = l := by
  unfold grepFirst
  have : pre.find? (hasPat pat) = none := by
    rw [find?_eq_none]
    intro x hx h
    exact hpre x hx ((hasPat_iff _ _).1 h)
  rw [find?_append, this, Option.none_or, find?_cons_of_pos ((hasPat_iff _ _).2 hl)]
  rfl

theorem grepFirst_none {pat : Text} {ls : List Text} (h : ∀ x ∈ ls, ¬ pat <:+: x) : grepFirst pat ls = [] := by
  unfold grepFirst
  have : ls.find? (hasPat pat) = none := by
    rw [find?_eq_none]
    intro x hx h'
    exact h x hx ((hasPat_iff _ _).1 h')
  rw [this]; rfl

theorem digitsOf_numeral {x y : Text} (hx : ∀ c ∈ x, c.isDigit = false) (hy : ∀ c ∈ y, c.isDigit = false) (n : Nat) :
    digitsOf (x ++ (dec n ++ y)) = dec n := by
  unfold digitsOf
  have e1 : x.filter Char.isDigit = [] := filter_eq_nil_iff.2 (by simpa using hx)
  have e2 : y.filter Char.isDigit = [] := filter_eq_nil_iff.2 (by simpa using hy)
  rw [filter_append, filter_append, e1, e2, filter_eq_self.2 (dec_isDigit n), append_nil, nil_append]

theorem countLines_eq (ls : List Text) : countLines ls = ls.countP fun l => decide ("processor".toList <+: l) := by
  unfold countLines
  rw [← countP_eq_length_filter]
  congr 1
  funext l
  rw [Bool.eq_iff_iff, isPrefixOf_iff_prefix, decide_eq_true_iff]

end Cake
