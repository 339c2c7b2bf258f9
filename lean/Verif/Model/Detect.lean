/-
Detection of the number of cores and of the cache sizes from the output of `lscpu`.
Text is a list of characters; the shell pipelines the code runs are modelled by what they do to the lines of text
they are given, so that the properties can be stated about the output of `lscpu` itself.
-/
import Verif.Model.CacheDims
import Mathlib.Data.Nat.Digits.Defs

namespace Cake
open List

abbrev Text := List Char

/-- The local array `char ret[16]`: the string it holds, `none` while it has never been written. -/
abbrev CharBuf := Option Text

/-- `fgets(ret, 16, fp)` on the remaining output `inp`: at most 15 characters, up to and including the first
newline; at the end of the output nothing is stored and NULL is returned (`false`).
`src/block_sizing.cpp:105`, `:121`, `:136`, `:166`, `:278`. -/
def fgets16 (inp : Text) (old : CharBuf) : CharBuf × Bool :=
  match inp with
  | [] => (old, false)
  | _ => (some ((inp.takeWhile (· ≠ '\n') ++ (inp.dropWhile (· ≠ '\n')).take 1).take 15), true)

/-- A value of type `int`; overflow is undefined. -/
def mkInt (v : Int) : Except Fail Int := if -2147483648 ≤ v ∧ v < 2147483648 then .ok v else .error .ub

/-- The value of a sequence of decimal digits. -/
def digitsVal (s : Text) : Int := s.foldl (fun a c => 10 * a + ((c.toNat : Int) - 48)) 0

/-- `isspace`. -/
def isSpace (c : Char) : Bool := c.toNat = 32 || (9 ≤ c.toNat && c.toNat ≤ 13)

/-- `atoi`: white space, sign, digits; undefined if the number is not an `int`, and if the array has never been
written. C11 7.22.1. -/
def atoi (b : CharBuf) : Except Fail Int :=
  match b with
  | none => .error .ub
  | some s =>
    match s.dropWhile isSpace with
    | '-' :: t => mkInt (-digitsVal (t.takeWhile Char.isDigit))
    | '+' :: t => mkInt (digitsVal (t.takeWhile Char.isDigit))
    | t => mkInt (digitsVal (t.takeWhile Char.isDigit))

/-- `grep pat`, on one line. -/
def hasPat (pat : Text) : Text → Bool
  | [] => pat.isEmpty
  | c :: t => pat.isPrefixOf (c :: t) || hasPat pat t

/-- `grep pat -m 1`, `grep pat | head -1`, without the final newline; nothing if no line matches. -/
def grepFirst (pat : Text) (lines : List Text) : Text := (lines.find? (hasPat pat)).getD []

/-- `tr -dc '0-9'`. -/
def digitsOf (t : Text) : Text := t.filter Char.isDigit

/-- `grep -c ^processor`: the number of lines that start with the word. -/
def countLines (cpuinfo : List Text) : Nat := (cpuinfo.filter fun l => "processor".toList.isPrefixOf l).length

/-- A decimal numeral as programs print it. -/
def dec (n : Nat) : Text := if n = 0 then ['0'] else (Nat.digits 10 n).reverse.map fun d => Char.ofNat (48 + d)

/-- `get_num_physical_cores()`. `cpuinfo` are the lines of `/proc/cpuinfo`, `lscpu` those that `lscpu` prints.
`popen` is assumed to succeed (the code checks for it). `src/block_sizing.cpp:91-143`. -/
def get_num_physical_cores (cpuinfo lscpu : List Text) : Except Fail Int := do
  let ret1 := (fgets16 (dec (countLines cpuinfo) ++ ['\n']) none).1
  let ret2 := (fgets16 (digitsOf (grepFirst "Thread".toList lscpu)) none).1
  let ret3 := (fgets16 (digitsOf (grepFirst "Socket".toList lscpu)) none).1
  let a ← atoi ret1
  let b ← atoi ret2
  let c ← atoi ret3
  let d ← mkInt (b * c)
  cDiv a d

/-- The sizes built in for certain CPU model numbers. `src/block_sizing.cpp:173-252`. -/
def cacheTable (level : Nat) (model_id : Int) : Option Int :=
  if level = 1 then
    match model_id with
    | 1 => some (32 * 2 ^ 10) | 3 => some (32 * 2 ^ 10) | 4 => some (16 * 2 ^ 10) | 17 => some (32 * 2 ^ 10)
    | 33 => some (32 * 2 ^ 10) | 49 => some (32 * 2 ^ 10) | 69 => some (32 * 2 ^ 10) | 85 => some (32 * 2 ^ 10)
    | 142 => some (32 * 2 ^ 10) | 165 => some (32 * 2 ^ 10) | _ => none
  else if level = 2 then
    match model_id with
    | 1 => some (512 * 2 ^ 10) | 3 => some (32 * 2 ^ 10) | 4 => some (16 * 2 ^ 10) | 17 => some (512 * 2 ^ 10)
    | 33 => some (512 * 2 ^ 10) | 49 => some (512 * 2 ^ 10) | 69 => some (256 * 2 ^ 10) | 85 => some (1024 * 2 ^ 10)
    | 142 => some (256 * 2 ^ 10) | 165 => some (256 * 2 ^ 10) | _ => none
  else if level = 3 then
    match model_id with
    | 1 => some (64 * 2 ^ 20) | 3 => some (1 * 2 ^ 20) | 4 => some (512 * 2 ^ 10) | 17 => some (4 * 2 ^ 20)
    | 33 => some (64 * 2 ^ 20) | 49 => some (128 * 2 ^ 20) | 69 => some (4 * 2 ^ 20) | 85 => some (36608 * 2 ^ 10)
    | 142 => some (8 * 2 ^ 20) | 165 => some (20 * 2 ^ 20) | _ => none
  else none

/-- Length of the longest match of `[0-9]*M|[0-9]*K|0-9*G` at the start of the text, 0 if there is none. The third
alternative, as written in the code, is the character `0`, the character `-`, any number of `9`s and `G`. -/
def matchLen (s : Text) : Nat :=
  match s.dropWhile Char.isDigit with
  | 'M' :: _ => (s.takeWhile Char.isDigit).length + 1
  | 'K' :: _ => (s.takeWhile Char.isDigit).length + 1
  | _ => match s with
    | '0' :: '-' :: t => match t.dropWhile (· = '9') with
      | 'G' :: _ => (t.takeWhile (· = '9')).length + 3
      | _ => 0
    | _ => 0

/-- `grep -Eo '[0-9]*M|[0-9]*K|0-9*G' | tr -d '\n'` on one line: the matches from left to right, each continuing
after the one before, run together. The second argument counts the characters of the current match still to be passed. -/
def grepEo : Text → Nat → Text
  | [], _ => []
  | _ :: t, k + 1 => grepEo t k
  | c :: t, 0 => match matchLen (c :: t) with
    | 0 => grepEo t 0
    | n + 1 => (c :: t).take (n + 1) ++ grepEo t n

/-- The unit characters at the end of the string: `ret[len]` is replaced by the end of string, and
`size = atoi(ret) * (1 << 10)` etc.; without a unit `size` stays 0. `src/block_sizing.cpp:289-301`. -/
def sizeText (ret : Text) : Except Fail Int :=
  if ret.getLast? = some 'K' then do let v ← atoi (some ret.dropLast); mkInt (v * 1024)
  else if ret.getLast? = some 'M' then do let v ← atoi (some ret.dropLast); mkInt (v * 1048576)
  else if ret.getLast? = some 'G' then do let v ← atoi (some ret.dropLast); mkInt (v * 1073741824)
  else .ok 0

/-- `get_cache_size(level)` for `level` 1, 2 or 3. `lscpu` are the lines `lscpu` prints, `caches` those of
`lscpu --caches=NAME,ONE-SIZE` (level 1, 2) or `NAME,ALL-SIZE` (level 3). `popen` is assumed to succeed.
`src/block_sizing.cpp:148-302`. -/
def get_cache_size (level : Nat) (lscpu caches : List Text) : Except Fail Int := do
  let ret := (fgets16 (digitsOf (grepFirst "Model".toList lscpu)) none).1
  let model_id ← atoi ret
  match cacheTable level model_id with
  | some v => pure v
  | none =>
    let out := (caches.filter (hasPat ('L' :: dec level))).flatMap fun l => grepEo l 0
    let r := fgets16 out ret
    if r.2 = false ∧ level = 2 then pure (32 * 2 ^ 10)
    else if r.2 = false ∧ level = 3 then pure (512 * 2 ^ 10)
    else match r.1 with
      | some s => sizeText s
      | none => .error .ub

end Cake
