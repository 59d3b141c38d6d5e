/- Text: printf-style formatting, parsing of numbers, words, lines and field slices, as used by skbeam/io.
Python's string methods and `%` operator are not part of /repo; the definitions below are their documented behaviour on the
strings that occur (trusted base). -/
import Verif.Xrf.Fit

namespace Verif.Io
open Verif Verif.Xrf

abbrev Text := List Char

/-- Decimal digit. -/
def digitChar (n : ℕ) : Char := Char.ofNat (48 + n)

/-- Decimal notation of a natural number. -/
def digits (n : ℕ) : Text := if n < 10 then [digitChar n] else digits (n / 10) ++ [digitChar (n % 10)]
termination_by n
decreasing_by omega

/-- The last d decimal digits, with leading zeros. -/
def padNat : ℕ → ℕ → Text
  | 0, _ => []
  | d + 1, n => padNat d (n / 10) ++ [digitChar (n % 10)]

/-- `"%.{d}f" % q`: correctly rounded (ties to even), without padding. -/
def fmtFixed (d : ℕ) (q : ℚ) : Text :=
  let r := (roundEven (|q| * 10 ^ d)).toNat
  (if q < 0 then ['-'] else []) ++ digits (r / 10 ^ d) ++ (if d = 0 then [] else '.' :: padNat d (r % 10 ^ d))

/-- `"%{w}s"`: pad on the left with blanks. -/
def padLeft (w : ℕ) (s : Text) : Text := List.replicate (w - s.length) ' ' ++ s

/-- `"%-{w}s"`: pad on the right with blanks. -/
def padRight (w : ℕ) (s : Text) : Text := s ++ List.replicate (w - s.length) ' '

/-- `"%{w}.{d}f" % v`; `none` is NaN. -/
def fmtF (w d : ℕ) (v : Option ℚ) : Text :=
  padLeft w (match v with | none => "nan".toList | some q => fmtFixed d q)

/-- Whitespace of `str.strip` and `str.split` (ASCII). -/
def isSpace (c : Char) : Bool := c = ' ' || c = '\t' || c = '\n' || c = '\r' || c = '\x0b' || c = '\x0c'

/-- `str.strip()`. -/
def strip (s : Text) : Text := ((s.dropWhile isSpace).reverse.dropWhile isSpace).reverse

/-- A string of decimal digits, continuing from `acc`. -/
def natOf (acc : ℕ) : Text → Option ℕ
  | [] => some acc
  | c :: t => if 48 ≤ c.toNat ∧ c.toNat ≤ 57 then natOf (acc * 10 + (c.toNat - 48)) t else none

/-- Unsigned decimal number with optional fraction (exponents, `inf` and underscores are not modelled: the files written
here contain none). -/
def unsignedOf (s : Text) : Option ℚ :=
  match s.dropWhile (· ≠ '.') with
  | [] => if s = [] then none else (natOf 0 s).map (fun (n : ℕ) => (n : ℚ))
  | _ :: fp =>
    if s.takeWhile (· ≠ '.') = [] ∧ fp = [] then none
    else match natOf 0 (s.takeWhile (· ≠ '.')), natOf 0 fp with
      | some a, some b => some ((a : ℚ) + (b : ℚ) / 10 ^ fp.length)
      | _, _ => none

/-- `float(s)`; `.ok none` is NaN. -/
def parseFloat (s : Text) : Py (Option ℚ) :=
  match strip s with
  | '-' :: t => match unsignedOf t with
    | some q => .ok (some (-q))
    | none => .error .valueError
  | t => if t = "nan".toList then .ok none else match unsignedOf t with
    | some q => .ok (some q)
    | none => .error .valueError

/-- `int(s)`. -/
def parseInt (s : Text) : Py ℤ :=
  match strip s with
  | [] => .error .valueError
  | '-' :: t => if t = [] then .error .valueError else match natOf 0 t with
    | some n => .ok (-n)
    | none => .error .valueError
  | t => match natOf 0 t with
    | some n => .ok n
    | none => .error .valueError

/-- `s.split()`; `cur` is the word being read. -/
def wordsAux (cur : Text) : Text → List Text
  | [] => if cur = [] then [] else [cur]
  | c :: t => if isSpace c then (if cur = [] then wordsAux [] t else cur :: wordsAux [] t) else wordsAux (cur ++ [c]) t

/-- `s.split()`. -/
def words (s : Text) : List Text := wordsAux [] s

/-- Lines of a text file opened with universal newlines; `cur` is the line being read. -/
def readLinesAux (cur : Text) : Text → List Text
  | [] => if cur = [] then [] else [cur]
  | '\r' :: '\n' :: t => (cur ++ ['\n']) :: readLinesAux [] t
  | c :: t => if c = '\r' ∨ c = '\n' then (cur ++ ['\n']) :: readLinesAux [] t else readLinesAux (cur ++ [c]) t

/-- `f.readlines()` of a file opened with mode "r". -/
def readLines (s : Text) : List Text := readLinesAux [] s

/-- `s[a:b]` for 0 <= a <= b. -/
def slice (s : Text) (a b : ℕ) : Text := (s.drop a).take (b - a)

/-- `[l[i:i+k] for i in range(0, len(l), k)]`. -/
def chunks {α : Type} (k : ℕ) (l : List α) : List (List α) :=
  if h : l = [] ∨ k = 0 then [] else l.take k :: chunks k (l.drop k)
termination_by l.length
decreasing_by
  push Not at h
  have := List.length_pos_iff.2 h.1
  rw [List.length_drop]
  omega

end Verif.Io
