import Verif.Model.Transforms
import Mathlib.Data.Int.Log
import Mathlib.Algebra.Order.Ring.Unbundled.Rat
/-!
# Numbers and words in text files

Text is a list of characters.  `np.fromstring(text, sep=" ")` and `line.split()` are modelled by `words` and
`parseNum`; files contain no white space other than blanks, tabs and line ends.
-/
namespace BaderKit

/-- A string, for `file_parsers.py:318-350,452-540`. -/
abbrev Text := List Char

/-- White space. For `file_parsers.py:174-271,452-540`. -/
def isWs (c : Char) : Bool := c = ' ' || c = '\n' || c = '\t' || c = '\r'

/-- The unfinished first word and the other words. For `file_parsers.py:174-271,452-540`. -/
def wordsAux : Text → Text × List Text
  | [] => ([], [])
  | c :: cs =>
    let r := wordsAux cs
    if isWs c then ([], if r.1 = [] then r.2 else r.1 :: r.2) else (c :: r.1, r.2)

/-- `text.split()`. For `file_parsers.py:174-271,452-540`. -/
def words (t : Text) : List Text :=
  let r := wordsAux t
  if r.1 = [] then r.2 else r.1 :: r.2

/-- `str(n)` for a natural number. For `file_parsers.py:318-334`. -/
def strNat (n : ℕ) : Text := if n = 0 then ['0'] else decimal n

/-- A digit, for `file_parsers.py:452-470`. -/
def isDig (c : Char) : Bool := decide (48 ≤ c.toNat ∧ c.toNat ≤ 57)

/-- Value of a string of digits. For `file_parsers.py:452-470`. -/
def natOf (t : Text) : ℕ := t.foldl (fun a c => a * 10 + (c.toNat - 48)) 0

/-- `int(word)` for non-negative numbers. For `file_parsers.py:452-470`. -/
def parseNat (t : Text) : Option ℕ := if t ≠ [] ∧ t.all isDig = true then some (natOf t) else none

/-- The exponent part of a number. For `file_parsers.py:452-470`. -/
def parseExp : Text → Option ℤ
  | [] => some 0
  | 'E' :: '+' :: ds => (parseNat ds).map fun n => (n : ℤ)
  | 'E' :: '-' :: ds => (parseNat ds).map fun n => -(n : ℤ)
  | _ => none

section field
variable {K : Type*} [Field K]

/-- Digits, optionally a point and digits, optionally an exponent. For `file_parsers.py:452-470`. -/
def parseUnsigned (t : Text) : Option K :=
  let ip := t.takeWhile isDig
  match t.dropWhile isDig with
  | '.' :: r =>
    let fp := r.takeWhile isDig
    if ip ++ fp = [] then none
    else (parseExp (r.dropWhile isDig)).map fun e => (natOf (ip ++ fp) : K) * 10 ^ (e - (fp.length : ℤ))
  | e => if ip = [] then none else (parseExp e).map fun e => (natOf ip : K) * 10 ^ e

/-- `float(word)`. For `file_parsers.py:452-470`. -/
def parseNum : Text → Option K
  | '-' :: t => (parseUnsigned t).map fun x => -x
  | t => parseUnsigned t

/-- `np.fromstring(text, sep=" ", count=n)`: at most `n` numbers, stopping at the first word that is not a number.
For `file_parsers.py:471-473,487-540`. -/
def fromString (n : ℕ) (t : Text) : List K :=
  ((((words t).map fun w => (parseNum w : Option K)).takeWhile fun o => o.isSome).take n).filterMap fun o => o

variable [LinearOrder K] [FloorRing K]

/-- Mantissa and exponent, `file_parsers.py:358-368`. -/
def mantExp (x : K) : ℤ × ℤ :=
  if x = 0 then (0, 0)
  else
    let e := Int.log 10 |x| + 1
    (roundHE (x / 10 ^ e * 10 ^ 11), e)

end field

/-- `format_fortran`, `file_parsers.py:318-334`. -/
def formatFortran (m e : ℤ) : Text :=
  if m = 0 then " 0.00000000000E+00".toList
  else
    let pre : Text := if m ≥ 0 then [' ', '0', '.'] else [' ', '-', '.']
    let preEs : Text :=
      if e ≥ 0 then (if e.natAbs < 10 then ['E', '+', '0'] else ['E', '+'])
      else (if e.natAbs < 10 then ['E', '-', '0'] else ['E', '-'])
    pre ++ strNat m.natAbs ++ preEs ++ strNat e.natAbs

/-- `[l[i : i + n] for i in range(0, len(l), n)]`, `file_parsers.py:347-348,370-373`. -/
def slices {α : Type*} (n : ℕ) (l : List α) : List (List α) :=
  (List.range ((l.length + n - 1) / n)).map fun i => (l.drop (i * n)).take n

/-- `"\n".join(rows) + "\n"`. For `file_parsers.py:337-350`. -/
def joinRows (rows : List (List Text)) : Text := rows.flatMap fun r => r.flatten ++ ['\n']

/-- `format_fortran_arr`, `file_parsers.py:337-350`. -/
def formatArr (lineLen : ℕ) (ms : List (ℤ × ℤ)) : Text :=
  let formatted := ms.map fun p => formatFortran p.1 p.2
  if formatted.length = 0 then [] else joinRows (slices lineLen formatted)

/-- The loop over chunks of `write_vasp_data`, `file_parsers.py:353-375`. -/
def writeData {K : Type*} [Field K] [LinearOrder K] [FloorRing K] (chunkLines lineLen : ℕ) (flat : List K) : Text :=
  (slices (lineLen * chunkLines) (flat.map mantExp)).flatMap (formatArr lineLen)

end BaderKit
