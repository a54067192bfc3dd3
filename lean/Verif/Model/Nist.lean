/-
The reader of the tables of energy levels: `read_nist_file` (helpers.py 415-440), and its use in
`bu_balance_term` (ionization.py 352-356).

The file is the list of its lines, each a list of characters.  `\d` of the regular expression stands for the ten digits (python
also accepts the digits of other scripts); a decimal number is its exact value.
-/
import Verif.Model.Saha
import Mathlib.Data.Rat.Defs
import Mathlib.Data.List.Basic
import Mathlib.Tactic.Ring
import Mathlib.Tactic.NormNum

set_option autoImplicit false

namespace Verif.Nist

/-- Helper: what follows the literal text `p`. -/
def lit : List Char → List Char → Option (List Char)
  | [], l => some l
  | _ :: _, [] => none
  | c :: p, d :: l => if c = d then lit p l else none

/-- helpers.py 427 and 428: `\d+`, the digits and what follows them.  All digits are taken: what comes next in the pattern does
not begin with a digit, so that going back to fewer digits never helps. -/
def digits (l : List Char) : Option (List Char × List Char) :=
  if l.takeWhile Char.isDigit = [] then none else some (l.takeWhile Char.isDigit, l.dropWhile Char.isDigit)

/-- helpers.py 428: `(?:\.\d+)?`. -/
def fraction (l : List Char) : List Char × List Char :=
  match l with
  | '.' :: r => (digits r).getD ([], l)
  | _ => ([], l)

/-- helpers.py 436: `int(match.group("g"))`. -/
def number (l : List Char) : ℕ := l.foldl (fun a c => 10 * a + (c.toNat - 48)) 0

/-- helpers.py 424-431: the pattern at the beginning of a text, with the values of lines 436 and 437. -/
def matchAt (l : List Char) : Option (ℕ × ℚ) :=
  (lit ",term,".toList l).bind fun l =>
  (digits l).bind fun (g, l) =>
  (lit ",\"=\"\"".toList l).bind fun l =>
  (digits l).bind fun (w, l) =>
  (lit "\"\"\"".toList (fraction l).2).map fun _ =>
  (number g, (number w : ℚ) + number (fraction l).1 / 10 ^ (fraction l).1.length)

/-- helpers.py 435: `pattern.search(line)`, the first position at which the pattern fits. -/
def search : List Char → Option (ℕ × ℚ)
  | [] => matchAt []
  | c :: l => (matchAt (c :: l)).orElse fun _ => search l

/-- helpers.py 432-440: multiplicities and energies. -/
def readFile (lines : List (List Char)) : List ℕ × List ℚ :=
  ((lines.filterMap search).map Prod.fst, (lines.filterMap search).map Prod.snd)

/-- ionization.py 304-363 `bu_balance_term`, with the levels of the files (line 354), one for each charge state. -/
noncomputable def buFromFiles (u : Expt.Consts) (Z : ℕ) (files : ℕ → List (List Char)) (E ipd : ℕ → ℝ) (T ne mu N : ℝ) : Saha.Species :=
  Saha.buSpecies u Z (fun k => ((readFile (files k)).1.zip (readFile (files k)).2).map fun l => ((l.1 : ℝ), (l.2 : ℝ))) E ipd T ne mu N

end Verif.Nist
