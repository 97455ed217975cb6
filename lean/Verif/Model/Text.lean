import Verif.Model.Congruence
import Verif.Model.Monomials
import Verif.Basic.PyDict
import Mathlib.Data.List.Sort

/-!
# Model of triples/utils/text_process.py and of the text rendering in triples/utils/expression/solution.py

A Python string is a list of characters.
-/

namespace Verif.Text

open Verif

/-! ### Python string operations -/

/-- `s.startswith(p)` with the remainder. -/
def dropPrefix : List Char → List Char → Option (List Char)
  | [], s => some s
  | _ :: _, [] => none
  | c :: p, d :: s => if c = d then dropPrefix p s else none

/-- `s.replace(old, new)` (Python) for a nonempty `old`: non-overlapping occurrences from the left.  The fuel is the length of the string. -/
def replaceFuel (old new : List Char) : ℕ → List Char → List Char
  | 0, s => s
  | _ + 1, [] => []
  | k + 1, c :: s => match dropPrefix old (c :: s) with
    | some r => new ++ replaceFuel old new k r
    | none => c :: replaceFuel old new k s

/-- `s.replace(old, new)`. -/
def replaceAll (old new s : List Char) : List Char := replaceFuel old new s.length s

/-! ### Cyclic expansion -/

/-- `c` translated by the dictionary (Python `str.translate`). -/
def translate (d : List (Char × Char)) (s : List Char) : List Char := s.map fun c => (dget d c).getD c

/-- `ord(_.name) for _ in gens` (text_process.py 39): a name of another length raises `TypeError`. -/
def ordNames : List (List Char) → Except PyErr (List Char)
  | [] => .ok []
  | [c] :: l => (ordNames l).map fun r => c :: r
  | _ :: _ => .error .typeError

/-- `dict(zip(original_names, p(original_names)))` (text_process.py 40-42). -/
def translation (names : List Char) (p : List ℕ) : List (Char × Char) := dictOf (List.zip names (papply p names))

/-- `symbol.join(...)` (text_process.py 43-44). -/
def joinWith (sep : List Char) : List (List Char) → List Char
  | [] => []
  | [s] => s
  | s :: l => s ++ sep ++ joinWith sep l

/-- The separator (text_process.py 43). -/
def separator (product : Bool) : List Char := if product then [' ', '*', ' '] else [' ', '+', ' ']

/-- `cycle_expansion(f, symbol, gens, perm)` (text_process.py 11-44) on the list of elements of the group. -/
def cycleExpansion (gens : List (List Char)) (G : List (List ℕ)) (f : List Char) (product : Bool) : Except PyErr (List Char) :=
  (ordNames gens).map fun names => joinWith (separator product) (G.map fun p => translate (translation names p) f)

/-! ### LaTeX -/

/-- The replacements before the loop (text_process.py 57-65). -/
def delatexPrep (s : List Char) : List Char :=
  let s := s.filter (· ≠ ' ')
  let s := replaceAll "left".toList [] s
  let s := replaceAll "right".toList [] s
  let s := replaceAll "}{".toList ")/(".toList s
  let s := replaceAll "frac".toList [] s
  let s := translate [('{', '('), ('}', ')'), ('\\', ' '), ('$', ' ')] s
  s.filter (· ≠ ' ')

/-- The loop (text_process.py 69-93): `pre` is `poly[:i]`, `rest` is `poly[i:]`, the condition `i < len(poly) - 4` says that `rest` has at
least five characters.  Each step shortens `rest` or `paren_depth`; the fuel is the sum of their lengths. -/
def delatexLoop : ℕ → List Char → List Char → ℤ → List ℤ → Except PyErr (List Char × List ℤ)
  | 0, pre, rest, _, st => .ok (pre ++ rest, st)
  | k + 1, pre, rest, par, st =>
    if rest.length < 5 then .ok (pre ++ rest, st)
    else match dropPrefix "sum".toList rest with
    | some r => delatexLoop k (pre ++ ['s', '(']) r (par + 1) ((par + 1) :: st)
    | none => match dropPrefix "prod".toList rest with
      | some r => delatexLoop k (pre ++ ['p', '(']) r (par + 1) ((par + 1) :: st)
      | none => match rest with
        | [] => .ok (pre, st)
        | c :: r =>
          if c = '(' then delatexLoop k (pre ++ [c]) r (par + 1) st
          else if c = ')' then delatexLoop k (pre ++ [c]) r (par - 1) st
          else match st with
            | [] => .error .indexError
            | top :: st' =>
              if par = top ∧ (c = '+' ∨ c = '-') then delatexLoop k (pre ++ [')']) (c :: r) (par - 1) st'
              else delatexLoop k (pre ++ [c]) r par st

/-- `_preprocess_text_delatex` (text_process.py 51-95). -/
def delatex (s : List Char) : Except PyErr (List Char) :=
  let t := delatexPrep s
  (delatexLoop (t.length + 1) [] t 0 [-1]).map fun r => r.1 ++ List.replicate (r.2.length - 1) ')'

/-! ### Expansion of s(...) and p(...) -/

/-- `poly[i] == 's' and i+4 <= len(poly) and poly[i:i+4] != 'sqrt'` or `poly[i] == 'p'` (text_process.py 112). -/
def opens (rest : List Char) : Bool :=
  match rest with
  | [] => false
  | c :: _ => (decide (c = 's') && decide (4 ≤ rest.length) && decide (rest.take 4 ≠ "sqrt".toList)) || decide (c = 'p')

/-- The loop (text_process.py 110-127): `pre` is `poly[:i]`, `rest` is `poly[i:]`.  `cyc` is `_cyc_expand(text, symbol)`. -/
def expandLoop (cyc : List Char → Char → Except PyErr (List Char)) : List Char → List Char → ℤ → List ℤ → List ℕ → Except PyErr (List Char)
  | pre, [], _, _, _ => .ok pre
  | pre, c :: r, par, st, bs =>
    if opens (c :: r) then expandLoop cyc (pre ++ [c]) r par (par :: st) (pre.length :: bs)
    else if c = '(' then expandLoop cyc (pre ++ [c]) r (par + 1) st bs
    else if c = ')' then
      match st with
      | [] => .error .indexError
      | top :: st' =>
        if top = par - 1 then
          match bs with
          | [] => .error .indexError
          | b :: bs' => match cyc ((pre ++ [c]).drop (b + 1)) (pre.getD b ' ') with
            | .error e => .error e
            | .ok t => expandLoop cyc (pre.take b ++ ('(' :: t ++ [')'])) r (par - 1) st' bs'
        else expandLoop cyc (pre ++ [c]) r (par - 1) st bs
    else expandLoop cyc (pre ++ [c]) r par st bs

/-- `_preprocess_text_expansion` (text_process.py 98-128). -/
def expansion (gens : List (List Char)) (G : List (List ℕ)) (s : List Char) : Except PyErr (List Char) :=
  expandLoop (fun t sym => cycleExpansion gens G t (decide (sym = 'p'))) [] s 0 [-1] []

/-! ### Completion -/

/-- `'0'~'9'` (text_process.py 156). -/
def isDig (c : Char) : Bool := decide (48 ≤ c.toNat) && decide (c.toNat ≤ 57)

/-- `97 <= ord(c) <= 122`. -/
def isLow (c : Char) : Bool := decide (97 ≤ c.toNat) && decide (c.toNat ≤ 122)

/-- The options of the completion (text_process.py 131-136). -/
structure Opts where
  sci : Bool
  keepSqrt : Bool
  keepCbrt : Bool

/-- `CHECK_SQRT(poly, i) or CHECK_CBRT(poly, i)` (text_process.py 151-152). -/
def protectedCall (o : Opts) (rest : List Char) : Bool :=
  (o.keepSqrt && (dropPrefix "sqrt(".toList rest).isSome) || (o.keepCbrt && (dropPrefix "cbrt(".toList rest).isSome)

/-- The operator inserted between two neighbours, outside protected calls (text_process.py 156-169). -/
def opBetween (o : Opts) (c d : Char) : Option Char :=
  let notSci := fun e : Char => !(o.sci && decide (e = 'e'))
  if isDig c then (if d = '(' ∨ (isLow d && notSci d) = true then some '*' else none)
  else if c = ')' ∨ (isLow c && notSci c) = true then
    (if d = '(' ∨ isLow d = true then some '*' else if isDig d then some '^' else none)
  else none

/-- The loop (text_process.py 154-170) from position `i`; the fuel is the length. -/
def completeFuel (o : Opts) : ℕ → List Char → List Char
  | 0, s => s
  | _ + 1, [] => []
  | _ + 1, [c] => [c]
  | k + 1, c :: d :: r =>
    if isDig c = false ∧ protectedCall o (c :: d :: r) = true then (c :: d :: r).take 5 ++ completeFuel o k ((c :: d :: r).drop 5)
    else match opBetween o c d with
      | some op => c :: op :: completeFuel o k (d :: r)
      | none => c :: completeFuel o k (d :: r)

/-- `_preprocess_text_completion` (text_process.py 131-172). -/
def completion (o : Opts) (s : List Char) : List Char :=
  let s := s.filter (· ≠ ' ')
  completeFuel o s.length s

/-! ### Coefficient triangle -/

/-- The inner loop body of the ternary branch (text_process.py 388-395); the terms that remain stand for the index `t`, the tail flag for the
end of the list. -/
def triStep {K T : Type*} (txt : K → T) (zero : T) (d : ℕ) (acc : List (List ℕ × K) × List T) (ij : ℕ × ℕ) : List (List ℕ × K) × List T :=
  match acc.1 with
  | [] => (acc.1, acc.2 ++ [zero])
  | t :: ts => if t.1.getD 0 0 = d - ij.1 ∧ t.1.getD 1 0 = ij.1 - ij.2 then (ts, acc.2 ++ [txt t.2]) else (acc.1, acc.2 ++ [zero])

/-- The positions in the order of the loops (text_process.py 386-387). -/
def triGrid (d : ℕ) : List (ℕ × ℕ) := (List.range (d + 1)).flatMap fun i => (List.range (i + 1)).map fun j => (i, j)

/-- The ternary branch of `coefficient_triangle` (text_process.py 380-396).  `terms` is `poly.terms()` in SymPy's order; `txt` is
`short_constant_parser`. -/
def coefficientTriangle {K T : Type*} (txt : K → T) (zero : T) (terms : List (List ℕ × K)) (d : ℕ) : List T :=
  ((triGrid d).foldl (triStep txt zero d) (terms, [])).2

/-! ### Rendering -/

/-- The order used to put longer terms first (solution.py 68). -/
def longer (a b : List Char) : Prop := b.length ≤ a.length

instance : DecidableRel longer := fun a b => inferInstanceAs (Decidable (b.length ≤ a.length))

/-- Loop body (solution.py 71-77): the lines in reverse order and `max_line_length`. -/
def lineStep (align : List Char) (acc : List (List Char) × ℤ) (t : List Char) : List (List Char) × ℤ :=
  match acc.1 with
  | [] => ([t], acc.2)
  | last :: older =>
    let expected : ℤ := last.length + t.length
    if (expected - acc.2).natAbs < ((last.length : ℤ) - acc.2).natAbs then ((last ++ " + ".toList ++ t) :: older, acc.2)
    else ((align ++ " + ".toList ++ t) :: last :: older, (((last :: older).getLast?.getD []).length : ℤ))

/-- `_multiline_equation_latex` (solution.py 47-86). -/
def multiline (s : List (List Char)) (head : List Char) (maxLen : Option ℕ) (env : List Char) (eqSign : List Char) (allowSort : Bool) : List Char :=
  if s.length = 0 then head
  else
    let mx : ℕ := maxLen.getD (max (3 * head.length) 120)
    let align := if env = [] then [] else " &".toList
    let s := if allowSort then s.insertionSort longer else s
    match s with
    | [] => head
    | t :: ts =>
      let lines := (ts.foldl (lineStep align) ([align ++ [' '] ++ eqSign ++ [' '] ++ t], (mx : ℤ))).1.reverse
      let body := joinWith " \\\\ ".toList lines
      if env = [] then head ++ [' '] ++ body
      else "\\begin{".toList ++ env ++ "} ".toList ++ head ++ [' '] ++ body ++ " \\end{".toList ++ env ++ ['}']

/-- The pairs `('^2','²'), ..., ('^9','⁹')` (solution.py 168, 460). -/
def superPairs : List (Char × Char) := List.zip "23456789".toList "²³⁴⁵⁶⁷⁸⁹".toList

/-- The replacements of `SolutionSimple.str_txt` (solution.py 456-463). -/
def strTxt (s : List Char) : List Char :=
  let s := replaceAll [' '] [] s
  let s := replaceAll ['*', '*'] ['^'] s
  let s := replaceAll ['*'] [] s
  superPairs.foldl (fun s p => replaceAll ['^', p.1] [p.2] s) s

/-- `pow_trans` (solution.py 345). -/
def superDigit (c : Char) : Char := (dget (List.zip "0123456789".toList "⁰¹²³⁴⁵⁶⁷⁸⁹".toList) c).getD c

/-- `re.sub(r'\^(\d+)', ...)` (solution.py 346).  Mode 0: outside an exponent; mode 1: after a `^`; mode 2: inside the digits of an exponent. -/
def superscripts : ℕ → List Char → List Char
  | 1, [] => ['^']
  | _, [] => []
  | 1, c :: s => if isDig c then superDigit c :: superscripts 2 s else if c = '^' then '^' :: superscripts 1 s else '^' :: c :: superscripts 0 s
  | 2, c :: s => if isDig c then superDigit c :: superscripts 2 s else if c = '^' then superscripts 1 s else c :: superscripts 0 s
  | _, c :: s => if c = '^' then superscripts 1 s else c :: superscripts 0 s

/-- The conversion of mode `'txt'` of `to_string` (solution.py 340-347). -/
def toStringTxt (s : List Char) : List Char :=
  superscripts 0 (replaceAll ['*'] [] (replaceAll ['*', '*'] ['^'] s))

/-! ### PolyReader -/

/-- The state of a `PolyReader` (text_process.py 461-543): entries that are parsed (`some p`), or raise (`none`); the index. -/
structure Reader (P : Type*) where
  polys : List (Option P)
  index : ℕ
  ignoreErrors : Bool

/-- What `next` does. -/
inductive Next (P : Type*)
  | stop
  | value (p : Option P)
  | invalid (i : ℕ)

/-- `__next__` (text_process.py 525-540). -/
def Reader.next {P : Type*} (r : Reader P) : Next P × Reader P :=
  match r.polys[r.index]? with
  | none => (.stop, r)
  | some (some p) => (.value (some p), { r with index := r.index + 1 })
  | some none => if r.ignoreErrors then (.value none, { r with index := r.index + 1 }) else (.invalid r.index, r)

end Verif.Text
