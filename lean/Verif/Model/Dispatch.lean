import Verif.Model.Congruence

/-!
# Model of `triples/core/sum_of_squares.py` and of `PolyReader` (`triples/utils/text_process.py` 461-543)

The four solvers are external: what a call does is an arbitrary function `beh` of the calls made before it
and of the call itself, so the theorems hold for every behaviour of the solvers (including stateful ones).
-/

namespace Verif.Dispatch

/-- The parts of a `Solution` that the dispatcher writes or reads (utils/expression/solution.py 90-135). -/
structure Sol (P C : Type) where
  method : String
  body : ℕ
  problem : P
  ineqs : C
  eqs : C
  deriving DecidableEq, Repr

/-- `sanitize_output` (core/shared.py 248-268): the caller's problem and constraints overwrite those of the
solver's solution; `None` passes through; times are not modelled. -/
def sanitizeOutput {P C : Type} (p : P) (ineqs eqs : C) (s : Option (Sol P C)) : Option (Sol P C) :=
  s.map fun s => { s with problem := p, ineqs := ineqs, eqs := eqs }

/-- `NAME_TO_METHOD` (sum_of_squares.py 16-21). -/
def nameToMethod : List String := ["LinearSOS", "StructuralSOS", "SymmetricSOS", "SDPSOS"]

/-- `METHOD_ORDER` (sum_of_squares.py 23). -/
def methodOrder : List String := ["StructuralSOS", "LinearSOS", "SDPSOS", "SymmetricSOS"]

/-- A call of a solver: its name and the keyword arguments it receives. -/
abbrev Call (G : Type) := String × G

/-- The loop of `sum_of_squares` (sum_of_squares.py 122-131), returning also the calls made so far.
`cfg` is `configs.get(method, {})`; `NAME_TO_METHOD[method]` raises `KeyError` for an unknown name, when it is
reached.  No exception is caught. -/
def loop {G S : Type} (cfg : String → G) (beh : List (Call G) → Call G → Except PyErr (Option S)) :
    List String → List (Call G) → List (Call G) × Except PyErr (Option S)
  | [], hist => (hist, .ok none)
  | m :: ms, hist =>
    if m ∈ nameToMethod then
      match beh hist (m, cfg m) with
      | .error e => (hist ++ [(m, cfg m)], .error e)
      | .ok (some s) => (hist ++ [(m, cfg m)], .ok (some s))
      | .ok none => loop cfg beh ms (hist ++ [(m, cfg m)])
    else (hist, .error .keyError)

/-- `sum_of_squares` (sum_of_squares.py 41-131) with its `sanitize_output` decorator.
`method_order=None` means the default order. -/
def sumOfSquares {G P C : Type} (p : P) (ineqs eqs : C) (order : Option (List String)) (cfg : String → G)
    (beh : List (Call G) → Call G → Except PyErr (Option (Sol P C))) :
    List (Call G) × Except PyErr (Option (Sol P C)) :=
  let r := loop cfg beh (order.getD methodOrder) []
  (r.1, r.2.map (sanitizeOutput p ineqs eqs))

/-! ## The batch API -/

/-- An element of the input list of `PolyReader`. -/
inductive Item (P : Type) where
  | str (s : String)
  | poly (p : P)
  | other
  deriving DecidableEq, Repr

/-- `PolyReader.__init__` (text_process.py 504-514): strip strings, keep nonempty strings and polynomials. -/
def readItems {P : Type} (strip : String → String) (l : List (Item P)) : List (Item P) :=
  (l.map fun
    | .str s => .str (strip s)
    | x => x).filter fun
    | .str s => s ≠ ""
    | .poly _ => true
    | .other => false

/-- `PolyReader.__next__` (text_process.py 528-540) at the current index: `parse` is `preprocess_text`
(`none` = it raised).  On failure with `ignore_errors=False` a `ValueError` is raised, otherwise `None` is
yielded. -/
def readNext {P : Type} (parse : String → Option P) (ignoreErrors : Bool) : Item P → Except PyErr (Option P)
  | .str s =>
    match parse s with
    | some p => .ok (some p)
    | none => if ignoreErrors then .ok none else .error .valueError
  | .poly p => .ok (some p)
  | .other => .ok none

inductive Status where
  | invalid | fail | inaccurate | success | error
  deriving DecidableEq, Repr

/-- One row of the result (sum_of_squares.py 213-252). -/
structure Record (P S : Type) where
  problem : Item P
  deg : ℕ
  method : Option String
  solution : Option S
  status : Status
  deriving DecidableEq, Repr

/-- The `try` block (sum_of_squares.py 226-247): `solve` is the call of `sum_of_squares`, `isEqual` the
evaluation of `solution.is_equal`; an exception in either gives status `error`. -/
def solveRecord {P S : Type} (it : Item P) (d : ℕ) (methodOf : S → String) (isEqual : S → Except PyErr Bool)
    (r : Except PyErr (Option S)) : Record P S :=
  match r with
  | .error _ => ⟨it, d, none, none, .error⟩
  | .ok none => ⟨it, d, none, none, .fail⟩
  | .ok (some s) =>
    match isEqual s with
    | .error _ => ⟨it, d, none, none, .error⟩
    | .ok false => ⟨it, d, some (methodOf s), some s, .inaccurate⟩
    | .ok true => ⟨it, d, some (methodOf s), some s, .success⟩

/-- The main loop of `sum_of_squares_multiple` (sum_of_squares.py 211-250).  `deg(poly)` is evaluated outside
the `try`, so an exception there (`degOf p = error`) aborts the whole batch, as does a parse error with
`ignore_errors=False`.  `solve` may depend on the number of problems solved before. -/
def batchLoop {P S : Type} (parse : String → Option P) (ignoreErrors : Bool) (degOf : P → Except PyErr ℕ)
    (solve : ℕ → P → Except PyErr (Option S)) (methodOf : S → String) (isEqual : S → Except PyErr Bool) :
    ℕ → List (Item P) → Except PyErr (List (Record P S))
  | _, [] => .ok []
  | i, it :: rest =>
    match readNext parse ignoreErrors it with
    | .error e => .error e
    | .ok none =>
      match batchLoop parse ignoreErrors degOf solve methodOf isEqual (i + 1) rest with
      | .error e => .error e
      | .ok rs => .ok (⟨it, 0, none, none, .invalid⟩ :: rs)
    | .ok (some p) =>
      match degOf p with
      | .error e => .error e
      | .ok d =>
        match batchLoop parse ignoreErrors degOf solve methodOf isEqual (i + 1) rest with
        | .error e => .error e
        | .ok rs => .ok (solveRecord it d methodOf isEqual (solve i p) :: rs)

/-- `sum_of_squares_multiple` (sum_of_squares.py 134-252) up to saving the table; `ignore` is the user's
`poly_reader_configs.get('ignore_errors')`, defaulting to `True` (200-201). -/
def sumOfSquaresMultiple {P S : Type} (strip : String → String) (parse : String → Option P)
    (ignore : Option Bool) (degOf : P → Except PyErr ℕ) (solve : ℕ → P → Except PyErr (Option S))
    (methodOf : S → String) (isEqual : S → Except PyErr Bool) (items : List (Item P)) :
    Except PyErr (List (Record P S)) :=
  batchLoop parse (ignore.getD true) degOf solve methodOf isEqual 0 (readItems strip items)

end Verif.Dispatch
