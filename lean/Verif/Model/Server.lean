import Verif.Basic.PyDict
import Verif.Model.Congruence

/-!
# The manager class and the web server

Model of `triples/gui/sos_manager.py` (`_default_polynomial_check`, `SOS_Manager.sum_of_squares`) and of the request handling of `web_main.py`.  Drawing and printing
are not modelled; the parser, the root search and the solvers are parameters.
-/

namespace Verif.Server

open Verif

/-- A value in the options of one method.  Simplified: the code allows any value; the ones it reads or writes are distinguished. -/
inductive CVal (T R : Type) where
  | tangents (l : List T)
  | roots (r : R)
  | flag (b : Bool)
  | other (n : ℕ)
  deriving DecidableEq, Repr

/-- `configs`: the options of each method (sum_of_squares.py 25-38).  Simplified: always a dictionary of dictionaries, so `configs.get(method)` is `None` only for a missing key. -/
abbrev Configs (T R : Type) := List (String × List (String × CVal T R))

/-- `DEFAULT_CONFIGS` as defined (sum_of_squares.py 25-38). -/
def defaultConfigs (T R : Type) : Configs T R := [("LinearSOS", []), ("StructuralSOS", []), ("SymmetricSOS", []), ("SDPSOS", [])]

variable {T R S P : Type}

/-- The polynomial as far as the check looks at it: number of variables, homogeneity, total degree.  Simplified: the degree of the zero polynomial is `-oo` in the code,
here `0`; no bound is exceeded either way. -/
structure Shape where
  gens : ℕ
  hom : Bool
  degree : ℕ

/-- `upper_bounds` (sos_manager.py 28). -/
def upperBounds : List ℕ := [30, 30, 30, 12, 11, 8, 6, 4, 4, 4, 4]

/-- `_default_polynomial_check` (sos_manager.py 19-32). -/
def methodCheck (p : Shape) (order : Option (List String)) : Except PyErr (Option (List String)) :=
  match upperBounds[p.gens + (1 - (if p.hom then 1 else 0))]? with
  | none => .error .indexError
  | some b =>
    if b < p.degree then
      match order with
      | none => .error .typeError
      | some l => .ok (some (l.filter fun m => !(m == "LinearSOS" || m == "SDPSOS")))
    else .ok order

/-- One round of the loop that turns the output off (sos_manager.py 237-239). -/
def silence1 (c : Configs T R) (m : String) : Configs T R := dset c m (dset ((dget c m).getD []) "verbose" (.flag false))

/-- The loop (sos_manager.py 235-239).  The dictionary that was passed is changed in place. -/
def silence (c : Configs T R) : Configs T R := ["LinearSOS", "SDPSOS"].foldl silence1 c

/-- What `SOS_Manager.sum_of_squares` calls: the core function, and `rewrite_symmetry` on its answer. -/
structure Core (T R S : Type) where
  sos : Option (List String) → Configs T R → Except PyErr (Option S)
  rewrite : S → Except PyErr S

/-- `SOS_Manager.sum_of_squares` (sos_manager.py 210-251): the result, and the configuration dictionary afterwards.  `poly` is `none` if the argument is not a `Poly`; else
its shape after unused variables have been removed (225-232, not modelled).  `std` is `CONFIG_STANDARDIZE_CYCLICEXPR`. -/
def managerSos (core : Core T R S) (verbose std : Bool) (poly : Option Shape) (order : Option (List String)) (c : Configs T R) : Except PyErr (Option S) × Configs T R :=
  match poly with
  | none => (.ok none, c)
  | some p =>
    let c := if verbose then c else silence c
    match methodCheck p order with
    | .error e => (.error e, c)
    | .ok order =>
      match core.sos order c with
      | .error e => (.error e, c)
      | .ok none => (if std then .error .attributeError else .ok none, c)
      | .ok (some s) => (if std then (core.rewrite s).map some else .ok (some s), c)

/-! ### Histories of calls of the manager -/

/-- What a program does with the class: set `SOS_Manager.verbose`, or call `sum_of_squares` with its own configuration or with the default. -/
inductive Act (T R : Type) where
  | setVerbose (b : Bool)
  | call (poly : Option Shape) (order : Option (List String)) (own : Option (Configs T R))

/-- `SOS_Manager.verbose` and the module variable `DEFAULT_CONFIGS`, which is the default argument (sos_manager.py 42, 217). -/
structure MState (T R : Type) where
  verbose : Bool
  defaults : Configs T R

/-- One action. -/
def step (core : Core T R S) (s : MState T R) : Act T R → MState T R
  | .setVerbose b => { s with verbose := b }
  | .call poly order own =>
    match own with
    | some c => let _ := managerSos core s.verbose true poly order c; s
    | none => { s with defaults := (managerSos core s.verbose true poly order s.defaults).2 }

/-- A history. -/
def run (core : Core T R S) (s : MState T R) (l : List (Act T R)) : MState T R := l.foldl (step core) s

/-! ### The web server -/

/-- A message to a client (web_main.py 204-212, 291-296, 303-308). -/
inductive Msg where
  | rootangents (sid : String) (tangents : List String) (timestamp : ℕ)
  | sos (sid : String) (text : String) (success : Bool) (timestamp : ℕ)
  deriving DecidableEq, Repr

/-- The fields of a request (web_main.py 133-155); `tangents` are the lines of the text. -/
structure Req (T R : Type) where
  poly : Option String
  sid : Option String
  actions : Option (List String)
  tangents : Option (List String)
  methods : Option (List (String × Bool))
  configs : Option (Configs T R)
  timestamp : Option ℕ

/-- What the server calls. -/
structure Ext (T R S P : Type) where
  /-- `SOS_Manager.set_poly`; `none` if the text is not a polynomial -/
  setPoly : String → Except PyErr (Option P)
  /-- `SOS_Manager.findroot` -/
  findroot : P → Except PyErr R
  /-- the tangents of the roots as text -/
  tangentsOf : R → Except PyErr (List String)
  /-- `rootsinfo.tangents = []` -/
  dropTangents : R → R
  /-- the square of the parsed line -/
  pl : String → Except PyErr (Option T)
  /-- `SOS_Manager.sum_of_squares` -/
  sos : P → List String → Configs T R → Except PyErr (Option S)
  /-- `isinstance(solution, SolutionSimple)` -/
  simple : S → Bool
  /-- the texts of the solution -/
  render : S → Except PyErr String

/-- Adding one tangent to the configuration (web_main.py 223-229); exceptions are swallowed (230-231). -/
def addTangent (c : Option (Configs T R)) (t : T) : Option (Configs T R) :=
  match c with
  | none => some [("LinearSOS", [("tangents", .tangents [t])])]
  | some c =>
    match dget c "LinearSOS" with
    | none => some (dset c "LinearSOS" [("tangents", .tangents [t])])
    | some mc =>
      match dget mc "tangents" with
      | none => some (dset c "LinearSOS" (dset mc "tangents" (.tangents [t])))
      | some (.tangents l) => some (dset c "LinearSOS" (dset mc "tangents" (.tangents (l ++ [t]))))
      | some _ => some c

/-- One line of the tangents (web_main.py 215-231). -/
def addLine (ext : Ext T R S P) (c : Option (Configs T R)) (line : String) : Option (Configs T R) :=
  if line.length = 0 then c
  else match ext.pl line with
    | .ok (some t) => addTangent c t
    | _ => c

/-- `sum_of_squares` of the server (web_main.py 238-308): the messages, and the exception that ends the task, if any. -/
def sosTask (ext : Ext T R S P) (sid : String) (ts : ℕ) (p : P) (methods : Option (List (String × Bool))) (c : Option (Configs T R)) (r : R) : List Msg × Option PyErr :=
  let fail : List Msg × Option PyErr := ([.sos sid "" false ts], none)
  match methods with
  | none => fail
  | some ms =>
    let order := (ms.filter fun m => m.2).map Prod.fst
    match c with
    | none => fail
    | some c =>
      let c := if "LinearSOS" ∈ order then dset c "LinearSOS" (dset ((dget c "LinearSOS").getD []) "rootsinfo" (.roots r)) else c
      match ext.sos p order c with
      | .error _ => fail
      | .ok none => fail
      | .ok (some s) =>
        if ext.simple s then
          match ext.render s with
          | .error e => ([], some e)
          | .ok txt => ([.sos sid txt true ts], none)
        else ([], some (.custom "UnboundLocalError"))

/-- `findroot` of the server, the background task (web_main.py 172-235). -/
def rootTask (ext : Ext T R S P) (sid : String) (p : P) (q : Req T R) : List Msg × Option PyErr :=
  let ts := q.timestamp.getD 0
  match q.actions with
  | none => ([], some .keyError)
  | some acts =>
    if "findroot" ∈ acts then
      match ext.findroot p with
      | .error e => ([], some e)
      | .ok r =>
        match q.tangents with
        | none =>
          match ext.tangentsOf r with
          | .error e => ([], some e)
          | .ok tg =>
            if "sos" ∈ acts then
              let out := sosTask ext sid ts p q.methods q.configs r
              (.rootangents sid tg ts :: out.1, out.2)
            else ([.rootangents sid tg ts], none)
        | some lines =>
          if "sos" ∈ acts then sosTask ext sid ts p q.methods (lines.foldl (addLine ext) q.configs) (ext.dropTangents r)
          else ([], none)
    else if "sos" ∈ acts then ([], some (.custom "UnboundLocalError"))
    else ([], none)

/-- `preprocess` (web_main.py 104-170): the reply (`some true` with the data, `some false` an empty reply, an error otherwise), the messages and the end of the
background task. -/
def handle (ext : Ext T R S P) (q : Req T R) : Except PyErr Bool × List Msg × Option PyErr :=
  match q.poly with
  | none => (.error .keyError, [], none)
  | some txt =>
    match ext.setPoly txt with
    | .error e => (.error e, [], none)
    | .ok none => (.ok false, [], none)
    | .ok (some p) =>
      match q.sid with
      | none => (.error .keyError, [], none)
      | some sid => (.ok true, rootTask ext sid p q)

end Verif.Server
