import Verif.Model.Sdp
import Verif.Model.SdpUtils
import Verif.Model.Congruence
import Mathlib.Algebra.Order.Group.Unbundled.Abs
import Mathlib.Algebra.Order.Group.MinMax
import Mathlib.Algebra.Field.Defs

/-!
# Model of solving an SDP exactly (triples/sdp/abstract.py 115-408, rationalize.py, primal.py 100-163, dual.py 242-260)

The numerical solver is a parameter: for each configuration it raises, finds nothing or returns a vector.  A floating point
number is the number of `K` that it denotes; the rounding of floating point arithmetic is not modelled, so with
`allow_numer > 0` only the control flow and the shape of the results are described.  Dictionaries with the keys of the
problem are lists in insertion order.
-/

namespace Verif.SdpSolve
open Verif Verif.Sdp Verif.SdpUtils Finset

variable {K : Type*} [Field K] [LinearOrder K]

/-- a square matrix with its size -/
abbrev Mat (K : Type*) := ℕ × (ℕ → ℕ → K)

/-- `(U, S)` of `congruence` -/
abbrev LDL (K : Type*) := (ℕ → ℕ → K) × (ℕ → K)

/-- What the code takes from SymPy: `nsimplify(x, tolerance, rational=True)`, `round` of a number, the denominator `v.q`
of a rational and the least eigenvalue of a matrix (sdp/rationalize.py 27, 82, 116; sdp/utils.py 96). -/
structure Ext (K : Type*) where
  nsimp : K → K → K
  rnd : K → ℤ
  den : K → ℕ
  minEig : ℕ → (ℕ → ℕ → K) → K

/-- `round` returns a nearest integer. -/
structure Ext.Sound (E : Ext K) : Prop where
  rnd : ∀ x : K, |(E.rnd x : K) - x| ≤ 1 / 2

/-! ## Decomposition with a perturbation -/

/-- `M + c * eye(n)` -/
def shift (c : K) (M : ℕ → ℕ → K) : ℕ → ℕ → K := fun i j => if i = j then M i j + c else M i j

/-- the loop over ten values of `eps` (sdp/utils.py 98-103) -/
def tryEps (n : ℕ) (M : ℕ → ℕ → K) (m : K) : ℕ → K → Option (LDL K)
  | 0, _ => none
  | k + 1, eps => match congruence n (shift (-m + eps) M) with
    | .ok (some r) => some r
    | _ => tryEps n M m k (eps * 10)

/-- `congruence_with_perturbation` (sdp/utils.py 68-105) -/
def congPert (E : Ext K) (perturb : Bool) (A : Mat K) : Except PyErr (Option (LDL K)) :=
  if A.1 = 0 then .ok (some (fun _ _ => 0, fun _ => 0))
  else if !perturb then congruence A.1 A.2
  else if E.minEig A.1 A.2 < 0 then
    match tryEps A.1 A.2 (E.minEig A.1 A.2) 10 (1 / 10 ^ 15) with
    | some r => .ok (some r)
    | none => congruence A.1 A.2
  else congruence A.1 A.2

/-! ## Rationalisation (rationalize.py) -/

/-- the classes of rationalizers (rationalize.py 37-84) -/
inductive Rz
  | identity
  | empty
  | mask
  | simul (lcms : List ℕ)

/-- the largest absolute value of a vector (`np.abs(y).max()`, rationalize.py 59) -/
def maxAbs (y : List K) : K := y.foldr (fun v m => max |v| m) 0

/-- the vectors that a rationalizer yields (rationalize.py 37-84): the zero tolerance is `1e-7`, the rounding of an entry
`1e-4` of it and at least `1e-15` (line 26). -/
def candidates (E : Ext K) : Rz → List K → List (List K)
  | .identity, y => [y]
  | .empty, _ => [[]]
  | .mask, y =>
    let tol := max 1 (maxAbs y) * (1 / 10 ^ 7)
    [y.map fun v => let w := if tol < |v| then v else 0; E.nsimp w (max (|w| * (1 / 10 ^ 4)) (1 / 10 ^ 15))]
  | .simul lcms, y => lcms.map fun (l : ℕ) => y.map fun v => (E.rnd (v * (l : K)) : K) / (l : K)

/-- the loop of `verify_is_pretty` (rationalize.py 118-123) -/
def prettyLoop (den : K → ℕ) (s : ℕ) : ℕ → List K → Bool
  | _, [] => true
  | l, v :: vs => if s < Nat.lcm l (den v) then false else prettyLoop den s (Nat.lcm l (den v)) vs

/-- the default threshold (rationalize.py 116) -/
def prettyBound (den : K → ℕ) (y : List K) : ℕ := (max 36 (y.foldr (fun v m => max (den v) m) 0)) ^ 2

/-- `verify_is_pretty(y)` with the default threshold (rationalize.py 87-123) -/
def verifyPretty (den : K → ℕ) (y : List K) : Bool :=
  if y = [] then true else prettyLoop den (prettyBound den y) 1 y

/-! ## Problems -/

/-- A problem as `SDPProblemBase` sees it (abstract.py 60-119): the number of parameters, `project` with the information
whether it returned the very object it was given (the test `y2 is y`, line 141), and `S_from_y`. -/
structure Prob (K : Type*) where
  dof : ℕ
  project : Kind → List K → Except PyErr (List K × Bool)
  mats : List K → Except PyErr (List (Mat K))

/-- the loop that decomposes all matrices (rationalize.py 186-198, abstract.py 154-159); `none` when one is not positive
semidefinite.  `reg` is never set by the callers and is not modelled. -/
def decompAll (E : Ext K) (perturb : Bool) : List (Mat K) → Except PyErr (Option (List (LDL K)))
  | [] => .ok (some [])
  | A :: l => match congPert E perturb A with
    | .error e => .error e
    | .ok none => .ok none
    | .ok (some r) => match decompAll E perturb l with
      | .error e => .error e
      | .ok none => .ok none
      | .ok (some rs) => .ok (some (r :: rs))

/-- An entry of the dictionary that describes a solution (abstract.py 223): the tuple `(S, U, diag)` of
`rationalize_and_decompose` or the tuple `(S, (U, diag))` of `_force_return` (abstract.py 262). -/
inductive Entry (K : Type*)
  | triple (S : Mat K) (r : LDL K)
  | couple (S : Mat K) (r : LDL K)

/-- A value of `decompositions`: the tuple `(U, diag)` or the tuple with one element `((U, diag),)`. -/
inductive Pack (K : Type*)
  | pair (r : LDL K)
  | nested (r : LDL K)

/-- `S[0]` (abstract.py 401) -/
def Entry.head : Entry K → Mat K
  | .triple S _ => S
  | .couple S _ => S

/-- `S[1:]` (abstract.py 402) -/
def Entry.tail : Entry K → Pack K
  | .triple _ r => .pair r
  | .couple _ r => .nested r

/-- `U, S = decompositions[key]` (transform.py 447, sdpsos/solution.py 68): a tuple with one element cannot be unpacked. -/
def Pack.unpack : Pack K → Except PyErr (LDL K)
  | .pair r => .ok r
  | .nested _ => .error .valueError

/-- `for key, (U, S) in decompositions.items()` (sdpsos/solution.py 68, 106) -/
def unpackAll : List (Pack K) → Except PyErr (List (LDL K))
  | [] => .ok []
  | p :: l => match p.unpack with
    | .error e => .error e
    | .ok r => match unpackAll l with
      | .error e => .error e
      | .ok rs => .ok (r :: rs)

/-- the loop over the candidates (rationalize.py 179-198) -/
def tryCands (E : Ext K) (P : Prob K) (perturb check : Bool) : List (List K) → Except PyErr (Option (List K × List (Entry K)))
  | [] => .ok none
  | c :: cs =>
    if check && !verifyPretty E.den c then tryCands E P perturb check cs
    else match P.project .sympy c with
      | .error e => .error e
      | .ok (y, _) => match P.mats y with
        | .error e => .error e
        | .ok Ss => match decompAll E perturb Ss with
          | .error e => .error e
          | .ok none => tryCands E P perturb check cs
          | .ok (some rs) => .ok (some (y, List.zipWith Entry.triple Ss rs))

/-- `rationalize_and_decompose` for a vector of the numerical solver (rationalize.py 126-198): an empty vector is
answered by the empty rationalizer. -/
def rationalizeDecompose (E : Ext K) (P : Prob K) (y : List K) (rzs : List Rz) (perturb check : Bool) :
    Except PyErr (Option (List K × List (Entry K))) :=
  tryCands E P perturb check ((if y = [] then [Rz.empty] else rzs).flatMap fun r => candidates E r y)

/-- `rationalize` (abstract.py 181-195) -/
def rationalize (E : Ext K) (P : Prob K) (y : List K) (rzs : List Rz) (perturb check : Bool) :
    Except PyErr (Option (List K × List (Entry K))) :=
  if y = [] ∧ P.dof ≠ 0 then .ok none else rationalizeDecompose E P y rzs perturb check

/-! ## The state of a problem -/

/-- the attributes `y`, `S`, `decompositions`, `_ys` (abstract.py 32-39) -/
structure St (K : Type*) where
  y : Option (Kind × List K)
  S : Option (List (Mat K))
  dec : Option (List (Pack K))
  ys : List (List K)

/-- a problem that has not been solved (abstract.py 33-39) -/
def St.init : St K := ⟨none, none, none, []⟩

/-- the kind of the vector after `project`: the same object, or a new SymPy matrix -/
def newKind (kind : Kind) (same : Bool) : Kind := if same then kind else .sympy

/-- `register_y` (abstract.py 121-164) without the propagation to the parents, which `propagate` performs -/
def registerY (E : Ext K) (P : Prob K) (st : St K) (kind : Kind) (y : List K) (project perturb : Bool) : Except PyErr (St K) :=
  if y = [] ∧ P.dof ≠ 0 then .error .valueError
  else match P.project kind y with
    | .error e => .error e
    | .ok (y2, same) =>
      if !same && !project then .error .valueError
      else match P.mats y2 with
        | .error e => .error e
        | .ok Ss => match decompAll E perturb Ss with
          | .error e => .error e
          | .ok none => .error .valueError
          | .ok (some rs) => .ok { st with y := some (newKind kind same, y2), S := some Ss, dec := some (rs.map Pack.pair) }

/-- The loop over the configurations (abstract.py 252-276).  The result is the new state and either the value that the
function returns at once or `none` when the loop ends.  `_force_return` (260-263) registers the vector and returns the
vector it was given. -/
def configLoop {C : Type*} (E : Ext K) (P : Prob K) (numer : C → Except PyErr (Option (List K))) (allow : ℕ) :
    List C → St K → Except PyErr (St K × Option ((Kind × List K) × List (Entry K)))
  | [], st => .ok (st, none)
  | c :: cs, st => match numer c with
    | .error e => .error e
    | .ok none => configLoop E P numer allow cs st
    | .ok (some y) =>
      let st1 : St K := { st with ys := st.ys ++ [y] }
      let force := match registerY E P st1 .numpy y true true with
        | .error e => .error e
        | .ok st2 => .ok (st2, some ((Kind.numpy, y), List.zipWith (fun S p => match p with
            | Pack.pair r => Entry.couple S r
            | Pack.nested r => Entry.couple S r) (st2.S.getD []) (st2.dec.getD [])))
      if 3 ≤ allow then force
      else match rationalize E P y [.mask, .simul [1, 1260, 1260 ^ 3]] false true with
        | .error e => .error e
        | .ok (some r) => .ok (st1, some ((Kind.sympy, r.1), r.2))
        | .ok none => if allow = 2 then force else configLoop E P numer allow cs st1

/-- `np.array(ys).mean(axis=0)` for vectors of the same length (abstract.py 280) -/
def meanVec (n : ℕ) (ys : List (List K)) : List K :=
  (List.range n).map fun l => (ys.map fun y => y.getD l 0).sum / (ys.length : K)

/-- `_solve_from_multiple_configs` (abstract.py 213-294) -/
def solveConfigs {C : Type*} (E : Ext K) (P : Prob K) (numer : C → Except PyErr (Option (List K))) (allow : ℕ) (cs : List C) (st : St K) :
    Except PyErr (St K × Option ((Kind × List K) × List (Entry K))) :=
  match configLoop E P numer allow cs st with
  | .error e => .error e
  | .ok (st1, some r) => .ok (st1, some r)
  | .ok (st1, none) =>
    if st.ys.length < st1.ys.length then
      match rationalize E P (meanVec P.dof st1.ys) [.mask, .simul [1, 1260, 1260 ^ 2, 1260 ^ 3]] false false with
      | .error e => .error e
      | .ok (some r) => .ok (st1, some ((Kind.sympy, r.1), r.2))
      | .ok none =>
        if allow = 1 then
          match rationalize E P (st1.ys.getLastD []) [.identity] true false with
          | .error e => .error e
          | .ok r => .ok (st1, r.map fun r => ((Kind.sympy, r.1), r.2))
        else .error (.custom "SDPRationalizeError")
    else .ok (st1, none)

/-- The configurations that are tried (abstract.py 379-387). -/
def chooseConfigs {C : Type*} (dof useDefault : ℕ) (given defaults : List C) : List C :=
  let all := if 1 < useDefault ∨ (useDefault = 1 ∧ given = []) then given ++ defaults else given
  if dof = 0 then all.take 1 else all

/-- Registering the solution (abstract.py 398-402) -/
def register (st : St K) (sol : Option ((Kind × List K) × List (Entry K))) : St K :=
  match sol with
  | none => st
  | some (y, es) => { st with y := some y, S := some (es.map Entry.head), dec := some (es.map Entry.tail) }

/-! ## The chain of transformations -/

/-- How a transformation hands a result to its parent.
`affine`: `DualMatrixTransform`, `DualRowMasking` (transform.py 225-231): register `t y` at the parent.
`carry`: `SDPVectorTransform`, `DualDeparametrization`, `SDPPrimaltoDual` (494-503, 544-556, 578-590): set `y := t y` and keep the matrices.
`copy`: `SDPCopyTransform` (82-87), used by `PrimalMatrixTransform`.
`mask`: `PrimalRowMasking` (431-458) with the sizes of the parent and the kept rows of each matrix. -/
inductive Link (K : Type*)
  | affine (t : List K → List K)
  | carry (t : List K → List K)
  | copy
  | mask (um : List (ℕ × List ℕ))

/-- a parent with the transformation that leads to it -/
structure Up (K : Type*) where
  link : Link K
  P : Prob K
  st : St K

/-- the padded matrix of a masked one (transform.py 440-444) -/
def padM (n : ℕ) (um : List ℕ) (A : Mat K) : Mat K :=
  (n, fun i j => if i ∈ um ∧ j ∈ um then A.2 (um.idxOf i) (um.idxOf j) else 0)

/-- the padded factor (transform.py 448-450) -/
def padU (um : List ℕ) (r : LDL K) : LDL K := (fun a i => if i ∈ um then r.1 a (um.idxOf i) else 0, r.2)

/-- `propagate_to_parent(recursive=True)` along a chain in which every problem has at most one parent. -/
def propagate (E : Ext K) : St K → List (Up K) → Except PyErr (List (Up K))
  | _, [] => .ok []
  | st, u :: us => match u.link with
    | .affine t => match st.y with
      | none => .ok (u :: us)
      | some (_, y) => match registerY E u.P u.st .sympy (t y) true false with
        | .error e => .error e
        | .ok st' => match propagate E st' us with
          | .error e => .error e
          | .ok us' => .ok ({ u with st := st' } :: us')
    | .carry t => match st.y with
      | none => .ok (u :: us)
      | some (_, y) =>
        let st' : St K := { u.st with y := some (.sympy, t y), S := st.S, dec := st.dec }
        match propagate E st' us with
        | .error e => .error e
        | .ok us' => .ok ({ u with st := st' } :: us')
    | .copy =>
      let st' : St K := { u.st with y := st.y, S := st.S, dec := st.dec }
      match propagate E st' us with
      | .error e => .error e
      | .ok us' => .ok ({ u with st := st' } :: us')
    | .mask um => match st.S, st.dec with
      | some Ss, some ds => match unpackAll ds with
        | .error e => .error e
        | .ok rs =>
          let Ss' := List.zipWith (fun (m : ℕ × List ℕ) A => padM m.1 m.2 A) um Ss
          let st' : St K := { u.st with y := some (.sympy, Ss'.flatMap fun A => flatten A.1 A.1 A.2), S := some Ss',
                                        dec := some ((List.zipWith (fun (m : ℕ × List ℕ) r => padU m.2 r) um rs).map Pack.pair) }
          match propagate E st' us with
          | .error e => .error e
          | .ok us' => .ok ({ u with st := st' } :: us')
      | _, _ => if um = [] then .ok (u :: us) else .error .typeError     -- `None[key]`

/-- `solve` (abstract.py 296-408) of the first problem of a chain: `P`, `st` belong to the last child and `ups` are its
ancestors, the last of which is the problem on which `solve` is called.  The call of the child's `solve` (356-368) does
not pass `use_default_configs` on. -/
def solve {C : Type*} (E : Ext K) (P : Prob K) (numer : C → Except PyErr (Option (List K))) (given defaults : List C)
    (useDefault allow : ℕ) (st : St K) (ups : List (Up K)) : Except PyErr (Bool × St K × List (Up K)) :=
  match solveConfigs E P numer allow (chooseConfigs P.dof (if ups = [] then useDefault else 1) given defaults) st with
  | .error e => .error e
  | .ok (st1, sol) =>
    match propagate E (register st1 sol) ups with
    | .error e => .error e
    | .ok ups' => .ok (sol.isSome, register st1 sol, ups')

/-! ## Dual and primal problems -/

/-- the dual problem (dual.py 242-260; `project` is the identity, abstract.py 115-119).  A row vector is not modelled. -/
def dualProb (d : Dual K) : Prob K where
  dof := d.dof
  project := fun _ y => .ok (y, true)
  mats := fun y => if y.length = d.dof then .ok (d.blocks.map fun b => (b.n, b.mat d.dof fun l => y.getD l 0)) else .error .valueError

/-- A primal problem (primal.py 25-38): `m` equations `A y = b` for the entries of all matrices. -/
structure PrimalP (K : Type*) where
  m : ℕ
  sizes : List ℕ
  A : ℕ → ℕ → K
  b : ℕ → K

/-- the number of entries (primal.py 88-94) -/
def PrimalP.dof (p : PrimalP K) : ℕ := (p.sizes.map fun n => n ^ 2).sum

/-- the residual `_x0 - A y` (primal.py 149) -/
def PrimalP.res (p : PrimalP K) (y : ℕ → K) (i : ℕ) : K := p.b i - ∑ l ∈ range p.dof, p.A i l * y l

/-- `project` (primal.py 132-163).  `lsq` is `LDLsolve` or `pinv_solve` applied to the residual. -/
def PrimalP.project (p : PrimalP K) (lsq : PrimalP K → (ℕ → K) → Except PyErr (ℕ → K)) (kind : Kind) (y : List K) :
    Except PyErr (List K × Bool) :=
  if y.length ≠ p.dof then .error (.custom "ShapeError")
  else if (List.range p.m).all fun i => decide (p.res (fun l => y.getD l 0) i = 0) then
    .ok (y, match kind with | .sympy => true | .numpy => false)
  else match lsq p (p.res fun l => y.getD l 0) with
    | .error e => .error e
    | .ok dy => .ok ((List.range p.dof).map (fun l => y.getD l 0 + dy l), false)

/-- `S_from_y` with the slices of `y` (primal.py 116-121), `vec2mat` with its reshaping -/
def sliceMats : List ℕ → List K → Except PyErr (List (Mat K))
  | [], _ => .ok []
  | n :: ns, v => match vec2mat (.column (v.take (n ^ 2))) .direct with
    | .error e => .error e
    | .ok A => match sliceMats ns (v.drop (n ^ 2)) with
      | .error e => .error e
      | .ok As => .ok (A :: As)

/-- the primal problem (primal.py 100-163) -/
def primalProb (lsq : PrimalP K → (ℕ → K) → Except PyErr (ℕ → K)) (p : PrimalP K) : Prob K where
  dof := p.dof
  project := p.project lsq
  mats := fun y => if y.length = p.dof then sliceMats p.sizes y else .error .valueError

/-- `S_from_y()` of a primal problem without an argument (primal.py 101-105): a vector of symbols, one for each entry on or
above the diagonal of each matrix; `sym i` is the `i`-th of them. -/
def symbolicMats (sizes : List ℕ) (sym : ℕ → K) : Except PyErr (List (Mat K)) :=
  sliceMats sizes ((List.range ((sizes.map fun m => m * (m + 1) / 2).sum)).map sym)

end Verif.SdpSolve
