import Verif.Model.LinCorrect
import Verif.Model.LinBasis
import Verif.Model.Shared

/-!
# Model of triples/core/linsos/linsos.py and updegree.py

Constraints and tangents are polynomials (lists of terms); the expression attached to each polynomial is dropped, because every expression
used by the solver has the value of its polynomial.  A Python dictionary of polynomials is the list of its keys; two equal polynomials may
occur twice here, which only repeats a basis element.  `findroot`, `root_tangents`, `RootsInfo.filter_tangents` and `linprog` are parameters.
-/

namespace Verif.LinSOS

open Verif TermsPoly MonoMgr LinBasis Shared

variable {K : Type*}

/-! ### Tangents -/

/-- `(m1 - m2)**2` for two monomials. -/
def sqDiff [Ring K] [DecidableEq K] (n : ℕ) (m1 m2 : List ℕ) : List (List ℕ × K) := ppow n [(m1, 1), (m2, -1)] 2

/-- The default squares (linsos.py 67-79). -/
def defaultTangents [Ring K] [DecidableEq K] (n : ℕ) : List (List (List ℕ × K)) :=
  if n = 3 then
    [sqDiff 3 [2, 0, 0] [0, 1, 1], sqDiff 3 [0, 2, 0] [1, 0, 1], sqDiff 3 [0, 0, 2] [1, 1, 0],
     sqDiff 3 [3, 0, 0] [0, 1, 2], sqDiff 3 [3, 0, 0] [0, 2, 1], sqDiff 3 [0, 3, 0] [1, 0, 2],
     sqDiff 3 [0, 3, 0] [2, 0, 1], sqDiff 3 [0, 0, 3] [1, 2, 0], sqDiff 3 [0, 0, 3] [2, 1, 0]]
  else if n = 4 then
    [sqDiff 4 [1, 1, 0, 0] [0, 0, 1, 1], sqDiff 4 [1, 0, 1, 0] [0, 1, 0, 1], sqDiff 4 [1, 0, 0, 1] [0, 1, 1, 0]]
  else []

/-- `_prepare_tangents` (linsos.py 50-81) with a `RootsInfo`: `keep` is `filter_tangents`, `roots` its tangents (they are squared), and
`nontrivial` is `has_nontrivial_roots()`.  The user's tangents are used as they are. -/
def prepareTangents [Ring K] [DecidableEq K] (n : ℕ) (user : List (List (List ℕ × K))) (keep : List (List ℕ × K) → Bool)
    (roots : List (List (List ℕ × K))) (nontrivial : Bool) : List (List (List ℕ × K)) :=
  let base := user.filter keep ++ roots.map fun t => ppow n t 2
  if nontrivial then base
  else (if pconst n 1 ∈ base then base else base ++ [pconst n 1]) ++ defaultTangents n

/-! ### Signs and the quadratic module -/

/-- `ineq.is_monomial and ineq.total_degree() == 1`: the variable and the coefficient (linsos.py 182, 214). -/
def asVariable (p : List (List ℕ × K)) : Option (ℕ × K) :=
  match p with
  | [(m, c)] => if m.sum = 1 then some (m.idxOf 1, c) else none
  | _ => none

/-- The sign of a number as computed in linsos.py 183. -/
def sgn [Zero K] [LT K] [DecidableRel (α := K) (· < ·)] (c : K) : ℤ := if 0 < c then 1 else if c < 0 then -1 else 0

/-- `_get_signs_of_vars` (linsos.py 176-185): later constraints overwrite earlier ones. -/
def signsOfVars [Zero K] [LT K] [DecidableRel (α := K) (· < ·)] (n : ℕ) (ineqs : List (List (List ℕ × K))) : List ℤ :=
  ineqs.foldl (fun s p => match asVariable p with
    | some (i, c) => s.set i (sgn c)
    | none => s) (List.replicate n 0)

/-- `all(s > 0 for s in signs.values())` (linsos.py 353). -/
def allNonneg [Zero K] [LT K] [DecidableRel (α := K) (· < ·)] (n : ℕ) (ineqs : List (List (List ℕ × K))) : Bool :=
  (signsOfVars n ineqs).all fun s => decide (0 < s)

/-- `Poly.is_linear` (SymPy): every term has degree at most one. -/
def isLinear (p : List (List ℕ × K)) : Bool := p.all fun t => decide (t.1.sum ≤ 1)

/-- `itertools.combinations(l, k)`. -/
def combos {α : Type*} : ℕ → List α → List (List α)
  | 0, _ => [[]]
  | _ + 1, [] => []
  | k + 1, a :: l => (combos k l).map (a :: ·) ++ combos (k + 1) l

/-- One of the constraints listed first (linsos.py 214): a variable with a coefficient `>= 0`. -/
def isNonnegVar [Zero K] [LE K] [DecidableRel (α := K) (· ≤ ·)] (p : List (List ℕ × K)) : Bool :=
  match asVariable p with
  | some (_, c) => decide (0 ≤ c)
  | none => false

/-- `_get_qmodule_list` (linsos.py 203-248).  `homogeneous_order()` is the total degree, all polynomials being homogeneous. -/
def qmoduleList [Ring K] [LinearOrder K] (n degree : ℕ) (ineqs : List (List (List ℕ × K))) (allNN : Bool) (preordering : String) :
    Except PyErr (List (List (List ℕ × K))) :=
  if preordering ∉ ["none", "linear"] then .error .valueError
  else
    let monomials := ineqs.filter isNonnegVar
    let linear := ineqs.filter fun p => !isNonnegVar p && isLinear p
    let nonlin := pconst n 1 :: ineqs.filter fun p => !isNonnegVar p && !isLinear p
    let linear := if allNN then linear else monomials ++ linear
    if preordering = "none" then .ok (linear ++ nonlin)
    else .ok (nonlin ++ ((List.range linear.length).map (· + 1)).flatMap fun k => (combos k linear).flatMap fun comb =>
      let mul := pprod n comb
      if totalDegree n mul > degree then []
      else (nonlin.filter fun q => decide (totalDegree n mul + totalDegree n q ≤ degree)).map fun q => pmul mul q)

/-! ### The basis -/

/-- The exponents of the variable `x_i` (basis.py 314-328: the differences are built from the generators). -/
def varMonom (n i : ℕ) : List ℕ := (List.range n).map fun j => if j = i then 1 else 0

/-- The squared differences `(x_i - x_j)**2` for `i < j` (basis.py 314-328, 469). -/
def quadDiffs [Ring K] [DecidableEq K] (n : ℕ) : List (List (List ℕ × K)) :=
  (List.range n).flatMap fun i => ((List.range n).filter fun j => decide (i < j)).map fun j => sqDiff n (varMonom n i) (varMonom n j)

/-- The products `prod((x_i - x_j)^(2 p_ij)) * tangent` (basis.py 468-486); their computation by dynamic programming is in
`Verif.LinMatrix.crossPolys`. -/
def crossTangents [Ring K] [DecidableEq K] (n : ℕ) (order : ℤ) (t : List (List ℕ × K)) (fuel : ℕ) : Option (List (List (List ℕ × K))) :=
  (degreeCombinations (List.replicate (n * (n - 1) / 2) 2) order false fuel).map fun powers => powers.map fun power =>
    pmul (pprod n (List.zipWith (fun q p => ppow n q p) (quadDiffs n) power)) t

/-- `generate_quad_diff` (basis.py 152-219) without the matrix; `none` is "out of fuel". -/
def generateQuadDiff [Ring K] [DecidableEq K] (n stp degree order : ℕ) (t : List (List ℕ × K)) (fuel : ℕ) : Option (List (Base K)) :=
  let ord : ℤ := max 0 (min (order : ℤ) ((degree : ℤ) - totalDegree n t))
  (crossTangents n ord t fuel).bind fun ts =>
    (ts.mapM fun t2 => (generate stp n (totalDegree n t2) degree true fuel).map fun l => l.map fun ps => Base.tangent ps t2).map List.flatten

/-- `LinearBasisTangent.__neg__` (basis.py 105-106). -/
def Base.neg [Neg K] : Base K → Base K
  | .tangent ps t => .tangent ps (pneg t)
  | .mult m => .mult m

/-- `_prepare_basis` (linsos.py 88-173) without additional bases; the outer `none` is "out of fuel", the inner one `_basis_limit_exceeded`. -/
def prepareBasis [Ring K] [DecidableEq K] (n : ℕ) (allNN : Bool) (degree : ℕ) (tangents eqs : List (List (List ℕ × K))) (order limit fuel : ℕ) :
    Option (Option (List (Base K))) :=
  (tangents.mapM fun t => generateQuadDiff n (if allNN then 1 else 2) degree order t fuel).bind fun l1 =>
    (eqs.mapM fun h => (generateQuadDiff n 1 degree 0 h fuel).map fun l => l ++ l.map Base.neg).map fun l2 =>
      let all := l1.flatten ++ l2.flatten
      if all.length > limit then none else some all

/-! ### Multipliers -/

/-- `cross_mul` (updegree.py 119-120). -/
def crossMul [Semiring K] [DecidableEq K] : List (List (List ℕ × K)) → List (List (List ℕ × K))
  | [] => []
  | p :: l => l.map (fun q => pmul p q) ++ crossMul l

/-- `_get_multipliers` (updegree.py 107-150) before the reduction by symmetry. -/
def rawMultipliers [Ring K] [DecidableEq K] (n : ℕ) (ineqs : List (List (List ℕ × K))) (nplus : ℕ) : List (List (List ℕ × K)) :=
  let linear := ineqs.filter isLinear
  (if nplus = 2 then quadDiffs n ++ crossMul linear
   else (generatePartitions linear.length nplus true).map fun power => pprod n (List.zipWith (fun q p => ppow n q p) linear power)) ++
  (if nplus > 2 ∧ nplus % 2 = 0 then (generatePartitions n (nplus / 2) true).map fun power => [(power.map (· * 2), (1 : K))] else [])

/-- `clear_polys_by_symmetry` on polynomials only. -/
def clearBySymmetry [AddMonoid K] [LinearOrder K] (M : MonoMgr) (ps : List (List (List ℕ × K))) : List (List (List ℕ × K)) :=
  (clearPolys M (ps.map fun p => (p, ()))).map Prod.fst

/-! ### The solver -/

/-- The options of `LinearSOS` and the external functions. -/
structure Config (K : Type*) where
  /-- `tangents` of the user -/
  user : List (List (List ℕ × K))
  /-- `rootsinfo.filter_tangents` -/
  keep : List (List ℕ × K) → Bool
  /-- `rootsinfo.tangents` -/
  roots : List (List (List ℕ × K))
  /-- `rootsinfo.has_nontrivial_roots()` -/
  nontrivial : Bool
  preordering : String
  quadDiffOrder : ℕ
  basisLimit : ℕ
  liftDegreeLimit : ℕ
  allowNumer : ℕ
  /-- `linprog`: `none` when it fails; otherwise one weight per basis element -/
  linprog : List (Base K) → Option (List ℚ)
  solve : List (List K) → List K → ℕ → Option (List K)

/-- One round of the loop (linsos.py 369-427): `.ok none` is `continue`. -/
def attempt [Field K] [LinearOrder K] (cfg : Config K) (M : MonoMgr) (f : List (List ℕ × K)) (ineqs tangents eqs : List (List (List ℕ × K)))
    (fuel nplus : ℕ) : Except PyErr (Option (List K × List (Base K) × Bool)) :=
  let mults := (clearBySymmetry M (rawMultipliers M.nvars ineqs nplus)).map Base.mult
  if mults = [] then .ok none
  else match prepareBasis M.nvars (allNonneg M.nvars ineqs) (totalDegree M.nvars f + nplus) tangents eqs cfg.quadDiffOrder cfg.basisLimit fuel with
    | none => .error (.custom "fuel")
    | some none => .error (.custom "_basis_limit_exceeded")
    | some (some bs) =>
      if bs = [] then .ok none
      else
        let basis := bs ++ mults
        -- `np.vstack` (linsos.py 380) needs rows of one length
        if ∃ b ∈ basis, (M.arraylize (b.asPoly f) true).length ≠ (M.arraylize ((basis.headD (.mult [])).asPoly f) true).length then
          .error .valueError
        else match cfg.linprog basis with
          | none => .ok none
          | some y =>
            if y.length ≠ basis.length then .error .valueError
            else match linearCorrection M f cfg.solve (1 / 1000000) y basis mults.length with
              | .error e => .error e
              | .ok (z, out, eq) => if eq ∨ cfg.allowNumer > 0 then .ok (some (z, out, eq)) else .ok none

/-- The loop over the additional degree (updegree.py 83-103, linsos.py 367-433), with the limit 1000 of `lift_degree`. -/
def lift [Field K] [LinearOrder K] (cfg : Config K) (M : MonoMgr) (f : List (List ℕ × K)) (ineqs tangents eqs : List (List (List ℕ × K)))
    (fuel : ℕ) : List ℕ → Except PyErr (Option (List K × List (Base K) × Bool))
  | [] => .ok none
  | k :: ks =>
    if totalDegree M.nvars f + k > 1000 then .ok none
    else match attempt cfg M f ineqs tangents eqs fuel k with
      | .error (.custom "_basis_limit_exceeded") => .ok none
      | .error e => .error e
      | .ok (some r) => .ok (some r)
      | .ok none => lift cfg M f ineqs tangents eqs fuel ks

/-- `_LinearSOS` (linsos.py 328-434), returning the weights, the bases and the flag `is_equal`. -/
def linearSOS [Field K] [LinearOrder K] (cfg : Config K) (M : MonoMgr) (f : List (List ℕ × K)) (ineqs eqs : List (List (List ℕ × K)))
    (fuel : ℕ) : Except PyErr (Option (List K × List (Base K) × Bool)) :=
  match qmoduleList M.nvars (totalDegree M.nvars f) (prepareTangents M.nvars cfg.user cfg.keep cfg.roots cfg.nontrivial ++ ineqs)
      (allNonneg M.nvars ineqs) cfg.preordering with
  | .error e => .error e
  | .ok q => lift cfg M f ineqs (clearBySymmetry M q) (clearBySymmetry M eqs) fuel (List.range (cfg.liftDegreeLimit + 1))

end Verif.LinSOS
