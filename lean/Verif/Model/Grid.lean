import Verif.Model.Monomials
import Verif.Model.Congruence
import Verif.Basic.PyDict

/-!
# The grid of values and its local minima

Model of `triples/utils/roots/grid.py`: the table of powers, the values with integer coefficients, the place of a point in the heat map, and the search for local minima.
Colours and images are not modelled.
-/

namespace Verif.Grid

open Verif

/-- A point of the triangle. -/
abbrev Pt := ℕ × ℕ × ℕ

/-- `grid_coor` for three variables (grid.py 227-229, `generate_monoms(3, size)[1]`), as triples. -/
def coor (n : ℕ) : List Pt := (generatePartitions 3 n true).map fun l => (l.getD 0 0, l.getD 1 0, l.getD 2 0)

/-- One row of `_grid_init_precal` (grid.py 209-211): `[1, i]` and then `limit - 1` further powers. -/
def precalRow (i : ℕ) : ℕ → List ℕ
  | 0 => [1, i]
  | k + 1 => let row := precalRow i k; row ++ [row.getLastD 0 * i]

/-- `_grid_init_precal` (grid.py 201-212). -/
def precal (size limit : ℕ) : List (List ℕ) := (List.range (size + 1)).map fun i => precalRow i (limit - 1)

/-- `prod(pc[i][d] for i, d in zip(point, monom))` (grid.py 259); `none` for an `IndexError`. -/
def basis (pc : List (List ℕ)) (pt monom : List ℕ) : Option ℕ :=
  (pt.zip monom).foldl (fun acc e => match acc, pc[e.1]?.bind fun row => row[e.2]? with
    | some a, some b => some (a * b)
    | _, _ => none) (some 1)

/-- One value (grid.py 258-260). -/
def valueAt (pc : List (List ℕ)) (terms : List (List ℕ × ℤ)) (pt : List ℕ) : Option ℤ :=
  terms.foldl (fun acc t => match acc, basis pc pt t.1 with
    | some a, some b => some (a + t.2 * b)
    | _, _ => none) (some 0)

/-- `_render_grid_value` with `value_method='integer'` (grid.py 232-267), for integer coefficients.  `degree` is `deg(poly)`. -/
def gridValue (sizeLimit degreeLimit nvars size degree : ℕ) (terms : List (List ℕ × ℤ)) : List (Option ℤ) :=
  if sizeLimit < size ∨ degreeLimit < degree then (generatePartitions nvars size true).map fun _ => some 0
  else (generatePartitions nvars size true).map (valueAt (precal sizeLimit degreeLimit) terms)

/-- `get_color`'s index (grid.py 48). -/
def heatIndex (r j : ℕ) : ℕ := (r + j + 2) * (r + j + 1) / 2 - j - 1

/-- The assignments of `save_heatmap` (grid.py 49-61): row, column of the image, and the index of the colour. -/
def heatPixels (n : ℕ) : List (ℕ × ℕ × ℕ) :=
  ((List.range (n + 1)).takeWhile fun i => decide (i * 15 / 26 * 2 ≤ n)).flatMap fun i =>
    (List.range (n + 1 - i * 15 / 26 * 2)).map fun j => (i, j + i * 15 / 26, heatIndex (i * 15 / 26 * 2) j)

variable {K : Type*} [LinearOrder K]

/-- The six neighbours (grid.py 175); `i`, `j`, `k` are positive there. -/
def neighbours (p : Pt) : List Pt :=
  [(p.1, p.2.1 - 1, p.2.2 + 1), (p.1 + 1, p.2.1 - 1, p.2.2), (p.1 - 1, p.2.1, p.2.2 + 1), (p.1 - 1, p.2.1 + 1, p.2.2), (p.1 + 1, p.2.1, p.2.2 - 1), (p.1, p.2.1 + 1, p.2.2 - 1)]

/-- The loop over the neighbours (grid.py 175-178). -/
def lower (d : List (Pt × K)) (v : K) : List Pt → Except PyErr Bool
  | [] => .ok true
  | q :: qs =>
    match dget d q with
    | none => .error .keyError
    | some w => if w ≤ v then .ok false else lower d v qs

/-- The checkers (grid.py 171-187). -/
def checker (d : List (Pt × K)) (cyc : Bool) (p : Pt) (v : K) : Except PyErr Bool :=
  if cyc && (decide (p.1 < p.2.1) || decide (p.1 < p.2.2)) then .ok false
  else if p.1 = 0 ∨ p.2.1 = 0 ∨ p.2.2 = 0 then .ok false
  else lower d v (neighbours p)

/-- The search loop (grid.py 189-195). -/
def searchLoop (d : List (Pt × K)) (cyc : Bool) : List (Pt × K) → Except PyErr (List Pt)
  | [] => .ok []
  | (p, v) :: rest => do
    let b ← checker d cyc p v
    let out ← searchLoop d cyc rest
    .ok (if b then (if cyc then (p.2.1, p.2.2, p.1) else p) :: out else out)

/-- `GridPoly.local_minima` (grid.py 136-199) for three variables, before the trivial points are removed.  Simplified: `n` is recovered from the number of points by a
floating point square root in the code; here it is given. -/
def localMinima (n : ℕ) (values : List K) (cyc : Bool) : Except PyErr (List Pt) :=
  let trunc := (2 * n / 3) * (2 * n / 3 + 1) / 2
  let pts := (coor n).zip values
  searchLoop (dictOf pts) cyc (if cyc then pts.take trunc else pts)

end Verif.Grid
