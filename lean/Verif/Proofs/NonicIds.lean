import Verif.Model.Nonic
import Verif.Props.TernaryQuartic

/-!
# Polynomial identities of the nonic and octic solvers
-/

set_option linter.unusedSectionVars false

namespace Verif.Ternary

open Verif Verif.Acute

variable {K : Type*} [Field K] [LinearOrder K] [IsStrictOrderedRing K]

/-- `s(a2+xbc)s((a-b)2(a+b-xc)2)`. -/
def treeF (x : K) : Val3 K := fun a b c => cyc3 (fun a b c => a ^ 2 + x * (b * c)) a b c * cyc3 (fun a b c => (a - b) ^ 2 * (a + b - x * c) ^ 2) a b c

theorem nonic_tree_id (x w a b c : K) :
    sumA a b c * cyc3 (fun a b _ => (a - b) ^ 2) a b c * treeF x a b c + 4 * ((-x ^ 3 + 3 * x - 1 + w) * treeT a b c) =
      4 * (cyc3 (fun a b c => a ^ 9 + w * (a ^ 6 * b ^ 3 + a ^ 6 * c ^ 3) + (-3 * x ^ 2 + 3 * x - 3) * (a ^ 7 * b * c) + (-3 * w - 6 * x ^ 2 + 6 * x + 3) * (a ^ 4 * b ^ 4 * c) +
        (-3 * w + 18 * x ^ 2 - 18 * x) * (a ^ 5 * b ^ 2 * c ^ 2)) a b c -
        3 * (1 + 2 * w + (-3 * x ^ 2 + 3 * x - 3) + (-3 * w - 6 * x ^ 2 + 6 * x + 3) + (-3 * w + 18 * x ^ 2 - 18 * x)) * (a ^ 3 * b ^ 3 * c ^ 3)) := by
  simp only [treeF, treeT, sumA, cyc3]
  ring

theorem nonic_hexagon_id (y a b c : K) :
    treeT a b c + y * abcDisc a b c =
      cyc3 (fun a b c => a ^ 6 * b ^ 3 + a ^ 6 * c ^ 3 + y * (a ^ 5 * b ^ 3 * c + a ^ 5 * b * c ^ 3) + (-3 - 2 * y) * (a ^ 4 * b ^ 4 * c) + (-3 - 2 * y) * (a ^ 5 * b ^ 2 * c ^ 2) +
        2 * y * (a ^ 4 * b ^ 3 * c ^ 2 + a ^ 4 * b ^ 2 * c ^ 3)) a b c + (12 - 6 * y) * (a ^ 3 * b ^ 3 * c ^ 3) := by
  simp only [treeT, abcDisc, prodA, cycp3, cyc3]
  ring

/-- The two squares of the search, expanded. -/
theorem nonic_hexagon_sq (r a b c : K) :
    cyc3 (fun a b c => a * b * (b - r * c)) a b c ^ 2 * cyc3 (fun a b c => a ^ 2 * c - a * b * c) a b c +
      cyc3 (fun a b c => a * c * (c - r * b)) a b c ^ 2 * cyc3 (fun a b c => a ^ 2 * b - a * b * c) a b c =
      cyc3 (fun a b c => a ^ 6 * b ^ 3 + a ^ 6 * c ^ 3 + (-6 * r - 3) * (a ^ 5 * b ^ 3 * c + a ^ 5 * b * c ^ 3) + 6 * (a ^ 4 * b ^ 4 * c) + 6 * (a ^ 5 * b ^ 2 * c ^ 2) +
        (9 * r ^ 2 + 6 * r - 6) * (a ^ 4 * b ^ 3 * c ^ 2 + a ^ 4 * b ^ 2 * c ^ 3)) a b c + (-54 * r ^ 2 + 12) * (a ^ 3 * b ^ 3 * c ^ 3) := by
  simp only [cyc3]
  ring

theorem abcDisc_id (a b c : K) : abcDisc a b c =
    cyc3 (fun a b c => a ^ 5 * b ^ 3 * c + a ^ 5 * b * c ^ 3 - 2 * (a ^ 4 * b ^ 4 * c) - 2 * (a ^ 5 * b ^ 2 * c ^ 2) +
        2 * (a ^ 4 * b ^ 3 * c ^ 2 + a ^ 4 * b ^ 2 * c ^ 3)) a b c - 6 * (a ^ 3 * b ^ 3 * c ^ 3) := by
  simp only [abcDisc, prodA, cycp3, cyc3]
  ring

/-- What is subtracted in the hexagram, expanded. -/
theorem nonic_hexagram_exp (c1 c2 z w a b c : K) :
    c1 * cyc3 (fun a b c => c ^ 5 * (a - b) ^ 4) a b c + c2 * cyc3 (fun a b c => a ^ 2 * b ^ 2 * c * (a - b) ^ 4) a b c - 2 * z * (prodA a b c * cyc3 hexagramN a b c) + w * abcDisc a b c =
      cyc3 (fun a b c => c1 * (a ^ 5 * b ^ 4 + a ^ 5 * c ^ 4) + c2 * (a ^ 6 * b ^ 2 * c + a ^ 6 * b * c ^ 2) + (w - 4 * (c1 + c2) - 6 * z) * (a ^ 5 * b ^ 3 * c + a ^ 5 * b * c ^ 3) +
        (-2 * w + 6 * c2 + 8 * z) * (a ^ 4 * b ^ 4 * c) + (-2 * w + 6 * c1 + 8 * z) * (a ^ 5 * b ^ 2 * c ^ 2) + 2 * w * (a ^ 4 * b ^ 3 * c ^ 2 + a ^ 4 * b ^ 2 * c ^ 3)) a b c +
        (-6 * w - 12 * z) * (a ^ 3 * b ^ 3 * c ^ 3) := by
  simp only [abcDisc, hexagramN, prodA, cycp3, cyc3]
  ring

/-- The first form of the answer. -/
theorem nonic_hexagram_easy (x a b c : K) :
    cyc3 (fun a b c => c * (a - b) ^ 4 * (a * b - x * c ^ 2) ^ 2) a b c =
      x ^ 2 * cyc3 (fun a b c => c ^ 5 * (a - b) ^ 4) a b c + cyc3 (fun a b c => a ^ 2 * b ^ 2 * c * (a - b) ^ 4) a b c - 2 * x * (prodA a b c * cyc3 hexagramN a b c) + 4 * x * abcDisc a b c := by
  simp only [abcDisc, hexagramN, prodA, cycp3, cyc3]
  ring

/-- The second form of the answer, without the parameter. -/
theorem nonic_hexagram_hard (a b c : K) :
    4 * (cyc3 (fun a b c => c ^ 5 * (a - b) ^ 4) a b c * hexagramM a b c) =
      4 * (prodA a b c * cyc3 hexagramN a b c ^ 2) + cycp3 (fun a b _ => (a - b) ^ 2) a b c * (4 * (cycp3 (fun a b _ => (a - b) ^ 2) a b c * sumA a b c * cyc3 (fun a b _ => a * b) a b c) +
        prodA a b c * cyc3 (fun a b _ => (a - b) ^ 2) a b c * cyc3 (fun a b c => a ^ 2 * (b - c) ^ 2) a b c) := by
  simp only [hexagramM, hexagramN, sumA, prodA, cycp3, cyc3]
  ring

theorem nonic_hexagram_M (a b c : K) : cyc3 (fun a b c => a ^ 2 * b ^ 2 * c * (a - b) ^ 4) a b c = prodA a b c * hexagramM a b c := by
  simp only [hexagramM, prodA, cycp3, cyc3]
  ring

/-- The square of the gear, expanded. -/
theorem nonic_gear_exp (z : K) (p : Vertex K) (a b c : K) :
    cyc3 (fun a b c => a * c ^ 2 * gearKer z p a b c ^ 2) a b c =
      cyc3 (fun a b c => a ^ 5 * c ^ 4 + z ^ 2 * (a ^ 6 * b ^ 2 * c) + (2 * z - 2 * z * p.u) * (a ^ 5 * b ^ 3 * c) + (2 * z + 2 * p.v) * (a ^ 5 * b * c ^ 3) +
        (p.u ^ 2 - 2 * p.u - 2 * p.v - 2 * p.x + 1) * (a ^ 4 * b ^ 4 * c) + (2 * p.u * z + p.v ^ 2 + 2 * p.v * z - 2 * p.x * z + z ^ 2) * (a ^ 5 * b ^ 2 * c ^ 2) +
        (-2 * p.u ^ 2 - 2 * p.u * p.v + 2 * p.u * p.x - 2 * p.u * z + 4 * p.u + p.v ^ 2 + 4 * p.v * p.x + 2 * p.v * z + p.x ^ 2 + 4 * p.x * z - 2 * p.x - 2) * (a ^ 4 * b ^ 3 * c ^ 2) +
        (p.x ^ 2 - 2 * p.x * z - 4 * p.x * p.u - 2 * p.x * p.v + 4 * p.x - 2 * z ^ 2 - 4 * z * p.v + p.u ^ 2 - 2 * p.u * p.v - 2 * p.u - 2 * p.v ^ 2 + 2 * p.v) * (a ^ 4 * b ^ 2 * c ^ 3)) a b c +
        (-6 * p.x ^ 2 + 6 * p.x * p.u - 6 * p.x * p.v + 6 * z * p.u - 12 * z + 12 * p.u * p.v - 6 * p.v) * (a ^ 3 * b ^ 3 * c ^ 3) := by
  obtain ⟨u, v, x, _, _, _⟩ := p
  simp only [gearKer, cyc3]
  ring

theorem nonic_gear_perturb (a b c : K) : cyc3 (fun a b c => a * b ^ 2 * c ^ 2 * (a - b) ^ 4) a b c =
    cyc3 (fun a b c => a ^ 6 * b ^ 2 * c - 3 * (a ^ 5 * b ^ 2 * c ^ 2) - 4 * (a ^ 4 * b ^ 3 * c ^ 2) + 6 * (a ^ 4 * b ^ 2 * c ^ 3)) a b c := by
  simp only [cyc3]
  ring

end Verif.Ternary
