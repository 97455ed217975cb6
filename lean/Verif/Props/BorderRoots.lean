import Verif.Model.BorderRoots
import Verif.Props.Coeff
import Mathlib.Analysis.Calculus.Deriv.Polynomial
import Mathlib.Analysis.Calculus.DerivativeTest
import Mathlib.Analysis.Calculus.LocalExtr.Basic
import Mathlib.Algebra.Polynomial.Roots
import Mathlib.Tactic.Linarith

/-!
# C102: zeros on the border and on the axis are among the candidates
-/

set_option linter.unusedSectionVars false

namespace Verif.BorderRoots

open Verif Coeff Polynomial

variable {K : Type*} [Field K] [LinearOrder K]

/-- All terms have three exponents. -/
def Three (p : List (List ℕ × K)) : Prop := ∀ t ∈ p, t.1.length = 3

/-- The contract of the numerical solver, with exact numbers: the nonnegative roots of a polynomial that is not zero, none for zero. -/
structure NrOk (nr : K[X] → List K) : Prop where
  mem : ∀ P : K[X], P ≠ 0 → ∀ r, r ∈ nr P ↔ P.eval r = 0 ∧ 0 ≤ r
  zero : nr 0 = []

theorem eval_edge (p : List (List ℕ × K)) (hp : Three p) (i : ℕ) (hi : i < 3) (x : K) : (edge p i).eval x = evalDict p (edgePoint i x) := by
  induction p with
  | nil => simp [edge, evalDict]
  | cons t p ih =>
    have ht := hp t (by simp)
    have ih := ih fun u hu => hp u (by simp [hu])
    obtain ⟨m, v⟩ := t
    match m, ht with
    | [a, b, c], _ =>
      have hcons : evalDict (([a, b, c], v) :: p) (edgePoint i x) = v * evalMonom [a, b, c] (edgePoint i x) + evalDict p (edgePoint i x) := by
        simp [evalDict]
      rw [hcons, ← ih]
      unfold edge
      match i, hi with
      | 0, _ =>
        by_cases h : c = 0
        · simp [h, List.filter_cons, edgePoint, evalMonom]
        · simp [h, List.filter_cons, edgePoint, evalMonom]
      | 1, _ =>
        by_cases h : a = 0
        · simp [h, List.filter_cons, edgePoint, evalMonom]
        · simp [h, List.filter_cons, edgePoint, evalMonom]
      | 2, _ =>
        by_cases h : b = 0
        · simp [h, List.filter_cons, edgePoint, evalMonom]
        · simp [h, List.filter_cons, edgePoint, evalMonom]

theorem eval_axis (p : List (List ℕ × K)) (hp : Three p) (x : K) : (axis p).eval x = evalDict p [x, 1, 1] := by
  induction p with
  | nil => simp [axis, evalDict]
  | cons t p ih =>
    have ht := hp t (by simp)
    have ih := ih fun u hu => hp u (by simp [hu])
    obtain ⟨m, v⟩ := t
    match m, ht with
    | [a, b, c], _ =>
      have hcons : evalDict (([a, b, c], v) :: p) [x, 1, 1] = v * evalMonom [a, b, c] [x, 1, 1] + evalDict p [x, 1, 1] := by
        simp [evalDict]
      rw [hcons, ← ih]
      simp [axis, evalMonom]

theorem mem_crit {nr : K[X] → List K} (h : NrOk nr) (P : K[X]) (r : K) :
    r ∈ crit nr P ↔ derivative P ≠ 0 ∧ (derivative P).eval r = 0 ∧ 0 ≤ r ∧ 0 ≤ (derivative (derivative P)).eval r := by
  unfold crit
  by_cases h0 : derivative P = 0
  · simp [h0, h.zero]
  · simp [List.mem_filter, h.mem _ h0, h0, and_assoc]

/-- At a local minimum of a real polynomial the derivative is zero and the second derivative is not negative. -/
theorem localMin_crit (P : ℝ[X]) (r : ℝ) (hm : IsLocalMin (fun x => P.eval x) r) :
    (derivative P).eval r = 0 ∧ 0 ≤ (derivative (derivative P)).eval r := by
  have h1 : deriv (fun x => P.eval x) r = 0 := hm.deriv_eq_zero
  have e1 : deriv (fun x => P.eval x) = fun x => (derivative P).eval x := by funext x; exact P.deriv
  refine ⟨by rw [← P.deriv]; exact h1, ?_⟩
  by_contra hneg
  push Not at hneg
  have e2 : deriv (deriv fun x => P.eval x) r = (derivative (derivative P)).eval r := by rw [e1]; exact (derivative P).deriv
  have hmax : IsLocalMax (fun x => P.eval x) r :=
    isLocalMax_of_deriv_deriv_neg (by rw [e2]; exact hneg) h1 P.differentiableAt.continuousAt
  have hconst : ∀ᶠ x in nhds r, P.eval x = P.eval r := by
    filter_upwards [hm, hmax] with x h1 h2 using le_antisymm h2 h1
  have hroots : (P - C (P.eval r)) = 0 := by
    apply Polynomial.eq_zero_of_infinite_isRoot
    obtain ⟨l, u, ⟨h1, h2⟩, hlu⟩ := mem_nhds_iff_exists_Ioo_subset.1 hconst
    refine Set.Infinite.mono ?_ (Set.Ioo_infinite (h1.trans h2))
    intro x hx
    have : P.eval x = P.eval r := hlu hx
    simp [IsRoot, this]
  have hP : P = C (P.eval r) := sub_eq_zero.1 hroots
  rw [hP] at hneg
  simp at hneg

theorem crit_of_localMin {nr : ℝ[X] → List ℝ} (h : NrOk nr) (P : ℝ[X]) (hP : derivative P ≠ 0) (r : ℝ) (hr : 0 ≤ r)
    (hm : IsLocalMin (fun x => P.eval x) r) : r ∈ crit nr P :=
  (mem_crit h P r).2 ⟨hP, (localMin_crit P r hm).1, hr, (localMin_crit P r hm).2⟩

/-- A function that is nonnegative for nonnegative arguments has a local minimum at every positive zero. -/
theorem localMin_of_zero (f : ℝ → ℝ) (hf : ∀ x, 0 ≤ x → 0 ≤ f x) (r : ℝ) (hr : 0 < r) (h0 : f r = 0) : IsLocalMin f r := by
  filter_upwards [lt_mem_nhds hr] with x hx
  rw [h0]; exact hf x hx.le

theorem deriv_ne_zero (P : ℝ[X]) (r x : ℝ) (h : P.eval r ≠ P.eval x) : derivative P ≠ 0 := by
  intro h0
  have := Polynomial.derivative_eq_zero.1 h0
  rw [eq_C_of_natDegree_eq_zero this] at h
  simp at h

/-- **C102.** Everything reported on the border lies on the border, in the nonnegative orthant, and the polynomial restricted to that edge
has a critical point there with nonnegative second derivative. -/
theorem border_sound {nr : ℝ[X] → List ℝ} (h : NrOk nr) (p : List (List ℕ × ℝ)) (hp : Three p) (q : List ℝ)
    (hq : q ∈ border nr p false) :
    ∃ i < 3, ∃ r, 0 ≤ r ∧ q = edgePoint i r ∧ deriv (fun x => evalDict p (edgePoint i x)) r = 0 ∧
      0 ≤ deriv (deriv fun x => evalDict p (edgePoint i x)) r := by
  simp only [border, Bool.false_eq_true, if_false, List.mem_flatMap, List.mem_range, List.mem_map] at hq
  obtain ⟨i, hi, r, hr, rfl⟩ := hq
  obtain ⟨-, h1, h2, h3⟩ := (mem_crit h _ r).1 hr
  have e : (fun x => evalDict p (edgePoint i x)) = fun x => (edge p i).eval x := by funext x; exact (eval_edge p hp i hi x).symm
  have e1 : deriv (fun x => (edge p i).eval x) = fun x => (derivative (edge p i)).eval x := by funext x; exact (edge p i).deriv
  refine ⟨i, hi, r, h2, rfl, ?_, ?_⟩
  · rw [e, e1]; exact h1
  · rw [e, e1]; exact (derivative (edge p i)).deriv.symm ▸ h3

/-- **C102.** Every local minimum inside an edge is reported, if the polynomial is not constant on that edge. -/
theorem border_complete {nr : ℝ[X] → List ℝ} (h : NrOk nr) (p : List (List ℕ × ℝ)) (hp : Three p) (i : ℕ) (hi : i < 3) (r x : ℝ)
    (hr : 0 ≤ r) (hm : IsLocalMin (fun x => evalDict p (edgePoint i x)) r)
    (hx : evalDict p (edgePoint i r) ≠ evalDict p (edgePoint i x)) : edgePoint i r ∈ border nr p false := by
  simp only [border, Bool.false_eq_true, if_false, List.mem_flatMap, List.mem_range, List.mem_map]
  have e : (fun x => evalDict p (edgePoint i x)) = fun x => (edge p i).eval x := by funext x; exact (eval_edge p hp i hi x).symm
  refine ⟨i, hi, r, crit_of_localMin h _ (deriv_ne_zero _ r x ?_) r hr (e ▸ hm), rfl⟩
  rw [eval_edge p hp i hi, eval_edge p hp i hi]; exact hx

/-- **C102.** For a polynomial that is nonnegative for nonnegative variables: every zero inside an edge is reported, unless the
polynomial is zero on the whole edge. -/
theorem border_zero {nr : ℝ[X] → List ℝ} (h : NrOk nr) (p : List (List ℕ × ℝ)) (hp : Three p) (i : ℕ) (hi : i < 3) (r x : ℝ)
    (hpos : ∀ a b c : ℝ, 0 ≤ a → 0 ≤ b → 0 ≤ c → 0 ≤ evalDict p [a, b, c]) (hr : 0 < r) (h0 : evalDict p (edgePoint i r) = 0)
    (hx : evalDict p (edgePoint i x) ≠ 0) : edgePoint i r ∈ border nr p false := by
  refine border_complete h p hp i hi r x hr.le (localMin_of_zero _ ?_ r hr h0) (by rw [h0]; exact hx.symm)
  intro y hy
  match i, hi with
  | 0, _ => exact hpos y 1 0 hy zero_le_one le_rfl
  | 1, _ => exact hpos 0 y 1 le_rfl hy zero_le_one
  | 2, _ => exact hpos 1 0 y zero_le_one le_rfl hy

/-- **C102.** The cyclic case: one edge is searched and the point is reported on another one; it has the same value, and every zero
inside the border of a nonnegative polynomial is reported up to a rotation. -/
theorem border_cyclic {nr : ℝ[X] → List ℝ} (h : NrOk nr) (p : List (List ℕ × ℝ)) (hp : Three p)
    (hc : ∀ a b c : ℝ, evalDict p [a, b, c] = evalDict p [b, c, a]) :
    (∀ q ∈ border nr p true, ∃ r, 0 ≤ r ∧ q = [r, 1, 0] ∧ deriv (fun x => evalDict p [x, 1, 0]) r = 0 ∧
      0 ≤ deriv (deriv fun x => evalDict p [x, 1, 0]) r) ∧
    ((∀ a b c : ℝ, 0 ≤ a → 0 ≤ b → 0 ≤ c → 0 ≤ evalDict p [a, b, c]) → ∀ (i : ℕ) (r x : ℝ), i < 3 → 0 < r →
      evalDict p (edgePoint i r) = 0 → evalDict p [x, 1, 0] ≠ 0 → [r, 1, 0] ∈ border nr p true) := by
  have e : ∀ x, (edge p 1).eval x = evalDict p [x, 1, 0] := by
    intro x
    rw [eval_edge p hp 1 (by norm_num) x]
    show evalDict p [0, x, 1] = _
    exact hc 0 x 1
  have ef : (fun x => evalDict p [x, 1, 0]) = fun x => (edge p 1).eval x := by funext x; exact (e x).symm
  have e1 : deriv (fun x => (edge p 1).eval x) = fun x => (derivative (edge p 1)).eval x := by funext x; exact (edge p 1).deriv
  constructor
  · intro q hq
    simp only [border, if_true, List.mem_map] at hq
    obtain ⟨r, hr, rfl⟩ := hq
    obtain ⟨-, h1, h2, h3⟩ := (mem_crit h _ r).1 hr
    refine ⟨r, h2, rfl, ?_, ?_⟩
    · rw [ef, e1]; exact h1
    · rw [ef, e1]; exact (derivative (edge p 1)).deriv.symm ▸ h3
  · intro hpos i r x hi hr h0 hx
    have h0' : evalDict p [r, 1, 0] = 0 := by
      match i, hi with
      | 0, _ => exact h0
      | 1, _ => rw [← hc 0 r 1]; exact h0
      | 2, _ => rw [hc r 1 0]; exact h0
    simp only [border, if_true, List.mem_map]
    refine ⟨r, crit_of_localMin h _ (deriv_ne_zero _ r x (by rw [e, e, h0']; exact hx.symm)) r hr.le ?_, rfl⟩
    rw [← ef]
    exact localMin_of_zero _ (fun y hy => hpos y 1 0 hy zero_le_one le_rfl) r hr h0'

/-- **C102.** The axis: the reported points are critical on the axis, and every zero `(r, 1, 1)` with `r > 0` of a nonnegative polynomial
is reported, unless the polynomial is zero on the whole axis. -/
theorem axis_spec {nr : ℝ[X] → List ℝ} (h : NrOk nr) (p : List (List ℕ × ℝ)) (hp : Three p) (skip : Bool) :
    (∀ q ∈ onAxis nr p skip, ∃ r, 0 ≤ r ∧ (skip = true → 0 < r) ∧ q = [r, 1, 1] ∧ deriv (fun x => evalDict p [x, 1, 1]) r = 0 ∧
      0 ≤ deriv (deriv fun x => evalDict p [x, 1, 1]) r) ∧
    ((∀ a b c : ℝ, 0 ≤ a → 0 ≤ b → 0 ≤ c → 0 ≤ evalDict p [a, b, c]) → ∀ r x : ℝ, 0 < r →
      evalDict p [r, 1, 1] = 0 → evalDict p [x, 1, 1] ≠ 0 → [r, 1, 1] ∈ onAxis nr p skip) := by
  have ef : (fun x => evalDict p [x, 1, 1]) = fun x => (axis p).eval x := by funext x; exact (eval_axis p hp x).symm
  have e1 : deriv (fun x => (axis p).eval x) = fun x => (derivative (axis p)).eval x := by funext x; exact (axis p).deriv
  constructor
  · intro q hq
    simp only [onAxis, List.mem_map, List.mem_filter] at hq
    obtain ⟨r, ⟨hr, hs⟩, rfl⟩ := hq
    obtain ⟨-, h1, h2, h3⟩ := (mem_crit h _ r).1 hr
    refine ⟨r, h2, ?_, rfl, ?_, ?_⟩
    · rintro rfl
      simp at hs
      exact lt_of_le_of_ne h2 (Ne.symm hs)
    · rw [ef, e1]; exact h1
    · rw [ef, e1]; exact (derivative (axis p)).deriv.symm ▸ h3
  · intro hpos r x hr h0 hx
    simp only [onAxis, List.mem_map, List.mem_filter]
    refine ⟨r, ⟨crit_of_localMin h _ (deriv_ne_zero _ r x ?_) r hr.le ?_, by simp [hr.ne']⟩, rfl⟩
    · rw [eval_axis p hp, eval_axis p hp, h0]; exact hx.symm
    · rw [← ef]
      exact localMin_of_zero _ (fun y hy => hpos y 1 1 hy zero_le_one zero_le_one) r hr h0

/-! ### Examples -/

/-- A solver with the contract: the roots of the polynomial that Mathlib defines, sorted out by sign. -/
noncomputable def exNr (P : ℝ[X]) : List ℝ := P.roots.toList.filter fun r => decide (0 ≤ r)

theorem exNr_ok : NrOk exNr := by
  constructor
  · intro P hP r
    simp [exNr, List.mem_filter, mem_roots hP, IsRoot]
  · simp [exNr]

/-- `a² + b² + c² - 2 a b + 3 b c + 3 c a` is nonnegative for nonnegative variables and zero at `(1, 1, 0)`, inside an edge; the zero is
found. -/
def exZero : List (List ℕ × ℝ) := [([2,0,0], 1), ([0,2,0], 1), ([0,0,2], 1), ([1,1,0], -2), ([0,1,1], 3), ([1,0,1], 3)]

theorem exZero_found : edgePoint 0 (1 : ℝ) ∈ border exNr exZero false := by
  refine border_zero exNr_ok exZero ?_ 0 (by norm_num) 1 0 ?_ one_pos ?_ ?_
  · intro t ht; fin_cases ht <;> rfl
  · intro a b c ha hb hc
    have h1 := mul_nonneg hb hc
    have h2 := mul_nonneg ha hc
    simp [exZero, evalDict, evalMonom]
    nlinarith [sq_nonneg (a - b), sq_nonneg c]
  · simp [exZero, evalDict, evalMonom, edgePoint]; norm_num
  · simp [exZero, evalDict, evalMonom, edgePoint]

/-- **C102, a lost zero.** `a b² + b c² + c a²` is nonnegative for nonnegative variables, cyclic, and zero at `(0, 1, 0)`.  Nothing is
found on its border: the zero is at the end of every edge, where the derivative is not zero. -/
def exVertex : List (List ℕ × ℝ) := [([1,2,0], 1), ([0,1,2], 1), ([2,0,1], 1)]

theorem vertex_lost {nr : ℝ[X] → List ℝ} (h : NrOk nr) :
    (∀ a b c : ℝ, evalDict exVertex [a, b, c] = evalDict exVertex [b, c, a]) ∧
    (∀ a b c : ℝ, 0 ≤ a → 0 ≤ b → 0 ≤ c → 0 ≤ evalDict exVertex [a, b, c]) ∧ evalDict exVertex [0, 1, 0] = 0 ∧
    border nr exVertex true = [] := by
  refine ⟨fun a b c => ?_, fun a b c ha hb hc => ?_, ?_, ?_⟩
  · simp [exVertex, evalDict, evalMonom]; ring
  · simp [exVertex, evalDict, evalMonom]; positivity
  · simp [exVertex, evalDict, evalMonom]
  · have e : edge exVertex 1 = (X : ℝ[X]) := by simp [edge, exVertex]
    have : crit nr (edge exVertex 1) = [] := by
      rw [List.eq_nil_iff_forall_not_mem]
      intro r hr
      have := ((mem_crit h _ r).1 hr).2.1
      rw [e] at this
      simp at this
    simp [border, this]

end Verif.BorderRoots
