import Verif.Model.StructDispatch
import Mathlib.Algebra.Order.Ring.Rat
import Mathlib.Tactic.Linarith
import Mathlib.Tactic.NormNum
import Mathlib.Algebra.Group.Even

/-!
# C14: the monomial shortcut of StructuralSOS
-/

set_option linter.unusedSectionVars false

namespace Verif.StructDispatch

variable {K : Type*} [Field K] [LinearOrder K] [IsStrictOrderedRing K]

/-- **C14 is false for the code.** For the problem `x ≥ 0` without constraints, StructuralSOS answers with the
"proof" `x`, which is negative at `x = -1`.  The same happens with any constraint that does not bound `x`. -/
theorem monomialShortcut_unsound :
    ∃ (terms : List (List ℕ × ℚ)) (m : List ℕ) (c : ℚ), monomialShortcut terms = some (some (m, c)) ∧
      ∃ x : List ℚ, termVal m c x < 0 :=
  ⟨[([1], 1)], [1], 1, rfl, [-1], by norm_num [termVal]⟩

/-- A two-variable instance: `a b` under the constraint `a ≥ 0` only. -/
theorem monomialShortcut_unsound_constrained :
    ∃ (terms : List (List ℕ × ℚ)) (m : List ℕ) (c : ℚ), monomialShortcut terms = some (some (m, c)) ∧
      ∃ x : List ℚ, 0 ≤ x.getD 0 0 ∧ termVal m c x < 0 :=
  ⟨[([1,1], 1)], [1,1], 1, rfl, [1,-1], by norm_num, by norm_num [termVal]⟩

/-- **C14, provable part.** The returned monomial is the problem itself, and it is nonnegative at every point at
which each variable with an odd exponent is nonnegative.  Missing: that the code checks this from the
constraints; it does not (see `monomialShortcut_unsound`). -/
theorem monomialShortcut_partial (terms : List (List ℕ × K)) (m : List ℕ) (c : K)
    (h : monomialShortcut terms = some (some (m, c))) :
    terms = [(m, c)] ∧ ∀ x : List K, (∀ i, (m.getD i 0) % 2 = 1 → 0 ≤ x.getD i 0) → 0 ≤ termVal m c x := by
  match terms, h with
  | [(m', c')], h =>
    simp only [monomialShortcut] at h
    split_ifs at h with hc
    · cases h
      refine ⟨rfl, ?_⟩
      intro x hx
      unfold termVal
      apply mul_nonneg hc
      have : ∀ (m : List ℕ) (x : List K), (∀ i, (m.getD i 0) % 2 = 1 → 0 ≤ x.getD i 0) →
          0 ≤ (List.zipWith (fun e y => y ^ e) m x).prod := by
        intro m
        induction m with
        | nil => intro x _; simp
        | cons a m ih =>
          intro x hx
          cases x with
          | nil => simp
          | cons y x =>
            rw [List.zipWith_cons_cons, List.prod_cons]
            apply mul_nonneg
            · rcases Nat.mod_two_eq_zero_or_one a with h0 | h1
              · exact (Nat.even_iff.2 h0).pow_nonneg y
              · have := hx 0 (by simpa using h1)
                exact pow_nonneg (by simpa using this) a
            · apply ih
              intro i hi
              have := hx (i + 1) (by simpa using hi)
              simpa using this
      exact this m x hx
    · simp at h

/-- A monomial with negative coefficient is never accepted. -/
theorem monomialShortcut_neg (m : List ℕ) (c : K) (h : c < 0) : monomialShortcut [(m, c)] = some none := by
  simp [monomialShortcut, not_le.2 h]

/-- The solver chain returns only results of the solvers it is allowed to call for this number of variables, and
gives up only if the constrained solver gives up. -/
theorem pickSolver_spec {σ : Type*} (nvars d : ℕ) (two three four nquartic quad constrained : Unit → Option σ) :
    (∀ s, pickSolver nvars d two three four nquartic quad constrained = some s →
      (nvars = 2 ∧ two () = some s) ∨ (nvars = 3 ∧ three () = some s) ∨ (nvars = 4 ∧ four () = some s) ∨
      (3 < nvars ∧ nquartic () = some s) ∨ (3 < nvars ∧ d = 2 ∧ quad () = some s) ∨ constrained () = some s) ∧
    (pickSolver nvars d two three four nquartic quad constrained = none →
      constrained () = none ∧ (nvars = 2 → two () = none) ∧ (nvars = 3 → three () = none) ∧
      (nvars = 4 → four () = none) ∧ (3 < nvars → nquartic () = none) ∧ (3 < nvars → d = 2 → quad () = none)) := by
  unfold pickSolver
  constructor
  · intro s h
    by_cases h2 : nvars = 2
    · subst h2
      cases ht : two () <;> simp_all
    · by_cases h3 : nvars = 3
      · subst h3
        cases ht : three () <;> simp_all
      · by_cases h4 : nvars = 4
        · subst h4
          cases ht : four () <;> cases hq : nquartic () <;> cases hqq : quad () <;> by_cases hd : d = 2 <;> simp_all
        · by_cases h5 : 3 < nvars
          · cases hq : nquartic () <;> cases hqq : quad () <;> by_cases hd : d = 2 <;> simp_all
          · have : ¬ nvars > 3 := h5
            simp_all
  · intro h
    by_cases h2 : nvars = 2
    · subst h2
      cases ht : two () <;> simp_all
    · by_cases h3 : nvars = 3
      · subst h3
        cases ht : three () <;> simp_all
      · by_cases h4 : nvars = 4
        · subst h4
          cases ht : four () <;> cases hq : nquartic () <;> cases hqq : quad () <;> by_cases hd : d = 2 <;> simp_all
        · by_cases h5 : 3 < nvars
          · cases hq : nquartic () <;> cases hqq : quad () <;> by_cases hd : d = 2 <;> simp_all
          · have : ¬ nvars > 3 := h5
            simp_all

example : monomialShortcut [([2, 4], (3 : ℚ))] = some (some ([2, 4], 3)) := by decide +kernel
example : ∀ i, ([2, 4].getD i 0) % 2 = 1 → (0 : ℚ) ≤ [(-1 : ℚ), 2].getD i 0 := by
  intro i; match i with
  | 0 => simp
  | 1 => simp
  | n + 2 => simp

end Verif.StructDispatch
