import Verif.Proofs.TermsMv
import Mathlib.RingTheory.MvPolynomial.Homogeneous
import Mathlib.Algebra.BigOperators.Fin

/-!
# Symmetric polynomials that vanish on an axis

A symmetric polynomial in three variables that vanishes whenever two of them are equal is a multiple of the discriminant
`(a-b)^2 (b-c)^2 (c-a)^2`.
-/

namespace Verif.SymDiv

open MvPolynomial Verif.TermsPoly

variable {K : Type*} [Field K]

/-- Replace the variable `i` by the variable `j`. -/
noncomputable def glue (i j : Fin 3) : MvPolynomial (Fin 3) K →ₐ[K] MvPolynomial (Fin 3) K := aeval fun k => if k = i then X j else X k

theorem dvd_sub_glue (i j : Fin 3) (p : MvPolynomial (Fin 3) K) : (X i - X j) ∣ p - glue i j p := by
  induction p using MvPolynomial.induction_on with
  | C c => simp [glue]
  | add p q hp hq =>
    rw [map_add]
    have := dvd_add hp hq
    convert this using 1
    ring
  | mul_X p k hp =>
    rw [map_mul]
    have hk : (X i - X j : MvPolynomial (Fin 3) K) ∣ X k - glue i j (X k) := by
      unfold glue
      rw [aeval_X]
      by_cases h : k = i
      · rw [if_pos h, h]
      · rw [if_neg h, sub_self]
        exact dvd_zero _
    have := dvd_add (hp.mul_right (X k)) (hk.mul_left (glue i j p))
    convert this using 1
    ring

theorem dvd_iff_glue (i j : Fin 3) (p : MvPolynomial (Fin 3) K) : (X i - X j) ∣ p ↔ glue i j p = 0 := by
  constructor
  · rintro ⟨q, rfl⟩
    rw [map_mul, map_sub]
    unfold glue
    rw [aeval_X, aeval_X, if_pos rfl]
    by_cases h : j = i
    · rw [if_pos h, sub_self, zero_mul]
    · rw [if_neg h, sub_self, zero_mul]
  · intro h
    have := dvd_sub_glue i j p
    rwa [h, sub_zero] at this

theorem dvd_of_mul {i j : Fin 3} {p q : MvPolynomial (Fin 3) K} (h : (X i - X j) ∣ p * q) (hp : ¬ (X i - X j) ∣ p) : (X i - X j) ∣ q := by
  rw [dvd_iff_glue] at h hp ⊢
  rw [map_mul] at h
  exact (mul_eq_zero.1 h).resolve_left hp

theorem eval_glue (i j : Fin 3) (p : MvPolynomial (Fin 3) K) (x : Fin 3 → K) : eval x (glue i j p) = eval (fun k => if k = i then x j else x k) p := by
  induction p using MvPolynomial.induction_on with
  | C c => simp [glue]
  | add p q hp hq => rw [map_add, map_add, map_add, hp, hq]
  | mul_X p k hp =>
    rw [map_mul, map_mul, map_mul, hp]
    congr 1
    unfold glue
    rw [aeval_X, eval_X]
    by_cases h : k = i
    · rw [if_pos h, if_pos h, eval_X]
    · rw [if_neg h, if_neg h, eval_X]

theorem X_sub_X_ne {i j : Fin 3} (h : i ≠ j) : (X i - X j : MvPolynomial (Fin 3) K) ≠ 0 := by
  intro e
  exact h (X_injective (sub_eq_zero.1 e))

theorem not_dvd {i j k l : Fin 3} (h : (if k = i then j else k) ≠ (if l = i then j else l)) : ¬ (X i - X j : MvPolynomial (Fin 3) K) ∣ X k - X l := by
  rw [dvd_iff_glue]
  intro e
  unfold glue at e
  rw [map_sub, aeval_X, aeval_X] at e
  have h1 : (if k = i then (X j : MvPolynomial (Fin 3) K) else X k) = X (if k = i then j else k) := by split <;> rfl
  have h2 : (if l = i then (X j : MvPolynomial (Fin 3) K) else X l) = X (if l = i then j else l) := by split <;> rfl
  rw [h1, h2] at e
  exact X_sub_X_ne h e

variable [Infinite K]

/-- A polynomial invariant under the exchange of `i` and `j` that is divisible by `X i - X j` is divisible by its square. -/
theorem sq_dvd (h2 : (2 : K) ≠ 0) {i j : Fin 3} (hij : i ≠ j) {p : MvPolynomial (Fin 3) K} (hs : ∀ x : Fin 3 → K, eval (fun k => x (Equiv.swap i j k)) p = eval x p)
    (hd : (X i - X j) ∣ p) : (X i - X j) ^ 2 ∣ p := by
  obtain ⟨q, rfl⟩ := hd
  have hq : (X i - X j : MvPolynomial (Fin 3) K) * (rename (Equiv.swap i j) q + q) = 0 := by
    apply MvPolynomial.funext
    intro x
    have := hs x
    rw [map_mul, map_mul, map_sub, map_sub, eval_X, eval_X, eval_X, eval_X] at this
    rw [map_mul, map_sub, map_add, eval_X, eval_X, eval_rename, map_zero]
    rw [Equiv.swap_apply_left, Equiv.swap_apply_right] at this
    have e : eval (x ∘ ⇑(Equiv.swap i j)) q = eval (fun k => x (Equiv.swap i j k)) q := rfl
    rw [e]
    linear_combination -this
  have hq := (mul_eq_zero.1 hq).resolve_left (X_sub_X_ne hij)
  have : (X i - X j) ∣ q := by
    rw [dvd_iff_glue]
    apply MvPolynomial.funext
    intro x
    rw [eval_glue, map_zero]
    have := congrArg (eval fun k => if k = i then x j else x k) hq
    rw [map_add, eval_rename, map_zero] at this
    have e : (fun k => if k = i then x j else x k) ∘ ⇑(Equiv.swap i j) = fun k => if k = i then x j else x k := by
      funext k
      simp only [Function.comp]
      by_cases h1 : k = i
      · subst h1
        rw [Equiv.swap_apply_left, if_neg (Ne.symm hij), if_pos rfl]
      · by_cases h3 : k = j
        · subst h3
          rw [Equiv.swap_apply_right, if_pos rfl, if_neg h1]
        · rw [Equiv.swap_apply_of_ne_of_ne h1 h3]
    rw [e, ← two_mul] at this
    exact (mul_eq_zero.1 this).resolve_left h2
  obtain ⟨r, rfl⟩ := this
  exact ⟨r, by ring⟩

theorem sq_dvd_of_mul {i j : Fin 3} (hij : i ≠ j) {p q : MvPolynomial (Fin 3) K} (h : (X i - X j) ^ 2 ∣ p * q) (hp : ¬ (X i - X j) ∣ p) : (X i - X j) ^ 2 ∣ q := by
  have h1 : (X i - X j) ∣ q := dvd_of_mul ((dvd_pow_self _ two_ne_zero).trans h) hp
  obtain ⟨r, rfl⟩ := h1
  obtain ⟨s, hs⟩ := h
  have : p * r = (X i - X j) * s := by
    apply mul_left_cancel₀ (X_sub_X_ne hij)
    linear_combination hs
  obtain ⟨u, hu⟩ := dvd_of_mul ⟨s, this⟩ hp
  exact ⟨u, by rw [hu]; ring⟩

/-- The polynomial is a multiple of the discriminant. -/
theorem disc_dvd (h2 : (2 : K) ≠ 0) {p : MvPolynomial (Fin 3) K} (h01 : ∀ x : Fin 3 → K, eval (fun k => x (Equiv.swap 0 1 k)) p = eval x p)
    (h12 : ∀ x : Fin 3 → K, eval (fun k => x (Equiv.swap 1 2 k)) p = eval x p) (h02 : ∀ x : Fin 3 → K, eval (fun k => x (Equiv.swap 0 2 k)) p = eval x p)
    (hv : ∀ x : Fin 3 → K, x 2 ≠ 0 → x 1 = x 2 → eval x p = 0) : ∃ q, p = (X 0 - X 1) ^ 2 * (X 1 - X 2) ^ 2 * (X 2 - X 0) ^ 2 * q := by
  have d12 : (X 1 - X 2) ∣ p := by
    rw [dvd_iff_glue]
    have : glue 1 2 p * X 2 = 0 := by
      apply MvPolynomial.funext
      intro x
      rw [map_mul, eval_glue, eval_X, map_zero]
      by_cases h : x 2 = 0
      · rw [h, mul_zero]
      · rw [hv _ (by simpa using h) (by simp), zero_mul]
    exact (mul_eq_zero.1 this).resolve_right (X_ne_zero _)
  have v12 : ∀ x : Fin 3 → K, x 1 = x 2 → eval x p = 0 := by
    intro x hx
    obtain ⟨q, rfl⟩ := d12
    simp [hx]
  have d01 : (X 0 - X 1) ∣ p := by
    rw [dvd_iff_glue]
    apply MvPolynomial.funext
    intro x
    rw [eval_glue, map_zero, ← h02]
    apply v12
    simp [Equiv.swap_apply_def]
  have d20 : (X 2 - X 0) ∣ p := by
    rw [dvd_iff_glue]
    apply MvPolynomial.funext
    intro x
    rw [eval_glue, map_zero, ← h01]
    apply v12
    simp [Equiv.swap_apply_def]
  have s12 := sq_dvd h2 (by decide) h12 d12
  have s01 := sq_dvd h2 (by decide) h01 d01
  have s20 := sq_dvd h2 (by decide) (fun x => by rw [Equiv.swap_comm]; exact h02 x) d20
  obtain ⟨q, rfl⟩ := s01
  have n1 : ¬ (X 1 - X 2 : MvPolynomial (Fin 3) K) ∣ X 0 - X 1 := not_dvd (by decide)
  have n2 : ¬ (X 2 - X 0 : MvPolynomial (Fin 3) K) ∣ X 0 - X 1 := not_dvd (by decide)
  have n3 : ¬ (X 2 - X 0 : MvPolynomial (Fin 3) K) ∣ X 1 - X 2 := not_dvd (by decide)
  have sq_not : ∀ {i j : Fin 3} {r : MvPolynomial (Fin 3) K}, ¬ (X i - X j) ∣ r → ¬ (X i - X j) ∣ r ^ 2 := by
    intro i j r h e
    rw [pow_two] at e
    exact h (dvd_of_mul e h)
  obtain ⟨r, rfl⟩ := sq_dvd_of_mul (by decide) s12 (sq_not n1)
  obtain ⟨s, rfl⟩ := sq_dvd_of_mul (by decide) (sq_dvd_of_mul (by decide) s20 (sq_not n2)) (sq_not n3)
  exact ⟨s, by ring⟩

/-- A list of terms in three variables with symmetric values that vanishes at every `(x, y, y)` with `y ≠ 0` is a multiple of the discriminant. -/
theorem disc_dvd_terms (h2 : (2 : K) ≠ 0) {p : List (List ℕ × K)} (hp : Arity 3 p) (h01 : ∀ a b c, Coeff.evalDict p [b, a, c] = Coeff.evalDict p [a, b, c])
    (h12 : ∀ a b c, Coeff.evalDict p [a, c, b] = Coeff.evalDict p [a, b, c]) (hv : ∀ x y, y ≠ 0 → Coeff.evalDict p [x, y, y] = 0) :
    ∃ q, Arity 3 q ∧ ∀ a b c, Coeff.evalDict p [a, b, c] = Coeff.evalDict q [a, b, c] * ((a - b) ^ 2 * (b - c) ^ 2 * (c - a) ^ 2) := by
  have e : ∀ x : Fin 3 → K, eval x (toMv 3 p) = Coeff.evalDict p [x 0, x 1, x 2] := by
    intro x
    rw [eval_toMv x hp]
    simp [List.ofFn_succ]
  obtain ⟨Q, hQ⟩ := disc_dvd (p := toMv 3 p) h2 (fun x => by rw [e, e]; simpa [Equiv.swap_apply_def] using h01 (x 0) (x 1) (x 2))
    (fun x => by rw [e, e]; simpa [Equiv.swap_apply_def] using h12 (x 0) (x 1) (x 2))
    (fun x => by
      rw [e, e]
      have e1 := h01 (x 0) (x 1) (x 2)
      have e2 := h12 (x 1) (x 0) (x 2)
      have e3 := h01 (x 1) (x 2) (x 0)
      simp only [Equiv.swap_apply_def]
      simp only [Fin.isValue, if_true, Fin.reduceEq, if_false]
      rw [e3, e2, e1])
    (fun x h1 h3 => by rw [e, h3]; exact hv _ _ h1)
  obtain ⟨q, hq, hv⟩ := exists_terms Q
  refine ⟨q, hq, fun a b c => ?_⟩
  have h3 := e ![a, b, c]
  have h4 := hv ![a, b, c]
  rw [hQ] at h3
  simp [List.ofFn_succ] at h3 h4
  rw [← h3, h4]
  ring

end Verif.SymDiv

namespace Verif.TermsPoly

open MvPolynomial

variable {K : Type*} [Field K]

theorem isHom_toMv {n d : ℕ} {p : List (List ℕ × K)} (hp : Arity n p) (hd : HomDeg d p) : (toMv n p).IsHomogeneous d := by
  induction p with
  | nil => exact isHomogeneous_zero _ _ _
  | cons t p ih =>
    rw [toMv_cons]
    refine (isHomogeneous_monomial _ ?_).add (ih (fun t ht => hp t (List.mem_cons_of_mem _ ht)) (fun t ht => hd t (List.mem_cons_of_mem _ ht)))
    rw [← hd t (List.mem_cons_self ..), Finsupp.degree_eq_sum]
    have hl := hp t (List.mem_cons_self ..)
    subst hl
    simp only [expo_apply]
    conv_rhs => rw [← List.ofFn_getElem (xs := t.1)]
    rw [List.sum_ofFn]
    apply Finset.sum_congr rfl
    intro i _
    simp

theorem homDeg_of_isHom [DecidableEq K] {n d : ℕ} {p : List (List ℕ × K)} (hp : IsPoly n p) (h : (toMv n p).IsHomogeneous d) : HomDeg d p := by
  intro t ht
  have h1 := coeff_toMv_of_mem hp.arity hp.nodup ht
  have h2 := h (d := expo n t.1) (by rw [h1]; exact hp.ne t ht)
  have hl := hp.arity t ht
  subst hl
  rw [← h2, Finsupp.weight_apply, Finsupp.sum_fintype _ _ (by simp)]
  simp only [expo_apply, Pi.one_apply, smul_eq_mul, mul_one]
  conv_lhs => rw [← List.ofFn_getElem (xs := t.1)]
  rw [List.sum_ofFn]
  apply Finset.sum_congr rfl
  intro i _
  simp

theorem isHom_of_mul {n d e : ℕ} {q g : MvPolynomial (Fin n) K} (hg : g ≠ 0) (h1 : g.IsHomogeneous e) (h2 : (q * g).IsHomogeneous (d + e)) : q.IsHomogeneous d := by
  have key : ∀ k, homogeneousComponent (k + e) (q * g) = homogeneousComponent k q * g := by
    intro k
    conv_lhs => rw [← sum_homogeneousComponent q, Finset.sum_mul, map_sum]
    have h3 : ∀ j, homogeneousComponent (k + e) (homogeneousComponent j q * g) = if j = k then homogeneousComponent j q * g else 0 := by
      intro j
      rw [homogeneousComponent_of_mem ((mem_homogeneousSubmodule _ _).2 ((homogeneousComponent_isHomogeneous j q).mul h1))]
      by_cases h : j = k
      · rw [if_pos h, if_pos (by rw [h])]
      · rw [if_neg h, if_neg (by omega)]
    rw [Finset.sum_congr rfl fun j _ => h3 j, Finset.sum_ite_eq']
    split
    · rfl
    · rename_i h
      rw [homogeneousComponent_eq_zero k q (by simpa using h), zero_mul]
  have hz : ∀ k, k ≠ d → homogeneousComponent k q = 0 := by
    intro k hk
    have := key k
    rw [homogeneousComponent_of_mem ((mem_homogeneousSubmodule _ _).2 h2), if_neg (by omega)] at this
    exact (mul_eq_zero.1 this.symm).resolve_right hg
  have : q = homogeneousComponent d q := by
    conv_lhs => rw [← sum_homogeneousComponent q]
    by_cases hd : d ∈ Finset.range (q.totalDegree + 1)
    · exact Finset.sum_eq_single_of_mem d hd fun k _ hk => hz k hk
    · rw [homogeneousComponent_eq_zero d q (by simpa using hd)]
      exact Finset.sum_eq_zero fun k hk => hz k fun e => hd (e ▸ hk)
  rw [this]
  exact homogeneousComponent_isHomogeneous d q

/-- The exact quotient of two homogeneous polynomials is homogeneous. -/
theorem homDeg_quot [DecidableEq K] [Infinite K] {n d e : ℕ} {p q g : List (List ℕ × K)} (hp : Arity n p) (hq : IsPoly n q) (hg : Arity n g)
    (hv : ∀ x : List K, x.length = n → Coeff.evalDict p x = Coeff.evalDict q x * Coeff.evalDict g x) (hne : ∃ x : List K, x.length = n ∧ Coeff.evalDict g x ≠ 0)
    (hpd : HomDeg (d + e) p) (hge : HomDeg e g) : HomDeg d q := by
  have h1 : toMv n p = toMv n q * toMv n g := by
    apply MvPolynomial.funext
    intro x
    rw [map_mul, eval_toMv x hp, eval_toMv x hq.arity, eval_toMv x hg, hv _ (by simp)]
  refine homDeg_of_isHom hq (isHom_of_mul (g := toMv n g) ?_ (isHom_toMv hg hge) ?_)
  · rintro h
    obtain ⟨x, hx, hz⟩ := hne
    subst hx
    have := eval_toMv (fun i : Fin x.length => x[i]) hg
    rw [h, map_zero] at this
    have h3 : (List.ofFn fun i : Fin x.length => x[i]) = x := List.ofFn_getElem
    rw [h3] at this
    exact hz this.symm
  · rw [← h1]
    exact isHom_toMv hp hpd

end Verif.TermsPoly
