import Verif.Basic.Terms
import Mathlib.Algebra.MvPolynomial.Funext
import Mathlib.Algebra.MvPolynomial.Rename
import Mathlib.Data.List.OfFn

/-!
# Lists of terms and multivariate polynomials

A list of terms is determined, up to its order, by the values of the polynomial.
-/

namespace Verif.TermsPoly

open Verif Coeff MvPolynomial

variable {K : Type*} [Field K]

/-- The exponent vector of a tuple. -/
noncomputable def expo (n : ℕ) (l : List ℕ) : Fin n →₀ ℕ := Finsupp.equivFunOnFinite.symm fun i => l.getD i 0

theorem expo_apply (n : ℕ) (l : List ℕ) (i : Fin n) : expo n l i = l.getD i 0 := rfl

theorem expo_inj {n : ℕ} {l m : List ℕ} (hl : l.length = n) (hm : m.length = n) (h : expo n l = expo n m) : l = m := by
  apply List.ext_getElem (by rw [hl, hm])
  intro i h1 h2
  have := DFunLike.congr_fun h (⟨i, hl ▸ h1⟩ : Fin n)
  rw [expo_apply, expo_apply] at this
  simpa [List.getD_eq_getElem?_getD, h1, h2] using this

/-- The polynomial of a list of terms. -/
noncomputable def toMv (n : ℕ) (p : List (List ℕ × K)) : MvPolynomial (Fin n) K := (p.map fun t => monomial (expo n t.1) t.2).sum

theorem toMv_cons (n : ℕ) (t : List ℕ × K) (p : List (List ℕ × K)) : toMv n (t :: p) = monomial (expo n t.1) t.2 + toMv n p := by
  simp [toMv]

theorem evalMonom_ofFn {n : ℕ} (x : Fin n → K) : ∀ l : List ℕ, l.length = n → evalMonom l (List.ofFn x) = ∏ i, x i ^ l.getD i 0 := by
  induction n with
  | zero =>
    intro l hl
    rw [List.length_eq_zero_iff.1 hl]
    simp [evalMonom]
  | succ n ih =>
    intro l hl
    cases l with
    | nil => simp at hl
    | cons e l =>
      have := ih (fun i => x i.succ) l (by simpa using hl)
      rw [List.ofFn_succ, Fin.prod_univ_succ]
      simp only [evalMonom, List.zipWith_cons_cons, List.prod_cons] at this ⊢
      rw [this]
      simp

theorem eval_toMv {n : ℕ} (x : Fin n → K) {p : List (List ℕ × K)} (hp : Arity n p) : eval x (toMv n p) = evalDict p (List.ofFn x) := by
  induction p with
  | nil => simp [toMv, evalDict]
  | cons t p ih =>
    rw [toMv_cons, map_add, ih (fun t ht => hp t (List.mem_cons_of_mem _ ht)), evalDict_cons, evalMonom_ofFn x t.1 (hp t (List.mem_cons_self ..)), eval_monomial,
      Finsupp.prod_fintype _ _ (by simp)]
    rfl

/-- A `Poly` in `n` variables: distinct exponents of length `n` and no zero coefficient. -/
structure IsPoly (n : ℕ) (p : List (List ℕ × K)) : Prop where
  arity : Arity n p
  nodup : (dkeys p).Nodup
  ne : ∀ t ∈ p, t.2 ≠ 0

theorem isPoly_collect [DecidableEq K] {n : ℕ} {p : List (List ℕ × K)} (hp : Arity n p) : IsPoly n (collect p) :=
  ⟨arity_collect hp, (collect_isPoly p).1, (collect_isPoly p).2⟩

theorem coeff_toMv_of_not_mem [DecidableEq K] {n : ℕ} {p : List (List ℕ × K)} (hp : Arity n p) {m : List ℕ} (hm : m.length = n) (h : m ∉ dkeys p) : coeff (expo n m) (toMv n p) = 0 := by
  induction p with
  | nil => simp [toMv]
  | cons t p ih =>
    simp only [dkeys, List.map_cons, List.mem_cons, not_or] at h
    rw [toMv_cons, coeff_add, ih (fun t ht => hp t (List.mem_cons_of_mem _ ht)) h.2, coeff_monomial, if_neg, add_zero]
    intro e
    exact h.1 (expo_inj (hp t (List.mem_cons_self ..)) hm e).symm

theorem coeff_toMv_of_mem [DecidableEq K] {n : ℕ} {p : List (List ℕ × K)} (hp : Arity n p) (hd : (dkeys p).Nodup) {t : List ℕ × K} (h : t ∈ p) : coeff (expo n t.1) (toMv n p) = t.2 := by
  induction p with
  | nil => simp at h
  | cons u p ih =>
    have hp' : Arity n p := fun t ht => hp t (List.mem_cons_of_mem _ ht)
    simp only [dkeys, List.map_cons, List.nodup_cons] at hd
    rw [toMv_cons, coeff_add]
    rcases List.mem_cons.1 h with rfl | h
    · rw [coeff_monomial, if_pos rfl, coeff_toMv_of_not_mem hp' (hp t (List.mem_cons_self ..)) hd.1, add_zero]
    · rw [ih hp' hd.2 h, coeff_monomial, if_neg, zero_add]
      intro e
      have := expo_inj (hp u (List.mem_cons_self ..)) (hp t (List.mem_cons_of_mem _ h)) e
      exact hd.1 (this ▸ List.mem_map_of_mem h)

theorem mem_iff_coeff [DecidableEq K] {n : ℕ} {p : List (List ℕ × K)} (hp : IsPoly n p) (t : List ℕ × K) :
    t ∈ p ↔ t.1.length = n ∧ t.2 ≠ 0 ∧ coeff (expo n t.1) (toMv n p) = t.2 := by
  constructor
  · intro h
    exact ⟨hp.arity t h, hp.ne t h, coeff_toMv_of_mem hp.arity hp.nodup h⟩
  · rintro ⟨h1, h2, h3⟩
    by_cases hk : t.1 ∈ dkeys p
    · obtain ⟨u, hu, e⟩ := List.mem_map.1 hk
      have := coeff_toMv_of_mem hp.arity hp.nodup hu
      rw [e, h3] at this
      have : u = t := Prod.ext e this.symm
      exact this ▸ hu
    · exact absurd ((coeff_toMv_of_not_mem hp.arity h1 hk).symm.trans h3).symm h2

theorem toMv_eq_of_values [Infinite K] {n : ℕ} {p q : List (List ℕ × K)} (hp : Arity n p) (hq : Arity n q) (h : ∀ x : List K, x.length = n → evalDict p x = evalDict q x) :
    toMv n p = toMv n q := by
  apply MvPolynomial.funext
  intro x
  rw [eval_toMv x hp, eval_toMv x hq, h _ (by simp)]

/-- Two polynomials with the same values have the same terms. -/
theorem perm_of_values [DecidableEq K] [Infinite K] {n : ℕ} {p q : List (List ℕ × K)} (hp : IsPoly n p) (hq : IsPoly n q) (h : ∀ x : List K, x.length = n → evalDict p x = evalDict q x) :
    p.Perm q := by
  have e := toMv_eq_of_values hp.arity hq.arity h
  rw [List.perm_ext_iff_of_nodup hp.nodup.of_map hq.nodup.of_map]
  intro t
  rw [mem_iff_coeff hp, mem_iff_coeff hq, e]

theorem eq_nil_of_values [DecidableEq K] [Infinite K] {n : ℕ} {p : List (List ℕ × K)} (hp : IsPoly n p) (h : ∀ x : List K, x.length = n → evalDict p x = 0) : p = [] :=
  (perm_of_values hp ⟨by simp [Arity], by simp [dkeys], by simp⟩ (fun x hx => by rw [h x hx, evalDict_nil])).eq_nil

/-- Every polynomial has a list of terms. -/
theorem exists_terms {n : ℕ} (Q : MvPolynomial (Fin n) K) : ∃ q : List (List ℕ × K), Arity n q ∧ ∀ x : Fin n → K, evalDict q (List.ofFn x) = eval x Q := by
  refine ⟨Q.support.toList.map fun (s : Fin n →₀ ℕ) => (List.ofFn fun i => s i, coeff s Q), ?_, ?_⟩
  · intro t ht
    obtain ⟨s, _, rfl⟩ := List.mem_map.1 ht
    simp
  · intro x
    rw [eval_eq', ← Finset.sum_map_toList]
    simp only [evalDict, List.map_map]
    congr 1
    apply List.map_congr_left
    intro s _
    simp only [Function.comp]
    rw [evalMonom_ofFn x _ (by simp)]
    congr 1
    apply Finset.prod_congr rfl
    intro i _
    simp

end Verif.TermsPoly
