import Verif.Model.Pqr
import Verif.Proofs.SymDiv
import Mathlib.RingTheory.MvPolynomial.Symmetric.FundamentalTheorem
import Mathlib.Tactic.LinearCombination
import Mathlib.Tactic.FieldSimp
import Mathlib.Algebra.CharZero.Infinite
import Mathlib.Data.Rat.Cast.CharZero
import Mathlib.Data.List.Permutation

/-!
# `pqr_sym` and `pqr_cyc` (C75)

The returned expressions are identities, and an exception is raised exactly for polynomials that are not symmetric or not cyclic.
-/

namespace Verif.Pqr

open Verif Verif.TermsPoly Verif.Coeff

set_option linter.unusedSectionVars false

variable {K : Type*} [Field K] [DecidableEq K]

/-- The elementary symmetric polynomials `e_1, ..., e_n` of a list of `n` numbers. -/
def esyms (x : List K) : List K := (List.range x.length).map fun k => ((x.sublistsLen (k + 1)).map List.prod).sum

theorem esyms_three (a b c : K) : esyms [a, b, c] = [a + b + c, a * b + b * c + c * a, a * b * c] := by
  have h : ∀ k, (List.sublistsLen k ([a, b, c] : List K)) = List.sublistsLen k [a, b, c] := fun _ => rfl
  simp only [esyms, List.length_cons, List.length_nil, List.range_succ, List.range_zero, List.nil_append, List.map_append, List.map_cons, List.map_nil,
    List.cons_append]
  simp [List.sublistsLen_succ_cons]
  refine ⟨by ring, by ring, by ring⟩

/-- The values do not change when the arguments are permuted. -/
def SymVals (n : ℕ) (p : TP K) : Prop := ∀ x y : List K, x.length = n → x.Perm y → evalDict p x = evalDict p y

/-- The values do not change under `a → b → c → a`. -/
def CycVals (p : TP K) : Prop := ∀ a b c : K, evalDict p [b, c, a] = evalDict p [a, b, c]

/-- The contracts of the SymPy calls. -/
structure PqrExt.Sound (X : PqrExt K) : Prop where
  /-- `symmetrize` splits a polynomial. -/
  sym_eq : ∀ n p, Arity n p → Arity n (X.symmetrize n p).1 ∧ IsPoly n (X.symmetrize n p).2 ∧
    ∀ x : List K, x.length = n → evalDict p x = evalDict (X.symmetrize n p).1 (esyms x) + evalDict (X.symmetrize n p).2 x
  /-- It leaves no rest for a symmetric polynomial. -/
  sym_exact : ∀ n p, Arity n p → SymVals n p → (X.symmetrize n p).2 = []
  div_eq : ∀ n p g, Arity n p → Arity n g → IsPoly n (X.div p g).1 ∧ IsPoly n (X.div p g).2 ∧
    ∀ x : List K, x.length = n → evalDict p x = evalDict (X.div p g).1 x * evalDict g x + evalDict (X.div p g).2 x
  div_exact : ∀ n p g q, Arity n p → Arity n g → Arity n q → (∀ x : List K, x.length = n → evalDict p x = evalDict q x * evalDict g x) → (X.div p g).2 = []

/-! ## `pqr_sym` -/

theorem esyms_perm {x y : List K} (h : x.Perm y) : esyms x = esyms y := by
  unfold esyms
  rw [h.length_eq]
  apply List.map_congr_left
  intro k _
  have e : ∀ l : List K, ((l.sublistsLen (k + 1)).map List.prod).sum = ((Multiset.powersetCard (k + 1) (l : Multiset K)).map Multiset.prod).sum := by
    intro l
    rw [Multiset.powersetCard_coe, Multiset.map_coe, Multiset.sum_coe, List.map_map]
    congr 1
  rw [e, e, Multiset.coe_eq_coe.2 h]

/-- An answer of `pqr_sym` is an identity. -/
theorem pqrSym_eq {X : PqrExt K} (hX : X.Sound) {n : ℕ} {p f : TP K} (hp : Arity n p) {sy : Option ℕ} (h : pqrSym X n p sy = .ok f) (x : List K)
    (hx : x.length = n) : evalDict p x = evalDict f (esyms x) := by
  unfold pqrSym at h
  split at h
  · cases h
  · split at h
    · cases h
    · split at h
      · cases h
      · rename_i hg
        cases h
        rw [(hX.sym_eq n p hp).2.2 x hx, not_not.1 hg, evalDict_nil, add_zero]

/-- `pqr_sym` answers exactly for symmetric polynomials, if the number of symbols is right; otherwise it raises `ValueError`. -/
theorem pqrSym_exact {X : PqrExt K} (hX : X.Sound) {n : ℕ} {p : TP K} (hp : Arity n p) {sy : Option ℕ} (hs : n = sy.getD 3) :
    (SymVals n p ∧ ∃ f, pqrSym X n p sy = .ok f) ∨ (¬ SymVals n p ∧ pqrSym X n p sy = .error .valueError) := by
  have h1 : ¬ (n ≠ 3 ∧ sy = none) := by
    rintro ⟨a, rfl⟩; exact a hs
  by_cases hsym : SymVals n p
  · left
    exact ⟨hsym, _, by rw [pqrSym, if_neg h1, if_neg (not_not.2 hs), if_neg (not_not.2 (hX.sym_exact n p hp hsym))]⟩
  · right
    refine ⟨hsym, ?_⟩
    rw [pqrSym, if_neg h1, if_neg (not_not.2 hs)]
    split
    · rfl
    · rename_i hg
      exfalso; apply hsym
      intro x y hx hxy
      obtain ⟨_, _, he⟩ := hX.sym_eq n p hp
      rw [he x hx, he y (hxy.length_eq ▸ hx), not_not.1 hg, evalDict_nil, evalDict_nil, esyms_perm hxy]

/-- A wrong number of symbols raises `ValueError`. -/
theorem pqrSym_symbols (X : PqrExt K) {n : ℕ} (p : TP K) {sy : Option ℕ} (hs : n ≠ sy.getD 3) : pqrSym X n p sy = .error .valueError := by
  unfold pqrSym
  split
  · rfl
  · rfl

/-! ## `pqr_cyc` -/

theorem evalDict_swapAB {p : TP K} (hp : Arity 3 p) (a b c : K) : evalDict (swapAB p) [a, b, c] = evalDict p [b, a, c] := by
  induction p with
  | nil => rfl
  | cons t p ih =>
    have h3 := hp t (by simp)
    obtain ⟨m, v⟩ := t
    obtain ⟨i, j, k, rfl⟩ := List.length_eq_three.1 h3
    have e := ih fun t ht => hp t (by simp [ht])
    have : swapAB ((([i, j, k], v) :: p : TP K)) = ([j, i, k], v) :: swapAB p := rfl
    rw [this, evalDict_cons, evalDict_cons, e]
    congr 1
    simp only [evalMonom, List.zipWith_cons_cons, List.zipWith_nil_left, List.prod_cons, List.prod_nil]
    ring

theorem arity_swapAB {p : TP K} (hp : Arity 3 p) : Arity 3 (swapAB p) := by
  intro t ht
  obtain ⟨u, hu, rfl⟩ := List.mem_map.1 ht
  have := hp u hu
  simp [this]

theorem evalDict_half (p : TP K) (x : List K) : evalDict (half p) x = evalDict p x / 2 := by
  unfold half
  rw [evalDict_collect]
  induction p with
  | nil => simp [evalDict_nil]
  | cons t p ih =>
    rw [List.map_cons, evalDict_cons, evalDict_cons, ih]
    ring

theorem arity_half {n : ℕ} {p : TP K} (hp : Arity n p) : Arity n (half p) := by
  apply arity_collect
  intro t ht
  obtain ⟨u, hu, rfl⟩ := List.mem_map.1 ht
  exact hp u hu

theorem arity_append {n : ℕ} {p q : TP K} (hp : Arity n p) (hq : Arity n q) : Arity n (p ++ q) := fun t ht =>
  (List.mem_append.1 ht).elim (hp t) (hq t)

theorem evalDict_vand (a b c : K) : evalDict vand [a, b, c] = (a - b) * (b - c) * (c - a) := by
  simp only [vand, evalDict_cons, evalDict_nil, evalMonom, List.zipWith_cons_cons, List.zipWith_nil_left, List.prod_cons, List.prod_nil]
  ring

theorem arity_vand : Arity 3 (vand : TP K) := by
  intro t ht
  simp only [vand, List.mem_cons, List.not_mem_nil, or_false] at ht
  rcases ht with rfl | rfl | rfl | rfl | rfl | rfl <;> rfl

/-- The value of the polynomial of a list at three numbers. -/
theorem eval3 {p : TP K} (hp : Arity 3 p) (x : Fin 3 → K) : MvPolynomial.eval x (toMv 3 p) = evalDict p [x 0, x 1, x 2] := by
  rw [eval_toMv x hp]; simp [List.ofFn_succ]

section
open MvPolynomial

/-- A polynomial that vanishes when two of its three variables agree is a multiple of `(a-b)(b-c)(c-a)`. -/
theorem vand_dvd [Infinite K] {p : TP K} (hp : Arity 3 p) (h01 : ∀ a c, evalDict p [a, a, c] = 0) (h12 : ∀ a b, evalDict p [a, b, b] = 0)
    (h20 : ∀ a b, evalDict p [a, b, a] = 0) : ∃ q, Arity 3 q ∧ ∀ a b c, evalDict p [a, b, c] = evalDict q [a, b, c] * ((a - b) * (b - c) * (c - a)) := by
  have d01 : (X 0 - X 1) ∣ toMv 3 p := by
    rw [SymDiv.dvd_iff_glue]
    apply MvPolynomial.funext
    intro x
    rw [SymDiv.eval_glue, eval3 hp, map_zero]
    simpa using h01 (x 1) (x 2)
  have d12 : (X 1 - X 2) ∣ toMv 3 p := by
    rw [SymDiv.dvd_iff_glue]
    apply MvPolynomial.funext
    intro x
    rw [SymDiv.eval_glue, eval3 hp, map_zero]
    simpa using h12 (x 0) (x 2)
  have d20 : (X 2 - X 0) ∣ toMv 3 p := by
    rw [SymDiv.dvd_iff_glue]
    apply MvPolynomial.funext
    intro x
    rw [SymDiv.eval_glue, eval3 hp, map_zero]
    simpa using h20 (x 0) (x 1)
  have n1 : ¬ (X 1 - X 2 : MvPolynomial (Fin 3) K) ∣ X 0 - X 1 := SymDiv.not_dvd (by decide)
  have n2 : ¬ (X 2 - X 0 : MvPolynomial (Fin 3) K) ∣ X 0 - X 1 := SymDiv.not_dvd (by decide)
  have n3 : ¬ (X 2 - X 0 : MvPolynomial (Fin 3) K) ∣ X 1 - X 2 := SymDiv.not_dvd (by decide)
  obtain ⟨q, hq⟩ := d01
  rw [hq] at d12 d20
  obtain ⟨r, hr⟩ := SymDiv.dvd_of_mul d12 n1
  have d20' := SymDiv.dvd_of_mul d20 n2
  rw [hr] at d20'
  obtain ⟨s, hs⟩ := SymDiv.dvd_of_mul d20' n3
  obtain ⟨t, ht, hv⟩ := exists_terms s
  refine ⟨t, ht, fun a b c => ?_⟩
  have h3 := eval3 hp ![a, b, c]
  have h4 := hv ![a, b, c]
  rw [hq, hr, hs] at h3
  simp [List.ofFn_succ] at h3 h4
  rw [← h3, h4]
  ring

end

/-- Invariance under the swap of the first two variables and the rotation gives invariance under all permutations. -/
theorem symVals_of {p : TP K} (h1 : ∀ a b c : K, evalDict p [b, a, c] = evalDict p [a, b, c]) (h2 : CycVals p) : SymVals 3 p := by
  have key : ∀ a b c : K, ∀ y ∈ ([a, b, c] : List K).permutations, evalDict p [a, b, c] = evalDict p y := by
    intro a b c y hy
    have e1 := h1 a b c
    have e2 := h2 a b c
    have e3 := h2 b c a
    have e4 := h1 b c a
    have e5 := h1 c a b
    simp [List.permutations, List.permutationsAux, List.permutationsAux.rec, List.permutationsAux2] at hy
    rcases hy with rfl | rfl | rfl | rfl | rfl | rfl
    · rfl
    · exact e1.symm
    · rw [e4, e2]
    · exact e2.symm
    · rw [e3, e2]
    · rw [e5, e3, e2]
  intro x y hx hxy
  obtain ⟨a, b, c, rfl⟩ := List.length_eq_three.1 hx
  exact key a b c y (List.mem_permutations.2 hxy.symm)

theorem cyc_of_sym {p : TP K} (h : SymVals 3 p) : CycVals p := fun a b c =>
  h [b, c, a] [a, b, c] rfl (by
    have : ([b, c, a] : List K) = [b, c] ++ [a] := rfl
    rw [this]
    exact List.perm_append_comm)

/-- The quotient of polynomials that change sign together is unchanged. -/
theorem quot_invariant [Infinite K] {f q : TP K} (hq : Arity 3 q) (s : K → K → K → K × K × K)
    (hsv : ∃ q', Arity 3 q' ∧ ∀ a b c, evalDict q' [a, b, c] = evalDict q [(s a b c).1, (s a b c).2.1, (s a b c).2.2])
    (hf : ∀ a b c, evalDict f [a, b, c] = evalDict q [a, b, c] * ((a - b) * (b - c) * (c - a))) (ε : K)
    (he : ∀ a b c, evalDict f [(s a b c).1, (s a b c).2.1, (s a b c).2.2] = ε * evalDict f [a, b, c])
    (hv : ∀ a b c, ((s a b c).1 - (s a b c).2.1) * ((s a b c).2.1 - (s a b c).2.2) * ((s a b c).2.2 - (s a b c).1) = ε * ((a - b) * (b - c) * (c - a))) (hε : ε ≠ 0) :
    ∀ a b c, evalDict q [(s a b c).1, (s a b c).2.1, (s a b c).2.2] = evalDict q [a, b, c] := by
  obtain ⟨q', hq', hv'⟩ := hsv
  open MvPolynomial in
  have hz : (toMv 3 q' - toMv 3 q) * ((X 0 - X 1) * (X 1 - X 2) * (X 2 - X 0)) = 0 := by
    apply MvPolynomial.funext
    intro x
    have h1 := hf (s (x 0) (x 1) (x 2)).1 (s (x 0) (x 1) (x 2)).2.1 (s (x 0) (x 1) (x 2)).2.2
    rw [he, hv, ← hv', hf] at h1
    simp only [map_mul, map_sub, eval_X, map_zero]
    rw [eval3 hq', eval3 hq]
    have h2 : ε * ((evalDict q' [x 0, x 1, x 2] - evalDict q [x 0, x 1, x 2]) * ((x 0 - x 1) * (x 1 - x 2) * (x 2 - x 0))) = 0 := by
      linear_combination -h1
    exact (mul_eq_zero.1 h2).resolve_left hε
  have hne : ((MvPolynomial.X 0 - MvPolynomial.X 1) * (MvPolynomial.X 1 - MvPolynomial.X 2) * (MvPolynomial.X 2 - MvPolynomial.X 0) : MvPolynomial (Fin 3) K) ≠ 0 :=
    mul_ne_zero (mul_ne_zero (SymDiv.X_sub_X_ne (by decide)) (SymDiv.X_sub_X_ne (by decide))) (SymDiv.X_sub_X_ne (by decide))
  have h0 := sub_eq_zero.1 ((mul_eq_zero.1 hz).resolve_right hne)
  intro a b c
  rw [← hv']
  have h1 := eval3 hq' ![a, b, c]
  have h2 := eval3 hq ![a, b, c]
  rw [h0, h2] at h1
  simpa using h1.symm

/-- `a → b → c → a` on the exponents, used only in proofs. -/
def rotT (p : TP K) : TP K := p.map fun t => ([t.1.getD 2 0, t.1.getD 0 0, t.1.getD 1 0], t.2)

theorem evalDict_rotT {p : TP K} (hp : Arity 3 p) (a b c : K) : evalDict (rotT p) [a, b, c] = evalDict p [b, c, a] := by
  induction p with
  | nil => rfl
  | cons t p ih =>
    have h3 := hp t (by simp)
    obtain ⟨m, v⟩ := t
    obtain ⟨i, j, k, rfl⟩ := List.length_eq_three.1 h3
    have e := ih fun t ht => hp t (by simp [ht])
    have : rotT ((([i, j, k], v) :: p : TP K)) = ([k, i, j], v) :: rotT p := rfl
    rw [this, evalDict_cons, evalDict_cons, e]
    congr 1
    simp only [evalMonom, List.zipWith_cons_cons, List.zipWith_nil_left, List.prod_cons, List.prod_nil]
    ring

theorem arity_rotT (p : TP K) : Arity 3 (rotT p) := by
  intro t ht
  obtain ⟨u, hu, rfl⟩ := List.mem_map.1 ht
  rfl

/-- An answer of `pqr_cyc` is an identity. -/
theorem pqrCyc_eq {X : PqrExt K} (hX : X.Sound) (h2 : (2 : K) ≠ 0) {p : TP K} (hp : Arity 3 p) {sy : Option ℕ} {f g : TP K} (h : pqrCyc X 3 p sy = .ok (f, g)) (a b c : K) :
    evalDict p [a, b, c] = evalDict f [a + b + c, a * b + b * c + c * a, a * b * c] +
      (a - b) * (b - c) * (c - a) * evalDict g [a + b + c, a * b + b * c + c * a, a * b * c] := by
  unfold pqrCyc at h
  rw [if_neg (by simp)] at h
  split at h
  · cases h
  · dsimp only at h
    split at h
    · cases h
    · rename_i hr
      have hA : Arity 3 (half (collect (p ++ swapAB p))) := arity_half (arity_collect (arity_append hp (arity_swapAB hp)))
      have hB : Arity 3 (half (collect (p ++ pneg (swapAB p)))) := arity_half (arity_collect (arity_append hp (arity_pneg (arity_swapAB hp))))
      obtain ⟨d1, _, d3⟩ := hX.div_eq 3 _ _ hB (arity_vand (K := K))
      split at h
      · cases h
      · rename_i f' hf
        split at h
        · cases h
        · rename_i g' hg
          cases h
          have e1 := pqrSym_eq hX hA hf [a, b, c] rfl
          have e2 := pqrSym_eq hX d1.arity hg [a, b, c] rfl
          have e3 := d3 [a, b, c] rfl
          rw [not_not.1 hr, evalDict_nil, add_zero, evalDict_half, evalDict_collect, evalDict_append, evalDict_pneg, evalDict_swapAB hp, evalDict_vand, e2] at e3
          rw [evalDict_half, evalDict_collect, evalDict_append, evalDict_swapAB hp] at e1
          rw [esyms_three] at e1 e3
          have : evalDict p [a, b, c] = (evalDict p [a, b, c] + evalDict p [b, a, c]) / 2 + (evalDict p [a, b, c] + -evalDict p [b, a, c]) / 2 := by
            field_simp; ring
          rw [this, e1, e3]
          ring

/-- `pqr_cyc` answers exactly for cyclic polynomials and otherwise raises `ValueError`. -/
theorem pqrCyc_exact [Infinite K] {X : PqrExt K} (hX : X.Sound) (h2 : (2 : K) ≠ 0) {p : TP K} (hp : Arity 3 p) {sy : Option ℕ} (hs : sy.getD 3 = 3) :
    (CycVals p ∧ ∃ f g, pqrCyc X 3 p sy = .ok (f, g)) ∨ (¬ CycVals p ∧ pqrCyc X 3 p sy = .error .valueError) := by
  by_cases hc : CycVals p
  · left
    refine ⟨hc, ?_⟩
    have hA : Arity 3 (half (collect (p ++ swapAB p))) := arity_half (arity_collect (arity_append hp (arity_swapAB hp)))
    have hB : Arity 3 (half (collect (p ++ pneg (swapAB p)))) := arity_half (arity_collect (arity_append hp (arity_pneg (arity_swapAB hp))))
    have vA : ∀ a b c, evalDict (half (collect (p ++ swapAB p))) [a, b, c] = (evalDict p [a, b, c] + evalDict p [b, a, c]) / 2 := by
      intro a b c; rw [evalDict_half, evalDict_collect, evalDict_append, evalDict_swapAB hp]
    have vB : ∀ a b c, evalDict (half (collect (p ++ pneg (swapAB p)))) [a, b, c] = (evalDict p [a, b, c] - evalDict p [b, a, c]) / 2 := by
      intro a b c; rw [evalDict_half, evalDict_collect, evalDict_append, evalDict_pneg, evalDict_swapAB hp, sub_eq_add_neg]
    have hr3 : ∀ a b c : K, evalDict p [c, a, b] = evalDict p [a, b, c] := fun a b c => by rw [← hc c a b]
    obtain ⟨q', hq', hv'⟩ := vand_dvd hB (fun a c => by rw [vB, sub_self, zero_div])
      (fun a b => by rw [vB, ← hc b a b, sub_self, zero_div]) (fun a b => by rw [vB, hr3 b a a, sub_self, zero_div])
    have hrem : (X.div (half (collect (p ++ pneg (swapAB p)))) vand).2 = [] := by
      refine hX.div_exact 3 _ _ q' hB arity_vand hq' fun x hx => ?_
      obtain ⟨a, b, c, rfl⟩ := List.length_eq_three.1 hx
      rw [hv', evalDict_vand]
    obtain ⟨d1, _, d3⟩ := hX.div_eq 3 _ _ hB (arity_vand (K := K))
    have dv : ∀ a b c, evalDict (half (collect (p ++ pneg (swapAB p)))) [a, b, c] =
        evalDict (X.div (half (collect (p ++ pneg (swapAB p)))) vand).1 [a, b, c] * ((a - b) * (b - c) * (c - a)) := by
      intro a b c
      rw [d3 [a, b, c] rfl, hrem, evalDict_nil, add_zero, evalDict_vand]
    have sA : SymVals 3 (half (collect (p ++ swapAB p))) := by
      apply symVals_of
      · intro a b c; rw [vA, vA]; ring
      · intro a b c; rw [vA, vA, hc a b c, ← hc c b a]
    have sQ : SymVals 3 (X.div (half (collect (p ++ pneg (swapAB p)))) vand).1 := by
      apply symVals_of
      · exact quot_invariant d1.arity (fun a b c => (b, a, c)) ⟨swapAB _, arity_swapAB d1.arity, fun a b c => evalDict_swapAB d1.arity a b c⟩ dv (-1)
          (fun a b c => by simp only; rw [vB, vB]; ring) (fun a b c => by simp only; ring) (neg_ne_zero.2 one_ne_zero)
      · exact quot_invariant d1.arity (fun a b c => (b, c, a)) ⟨rotT _, arity_rotT _, fun a b c => evalDict_rotT d1.arity a b c⟩ dv 1
          (fun a b c => by simp only; rw [vB, vB, hc a b c, ← hc c b a]; ring) (fun a b c => by simp only; ring) one_ne_zero
    rcases pqrSym_exact hX hA (sy := some 3) rfl with ⟨_, f, hf⟩ | ⟨h, _⟩
    · rcases pqrSym_exact hX d1.arity (sy := some 3) rfl with ⟨_, g, hg⟩ | ⟨h, _⟩
      · refine ⟨f, g, ?_⟩
        unfold pqrCyc
        simp only [ne_eq, not_true, if_false, hs, hrem, hf, hg]
      · exact absurd sQ h
    · exact absurd sA h
  · right
    refine ⟨hc, ?_⟩
    cases h : pqrCyc X 3 p sy with
    | ok r =>
      exfalso; apply hc
      intro a b c
      obtain ⟨f, g⟩ := r
      rw [pqrCyc_eq hX h2 hp h a b c, pqrCyc_eq hX h2 hp h b c a]
      rw [show b + c + a = a + b + c by ring, show b * c + c * a + a * b = a * b + b * c + c * a by ring, show b * c * a = a * b * c by ring]
      ring
    | error e =>
      unfold pqrCyc at h
      rw [if_neg (by simp)] at h
      split at h
      · exact h.symm
      · dsimp only at h
        split at h
        · exact h.symm
        · split at h
          · exact h.symm
          · split at h
            · exact h.symm
            · cases h

/-- The two parts are unique: an identity with symmetric parts determines the answer as a function. -/
theorem pqrCyc_unique {X : PqrExt K} (hX : X.Sound) (h2 : (2 : K) ≠ 0) {p : TP K} (hp : Arity 3 p) {sy : Option ℕ} {f g : TP K} (h : pqrCyc X 3 p sy = .ok (f, g))
    (F G : K → K → K → K) (hFG : ∀ a b c : K, evalDict p [a, b, c] = F (a + b + c) (a * b + b * c + c * a) (a * b * c) +
      (a - b) * (b - c) * (c - a) * G (a + b + c) (a * b + b * c + c * a) (a * b * c)) (a b c : K) :
    evalDict f [a + b + c, a * b + b * c + c * a, a * b * c] = F (a + b + c) (a * b + b * c + c * a) (a * b * c) := by
  have e1 := hFG a b c
  have e2 := hFG b a c
  rw [pqrCyc_eq hX h2 hp h] at e1 e2
  rw [show b + a + c = a + b + c by ring, show b * a + a * c + c * b = a * b + b * c + c * a by ring, show b * a * c = a * b * c by ring] at e2
  have : (2 : K) * (evalDict f [a + b + c, a * b + b * c + c * a, a * b * c] - F (a + b + c) (a * b + b * c + c * a) (a * b * c)) = 0 := by
    linear_combination e1 + e2
  exact sub_eq_zero.1 ((mul_eq_zero.1 this).resolve_left h2)

/-- `pqr_ker` is the square of `(a-b)(b-c)(c-a)`. -/
theorem pqrKer_eq (a b c : K) : evalDict pqrKer [a + b + c, a * b + b * c + c * a, a * b * c] = ((a - b) * (b - c) * (c - a)) ^ 2 := by
  simp only [pqrKer, evalDict_cons, evalDict_nil, evalMonom, List.zipWith_cons_cons, List.zipWith_nil_left, List.prod_cons, List.prod_nil]
  ring

/-! ## The contracts can be met -/

/-- Fundamental theorem of symmetric polynomials for lists of terms. -/
theorem exists_symmetrize [Infinite K] {n : ℕ} {p : TP K} (hp : Arity n p) (hs : SymVals n p) :
    ∃ f, Arity n f ∧ ∀ x : List K, x.length = n → evalDict p x = evalDict f (esyms x) := by
  have hsym : (toMv n p).IsSymmetric := by
    intro e
    apply MvPolynomial.funext
    intro x
    rw [MvPolynomial.eval_rename, eval_toMv _ hp, eval_toMv _ hp]
    refine (hs _ _ (by simp) ?_)
    exact Equiv.Perm.ofFn_comp_perm e x
  obtain ⟨F, hF⟩ := (MvPolynomial.esymmAlgEquiv (σ := Fin n) (n := n) K (by simp)).surjective ⟨toMv n p, hsym⟩
  obtain ⟨f, hf, hv⟩ := exists_terms F
  refine ⟨f, hf, fun x hx => ?_⟩
  subst hx
  have e1 : evalDict p x = MvPolynomial.eval x.get (toMv x.length p) := by rw [eval_toMv _ hp, List.ofFn_get]
  have e2 : (MvPolynomial.aeval fun i : Fin x.length => MvPolynomial.esymm (Fin x.length) K (i + 1)) F = toMv x.length p := by
    have := congrArg Subtype.val hF
    rw [MvPolynomial.esymmAlgEquiv_apply] at this
    rw [MvPolynomial.esymmAlgHom_apply] at this
    exact this
  have e3 : esyms x = List.ofFn fun i : Fin x.length => MvPolynomial.eval x.get (MvPolynomial.esymm (Fin x.length) K (i + 1)) := by
    apply List.ext_getElem
    · simp [esyms]
    · intro i h1 h2
      simp only [esyms, List.getElem_map, List.getElem_range, List.getElem_ofFn]
      rw [← MvPolynomial.coe_aeval_eq_eval]
      change _ = (MvPolynomial.aeval x.get) _
      rw [MvPolynomial.aeval_esymm_eq_multiset_esymm]
      have : Multiset.map x.get Finset.univ.val = (x : Multiset K) := by
        rw [Fin.univ_val_map, List.ofFn_get]
      rw [this, Multiset.esymm, Multiset.powersetCard_coe, Multiset.map_coe, Multiset.sum_coe, List.map_map]
      congr 1
  rw [e1, ← e2, e3, hv, ← MvPolynomial.coe_aeval_eq_eval, ← MvPolynomial.coe_aeval_eq_eval]
  change (MvPolynomial.aeval x.get) _ = (MvPolynomial.aeval _) F
  rw [← AlgHom.comp_apply, MvPolynomial.comp_aeval]
  rfl

/-- There are functions that meet the contracts. -/
theorem exists_sound [Infinite K] : ∃ X : PqrExt K, X.Sound := by
  classical
  let sy : ℕ → TP K → TP K × TP K := fun n p =>
    if h : Arity n p ∧ SymVals n p then ((exists_symmetrize h.1 h.2).choose, []) else ([], collect p)
  let Q : ℕ → TP K → TP K → Prop := fun n p g => ∃ q, Arity n q ∧ ∀ x : List K, x.length = n → evalDict p x = evalDict q x * evalDict g x
  let dv : TP K → TP K → TP K × TP K := fun p g =>
    if p = [] then ([], []) else if h : Q (p.head?.elim 0 fun t => t.1.length) p g then (collect h.choose, []) else ([], collect p)
  have hlen : ∀ {n : ℕ} {p : TP K}, Arity n p → p ≠ [] → (p.head?.elim 0 fun t => t.1.length) = n := by
    intro n p hp hne
    obtain ⟨t, l, rfl⟩ := List.exists_cons_of_ne_nil hne
    exact hp t (by simp)
  have hnil : ∀ n, IsPoly n ([] : TP K) := fun n => ⟨fun t ht => by simp at ht, by simp [dkeys], by simp⟩
  refine ⟨⟨sy, dv⟩, ?_, ?_, ?_, ?_⟩
  · intro n p hp
    by_cases h : Arity n p ∧ SymVals n p
    · have e : sy n p = ((exists_symmetrize h.1 h.2).choose, []) := dif_pos h
      obtain ⟨h1, h2⟩ := (exists_symmetrize h.1 h.2).choose_spec
      simp only [e]
      refine ⟨h1, ⟨fun t ht => by simp at ht, by simp [dkeys], by simp⟩, fun x hx => by rw [evalDict_nil, add_zero]; exact h2 x hx⟩
    · have e : sy n p = ([], collect p) := dif_neg h
      simp only [e]
      refine ⟨fun t ht => by simp at ht, isPoly_collect hp, fun x hx => by rw [evalDict_nil, zero_add, evalDict_collect]⟩
  · intro n p hp hs
    have e : sy n p = ((exists_symmetrize hp hs).choose, []) := dif_pos ⟨hp, hs⟩
    simp only [e]
  · intro n p g hp hg
    by_cases h0 : p = []
    · have e : dv p g = ([], []) := if_pos h0
      simp only [e]
      exact ⟨hnil n, hnil n, fun x _ => by rw [h0, evalDict_nil]; ring⟩
    · by_cases h : Q (p.head?.elim 0 fun t => t.1.length) p g
      · have e : dv p g = (collect h.choose, []) := by simp only [dv]; rw [if_neg h0, dif_pos h]
        have h12 := h.choose_spec
        generalize h.choose = q at h12 e
        rw [hlen hp h0] at h12
        obtain ⟨h1, h2⟩ := h12
        simp only [e]
        exact ⟨isPoly_collect h1, hnil n, fun x hx => by rw [evalDict_nil, add_zero, evalDict_collect]; exact h2 x hx⟩
      · have e : dv p g = ([], collect p) := by simp only [dv]; rw [if_neg h0, dif_neg h]
        simp only [e]
        exact ⟨hnil n, isPoly_collect hp, fun x _ => by rw [evalDict_nil, evalDict_collect]; ring⟩
  · intro n p g q hp hg hq hv
    by_cases h0 : p = []
    · have e : dv p g = ([], []) := if_pos h0
      simp only [e]
    · have h : Q (p.head?.elim 0 fun t => t.1.length) p g := by
        rw [hlen hp h0]; exact ⟨q, hq, hv⟩
      have e : dv p g = (collect h.choose, []) := by simp only [dv]; rw [if_neg h0, dif_pos h]
      simp only [e]

/-! ## Example: `a^2*b + b^2*c + c^2*a`, as in the documentation -/

def exCyc : TP ℚ := [([2, 1, 0], 1), ([1, 0, 2], 1), ([0, 2, 1], 1)]

theorem exCyc_ok : Arity 3 exCyc ∧ CycVals exCyc := by
  refine ⟨by intro t ht; simp only [exCyc, List.mem_cons, List.not_mem_nil, or_false] at ht; rcases ht with rfl | rfl | rfl <;> rfl, fun a b c => ?_⟩
  simp only [exCyc, evalDict_cons, evalDict_nil, evalMonom, List.zipWith_cons_cons, List.zipWith_nil_left, List.prod_cons, List.prod_nil]
  ring

/-- Every implementation of the SymPy calls gives `p*q/2 - 3*r/2` as the symmetric part here. -/
theorem exCyc_value {X : PqrExt ℚ} (hX : X.Sound) : ∃ f g, pqrCyc X 3 exCyc none = .ok (f, g) ∧
    ∀ a b c : ℚ, evalDict f [a + b + c, a * b + b * c + c * a, a * b * c] = (a + b + c) * (a * b + b * c + c * a) / 2 - 3 * (a * b * c) / 2 := by
  rcases pqrCyc_exact hX (by norm_num) exCyc_ok.1 (sy := none) rfl with ⟨_, f, g, h⟩ | ⟨h, _⟩
  · refine ⟨f, g, h, fun a b c => ?_⟩
    refine pqrCyc_unique hX (by norm_num) exCyc_ok.1 h (fun p q r => p * q / 2 - 3 * r / 2) (fun _ _ _ => -1 / 2) (fun a b c => ?_) a b c
    simp only [exCyc, evalDict_cons, evalDict_nil, evalMonom, List.zipWith_cons_cons, List.zipWith_nil_left, List.prod_cons, List.prod_nil]
    ring
  · exact absurd exCyc_ok.2 h

end Verif.Pqr
