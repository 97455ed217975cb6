import Verif.Proofs.ManifoldSets
import Mathlib.Algebra.Polynomial.Eval.Coeff
import Mathlib.Algebra.CharZero.Infinite
import Mathlib.Data.List.GetD
import Mathlib.Algebra.Ring.Rat
import Mathlib.Algebra.Order.Ring.Rat

/-!
# The nullspaces that SDPSOS imposes lose no certificate

SDPSOS looks for `f = Σ cₖ mₖ vᵀ Mₖ v` with positive semidefinite `Mₖ`.  Before the search it takes the roots of `f` and demands `Mₖ u = 0` for the vector of monomials at the root and for
some of its derivatives.  If the constraints are monomials with positive coefficients, every certificate there is satisfies these equations (`nullspaceFromRoots_sound_partial`), so none is lost.
For other constraints this is false (`nullspace_wrong`).
-/

set_option linter.unusedSectionVars false

namespace Verif.Manifold

open Verif Verif.Coeff Verif.TermsPoly Polynomial Finset

section
variable {K : Type*} [Field K] [LinearOrder K] [IsStrictOrderedRing K]

/-! ### Certificates -/

/-- One part `c · m · vᵀ M v` of a certificate; `v` are the monomials of `basis`. -/
structure Block (K : Type*) where
  c : K
  m : List ℕ
  basis : List (List ℕ)
  M : ℕ → ℕ → K

/-- The vector of monomials at a point. -/
def Block.vec (b : Block K) (x : List K) (j : ℕ) : K := evalMonom (b.basis.getD j []) x

/-- The value of the part. -/
def Block.value (b : Block K) (x : List K) : K := b.c * evalMonom b.m x * bil b.basis.length b.M (b.vec x) (b.vec x)

/-- The matrix is positive semidefinite and the monomials have `n` exponents. -/
structure Block.Ok (n : ℕ) (b : Block K) : Prop where
  len : b.m.length = n
  basis : ∀ u ∈ b.basis, u.length = n
  psd : PSD b.basis.length b.M

/-- `f` is the sum of the parts. -/
def Certifies (n : ℕ) (p : List (List ℕ × K)) (blocks : List (Block K)) : Prop := ∀ x : List K, x.length = n → evalDict p x = (blocks.map fun b => b.value x).sum

/-- The matrix annihilates the vector. -/
def Block.Kills (b : Block K) (v : List K) : Prop := ∀ i, i < b.basis.length → ∑ j ∈ range b.basis.length, b.M i j * v.getD j 0 = 0

/-! ### Local signs -/

theorem nonneg_at_zero_local (p : K[X]) (h : ∃ δ, 0 < δ ∧ ∀ s, 0 < s → s < δ → 0 ≤ p.eval s) : 0 ≤ p.eval 0 := by
  obtain ⟨δ, hδ, h⟩ := h
  by_contra hn
  push Not at hn
  obtain ⟨M, hM, hb⟩ := eval_bounded (p.divX)
  have hp : ∀ x, p.eval x = x * p.divX.eval x + p.eval 0 := by
    intro x
    conv_lhs => rw [← Polynomial.divX_mul_X_add p]
    rw [Polynomial.eval_add, Polynomial.eval_mul, Polynomial.eval_X, Polynomial.eval_C, Polynomial.coeff_zero_eq_eval_zero]
    ring
  set e := min (min 1 (δ / 2)) (-p.eval 0 / (2 * (M + 1))) with he
  have hpos : 0 < e := lt_min (lt_min zero_lt_one (by linarith)) (div_pos (by linarith) (by linarith))
  have hlt : e < δ := lt_of_le_of_lt ((min_le_left _ _).trans (min_le_right _ _)) (by linarith)
  have h1 := h e hpos hlt
  rw [hp] at h1
  have h2 := le_abs_self (p.divX.eval e) |>.trans (hb e hpos.le ((min_le_left _ _).trans (min_le_left _ _)))
  have h3 : e * (2 * (M + 1)) ≤ -p.eval 0 := by
    have := min_le_right (min 1 (δ / 2)) (-p.eval 0 / (2 * (M + 1)))
    rw [← he] at this
    calc e * (2 * (M + 1)) ≤ -p.eval 0 / (2 * (M + 1)) * (2 * (M + 1)) := mul_le_mul_of_nonneg_right this (by linarith)
      _ = -p.eval 0 := div_mul_cancel₀ _ (by positivity)
  have h4 : e * p.divX.eval e ≤ e * M := mul_le_mul_of_nonneg_left h2 hpos.le
  nlinarith

theorem pos_local (p : K[X]) (h : 0 < p.eval 0) : ∃ δ, 0 < δ ∧ ∀ s, 0 ≤ s → s < δ → 0 ≤ p.eval s := by
  obtain ⟨M, hM, hb⟩ := eval_bounded (p.divX)
  have hp : ∀ x, p.eval x = x * p.divX.eval x + p.eval 0 := by
    intro x
    conv_lhs => rw [← Polynomial.divX_mul_X_add p]
    rw [Polynomial.eval_add, Polynomial.eval_mul, Polynomial.eval_X, Polynomial.eval_C, Polynomial.coeff_zero_eq_eval_zero]
    ring
  refine ⟨min 1 (p.eval 0 / (M + 1)), lt_min zero_lt_one (by positivity), fun s h0 hs => ?_⟩
  have h1 := (abs_le.1 (hb s h0 (hs.le.trans (min_le_left _ _)))).1
  have h2 : s * (M + 1) ≤ p.eval 0 := by
    have := hs.le.trans (min_le_right 1 (p.eval 0 / (M + 1)))
    rwa [le_div_iff₀ (by linarith)] at this
  rw [hp]
  nlinarith

/-- Nonnegative on a short ray from zero. -/
def Near (p : K[X]) : Prop := ∃ δ, 0 < δ ∧ ∀ s, 0 ≤ s → s < δ → 0 ≤ p.eval s

theorem low_coeff_near {p : K[X]} (h : Near p) {n : ℕ} (h0 : ∀ d, d < n → p.coeff d = 0) : 0 ≤ p.coeff n := by
  obtain ⟨q, rfl⟩ := X_pow_dvd_iff.2 h0
  have e : (X ^ n * q).coeff n = q.eval 0 := by
    have := coeff_X_pow_mul q n 0
    rw [zero_add] at this
    rw [this, coeff_zero_eq_eval_zero]
  rw [e]
  obtain ⟨δ, hδ, h⟩ := h
  refine nonneg_at_zero_local q ⟨δ, hδ, fun s hs hsd => ?_⟩
  have := h s hs.le hsd
  rw [eval_mul, eval_pow, eval_X] at this
  exact (mul_nonneg_iff_of_pos_left (pow_pos hs n)).1 this

/-- If a sum of polynomials that are nonnegative near the end of a ray vanishes there to some order, so does every part. -/
theorem low_coeffs_near {P : List K[X]} (h : ∀ p ∈ P, Near p) {J : ℕ} (hs : ∀ d, d ≤ J → (P.sum).coeff d = 0) : ∀ d, d ≤ J → ∀ p ∈ P, p.coeff d = 0 := by
  intro d
  induction d using Nat.strong_induction_on with
  | _ d ih =>
    intro hd p hp
    have h1 : ∀ p ∈ P, 0 ≤ p.coeff d := fun p hp => low_coeff_near (h p hp) fun d' hd' => ih d' hd' (by omega) p hp
    have h2 : (P.map fun p => p.coeff d).sum = 0 := by
      rw [← hs d hd]
      clear h hs ih h1 hp
      induction P with
      | nil => simp
      | cons q P ihP => rw [List.map_cons, List.sum_cons, List.sum_cons, coeff_add, ihP]
    refine le_antisymm ?_ (h1 p hp)
    have := List.single_le_sum (l := P.map fun p => p.coeff d) (by simpa using h1) (p.coeff d) (List.mem_map.2 ⟨p, hp, rfl⟩)
    rw [h2] at this
    exact this

/-! ### The blocks on a line -/

/-- The quadratic form on the line. -/
noncomputable def Block.form (b : Block K) (r : List K) (i : ℕ) : K[X] :=
  ∑ k ∈ range b.basis.length, ∑ l ∈ range b.basis.length, C (b.M k l) * (evalMonom (b.basis.getD k []) (line r i) * evalMonom (b.basis.getD l []) (line r i))

/-- The block on the line. -/
noncomputable def Block.poly (b : Block K) (r : List K) (i : ℕ) : K[X] := C b.c * evalMonom b.m (line r i) * b.form r i

theorem Block.eval_form (b : Block K) (r : List K) (i : ℕ) (s : K) :
    (b.form r i).eval s = bil b.basis.length b.M (b.vec (r.modify i (s + ·))) (b.vec (r.modify i (s + ·))) := by
  unfold Block.form bil
  rw [eval_finsetSum]
  refine sum_congr rfl fun k _ => ?_
  rw [eval_finsetSum]
  refine sum_congr rfl fun l _ => ?_
  rw [eval_mul, eval_mul, eval_C, eval_evalMonom, eval_evalMonom, eval_line]
  unfold Block.vec
  ring

theorem Block.eval_poly (b : Block K) (r : List K) (i : ℕ) (s : K) : (b.poly r i).eval s = b.value (r.modify i (s + ·)) := by
  unfold Block.poly Block.value
  rw [eval_mul, eval_mul, eval_C, b.eval_form, eval_evalMonom, eval_line]

theorem onLine_cert {n : ℕ} {p : List (List ℕ × K)} {blocks : List (Block K)} (h : Certifies n p blocks) {r : List K} (hr : r.length = n) (i : ℕ) :
    onLine p r i = (blocks.map fun b => b.poly r i).sum := by
  haveI : Infinite K := CharZero.infinite K
  refine Polynomial.funext fun s => ?_
  rw [eval_onLine, h _ (by simpa using hr)]
  clear h
  induction blocks with
  | nil => simp
  | cons b blocks ih => rw [List.map_cons, List.map_cons, List.sum_cons, List.sum_cons, eval_add, ih, b.eval_poly]

/-- The coefficients of the vector of monomials on the line. -/
noncomputable def Block.w (b : Block K) (r : List K) (i d : ℕ) (j : ℕ) : K := (evalMonom (b.basis.getD j []) (line r i)).coeff d

theorem Block.coeff_form (b : Block K) (r : List K) (i T : ℕ) :
    (b.form r i).coeff T = ∑ x ∈ antidiagonal T, bil b.basis.length b.M (b.w r i x.1) (b.w r i x.2) := by
  unfold Block.form bil Block.w
  rw [finsetSum_coeff, sum_comm]
  refine sum_congr rfl fun k _ => ?_
  rw [finsetSum_coeff, sum_comm]
  refine sum_congr rfl fun l _ => ?_
  rw [coeff_C_mul, coeff_mul, mul_sum]
  exact sum_congr rfl fun x _ => by ring

/-- The derivative of the vector of monomials at the root. -/
def Block.dvec (b : Block K) (r : List K) (o : List ℕ) (j : ℕ) : K := asEntry r o (b.basis.getD j [])

theorem Block.getD_len {n : ℕ} {b : Block K} (h : b.Ok n) {j : ℕ} (hj : j < b.basis.length) : (b.basis.getD j []).length = n := by
  rw [List.getD_eq_getElem _ _ hj]
  exact h.basis _ (List.getElem_mem hj)

theorem bil_congr {n : ℕ} {M : ℕ → ℕ → K} {x x' y y' : ℕ → K} {a c : K} (hx : ∀ j, j < n → x j = a * x' j) (hy : ∀ j, j < n → y j = c * y' j) :
    bil n M x y = a * c * bil n M x' y' := by
  unfold bil
  rw [mul_sum]
  refine sum_congr rfl fun i hi => ?_
  rw [mul_sum]
  refine sum_congr rfl fun j hj => ?_
  rw [hx i (mem_range.1 hi), hy j (mem_range.1 hj)]
  ring

/-- The bilinear form vanishes on the two derivatives. -/
def Block.Zero (b : Block K) (r : List K) (x : Pair) : Prop := bil b.basis.length b.M (b.dvec r x.1) (b.dvec r x.2) = 0

theorem Block.zero_dir {n i : ℕ} {b : Block K} (h : b.Ok n) {r : List K} (hr : r.length = n) (hi : i < n) (p q : ℕ) :
    b.Zero r (dirOrder n i p, dirOrder n i q) ↔ bil b.basis.length b.M (b.w r i p) (b.w r i q) = 0 := by
  unfold Block.Zero
  rw [bil_congr (x := b.dvec r (dirOrder n i p)) (y := b.dvec r (dirOrder n i q)) (a := (p.factorial : K)) (c := (q.factorial : K)) (x' := b.w r i p) (y' := b.w r i q)
    (fun j hj => asEntry_dir n i p r _ hr (Block.getD_len h hj) hi) (fun j hj => asEntry_dir n i q r _ hr (Block.getD_len h hj) hi)]
  have h1 : (p.factorial : K) ≠ 0 := Nat.cast_ne_zero.2 (Nat.factorial_ne_zero p)
  have h2 : (q.factorial : K) ≠ 0 := Nat.cast_ne_zero.2 (Nat.factorial_ne_zero q)
  simp [h1, h2]

theorem Block.zero_spread {n : ℕ} {b : Block K} (h : b.Ok n) (r : List K) (u : List ℕ) (hu : b.Zero r (u, u)) (w : List ℕ) : b.Zero r (u, w) ∧ b.Zero r (w, u) := by
  have := bil_kernel h.psd hu (b.dvec r w)
  exact ⟨by unfold Block.Zero; rw [bil_symm h.psd]; exact this, this⟩

theorem Block.kills_of_zero {n : ℕ} {b : Block K} (h : b.Ok n) {r : List K} {u : List ℕ} (hu : b.Zero r (u, u)) : b.Kills (asVec b.basis r u) := by
  intro i hi
  rw [← mulVec_zero h.psd hu hi]
  refine sum_congr rfl fun j hj => ?_
  have hj := mem_range.1 hj
  unfold asVec Block.dvec
  rw [List.getD_eq_getElem _ _ (by simpa using hj), List.getD_eq_getElem _ _ hj, List.getElem_map]

/-- A vanishing coefficient of the form makes the full set of pairs force. -/
theorem forces_full {n i : ℕ} {b : Block K} (h : b.Ok n) {r : List K} (hr : r.length = n) (hi : i < n) {T : ℕ} (h0 : (b.form r i).coeff T = 0) {S : List Pair}
    (hS : ∀ x, x ∈ S ↔ Full n i T x) : Forces (b.Zero r) S := by
  intro u hu ho
  obtain ⟨p, q, hpq, hs, e⟩ := (hS _).1 hu
  obtain ⟨e1, e2⟩ := Prod.mk.inj e
  have hpq' : p = q := dirOrder_inj hi (e1.symm.trans e2)
  subst hpq'
  rw [e1] at ho ⊢
  rw [Block.zero_dir h hr hi]
  rw [b.coeff_form, sum_eq_single_of_mem (p, p) (mem_antidiagonal.2 hs)] at h0
  · exact h0
  · rintro ⟨a, c⟩ hx hne
    have hac := mem_antidiagonal.1 hx
    dsimp only at hac ⊢
    have hap : a ≠ p := by
      rintro rfl
      exact hne (Prod.ext rfl (by dsimp only; omega))
    rcases le_total a c with hle | hle
    · rw [← Block.zero_dir h hr hi]
      refine ho _ ((hS _).2 ⟨a, c, hle, hac, rfl⟩) fun e => hap (dirOrder_inj hi (Prod.mk.inj e).1)
    · rw [bil_symm h.psd, ← Block.zero_dir h hr hi]
      refine ho _ ((hS _).2 ⟨c, a, hle, by omega, rfl⟩) fun e => hap (dirOrder_inj hi (Prod.mk.inj e).2)

/-! ### The constraints along a line -/

/-- In direction `i` there is a side on which all constraints have the same sign near the root. -/
def OneSided (r : List K) (blocks : List (Block K)) (i : ℕ) : Prop :=
  ∃ σ ε : K, σ ≠ 0 ∧ ε ≠ 0 ∧ ∀ b ∈ blocks, ∃ δ, 0 < δ ∧ ∀ s, 0 ≤ s → s < δ → 0 ≤ ε * (b.c * evalMonom b.m (r.modify i (σ * s + ·)))

/-- All coefficients of all blocks up to the order to which the polynomial vanishes are zero. -/
theorem block_coeffs {n i : ℕ} {p : List (List ℕ × K)} {blocks : List (Block K)} (hb : ∀ b ∈ blocks, b.Ok n) (hc : Certifies n p blocks) {r : List K} (hr : r.length = n)
    (ho : OneSided r blocks i) {J : ℕ} (hJ : ∀ d, d ≤ J → (onLine p r i).coeff d = 0) {b : Block K} (hbm : b ∈ blocks) : ∀ d, d ≤ J → (b.poly r i).coeff d = 0 := by
  obtain ⟨σ, ε, hσ, hε, ho⟩ := ho
  rw [onLine_cert hc hr] at hJ
  have hcoef : ∀ (q : K[X]) d, (C ε * q.comp (C σ * X)).coeff d = ε * (q.coeff d * σ ^ d) := fun q d => by rw [coeff_C_mul, comp_C_mul_X_coeff]
  have hsum : ∀ d, ((blocks.map fun b : Block K => C ε * (b.poly r i).comp (C σ * X)).sum).coeff d = ε * (((blocks.map fun b : Block K => b.poly r i).sum).coeff d * σ ^ d) := by
    intro d
    clear ho hJ hc hb hbm
    induction blocks with
    | nil => simp
    | cons q blocks ih => rw [List.map_cons, List.map_cons, List.sum_cons, List.sum_cons, coeff_add, coeff_add, ih, hcoef]; ring
  have key := low_coeffs_near (P := blocks.map fun b => C ε * (b.poly r i).comp (C σ * X)) (J := J) (by
    intro q hq
    obtain ⟨b, hbm, rfl⟩ := List.mem_map.1 hq
    obtain ⟨δ, hδ, h⟩ := ho b hbm
    refine ⟨δ, hδ, fun s h0 hs => ?_⟩
    rw [eval_mul, eval_C, eval_comp, eval_mul, eval_C, eval_X, b.eval_poly]
    unfold Block.value
    have := mul_nonneg (h s h0 hs) ((hb b hbm).psd.nonneg (b.vec (r.modify i (σ * s + ·))))
    rwa [mul_assoc] at this) (fun d hd => by rw [hsum, hJ d hd]; ring)
  intro d hd
  have := key d hd _ (List.mem_map.2 ⟨b, hbm, rfl⟩)
  rw [hcoef] at this
  rcases mul_eq_zero.1 this with h | h
  · exact absurd h hε
  · rcases mul_eq_zero.1 h with h | h
    · exact h
    · exact absurd h (pow_ne_zero d hσ)

theorem getD_zip {r : List K} {m : List ℕ} {P : K × ℕ → Prop} (hl : m.length = r.length) (h : ∀ t ∈ List.zip r m, P t) {j : ℕ} (hj : j < r.length) : P (r.getD j 0, m.getD j 0) := by
  rw [List.getD_eq_getElem _ _ hj, List.getD_eq_getElem _ _ (by omega)]
  have := List.getElem_mem (l := List.zip r m) (n := j) (by rw [List.length_zip]; omega)
  rw [List.getElem_zip] at this
  exact h _ this

theorem nonvanish_iff (r : List K) (m : List ℕ) : nonvanish r m = true ↔ ∀ t ∈ List.zip r m, t.2 ≠ 0 → t.1 ≠ 0 := by
  unfold nonvanish
  rw [List.all_eq_true]
  exact forall₂_congr fun t _ => by rw [decide_eq_true_iff]

theorem evalMonom_ne_zero : ∀ (r : List K) (m : List ℕ), (∀ t ∈ List.zip r m, t.2 ≠ 0 → t.1 ≠ 0) → evalMonom m r ≠ 0
  | [], m, _ => by cases m <;> simp [evalMonom]
  | _ :: _, [], _ => by simp [evalMonom]
  | x :: r, a :: m, h => by
      rw [evalMonom_cons]
      refine mul_ne_zero ?_ (evalMonom_ne_zero r m fun t ht => h t (List.mem_cons_of_mem _ ht))
      by_cases ha : a = 0
      · rw [ha, pow_zero]; exact one_ne_zero
      · exact pow_ne_zero a (h (x, a) (List.mem_cons_self ..) ha)

theorem evalMonom_set_ne_zero : ∀ (r : List K) (m : List ℕ) (i t : ℕ), (∀ t' ∈ List.zip r (m.modify i (· - t)), t'.2 ≠ 0 → t'.1 ≠ 0) → evalMonom (m.set i 0) r ≠ 0
  | [], m, i, _, _ => by cases m.set i 0 <;> simp [evalMonom]
  | _ :: _, [], _, _, _ => by simp [evalMonom]
  | x :: r, a :: m, 0, t, h => by
      rw [List.set_cons_zero, evalMonom_cons, pow_zero, one_mul]
      exact evalMonom_ne_zero r m fun t' ht => h t' (List.mem_cons_of_mem _ ht)
  | x :: r, a :: m, i + 1, t, h => by
      rw [List.set_cons_succ, evalMonom_cons]
      refine mul_ne_zero ?_ (evalMonom_set_ne_zero r m i t fun t' ht => h t' (List.mem_cons_of_mem _ ht))
      by_cases ha : a = 0
      · rw [ha, pow_zero]; exact one_ne_zero
      · exact pow_ne_zero a (h (x, a) (List.mem_cons_self ..) ha)

/-- The form vanishes to the order that remains for a monomial that does not vanish. -/
theorem form_coeff {n i : ℕ} (hi : i < n) {b : Block K} (hb : b.Ok n) (hc : b.c ≠ 0) {r : List K} (hr : r.length = n) {J : ℕ} (h : ∀ d, d ≤ J → (b.poly r i).coeff d = 0) {t : ℕ} (htm : t ≤ b.m.getD i 0) (htJ : t ≤ J)
    (hv : nonvanish r (b.m.modify i (· - t)) = true) : (b.form r i).coeff (J - t) = 0 := by
  have hv := (nonvanish_iff _ _).1 hv
  have hc0 := mul_ne_zero hc (evalMonom_set_ne_zero r b.m i t hv)
  have hl : b.m.length = r.length := hb.len.trans hr.symm
  have hi' : i < r.length := by omega
  unfold Block.poly at h
  rw [evalMonom_line _ _ _ hl hi', ← mul_assoc, ← C_mul] at h
  generalize b.c * evalMonom (b.m.set i 0) r = c at h hc0
  generalize b.form r i = Q at h ⊢
  by_cases hri : r.getD i 0 = 0
  · have hti : t = b.m.getD i 0 := by
      have := getD_zip (by simpa using hl) hv hi'
      rw [getD_modify _ _ _ (by omega)] at this
      by_contra hne
      exact this (by omega) hri
    have := h J le_rfl
    rw [hri, C_0, add_zero, mul_assoc, coeff_C_mul, ← hti, coeff_X_pow_mul', if_pos htJ] at this
    exact (mul_eq_zero.1 this).resolve_left hc0
  · have hd : X ^ (J + 1) ∣ C c * (X + C (r.getD i 0)) ^ b.m.getD i 0 * Q := X_pow_dvd_iff.2 fun d hd => h d (by omega)
    have hcop : IsCoprime (X ^ (J + 1) : K[X]) ((X + C (r.getD i 0)) ^ b.m.getD i 0) := by
      refine IsCoprime.pow ⟨-C (r.getD i 0)⁻¹, C (r.getD i 0)⁻¹, ?_⟩
      have : C (r.getD i 0)⁻¹ * C (r.getD i 0) = (1 : K[X]) := by rw [← C_mul, inv_mul_cancel₀ hri, C_1]
      linear_combination this
    rw [mul_assoc, (isUnit_C.2 (isUnit_iff_ne_zero.2 hc0)).dvd_mul_left] at hd
    exact X_pow_dvd_iff.1 (hcop.dvd_of_dvd_mul_left hd) _ (by omega)

/-! ### The orders -/

theorem dirLoop_mem {n i : ℕ} {r : List K} {fuel : ℕ} : ∀ {q : List (List ℕ × K)} {j : ℕ} {o : List ℕ}, o ∈ dirLoop n i r fuel q j →
    ∃ d, o = dirOrder n i (j + d) ∧ ∀ d', d' ≤ d → evalDict ((pdiff i)^[d'] q) r = 0 := by
  induction fuel with
  | zero => intro q j o h; simp [dirLoop] at h
  | succ fuel ih =>
    intro q j o h
    unfold dirLoop at h
    split at h
    · rename_i h0
      rcases List.mem_cons.1 h with rfl | h
      · exact ⟨0, rfl, fun d' hd' => by rw [Nat.le_zero.1 hd']; exact h0.2⟩
      · obtain ⟨d, rfl, hd⟩ := ih h
        refine ⟨d + 1, by congr 1; omega, fun d' hd' => ?_⟩
        cases d' with
        | zero => exact h0.2
        | succ d' => rw [Function.iterate_succ_apply]; exact hd d' (by omega)
    · simp at h

/-- **Every order is one at which the polynomial vanishes**: with it all lower derivatives in the same direction. -/
theorem diffOrders_mem {n : ℕ} {p : List (List ℕ × K)} {r : List K} {o : List ℕ} (h : o ∈ diffOrders n p r) :
    o = List.replicate n 0 ∨ (isBinary r = true ∧ ∃ i, i < n ∧ ∃ j, o = dirOrder n i j ∧ ∀ d, 1 ≤ d → d ≤ j → evalDict ((pdiff i)^[d] p) r = 0) := by
  unfold diffOrders at h
  split at h
  · rename_i hbin
    rcases List.mem_cons.1 h with rfl | h
    · exact Or.inl rfl
    · obtain ⟨i, hi, h⟩ := List.mem_flatMap.1 h
      obtain ⟨d, rfl, hd⟩ := dirLoop_mem h
      refine Or.inr ⟨hbin, i, List.mem_range.1 hi, 1 + d, rfl, fun d' h1 h2 => ?_⟩
      have := hd (d' - 1) (by omega)
      rw [← Function.iterate_succ_apply] at this
      rwa [show (d' - 1).succ = d' by omega] at this
  · exact Or.inl (List.mem_singleton.1 h)

theorem totalDeg_le {p : List (List ℕ × K)} {D : ℕ} : totalDeg p ≤ D ↔ ∀ t ∈ p, t.1.sum ≤ D := by
  unfold totalDeg
  induction p with
  | nil => simp
  | cons t p ih => simp [ih]

theorem sum_modify_pred : ∀ (m : List ℕ) (i : ℕ), m.getD i 0 ≠ 0 → (m.modify i (· - 1)).sum + 1 = m.sum
  | [], i, h => by simp at h
  | a :: m, 0, h => by
      simp at h
      simp
      omega
  | a :: m, i + 1, h => by
      have := sum_modify_pred m i (by simpa using h)
      simp
      omega

theorem totalDeg_pdiff (i : ℕ) (p : List (List ℕ × K)) : totalDeg (pdiff i p) ≤ totalDeg p - 1 := by
  rw [totalDeg_le]
  intro t ht
  obtain ⟨s, hs, e⟩ := List.mem_filterMap.1 ht
  split at e
  · simp at e
  · rename_i h
    rw [← Option.some.inj e]
    have := sum_modify_pred s.1 i h
    have := totalDeg_le.1 le_rfl s hs
    dsimp only
    omega

/-- The loop over the derivatives ends within the number of steps the model allows. -/
theorem dirLoop_fuel (n i : ℕ) (r : List K) (fuel : ℕ) : ∀ (p : List (List ℕ × K)) (j : ℕ), totalDeg p ≤ fuel → ∀ more, dirLoop n i r (fuel + more) p j = dirLoop n i r fuel p j := by
  induction fuel with
  | zero =>
    intro p j h more
    cases more with
    | zero => rfl
    | succ more => rw [Nat.zero_add]; unfold dirLoop; rw [if_neg (fun h' => h'.1 (by omega))]
  | succ fuel ih =>
    intro p j h more
    rw [show fuel + 1 + more = (fuel + more) + 1 by omega]
    unfold dirLoop
    split
    · rw [ih]
      have := totalDeg_pdiff i p
      omega
    · rfl

/-- The bounds in the model lose nothing: more steps give the same orders. -/
theorem orders_steps (n : ℕ) (p : List (List ℕ × K)) (r : List K) (m : List ℕ) (more : ℕ) :
    (∀ i j, dirLoop n i r (totalDeg p + more) (pdiff i p) j = dirLoop n i r (totalDeg p) (pdiff i p) j) ∧
      work ((zeroSets n r m (diffOrders n p r)).length + 2 + more) [none] [] (zeroSets n r m (diffOrders n p r)) = nonvanishingOrders n p r m := by
  refine ⟨fun i j => dirLoop_fuel n i r _ _ j (by have := totalDeg_pdiff i p; omega) more, ?_⟩
  unfold nonvanishingOrders
  refine work_steps _ _ _ _ ?_ more
  have : live (zeroSets n r m (diffOrders n p r)) ≤ (zeroSets n r m (diffOrders n p r)).length := List.countP_le_length
  rw [List.length_singleton]
  omega

/-! ### Soundness -/

/-- The sets of the model force, under the assumptions about one line. -/
theorem zeroSets_force {n : ℕ} {p : List (List ℕ × K)} (hp : Arity n p) {blocks : List (Block K)} (hb : ∀ b ∈ blocks, b.Ok n) (hcp : ∀ b ∈ blocks, 0 < b.c) (hc : Certifies n p blocks) {r : List K} (hr : r.length = n)
    (h0 : evalDict p r = 0) (hf : ∀ b ∈ blocks, 0 ≤ evalMonom b.m r) (hline : isBinary r = true → ∀ i, i < n → OneSided r blocks i) {b : Block K} (hbm : b ∈ blocks) :
    ∀ S ∈ zeroSets n r b.m (diffOrders n p r), Forces (b.Zero r) S := by
  intro S hS
  obtain ⟨o, ho, hS⟩ := List.mem_flatMap.1 hS
  obtain ⟨⟨k, S'⟩, hk, rfl⟩ := List.mem_map.1 hS
  obtain ⟨hk, hv⟩ := List.mem_filter.1 hk
  dsimp only at hv ⊢
  rcases diffOrders_mem ho with rfl | ⟨hbin, i, hi, j, rfl, hd⟩
  · rw [diffMonomial_zero] at hk
    obtain ⟨rfl, rfl⟩ := Prod.mk.inj (List.mem_singleton.1 hk)
    have hsum : (blocks.map fun b => b.value r).sum = 0 := by rw [← hc r hr]; exact h0
    have hnn : ∀ b ∈ blocks, 0 ≤ b.value r := fun b hbm => mul_nonneg (mul_nonneg (hcp b hbm).le (hf b hbm)) ((hb b hbm).psd.nonneg _)
    have hz : b.value r = 0 := by
      refine le_antisymm ?_ (hnn b hbm)
      rw [← hsum]
      exact List.single_le_sum (by simpa using hnn) _ (List.mem_map.2 ⟨b, hbm, rfl⟩)
    have hbil : bil b.basis.length b.M (b.vec r) (b.vec r) = 0 :=
      (mul_eq_zero.1 hz).resolve_left (mul_ne_zero (hcp b hbm).ne' (evalMonom_ne_zero r b.m ((nonvanish_iff _ _).1 hv)))
    intro u hu _
    rw [(Prod.mk.inj (List.mem_singleton.1 hu)).1]
    unfold Block.Zero
    rw [bil_congr (a := 1) (c := 1) (x' := b.vec r) (y' := b.vec r) (fun j hj => ?_) (fun j hj => ?_), hbil, mul_zero]
    all_goals rw [one_mul]; exact asEntry_zero n r _ (Block.getD_len (hb b hbm) hj) hr
  · rw [diffMonomial_dir hi] at hk
    obtain ⟨hw, hfull⟩ := diff_iterate hi (hb b hbm).len j
    have hne := hw.2 _ hk
    dsimp only at hne
    obtain ⟨x, hx⟩ := List.exists_mem_of_ne_nil _ hne
    obtain ⟨t, htm, htj, rfl, hf'⟩ := hfull k x ⟨S', hk, hx⟩
    have hJ : ∀ d, d ≤ j → (onLine p r i).coeff d = 0 := by
      intro d hdj
      have e := eval_pdiff hp hr hi d
      have : evalDict ((pdiff i)^[d] p) r = 0 := by
        cases d with
        | zero => exact h0
        | succ d => exact hd (d + 1) (by omega) hdj
      rw [this] at e
      exact (mul_eq_zero.1 e.symm).resolve_left (Nat.cast_ne_zero.2 (Nat.factorial_ne_zero d))
    have hco := block_coeffs hb hc hr (hline hbin i hi) hJ hbm
    exact forces_full (hb b hbm) hr hi (form_coeff hi (hb b hbm) (hcp b hbm).ne' hr hco htm htj hv) fun x => (wf_unique hw hk x).trans (hf' x)

theorem two_values {r : List K} (h : isBinary r = true) (h0 : (0 : K) ∈ r) : ∃ x, ∀ y ∈ r, y = 0 ∨ y = x := by
  unfold isBinary at h
  have h := of_decide_eq_true h
  have hm : ∀ y, y ∈ r.eraseDups ↔ y ∈ r := fun y => List.mem_eraseDups
  generalize r.eraseDups = l at h hm
  have h0' := (hm 0).2 h0
  match l, h, hm, h0' with
  | [a], _, hm, h0' =>
    refine ⟨0, fun y hy => Or.inl ?_⟩
    rw [List.mem_singleton.1 ((hm y).2 hy), List.mem_singleton.1 h0']
  | [a, c], _, hm, h0' =>
    rcases List.mem_cons.1 h0' with rfl | h0'
    · refine ⟨c, fun y hy => ?_⟩
      rcases List.mem_cons.1 ((hm y).2 hy) with h | h
      · exact Or.inl h
      · exact Or.inr (List.mem_singleton.1 h)
    · rw [← List.mem_singleton.1 h0'] at hm
      refine ⟨a, fun y hy => ?_⟩
      rcases List.mem_cons.1 ((hm y).2 hy) with h | h
      · exact Or.inr h
      · exact Or.inl (List.mem_singleton.1 h)
  | _ :: _ :: _ :: _, h, _, _ => simp at h

/-- A monomial at a point with the coordinates zero and `x` is zero or a power of `x`. -/
theorem evalMonom_two {x : K} : ∀ (r : List K) (m : List ℕ), m.length = r.length → (∀ y ∈ r, y = 0 ∨ y = x) → evalMonom m r = 0 ∨ evalMonom m r = x ^ m.sum
  | [], [], _, _ => Or.inr (by simp [evalMonom])
  | y :: r, a :: m, hl, h => by
      rw [evalMonom_cons, List.sum_cons, pow_add]
      rcases evalMonom_two r m (by simpa using hl) fun y hy => h y (List.mem_cons_of_mem _ hy) with e | e
      · exact Or.inl (by rw [e, mul_zero])
      · by_cases ha : a = 0
        · rw [ha, pow_zero, pow_zero, one_mul, one_mul]; exact Or.inr e
        · rcases h y (List.mem_cons_self ..) with rfl | rfl
          · exact Or.inl (by rw [zero_pow ha, zero_mul])
          · exact Or.inr (by rw [e])

theorem sum_set_zero : ∀ (m : List ℕ) (i : ℕ), i < m.length → (m.set i 0).sum + m.getD i 0 = m.sum
  | a :: m, 0, _ => by simp; omega
  | a :: m, i + 1, h => by
      have := sum_set_zero m i (by simpa using h)
      rw [List.set_cons_succ, List.sum_cons, List.sum_cons, List.getD_cons_succ]
      omega

/-- **Feasible roots are one-sided**: near a root with at most two values at which no constraint is negative there is, in every direction, a side on which all constraints have one sign.
The constraints are monomials with positive coefficients whose degrees have the same parity. -/
theorem oneSided_of_feasible {n : ℕ} {blocks : List (Block K)} (hl : ∀ b ∈ blocks, b.m.length = n) (hcp : ∀ b ∈ blocks, 0 < b.c) (hpar : ∀ b ∈ blocks, ∀ b' ∈ blocks, b.m.sum % 2 = b'.m.sum % 2) {r : List K}
    (hr : r.length = n) (hbin : isBinary r = true) (hf : ∀ b ∈ blocks, 0 ≤ evalMonom b.m r) (i : ℕ) (hi : i < n) : OneSided r blocks i := by
  have hval : ∀ b ∈ blocks, ∀ s, evalMonom b.m (r.modify i (s + ·)) = evalMonom (b.m.set i 0) r * (s + r.getD i 0) ^ b.m.getD i 0 := by
    intro b hbm s
    have := congrArg (Polynomial.eval s) (evalMonom_line b.m r i ((hl b hbm).trans hr.symm) (by omega))
    rw [eval_evalMonom, eval_line] at this
    simpa using this
  by_cases hri : r.getD i 0 = 0
  · obtain ⟨x, hx⟩ := two_values hbin (by
      rw [List.getD_eq_getElem _ _ (by omega)] at hri
      rw [← hri]
      exact List.getElem_mem _)
    have htwo : ∀ b ∈ blocks, evalMonom (b.m.set i 0) r = 0 ∨ evalMonom (b.m.set i 0) r = x ^ (b.m.set i 0).sum := fun b hbm =>
      evalMonom_two r _ (by simpa using (hl b hbm).trans hr.symm) hx
    rcases le_or_gt 0 x with hx0 | hx0
    · refine ⟨1, 1, one_ne_zero, one_ne_zero, fun b hbm => ⟨1, one_pos, fun s hs _ => ?_⟩⟩
      rw [hval b hbm, hri, one_mul, one_mul, add_zero]
      rcases htwo b hbm with e | e
      · rw [e]; simp
      · rw [e]; have := (hcp b hbm).le; positivity
    · rcases blocks with _ | ⟨b0, bs⟩
      · exact ⟨1, 1, one_ne_zero, one_ne_zero, fun b hbm => by simp at hbm⟩
      refine ⟨-1, (-1) ^ b0.m.sum, by simp, by simp, fun b hbm => ⟨1, one_pos, fun s hs _ => ?_⟩⟩
      rw [hval b hbm, hri, add_zero]
      rcases htwo b hbm with e | e
      · rw [e]; simp
      · rw [e]
        have h1 : (-1 : K) ^ b0.m.sum = (-1) ^ b.m.sum := by
          rw [neg_one_pow_eq_pow_mod_two, neg_one_pow_eq_pow_mod_two (n := b.m.sum), hpar b hbm b0 (List.mem_cons_self ..)]
        have h2 := sum_set_zero b.m i (by rw [hl b hbm]; exact hi)
        have h3 : (-1 : K) ^ b0.m.sum * (b.c * (x ^ (b.m.set i 0).sum * (-1 * s) ^ b.m.getD i 0)) = b.c * ((-x) ^ (b.m.set i 0).sum * s ^ b.m.getD i 0) := by
          rw [h1, ← h2, mul_pow, neg_pow x, pow_add]
          have h4 : ((-1 : K) ^ b.m.getD i 0) * (-1) ^ b.m.getD i 0 = 1 := by rw [← mul_pow]; simp
          linear_combination b.c * (-1) ^ (b.m.set i 0).sum * x ^ (b.m.set i 0).sum * s ^ b.m.getD i 0 * h4
        rw [h3]
        have := (hcp b hbm).le
        have : 0 ≤ -x := by linarith
        positivity
  · refine ⟨1, 1, one_ne_zero, one_ne_zero, fun b hbm => ?_⟩
    by_cases hz : evalMonom b.m r = 0
    · have h1 : evalMonom (b.m.set i 0) r = 0 := by
        have := hval b hbm 0
        rw [eval_modify_zero, hz, zero_add] at this
        exact (mul_eq_zero.1 this.symm).resolve_right (pow_ne_zero _ hri)
      exact ⟨1, one_pos, fun s _ _ => by rw [hval b hbm, h1]; simp⟩
    · obtain ⟨δ, hδ, h⟩ := pos_local (evalMonom b.m (line r i)) (by
        rw [eval_evalMonom, eval_line, eval_modify_zero]
        exact lt_of_le_of_ne (hf b hbm) (Ne.symm hz))
      refine ⟨δ, hδ, fun s hs hsd => ?_⟩
      have := h s hs hsd
      rw [eval_evalMonom, eval_line] at this
      rw [one_mul, one_mul]
      exact mul_nonneg (hcp b hbm).le this

/-- **One root**: for a root of `f` at which no constraint is negative, every matrix of every certificate annihilates every vector that the code demands for it. -/
theorem nonvanishingOrders_sound {n : ℕ} {p : List (List ℕ × K)} (hp : Arity n p) {blocks : List (Block K)} (hb : ∀ b ∈ blocks, b.Ok n) (hcp : ∀ b ∈ blocks, 0 < b.c)
    (hpar : ∀ b ∈ blocks, ∀ b' ∈ blocks, b.m.sum % 2 = b'.m.sum % 2) (hc : Certifies n p blocks) {r : List K} (hr : r.length = n) (h0 : evalDict p r = 0)
    (hf : ∀ b ∈ blocks, 0 ≤ evalMonom b.m r) {b : Block K} (hbm : b ∈ blocks) {o : List ℕ} (ho : o ∈ nonvanishingOrders n p r b.m) : b.Kills (asVec b.basis r o) := by
  refine Block.kills_of_zero (hb b hbm) (work_sound (fun u hu w => Block.zero_spread (hb b hbm) r u hu w) _ _ _ _ ?_ ?_ ?_ o ho)
  · intro z hz
    simp at hz
  · intro z hz
    simp at hz
  · exact zeroSets_force hp hb hcp hc hr h0 hf (fun hbin i hi => oneSided_of_feasible (fun b hbm => (hb b hbm).len) hcp hpar hr hbin hf i hi) hbm

theorem mem_feasible {ineqs eqs : List (List (List ℕ × K))} {perms : List (List K)} (h : feasible ineqs eqs perms = true) {r : List K} (hr : r ∈ perms) :
    (∀ g ∈ ineqs, 0 ≤ evalDict g r) ∧ ∀ g ∈ eqs, evalDict g r = 0 := by
  have := List.all_eq_true.1 h r hr
  simp only [Bool.not_or, Bool.and_eq_true, Bool.not_eq_true', List.any_eq_false, decide_eq_true_eq, not_lt, ne_eq, not_not] at this
  exact this

/-- **No certificate is lost**: take monomial constraints with positive coefficients, without equations.  For every certificate of `f` that uses these constraints, all vectors in the nullspace that
`RootSubspace` computes for a constraint are annihilated by the matrix of that constraint.  The roots given are roots of `f` together with their permutations.  Partial: the full statement, for
all constraints, is false (`nullspace_wrong`). -/
theorem nullspaceFromRoots_sound_partial {n : ℕ} {p : List (List ℕ × K)} (hp : Arity n p) {blocks : List (Block K)} (hb : ∀ b ∈ blocks, b.Ok n) (hcp : ∀ b ∈ blocks, 0 < b.c)
    (hpar : ∀ b ∈ blocks, ∀ b' ∈ blocks, b.m.sum % 2 = b'.m.sum % 2) (hc : Certifies n p blocks) {permute : List K → List (List K)} {roots : List (List K)}
    (hroots : ∀ r ∈ roots, ∀ r' ∈ permute r, r'.length = n ∧ evalDict p r' = 0) {ineqs : List (List (List ℕ × K))} (hin : ∀ b ∈ blocks, [(b.m, b.c)] ∈ ineqs) {b : Block K} (hbm : b ∈ blocks)
    {v : List K} (hv : v ∈ nullspaceFromRoots n p permute ineqs [] [(b.m, b.c)] b.basis roots) : b.Kills v := by
  unfold nullspaceFromRoots at hv
  obtain ⟨r, hr, hv⟩ := List.mem_flatMap.1 hv
  split at hv
  · rename_i hfe
    dsimp only at hv
    unfold rootSpace at hv
    obtain ⟨r', hr', hv⟩ := List.mem_flatMap.1 hv
    obtain ⟨o, ho, rfl⟩ := List.mem_map.1 hv
    obtain ⟨hlen, h0⟩ := hroots r hr r' hr'
    refine nonvanishingOrders_sound hp hb hcp hpar hc hlen h0 (fun b hbm => ?_) hbm ho
    have := (mem_feasible hfe hr').1 _ (hin b hbm)
    rw [evalDict_cons] at this
    have e : evalDict ([] : List (List ℕ × K)) r' = 0 := rfl
    rw [e, add_zero] at this
    exact (mul_nonneg_iff_of_pos_left (hcp b hbm)).1 this
  · simp at hv

/-- **Other constraints**: the vector of monomials alone is sound for every constraint.  A certificate is here a sum of parts `g · vᵀ M v` for inequalities `g`, plus parts that vanish where the equations hold. -/
theorem rootSpaceGeneral_sound {n : ℕ} {p : List (List ℕ × K)} {parts : List (List (List ℕ × K) × Block K)} (hb : ∀ t ∈ parts, t.2.Ok n) {rest : List K → K}
    (hc : ∀ x : List K, x.length = n → evalDict p x = (parts.map fun t => evalDict t.1 x * bil t.2.basis.length t.2.M (t.2.vec x) (t.2.vec x)).sum + rest x)
    {ineqs eqs : List (List (List ℕ × K))} (hin : ∀ t ∈ parts, t.1 ∈ ineqs) (heq : ∀ x : List K, x.length = n → (∀ g ∈ eqs, evalDict g x = 0) → rest x = 0) {perms : List (List K)}
    (hfe : feasible ineqs eqs perms = true) (hroots : ∀ r ∈ perms, r.length = n ∧ evalDict p r = 0) {t : List (List ℕ × K) × Block K} (ht : t ∈ parts) {v : List K}
    (hv : v ∈ rootSpaceGeneral n perms t.1 t.2.basis) : t.2.Kills v := by
  obtain ⟨r, hr, rfl⟩ := List.mem_map.1 hv
  obtain ⟨hr, hne⟩ := List.mem_filter.1 hr
  have hne : evalDict t.1 r ≠ 0 := of_decide_eq_true hne
  obtain ⟨hlen, h0⟩ := hroots r hr
  obtain ⟨h1, h2⟩ := mem_feasible hfe hr
  have hsum := hc r hlen
  rw [h0, heq r hlen h2, add_zero] at hsum
  have hnn : ∀ t ∈ parts, 0 ≤ evalDict t.1 r * bil t.2.basis.length t.2.M (t.2.vec r) (t.2.vec r) := fun t ht => mul_nonneg (h1 _ (hin t ht)) ((hb t ht).psd.nonneg _)
  have hz : evalDict t.1 r * bil t.2.basis.length t.2.M (t.2.vec r) (t.2.vec r) = 0 := by
    refine le_antisymm ?_ (hnn t ht)
    rw [hsum]
    exact List.single_le_sum (fun x hx => by obtain ⟨t, ht, rfl⟩ := List.mem_map.1 hx; exact hnn t ht) _ (List.mem_map.2 ⟨t, ht, rfl⟩)
  refine Block.kills_of_zero (hb t ht) ?_
  unfold Block.Zero
  rw [bil_congr (a := 1) (c := 1) (x' := t.2.vec r) (y' := t.2.vec r) (fun j hj => ?_) (fun j hj => ?_), (mul_eq_zero.1 hz).resolve_left hne, mul_zero]
  all_goals rw [one_mul]; exact asEntry_zero n r _ (Block.getD_len (hb t ht) hj) hlen

/-! ### Binary roots -/

theorem mem_cube {n : ℕ} {r : List K} : r ∈ cube K n ↔ r.length = n ∧ ∀ x ∈ r, x = 0 ∨ x = 1 := by
  induction n generalizing r with
  | zero => simp only [cube, List.mem_singleton, List.length_eq_zero_iff]; exact ⟨fun h => ⟨h, by simp [h]⟩, fun h => h.1⟩
  | succ n ih =>
    simp only [cube, List.mem_flatMap, List.mem_map, List.mem_cons, List.not_mem_nil, or_false]
    constructor
    · rintro ⟨x, hx, l, hl, rfl⟩
      obtain ⟨h1, h2⟩ := ih.1 hl
      exact ⟨by simp [h1], fun y hy => by rcases List.mem_cons.1 hy with rfl | hy; exacts [hx, h2 y hy]⟩
    · rintro ⟨h1, h2⟩
      cases r with
      | nil => simp at h1
      | cons x l => exact ⟨x, h2 x (List.mem_cons_self ..), l, ih.2 ⟨by simpa using h1, fun y hy => h2 y (List.mem_cons_of_mem _ hy)⟩, rfl⟩

/-- **All binary roots, up to the symmetry**: a point with coordinates 0 and 1 whose representative is not zero is a root exactly if its representative is in the list.  `std` maps a point to its
representative, which is a root exactly if the point is. -/
theorem findrootBinary_iff {n : ℕ} {p : List (List ℕ × K)} {std : List K → List K} (hstd : ∀ r : List K, r.length = n → evalDict p (std r) = evalDict p r) (r : List K) :
    r ∈ findrootBinary n p std ↔ r ≠ List.replicate n 0 ∧ evalDict p r = 0 ∧ ∃ x : List K, x.length = n ∧ (∀ y ∈ x, y = 0 ∨ y = 1) ∧ r = std x := by
  unfold findrootBinary
  rw [List.mem_filter, List.mem_eraseDups, List.mem_map]
  simp only [List.mem_filter, mem_cube, decide_eq_true_eq]
  constructor
  · rintro ⟨⟨x, ⟨⟨h1, h2⟩, h3⟩, rfl⟩, h4⟩
    exact ⟨h4, by rw [hstd x h1]; exact h3, x, h1, h2, rfl⟩
  · rintro ⟨h4, h5, x, h1, h2, rfl⟩
    exact ⟨⟨x, ⟨⟨h1, h2⟩, by rw [← hstd x h1]; exact h5⟩, rfl⟩, h4⟩

end

/-! ### Examples -/

theorem psd_rank_one {K : Type*} [Field K] [LinearOrder K] [IsStrictOrderedRing K] (n : ℕ) (k : K) (hk : 0 ≤ k) (u : ℕ → K) : PSD n fun i j => k * (u i * u j) := by
  refine ⟨fun i j _ _ => by ring, fun x => ?_⟩
  have : bil n (fun i j => k * (u i * u j)) x x = k * (∑ i ∈ range n, u i * x i) ^ 2 := by
    unfold bil
    rw [sq, sum_mul_sum, mul_sum]
    refine sum_congr rfl fun i _ => ?_
    rw [mul_sum]
    exact sum_congr rfl fun j _ => by ring
  rw [this]
  positivity

/-- The polynomial `a (b - c)² + b (c - a)² + c (a - b)²`. -/
def exPoly : List (List ℕ × ℚ) := [([1, 2, 0], 1), ([1, 0, 2], 1), ([0, 1, 2], 1), ([2, 1, 0], 1), ([2, 0, 1], 1), ([0, 2, 1], 1), ([1, 1, 1], -6)]

def exBasis : List (List ℕ) := [[1, 0, 0], [0, 1, 0], [0, 0, 1]]

/-- Its certificate. -/
def exBlocks : List (Block ℚ) :=
  [⟨1, [1, 0, 0], exBasis, fun i j => 1 * ([0, 1, -1].getD i 0 * [0, 1, -1].getD j 0)⟩, ⟨1, [0, 1, 0], exBasis, fun i j => 1 * ([-1, 0, 1].getD i 0 * [-1, 0, 1].getD j 0)⟩,
    ⟨1, [0, 0, 1], exBasis, fun i j => 1 * ([1, -1, 0].getD i 0 * [1, -1, 0].getD j 0)⟩]

/-- The rotations of a point. -/
def rot3 (r : List ℚ) : List (List ℚ) := [r, r.rotate 1, r.rotate 2]

theorem exBlocks_ok : ∀ b ∈ exBlocks, b.Ok 3 := by
  intro b hb
  simp only [exBlocks, List.mem_cons, List.not_mem_nil, or_false] at hb
  rcases hb with rfl | rfl | rfl <;> exact ⟨rfl, by decide, psd_rank_one _ _ (by norm_num) _⟩

theorem exBlocks_cert : Certifies 3 exPoly exBlocks := by
  intro x hx
  match x, hx with
  | [a, b, c], _ =>
    simp [exPoly, exBlocks, exBasis, Block.value, Block.vec, bil, sum_range_succ, evalDict, evalMonom]
    ring

theorem rot3_mem {p : List (List ℕ × ℚ)} {roots : List (List ℚ)} (h : (roots.all fun r => (rot3 r).all fun r' => r'.length == 3 && decide (evalDict p r' = 0)) = true) :
    ∀ r ∈ roots, ∀ r' ∈ rot3 r, r'.length = 3 ∧ evalDict p r' = 0 := by
  intro r hr r' hr'
  have := List.all_eq_true.1 (List.all_eq_true.1 h r hr) r' hr'
  rw [Bool.and_eq_true] at this
  exact ⟨by simpa using this.1, of_decide_eq_true this.2⟩

/-- The hypotheses of `nullspaceFromRoots_sound_partial` hold for this certificate and the roots found; three of the vectors demanded for the constraint `a`. -/
theorem exNullspace : (∀ v ∈ nullspaceFromRoots 3 exPoly rot3 [[([1, 0, 0], 1)], [([0, 1, 0], 1)], [([0, 0, 1], 1)]] [] [([1, 0, 0], 1)] exBasis (findrootBinary 3 exPoly id),
      (⟨1, [1, 0, 0], exBasis, fun i j => 1 * ([0, 1, -1].getD i 0 * [0, 1, -1].getD j 0)⟩ : Block ℚ).Kills v) ∧
    nullspaceFromRoots 3 exPoly rot3 [[([1, 0, 0], 1)], [([0, 1, 0], 1)], [([0, 0, 1], 1)]] [] [([1, 0, 0], 1)] exBasis (findrootBinary 3 exPoly id) ≠ [] := by
  refine ⟨fun v hv => ?_, by decide +kernel⟩
  exact nullspaceFromRoots_sound_partial (blocks := exBlocks) (b := ⟨1, [1, 0, 0], exBasis, fun i j => 1 * ([0, 1, -1].getD i 0 * [0, 1, -1].getD j 0)⟩)
    (by simp [Arity, exPoly]) exBlocks_ok (by simp [exBlocks]) (by simp [exBlocks]) exBlocks_cert (rot3_mem (by decide +kernel)) (by simp [exBlocks]) (by simp [exBlocks]) hv

/-- The polynomial `b c² + a² c + d³`. -/
def wrongPoly : List (List ℕ × ℚ) := [([0, 1, 2, 0], 1), ([2, 0, 1, 0], 1), ([0, 0, 0, 3], 1)]

/-- The constraints `a, b - 2a, c, d`. -/
def wrongIneqs : List (List (List ℕ × ℚ)) := [[([1, 0, 0, 0], 1)], [([0, 1, 0, 0], 1), ([1, 0, 0, 0], -2)], [([0, 0, 1, 0], 1)], [([0, 0, 0, 1], 1)]]

def wrongBasis : List (List ℕ) := [[1, 0, 0, 0], [0, 1, 0, 0], [0, 0, 1, 0], [0, 0, 0, 1]]

/-- A combination of the four constraints with quadratic forms. -/
def wrongSum (M1 M2 M3 M4 : ℕ → ℕ → ℚ) (a b c d : ℚ) : ℚ :=
  a * bil 4 M1 (fun j => [a, b, c, d].getD j 0) (fun j => [a, b, c, d].getD j 0) + (b - 2 * a) * bil 4 M2 (fun j => [a, b, c, d].getD j 0) (fun j => [a, b, c, d].getD j 0) +
    c * bil 4 M3 (fun j => [a, b, c, d].getD j 0) (fun j => [a, b, c, d].getD j 0) + d * bil 4 M4 (fun j => [a, b, c, d].getD j 0) (fun j => [a, b, c, d].getD j 0)

/-- **For other constraints certificates are lost**: `b c² + a² c + d³` has a certificate with the constraints `a, b - 2a, c, d`; but the nullspace computed for the constraint `a` contains the vector
`(0, 0, 1, 0)`, which no certificate's matrix annihilates.  So the search space that SDPSOS keeps contains no certificate. -/
theorem nullspace_wrong :
    (∃ M1 M2 M3 M4 : ℕ → ℕ → ℚ, PSD 4 M1 ∧ PSD 4 M2 ∧ PSD 4 M3 ∧ PSD 4 M4 ∧ ∀ a b c d, evalDict wrongPoly [a, b, c, d] = wrongSum M1 M2 M3 M4 a b c d) ∧
    [0, 0, 1, 0] ∈ nullspaceFromRoots 4 wrongPoly (fun r => [r]) wrongIneqs [] [([1, 0, 0, 0], 1)] wrongBasis (findrootBinary 4 wrongPoly id) ∧
    ∀ M1 M2 M3 M4 : ℕ → ℕ → ℚ, PSD 4 M1 → PSD 4 M2 → PSD 4 M3 → PSD 4 M4 → (∀ a b c d, evalDict wrongPoly [a, b, c, d] = wrongSum M1 M2 M3 M4 a b c d) →
      ¬ (⟨1, [1, 0, 0, 0], wrongBasis, M1⟩ : Block ℚ).Kills [0, 0, 1, 0] := by
  refine ⟨⟨fun i j => 2 * ([0, 0, 1, 0].getD i 0 * [0, 0, 1, 0].getD j 0), fun i j => 1 * ([0, 0, 1, 0].getD i 0 * [0, 0, 1, 0].getD j 0),
    fun i j => 1 * ([1, 0, 0, 0].getD i 0 * [1, 0, 0, 0].getD j 0), fun i j => 1 * ([0, 0, 0, 1].getD i 0 * [0, 0, 0, 1].getD j 0),
    psd_rank_one _ _ (by norm_num) _, psd_rank_one _ _ (by norm_num) _, psd_rank_one _ _ (by norm_num) _, psd_rank_one _ _ (by norm_num) _, fun a b c d => ?_⟩, by decide +kernel, ?_⟩
  · simp [wrongPoly, wrongSum, bil, sum_range_succ, evalDict, evalMonom]
    ring
  · intro M1 M2 M3 M4 h1 h2 h3 h4 h hk
    have hv : ∀ a b c d, evalDict wrongPoly [a, b, c, d] = b * c ^ 2 + a ^ 2 * c + d ^ 3 := by
      intro a b c d
      simp [wrongPoly, evalDict, evalMonom]
      ring
    have e0 := h 0 0 1 0
    have e1 := h 0 1 1 0
    have e2 := h 0 (-1) 1 0
    have e3 := h 0 2 1 0
    have e4 := h 1 0 1 0
    have e5 := h (-1) 0 1 0
    have e6 := h 2 0 1 0
    have k2 := hk 2 (by change 2 < 4; norm_num)
    have h30 : bil 4 M3 (fun j => ([0, 0, 1, 0] : List ℚ).getD j 0) (fun j => ([0, 0, 1, 0] : List ℚ).getD j 0) = 0 := by
      rw [hv] at e0
      unfold wrongSum at e0
      linarith
    have z0 := mulVec_zero h3 h30 (i := 0) (by norm_num)
    have z1 := mulVec_zero h3 h30 (i := 1) (by norm_num)
    have s1 := h2.symm 1 2 (by norm_num) (by norm_num)
    have s3 := h3.symm 1 2 (by norm_num) (by norm_num)
    have s4 := h3.symm 0 2 (by norm_num) (by norm_num)
    rw [hv] at e0 e1 e2 e3 e4 e5 e6
    simp [wrongSum, bil, sum_range_succ] at e0 e1 e2 e3 e4 e5 e6 z0 z1
    simp [sum_range_succ, wrongBasis] at k2
    linarith

end Verif.Manifold
