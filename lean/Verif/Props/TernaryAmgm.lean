import Verif.Model.TernaryAmgm
import Verif.Props.TernaryCubic
import Mathlib.Algebra.Polynomial.Div
import Mathlib.Algebra.Ring.GeomSum
import Mathlib.Tactic.IntervalCases

/-!
# C50, C68: the AM-GM solver for sparse ternary polynomials
-/

set_option linter.unusedSectionVars false
set_option linter.overlappingInstances false

namespace Verif.Ternary

open Verif Finset Polynomial

variable {K : Type*} [Field K] [LinearOrder K] [IsStrictOrderedRing K]

/-! ### Division -/

/-- The polynomial with the given coefficients from the top. -/
noncomputable def toPD : List K → K[X]
  | [] => 0
  | c :: l => C c * X ^ l.length + toPD l

theorem eval_toPD (l : List K) (x : K) : (toPD l).eval x = evD l x := by
  induction l with
  | nil => simp [toPD, evD]
  | cons c l ih => simp [toPD, evD, ih]

theorem degree_toPD (l : List K) : (toPD l).degree < l.length := by
  induction l with
  | nil => simp [toPD]
  | cons c l ih =>
    rw [toPD]
    refine lt_of_le_of_lt (degree_add_le _ _) (max_lt ?_ ?_)
    · refine lt_of_le_of_lt (degree_C_mul_X_pow_le _ _) ?_
      rw [List.length_cons]
      exact_mod_cast Nat.lt_succ_self _
    · refine ih.trans ?_
      rw [List.length_cons]
      exact_mod_cast Nat.lt_succ_self _

theorem toPD_eq_zero {l : List K} (h : toPD l = 0) : ∀ x ∈ l, x = 0 := by
  induction l with
  | nil => simp
  | cons c l ih =>
    rw [toPD] at h
    have h1 : (toPD l).coeff l.length = 0 := coeff_eq_zero_of_degree_lt (degree_toPD l)
    have h2 := congrArg (fun p => p.coeff l.length) h
    simp only [coeff_add, coeff_C_mul, coeff_X_pow, if_true, mul_one, h1, add_zero, coeff_zero] at h2
    subst h2
    simp only [C_0, zero_mul, zero_add] at h
    intro x hx
    rcases List.mem_cons.1 hx with rfl | hx
    · rfl
    · exact ih h x hx

theorem subLead_length (c : K) : ∀ r g : List K, (subLead c r g).length = r.length
  | r, [] => by cases r <;> rfl
  | [], _ :: _ => rfl
  | x :: xs, g :: gs => by
    rw [subLead, List.length_cons, List.length_cons, subLead_length c xs gs]

theorem toPD_subLead (c : K) : ∀ r g : List K, g.length ≤ r.length → toPD (subLead c r g) = toPD r - C c * X ^ (r.length - g.length) * toPD g
  | r, [], _ => by cases r <;> simp [subLead, toPD]
  | [], _ :: _, h => by simp at h
  | x :: xs, g :: gs, h => by
    have hl : gs.length ≤ xs.length := by simpa using h
    rw [subLead, toPD, toPD, toPD, subLead_length, toPD_subLead c xs gs hl]
    obtain ⟨n, hn⟩ : ∃ n, xs.length = n + gs.length := ⟨xs.length - gs.length, by omega⟩
    rw [List.length_cons, List.length_cons, hn, C_sub, C_mul, show n + gs.length - gs.length = n by omega, show n + gs.length + 1 - (gs.length + 1) = n by omega, pow_add]
    ring

theorem divDesc_spec (gt : List K) : ∀ (n : ℕ) (f : List K), f.length = n + gt.length →
    toPD f = toPD (divDesc gt n f).1 * (X ^ gt.length + toPD gt) + toPD (divDesc gt n f).2 ∧ (divDesc gt n f).2.length = gt.length ∧ (divDesc gt n f).1.length = n
  | 0, f, h => by
    refine ⟨by simp [divDesc, toPD], by simpa [divDesc] using h, rfl⟩
  | n + 1, [], h => by simp at h; omega
  | n + 1, c :: rest, h => by
    have hr : rest.length = n + gt.length := by simp at h; omega
    obtain ⟨h1, h2, h3⟩ := divDesc_spec gt n (subLead c rest gt) (by rw [subLead_length]; exact hr)
    rw [toPD_subLead c rest gt (by omega), show rest.length - gt.length = n by omega] at h1
    refine ⟨?_, ?_, ?_⟩
    · rw [divDesc, toPD, toPD, h3, hr]
      have : toPD rest = toPD (divDesc gt n (subLead c rest gt)).1 * (X ^ gt.length + toPD gt) + toPD (divDesc gt n (subLead c rest gt)).2 + C c * X ^ n * toPD gt := by
        rw [← h1]; ring
      rw [this, pow_add]
      ring
    · rw [divDesc]; exact h2
    · rw [divDesc, List.length_cons, h3]

/-- If the dividend is a multiple of the divisor, the loop finds the cofactor and the remainder is zero. -/
theorem divDesc_exact (gt : List K) (n : ℕ) (f : List K) (hf : f.length = n + gt.length) (q : K[X]) (hq : toPD f = q * (X ^ gt.length + toPD gt)) :
    toPD (divDesc gt n f).1 = q ∧ ∀ x ∈ (divDesc gt n f).2, x = 0 := by
  obtain ⟨h1, h2, -⟩ := divDesc_spec gt n f hf
  have hm : (X ^ gt.length + toPD gt : K[X]).Monic := monic_X_pow_add (degree_toPD gt)
  have hdeg : (X ^ gt.length + toPD gt : K[X]).degree = gt.length := by
    rw [degree_add_eq_left_of_degree_lt (by rw [degree_X_pow]; exact degree_toPD gt), degree_X_pow]
  have u1 := div_modByMonic_unique (f := toPD f) (toPD (divDesc gt n f).1) (toPD (divDesc gt n f).2) hm
    ⟨by rw [h1]; ring, by rw [hdeg, ← h2]; exact degree_toPD _⟩
  have u2 := div_modByMonic_unique (f := toPD f) q 0 hm ⟨by rw [hq]; ring, by rw [hdeg, degree_zero]; exact WithBot.bot_lt_coe _⟩
  exact ⟨u1.1.symm.trans u2.1, toPD_eq_zero (u1.2.symm.trans u2.2)⟩

theorem descList_length (n : ℕ) (f : ℕ → K) : (descList n f).length = n + 1 := by simp [descList]

theorem toPD_descList (n : ℕ) (f : ℕ → K) : toPD (descList n f) = ∑ k ∈ range (n + 1), C (f k) * X ^ k := by
  induction n with
  | zero => simp [descList, toPD]
  | succ n ih =>
    have e : descList (n + 1) f = f (n + 1) :: descList n f := by
      unfold descList
      rw [List.range_succ, List.reverse_append, List.map_append]
      rfl
    rw [e, toPD, descList_length, ih, sum_range_succ _ (n + 1)]
    ring

/-! ### The kernel -/

/-- The cofactor of `(x - 1)^2`. -/
def cofactor {R : Type*} [CommRing R] (d1 d2 : ℕ) (x : R) : R := ∑ i ∈ range d1, ∑ j ∈ range d2, ∑ k ∈ range (d1 + j - i), x ^ (i + k)

theorem cofactor_mul {R : Type*} [CommRing R] (d1 d2 : ℕ) (x : R) : cofactor d1 d2 x * (x - 1) ^ 2 = d1 * x ^ (d1 + d2) - (d1 + d2) * x ^ d1 + d2 := by
  have h1 : cofactor d1 d2 x * (x - 1) = ∑ i ∈ range d1, ∑ j ∈ range d2, (x ^ (d1 + j) - x ^ i) := by
    unfold cofactor
    rw [sum_mul]
    refine sum_congr rfl fun i hi => ?_
    rw [sum_mul]
    refine sum_congr rfl fun j _ => ?_
    have hle : i ≤ d1 + j := by have := mem_range.1 hi; omega
    have : ∑ k ∈ range (d1 + j - i), x ^ (i + k) = x ^ i * ∑ k ∈ range (d1 + j - i), x ^ k := by
      rw [mul_sum]
      exact sum_congr rfl fun k _ => pow_add _ _ _
    rw [this, mul_assoc, geom_sum_mul, mul_sub, mul_one, ← pow_add, Nat.add_sub_cancel' hle]
  have h2 : ∑ i ∈ range d1, ∑ j ∈ range d2, (x ^ (d1 + j) - x ^ i) = d1 * x ^ d1 * (∑ j ∈ range d2, x ^ j) - d2 * ∑ i ∈ range d1, x ^ i := by
    have e : ∀ i ∈ range d1, ∑ j ∈ range d2, (x ^ (d1 + j) - x ^ i) = x ^ d1 * (∑ j ∈ range d2, x ^ j) - d2 * x ^ i := by
      intro i _
      rw [sum_sub_distrib, sum_const, card_range, nsmul_eq_mul, mul_sum]
      congr 1
      exact sum_congr rfl fun k _ => pow_add _ _ _
    rw [sum_congr rfl e, sum_sub_distrib, sum_const, card_range, nsmul_eq_mul, ← mul_sum]
    ring
  have g1 := geom_sum_mul x d2
  have g2 := geom_sum_mul x d1
  calc cofactor d1 d2 x * (x - 1) ^ 2 = cofactor d1 d2 x * (x - 1) * (x - 1) := by ring
    _ = (d1 : R) * x ^ d1 * ((∑ j ∈ range d2, x ^ j) * (x - 1)) - d2 * ((∑ i ∈ range d1, x ^ i) * (x - 1)) := by rw [h1, h2]; ring
    _ = _ := by rw [g1, g2, pow_add]; ring

theorem cofactor_nonneg (d1 d2 : ℕ) {x : K} (hx : 0 ≤ x) : 0 ≤ cofactor d1 d2 x :=
  sum_nonneg fun _ _ => sum_nonneg fun _ _ => sum_nonneg fun _ _ => pow_nonneg hx _

theorem eval_cofactor (d1 d2 : ℕ) (p : K[X]) (x : K) : (cofactor d1 d2 p).eval x = cofactor d1 d2 (p.eval x) := by
  simp [cofactor, eval_finsetSum]

theorem sum_ite_single (n k0 : ℕ) (h : k0 ≤ n) (v : K) : ∑ k ∈ range (n + 1), C (if k = k0 then v else 0) * X ^ k = C v * (X : K[X]) ^ k0 := by
  rw [sum_eq_single k0]
  · simp
  · intro b _ hb
    simp [hb]
  · intro hb
    exact absurd (mem_range.2 (by omega)) hb

theorem poly_F1 (d1 d2 : ℕ) : ∑ k ∈ range (d1 + d2 + 1), C (amgmF1 (K := K) d1 d2 k) * X ^ k = (d1 : K[X]) * X ^ (d1 + d2) - ((d1 : K[X]) + (d2 : K[X])) * X ^ d1 + (d2 : K[X]) := by
  unfold amgmF1
  simp only [C_add, add_mul, sum_add_distrib]
  rw [sum_ite_single _ _ (le_refl _), sum_ite_single _ _ (by omega), sum_ite_single _ _ (by omega)]
  simp only [C_neg, C_add, map_natCast, pow_zero]
  ring

theorem poly_F2 (d1 d2 : ℕ) (h2 : 1 ≤ d2) : ∑ k ∈ range (d1 + d2 + 1), C (amgmF2 (K := K) d1 d2 k) * X ^ k
    = (d1 : K[X]) * X ^ (d1 + d2) + (d2 : K[X]) - C (((d1 : K) + d2) / 2) * (X ^ (d1 + 1) + X ^ (d1 - 1)) := by
  unfold amgmF2
  simp only [C_sub, sub_mul, sum_sub_distrib]
  rw [poly_F1]
  simp only [C_add, add_mul, sum_add_distrib]
  rw [sum_ite_single _ _ (by omega), sum_ite_single _ _ (by omega), sum_ite_single _ _ (by omega)]
  simp only [C_neg, C_add, map_natCast]
  ring

/-- **C50.** For coprime positive `u, v` the kernel is found: the factored form equals `u*x^(u+v) - (u+v)*x^u + v`, it is nonnegative for `x ≥ 0`, and for even
`u + v` it is nonnegative for every `x`. -/
theorem amgmKernel_spec (d1 d2 : ℕ) (h1 : 1 ≤ d1) (h2 : 1 ≤ d2) (hc : Nat.Coprime d1 d2) :
    ∃ f : K → K, amgmKernel d1 d2 = some f ∧ (∀ x, f x = d1 * x ^ (d1 + d2) - (d1 + d2) * x ^ d1 + d2) ∧ (∀ x, 0 ≤ x → 0 ≤ f x) ∧
      ((d1 + d2) % 2 = 0 → ∀ x, 0 ≤ f x) := by
  unfold amgmKernel
  by_cases hpar : (d1 + d2) % 2 = 1
  · rw [if_pos hpar]
    have hq : toPD (descList (d1 + d2) (amgmF1 (K := K) d1 d2)) = cofactor d1 d2 (X : K[X]) * (X ^ ([-2, 1] : List K).length + toPD ([-2, 1] : List K)) := by
      rw [toPD_descList, poly_F1, ← cofactor_mul]
      simp only [toPD, List.length_cons, List.length_nil, C_neg, map_ofNat, map_one]
      ring
    obtain ⟨e1, e2⟩ := divDesc_exact [-2, 1] (d1 + d2 + 1 - 2) _ (by rw [descList_length]; simp; omega) _ hq
    dsimp only
    rw [if_pos (by rw [List.all_eq_true]; intro x hx; exact decide_eq_true (e2 x hx))]
    have hv : ∀ x : K, evD (divDesc [-2, 1] (d1 + d2 + 1 - 2) (descList (d1 + d2) (amgmF1 (K := K) d1 d2))).1 x = cofactor d1 d2 x := by
      intro x
      rw [← eval_toPD, e1, eval_cofactor, eval_X]
    refine ⟨_, rfl, ?_, ?_, ?_⟩
    · intro x
      rw [hv, cofactor_mul]
    · intro x hx
      rw [hv]
      exact mul_nonneg (cofactor_nonneg _ _ hx) (sq_nonneg _)
    · intro h
      omega
  · rw [if_neg hpar]
    -- both numbers are odd
    have hodd : d1 % 2 = 1 := by
      by_contra h
      have a1 : 2 ∣ d1 := by omega
      have a2 : 2 ∣ d2 := by omega
      have := Nat.dvd_gcd a1 a2
      rw [hc] at this
      omega
    obtain ⟨k, rfl⟩ : ∃ k, d1 = 2 * k + 1 := ⟨d1 / 2, by omega⟩
    obtain ⟨l, rfl⟩ : ∃ l, d2 = 2 * l + 1 := ⟨d2 / 2, by omega⟩
    have hN : (((2 * k + 1 : ℕ) : K) + ((2 * l + 1 : ℕ) : K)) / 2 = ((k + l + 1 : ℕ) : K) := by push_cast; ring
    have hfac : ∀ {R : Type _} [CommRing R] (y : R), (cofactor k (l + 1) y + cofactor (k + 1) l y) * (y - 1) ^ 2
        = (2 * k + 1) * y ^ (k + l + 1) - (k + l + 1) * (y ^ (k + 1) + y ^ k) + (2 * l + 1) := by
      intro R _ y
      rw [add_mul, cofactor_mul, cofactor_mul]
      push_cast
      rw [show k + (l + 1) = k + l + 1 by ring, show k + 1 + l = k + l + 1 by ring]
      ring
    have hq : toPD (descList (2 * k + 1 + (2 * l + 1)) (amgmF2 (K := K) (2 * k + 1) (2 * l + 1)))
        = (cofactor k (l + 1) ((X : K[X]) ^ 2) + cofactor (k + 1) l (X ^ 2)) * (X ^ 2 - 1) ^ 2 := by
      rw [toPD_descList, poly_F2 _ _ (by omega), hN, hfac]
      rw [show 2 * k + 1 + (2 * l + 1) = 2 * (k + l + 1) by ring, show 2 * k + 1 + 1 = 2 * (k + 1) by ring, show 2 * k + 1 - 1 = 2 * k by omega]
      simp only [pow_mul, map_natCast]
      push_cast
      ring
    have hdm : toPD (divDesc [0, -2, 0, 1] (2 * k + 1 + (2 * l + 1) + 1 - 4) (descList (2 * k + 1 + (2 * l + 1)) (amgmF2 (K := K) (2 * k + 1) (2 * l + 1)))).1
          = cofactor k (l + 1) ((X : K[X]) ^ 2) + cofactor (k + 1) l (X ^ 2) ∧
        ∀ x ∈ (divDesc [0, -2, 0, 1] (2 * k + 1 + (2 * l + 1) + 1 - 4) (descList (2 * k + 1 + (2 * l + 1)) (amgmF2 (K := K) (2 * k + 1) (2 * l + 1)))).2, x = 0 := by
      by_cases hkl : k + l = 0
      · have hk : k = 0 := by omega
        have hl : l = 0 := by omega
        subst hk hl
        rw [show 2 * 0 + 1 + (2 * 0 + 1) + 1 - 4 = 0 by norm_num, divDesc]
        have hz : cofactor 0 (0 + 1) ((X : K[X]) ^ 2) + cofactor (0 + 1) 0 (X ^ 2) = 0 := by simp [cofactor]
        rw [hz, zero_mul] at hq
        exact ⟨by rw [hz]; rfl, toPD_eq_zero hq⟩
      · apply divDesc_exact
        · rw [descList_length]; simp; omega
        · rw [hq]
          simp only [toPD, List.length_cons, List.length_nil, C_neg, map_ofNat, map_one, map_zero]
          ring
    dsimp only
    rw [if_pos (by rw [List.all_eq_true]; intro x hx; exact decide_eq_true (hdm.2 x hx))]
    have hv : ∀ x : K, evD (divDesc [0, -2, 0, 1] (2 * k + 1 + (2 * l + 1) + 1 - 4) (descList (2 * k + 1 + (2 * l + 1)) (amgmF2 (K := K) (2 * k + 1) (2 * l + 1)))).1 x
        = cofactor k (l + 1) (x ^ 2) + cofactor (k + 1) l (x ^ 2) := by
      intro x
      rw [← eval_toPD, hdm.1, eval_add, eval_cofactor, eval_cofactor, eval_pow, eval_X]
    have hnn : ∀ x : K, 0 ≤ evD (divDesc [0, -2, 0, 1] (2 * k + 1 + (2 * l + 1) + 1 - 4) (descList (2 * k + 1 + (2 * l + 1)) (amgmF2 (K := K) (2 * k + 1) (2 * l + 1)))).1 x * (x ^ 2 - 1) ^ 2
        + (((2 * k + 1 : ℕ) : K) + ((2 * l + 1 : ℕ) : K)) / 2 * (x - 1) ^ 2 * x ^ (2 * k + 1 - 1) := by
      intro x
      rw [hv, show 2 * k + 1 - 1 = 2 * k by omega, pow_mul]
      have := cofactor_nonneg k (l + 1) (sq_nonneg x)
      have := cofactor_nonneg (k + 1) l (sq_nonneg x)
      positivity
    refine ⟨_, rfl, ?_, fun x _ => hnn x, fun _ x => hnn x⟩
    intro x
    rw [hv, hfac, hN]
    rw [show 2 * k + 1 + (2 * l + 1) = 2 * (k + l + 1) by ring, show 2 * k + 1 - 1 = 2 * k by omega]
    rw [show x ^ (2 * k + 1) = (x ^ 2) ^ k * x by rw [pow_succ, pow_mul], pow_mul, pow_mul]
    push_cast
    ring

example : (amgmKernel (K := ℚ) 3 5).map (fun f => (f 2, f (-1))) = some (3 * 2 ^ 8 - 8 * 2 ^ 3 + 5, 16) := by decide +kernel
example : (amgmKernel (K := ℚ) 2 3).map (fun f => f 2) = some (2 * 2 ^ 5 - 5 * 2 ^ 2 + 3) := by decide +kernel

/-! ### Monomials -/

theorem monZ_pos (m : Mon) {a b c : K} (ha : 0 < a) (hb : 0 < b) (hc : 0 < c) : 0 < monZ m a b c := by
  unfold monZ
  exact mul_pos (mul_pos (zpow_pos ha _) (zpow_pos hb _)) (zpow_pos hc _)

/-- The cyclic sum of a monomial. -/
def cy (m : Mon) : Val3 K := cyc3 (monZ m)

theorem cy_next (m : Mon) (a b c : K) : cy m.next a b c = cy m a b c := by
  simp only [cy, cyc3, monZ, Mon.next]
  ring

theorem cy_cycle {m p : Mon} (h : p ∈ m.cycle) (a b c : K) : cy p a b c = cy m a b c := by
  simp only [Mon.cycle, List.mem_cons, List.not_mem_nil, or_false] at h
  rcases h with rfl | rfl | rfl
  · rfl
  · exact cy_next _ _ _ _
  · rw [cy_next, cy_next]

theorem degree_next (m : Mon) : m.next.degree = m.degree := by
  simp only [Mon.degree, Mon.next]
  ring

theorem degree_cycle {m p : Mon} (h : p ∈ m.cycle) : p.degree = m.degree := by
  simp only [Mon.cycle, List.mem_cons, List.not_mem_nil, or_false] at h
  rcases h with rfl | rfl | rfl
  · rfl
  · exact degree_next _
  · rw [degree_next, degree_next]

theorem std_mem (m : Mon) : m.std ∈ m.cycle := by
  unfold Mon.std Mon.cycle
  dsimp only
  split_ifs <;> simp

theorem cy_std (m : Mon) (a b c : K) : cy m.std a b c = cy m a b c := cy_cycle (std_mem m) a b c

theorem degree_std (m : Mon) : m.std.degree = m.degree := degree_cycle (std_mem m)

theorem cy_nonneg (m : Mon) {a b c : K} (ha : 0 < a) (hb : 0 < b) (hc : 0 < c) : 0 ≤ cy m a b c := by
  unfold cy cyc3
  have := monZ_pos m ha hb hc
  have := monZ_pos m hb hc ha
  have := monZ_pos m hc ha hb
  positivity

/-- `w` steps from `m`. -/
theorem monZ_step (m w p : Mon) (k : ℕ) (hx : p.x = m.x + k * w.x) (hy : p.y = m.y + k * w.y) (hz : p.z = m.z + k * w.z) {a b c : K} (ha : 0 < a) (hb : 0 < b) (hc : 0 < c) :
    monZ p a b c = monZ m a b c * monZ w a b c ^ k := by
  unfold monZ
  rw [hx, hy, hz, zpow_add₀ ha.ne', zpow_add₀ hb.ne', zpow_add₀ hc.ne', mul_pow, mul_pow, mul_comm (k : ℤ) w.x, mul_comm (k : ℤ) w.y, mul_comm (k : ℤ) w.z,
    zpow_mul, zpow_mul, zpow_mul, zpow_natCast, zpow_natCast, zpow_natCast]
  ring

/-! ### Collinear monomials -/

theorem int_ratio (a a' b b' : ℤ) (h : a * b' = b * a') (hb : 0 ≤ b * b') : (b.natAbs : ℤ) * a' = (b'.natAbs : ℤ) * a := by
  rcases le_total 0 b with h1 | h1 <;> rcases le_total 0 b' with h2 | h2
  · rw [Int.natAbs_of_nonneg h1, Int.natAbs_of_nonneg h2]; linarith
  · rw [Int.natAbs_of_nonneg h1, Int.ofNat_natAbs_of_nonpos h2]
    have hz : b * b' = 0 := le_antisymm (mul_nonpos_of_nonneg_of_nonpos h1 h2) hb
    rcases mul_eq_zero.1 hz with rfl | rfl <;> nlinarith
  · rw [Int.ofNat_natAbs_of_nonpos h1, Int.natAbs_of_nonneg h2]
    have hz : b * b' = 0 := le_antisymm (mul_nonpos_of_nonpos_of_nonneg h1 h2) hb
    rcases mul_eq_zero.1 hz with rfl | rfl <;> nlinarith
  · rw [Int.ofNat_natAbs_of_nonpos h1, Int.ofNat_natAbs_of_nonpos h2]; linarith

theorem norm_ratio (v1 v2 : Mon) (hxy : v1.x * v2.y = v1.y * v2.x) (hs1 : v1.degree = 0) (hs2 : v2.degree = 0) (hdot : 0 < v1.dot v2) :
    (v1.norm : ℤ) * v2.x = v2.norm * v1.x ∧ (v1.norm : ℤ) * v2.y = v2.norm * v1.y ∧ (v1.norm : ℤ) * v2.z = v2.norm * v1.z ∧ 0 < v1.norm ∧ 0 < v2.norm := by
  obtain ⟨x, y, z⟩ := v1
  obtain ⟨x', y', z'⟩ := v2
  simp only [Mon.degree, Mon.dot, Mon.norm] at *
  have ez : z = -x - y := by linarith
  have ez' : z' = -x' - y' := by linarith
  have hxz : x * z' = z * x' := by rw [ez, ez']; linarith
  have hyz : y * z' = z * y' := by rw [ez, ez']; linarith
  have sgn : ∀ u u' : ℤ, x * u' = u * x' → y * u' = u * y' → z * u' = u * z' → 0 ≤ u * u' := by
    intro u u' e1 e2 e3
    have h : (x * x' + y * y' + z * z') * (u * u') = (u * x') ^ 2 + (u * y') ^ 2 + (u * z') ^ 2 := by
      linear_combination u * x' * e1 + u * y' * e2 + u * z' * e3
    by_contra hc
    push Not at hc
    nlinarith [sq_nonneg (u * x'), sq_nonneg (u * y'), sq_nonneg (u * z')]
  have sx := sgn x x' (by ring) (by linarith) (by linarith)
  have sy := sgn y y' (by linarith) (by ring) (by linarith)
  have sz := sgn z z' (by linarith) (by linarith) (by ring)
  simp only [Nat.cast_add]
  refine ⟨?_, ?_, ?_, ?_, ?_⟩
  · have := int_ratio x x' x x' (by ring) sx
    have := int_ratio x x' y y' (by linarith) sy
    have := int_ratio x x' z z' (by linarith) sz
    linarith
  · have := int_ratio y y' x x' (by linarith) sx
    have := int_ratio y y' y y' (by ring) sy
    have := int_ratio y y' z z' (by linarith) sz
    linarith
  · have := int_ratio z z' x x' (by linarith) sx
    have := int_ratio z z' y y' (by linarith) sy
    have := int_ratio z z' z z' (by ring) sz
    linarith
  · by_contra hc
    have h1 : x = 0 := by omega
    have h2 : y = 0 := by omega
    have h3 : z = 0 := by omega
    rw [h1, h2, h3] at hdot
    simp at hdot
  · by_contra hc
    have h1 : x' = 0 := by omega
    have h2 : y' = 0 := by omega
    have h3 : z' = 0 := by omega
    rw [h1, h2, h3] at hdot
    simp at hdot

/-- Three monomials on a line (stated through the first two coordinates, which is enough for equal degrees). -/
def OnLine (p1 p2 p3 : Mon) : Prop := p1.x * (p2.y - p3.y) + p2.x * (p3.y - p1.y) + p3.x * (p1.y - p2.y) = 0

theorem exact_step (n1 n2 : ℕ) (h1 : 0 < n1) (x1 x2 : ℤ) (h : (n1 : ℤ) * x2 = n2 * x1) :
    x2 = ((n2 / Nat.gcd n1 n2 : ℕ) : ℤ) * (x2.fdiv ((n2 / Nat.gcd n1 n2 : ℕ) : ℤ)) ∧ (0 < n2 → x1 = ((n1 / Nat.gcd n1 n2 : ℕ) : ℤ) * (x2.fdiv ((n2 / Nat.gcd n1 n2 : ℕ) : ℤ))) := by
  have hg : 0 < Nat.gcd n1 n2 := Nat.gcd_pos_of_pos_left _ h1
  obtain ⟨d1, e1⟩ := Nat.gcd_dvd_left n1 n2
  obtain ⟨d2, e2⟩ := Nat.gcd_dvd_right n1 n2
  have hc : Nat.Coprime (n1 / Nat.gcd n1 n2) (n2 / Nat.gcd n1 n2) := Nat.coprime_div_gcd_div_gcd hg
  have f1 : n1 / Nat.gcd n1 n2 = d1 := Nat.div_eq_of_eq_mul_right hg e1
  have f2 : n2 / Nat.gcd n1 n2 = d2 := Nat.div_eq_of_eq_mul_right hg e2
  rw [f1, f2] at hc
  rw [f1, f2]
  have hd : (d1 : ℤ) * x2 = d2 * x1 := by
    have : ((Nat.gcd n1 n2 : ℕ) : ℤ) * (d1 * x2) = (Nat.gcd n1 n2 : ℕ) * (d2 * x1) := by
      rw [← mul_assoc, ← mul_assoc, ← Nat.cast_mul, ← Nat.cast_mul, ← e1, ← e2]; exact h
    exact mul_left_cancel₀ (by exact_mod_cast hg.ne') this
  have hdvd : (d2 : ℤ) ∣ x2 := by
    have : (d2 : ℤ) ∣ d1 * x2 := ⟨x1, hd⟩
    exact Int.dvd_of_dvd_mul_right_of_gcd_one this (by simpa [Int.gcd] using hc.symm)
  obtain ⟨w, rfl⟩ := hdvd
  constructor
  · by_cases h0 : (d2 : ℤ) = 0
    · rw [h0]; simp
    · rw [Int.mul_fdiv_cancel_left _ h0]
  · intro hn2
    have h0 : (d2 : ℤ) ≠ 0 := by
      intro h0
      have : d2 = 0 := by exact_mod_cast h0
      rw [this] at e2
      omega
    rw [Int.mul_fdiv_cancel_left _ h0]
    exact mul_left_cancel₀ h0 (by linarith)

/-- `local_ineq` on three monomials of one degree on a line, the middle one between the others. -/
theorem localIneq_spec (m1 p m2 : Mon) (h1 : p.degree = m1.degree) (h2 : m2.degree = p.degree) (hl : OnLine m1 p m2) (hdot : 0 < (p.sub m1).dot (m2.sub p)) :
    ∃ (E : Val3 K) (x y : ℕ), localIneq m1 p m2 = some (E, x, y) ∧ 0 < x ∧ 0 < y ∧
      ∀ a b c : K, 0 < a → 0 < b → 0 < c → E a b c = x * cy m1 a b c - ((x : K) + y) * cy p a b c + y * cy m2 a b c ∧ 0 ≤ E a b c := by
  unfold localIneq
  dsimp only
  rw [if_pos hdot]
  obtain ⟨rx, ry, rz, n1, n2⟩ := norm_ratio (p.sub m1) (m2.sub p) (by unfold OnLine at hl; simp only [Mon.sub]; linarith)
    (by simp only [Mon.degree, Mon.sub] at *; linarith) (by simp only [Mon.degree, Mon.sub] at *; linarith) hdot
  generalize hN1 : (p.sub m1).norm = N1 at *
  generalize hN2 : (m2.sub p).norm = N2 at *
  obtain ⟨xx, xx'⟩ := exact_step N1 N2 n1 _ _ rx
  obtain ⟨yy, yy'⟩ := exact_step N1 N2 n1 _ _ ry
  obtain ⟨zz, zz'⟩ := exact_step N1 N2 n1 _ _ rz
  have hg : 0 < Nat.gcd N1 N2 := Nat.gcd_pos_of_pos_left _ n1
  have hc : Nat.Coprime (N1 / Nat.gcd N1 N2) (N2 / Nat.gcd N1 N2) := Nat.coprime_div_gcd_div_gcd hg
  have hd1 : 0 < N1 / Nat.gcd N1 N2 := Nat.div_pos (Nat.le_of_dvd n1 (Nat.gcd_dvd_left _ _)) hg
  have hd2 : 0 < N2 / Nat.gcd N1 N2 := Nat.div_pos (Nat.le_of_dvd n2 (Nat.gcd_dvd_right _ _)) hg
  replace xx' := xx' n2
  replace yy' := yy' n2
  replace zz' := zz' n2
  generalize N1 / Nat.gcd N1 N2 = d1 at *
  generalize N2 / Nat.gcd N1 N2 = d2 at *
  obtain ⟨f, hf, hval, hnn, -⟩ := amgmKernel_spec (K := K) d1 d2 hd1 hd2 hc
  rw [hf]
  refine ⟨_, d2, d1, rfl, hd2, hd1, ?_⟩
  intro a b c ha hb hc'
  have s1 : ∀ {a b c : K}, 0 < a → 0 < b → 0 < c → monZ p a b c = monZ m1 a b c * monZ ((m2.sub p).fdiv d2) a b c ^ d1 := by
    intro a b c ha hb hc
    apply monZ_step _ _ _ _ _ _ _ ha hb hc
    · simp only [Mon.fdiv, Mon.sub] at *; linarith
    · simp only [Mon.fdiv, Mon.sub] at *; linarith
    · simp only [Mon.fdiv, Mon.sub] at *; linarith
  have s2 : ∀ {a b c : K}, 0 < a → 0 < b → 0 < c → monZ m2 a b c = monZ m1 a b c * monZ ((m2.sub p).fdiv d2) a b c ^ (d1 + d2) := by
    intro a b c ha hb hc
    rw [pow_add, ← mul_assoc, ← s1 ha hb hc]
    apply monZ_step _ _ _ _ _ _ _ ha hb hc
    · simp only [Mon.fdiv, Mon.sub] at *; linarith
    · simp only [Mon.fdiv, Mon.sub] at *; linarith
    · simp only [Mon.fdiv, Mon.sub] at *; linarith
  constructor
  · simp only [cy, cyc3, hval, s1 ha hb hc', s1 hb hc' ha, s1 hc' ha hb, s2 ha hb hc', s2 hb hc' ha, s2 hc' ha hb]
    ring
  · simp only [cyc3]
    have t : ∀ {a b c : K}, 0 < a → 0 < b → 0 < c → 0 ≤ monZ m1 a b c * f (monZ ((m2.sub p).fdiv d2) a b c) := fun ha hb hc =>
      mul_nonneg (monZ_pos _ ha hb hc).le (hnn _ (monZ_pos _ ha hb hc).le)
    have := t ha hb hc'
    have := t hb hc' ha
    have := t hc' ha hb
    positivity

theorem localIneq_dot {m1 p m2 : Mon} {s} (h : localIneq (K := K) m1 p m2 = some s) : 0 < (p.sub m1).dot (m2.sub p) := by
  unfold localIneq at h
  dsimp only at h
  by_contra hc
  rw [if_neg hc] at h
  simp at h

theorem localIneq_some {m1 p m2 : Mon} {s} (h : localIneq (K := K) m1 p m2 = some s) (h1 : p.degree = m1.degree) (h2 : m2.degree = p.degree) (hl : OnLine m1 p m2) :
    0 < s.2.1 ∧ 0 < s.2.2 ∧ ∀ a b c : K, 0 < a → 0 < b → 0 < c →
      s.1 a b c = s.2.1 * cy m1 a b c - ((s.2.1 : K) + s.2.2) * cy p a b c + s.2.2 * cy m2 a b c ∧ 0 ≤ s.1 a b c := by
  obtain ⟨E, x, y, e, hx, hy, hE⟩ := localIneq_spec (K := K) m1 p m2 h1 h2 hl (localIneq_dot h)
  rw [e] at h
  cases h
  exact ⟨hx, hy, hE⟩

/-! ### The solvers -/

/-- `E` proves `s(m1) ≥ s(m2)` at positive points. -/
def AmGood (m1 m2 : Mon) (E : Val3 K) : Prop := ∀ a b c : K, 0 < a → 0 < b → 0 < c → E a b c = cy m1 a b c - cy m2 a b c ∧ 0 ≤ E a b c

theorem circumscribing_spec {m n p : Mon} (h : m.circumscribing n = .ok (some p)) : p ∈ n.cycle ∧ OnLine m p m.next := by
  unfold Mon.circumscribing at h
  by_cases hd : n.degree ≠ m.degree
  · rw [if_pos hd] at h; simp at h
  · rw [if_neg hd] at h
    have h' := Except.ok.inj h
    refine ⟨List.mem_of_find?_eq_some h', ?_⟩
    have := List.find?_some h'
    unfold Mon.collinear at this
    unfold OnLine
    exact of_decide_eq_true this

theorem circumscribing_ok {m n : Mon} (h : n.degree = m.degree) : ∃ r, m.circumscribing n = .ok r := by
  unfold Mon.circumscribing
  rw [if_neg (by simpa using h)]
  exact ⟨_, rfl⟩

theorem OnLine.swap {p1 p2 p3 : Mon} (h : OnLine p1 p2 p3) : OnLine p2 p1 p3 := by
  unfold OnLine at *; linarith

theorem OnLine.swap' {p1 p2 p3 : Mon} (h : OnLine p1 p2 p3) : OnLine p1 p3 p2 := by
  unfold OnLine at *; linarith

/-- `_solve_circumscribing` on monomials of one degree: it never fails, and its answer proves the inequality. -/
theorem solveCirc_sound (m1 m2 : Mon) (hd : m1.degree = m2.degree) :
    ∃ r, solveCirc (K := K) m1 m2 = .ok r ∧ ∀ E, r = some E → AmGood m1 m2 E := by
  obtain ⟨p, hp⟩ := circumscribing_ok (m := m1) (n := m2) hd.symm
  obtain ⟨q, hq⟩ := circumscribing_ok (m := m2) (n := m1) hd
  unfold solveCirc
  rw [hp, hq]
  dsimp only [Except.bind]
  cases h1 : (p.bind fun p => localIneq (K := K) m1 p m1.next) with
  | some s =>
    refine ⟨_, rfl, ?_⟩
    intro E hE0; cases hE0
    cases p with
    | none => simp at h1
    | some p =>
      obtain ⟨hm, hl⟩ := circumscribing_spec hp
      have hpd := degree_cycle hm
      obtain ⟨px, py, hE⟩ := localIneq_some h1 (by rw [hpd, hd]) (by rw [degree_next, hpd, hd]) hl
      intro a b c ha hb hc
      obtain ⟨e1, e2⟩ := hE a b c ha hb hc
      have hx : (0 : K) < s.2.1 := by exact_mod_cast px
      have hy : (0 : K) < s.2.2 := by exact_mod_cast py
      refine ⟨?_, div_nonneg e2 (by positivity)⟩
      dsimp only; rw [e1, cy_next, cy_cycle hm]
      field_simp
      ring
  | none =>
    dsimp only
    cases h2 : (q.bind fun p => localIneq (K := K) p m2 m2.next) with
    | some s =>
      refine ⟨_, rfl, ?_⟩
      intro E hE0; cases hE0
      cases q with
      | none => simp at h2
      | some q =>
        obtain ⟨hm, hl⟩ := circumscribing_spec hq
        have hpd := degree_cycle hm
        obtain ⟨px, py, hE⟩ := localIneq_some h2 (by rw [hpd, hd]) (by rw [degree_next]) hl.swap
        intro a b c ha hb hc
        obtain ⟨e1, e2⟩ := hE a b c ha hb hc
        have hx : (0 : K) < s.2.1 := by exact_mod_cast px
        refine ⟨?_, div_nonneg e2 (by positivity)⟩
        dsimp only; rw [e1, cy_next, cy_cycle hm]
        field_simp
        ring
    | none =>
      dsimp only
      cases h3 : (q.bind fun p => localIneq (K := K) p m2.next m2) with
      | some s =>
        refine ⟨_, rfl, ?_⟩
        intro E hE0; cases hE0
        cases q with
        | none => simp at h3
        | some q =>
          obtain ⟨hm, hl⟩ := circumscribing_spec hq
          have hpd := degree_cycle hm
          obtain ⟨px, py, hE⟩ := localIneq_some h3 (by rw [degree_next, hpd, hd]) (by rw [degree_next]) hl.swap.swap'
          intro a b c ha hb hc
          obtain ⟨e1, e2⟩ := hE a b c ha hb hc
          have hx : (0 : K) < s.2.1 := by exact_mod_cast px
          refine ⟨?_, div_nonneg e2 (by positivity)⟩
          dsimp only; rw [e1, cy_next, cy_cycle hm]
          field_simp
          ring
      | none => exact ⟨none, rfl, by simp⟩

theorem centerFirst_sound {m1 v v2 : Mon} {E : Val3 K} (h : centerFirst m1 v v2 = some E) (hd : v.degree = m1.degree) (hv : v2 ∈ v.cycle)
    (hl : OnLine m1 v v2) : AmGood m1 v E := by
  unfold centerFirst at h
  by_cases e : m1 = v
  · rw [if_pos e] at h
    cases h
    intro a b c ha hb hc
    exact ⟨by rw [e]; ring, le_refl _⟩
  · rw [if_neg e] at h
    cases hs : localIneq (K := K) m1 v v2 with
    | none => rw [hs] at h; simp at h
    | some s =>
      rw [hs] at h
      simp only [Option.map_some, Option.some.injEq] at h
      subst h
      obtain ⟨px, py, hE⟩ := localIneq_some hs hd (degree_cycle hv) hl
      intro a b c ha hb hc
      obtain ⟨e1, e2⟩ := hE a b c ha hb hc
      have hx : (0 : K) < s.2.1 := by exact_mod_cast px
      refine ⟨?_, div_nonneg e2 (by positivity)⟩
      dsimp only; rw [e1, cy_cycle hv]
      field_simp
      ring

theorem zpow_of_eq (a : K) (ha : 0 < a) {m r s k : ℤ} (h : m = r + k * s) : a ^ m = a ^ r * (a ^ s) ^ k := by
  rw [h, zpow_add₀ ha.ne', mul_comm k s, zpow_mul]

/-- `_solve_center` on monomials of one degree. -/
theorem solveCenter_sound (m1 m2 : Mon) (hd : m1.degree = m2.degree) {E : Val3 K} (h : solveCenter m1 m2 = some E) : AmGood m1 m2 E := by
  unfold solveCenter at h
  by_cases hc : m2.isCenter = false
  · rw [if_pos hc] at h; simp at h
  rw [if_neg hc] at h
  dsimp only at h
  have hcen : m2.x = m2.y ∧ m2.y = m2.z := by
    have : m2.isCenter = true := by simpa using hc
    unfold Mon.isCenter at this
    exact of_decide_eq_true this
  have hstd := degree_std m1
  have hcy : ∀ a b c : K, cy m1 a b c = cy m1.std a b c := fun a b c => (cy_std m1 a b c).symm
  have hd' : m1.std.x + m1.std.y + m1.std.z = 3 * m2.x := by
    simp only [Mon.degree] at hd hstd
    rw [hstd, hd, ← hcen.2, ← hcen.1]
    ring
  have hcm2 : ∀ a b c : K, cy m2 a b c = 3 * (a ^ m2.x * b ^ m2.x * c ^ m2.x) := by
    intro a b c
    simp only [cy, cyc3, monZ]
    rw [← hcen.2, ← hcen.1]
    ring
  generalize m1.std = M at *
  generalize hdd : m2.x = d at *
  -- the two ways to the monomials with two equal exponents
  have close : ∀ (v : Mon) (e g : Val3 K), AmGood M v e → (∀ a b c : K, 0 < a → 0 < b → 0 < c → g a b c = cy v a b c - cy m2 a b c ∧ 0 ≤ g a b c) →
      AmGood m1 m2 fun a b c => e a b c + g a b c := by
    intro v e g h1 h2 a b c ha hb hc
    obtain ⟨x1, x2⟩ := h1 a b c ha hb hc
    obtain ⟨y1, y2⟩ := h2 a b c ha hb hc
    refine ⟨?_, by positivity⟩
    dsimp only; rw [x1, y1, hcy]
    ring
  have low : ∀ r : ℤ, ∀ a b c : K, 0 < a → 0 < b → 0 < c →
      cycp3 (fun a _ _ => a ^ r) a b c * cyc3 (fun a _ _ => a ^ (d - r)) a b c * cyc3 (fun a b _ => (a ^ (d - r) - b ^ (d - r)) ^ 2) a b c / 2
        = cy ⟨3 * d - 2 * r, r, r⟩ a b c - cy m2 a b c ∧
      0 ≤ cycp3 (fun a _ _ => a ^ r) a b c * cyc3 (fun a _ _ => a ^ (d - r)) a b c * cyc3 (fun a b _ => (a ^ (d - r) - b ^ (d - r)) ^ 2) a b c / 2 := by
    intro r a b c ha hb hc
    rw [hcm2]
    simp only [cy, cyc3, cycp3, monZ]
    have e1 : ∀ t : K, 0 < t → t ^ (3 * d - 2 * r) = t ^ r * (t ^ (d - r)) ^ 3 := fun t ht => by
      rw [zpow_of_eq t ht (show 3 * d - 2 * r = r + 3 * (d - r) by ring)]; norm_cast
    have e2 : ∀ t : K, 0 < t → t ^ d = t ^ r * t ^ (d - r) := fun t ht => by rw [← zpow_add₀ ht.ne']; congr 1; ring
    rw [e1 a ha, e1 b hb, e1 c hc, e2 a ha, e2 b hb, e2 c hc]
    have := zpow_pos ha r
    have := zpow_pos hb r
    have := zpow_pos hc r
    have := zpow_pos ha (d - r)
    have := zpow_pos hb (d - r)
    have := zpow_pos hc (d - r)
    generalize a ^ (d - r) = A at *
    generalize b ^ (d - r) = B at *
    generalize c ^ (d - r) = D at *
    exact ⟨by ring, by positivity⟩
  have high : ∀ r : ℤ, ∀ a b c : K, 0 < a → 0 < b → 0 < c →
      cycp3 (fun a _ _ => a ^ (3 * d - 2 * r)) a b c * cyc3 (fun a b _ => a ^ (r - d) * b ^ (r - d)) a b c * cyc3 (fun a b c => a ^ (2 * (r - d)) * (b ^ (r - d) - c ^ (r - d)) ^ 2) a b c / 2
        = cy ⟨r, r, 3 * d - 2 * r⟩ a b c - cy m2 a b c ∧
      0 ≤ cycp3 (fun a _ _ => a ^ (3 * d - 2 * r)) a b c * cyc3 (fun a b _ => a ^ (r - d) * b ^ (r - d)) a b c * cyc3 (fun a b c => a ^ (2 * (r - d)) * (b ^ (r - d) - c ^ (r - d)) ^ 2) a b c / 2 := by
    intro r a b c ha hb hc
    rw [hcm2]
    simp only [cy, cyc3, cycp3, monZ]
    have e1 : ∀ t : K, 0 < t → t ^ r = t ^ (3 * d - 2 * r) * (t ^ (r - d)) ^ 3 := fun t ht => by
      rw [zpow_of_eq t ht (show r = (3 * d - 2 * r) + 3 * (r - d) by ring)]; norm_cast
    have e2 : ∀ t : K, 0 < t → t ^ d = t ^ (3 * d - 2 * r) * (t ^ (r - d)) ^ 2 := fun t ht => by
      rw [zpow_of_eq t ht (show d = (3 * d - 2 * r) + 2 * (r - d) by ring)]; norm_cast
    have e3 : ∀ t : K, 0 < t → t ^ (2 * (r - d)) = (t ^ (r - d)) ^ 2 := fun t ht => by
      rw [mul_comm, zpow_mul]; norm_cast
    rw [e1 a ha, e1 b hb, e1 c hc, e2 a ha, e2 b hb, e2 c hc, e3 a ha, e3 b hb, e3 c hc]
    have := zpow_pos ha (3 * d - 2 * r)
    have := zpow_pos hb (3 * d - 2 * r)
    have := zpow_pos hc (3 * d - 2 * r)
    have := zpow_pos ha (r - d)
    have := zpow_pos hb (r - d)
    have := zpow_pos hc (r - d)
    generalize a ^ (r - d) = A at *
    generalize b ^ (r - d) = B at *
    generalize c ^ (r - d) = D at *
    exact ⟨by ring, by positivity⟩
  have split3 : ∀ (t : K) (s r k : ℤ), 0 < t → t ^ (r + k * s) = t ^ r * (t ^ s) ^ k := fun t s r k ht => zpow_of_eq t ht rfl
  by_cases c1 : M.y < d ∧ M.z < d
  · rw [if_pos c1] at h
    by_cases c2 : M.y ≤ M.z
    · simp only [if_pos c2] at h
      cases hs : centerFirst (K := K) M ⟨3 * d - 2 * M.z, M.z, M.z⟩ ⟨M.z, 3 * d - 2 * M.z, M.z⟩ with
      | none => rw [hs] at h; simp at h
      | some e =>
        rw [hs] at h
        simp only [Option.map_some, Option.some.injEq] at h
        subst h
        refine close _ e _ (centerFirst_sound hs (by simp only [Mon.degree]; linarith) (by simp [Mon.cycle, Mon.next]) ?_) (low M.z)
        unfold OnLine
        have : M.x = 3 * d - M.y - M.z := by linarith
        simp only [this]
        ring
    · simp only [if_neg c2] at h
      cases hs : centerFirst (K := K) M ⟨3 * d - 2 * M.y, M.y, M.y⟩ ⟨M.y, M.y, 3 * d - 2 * M.y⟩ with
      | none => rw [hs] at h; simp at h
      | some e =>
        rw [hs] at h
        simp only [Option.map_some, Option.some.injEq] at h
        subst h
        refine close _ e _ (centerFirst_sound hs (by simp only [Mon.degree]; linarith) (by simp [Mon.cycle, Mon.next]) ?_) (low M.y)
        unfold OnLine
        ring
  rw [if_neg c1] at h
  by_cases c2 : M.y = d
  · rw [if_pos c2] at h
    simp only [Option.some.injEq] at h
    subst h
    intro a b c ha hb hc
    rw [hcy, hcm2]
    simp only [cy, cyc3, cycp3, monZ]
    have hx : M.x = M.z + 2 * (d - M.z) := by linarith
    have hy : M.y = M.z + 1 * (d - M.z) := by linarith
    have hdm : d = M.z + 1 * (d - M.z) := by ring
    rw [hx, hy]
    have e1 : ∀ t : K, 0 < t → t ^ d = t ^ M.z * (t ^ (d - M.z)) ^ (1 : ℤ) := fun t ht => zpow_of_eq t ht hdm
    rw [split3 a _ _ 2 ha, split3 b _ _ 2 hb, split3 c _ _ 2 hc, split3 a _ _ 1 ha, split3 b _ _ 1 hb, split3 c _ _ 1 hc, e1 a ha, e1 b hb, e1 c hc]
    have := zpow_pos ha (d - M.z)
    have := zpow_pos hb (d - M.z)
    have := zpow_pos hc (d - M.z)
    have := zpow_pos ha M.z
    have := zpow_pos hb M.z
    have := zpow_pos hc M.z
    generalize a ^ (d - M.z) = A at *
    generalize b ^ (d - M.z) = B at *
    generalize c ^ (d - M.z) = D at *
    norm_cast
    exact ⟨by field_simp; ring, by positivity⟩
  rw [if_neg c2] at h
  by_cases c3 : M.z = d
  · rw [if_pos c3] at h
    simp only [Option.some.injEq] at h
    subst h
    intro a b c ha hb hc
    rw [hcy, hcm2]
    simp only [cy, cyc3, cycp3, monZ]
    have hx : M.x = M.y + 2 * (d - M.y) := by linarith
    have hz : M.z = M.y + 1 * (d - M.y) := by linarith
    have hdm : d = M.y + 1 * (d - M.y) := by ring
    rw [hx, hz]
    have e1 : ∀ t : K, 0 < t → t ^ d = t ^ M.y * (t ^ (d - M.y)) ^ (1 : ℤ) := fun t ht => zpow_of_eq t ht hdm
    rw [split3 a _ _ 2 ha, split3 b _ _ 2 hb, split3 c _ _ 2 hc, split3 a _ _ 1 ha, split3 b _ _ 1 hb, split3 c _ _ 1 hc, e1 a ha, e1 b hb, e1 c hc]
    have := zpow_pos ha (d - M.y)
    have := zpow_pos hb (d - M.y)
    have := zpow_pos hc (d - M.y)
    have := zpow_pos ha M.y
    have := zpow_pos hb M.y
    have := zpow_pos hc M.y
    generalize a ^ (d - M.y) = A at *
    generalize b ^ (d - M.y) = B at *
    generalize c ^ (d - M.y) = D at *
    norm_cast
    exact ⟨by field_simp; ring, by positivity⟩
  rw [if_neg c3] at h
  by_cases c4 : d < M.y
  · simp only [if_pos c4] at h
    cases hs : centerFirst (K := K) M ⟨M.y, M.y, 3 * d - 2 * M.y⟩ ⟨3 * d - 2 * M.y, M.y, M.y⟩ with
    | none => rw [hs] at h; simp at h
    | some e =>
      rw [hs] at h
      simp only [Option.map_some, Option.some.injEq] at h
      subst h
      refine close _ e _ (centerFirst_sound hs (by simp only [Mon.degree]; linarith) (by simp [Mon.cycle, Mon.next]) ?_) (high M.y)
      unfold OnLine
      ring
  · simp only [if_neg c4] at h
    -- here the code looks at the wrong rotation, and finds nothing
    exfalso
    have hyz : M.y < d := lt_of_le_of_ne (not_lt.1 c4) c2
    have hz : d < M.z := by
      by_contra hz
      exact c1 ⟨hyz, lt_of_le_of_ne (not_lt.1 hz) c3⟩
    cases hs : centerFirst (K := K) M ⟨M.z, M.z, 3 * d - 2 * M.z⟩ ⟨M.z, 3 * d - 2 * M.z, M.z⟩ with
    | none => rw [hs] at h; simp at h
    | some e =>
      unfold centerFirst at hs
      by_cases e1 : M = ⟨M.z, M.z, 3 * d - 2 * M.z⟩
      · have := congrArg Mon.z e1
        dsimp only at this
        omega
      · rw [if_neg e1] at hs
        cases hl : localIneq (K := K) M ⟨M.z, M.z, 3 * d - 2 * M.z⟩ ⟨M.z, 3 * d - 2 * M.z, M.z⟩ with
        | none => rw [hl] at hs; simp at hs
        | some t =>
          have := localIneq_dot hl
          simp only [Mon.dot, Mon.sub] at this
          nlinarith

theorem AmGood.cycle {m1 m2 p : Mon} {E : Val3 K} (h : AmGood m1 p E) (hp : p ∈ m2.cycle) : AmGood m1 m2 E := by
  intro a b c ha hb hc
  obtain ⟨h1, h2⟩ := h a b c ha hb hc
  exact ⟨by rw [h1, cy_cycle hp], h2⟩

theorem AmGood.trans {m1 m2 m3 : Mon} {E F : Val3 K} (h : AmGood m1 m2 E) (h' : AmGood m2 m3 F) : AmGood m1 m3 fun a b c => E a b c + F a b c := by
  intro a b c ha hb hc
  obtain ⟨h1, h2⟩ := h a b c ha hb hc
  obtain ⟨h3, h4⟩ := h' a b c ha hb hc
  exact ⟨by dsimp only; rw [h1, h3]; ring, add_nonneg h2 h4⟩

/-- From `p1` between `m1` and `p`, and `s(m1) ≥ s(p)`. -/
theorem AmGood.between {m1 p1 p : Mon} {s : Val3 K × ℕ × ℕ} {e : Val3 K} (hs : localIneq m1 p1 p = some s) (h1 : p1.degree = m1.degree) (h2 : p.degree = p1.degree)
    (hl : OnLine m1 p1 p) (he : AmGood m1 p e) :
    AmGood m1 p1 fun a b c => s.1 a b c / ((s.2.1 : K) + s.2.2) + e a b c * s.2.2 / ((s.2.1 : K) + s.2.2) := by
  obtain ⟨px, py, hE⟩ := localIneq_some hs h1 h2 hl
  intro a b c ha hb hc
  obtain ⟨e1, e2⟩ := hE a b c ha hb hc
  obtain ⟨e3, e4⟩ := he a b c ha hb hc
  have hx : (0 : K) < s.2.1 := by exact_mod_cast px
  have hy : (0 : K) < s.2.2 := by exact_mod_cast py
  refine ⟨?_, ?_⟩
  · dsimp only
    rw [e1, e3]
    field_simp
    ring
  · have := div_nonneg e2 (show (0 : K) ≤ (s.2.1 : K) + s.2.2 by positivity)
    have := div_nonneg (mul_nonneg e4 hy.le) (show (0 : K) ≤ (s.2.1 : K) + s.2.2 by positivity)
    dsimp only
    linarith

theorem intersection_spec {p1 p2 p3 p4 p : Mon} (h : Mon.intersection p1 p2 p3 p4 = some p) :
    p.degree = p1.degree ∧ OnLine p1 p2 p ∧ OnLine p3 p4 p := by
  unfold Mon.intersection at h
  dsimp only at h
  split_ifs at h with hc
  push Not at hc
  obtain ⟨h0, h1, h2⟩ := hc
  simp only [Option.some.injEq] at h
  generalize hdet : p1.x * p3.y - p1.x * p4.y - p1.y * p3.x + p1.y * p4.x - p2.x * p3.y + p2.x * p4.y + p2.y * p3.x - p2.y * p4.x = det at *
  have ex := Int.mul_fdiv_add_fmod (p1.x * p2.y * p3.x - p1.x * p2.y * p4.x - p1.x * p3.x * p4.y + p1.x * p3.y * p4.x - p1.y * p2.x * p3.x + p1.y * p2.x * p4.x +
      p2.x * p3.x * p4.y - p2.x * p3.y * p4.x) det
  have ey := Int.mul_fdiv_add_fmod (p1.x * p2.y * p3.y - p1.x * p2.y * p4.y - p1.y * p2.x * p3.y + p1.y * p2.x * p4.y - p1.y * p3.x * p4.y + p1.y * p3.y * p4.x +
      p2.y * p3.x * p4.y - p2.y * p3.y * p4.x) det
  rw [h1, add_zero] at ex
  rw [h2, add_zero] at ey
  generalize (p1.x * p2.y * p3.x - p1.x * p2.y * p4.x - p1.x * p3.x * p4.y + p1.x * p3.y * p4.x - p1.y * p2.x * p3.x + p1.y * p2.x * p4.x +
      p2.x * p3.x * p4.y - p2.x * p3.y * p4.x).fdiv det = X at *
  generalize (p1.x * p2.y * p3.y - p1.x * p2.y * p4.y - p1.y * p2.x * p3.y + p1.y * p2.x * p4.y - p1.y * p3.x * p4.y + p1.y * p3.y * p4.x +
      p2.y * p3.x * p4.y - p2.y * p3.y * p4.x).fdiv det = Y at *
  subst h
  refine ⟨by simp only [Mon.degree]; ring, ?_, ?_⟩
  · unfold OnLine
    apply mul_left_cancel₀ h0
    rw [mul_zero]
    subst hdet
    linear_combination (p1.y - p2.y) * ex + (p2.x - p1.x) * ey
  · unfold OnLine
    apply mul_left_cancel₀ h0
    rw [mul_zero]
    subst hdet
    linear_combination (p3.y - p4.y) * ex + (p4.x - p3.x) * ey

theorem dot_neg (m1 p1 p : Mon) : (m1.sub p1).dot (p1.sub p) = (p1.sub m1).dot (p.sub p1) := by
  simp only [Mon.dot, Mon.sub]
  ring

theorem firstReturn_spec {α β : Type*} (step : α → Except PyErr (Option β)) (P : β → Prop) : ∀ l : List α,
    (∀ x ∈ l, ∃ r, step x = .ok r ∧ ∀ v, r = some v → P v) → ∃ r, firstReturn step l = .ok r ∧ ∀ v, r = some v → P v
  | [], _ => ⟨none, rfl, by simp⟩
  | x :: xs, h => by
    obtain ⟨r, hr, hP⟩ := h x (by simp)
    rw [firstReturn, hr]
    cases r with
    | none =>
      obtain ⟨r', hr', hP'⟩ := firstReturn_spec step P xs fun y hy => h y (by simp [hy])
      exact ⟨r', hr', hP'⟩
    | some v => exact ⟨some v, rfl, hP⟩

theorem spiralA_sound (m1 m2 p1 : Mon) (hd : m1.degree = m2.degree) (hp1 : p1 ∈ m2.cycle) :
    ∃ r, spiralA (K := K) m1 p1 = .ok r ∧ ∀ v, r = some v → ∀ E, v = some E → AmGood m1 m2 E := by
  unfold spiralA
  cases hi : Mon.intersection m1 p1 m1.next m1.next.next with
  | none => exact ⟨none, rfl, by simp⟩
  | some p =>
    dsimp only
    obtain ⟨pd, pl, -⟩ := intersection_spec hi
    have p1d := degree_cycle hp1
    by_cases hdot : 0 < (m1.sub p1).dot (p1.sub p)
    · rw [if_pos hdot]
      obtain ⟨r, hr, hg⟩ := solveCirc_sound (K := K) m1 p pd.symm
      rw [hr]
      dsimp only [Except.bind]
      cases hl : localIneq (K := K) m1 p1 p with
      | none => exact ⟨none, rfl, by simp⟩
      | some s =>
        cases r with
        | none => exact ⟨none, rfl, by simp⟩
        | some e =>
          refine ⟨_, rfl, ?_⟩
          intro v hv E hE
          cases hv
          cases hE
          exact (AmGood.between hl (by rw [p1d, hd]) (by rw [pd, p1d, hd]) pl (hg e rfl)).cycle hp1
    · rw [if_neg hdot]
      exact ⟨none, rfl, by simp⟩

theorem spiralB_sound (m1 m2 : Mon) (pp : Mon × Mon) (hd : m1.degree = m2.degree) (hp1 : pp.1 ∈ m2.cycle) :
    ∃ r, spiralB (K := K) m1 pp = .ok r ∧ ∀ v, r = some v → ∀ E, v = some E → AmGood m1 m2 E := by
  unfold spiralB
  cases hi : Mon.intersection m1 pp.1 m1.next pp.2 with
  | none => exact ⟨none, rfl, by simp⟩
  | some p =>
    dsimp only
    obtain ⟨pd, pl, -⟩ := intersection_spec hi
    have p1d := degree_cycle hp1
    by_cases hdot : 0 < (m1.sub pp.1).dot (pp.1.sub p)
    · rw [if_pos hdot]
      by_cases hcen : p.isCenter = true
      · rw [if_pos hcen]
        cases hs : solveCenter (K := K) m1 p with
        | none => exact ⟨some none, rfl, by simp⟩
        | some e =>
          dsimp only
          obtain ⟨E, x, y, hl, -⟩ := localIneq_spec (K := K) m1 pp.1 p (by rw [p1d, hd]) (by rw [pd, p1d, hd]) pl (by rw [← dot_neg]; exact hdot)
          rw [hl]
          refine ⟨_, rfl, ?_⟩
          intro v hv F hF
          cases hv
          cases hF
          exact (AmGood.between hl (by rw [p1d, hd]) (by rw [pd, p1d, hd]) pl (solveCenter_sound m1 p pd.symm hs)).cycle hp1
      · rw [if_neg hcen]
        obtain ⟨r, hr, hg⟩ := solveCirc_sound (K := K) m1 p pd.symm
        rw [hr]
        dsimp only [Except.bind]
        cases hl : localIneq (K := K) m1 pp.1 p with
        | none => exact ⟨none, rfl, by simp⟩
        | some s =>
          cases r with
          | none => exact ⟨none, rfl, by simp⟩
          | some e =>
            refine ⟨_, rfl, ?_⟩
            intro v hv E hE
            cases hv
            cases hE
            have := (AmGood.between hl (by rw [p1d, hd]) (by rw [pd, p1d, hd]) pl (hg e rfl)).cycle hp1
            intro a b c ha hb hc
            obtain ⟨e1, e2⟩ := this a b c ha hb hc
            dsimp only at e1 e2 ⊢
            rw [add_div]
            exact ⟨e1, e2⟩
    · rw [if_neg hdot]
      obtain ⟨r, hr, hg⟩ := solveCirc_sound (K := K) m1 p pd.symm
      obtain ⟨r', hr', hg'⟩ := solveCirc_sound (K := K) p pp.1 (by rw [pd, p1d, hd])
      rw [hr, hr']
      dsimp only [Except.bind]
      cases r with
      | none => exact ⟨none, rfl, by simp⟩
      | some e =>
        cases r' with
        | none => exact ⟨none, rfl, by simp⟩
        | some e' =>
          refine ⟨_, rfl, ?_⟩
          intro v hv E hE
          cases hv
          cases hE
          exact ((hg e rfl).trans (hg' e' rfl)).cycle hp1

theorem spiralC_sound (m1 m2 : Mon) (pp : Mon × Mon) (hd : m1.degree = m2.degree) (hp1 : pp.1 ∈ m2.cycle) :
    ∃ r, spiralC (K := K) m1 pp = .ok r ∧ ∀ v, r = some v → ∀ E, v = some E → AmGood m1 m2 E := by
  unfold spiralC
  cases hi : Mon.intersection m1 m1.next pp.1 pp.2 with
  | none => exact ⟨none, rfl, by simp⟩
  | some p =>
    dsimp only
    obtain ⟨pd, pl, -⟩ := intersection_spec hi
    have p1d := degree_cycle hp1
    by_cases hdot : 0 < (m1.sub p).dot (p.sub m1.next)
    · rw [if_pos hdot]
      obtain ⟨r, hr, hg⟩ := solveCirc_sound (K := K) p pp.1 (by rw [pd, p1d, hd])
      rw [hr]
      dsimp only [Except.bind]
      cases hl : localIneq (K := K) m1 p m1.next with
      | none => exact ⟨none, rfl, by simp⟩
      | some s =>
        cases r with
        | none => exact ⟨none, rfl, by simp⟩
        | some e =>
          refine ⟨_, rfl, ?_⟩
          intro v hv E hE
          cases hv
          cases hE
          obtain ⟨px, py, hE⟩ := localIneq_some hl pd (by rw [degree_next, pd]) pl.swap'
          have first : AmGood m1 p fun a b c => s.1 a b c / ((s.2.1 : K) + s.2.2) := by
            intro a b c ha hb hc
            obtain ⟨e1, e2⟩ := hE a b c ha hb hc
            have hx : (0 : K) < s.2.1 := by exact_mod_cast px
            have hy : (0 : K) < s.2.2 := by exact_mod_cast py
            refine ⟨?_, div_nonneg e2 (by positivity)⟩
            dsimp only
            rw [e1, cy_next]
            field_simp
            ring
          exact (first.trans (hg e rfl)).cycle hp1
    · rw [if_neg hdot]
      exact ⟨none, rfl, by simp⟩

/-- `_solve_spiral1` on monomials of one degree: it never fails (in particular never indexes a missing solution). -/
theorem solveSpiral1_sound (m1 m2 : Mon) (hd : m1.degree = m2.degree) :
    ∃ r, solveSpiral1 (K := K) m1 m2 = .ok r ∧ ∀ E, r = some E → AmGood m1 m2 E := by
  unfold solveSpiral1
  dsimp only
  obtain ⟨r, hr, hP⟩ := firstReturn_spec (spiralA (K := K) m1) (fun v => ∀ E, v = some E → AmGood m1 m2 E) m2.cycle fun p hp => spiralA_sound m1 m2 p hd hp
  rw [hr]
  dsimp only [Except.bind]
  cases r with
  | some v => exact ⟨v, rfl, hP v rfl⟩
  | none =>
    dsimp only
    have k0 : m2 ∈ m2.cycle := by simp [Mon.cycle]
    have k1 : m2.next ∈ m2.cycle := by simp [Mon.cycle]
    have k2 : m2.next.next ∈ m2.cycle := by simp [Mon.cycle]
    obtain ⟨r, hr, hP⟩ := firstReturn_spec (spiralB (K := K) m1) (fun v => ∀ E, v = some E → AmGood m1 m2 E)
      [(m2, m2.next), (m2, m2.next.next), (m2.next, m2), (m2.next, m2.next.next), (m2.next.next, m2), (m2.next.next, m2.next)]
      fun p hp => spiralB_sound m1 m2 p hd (by
        simp only [List.mem_cons, List.not_mem_nil, or_false] at hp
        rcases hp with rfl | rfl | rfl | rfl | rfl | rfl <;> assumption)
    rw [hr]
    dsimp only
    cases r with
    | some v => exact ⟨v, rfl, hP v rfl⟩
    | none =>
      dsimp only
      obtain ⟨r, hr, hP⟩ := firstReturn_spec (spiralC (K := K) m1) (fun v => ∀ E, v = some E → AmGood m1 m2 E)
        [(m2, m2.next), (m2, m2.next.next), (m2.next, m2.next.next)]
        fun p hp => spiralC_sound m1 m2 p hd (by
          simp only [List.mem_cons, List.not_mem_nil, or_false] at hp
          rcases hp with rfl | rfl | rfl <;> assumption)
      rw [hr]
      dsimp only
      cases r with
      | some v => exact ⟨v, rfl, hP v rfl⟩
      | none => exact ⟨none, rfl, by simp⟩

theorem degree_spiralMid (m1 m2 : Mon) : (spiralMid m1 m2).degree = m1.degree := by
  rw [← degree_std m1]
  unfold spiralMid
  dsimp only
  split_ifs <;> simp only [Mon.degree] <;> ring

/-- `_solve` on monomials of one degree: the only failure is the depth of the recursion. -/
theorem amgmSolve_sound : ∀ (fuel : ℕ) (m1 m2 : Mon), m1.degree = m2.degree →
    amgmSolve (K := K) fuel m1 m2 = .error (.custom "RecursionError") ∨ ∃ r, amgmSolve (K := K) fuel m1 m2 = .ok r ∧ ∀ E, r = some E → AmGood m1 m2 E
  | 0, _, _, _ => .inl rfl
  | fuel + 1, m1, m2, hd => by
    unfold amgmSolve
    cases hs : solveCenter (K := K) m1 m2 with
    | some e =>
      right
      refine ⟨some e, rfl, ?_⟩
      intro E hE
      cases hE
      exact solveCenter_sound m1 m2 hd hs
    | none =>
      dsimp only
      obtain ⟨r, hr, hg⟩ := solveCirc_sound (K := K) m1 m2 hd
      rw [hr]
      dsimp only [Except.bind]
      cases r with
      | some e => exact .inr ⟨some e, rfl, hg⟩
      | none =>
        dsimp only
        obtain ⟨r, hr, hg⟩ := solveSpiral1_sound (K := K) m1 m2 hd
        rw [hr]
        dsimp only
        cases r with
        | some e => exact .inr ⟨some e, rfl, hg⟩
        | none =>
          dsimp only
          split_ifs
          · have hv := degree_spiralMid m1 m2
            rcases amgmSolve_sound fuel m1.std (spiralMid m1 m2) (by rw [degree_std, hv]) with h1 | ⟨r1, h1, g1⟩
            · rw [h1]; exact .inl rfl
            rcases amgmSolve_sound fuel (spiralMid m1 m2) m2 (by rw [hv, hd]) with h2 | ⟨r2, h2, g2⟩
            · rw [h1, h2]; exact .inl rfl
            rw [h1, h2]
            right
            cases r1 with
            | none => exact ⟨none, rfl, by simp⟩
            | some e1 =>
              cases r2 with
              | none => exact ⟨none, rfl, by simp⟩
              | some e2 =>
                refine ⟨_, rfl, ?_⟩
                intro E hE
                cases hE
                intro a b c ha hb hc
                obtain ⟨x1, x2⟩ := (g1 e1 rfl).trans (g2 e2 rfl) a b c ha hb hc
                exact ⟨by rw [x1, cy_std], x2⟩
          · exact .inr ⟨none, rfl, by simp⟩

/-- **C68.** `AMGM3.solve` on two monomials of one degree: an answer equals the polynomial at every positive point, and it is nonnegative there. -/
theorem amgm3_sound (fuel : ℕ) (c1 c2 : K) (m1 m2 : Mon) (hd : m1.degree = m2.degree) {E : Val3 K} (h : amgm3 fuel c1 m1 c2 m2 = .ok (some E))
    (a b c : K) (ha : 0 < a) (hb : 0 < b) (hc : 0 < c) :
    E a b c = c1 * cyc3 (monZ m1) a b c + c2 * cyc3 (monZ m2) a b c ∧ 0 ≤ E a b c := by
  have n1 := cy_nonneg m1 ha hb hc
  have n2 := cy_nonneg m2 ha hb hc
  unfold amgm3 at h
  by_cases h1 : 0 ≤ c1 ∧ 0 ≤ c2
  · rw [if_pos h1] at h
    cases h
    exact ⟨rfl, add_nonneg (mul_nonneg h1.1 n1) (mul_nonneg h1.2 n2)⟩
  rw [if_neg h1] at h
  by_cases h2 : c1 < 0 ∧ c2 < 0
  · rw [if_pos h2] at h; simp at h
  rw [if_neg h2] at h
  by_cases h3 : 0 ≤ c1 + c2
  swap
  · rw [if_neg h3] at h; simp at h
  rw [if_pos h3] at h
  by_cases h4 : 0 ≤ c2 ∧ m2.incl m1 = true
  · rw [if_pos h4] at h
    rcases amgmSolve_sound (K := K) fuel m2 m1 hd.symm with he | ⟨r, hr, hg⟩
    · rw [he] at h; simp [Except.bind] at h
    rw [hr] at h
    dsimp only [Except.bind] at h
    cases r with
    | none => simp at h
    | some e =>
      cases h
      obtain ⟨e1, e2⟩ := hg e rfl a b c ha hb hc
      change c2 * e a b c + (c2 + c1) * cy m1 a b c = c1 * cy m1 a b c + c2 * cy m2 a b c ∧ 0 ≤ c2 * e a b c + (c2 + c1) * cy m1 a b c
      refine ⟨by rw [e1]; ring, ?_⟩
      have := mul_nonneg h4.1 e2
      have := mul_nonneg h3 n1
      linarith
  rw [if_neg h4] at h
  by_cases h5 : 0 ≤ c1 ∧ m1.incl m2 = true
  · rw [if_pos h5] at h
    rcases amgmSolve_sound (K := K) fuel m1 m2 hd with he | ⟨r, hr, hg⟩
    · rw [he] at h; simp [Except.bind] at h
    rw [hr] at h
    dsimp only [Except.bind] at h
    cases r with
    | none => simp at h
    | some e =>
      cases h
      obtain ⟨e1, e2⟩ := hg e rfl a b c ha hb hc
      change c1 * e a b c + (c1 + c2) * cy m2 a b c = c1 * cy m1 a b c + c2 * cy m2 a b c ∧ 0 ≤ c1 * e a b c + (c1 + c2) * cy m2 a b c
      refine ⟨by rw [e1]; ring, ?_⟩
      have := mul_nonneg h5.1 e2
      have := mul_nonneg h3 n2
      linarith
  · rw [if_neg h5] at h; simp at h

/-- The only failure of `AMGM3.solve` on monomials of one degree is the depth of the recursion. -/
theorem amgm3_error (fuel : ℕ) (c1 c2 : K) (m1 m2 : Mon) (hd : m1.degree = m2.degree) {e : PyErr} (h : amgm3 (K := K) fuel c1 m1 c2 m2 = .error e) :
    e = .custom "RecursionError" := by
  unfold amgm3 at h
  split_ifs at h
  · rcases amgmSolve_sound (K := K) fuel m2 m1 hd.symm with he | ⟨r, hr, -⟩
    · rw [he] at h; cases h; rfl
    · rw [hr] at h; cases h
  · rcases amgmSolve_sound (K := K) fuel m1 m2 hd with he | ⟨r, hr, -⟩
    · rw [he] at h; cases h; rfl
    · rw [hr] at h; cases h

/-- The value of a result at a point. -/
def valAt (r : Except PyErr (Option (Val3 K))) (a b c : K) : Option K :=
  match r with
  | .ok (some E) => some (E a b c)
  | _ => none

-- s(a^6 b^5 c - a^4 b^4 c^4), s(a^9 c^4 - a^8 b c^4), s(a^5 b - a^3 b^2 c) and s(a^4 b^4 - a^3 b^3 c^2)
example : valAt (amgm3 (K := ℚ) 3 1 ⟨6, 5, 1⟩ (-1) ⟨4, 4, 4⟩) 1 2 3 = some (cyc3 (monZ ⟨6, 5, 1⟩) 1 2 3 - cyc3 (monZ ⟨4, 4, 4⟩) 1 2 3) := by decide +kernel
example : valAt (amgm3 (K := ℚ) 3 2 ⟨9, 0, 4⟩ (-1) ⟨8, 1, 4⟩) 1 2 3 = some (2 * cyc3 (monZ ⟨9, 0, 4⟩) 1 2 3 - cyc3 (monZ ⟨8, 1, 4⟩) 1 2 3) := by decide +kernel
example : valAt (amgm3 (K := ℚ) 3 (-1) ⟨3, 3, 2⟩ 1 ⟨4, 4, 0⟩) 1 2 3 = some (cyc3 (monZ ⟨4, 4, 0⟩) 1 2 3 - cyc3 (monZ ⟨3, 3, 2⟩) 1 2 3) := by decide +kernel

/-- The degrees must agree: `AMGM3.solve(1, (6,0,0), -1, (1,1,1))` returns an expression, although `s(a^6 - abc)` is negative at `a = b = c = 1/2`;
`assert_equal_degree` is given one monomial only and so never complains. -/
theorem amgm3_degrees_wrong : ∃ E : Val3 ℚ, amgm3 3 1 ⟨6, 0, 0⟩ (-1) ⟨1, 1, 1⟩ = .ok (some E) ∧
    E (1/2) (1/2) (1/2) ≠ cyc3 (monZ ⟨6, 0, 0⟩) (1/2) (1/2) (1/2) - cyc3 (monZ ⟨1, 1, 1⟩) (1/2) (1/2) (1/2) := by
  have h : (match amgm3 (K := ℚ) 3 1 ⟨6, 0, 0⟩ (-1) ⟨1, 1, 1⟩ with
    | .ok (some E) => decide (E (1/2) (1/2) (1/2) ≠ cyc3 (monZ ⟨6, 0, 0⟩) (1/2) (1/2) (1/2) - cyc3 (monZ ⟨1, 1, 1⟩) (1/2) (1/2) (1/2))
    | _ => false) = true := by decide +kernel
  split at h
  · rename_i E hE
    exact ⟨E, hE, of_decide_eq_true h⟩
  · simp at h

/-! ### The sparse solver -/

theorem std_next (m : Mon) : m.next.std = m.std := by
  obtain ⟨x, y, z⟩ := m
  simp only [Mon.std, Mon.next]
  rcases Bool.eq_false_or_eq_true (Mon.ge ⟨x, y, z⟩ ⟨y, z, x⟩) with hA | hA <;> rcases Bool.eq_false_or_eq_true (Mon.ge ⟨y, z, x⟩ ⟨z, x, y⟩) with hB | hB <;>
    rcases Bool.eq_false_or_eq_true (Mon.ge ⟨x, y, z⟩ ⟨z, x, y⟩) with hC | hC <;> rcases Bool.eq_false_or_eq_true (Mon.ge ⟨y, z, x⟩ ⟨x, y, z⟩) with hD | hD <;>
    rcases Bool.eq_false_or_eq_true (Mon.ge ⟨z, x, y⟩ ⟨x, y, z⟩) with hF | hF <;> simp [hA, hB, hC, hD, hF] <;>
    simp only [Mon.ge, decide_eq_true_eq, decide_eq_false_iff_not] at * <;> omega

theorem std_of_cycle {m p : Mon} (h : p ∈ m.cycle) : p.std = m.std := by
  simp only [Mon.cycle, List.mem_cons, List.not_mem_nil, or_false] at h
  rcases h with rfl | rfl | rfl
  · rfl
  · exact std_next _
  · rw [std_next, std_next]

theorem std_std (m : Mon) : m.std.std = m.std := std_of_cycle (std_mem m)

theorem mem_cycle_symm {m p : Mon} (h : p ∈ m.cycle) : m ∈ p.cycle := by
  obtain ⟨x, y, z⟩ := m
  simp only [Mon.cycle, Mon.next, List.mem_cons, List.not_mem_nil, or_false] at h
  rcases h with rfl | rfl | rfl <;> simp [Mon.cycle, Mon.next]

/-- The exponents are not negative. -/
def Mon.Nn (m : Mon) : Prop := 0 ≤ m.x ∧ 0 ≤ m.y ∧ 0 ≤ m.z

theorem nn_cycle {m p : Mon} (h : p ∈ m.cycle) (hm : m.Nn) : p.Nn := by
  obtain ⟨x, y, z⟩ := m
  simp only [Mon.cycle, Mon.next, List.mem_cons, List.not_mem_nil, or_false] at h
  unfold Mon.Nn at *
  rcases h with rfl | rfl | rfl <;> simp_all

theorem ofKey_nn (k : List ℕ) : (Mon.ofKey k).Nn := by
  unfold Mon.Nn Mon.ofKey
  simp

theorem ofKey_key {m : Mon} (h : m.Nn) : Mon.ofKey m.key = m := by
  obtain ⟨x, y, z⟩ := m
  unfold Mon.Nn at h
  simp only [Mon.ofKey, Mon.key, Mon.mk.injEq]
  simp
  omega

theorem key_ofKey {k : List ℕ} (h : k.length = 3) : (Mon.ofKey k).key = k := by
  match k, h with
  | [x, y, z], _ => simp [Mon.ofKey, Mon.key]

theorem key_inj {m n : Mon} (hm : m.Nn) (hn : n.Nn) (h : m.key = n.key) : m = n := by
  rw [← ofKey_key hm, ← ofKey_key hn, h]

theorem evalMonom_key {m : Mon} (h : m.Nn) (a b c : K) : Coeff.evalMonom m.key [a, b, c] = monZ m a b c := by
  obtain ⟨x, y, z⟩ := m
  unfold Mon.Nn at h
  obtain ⟨h1, h2, h3⟩ := h
  lift x to ℕ using h1
  lift y to ℕ using h2
  lift z to ℕ using h3
  simp [Coeff.evalMonom, Mon.key, monZ, mul_assoc]

/-- The keys of the cyclic sum of `m`. -/
def rotKeys (m : Mon) : List (List ℕ) := (m.cycle.map Mon.key).dedup

theorem mem_rotKeys {m : Mon} {k : List ℕ} : k ∈ rotKeys m ↔ ∃ p ∈ m.cycle, p.key = k := by
  unfold rotKeys
  rw [List.mem_dedup, List.mem_map]

theorem sum_rotKeys (co : Coeff K) (m : Mon) (hm : m.Nn) (hrot : ∀ x y z : ℕ, co.call [y, z, x] = co.call [x, y, z]) (a b c : K) :
    ((rotKeys m).map fun k => co.call k * Coeff.evalMonom k [a, b, c]).sum = getv co m * cy m a b c := by
  have n1 : m.next ∈ m.cycle := by simp [Mon.cycle]
  have n2 : m.next.next ∈ m.cycle := by simp [Mon.cycle]
  have c1 : co.call m.next.key = co.call m.key := by
    simp only [Mon.key, Mon.next]; exact hrot _ _ _
  have c2 : co.call m.next.next.key = co.call m.key := by
    rw [← c1]; simp only [Mon.key, Mon.next]; exact hrot _ _ _
  by_cases hc : m.isCenter = true
  · have he : m.x = m.y ∧ m.y = m.z := by
      unfold Mon.isCenter at hc
      exact of_decide_eq_true hc
    have e1 : m.next = m := by
      obtain ⟨x, y, z⟩ := m
      simp only at he
      obtain ⟨rfl, rfl⟩ := he
      rfl
    have : rotKeys m = [m.key] := by
      unfold rotKeys Mon.cycle
      rw [e1, e1]
      simp
    rw [this]
    unfold getv cy cyc3
    rw [if_pos hc]
    have k1 : monZ m b c a = monZ m a b c := by
      simp only [monZ]; rw [← he.2, ← he.1]; ring
    have k2 : monZ m c a b = monZ m a b c := by
      simp only [monZ]; rw [← he.2, ← he.1]; ring
    rw [k1, k2]
    simp only [List.map_cons, List.map_nil, List.sum_cons, List.sum_nil, evalMonom_key hm]
    ring
  · have hne : ¬ (m.x = m.y ∧ m.y = m.z) := fun h => hc (by unfold Mon.isCenter; exact decide_eq_true h)
    have d1 : m ≠ m.next := by
      intro h
      apply hne
      have := congrArg Mon.x h
      have := congrArg Mon.y h
      simp only [Mon.next] at *
      omega
    have d2 : m ≠ m.next.next := by
      intro h
      apply hne
      have := congrArg Mon.x h
      have := congrArg Mon.y h
      simp only [Mon.next] at *
      omega
    have d3 : m.next ≠ m.next.next := by
      intro h
      apply hne
      have := congrArg Mon.x h
      have := congrArg Mon.y h
      simp only [Mon.next] at *
      omega
    have hnd : ([m.key, m.next.key, m.next.next.key] : List (List ℕ)).Nodup := by
      simp only [List.nodup_cons, List.mem_cons, List.not_mem_nil, or_false, not_or, not_false_eq_true, List.nodup_nil, and_true]
      exact ⟨⟨fun h => d1 (key_inj hm (nn_cycle n1 hm) h), fun h => d2 (key_inj hm (nn_cycle n2 hm) h)⟩, fun h => d3 (key_inj (nn_cycle n1 hm) (nn_cycle n2 hm) h)⟩
    have : rotKeys m = [m.key, m.next.key, m.next.next.key] := by
      unfold rotKeys Mon.cycle
      exact List.Nodup.dedup hnd
    rw [this]
    unfold getv
    rw [if_neg hc]
    simp only [List.map_cons, List.map_nil, List.sum_cons, List.sum_nil, evalMonom_key hm, evalMonom_key (nn_cycle n1 hm), evalMonom_key (nn_cycle n2 hm), c1, c2]
    simp only [cy, cyc3, monZ, Mon.next]
    ring

theorem mem_monomClasses {co : Coeff K} {m : Mon} (h : m ∈ monomClasses co) : m.Nn ∧ m.std = m ∧ ∃ kv ∈ co.coeffs, m = (Mon.ofKey kv.1).std := by
  unfold monomClasses at h
  rw [List.mem_dedup, List.mem_map] at h
  obtain ⟨kv, hkv, rfl⟩ := h
  exact ⟨nn_cycle (std_mem _) (ofKey_nn _), std_std _, kv, hkv, rfl⟩

/-- A cyclic polynomial is the sum over its classes of monomials. -/
theorem evalDict_classes (co : Coeff K) (h : co.WF) (hn : co.nvars = 3) (hc : co.isCyclicDefault = true) (a b c : K) :
    Coeff.evalDict co.coeffs [a, b, c] = ((monomClasses co).map fun m => getv co m * cy m a b c).sum := by
  have hrot := (Coeff.isCyclicDefault_iff co h (by omega)).1 hc
  have r1 : ∀ x y z : ℕ, co.call [y, z, x] = co.call [x, y, z] := fun x y z => hrot [x, y, z] 1 (by simp [hn])
  have key : ∀ l : List Mon, (∀ m ∈ l, m.Nn ∧ m.std = m) → l.Nodup → (l.flatMap rotKeys).Nodup := by
    intro l
    induction l with
    | nil => simp
    | cons m l ih =>
      intro hm hnd
      rw [List.nodup_cons] at hnd
      rw [List.flatMap_cons, List.nodup_append]
      refine ⟨List.nodup_dedup _, ih (fun n hn => hm n (by simp [hn])) hnd.2, ?_⟩
      intro k hk k' hk' hkk
      subst hkk
      obtain ⟨n, hn, hk'⟩ := List.mem_flatMap.1 hk'
      obtain ⟨p, hp, rfl⟩ := mem_rotKeys.1 hk
      obtain ⟨q, hq, hqk⟩ := mem_rotKeys.1 hk'
      obtain ⟨m1, m2⟩ := hm m (by simp)
      obtain ⟨n1, n2⟩ := hm n (by simp [hn])
      have : q = p := key_inj (nn_cycle hq n1) (nn_cycle hp m1) hqk
      subst this
      have : m = n := by rw [← m2, ← n2, ← std_of_cycle hp, ← std_of_cycle hq]
      exact hnd.1 (this ▸ hn)
  rw [Coeff.evalDict_eq_sum_of_keys co.coeffs h.nodup ((monomClasses co).flatMap rotKeys) (key _ (fun m hm => ⟨(mem_monomClasses hm).1, (mem_monomClasses hm).2.1⟩) (List.nodup_dedup _))]
  · have : ∀ l : List Mon, (∀ m ∈ l, m.Nn) →
        ((l.flatMap rotKeys).map fun k => (dget co.coeffs k).getD 0 * Coeff.evalMonom k [a, b, c]).sum = (l.map fun m => getv co m * cy m a b c).sum := by
      intro l
      induction l with
      | nil => simp
      | cons m l ih =>
        intro hm
        rw [List.flatMap_cons, List.map_append, List.sum_append, ih fun n hn => hm n (by simp [hn]), List.map_cons, List.sum_cons]
        congr 1
        exact sum_rotKeys co m (hm m (by simp)) r1 a b c
    exact this _ fun m hm => (mem_monomClasses hm).1
  · intro k hk
    unfold dkeys at hk
    rw [List.mem_map] at hk
    obtain ⟨kv, hkv, rfl⟩ := hk
    rw [List.mem_flatMap]
    refine ⟨(Mon.ofKey kv.1).std, ?_, ?_⟩
    · unfold monomClasses
      rw [List.mem_dedup, List.mem_map]
      exact ⟨kv, hkv, rfl⟩
    · rw [mem_rotKeys]
      exact ⟨Mon.ofKey kv.1, mem_cycle_symm (std_mem _), key_ofKey (by rw [h.length kv hkv, hn])⟩

theorem degree_ofKey {k : List ℕ} (h : k.length = 3) : (Mon.ofKey k).degree = k.sum := by
  match k, h with
  | [x, y, z], _ => simp [Mon.ofKey, Mon.degree]; ring

/-- **C68.** The sparse solver on a cyclic homogeneous polynomial in three variables, other than a multiple of `s(a^d)`: an answer equals the polynomial at every
positive point, and it is nonnegative there. -/
theorem sparseAmgm_sound_partial (fuel : ℕ) (order : List Mon → List Mon) (ho : ∀ l, (order l).Perm l) (co : Coeff K) (h : co.WF) (hn : co.nvars = 3) (d : ℕ)
    (hd : co.Hom d) (hdeg : co.degree = d) (hc : co.isCyclicDefault = true) (hnd : monomClasses co ≠ [⟨d, 0, 0⟩]) {E : Val3 K}
    (hE : sparseAmgm fuel order co = .ok (some E)) (a b c : K) (ha : 0 < a) (hb : 0 < b) (hc' : 0 < c) :
    E a b c = Coeff.evalDict co.coeffs [a, b, c] ∧ 0 ≤ E a b c := by
  rw [evalDict_classes co h hn hc]
  have hdc : ∀ m ∈ monomClasses co, m.degree = d := by
    intro m hm
    obtain ⟨-, -, kv, hkv, rfl⟩ := mem_monomClasses hm
    rw [degree_std, degree_ofKey (by rw [h.length kv hkv, hn]), hd kv hkv]
  have hp := ho (monomClasses co)
  rw [← (hp.map fun m => getv co m * cy m a b c).sum_eq]
  unfold sparseAmgm at hE
  by_cases h6 : 6 < co.coeffs.length
  · rw [if_pos h6] at hE; simp at hE
  rw [if_neg h6] at hE
  dsimp only at hE
  by_cases h1 : (order (monomClasses co)).length = 1
  · rw [if_pos h1] at hE
    obtain ⟨m, hm⟩ := List.length_eq_one_iff.1 h1
    have hmem : m ∈ monomClasses co := hp.mem_iff.1 (by rw [hm]; simp)
    have hcl : monomClasses co = [m] := List.perm_singleton.1 (by rw [← hm]; exact hp.symm)
    rw [hm] at hE ⊢
    simp only [List.cons_append, List.nil_append] at hE
    rw [hdeg] at hE
    obtain ⟨e1, e2⟩ := amgm3_sound fuel _ _ _ _ (by rw [hdc m hmem]; simp [Mon.degree]) hE a b c ha hb hc'
    refine ⟨?_, e2⟩
    have hz : getv co ⟨d, 0, 0⟩ = 0 := by
      by_contra hne
      have hcall : co.call (Mon.key ⟨d, 0, 0⟩) ≠ 0 := by
        intro h0
        apply hne
        unfold getv
        rw [h0]
        simp
      have hk := Coeff.mem_of_call_ne_zero h hcall
      have : (Mon.ofKey (Mon.key ⟨d, 0, 0⟩)).std ∈ monomClasses co := by
        unfold monomClasses
        rw [List.mem_dedup, List.mem_map]
        exact ⟨_, hk, rfl⟩
      rw [ofKey_key (by simp [Mon.Nn])] at this
      have hst : Mon.std ⟨d, 0, 0⟩ = ⟨d, 0, 0⟩ := by
        have g1 : Mon.ge ⟨d, 0, 0⟩ ⟨0, 0, d⟩ = true := by unfold Mon.ge; exact decide_eq_true (by dsimp only; omega)
        have g2 : Mon.ge ⟨d, 0, 0⟩ ⟨0, d, 0⟩ = true := by unfold Mon.ge; exact decide_eq_true (by dsimp only; omega)
        simp [Mon.std, Mon.next, g1, g2]
      rw [hst, hcl, List.mem_singleton] at this
      exact hnd (by rw [hcl, this])
    rw [e1, hz]
    simp [cy]
  · rw [if_neg h1] at hE
    split at hE
    · rename_i m n hmn
      rw [hmn]
      have m1 : m ∈ monomClasses co := hp.mem_iff.1 (by rw [hmn]; simp)
      have m2 : n ∈ monomClasses co := hp.mem_iff.1 (by rw [hmn]; simp)
      obtain ⟨e1, e2⟩ := amgm3_sound fuel _ _ _ _ (by rw [hdc m m1, hdc n m2]) hE a b c ha hb hc'
      refine ⟨?_, e2⟩
      rw [e1]
      simp [cy]
    · simp at hE

/-- `3*s(a^6) - 3*s(a^4 b c)` meets the hypotheses. -/
example : let co : Coeff ℚ := ⟨[([6, 0, 0], 3), ([4, 1, 1], -3), ([1, 4, 1], -3), ([1, 1, 4], -3), ([0, 6, 0], 3), ([0, 0, 6], 3)], 3⟩
    co.WF ∧ co.nvars = 3 ∧ co.Hom 6 ∧ co.isCyclicDefault = true ∧ monomClasses co ≠ [⟨6, 0, 0⟩] ∧
      valAt (sparseAmgm 3 id co) 1 2 3 = some (Coeff.evalDict co.coeffs [1, 2, 3]) :=
  ⟨⟨by decide +kernel, by decide +kernel⟩, by decide +kernel, by unfold Coeff.Hom; decide +kernel, by decide +kernel, by decide +kernel, by decide +kernel⟩

/-- The full claim is false: `s(a^5)` is answered by `2*s(a^5)`, because the monomial `(degree, 0, 0)` is appended to a list that already holds it. -/
theorem sparseAmgm_wrong : ∃ co : Coeff ℚ, co.WF ∧ co.nvars = 3 ∧ co.Hom 5 ∧ co.isCyclicDefault = true ∧
    valAt (sparseAmgm 3 id co) 1 1 1 = some 6 ∧ Coeff.evalDict co.coeffs [1, 1, 1] = 3 :=
  ⟨⟨[([5, 0, 0], 1), ([0, 5, 0], 1), ([0, 0, 5], 1)], 3⟩, ⟨by decide +kernel, by decide +kernel⟩, rfl, by unfold Coeff.Hom; decide +kernel, by decide +kernel,
    by decide +kernel, by decide +kernel⟩

end Verif.Ternary
