import Verif.Model.TernaryPH
import Verif.Props.TernaryCubic
import Mathlib.Tactic.Ring
import Mathlib.Tactic.Linarith
import Mathlib.Tactic.FieldSimp

/-!
# C49: the structures `Pnrms` and `Hnmr`

The dictionary and the expression of both structures have the value of the documented polynomial at every point, and the polynomials are nonnegative for nonnegative
variables in the documented range of exponents.
-/

set_option linter.unusedSectionVars false
set_option linter.overlappingInstances false

namespace Verif.Ternary

open Verif

variable {K : Type*} [Field K] [LinearOrder K] [IsStrictOrderedRing K]

theorem pCoeff_value (n r m s : ℕ) (v a b c : K) :
    Coeff.evalDict (pCoeff n r m s v).coeffs [a, b, c]
      = v * ((a ^ n * (b ^ r - c ^ r) + b ^ n * (c ^ r - a ^ r) + c ^ n * (a ^ r - b ^ r)) * (a ^ m * (b ^ s - c ^ s) + b ^ m * (c ^ s - a ^ s) + c ^ m * (a ^ s - b ^ s))) := by
  rw [pCoeff]
  unfold pRaw
  simp only [Coeff.ofDict, TermsPoly.evalDict_collect]
  simp only [Coeff.evalDict, Coeff.evalMonom, List.map_cons, List.map_nil, List.sum_cons, List.sum_nil, List.zipWith_cons_cons, List.zipWith_nil_left, List.zipWith_nil_right, List.prod_cons,
    List.prod_nil, pow_add]
  ring

theorem halfSide_spec {n r : ℕ} {f : Val3 K} (h : halfSide n r = some f) (a b c : K) :
    f a b c * ((b - a) * (c - b) * (a - c)) = a ^ n * (b ^ r - c ^ r) + b ^ n * (c ^ r - a ^ r) + c ^ n * (a ^ r - b ^ r) := by
  unfold halfSide at h
  split at h
  · unfold halfTable at h
    split at h <;> first
      | (cases h; done)
      | (cases h; simp only [cyc3, cycp3]; ring)
  · cases h

theorem pExpr_value (n r m s : ℕ) (v a b c : K) :
    pExpr n r m s v a b c
      = v * ((a ^ n * (b ^ r - c ^ r) + b ^ n * (c ^ r - a ^ r) + c ^ n * (a ^ r - b ^ r)) * (a ^ m * (b ^ s - c ^ s) + b ^ m * (c ^ s - a ^ s) + c ^ m * (a ^ s - b ^ s))) := by
  unfold pExpr
  split
  · rename_i h
    rcases h with rfl | rfl | rfl | rfl <;> simp <;> ring_nf <;> simp
  · rcases h1 : halfSide (K := K) n r with _ | f1
    · simp only [cyc3]
    · rcases h2 : halfSide (K := K) m s with _ | f2
      · simp only [cyc3]
      · rw [← halfSide_spec h1, ← halfSide_spec h2]
        simp only [cycp3]
        ring

/-! ### Nonnegativity of `Pnrms` -/

theorem cross_pow {b c : K} (hb : 0 ≤ b) (hbc : b ≤ c) {r n : ℕ} (h : r ≤ n) : b ^ n * c ^ r ≤ c ^ n * b ^ r := by
  obtain ⟨k, rfl⟩ := Nat.exists_eq_add_of_le h
  have h1 : b ^ k ≤ c ^ k := pow_le_pow_left₀ hb hbc k
  have h2 : 0 ≤ b ^ r * c ^ r := mul_nonneg (pow_nonneg hb r) (pow_nonneg (hb.trans hbc) r)
  rw [pow_add, pow_add]
  nlinarith [mul_le_mul_of_nonneg_left h1 h2]

/-- The quotient `(x^n - a^n) / (x - a)`. -/
def hh (a x : K) : ℕ → K
  | 0 => 0
  | n + 1 => x ^ n + a * hh a x n

theorem hh_mul (a x : K) (n : ℕ) : (x - a) * hh a x n = x ^ n - a ^ n := by
  induction n with
  | zero => simp [hh]
  | succ n ih => rw [hh, mul_add, ← mul_assoc, mul_comm (x - a) a, mul_assoc, ih]; ring

theorem hh_cross1 {a b c : K} (ha : 0 ≤ a) (hb : 0 ≤ b) (hbc : b ≤ c) {n : ℕ} : ∀ r, r ≤ n → b ^ n * hh a c r ≤ c ^ n * hh a b r
  | 0, _ => by simp [hh]
  | r + 1, h => by
    have h1 := hh_cross1 ha hb hbc r (Nat.le_of_succ_le h)
    have h2 := cross_pow hb hbc (Nat.le_of_succ_le h)
    rw [hh, hh]
    nlinarith [mul_le_mul_of_nonneg_left h1 ha]

theorem hh_cross {a b c : K} (ha : 0 ≤ a) (hb : 0 ≤ b) (hbc : b ≤ c) (r k : ℕ) : hh a b (r + k) * hh a c r ≤ hh a c (r + k) * hh a b r := by
  induction k with
  | zero => rw [add_zero, mul_comm]
  | succ k ih =>
    have h1 := hh_cross1 ha hb hbc r (Nat.le_add_right r k)
    rw [← add_assoc, hh, hh]
    nlinarith [mul_le_mul_of_nonneg_left ih ha]

theorem half_sign {n r : ℕ} (h : r ≤ n) {a b c : K} (ha : 0 ≤ a) (hab : a ≤ b) (hbc : b ≤ c) :
    a ^ n * (b ^ r - c ^ r) + b ^ n * (c ^ r - a ^ r) + c ^ n * (a ^ r - b ^ r) ≤ 0 := by
  obtain ⟨k, rfl⟩ := Nat.exists_eq_add_of_le h
  have h1 := hh_cross ha (ha.trans hab) hbc r k
  have e : a ^ (r + k) * (b ^ r - c ^ r) + b ^ (r + k) * (c ^ r - a ^ r) + c ^ (r + k) * (a ^ r - b ^ r)
      = (b ^ (r + k) - a ^ (r + k)) * (c ^ r - a ^ r) - (c ^ (r + k) - a ^ (r + k)) * (b ^ r - a ^ r) := by ring
  rw [e, ← hh_mul, ← hh_mul, ← hh_mul, ← hh_mul]
  have h2 : 0 ≤ (b - a) * (c - a) := mul_nonneg (sub_nonneg.2 hab) (sub_nonneg.2 (hab.trans hbc))
  nlinarith [mul_le_mul_of_nonneg_left h1 h2]

/-- `Pnrms` is nonnegative for nonnegative variables when `n ≥ r` and `m ≥ s`. -/
theorem pnrms_nonneg {n r m s : ℕ} (h1 : r ≤ n) (h2 : s ≤ m) {a b c : K} (ha : 0 ≤ a) (hb : 0 ≤ b) (hc : 0 ≤ c) :
    0 ≤ (a ^ n * (b ^ r - c ^ r) + b ^ n * (c ^ r - a ^ r) + c ^ n * (a ^ r - b ^ r)) * (a ^ m * (b ^ s - c ^ s) + b ^ m * (c ^ s - a ^ s) + c ^ m * (a ^ s - b ^ s)) := by
  have key : ∀ x y z : K, 0 ≤ x → x ≤ y → y ≤ z →
      0 ≤ (x ^ n * (y ^ r - z ^ r) + y ^ n * (z ^ r - x ^ r) + z ^ n * (x ^ r - y ^ r)) * (x ^ m * (y ^ s - z ^ s) + y ^ m * (z ^ s - x ^ s) + z ^ m * (x ^ s - y ^ s)) :=
    fun x y z hx hxy hyz => mul_nonneg_of_nonpos_of_nonpos (half_sign h1 hx hxy hyz) (half_sign h2 hx hxy hyz)
  rcases le_total a b with hab | hab <;> rcases le_total b c with hbc | hbc <;> rcases le_total a c with hac | hac
  · exact key a b c ha hab hbc
  · exact key a b c ha hab hbc
  · have := key a c b ha hac hbc; linarith
  · have := key c a b hc hac hab; linarith
  · have := key b a c hb hab hac; linarith
  · have := key b c a hb hbc hac; linarith
  · have := key c b a hc hbc hab; linarith
  · have := key c b a hc hbc hab; linarith

/-! ### `Hnmr` -/

theorem hCoeff_value {n : ℤ} (hn : 0 ≤ n) (m r : ℕ) (v a b c : K) :
    Coeff.evalDict (hCoeff n m r v).coeffs [a, b, c]
      = v * (a ^ n.toNat * (b ^ m + c ^ m) * (a ^ r - b ^ r) * (a ^ r - c ^ r) + b ^ n.toNat * (c ^ m + a ^ m) * (b ^ r - c ^ r) * (b ^ r - a ^ r)
        + c ^ n.toNat * (a ^ m + b ^ m) * (c ^ r - a ^ r) * (c ^ r - b ^ r)) := by
  rw [hCoeff, if_pos hn]
  generalize n.toNat = n
  unfold hRaw
  simp only [Coeff.ofDict, TermsPoly.evalDict_collect]
  simp only [Coeff.evalDict, Coeff.evalMonom, List.map_cons, List.map_nil, List.sum_cons, List.sum_nil, List.zipWith_cons_cons, List.zipWith_nil_left, List.zipWith_nil_right, List.prod_cons,
    List.prod_nil, pow_add]
  ring

theorem hCoeff_value_neg {n : ℤ} (hn : n < 0) (m r : ℕ) (v a b c : K) :
    Coeff.evalDict (hCoeff n m r v).coeffs [a, b, c]
      = v * (b ^ (-n).toNat * c ^ (-n).toNat * (b ^ m + c ^ m) * (a ^ r - b ^ r) * (a ^ r - c ^ r) + c ^ (-n).toNat * a ^ (-n).toNat * (c ^ m + a ^ m) * (b ^ r - c ^ r) * (b ^ r - a ^ r)
        + a ^ (-n).toNat * b ^ (-n).toNat * (a ^ m + b ^ m) * (c ^ r - a ^ r) * (c ^ r - b ^ r)) := by
  rw [hCoeff, if_neg (not_le.2 hn)]
  generalize (-n).toNat = n
  unfold hRawNeg
  simp only [Coeff.ofDict, TermsPoly.evalDict_collect]
  simp only [Coeff.evalDict, Coeff.evalMonom, List.map_cons, List.map_nil, List.sum_cons, List.sum_nil, List.zipWith_cons_cons, List.zipWith_nil_left, List.zipWith_nil_right, List.prod_cons,
    List.prod_nil, pow_add]
  ring

theorem hTable_spec {q : ℕ} {f : Val3 K} (h : hTable q = some f) (a b c : K) :
    f a b c = a ^ q * (b + c) * (a - b) * (a - c) + b ^ q * (c + a) * (b - c) * (b - a) + c ^ q * (a + b) * (c - a) * (c - b) := by
  unfold hTable at h
  split at h <;> first
    | (cases h; done)
    | (cases h; simp only [cyc3, cycp3]; ring)

theorem hTable2_spec {n r : ℕ} {f : Val3 K} (h : hTable2 n r = some f) (hw : r ≠ 2 * n) (a b c : K) :
    f a b c = a ^ n * (b ^ r + c ^ r) * (a ^ r - b ^ r) * (a ^ r - c ^ r) + b ^ n * (c ^ r + a ^ r) * (b ^ r - c ^ r) * (b ^ r - a ^ r)
      + c ^ n * (a ^ r + b ^ r) * (c ^ r - a ^ r) * (c ^ r - b ^ r) := by
  unfold hTable2 at h
  split at h <;> first
    | (cases h; done)
    | (exact absurd rfl hw)
    | (cases h; simp only [cyc3, cycp3]; ring)

theorem hTabled_spec {n r : ℕ} (hr : r ≠ 0) {f : Val3 K} (h : hTabled n r = some f) (hw : r = 2 * n → n = 1) (a b c : K) :
    f a b c = a ^ n * (b ^ r + c ^ r) * (a ^ r - b ^ r) * (a ^ r - c ^ r) + b ^ n * (c ^ r + a ^ r) * (b ^ r - c ^ r) * (b ^ r - a ^ r)
      + c ^ n * (a ^ r + b ^ r) * (c ^ r - a ^ r) * (c ^ r - b ^ r) := by
  unfold hTabled at h
  split at h
  · rename_i h1
    obtain ⟨g, hg, e⟩ := Option.map_eq_some_iff.1 h
    subst e
    have e1 : r * (n / r) = n := Nat.mul_div_cancel' (Nat.dvd_of_mod_eq_zero h1.1)
    simp only [hTable_spec hg, ← pow_mul, e1]
  · split at h
    · rename_i h1
      obtain ⟨rfl, h2⟩ := h1
      obtain ⟨k, rfl⟩ := Nat.exists_eq_add_of_le h2
      cases h
      have e1 : 2 + k - 1 = k + 1 := by omega
      have e2 : 2 + k - 2 = k := by omega
      simp only [pExpr_value, cyc3, cycp3, e1, e2]
      ring
    · rename_i h0 h1
      obtain ⟨g, hg, e⟩ := Option.map_eq_some_iff.1 h
      subst e
      have e1 : Nat.gcd n r * (n / Nat.gcd n r) = n := Nat.mul_div_cancel' (Nat.gcd_dvd_left n r)
      have e2 : Nat.gcd n r * (r / Nat.gcd n r) = r := Nat.mul_div_cancel' (Nat.gcd_dvd_right n r)
      have e3 : r / Nat.gcd n r ≠ 2 * (n / Nat.gcd n r) := by
        intro e
        have e4 : r = 2 * n := by
          rw [e] at e2
          nlinarith
        have := hw e4
        exact h1 ⟨this, by omega⟩
      simp only [hTable2_spec hg e3, ← pow_mul, e1, e2]

theorem hFraction_spec (n r : ℕ) (a b c : K) :
    hFraction n r r a b c = a ^ n * (b ^ r + c ^ r) * (a ^ r - b ^ r) * (a ^ r - c ^ r) + b ^ n * (c ^ r + a ^ r) * (b ^ r - c ^ r) * (b ^ r - a ^ r)
      + c ^ n * (a ^ r + b ^ r) * (c ^ r - a ^ r) * (c ^ r - b ^ r) := by
  unfold hFraction
  split
  · rename_i h
    obtain ⟨k, rfl⟩ := Nat.exists_eq_add_of_le h
    simp only [pExpr_value, cyc3]
    by_cases h0 : ((a ^ r - b ^ r) ^ 2 + (b ^ r - c ^ r) ^ 2 + (c ^ r - a ^ r) ^ 2) / 2 = 0
    · have h1 : a ^ r - b ^ r = 0 := by nlinarith [sq_nonneg (a ^ r - b ^ r), sq_nonneg (b ^ r - c ^ r), sq_nonneg (c ^ r - a ^ r)]
      have h2 : b ^ r - c ^ r = 0 := by nlinarith [sq_nonneg (a ^ r - b ^ r), sq_nonneg (b ^ r - c ^ r), sq_nonneg (c ^ r - a ^ r)]
      have h3 : c ^ r - a ^ r = 0 := by linarith
      rw [h0, div_zero, h1, h2, h3]; ring
    · rw [div_eq_iff h0]
      ring
  · rename_i h
    simp only [pExpr_value]
    by_cases h0 : cyc3 (fun a b c => a ^ (2 * r) * (b ^ r - c ^ r) ^ 2) a b c / 2 = 0
    · rw [h0, div_zero]
      simp only [cyc3, pow_mul', sq] at h0
      have h1 : a ^ r * (b ^ r - c ^ r) = 0 := by
        nlinarith [sq_nonneg (a ^ r * (b ^ r - c ^ r)), sq_nonneg (b ^ r * (c ^ r - a ^ r)), sq_nonneg (c ^ r * (a ^ r - b ^ r))]
      have h2 : b ^ r * (c ^ r - a ^ r) = 0 := by
        nlinarith [sq_nonneg (a ^ r * (b ^ r - c ^ r)), sq_nonneg (b ^ r * (c ^ r - a ^ r)), sq_nonneg (c ^ r * (a ^ r - b ^ r))]
      have h3 : c ^ r * (a ^ r - b ^ r) = 0 := by linarith
      have key : ∀ A B C : K, A * (B - C) = 0 → B * (C - A) = 0 → (B + C) * (A - B) * (A - C) = 0 := by
        intro A B C h h'
        rcases mul_eq_zero.1 h with h | h
        · subst h
          linear_combination (B + C) * h'
        · have : B = C := by linarith
          subst this
          linear_combination (2 * (B - A)) * h'
      linear_combination (-a ^ n) * key _ _ _ h1 h2 - b ^ n * key _ _ _ h2 h3 - c ^ n * key _ _ _ h3 h1
    · rw [div_eq_iff h0]
      simp only [cyc3, cycp3]
      split
      · rename_i h1
        obtain ⟨k, rfl⟩ := Nat.exists_eq_add_of_le h1
        rw [Nat.add_sub_cancel_left]
        ring
      · rename_i h1
        obtain ⟨k, rfl⟩ := Nat.exists_eq_add_of_le (Nat.le_of_not_le h1)
        rw [Nat.add_sub_cancel_left]
        ring

theorem hFlat_spec (n m r : ℕ) (hr : r ≠ 0) (hw : m = r → r = 2 * n → n = 1) (a b c : K) :
    hFlat n m r a b c = a ^ n * (b ^ m + c ^ m) * (a ^ r - b ^ r) * (a ^ r - c ^ r) + b ^ n * (c ^ m + a ^ m) * (b ^ r - c ^ r) * (b ^ r - a ^ r)
      + c ^ n * (a ^ m + b ^ m) * (c ^ r - a ^ r) * (c ^ r - b ^ r) := by
  unfold hFlat
  split
  · rename_i h; subst h; simp only [cyc3]; ring
  split
  · rename_i h; subst h
    split
    · rename_i h
      obtain ⟨k, rfl⟩ := Nat.exists_eq_add_of_le h
      rw [Nat.add_sub_cancel_left]
      simp only [cyc3, cycp3]; ring
    · rename_i h
      obtain ⟨k, rfl⟩ := Nat.exists_eq_add_of_le (Nat.le_of_not_le h)
      rw [Nat.add_sub_cancel_left]
      simp only [cyc3, cycp3]; ring
  split
  · rename_i h; subst h
    rcases h1 : hTabled (K := K) n m with _ | f
    · exact hFraction_spec n m a b c
    · exact hTabled_spec hr h1 (hw rfl) a b c
  · simp only [cyc3]

/-- `Hnmr.as_expr` for `n ≥ 0`, with the exception of the wrong table entry. -/
theorem hExpr_value_partial {n : ℤ} (hn : 0 ≤ n) (m r : ℕ) (hw : m = r → (r : ℤ) = 2 * n → n = 1 ∨ n = 0) (v a b c : K) :
    hExpr n m r v a b c
      = v * (a ^ n.toNat * (b ^ m + c ^ m) * (a ^ r - b ^ r) * (a ^ r - c ^ r) + b ^ n.toNat * (c ^ m + a ^ m) * (b ^ r - c ^ r) * (b ^ r - a ^ r)
        + c ^ n.toNat * (a ^ m + b ^ m) * (c ^ r - a ^ r) * (c ^ r - b ^ r)) := by
  obtain ⟨n, rfl⟩ := Int.eq_ofNat_of_zero_le hn
  unfold hExpr
  split
  · rename_i h; subst h; simp
  rename_i hr
  rw [Int.toNat_natCast]
  dsimp only
  congr 1
  unfold hPos
  rw [if_neg hr]
  split
  · rename_i h
    obtain ⟨h1, h2, rfl, h4⟩ := h
    obtain ⟨k, rfl⟩ := Nat.exists_eq_add_of_le h4
    have e1 : 2 * r - r = r := by omega
    rw [Nat.add_sub_cancel_left, Nat.sub_self, e1]
    dsimp only
    rw [hFlat_spec k 0 r hr (fun h => absurd h.symm hr), pExpr_value]
    simp only [cycp3]
    ring
  · exact hFlat_spec n m r hr (fun h1 h2 => by have := hw h1 (by exact_mod_cast h2); omega) a b c

/-- `Hnmr.as_expr` for `n < 0`. -/
theorem hExpr_value_neg {n : ℤ} (hn : n < 0) (m r : ℕ) (v a b c : K) :
    hExpr n m r v a b c
      = v * (b ^ (-n).toNat * c ^ (-n).toNat * (b ^ m + c ^ m) * (a ^ r - b ^ r) * (a ^ r - c ^ r) + c ^ (-n).toNat * a ^ (-n).toNat * (c ^ m + a ^ m) * (b ^ r - c ^ r) * (b ^ r - a ^ r)
        + a ^ (-n).toNat * b ^ (-n).toNat * (a ^ m + b ^ m) * (c ^ r - a ^ r) * (c ^ r - b ^ r)) := by
  unfold hExpr
  split
  · rename_i h; subst h; simp
  rename_i hr
  rw [if_neg (not_le.2 hn)]
  generalize (-n).toNat = p
  split
  · rename_i h; subst h; simp only [cyc3]; ring
  · simp only [cyc3]

/-- The entry `(1, 2)` of the second table is wrong: `Hnmr.as_expr(2, 4, 4)` is not the polynomial of `Hnmr.coeff(2, 4, 4)`. -/
theorem hExpr_wrong : hExpr 2 4 4 (1 : ℚ) 1 2 3 ≠ Coeff.evalDict (hCoeff 2 4 4 (1 : ℚ)).coeffs [1, 2, 3] := by decide +kernel

/-! ### Nonnegativity of `Hnmr` -/

theorem vornicu_first {A B C X Y Z : K} (h1 : B ≤ A) (h2 : C ≤ B) (hZ : 0 ≤ Z) (h : Y * (B - C) ≤ X * (A - C)) :
    0 ≤ X * (A - B) * (A - C) + Y * (B - C) * (B - A) + Z * (C - A) * (C - B) := by
  have e1 := mul_nonneg (sub_nonneg.2 h1) (sub_nonneg.2 h)
  have e2 := mul_nonneg hZ (mul_nonneg (sub_nonneg.2 (h2.trans h1)) (sub_nonneg.2 h2))
  nlinarith

theorem vornicu_last {A B C X Y Z : K} (h1 : B ≤ A) (h2 : C ≤ B) (hX : 0 ≤ X) (h : Y * (A - B) ≤ Z * (A - C)) :
    0 ≤ X * (A - B) * (A - C) + Y * (B - C) * (B - A) + Z * (C - A) * (C - B) := by
  have e1 := mul_nonneg (sub_nonneg.2 h2) (sub_nonneg.2 h)
  have e2 := mul_nonneg hX (mul_nonneg (sub_nonneg.2 (h2.trans h1)) (sub_nonneg.2 h1))
  nlinarith

/-- `Hnmr` is nonnegative for nonnegative variables when `n ≥ 0` and `n + r ≥ m`. -/
theorem hnmr_nonneg {n m r : ℕ} (h : m ≤ n + r) {a b c : K} (ha : 0 ≤ a) (hb : 0 ≤ b) (hc : 0 ≤ c) :
    0 ≤ a ^ n * (b ^ m + c ^ m) * (a ^ r - b ^ r) * (a ^ r - c ^ r) + b ^ n * (c ^ m + a ^ m) * (b ^ r - c ^ r) * (b ^ r - a ^ r)
      + c ^ n * (a ^ m + b ^ m) * (c ^ r - a ^ r) * (c ^ r - b ^ r) := by
  have key : ∀ x y z : K, 0 ≤ z → z ≤ y → y ≤ x →
      0 ≤ x ^ n * (y ^ m + z ^ m) * (x ^ r - y ^ r) * (x ^ r - z ^ r) + y ^ n * (z ^ m + x ^ m) * (y ^ r - z ^ r) * (y ^ r - x ^ r)
      + z ^ n * (x ^ m + y ^ m) * (z ^ r - x ^ r) * (z ^ r - y ^ r) := by
    intro x y z hz hzy hyx
    have hy : 0 ≤ y := hz.trans hzy
    have hx : 0 ≤ x := hy.trans hyx
    have hA : y ^ r ≤ x ^ r := pow_le_pow_left₀ hy hyx r
    have hB : z ^ r ≤ y ^ r := pow_le_pow_left₀ hz hzy r
    have hn : y ^ n ≤ x ^ n := pow_le_pow_left₀ hy hyx n
    apply vornicu_first hA hB (by positivity)
    have hzz : y ^ n * z ^ m * (y ^ r - z ^ r) ≤ x ^ n * z ^ m * (x ^ r - z ^ r) :=
      mul_le_mul (mul_le_mul_of_nonneg_right hn (by positivity)) (by linarith) (by linarith) (by positivity)
    have hxy : y ^ n * x ^ m * (y ^ r - z ^ r) ≤ x ^ n * y ^ m * (x ^ r - z ^ r) := by
      rcases le_total m n with hmn | hmn
      · exact mul_le_mul (cross_pow hy hyx hmn) (by linarith) (by linarith) (by positivity)
      · obtain ⟨k, rfl⟩ := Nat.exists_eq_add_of_le hmn
        have hk : k ≤ r := by omega
        have h1 : y ^ r * x ^ k ≤ x ^ r * y ^ k := cross_pow hy hyx hk
        have h2 : z ^ r * y ^ k ≤ z ^ r * x ^ k := mul_le_mul_of_nonneg_left (pow_le_pow_left₀ hy hyx k) (by positivity)
        have h3 : x ^ k * (y ^ r - z ^ r) ≤ y ^ k * (x ^ r - z ^ r) := by nlinarith
        have h4 : 0 ≤ x ^ n * y ^ n := by positivity
        rw [pow_add, pow_add]
        nlinarith [mul_le_mul_of_nonneg_left h3 h4]
    linarith
  rcases le_total a b with hab | hab <;> rcases le_total b c with hbc | hbc <;> rcases le_total a c with hac | hac
  · have := key c b a ha hab hbc; linarith
  · have := key c b a ha hab hbc; linarith
  · have := key b c a ha hac hbc; linarith
  · have := key b a c hc hac hab; linarith
  · have := key c a b hb hab hac; linarith
  · have := key a c b hb hbc hac; linarith
  · have := key a b c hc hbc hab; linarith
  · have := key a b c hc hbc hab; linarith

/-- `Hnmr` with the exponent `-n` is nonnegative for nonnegative variables. -/
theorem hnmr_neg_nonneg (n m r : ℕ) {a b c : K} (ha : 0 ≤ a) (hb : 0 ≤ b) (hc : 0 ≤ c) :
    0 ≤ b ^ n * c ^ n * (b ^ m + c ^ m) * (a ^ r - b ^ r) * (a ^ r - c ^ r) + c ^ n * a ^ n * (c ^ m + a ^ m) * (b ^ r - c ^ r) * (b ^ r - a ^ r)
        + a ^ n * b ^ n * (a ^ m + b ^ m) * (c ^ r - a ^ r) * (c ^ r - b ^ r) := by
  have key : ∀ x y z : K, 0 ≤ z → z ≤ y → y ≤ x →
      0 ≤ y ^ n * z ^ n * (y ^ m + z ^ m) * (x ^ r - y ^ r) * (x ^ r - z ^ r) + z ^ n * x ^ n * (z ^ m + x ^ m) * (y ^ r - z ^ r) * (y ^ r - x ^ r)
        + x ^ n * y ^ n * (x ^ m + y ^ m) * (z ^ r - x ^ r) * (z ^ r - y ^ r) := by
    intro x y z hz hzy hyx
    have hy : 0 ≤ y := hz.trans hzy
    have hx : 0 ≤ x := hy.trans hyx
    have hA : y ^ r ≤ x ^ r := pow_le_pow_left₀ hy hyx r
    have hB : z ^ r ≤ y ^ r := pow_le_pow_left₀ hz hzy r
    have hn : z ^ n ≤ y ^ n := pow_le_pow_left₀ hz hzy n
    have hm : z ^ m ≤ y ^ m := pow_le_pow_left₀ hz hzy m
    apply vornicu_last hA hB (by positivity)
    refine mul_le_mul (mul_le_mul ?_ (by linarith) (by positivity) (by positivity)) (by linarith) (by linarith) (by positivity)
    rw [mul_comm]
    exact mul_le_mul_of_nonneg_left hn (by positivity)
  rcases le_total a b with hab | hab <;> rcases le_total b c with hbc | hbc <;> rcases le_total a c with hac | hac
  · have := key c b a ha hab hbc; linarith
  · have := key c b a ha hab hbc; linarith
  · have := key b c a ha hac hbc; linarith
  · have := key b a c hc hac hab; linarith
  · have := key c a b hb hab hac; linarith
  · have := key a c b hb hbc hac; linarith
  · have := key a b c hc hbc hab; linarith
  · have := key a b c hc hbc hab; linarith

/-! ### Examples -/

example : (halfSide (K := ℚ) 7 4).isSome = true ∧ (halfSide (K := ℚ) 9 4).isSome = false := by decide +kernel
example : pExpr 7 4 5 3 (2 : ℚ) 1 2 3 = Coeff.evalDict (pCoeff 7 4 5 3 (2 : ℚ)).coeffs [1, 2, 3] ∧ pExpr 7 4 5 3 (2 : ℚ) 1 2 3 ≠ 0 := by decide +kernel
example : pExpr 9 4 5 3 (2 : ℚ) 1 2 3 = Coeff.evalDict (pCoeff 9 4 5 3 (2 : ℚ)).coeffs [1, 2, 3] := by decide +kernel
example : hExpr 3 6 3 (2 : ℚ) 1 2 3 = Coeff.evalDict (hCoeff 3 6 3 (2 : ℚ)).coeffs [1, 2, 3] ∧ hExpr 3 6 3 (2 : ℚ) 1 2 3 ≠ 0 := by decide +kernel
example : hExpr 7 3 3 (2 : ℚ) 1 2 3 = Coeff.evalDict (hCoeff 7 3 3 (2 : ℚ)).coeffs [1, 2, 3] := by decide +kernel
example : hExpr (-2) 4 3 (2 : ℚ) 1 2 3 = Coeff.evalDict (hCoeff (-2) 4 3 (2 : ℚ)).coeffs [1, 2, 3] := by decide +kernel

end Verif.Ternary
