import Verif.Model.TernaryRoots
import Mathlib.Algebra.Order.Field.Basic
import Mathlib.Tactic.FieldSimp
import Mathlib.Tactic.LinearCombination
import Mathlib.Tactic.Linarith
import Mathlib.Tactic.Positivity
import Mathlib.Tactic.Ring
import Mathlib.Algebra.Order.Ring.Rat

/-!
# Ternary roots: the parameters are exact, the tangents vanish
-/

set_option linter.unusedSectionVars false
set_option linter.unusedVariables false

namespace Verif.Roots

open Verif Verif.Ternary

variable {K : Type*} [Field K] [LinearOrder K] [IsStrictOrderedRing K]

/-- All three rotations. -/
def AllRot (f : Val3 K) (a b c : K) : Prop := f a b c = 0 ∧ f b c a = 0 ∧ f c a b = 0

/-- Some rotation. -/
def SomeRot (f : Val3 K) (a b c : K) : Prop := f a b c = 0 ∨ f b c a = 0 ∨ f c a b = 0

theorem AllRot.some {f : Val3 K} {a b c : K} (h : AllRot f a b c) : SomeRot f a b c := Or.inl h.1

/-! ### The parameters -/

theorem two_den (a b c : K) : 2 * den a b c = (a * b - b * c) ^ 2 + (b * c - c * a) ^ 2 + (c * a - a * b) ^ 2 := by unfold den; ring

theorem isCorner_iff (a b c : K) : isCorner a b c = true ↔ (a = 0 ∧ b = 0) ∨ (b = 0 ∧ c = 0) ∨ (c = 0 ∧ a = 0) := by
  unfold isCorner
  by_cases ha : a = 0 <;> by_cases hb : b = 0 <;> by_cases hc : c = 0 <;> simp [ha, hb, hc]

theorem isBorder_iff (a b c : K) : isBorder a b c = true ↔ a = 0 ∨ b = 0 ∨ c = 0 := by
  unfold isBorder
  by_cases ha : a = 0 <;> by_cases hb : b = 0 <;> by_cases hc : c = 0 <;> simp [ha, hb, hc]

theorem isSymmetric_iff (a b c : K) : isSymmetric a b c = true ↔ a = b ∨ b = c ∨ c = a := by
  unfold isSymmetric
  rw [decide_eq_true_iff]
  by_cases h1 : a = b
  · subst h1
    by_cases h2 : a = c
    · subst h2; simp [List.eraseDups_cons]
    · simp [List.eraseDups_cons, h2, Ne.symm h2]
  · by_cases h2 : b = c
    · subst h2; simp [List.eraseDups_cons, h1, Ne.symm h1]
    · by_cases h3 : c = a
      · subst h3; simp [List.eraseDups_cons, h1, Ne.symm h1, h2, Ne.symm h2]
      · simp [List.eraseDups_cons, h1, Ne.symm h1, h2, Ne.symm h2, h3, Ne.symm h3]

/-- **The denominator is positive** exactly for the roots that are neither centered nor corners. -/
theorem den_pos_iff (a b c : K) : 0 < den a b c ↔ isCentered a b c = false ∧ isCorner a b c = false := by
  have h2 := two_den a b c
  have hnn : 0 ≤ den a b c := by nlinarith [sq_nonneg (a * b - b * c), sq_nonneg (b * c - c * a), sq_nonneg (c * a - a * b)]
  constructor
  · intro h
    constructor
    · rw [Bool.eq_false_iff]
      intro hc
      obtain ⟨rfl, rfl⟩ := of_decide_eq_true hc
      exact absurd h (by unfold den; ring_nf; simp)
    · rw [Bool.eq_false_iff]
      intro hc
      rcases (isCorner_iff a b c).1 hc with ⟨rfl, rfl⟩ | ⟨rfl, rfl⟩ | ⟨rfl, rfl⟩ <;> exact absurd h (by unfold den; ring_nf; simp)
  · rintro ⟨h1, h3⟩
    rcases hnn.eq_or_lt with h | h
    · exfalso
      rw [← h, mul_zero] at h2
      have e1 : a * b = b * c := by nlinarith [sq_nonneg (a * b - b * c), sq_nonneg (b * c - c * a), sq_nonneg (c * a - a * b), sq_eq_zero_iff.1 (le_antisymm (by nlinarith [sq_nonneg (b * c - c * a), sq_nonneg (c * a - a * b)]) (sq_nonneg (a * b - b * c)))]
      have e2 : b * c = c * a := by nlinarith [sq_eq_zero_iff.1 (le_antisymm (by nlinarith [sq_nonneg (a * b - b * c), sq_nonneg (c * a - a * b)]) (sq_nonneg (b * c - c * a)))]
      have f1 : b = 0 ∨ a = c := by
        rcases eq_or_ne b 0 with hb | hb
        · exact Or.inl hb
        · exact Or.inr (mul_left_cancel₀ hb (by linarith))
      have f2 : c = 0 ∨ b = a := by
        rcases eq_or_ne c 0 with hb | hb
        · exact Or.inl hb
        · exact Or.inr (mul_left_cancel₀ hb (by linarith))
      have hcor : ¬ isCorner a b c = true := by simp [h3]
      have hcen : ¬ isCentered a b c = true := by simp [h1]
      rw [isCorner_iff] at hcor
      unfold isCentered at hcen
      rw [decide_eq_true_iff] at hcen
      rcases f1 with f1 | f1 <;> rcases f2 with f2 | f2
      · exact hcor (Or.inr (Or.inl ⟨f1, f2⟩))
      · exact hcor (Or.inl ⟨f2 ▸ f1, f1⟩)
      · exact hcor (Or.inr (Or.inr ⟨f2, f1.trans f2⟩))
      · exact hcen ⟨f2.symm, f1⟩
    · exact h

theorem uv_some {a b c : K} {t : K × K} (h : uv a b c = some t) (hc : isCentered a b c = false) : den a b c ≠ 0 ∧
    t.1 = (a * b ^ 3 + b * c ^ 3 + c * a ^ 3 - a * b * c * (a + b + c)) / den a b c ∧ t.2 = (a ^ 3 * b + b ^ 3 * c + c ^ 3 * a - a * b * c * (a + b + c)) / den a b c := by
  unfold uv at h
  rw [hc] at h
  by_cases hk : isCorner a b c = true
  · rw [hk] at h; simp at h
  · rw [Bool.not_eq_true] at hk
    rw [hk] at h
    simp only [Bool.false_eq_true, if_false] at h
    rw [← Option.some.inj h]
    exact ⟨((den_pos_iff a b c).2 ⟨hc, hk⟩).ne', by ring, by ring⟩

/-- **The parameters are exact**: for every root but the corners the quadric with these parameters vanishes at the root and its rotations. -/
theorem quad_vanishes {a b c u v : K} (h : uv a b c = some (u, v)) : AllRot (quad u v) a b c := by
  by_cases hc : isCentered a b c = true
  · obtain ⟨rfl, rfl⟩ := of_decide_eq_true hc
    unfold AllRot quad
    refine ⟨?_, ?_, ?_⟩ <;> ring
  · rw [Bool.not_eq_true] at hc
    obtain ⟨hd, rfl, rfl⟩ := uv_some h hc
    unfold AllRot quad
    refine ⟨?_, ?_, ?_⟩ <;> · field_simp; unfold den; ring

/-- **They are the only ones**, unless the root is centered. -/
theorem uv_unique {a b c u v u' v' : K} (h : uv a b c = some (u, v)) (hc : isCentered a b c = false) (h' : AllRot (quad u' v') a b c) : u' = u ∧ v' = v := by
  obtain ⟨hd, -, -⟩ := uv_some h hc
  obtain ⟨e1, e2, e3⟩ := quad_vanishes h
  obtain ⟨g1, g2, g3⟩ := h'
  unfold quad at e1 e2 e3 g1 g2 g3
  have x1 : (u' - u) * den a b c = 0 := by unfold den; linear_combination (b * c - c * a) * (g1 - e1) + (b * c - a * b) * (g2 - e2)
  have x2 : (v' - v) * den a b c = 0 := by unfold den; linear_combination (b * c - a * b) * (g1 - e1) + (c * a - a * b) * (g2 - e2)
  exact ⟨sub_eq_zero.1 ((mul_eq_zero.1 x1).resolve_right hd), sub_eq_zero.1 ((mul_eq_zero.1 x2).resolve_right hd)⟩

/-- The parameters do not depend on the rotation. -/
theorem uv_rot (a b c : K) : uv b c a = uv a b c := by
  have h1 : isCentered b c a = isCentered a b c := by
    unfold isCentered
    rw [Bool.eq_iff_iff, decide_eq_true_iff, decide_eq_true_iff]
    constructor
    · rintro ⟨rfl, rfl⟩; exact ⟨rfl, rfl⟩
    · rintro ⟨rfl, rfl⟩; exact ⟨rfl, rfl⟩
  have h2 : isCorner b c a = isCorner a b c := by
    rw [Bool.eq_iff_iff, isCorner_iff, isCorner_iff]
    tauto
  have h3 : den b c a = den a b c := by unfold den; ring
  unfold uv
  rw [h1, h2, h3]
  split
  · rfl
  · split
    · rfl
    · congr 2 <;> ring

/-- **Equal parameters**: `u = v` holds exactly if two of the variables are equal or their sum is zero.  So the case `u = v`, in which the mixed tangents raise `NameError` (`mix11_raises`), does not occur for
exact nontrivial roots with nonzero sum. -/
theorem uv_eq_iff {a b c u v : K} (h : uv a b c = some (u, v)) : u = v ↔ a = b ∨ b = c ∨ c = a ∨ a + b + c = 0 := by
  by_cases hc : isCentered a b c = true
  · have e : uv a b c = some (2, 2) := by unfold uv; rw [hc]; rfl
    rw [e] at h
    have := Option.some.inj h
    rw [← (Prod.mk.inj this).1, ← (Prod.mk.inj this).2]
    exact ⟨fun _ => Or.inl (of_decide_eq_true hc).1, fun _ => rfl⟩
  · rw [Bool.not_eq_true] at hc
    obtain ⟨hd, hu, hv⟩ := uv_some h hc
    dsimp only at hu hv
    have key : (u - v) * den a b c = (a - b) * (b - c) * (a - c) * (a + b + c) * (-1) := by
      rw [hu, hv]
      field_simp
      ring
    constructor
    · rintro rfl
      rw [sub_self, zero_mul] at key
      rcases mul_eq_zero.1 key.symm with h | h
      · rcases mul_eq_zero.1 h with h | h
        · rcases mul_eq_zero.1 h with h | h
          · rcases mul_eq_zero.1 h with h | h
            · exact Or.inl (sub_eq_zero.1 h)
            · exact Or.inr (Or.inl (sub_eq_zero.1 h))
          · exact Or.inr (Or.inr (Or.inl (sub_eq_zero.1 h).symm))
        · exact Or.inr (Or.inr (Or.inr h))
      · norm_num at h
    · intro h
      have : (u - v) * den a b c = 0 := by
        rw [key]
        rcases h with rfl | rfl | rfl | h
        · ring
        · ring
        · ring
        · rw [h]; ring
      exact sub_eq_zero.1 ((mul_eq_zero.1 this).resolve_right hd)

/-! ### Cyclic sums -/

/-- `a² + b² + c² - ab - bc - ca`. -/
def ee (a b c : K) : K := a ^ 2 + b ^ 2 + c ^ 2 - a * b - b * c - c * a

/-- The facts about `u, v` that the reduced sums rest on. -/
structure Facts (a b c u v : K) : Prop where
  s0 : a + b + c ≠ 0
  ker0 : ker u v ≠ 0
  q : (u + v - 1) / ker u v = (a * b + b * c + c * a) / (a + b + c) ^ 2
  r : (u * v - 1) / ker u v ^ 2 = a * b * c / (a + b + c) ^ 3
  t12 : ((v - u) * (u * v + u + v - 2) + u ^ 3 + 1) / ker u v ^ 2 = (a * b ^ 2 + b * c ^ 2 + c * a ^ 2) / (a + b + c) ^ 3
  t21 : ((u - v) * (u * v + u + v - 2) + v ^ 3 + 1) / ker u v ^ 2 = (a ^ 2 * b + b ^ 2 * c + c ^ 2 * a) / (a + b + c) ^ 3
  t22 : (u ^ 2 + v ^ 2 - 2 * (u + v) + 3) / ker u v ^ 2 = (a ^ 2 * b ^ 2 + b ^ 2 * c ^ 2 + c ^ 2 * a ^ 2) / (a + b + c) ^ 4

theorem facts {a b c u v : K} (h : uv a b c = some (u, v)) (hs : a + b + c ≠ 0) : Facts a b c u v := by
  by_cases hc : isCentered a b c = true
  · have e : uv a b c = some (2, 2) := by unfold uv; rw [hc]; rfl
    rw [e] at h
    have := Option.some.inj h
    rw [← (Prod.mk.inj this).1, ← (Prod.mk.inj this).2]
    obtain ⟨rfl, rfl⟩ := of_decide_eq_true hc
    have ha : a ≠ 0 := by rintro rfl; simp at hs
    have e3 : a + a + a = 3 * a := by ring
    refine ⟨hs, by unfold ker; norm_num, ?_, ?_, ?_, ?_, ?_⟩ <;> · rw [e3]; unfold ker; field_simp; norm_num
  · rw [Bool.not_eq_true] at hc
    obtain ⟨hd, hu, hv⟩ := uv_some h hc
    dsimp only at hu hv
    have he : ee a b c ≠ 0 := by
      intro h0
      have h2 : (a - b) ^ 2 + (b - c) ^ 2 + (c - a) ^ 2 = 0 := by
        have : (a - b) ^ 2 + (b - c) ^ 2 + (c - a) ^ 2 = 2 * ee a b c := by unfold ee; ring
        rw [this, h0, mul_zero]
      have h3 : a - b = 0 := sq_eq_zero_iff.1 (le_antisymm (by nlinarith [sq_nonneg (b - c), sq_nonneg (c - a)]) (sq_nonneg _))
      have h4 : c - a = 0 := sq_eq_zero_iff.1 (le_antisymm (by nlinarith [sq_nonneg (b - c), sq_nonneg (a - b)]) (sq_nonneg _))
      exact absurd hc (by rw [Bool.not_eq_false]; exact decide_eq_true ⟨by linarith, by linarith⟩)
    have hk : ker u v = (a + b + c) ^ 2 * ee a b c / den a b c := by
      rw [hu, hv]; unfold ker
      rw [eq_div_iff hd]
      field_simp
      unfold den ee
      ring
    have hk0 : ker u v ≠ 0 := by rw [hk]; exact div_ne_zero (mul_ne_zero (pow_ne_zero 2 hs) he) hd
    have n1 : u + v - 1 = (a * b + b * c + c * a) * ee a b c / den a b c := by
      rw [hu, hv, eq_div_iff hd]
      field_simp
      unfold den ee
      ring
    have n2 : u * v - 1 = a * b * c * (a + b + c) * ee a b c ^ 2 / den a b c ^ 2 := by
      rw [hu, hv, eq_div_iff (pow_ne_zero 2 hd)]
      field_simp
      unfold den ee
      ring
    have n3 : (v - u) * (u * v + u + v - 2) + u ^ 3 + 1 = (a * b ^ 2 + b * c ^ 2 + c * a ^ 2) * (a + b + c) * ee a b c ^ 2 / den a b c ^ 2 := by
      rw [hu, hv, eq_div_iff (pow_ne_zero 2 hd)]
      field_simp
      unfold den ee
      ring
    have n4 : (u - v) * (u * v + u + v - 2) + v ^ 3 + 1 = (a ^ 2 * b + b ^ 2 * c + c ^ 2 * a) * (a + b + c) * ee a b c ^ 2 / den a b c ^ 2 := by
      rw [hu, hv, eq_div_iff (pow_ne_zero 2 hd)]
      field_simp
      unfold den ee
      ring
    have n5 : u ^ 2 + v ^ 2 - 2 * (u + v) + 3 = (a ^ 2 * b ^ 2 + b ^ 2 * c ^ 2 + c ^ 2 * a ^ 2) * ee a b c ^ 2 / den a b c ^ 2 := by
      rw [hu, hv, eq_div_iff (pow_ne_zero 2 hd)]
      field_simp
      unfold den ee
      ring
    refine ⟨hs, hk0, ?_, ?_, ?_, ?_, ?_⟩
    · rw [n1, hk]; field_simp
    · rw [n2, hk]; field_simp
    · rw [n3, hk]; field_simp
    · rw [n4, hk]; field_simp
    · rw [n5, hk]; field_simp

/-- The cyclic sum of a monomial. -/
def cycMonom (a b c : K) (i j k : ℕ) : K := a ^ i * b ^ j * c ^ k + b ^ i * c ^ j * a ^ k + c ^ i * a ^ j * b ^ k

theorem cycMonom_rot (a b c : K) (i j k : ℕ) : cycMonom a b c k i j = cycMonom a b c i j k := by unfold cycMonom; ring

theorem cycMonom_rot' (a b c : K) (i j k : ℕ) : cycMonom a b c j k i = cycMonom a b c i j k := by unfold cycMonom; ring

theorem csBase_eq {a b c u v : K} (f : Facts a b c u v) (i j : ℕ) (hi : i < 3) (hj : j < 3) : csBase u v i j = cycMonom (a / (a + b + c)) (b / (a + b + c)) (c / (a + b + c)) i j 0 := by
  have hs := f.s0
  have hi : i = 0 ∨ i = 1 ∨ i = 2 := by omega
  have hj : j = 0 ∨ j = 1 ∨ j = 2 := by omega
  rcases hi with rfl | rfl | rfl <;> rcases hj with rfl | rfl | rfl <;> simp only [csBase, f.q, f.t12, f.t21, f.t22, cycMonom]
  all_goals field_simp
  all_goals ring

theorem powMod_eq {q r x : K} (hx : x ^ 3 = x ^ 2 - q * x + r) : ∀ n, x ^ n = (powMod q r n).1 + (powMod q r n).2.1 * x + (powMod q r n).2.2 * x ^ 2
  | 0 => by simp [powMod]
  | n + 1 => by
      simp only [powMod]
      rw [pow_succ, powMod_eq hx n]
      linear_combination (powMod q r n).2.2 * hx

theorem csReduced_eq {a b c u v : K} (f : Facts a b c u v) (i j : ℕ) : csReduced u v i j = cycMonom (a / (a + b + c)) (b / (a + b + c)) (c / (a + b + c)) i j 0 := by
  have hs := f.s0
  unfold csReduced
  dsimp only
  have e3 : (u * v - 1) / ker u v ^ 2 * 3 / 3 = a * b * c / (a + b + c) ^ 3 := by rw [f.r]; field_simp
  rw [e3, f.q]
  rw [csBase_eq f 0 0 (by norm_num) (by norm_num), csBase_eq f 0 1 (by norm_num) (by norm_num), csBase_eq f 0 2 (by norm_num) (by norm_num), csBase_eq f 1 0 (by norm_num) (by norm_num),
    csBase_eq f 1 1 (by norm_num) (by norm_num), csBase_eq f 1 2 (by norm_num) (by norm_num), csBase_eq f 2 0 (by norm_num) (by norm_num), csBase_eq f 2 1 (by norm_num) (by norm_num),
    csBase_eq f 2 2 (by norm_num) (by norm_num)]
  have hx : ∀ x, x = a ∨ x = b ∨ x = c → (x / (a + b + c)) ^ 3 = (x / (a + b + c)) ^ 2 - (a * b + b * c + c * a) / (a + b + c) ^ 2 * (x / (a + b + c)) + a * b * c / (a + b + c) ^ 3 := by
    rintro x (rfl | rfl | rfl) <;> · field_simp; ring
  have ha := powMod_eq (hx a (Or.inl rfl))
  have hb := powMod_eq (hx b (Or.inr (Or.inl rfl)))
  have hc := powMod_eq (hx c (Or.inr (Or.inr rfl)))
  unfold cycMonom
  rw [ha i, hb i, hc i, ha j, hb j, hc j]
  generalize powMod ((a * b + b * c + c * a) / (a + b + c) ^ 2) (a * b * c / (a + b + c) ^ 3) i = s
  generalize powMod ((a * b + b * c + c * a) / (a + b + c) ^ 2) (a * b * c / (a + b + c) ^ 3) j = t
  ring

theorem csZero_eq {a b c u v : K} (f : Facts a b c u v) (i j k : ℕ) (h0 : min i (min j k) = 0) : csZero u v i j k = cycMonom (a / (a + b + c)) (b / (a + b + c)) (c / (a + b + c)) i j k := by
  have key : ∀ i' j', i' ≤ max i (max j k) → j' ≤ max i (max j k) → (if 3 ≤ max i (max j k) then csReduced u v i' j' else csBase u v i' j') =
      cycMonom (a / (a + b + c)) (b / (a + b + c)) (c / (a + b + c)) i' j' 0 := by
    intro i' j' h1 h2
    split
    · exact csReduced_eq f i' j'
    · exact csBase_eq f i' j' (by omega) (by omega)
  have swap : ∀ (x y z : K) (j : ℕ), cycMonom x y z j 0 0 = cycMonom x y z 0 j 0 := by intro x y z j; unfold cycMonom; ring
  unfold csZero
  dsimp only
  by_cases hk : k = 0
  · subst hk
    simp only [ne_eq, not_true_eq_false, if_false]
    by_cases hi : i = 0
    · subst hi
      rw [if_pos rfl]
      dsimp only
      rw [key j 0 (by omega) (by omega), swap]
    · rw [if_neg hi]
      dsimp only
      exact key i j (by omega) (by omega)
  · rw [if_pos hk]
    by_cases hj : j = 0
    · subst hj
      rw [if_pos rfl]
      dsimp only
      rw [if_neg hk, key k i (by omega) (by omega), cycMonom_rot]
    · rw [if_neg hj]
      have hi : i = 0 := by omega
      subst hi
      rw [if_pos rfl]
      dsimp only
      rw [if_neg hj, key j k (by omega) (by omega), cycMonom_rot']

theorem cycMonom_homog {s : K} (hs : s ≠ 0) (a b c : K) (i j k : ℕ) : cycMonom (a / s) (b / s) (c / s) i j k = cycMonom a b c i j k / s ^ (i + j + k) := by
  unfold cycMonom
  rw [eq_div_iff (pow_ne_zero _ hs)]
  simp only [div_pow, pow_add]
  field_simp

/-- **The reduced cyclic sums are exact**: for every root but the corners with nonzero sum, and all exponents. -/
theorem cyclicSum_eq {a b c u v : K} (h : uv a b c = some (u, v)) (hs : a + b + c ≠ 0) (i j k : ℕ) : cyclicSum u v i j k = cycMonom a b c i j k / (a + b + c) ^ (i + j + k) := by
  have f := facts h hs
  rw [← cycMonom_homog hs]
  unfold cyclicSum
  dsimp only
  split
  · rename_i hm
    rw [csZero_eq f _ _ _ (by omega), f.r]
    generalize hmm : min i (min j k) = m at hm ⊢
    obtain ⟨i', rfl⟩ : ∃ i', i = i' + m := ⟨i - m, by omega⟩
    obtain ⟨j', rfl⟩ : ∃ j', j = j' + m := ⟨j - m, by omega⟩
    obtain ⟨k', rfl⟩ : ∃ k', k = k' + m := ⟨k - m, by omega⟩
    have e : a * b * c / (a + b + c) ^ 3 = (a / (a + b + c)) * (b / (a + b + c)) * (c / (a + b + c)) := by field_simp
    rw [e]
    simp only [Nat.add_sub_cancel]
    generalize a / (a + b + c) = x
    generalize b / (a + b + c) = y
    generalize c / (a + b + c) = z
    unfold cycMonom
    rw [mul_pow, mul_pow]
    ring
  · exact csZero_eq f i j k (by omega)

example : cyclicSum (635 / 169 : ℚ) (395 / 169) 5 1 2 = cycMonom 2 3 7 5 1 2 / 12 ^ 8 := by
  have h : uv (2 : ℚ) 3 7 = some (635 / 169, 395 / 169) := by unfold uv den isCentered isCorner; norm_num
  have := cyclicSum_eq h (by norm_num) 5 1 2
  norm_num at this ⊢
  exact this

/-! ### `standardize` -/

/-- `p` is a rotation of `(x, y, z)`. -/
def IsRot (p : K × K × K) (x y z : K) : Prop := p = (x, y, z) ∨ p = (y, z, x) ∨ p = (z, x, y)

theorem firstRot_isRot (test : K → K → K → Bool) (a b c : K) : IsRot (firstRot test a b c) a b c := by
  unfold firstRot IsRot
  split
  · exact Or.inl rfl
  · split
    · exact Or.inr (Or.inl rfl)
    · split
      · exact Or.inr (Or.inr rfl)
      · exact Or.inl rfl

/-- **Standardizing** a root with nonzero sum gives a rotation of the multiple of the root that has sum 3. -/
theorem standardize_isRot (cyc : Bool) {a b c : K} (hs : a + b + c ≠ 0) :
    IsRot (standardize cyc a b c) (3 * a / (a + b + c)) (3 * b / (a + b + c)) (3 * c / (a + b + c)) := by
  have e : ∀ x : K, x / ((a + b + c) / 3) = 3 * x / (a + b + c) := by intro x; field_simp
  unfold standardize
  split
  · rename_i hc
    obtain ⟨rfl, rfl⟩ := of_decide_eq_true hc
    have ha : a ≠ 0 := by rintro rfl; simp at hs
    left
    have : 3 * a / (a + a + a) = 1 := by rw [div_eq_one_iff_eq hs]; ring
    rw [this]
  · dsimp only
    rw [e, e, e]
    split
    · split
      · exact firstRot_isRot _ _ _ _
      · exact firstRot_isRot _ _ _ _
    · exact Or.inl rfl

theorem standardize_sum (cyc : Bool) {a b c : K} (hs : a + b + c ≠ 0) : (standardize cyc a b c).1 + (standardize cyc a b c).2.1 + (standardize cyc a b c).2.2 = 3 := by
  have h3 : 3 * a / (a + b + c) + 3 * b / (a + b + c) + 3 * c / (a + b + c) = 3 := by field_simp
  rcases standardize_isRot cyc hs with h | h | h <;> rw [h] <;> dsimp only <;> linarith

theorem max3 (x y z : K) : (max x (max y z) = x ∨ max x (max y z) = y ∨ max x (max y z) = z) ∧ x ≤ max x (max y z) ∧ y ≤ max x (max y z) ∧ z ≤ max x (max y z) := by
  refine ⟨?_, le_max_left _ _, (le_max_left _ _).trans (le_max_right _ _), (le_max_right _ _).trans (le_max_right _ _)⟩
  rcases max_choice x (max y z) with h | h
  · exact Or.inl h
  · rcases max_choice y z with h' | h'
    · exact Or.inr (Or.inl (h.trans h'))
    · exact Or.inr (Or.inr (h.trans h'))

theorem max3_rot (x y z : K) : max y (max z x) = max x (max y z) := by rw [← max_assoc, max_comm]

/-- A test that holds for exactly one rotation chooses the same rotation from every start. -/
theorem firstRot_rot {test : K → K → K → Bool} {x y z : K} (h : test x y z = true ∨ test y z x = true ∨ test z x y = true) (h12 : ¬ (test x y z = true ∧ test y z x = true))
    (h23 : ¬ (test y z x = true ∧ test z x y = true)) (h13 : ¬ (test x y z = true ∧ test z x y = true)) : firstRot test y z x = firstRot test x y z := by
  unfold firstRot
  by_cases h1 : test x y z = true <;> by_cases h2 : test y z x = true <;> by_cases h3 : test z x y = true <;> simp_all

/-- The two tests hold for exactly one rotation, and then the first value is the largest. -/
theorem max_unique {x y z : K} (h : ¬ (x = y ∧ x = z)) : let m := max x (max y z)
    let t : K → K → K → Bool := fun x _ z => decide (x = m ∧ z < m)
    (t x y z = true ∨ t y z x = true ∨ t z x y = true) ∧ ¬ (t x y z = true ∧ t y z x = true) ∧ ¬ (t y z x = true ∧ t z x y = true) ∧ ¬ (t x y z = true ∧ t z x y = true) := by
  dsimp only
  obtain ⟨h1, hx, hy, hz⟩ := max3 x y z
  generalize max x (max y z) = m at *
  simp only [decide_eq_true_eq]
  refine ⟨?_, ?_, ?_, ?_⟩
  · rcases hx.eq_or_lt with ex | lx
    · rcases hz.eq_or_lt with ez | lz
      · rcases hy.eq_or_lt with ey | ly
        · exact absurd ⟨ex.trans ey.symm, ex.trans ez.symm⟩ h
        · exact Or.inr (Or.inr ⟨ez, ly⟩)
      · exact Or.inl ⟨ex, lz⟩
    · rcases hy.eq_or_lt with ey | ly
      · exact Or.inr (Or.inl ⟨ey, lx⟩)
      · rcases h1 with h1 | h1 | h1
        · exact absurd h1 lx.ne'
        · exact absurd h1 ly.ne'
        · exact Or.inr (Or.inr ⟨h1.symm, ly⟩)
  · rintro ⟨⟨e1, l1⟩, e2, l2⟩; exact absurd e1 l2.ne
  · rintro ⟨⟨e1, l1⟩, e2, l2⟩; exact absurd e1 l2.ne
  · rintro ⟨⟨e1, l1⟩, e2, l2⟩; exact absurd e2 l1.ne

theorem max_unique' {x y z : K} (h1 : x ≠ y) (h2 : y ≠ z) (h3 : z ≠ x) : let m := max x (max y z)
    let t : K → K → K → Bool := fun x _ _ => decide (x = m)
    (t x y z = true ∨ t y z x = true ∨ t z x y = true) ∧ ¬ (t x y z = true ∧ t y z x = true) ∧ ¬ (t y z x = true ∧ t z x y = true) ∧ ¬ (t x y z = true ∧ t z x y = true) := by
  dsimp only
  obtain ⟨h, hx, hy, hz⟩ := max3 x y z
  generalize max x (max y z) = m at *
  simp only [decide_eq_true_eq]
  refine ⟨by rcases h with h | h | h <;> simp [h], ?_, ?_, ?_⟩
  · rintro ⟨e1, e2⟩; exact h1 (e1.trans e2.symm)
  · rintro ⟨e1, e2⟩; exact h2 (e1.trans e2.symm)
  · rintro ⟨e1, e2⟩; exact h3 (e2.trans e1.symm)

theorem firstRot_test {test : K → K → K → Bool} {x y z : K} (h : test x y z = true ∨ test y z x = true ∨ test z x y = true) :
    test (firstRot test x y z).1 (firstRot test x y z).2.1 (firstRot test x y z).2.2 = true := by
  unfold firstRot
  by_cases h1 : test x y z = true
  · rw [if_pos h1]; exact h1
  · rw [if_neg h1]
    by_cases h2 : test y z x = true
    · rw [if_pos h2]; exact h2
    · rw [if_neg h2]
      have h3 : test z x y = true := by rcases h with h | h | h; exacts [absurd h h1, absurd h h2, h]
      rw [if_pos h3]; exact h3

theorem scaled_ne {a b s : K} (hs : s ≠ 0) (h : a ≠ b) : a / (s / 3) ≠ b / (s / 3) := by
  intro e
  have h3 : s / 3 ≠ 0 := div_ne_zero hs (by norm_num)
  rw [div_left_inj' h3] at e
  exact h e

theorem not_sym {a b c : K} (h : ¬ isSymmetric a b c = true) : a ≠ b ∧ b ≠ c ∧ c ≠ a := by
  rw [isSymmetric_iff] at h
  push Not at h
  exact h

/-- **The largest value comes first** in the cyclic standard form. -/
theorem standardize_max {a b c : K} (hs : a + b + c ≠ 0) : (standardize true a b c).2.1 ≤ (standardize true a b c).1 ∧ (standardize true a b c).2.2 ≤ (standardize true a b c).1 := by
  have key : ∀ {x y z m : K}, m = max x (max y z) → ∀ p : K × K × K, IsRot p x y z → p.1 = m → p.2.1 ≤ p.1 ∧ p.2.2 ≤ p.1 := by
    intro x y z m hm p hp h1
    obtain ⟨-, hx, hy, hz⟩ := max3 x y z
    rw [← hm] at hx hy hz
    rw [h1]
    rcases hp with rfl | rfl | rfl
    · exact ⟨hy, hz⟩
    · exact ⟨hz, hx⟩
    · exact ⟨hx, hy⟩
  unfold standardize
  split
  · exact ⟨le_refl _, le_refl _⟩
  · rename_i hc
    dsimp only
    simp only [if_true]
    split
    · refine key rfl _ (firstRot_isRot _ _ _ _) ?_
      have hne : ¬ (a / ((a + b + c) / 3) = b / ((a + b + c) / 3) ∧ a / ((a + b + c) / 3) = c / ((a + b + c) / 3)) := by
        rintro ⟨e1, e2⟩
        apply hc
        refine decide_eq_true ⟨?_, ?_⟩
        · by_contra h; exact scaled_ne hs h e1
        · by_contra h; exact scaled_ne hs h e2
      have := firstRot_test (test := fun x _ z => decide (x = max (a / ((a + b + c) / 3)) (max (b / ((a + b + c) / 3)) (c / ((a + b + c) / 3))) ∧ z < max (a / ((a + b + c) / 3)) (max (b / ((a + b + c) / 3)) (c / ((a + b + c) / 3))))) (max_unique hne).1
      exact (of_decide_eq_true this).1
    · rename_i hsym
      refine key rfl _ (firstRot_isRot _ _ _ _) ?_
      obtain ⟨n1, n2, n3⟩ := not_sym hsym
      have := firstRot_test (test := fun x _ _ => decide (x = max (a / ((a + b + c) / 3)) (max (b / ((a + b + c) / 3)) (c / ((a + b + c) / 3))))) (max_unique' (scaled_ne hs n1) (scaled_ne hs n2) (scaled_ne hs n3)).1
      exact of_decide_eq_true this

/-- **The cyclic standard form does not depend on the rotation.** -/
theorem standardize_rot {a b c : K} (hs : a + b + c ≠ 0) : standardize true b c a = standardize true a b c := by
  have h1 : isCentered b c a = isCentered a b c := by
    unfold isCentered
    rw [Bool.eq_iff_iff, decide_eq_true_iff, decide_eq_true_iff]
    constructor
    · rintro ⟨rfl, rfl⟩; exact ⟨rfl, rfl⟩
    · rintro ⟨rfl, rfl⟩; exact ⟨rfl, rfl⟩
  have h2 : isSymmetric b c a = isSymmetric a b c := by
    rw [Bool.eq_iff_iff, isSymmetric_iff, isSymmetric_iff]
    tauto
  have h3 : b + c + a = a + b + c := by ring
  unfold standardize
  rw [h1, h2, h3]
  split
  · rfl
  · rename_i hc
    dsimp only
    simp only [if_true]
    rw [max3_rot]
    split
    · have hne : ¬ (a / ((a + b + c) / 3) = b / ((a + b + c) / 3) ∧ a / ((a + b + c) / 3) = c / ((a + b + c) / 3)) := by
        rintro ⟨e1, e2⟩
        apply hc
        refine decide_eq_true ⟨?_, ?_⟩
        · by_contra h; exact scaled_ne hs h e1
        · by_contra h; exact scaled_ne hs h e2
      obtain ⟨g, g12, g23, g13⟩ := max_unique hne
      exact firstRot_rot g g12 g23 g13
    · rename_i hsym
      obtain ⟨n1, n2, n3⟩ := not_sym hsym
      obtain ⟨g, g12, g23, g13⟩ := max_unique' (scaled_ne hs n1) (scaled_ne hs n2) (scaled_ne hs n3)
      exact firstRot_rot g g12 g23 g13

/-- **The standard form does not depend on the scale.** -/
theorem standardize_scale (cyc : Bool) {t : K} (ht : t ≠ 0) (a b c : K) : standardize cyc (t * a) (t * b) (t * c) = standardize cyc a b c := by
  have h1 : isCentered (t * a) (t * b) (t * c) = isCentered a b c := by
    unfold isCentered
    rw [Bool.eq_iff_iff, decide_eq_true_iff, decide_eq_true_iff, mul_right_inj' ht, mul_right_inj' ht]
  have h2 : isSymmetric (t * a) (t * b) (t * c) = isSymmetric a b c := by
    rw [Bool.eq_iff_iff, isSymmetric_iff, isSymmetric_iff, mul_right_inj' ht, mul_right_inj' ht, mul_right_inj' ht]
  have h3 : ∀ x : K, t * x / ((t * a + t * b + t * c) / 3) = x / ((a + b + c) / 3) := by
    intro x
    rw [← mul_add, ← mul_add, mul_div_assoc t (a + b + c) 3, mul_div_mul_left _ _ ht]
  unfold standardize
  rw [h1, h2]
  dsimp only
  rw [h3, h3, h3]

example : standardize true (2 : ℚ) 3 7 = (7 / 4, 1 / 2, 3 / 4) := by decide +kernel
example : standardize true (7 : ℚ) 2 7 = (21 / 16, 21 / 16, 3 / 8) := by decide +kernel

end Verif.Roots
