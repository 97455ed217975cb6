import Verif.Model.Rationalize
import Mathlib.Tactic.Linarith
import Mathlib.Tactic.FieldSimp
import Mathlib.Tactic.Positivity
import Mathlib.Tactic.NormNum

/-!
# C63: accuracy of `rationalize`
-/

namespace Verif.Rationalize

/-- The value of a continued fraction whose last term is followed by `x`. -/
def evalRest (x : ℚ) : List ℤ → ℚ
  | [] => x
  | t :: l => 1 / (t + evalRest x l)

theorem foldr_eq (l : List ℤ) : l.foldr (fun (t : ℤ) (x : ℚ) => 1 / (x + (t : ℚ))) 0 = evalRest 0 l := by
  induction l with
  | nil => rfl
  | cons t l ih => rw [List.foldr_cons, ih, evalRest, add_comm]

theorem evalCF_cons (t : ℤ) (l : List ℤ) : evalCF (t :: l) = t + evalRest 0 l := by
  unfold evalCF
  rw [foldr_eq, evalRest, one_div_one_div]

theorem evalRest_nonneg (x : ℚ) (hx : 0 ≤ x) (l : List ℤ) (hl : ∀ t ∈ l, 1 ≤ t) : 0 ≤ evalRest x l := by
  induction l with
  | nil => exact hx
  | cons t l ih =>
    have h1 := ih fun s hs => hl s (List.mem_cons_of_mem _ hs)
    have h2 : (1 : ℚ) ≤ t := by exact_mod_cast hl t List.mem_cons_self
    rw [evalRest]; positivity

theorem frac_bounds (x : ℚ) (hx : 0 < x) (h1 : x < 1) : 1 ≤ ⌊1 / x⌋ ∧ 0 ≤ 1 / x - ⌊1 / x⌋ ∧ 1 / x - ⌊1 / x⌋ < 1 := by
  refine ⟨?_, by have := Int.floor_le (1 / x); linarith, by have := Int.lt_floor_add_one (1 / x); linarith⟩
  rw [Int.le_floor]
  rw [le_div_iff₀ hx]; push_cast; linarith

/-- The terms are positive, and the expansion with its remainder is the number; when the loop breaks the remainder is zero. -/
theorem cfTail_spec (k : ℕ) : ∀ x : ℚ, 0 ≤ x → x < 1 → (∀ t ∈ (cfTail k x).1, 1 ≤ t) ∧ ∃ r : ℚ, 0 ≤ r ∧ r < 1 ∧ evalRest r (cfTail k x).1 = x ∧
    ((cfTail k x).2 = true → r = 0) ∧ ((cfTail k x).2 = false → (cfTail k x).1.length = k) := by
  induction k with
  | zero => intro x h0 h1; exact ⟨by simp [cfTail], x, h0, h1, rfl, by simp [cfTail], by simp [cfTail]⟩
  | succ k ih =>
    intro x h0 h1
    by_cases hx : x = 0
    · rw [cfTail, if_pos hx]
      exact ⟨by simp, 0, le_refl _, by norm_num, by rw [hx]; rfl, fun _ => rfl, by simp⟩
    · have hpos : 0 < x := lt_of_le_of_ne h0 (Ne.symm hx)
      obtain ⟨a, b, c⟩ := frac_bounds x hpos h1
      obtain ⟨h2, r, hr0, hr1, h3, h4, h5⟩ := ih (1 / x - ⌊1 / x⌋) b c
      rw [cfTail, if_neg hx]
      refine ⟨?_, r, hr0, hr1, ?_, h4, ?_⟩
      · intro t ht
        rcases List.mem_cons.1 ht with rfl | ht
        · exact a
        · exact h2 t ht
      · simp only [evalRest]
        rw [h3]
        have : ((⌊1 / x⌋ : ℤ) : ℚ) + (1 / x - ⌊1 / x⌋) = 1 / x := by ring
        rw [this, one_div_one_div]
      · intro hb
        simp only [List.length_cons]
        rw [h5 hb]

/-- Two levels of the expansion shrink distances by a factor of four. -/
theorem two_levels (s t a b : ℚ) (hs : 1 ≤ s) (ht : 1 ≤ t) (ha : 0 ≤ a) (hb : 0 ≤ b) :
    |1 / (t + 1 / (s + a)) - 1 / (t + 1 / (s + b))| ≤ |a - b| / 4 := by
  have h1 : 0 < s + a := by linarith
  have h2 : 0 < s + b := by linarith
  have h3 : 2 ≤ t * (s + a) + 1 := by nlinarith
  have h4 : 2 ≤ t * (s + b) + 1 := by nlinarith
  have e : 1 / (t + 1 / (s + a)) - 1 / (t + 1 / (s + b)) = (a - b) / ((t * (s + a) + 1) * (t * (s + b) + 1)) := by
    have h5 : t * (s + a) + 1 ≠ 0 := by linarith
    have h6 : t * (s + b) + 1 ≠ 0 := by linarith
    have h7 : t + 1 / (s + a) = (t * (s + a) + 1) / (s + a) := by field_simp
    have h8 : t + 1 / (s + b) = (t * (s + b) + 1) / (s + b) := by field_simp
    rw [h7, h8, one_div_div, one_div_div, div_sub_div _ _ h5 h6]
    congr 1
    ring
  rw [e, abs_div]
  have h9 : (4 : ℚ) ≤ |(t * (s + a) + 1) * (t * (s + b) + 1)| := by
    rw [abs_of_pos (by positivity)]; nlinarith
  exact div_le_div_of_nonneg_left (abs_nonneg _) (by norm_num) h9

theorem evalRest_contract (x y : ℚ) (hx : 0 ≤ x) (hy : 0 ≤ y) : ∀ (k : ℕ) (l : List ℤ), l.length = 2 * k → (∀ t ∈ l, 1 ≤ t) →
    |evalRest x l - evalRest y l| ≤ |x - y| / 4 ^ k := by
  intro k
  induction k with
  | zero =>
    intro l hl _
    have : l = [] := by simpa using hl
    subst this
    simp [evalRest]
  | succ k ih =>
    intro l hl hpos
    match l, hl with
    | t :: s :: l, hl =>
      have hl' : l.length = 2 * k := by simp at hl; omega
      have hp' : ∀ t ∈ l, 1 ≤ t := fun u hu => hpos u (by simp [hu])
      have h1 := ih l hl' hp'
      have hs : (1 : ℚ) ≤ s := by exact_mod_cast hpos s (by simp)
      have ht : (1 : ℚ) ≤ t := by exact_mod_cast hpos t (by simp)
      have h2 := two_levels s t (evalRest x l) (evalRest y l) hs ht (evalRest_nonneg x hx l hp') (evalRest_nonneg y hy l hp')
      simp only [evalRest]
      refine le_trans h2 ?_
      rw [pow_succ, ← div_div]
      linarith [div_le_div_of_nonneg_right h1 (show (0 : ℚ) ≤ 4 by norm_num)]

/-- **C63.** With the default truncation, the rational number returned for a float is within `10^-6` of it. -/
theorem rationalize_close (v : ℚ) : |v - rationalize 32 v| < 1 / 1000000 := by
  have h0 : 0 ≤ v - ⌊v⌋ := by have := Int.floor_le v; linarith
  have h1 : v - ⌊v⌋ < 1 := by have := Int.lt_floor_add_one v; linarith
  obtain ⟨hpos, r, hr0, hr1, he, hb, hnb⟩ := cfTail_spec 32 (v - ⌊v⌋) h0 h1
  unfold rationalize
  simp only
  split
  · assumption
  · rw [evalCF_cons]
    have e : v - (⌊v⌋ + evalRest 0 (cfTail 32 (v - ⌊v⌋)).1) = evalRest r (cfTail 32 (v - ⌊v⌋)).1 - evalRest 0 (cfTail 32 (v - ⌊v⌋)).1 := by
      rw [he]; ring
    rw [e]
    cases hbr : (cfTail 32 (v - ⌊v⌋)).2 with
    | true => rw [hb hbr]; norm_num
    | false =>
      have := evalRest_contract r 0 hr0 (le_refl _) 16 _ (by rw [hnb hbr]) hpos
      refine lt_of_le_of_lt this ?_
      rw [sub_zero, abs_of_nonneg hr0]
      have : (4 : ℚ) ^ 16 = 4294967296 := by norm_num
      rw [this, div_lt_div_iff₀ (by norm_num) (by norm_num)]
      linarith

/-- **C63.** Whatever the truncation, a number whose expansion ends within it is returned to within `10^-6`. -/
theorem rationalize_close_of_ends (k : ℕ) (v : ℚ) (hb : (cfTail k (v - ⌊v⌋)).2 = true) : |v - rationalize k v| < 1 / 1000000 := by
  have h0 : 0 ≤ v - ⌊v⌋ := by have := Int.floor_le v; linarith
  have h1 : v - ⌊v⌋ < 1 := by have := Int.lt_floor_add_one v; linarith
  obtain ⟨-, r, -, -, he, hbr, -⟩ := cfTail_spec k (v - ⌊v⌋) h0 h1
  unfold rationalize
  simp only
  split
  · assumption
  · rw [evalCF_cons, ← hbr hb, he]
    norm_num

/-- The hypothesis holds for `355/113` and four terms; with two terms it fails. -/
example : (cfTail 4 ((355 / 113 : ℚ) - ⌊(355 / 113 : ℚ)⌋)).2 = true ∧ (cfTail 2 ((355 / 113 : ℚ) - ⌊(355 / 113 : ℚ)⌋)).2 = false := by
  decide +kernel

theorem argMaxFrom_pos : ∀ (l : List ℤ) (best : ℕ) (bv : ℤ) (i : ℕ), 1 ≤ best → 1 ≤ i → 1 ≤ argMaxFrom best bv i l
  | [], _, _, _, h, _ => h
  | t :: l, best, bv, i, h, hi => by
    rw [argMaxFrom]
    split
    · exact argMaxFrom_pos l i t (i + 1) hi (by omega)
    · exact argMaxFrom_pos l best bv (i + 1) h (by omega)

theorem cutoff_pos (tail : List ℤ) (broke : Bool) : 1 ≤ cutoff tail broke := by
  unfold cutoff
  split
  · cases tail with
    | nil => exact le_refl _
    | cons t l => exact argMaxFrom_pos l 1 t 2 (le_refl _) (by omega)
  · omega

/-- **C63.** Rationalising keeps the sign: a nonnegative float becomes a nonnegative rational. -/
theorem rationalize_nonneg (k : ℕ) (v : ℚ) (hv : 0 ≤ v) : 0 ≤ rationalize k v := by
  have h0 : 0 ≤ v - ⌊v⌋ := by have := Int.floor_le v; linarith
  have h1 : v - ⌊v⌋ < 1 := by have := Int.lt_floor_add_one v; linarith
  obtain ⟨hpos, -⟩ := cfTail_spec k (v - ⌊v⌋) h0 h1
  have ht : (0 : ℚ) ≤ (⌊v⌋ : ℤ) := by exact_mod_cast Int.floor_nonneg.2 hv
  have key : ∀ l : List ℤ, (∀ t ∈ l, 1 ≤ t) → 0 ≤ evalCF (⌊v⌋ :: l) := by
    intro l hl
    rw [evalCF_cons]
    exact add_nonneg ht (evalRest_nonneg 0 (le_refl _) l hl)
  unfold rationalize
  simp only
  split
  · obtain ⟨j, hj⟩ : ∃ j, cutoff (cfTail k (v - ⌊v⌋)).1 (cfTail k (v - ⌊v⌋)).2 = j + 1 :=
      ⟨_, (Nat.sub_add_cancel (cutoff_pos _ _)).symm⟩
    rw [hj, List.take_succ_cons]
    exact key _ fun t ht => hpos t (List.mem_of_mem_take ht)
  · exact key _ hpos

/-- `0.333333333` becomes `1/3`. -/
example : rationalize 32 (333333333 / 1000000000) = 1 / 3 := by decide +kernel
example : rationalize 32 (-5 / 2) = -5 / 2 := by decide +kernel
example : rationalize 32 (1 / 100000000) = 0 := by decide +kernel

/-- **C63.** Every entry of `rationalize_array` is within the larger of `10^-6` and the tolerance. -/
theorem rationalizeArray_close (x : List ℚ) (tol : ℚ) (i : ℕ) (hi : i < x.length) (hi' : i < (rationalizeArray x tol).length) :
    |x[i] - (rationalizeArray x tol)[i]| < max tol (1 / 1000000) := by
  simp only [rationalizeArray, List.getElem_map]
  split
  · rename_i h
    rw [sub_zero]
    exact lt_of_lt_of_le h (le_max_left _ _)
  · exact lt_of_lt_of_le (rationalize_close _) (le_max_right _ _)

theorem rationalizeArray_nonneg (x : List ℚ) (tol : ℚ) (hx : ∀ v ∈ x, 0 ≤ v) : ∀ v ∈ rationalizeArray x tol, 0 ≤ v := by
  intro v hv
  obtain ⟨u, hu, rfl⟩ := List.mem_map.1 hv
  split
  · exact le_refl _
  · exact rationalize_nonneg _ _ (hx u hu)

example : rationalizeArray [1 / 4, 1 / 100000000, 666666667 / 1000000000] (1 / 10000000) = [1 / 4, 0, 2 / 3] := by decide +kernel

end Verif.Rationalize
