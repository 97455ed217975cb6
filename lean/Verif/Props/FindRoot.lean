import Verif.Model.FindRoot
import Mathlib.Algebra.Order.BigOperators.Group.List
import Mathlib.Algebra.BigOperators.Group.List.Lemmas
import Mathlib.Tactic.Linarith
import Mathlib.Tactic.NormNum
import Mathlib.Tactic.FieldSimp
import Mathlib.Tactic.Ring
import Mathlib.Data.Rat.Defs
import Mathlib.Algebra.Order.Ring.Rat

/-!
# C99: what the search for roots returns
-/

namespace Verif.FindRoot

variable {K : Type*} [Field K] [LinearOrder K]

/-! ### `find_best` -/

theorem bestLoop_min {α : Type*} (f : α → K) (l : List α) (s : Option α × K) :
    (bestLoop f true l s).2 ≤ s.2 ∧ (∀ c ∈ l, (bestLoop f true l s).2 ≤ f c) ∧
      (bestLoop f true l s = s ∨ ∃ c ∈ l, bestLoop f true l s = (some c, f c)) := by
  induction l generalizing s with
  | nil => simp [bestLoop]
  | cons c l ih =>
    by_cases h : f c < s.2
    · have e : bestLoop f true (c :: l) s = bestLoop f true l (some c, f c) := by simp [bestLoop, h]
      obtain ⟨h1, h2, h3⟩ := ih (some c, f c)
      rw [e]
      refine ⟨h1.trans h.le, ?_, ?_⟩
      · intro d hd
        rcases List.mem_cons.1 hd with rfl | hd
        · exact h1
        · exact h2 d hd
      · rcases h3 with h3 | ⟨d, hd, h3⟩
        · exact Or.inr ⟨c, by simp, h3⟩
        · exact Or.inr ⟨d, by simp [hd], h3⟩
    · have e : bestLoop f true (c :: l) s = bestLoop f true l s := by simp [bestLoop, h]
      obtain ⟨h1, h2, h3⟩ := ih s
      rw [e]
      refine ⟨h1, ?_, ?_⟩
      · intro d hd
        rcases List.mem_cons.1 hd with rfl | hd
        · exact h1.trans (not_lt.1 h)
        · exact h2 d hd
      · rcases h3 with h3 | ⟨d, hd, h3⟩
        · exact Or.inl h3
        · exact Or.inr ⟨d, by simp [hd], h3⟩

/-- When minimising, the answer is a choice of least value together with that value, or the initial choice when no choice has a value
below the initial one. -/
theorem findBest_min {α : Type*} (f : α → K) (init : Option α) (v0 : K) (l : List α) :
    ((∀ c ∈ l, v0 ≤ f c) ∧ findBest f true init v0 l = (init, v0)) ∨
      ∃ c ∈ l, f c < v0 ∧ (∀ d ∈ l, f c ≤ f d) ∧ findBest f true init v0 l = (some c, f c) := by
  by_cases hall : ∀ c ∈ l, v0 ≤ f c
  · left
    refine ⟨hall, ?_⟩
    unfold findBest
    induction l with
    | nil => rfl
    | cons c l ih =>
      have h : ¬ f c < v0 := not_lt.2 (hall c (by simp))
      simp only [bestLoop, h, decide_false, if_true]
      exact ih fun d hd => hall d (by simp [hd])
  · right
    push Not at hall
    obtain ⟨c, hc, hlt⟩ := hall
    obtain ⟨_, h2, h3⟩ := bestLoop_min f l (init, v0)
    rcases h3 with h3 | ⟨d, hd, h3⟩
    · have := h2 c hc
      rw [h3] at this
      exact absurd this (not_le.2 hlt)
    · refine ⟨d, hd, ?_, ?_, h3⟩
      · have := h2 c hc
        rw [h3] at this
        exact lt_of_le_of_lt this hlt
      · intro e he
        have := h2 e he
        rwa [h3] at this

/-- When maximising with the default initial value, every choice of value at most 2147483647 is ignored. -/
theorem findBest_max_default {α : Type*} (f : α → K) (init : Option α) (l : List α) (h : ∀ c ∈ l, f c ≤ 2147483647) :
    findBest f false init 2147483647 l = (init, 2147483647) := by
  unfold findBest
  induction l with
  | nil => rfl
  | cons c l ih =>
    have h1 : ¬ (2147483647 : K) < f c := not_lt.2 (h c (by simp))
    simp only [bestLoop, h1, decide_false, Bool.false_eq_true, if_false]
    exact ih fun d hd => h d (by simp [hd])

/-- `find_best([1, 2, 3], f, objective='max')` with `f(x) = x` is `(None, 2147483647)`. -/
example : findBest (fun x : ℚ => x) false none 2147483647 [1, 2, 3] = (none, 2147483647) :=
  findBest_max_default _ _ _ (by intro c hc; simp at hc; rcases hc with rfl | rfl | rfl <;> norm_num)

example : findBest (fun x : ℚ => (x - 2) * (x - 2)) true none 2147483647 [1, 2, 3] = (some 2, 0) := by
  norm_num [findBest, bestLoop]

/-! ### `optimize_discriminant` -/

theorem gridLoop_val (D : K → K → K) (l : List (ℤ × ℤ)) (s : K × ℤ × ℤ) :
    gridLoop D l s = s ∨ (gridLoop D l s).1 = D (gridLoop D l s).2.1 (gridLoop D l s).2.2 := by
  induction l generalizing s with
  | nil => exact Or.inl rfl
  | cons p l ih =>
    obtain ⟨a, b⟩ := p
    simp only [gridLoop]
    split_ifs with h1 h2
    · rcases ih (D a b, a, b) with h | h
      · right; rw [h]
      · exact Or.inr h
    · rcases ih (D a b, a, b) with h | h
      · right; rw [h]
      · exact Or.inr h
    · exact ih s

theorem gridLoop_nonpos (D : K → K → K) (l : List (ℤ × ℤ)) (s : K × ℤ × ℤ) (h : s.1 ≤ 0 ∨ ∃ p ∈ l, D p.1 p.2 ≤ 0) :
    (gridLoop D l s).1 ≤ 0 := by
  induction l generalizing s with
  | nil =>
    rcases h with h | ⟨p, hp, _⟩
    · exact h
    · cases hp
  | cons p l ih =>
    obtain ⟨a, b⟩ := p
    simp only [gridLoop]
    split_ifs with h1 h2
    · exact ih _ (Or.inl h1)
    · apply ih
      rcases h with h | ⟨q, hq, h⟩
      · exact Or.inl (h2.le.trans h)
      · rcases List.mem_cons.1 hq with rfl | hq
        · exact absurd h h1
        · exact Or.inr ⟨q, hq, h⟩
    · apply ih
      rcases h with h | ⟨q, hq, h⟩
      · exact Or.inl h
      · rcases List.mem_cons.1 hq with rfl | hq
        · exact absurd h h1
        · exact Or.inr ⟨q, hq, h⟩

theorem nearLoop_val (D : K → K → K) (l : List (ℤ × ℤ)) (s : K × ℤ × ℤ) (hl : l ≠ []) :
    (nearLoop D l s).1 = D (nearLoop D l s).2.1 (nearLoop D l s).2.2 := by
  induction l generalizing s with
  | nil => exact absurd rfl hl
  | cons p l ih =>
    obtain ⟨a, b⟩ := p
    simp only [nearLoop]
    split_ifs with h1
    · rfl
    · rcases l with _ | ⟨q, l⟩
      · rfl
      · exact ih _ (by simp)

theorem roundLoop_sound (D : K → K → K) (l : List (K × K)) (s : Option (K × K)) (p : K × K) (h : roundLoop D false l s = some p) :
    p ∈ l ∧ D p.1 p.2 ≤ 0 := by
  induction l generalizing s with
  | nil => simp [roundLoop] at h
  | cons q l ih =>
    simp only [roundLoop] at h
    split_ifs at h with h1
    · obtain rfl := Option.some.inj h
      exact ⟨by simp, h1⟩
    · obtain ⟨h2, h3⟩ := ih _ h
      exact ⟨by simp [h2], h3⟩

variable [IsStrictOrderedRing K]

theorem odStart_val (D : K → K → K) : (odStart D).1 = D (odStart D).2.1 (odStart D).2.2 := by
  simp only [odStart]
  split_ifs with h
  · exact nearLoop_val D _ _ (by simp [near])
  · rcases gridLoop_val D grid (2147483647, 0, 0) with h1 | h1
    · rw [h1] at h
      norm_num at h
    · exact h1

/-- Without `soft`, a returned point makes the discriminant nonpositive, whatever Newton's iteration and the rounding give. -/
theorem optDisc_sound (D : K → K → K) (newton : ℤ → ℤ → K × List (K × K)) (p : K × K) (h : optDisc D false newton = some p) :
    D p.1 p.2 ≤ 0 := by
  simp only [optDisc] at h
  split_ifs at h with h1 h2
  · obtain rfl := Option.some.inj h
    rw [odStart_val D] at h1
    exact h1
  · exact (roundLoop_sound D _ _ p h).2

/-- If the discriminant is nonpositive at a point of the grid, a point is returned, with or without `soft`, and it is nonpositive there. -/
theorem optDisc_grid (D : K → K → K) (soft : Bool) (newton : ℤ → ℤ → K × List (K × K)) (a b : ℤ) (hg : (a, b) ∈ grid) (hD : D a b ≤ 0) :
    ∃ p, optDisc D soft newton = some p ∧ D p.1 p.2 ≤ 0 := by
  have h1 := gridLoop_nonpos D grid (2147483647, 0, 0) (Or.inr ⟨(a, b), hg, hD⟩)
  have h2 : odStart D = gridLoop D grid (2147483647, 0, 0) := by
    simp only [odStart]
    rw [if_neg (not_lt.2 h1)]
  have h3 : (odStart D).1 ≤ 0 := by rw [h2]; exact h1
  refine ⟨_, by simp only [optDisc]; rw [if_pos h3], ?_⟩
  rw [← odStart_val D]
  exact h3

theorem roundLoop_soft (D : K → K → K) (l : List (K × K)) (s : Option (K × K)) (h : l ≠ [] ∨ s.isSome) : (roundLoop D true l s).isSome := by
  induction l generalizing s with
  | nil => simpa [roundLoop] using h
  | cons p l ih =>
    simp only [roundLoop]
    split_ifs
    · rfl
    · exact ih _ (Or.inr rfl)

/-- With `soft` a point is always returned. -/
theorem optDisc_soft (D : K → K → K) (newton : ℤ → ℤ → K × List (K × K)) (hn : ∀ a b, (newton a b).2 ≠ []) : (optDisc D true newton).isSome := by
  simp only [optDisc]
  split_ifs with h1 h2
  · rfl
  · simp at h2
  · exact roundLoop_soft D _ _ (Or.inl (hn _ _))

/-- If the discriminant is positive at all integers, Newton's iteration starts from the corner of the neighbourhood of the best point of
the grid, not from the best point that was found. -/
theorem odStart_corner (D : K → K → K) (hD : ∀ a b : ℤ, 0 < D a b) :
    let s := gridLoop D grid (2147483647, 0, 0)
    odStart D = (D ((s.2.1 + 1 : ℤ) : K) ((s.2.2 + 1 : ℤ) : K), s.2.1 + 1, s.2.2 + 1) := by
  intro s
  have h0 : 0 < s.1 := by
    rcases gridLoop_val D grid (2147483647, 0, 0) with h1 | h1
    · show 0 < (gridLoop D grid (2147483647, 0, 0)).1
      rw [h1]; norm_num
    · show 0 < (gridLoop D grid (2147483647, 0, 0)).1
      rw [h1]; exact hD _ _
  have hn : ∀ a b : ℤ, ¬ D a b ≤ 0 := fun a b => not_le.2 (hD a b)
  simp only [odStart]
  rw [if_pos h0]
  simp only [near, nearLoop]
  rw [if_neg (hn _ _), if_neg (hn _ _), if_neg (hn _ _), if_neg (hn _ _), if_neg (hn _ _), if_neg (hn _ _), if_neg (hn _ _), if_neg (hn _ _),
    if_neg (hn _ _)]

/-- For `(x-1)^2 + (y-1)^2 + 1` the best point of the grid is `(1, 1)`, of value 1; the iteration starts from `(2, 2)`, of value 3. -/
theorem odStart_not_best : odStart (fun x y : ℚ => (x - 1) * (x - 1) + (y - 1) * (y - 1) + 1) = (3, 2, 2) := by
  have h := odStart_corner (fun x y : ℚ => (x - 1) * (x - 1) + (y - 1) * (y - 1) + 1) (fun a b => by
    have h1 := mul_self_nonneg ((a : ℚ) - 1)
    have h2 := mul_self_nonneg ((b : ℚ) - 1)
    show (0 : ℚ) < ((a : ℚ) - 1) * ((a : ℚ) - 1) + ((b : ℚ) - 1) * ((b : ℚ) - 1) + 1
    linarith)
  have hs : gridLoop (fun x y : ℚ => (x - 1) * (x - 1) + (y - 1) * (y - 1) + 1) grid (2147483647, 0, 0) = (1, 1, 1) := by
    norm_num [grid, gridLoop]
  rw [hs] at h
  rw [h]
  norm_num

/-- A point of the grid where `x y - 20` is nonpositive: the hypotheses of `optDisc_grid` can be met. -/
example : ∃ p, optDisc (fun x y : ℚ => x * y - 20) false (fun _ _ => (0, [])) = some p ∧ p.1 * p.2 - 20 ≤ 0 :=
  optDisc_grid (fun x y : ℚ => x * y - 20) false _ 1 3 (by decide) (by norm_num)

/-! ### Homogeneous and inhomogeneous points -/

theorem sum_map_div (l : List K) (s : K) : (l.map (· / s)).sum = l.sum / s := by
  induction l with
  | nil => simp
  | cons x l ih => simp [ih, add_div]

/-- With 'simplex' the way forth and back only divides a root by the mean of its coordinates. -/
theorem std_destd_simplex (r : List K) (hr : r ≠ []) (hs : r.sum ≠ 0) : std .simplex (destd .simplex r) = r.map (· / (r.sum / r.length)) := by
  obtain ⟨l, x, rfl⟩ : ∃ l x, r = l ++ [x] := ⟨r.dropLast, r.getLast hr, (List.dropLast_append_getLast hr).symm⟩
  have hn : ((l.length : K) + 1) ≠ 0 := by positivity
  simp only [std, destd, List.dropLast_concat, List.map_append, List.map_cons, List.map_nil, sum_map_div]
  congr 2
  simp only [List.sum_append, List.sum_cons, List.sum_nil, add_zero, List.length_append, List.length_cons, List.length_nil, List.length_map,
    zero_add, Nat.cast_add, Nat.cast_one] at *
  field_simp
  ring

/-- With 'partial' the way forth and back replaces the last coordinate by one: the point is kept (up to a factor) only when the last
coordinate is one, or when all the others are zero. -/
theorem std_destd_part (l : List K) (x c : K) (hc : (l ++ [x]).map (· * c) = std .part (destd .part (l ++ [x]))) :
    x = 1 ∨ ∀ y ∈ l, y = 0 := by
  simp only [std, destd, List.dropLast_concat, List.map_append, List.map_cons, List.map_nil] at hc
  obtain ⟨h1, h2⟩ := List.append_inj' hc rfl
  have h3 : x * c = 1 := by simpa using h2
  by_cases hx : x = 1
  · exact Or.inl hx
  · right
    have hc1 : c ≠ 1 := by
      rintro rfl
      exact hx (by simpa using h3)
    intro y hy
    obtain ⟨i, hi, rfl⟩ := List.getElem_of_mem hy
    have h4 : (l.map (· * c))[i]'(by simpa using hi) = l[i] := by
      simp only [h1]
    rw [List.getElem_map] at h4
    have h5 : l[i] * (c - 1) = 0 := by rw [mul_sub, h4]; ring
    exact (mul_eq_zero.1 h5).resolve_right (sub_ne_zero.2 hc1)

/-- The point `(1, 2, 3)` comes back as `(1, 2, 1)`. -/
example : std .part (destd .part [1, 2, (3 : ℚ)]) = [1, 2, 1] := rfl

example : std .simplex (destd .simplex [1, 2, (3 : ℚ)]) = [1 / 2, 1, 3 / 2] := by
  rw [std_destd_simplex _ (by simp) (by norm_num)]
  norm_num

/-! ### Selection -/

section Select
omit [Field K] [LinearOrder K] [IsStrictOrderedRing K]
variable {R : Type*}

theorem put_spec {κ : Type*} [DecidableEq κ] (k : κ) (v : R) (d : List (κ × R)) (hd : (d.map Prod.fst).Nodup) :
    ((put k v d).map Prod.fst).Nodup ∧ ∀ k' v', (k', v') ∈ put k v d ↔ (k' = k ∧ v' = v) ∨ (k' ≠ k ∧ (k', v') ∈ d) := by
  induction d with
  | nil => simp [put]
  | cons e d ih =>
    obtain ⟨k0, v0⟩ := e
    have hd' : k0 ∉ d.map Prod.fst ∧ (d.map Prod.fst).Nodup := by simpa using hd
    obtain ⟨i1, i2⟩ := ih hd'.2
    by_cases h : k0 = k
    · subst h
      have hp : put k0 v ((k0, v0) :: d) = (k0, v) :: d := by simp [put]
      rw [hp]
      refine ⟨by simpa using hd, fun k' v' => ?_⟩
      have hne : (k', v') ∈ d → k' ≠ k0 := by
        rintro hm rfl
        exact hd'.1 (List.mem_map.2 ⟨_, hm, rfl⟩)
      simp only [List.mem_cons, Prod.mk.injEq]
      constructor
      · rintro (h | h)
        · exact Or.inl h
        · exact Or.inr ⟨hne h, Or.inr h⟩
      · rintro (h | ⟨h, h' | h'⟩)
        · exact Or.inl h
        · exact absurd h'.1 h
        · exact Or.inr h'
    · have hp : put k v ((k0, v0) :: d) = (k0, v0) :: put k v d := by simp [put, h]
      rw [hp]
      refine ⟨?_, fun k' v' => ?_⟩
      · rw [List.map_cons, List.nodup_cons]
        refine ⟨?_, i1⟩
        intro hm
        obtain ⟨⟨k1, v1⟩, hm1, rfl⟩ := List.mem_map.1 hm
        rcases (i2 k1 v1).1 hm1 with ⟨e1, _⟩ | ⟨_, hm'⟩
        · exact h e1
        · exact hd'.1 (List.mem_map.2 ⟨_, hm', rfl⟩)
      · simp only [List.mem_cons, Prod.mk.injEq, i2]
        constructor
        · rintro (⟨rfl, rfl⟩ | h1 | h1)
          · exact Or.inr ⟨h, Or.inl ⟨rfl, rfl⟩⟩
          · exact Or.inl h1
          · exact Or.inr ⟨h1.1, Or.inr h1.2⟩
        · rintro (h1 | ⟨h1, h2 | h2⟩)
          · exact Or.inr (Or.inl h1)
          · exact Or.inl h2
          · exact Or.inr (Or.inr ⟨h1, h2⟩)

theorem dict_spec {κ : Type*} [DecidableEq κ] (key : R → κ) (l : List R) :
    ((l.foldl (fun d r => put (key r) r d) []).map Prod.fst).Nodup ∧
      ∀ k v, (k, v) ∈ l.foldl (fun d r => put (key r) r d) [] ↔ ∃ p q, l = p ++ v :: q ∧ key v = k ∧ ∀ w ∈ q, key w ≠ k := by
  induction l using List.reverseRecOn with
  | nil => simp
  | append_singleton l x ih =>
    rw [List.foldl_append]
    obtain ⟨h1, h2⟩ := put_spec (key x) x _ ih.1
    refine ⟨h1, fun k v => ?_⟩
    show (k, v) ∈ put (key x) x _ ↔ _
    rw [h2, ih.2]
    constructor
    · rintro (⟨rfl, rfl⟩ | ⟨hk, p, q, rfl, hv, hq⟩)
      · exact ⟨l, [], rfl, rfl, by simp⟩
      · refine ⟨p, q ++ [x], by simp, hv, ?_⟩
        intro w hw
        rcases List.mem_append.1 hw with hw | hw
        · exact hq w hw
        · rw [List.mem_singleton.1 hw]; exact fun h => hk h.symm
    · rintro ⟨p, q, hl, hv, hq⟩
      rcases List.eq_nil_or_concat q with rfl | ⟨q', y, rfl⟩
      · obtain ⟨_, h4⟩ := List.append_inj' hl rfl
        have h5 : x = v := by simpa using h4
        subst h5
        exact Or.inl ⟨hv.symm, rfl⟩
      · have hl' : l ++ [x] = (p ++ v :: q') ++ [y] := by rw [hl]; simp
        obtain ⟨h3, h4⟩ := List.append_inj' hl' rfl
        have h5 : x = y := by simpa using h4
        subst h5
        exact Or.inr ⟨fun h => hq x (by simp) h.symm, p, q', h3, hv, fun w hw => hq w (by simp [hw])⟩

/-- Of all roots with the same rounded coordinates exactly the last one is kept. -/
theorem removeDup_spec {κ : Type*} [DecidableEq κ] (key : R → κ) (l : List R) (r : R) :
    r ∈ removeDup key l ↔ ∃ p q, l = p ++ r :: q ∧ ∀ w ∈ q, key w ≠ key r := by
  simp only [removeDup, List.mem_map]
  constructor
  · rintro ⟨⟨k, v⟩, hm, rfl⟩
    obtain ⟨p, q, hl, rfl, hq⟩ := ((dict_spec key l).2 k v).1 hm
    exact ⟨p, q, hl, hq⟩
  · rintro ⟨p, q, hl, hq⟩
    exact ⟨(key r, r), ((dict_spec key l).2 _ _).2 ⟨p, q, hl, rfl, hq⟩, rfl⟩

/-- No two kept roots have the same rounded coordinates. -/
theorem removeDup_nodup {κ : Type*} [DecidableEq κ] (key : R → κ) (l : List R) : ((removeDup key l).map key).Nodup := by
  have h := (dict_spec key l).1
  have e : (removeDup key l).map key = (l.foldl (fun d r => put (key r) r d) []).map Prod.fst := by
    simp only [removeDup, List.map_map]
    apply List.map_congr_left
    rintro ⟨k, v⟩ hm
    obtain ⟨_, _, _, hk, _⟩ := ((dict_spec key l).2 k v).1 hm
    exact hk
  rw [e]
  exact h

example : removeDup (fun x : ℕ => x / 10) [11, 25, 12, 31] = [12, 25, 31] := by decide

/-- A root whose list has no root before it that is equal is kept, and nothing else is added. -/
theorem clearRoots_mem [DecidableEq R] (l acc : List R) (r : R) : r ∈ clearRoots l acc ↔ r ∈ acc ∨ r ∈ l := by
  induction l generalizing acc with
  | nil => simp [clearRoots]
  | cons x l ih =>
    simp only [clearRoots, ih]
    by_cases h : x ∈ acc
    · have h' : (acc.any fun s => decide (s = x)) = true := by simpa using h
      rw [if_pos h']
      constructor
      · rintro (h1 | h1)
        · exact Or.inl h1
        · exact Or.inr (by simp [h1])
      · rintro (h1 | h1)
        · exact Or.inl h1
        · rcases List.mem_cons.1 h1 with rfl | h1
          · exact Or.inl h
          · exact Or.inr h1
    · have h' : ¬ (acc.any fun s => decide (s = x)) = true := by simpa using h
      rw [if_neg h']
      simp only [List.mem_append, List.mem_cons, List.not_mem_nil, or_false, or_assoc]

theorem clearRoots_nodup [DecidableEq R] (l acc : List R) (h : acc.Nodup) : (clearRoots l acc).Nodup := by
  induction l generalizing acc with
  | nil => exact h
  | cons x l ih =>
    simp only [clearRoots]
    split_ifs with h1
    · exact ih _ h
    · apply ih
      have h2 : x ∉ acc := by simpa using h1
      exact List.nodup_append.2 ⟨h, by simp, by rintro a ha b hb rfl; exact h2 (by simpa using (List.mem_singleton.1 hb) ▸ ha)⟩

example : clearRoots [3, 1, 3, 2, 1] ([] : List ℕ) = [3, 1, 2] := by decide

end Select

section Choose
omit [Field K] [IsStrictOrderedRing K]
variable {R : Type*}

instance : Std.Total (pairLe (K := K)) := ⟨fun a b => by
  rcases lt_trichotomy a.1 b.1 with h | h | h
  · exact Or.inl (Or.inl h)
  · rcases le_total a.2 b.2 with h' | h'
    · exact Or.inl (Or.inr ⟨h, h'⟩)
    · exact Or.inr (Or.inr ⟨h.symm, h'⟩)
  · exact Or.inr (Or.inl h)⟩

instance : IsTrans (K × ℕ) pairLe := ⟨fun a b c h1 h2 => by
  rcases h1 with h1 | ⟨h1, h1'⟩ <;> rcases h2 with h2 | ⟨h2, h2'⟩
  · exact Or.inl (h1.trans h2)
  · exact Or.inl (h2 ▸ h1)
  · exact Or.inl (h1 ▸ h2)
  · exact Or.inr ⟨h1.trans h2, h1'.trans h2'⟩⟩

theorem mem_pairs (ev : R → K) (roots : List R) (p : K × ℕ) :
    p ∈ roots.zipIdx.map (fun q => (ev q.1, q.2)) ↔ ∃ r, roots[p.2]? = some r ∧ p.1 = ev r := by
  obtain ⟨v, i⟩ := p
  simp only [List.mem_map, Prod.mk.injEq]
  constructor
  · rintro ⟨⟨r, j⟩, hm, rfl, rfl⟩
    exact ⟨r, List.mem_zipIdx_iff_getElem?.1 hm, rfl⟩
  · rintro ⟨r, h, rfl⟩
    exact ⟨(r, i), List.mem_zipIdx_iff_getElem?.2 h, rfl, rfl⟩

theorem mem_selVals (ev : R → K) (most : ℕ) (roots : List R) (p : K × ℕ) (h : p ∈ selVals ev most roots) :
    ∃ r, roots[p.2]? = some r ∧ p.1 = ev r :=
  (mem_pairs ev roots p).1 ((List.mem_insertionSort _).1 (List.mem_of_mem_take h))

theorem selVals_roots (ev : R → K) (roots : List R) (l : List (K × ℕ)) (hl : ∀ p ∈ l, ∃ r, roots[p.2]? = some r ∧ p.1 = ev r) :
    (l.filterMap fun p => roots[p.2]?).map ev = l.map Prod.fst := by
  induction l with
  | nil => rfl
  | cons p l ih =>
    obtain ⟨r, h1, h2⟩ := hl p (by simp)
    have e : ((p :: l).filterMap fun p => roots[p.2]?) = r :: l.filterMap fun p => roots[p.2]? := List.filterMap_cons_some h1
    rw [e, List.map_cons, List.map_cons, ih fun q hq => hl q (by simp [hq]), h2]

/-- The roots reported by `findroot` are candidates, at most `most` of them and all of them when there are not more, in the order of their values. -/
theorem select_roots (ev : R → K) (most : ℕ) (reg : K) (roots : List R) :
    (∀ r ∈ (select ev most reg roots).1, r ∈ roots) ∧ (select ev most reg roots).1.length = min most roots.length ∧
      ((select ev most reg roots).1.map ev).Pairwise (· ≤ ·) := by
  have hval := selVals_roots ev roots (selVals ev most roots) (fun p hp => mem_selVals ev most roots p hp)
  refine ⟨?_, ?_, ?_⟩
  · intro r hr
    obtain ⟨p, _, hp⟩ := List.mem_filterMap.1 hr
    exact List.mem_of_getElem? hp
  · have h := congrArg List.length hval
    simp only [List.length_map] at h
    show ((selVals ev most roots).filterMap fun p => roots[p.2]?).length = _
    rw [h]
    simp [selVals, List.length_insertionSort]
  · show (((selVals ev most roots).filterMap fun p => roots[p.2]?).map ev).Pairwise (· ≤ ·)
    rw [hval, List.pairwise_map]
    have hs : (selVals ev most roots).Pairwise pairLe := (List.pairwise_insertionSort pairLe _).sublist (List.take_sublist _ _)
    exact hs.imp fun h => h.elim le_of_lt fun h => h.1.le

/-- A candidate that is not reported has a value at least that of each reported one. -/
theorem select_least (ev : R → K) (most : ℕ) (reg : K) (roots : List R) (r s : R) (hr : r ∈ (select ev most reg roots).1) (hs : s ∈ roots)
    (hn : s ∉ (select ev most reg roots).1) : ev r ≤ ev s := by
  obtain ⟨p, hp, hpr⟩ := List.mem_filterMap.1 hr
  obtain ⟨r', h1, h2⟩ := mem_selVals ev most roots p hp
  obtain rfl : r' = r := Option.some.inj (h1.symm.trans hpr)
  obtain ⟨j, hj⟩ := List.mem_iff_getElem?.1 hs
  have hq := (List.mem_insertionSort (r := pairLe (K := K))).2 ((mem_pairs ev roots (ev s, j)).2 ⟨s, hj, rfl⟩)
  rw [← List.take_append_drop most (List.insertionSort pairLe _)] at hq
  rcases List.mem_append.1 hq with hq | hq
  · exact absurd (List.mem_filterMap.2 ⟨(ev s, j), hq, hj⟩) hn
  · have hpw := List.pairwise_insertionSort (pairLe (K := K)) (roots.zipIdx.map fun q => (ev q.1, q.2))
    rw [← List.take_append_drop most (List.insertionSort pairLe _), List.pairwise_append] at hpw
    have h := hpw.2.2 p hp _ hq
    rw [← h2]
    exact h.elim le_of_lt fun h => h.1.le

/-- The strict roots are exactly the reported roots of value below the tolerance; a negative value of any size counts. -/
theorem select_strict (ev : R → K) (most : ℕ) (reg : K) (roots : List R) (r : R) :
    r ∈ (select ev most reg roots).2 ↔ r ∈ (select ev most reg roots).1 ∧ ev r < reg := by
  simp only [select, List.mem_filterMap, List.mem_filter, decide_eq_true_eq]
  constructor
  · rintro ⟨p, ⟨hp, hv⟩, hpr⟩
    obtain ⟨r', h1, h2⟩ := mem_selVals ev most roots p hp
    obtain rfl : r' = r := Option.some.inj (h1.symm.trans hpr)
    exact ⟨⟨p, hp, hpr⟩, h2 ▸ hv⟩
  · rintro ⟨⟨p, hp, hpr⟩, hv⟩
    obtain ⟨r', h1, h2⟩ := mem_selVals ev most roots p hp
    obtain rfl : r' = r := Option.some.inj (h1.symm.trans hpr)
    exact ⟨p, ⟨hp, h2.symm ▸ hv⟩, hpr⟩

/-- Five values of `x^2 - 4`, at most three reported: a point of value -4 is called a strict root. -/
example : select (fun x : ℤ => x * x - 4) 3 1 [5, 0, 2, 7, 3] = ([0, 2, 3], [0, 2]) := by decide

/-- `normal_roots` is right (the roots that are not strict) exactly when every strict root is among the roots. -/
theorem normalRoots_iff [DecidableEq R] (roots strict : List R) :
    (∀ r, r ∈ normalRoots roots strict ↔ r ∈ roots ∧ r ∉ strict) ↔ ∀ r ∈ strict, r ∈ roots := by
  simp only [normalRoots, List.mem_append, List.mem_filter, decide_eq_true_eq]
  constructor
  · intro h r hr
    by_contra hn
    exact hn ((h r).1 (Or.inr ⟨hr, hn⟩)).1
  · intro h r
    constructor
    · rintro (h1 | ⟨h1, h2⟩)
      · exact h1
      · exact absurd (h r h1) h2
    · exact Or.inl

/-- For the answer of `findroot` it is right. -/
theorem normalRoots_select [DecidableEq R] (ev : R → K) (most : ℕ) (reg : K) (roots : List R) (r : R) :
    r ∈ normalRoots (select ev most reg roots).1 (select ev most reg roots).2 ↔ r ∈ (select ev most reg roots).1 ∧ reg ≤ ev r := by
  rw [(normalRoots_iff _ _).2 (fun r hr => ((select_strict ev most reg roots r).1 hr).1) r, select_strict]
  constructor
  · rintro ⟨h1, h2⟩
    exact ⟨h1, not_lt.1 fun h => h2 ⟨h1, h⟩⟩
  · rintro ⟨h1, h2⟩
    exact ⟨h1, fun h => absurd h.2 (not_lt.2 h2)⟩

/-- `RootsInfo(strict_roots = [r])`: the strict root is listed as a root that is not strict. -/
example : normalRoots ([] : List ℕ) [7] = [7] := by decide

end Choose

omit [IsStrictOrderedRing K] in
/-- A tangent is kept when its absolute value is below the tolerance at every nontrivial strict root, scaled to mean absolute value one;
the comment of the parameter says that it is then removed. -/
theorem filterTangents_mem (tol : K) (roots : List (List K)) (ts : List (List K → K)) (t : List K → K) :
    t ∈ filterTangents tol roots ts ↔ t ∈ ts ∧ ∀ r ∈ roots, |t (r.map fun x => x / ((r.map abs).sum / r.length))| < tol := by
  unfold filterTangents
  split_ifs with h
  · have : roots = [] := by simpa using h
    subst this
    simp
  · simp only [List.mem_filter, List.all_eq_true, normR]
    exact and_congr_right fun _ => forall₂_congr fun r _ => decide_eq_true_iff

omit [IsStrictOrderedRing K] in
/-- Filtering twice changes nothing. -/
theorem filterTangents_idem (tol : K) (roots : List (List K)) (ts : List (List K → K)) :
    filterTangents tol roots (filterTangents tol roots ts) = filterTangents tol roots ts := by
  unfold filterTangents
  split_ifs with h
  · rfl
  · rw [List.filter_filter]; simp

/-- At the root `(1, 2, 3)` the tangent `2 a - b` is kept and `a - b` is removed. -/
example : (fun l : List ℚ => 2 * l.getD 0 0 - l.getD 1 0) ∈
      filterTangents (1 / 1000000) [[1, 2, 3]] [fun l => l.getD 0 0 - l.getD 1 0, fun l => 2 * l.getD 0 0 - l.getD 1 0] ∧
    (fun l : List ℚ => l.getD 0 0 - l.getD 1 0) ∉ filterTangents (1 / 1000000) [[1, 2, 3]] [fun l => l.getD 0 0 - l.getD 1 0] := by
  constructor
  · rw [filterTangents_mem]
    norm_num
  · rw [filterTangents_mem]
    norm_num [abs_of_nonneg]

end Verif.FindRoot
