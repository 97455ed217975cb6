import Verif.Model.Grid
import Verif.Props.Monomials
import Mathlib.Tactic.Ring
import Mathlib.Algebra.BigOperators.Group.List.Basic

/-!
# The grid holds the values of the polynomial, and its local minima are found
-/

namespace Verif.Grid

open Verif

/-! ### The points -/

theorem range_reverse (n : ℕ) : (List.range (n + 1)).reverse = (List.range (n + 1)).map fun i => n - i := by
  apply List.ext_getElem
  · simp
  · intro i h1 h2
    simp at h1
    simp

/-- The triangle row by row. -/
def tri (n : ℕ) : List Pt := (List.range (n + 1)).flatMap fun s => (List.range (s + 1)).map fun r => (n - s, s - r, r)

theorem coor_eq (n : ℕ) : coor n = tri n := by
  unfold coor generatePartitions tri
  simp only [OfNat.ofNat_ne_zero, if_false, if_true, Nat.add_one_sub_one, genTuples, Nat.sub_zero, List.nil_append, Nat.zero_add, List.map_map]
  rw [range_reverse, List.flatMap_map, List.map_flatMap]
  refine List.flatMap_congr fun s hs => ?_
  have hs : s ≤ n := by simpa [Nat.lt_succ_iff] using hs
  rw [show n - (n - s) + 1 = s + 1 by omega, range_reverse, List.flatMap_map, List.map_flatMap, ← List.flatMap_pure_eq_map]
  refine List.flatMap_congr fun r hr => ?_
  have hr : r ≤ s := by simpa [Nat.lt_succ_iff] using hr
  simp
  omega

/-- The first rows of the triangle. -/
def rows (n m : ℕ) : List Pt := (List.range m).flatMap fun s => (List.range (s + 1)).map fun r => (n - s, s - r, r)

theorem rows_succ (n m : ℕ) : rows n (m + 1) = rows n m ++ (List.range (m + 1)).map fun r => (n - m, m - r, r) := by
  unfold rows
  rw [List.range_succ (n := m), List.flatMap_append, List.flatMap_singleton, ← List.range_succ]

theorem two_mul_tri (m : ℕ) : m * (m + 1) / 2 * 2 = m * (m + 1) := Nat.div_mul_cancel (Nat.even_mul_succ_self m).two_dvd

theorem tri_succ (m : ℕ) : (m + 1) * (m + 1 + 1) / 2 = m * (m + 1) / 2 + (m + 1) := by
  have h1 := two_mul_tri m
  have h2 := two_mul_tri (m + 1)
  have h3 : (m + 1) * (m + 1 + 1) = m * (m + 1) + 2 * (m + 1) := by ring
  omega

theorem rows_length (n : ℕ) : ∀ m, (rows n m).length = m * (m + 1) / 2
  | 0 => rfl
  | m + 1 => by
    rw [rows_succ, List.length_append, rows_length n m, List.length_map, List.length_range, tri_succ]

theorem rows_prefix (n m : ℕ) : ∀ k, ∃ l, rows n (m + k) = rows n m ++ l
  | 0 => ⟨[], by simp⟩
  | k + 1 => by
    obtain ⟨l, h⟩ := rows_prefix n m k
    exact ⟨_, by rw [← Nat.add_assoc, rows_succ, h, List.append_assoc]⟩

theorem mem_rows {n m : ℕ} (hm : m ≤ n + 1) {p : Pt} : p ∈ rows n m ↔ p.1 + p.2.1 + p.2.2 = n ∧ p.2.1 + p.2.2 < m := by
  unfold rows
  simp only [List.mem_flatMap, List.mem_map, List.mem_range]
  constructor
  · rintro ⟨s, hs, r, hr, rfl⟩
    dsimp only
    omega
  · obtain ⟨a, b, c⟩ := p
    dsimp only
    rintro ⟨h1, h2⟩
    exact ⟨b + c, h2, c, by omega, by rw [Prod.mk.injEq, Prod.mk.injEq]; omega⟩

theorem tri_eq_rows (n : ℕ) : tri n = rows n (n + 1) := rfl

theorem tri_take {n m : ℕ} (hm : m ≤ n + 1) : (tri n).take (m * (m + 1) / 2) = rows n m := by
  obtain ⟨l, h⟩ := rows_prefix n m (n + 1 - m)
  rw [Nat.add_sub_cancel' hm] at h
  rw [tri_eq_rows, h, ← rows_length n m, List.take_left]

theorem tri_get {n s r : ℕ} (hs : s ≤ n) (hr : r ≤ s) : (tri n)[s * (s + 1) / 2 + r]? = some (n - s, s - r, r) := by
  obtain ⟨l, h⟩ := rows_prefix n (s + 1) (n - s)
  rw [show s + 1 + (n - s) = n + 1 by omega, rows_succ n s] at h
  rw [tri_eq_rows, h, List.append_assoc, List.getElem?_append_right (by rw [rows_length]; omega), rows_length, Nat.add_sub_cancel_left,
    List.getElem?_append_left (by simp; omega), List.getElem?_map, List.getElem?_range (by omega)]
  rfl

/-- **The heat map colours a point with the colour of that point.**  The index used for row `r` and entry `j` is the index of `(n-r-j, j, r)`, as the comment in the code says. -/
theorem heatIndex_point {n r j : ℕ} (h : r + j ≤ n) : (coor n)[heatIndex r j]? = some (n - r - j, j, r) := by
  have hi : heatIndex r j = (r + j) * (r + j + 1) / 2 + r := by
    unfold heatIndex
    have h1 := two_mul_tri (r + j)
    have h2 := tri_succ (r + j)
    have h3 : (r + j + 2) * (r + j + 1) = (r + j + 1) * (r + j + 1 + 1) := by ring
    rw [h3, h2]
    omega
  rw [coor_eq, hi, tri_get h (by omega)]
  congr 2
  · omega
  · congr 1
    omega

theorem mem_takeWhile {α : Type*} {P : α → Bool} : ∀ {l : List α} {a : α}, a ∈ l.takeWhile P → P a = true
  | b :: l, a, h => by
    by_cases hb : P b = true
    · rw [List.takeWhile_cons_of_pos hb] at h
      rcases List.mem_cons.1 h with rfl | h
      · exact hb
      · exact mem_takeWhile h
    · rw [List.takeWhile_cons_of_neg hb] at h
      cases h

/-- Every pixel is written inside the image, with the colour of an existing point. -/
theorem heatPixels_inside {n : ℕ} {e : ℕ × ℕ × ℕ} (he : e ∈ heatPixels n) : e.1 ≤ n ∧ e.2.1 ≤ n ∧ ∃ p ∈ coor n, (coor n)[e.2.2]? = some p ∧ p.2.2 = e.1 * 15 / 26 * 2 ∧ p.2.1 + e.1 * 15 / 26 = e.2.1 := by
  unfold heatPixels at he
  obtain ⟨i, hi, he⟩ := List.mem_flatMap.1 he
  obtain ⟨j, hj, rfl⟩ := List.mem_map.1 he
  have h1 : i * 15 / 26 * 2 ≤ n := by
    have := mem_takeWhile hi
    simpa using this
  have h2 : i ∈ List.range (n + 1) := (List.takeWhile_sublist _).subset hi
  rw [List.mem_range] at h2 hj
  have hg := heatIndex_point (n := n) (r := i * 15 / 26 * 2) (j := j) (by omega)
  dsimp only
  refine ⟨by omega, by omega, _, List.mem_of_getElem? hg, hg, rfl, rfl⟩

/-! ### The values -/

theorem precalRow_length (i : ℕ) : ∀ k, (precalRow i k).length = k + 2
  | 0 => rfl
  | k + 1 => by simp [precalRow, precalRow_length i k]

theorem precalRow_get (i : ℕ) : ∀ k j, j ≤ k + 1 → (precalRow i k)[j]? = some (i ^ j)
  | 0, 0, _ => by simp [precalRow]
  | 0, 1, _ => by simp [precalRow]
  | 0, j + 2, h => by omega
  | k + 1, j, h => by
    have hl := precalRow_length i k
    by_cases hj : j ≤ k + 1
    · simp only [precalRow]
      rw [List.getElem?_append_left (by omega), precalRow_get i k j hj]
    · obtain rfl : j = k + 2 := by omega
      have hlast : (precalRow i k).getLastD 0 = i ^ (k + 1) := by
        have := precalRow_get i k (k + 1) le_rfl
        rw [List.getLastD_eq_getLast?, List.getLast?_eq_getElem?, hl]
        simp [this]
      simp only [precalRow]
      rw [List.getElem?_append_right (by omega), hl, hlast]
      simp [pow_succ]

/-- The table holds the powers. -/
theorem precal_get {size limit i j : ℕ} (hi : i ≤ size) (hj : j ≤ limit) : (precal size limit)[i]?.bind (fun row => row[j]?) = some (i ^ j) := by
  unfold precal
  rw [List.getElem?_map, List.getElem?_range (by omega)]
  simp only [Option.map_some, Option.bind_some]
  exact precalRow_get i (limit - 1) j (by omega)

theorem basis_eq {size limit : ℕ} (pt monom : List ℕ) (hp : ∀ i ∈ pt, i ≤ size) (hm : ∀ d ∈ monom, d ≤ limit) :
    basis (precal size limit) pt monom = some ((pt.zip monom).map fun e => e.1 ^ e.2).prod := by
  unfold basis
  have key : ∀ (l : List (ℕ × ℕ)) (a : ℕ), (∀ e ∈ l, e.1 ≤ size ∧ e.2 ≤ limit) →
      l.foldl (fun acc e => match acc, (precal size limit)[e.1]?.bind fun row => row[e.2]? with
        | some a, some b => some (a * b)
        | _, _ => none) (some a) = some (a * (l.map fun e => e.1 ^ e.2).prod) := by
    intro l
    induction l with
    | nil => intro a _; simp
    | cons e l ih =>
      intro a h
      obtain ⟨h1, h2⟩ := h e List.mem_cons_self
      rw [List.foldl_cons, precal_get h1 h2]
      dsimp only
      rw [ih _ fun e he => h e (List.mem_cons_of_mem _ he), List.map_cons, List.prod_cons, Nat.mul_assoc]
  exact (key _ 1 fun e he => ⟨hp _ (List.of_mem_zip he).1, hm _ (List.of_mem_zip he).2⟩).trans (by rw [Nat.one_mul])

theorem valueAt_eq {size limit : ℕ} (terms : List (List ℕ × ℤ)) (pt : List ℕ) (hp : ∀ i ∈ pt, i ≤ size) (hm : ∀ t ∈ terms, ∀ d ∈ t.1, d ≤ limit) :
    valueAt (precal size limit) terms pt = some (terms.map fun t => t.2 * (((pt.zip t.1).map fun e => (e.1 : ℤ) ^ e.2).prod)).sum := by
  unfold valueAt
  have key : ∀ (l : List (List ℕ × ℤ)) (a : ℤ), (∀ t ∈ l, ∀ d ∈ t.1, d ≤ limit) →
      l.foldl (fun acc t => match acc, basis (precal size limit) pt t.1 with
        | some a, some b => some (a + t.2 * b)
        | _, _ => none) (some a) = some (a + (l.map fun t => t.2 * (((pt.zip t.1).map fun e => (e.1 : ℤ) ^ e.2).prod)).sum) := by
    intro l
    induction l with
    | nil => intro a _; simp
    | cons t l ih =>
      intro a h
      rw [List.foldl_cons, basis_eq pt t.1 hp (h t List.mem_cons_self)]
      dsimp only
      rw [ih _ fun t ht => h t (List.mem_cons_of_mem _ ht), List.map_cons, List.sum_cons]
      have hc : (((pt.zip t.1).map fun e => e.1 ^ e.2).prod : ℕ) = (((pt.zip t.1).map fun e => (e.1 : ℤ) ^ e.2).prod : ℤ) := by
        generalize pt.zip t.1 = z
        induction z with
        | nil => simp
        | cons e z ih => simp only [List.map_cons, List.prod_cons, Nat.cast_mul, Nat.cast_pow, ih]
      rw [hc]
      congr 1
      ring
  exact (key terms 0 hm).trans (by rw [zero_add])

theorem le_sum_of_mem : ∀ {l : List ℕ} {a : ℕ}, a ∈ l → a ≤ l.sum
  | b :: l, a, h => by
    rw [List.sum_cons]
    rcases List.mem_cons.1 h with rfl | h
    · omega
    · have := le_sum_of_mem h
      omega

/-- **Within the limits the grid holds the exact value of the polynomial at every point**, and no lookup fails. -/
theorem gridValue_exact {sizeLimit degreeLimit nvars size degree : ℕ} {terms : List (List ℕ × ℤ)} (hs : size ≤ sizeLimit) (hd : degree ≤ degreeLimit) (ht : ∀ t ∈ terms, t.1.sum ≤ degree) :
    gridValue sizeLimit degreeLimit nvars size degree terms =
      (generatePartitions nvars size true).map fun pt => some (terms.map fun t => t.2 * (((pt.zip t.1).map fun e => (e.1 : ℤ) ^ e.2).prod)).sum := by
  unfold gridValue
  rw [if_neg (by omega)]
  refine List.map_congr_left fun pt hpt => valueAt_eq terms pt (fun i hi => ?_) fun t h d hd' => ?_
  · have := ((generatePartitions_mem nvars size pt).2.1 hpt).2
    have := le_sum_of_mem hi
    omega
  · have := ht t h
    have := le_sum_of_mem hd'
    omega

/-- **Beyond the limits the values are zero**, whatever the polynomial. -/
theorem gridValue_limit {sizeLimit degreeLimit nvars size degree : ℕ} (terms : List (List ℕ × ℤ)) (h : sizeLimit < size ∨ degreeLimit < degree) :
    gridValue sizeLimit degreeLimit nvars size degree terms = (generatePartitions nvars size true).map fun _ => some 0 := if_pos h

/-- The limits of the code, size 60 and degree 18: `a^2 - 3bc`. -/
example : gridValue 60 18 3 2 2 [([2, 0, 0], 1), ([0, 1, 1], -3)] = [some 4, some 1, some 1, some 0, some (-3), some 0] := by decide +kernel

/-! ### Local minima -/

variable {K : Type*} [LinearOrder K]

/-- A point of the interior with a value below those of its six neighbours. -/
def IsMin (n : ℕ) (f : Pt → K) (p : Pt) : Prop := p.1 + p.2.1 + p.2.2 = n ∧ 0 < p.1 ∧ 0 < p.2.1 ∧ 0 < p.2.2 ∧ ∀ q ∈ neighbours p, f p < f q

theorem tri_nodup (n : ℕ) : (tri n).Nodup := by
  rw [← coor_eq]
  unfold coor
  refine List.Nodup.map_on ?_ (generatePartitions_nodup 3 n true)
  intro a ha b hb hab
  have h1 := ((generatePartitions_mem 3 n a).2.1 ha).1
  have h2 := ((generatePartitions_mem 3 n b).2.1 hb).1
  match a, b, h1, h2 with
  | [a, b, c], [a', b', c'], _, _ => simpa using hab

theorem zip_grid {α β : Type*} (f : α → β) : ∀ l : List α, l.zip (l.map f) = l.map fun p => (p, f p)
  | [] => rfl
  | a :: l => by rw [List.map_cons, List.zip_cons_cons, zip_grid f l, List.map_cons]

theorem mem_coor {n : ℕ} {p : Pt} : p ∈ coor n ↔ p.1 + p.2.1 + p.2.2 = n := by
  rw [coor_eq, tri_eq_rows, mem_rows le_rfl]
  omega

theorem dict_grid (n : ℕ) (f : Pt → K) {p : Pt} (hp : p.1 + p.2.1 + p.2.2 = n) : dget (dictOf ((coor n).zip ((coor n).map f))) p = some (f p) := by
  have hk : (dkeys ((coor n).map fun p => (p, f p))).Nodup := by
    unfold dkeys
    rw [List.map_map]
    have : (Prod.fst ∘ fun p : Pt => (p, f p)) = id := rfl
    rw [this, List.map_id, coor_eq]
    exact tri_nodup n
  rw [zip_grid, dget_dictOf_of_nodup _ hk, dget_eq_some_iff _ hk]
  exact List.mem_map.2 ⟨p, mem_coor.2 hp, rfl⟩

theorem lower_eq {n : ℕ} {f : Pt → K} {v : K} : ∀ (qs : List Pt), (∀ q ∈ qs, q.1 + q.2.1 + q.2.2 = n) →
    ∃ b, lower (dictOf ((coor n).zip ((coor n).map f))) v qs = .ok b ∧ (b = true ↔ ∀ q ∈ qs, v < f q)
  | [], _ => ⟨true, rfl, by simp⟩
  | q :: qs, h => by
    obtain ⟨b, h1, h2⟩ := lower_eq (f := f) (v := v) qs fun q hq => h q (List.mem_cons_of_mem _ hq)
    unfold lower
    rw [dict_grid n f (h q List.mem_cons_self)]
    dsimp only
    by_cases hv : f q ≤ v
    · rw [if_pos hv]
      exact ⟨false, rfl, by simp [not_lt.2 hv]⟩
    · rw [if_neg hv]
      refine ⟨b, h1, h2.trans ?_⟩
      simp [not_le.1 hv]

theorem checker_eq {n : ℕ} {f : Pt → K} (cyc : Bool) {p : Pt} (hp : p.1 + p.2.1 + p.2.2 = n) :
    ∃ b, checker (dictOf ((coor n).zip ((coor n).map f))) cyc p (f p) = .ok b ∧ (b = true ↔ IsMin n f p ∧ (cyc = true → p.2.1 ≤ p.1 ∧ p.2.2 ≤ p.1)) := by
  unfold checker
  by_cases hc : (cyc && (decide (p.1 < p.2.1) || decide (p.1 < p.2.2))) = true
  · rw [if_pos hc]
    refine ⟨false, rfl, ?_⟩
    simp only [Bool.false_eq_true, false_iff, not_and]
    intro _ h
    simp only [Bool.and_eq_true, Bool.or_eq_true, decide_eq_true_eq] at hc
    have := h hc.1
    omega
  · rw [if_neg hc]
    have hc' : cyc = true → p.2.1 ≤ p.1 ∧ p.2.2 ≤ p.1 := by
      intro h
      simp only [Bool.and_eq_true, Bool.or_eq_true, decide_eq_true_eq, not_and, h, true_implies] at hc
      omega
    by_cases h0 : p.1 = 0 ∨ p.2.1 = 0 ∨ p.2.2 = 0
    · rw [if_pos h0]
      refine ⟨false, rfl, ?_⟩
      simp only [Bool.false_eq_true, false_iff, not_and]
      rintro ⟨_, h1, h2, h3, _⟩
      omega
    · rw [if_neg h0]
      obtain ⟨b, h1, h2⟩ := lower_eq (n := n) (f := f) (v := f p) (neighbours p) (by
        intro q hq
        unfold neighbours at hq
        simp only [List.mem_cons, List.not_mem_nil, or_false] at hq
        rcases hq with rfl | rfl | rfl | rfl | rfl | rfl <;> dsimp only <;> omega)
      refine ⟨b, h1, h2.trans ⟨fun h => ⟨⟨hp, by omega, by omega, by omega, h⟩, hc'⟩, fun h => h.1.2.2.2.2⟩⟩

theorem searchLoop_eq {n : ℕ} {f : Pt → K} (cyc : Bool) : ∀ (l : List Pt), (∀ p ∈ l, p.1 + p.2.1 + p.2.2 = n) →
    ∃ out, searchLoop (dictOf ((coor n).zip ((coor n).map f))) cyc (l.map fun p => (p, f p)) = .ok out ∧
      ∀ x, x ∈ out ↔ ∃ p ∈ l, IsMin n f p ∧ (cyc = true → p.2.1 ≤ p.1 ∧ p.2.2 ≤ p.1) ∧ x = if cyc then (p.2.1, p.2.2, p.1) else p
  | [], _ => ⟨[], rfl, by simp⟩
  | p :: l, h => by
    obtain ⟨out, h1, h2⟩ := searchLoop_eq cyc (f := f) l fun q hq => h q (List.mem_cons_of_mem _ hq)
    obtain ⟨b, h3, h4⟩ := checker_eq (f := f) cyc (h p List.mem_cons_self)
    rw [List.map_cons]
    unfold searchLoop
    rw [h3, h1]
    refine ⟨_, rfl, fun x => ?_⟩
    cases b with
    | false =>
      have h5 : ¬ (IsMin n f p ∧ (cyc = true → p.2.1 ≤ p.1 ∧ p.2.2 ≤ p.1)) := fun h => by simpa using h4.2 h
      simp only [Bool.false_eq_true, if_false]
      rw [h2 x]
      constructor
      · rintro ⟨q, hq, hx⟩
        exact ⟨q, List.mem_cons_of_mem _ hq, hx⟩
      · rintro ⟨q, hq, hm, hc, hx⟩
        rcases List.mem_cons.1 hq with rfl | hq
        · exact absurd ⟨hm, hc⟩ h5
        · exact ⟨q, hq, hm, hc, hx⟩
    | true =>
      obtain ⟨h5, h6⟩ := h4.1 rfl
      simp only [if_true, List.mem_cons]
      rw [h2 x]
      constructor
      · rintro (rfl | ⟨q, hq, hx⟩)
        · exact ⟨p, Or.inl rfl, h5, h6, rfl⟩
        · exact ⟨q, Or.inr hq, hx⟩
      · rintro ⟨q, rfl | hq, hm, hc, hx⟩
        · exact Or.inl hx
        · exact Or.inr ⟨q, hq, hm, hc, hx⟩

/-- **Without symmetry reduction exactly the strict local minima of the interior are found**, for every function on the grid; no lookup fails. -/
theorem localMinima_all (n : ℕ) (f : Pt → K) : ∃ out, localMinima n ((coor n).map f) false = .ok out ∧ ∀ p, p ∈ out ↔ IsMin n f p := by
  unfold localMinima
  dsimp only
  obtain ⟨out, h1, h2⟩ := searchLoop_eq (n := n) (f := f) false (coor n) fun p hp => mem_coor.1 hp
  refine ⟨out, ?_, fun p => (h2 p).trans ?_⟩
  · rw [if_neg (by simp)]
    rw [← h1, zip_grid]
  · constructor
    · rintro ⟨q, _, hm, _, hx⟩
      have hx : p = q := by simpa using hx
      exact hx ▸ hm
    · exact fun h => ⟨p, mem_coor.2 h.1, h, (fun h => absurd h (by decide)), (by simp)⟩

/-- With the reduction, a point is reported exactly if its rotation is a strict local minimum whose first coordinate is maximal and at least `n - 2n/3 + 1`. -/
theorem localMinima_cyc (n : ℕ) (f : Pt → K) : ∃ out, localMinima n ((coor n).map f) true = .ok out ∧
    ∀ i j k, (j, k, i) ∈ out ↔ IsMin n f (i, j, k) ∧ j ≤ i ∧ k ≤ i ∧ n - 2 * n / 3 + 1 ≤ i := by
  unfold localMinima
  dsimp only
  have hT : 2 * n / 3 ≤ n + 1 := by omega
  obtain ⟨out, h1, h2⟩ := searchLoop_eq (n := n) (f := f) true (rows n (2 * n / 3)) fun p hp => ((mem_rows hT).1 hp).1
  refine ⟨out, ?_, fun i j k => (h2 _).trans ?_⟩
  · rw [if_pos rfl]
    conv_lhs => rw [zip_grid, ← List.map_take, coor_eq, tri_take hT]
    rw [← h1, zip_grid, coor_eq]
  · constructor
    · rintro ⟨⟨a, b, c⟩, hq, hm, hc, hx⟩
      have hx : j = b ∧ k = c ∧ i = a := by simpa using hx
      obtain ⟨rfl, rfl, rfl⟩ := hx
      have h3 := (mem_rows hT).1 hq
      have h4 := hc rfl
      dsimp only at h3 h4
      exact ⟨hm, h4.1, h4.2, by omega⟩
    · rintro ⟨hm, h3, h4, h5⟩
      have h6 := hm.1
      dsimp only at h6
      exact ⟨(i, j, k), (mem_rows hT).2 (by dsimp only; omega), hm, fun _ => ⟨h3, h4⟩, by simp⟩

theorem IsMin.rotate {n : ℕ} {f : Pt → K} (hf : ∀ i j k, i + j + k = n → f (i, j, k) = f (j, k, i)) {i j k : ℕ} (h : IsMin n f (i, j, k)) : IsMin n f (j, k, i) := by
  obtain ⟨h0, h1, h2, h3, h4⟩ := h
  dsimp only at h0 h1 h2 h3
  refine ⟨by dsimp only; omega, h2, h3, h1, fun q hq => ?_⟩
  rw [← hf i j k h0]
  unfold neighbours at hq h4
  simp only [List.mem_cons, List.not_mem_nil, or_false, forall_eq_or_imp, forall_eq] at hq h4
  obtain ⟨a1, a2, a3, a4, a5, a6⟩ := h4
  rcases hq with rfl | rfl | rfl | rfl | rfl | rfl
  · rw [← hf (i + 1) j (k - 1) (by omega)]; exact a5
  · rw [← hf i (j + 1) (k - 1) (by omega)]; exact a6
  · rw [← hf (i + 1) (j - 1) k (by omega)]; exact a2
  · rw [← hf i (j - 1) (k + 1) (by omega)]; exact a1
  · rw [← hf (i - 1) (j + 1) k (by omega)]; exact a4
  · rw [← hf (i - 1) j (k + 1) (by omega)]; exact a3

/-- **For a cyclic function every strict local minimum is found up to rotation**, except the centre and, for sizes `3m + 1`, the three points `(m+1, m+1, m-1)`. -/
theorem localMinima_cyc_complete {n : ℕ} (f : Pt → K) (hf : ∀ i j k, i + j + k = n → f (i, j, k) = f (j, k, i)) {i j k : ℕ} (h : IsMin n f (i, j, k)) (hne : ¬ (i = j ∧ j = k))
    (hne' : ∀ m, n = 3 * m + 1 → i + 1 ≠ m ∧ j + 1 ≠ m ∧ k + 1 ≠ m ∨ i > m + 1 ∨ j > m + 1 ∨ k > m + 1) :
    ∃ out, localMinima n ((coor n).map f) true = .ok out ∧ ((j, k, i) ∈ out ∨ (k, i, j) ∈ out ∨ (i, j, k) ∈ out) := by
  obtain ⟨out, h1, h2⟩ := localMinima_cyc n f
  refine ⟨out, h1, ?_⟩
  rw [h2, h2, h2]
  have h0 := h.1
  dsimp only at h0
  have h' := h.rotate hf
  have h'' := h'.rotate hf
  have key : ∀ i j k : ℕ, IsMin n f (i, j, k) → ¬ (i = j ∧ j = k) → (∀ m, n = 3 * m + 1 → i + 1 ≠ m ∧ j + 1 ≠ m ∧ k + 1 ≠ m ∨ i > m + 1 ∨ j > m + 1 ∨ k > m + 1) → j ≤ i → k ≤ i → n - 2 * n / 3 + 1 ≤ i := by
    intro i j k h hne hne' hj hk
    by_contra hlt
    obtain ⟨h0, h1, h2, h3, h4⟩ := h
    unfold neighbours at h4
    simp only [List.mem_cons, List.not_mem_nil, or_false, forall_eq_or_imp, forall_eq] at h4
    dsimp only at h0 h1 h2 h3 h4
    obtain ⟨a1, a2, a3, a4, a5, a6⟩ := h4
    have e1 := hf i j k h0
    have e2 := hf j k i (by omega)
    rcases (show n % 3 = 0 ∨ n % 3 = 1 ∨ n % 3 = 2 by omega) with hn | hn | hn
    · omega
    · have := hne' (n / 3) (by omega)
      have c : j = k := by omega
      have c' : i = j + 1 := by omega
      subst c c'
      rw [Nat.add_sub_cancel] at a3
      exact lt_irrefl _ (e1 ▸ a3)
    · rcases (show i = j ∧ i = k + 1 ∨ i = k ∧ i = j + 1 by omega) with ⟨c, c'⟩ | ⟨c, c'⟩
      · subst c c'
        rw [Nat.add_sub_cancel] at a1
        rw [e1] at a1
        exact lt_irrefl _ a1
      · subst c c'
        rw [Nat.add_sub_cancel] at a6
        rw [e1, e2] at a6
        exact lt_irrefl _ a6
  rcases (show (j ≤ i ∧ k ≤ i) ∨ (k ≤ j ∧ i ≤ j) ∨ (i ≤ k ∧ j ≤ k) by omega) with c | c | c
  · exact Or.inl ⟨h, c.1, c.2, key i j k h hne hne' c.1 c.2⟩
  · exact Or.inr (Or.inl ⟨h', c.1, c.2, key j k i h' (by omega) (fun m hm => by have := hne' m hm; omega) c.1 c.2⟩)
  · exact Or.inr (Or.inr ⟨h'', c.1, c.2, key k i j h'' (by omega) (fun m hm => by have := hne' m hm; omega) c.1 c.2⟩)

/-- The size in use is 60: there only the centre is missed. -/
theorem localMinima_sixty (f : Pt → K) (hf : ∀ i j k, i + j + k = 60 → f (i, j, k) = f (j, k, i)) {i j k : ℕ} (h : IsMin 60 f (i, j, k)) (hne : (i, j, k) ≠ (20, 20, 20)) :
    ∃ out, localMinima 60 ((coor 60).map f) true = .ok out ∧ ((j, k, i) ∈ out ∨ (k, i, j) ∈ out ∨ (i, j, k) ∈ out) := by
  refine localMinima_cyc_complete f hf h (fun hc => hne ?_) fun m hm => by omega
  have := h.1
  rw [Prod.mk.injEq, Prod.mk.injEq]
  dsimp only at this
  omega

/-- A cyclic function with its minima at the rotations of `(m+1, m+1, m-1)`. -/
def dent (m : ℕ) (p : Pt) : ℕ := if (p.1, p.2.1, p.2.2) ∈ [(m + 1, m + 1, m - 1), (m + 1, m - 1, m + 1), (m - 1, m + 1, m + 1)] then 0 else 1

theorem dent_cyclic (m i j k : ℕ) : dent m (i, j, k) = dent m (j, k, i) := by
  unfold dent
  simp only [List.mem_cons, List.not_mem_nil, or_false, Prod.mk.injEq]
  congr 1
  apply propext
  omega

/-- **For sizes `3m + 1` the truncation loses minima near the centre**: this cyclic function has a strict minimum, and no rotation of it is reported. -/
theorem localMinima_cyc_lost {m : ℕ} (hm : 2 ≤ m) : IsMin (3 * m + 1) (dent m) (m + 1, m + 1, m - 1) ∧
    ∃ out, localMinima (3 * m + 1) ((coor (3 * m + 1)).map (dent m)) true = .ok out ∧ (m + 1, m + 1, m - 1) ∉ out ∧ (m + 1, m - 1, m + 1) ∉ out ∧ (m - 1, m + 1, m + 1) ∉ out := by
  refine ⟨⟨by dsimp only; omega, by dsimp only; omega, by dsimp only; omega, by dsimp only; omega, ?_⟩, ?_⟩
  · have h0 : dent m (m + 1, m + 1, m - 1) = 0 := by
      unfold dent
      rw [if_pos (by simp)]
    rw [h0]
    intro q hq
    unfold dent
    rw [if_neg]
    · exact Nat.one_pos
    · unfold neighbours at hq
      simp only [List.mem_cons, List.not_mem_nil, or_false, Prod.mk.injEq] at hq ⊢
      rcases hq with rfl | rfl | rfl | rfl | rfl | rfl <;> dsimp only <;> omega
  · obtain ⟨out, h1, h2⟩ := localMinima_cyc (3 * m + 1) (dent m)
    refine ⟨out, h1, ?_, ?_, ?_⟩ <;> rw [h2] <;> rintro ⟨_, h3, h4, h5⟩ <;> omega

/-- The squares give a strict minimum. -/
def squares (p : Pt) : ℕ := (p.1 - 3) ^ 2 + (3 - p.1) ^ 2 + ((p.2.1 - 2) ^ 2 + (2 - p.2.1) ^ 2) + ((p.2.2 - 1) ^ 2 + (1 - p.2.2) ^ 2)

example : IsMin 6 squares (3, 2, 1) := by
  refine ⟨rfl, by decide, by decide, by decide, ?_⟩
  decide

example : localMinima 6 ((coor 6).map squares) true = .ok [(2, 1, 3)] := by
  have h : (match localMinima 6 ((coor 6).map squares) true with | .ok l => l | .error _ => []) = [(2, 1, 3)] := by decide +kernel
  obtain ⟨out, h1, _⟩ := localMinima_cyc 6 squares
  rw [h1] at h ⊢
  exact congrArg _ h

end Verif.Grid
