import Verif.Props.DenseHom

/-!
# The parts of the solver of dense symmetric polynomials

The trivial answer, the removal of the value at `(1, 1, 1)`, and the division by the discriminant.
-/

namespace Verif.Dense

open Verif.Ternary Verif.TermsPoly Verif.Acute

variable {K : Type*} [Field K] [LinearOrder K] [IsStrictOrderedRing K]

/-- The values of the polynomial do not change when variables are exchanged. -/
structure Sym (p : TP K) : Prop where
  ab : ∀ a b c, polyVal p b a c = polyVal p a b c
  bc : ∀ a b c, polyVal p a c b = polyVal p a b c

theorem Sym.rot {p : TP K} (h : Sym p) (a b c : K) : polyVal p b c a = polyVal p a b c := by rw [h.bc, h.ab]

/-- A symmetric homogeneous polynomial of degree `d`. -/
structure GoodPoly (d : ℕ) (q : TP K) : Prop where
  poly : IsPoly 3 q
  sym : Sym q
  hom : HomDeg d q

theorem polyVal_coeffOf (q : TP K) (a b c : K) : polyVal (coeffOf q).coeffs a b c = polyVal q a b c := by
  unfold coeffOf
  split
  · rename_i h
    subst h
    rw [polyVal_cons3, polyVal_nil]
    ring
  · rfl

theorem arity_coeffOf {q : TP K} (h : Arity 3 q) : Arity 3 (coeffOf q).coeffs := by
  unfold coeffOf
  split
  · intro t ht
    rw [List.mem_singleton.1 ht]
    rfl
  · exact h

/-! ### The trivial answer -/

/-- The rotation of an exponent triple. -/
def rotM (m : List ℕ) : List ℕ := match m with | [i, j, k] => [k, i, j] | m => m

theorem perm_rotT {q : TP K} (hq : IsPoly 3 q) (hr : ∀ a b c, polyVal q b c a = polyVal q a b c) : q.Perm (rotT q) := by
  refine perm_of_values hq ⟨arity_rotT hq.arity, ?_, ?_⟩ ?_
  · have : dkeys (rotT q) = (dkeys q).map rotM := by
      unfold dkeys rotT
      rw [List.map_map, List.map_map]
      rfl
    rw [this]
    refine List.Nodup.map_on ?_ hq.nodup
    intro x hx y hy e
    obtain ⟨t, ht, rfl⟩ := List.mem_map.1 hx
    obtain ⟨u, hu, rfl⟩ := List.mem_map.1 hy
    obtain ⟨i, j, k, h1⟩ := List.length_eq_three.1 (hq.arity t ht)
    obtain ⟨i', j', k', h2⟩ := List.length_eq_three.1 (hq.arity u hu)
    rw [h1, h2] at e ⊢
    simp only [rotM, List.cons.injEq, and_true] at e ⊢
    tauto
  · intro t ht
    obtain ⟨u, hu, rfl⟩ := List.mem_map.1 ht
    exact hq.ne u hu
  · intro x hx
    obtain ⟨a, b, c, rfl⟩ := List.length_eq_three.1 hx
    have := polyVal_rotT hq.arity a b c
    rw [hr] at this
    exact this.symm

theorem sum_rot {q : TP K} (hq : IsPoly 3 q) (hr : ∀ a b c, polyVal q b c a = polyVal q a b c) (F : List ℕ × K → K) :
    (q.map fun t => F (rotM t.1, t.2)).sum = (q.map F).sum := by
  rw [((perm_rotT hq hr).map F).sum_eq]
  congr 1
  unfold rotT
  rw [List.map_map]
  rfl

theorem sum_key {q : TP K} (hd : (dkeys q).Nodup) (k : List ℕ) (x : K) : (q.map fun t => if t.1 = k then t.2 * x else 0).sum = (dget q k).getD 0 * x := by
  induction q with
  | nil => simp [dget]
  | cons t q ih =>
    obtain ⟨m, v⟩ := t
    simp only [dkeys, List.map_cons, List.nodup_cons] at hd
    rw [List.map_cons, List.sum_cons, ih hd.2]
    by_cases h : m = k
    · subst h
      have : dget q m = none := (dget_eq_none_iff q m).2 hd.1
      simp only [if_true, dget, this, Option.getD_some, Option.getD_none]
      ring
    · simp only [if_neg h, dget]
      ring

theorem sum_filter_map (q : TP K) (p : List ℕ × K → Bool) (F : List ℕ × K → K) : ((q.filter p).map F).sum = (q.map fun t => if p t then F t else 0).sum := by
  induction q with
  | nil => rfl
  | cons t q ih =>
    rw [List.filter_cons, List.map_cons, List.sum_cons, ← ih]
    by_cases h : p t = true
    · rw [if_pos h, if_pos h, List.map_cons, List.sum_cons]
    · rw [if_neg h, if_neg h, zero_add]

/-- The trivial answer is correct for every homogeneous cyclic polynomial. -/
theorem trivialAdditive_shows {q : TP K} (hq : IsPoly 3 q) {d : ℕ} (hd : HomDeg d q) (hr : ∀ a b c, polyVal q b c a = polyVal q a b c) {C : Cert K}
    (h : trivialAdditive (coeffOf q) = some C) : Shows Octant (polyVal q) C := by
  by_cases hq0 : q = []
  · subst hq0
    have h0 : trivialAdditive (coeffOf ([] : TP K)) = some (.plain []) := by
      unfold trivialAdditive coeffOf
      rw [if_pos rfl, if_neg (by simp)]
      have e1 : (⟨[([0, 0, 0], 0)], 3⟩ : Coeff K).degree = 0 := rfl
      have e2 : (⟨[([0, 0, 0], 0)], 3⟩ : Coeff K).call [0 / 3, 0 / 3, 0 / 3] = 0 := by simp [Coeff.call, dget]
      simp only [e1, e2]
      simp [isRep]
    rw [h0] at h
    rw [← Option.some.inj h]
    exact plain_shows (fun a b c => by simp [polyVal_nil]) (by simp) (by simp)
  · have hc : coeffOf q = ⟨q, 3⟩ := by
      unfold coeffOf
      rw [if_neg hq0]
    rw [hc] at h
    have hdeg : (⟨q, 3⟩ : Coeff K).degree = d := degree_of_hom hd hq0
    unfold trivialAdditive at h
    simp only [hdeg] at h
    split at h
    · exact absurd h (by simp)
    · rename_i hneg
      have hpos : ∀ t ∈ q, 0 ≤ t.2 := by
        intro t ht
        by_contra hlt
        push Not at hlt
        exact hneg (List.any_eq_true.2 ⟨t, ht, by simpa using hlt⟩)
      have hcall : 0 ≤ (⟨q, 3⟩ : Coeff K).call [d / 3, d / 3, d / 3] := by
        unfold Coeff.call
        cases hg : dget q [d / 3, d / 3, d / 3] with
        | none => exact le_refl _
        | some v => exact hpos _ ((dget_eq_some_iff q hq.nodup _ v).1 hg)
      rw [← Option.some.inj h]
      apply plain_shows
      · intro a b c
        rw [List.map_append, List.sum_append, List.map_map, sum_filter_map]
        have hcen : (List.map (fun t : K × Val3 K => t.1 * t.2 a b c) (if d % 3 = 0 ∧ (⟨q, 3⟩ : Coeff K).call [d / 3, d / 3, d / 3] ≠ 0 then
            [((⟨q, 3⟩ : Coeff K).call [d / 3, d / 3, d / 3] / 3, cyc3 fun a b c => a ^ (d / 3) * b ^ (d / 3) * c ^ (d / 3))] else [])).sum =
            (q.map fun t => if d % 3 = 0 ∧ t.1 = [d / 3, d / 3, d / 3] then t.2 * (a ^ (d / 3) * b ^ (d / 3) * c ^ (d / 3)) else 0).sum := by
          by_cases h3 : d % 3 = 0
          · simp only [h3, true_and]
            rw [sum_key hq.nodup]
            by_cases hv : (⟨q, 3⟩ : Coeff K).call [d / 3, d / 3, d / 3] = 0
            · rw [if_neg (by simpa using hv)]
              unfold Coeff.call at hv
              rw [hv]
              simp
            · rw [if_pos hv]
              simp only [List.map_cons, List.map_nil, List.sum_cons, List.sum_nil, cyc3, Coeff.call]
              ring
          · simp [h3]
        rw [hcen]
        have e1 := sum_rot hq hr fun t => if isRep (rotM (rotM t.1)) then t.2 * Coeff.evalMonom t.1 [a, b, c] else 0
        have e2 := sum_rot hq hr fun t => if isRep (rotM t.1) then t.2 * Coeff.evalMonom t.1 [a, b, c] else 0
        have e3 := sum_rot hq hr fun t => if isRep (rotM (rotM t.1)) then t.2 * Coeff.evalMonom (rotM t.1) [a, b, c] else 0
        simp only at e1 e2 e3
        have hv : polyVal q a b c = (q.map fun t => t.2 * Coeff.evalMonom t.1 [a, b, c]).sum := rfl
        rw [hv]
        have s1 : (q.map fun t => t.2 * Coeff.evalMonom t.1 [a, b, c]).sum =
            (q.map fun t => if isRep t.1 then t.2 * Coeff.evalMonom t.1 [a, b, c] else 0).sum +
            (q.map fun t => if isRep (rotM t.1) then t.2 * Coeff.evalMonom t.1 [a, b, c] else 0).sum +
            (q.map fun t => if isRep (rotM (rotM t.1)) then t.2 * Coeff.evalMonom t.1 [a, b, c] else 0).sum +
            (q.map fun t => if d % 3 = 0 ∧ t.1 = [d / 3, d / 3, d / 3] then t.2 * (a ^ (d / 3) * b ^ (d / 3) * c ^ (d / 3)) else 0).sum := by
          rw [← List.sum_map_add, ← List.sum_map_add, ← List.sum_map_add]
          congr 1
          apply List.map_congr_left
          intro t ht
          have ha := hq.arity t ht
          have hs := hd t ht
          obtain ⟨m, v⟩ := t
          obtain ⟨i, j, k, rfl⟩ := List.length_eq_three.1 ha
          simp only [rotM, isRep, List.sum_cons, List.sum_nil, List.cons.injEq, and_true, decide_eq_true_eq] at hs ⊢
          by_cases hall : i = j ∧ j = k
          · obtain ⟨rfl, rfl⟩ := hall
            have h5 : d / 3 = i := by omega
            have h6 : d % 3 = 0 := by omega
            rw [h5, h6]
            simp [Coeff.evalMonom]
            left
            ring
          · rw [if_neg (c := d % 3 = 0 ∧ _) (by omega)]
            by_cases c1 : (j < i ∧ k < i) ∨ (i = j ∧ k < i)
            · rw [if_pos c1, if_neg (by omega), if_neg (by omega)]
              ring
            · rw [if_neg c1]
              by_cases c2 : (i < k ∧ j < k) ∨ (k = i ∧ j < k)
              · rw [if_pos c2, if_neg (by omega)]
                ring
              · rw [if_neg c2, if_pos (by omega)]
                ring
        have s2 : (q.map fun t => if isRep t.1 then ((fun t : K × Val3 K => t.1 * t.2 a b c) ∘
              fun t : List ℕ × K => (t.2, cyc3 fun a b c => Coeff.evalMonom t.1 [a, b, c])) t else 0).sum =
            (q.map fun t => if isRep t.1 then t.2 * Coeff.evalMonom t.1 [a, b, c] else 0).sum +
            (q.map fun t => if isRep (rotM (rotM (rotM t.1))) then t.2 * Coeff.evalMonom (rotM t.1) [a, b, c] else 0).sum +
            (q.map fun t => if isRep (rotM (rotM (rotM t.1))) then t.2 * Coeff.evalMonom (rotM (rotM t.1)) [a, b, c] else 0).sum := by
          rw [← List.sum_map_add, ← List.sum_map_add]
          congr 1
          apply List.map_congr_left
          intro t ht
          have ha := hq.arity t ht
          obtain ⟨m, v⟩ := t
          obtain ⟨i, j, k, rfl⟩ := List.length_eq_three.1 ha
          simp only [rotM, Function.comp, cyc3]
          by_cases hrep : isRep [i, j, k] = true
          · simp only [hrep, if_true, Coeff.evalMonom, List.zipWith_cons_cons, List.zipWith_nil_right, List.prod_cons, List.prod_nil]
            ring
          · simp only [hrep, if_false]
            simp
        rw [s2, e1, e3, e2, s1]
        ring
      · intro t ht
        rcases List.mem_append.1 ht with ht | ht
        · obtain ⟨u, hu, rfl⟩ := List.mem_map.1 ht
          exact hpos u (List.mem_filter.1 hu).1
        · split at ht
          · rw [List.mem_singleton.1 ht]
            exact div_nonneg hcall (by norm_num)
          · simp at ht
      · intro t ht a b c ho
        have hcyc : ∀ f : Val3 K, (∀ a b c, Octant a b c → 0 ≤ f a b c) → 0 ≤ cyc3 f a b c := by
          intro f hf
          have h1 := hf a b c ho
          have h2 := hf b c a ⟨ho.2.1, ho.2.2, ho.1⟩
          have h3 := hf c a b ⟨ho.2.2, ho.1, ho.2.1⟩
          unfold cyc3
          positivity
        rcases List.mem_append.1 ht with ht | ht
        · obtain ⟨u, hu, rfl⟩ := List.mem_map.1 ht
          apply hcyc
          rintro a b c ⟨h1, h2, h3⟩
          obtain ⟨i, j, k, e⟩ := List.length_eq_three.1 (hq.arity u (List.mem_filter.1 hu).1)
          rw [e]
          simp only [Coeff.evalMonom, List.zipWith_cons_cons, List.zipWith_nil_right, List.prod_cons, List.prod_nil]
          positivity
        · split at ht
          · rw [List.mem_singleton.1 ht]
            apply hcyc
            rintro a b c ⟨h1, h2, h3⟩
            positivity
          · simp at ht

/-! ### The removal of the value at `(1, 1, 1)` -/

theorem dsub_spec {d d' : TP K} {k : List ℕ} {x : K} (h : dsub d k x = .ok d') : ∀ y, Coeff.evalDict d' y = Coeff.evalDict d y - x * Coeff.evalMonom k y := by
  intro y
  unfold dsub at h
  split at h
  · exact absurd h (by simp)
  · rename_i v hv
    rw [← Except.ok.inj h]
    have := evalDict_dset d k (-x) y
    rw [hv, Option.getD_some, ← sub_eq_add_neg] at this
    rw [this]
    ring

theorem dsub_keys {d d' : TP K} {k : List ℕ} {x : K} (h : dsub d k x = .ok d') : ∀ m, m ∈ dkeys d' → m = k ∨ m ∈ dkeys d := by
  intro m hm
  unfold dsub at h
  split at h
  · exact absurd h (by simp)
  · rw [← Except.ok.inj h, mem_dkeys_dset] at hm
    exact hm

theorem evalDict_dset_zero {d : TP K} {k : List ℕ} (h : (dget d k).getD 0 = 0) (y : List K) : Coeff.evalDict (dset d k 0) y = Coeff.evalDict d y := by
  have := evalDict_dset d k 0 y
  rw [h, add_zero] at this
  rw [this]
  ring

theorem centered_spec {q cs : TP K} {i j k : ℕ} {x : K} (h3 : dget q [i, j, k] = none → dget q [j, k, i] = none ∧ dget q [k, i, j] = none)
    (h : centered q i j k x = .ok cs) : (∀ a b c, polyVal cs a b c = polyVal q a b c - x / 3 * cyc3 (fun a b c => a ^ i * b ^ j * c ^ k) a b c) ∧
      (∀ m, m ∈ dkeys cs → m = [i, j, k] ∨ m = [j, k, i] ∨ m = [k, i, j] ∨ m ∈ dkeys q) ∧ cs ≠ [] := by
  unfold centered at h
  dsimp only at h
  generalize h0 : (if dget q [i, j, k] = none then dset (dset (dset q [i, j, k] 0) [j, k, i] 0) [k, i, j] 0 else q) = c0 at h
  have v0 : ∀ y, Coeff.evalDict c0 y = Coeff.evalDict q y := by
    intro y
    rw [← h0]
    split
    · rename_i hn
      obtain ⟨n1, n2⟩ := h3 hn
      rw [evalDict_dset_zero, evalDict_dset_zero, evalDict_dset_zero]
      · rw [hn, Option.getD_none]
      · rw [dget_dset]
        split
        · rfl
        · rw [n1, Option.getD_none]
      · rw [dget_dset]
        split
        · rfl
        · rw [dget_dset]
          split
          · rfl
          · rw [n2, Option.getD_none]
    · rfl
  have k0 : ∀ m, m ∈ dkeys c0 → m = [i, j, k] ∨ m = [j, k, i] ∨ m = [k, i, j] ∨ m ∈ dkeys q := by
    intro m hm
    rw [← h0] at hm
    split at hm
    · rw [mem_dkeys_dset, mem_dkeys_dset, mem_dkeys_dset] at hm
      tauto
    · tauto
  cases h1 : dsub c0 [i, j, k] (x / 3) with
  | error e =>
    rw [h1] at h
    exact absurd h (by simp [bind, Except.bind])
  | ok c1 =>
    rw [h1] at h
    change (do let c2 ← dsub c1 [j, k, i] (x / 3); dsub c2 [k, i, j] (x / 3)) = Except.ok cs at h
    cases h2 : dsub c1 [j, k, i] (x / 3) with
    | error e =>
      rw [h2] at h
      exact absurd h (by simp [bind, Except.bind])
    | ok c2 =>
      rw [h2] at h
      change dsub c2 [k, i, j] (x / 3) = Except.ok cs at h
      refine ⟨?_, ?_, ?_⟩
      · intro a b c
        unfold polyVal
        rw [dsub_spec h, dsub_spec h2, dsub_spec h1, v0]
        simp only [Coeff.evalMonom, List.zipWith_cons_cons, List.zipWith_nil_right, List.prod_cons, List.prod_nil, cyc3]
        ring
      · intro m hm
        rcases dsub_keys h m hm with h5 | h5
        · tauto
        · rcases dsub_keys h2 m h5 with h6 | h6
          · tauto
          · rcases dsub_keys h1 m h6 with h7 | h7
            · tauto
            · exact k0 m h7
      · unfold dsub at h
        split at h
        · exact absurd h (by simp)
        · rename_i v _
          rw [← Except.ok.inj h]
          intro e
          have : ([k, i, j] : List ℕ) ∈ dkeys (dset c2 [k, i, j] (v - x / 3)) := (mem_dkeys_dset _ _ _ _).2 (Or.inl rfl)
          rw [e] at this
          simp [dkeys] at this

theorem totalDegree_of_hom {co : Coeff K} {d : ℕ} (hd : HomDeg d co.coeffs) (hne : co.coeffs ≠ []) : totalDegree co = .ok d := by
  unfold totalDegree
  cases h : co.coeffs with
  | nil => exact absurd h hne
  | cons t r =>
    rw [h] at hd
    have h1 : ∀ (r : TP K) (m : ℕ), m = d → (∀ t ∈ r, t.1.sum = d) → r.foldl (fun m u => max m u.1.sum) m = d := by
      intro r
      induction r with
      | nil => intro m hm _; exact hm
      | cons u r ih =>
        intro m hm hr
        rw [List.foldl_cons]
        exact ih _ (by rw [hm, hr u (List.mem_cons_self ..), max_self]) fun t ht => hr t (List.mem_cons_of_mem _ ht)
    dsimp only
    rw [h1 r _ (hd t (List.mem_cons_self ..)) fun t ht => hd t (List.mem_cons_of_mem _ ht)]

theorem dget_rot {q : TP K} (hq : IsPoly 3 q) (hr : ∀ a b c, polyVal q b c a = polyVal q a b c) {i j k : ℕ} (h : dget q [i, j, k] = none) : dget q [j, k, i] = none := by
  rw [dget_eq_none_iff] at h ⊢
  intro hm
  obtain ⟨t, ht, e⟩ := List.mem_map.1 hm
  have h1 : (rotM t.1, t.2) ∈ rotT q := List.mem_map.2 ⟨t, ht, rfl⟩
  have h2 := (perm_rotT hq hr).mem_iff.2 h1
  apply h
  have : rotM t.1 = [i, j, k] := by rw [e]; rfl
  rw [← this]
  exact List.mem_map_of_mem h2

theorem polyVal_one (q : TP K) : polyVal q 1 1 1 = (q.map Prod.snd).sum := by
  unfold polyVal Coeff.evalDict
  congr 1
  apply List.map_congr_left
  intro t _
  have : ∀ (m : List ℕ) (x : List K), (∀ y ∈ x, y = 1) → Coeff.evalMonom m x = 1 := by
    intro m
    induction m with
    | nil => intro x _; simp [Coeff.evalMonom]
    | cons e m ih =>
      intro x hx
      cases x with
      | nil => simp [Coeff.evalMonom]
      | cons y x =>
        have := ih x fun z hz => hx z (List.mem_cons_of_mem _ hz)
        simp only [Coeff.evalMonom, List.zipWith_cons_cons, List.prod_cons] at this ⊢
        rw [this, hx y (List.mem_cons_self ..)]
        simp
  rw [this _ _ (by simp), mul_one]

/-- A homogeneous polynomial in three variables with symmetric values; zero coefficients are allowed. -/
structure GoodTerms (d : ℕ) (q : TP K) : Prop where
  arity : Arity 3 q
  sym : Sym q
  hom : HomDeg d q

/-- What the decorator hands to the solver. -/
theorem centered_good {d : ℕ} {q cs : TP K} {bias : K} (hq : GoodPoly d q) (hb : (List.map Prod.snd q).sum = bias)
    (hc : centered q (centerKey d).1 (centerKey d).2.1 (centerKey d).2.2 bias = .ok cs) : GoodTerms d cs ∧ cs ≠ [] ∧ polyVal cs 1 1 1 = 0 ∧
      ∀ a b c, polyVal cs a b c = polyVal q a b c - bias / 3 * cyc3 (fun a b c => a ^ (centerKey d).1 * b ^ (centerKey d).2.1 * c ^ (centerKey d).2.2) a b c := by
  generalize hi : (centerKey d).1 = i at hc ⊢
  generalize hj : (centerKey d).2.1 = j at hc ⊢
  generalize hk : (centerKey d).2.2 = k at hc ⊢
  obtain ⟨hv, hkeys, hcne⟩ := centered_spec (fun h0 => ⟨dget_rot hq.poly hq.sym.rot h0, dget_rot hq.poly hq.sym.rot (dget_rot hq.poly hq.sym.rot h0)⟩) hc
  have hijk : i + j + k = d ∧ (j = i ∨ j = k) := by
    unfold centerKey at hi hj hk
    dsimp only at hi hj hk
    split at hj <;> split at hk <;> omega
  have hsymc : ∀ a b c : K, cyc3 (fun a b c => a ^ i * b ^ j * c ^ k) b a c = cyc3 (fun a b c => a ^ i * b ^ j * c ^ k) a b c ∧
      cyc3 (fun a b c => a ^ i * b ^ j * c ^ k) a c b = cyc3 (fun a b c => a ^ i * b ^ j * c ^ k) a b c := by
    intro a b c
    unfold cyc3
    rcases hijk.2 with rfl | rfl
    · constructor <;> ring
    · constructor <;> ring
  have hgood : GoodTerms d cs := by
    refine ⟨?_, ⟨?_, ?_⟩, ?_⟩
    · intro t ht
      rcases hkeys t.1 (List.mem_map_of_mem ht) with e | e | e | e
      · rw [e]; rfl
      · rw [e]; rfl
      · rw [e]; rfl
      · obtain ⟨u, hu, e2⟩ := List.mem_map.1 e
        rw [← e2]
        exact hq.poly.arity u hu
    · intro a b c
      rw [hv, hv, hq.sym.ab, (hsymc a b c).1]
    · intro a b c
      rw [hv, hv, hq.sym.bc, (hsymc a b c).2]
    · intro t ht
      rcases hkeys t.1 (List.mem_map_of_mem ht) with e | e | e | e
      · rw [e]; simp; omega
      · rw [e]; simp; omega
      · rw [e]; simp; omega
      · obtain ⟨u, hu, e2⟩ := List.mem_map.1 e
        rw [← e2]
        exact hq.hom u hu
  have hone : polyVal cs 1 1 1 = 0 := by
    rw [hv, polyVal_one, hb]
    simp only [cyc3, one_pow]
    ring
  exact ⟨hgood, hcne, hone, hv⟩

/-- The decorator never meets a missing coefficient. -/
theorem centered_total {d : ℕ} {q : TP K} (hq : GoodPoly d q) (i j k : ℕ) (bias : K) : ∃ cs, centered q i j k bias = .ok cs := by
  have hs : ∀ (d : TP K) (k : List ℕ) (x : K), k ∈ dkeys d → ∃ d', dsub d k x = .ok d' ∧ ∀ m ∈ dkeys d, m ∈ dkeys d' := by
    intro d k x hk
    unfold dsub
    cases h : dget d k with
    | none => exact absurd hk ((dget_eq_none_iff _ _).1 h)
    | some v => exact ⟨_, rfl, fun m hm => (mem_dkeys_dset _ _ _ _).2 (Or.inr hm)⟩
  unfold centered
  dsimp only
  generalize h0 : (if dget q [i, j, k] = none then dset (dset (dset q [i, j, k] 0) [j, k, i] 0) [k, i, j] 0 else q) = c0
  have hk : [i, j, k] ∈ dkeys c0 ∧ [j, k, i] ∈ dkeys c0 ∧ [k, i, j] ∈ dkeys c0 := by
    rw [← h0]
    split
    · simp [mem_dkeys_dset]
    · rename_i hn
      have h2 : ¬ dget q [k, i, j] = none := fun h => hn (dget_rot hq.poly hq.sym.rot h)
      have h1 : ¬ dget q [j, k, i] = none := fun h => h2 (dget_rot hq.poly hq.sym.rot h)
      rw [dget_eq_none_iff, not_not] at hn h1 h2
      exact ⟨hn, h1, h2⟩
  obtain ⟨c1, e1, k1⟩ := hs c0 _ (bias / 3) hk.1
  obtain ⟨c2, e2, k2⟩ := hs c1 _ (bias / 3) (k1 _ hk.2.1)
  obtain ⟨c3, e3, _⟩ := hs c2 _ (bias / 3) (k2 _ (k1 _ hk.2.2))
  refine ⟨c3, ?_⟩
  rw [e1]
  change (do let c2 ← dsub c1 [j, k, i] (bias / 3); dsub c2 [k, i, j] (bias / 3)) = _
  rw [e2]
  exact e3

/-- The decorator keeps correct solvers correct. -/
theorem uncentered_shows {solver : Coeff K → Except PyErr (Option (Cert K))} {d : ℕ} {q : TP K} (hq : GoodPoly d q) (hne : q ≠ [])
    (hs : ∀ cs C, GoodTerms d cs → cs ≠ [] → polyVal cs 1 1 1 = 0 → solver ⟨cs, 3⟩ = .ok (some C) → Shows Octant (polyVal cs) C) {C : Cert K}
    (h : uncentered solver ⟨q, 3⟩ = .ok (some C)) : Shows Octant (polyVal q) C := by
  unfold uncentered at h
  simp only [totalDegree_of_hom (co := ⟨q, 3⟩) hq.hom hne] at h
  generalize hb : (List.map Prod.snd q).sum = bias at h
  split at h
  · exact absurd h (by simp)
  · rename_i hneg
    push Not at hneg
    generalize hi : (centerKey d).1 = i at h
    generalize hj : (centerKey d).2.1 = j at h
    generalize hk : (centerKey d).2.2 = k at h
    cases hc : centered q i j k bias with
    | error e =>
      rw [hc] at h
      exact absurd h (by simp)
    | ok cs =>
      rw [hc] at h
      dsimp only at h
      obtain ⟨hv, hkeys, hcne⟩ := centered_spec (fun h0 => ⟨dget_rot hq.poly hq.sym.rot h0, dget_rot hq.poly hq.sym.rot (dget_rot hq.poly hq.sym.rot h0)⟩) hc
      have hijk : i + j + k = d ∧ (j = i ∨ j = k) := by
        unfold centerKey at hi hj hk
        dsimp only at hi hj hk
        split at hj <;> split at hk <;> omega
      have hsymc : ∀ a b c : K, cyc3 (fun a b c => a ^ i * b ^ j * c ^ k) b a c = cyc3 (fun a b c => a ^ i * b ^ j * c ^ k) a b c ∧
          cyc3 (fun a b c => a ^ i * b ^ j * c ^ k) a c b = cyc3 (fun a b c => a ^ i * b ^ j * c ^ k) a b c := by
        intro a b c
        unfold cyc3
        rcases hijk.2 with rfl | rfl
        · constructor <;> ring
        · constructor <;> ring
      have hgood : GoodTerms d cs := by
        refine ⟨?_, ⟨?_, ?_⟩, ?_⟩
        · intro t ht
          rcases hkeys t.1 (List.mem_map_of_mem ht) with e | e | e | e
          · rw [e]; rfl
          · rw [e]; rfl
          · rw [e]; rfl
          · obtain ⟨u, hu, e2⟩ := List.mem_map.1 e
            rw [← e2]
            exact hq.poly.arity u hu
        · intro a b c
          rw [hv, hv, hq.sym.ab, (hsymc a b c).1]
        · intro a b c
          rw [hv, hv, hq.sym.bc, (hsymc a b c).2]
        · intro t ht
          rcases hkeys t.1 (List.mem_map_of_mem ht) with e | e | e | e
          · rw [e]; simp; omega
          · rw [e]; simp; omega
          · rw [e]; simp; omega
          · obtain ⟨u, hu, e2⟩ := List.mem_map.1 e
            rw [← e2]
            exact hq.hom u hu
      have hone : polyVal cs 1 1 1 = 0 := by
        rw [hv, polyVal_one, hb]
        simp only [cyc3, one_pow]
        ring
      cases hr : solver ⟨cs, 3⟩ with
      | error e =>
        rw [hr] at h
        exact absurd h (by simp [Except.map])
      | ok r =>
        rw [hr] at h
        obtain ⟨s, rfl, rfl⟩ := Option.map_eq_some_iff.1 (Except.ok.inj h)
        have h1 := hs cs s hgood hcne hone hr
        split
        · rename_i h3
          have hii : j = i ∧ k = i := by
            unfold centerKey at hi hj hk
            dsimp only at hi hj hk
            split at hj <;> split at hk <;> omega
          obtain ⟨rfl, rfl⟩ := hii
          refine (h1.add hneg (e := cycp3 fun a _ _ => a ^ k) ?_).congr fun a b c => ?_
          · rintro a b c ⟨ha, hb, hc⟩
            unfold cycp3
            positivity
          · rw [hv]
            simp only [cyc3, cycp3]
            ring
        · refine (h1.add (w := bias / 3) (by positivity) (e := cyc3 fun a b c => a ^ i * b ^ j * c ^ k) ?_).congr fun a b c => ?_
          · rintro a b c ⟨ha, hb, hc⟩
            unfold cyc3
            positivity
          · rw [hv]
            ring

end Verif.Dense
