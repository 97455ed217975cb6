import Verif.Model.Sparse
import Verif.Props.Coeff
import Verif.Props.Congruence
import Mathlib.Tactic.FieldSimp

/-!
# C16, C17, C56: the n-variable quadratic and linear solvers and the wrappers
-/

set_option linter.unusedSectionVars false

namespace Verif.Sparse
open Finset Verif.Coeff

variable {K : Type*} [Field K] [LinearOrder K] [IsStrictOrderedRing K]

/-! ## C16 -/

/-- The vector `(x, 1)` of `n + 1` entries. -/
def homVec (x : List K) (j : ℕ) : K := if j < x.length then x.getD j 0 else 1

theorem scan_spec (g : ℕ → K) : ∀ (es : List ℕ) (i : ℕ) (inds : List ℕ), es.sum + inds.length ≤ 2 →
    (∀ a ∈ inds, a < i) → inds.Pairwise (· ≤ ·) →
    ∃ out, scanExps i inds es = some out ∧ out.length ≤ 2 ∧ out.Pairwise (· ≤ ·) ∧
      (∀ a ∈ out, a < i + es.length) ∧
      (∀ j, out.count j = inds.count j + (if i ≤ j then es.getD (j - i) 0 else 0)) ∧
      (out.map g).prod = (inds.map g).prod * evalMonom es ((List.range es.length).map fun j => g (i + j))
  | [], i, inds, h, h1, h2 => by
      refine ⟨inds, rfl, by simpa using h, h2, by simpa using h1, ?_, by simp [evalMonom]⟩
      intro j; simp
  | e :: es, i, inds, h, h1, h2 => by
      rw [List.sum_cons] at h
      have hnot : ¬ e > 2 := by omega
      have hshift : (List.range (es.length + 1)).map (fun j => g (i + j)) =
          g i :: (List.range es.length).map fun j => g (i + 1 + j) := by
        rw [List.range_succ_eq_map, List.map_cons, List.map_map]
        congr 1
        apply List.map_congr_left; intro j _
        simp only [Function.comp_apply]; congr 1; omega
      have hzero : ∀ (l : List ℕ) (y : List K), l.sum = 0 → evalMonom l y = 1 := by
        intro l
        induction l with
        | nil => intro y _; simp [evalMonom]
        | cons a l ih =>
          intro y hl
          rw [List.sum_cons] at hl
          cases y with
          | nil => simp [evalMonom]
          | cons b y =>
            have := ih y (by omega)
            simp only [evalMonom] at this
            have ha : a = 0 := by omega
            simp [evalMonom, ha, this]
      have hz0 : ∀ (l : List ℕ), l.sum = 0 → ∀ j, l.getD j 0 = 0 := by
        intro l
        induction l with
        | nil => intro _ j; simp
        | cons a l ih =>
          intro hl j
          rw [List.sum_cons] at hl
          cases j with
          | zero => simp; omega
          | succ j => simpa using ih (by omega) j
      simp only [scanExps, if_neg hnot]
      by_cases e2 : e = 2
      · subst e2
        have hi0 : inds = [] := by
          have : inds.length = 0 := by omega
          exact List.length_eq_zero_iff.1 this
        subst hi0
        have hs0 : es.sum = 0 := by omega
        refine ⟨[i, i], by simp, by simp, by simp, by simp, ?_, ?_⟩
        · intro j
          by_cases hji : j = i
          · subst hji; simp
          · have hc : [i, i].count j = 0 := by
              rw [List.count_eq_zero]; simp; exact hji
            rw [hc]
            by_cases hle : i ≤ j
            · have : (2 :: es).getD (j - i) 0 = es.getD (j - i - 1) 0 := by
                obtain ⟨k, hk⟩ : ∃ k, j - i = k + 1 := ⟨j - i - 1, by omega⟩
                rw [hk]; simp
              rw [if_pos hle, this, hz0 es hs0]; simp
            · simp [hle]
        · simp only [List.map_cons, List.map_nil, List.prod_cons, List.prod_nil, one_mul, mul_one,
            List.length_cons, hshift]
          have := hzero es ((List.range es.length).map fun j => g (i + 1 + j)) hs0
          simp only [evalMonom] at this
          simp only [evalMonom, List.zipWith_cons_cons, List.prod_cons, this, mul_one, pow_two]
      · rw [if_neg e2]
        by_cases e1 : e = 1
        · subst e1
          have hl2 : inds.length ≠ 2 := by omega
          simp only [if_true, if_neg hl2]
          obtain ⟨out, a1, a2, a3, a4, a5, a6⟩ := scan_spec g es (i + 1) (inds ++ [i])
            (by simp; omega) (by
              intro a ha
              simp only [List.mem_append, List.mem_singleton] at ha
              rcases ha with ha | rfl
              · have := h1 a ha; omega
              · omega) (by
              rw [List.pairwise_append]
              exact ⟨h2, by simp, fun a ha b hb => by
                simp only [List.mem_singleton] at hb; subst hb; exact (h1 a ha).le⟩)
          refine ⟨out, a1, a2, a3, fun a ha => by have := a4 a ha; simp; omega, ?_, ?_⟩
          · intro j
            rw [a5 j, List.count_append]
            by_cases hji : j = i
            · subst hji; simp
            · have hc : [i].count j = 0 := by rw [List.count_eq_zero]; simpa using hji
              rw [hc]
              by_cases hle : i ≤ j
              · have h3 : i + 1 ≤ j := by omega
                have : (1 :: es).getD (j - i) 0 = es.getD (j - (i + 1)) 0 := by
                  obtain ⟨k, hk⟩ : ∃ k, j - i = k + 1 := ⟨j - i - 1, by omega⟩
                  rw [hk, show j - (i + 1) = k by omega]; simp
                rw [if_pos hle, if_pos h3, this]; rfl
              · have h3 : ¬ i + 1 ≤ j := by omega
                simp [hle, h3]
          · rw [a6, List.map_append, List.prod_append]
            simp only [List.map_cons, List.map_nil, List.prod_cons, List.prod_nil, mul_one, List.length_cons, hshift]
            simp only [evalMonom, List.zipWith_cons_cons, List.prod_cons, pow_one]
            ring
        · rw [if_neg e1]
          have e0 : e = 0 := by omega
          subst e0
          obtain ⟨out, a1, a2, a3, a4, a5, a6⟩ := scan_spec g es (i + 1) inds (by omega)
            (fun a ha => by have := h1 a ha; omega) h2
          refine ⟨out, a1, a2, a3, fun a ha => by have := a4 a ha; simp; omega, ?_, ?_⟩
          · intro j
            rw [a5 j]
            by_cases hji : j = i
            · subst hji; simp
            · by_cases hle : i ≤ j
              · have h3 : i + 1 ≤ j := by omega
                have : (0 :: es).getD (j - i) 0 = es.getD (j - (i + 1)) 0 := by
                  obtain ⟨k, hk⟩ : ∃ k, j - i = k + 1 := ⟨j - i - 1, by omega⟩
                  rw [hk, show j - (i + 1) = k by omega]; simp
                rw [if_pos hle, if_pos h3, this]
              · have h3 : ¬ i + 1 ≤ j := by omega
                simp [hle, h3]
          · rw [a6]
            simp only [List.length_cons, hshift, evalMonom, List.zipWith_cons_cons, List.prod_cons, pow_zero, one_mul]

theorem homVec_map (x : List K) : (List.range x.length).map (fun j => homVec x (0 + j)) = x := by
  apply List.ext_getElem
  · simp
  · intro i h1 h2
    simp [homVec, h2]

/-- For a monomial of degree at most two the position represents it: the product of the two entries of `(x,1)`
is the monomial, the position is inside the matrix and ordered, and different monomials have different
positions. -/
theorem monomPos_spec (k : List ℕ) (hs : k.sum ≤ 2) : ∃ p, monomPos k.length k = some p ∧ p.1 ≤ p.2 ∧
    p.2 ≤ k.length ∧ (∀ x : List K, x.length = k.length → homVec x p.1 * homVec x p.2 = evalMonom k x) ∧
    ∀ k' : List ℕ, k'.length = k.length → k'.sum ≤ 2 → monomPos k.length k' = some p → k' = k := by
  have key : ∀ k : List ℕ, k.sum ≤ 2 → ∃ out, scanExps 0 [] k = some out ∧ out.length ≤ 2 ∧ out.Pairwise (· ≤ ·) ∧
      (∀ a ∈ out, a < k.length) ∧ (∀ j, out.count j = k.getD j 0) ∧
      ∀ x : List K, x.length = k.length → (out.map (homVec x)).prod = evalMonom k x := by
    intro k hk
    obtain ⟨out, a1, a2, a3, a4, a5, _⟩ := scan_spec (fun _ => (0 : K)) k 0 [] (by simpa using hk) (by simp) (by simp)
    refine ⟨out, a1, a2, a3, by simpa using a4, by simpa using a5, ?_⟩
    intro x hx
    obtain ⟨out', b1, _, _, _, _, b6⟩ := scan_spec (homVec x) k 0 [] (by simpa using hk) (by simp) (by simp)
    rw [a1] at b1
    cases b1
    rw [b6, ← hx, homVec_map]; simp
  obtain ⟨out, a1, a2, a3, a4, a5, a6⟩ := key k hs
  have hinj : ∀ k' : List ℕ, k'.length = k.length → k'.sum ≤ 2 → scanExps 0 [] k' = some out → k' = k := by
    intro k' hl hs' h'
    obtain ⟨out', b1, _, _, _, b5, _⟩ := key k' hs'
    rw [h'] at b1; cases b1
    apply List.ext_getElem hl
    intro i h1 h2
    have := (b5 i).symm.trans (a5 i)
    simpa [List.getD_eq_getElem?_getD, h1, h2] using this
  have hlast : ∀ x : List K, x.length = k.length → homVec x k.length = 1 := by
    intro x hx; simp [homVec, hx]
  unfold monomPos
  rw [a1]
  -- the position determines the list of indices
  have hpos : ∀ k' : List ℕ, k'.length = k.length → k'.sum ≤ 2 → ∀ out', scanExps 0 [] k' = some out' →
      toPos k.length out' = toPos k.length out →
      out' = out := by
    intro k' hl hs' out' h' he
    obtain ⟨o2, b1, b2, _, b4, _, _⟩ := key k' hs'
    rw [h'] at b1; cases b1
    rw [hl] at b4
    match out', out, a2, b2, a4, b4, he with
    | [], [], _, _, _, _, _ => rfl
    | [], [a], _, _, h4, _, he => have := h4 a (by simp); simp [toPos] at he; omega
    | [], [a, b], _, _, h4, _, he => have := h4 a (by simp); simp [toPos] at he; omega
    | [a], [], _, _, _, h4, he => have := h4 a (by simp); simp [toPos] at he; omega
    | [a], [b], _, _, _, _, he => simp [toPos] at he; rw [he]
    | [a], [b, c], _, _, h4, _, he => have := h4 c (by simp); simp [toPos] at he; omega
    | [a, b], [], _, _, _, h4, he => have := h4 a (by simp); simp [toPos] at he; omega
    | [a, b], [c], _, _, _, h4, he => have := h4 b (by simp); simp [toPos] at he; omega
    | [a, b], [c, d], _, _, _, _, he => simp [toPos] at he; rw [he.1, he.2]
    | _ :: _ :: _ :: _, _, _, h, _, _, _ => simp at h
    | _, _ :: _ :: _ :: _, h, _, _, _, _ => simp at h
  refine ⟨_, rfl, ?_, ?_, ?_, ?_⟩
  · match out, a2, a3, a4 with
    | [], _, _, _ => simp [toPos]
    | [a], _, _, h => have := h a (by simp); simp [toPos]; omega
    | [a, b], _, h, _ => simpa [toPos] using h
    | _ :: _ :: _ :: _, h, _, _ => simp at h
  · match out, a2, a4 with
    | [], _, _ => simp [toPos]
    | [a], _, _ => simp [toPos]
    | [a, b], _, h => have := h b (by simp); simp [toPos]; omega
    | _ :: _ :: _ :: _, h, _ => simp at h
  · intro x hx
    rw [← a6 x hx]
    match out, a2 with
    | [], _ => simp [toPos, hlast x hx]
    | [a], _ => simp [toPos, hlast x hx]
    | [a, b], _ => simp [toPos]
    | _ :: _ :: _ :: _, h => simp at h
  · intro k' hl hs' h'
    rw [Option.map_eq_some_iff] at h'
    obtain ⟨out', ho', he⟩ := h'
    rw [hpos k' hl hs' out' ho' he] at ho'
    exact hinj k' hl hs' ho'

theorem quadForm_setEntry (n : ℕ) (M : ℕ → ℕ → K) (p : ℕ × ℕ) (v : K) (h1 : p.1 < n) (h2 : p.2 < n)
    (h0 : M p.1 p.2 = 0) (h0' : M p.2 p.1 = 0) (g : ℕ → K) :
    quadForm n (setEntry M p v) g = quadForm n M g + v * (g p.1 * g p.2) := by
  have hE : ∀ (a b : ℕ) (w : K), a < n → b < n →
      ∑ r ∈ range n, ∑ c ∈ range n, g r * (if r = a ∧ c = b then w else 0) * g c = w * (g a * g b) := by
    intro a b w ha hb
    rw [Finset.sum_eq_single a]
    · rw [Finset.sum_eq_single b]
      · simp; ring
      · intro c _ hc; simp [hc]
      · intro h; exact absurd (mem_range.2 hb) h
    · intro r _ hr
      apply Finset.sum_eq_zero; intro c _; simp [hr]
    · intro h; exact absurd (mem_range.2 ha) h
  unfold quadForm setEntry
  split_ifs with hp
  · rw [← hp] at h0 ⊢
    have : ∀ r c, g r * (if r = p.1 ∧ c = p.1 then v else M r c) * g c =
        g r * M r c * g c + g r * (if r = p.1 ∧ c = p.1 then v else 0) * g c := by
      intro r c
      split_ifs with h
      · rw [h.1, h.2, h0]; ring
      · ring
    simp_rw [this, Finset.sum_add_distrib]
    rw [hE _ _ _ h1 h1]
  · have : ∀ r c, g r * (if (r = p.1 ∧ c = p.2) ∨ (r = p.2 ∧ c = p.1) then v / 2 else M r c) * g c =
        g r * M r c * g c + (g r * (if r = p.1 ∧ c = p.2 then v / 2 else 0) * g c +
          g r * (if r = p.2 ∧ c = p.1 then v / 2 else 0) * g c) := by
      intro r c
      by_cases ha : r = p.1 ∧ c = p.2
      · have hb : ¬ (r = p.2 ∧ c = p.1) := fun hb => hp (ha.1.symm.trans hb.1)
        rw [if_pos (Or.inl ha), if_pos ha, if_neg hb, ha.1, ha.2, h0]; ring
      · by_cases hb : r = p.2 ∧ c = p.1
        · rw [if_pos (Or.inr hb), if_neg ha, if_pos hb, hb.1, hb.2, h0']; ring
        · rw [if_neg (by tauto), if_neg ha, if_neg hb]; ring
    simp_rw [this, Finset.sum_add_distrib]
    rw [hE _ _ _ h1 h2, hE _ _ _ h2 h1]
    ring

theorem setEntry_sym (M : ℕ → ℕ → K) (p : ℕ × ℕ) (v : K) (h : ∀ r c, M r c = M c r) :
    ∀ r c, setEntry M p v r c = setEntry M p v c r := by
  intro r c
  unfold setEntry
  split_ifs with hp
  · by_cases h1 : r = p.1 ∧ c = p.1
    · simp [h1.1, h1.2]
    · have h2 : ¬ (c = p.1 ∧ r = p.1) := by tauto
      simp [h1, h2, h r c]
  · by_cases h1 : (r = p.1 ∧ c = p.2) ∨ (r = p.2 ∧ c = p.1)
    · have h2 : (c = p.1 ∧ r = p.2) ∨ (c = p.2 ∧ r = p.1) := by tauto
      simp [h1, h2]
    · have h2 : ¬ ((c = p.1 ∧ r = p.2) ∨ (c = p.2 ∧ r = p.1)) := by tauto
      simp [h1, h2, h r c]

theorem quadMat_spec (n : ℕ) : ∀ (l : List (List ℕ × K)) (M : ℕ → ℕ → K), (dkeys l).Nodup →
    (∀ kv ∈ l, kv.1.length = n ∧ kv.1.sum ≤ 2) → (∀ r c, M r c = M c r) →
    (∀ kv ∈ l, ∀ p, monomPos n kv.1 = some p → M p.1 p.2 = 0) →
    ∃ M', quadMat n l M = some M' ∧ (∀ r c, M' r c = M' c r) ∧
      ∀ x : List K, x.length = n → quadForm (n + 1) M' (homVec x) = quadForm (n + 1) M (homVec x) + evalDict l x
  | [], M, _, _, hs, _ => ⟨M, rfl, hs, by intro x _; simp [evalDict]⟩
  | (k, v) :: l, M, hn, hl, hs, h0 => by
      obtain ⟨hk1, hk2⟩ := hl (k, v) (by simp)
      simp only at hk1 hk2
      subst hk1
      obtain ⟨p, p1, p2, p3, p4, p5⟩ := monomPos_spec (K := K) k hk2
      have hzero : M p.1 p.2 = 0 := h0 (k, v) (by simp) p p1
      rw [dkeys_cons, List.nodup_cons] at hn
      obtain ⟨M', a1, a2, a3⟩ := quadMat_spec k.length l (setEntry M p v) hn.2
        (fun kv hkv => hl kv (by simp [hkv])) (setEntry_sym M p v hs) (by
          intro kv hkv q hq
          obtain ⟨hlen, hsum⟩ := hl kv (by simp [hkv])
          have hne : kv.1 ≠ k := by
            rintro rfl; exact hn.1 (List.mem_map_of_mem hkv)
          have hqp : q ≠ p := by
            rintro rfl; exact hne (p5 kv.1 hlen hsum hq)
          have hq0 := h0 kv (by simp [hkv]) q hq
          have hqo : q.1 ≤ q.2 := by
            obtain ⟨q', q1, q2, _⟩ := monomPos_spec (K := K) kv.1 hsum
            rw [hlen, hq] at q1; cases q1; exact q2
          unfold setEntry
          split_ifs with hpp
          · have : ¬ (q.1 = p.1 ∧ q.2 = p.1) := by
              rintro ⟨b1, b2⟩; exact hqp (Prod.ext b1 (b2.trans hpp))
            simp [this, hq0]
          · have : ¬ ((q.1 = p.1 ∧ q.2 = p.2) ∨ (q.1 = p.2 ∧ q.2 = p.1)) := by
              rintro (⟨b1, b2⟩ | ⟨b1, b2⟩)
              · exact hqp (Prod.ext b1 b2)
              · rw [b1, b2] at hqo; exact hpp (le_antisymm p2 hqo)
            simp [this, hq0])
      refine ⟨M', ?_, a2, ?_⟩
      · simp only [quadMat, p1, a1]
      · intro x hx
        rw [a3 x hx, quadForm_setEntry _ _ _ _ (by omega) (by omega) hzero (by rw [hs]; exact hzero)]
        rw [p4 x hx]
        simp only [evalDict, List.map_cons, List.sum_cons]
        ring

/-- A vector of `n+1` entries with last entry 1 is `homVec`. -/
theorem quadForm_congr (n : ℕ) (M : ℕ → ℕ → K) (x y : ℕ → K) (h : ∀ i < n, x i = y i) :
    quadForm n M x = quadForm n M y := by
  unfold quadForm
  apply Finset.sum_congr rfl; intro r hr
  apply Finset.sum_congr rfl; intro c hc
  rw [h r (mem_range.1 hr), h c (mem_range.1 hc)]

theorem quadForm_smul (n : ℕ) (M : ℕ → ℕ → K) (x : ℕ → K) (t : K) :
    quadForm n M (fun i => t * x i) = t ^ 2 * quadForm n M x := by
  unfold quadForm
  rw [Finset.mul_sum]
  apply Finset.sum_congr rfl; intro r _
  rw [Finset.mul_sum]
  apply Finset.sum_congr rfl; intro c _
  ring

theorem exists_affine_neg (n : ℕ) (M : ℕ → ℕ → K) (v : ℕ → K) (h : quadForm (n + 1) M v < 0) :
    ∃ x : List K, x.length = n ∧ quadForm (n + 1) M (homVec x) < 0 := by
  have scaled : ∀ w : ℕ → K, w n ≠ 0 → quadForm (n + 1) M w < 0 →
      ∃ x : List K, x.length = n ∧ quadForm (n + 1) M (homVec x) < 0 := by
    intro w hw hneg
    refine ⟨(List.range n).map fun i => (w n)⁻¹ * w i, by simp, ?_⟩
    rw [quadForm_congr (n + 1) M _ (fun i => (w n)⁻¹ * w i), quadForm_smul]
    · exact mul_neg_of_pos_of_neg (by positivity) hneg
    · intro i hi
      unfold homVec
      by_cases h1 : i < n
      · simp [h1]
      · have : i = n := by omega
        subst this
        simp [hw]
  by_cases hv : v n = 0
  · -- move the last coordinate a little
    set L : K := ∑ r ∈ range (n + 1), v r * M r n + ∑ c ∈ range (n + 1), M n c * v c with hL
    have hexp : ∀ ε : K, quadForm (n + 1) M (fun i => v i + if i = n then ε else 0) =
        quadForm (n + 1) M v + ε * L + ε ^ 2 * M n n := by
      intro ε
      have hterm : ∀ r c, (v r + if r = n then ε else 0) * M r c * (v c + if c = n then ε else 0) =
          v r * M r c * v c + (if c = n then ε * (v r * M r c) else 0) +
          (if r = n then ε * (M r c * v c) else 0) + (if r = n then (if c = n then ε ^ 2 * M r c else 0) else 0) := by
        intro r c
        split_ifs <;> ring
      unfold quadForm
      simp_rw [hterm, Finset.sum_add_distrib]
      have h1 : ∑ r ∈ range (n + 1), ∑ c ∈ range (n + 1), (if c = n then ε * (v r * M r c) else 0) =
          ε * ∑ r ∈ range (n + 1), v r * M r n := by
        rw [Finset.mul_sum]
        apply Finset.sum_congr rfl; intro r _
        rw [Finset.sum_eq_single n]
        · simp
        · intro c _ hc; simp [hc]
        · intro h; exact absurd (mem_range.2 (by omega)) h
      have h2 : ∑ r ∈ range (n + 1), ∑ c ∈ range (n + 1), (if r = n then ε * (M r c * v c) else 0) =
          ε * ∑ c ∈ range (n + 1), M n c * v c := by
        rw [Finset.sum_eq_single n]
        · rw [Finset.mul_sum]; simp
        · intro r _ hr; simp [hr]
        · intro h; exact absurd (mem_range.2 (by omega)) h
      have h3 : ∑ r ∈ range (n + 1), ∑ c ∈ range (n + 1), (if r = n then (if c = n then ε ^ 2 * M r c else 0) else 0) =
          ε ^ 2 * M n n := by
        rw [Finset.sum_eq_single n]
        · rw [Finset.sum_eq_single n]
          · simp
          · intro c _ hc; simp [hc]
          · intro h; exact absurd (mem_range.2 (by omega)) h
        · intro r _ hr; simp [hr]
        · intro h; exact absurd (mem_range.2 (by omega)) h
      rw [h1, h2, h3, hL]; ring
    set q := quadForm (n + 1) M v with hq
    have hD : 0 < |L| + |M n n| + -q := by
      have := abs_nonneg L; have := abs_nonneg (M n n); linarith
    set ε := -q / (|L| + |M n n| + -q) with hε
    have hε0 : 0 < ε := div_pos (by linarith) hD
    have hε1 : ε ≤ 1 := by
      rw [hε, div_le_one hD]
      have := abs_nonneg L; have := abs_nonneg (M n n); linarith
    apply scaled (fun i => v i + if i = n then ε else 0)
    · simp [hv, hε0.ne']
    · rw [hexp ε]
      have hb : ε * L + ε ^ 2 * M n n ≤ ε * (|L| + |M n n|) := by
        have h1 : ε * L ≤ ε * |L| := mul_le_mul_of_nonneg_left (le_abs_self _) hε0.le
        have h2 : ε ^ 2 * M n n ≤ ε * |M n n| := by
          have h3 : ε ^ 2 * M n n ≤ ε ^ 2 * |M n n| := mul_le_mul_of_nonneg_left (le_abs_self _) (by positivity)
          have h4 : ε ^ 2 * |M n n| ≤ ε * |M n n| := by
            apply mul_le_mul_of_nonneg_right _ (abs_nonneg _)
            rw [pow_two]; exact mul_le_of_le_one_left hε0.le hε1
          exact h3.trans h4
        have : ε * (|L| + |M n n|) = ε * |L| + ε * |M n n| := by ring
        linarith
      have hfin : ε * (|L| + |M n n|) < -q := by
        have : ε * (|L| + |M n n| + -q) = -q := by rw [hε]; field_simp
        have h5 : 0 < ε * -q := mul_pos hε0 (by linarith)
        nlinarith
      linarith
  · exact scaled v hv h

section
variable (c : Coeff K) (hwf : c.WF) (hdeg : ∀ kv ∈ c.coeffs, kv.1.sum ≤ 2)
include hwf hdeg

/-- **C16 (soundness).** For a polynomial of total degree at most two, a returned expression
`Σ S_i (U_i · (x,1))²` has nonnegative weights and equals the polynomial at every point. -/
theorem sosQuadratic_sound (U : ℕ → ℕ → K) (S : ℕ → K) (h : sosQuadratic c = .ok (some (U, S))) :
    (∀ i, i < c.nvars + 1 → 0 ≤ S i) ∧
    ∀ x : List K, x.length = c.nvars → evalDict c.coeffs x =
      ∑ i ∈ range (c.nvars + 1), S i * (∑ j ∈ range (c.nvars + 1), U i j * homVec x j) ^ 2 := by
  obtain ⟨M', h1, h2, h3⟩ := quadMat_spec c.nvars c.coeffs (fun _ _ => (0 : K)) hwf.nodup
    (fun kv hkv => ⟨hwf.length kv hkv, hdeg kv hkv⟩) (by intros; rfl) (by intros; rfl)
  unfold sosQuadratic at h
  simp only [h1] at h
  obtain ⟨_, _, hS⟩ := congruence_sound _ M' (fun r c _ _ => h2 r c) U S h
  refine ⟨hS, ?_⟩
  intro x hx
  rw [← congruence_sum_of_squares _ M' (fun r c _ _ => h2 r c) U S h, h3 x hx]
  simp [quadForm]

/-- **C16 (completeness).** For a polynomial of total degree at most two, the solver does not raise, and it
returns `None` exactly when the polynomial takes a negative value. -/
theorem sosQuadratic_none_iff :
    (∃ r, sosQuadratic c = .ok r) ∧
    (sosQuadratic c = .ok none ↔ ∃ x : List K, x.length = c.nvars ∧ evalDict c.coeffs x < 0) := by
  obtain ⟨M', h1, h2, h3⟩ := quadMat_spec c.nvars c.coeffs (fun _ _ => (0 : K)) hwf.nodup
    (fun kv hkv => ⟨hwf.length kv hkv, hdeg kv hkv⟩) (by intros; rfl) (by intros; rfl)
  have hev : ∀ x : List K, x.length = c.nvars → quadForm (c.nvars + 1) M' (homVec x) = evalDict c.coeffs x := by
    intro x hx; rw [h3 x hx]; simp [quadForm]
  have hunf : sosQuadratic c = congruence (c.nvars + 1) M' := by unfold sosQuadratic; simp only [h1]
  rw [hunf]
  refine ⟨?_, ?_⟩
  · cases hc : congruence (c.nvars + 1) M' with
    | error e => have := (congruence_error_iff _ _ _).1 hc; omega
    | ok r => exact ⟨r, rfl⟩
  · rw [congruence_none_iff _ (by omega) M' (fun r c _ _ => h2 r c)]
    constructor
    · rintro ⟨v, hv⟩
      obtain ⟨x, hx, hneg⟩ := exists_affine_neg _ _ _ hv
      exact ⟨x, hx, by rw [← hev x hx]; exact hneg⟩
    · rintro ⟨x, hx, hneg⟩
      exact ⟨homVec x, by rw [hev x hx]; exact hneg⟩
end

/-- `a²c + b²a + c²b + d²(a+b+c)`, a cubic invariant under rotating `a, b, c`. -/
def exCubic : Coeff ℚ := ofDict [([2,0,1,0],1),([1,2,0,0],1),([0,1,2,0],1),([1,0,0,2],1),([0,1,0,2],1),([0,0,1,2],1)]

/-- The value of the returned expression, for the examples. -/
def quadVal (n : ℕ) (r : Except PyErr (Option ((ℕ → ℕ → ℚ) × (ℕ → ℚ)))) (x : List ℚ) : Option ℚ :=
  match r with
  | .ok (some (U, S)) => some (∑ i ∈ range (n + 1), S i * (∑ j ∈ range (n + 1), U i j * homVec x j) ^ 2)
  | _ => none

/-- **C16 is false beyond degree two.** The function does not reject cubics: on `exCubic` (an input that the
four-variable cubic solver passes to it) it returns `a²+b²+c²+d²`, which is not equal to the polynomial. -/
theorem sosQuadratic_cubic_wrong :
    quadVal 4 (sosQuadratic exCubic) [1,1,1,1] = some 4 ∧ evalDict exCubic.coeffs [1,1,1,1] = 6 := by
  decide +kernel

example : (ofDict [([2,0],(1:ℚ)),([1,1],1),([0,2],1),([1,0],1),([0,0],1)]).WF := ⟨by decide, by decide⟩
example : quadVal 2 (sosQuadratic (ofDict [([2,0],(1:ℚ)),([1,1],1),([0,2],1),([1,0],1),([0,0],1)])) [2,3] =
  some 22 := by decide +kernel

/-! ## C17 -/

/-- The value of the returned expression. -/
def linVal : LinSol K → List K → K
  | .const c, _ => c
  | .cyc a b, x => a * x.sum + b
  | .poly t, x => evalDict t x

theorem foldl_max_le (l : List ℕ) : ∀ a, a ≤ l.foldl max a ∧ ∀ b ∈ l, b ≤ l.foldl max a := by
  induction l with
  | nil => intro a; simp
  | cons x l ih =>
    intro a
    obtain ⟨h1, h2⟩ := ih (max a x)
    simp only [List.foldl_cons]
    refine ⟨le_trans (le_max_left _ _) h1, ?_⟩
    intro b hb
    simp only [List.mem_cons] at hb
    rcases hb with rfl | hb
    · exact le_trans (le_max_right _ _) h1
    · exact h2 b hb

theorem foldl_max_mem (l : List ℕ) : ∀ a, l.foldl max a = a ∨ l.foldl max a ∈ l := by
  induction l with
  | nil => intro a; simp
  | cons x l ih =>
    intro a
    simp only [List.foldl_cons, List.mem_cons]
    rcases ih (max a x) with h | h
    · rcases max_choice a x with h2 | h2
      · left; rw [h, h2]
      · right; left; rw [h, h2]
    · right; right; exact h

theorem commonCoeff_spec (c : Coeff K) : ∀ (is : List ℕ) (com : Option K) (r : Option K),
    commonCoeff c is com = some r → (∀ i ∈ is, r = some (c.call (unitVec c.nvars i))) ∧ (∀ w, com = some w → r = some w)
      ∧ (is = [] → r = com)
  | [], com, r, h => by
      simp only [commonCoeff, Option.some.injEq] at h; subst h; simp
  | i :: is, com, r, h => by
      simp only [commonCoeff] at h
      cases com with
      | none =>
        obtain ⟨h1, h2, _⟩ := commonCoeff_spec c is _ r h
        have h3 := h2 _ rfl
        refine ⟨?_, by simp, by simp⟩
        intro j hj
        simp only [List.mem_cons] at hj
        rcases hj with rfl | hj
        · exact h3
        · exact h1 j hj
      | some w =>
        by_cases hv : c.call (unitVec c.nvars i) = w
        · simp only [hv, ne_eq, not_true, if_false] at h
          obtain ⟨h1, h2, _⟩ := commonCoeff_spec c is _ r h
          have h3 := h2 _ rfl
          refine ⟨?_, ?_, by simp⟩
          · intro j hj
            simp only [List.mem_cons] at hj
            rcases hj with rfl | hj
            · rw [h3, hv]
            · exact h1 j hj
          · intro w' hw'; cases hw'; exact h3
        · simp only [ne_eq, hv, not_false_eq_true, if_true] at h; cases h

theorem evalMonom_unit (n i : ℕ) (hi : i < n) (x : List K) (hx : x.length = n) :
    evalMonom (unitVec n i) x = x.getD i 0 := by
  subst hx
  induction x generalizing i with
  | nil => simp at hi
  | cons y x ih =>
    unfold unitVec
    rw [List.length_cons, List.range_succ_eq_map, List.map_cons, List.map_map]
    cases i with
    | zero =>
      have hz : ∀ (z : List K), evalMonom ((List.range z.length).map ((fun j => if j = 0 then 1 else 0) ∘ Nat.succ)) z = 1 := by
        intro z
        have : (List.range z.length).map ((fun j => if j = 0 then 1 else 0) ∘ Nat.succ) = List.replicate z.length 0 := by
          rw [List.eq_replicate_iff]; constructor
          · simp
          · intro b hb; simp at hb; exact hb.2.symm
        rw [this]
        have hone : ∀ (n : ℕ) (x : List K), evalMonom (List.replicate n 0) x = 1 := by
          intro n
          induction n with
          | zero => intro x; simp [evalMonom]
          | succ n ih =>
            intro x
            cases x with
            | nil => simp [evalMonom]
            | cons y x =>
              have := ih x
              simp only [evalMonom] at this
              simp [evalMonom, List.replicate_succ, this]
        exact hone _ _
      have := hz x
      simp only [evalMonom] at this
      simp [evalMonom, this]
    | succ i =>
      have := ih i (by simpa using hi)
      unfold unitVec at this
      simp only [evalMonom] at this
      simp only [evalMonom, List.zipWith_cons_cons, List.prod_cons]
      have e : ((fun j => if j = i + 1 then 1 else 0) ∘ Nat.succ : ℕ → ℕ) = fun j => if j = i then 1 else 0 := by
        funext j; simp
      rw [e, this]; simp

/-- A degree-one polynomial dictionary evaluates to `c_0 + Σ c_i x_i`. -/
theorem evalDict_linear (n : ℕ) : ∀ (d : List (List ℕ × K)), (dkeys d).Nodup →
    (∀ kv ∈ d, kv.1.length = n ∧ kv.1.sum ≤ 1) → ∀ x : List K, x.length = n →
    evalDict d x = (dget d (List.replicate n 0)).getD 0 +
      ∑ i ∈ range n, (dget d (unitVec n i)).getD 0 * x.getD i 0
  | [], _, _, x, _ => by simp [evalDict, dget]
  | (k, v) :: d, hn, hl, x, hx => by
      rw [dkeys_cons, List.nodup_cons] at hn
      obtain ⟨hk1, hk2⟩ := hl (k, v) (by simp)
      simp only at hk1 hk2
      have ih := evalDict_linear n d hn.2 (fun kv hkv => hl kv (by simp [hkv])) x hx
      have hcons : evalDict ((k, v) :: d) x = v * evalMonom k x + evalDict d x := by simp [evalDict]
      rw [hcons, ih]
      have hunitsum : ∀ i, i < n → (unitVec n i).sum = 1 := by
        intro i hi
        have : ∀ (l : List ℕ), l.Nodup → i ∈ l → (l.map fun j => if j = i then 1 else 0).sum = 1 := by
          intro l
          induction l with
          | nil => intro _ h; simp at h
          | cons a l ih =>
            intro hnd hm
            rw [List.nodup_cons] at hnd
            by_cases ha : a = i
            · subst ha
              have : (l.map fun j => if j = a then 1 else 0).sum = 0 := by
                rw [List.sum_eq_zero_iff]
                intro y hy
                rw [List.mem_map] at hy
                obtain ⟨j, hj, rfl⟩ := hy
                have : j ≠ a := by rintro rfl; exact hnd.1 hj
                simp [this]
              simp [this]
            · simp only [List.mem_cons] at hm
              have := ih hnd.2 (hm.resolve_left (fun h => ha h.symm))
              simp [ha, this]
        exact this _ List.nodup_range (List.mem_range.2 hi)
      have hne0 : ∀ i, i < n → unitVec n i ≠ List.replicate n 0 := by
        intro i hi h
        have := hunitsum i hi
        rw [h] at this; simp at this
      have hcase : k = List.replicate n 0 ∨ ∃ i, i < n ∧ k = unitVec n i := by
        by_cases h0 : k.sum = 0
        · left
          rw [List.eq_replicate_iff]
          exact ⟨hk1, fun b hb => (List.sum_eq_zero_iff.1 h0) b hb⟩
        · right
          have h1 : k.sum = 1 := by omega
          have : ∀ (k : List ℕ), k.sum = 1 → ∃ i, i < k.length ∧ k = unitVec k.length i := by
            intro k
            induction k with
            | nil => intro h; simp at h
            | cons a k ih =>
              intro h
              rw [List.sum_cons] at h
              by_cases ha : a = 0
              · obtain ⟨i, hi, hki⟩ := ih (by omega)
                refine ⟨i + 1, by simp; omega, ?_⟩
                unfold unitVec at hki ⊢
                rw [List.length_cons, List.range_succ_eq_map, List.map_cons, List.map_map]
                have e : ((fun j => if j = i + 1 then 1 else 0) ∘ Nat.succ : ℕ → ℕ) = fun j => if j = i then 1 else 0 := by
                  funext j; simp
                rw [e, ← hki, ha]; simp
              · refine ⟨0, by simp, ?_⟩
                unfold unitVec
                rw [List.length_cons, List.range_succ_eq_map, List.map_cons, List.map_map]
                have ha1 : a = 1 := by omega
                have hk0 : k.sum = 0 := by omega
                have : k = List.replicate k.length 0 := by
                  rw [List.eq_replicate_iff]; exact ⟨rfl, fun b hb => (List.sum_eq_zero_iff.1 hk0) b hb⟩
                rw [ha1]
                simp only [if_true]
                congr 1
                conv_lhs => rw [this]
                symm
                rw [List.eq_replicate_iff]
                constructor
                · simp
                · intro b hb; simp at hb; exact hb.2.symm
          obtain ⟨i, hi, hki⟩ := this k h1
          exact ⟨i, by omega, by rw [← hk1]; exact hki⟩
      have hnone : dget d k = none := (dget_eq_none_iff _ _).2 hn.1
      rcases hcase with h0 | ⟨i, hi, hki⟩
      · have hm : evalMonom k x = 1 := by
          rw [h0]
          have hone : ∀ (n : ℕ) (x : List K), evalMonom (List.replicate n 0) x = 1 := by
            intro n
            induction n with
            | zero => intro x; simp [evalMonom]
            | succ n ih =>
              intro x
              cases x with
              | nil => simp [evalMonom]
              | cons y x =>
                have := ih x
                simp only [evalMonom] at this
                simp [evalMonom, List.replicate_succ, this]
          exact hone _ _
        rw [hm]
        have e1 : dget ((k, v) :: d) (List.replicate n 0) = some v := by simp [dget, h0]
        have e2 : dget d (List.replicate n 0) = none := by rw [← h0]; exact hnone
        have e3 : ∀ i ∈ range n, (dget ((k, v) :: d) (unitVec n i)).getD 0 * x.getD i 0 =
            (dget d (unitVec n i)).getD 0 * x.getD i 0 := by
          intro i hi
          have : k ≠ unitVec n i := by rw [h0]; exact (hne0 i (mem_range.1 hi)).symm
          simp [dget, this]
        rw [e1, e2, Finset.sum_congr rfl e3]; simp
      · rw [hki, evalMonom_unit n i hi x hx]
        have e1 : dget ((k, v) :: d) (List.replicate n 0) = dget d (List.replicate n 0) := by
          have : k ≠ List.replicate n 0 := by rw [hki]; exact hne0 i hi
          simp [dget, this]
        rw [← hki, e1]
        have e2 : ∑ j ∈ range n, (dget ((k, v) :: d) (unitVec n j)).getD 0 * x.getD j 0 =
            ∑ j ∈ range n, ((dget d (unitVec n j)).getD 0 * x.getD j 0 + if j = i then v * x.getD i 0 else 0) := by
          apply Finset.sum_congr rfl
          intro j hj
          by_cases hji : j = i
          · subst hji
            have : dget d (unitVec n j) = none := by rw [← hki]; exact hnone
            simp [dget, hki, this]
          · have : k ≠ unitVec n j := by
              rw [hki]
              intro h
              have hi' : i < (unitVec n i).length := by simp [unitVec, hi]
              have : (unitVec n i).getD i 0 = (unitVec n j).getD i 0 := by rw [h]
              simp [unitVec, hi] at this
              exact hji this.symm
            simp [dget, this, hji]
        rw [e2, Finset.sum_add_distrib, Finset.sum_ite_eq' (range n) i]
        simp [hi]; ring

section
variable (c : Coeff K) (hwf : c.WF) (hz : ∀ kv ∈ c.coeffs, kv.2 ≠ 0) (hdeg : ∀ kv ∈ c.coeffs, kv.1.sum ≤ 1)
  (hn : c.coeffs ≠ [] → c.nvars ≠ 0)
include hwf hz hdeg hn

theorem sosLinear_deg : ¬ (c.coeffs.map fun kv => kv.1.sum).foldl max 0 > 1 := by
  rcases foldl_max_mem (c.coeffs.map fun kv => kv.1.sum) 0 with h | h
  · omega
  · rw [List.mem_map] at h
    obtain ⟨kv, hkv, h⟩ := h
    have := hdeg kv hkv
    omega

/-- **C17 (soundness).** The returned expression equals the linear polynomial, and all coefficients are
nonnegative, so it is nonnegative on the orthant. -/
theorem sosLinear_sound (r : LinSol K) (h : sosLinear c = some r) :
    (∀ x : List K, x.length = c.nvars → linVal r x = evalDict c.coeffs x) ∧ (∀ kv ∈ c.coeffs, 0 ≤ kv.2) := by
  unfold sosLinear at h
  simp only [sosLinear_deg c hwf hz hdeg hn, if_false] at h
  by_cases h0 : (c.coeffs.map fun kv => kv.1.sum).foldl max 0 = 0 ∧
      0 ≤ (if c.coeffs.isEmpty then [0] else c.coeffs.map (·.2)).headD 0
  · rw [if_pos h0] at h
    cases h
    cases hc : c.coeffs with
    | nil => simp [linVal, evalDict]
    | cons kv rest =>
      -- a constant polynomial has exactly one term
      have hall : ∀ e ∈ c.coeffs, e.1 = List.replicate c.nvars 0 := by
        intro e he
        have h2 := (foldl_max_le (c.coeffs.map fun kv => kv.1.sum) 0).2 e.1.sum (List.mem_map_of_mem (f := fun kv => kv.1.sum) he)
        rw [h0.1] at h2
        rw [List.eq_replicate_iff]
        exact ⟨hwf.length e he, fun b hb => (List.sum_eq_zero_iff.1 (Nat.le_zero.1 h2)) b hb⟩
      have hrest : rest = [] := by
        cases rest with
        | nil => rfl
        | cons kv2 rest =>
          exfalso
          have hnd := hwf.nodup
          rw [hc] at hnd
          simp only [dkeys, List.map_cons, List.nodup_cons, List.mem_cons] at hnd
          have e1 := hall kv (by rw [hc]; simp)
          have e2 := hall kv2 (by rw [hc]; simp)
          exact hnd.1 (Or.inl (e1.trans e2.symm))
      subst hrest
      have h3 := h0.2
      rw [hc] at h3
      simp at h3
      refine ⟨?_, by simpa using h3⟩
      intro x hx
      have hk := hall kv (by rw [hc]; simp)
      have := evalDict_linear c.nvars c.coeffs hwf.nodup (fun e he => ⟨hwf.length e he, hdeg e he⟩) x hx
      rw [hc] at this
      rw [this]
      have e3 : ∀ i ∈ range c.nvars, (dget [kv] (unitVec c.nvars i)).getD 0 * x.getD i 0 = 0 := by
        intro i hi
        have : kv.1 ≠ unitVec c.nvars i := by
          rw [hk]
          intro h
          have : (List.replicate c.nvars 0).getD i 0 = (unitVec c.nvars i).getD i 0 := by rw [h]
          simp [unitVec, List.getD_eq_getElem?_getD, mem_range.1 hi] at this
        obtain ⟨k, v⟩ := kv
        simp only at this
        simp [dget, this]
      rw [Finset.sum_eq_zero e3]
      obtain ⟨k, v⟩ := kv
      simp only at hk
      simp [linVal, dget, hk]
  · rw [if_neg h0] at h
    by_cases hall : ((if c.coeffs.isEmpty then [0] else c.coeffs.map (·.2)).all fun v => decide (0 ≤ v)) = true
    · rw [if_neg (by simpa using hall)] at h
      have hne : c.coeffs ≠ [] := by
        intro he; apply h0; rw [he]; simp
      have hie : c.coeffs.isEmpty = false := by simpa using hne
      rw [hie] at hall
      simp only [Bool.false_eq_true, if_false, List.all_eq_true, decide_eq_true_eq] at hall
      have hnn : ∀ kv ∈ c.coeffs, 0 ≤ kv.2 := fun kv hkv => hall _ (List.mem_map_of_mem hkv)
      refine ⟨?_, hnn⟩
      intro x hx
      cases hcc : commonCoeff c (List.range c.nvars) none with
      | none => simp only [hcc] at h; cases h; rfl
      | some o =>
        cases o with
        | none => simp only [hcc] at h; cases h; rfl
        | some w =>
          simp only [hcc] at h; cases h
          obtain ⟨h1, _, _⟩ := commonCoeff_spec c _ _ _ hcc
          have := evalDict_linear c.nvars c.coeffs hwf.nodup (fun e he => ⟨hwf.length e he, hdeg e he⟩) x hx
          rw [this]
          have e3 : ∀ i ∈ range c.nvars, (dget c.coeffs (unitVec c.nvars i)).getD 0 * x.getD i 0 = w * x.getD i 0 := by
            intro i hi
            have := h1 i (List.mem_range.2 (mem_range.1 hi))
            unfold call at this
            rw [← Option.some.inj this]
          rw [Finset.sum_congr rfl e3, ← Finset.mul_sum]
          have hsum : x.sum = ∑ i ∈ range c.nvars, x.getD i 0 := by
            rw [← hx]
            clear this hx e3
            induction x with
            | nil => simp
            | cons y x ih => rw [List.sum_cons, List.length_cons, Finset.sum_range_succ', ih]; simp; ring
          simp only [linVal, call]
          rw [hsum]; ring
    · rw [if_pos (by simpa using hall)] at h
      cases h

/-- **C17 (completeness).** For polynomials of degree at most one, `None` is returned exactly if a coefficient
is negative. -/
theorem sosLinear_none_iff : sosLinear c = none ↔ ∃ kv ∈ c.coeffs, kv.2 < 0 := by
  constructor
  · intro h
    unfold sosLinear at h
    simp only [sosLinear_deg c hwf hz hdeg hn, if_false] at h
    by_contra hcon
    push Not at hcon
    have hall : ((if c.coeffs.isEmpty then [0] else c.coeffs.map (·.2)).all fun v => decide (0 ≤ v)) = true := by
      split_ifs
      · simp
      · simp only [List.all_eq_true, decide_eq_true_eq, List.mem_map]
        rintro v ⟨kv, hkv, rfl⟩
        exact hcon kv hkv
    by_cases h0 : (c.coeffs.map fun kv => kv.1.sum).foldl max 0 = 0 ∧
      0 ≤ (if c.coeffs.isEmpty then [0] else c.coeffs.map (·.2)).headD 0
    · rw [if_pos h0] at h; cases h
    · rw [if_neg h0, if_neg (by simpa using hall)] at h
      cases hcc : commonCoeff c (List.range c.nvars) none with
      | none => simp [hcc] at h
      | some o => cases o <;> simp [hcc] at h
  · rintro ⟨kv, hkv, hneg⟩
    cases h : sosLinear c with
    | none => rfl
    | some r =>
      have := (sosLinear_sound c hwf hz hdeg hn r h).2 kv hkv
      exact absurd hneg (not_lt.2 this)
end

/-- Polynomials of degree above one are not answered. -/
theorem sosLinear_deg_gt (c : Coeff K) (kv : List ℕ × K) (h : kv ∈ c.coeffs) (h2 : 1 < kv.1.sum) :
    sosLinear c = none := by
  unfold sosLinear
  have := (foldl_max_le (c.coeffs.map fun kv => kv.1.sum) 0).2 kv.1.sum (List.mem_map_of_mem (f := fun kv => kv.1.sum) h)
  simp only
  rw [if_pos (by omega)]

example : (match sosLinear (ofDict [([1,0],(2:ℚ)),([0,1],2),([0,0],5)]) with
  | some (.cyc a b) => some (a, b) | _ => none) = some (2, 5) := by decide +kernel
example : (sosLinear (ofDict [([1,0],(2:ℚ)),([0,1],-2)])).isNone = true := by decide +kernel

/-! ## C56: wrappers -/

/-- What a correct solver guarantees: its solution has the value of the polynomial, and is nonnegative at all
points (`real`) or at all points of the nonnegative orthant. -/
def Good (real : Bool) (c : Coeff K) (sol : List K → K) : Prop :=
  (∀ x : List K, x.length = c.nvars → sol x = evalDict c.coeffs x) ∧
  ∀ x : List K, x.length = c.nvars → (real = true ∨ ∀ y ∈ x, 0 ≤ y) → 0 ≤ sol x

theorem monomVal_nonneg : ∀ (e : List ℕ) (x : List K),
    ((∀ i ∈ e, i % 2 = 0) ∨ ∀ y ∈ x, 0 ≤ y) → 0 ≤ monomVal e x
  | [], x, _ => by simp [monomVal]
  | _ :: _, [], _ => by simp [monomVal]
  | a :: e, y :: x, h => by
      have ih := monomVal_nonneg e x (by
        rcases h with h | h
        · left; intro i hi; exact h i (by simp [hi])
        · right; intro z hz; exact h z (by simp [hz]))
      simp only [monomVal, List.zipWith_cons_cons, List.prod_cons] at ih ⊢
      apply mul_nonneg _ ih
      rcases h with h | h
      · exact (Nat.even_iff.2 (h a (by simp))).pow_nonneg y
      · exact pow_nonneg (h y (by simp)) a

/-- **C56.** Wrapping a correct solver by factor extraction keeps it correct: if every solution the solver
returns for flag `r` is good for `r` (and good on the orthant when the flag is not passed), then the wrapped
solution has the value of the input polynomial and is nonnegative on the orthant. -/
theorem extractFactors_sound (solver : Solver K) (c : Coeff K) (real : Bool)
    (hwf : c.WF) (hz : ∀ kv ∈ c.coeffs, kv.2 ≠ 0)
    (hs : ∀ (r : Option Bool) (c' : Coeff K) sol, solver r c' = some sol → Good (r.getD false) c' sol)
    (hc : c.coeffs ≠ []) (sol : List K → K) (h : extractFactors solver real c = some sol) :
    (∀ x : List K, x.length = c.nvars → sol x = evalDict c.coeffs x) ∧
    ∀ x : List K, x.length = c.nvars → (∀ y ∈ x, 0 ≤ y) → 0 ≤ sol x := by
  have hnv1 : c.cancelAbc.2.nvars = c.nvars := by
    unfold cancelAbc
    split_ifs
    · rfl
    · split
      · rfl
      · rename_i e he
        have hlen := (cancelAbc_spec c hwf hz).1
        unfold cancelAbc at hlen
        rw [if_neg (by assumption)] at hlen
        simp only [he] at hlen
        have hfil : (c.coeffs.filter fun kv => decide (kv.2 ≠ 0)) = c.coeffs := by
          rw [List.filter_eq_self]; intro a ha; simpa using hz a ha
        rw [hfil]
        cases hcc : c.coeffs with
        | nil => exact absurd hcc hc
        | cons kv rest =>
          have hk := hwf.length kv (by rw [hcc]; simp)
          have : ∀ (l : List (List ℕ × K)) (d : List (List ℕ × K)) (a : List ℕ × K),
              (ofDict (l.foldl (fun d e => dset d e.1 e.2) (a :: d))).nvars = a.1.length := by
            intro l
            induction l with
            | nil => intro d a; rfl
            | cons b l ih =>
              intro d a
              rw [List.foldl_cons]
              simp only [dset]
              split_ifs with hab
              · rw [ih]; exact (congrArg List.length hab).symm
              · rw [ih]
          simp only [List.map_cons, dictOf, List.foldl_cons, dset]
          rw [this]
          simp [hlen, hk]
  have hnv2 : c.cancelK.2.nvars = c.nvars := by
    unfold cancelK
    split_ifs
    · rfl
    · split
      · rfl
      · split_ifs
        · rfl
        · have hfil : (c.coeffs.filter fun kv => decide (kv.2 ≠ 0)) = c.coeffs := by
            rw [List.filter_eq_self]; intro a ha; simpa using hz a ha
          rw [hfil]
          cases hcc : c.coeffs with
          | nil => exact absurd hcc hc
          | cons kv rest =>
            have hk := hwf.length kv (by rw [hcc]; simp)
            have : ∀ (l : List (List ℕ × K)) (d : List (List ℕ × K)) (a : List ℕ × K),
                (ofDict (l.foldl (fun d e => dset d e.1 e.2) (a :: d))).nvars = a.1.length := by
              intro l
              induction l with
              | nil => intro d a; rfl
              | cons b l ih =>
                intro d a
                rw [List.foldl_cons]
                simp only [dset]
                split_ifs with hab
                · rw [ih]; exact (congrArg List.length hab).symm
                · rw [ih]
            simp only [List.map_cons, dictOf, List.foldl_cons, dset]
            rw [this]
            simp [hk]
  obtain ⟨hl, habc, -⟩ := cancelAbc_spec c hwf hz
  obtain ⟨hck, -⟩ := cancelK_spec c hwf hz
  unfold extractFactors at h
  simp only at h
  by_cases h1 : (c.cancelAbc.1.any fun i => decide (i > 0)) = true
  · rw [if_pos h1] at h
    cases hsol : solver (some (real && c.cancelAbc.1.all fun i => i % 2 == 0)) c.cancelAbc.2 with
    | none => rw [hsol] at h; cases h
    | some s =>
      rw [hsol] at h
      have := Option.some.inj h
      subst this
      obtain ⟨g1, g2⟩ := hs _ _ _ hsol
      refine ⟨?_, ?_⟩
      · intro x hx
        simp only [habc x hx, g1 x (by rw [hnv1, hx])]; rfl
      · intro x hx hpos
        exact mul_nonneg (monomVal_nonneg _ _ (Or.inr hpos)) (g2 x (by rw [hnv1, hx]) (Or.inr hpos))
  · rw [if_neg h1] at h
    by_cases h2 : c.cancelK.1 > 1
    · rw [if_pos h2] at h
      cases hsol : solver (some (if c.cancelK.1 % 2 = 0 then false else real)) c.cancelK.2 with
      | none => rw [hsol] at h; cases h
      | some s =>
        rw [hsol] at h
        have := Option.some.inj h
        subst this
        obtain ⟨g1, g2⟩ := hs _ _ _ hsol
        refine ⟨?_, ?_⟩
        · intro x hx
          rw [hck x hx]; exact g1 _ (by rw [hnv2]; simpa using hx)
        · intro x hx hpos
          apply g2 _ (by rw [hnv2]; simpa using hx)
          right
          intro y hy
          rw [List.mem_map] at hy
          obtain ⟨z, hz, rfl⟩ := hy
          exact pow_nonneg (hpos z hz) _
    · rw [if_neg h2] at h
      obtain ⟨g1, g2⟩ := hs _ _ _ h
      exact ⟨g1, fun x hx hpos => g2 x hx (Or.inr hpos)⟩

/-- The chain of solvers returns only what one of them returned, and a solver that proves the polynomial
nonpositive stops the chain. -/
theorem wrapped_some {σ : Type*} : ∀ (fs : List (Unit → Outcome σ)) (s : σ), wrapped fs = some s →
    ∃ f ∈ fs, f () = .ret (some s)
  | [], s, h => by simp [wrapped] at h
  | f :: fs, s, h => by
      simp only [wrapped] at h
      cases hf : f () with
      | ret o =>
        rw [hf] at h
        cases o with
        | some s' => cases h; exact ⟨f, by simp, hf⟩
        | none =>
          obtain ⟨g, hg, hg2⟩ := wrapped_some fs s h
          exact ⟨g, by simp [hg], hg2⟩
      | unsolvable =>
        rw [hf] at h
        obtain ⟨g, hg, hg2⟩ := wrapped_some fs s h
        exact ⟨g, by simp [hg], hg2⟩
      | nonpositive => rw [hf] at h; cases h

/-- **C56 (chain).** `sos_struct_common` applied to correct solvers returns only correct solutions. -/
theorem sosCommon_sound (solvers : List (Option Bool → Coeff K → Outcome (List K → K))) (c : Coeff K) (real : Bool)
    (hwf : c.WF) (hz : ∀ kv ∈ c.coeffs, kv.2 ≠ 0) (hc : c.coeffs ≠ [])
    (hs : ∀ f ∈ solvers, ∀ r c' sol, f r c' = .ret (some sol) → Good (r.getD false) c' sol)
    (sol : List K → K) (h : sosCommon solvers real c = some sol) :
    (∀ x : List K, x.length = c.nvars → sol x = evalDict c.coeffs x) ∧
    ∀ x : List K, x.length = c.nvars → (∀ y ∈ x, 0 ≤ y) → 0 ≤ sol x := by
  refine extractFactors_sound _ c real hwf hz ?_ hc sol h
  intro r c' s hs'
  obtain ⟨g, hg, hg2⟩ := wrapped_some _ _ hs'
  rw [List.mem_map] at hg
  obtain ⟨f, hf, rfl⟩ := hg
  exact hs f hf r c' s hg2

/-- Non-vacuity: the solver that returns the polynomial itself when all exponents are even and all coefficients
nonnegative; wrapped, it proves `a³b + a b³ ≥ 0` on the orthant. -/
def exSolver : Solver ℚ := fun _ c =>
  if c.coeffs.all fun kv => decide (0 ≤ kv.2) && kv.1.all fun e => e % 2 == 0 then some (evalDict c.coeffs) else none

example : ((extractFactors exSolver true (ofDict [([3,1],1),([1,3],1)])).map fun f => f [2,3]) = some 78 := by
  decide +kernel

end Verif.Sparse
