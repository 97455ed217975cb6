import Verif.Model.SdpSOS
import Verif.Proofs.SymEval
import Verif.Props.Congruence
import Verif.Props.SharedOrbit
import Verif.Props.LinSOS

/-!
# Properties of the SDP sum of squares solver (C32, C33)
-/

set_option linter.unusedSectionVars false

namespace Verif.SdpSOS

open Verif TermsPoly MonoMgr Shared Coeff
open Verif.LinSOS (combos)

variable {K : Type*}

/-! ### The index map -/

theorem mapStep_fold (d : List (List ℕ × ℕ)) (s : List ℕ) (i : ℕ) (hs : dget d s = some i) : ∀ (ps : List (List ℕ)) (acc : Option ℕ × ℕ),
    (∀ p ∈ ps, ∀ j, dget d p = some j → p = s) → (acc.1 = some i ∨ acc = (none, 0)) →
    (ps.foldl (mapStep d) acc).2 = acc.2 + ps.count s ∧
      ((ps.foldl (mapStep d) acc).1 = some i ∨ ps.foldl (mapStep d) acc = (none, 0))
  | [], acc, _, h => ⟨by simp, h⟩
  | p :: ps, acc, hu, h => by
    rw [List.foldl_cons]
    by_cases hp : p = s
    · subst hp
      have e : mapStep d acc p = (some i, acc.2 + 1) := by simp [mapStep, hs]
      rw [e]
      obtain ⟨h1, h2⟩ := mapStep_fold d p i hs ps (some i, acc.2 + 1) (fun q hq => hu q (List.mem_cons_of_mem _ hq)) (Or.inl rfl)
      refine ⟨?_, h2⟩
      rw [h1, List.count_cons_self]; simp only; omega
    · have e : mapStep d acc p = acc := by
        unfold mapStep
        cases hd : dget d p with
        | none => rfl
        | some j => exact absurd (hu p List.mem_cons_self j hd) hp
      rw [e]
      obtain ⟨h1, h2⟩ := mapStep_fold d s i hs ps acc (fun q hq => hu q (List.mem_cons_of_mem _ hq)) h
      refine ⟨?_, h2⟩
      rw [h1, List.count_cons_of_ne hp]

/-- The multiplicity of a monomial at a representative is the number of group elements that move it there. -/
theorem mapping_spec [Semiring K] (M : MonoMgr) (hM : M.Valid) (hhom : M.hom = true) (degree : ℕ) (m : List ℕ) (hm : m.length = M.nvars) (hd : m.sum = degree) :
    (∃ i, (mapping M degree m).1 = some i ∧ i < (M.invMonoms degree).length) ∧
    ∀ i s, (M.invMonoms degree)[i]? = some s →
      (if (mapping M degree m).1 = some i then ((mapping M degree m).2 : K) else 0) = (M.elements.map fun g => if papply g m = s then (1 : K) else 0).sum := by
  have hdeg : M.DegOk degree m := by unfold DegOk; rw [if_pos hhom]; exact hd
  obtain ⟨s0, ⟨hs0, p0, hp0, e0⟩, huniq⟩ := invMonoms_existsUnique M hM degree m hm hdeg
  obtain ⟨i0, hi0l, hi0⟩ := List.mem_iff_getElem.1 hs0
  have hi0' : (M.invMonoms degree)[i0]? = some s0 := by rw [List.getElem?_eq_getElem hi0l, hi0]
  have hget : dget (M.dictMonoms degree) s0 = some i0 := (dictMonoms_iff M degree s0 i0).2 hi0'
  have hu : ∀ p ∈ M.permute m, ∀ j, dget (M.dictMonoms degree) p = some j → p = s0 := by
    intro p hp j hj
    obtain ⟨g, hg, rfl⟩ := List.mem_map.1 hp
    exact huniq _ ⟨List.mem_of_getElem? ((dictMonoms_iff M degree _ j).1 hj), g, hg, rfl⟩
  obtain ⟨h1, h2⟩ := mapStep_fold _ s0 i0 hget (M.permute m) (none, 0) hu (Or.inr rfl)
  have hmem : s0 ∈ M.permute m := by rw [e0]; exact List.mem_map_of_mem hp0
  have hpos : 0 < (M.permute m).count s0 := List.count_pos_iff.2 hmem
  have hfst : (mapping M degree m).1 = some i0 := by
    rcases h2 with h2 | h2
    · exact h2
    · rw [h2] at h1; simp at h1; omega
  have hsnd : (mapping M degree m).2 = (M.permute m).count s0 := by
    have : (mapping M degree m).2 = 0 + (M.permute m).count s0 := h1
    rw [this]; omega
  refine ⟨⟨i0, hfst, hi0l⟩, ?_⟩
  intro i s hs
  have hcount : ∀ (l : List (List ℕ)) (t : List ℕ), (l.map fun g => if papply g m = t then (1 : K) else 0).sum = ((l.map fun g => papply g m).count t : ℕ) := by
    intro l t
    induction l with
    | nil => simp
    | cons a l ih =>
      rw [List.map_cons, List.sum_cons, ih, List.map_cons]
      by_cases h : papply a m = t
      · rw [if_pos h, h, List.count_cons_self]; push_cast; rw [add_comm]
      · rw [if_neg h, List.count_cons_of_ne h, zero_add]
  rw [hcount, hfst, hsnd]
  by_cases hi : i = i0
  · subst hi
    have : s = s0 := Option.some.inj (hs.symm.trans hi0')
    subst this
    rw [if_pos rfl]; rfl
  · rw [if_neg (fun h => hi (Option.some.inj h).symm)]
    have : s ∉ M.elements.map fun g => papply g m := by
      intro h
      obtain ⟨g, hg, rfl⟩ := List.mem_map.1 h
      have e := huniq _ ⟨List.mem_of_getElem? hs, g, hg, rfl⟩
      rw [e] at hs
      have h3 := (dictMonoms_iff M degree s0 i).2 hs
      rw [hget] at h3
      exact hi (Option.some.inj h3).symm
    rw [List.count_eq_zero_of_not_mem this]; simp

/-! ### Contributions and rows -/

/-- Weighted sum over a dictionary. -/
def wsum {κ : Type*} [Semiring K] (φ : κ → K) (d : List (κ × K)) : K := (d.map fun e => e.2 * φ e.1).sum

theorem wsum_accum {κ : Type*} [DecidableEq κ] [Semiring K] (φ : κ → K) (d : List (κ × K)) (k : κ) (v : K) :
    wsum φ (accum d k v) = wsum φ d + v * φ k := by
  unfold accum wsum
  induction d with
  | nil => simp [dset, dget]
  | cons e d ih =>
    obtain ⟨k', v'⟩ := e
    by_cases h : k' = k
    · subst h
      simp only [dset, dget, if_true, Option.getD_some, List.map_cons, List.sum_cons, add_mul]
      rw [add_assoc, add_assoc, add_comm (v * φ k')]
    · simp only [dset, dget, if_neg h, List.map_cons, List.sum_cons]
      rw [ih, add_assoc]

theorem wsum_inner [Semiring K] (M : MonoMgr) (degree cur : ℕ) (t : List ℕ × K) (φ : Option ℕ × ℕ → K) : ∀ (l : List (List ℕ × ℕ)) (d : List ((Option ℕ × ℕ) × K)),
    wsum φ (l.foldl (contribStep M degree cur t) d) = wsum φ d +
      (l.map fun pk => ((mapping M degree (List.zipWith (· + ·) t.1 pk.1)).2 : K) * t.2 *
        φ ((mapping M degree (List.zipWith (· + ·) t.1 pk.1)).1, cur + pk.2)).sum
  | [], d => by simp
  | pk :: l, d => by
    rw [List.foldl_cons, wsum_inner M degree cur t φ l]
    unfold contribStep
    rw [wsum_accum, List.map_cons, List.sum_cons, add_assoc]

theorem wsum_contribution [Semiring K] (M : MonoMgr) (degree cur : ℕ) (prods : List (List ℕ)) (terms : List (List ℕ × K)) (φ : Option ℕ × ℕ → K) :
    wsum φ (contribution M degree cur prods terms) = (terms.map fun t => (prods.zipIdx.map fun pk =>
      ((mapping M degree (List.zipWith (· + ·) t.1 pk.1)).2 : K) * t.2 * φ ((mapping M degree (List.zipWith (· + ·) t.1 pk.1)).1, cur + pk.2)).sum).sum := by
  have : ∀ (terms : List (List ℕ × K)) (d : List ((Option ℕ × ℕ) × K)), wsum φ (terms.foldl (fun d t => prods.zipIdx.foldl (contribStep M degree cur t) d) d) =
      wsum φ d + (terms.map fun t => (prods.zipIdx.map fun pk =>
      ((mapping M degree (List.zipWith (· + ·) t.1 pk.1)).2 : K) * t.2 * φ ((mapping M degree (List.zipWith (· + ·) t.1 pk.1)).1, cur + pk.2)).sum).sum := by
    intro terms
    induction terms with
    | nil => intro d; simp
    | cons t terms ih =>
      intro d
      rw [List.foldl_cons, ih, wsum_inner, List.map_cons, List.sum_cons, add_assoc]
  have := this terms []
  unfold contribution
  rw [this]
  simp [wsum]

/-- The selector of a row. -/
def sel [Semiring K] (r : ℕ) (x : List K) (k : Option ℕ × ℕ) : K := if k.1 = some r then x.getD k.2 0 else 0

theorem place_spec [Semiring K] (x : List K) : ∀ (l : List ((Option ℕ × ℕ) × K)) (rows rows' : List (List (ℕ × K))), place rows l = .ok rows' →
    rows'.length = rows.length ∧ ∀ r, r < rows.length → rowDot (rows'.getD r []) x = rowDot (rows.getD r []) x + wsum (sel r x) l
  | [], rows, rows', h => by
    have := Except.ok.inj h
    subst this
    exact ⟨rfl, fun r _ => by simp [wsum]⟩
  | ((none, c), v) :: l, rows, rows', h => by simp [place] at h
  | ((some r0, c), v) :: l, rows, rows', h => by
    rw [place] at h
    obtain ⟨h1, h2⟩ := place_spec x l _ rows' h
    rw [List.length_set] at h1 h2
    refine ⟨h1, fun r hr => ?_⟩
    rw [h2 r hr]
    have e : wsum (sel r x) (((some r0, c), v) :: l) = v * sel r x (some r0, c) + wsum (sel r x) l := by simp [wsum]
    rw [e, ← add_assoc]
    congr 1
    by_cases hrr : r0 = r
    · subst hrr
      have e2 : (rows.set r0 (rows.getD r0 [] ++ [(c, v)])).getD r0 [] = rows.getD r0 [] ++ [(c, v)] := by
        rw [List.getD_eq_getElem?_getD, List.getElem?_set_self hr]; rfl
      rw [e2]
      simp [rowDot, sel]
    · have e2 : (rows.set r0 (rows.getD r0 [] ++ [(c, v)])).getD r [] = rows.getD r [] := by
        rw [List.getD_eq_getElem?_getD, List.getElem?_set_ne hrr, ← List.getD_eq_getElem?_getD]
      rw [e2]
      have : sel r x (some r0, c) = 0 := by
        unfold sel; rw [if_neg]; intro h; exact hrr (Option.some.inj h)
      rw [this, mul_zero, add_zero]

/-- The polynomial represented by a piece of the unknowns. -/
def piece [Semiring K] (cur : ℕ) (prods : List (List ℕ)) (terms : List (List ℕ × K)) (x : List K) : List (List ℕ × K) :=
  terms.flatMap fun t => prods.zipIdx.map fun pk => (List.zipWith (· + ·) t.1 pk.1, t.2 * x.getD (cur + pk.2) 0)

/-- The coefficient of a list of terms, summed over the group, at a monomial. -/
def symCoeff [Semiring K] (G : List (List ℕ)) (p : List (List ℕ × K)) (s : List ℕ) : K := (G.map fun g => coeffSum (permutePoly g p) s).sum

theorem symCoeff_append [Semiring K] (G : List (List ℕ)) (p q : List (List ℕ × K)) (s : List ℕ) : symCoeff G (p ++ q) s = symCoeff G p s + symCoeff G q s := by
  unfold symCoeff
  rw [← List.sum_map_add]
  congr 1
  apply List.map_congr_left
  intro g _
  simp [coeffSum, permutePoly]

theorem symCoeff_nil [Semiring K] (G : List (List ℕ)) (s : List ℕ) : symCoeff G ([] : List (List ℕ × K)) s = 0 := by
  unfold symCoeff
  apply List.sum_eq_zero
  intro v hv
  obtain ⟨g, _, rfl⟩ := List.mem_map.1 hv
  simp [coeffSum, permutePoly]

theorem symCoeff_cons [Semiring K] (G : List (List ℕ)) (t : List ℕ × K) (p : List (List ℕ × K)) (s : List ℕ) :
    symCoeff G (t :: p) s = (G.map fun g => if papply g t.1 = s then (1 : K) else 0).sum * t.2 + symCoeff G p s := by
  have : t :: p = [t] ++ p := rfl
  rw [this, symCoeff_append]
  congr 1
  unfold symCoeff
  rw [← List.sum_map_mul_right]
  congr 1
  apply List.map_congr_left
  intro g _
  simp only [coeffSum, permutePoly, List.map_cons, List.map_nil, List.sum_cons, List.sum_nil, add_zero]
  split <;> simp

theorem symCoeff_flatMap [Semiring K] {α : Type*} (G : List (List ℕ)) (s : List ℕ) (F : α → List (List ℕ × K)) : ∀ l : List α,
    symCoeff G (l.flatMap F) s = (l.map fun a => symCoeff G (F a) s).sum
  | [] => by simp [symCoeff_nil]
  | a :: l => by rw [List.flatMap_cons, symCoeff_append, symCoeff_flatMap G s F l, List.map_cons, List.sum_cons]

theorem symCoeff_map [Semiring K] {α : Type*} (G : List (List ℕ)) (s : List ℕ) (F : α → List ℕ × K) : ∀ l : List α,
    symCoeff G (l.map F) s = (l.map fun a => (G.map fun g => if papply g (F a).1 = s then (1 : K) else 0).sum * (F a).2).sum
  | [] => by simp [symCoeff_nil]
  | a :: l => by rw [List.map_cons, symCoeff_cons, symCoeff_map G s F l, List.map_cons, List.sum_cons]

/-- A row of the contribution of a constraint is the coefficient of the symmetric sum of its polynomial. -/
theorem contribution_row [CommSemiring K] (M : MonoMgr) (hM : M.Valid) (hhom : M.hom = true) (degree cur : ℕ) (prods : List (List ℕ)) (terms : List (List ℕ × K))
    (x : List K) (hp : ∀ t ∈ terms, ∀ p ∈ prods, (List.zipWith (· + ·) t.1 p).length = M.nvars ∧ (List.zipWith (· + ·) t.1 p).sum = degree)
    (i : ℕ) (s : List ℕ) (hs : (M.invMonoms degree)[i]? = some s) :
    wsum (sel i x) (contribution M degree cur prods terms) = symCoeff M.elements (piece cur prods terms x) s := by
  rw [wsum_contribution]
  unfold piece
  rw [symCoeff_flatMap]
  congr 1
  apply List.map_congr_left
  intro t ht
  rw [symCoeff_map]
  congr 1
  apply List.map_congr_left
  intro pk hpk
  have hpm : pk.1 ∈ prods := by
    obtain ⟨p, k⟩ := pk
    exact List.mem_of_getElem? (List.mem_zipIdx_iff_getElem?.1 hpk)
  obtain ⟨h1, h2⟩ := hp t ht pk.1 hpm
  have := (mapping_spec (K := K) M hM hhom degree _ h1 h2).2 i s hs
  simp only
  rw [← this]
  unfold sel
  simp only
  split
  · ring
  · ring

/-! ### The system -/

/-- Number of monomials of an inequality. -/
def half [Zero K] (M : MonoMgr) (degree : ℕ) (g : List (List ℕ × K)) : ℕ := (degree - totalDegree M.nvars g) / 2

/-- Size of the matrix of an inequality. -/
def size [Zero K] (M : MonoMgr) (degree : ℕ) (g : List (List ℕ × K)) : ℕ := ((baseOf M).invMonoms (half M degree g)).length

/-- Length of the vector of an equality. -/
def esize [Zero K] (M : MonoMgr) (degree : ℕ) (h : List (List ℕ × K)) : ℕ := ((baseOf M).invMonoms (degree - totalDegree M.nvars h)).length

/-- The polynomial represented by the matrices. -/
def ineqPoly [Semiring K] (M : MonoMgr) (degree : ℕ) (x : List K) : ℕ → List (List (List ℕ × K)) → List (List ℕ × K)
  | _, [] => []
  | cur, g :: l => piece cur (halfProds M (half M degree g)) (repTerms M.nvars g) x ++ ineqPoly M degree x (cur + size M degree g * size M degree g) l

/-- The polynomial represented by the vectors of the equalities. -/
def eqPoly [Semiring K] (M : MonoMgr) (degree : ℕ) (x : List K) : ℕ → List (List (List ℕ × K)) → List (List ℕ × K)
  | _, [] => []
  | cur, h :: l => piece cur ((baseOf M).invMonoms (degree - totalDegree M.nvars h)) (repTerms M.nvars h) x ++ eqPoly M degree x (cur + esize M degree h) l

theorem baseOf_valid {M : MonoMgr} (hM : M.Valid) : (baseOf M).Valid := by
  have hG : IsPermGroup M.nvars M.elements := hM
  refine ⟨by simp [baseOf], ?_, by simp [baseOf], ?_, ?_⟩
  · intro p hp
    have : p = List.range M.nvars := by simpa [baseOf] using hp
    rw [this]; exact List.Perm.refl _
  · intro p hp q hq
    have e1 : p = List.range M.nvars := by simpa [baseOf] using hp
    have e2 : q = List.range M.nvars := by simpa [baseOf] using hq
    have : papply (List.range M.nvars) (List.range M.nvars) = List.range M.nvars := IsPermGroup.papply_one (by simp)
    rw [e1, e2, this]; simp [baseOf]
  · intro p hp
    have e1 : p = List.range M.nvars := by simpa [baseOf] using hp
    have : papply (List.range M.nvars) (List.range M.nvars) = List.range M.nvars := IsPermGroup.papply_one (by simp)
    exact ⟨List.range M.nvars, by simp [baseOf], by rw [e1]; exact this, by rw [e1]; exact this⟩

theorem mem_base {M : MonoMgr} (hhom : M.hom = true) (d : ℕ) (m : List ℕ) : m ∈ (baseOf M).invMonoms d ↔ m.length = M.nvars ∧ m.sum = d := by
  rw [mem_invMonoms]
  have e : (baseOf M).nvars = M.nvars := rfl
  have e2 : (baseOf M).DegOk d m ↔ m.sum = d := by unfold DegOk; rw [if_pos (show (baseOf M).hom = true from hhom)]
  rw [e, e2]
  constructor
  · rintro ⟨h, -⟩; exact h
  · intro h
    refine ⟨h, ?_⟩
    unfold standardMonom permute
    have : (baseOf M).elements = [List.range M.nvars] := rfl
    rw [this, List.map_cons, List.map_nil, IsPermGroup.papply_one h.1]
    rfl

theorem mem_halfProds {M : MonoMgr} (hhom : M.hom = true) (d : ℕ) (m : List ℕ) (h : m ∈ halfProds M d) : m.length = M.nvars ∧ m.sum = d + d := by
  obtain ⟨u, hu, h⟩ := List.mem_flatMap.1 h
  obtain ⟨w, hw, rfl⟩ := List.mem_map.1 h
  obtain ⟨h1, h2⟩ := (mem_base hhom d u).1 hu
  obtain ⟨h3, h4⟩ := (mem_base hhom d w).1 hw
  refine ⟨by simp [h1, h3], ?_⟩
  rw [sum_zipWith_add _ _ (by rw [h1, h3]), h2, h4]

/-- Arity and homogeneity of a polynomial in the sense of the checks of the code. -/
def Hom [Zero K] (n : ℕ) (p : List (List ℕ × K)) : Prop := Arity n p ∧ isHomogeneous n p = true

theorem repTerms_hom [Zero K] {n : ℕ} {p : List (List ℕ × K)} (h : Hom n p) : ∀ t ∈ repTerms n p, t.1.length = n ∧ t.1.sum = totalDegree n p := by
  intro t ht
  unfold repTerms at ht
  split at ht
  · rename_i he
    have : p = [] := List.isEmpty_iff.1 he
    subst this
    rw [List.mem_singleton] at ht
    rw [ht]
    simp [totalDegree, repTerms]
  · refine ⟨h.1 t ht, ?_⟩
    have := h.2
    unfold isHomogeneous at this
    rw [List.all_eq_true] at this
    simpa using this t ht

theorem evalDict_repTerms [CommSemiring K] (n : ℕ) (p : List (List ℕ × K)) (y : List K) : evalDict (repTerms n p) y = evalDict p y := by
  unfold repTerms
  split
  · rename_i he
    rw [List.isEmpty_iff.1 he]
    simp [evalDict]
  · rfl

theorem ineq_hp [CommSemiring K] {M : MonoMgr} (hhom : M.hom = true) {degree : ℕ} {g : List (List ℕ × K)} (hg : Hom M.nvars g)
    (hd : ¬ (totalDegree M.nvars g > degree ∨ (degree - totalDegree M.nvars g) % 2 ≠ 0)) :
    ∀ t ∈ repTerms M.nvars g, ∀ p ∈ halfProds M (half M degree g),
      (List.zipWith (· + ·) t.1 p).length = M.nvars ∧ (List.zipWith (· + ·) t.1 p).sum = degree := by
  intro t ht p hp
  obtain ⟨h1, h2⟩ := repTerms_hom hg t ht
  obtain ⟨h3, h4⟩ := mem_halfProds hhom _ p hp
  refine ⟨by simp [h1, h3], ?_⟩
  rw [sum_zipWith_add _ _ (by rw [h1, h3]), h2, h4]
  unfold half
  push Not at hd
  omega

theorem eq_hp [CommSemiring K] {M : MonoMgr} (hhom : M.hom = true) {degree : ℕ} {g : List (List ℕ × K)} (hg : Hom M.nvars g)
    (hd : ¬ totalDegree M.nvars g > degree) :
    ∀ t ∈ repTerms M.nvars g, ∀ p ∈ (baseOf M).invMonoms (degree - totalDegree M.nvars g),
      (List.zipWith (· + ·) t.1 p).length = M.nvars ∧ (List.zipWith (· + ·) t.1 p).sum = degree := by
  intro t ht p hp
  obtain ⟨h1, h2⟩ := repTerms_hom hg t ht
  obtain ⟨h3, h4⟩ := (mem_base hhom _ p).1 hp
  refine ⟨by simp [h1, h3], ?_⟩
  rw [sum_zipWith_add _ _ (by rw [h1, h3]), h2, h4]
  omega

theorem dset_append {κ ν : Type*} [DecidableEq κ] (d : List (κ × ν)) (k : κ) (v : ν) (h : k ∉ dkeys d) : dset d k v = d ++ [(k, v)] := by
  induction d with
  | nil => rfl
  | cons e d ih =>
    obtain ⟨k', v'⟩ := e
    simp only [dkeys, List.map_cons, List.mem_cons, not_or] at h
    simp only [dset, if_neg (Ne.symm h.1), List.cons_append]
    rw [ih h.2]

theorem ineqs_fold [CommSemiring K] [DecidableEq K] (M : MonoMgr) (hM : M.Valid) (hhom : M.hom = true) (degree : ℕ) (x : List K) :
    ∀ (ineqs : List (List (List ℕ × K))) (s s' : FormState K), (∀ g ∈ ineqs, Hom M.nvars g) → s.rows.length = (M.invMonoms degree).length →
    ineqs.foldlM (ineqStep M degree) s = .ok s' →
    s'.rows.length = s.rows.length ∧ s'.cnt = s.cnt + (ineqs.map fun g => size M degree g * size M degree g).sum ∧ s'.splitsEq = s.splitsEq ∧
    (∀ g ∈ ineqs, totalDegree M.nvars g + 2 * half M degree g = degree) ∧
    ((dkeys s.splitsIneq ++ ineqs).Nodup → s'.splitsIneq = s.splitsIneq ++ ineqs.map fun g => (g, size M degree g)) ∧
    ∀ i m, (M.invMonoms degree)[i]? = some m →
      rowDot (s'.rows.getD i []) x = rowDot (s.rows.getD i []) x + symCoeff M.elements (ineqPoly M degree x s.cnt ineqs) m
  | [], s, s', _, _, h => by
    have := Except.ok.inj h
    subst this
    refine ⟨rfl, by simp, rfl, by simp, by simp, ?_⟩
    intro i m _
    simp [ineqPoly, symCoeff_nil]
  | g :: l, s, s', hg, hlen, h => by
    rw [List.foldlM_cons] at h
    cases hst : ineqStep M degree s g with
    | error e => rw [hst] at h; exact absurd h (by intro hh; cases hh)
    | ok s1 =>
      rw [hst] at h
      change l.foldlM (ineqStep M degree) s1 = .ok s' at h
      unfold ineqStep at hst
      simp only at hst
      by_cases hd : totalDegree M.nvars g > degree ∨ (degree - totalDegree M.nvars g) % 2 ≠ 0
      · rw [if_pos hd] at hst; simp at hst
      · rw [if_neg hd] at hst
        cases hp : place s.rows (contribution M degree s.cnt (halfProds M ((degree - totalDegree M.nvars g) / 2)) (repTerms M.nvars g)) with
        | error e => rw [hp] at hst; simp at hst
        | ok rows =>
          rw [hp] at hst
          have e := Except.ok.inj hst
          subst e
          obtain ⟨p1, p2⟩ := place_spec x _ _ _ hp
          obtain ⟨r1, r2, r3, r4, r5, r6⟩ := ineqs_fold M hM hhom degree x l _ s' (fun q hq => hg q (List.mem_cons_of_mem _ hq))
            (by simpa [p1] using hlen) h
          simp only at r1 r2 r3 r5 r6
          have hsz : ((baseOf M).invMonoms ((degree - totalDegree M.nvars g) / 2)).length = size M degree g := rfl
          rw [hsz] at r2 r5 r6
          refine ⟨by rw [r1, p1], ?_, r3, ?_, ?_, ?_⟩
          · rw [r2, List.map_cons, List.sum_cons]; omega
          · intro q hq
            rcases List.mem_cons.1 hq with rfl | hq
            · unfold half; push Not at hd; omega
            · exact r4 q hq
          · intro hnd
            have hnot : g ∉ dkeys s.splitsIneq := by
              rw [List.nodup_append] at hnd
              intro hmem
              exact hnd.2.2 g hmem g List.mem_cons_self rfl
            rw [r5, dset_append _ _ _ hnot]
            · simp
            · rw [dset_append _ _ _ hnot]
              simpa [dkeys] using hnd
          · intro i m hm
            have hi : i < s.rows.length := by rw [hlen]; exact (List.getElem?_eq_some_iff.1 hm).1
            rw [r6 i m hm, p2 i hi, ineqPoly, symCoeff_append, add_assoc]
            congr 2
            exact contribution_row M hM hhom degree s.cnt _ _ x (ineq_hp hhom (hg g List.mem_cons_self) hd) i m hm

theorem eqs_fold [CommSemiring K] [DecidableEq K] (M : MonoMgr) (hM : M.Valid) (hhom : M.hom = true) (degree : ℕ) (x : List K) :
    ∀ (eqs : List (List (List ℕ × K))) (s s' : FormState K), (∀ g ∈ eqs, Hom M.nvars g) → (∀ g ∈ eqs, totalDegree M.nvars g ≤ degree) →
    s.rows.length = (M.invMonoms degree).length →
    eqs.foldlM (eqStep M degree) s = .ok s' →
    s'.rows.length = s.rows.length ∧ s'.cnt = s.cnt + (eqs.map fun g => esize M degree g).sum ∧ s'.splitsIneq = s.splitsIneq ∧
    (∀ g ∈ eqs, dget s'.splitsEq g = some (esize M degree g)) ∧ (∀ g ∉ eqs, dget s'.splitsEq g = dget s.splitsEq g) ∧
    ∀ i m, (M.invMonoms degree)[i]? = some m →
      rowDot (s'.rows.getD i []) x = rowDot (s.rows.getD i []) x + symCoeff M.elements (eqPoly M degree x s.cnt eqs) m
  | [], s, s', _, _, _, h => by
    have := Except.ok.inj h
    subst this
    refine ⟨rfl, by simp, rfl, by simp, by simp, ?_⟩
    intro i m _
    simp [eqPoly, symCoeff_nil]
  | g :: l, s, s', hg, hdeg, hlen, h => by
    rw [List.foldlM_cons] at h
    cases hst : eqStep M degree s g with
    | error e => rw [hst] at h; exact absurd h (by intro hh; cases hh)
    | ok s1 =>
      rw [hst] at h
      change l.foldlM (eqStep M degree) s1 = .ok s' at h
      unfold eqStep at hst
      simp only at hst
      have hd : ¬ totalDegree M.nvars g > degree := by have := hdeg g List.mem_cons_self; omega
      rw [if_neg hd] at hst
      cases hp : place s.rows (contribution M degree s.cnt ((baseOf M).invMonoms (degree - totalDegree M.nvars g)) (repTerms M.nvars g)) with
      | error e => rw [hp] at hst; simp at hst
      | ok rows =>
        rw [hp] at hst
        have e := Except.ok.inj hst
        subst e
        obtain ⟨p1, p2⟩ := place_spec x _ _ _ hp
        obtain ⟨r1, r2, r3, r4, r5, r6⟩ := eqs_fold M hM hhom degree x l _ s' (fun q hq => hg q (List.mem_cons_of_mem _ hq))
          (fun q hq => hdeg q (List.mem_cons_of_mem _ hq)) (by simpa [p1] using hlen) h
        simp only at r1 r2 r3 r4 r5 r6
        have hsz : ((baseOf M).invMonoms (degree - totalDegree M.nvars g)).length = esize M degree g := rfl
        rw [hsz] at r2 r6
        refine ⟨by rw [r1, p1], ?_, r3, ?_, ?_, ?_⟩
        · rw [r2, List.map_cons, List.sum_cons]; omega
        · intro q hq
          by_cases hql : q ∈ l
          · exact r4 q hql
          · rcases List.mem_cons.1 hq with rfl | hq
            · rw [r5 q hql, dget_dset, if_pos rfl]; rfl
            · exact absurd hq hql
        · intro q hq
          rw [List.mem_cons, not_or] at hq
          rw [r5 q hq.2, dget_dset, if_neg (Ne.symm hq.1)]
        · intro i m hm
          have hi : i < s.rows.length := by rw [hlen]; exact (List.getElem?_eq_some_iff.1 hm).1
          rw [r6 i m hm, p2 i hi, eqPoly, symCoeff_append, add_assoc]
          congr 2
          exact contribution_row M hM hhom degree s.cnt _ _ x (eq_hp hhom (hg g List.mem_cons_self) hd) i m hm

/-! ### Values -/

theorem piece_eval [CommSemiring K] (cur : ℕ) (prods : List (List ℕ)) (terms : List (List ℕ × K)) (x y : List K)
    (ht : Arity y.length terms) (hp : ∀ p ∈ prods, p.length = y.length) :
    evalDict (piece cur prods terms x) y = evalDict terms y * (prods.zipIdx.map fun pk => evalMonom pk.1 y * x.getD (cur + pk.2) 0).sum := by
  unfold piece
  induction terms with
  | nil => simp [evalDict]
  | cons t terms ih =>
    rw [List.flatMap_cons, evalDict_append, evalDict_cons, ih (fun u hu => ht u (List.mem_cons_of_mem _ hu)), add_mul]
    congr 1
    unfold evalDict
    rw [List.map_map, ← List.sum_map_mul_left]
    congr 1
    apply List.map_congr_left
    intro pk hpk
    have hpm : pk.1 ∈ prods := by
      obtain ⟨p, k⟩ := pk
      exact List.mem_of_getElem? (List.mem_zipIdx_iff_getElem?.1 hpk)
    simp only [Function.comp]
    rw [evalMonom_add _ _ _ (ht t List.mem_cons_self) (hp _ hpm)]
    ring

/-- The value of the `i`-th monomial of degree `d`. -/
def mono [CommSemiring K] (M : MonoMgr) (d i : ℕ) (y : List K) : K := evalMonom (((baseOf M).invMonoms d).getD i []) y

theorem zipIdx_sum {α : Type*} [AddCommMonoid K] (dflt : α) (F : α → ℕ → K) : ∀ (l : List α) (k : ℕ),
    ((l.zipIdx k).map fun p => F p.1 p.2).sum = ∑ i ∈ Finset.range l.length, F (l.getD i dflt) (k + i)
  | [], k => by simp
  | a :: l, k => by
    rw [List.zipIdx_cons, List.map_cons, List.sum_cons, zipIdx_sum dflt F l (k + 1), List.length_cons, Finset.sum_range_succ', add_comm]
    congr 1
    · apply Finset.sum_congr rfl
      intro i _
      simp [Nat.add_comm, Nat.add_left_comm]

theorem flatMap_zipIdx_sum {α β : Type*} [AddCommMonoid K] (da : α) (v : List β) (db : β) {γ : Type*} (c : α → β → γ) (F : γ → ℕ → K) :
    ∀ (l : List α) (k : ℕ), (((l.flatMap fun u => v.map fun w => c u w).zipIdx k).map fun p => F p.1 p.2).sum =
      ∑ i ∈ Finset.range l.length, ∑ j ∈ Finset.range v.length, F (c (l.getD i da) (v.getD j db)) (k + i * v.length + j)
  | [], k => by simp
  | a :: l, k => by
    rw [List.flatMap_cons, List.zipIdx_append, List.map_append, List.sum_append, flatMap_zipIdx_sum da v db c F l, List.length_cons,
      Finset.sum_range_succ', add_comm]
    congr 1
    · apply Finset.sum_congr rfl
      intro i _
      apply Finset.sum_congr rfl
      intro j _
      simp only [List.length_map, List.getD_cons_succ]
      congr 1
      ring
    · have : (List.map (fun w => c a w) v).zipIdx k = (v.zipIdx k).map fun p => (c a p.1, p.2) := by
        rw [List.zipIdx_map]; rfl
      rw [this, List.map_map]
      have e := zipIdx_sum db (fun w i => F (c a w) i) v k
      simp only [Function.comp_def]
      rw [e]
      simp

/-- The part of the identity that belongs to one matrix. -/
theorem ineq_piece_eval [Field K] [LinearOrder K] {M : MonoMgr} (hhom : M.hom = true) (cur d : ℕ) (g : List (List ℕ × K)) (x y : List K)
    (hy : y.length = M.nvars) (hg : Hom M.nvars g) :
    evalDict (piece cur (halfProds M d) (repTerms M.nvars g) x) y =
      evalDict g y * quadForm ((baseOf M).invMonoms d).length (fun i j => x.getD (cur + i * ((baseOf M).invMonoms d).length + j) 0) (fun i => mono M d i y) := by
  rw [piece_eval cur _ _ x y (by intro t ht; rw [hy]; exact (repTerms_hom hg t ht).1) (by intro p hp; rw [hy]; exact (mem_halfProds hhom d p hp).1),
    evalDict_repTerms]
  congr 1
  unfold halfProds
  rw [flatMap_zipIdx_sum [] _ [] (fun u w => List.zipWith (· + ·) u w) (fun m k => evalMonom m y * x.getD (cur + k) 0)]
  unfold quadForm
  apply Finset.sum_congr rfl
  intro i hi
  apply Finset.sum_congr rfl
  intro j hj
  rw [Finset.mem_range] at hi hj
  have hl : ∀ i, i < ((baseOf M).invMonoms d).length → (((baseOf M).invMonoms d).getD i []).length = y.length := by
    intro i hi
    rw [List.getD_eq_getElem?_getD, List.getElem?_eq_getElem hi, Option.getD_some, hy]
    exact ((mem_base hhom d _).1 (List.getElem_mem hi)).1
  rw [evalMonom_add _ _ _ (hl i hi) (hl j hj)]
  unfold mono
  rw [show cur + (0 + i * ((baseOf M).invMonoms d).length + j) = cur + i * ((baseOf M).invMonoms d).length + j by ring]
  ring

theorem eq_piece_eval [CommRing K] {M : MonoMgr} (hhom : M.hom = true) (cur d : ℕ) (g : List (List ℕ × K)) (x y : List K)
    (hy : y.length = M.nvars) (hg : Hom M.nvars g) :
    evalDict (piece cur ((baseOf M).invMonoms d) (repTerms M.nvars g) x) y =
      evalDict g y * ∑ i ∈ Finset.range ((baseOf M).invMonoms d).length, mono M d i y * x.getD (cur + i) 0 := by
  rw [piece_eval cur _ _ x y (by intro t ht; rw [hy]; exact (repTerms_hom hg t ht).1) (by intro p hp; rw [hy]; exact ((mem_base hhom d p).1 hp).1),
    evalDict_repTerms]
  congr 1
  rw [zipIdx_sum [] (fun m k => evalMonom m y * x.getD (cur + k) 0)]
  apply Finset.sum_congr rfl
  intro i _
  simp [mono]

/-! ### From the equations to the identity -/

theorem coeffSum_coeffAt [AddCommMonoid K] (p : List (List ℕ × K)) (hp : (dkeys p).Nodup) (m : List ℕ) : coeffSum p m = coeffAt p m := by
  unfold coeffSum coeffAt
  induction p with
  | nil => simp [dget]
  | cons t p ih =>
    obtain ⟨k, v⟩ := t
    simp only [dkeys, List.map_cons, List.nodup_cons] at hp
    rw [List.map_cons, List.sum_cons]
    by_cases h : k = m
    · subst h
      have : (p.map fun t => if t.1 = k then t.2 else 0).sum = 0 := by
        apply List.sum_eq_zero
        intro v hv
        obtain ⟨t, ht, rfl⟩ := List.mem_map.1 hv
        rw [if_neg]
        intro e
        exact hp.1 (List.mem_map.2 ⟨t, ht, e⟩)
      rw [this]
      simp [dget]
    · rw [if_neg h, ih hp.2, zero_add]
      simp [dget, h]

theorem mem_of_dget {κ ν : Type*} [DecidableEq κ] {d : List (κ × ν)} {k : κ} {v : ν} (h : dget d k = some v) : (k, v) ∈ d := by
  induction d with
  | nil => simp [dget] at h
  | cons e d ih =>
    obtain ⟨k', v'⟩ := e
    by_cases hk : k' = k
    · subst hk; simp [dget] at h; subst h; exact List.mem_cons_self
    · simp only [dget, if_neg hk] at h; exact List.mem_cons_of_mem _ (ih h)

theorem isSymmetric_coeff [Zero K] [DecidableEq K] {M : MonoMgr} (hM : M.Valid) (f : List (List ℕ × K)) (hf : isSymmetric M f = true)
    (g : List ℕ) (hg : g ∈ M.elements) (m : List ℕ) (hm : m.length = M.nvars) : coeffAt f (papply g m) = coeffAt f m := by
  have hG : IsPermGroup M.nvars M.elements := hM
  have hs : ∀ g ∈ M.elements, ∀ t ∈ f, coeffAt f (papply g t.1) = t.2 := by
    intro g hg t ht
    unfold isSymmetric at hf
    rw [List.all_eq_true] at hf
    have := hf g hg
    rw [List.all_eq_true] at this
    have := this t ht
    exact of_decide_eq_true this
  have key : ∀ g ∈ M.elements, ∀ m v, dget f m = some v → coeffAt f (papply g m) = v := by
    intro g hg m v hv
    exact hs g hg (m, v) (mem_of_dget hv)
  cases h1 : dget f m with
  | some v =>
    rw [key g hg m v h1]
    unfold coeffAt; rw [h1]; rfl
  | none =>
    have e0 : coeffAt f m = 0 := by unfold coeffAt; rw [h1]; rfl
    cases h2 : dget f (papply g m) with
    | none => rw [e0]; unfold coeffAt; rw [h2]; rfl
    | some v =>
      obtain ⟨gi, hgi, i1, i2⟩ := hG.inv g hg
      have := key gi hgi _ v h2
      rw [hG.papply_papply' hgi hg, i2, IsPermGroup.papply_one hm, e0] at this
      rw [e0]; unfold coeffAt; rw [h2, this]; rfl

/-- A homogeneous polynomial invariant under the group equals the symmetric sum of `p` when its coefficients at the representatives agree. -/
theorem symEval_eq_of_coeff [CommSemiring K] [Inhabited K] (M : MonoMgr) (hM : M.Valid) (hhom : M.hom = true) (p f : List (List ℕ × K)) (d : ℕ)
    (hp : ∀ t ∈ p, t.1.length = M.nvars ∧ t.1.sum = d) (hf : ∀ t ∈ f, t.1.length = M.nvars ∧ t.1.sum = d) (hnd : (dkeys f).Nodup)
    (hinv : ∀ g ∈ M.elements, ∀ m, m.length = M.nvars → coeffAt f (papply g m) = coeffAt f m)
    (hz : ∀ s ∈ M.invMonoms d, symCoeff M.elements p s = coeffAt f s) (x : List K) (hx : x.length = M.nvars) :
    symEval M.elements p x = evalDict f x := by
  have hG : IsPermGroup M.nvars M.elements := hM
  rw [symEval_eq hG p x (fun t ht => (hp t ht).1) hx]
  set S := generatePartitions M.nvars d true with hS
  have hmemS : ∀ m : List ℕ, m.length = M.nvars → m.sum = d → m ∈ S := by
    intro m h1 h2
    exact (generatePartitions_mem _ _ _).2.2 ⟨h1, h2⟩
  have e : (M.elements.map fun g => evalDict (permutePoly g p) x) =
      M.elements.map fun g => (S.map fun m => coeffSum (permutePoly g p) m * evalMonom m x).sum := by
    apply List.map_congr_left
    intro g hg
    apply evalDict_coeffSum _ _ _ (generatePartitions_nodup _ _ _)
    intro t ht
    obtain ⟨t0, ht0, rfl⟩ := List.mem_map.1 ht
    refine hmemS _ (by rw [papply_length, hG.length_eq hg]) ?_
    rw [(hG.papply_perm' hg (hp t0 ht0).1).sum_eq, (hp t0 ht0).2]
  rw [e, sum_map_comm, evalDict_coeffSum f x S (generatePartitions_nodup _ _ _) (fun t ht => hmemS _ (hf t ht).1 (hf t ht).2)]
  congr 1
  apply List.map_congr_left
  intro m hm
  have hml : m.length = M.nvars ∧ m.sum = d := (generatePartitions_mem _ _ _).2.1 hm
  rw [List.sum_map_mul_right]
  congr 1
  obtain ⟨s, hs⟩ := standard_exists hM hml.1
  obtain ⟨g, hg, hgs⟩ := List.mem_map.1 (standard_mem hs)
  have hgs : papply g m = s := hgs
  have := symCoeff_orbit hG p m g (fun t ht => (hp t ht).1) hml.1 hg
  have hmem : s ∈ M.invMonoms d := by
    rw [mem_invMonoms]
    obtain ⟨s', hs', -, -, hidem, -⟩ := standardMonom_spec M hM m hml.1
    have : s = s' := Option.some.inj (hs.symm.trans hs')
    subst this
    refine ⟨⟨length_of_mem_permute hM (standard_mem hs), ?_⟩, hidem⟩
    unfold DegOk
    rw [if_pos hhom, sum_of_mem_permute hM hml.1 (standard_mem hs), hml.2]
  have hz' := hz s hmem
  unfold symCoeff at hz'
  rw [← this, hgs, hz', ← hgs, hinv g hg m hml.1, coeffSum_coeffAt f hnd]

theorem piece_mem [Semiring K] {cur : ℕ} {prods : List (List ℕ)} {terms : List (List ℕ × K)} {x : List K} {P : List ℕ → Prop}
    (h : ∀ t ∈ terms, ∀ p ∈ prods, P (List.zipWith (· + ·) t.1 p)) : ∀ t ∈ piece cur prods terms x, P t.1 := by
  intro t ht
  obtain ⟨t0, ht0, ht⟩ := List.mem_flatMap.1 ht
  obtain ⟨⟨p, k⟩, hpk, rfl⟩ := List.mem_map.1 ht
  exact h t0 ht0 p (List.mem_of_getElem? (List.mem_zipIdx_iff_getElem?.1 hpk))

theorem ineqPoly_mem [CommSemiring K] {M : MonoMgr} (hhom : M.hom = true) (degree : ℕ) (x : List K) : ∀ (ineqs : List (List (List ℕ × K))) (cur : ℕ),
    (∀ g ∈ ineqs, Hom M.nvars g) → (∀ g ∈ ineqs, totalDegree M.nvars g + 2 * half M degree g = degree) →
    ∀ t ∈ ineqPoly M degree x cur ineqs, t.1.length = M.nvars ∧ t.1.sum = degree
  | [], _, _, _ => by intro t ht; simp [ineqPoly] at ht
  | g :: l, cur, h1, h2 => by
    intro t ht
    rw [ineqPoly] at ht
    rcases List.mem_append.1 ht with ht | ht
    · refine piece_mem (P := fun m => m.length = M.nvars ∧ m.sum = degree) (ineq_hp hhom (h1 g List.mem_cons_self) ?_) t ht
      have := h2 g List.mem_cons_self
      omega
    · exact ineqPoly_mem hhom degree x l _ (fun q hq => h1 q (List.mem_cons_of_mem _ hq)) (fun q hq => h2 q (List.mem_cons_of_mem _ hq)) t ht

theorem eqPoly_mem [CommSemiring K] {M : MonoMgr} (hhom : M.hom = true) (degree : ℕ) (x : List K) : ∀ (eqs : List (List (List ℕ × K))) (cur : ℕ),
    (∀ g ∈ eqs, Hom M.nvars g) → (∀ g ∈ eqs, totalDegree M.nvars g ≤ degree) →
    ∀ t ∈ eqPoly M degree x cur eqs, t.1.length = M.nvars ∧ t.1.sum = degree
  | [], _, _, _ => by intro t ht; simp [eqPoly] at ht
  | g :: l, cur, h1, h2 => by
    intro t ht
    rw [eqPoly] at ht
    rcases List.mem_append.1 ht with ht | ht
    · refine piece_mem (P := fun m => m.length = M.nvars ∧ m.sum = degree) (eq_hp hhom (h1 g List.mem_cons_self) ?_) t ht
      have := h2 g List.mem_cons_self
      omega
    · exact eqPoly_mem hhom degree x l _ (fun q hq => h1 q (List.mem_cons_of_mem _ hq)) (fun q hq => h2 q (List.mem_cons_of_mem _ hq)) t ht

/-- The value of the decomposed matrices at a point: `Σ ineq * S_k * (U_k . monomials)^2`. -/
def psdValue [Field K] (M : MonoMgr) (degree : ℕ) (psd : List (List (List ℕ × K) × ℕ × (ℕ → ℕ → K) × (ℕ → K))) (y : List K) : K :=
  (psd.map fun b => evalDict b.1 y * ∑ k ∈ Finset.range b.2.1, b.2.2.2 k * (∑ c ∈ Finset.range b.2.1, b.2.2.1 k c * mono M (half M degree b.1) c y) ^ 2).sum

/-- The value of the equality multipliers at a point: `Σ eq * (w . monomials)`. -/
def freeValue [Field K] (M : MonoMgr) (degree : ℕ) (free : List (List (List ℕ × K) × List K)) (y : List K) : K :=
  (free.map fun b => evalDict b.1 y * ∑ c ∈ Finset.range b.2.length, b.2.getD c 0 * mono M (degree - totalDegree M.nvars b.1) c y).sum

theorem decompose_value [Field K] [LinearOrder K] [IsStrictOrderedRing K] (M : MonoMgr) (hhom : M.hom = true) (degree : ℕ) (x y : List K)
    (hy : y.length = M.nvars) : ∀ (ineqs : List (List (List ℕ × K))) (cur : ℕ) (psd : List (List (List ℕ × K) × ℕ × (ℕ → ℕ → K) × (ℕ → K))),
    (∀ g ∈ ineqs, Hom M.nvars g) →
    (∀ b ∈ blocks cur (ineqs.map fun g => (g, size M degree g)) x, ∀ i j, i < b.2.1 → j < b.2.1 → b.2.2 i j = b.2.2 j i) →
    decompose (blocks cur (ineqs.map fun g => (g, size M degree g)) x) = .ok (some psd) →
    evalDict (ineqPoly M degree x cur ineqs) y = psdValue M degree psd y ∧ (∀ b ∈ psd, b.1 ∈ ineqs ∧ ∀ k, k < b.2.1 → 0 ≤ b.2.2.2 k)
  | [], cur, psd, _, _, h => by
    have := Option.some.inj (Except.ok.inj h)
    subst this
    simp [ineqPoly, psdValue, evalDict]
  | g :: l, cur, psd, hg, hsym, h => by
    rw [List.map_cons, blocks] at h hsym
    rw [decompose] at h
    cases hc : congruence (size M degree g) (fun i j => x.getD (cur + i * size M degree g + j) 0) with
    | error e => rw [hc] at h; simp at h
    | ok o =>
      rw [hc] at h
      cases o with
      | none => simp at h
      | some US =>
        obtain ⟨U, S⟩ := US
        simp only at h
        cases hd : decompose (blocks (cur + size M degree g * size M degree g) (l.map fun g => (g, size M degree g)) x) with
        | error e => rw [hd] at h; simp at h
        | ok o =>
          rw [hd] at h
          cases o with
          | none => simp at h
          | some r =>
            have e := Option.some.inj (Except.ok.inj h)
            subst e
            obtain ⟨r1, r2⟩ := decompose_value M hhom degree x y hy l _ r (fun q hq => hg q (List.mem_cons_of_mem _ hq))
              (fun b hb => hsym b (List.mem_cons_of_mem _ hb)) hd
            have hs := hsym _ List.mem_cons_self
            simp only at hs
            have hpos := (congruence_sound _ _ hs U S hc)
            have hsq := congruence_sum_of_squares _ _ hs U S hc (fun i => mono M (half M degree g) i y)
            refine ⟨?_, ?_⟩
            · rw [ineqPoly, evalDict_append, r1, ineq_piece_eval hhom cur _ g x y hy (hg g List.mem_cons_self)]
              unfold psdValue
              rw [List.map_cons, List.sum_cons]
              congr 2
            · intro b hb
              rcases List.mem_cons.1 hb with rfl | hb
              · exact ⟨List.mem_cons_self, fun k hk => hpos.2.2 k hk⟩
              · exact ⟨List.mem_cons_of_mem _ (r2 b hb).1, (r2 b hb).2⟩

/-! ### Symmetric matrices -/

theorem base_invMonoms (M : MonoMgr) (hhom : M.hom = true) (d : ℕ) : (baseOf M).invMonoms d = generatePartitions M.nvars d true := by
  have e : (baseOf M).nvars = M.nvars := rfl
  have e2 : (baseOf M).hom = true := hhom
  unfold invMonoms
  rw [e, e2]
  apply List.filter_eq_self.2
  intro m hm
  have hml : m.length = M.nvars ∧ m.sum = d := (generatePartitions_mem _ _ _).2.1 hm
  have := (mem_base hhom d m).2 hml
  exact (List.mem_filter.1 this).2

/-- The position of the standard monomial of an orbit is the first of the orbit. -/
theorem standard_first {M : MonoMgr} (hM : M.Valid) (hhom : M.hom = true) (d : ℕ) {m s t : List ℕ} {i j : ℕ} (hs : M.standardMonom m = some s)
    (ht : t ∈ M.permute m) (hi : ((baseOf M).invMonoms d)[i]? = some s) (hj : ((baseOf M).invMonoms d)[j]? = some t) : i ≤ j := by
  rw [base_invMonoms M hhom] at hi hj
  have hsort := generatePartitions_sorted M.nvars d true
  have hle : t ≤ s := ((pyMax_eq_some_iff _ _).1 hs).2 t ht
  by_contra hlt
  push Not at hlt
  obtain ⟨hi', ei⟩ := List.getElem?_eq_some_iff.1 hi
  obtain ⟨hj', ej⟩ := List.getElem?_eq_some_iff.1 hj
  have := List.pairwise_iff_getElem.1 hsort j i hj' hi' hlt
  rw [ei, ej] at this
  exact absurd this (not_lt.2 hle)

theorem mem_images {M : MonoMgr} {dict : List (List ℕ × ℕ)} {n off : ℕ} {m1 m2 g : List ℕ} (hg : g ∈ M.elements) {i j : ℕ}
    (hi : dget dict (papply g m1) = some i) (hj : dget dict (papply g m2) = some j) :
    i * n + j + off ∈ images M dict n off m1 m2 ∧ j * n + i + off ∈ images M dict n off m1 m2 := by
  have hz : (papply g m1, papply g m2) ∈ List.zip (M.permute m1) (M.permute m2) := by
    have : List.zip (M.permute m1) (M.permute m2) = M.elements.map fun g => (papply g m1, papply g m2) := by
      unfold permute
      rw [List.zip_map']
    rw [this]
    exact List.mem_map_of_mem hg
  unfold images
  constructor <;>
  · rw [List.mem_flatMap]
    exact ⟨_, hz, by simp [hi, hj]⟩

/-- Both positions of a pair of indices are in one group of equal entries. -/
theorem ineqGroups_spec [Zero K] [DecidableEq K] {M : MonoMgr} (hM : M.Valid) (hhom : M.hom = true) (degree off : ℕ) (g : List (List ℕ × K)) (i j : ℕ)
    (hi : i < size M degree g) (hj : j < size M degree g) (hne : i ≠ j) :
    ∃ gr ∈ ineqGroups M degree off g, i * size M degree g + j + off ∈ gr ∧ j * size M degree g + i + off ∈ gr := by
  have hG : IsPermGroup M.nvars M.elements := hM
  unfold ineqGroups
  simp only
  by_cases hsym : isSymmetric M g = true
  · rw [if_neg (by simp [hsym])]
    set d := (degree - totalDegree M.nvars g) / 2 with hd
    have hsz : size M degree g = ((baseOf M).invMonoms d).length := rfl
    rw [hsz] at hi hj
    rw [hsz]
    set vec := (baseOf M).invMonoms d with hvec
    -- the ordered case
    have main : ∀ (a b : ℕ) (u w : List ℕ), vec[a]? = some u → vec[b]? = some w → ∀ (su sw : List ℕ) (ia ib : ℕ), M.standardMonom u = some su →
        M.standardMonom w = some sw → vec[ia]? = some su → vec[ib]? = some sw → ia ≤ ib →
        ∃ gr ∈ (vec.zipIdx.flatMap fun p => if !M.isStandardMonom p.1 then [] else
          (vec.zipIdx.filter fun q => decide (p.2 ≤ q.2)).map fun q =>
          [p.2 * vec.length + q.2 + off, q.2 * vec.length + p.2 + off] ++ images M ((baseOf M).dictMonoms d) vec.length off p.1 q.1),
          a * vec.length + b + off ∈ gr ∧ b * vec.length + a + off ∈ gr := by
      intro a b u w ha hb su sw ia ib hsu hsw hia hib hle
      have hul := (mem_base hhom d u).1 (List.mem_of_getElem? ha)
      have hwl := (mem_base hhom d w).1 (List.mem_of_getElem? hb)
      obtain ⟨h, hh, hhu⟩ := List.mem_map.1 (standard_mem hsu)
      have hhu : papply h u = su := hhu
      -- the image of the other monomial
      have hw' : papply h w ∈ M.permute w := List.mem_map.2 ⟨h, hh, rfl⟩
      have hw'' : papply h w ∈ vec := (mem_base hhom d _).2 ⟨length_of_mem_permute hM hw', by rw [sum_of_mem_permute hM hwl.1 hw', hwl.2]⟩
      obtain ⟨c, hc⟩ := List.mem_iff_getElem?.1 hw''
      have hcb : ib ≤ c := standard_first hM hhom d hsw hw' hib hc
      have hstd : M.isStandardMonom su = true := by
        obtain ⟨s', hs', -, -, hidem, -⟩ := standardMonom_spec M hM u hul.1
        have : su = s' := Option.some.inj (hsu.symm.trans hs')
        subst this
        unfold isStandardMonom
        rw [hidem]; simp
      obtain ⟨hinv, hhi, h1, h2⟩ := hG.inv h hh
      have e1 : papply hinv su = u := by rw [← hhu, hG.papply_papply' hhi hh, h2, IsPermGroup.papply_one hul.1]
      have e2 : papply hinv (papply h w) = w := by rw [hG.papply_papply' hhi hh, h2, IsPermGroup.papply_one hwl.1]
      have hmem := mem_images (M := M) (dict := (baseOf M).dictMonoms d) (n := vec.length) (off := off) (m1 := su) (m2 := papply h w) hhi
        (i := a) (j := b) (by rw [e1]; exact (dictMonoms_iff _ d u a).2 ha) (by rw [e2]; exact (dictMonoms_iff _ d w b).2 hb)
      refine ⟨[ia * vec.length + c + off, c * vec.length + ia + off] ++ images M ((baseOf M).dictMonoms d) vec.length off su (papply h w),
        List.mem_flatMap.2 ⟨(su, ia), List.mem_zipIdx_iff_getElem?.2 hia, ?_⟩, List.mem_append_right _ hmem.1, List.mem_append_right _ hmem.2⟩
      rw [if_neg (by simp [hstd])]
      refine List.mem_map.2 ⟨(papply h w, c), List.mem_filter.2 ⟨List.mem_zipIdx_iff_getElem?.2 hc, ?_⟩, rfl⟩
      simp only [decide_eq_true_eq]
      omega
    have hu : vec[i]? = some vec[i] := List.getElem?_eq_getElem hi
    have hw : vec[j]? = some vec[j] := List.getElem?_eq_getElem hj
    have stdpos : ∀ (k : ℕ) (m : List ℕ), vec[k]? = some m → ∃ (s : List ℕ) (c : ℕ), M.standardMonom m = some s ∧ vec[c]? = some s := by
      intro k m hm
      have hml := (mem_base hhom d m).1 (List.mem_of_getElem? hm)
      obtain ⟨s, hs⟩ := standard_exists hM hml.1
      have : s ∈ vec := (mem_base hhom d _).2 ⟨length_of_mem_permute hM (standard_mem hs), by rw [sum_of_mem_permute hM hml.1 (standard_mem hs), hml.2]⟩
      obtain ⟨c, hc⟩ := List.mem_iff_getElem?.1 this
      exact ⟨s, c, hs, hc⟩
    obtain ⟨su, ia, h1, h2⟩ := stdpos i _ hu
    obtain ⟨sw, ib, h3, h4⟩ := stdpos j _ hw
    by_cases hle : ia ≤ ib
    · exact main i j _ _ hu hw su sw ia ib h1 h3 h2 h4 hle
    · obtain ⟨gr, a1, a2, a3⟩ := main j i _ _ hw hu sw su ib ia h3 h1 h4 h2 (by omega)
      exact ⟨gr, a1, a3, a2⟩
  · rw [if_pos (by simp [hsym])]
    set n := ((baseOf M).invMonoms ((degree - totalDegree M.nvars g) / 2)).length with hn
    have hsz : size M degree g = n := rfl
    rw [hsz] at hi hj ⊢
    rcases Nat.lt_or_gt_of_ne hne with h | h
    · refine ⟨[i * n + j + off, j * n + i + off], ?_, by simp, by simp⟩
      rw [List.mem_flatMap]
      exact ⟨i, List.mem_range.2 hi, List.mem_map.2 ⟨j, List.mem_filter.2 ⟨List.mem_range.2 hj, by simp [h]⟩, rfl⟩⟩
    · refine ⟨[j * n + i + off, i * n + j + off], ?_, by simp, by simp⟩
      rw [List.mem_flatMap]
      exact ⟨j, List.mem_range.2 hj, List.mem_map.2 ⟨i, List.mem_filter.2 ⟨List.mem_range.2 hi, by simpa using h⟩, rfl⟩⟩

theorem blocks_symmetric [Field K] [LinearOrder K] {M : MonoMgr} (hM : M.Valid) (hhom : M.hom = true) (degree : ℕ) (x : List K) :
    ∀ (ineqs : List (List (List ℕ × K))) (cur : ℕ), (∀ g ∈ ineqs, totalDegree M.nvars g + 2 * half M degree g = degree) →
    (∀ gr ∈ (equalIneqs M degree cur ineqs).1, ∀ i ∈ gr, ∀ j ∈ gr, x.getD i 0 = x.getD j 0) →
    ∀ b ∈ blocks cur (ineqs.map fun g => (g, size M degree g)) x, ∀ i j, i < b.2.1 → j < b.2.1 → b.2.2 i j = b.2.2 j i
  | [], _, _, _ => by intro b hb; simp [blocks] at hb
  | g :: l, cur, hd, hc => by
    have hdg := hd g List.mem_cons_self
    rw [equalIneqs, if_neg (by omega)] at hc
    simp only at hc
    intro b hb i j hi hj
    rw [List.map_cons, blocks] at hb
    rcases List.mem_cons.1 hb with rfl | hb
    · simp only at hi hj ⊢
      by_cases hne : i = j
      · rw [hne]
      · obtain ⟨gr, h1, h2, h3⟩ := ineqGroups_spec hM hhom degree cur g i j hi hj hne
        have := hc gr (List.mem_append_left _ h1) _ h2 _ h3
        rw [show cur + i * size M degree g + j = i * size M degree g + j + cur by ring, show cur + j * size M degree g + i = j * size M degree g + i + cur by ring]
        exact this
    · exact blocks_symmetric hM hhom degree x l _ (fun q hq => hd q (List.mem_cons_of_mem _ hq))
        (fun gr hgr => hc gr (List.mem_append_right _ hgr)) b hb i j hi hj

/-! ### C32 -/

theorem eqs_keys [CommSemiring K] [DecidableEq K] (M : MonoMgr) (degree : ℕ) :
    ∀ (eqs : List (List (List ℕ × K))) (s s' : FormState K), eqs.foldlM (eqStep M degree) s = .ok s' →
    (∀ g, (dget s.splitsEq g).isSome → totalDegree M.nvars g ≤ degree) → ∀ g, (dget s'.splitsEq g).isSome → totalDegree M.nvars g ≤ degree
  | [], s, s', h, hs => by
    have := Except.ok.inj h
    subst this
    exact hs
  | g :: l, s, s', h, hs => by
    rw [List.foldlM_cons] at h
    cases hst : eqStep M degree s g with
    | error e => rw [hst] at h; exact absurd h (by intro hh; cases hh)
    | ok s1 =>
      rw [hst] at h
      change l.foldlM (eqStep M degree) s1 = .ok s' at h
      refine eqs_keys M degree l s1 s' h ?_
      unfold eqStep at hst
      simp only at hst
      by_cases hd : totalDegree M.nvars g > degree
      · rw [if_pos hd] at hst
        have := Except.ok.inj hst
        subst this
        exact hs
      · rw [if_neg hd] at hst
        cases hp : place s.rows (contribution M degree s.cnt ((baseOf M).invMonoms (degree - totalDegree M.nvars g)) (repTerms M.nvars g)) with
        | error e => rw [hp] at hst; simp at hst
        | ok rows =>
          rw [hp] at hst
          have e := Except.ok.inj hst
          subst e
          intro q hq
          simp only [dget_dset] at hq
          by_cases hqg : g = q
          · subst hqg; omega
          · rw [if_neg hqg] at hq; exact hs q hq

theorem eqVecs_value [Field K] [LinearOrder K] [IsStrictOrderedRing K] (M : MonoMgr) (hhom : M.hom = true) (degree : ℕ) (x y : List K)
    (hy : y.length = M.nvars) (splits : List (List (List ℕ × K) × ℕ)) : ∀ (eqs : List (List (List ℕ × K))) (cur : ℕ) (free : List (List (List ℕ × K) × List K)),
    (∀ g ∈ eqs, Hom M.nvars g) → (∀ g ∈ eqs, dget splits g = some (esize M degree g)) →
    cur + (eqs.map fun g => esize M degree g).sum ≤ x.length →
    eqVecs splits cur eqs x = .ok free →
    evalDict (eqPoly M degree x cur eqs) y = freeValue M degree free y ∧ free.map Prod.fst = eqs
  | [], cur, free, _, _, _, h => by
    have := Except.ok.inj h
    subst this
    simp [eqPoly, freeValue, evalDict]
  | g :: l, cur, free, hg, hs, hlen, h => by
    rw [eqVecs, hs g List.mem_cons_self] at h
    simp only at h
    rw [List.map_cons, List.sum_cons] at hlen
    cases hv : eqVecs splits (cur + esize M degree g) l x with
    | error e => rw [hv] at h; simp [Except.map] at h
    | ok r =>
      rw [hv] at h
      have e := Except.ok.inj h
      subst e
      obtain ⟨r1, r2⟩ := eqVecs_value M hhom degree x y hy splits l _ r (fun q hq => hg q (List.mem_cons_of_mem _ hq))
        (fun q hq => hs q (List.mem_cons_of_mem _ hq)) (by omega) hv
      refine ⟨?_, by simp [r2]⟩
      rw [eqPoly, evalDict_append, r1, eq_piece_eval hhom cur _ g x y hy (hg g List.mem_cons_self)]
      unfold freeValue
      rw [List.map_cons, List.sum_cons]
      congr 2
      have hl : ((x.drop cur).take (esize M degree g)).length = esize M degree g := by
        rw [List.length_take, List.length_drop]; omega
      simp only
      rw [hl]
      apply Finset.sum_congr rfl
      intro i hi
      have hi : i < esize M degree g := Finset.mem_range.1 hi
      rw [mul_comm]
      congr 1
      rw [List.getD_eq_getElem?_getD, List.getD_eq_getElem?_getD, List.getElem?_take_of_lt hi, List.getElem?_drop]

/-- What is assumed of the solver of the system: its answer has one entry for each column, satisfies the equations and is constant on each
group of equal entries (`solve_csr_linear`, C23). -/
def Solver [Semiring K] (solve : FormState K → List (List ℕ) → List K → Option (List K)) : Prop :=
  ∀ s gs b x, solve s gs b = some x → x.length = s.cnt ∧ (∀ i, i < s.rows.length → rowDot (s.rows.getD i []) x = b.getD i 0) ∧
    ∀ gr ∈ gs, ∀ i ∈ gr, ∀ j ∈ gr, x.getD i 0 = x.getD j 0

/-- **C32.** If the constraints are distinct, then the returned decomposition is an identity: the polynomial equals the sum over the group
of `Σ S_k * ineq * (U_k . monomials)^2 + Σ eq * (w . monomials)`, and all `S_k` are nonnegative. -/
theorem sosProblem_sound_partial [Field K] [LinearOrder K] [IsStrictOrderedRing K] [Inhabited K] (M : MonoMgr) (hM : M.Valid) (hhom : M.hom = true)
    (f : List (List ℕ × K)) (hf : IsPoly M.nvars f) (ineqs eqs : List (List (List ℕ × K))) (hi : ∀ g ∈ ineqs, Arity M.nvars g) (he : ∀ g ∈ eqs, Arity M.nvars g)
    (hnd : ineqs.Nodup) (solve : FormState K → List (List ℕ) → List K → Option (List K)) (hsolve : Solver solve) (r : Decomp K)
    (h : sosProblem M f ineqs eqs solve = .ok (some r)) :
    (∀ y : List K, y.length = M.nvars → evalDict f y = (M.elements.map fun p => psdValue M (totalDegree M.nvars f) r.psd (papply p y) +
        freeValue M (totalDegree M.nvars f) r.free (papply p y)).sum) ∧
      (∀ b ∈ r.psd, b.1 ∈ ineqs ∧ ∀ k, k < b.2.1 → 0 ≤ b.2.2.2 k) ∧ r.free.map Prod.fst = eqs := by
  have hG : IsPermGroup M.nvars M.elements := hM
  unfold sosProblem at h
  by_cases h1 : isHomogeneous M.nvars f = true
  swap
  · rw [if_pos (by simp [h1])] at h; simp at h
  rw [if_neg (by simp [h1])] at h
  by_cases h2 : isSymmetric M f = true
  swap
  · rw [if_pos (by simp [h2])] at h; simp at h
  rw [if_neg (by simp [h2])] at h
  by_cases h3 : (ineqs.all (isHomogeneous M.nvars) && eqs.all (isHomogeneous M.nvars)) = true
  swap
  · rw [if_pos (by rw [Bool.not_eq_true] at h3; rw [h3]; rfl)] at h; simp at h
  rw [if_neg (by rw [h3]; simp)] at h
  rw [Bool.and_eq_true, List.all_eq_true, List.all_eq_true] at h3
  set degree := totalDegree M.nvars f with hdeg
  cases hform : formEqs M degree ineqs eqs with
  | error e => rw [hform] at h; simp at h
  | ok s =>
    rw [hform] at h
    simp only at h
    cases hx : solve s (equalEntries M degree ineqs eqs) (M.arraylize f false) with
    | none => rw [hx] at h; simp at h
    | some x =>
      rw [hx] at h
      simp only at h
      obtain ⟨hxl, hxr, hxe⟩ := hsolve _ _ _ _ hx
      have hI : ∀ g ∈ ineqs, Hom M.nvars g := fun g hg => ⟨hi g hg, h3.1 g hg⟩
      have hE : ∀ g ∈ eqs, Hom M.nvars g := fun g hg => ⟨he g hg, h3.2 g hg⟩
      cases hdec : decompose (blocks 0 s.splitsIneq x) with
      | error e => rw [hdec] at h; simp at h
      | ok o =>
        rw [hdec] at h
        cases o with
        | none => simp at h
        | some psd =>
          simp only at h
          cases hfree : eqVecs s.splitsEq ((s.splitsIneq.map fun e => e.2 * e.2).sum) eqs x with
          | error e => rw [hfree] at h; simp at h
          | ok free =>
            rw [hfree] at h
            have e := Option.some.inj (Except.ok.inj h)
            subst e
            simp only
            -- the loops
            unfold formEqs at hform
            cases hf1 : ineqs.foldlM (ineqStep M degree) ⟨List.replicate (M.dictMonoms degree).length [], 0, [], []⟩ with
            | error e => rw [hf1] at hform; exact absurd hform (by intro hh; cases hh)
            | ok s1 =>
              rw [hf1] at hform
              change eqs.foldlM (eqStep M degree) s1 = .ok s at hform
              have hdl : (M.dictMonoms degree).length = (M.invMonoms degree).length := enumDict_length _ (invMonoms_nodup M degree)
              obtain ⟨a1, a2, a3, a4, a5, a6⟩ := ineqs_fold M hM hhom degree x ineqs _ s1 hI (by simp [hdl]) hf1
              simp only [List.length_replicate] at a1 a2 a3 a5 a6
              have a5 := a5 (by simpa [dkeys] using hnd)
              have hkeys : ∀ g ∈ eqs, (dget s.splitsEq g).isSome := by
                have : ∀ (l : List (List (List ℕ × K))) (c : ℕ) (fr : List (List (List ℕ × K) × List K)), eqVecs s.splitsEq c l x = .ok fr → ∀ g ∈ l, (dget s.splitsEq g).isSome := by
                  intro l
                  induction l with
                  | nil => intro _ _ _ g hg; simp at hg
                  | cons a l ih =>
                    intro c fr hfr g hg
                    rw [eqVecs] at hfr
                    cases hda : dget s.splitsEq a with
                    | none => rw [hda] at hfr; simp at hfr
                    | some v =>
                      rw [hda] at hfr
                      simp only at hfr
                      rcases List.mem_cons.1 hg with rfl | hg
                      · rw [hda]; rfl
                      · cases hr : eqVecs s.splitsEq (c + v) l x with
                        | error e => rw [hr] at hfr; simp [Except.map] at hfr
                        | ok r => exact ih _ _ hr g hg
                exact this eqs _ _ hfree
              have hedeg : ∀ g ∈ eqs, totalDegree M.nvars g ≤ degree := by
                intro g hg
                refine eqs_keys M degree eqs s1 s hform ?_ g (hkeys g hg)
                intro q hq
                rw [a3] at hq
                simp [dget] at hq
              obtain ⟨b1, b2, b3, b4, b5, b6⟩ := eqs_fold M hM hhom degree x eqs s1 s hE hedeg (by rw [a1, hdl]) hform
              rw [b3, a5, List.nil_append] at hdec hfree
              have hsum : ((ineqs.map fun g => (g, size M degree g)).map fun e : List (List ℕ × K) × ℕ => e.2 * e.2).sum = s1.cnt := by
                rw [a2, List.map_map, Nat.zero_add]; rfl
              rw [hsum] at hfree
              have hsymB := blocks_symmetric hM hhom degree x ineqs 0 a4 (by
                intro gr hgr
                exact hxe gr (List.mem_append_left _ hgr))
              have hrows : s.rows.length = (M.invMonoms degree).length := by rw [b1, a1, hdl]
              refine ⟨?_, (decompose_value M hhom degree x (List.replicate M.nvars 0) (by simp) ineqs 0 psd hI hsymB hdec).2,
                (eqVecs_value M hhom degree x (List.replicate M.nvars 0) (by simp) s.splitsEq eqs s1.cnt free hE b4 (by rw [hxl, b2]) hfree).2⟩
              intro y hy
              have hkey := symEval_eq_of_coeff M hM hhom (ineqPoly M degree x 0 ineqs ++ eqPoly M degree x s1.cnt eqs) f degree
                (by
                  intro t ht
                  rcases List.mem_append.1 ht with ht | ht
                  · exact ineqPoly_mem hhom degree x ineqs 0 hI a4 t ht
                  · exact eqPoly_mem hhom degree x eqs s1.cnt hE hedeg t ht)
                (by
                  intro t ht
                  refine ⟨hf.length t ht, ?_⟩
                  have := h1
                  unfold isHomogeneous at this
                  rw [List.all_eq_true] at this
                  simpa using this t ht)
                hf.nodup (fun g hg m hm => isSymmetric_coeff hM f h2 g hg m hm)
                (by
                  intro m hm
                  obtain ⟨i, hi⟩ := List.mem_iff_getElem?.1 hm
                  have hil : i < (M.invMonoms degree).length := (List.getElem?_eq_some_iff.1 hi).1
                  have e1 := hxr i (by rw [hrows]; exact hil)
                  rw [b6 i m hi, a6 i m hi] at e1
                  have e0 : rowDot ((List.replicate (M.dictMonoms degree).length ([] : List (ℕ × K))).getD i []) x = 0 := by
                    rw [List.getD_eq_getElem?_getD, List.getElem?_replicate]
                    split <;> simp [rowDot]
                  rw [e0, zero_add] at e1
                  rw [symCoeff_append, e1]
                  exact (arraylize_entry M f hf.nodup).2 i m hi)
                y hy
              rw [← hkey]
              unfold symEval
              congr 1
              apply List.map_congr_left
              intro p hp
              have hpl : (papply p y).length = M.nvars := by rw [papply_length, hG.length_eq hp]
              rw [evalDict_append, (decompose_value M hhom degree x _ hpl ineqs 0 psd hI hsymB hdec).1,
                (eqVecs_value M hhom degree x _ hpl s.splitsEq eqs s1.cnt free hE b4 (by rw [hxl, b2]) hfree).1]

/-! ### The quadratic module (C33) -/

theorem mem_combos {α : Type*} : ∀ (k : ℕ) (l c : List α), c ∈ combos k l ↔ c.Sublist l ∧ c.length = k
  | 0, l, c => by
    constructor
    · intro h
      have : c = [] := by simpa [combos] using h
      subst this; simp
    · rintro ⟨-, h⟩
      have := List.length_eq_zero_iff.1 h
      subst this; simp [combos]
  | k + 1, [], c => by
    simp only [combos, List.not_mem_nil, false_iff, not_and]
    intro h
    have := List.sublist_nil.1 h
    subst this; simp
  | k + 1, a :: l, c => by
    rw [combos, List.mem_append, List.mem_map, mem_combos (k + 1) l]
    constructor
    · rintro (⟨c', h, rfl⟩ | h)
      · obtain ⟨h1, h2⟩ := (mem_combos k l c').1 h
        exact ⟨h1.cons_cons a, by simp [h2]⟩
      · exact ⟨h.1.cons a, h.2⟩
    · rintro ⟨h1, h2⟩
      cases h1 with
      | cons _ h => exact Or.inr ⟨h, h2⟩
      | cons_cons _ h =>
        refine Or.inl ⟨_, (mem_combos k l _).2 ⟨h, ?_⟩, rfl⟩
        simpa using h2

variable {E : Type*}

/-- The members that the option 'linear' promises: products of a set of linear constraints with `1` or a constraint of higher degree, whose
degree does not exceed the degree of the polynomial and has the same parity. -/
def Member [Semiring K] [DecidableEq K] [Monoid E] (n degree : ℕ) (ineqs : List (List (List ℕ × K) × E)) (withTrivial : Bool)
    (t : List (List ℕ × K) × E) : Prop :=
  ∃ comb : List (List (List ℕ × K) × E), comb.Sublist (ineqs.filter fun p => isLinear p.1) ∧
    ∃ q : List (List ℕ × K) × E, ((q = (pconst n 1, 1) ∧ (withTrivial = true ∨ comb ≠ [])) ∨ (q ∈ ineqs ∧ isLinear q.1 = false)) ∧
      (if comb = [] then t = q ∧ totalDegree n q.1 ≤ degree ∧ (degree - totalDegree n q.1) % 2 = 0
       else t = (pmul (pprod n (comb.map Prod.fst)) q.1, (comb.map Prod.snd).prod * q.2) ∧
        totalDegree n (pprod n (comb.map Prod.fst)) + totalDegree n q.1 ≤ degree ∧
        (degree - (totalDegree n (pprod n (comb.map Prod.fst)) + totalDegree n q.1)) % 2 = 0)

theorem extend_last [Semiring K] [DecidableEq K] [Monoid E] (n degree : ℕ) (linear nonlin : List (List (List ℕ × K) × E)) : ∀ (ks : List ℕ) (q : List (List (List ℕ × K) × E)),
    (extend n degree linear nonlin ks q).2 = q ++ ks.flatMap (additions n degree linear nonlin)
  | [], q => by simp [extend]
  | k :: ks, q => by
    rw [extend]
    simp only
    rw [extend_last n degree linear nonlin ks, List.flatMap_cons, List.append_assoc]

theorem extend_lists [Semiring K] [DecidableEq K] [Monoid E] (n degree : ℕ) (linear nonlin : List (List (List ℕ × K) × E)) : ∀ (ks : List ℕ) (q : List (List (List ℕ × K) × E)),
    (q :: (extend n degree linear nonlin ks q).1).Pairwise (fun a b => a.IsPrefix b) ∧
      (q :: (extend n degree linear nonlin ks q).1).getLast? = some (extend n degree linear nonlin ks q).2
  | [], q => by simp [extend]
  | k :: ks, q => by
    rw [extend]
    simp only
    obtain ⟨h1, h2⟩ := extend_lists n degree linear nonlin ks (q ++ additions n degree linear nonlin k)
    by_cases ha : additions n degree linear nonlin k = []
    · rw [if_pos ha]
      rw [ha, List.append_nil] at h1 h2 ⊢
      exact ⟨h1, h2⟩
    · rw [if_neg ha]
      refine ⟨List.Pairwise.cons ?_ h1, ?_⟩
      · intro b hb
        have h0 : q.IsPrefix (q ++ additions n degree linear nonlin k) := List.prefix_append _ _
        rcases List.mem_cons.1 hb with rfl | hb
        · exact h0
        · exact h0.trans ((List.pairwise_cons.1 h1).1 b hb)
      · rw [List.getLast?_cons_cons]
        exact h2

theorem mem_additions [Semiring K] [DecidableEq K] [Monoid E] (n degree : ℕ) (linear nonlin : List (List (List ℕ × K) × E)) (k : ℕ) (t : List (List ℕ × K) × E) :
    t ∈ additions n degree linear nonlin k ↔ ∃ comb : List (List (List ℕ × K) × E), (comb.Sublist linear ∧ comb.length = k) ∧ ∃ q ∈ nonlin,
      t = (pmul (pprod n (comb.map Prod.fst)) q.1, (comb.map Prod.snd).prod * q.2) ∧
        totalDegree n (pprod n (comb.map Prod.fst)) + totalDegree n q.1 ≤ degree ∧
        (degree - (totalDegree n (pprod n (comb.map Prod.fst)) + totalDegree n q.1)) % 2 = 0 := by
  unfold additions
  rw [List.mem_flatMap]
  constructor
  · rintro ⟨comb, hc, ht⟩
    simp only at ht
    refine ⟨comb, (mem_combos k _ _).1 hc, ?_⟩
    split at ht
    · simp at ht
    · obtain ⟨q, hq, rfl⟩ := List.mem_map.1 ht
      rw [List.mem_filter, Bool.and_eq_true, decide_eq_true_eq, decide_eq_true_eq] at hq
      exact ⟨q, hq.1, rfl, hq.2⟩
  · rintro ⟨comb, hc, q, hq, rfl, h1, h2⟩
    refine ⟨comb, (mem_combos k _ _).2 hc, ?_⟩
    simp only
    rw [if_neg (by omega)]
    refine List.mem_map.2 ⟨q, List.mem_filter.2 ⟨hq, ?_⟩, rfl⟩
    simp [h1, h2]

/-- **C33 ('linear').** One list is formed; it contains exactly the promised members. -/
theorem qmoduleList_linear [Semiring K] [DecidableEq K] [Monoid E] (n degree : ℕ) (ineqs : List (List (List ℕ × K) × E)) (withTrivial : Bool) :
    ∃ l, qmoduleList n degree ineqs withTrivial "linear" = .ok [l] ∧ ∀ t, t ∈ l ↔ Member n degree ineqs withTrivial t := by
  set linear := ineqs.filter fun p => isLinear p.1 with hlin
  set nonlin : List (List (List ℕ × K) × E) := (pconst n 1, 1) :: ineqs.filter fun p => !isLinear p.1 with hnon
  refine ⟨(extend n degree linear nonlin ((List.range linear.length).map (· + 1)) ((if withTrivial then nonlin else nonlin.tail).filter fun p => degreeOk n degree p.1)).2, ?_, ?_⟩
  · unfold qmoduleList
    rw [if_neg (by simp), if_neg (by decide)]
    simp only
    rw [if_neg (by decide)]
  · intro t
    rw [extend_last, List.mem_append, List.mem_flatMap]
    have hnonmem : ∀ q, q ∈ nonlin ↔ q = (pconst n 1, 1) ∨ (q ∈ ineqs ∧ isLinear q.1 = false) := by
      intro q
      rw [hnon, List.mem_cons, List.mem_filter]
      simp
    constructor
    · rintro (h | ⟨k, hk, h⟩)
      · rw [List.mem_filter] at h
        obtain ⟨h1, h2⟩ := h
        unfold degreeOk at h2
        rw [Bool.and_eq_true, decide_eq_true_eq, decide_eq_true_eq] at h2
        refine ⟨[], List.nil_sublist _, t, ?_, ?_⟩
        · by_cases hw : withTrivial = true
          · rw [if_pos hw] at h1
            rcases (hnonmem t).1 h1 with h | h
            · exact Or.inl ⟨h, Or.inl hw⟩
            · exact Or.inr h
          · rw [if_neg hw] at h1
            rw [hnon, List.tail_cons, List.mem_filter] at h1
            exact Or.inr ⟨h1.1, by simpa using h1.2⟩
        · rw [if_pos rfl]; exact ⟨rfl, h2⟩
      · obtain ⟨comb, ⟨hc1, hc2⟩, q, hq, he⟩ := (mem_additions n degree linear nonlin k t).1 h
        obtain ⟨k', -, rfl⟩ := List.mem_map.1 hk
        have hne : comb ≠ [] := by rintro rfl; simp at hc2
        refine ⟨comb, hc1, q, ?_, ?_⟩
        · rcases (hnonmem q).1 hq with h | h
          · exact Or.inl ⟨h, Or.inr hne⟩
          · exact Or.inr h
        · rw [if_neg hne]; exact he
    · rintro ⟨comb, hc, q, hq, he⟩
      by_cases hne : comb = []
      · left
        rw [if_pos hne] at he
        obtain ⟨rfl, h1, h2⟩ := he
        rw [List.mem_filter]
        refine ⟨?_, by unfold degreeOk; simp [h1, h2]⟩
        rcases hq with ⟨hq, hw | hw⟩ | hq
        · rw [if_pos hw]; exact (hnonmem _).2 (Or.inl hq)
        · exact absurd hne hw
        · have : t ∈ nonlin.tail := by
            rw [hnon, List.tail_cons, List.mem_filter]; exact ⟨hq.1, by simpa using hq.2⟩
          split
          · exact List.mem_of_mem_tail this
          · exact this
      · right
        rw [if_neg hne] at he
        have hlen : comb.length ≤ linear.length := hc.length_le
        have hpos : 0 < comb.length := List.length_pos_iff.2 hne
        refine ⟨comb.length, List.mem_map.2 ⟨comb.length - 1, List.mem_range.2 (by omega), by omega⟩, ?_⟩
        exact (mem_additions n degree linear nonlin _ t).2 ⟨comb, ⟨hc, rfl⟩, q, (hnonmem q).2 (hq.imp And.left id), he⟩

/-- **C33 ('linear-progressive').** The lists grow, and the last one is the list of 'linear'. -/
theorem qmoduleList_progressive [Semiring K] [DecidableEq K] [Monoid E] (n degree : ℕ) (ineqs : List (List (List ℕ × K) × E)) (withTrivial : Bool) :
    ∃ ls l, qmoduleList n degree ineqs withTrivial "linear-progressive" = .ok ls ∧ qmoduleList n degree ineqs withTrivial "linear" = .ok [l] ∧
      ls.Pairwise (fun a b => a.IsPrefix b) ∧ ls.getLast? = some l := by
  set linear := ineqs.filter fun p => isLinear p.1 with hlin
  set nonlin : List (List (List ℕ × K) × E) := (pconst n 1, 1) :: ineqs.filter fun p => !isLinear p.1 with hnon
  set q := (if withTrivial then nonlin else nonlin.tail).filter fun p => degreeOk n degree p.1 with hq
  obtain ⟨h1, h2⟩ := extend_lists n degree linear nonlin ((List.range linear.length).map (· + 1)) q
  refine ⟨_, _, ?_, ?_, h1, h2⟩
  · unfold qmoduleList
    rw [if_neg (by simp), if_neg (by decide)]
    simp only
    rw [if_pos trivial]
  · unfold qmoduleList
    rw [if_neg (by simp), if_neg (by decide)]
    simp only
    rw [if_neg (by decide)]

/-- **C33 ('none' without `1`).** The list consists of the constraints of suitable degree. -/
theorem qmoduleList_none_partial [Semiring K] [DecidableEq K] [Monoid E] (n degree : ℕ) (ineqs : List (List (List ℕ × K) × E)) :
    ∃ l, qmoduleList n degree ineqs false "none" = .ok [l] ∧
      ∀ t, t ∈ l ↔ t ∈ ineqs ∧ totalDegree n t.1 ≤ degree ∧ (degree - totalDegree n t.1) % 2 = 0 := by
  refine ⟨ineqs.filter fun p => degreeOk n degree p.1, ?_, ?_⟩
  · unfold qmoduleList
    rw [if_neg (by simp), if_pos rfl, if_neg (by simp)]
  · intro t
    rw [List.mem_filter]
    unfold degreeOk
    simp

/-- **C33 violated.** With `preordering='none'` and the default `ineq_constraints_with_trivial=True` every call of `SDPSOS` on a valid problem
raises `TypeError` (sdpsos.py 440 adds a list and a view of a dictionary). -/
theorem sdpSOS_none_raises [Field K] [LinearOrder K] [Monoid E] (M : MonoMgr) (f : List (List ℕ × K)) (ineqs : List (List (List ℕ × K) × E))
    (eqs : List (List (List ℕ × K))) (degreeLimit : ℕ) (solve : FormState K → List (List ℕ) → List K → Option (List K))
    (h1 : 1 ≤ totalDegree M.nvars f) (h2 : totalDegree M.nvars f ≤ degreeLimit) (h3 : 1 ≤ M.nvars) (h4 : isHomogeneous M.nvars f = true)
    (h5 : isSymmetric M f = true) : sdpSOS M f ineqs eqs true "none" degreeLimit solve = .error .typeError := by
  unfold sdpSOS
  simp only
  rw [if_neg (by omega), if_neg (by simp [h4, h5])]
  unfold qmoduleList
  rw [if_neg (by simp), if_pos rfl, if_pos rfl]

/-- **C33 (names).** Every other name raises `ValueError`. -/
theorem sdpSOS_name_raises [Field K] [LinearOrder K] [Monoid E] (M : MonoMgr) (f : List (List ℕ × K)) (ineqs : List (List (List ℕ × K) × E))
    (eqs : List (List (List ℕ × K))) (w : Bool) (degreeLimit : ℕ) (solve : FormState K → List (List ℕ) → List K → Option (List K)) (name : String)
    (hname : name ≠ "none" ∧ name ≠ "linear" ∧ name ≠ "linear-progressive")
    (h1 : 1 ≤ totalDegree M.nvars f) (h2 : totalDegree M.nvars f ≤ degreeLimit) (h3 : 1 ≤ M.nvars) :
    sdpSOS M f ineqs eqs w name degreeLimit solve = .error .valueError := by
  unfold sdpSOS
  simp only
  rw [if_neg (by omega)]
  split
  · rfl
  · unfold qmoduleList
    rw [if_pos (by simp [hname])]

/-- Properties closed under products pass from the constraints to every member. -/
theorem qmoduleList_closed [Semiring K] [DecidableEq K] [Monoid E] {n : ℕ} (P : List (List ℕ × K) × E → Prop) (h1 : P (pconst n 1, 1))
    (hmul : ∀ p q, P p → P q → P (pmul p.1 q.1, p.2 * q.2)) (degree : ℕ) (ineqs : List (List (List ℕ × K) × E)) (w : Bool) (pre : String)
    (hi : ∀ t ∈ ineqs, P t) (ls : List (List (List (List ℕ × K) × E))) (h : qmoduleList n degree ineqs w pre = .ok ls) :
    ∀ l ∈ ls, ∀ t ∈ l, P t := by
  have hprod : ∀ comb : List (List (List ℕ × K) × E), (∀ c ∈ comb, P c) → P (pprod n (comb.map Prod.fst), (comb.map Prod.snd).prod) := by
    intro comb hc
    have : ∀ (comb : List (List (List ℕ × K) × E)) (a : List (List ℕ × K) × E), (∀ c ∈ comb, P c) → P a →
        P ((comb.map Prod.fst).foldl pmul a.1, a.2 * (comb.map Prod.snd).prod) := by
      intro comb
      induction comb with
      | nil => intro a _ ha; simpa using ha
      | cons c comb ih =>
        intro a hc ha
        have := ih (pmul a.1 c.1, a.2 * c.2) (fun d hd => hc d (List.mem_cons_of_mem _ hd)) (hmul a c ha (hc c List.mem_cons_self))
        simpa [mul_assoc] using this
    have := this comb (pconst n 1, 1) hc h1
    simpa [pprod] using this
  have hlinear : ∀ l, qmoduleList n degree ineqs w "linear" = .ok [l] → ∀ t ∈ l, P t := by
    intro l hl t ht
    obtain ⟨l', e, hm⟩ := qmoduleList_linear n degree ineqs w
    have : l = l' := by
      have := Except.ok.inj (hl.symm.trans e)
      simpa using this
    subst this
    obtain ⟨comb, hc, q, hq, he⟩ := (hm t).1 ht
    have hPq : P q := by
      rcases hq with ⟨rfl, -⟩ | hq
      · exact h1
      · exact hi q hq.1
    split at he
    · rw [he.1]; exact hPq
    · rw [he.1]
      exact hmul (_, _) q (hprod comb fun c hcc => hi c (List.mem_filter.1 (hc.subset hcc)).1) hPq
  by_cases hn : pre = "none"
  · subst hn
    cases w with
    | true => simp [qmoduleList] at h
    | false =>
      obtain ⟨l, e, hm⟩ := qmoduleList_none_partial n degree ineqs
      have := Except.ok.inj (h.symm.trans e)
      subst this
      intro l' hl' t ht
      rw [List.mem_singleton] at hl'
      subst hl'
      exact hi t ((hm t).1 ht).1
  by_cases hl : pre = "linear"
  · subst hl
    obtain ⟨l, e, hm⟩ := qmoduleList_linear n degree ineqs w
    have := Except.ok.inj (h.symm.trans e)
    subst this
    intro l' hl'
    rw [List.mem_singleton] at hl'
    subst hl'
    exact hlinear _ e
  by_cases hp : pre = "linear-progressive"
  · subst hp
    obtain ⟨ls', l, e1, e2, hpw, hlast⟩ := qmoduleList_progressive n degree ineqs w
    have := Except.ok.inj (h.symm.trans e1)
    subst this
    intro l' hl' t ht
    have hsub : l'.IsPrefix l := by
      rw [List.getLast?_eq_some_iff] at hlast
      obtain ⟨ys, rfl⟩ := hlast
      rw [List.pairwise_append] at hpw
      rcases List.mem_append.1 hl' with h | h
      · exact hpw.2.2 l' h l (by simp)
      · rw [List.mem_singleton] at h; rw [h]
    exact hlinear l e2 t (hsub.subset ht)
  · unfold qmoduleList at h
    rw [if_pos (by simp [hn, hl, hp])] at h
    simp at h

/-! ### The whole solver -/

theorem clearPolys_nodup [Field K] [LinearOrder K] (M : MonoMgr) (hnt : M.elements ≠ [List.range M.nvars]) (polys : List (List (List ℕ × K) × E)) :
    ((clearPolys M polys).map Prod.fst).Nodup := by
  unfold clearPolys
  rw [if_neg hnt]
  have hnd := dkeys_nodup_ddel _ none (dkeys_nodup_dictOf (polys.map fun t => (representation M t.1, t)))
  have hkey : ∀ e ∈ ddel (dictOf (polys.map fun t => (representation M t.1, t))) none, e.1 = representation M e.2.1 := by
    intro e he
    have hn := hnd
    have hg : dget (ddel (dictOf (polys.map fun t => (representation M t.1, t))) none) e.1 = some e.2 := (dget_eq_some_iff _ hn _ _).2 he
    rw [dget_ddel] at hg
    split at hg
    · simp at hg
    · rw [dget_dictOf] at hg
      have := mem_of_dget hg
      rw [List.mem_reverse] at this
      obtain ⟨t, -, ht⟩ := List.mem_map.1 this
      have e1 := congrArg Prod.fst ht
      have e2 := congrArg Prod.snd ht
      simp only at e1 e2
      rw [← e1, e2]
  rw [List.map_map]
  unfold dkeys at hnd
  rw [List.Nodup, List.pairwise_map] at hnd ⊢
  refine hnd.imp_of_mem ?_
  intro a b ha hb hab heq
  apply hab
  rw [hkey a ha, hkey b hb]
  simp only [Function.comp] at heq
  rw [heq]

theorem clearPolys_subset [Field K] [LinearOrder K] (M : MonoMgr) (polys : List (List (List ℕ × K) × E)) : ∀ t ∈ clearPolys M polys, t ∈ polys := by
  unfold clearPolys
  split
  · exact fun t h => h
  · intro t ht
    obtain ⟨e, he, rfl⟩ := List.mem_map.1 ht
    have hnd := dkeys_nodup_ddel _ none (dkeys_nodup_dictOf (polys.map fun t => (representation M t.1, t)))
    have hg := (dget_eq_some_iff _ hnd _ _).2 he
    rw [dget_ddel] at hg
    split at hg
    · simp at hg
    · rw [dget_dictOf] at hg
      have := mem_of_dget hg
      rw [List.mem_reverse] at this
      obtain ⟨t, ht, h⟩ := List.mem_map.1 this
      have e2 := congrArg Prod.snd h
      simp only at e2
      rw [← e2]; exact ht

theorem tryLists_some [Field K] [LinearOrder K] (M : MonoMgr) (f : List (List ℕ × K)) (eqs : List (List (List ℕ × K)))
    (solve : FormState K → List (List ℕ) → List K → Option (List K)) : ∀ (qs : List (List (List (List ℕ × K) × E))) q r,
    tryLists M f eqs solve qs = some (q, r) → ∃ q0 ∈ qs, q = clearPolys M q0 ∧ sosProblem M f (q.map Prod.fst) eqs solve = .ok (some r)
  | [], q, r, h => by simp [tryLists] at h
  | q0 :: qs, q, r, h => by
    rw [tryLists] at h
    have again := fun h => (tryLists_some M f eqs solve qs q r h)
    have lift : (∃ q0 ∈ qs, q = clearPolys M q0 ∧ sosProblem M f (q.map Prod.fst) eqs solve = .ok (some r)) →
        ∃ q1 ∈ q0 :: qs, q = clearPolys M q1 ∧ sosProblem M f (q.map Prod.fst) eqs solve = .ok (some r) := by
      rintro ⟨q1, h1, h2⟩
      exact ⟨q1, List.mem_cons_of_mem _ h1, h2⟩
    split at h
    · exact lift (again h)
    · cases hs : sosProblem M f ((clearPolys M q0).map Prod.fst) eqs solve with
      | error e => rw [hs] at h; exact lift (again h)
      | ok o =>
        rw [hs] at h
        cases o with
        | none => exact lift (again h)
        | some r' =>
          have := Option.some.inj h
          have e1 := congrArg Prod.fst this
          have e2 := congrArg Prod.snd this
          simp only at e1 e2
          subst e1; subst e2
          exact ⟨q0, List.mem_cons_self, rfl, hs⟩

/-- **C32 (SDPSOS).** If the group is not trivial, or the products of the constraints are distinct, then a solution of `SDPSOS` is an identity
with nonnegative weights; on every set of points that is closed under the group and satisfies the constraints the polynomial is nonnegative; and each
expression that replaces a polynomial in the answer has the value of the polynomial. -/
theorem sdpSOS_sound_partial [Field K] [LinearOrder K] [IsStrictOrderedRing K] [Inhabited K] [Monoid E] (M : MonoMgr) (hM : M.Valid) (hhom : M.hom = true)
    (f : List (List ℕ × K)) (hf : IsPoly M.nvars f) (ineqs : List (List (List ℕ × K) × E)) (eqs : List (List (List ℕ × K)))
    (hi : ∀ g ∈ ineqs, Arity M.nvars g.1) (he : ∀ g ∈ eqs, Arity M.nvars g) (w : Bool) (pre : String) (degreeLimit : ℕ)
    (hdup : M.elements ≠ [List.range M.nvars] ∨ ∀ ls, qmoduleList M.nvars (totalDegree M.nvars f) ineqs w pre = .ok ls → ∀ l ∈ ls, (l.map Prod.fst).Nodup)
    (solve : FormState K → List (List ℕ) → List K → Option (List K)) (hsolve : Solver solve) (q : List (List (List ℕ × K) × E)) (r : Decomp K)
    (h : sdpSOS M f ineqs eqs w pre degreeLimit solve = .ok (some (q, r))) :
    (∀ y : List K, y.length = M.nvars → evalDict f y = (M.elements.map fun p => psdValue M (totalDegree M.nvars f) r.psd (papply p y) +
        freeValue M (totalDegree M.nvars f) r.free (papply p y)).sum) ∧
      (∀ b ∈ r.psd, b.1 ∈ q.map Prod.fst ∧ ∀ k, k < b.2.1 → 0 ≤ b.2.2.2 k) ∧
      (∀ y : List K, y.length = M.nvars → (∀ p ∈ M.elements, (∀ g ∈ ineqs, 0 ≤ evalDict g.1 (papply p y)) ∧ ∀ g ∈ eqs, evalDict g (papply p y) = 0) →
        0 ≤ evalDict f y) ∧
      ∀ (φ : E →* K) (y : List K), y.length = M.nvars → (∀ g ∈ ineqs, φ g.2 = evalDict g.1 y) → ∀ g ∈ q, φ g.2 = evalDict g.1 y := by
  have hG : IsPermGroup M.nvars M.elements := hM
  unfold sdpSOS at h
  simp only at h
  split at h
  · simp at h
  split at h
  · simp at h
  cases hq : qmoduleList M.nvars (totalDegree M.nvars f) ineqs w pre with
  | error e => rw [hq] at h; simp at h
  | ok qs =>
    rw [hq] at h
    simp only at h
    obtain ⟨q0, hq0, rfl, hs⟩ := tryLists_some M f eqs solve qs q r (Except.ok.inj h)
    have hone : Arity M.nvars (pconst M.nvars (1 : K)) := arity_pconst _ _
    have har : ∀ l ∈ qs, ∀ t ∈ l, Arity M.nvars t.1 :=
      qmoduleList_closed (fun t => Arity M.nvars t.1) hone (fun p q hp hq => arity_pmul hp hq) _ ineqs w pre hi qs hq
    have hnd : ((clearPolys M q0).map Prod.fst).Nodup := by
      by_cases ht : M.elements = [List.range M.nvars]
      · have := (hdup.resolve_left (fun h => h ht)) qs hq q0 hq0
        unfold clearPolys
        rw [if_pos ht]; exact this
      · exact clearPolys_nodup M ht q0
    obtain ⟨c1, c2, c3⟩ := sosProblem_sound_partial M hM hhom f hf _ eqs (by
      intro g hg
      obtain ⟨t, ht, rfl⟩ := List.mem_map.1 hg
      exact har q0 hq0 t (clearPolys_subset M q0 t ht)) he hnd solve hsolve r hs
    refine ⟨c1, c2, ?_, ?_⟩
    · intro y hy hfeas
      rw [c1 y hy]
      apply List.sum_nonneg
      intro v hv
      obtain ⟨p, hp, rfl⟩ := List.mem_map.1 hv
      obtain ⟨f1, f2⟩ := hfeas p hp
      have hpl : (papply p y).length = M.nvars := by rw [papply_length, hG.length_eq hp]
      have hnn : ∀ l ∈ qs, ∀ t ∈ l, Arity M.nvars t.1 ∧ 0 ≤ evalDict t.1 (papply p y) :=
        qmoduleList_closed (fun t => Arity M.nvars t.1 ∧ 0 ≤ evalDict t.1 (papply p y))
          ⟨hone, by rw [evalDict_pconst]; exact zero_le_one⟩
          (fun a b ha hb => ⟨arity_pmul ha.1 hb.1, by
            rw [evalDict_pmul _ _ _ (by rw [hpl]; exact ha.1) (by rw [hpl]; exact hb.1)]; exact mul_nonneg ha.2 hb.2⟩) _ ineqs w pre
          (fun t ht => ⟨hi t ht, f1 t ht⟩) qs hq
      have z : freeValue M (totalDegree M.nvars f) r.free (papply p y) = 0 := by
        unfold freeValue
        apply List.sum_eq_zero
        intro v hv
        obtain ⟨b, hb, rfl⟩ := List.mem_map.1 hv
        rw [f2 b.1 (by rw [← c3]; exact List.mem_map_of_mem hb), zero_mul]
      rw [z, add_zero]
      unfold psdValue
      apply List.sum_nonneg
      intro v hv
      obtain ⟨b, hb, rfl⟩ := List.mem_map.1 hv
      obtain ⟨hb1, hb2⟩ := c2 b hb
      obtain ⟨t, ht, ht2⟩ := List.mem_map.1 hb1
      refine mul_nonneg ?_ (Finset.sum_nonneg fun k hk => mul_nonneg (hb2 k (Finset.mem_range.1 hk)) (sq_nonneg _))
      rw [← ht2]
      exact (hnn q0 hq0 t (clearPolys_subset M q0 t ht)).2
    · intro φ y hy hφ g hg
      have hval : ∀ l ∈ qs, ∀ t ∈ l, Arity M.nvars t.1 ∧ φ t.2 = evalDict t.1 y :=
        qmoduleList_closed (fun t => Arity M.nvars t.1 ∧ φ t.2 = evalDict t.1 y)
          ⟨hone, by rw [evalDict_pconst, map_one]⟩
          (fun a b ha hb => ⟨arity_pmul ha.1 hb.1, by
            rw [evalDict_pmul _ _ _ (by rw [hy]; exact ha.1) (by rw [hy]; exact hb.1), map_mul, ha.2, hb.2]⟩) _ ineqs w pre
          (fun t ht => ⟨hi t ht, hφ t ht⟩) qs hq
      exact (hval q0 hq0 g (clearPolys_subset M q0 g hg)).2

/-! ### Witnesses -/

/-- A solver that proposes one vector and checks it. -/
def checked [Semiring K] [DecidableEq K] (cand : List K) (s : FormState K) (gs : List (List ℕ)) (b : List K) : Option (List K) :=
  if cand.length = s.cnt ∧ (∀ i, i < s.rows.length → rowDot (s.rows.getD i []) cand = b.getD i 0) ∧
    ∀ gr ∈ gs, ∀ i ∈ gr, ∀ j ∈ gr, cand.getD i 0 = cand.getD j 0 then some cand else none

theorem checked_solver [Semiring K] [DecidableEq K] (cand : List K) : Solver (checked cand) := by
  intro s gs b x h
  unfold checked at h
  split at h
  · rename_i hc
    have := Option.some.inj h
    subst this
    exact hc
  · simp at h

/-- Two variables without symmetry. -/
def exM2 : MonoMgr := ⟨2, [[0, 1]], true⟩

theorem exM2_valid : exM2.Valid := ⟨by decide, by decide, by decide, by decide, by decide⟩

/-- `a^2 - 3ab + 2b^2`, negative at `(3, 2)`. -/
def exBad : List (List ℕ × ℚ) := [([2, 0], 1), ([1, 1], -3), ([0, 2], 2)]

/-- The constraints `a`, `b` and `ab`, with labels in place of expressions. -/
def exDup : List (List (List ℕ × ℚ) × ℕ) := [([([1, 0], 1)], 2), ([([0, 1], 1)], 3), ([([1, 1], 1)], 5)]

/-- **C32 violated.** With the trivial group the product `a * b` repeats the constraint `ab`.  Two matrices are unknown for it but only one is read
back, so a correct solution of the equations is turned into a "proof" of a polynomial that is negative at a feasible point. -/
theorem sdpSOS_duplicate_wrong : ∃ q r, sdpSOS exM2 exBad exDup [] true "linear" 12 (checked [1, -1, -1, 2, 0, -1]) = .ok (some (q, r)) ∧
    (∀ g ∈ exDup, 0 ≤ evalDict g.1 [3, 2]) ∧ evalDict exBad [3, 2] = -1 ∧
    (exM2.elements.map fun p => psdValue exM2 2 r.psd (papply p [3, 2]) + freeValue exM2 2 r.free (papply p [3, 2])).sum = 5 := by
  have : (match sdpSOS exM2 exBad exDup [] true "linear" 12 (checked [1, -1, -1, 2, 0, -1]) with
      | .ok (some (_, r)) => decide ((exM2.elements.map fun p => psdValue exM2 2 r.psd (papply p [3, 2]) + freeValue exM2 2 r.free (papply p [3, 2])).sum = 5)
      | _ => false) = true := by decide +kernel
  split at this
  · rename_i q r e
    exact ⟨q, r, e, by decide +kernel, by decide +kernel, of_decide_eq_true this⟩
  · simp at this

/-- The cyclic group on three variables. -/
def exM3 : MonoMgr := ⟨3, exC3, true⟩

/-- `a^2 + b^2 + c^2 - ab - bc - ca`. -/
def exGood : List (List ℕ × ℚ) := [([2, 0, 0], 1), ([1, 1, 0], -1), ([1, 0, 1], -1), ([0, 2, 0], 1), ([0, 1, 1], -1), ([0, 0, 2], 1)]

/-- The hypotheses of `sdpSOS_sound_partial` are met: `SDPSOS` proves `a^2+b^2+c^2 ≥ ab+bc+ca` under the cyclic group. -/
example : exM3.Valid ∧ IsPoly 3 exGood ∧ exM3.elements ≠ [List.range 3] ∧ Solver (checked ([1/3, -1/6, -1/6, -1/6, 1/3, -1/6, -1/6, -1/6, 1/3] : List ℚ)) ∧
    ∃ q r, sdpSOS exM3 exGood ([] : List (List (List ℕ × ℚ) × ℕ)) [] true "linear-progressive" 12
      (checked [1/3, -1/6, -1/6, -1/6, 1/3, -1/6, -1/6, -1/6, 1/3]) = .ok (some (q, r)) := by
  refine ⟨exC3_group, ⟨by decide, by decide, by decide +kernel⟩, by decide, checked_solver _, ?_⟩
  have : (match sdpSOS exM3 exGood ([] : List (List (List ℕ × ℚ) × ℕ)) [] true "linear-progressive" 12
      (checked [1/3, -1/6, -1/6, -1/6, 1/3, -1/6, -1/6, -1/6, 1/3]) with
      | .ok (some _) => true
      | _ => false) = true := by decide +kernel
  split at this
  · rename_i qr e
    exact ⟨qr.1, qr.2, e⟩
  · simp at this

/-- An equality of degree larger than the polynomial makes `construct` raise `KeyError`, which `SDPSOS` swallows: `a^2 + b^2` with `a^3 = 0`. -/
theorem sosProblem_large_equality : sosProblem exM2 [([2, 0], (1 : ℚ)), ([0, 2], 1)] [[([0, 0], 1)]] [[([3, 0], 1)]] (checked [1, 0, 0, 1]) = .error .keyError := by
  have : (match sosProblem exM2 [([2, 0], (1 : ℚ)), ([0, 2], 1)] [[([0, 0], 1)]] [[([3, 0], 1)]] (checked [1, 0, 0, 1]) with
      | .error .keyError => true
      | _ => false) = true := by decide +kernel
  split at this
  · assumption
  · simp at this

end Verif.SdpSOS
