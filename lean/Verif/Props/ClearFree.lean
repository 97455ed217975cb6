import Verif.Proofs.UnionFind
import Verif.Props.Coeff
import Mathlib.Algebra.Order.Field.Basic
import Mathlib.Tactic.Ring

/-!
# `clear_free_symbols` (C73)

Only the constraints linked to the polynomial by a chain of shared variables remain.  The reduced problem proves the original one, and nothing is lost
when the removed constraints are consistent.
-/

namespace Verif.ClearFree

open Verif Verif.Coeff

variable {K E : Type*}

/-- The variable `i` occurs in `p`. -/
def Occurs (n : ℕ) (p : Terms K) (i : ℕ) : Prop := i < n ∧ ∃ t ∈ p, t.1.getD i 0 ≠ 0

/-- A chain of polynomials with common variables links `i` and `j`. -/
def Linked (n : ℕ) (polys : List (Terms K)) : ℕ → ℕ → Prop := Relation.EqvGen fun a b => ∃ p ∈ polys, Occurs n p a ∧ Occurs n p b

theorem mem_freeSyms {n : ℕ} {p : Terms K} {i : ℕ} : i ∈ freeSyms n p ↔ Occurs n p i := by
  simp [freeSyms, Occurs]

/-! ## Values -/

section
variable [CommSemiring K]

/-- The value of a polynomial in the variables listed in `gens`. -/
def value (gens : List ℕ) (p : Terms K) (x : ℕ → K) : K := evalDict p (gens.map x)

theorem evalMonom_map (x : ℕ → K) : ∀ (gens : List ℕ) (f : ℕ → ℕ), evalMonom (gens.map f) (gens.map x) = (gens.map fun i => x i ^ f i).prod
  | [], _ => by simp [evalMonom]
  | g :: gens, f => by
    have := evalMonom_map x gens f
    simp only [evalMonom, List.map_cons, List.zipWith_cons_cons, List.prod_cons] at this ⊢
    rw [this]

theorem monom_eq_map {n : ℕ} {m : List ℕ} (h : m.length = n) : m = (List.range n).map fun i => m.getD i 0 := by
  apply List.ext_getElem
  · simp [h]
  · intro i h1 h2
    simp [List.getD_eq_getElem?_getD, List.getElem?_eq_getElem h1]

theorem prod_range_filter (x : ℕ → K) (f : ℕ → ℕ) (act : List ℕ) (hact : act.Nodup) : ∀ (l : List ℕ), l.Nodup → (∀ i ∈ act, i ∈ l) →
    (∀ i ∈ l, i ∉ act → f i = 0) → (act.map fun i => x i ^ f i).prod = (l.map fun i => x i ^ f i).prod := by
  intro l hl hsub h0
  have h1 : (l.filter (· ∈ act)).Perm act := by
    rw [List.perm_ext_iff_of_nodup (hl.filter _) hact]
    intro i
    simp only [List.mem_filter, decide_eq_true_eq]
    exact ⟨fun h => h.2, fun h => ⟨hsub i h, h⟩⟩
  rw [← (h1.map fun i => x i ^ f i).prod_eq]
  clear h1 hl hsub
  induction l with
  | nil => rfl
  | cons a l ih =>
    have ih' := ih fun i hi => h0 i (by simp [hi])
    by_cases ha : a ∈ act
    · rw [List.filter_cons_of_pos (by simpa using ha), List.map_cons, List.prod_cons, List.map_cons, List.prod_cons, ih']
    · rw [List.filter_cons_of_neg (by simpa using ha), List.map_cons, List.prod_cons, h0 a (by simp) ha, pow_zero, one_mul, ih']

/-- Reading a polynomial over the active generators does not change its value. -/
theorem asPoly_value {n : ℕ} {act : List ℕ} (hact : act.Nodup) (hn : ∀ i ∈ act, i < n) {p q : Terms K} (ha : ∀ t ∈ p, t.1.length = n)
    (h : asPoly n act p = .ok q) (x : ℕ → K) : value act q x = value (List.range n) p x := by
  unfold asPoly at h
  split at h
  · rename_i hs
    cases h
    simp only [value, evalDict, List.map_map]
    congr 1
    apply List.map_congr_left
    intro t ht
    simp only [Function.comp_apply]
    congr 1
    rw [evalMonom_map x act (fun i => t.1.getD i 0)]
    conv_rhs => rw [monom_eq_map (ha t ht), evalMonom_map x (List.range n) (fun i => t.1.getD i 0)]
    refine prod_range_filter x _ act hact _ List.nodup_range (fun i hi => List.mem_range.2 (hn i hi)) fun i hi hia => ?_
    by_contra hne
    have : i ∈ freeSyms n p := mem_freeSyms.2 ⟨List.mem_range.1 hi, t, ht, hne⟩
    have := List.all_eq_true.1 hs i this
    exact hia (by simpa using this)
  · cases h

/-- A polynomial depends only on the variables that occur in it. -/
theorem value_congr {n : ℕ} {p : Terms K} (ha : ∀ t ∈ p, t.1.length = n) {x y : ℕ → K} (h : ∀ i, Occurs n p i → x i = y i) :
    value (List.range n) p x = value (List.range n) p y := by
  simp only [value, evalDict]
  congr 1
  apply List.map_congr_left
  intro t ht
  congr 1
  rw [monom_eq_map (ha t ht), evalMonom_map x (List.range n) (fun i => t.1.getD i 0), evalMonom_map y (List.range n) (fun i => t.1.getD i 0)]
  congr 1
  apply List.map_congr_left
  intro i hi
  by_cases h0 : t.1.getD i 0 = 0
  · simp only [h0, pow_zero]
  · rw [h i ⟨List.mem_range.1 hi, t, ht, h0⟩]

end

/-! ## What remains -/

theorem zip_filter_fst {rs : List ℕ} {Q : ℕ → Prop} [DecidablePred Q] : ∀ (l : List ℕ) (R : ℕ → ℕ → Prop), List.Forall₂ R l rs →
    ∀ i, i ∈ ((l.zip rs).filter fun p => decide (Q p.2)).map Prod.fst ↔ ∃ r, (i, r) ∈ l.zip rs ∧ Q r := by
  intro l R _ i
  simp only [List.mem_map, List.mem_filter, decide_eq_true_eq]
  constructor
  · rintro ⟨⟨a, b⟩, h, rfl⟩; exact ⟨b, h⟩
  · rintro ⟨r, h⟩; exact ⟨(i, r), h, rfl⟩

theorem forall₂_zip_mem {R : ℕ → ℕ → Prop} {l rs : List ℕ} (h : List.Forall₂ R l rs) : ∀ i, i ∈ l ↔ ∃ r, (i, r) ∈ l.zip rs := by
  induction h with
  | nil => simp
  | @cons a b l rs _ _ ih =>
    intro i
    simp only [List.mem_cons, List.zip_cons_cons, Prod.mk.injEq, ih]
    constructor
    · rintro (rfl | ⟨r, h⟩)
      · exact ⟨b, .inl ⟨rfl, rfl⟩⟩
      · exact ⟨r, .inr h⟩
    · rintro ⟨r, (⟨rfl, _⟩ | h)⟩
      · exact .inl rfl
      · exact .inr ⟨r, h⟩

theorem forall₂_zip_rel {R : ℕ → ℕ → Prop} {l rs : List ℕ} (h : List.Forall₂ R l rs) {i r : ℕ} (hz : (i, r) ∈ l.zip rs) : R i r := by
  induction h with
  | nil => simp at hz
  | cons hab _ ih =>
    rcases List.mem_cons.1 hz with h | h
    · cases h; exact hab
    · exact ih h

theorem forall₂_mem_right {R : ℕ → ℕ → Prop} {l rs : List ℕ} (h : List.Forall₂ R l rs) {r : ℕ} (hr : r ∈ rs) : ∃ x ∈ l, R x r := by
  induction h with
  | nil => simp at hr
  | @cons a b _ _ hab _ ih =>
    rcases List.mem_cons.1 hr with rfl | hr
    · exact ⟨a, by simp, hab⟩
    · obtain ⟨x, h1, h2⟩ := ih hr; exact ⟨x, by simp [h1], h2⟩

theorem forall₂_mem_left {R : ℕ → ℕ → Prop} {l rs : List ℕ} (h : List.Forall₂ R l rs) {x : ℕ} (hx : x ∈ l) : ∃ r ∈ rs, R x r := by
  induction h with
  | nil => simp at hx
  | @cons a b _ _ hab _ ih =>
    rcases List.mem_cons.1 hx with rfl | hx
    · exact ⟨b, by simp, hab⟩
    · obtain ⟨r, h1, h2⟩ := ih hx; exact ⟨r, by simp [h1], h2⟩

theorem map_fst_zip_sublist : ∀ (l rs : List ℕ), ((l.zip rs).map Prod.fst).Sublist l
  | [], _ => by simp
  | _ :: _, [] => by simp
  | a :: l, b :: rs => by
    simp only [List.zip_cons_cons, List.map_cons]
    exact (map_fst_zip_sublist l rs).cons_cons a

/-- The active generators, in increasing order. -/
theorem activeGens_spec {n : ℕ} {v : List ℕ} {u : ℕ → ℕ} (hf : Forest n u) (hv : ∀ x ∈ v, x < n) (hne : v ≠ []) :
    ∃ act, activeGens (n + 1) n v u = some act ∧ act.Sublist (List.range n) ∧ ∀ i, i ∈ act ↔ i < n ∧ ∃ s ∈ v, Conn u i s := by
  obtain ⟨roots, u', h1, h2, h3, h4⟩ := findAll_spec v u hf hv
  obtain ⟨rs, w, g1, g2, _, _⟩ := findAll_spec (n := n) (List.range n) u' h3 (fun x hx => List.mem_range.1 hx)
  let act := (((List.range n).zip rs).filter fun p => decide (p.2 ∈ roots)).map Prod.fst
  have hsub : act.Sublist (List.range n) := (List.filter_sublist.map Prod.fst).trans (map_fst_zip_sublist _ _)
  have hmem : ∀ i, i ∈ act ↔ i < n ∧ ∃ s ∈ v, Conn u i s := by
    intro i
    simp only [act]
    rw [zip_filter_fst (Q := fun r => r ∈ roots) _ _ g2 i]
    constructor
    · rintro ⟨r, hz, hr⟩
      have hi : i < n := List.mem_range.1 ((forall₂_zip_mem g2 i).2 ⟨r, hz⟩)
      obtain ⟨s, hs, hsr⟩ := forall₂_mem_right h2 hr
      refine ⟨hi, s, hs, ?_⟩
      rw [← conn_of_roots hf h4 hi (hv s hs)]
      exact ⟨r, forall₂_zip_rel g2 hz, h4 s r hsr⟩
    · rintro ⟨hi, s, hs, hc⟩
      obtain ⟨r, hr, hsr⟩ := forall₂_mem_left h2 hs
      obtain ⟨t, hz⟩ := (forall₂_zip_mem g2 i).1 (List.mem_range.2 hi)
      refine ⟨t, hz, ?_⟩
      obtain ⟨q, q1, q2⟩ := (conn_of_roots hf h4 hi (hv s hs)).2 hc
      have e1 := (forall₂_zip_rel g2 hz).unique q1
      have e2 := (h4 s r hsr).unique q2
      rw [e1, ← e2]; exact hr
  refine ⟨act, ?_, hsub, hmem⟩
  simp only [activeGens, h1, g1]
  have : act.length ≠ 0 := by
    obtain ⟨s, hs⟩ := List.exists_mem_of_ne_nil v hne
    have : s ∈ act := (hmem s).2 ⟨hv s hs, s, hs, hf.conn_refl (hv s hs)⟩
    intro h0
    rw [List.length_eq_zero_iff.1 h0] at this
    simp at this
  exact congrArg some (if_neg this)

/-- What the function returns, in terms of links between variables. -/
structure Spec (n : ℕ) (poly : Terms K) (ineqs eqs : List (Terms K × E)) (c : Cleared K E) : Prop where
  /-- the remaining variables, in the old order -/
  gens_sub : c.gens.Sublist (List.range n)
  gens_iff : ∀ i, i ∈ c.gens ↔ ∃ s, Occurs n poly s ∧ i < n ∧ Linked n (poly :: (ineqs.map Prod.fst ++ eqs.map Prod.fst)) i s
  /-- every variable of the polynomial remains -/
  poly_eq : asPoly n c.gens poly = .ok c.poly
  ineqs_eq : List.Forall₂ (fun p q => p.2 = q.2 ∧ asPoly n c.gens p.1 = .ok q.1) (ineqs.filter fun p => isActive n c.gens p.1) c.ineqs
  eqs_eq : List.Forall₂ (fun p q => p.2 = q.2 ∧ asPoly n c.gens p.1 = .ok q.1) (eqs.filter fun p => isActive n c.gens p.1) c.eqs

theorem keep_spec {n : ℕ} {act : List ℕ} : ∀ (l : List (Terms K × E)), (∀ p ∈ l, isActive n act p.1 = true → ∀ i, Occurs n p.1 i → i ∈ act) →
    ∃ r, keep n act l = .ok r ∧ List.Forall₂ (fun p q => p.2 = q.2 ∧ asPoly n act p.1 = .ok q.1) (l.filter fun p => isActive n act p.1) r
  | [], _ => ⟨[], rfl, .nil⟩
  | (p, e) :: l, h => by
    obtain ⟨r, h1, h2⟩ := keep_spec l fun q hq => h q (by simp [hq])
    by_cases ha : isActive n act p = true
    · have hall : ((freeSyms n p).all fun i => decide (i ∈ act)) = true :=
        List.all_eq_true.2 fun i hi => by simpa using h (p, e) (by simp) ha i (mem_freeSyms.1 hi)
      have hp : asPoly n act p = .ok (p.map fun t => (act.map fun i => t.1.getD i 0, t.2)) := by simp only [asPoly, hall, if_true]
      refine ⟨(p.map fun t => (act.map fun i => t.1.getD i 0, t.2), e) :: r, by simp only [keep, ha, if_true, hp, h1], ?_⟩
      rw [List.filter_cons_of_pos (by simpa using ha)]
      exact .cons ⟨rfl, hp⟩ h2
    · refine ⟨r, by simp only [keep, ha, h1]; simp, ?_⟩
      rw [List.filter_cons_of_neg (by simpa using ha)]
      exact h2

theorem linked_iff {n : ℕ} {ord : List ℕ → List ℕ} (hord : ∀ l, (ord l).Perm l) (polys : List (Terms K)) {x y : ℕ} (hx : x < n) (hy : y < n) :
    Relation.EqvGen (fun a b => a < n ∧ b < n ∧ (Conn id a b ∨ ∃ l ∈ polys.map fun p => ord (freeSyms n p), a ∈ l ∧ b ∈ l)) x y ↔ Linked n polys x y := by
  constructor
  · intro h
    have h' := eqvGen_le (S := Linked n polys) (fun _ _ => .refl _) (fun _ _ h => .symm _ _ h) (fun _ _ _ h h' => .trans _ _ _ h h') ?_ h hx
    · exact h'
    · rintro a b _ _ (⟨r, h1, h2⟩ | ⟨l, hl, h1, h2⟩)
      · have e1 := h1.unique (.base rfl)
        have e2 := h2.unique (.base rfl)
        rw [← e1, ← e2]; exact .refl _
      · obtain ⟨p, hp, rfl⟩ := List.mem_map.1 hl
        exact .rel _ _ ⟨p, hp, mem_freeSyms.1 ((hord _).mem_iff.1 h1), mem_freeSyms.1 ((hord _).mem_iff.1 h2)⟩
  · intro h
    induction h with
    | rel a b h =>
      obtain ⟨p, hp, h1, h2⟩ := h
      exact .rel _ _ ⟨h1.1, h2.1, .inr ⟨_, List.mem_map.2 ⟨p, hp, rfl⟩, (hord _).mem_iff.2 (mem_freeSyms.2 h1), (hord _).mem_iff.2 (mem_freeSyms.2 h2)⟩⟩
    | refl a => exact .refl _
    | symm a b _ ih => exact .symm _ _ (ih hy hx)
    | trans a b c hab hbc ih1 ih2 =>
      by_cases hb : b < n
      · exact .trans _ _ _ (ih1 hx hb) (ih2 hb hy)
      · exfalso
        have inv : ∀ {a b}, Linked n polys a b → a < n → b < n := by
          intro a b h
          have : a < n ↔ b < n := by
            induction h with
            | rel _ _ h => obtain ⟨_, _, h1, h2⟩ := h; exact ⟨fun _ => h2.1, fun _ => h1.1⟩
            | refl _ => exact Iff.rfl
            | symm _ _ _ ih => exact ih.symm
            | trans _ _ _ _ _ i1 i2 => exact i1.trans i2
          exact this.1
        exact hb (inv hab hx)

/-- For a polynomial that is not constant the function always returns, and it keeps exactly the variables and constraints that a chain of
common variables links to the polynomial.  The order in which Python walks through its sets does not matter. -/
theorem clear_spec {ord : List ℕ → List ℕ} (hord : ∀ l, (ord l).Perm l) (n : ℕ) (poly : Terms K) (ineqs eqs : List (Terms K × E))
    (hne : ∃ i, Occurs n poly i) : ∃ c, clearFree ord n poly ineqs eqs = .ok c ∧ Spec n poly ineqs eqs c := by
  let polys := poly :: (ineqs.map Prod.fst ++ eqs.map Prod.fst)
  obtain ⟨u, h1, h2, h3⟩ := unionPolys_spec (n := n) (polys.map fun p => ord (freeSyms n p)) id (forest_id n) (by
    intro l hl x hx
    obtain ⟨p, _, rfl⟩ := List.mem_map.1 hl
    exact (mem_freeSyms.1 ((hord _).mem_iff.1 hx)).1)
  have hconn : ∀ x < n, ∀ y < n, Conn u x y ↔ Linked n polys x y := fun x hx y hy => (h3 x hx y hy).trans (linked_iff hord polys hx hy)
  have hvn : ∀ x ∈ ord (freeSyms n poly), x < n := fun x hx => (mem_freeSyms.1 ((hord _).mem_iff.1 hx)).1
  obtain ⟨i0, hi0⟩ := hne
  have hi0' : i0 ∈ ord (freeSyms n poly) := (hord _).mem_iff.2 (mem_freeSyms.2 hi0)
  obtain ⟨act, g1, g2, g3⟩ := activeGens_spec h2 hvn (List.ne_nil_of_mem hi0')
  have hact : ∀ i, i ∈ act ↔ ∃ s, Occurs n poly s ∧ i < n ∧ Linked n polys i s := by
    intro i
    rw [g3]
    constructor
    · rintro ⟨hi, s, hs, hc⟩
      have hs' := mem_freeSyms.1 ((hord _).mem_iff.1 hs)
      exact ⟨s, hs', hi, (hconn i hi s hs'.1).1 hc⟩
    · rintro ⟨s, hs, hi, hl⟩
      exact ⟨hi, s, (hord _).mem_iff.2 (mem_freeSyms.2 hs), (hconn i hi s hs.1).2 hl⟩
  -- the symbols of a polynomial are active together
  have htog : ∀ p ∈ polys, ∀ i j, Occurs n p i → Occurs n p j → i ∈ act → j ∈ act := by
    intro p hp i j hi hj h
    obtain ⟨s, hs, _, hl⟩ := (hact i).1 h
    exact (hact j).2 ⟨s, hs, hj.1, .trans _ _ _ (.rel _ _ ⟨p, hp, hj, hi⟩) hl⟩
  have hkeep : ∀ p ∈ polys, isActive n act p = true → ∀ i, Occurs n p i → i ∈ act := by
    intro p hp ha i hi
    obtain ⟨j, hj, hja⟩ := List.any_eq_true.1 ha
    exact htog p hp j i (mem_freeSyms.1 hj) hi (by simpa using hja)
  have hpoly : ∀ i, Occurs n poly i → i ∈ act := fun i hi => (hact i).2 ⟨i, hi, hi.1, .refl _⟩
  have hall : ((freeSyms n poly).all fun i => decide (i ∈ act)) = true :=
    List.all_eq_true.2 fun i hi => by simpa using hpoly i (mem_freeSyms.1 hi)
  have hp : asPoly n act poly = .ok (poly.map fun t => (act.map fun i => t.1.getD i 0, t.2)) := by simp only [asPoly, hall, if_true]
  obtain ⟨I, k1, k2⟩ := keep_spec (n := n) (act := act) ineqs fun p hp => hkeep p.1 (by simp only [polys, List.mem_cons, List.mem_append]; exact .inr (.inl (List.mem_map_of_mem hp)))
  obtain ⟨J, k3, k4⟩ := keep_spec (n := n) (act := act) eqs fun p hp => hkeep p.1 (by simp only [polys, List.mem_cons, List.mem_append]; exact .inr (.inr (List.mem_map_of_mem hp)))
  refine ⟨⟨act, _, I, J⟩, ?_, g2, hact, hp, k2, k4⟩
  have h1' : unionPolys (n + 1) ((poly :: (ineqs.map Prod.fst ++ eqs.map Prod.fst)).map fun p => ord (freeSyms n p)) id = some u := h1
  simp only [clearFree, h1', g1, hp, k1, k3]

/-- A removed constraint shares no variable with the remaining problem. -/
theorem removed_disjoint {n : ℕ} {act : List ℕ} {p : Terms K} (h : isActive n act p = false) : ∀ i, Occurs n p i → i ∉ act := by
  intro i hi hia
  have : isActive n act p = true := List.any_eq_true.2 ⟨i, mem_freeSyms.2 hi, by simpa using hia⟩
  rw [h] at this; cases this

/-! ## Meaning -/

section
variable [Field K] [LinearOrder K] [IsStrictOrderedRing K]

/-- The problem "`poly ≥ 0` wherever the constraints hold" over the variables `gens`. -/
def Holds (gens : List ℕ) (poly : Terms K) (ineqs eqs : List (Terms K × E)) : Prop :=
  ∀ x : ℕ → K, (∀ p ∈ ineqs, 0 ≤ value gens p.1 x) → (∀ p ∈ eqs, value gens p.1 x = 0) → 0 ≤ value gens poly x

theorem forall₂_value {n : ℕ} {act : List ℕ} (hact : act.Nodup) (hn : ∀ i ∈ act, i < n) {l r : List (Terms K × E)}
    (h : List.Forall₂ (fun p q => p.2 = q.2 ∧ asPoly n act p.1 = .ok q.1) l r) (ha : ∀ p ∈ l, ∀ t ∈ p.1, t.1.length = n) (x : ℕ → K) (P : K → Prop) :
    (∀ q ∈ r, P (value act q.1 x)) ↔ ∀ p ∈ l, P (value (List.range n) p.1 x) := by
  induction h with
  | nil => simp
  | @cons p q l r hpq _ ih =>
    simp only [List.forall_mem_cons]
    rw [ih fun p hp => ha p (by simp [hp]), asPoly_value hact hn (ha p (by simp)) hpq.2 x]

/-- Any proof of the reduced problem proves the original one. -/
theorem clear_sound {ord : List ℕ → List ℕ} (hord : ∀ l, (ord l).Perm l) (n : ℕ) (poly : Terms K) (ineqs eqs : List (Terms K × E))
    (hne : ∃ i, Occurs n poly i) (ha : ∀ p ∈ poly :: (ineqs.map Prod.fst ++ eqs.map Prod.fst), ∀ t ∈ p, t.1.length = n) {c : Cleared K E}
    (hc : clearFree ord n poly ineqs eqs = .ok c) (h : Holds c.gens c.poly c.ineqs c.eqs) : Holds (List.range n) poly ineqs eqs := by
  obtain ⟨c', h1, hs⟩ := clear_spec hord n poly ineqs eqs hne
  rw [hc] at h1; cases h1
  have hnd := hs.gens_sub.nodup List.nodup_range
  have hlt : ∀ i ∈ c.gens, i < n := fun i hi => List.mem_range.1 (hs.gens_sub.subset hi)
  intro x hi he
  rw [← asPoly_value hnd hlt (ha poly (by simp)) hs.poly_eq x]
  refine h x ?_ ?_
  · refine (forall₂_value hnd hlt hs.ineqs_eq (fun p hp t ht => ha p.1 ?_ t ht) x (fun v => 0 ≤ v)).2 fun p hp => hi p (List.mem_of_mem_filter hp)
    simp only [List.mem_cons, List.mem_append]; exact .inr (.inl (List.mem_map_of_mem (List.mem_of_mem_filter hp)))
  · refine (forall₂_value hnd hlt hs.eqs_eq (fun p hp t ht => ha p.1 ?_ t ht) x (fun v => v = 0)).2 fun p hp => he p (List.mem_of_mem_filter hp)
    simp only [List.mem_cons, List.mem_append]; exact .inr (.inr (List.mem_map_of_mem (List.mem_of_mem_filter hp)))

/-- If the removed constraints hold at some point, nothing is lost: the reduced problem is true whenever the original one is. -/
theorem clear_complete {ord : List ℕ → List ℕ} (hord : ∀ l, (ord l).Perm l) (n : ℕ) (poly : Terms K) (ineqs eqs : List (Terms K × E))
    (hne : ∃ i, Occurs n poly i) (ha : ∀ p ∈ poly :: (ineqs.map Prod.fst ++ eqs.map Prod.fst), ∀ t ∈ p, t.1.length = n) {c : Cleared K E}
    (hc : clearFree ord n poly ineqs eqs = .ok c)
    (hz : ∃ z : ℕ → K, (∀ p ∈ ineqs, isActive n c.gens p.1 = false → 0 ≤ value (List.range n) p.1 z) ∧
      ∀ p ∈ eqs, isActive n c.gens p.1 = false → value (List.range n) p.1 z = 0)
    (h : Holds (List.range n) poly ineqs eqs) : Holds c.gens c.poly c.ineqs c.eqs := by
  classical
  obtain ⟨c', h1, hs⟩ := clear_spec hord n poly ineqs eqs hne
  rw [hc] at h1; cases h1
  have hnd := hs.gens_sub.nodup List.nodup_range
  have hlt : ∀ i ∈ c.gens, i < n := fun i hi => List.mem_range.1 (hs.gens_sub.subset hi)
  obtain ⟨z, hz1, hz2⟩ := hz
  intro y hi he
  have hmI : ∀ p ∈ ineqs, p.1 ∈ poly :: (ineqs.map Prod.fst ++ eqs.map Prod.fst) := fun p hp => by
    simp only [List.mem_cons, List.mem_append]; exact .inr (.inl (List.mem_map_of_mem hp))
  have hmE : ∀ p ∈ eqs, p.1 ∈ poly :: (ineqs.map Prod.fst ++ eqs.map Prod.fst) := fun p hp => by
    simp only [List.mem_cons, List.mem_append]; exact .inr (.inr (List.mem_map_of_mem hp))
  have hkI := (forall₂_value hnd hlt hs.ineqs_eq (fun p hp t ht => ha p.1 (hmI p (List.mem_of_mem_filter hp)) t ht) y (fun v => 0 ≤ v)).1 hi
  have hkE := (forall₂_value hnd hlt hs.eqs_eq (fun p hp t ht => ha p.1 (hmE p (List.mem_of_mem_filter hp)) t ht) y (fun v => v = 0)).1 he
  let x : ℕ → K := fun i => if i ∈ c.gens then y i else z i
  have htog : ∀ p ∈ poly :: (ineqs.map Prod.fst ++ eqs.map Prod.fst), isActive n c.gens p = true → ∀ i, Occurs n p i → i ∈ c.gens := by
    intro p hp hact i hi
    obtain ⟨j, hj, hja⟩ := List.any_eq_true.1 hact
    obtain ⟨s, hs', _, hl⟩ := (hs.gens_iff j).1 (by simpa using hja)
    exact (hs.gens_iff i).2 ⟨s, hs', hi.1, .trans _ _ _ (.rel _ _ ⟨p, hp, hi, mem_freeSyms.1 hj⟩) hl⟩
  have hval : ∀ p ∈ poly :: (ineqs.map Prod.fst ++ eqs.map Prod.fst), isActive n c.gens p = true →
      value (List.range n) p x = value (List.range n) p y := fun p hp hact =>
    value_congr (ha p hp) fun i hi => if_pos (htog p hp hact i hi)
  have hval' : ∀ p ∈ poly :: (ineqs.map Prod.fst ++ eqs.map Prod.fst), isActive n c.gens p = false →
      value (List.range n) p x = value (List.range n) p z := fun p hp hact =>
    value_congr (ha p hp) fun i hi => if_neg (removed_disjoint hact i hi)
  have hpa : isActive n c.gens poly = true := by
    obtain ⟨i, hi⟩ := hne
    exact List.any_eq_true.2 ⟨i, mem_freeSyms.2 hi, by simpa using (hs.gens_iff i).2 ⟨i, hi, hi.1, .refl _⟩⟩
  rw [asPoly_value hnd hlt (ha poly (by simp)) hs.poly_eq y, ← hval poly (by simp) hpa]
  refine h x (fun p hp => ?_) fun p hp => ?_
  · by_cases hact : isActive n c.gens p.1 = true
    · rw [hval p.1 (hmI p hp) hact]; exact hkI p (List.mem_filter.2 ⟨hp, by simpa using hact⟩)
    · rw [hval' p.1 (hmI p hp) (by simpa using hact)]; exact hz1 p hp (by simpa using hact)
  · by_cases hact : isActive n c.gens p.1 = true
    · rw [hval p.1 (hmE p hp) hact]; exact hkE p (List.mem_filter.2 ⟨hp, by simpa using hact⟩)
    · rw [hval' p.1 (hmE p hp) (by simpa using hact)]; exact hz2 p hp (by simpa using hact)

end

/-- A constant polynomial makes `gens[0]` active although nothing is linked to it; a constraint `x0 * x1 >= 0` then gets a symbol in its
coefficients.  (`_structural_sos` answers constants before this function is called.) -/
theorem constant_escapes : (clearFree (E := Unit) id 2 [([0, 0], (1 : ℚ))] [([([1, 1], 1)], ())] []).map Cleared.gens = .error (.custom "symbols in the coefficients") := by
  decide +kernel

/-- The example of the documentation: prove `x - 4` from `x - y`, `x*y - 4`, `y` and an unrelated `a`; the variables are `a, x, y`. -/
def exPoly : Terms ℚ := [([0, 1, 0], 1), ([0, 0, 0], -4)]

def exIneqs : List (Terms ℚ × ℕ) :=
  [([([0, 1, 0], 1), ([0, 0, 1], -1)], 0), ([([0, 1, 1], 1), ([0, 0, 0], -4)], 1), ([([0, 0, 1], 1)], 2), ([([1, 0, 0], 1)], 3)]

theorem ex_cleared : (clearFree List.reverse 3 exPoly exIneqs []).map (fun c => (c.gens, c.ineqs.map Prod.snd)) = .ok ([1, 2], [0, 1, 2]) := by
  decide +kernel

theorem ex_occurs : ∃ i, Occurs 3 exPoly i := ⟨1, by decide, _, List.mem_cons_self, by decide⟩

end Verif.ClearFree
