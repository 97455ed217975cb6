import Verif.Props.Arraylize
import Verif.Props.Coeff
import Mathlib.Algebra.BigOperators.Group.List.Basic
import Mathlib.Algebra.BigOperators.Ring.List
import Mathlib.Tactic.Ring

/-!
# Values of symmetric sums of polynomials

`CyclicSum(p, symbols, group)` adds the images of `p` under all elements of the group (triples/utils/expression/cyclic.py
411-529); `MonomialManager.cyclic_sum` (triples/utils/monomials.py) calls it with the group of the manager.
-/

namespace Verif

open MonoMgr Coeff

variable {K : Type*}

/-- The value at `x` of the sum of `p` over the group elements. -/
def symEval [CommSemiring K] [Inhabited K] (G : List (List ℕ)) (p : List (List ℕ × K)) (x : List K) : K :=
  (G.map fun g => evalDict p (papply g x)).sum

theorem evalMonom_map [CommSemiring K] (p : List ℕ) (f : ℕ → K) (e : ℕ → ℕ) :
    evalMonom (p.map e) (p.map f) = (p.map fun j => f j ^ e j).prod := by
  induction p with
  | nil => simp [evalMonom]
  | cons a p ih => simp only [evalMonom, List.map_cons, List.zipWith_cons_cons, List.prod_cons] at ih ⊢; rw [ih]

theorem evalMonom_papply [CommSemiring K] [Inhabited K] {n : ℕ} {p : List ℕ} (hp : p.Perm (List.range n)) (m : List ℕ) (x : List K)
    (hm : m.length = n) (hx : x.length = n) : evalMonom (papply p m) (papply p x) = evalMonom m x := by
  have e1 : evalMonom (papply p m) (papply p x) = (p.map fun j => x.getD j default ^ m.getD j default).prod :=
    evalMonom_map p _ _
  have e2 : evalMonom m x = ((List.range n).map fun j => x.getD j default ^ m.getD j default).prod := by
    rw [← evalMonom_map (List.range n) (fun j => x.getD j default) (fun j => m.getD j default)]
    have h1 := papply_range m
    have h2 := papply_range x
    rw [hm] at h1; rw [hx] at h2
    unfold papply at h1 h2
    rw [h1, h2]
  rw [e1, e2]
  exact (hp.map _).prod_eq

theorem inv_list {n : ℕ} {G : List (List ℕ)} (hG : IsPermGroup n G) :
    ∃ f : List ℕ → List ℕ, (∀ g ∈ G, f g ∈ G ∧ papply g (f g) = List.range n ∧ papply (f g) g = List.range n) ∧ (G.map f).Perm G := by
  classical
  choose! f hf using hG.inv
  refine ⟨f, hf, ?_⟩
  have hnd : (G.map f).Nodup := by
    rw [List.nodup_map_iff_inj_on hG.nodup]
    intro a ha b hb hab
    have h1 : papply a (papply (f a) a) = papply (papply a (f a)) a :=
      papply_papply _ _ _ (fun i hi => by rw [hG.length_eq (hf a ha).1]; exact hG.lt_of_mem ha i hi)
    have h2 : papply b (papply (f a) a) = papply (papply b (f b)) a := by
      rw [← hab]
      exact papply_papply _ _ _ (fun i hi => by rw [hG.length_eq (hf a ha).1]; exact hG.lt_of_mem hb i hi)
    rw [(hf a ha).2.2, (hf a ha).2.1] at h1
    rw [(hf a ha).2.2, (hf b hb).2.1] at h2
    have pr : ∀ c ∈ G, papply c (List.range n) = c := by
      intro c hc
      unfold papply
      conv_rhs => rw [← List.map_id c]
      apply List.map_congr_left
      intro i hi
      have := hG.lt_of_mem hc i hi
      rw [List.getD_eq_getElem?_getD, List.getElem?_range this]; rfl
    rw [pr a ha] at h1
    rw [pr b hb] at h2
    rw [h1, h2]
  exact (List.subperm_of_subset hnd (by
    intro t ht
    obtain ⟨g, hg, rfl⟩ := List.mem_map.1 ht
    exact (hf g hg).1)).perm_of_length_le (by simp)

/-- Moving the group from the polynomial to the point. -/
theorem symEval_eq [CommSemiring K] [Inhabited K] {n : ℕ} {G : List (List ℕ)} (hG : IsPermGroup n G) (p : List (List ℕ × K)) (x : List K)
    (hp : ∀ t ∈ p, t.1.length = n) (hx : x.length = n) :
    symEval G p x = (G.map fun g => evalDict (permutePoly g p) x).sum := by
  obtain ⟨f, hf, hperm⟩ := inv_list hG
  unfold symEval
  rw [← (hperm.map fun g => evalDict (permutePoly g p) x).sum_eq, List.map_map]
  congr 1
  apply List.map_congr_left
  intro g hg
  simp only [Function.comp, evalDict, permutePoly, List.map_map]
  congr 1
  apply List.map_congr_left
  intro t ht
  simp only [Function.comp]
  congr 1
  obtain ⟨h1, h2, h3⟩ := hf g hg
  have hl : (papply g x).length = n := by rw [papply_length, hG.length_eq hg]
  rw [← evalMonom_papply (hG.perm _ h1) t.1 (papply g x) (hp t ht) hl]
  congr 1
  rw [papply_papply _ _ _ (fun i hi => by rw [hG.length_eq hg]; exact hG.lt_of_mem h1 i hi), h3, IsPermGroup.papply_one hx]

theorem symEval_append [CommSemiring K] [Inhabited K] (G : List (List ℕ)) (p q : List (List ℕ × K)) (x : List K) :
    symEval G (p ++ q) x = symEval G p x + symEval G q x := by
  unfold symEval
  rw [← List.sum_map_add]
  congr 1
  apply List.map_congr_left
  intro g _
  simp [evalDict]

/-- The value of a list of terms is determined by its collected coefficients. -/
theorem evalDict_coeffSum [CommSemiring K] (p : List (List ℕ × K)) (x : List K) (S : List (List ℕ)) (hS : S.Nodup)
    (hp : ∀ t ∈ p, t.1 ∈ S) : evalDict p x = (S.map fun m => coeffSum p m * evalMonom m x).sum := by
  induction p with
  | nil => simp [evalDict, coeffSum]
  | cons t p ih =>
    have e : evalDict (t :: p) x = t.2 * evalMonom t.1 x + evalDict p x := by simp [evalDict]
    rw [e, ih (fun t ht => hp t (List.mem_cons_of_mem _ ht))]
    have e2 : (S.map fun m => coeffSum (t :: p) m * evalMonom m x) =
        S.map fun m => (if m = t.1 then t.2 * evalMonom t.1 x else 0) + coeffSum p m * evalMonom m x := by
      apply List.map_congr_left
      intro m _
      simp only [coeffSum, List.map_cons, List.sum_cons, add_mul]
      congr 1
      by_cases h : t.1 = m
      · rw [if_pos h, if_pos h.symm, h]
      · rw [if_neg h, if_neg (fun hh => h hh.symm), zero_mul]
    rw [e2, List.sum_map_add]
    congr 1
    have : ∀ (S : List (List ℕ)), S.Nodup → t.1 ∈ S → (S.map fun m => if m = t.1 then t.2 * evalMonom t.1 x else 0).sum = t.2 * evalMonom t.1 x := by
      intro S
      induction S with
      | nil => intro _ h; simp at h
      | cons s S ih =>
        intro hnd hmem
        rw [List.nodup_cons] at hnd
        rw [List.map_cons, List.sum_cons]
        by_cases h : s = t.1
        · rw [if_pos h]
          have : (S.map fun m => if m = t.1 then t.2 * evalMonom t.1 x else 0).sum = 0 := by
            apply List.sum_eq_zero
            intro y hy
            obtain ⟨m, hm, rfl⟩ := List.mem_map.1 hy
            rw [if_neg]
            rintro rfl
            exact hnd.1 (h ▸ hm)
          rw [this, add_zero]
        · rw [if_neg h, zero_add]
          exact ih hnd.2 ((List.mem_cons.1 hmem).resolve_left (fun hh => h hh.symm))
    rw [this S hS (hp t (List.mem_cons_self ..))]

theorem coeffSum_permutePoly [AddCommMonoid K] {n : ℕ} {g h gi : List ℕ} (p : List (List ℕ × K)) (m : List ℕ)
    (hp : ∀ t ∈ p, t.1.length = n) (hm : m.length = n) (hg : ∀ i ∈ g, i < n) (hgl : g.length = n) (hhl : h.length = n) (hh : ∀ i ∈ h, i < n)
    (hgil : gi.length = n) (hgi : ∀ i ∈ gi, i < n)
    (h1 : papply g gi = List.range n) (h2 : papply gi g = List.range n) :
    coeffSum (permutePoly h p) (papply g m) = coeffSum (permutePoly (papply gi h) p) m := by
  unfold coeffSum permutePoly
  rw [List.map_map, List.map_map]
  congr 1
  apply List.map_congr_left
  intro t ht
  simp only [Function.comp]
  have e : papply h t.1 = papply g m ↔ papply (papply gi h) t.1 = m := by
    constructor
    · intro e
      rw [← papply_papply _ _ _ (fun i hi => by rw [hhl]; exact hgi i hi), e, papply_papply _ _ _ (fun i hi => by rw [hgl]; exact hgi i hi), h2, ← hm, papply_range]
    · intro e
      rw [← e, papply_papply _ _ _ (fun i hi => by rw [papply_length, hgil]; exact hg i hi),
        papply_papply g gi h (fun i hi => by rw [hgil]; exact hg i hi), h1, ← hhl, papply_range]
  by_cases c : papply h t.1 = papply g m
  · rw [if_pos c, if_pos (e.1 c)]
  · rw [if_neg c, if_neg (fun hh => c (e.2 hh))]

/-- The collected coefficient of the symmetric sum at a monomial does not change along an orbit. -/
theorem symCoeff_orbit [AddCommMonoid K] {n : ℕ} {G : List (List ℕ)} (hG : IsPermGroup n G) (p : List (List ℕ × K)) (m g : List ℕ)
    (hp : ∀ t ∈ p, t.1.length = n) (hm : m.length = n) (hg : g ∈ G) :
    (G.map fun h => coeffSum (permutePoly h p) (papply g m)).sum = (G.map fun h => coeffSum (permutePoly h p) m).sum := by
  obtain ⟨gi, hgi, h1, h2⟩ := hG.inv g hg
  have e : (G.map fun h => coeffSum (permutePoly h p) (papply g m)) = (G.map fun h => papply gi h).map fun h => coeffSum (permutePoly h p) m := by
    rw [List.map_map]
    apply List.map_congr_left
    intro h hh
    exact coeffSum_permutePoly p m hp hm (hG.lt_of_mem hg) (hG.length_eq hg) (hG.length_eq hh) (hG.lt_of_mem hh) (hG.length_eq hgi) (hG.lt_of_mem hgi) h1 h2
  rw [e]
  apply List.Perm.sum_eq
  apply List.Perm.map
  have hnd : (G.map fun h => papply gi h).Nodup := by
    rw [List.nodup_map_iff_inj_on hG.nodup]
    intro a ha b hb hab
    have := congrArg (papply g) hab
    rwa [papply_papply _ _ _ (fun i hi => by rw [hG.length_eq hgi]; exact hG.lt_of_mem hg i hi), papply_papply _ _ _ (fun i hi => by rw [hG.length_eq hgi]; exact hG.lt_of_mem hg i hi), h1,
      IsPermGroup.papply_one (hG.length_eq ha), IsPermGroup.papply_one (hG.length_eq hb)] at this
  exact (List.subperm_of_subset hnd (by
    intro t ht
    obtain ⟨h, hh, rfl⟩ := List.mem_map.1 ht
    exact hG.mul _ hgi _ hh)).perm_of_length_le (by simp)

/-- If the coefficients of the symmetric sum vanish at all representatives, the symmetric sum is zero everywhere. -/
theorem symEval_eq_zero [CommSemiring K] [Inhabited K] (M : MonoMgr) (hM : M.Valid) (hhom : M.hom = true) (p : List (List ℕ × K)) (d : ℕ)
    (hp : ∀ t ∈ p, t.1.length = M.nvars ∧ t.1.sum = d)
    (hz : ∀ s ∈ M.invMonoms d, (M.elements.map fun g => coeffSum (permutePoly g p) s).sum = 0) (x : List K) (hx : x.length = M.nvars) :
    symEval M.elements p x = 0 := by
  have hG : IsPermGroup M.nvars M.elements := hM
  rw [symEval_eq hG p x (fun t ht => (hp t ht).1) hx]
  set S := generatePartitions M.nvars d true with hS
  have hmemS : ∀ m : List ℕ, m.length = M.nvars → m.sum = d → m ∈ S := by
    intro m h1 h2
    exact (generatePartitions_mem _ _ _).2.2 ⟨h1, h2⟩
  have e : (M.elements.map fun g => evalDict (permutePoly g p) x) =
      M.elements.map fun g => (S.map fun m => coeffSum (permutePoly g p) m * evalMonom m x).sum := by
    apply List.map_congr_left
    intro g hg
    apply evalDict_coeffSum _ _ _ (generatePartitions_nodup _ _ _)
    intro t ht
    obtain ⟨t0, ht0, rfl⟩ := List.mem_map.1 ht
    refine hmemS _ (by rw [papply_length, hG.length_eq hg]) ?_
    rw [(hG.papply_perm' hg (hp t0 ht0).1).sum_eq, (hp t0 ht0).2]
  rw [e, sum_map_comm]
  apply List.sum_eq_zero
  intro y hy
  obtain ⟨m, hm, rfl⟩ := List.mem_map.1 hy
  have hml : m.length = M.nvars ∧ m.sum = d := (generatePartitions_mem _ _ _).2.1 hm
  rw [List.sum_map_mul_right]
  obtain ⟨s, hs⟩ := standard_exists hM hml.1
  obtain ⟨g, hg, hgs⟩ := List.mem_map.1 (standard_mem hs)
  have hgs : papply g m = s := hgs
  have := symCoeff_orbit hG p m g (fun t ht => (hp t ht).1) hml.1 hg
  have hmem : s ∈ M.invMonoms d := by
    rw [mem_invMonoms]
    obtain ⟨s', hs', -, -, hidem, -⟩ := standardMonom_spec M hM m hml.1
    have : s = s' := Option.some.inj (hs.symm.trans hs')
    subst this
    refine ⟨⟨length_of_mem_permute hM (standard_mem hs), ?_⟩, hidem⟩
    unfold DegOk
    rw [if_pos hhom, sum_of_mem_permute hM hml.1 (standard_mem hs), hml.2]
  rw [← this, hgs, hz s hmem, zero_mul]

end Verif
