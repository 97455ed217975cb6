import Verif.Model.Shared
import Verif.Proofs.SymEval
import Verif.Proofs.Coeff
import Mathlib.Data.Finset.Card

/-!
# C36, C37, C38: symmetry of the prepared problem
-/

namespace Verif.Shared

open Verif Coeff MonoMgr

set_option linter.unusedSectionVars false

variable {K : Type*} [DecidableEq K]

/-! ## C36: the inferred group -/

/-- All exponent tuples of the polynomial have length `n`. -/
def RepArity (n : ℕ) (r : Rep K) : Prop := ∀ t ∈ r, t.1.length = n

theorem permRep_one {n : ℕ} {r : Rep K} (h : RepArity n r) : permRep (List.range n) r = r := by
  unfold permRep
  conv_rhs => rw [← Finset.image_id (s := r)]
  apply Finset.image_congr
  intro t ht
  have := h t ht
  simp [← this, papply_range]

theorem permRep_mul {n : ℕ} {p q : List ℕ} (hp : p.Perm (List.range n)) (hq : q.Perm (List.range n)) (r : Rep K) :
    permRep (papply p q) r = permRep p (permRep q r) := by
  unfold permRep
  rw [Finset.image_image]
  apply Finset.image_congr
  intro t _
  simp only [Function.comp]
  rw [papply_papply_perm hp hq]

theorem repArity_permRep {n : ℕ} {g : List ℕ} (hg : g.Perm (List.range n)) (r : Rep K) : RepArity n (permRep g r) := by
  intro t ht
  obtain ⟨s, _, rfl⟩ := Finset.mem_image.1 ht
  simpa [papply_length] using hg.length_eq

theorem exists_inv {n : ℕ} {p : List ℕ} (hp : p.Perm (List.range n)) : ∃ q : List ℕ, q.Perm (List.range n) ∧ papply p q = List.range n ∧ papply q p = List.range n := by
  have hl : p.length = n := by simpa using hp.length_eq
  have hnd : p.Nodup := hp.nodup_iff.2 List.nodup_range
  have hlt : ∀ i ∈ p, i < n := fun i hi => by simpa using hp.mem_iff.1 hi
  have hmem : ∀ i, i < n → i ∈ p := fun i hi => hp.mem_iff.2 (by simpa using hi)
  refine ⟨(List.range n).map fun i => p.idxOf i, ?_, ?_, ?_⟩
  · have hnd2 : ((List.range n).map fun i => p.idxOf i).Nodup := by
      rw [List.nodup_map_iff_inj_on List.nodup_range]
      intro a ha b hb hab
      have h1 := List.getElem_idxOf (List.idxOf_lt_length_of_mem (hmem a (by simpa using ha)))
      have h2 := List.getElem_idxOf (List.idxOf_lt_length_of_mem (hmem b (by simpa using hb)))
      rw [← h1, ← h2]
      congr 1
    refine (List.subperm_of_subset hnd2 ?_).perm_of_length_le (by simp)
    intro i hi
    obtain ⟨j, hj, rfl⟩ := List.mem_map.1 hi
    rw [List.mem_range, ← hl]
    exact List.idxOf_lt_length_of_mem (hmem j (by simpa using hj))
  · unfold papply
    apply List.ext_getElem (by simp [hl])
    intro i h1 h2
    have hi : i < p.length := by simpa using h1
    rw [List.getElem_map, List.getElem_range, List.getD_eq_getElem?_getD, List.getElem?_map, List.getElem?_range (hlt _ (List.getElem_mem hi))]
    simp only [Option.map_some, Option.getD_some]
    exact hnd.idxOf_getElem i hi
  · unfold papply
    rw [List.map_map]
    conv_rhs => rw [← List.map_id (List.range n)]
    apply List.map_congr_left
    intro i hi
    have h1 := List.idxOf_lt_length_of_mem (hmem i (by simpa using hi))
    simp only [Function.comp, id]
    rw [List.getD_eq_getElem?_getD, List.getElem?_eq_getElem h1, Option.getD_some, List.getElem_idxOf]

theorem permRep_injective {n : ℕ} {g : List ℕ} (hg : g.Perm (List.range n)) {r s : Rep K} (hr : RepArity n r) (hs : RepArity n s)
    (h : permRep g r = permRep g s) : r = s := by
  obtain ⟨q, hq, -, h2⟩ := exists_inv hg
  have := congrArg (permRep q) h
  rw [← permRep_mul hq hg, ← permRep_mul hq hg, h2, permRep_one hr, permRep_one hs] at this
  exact this

/-- `check_symmetry` decides whether the permutation maps the list to itself. -/
theorem checkSymmetry_iff {n : ℕ} (l : List (Rep K)) (hl : ∀ r ∈ l, RepArity n r) (g : List ℕ) (hg : g.Perm (List.range n)) :
    checkSymmetry l g = true ↔ ∀ r ∈ l, permRep g r ∈ l := by
  unfold checkSymmetry
  simp only [List.all_eq_true, decide_eq_true_eq, List.mem_filter]
  constructor
  · intro h r hr
    by_cases hm : r = permRep g r
    · rw [← hm]; exact hr
    · exact (h r ⟨hr, by simpa using hm⟩).1
  · rintro h r ⟨hr, hm⟩
    refine ⟨h r hr, ?_⟩
    simp only [ne_eq] at hm ⊢
    intro he
    exact hm (permRep_injective hg (hl r hr) (repArity_permRep hg r) he)

theorem perm_of_range_map {n : ℕ} (l : List ℕ) (hl : l.length = n) (hnd : l.Nodup) (hlt : ∀ i ∈ l, i < n) : l.Perm (List.range n) :=
  (List.subperm_of_subset hnd (fun i hi => by simpa using hlt i hi)).perm_of_length_le (by simp [hl])

theorem rotated_perm (n s : ℕ) (hn : 1 ≤ n) : (rotated n s).Perm ((List.range n).map (· + s)) := by
  unfold rotated
  obtain ⟨m, rfl⟩ : ∃ m, n = m + 1 := ⟨n - 1, by omega⟩
  rw [Nat.add_sub_cancel, List.range_succ_eq_map, List.map_cons, List.map_map, Nat.zero_add]
  have : ((fun x => x + s) ∘ Nat.succ) = fun x => x + (s + 1) := by funext x; simp only [Function.comp]; omega
  rw [this]
  exact (List.perm_append_comm (l₁ := (List.range m).map fun x => x + (s + 1)) (l₂ := [s]))

theorem reflected_perm (n s : ℕ) (hn : 2 ≤ n) : (reflected n s).Perm ((List.range n).map (· + s)) := by
  unfold reflected
  obtain ⟨m, rfl⟩ : ∃ m, n = m + 2 := ⟨n - 2, by omega⟩
  rw [Nat.add_sub_cancel, List.range_succ_eq_map, List.range_succ_eq_map, List.map_cons, List.map_map, List.map_cons, List.map_map, Nat.zero_add]
  have : (((fun x => x + s) ∘ Nat.succ) ∘ Nat.succ) = fun x => x + (s + 2) := by funext x; simp only [Function.comp]; omega
  rw [this]
  simp only [List.cons_append, List.nil_append, Function.comp]
  rw [Nat.succ_eq_add_one, Nat.zero_add, Nat.add_comm 1 s]
  exact List.Perm.swap _ _ _

/-- Every candidate is a permutation of the generators. -/
theorem candidates_perm (n : ℕ) (hh : Bool) (g : List ℕ) (hg : g ∈ candidates n hh) : g.Perm (List.range n) := by
  unfold candidates at hg
  by_cases h1 : n > 1
  · rw [if_pos h1] at hg
    have map0 : ∀ m, (List.range m).map (· + 0) = List.range m := by intro m; simp
    have tailp : ∀ (l : List ℕ) (m : ℕ), l.Perm (List.range m) → m + 1 = n → (l ++ [n - 1]).Perm (List.range n) := by
      intro l m hl he
      subst he
      rw [List.range_succ, Nat.add_sub_cancel]
      exact hl.append_right [m]
    rcases List.mem_append.1 hg with hg | hg
    · rcases List.mem_append.1 hg with hg | hg
      · rcases List.mem_append.1 hg with hg | hg
        · rw [List.mem_singleton] at hg; subst hg
          have := rotated_perm n 0 (by omega); rwa [map0] at this
        · by_cases h2 : n > 2
          · rw [if_pos h2, List.mem_singleton] at hg; subst hg
            have := reflected_perm n 0 (by omega); rwa [map0] at this
          · rw [if_neg h2] at hg; simp at hg
      · by_cases h3 : n > 3 ∧ (n - (if hh = true then 1 else 0)) % 2 = 0
        · rw [if_pos h3] at hg
          obtain ⟨h3, h4⟩ := h3
          simp only at hg
          set half := n / 2 with hhalf
          have hh2 : 2 ≤ half := by omega
          have both : ∀ a b : List ℕ, a.Perm (List.range half) → b.Perm ((List.range half).map (· + half)) →
              (a ++ b ++ (if hh = true then [n - 1] else [])).Perm (List.range n) := by
            intro a b ha hb
            have hab : (a ++ b).Perm (List.range (half + half)) := by
              rw [List.range_add]
              refine ha.append ?_
              have : (fun x => half + x) = fun x => x + half := by funext x; omega
              rw [this]; exact hb
            by_cases hhh : hh = true
            · rw [if_pos hhh] at h4 ⊢
              exact tailp _ _ hab (by omega)
            · rw [if_neg hhh] at h4 ⊢
              rw [List.append_nil]
              have : half + half = n := by omega
              rwa [this] at hab
          have r0 := rotated_perm half 0 (by omega)
          have f0 := reflected_perm half 0 hh2
          rw [map0] at r0 f0
          rcases List.mem_cons.1 hg with rfl | hg
          · exact both _ _ r0 (rotated_perm half half (by omega))
          rcases List.mem_cons.1 hg with rfl | hg
          · exact both _ _ f0 (reflected_perm half half hh2)
          rw [List.mem_singleton] at hg; subst hg
          refine List.Perm.trans ?_ (both _ _ (List.Perm.refl _) (List.Perm.refl _))
          exact List.perm_append_comm.append_right _
        · rw [if_neg h3] at hg; simp at hg
    · by_cases h5 : hh = true ∧ n > 2
      · rw [if_pos h5] at hg
        rcases List.mem_append.1 hg with hg | hg
        · rw [List.mem_singleton] at hg; subst hg
          have := rotated_perm (n - 1) 0 (by omega)
          rw [map0] at this
          exact tailp _ _ this (by omega)
        · by_cases h6 : n > 3
          · rw [if_pos h6, List.mem_singleton] at hg; subst hg
            have := reflected_perm (n - 1) 0 (by omega)
            rw [map0] at this
            exact tailp _ _ this (by omega)
          · rw [if_neg h6] at hg; simp at hg
      · rw [if_neg h5] at hg; simp at hg
  · rw [if_neg h1] at hg; simp at hg

/-- **C36.** Every element of the group generated by the returned permutations maps each list of polynomials to itself; a list with one
polynomial (the objective) is therefore fixed. -/
theorem identifySymmetry_sound (n : ℕ) (lsts : List (List (Rep K))) (hh : Bool) (hl : ∀ l ∈ lsts, ∀ r ∈ l, RepArity n r)
    (gens : List (List ℕ)) (h : identifySymmetry n lsts hh = .ok gens) :
    (∀ g ∈ gens, g.Perm (List.range n)) ∧ ∀ g, Generated n gens g → ∀ l ∈ lsts, ∀ r ∈ l, permRep g r ∈ l := by
  unfold identifySymmetry at h
  by_cases he : lsts.all List.isEmpty = true
  · rw [if_pos he] at h; cases h
  · rw [if_neg he] at h
    have h := (Except.ok.inj h).symm
    have hgen : (∀ g ∈ gens, g.Perm (List.range n)) ∧ ∀ g ∈ gens, ∀ l ∈ lsts, ∀ r ∈ l, permRep g r ∈ l := by
      subst h
      by_cases hv : ((candidates n hh).filter fun g => lsts.all fun l => checkSymmetry l g).isEmpty = true
      · simp only [if_pos hv, List.mem_singleton]
        refine ⟨fun g hg => hg ▸ List.Perm.refl _, ?_⟩
        rintro g rfl l hl' r hr
        rw [permRep_one (hl l hl' r hr)]; exact hr
      · simp only [if_neg hv]
        refine ⟨fun g hg => candidates_perm n hh g (List.mem_filter.1 hg).1, ?_⟩
        intro g hg l hl' r hr
        have h1 := List.mem_filter.1 hg
        have h2 := List.all_eq_true.1 h1.2 l hl'
        exact (checkSymmetry_iff l (hl l hl') g (candidates_perm n hh g h1.1)).1 h2 r hr
    refine ⟨hgen.1, ?_⟩
    intro g hg
    induction hg with
    | one => intro l hl' r hr; rw [permRep_one (hl l hl' r hr)]; exact hr
    | gen p hp => exact hgen.2 p hp
    | mul p q hp hq h1 h2 =>
      intro l hl' r hr
      rw [permRep_mul (hp.perm hgen.1) (hq.perm hgen.1)]
      exact h1 l hl' _ (h2 l hl' r hr)
    | inv p q hp hq hpq h1 =>
      intro l hl' r hr
      have hpp := hp.perm hgen.1
      -- `permRep p` is injective on the finite set of the list, hence onto it
      have himg : (l.toFinset.image (permRep p)) = l.toFinset := by
        apply Finset.eq_of_subset_of_card_le
        · intro s hs
          obtain ⟨u, hu, rfl⟩ := Finset.mem_image.1 hs
          rw [List.mem_toFinset] at hu ⊢
          exact h1 l hl' u hu
        · rw [Finset.card_image_of_injOn]
          intro a ha b hb hab
          have ha : a ∈ l := by simpa using ha
          have hb : b ∈ l := by simpa using hb
          exact permRep_injective hpp (hl l hl' a ha) (hl l hl' b hb) hab
      have : r ∈ l.toFinset.image (permRep p) := by rw [himg]; simpa using hr
      obtain ⟨s, hs, hsr⟩ := Finset.mem_image.1 this
      have hs : s ∈ l := by simpa using hs
      have hqp : papply q p = List.range n := by
        obtain ⟨p', hp', h3, h4⟩ := exists_inv hpp
        have e : q = p' := by
          have h5 : papply p' (papply p q) = papply (papply p' p) q := papply_papply_perm hp' hpp q
          rw [hpq, h4] at h5
          have hq1 : papply (List.range n) q = q := IsPermGroup.papply_one (by simpa using hq.length_eq)
          have hp1 : papply p' (List.range n) = p' := by
            unfold papply
            conv_rhs => rw [← List.map_id p']
            apply List.map_congr_left
            intro i hi
            have : i < n := by simpa using hp'.mem_iff.1 hi
            rw [List.getD_eq_getElem?_getD, List.getElem?_range this]; rfl
          rw [hp1, hq1] at h5
          exact h5.symm
        rw [e]; exact h4
      rw [← hsr, ← permRep_mul hq hpp, hqp, permRep_one (hl l hl' s hs)]
      exact hs

/-- **C36.** A candidate permutation is used exactly when it preserves every list: no symmetry among the candidates is missed, and none is
used without being a symmetry. -/
theorem identifySymmetry_complete (n : ℕ) (lsts : List (List (Rep K))) (hh : Bool) (hl : ∀ l ∈ lsts, ∀ r ∈ l, RepArity n r)
    (gens : List (List ℕ)) (h : identifySymmetry n lsts hh = .ok gens) (g : List ℕ) (hg : g ∈ candidates n hh) :
    g ∈ gens ↔ ∀ l ∈ lsts, ∀ r ∈ l, permRep g r ∈ l := by
  have hp := candidates_perm n hh g hg
  constructor
  · intro hm
    exact fun l hl' r hr => (identifySymmetry_sound n lsts hh hl gens h).2 g (.gen g hm) l hl' r hr
  · intro hs
    unfold identifySymmetry at h
    by_cases he : lsts.all List.isEmpty = true
    · rw [if_pos he] at h; cases h
    · rw [if_neg he] at h
      have h := (Except.ok.inj h).symm
      have hm : g ∈ (candidates n hh).filter fun g => lsts.all fun l => checkSymmetry l g := by
        rw [List.mem_filter]
        refine ⟨hg, List.all_eq_true.2 ?_⟩
        intro l hl'
        exact (checkSymmetry_iff l (hl l hl') g hp).2 (hs l hl')
      subst h
      have hv : ¬ ((candidates n hh).filter fun g => lsts.all fun l => checkSymmetry l g).isEmpty = true := by
        intro hv
        rw [List.isEmpty_iff] at hv
        rw [hv] at hm; simp at hm
      simp only [if_neg hv]
      exact hm

/-- `a + b + c - 3` with the constraints `2a + b, 2b + c, 2c + a`: only the rotation is found (the example of the docstring,
homogenised). -/
example : identifySymmetry 4 [[({([1,0,0,0],1), ([0,1,0,0],1), ([0,0,1,0],1), ([0,0,0,1],-3)} : Rep ℤ)],
    [{([1,0,0,0],2), ([0,1,0,0],1)}, {([0,1,0,0],2), ([0,0,1,0],1)}, {([0,0,1,0],2), ([1,0,0,0],1)}]] true = .ok [[1, 2, 0, 3]] := by decide +kernel

/-- **C36 boundary.** With no polynomial at all the function raises. -/
theorem identifySymmetry_empty (n : ℕ) (hh : Bool) : identifySymmetry n ([[], []] : List (List (Rep K))) hh = .error .typeError := rfl

end Verif.Shared
