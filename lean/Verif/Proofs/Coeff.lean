import Verif.Model.Coeff
import Verif.Proofs.Monomials
import Mathlib.Data.Finset.Card
import Mathlib.Data.Finset.Image
import Mathlib.Data.List.Perm.Basic
import Mathlib.Algebra.BigOperators.Group.List.Basic

set_option linter.unusedSectionVars false

namespace Verif
namespace Coeff

variable {K : Type*} [DecidableEq K]

/-- A well-formed coefficient dictionary: distinct keys of length `nvars`. -/
structure WF (c : Coeff K) : Prop where
  nodup : (dkeys c.coeffs).Nodup
  length : ∀ kv ∈ c.coeffs, kv.1.length = c.nvars

theorem call_eq_of_mem [Zero K] {c : Coeff K} (h : c.WF) {k : List ℕ} {v : K} (hm : (k, v) ∈ c.coeffs) :
    c.call k = v := by
  unfold call; rw [(dget_eq_some_iff _ h.nodup k v).2 hm]; rfl

theorem mem_of_call_ne_zero [Zero K] {c : Coeff K} (h : c.WF) {k : List ℕ} (hk : c.call k ≠ 0) :
    (k, c.call k) ∈ c.coeffs := by
  unfold call at *
  cases hd : dget c.coeffs k with
  | none => rw [hd] at hk; exact absurd rfl hk
  | some v => exact (dget_eq_some_iff _ h.nodup k v).1 hd

theorem papply_injective {n : ℕ} {p : List ℕ} (hp : p.Perm (List.range n)) {a b : List ℕ}
    (ha : a.length = n) (hb : b.length = n) (h : papply p a = papply p b) : a = b := by
  apply List.ext_getElem (by rw [ha, hb])
  intro i h1 h2
  have hi : i ∈ p := hp.mem_iff.2 (by rw [List.mem_range]; omega)
  obtain ⟨j, hj⟩ := List.mem_iff_getElem?.1 hi
  have := congrArg (fun l => l[j]?) h
  simp only [papply, List.getElem?_map, hj, Option.map_some, Option.some.injEq] at this
  simpa [List.getD_eq_getElem?_getD, h1, h2] using this

/-- One generator: the code's check over the stored keys is equivalent to invariance at every exponent
tuple (finite injective self-map of the support). -/
theorem check_iff_invariant [Zero K] (c : Coeff K) (h : c.WF) (p : List ℕ) (hp : p.Perm (List.range c.nvars)) :
    (∀ kv ∈ c.coeffs, c.call (papply p kv.1) = kv.2) ↔
    (∀ m : List ℕ, m.length = c.nvars → c.call (papply p m) = c.call m) := by
  constructor
  · intro hc m hm
    by_cases h0 : c.call m = 0
    · by_contra hne
      rw [h0] at hne
      -- the support as a finite set
      let S : Finset (List ℕ) := ((c.coeffs.filter fun kv => decide (kv.2 ≠ 0)).map Prod.fst).toFinset
      have hS : ∀ k, k ∈ S ↔ c.call k ≠ 0 := by
        intro k
        simp only [S, List.mem_toFinset, List.mem_map, List.mem_filter, decide_eq_true_eq]
        constructor
        · rintro ⟨⟨k', v⟩, ⟨h1, h2⟩, rfl⟩; rw [call_eq_of_mem h h1]; exact h2
        · intro hk; exact ⟨(k, c.call k), ⟨mem_of_call_ne_zero h hk, hk⟩, rfl⟩
      have hSlen : ∀ k ∈ S, k.length = c.nvars := by
        intro k hk; exact h.length _ (mem_of_call_ne_zero h ((hS k).1 hk))
      have hmaps : ∀ k ∈ S, papply p k ∈ S := by
        intro k hk
        rw [hS] at hk ⊢
        rw [hc _ (mem_of_call_ne_zero h hk)]; exact hk
      have hinj : Set.InjOn (papply p) (S : Set (List ℕ)) := by
        intro a ha b hb hab
        exact papply_injective hp (hSlen a ha) (hSlen b hb) hab
      have himg : S.image (papply p) = S := by
        apply Finset.eq_of_subset_of_card_le
        · intro k hk; rw [Finset.mem_image] at hk
          obtain ⟨a, ha, rfl⟩ := hk; exact hmaps a ha
        · rw [Finset.card_image_of_injOn hinj]
      have hmS : papply p m ∈ S := (hS _).2 hne
      rw [← himg, Finset.mem_image] at hmS
      obtain ⟨a, ha, hab⟩ := hmS
      have : a = m := papply_injective hp (hSlen a ha) hm hab
      subst this
      exact (hS _).1 ha h0
    · exact hc _ (mem_of_call_ne_zero h h0)
  · intro hi kv hkv
    rw [hi kv.1 (h.length kv hkv)]
    exact call_eq_of_mem h hkv

/-- The permutation group generated by a list of permutations of `n` points, as a set. -/
inductive Generated (n : ℕ) (gens : List (List ℕ)) : List ℕ → Prop
  | one : Generated n gens (List.range n)
  | gen (p : List ℕ) : p ∈ gens → Generated n gens p
  | mul (p q : List ℕ) : Generated n gens p → Generated n gens q → Generated n gens (papply p q)
  | inv (p q : List ℕ) : Generated n gens p → q.Perm (List.range n) → papply p q = List.range n →
      Generated n gens q

theorem perm_papply {n : ℕ} {p q : List ℕ} (hp : p.Perm (List.range n)) (hq : q.Perm (List.range n)) :
    (papply p q).Perm (List.range n) := by
  have hl : q.length = n := by simpa using hq.length_eq
  exact (papply_perm p q (by rw [hl]; exact hp)).trans hq

theorem Generated.perm {n : ℕ} {gens : List (List ℕ)} (hg : ∀ p ∈ gens, p.Perm (List.range n)) {g : List ℕ}
    (h : Generated n gens g) : g.Perm (List.range n) := by
  induction h with
  | one => exact List.Perm.refl _
  | gen p hp => exact hg p hp
  | mul p q _ _ h1 h2 => exact perm_papply h1 h2
  | inv p q _ hq _ _ => exact hq

theorem papply_papply_perm {n : ℕ} {p q : List ℕ} (hp : p.Perm (List.range n)) (hq : q.Perm (List.range n))
    (m : List ℕ) : papply p (papply q m) = papply (papply p q) m := by
  apply papply_papply
  intro i hi
  have h1 : i < n := by simpa using hp.mem_iff.1 hi
  have h2 : q.length = n := by simpa using hq.length_eq
  omega

theorem invariant_of_generated [Zero K] (c : Coeff K) (gens : List (List ℕ))
    (hg : ∀ p ∈ gens, p.Perm (List.range c.nvars))
    (hinv : ∀ p ∈ gens, ∀ m : List ℕ, m.length = c.nvars → c.call (papply p m) = c.call m)
    {g : List ℕ} (h : Generated c.nvars gens g) :
    ∀ m : List ℕ, m.length = c.nvars → c.call (papply g m) = c.call m := by
  induction h with
  | one => intro m hm; rw [IsPermGroup.papply_one hm]
  | gen p hp => exact hinv p hp
  | mul p q hp hq h1 h2 =>
    intro m hm
    have hqp := hq.perm hg
    rw [← papply_papply_perm (hp.perm hg) hqp, h1 _ (by rw [papply_length]; simpa using hqp.length_eq), h2 m hm]
  | inv p q hp hq hpq h1 =>
    intro m hm
    have hl : (papply q m).length = c.nvars := by rw [papply_length]; simpa using hq.length_eq
    rw [← h1 _ hl, papply_papply_perm (hp.perm hg) hq, hpq, IsPermGroup.papply_one hm]

/-! ### operations -/

theorem dkeys_cons {κ ν : Type*} [DecidableEq κ] (k : κ) (v : ν) (t : List (κ × ν)) :
    dkeys ((k, v) :: t) = k :: dkeys t := rfl


theorem dget_perm {κ ν : Type*} [DecidableEq κ] {l l' : List (κ × ν)} (h : l.Perm l') (hn : (dkeys l).Nodup)
    (k : κ) : dget l k = dget l' k := by
  have hn' : (dkeys l').Nodup := (h.map Prod.fst).nodup_iff.1 hn
  apply Option.ext; intro v
  rw [dget_eq_some_iff _ hn, dget_eq_some_iff _ hn', h.mem_iff]

theorem opFold_spec [Zero K] (self : Coeff K) (op : K → K → K) :
    ∀ (other : List (List ℕ × K)) (acc : List (List ℕ × K)), (dkeys other).Nodup → (dkeys acc).Nodup →
      (∀ k ∈ dkeys other, (dget acc k).getD 0 = self.call k) →
      (dkeys (other.foldl (opStep self op) acc)).Nodup ∧
      (∀ k, (dget (other.foldl (opStep self op) acc) k).getD 0 =
        if k ∈ dkeys other then op (self.call k) ((dget other k).getD 0) else (dget acc k).getD 0) ∧
      ((∀ kv ∈ acc, kv.2 ≠ 0) → ∀ kv ∈ other.foldl (opStep self op) acc, kv.2 ≠ 0)
  | [], acc, _, ha, _ => by simp [dkeys] at *; exact ha
  | (k0, v0) :: other, acc, hn, ha, hacc => by
      simp only [dkeys, List.map_cons, List.nodup_cons] at hn
      rw [List.foldl_cons]
      set acc' := opStep self op acc (k0, v0) with hacc'
      have hget : ∀ k, (dget acc' k).getD 0 = if k0 = k then op (self.call k0) v0 else (dget acc k).getD 0 := by
        intro k
        have h0 := hacc k0 (by simp [dkeys])
        rw [hacc']; unfold opStep
        simp only
        split_ifs with h1 h2 h2 h3 h3
        · subst h2; rw [dget_ddel]; simp [h1.1]
        · rw [dget_ddel]; simp [h2]
        · subst h3; rw [dget_dset]; simp
        · rw [dget_dset]; simp [h3]
        · subst h3
          rw [h0]
          rw [not_not] at h2
          rw [h2]
          by_contra hne; exact h1 ⟨h2, hne⟩
        · rfl
      have hnd : (dkeys acc').Nodup := by
        rw [hacc']; unfold opStep; simp only
        split_ifs
        · exact dkeys_nodup_ddel _ _ ha
        · exact dkeys_nodup_dset _ _ _ ha
        · exact ha
      have hnz : (∀ kv ∈ acc, kv.2 ≠ 0) → ∀ kv ∈ acc', kv.2 ≠ 0 := by
        intro hz kv hkv
        rw [hacc'] at hkv; unfold opStep at hkv; simp only at hkv
        split_ifs at hkv with h1 h2
        · exact hz kv (List.mem_of_mem_filter hkv)
        · obtain ⟨a, b⟩ := kv
          have h3 := (dget_eq_some_iff _ (dkeys_nodup_dset _ _ _ ha) a b).2 hkv
          rw [dget_dset] at h3
          split_ifs at h3 with h4
          · simp only [Option.some.injEq] at h3; simp only; rw [← h3]; exact h2
          · exact hz _ ((dget_eq_some_iff _ ha a b).1 h3)
        · exact hz kv hkv
      have hacc2 : ∀ k ∈ dkeys other, (dget acc' k).getD 0 = self.call k := by
        intro k hk
        rw [hget]
        have hne : k0 ≠ k := by rintro rfl; exact hn.1 hk
        rw [if_neg hne]
        exact hacc k (by simp only [dkeys, List.map_cons, List.mem_cons]; exact Or.inr hk)
      obtain ⟨r1, r2, r3⟩ := opFold_spec self op other acc' hn.2 hnd hacc2
      refine ⟨r1, ?_, fun hz => r3 (hnz hz)⟩
      intro k
      rw [r2 k, hget]
      by_cases h0 : k0 = k
      · subst h0
        have : k0 ∉ dkeys other := hn.1
        simp [this, dkeys_cons, dget]
      · have h0' : ¬ k = k0 := fun h => h0 h.symm
        simp [dkeys_cons, dget, h0, h0']

end Coeff
end Verif
