import Mathlib.Data.List.Nodup

/-!
# Python dictionaries as insertion-ordered association lists

Shared vocabulary.  `dset` is `d[k] = v` (overwrites in place, otherwise appends), `dget` is `d.get(k)`,
`ddel` is `del d[k]` for a present key.  Hashing is not modelled: key equality is decidable equality.
-/

namespace Verif

variable {κ ν : Type*} [DecidableEq κ]

/-- `d[k] = v`. -/
def dset : List (κ × ν) → κ → ν → List (κ × ν)
  | [], k, v => [(k, v)]
  | (k', v') :: t, k, v => if k' = k then (k, v) :: t else (k', v') :: dset t k v

/-- `d.get(k)`. -/
def dget : List (κ × ν) → κ → Option ν
  | [], _ => none
  | (k', v') :: t, k => if k' = k then some v' else dget t k

/-- `del d[k]` when `k` is present (and the identity otherwise). -/
def ddel (d : List (κ × ν)) (k : κ) : List (κ × ν) := d.filter fun e => decide (e.1 ≠ k)

/-- the keys, in insertion order -/
def dkeys (d : List (κ × ν)) : List κ := d.map Prod.fst

/-- `dict(pairs)` / a dict comprehension: later pairs overwrite earlier ones. -/
def dictOf (l : List (κ × ν)) : List (κ × ν) := l.foldl (fun d e => dset d e.1 e.2) []

theorem dget_dset (d : List (κ × ν)) (k : κ) (v : ν) (k' : κ) :
    dget (dset d k v) k' = if k = k' then some v else dget d k' := by
  induction d with
  | nil => simp [dset, dget]
  | cons e t ih =>
    obtain ⟨k0, v0⟩ := e
    by_cases h : k0 = k
    · subst h; by_cases h2 : k0 = k' <;> simp [dset, dget, h2]
    · by_cases h2 : k = k'
      · subst h2; simp [dset, dget, h, ih]
      · simp [dset, dget, h, ih, h2]

theorem mem_dkeys_dset (d : List (κ × ν)) (k : κ) (v : ν) (k' : κ) :
    k' ∈ dkeys (dset d k v) ↔ k' = k ∨ k' ∈ dkeys d := by
  induction d with
  | nil => simp [dset, dkeys]
  | cons e t ih =>
    obtain ⟨k0, v0⟩ := e
    simp only [dkeys, List.map_cons, List.mem_cons] at ih ⊢
    by_cases h : k0 = k
    · subst h; simp [dset]
    · simp only [dset, h, if_false, List.map_cons, List.mem_cons, ih]
      constructor
      · rintro (h1 | h1 | h1) <;> simp [h1]
      · rintro (h1 | h1 | h1) <;> simp [h1]

theorem dkeys_nodup_dset (d : List (κ × ν)) (k : κ) (v : ν) (h : (dkeys d).Nodup) :
    (dkeys (dset d k v)).Nodup := by
  induction d with
  | nil => simp [dset, dkeys]
  | cons e t ih =>
    obtain ⟨k0, v0⟩ := e
    simp only [dkeys, List.map_cons, List.nodup_cons] at h
    by_cases hk : k0 = k
    · subst hk; simpa [dset, dkeys] using h
    · simp only [dset, hk, if_false, dkeys, List.map_cons, List.nodup_cons]
      refine ⟨?_, ih h.2⟩
      intro hm
      rcases (mem_dkeys_dset t k v k0).1 hm with h1 | h1
      · exact hk h1
      · exact h.1 h1

theorem dget_eq_none_iff (d : List (κ × ν)) (k : κ) : dget d k = none ↔ k ∉ dkeys d := by
  induction d with
  | nil => simp [dget, dkeys]
  | cons e t ih =>
    obtain ⟨k0, v0⟩ := e
    simp only [dkeys, List.map_cons, List.mem_cons, not_or] at ih ⊢
    by_cases h : k0 = k
    · subst h; simp [dget]
    · simp only [dget, h, if_false, ih]
      constructor
      · intro h1; exact ⟨fun h2 => h h2.symm, h1⟩
      · exact fun h1 => h1.2

theorem dget_eq_some_iff (d : List (κ × ν)) (hn : (dkeys d).Nodup) (k : κ) (v : ν) :
    dget d k = some v ↔ (k, v) ∈ d := by
  induction d with
  | nil => simp [dget]
  | cons e t ih =>
    obtain ⟨k0, v0⟩ := e
    simp only [dkeys, List.map_cons, List.nodup_cons] at hn
    by_cases h : k0 = k
    · subst h
      simp only [dget, if_true, Option.some.injEq, List.mem_cons, Prod.mk.injEq, true_and]
      constructor
      · intro h1; exact Or.inl h1.symm
      · rintro (h1 | h1)
        · exact h1.symm
        · exact absurd (List.mem_map_of_mem (f := Prod.fst) h1) hn.1
    · simp only [dget, h, if_false, ih hn.2, List.mem_cons, Prod.mk.injEq]
      constructor
      · exact Or.inr
      · rintro (h1 | h1)
        · exact absurd h1.1.symm h
        · exact h1

theorem dget_ddel (d : List (κ × ν)) (k k' : κ) :
    dget (ddel d k) k' = if k = k' then none else dget d k' := by
  induction d with
  | nil => simp [ddel, dget]
  | cons e t ih =>
    obtain ⟨k0, v0⟩ := e
    unfold ddel at ih ⊢
    by_cases h : k0 = k
    · subst h
      simp only [List.filter_cons, ne_eq, not_true, decide_false, Bool.false_eq_true, if_false, ih]
      by_cases h2 : k0 = k' <;> simp [h2, dget]
    · simp only [List.filter_cons, ne_eq, h, not_false_eq_true, decide_true, if_true]
      by_cases h2 : k = k'
      · subst h2; simp only [dget, h, if_false, ih]
      · by_cases h3 : k0 = k'
        · simp [dget, h2, h3]
        · simpa [dget, h2, h3] using ih

theorem dkeys_nodup_ddel (d : List (κ × ν)) (k : κ) (h : (dkeys d).Nodup) :
    (dkeys (ddel d k)).Nodup := by
  unfold ddel dkeys at *
  exact h.sublist (List.Sublist.map _ List.filter_sublist)

/-- folding `dset` keeps the keys distinct -/
theorem dkeys_nodup_foldl_dset (l : List (κ × ν)) :
    ∀ d : List (κ × ν), (dkeys d).Nodup → (dkeys (l.foldl (fun d e => dset d e.1 e.2) d)).Nodup := by
  induction l with
  | nil => intro d h; simpa using h
  | cons e t ih => intro d h; exact ih _ (dkeys_nodup_dset d e.1 e.2 h)

theorem dkeys_nodup_dictOf (l : List (κ × ν)) : (dkeys (dictOf l)).Nodup :=
  dkeys_nodup_foldl_dset l [] (by simp [dkeys])

theorem dget_foldl_dset (l : List (κ × ν)) (k : κ) :
    ∀ d : List (κ × ν), dget (l.foldl (fun d e => dset d e.1 e.2) d) k
      = (dget l.reverse k).or (dget d k) := by
  have happ : ∀ (a b : List (κ × ν)), dget (a ++ b) k = (dget a k).or (dget b k) := by
    intro a b
    induction a with
    | nil => simp [dget]
    | cons e t ih =>
      obtain ⟨k0, v0⟩ := e
      by_cases h : k0 = k <;> simp [dget, h, ih]
  induction l with
  | nil => intro d; simp [dget]
  | cons e t ih =>
    intro d
    rw [List.foldl_cons, ih, List.reverse_cons, happ, dget_dset]
    obtain ⟨k0, v0⟩ := e
    by_cases h : k0 = k <;> simp [dget, h]

/-- the value stored by `dict(pairs)` is the last one given for the key -/
theorem dget_dictOf (l : List (κ × ν)) (k : κ) : dget (dictOf l) k = dget l.reverse k := by
  unfold dictOf; rw [dget_foldl_dset]; simp [dget]

theorem dget_dictOf_of_nodup (l : List (κ × ν)) (h : (dkeys l).Nodup) (k : κ) :
    dget (dictOf l) k = dget l k := by
  rw [dget_dictOf]
  have hr : (dkeys l.reverse).Nodup := by
    unfold dkeys at *; rw [List.map_reverse]; exact List.nodup_reverse.mpr h
  apply Option.ext; intro v
  rw [dget_eq_some_iff _ hr, dget_eq_some_iff _ h, List.mem_reverse]

end Verif
