import Verif.Model.Monomials
import Mathlib.Algebra.BigOperators.Group.List.Basic
import Mathlib.Data.List.Nodup
import Mathlib.Data.List.Perm.Basic
import Mathlib.Data.List.Pairwise
import Mathlib.Tactic.Linarith

namespace Verif

/-! ### generate_partitions -/

theorem mem_genTuples (d : ℕ) : ∀ (rem : ℕ) (cur : List ℕ) (s : ℕ) (t : List ℕ), s ≤ d →
    (t ∈ genTuples d rem cur s ↔ ∃ u, t = cur ++ u ∧ u.length = rem ∧ s + u.sum ≤ d)
  | 0, cur, s, t, hs => by
      simp only [genTuples, List.mem_singleton]
      constructor
      · rintro rfl; exact ⟨[], by simp, rfl, by simpa using hs⟩
      · rintro ⟨u, rfl, hu, -⟩; simp [List.length_eq_zero_iff.mp hu]
  | rem + 1, cur, s, t, hs => by
      simp only [genTuples, List.mem_flatMap, List.mem_reverse, List.mem_range]
      constructor
      · rintro ⟨i, hi, ht⟩
        obtain ⟨u, rfl, hu, hsum⟩ := (mem_genTuples d rem (cur ++ [i]) (s + i) t (by omega)).1 ht
        exact ⟨i :: u, by simp, by simp [hu], by simp; omega⟩
      · rintro ⟨u, rfl, hu, hsum⟩
        cases u with
        | nil => simp at hu
        | cons i u =>
          simp only [List.length_cons, Nat.add_right_cancel_iff] at hu
          simp only [List.sum_cons] at hsum
          refine ⟨i, by omega, ?_⟩
          exact (mem_genTuples d rem (cur ++ [i]) (s + i) _ (by omega)).2 ⟨u, by simp, hu, by omega⟩

theorem append_lt_append_left_iff' (c a b : List ℕ) : c ++ a < c ++ b ↔ a < b := by
  induction c with
  | nil => simp
  | cons x c ih => simpa [List.cons_lt_cons_iff] using ih

theorem genTuples_sorted (d : ℕ) : ∀ (rem : ℕ) (cur : List ℕ) (s : ℕ), s ≤ d →
    (genTuples d rem cur s).Pairwise (fun a b => b < a)
  | 0, cur, s, _ => by simp [genTuples]
  | rem + 1, cur, s, hs => by
      simp only [genTuples]
      rw [List.pairwise_flatMap]
      constructor
      · intro i hi
        simp only [List.mem_reverse, List.mem_range] at hi
        exact genTuples_sorted d rem _ _ (by omega)
      · rw [List.pairwise_reverse]
        have := (List.pairwise_lt_range (n := d - s + 1))
        refine (List.Pairwise.and_mem.1 this).imp ?_
        rintro i j ⟨hi, hj, hij⟩ a ha b hb
        rw [List.mem_range] at hi hj
        obtain ⟨u, rfl, -, -⟩ := (mem_genTuples d rem _ _ a (by omega)).1 ha
        obtain ⟨v, rfl, -, -⟩ := (mem_genTuples d rem _ _ b (by omega)).1 hb
        rw [List.append_assoc, List.append_assoc, append_lt_append_left_iff']
        simp [List.cons_lt_cons_iff, hij]

theorem append_lt_append_of_lt : ∀ (a b c e : List ℕ), a.length = b.length → a < b → a ++ c < b ++ e
  | [], [], _, _, _, h => by simp at h
  | [], _ :: _, _, _, h, _ => by simp at h
  | _ :: _, [], _, _, h, _ => by simp at h
  | x :: a, y :: b, c, e, hl, h => by
      rw [List.cons_lt_cons_iff] at h
      rw [List.cons_append, List.cons_append, List.cons_lt_cons_iff]
      rcases h with h | ⟨rfl, h⟩
      · exact Or.inl h
      · exact Or.inr ⟨rfl, append_lt_append_of_lt a b c e (by simpa using hl) h⟩

/-! ### permutations in array form -/

theorem papply_length {α : Type*} [Inhabited α] (p : List ℕ) (m : List α) :
    (papply p m).length = p.length := by simp [papply]

theorem papply_range {α : Type*} [Inhabited α] (m : List α) : papply (List.range m.length) m = m := by
  unfold papply
  apply List.ext_getElem (by simp)
  intro i h1 h2
  simp [List.getD_eq_getElem?_getD, h2]

theorem papply_papply {α : Type*} [Inhabited α] (p q : List ℕ) (m : List α)
    (hp : ∀ i ∈ p, i < q.length) : papply p (papply q m) = papply (papply p q) m := by
  unfold papply
  rw [List.map_map]
  apply List.map_congr_left
  intro i hi
  have h := hp i hi
  simp [List.getD_eq_getElem?_getD, h]

theorem papply_perm {α : Type*} [Inhabited α] (p : List ℕ) (m : List α)
    (hp : p.Perm (List.range m.length)) : (papply p m).Perm m := by
  have h1 : (papply p m).Perm (papply (List.range m.length) m) := hp.map _
  rwa [papply_range] at h1

/-! ### max -/

theorem foldl_max_spec {α : Type*} [LinearOrder α] (l : List α) : ∀ x : α,
    (l.foldl (fun acc y => if acc < y then y else acc) x) ∈ x :: l ∧
    ∀ y ∈ x :: l, y ≤ l.foldl (fun acc y => if acc < y then y else acc) x := by
  induction l with
  | nil => intro x; simp
  | cons a l ih =>
    intro x
    simp only [List.foldl_cons]
    obtain ⟨h1, h2⟩ := ih (if x < a then a else x)
    constructor
    · simp only [List.mem_cons] at h1 ⊢
      rcases h1 with h1 | h1
      · rw [h1]; split_ifs <;> simp
      · exact Or.inr (Or.inr h1)
    · intro y hy
      simp only [List.mem_cons] at hy
      have h3 := h2 (if x < a then a else x) (by simp)
      rcases hy with rfl | rfl | hy
      · refine le_trans ?_ h3
        split_ifs with h
        · exact le_of_lt h
        · exact le_rfl
      · refine le_trans ?_ h3
        split_ifs with h
        · exact le_rfl
        · exact not_lt.mp h
      · exact h2 y (by simp [hy])

theorem pyMax_eq_some_iff {α : Type*} [LinearOrder α] (l : List α) (x : α) :
    pyMax l = some x ↔ x ∈ l ∧ ∀ y ∈ l, y ≤ x := by
  cases l with
  | nil => simp [pyMax]
  | cons a l =>
    obtain ⟨h1, h2⟩ := foldl_max_spec l a
    simp only [pyMax, Option.some.injEq]
    constructor
    · rintro rfl; exact ⟨h1, h2⟩
    · rintro ⟨h3, h4⟩; exact le_antisymm (h4 _ h1) (h2 _ h3)

theorem pyMax_congr {α : Type*} [LinearOrder α] (l l' : List α) (h : ∀ x, x ∈ l ↔ x ∈ l') :
    pyMax l = pyMax l' := by
  apply Option.ext; intro x
  rw [pyMax_eq_some_iff, pyMax_eq_some_iff, h x]
  simp only [h]

theorem pyMax_isSome {α : Type*} [LinearOrder α] (l : List α) (h : l ≠ []) : ∃ x, pyMax l = some x := by
  cases l with
  | nil => exact absurd rfl h
  | cons a l => exact ⟨_, rfl⟩

/-! ### dictionaries built by enumeration -/

theorem dget_enumDict (l : List (List ℕ)) (h : l.Nodup) (m : List ℕ) (i : ℕ) :
    dget (MonoMgr.enumDict l) m = some i ↔ l[i]? = some m := by
  unfold MonoMgr.enumDict
  have hk : (dkeys l.zipIdx).Nodup := by
    unfold dkeys; rw [List.zipIdx_map_fst]; exact h
  rw [dget_dictOf_of_nodup _ hk, dget_eq_some_iff _ hk, List.mem_zipIdx_iff_getElem?]

theorem enumDict_length (l : List (List ℕ)) (h : l.Nodup) : (MonoMgr.enumDict l).length = l.length := by
  have key : ∀ (a : List (List ℕ × ℕ)) (d : List (List ℕ × ℕ)), (dkeys d ++ dkeys a).Nodup →
      (a.foldl (fun d e => dset d e.1 e.2) d).length = d.length + a.length := by
    intro a
    induction a with
    | nil => intro d _; simp
    | cons e a ih =>
      intro d hn
      have hfresh : ∀ d : List (List ℕ × ℕ), e.1 ∉ dkeys d → dset d e.1 e.2 = d ++ [e] := by
        intro d
        induction d with
        | nil => intro _; rfl
        | cons x d ih2 =>
          intro hne
          simp only [dkeys, List.map_cons, List.mem_cons, not_or] at hne
          obtain ⟨x1, x2⟩ := x
          simp only [dset]
          rw [if_neg (fun h => hne.1 h.symm), ih2 hne.2]; rfl
      have hne : e.1 ∉ dkeys d := by
        intro hm
        rw [List.nodup_append] at hn
        exact hn.2.2 _ hm e.1 (by simp [dkeys]) rfl
      rw [List.foldl_cons, ih, hfresh d hne]
      · simp; omega
      · rw [hfresh d hne]; simpa [dkeys] using hn
  unfold MonoMgr.enumDict dictOf
  rw [key _ [] (by simp only [dkeys, List.map_nil, List.nil_append, List.zipIdx_map_fst]; exact h)]
  simp

/-! ### groups of permutations -/

/-- `G` lists (once each) the elements of a permutation group on `n` points, in array form.
`papply p q` is SymPy's product `p*q` (apply `p` first). -/
structure IsPermGroup (n : ℕ) (G : List (List ℕ)) : Prop where
  nodup : G.Nodup
  perm : ∀ p ∈ G, p.Perm (List.range n)
  one : List.range n ∈ G
  mul : ∀ p ∈ G, ∀ q ∈ G, papply p q ∈ G
  inv : ∀ p ∈ G, ∃ q ∈ G, papply p q = List.range n ∧ papply q p = List.range n

namespace IsPermGroup

variable {n : ℕ} {G : List (List ℕ)} (hG : IsPermGroup n G)
include hG

theorem length_eq {p : List ℕ} (hp : p ∈ G) : p.length = n := by
  simpa using (hG.perm p hp).length_eq

theorem lt_of_mem {p : List ℕ} (hp : p ∈ G) : ∀ i ∈ p, i < n := by
  intro i hi; simpa using (hG.perm p hp).mem_iff.1 hi

theorem papply_papply' {α : Type*} [Inhabited α] {p q : List ℕ} (hp : p ∈ G) (hq : q ∈ G) (m : List α) :
    papply p (papply q m) = papply (papply p q) m :=
  papply_papply p q m (by intro i hi; rw [hG.length_eq hq]; exact hG.lt_of_mem hp i hi)

omit hG in
theorem papply_one {α : Type*} [Inhabited α] {m : List α} (hm : m.length = n) :
    papply (List.range n) m = m := by rw [← hm]; exact papply_range m

theorem papply_perm' {α : Type*} [Inhabited α] {p : List ℕ} (hp : p ∈ G) {m : List α} (hm : m.length = n) :
    (papply p m).Perm m := papply_perm p m (by rw [hm]; exact hG.perm p hp)

/-- orbits are equivalence classes -/
theorem orbit_eq {m m' : List ℕ} (hm : m.length = n) (h : m' ∈ G.map fun p => papply p m) (t : List ℕ) :
    t ∈ (G.map fun p => papply p m') ↔ t ∈ (G.map fun p => papply p m) := by
  simp only [List.mem_map] at h ⊢
  obtain ⟨p, hp, rfl⟩ := h
  constructor
  · rintro ⟨q, hq, rfl⟩
    exact ⟨papply q p, hG.mul q hq p hp, (hG.papply_papply' hq hp m).symm⟩
  · rintro ⟨q, hq, rfl⟩
    obtain ⟨p', hp', -, h2⟩ := hG.inv p hp
    refine ⟨papply q p', hG.mul q hq p' hp', ?_⟩
    rw [← hG.papply_papply' hq hp', hG.papply_papply' hp' hp, h2, IsPermGroup.papply_one hm]

end IsPermGroup

namespace MonoMgr

/-- The invariant established by `__init__` (monomials.py 53-60): the group acts on `nvars` points. -/
def Valid (M : MonoMgr) : Prop := IsPermGroup M.nvars M.elements

theorem self_mem_permute {M : MonoMgr} (hM : M.Valid) {m : List ℕ} (hm : m.length = M.nvars) :
    m ∈ M.permute m := by
  unfold permute; rw [List.mem_map]
  exact ⟨_, hM.one, IsPermGroup.papply_one hm⟩

theorem length_of_mem_permute {M : MonoMgr} (hM : M.Valid) {m t : List ℕ} (ht : t ∈ M.permute m) :
    t.length = M.nvars := by
  unfold permute at ht; rw [List.mem_map] at ht
  obtain ⟨p, hp, rfl⟩ := ht
  rw [papply_length, IsPermGroup.length_eq hM hp]

theorem sum_of_mem_permute {M : MonoMgr} (hM : M.Valid) {m t : List ℕ} (hm : m.length = M.nvars)
    (ht : t ∈ M.permute m) : t.sum = m.sum := by
  unfold permute at ht; rw [List.mem_map] at ht
  obtain ⟨p, hp, rfl⟩ := ht
  exact (IsPermGroup.papply_perm' hM hp hm).sum_eq

theorem standard_exists {M : MonoMgr} (hM : M.Valid) {m : List ℕ} (hm : m.length = M.nvars) :
    ∃ s, M.standardMonom m = some s := by
  apply pyMax_isSome
  intro h
  have := self_mem_permute hM hm
  rw [h] at this; simp at this

theorem standard_mem {M : MonoMgr} {m s : List ℕ} (h : M.standardMonom m = some s) : s ∈ M.permute m :=
  ((pyMax_eq_some_iff _ _).1 h).1

theorem standard_congr {M : MonoMgr} (hM : M.Valid) {m t : List ℕ} (hm : m.length = M.nvars)
    (ht : t ∈ M.permute m) : M.standardMonom t = M.standardMonom m :=
  pyMax_congr _ _ (hM.orbit_eq hm ht)

end MonoMgr

end Verif
