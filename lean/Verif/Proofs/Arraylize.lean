import Verif.Props.Monomials
import Mathlib.Algebra.BigOperators.Group.List.Lemmas

/-! Helper lemmas for C03 and C04. -/

namespace Verif
namespace MonoMgr

variable {K : Type*}

/-- The coefficient of the monomial `m` (specification). -/
def coeffAt [Zero K] (p : List (List ℕ × K)) (m : List ℕ) : K := (dget p m).getD 0

/-- A polynomial in `n` variables: distinct monomials of length `n`, nonzero coefficients. -/
structure IsPoly [Zero K] (n : ℕ) (p : List (List ℕ × K)) : Prop where
  nodup : (dkeys p).Nodup
  length : ∀ t ∈ p, t.1.length = n
  ne_zero : ∀ t ∈ p, t.2 ≠ 0

/-! ### helper lemmas -/

section helpers
variable [AddCommMonoid K]

theorem getD_set (arr : List K) (v w : ℕ) (x : K) (hv : v < arr.length) :
    (arr.set v x).getD w 0 = if v = w then x else arr.getD w 0 := by
  simp only [List.getD_eq_getElem?_getD, List.getElem?_set]
  by_cases h : v = w
  · subst h; simp [hv]
  · simp [h]

/-- the overwriting loop -/
theorem fold_set_getD (d : List (List ℕ × ℕ)) (s : List ℕ) (v : ℕ) (hs : dget d s = some v)
    (hinj : ∀ t, dget d t = some v → t = s) :
    ∀ (ts : List (List ℕ × K)) (arr : List K), (dkeys ts).Nodup →
      (∀ t w, dget d t = some w → w < arr.length) →
      (ts.foldl (setStep d) arr).getD v 0 = (dget ts s).getD (arr.getD v 0)
  | [], arr, _, _ => by simp [dget]
  | t :: ts, arr, hn, hb => by
      obtain ⟨m, c⟩ := t
      have hn' : (dkeys ts).Nodup := by
        simp only [dkeys, List.map_cons, List.nodup_cons] at hn; exact hn.2
      have hnot : m ∉ dkeys ts := by
        simp only [dkeys, List.map_cons, List.nodup_cons] at hn; exact hn.1
      rw [List.foldl_cons]
      cases hm : dget d m with
      | none =>
        have hne : m ≠ s := by rintro rfl; rw [hs] at hm; simp at hm
        have e : setStep d arr (m, c) = arr := by simp [setStep, hm]
        rw [e, fold_set_getD d s v hs hinj ts arr hn' hb]
        simp [dget, hne]
      | some w =>
        have e : setStep d arr (m, c) = arr.set w c := by simp [setStep, hm]
        rw [e, fold_set_getD d s v hs hinj ts _ hn' (by simpa using hb)]
        simp only [getD_set _ _ _ _ (hb m w hm)]
        by_cases hwv : w = v
        · subst hwv
          have : m = s := hinj m hm
          subst this
          rw [(dget_eq_none_iff ts m).2 hnot]; simp [dget]
        · have hne : m ≠ s := by
            rintro rfl; rw [hs] at hm; exact hwv (Option.some.inj hm).symm
          simp [dget, hne, hwv]

omit [AddCommMonoid K] in
theorem fold_set_length (d : List (List ℕ × ℕ)) :
    ∀ (ts : List (List ℕ × K)) (arr : List K),
      (ts.foldl (setStep d) arr).length = arr.length
  | [], arr => rfl
  | t :: ts, arr => by
      rw [List.foldl_cons, fold_set_length d ts]
      unfold setStep
      cases dget d t.1 <;> simp

/-- the accumulating inner loop -/
theorem fold_add_inner (d : List (List ℕ × ℕ)) (s : List ℕ) (v : ℕ) (hs : dget d s = some v)
    (hinj : ∀ t, dget d t = some v → t = s) (c : K) :
    ∀ (ms : List (List ℕ)) (arr : List K), (∀ t w, dget d t = some w → w < arr.length) →
      ((ms.foldl (addStep d c) arr).getD v 0
          = arr.getD v 0 + (ms.map fun m => if m = s then c else 0).sum) ∧
      (ms.foldl (addStep d c) arr).length = arr.length
  | [], arr, _ => by simp
  | m :: ms, arr, hb => by
      rw [List.foldl_cons]
      cases hm : dget d m with
      | none =>
        have hne : m ≠ s := by rintro rfl; rw [hs] at hm; simp at hm
        obtain ⟨h1, h2⟩ := fold_add_inner d s v hs hinj c ms arr hb
        have e : addStep d c arr m = arr := by simp [addStep, hm]
        rw [e]
        exact ⟨by simp only [h1]; simp [hne], h2⟩
      | some w =>
        obtain ⟨h1, h2⟩ := fold_add_inner d s v hs hinj c ms (arr.set w (arr.getD w 0 + c)) (by simpa using hb)
        have e : addStep d c arr m = arr.set w (arr.getD w 0 + c) := by simp [addStep, hm]
        rw [e]
        refine ⟨?_, by simp only [h2]; simp⟩
        simp only [h1]
        rw [getD_set _ _ _ _ (hb m w hm)]
        by_cases hwv : w = v
        · subst hwv
          have : m = s := hinj m hm
          subst this
          simp [add_assoc]
        · have hne : m ≠ s := by
            rintro rfl; rw [hs] at hm; exact hwv (Option.some.inj hm).symm
          simp [hne, hwv]

theorem fold_add_outer (M : MonoMgr) (d : List (List ℕ × ℕ)) (s : List ℕ) (v : ℕ) (hs : dget d s = some v)
    (hinj : ∀ t, dget d t = some v → t = s) :
    ∀ (ts : List (List ℕ × K)) (arr : List K), (∀ t w, dget d t = some w → w < arr.length) →
      ((ts.foldl (fun arr t => (M.permute t.1).foldl (addStep d t.2) arr) arr).getD v 0
          = arr.getD v 0 + (ts.map fun t => ((M.permute t.1).map fun m => if m = s then t.2 else 0).sum).sum)
      ∧ (ts.foldl (fun arr t => (M.permute t.1).foldl (addStep d t.2) arr) arr).length = arr.length
  | [], arr, _ => by simp
  | t :: ts, arr, hb => by
      rw [List.foldl_cons]
      obtain ⟨h1, h2⟩ := fold_add_inner d s v hs hinj t.2 (M.permute t.1) arr hb
      obtain ⟨h3, h4⟩ := fold_add_outer M d s v hs hinj ts _ (by rw [h2]; exact hb)
      rw [h3, h4, h1, h2]
      exact ⟨by simp [add_assoc], rfl⟩

end helpers

theorem dictMonoms_lt (M : MonoMgr) (d : ℕ) (t : List ℕ) (w : ℕ) (h : dget (M.dictMonoms d) t = some w) :
    w < (M.dictMonoms d).length := by
  rw [dictMonoms_iff] at h
  unfold dictMonoms
  rw [enumDict_length _ (invMonoms_nodup M d)]
  exact (List.getElem?_eq_some_iff.1 h).1

theorem coeffAt_repTerms [Zero K] (n : ℕ) (p : List (List ℕ × K)) (m : List ℕ) :
    coeffAt (repTerms n p) m = coeffAt p m := by
  unfold repTerms coeffAt
  cases p with
  | nil => by_cases h : List.replicate n 0 = m <;> simp [dget, h]
  | cons a l => simp

theorem repTerms_nodup [Zero K] (n : ℕ) (p : List (List ℕ × K)) (h : (dkeys p).Nodup) :
    (dkeys (repTerms n p)).Nodup := by
  unfold repTerms; cases p with
  | nil => simp [dkeys]
  | cons a l => simpa using h

/-- Entry `i` of `arraylize(poly)` is the coefficient at the `i`-th representative. -/
theorem arraylize_entry [AddCommMonoid K] (M : MonoMgr) (p : List (List ℕ × K)) (hp : (dkeys p).Nodup) :
    (M.arraylize p false).length = (M.invMonoms (totalDegree M.nvars p)).length ∧
    ∀ i s, (M.invMonoms (totalDegree M.nvars p))[i]? = some s →
      (M.arraylize p false).getD i 0 = coeffAt p s := by
  set d := totalDegree M.nvars p with hd
  constructor
  · unfold arraylize
    simp only [Bool.false_eq_true, if_false, ← hd]
    rw [fold_set_length]
    simp only [List.length_replicate]
    exact enumDict_length _ (invMonoms_nodup M d)
  · intro i s hi
    unfold arraylize
    simp only [Bool.false_eq_true, if_false, ← hd]
    rw [fold_set_getD (M.dictMonoms d) s i ((dictMonoms_iff M d s i).2 hi)]
    · rw [← coeffAt_repTerms M.nvars p s]; unfold coeffAt
      congr 1
      simp only [List.getD_eq_getElem?_getD, List.getElem?_replicate]
      split_ifs <;> simp
    · intro t ht
      rw [dictMonoms_iff, hi] at ht
      exact (Option.some.inj ht).symm
    · exact repTerms_nodup _ _ hp
    · intro t w hw; simpa using dictMonoms_lt M d t w hw

/-! ### the dictionary built by `invarraylize` -/

theorem dget_dictOf_const {κ ν : Type*} [DecidableEq κ] (l : List (κ × ν)) (k : κ) (c : ν)
    (hall : ∀ e ∈ l, e.1 = k → e.2 = c) (hex : ∃ e ∈ l, e.1 = k) : dget (dictOf l) k = some c := by
  rw [dget_dictOf]
  have : ∀ l : List (κ × ν), (∀ e ∈ l, e.1 = k → e.2 = c) → (∃ e ∈ l, e.1 = k) → dget l k = some c := by
    intro l
    induction l with
    | nil => rintro _ ⟨e, he, _⟩; simp at he
    | cons x l ih =>
      intro h1 h2
      obtain ⟨x1, x2⟩ := x
      by_cases hx : x1 = k
      · have := h1 (x1, x2) (by simp) hx
        simp only [dget, hx, if_true]; rw [← this]
      · simp only [dget, hx, if_false]
        apply ih
        · intro e he; exact h1 e (by simp [he])
        · obtain ⟨e, he, hek⟩ := h2
          simp only [List.mem_cons] at he
          rcases he with rfl | he
          · exact absurd hek hx
          · exact ⟨e, he, hek⟩
  exact this _ (by intro e he; exact hall e (List.mem_reverse.1 he))
    (by obtain ⟨e, he, hk⟩ := hex; exact ⟨e, List.mem_reverse.2 he, hk⟩)

/-- the pairs written by `invarraylize`, in order -/
def invPairs (M : MonoMgr) (array : List K) (d : ℕ) : List (List ℕ × K) :=
  (array.zip (M.invMonoms d)).flatMap fun cm => (M.permute cm.2).map fun m2 => (m2, cm.1)

theorem foldl_eq_dictOf_invPairs (M : MonoMgr) (array : List K) (d : ℕ) :
    ((array.zip (M.invMonoms d)).foldl (fun dd cm =>
      (M.permute cm.2).foldl (fun dd m2 => dset dd m2 cm.1) dd) []) = dictOf (invPairs M array d) := by
  unfold dictOf invPairs
  rw [List.foldl_flatMap]
  congr 1
  funext dd cm
  rw [List.foldl_map]

theorem dget_filter_ne_zero [Zero K] [DecidableEq K] (l : List (List ℕ × K)) (hn : (dkeys l).Nodup)
    (m : List ℕ) : coeffAt (l.filter fun t => decide (t.2 ≠ 0)) m = coeffAt l m := by
  unfold coeffAt
  have hn2 : (dkeys (l.filter fun t => decide (t.2 ≠ 0))).Nodup := by
    unfold dkeys at *
    exact hn.sublist (List.Sublist.map _ List.filter_sublist)
  cases h : dget l m with
  | none =>
    have : dget (l.filter fun t => decide (t.2 ≠ 0)) m = none := by
      rw [dget_eq_none_iff] at h ⊢
      intro hm; apply h
      unfold dkeys at *
      exact (List.Sublist.map _ List.filter_sublist).mem hm
    rw [this]
  | some c =>
    have hmem := (dget_eq_some_iff l hn m c).1 h
    by_cases hc : c = 0
    · have : dget (l.filter fun t => decide (t.2 ≠ 0)) m = none := by
        cases h2 : dget (l.filter fun t => decide (t.2 ≠ 0)) m with
        | none => rfl
        | some c2 =>
          have h3 := (dget_eq_some_iff _ hn2 m c2).1 h2
          rw [List.mem_filter] at h3
          have h4 := (dget_eq_some_iff l hn m c2).2 h3.1
          rw [h] at h4
          have h5 : c = c2 := Option.some.inj h4
          simp [← h5, hc] at h3
      rw [this]; simp [hc]
    · have : dget (l.filter fun t => decide (t.2 ≠ 0)) m = some c := by
        rw [dget_eq_some_iff _ hn2, List.mem_filter]; exact ⟨hmem, by simpa using hc⟩
      rw [this]

/-- Coefficients of `invarraylize(vec, degree)`: `vec[i]` on the orbit of the `i`-th representative,
zero at every other exponent tuple. -/
theorem invarraylize_coeff [Zero K] [DecidableEq K] (M : MonoMgr) (hM : M.Valid) (vec : List K) (d : ℕ)
    (hlen : vec.length = (M.invMonoms d).length) :
    (∀ i s, (M.invMonoms d)[i]? = some s → ∀ p ∈ M.elements,
      coeffAt (M.invarraylize vec d) (papply p s) = vec.getD i 0) ∧
    (∀ m, ¬ (m.length = M.nvars ∧ M.DegOk d m) → coeffAt (M.invarraylize vec d) m = 0) := by
  have hform : M.invarraylize vec d = (dictOf (invPairs M vec d)).filter fun t => decide (t.2 ≠ 0) := by
    unfold invarraylize; rw [foldl_eq_dictOf_invPairs]
  have hmemPairs : ∀ m c, (m, c) ∈ invPairs M vec d ↔
      ∃ (i : ℕ) (s : List ℕ), (M.invMonoms d)[i]? = some s ∧ vec[i]? = some c ∧ m ∈ M.permute s := by
    intro m c
    unfold invPairs
    simp only [List.mem_flatMap, List.mem_map, Prod.mk.injEq]
    constructor
    · rintro ⟨⟨c', s⟩, hz, m2, hm2, rfl, rfl⟩
      obtain ⟨i, hi⟩ := List.mem_iff_getElem?.1 hz
      rw [List.getElem?_zip_eq_some] at hi
      exact ⟨i, s, hi.2, hi.1, hm2⟩
    · rintro ⟨i, s, h1, h2, h3⟩
      refine ⟨(c, s), List.mem_iff_getElem?.2 ⟨i, ?_⟩, m, h3, rfl, rfl⟩
      rw [List.getElem?_zip_eq_some]; exact ⟨h2, h1⟩
  constructor
  · intro i s hi p hp
    rw [hform, dget_filter_ne_zero _ (dkeys_nodup_dictOf _)]
    have hsmem : s ∈ M.invMonoms d := List.mem_iff_getElem?.2 ⟨i, hi⟩
    obtain ⟨⟨hsl, hsd⟩, hstd⟩ := (mem_invMonoms M d s).1 hsmem
    have hiv : i < vec.length := by rw [hlen]; exact (List.getElem?_eq_some_iff.1 hi).1
    have hps : papply p s ∈ M.permute s := List.mem_map_of_mem hp
    have key : dget (dictOf (invPairs M vec d)) (papply p s) = some (vec.getD i 0) := by
      apply dget_dictOf_const
      · rintro ⟨m, c⟩ he hm
        simp only at hm
        subst hm
        obtain ⟨j, s', hj, hc, hm'⟩ := (hmemPairs _ c).1 he
        have hs'mem : s' ∈ M.invMonoms d := List.mem_iff_getElem?.2 ⟨j, hj⟩
        obtain ⟨⟨hsl', -⟩, hstd'⟩ := (mem_invMonoms M d s').1 hs'mem
        have e1 := standard_congr hM hsl hps
        have e2 := standard_congr hM hsl' hm'
        rw [hstd] at e1; rw [hstd', e1] at e2
        have hss : s = s' := Option.some.inj e2
        subst hss
        have hij : i = j := by
          obtain ⟨h1, h2⟩ := List.getElem?_eq_some_iff.1 hi
          obtain ⟨h3, h4⟩ := List.getElem?_eq_some_iff.1 hj
          exact (List.Nodup.getElem_inj_iff (invMonoms_nodup M d)).1 (h2.trans h4.symm)
        subst hij
        simp [List.getD_eq_getElem?_getD, hc]
      · refine ⟨(papply p s, vec.getD i 0), (hmemPairs _ _).2 ⟨i, s, hi, ?_, hps⟩, rfl⟩
        simp [List.getD_eq_getElem?_getD, hiv]
    unfold coeffAt; rw [key]; rfl
  · intro m hm
    rw [hform, dget_filter_ne_zero _ (dkeys_nodup_dictOf _)]
    unfold coeffAt
    cases h : dget (dictOf (invPairs M vec d)) m with
    | none => rfl
    | some c =>
      exfalso
      rw [dget_dictOf] at h
      have hk : m ∈ dkeys (invPairs M vec d).reverse := by
        by_contra hk; rw [(dget_eq_none_iff _ _).2 hk] at h; simp at h
      unfold dkeys at hk
      rw [List.map_reverse, List.mem_reverse, List.mem_map] at hk
      obtain ⟨⟨m', c'⟩, he, rfl⟩ := hk
      obtain ⟨i, s, h1, h2, h3⟩ := (hmemPairs _ _).1 he
      obtain ⟨⟨hsl, hsd⟩, -⟩ := (mem_invMonoms M d s).1 (List.mem_iff_getElem?.2 ⟨i, h1⟩)
      apply hm
      refine ⟨length_of_mem_permute hM h3, ?_⟩
      unfold DegOk at *; rw [sum_of_mem_permute hM hsl h3]; exact hsd

theorem foldl_max_le (l : List ℕ) : ∀ a : ℕ, (∀ x ∈ l, x ≤ l.foldl max a) ∧ a ≤ l.foldl max a ∧
    (l.foldl max a = a ∨ l.foldl max a ∈ l) := by
  induction l with
  | nil => intro a; simp
  | cons b l ih =>
    intro a
    obtain ⟨h1, h2, h3⟩ := ih (max a b)
    simp only [List.foldl_cons, List.mem_cons]
    refine ⟨?_, le_trans (le_max_left _ _) h2, ?_⟩
    · rintro x (rfl | hx)
      · exact le_trans (le_max_right _ _) h2
      · exact h1 x hx
    · rcases h3 with h3 | h3
      · rw [h3]; rcases max_choice a b with h | h <;> simp [h]
      · exact Or.inr (Or.inr h3)

theorem sum_le_totalDegree [Zero K] (n : ℕ) (p : List (List ℕ × K)) (t : List ℕ × K) (ht : t ∈ p) :
    t.1.sum ≤ totalDegree n p := by
  unfold totalDegree
  apply (foldl_max_le _ 0).1
  rw [List.mem_map]
  refine ⟨t, ?_, rfl⟩
  unfold repTerms; cases p with
  | nil => simp at ht
  | cons a l => simpa using ht


end MonoMgr
end Verif
