import Verif.Props.LinSolve
import Mathlib.Algebra.BigOperators.Group.Finset.Basic
import Mathlib.Algebra.CharZero.Defs
import Mathlib.Algebra.BigOperators.Ring.List
import Mathlib.Algebra.Order.Ring.Rat

/-!
# C24, C60: linear systems with equal entries
-/

set_option linter.unusedSectionVars false

namespace Verif.LinSolve
open Verif Finset

variable {K : Type*} [Field K] [DecidableEq K]

/-- What a caller must supply: nonempty disjoint groups of distinct column indices. -/
structure Good (cols : ℕ) (groups : List (List ℕ)) : Prop where
  ne : ∀ g ∈ groups, g ≠ []
  nd : ∀ g ∈ groups, g.Nodup
  dis : groups.Pairwise List.Disjoint
  lt : ∀ g ∈ groups, ∀ i ∈ g, i < cols

/-- the group an index belongs to -/
def grp (groups : List (List ℕ)) (k : ℕ) : List ℕ := (groups.find? fun g => decide (k ∈ g)).getD [k]

theorem ufs_notin (groups : List (List ℕ)) (i : ℕ) : ∀ u0, (∀ g ∈ groups, i ∉ g) → groups.foldl ufsStep u0 i = u0 i := by
  induction groups with
  | nil => intro u0 _; rfl
  | cons a t ih =>
    intro u0 h
    rw [List.foldl_cons, ih _ (fun g hg => h g (List.mem_cons_of_mem _ hg))]
    unfold ufsStep
    rw [if_neg (h a (by simp))]

theorem ufs_in (groups : List (List ℕ)) (i : ℕ) (g : List ℕ) (hd : groups.Pairwise List.Disjoint) (hg : g ∈ groups)
    (hi : i ∈ g) : ∀ u0, groups.foldl ufsStep u0 i = g.headD 0 := by
  induction groups with
  | nil => simp at hg
  | cons a t ih =>
    intro u0
    rw [List.pairwise_cons] at hd
    rw [List.foldl_cons]
    rcases List.mem_cons.1 hg with rfl | hg'
    · rw [ufs_notin t i _ (fun g' hg' hi' => hd.1 g' hg' hi hi')]
      unfold ufsStep
      rw [if_pos hi]
    · exact ih hd.2 hg' _

theorem headD_mem (g : List ℕ) (h : g ≠ []) : g.headD 0 ∈ g := by
  cases g with
  | nil => exact absurd rfl h
  | cons a t => simp

theorem same_group {groups : List (List ℕ)} (hd : groups.Pairwise List.Disjoint) {g g' : List ℕ} (hg : g ∈ groups)
    (hg' : g' ∈ groups) {i : ℕ} (hi : i ∈ g) (hi' : i ∈ g') : g = g' := by
  by_contra hne
  have key : ∀ (l : List (List ℕ)), l.Pairwise List.Disjoint → g ∈ l → g' ∈ l → False := by
    intro l
    induction l with
    | nil => intro _ h; simp at h
    | cons a t ih =>
      intro hp h1 h2
      rw [List.pairwise_cons] at hp
      rcases List.mem_cons.1 h1 with e1 | h1
      · rcases List.mem_cons.1 h2 with e2 | h2
        · exact hne (e1.trans e2.symm)
        · exact hp.1 g' h2 (e1 ▸ hi) hi'
      · rcases List.mem_cons.1 h2 with e2 | h2
        · exact hp.1 g h1 (e2 ▸ hi') hi
        · exact ih hp.2 h1 h2
  exact key groups hd hg hg'

theorem listRange_sum (n : ℕ) (f : ℕ → K) : ((List.range n).map f).sum = ∑ j ∈ range n, f j := by
  induction n with
  | zero => simp
  | succ n ih => rw [List.range_succ, List.map_append, List.sum_append, ih, Finset.sum_range_succ]; simp

section groups
variable {cols : ℕ} {groups : List (List ℕ)}

theorem grp_cases (_hG : Good cols groups) (k : ℕ) :
    (grp groups k ∈ groups ∧ k ∈ grp groups k) ∨ (grp groups k = [k] ∧ ∀ g ∈ groups, k ∉ g) := by
  unfold grp
  cases h : groups.find? fun g => decide (k ∈ g) with
  | none =>
    right
    refine ⟨rfl, fun g hg => ?_⟩
    have := List.find?_eq_none.1 h g hg
    simpa using this
  | some g =>
    left
    exact ⟨List.mem_of_find?_eq_some h, by simpa using List.find?_some h⟩

theorem mem_grp (hG : Good cols groups) (k : ℕ) : k ∈ grp groups k := by
  rcases grp_cases hG k with h | h
  · exact h.2
  · rw [h.1]; simp

theorem grp_nodup (hG : Good cols groups) (k : ℕ) : (grp groups k).Nodup := by
  rcases grp_cases hG k with h | h
  · exact hG.nd _ h.1
  · rw [h.1]; simp

theorem grp_of_mem (hG : Good cols groups) {g : List ℕ} (hg : g ∈ groups) {k : ℕ} (hk : k ∈ g) : grp groups k = g := by
  rcases grp_cases hG k with h | h
  · exact same_group hG.dis h.1 hg h.2 hk
  · exact absurd hk (h.2 g hg)

theorem grp_eq (hG : Good cols groups) {j k : ℕ} (h : j ∈ grp groups k) : grp groups j = grp groups k := by
  rcases grp_cases hG k with hk | hk
  · exact grp_of_mem hG hk.1 h
  · rw [hk.1, List.mem_singleton] at h; rw [h]

theorem ufs_eq (hG : Good cols groups) (k : ℕ) : ufs groups k = (grp groups k).headD 0 := by
  unfold ufs
  rcases grp_cases hG k with h | h
  · exact ufs_in groups k _ hG.dis h.1 h.2 id
  · rw [h.1, ufs_notin groups k id h.2]; rfl

theorem ufs_mem (hG : Good cols groups) (k : ℕ) : ufs groups k ∈ grp groups k := by
  rw [ufs_eq hG]
  exact headD_mem _ (List.ne_nil_of_mem (mem_grp hG k))

theorem ufs_iff (hG : Good cols groups) (j k : ℕ) : ufs groups j = ufs groups k ↔ j ∈ grp groups k := by
  constructor
  · intro h
    have h1 := grp_eq hG (ufs_mem hG j)
    have h2 := grp_eq hG (ufs_mem hG k)
    rw [← h] at h2
    rw [← h2, h1]
    exact mem_grp hG j
  · intro h
    rw [ufs_eq hG, ufs_eq hG, grp_eq hG h]

theorem ufs_idem (hG : Good cols groups) (k : ℕ) : ufs groups (ufs groups k) = ufs groups k :=
  (ufs_iff hG _ _).2 (ufs_mem hG k)

theorem grp_lt (hG : Good cols groups) {j k : ℕ} (hk : k < cols) (h : j ∈ grp groups k) : j < cols := by
  rcases grp_cases hG k with h1 | h1
  · exact hG.lt _ h1.1 j h
  · rw [h1.1, List.mem_singleton] at h; omega

/-- `i` and `j` are forced to be equal exactly when they lie in a common group. -/
theorem mem_grp_iff (hG : Good cols groups) (j k : ℕ) : j ∈ grp groups k ↔ j = k ∨ ∃ g ∈ groups, j ∈ g ∧ k ∈ g := by
  constructor
  · intro h
    rcases grp_cases hG k with h1 | h1
    · exact Or.inr ⟨_, h1.1, h, h1.2⟩
    · rw [h1.1, List.mem_singleton] at h; exact Or.inl h
  · rintro (rfl | ⟨g, hg, h1, h2⟩)
    · exact mem_grp hG j
    · rw [grp_of_mem hG hg h2]; exact h1

theorem gd1_notin (groups : List (List ℕ)) (h : ℕ) : ∀ d, (∀ g ∈ groups, g.headD 0 ≠ h) →
    dget (groups.foldl (fun d g => dset d (g.headD 0) g) d) h = dget d h := by
  induction groups with
  | nil => intro d _; rfl
  | cons a t ih =>
    intro d hn
    rw [List.foldl_cons, ih _ (fun g hg => hn g (List.mem_cons_of_mem _ hg)), dget_dset, if_neg (hn a (by simp))]

theorem gd1_in (groups : List (List ℕ)) (hd : groups.Pairwise List.Disjoint) (hne : ∀ g ∈ groups, g ≠ []) (g : List ℕ)
    (hg : g ∈ groups) : ∀ d, dget (groups.foldl (fun d g => dset d (g.headD 0) g) d) (g.headD 0) = some g := by
  induction groups with
  | nil => simp at hg
  | cons a t ih =>
    intro d
    rw [List.pairwise_cons] at hd
    rw [List.foldl_cons]
    rcases List.mem_cons.1 hg with rfl | hg'
    · rw [gd1_notin, dget_dset, if_pos rfl]
      intro g' hg' he
      have h1 := headD_mem g' (hne g' (List.mem_cons_of_mem _ hg'))
      rw [he] at h1
      exact hd.1 g' hg' (headD_mem g (hne g (by simp))) h1
    · exact ih hd.2 (fun g hg => hne g (List.mem_cons_of_mem _ hg)) hg' _

theorem gd1_nodup (groups : List (List ℕ)) : ∀ d : List (ℕ × List ℕ), (dkeys d).Nodup →
    (dkeys (groups.foldl (fun d g => dset d (g.headD 0) g) d)).Nodup := by
  induction groups with
  | nil => intro d h; exact h
  | cons a t ih => intro d h; exact ih _ (dkeys_nodup_dset _ _ _ h)

theorem gd2_get (u : ℕ → ℕ) (h : ℕ) (l : List ℕ) : ∀ d : List (ℕ × List ℕ),
    dget (l.foldl (fun d i => if u i = i ∧ (dget d i).isNone then dset d i [i] else d) d) h =
      (dget d h).or (if u h = h ∧ h ∈ l then some [h] else none) := by
  induction l with
  | nil => intro d; simp
  | cons a t ih =>
    intro d
    rw [List.foldl_cons, ih]
    by_cases hc : u a = a ∧ (dget d a).isNone = true
    · rw [if_pos hc, dget_dset]
      by_cases hah : a = h
      · subst hah
        rw [if_pos rfl]
        have : dget d a = none := by simpa using hc.2
        have hm : u a = a ∧ a ∈ a :: t := ⟨hc.1, by simp⟩
        rw [this, if_pos hm]; rfl
      · rw [if_neg hah]
        simp [Ne.symm hah]
    · rw [if_neg hc]
      by_cases hah : a = h
      · subst hah
        by_cases hu : u a = a
        · have : (dget d a).isNone ≠ true := fun h => hc ⟨hu, h⟩
          cases hd : dget d a with
          | none => rw [hd] at this; simp at this
          | some v => rfl
        · simp [hu]
      · simp [Ne.symm hah]

theorem gd2_nodup (u : ℕ → ℕ) (l : List ℕ) : ∀ d : List (ℕ × List ℕ), (dkeys d).Nodup →
    (dkeys (l.foldl (fun d i => if u i = i ∧ (dget d i).isNone then dset d i [i] else d) d)).Nodup := by
  induction l with
  | nil => intro d h; exact h
  | cons a t ih =>
    intro d h
    rw [List.foldl_cons]
    apply ih
    split_ifs
    · exact dkeys_nodup_dset _ _ _ h
    · exact h

theorem groupDict_get (hG : Good cols groups) (k : ℕ) (hk : k < cols) :
    dget (groupDict cols groups) (ufs groups k) = some (grp groups k) := by
  unfold groupDict
  simp only
  rw [gd2_get]
  rcases grp_cases hG k with h | h
  · rw [ufs_eq hG, gd1_in groups hG.dis hG.ne _ h.1]; rfl
  · have hu : ufs groups k = k := by rw [ufs_eq hG, h.1]; rfl
    rw [hu, gd1_notin]
    · rw [if_pos ⟨hu, List.mem_range.2 hk⟩, h.1]; rfl
    · intro g hg he
      exact h.2 g hg (he ▸ headD_mem g (hG.ne g hg))

theorem mem_keys (hG : Good cols groups) (h : ℕ) : h ∈ (groupDict cols groups).map (·.1) ↔ h < cols ∧ ufs groups h = h := by
  have hk : h ∈ (groupDict cols groups).map (·.1) ↔ dget (groupDict cols groups) h ≠ none := by
    rw [ne_eq, dget_eq_none_iff, not_not]; rfl
  rw [hk]
  constructor
  · intro hne
    by_cases hlt : h < cols
    · refine ⟨hlt, ?_⟩
      by_contra hu
      apply hne
      unfold groupDict
      simp only
      rw [gd2_get, gd1_notin]
      · rw [if_neg (by tauto)]; rfl
      · intro g hg he
        apply hu
        rw [ufs_eq hG, grp_of_mem hG hg (he ▸ headD_mem g (hG.ne g hg)), he]
    · exfalso
      apply hne
      unfold groupDict
      simp only
      rw [gd2_get, gd1_notin]
      · rw [if_neg (by simp [hlt])]; rfl
      · intro g hg he
        exact hlt (he ▸ hG.lt g hg _ (headD_mem g (hG.ne g hg)))
  · rintro ⟨hlt, hu⟩
    have := groupDict_get hG h hlt
    rw [hu] at this
    rw [this]; simp

theorem keys_nodup (cols : ℕ) (groups : List (List ℕ)) : ((groupDict cols groups).map (·.1)).Nodup :=
  gd2_nodup _ _ _ (gd1_nodup _ _ (by simp [dkeys]))

/-! ### The general branch of `solve_csr_linear` -/

/-- **C60.** For disjoint groups: whenever the general branch of `solve_csr_linear` returns, `{x0 + space y}` is exactly
the set of solutions of `A x = b` whose entries agree on every group, and different `y` give different solutions. -/
theorem solveCsrGeneral_ok (rows : ℕ) (A B x0 sp : Mat K) (n : ℕ) (hG : Good cols groups)
    (h : solveCsrGeneral rows cols A B groups = .ok (x0, sp, n)) :
    (∀ x : ℕ → K, ((∀ i, i < rows → ∑ j ∈ range cols, A i j * x j = B i 0) ∧
        ∀ g ∈ groups, ∀ i ∈ g, ∀ j ∈ g, x i = x j) ↔
      ∃ y : ℕ → K, ∀ k, k < cols → x k = x0 k 0 + ∑ l ∈ range n, sp k l * y l) ∧
    (∀ y : ℕ → K, (∀ k, k < cols → ∑ l ∈ range n, sp k l * y l = 0) → ∀ l, l < n → y l = 0) := by
  unfold solveCsrGeneral at h
  split_ifs at h with he
  simp only at h
  set keys := (groupDict cols groups).map (·.1) with hkeys
  set ind := fun j => posOf keys (ufs groups j) with hind
  set A2 : Mat K := fun i c => ((List.range cols).map fun j => if ind j = c then A i j else 0).sum with hA2
  cases hs : solveUndetermined rows keys.length 1 A2 B with
  | error e => rw [hs] at h; cases h
  | ok r =>
    obtain ⟨x1, s1, n1⟩ := r
    rw [hs] at h
    have hp := Except.ok.inj h
    obtain ⟨e1, e2⟩ := Prod.mk.inj hp
    obtain ⟨e2, e3⟩ := Prod.mk.inj e2
    subst e1; subst e2; subst e3
    obtain ⟨hsol, hindep⟩ := solveUndetermined_ok _ _ _ _ _ _ _ _ hs
    have hnd : keys.Nodup := keys_nodup cols groups
    have uk : ∀ k, k < cols → ufs groups k ∈ keys := by
      intro k hk
      rw [mem_keys hG]
      exact ⟨grp_lt hG hk (ufs_mem hG k), ufs_idem hG k⟩
    have indlt : ∀ k, k < cols → ind k < keys.length := by
      intro k hk
      exact List.idxOf_lt_length_iff.2 (uk k hk)
    have keyind : ∀ k (hk : k < cols), keys.getD (ind k) 0 = ufs groups k := by
      intro k hk
      rw [List.getD_eq_getElem?_getD, List.getElem?_eq_getElem (indlt k hk)]
      simp only [Option.getD_some]
      exact List.getElem_idxOf (indlt k hk)
    have indkey : ∀ c, c < keys.length → ∃ k, k < cols ∧ keys.getD c 0 = k ∧ ind k = c := by
      intro c hc
      refine ⟨keys.getD c 0, ?_, rfl, ?_⟩
      · rw [List.getD_eq_getElem?_getD, List.getElem?_eq_getElem hc]
        exact ((mem_keys hG _).1 (List.getElem_mem hc)).1
      · rw [List.getD_eq_getElem?_getD, List.getElem?_eq_getElem hc]
        simp only [Option.getD_some, hind]
        rw [((mem_keys hG _).1 (List.getElem_mem hc)).2]
        exact hnd.idxOf_getElem c hc
    -- the compressed row
    have hrow : ∀ (z : ℕ → K) i, rowDot keys.length A2 z i = ∑ j ∈ range cols, A i j * z (ind j) := by
      intro z i
      unfold rowDot
      have : ∀ c, A2 i c = ∑ j ∈ range cols, if ind j = c then A i j else 0 := by
        intro c
        rw [hA2]
        exact listRange_sum _ _
      calc ∑ c ∈ range keys.length, A2 i c * z c
          = ∑ c ∈ range keys.length, ∑ j ∈ range cols, (if ind j = c then A i j else 0) * z c := by
            apply Finset.sum_congr rfl
            intro c _
            rw [this, Finset.sum_mul]
        _ = ∑ j ∈ range cols, ∑ c ∈ range keys.length, (if ind j = c then A i j else 0) * z c := Finset.sum_comm
        _ = ∑ j ∈ range cols, A i j * z (ind j) := by
            apply Finset.sum_congr rfl
            intro j hj
            rw [Finset.sum_eq_single (ind j)]
            · rw [if_pos rfl]
            · intro b _ hb; rw [if_neg (Ne.symm hb), zero_mul]
            · intro hc; exact absurd (Finset.mem_range.2 (indlt j (Finset.mem_range.1 hj))) hc
    constructor
    · intro x
      constructor
      · rintro ⟨hx, heq⟩
        have hz : ∀ k, k < cols → x (keys.getD (ind k) 0) = x k := by
          intro k hk
          rw [keyind k hk]
          rcases (mem_grp_iff hG _ _).1 (ufs_mem hG k) with e | ⟨g, hg, h1, h2⟩
          · rw [e]
          · exact heq g hg _ h1 _ h2
        obtain ⟨y, hy⟩ := (hsol 0 (by omega) (fun c => x (keys.getD c 0))).1 (by
          intro i hi
          rw [hrow, ← hx i hi]
          apply Finset.sum_congr rfl
          intro j hj
          rw [hz j (Finset.mem_range.1 hj)])
        refine ⟨y, fun k hk => ?_⟩
        have := hy (ind k) (indlt k hk)
        rw [hz k hk] at this
        exact this
      · rintro ⟨y, hy⟩
        have hx1 := (hsol 0 (by omega) (fun c => x1 c 0 + ∑ l ∈ range n1, s1 c l * y l)).2 ⟨y, fun k _ => rfl⟩
        constructor
        · intro i hi
          rw [← hx1 i hi, hrow]
          apply Finset.sum_congr rfl
          intro j hj
          rw [hy j (Finset.mem_range.1 hj)]
        · intro g hg i hi j hj
          rw [hy i (hG.lt g hg i hi), hy j (hG.lt g hg j hj)]
          beta_reduce
          rw [(ufs_iff hG i j).2 ((mem_grp_iff hG i j).2 (Or.inr ⟨g, hg, hi, hj⟩))]
    · intro y hy l hl
      apply hindep y _ l hl
      intro c hc
      obtain ⟨k, hk, -, e⟩ := indkey c hc
      rw [← e]
      exact hy k hk

/-- **C60 (errors).** For disjoint groups the general branch raises exactly when no solution with equal entries on the
groups exists, and the exception is `ValueError`. -/
theorem solveCsrGeneral_error_iff (rows : ℕ) (A B : Mat K) (hG : Good cols groups) (e : PyErr) :
    solveCsrGeneral rows cols A B groups = .error e ↔
      e = .valueError ∧ ¬ ∃ x : ℕ → K, (∀ i, i < rows → ∑ j ∈ range cols, A i j * x j = B i 0) ∧
        ∀ g ∈ groups, ∀ i ∈ g, ∀ j ∈ g, x i = x j := by
  cases hs : solveCsrGeneral rows cols A B groups with
  | ok r =>
    obtain ⟨x0, sp, n⟩ := r
    constructor
    · intro h; cases h
    · rintro ⟨-, hno⟩
      exact absurd ⟨fun k => x0 k 0, ((solveCsrGeneral_ok rows A B x0 sp n hG hs).1 _).2 ⟨fun _ => 0, fun k _ => by simp⟩⟩ hno
  | error e' =>
    unfold solveCsrGeneral at hs
    have hne : ¬ (groups.any (·.isEmpty) = true) := by
      rw [List.any_eq_true]
      rintro ⟨g, hg, h⟩
      exact hG.ne g hg (by simpa using h)
    rw [if_neg hne] at hs
    simp only at hs
    set keys := (groupDict cols groups).map (·.1) with hkeys
    set ind := fun j => posOf keys (ufs groups j) with hind
    set A2 : Mat K := fun i c => ((List.range cols).map fun j => if ind j = c then A i j else 0).sum with hA2
    cases hs2 : solveUndetermined rows keys.length 1 A2 B with
    | ok r => rw [hs2] at hs; cases hs
    | error e2 =>
      rw [hs2] at hs
      injection hs with hs
      subst hs
      obtain ⟨he, j0, hj0, hno⟩ := (solveUndetermined_error_iff _ _ _ _ _ _).1 hs2
      have hj0 : j0 = 0 := by omega
      subst hj0
      have hno2 : ¬ ∃ x : ℕ → K, (∀ i, i < rows → ∑ j ∈ range cols, A i j * x j = B i 0) ∧
          ∀ g ∈ groups, ∀ i ∈ g, ∀ j ∈ g, x i = x j := by
        rintro ⟨x, hx, heq⟩
        apply hno
        refine ⟨fun c => x (keys.getD c 0), fun i hi => ?_⟩
        have uk : ∀ k, k < cols → ufs groups k ∈ keys := by
          intro k hk
          rw [mem_keys hG]
          exact ⟨grp_lt hG hk (ufs_mem hG k), ufs_idem hG k⟩
        have indlt : ∀ k, k < cols → ind k < keys.length := by
          intro k hk
          exact List.idxOf_lt_length_iff.2 (uk k hk)
        have hz : ∀ k, k < cols → x (keys.getD (ind k) 0) = x k := by
          intro k hk
          rw [List.getD_eq_getElem?_getD, List.getElem?_eq_getElem (indlt k hk)]
          simp only [Option.getD_some]
          rw [show keys[ind k]'(indlt k hk) = ufs groups k from List.getElem_idxOf (indlt k hk)]
          rcases (mem_grp_iff hG _ _).1 (ufs_mem hG k) with e | ⟨g, hg, h1, h2⟩
          · rw [e]
          · exact heq g hg _ h1 _ h2
        rw [← hx i hi]
        unfold rowDot
        have : ∀ c, A2 i c = ∑ j ∈ range cols, if ind j = c then A i j else 0 := by
          intro c
          rw [hA2]
          exact listRange_sum _ _
        calc ∑ c ∈ range keys.length, A2 i c * x (keys.getD c 0)
            = ∑ c ∈ range keys.length, ∑ j ∈ range cols, (if ind j = c then A i j else 0) * x (keys.getD c 0) := by
              apply Finset.sum_congr rfl
              intro c _
              rw [this, Finset.sum_mul]
          _ = ∑ j ∈ range cols, ∑ c ∈ range keys.length, (if ind j = c then A i j else 0) * x (keys.getD c 0) := Finset.sum_comm
          _ = ∑ j ∈ range cols, A i j * x j := by
              apply Finset.sum_congr rfl
              intro j hj
              rw [Finset.sum_eq_single (ind j)]
              · rw [if_pos rfl, hz j (Finset.mem_range.1 hj)]
              · intro b _ hb; rw [if_neg (Ne.symm hb), zero_mul]
              · intro hc; exact absurd (Finset.mem_range.2 (indlt j (Finset.mem_range.1 hj))) hc
      constructor
      · intro h
        injection h with h
        exact ⟨by rw [← h, he], hno2⟩
      · rintro ⟨rfl, -⟩
        rw [he]

end groups

/-! ### Column separated systems -/

/-- The value of a sparse row at a vector. -/
def rowVal (row : SRow K) (x : ℕ → K) : K := (row.2.map fun p => p.2 * x p.1).sum

/-- A sparse matrix with at most one entry per column: nonempty rows, nonzero entries, indices in range, no column
twice. -/
structure ColSep (cols : ℕ) (A : List (SRow K)) : Prop where
  ne : ∀ row ∈ A, row.2 ≠ []
  nz : ∀ row ∈ A, ∀ p ∈ row.2, p.2 ≠ 0
  lt : ∀ row ∈ A, ∀ p ∈ row.2, p.1 < cols
  sep : (A.flatMap fun row => row.2.map (·.1)).Nodup

/-- The extra condition under which the groups are handled correctly: the columns of a group lie in the same row and
carry the same coefficient (or are all zero). -/
def GroupsAligned (A : List (SRow K)) (groups : List (List ℕ)) : Prop :=
  ∀ g ∈ groups, ∀ i ∈ g, ∀ j ∈ g, ∀ row ∈ A, ∀ c, (i, c) ∈ row.2 → (j, c) ∈ row.2

section colsep
variable {cols : ℕ} {groups : List (List ℕ)} {A : List (SRow K)}

theorem row_nodup (hA : ColSep cols A) {row : SRow K} (h : row ∈ A) : (row.2.map (·.1)).Nodup :=
  (List.nodup_flatMap.1 hA.sep).1 row h

theorem row_unique (hA : ColSep cols A) {row row' : SRow K} (h : row ∈ A) (h' : row' ∈ A) {k : ℕ} {c c' : K}
    (hk : (k, c) ∈ row.2) (hk' : (k, c') ∈ row'.2) : row = row' := by
  have hp := (List.nodup_flatMap.1 hA.sep).2
  have m1 : k ∈ row.2.map (·.1) := List.mem_map.2 ⟨_, hk, rfl⟩
  have m2 : k ∈ row'.2.map (·.1) := List.mem_map.2 ⟨_, hk', rfl⟩
  by_contra hne
  have key : ∀ (l : List (SRow K)), l.Pairwise (Function.onFun List.Disjoint fun row => row.2.map (·.1)) → row ∈ l → row' ∈ l → False := by
    intro l
    induction l with
    | nil => intro _ h; simp at h
    | cons a t ih =>
      intro hp h1 h2
      rw [List.pairwise_cons] at hp
      rcases List.mem_cons.1 h1 with e1 | h1
      · rcases List.mem_cons.1 h2 with e2 | h2
        · exact hne (e1.trans e2.symm)
        · exact hp.1 row' h2 (e1 ▸ m1) m2
      · rcases List.mem_cons.1 h2 with e2 | h2
        · exact hp.1 row h1 (e2 ▸ m2) m1
        · exact ih hp.2 h1 h2
  exact key A hp h h'

theorem coeff_unique (hA : ColSep cols A) {row : SRow K} (h : row ∈ A) {k : ℕ} {c c' : K}
    (hk : (k, c) ∈ row.2) (hk' : (k, c') ∈ row.2) : c = c' := by
  have h1 := (dget_eq_some_iff row.2 (row_nodup hA h) k c).2 hk
  have h2 := (dget_eq_some_iff row.2 (row_nodup hA h) k c').2 hk'
  rw [h1] at h2
  exact Option.some.inj h2

theorem aligned (hG : Good cols groups) (hal : GroupsAligned A groups) {row : SRow K} (h : row ∈ A) {j k : ℕ} {c : K}
    (hk : (k, c) ∈ row.2) (hj : j ∈ grp groups k) : (j, c) ∈ row.2 := by
  rcases (mem_grp_iff hG j k).1 hj with rfl | ⟨g, hg, h1, h2⟩
  · exact hk
  · exact hal g hg k h2 j h1 row h c hk

/-- the value of a row at a vector that is constant on groups, as a sum over the heads -/
theorem rowVal_heads (hG : Good cols groups) (hA : ColSep cols A) (hal : GroupsAligned A groups) {row : SRow K}
    (h : row ∈ A) (x : ℕ → K) (hx : ∀ g ∈ groups, ∀ i ∈ g, ∀ j ∈ g, x i = x j) :
    rowVal row x = ∑ q ∈ row.2.toFinset.filter (fun q => ufs groups q.1 = q.1), ((grp groups q.1).length : K) * q.2 * x q.1 := by
  have hnd : row.2.Nodup := List.Nodup.of_map _ (row_nodup hA h)
  have e1 : rowVal row x = ∑ p ∈ row.2.toFinset, p.2 * x p.1 := by
    unfold rowVal
    rw [List.sum_toFinset _ hnd]
  rw [e1]
  rw [← Finset.sum_fiberwise_of_maps_to (t := row.2.toFinset.filter (fun q => ufs groups q.1 = q.1))
    (g := fun p => (ufs groups p.1, p.2))]
  · apply Finset.sum_congr rfl
    intro q hq
    rw [Finset.mem_filter, List.mem_toFinset] at hq
    have e2 : ∀ p ∈ row.2.toFinset.filter (fun p => (ufs groups p.1, p.2) = q), p.2 * x p.1 = q.2 * x q.1 := by
      intro p hp
      rw [Finset.mem_filter] at hp
      obtain ⟨hp, rfl⟩ := hp
      congr 1
      rcases (mem_grp_iff hG _ _).1 (ufs_mem hG p.1) with e | ⟨g, hg, h1, h2⟩
      · simp only; rw [e]
      · exact hx g hg _ h2 _ h1
    rw [Finset.sum_congr rfl e2, Finset.sum_const, nsmul_eq_mul, mul_assoc]
    congr 2
    have e3 : row.2.toFinset.filter (fun p => (ufs groups p.1, p.2) = q) = (grp groups q.1).toFinset.image (fun k => (k, q.2)) := by
      ext p
      rw [Finset.mem_filter, List.mem_toFinset, Finset.mem_image]
      constructor
      · rintro ⟨hp, rfl⟩
        refine ⟨p.1, ?_, rfl⟩
        rw [List.mem_toFinset]
        rw [← ufs_iff hG]
        exact (ufs_idem hG p.1).symm
      · rintro ⟨k, hk, rfl⟩
        rw [List.mem_toFinset] at hk
        refine ⟨aligned hG hal h (k := q.1) (c := q.2) hq.1 hk, ?_⟩
        rw [(ufs_iff hG _ _).2 hk, hq.2]
    rw [e3, Finset.card_image_of_injective _ (fun a b hab => (Prod.mk.inj hab).1), List.toFinset_card_of_nodup (grp_nodup hG _)]
  · intro p hp
    rw [List.mem_toFinset] at hp
    rw [Finset.mem_filter, List.mem_toFinset]
    exact ⟨aligned hG hal h (k := p.1) (c := p.2) hp (ufs_mem hG p.1), ufs_idem hG p.1⟩

/-- the value the code assigns to `x0[k]` -/
def x0Of (pairs : List (ℕ × K)) (k : ℕ) : K := ((pairs.reverse.find? fun p => p.1 == k).map (·.2)).getD 0

theorem x0Of_eq (pairs : List (ℕ × K)) (k : ℕ) (v : K) (h : ∀ p ∈ pairs, p.1 = k → p.2 = v)
    (h0 : v ≠ 0 → ∃ p ∈ pairs, p.1 = k) : x0Of pairs k = v := by
  unfold x0Of
  cases hf : pairs.reverse.find? fun p => p.1 == k with
  | none =>
    have hn := List.find?_eq_none.1 hf
    by_cases hv : v = 0
    · simp [hv]
    · obtain ⟨p, hp, e⟩ := h0 hv
      exact absurd (by simpa using e) (hn p (List.mem_reverse.2 hp))
  | some p =>
    have h1 := List.mem_of_find?_eq_some hf
    have h2 := List.find?_some hf
    exact h p (List.mem_reverse.1 h1) (by simpa using h2)

theorem mem_csX0 (hG : Good cols groups) (hA : ColSep cols A) (b : ℕ → K) {row : SRow K} (h : row ∈ A) {p : ℕ × K}
    {rest : List (ℕ × K)} (hr : row.2 = p :: rest) (e : ℕ × K) :
    e ∈ csX0 (ufs groups) (groupDict cols groups) b row ↔
      b row.1 ≠ 0 ∧ e.1 ∈ grp groups p.1 ∧ e.2 = b row.1 / (((grp groups p.1).length : K) * p.2) := by
  unfold csX0
  rw [hr]
  simp only
  have hp : p.1 < cols := hA.lt row h p (by rw [hr]; simp)
  rw [groupDict_get hG p.1 hp]
  simp only [Option.getD_some]
  split_ifs with hb
  · simp [hb]
  · rw [List.mem_map]
    constructor
    · rintro ⟨k, hk, rfl⟩; exact ⟨hb, hk, rfl⟩
    · rintro ⟨-, h1, h2⟩; exact ⟨e.1, h1, by rw [← h2]⟩

theorem row_split (hA : ColSep cols A) {row : SRow K} (h : row ∈ A) : ∃ p rest, row.2 = p :: rest := by
  cases hr : row.2 with
  | nil => exact absurd hr (hA.ne row h)
  | cons p rest => exact ⟨p, rest, rfl⟩

theorem x0_row (hG : Good cols groups) (hA : ColSep cols A) (hal : GroupsAligned A groups) (b : ℕ → K) {row : SRow K}
    (h : row ∈ A) {p : ℕ × K} {rest : List (ℕ × K)} (hr : row.2 = p :: rest) {k : ℕ} {c : K} (hk : (k, c) ∈ row.2) :
    x0Of (A.flatMap (csX0 (ufs groups) (groupDict cols groups) b)) k =
      if k ∈ grp groups p.1 then b row.1 / (((grp groups p.1).length : K) * p.2) else 0 := by
  have hpm : (p.1, p.2) ∈ row.2 := by rw [hr]; simp
  have key : ∀ e ∈ A.flatMap (csX0 (ufs groups) (groupDict cols groups) b), e.1 = k →
      k ∈ grp groups p.1 ∧ e.2 = b row.1 / (((grp groups p.1).length : K) * p.2) := by
    intro e he hek
    rw [List.mem_flatMap] at he
    obtain ⟨row', h', he⟩ := he
    obtain ⟨p', rest', hr'⟩ := row_split hA h'
    obtain ⟨-, h1, h2⟩ := (mem_csX0 hG hA b h' hr' e).1 he
    have hpm' : (p'.1, p'.2) ∈ row'.2 := by rw [hr']; simp
    have h3 := aligned hG hal h' hpm' h1
    rw [hek] at h3
    have := row_unique hA h h' hk h3
    subst this
    rw [hr] at hr'
    injection hr' with e1 e2
    subst e1
    exact ⟨hek ▸ h1, h2⟩
  apply x0Of_eq
  · intro e he hek
    obtain ⟨h1, h2⟩ := key e he hek
    rw [if_pos h1, h2]
  · intro hv
    split_ifs at hv with hm
    · have hb : b row.1 ≠ 0 := by
        intro hb; apply hv; rw [hb, zero_div]
      exact ⟨(k, b row.1 / (((grp groups p.1).length : K) * p.2)), List.mem_flatMap.2 ⟨row, h, (mem_csX0 hG hA b h hr _).2 ⟨hb, hm, rfl⟩⟩, rfl⟩
    · exact absurd rfl hv

theorem x0_none (hG : Good cols groups) (hA : ColSep cols A) (hal : GroupsAligned A groups) (b : ℕ → K) {k : ℕ}
    (hk : ∀ row ∈ A, ∀ c, (k, c) ∉ row.2) : x0Of (A.flatMap (csX0 (ufs groups) (groupDict cols groups) b)) k = 0 := by
  apply x0Of_eq
  · intro e he hek
    rw [List.mem_flatMap] at he
    obtain ⟨row', h', he⟩ := he
    obtain ⟨p', rest', hr'⟩ := row_split hA h'
    obtain ⟨-, h1, h2⟩ := (mem_csX0 hG hA b h' hr' e).1 he
    have hpm' : (p'.1, p'.2) ∈ row'.2 := by rw [hr']; simp
    have h3 := aligned hG hal h' hpm' h1
    rw [hek] at h3
    exact absurd h3 (hk row' h' _)
  · intro h; exact absurd rfl h

/-- which entries produce a vector -/
def newHead (u : ℕ → ℕ) (p q : ℕ × K) : Prop := q.1 = u q.1 ∧ u q.1 ≠ u p.1

instance (u : ℕ → ℕ) (p q : ℕ × K) : Decidable (newHead u p q) := by unfold newHead; infer_instance

/-- the vector produced by the entry `q` in a row with pivot `p` -/
def hvec (groups : List (List ℕ)) (p q : ℕ × K) : ℕ → K :=
  csVec (grp groups p.1) (grp groups q.1) (((grp groups p.1).length : K) * p.2) (((grp groups q.1).length : K) * q.2)

theorem csSpace_eq (hG : Good cols groups) (hA : ColSep cols A) {row : SRow K} (h : row ∈ A) {p : ℕ × K}
    {rest : List (ℕ × K)} (hr : row.2 = p :: rest) :
    csSpace (ufs groups) (groupDict cols groups) row = (rest.filter fun q => decide (newHead (ufs groups) p q)).map (hvec groups p) := by
  unfold csSpace
  rw [hr]
  simp only
  have hp : p.1 < cols := hA.lt row h p (by rw [hr]; simp)
  rw [groupDict_get hG p.1 hp]
  have hlt : ∀ q ∈ rest, q.1 < cols := fun q hq => hA.lt row h q (by rw [hr]; exact List.mem_cons_of_mem _ hq)
  clear hr
  induction rest with
  | nil => rfl
  | cons q t ih =>
    rw [List.filterMap_cons, List.filter_cons]
    by_cases hc : q.1 ≠ ufs groups q.1 ∨ ufs groups q.1 = ufs groups p.1
    · have hn : ¬ newHead (ufs groups) p q := by unfold newHead; tauto
      rw [if_pos hc, if_neg (by simpa using hn)]
      exact ih (fun q hq => hlt q (List.mem_cons_of_mem _ hq))
    · have hn : newHead (ufs groups) p q := by unfold newHead; tauto
      rw [if_neg hc, if_pos (by simpa using hn), List.map_cons, groupDict_get hG q.1 (hlt q (by simp))]
      simp only [Option.getD_some]
      rw [← ih (fun q hq => hlt q (List.mem_cons_of_mem _ hq))]
      rfl

variable [CharZero K]

theorem weight_ne (hG : Good cols groups) (hA : ColSep cols A) {row : SRow K} (h : row ∈ A) {q : ℕ × K} (hq : q ∈ row.2) :
    ((grp groups q.1).length : K) * q.2 ≠ 0 := by
  apply mul_ne_zero
  · rw [Nat.cast_ne_zero]
    intro h0
    have := mem_grp hG q.1
    rw [List.length_eq_zero_iff.1 h0] at this
    simp at this
  · exact hA.nz row h q hq

theorem hvec_const (hG : Good cols groups) (p q : ℕ × K) : ∀ g ∈ groups, ∀ i ∈ g, ∀ j ∈ g, hvec groups p q i = hvec groups p q j := by
  intro g hg i hi j hj
  have hmem : ∀ k, i ∈ grp groups k ↔ j ∈ grp groups k := by
    intro k
    rw [← ufs_iff hG, ← ufs_iff hG, (ufs_iff hG i j).2 ((mem_grp_iff hG i j).2 (Or.inr ⟨g, hg, hi, hj⟩))]
  unfold hvec csVec
  simp only [hmem]

theorem x0_const (hG : Good cols groups) (hA : ColSep cols A) (hal : GroupsAligned A groups) (b : ℕ → K) :
    ∀ g ∈ groups, ∀ i ∈ g, ∀ j ∈ g, x0Of (A.flatMap (csX0 (ufs groups) (groupDict cols groups) b)) i =
      x0Of (A.flatMap (csX0 (ufs groups) (groupDict cols groups) b)) j := by
  intro g hg i hi j hj
  by_cases h : ∃ row ∈ A, ∃ c, (i, c) ∈ row.2
  · obtain ⟨row, hrow, c, hc⟩ := h
    obtain ⟨p, rest, hr⟩ := row_split hA hrow
    rw [x0_row hG hA hal b hrow hr hc, x0_row hG hA hal b hrow hr (hal g hg i hi j hj row hrow c hc)]
    have hmem : i ∈ grp groups p.1 ↔ j ∈ grp groups p.1 := by
      rw [← ufs_iff hG, ← ufs_iff hG, (ufs_iff hG i j).2 ((mem_grp_iff hG i j).2 (Or.inr ⟨g, hg, hi, hj⟩))]
    simp only [hmem]
  · push Not at h
    rw [x0_none hG hA hal b h, x0_none hG hA hal b]
    intro row hrow c hc
    exact h row hrow c (hal g hg j hj i hi row hrow c hc)

/-- the heads of a row: the head of the pivot and the entries that produce a vector -/
theorem heads_eq (hG : Good cols groups) (hA : ColSep cols A) (hal : GroupsAligned A groups) {row : SRow K} (h : row ∈ A)
    {p : ℕ × K} {rest : List (ℕ × K)} (hr : row.2 = p :: rest) :
    row.2.toFinset.filter (fun q => ufs groups q.1 = q.1) =
      insert (ufs groups p.1, p.2) (rest.filter fun q => decide (newHead (ufs groups) p q)).toFinset ∧
    (ufs groups p.1, p.2) ∉ (rest.filter fun q => decide (newHead (ufs groups) p q)).toFinset := by
  have hpm : (p.1, p.2) ∈ row.2 := by rw [hr]; simp
  have hhm := aligned hG hal h hpm (ufs_mem hG p.1)
  constructor
  · ext q
    rw [Finset.mem_filter, List.mem_toFinset, Finset.mem_insert, List.mem_toFinset, List.mem_filter]
    simp only [decide_eq_true_eq]
    unfold newHead
    constructor
    · rintro ⟨hq, hu⟩
      by_cases he : ufs groups q.1 = ufs groups p.1
      · left
        have hq1 : q.1 = ufs groups p.1 := by rw [← he, hu]
        have : (ufs groups p.1, q.2) ∈ row.2 := by rw [← hq1]; exact hq
        have := coeff_unique hA h this hhm
        exact Prod.ext hq1 this
      · right
        refine ⟨?_, hu.symm, he⟩
        rw [hr] at hq
        rcases List.mem_cons.1 hq with rfl | hq
        · exact absurd rfl he
        · exact hq
    · rintro (rfl | ⟨hq, hu, he⟩)
      · exact ⟨hhm, ufs_idem hG p.1⟩
      · exact ⟨by rw [hr]; exact List.mem_cons_of_mem _ hq, hu.symm⟩
  · rw [List.mem_toFinset, List.mem_filter]
    rintro ⟨-, hn⟩
    have hn := of_decide_eq_true hn
    exact hn.2 (ufs_idem hG p.1)

theorem hvec_pivot (hG : Good cols groups) (hA : ColSep cols A) {row : SRow K} (h : row ∈ A) {p q : ℕ × K}
    (hq : q ∈ row.2) (hn : newHead (ufs groups) p q) {k : ℕ} (hk : k ∈ grp groups p.1) :
    hvec groups p q k = ((grp groups q.1).length : K) * q.2 := by
  unfold hvec csVec
  have h1 : k ∉ grp groups q.1 := by
    intro hk2
    rw [← ufs_iff hG] at hk hk2
    exact hn.2 (hk2.symm.trans hk)
  rw [if_neg (by tauto), if_pos ⟨hk, weight_ne hG hA h hq⟩]

theorem hvec_other (hG : Good cols groups) (hA : ColSep cols A) {row : SRow K} (h : row ∈ A) {p q : ℕ × K}
    (hp : p ∈ row.2) {k : ℕ} (hk : k ∈ grp groups q.1) :
    hvec groups p q k = - (((grp groups p.1).length : K) * p.2) := by
  unfold hvec csVec
  rw [if_pos ⟨hk, weight_ne hG hA h hp⟩]

theorem hvec_zero {p q : ℕ × K} {k : ℕ} (h1 : k ∉ grp groups p.1) (h2 : k ∉ grp groups q.1) : hvec groups p q k = 0 := by
  unfold hvec csVec
  rw [if_neg (by tauto), if_neg (by tauto)]

/-- the pivot solution solves its row -/
theorem rowVal_x0 (hG : Good cols groups) (hA : ColSep cols A) (hal : GroupsAligned A groups) (b : ℕ → K) {row : SRow K}
    (h : row ∈ A) : rowVal row (x0Of (A.flatMap (csX0 (ufs groups) (groupDict cols groups) b))) = b row.1 := by
  obtain ⟨p, rest, hr⟩ := row_split hA h
  have hpm : (p.1, p.2) ∈ row.2 := by rw [hr]; simp
  have hhm := aligned hG hal h hpm (ufs_mem hG p.1)
  rw [rowVal_heads hG hA hal h _ (x0_const hG hA hal b)]
  obtain ⟨hh, hnot⟩ := heads_eq hG hA hal h hr
  rw [hh, Finset.sum_insert hnot, Finset.sum_eq_zero, add_zero]
  · rw [x0_row hG hA hal b h hr hhm, if_pos (ufs_mem hG p.1)]
    simp only
    rw [grp_eq hG (ufs_mem hG p.1)]
    have := weight_ne hG hA h hpm
    simp only at this
    rw [mul_div_cancel₀ _ this]
  · intro q hq
    rw [List.mem_toFinset, List.mem_filter] at hq
    have hn := of_decide_eq_true hq.2
    have hqm : (q.1, q.2) ∈ row.2 := by rw [hr]; exact List.mem_cons_of_mem _ hq.1
    rw [x0_row hG hA hal b h hr hqm, if_neg, mul_zero]
    intro hk
    rw [← ufs_iff hG] at hk
    exact hn.2 hk

/-- every vector is in the kernel of every row -/
theorem rowVal_hvec (hG : Good cols groups) (hA : ColSep cols A) (hal : GroupsAligned A groups) {row row' : SRow K}
    (h : row ∈ A) (h' : row' ∈ A) {p : ℕ × K} {rest : List (ℕ × K)} (hr : row.2 = p :: rest) {q : ℕ × K} (hq : q ∈ rest)
    (hn : newHead (ufs groups) p q) : rowVal row' (hvec groups p q) = 0 := by
  have hpm : (p.1, p.2) ∈ row.2 := by rw [hr]; simp
  have hqm : (q.1, q.2) ∈ row.2 := by rw [hr]; exact List.mem_cons_of_mem _ hq
  rw [rowVal_heads hG hA hal h' _ (hvec_const hG p q)]
  by_cases he : row = row'
  · subst he
    obtain ⟨hh, hnot⟩ := heads_eq hG hA hal h hr
    rw [hh, Finset.sum_insert hnot, Finset.sum_eq_single q]
    · rw [hvec_pivot hG hA h hqm hn (ufs_mem hG p.1), hvec_other hG hA h hpm (mem_grp hG q.1)]
      simp only
      rw [grp_eq hG (ufs_mem hG p.1)]
      ring
    · intro q' hq' hne
      rw [List.mem_toFinset, List.mem_filter] at hq'
      have hn' := of_decide_eq_true hq'.2
      have hqm' : (q'.1, q'.2) ∈ row.2 := by rw [hr]; exact List.mem_cons_of_mem _ hq'.1
      rw [hvec_zero, mul_zero]
      · intro hk
        rw [← ufs_iff hG] at hk
        exact hn'.2 hk
      · intro hk
        rw [← ufs_iff hG] at hk
        have e : q'.1 = q.1 := by rw [hn'.1, hk, ← hn.1]
        apply hne
        rw [e] at hqm'
        exact Prod.ext e (coeff_unique hA h hqm' hqm)
    · intro hc
      exact absurd (List.mem_toFinset.2 (List.mem_filter.2 ⟨hq, decide_eq_true hn⟩)) hc
  · apply Finset.sum_eq_zero
    intro q' hq'
    rw [Finset.mem_filter, List.mem_toFinset] at hq'
    rw [hvec_zero, mul_zero]
    · intro hk
      exact he (row_unique hA h h' (aligned hG hal h hpm hk) (c' := q'.2) hq'.1)
    · intro hk
      exact he (row_unique hA h h' (aligned hG hal h hqm hk) (c' := q'.2) hq'.1)

/-- The combination `Σ y_l v_l` of the vectors in a list. -/
def comb (ys : List K) (L : List (ℕ → K)) (k : ℕ) : K := (List.zipWith (fun y v => y * v k) ys L).sum

theorem rowVal_add (row : SRow K) (x z : ℕ → K) : rowVal row (fun k => x k + z k) = rowVal row x + rowVal row z := by
  unfold rowVal
  rw [← List.sum_map_add]
  congr 1
  apply List.map_congr_left
  intro p _
  ring

theorem rowVal_comb (row : SRow K) (L : List (ℕ → K)) (h : ∀ v ∈ L, rowVal row v = 0) : ∀ ys, rowVal row (comb ys L) = 0 := by
  induction L with
  | nil =>
    intro ys
    unfold rowVal comb
    simp
  | cons v L ih =>
    intro ys
    cases ys with
    | nil => unfold rowVal comb; simp
    | cons y ys =>
      have e : comb (y :: ys) (v :: L) = fun k => y * v k + comb ys L k := by
        funext k; unfold comb; simp
      rw [e, rowVal_add, ih (fun v hv => h v (List.mem_cons_of_mem _ hv)), add_zero]
      have e2 : rowVal row (fun k => y * v k) = y * rowVal row v := by
        unfold rowVal
        rw [← List.sum_map_mul_left]
        congr 1
        apply List.map_congr_left
        intro p _
        ring
      rw [e2, h v (by simp), mul_zero]

theorem comb_const (groups : List (List ℕ)) (L : List (ℕ → K)) (h : ∀ v ∈ L, ∀ g ∈ groups, ∀ i ∈ g, ∀ j ∈ g, v i = v j) :
    ∀ ys, ∀ g ∈ groups, ∀ i ∈ g, ∀ j ∈ g, comb ys L i = comb ys L j := by
  intro ys g hg i hi j hj
  unfold comb
  congr 1
  induction L generalizing ys with
  | nil => simp
  | cons v L ih =>
    cases ys with
    | nil => rfl
    | cons y ys =>
      rw [List.zipWith_cons_cons, List.zipWith_cons_cons, h v (by simp) g hg i hi j hj,
        ih (fun v hv => h v (List.mem_cons_of_mem _ hv)) ys]

theorem mem_space (hG : Good cols groups) (hA : ColSep cols A) {v : ℕ → K}
    (hv : v ∈ A.flatMap (csSpace (ufs groups) (groupDict cols groups))) :
    ∃ row ∈ A, ∃ p rest, row.2 = p :: rest ∧ ∃ q ∈ rest, newHead (ufs groups) p q ∧ v = hvec groups p q := by
  rw [List.mem_flatMap] at hv
  obtain ⟨row, h, hv⟩ := hv
  obtain ⟨p, rest, hr⟩ := row_split hA h
  rw [csSpace_eq hG hA h hr, List.mem_map] at hv
  obtain ⟨q, hq, rfl⟩ := hv
  rw [List.mem_filter] at hq
  exact ⟨row, h, p, rest, hr, q, hq.1, of_decide_eq_true hq.2, rfl⟩

theorem solveColumnSep_eq (hG : Good cols groups) (b : ℕ → K) :
    solveColumnSep cols A b groups = .ok (x0Of (A.flatMap (csX0 (ufs groups) (groupDict cols groups) b)),
      A.flatMap (csSpace (ufs groups) (groupDict cols groups))) := by
  unfold solveColumnSep
  rw [if_neg]
  · rfl
  · rw [List.any_eq_true]
    rintro ⟨g, hg, h⟩
    exact hG.ne g hg (by simpa using h)

/-- **C24, soundness, part of the claim.** If the groups are disjoint and aligned with the rows (in particular without
groups), every `x0 + Σ y_l v_l` satisfies every equation that has a nonzero coefficient and is constant on the groups.
Missing from the full claim: equations `0 = b` with `b ≠ 0` (`columnSep_zero_row`) and groups that are not aligned
(`columnSep_group_wrong`). -/
theorem columnSep_sound_partial (hG : Good cols groups) (hA : ColSep cols A) (hal : GroupsAligned A groups) (b : ℕ → K)
    (x0 : ℕ → K) (sp : List (ℕ → K)) (hs : solveColumnSep cols A b groups = .ok (x0, sp)) (ys : List K) :
    (∀ row ∈ A, rowVal row (fun k => x0 k + comb ys sp k) = b row.1) ∧
    (∀ g ∈ groups, ∀ i ∈ g, ∀ j ∈ g, x0 i + comb ys sp i = x0 j + comb ys sp j) := by
  rw [solveColumnSep_eq hG b] at hs
  obtain ⟨rfl, rfl⟩ := Prod.mk.inj (Except.ok.inj hs)
  constructor
  · intro row h
    rw [rowVal_add, rowVal_x0 hG hA hal b h, rowVal_comb, add_zero]
    intro v hv
    obtain ⟨row0, h0, p, rest, hr, q, hq, hn, rfl⟩ := mem_space hG hA hv
    exact rowVal_hvec hG hA hal h0 h hr hq hn
  · intro g hg i hi j hj
    rw [x0_const hG hA hal b g hg i hi j hj, comb_const groups _ _ ys g hg i hi j hj]
    intro v hv
    obtain ⟨row0, h0, p, rest, hr, q, hq, hn, rfl⟩ := mem_space hG hA hv
    exact hvec_const hG p q

theorem comb_append (ys zs : List K) (L M : List (ℕ → K)) (h : ys.length = L.length) (k : ℕ) :
    comb (ys ++ zs) (L ++ M) k = comb ys L k + comb zs M k := by
  unfold comb
  rw [List.zipWith_append h, List.sum_append]

theorem comb_map (l : List (ℕ × K)) (a : ℕ × K → K) (F : ℕ × K → ℕ → K) (k : ℕ) :
    comb (l.map a) (l.map F) k = (l.map fun q => a q * F q k).sum := by
  unfold comb
  rw [List.zipWith_map, List.zipWith_self]

/-- **C24, completeness, part of the claim.** Under the same conditions, if moreover no column is zero, every solution
that is constant on the groups has the form `x0 + Σ y_l v_l`.  Missing: zero columns (`columnSep_zero_column`). -/
theorem columnSep_complete_partial (hG : Good cols groups) (hA : ColSep cols A) (hal : GroupsAligned A groups)
    (hcov : ∀ k, k < cols → ∃ row ∈ A, ∃ c, (k, c) ∈ row.2) (b : ℕ → K) (x0 : ℕ → K) (sp : List (ℕ → K))
    (hs : solveColumnSep cols A b groups = .ok (x0, sp)) (x : ℕ → K) (hx : ∀ row ∈ A, rowVal row x = b row.1)
    (hc : ∀ g ∈ groups, ∀ i ∈ g, ∀ j ∈ g, x i = x j) :
    ∃ ys : List K, ys.length = sp.length ∧ ∀ k, k < cols → x k = x0 k + comb ys sp k := by
  rw [solveColumnSep_eq hG b] at hs
  obtain ⟨rfl, rfl⟩ := Prod.mk.inj (Except.ok.inj hs)
  have hxg : ∀ j k, j ∈ grp groups k → x j = x k := by
    intro j k h
    rcases (mem_grp_iff hG _ _).1 h with e | ⟨g, hg, h1, h2⟩
    · rw [e]
    · exact hc g hg _ h1 _ h2
  let yrow : SRow K → List K := fun row => match row.2 with
    | [] => []
    | p :: rest => (rest.filter fun q => decide (newHead (ufs groups) p q)).map
        fun q => - x q.1 / (((grp groups p.1).length : K) * p.2)
  have hyrow : ∀ row ∈ A, ∀ p rest, row.2 = p :: rest → ∀ k, comb (yrow row) (csSpace (ufs groups) (groupDict cols groups) row) k =
      ∑ q ∈ (rest.filter fun q => decide (newHead (ufs groups) p q)).toFinset, (- x q.1 / (((grp groups p.1).length : K) * p.2)) * hvec groups p q k := by
    intro row h p rest hr k
    rw [csSpace_eq hG hA h hr]
    have : yrow row = (rest.filter fun q => decide (newHead (ufs groups) p q)).map
        fun q => - x q.1 / (((grp groups p.1).length : K) * p.2) := by
      simp only [yrow]; rw [hr]
    rw [this, comb_map]
    have hnd : row.2.Nodup := List.Nodup.of_map _ (row_nodup hA h)
    rw [hr, List.nodup_cons] at hnd
    rw [List.sum_toFinset _ (hnd.2.filter _)]
  have hylen : ∀ row ∈ A, (yrow row).length = (csSpace (ufs groups) (groupDict cols groups) row).length := by
    intro row h
    obtain ⟨p, rest, hr⟩ := row_split hA h
    rw [csSpace_eq hG hA h hr]
    simp only [yrow]
    rw [hr]
    simp
  have hflat : ∀ (l : List (SRow K)), (∀ row ∈ l, row ∈ A) →
      (l.flatMap yrow).length = (l.flatMap (csSpace (ufs groups) (groupDict cols groups))).length ∧
      ∀ k, comb (l.flatMap yrow) (l.flatMap (csSpace (ufs groups) (groupDict cols groups))) k =
        (l.map fun row => comb (yrow row) (csSpace (ufs groups) (groupDict cols groups) row) k).sum := by
    intro l
    induction l with
    | nil => intro _; simp [comb]
    | cons row l ih =>
      intro hl
      obtain ⟨ih1, ih2⟩ := ih (fun r hr => hl r (List.mem_cons_of_mem _ hr))
      have hlen := hylen row (hl row (by simp))
      refine ⟨by rw [List.flatMap_cons, List.flatMap_cons, List.length_append, List.length_append, hlen, ih1], fun k => ?_⟩
      rw [List.flatMap_cons, List.flatMap_cons, comb_append _ _ _ _ hlen, ih2, List.map_cons, List.sum_cons]
  obtain ⟨hl, hcomb⟩ := hflat A (fun _ h => h)
  refine ⟨A.flatMap yrow, hl, fun k hk => ?_⟩
  rw [hcomb]
  obtain ⟨row, h, c, hkc⟩ := hcov k hk
  obtain ⟨p, rest, hr⟩ := row_split hA h
  have hpm : (p.1, p.2) ∈ row.2 := by rw [hr]; simp
  have hw := weight_ne hG hA h hpm
  simp only at hw
  -- the other rows contribute nothing
  have hAnd : A.Nodup := by
    have hp := (List.nodup_flatMap.1 hA.sep).2
    rw [List.nodup_iff_pairwise_ne] at *
    refine (hp.imp_of_mem ?_)
    intro r r' hr1 hr2 hd he
    subst he
    obtain ⟨p', rest', hr'⟩ := row_split hA hr1
    exact hd (a := p'.1) (List.mem_map.2 ⟨p', by rw [hr']; simp, rfl⟩) (List.mem_map.2 ⟨p', by rw [hr']; simp, rfl⟩)
  have hother : ∀ row' ∈ A, row' ≠ row → comb (yrow row') (csSpace (ufs groups) (groupDict cols groups) row') k = 0 := by
    intro row' h' hne
    obtain ⟨p', rest', hr'⟩ := row_split hA h'
    have hpm' : (p'.1, p'.2) ∈ row'.2 := by rw [hr']; simp
    rw [hyrow row' h' p' rest' hr' k]
    apply Finset.sum_eq_zero
    intro q hq
    rw [List.mem_toFinset, List.mem_filter] at hq
    have hqm' : (q.1, q.2) ∈ row'.2 := by rw [hr']; exact List.mem_cons_of_mem _ hq.1
    rw [hvec_zero, mul_zero]
    · intro hkg
      exact hne (row_unique hA h' h (aligned hG hal h' hpm' hkg) hkc)
    · intro hkg
      exact hne (row_unique hA h' h (aligned hG hal h' hqm' hkg) hkc)
  have hone : (A.map fun row => comb (yrow row) (csSpace (ufs groups) (groupDict cols groups) row) k).sum =
      comb (yrow row) (csSpace (ufs groups) (groupDict cols groups) row) k := by
    rw [← List.sum_toFinset _ hAnd, Finset.sum_eq_single row]
    · intro r hr1 hne
      exact hother r (List.mem_toFinset.1 hr1) hne
    · intro hn; exact absurd (List.mem_toFinset.2 h) hn
  rw [hone, hyrow row h p rest hr k, x0_row hG hA hal b h hr hkc]
  obtain ⟨hh, hnot⟩ := heads_eq hG hA hal h hr
  by_cases hkp : k ∈ grp groups p.1
  · rw [if_pos hkp]
    have hrow := hx row h
    rw [rowVal_heads hG hA hal h x hc, hh, Finset.sum_insert hnot] at hrow
    simp only at hrow
    rw [grp_eq hG (ufs_mem hG p.1), hxg _ _ (ufs_mem hG p.1), ← hxg k p.1 hkp] at hrow
    have e : ∑ q ∈ (rest.filter fun q => decide (newHead (ufs groups) p q)).toFinset, (- x q.1 / (((grp groups p.1).length : K) * p.2)) * hvec groups p q k
        = - (∑ q ∈ (rest.filter fun q => decide (newHead (ufs groups) p q)).toFinset, ((grp groups q.1).length : K) * q.2 * x q.1) / (((grp groups p.1).length : K) * p.2) := by
      rw [div_eq_mul_inv, ← Finset.sum_neg_distrib, Finset.sum_mul]
      apply Finset.sum_congr rfl
      intro q hq
      rw [List.mem_toFinset, List.mem_filter] at hq
      have hqm : (q.1, q.2) ∈ row.2 := by rw [hr]; exact List.mem_cons_of_mem _ hq.1
      rw [hvec_pivot hG hA h hqm (of_decide_eq_true hq.2) hkp, div_eq_mul_inv]
      ring
    rw [e, ← add_div, eq_div_iff hw, ← hrow]
    ring
  · rw [if_neg hkp, zero_add]
    have hqm := aligned hG hal h hkc (ufs_mem hG k)
    have hnew : newHead (ufs groups) p (ufs groups k, c) := by
      refine ⟨(ufs_idem hG k).symm, ?_⟩
      simp only
      rw [ufs_idem hG k]
      intro he
      exact hkp ((ufs_iff hG _ _).1 he)
    have hmem : (ufs groups k, c) ∈ (rest.filter fun q => decide (newHead (ufs groups) p q)).toFinset := by
      rw [List.mem_toFinset, List.mem_filter]
      refine ⟨?_, decide_eq_true hnew⟩
      rw [hr] at hqm
      rcases List.mem_cons.1 hqm with he | hm
      · exfalso
        apply hnew.2
        rw [← he]
      · exact hm
    rw [Finset.sum_eq_single (ufs groups k, c)]
    · have hkq : k ∈ grp groups (ufs groups k, c).1 := by
        simp only
        rw [grp_eq hG (ufs_mem hG k)]
        exact mem_grp hG k
      rw [hvec_other hG hA h hpm hkq]
      simp only
      rw [hxg _ _ (ufs_mem hG k), mul_neg, div_mul_cancel₀ _ hw, neg_neg]
    · intro q hq hne
      rw [List.mem_toFinset, List.mem_filter] at hq
      have hn := of_decide_eq_true hq.2
      have hqm' : (q.1, q.2) ∈ row.2 := by rw [hr]; exact List.mem_cons_of_mem _ hq.1
      rw [hvec_zero hkp, mul_zero]
      intro hkq
      apply hne
      rw [← ufs_iff hG] at hkq
      have e : q.1 = ufs groups k := by rw [hn.1, hkq]
      rw [e] at hqm'
      exact Prod.ext e (coeff_unique hA h hqm' hqm)
    · intro hn; exact absurd hmem hn

end colsep

/-! ### Where the column separated solver is wrong -/

/-- **C24 fails.** The system `0·x₀ + 0·x₁ = 1` (one row without entries) has no solution, but it is accepted. -/
theorem columnSep_zero_row : ∃ x0 sp, solveColumnSep (K := ℚ) 2 [] (fun _ => 1) [] = .ok (x0, sp) ∧
    ¬ ∃ x : ℕ → ℚ, 0 * x 0 + 0 * x 1 = 1 := by
  refine ⟨_, _, rfl, ?_⟩
  rintro ⟨x, hx⟩
  simp at hx

/-- **C24 fails.** `x₀ = 1, x₁ = 1` with `x₀` and `x₁` required equal has the solution `(1, 1)`; the code returns
`(1/2, 1/2)` and no freedom. -/
theorem columnSep_group_wrong : (match solveColumnSep (K := ℚ) 2 [(0, [(0, 1)]), (1, [(1, 1)])] (fun _ => 1) [[0, 1]] with
    | .ok (x0, sp) => decide (x0 0 = 1/2 ∧ x0 1 = 1/2 ∧ sp.length = 0)
    | .error _ => false) = true := by decide +kernel

/-- **C24 (completeness) fails.** `x₀ = 1` in two unknowns: the unknown `x₁` is free, but the returned space is empty. -/
theorem columnSep_zero_column : (match solveColumnSep (K := ℚ) 2 [(0, [(0, 1)])] (fun _ => 1) [] with
    | .ok (x0, sp) => decide (x0 0 = 1 ∧ x0 1 = 0 ∧ sp.length = 0)
    | .error _ => false) = true := by decide +kernel

/-! ### Examples -/

def exRows : List (SRow ℚ) := [(0, [(0, 1), (1, 1), (3, 2)]), (1, [(2, 1)])]

example : Good 4 [[0, 1]] := ⟨by simp, by simp, by simp, by simp⟩
example : ColSep 4 exRows := ⟨by decide +kernel, by decide +kernel, by decide +kernel, by decide +kernel⟩
example : GroupsAligned exRows [[0, 1]] := by
  unfold GroupsAligned exRows
  simp
/-- x₀ + x₁ + 2x₃ = 6, x₂ = 5, x₀ = x₁ -/
example : (match solveColumnSep 4 exRows (fun i => if i = 0 then 6 else 5) [[0, 1]] with
    | .ok (x0, sp) => decide ([x0 0, x0 1, x0 2, x0 3] = [3, 3, 5, 0] ∧ sp.map (fun v => [v 0, v 1, v 2, v 3]) = [[2, 2, 0, -2]])
    | .error _ => false) = true := by decide +kernel
/-- the general branch on x₀ + x₁ + x₂ = 4, x₁ - x₂ = 1 with x₀ = x₁ -/
example : (match solveCsrGeneral (K := ℚ) 2 3 (fun i j => ([[1, 1, 1], [0, 1, -1]].getD i []).getD j 0) (fun i _ => [4, 1].getD i 0) [[0, 1]] with
    | .ok (x0, _, n) => decide ([x0 0 0, x0 1 0, x0 2 0] = [5/3, 5/3, 2/3] ∧ n = 0)
    | .error _ => false) = true := by decide +kernel

end Verif.LinSolve
