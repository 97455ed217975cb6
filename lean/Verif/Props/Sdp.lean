import Verif.Model.Sdp
import Verif.Props.CsrSolve
import Mathlib.Algebra.Order.Field.Basic
import Mathlib.Algebra.Order.BigOperators.Group.Finset
import Mathlib.Tactic.Linarith
import Mathlib.Tactic.Positivity

/-!
# C25, C27: row masking and reparametrisation of dual SDP problems
-/

set_option linter.unusedSectionVars false

namespace Verif.Sdp
open Verif Verif.LinSolve Finset

variable {K : Type*} [Field K] [LinearOrder K] [IsStrictOrderedRing K]

/-- `M` (size `n`) is symmetric and positive semidefinite. -/
def PSD (n : ℕ) (M : ℕ → ℕ → K) : Prop :=
  (∀ i j, i < n → j < n → M i j = M j i) ∧ ∀ x : ℕ → K, 0 ≤ ∑ i ∈ range n, ∑ j ∈ range n, x i * M i j * x j

/-- All matrices of the problem are positive semidefinite at `y`. -/
def Feasible (d : Dual K) (y : ℕ → K) : Prop := ∀ b ∈ d.blocks, PSD b.n (b.mat d.dof y)

/-- The constant and coefficient matrices are symmetric (the documented input of a dual problem). -/
def SymPencil (dof : ℕ) (b : Block K) : Prop :=
  ∀ i j, i < b.n → j < b.n → b.x0 (i * b.n + j) = b.x0 (j * b.n + i) ∧ ∀ l, l < dof → b.sp (i * b.n + j) l = b.sp (j * b.n + i) l

theorem mat_congr (b : Block K) (dof : ℕ) {y y' : ℕ → K} (h : ∀ l, l < dof → y l = y' l) : b.mat dof y = b.mat dof y' := by
  funext i j
  unfold Block.mat
  congr 1
  apply Finset.sum_congr rfl
  intro l hl
  rw [h l (Finset.mem_range.1 hl)]

/-- **C27.** Reparametrising a block by `y = b + A z` keeps the matrix: the child's matrix at `z` is the parent's at
`b + A z`, for every `z`. -/
theorem mat_subst (b : Block K) (dof : ℕ) (t : Aff K) (z : ℕ → K) : (b.subst dof t).mat t.dim z = b.mat dof (t.app z) := by
  funext i j
  unfold Block.mat Block.subst Aff.app
  simp only
  have : ∑ l ∈ range dof, b.sp (i * b.n + j) l * (t.x0 l + ∑ m ∈ range t.dim, t.sp l m * z m)
      = ∑ l ∈ range dof, b.sp (i * b.n + j) l * t.x0 l + ∑ m ∈ range t.dim, (∑ l ∈ range dof, b.sp (i * b.n + j) l * t.sp l m) * z m := by
    have e : ∑ m ∈ range t.dim, (∑ l ∈ range dof, b.sp (i * b.n + j) l * t.sp l m) * z m
        = ∑ l ∈ range dof, ∑ m ∈ range t.dim, b.sp (i * b.n + j) l * t.sp l m * z m := by
      rw [Finset.sum_comm]
      apply Finset.sum_congr rfl
      intro m _
      rw [Finset.sum_mul]
    rw [e, ← Finset.sum_add_distrib]
    apply Finset.sum_congr rfl
    intro l _
    rw [mul_add, Finset.mul_sum]
    congr 1
    apply Finset.sum_congr rfl
    intro m _
    ring
  rw [this]
  ring

/-- **C27.** The reparametrised problem is feasible at `z` exactly when the original is feasible at `b + A z`. -/
theorem vectorTransform_feasible (d : Dual K) (t : Aff K) (z : ℕ → K) :
    Feasible (vectorTransform d t) z ↔ Feasible d (t.app z) := by
  unfold Feasible vectorTransform
  simp only [List.mem_map]
  constructor
  · intro h b hb
    have := h _ ⟨b, hb, rfl⟩
    rw [mat_subst] at this
    exact this
  · rintro h _ ⟨b, hb, rfl⟩
    rw [mat_subst]
    exact h b hb

/-- Solving a list of equations parametrises exactly the vectors that satisfy all of them. -/
theorem solveEqs_ok (dof : ℕ) (rows : List ((ℕ → K) × K)) (t : Aff K) (h : solveEqs dof rows = .ok t) :
    (∀ y : ℕ → K, (∀ r ∈ rows, ∑ l ∈ range dof, r.1 l * y l + r.2 = 0) ↔ ∃ z, ∀ l, l < dof → y l = t.app z l) ∧
    (∀ z z' : ℕ → K, (∀ l, l < dof → t.app z l = t.app z' l) → ∀ m, m < t.dim → z m = z' m) := by
  unfold solveEqs at h
  cases hs : solveUndetermined rows.length dof 1 (fun i l => (rows.getD i (fun _ => 0, 0)).1 l)
    (fun i _ => - (rows.getD i (fun _ => 0, 0)).2) with
  | error e => rw [hs] at h; cases h
  | ok r =>
    obtain ⟨x0, sp, n⟩ := r
    rw [hs] at h
    have := Except.ok.inj h
    subst this
    obtain ⟨h1, h2⟩ := solveUndetermined_ok _ _ _ _ _ _ _ _ hs
    constructor
    · intro y
      rw [show (∃ z, ∀ l, l < dof → y l = (Aff.mk (fun l => x0 l 0) sp n).app z l) ↔
        ∃ z : ℕ → K, ∀ k, k < dof → y k = x0 k 0 + ∑ l ∈ range n, sp k l * z l from Iff.rfl]
      rw [← h1 0 (by omega) y]
      constructor
      · intro hr i hi
        have := hr (rows.getD i (fun _ => 0, 0)) (by
          rw [List.getD_eq_getElem?_getD, List.getElem?_eq_getElem hi]; exact List.getElem_mem hi)
        simp only [rowDot]
        linear_combination this
      · intro hr r hrm
        obtain ⟨i, hi, rfl⟩ := List.mem_iff_getElem.1 hrm
        have := hr i hi
        have e : rows.getD i (fun _ => 0, 0) = rows[i] := by
          rw [List.getD_eq_getElem?_getD, List.getElem?_eq_getElem hi]; rfl
        simp only [rowDot, e] at this
        linear_combination this
    · intro z z' hz m hm
      have := h2 (fun l => z l - z' l) (by
        intro k hk
        have := hz k hk
        unfold Aff.app at this
        simp only at this
        have e : ∑ l ∈ range n, sp k l * (z l - z' l) = ∑ l ∈ range n, sp k l * z l - ∑ l ∈ range n, sp k l * z' l := by
          rw [← Finset.sum_sub_distrib]
          apply Finset.sum_congr rfl
          intro l _; ring
        rw [e]
        linear_combination this) m hm
      linear_combination this

theorem solveEqs_error (dof : ℕ) (rows : List ((ℕ → K) × K)) (e : PyErr) (h : solveEqs dof rows = .error e) :
    e = .valueError ∧ ¬ ∃ y : ℕ → K, ∀ r ∈ rows, ∑ l ∈ range dof, r.1 l * y l + r.2 = 0 := by
  unfold solveEqs at h
  cases hs : solveUndetermined rows.length dof 1 (fun i l => (rows.getD i (fun _ => 0, 0)).1 l)
    (fun i _ => - (rows.getD i (fun _ => 0, 0)).2) with
  | ok r => rw [hs] at h; cases h
  | error e' =>
    rw [hs] at h
    injection h with h
    obtain ⟨he, j, hj, hno⟩ := (solveUndetermined_error_iff _ _ _ _ _ _).1 hs
    refine ⟨by rw [← h, he], ?_⟩
    rintro ⟨y, hy⟩
    apply hno
    refine ⟨y, fun i hi => ?_⟩
    have := hy (rows.getD i (fun _ => 0, 0)) (by
      rw [List.getD_eq_getElem?_getD, List.getElem?_eq_getElem hi]; exact List.getElem_mem hi)
    simp only [rowDot]
    linear_combination this

/-! ### Restricting to a set of rows -/

theorem um_mem_lt {n : ℕ} {mask : List ℕ} {a : ℕ} (ha : a < (unmask n mask).length) : (unmask n mask).getD a 0 < n := by
  rw [List.getD_eq_getElem?_getD, List.getElem?_eq_getElem ha]
  have := List.mem_filter.1 (List.getElem_mem ha)
  exact List.mem_range.1 this.1

/-- a sum over all rows is a sum over the unmasked rows if the masked ones vanish -/
theorem sum_um (n : ℕ) (mask : List ℕ) (f : ℕ → K) (h : ∀ i ∈ mask, f i = 0) :
    ∑ i ∈ range n, f i = ∑ a ∈ range (unmask n mask).length, f ((unmask n mask).getD a 0) := by
  have h0 : ∀ (l : List ℕ), (l.map f).sum = ∑ k ∈ range l.length, f (l.getD k 0) := by
    intro l
    induction l with
    | nil => simp
    | cons a l ih =>
      rw [List.map_cons, List.sum_cons, List.length_cons, Finset.sum_range_succ', ih, add_comm]
      simp
  rw [← h0, ← listRange_sum]
  unfold unmask
  generalize List.range n = l
  induction l with
  | nil => rfl
  | cons a l ih =>
    rw [List.filter_cons, List.map_cons, List.sum_cons]
    by_cases ha : a ∈ mask
    · rw [if_neg (by simpa using ha), h a ha, zero_add, ih]
    · rw [if_pos (by simpa using ha), List.map_cons, List.sum_cons, ih]

theorem psd_restrict (n : ℕ) (mask : List ℕ) (M : ℕ → ℕ → K) (h : PSD n M) :
    PSD (unmask n mask).length (fun a c => M ((unmask n mask).getD a 0) ((unmask n mask).getD c 0)) := by
  obtain ⟨hs, hp⟩ := h
  refine ⟨fun a c ha hc => hs _ _ (um_mem_lt ha) (um_mem_lt hc), fun x => ?_⟩
  let x' : ℕ → K := fun i => if i ∈ mask then 0 else x ((unmask n mask).idxOf i)
  have hx' : ∀ a, a < (unmask n mask).length → x' ((unmask n mask).getD a 0) = x a := by
    intro a ha
    rw [List.getD_eq_getElem?_getD, List.getElem?_eq_getElem ha]
    simp only [Option.getD_some, x']
    have hm := List.mem_filter.1 (List.getElem_mem ha)
    rw [if_neg (by simpa using hm.2)]
    have hnd : (unmask n mask).Nodup := List.nodup_range.filter _
    rw [hnd.idxOf_getElem]
  have := hp x'
  rw [sum_um n mask _ (fun i hi => Finset.sum_eq_zero (fun j _ => by simp [x', hi]))] at this
  have e : ∀ a ∈ range (unmask n mask).length, ∑ j ∈ range n, x' ((unmask n mask).getD a 0) * M ((unmask n mask).getD a 0) j * x' j
      = ∑ c ∈ range (unmask n mask).length, x a * M ((unmask n mask).getD a 0) ((unmask n mask).getD c 0) * x c := by
    intro a ha
    rw [sum_um n mask _ (fun i hi => by simp [x', hi])]
    apply Finset.sum_congr rfl
    intro c hc
    rw [hx' a (Finset.mem_range.1 ha), hx' c (Finset.mem_range.1 hc)]
  rw [Finset.sum_congr rfl e] at this
  exact this

theorem psd_extend (n : ℕ) (mask : List ℕ) (M : ℕ → ℕ → K) (hs : ∀ i j, i < n → j < n → M i j = M j i)
    (hz : ∀ i ∈ mask, ∀ j, j < n → M i j = 0) (hin : ∀ i ∈ mask, i < n)
    (h : PSD (unmask n mask).length (fun a c => M ((unmask n mask).getD a 0) ((unmask n mask).getD c 0))) : PSD n M := by
  refine ⟨hs, fun x => ?_⟩
  have h1 := h.2 (fun a => x ((unmask n mask).getD a 0))
  have e : ∑ i ∈ range n, ∑ j ∈ range n, x i * M i j * x j =
      ∑ a ∈ range (unmask n mask).length, ∑ c ∈ range (unmask n mask).length,
        x ((unmask n mask).getD a 0) * M ((unmask n mask).getD a 0) ((unmask n mask).getD c 0) * x ((unmask n mask).getD c 0) := by
    rw [sum_um n mask]
    · apply Finset.sum_congr rfl
      intro a ha
      rw [sum_um n mask]
      intro j hj
      rw [hs _ j (um_mem_lt (Finset.mem_range.1 ha)) (hin j hj), hz j hj _ (um_mem_lt (Finset.mem_range.1 ha))]
      ring
    · intro i hi
      apply Finset.sum_eq_zero
      intro j hj
      rw [hz i hi j (Finset.mem_range.1 hj)]; ring
  rw [e]
  exact h1

/-- a zero diagonal entry of a positive semidefinite matrix forces the row to vanish -/
theorem psd_zero_row (n : ℕ) (M : ℕ → ℕ → K) (h : PSD n M) (i : ℕ) (hi : i < n) (h0 : M i i = 0) (j : ℕ) (hj : j < n) :
    M i j = 0 := by
  obtain ⟨hs, hp⟩ := h
  by_cases hij : i = j
  · subst hij; exact h0
  have hq : ∀ s : K, 0 ≤ 2 * s * M i j + M j j := by
    intro s
    have := hp (fun k => if k = i then s else if k = j then 1 else 0)
    have e : ∀ k, (∑ l ∈ range n, (if k = i then s else if k = j then (1 : K) else 0) * M k l * (if l = i then s else if l = j then 1 else 0))
        = (if k = i then s else if k = j then 1 else 0) * (s * M k i + M k j) := by
      intro k
      have e1 : ∀ l ∈ range n, (if k = i then s else if k = j then (1 : K) else 0) * M k l * (if l = i then s else if l = j then 1 else 0)
          = (if l = i then (if k = i then s else if k = j then (1 : K) else 0) * (M k i * s) else 0)
            + (if l = j then (if k = i then s else if k = j then (1 : K) else 0) * M k j else 0) := by
        intro l _
        by_cases h1 : l = i
        · rw [if_pos h1, if_pos h1, if_neg (show ¬ l = j by omega), h1]; ring
        · by_cases h2 : l = j
          · rw [if_neg h1, if_pos h2, if_neg h1, if_pos h2, h2]; ring
          · rw [if_neg h1, if_neg h2, if_neg h1, if_neg h2]; ring
      rw [Finset.sum_congr rfl e1, Finset.sum_add_distrib, Finset.sum_ite_eq', Finset.sum_ite_eq',
        if_pos (Finset.mem_range.2 hi), if_pos (Finset.mem_range.2 hj)]
      ring
    rw [Finset.sum_congr rfl (fun k _ => e k)] at this
    have e2 : ∀ k ∈ range n, (if k = i then s else if k = j then (1 : K) else 0) * (s * M k i + M k j)
        = (if k = i then s * (s * M i i + M i j) else 0) + (if k = j then s * M j i + M j j else 0) := by
      intro k _
      by_cases h1 : k = i
      · rw [if_pos h1, if_pos h1, if_neg (show ¬ k = j by omega), h1]; ring
      · by_cases h2 : k = j
        · rw [if_neg h1, if_pos h2, if_neg h1, if_pos h2, h2]; ring
        · rw [if_neg h1, if_neg h2, if_neg h1, if_neg h2]; ring
    rw [Finset.sum_congr rfl e2, Finset.sum_add_distrib, Finset.sum_ite_eq', Finset.sum_ite_eq',
      if_pos (Finset.mem_range.2 hi), if_pos (Finset.mem_range.2 hj), h0, hs j i hj hi] at this
    linarith
  by_contra hne
  have h1 := hq (-(M j j + 1) / (2 * M i j))
  have : 2 * (-(M j j + 1) / (2 * M i j)) * M i j = -(M j j + 1) := by field_simp
  rw [this] at h1
  linarith

theorem flat_get (um : List ℕ) (n : ℕ) (a c : ℕ) (ha : a < um.length) (hc : c < um.length) :
    (nonzeroInds n um).getD (a * um.length + c) 0 = um.getD a 0 * n + um.getD c 0 := by
  unfold nonzeroInds
  have key : ∀ (l : List ℕ) (a : ℕ), a < l.length →
      (l.flatMap fun i => um.map fun j => i * n + j).getD (a * um.length + c) 0 = l.getD a 0 * n + um.getD c 0 := by
    intro l
    induction l with
    | nil => intro a h; simp at h
    | cons x l ih =>
      intro a h
      rw [List.flatMap_cons]
      cases a with
      | zero =>
        rw [List.getD_eq_getElem?_getD, List.getElem?_append_left (by simpa using hc)]
        rw [Nat.zero_mul, Nat.zero_add, List.getElem?_map, List.getElem?_eq_getElem hc, List.getD_eq_getElem?_getD,
          List.getD_eq_getElem?_getD, List.getElem?_eq_getElem hc]
        simp
      | succ a =>
        rw [List.getD_eq_getElem?_getD, List.getElem?_append_right (by simp; nlinarith)]
        have e : (a + 1) * um.length + c - (um.map fun j => x * n + j).length = a * um.length + c := by
          rw [List.length_map]
          have : (a + 1) * um.length = a * um.length + um.length := by ring
          omega
        rw [e, ← List.getD_eq_getElem?_getD, ih a (by simpa using h)]
        simp
  exact key um a ha

theorem mat_maskBlock (b : Block K) (mask : List ℕ) (dof : ℕ) (y : ℕ → K) (a c : ℕ) (ha : a < (unmask b.n mask).length)
    (hc : c < (unmask b.n mask).length) :
    (maskBlock b mask).mat dof y a c = b.mat dof y ((unmask b.n mask).getD a 0) ((unmask b.n mask).getD c 0) := by
  unfold Block.mat maskBlock Block.extract
  simp only
  rw [flat_get _ _ a c ha hc]

theorem psd_congr (n : ℕ) (M N : ℕ → ℕ → K) (h : ∀ i j, i < n → j < n → M i j = N i j) : PSD n M ↔ PSD n N := by
  unfold PSD
  apply and_congr
  · constructor
    · intro hs i j hi hj; rw [← h i j hi hj, ← h j i hj hi]; exact hs i j hi hj
    · intro hs i j hi hj; rw [h i j hi hj, h j i hj hi]; exact hs i j hi hj
  · apply forall_congr'
    intro x
    rw [Finset.sum_congr rfl (fun i hi => Finset.sum_congr rfl (fun j hj => by
      rw [h i j (Finset.mem_range.1 hi) (Finset.mem_range.1 hj)]))]

theorem maskRows_iff (b : Block K) (mask : List ℕ) (dof : ℕ) (y : ℕ → K) :
    (∀ r ∈ maskRows b mask, ∑ l ∈ range dof, r.1 l * y l + r.2 = 0) ↔ ∀ i ∈ mask, ∀ j, j < b.n → b.mat dof y i j = 0 := by
  unfold maskRows Block.mat
  constructor
  · intro h i hi j hj
    have := h _ (List.mem_flatMap.2 ⟨i, hi, List.mem_map.2 ⟨j, List.mem_range.2 hj, rfl⟩⟩)
    simp only at this
    linear_combination this
  · intro h r hr
    obtain ⟨i, hi, hr⟩ := List.mem_flatMap.1 hr
    obtain ⟨j, hj, rfl⟩ := List.mem_map.1 hr
    have := h i hi j (List.mem_range.1 hj)
    simp only
    linear_combination this

theorem mat_symm (dof : ℕ) (b : Block K) (h : SymPencil dof b) (y : ℕ → K) (i j : ℕ) (hi : i < b.n) (hj : j < b.n) :
    b.mat dof y i j = b.mat dof y j i := by
  obtain ⟨h1, h2⟩ := h i j hi hj
  unfold Block.mat
  rw [h1]
  congr 1
  apply Finset.sum_congr rfl
  intro l hl
  rw [h2 l (Finset.mem_range.1 hl)]

/-- **C25 (any masks).** For symmetric pencils and masks naming rows of the blocks: the points where the parent is
feasible and all masked rows vanish are exactly the images of the feasible points of the child; different points of the
child have different images. -/
theorem rowMask_ok (d : Dual K) (masks : List (List ℕ)) (hsym : ∀ b ∈ d.blocks, SymPencil d.dof b)
    (hin : ∀ p ∈ d.blocks.zip masks, ∀ i ∈ p.2, i < p.1.n) (t : Aff K) (d' : Dual K) (h : rowMask d masks = .ok (t, d')) :
    (∀ y : ℕ → K, (Feasible d y ∧ ∀ p ∈ d.blocks.zip masks, ∀ i ∈ p.2, ∀ j, j < p.1.n → p.1.mat d.dof y i j = 0) ↔
      ∃ z, (∀ l, l < d.dof → y l = t.app z l) ∧ Feasible d' z) ∧
    (∀ z z' : ℕ → K, (∀ l, l < d.dof → t.app z l = t.app z' l) → ∀ m, m < d'.dof → z m = z' m) := by
  unfold rowMask at h
  split_ifs at h with hlen
  push Not at hlen
  cases hs : solveEqs d.dof ((d.blocks.zip masks).flatMap fun p => maskRows p.1 p.2) with
  | error e => rw [hs] at h; cases h
  | ok t' =>
    rw [hs] at h
    obtain ⟨rfl, rfl⟩ := Prod.mk.inj (Except.ok.inj h)
    obtain ⟨h1, h2⟩ := solveEqs_ok _ _ _ hs
    refine ⟨fun y => ?_, h2⟩
    have hrows : ∀ y : ℕ → K, (∀ p ∈ d.blocks.zip masks, ∀ i ∈ p.2, ∀ j, j < p.1.n → p.1.mat d.dof y i j = 0) ↔
        ∃ z, ∀ l, l < d.dof → y l = t'.app z l := by
      intro y
      rw [← h1 y]
      constructor
      · intro h r hr
        obtain ⟨p, hp, hr⟩ := List.mem_flatMap.1 hr
        exact (maskRows_iff p.1 p.2 d.dof y).2 (h p hp) r hr
      · intro h p hp
        exact (maskRows_iff p.1 p.2 d.dof y).1 (fun r hr => h r (List.mem_flatMap.2 ⟨p, hp, hr⟩))
    have hblock : ∀ (y z : ℕ → K), (∀ l, l < d.dof → y l = t'.app z l) → ∀ p ∈ d.blocks.zip masks,
        (PSD ((maskBlock p.1 p.2).subst d.dof t').n (((maskBlock p.1 p.2).subst d.dof t').mat t'.dim z) ↔ PSD p.1.n (p.1.mat d.dof y)) := by
      intro y z hyz p hp
      have hz := (hrows y).2 ⟨z, hyz⟩ p hp
      rw [mat_subst, ← mat_congr _ d.dof hyz]
      rw [show ((maskBlock p.1 p.2).subst d.dof t').n = (unmask p.1.n p.2).length from rfl]
      rw [psd_congr _ _ _ (fun a c ha hc => mat_maskBlock p.1 p.2 d.dof y a c ha hc)]
      constructor
      · intro hpsd
        exact psd_extend _ _ _ (mat_symm d.dof p.1 (hsym _ (List.of_mem_zip hp).1) y) hz (hin p hp) hpsd
      · exact psd_restrict _ _ _
    constructor
    · rintro ⟨hf, hz⟩
      obtain ⟨z, hyz⟩ := (hrows y).1 hz
      refine ⟨z, hyz, ?_⟩
      intro b hb
      obtain ⟨p, hp, rfl⟩ := List.mem_map.1 hb
      exact (hblock y z hyz p hp).2 (hf _ (List.of_mem_zip hp).1)
    · rintro ⟨z, hyz, hf⟩
      refine ⟨?_, (hrows y).2 ⟨z, hyz⟩⟩
      intro b hb
      obtain ⟨k, hk, rfl⟩ := List.mem_iff_getElem.1 hb
      have hp : (d.blocks[k], masks[k]'(by omega)) ∈ d.blocks.zip masks := by
        rw [List.mem_iff_getElem]
        exact ⟨k, by simp; omega, by simp⟩
      exact (hblock y z hyz _ hp).1 (hf _ (List.mem_map.2 ⟨_, hp, rfl⟩))

theorem rowMask_error (d : Dual K) (masks : List (List ℕ)) (hlen : masks.length = d.blocks.length) (e : PyErr)
    (h : rowMask d masks = .error e) :
    e = .valueError ∧ ¬ ∃ y : ℕ → K, ∀ p ∈ d.blocks.zip masks, ∀ i ∈ p.2, ∀ j, j < p.1.n → p.1.mat d.dof y i j = 0 := by
  unfold rowMask at h
  rw [if_neg (by simpa using hlen)] at h
  cases hs : solveEqs d.dof ((d.blocks.zip masks).flatMap fun p => maskRows p.1 p.2) with
  | ok t => rw [hs] at h; cases h
  | error e' =>
    rw [hs] at h
    injection h with h
    obtain ⟨he, hno⟩ := solveEqs_error _ _ _ hs
    refine ⟨by rw [← h, he], ?_⟩
    rintro ⟨y, hy⟩
    apply hno
    refine ⟨y, fun r hr => ?_⟩
    obtain ⟨p, hp, hr⟩ := List.mem_flatMap.1 hr
    exact (maskRows_iff p.1 p.2 d.dof y).2 (hy p hp) r hr

theorem zeroDiag_mat (b : Block K) (dof : ℕ) (y : ℕ → K) (i : ℕ) (h : i ∈ zeroDiag dof b) : i < b.n ∧ b.mat dof y i i = 0 := by
  unfold zeroDiag at h
  rw [List.mem_filter, List.mem_range, Bool.and_eq_true, decide_eq_true_eq, List.all_eq_true] at h
  obtain ⟨h1, h2, h3⟩ := h
  refine ⟨h1, ?_⟩
  unfold Block.mat
  rw [h2, zero_add]
  apply Finset.sum_eq_zero
  intro l hl
  have := h3 l (List.mem_range.2 (Finset.mem_range.1 hl))
  rw [decide_eq_true_eq] at this
  rw [this, zero_mul]

theorem zip_map_mem (d : Dual K) {p : Block K × List ℕ} (hp : p ∈ d.blocks.zip (d.blocks.map (zeroDiag d.dof))) :
    p.2 = zeroDiag d.dof p.1 := by
  rw [List.mem_iff_getElem] at hp
  obtain ⟨k, hk, rfl⟩ := hp
  simp

/-- **C25.** Masking the diagonal entries that are identically zero loses no feasible point and adds none. -/
theorem maskZero_feasible (d : Dual K) (hsym : ∀ b ∈ d.blocks, SymPencil d.dof b) (t : Aff K) (d' : Dual K)
    (h : rowMask d (d.blocks.map (zeroDiag d.dof)) = .ok (t, d')) (y : ℕ → K) :
    Feasible d y ↔ ∃ z, (∀ l, l < d.dof → y l = t.app z l) ∧ Feasible d' z := by
  rw [← (rowMask_ok d _ hsym ?_ t d' h).1 y]
  · constructor
    · intro hf
      refine ⟨hf, ?_⟩
      intro p hp i hi j hj
      have e := zip_map_mem d hp
      rw [e] at hi
      exact psd_zero_row _ _ (hf _ (List.of_mem_zip hp).1) i (zeroDiag_mat _ _ y i hi).1 (zeroDiag_mat _ _ y i hi).2 j hj
    · exact fun h => h.1
  · intro p hp i hi
    have e := zip_map_mem d hp
    rw [e] at hi
    exact (zeroDiag_mat p.1 d.dof (fun _ => 0) i hi).1

/-- **C25.** If masking the zero diagonals raises, there was no feasible point. -/
theorem maskZero_error (d : Dual K) (e : PyErr) (h : rowMask d (d.blocks.map (zeroDiag d.dof)) = .error e) :
    ¬ ∃ y, Feasible d y := by
  rintro ⟨y, hf⟩
  obtain ⟨-, hno⟩ := rowMask_error d _ (by simp) e h
  apply hno
  refine ⟨y, ?_⟩
  intro p hp i hi j hj
  have e := zip_map_mem d hp
  rw [e] at hi
  exact psd_zero_row _ _ (hf _ (List.of_mem_zip hp).1) i (zeroDiag_mat _ _ y i hi).1 (zeroDiag_mat _ _ y i hi).2 j hj

/-! ### The whole chain -/

theorem sym_subst (dof : ℕ) (b : Block K) (t : Aff K) (h : SymPencil dof b) : SymPencil t.dim (b.subst dof t) := by
  intro i j hi hj
  obtain ⟨h1, h2⟩ := h i j hi hj
  unfold Block.subst
  simp only
  constructor
  · rw [h1]
    congr 1
    apply Finset.sum_congr rfl
    intro l hl
    rw [h2 l (Finset.mem_range.1 hl)]
  · intro m _
    apply Finset.sum_congr rfl
    intro l hl
    rw [h2 l (Finset.mem_range.1 hl)]

theorem sym_maskBlock (dof : ℕ) (b : Block K) (mask : List ℕ) (h : SymPencil dof b) : SymPencil dof (maskBlock b mask) := by
  intro a c ha hc
  have ha : a < (unmask b.n mask).length := ha
  have hc : c < (unmask b.n mask).length := hc
  unfold maskBlock Block.extract
  simp only
  rw [flat_get _ _ a c ha hc, flat_get _ _ c a hc ha]
  exact h _ _ (um_mem_lt ha) (um_mem_lt hc)

/-- the composed map of a chain of transformations -/
def chain : List (Aff K) → (ℕ → K) → ℕ → K
  | [], z => z
  | t :: ts, z => t.app (chain ts z)

/-- **C25 (repeated masking).** `constrain_zero_diagonals` of a dual problem with symmetric matrices: when it returns,
the feasible points of the original are exactly the images of the feasible points of the final problem, which has no
identically zero diagonal entry left; when it raises there is no feasible point. -/
theorem zeroDiagLoop_spec : ∀ (fuel : ℕ) (d : Dual K), (∀ b ∈ d.blocks, SymPencil d.dof b) →
    (∀ ts d'', zeroDiagLoop fuel d = some (.ok (ts, d'')) →
      (∀ y, Feasible d y ↔ ∃ z, (∀ l, l < d.dof → y l = chain ts z l) ∧ Feasible d'' z) ∧
      ∀ b ∈ d''.blocks, zeroDiag d''.dof b = []) ∧
    (∀ e, zeroDiagLoop fuel d = some (.error e) → ¬ ∃ y, Feasible d y) := by
  intro fuel
  induction fuel with
  | zero => intro d _; exact ⟨fun ts d'' h => (by cases h), fun e h => (by cases h)⟩
  | succ fuel ih =>
    intro d hsym
    unfold zeroDiagLoop
    simp only
    by_cases hz : (d.blocks.map (zeroDiag d.dof)).any (fun z => !z.isEmpty) = true
    · rw [if_pos hz]
      cases hr : rowMask d (d.blocks.map (zeroDiag d.dof)) with
      | error e =>
        simp only
        exact ⟨fun ts d'' h => (by cases h), fun e' _ => maskZero_error d e hr⟩
      | ok r =>
        obtain ⟨t, d'⟩ := r
        simp only
        have hsym' : ∀ b ∈ d'.blocks, SymPencil d'.dof b := by
          unfold rowMask at hr
          split_ifs at hr with hlen
          cases hs : solveEqs d.dof ((d.blocks.zip (d.blocks.map (zeroDiag d.dof))).flatMap fun p => maskRows p.1 p.2) with
          | error e => rw [hs] at hr; cases hr
          | ok t' =>
            rw [hs] at hr
            obtain ⟨rfl, rfl⟩ := Prod.mk.inj (Except.ok.inj hr)
            intro b hb
            obtain ⟨p, hp, rfl⟩ := List.mem_map.1 hb
            exact sym_subst _ _ _ (sym_maskBlock _ _ _ (hsym _ (List.of_mem_zip hp).1))
        obtain ⟨ih1, ih2⟩ := ih d' hsym'
        have hstep := maskZero_feasible d hsym t d' hr
        cases hl : zeroDiagLoop fuel d' with
        | none =>
          simp only
          exact ⟨fun ts d'' h => (by cases h), fun e h => (by cases h)⟩
        | some r2 =>
          cases r2 with
          | error e2 =>
            simp only
            refine ⟨fun ts d'' h => (by cases h), fun e' _ => ?_⟩
            rintro ⟨y, hf⟩
            obtain ⟨z, -, hz⟩ := (hstep y).1 hf
            exact ih2 e2 hl ⟨z, hz⟩
          | ok r3 =>
            obtain ⟨ts, d''⟩ := r3
            simp only
            refine ⟨fun ts' d3 h => ?_, fun e h => by cases h⟩
            obtain ⟨rfl, rfl⟩ := Prod.mk.inj (Except.ok.inj (Option.some.inj h))
            obtain ⟨ih3, ih4⟩ := ih1 ts d'' hl
            refine ⟨fun y => ?_, ih4⟩
            rw [hstep y]
            have happ : ∀ z z' : ℕ → K, (∀ l, l < d'.dof → z l = z' l) → ∀ l, t.app z l = t.app z' l := by
              have hd : d'.dof = t.dim := by
                unfold rowMask at hr
                split_ifs at hr with hlen
                cases hs : solveEqs d.dof ((d.blocks.zip (d.blocks.map (zeroDiag d.dof))).flatMap fun p => maskRows p.1 p.2) with
                | error e => rw [hs] at hr; cases hr
                | ok t' =>
                  rw [hs] at hr
                  obtain ⟨rfl, rfl⟩ := Prod.mk.inj (Except.ok.inj hr)
                  rfl
              intro z z' hzz l
              unfold Aff.app
              congr 1
              apply Finset.sum_congr rfl
              intro m hm
              rw [hzz m (by rw [hd]; exact Finset.mem_range.1 hm)]
            constructor
            · rintro ⟨z, hyz, hf⟩
              obtain ⟨w, hzw, hfw⟩ := (ih3 z).1 hf
              refine ⟨w, fun l hl => ?_, hfw⟩
              rw [hyz l hl]
              exact happ _ _ hzw l
            · rintro ⟨w, hyw, hfw⟩
              exact ⟨chain ts w, hyw, (ih3 _).2 ⟨w, fun _ _ => rfl, hfw⟩⟩
    · rw [if_neg hz]
      refine ⟨fun ts d'' h => ?_, fun e h => by cases h⟩
      obtain ⟨rfl, rfl⟩ := Prod.mk.inj (Except.ok.inj (Option.some.inj h))
      refine ⟨fun y => ⟨fun hf => ⟨y, fun _ _ => rfl, hf⟩, ?_⟩, ?_⟩
      · rintro ⟨z, hyz, hf⟩ b hb
        rw [mat_congr b d.dof hyz]
        exact hf b hb
      · intro b hb
        by_contra hne
        apply hz
        rw [List.any_eq_true]
        exact ⟨_, List.mem_map.2 ⟨b, hb, rfl⟩, by simpa using hne⟩

/-- The total size of the blocks. -/
def totalSize (d : Dual K) : ℕ := (d.blocks.map (·.n)).sum

theorem unmask_le (n : ℕ) (mask : List ℕ) : (unmask n mask).length ≤ n := by
  unfold unmask
  exact le_trans (List.length_filter_le _ _) (by simp)

theorem unmask_lt (n : ℕ) (mask : List ℕ) (i : ℕ) (hi : i ∈ mask) (hn : i < n) : (unmask n mask).length < n := by
  unfold unmask
  have h : ((List.range n).filter fun i => !mask.contains i).length < (List.range n).length := by
    apply List.length_filter_lt_length_iff_exists.2
    exact ⟨i, List.mem_range.2 hn, by simpa using hi⟩
  simpa using h

/-- The loop stops: it never needs more rounds than the total size plus one. -/
theorem zeroDiagLoop_total : ∀ (fuel : ℕ) (d : Dual K), totalSize d < fuel → zeroDiagLoop fuel d ≠ none := by
  intro fuel
  induction fuel with
  | zero => intro d h; omega
  | succ fuel ih =>
    intro d hlt
    unfold zeroDiagLoop
    simp only
    by_cases hz : (d.blocks.map (zeroDiag d.dof)).any (fun z => !z.isEmpty) = true
    · rw [if_pos hz]
      cases hr : rowMask d (d.blocks.map (zeroDiag d.dof)) with
      | error e => simp
      | ok r =>
        obtain ⟨t, d'⟩ := r
        simp only
        have hsz : totalSize d' < totalSize d := by
          unfold rowMask at hr
          split_ifs at hr with hlen
          cases hs : solveEqs d.dof ((d.blocks.zip (d.blocks.map (zeroDiag d.dof))).flatMap fun p => maskRows p.1 p.2) with
          | error e => rw [hs] at hr; cases hr
          | ok t' =>
            rw [hs] at hr
            obtain ⟨rfl, rfl⟩ := Prod.mk.inj (Except.ok.inj hr)
            unfold totalSize
            rw [List.map_map]
            have e : (d.blocks.zip (d.blocks.map (zeroDiag d.dof))).map ((fun x => x.n) ∘ fun p => (maskBlock p.1 p.2).subst d.dof t')
                = d.blocks.map fun b => (unmask b.n (zeroDiag d.dof b)).length := by
              apply List.ext_getElem
              · simp
              · intro k h1 h2
                simp [maskBlock, Block.subst, Block.extract]
            rw [e]
            rw [List.any_eq_true] at hz
            obtain ⟨m, hm, hne⟩ := hz
            obtain ⟨b0, hb0, rfl⟩ := List.mem_map.1 hm
            have hne : zeroDiag d.dof b0 ≠ [] := by simpa using hne
            obtain ⟨i, hi⟩ := List.exists_mem_of_ne_nil _ hne
            have hlt0 : (unmask b0.n (zeroDiag d.dof b0)).length < b0.n :=
              unmask_lt _ _ i hi (zeroDiag_mat b0 d.dof (fun _ => 0) i hi).1
            have key : ∀ (l : List (Block K)), b0 ∈ l → (l.map fun b => (unmask b.n (zeroDiag d.dof b)).length).sum < (l.map (·.n)).sum := by
              have kle : ∀ (l : List (Block K)), (l.map fun b => (unmask b.n (zeroDiag d.dof b)).length).sum ≤ (l.map (·.n)).sum := by
                intro l
                induction l with
                | nil => simp
                | cons b l ih =>
                  simp only [List.map_cons, List.sum_cons]
                  have := unmask_le b.n (zeroDiag d.dof b)
                  omega
              intro l
              induction l with
              | nil => intro h; simp at h
              | cons b l ih =>
                intro h
                simp only [List.map_cons, List.sum_cons]
                rcases List.mem_cons.1 h with rfl | h
                · have := kle l; omega
                · have := ih h
                  have := unmask_le b.n (zeroDiag d.dof b)
                  omega
            exact key d.blocks hb0
        have := ih d' (by omega)
        cases hl : zeroDiagLoop fuel d' with
        | none => exact absurd hl this
        | some r2 => cases r2 <;> simp
    · rw [if_neg hz]; simp

/-! ### Symmetry and equal entries -/

/-- the map of a step that may be skipped -/
def optApp : Option (Aff K) → (ℕ → K) → ℕ → K
  | none, z => z
  | some t, z => t.app z

theorem fromRows_spec (d : Dual K) (rows : List ((ℕ → K) × K)) :
    (∀ o d', fromRows d rows = .ok (o, d') → ∀ y : ℕ → K,
      ((∀ r ∈ rows, ∑ l ∈ range d.dof, r.1 l * y l + r.2 = 0) ∧ Feasible d y) ↔
        ∃ z, (∀ l, l < d.dof → y l = optApp o z l) ∧ Feasible d' z) ∧
    (∀ e, fromRows d rows = .error e → e = .valueError ∧ ¬ ∃ y : ℕ → K, ∀ r ∈ rows, ∑ l ∈ range d.dof, r.1 l * y l + r.2 = 0) := by
  unfold fromRows
  have fcongr : ∀ y z : ℕ → K, (∀ l, l < d.dof → y l = z l) → Feasible d z → Feasible d y := by
    intro y z h hf b hb
    rw [mat_congr b d.dof h]
    exact hf b hb
  by_cases he : rows.isEmpty = true
  · rw [if_pos he]
    have hnil : rows = [] := by simpa using he
    subst hnil
    refine ⟨fun o d' h y => ?_, fun e h => by cases h⟩
    obtain ⟨rfl, rfl⟩ := Prod.mk.inj (Except.ok.inj h)
    constructor
    · rintro ⟨-, hf⟩; exact ⟨y, fun _ _ => rfl, hf⟩
    · rintro ⟨z, hyz, hf⟩; exact ⟨by simp, fcongr y z hyz hf⟩
  · rw [if_neg he]
    cases hs : solveEqs d.dof rows with
    | error e =>
      refine ⟨fun o d' h => (by cases h), fun e' h => ?_⟩
      injection h with h
      rw [← h]
      exact solveEqs_error _ _ _ hs
    | ok t =>
      refine ⟨fun o d' h y => ?_, fun e h => by cases h⟩
      obtain ⟨rfl, rfl⟩ := Prod.mk.inj (Except.ok.inj h)
      obtain ⟨h1, -⟩ := solveEqs_ok _ _ _ hs
      rw [h1 y]
      constructor
      · rintro ⟨⟨z, hyz⟩, hf⟩
        refine ⟨z, hyz, ?_⟩
        rw [vectorTransform_feasible]
        exact fcongr _ _ (fun l hl => (hyz l hl).symm) hf
      · rintro ⟨z, hyz, hf⟩
        rw [vectorTransform_feasible] at hf
        exact ⟨⟨z, hyz⟩, fcongr _ _ hyz hf⟩

/-- **C27 (`constrain_symmetry`).** For arbitrary, not necessarily symmetric, pencils: the feasible points (symmetric and
positive semidefinite) of the problem are exactly the images of the feasible points of the child; it raises only if no
`y` makes all the matrices symmetric. -/
theorem constrainSymmetry_spec (d : Dual K) :
    (∀ o d', constrainSymmetry d = .ok (o, d') → ∀ y : ℕ → K, Feasible d y ↔
      ∃ z, (∀ l, l < d.dof → y l = optApp o z l) ∧ Feasible d' z) ∧
    (∀ e, constrainSymmetry d = .error e → e = .valueError ∧
      ¬ ∃ y : ℕ → K, ∀ b ∈ d.blocks, ∀ i j, i < b.n → j < b.n → b.mat d.dof y i j = b.mat d.dof y j i) := by
  unfold constrainSymmetry
  obtain ⟨h1, h2⟩ := fromRows_spec d (d.blocks.flatMap symRows)
  have hrow : ∀ y : ℕ → K, (∀ r ∈ d.blocks.flatMap symRows, ∑ l ∈ range d.dof, r.1 l * y l + r.2 = 0) ↔
      ∀ b ∈ d.blocks, ∀ i j, i < b.n → j < b.n → b.mat d.dof y i j = b.mat d.dof y j i := by
    intro y
    have hdiff : ∀ (b : Block K) i j, ∑ l ∈ range d.dof, (b.sp (i * b.n + j) l - b.sp (j * b.n + i) l) * y l + (b.x0 (i * b.n + j) - b.x0 (j * b.n + i))
        = b.mat d.dof y i j - b.mat d.dof y j i := by
      intro b i j
      unfold Block.mat
      have : ∑ l ∈ range d.dof, (b.sp (i * b.n + j) l - b.sp (j * b.n + i) l) * y l =
          ∑ l ∈ range d.dof, b.sp (i * b.n + j) l * y l - ∑ l ∈ range d.dof, b.sp (j * b.n + i) l * y l := by
        rw [← Finset.sum_sub_distrib]
        apply Finset.sum_congr rfl
        intro l _; ring
      rw [this]; ring
    constructor
    · intro h b hb
      have hlt : ∀ i j, i < b.n → j < i → b.mat d.dof y i j = b.mat d.dof y j i := by
        intro i j hi hj
        have := h _ (List.mem_flatMap.2 ⟨b, hb, List.mem_flatMap.2 ⟨i, List.mem_range.2 hi, List.mem_map.2 ⟨j, List.mem_range.2 hj, rfl⟩⟩⟩)
        rw [hdiff] at this
        exact sub_eq_zero.1 this
      intro i j hi hj
      rcases Nat.lt_trichotomy i j with h1 | h1 | h1
      · exact (hlt j i hj h1).symm
      · rw [h1]
      · exact hlt i j hi h1
    · intro h r hr
      obtain ⟨b, hb, hr⟩ := List.mem_flatMap.1 hr
      obtain ⟨i, hi, hr⟩ := List.mem_flatMap.1 hr
      obtain ⟨j, hj, rfl⟩ := List.mem_map.1 hr
      rw [List.mem_range] at hi hj
      rw [hdiff, sub_eq_zero]
      exact h b hb i j hi (by omega)
  refine ⟨fun o d' h y => ?_, fun e h => ?_⟩
  · rw [← h1 o d' h y, hrow y]
    constructor
    · intro hf; exact ⟨fun b hb => (hf b hb).1, hf⟩
    · exact fun h => h.2
  · obtain ⟨he, hno⟩ := h2 e h
    refine ⟨he, ?_⟩
    rintro ⟨y, hy⟩
    exact hno ⟨y, (hrow y).2 hy⟩

/-- **C27 (`constrain_equal_entries`).** The points of the child are exactly the feasible points of the parent at which
all listed pairs of entries agree. -/
theorem constrainEqual_spec (d : Dual K) (es : List (List ((ℕ × ℕ) × (ℕ × ℕ)))) (o : Option (Aff K)) (d' : Dual K)
    (h : constrainEqual d es = .ok (o, d')) (y : ℕ → K) :
    (Feasible d y ∧ ∀ p ∈ d.blocks.zip es, ∀ e ∈ p.2, p.1.mat d.dof y e.1.1 e.1.2 = p.1.mat d.dof y e.2.1 e.2.2) ↔
      ∃ z, (∀ l, l < d.dof → y l = optApp o z l) ∧ Feasible d' z := by
  unfold constrainEqual at h
  obtain ⟨h1, -⟩ := fromRows_spec d ((d.blocks.zip es).flatMap fun p => equalRows p.1 p.2)
  rw [← h1 o d' h y, and_comm]
  apply and_congr_left
  intro _
  have hdiff : ∀ (b : Block K) (e : (ℕ × ℕ) × (ℕ × ℕ)), ∑ l ∈ range d.dof, (b.sp (e.1.1 * b.n + e.1.2) l - b.sp (e.2.1 * b.n + e.2.2) l) * y l + (b.x0 (e.1.1 * b.n + e.1.2) - b.x0 (e.2.1 * b.n + e.2.2))
      = b.mat d.dof y e.1.1 e.1.2 - b.mat d.dof y e.2.1 e.2.2 := by
    intro b e
    unfold Block.mat
    have : ∑ l ∈ range d.dof, (b.sp (e.1.1 * b.n + e.1.2) l - b.sp (e.2.1 * b.n + e.2.2) l) * y l =
        ∑ l ∈ range d.dof, b.sp (e.1.1 * b.n + e.1.2) l * y l - ∑ l ∈ range d.dof, b.sp (e.2.1 * b.n + e.2.2) l * y l := by
      rw [← Finset.sum_sub_distrib]
      apply Finset.sum_congr rfl
      intro l _; ring
    rw [this]; ring
  constructor
  · intro h r hr
    obtain ⟨p, hp, hr⟩ := List.mem_flatMap.1 hr
    unfold equalRows at hr
    obtain ⟨e, he, rfl⟩ := List.mem_map.1 hr
    rw [hdiff, sub_eq_zero]
    exact h p hp e (List.mem_filter.1 he).1
  · intro h p hp e he
    by_cases heq : e.1 = e.2
    · rw [heq]
    · have := h _ (List.mem_flatMap.2 ⟨p, hp, List.mem_map.2 ⟨e, List.mem_filter.2 ⟨he, by simpa using heq⟩, rfl⟩⟩)
      rw [hdiff, sub_eq_zero] at this
      exact this

/-! ### Examples -/

/-- S = [[y0, y1, y0 - 1], [y1, 1, 2], [y0 - 1, 2, 0]]: the third diagonal entry is identically zero. -/
def exDual : Dual ℚ := ⟨2, [⟨3, fun k => [0, 0, -1, 0, 1, 2, -1, 2, 0].getD k 0,
  fun k l => ([[1, 0], [0, 1], [1, 0], [0, 1], [0, 0], [0, 0], [1, 0], [0, 0], [0, 0]].getD k []).getD l 0⟩]⟩

example : exDual.blocks.map (zeroDiag exDual.dof) = [[2]] := by decide +kernel
/-- here the masked row contains the entry 2, so the problem is infeasible and the call raises. -/
example : (match zeroDiagLoop 4 exDual with | some (.error e) => decide (e = .valueError) | _ => false) = true := by decide +kernel

/-- S = [[y0, y1, y0 - 1], [y1, 1, y1], [y0 - 1, y1, 0]] -/
def exDual2 : Dual ℚ := ⟨2, [⟨3, fun k => [0, 0, -1, 0, 1, 0, -1, 0, 0].getD k 0,
  fun k l => ([[1, 0], [0, 1], [1, 0], [0, 1], [0, 0], [0, 1], [1, 0], [0, 1], [0, 0]].getD k []).getD l 0⟩]⟩

example : ∀ b ∈ exDual2.blocks, SymPencil exDual2.dof b := by
  intro b hb
  have : b = ⟨3, fun k => [0, 0, -1, 0, 1, 0, -1, 0, 0].getD k 0,
    fun k l => ([[1, 0], [0, 1], [1, 0], [0, 1], [0, 0], [0, 1], [1, 0], [0, 1], [0, 0]].getD k []).getD l 0⟩ := by
    simpa [exDual2] using hb
  subst this
  unfold SymPencil
  have key : ∀ i < 3, ∀ j < 3, ([0, 0, -1, 0, 1, 0, -1, 0, 0].getD (i * 3 + j) 0 : ℚ) = [0, 0, -1, 0, 1, 0, -1, 0, 0].getD (j * 3 + i) 0 ∧
      ∀ l < 2, (([[1, 0], [0, 1], [1, 0], [0, 1], [0, 0], [0, 1], [1, 0], [0, 1], [0, 0]].getD (i * 3 + j) []).getD l 0 : ℚ) =
        ([[1, 0], [0, 1], [1, 0], [0, 1], [0, 0], [0, 1], [1, 0], [0, 1], [0, 0]].getD (j * 3 + i) []).getD l 0 := by decide +kernel
  intro i j hi hj
  exact key i hi j hj
/-- masking forces y = (1, 0) and leaves the 2×2 identity -/
example : (match zeroDiagLoop 4 exDual2 with
  | some (.ok (ts, d')) => decide (ts.length = 1 ∧ d'.dof = 0 ∧ d'.blocks.map (fun b => (b.n, [b.x0 0, b.x0 1, b.x0 2, b.x0 3])) = [(2, [1, 0, 0, 1])])
  | _ => false) = true := by decide +kernel

end Verif.Sdp
