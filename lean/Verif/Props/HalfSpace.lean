import Verif.Model.Bivariate
import Mathlib.Tactic.Linarith
import Mathlib.Tactic.LinearCombination

/-!
# C21: `HalfspaceIntersection2D`
-/

set_option linter.unusedSectionVars false

namespace Verif.Bivariate
open Verif

variable {K : Type*} [Field K] [LinearOrder K] [IsStrictOrderedRing K] {E : Type*}

/-- The point `x` satisfies every half plane of the list. -/
def Feasible (l : List ((K × K) × E)) (x : K × K) : Prop := ∀ c ∈ l, 0 ≤ c.1.1 * x.1 + c.1.2 * x.2

theorem nonneg_of_scaled {k a r : K} (hk : 0 < k) (e : k * a = r) (hr : 0 ≤ r) : 0 ≤ a := by
  by_contra h
  push Not at h
  have := mul_neg_of_pos_of_neg hk h
  linarith

theorem normSq_pos {n : K × K} (h : n ≠ (0, 0)) : 0 < dot n n := by
  unfold dot
  have h1 := mul_self_nonneg n.1
  have h2 := mul_self_nonneg n.2
  by_contra hc
  have e1 : n.1 * n.1 = 0 := by linarith
  have e2 : n.2 * n.2 = 0 := by linarith
  exact h (Prod.ext (mul_self_eq_zero.1 e1) (mul_self_eq_zero.1 e2))

/-- The state of the object after a history `l`. -/
def Inv (l : List ((K × K) × E)) (h : HS K E) : Prop :=
  (∀ b ∈ h.bounds, b ∈ l) ∧
  if h.degenerated then ∃ n ∈ l, ∀ x, Feasible l x → n.1.1 * x.1 + n.1.2 * x.2 = 0
  else match h.bounds with
  | [] => l = []
  | [b] => ∀ m ∈ l, cross b.1 m.1 = 0 ∧ 0 ≤ dot b.1 m.1
  | [b1, b2] => (0 < cross b1.1 b2.1 ∧ ∀ m ∈ l, 0 ≤ cross b1.1 m.1 ∧ 0 ≤ cross m.1 b2.1) ∨
      (cross b1.1 b2.1 = 0 ∧ dot b1.1 b2.1 < 0)
  | _ => False

theorem flat_of_anti {b1 b2 : K × K} (h0 : b1 ≠ (0,0)) (hc : cross b1 b2 = 0) (hd : dot b1 b2 < 0) (x : K × K)
    (h1 : 0 ≤ b1.1 * x.1 + b1.2 * x.2) (h2 : 0 ≤ b2.1 * x.1 + b2.2 * x.2) : b1.1 * x.1 + b1.2 * x.2 = 0 := by
  have hs := normSq_pos h0
  have e : dot b1 b1 * (b2.1 * x.1 + b2.2 * x.2) = dot b1 b2 * (b1.1 * x.1 + b1.2 * x.2) := by
    unfold cross dot at *
    linear_combination (-b1.2 * x.1 + b1.1 * x.2) * hc
  have h3 : 0 ≤ dot b1 b2 * (b1.1 * x.1 + b1.2 * x.2) := by rw [← e]; exact mul_nonneg hs.le h2
  by_contra hne
  have := mul_neg_of_neg_of_pos hd (lt_of_le_of_ne h1 (Ne.symm hne))
  linarith

/-- parallel vectors in the same direction -/
theorem par_cross {b m : K × K} (hc : cross b m = 0) (k : K × K) :
    dot b b * cross m k = dot b m * cross b k := by
  unfold cross dot at *
  linear_combination (-(b.2 * k.2) - b.1 * k.1) * hc

theorem add_inv (l : List ((K × K) × E)) (h : HS K E) (n : K × K) (e : E) (hl : ∀ c ∈ l, c.1 ≠ (0, 0)) (hn : n ≠ (0, 0))
    (hi : Inv l h) : Inv (l ++ [(n, e)]) (h.add n e) := by
  obtain ⟨hsub, hst⟩ := hi
  have hsub' : ∀ b ∈ h.bounds, b ∈ l ++ [(n, e)] := fun b hb => List.mem_append_left _ (hsub b hb)
  have hnew : (n, e) ∈ l ++ [(n, e)] := by simp
  have hfeas : ∀ x, Feasible (l ++ [(n, e)]) x → Feasible l x := fun x hx c hc => hx c (List.mem_append_left _ hc)
  have hall : ∀ (P : (K × K) × E → Prop), (∀ m ∈ l, P m) → P (n, e) → ∀ m ∈ l ++ [(n, e)], P m := by
    intro P h1 h2 m hm
    rcases List.mem_append.1 hm with hm | hm
    · exact h1 m hm
    · simp at hm; rw [hm]; exact h2
  obtain ⟨bounds, dg⟩ := h
  cases dg with
  | true =>
    simp only [if_true] at hst
    refine ⟨by simpa [HS.add] using hsub', ?_⟩
    obtain ⟨m, hm, hx⟩ := hst
    simp only [HS.add, if_true]
    exact ⟨m, List.mem_append_left _ hm, fun x h => hx x (hfeas x h)⟩
  | false =>
    simp only [Bool.false_eq_true, if_false] at hst
    unfold HS.add
    simp only [Bool.false_eq_true, if_false]
    match bounds, hst, hsub, hsub' with
    | [], hst, hsub, hsub' =>
      subst hst
      refine ⟨by simp, ?_⟩
      simp [cross, dot]
      have := normSq_pos hn
      unfold dot at this
      exact this.le
    | [b0], hst, hsub, hsub' =>
      have hb0 : b0.1 ≠ (0, 0) := hl _ (hsub b0 (by simp))
      have hb0' := hsub' b0 (by simp)
      have hs := normSq_pos hb0
      simp only
      split_ifs with h1 h2
      · refine ⟨by intro b hb; simp at hb; rcases hb with rfl | rfl <;> assumption, ?_⟩
        simp only [Bool.false_eq_true, if_false]
        left
        have hp : 0 < cross n b0.1 := by unfold cross at *; linarith
        refine ⟨hp, hall _ (fun m hm => ?_) ?_⟩
        · obtain ⟨q1, q2⟩ := hst m hm
          constructor
          · refine nonneg_of_scaled hs (r := dot b0.1 m.1 * cross n b0.1) ?_ (mul_nonneg q2 hp.le)
            have := par_cross q1 n
            unfold cross at this ⊢
            linear_combination -this
          · unfold cross at q1 ⊢; linarith
        · exact ⟨by unfold cross; apply le_of_eq; ring, hp.le⟩
      · refine ⟨by intro b hb; simp at hb; rcases hb with rfl | rfl <;> assumption, ?_⟩
        simp only [Bool.false_eq_true, if_false]
        rcases h2 with h2 | ⟨h2, h3⟩
        · left
          refine ⟨h2, hall _ (fun m hm => ?_) ?_⟩
          · obtain ⟨q1, q2⟩ := hst m hm
            exact ⟨q1.ge, nonneg_of_scaled hs (par_cross q1 n) (mul_nonneg q2 h2.le)⟩
          · exact ⟨h2.le, by unfold cross; apply le_of_eq; ring⟩
        · right; exact ⟨h2, h3⟩
      · refine ⟨hsub', ?_⟩
        simp only [Bool.false_eq_true, if_false]
        push Not at h1 h2
        have hc : cross b0.1 n = 0 := le_antisymm h2.1 h1
        exact hall _ hst ⟨hc, h2.2 hc⟩
    | [b1, b2], hst, hsub, hsub' =>
      have hb1 : b1.1 ≠ (0, 0) := hl _ (hsub b1 (by simp))
      have hb2 : b2.1 ≠ (0, 0) := hl _ (hsub b2 (by simp))
      have hb1' := hsub' b1 (by simp)
      have hb2' := hsub' b2 (by simp)
      have hs1 := normSq_pos hb1
      have hs2 := normSq_pos hb2
      simp only
      have sub1 : ∀ b ∈ [b1, (n, e)], b ∈ l ++ [(n, e)] := by
        intro b hb; simp at hb; rcases hb with rfl | rfl <;> assumption
      have sub2 : ∀ b ∈ [(n, e), b2], b ∈ l ++ [(n, e)] := by
        intro b hb; simp at hb; rcases hb with rfl | rfl <;> assumption
      -- in the antiparallel state the two cross products have opposite signs
      have anti : cross b1.1 b2.1 = 0 → dot b1.1 b2.1 < 0 → dot b1.1 b1.1 * cross b2.1 n = dot b1.1 b2.1 * cross b1.1 n :=
        fun h1 _ => par_cross h1 n
      by_cases c1 : cross b1.1 n = 0
      · rw [if_pos c1]
        split_ifs with hd
        · refine ⟨sub1, ?_⟩
          simp only [Bool.false_eq_true, if_false]
          right; exact ⟨c1, hd⟩
        · refine ⟨hsub', ?_⟩
          simp only [Bool.false_eq_true, if_false]
          push Not at hd
          rcases hst with ⟨hp, hm⟩ | hst
          · left
            exact ⟨hp, hall _ hm ⟨c1.ge, nonneg_of_scaled hs1 (par_cross c1 _) (mul_nonneg hd hp.le)⟩⟩
          · right; exact hst
      rw [if_neg c1]
      by_cases c2 : cross b2.1 n = 0
      · rw [if_pos c2]
        split_ifs with hd
        · refine ⟨sub2, ?_⟩
          simp only [Bool.false_eq_true, if_false]
          right
          unfold cross dot at *
          exact ⟨by linarith, by linarith⟩
        · refine ⟨hsub', ?_⟩
          simp only [Bool.false_eq_true, if_false]
          push Not at hd
          rcases hst with ⟨hp, hm⟩ | hst
          · left
            refine ⟨hp, hall _ hm ⟨?_, by unfold cross at c2 ⊢; linarith⟩⟩
            refine nonneg_of_scaled hs2 (r := dot b2.1 n * cross b1.1 b2.1) ?_ (mul_nonneg hd hp.le)
            have := par_cross c2 b1.1
            unfold cross at this ⊢
            linear_combination -this
          · right; exact hst
      rw [if_neg c2]
      by_cases c3 : cross b1.1 n > 0 ∧ cross b2.1 n < 0
      · rw [if_pos c3]
        refine ⟨hsub', ?_⟩
        simp only [Bool.false_eq_true, if_false]
        rcases hst with ⟨hp, hm⟩ | hst
        · left
          exact ⟨hp, hall _ hm ⟨c3.1.le, by have := c3.2; unfold cross at this ⊢; linarith⟩⟩
        · right; exact hst
      rw [if_neg c3]
      have key : ∀ m k : K × K, cross b1.1 b2.1 * cross m k = cross m b2.1 * cross b1.1 k + cross b1.1 m * cross b2.1 k := by
        intro m k; unfold cross; ring
      by_cases c4 : cross b1.1 n > 0 ∧ cross b2.1 n > 0
      · rw [if_pos c4]
        refine ⟨sub1, ?_⟩
        simp only [Bool.false_eq_true, if_false]
        rcases hst with ⟨hp, hm⟩ | ⟨h1, h2⟩
        · left
          refine ⟨c4.1, hall _ (fun m hmm => ⟨(hm m hmm).1, ?_⟩) ⟨c4.1.le, by unfold cross; apply le_of_eq; ring⟩⟩
          exact nonneg_of_scaled hp (key m.1 n)
            (add_nonneg (mul_nonneg (hm m hmm).2 c4.1.le) (mul_nonneg (hm m hmm).1 c4.2.le))
        · exfalso
          have e1 := anti h1 h2
          have e2 := mul_pos hs1 c4.2
          have e3 := mul_neg_of_neg_of_pos h2 c4.1
          linarith
      rw [if_neg c4]
      by_cases c5 : cross b1.1 n < 0 ∧ cross b2.1 n > 0
      · rw [if_pos c5]
        refine ⟨hsub', ?_⟩
        simp only [if_true]
        rcases hst with ⟨hp, hm⟩ | ⟨h1, h2⟩
        · refine ⟨(n, e), hnew, fun x hx => ?_⟩
          have f1 := hx b1 hb1'
          have f2 := hx b2 hb2'
          have f3 := hx (n, e) hnew
          simp only at f3
          have e1 : cross b1.1 b2.1 * (n.1 * x.1 + n.2 * x.2)
              = -(cross b2.1 n) * (b1.1.1 * x.1 + b1.1.2 * x.2) + cross b1.1 n * (b2.1.1 * x.1 + b2.1.2 * x.2) := by
            unfold cross; ring
          have g1 := mul_nonneg c5.2.le f1
          have g2 := mul_nonpos_of_nonpos_of_nonneg c5.1.le f2
          by_contra hne
          have g3 := mul_pos hp (lt_of_le_of_ne f3 (Ne.symm hne))
          linarith
        · exact ⟨b1, hb1', fun x hx => flat_of_anti hb1 h1 h2 x (hx b1 hb1') (hx b2 hb2')⟩
      rw [if_neg c5]
      refine ⟨sub2, ?_⟩
      simp only [Bool.false_eq_true, if_false]
      have n1 : cross b1.1 n < 0 := by
        by_contra hc
        push Not at hc
        have hc' := lt_of_le_of_ne hc (Ne.symm c1)
        rcases lt_or_gt_of_ne c2 with h | h
        · exact c3 ⟨hc', h⟩
        · exact c4 ⟨hc', h⟩
      have n2 : cross b2.1 n < 0 := by
        by_contra hc
        push Not at hc
        exact c5 ⟨n1, lt_of_le_of_ne hc (Ne.symm c2)⟩
      rcases hst with ⟨hp, hm⟩ | ⟨h1, h2⟩
      · left
        have n2' : 0 < cross n b2.1 := by unfold cross at n2 ⊢; linarith
        refine ⟨n2', hall _ (fun m hmm => ⟨?_, (hm m hmm).2⟩) ⟨by unfold cross; apply le_of_eq; ring, n2'.le⟩⟩
        have e1 := key m.1 n
        refine nonneg_of_scaled hp (r := -(cross m.1 b2.1 * cross b1.1 n + cross b1.1 m.1 * cross b2.1 n)) ?_ ?_
        · rw [← e1]; unfold cross; ring
        · have g1 := mul_nonpos_of_nonneg_of_nonpos (hm m hmm).2 n1.le
          have g2 := mul_nonpos_of_nonneg_of_nonpos (hm m hmm).1 n2.le
          linarith
      · exfalso
        have e1 := anti h1 h2
        have e2 := mul_neg_of_pos_of_neg hs1 n2
        have e3 := mul_pos_of_neg_of_neg h2 n1
        linarith
    | _ :: _ :: _ :: _, hst, _, _ => exact hst.elim

theorem build_inv (l : List ((K × K) × E)) (hl : ∀ c ∈ l, c.1 ≠ (0, 0)) : Inv l (HS.build l) := by
  have key : ∀ (l2 l1 : List ((K × K) × E)) (h : HS K E), (∀ c ∈ l1 ++ l2, c.1 ≠ (0, 0)) → Inv l1 h →
      Inv (l1 ++ l2) (l2.foldl (fun h x => h.add x.1 x.2) h) := by
    intro l2
    induction l2 with
    | nil => intro l1 h _ hi; simpa using hi
    | cons c l2 ih =>
      intro l1 h hc hi
      rw [List.foldl_cons, show l1 ++ c :: l2 = (l1 ++ [c]) ++ l2 by simp]
      apply ih
      · simpa using hc
      · exact add_inv l1 h c.1 c.2 (fun c' h' => hc c' (List.mem_append_left _ h')) (hc c (by simp)) hi
  have := key l [] HS.empty (by simpa using hl) ⟨by simp [HS.empty], by simp [HS.empty]⟩
  simpa [HS.build] using this

/-- **C21 (containment).** For every history, whatever the normals: at most two constraints are stored, each is one of
the added ones with its own expression, and so every point satisfying all added constraints satisfies the stored
ones. -/
theorem halfspace_contains (l : List ((K × K) × E)) :
    (HS.build l).bounds.length ≤ 2 ∧ (∀ b ∈ (HS.build l).bounds, b ∈ l) ∧
    ∀ x, Feasible l x → Feasible (HS.build l).bounds x := by
  have key : ∀ (l2 : List ((K × K) × E)) (h : HS K E) (l1 : List ((K × K) × E)), h.bounds.length ≤ 2 → (∀ b ∈ h.bounds, b ∈ l1) →
      (l2.foldl (fun h x => h.add x.1 x.2) h).bounds.length ≤ 2 ∧
      ∀ b ∈ (l2.foldl (fun h x => h.add x.1 x.2) h).bounds, b ∈ l1 ++ l2 := by
    intro l2
    induction l2 with
    | nil => intro h l1 h1 h2; rw [List.append_nil]; exact ⟨h1, h2⟩
    | cons c l2 ih =>
      intro h l1 h1 h2
      rw [List.foldl_cons, show l1 ++ c :: l2 = (l1 ++ [c]) ++ l2 by simp]
      apply ih
      · unfold HS.add
        obtain ⟨bounds, dg⟩ := h
        simp only
        split_ifs
        · exact h1
        · match bounds, h1 with
          | [], _ => simp
          | [b0], _ => simp only; split_ifs <;> simp
          | [b1, b2], _ => simp only; split_ifs <;> simp
          | _ :: _ :: _ :: _, h1 => exact h1
      · unfold HS.add
        obtain ⟨bounds, dg⟩ := h
        simp only at h2 ⊢
        split_ifs
        · intro b hb; exact List.mem_append_left _ (h2 b hb)
        · match bounds, h2 with
          | [], _ => simp
          | [b0], h2 =>
            simp only [List.mem_singleton, forall_eq] at h2
            simp only
            split_ifs <;> simp [h2]
          | [b1, b2], h2 =>
            have q1 := h2 b1 (by simp)
            have q2 := h2 b2 (by simp)
            simp only
            split_ifs <;> simp [q1, q2]
          | _ :: _ :: _ :: _, h2 =>
            intro b hb; exact List.mem_append_left _ (h2 b hb)
  have := key l HS.empty [] (by simp [HS.empty]) (by simp [HS.empty])
  refine ⟨this.1, fun b hb => ?_, fun x hx c hc => ?_⟩
  · simpa using this.2 b hb
  · exact hx c (by simpa using this.2 c hc)

/-- **C21 (exactness).** For nonzero normals, unless the object is degenerated or its two stored normals are
antiparallel, the stored constraints describe exactly the intersection. -/
theorem halfspace_exact (l : List ((K × K) × E)) (hl : ∀ c ∈ l, c.1 ≠ (0, 0)) (hd : (HS.build l).degenerated = false)
    (ha : ∀ b1 b2, (HS.build l).bounds = [b1, b2] → b1.1.1 * b2.1.2 - b2.1.1 * b1.1.2 ≠ 0) (x : K × K) :
    Feasible (HS.build l).bounds x ↔ Feasible l x := by
  refine ⟨fun hx => ?_, (halfspace_contains l).2.2 x⟩
  obtain ⟨hsub, hst⟩ := build_inv l hl
  rw [hd] at hst
  simp only [Bool.false_eq_true, if_false] at hst
  split at hst
  · subst hst; intro c hc; cases hc
  · rename_i b hb
    rw [hb] at hx
    intro m hm
    have f := hx b (by simp)
    obtain ⟨q1, q2⟩ := hst m hm
    have hs := normSq_pos (hl b (hsub b (by rw [hb]; simp)))
    refine nonneg_of_scaled hs (r := dot b.1 m.1 * (b.1.1 * x.1 + b.1.2 * x.2)) ?_ (mul_nonneg q2 f)
    unfold cross dot at *
    linear_combination (-b.1.2 * x.1 + b.1.1 * x.2) * q1
  · rename_i b1 b2 hb
    have hne := ha b1 b2 hb
    rw [hb] at hx
    have f1 := hx b1 (by simp)
    have f2 := hx b2 (by simp)
    rcases hst with ⟨hp, hm⟩ | ⟨h1, -⟩
    · intro m hmm
      obtain ⟨q1, q2⟩ := hm m hmm
      refine nonneg_of_scaled hp (r := cross m.1 b2.1 * (b1.1.1 * x.1 + b1.1.2 * x.2) + cross b1.1 m.1 * (b2.1.1 * x.1 + b2.1.2 * x.2)) ?_
        (add_nonneg (mul_nonneg q2 f1) (mul_nonneg q1 f2))
      unfold cross; ring
    · exact absurd h1 hne
  · exact hst.elim

/-- **C21 (the refused cases are flat).** For nonzero normals, if the object is degenerated or its stored normals are
antiparallel then the true feasible region lies on a line: one added constraint vanishes on all of it. -/
theorem halfspace_flat (l : List ((K × K) × E)) (hl : ∀ c ∈ l, c.1 ≠ (0, 0))
    (h : (HS.build l).degenerated = true ∨
      ∃ b1 b2, (HS.build l).bounds = [b1, b2] ∧ b1.1.1 * b2.1.2 - b2.1.1 * b1.1.2 = 0) :
    ∃ n ∈ l, ∀ x, Feasible l x → n.1.1 * x.1 + n.1.2 * x.2 = 0 := by
  obtain ⟨hsub, hst⟩ := build_inv l hl
  cases hd : (HS.build l).degenerated with
  | true => rw [hd] at hst; simpa using hst
  | false =>
    rw [hd] at h hst
    simp only [Bool.false_eq_true, if_false, false_or] at h hst
    obtain ⟨b1, b2, hb, h0⟩ := h
    rw [hb] at hst hsub
    simp only at hst
    rcases hst with ⟨hp, -⟩ | ⟨h1, h2⟩
    · exact absurd h0 (ne_of_gt hp)
    · have m1 := hsub b1 (by simp)
      have m2 := hsub b2 (by simp)
      exact ⟨b1, m1, fun x hx => flat_of_anti (hl b1 m1) h1 h2 x (hx b1 m1) (hx b2 m2)⟩

/-- **C21 (completeness).** If some point satisfies every constraint strictly, the object is not degenerated and its
bounds describe exactly the intersection. -/
theorem halfspace_interior (l : List ((K × K) × E)) (x0 : K × K) (h0 : ∀ c ∈ l, 0 < c.1.1 * x0.1 + c.1.2 * x0.2) :
    (HS.build l).degenerated = false ∧ ∀ x, Feasible (HS.build l).bounds x ↔ Feasible l x := by
  have hl : ∀ c ∈ l, c.1 ≠ (0, 0) := by
    intro c hc h
    have := h0 c hc
    rw [h] at this; simp at this
  have hf : Feasible l x0 := fun c hc => (h0 c hc).le
  have nf : ¬ ((HS.build l).degenerated = true ∨
      ∃ b1 b2, (HS.build l).bounds = [b1, b2] ∧ b1.1.1 * b2.1.2 - b2.1.1 * b1.1.2 = 0) := by
    intro h
    obtain ⟨n, hn, hx⟩ := halfspace_flat l hl h
    exact absurd (hx x0 hf) (ne_of_gt (h0 n hn))
  push Not at nf
  have hd : (HS.build l).degenerated = false := by simpa using nf.1
  exact ⟨hd, halfspace_exact l hl hd nf.2⟩

/-! ### Examples -/

/-- `a ≥ 0`, `b ≥ 0`, `a + b ≥ 0`, `2a - b ≥ 0`: two bounds remain. -/
def exHs : List ((ℚ × ℚ) × ℕ) := [((1, 0), 0), ((0, 1), 1), ((1, 1), 2), ((2, -1), 3)]
example : (HS.build exHs).bounds = [((2, -1), 3), ((0, 1), 1)] ∧ (HS.build exHs).degenerated = false := by decide +kernel
example : ∀ c ∈ exHs, 0 < c.1.1 * 2 + c.1.2 * 1 := by decide +kernel
/-- Antiparallel normals lose the constraint `b ≥ 0`: the stored region is the whole line `a = 0`, a strict superset of
the half line.  So the non-antiparallel hypothesis of `halfspace_exact` is needed. -/
def exHsAnti : List ((ℚ × ℚ) × ℕ) := [((1, 0), 0), ((0, 1), 1), ((-1, 0), 2)]
example : (HS.build exHsAnti).bounds = [((1, 0), 0), ((-1, 0), 2)] ∧ (HS.build exHsAnti).degenerated = false := by decide +kernel
example : Feasible (HS.build exHsAnti).bounds (0, -1) ∧ ¬ Feasible exHsAnti (0, -1) := by
  constructor
  · have : (HS.build exHsAnti).bounds = [((1, 0), 0), ((-1, 0), 2)] := by decide +kernel
    rw [this]; intro c hc; simp at hc; rcases hc with rfl | rfl <;> norm_num
  · intro h; have := h ((0, 1), 1) (by simp [exHsAnti]); norm_num at this
/-- three constraints whose intersection is the origin -/
example : (HS.build ([((1, 0), 0), ((0, 1), 1), ((-1, -1), 2)] : List ((ℚ × ℚ) × ℕ))).degenerated = true := by decide +kernel

end Verif.Bivariate
