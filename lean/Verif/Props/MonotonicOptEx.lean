import Mathlib.Tactic.FinCases
import Mathlib.Tactic.NormNum
import Verif.Props.MonotonicOptReal

/-!
# C94: examples and faults of the global minimisation
-/

namespace Verif.Rpa

open Verif

theorem great_one {φ : ℝ → ℝ} (h : φ 1 ≤ 0) : IsGreatest {t : ℝ | 0 ≤ t ∧ t ≤ 1 ∧ φ t ≤ 0} 1 := ⟨⟨zero_le_one, le_rfl, h⟩, fun _ ht => ht.2.1⟩

theorem great_at {φ : ℝ → ℝ} {α : ℝ} (h0 : 0 ≤ α) (h1 : α ≤ 1) (h : φ α ≤ 0) (h2 : ∀ t, α < t → t ≤ 1 → 0 < φ t) : IsGreatest {t : ℝ | 0 ≤ t ∧ t ≤ 1 ∧ φ t ≤ 0} α :=
  ⟨⟨h0, h1, h⟩, fun t ht => by by_contra hc; exact absurd ht.2.2 (not_le.2 (h2 t (not_le.1 hc) ht.2.1))⟩

@[simp] theorem update_zero (x y v : ℝ) : Function.update (![x, y] : Pt ℝ 2) 0 v = ![v, y] := by funext i; fin_cases i <;> simp
@[simp] theorem update_one (x y v : ℝ) : Function.update (![x, y] : Pt ℝ 2) 1 v = ![x, v] := by funext i; fin_cases i <;> simp
@[simp] theorem onRay_two (b0 b1 z0 z1 t : ℝ) : onRay (![b0, b1] : Pt ℝ 2) ![z0, z1] t = ![b0 + t * (z0 - b0), b1 + t * (z1 - b1)] := by
  funext i; fin_cases i <;> simp [onRay]

theorem finRange_two : List.finRange 2 = [0, 1] := rfl

/-- `_red` in the plane. -/
theorem red_two {P : Prob ℝ 2} {rs : Root ℝ} (hrs : rs.Sound) {rtol : ℝ} (hrt : 0 < rtol) {cbv : Option ℝ} {a0 a1 b0 b1 r0 r1 s0 s1 c0 c1 : ℝ}
    (h0 : IsGreatest {t : ℝ | 0 ≤ t ∧ t ≤ 1 ∧ gap P cbv ![a0 + t * (b0 - a0), a1] ≤ 0} r0) (h1 : IsGreatest {t : ℝ | 0 ≤ t ∧ t ≤ 1 ∧ gap P cbv ![a0, a1 + t * (b1 - a1)] ≤ 0} r1)
    (e0 : a0 + r0 * (b0 - a0) = c0) (e1 : a1 + r1 * (b1 - a1) = c1) (hh : 0 ≤ P.h ![c0, c1])
    (k0 : IsGreatest {t : ℝ | 0 ≤ t ∧ t ≤ 1 ∧ -P.h ![c0 - t * (c0 - a0), c1] ≤ 0} s0) (k1 : IsGreatest {t : ℝ | 0 ≤ t ∧ t ≤ 1 ∧ -P.h ![c0, c1 - t * (c1 - a1)] ≤ 0} s1) :
    red P rs rtol cbv ![a0, a1] ![b0, b1] = .ok (![c0 - s0 * (c0 - a0), c1 - s1 * (c1 - a1)], ![c0, c1]) := by
  have u : redUp P rs cbv ![a0, a1] [0, 1] ![b0, b1] = .ok ![c0, c1] := by
    simp only [redUp, update_zero, update_one, Matrix.cons_val_zero, Matrix.cons_val_one]
    rw [reach_last hrs h0]
    simp only [redUp, update_zero, update_one, Matrix.cons_val_zero, Matrix.cons_val_one]
    rw [reach_last hrs h1]
    simp only [redUp, e0, e1]
  have d : redDown P rs ![c0, c1] [0, 1] ![a0, a1] = .ok ![c0 - s0 * (c0 - a0), c1 - s1 * (c1 - a1)] := by
    simp only [redDown, update_zero, update_one, Matrix.cons_val_zero, Matrix.cons_val_one]
    rw [reach_last hrs k0]
    simp only [redDown, update_zero, update_one, Matrix.cons_val_zero, Matrix.cons_val_one]
    rw [reach_last hrs k1]
  unfold red
  rw [finRange_two, u]
  simp only
  rw [if_neg (by linarith), d]

/-- An increasing function with two valleys along the line `x + y = 12`. -/
noncomputable def valleys : Prob ℝ 2 where
  f p := min (max (p 0 - 8) (p 1 - 4) + 1) (4 * max (p 0 - 3) (p 1 - 9) - 10)
  g _ := -1
  h p := p 0 + p 1 - 12

theorem valleys_ok : valleys.Ok ![0, 0] ![12, 12] := by
  refine ok_of_rises ?_ (rises_const _ _ _) ?_
  · have x8 : ∀ c, Rises (![0, 0] : Pt ℝ 2) ![12, 12] fun p => p 0 - c := fun c => (rises_coord _ _ 0).add (rises_const _ _ (-c))
    have y8 : ∀ c, Rises (![0, 0] : Pt ℝ 2) ![12, 12] fun p => p 1 - c := fun c => (rises_coord _ _ 1).add (rises_const _ _ (-c))
    have h2 := (x8 3).max (y8 9)
    have h3 : Rises (![0, 0] : Pt ℝ 2) ![12, 12] fun p => 4 * max (p 0 - 3) (p 1 - 9) - 10 :=
      ⟨(continuous_const.mul h2.1).sub continuous_const, fun _ hx _ hy l => by have := h2.2 hx hy l; simp only at this ⊢; linarith⟩
    exact (((x8 8).max (y8 4)).add (rises_const _ _ 1)).min h3
  · exact ((rises_coord _ _ 0).add (rises_coord _ _ 1)).add (rises_const _ _ (-12))

theorem valleys_gap (c x y : ℝ) : gap valleys (some c) ![x, y] = max (min (max (x - 8) (y - 4) + 1) (4 * max (x - 3) (y - 9) - 10) - c) (-1) := rfl

theorem valleys_h (x y : ℝ) : valleys.h ![x, y] = x + y - 12 := rfl

theorem valleys_f (x y : ℝ) : valleys.f ![x, y] = min (max (x - 8) (y - 4) + 1) (4 * max (x - 3) (y - 9) - 10) := rfl

/-- The state before the first pass. -/
theorem valleys_start {rs : Root ℝ} (hrs : rs.Sound) {rtol : ℝ} (hrt : 0 < rtol) :
    start valleys rs rtol 2 none ![0, 0] ![12, 12] = .ok ⟨![0, 0], ![12, 12], [![0, 0]], none, none⟩ := by
  have h := red_two (P := valleys) hrs hrt (cbv := none) (a0 := 0) (a1 := 0) (b0 := 12) (b1 := 12) (r0 := 1) (r1 := 1) (c0 := 12) (c1 := 12) (s0 := 1) (s1 := 1)
    (great_one (by simp [gap, valleys])) (great_one (by simp [gap, valleys])) (by norm_num) (by norm_num) (by rw [valleys_h]; norm_num)
    (great_one (by simp [valleys_h])) (great_one (by simp [valleys_h]))
  norm_num at h
  unfold start
  simp only [Option.map_none]
  rw [h]

/-- The first pass. -/
theorem valleys_first {rs : Root ℝ} (hrs : rs.Sound) {rtol : ℝ} (hrt : 0 < rtol) :
    step valleys rs rtol 2 ⟨![0, 0], ![12, 12], [![0, 0]], none, none⟩ 0 = .ok ⟨![0, 3], ![9, 12], [![6, 0], ![0, 6]], some ![6, 6], some 2⟩ := by
  have hr : reach rs (fun α => -valleys.h (onRay ![12, 12] ![0, 0] α)) = .ok (1 / 2) :=
    reach_last hrs (great_at (by norm_num) (by norm_num) (by simp only [onRay_two, valleys_h]; norm_num) (by intro t h1 h2; simp only [onRay_two, valleys_h]; linarith))
  have hx : onRay (![12, 12] : Pt ℝ 2) ![0, 0] (1 / 2) = ![6, 6] := by rw [onRay_two]; norm_num
  have hf : valleys.f ![6, 6] = 2 := by rw [valleys_f]; norm_num
  have h := red_two (P := valleys) hrs hrt (cbv := some 2) (a0 := 0) (a1 := 0) (b0 := 12) (b1 := 12) (r0 := 3 / 4) (r1 := 1) (c0 := 9) (c1 := 12) (s0 := 1) (s1 := 3 / 4)
    (great_at (by norm_num) (by norm_num) (by rw [valleys_gap]; norm_num) (by
      intro t h1 h2
      rw [valleys_gap]
      refine lt_max_of_lt_left (sub_pos.2 (lt_min ?_ ?_))
      · have := le_max_left (0 + t * (12 - 0) - 8) (0 - 4 : ℝ); linarith
      · have := le_max_left (0 + t * (12 - 0) - 3) (0 - 9 : ℝ); linarith))
    (great_one (by rw [valleys_gap]; norm_num)) (by norm_num) (by norm_num) (by rw [valleys_h]; norm_num)
    (great_one (by simp [valleys_h])) (great_at (by norm_num) (by norm_num) (by rw [valleys_h]; norm_num) (by intro t h1 h2; rw [valleys_h]; linarith))
  norm_num at h
  have f1 : valleys.f ![6, 0] = -1 := by rw [valleys_f]; norm_num
  have f2 : valleys.f ![0, 6] = -22 := by rw [valleys_f]; norm_num
  unfold step
  simp only [List.getElem?_cons_zero]
  rw [hr]
  simp only
  rw [hx]
  unfold improve
  rw [hf, if_pos ⟨by norm_num [valleys], rfl⟩, h]
  simp only [List.eraseIdx_cons_zero, List.filter_nil, List.nil_append]
  have g : ∀ p, valleys.g p ≤ 0 := fun p => by norm_num [valleys]
  have : split valleys 2 (some 2) ![0, 0] ![6, 6] = [![6, 0], ![0, 6]] := by
    unfold split
    rw [finRange_two]
    simp [f1, f2, g, less]
  rw [this]

/-- The second pass, for the first vertex: the other vertex is dropped. -/
theorem valleys_second {rs : Root ℝ} (hrs : rs.Sound) {rtol : ℝ} (hrt : 0 < rtol) :
    step valleys rs rtol 2 ⟨![0, 3], ![9, 12], [![6, 0], ![0, 6]], some ![6, 6], some 2⟩ 0 =
      .ok ⟨![1 / 20, 16 / 5], ![44 / 5, 239 / 20], [], some ![36 / 5, 24 / 5], some (9 / 5)⟩ := by
  have hr : reach rs (fun α => -valleys.h (onRay ![9, 12] ![6, 0] α)) = .ok (3 / 5) :=
    reach_last hrs (great_at (by norm_num) (by norm_num) (by simp only [onRay_two, valleys_h]; norm_num) (by intro t h1 h2; simp only [onRay_two, valleys_h]; linarith))
  have hx : onRay (![9, 12] : Pt ℝ 2) ![6, 0] (3 / 5) = ![36 / 5, 24 / 5] := by rw [onRay_two]; norm_num
  have hf : valleys.f ![36 / 5, 24 / 5] = 9 / 5 := by rw [valleys_f]; norm_num
  have h := red_two (P := valleys) hrs hrt (cbv := some (9 / 5)) (a0 := 0) (a1 := 3) (b0 := 9) (b1 := 12) (r0 := 44 / 45) (r1 := 179 / 180) (c0 := 44 / 5) (c1 := 239 / 20)
    (s0 := 175 / 176) (s1 := 175 / 179)
    (great_at (by norm_num) (by norm_num) (by rw [valleys_gap]; norm_num) (by
      intro t h1 h2
      rw [valleys_gap]
      refine lt_max_of_lt_left (sub_pos.2 (lt_min ?_ ?_))
      · exact (by linarith : (9 / 5 : ℝ) < 0 + t * (9 - 0) - 8 + 1).trans_le (by gcongr; exact le_max_left _ _)
      · exact (by linarith : (9 / 5 : ℝ) < 4 * (0 + t * (9 - 0) - 3) - 10).trans_le (by gcongr; exact le_max_left _ _)))
    (great_at (by norm_num) (by norm_num) (by rw [valleys_gap]; norm_num) (by
      intro t h1 h2
      rw [valleys_gap]
      refine lt_max_of_lt_left (sub_pos.2 (lt_min ?_ ?_))
      · exact (by linarith : (9 / 5 : ℝ) < 3 + t * (12 - 3) - 4 + 1).trans_le (by gcongr; exact le_max_right _ _)
      · exact (by linarith : (9 / 5 : ℝ) < 4 * (3 + t * (12 - 3) - 9) - 10).trans_le (by gcongr; exact le_max_right _ _)))
    (by norm_num) (by norm_num) (by rw [valleys_h]; norm_num)
    (great_at (by norm_num) (by norm_num) (by rw [valleys_h]; norm_num) (by intro t h1 h2; rw [valleys_h]; linarith))
    (great_at (by norm_num) (by norm_num) (by rw [valleys_h]; norm_num) (by intro t h1 h2; rw [valleys_h]; linarith))
  norm_num at h
  have f1 : valleys.f ![36 / 5, 0] = 1 / 5 := by rw [valleys_f]; norm_num
  have f2 : valleys.f ![6, 24 / 5] = 9 / 5 := by rw [valleys_f]; norm_num
  unfold step
  simp only [List.getElem?_cons_zero]
  rw [hr]
  simp only
  rw [hx]
  unfold improve
  rw [hf, if_pos ⟨by norm_num [valleys], by simp only [less, decide_eq_true_eq]; norm_num⟩, h]
  have hk : keep valleys 2 (9 / 5) ![1 / 20, 16 / 5] ![44 / 5, 239 / 20] ![0, 6] = false := by
    unfold keep
    rw [Bool.and_eq_false_iff]; left
    rw [Bool.and_eq_false_iff]; left
    rw [Bool.and_eq_false_iff]; left
    rw [decide_eq_false_iff_not]
    intro hc
    have := hc 0
    norm_num at this
  have : split valleys 2 (some (9 / 5)) ![6, 0] ![36 / 5, 24 / 5] = [] := by
    unfold split
    rw [finRange_two]
    norm_num [f1, f2, less]
  simp only [List.eraseIdx_cons_zero, List.filter_cons, hk, List.filter_nil, this, List.append_nil, Bool.false_eq_true, if_false]

/-- **C94 is false.** The function returns `9/5` and says that it has converged with the tolerance `2`, but the value at the feasible point `(3, 9)` is `-10`: an improvement
drops the vertex below that point, because the vertex is not above the new lower bound. -/
theorem rpa_wrong {rs : Root ℝ} (hrs : rs.Sound) {rtol : ℝ} (hrt : 0 < rtol) :
    valleys.Ok ![0, 0] ![12, 12] ∧
    rpa valleys rs rtol 2 (fun _ => 0) 2000 none ![0, 0] ![12, 12] = .ok ⟨some ![36 / 5, 24 / 5], some (9 / 5), 3, true, ![1 / 20, 16 / 5], ![44 / 5, 239 / 20]⟩ ∧
    valleys.Feasible ![0, 0] ![12, 12] ![3, 9] ∧ valleys.f ![3, 9] = -10 := by
  refine ⟨valleys_ok, ?_, ⟨?_, ?_, by norm_num [valleys], by rw [valleys_h]; norm_num⟩, by rw [valleys_f]; norm_num⟩
  · have hh : hopeless valleys none ![0, 0] ![12, 12] = false := by
      simp [hopeless, valleys]
    unfold rpa
    rw [hh, if_neg (by simp), valleys_start hrs hrt]
    simp only
    rw [if_neg (by norm_num), loop, if_neg (by simp)]
    simp only [Nat.zero_mod]
    rw [valleys_first hrs hrt]
    simp only
    rw [loop, if_neg (by simp)]
    simp only [Nat.zero_mod]
    rw [valleys_second hrs hrt]
    simp only
    rw [loop, if_pos rfl]
    simp [Except.map, finish]
  · intro i; fin_cases i <;> norm_num
  · intro i; fin_cases i <;> norm_num

/-- A problem whose least point is the lower corner. -/
noncomputable def corner : Prob ℝ 2 where
  f p := p 0 + p 1
  g _ := -1
  h p := min (p 0 - 1) (p 1 - 1)

theorem corner_ok : corner.Ok ![0, 0] ![12, 12] :=
  ok_of_rises ((rises_coord _ _ 0).add (rises_coord _ _ 1)) (rises_const _ _ _)
    (((rises_coord _ _ 0).add (rises_const _ _ (-1))).min ((rises_coord _ _ 1).add (rises_const _ _ (-1))))

theorem corner_h (x y : ℝ) : corner.h ![x, y] = min (x - 1) (y - 1) := rfl

theorem corner_start {rs : Root ℝ} (hrs : rs.Sound) {rtol : ℝ} (hrt : 0 < rtol) :
    start corner rs rtol 2 none ![0, 0] ![12, 12] = .ok ⟨![1, 1], ![12, 12], [![1, 1]], none, none⟩ := by
  have h := red_two (P := corner) hrs hrt (cbv := none) (a0 := 0) (a1 := 0) (b0 := 12) (b1 := 12) (r0 := 1) (r1 := 1) (c0 := 12) (c1 := 12) (s0 := 11 / 12) (s1 := 11 / 12)
    (great_one (by simp [gap, corner])) (great_one (by simp [gap, corner])) (by norm_num) (by norm_num) (by rw [corner_h]; norm_num)
    (great_at (by norm_num) (by norm_num) (by rw [corner_h]; norm_num) (by
      intro t h1 h2; rw [corner_h]; have := min_le_left (12 - t * (12 - 0) - 1) (12 - 1 : ℝ); linarith))
    (great_at (by norm_num) (by norm_num) (by rw [corner_h]; norm_num) (by
      intro t h1 h2; rw [corner_h]; have := min_le_right (12 - 1 : ℝ) (12 - t * (12 - 0) - 1); linarith))
  norm_num at h
  unfold start
  simp only [Option.map_none]
  rw [h]

theorem corner_first {rs : Root ℝ} (hrs : rs.Sound) {rtol : ℝ} (hrt : 0 < rtol) :
    step corner rs rtol 2 ⟨![1, 1], ![12, 12], [![1, 1]], none, none⟩ 0 = .ok ⟨![1, 1], ![1, 1], [], some ![1, 1], some 2⟩ := by
  have hr : reach rs (fun α => -corner.h (onRay ![12, 12] ![1, 1] α)) = .ok 1 := reach_last hrs (great_one (by simp only [onRay_two, corner_h]; norm_num))
  have hx : onRay (![12, 12] : Pt ℝ 2) ![1, 1] 1 = ![1, 1] := by rw [onRay_two]; norm_num
  have hf : corner.f ![1, 1] = 2 := by norm_num [corner]
  have hg : ∀ x y, gap corner (some 2) ![x, y] = max (x + y - 2) (-1) := fun _ _ => rfl
  have h := red_two (P := corner) hrs hrt (cbv := some 2) (a0 := 1) (a1 := 1) (b0 := 12) (b1 := 12) (r0 := 0) (r1 := 0) (c0 := 1) (c1 := 1) (s0 := 1) (s1 := 1)
    (great_at (by norm_num) (by norm_num) (by rw [hg]; norm_num) (by intro t h1 h2; rw [hg]; refine lt_max_of_lt_left ?_; linarith))
    (great_at (by norm_num) (by norm_num) (by rw [hg]; norm_num) (by intro t h1 h2; rw [hg]; refine lt_max_of_lt_left ?_; linarith))
    (by norm_num) (by norm_num) (by rw [corner_h]; norm_num) (great_one (by rw [corner_h]; norm_num)) (great_one (by rw [corner_h]; norm_num))
  norm_num at h
  unfold step
  simp only [List.getElem?_cons_zero]
  rw [hr]
  simp only
  rw [hx]
  unfold improve
  rw [hf, if_pos ⟨by norm_num [corner], rfl⟩, h]
  simp [split]

/-- **The hypotheses of `rpa_optimal_partial` can be met**: a run that converges, with an improvement, and loses nothing. -/
theorem ex_rpa_optimal {rs : Root ℝ} (hrs : rs.Sound) {rtol : ℝ} (hrt : 0 < rtol) :
    (∃ r, rpa corner rs rtol 2 (fun _ => 0) 2000 none ![0, 0] ![12, 12] = .ok r ∧ r.converged = true ∧ r.x = some ![1, 1]) ∧
    ∀ s, start corner rs rtol 2 none ![0, 0] ![12, 12] = .ok s → Lossless corner rs rtol 2 (fun _ => 0) 2000 1 s := by
  constructor
  · have hh : hopeless corner none ![0, 0] ![12, 12] = false := by
      simp [hopeless, corner]
    refine ⟨⟨some ![1, 1], some 2, 2, true, ![1, 1], ![1, 1]⟩, ?_, rfl, rfl⟩
    unfold rpa
    rw [hh, if_neg (by simp), corner_start hrs hrt]
    simp only
    rw [if_neg (by norm_num), loop, if_neg (by simp)]
    simp only [Nat.zero_mod]
    rw [corner_first hrs hrt]
    simp only
    rw [loop, if_pos rfl]
    simp [Except.map, finish]
  · intro s hs
    rw [corner_start hrs hrt] at hs
    cases hs
    refine .inr ⟨_, corner_first hrs hrt, .inr ?_, .inl rfl⟩
    intro z hz
    simp at hz

/-- An infeasible problem. -/
noncomputable def apart : Prob ℝ 2 where
  f p := p 0 + p 1
  g p := p 0 + p 1 - 1
  h p := p 0 + p 1 - 3

/-- **Fault.** An infeasible problem without a bound of the caller raises `ValueError` instead of returning no point, because the reduced box is outside `H`. -/
theorem rpa_infeasible_wrong {rs : Root ℝ} (hrs : rs.Sound) {rtol tol : ℝ} (h1 : rtol ≤ 1) (pick : ℕ → ℕ) (m : ℕ) :
    rpa apart rs rtol tol pick (m + 1) none ![0, 0] ![2, 2] = .error .valueError := by
  have hg : ∀ x y, gap apart none ![x, y] = x + y - 1 := fun _ _ => rfl
  have u : redUp apart rs none ![0, 0] [0, 1] ![2, 2] = .ok ![1, 1] := by
    simp only [redUp, update_zero, update_one, Matrix.cons_val_zero, Matrix.cons_val_one]
    rw [reach_last hrs (α := 1 / 2) (great_at (by norm_num) (by norm_num) (by rw [hg]; norm_num) (by intro t h1 h2; rw [hg]; linarith))]
    simp only [redUp, update_zero, update_one, Matrix.cons_val_zero, Matrix.cons_val_one]
    rw [reach_last hrs (α := 1 / 2) (great_at (by norm_num) (by norm_num) (by rw [hg]; norm_num) (by intro t h1 h2; rw [hg]; linarith))]
    norm_num [redUp]
  have hh : apart.h ![1, 1] = -1 := by norm_num [apart]
  have hs : start apart rs rtol tol none ![0, 0] ![2, 2] = .ok ⟨![1, 1], ![1, 1], [![1, 1]], none, none⟩ := by
    unfold start red
    simp only [Option.map_none]
    rw [finRange_two, u]
    simp only
    rw [if_pos (by rw [hh]; linarith)]
  have hho : hopeless apart none ![0, 0] ![2, 2] = false := by
    simp [hopeless, apart]; norm_num
  unfold rpa
  rw [hho, if_neg (by simp), hs]
  simp only
  rw [if_neg (by omega), loop, if_neg (by simp), step_raises hrs (z := ![1, 1]) rfl rfl (by rw [hh]; norm_num)]
  rfl

/-- The constraint `1 - y >= 0` in the variables `x, y`. -/
def exUpper : Terms ℝ 2 := [(![0, 1], -1), (![0, 0], 1)]

/-- The constraint `y - 1 >= 0`. -/
def exLower : Terms ℝ 2 := [(![0, 1], 1), (![0, 0], -1)]

/-- **Fault.** With the constraint `y <= 1` every problem is said to be infeasible, although the origin satisfies the constraint. -/
theorem polyopt_refuse_wrong (shift : Terms ℝ 2 → Pt ℝ 2 → Terms ℝ 2) (rs : Root ℝ) (rtol tol eqtol : ℝ) (pick : ℕ → ℕ) (m : ℕ) (cbv : Option ℝ) (f : Terms ℝ 2) (a b : Pt ℝ 2) :
    polyopt shift rs rtol tol eqtol pick m cbv f [exUpper] [] a b = .ok ⟨none, none, 1, true, a, b⟩ ∧ (a ≤ 0 → 0 ≤ b → PFeasible [exUpper] [] eqtol a b 0) := by
  refine ⟨polyopt_refuse (by intro t ht; simp [exUpper] at ht; rcases ht with rfl | rfl <;> rfl) (by norm_num [exUpper, Terms.lc]), fun h1 h2 => ⟨h1, h2, ?_, by simp⟩⟩
  intro p hp
  rw [List.mem_singleton.1 hp]
  simp [exUpper, Terms.eval, Fin.prod_univ_two]

/-- **Fault.** The constraint `y >= 1` is ignored, although the origin violates it. -/
theorem polyopt_skip_wrong (shift : Terms ℝ 2 → Pt ℝ 2 → Terms ℝ 2) (rs : Root ℝ) (rtol tol eqtol : ℝ) (pick : ℕ → ℕ) (m : ℕ) (cbv : Option ℝ) (f : Terms ℝ 2) (a b : Pt ℝ 2) :
    polyopt shift rs rtol tol eqtol pick m cbv f [exLower] [] a b = polyopt shift rs rtol tol eqtol pick m cbv f [] [] a b ∧ exLower.eval 0 < 0 := by
  refine ⟨polyopt_skip (by intro t ht; simp [exLower] at ht; rcases ht with rfl | rfl <;> rfl) (by norm_num [exLower, Terms.lc]), ?_⟩
  simp [exLower, Terms.eval, Fin.prod_univ_two]

section Shift

variable {n : ℕ}

/-- The product of two polynomials, not collected. -/
def tmul (p q : Terms ℝ n) : Terms ℝ n := p.flatMap fun t => q.map fun s => (t.1 + s.1, t.2 * s.2)

theorem eval_tmul (p q : Terms ℝ n) (x : Pt ℝ n) : (tmul p q).eval x = p.eval x * q.eval x := by
  have key : ∀ (t : (Fin n → ℕ) × ℝ) (q : Terms ℝ n), Terms.eval (q.map fun s => (t.1 + s.1, t.2 * s.2)) x = t.2 * (∏ i, x i ^ t.1 i) * q.eval x := by
    intro t q
    induction q with
    | nil => simp [Terms.eval]
    | cons s q ih =>
      rw [List.map_cons, Terms.eval_cons, Terms.eval_cons, ih]
      simp only [Pi.add_apply, pow_add, Finset.prod_mul_distrib]; ring
  induction p with
  | nil => simp [tmul, Terms.eval]
  | cons t p ih =>
    have e : tmul (t :: p) q = (q.map fun s => (t.1 + s.1, t.2 * s.2)) ++ tmul p q := rfl
    rw [e, Terms.eval_append, key, ih, Terms.eval_cons]; ring

/-- The power of a polynomial. -/
def tpow (p : Terms ℝ n) : ℕ → Terms ℝ n
  | 0 => [(0, 1)]
  | k + 1 => tmul p (tpow p k)

theorem eval_tpow (p : Terms ℝ n) (x : Pt ℝ n) : ∀ k, (tpow p k).eval x = p.eval x ^ k
  | 0 => by simp [tpow, Terms.eval]
  | k + 1 => by rw [tpow, eval_tmul, eval_tpow p x k, pow_succ]; ring

/-- `x_i + v`. -/
def tvar (i : Fin n) (v : ℝ) : Terms ℝ n := [(Pi.single i 1, 1), (0, v)]

theorem eval_tvar (i : Fin n) (v : ℝ) (x : Pt ℝ n) : (tvar i v).eval x = x i + v := by
  rw [Terms.eval_linear i x _ (by intro t ht; simp [tvar] at ht; rcases ht with rfl | rfl <;> simp)]
  have hne : (Pi.single i 1 : Fin n → ℕ) ≠ 0 := fun e => by have := congrFun e i; simp at this
  simp [tvar, Terms.coeff_cons, Terms.coeff_nil, hne, hne.symm]

/-- The product of the powers of `x_i + v_i`. -/
def tprod (e : Fin n → ℕ) (v : Pt ℝ n) : List (Fin n) → Terms ℝ n
  | [] => [(0, 1)]
  | i :: is => tmul (tpow (tvar i (v i)) (e i)) (tprod e v is)

theorem eval_tprod (e : Fin n → ℕ) (v x : Pt ℝ n) : ∀ is : List (Fin n), (tprod e v is).eval x = (is.map fun i => (x i + v i) ^ e i).prod
  | [] => by simp [tprod, Terms.eval]
  | i :: is => by rw [tprod, eval_tmul, eval_tpow, eval_tvar, eval_tprod e v x is]; simp

open Classical in
/-- A shift by expansion. -/
noncomputable def exShift (p : Terms ℝ n) (v : Pt ℝ n) : Terms ℝ n :=
  if v = 0 then p else p.flatMap fun t => tmul [(0, t.2)] (tprod t.1 v (List.finRange n))

/-- The assumption on `shift_list` can be met. -/
theorem exShift_sound : ShiftSound (exShift (n := n)) where
  zero p := by simp [exShift]
  eval p v x := by
    unfold exShift
    by_cases h : v = 0
    · rw [if_pos h, h, add_zero]
    · rw [if_neg h]
      induction p with
      | nil => simp [Terms.eval]
      | cons t p ih =>
        rw [List.flatMap_cons, Terms.eval_append, ih, eval_tmul, eval_tprod, Terms.eval_cons]
        congr 1
        have : (List.map (fun i => (x i + v i) ^ t.1 i) (List.finRange n)).prod = ∏ i, (x + v) i ^ t.1 i := by
          rw [← List.ofFn_eq_map, List.prod_ofFn]; rfl
        rw [this]; simp [Terms.eval]

end Shift

/-- The objective `x` in one variable. -/
def exX : Terms ℝ 1 := [(![1], 1)]

/-- The constraint `x - 3 >= 0`. -/
def exGe : Terms ℝ 1 := [(![1], 1), (![0], -3)]

/-- The constraint `1 - x >= 0`. -/
def exLe : Terms ℝ 1 := [(![1], -1), (![0], 1)]

theorem exGe_add {shift : Terms ℝ 1 → Pt ℝ 1 → Terms ℝ 1} (a b : Pt ℝ 1) (ha : a 0 ≤ 3) (gh : Pairs ℝ 1) : addIneq shift exGe ⟨a, b, gh⟩ = some ⟨![3], b, gh⟩ := by
  have e1 : (![1] : Fin 1 → ℕ) = Pi.single 0 1 := by funext i; fin_cases i; rfl
  have e0 : (![0] : Fin 1 → ℕ) = 0 := by funext i; fin_cases i; rfl
  have hne : (Pi.single 0 1 : Fin 1 → ℕ) ≠ 0 := fun e => by have := congrFun e 0; simp at this
  have hd : exGe.degree = 1 := rfl
  have hu : exGe.used = [0] := rfl
  have c1 : exGe.coeff (Pi.single 0 1) = 1 := by simp [exGe, e1, e0, Terms.coeff_cons, Terms.coeff_nil, hne.symm]
  have c0 : exGe.coeff 0 = -3 := by simp [exGe, e1, e0, Terms.coeff_cons, Terms.coeff_nil, hne]
  unfold addIneq
  rw [if_neg (by rw [hd]; omega), if_pos ⟨hd, by rw [hu]; rfl⟩, hu]
  simp only [List.headD_cons, c1, c0]
  refine (if_pos one_pos).trans ?_
  congr 2
  funext i; fin_cases i
  simp [ha]

theorem exLe_add {shift : Terms ℝ 1 → Pt ℝ 1 → Terms ℝ 1} (a b : Pt ℝ 1) (hb : 1 ≤ b 0) (gh : Pairs ℝ 1) : addIneq shift exLe ⟨a, b, gh⟩ = some ⟨a, ![1], gh⟩ := by
  have e1 : (![1] : Fin 1 → ℕ) = Pi.single 0 1 := by funext i; fin_cases i; rfl
  have e0 : (![0] : Fin 1 → ℕ) = 0 := by funext i; fin_cases i; rfl
  have hne : (Pi.single 0 1 : Fin 1 → ℕ) ≠ 0 := fun e => by have := congrFun e 0; simp at this
  have hd : exLe.degree = 1 := rfl
  have hu : exLe.used = [0] := rfl
  have c1 : exLe.coeff (Pi.single 0 1) = -1 := by simp [exLe, e1, e0, Terms.coeff_cons, Terms.coeff_nil, hne.symm]
  have c0 : exLe.coeff 0 = 1 := by simp [exLe, e1, e0, Terms.coeff_cons, Terms.coeff_nil, hne]
  unfold addIneq
  rw [if_neg (by rw [hd]; omega), if_pos ⟨hd, by rw [hu]; rfl⟩, hu]
  simp only [List.headD_cons, c1, c0]
  refine (if_neg (by norm_num)).trans ?_
  congr 2
  funext i; fin_cases i
  simp [hb]

/-- Every search of a run in a box that is a point of `H` returns one. -/
theorem red_same {m : ℕ} {P : Prob ℝ m} {rs : Root ℝ} (hrs : rs.Sound) {rtol : ℝ} (hrt : 0 < rtol) {cbv : Option ℝ} {a b : Pt ℝ m}
    (h1 : ∀ i, gap P cbv (Function.update a i (b i)) ≤ 0) (h2 : 0 ≤ P.h b) (h3 : ∀ i, 0 ≤ P.h (Function.update b i (a i))) : red P rs rtol cbv a b = .ok (a, b) := by
  have u : ∀ is : List (Fin m), redUp P rs cbv a is b = .ok b := by
    intro is
    induction is with
    | nil => rfl
    | cons i is ih =>
      rw [redUp, reach_last hrs (α := 1) (great_one (by simpa using h1 i))]
      simpa using ih
  have d : ∀ is : List (Fin m), redDown P rs b is a = .ok a := by
    intro is
    induction is with
    | nil => rfl
    | cons i is ih =>
      rw [redDown, reach_last hrs (α := 1) (great_one (by simpa using h3 i))]
      simpa using ih
  unfold red
  rw [u]
  simp only
  rw [if_neg (by linarith), d]

/-- **Fault.** With the constraints `x >= 3` and `x <= 1`, which contradict each other, the point `3` is returned, and the search is said to have converged. -/
theorem polyopt_empty_wrong {shift : Terms ℝ 1 → Pt ℝ 1 → Terms ℝ 1} (hs : ShiftSound shift) {rs : Root ℝ} (hrs : rs.Sound) {rtol : ℝ} (hrt : 0 < rtol) (tol eqtol : ℝ) (pick : ℕ → ℕ) (m : ℕ) :
    ∃ r, polyopt shift rs rtol tol eqtol pick (m + 2) none exX [exGe, exLe] [] ![-10] ![10] = .ok r ∧ r.x = some ![3] ∧ r.converged = true ∧
      ¬ PFeasible [exGe, exLe] [] eqtol ![-10] ![10] ![3] := by
  have hadd : addAll shift (relaxed [exGe, exLe] [] eqtol) ⟨![-10], ![10], []⟩ = .inl ⟨![3], ![1], []⟩ := by
    have e : relaxed [exGe, exLe] [] eqtol = [exGe, exLe] := rfl
    rw [e, addAll, exGe_add _ _ (by norm_num)]
    simp only
    rw [addAll, exLe_add _ _ (by norm_num)]
    simp only [addAll]
  have hmin : (fun i => min ((![3] : Pt ℝ 1) i) 0) = 0 := by funext i; fin_cases i; norm_num
  have d1 : (asDm shift exX ![3]).1 = fun x => x 0 := by
    funext x
    simp only [asDm, hmin, hs.zero, sub_zero]
    simp [exX, Terms.pos, Terms.eval]
  have d2 : (asDm shift exX ![3]).2 = fun _ => 0 := by
    funext x
    simp only [asDm, hmin, hs.zero, sub_zero]
    simp [exX, Terms.neg, Terms.eval]
  set P := gmopProb (fun x : Pt ℝ 1 => x 0) (fun _ => 0) [] with hP
  have pf : ∀ p, P.f p = low p 0 + slackU p := fun _ => rfl
  have pg : ∀ p, P.g p = slackT p := fun p => by simp [hP, gmopProb, gMax]
  have ph : ∀ p, P.h p = min (slackT p) (slackU p) := fun p => by simp [hP, gmopProb, hSum]
  have bounds : ∀ x : Pt ℝ 1, (-gMax ([] : Pairs ℝ 1) x, -(fun _ : Pt ℝ 1 => (0 : ℝ)) x) = (0, 0) := fun x => by simp [gMax]
  have ga : ∀ x : Pt ℝ 1, -gMax ([] : Pairs ℝ 1) x = 0 := fun x => by simp [gMax]
  set A : Pt ℝ 3 := lift ![3] 0 0 with hA
  set B : Pt ℝ 3 := lift ![1] 0 0 with hB
  have upA : ∀ i, slackT (n := 1) (Function.update A i (B i)) = 0 ∧ low (n := 1) (Function.update A i (B i)) 0 + slackU (n := 1) (Function.update A i (B i)) ≤ 3 := by
    intro i; fin_cases i <;> simp [A, B, lift, slackT, slackU, low, Function.update] <;> norm_num
  have upB : ∀ i, slackT (n := 1) (Function.update B i (A i)) = 0 ∧ slackU (n := 1) (Function.update B i (A i)) = 0 := by
    intro i; fin_cases i <;> simp [A, B, lift, slackT, slackU, Function.update]
  have sB : slackT (n := 1) B = 0 ∧ slackU (n := 1) B = 0 := ⟨slackT_lift _ _ _, slackU_lift _ _ _⟩
  have sA : slackT (n := 1) A = 0 ∧ slackU (n := 1) A = 0 := ⟨slackT_lift _ _ _, slackU_lift _ _ _⟩
  have lA : low (n := 1) A = ![3] := low_lift _ _ _
  have fA : P.f A = 3 := by rw [pf, lA, sA.2]; norm_num
  have red0 : ∀ cbv, (∀ c, cbv = some c → c = 3) → red P rs rtol cbv A B = .ok (A, B) := by
    intro cbv hc
    refine red_same hrs hrt (fun i => (gap_le P cbv _).2 ⟨fun c h => ?_, ?_⟩) ?_ fun i => ?_
    · rw [hc c h, pf]; exact (upA i).2
    · rw [pg, (upA i).1]
    · rw [ph, sB.1, sB.2]; simp
    · rw [ph, (upB i).1, (upB i).2]; simp
  have hray : reach rs (fun α => -P.h (onRay B A α)) = .ok 1 := by
    refine reach_last hrs (great_one ?_)
    have : onRay B A 1 = A := by funext i; simp [onRay]
    simp only [this, ph, sA.1, sA.2]; simp
  have hone : onRay B A 1 = A := by funext i; simp [onRay]
  have hstep : step P rs rtol tol ⟨A, B, [A], none, none⟩ 0 = .ok ⟨A, B, [], some A, some 3⟩ := by
    unfold step
    simp only [List.getElem?_cons_zero]
    rw [hray]
    simp only
    rw [hone]
    unfold improve
    rw [fA, if_pos ⟨by rw [pg, sA.1], rfl⟩, red0 (some 3) (by intro c h; cases h; rfl)]
    simp [split]
  have hrpa : rpa P rs rtol tol pick (m + 2) none A B = .ok ⟨some A, some 3, 2, true, A, B⟩ := by
    have hh : hopeless P none A B = false := by
      simp only [hopeless, pg, ph, sA.1, sB.1, sB.2]; simp
    unfold rpa
    rw [hh, if_neg (by simp)]
    unfold start
    simp only [Option.map_none]
    rw [red0 none (by simp)]
    simp only
    rw [if_neg (by omega), loop, if_neg (by simp)]
    simp only [List.length_singleton, Nat.mod_one]
    rw [hstep]
    simp only
    rw [loop, if_pos rfl]
    simp [Except.map, finish]
  refine ⟨lower (fun x => x 0) (fun _ => 0) ⟨some A, some 3, 2, true, A, B⟩, ?_, ?_, rfl, ?_⟩
  · unfold polyopt
    rw [hadd]
    simp only [d1, d2]
    unfold gmop
    simp only [ga, neg_zero]
    rw [← hP, ← hA, ← hB, hrpa]
    rfl
  · simp [lower, lA]
  · rintro ⟨_, _, h, _⟩
    have := h exLe (by simp)
    norm_num [exLe, Terms.eval] at this

/-- The constraint `x*y - 1 >= 0`. -/
def exXY : Terms ℝ 2 := [(![1, 1], 1), (![0, 0], -1)]

/-- **The hypotheses of the theorems about polynomials can be met**: minimise `x + y` with `x*y >= 1` and `x = y` in a box. -/
theorem ex_polyopt {rs : Root ℝ} (hrs : rs.Sound) (pick : ℕ → ℕ) : ∃ r, polyopt exShift rs (1 / 10) (1 / 10) (1 / 10) pick 2000 none [(![1, 0], 1), (![0, 1], 1)] [exXY]
      [[(![1, 0], 1), (![0, 1], -1)]] ![-10, -10] ![10, 10] = .ok r ∧ (r.x = none → r.converged = false) ∧
      ∀ x, r.x = some x → 1 ≤ x 0 * x 1 ∧ |x 0 - x 1| ≤ 1 / 10 ∧ r.f = some (x 0 + x 1) := by
  have hall : ∀ p ∈ [exXY] ++ [[(![1, 0], 1), (![0, 1], -1)]], Terms.Canon p ∧ Terms.First p := by
    intro p hp
    simp only [List.cons_append, List.nil_append, List.mem_cons, List.not_mem_nil, or_false] at hp
    rcases hp with rfl | rfl
    · exact ⟨⟨by simp [exXY], by simp [exXY]⟩, .inl ⟨(![1, 1], 1), by simp [exXY], by simp⟩⟩
    · exact ⟨⟨by simp, by simp⟩, .inl ⟨(![1, 0], 1), by simp, by simp⟩⟩
  have hy : PFeasible [exXY] [[(![1, 0], 1), (![0, 1], -1)]] (1 / 10) ![-10, -10] ![10, 10] ![1, 1] := by
    refine ⟨?_, ?_, ?_, ?_⟩
    · intro i; fin_cases i <;> norm_num
    · intro i; fin_cases i <;> norm_num
    · intro p hp; rw [List.mem_singleton.1 hp]; simp [exXY, Terms.eval, Fin.prod_univ_two]
    · intro p hp; rw [List.mem_singleton.1 hp]; simp [Terms.eval, Fin.prod_univ_two]
  obtain ⟨r, hr⟩ := polyopt_returns_partial (pick := pick) (f := [(![1, 0], 1), (![0, 1], 1)]) exShift_sound hrs (rtol := 1 / 10) (tol := 1 / 10) (by norm_num) (by norm_num)
    (maxIter := 2000) (by norm_num) hall hy
  refine ⟨r, hr, fun hx => ?_, fun x hx => ?_⟩
  · by_contra hc
    obtain ⟨c, h, _⟩ := polyopt_none_partial exShift_sound hrs (by norm_num) (by norm_num) (by norm_num) hall hr hx (by simpa using hc) hy
    cases h
  · obtain ⟨⟨_, _, h1, h2⟩, h3⟩ := polyopt_sound_partial exShift_sound hrs (by norm_num) (by norm_num) (by norm_num) hall hy hr hx
    have h1 := h1 exXY (by simp)
    have h2 := h2 _ (List.mem_singleton.2 rfl)
    simp only [exXY, Terms.eval, Fin.prod_univ_two, List.map_cons, List.map_nil, List.sum_cons, List.sum_nil] at h1 h2 h3
    simp at h1 h2 h3
    refine ⟨by linarith, ?_, h3⟩
    rw [← sub_eq_add_neg] at h2; simpa using h2

end Verif.Rpa
