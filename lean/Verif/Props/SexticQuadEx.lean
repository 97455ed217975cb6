import Verif.Props.SexticQuadMain
import Verif.Props.SexticFullEx

/-!
# Answers, `nan` and exceptions of the solver on the axis
-/

namespace Verif.Ternary

open Verif Verif.Acute Verif.Univariate

variable {K : Type*} [Field K] [LinearOrder K] [IsStrictOrderedRing K]

/-! ### When there is an answer -/

theorem qSquare_none {x y ker : K} (h : x + y ≠ 5 / 3 ∨ x = 1) : qSquare x y ker = .ok none := by
  unfold qSquare
  rw [if_neg]
  rintro ⟨h1, h2⟩
  exact h.elim (fun h => h h1) fun h => h2 h

/-- **With `ker_coeff >= coeff0/3` the solver returns a certificate.** -/
theorem qSolve_third {X : QuadExt K} {co x y ker t rem z : K} {r : Option K} (hco : 0 < co) (hz : X.findZ x y (ker / co) = .ok z) (hk : co / 3 ≤ ker) :
    ∃ C, qSolve X co x y ker t rem r = .ok (some (.cert C)) := by
  have h3 : 1 / 3 ≤ ker / co := by
    rw [le_div_iff₀ hco]
    linarith
  unfold qSolve
  rw [if_neg hco.ne', hz]
  dsimp only
  have ht : wrapFlat (qTrivial x y (ker / co)) co t rem r = .ok (some (.cert (((Cert.smul co (.plain [(1 / 18, cyc3 fun a b c => (a - b) ^ 2 * trivP x y a b c ^ 2),
      (ker / co - 1 / 3, discV3)])).add (t / 4) axV3).add (rem / 2) fun a b c => sd3 a b c * remV r a b c), true)) := by
    unfold qTrivial
    rw [if_pos h3]
    rfl
  have hs : (∃ C, qSquare x y (ker / co) = .ok (some (.cert C, true))) ∨ qSquare x y (ker / co) = .ok none := by
    unfold qSquare
    dsimp only
    split
    · split
      · exact .inl ⟨_, rfl⟩
      · exact .inr rfl
    · exact .inr rfl
  rcases hs with ⟨C, hs⟩ | hs
  · have hw : ∃ D, wrapFlat (qSquare x y (ker / co)) co t rem r = .ok (some (.cert D, true)) := ⟨_, by rw [hs]; rfl⟩
    obtain ⟨D, hw⟩ := hw
    exact ⟨D, by rw [qLoop, hw]⟩
  · refine ⟨((Cert.smul co (.plain [(1 / 18, cyc3 fun a b c => (a - b) ^ 2 * trivP x y a b c ^ 2),
      (ker / co - 1 / 3, discV3)])).add (t / 4) axV3).add (rem / 2) fun a b c => sd3 a b c * remV r a b c, ?_⟩
    rw [qLoop, hs]
    change qLoop none _ = _
    rw [qLoop, ht]

theorem quadratic_some {x y : K} (hx : 0 ≤ x) (hy : 0 ≤ x + y) : ∃ Q, quadratic x y = some Q := by
  unfold quadratic
  rw [if_neg (by push Not; exact ⟨hx, hy⟩)]
  split
  · exact ⟨_, rfl⟩
  · split <;> exact ⟨_, rfl⟩

theorem mergeRegular (x y : K) {co ker : K} (hco : 0 ≤ co) (hker : 0 ≤ ker) (P : Cert K) :
    ∃ C, mergeRem ((qRegular x y).scale co) (.cert P) 0 0 ker = .ok (some (.cert C, decide (2 * co - 2 * ker ≤ 4 * ker))) := by
  obtain ⟨Q, q1⟩ := quadratic_some (x := 0 * co + 0 + 2 * ker) (y := 2 * co + 0 + -2 * ker) (by linarith) (by linarith)
  obtain ⟨M, q2⟩ := quadratic_some (x := (2 : K)) (y := -2) (by norm_num) (by norm_num)
  unfold mergeRem
  rw [if_neg (by norm_num [qRegular, Lifted.scale])]
  dsimp only [qRegular, Lifted.scale]
  rw [if_pos (by constructor <;> linarith), q1, q2]
  refine ⟨_, congrArg (fun v => Except.ok (some (QSol.cert _, v))) (decide_eq_decide.2 ⟨fun h => by linarith [h.1], fun h => ⟨by linarith, by norm_num⟩⟩)⟩

/-- For `ker_coeff >= 0` the polynomial has a proof, the one of `_F_regular`. -/
theorem regular_proves (x y : K) {co ker t rem : K} (r : Option K) (hco : 0 ≤ co) (hker : 0 ≤ ker) (ht : 0 ≤ t) (hrem : 0 ≤ rem) :
    ∃ C, Holds (fun a b c => co * axisF x y a b c + axisRem t rem r a b c + ker * discV3 a b c) C := by
  have hr : remRegular t rem r (qRegular x y).m0 (qRegular x y).m1 =
      .ok (.plain [(t / 4, fun a b c => sd3 a b c * axV3 a b c), (2 * rem, fun a b c => cyc3 (fun a b _ => a ^ 2 - a * b) a b c ^ 2 * remV r a b c)], 0, 0) := by
    unfold remRegular
    rw [if_pos ⟨rfl, rfl⟩]
  obtain ⟨-, hR⟩ := remRegular_sound ht hrem hr
  obtain ⟨C, hC⟩ := mergeRegular x y hco hker (.plain [(t / 4, fun a b c => sd3 a b c * axV3 a b c), (2 * rem, fun a b c => cyc3 (fun a b _ => a ^ 2 - a * b) a b c ^ 2 * remV r a b c)])
  refine ⟨C, mergeRem_sound (G := axisRem t rem r) ((qRegular_fits x y).scale hco) (fun P hP => ?_) C _ hC⟩
  obtain rfl := QSol.cert.inj hP
  refine hR.congr fun a b c => ?_
  simp only [quadV, Lifted.scale]
  ring

/-! ### The fault: `nan` is returned -/

/-- **When the remainder is a multiple of `s(ab)^2` the solver may return `nan`**, as the answer that is preferred: `_rem_sos` divides by zero. -/
theorem qSolve_nan {X : QuadExt K} {co x y ker t rem z : K} (hco : 0 < co) (hz : X.findZ x y (ker / co) = .ok z) (hxy : x + y ≠ 5 / 3) (hk : ker < co / 3)
    (h1 : 3 * rem ≤ 4 * ker) (h2 : 9 * rem ≤ 2 * co) (h3 : 4 * co - 9 * rem ≤ 12 * ker) (hrem : 0 ≤ rem) : qSolve X co x y ker t rem none = .ok (some .nan) := by
  have hk3 : ¬ 1 / 3 ≤ ker / co := by
    rw [not_le, div_lt_iff₀ hco]
    linarith
  have hker : 0 ≤ ker := by linarith
  have a1 : wrapFlat (qSquare x y (ker / co)) co t rem none = .ok none := by
    rw [qSquare_none (.inl hxy)]
    rfl
  have a2 : wrapFlat (qTrivial x y (ker / co)) co t rem none = .ok none := by
    unfold qTrivial
    rw [if_neg hk3]
    rfl
  have m3 : mergeRem ((qRegular x y).scale co) .nan (-(3 * (rem * 2) - 24 * 0 + 6 * 0) / 4) (-9 * (4 * 0 - 4 * 0 + rem * 2) / 4 + 2 * (-(3 * (rem * 2) - 24 * 0 + 6 * 0) / 4)) ker = .ok (some (.nan, true)) := by
    unfold mergeRem
    rw [if_neg (by norm_num [qRegular, Lifted.scale])]
    dsimp only [qRegular, Lifted.scale]
    rw [if_pos (by constructor <;> linarith)]
    exact congrArg (fun v => Except.ok (some (QSol.nan, v))) (decide_eq_true ⟨by linarith, by norm_num⟩)
  have a3 : wrapLift (qRegular x y) co ker t rem none = .ok (some (.nan, true)) := by
    unfold wrapLift
    have hr : remRegular t rem none (qRegular x y).m0 (qRegular x y).m1 =
        .ok (.plain [(t / 4, fun a b c => sd3 a b c * axV3 a b c), (2 * rem, fun a b c => cyc3 (fun a b _ => a ^ 2 - a * b) a b c ^ 2 * remV none a b c)], 0, 0) := by
      unfold remRegular
      rw [if_pos ⟨rfl, rfl⟩]
    have hs : remSos t rem none (qRegular x y).m0 (qRegular x y).m1 =
        some (.nan, -(3 * (rem * 2) - 24 * 0 + 6 * 0) / 4, -9 * (4 * 0 - 4 * 0 + rem * 2) / 4 + 2 * (-(3 * (rem * 2) - 24 * 0 + 6 * 0) / 4)) := by
      unfold remSos
      rw [if_pos ⟨rfl, rfl⟩]
      simp [remUV]
    rw [hr, hs]
    dsimp only
    obtain ⟨C, h⟩ := mergeRegular x y hco.le hker (.plain [(t / 4, fun a b c => sd3 a b c * axV3 a b c), (2 * rem, fun a b c => cyc3 (fun a b _ => a ^ 2 - a * b) a b c ^ 2 * remV none a b c)])
    rw [h, decide_eq_false (by intro h; linarith)]
    dsimp only
    rw [m3]
  unfold qSolve
  rw [if_neg hco.ne', hz]
  dsimp only
  rw [qLoop, a1]
  change qLoop none _ = _
  rw [qLoop, a2]
  change qLoop none _ = _
  rw [qLoop, a3]

/-- The sextic `F_{2,1} + 2/9*s(a^2-ab)s(ab)^2 + 1/4*p(a-b)^2`. -/
def exNan : Sextic ℚ := ⟨1, -1, -1, 197 / 36, -55 / 18, 197 / 36, -31 / 18, -85 / 18, -85 / 18, 77 / 6⟩

/-- SymPy's answers for the examples: `(z^2+3)^2 + 2/9*(2z+1)^2`, `(z^2+3)^2`, and the root `3/2` of `det1` for `suv = 0`, `puv = 1`. -/
def exQuad : QuadExt ℚ where
  prover g := if g = [29 / 3 - 4 / 9, 8 / 9, 62 / 9, 0, 1, 0, 0] then .ok (some ([(1, [3, 0, 1]), (2 / 9, [1, 2])], [])) else
    if g = [9, 0, 6, 0, 1, 0, 0] then .ok (some ([(1, [3, 0, 1])], [])) else .ok none
  findZ _ _ _ := .ok 0
  roots s p := if s = 0 ∧ p = 1 then [.rat (3 / 2)] else []
  intervals _ _ _ := []

theorem exQuad_sound : exQuad.Sound := by
  refine ⟨fun g p h => ?_, fun s p m h => ?_, fun s p m I h => by simp [exQuad] at h⟩
  · simp only [exQuad] at h
    split at h
    · rename_i hg
      obtain rfl := Option.some.inj (Except.ok.inj h)
      refine ⟨fun x => ?_, ?_, ?_⟩
      · rw [hg]
        simp [sosVal, uev]
        ring
      · intro t ht
        simp only [List.mem_cons, List.not_mem_nil, or_false] at ht
        rcases ht with rfl | rfl <;> norm_num
      · intro t ht
        simp at ht
    · split at h
      · rename_i hg
        obtain rfl := Option.some.inj (Except.ok.inj h)
        refine ⟨fun x => ?_, ?_, ?_⟩
        · rw [hg]
          simp [sosVal, uev]
          ring
        · intro t ht
          rw [List.mem_singleton.1 ht]
          norm_num
        · intro t ht
          simp at ht
      · simp at h
  · simp only [exQuad] at h
    split at h
    · rename_i hs
      rw [hs.1, hs.2, BRoot.rat.inj (List.mem_singleton.1 h)]
      norm_num [bDet1]
    · simp at h

theorem exNan_restructure : restructure exQuad.prover (divOne (divOne exNan.axisPoly).1).1 = .ok (some (.ok 0 1 2 1 (2 / 9) none)) := by
  norm_num [restructure, exQuad, exNan, Sextic.axisPoly, divOne, axisSums, axisFinish, pstrip]
  exact List.cons_ne_nil _ _

/-- **For this symmetric sextic, which is nonnegative, `_sos_struct_sextic_symmetric_quadratic_form` returns `nan`.** -/
theorem sxQuad_nan : exNan.Symm ∧ (∃ C, Holds exNan.poly C) ∧ sxQuad exQuad exNan = .ok (some .nan) := by
  refine ⟨⟨rfl, rfl, rfl⟩, ?_, ?_⟩
  · obtain ⟨C, hC⟩ := regular_proves (K := ℚ) 2 1 (co := 1) (ker := 1 / 4) (t := 0) (rem := 2 / 9) none (by norm_num) (by norm_num) (by norm_num) (by norm_num)
    refine ⟨C, hC.congr fun a b c => ?_⟩
    simp only [exNan, Sextic.poly, axisF, axisRem, remV, axV3, discV3, cyc3, cycp3]
    ring
  · unfold sxQuad
    dsimp only
    rw [exNan_restructure]
    dsimp only
    rw [if_pos (by norm_num [exNan, Sextic.axisPoly, divOne])]
    refine qSolve_nan (z := 0) (by norm_num) rfl (by norm_num) ?_ ?_ (by norm_num) ?_ (by norm_num) <;> norm_num [quadKer, exNan]

/-! ### The fault: an exception loses the answer -/

/-- **For `x == 1` and a small `ker_coeff` the solver raises**, although `_F_regular` has found a proof before. -/
theorem qSolve_one {X : QuadExt K} {co y ker t z : K} (hco : 0 < co) (hz : X.findZ 1 y (ker / co) = .ok z) (hker : 0 ≤ ker) (hk : ker < co / 3) :
    (∃ C, wrapLift (qRegular 1 y) co ker t 0 (some 0) = .ok (some (.cert C, false))) ∧ qSolve X co 1 y ker t 0 (some 0) = .error .typeError := by
  have hk3 : ¬ 1 / 3 ≤ ker / co := by
    rw [not_le, div_lt_iff₀ hco]
    linarith
  have a1 : wrapFlat (qSquare 1 y (ker / co)) co t 0 (some 0) = .ok none := by
    rw [qSquare_none (.inr rfl)]
    rfl
  have a2 : wrapFlat (qTrivial 1 y (ker / co)) co t 0 (some 0) = .ok none := by
    unfold qTrivial
    rw [if_neg hk3]
    rfl
  have a3 : ∃ C, wrapLift (qRegular 1 y) co ker t 0 (some 0) = .ok (some (.cert C, false)) := by
    have hr : remRegular t 0 (some 0) (qRegular 1 y).m0 (qRegular 1 y).m1 =
        .ok (.plain [(t / 4, fun a b c => sd3 a b c * axV3 a b c), (2 * 0, fun a b c => cyc3 (fun a b _ => a ^ 2 - a * b) a b c ^ 2 * remV (some 0) a b c)], 0, 0) := by
      unfold remRegular
      rw [if_pos ⟨rfl, rfl⟩]
    have hs : remSos t 0 (some 0) (qRegular 1 y).m0 (qRegular 1 y).m1 = some (.nan, 0, 0) := by
      unfold remSos
      rw [if_pos ⟨rfl, rfl⟩]
      simp [remUV]
    obtain ⟨C, h⟩ := mergeRegular 1 y hco.le hker (.plain [(t / 4, fun a b c => sd3 a b c * axV3 a b c), (2 * 0, fun a b c => cyc3 (fun a b _ => a ^ 2 - a * b) a b c ^ 2 * remV (some 0) a b c)])
    have m3 : mergeRem ((qRegular 1 y).scale co) .nan 0 0 ker = .ok (some (.nan, false)) := by
      unfold mergeRem
      rw [if_neg (by norm_num [qRegular, Lifted.scale])]
      dsimp only [qRegular, Lifted.scale]
      rw [if_pos (by constructor <;> linarith)]
      exact congrArg (fun v => Except.ok (some (QSol.nan, v))) (decide_eq_false fun h => by linarith [h.1])
    refine ⟨C, ?_⟩
    unfold wrapLift
    rw [hr, hs]
    dsimp only
    rw [h, decide_eq_false (by intro h; linarith)]
    dsimp only
    rw [m3]
    rfl
  refine ⟨a3, ?_⟩
  obtain ⟨C, a3⟩ := a3
  unfold qSolve
  rw [if_neg hco.ne', hz]
  dsimp only
  rw [qLoop, a1]
  change qLoop none _ = _
  rw [qLoop, a2]
  change qLoop none _ = _
  rw [qLoop, a3]
  change qLoop (some (.cert C)) _ = _
  rw [qLoop]
  simp [qSos2]

/-! ### Examples -/

/-- The sextic `F_{2,1} + p(a-b)^2`. -/
def exAx : Sextic ℚ := ⟨1, -1, -1, 6, -5, 6, -3, -3, -3, 9⟩

theorem exAx_restructure : restructure exQuad.prover (divOne (divOne exAx.axisPoly).1).1 = .ok (some (.ok 0 1 2 1 0 (some 0))) := by
  norm_num [restructure, exQuad, exAx, Sextic.axisPoly, divOne, axisSums, axisFinish, pstrip]
  exact List.cons_ne_nil _ _

/-- The hypotheses of `sxQuad_sound` are met. -/
example : ∃ C, sxQuad exQuad exAx = .ok (some (.cert C)) ∧ Holds exAx.poly C := by
  have h : ∃ C, sxQuad exQuad exAx = .ok (some (.cert C)) := by
    unfold sxQuad
    dsimp only
    rw [exAx_restructure]
    dsimp only
    rw [if_pos (by norm_num [exAx, Sextic.axisPoly, divOne])]
    exact qSolve_third (z := 0) (by norm_num) rfl (by norm_num [quadKer, exAx])
  obtain ⟨C, h⟩ := h
  exact ⟨C, h, sxQuad_sound exQuad_sound ⟨rfl, rfl, rfl⟩ h⟩

/-- The bound on the border with a rational root: `F_{0,1} - 7/4*p(a-b)^2`. -/
example : ∃ C, qBorder exQuad 0 1 (-7 / 4) = .ok (some (.cert C, false)) ∧ Holds (fun a b c => axisF 0 1 a b c + -7 / 4 * discV3 a b c) C := by
  have h : ∃ C, qBorder exQuad 0 1 (-7 / 4) = .ok (some (.cert C, false)) := by
    obtain ⟨M, hM⟩ := quadratic_some (x := (1 : ℚ)) (y := bPhi 0 1 (3 / 2)) zero_le_one (by norm_num [bPhi, bDet2, bDenom])
    have hp : axPick 0 1 0 1 (-7 / 4) [.rat (3 / 2)] = .ok (some (BRoot.rat (3 / 2 : ℚ))) := by
      norm_num [axPick, bValid, bDenom, bPhi, bDet2, bKer, bW]
    refine ⟨((Cert.plain (bSol 1 0 1 (3 / 2))).quot M).add (-7 / 4 - bKer 0 1 0 1 (3 / 2)) discV3, ?_⟩
    have hr : exQuad.roots 0 1 = [.rat (3 / 2)] := by norm_num [exQuad]
    have h1 : (2 - 2 * 1) / ((0 : ℚ) - 1) = 0 := by norm_num
    have h2 : (2 * 0 + 1 - 2) / ((0 : ℚ) - 1) = 1 := by norm_num
    have h3 : ((0 : ℚ) - 1) ^ 2 = 1 := by norm_num
    unfold qBorder
    rw [if_neg (by norm_num), h1, h2, h3]
    dsimp only
    rw [if_neg (by norm_num), hr, hp]
    dsimp only
    rw [hM]
  obtain ⟨C, h⟩ := h
  exact ⟨C, h, qBorder_sound exQuad_sound 0 1 _ C false h⟩

/-! ### As a part of the solver of symmetric sextics -/

/-- The parameter `quadForm` of `UltExt`: an exception counts as no answer (1965-1971).  A `nan` is not a certificate; `sxQuad_nan` shows that it is returned. -/
def quadFormOf (X : QuadExt K) (f : Sextic K) : Option (Cert K) :=
  match sxQuad X f with
  | .ok (some (.cert C)) => some C
  | _ => none

/-- The contract of `quadForm` in `UltExt.Sound` holds for the modelled solver. -/
theorem quadFormOf_sound {X : QuadExt K} (hX : X.Sound) : ∀ (f : Sextic K) (C : Cert K), f.Symm → quadFormOf X f = some C → Holds f.poly C := by
  intro f C hf h
  unfold quadFormOf at h
  split at h
  · rename_i D hD
    obtain rfl := Option.some.inj h
    exact sxQuad_sound hX hf hD
  · simp at h

/-- **The solver of symmetric sextics with this part put in is sound.** -/
theorem sxUltimate_joined {X : UltExt K} {Q : QuadExt K} (hQ : Q.Sound) (hX : UltExt.Sound { X with quadForm := fun _ => none }) : UltExt.Sound { X with quadForm := quadFormOf Q } :=
  ⟨hX.iran, hX.quart, quadFormOf_sound hQ, hX.axis⟩

end Verif.Ternary
