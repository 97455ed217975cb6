import Verif.Props.SexticFullMain
import Verif.Props.SexticIranEx
import Verif.Props.TernarySexticEx

/-!
# The solver of symmetric sextics: inside the solver of cyclic sextics, examples
-/

set_option linter.unusedSectionVars false

namespace Verif.Ternary

open Verif Verif.Acute Verif.Dense

section

variable {K : Type*} [Field K] [LinearOrder K] [IsStrictOrderedRing K]

/-- The solver of cyclic sextics with the modelled solvers of symmetric sextics (sextic.py 20, 385). -/
def SexticExt.join (X : SexticExt K) (Y : UltExt K) (real : Bool) : SexticExt K := { X with hexagonSym := sxHexagon Y.iran.hex false, ultimate := sxUltimate Y real }

/-- The contracts of `SexticExt.Sound` without those of the two solvers of symmetric sextics. -/
structure SexticExt.Rest (X : SexticExt K) : Prop where
  nd : X.nd.Sound
  tCands : ∀ f, CandsExact (hexEqt (f.c321 / f.c330) (f.c312 / f.c330)) (X.tCands f)
  thm2 : ∀ f C, f.Star → X.thm2 f = some C → Holds f.poly C
  treeY : ∀ f, ∀ y ∈ X.treeY f, f.c321 / f.c402 = 8 * y + 6 → 0 ≤ rtP (f.c321 / f.c402) y
  treeX : ∀ f, CandsExact (fun r => r ^ 3 - 3 * r - f.c321 / f.c402) (X.treeX f)

/-- The solver of symmetric hexagons meets the contract that the solver of cyclic sextics assumed. -/
theorem join_sound {X : SexticExt K} (hX : X.Rest) {Y : UltExt K} (hY : Y.Sound) : ({ X with hexagonSym := sxHexagon Y.iran.hex false, ultimate := fun _ => .ok none } : SexticExt K).Sound where
  nd := hX.nd
  tCands := hX.tCands
  thm2 := hX.thm2
  treeY := hX.treeY
  treeX := hX.treeX
  hexagonSym f C h1 h2 h := (sxHexagon_sound hY.iran.nd hY.iran.sqrt ⟨h1.1, h1.2.1, h1.2.2, h2.1.symm, h2.2.symm⟩ h).answer
  ultimate f C _ h := by simp at h

/-- **An answer for a cyclic sextic**, with the solvers of symmetric sextics as they are: besides the case of C84, the answer may be that of a symmetric sextic up to a recorded fault. -/
theorem sexticSolve_joined {X : SexticExt K} (hX : X.Rest) {Y : UltExt K} (hY : Y.Sound) {real : Bool} {f : Sextic K} {C : Cert K}
    (h : sexticSolve (X.join Y real) real f = .ok (some C)) :
    Partly f C ∨ UpTo f.poly C ∨ (f.c600 = 0 ∧ 0 < f.poly 1 1 1 ∧ Holds (fun a b c => f.poly a b c - f.poly 1 1 1 * (a * b * c) ^ 2) C) := by
  by_cases hs : f.c510 = f.c501 ∧ f.c420 = f.c402 ∧ f.c321 = f.c312
  · right
    unfold sexticSolve at h
    rw [if_pos hs] at h
    exact sxUltimate_sound hY h
  · left
    refine sexticSolve_partly (join_sound hX hY) (real := real) ?_
    rw [← h]
    unfold sexticSolve
    rw [if_neg hs, if_neg hs]
    rfl

end

/-! ### Examples -/

/-- `s((b2+c2+5bc-a2/2)(b-c)2(b+c-4a)2)`, from the documentation. -/
def exAxis : Sextic ℚ := ⟨2, -3, -3, 13 / 2, -48, 13 / 2, -2, 84, 84, -381⟩

/-- `s(a4(a-b)(a-c))-5p(a-b)2`, from the documentation. -/
def exBorder : Sextic ℚ := ⟨1, -1, -1, -5, 11, -5, 10, -10, -10, 30⟩

/-- Two of the calls with exact values; nothing else is found. -/
def exUlt : UltExt ℚ where
  iran := ⟨⟨⟨fun x => (x, 1)⟩, fun _ => [], fun _ => 0, fun _ => true⟩, fun _ => .ok none, fun _ => true, fun _ _ _ => none, fun _ => [], fun _ _ _ => true, fun _ _ => [], fun _ _ => []⟩
  quart g := quarticSolve (fun _ => false) true id none [] g
  quadForm _ := none
  detCands _ := []
  border f := if f.c510 = -1 then [2] else []
  axis f := if f.c510 = -3 then [3] else if f.c510 = -1 then [0] else []

theorem exAxis_double : exAxis.Symm ∧ exAxis.fullRem = 0 ∧ DoubleAxis exAxis 3 := by
  refine ⟨⟨rfl, rfl, rfl⟩, by norm_num [exAxis, Sextic.fullRem], ⟨?_, ?_⟩⟩ <;> norm_num [exAxis, Sextic.a0, Sextic.a1, Sextic.a2, Sextic.a3]

/-- The root `(3,1,1)` is used for an answer. -/
theorem ex_ultAxis : (match sxUltimate exUlt true exAxis with | .ok (some _) => true | _ => false) = true := by decide +kernel

/-- The roots `(0,1,1)` and `(1,0,1)` are used for an answer. -/
theorem ex_ultTwo : (match sxUltimate exUlt true exBorder with | .ok (some _) => true | _ => false) = true := by decide +kernel

/-- `s(a2-ab)3+p(a-b)2+4p(a+b-2c)2`, from the documentation, is answered for all real numbers. -/
theorem ex_fullSdp : (match sxFullSdp exUlt ⟨17, -51, -51, -5, 265, -5, 95, -265, -265, 795⟩ with | .ok (some _) => true | _ => false) = true := by decide +kernel

open Classical in
/-- The contracts can be met, with a root on the axis that is used. -/
noncomputable def exUltR : UltExt ℝ :=
  ⟨exIranX, fun g => quarticSolve (fun _ => false) true id none [] g, fun _ => none, fun _ => [], fun _ => [], fun f => if f = ⟨2, -3, -3, 13 / 2, -48, 13 / 2, -2, 84, 84, -381⟩ then [3] else []⟩

theorem exUltR_sound : exUltR.Sound where
  iran := exIranX_sound
  quart g C h := by
    obtain ⟨r, h1, h2⟩ := quartic_contract (fun _ => false) true id (fun _ => none) (fun _ => []) g
    have h' : quarticSolve (fun _ => false) true id none [] g = .ok (some C) := h
    rw [h1] at h'
    exact h2 C (Except.ok.inj h')
  quadForm f C _ h := by simp [exUltR] at h
  axis f r h := by
    simp only [exUltR] at h
    split_ifs at h with hf
    · rw [List.mem_singleton.1 h, hf]
      refine ⟨by norm_num, ⟨?_, ?_⟩⟩ <;> norm_num [Sextic.a0, Sextic.a1, Sextic.a2, Sextic.a3]
    · simp at h

theorem exUltR_roots : exUltR.Roots where
  border f h := by simp [exUltR] at h
  pair f r s h := by
    simp only [exUltR] at h
    split_ifs at h
    simp at h

/-- Twice the polynomial with the roots `(0,1,1)` and `(4,1,1)`: the hypotheses of `ultTwo_scale` are met. -/
theorem ex_ultTwo_scale (X : UltExt ℚ) (hb : X.border ⟨2, -10, -10, 22, 22, 22, -28, -12, -12, 12⟩ = [2]) (ha : X.axis ⟨2, -10, -10, 22, 22, 22, -28, -12, -12, 12⟩ = [0, 4]) :
    ∀ C, ultTwo X ⟨2, -10, -10, 22, 22, 22, -28, -12, -12, 12⟩ ≠ .ok (some C) :=
  ultTwo_scale (x := 4) (by norm_num) (by norm_num) hb (by rw [ha]; simp [twoX]) (.inl rfl)

end Verif.Ternary
