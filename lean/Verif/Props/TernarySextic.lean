import Verif.Props.NonicPoly
import Verif.Props.StructUtils
import Verif.Props.Congruence
import Verif.Proofs.TernarySexticSdp

/-!
# What the solver of cyclic ternary sextics guarantees
-/

set_option linter.unusedSectionVars false

namespace Verif.Ternary

open Verif Verif.TermsPoly Verif.Acute

variable {K : Type*} [Field K] [LinearOrder K] [IsStrictOrderedRing K]

/-- The polynomials the hexagram solver is called for. -/
structure Sextic.Star (f : Sextic K) : Prop where
  c600 : f.c600 = 0
  c510 : f.c510 = 0
  c501 : f.c501 = 0
  c420 : f.c420 = 0
  c402 : f.c402 = 0

theorem star_poly {f : Sextic K} (hf : f.Star) (a b c : K) : f.poly a b c = hexP f.c330 f.c411 f.c321 f.c312 f.c222 a b c := by
  unfold Sextic.poly hexP
  rw [hf.c600, hf.c510, hf.c501, hf.c420, hf.c402]
  ring

theorem star_poly_div {f : Sextic K} (hf : f.Star) (h3 : f.c330 ≠ 0) (a b c : K) :
    f.poly a b c = f.c330 * hexP 1 (f.c411 / f.c330) (f.c321 / f.c330) (f.c312 / f.c330) (f.c222 / f.c330) a b c := by
  rw [star_poly hf]
  unfold hexP
  field_simp

/-- The contracts of the calls and of the searches: a rational number from `nroots` is a root, the two solvers of symmetric sextics and theorem 2 answer with proofs. -/
structure SexticExt.Sound (X : SexticExt K) : Prop where
  nd : X.nd.Sound
  tCands : ∀ f, CandsExact (hexEqt (f.c321 / f.c330) (f.c312 / f.c330)) (X.tCands f)
  thm2 : ∀ f C, f.Star → X.thm2 f = some C → Holds f.poly C
  treeY : ∀ f, ∀ y ∈ X.treeY f, f.c321 / f.c402 = 8 * y + 6 → 0 ≤ rtP (f.c321 / f.c402) y
  treeX : ∀ f, CandsExact (fun r => r ^ 3 - 3 * r - f.c321 / f.c402) (X.treeX f)
  hexagonSym : ∀ f C, f.c600 = 0 ∧ f.c510 = 0 ∧ f.c501 = 0 → f.c420 = f.c402 ∧ f.c321 = f.c312 → X.hexagonSym f = .ok (some C) → Answer f.poly C
  ultimate : ∀ f C, f.c510 = f.c501 ∧ f.c420 = f.c402 ∧ f.c321 = f.c312 → X.ultimate f = .ok (some C) → Answer f.poly C

/-! ### The hexagram -/

/-- An answer of the cubic solver is a complete proof on the octant. -/
theorem cubic_holds {rational : Bool} {us : List K} {f : Cubic K} {C : Cert K} (h : cubicSolve rational us f = .ok (some C)) : Holds f.poly C := by
  have hP := cubicSolve_sound h
  have key : (∀ t ∈ C.terms, ∀ a b c, Octant a b c → 0 ≤ t.2 a b c) ∧ ∀ a b c, Octant a b c → 0 ≤ C.den a b c := by
    unfold cubicSolve at h
    split at h
    · rename_i hpq
      obtain ⟨r, h1, h2⟩ := cubicSymmetric_sound hpq
      rw [h1] at h
      obtain ⟨h3, -⟩ := h2 C (Except.ok.inj h)
      exact ⟨h3.exprs, h3.den⟩
    · split at h
      · rename_i hm
        obtain ⟨r, h1, h2⟩ := cubicDegenerate_sound hm
        rw [h1] at h
        exact ⟨(h2 C (Except.ok.inj h)).exprs, (h2 C (Except.ok.inj h)).den⟩
      · rename_i hm
        split at h
        · have h' := Except.ok.inj h
          unfold cubicIrrational at h'
          dsimp only at h'
          split at h'
          · simp at h'
          · split at h'
            · rw [← Option.some.inj h']
              refine ⟨?_, fun a b c _ => zero_le_one⟩
              change ∀ t ∈ (_ :: _ :: _ :: _ :: [] : List (K × Val3 K)), _
              each_mem
              · intro a b c hD
                exact mul_nonneg (sumA_nonneg hD) (cyc3_nonneg_all (fun a b c => sq_nonneg _) a b c)
              · intro a b c hD; exact cyc_amgm a b c hD
              · intro a b c hD; exact cyc_amgm' a b c hD
              · intro a b c hD; exact prodA_nonneg a b c hD
            · split at h'
              · simp at h'
              · rw [← Option.some.inj h']
                constructor
                · dsimp only
                  each_mem
                  · intro a b c hD
                    exact mul_nonneg (prodA_nonneg a b c hD) (cyc3_nonneg_all (fun a b c => sq_nonneg _) a b c)
                  · rintro a b c ⟨ha, hb, hc⟩; simp only [cyc3]; positivity
                  · rintro a b c ⟨ha, hb, hc⟩; simp only [cyc3]; positivity
                  · rintro a b c ⟨ha, hb, hc⟩; simp only [cyc3]; positivity
                · rintro a b c ⟨ha, hb, hc⟩; simp only [cyc3]; positivity
        · split at h
          · rename_i C' hC'
            rw [← Option.some.inj (Except.ok.inj h)]
            obtain ⟨h3, -⟩ := cubicParabola_sound hm hC'
            exact ⟨h3.exprs, h3.den⟩
          · obtain ⟨h3, -⟩ := cubicNontrivial_sound h
            exact ⟨h3.exprs, h3.den⟩
  refine ⟨⟨hP.identity, hP.weights, key.1, key.2⟩, fun a b c ha hb hc _ => hP.pos a b c ⟨⟨ha.le, hb.le, hc.le⟩, by positivity⟩ fun h0 => ha.ne' h0.1⟩

theorem cycp3_sq_nonneg (a b c : K) : 0 ≤ cycp3 (fun a _ _ => a ^ 2) a b c := by
  simp only [cycp3]
  positivity

theorem abcSq_nonneg (a b c : K) (ho : Octant a b c) : 0 ≤ prodA a b c * cyc3 (fun a b c => a * (b - c) ^ 2) a b c := by
  refine mul_nonneg (prodA_nonneg a b c ho) ?_
  oct_pos

/-- The trivial case (sextic.py 97-137). -/
theorem hexTrivial_holds {f : Sextic K} (hf : f.Star) (h3 : 0 < f.c330) {v : K} (hv : hexVValid f v = true) {C : Cert K} (h : hexTrivial f v = .ok (some C)) :
    Holds f.poly C := by
  unfold hexTrivial at h
  dsimp only at h
  unfold hexVValid at hv
  rw [Bool.and_eq_true, decide_eq_true_eq, decide_eq_true_eq] at hv
  obtain ⟨⟨hv0, hv1⟩, hrest⟩ := hv
  split at h
  · simp at h
  rename_i hrem
  split at h
  · simp at h
  rename_i S hS
  rw [← Option.some.inj (Except.ok.inj h)]
  refine Holds.congr (Holds.add (Holds.add (Holds.add (Holds.smul (Holds.times (schur3_holds hS) prodA_nonneg) (sub_nonneg.2 hv1)) h3.le ?_) (mul_nonneg hrest h3.le) abcSq_nonneg)
    (not_lt.1 hrem) fun a b c _ => cycp3_sq_nonneg a b c) ?_
  · intro a b c ho
    oct_pos
  · intro a b c
    rw [star_poly_div hf h3.ne']
    have hx : f.c312 / f.c330 = f.c321 / f.c330 - 6 * (v + 1) * (hexXRest f v).1 := by
      have hv2 : v + 1 ≠ 0 := by positivity
      simp only [hexXRest]
      field_simp
      ring
    have e := id_trivial (f.c411 / f.c330) (f.c321 / f.c330) (hexXRest f v).1 v (f.c222 / f.c330) a b c
    rw [← hx] at e
    rw [e]
    have e2 : (hexXRest f v).2 = f.c321 / f.c330 - ((hexXRest f v).1 ^ 2 + 3 * (v + 1) * (hexXRest f v).1 - 3 * (v + 1) ^ 2 / 4) + (f.c411 / f.c330 - v ^ 2) := rfl
    rw [e2]
    unfold Sextic.hexRem
    generalize (hexXRest f v).1 = x
    generalize prodA a b c * cyc3 (fun a b c => a * (a - b) * (a - c)) a b c = T1
    generalize cyc3 (fun a b c => a * b * (a * b + v * c ^ 2 - (1 + v) / 2 * a * c - (1 + v) / 2 * b * c + x * a * c - x * b * c) ^ 2) a b c = T2
    generalize prodA a b c * cyc3 (fun a b c => a * (b - c) ^ 2) a b c = T3
    generalize cycp3 (fun a _ _ => a ^ 2) a b c = T4
    field_simp

theorem equalAnswer_holds {f : Sextic K} (hf : f.Star) (h3 : 0 < f.c330) (h41 : f.c411 = f.c330) {u v t : K}
    (hx : f.c321 / f.c330 = 4 * u + v ^ 2 + -hexEqt (f.c321 / f.c330) (f.c312 / f.c330) t / 4 / t ^ 2)
    (hy : f.c312 / f.c330 = 4 * v + u ^ 2 + -hexEqt (f.c321 / f.c330) (f.c312 / f.c330) t / 4 / t ^ 2)
    (hE : 0 ≤ -hexEqt (f.c321 / f.c330) (f.c312 / f.c330) t / 4 / t ^ 2) (hr : (u + v + 2) ^ 2 * 3 ≤ f.hexRem / f.c330) : Holds f.poly (hexEqualAnswer f u v t) := by
  refine holds_plain ?_ ?_ ?_
  · intro a b c
    simp only [List.map_cons, List.map_nil, List.sum_cons, List.sum_nil, add_zero]
    rw [star_poly_div hf h3.ne', h41, div_self h3.ne', id_equal _ _ u v _ (f.c222 / f.c330) a b c hx hy]
    have e : f.hexRem / f.c330 = (1 + 1 + f.c321 / f.c330 + f.c312 / f.c330) * 3 + f.c222 / f.c330 := by
      unfold Sextic.hexRem
      rw [h41]
      field_simp
    rw [e]
    ring
  · each_mem
    · exact h3.le
    · exact mul_nonneg hE h3.le
    · exact mul_nonneg h3.le (sub_nonneg.2 hr)
  · each_mem
    · intro a b c ho
      oct_pos
    · exact abcSq_nonneg
    · exact fun a b c _ => cycp3_sq_nonneg a b c

/-- The exact solution for irrational coefficients (sextic.py 162-195). -/
theorem hexExact_holds {f : Sextic K} (hf : f.Star) (h3 : 0 < f.c330) (h41 : f.c411 = f.c330) (hdet : hexDet0 (f.c321 / f.c330) (f.c312 / f.c330) (f.c222 / f.c330) = 0)
    {C : Cert K} (h : hexExact f = .ok (some C)) : Holds f.poly C := by
  unfold hexExact at h
  dsimp only at h
  split at h
  · simp at h
  rename_i hD
  split at h
  · simp at h
  rename_i ht
  rw [← Option.some.inj (Except.ok.inj h)]
  have e1 := exact_pars rfl rfl hD hdet
  have e2 := exact_pars' rfl rfl hD hdet
  have e0 : f.hexRem / f.c330 = (1 + 1 + f.c321 / f.c330 + f.c312 / f.c330) * 3 + f.c222 / f.c330 := by
    unfold Sextic.hexRem
    rw [h41]
    field_simp
  generalize 24 * (6 * (f.c321 / f.c330) ^ 2 + f.c312 / f.c330 * (f.c222 / f.c330) - 102 * (f.c312 / f.c330)) /
    (36 * (f.c321 / f.c330) * (f.c312 / f.c330) - (f.c222 / f.c330) ^ 2 + 204 * (f.c222 / f.c330) - 10404) = v at *
  have e3 : f.c321 / f.c330 = 4 * ((f.c321 / f.c330 - v ^ 2) / 4) + v ^ 2 := by ring
  generalize (f.c321 / f.c330 - v ^ 2) / 4 = u at *
  have e4 : hexEqt (f.c321 / f.c330) (f.c312 / f.c330) (u - v) = 0 := by
    rw [e1, e3]
    exact eqt_exact u v
  have e5 : -hexEqt (f.c321 / f.c330) (f.c312 / f.c330) (u - v) / 4 / (u - v) ^ 2 = 0 := by rw [e4]; simp
  refine equalAnswer_holds hf h3 h41 ?_ ?_ ?_ ?_
  · rw [e5, add_zero]; exact e3
  · rw [e5, add_zero]; exact e1
  · rw [e5]
  · rw [e0, e1, e2, e3]
    apply le_of_eq
    ring

theorem starAnswer_holds {f : Sextic K} (hf : f.Star) (h4 : 0 < f.c411) {w z : K} {C : Cert K} (h : starAnswer f w z = some C) : Holds f.poly C := by
  unfold starAnswer at h
  dsimp only at h
  split at h
  swap
  · simp at h
  rename_i hw
  obtain ⟨g1, g2, g3, g4⟩ := hw
  rw [← Option.some.inj h]
  refine ⟨⟨?_, ?_, ?_, ?_⟩, ?_⟩
  · intro a b c
    simp only [Cert.num, List.map_cons, List.map_nil, List.sum_cons, List.sum_nil, add_zero]
    rw [star_poly hf, id_star f.c330 f.c411 (starP f w z / f.c411) (starQ f w z / f.c411) (starN f w z / f.c411) w z f.hexRem f.c222 f.c321 f.c312 a b c h4.ne'
      (div_mul_cancel₀ _ h4.ne') (div_mul_cancel₀ _ h4.ne') (div_mul_cancel₀ _ h4.ne') rfl]
    ring
  · dsimp only
    each_mem
    · exact g1
    · exact g2
    · exact g3
    · exact g4
  · dsimp only
    each_mem
    · intro a b c ho
      oct_pos
    · intro a b c ho
      refine mul_nonneg ?_ (prodA_nonneg a b c ho)
      oct_pos
    · intro a b c ho
      refine mul_nonneg ?_ (prodA_nonneg a b c ho)
      oct_pos
    · intro a b c ho
      exact mul_nonneg (sumA_nonneg ho) (cycp3_sq_nonneg a b c)
  · exact fun a b c ho => sumA_nonneg ho
  · intro a b c ha hb hc _
    change 0 < sumA a b c
    simp only [sumA, cyc3]
    positivity

theorem hexStar_holds {f : Sextic K} (hf : f.Star) (h4 : 0 < f.c411) {C : Cert K} : ∀ l : List (K × K), hexStar f l = some C → Holds f.poly C
  | [], h => by simp [hexStar] at h
  | (u, v) :: l, h => by
    unfold hexStar at h
    split at h
    · exact starAnswer_holds hf h4 h
    · exact hexStar_holds hf h4 l h

theorem hexEqual_holds {X : SexticExt K} (hX : X.Sound) {f : Sextic K} (hf : f.Star) (h3 : 0 < f.c330) (h4 : 0 < f.c411) {C : Cert K} (h : hexEqual X f = .ok (some C)) :
    Holds f.poly C := by
  unfold hexEqual at h
  dsimp only at h
  split at h
  swap
  · exact hexStar_holds hf h4 _ (Except.ok.inj h)
  rename_i h0
  split at h
  · rename_i h1
    exact hexExact_holds hf h3 h0.2 h1.2 h
  split at h
  · simp at h
  · rename_i t ht
    obtain ⟨-, g1, g2⟩ := rationalizeFunc_sound (hX.tCands f) ht
    unfold hexTValid at g2
    split at g2
    · simp at g2
    rename_i ht0
    rw [← Option.some.inj (Except.ok.inj h)]
    obtain ⟨e1, e2⟩ := equal_pars (x := f.c321 / f.c330) (y := f.c312 / f.c330) ht0
    refine equalAnswer_holds hf h3 h0.2 e1 e2 (div_nonneg (div_nonneg (by linarith) (by norm_num)) (sq_nonneg _)) ?_
    exact of_decide_eq_true (Except.ok.inj g2)
  · split at h
    · rename_i C' hC'
      rw [← Option.some.inj (Except.ok.inj h)]
      split at hC'
      · exact hX.thm2 f _ hf hC'
      · simp at hC'
    · exact hexStar_holds hf h4 _ (Except.ok.inj h)

theorem hexMain_holds {X : SexticExt K} (hX : X.Sound) {f : Sextic K} (hf : f.Star) (h3 : 0 < f.c330) (h4 : 0 < f.c411) {C : Cert K} (h : hexMain X f = .ok (some C)) :
    Holds f.poly C := by
  unfold hexMain at h
  split at h
  · simp at h
  · rename_i v hv
    have := rationalizeFunc_valid hv
    exact hexTrivial_holds hf h3 (Except.ok.inj this) h
  · exact hexEqual_holds hX hf h3 h4 h

theorem exMap_some {α β : Type*} {g : α → β} {x : Except PyErr (Option α)} {y : β} (h : x.map (Option.map g) = .ok (some y)) : ∃ z, x = .ok (some z) ∧ y = g z := by
  cases x with
  | error e => simp [Except.map] at h
  | ok o =>
    cases o with
    | none => simp [Except.map] at h
    | some z =>
      simp only [Except.map, Option.map_some] at h
      exact ⟨z, rfl, (Option.some.inj (Except.ok.inj h)).symm⟩

/-- **C84 (hexagram).** What `_sos_struct_sextic_hexagram` answers is a complete proof on the octant. -/
theorem hexagramSolve_holds {X : SexticExt K} (hX : X.Sound) {f : Sextic K} (hf : f.Star) {C : Cert K} (h : hexagramSolve X f = .ok (some C)) : Holds f.poly C := by
  unfold hexagramSolve at h
  split at h
  · simp at h
  rename_i h0
  push Not at h0
  dsimp only at h
  split at h
  · rename_i h3
    obtain ⟨D, hD, rfl⟩ := exMap_some h
    refine ((cubic_holds hD).times prodA_nonneg).congr ?_
    intro a b c
    rw [star_poly hf, h3]
    simp only [Cubic.poly, hexP, prodA, cycp3]
    ring
  rename_i h3
  have h3' : 0 < f.c330 := lt_of_le_of_ne h0.1 (Ne.symm h3)
  split at h
  · rename_i h4
    obtain ⟨D, hD, rfl⟩ := exMap_some h
    refine (cubic_holds hD).inv ?_
    intro a b c
    rw [star_poly hf, h4]
    simp only [Cubic.poly, hexP, prodA, cycp3]
    ring
  rename_i h4
  have h4' : 0 < f.c411 := lt_of_le_of_ne h0.2 (Ne.symm h4)
  split at h
  · rename_i hs
    split at h
    · simp at h
    · rename_i C' hC'
      rw [← Option.some.inj (Except.ok.inj h)]
      exact hexSym_sound hX.nd ⟨hf.c600, hf.c510, hf.c501, hf.c420, hf.c402, hs.symm⟩ hC'
    · exact hexMain_holds hX hf h3' h4' h
  · exact hexMain_holds hX hf h3' h4' h

end Verif.Ternary
