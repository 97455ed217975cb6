import Verif.Props.SexticSmall
import Verif.Proofs.NonicIds

/-!
# What the nonic and octic solvers guarantee
-/

set_option linter.unusedSectionVars false

namespace Verif.Ternary

open Verif Verif.TermsPoly Verif.Acute Verif.Dense

variable {K : Type*} [Field K] [LinearOrder K] [IsStrictOrderedRing K]

/-! ### Values -/

theorem arity_sextic (f : Sextic K) : Arity 3 f.terms := by
  intro t ht
  rcases List.mem_append.1 ht with ht | ht
  · refine arity_cycT ?_ t ht
    intro t ht
    simp only [List.mem_cons, List.not_mem_nil, or_false] at ht
    rcases ht with rfl | rfl | rfl | rfl | rfl | rfl | rfl | rfl | rfl <;> rfl
  · rw [List.mem_singleton] at ht
    rw [ht]
    rfl

theorem polyVal_sextic (f : Sextic K) (a b c : K) : polyVal f.terms a b c = f.poly a b c := by
  unfold Sextic.terms
  rw [polyVal_append, polyVal_cycT]
  · simp only [cyc3, polyVal, Coeff.evalDict, Coeff.evalMonom, List.map_cons, List.map_nil, List.sum_cons, List.sum_nil, List.zipWith_cons_cons, List.zipWith_nil_left,
      List.prod_cons, List.prod_nil, Sextic.poly]
    ring
  · intro t ht
    simp only [List.mem_cons, List.not_mem_nil, or_false] at ht
    rcases ht with rfl | rfl | rfl | rfl | rfl | rfl | rfl | rfl | rfl <;> rfl

theorem sextic_rot (f : Sextic K) (a b c : K) : f.poly b c a = f.poly a b c := by
  unfold Sextic.poly
  ring

theorem arity_nonic (f : Nonic K) : Arity 3 f.terms := by
  intro t ht
  rcases List.mem_append.1 ht with ht | ht
  · refine arity_cycT ?_ t ht
    intro t ht
    simp only [List.mem_cons, List.not_mem_nil, or_false] at ht
    rcases ht with rfl | rfl | rfl | rfl | rfl | rfl | rfl | rfl | rfl | rfl | rfl | rfl | rfl | rfl | rfl | rfl | rfl | rfl <;> rfl
  · rw [List.mem_singleton] at ht
    rw [ht]
    rfl

theorem polyVal_nonic (f : Nonic K) (a b c : K) : polyVal f.terms a b c = f.poly a b c := by
  unfold Nonic.terms
  rw [polyVal_append, polyVal_cycT]
  · simp only [cyc3, polyVal, Coeff.evalDict, Coeff.evalMonom, List.map_cons, List.map_nil, List.sum_cons, List.sum_nil, List.zipWith_cons_cons, List.zipWith_nil_left,
      List.prod_cons, List.prod_nil, Nonic.poly]
    ring
  · intro t ht
    simp only [List.mem_cons, List.not_mem_nil, or_false] at ht
    rcases ht with rfl | rfl | rfl | rfl | rfl | rfl | rfl | rfl | rfl | rfl | rfl | rfl | rfl | rfl | rfl | rfl | rfl | rfl <;> rfl

theorem nonic_rot (f : Nonic K) (a b c : K) : f.poly b c a = f.poly a b c := by
  unfold Nonic.poly cyc3
  ring

theorem nonic_reflect (f : Nonic K) (a b c : K) : f.reflect.poly a b c = f.poly a c b := by
  unfold Nonic.poly Nonic.reflect cyc3
  ring

/-! ### The contracts -/

/-- The polynomials that the solver passes on: sextics, and `abc` times a sextic. -/
def Fair (p : TP K) : Prop := ∃ s : Sextic K, (∀ a b c, polyVal p a b c = s.poly a b c) ∨ ∀ a b c, polyVal p a b c = prodA a b c * s.poly a b c

/-- The contracts of the calls.  The approximations of a root that is at least one are at least minus one: `rationalize_bound` (rationalize.py 204-240) steps back by
at most `1.5` and rounds to `.5`. -/
structure NonicExt.Sound (X : NonicExt K) : Prop where
  nd : X.toNumDen.Sound
  solve : ∀ p C, Arity 3 p → (∀ a b c, polyVal p b c a = polyVal p a b c) → Fair p → X.solve p = .ok (some C) → Holds (polyVal p) C
  root : ∀ f, CandsExact (fun x => -x ^ 3 + 3 * x - 1 + f.c630 / f.c900) (X.treeX f)
  approx : ∀ f ts, Cand.approx true ts ∈ X.treeX f → ∀ t ∈ ts, -1 ≤ t

theorem rationalizeFunc_valid {poly : K → K} {d : K} {v : K → Except PyErr Bool} {cs : List (Cand K)} {t : K}
    (h : rationalizeFunc poly d v cs = .ok (some t)) : v t = .ok true := by
  induction cs with
  | nil => simp [rationalizeFunc] at h
  | cons c cs ih =>
    cases c with
    | exact s =>
      unfold rationalizeFunc at h
      split at h
      · simp at h
      · rename_i hv
        cases Option.some.inj (Except.ok.inj h)
        exact hv
      · exact ih h
    | approx i ts =>
      unfold rationalizeFunc at h
      split at h
      · split at h
        · simp at h
        · rename_i s hs
          cases Option.some.inj (Except.ok.inj h)
          exact (rfBound_spec hs).2.2
        · exact ih h
      · exact ih h

theorem solve_sextic {X : NonicExt K} (hX : X.Sound) {s : Sextic K} {C : Cert K} (h : X.solve s.terms = .ok (some C)) : Holds s.poly C := by
  refine (hX.solve _ _ (arity_sextic s) ?_ ⟨s, Or.inl (polyVal_sextic s)⟩ h).congr (polyVal_sextic s)
  intro a b c
  rw [polyVal_sextic, polyVal_sextic, sextic_rot]

theorem abcDisc_nonneg (a b c : K) (ho : Octant a b c) : 0 ≤ abcDisc a b c := by
  refine mul_nonneg (prodA_nonneg a b c ho) ?_
  simp only [cycp3]
  positivity

theorem treeT_nonneg (a b c : K) (ho : Octant a b c) : 0 ≤ treeT a b c := by
  unfold treeT
  oct_pos

/-! ### The symmetric tree -/

/-- The polynomials the tree is called for. -/
structure Nonic.Tree (f : Nonic K) : Prop where
  c810 : f.c810 = 0
  c801 : f.c801 = 0
  c720 : f.c720 = 0
  c702 : f.c702 = 0
  c621 : f.c621 = 0
  c612 : f.c612 = 0
  c540 : f.c540 = 0
  c504 : f.c504 = 0
  c531 : f.c531 = 0
  c513 : f.c513 = 0
  c432 : f.c432 = 0
  c423 : f.c423 = 0
  symm : f.c603 = f.c630

theorem treeFunc_val {N : NumDen K} (hN : N.Sound) (x a b c : K) : (treeFunc N x).1 * (treeFunc N x).2 a b c = treeF x a b c := by
  unfold treeFunc
  split
  · rename_i h
    rw [h]
    simp only [treeF, sumA, cyc3]
    ring
  · obtain ⟨hp, hq⟩ := hN x
    rw [← hq]
    generalize (N.nd x).2 = p at *
    have hp' := hp.ne'
    simp only [treeF, cyc3]
    field_simp

theorem treeFunc_nonneg {N : NumDen K} (hN : N.Sound) {x : K} (hx : -1 ≤ x) : 0 ≤ (treeFunc N x).1 ∧ ∀ a b c, 0 ≤ (treeFunc N x).2 a b c ∨ ¬ Octant a b c := by
  unfold treeFunc
  split
  · refine ⟨zero_le_two, fun a b c => Or.inl ?_⟩
    dsimp only
    positivity
  · obtain ⟨hp, hq⟩ := hN x
    refine ⟨by positivity, fun a b c => ?_⟩
    by_cases ho : Octant a b c
    · left
      rw [← hq]
      generalize (N.nd x).2 = p at *
      obtain ⟨ha, hb, hc⟩ := ho
      refine mul_nonneg ?_ ?_
      · have e : cyc3 (fun a b c => p * a ^ 2 + x * p * b * c) a b c =
            p * ((x + 1) * (a * b + b * c + c * a) + ((a - b) ^ 2 + (b - c) ^ 2 + (c - a) ^ 2) / 2) := by
          simp only [cyc3]
          ring
        rw [e]
        have : 0 ≤ x + 1 := by linarith
        positivity
      · simp only [cyc3]
        positivity
    · exact Or.inr ho

theorem nonicTree_ok {X : NonicExt K} (hX : X.Sound) {f : Nonic K} (hf : f.Tree) (hr : ∀ t, Cand.exact t ∈ X.treeX f → -1 ≤ t) {C : Cert K}
    (h : nonicTree X f = .ok (some C)) : Holds f.poly C := by
  unfold nonicTree at h
  dsimp only at h
  split at h
  · simp at h
  rename_i h0
  push Not at h0
  split at h
  · simp at h
  split at h
  · simp at h
  split at h
  · simp at h
  · simp at h
  rename_i x hx
  obtain ⟨ho, hq, -⟩ := rationalizeFunc_sound (hX.root f) hx
  rw [mul_one] at hq
  have hx1 : -1 ≤ x := by
    rcases ho with ho | ⟨ts, h1, h2⟩
    · exact hr x ho
    · exact hX.approx f ts h1 x h2
  split at h
  · simp at h
  split at h
  · simp at h
  · simp at h
  rename_i T hT
  have hTree := (sexticTree_sound hX.nd ⟨rfl, rfl, rfl, rfl, rfl, rfl⟩).1 _ hT
  obtain ⟨hf1, hf2⟩ := treeFunc_nonneg hX.nd hx1
  rw [← Option.some.inj (Except.ok.inj h)]
  refine Holds.congr (Holds.add (Holds.add (Holds.times hTree prodA_nonneg) ?_ ?_) (mul_nonneg h0.le hq) treeT_nonneg) ?_
  · exact mul_nonneg (div_nonneg h0.le zero_le_four) hf1
  · intro a b c ho
    refine mul_nonneg (mul_nonneg (sumA_nonneg ho) ?_) ((hf2 a b c).resolve_right (fun h => h ho))
    simp only [cyc3]
    positivity
  · intro a b c
    have e1 := nonic_tree_id x (f.c630 / f.c900) a b c
    rw [← treeFunc_val hX.nd x a b c] at e1
    have h0' := h0.ne'
    have hw : f.c630 = f.c630 / f.c900 * f.c900 := by field_simp
    have h6 : f.c711 = f.c711 / f.c900 * f.c900 := by field_simp
    have h33 : f.c441 = f.c441 / f.c900 * f.c900 := by field_simp
    have h411 : f.c522 = f.c522 / f.c900 * f.c900 := by field_simp
    have ep : f.poly a b c = f.c900 * cyc3 (fun a b c => a ^ 9 + f.c630 / f.c900 * (a ^ 6 * b ^ 3 + a ^ 6 * c ^ 3) + f.c711 / f.c900 * (a ^ 7 * b * c) +
        f.c441 / f.c900 * (a ^ 4 * b ^ 4 * c) + f.c522 / f.c900 * (a ^ 5 * b ^ 2 * c ^ 2)) a b c + f.c333 * (a ^ 3 * b ^ 3 * c ^ 3) := by
      unfold Nonic.poly
      rw [hf.c810, hf.c801, hf.c720, hf.c702, hf.c621, hf.c612, hf.c540, hf.c504, hf.c531, hf.c513, hf.c432, hf.c423, hf.symm]
      generalize f.c630 / f.c900 = w at *
      generalize f.c711 / f.c900 = c6 at *
      generalize f.c441 / f.c900 = c33 at *
      generalize f.c522 / f.c900 = c411 at *
      rw [hw, h6, h33, h411]
      simp only [cyc3]
      ring
    rw [ep]
    generalize f.c630 / f.c900 = w at *
    generalize f.c711 / f.c900 = c6 at *
    generalize f.c441 / f.c900 = c33 at *
    generalize f.c522 / f.c900 = c411 at *
    generalize f.c900 = c0 at *
    have e2 : ∀ F1 F2 S Q P : K, c0 / 4 * F1 * (S * Q * F2) + c0 * (-x ^ 3 + 3 * x - 1 + w) * P = c0 / 4 * (S * Q * (F1 * F2) + 4 * ((-x ^ 3 + 3 * x - 1 + w) * P)) := by
      intros
      ring
    rw [add_assoc, e2, e1]
    simp only [Sextic.poly, treeCoeffs, prodA, cycp3, cyc3]
    ring

/-! ### The symmetric hexagon -/

/-- The polynomials the hexagon is called for, and `c801 = 0`, which the solver does not test. -/
structure Nonic.Hexagon (f : Nonic K) : Prop where
  c900 : f.c900 = 0
  c810 : f.c810 = 0
  c801 : f.c801 = 0
  c720 : f.c720 = 0
  c702 : f.c702 = 0
  c711 : f.c711 = 0
  c621 : f.c621 = 0
  c612 : f.c612 = 0
  c540 : f.c540 = 0
  c504 : f.c504 = 0
  c603 : f.c603 = f.c630
  c513 : f.c513 = f.c531
  c423 : f.c423 = f.c432

theorem hexagon_poly {f : Nonic K} (hf : f.Hexagon) (a b c : K) : f.poly a b c =
    cyc3 (fun a b c => f.c630 * (a ^ 6 * b ^ 3 + a ^ 6 * c ^ 3) + f.c531 * (a ^ 5 * b ^ 3 * c + a ^ 5 * b * c ^ 3) + f.c441 * (a ^ 4 * b ^ 4 * c) + f.c522 * (a ^ 5 * b ^ 2 * c ^ 2) +
      f.c432 * (a ^ 4 * b ^ 3 * c ^ 2 + a ^ 4 * b ^ 2 * c ^ 3)) a b c + f.c333 * (a ^ 3 * b ^ 3 * c ^ 3) := by
  unfold Nonic.poly
  rw [hf.c900, hf.c810, hf.c801, hf.c720, hf.c702, hf.c711, hf.c621, hf.c612, hf.c540, hf.c504, hf.c603, hf.c513, hf.c423]
  simp only [cyc3]
  ring

theorem hexagonRest_hexagon {f : Nonic K} (hf : f.Hexagon) (r : K) : (hexagonRest f r).Hexagon := by
  refine ⟨hf.c900, hf.c810, hf.c801, hf.c720, hf.c702, hf.c711, hf.c621, hf.c612, hf.c540, hf.c504, ?_, ?_, ?_⟩
  · simp only [hexagonRest, hf.c603, sub_self]
  · simp only [hexagonRest, hf.c513]
  · simp only [hexagonRest, hf.c423]

/-- The rest is the difference. -/
theorem hexagonRest_eq {f : Nonic K} (hf : f.Hexagon) (r a b c : K) : (hexagonRest f r).poly a b c = f.poly a b c -
    (f.c630 * (cyc3 (fun a b c => a * b * (b - r * c)) a b c ^ 2 * cyc3 (fun a b c => a ^ 2 * c - a * b * c) a b c) +
      f.c630 * (cyc3 (fun a b c => a * c * (c - r * b)) a b c ^ 2 * cyc3 (fun a b c => a ^ 2 * b - a * b * c) a b c) +
      f.c630 * (f.c531 / f.c630 + 6 * r + 3) * abcDisc a b c) := by
  rw [hexagon_poly hf, hexagon_poly (hexagonRest_hexagon hf r), ← mul_add, nonic_hexagon_sq, abcDisc_id]
  generalize hk : f.c630 * (f.c531 / f.c630 + 6 * r + 3) = k
  simp only [hexagonRest, hk, cyc3]
  ring

theorem isZero_poly {f : Nonic K} (h : f.isZero = true) (a b c : K) : f.poly a b c = 0 := by
  simp only [Nonic.isZero, List.all_cons, List.all_nil, Bool.and_true, Bool.and_eq_true, decide_eq_true_eq] at h
  obtain ⟨h1, h2, h3, h4, h5, h6, h7, h8, h9, h10, h11, h12, h13, h14, h15, h16, h17, h18, h19⟩ := h
  unfold Nonic.poly
  rw [h1, h2, h3, h4, h5, h6, h7, h8, h9, h10, h11, h12, h13, h14, h15, h16, h17, h18, h19]
  simp only [cyc3]
  ring

theorem amgm_holds {d1 d2 : ℕ × ℕ × ℕ} {C : Cert K} (h : amgm d1 d2 = some C) : Holds (fun a b c => cycMon d1 a b c - cycMon d2 a b c) C := by
  have h3 := amgm_sound h
  exact ⟨shows_of_proves h3, fun a b c ha hb hc _ => h3.pos a b c ⟨ha.le, hb.le, hc.le⟩ fun h0 => ha.ne' h0.1⟩

theorem hexagonSearch_ok {X : NonicExt K} (hX : X.Sound) {f : Nonic K} (hf : f.Hexagon) (h0 : 0 < f.c630) {C : Cert K} (h : hexagonSearch X f = .ok (some C)) : Holds f.poly C := by
  unfold hexagonSearch at h
  dsimp only at h
  split at h
  · simp at h
  split at h
  · simp at h
  · simp at h
  rename_i r hr
  have hv := rationalizeFunc_valid hr
  have hk : 0 ≤ f.c531 / f.c630 + 6 * r + 3 := by
    have := Except.ok.inj hv
    unfold hexagonValid at this
    dsimp only at this
    by_contra hc
    push Not at hc
    rw [if_pos hc] at this
    simp at this
  split at h
  swap
  · simp at h
  rename_i A B hA hB
  have hS : Holds (fun a b c => f.c630 * (cyc3 (fun a b c => a * b * (b - r * c)) a b c ^ 2 * cyc3 (fun a b c => a ^ 2 * c - a * b * c) a b c) +
      f.c630 * (cyc3 (fun a b c => a * c * (c - r * b)) a b c ^ 2 * cyc3 (fun a b c => a ^ 2 * b - a * b * c) a b c) +
      f.c630 * (f.c531 / f.c630 + 6 * r + 3) * abcDisc a b c) ((((times (fun a b c => cyc3 (fun a b c => a * b * (b - r * c)) a b c ^ 2) A).smul f.c630).plus
          ((times (fun a b c => cyc3 (fun a b c => a * c * (c - r * b)) a b c ^ 2) B).smul f.c630)).add (f.c630 * (f.c531 / f.c630 + 6 * r + 3)) abcDisc) := by
    refine Holds.congr (Holds.add (Holds.plus (Holds.smul (Holds.times (amgm_holds hA) ?_) h0.le) (Holds.smul (Holds.times (amgm_holds hB) ?_) h0.le)) (mul_nonneg h0.le hk) abcDisc_nonneg) ?_
    · intro a b c _
      positivity
    · intro a b c _
      positivity
    · intro a b c
      simp only [cycMon, cyc3]
      ring
  split at h
  · rename_i hz
    rw [← Option.some.inj (Except.ok.inj h)]
    refine hS.congr ?_
    intro a b c
    have := hexagonRest_eq hf r a b c
    rw [isZero_poly hz] at this
    exact (sub_eq_zero.1 this.symm).symm
  · cases hs : X.solve (hexagonRest f r).terms with
    | error e => rw [hs] at h; simp [Except.map] at h
    | ok s =>
      rw [hs] at h
      cases s with
      | none => simp [Except.map] at h
      | some R =>
        have hR : Holds (hexagonRest f r).poly R := by
          refine (hX.solve _ _ (arity_nonic _) ?_ ⟨(hexagonRest f r).overAbc, Or.inr ?_⟩ hs).congr (polyVal_nonic _)
          · intro a b c
            rw [polyVal_nonic, polyVal_nonic, nonic_rot]
          · intro a b c
            rw [polyVal_nonic, hexagon_poly (hexagonRest_hexagon hf r)]
            have hh := hexagonRest_hexagon hf r
            simp only [Sextic.poly, Nonic.overAbc]
            rw [hh.c711, hh.c621, hh.c612, hh.c513, hh.c423, show (hexagonRest f r).c630 = 0 from rfl]
            simp only [cyc3, prodA, cycp3]
            ring
        rw [← Option.some.inj (Except.ok.inj h)]
        refine (hS.plus hR).congr ?_
        intro a b c
        rw [hexagonRest_eq hf]
        ring

theorem nonicHexagon_ok {X : NonicExt K} (hX : X.Sound) {f : Nonic K} (hf : f.Hexagon) {C : Cert K} (h : nonicHexagon X f = .ok (some C)) : Holds f.poly C := by
  unfold nonicHexagon at h
  dsimp only at h
  split at h
  · simp at h
  rename_i h0
  push Not at h0
  split at h
  swap
  · exact hexagonSearch_ok hX hf h0 h
  rename_i hc
  split at h
  · simp at h
  swap
  · exact hexagonSearch_ok hX hf h0 h
  rename_i H hH
  have hHex := hexSym_sound hX.nd ⟨rfl, rfl, rfl, rfl, rfl, rfl⟩ hH
  rw [← Option.some.inj (Except.ok.inj h)]
  refine Holds.congr (Holds.add (Holds.add (Holds.times hHex prodA_nonneg) h0.le treeT_nonneg) (mul_nonneg h0.le hc.1) abcDisc_nonneg) ?_
  intro a b c
  have e1 := nonic_hexagon_id (f.c531 / f.c630) a b c
  have e2 : ∀ P T D y : K, P + f.c630 * T + f.c630 * y * D = P + f.c630 * (T + y * D) := by
    intros
    ring
  rw [e2, e1, hexagon_poly hf]
  have h0' := h0.ne'
  have h42 : f.c531 = f.c531 / f.c630 * f.c630 := by field_simp
  have h33 : f.c441 = f.c441 / f.c630 * f.c630 := by field_simp
  have h411 : f.c522 = f.c522 / f.c630 * f.c630 := by field_simp
  have h321 : f.c432 = f.c432 / f.c630 * f.c630 := by field_simp
  simp only [Sextic.poly, Nonic.poly111]
  rw [hf.c900, hf.c810, hf.c801, hf.c720, hf.c702, hf.c711, hf.c621, hf.c612, hf.c540, hf.c504, hf.c603, hf.c513, hf.c423]
  generalize f.c531 / f.c630 = y42 at *
  generalize f.c441 / f.c630 = y33 at *
  generalize f.c522 / f.c630 = y411 at *
  generalize f.c432 / f.c630 = y321 at *
  rw [h42, h33, h411, h321]
  simp only [cyc3, prodA, cycp3]
  ring

/-! ### The symmetric hexagram -/

/-- The polynomials the hexagram is called for. -/
structure Nonic.Hexagram (f : Nonic K) : Prop where
  c900 : f.c900 = 0
  c810 : f.c810 = 0
  c801 : f.c801 = 0
  c720 : f.c720 = 0
  c702 : f.c702 = 0
  c711 : f.c711 = 0
  c630 : f.c630 = 0
  c603 : f.c603 = 0
  c504 : f.c504 = f.c540
  c612 : f.c612 = f.c621
  c513 : f.c513 = f.c531
  c423 : f.c423 = f.c432

theorem hexagram_poly {f : Nonic K} (hf : f.Hexagram) (a b c : K) : f.poly a b c =
    cyc3 (fun a b c => f.c540 * (a ^ 5 * b ^ 4 + a ^ 5 * c ^ 4) + f.c621 * (a ^ 6 * b ^ 2 * c + a ^ 6 * b * c ^ 2) + f.c531 * (a ^ 5 * b ^ 3 * c + a ^ 5 * b * c ^ 3) +
      f.c441 * (a ^ 4 * b ^ 4 * c) + f.c522 * (a ^ 5 * b ^ 2 * c ^ 2) + f.c432 * (a ^ 4 * b ^ 3 * c ^ 2 + a ^ 4 * b ^ 2 * c ^ 3)) a b c + f.c333 * (a ^ 3 * b ^ 3 * c ^ 3) := by
  unfold Nonic.poly
  rw [hf.c900, hf.c810, hf.c801, hf.c720, hf.c702, hf.c711, hf.c630, hf.c603, hf.c504, hf.c612, hf.c513, hf.c423]
  simp only [cyc3]
  ring

theorem Holds.inv {f g : Val3 K} {C : Cert K} (h : Holds f C) {k : ℕ} (hg : ∀ a b c, g a b c * prodA a b c ^ k = f (b * c) (c * a) (a * b)) : Holds g (C.inv k) := by
  have hoct : ∀ {a b c : K}, Octant a b c → Octant (b * c) (c * a) (a * b) := fun ⟨ha, hb, hc⟩ => ⟨mul_nonneg hb hc, mul_nonneg hc ha, mul_nonneg ha hb⟩
  refine ⟨⟨?_, ?_, ?_, ?_⟩, ?_⟩
  · intro a b c
    change ((C.terms.map _).map _).sum = _
    rw [List.map_map]
    change C.num (b * c) (c * a) (a * b) = C.den (b * c) (c * a) (a * b) * prodA a b c ^ k * g a b c
    rw [h.1.identity, ← hg]
    ring
  · intro t ht
    obtain ⟨s, hs, rfl⟩ := List.mem_map.1 ht
    exact h.1.weights s hs
  · intro t ht a b c ho
    obtain ⟨s, hs, rfl⟩ := List.mem_map.1 ht
    exact h.1.exprs s hs _ _ _ (hoct ho)
  · intro a b c ho
    exact mul_nonneg (h.1.den _ _ _ (hoct ho)) (pow_nonneg (prodA_nonneg a b c ho) k)
  · intro a b c ha hb hc hn
    refine mul_pos (h.2 _ _ _ (mul_pos hb hc) (mul_pos hc ha) (mul_pos ha hb) ?_) (pow_pos ?_ k)
    · rintro ⟨h1, h2⟩
      apply hn
      constructor
      · rw [mul_comm] at h1
        exact (mul_left_cancel₀ hc.ne' h1).symm
      · rw [mul_comm] at h2
        exact (mul_left_cancel₀ ha.ne' h2).symm
    · simp only [prodA, cycp3]
      positivity

theorem hexagramM_pos (a b c : K) (ha : 0 < a) (hb : 0 < b) (hc : 0 < c) (hn : ¬ (a = b ∧ b = c)) : 0 < hexagramM a b c := by
  have h1 : 0 ≤ a * b * (a - b) ^ 4 := by positivity
  have h2 : 0 ≤ b * c * (b - c) ^ 4 := by positivity
  have h3 : 0 ≤ c * a * (c - a) ^ 4 := by positivity
  have hp : ∀ {x y z : K}, 0 < x → 0 < y → z ≠ 0 → 0 < x * y * z ^ 4 := fun hx hy hz => mul_pos (mul_pos hx hy) (by positivity)
  by_cases hab : a = b
  · have := hp hb hc (sub_ne_zero.2 fun h => hn ⟨hab, h⟩)
    simp only [hexagramM, cyc3]
    linarith
  · have := hp ha hb (sub_ne_zero.2 hab)
    simp only [hexagramM, cyc3]
    linarith

theorem hexagramAnswer_ok {f : Nonic K} (hf : f.Hexagram) (h1 : 0 < f.c540) (h2 : 0 < f.c621) {z : K} (hz : 0 ≤ z) (hz2 : z ^ 2 ≤ f.c540 * f.c621) {H : Cert K}
    (hH : Holds (⟨0, 0, 0, 0, (hexagramCoeffs f z).2.2.1, 0, (hexagramCoeffs f z).2.1, (hexagramCoeffs f z).2.2.2, (hexagramCoeffs f z).2.2.2,
      f.c333 + 6 * (hexagramCoeffs f z).1 + 12 * z⟩ : Sextic K).poly H) {C : Cert K} (h : hexagramAnswer f z H = some C) : Holds f.poly C := by
  have h2' := h2.ne'
  have hk : 0 ≤ f.c540 - f.c621 * (z / f.c621) ^ 2 := by
    have e : f.c621 * (z / f.c621) ^ 2 = z ^ 2 / f.c621 := by field_simp
    rw [e, sub_nonneg, div_le_iff₀ h2]
    exact hz2
  have hzr : f.c621 * (z / f.c621) = z := by field_simp
  have hr : 0 ≤ z / f.c621 := div_nonneg hz h2.le
  have main : ∀ a b c, f.poly a b c = prodA a b c * (⟨0, 0, 0, 0, (hexagramCoeffs f z).2.2.1, 0, (hexagramCoeffs f z).2.1, (hexagramCoeffs f z).2.2.2, (hexagramCoeffs f z).2.2.2,
      f.c333 + 6 * (hexagramCoeffs f z).1 + 12 * z⟩ : Sextic K).poly a b c + (f.c540 * cyc3 (fun a b c => c ^ 5 * (a - b) ^ 4) a b c +
        f.c621 * cyc3 (fun a b c => a ^ 2 * b ^ 2 * c * (a - b) ^ 4) a b c - 2 * z * (prodA a b c * cyc3 hexagramN a b c) + (hexagramCoeffs f z).1 * abcDisc a b c) := by
    intro a b c
    rw [nonic_hexagram_exp, hexagram_poly hf]
    simp only [Sextic.poly, hexagramCoeffs, prodA, cycp3, cyc3]
    ring
  unfold hexagramAnswer at h
  dsimp only at h
  split at h
  · rename_i hw
    rw [← Option.some.inj h]
    refine Holds.congr (Holds.add (Holds.add (Holds.add (Holds.times hH prodA_nonneg) hk ?_) (sub_nonneg.2 hw) abcDisc_nonneg) h2.le ?_) ?_
    · intro a b c ho
      oct_pos
    · intro a b c ho
      oct_pos
    · intro a b c
      rw [main, nonic_hexagram_easy]
      generalize z / f.c621 = r at *
      rw [← hzr]
      ring
  · split at h
    swap
    · simp at h
    rename_i hw
    rw [← Option.some.inj h]
    have hD : ∀ a b c : K, 0 ≤ cycp3 (fun a b _ => (a - b) ^ 2) a b c := by
      intro a b c
      simp only [cycp3]
      positivity
    have hM : ∀ a b c : K, Octant a b c → 0 ≤ hexagramM a b c := by
      intro a b c ho
      unfold hexagramM
      oct_pos
    have hpart : Holds (fun a b c => f.c540 * cyc3 (fun a b c => c ^ 5 * (a - b) ^ 4) a b c + f.c621 * cyc3 (fun a b c => a ^ 2 * b ^ 2 * c * (a - b) ^ 4) a b c -
        2 * z * (prodA a b c * cyc3 hexagramN a b c) + (hexagramCoeffs f z).1 * abcDisc a b c) (⟨[
      (f.c621, fun a b c => prodA a b c * cyc3 (fun a b c => a * b * (a - b) ^ 4 - z / f.c621 * hexagramN a b c) a b c ^ 2),
      (f.c540 - f.c621 * (z / f.c621) ^ 2, fun a b c => hexagramM a b c * cyc3 (fun a b c => c ^ 5 * (a - b) ^ 4) a b c),
      (1, fun a b c => cycp3 (fun a b _ => (a - b) ^ 2) a b c * ((hexagramCoeffs f z).1 * prodA a b c * hexagramM a b c +
        f.c621 * (z / f.c621) ^ 2 * cycp3 (fun a b _ => (a - b) ^ 2) a b c * sumA a b c * cyc3 (fun a b _ => a * b) a b c +
        f.c621 * (z / f.c621) ^ 2 / 4 * prodA a b c * cyc3 (fun a b _ => (a - b) ^ 2) a b c * cyc3 (fun a b c => a ^ 2 * (b - c) ^ 2) a b c))], hexagramM⟩ : Cert K) := by
      refine holds_mk ?_ ?_ ?_ hM hexagramM_pos
      · intro a b c
        simp only [List.map_cons, List.map_nil, List.sum_cons, List.sum_nil, add_zero]
        have e1 := nonic_hexagram_hard a b c
        have e2 : cyc3 (fun a b c => a * b * (a - b) ^ 4 - z / f.c621 * hexagramN a b c) a b c = hexagramM a b c - z / f.c621 * cyc3 hexagramN a b c := by
          simp only [hexagramM, cyc3]
          ring
        rw [e2, nonic_hexagram_M, abcDisc]
        generalize z / f.c621 = r at *
        generalize (hexagramCoeffs f z).1 = w at *
        generalize cyc3 (fun a b c => c ^ 5 * (a - b) ^ 4) a b c = m1 at *
        generalize cyc3 hexagramN a b c = m2 at *
        generalize hexagramM a b c = m3 at *
        generalize cycp3 (fun a b _ => (a - b) ^ 2) a b c = m4 at *
        generalize cyc3 (fun a b _ => a * b) a b c = m5 at *
        generalize cyc3 (fun a b _ => (a - b) ^ 2) a b c = m6 at *
        generalize cyc3 (fun a b c => a ^ 2 * (b - c) ^ 2) a b c = m7 at *
        generalize sumA a b c = m8 at *
        generalize prodA a b c = m9 at *
        rw [← hzr]
        linear_combination (- f.c621 * r ^ 2 / 4) * e1
      · intro t ht
        simp only [List.mem_cons, List.not_mem_nil, or_false] at ht
        rcases ht with rfl | rfl | rfl
        · exact h2.le
        · exact hk
        · exact zero_le_one
      · intro t ht a b c ho
        have p1 := prodA_nonneg a b c ho
        have p2 := hM a b c ho
        have p3 := hD a b c
        have p4 := sumA_nonneg ho
        simp only [List.mem_cons, List.not_mem_nil, or_false] at ht
        rcases ht with rfl | rfl | rfl
        · exact mul_nonneg p1 (sq_nonneg _)
        · refine mul_nonneg p2 ?_
          oct_pos
        · have p5 : 0 ≤ cyc3 (fun a b _ => a * b) a b c := by oct_pos
          have p6 : 0 ≤ cyc3 (fun a b _ => (a - b) ^ 2) a b c := by oct_pos
          have p7 : 0 ≤ cyc3 (fun a b c => a ^ 2 * (b - c) ^ 2) a b c := by oct_pos
          dsimp only
          positivity
    refine Holds.congr (Holds.plus hpart (Holds.times hH prodA_nonneg)) ?_
    intro a b c
    rw [main]
    ring

theorem nonicHexagram_ok {X : NonicExt K} (hX : X.Sound) {f : Nonic K} (hf : f.Hexagram) {C : Cert K} (h : nonicHexagram X f = .ok (some C)) : Holds f.poly C := by
  unfold nonicHexagram at h
  dsimp only at h
  split at h
  · simp at h
  rename_i h0
  push Not at h0
  split at h
  · rename_i h1
    cases hs : X.solve f.overAbc.terms with
    | error e => rw [hs] at h; simp [Except.map] at h
    | ok s =>
      rw [hs] at h
      cases s with
      | none => simp [Except.map] at h
      | some S =>
        rw [← Option.some.inj (Except.ok.inj h)]
        refine Holds.congr (Holds.times (solve_sextic hX hs) prodA_nonneg) ?_
        intro a b c
        rw [hexagram_poly hf, h1]
        simp only [Sextic.poly, Nonic.overAbc]
        rw [hf.c711, hf.c612, hf.c513, hf.c423]
        simp only [prodA, cycp3, cyc3]
        ring
  rename_i h1
  split at h
  · rename_i h2
    cases hs : X.solve (hexagramPoly2 f).terms with
    | error e => rw [hs] at h; simp [Except.map] at h
    | ok s =>
      rw [hs] at h
      cases s with
      | none => simp [Except.map] at h
      | some S =>
        rw [← Option.some.inj (Except.ok.inj h)]
        refine Holds.inv (solve_sextic hX hs) ?_
        intro a b c
        rw [hexagram_poly hf, h2]
        simp only [Sextic.poly, hexagramPoly2, prodA, cycp3, cyc3]
        ring
  rename_i h2
  split at h
  · simp at h
  · simp at h
  rename_i z hz
  have hv := rationalizeFunc_valid hz
  replace hv := Except.ok.inj hv
  simp only [Bool.and_eq_true, decide_eq_true_eq] at hv
  split at h
  · simp at h
  · simp at h
  rename_i H hH
  have hHex := hexSym_sound hX.nd ⟨rfl, rfl, rfl, rfl, rfl, rfl⟩ hH
  exact hexagramAnswer_ok hf (lt_of_le_of_ne h0.1 (Ne.symm h1)) (lt_of_le_of_ne h0.2 (Ne.symm h2)) hv.1.1 hv.1.2 hHex (Except.ok.inj h)

/-! ### The gear -/

/-- The polynomials the core of the gear is called for. -/
structure Nonic.Gear (f : Nonic K) : Prop where
  c900 : f.c900 = 0
  c810 : f.c810 = 0
  c801 : f.c801 = 0
  c720 : f.c720 = 0
  c702 : f.c702 = 0
  c711 : f.c711 = 0
  c630 : f.c630 = 0
  c603 : f.c603 = 0
  c540 : f.c540 = 0
  c612 : f.c612 = 0

/-- The sextic that is left at a vertex. -/
def gearRest (f : Nonic K) (c41 c33 c32 : K) : Sextic K := ⟨0, 0, 0, 0, c41, 0, c33, c32, c32, (-c41 - c33 - c32 * 2) * 3 + f.poly111 / f.c504⟩

/-- Each vertex gives an identity. -/
theorem gear_vertex {X : NonicExt K} {f : Nonic K} (hf : f.Gear) (h1 : f.c504 ≠ 0) {z : K} {p : Vertex K} (h : gearParams X f z = some p) (a b c : K) :
    f.c504 * (cyc3 (fun a b c => a * c ^ 2 * gearKer z p a b c ^ 2) a b c + (f.c621 / f.c504 - z ^ 2) * cyc3 (fun a b c => a * b ^ 2 * c ^ 2 * (a - b) ^ 4) a b c +
      prodA a b c * (gearRest f p.c41 p.c33 p.c32).poly a b c) = f.poly a b c := by
  unfold gearParams at h
  dsimp only at h
  split at h
  · simp at h
  rename_i hz
  rw [Option.map_eq_some_iff] at h
  obtain ⟨x, hx, hp⟩ := h
  have hw : f.c621 = f.c621 / f.c504 * f.c504 := by field_simp
  have h42 : f.c531 = f.c531 / f.c504 * f.c504 := by field_simp
  have h24 : f.c513 = f.c513 / f.c504 * f.c504 := by field_simp
  have h33 : f.c441 = f.c441 / f.c504 * f.c504 := by field_simp
  have h41 : f.c522 = f.c522 / f.c504 * f.c504 := by field_simp
  have h32 : f.c432 = f.c432 / f.c504 * f.c504 := by field_simp
  have h23 : f.c423 = f.c423 / f.c504 * f.c504 := by field_simp
  have h333 : f.c333 = f.c333 / f.c504 * f.c504 := by field_simp
  have h111 : f.poly111 / f.c504 = 3 * (f.c621 / f.c504 + f.c531 / f.c504 + f.c522 / f.c504 + f.c513 / f.c504 + 1 + f.c441 / f.c504 + f.c432 / f.c504 + f.c423 / f.c504) +
      f.c333 / f.c504 := by
    unfold Nonic.poly111
    rw [hf.c900, hf.c810, hf.c801, hf.c720, hf.c702, hf.c711, hf.c630, hf.c603, hf.c540, hf.c612]
    field_simp
    ring
  have hpoly : f.poly a b c = f.c504 * (cyc3 (fun a b c => a ^ 5 * c ^ 4 + f.c621 / f.c504 * (a ^ 6 * b ^ 2 * c) + f.c531 / f.c504 * (a ^ 5 * b ^ 3 * c) +
      f.c522 / f.c504 * (a ^ 5 * b ^ 2 * c ^ 2) + f.c513 / f.c504 * (a ^ 5 * b * c ^ 3) + f.c441 / f.c504 * (a ^ 4 * b ^ 4 * c) + f.c432 / f.c504 * (a ^ 4 * b ^ 3 * c ^ 2) +
      f.c423 / f.c504 * (a ^ 4 * b ^ 2 * c ^ 3)) a b c + f.c333 / f.c504 * (a ^ 3 * b ^ 3 * c ^ 3)) := by
    unfold Nonic.poly
    rw [hf.c900, hf.c810, hf.c801, hf.c720, hf.c702, hf.c711, hf.c630, hf.c603, hf.c540, hf.c612]
    generalize f.c621 / f.c504 = y1 at *
    generalize f.c531 / f.c504 = y2 at *
    generalize f.c522 / f.c504 = y3 at *
    generalize f.c513 / f.c504 = y4 at *
    generalize f.c441 / f.c504 = y5 at *
    generalize f.c432 / f.c504 = y6 at *
    generalize f.c423 / f.c504 = y7 at *
    generalize f.c333 / f.c504 = y8 at *
    rw [hw, h42, h24, h33, h41, h32, h23, h333]
    simp only [cyc3]
    ring
  rw [hpoly, nonic_gear_exp, nonic_gear_perturb]
  congr 1
  unfold gearRest
  rw [h111]
  clear hpoly h111 hw h42 h24 h33 h41 h32 h23 h333
  generalize f.c621 / f.c504 = y1 at *
  generalize f.c531 / f.c504 = y2 at *
  generalize f.c522 / f.c504 = y3 at *
  generalize f.c513 / f.c504 = y4 at *
  generalize f.c441 / f.c504 = y5 at *
  generalize f.c432 / f.c504 = y6 at *
  generalize f.c423 / f.c504 = y7 at *
  generalize f.c333 / f.c504 = y8 at *
  rw [← hp]
  dsimp only
  have hu : 2 * z - 2 * z * (1 - y2 / 2 / z) = y2 := by
    field_simp
    ring
  generalize 1 - y2 / 2 / z = u at *
  have hv : 2 * z + 2 * (y4 / 2 - z) = y4 := by ring
  generalize y4 / 2 - z = v at *
  have hx' : 6 * (u + v + z - 1) * x = -(-3 * u ^ 2 - 2 * u * z + 6 * u + 3 * v ^ 2 + 6 * v * z - 2 * v - (y6 + 4 * (y1 - z ^ 2) - (y7 - 6 * (y1 - z ^ 2))) + 2 * z ^ 2 - 2) := by
    split at hx
    · rename_i h1
      split at hx
      · simp at hx
      · rename_i h2
        push Not at h2
        rw [h1, h2, zero_mul]
    · rename_i h1
      rw [← Option.some.inj hx, ← mul_div_assoc]
      exact mul_div_cancel_left₀ _ h1
  rw [← hu, ← hv]
  have e7 : y7 = y6 + 10 * (y1 - z ^ 2) - (6 * (u + v + z - 1) * x + (-3 * u ^ 2 - 2 * u * z + 6 * u + 3 * v ^ 2 + 6 * v * z - 2 * v + 2 * z ^ 2 - 2)) := by
    linear_combination hx'
  rw [e7]
  simp only [Sextic.poly, prodA, cycp3, cyc3]
  ring

theorem gearSearch_spec {p q : Vertex K} {l : List (K × K)} {w : K} (h : gearSearch p q l = .ok (some w)) : gearCheck p q w = true := by
  induction l with
  | nil => simp [gearSearch] at h
  | cons m l ih =>
    unfold gearSearch at h
    split at h
    · split at h
      · exact ih h
      · simp at h
    · split at h
      · rename_i hc
        rw [← Option.some.inj (Except.ok.inj h)]
        exact hc
      · exact ih h

theorem gearCore_ok {X : NonicExt K} (hX : X.Sound) {f : Nonic K} (hf : f.Gear) {C : Cert K} (h : gearCore X f = .ok (some C)) : Holds f.poly C := by
  unfold gearCore at h
  dsimp only at h
  split at h
  · simp at h
  rename_i h0
  push Not at h0
  split at h
  · simp at h
  rename_i h1
  push Not at h1
  have hc1 : 0 < f.c504 := lt_of_le_of_ne h1.1 (Ne.symm h0.1)
  split at h
  · simp at h
  · simp at h
  rename_i z hz
  have hv := rationalizeFunc_valid hz
  have hz2 : z ^ 2 ≤ f.c621 / f.c504 := by
    by_contra hcon
    rw [if_pos (fun hh => hcon hh.2)] at hv
    simp at hv
  split at h
  · simp at h
  · simp at h
  rename_i p q w hpq
  unfold gearVertices at hpq
  split at hpq
  swap
  · simp at hpq
  rename_i p' q' hp hq
  have hw : gearCheck p q w = true ∧ p' = p ∧ q' = q := by
    cases hs : gearSearch p' q' (gearWeights p' q') with
    | error e => rw [hs] at hpq; simp [Except.map] at hpq
    | ok s =>
      rw [hs] at hpq
      cases s with
      | none => simp [Except.map] at hpq
      | some w' =>
        have := Option.some.inj (Except.ok.inj hpq)
        simp only [Prod.mk.injEq] at this
        obtain ⟨rfl, rfl, rfl⟩ := this
        exact ⟨gearSearch_spec hs, rfl, rfl⟩
  obtain ⟨hw, rfl, rfl⟩ := hw
  have hw01 : 0 ≤ w ∧ w ≤ 1 := by
    by_contra hcon
    unfold gearCheck at hw
    rw [if_pos hcon] at hw
    simp at hw
  split at h
  · simp at h
  · simp at h
  rename_i H hH
  have hHex := hexSym_sound hX.nd ⟨rfl, rfl, rfl, rfl, rfl, rfl⟩ hH
  rw [← Option.some.inj (Except.ok.inj h)]
  refine Holds.congr (Holds.add (Holds.add (Holds.add (Holds.smul (Holds.times hHex prodA_nonneg) hc1.le) (mul_nonneg (sub_nonneg.2 hz2) hc1.le) ?_)
    (mul_nonneg (sub_nonneg.2 hw01.2) hc1.le) ?_) (mul_nonneg hw01.1 hc1.le) ?_) ?_
  · intro a b c ho
    oct_pos
  · intro a b c ho
    oct_pos
  · intro a b c ho
    oct_pos
  · intro a b c
    have e1 := gear_vertex hf h0.1 hp a b c
    have e2 := gear_vertex hf h0.1 hq a b c
    have e3 : (⟨0, 0, 0, 0, w * p'.c41 + (1 - w) * q'.c41, 0, w * p'.c33 + (1 - w) * q'.c33, w * p'.c32 + (1 - w) * q'.c32, w * p'.c32 + (1 - w) * q'.c32,
        (-(w * p'.c41 + (1 - w) * q'.c41) - (w * p'.c33 + (1 - w) * q'.c33) - (w * p'.c32 + (1 - w) * q'.c32) * 2) * 3 + f.poly111 / f.c504⟩ : Sextic K).poly a b c =
        w * (gearRest f p'.c41 p'.c33 p'.c32).poly a b c + (1 - w) * (gearRest f q'.c41 q'.c33 q'.c32).poly a b c := by
      simp only [Sextic.poly, gearRest]
      ring
    rw [e3]
    rw [neg_sq] at e2
    linear_combination w * e1 + (1 - w) * e2

theorem reflect_holds {f : Nonic K} {C : Cert K} (h : Holds f.reflect.poly C) : Holds f.poly C.reflect := by
  refine ⟨⟨?_, ?_, ?_, ?_⟩, ?_⟩
  · intro a b c
    change ((C.terms.map _).map _).sum = _
    rw [List.map_map]
    change C.num a c b = C.den a c b * f.poly a b c
    rw [h.1.identity, nonic_reflect]
  · intro t ht
    obtain ⟨s, hs, rfl⟩ := List.mem_map.1 ht
    exact h.1.weights s hs
  · intro t ht a b c ⟨ha, hb, hc⟩
    obtain ⟨s, hs, rfl⟩ := List.mem_map.1 ht
    exact h.1.exprs s hs _ _ _ ⟨ha, hc, hb⟩
  · intro a b c ⟨ha, hb, hc⟩
    exact h.1.den _ _ _ ⟨ha, hc, hb⟩
  · intro a b c ha hb hc hn
    exact h.2 _ _ _ ha hc hb fun ⟨h1, h2⟩ => hn ⟨h1.trans h2, h2.symm⟩

/-! ### The dispatch -/

/-- **C79 (partial: `c801 = 0` and the rational roots of the tree are at least minus one).** What the nonic solver answers is a complete proof.  Without the first
hypothesis it is not (`nonicSolve_c801_wrong`), nor without the second (`nonicSolve_root_wrong`). -/
theorem nonicSolve_sound_partial {X : NonicExt K} (hX : X.Sound) {f : Nonic K} (h801 : f.c801 = 0) (hr : ∀ t, Cand.exact t ∈ X.treeX f → -1 ≤ t) {C : Cert K}
    (h : nonicSolve X f = .ok (some C)) : Holds f.poly C := by
  unfold nonicSolve at h
  dsimp only at h
  simp only [Bool.and_eq_true, decide_eq_true_eq] at h
  split at h
  · rename_i hc
    obtain ⟨⟨⟨g1, g2, g3, g4, g5⟩, g6, g7, g8⟩, g9, g10, g11, g12⟩ := hc
    exact nonicHexagram_ok hX ⟨g1, g2, g8, g3, g4, g5, g6, g7, g9.symm, g10.symm, g11.symm, g12.symm⟩ h
  split at h
  · rename_i hc
    obtain ⟨⟨⟨g1, g2, g3, g4, g5⟩, g6, g7, g8⟩, g9⟩ := hc
    unfold nonicGear at h
    split at h
    · split at h
      · simp at h
      · rename_i hn
        push Not at hn
        cases hs : gearCore X f.reflect with
        | error e => rw [hs] at h; simp [Except.map] at h
        | ok s =>
          rw [hs] at h
          cases s with
          | none => simp [Except.map] at h
          | some S =>
            rw [← Option.some.inj (Except.ok.inj h)]
            exact reflect_holds (gearCore_ok (f := f.reflect) hX ⟨g1, g8, g2, g4, g3, g5, g7, g6, hn.1, hn.2⟩ hs)
    · rename_i hn
      push Not at hn
      exact gearCore_ok hX ⟨g1, g2, g8, g3, g4, g5, g6, g7, hn.1, hn.2⟩ h
  split at h
  · rename_i hc
    obtain ⟨⟨⟨g1, g2, g3, g4, g5⟩, g6, g7, g8, g9⟩, g10, g11, g12⟩ := hc
    exact nonicHexagon_ok hX ⟨g1, g2, h801, g3, g4, g5, g6, g7, g8, g9, g10, g11.symm, g12.symm⟩ h
  split at h
  · rename_i hc
    obtain ⟨⟨g1, g2, g3, g4, g5, g6, g7, g8, g9, g10, g11, g12⟩, g13, g14⟩ := hc
    exact nonicTree_ok hX ⟨g1, g5, g2, g6, g7, g8, g3, g4, g9, g10, g11, g12, g14.symm⟩ hr h
  · simp at h

end Verif.Ternary
