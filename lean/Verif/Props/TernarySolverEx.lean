import Verif.Props.TernarySolver
import Verif.Props.TernaryQuinticFaults

/-!
# The entry point for three variables: examples and faults
-/

namespace Verif.Ternary

open Verif Verif.Acute

/-- An environment that meets the contracts. -/
noncomputable def entX : CycExt ℚ where
  fuel := 3
  order := id
  cubicRat _ := true
  cubicUs _ := []
  irr _ := false
  quartRat _ := true
  approx := id
  quartU _ := none
  quartXs _ := []
  five _ := wX
  six _ := exSextic
  seven _ := exSeptic
  eight _ := exOctic
  nine _ := exNonic
  dense _ := none
  recur _ := none
  prover := exProver

theorem entX_sound : entX.Sound where
  order _ := List.Perm.refl _
  five _ := wX_sound
  six _ := exSextic_sound
  seven _ := exSeptic_sound
  eight _ := exOctic_sound
  nine _ := exNonic_sound
  dense _ := fun _ _ _ h => by cases h
  recur _ := fun _ _ _ h => by cases h
  prover := exProver_sound

/-! ### `a*b*c*(a^2 + b^2 + c^2 - a*b - b*c - c*a)` -/

/-- The quintic. -/
def entCo : Coeff ℚ := ⟨[([3, 1, 1], 1), ([2, 2, 1], -1), ([2, 1, 2], -1), ([1, 3, 1], 1), ([1, 2, 2], -1), ([1, 1, 3], 1)], 3⟩

theorem entCo_table : Table entCo where
  nvars := rfl
  ne := by decide +kernel
  len := by decide +kernel
  hom := by decide +kernel
  nz := by decide +kernel
  sorted := by decide +kernel

theorem entCo_turns : Turns entCo := entCo_table.isCyclic.1 (by decide +kernel)

/-- The polynomial without `a*b*c`. -/
def entCore : Coeff ℚ := ⟨[([2, 0, 0], 1), ([1, 1, 0], -1), ([1, 0, 1], -1), ([0, 2, 0], 1), ([0, 1, 1], -1), ([0, 0, 2], 1)], 3⟩

theorem entCo_cancel : entCo.cancelAbc = ([1, 1, 1], entCore) := by rfl

theorem entCo_core : core entCo = entCore := by
  unfold core
  rw [entCo_cancel]
  rfl

theorem entCo_clear : ¬ Suspect entX (core entCo) := by
  rw [entCo_core]
  have hd : entCore.degree = 2 := rfl
  unfold Suspect
  rw [hd]
  omega

theorem entCo_answer : ∃ C, cyclic3 entX true entCo = .ok (some C) := by
  have h2 : ∃ D, quadratic (1 : ℚ) (-1) = some D := by
    unfold quadratic
    norm_num
  obtain ⟨D, hD⟩ := h2
  have hs : sparse3 entX entCore = .ok (some D) := by
    show quadratic3 entCore = _
    unfold quadratic3
    have e1 : entCore.call [2, 0, 0] = 1 := by decide +kernel
    have e2 : entCore.call [1, 1, 0] = -1 := by decide +kernel
    rw [e1, e2, hD]
  refine ⟨times (mono3 [1, 1, 1]) D, ?_⟩
  unfold cyclic3 extract3
  rw [entCo_cancel]
  have hc : ∀ r, cycChain entX r entCore = .ok (some D) := by
    intro r
    unfold cycChain
    rw [hs]
    rfl
  simp only [List.any_cons, List.any_nil, hc]
  rfl

/-- `a*b*c*(1/2*(a - b)^2 + 1/2*(b - c)^2 + 1/2*(c - a)^2)`. -/
def entTree : Verif.Extract.Ex ℚ :=
  let d := fun i j => Verif.Extract.Ex.mul [.const (1 / 2), .pow (.add [.sym i, .mul [.const (-1), .sym j]]) 2]
  .mul [.sym 0, .sym 1, .sym 2, .add [d 0 1, d 1 2, d 2 0]]

/-- The constraints `a >= 0, b >= 0, c >= 0`. -/
def entCons : List (Verif.Extract.MonoCon ℚ) := [⟨0, 1, 1⟩, ⟨1, 1, 1⟩, ⟨2, 1, 1⟩]

/-- The meaning of the expressions that are not needed. -/
def entS : Verif.Extract.Sem ℚ := ⟨fun _ _ => 0, fun _ _ => 0⟩

/-- Solvers for other polynomials that are not needed here. -/
def entY (sq : ℚ → ℚ) : AcyExt ℚ := ⟨sq, fun _ => true, fun _ => none, fun _ => [], fun _ => none, fun _ => [], fun _ => [], fun _ => true, fun _ => [(0, 0, 0, 0)]⟩

theorem entTree_eval (ρ : ℕ → ℚ) : Verif.Extract.eval entS entTree ρ ρ = polyOf entCo (ρ 0) (ρ 1) (ρ 2) := by
  simp only [entTree, Verif.Extract.eval, Verif.Extract.evalMul, Verif.Extract.evalAdd, polyOf, entCo, Coeff.evalDict, Coeff.evalMonom, List.map_cons, List.map_nil,
    List.zipWith_cons_cons, List.zipWith_nil_right, List.prod_cons, List.prod_nil, List.sum_cons, List.sum_nil]
  norm_num
  ring

/-- The quintic gets an answer from the entry point. -/
theorem ex_structural3 (sq : ℚ → ℚ) : ∃ r, structural3 entX (entY sq) entS (fun _ => true) (fun _ => entTree) entCons 3 entCo = .ok (some r) := by
  obtain ⟨C, hC⟩ := entCo_answer
  have hf : (Verif.Extract.finish entS (fun _ => true) entCons entTree).isSome = true := by decide +kernel
  obtain ⟨r, hr⟩ := Option.isSome_iff_exists.1 hf
  refine ⟨r, ?_⟩
  unfold structural3
  rw [if_neg (by decide +kernel), if_neg (by decide +kernel), if_neg (by decide +kernel), if_pos (by decide +kernel), hC]
  simp only [hr]

/-- All hypotheses of `structural3_nonneg_partial` hold for it. -/
theorem ex_structural3_nonneg (sq : ℚ → ℚ) {a b c : ℚ} (ho : Octant a b c) : 0 ≤ Coeff.evalDict entCo.coeffs [a, b, c] := by
  obtain ⟨r, hr⟩ := ex_structural3 sq
  refine structural3_nonneg_partial entX_sound entCo_table (fun _ => entCo_clear) (fun h => absurd entCo_turns h) ?_ (fun _ _ => le_rfl) (fun _ _ _ => le_rfl)
    (fun _ _ => by decide +kernel) ?_ (by decide +kernel) hr ho
  · rw [entCo_core]
    intro h
    exact absurd (show (2 : ℕ) = 4 from h) (by omega)
  · intro C hC ρ h0 h1 h2 hd
    rw [if_pos (entCo_table.isCyclic.2 entCo_turns)] at hC
    have hv := cyclic3_value_partial entX_sound entCo_table entCo_turns entCo_clear hC
    rw [entTree_eval, hv.identity _ _ _ h0 h1 h2, mul_div_cancel_left₀ _ hd.ne']

/-! ### Faults -/

/-- `a^7*b*c + a*b^7*c + a*b*c^7`. -/
def entDbl : Coeff ℚ := ⟨[([7, 1, 1], 1), ([1, 7, 1], 1), ([1, 1, 7], 1)], 3⟩

/-- **C93 (fault).** The answer for `a^7*b*c + a*b^7*c + a*b*c^7` has twice the value of the polynomial: after `a*b*c` is taken out the common power is not looked for,
and `s(a^6)` goes to the solver that counts its monomial twice. -/
theorem cyclic3_doubled_wrong {X : CycExt ℚ} (hf : X.fuel = 3) (ho : X.order = id) (real : Bool) :
    ∃ C, cyclic3 X real entDbl = .ok (some C) ∧ C.num 1 1 1 = 6 ∧ C.den 1 1 1 = 1 ∧ Coeff.evalDict entDbl.coeffs [1, 1, 1] = 3 := by
  have hc : entDbl.cancelAbc = ([1, 1, 1], (⟨[([6, 0, 0], 1), ([0, 6, 0], 1), ([0, 0, 6], 1)], 3⟩ : Coeff ℚ)) := by rfl
  have hv : valAt (sparseAmgm 3 id (⟨[([6, 0, 0], 1), ([0, 6, 0], 1), ([0, 0, 6], 1)], 3⟩ : Coeff ℚ)) 1 1 1 = some 6 := by decide +kernel
  cases hr : sparseAmgm 3 id (⟨[([6, 0, 0], 1), ([0, 6, 0], 1), ([0, 0, 6], 1)], 3⟩ : Coeff ℚ) with
  | error e => rw [hr] at hv; cases hv
  | ok r =>
    rw [hr] at hv
    cases r with
    | none => cases hv
    | some E =>
      have hE : E 1 1 1 = 6 := Option.some.inj hv
      have hs : sparse3 X ⟨[([6, 0, 0], 1), ([0, 6, 0], 1), ([0, 0, 6], 1)], 3⟩ = .ok (some (.ofVal E)) := by
        show (sparseAmgm X.fuel X.order _).map _ = _
        rw [hf, ho, hr]
        rfl
      have hch : ∀ r, cycChain X r ⟨[([6, 0, 0], 1), ([0, 6, 0], 1), ([0, 0, 6], 1)], 3⟩ = .ok (some (.ofVal E)) := by
        intro r
        unfold cycChain
        rw [hs]
        rfl
      refine ⟨times (mono3 [1, 1, 1]) (.ofVal E), ?_, ?_, rfl, by decide +kernel⟩
      · unfold cyclic3 extract3
        rw [hc]
        simp only [List.any_cons, List.any_nil, hch]
        rfl
      · rw [num_times]
        simp [mono3, Cert.ofVal, Cert.num, Cert.plain, hE]

/-- `(a^2 + b^2 + c^2)^2 - 100*b*c^3`. -/
def entQ4 : Coeff ℚ := ⟨[([4, 0, 0], 1), ([2, 2, 0], 2), ([2, 0, 2], 2), ([0, 4, 0], 1), ([0, 2, 2], 2), ([0, 1, 3], -100), ([0, 0, 4], 1)], 3⟩

theorem entQ4_table : Table entQ4 where
  nvars := rfl
  ne := by decide +kernel
  len := by decide +kernel
  hom := by decide +kernel
  nz := by decide +kernel
  sorted := by decide +kernel

/-- **C93 (fault).** A quartic that is negative at `(0, 1, 1)` gets a sum of squares with nonnegative weights: the coefficients of `a*c^3` and `b*c^3` are not compared.
The numbers `(0, 0, 0, 0)` are those of the first search (quartic.py 688-697). -/
theorem acyclicQuartic_wrong : Coeff.evalDict entQ4.coeffs [0, 1, 1] = -96 ∧
    ∃ C, acyclicQuartic true (fun _ => [(0, 0, 0, 0)]) entQ4 = .ok (some C) ∧ (∀ t ∈ C.terms, 0 ≤ t.1 ∧ ∀ a b c, 0 ≤ t.2 a b c) ∧ PosIn C := by
  refine ⟨by decide +kernel, ?_⟩
  obtain ⟨C, hC⟩ := answered_iff (acyclicQuartic true (fun _ => [(0, 0, 0, 0)]) entQ4) (by decide +kernel)
  exact ⟨C, hC, acyclicQuartic_terms hC⟩

/-- `(a^2 + b^2 + c^2)^2`. -/
def entQ4' : Coeff ℚ := ⟨[([4, 0, 0], 1), ([2, 2, 0], 2), ([2, 0, 2], 2), ([0, 4, 0], 1), ([0, 2, 2], 2), ([0, 0, 4], 1)], 3⟩

/-- The hypotheses of `acyclicQuartic_value_partial` are met by `(a^2 + b^2 + c^2)^2`. -/
theorem ex_acyclicQuartic : entQ4'.degree = 4 ∧ ¬ Uneven entQ4' ∧ ∃ C, acyclicQuartic true (fun _ => [(0, 0, 0, 0)]) entQ4' = .ok (some C) := by
  refine ⟨rfl, ?_, answered_iff _ (by decide +kernel)⟩
  rintro ⟨k, hk, hne⟩
  have h0 : [0, 1, 2].find? (q4Test entQ4') = some 0 := by decide +kernel
  rw [h0] at hk
  cases hk
  exact hne (by decide +kernel)

end Verif.Ternary
