import Verif.Props.Nonic
import Verif.Props.SepticSymmetric

/-!
# The nonic and octic solvers on polynomials, the faults of the nonic solver, and examples
-/

set_option linter.unusedSectionVars false

namespace Verif.Ternary

open Verif Verif.TermsPoly Verif.Acute Verif.Dense

variable {K : Type*} [Field K] [LinearOrder K] [IsStrictOrderedRing K]

/-! ### From the coefficient table -/

/-- The ten numbers determine the value of a cyclic sextic. -/
theorem sextic_ofCoeff (co : Coeff K) (h : co.WF) (hn : co.nvars = 3) (hd : co.Hom 6) (hc : co.isCyclicDefault = true) (a b c : K) :
    Coeff.evalDict co.coeffs [a, b, c] = (Sextic.ofCoeff co).poly a b c := by
  have hrot := (Coeff.isCyclicDefault_iff co h (by omega)).1 hc
  rw [Coeff.evalDict_hom co h 6 hd, hn]
  have e : generatePartitions 3 6 true = [[6, 0, 0], [5, 1, 0], [5, 0, 1], [4, 2, 0], [4, 1, 1], [4, 0, 2], [3, 3, 0], [3, 2, 1], [3, 1, 2], [3, 0, 3], [2, 4, 0], [2, 3, 1],
    [2, 2, 2], [2, 1, 3], [2, 0, 4], [1, 5, 0], [1, 4, 1], [1, 3, 2], [1, 2, 3], [1, 1, 4], [1, 0, 5], [0, 6, 0], [0, 5, 1], [0, 4, 2], [0, 3, 3], [0, 2, 4], [0, 1, 5],
    [0, 0, 6]] := by decide +kernel
  have r1 : ∀ x y z : ℕ, co.call [y, z, x] = co.call [x, y, z] := fun x y z => hrot [x, y, z] 1 (by simp [hn])
  have r2 : ∀ x y z : ℕ, co.call [z, x, y] = co.call [x, y, z] := fun x y z => hrot [x, y, z] 2 (by simp [hn])
  rw [e]
  simp only [List.map_cons, List.map_nil, List.sum_cons, List.sum_nil, Coeff.evalMonom, List.zipWith_cons_cons, List.zipWith_nil_left, List.zipWith_nil_right,
    List.prod_cons, List.prod_nil, Sextic.poly, Sextic.ofCoeff]
  rw [r1 6 0 0, r2 6 0 0, r1 5 1 0, r2 5 1 0, r1 1 5 0, r2 1 5 0, r1 4 2 0, r2 4 2 0, r1 4 1 1, r2 4 1 1, r1 2 4 0, r2 2 4 0, r1 3 3 0, r2 3 3 0, r1 3 2 1, r2 3 2 1,
    r1 2 3 1, r2 2 3 1]
  ring

/-- The nineteen numbers determine the value of a cyclic nonic. -/
theorem nonic_ofCoeff (co : Coeff K) (h : co.WF) (hn : co.nvars = 3) (hd : co.Hom 9) (hc : co.isCyclicDefault = true) (a b c : K) :
    Coeff.evalDict co.coeffs [a, b, c] = (Nonic.ofCoeff co).poly a b c := by
  have hrot := (Coeff.isCyclicDefault_iff co h (by omega)).1 hc
  rw [Coeff.evalDict_hom co h 9 hd, hn]
  have e : generatePartitions 3 9 true = [[9, 0, 0], [8, 1, 0], [8, 0, 1], [7, 2, 0], [7, 1, 1], [7, 0, 2], [6, 3, 0], [6, 2, 1], [6, 1, 2], [6, 0, 3], [5, 4, 0], [5, 3, 1], [5, 2, 2], [5, 1, 3], [5, 0, 4], [4, 5, 0], [4, 4, 1], [4, 3, 2], [4, 2, 3], [4, 1, 4], [4, 0, 5], [3, 6, 0], [3, 5, 1], [3, 4, 2], [3, 3, 3], [3, 2, 4], [3, 1, 5], [3, 0, 6], [2, 7, 0], [2, 6, 1], [2, 5, 2], [2, 4, 3], [2, 3, 4], [2, 2, 5], [2, 1, 6], [2, 0, 7], [1, 8, 0], [1, 7, 1], [1, 6, 2], [1, 5, 3], [1, 4, 4], [1, 3, 5], [1, 2, 6], [1, 1, 7], [1, 0, 8], [0, 9, 0], [0, 8, 1], [0, 7, 2], [0, 6, 3], [0, 5, 4], [0, 4, 5], [0, 3, 6], [0, 2, 7], [0, 1, 8], [0, 0, 9]] := by decide +kernel
  have r1 : ∀ x y z : ℕ, co.call [y, z, x] = co.call [x, y, z] := fun x y z => hrot [x, y, z] 1 (by simp [hn])
  have r2 : ∀ x y z : ℕ, co.call [z, x, y] = co.call [x, y, z] := fun x y z => hrot [x, y, z] 2 (by simp [hn])
  rw [e]
  simp only [List.map_cons, List.map_nil, List.sum_cons, List.sum_nil, Coeff.evalMonom, List.zipWith_cons_cons, List.zipWith_nil_left, List.zipWith_nil_right,
    List.prod_cons, List.prod_nil, Nonic.poly, Nonic.ofCoeff, cyc3]
  rw [r1 9 0 0, r2 9 0 0, r1 8 1 0, r2 8 1 0, r1 1 8 0, r2 1 8 0, r1 7 2 0, r2 7 2 0, r1 7 1 1, r2 7 1 1, r1 2 7 0, r2 2 7 0, r1 6 3 0, r2 6 3 0, r1 6 2 1, r2 6 2 1, r1 2 6 1, r2 2 6 1, r1 3 6 0, r2 3 6 0, r1 5 4 0, r2 5 4 0, r1 5 3 1, r2 5 3 1, r1 5 2 2, r2 5 2 2, r1 3 5 1, r2 3 5 1, r1 4 5 0, r2 4 5 0, r1 4 4 1, r2 4 4 1, r1 4 3 2, r2 4 3 2, r1 3 4 2, r2 3 4 2]
  ring

/-- The fifteen numbers determine the value of a cyclic octic. -/
theorem octic_ofCoeff (co : Coeff K) (h : co.WF) (hn : co.nvars = 3) (hd : co.Hom 8) (hc : co.isCyclicDefault = true) (a b c : K) :
    Coeff.evalDict co.coeffs [a, b, c] = (Octic.ofCoeff co).poly a b c := by
  have hrot := (Coeff.isCyclicDefault_iff co h (by omega)).1 hc
  rw [Coeff.evalDict_hom co h 8 hd, hn]
  have e : generatePartitions 3 8 true = [[8, 0, 0], [7, 1, 0], [7, 0, 1], [6, 2, 0], [6, 1, 1], [6, 0, 2], [5, 3, 0], [5, 2, 1], [5, 1, 2], [5, 0, 3], [4, 4, 0], [4, 3, 1], [4, 2, 2], [4, 1, 3], [4, 0, 4], [3, 5, 0], [3, 4, 1], [3, 3, 2], [3, 2, 3], [3, 1, 4], [3, 0, 5], [2, 6, 0], [2, 5, 1], [2, 4, 2], [2, 3, 3], [2, 2, 4], [2, 1, 5], [2, 0, 6], [1, 7, 0], [1, 6, 1], [1, 5, 2], [1, 4, 3], [1, 3, 4], [1, 2, 5], [1, 1, 6], [1, 0, 7], [0, 8, 0], [0, 7, 1], [0, 6, 2], [0, 5, 3], [0, 4, 4], [0, 3, 5], [0, 2, 6], [0, 1, 7], [0, 0, 8]] := by decide +kernel
  have r1 : ∀ x y z : ℕ, co.call [y, z, x] = co.call [x, y, z] := fun x y z => hrot [x, y, z] 1 (by simp [hn])
  have r2 : ∀ x y z : ℕ, co.call [z, x, y] = co.call [x, y, z] := fun x y z => hrot [x, y, z] 2 (by simp [hn])
  rw [e]
  simp only [List.map_cons, List.map_nil, List.sum_cons, List.sum_nil, Coeff.evalMonom, List.zipWith_cons_cons, List.zipWith_nil_left, List.zipWith_nil_right,
    List.prod_cons, List.prod_nil, Octic.poly, Octic.ofCoeff, cyc3]
  rw [r1 8 0 0, r2 8 0 0, r1 7 1 0, r2 7 1 0, r1 7 0 1, r2 7 0 1, r1 6 2 0, r2 6 2 0, r1 6 1 1, r2 6 1 1, r1 6 0 2, r2 6 0 2, r1 5 3 0, r2 5 3 0, r1 5 2 1, r2 5 2 1, r1 5 1 2, r2 5 1 2, r1 5 0 3, r2 5 0 3, r1 4 4 0, r2 4 4 0, r1 4 3 1, r2 4 3 1, r1 4 2 2, r2 4 2 2, r1 4 1 3, r2 4 1 3, r1 3 3 2, r2 3 3 2]
  ring

/-- **C79 (on polynomials; partial: the coefficient of `a^8c` is zero and the rational roots of the tree are at least minus one).** An answer of the nonic solver on a
cyclic polynomial of degree nine is a complete proof that it is nonnegative. -/
theorem nonicSolve_poly_partial {X : NonicExt K} (hX : X.Sound) (co : Coeff K) (h : co.WF) (hn : co.nvars = 3) (hd : co.Hom 9) (hc : co.isCyclicDefault = true)
    (h801 : co.call [1, 8, 0] = 0) (hr : ∀ t, Cand.exact t ∈ X.treeX (Nonic.ofCoeff co) → -1 ≤ t) {C : Cert K} (hs : nonicSolve X (Nonic.ofCoeff co) = .ok (some C)) :
    Holds (fun a b c => Coeff.evalDict co.coeffs [a, b, c]) C :=
  (nonicSolve_sound_partial hX (f := Nonic.ofCoeff co) h801 hr hs).congr fun a b c => (nonic_ofCoeff co h hn hd hc a b c).symm

/-! ### Octics -/

/-- The contracts of the octic solver: answers of the two called solvers are proofs. -/
structure OcticExt.Sound (X : OcticExt K) : Prop where
  symm : ∀ f C, X.symm f = .ok (some C) → Holds f.poly C
  solve : ∀ (s : Septic K) C, X.solve s.terms = .ok (some C) → Holds s.poly C

/-- The change of variables `(a, b, c) -> (1/a, 1/b, 1/c)`. -/
theorem octicPoly2_eq {f : Octic K} (h1 : f.c800 = 0) (h2 : f.c710 = 0) (h3 : f.c701 = 0) (h4 : f.c620 = 0) (h5 : f.c611 = 0) (h6 : f.c602 = 0) (a b c : K) :
    f.poly a b c * prodA a b c ^ 2 = (octicPoly2 f).poly (b * c) (c * a) (a * b) := by
  simp only [Octic.poly, octicPoly2, Septic.poly, cyc3, prodA, cycp3, h1, h2, h3, h4, h5, h6]
  ring

/-- **C80.** What the octic solver answers is a complete proof, if the answers of the two solvers that it calls are. -/
theorem octicSolve_sound {X : OcticExt K} (hX : X.Sound) {f : Octic K} {C : Cert K} (h : octicSolve X f = .ok (some C)) : Holds f.poly C := by
  unfold octicSolve at h
  split at h
  · simp at h
  · rename_i D hD
    rw [← Option.some.inj (Except.ok.inj h)]
    exact hX.symm _ _ hD
  · split at h
    · simp at h
    split at h
    · simp at h
    rename_i hz
    push Not at hz
    split at h
    · rename_i hw
      cases hs : X.solve (octicPoly2 f).terms with
      | error e => rw [hs] at h; simp [Except.map] at h
      | ok s =>
        rw [hs] at h
        cases s with
        | none => simp [Except.map] at h
        | some S =>
          rw [← Option.some.inj (Except.ok.inj h)]
          exact (hX.solve _ _ hs).inv (octicPoly2_eq hz.1 hz.2.1 hz.2.2 hw.1 hw.2.1 hw.2.2)
    · simp at h

/-- **C80 (on polynomials).** -/
theorem octicSolve_poly {X : OcticExt K} (hX : X.Sound) (co : Coeff K) (h : co.WF) (hn : co.nvars = 3) (hd : co.Hom 8) (hc : co.isCyclicDefault = true) {C : Cert K}
    (hs : octicSolve X (Octic.ofCoeff co) = .ok (some C)) : Holds (fun a b c => Coeff.evalDict co.coeffs [a, b, c]) C :=
  (octicSolve_sound hX hs).congr fun a b c => (octic_ofCoeff co h hn hd hc a b c).symm

/-- The octic solver reports an error only if one of the two called solvers does. -/
theorem octicSolve_error {X : OcticExt K} {f : Octic K} {e : PyErr} (h : octicSolve X f = .error e) : X.symm f = .error e ∨ X.solve (octicPoly2 f).terms = .error e := by
  unfold octicSolve at h
  split at h
  · rename_i hs
    exact .inl (hs.trans h)
  · simp at h
  · split at h
    · simp at h
    split at h
    · simp at h
    split at h
    · right
      cases hs : X.solve (octicPoly2 f).terms with
      | error e' => rw [hs] at h; exact h
      | ok s => rw [hs] at h; simp [Except.map] at h
    · simp at h

/-- The septic with the coefficients of a list of terms. -/
def readSeptic (p : List (List ℕ × ℚ)) : Septic ℚ :=
  let g := fun m => ((p.find? fun t => t.1 == m).map Prod.snd).getD 0
  ⟨g [7, 0, 0], g [6, 1, 0], g [6, 0, 1], g [5, 2, 0], g [5, 1, 1], g [5, 0, 2], g [4, 3, 0], g [4, 2, 1], g [4, 1, 2], g [4, 0, 3], g [3, 3, 1], g [3, 2, 2]⟩

/-- An environment that meets the contracts: the modelled symmetric septic solver (C77). -/
def exOctic : OcticExt ℚ where
  symm _ := .ok none
  rational := true
  solve p := if (readSeptic p).terms = p then septicSymmetric (fun _ => .ok none) exMono true (readSeptic p) else .ok none

theorem exOctic_sound : exOctic.Sound where
  symm _ _ h := absurd h (by simp [exOctic])
  solve s C h := by
    suffices H : ∀ p, exOctic.solve p = .ok (some C) → Holds (polyVal p) C from (H _ h).congr fun a b c => polyVal_septic s a b c
    clear h
    intro p h
    unfold exOctic at h
    dsimp only at h
    split at h
    · rename_i e
      refine (septicSymmetric_sound (by intro f C h; simp at h) exMono_sound h).1.congr fun a b c => ?_
      rw [← polyVal_septic, e]
    · simp at h

/-- `s(a3b3(a-b)2)` is answered. -/
theorem exOctic_answered : ∃ C, octicSolve exOctic ⟨0, 0, 0, 0, 0, 0, 1, 0, 0, 1, -2, 0, 0, 0, 0⟩ = .ok (some C) ∧
    Holds (⟨0, 0, 0, 0, 0, 0, 1, 0, 0, 1, -2, 0, 0, 0, 0⟩ : Octic ℚ).poly C := by
  obtain ⟨C, hC⟩ := answered_iff (octicSolve exOctic ⟨0, 0, 0, 0, 0, 0, 1, 0, 0, 1, -2, 0, 0, 0, 0⟩) (by decide +kernel)
  exact ⟨C, hC, octicSolve_sound exOctic_sound hC⟩

/-! ### Faults of the nonic solver -/

/-- An environment that meets the contracts: no answers of other solvers, and the listed candidates. -/
def exNonic : NonicExt ℚ where
  nd := exND.nd
  rational := true
  solve _ := .ok none
  treeX f := if f.c630 / f.c900 = 17 / 8 then [.exact (-3 / 2)] else if f.c630 / f.c900 = 3 then [.exact 2] else if f.c630 / f.c900 = 7 / 2 then [.approx true [1, 2]] else []
  hexagonR _ := [.exact 1]
  hexagramZ _ := [.approx true [25 / 8]]
  gearZ f := if f.c621 / f.c504 = 1 then [.exact (-1), .exact 1] else []
  sqrtR t := if t = 1 then some 1 else if t = 0 then some 0 else none

theorem exNonic_sound : exNonic.Sound where
  nd := exND_sound
  solve _ _ _ _ _ h := absurd h (by simp [exNonic])
  root f := by
    intro t ht
    change Cand.exact t ∈ (if _ then _ else _) at ht
    split at ht
    · rename_i e
      simp only [List.mem_singleton, Cand.exact.injEq] at ht
      rw [e, ht]
      norm_num
    split at ht
    · rename_i e
      simp only [List.mem_singleton, Cand.exact.injEq] at ht
      rw [e, ht]
      norm_num
    split at ht <;> simp at ht
  approx f ts h := by
    change Cand.approx true ts ∈ (if _ then _ else _) at h
    split at h
    · simp at h
    split at h
    · simp at h
    split at h
    · simp only [List.mem_singleton, Cand.approx.injEq, true_and] at h
      subst h
      intro t ht
      simp only [List.mem_cons, List.not_mem_nil, or_false] at ht
      rcases ht with rfl | rfl <;> norm_num
    · simp at h

/-- `s(a^6b^3 + a^6c^3 - a^8c - 3a^4b^4c - 3a^5b^2c^2) + 15a^3b^3c^3`. -/
def exC801 : Nonic ℚ := ⟨0, 0, -1, 0, 0, 0, 1, 0, 0, 1, 0, 0, -3, 0, 0, -3, 0, 0, 15⟩

/-- **Fault.** The condition of the hexagon does not look at the coefficient of `a^8c`: this polynomial, negative at `(1, 1/8, 1/2)`, is answered. -/
theorem nonicSolve_c801_wrong : ∃ C, nonicSolve exNonic exC801 = .ok (some C) ∧ C.num 1 (1 / 8) (1 / 2) ≠ C.den 1 (1 / 8) (1 / 2) * exC801.poly 1 (1 / 8) (1 / 2) ∧
    exC801.poly 1 (1 / 8) (1 / 2) < 0 := by
  obtain ⟨C, hC⟩ := answered_iff (nonicSolve exNonic exC801) (by decide +kernel)
  refine ⟨C, hC, ?_, by norm_num [Nonic.poly, exC801, cyc3]⟩
  have h1 : (nonicSolve exNonic exC801).toOption.join.map (fun C => decide (C.num 1 (1 / 8) (1 / 2) = C.den 1 (1 / 8) (1 / 2) * exC801.poly 1 (1 / 8) (1 / 2))) = some false := by
    decide +kernel
  rw [hC] at h1
  simpa [Except.toOption] using h1

/-- `s(8a^9 - 114a^7bc + 17a^6b^3 + 17a^6c^3 - 207a^4b^4c + 489a^5b^2c^2) - 630a^3b^3c^3` over eight. -/
def exRoot : Nonic ℚ := ⟨1, 0, 0, 0, -57 / 4, 0, 17 / 8, 0, 0, 17 / 8, 0, 0, 489 / 8, 0, 0, -207 / 8, 0, 0, -315 / 4⟩

/-- **Fault.** A rational root below minus one is accepted: this polynomial, negative at `(1, 1, 2)`, is answered, with a term that is negative there. -/
theorem nonicSolve_root_wrong : ∃ C, nonicSolve exNonic exRoot = .ok (some C) ∧ ¬ Shows Octant exRoot.poly C ∧ exRoot.poly 1 1 2 < 0 := by
  obtain ⟨C, hC⟩ := answered_iff (nonicSolve exNonic exRoot) (by decide +kernel)
  have hneg : exRoot.poly 1 1 2 < 0 := by norm_num [Nonic.poly, exRoot, cyc3]
  refine ⟨C, hC, fun hS => ?_, hneg⟩
  have hden : 0 < C.den 1 1 2 := by
    have h1 : (nonicSolve exNonic exRoot).toOption.join.map (fun C => decide (0 < C.den 1 1 2)) = some true := by decide +kernel
    rw [hC] at h1
    simpa [Except.toOption] using h1
  have := hS.nonneg (a := 1) (b := 1) (c := 2) ⟨zero_le_one, zero_le_one, zero_le_two⟩ hden.ne'
  linarith

/-- Whether the call raises `TypeError`. -/
def raisesType (r : Except PyErr (Option (Cert ℚ))) : Bool := match r with | .error .typeError => true | _ => false

/-- **Fault.** The search for a weight divides by a difference that is zero: on this polynomial the solver raises `TypeError` instead of giving up. -/
theorem nonicSolve_gear_raises : nonicSolve exNonic ⟨0, 0, 0, 0, 0, 0, 0, 1, 0, 0, 0, -4, -3, -2, 1, 12, 1, -6, 0⟩ = .error .typeError := by
  have h : raisesType (nonicSolve exNonic ⟨0, 0, 0, 0, 0, 0, 0, 1, 0, 0, 0, -4, -3, -2, 1, 12, 1, -6, 0⟩) = true := by decide +kernel
  unfold raisesType at h
  split at h
  · rename_i e
    exact e
  · simp at h

/-! ### Examples -/

/-- `s(a9+3a3b3(a3+b3)-5a7bc-4a4b4c+2p(a3))`, from the documentation. -/
theorem exNonicTree : ∃ C, nonicSolve exNonic ⟨1, 0, 0, 0, -5, 0, 3, 0, 0, 3, 0, 0, 0, 0, 0, -4, 0, 0, 6⟩ = .ok (some C) ∧ Holds (⟨1, 0, 0, 0, -5, 0, 3, 0, 0, 3, 0, 0, 0, 0, 0, -4, 0, 0, 6⟩ : Nonic ℚ).poly C := by
  obtain ⟨C, hC⟩ := answered_iff (nonicSolve exNonic ⟨1, 0, 0, 0, -5, 0, 3, 0, 0, 3, 0, 0, 0, 0, 0, -4, 0, 0, 6⟩) (by decide +kernel)
  refine ⟨C, hC, nonicSolve_sound_partial exNonic_sound rfl ?_ hC⟩
  intro t ht
  have e : exNonic.treeX ⟨1, 0, 0, 0, -5, 0, 3, 0, 0, 3, 0, 0, 0, 0, 0, -4, 0, 0, 6⟩ = [.exact 2] := by norm_num [exNonic]
  rw [e] at ht
  simp only [List.mem_singleton, Cand.exact.injEq] at ht
  rw [ht]
  norm_num

/-- `s(4a9-25a7bc+14a6b3+14a6c3-16a4b4c+9a3b3c3)`, from the documentation, with an approximation. -/
theorem exNonicTree2 : ∃ C, nonicSolve exNonic ⟨4, 0, 0, 0, -25, 0, 14, 0, 0, 14, 0, 0, 0, 0, 0, -16, 0, 0, 27⟩ = .ok (some C) ∧ Holds (⟨4, 0, 0, 0, -25, 0, 14, 0, 0, 14, 0, 0, 0, 0, 0, -16, 0, 0, 27⟩ : Nonic ℚ).poly C := by
  obtain ⟨C, hC⟩ := answered_iff (nonicSolve exNonic ⟨4, 0, 0, 0, -25, 0, 14, 0, 0, 14, 0, 0, 0, 0, 0, -16, 0, 0, 27⟩) (by decide +kernel)
  refine ⟨C, hC, nonicSolve_sound_partial exNonic_sound rfl ?_ hC⟩
  intro t ht
  have e : exNonic.treeX ⟨4, 0, 0, 0, -25, 0, 14, 0, 0, 14, 0, 0, 0, 0, 0, -16, 0, 0, 27⟩ = [.approx true [1, 2]] := by norm_num [exNonic]
  rw [e] at ht
  simp at ht

/-- `s(ab2-abc)3+s(ac2-abc)3`. -/
theorem exNonicHexagon : ∃ C, nonicSolve exNonic ⟨0, 0, 0, 0, 0, 0, 1, 0, 0, 1, 0, -9, 6, -9, 0, 6, 9, 9, -42⟩ = .ok (some C) ∧ Holds (⟨0, 0, 0, 0, 0, 0, 1, 0, 0, 1, 0, -9, 6, -9, 0, 6, 9, 9, -42⟩ : Nonic ℚ).poly C := by
  obtain ⟨C, hC⟩ := answered_iff (nonicSolve exNonic ⟨0, 0, 0, 0, 0, 0, 1, 0, 0, 1, 0, -9, 6, -9, 0, 6, 9, 9, -42⟩) (by decide +kernel)
  refine ⟨C, hC, nonicSolve_sound_partial exNonic_sound rfl ?_ hC⟩
  intro t ht
  have e : exNonic.treeX ⟨0, 0, 0, 0, 0, 0, 1, 0, 0, 1, 0, -9, 6, -9, 0, 6, 9, 9, -42⟩ = [] := by norm_num [exNonic]
  rw [e] at ht
  simp at ht

/-- `s(a3)s(a3b3)+27p(a3)-6p(a2)s(ab(a+b))`, from the documentation. -/
theorem exNonicHexagon2 : ∃ C, nonicSolve exNonic ⟨0, 0, 0, 0, 0, 0, 1, 0, 0, 1, 0, 0, 0, 0, 0, 0, -6, -6, 30⟩ = .ok (some C) ∧ Holds (⟨0, 0, 0, 0, 0, 0, 1, 0, 0, 1, 0, 0, 0, 0, 0, 0, -6, -6, 30⟩ : Nonic ℚ).poly C := by
  obtain ⟨C, hC⟩ := answered_iff (nonicSolve exNonic ⟨0, 0, 0, 0, 0, 0, 1, 0, 0, 1, 0, 0, 0, 0, 0, 0, -6, -6, 30⟩) (by decide +kernel)
  refine ⟨C, hC, nonicSolve_sound_partial exNonic_sound rfl ?_ hC⟩
  intro t ht
  have e : exNonic.treeX ⟨0, 0, 0, 0, 0, 0, 1, 0, 0, 1, 0, 0, 0, 0, 0, 0, -6, -6, 30⟩ = [] := by norm_num [exNonic]
  rw [e] at ht
  simp at ht

/-- `s(2a6b2c+2a6bc2+5a5b4-34a5b3c+30a5b2c2-34a5bc3+5a5c4+16a4b4c+19a4b3c2+19a4b2c3-30a3b3c3)`, from the documentation. -/
theorem exNonicHexagram : ∃ C, nonicSolve exNonic ⟨0, 0, 0, 0, 0, 0, 0, 2, 2, 0, 5, -34, 30, -34, 5, 16, 19, 19, -90⟩ = .ok (some C) ∧ Holds (⟨0, 0, 0, 0, 0, 0, 0, 2, 2, 0, 5, -34, 30, -34, 5, 16, 19, 19, -90⟩ : Nonic ℚ).poly C := by
  obtain ⟨C, hC⟩ := answered_iff (nonicSolve exNonic ⟨0, 0, 0, 0, 0, 0, 0, 2, 2, 0, 5, -34, 30, -34, 5, 16, 19, 19, -90⟩) (by decide +kernel)
  refine ⟨C, hC, nonicSolve_sound_partial exNonic_sound rfl ?_ hC⟩
  intro t ht
  have e : exNonic.treeX ⟨0, 0, 0, 0, 0, 0, 0, 2, 2, 0, 5, -34, 30, -34, 5, 16, 19, 19, -90⟩ = [] := by norm_num [exNonic]
  rw [e] at ht
  simp at ht

/-- `s(a6b2c-a5b3c+a5c4-a4b3c2)`, from the documentation. -/
theorem exNonicGear : ∃ C, nonicSolve exNonic ⟨0, 0, 0, 0, 0, 0, 0, 1, 0, 0, 0, -1, 0, 0, 1, 0, -1, 0, 0⟩ = .ok (some C) ∧ Holds (⟨0, 0, 0, 0, 0, 0, 0, 1, 0, 0, 0, -1, 0, 0, 1, 0, -1, 0, 0⟩ : Nonic ℚ).poly C := by
  obtain ⟨C, hC⟩ := answered_iff (nonicSolve exNonic ⟨0, 0, 0, 0, 0, 0, 0, 1, 0, 0, 0, -1, 0, 0, 1, 0, -1, 0, 0⟩) (by decide +kernel)
  refine ⟨C, hC, nonicSolve_sound_partial exNonic_sound rfl ?_ hC⟩
  intro t ht
  have e : exNonic.treeX ⟨0, 0, 0, 0, 0, 0, 0, 1, 0, 0, 0, -1, 0, 0, 1, 0, -1, 0, 0⟩ = [] := by norm_num [exNonic]
  rw [e] at ht
  simp at ht

/-- Its reflection. -/
theorem exNonicGear2 : ∃ C, nonicSolve exNonic ⟨0, 0, 0, 0, 0, 0, 0, 0, 1, 0, 1, 0, 0, -1, 0, 0, 0, -1, 0⟩ = .ok (some C) ∧ Holds (⟨0, 0, 0, 0, 0, 0, 0, 0, 1, 0, 1, 0, 0, -1, 0, 0, 0, -1, 0⟩ : Nonic ℚ).poly C := by
  obtain ⟨C, hC⟩ := answered_iff (nonicSolve exNonic ⟨0, 0, 0, 0, 0, 0, 0, 0, 1, 0, 1, 0, 0, -1, 0, 0, 0, -1, 0⟩) (by decide +kernel)
  refine ⟨C, hC, nonicSolve_sound_partial exNonic_sound rfl ?_ hC⟩
  intro t ht
  have e : exNonic.treeX ⟨0, 0, 0, 0, 0, 0, 0, 0, 1, 0, 1, 0, 0, -1, 0, 0, 0, -1, 0⟩ = [] := by norm_num [exNonic]
  rw [e] at ht
  simp at ht

end Verif.Ternary
