import Verif.Proofs.TernaryTable
import Verif.Proofs.PolyClosure
import Verif.Props.TernaryQuinticMain
import Verif.Props.TernarySexticEx
import Verif.Props.TernaryAmgm
import Verif.Props.TernaryAcyclic
import Verif.Props.NonicPoly
import Verif.Props.Sparse
import Verif.Props.Extract

/-!
# C93: the entry point for three variables
-/

set_option linter.unusedSectionVars false

namespace Verif.Ternary

open Verif Verif.Acute

variable {K : Type*} [Field K] [LinearOrder K] [IsStrictOrderedRing K]

/-! ### Answers with the right value -/

/-- The answer has the value of `f` wherever the variables are positive and not all equal. -/
structure Value (f : Val3 K) (C : Cert K) : Prop where
  identity : ∀ a b c, 0 < a → 0 < b → 0 < c → C.num a b c = C.den a b c * f a b c
  pos : PosIn C

/-- The polynomial of a table. -/
def polyOf (co : Coeff K) : Val3 K := fun a b c => Coeff.evalDict co.coeffs [a, b, c]

theorem Value.congr {f g : Val3 K} {C : Cert K} (h : Value f C) (e : ∀ a b c, f a b c = g a b c) : Value g C :=
  ⟨fun a b c ha hb hc => by rw [← e]; exact h.identity a b c ha hb hc, h.pos⟩

theorem Ident.value {f : Val3 K} {C : Cert K} (h : Ident f C) : Value f C := ⟨fun a b c _ _ _ => h.identity a b c, h.pos⟩

theorem Holds.value {f : Val3 K} {C : Cert K} (h : Holds f C) : Value f C := ⟨fun a b c _ _ _ => h.shows_.identity a b c, h.pos⟩

theorem Proves.value {f : Val3 K} {C : Cert K} (h : Proves Octant f C) : Value f C :=
  ⟨fun a b c _ _ _ => h.identity a b c, fun a b c ha hb hc _ => h.pos a b c ⟨ha.le, hb.le, hc.le⟩ fun e => ha.ne' e.1⟩

theorem value_plain {f : Val3 K} {l : List (K × Val3 K)} (h : ∀ a b c, 0 < a → 0 < b → 0 < c → (l.map fun t => t.1 * t.2 a b c).sum = f a b c) : Value f (.plain l) :=
  ⟨fun a b c ha hb hc => by
    show (l.map fun t => t.1 * t.2 a b c).sum = 1 * f a b c
    rw [one_mul]; exact h a b c ha hb hc, fun _ _ _ _ _ _ _ => zero_lt_one⟩

theorem value_ofVal {f E : Val3 K} (h : ∀ a b c, 0 < a → 0 < b → 0 < c → E a b c = f a b c) : Value f (.ofVal E) :=
  value_plain fun a b c ha hb hc => by simp [h a b c ha hb hc]

theorem Value.times {f e : Val3 K} {C : Cert K} (h : Value f C) : Value (fun a b c => e a b c * f a b c) (times e C) :=
  ⟨fun a b c ha hb hc => by
    rw [num_times, h.identity a b c ha hb hc]
    show _ = C.den a b c * _
    ring, h.pos⟩

theorem num_power (i : ℕ) (C : Cert K) (a b c : K) : (C.power i).num a b c = C.num (a ^ i) (b ^ i) (c ^ i) := by
  simp only [Cert.num, Cert.power, List.map_map]
  rfl

theorem Value.power {f : Val3 K} {C : Cert K} (h : Value f C) {i : ℕ} (hi : i ≠ 0) : Value (fun a b c => f (a ^ i) (b ^ i) (c ^ i)) (C.power i) := by
  refine ⟨fun a b c ha hb hc => ?_, fun a b c ha hb hc hn => h.pos _ _ _ (pow_pos ha i) (pow_pos hb i) (pow_pos hc i) ?_⟩
  · rw [num_power]
    exact h.identity _ _ _ (pow_pos ha i) (pow_pos hb i) (pow_pos hc i)
  · rintro ⟨h1, h2⟩
    exact hn ⟨(pow_left_inj₀ ha.le hb.le hi).1 h1, (pow_left_inj₀ hb.le hc.le hi).1 h2⟩

/-! ### The wrappers -/

/-- The chain returns what one of its solvers returned. -/
theorem chain3_some : ∀ {l : List (Except PyErr (Option (Cert K)))} {C : Cert K}, chain3 l = .ok (some C) → .ok (some C) ∈ l
  | [], C, h => by simp [chain3] at h
  | .ok (some D) :: l, C, h => by
    unfold chain3 at h
    cases h
    simp
  | .ok none :: l, C, h => by
    unfold chain3 at h
    exact List.mem_cons_of_mem _ (chain3_some h)
  | .error e :: l, C, h => by
    unfold chain3 at h
    split_ifs at h
    · exact List.mem_cons_of_mem _ (chain3_some h)
    · cases h

/-- An exception leaves the chain only if a solver raised it, no solver before gave an answer, and it is none of the two that are caught. -/
theorem chain3_error : ∀ {l : List (Except PyErr (Option (Cert K)))} {e : PyErr}, chain3 l = .error e →
    .error e ∈ l ∧ e ≠ .custom "PolynomialUnsolvableError" ∧ e ≠ .custom "PolynomialNonpositiveError"
  | [], e, h => by simp [chain3] at h
  | .ok (some D) :: l, e, h => by simp [chain3] at h
  | .ok none :: l, e, h => by
    unfold chain3 at h
    exact ⟨List.mem_cons_of_mem _ (chain3_error h).1, (chain3_error h).2⟩
  | .error e' :: l, e, h => by
    unfold chain3 at h
    split_ifs at h with h1 h2
    · exact ⟨List.mem_cons_of_mem _ (chain3_error h).1, (chain3_error h).2⟩
    · cases h
      exact ⟨by simp, h1, h2⟩

/-- The polynomial that is handed to the solvers. -/
def core (co : Coeff K) : Coeff K :=
  if co.cancelAbc.1.any (fun i => decide (i > 0)) then co.cancelAbc.2 else if co.cancelK.1 > 1 then co.cancelK.2 else co

theorem Table.core {co : Coeff K} (h : Table co) : Table (core co) ∧ (Turns co → Turns (core co)) := by
  unfold Ternary.core
  split_ifs
  · exact h.cancelAbc
  · exact h.cancelK
  · exact ⟨h, id⟩

/-- If the answer of the solver has the value of the core, the answer with the factors has the value of the polynomial. -/
theorem extract3_value {solver : Option Bool → Coeff K → Except PyErr (Option (Cert K))} {real : Bool} {co : Coeff K} (h : Table co)
    (hs : ∀ r C, solver r (core co) = .ok (some C) → Value (polyOf (core co)) C) {C : Cert K} (hC : extract3 solver real co = .ok (some C)) : Value (polyOf co) C := by
  obtain ⟨hl, habc, -⟩ := Coeff.cancelAbc_spec co h.wf h.nz
  obtain ⟨hck, -⟩ := Coeff.cancelK_spec co h.wf h.nz
  unfold extract3 at hC
  unfold core at hs
  by_cases h1 : (co.cancelAbc.1.any fun i => decide (i > 0)) = true
  · rw [if_pos h1] at hC
    simp only [h1, if_true] at hs
    cases hr : solver (some (real && co.cancelAbc.1.all fun i => i % 2 == 0)) co.cancelAbc.2 with
    | error e => rw [hr] at hC; cases hC
    | ok r =>
      rw [hr] at hC
      cases r with
      | none => cases hC
      | some D =>
        cases hC
        refine (hs _ _ hr).times.congr fun a b c => ?_
        rw [h.nvars] at hl habc
        obtain ⟨i, j, k, e⟩ := three hl
        show _ * Coeff.evalDict _ _ = Coeff.evalDict _ _
        rw [habc [a, b, c] rfl, e]
        simp [mono3, Coeff.evalMonom, mul_assoc]
  · rw [if_neg h1] at hC
    simp only [h1, Bool.false_eq_true, if_false] at hs
    by_cases h2 : co.cancelK.1 > 1
    · rw [if_pos h2] at hC
      simp only [h2, if_true] at hs
      cases hr : solver (some (if co.cancelK.1 % 2 = 0 then false else real)) co.cancelK.2 with
      | error e => rw [hr] at hC; cases hC
      | ok r =>
        rw [hr] at hC
        cases r with
        | none => cases hC
        | some D =>
          cases hC
          refine ((hs _ _ hr).power (by omega)).congr fun a b c => ?_
          exact (hck [a, b, c] (by rw [h.nvars]; rfl)).symm
    · rw [if_neg h2] at hC
      simp only [h2, if_false] at hs
      exact hs _ _ hC

/-! ### Cyclic polynomials -/

/-- The contracts of what the cyclic solvers take from outside. -/
structure CycExt.Sound (X : CycExt K) : Prop where
  order : ∀ l, (X.order l).Perm l
  five : ∀ co, (X.five co).Sound
  six : ∀ co, (X.six co).Sound
  seven : ∀ co, (X.seven co).Sound
  eight : ∀ co, (X.eight co).Sound
  nine : ∀ co, (X.nine co).Sound
  dense : ∀ d, SoundC d X.dense
  recur : ∀ d, SoundC d X.recur
  prover : SoundU X.prover

/-- The polynomials for which one of the solvers has a known fault: multiples of `s(a^d)` (C68), doubtful quintics (C92), nonics with `a b^8` or an
exact root below `-1` (C79), degrees that are proper multiples of seven (C69). -/
def Suspect (X : CycExt K) (co : Coeff K) : Prop :=
  (4 < co.degree ∧ co.coeffs.length ≤ 6 ∧ monomClasses co = [⟨co.degree, 0, 0⟩]) ∨
  (co.degree = 5 ∧ Doubtful (X.five co) (Quintic.ofCoeff co)) ∨
  (co.degree = 9 ∧ (co.call [1, 8, 0] ≠ 0 ∨ ∃ t, Cand.exact t ∈ (X.nine co).treeX (Nonic.ofCoeff co) ∧ t < -1)) ∨
  (7 ∣ co.degree ∧ 9 < co.degree)

theorem poly_zero {co : Coeff K} (h : Table co) (hd : co.degree = 0) (a b c : K) : polyOf co a b c = co.call [0, 0, 0] := by
  show Coeff.evalDict _ _ = _
  rw [Coeff.evalDict_hom co h.wf 0 (fun kv hkv => by rw [h.hom kv hkv, hd]), h.nvars]
  have e : generatePartitions 3 0 true = [[0, 0, 0]] := by decide +kernel
  rw [e]
  simp [Coeff.evalMonom]

theorem poly_one {co : Coeff K} (h : Table co) (hd : co.degree = 1) (a b c : K) :
    polyOf co a b c = co.call [1, 0, 0] * a + co.call [0, 1, 0] * b + co.call [0, 0, 1] * c := by
  show Coeff.evalDict _ _ = _
  rw [Coeff.evalDict_hom co h.wf 1 (fun kv hkv => by rw [h.hom kv hkv, hd]), h.nvars]
  have e : generatePartitions 3 1 true = [[1, 0, 0], [0, 1, 0], [0, 0, 1]] := by decide +kernel
  rw [e]
  simp [Coeff.evalMonom]
  ring

theorem quadratic3_value {co : Coeff K} (h : Table co) (ht : Turns co) (hd : co.degree = 2) {C : Cert K} (hC : quadratic3 co = .ok (some C)) : Value (polyOf co) C := by
  refine (quadratic_sound (Except.ok.inj hC)).value.congr fun a b c => ?_
  show _ = Coeff.evalDict _ _
  rw [Coeff.evalDict_hom co h.wf 2 (fun kv hkv => by rw [h.hom kv hkv, hd]), h.nvars]
  have e : generatePartitions 3 2 true = [[2, 0, 0], [1, 1, 0], [1, 0, 1], [0, 2, 0], [0, 1, 1], [0, 0, 2]] := by decide +kernel
  rw [e]
  have e1 := h.cyc ht 2 0 0
  have e2 := h.cyc ht 0 0 2
  have e3 := h.cyc ht 1 1 0
  have e4 := h.cyc ht 1 0 1
  simp only [List.map_cons, List.map_nil, List.sum_cons, List.sum_nil, Coeff.evalMonom, List.zipWith_cons_cons, List.zipWith_nil_right, List.prod_cons, List.prod_nil]
  rw [show co.call [0, 2, 0] = co.call [2, 0, 0] by rw [← h.cyc ht 0 2 0], show co.call [0, 0, 2] = co.call [2, 0, 0] from e1 ▸ rfl]
  rw [show co.call [0, 1, 1] = co.call [1, 1, 0] by rw [e4, e3], e3]
  ring

variable {X : CycExt K}

theorem cubic3_value {co : Coeff K} (h : Table co) (ht : Turns co) (hd : co.degree = 3) {C : Cert K} (hC : cubic3 X co = .ok (some C)) : Value (polyOf co) C :=
  (cubic_holds hC).value.congr fun a b c => (cubic_ofCoeff co h.wf h.nvars (fun kv hkv => by rw [h.hom kv hkv, hd]) (h.isCyclic.2 ht) a b c).symm

theorem quartic3_value {co : Coeff K} (h : Table co) (ht : Turns co) (hd : co.degree = 4) {C : Cert K} (hC : quartic3 X co = .ok (some C)) : Value (polyOf co) C := by
  obtain ⟨r, h1, h2⟩ := quarticSolve_sound X.irr (X.quartRat co) X.approx (X.quartU co) (X.quartXs co) (Quartic.ofCoeff co)
  unfold quartic3 at hC
  rw [h1] at hC
  exact (h2 C (Except.ok.inj hC)).value.congr fun a b c => (quartic_ofCoeff co h.wf h.nvars (fun kv hkv => by rw [h.hom kv hkv, hd]) (h.isCyclic.2 ht) a b c).symm

theorem linear3_value {co : Coeff K} (h : Table co) (hd : co.degree = 1) {C : Cert K} (hC : linear3 co = some C) : Value (polyOf co) C := by
  unfold linear3 at hC
  cases hr : Verif.Sparse.sosLinear co with
  | none => rw [hr] at hC; cases hC
  | some r =>
    rw [hr] at hC
    cases hC
    have hv := (Verif.Sparse.sosLinear_sound co h.wf h.nz (fun kv hkv => by rw [h.hom kv hkv, hd]) (fun _ => by rw [h.nvars]; omega) r hr).1
    have hv' : ∀ a b c : K, Verif.Sparse.linVal r [a, b, c] = polyOf co a b c := fun a b c => hv [a, b, c] (by rw [h.nvars]; rfl)
    cases r with
    | const v => exact value_plain fun a b c _ _ _ => by rw [← hv' a b c]; simp [Verif.Sparse.linVal]
    | cyc u v =>
      refine value_plain fun a b c _ _ _ => ?_
      rw [← hv' a b c]
      simp only [Verif.Sparse.linVal, List.map_cons, List.map_nil, List.sum_cons, List.sum_nil]
      ring
    | poly t =>
      have e : t = co.coeffs := by
        unfold Verif.Sparse.sosLinear at hr
        dsimp only at hr
        generalize (if co.coeffs.isEmpty then [0] else co.coeffs.map (·.2)) = cs at hr
        split_ifs at hr
        · cases hr
        split at hr
        · cases hr
        · cases hr; rfl
        · cases hr; rfl
      subst e
      refine value_plain fun a b c _ _ _ => ?_
      rw [← hv' a b c, List.map_map]
      show _ = (co.coeffs.map fun kv => kv.2 * Coeff.evalMonom kv.1 [a, b, c]).sum
      congr 1
      refine List.map_congr_left fun kv hkv => ?_
      obtain ⟨i, j, k, e⟩ := three (h.len kv hkv)
      simp only [Function.comp_apply, e, mono3, Coeff.evalMonom, List.zipWith_cons_cons, List.zipWith_nil_right, List.prod_cons, List.prod_nil, List.getD_cons_zero, List.getD_cons_succ]
      ring

theorem sparse3_value (hX : X.Sound) {co : Coeff K} (h : Table co) (ht : Turns co) (hn : ¬ Suspect X co) {C : Cert K} (hC : sparse3 X co = .ok (some C)) :
    Value (polyOf co) C := by
  unfold sparse3 at hC
  by_cases h6 : 6 < co.coeffs.length
  · rw [if_pos h6] at hC
    cases hC
  rw [if_neg h6] at hC
  split at hC
  · rename_i hd
    split_ifs at hC
    swap
    · cases hC
    cases hC
    exact value_plain fun a b c _ _ _ => by rw [poly_zero h hd]; simp
  · rename_i hd
    split_ifs at hC
    swap
    · cases hC
    cases hC
    refine value_plain fun a b c _ _ _ => ?_
    have e1 := h.cyc ht 1 0 0
    have e2 := h.cyc ht 0 1 0
    rw [poly_one h hd, ← e2, e1]
    simp
    ring
  · rename_i hd
    exact quadratic3_value h ht hd hC
  · rename_i hd
    exact cubic3_value h ht hd hC
  · rename_i hd
    exact quartic3_value h ht hd hC
  · rename_i h0 h1 h2 h3 h4
    cases hr : sparseAmgm X.fuel X.order co with
    | error e => rw [hr] at hC; cases hC
    | ok r =>
      rw [hr] at hC
      cases r with
      | none => cases hC
      | some E =>
        cases hC
        refine value_ofVal fun a b c ha hb hc => ?_
        refine (sparseAmgm_sound_partial X.fuel X.order hX.order co h.wf h.nvars co.degree h.hom rfl (h.isCyclic.2 ht) (fun e => hn (.inl ⟨?_, ?_, e⟩)) hr a b c ha hb hc).1
        · by_contra hlt
          have : co.degree = 0 ∨ co.degree = 1 ∨ co.degree = 2 ∨ co.degree = 3 ∨ co.degree = 4 := by omega
          rcases this with e | e | e | e | e
          · exact h0 e
          · exact h1 e
          · exact h2 e
          · exact h3 e
          · exact h4 e
        · omega

theorem table3_value (hX : X.Sound) {real : Bool} {co : Coeff K} (h : Table co) (ht : Turns co) (hn : ¬ Suspect X co) {C : Cert K} (hC : table3 X real co = .ok (some C)) :
    Value (polyOf co) C := by
  have hom : ∀ d, co.degree = d → co.Hom d := fun d hd kv hkv => by rw [h.hom kv hkv, hd]
  have hc := h.isCyclic.2 ht
  unfold table3 at hC
  split at hC <;> rename_i hd
  · exact linear3_value h hd (Except.ok.inj hC)
  · exact quadratic3_value h ht hd hC
  · exact cubic3_value h ht hd hC
  · exact quartic3_value h ht hd hC
  · exact (quintic_sound_partial (hX.five co) (fun e => hn (.inr (.inl ⟨hd, e⟩))) hC).value.congr fun a b c => (quintic_ofCoeff co h.wf h.nvars (hom 5 hd) hc a b c).symm
  · exact (sexticSolve_coeff_ident (hX.six co) co h.wf h.nvars (hom 6 hd) hc hC).value
  · have hA := septicSolve_answer (hX.seven co) hC
    exact hA.ident.value.congr fun a b c => (septic_ofCoeff co h.wf h.nvars (hom 7 hd) hc a b c).symm
  · exact (octicSolve_poly (hX.eight co) co h.wf h.nvars (hom 8 hd) hc hC).value
  · refine (nonicSolve_poly_partial (hX.nine co) co h.wf h.nvars (hom 9 hd) hc ?_ ?_ hC).value
    · by_contra e
      exact hn (.inr (.inr (.inl ⟨hd, .inl e⟩)))
    · intro t ht'
      by_contra e
      exact hn (.inr (.inr (.inl ⟨hd, .inr ⟨t, ht', not_le.1 e⟩⟩)))
  · cases hC

/-- Every answer of the three cyclic solvers has the value of the polynomial. -/
theorem cycChain_value (hX : X.Sound) {real : Option Bool} {co : Coeff K} (h : Table co) (ht : Turns co) (hn : ¬ Suspect X co) {C : Cert K}
    (hC : cycChain X real co = .ok (some C)) : Value (polyOf co) C := by
  have hm := chain3_some hC
  simp only [List.mem_cons, List.not_mem_nil, or_false] at hm
  rcases hm with hm | hm | hm
  · exact sparse3_value hX h ht hn hm.symm
  · exact table3_value hX h ht hn hm.symm
  · cases hr : heuristic X.dense X.recur X.prover co with
    | error e => rw [hr] at hm; cases hm
    | ok r =>
      rw [hr] at hm
      cases r with
      | none => cases hm
      | some E =>
        cases hm
        refine value_ofVal fun a b c ha hb hc => ?_
        refine (heuristic_sound_partial (hX.dense _) (hX.recur _) hX.prover (h.cycIn ht) (fun h7 => ?_) hr a b c ha hb hc).1
        by_contra h7'
        have hle : 6 < co.degree := by
          by_contra hle
          unfold heuristic at hr
          rw [if_pos (by omega)] at hr
          cases hr
        exact hn (.inr (.inr (.inr ⟨h7, by omega⟩)))

/-- **C93 (partial: the polynomial without its factors is not suspect).** Every answer for a cyclic ternary form has the value of the form, at all positive
points that are not all equal.  For suspect forms this is false (`cyclic3_doubled_wrong`). -/
theorem cyclic3_value_partial (hX : X.Sound) {real : Bool} {co : Coeff K} (h : Table co) (ht : Turns co) (hn : ¬ Suspect X (core co)) {C : Cert K}
    (hC : cyclic3 X real co = .ok (some C)) : Value (polyOf co) C :=
  extract3_value h (fun _ _ hr => cycChain_value hX h.core.1 (h.core.2 ht) hn hr) hC

/-! ### Other polynomials -/

/-- The quartics whose answer may be wrong: the coefficients that the test of the symmetry does not compare are different. -/
def Uneven (co : Coeff K) : Prop := ∃ k, [0, 1, 2].find? (q4Test co) = some k ∧ co.call (q4Map k 1 0) ≠ co.call (q4Map k 0 1)

theorem poly_four {co : Coeff K} (h : Table co) (hd : co.degree = 4) {k : ℕ} (hk : k < 3) (hq : q4Test co k = true) (he : co.call (q4Map k 1 0) = co.call (q4Map k 0 1))
    (a b c : K) : q4Name k (SymQuartic.ofOrder co k).poly a b c = polyOf co a b c := by
  show _ = Coeff.evalDict _ _
  rw [Coeff.evalDict_hom co h.wf 4 (fun kv hkv => by rw [h.hom kv hkv, hd]), h.nvars]
  have e : generatePartitions 3 4 true = [[4, 0, 0], [3, 1, 0], [3, 0, 1], [2, 2, 0], [2, 1, 1], [2, 0, 2], [1, 3, 0], [1, 2, 1], [1, 1, 2], [1, 0, 3],
    [0, 4, 0], [0, 3, 1], [0, 2, 2], [0, 1, 3], [0, 0, 4]] := by decide +kernel
  rw [e]
  simp only [q4Test, List.all_cons, List.all_nil, Bool.and_true, Bool.and_eq_true, decide_eq_true_eq] at hq
  obtain ⟨q1, q2, q3, q4, q5⟩ := hq
  match k, hk with
  | 0, _ =>
    simp only [q4Map] at q1 q2 q3 q4 q5 he
    norm_num at q1 q2 q3 q4 q5 he
    simp only [q4Name, SymQuartic.poly, SymQuartic.ofOrder, q4Map, List.map_cons, List.map_nil, List.sum_cons, List.sum_nil, Coeff.evalMonom, List.zipWith_cons_cons,
      List.zipWith_nil_right, List.prod_cons, List.prod_nil]
    norm_num
    rw [← q1, ← q2, ← q3, ← q4, ← q5, ← he]
    ring
  | 1, _ =>
    simp only [q4Map] at q1 q2 q3 q4 q5 he
    norm_num at q1 q2 q3 q4 q5 he
    simp only [q4Name, SymQuartic.poly, SymQuartic.ofOrder, q4Map, List.map_cons, List.map_nil, List.sum_cons, List.sum_nil, Coeff.evalMonom, List.zipWith_cons_cons,
      List.zipWith_nil_right, List.prod_cons, List.prod_nil]
    norm_num
    rw [← q1, ← q2, ← q3, ← q4, ← q5, ← he]
    ring
  | 2, _ =>
    simp only [q4Map] at q1 q2 q3 q4 q5 he
    norm_num at q1 q2 q3 q4 q5 he
    simp only [q4Name, SymQuartic.poly, SymQuartic.ofOrder, q4Map, List.map_cons, List.map_nil, List.sum_cons, List.sum_nil, Coeff.evalMonom, List.zipWith_cons_cons,
      List.zipWith_nil_right, List.prod_cons, List.prod_nil]
    norm_num
    rw [← q1, ← q2, ← q3, ← q4, ← q5, ← he]
    ring

theorem num_names (k : ℕ) (C : Cert K) (a b c : K) : (C.names k).num a b c = q4Name k C.num a b c := by
  match k with
  | 0 => simp [Cert.num, Cert.names, q4Name, List.map_map, Function.comp_def]
  | 1 => simp [Cert.num, Cert.names, q4Name, List.map_map, Function.comp_def]
  | k + 2 => simp [Cert.num, Cert.names, q4Name, List.map_map, Function.comp_def]

theorem names_value {f : Val3 K} {C : Cert K} (h : Proves Everywhere f C) (k : ℕ) : Value (q4Name k f) (C.names k) := by
  match k with
  | 0 => exact ⟨fun a b c _ _ _ => by rw [num_names]; exact h.identity a b c, fun a b c ha hb hc _ => h.pos a b c trivial fun e => ha.ne' e.1⟩
  | 1 => exact ⟨fun a b c _ _ _ => by rw [num_names]; exact h.identity a c b, fun a b c ha hb hc _ => h.pos a c b trivial fun e => ha.ne' e.1⟩
  | k + 2 => exact ⟨fun a b c _ _ _ => by rw [num_names]; exact h.identity b c a, fun a b c ha hb hc _ => h.pos b c a trivial fun e => hb.ne' e.1⟩

/-- **C93 (partial: the two coefficients that are not compared are equal).** An answer for a quartic that is symmetric in two variables has the value of the quartic.
Without the hypothesis this is false (`acyclicQuartic_wrong`). -/
theorem acyclicQuartic_value_partial {rational : Bool} {cands : SymQuartic K → List (K × K × K × K)} {co : Coeff K} (h : Table co) (hd : co.degree = 4)
    (hu : ¬ Uneven co) {C : Cert K} (hC : acyclicQuartic rational cands co = .ok (some C)) : Value (polyOf co) C := by
  unfold acyclicQuartic at hC
  by_cases h1 : rational = false
  · rw [if_pos h1] at hC; cases hC
  rw [if_neg h1] at hC
  split at hC
  · cases hC
  rename_i k hk
  dsimp only at hC
  split_ifs at hC with h2 h3
  · cases hC
  · cases hC
  cases hr : symQuartic (SymQuartic.ofOrder co k) (cands (SymQuartic.ofOrder co k)) with
  | error e => rw [hr] at hC; cases hC
  | ok r =>
    rw [hr] at hC
    cases r with
    | none => cases hC
    | some D =>
      cases hC
      have hmem := List.mem_of_find?_eq_some hk
      have hk3 : k < 3 := by
        simp only [List.mem_cons, List.not_mem_nil, or_false] at hmem
        omega
      refine (names_value (symQuartic_sound hr) k).congr (poly_four h hd hk3 (List.find?_some hk) ?_)
      by_contra he
      exact hu ⟨k, hk, he⟩

/-- Every answer of this solver is a quotient of sums with nonnegative weights whose expressions are nonnegative at all real points. -/
theorem acyclicQuartic_terms {rational : Bool} {cands : SymQuartic K → List (K × K × K × K)} {co : Coeff K} {C : Cert K}
    (hC : acyclicQuartic rational cands co = .ok (some C)) : (∀ t ∈ C.terms, 0 ≤ t.1 ∧ ∀ a b c, 0 ≤ t.2 a b c) ∧ PosIn C := by
  unfold acyclicQuartic at hC
  by_cases h1 : rational = false
  · rw [if_pos h1] at hC; cases hC
  rw [if_neg h1] at hC
  split at hC
  · cases hC
  rename_i k hk
  dsimp only at hC
  split_ifs at hC with h2 h3
  · cases hC
  · cases hC
  cases hr : symQuartic (SymQuartic.ofOrder co k) (cands (SymQuartic.ofOrder co k)) with
  | error e => rw [hr] at hC; cases hC
  | ok r =>
    rw [hr] at hC
    cases r with
    | none => cases hC
    | some D =>
      cases hC
      have hP := symQuartic_sound hr
      refine ⟨?_, (names_value hP k).pos⟩
      intro t ht
      obtain ⟨u, hu, rfl⟩ := List.mem_map.1 ht
      refine ⟨hP.weights u hu, fun a b c => ?_⟩
      match k with
      | 0 => exact hP.exprs u hu a b c trivial
      | 1 => exact hP.exprs u hu a c b trivial
      | k + 2 => exact hP.exprs u hu b c a trivial

theorem acySparse_value {co : Coeff K} (h : Table co) {C : Cert K} (hC : acySparse co = some C) : Value (polyOf co) C := by
  unfold acySparse at hC
  split_ifs at hC with hd hs
  cases hC
  refine value_plain fun a b c _ _ _ => ?_
  rw [poly_one h hd]
  simp
  ring

/-- **C93 (partial).** Every answer for a ternary form that is not cyclic has the value of the form. -/
theorem acyclic3_value_partial {Y : AcyExt K} (hsq : IsSqrt Y.sq) {real : Bool} {co : Coeff K} (h : Table co) (hu : (core co).degree = 4 → ¬ Uneven (core co)) {C : Cert K}
    (hC : acyclic3 Y real co = .ok (some C)) : Value (polyOf co) C := by
  refine extract3_value h (fun _ D hr => ?_) hC
  have hT := h.core.1
  generalize core co = c' at hr hT hu
  have hom : ∀ d, c'.degree = d → c'.Hom d := fun d hd kv hkv => by rw [hT.hom kv hkv, hd]
  have hm := chain3_some hr
  simp only [List.mem_cons, List.not_mem_nil, or_false] at hm
  rcases hm with hm | hm
  · exact acySparse_value hT (Except.ok.inj hm).symm
  · have hm := hm.symm
    unfold acyTable at hm
    split at hm <;> rename_i hd
    · exact linear3_value hT hd (Except.ok.inj hm)
    · exact ((acyclicQuadratic_polynomial c' hT.wf hT.nvars (hom 2 hd)).2 D hm).value
    · obtain ⟨h1, -, h2, -⟩ := acyclicCubic_sound hsq hT.wf hT.nvars (hom 3 hd) hm
      exact ⟨fun a b c _ _ _ => h1 a b c, fun a b c ha hb hc _ => (h2 a b c ha hb hc).1⟩
    · exact acyclicQuartic_value_partial hT hd (hu hd) hm
    · cases hm

/-! ### The entry point -/

theorem poly_ray (l : List (List ℕ × K)) (a b c d1 d2 d3 : K) : ∃ q : Polynomial K, ∀ t, q.eval t = Coeff.evalDict l [a + t * d1, b + t * d2, c + t * d3] := by
  induction l with
  | nil => exact ⟨0, fun t => by simp [Coeff.evalDict]⟩
  | cons kv l ih =>
    obtain ⟨q, hq⟩ := ih
    have hm : ∀ (m : List ℕ) (x : List (K × K)), ∃ p : Polynomial K, ∀ t, p.eval t = Coeff.evalMonom m (x.map fun z => z.1 + t * z.2) := by
      intro m
      induction m with
      | nil => intro x; exact ⟨1, fun t => by simp [Coeff.evalMonom]⟩
      | cons e m ihm =>
        intro x
        cases x with
        | nil => exact ⟨1, fun t => by simp [Coeff.evalMonom]⟩
        | cons z x =>
          obtain ⟨p, hp⟩ := ihm x
          refine ⟨(Polynomial.C z.1 + Polynomial.X * Polynomial.C z.2) ^ e * p, fun t => ?_⟩
          rw [Polynomial.eval_mul, hp]
          simp only [Coeff.evalMonom, List.map_cons, List.zipWith_cons_cons, List.prod_cons, Polynomial.eval_pow, Polynomial.eval_add, Polynomial.eval_mul, Polynomial.eval_C,
            Polynomial.eval_X]
    obtain ⟨p, hp⟩ := hm kv.1 [(a, d1), (b, d2), (c, d3)]
    refine ⟨Polynomial.C kv.2 * p + q, fun t => ?_⟩
    rw [Polynomial.eval_add, Polynomial.eval_mul, hp, hq]
    simp [Coeff.evalDict]

/-- A polynomial that is nonnegative at the positive points that are not all equal is nonnegative on the octant. -/
theorem octant_of_pos {co : Coeff K} (h : ∀ a b c, 0 < a → 0 < b → 0 < c → ¬ (a = b ∧ b = c) → 0 ≤ polyOf co a b c) {a b c : K} (ho : Octant a b c) :
    0 ≤ polyOf co a b c := by
  obtain ⟨ha, hb, hc⟩ := ho
  have key : ∀ d1 d2 d3 : K, 0 < d1 → 0 < d2 → 0 < d3 → (∀ t, 0 < t → ¬ (a + t * d1 = b + t * d2 ∧ b + t * d2 = c + t * d3)) → 0 ≤ polyOf co a b c := by
    intro d1 d2 d3 p1 p2 p3 hne
    obtain ⟨q, hq⟩ := poly_ray co.coeffs a b c d1 d2 d3
    have := eval_zero_nonneg q (fun t ht => by
      rw [hq]
      exact h _ _ _ (add_pos_of_nonneg_of_pos ha (mul_pos ht p1)) (add_pos_of_nonneg_of_pos hb (mul_pos ht p2)) (add_pos_of_nonneg_of_pos hc (mul_pos ht p3)) (hne t ht))
    rw [hq] at this
    simpa [polyOf] using this
  by_cases he : a = b ∧ b = c
  · refine key 1 2 3 one_pos two_pos three_pos fun t ht ⟨h1, _⟩ => ?_
    rw [he.1] at h1
    linarith
  · refine key 1 1 1 one_pos one_pos one_pos fun t ht ⟨h1, h2⟩ => he ⟨?_, ?_⟩
    · linarith
    · linarith

/-- **C93 (partial: no known fault is hit).** If the entry point for three variables returns an expression and all variables that its constraints speak about are
constrained to be nonnegative, the polynomial is nonnegative on the octant.  The constraints are the normalised ones (C34) with a positive leading coefficient; others
are skipped (solver.py 121). -/
theorem structural3_nonneg_partial (hX : X.Sound) {Y : AcyExt K} {S : Verif.Extract.Sem K} {expandOk : Verif.Extract.Ex K → Bool}
    {tree : Cert K → Verif.Extract.Ex K} {cons : List (Verif.Extract.MonoCon K)} {ncon : ℕ} {co : Coeff K} (h : Table co)
    (hn : Turns co → ¬ Suspect X (core co)) (hsq : ¬ Turns co → IsSqrt Y.sq) (hu : (core co).degree = 4 → ¬ Uneven (core co))
    (hfn : ∀ k ρ, 0 ≤ S.fn k ρ) (hfrac : ∀ b q, 0 ≤ b → 0 ≤ S.frac b q) (hsafe : ∀ C, (if co.isCyclicDefault then cyclic3 X true co else acyclic3 Y true co) = .ok (some C) → Verif.Extract.fracSafe (tree C) = true)
    (htree : ∀ C, (if co.isCyclicDefault then cyclic3 X true co else acyclic3 Y true co) = .ok (some C) → ∀ ρ, 0 < ρ 0 → 0 < ρ 1 → 0 < ρ 2 → 0 < C.den (ρ 0) (ρ 1) (ρ 2) → Verif.Extract.eval S (tree C) ρ ρ = C.num (ρ 0) (ρ 1) (ρ 2) / C.den (ρ 0) (ρ 1) (ρ 2))
    (hcons : ∀ c ∈ cons, c.sym < 3 ∧ c.deg = 1 ∧ 0 < c.lc) {r : Verif.Extract.Ex K}
    (hr : structural3 X Y S expandOk tree cons ncon co = .ok (some r)) {a b c : K} (ho : Octant a b c) : 0 ≤ Coeff.evalDict co.coeffs [a, b, c] := by
  refine octant_of_pos (co := co) (fun a b c ha hb hc hne => ?_) ho
  unfold structural3 at hr
  split_ifs at hr with h1 h2 h3
  all_goals try cases hr
  all_goals
    split at hr
    · split_ifs at hr
      cases hr
    · cases hr
    rename_i C hC
    have hv : Value (polyOf co) C := by
      first
      | exact cyclic3_value_partial hX h (h.isCyclic.1 (by assumption)) (hn (h.isCyclic.1 (by assumption))) hC
      | exact acyclic3_value_partial (hsq fun e => absurd (h.isCyclic.2 e) (by assumption)) h hu hC
    have hf := Except.ok.inj hr
    have hor : (if co.isCyclicDefault then cyclic3 X true co else acyclic3 Y true co) = .ok (some C) := by
      first
      | (rw [if_pos (by assumption)]; exact hC)
      | (rw [if_neg (by assumption)]; exact hC)
    let ρ : ℕ → K := fun n => match n with | 0 => a | 1 => b | _ => c
    have hnn := Verif.Extract.finish_sound S expandOk cons (tree C) r hfn hfrac (hsafe C hor) (fun k hk => ⟨(hcons k hk).2.1, (hcons k hk).2.2.ne'⟩) hf ρ (fun k hk => by
      refine mul_nonneg (hcons k hk).2.2.le (pow_nonneg ?_ _)
      have := (hcons k hk).1
      match k.sym, this with
      | 0, _ => exact ha.le
      | 1, _ => exact hb.le
      | 2, _ => exact hc.le)
    have hden := hv.pos a b c ha hb hc hne
    rw [htree C hor ρ ha hb hc hden] at hnn
    change 0 ≤ C.num a b c / C.den a b c at hnn
    rwa [hv.identity a b c ha hb hc, mul_div_cancel_left₀ _ hden.ne'] at hnn

/-- Without constraints a form of odd degree gets no answer. -/
theorem structural3_odd {Y : AcyExt K} {S : Verif.Extract.Sem K} {expandOk : Verif.Extract.Ex K → Bool} {tree : Cert K → Verif.Extract.Ex K}
    {cons : List (Verif.Extract.MonoCon K)} {co : Coeff K} (h : Table co) (hd : co.degree % 2 = 1) : structural3 X Y S expandOk tree cons 0 co = .ok none := by
  unfold structural3
  rw [if_neg (by simp [h.nvars]), if_neg, if_pos ⟨rfl, hd⟩]
  rw [Bool.not_eq_false, List.all_eq_true]
  intro kv hkv
  simpa using h.hom kv hkv

/-- The two exceptions of the solvers never leave the entry point. -/
theorem structural3_caught {Y : AcyExt K} {S : Verif.Extract.Sem K} {expandOk : Verif.Extract.Ex K → Bool} {tree : Cert K → Verif.Extract.Ex K}
    {cons : List (Verif.Extract.MonoCon K)} {ncon : ℕ} {co : Coeff K} {e : PyErr} (h : structural3 X Y S expandOk tree cons ncon co = .error e) :
    e ≠ .custom "PolynomialUnsolvableError" ∧ e ≠ .custom "PolynomialNonpositiveError" := by
  unfold structural3 at h
  by_cases h1 : co.nvars ≠ 3
  · rw [if_pos h1] at h; cases h; exact ⟨nofun, nofun⟩
  rw [if_neg h1] at h
  by_cases h2 : (co.coeffs.all fun kv => kv.1.sum == co.degree) = false
  · rw [if_pos h2] at h; cases h; exact ⟨nofun, nofun⟩
  rw [if_neg h2] at h
  by_cases h3 : ncon = 0 ∧ co.degree % 2 = 1
  · rw [if_pos h3] at h; cases h
  rw [if_neg h3] at h
  split at h
  · rename_i e' _
    by_cases he : e' = .custom "PolynomialUnsolvableError" ∨ e' = .custom "PolynomialNonpositiveError"
    · rw [if_pos he] at h; cases h
    · rw [if_neg he] at h
      cases h
      exact not_or.1 he
  · cases h
  · cases h

end Verif.Ternary
