import Verif.Props.SdpSolveDual
import Mathlib.Tactic.IntervalCases

/-!
# C90: concrete cases and the faults of `solve`, `register_y` and `S_from_y`
-/

set_option linter.unusedSectionVars false

namespace Verif.SdpSolve
open Verif Verif.Sdp Verif.SdpUtils Finset

variable {K : Type*} [Field K] [LinearOrder K] [IsStrictOrderedRing K]

/-! ## Concrete cases -/

/-- an external part over the rationals: no simplification, rounding to a nearest integer, the entry of a `1 × 1` matrix -/
def ext1 : Ext ℚ := ⟨fun x _ => x, fun x => (x + 1 / 2).floor, Rat.den, fun _ M => M 0 0⟩

theorem ext1_sound : ext1.Sound := by
  refine ⟨fun x => ?_⟩
  have h1 : (((x + 1 / 2).floor : ℤ) : ℚ) ≤ x + 1 / 2 := Int.floor_le (x + 1 / 2)
  have h2 : x + 1 / 2 < (((x + 1 / 2).floor : ℤ) : ℚ) + 1 := Int.lt_floor_add_one (x + 1 / 2)
  show |(((x + 1 / 2).floor : ℤ) : ℚ) - x| ≤ 1 / 2
  rw [abs_le]
  constructor <;> linarith

/-- `[[1, y], [y, 2]]` -/
def dual1 : Dual ℚ := ⟨1, [⟨2, fun k => [1, 0, 0, 2].getD k 0, fun k _ => [0, 1, 1, 0].getD k 0⟩]⟩

/-- the single configuration gives `y = 1/3 + 10⁻⁹` -/
def numer1 : Unit → Except PyErr (Option (List ℚ)) := fun _ => .ok (some [1 / 3 + 1 / 10 ^ 9])

/-- a numerical solver with large errors: the exact search still ends with a certified solution -/
theorem solve_ex : (match solve ext1 (dualProb dual1) numer1 [()] [] 1 0 St.init [] with
    | .ok (b, st, _) => b && (st.y.isSome) && decide (st.ys = [[1 / 3 + 1 / 10 ^ 9]])
    | .error _ => false) = true := by decide +kernel

theorem dual1_sym : ∀ b ∈ dual1.blocks, SymPencil dual1.dof b := by
  intro b hb i j hi hj
  simp only [dual1, List.mem_singleton] at hb
  subst hb
  simp only at hi hj
  interval_cases i <;> interval_cases j <;> simp

theorem dual1_margin : Margin dual1 (1 / 4) fun l => ([1 / 3 + 1 / 10 ^ 9] : List ℚ).getD l 0 := by
  intro b hb x
  simp only [dual1, List.mem_singleton] at hb
  subst hb
  simp only [dual1, Block.mat, Finset.sum_range_succ, Finset.sum_range_zero]
  simp
  nlinarith [sq_nonneg (x 0 + x 1), sq_nonneg (x 0 - x 1), sq_nonneg (x 0), sq_nonneg (x 1)]

theorem dual1_bounded : Bounded dual1 1 := by
  intro b hb i j l hi hj _
  simp only [dual1, List.mem_singleton] at hb
  subst hb
  simp only at hi hj
  interval_cases i <;> interval_cases j <;> simp

/-- the hypotheses of `solve_complete` are met: the theorem predicts the answer of `solve_ex` -/
theorem solve_complete_ex : ∃ st' ups', solve ext1 (dualProb dual1) numer1 [()] [] 1 0 St.init [] = .ok (true, st', ups') := by
  refine solve_complete ext1 ext1_sound dual1 dual1_sym 1 (1 / 4) 2 dual1_bounded (by norm_num) ?_ ?_ numer1 [()] [] 1 St.init [] trivial ?_ ?_ ?_
  · intro b hb; simp only [dual1, List.mem_singleton] at hb; subst hb; exact le_refl _
  · simp only [dual1]; norm_num
  · intro y hy; cases hy
  · intro c _
    refine ⟨_, rfl, fun y hy => ?_⟩
    cases hy
    exact ⟨rfl, dual1_margin⟩
  · exact ⟨(), by simp [chooseConfigs, dual1], by simp [numer1]⟩

/-- `solve_sound` applied to the case above -/
theorem solve_sound_ex : ∃ st', Certified (dualProb dual1) st' := by
  obtain ⟨st', ups', h⟩ := solve_complete_ex
  exact ⟨st', (solve_sound ext1 _ (dual_sym dual1 dual1_sym) numer1 [()] [] 1 St.init st' [] ups' trivial h).1⟩

/-! ## Faults -/

theorem unpackAll_nested (r : LDL K) (l : List (Pack K)) : unpackAll (Pack.nested r :: l) = .error .valueError := rfl

theorem registerY_state (E : Ext K) (P : Prob K) (st st' : St K) (kind : Kind) (y : List K) (pj pt : Bool)
    (h : registerY E P st kind y pj pt = .ok st') : ∃ (Ss : List (Mat K)) (rs : List (LDL K)), st'.S = some Ss ∧ st'.dec = some (rs.map Pack.pair) ∧ rs.length = Ss.length ∧
      ∃ y2, P.mats y2 = .ok Ss := by
  unfold registerY at h
  split_ifs at h
  cases hp : P.project kind y with
  | error e => rw [hp] at h; cases h
  | ok q =>
    obtain ⟨y2, same⟩ := q
    rw [hp] at h
    dsimp only at h
    by_cases hc : (!same && !pj) = true
    · rw [if_pos hc] at h; cases h
    · rw [if_neg hc] at h
      cases hm : P.mats y2 with
      | error e => rw [hm] at h; cases h
      | ok Ss =>
        rw [hm] at h
        dsimp only at h
        cases hd : decompAll E pt Ss with
        | error e => rw [hd] at h; cases h
        | ok o =>
          rw [hd] at h
          cases o with
          | none => cases h
          | some rs =>
            cases h
            exact ⟨Ss, rs, rfl, rfl, decompAll_length E pt Ss rs hd, y2, hm⟩

/-- **C90 violated (`allow_numer ≥ 3`).** Whenever `solve` accepts a numerical solution at once, on a problem with at least
one matrix, the decompositions it leaves are tuples with one element: reading `U, S = decompositions[key]` raises
`ValueError`, and so does building the answer of `SDPSOS`. -/
theorem solve_forced_shape {C : Type*} (E : Ext K) (P : Prob K) (hne : ∀ y, P.mats y ≠ .ok []) (numer : C → Except PyErr (Option (List K)))
    (given defaults : List C) (useDefault allow : ℕ) (ha : 3 ≤ allow) (st st' : St K)
    (h : solve E P numer given defaults useDefault allow st [] = .ok (true, st', [])) :
    ∃ ds, st'.dec = some ds ∧ unpackAll ds = .error .valueError := by
  unfold solve at h
  generalize chooseConfigs P.dof (if ([] : List (Up K)) = [] then useDefault else 1) given defaults = cs at h
  have key : ∀ (cs : List C) (st st1 : St K) (o : Option ((Kind × List K) × List (Entry K))), configLoop E P numer allow cs st = .ok (st1, o) →
      (o = none → st1 = st) ∧ ∀ r, o = some r → ∃ S q l, r.2 = Entry.couple S q :: l := by
    intro cs
    induction cs with
    | nil => intro st st1 o h; unfold configLoop at h; cases h; exact ⟨fun _ => rfl, fun r hr => by cases hr⟩
    | cons c cs ih =>
      intro st st1 o h
      unfold configLoop at h
      cases hn : numer c with
      | error e => rw [hn] at h; cases h
      | ok on =>
        rw [hn] at h
        cases on with
        | none => exact ih st st1 o h
        | some y =>
          dsimp only at h
          rw [if_pos ha] at h
          cases hr : registerY E P { st with ys := st.ys ++ [y] } .numpy y true true with
          | error e => rw [hr] at h; cases h
          | ok st2 =>
            rw [hr] at h
            obtain ⟨Ss, rs, e1, e2, e3, y2, e4⟩ := registerY_state E P _ st2 .numpy y true true hr
            cases h
            refine ⟨(fun hn => (by cases hn)), fun r hr' => ?_⟩
            cases hr'
            rw [e1, e2]
            cases Ss with
            | nil => exact absurd e4 (hne y2)
            | cons S Ss =>
              cases rs with
              | nil => simp at e3
              | cons q rs => exact ⟨S, q, _, rfl⟩
  cases hs : solveConfigs E P numer allow cs st with
  | error e => rw [hs] at h; cases h
  | ok q =>
    obtain ⟨st1, o⟩ := q
    rw [hs] at h
    unfold solveConfigs at hs
    cases hc : configLoop E P numer allow cs st with
    | error e => rw [hc] at hs; cases hs
    | ok q =>
      obtain ⟨s, oo⟩ := q
      rw [hc] at hs
      obtain ⟨k1, k2⟩ := key cs st s oo hc
      cases oo with
      | some r =>
        cases hs
        unfold propagate at h
        cases h
        obtain ⟨S, q, l, hl⟩ := k2 r rfl
        refine ⟨r.2.map Entry.tail, rfl, ?_⟩
        rw [hl, List.map_cons]
        rfl
      | none =>
        dsimp only at hs
        rw [k1 rfl, if_neg (lt_irrefl _)] at hs
        cases hs
        unfold propagate at h
        cases h

/-- a case of `solve_forced_shape`: the documented call `solve(allow_numer=3)` -/
theorem solve_forced_ex : (match solve ext1 (dualProb dual1) numer1 [()] [] 1 3 St.init [] with
    | .ok (b, st, _) => b && decide (st.y.map (fun v => v.2) = some [1 / 3 + 1 / 10 ^ 9]) && (match unpackAll (st.dec.getD []) with
        | .error e => decide (e = .valueError)
        | .ok _ => false)
    | .error _ => false) = true := by decide +kernel

/-- **C90 violated (`allow_numer = 2, 3` on a primal problem).** The vector registered is the one before the projection,
while the matrices belong to the projected one: here `x = 9/10` is stored beside the matrix `[[1]]`. -/
def primal1 : PrimalP ℚ := ⟨1, [1], fun _ _ => 1, fun _ => 1⟩
def lsq1 : PrimalP ℚ → (ℕ → ℚ) → Except PyErr (ℕ → ℚ) := fun p r =>
  if p.m = 1 then .ok fun _ => r 0 else .ok fun _ => (r 0 + r 1) / 2

theorem forced_unprojected : (match solve ext1 (primalProb lsq1 primal1) (fun _ : Unit => .ok (some [9 / 10])) [()] [] 1 3 St.init [] with
    | .ok (b, st, _) => b && decide (st.y.map (fun v => v.2) = some [9 / 10]) && decide ((st.S.getD []).map (fun A => A.2 0 0) = [1])
    | .error _ => false) = true := by decide +kernel

/-- **C90 violated (inconsistent equations).** `register_y` (whose `project` argument promises a vector in the feasible
region) accepts a vector for a primal problem without any solution: the equations `x = 1`, `x = 2` get `x = 3/2`. -/
def primal2 : PrimalP ℚ := ⟨2, [1], fun _ _ => 1, fun i => if i = 0 then 1 else 2⟩

theorem register_infeasible : (match registerY ext1 (primalProb lsq1 primal2) St.init .sympy [1] true false with
    | .ok st => decide (st.y.map (fun v => v.2) = some [3 / 2]) && decide ((st.S.getD []).map (fun A => A.2 0 0) = [3 / 2])
    | .error _ => false) = true ∧ ¬ ∃ z : ℕ → ℚ, primal2.Sat z := by
  refine ⟨by decide +kernel, ?_⟩
  rintro ⟨z, hz⟩
  have h1 := hz 0 (by decide)
  have h2 := hz 1 (by decide)
  have e : primal2.dof = 1 := by decide
  rw [e] at h1 h2
  simp [primal2] at h1 h2
  linarith

/-- the correction `lsq1` for these problems does satisfy the normal equations -/
theorem lsq1_normal : ∀ r : ℕ → ℚ, ∀ dy, lsq1 primal2 r = .ok dy →
    ∀ l, l < primal2.dof → ∑ i ∈ range primal2.m, primal2.A i l * (∑ k ∈ range primal2.dof, primal2.A i k * dy k - r i) = 0 := by
  intro r dy h l _
  have e : primal2.dof = 1 := by decide
  rw [e]
  simp only [lsq1, primal2] at h
  norm_num at h
  subst h
  simp [primal2, Finset.sum_range_succ]
  ring

/-- **C90 violated (`register_y(project=False)` of an array).** On a primal problem every NumPy vector is refused when
`project=False`, also those that satisfy the equations exactly. -/
theorem register_array_refused (E : Ext K) (lsq : PrimalP K → (ℕ → K) → Except PyErr (ℕ → K)) (p : PrimalP K) (st : St K) (y : List K) (pt : Bool) :
    ∃ e, registerY E (primalProb lsq p) st .numpy y false pt = .error e := by
  unfold registerY
  split_ifs with h
  · exact ⟨_, rfl⟩
  · have hp : ∀ y2 same, (primalProb lsq p).project .numpy y = .ok (y2, same) → same = false := by
      intro y2 same hj
      unfold primalProb PrimalP.project at hj
      dsimp only at hj
      split_ifs at hj
      · cases hj; rfl
      · split at hj
        · cases hj
        · cases hj; rfl
    cases hj : (primalProb lsq p).project .numpy y with
    | error e => exact ⟨e, rfl⟩
    | ok q =>
      obtain ⟨y2, same⟩ := q
      have := hp y2 same hj
      subst this
      exact ⟨_, rfl⟩

/-- **C90 violated (masked primal problem without a solution).** If no configuration gives a numerical solution, `solve` of a
primal problem whose zero rows were masked does not return `False` but raises `TypeError`: the transformation reads the
matrices of a child that has none. -/
theorem solve_mask_raises {C : Type*} (E : Ext K) (P : Prob K) (numer : C → Except PyErr (Option (List K))) (given defaults : List C)
    (useDefault allow : ℕ) (hnone : ∀ c, numer c = .ok none) (um : List (ℕ × List ℕ)) (hum : um ≠ []) (Q : Prob K) (st : St K) (us : List (Up K)) :
    solve E P numer given defaults useDefault allow St.init (⟨.mask um, Q, st⟩ :: us) = .error .typeError := by
  have hl : ∀ (cs : List C) (st : St K), configLoop E P numer allow cs st = .ok (st, none) := by
    intro cs
    induction cs with
    | nil => intro st; rfl
    | cons c cs ih => intro st; unfold configLoop; rw [hnone c]; exact ih st
  unfold solve solveConfigs
  rw [hl]
  dsimp only
  rw [if_neg (lt_irrefl _)]
  dsimp only [register]
  unfold propagate
  dsimp only [St.init]
  rw [if_neg hum]

/-- **C90 violated (`use_default_configs`).** A problem that was transformed ignores the argument `use_default_configs`. -/
theorem solve_ignores_default {C : Type*} (E : Ext K) (P : Prob K) (numer : C → Except PyErr (Option (List K))) (given defaults : List C)
    (u1 u2 allow : ℕ) (st : St K) (u : Up K) (us : List (Up K)) :
    solve E P numer given defaults u1 allow st (u :: us) = solve E P numer given defaults u2 allow st (u :: us) := by
  unfold solve
  rw [if_neg (by simp), if_neg (by simp)]

/-- … whereas a problem without transformations obeys it: with `use_default_configs = 0` and no configuration nothing is tried -/
theorem chooseConfigs_zero {C : Type*} (dof : ℕ) (defaults : List C) : chooseConfigs dof 0 [] defaults = [] := by
  unfold chooseConfigs
  simp

/-- `[[y - 1/11]]` and `[[1/11 - y]]`: the only feasible point is `y = 1/11` -/
def dual2 : Dual ℚ := ⟨1, [⟨1, fun _ => -1 / 11, fun _ _ => 1⟩, ⟨1, fun _ => 1 / 11, fun _ _ => -1⟩]⟩

def numer2 : Unit → Except PyErr (Option (List ℚ)) := fun _ => .ok (some [1 / 11 - 1 / 10 ^ 12])

/-- **C90 violated (`allow_numer = 1` on a transformed problem).** The numerical solution is accepted for the child, which
is decomposed with a perturbation, but the parent is registered without one: `solve` raises `ValueError`. -/
theorem solve_numer_parent : (match solve ext1 (dualProb dual2) numer2 [()] [] 1 1 St.init [] with
    | .ok (b, _, _) => b
    | .error _ => false) = true ∧
    (match solve ext1 (dualProb dual2) numer2 [()] [] 1 1 St.init [⟨.affine (fun y => y), dualProb dual2, St.init⟩] with
    | .ok _ => false
    | .error e => decide (e = .valueError)) = true := by decide +kernel

/-- with `allow_numer = 0` the same problem raises instead of answering `False` -/
theorem solve_no_rational : (match solve ext1 (dualProb dual2) numer2 [()] [] 1 0 St.init [] with
    | .ok _ => false
    | .error e => decide (e = .custom "SDPRationalizeError")) = true := by decide +kernel

/-- **C90 violated (symbolic matrices of a primal problem).** `S_from_y()` without an argument never returns the matrix of
symbols of a block of size `m ≥ 2`: it raises, or returns a smaller matrix. -/
theorem symbolic_wrong (m : ℕ) (hm : 2 ≤ m) (sym : ℕ → K) (As : List (Mat K)) (h : symbolicMats [m] sym = .ok As) :
    ∃ A, As = [A] ∧ A.1 < m := by
  unfold symbolicMats sliceMats at h
  have ht : m * (m + 1) / 2 < m ^ 2 := by
    rw [Nat.div_lt_iff_lt_mul (by norm_num)]
    nlinarith
  have hT : ((List.range (([m].map fun m => m * (m + 1) / 2).sum)).map sym).length = m * (m + 1) / 2 := by simp
  have htake : ((List.range (([m].map fun m => m * (m + 1) / 2).sum)).map sym).take (m ^ 2) = (List.range (([m].map fun m => m * (m + 1) / 2).sum)).map sym := by
    rw [List.take_of_length_le]
    omega
  rw [htake] at h
  generalize (List.range (([m].map fun m => m * (m + 1) / 2).sum)).map sym = v at h hT
  have ev : vec2mat (Vec.column v) .direct = reshape v := rfl
  rw [ev] at h
  unfold reshape at h
  dsimp only at h
  by_cases hsq : roundSqrt v.length * roundSqrt v.length = v.length
  · rw [if_pos hsq] at h
    dsimp only at h
    unfold sliceMats at h
    cases h
    refine ⟨_, rfl, ?_⟩
    dsimp only
    by_contra hge
    push Not at hge
    have := Nat.mul_le_mul hge hge
    rw [hsq, hT] at this
    rw [pow_two] at ht
    omega
  · rw [if_neg hsq] at h
    cases h

theorem symbolic_wrong_ex : (match symbolicMats (K := ℚ) [2] (fun i => i) with | .ok _ => false | .error e => decide (e = .valueError)) = true ∧
    (match symbolicMats (K := ℚ) [8] (fun i => i) with | .ok As => decide (As.map (fun A => A.1) = [6]) | .error _ => false) = true := by
  decide +kernel

/-- a matrix that is not symmetric is decomposed without complaint, and the decomposition is that of another matrix -/
def dual3 : Dual ℚ := ⟨0, [⟨2, fun k => [1, 1, 0, 2].getD k 0, fun _ _ => 0⟩]⟩

/-- **C90 violated (matrices that are not symmetric).** Without the symmetry assumed in `solve_sound` the registered
decomposition need not belong to the registered matrix. -/
theorem register_asymmetric : (match registerY ext1 (dualProb dual3) St.init .sympy [] true false with
    | .ok st => match st.S, st.dec with
      | some [A], some [.pair (U, D)] => decide (A.2 1 0 ≠ U 0 1 * D 0 * U 0 0 + U 1 1 * D 1 * U 1 0)
      | _, _ => false
    | .error _ => false) = true := by decide +kernel

end Verif.SdpSolve
