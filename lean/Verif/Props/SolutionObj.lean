import Verif.Model.SolutionObj
import Verif.Props.CycXrep
import Mathlib.Algebra.BigOperators.Ring.List
import Mathlib.Tactic.LinearCombination

/-!
# C41: `is_equal` certifies an identity
-/

namespace Verif.Cyc

section
variable {K : Type*} [Field K] [CharZero K] {I : ℕ → List K → K}

/-- What is assumed of SymPy on a set `D` of points (where no denominator vanishes): the rewriting steps keep values,
`fraction` returns a quotient with a nonzero denominator, a content is not zero; the zero test is right at all points. -/
structure ExtOk (I : ℕ → List K → K) (D : Set (ℕ → K)) (x : Ext) : Prop where
  bld : ∀ e, ∀ env ∈ D, den I (x.bld e) env = den I e env
  together : ∀ e, ∀ env ∈ D, den I (x.together e) env = den I e env
  fraction : ∀ e, ∀ env ∈ D, den I (x.fraction e).2 env ≠ 0 ∧
    den I e env = den I (x.fraction e).1 env / den I (x.fraction e).2 env
  cp : ∀ e, (x.cp e).1 ≠ 0 ∧ ∀ env ∈ D, den I e env = ((x.cp e).1 : K) * den I (x.cp e).2 env
  zero : ∀ e, x.isZero e = some true → ∀ env ∈ D, den I e env = 0

variable {D : Set (ℕ → K)} {x : Ext}

theorem posContent_value (hx : ExtOk I D x) (e : CE) :
    0 < (x.posContent e).1 ∧ ∀ env ∈ D, den I e env = ((x.posContent e).1 : K) * den I (x.posContent e).2 env := by
  obtain ⟨h0, hv⟩ := hx.cp e
  simp only [Ext.posContent]
  split
  · rename_i hlt
    refine ⟨by linarith, fun env he => ?_⟩
    dsimp only
    rw [hx.bld _ env he, hv env he]
    simp only [den, denL, List.prod_cons, List.prod_nil]
    push_cast
    ring
  · rename_i hlt
    exact ⟨lt_of_le_of_ne (not_lt.1 hlt) (Ne.symm h0), hv⟩

theorem spread_value (hx : ExtOk I D x) (c : ℚ × CE) (num : CE)
    (hc : ∀ env ∈ D, den I num env = (c.1 : K) * den I c.2 env) :
    ∀ env ∈ D, den I (x.spread c num) env = den I num env := by
  intro env he
  simp only [Ext.spread]
  split
  · rename_i args heq
    rw [hx.bld _ env he, hc env he, heq]
    simp only [den, denL_eq, List.map_map]
    rw [← List.sum_map_mul_left]
    congr 1
    refine List.map_congr_left fun a _ => ?_
    dsimp only [Function.comp]
    rw [hx.bld _ env he]
    simp [den, denL]
  · rfl

/-- **C41**, second half.  `numerator, multiplier = as_fraction()` have the value of the solution as their quotient, and
the multiplier does not vanish, wherever the denominators of the solution do not. -/
theorem asFraction_value (hx : ExtOk I D x) (tog : Bool) (sol : CE) : ∀ env ∈ D,
    den I (x.asFraction tog sol).2 env ≠ 0 ∧
    den I sol env = den I (x.asFraction tog sol).1 env / den I (x.asFraction tog sol).2 env := by
  intro env he
  have h1 : den I (if tog then x.together sol else sol) env = den I sol env := by
    split
    · exact hx.together sol env he
    · rfl
  simp only [Ext.asFraction]
  set s := if tog then x.together sol else sol with hs
  obtain ⟨hne, hq⟩ := hx.fraction s env he
  obtain ⟨hpos, hm⟩ := posContent_value hx (x.fraction s).2
  have hv0 : ((x.posContent (x.fraction s).2).1 : K) ≠ 0 := by exact_mod_cast hpos.ne'
  have hm' := hm env he
  have hm0 : den I (x.posContent (x.fraction s).2).2 env ≠ 0 := by
    intro h; rw [h, mul_zero] at hm'; exact hne hm'
  refine ⟨hm0, ?_⟩
  rw [spread_value hx _ _ (posContent_value hx _).2 env he, hx.bld _ env he, ← h1, hq, hm']
  simp only [den, denL, List.prod_cons, List.prod_nil]
  push_cast
  field_simp

/-- **C41**, first half.  If `is_equal` is computed (nothing stored before) and returns `True`, then
`problem * multiplier = numerator`, and so `problem = solution`, at every point where the denominators do not vanish. -/
theorem isEqual_sound (hx : ExtOk I D x) (s s' : SolS) (hnone : s.isEq = none) (h : x.isEqual s = .ok (true, s')) :
    ∀ env ∈ D, den I s.problem env * den I (x.asFraction true s.solution).2 env =
        den I (x.asFraction true s.solution).1 env ∧
      den I s.problem env = den I s.solution env := by
  intro env he
  simp only [Ext.isEqual, hnone] at h
  rcases hz : x.isZero (x.difference s) with _ | b
  · rw [hz] at h; simp at h
  · rw [hz] at h
    simp only [Except.ok.injEq, Prod.mk.injEq] at h
    obtain ⟨rfl, -⟩ := h
    have h0 := hx.zero _ hz env he
    simp only [Ext.difference] at h0
    rw [hx.bld _ env he] at h0
    simp only [den, denL, List.sum_cons, List.sum_nil] at h0
    rw [hx.bld _ env he, hx.bld _ env he] at h0
    simp only [den, denL, List.prod_cons, List.prod_nil] at h0
    push_cast at h0
    have h1 : den I s.problem env * den I (x.asFraction true s.solution).2 env =
        den I (x.asFraction true s.solution).1 env := by linear_combination h0
    refine ⟨h1, ?_⟩
    obtain ⟨hne, hq⟩ := asFraction_value hx true s.solution env he
    rw [hq, ← h1]
    field_simp

/-- A stored answer `True` is right. -/
def StoredOk (I : ℕ → List K → K) (D : Set (ℕ → K)) (s : SolS) : Prop :=
  s.isEq = some true → ∀ env ∈ D, den I s.problem env = den I s.solution env

/-- Calls that keep the relation between problem and solution: rewriting that keeps the value of the solution
(`signsimp`, `doit`, `collect`), and a dehomogenisation that replaces a symbol by `1` in both. -/
def OpOk (I : ℕ → List K → K) (D : Set (ℕ → K)) : SolOp → Prop
  | .isEqual => True
  | .asFraction _ _ => True
  | .rewrite f => ∀ e, ∀ env ∈ D, den I (f e) env = den I e env
  | .dehomogenize ps d => ∃ h : ℕ, (∀ env ∈ D, Function.update env h 1 ∈ D) ∧
      (∀ e, ∀ env ∈ D, den I (ps e) env = den I e (Function.update env h 1)) ∧
      (∀ e, ∀ env ∈ D, den I (d e) env = den I e (Function.update env h 1))

theorem step_stored (hx : ExtOk I D x) (s s' : SolS) (op : SolOp) (hop : OpOk I D op) (hs : StoredOk I D s)
    (h : x.step s op = .ok s') : StoredOk I D s' := by
  cases op with
  | isEqual =>
    simp only [Ext.step] at h
    rcases hq : x.isEqual s with e | ⟨b, t⟩
    · rw [hq] at h; simp [Except.map] at h
    · rw [hq] at h
      simp only [Except.map, Except.ok.injEq] at h
      subst h
      rcases hn : s.isEq with _ | b'
      · intro ht
        have hb : b = true ∧ t.problem = s.problem ∧ t.solution = s.solution := by
          have hq' := hq
          simp only [Ext.isEqual, hn] at hq'
          rcases hz : x.isZero (x.difference s) with _ | b''
          · rw [hz] at hq'; simp at hq'
          · rw [hz] at hq'
            simp only [Except.ok.injEq, Prod.mk.injEq] at hq'
            obtain ⟨rfl, rfl⟩ := hq'
            simpa using ht
        rw [hb.1] at hq
        rw [hb.2.1, hb.2.2]
        exact fun env he => (isEqual_sound hx s t hn hq env he).2
      · simp only [Ext.isEqual, hn, Except.ok.injEq, Prod.mk.injEq] at hq
        rw [← hq.2]
        exact hs
  | asFraction tog inplace =>
    simp only [Ext.step, Except.ok.injEq] at h
    subst h
    split
    · intro ht env he
      rw [show (x.asFractionInplace tog s).problem = s.problem from rfl, hs ht env he]
      simp only [Ext.asFractionInplace]
      rw [hx.bld _ env he]
      simp only [den, denL, List.prod_cons, List.prod_nil]
      rw [hx.bld _ env he]
      obtain ⟨hne, hq⟩ := asFraction_value hx tog s.solution env he
      rw [hq]
      simp only [den, mul_one, zpow_neg, zpow_one]
      rw [div_eq_mul_inv]
    · exact hs
  | rewrite f =>
    simp only [Ext.step, Except.ok.injEq] at h
    subst h
    intro ht env he
    rw [show (s.rewrite f).problem = s.problem from rfl, show (s.rewrite f).solution = f s.solution from rfl, hop _ env he]
    exact hs ht env he
  | dehomogenize ps d =>
    simp only [Ext.step, Except.ok.injEq] at h
    subst h
    obtain ⟨i, hD, hp, hd⟩ := hop
    intro ht env he
    rw [show (s.dehomogenize ps d).problem = ps s.problem from rfl,
      show (s.dehomogenize ps d).solution = d s.solution from rfl, hp _ env he, hd _ env he]
    exact hs ht _ (hD env he)

/-- **C41** over histories (partial).  After any sequence of calls on a fresh solution object, an answer `True` of
`is_equal` means that the problem and the solution it now holds are equal at every point where the denominators do not
vanish.  Missing: `xreplace`, which also copies the stored answer but changes the solution only
(`xreplace_stored_wrong`). -/
theorem history_isEqual_partial (hx : ExtOk I D x) : ∀ (ops : List SolOp) (s s' s'' : SolS), (∀ op ∈ ops, OpOk I D op) →
    StoredOk I D s → x.runOps s ops = .ok s' → x.isEqual s' = .ok (true, s'') →
    ∀ env ∈ D, den I s'.problem env = den I s'.solution env
  | [], s, s', s'', _, hs, h, hq => by
    simp only [Ext.runOps, Except.ok.injEq] at h
    subst h
    rcases hn : s.isEq with _ | b
    · exact fun env he => (isEqual_sound hx s s'' hn hq env he).2
    · simp only [Ext.isEqual, hn, Except.ok.injEq, Prod.mk.injEq] at hq
      exact hs (by rw [hn, hq.1])
  | op :: ops, s, s', s'', hops, hs, h, hq => by
    simp only [Ext.runOps] at h
    rcases h1 : x.step s op with e | t
    · rw [h1] at h; simp [Except.bind] at h
    · rw [h1] at h
      exact history_isEqual_partial hx ops t s' s'' (fun o ho => hops o (by simp [ho]))
        (step_stored hx s t op (hops op (by simp)) hs h1) h hq

/-- The substitution of `dehomogenize` by `xreplace({homogenizer: 1})` meets `OpOk` on an expression: its value is the
value where the homogenizer is `1`, with no condition on capture, when the groups split along the orbit of the
homogenizer. -/
theorem dehom_xrep_value_partial {bld : CE → CE} {gt eqv : CE → CE → Bool} (hb : BldOk I D bld) (hom : ℕ)
    (heqv : ∀ u v, Good u → Good v → eqv u v = true → ∀ env ∈ D, den I u env = den I v env)
    (hD : ∀ env ∈ D, Function.update env hom 1 ∈ D) (n : ℕ) (e : CE) (y : CE × Bool)
    (he : GoodW (fun _ => True) (fun k _ G => SplitOk k G) e)
    (h : xrep bld gt eqv [(hom, .num 1)] n e = some y) :
    ∀ env ∈ D, den I y.1 env = den I e (Function.update env hom 1) := by
  have hpt : ∀ env : ℕ → K, (fun y => den I ((dget [(hom, CE.num 1)] y).getD (.sym y)) env) = Function.update env hom 1 := by
    intro env
    funext z
    by_cases hz : z = hom
    · subst hz; simp [dget, den]
    · have : dget [(hom, CE.num 1)] z = none := by simp [dget, Ne.symm hz]
      simp [this, den, Function.update_of_ne hz]
  have hcl : Cl (fun _ => True) (fun k (_ : List ℕ) G => SplitOk k G) :=
    ⟨fun _ _ _ _ _ _ => trivial, fun _ _ _ _ h _ => h, fun _ _ _ _ _ _ _ _ _ _ h => h⟩
  intro env henv
  have := (xrep_value_partial (gt := gt) hcl hb (r := [(hom, .num 1)]) (by simp [GoodW]) (by simp [dkeys]) heqv
    (fun env he => by rw [show pt I [(hom, CE.num 1)] env = Function.update env hom 1 from hpt env]; exact hD env he) ?_
    (fun k s G h => h) n e y he h).2.2 env henv
  · rw [this, hpt]
  · intro k s G _ _ z hz w _ hw
    have h1 : newSym [(hom, CE.num 1)] z = z := by
      by_cases hz : z = hom
      · subst hz; simp [newSym, dget]
      · have : dget [(hom, CE.num 1)] z = none := by simp [dget, Ne.symm hz]
        simp [newSym, this]
    rw [h1]
    by_cases hwh : w = hom
    · subst hwh; simp [Rule.get, dget, free]
    · have : dget [(hom, CE.num 1)] w = none := by simp [dget, Ne.symm hwh]
      simp only [Rule.get, this, Option.getD_none, free, List.mem_singleton]
      rintro rfl
      exact hw hz

end

/-! ### examples and counterexample -/

/-- external calls for the example: no quotients, the content of a product is its leading number, and the zero test
knows the shape `x_i*p + q*(r*x_j)` -/
def exExt : Ext where
  bld := fun e => e
  together := fun e => e
  fraction := fun e => (e, .num 1)
  cp := fun e => match e with
    | .mul (.num q :: l) => if q = 0 then (1, e) else (q, .mul l)
    | e => (1, e)
  isZero := fun e => match e with
    | .add [.mul [.sym i, .num p], .mul [.num q, .mul [.num r, .sym j]]] => some (decide (i = j ∧ p + q * r = 0))
    | _ => none

theorem exExt_ok : ExtOk (K := ℚ) (fun _ _ => 0) Set.univ exExt where
  bld := fun _ _ _ => rfl
  together := fun _ _ _ => rfl
  fraction := fun e env _ => by simp [exExt, den]
  cp := fun e => by
    simp only [exExt]
    split
    · rename_i q l
      split
      · exact ⟨by simp, fun env _ => by simp⟩
      · rename_i hq
        exact ⟨hq, fun env _ => by simp [den, denL]⟩
    · exact ⟨by simp, fun env _ => by simp⟩
  zero := fun e h env _ => by
    simp only [exExt] at h
    split at h
    · simp only [Option.some.injEq, decide_eq_true_eq] at h
      obtain ⟨rfl, h⟩ := h
      simp [den, denL]
      linear_combination env _ * h
    · simp at h

/-- a solution whose equality is computed as `True` -/
example : (match exExt.isEqual ⟨.sym 0, .sym 0, none⟩ with | .ok (b, s) => b && s.isEq == some true | _ => false) = true := by
  decide +kernel

/-- **Defect**: `xreplace` copies the stored answer of `is_equal`.  For the problem `x` with solution `x`, after
`sol.is_equal` the copy `sol.xreplace({x: y})` still answers `True`, although its problem is `x` and its solution `y`. -/
theorem xreplace_stored_wrong : ∃ s, exExt.runOps ⟨.sym 0, .sym 0, none⟩
      [.isEqual, .rewrite fun e => ((xrep (fun e => e) (fun _ _ => false) eqvMul [(0, .sym 1)] 9 e).getD (e, false)).1] = .ok s ∧
    (∃ s', exExt.isEqual s = .ok (true, s')) ∧
    den (K := ℚ) (fun _ _ => 0) s.problem (fun i => (i : ℚ)) ≠ den (fun _ _ => 0) s.solution (fun i => (i : ℚ)) := by
  have h : (match exExt.runOps ⟨.sym 0, .sym 0, none⟩
      [.isEqual, .rewrite fun e => ((xrep (fun e => e) (fun _ _ => false) eqvMul [(0, .sym 1)] 9 e).getD (e, false)).1] with
      | .ok ⟨.sym 0, .sym 1, some true⟩ => true
      | _ => false) = true := by decide +kernel
  split at h
  · rename_i hs
    exact ⟨_, hs, ⟨_, rfl⟩, by simp [den]⟩
  · simp at h

end Verif.Cyc
