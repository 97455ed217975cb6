import Verif.Model.Dispatch
import Mathlib.Tactic.TypeStar
import Mathlib.Data.List.Basic

/-!
# C11, C12: dispatch to the solvers and the batch API
-/

namespace Verif.Dispatch

section C11
variable {G S : Type} (cfg : String → G) (beh : List (Call G) → Call G → Except PyErr (Option S))

/-- Specification: all methods of `pre` are known and each call, made after the preceding ones, gave `None`. -/
def AllFail (pre : List String) : Prop :=
  ∀ k (hk : k < pre.length), pre[k] ∈ nameToMethod ∧
    beh ((pre.take k).map fun m => (m, cfg m)) (pre[k], cfg pre[k]) = .ok none

theorem loop_spec (pre : List String) (hpre : AllFail cfg beh pre) (order : List String) :
    let r := loop cfg beh order (pre.map fun m => (m, cfg m))
    (∀ s, r.2 = .ok (some s) → ∃ mid m post, order = mid ++ m :: post ∧ AllFail cfg beh (pre ++ mid) ∧
        m ∈ nameToMethod ∧ beh ((pre ++ mid).map fun m => (m, cfg m)) (m, cfg m) = .ok (some s) ∧
        r.1 = ((pre ++ mid) ++ [m]).map fun m => (m, cfg m)) ∧
    (r.2 = .ok none → AllFail cfg beh (pre ++ order) ∧ r.1 = (pre ++ order).map fun m => (m, cfg m)) ∧
    (∀ e, r.2 = .error e → ∃ mid m post, order = mid ++ m :: post ∧ AllFail cfg beh (pre ++ mid) ∧
        ((m ∉ nameToMethod ∧ e = .keyError ∧ r.1 = (pre ++ mid).map fun m => (m, cfg m)) ∨
         (m ∈ nameToMethod ∧ beh ((pre ++ mid).map fun m => (m, cfg m)) (m, cfg m) = .error e ∧
           r.1 = ((pre ++ mid) ++ [m]).map fun m => (m, cfg m)))) := by
  induction order generalizing pre with
  | nil =>
    refine ⟨by intro s h; simp [loop] at h, ?_, by intro e h; simp [loop] at h⟩
    intro _; exact ⟨by simpa using hpre, by simp [loop]⟩
  | cons m ms ih =>
    intro r
    by_cases hm : m ∈ nameToMethod
    · cases hb : beh (pre.map fun m => (m, cfg m)) (m, cfg m) with
      | error e =>
        have hr : r = (pre.map (fun m => (m, cfg m)) ++ [(m, cfg m)], .error e) := by
          simp only [r, loop, if_pos hm, hb]
        refine ⟨by rw [hr]; simp, by rw [hr]; simp, ?_⟩
        intro e' he'
        rw [hr] at he' ⊢
        cases he'
        exact ⟨[], m, ms, rfl, by simpa using hpre, Or.inr ⟨hm, by simpa using hb, by simp⟩⟩
      | ok o =>
        cases o with
        | some s =>
          have hr : r = (pre.map (fun m => (m, cfg m)) ++ [(m, cfg m)], .ok (some s)) := by
            simp only [r, loop, if_pos hm, hb]
          refine ⟨?_, by rw [hr]; simp, by rw [hr]; simp⟩
          intro s' hs'
          rw [hr] at hs' ⊢
          cases hs'
          exact ⟨[], m, ms, rfl, by simpa using hpre, hm, by simpa using hb, by simp⟩
        | none =>
          have hr : r = loop cfg beh ms ((pre ++ [m]).map fun m => (m, cfg m)) := by
            simp only [r, loop, if_pos hm, hb, List.map_append, List.map_cons, List.map_nil]
          have hpre' : AllFail cfg beh (pre ++ [m]) := by
            intro k hk
            rw [List.length_append, List.length_singleton] at hk
            by_cases hlt : k < pre.length
            · rw [List.getElem_append_left hlt, List.take_append_of_le_length (by omega)]
              exact hpre k hlt
            · have : k = pre.length := by omega
              subst this
              have e1 : (pre ++ [m])[pre.length] = m := by simp
              rw [e1, List.take_append_of_le_length (le_refl _), List.take_length]
              exact ⟨hm, hb⟩
          obtain ⟨h1, h2, h3⟩ := ih (pre ++ [m]) hpre'
          rw [← hr] at h1 h2 h3
          refine ⟨?_, ?_, ?_⟩
          · intro s hs
            obtain ⟨mid, m', post, a1, a2, a3, a4, a5⟩ := h1 s hs
            exact ⟨m :: mid, m', post, by rw [a1]; rfl, by simpa using a2, a3, by simpa using a4, by simpa using a5⟩
          · intro hs
            obtain ⟨a1, a2⟩ := h2 hs
            exact ⟨by simpa using a1, by simpa using a2⟩
          · intro e hs
            obtain ⟨mid, m', post, a1, a2, a3⟩ := h3 e hs
            exact ⟨m :: mid, m', post, by rw [a1]; rfl, by simpa using a2, by simpa using a3⟩
    · have hr : r = (pre.map (fun m => (m, cfg m)), .error .keyError) := by
        simp only [r, loop, if_neg hm]
      refine ⟨by rw [hr]; simp, by rw [hr]; simp, ?_⟩
      intro e he
      rw [hr] at he ⊢
      cases he
      exact ⟨[], m, ms, rfl, by simpa using hpre, Or.inl ⟨hm, rfl, by simp⟩⟩

end C11

section C11b
variable {G P C : Type} (p : P) (ineqs eqs : C) (cfg : String → G)
  (beh : List (Call G) → Call G → Except PyErr (Option (Sol P C)))

/-- The order that is used: the given one or the default order. -/
def usedOrder (order : Option (List String)) : List String :=
  match order with
  | some o => o
  | none => ["StructuralSOS", "LinearSOS", "SDPSOS", "SymmetricSOS"]

theorem usedOrder_eq (order : Option (List String)) : order.getD methodOrder = usedOrder order := by
  cases order <;> rfl

/-- **C11.** A returned solution comes from the first method in the order that gives one: every earlier method
is known and returned `None`, the calls made are exactly those up to this method, and the solution carries the
caller's problem and constraints. -/
theorem sumOfSquares_some (order : Option (List String)) (t : Sol P C)
    (h : (sumOfSquares p ineqs eqs order cfg beh).2 = .ok (some t)) :
    ∃ pre m post s, usedOrder order = pre ++ m :: post ∧ AllFail cfg beh pre ∧ m ∈ nameToMethod ∧
      beh (pre.map fun m => (m, cfg m)) (m, cfg m) = .ok (some s) ∧
      t.method = s.method ∧ t.body = s.body ∧ t.problem = p ∧ t.ineqs = ineqs ∧ t.eqs = eqs ∧
      (sumOfSquares p ineqs eqs order cfg beh).1 = (pre ++ [m]).map fun m => (m, cfg m) := by
  have key := (loop_spec cfg beh [] (by intro k hk; simp at hk) (usedOrder order)).1
  unfold sumOfSquares at h ⊢
  rw [usedOrder_eq] at h ⊢
  simp only [List.map_nil] at key
  cases hl : (loop cfg beh (usedOrder order) []).2 with
  | error e => simp only [hl] at h; cases h
  | ok o =>
    cases o with
    | none => simp only [hl] at h; cases h
    | some s =>
      simp only [hl] at h
      have h' : ({ s with problem := p, ineqs := ineqs, eqs := eqs } : Sol P C) = t :=
        Option.some.inj (Except.ok.inj h)
      obtain ⟨mid, m, post, a1, a2, a3, a4, a5⟩ := key s hl
      refine ⟨mid, m, post, s, a1, by simpa using a2, a3, by simpa using a4, ?_, ?_, ?_, ?_, ?_, by simpa using a5⟩ <;>
        rw [← h']

/-- **C11.** `None` is returned only if every method in the order is known, was called and returned `None`. -/
theorem sumOfSquares_none (order : Option (List String))
    (h : (sumOfSquares p ineqs eqs order cfg beh).2 = .ok none) :
    AllFail cfg beh (usedOrder order) ∧
      (sumOfSquares p ineqs eqs order cfg beh).1 = (usedOrder order).map fun m => (m, cfg m) := by
  have key := (loop_spec cfg beh [] (by intro k hk; simp at hk) (usedOrder order)).2.1
  unfold sumOfSquares at h ⊢
  rw [usedOrder_eq] at h ⊢
  simp only [List.map_nil] at key
  cases hl : (loop cfg beh (usedOrder order) []).2 with
  | error e => simp only [hl] at h; cases h
  | ok o =>
    cases o with
    | some s => simp only [hl] at h; cases h
    | none => simpa using key hl

/-- **C11.** An exception escapes exactly from the first reached position that is an unknown name
(`KeyError`, nothing is called there) or whose method raises. -/
theorem sumOfSquares_error (order : Option (List String)) (e : PyErr)
    (h : (sumOfSquares p ineqs eqs order cfg beh).2 = .error e) :
    ∃ pre m post, usedOrder order = pre ++ m :: post ∧ AllFail cfg beh pre ∧
      ((m ∉ nameToMethod ∧ e = .keyError ∧
          (sumOfSquares p ineqs eqs order cfg beh).1 = pre.map fun m => (m, cfg m)) ∨
       (m ∈ nameToMethod ∧ beh (pre.map fun m => (m, cfg m)) (m, cfg m) = .error e ∧
          (sumOfSquares p ineqs eqs order cfg beh).1 = (pre ++ [m]).map fun m => (m, cfg m))) := by
  have key := (loop_spec cfg beh [] (by intro k hk; simp at hk) (usedOrder order)).2.2
  unfold sumOfSquares at h ⊢
  rw [usedOrder_eq] at h ⊢
  simp only [List.map_nil] at key
  cases hl : (loop cfg beh (usedOrder order) []).2 with
  | ok o => simp only [hl] at h; cases h
  | error e' =>
    simp only [hl] at h
    cases h
    obtain ⟨mid, m, post, a1, a2, a3⟩ := key _ hl
    exact ⟨mid, m, post, a1, by simpa using a2, by simpa using a3⟩

/-- **C11 (converse).** If every method before `m` is known and fails, and `m` gives a solution, then that
solution is what is returned, whatever stands after `m`. -/
theorem sumOfSquares_first (pre : List String) (m : String) (post : List String) (s : Sol P C)
    (h1 : AllFail cfg beh pre) (h2 : m ∈ nameToMethod)
    (h3 : beh (pre.map fun m => (m, cfg m)) (m, cfg m) = .ok (some s)) :
    (sumOfSquares p ineqs eqs (some (pre ++ m :: post)) cfg beh).2 =
      .ok (some { s with problem := p, ineqs := ineqs, eqs := eqs }) := by
  have key : ∀ (done todo : List String), done ++ todo = pre →
      loop cfg beh (todo ++ m :: post) (done.map fun m => (m, cfg m)) =
        ((pre ++ [m]).map fun m => (m, cfg m), .ok (some s)) := by
    intro done todo
    induction todo generalizing done with
    | nil =>
      intro hd
      rw [List.append_nil] at hd
      subst hd
      simp [loop, h2, h3]
    | cons a todo ih =>
      intro hd
      have hk : done.length < pre.length := by rw [← hd]; simp
      obtain ⟨ha, hb⟩ := h1 done.length hk
      have e1 : pre[done.length] = a := by simp [← hd]
      have e2 : pre.take done.length = done := by rw [← hd]; simp
      rw [e1, e2] at hb
      rw [e1] at ha
      rw [List.cons_append, loop, if_pos ha, hb]
      have := ih (done ++ [a]) (by rw [← hd]; simp)
      simpa using this
  unfold sumOfSquares
  have := key [] pre rfl
  simp only [List.map_nil] at this
  simp only [Option.getD_some, this]
  rfl

end C11b

/-- Non-vacuity: LinearSOS fails, SDPSOS succeeds, SymmetricSOS is not called. -/
example : sumOfSquares (G := Unit) (P := String) (C := Unit) "p" () ()
    (some ["LinearSOS", "SDPSOS", "SymmetricSOS"]) (fun _ => ())
    (fun _ c => .ok (if c.1 = "LinearSOS" then none else some ⟨c.1, 7, "other", (), ()⟩)) =
    ([("LinearSOS", ()), ("SDPSOS", ())], .ok (some ⟨"SDPSOS", 7, "p", (), ()⟩)) := by decide +kernel

example : (sumOfSquares (G := Unit) (P := String) (C := Unit) "p" () ()
    (some ["LinearSOS", "NoSuchMethod", "SDPSOS"]) (fun _ => ()) (fun _ _ => .ok none)).2
     = .error .keyError := by decide +kernel

/-! ## C12 -/

section C12
variable {P S : Type} (strip : String → String) (parse : String → Option P)
  (degOf : P → Except PyErr ℕ) (solve : ℕ → P → Except PyErr (Option S))
  (methodOf : S → String) (isEqual : S → Except PyErr Bool)

/-- Specification: the polynomial denoted by an input, if it is valid. -/
def denotes : Item P → Option P
  | .str s => parse s
  | .poly p => some p
  | .other => none

/-- Specification of one row: the `i`-th input with polynomial `denotes it`. -/
def RowOK (i : ℕ) (it : Item P) (r : Record P S) : Prop :=
  r.problem = it ∧
  match denotes parse it with
  | none => r.status = .invalid ∧ r.solution = none ∧ r.method = none ∧ r.deg = 0
  | some p => degOf p = .ok r.deg ∧
    (r.status ≠ .invalid) ∧
    (r.status = .fail ↔ solve i p = .ok none) ∧
    (r.status = .success ↔ ∃ s, solve i p = .ok (some s) ∧ isEqual s = .ok true) ∧
    (r.status = .inaccurate ↔ ∃ s, solve i p = .ok (some s) ∧ isEqual s = .ok false) ∧
    (r.status = .error ↔ (∃ e, solve i p = .error e) ∨ ∃ s e, solve i p = .ok (some s) ∧ isEqual s = .error e) ∧
    (∀ s, r.solution = some s ↔ solve i p = .ok (some s) ∧ ∃ b, isEqual s = .ok b) ∧
    (r.method = r.solution.map methodOf)

theorem solveRecord_ok (i : ℕ) (it : Item P) (p : P) (d : ℕ) (hp : denotes parse it = some p) (hd : degOf p = .ok d) :
    RowOK parse degOf solve methodOf isEqual i it (solveRecord it d methodOf isEqual (solve i p)) := by
  unfold RowOK
  rw [hp]
  unfold solveRecord
  cases h : solve i p with
  | error e => simp [hd, h]
  | ok o =>
    cases o with
    | none => simp [hd, h]
    | some s =>
      cases h2 : isEqual s with
      | error e => simp [hd, h, h2]
      | ok b => cases b <;> simp +contextual [hd, h, h2, eq_comm]

theorem batchLoop_spec (ig : Bool) : ∀ (items : List (Item P)) (i : ℕ) (rs : List (Record P S)),
    batchLoop parse ig degOf solve methodOf isEqual i items = .ok rs →
    rs.length = items.length ∧ ∀ k (hk : k < items.length) (hk' : k < rs.length),
      RowOK parse degOf solve methodOf isEqual (i + k) items[k] rs[k]
  | [], i, rs, h => by simp only [batchLoop, Except.ok.injEq] at h; subst h; simp
  | it :: rest, i, rs, h => by
      have hread : ∀ o, readNext parse ig it = .ok o → denotes parse it = o := by
        intro o ho
        cases it with
        | str s =>
          simp only [readNext] at ho
          simp only [denotes]
          cases hps : parse s with
          | some p => rw [hps] at ho; simpa using ho
          | none =>
            rw [hps] at ho
            cases ig <;> simp at ho
            exact ho
        | poly p => simpa [readNext, denotes] using ho
        | other => simpa [readNext, denotes] using ho
      simp only [batchLoop] at h
      cases hr : readNext parse ig it with
      | error e => rw [hr] at h; cases h
      | ok o =>
        have hden := hread o hr
        cases o with
        | none =>
          simp only [hr] at h
          cases hb : batchLoop parse ig degOf solve methodOf isEqual (i + 1) rest with
          | error e => rw [hb] at h; cases h
          | ok rs' =>
            rw [hb] at h
            have := Except.ok.inj h
            subst this
            obtain ⟨h1, h2⟩ := batchLoop_spec ig rest (i + 1) rs' hb
            refine ⟨by simp [h1], ?_⟩
            intro k hk hk'
            cases k with
            | zero =>
              simp only [List.getElem_cons_zero, RowOK, hden]
              simp
            | succ k =>
              simp only [List.getElem_cons_succ]
              have := h2 k (by simpa using hk) (by simpa using hk')
              rwa [show i + 1 + k = i + (k + 1) by omega] at this
        | some p =>
          simp only [hr] at h
          cases hd : degOf p with
          | error e => simp only [hd] at h; cases h
          | ok d =>
            simp only [hd] at h
            cases hb : batchLoop parse ig degOf solve methodOf isEqual (i + 1) rest with
            | error e => rw [hb] at h; cases h
            | ok rs' =>
              rw [hb] at h
              have := Except.ok.inj h
              subst this
              obtain ⟨h1, h2⟩ := batchLoop_spec ig rest (i + 1) rs' hb
              refine ⟨by simp [h1], ?_⟩
              intro k hk hk'
              cases k with
              | zero =>
                simp only [List.getElem_cons_zero, Nat.add_zero]
                exact solveRecord_ok parse degOf solve methodOf isEqual i it p d hden hd
              | succ k =>
                simp only [List.getElem_cons_succ]
                have := h2 k (by simpa using hk) (by simpa using hk')
                rwa [show i + 1 + k = i + (k + 1) by omega] at this

/-- **C12.** If the batch finishes, it has exactly one row per (nonempty) input, in input order, and the status,
solution and method of each row are determined by the parse result, the solver result and `is_equal`. -/
theorem sumOfSquaresMultiple_rows (ignore : Option Bool) (items : List (Item P)) (rs : List (Record P S))
    (h : sumOfSquaresMultiple strip parse ignore degOf solve methodOf isEqual items = .ok rs) :
    rs.length = (readItems strip items).length ∧
    ∀ k (hk : k < (readItems strip items).length) (hk' : k < rs.length),
      RowOK parse degOf solve methodOf isEqual k (readItems strip items)[k] rs[k] := by
  obtain ⟨h1, h2⟩ := batchLoop_spec parse degOf solve methodOf isEqual _ _ 0 rs h
  exact ⟨h1, fun k hk hk' => by simpa using h2 k hk hk'⟩

/-- The kept inputs are exactly the stripped nonempty strings and the polynomials, in order. -/
theorem readItems_spec (items : List (Item P)) :
    readItems strip items = items.filterMap fun
      | .str s => if strip s = "" then none else some (.str (strip s))
      | .poly p => some (.poly p)
      | .other => none := by
  unfold readItems
  induction items with
  | nil => rfl
  | cons a l ih =>
    cases a with
    | str s =>
      by_cases hs : strip s = ""
      · simpa [hs] using ih
      · simpa [hs] using ih
    | poly p => simpa using ih
    | other => simpa using ih

/-- **C12 (no lost batch).** With the default reader configuration the batch never aborts because of an invalid
input or a failing solver: if the degree of each parsed polynomial is computable the batch finishes. -/
theorem sumOfSquaresMultiple_total (items : List (Item P)) (hdeg : ∀ p, ∃ d, degOf p = .ok d) :
    ∃ rs, sumOfSquaresMultiple strip parse none degOf solve methodOf isEqual items = .ok rs := by
  unfold sumOfSquaresMultiple
  have : ∀ (l : List (Item P)) i, ∃ rs, batchLoop parse true degOf solve methodOf isEqual i l = .ok rs := by
    intro l
    induction l with
    | nil => intro i; exact ⟨[], rfl⟩
    | cons it l ih =>
      intro i
      obtain ⟨rs, hrs⟩ := ih (i + 1)
      have : ∃ o, readNext parse true it = .ok o := by
        cases it with
        | str s =>
          simp only [readNext]
          cases parse s with
          | some p => exact ⟨_, rfl⟩
          | none => exact ⟨_, rfl⟩
        | poly p => exact ⟨_, rfl⟩
        | other => exact ⟨_, rfl⟩
      obtain ⟨o, ho⟩ := this
      cases o with
      | none => simp only [batchLoop, ho, hrs]; exact ⟨_, rfl⟩
      | some p =>
        obtain ⟨d, hd⟩ := hdeg p
        simp only [batchLoop, ho, hd, hrs]; exact ⟨_, rfl⟩
  exact this _ 0

/-- With `ignore_errors=False` one invalid string aborts the whole batch with `ValueError`. -/
theorem sumOfSquaresMultiple_strict_raises (s : String) (hs : parse (strip s) = none) (hne : strip s ≠ "")
    (rest : List (Item P)) :
    sumOfSquaresMultiple strip parse (some false) degOf solve methodOf isEqual (.str s :: rest)
      = .error .valueError := by
  have : readItems strip (.str s :: rest) = .str (strip s) :: readItems strip rest := by
    simp [readItems, hne]
  unfold sumOfSquaresMultiple
  rw [this]
  simp [batchLoop, readNext, hs]

end C12

/-- Non-vacuity: five inputs, of which one is blank; the remaining statuses are all different. -/
example : (sumOfSquaresMultiple (P := ℕ) (S := ℕ) id (fun s => if s = "bad" then none else some s.length) none
    (fun p => .ok p) (fun _ p => if p = 1 then .ok none else if p = 4 then .error .typeError else .ok (some p))
    (fun _ => "LinearSOS") (fun s => .ok (s == 2)) [.str "a", .str "", .str "bad", .str "aa", .poly 3, .poly 4]
    ).map (fun l => l.map (·.status)) = .ok [.fail, .invalid, .success, .inaccurate, .error] := by decide +kernel

end Verif.Dispatch
