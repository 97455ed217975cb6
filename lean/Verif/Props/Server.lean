import Verif.Model.Server
import Mathlib.Data.List.Basic

/-!
# What the manager and the web server do for their callers
-/

namespace Verif.Server

open Verif

variable {T R S P : Type}

/-! ### The choice of methods -/

/-- The check keeps the order, and removes exactly the two slow methods, exactly for degrees above the bound for the number of variables. -/
theorem methodCheck_ok {p : Shape} {l l' : List String} (h : methodCheck p (some l) = .ok (some l')) :
    l'.Sublist l ∧ (∀ m ∈ l, m ≠ "LinearSOS" → m ≠ "SDPSOS" → m ∈ l') ∧ (l' ≠ l → ∀ m ∈ l', m ≠ "LinearSOS" ∧ m ≠ "SDPSOS") := by
  unfold methodCheck at h
  split at h
  · cases h
  · split_ifs at h with hb
    · simp only [Except.ok.injEq, Option.some.injEq] at h
      subst h
      refine ⟨List.filter_sublist, fun m hm h1 h2 => List.mem_filter.2 ⟨hm, by simp [h1, h2]⟩, fun _ m hm => ?_⟩
      have := (List.mem_filter.1 hm).2
      simpa using this
    · simp only [Except.ok.injEq, Option.some.injEq] at h
      subst h
      exact ⟨List.Sublist.refl _, fun m hm _ _ => hm, fun h => absurd rfl h⟩

/-- It succeeds for up to ten variables, if an order is given. -/
theorem methodCheck_total {p : Shape} (l : List String) (h : p.gens + (1 - (if p.hom then 1 else 0)) ≤ 10) : ∃ l', methodCheck p (some l) = .ok (some l') := by
  unfold methodCheck
  have hlen : p.gens + (1 - (if p.hom then 1 else 0)) < upperBounds.length := by
    unfold upperBounds
    simp only [List.length_cons, List.length_nil]
    omega
  rw [List.getElem?_eq_getElem hlen]
  dsimp only
  by_cases h : upperBounds[p.gens + (1 - (if p.hom then 1 else 0))] < p.degree
  · rw [if_pos h]
    exact ⟨_, rfl⟩
  · rw [if_neg h]
    exact ⟨_, rfl⟩

/-- **More than ten variables raise `IndexError`**, whatever the polynomial. -/
theorem methodCheck_many_variables {p : Shape} (order : Option (List String)) (h : 10 < p.gens) : methodCheck p order = .error .indexError := by
  unfold methodCheck
  rw [List.getElem?_eq_none]
  unfold upperBounds
  simp only [List.length_cons, List.length_nil]
  omega

/-- **The default method order raises `TypeError` for every polynomial above the bound.** -/
theorem methodCheck_default_order {p : Shape} {b : ℕ} (hb : upperBounds[p.gens + (1 - (if p.hom then 1 else 0))]? = some b) (h : b < p.degree) :
    methodCheck p none = .error .typeError := by
  unfold methodCheck
  rw [hb]
  dsimp only
  rw [if_pos h]

/-- A homogeneous polynomial of degree 13 in three variables with the default order. -/
example (core : Core T R S) : (managerSos core true true (some ⟨3, true, 13⟩) none (defaultConfigs T R)).1 = .error .typeError := by
  unfold managerSos
  dsimp only
  rw [methodCheck_default_order (b := 12) (by decide) (by decide)]

/-! ### The result of the manager -/

/-- An answer of the manager is the rewritten answer of the core for the checked methods. -/
theorem managerSos_answer {core : Core T R S} {verbose std : Bool} {poly : Option Shape} {order : Option (List String)} {c : Configs T R} {s : S}
    (h : (managerSos core verbose std poly order c).1 = .ok (some s)) :
    ∃ p order' s', poly = some p ∧ methodCheck p order = .ok order' ∧ core.sos order' (if verbose then c else silence c) = .ok (some s') ∧
      (if std then core.rewrite s' = .ok s else s' = s) := by
  unfold managerSos at h
  cases poly with
  | none => cases h
  | some p =>
    dsimp only at h
    cases hm : methodCheck p order with
    | error e => rw [hm] at h; cases h
    | ok order' =>
      rw [hm] at h
      dsimp only at h
      cases hc : core.sos order' (if verbose then c else silence c) with
      | error e => rw [hc] at h; cases h
      | ok o =>
        rw [hc] at h
        cases o with
        | none =>
          dsimp only at h
          cases std <;> simp at h
        | some s' =>
          dsimp only at h
          refine ⟨p, order', s', rfl, hm, hc, ?_⟩
          cases std
          · simpa using h
          · simp only [if_true] at h ⊢
            cases hr : core.rewrite s' with
            | error e => rw [hr] at h; cases h
            | ok t =>
              rw [hr] at h
              simp only [Except.map, Except.ok.injEq, Option.some.injEq] at h
              rw [h]

/-- **If the core finds nothing, the manager raises `AttributeError`** instead of returning `None` (with the default setting). -/
theorem managerSos_no_solution {core : Core T R S} {verbose : Bool} {p : Shape} {order order' : Option (List String)} {c : Configs T R} (hm : methodCheck p order = .ok order')
    (hc : core.sos order' (if verbose then c else silence c) = .ok none) : (managerSos core verbose true (some p) order c).1 = .error .attributeError := by
  unfold managerSos
  dsimp only
  rw [hm]
  dsimp only
  rw [hc]
  rfl

/-- A core that finds nothing meets the hypotheses. -/
example : (managerSos (T := ℕ) (R := ℕ) (S := ℕ) ⟨fun _ _ => .ok none, .ok⟩ true true (some ⟨3, true, 4⟩) none []).1 = .error .attributeError :=
  managerSos_no_solution (order' := none) (by rfl) rfl

/-! ### The default configuration over a history -/

/-- `configs[m][k]`, if both keys are present. -/
def opt (c : Configs T R) (m k : String) : Option (CVal T R) := (dget c m).bind fun o => dget o k

theorem dget_getD (c : Configs T R) (m k : String) : dget ((dget c m).getD []) k = opt c m k := by
  unfold opt
  cases dget c m <;> rfl

theorem silence1_opt (c : Configs T R) (m m' k : String) : opt (silence1 c m) m' k = if m = m' ∧ k = "verbose" then some (.flag false) else opt c m' k := by
  unfold silence1
  conv_lhs => unfold opt
  rw [dget_dset]
  by_cases hm : m = m'
  · subst hm
    rw [if_pos rfl, Option.bind_some, dget_dset, dget_getD]
    by_cases hk : k = "verbose"
    · rw [if_pos hk.symm, if_pos ⟨rfl, hk⟩]
    · rw [if_neg (Ne.symm hk), if_neg fun h => hk h.2]
  · rw [if_neg hm, if_neg fun h => hm h.1]
    rfl

/-- Turning the output off changes these two options and nothing else. -/
theorem silence_opt (c : Configs T R) (m k : String) : opt (silence c) m k = if (m = "LinearSOS" ∨ m = "SDPSOS") ∧ k = "verbose" then some (.flag false) else opt c m k := by
  unfold silence
  simp only [List.foldl_cons, List.foldl_nil]
  rw [silence1_opt, silence1_opt]
  by_cases hk : k = "verbose" <;> by_cases h1 : "SDPSOS" = m <;> by_cases h2 : "LinearSOS" = m <;> simp_all [eq_comm]

theorem managerSos_configs (core : Core T R S) (verbose std : Bool) (poly : Option Shape) (order : Option (List String)) (c : Configs T R) :
    (managerSos core verbose std poly order c).2 = if poly.isSome && !verbose then silence c else c := by
  unfold managerSos
  cases poly with
  | none => rfl
  | some p =>
    dsimp only
    cases methodCheck p order with
    | error e => cases verbose <;> rfl
    | ok o =>
      dsimp only
      cases core.sos o (if verbose then c else silence c) with
      | error e => cases verbose <;> rfl
      | ok r => cases r <;> cases verbose <;> rfl

/-- **Over every history**, the default configuration changes at most in the two options `verbose`, and these change only to `False`. -/
theorem run_defaults (core : Core T R S) : ∀ (l : List (Act T R)) (s : MState T R) (m k : String),
    opt (run core s l).defaults m k = opt s.defaults m k ∨ ((m = "LinearSOS" ∨ m = "SDPSOS") ∧ k = "verbose" ∧ opt (run core s l).defaults m k = some (.flag false))
  | [], _, _, _ => Or.inl rfl
  | a :: l, s, m, k => by
    have ih := run_defaults core l (step core s a) m k
    have h1 : opt (step core s a).defaults m k = opt s.defaults m k ∨ ((m = "LinearSOS" ∨ m = "SDPSOS") ∧ k = "verbose" ∧ opt (step core s a).defaults m k = some (.flag false)) := by
      cases a with
      | setVerbose b => exact Or.inl rfl
      | call poly order own =>
        cases own with
        | some c => exact Or.inl rfl
        | none =>
          show opt (managerSos core s.verbose true poly order s.defaults).2 m k = _ ∨ (_ ∧ _ ∧ opt (managerSos core s.verbose true poly order s.defaults).2 m k = _)
          rw [managerSos_configs]
          split_ifs
          · rw [silence_opt]
            split_ifs with h
            · exact Or.inr ⟨h.1, h.2, rfl⟩
            · exact Or.inl rfl
          · exact Or.inl rfl
    change opt (run core (step core s a) l).defaults m k = _ ∨ (_ ∧ _ ∧ opt (run core (step core s a) l).defaults m k = _)
    rcases ih with ih | ih
    · rcases h1 with h1 | ⟨h1, h2, h3⟩
      · exact Or.inl (ih.trans h1)
      · exact Or.inr ⟨h1, h2, ih.trans h3⟩
    · exact Or.inr ih

/-- While `verbose` is `True` nothing changes. -/
theorem run_verbose (core : Core T R S) : ∀ (l : List (Act T R)) (s : MState T R), s.verbose = true → (∀ b, Act.setVerbose b ∈ l → b = true) → (run core s l).defaults = s.defaults
  | [], _, _, _ => rfl
  | a :: l, s, hs, hl => by
    have hl' : ∀ b, Act.setVerbose b ∈ l → b = true := fun b hb => hl b (List.mem_cons_of_mem _ hb)
    change (run core (step core s a) l).defaults = _
    cases a with
    | setVerbose b => exact run_verbose core l _ (hl b List.mem_cons_self) hl'
    | call poly order own =>
      cases own with
      | some c => exact run_verbose core l s hs hl'
      | none =>
        rw [run_verbose core l (step core s (.call poly order none)) hs hl']
        show (managerSos core s.verbose true poly order s.defaults).2 = _
        rw [managerSos_configs, hs]
        simp

/-- **The claim that a call obeys `verbose` as it is set at that time is false**: after one call while it is `False`, `LinearSOS` stays quiet for every later call with
the default configuration, whatever is done in between, even with `verbose` set to `True` again. -/
theorem run_stays_quiet (core : Core T R S) (p : Shape) (order : Option (List String)) (l : List (Act T R)) :
    opt (run core ⟨true, defaultConfigs T R⟩ (.setVerbose false :: .call (some p) order none :: .setVerbose true :: l)).defaults "LinearSOS" "verbose" = some (.flag false) := by
  show opt (run core ⟨true, (managerSos core false true (some p) order (defaultConfigs T R)).2⟩ l).defaults _ _ = _
  have h : opt (managerSos core false true (some p) order (defaultConfigs T R)).2 "LinearSOS" "verbose" = some (.flag false) := by
    rw [managerSos_configs]
    show opt (silence _) _ _ = _
    rw [silence_opt, if_pos ⟨Or.inl rfl, rfl⟩]
  rcases run_defaults core l ⟨true, (managerSos core false true (some p) order (defaultConfigs T R)).2⟩ "LinearSOS" "verbose" with h1 | h1
  · rw [h1]; exact h
  · exact h1.2.2

/-- The fresh default configuration does not turn the output off. -/
example : opt (defaultConfigs T R) "LinearSOS" "verbose" = none := rfl

/-! ### The web server -/

/-- The client and the time stamp of a message. -/
def Msg.address : Msg → String × ℕ
  | .rootangents sid _ ts => (sid, ts)
  | .sos sid _ _ ts => (sid, ts)

/-- Whether it is an answer of the solver. -/
def Msg.isSos : Msg → Bool
  | .rootangents .. => false
  | .sos .. => true

/-- The task of the solver sends exactly one answer to the client, unless the solution is of another class or cannot be printed. -/
theorem sosTask_one (ext : Ext T R S P) (sid : String) (ts : ℕ) (p : P) (methods : Option (List (String × Bool))) (c : Option (Configs T R)) (r : R) :
    (∃ txt b, sosTask ext sid ts p methods c r = ([.sos sid txt b ts], none)) ∨
      ∃ e order c' s, sosTask ext sid ts p methods c r = ([], some e) ∧ ext.sos p order c' = .ok (some s) ∧ (ext.simple s = false ∨ ext.render s = .error e) := by
  unfold sosTask
  cases methods with
  | none => exact Or.inl ⟨_, _, rfl⟩
  | some ms =>
    cases c with
    | none => exact Or.inl ⟨_, _, rfl⟩
    | some c =>
      dsimp only
      generalize (if "LinearSOS" ∈ (ms.filter fun m => m.2).map Prod.fst then dset c "LinearSOS" (dset ((dget c "LinearSOS").getD []) "rootsinfo" (.roots r)) else c) = c'
      cases h : ext.sos p ((ms.filter fun m => m.2).map Prod.fst) c' with
      | error e => exact Or.inl ⟨_, _, rfl⟩
      | ok o =>
        cases o with
        | none => exact Or.inl ⟨_, _, rfl⟩
        | some s =>
          dsimp only
          cases hs : ext.simple s with
          | false => exact Or.inr ⟨_, _, c', s, rfl, h, Or.inl hs⟩
          | true =>
            rw [if_pos rfl]
            cases hr : ext.render s with
            | error e => exact Or.inr ⟨_, _, c', s, rfl, h, Or.inr hr⟩
            | ok txt => exact Or.inl ⟨_, _, rfl⟩

/-- A success that is reported is a solution found by the methods chosen in the request, in their order, and the text is its text. -/
theorem sosTask_success {ext : Ext T R S P} {sid : String} {ts : ℕ} {p : P} {methods : Option (List (String × Bool))} {c : Option (Configs T R)} {r : R} {txt : String}
    (h : Msg.sos sid txt true ts ∈ (sosTask ext sid ts p methods c r).1) :
    ∃ ms c' s, methods = some ms ∧ ext.sos p ((ms.filter fun m => m.2).map Prod.fst) c' = .ok (some s) ∧ ext.render s = .ok txt := by
  unfold sosTask at h
  cases methods with
  | none => simp at h
  | some ms =>
    cases c with
    | none => simp at h
    | some c =>
      dsimp only at h
      generalize (if "LinearSOS" ∈ (ms.filter fun m => m.2).map Prod.fst then dset c "LinearSOS" (dset ((dget c "LinearSOS").getD []) "rootsinfo" (.roots r)) else c) = c' at h
      cases hs : ext.sos p ((ms.filter fun m => m.2).map Prod.fst) c' with
      | error e => rw [hs] at h; simp at h
      | ok o =>
        rw [hs] at h
        cases o with
        | none => simp at h
        | some s =>
          dsimp only at h
          cases hb : ext.simple s with
          | false => rw [hb] at h; simp at h
          | true =>
            rw [hb, if_pos rfl] at h
            cases hr : ext.render s with
            | error e => rw [hr] at h; simp at h
            | ok t =>
              rw [hr] at h
              simp only [List.mem_singleton, Msg.sos.injEq, true_and] at h
              exact ⟨ms, c', s, rfl, hs, by rw [hr, h.1]⟩

theorem sosTask_shape (ext : Ext T R S P) (sid : String) (ts : ℕ) (p : P) (methods : Option (List (String × Bool))) (c : Option (Configs T R)) (r : R) :
    (sosTask ext sid ts p methods c r).1 = [] ∨ ∃ txt b, (sosTask ext sid ts p methods c r).1 = [.sos sid txt b ts] := by
  rcases sosTask_one ext sid ts p methods c r with ⟨txt, b, h⟩ | ⟨e, o, c', s, h, _⟩
  · exact Or.inr ⟨txt, b, by rw [h]⟩
  · exact Or.inl (by rw [h])

/-- **For every request**, all messages go to the client of the request and carry its time stamp; there is at most one message with tangents, then at most one answer. -/
theorem rootTask_messages (ext : Ext T R S P) (sid : String) (p : P) (q : Req T R) :
    (∀ m ∈ (rootTask ext sid p q).1, m.address = (sid, q.timestamp.getD 0)) ∧ ((rootTask ext sid p q).1.filter Msg.isSos).length ≤ 1 ∧
      ∀ i j : ℕ, ∀ a b, (rootTask ext sid p q).1[i]? = some a → (rootTask ext sid p q).1[j]? = some b → a.isSos = false → b.isSos = true → i < j := by
  have key : ∀ l : List Msg, (l = [] ∨ (∃ tg, l = [.rootangents sid tg (q.timestamp.getD 0)]) ∨ (∃ txt b, l = [.sos sid txt b (q.timestamp.getD 0)]) ∨
      ∃ tg txt b, l = [.rootangents sid tg (q.timestamp.getD 0), .sos sid txt b (q.timestamp.getD 0)]) →
      (∀ m ∈ l, m.address = (sid, q.timestamp.getD 0)) ∧ (l.filter Msg.isSos).length ≤ 1 ∧
        ∀ i j : ℕ, ∀ a b, l[i]? = some a → l[j]? = some b → a.isSos = false → b.isSos = true → i < j := by
    rintro l (rfl | ⟨tg, rfl⟩ | ⟨txt, b, rfl⟩ | ⟨tg, txt, b, rfl⟩)
    · exact ⟨fun m hm => absurd hm List.not_mem_nil, Nat.zero_le _, fun i j a b h => by simp at h⟩
    · refine ⟨fun m hm => by rw [List.mem_singleton.1 hm]; rfl, Nat.le_of_ble_eq_true rfl, fun i j a b hi hj ha hb => ?_⟩
      match j with
      | 0 => simp at hj; subst hj; simp [Msg.isSos] at hb
      | j + 1 => simp at hj
    · refine ⟨fun m hm => by rw [List.mem_singleton.1 hm]; rfl, Nat.le_of_ble_eq_true rfl, fun i j a b hi hj ha hb => ?_⟩
      match i with
      | 0 => simp at hi; subst hi; simp [Msg.isSos] at ha
      | i + 1 => simp at hi
    · refine ⟨fun m hm => ?_, Nat.le_of_ble_eq_true rfl, fun i j a b hi hj ha hb => ?_⟩
      · simp only [List.mem_cons, List.not_mem_nil, or_false] at hm
        rcases hm with rfl | rfl <;> rfl
      · match i, j with
        | _, 0 => simp at hj; subst hj; simp [Msg.isSos] at hb
        | 0, j + 1 => exact Nat.succ_pos j
        | 1, _ => simp at hi; subst hi; simp [Msg.isSos] at ha
        | i + 2, _ => simp at hi
  refine key _ ?_
  unfold rootTask
  dsimp only
  cases q.actions with
  | none => exact Or.inl rfl
  | some acts =>
    dsimp only
    by_cases hf : "findroot" ∈ acts
    · rw [if_pos hf]
      cases ext.findroot p with
      | error e => exact Or.inl rfl
      | ok r =>
        dsimp only
        cases q.tangents with
        | none =>
          dsimp only
          cases ext.tangentsOf r with
          | error e => exact Or.inl rfl
          | ok tg =>
            dsimp only
            by_cases hs : "sos" ∈ acts
            · rw [if_pos hs]
              rcases sosTask_shape ext sid (q.timestamp.getD 0) p q.methods q.configs r with h | ⟨txt, b, h⟩
              · rw [h]; exact Or.inr (Or.inl ⟨tg, rfl⟩)
              · rw [h]; exact Or.inr (Or.inr (Or.inr ⟨tg, txt, b, rfl⟩))
            · rw [if_neg hs]; exact Or.inr (Or.inl ⟨tg, rfl⟩)
        | some lines =>
          dsimp only
          by_cases hs : "sos" ∈ acts
          · rw [if_pos hs]
            rcases sosTask_shape ext sid (q.timestamp.getD 0) p q.methods (lines.foldl (addLine ext) q.configs) (ext.dropTangents r) with h | ⟨txt, b, h⟩
            · rw [h]; exact Or.inl rfl
            · rw [h]; exact Or.inr (Or.inr (Or.inl ⟨txt, b, rfl⟩))
          · rw [if_neg hs]; exact Or.inl rfl
    · rw [if_neg hf]
      by_cases hs : "sos" ∈ acts
      · rw [if_pos hs]; exact Or.inl rfl
      · rw [if_neg hs]; exact Or.inl rfl

/-- **A request for roots and a decomposition whose text is a polynomial is answered by exactly one answer of the solver**, provided that the root search and printing do not raise and solutions are of the usual class. -/
theorem handle_answered {ext : Ext T R S P} {q : Req T R} {txt sid : String} {p : P} {acts : List String} (hq : q.poly = some txt) (hp : ext.setPoly txt = .ok (some p)) (hsid : q.sid = some sid)
    (ha : q.actions = some acts) (hf : "findroot" ∈ acts) (hs : "sos" ∈ acts) (hr : ∃ r, ext.findroot p = .ok r) (ht : ∀ r, ∃ tg, ext.tangentsOf r = .ok tg)
    (hsim : ∀ s, ext.simple s = true) (hren : ∀ s, ∃ t, ext.render s = .ok t) :
    (handle ext q).1 = .ok true ∧ (handle ext q).2.2 = none ∧ ((handle ext q).2.1.filter Msg.isSos).length = 1 := by
  have hone : ∀ ts m c r, ∃ t b, sosTask ext sid ts p m c r = ([.sos sid t b ts], none) := by
    intro ts m c r
    rcases sosTask_one ext sid ts p m c r with h | ⟨e, o, c', s, _, _, h | h⟩
    · exact h
    · rw [hsim] at h; cases h
    · obtain ⟨t, hren⟩ := hren s
      rw [hren] at h; cases h
  obtain ⟨r, hr⟩ := hr
  unfold handle
  rw [hq]; dsimp only
  rw [hp]; dsimp only
  rw [hsid]; dsimp only
  unfold rootTask
  dsimp only
  rw [ha]; dsimp only
  rw [if_pos hf, hr]; dsimp only
  cases q.tangents with
  | none =>
    obtain ⟨tg, ht⟩ := ht r
    dsimp only
    rw [ht]; dsimp only
    rw [if_pos hs]
    obtain ⟨t, b, h⟩ := hone (q.timestamp.getD 0) q.methods q.configs r
    rw [h]
    exact ⟨rfl, rfl, rfl⟩
  | some lines =>
    dsimp only
    rw [if_pos hs]
    obtain ⟨t, b, h⟩ := hone (q.timestamp.getD 0) q.methods (lines.foldl (addLine ext) q.configs) (ext.dropTangents r)
    rw [h]
    exact ⟨rfl, rfl, rfl⟩

/-- **Asking for a decomposition without asking for the roots is never answered**: the task ends with `UnboundLocalError`. -/
theorem handle_unanswered {ext : Ext T R S P} {q : Req T R} {txt sid : String} {p : P} {acts : List String} (hq : q.poly = some txt) (hp : ext.setPoly txt = .ok (some p)) (hsid : q.sid = some sid)
    (ha : q.actions = some acts) (hf : "findroot" ∉ acts) (hs : "sos" ∈ acts) : handle ext q = (.ok true, [], some (.custom "UnboundLocalError")) := by
  unfold handle
  rw [hq]; dsimp only
  rw [hp]; dsimp only
  rw [hsid]; dsimp only
  unfold rootTask
  dsimp only
  rw [ha]; dsimp only
  rw [if_neg hf, if_pos hs]

/-- **A request without `configs` and without tangents is answered by a failure**, whatever the solvers could do. -/
theorem sosTask_without_configs (ext : Ext T R S P) (sid : String) (ts : ℕ) (p : P) (methods : Option (List (String × Bool))) (r : R) :
    sosTask ext sid ts p methods none r = ([.sos sid "" false ts], none) := by
  unfold sosTask
  cases methods <;> rfl

/-! ### Tangents given by the user -/

/-- The tangents that lines stand for. -/
def parsed (ext : Ext T R S P) (lines : List String) : List T :=
  lines.filterMap fun line => if line.length = 0 then none else match ext.pl line with
    | .ok (some t) => some t
    | _ => none

/-- The list of tangents in a configuration: missing counts as empty, `none` if something else is stored there. -/
def tangentList (c : Option (Configs T R)) : Option (List T) :=
  match opt (c.getD []) "LinearSOS" "tangents" with
  | none => some []
  | some (.tangents l) => some l
  | some _ => none

theorem addTangent_spec {c : Option (Configs T R)} {t : T} {l : List T} (h : tangentList c = some l) :
    ∃ c', addTangent c t = some c' ∧ opt c' "LinearSOS" "tangents" = some (.tangents (l ++ [t])) ∧ ∀ m k, ¬ (m = "LinearSOS" ∧ k = "tangents") → opt c' m k = opt (c.getD []) m k := by
  have hset : ∀ (d : Configs T R) (o : List (String × CVal T R)) (v : CVal T R) , (∀ k, dget o k = opt d "LinearSOS" k) →
      opt (dset d "LinearSOS" (dset o "tangents" v)) "LinearSOS" "tangents" = some v ∧ ∀ m k, ¬ (m = "LinearSOS" ∧ k = "tangents") → opt (dset d "LinearSOS" (dset o "tangents" v)) m k = opt d m k := by
    intro d o v ho
    refine ⟨?_, fun m k hmk => ?_⟩
    · conv_lhs => unfold opt
      rw [dget_dset, if_pos rfl, Option.bind_some, dget_dset, if_pos rfl]
    · conv_lhs => unfold opt
      rw [dget_dset]
      by_cases hm : "LinearSOS" = m
      · subst hm
        rw [if_pos rfl, Option.bind_some, dget_dset, if_neg fun h => hmk ⟨rfl, h.symm⟩, ho]
      · rw [if_neg hm]
        rfl
  unfold tangentList at h
  unfold addTangent
  cases c with
  | none =>
    simp only [Option.getD_none] at h ⊢
    obtain rfl : [] = l := Option.some.inj h
    refine ⟨_, rfl, ?_⟩
    exact hset [] [] (.tangents [t]) fun k => rfl
  | some c =>
    simp only [Option.getD_some] at h ⊢
    cases h1 : dget c "LinearSOS" with
    | none =>
      have h2 : opt c "LinearSOS" "tangents" = none := by unfold opt; rw [h1]; rfl
      rw [h2] at h
      obtain rfl : [] = l := Option.some.inj h
      exact ⟨_, rfl, hset c [] (.tangents [t]) fun k => by unfold opt; rw [h1]; rfl⟩
    | some mc =>
      have h2 : ∀ k, dget mc k = opt c "LinearSOS" k := fun k => by unfold opt; rw [h1]; rfl
      rw [← h2] at h
      dsimp only
      cases h3 : dget mc "tangents" with
      | none =>
        rw [h3] at h
        obtain rfl : [] = l := Option.some.inj h
        exact ⟨_, rfl, hset c mc _ h2⟩
      | some v =>
        rw [h3] at h
        cases v with
        | tangents l' =>
          obtain rfl : l' = l := Option.some.inj h
          exact ⟨_, rfl, hset c mc _ h2⟩
        | roots _ => cases h
        | flag _ => cases h
        | other _ => cases h

/-- **The tangents given by the user reach the solver**: those that can be parsed, in order, after those of the configuration; the rest of the configuration is unchanged. -/
theorem addLines_tangents (ext : Ext T R S P) : ∀ (lines : List String) {c : Option (Configs T R)} {l : List T}, tangentList c = some l →
    tangentList (lines.foldl (addLine ext) c) = some (l ++ parsed ext lines) ∧
      (∀ m k, ¬ (m = "LinearSOS" ∧ k = "tangents") → opt ((lines.foldl (addLine ext) c).getD []) m k = opt (c.getD []) m k) ∧ (parsed ext lines ≠ [] → (lines.foldl (addLine ext) c).isSome)
  | [], c, l, h => ⟨by rw [parsed, List.filterMap_nil, List.append_nil]; exact h, fun _ _ _ => rfl, fun h => absurd rfl h⟩
  | line :: lines, c, l, h => by
    have hstep : (addLine ext c line = c ∧ parsed ext (line :: lines) = parsed ext lines) ∨ ∃ t, addLine ext c line = addTangent c t ∧ parsed ext (line :: lines) = t :: parsed ext lines := by
      unfold addLine parsed
      by_cases h0 : line.length = 0
      · exact Or.inl ⟨by rw [if_pos h0], by rw [List.filterMap_cons_none (by rw [if_pos h0])]⟩
      · cases h1 : ext.pl line with
        | error e => exact Or.inl ⟨by rw [if_neg h0], by rw [List.filterMap_cons_none (by rw [if_neg h0, h1])]⟩
        | ok o =>
          cases o with
          | none => exact Or.inl ⟨by rw [if_neg h0], by rw [List.filterMap_cons_none (by rw [if_neg h0, h1])]⟩
          | some t => exact Or.inr ⟨t, by rw [if_neg h0], by rw [List.filterMap_cons_some (b := t) (by rw [if_neg h0, h1])]⟩
    rw [List.foldl_cons]
    rcases hstep with ⟨h1, h2⟩ | ⟨t, h1, h2⟩
    · rw [h1, h2]
      exact addLines_tangents ext lines h
    · obtain ⟨c', h3, h4, h5⟩ := addTangent_spec (t := t) h
      have h6 : tangentList (some c') = some (l ++ [t]) := by
        unfold tangentList
        rw [Option.getD_some, h4]
      obtain ⟨i1, i2, i3⟩ := addLines_tangents ext lines h6
      rw [h1, h2, h3]
      refine ⟨?_, fun m k hmk => (i2 m k hmk).trans (h5 m k hmk), fun _ => ?_⟩
      · rw [i1, List.append_assoc, List.singleton_append]
      · by_cases hp : parsed ext lines = []
        · have hmono : ∀ (ls : List String) (d : Configs T R), (ls.foldl (addLine ext) (some d)).isSome := by
            intro ls
            induction ls with
            | nil => intro d; rfl
            | cons a ls ih =>
              intro d
              rw [List.foldl_cons]
              have : ∃ d', addLine ext (some d) a = some d' := by
                unfold addLine addTangent
                dsimp only
                split_ifs
                · exact ⟨_, rfl⟩
                · split
                  · split
                    · exact ⟨_, rfl⟩
                    · split <;> exact ⟨_, rfl⟩
                  · exact ⟨_, rfl⟩
              obtain ⟨d', hd'⟩ := this
              rw [hd']
              exact ih d'
          exact hmono lines c'
        · exact i3 hp

/-- A concrete server and requests that meet the hypotheses. -/
def demo : Ext ℕ ℕ ℕ ℕ where
  setPoly t := if t = "x" then .ok none else .ok (some t.length)
  findroot p := .ok p
  tangentsOf r := .ok [toString r]
  dropTangents r := r
  pl t := if t = "bad" then .error .valueError else .ok (some t.length)
  sos _ order c := if order = ["LinearSOS"] ∧ tangentList (some c) = some [2] then .ok (some 7) else .ok none
  simple _ := true
  render s := .ok (toString s)

example : handle demo ⟨some "a^2", some "u", some ["findroot", "sos"], some ["ab", "bad", ""], some [("StructuralSOS", false), ("LinearSOS", true)], none, some 5⟩ = (.ok true, [.sos "u" "7" true 5], none) := by
  decide +kernel

example : ((handle demo ⟨some "a^2", some "u", some ["findroot", "sos"], none, none, none, none⟩).2.1.filter Msg.isSos).length = 1 :=
  (handle_answered (txt := "a^2") (sid := "u") (p := 3) (acts := ["findroot", "sos"]) rfl rfl rfl rfl (by decide) (by decide) ⟨3, rfl⟩ (fun r => ⟨_, rfl⟩) (fun _ => rfl) fun s => ⟨_, rfl⟩).2.2

end Verif.Server
