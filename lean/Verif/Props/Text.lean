import Verif.Model.Text
import Verif.Props.Monomials
import Mathlib.Tactic.Ring
import Mathlib.Tactic.Linarith

/-!
# Properties of the text functions (C42-C46, C64, C65)
-/

namespace Verif.Text

open Verif

/-! ### C44: completion -/

/-- `t` arises from `s` by inserting `*` between a digit, letter or `)` and a letter or `(`, and `^` between a letter or `)` and a digit. -/
inductive Ins : List Char → List Char → Prop
  | nil : Ins [] []
  | keep (c : Char) {s t : List Char} : Ins s t → Ins (c :: s) (c :: t)
  | times {c d : Char} {s t : List Char} : (isDig c = true ∨ isLow c = true ∨ c = ')') → (isLow d = true ∨ d = '(') → Ins (d :: s) (d :: t) →
      Ins (c :: d :: s) (c :: '*' :: d :: t)
  | power {c d : Char} {s t : List Char} : (isLow c = true ∨ c = ')') → isDig d = true → Ins (d :: s) (d :: t) →
      Ins (c :: d :: s) (c :: '^' :: d :: t)

theorem Ins.refl : ∀ s, Ins s s
  | [] => .nil
  | c :: s => .keep c (Ins.refl s)

theorem Ins.append_left (p : List Char) {s t : List Char} (h : Ins s t) : Ins (p ++ s) (p ++ t) := by
  induction p with
  | nil => exact h
  | cons c p ih => exact .keep c ih

theorem completeFuel_head (o : Opts) : ∀ (k : ℕ) (c : Char) (s : List Char), ∃ t, completeFuel o k (c :: s) = c :: t
  | 0, c, s => ⟨s, rfl⟩
  | k + 1, c, [] => ⟨[], rfl⟩
  | k + 1, c, d :: r => by
    unfold completeFuel
    split
    · exact ⟨_, rfl⟩
    · split <;> exact ⟨_, rfl⟩

theorem opBetween_some {o : Opts} {c d op : Char} (h : opBetween o c d = some op) :
    (op = '*' ∧ (isDig c = true ∨ isLow c = true ∨ c = ')') ∧ (isLow d = true ∨ d = '(')) ∨ (op = '^' ∧ (isLow c = true ∨ c = ')') ∧ isDig d = true) := by
  unfold opBetween at h
  simp only at h
  by_cases h1 : isDig c = true
  · rw [if_pos h1] at h
    split at h
    · rename_i h2
      left
      refine ⟨(Option.some.inj h).symm, Or.inl h1, ?_⟩
      rcases h2 with h2 | h2
      · exact Or.inr h2
      · rw [Bool.and_eq_true] at h2; exact Or.inl h2.1
    · simp at h
  · rw [if_neg h1] at h
    split at h
    · rename_i h2
      have hc : isLow c = true ∨ c = ')' := by
        rcases h2 with h2 | h2
        · exact Or.inr h2
        · rw [Bool.and_eq_true] at h2; exact Or.inl h2.1
      split at h
      · rename_i h3
        exact Or.inl ⟨(Option.some.inj h).symm, Or.inr hc, h3.symm⟩
      · split at h
        · rename_i h4
          exact Or.inr ⟨(Option.some.inj h).symm, hc, h4⟩
        · simp at h
    · simp at h

theorem completeFuel_ins (o : Opts) : ∀ (k : ℕ) (s : List Char), Ins s (completeFuel o k s)
  | 0, s => Ins.refl s
  | k + 1, [] => .nil
  | k + 1, [c] => .keep c .nil
  | k + 1, c :: d :: r => by
    unfold completeFuel
    split
    · have := Ins.append_left ((c :: d :: r).take 5) (completeFuel_ins o k ((c :: d :: r).drop 5))
      rwa [List.take_append_drop] at this
    · have ih := completeFuel_ins o k (d :: r)
      obtain ⟨t, ht⟩ := completeFuel_head o k d r
      rw [ht] at ih ⊢
      split
      · rename_i op hop
        rcases opBetween_some hop with ⟨rfl, h1, h2⟩ | ⟨rfl, h1, h2⟩
        · exact .times h1 h2 ih
        · exact .power h1 h2 ih
      · exact .keep c ih

/-- **C44 (only insertions).** Apart from deleting spaces, the completion only inserts `*` and `^`, each at a place where it stands for an
implicit product or power. -/
theorem completion_inserts (o : Opts) (s : List Char) : Ins (s.filter (· ≠ ' ')) (completion o s) := completeFuel_ins o _ _

theorem dropPrefix_spec : ∀ (p s r : List Char), dropPrefix p s = some r ↔ s = p ++ r
  | [], s, r => by simp [dropPrefix]
  | c :: p, [], r => by simp [dropPrefix]
  | c :: p, d :: s, r => by
    unfold dropPrefix
    by_cases h : c = d
    · subst h; rw [if_pos rfl, dropPrefix_spec p s r]; simp
    · rw [if_neg h]; simp [Ne.symm h]

theorem protected_spec (o : Opts) (s : List Char) : protectedCall o s = true ↔
    ∃ r, (o.keepSqrt = true ∧ s = "sqrt(".toList ++ r) ∨ (o.keepCbrt = true ∧ s = "cbrt(".toList ++ r) := by
  unfold protectedCall
  rw [Bool.or_eq_true, Bool.and_eq_true, Bool.and_eq_true, Option.isSome_iff_exists, Option.isSome_iff_exists]
  constructor
  · rintro (⟨h1, r, h2⟩ | ⟨h1, r, h2⟩)
    · exact ⟨r, Or.inl ⟨h1, (dropPrefix_spec _ _ _).1 h2⟩⟩
    · exact ⟨r, Or.inr ⟨h1, (dropPrefix_spec _ _ _).1 h2⟩⟩
  · rintro ⟨r, ⟨h1, h2⟩ | ⟨h1, h2⟩⟩
    · exact Or.inl ⟨h1, r, (dropPrefix_spec _ _ _).2 h2⟩
    · exact Or.inr ⟨h1, r, (dropPrefix_spec _ _ _).2 h2⟩

theorem opBetween_sq (o : Opts) : opBetween o 's' 'q' = some '*' ∧ opBetween o 'c' 'b' = some '*' := by
  obtain ⟨a, b, c⟩ := o
  cases a <;> exact ⟨rfl, rfl⟩

theorem opBetween_left (o : Opts) (c op : Char) (h : op = '*' ∨ op = '^') : opBetween o c op = none := by
  obtain ⟨a, b, d⟩ := o
  unfold opBetween
  have e1 : isLow op = false := by rcases h with rfl | rfl <;> decide
  have e2 : isDig op = false := by rcases h with rfl | rfl <;> decide
  have e3 : op ≠ '(' := by rcases h with rfl | rfl <;> decide
  simp [e1, e2, e3]

theorem opBetween_right (o : Opts) (d op : Char) (h : op = '*' ∨ op = '^') : opBetween o op d = none := by
  obtain ⟨a, b, c⟩ := o
  unfold opBetween
  have e1 : isLow op = false := by rcases h with rfl | rfl <;> decide
  have e2 : isDig op = false := by rcases h with rfl | rfl <;> decide
  have e3 : op ≠ ')' := by rcases h with rfl | rfl <;> decide
  simp [e1, e2, e3]

theorem completeFuel_idem (o : Opts) : ∀ (k : ℕ) (s : List Char), s.length ≤ k → ∀ k', (completeFuel o k s).length ≤ k' →
    completeFuel o k' (completeFuel o k s) = completeFuel o k s := by
  intro k
  induction k with
  | zero =>
    intro s hs k' _
    have : s = [] := List.length_eq_zero_iff.1 (by omega)
    subst this
    cases k' <;> rfl
  | succ k ih =>
    intro s hs k' hk'
    match s with
    | [] => cases k' <;> rfl
    | [c] => cases k' <;> rfl
    | c :: d :: r =>
      rw [completeFuel] at hk' ⊢
      by_cases hp : isDig c = false ∧ protectedCall o (c :: d :: r) = true
      · rw [if_pos hp] at hk' ⊢
        have main : ∀ (p tail : List Char), p.length = 5 → c :: d :: r = p ++ tail →
            (∀ w, isDig (p.headD ' ') = false ∧ protectedCall o (p ++ w) = true) →
            completeFuel o k' ((c :: d :: r).take 5 ++ completeFuel o k ((c :: d :: r).drop 5)) = (c :: d :: r).take 5 ++ completeFuel o k ((c :: d :: r).drop 5) := by
          intro p tail hp5 he hpr
          rw [he, List.take_left' hp5, List.drop_left' hp5] at hk' ⊢
          rw [he, List.length_append] at hs
          rw [List.length_append] at hk'
          match k', hk' with
          | 0, hk' => omega
          | k' + 1, hk' =>
            match p, hp5 with
            | [p1, p2, p3, p4, p5], _ =>
              have h2 := hpr (completeFuel o k tail)
              have e : [p1, p2, p3, p4, p5] ++ completeFuel o k tail = p1 :: p2 :: p3 :: p4 :: p5 :: completeFuel o k tail := rfl
              rw [e] at h2 ⊢
              rw [List.headD_cons] at h2
              rw [completeFuel, if_pos h2]
              simp only [List.take_succ_cons, List.take_zero, List.drop_succ_cons, List.drop_zero]
              simp only [List.length_cons, List.length_nil] at hk' hs
              rw [ih tail (by omega) k' (by omega)]
              rfl
        obtain ⟨tail, h⟩ := (protected_spec o _).1 hp.2
        rcases h with ⟨h1, h2⟩ | ⟨h1, h2⟩
        · exact main _ tail rfl h2 (fun w => ⟨by decide, (protected_spec o _).2 ⟨w, Or.inl ⟨h1, rfl⟩⟩⟩)
        · exact main _ tail rfl h2 (fun w => ⟨by decide, (protected_spec o _).2 ⟨w, Or.inr ⟨h1, rfl⟩⟩⟩)
      · rw [if_neg hp] at hk' ⊢
        simp only [List.length_cons] at hs
        obtain ⟨t, ht⟩ := completeFuel_head o k d r
        have ih' := ih (d :: r) (by simp; omega)
        rw [ht] at ih' hk' ⊢
        cases hop : opBetween o c d with
        | some op =>
          rw [hop] at hk'
          simp only at hk' ⊢
          have hopc : op = '*' ∨ op = '^' := by
            rcases opBetween_some hop with h | h
            · exact Or.inl h.1
            · exact Or.inr h.1
          simp only [List.length_cons] at hk'
          match k', hk' with
          | k' + 2, hk' =>
            have n1 : ¬ (isDig c = false ∧ protectedCall o (c :: op :: d :: t) = true) := by
              rintro ⟨-, h⟩
              obtain ⟨w, h⟩ := (protected_spec o _).1 h
              have e : op = 'q' ∨ op = 'b' := by
                rcases h with ⟨-, h⟩ | ⟨-, h⟩
                · left; have := congrArg (fun l => l.getD 1 ' ') h; simpa using this
                · right; have := congrArg (fun l => l.getD 1 ' ') h; simpa using this
              rcases hopc with rfl | rfl <;> rcases e with e | e <;> exact absurd e (by decide)
            have n2 : ¬ (isDig op = false ∧ protectedCall o (op :: d :: t) = true) := by
              rintro ⟨-, h⟩
              obtain ⟨w, h⟩ := (protected_spec o _).1 h
              have e : op = 's' ∨ op = 'c' := by
                rcases h with ⟨-, h⟩ | ⟨-, h⟩
                · left; have := congrArg (fun l => l.getD 0 ' ') h; simpa using this
                · right; have := congrArg (fun l => l.getD 0 ' ') h; simpa using this
              rcases hopc with rfl | rfl <;> rcases e with e | e <;> exact absurd e (by decide)
            rw [completeFuel, if_neg n1, opBetween_left o c op hopc]
            simp only
            rw [completeFuel, if_neg n2, opBetween_right o d op hopc]
            simp only
            rw [ih' k' (by simp; omega)]
        | none =>
          rw [hop] at hk'
          simp only at hk' ⊢
          simp only [List.length_cons] at hk'
          match k', hk' with
          | k' + 1, hk' =>
            have n1 : ¬ (isDig c = false ∧ protectedCall o (c :: d :: t) = true) := by
              rintro ⟨-, h⟩
              obtain ⟨w, h⟩ := (protected_spec o _).1 h
              rcases h with ⟨-, h⟩ | ⟨-, h⟩
              · have e1 := congrArg (fun l => l.getD 0 ' ') h
                have e2 := congrArg (fun l => l.getD 1 ' ') h
                simp at e1 e2
                subst e1; subst e2
                rw [(opBetween_sq o).1] at hop; simp at hop
              · have e1 := congrArg (fun l => l.getD 0 ' ') h
                have e2 := congrArg (fun l => l.getD 1 ' ') h
                simp at e1 e2
                subst e1; subst e2
                rw [(opBetween_sq o).2] at hop; simp at hop
            rw [completeFuel, if_neg n1, hop]
            simp only
            rw [ih' k' (by simp; omega)]

theorem Ins.no_space {s t : List Char} (h : Ins s t) (hs : ' ' ∉ s) : ' ' ∉ t := by
  induction h with
  | nil => exact hs
  | keep c _ ih =>
    rw [List.mem_cons, not_or] at hs ⊢
    exact ⟨hs.1, ih hs.2⟩
  | times _ _ _ ih =>
    rw [List.mem_cons, not_or] at hs ⊢
    refine ⟨hs.1, ?_⟩
    rw [List.mem_cons, not_or]
    exact ⟨by decide, ih hs.2⟩
  | power _ _ _ ih =>
    rw [List.mem_cons, not_or] at hs ⊢
    refine ⟨hs.1, ?_⟩
    rw [List.mem_cons, not_or]
    exact ⟨by decide, ih hs.2⟩

/-- **C44 (idempotent).** Completing a completed text changes nothing. -/
theorem completion_idem (o : Opts) (s : List Char) : completion o (completion o s) = completion o s := by
  have hsp : ' ' ∉ completion o s := (completion_inserts o s).no_space (by simp)
  have hf : (completion o s).filter (· ≠ ' ') = completion o s := by
    apply List.filter_eq_self.2
    intro c hc
    rw [decide_eq_true_eq]
    rintro rfl
    exact hsp hc
  change completeFuel o ((completion o s).filter (· ≠ ' ')).length ((completion o s).filter (· ≠ ' ')) = completion o s
  rw [hf]
  exact completeFuel_idem o _ _ le_rfl _ le_rfl

theorem completeFuel_chain (o : Opts) (h1 : o.keepSqrt = false) (h2 : o.keepCbrt = false) : ∀ (k : ℕ) (s : List Char), s.length ≤ k →
    (completeFuel o k s).IsChain (fun c d => opBetween o c d = none)
  | 0, s, hs => by
    have : s = [] := List.length_eq_zero_iff.1 (by omega)
    subst this
    exact .nil
  | k + 1, [], _ => .nil
  | k + 1, [c], _ => .singleton c
  | k + 1, c :: d :: r, hs => by
    have hp : ¬ (isDig c = false ∧ protectedCall o (c :: d :: r) = true) := by
      rintro ⟨-, h⟩
      obtain ⟨w, ⟨h, -⟩ | ⟨h, -⟩⟩ := (protected_spec o _).1 h
      · rw [h1] at h; simp at h
      · rw [h2] at h; simp at h
    rw [completeFuel, if_neg hp]
    simp only [List.length_cons] at hs
    obtain ⟨t, ht⟩ := completeFuel_head o k d r
    have ih := completeFuel_chain o h1 h2 k (d :: r) (by simp; omega)
    rw [ht] at ih ⊢
    cases hop : opBetween o c d with
    | some op =>
      have hopc : op = '*' ∨ op = '^' := by
        rcases opBetween_some hop with h | h
        · exact Or.inl h.1
        · exact Or.inr h.1
      exact .cons_cons (opBetween_left o c op hopc) (.cons_cons (opBetween_right o d op hopc) ih)
    | none => exact .cons_cons hop ih

/-- **C44 (complete).** When `sqrt` and `cbrt` are not preserved, no implicit product or power is left: in the result a digit is never followed by
`(` or a letter, and a letter or `)` never by `(`, a letter or a digit (without scientific notation). -/
theorem completion_complete (s : List Char) : (completion ⟨false, false, false⟩ s).IsChain fun c d =>
    ¬ ((isDig c = true ∧ (d = '(' ∨ isLow d = true)) ∨ ((isLow c = true ∨ c = ')') ∧ (d = '(' ∨ isLow d = true ∨ isDig d = true))) := by
  have := completeFuel_chain ⟨false, false, false⟩ rfl rfl _ (s.filter (· ≠ ' ')) le_rfl
  refine this.imp ?_
  intro c d h hh
  unfold opBetween at h
  simp only [Bool.false_and, Bool.not_false, Bool.and_true] at h
  by_cases hc : isDig c = true
  · rw [if_pos hc] at h
    have hnl : ¬ (isLow c = true ∨ c = ')') := by
      rintro (hl | rfl)
      · unfold isDig at hc
        unfold isLow at hl
        simp at hc hl
        omega
      · exact absurd hc (by decide)
    rcases hh with ⟨-, hd⟩ | ⟨hl, -⟩
    · rw [if_pos hd] at h; simp at h
    · exact hnl hl
  · rw [if_neg hc] at h
    rcases hh with ⟨hc', -⟩ | ⟨hl, hd⟩
    · exact hc hc'
    · rw [if_pos hl.symm] at h
      by_cases hd1 : d = '(' ∨ isLow d = true
      · rw [if_pos hd1] at h; simp at h
      · rw [if_neg hd1] at h
        have : isDig d = true := by
          rcases hd with hd | hd | hd
          · exact absurd (Or.inl hd) hd1
          · exact absurd (Or.inr hd) hd1
          · exact hd
        rw [if_pos this] at h; simp at h

example : completion ⟨false, true, false⟩ "1/5a3b2c + 2(a+b)2sqrt(3)x1e2".toList = "1/5*a^3*b^2*c+2*(a+b)^2*sqrt(3)*x^1*e^2".toList := by decide +kernel
example : completion ⟨true, true, false⟩ "1e2a".toList = "1e2*a".toList := by decide +kernel

/-! ### C45: cyclic expansion -/

theorem ordNames_single : ∀ (names : List Char), ordNames (names.map fun c => [c]) = .ok names
  | [] => rfl
  | c :: l => by
    change (ordNames (l.map fun c => [c])).map (fun r => c :: r) = _
    rw [ordNames_single l]; rfl

/-- The renaming of the letters by a permutation: the variable at position `i` becomes the variable at position `p[i]`. -/
theorem translation_spec {n : ℕ} {names : List Char} (hn : names.Nodup) (hl : names.length = n) {p : List ℕ} (hp : p.Perm (List.range n)) :
    (∀ (i : ℕ) (c d : Char), names[i]? = some c → (p[i]?.bind (names[·]?)) = some d → (dget (translation names p) c).getD c = d) ∧
      ∀ c, c ∉ names → (dget (translation names p) c).getD c = c := by
  have hk : ((List.zip names (papply p names)).map Prod.fst).Nodup := by
    rw [List.map_fst_zip (by
      unfold papply
      rw [List.length_map, hp.length_eq, List.length_range, hl])]
    exact hn
  constructor
  · intro i c d hc hd
    have hm : (c, d) ∈ List.zip names (papply p names) := by
      apply List.mem_of_getElem? (i := i)
      rw [List.getElem?_zip_eq_some]
      refine ⟨hc, ?_⟩
      unfold papply
      rw [List.getElem?_map]
      cases hpi : p[i]? with
      | none => rw [hpi] at hd; simp at hd
      | some q =>
        rw [hpi] at hd
        have hd' : names[q]? = some d := hd
        rw [Option.map_some, List.getD_eq_getElem?_getD, hd']
        rfl
    have : dget (translation names p) c = some d := by
      unfold translation
      rw [dget_dictOf_of_nodup _ hk]
      exact (dget_eq_some_iff _ hk _ _).2 hm
    rw [this]; rfl
  · intro c hc
    have : dget (translation names p) c = none := by
      cases h : dget (translation names p) c with
      | none => rfl
      | some d =>
        unfold translation at h
        rw [dget_dictOf_of_nodup _ hk] at h
        exact absurd (List.of_mem_zip ((dget_eq_some_iff _ hk _ _).1 h)).1 hc
    rw [this]; rfl

/-- **C45.** For distinct one-letter variables the expansion is the sum (or product) over the elements of the group, in order, of the text with
every variable renamed simultaneously: the variable at position `i` becomes the variable at position `p[i]`, other characters stay. -/
theorem cycleExpansion_spec {n : ℕ} {names : List Char} (hn : names.Nodup) (hl : names.length = n) {G : List (List ℕ)}
    (hG : ∀ p ∈ G, p.Perm (List.range n)) (f : List Char) (product : Bool) :
    ∃ σ : List ℕ → Char → Char,
      (∀ p ∈ G, (∀ (i : ℕ) (c d : Char), names[i]? = some c → (p[i]?.bind (names[·]?)) = some d → σ p c = d) ∧ ∀ c, c ∉ names → σ p c = c) ∧
      cycleExpansion (names.map fun c => [c]) G f product =
        .ok (joinWith (if product then " * ".toList else " + ".toList) (G.map fun p => f.map (σ p))) := by
  refine ⟨fun p c => (dget (translation names p) c).getD c, fun p hp => translation_spec hn hl (hG p hp), ?_⟩
  unfold cycleExpansion
  rw [ordNames_single]
  rfl

/-- A variable name of more than one letter raises `TypeError`. -/
theorem cycleExpansion_long_name (a b : List (List Char)) (x : List Char) (hx : x.length ≠ 1) (ha : ∀ y ∈ a, y.length = 1) (G : List (List ℕ))
    (f : List Char) (product : Bool) : cycleExpansion (a ++ x :: b) G f product = .error .typeError := by
  have : ordNames (a ++ x :: b) = .error .typeError := by
    induction a with
    | nil =>
      match x, hx with
      | [], _ => rfl
      | [c], h => exact absurd rfl h
      | _ :: _ :: _, _ => rfl
    | cons y a ih =>
      have hy := ha y (by simp)
      match y, hy with
      | [c], _ =>
        change (ordNames (a ++ x :: b)).map (fun r => c :: r) = _
        rw [ih (fun z hz => ha z (by simp [hz]))]
        rfl
  unfold cycleExpansion
  rw [this]; rfl

example : cycleExpansion (["a", "b", "c"].map String.toList) [[0, 1, 2], [1, 2, 0], [2, 0, 1]] "a*(b-c)^2".toList false =
    .ok "a*(b-c)^2 + b*(c-a)^2 + c*(a-b)^2".toList := by decide +kernel
example : (['a', 'b', 'c'] : List Char).Nodup ∧ ∀ p ∈ [[0, 1, 2], [1, 2, 0], [2, 0, 1]], p.Perm (List.range 3) := by decide +kernel

/-! Nested sums and products: the language of texts on which the expansion is defined. -/

/-- A text with parentheses, cyclic sums `s(...)`, cyclic products `p(...)`, the word `sqrt` and other characters. -/
inductive Tree
  | nil
  | chr (c : Char) (rest : Tree)
  | sqrt (rest : Tree)
  | par (body rest : Tree)
  | cyc (product : Bool) (body rest : Tree)

/-- The letter of a cyclic sum or product. -/
def cycLetter (product : Bool) : Char := if product then 'p' else 's'

/-- The text as written. -/
def Tree.render : Tree → List Char
  | .nil => []
  | .chr c r => c :: r.render
  | .sqrt r => "sqrt".toList ++ r.render
  | .par b r => '(' :: b.render ++ ')' :: r.render
  | .cyc pr b r => cycLetter pr :: '(' :: b.render ++ ')' :: r.render

/-- The text meant: every cyclic sum or product replaced, from the inside out, by the expansion `E` of its body, in parentheses. -/
def Tree.expand (E : List Char → Bool → List Char) : Tree → List Char
  | .nil => []
  | .chr c r => c :: r.expand E
  | .sqrt r => "sqrt".toList ++ r.expand E
  | .par b r => '(' :: b.expand E ++ ')' :: r.expand E
  | .cyc pr b r => '(' :: E ('(' :: b.expand E ++ [')']) pr ++ ')' :: r.expand E

/-- Other characters are not `s`, `p` or parentheses; the body of a sum or product is not empty. -/
def Tree.Ok : Tree → Prop
  | .nil => True
  | .chr c r => (c ≠ 's' ∧ c ≠ 'p' ∧ c ≠ '(' ∧ c ≠ ')') ∧ r.Ok
  | .sqrt r => r.Ok
  | .par b r => b.Ok ∧ r.Ok
  | .cyc _ b r => b.render ≠ [] ∧ b.Ok ∧ r.Ok

theorem opens_other {c : Char} (r : List Char) (h1 : c ≠ 's') (h2 : c ≠ 'p') : opens (c :: r) = false := by
  simp [opens, h1, h2]

theorem opens_cyc (pr : Bool) (b r : List Char) (hb : b ≠ []) : opens (cycLetter pr :: '(' :: b ++ ')' :: r) = true := by
  cases pr
  · match b, hb with
    | x :: b, _ =>
      simp [opens, cycLetter]
      omega
  · simp [opens, cycLetter]

theorem expandLoop_cons (cyc : List Char → Char → Except PyErr (List Char)) (pre r : List Char) (c : Char) (par : ℤ) (st : List ℤ) (bs : List ℕ) :
    expandLoop cyc pre (c :: r) par st bs =
      if opens (c :: r) then expandLoop cyc (pre ++ [c]) r par (par :: st) (pre.length :: bs)
      else if c = '(' then expandLoop cyc (pre ++ [c]) r (par + 1) st bs
      else if c = ')' then
        match st with
        | [] => .error .indexError
        | top :: st' =>
          if top = par - 1 then
            match bs with
            | [] => .error .indexError
            | b :: bs' => match cyc ((pre ++ [c]).drop (b + 1)) (pre.getD b ' ') with
              | .error e => .error e
              | .ok t => expandLoop cyc (pre.take b ++ ('(' :: t ++ [')'])) r (par - 1) st' bs'
          else expandLoop cyc (pre ++ [c]) r (par - 1) st bs
      else expandLoop cyc (pre ++ [c]) r par st bs := rfl

theorem expandLoop_char (cyc : List Char → Char → Except PyErr (List Char)) {pre r : List Char} {c : Char} {par : ℤ} {st : List ℤ} {bs : List ℕ}
    (h0 : opens (c :: r) = false) (h3 : c ≠ '(') (h4 : c ≠ ')') :
    expandLoop cyc pre (c :: r) par st bs = expandLoop cyc (pre ++ [c]) r par st bs := by
  rw [expandLoop_cons, if_neg (by rw [h0]; decide), if_neg h3, if_neg h4]

theorem expandLoop_tree (cyc : List Char → Char → Except PyErr (List Char)) (E : List Char → Bool → List Char)
    (hE : ∀ t pr, cyc t (cycLetter pr) = .ok (E t pr)) : ∀ (t : Tree), t.Ok → ∀ (pre rest : List Char) (par top : ℤ) (st : List ℤ) (bs : List ℕ), top < par + 0 →
      expandLoop cyc pre (t.render ++ rest) par (top :: st) bs = expandLoop cyc (pre ++ t.expand E) rest par (top :: st) bs := by
  intro t
  induction t with
  | nil => intro _ pre rest par top st bs _; simp [Tree.render, Tree.expand]
  | chr c r ih =>
    intro hok pre rest par top st bs htop
    obtain ⟨⟨h1, h2, h3, h4⟩, hr⟩ := hok
    change expandLoop cyc pre (c :: (r.render ++ rest)) par (top :: st) bs = _
    rw [expandLoop_char cyc (opens_other _ h1 h2) h3 h4, ih hr _ _ _ _ _ _ htop]
    simp [Tree.expand]
  | sqrt r ih =>
    intro hok pre rest par top st bs htop
    change expandLoop cyc pre ('s' :: 'q' :: 'r' :: 't' :: (r.render ++ rest)) par (top :: st) bs = _
    rw [expandLoop_char cyc (by simp [opens]) (by decide) (by decide),
      expandLoop_char cyc (opens_other _ (by decide) (by decide)) (by decide) (by decide),
      expandLoop_char cyc (opens_other _ (by decide) (by decide)) (by decide) (by decide),
      expandLoop_char cyc (opens_other _ (by decide) (by decide)) (by decide) (by decide), ih hok _ _ _ _ _ _ htop]
    simp [Tree.expand]
  | par b r ihb ihr =>
    intro hok pre rest par top st bs htop
    obtain ⟨hb, hr⟩ := hok
    have e : (Tree.par b r).render ++ rest = '(' :: (b.render ++ (')' :: (r.render ++ rest))) := by simp [Tree.render]
    rw [e, expandLoop_cons, if_neg (by rw [opens_other _ (by decide) (by decide)]; decide), if_pos rfl, ihb hb _ _ _ _ _ _ (by omega), expandLoop_cons,
      if_neg (by rw [opens_other _ (by decide) (by decide)]; decide), if_neg (by decide), if_pos rfl]
    simp only
    rw [if_neg (by omega)]
    have : par + 1 - 1 = par := by omega
    rw [this, ihr hr _ _ _ _ _ _ htop]
    simp [Tree.expand]
  | cyc pr b r ihb ihr =>
    intro hok pre rest par top st bs htop
    obtain ⟨hne, hb, hr⟩ := hok
    have e : (Tree.cyc pr b r).render ++ rest = cycLetter pr :: '(' :: b.render ++ ')' :: (r.render ++ rest) := by simp [Tree.render]
    have e2 : cycLetter pr :: '(' :: b.render ++ ')' :: (r.render ++ rest) = cycLetter pr :: ('(' :: (b.render ++ ')' :: (r.render ++ rest))) := by simp
    have ho := opens_cyc pr b.render (r.render ++ rest) hne
    rw [e2] at ho
    rw [e, e2, expandLoop_cons, if_pos ho, expandLoop_cons, if_neg (by rw [opens_other _ (by decide) (by decide)]; decide), if_pos rfl,
      ihb hb _ _ _ _ _ _ (by omega), expandLoop_cons, if_neg (by rw [opens_other _ (by decide) (by decide)]; decide), if_neg (by decide), if_pos rfl]
    simp only
    rw [if_pos (by omega)]
    have d1 : (pre ++ [cycLetter pr] ++ ['('] ++ b.expand E ++ [')']).drop (pre.length + 1) = '(' :: b.expand E ++ [')'] := by
      have : pre ++ [cycLetter pr] ++ ['('] ++ b.expand E ++ [')'] = (pre ++ [cycLetter pr]) ++ ('(' :: b.expand E ++ [')']) := by simp
      rw [this, List.drop_left' (by simp)]
    have d2 : (pre ++ [cycLetter pr] ++ ['('] ++ b.expand E).getD pre.length ' ' = cycLetter pr := by
      have : pre ++ [cycLetter pr] ++ ['('] ++ b.expand E = pre ++ (cycLetter pr :: '(' :: b.expand E) := by simp
      rw [this, List.getD_eq_getElem?_getD, List.getElem?_append_right le_rfl]
      simp
    have d3 : (pre ++ [cycLetter pr] ++ ['('] ++ b.expand E).take pre.length = pre := by
      have : pre ++ [cycLetter pr] ++ ['('] ++ b.expand E = pre ++ (cycLetter pr :: '(' :: b.expand E) := by simp
      rw [this, List.take_left]
    rw [d1, d2, d3, hE]
    simp only
    have : par + 1 - 1 = par := by omega
    rw [this, ihr hr _ _ _ _ _ _ htop]
    simp [Tree.expand]

/-- **C45 (nesting).** For distinct one-letter variables, a text with any nesting of parentheses, cyclic sums, cyclic products and `sqrt`
is expanded from the inside out, and nothing else in it changes. -/
theorem expansion_tree (names : List Char) (G : List (List ℕ)) (t : Tree) (ht : t.Ok) :
    ∃ E : List Char → Bool → List Char, (∀ f product, cycleExpansion (names.map fun c => [c]) G f product = .ok (E f product)) ∧
      expansion (names.map fun c => [c]) G t.render = .ok (t.expand E) := by
  refine ⟨fun f product => joinWith (separator product) (G.map fun p => translate (translation names p) f), ?_, ?_⟩
  · intro f product
    unfold cycleExpansion
    rw [ordNames_single]
    rfl
  · unfold expansion
    have := expandLoop_tree (fun t sym => cycleExpansion (names.map fun c => [c]) G t (decide (sym = 'p')))
      (fun f product => joinWith (separator product) (G.map fun p => translate (translation names p) f)) (by
        intro t pr
        unfold cycleExpansion
        rw [ordNames_single]
        cases pr <;> rfl) t ht [] [] 0 (-1) [] [] (by omega)
    rw [List.append_nil] at this
    rw [this]
    rfl

example : (Tree.cyc false (.chr 'a' (.cyc true (.chr 'a' (.chr '+' (.chr 'b' .nil))) .nil)) (.sqrt (.par (.chr '2' .nil) .nil))).Ok := by
  simp [Tree.Ok, Tree.render]
example : expansion (["a", "b"].map String.toList) [[0, 1], [1, 0]] "s(ap(a+1))".toList =
    .ok "((a((a+1) * (b+1))) + (b((b+1) * (a+1))))".toList := by decide +kernel

/-- A text with an unmatched `)` may raise `IndexError` instead of being reported as unbalanced. -/
theorem expansion_unbalanced : expansion (["a", "b"].map String.toList) [[0, 1], [1, 0]] "a)".toList = .error .indexError := by decide +kernel

/-! ### C64: conversion from LaTeX keeps parentheses balanced -/

/-- `+1` for `(`, `-1` for `)`. -/
def delta (c : Char) : ℤ := if c = '(' then 1 else if c = ')' then -1 else 0

/-- Opening minus closing parentheses. -/
def depth (s : List Char) : ℤ := (s.map delta).sum

/-- No prefix closes more than `d` parentheses it did not open. -/
def Nonneg : ℤ → List Char → Prop
  | d, [] => 0 ≤ d
  | d, c :: s => 0 ≤ d ∧ Nonneg (d + delta c) s

theorem depth_append (s t : List Char) : depth (s ++ t) = depth s + depth t := by simp [depth]

theorem depth_cons (c : Char) (t : List Char) : depth (c :: t) = delta c + depth t := by simp [depth]

theorem Nonneg.nonneg {d : ℤ} {s : List Char} (h : Nonneg d s) : 0 ≤ d := by
  cases s with
  | nil => exact h
  | cons c s => exact h.1

theorem delatexLoop_zero (pre rest : List Char) (par : ℤ) (st : List ℤ) : delatexLoop 0 pre rest par st = .ok (pre ++ rest, st) := rfl

theorem delatexLoop_succ (k : ℕ) (pre rest : List Char) (par : ℤ) (st : List ℤ) : delatexLoop (k + 1) pre rest par st =
    if rest.length < 5 then .ok (pre ++ rest, st)
    else match dropPrefix "sum".toList rest with
    | some r => delatexLoop k (pre ++ ['s', '(']) r (par + 1) ((par + 1) :: st)
    | none => match dropPrefix "prod".toList rest with
      | some r => delatexLoop k (pre ++ ['p', '(']) r (par + 1) ((par + 1) :: st)
      | none => match rest with
        | [] => .ok (pre, st)
        | c :: r =>
          if c = '(' then delatexLoop k (pre ++ [c]) r (par + 1) st
          else if c = ')' then delatexLoop k (pre ++ [c]) r (par - 1) st
          else match st with
            | [] => .error .indexError
            | top :: st' =>
              if par = top ∧ (c = '+' ∨ c = '-') then delatexLoop k (pre ++ [')']) (c :: r) (par - 1) st'
              else delatexLoop k (pre ++ [c]) r par st := rfl

theorem delatexLoop_balance : ∀ (k : ℕ) (pre rest : List Char) (par : ℤ) (L : List ℤ), Nonneg (par - L.length) rest →
    ∃ out L', delatexLoop k pre rest par (L ++ [-1]) = .ok (out, L' ++ [-1]) ∧ depth out - L'.length = depth pre + depth rest - L.length := by
  intro k
  induction k with
  | zero =>
    intro pre rest par L _
    exact ⟨_, L, rfl, by rw [depth_append]⟩
  | succ k ih =>
    intro pre rest par L hnn
    rw [delatexLoop_succ]
    by_cases h5 : rest.length < 5
    · rw [if_pos h5]
      exact ⟨_, L, rfl, by rw [depth_append]⟩
    rw [if_neg h5]
    cases hs : dropPrefix "sum".toList rest with
    | some r =>
      have e := (dropPrefix_spec _ _ _).1 hs
      subst e
      obtain ⟨-, -, -, h⟩ := hnn
      obtain ⟨out, L', h1, h2⟩ := ih (pre ++ ['s', '(']) r (par + 1) ((par + 1) :: L) (by
        have : par + 1 - (((par + 1) :: L).length : ℤ) = par - L.length + delta 's' + delta 'u' + delta 'm' := by
          simp [delta]
        rw [this]; exact h)
      refine ⟨out, L', h1, ?_⟩
      rw [h2, depth_append, depth_append]
      have e1 : depth ['s', '('] = 1 := by decide
      have e2 : depth "sum".toList = 0 := by decide
      rw [e1, e2, List.length_cons]
      push_cast; ring
    | none =>
    simp only
    cases hq : dropPrefix "prod".toList rest with
    | some r =>
      have e := (dropPrefix_spec _ _ _).1 hq
      subst e
      obtain ⟨-, -, -, -, h⟩ := hnn
      obtain ⟨out, L', h1, h2⟩ := ih (pre ++ ['p', '(']) r (par + 1) ((par + 1) :: L) (by
        have : par + 1 - (((par + 1) :: L).length : ℤ) = par - L.length + delta 'p' + delta 'r' + delta 'o' + delta 'd' := by
          simp [delta]
        rw [this]; exact h)
      refine ⟨out, L', h1, ?_⟩
      rw [h2, depth_append, depth_append]
      have e1 : depth ['p', '('] = 1 := by decide
      have e2 : depth "prod".toList = 0 := by decide
      rw [e1, e2, List.length_cons]
      push_cast; ring
    | none =>
    simp only
    match rest, hnn, h5 with
    | [], _, h5 => exact absurd (by simp) h5
    | c :: r, hnn, _ =>
      obtain ⟨hn0, hnr⟩ := hnn
      have keep : ∀ par', par' = par + delta c → ∃ out L', delatexLoop k (pre ++ [c]) r par' (L ++ [-1]) = .ok (out, L' ++ [-1]) ∧
          depth out - L'.length = depth pre + depth (c :: r) - L.length := by
        intro par' hp'
        obtain ⟨out, L', h1, h2⟩ := ih (pre ++ [c]) r par' L (by
          rw [hp']
          have : par + delta c - (L.length : ℤ) = par - L.length + delta c := by ring
          rw [this]; exact hnr)
        refine ⟨out, L', h1, ?_⟩
        rw [h2, depth_append, depth_cons c r, depth_cons c []]
        simp [depth]
        ring
      simp only
      by_cases h1 : c = '('
      · rw [if_pos h1]
        exact keep _ (by rw [h1]; rfl)
      rw [if_neg h1]
      by_cases h2 : c = ')'
      · rw [if_pos h2]
        exact keep _ (by rw [h2]; rfl)
      rw [if_neg h2]
      have hd : delta c = 0 := by simp [delta, h1, h2]
      match L, hn0, hnr, keep with
      | [], hn0, hnr, keep =>
        simp only [List.nil_append]
        rw [if_neg (by
          rintro ⟨h, -⟩
          simp at hn0
          omega)]
        exact keep par (by rw [hd]; ring)
      | x :: L, hn0, hnr, keep =>
        simp only [List.cons_append]
        by_cases hx : par = x ∧ (c = '+' ∨ c = '-')
        · rw [if_pos hx]
          obtain ⟨out, L', h1, h2⟩ := ih (pre ++ [')']) (c :: r) (par - 1) L (by
            have : par - 1 - (L.length : ℤ) = par - ((x :: L).length : ℤ) := by
              rw [List.length_cons]; push_cast; ring
            rw [this]
            exact ⟨hn0, hnr⟩)
          refine ⟨out, L', h1, ?_⟩
          rw [h2, depth_append]
          have : depth [')'] = -1 := by decide
          rw [this, List.length_cons]
          push_cast; ring
        · rw [if_neg hx]
          exact keep par (by rw [hd]; ring)

/-- **C64.** When no prefix of the text (with LaTeX braces read as parentheses) closes more parentheses than it opens, the conversion succeeds
and the result has the same surplus of opening parentheses as the input: every parenthesis it adds is closed. -/
theorem delatex_balanced (s : List Char) (h : Nonneg 0 (delatexPrep s)) : ∃ out, delatex s = .ok out ∧ depth out = depth (delatexPrep s) := by
  obtain ⟨out, L', h1, h2⟩ := delatexLoop_balance ((delatexPrep s).length + 1) [] (delatexPrep s) 0 [] (by simpa using h)
  refine ⟨out ++ List.replicate L'.length ')', ?_, ?_⟩
  · unfold delatex
    simp only
    rw [List.nil_append] at h1
    rw [h1]
    simp [Except.map]
  · rw [depth_append]
    have : ∀ n : ℕ, depth (List.replicate n ')') = -n := by
      intro n
      induction n with
      | zero => rfl
      | succ n ih => rw [List.replicate_succ, depth_cons, ih]; simp [delta]
    rw [this]
    simp [depth] at h2 ⊢
    omega

/-- The fuel of the loop is enough: any larger amount gives the same result. -/
theorem delatexLoop_fuel : ∀ (k k' : ℕ) (pre rest : List Char) (par : ℤ) (st : List ℤ), rest.length + st.length ≤ k → rest.length + st.length ≤ k' →
    delatexLoop k pre rest par st = delatexLoop k' pre rest par st := by
  intro k
  induction k with
  | zero =>
    intro k' pre rest par st hk hk'
    cases k' with
    | zero => rfl
    | succ k' => rw [delatexLoop_zero, delatexLoop_succ, if_pos (by omega)]
  | succ k ih =>
    intro k' pre rest par st hk hk'
    cases k' with
    | zero => rw [delatexLoop_zero, delatexLoop_succ, if_pos (by omega)]
    | succ k' =>
      rw [delatexLoop_succ, delatexLoop_succ]
      by_cases h5 : rest.length < 5
      · rw [if_pos h5, if_pos h5]
      rw [if_neg h5, if_neg h5]
      cases hs : dropPrefix "sum".toList rest with
      | some r =>
        have e := congrArg List.length ((dropPrefix_spec _ _ _).1 hs)
        simp at e
        exact ih _ _ _ _ _ (by simp; omega) (by simp; omega)
      | none =>
      cases hq : dropPrefix "prod".toList rest with
      | some r =>
        have e := congrArg List.length ((dropPrefix_spec _ _ _).1 hq)
        simp at e
        exact ih _ _ _ _ _ (by simp; omega) (by simp; omega)
      | none =>
      match rest, hk, hk' with
      | [], _, _ => rfl
      | c :: r, hk, hk' =>
        simp only [List.length_cons] at hk hk'
        simp only
        split
        · exact ih _ _ _ _ _ (by omega) (by omega)
        · split
          · exact ih _ _ _ _ _ (by omega) (by omega)
          · match st, hk, hk' with
            | [], _, _ => rfl
            | x :: st, hk, hk' =>
              simp only [List.length_cons] at hk hk'
              simp only
              split
              · exact ih _ _ _ _ _ (by simp; omega) (by simp; omega)
              · exact ih _ _ _ _ _ (by simp; omega) (by simp; omega)

example : Nonneg 0 (delatexPrep "$\\frac{a}{b}+\\sum a(a-b)^2 + 3$".toList) := by
  have : delatexPrep "$\\frac{a}{b}+\\sum a(a-b)^2 + 3$".toList = "(a)/(b)+suma(a-b)^2+3".toList := by decide +kernel
  rw [this]
  simp [Nonneg, delta]
example : delatex "$\\frac{a}{b}+\\sum a(a-b)^2+3abcd$".toList = .ok "(a)/(b)+s(a(a-b)^2)+3abcd".toList := by decide +kernel

/-- The loop stops four characters before the end: a sum with a one-letter body at the end is not converted, a longer one is; a sum followed by a
short tail swallows the tail. -/
theorem delatex_tail_wrong : delatex "\\sum a".toList = .ok "suma".toList ∧ delatex "\\sum ab".toList = .ok "s(ab)".toList ∧
    delatex "\\sum a^2b+3".toList = .ok "s(a^2b+3)".toList ∧ delatex "\\sum a^2b+3000".toList = .ok "s(a^2b)+3000".toList := by
  decide +kernel

/-! ### C46: coefficient triangle -/

/-- The monomial at row `i`, column `j`. -/
def triMonom (d : ℕ) (ij : ℕ × ℕ) : List ℕ := [d - ij.1, ij.1 - ij.2, ij.2]

theorem triFold {K T : Type*} (txt : K → T) (zero : T) (d : ℕ) : ∀ (g : List (ℕ × ℕ)) (terms : List (List ℕ × K)) (acc : List T),
    (g.map (triMonom d)).Nodup → (terms.map Prod.fst).Sublist (g.map (triMonom d)) → (∀ ij ∈ g, ij.2 ≤ ij.1 ∧ ij.1 ≤ d) →
    (g.foldl (triStep txt zero d) (terms, acc)).2 = acc ++ g.map fun ij => match dget terms (triMonom d ij) with | some c => txt c | none => zero := by
  intro g
  induction g with
  | nil => intro terms acc _ _ _; simp
  | cons ij g ih =>
    intro terms acc hn hs hg
    rw [List.map_cons, List.nodup_cons] at hn
    rw [List.foldl_cons]
    match terms with
    | [] =>
      change (g.foldl (triStep txt zero d) ([], acc ++ [zero])).2 = _
      rw [ih [] _ hn.2 (by simp) (fun q hq => hg q (by simp [hq]))]
      simp [dget]
    | t :: ts =>
      rw [List.map_cons, List.map_cons] at hs
      have hstep : triStep txt zero d (t :: ts, acc) ij =
          if t.1.getD 0 0 = d - ij.1 ∧ t.1.getD 1 0 = ij.1 - ij.2 then (ts, acc ++ [txt t.2]) else (t :: ts, acc ++ [zero]) := rfl
      rw [hstep]
      rw [List.sublist_cons_iff] at hs
      by_cases hm : t.1 = triMonom d ij
      · have hs' : (ts.map Prod.fst).Sublist (g.map (triMonom d)) := by
          rcases hs with hs | ⟨r, hr, hs⟩
          · exact absurd (hs.subset (by simp [hm])) hn.1
          · rw [List.cons.injEq] at hr
            rw [hr.2]; exact hs
        rw [if_pos (by rw [hm]; exact ⟨rfl, rfl⟩), ih ts _ hn.2 hs' (fun q hq => hg q (by simp [hq])), List.map_cons]
        have e1 : dget (t :: ts) (triMonom d ij) = some t.2 := by
          obtain ⟨m, c⟩ := t
          simp only at hm
          rw [← hm]; simp [dget]
        rw [e1]
        have e2 : (g.map fun q => match dget ts (triMonom d q) with | some c => txt c | none => zero) =
            g.map fun q => match dget (t :: ts) (triMonom d q) with | some c => txt c | none => zero := by
          apply List.map_congr_left
          intro q hq
          have : t.1 ≠ triMonom d q := by
            intro h
            apply hn.1
            rw [← hm, h]
            exact List.mem_map_of_mem hq
          have e3 : dget (t :: ts) (triMonom d q) = dget ts (triMonom d q) := by
            obtain ⟨m, c⟩ := t
            simp only at this
            simp [dget, this]
          rw [e3]
        rw [e2]
        simp
      · have hs' : ((t :: ts).map Prod.fst).Sublist (g.map (triMonom d)) := by
          rcases hs with hs | ⟨r, hr, hs⟩
          · exact hs
          · rw [List.cons.injEq] at hr
            exact absurd hr.1 hm
        have hcond : ¬ (t.1.getD 0 0 = d - ij.1 ∧ t.1.getD 1 0 = ij.1 - ij.2) := by
          rintro ⟨h1, h2⟩
          have hmem : t.1 ∈ g.map (triMonom d) := hs'.subset (by simp)
          obtain ⟨q, hq, he⟩ := List.mem_map.1 hmem
          have hq' := hg q (by simp [hq])
          have hij := hg ij (by simp)
          apply hm
          rw [← he] at h1 h2 ⊢
          simp only [triMonom, List.getD_cons_zero, List.getD_cons_succ] at h1 h2
          unfold triMonom
          have : q.1 = ij.1 := by omega
          have : q.2 = ij.2 := by omega
          rw [‹q.1 = ij.1›, this]
        rw [if_neg hcond, ih (t :: ts) _ hn.2 hs' (fun q hq => hg q (by simp [hq])), List.map_cons]
        have e1 : dget (t :: ts) (triMonom d ij) = none := by
          rw [dget_eq_none_iff]
          intro h
          exact hn.1 (hs'.subset h)
        rw [e1]
        simp

theorem triGrid_succ (d : ℕ) : triGrid (d + 1) = triGrid d ++ (List.range (d + 2)).map fun j => (d + 1, j) := by
  unfold triGrid
  rw [List.range_succ (n := d + 1), List.flatMap_append, List.flatMap_singleton, ← List.range_succ]

theorem triGrid_length (d : ℕ) : (triGrid d).length = (d + 1) * (d + 2) / 2 := by
  induction d with
  | zero => rfl
  | succ d ih =>
    rw [triGrid_succ, List.length_append, ih, List.length_map, List.length_range]
    have : (d + 1 + 1) * (d + 1 + 2) = (d + 1) * (d + 2) + 2 * (d + 2) := by ring
    omega

theorem triGrid_get : ∀ (d i j : ℕ), j ≤ i → i ≤ d → (triGrid d)[i * (i + 1) / 2 + j]? = some (i, j) := by
  intro d
  induction d with
  | zero =>
    intro i j hj hi
    have : i = 0 := by omega
    subst this
    have : j = 0 := by omega
    subst this
    rfl
  | succ d ih =>
    intro i j hj hi
    rw [triGrid_succ]
    have hl := triGrid_length d
    by_cases h : i ≤ d
    · have := ih i j hj h
      rw [List.getElem?_append_left]
      · exact this
      · by_contra hc
        rw [List.getElem?_eq_none (by omega)] at this
        simp at this
    · have hi : i = d + 1 := by omega
      subst hi
      have e : (d + 1) * (d + 1 + 1) / 2 = (triGrid d).length := by rw [hl]
      rw [e, List.getElem?_append_right (by omega), Nat.add_sub_cancel_left, List.getElem?_map, List.getElem?_range (by omega)]
      rfl

theorem triGrid_mem {d : ℕ} {ij : ℕ × ℕ} : ij ∈ triGrid d ↔ ij.2 ≤ ij.1 ∧ ij.1 ≤ d := by
  unfold triGrid
  rw [List.mem_flatMap]
  constructor
  · rintro ⟨i, hi, h⟩
    rw [List.mem_map] at h
    obtain ⟨j, hj, rfl⟩ := h
    rw [List.mem_range] at hi hj
    exact ⟨by simp; omega, by simp; omega⟩
  · rintro ⟨h1, h2⟩
    exact ⟨ij.1, by rw [List.mem_range]; omega, List.mem_map.2 ⟨ij.2, by rw [List.mem_range]; omega, rfl⟩⟩

theorem triGrid_sorted (d : ℕ) : ((triGrid d).map (triMonom d)).Pairwise (· > ·) := by
  unfold triGrid
  rw [List.pairwise_map, List.pairwise_flatMap]
  constructor
  · intro i hi
    rw [List.pairwise_map]
    refine (List.pairwise_lt_range).imp_of_mem ?_
    intro a b ha hb hab
    rw [List.mem_range] at ha hb hi
    change triMonom d (i, b) < triMonom d (i, a)
    simp only [triMonom]
    rw [List.cons_lt_cons_iff]
    right
    refine ⟨rfl, ?_⟩
    rw [List.cons_lt_cons_iff]
    left
    omega
  · refine (List.pairwise_lt_range).imp_of_mem ?_
    intro a b ha hb hab x hx y hy
    rw [List.mem_map] at hx hy
    obtain ⟨j, hj, rfl⟩ := hx
    obtain ⟨k, hk, rfl⟩ := hy
    rw [List.mem_range] at ha hb
    change triMonom d (b, k) < triMonom d (a, j)
    simp only [triMonom]
    rw [List.cons_lt_cons_iff]
    left
    omega

/-- **C46.** For a homogeneous polynomial of degree `d` in three variables, with its terms in SymPy's (lexicographically descending) order, the
triangle has `(d+1)(d+2)/2` entries, and the entry at row `i` and column `j` is the text of the coefficient of `a^(d-i) b^(i-j) c^j`, or the zero
text when the monomial does not occur. -/
theorem coefficientTriangle_spec {K T : Type*} (txt : K → T) (zero : T) (terms : List (List ℕ × K)) (d : ℕ)
    (hsort : (terms.map Prod.fst).Pairwise (· > ·)) (hhom : ∀ t ∈ terms, t.1.length = 3 ∧ t.1.sum = d) :
    (coefficientTriangle txt zero terms d).length = (d + 1) * (d + 2) / 2 ∧
      ∀ i j, j ≤ i → i ≤ d →
        (∀ c, ([d - i, i - j, j], c) ∈ terms → (coefficientTriangle txt zero terms d)[i * (i + 1) / 2 + j]? = some (txt c)) ∧
        ((∀ c, ([d - i, i - j, j], c) ∉ terms) → (coefficientTriangle txt zero terms d)[i * (i + 1) / 2 + j]? = some zero) := by
  have hg := triGrid_sorted d
  have hnd : ((triGrid d).map (triMonom d)).Nodup := hg.imp (fun h => ne_of_gt h)
  have hnt : (terms.map Prod.fst).Nodup := hsort.imp (fun h => ne_of_gt h)
  have hsub : (terms.map Prod.fst).Sublist ((triGrid d).map (triMonom d)) := by
    apply List.sublist_of_subperm_of_pairwise _ hsort hg
    apply hnt.subperm
    intro m hm
    obtain ⟨t, ht, rfl⟩ := List.mem_map.1 hm
    obtain ⟨h3, hd⟩ := hhom t ht
    match hm : t.1, h3 with
    | [x, y, z], _ =>
      rw [hm] at hd
      simp at hd
      rw [List.mem_map]
      refine ⟨(y + z, z), triGrid_mem.2 ⟨by simp, by simp; omega⟩, ?_⟩
      simp [triMonom]
      omega
  have hmain : coefficientTriangle txt zero terms d =
      (triGrid d).map fun ij => match dget terms (triMonom d ij) with | some c => txt c | none => zero := by
    unfold coefficientTriangle
    rw [triFold txt zero d _ terms [] hnd hsub (fun ij h => triGrid_mem.1 h)]
    simp
  rw [hmain]
  refine ⟨by rw [List.length_map, triGrid_length], ?_⟩
  intro i j hj hi
  rw [List.getElem?_map, triGrid_get d i j hj hi]
  constructor
  · intro c hc
    have : dget terms (triMonom d (i, j)) = some c := (dget_eq_some_iff terms hnt _ _).2 hc
    rw [Option.map_some, this]
  · intro hno
    have : dget terms (triMonom d (i, j)) = none := by
      cases h : dget terms (triMonom d (i, j)) with
      | none => rfl
      | some c => exact absurd ((dget_eq_some_iff terms hnt _ _).1 h) (hno c)
    rw [Option.map_some, this]

example : coefficientTriangle (fun c : ℤ => c) 0 [([2, 0, 0], 1), ([1, 1, 0], -1), ([0, 0, 2], 5)] 2 = [1, -1, 0, 0, 0, 5] := by decide +kernel
example : (([([2, 0, 0], 1), ([1, 1, 0], -1), ([0, 0, 2], 5)] : List (List ℕ × ℤ)).map Prod.fst).Pairwise (· > ·) := by decide +kernel

/-! ### C42: exponents in text mode -/

theorem replaceFuel_skip (a : Char) (o new : List Char) : ∀ (l rest : List Char) (k : ℕ), a ∉ l → l.length ≤ k →
    replaceFuel (a :: o) new k (l ++ rest) = l ++ replaceFuel (a :: o) new (k - l.length) rest := by
  intro l
  induction l with
  | nil => intro rest k _ _; simp
  | cons c l ih =>
    intro rest k ha hk
    rw [List.mem_cons, not_or] at ha
    simp only [List.length_cons] at hk
    match k, hk with
    | k + 1, hk =>
      have : dropPrefix (a :: o) (c :: (l ++ rest)) = none := by simp [dropPrefix, ha.1]
      rw [List.cons_append, replaceFuel, this]
      simp only
      rw [ih rest k ha.2 (by omega)]
      simp

theorem replaceAll_none (a : Char) (o new l : List Char) (h : a ∉ l) : replaceAll (a :: o) new l = l := by
  unfold replaceAll
  have := replaceFuel_skip a o new l [] l.length h le_rfl
  rw [List.append_nil] at this
  rw [this]
  simp [replaceFuel]

theorem replaceFuel_hit (a : Char) (o new rest : List Char) (k : ℕ) :
    replaceFuel (a :: o) new (k + 1) ((a :: o) ++ rest) = new ++ replaceFuel (a :: o) new k rest := by
  have h : dropPrefix (a :: o) (a :: (o ++ rest)) = some rest := (dropPrefix_spec _ _ _).2 rfl
  rw [List.cons_append, replaceFuel, h]

theorem replaceAll_once (a : Char) (o new b rest : List Char) (h1 : a ∉ b) (h2 : a ∉ rest) :
    replaceAll (a :: o) new (b ++ ((a :: o) ++ rest)) = b ++ (new ++ rest) := by
  unfold replaceAll
  rw [replaceFuel_skip a o new b _ _ h1 (by simp)]
  have : (b ++ ((a :: o) ++ rest)).length - b.length = (o.length + rest.length) + 1 := by simp
  rw [this, replaceFuel_hit]
  have := replaceFuel_skip a o new rest [] (o.length + rest.length) h2 (by omega)
  rw [List.append_nil] at this
  rw [this]
  have : o.length + rest.length - rest.length = o.length := by omega
  rw [this]
  cases o.length <;> simp [replaceFuel]

theorem replaceAll_other (x y c : Char) (b rest : List Char) (h1 : '^' ∉ b) (h2 : '^' ∉ rest) (hx : x ≠ c) (hc : c ≠ '^') :
    replaceAll ['^', x] [y] (b ++ '^' :: c :: rest) = b ++ '^' :: c :: rest := by
  unfold replaceAll
  rw [replaceFuel_skip '^' [x] [y] b _ _ h1 (by simp)]
  have : (b ++ '^' :: c :: rest).length - b.length = (rest.length + 1) + 1 := by simp
  rw [this]
  have hd : dropPrefix ['^', x] ('^' :: c :: rest) = none := by simp [dropPrefix, hx]
  rw [replaceFuel, hd]
  simp only
  have := replaceFuel_skip '^' [x] [y] (c :: rest) [] (rest.length + 1) (by simp [h2]; exact Ne.symm hc) (by simp)
  rw [List.append_nil] at this
  rw [this]
  simp [replaceFuel]

theorem superFold (c : Char) (hc : c ≠ '^') (b rest : List Char) (h1 : '^' ∉ b) (h2 : '^' ∉ rest) : ∀ (P : List (Char × Char)), (∀ p ∈ P, p.2 ≠ '^') →
    P.foldl (fun s p => replaceAll ['^', p.1] [p.2] s) (b ++ '^' :: c :: rest) =
      match dget P c with | some y => b ++ y :: rest | none => b ++ '^' :: c :: rest := by
  intro P
  induction P with
  | nil => intro _; simp [dget]
  | cons p P ih =>
    intro hP
    rw [List.foldl_cons]
    by_cases h : p.1 = c
    · have e : replaceAll ['^', p.1] [p.2] (b ++ '^' :: c :: rest) = b ++ p.2 :: rest := by
        rw [h]
        exact replaceAll_once '^' [c] [p.2] b rest h1 h2
      rw [e]
      have e2 : dget (p :: P) c = some p.2 := by
        obtain ⟨x, y⟩ := p
        simp only at h
        simp [dget, h]
      rw [e2]
      have hfix : ∀ (Q : List (Char × Char)) (l : List Char), '^' ∉ l → Q.foldl (fun s p => replaceAll ['^', p.1] [p.2] s) l = l := by
        intro Q
        induction Q with
        | nil => intro l _; rfl
        | cons q Q ihQ =>
          intro l hl
          rw [List.foldl_cons, replaceAll_none '^' [q.1] [q.2] l hl]
          exact ihQ l hl
      apply hfix
      have := hP p (by simp)
      simp [h1, h2, Ne.symm this]
    · rw [replaceAll_other p.1 p.2 c b rest h1 h2 h hc, ih (fun q hq => hP q (by simp [hq]))]
      have e2 : dget (p :: P) c = dget P c := by
        obtain ⟨x, y⟩ := p
        simp only at h
        simp [dget, h]
      rw [e2]

/-- **C42 (what `str_txt` prints).** A power with base `b` and decimal exponent `c ds`: the first digit of the exponent becomes a superscript when
it is `2`..`9`, the other digits stay on the line; an exponent that begins with `1` (or `0`) is printed with `^`. -/
theorem strTxt_power (b ds : List Char) (c : Char) (hb : ∀ x ∈ b, x ≠ ' ' ∧ x ≠ '*' ∧ x ≠ '^') (hds : ∀ x ∈ c :: ds, isDig x = true) :
    strTxt (b ++ '*' :: '*' :: c :: ds) =
      match dget (List.zip "23456789".toList "²³⁴⁵⁶⁷⁸⁹".toList) c with | some y => b ++ y :: ds | none => b ++ '^' :: c :: ds := by
  have dig : ∀ x, isDig x = true → x ≠ ' ' ∧ x ≠ '*' ∧ x ≠ '^' := by
    intro x hx
    refine ⟨?_, ?_, ?_⟩ <;> rintro rfl <;> exact absurd hx (by decide)
  have n : ∀ a, (a = ' ' ∨ a = '*' ∨ a = '^') → a ∉ b ∧ a ∉ ds ∧ a ≠ c := by
    intro a ha
    have hc := dig c (hds c (by simp))
    refine ⟨fun h => ?_, fun h => ?_, ?_⟩
    · have := hb a h; rcases ha with rfl | rfl | rfl <;> simp at this
    · have := dig a (hds a (by simp [h])); rcases ha with rfl | rfl | rfl <;> simp at this
    · rintro rfl; rcases ha with rfl | rfl | rfl <;> simp at hc
  obtain ⟨s1, s2, s3⟩ := n ' ' (by simp)
  obtain ⟨t1, t2, t3⟩ := n '*' (by simp)
  obtain ⟨u1, u2, u3⟩ := n '^' (by simp)
  unfold strTxt
  simp only
  rw [replaceAll_none ' ' [] [] _ (by simp [s1, s2, s3])]
  have e1 : replaceAll ['*', '*'] ['^'] (b ++ '*' :: '*' :: c :: ds) = b ++ '^' :: c :: ds :=
    replaceAll_once '*' ['*'] ['^'] b (c :: ds) t1 (by simp [t2, t3])
  rw [e1, replaceAll_none '*' [] [] _ (by simp [t1, t2, t3])]
  exact superFold c (Ne.symm u3) b ds u1 u2 superPairs (by decide +kernel)

/-- **C42 (negation).** `str_txt` prints `a**20` like `a**2*0`, and `a**35*b` like `a**3*5*b`: the exponent shown is not the exponent. -/
theorem strTxt_wrong : strTxt "a**20".toList = strTxt "a**2*0".toList ∧ strTxt "a**35*b".toList = strTxt "a**3*5*b".toList ∧
    strTxt "a**20".toList = "a²0".toList := by decide +kernel

theorem isDig_mem (c : Char) (h : isDig c = true) : c ∈ "0123456789".toList := by
  unfold isDig at h
  rw [Bool.and_eq_true, decide_eq_true_eq, decide_eq_true_eq] at h
  have hc : c = Char.ofNat c.toNat := (Char.ofNat_toNat c).symm
  have : c.toNat = 48 ∨ c.toNat = 49 ∨ c.toNat = 50 ∨ c.toNat = 51 ∨ c.toNat = 52 ∨ c.toNat = 53 ∨ c.toNat = 54 ∨ c.toNat = 55 ∨ c.toNat = 56 ∨ c.toNat = 57 := by
    omega
  rw [hc]
  rcases this with h | h | h | h | h | h | h | h | h | h <;> rw [h] <;> decide

/-- Different digits have different superscripts. -/
theorem superDigit_inj {c d : Char} (hc : isDig c = true) (hd : isDig d = true) (h : superDigit c = superDigit d) : c = d := by
  have : ∀ c ∈ "0123456789".toList, ∀ d ∈ "0123456789".toList, superDigit c = superDigit d → c = d := by decide +kernel
  exact this c (isDig_mem c hc) d (isDig_mem d hd) h

/-- A product of powers as SymPy prints it: bases and decimal exponents, joined by `*`. -/
def rawPowers (e : List Char) : List (List Char × List Char) → List Char
  | [] => []
  | [p] => p.1 ++ e ++ p.2
  | p :: q :: l => p.1 ++ e ++ p.2 ++ '*' :: rawPowers e (q :: l)

theorem superscripts_base : ∀ (m : ℕ) (b rest : List Char), (m = 0 ∨ (m = 2 ∧ ∀ c ∈ b.head?, isDig c = false) ∧ b ≠ []) → '^' ∉ b →
    superscripts m (b ++ '^' :: rest) = b ++ superscripts 1 rest := by
  intro m b
  induction b generalizing m with
  | nil =>
    intro rest hm _
    rcases hm with rfl | ⟨-, h⟩
    · simp [superscripts]
    · exact absurd rfl h
  | cons c b ih =>
    intro rest hm hb
    rw [List.mem_cons, not_or] at hb
    have hc : c ≠ '^' := Ne.symm hb.1
    rcases hm with rfl | ⟨⟨rfl, h⟩, -⟩
    · rw [List.cons_append, superscripts]
      · rw [if_neg hc, ih 0 rest (Or.inl rfl) hb.2]; rfl
      · simp
      · simp
    · have := h c (by simp)
      rw [List.cons_append, superscripts, if_neg (by rw [this]; decide), if_neg hc, ih 0 rest (Or.inl rfl) hb.2]
      rfl

theorem superscripts_digits : ∀ (ds rest : List Char), (∀ c ∈ ds, isDig c = true) → superscripts 2 (ds ++ rest) = ds.map superDigit ++ superscripts 2 rest := by
  intro ds
  induction ds with
  | nil => intro rest _; rfl
  | cons c ds ih =>
    intro rest h
    rw [List.cons_append, superscripts, if_pos (h c (by simp)), ih rest (fun x hx => h x (by simp [hx]))]
    rfl

theorem superscripts_exponent (ds rest : List Char) (hne : ds ≠ []) (h : ∀ c ∈ ds, isDig c = true) :
    superscripts 1 (ds ++ rest) = ds.map superDigit ++ superscripts 2 rest := by
  match ds, hne with
  | c :: ds, _ =>
    rw [List.cons_append, superscripts, if_pos (h c (by simp)), superscripts_digits ds rest (fun x hx => h x (by simp [hx]))]
    rfl

/-- **C42 (what `to_string` prints).** In mode `txt` a product of powers is printed as the bases, each followed by *all* digits of its exponent as
superscripts, provided no base after the first begins with a digit. -/
theorem toStringTxt_powers (l : List (List Char × List Char))
    (hb : ∀ p ∈ l, (∀ x ∈ p.1, x ≠ '*' ∧ x ≠ '^') ∧ p.2 ≠ [] ∧ ∀ x ∈ p.2, isDig x = true)
    (hs : ∀ p ∈ l.tail, p.1 ≠ [] ∧ ∀ c ∈ p.1.head?, isDig c = false) :
    toStringTxt (rawPowers ['*', '*'] l) = l.flatMap fun p => p.1 ++ p.2.map superDigit := by
  have dig : ∀ x, isDig x = true → x ≠ '*' ∧ x ≠ '^' := by
    intro x hx
    refine ⟨?_, ?_⟩ <;> rintro rfl <;> exact absurd hx (by decide)
  have n1 : ∀ p ∈ l, '*' ∉ p.1 ∧ '^' ∉ p.1 ∧ '*' ∉ p.2 := by
    intro p hp
    obtain ⟨h1, -, h2⟩ := hb p hp
    exact ⟨fun h => (h1 _ h).1 rfl, fun h => (h1 _ h).2 rfl, fun h => (dig _ (h2 _ h)).1 rfl⟩
  -- step 1: `**` becomes `^`
  have step1 : ∀ (l : List (List Char × List Char)), (∀ p ∈ l, '*' ∉ p.1 ∧ '^' ∉ p.1 ∧ '*' ∉ p.2) → (∀ p ∈ l.tail, p.1 ≠ []) →
      ∀ k, (rawPowers ['*', '*'] l).length ≤ k → replaceFuel ['*', '*'] ['^'] k (rawPowers ['*', '*'] l) = rawPowers ['^'] l := by
    intro l
    induction l with
    | nil => intro _ _ k _; cases k <;> rfl
    | cons p l ih =>
      intro h ht k hk
      obtain ⟨h1, -, h3⟩ := h p (by simp)
      cases l with
      | nil =>
        simp only [rawPowers] at hk ⊢
        rw [List.append_assoc] at hk ⊢
        rw [List.length_append, List.length_append] at hk
        simp at hk
        rw [replaceFuel_skip '*' ['*'] ['^'] p.1 _ k h1 (by omega)]
        obtain ⟨j, hj⟩ : ∃ j, k - p.1.length = j + 1 := ⟨k - p.1.length - 1, by omega⟩
        rw [hj, replaceFuel_hit]
        have := replaceFuel_skip '*' ['*'] ['^'] p.2 [] j h3 (by omega)
        rw [List.append_nil] at this
        rw [this]
        cases j - p.2.length <;> simp [replaceFuel]
      | cons q l =>
        have hrec := ih (fun r hr => h r (by simp [hr])) (fun r hr => ht r (by simp at hr ⊢; exact Or.inr hr))
        simp only [rawPowers] at hk ⊢
        have e : p.1 ++ ['*', '*'] ++ p.2 ++ '*' :: rawPowers ['*', '*'] (q :: l) =
            p.1 ++ (['*', '*'] ++ (p.2 ++ '*' :: rawPowers ['*', '*'] (q :: l))) := by simp
        rw [e] at hk ⊢
        simp at hk
        rw [replaceFuel_skip '*' ['*'] ['^'] p.1 _ k h1 (by omega)]
        obtain ⟨j, hj⟩ : ∃ j, k - p.1.length = j + 1 := ⟨k - p.1.length - 1, by omega⟩
        rw [hj, replaceFuel_hit, replaceFuel_skip '*' ['*'] ['^'] p.2 _ j h3 (by omega)]
        obtain ⟨i, hi⟩ : ∃ i, j - p.2.length = i + 1 := ⟨j - p.2.length - 1, by omega⟩
        have hq := ht q (by simp)
        obtain ⟨x, w, hw⟩ : ∃ x w, rawPowers ['*', '*'] (q :: l) = x :: w ∧ x ≠ '*' := by
          have hqs := (h q (by simp)).1
          match hq1 : q.1, hq with
          | x :: b, _ =>
            rw [hq1, List.mem_cons, not_or] at hqs
            cases l with
            | nil => exact ⟨x, b ++ ['*', '*'] ++ q.2, by simp [rawPowers, hq1], Ne.symm hqs.1⟩
            | cons r l => exact ⟨x, b ++ ['*', '*'] ++ q.2 ++ '*' :: rawPowers ['*', '*'] (r :: l), by simp [rawPowers, hq1], Ne.symm hqs.1⟩
        have hd : dropPrefix ['*', '*'] ('*' :: rawPowers ['*', '*'] (q :: l)) = none := by
          rw [hw.1]
          simp [dropPrefix, Ne.symm hw.2]
        rw [hi, replaceFuel, hd]
        simp only
        rw [hrec i (by omega)]
        simp
  -- step 2: `*` is removed
  have step2 : ∀ (s : List Char) (k : ℕ), s.length ≤ k → replaceFuel ['*'] [] k s = s.filter (· ≠ '*') := by
    intro s
    induction s with
    | nil => intro k _; cases k <;> rfl
    | cons c s ih =>
      intro k hk
      simp only [List.length_cons] at hk
      match k, hk with
      | k + 1, hk =>
        by_cases hc : c = '*'
        · subst hc
          have : dropPrefix ['*'] ('*' :: s) = some s := (dropPrefix_spec _ _ _).2 rfl
          rw [replaceFuel, this]
          simp only
          rw [ih k (by omega)]
          simp
        · have : dropPrefix ['*'] (c :: s) = none := by simp [dropPrefix, Ne.symm hc]
          rw [replaceFuel, this]
          simp only
          rw [ih k (by omega)]
          simp [hc]
  have step2' : ∀ (l : List (List Char × List Char)), (∀ p ∈ l, '*' ∉ p.1 ∧ '^' ∉ p.1 ∧ '*' ∉ p.2) →
      (rawPowers ['^'] l).filter (· ≠ '*') = l.flatMap fun p => p.1 ++ '^' :: p.2 := by
    intro l
    induction l with
    | nil => intro _; rfl
    | cons p l ih =>
      intro h
      obtain ⟨h1, -, h3⟩ := h p (by simp)
      have f : ∀ w : List Char, '*' ∉ w → w.filter (· ≠ '*') = w := by
        intro w hw
        apply List.filter_eq_self.2
        intro c hc
        rw [decide_eq_true_eq]
        rintro rfl
        exact hw hc
      have hp : (p.1 ++ ['^'] ++ p.2).filter (· ≠ '*') = p.1 ++ '^' :: p.2 := by
        rw [f _ (by simp [h1, h3])]
        simp
      cases l with
      | nil =>
        simp only [rawPowers]
        rw [hp]; simp
      | cons q l =>
        simp only [rawPowers]
        have hr := ih (fun r hr => h r (by simp [hr]))
        rw [List.filter_append, hp, List.filter_cons_of_neg (by simp), hr]
        simp
  -- step 3
  have step3 : ∀ (l : List (List Char × List Char)) (m : ℕ), (∀ p ∈ l, '^' ∉ p.1 ∧ p.2 ≠ [] ∧ ∀ x ∈ p.2, isDig x = true) →
      (m = 0 ∨ m = 2 ∧ ∀ p ∈ l.head?, p.1 ≠ [] ∧ ∀ c ∈ p.1.head?, isDig c = false) → (∀ p ∈ l.tail, p.1 ≠ [] ∧ ∀ c ∈ p.1.head?, isDig c = false) →
      superscripts m (l.flatMap fun p => p.1 ++ '^' :: p.2) = l.flatMap fun p => p.1 ++ p.2.map superDigit := by
    intro l
    induction l with
    | nil => intro m _ hm _; rcases hm with rfl | ⟨rfl, -⟩ <;> rfl
    | cons p l ih =>
      intro m h hm ht
      obtain ⟨h1, h2, h3⟩ := h p (by simp)
      rw [List.flatMap_cons, List.flatMap_cons, List.append_assoc, List.cons_append,
        superscripts_base m p.1 _ (by
          rcases hm with rfl | ⟨rfl, hm⟩
          · exact Or.inl rfl
          · exact Or.inr ⟨⟨rfl, (hm p (by simp)).2⟩, (hm p (by simp)).1⟩) h1, superscripts_exponent p.2 _ h2 h3,
        ih 2 (fun q hq => h q (by simp [hq])) (Or.inr ⟨rfl, fun q hq => ht q (by
          rw [List.tail_cons]; exact List.mem_of_mem_head? hq)⟩) (fun q hq => ht q (by
          rw [List.tail_cons]; exact List.mem_of_mem_tail hq))]
      simp
  unfold toStringTxt replaceAll
  rw [step1 l n1 (fun p hp => (hs p hp).1) _ le_rfl, step2 _ _ le_rfl, step2' l n1]
  exact step3 l 0 (fun p hp => ⟨(n1 p hp).2.1, (hb p hp).2⟩) (Or.inl rfl) hs

example : toStringTxt "3*a**20*b**3*x**105".toList = "3a²⁰b³x¹⁰⁵".toList := by decide +kernel
example : rawPowers ['*', '*'] [(['a'], ['2', '0']), (['b'], ['3'])] = "a**20*b**3".toList := by decide +kernel

/-- The proviso is needed: a factor that begins with a digit after a power is read into the exponent. -/
theorem toStringTxt_digit_base : toStringTxt "a**2*3**n".toList = toStringTxt "a**23**n".toList := by decide +kernel

/-! ### C43: the multi-line equation -/

theorem joinWith_last (sep y z : List Char) : ∀ (l : List (List Char)), joinWith sep (l ++ [y ++ z]) = joinWith sep (l ++ [y]) ++ z
  | [] => by simp [joinWith]
  | [a] => by simp [joinWith]
  | a :: b :: l => by
    have := joinWith_last sep y z (b :: l)
    simp only [List.cons_append] at this ⊢
    simp only [joinWith]
    rw [this]; simp

theorem joinWith_snoc (sep y w : List Char) : ∀ (l : List (List Char)), joinWith sep (l ++ [y] ++ [w]) = joinWith sep (l ++ [y]) ++ sep ++ w
  | [] => by simp [joinWith]
  | [a] => by simp [joinWith]
  | a :: b :: l => by
    have := joinWith_snoc sep y w (b :: l)
    simp only [List.cons_append] at this ⊢
    simp only [joinWith]
    rw [this]; simp

/-- One further term: on the same line, or after a line break with the alignment mark. -/
def piece (align : List Char) (t : List Char) (brk : Bool) : List Char := (if brk then " \\\\ ".toList ++ align else []) ++ " + ".toList ++ t

theorem lineFold (align : List Char) : ∀ (ts : List (List Char)) (last : List Char) (older : List (List Char)) (mx : ℤ),
    ∃ brk : List Bool, brk.length = ts.length ∧ joinWith " \\\\ ".toList ((ts.foldl (lineStep align) (last :: older, mx)).1.reverse) =
      joinWith " \\\\ ".toList ((last :: older).reverse) ++ (List.zipWith (piece align) ts brk).flatten := by
  intro ts
  induction ts with
  | nil => intro last older mx; exact ⟨[], rfl, by simp⟩
  | cons t ts ih =>
    intro last older mx
    rw [List.foldl_cons]
    have hstep : lineStep align (last :: older, mx) t =
        if (((last.length + t.length : ℤ)) - mx).natAbs < ((last.length : ℤ) - mx).natAbs then ((last ++ " + ".toList ++ t) :: older, mx)
        else ((align ++ " + ".toList ++ t) :: last :: older, (((last :: older).getLast?.getD []).length : ℤ)) := rfl
    rw [hstep]
    split
    · obtain ⟨brk, hl, h⟩ := ih (last ++ " + ".toList ++ t) older mx
      refine ⟨false :: brk, by simp [hl], ?_⟩
      rw [h, List.reverse_cons, List.append_assoc last, joinWith_last, List.reverse_cons]
      simp [piece]
    · obtain ⟨brk, hl, h⟩ := ih (align ++ " + ".toList ++ t) (last :: older) (((last :: older).getLast?.getD []).length : ℤ)
      refine ⟨true :: brk, by simp [hl], ?_⟩
      rw [h, List.reverse_cons, List.reverse_cons, joinWith_snoc]
      simp [piece]

/-- **C43.** The rendered equation consists of the left side, the sign, and the terms, each exactly once (in the given order, or a rearrangement
when sorting is allowed), joined by plus signs with optional line breaks; nothing else is added, whatever the line length. -/
theorem multiline_spec (s : List (List Char)) (hs : s ≠ []) (head : List Char) (maxLen : Option ℕ) (env eqSign : List Char) (allowSort : Bool) :
    ∃ (t : List Char) (ts : List (List Char)) (brk : List Bool), (t :: ts).Perm s ∧ (allowSort = false → t :: ts = s) ∧ brk.length = ts.length ∧
      multiline s head maxLen env eqSign allowSort =
        (if env = [] then [] else "\\begin{".toList ++ env ++ "} ".toList) ++ head ++ [' '] ++ (if env = [] then [] else " &".toList) ++ [' '] ++ eqSign ++ [' '] ++ t ++
          (List.zipWith (piece (if env = [] then [] else " &".toList)) ts brk).flatten ++ (if env = [] then [] else " \\end{".toList ++ env ++ ['}']) := by
  have hl : s.length ≠ 0 := by rwa [ne_eq, List.length_eq_zero_iff]
  have key : ∀ s' : List (List Char), s' = (if allowSort then s.insertionSort longer else s) → s'.Perm s ∧ (allowSort = false → s' = s) := by
    rintro s' rfl
    cases allowSort
    · simp
    · exact ⟨List.perm_insertionSort _ _, by simp⟩
  unfold multiline
  rw [if_neg hl]
  simp only
  cases he : (if allowSort then s.insertionSort longer else s) with
  | nil =>
    have := (key [] he.symm).1.length_eq
    exact absurd this.symm hl
  | cons t ts =>
    obtain ⟨hp, hq⟩ := key (t :: ts) he.symm
    obtain ⟨brk, hb, h⟩ := lineFold (if env = [] then [] else " &".toList) ts ((if env = [] then [] else " &".toList) ++ [' '] ++ eqSign ++ [' '] ++ t) []
      ((maxLen.getD (max (3 * head.length) 120) : ℕ) : ℤ)
    refine ⟨t, ts, brk, hp, hq, hb, ?_⟩
    simp only
    rw [h]
    by_cases hv : env = []
    · simp [hv, joinWith]
    · simp [hv, joinWith]

example : multiline (["x", "yyyy", "zz"].map String.toList) "f".toList (some 5) "aligned".toList "=".toList true =
    "\\begin{aligned} f  & = yyyy \\\\  & + zz + x \\end{aligned}".toList := by decide +kernel

/-! ### C65: reading several inequalities -/

/-- `k` successive calls of `next`. -/
def Reader.run {P : Type*} : ℕ → Reader P → List (Next P)
  | 0, _ => []
  | k + 1, r => (r.next).1 :: Reader.run k (r.next).2

/-- **C65.** With `ignore_errors` a fresh reader delivers one result for every line, in order, `none` for a line that cannot be read, and then
stops for good: a second loop over the same reader delivers nothing. -/
theorem reader_ignore {P : Type*} (polys : List (Option P)) (m : ℕ) :
    Reader.run (polys.length + m) ⟨polys, 0, true⟩ = polys.map Next.value ++ List.replicate m Next.stop := by
  have stop : ∀ (m i : ℕ), polys.length ≤ i → Reader.run m ⟨polys, i, true⟩ = List.replicate m Next.stop := by
    intro m
    induction m with
    | zero => intro i _; rfl
    | succ m ih =>
      intro i hi
      have hnext : (Reader.mk polys i true).next = (.stop, ⟨polys, i, true⟩) := by
        unfold Reader.next
        simp only
        rw [List.getElem?_eq_none hi]
      rw [Reader.run, hnext, List.replicate_succ, ih i hi]
  have main : ∀ (l pre : List (Option P)), pre ++ l = polys →
      Reader.run (l.length + m) ⟨polys, pre.length, true⟩ = l.map Next.value ++ List.replicate m Next.stop := by
    intro l
    induction l with
    | nil =>
      intro pre hpre
      rw [List.append_nil] at hpre
      subst hpre
      simpa using stop m pre.length le_rfl
    | cons p l ih =>
      intro pre hpre
      have hnext : (Reader.mk polys pre.length true).next = (.value p, ⟨polys, pre.length + 1, true⟩) := by
        unfold Reader.next
        simp only
        rw [← hpre, List.getElem?_append_right le_rfl]
        cases p <;> simp
      have : (p :: l).length + m = (l.length + m) + 1 := by simp; omega
      rw [this, Reader.run, hnext]
      have := ih (pre ++ [p]) (by simp [hpre])
      rw [List.length_append] at this
      rw [List.map_cons, List.cons_append]
      exact congrArg _ this
  exact main polys [] rfl

/-- Without `ignore_errors` the reader does not move past a line that cannot be read: every further call reports the same line again. -/
theorem reader_strict {P : Type*} (pre : List (Option P)) (rest : List (Option P)) (m : ℕ) :
    Reader.run m ⟨pre ++ none :: rest, pre.length, false⟩ = List.replicate m (Next.invalid pre.length) := by
  induction m with
  | zero => rfl
  | succ m ih =>
    have hnext : (Reader.mk (pre ++ none :: rest) pre.length false).next = (.invalid pre.length, ⟨pre ++ none :: rest, pre.length, false⟩) := by
      unfold Reader.next
      simp
    rw [Reader.run, hnext, List.replicate_succ, ih]

example : Reader.run 4 ⟨[some 1, none, some (3 : ℕ)], 0, true⟩ = [.value (some 1), .value none, .value (some 3), .stop] :=
  reader_ignore [some 1, none, some 3] 1

end Verif.Text
