import Verif.Model.Extract
import Mathlib.Algebra.Order.BigOperators.Group.List
import Mathlib.Algebra.Order.Ring.Rat
import Mathlib.Tactic.Ring
import Mathlib.Tactic.Linarith
import Mathlib.Algebra.Order.Field.Power
import Mathlib.Tactic.NormNum

/-!
# C13: extraction of nonnegative expressions is sound
-/

set_option linter.unusedSectionVars false

namespace Verif.Extract

variable {K : Type*} [Field K] [LinearOrder K] [IsStrictOrderedRing K]

/-- A power with even numerator used as a square has an integer exponent. -/
def powInt : Ex K → Bool
  | .pow _ e => !decide (e.num % 2 = 0) || decide (e.den = 1)
  | _ => true

/-- Fractional powers with even numerator are not used as squares inside cyclic sums or products. -/
def baseInt : Ex K → Bool
  | .mul l => l.all powInt
  | e => powInt e

mutual
/-- The fractional powers `x ** (2k/d)` do not occur as (factors of) the base of a cyclic sum or product. -/
def fracSafe : Ex K → Bool
  | .const _ => true
  | .sym _ => true
  | .mark _ => true
  | .fn _ => true
  | .add l => fracSafeL l
  | .mul l => fracSafeL l
  | .pow b _ => fracSafe b
  | .cyc _ b _ _ => baseInt b && fracSafe b
def fracSafeL : List (Ex K) → Bool
  | [] => true
  | a :: l => fracSafe a && fracSafeL l
end

theorem rename_nil (p : List ℕ) : rename [] p = id := by funext s; rfl

omit [IsStrictOrderedRing K] in
mutual
theorem closed_eval (S : Sem K) : ∀ (e : Ex K), closed e = true → ∀ ρ γ ρ' γ',
    eval S e ρ γ = eval S e ρ' γ'
  | .const c, _, _, _, _, _ => by simp [eval]
  | .sym i, h, _, _, _, _ => by simp [closed] at h
  | .mark i, h, _, _, _, _ => by simp [closed] at h
  | .fn k, h, _, _, _, _ => by simp [closed] at h
  | .add l, h, ρ, γ, ρ', γ' => by
      simp only [eval]; exact closedL_evalAdd S l (by simpa [closed] using h) ρ γ ρ' γ'
  | .mul l, h, ρ, γ, ρ', γ' => by
      simp only [eval]; exact closedL_evalMul S l (by simpa [closed] using h) ρ γ ρ' γ'
  | .pow b e, h, ρ, γ, ρ', γ' => by
      simp only [eval]
      rw [closed_eval S b (by simpa [closed] using h) ρ γ ρ' γ']
  | .cyc isProd b syms perms, h, ρ, γ, ρ', γ' => by
      simp only [closed, Bool.and_eq_true, List.isEmpty_iff] at h
      obtain ⟨rfl, h⟩ := h
      simp only [eval, rename_nil, Function.comp_id]
      rw [closed_eval S b h ρ γ ρ' γ']
theorem closedL_evalAdd (S : Sem K) : ∀ (l : List (Ex K)), closedL l = true → ∀ ρ γ ρ' γ',
    evalAdd S l ρ γ = evalAdd S l ρ' γ'
  | [], _, _, _, _, _ => by simp [evalAdd]
  | a :: l, h, ρ, γ, ρ', γ' => by
      simp only [closedL, Bool.and_eq_true] at h
      simp only [evalAdd]
      rw [closed_eval S a h.1 ρ γ ρ' γ', closedL_evalAdd S l h.2 ρ γ ρ' γ']
theorem closedL_evalMul (S : Sem K) : ∀ (l : List (Ex K)), closedL l = true → ∀ ρ γ ρ' γ',
    evalMul S l ρ γ = evalMul S l ρ' γ'
  | [], _, _, _, _, _ => by simp [evalMul]
  | a :: l, h, ρ, γ, ρ', γ' => by
      simp only [closedL, Bool.and_eq_true] at h
      simp only [evalMul]
      rw [closed_eval S a h.1 ρ γ ρ' γ', closedL_evalMul S l h.2 ρ γ ρ' γ']
end

/-- An expression whose value is nonnegative whenever the placeholders are. -/
def NN (S : Sem K) (e : Ex K) : Prop := ∀ ρ γ : ℕ → K, (∀ s, 0 ≤ γ s) → 0 ≤ eval S e ρ γ

/-- Two expressions with the same value when each placeholder is read as its symbol. -/
def SameVal (S : Sem K) (e e' : Ex K) : Prop := ∀ ρ : ℕ → K, eval S e' ρ ρ = eval S e ρ ρ

theorem nn_closed (S : Sem K) (e : Ex K) (h : closed e = true) (h2 : ¬ closedVal S e < 0) : NN S e := by
  intro ρ γ _
  rw [closed_eval S e h ρ γ (fun _ => 0) (fun _ => 0)]
  exact not_lt.1 h2

theorem nn_isPow2 (S : Sem K) (e : Ex K) (h : isPow2 S e = true) (h2 : powInt e = true) : NN S e := by
  cases e with
  | pow b q =>
    intro ρ γ _
    simp only [isPow2, decide_eq_true_eq] at h
    simp only [powInt, h, decide_true, Bool.not_true, Bool.false_or, decide_eq_true_eq] at h2
    simp only [eval, h2, if_true]
    exact Even.zpow_nonneg (Int.even_iff.2 h) _
  | const c =>
    simp only [isPow2, Bool.and_eq_true, decide_eq_true_eq] at h
    exact nn_closed S _ h.1 (not_lt.2 h.2)
  | sym i => simp [isPow2, closed] at h
  | mark i => simp [isPow2, closed] at h
  | fn i => simp [isPow2, closed] at h
  | add l =>
    simp only [isPow2, Bool.and_eq_true, decide_eq_true_eq] at h
    exact nn_closed S _ h.1 (not_lt.2 h.2)
  | mul l =>
    simp only [isPow2, Bool.and_eq_true, decide_eq_true_eq] at h
    exact nn_closed S _ h.1 (not_lt.2 h.2)
  | cyc a b c d =>
    simp only [isPow2, Bool.and_eq_true, decide_eq_true_eq] at h
    exact nn_closed S _ h.1 (not_lt.2 h.2)

theorem nn_evalMul (S : Sem K) : ∀ (l : List (Ex K)), (∀ e ∈ l, NN S e) → NN S (.mul l)
  | [], _ => by intro ρ γ _; simp [eval, evalMul]
  | a :: l, h => by
      intro ρ γ hγ
      have ih := nn_evalMul S l (fun e he => h e (by simp [he])) ρ γ hγ
      simp only [eval, evalMul] at ih ⊢
      exact mul_nonneg (h a (by simp) ρ γ hγ) ih

theorem nn_evalAdd (S : Sem K) : ∀ (l : List (Ex K)), (∀ e ∈ l, NN S e) → NN S (.add l)
  | [], _ => by intro ρ γ _; simp [eval, evalAdd]
  | a :: l, h => by
      intro ρ γ hγ
      have ih := nn_evalAdd S l (fun e he => h e (by simp [he])) ρ γ hγ
      simp only [eval, evalAdd] at ih ⊢
      exact add_nonneg (h a (by simp) ρ γ hγ) ih

theorem nn_isMulPow2 (S : Sem K) (e : Ex K) (h : isMulPow2 S e = true) (h2 : baseInt e = true) : NN S e := by
  cases e with
  | mul l =>
    simp only [isMulPow2, List.all_eq_true] at h
    simp only [baseInt, List.all_eq_true] at h2
    exact nn_evalMul S l (fun e he => nn_isPow2 S e (h e he) (h2 e he))
  | _ => simp [isMulPow2] at h

theorem listProd_nonneg : ∀ (l : List K), (∀ x ∈ l, 0 ≤ x) → 0 ≤ l.prod
  | [], _ => by simp
  | a :: l, h => by
      rw [List.prod_cons]
      exact mul_nonneg (h a (by simp)) (listProd_nonneg l (fun x hx => h x (by simp [hx])))

theorem nn_cyc (S : Sem K) (isProd : Bool) (b : Ex K) (syms : List ℕ) (perms : List (List ℕ)) (h : NN S b) :
    NN S (.cyc isProd b syms perms) := by
  intro ρ γ hγ
  simp only [eval]
  have : ∀ x ∈ perms.map (fun p => eval S b (ρ ∘ rename syms p) (γ ∘ rename syms p)), 0 ≤ x := by
    intro x hx
    rw [List.mem_map] at hx
    obtain ⟨p, _, rfl⟩ := hx
    exact h _ _ (fun s => hγ _)
  split_ifs
  · exact listProd_nonneg _ this
  · exact List.sum_nonneg this

theorem powInt_of_baseInt (S : Sem K) (e : Ex K) (h : baseInt e = true) (_h2 : isPow2 S e = true) : powInt e = true := by
  cases e <;> simp_all [baseInt, powInt]

section
variable (S : Sem K) (extra : Ex K → Option (Ex K)) (expandOk : Ex K → Bool)
  (hfn : ∀ k ρ, 0 ≤ S.fn k ρ) (hfrac : ∀ b q, 0 ≤ b → 0 ≤ S.frac b q)
  (hextra : ∀ e r, extra e = some r → NN S r)

include hfn hfrac hextra

theorem nn_odd_pow (b b' : Ex K) (e : ℚ) (hb : NN S b') (hd : e.den = 1) (ho : ¬ e.num % 2 = 0) :
    ∀ r, (if e = -1 then some (Ex.pow b' (-1))
            else if 0 < e then some (.mul [b', .pow b (e - 1)])
            else some (.mul [.pow b (e + 1), .pow b' (-1)])) = some r → NN S r := by
  intro r hr
  have hinv : NN S (.pow b' (-1)) := by
    intro ρ γ hγ
    have := hb ρ γ hγ
    simp only [eval, Rat.neg_den, Rat.den_ofNat, if_true, Rat.neg_num, Rat.num_ofNat]
    exact zpow_nonneg this _
  have he : e = (e.num : ℚ) := (Rat.den_eq_one_iff e).1 hd |>.symm
  have hev : ∀ q : ℚ, (∃ z : ℤ, q = z ∧ z % 2 = 0) → NN S (.pow b q) := by
    rintro q ⟨z, rfl, hz⟩ ρ γ hγ
    simp only [eval, Rat.den_intCast, if_true, Rat.num_intCast]
    exact Even.zpow_nonneg (Int.even_iff.2 hz) _
  split_ifs at hr
  · cases hr; exact hinv
  · cases hr
    apply nn_evalMul
    intro x hx
    simp only [List.mem_cons, List.not_mem_nil, or_false] at hx
    rcases hx with rfl | rfl
    · exact hb
    · exact hev _ ⟨e.num - 1, by rw [he]; push_cast; simp, by omega⟩
  · cases hr
    apply nn_evalMul
    intro x hx
    simp only [List.mem_cons, List.not_mem_nil, or_false] at hx
    rcases hx with rfl | rfl
    · exact hev _ ⟨e.num + 1, by rw [he]; push_cast; simp, by omega⟩
    · exact hinv

mutual
theorem dfs_nn : ∀ (e : Ex K), fracSafe e = true → ∀ r, dfs S extra expandOk e = some r → NN S r
  | .const c, _, r, h => by
      simp only [dfs] at h
      cases hx : extra (.const c) with
      | some r' => rw [hx] at h; cases h; exact hextra _ _ hx
      | none =>
        rw [hx] at h
        split_ifs at h with hc
        cases h
        intro ρ γ _; simpa [eval] using hc
  | .sym i, _, r, h => by
      simp only [dfs] at h
      cases hx : extra (.sym i) with
      | some r' => rw [hx] at h; cases h; exact hextra _ _ hx
      | none => rw [hx] at h; cases h; intro ρ γ hγ; simpa [eval] using hγ i
  | .mark i, _, r, h => by
      simp only [dfs] at h
      cases hx : extra (.mark i) with
      | some r' => rw [hx] at h; cases h; exact hextra _ _ hx
      | none => rw [hx] at h; cases h; intro ρ γ hγ; simpa [eval] using hγ i
  | .fn k, _, r, h => by
      simp only [dfs] at h
      cases hx : extra (.fn k) with
      | some r' => rw [hx] at h; cases h; exact hextra _ _ hx
      | none => rw [hx] at h; cases h; intro ρ γ hγ; simpa [eval] using hfn k ρ
  | .add l, hs, r, h => by
      simp only [dfs] at h
      cases hx : extra (.add l) with
      | some r' => rw [hx] at h; cases h; exact hextra _ _ hx
      | none =>
        simp only [hx] at h
        split_ifs at h with hc hn
        · cases h; exact nn_closed S _ (by simpa [closed] using hc) hn
        · rw [Option.map_eq_some_iff] at h
          obtain ⟨l', hl', rfl⟩ := h
          exact nn_evalAdd S _ (dfsL_nn l (by simpa [fracSafe] using hs) l' hl')
  | .mul l, hs, r, h => by
      simp only [dfs] at h
      cases hx : extra (.mul l) with
      | some r' => rw [hx] at h; cases h; exact hextra _ _ hx
      | none =>
        simp only [hx] at h
        split_ifs at h with hc hn
        · cases h; exact nn_closed S _ (by simpa [closed] using hc) hn
        · rw [Option.map_eq_some_iff] at h
          obtain ⟨l', hl', rfl⟩ := h
          exact nn_evalMul S _ (dfsL_nn l (by simpa [fracSafe] using hs) l' hl')
  | .pow b e, hs, r, h => by
      simp only [dfs] at h
      cases hx : extra (.pow b e) with
      | some r' => rw [hx] at h; cases h; exact hextra _ _ hx
      | none =>
        simp only [hx] at h
        by_cases hc : closed b = true
        · rw [if_pos hc] at h
          split_ifs at h with hn
          cases h; exact nn_closed S _ (by simpa [closed] using hc) hn
        · rw [if_neg hc] at h
          by_cases hd : e.den = 1
          · rw [if_pos hd] at h
            by_cases ho : e.num % 2 = 0
            · rw [if_pos ho] at h
              cases h
              intro ρ γ hγ
              simp only [eval, hd, if_true]
              exact Even.zpow_nonneg (Int.even_iff.2 ho) _
            · rw [if_neg ho] at h
              cases hb : dfs S extra expandOk b with
              | none => simp [hb] at h
              | some b' =>
                simp only [hb] at h
                exact nn_odd_pow S extra hfn hfrac hextra b b' e
                  (dfs_nn b (by simpa [fracSafe] using hs) b' hb) hd ho r h
          · rw [if_neg hd] at h
            cases hb : dfs S extra expandOk b with
            | none => simp [hb] at h
            | some b' =>
              simp only [hb] at h
              cases h
              intro ρ γ hγ
              simp only [eval, hd, if_false]
              exact hfrac _ _ (dfs_nn b (by simpa [fracSafe] using hs) b' hb ρ γ hγ)
  | .cyc isProd b syms perms, hs, r, h => by
      simp only [fracSafe, Bool.and_eq_true] at hs
      simp only [dfs] at h
      cases hx : extra (.cyc isProd b syms perms) with
      | some r' => rw [hx] at h; cases h; exact hextra _ _ hx
      | none =>
        simp only [hx] at h
        by_cases hc : (syms.isEmpty && closed b) = true
        · rw [if_pos hc] at h
          split_ifs at h with hn
          cases h; exact nn_closed S _ (by simpa [closed] using hc) hn
        · rw [if_neg hc] at h
          by_cases h1 : isPow2 S b = true
          · rw [if_pos h1] at h
            cases h
            exact nn_cyc S _ _ _ _ (nn_isPow2 S b h1 (powInt_of_baseInt S b hs.1 h1))
          · rw [if_neg h1] at h
            by_cases h2 : isMulPow2 S b = true
            · rw [if_pos h2] at h
              cases h
              exact nn_cyc S _ _ _ _ (nn_isMulPow2 S b h2 hs.1)
            · rw [if_neg h2] at h
              split_ifs at h
              cases hb : dfs S extra expandOk b with
              | none => simp [hb] at h
              | some b' =>
                simp only [hb] at h
                cases h
                exact nn_cyc S _ _ _ _ (dfs_nn b hs.2 b' hb)
theorem dfsL_nn : ∀ (l : List (Ex K)), fracSafeL l = true → ∀ l', dfsL S extra expandOk l = some l' →
    ∀ e ∈ l', NN S e
  | [], _, l', h => by simp only [dfsL] at h; cases h; simp
  | a :: l, hs, l', h => by
      simp only [fracSafeL, Bool.and_eq_true] at hs
      simp only [dfsL] at h
      cases ha : dfs S extra expandOk a with
      | none => simp [ha] at h
      | some a' =>
        cases hl : dfsL S extra expandOk l with
        | none => simp [ha, hl] at h
        | some l2 =>
          simp only [ha, hl] at h
          cases h
          intro e he
          simp only [List.mem_cons] at he
          rcases he with rfl | he
          · exact dfs_nn a hs.1 _ ha
          · exact dfsL_nn l hs.2 l2 hl e he
end
end

section
variable (S : Sem K) (extra : Ex K → Option (Ex K)) (expandOk : Ex K → Bool)
  (hextra : ∀ e r, extra e = some r → SameVal S e r)

include hextra

mutual
theorem dfs_same : ∀ (e : Ex K), ∀ r, dfs S extra expandOk e = some r → SameVal S e r
  | .const c, r, h => by
      simp only [dfs] at h
      cases hx : extra (.const c) with
      | some r' => rw [hx] at h; cases h; exact hextra _ _ hx
      | none =>
        rw [hx] at h
        split_ifs at h with hc
        cases h
        intro ρ; rfl
  | .sym i, r, h => by
      simp only [dfs] at h
      cases hx : extra (.sym i) with
      | some r' => rw [hx] at h; cases h; exact hextra _ _ hx
      | none => rw [hx] at h; cases h; intro ρ; simp [eval]
  | .mark i, r, h => by
      simp only [dfs] at h
      cases hx : extra (.mark i) with
      | some r' => rw [hx] at h; cases h; exact hextra _ _ hx
      | none => rw [hx] at h; cases h; intro ρ; rfl
  | .fn k, r, h => by
      simp only [dfs] at h
      cases hx : extra (.fn k) with
      | some r' => rw [hx] at h; cases h; exact hextra _ _ hx
      | none => rw [hx] at h; cases h; intro ρ; rfl
  | .add l, r, h => by
      simp only [dfs] at h
      cases hx : extra (.add l) with
      | some r' => rw [hx] at h; cases h; exact hextra _ _ hx
      | none =>
        simp only [hx] at h
        split_ifs at h with hc hn
        · cases h; intro ρ; rfl
        · rw [Option.map_eq_some_iff] at h
          obtain ⟨l', hl', rfl⟩ := h
          intro ρ
          simp only [eval]
          exact (dfsL_same l l' hl' ρ).1
  | .mul l, r, h => by
      simp only [dfs] at h
      cases hx : extra (.mul l) with
      | some r' => rw [hx] at h; cases h; exact hextra _ _ hx
      | none =>
        simp only [hx] at h
        split_ifs at h with hc hn
        · cases h; intro ρ; rfl
        · rw [Option.map_eq_some_iff] at h
          obtain ⟨l', hl', rfl⟩ := h
          intro ρ
          simp only [eval]
          exact (dfsL_same l l' hl' ρ).2
  | .pow b e, r, h => by
      simp only [dfs] at h
      cases hx : extra (.pow b e) with
      | some r' => rw [hx] at h; cases h; exact hextra _ _ hx
      | none =>
        simp only [hx] at h
        by_cases hc : closed b = true
        · rw [if_pos hc] at h
          split_ifs at h with hn
          cases h; intro ρ; rfl
        · rw [if_neg hc] at h
          by_cases hd : e.den = 1
          · rw [if_pos hd] at h
            by_cases ho : e.num % 2 = 0
            · rw [if_pos ho] at h
              cases h
              intro ρ; rfl
            · rw [if_neg ho] at h
              cases hb : dfs S extra expandOk b with
              | none => simp [hb] at h
              | some b' =>
                simp only [hb] at h
                have hsame := dfs_same b b' hb
                have he : e = (e.num : ℚ) := (Rat.den_eq_one_iff e).1 hd |>.symm
                intro ρ
                have hs := hsame ρ
                have hzero : e.num ≠ 0 := by omega
                by_cases h1 : e = -1
                · rw [if_pos h1] at h
                  cases h
                  simp only [eval, h1, Rat.neg_den, Rat.den_ofNat, if_true, hs]
                · rw [if_neg h1] at h
                  by_cases h2 : 0 < e
                  · rw [if_pos h2] at h
                    cases h
                    have e2 : e - 1 = ((e.num - 1 : ℤ) : ℚ) := by rw [he]; push_cast; simp
                    simp only [eval, evalMul, e2, Rat.den_intCast, if_true, Rat.num_intCast, hd, hs, mul_one]
                    by_cases hz : eval S b ρ ρ = 0
                    · rw [hz, zero_zpow _ hzero, zero_mul]
                    · rw [← zpow_one_add₀ hz]; congr 1; ring
                  · rw [if_neg h2] at h
                    cases h
                    have e2 : e + 1 = ((e.num + 1 : ℤ) : ℚ) := by rw [he]; push_cast; simp
                    have e3 : (-1 : ℚ) = ((-1 : ℤ) : ℚ) := by norm_num
                    simp only [eval, evalMul, e2, Rat.den_intCast, if_true, Rat.num_intCast, hd, hs, mul_one]
                    rw [e3]
                    simp only [Rat.den_intCast, if_true, Rat.num_intCast]
                    by_cases hz : eval S b ρ ρ = 0
                    · rw [hz, zero_zpow _ hzero, zero_zpow (-1) (by norm_num), mul_zero]
                    · rw [← zpow_add₀ hz]; congr 1; ring
          · rw [if_neg hd] at h
            cases hb : dfs S extra expandOk b with
            | none => simp [hb] at h
            | some b' =>
              simp only [hb] at h
              cases h
              intro ρ
              simp only [eval, hd, if_false, dfs_same b b' hb ρ]
  | .cyc isProd b syms perms, r, h => by
      simp only [dfs] at h
      cases hx : extra (.cyc isProd b syms perms) with
      | some r' => rw [hx] at h; cases h; exact hextra _ _ hx
      | none =>
        simp only [hx] at h
        by_cases hc : (syms.isEmpty && closed b) = true
        · rw [if_pos hc] at h
          split_ifs at h with hn
          cases h; intro ρ; rfl
        · rw [if_neg hc] at h
          by_cases h1 : isPow2 S b = true
          · rw [if_pos h1] at h
            cases h
            intro ρ; rfl
          · rw [if_neg h1] at h
            by_cases h2 : isMulPow2 S b = true
            · rw [if_pos h2] at h
              cases h
              intro ρ; rfl
            · rw [if_neg h2] at h
              split_ifs at h
              cases hb : dfs S extra expandOk b with
              | none => simp [hb] at h
              | some b' =>
                simp only [hb] at h
                cases h
                intro ρ
                simp only [eval, dfs_same b b' hb _]
theorem dfsL_same : ∀ (l : List (Ex K)), ∀ l', dfsL S extra expandOk l = some l' →
    ∀ ρ, evalAdd S l' ρ ρ = evalAdd S l ρ ρ ∧ evalMul S l' ρ ρ = evalMul S l ρ ρ
  | [], l', h => by simp only [dfsL] at h; cases h; simp
  | a :: l, l', h => by
      simp only [dfsL] at h
      cases ha : dfs S extra expandOk a with
      | none => simp [ha] at h
      | some a' =>
        cases hl : dfsL S extra expandOk l with
        | none => simp [ha, hl] at h
        | some l2 =>
          simp only [ha, hl] at h
          cases h
          intro ρ
          obtain ⟨h1, h2⟩ := dfsL_same l l2 hl ρ
          simp only [evalAdd, evalMul, dfs_same a a' ha ρ, h1, h2]
          exact ⟨trivial, trivial⟩
end
end

/-- **C13.** If the post-processing accepts an expression, the result is nonnegative for every assignment of the
symbols and every nonnegative assignment of the placeholders, and reading each placeholder as its symbol gives
back the value of the input.  Assumptions: the (unmodelled) opaque subexpressions are nonnegative, non-integer
powers of nonnegative numbers are nonnegative, `x**(2k/d)` is not used as a square inside a cyclic sum, and the
optional `extra_checker` itself returns equal nonnegative expressions. -/
theorem extract_sound (S : Sem K) (extra : Ex K → Option (Ex K)) (expandOk : Ex K → Bool) (e r : Ex K)
    (hfn : ∀ k ρ, 0 ≤ S.fn k ρ) (hfrac : ∀ b q, 0 ≤ b → 0 ≤ S.frac b q) (hsafe : fracSafe e = true)
    (hextra : ∀ e r, extra e = some r → NN S r ∧ SameVal S e r)
    (h : dfs S extra expandOk e = some r) :
    (∀ ρ γ : ℕ → K, (∀ s, 0 ≤ γ s) → 0 ≤ eval S r ρ γ) ∧ ∀ ρ : ℕ → K, eval S r ρ ρ = eval S e ρ ρ :=
  ⟨dfs_nn S extra expandOk hfn hfrac (fun e r h => (hextra e r h).1) e hsafe r h,
   dfs_same S extra expandOk (fun e r h => (hextra e r h).2) e r h⟩

omit [IsStrictOrderedRing K] in
mutual
theorem eval_agree (S : Sem K) : ∀ (e : Ex K) (ρ γ γ' : ℕ → K), (∀ s ∈ needed e, γ s = γ' s) →
    eval S e ρ γ = eval S e ρ γ'
  | .const c, _, _, _, _ => by simp [eval]
  | .sym i, _, _, _, _ => by simp [eval]
  | .mark i, _, _, _, h => by simpa [eval, needed] using h
  | .fn k, _, _, _, _ => by simp [eval]
  | .add l, ρ, γ, γ', h => by
      simp only [eval]; exact (evalL_agree S l ρ γ γ' (by simpa [needed] using h)).1
  | .mul l, ρ, γ, γ', h => by
      simp only [eval]; exact (evalL_agree S l ρ γ γ' (by simpa [needed] using h)).2
  | .pow b e, ρ, γ, γ', h => by
      simp only [eval]; rw [eval_agree S b ρ γ γ' (by simpa [needed] using h)]
  | .cyc isProd b syms perms, ρ, γ, γ', h => by
      simp only [eval]
      have : perms.map (fun p => eval S b (ρ ∘ rename syms p) (γ ∘ rename syms p)) =
          perms.map (fun p => eval S b (ρ ∘ rename syms p) (γ' ∘ rename syms p)) := by
        apply List.map_congr_left
        intro p hp
        apply eval_agree S b
        intro s hs
        apply h
        simp only [needed, List.mem_flatMap, List.mem_map]
        exact ⟨p, hp, s, hs, rfl⟩
      rw [this]
theorem evalL_agree (S : Sem K) : ∀ (l : List (Ex K)) (ρ γ γ' : ℕ → K), (∀ s ∈ neededL l, γ s = γ' s) →
    evalAdd S l ρ γ = evalAdd S l ρ γ' ∧ evalMul S l ρ γ = evalMul S l ρ γ'
  | [], _, _, _, _ => by simp [evalAdd, evalMul]
  | a :: l, ρ, γ, γ', h => by
      simp only [neededL, List.mem_append] at h
      obtain ⟨h1, h2⟩ := evalL_agree S l ρ γ γ' (fun s hs => h s (Or.inr hs))
      simp only [evalAdd, evalMul, h1, h2, eval_agree S a ρ γ γ' (fun s hs => h s (Or.inl hs))]
      exact ⟨trivial, trivial⟩
end

/-- **C13 (final step).** If the ternary/quaternary driver returns an expression, then at every point where the
user's constraints hold the original expression is nonnegative.  The constraints are the normalised ones, that
is linear monomials with nonzero leading coefficient (see C34). -/
theorem finish_sound (S : Sem K) (expandOk : Ex K → Bool) (cons : List (MonoCon K)) (e r : Ex K)
    (hfn : ∀ k ρ, 0 ≤ S.fn k ρ) (hfrac : ∀ b q, 0 ≤ b → 0 ≤ S.frac b q) (hsafe : fracSafe e = true)
    (hnorm : ∀ c ∈ cons, c.deg = 1 ∧ c.lc ≠ 0)
    (h : finish S expandOk cons e = some r) (ρ : ℕ → K)
    (hfeas : ∀ c ∈ cons, 0 ≤ c.lc * ρ c.sym ^ c.deg) : 0 ≤ eval S e ρ ρ := by
  unfold finish at h
  cases hd : dfs S (fun _ => none) expandOk e with
  | none => rw [hd] at h; cases h
  | some e' =>
    simp only [hd] at h
    split_ifs at h with hall
    cases h
    obtain ⟨h1, h2⟩ := extract_sound S (fun _ => none) expandOk e r hfn hfrac hsafe (by simp) hd
    rw [← h2 ρ]
    have hpos : ∀ s ∈ needed r, 0 ≤ ρ s := by
      intro s hs
      rw [List.all_eq_true] at hall
      have := hall s hs
      rw [List.any_eq_true] at this
      obtain ⟨c, hc, hcs⟩ := this
      simp only [Bool.and_eq_true, beq_iff_eq, decide_eq_true_eq] at hcs
      obtain ⟨rfl, hlc⟩ := hcs
      obtain ⟨hd1, hne⟩ := hnorm c hc
      have hf := hfeas c hc
      rw [hd1, pow_one] at hf
      exact nonneg_of_mul_nonneg_right hf (lt_of_le_of_ne hlc (Ne.symm hne))
    rw [eval_agree S r ρ ρ (fun s => if s ∈ needed r then ρ s else 0) (fun s hs => by simp [hs])]
    apply h1
    intro s
    split_ifs with hs
    · exact hpos s hs
    · exact le_refl _

/-! Non-vacuity: `Σ a (b-c)²` over three variables with constraints `a, b, c ≥ 0` is accepted, and `a` alone is
rejected without constraints. -/

def exSem : Sem ℚ := ⟨fun _ _ => 0, fun _ _ => 0⟩
def exExpr : Ex ℚ := .cyc false (.mul [.sym 0, .pow (.add [.sym 1, .mul [.const (-1), .sym 2]]) 2]) [0,1,2]
  [[0,1,2],[1,2,0],[2,0,1]]

example : (finish exSem (fun _ => true) [⟨0,1,1⟩,⟨1,1,1⟩,⟨2,1,1⟩] exExpr).isSome = true := by decide +kernel
example : (finish exSem (fun _ => true) [⟨0,1,1⟩,⟨1,1,1⟩] exExpr).isSome = false := by decide +kernel
example : fracSafe exExpr = true := by decide +kernel
example : (finish exSem (fun _ => true) [⟨0,1,1⟩] (.add [.sym 0, .mul [.const (-1), .pow (.sym 1) 2]])).isSome = false := by
  decide +kernel

end Verif.Extract
