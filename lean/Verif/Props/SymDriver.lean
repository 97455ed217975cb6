import Verif.Model.SymDriver
import Verif.Props.SymTrans
import Verif.Props.Extract
import Mathlib.Topology.Algebra.Order.Field
import Mathlib.Topology.Algebra.Monoid
import Mathlib.Topology.Order.DenselyOrdered
import Mathlib.Tactic.FunProp

/-!
# C100: the answers of `SymmetricSOS` are right

The last check of the driver looks at the whole expression again.  So the wrong signs that `sym_transform` can infer from constraints
(C52, `constraint_sign_wrong`) and the denominators of the wrong sign (C98) do no harm to the final answer.
-/

namespace Verif.SymSOS

open Verif Coeff TermsPoly MonoMgr Shared Extract

set_option linter.unusedSectionVars false

variable {K : Type*} [Field K] [LinearOrder K] [IsStrictOrderedRing K]

theorem eval_cSum (S : Sem K) (e : Ex K) (ρ : ℕ → K) :
    eval S (cSum e) ρ ρ = eval S e ρ ρ + eval S e (ρ ∘ rename [0, 1, 2] [1, 2, 0]) (ρ ∘ rename [0, 1, 2] [1, 2, 0]) +
      eval S e (ρ ∘ rename [0, 1, 2] [2, 0, 1]) (ρ ∘ rename [0, 1, 2] [2, 0, 1]) := by
  have h0 : rename [0, 1, 2] [0, 1, 2] = id := by
    funext s
    rcases s with _ | _ | _ | s <;> simp [rename, List.findIdx?_cons]
  simp [cSum, eval, h0, add_assoc]

theorem eval_cProd (S : Sem K) (e : Ex K) (ρ : ℕ → K) :
    eval S (cProd e) ρ ρ = eval S e ρ ρ * eval S e (ρ ∘ rename [0, 1, 2] [1, 2, 0]) (ρ ∘ rename [0, 1, 2] [1, 2, 0]) *
      eval S e (ρ ∘ rename [0, 1, 2] [2, 0, 1]) (ρ ∘ rename [0, 1, 2] [2, 0, 1]) := by
  have h0 : rename [0, 1, 2] [0, 1, 2] = id := by
    funext s
    rcases s with _ | _ | _ | s <;> simp [rename, List.findIdx?_cons]
  simp [cProd, eval, h0, mul_assoc]

theorem ren1 : rename [0, 1, 2] [1, 2, 0] 0 = 1 ∧ rename [0, 1, 2] [1, 2, 0] 1 = 2 ∧ rename [0, 1, 2] [1, 2, 0] 2 = 0 := by decide
theorem ren2 : rename [0, 1, 2] [2, 0, 1] 0 = 2 ∧ rename [0, 1, 2] [2, 0, 1] 1 = 0 ∧ rename [0, 1, 2] [2, 0, 1] 2 = 1 := by decide

theorem eval_pow_int (S : Sem K) (e : Ex K) (k : ℤ) (ρ γ : ℕ → K) : eval S (.pow e (k : ℚ)) ρ γ = eval S e ρ γ ^ k := by
  simp [eval]

theorem eval_pow_two (S : Sem K) (e : Ex K) (ρ γ : ℕ → K) : eval S (.pow e 2) ρ γ = eval S e ρ γ ^ 2 := by
  have := eval_pow_int S e 2 ρ γ
  norm_cast at this

theorem eval_pow_three (S : Sem K) (e : Ex K) (ρ γ : ℕ → K) : eval S (.pow e 3) ρ γ = eval S e ρ γ ^ 3 := by
  have := eval_pow_int S e 3 ρ γ
  norm_cast at this

theorem eval_pow_neg_one (S : Sem K) (e : Ex K) (ρ γ : ℕ → K) : eval S (.pow e (-1)) ρ γ = (eval S e ρ γ)⁻¹ := by
  have := eval_pow_int S e (-1) ρ γ
  simpa using this

theorem eval_pow_nat (S : Sem K) (e : Ex K) (k : ℕ) (ρ γ : ℕ → K) : eval S (.pow e (k : ℚ)) ρ γ = eval S e ρ γ ^ k := by
  have := eval_pow_int S e k ρ γ
  simpa using this

theorem eval_mul_list (S : Sem K) (l : List (Ex K)) (ρ γ : ℕ → K) : eval S (.mul l) ρ γ = (l.map fun e => eval S e ρ γ).prod := by
  induction l with
  | nil => simp [eval, evalMul]
  | cons a l ih =>
    simp only [eval] at ih
    simp [eval, evalMul, ih]

theorem eval_add_list (S : Sem K) (l : List (Ex K)) (ρ γ : ℕ → K) : eval S (.add l) ρ γ = (l.map fun e => eval S e ρ γ).sum := by
  induction l with
  | nil => simp [eval, evalAdd]
  | cons a l ih =>
    simp only [eval] at ih
    simp [eval, evalAdd, ih]

theorem eval_const (S : Sem K) (c : K) (ρ γ : ℕ → K) : eval S (.const c) ρ γ = c := by simp [eval]
theorem eval_sym (S : Sem K) (i : ℕ) (ρ γ : ℕ → K) : eval S (.sym i) ρ γ = ρ i := by simp [eval]

theorem eval_subE (S : Sem K) (e f : Ex K) (ρ γ : ℕ → K) : eval S (subE e f) ρ γ = eval S e ρ γ - eval S f ρ γ := by
  simp only [subE, eval_add_list, eval_mul_list, List.map_cons, List.map_nil, List.sum_cons, List.sum_nil, List.prod_cons, List.prod_nil, eval_const]
  ring

theorem eval_p0 (S : Sem K) (ρ : ℕ → K) : eval S (cSum (.sym 0)) ρ ρ = eP (ρ 0) (ρ 1) (ρ 2) := by
  simp [eval_cSum, eval, ren1, ren2, eP]

theorem eval_r0 (S : Sem K) (ρ : ℕ → K) : eval S (cProd (.sym 0)) ρ ρ = eR (ρ 0) (ρ 1) (ρ 2) := by
  simp [eval_cProd, eval, ren1, ren2, eR]

theorem eval_discE (S : Sem K) (ρ : ℕ → K) : eval S discE ρ ρ = disc (ρ 0) (ρ 1) (ρ 2) := by
  simp only [discE, eval_cProd, eval_pow_two, eval_subE, eval_sym, Function.comp_apply, ren1, ren2, disc]
  ring

theorem eval_sqE (S : Sem K) (ρ : ℕ → K) : eval S sqE ρ ρ = (ρ 0 - ρ 1) ^ 2 + (ρ 1 - ρ 2) ^ 2 + (ρ 2 - ρ 0) ^ 2 := by
  simp only [sqE, eval_cSum, eval_pow_two, eval_subE, eval_sym, Function.comp_apply, ren1, ren2]

theorem eval_posYE (S : Sem K) (ρ : ℕ → K) : eval S posYE ρ ρ = posY (ρ 0) (ρ 1) (ρ 2) := by
  simp only [posYE, eval_cSum, eval_mul_list, List.map_cons, List.map_nil, List.prod_cons, List.prod_nil, eval_pow_two, eval_subE, eval_sym,
    Function.comp_apply, ren1, ren2, posY, mul_one]

theorem eval_schurE (S : Sem K) (ρ : ℕ → K) : eval S schurE ρ ρ = posX (ρ 0) (ρ 1) (ρ 2) := by
  simp only [schurE, eval_add_list, eval_mul_list, List.map_cons, List.map_nil, List.sum_cons, List.sum_nil, List.prod_cons, List.prod_nil, eval_const,
    eval_cSum, eval_pow_two, eval_subE, eval_sym, Function.comp_apply, ren1, ren2, eval_pow_neg_one, posX, eP]
  rw [div_eq_mul_inv, show ρ 0 + ρ 1 + ρ 2 = ρ 0 + ρ 1 + ρ 2 from rfl]
  ring

/-- The expressions of `get_inv_dict` have the values of the new variables. -/
theorem eval_invE (S : Sem K) (m : Method) (i : ℕ) (ρ : ℕ → K) : eval S (invE m i) ρ ρ = newVal m (ρ 0) (ρ 1) (ρ 2) i := by
  rcases m with _ | _ <;> rcases i with _ | _ | _ | i
  · simp only [invE, eval_mul_list, List.map_cons, List.map_nil, List.prod_cons, List.prod_nil, eval_const, eval_p0, eval_sqE, newVal, zero_add,
      List.getD_cons_zero, List.getD_cons_succ, realX, eP]
    ring
  · simp only [invE, eval_mul_list, eval_add_list, List.map_cons, List.map_nil, List.prod_cons, List.prod_nil, List.sum_cons, List.sum_nil, eval_const,
      eval_cProd, eval_sym, Function.comp_apply, ren1, ren2, newVal, zero_add, List.getD_cons_zero, List.getD_cons_succ, realY]
    ring
  · simp only [invE, eval_mul_list, List.map_cons, List.map_nil, List.prod_cons, List.prod_nil, eval_const, eval_discE, newVal, zero_add,
      List.getD_cons_zero, List.getD_cons_succ, realZ, mul_one]
  · simp [invE, newVal, eval_const]
  · exact eval_schurE S ρ
  · exact eval_posYE S ρ
  · simp only [invE, eval_mul_list, List.map_cons, List.map_nil, List.prod_cons, List.prod_nil, eval_discE, eval_pow_three, eval_p0, eval_pow_neg_one,
      eval_r0, newVal, zero_add, List.getD_cons_zero, List.getD_cons_succ, posZ, div_eq_mul_inv, mul_one, mul_assoc]
  · simp [invE, newVal, eval_const]

theorem eval_wE (S : Sem K) (m : Method) (ρ : ℕ → K) : eval S (wE m) ρ ρ = wVal m (ρ 0) (ρ 1) (ρ 2) := by
  cases m
  · simp only [wE, eval_mul_list, List.map_cons, List.map_nil, List.prod_cons, List.prod_nil, eval_const, eval_sqE, wVal, realW]
    ring
  · simp only [wE, eval_mul_list, List.map_cons, List.map_nil, List.prod_cons, List.prod_nil, eval_schurE, eval_pow_two, eval_posYE, eval_pow_neg_one,
      eval_r0, wVal, posW, div_eq_mul_inv, mul_one, mul_assoc]

/-- The contract of the replacement in an answer of `structural_sos_2vars`: its value, and no fractional powers in cyclic sums. -/
structure BExOk {β : Type*} (S : Sem K) (bval : β → (ℕ → K) → K) (bEx : Method → β → Option ℕ → Ex K) : Prop where
  value : ∀ m b h ρ, eval S (bEx m b h) ρ ρ = evalE bval (.ext b h) (newVal m (ρ 0) (ρ 1) (ρ 2))
  safe : ∀ m b h, fracSafe (bEx m b h) = true

theorem eval_toEx {β : Type*} (S : Sem K) (bval : β → (ℕ → K) → K) (bEx : Method → β → Option ℕ → Ex K) (hB : BExOk S bval bEx) (m : Method)
    (e : PivE β K) (ρ : ℕ → K) : eval S (toEx bEx m e) ρ ρ = evalE bval e (newVal m (ρ 0) (ρ 1) (ρ 2)) := by
  induction e with
  | num c => simp [toEx, eval_const, evalE]
  | ext b h => exact hB.value m b h ρ
  | zero => simp [toEx, eval_add_list, evalE]
  | addTerm s g k r ih1 ih2 =>
    simp only [toEx, eval_add_list, eval_mul_list, List.map_cons, List.map_nil, List.sum_cons, List.sum_nil, List.prod_cons, List.prod_nil,
      eval_pow_nat, ih1, ih2, eval_invE, evalE, mul_one, add_zero]

theorem fracSafe_invE (m : Method) (i : ℕ) : fracSafe (invE m i : Ex K) = true := by
  rcases m with _ | _ <;> rcases i with _ | _ | _ | i <;>
    simp [invE, fracSafe, fracSafeL, cSum, cProd, sqE, discE, subE, schurE, posYE, baseInt, powInt]

theorem fracSafe_wE (m : Method) : fracSafe (wE m : Ex K) = true := by
  rcases m with _ | _ <;> simp [wE, fracSafe, fracSafeL, cSum, cProd, sqE, subE, schurE, posYE, baseInt, powInt]

theorem fracSafe_toEx {β : Type*} (bEx : Method → β → Option ℕ → Ex K) (hB : ∀ m b h, fracSafe (bEx m b h) = true) (m : Method) (e : PivE β K) :
    fracSafe (toEx bEx m e) = true := by
  induction e with
  | num c => simp [toEx, fracSafe]
  | ext b h => exact hB m b h
  | zero => simp [toEx, fracSafe, fracSafeL]
  | addTerm s g k r ih1 ih2 => simp [toEx, fracSafe, fracSafeL, ih1, ih2, fracSafe_invE]

theorem fracSafe_symExpr {β : Type*} (bEx : Method → β → Option ℕ → Ex K) (hB : ∀ m b h, fracSafe (bEx m b h) = true) (s : SymAns β K) :
    fracSafe (symExpr bEx s) = true := by
  simp [symExpr, fracSafe, fracSafeL, fracSafe_toEx bEx hB, fracSafe_wE, cSum, baseInt, powInt]

theorem finish_same (S : Sem K) (expandOk : Ex K → Bool) (cons : List (MonoCon K)) (e r : Ex K) (h : finish S expandOk cons e = some r) (ρ : ℕ → K) :
    eval S r ρ ρ = eval S e ρ ρ := by
  unfold finish at h
  cases hd : dfs S (fun _ => none) expandOk e with
  | none => rw [hd] at h; cases h
  | some e' =>
    simp only [hd] at h
    split_ifs at h
    cases h
    exact dfs_same S (fun _ => none) expandOk (by simp) e r hd ρ

theorem clear_den (F N p w : K) (a b : ℤ) (hp : p ≠ 0) (hw : w ≠ 0)
    (h : F * (p ^ a.toNat * w ^ b.toNat) = N * (p ^ (-a).toNat * w ^ (-b).toNat)) : N * (p ^ (-a) * w ^ (-b)) = F := by
  have key : ∀ (x : K) (k : ℤ), x ≠ 0 → x ^ (-k) * x ^ k.toNat = x ^ (-k).toNat := by
    intro x k hx
    rw [← zpow_natCast, ← zpow_natCast, ← zpow_add₀ hx]
    congr 1
    omega
  have hne : p ^ a.toNat * w ^ b.toNat ≠ 0 := mul_ne_zero (pow_ne_zero _ hp) (pow_ne_zero _ hw)
  apply mul_right_cancel₀ hne
  rw [h, ← key p a hp, ← key w b hw]
  ring

theorem continuous_evalDict [TopologicalSpace K] [IsTopologicalRing K] (f : List (List ℕ × K)) (g : List (K → K)) (hg : ∀ x ∈ g, Continuous x) :
    Continuous fun t => evalDict f (g.map fun x => x t) := by
  have hm : ∀ (m : List ℕ) (g : List (K → K)), (∀ x ∈ g, Continuous x) → Continuous fun t => evalMonom m (g.map fun x => x t) := by
    intro m
    induction m with
    | nil => intro g _; simp only [evalMonom, List.zipWith_nil_left, List.prod_nil]; exact continuous_const
    | cons e m ih =>
      intro g hg
      rcases g with _ | ⟨x, g⟩
      · simp only [evalMonom, List.map_nil, List.zipWith_nil_right, List.prod_nil]; exact continuous_const
      · have h1 := ih g fun y hy => hg y (List.mem_cons_of_mem _ hy)
        have h2 := (hg x (List.mem_cons_self ..)).pow e
        exact h2.mul h1
  induction f with
  | nil => simp only [evalDict, List.map_nil, List.sum_nil]; exact continuous_const
  | cons u f ih => exact ((continuous_const (y := u.2)).mul (hm u.1 g hg)).add ih

/-- A polynomial in `p`, `q`, `r` that is nonnegative at `(a+t, b+2t, c+4t)` for all small positive `t` is nonnegative at `(a, b, c)`. -/
theorem nonneg_of_near (f : List (List ℕ × K)) (a b c ε : K) (hε : 0 < ε) (h : ∀ t, 0 < t → t < ε →
      0 ≤ evalDict f [eP (a + t) (b + 2 * t) (c + 4 * t), eQ (a + t) (b + 2 * t) (c + 4 * t), eR (a + t) (b + 2 * t) (c + 4 * t)]) :
    0 ≤ evalDict f [eP a b c, eQ a b c, eR a b c] := by
  let _ : TopologicalSpace K := Preorder.topology K
  have _ : OrderTopology K := ⟨rfl⟩
  have hc := continuous_evalDict f [fun t => eP (a + t) (b + 2 * t) (c + 4 * t), fun t => eQ (a + t) (b + 2 * t) (c + 4 * t),
    fun t => eR (a + t) (b + 2 * t) (c + 4 * t)] (by
      intro x hx
      simp only [List.mem_cons, List.not_mem_nil, or_false] at hx
      rcases hx with rfl | rfl | rfl
      · unfold eP; fun_prop
      · unfold eQ; fun_prop
      · unfold eR; fun_prop)
  have h2 := (hc.tendsto 0).mono_left (nhdsWithin_le_nhds (s := Set.Ioi 0))
  have h3 := ge_of_tendsto (b := (0 : K)) h2 (by
    filter_upwards [Ioo_mem_nhdsGT hε] with t ht
    exact h t ht.1 ht.2)
  simpa using h3

section Sound
variable {β : Type*} (S : Sem K) (expandOk : Ex K → Bool) (A : Arith K) (hA : ArithOk A) (biv : List ℕ → Terms K → List ℕ → Option β)
  (bval : β → (ℕ → K) → K) (hb : BivOk biv bval) (bEx : Method → β → Option ℕ → Ex K) (hB : BExOk S bval bEx)
  (fresh : ℕ → ℕ) (hfr : ∀ g, fresh g ≠ g) (n d : ℕ) (mono : List (MonoCon K)) (cons : List (Terms K)) (f : Terms K)
  (hfn : ∀ k ρ, 0 ≤ S.fn k ρ) (hfrac : ∀ b q, 0 ≤ b → 0 ≤ S.frac b q)
  (hf : WHom d f) (ha : Arity 3 f) (hne : f ≠ []) (hnorm : ∀ c ∈ mono, c.deg = 1 ∧ c.lc ≠ 0)
include hA hb hB hfr hfn hfrac hf ha hne hnorm

/-- An answer comes from one of the methods.  Its value is nonnegative at every point where the user's monomial constraints hold, and it is
that of the polynomial at every point of the method's domain where the two factors of the denominator are not zero. -/
theorem symLoop_sound (ms : List Method) (r : Ex K) (h : symLoop S expandOk A biv bEx fresh n mono cons f ms = some r) :
    ∃ m ∈ ms, ∀ ρ : ℕ → K,
      ((∀ c ∈ mono, 0 ≤ c.lc * ρ c.sym ^ c.deg) → 0 ≤ eval S r ρ ρ) ∧
      (Dom m (ρ 0) (ρ 1) (ρ 2) → eP (ρ 0) (ρ 1) (ρ 2) ≠ 0 → wVal m (ρ 0) (ρ 1) (ρ 2) ≠ 0 →
        eval S r ρ ρ = evalDict f [eP (ρ 0) (ρ 1) (ρ 2), eQ (ρ 0) (ρ 1) (ρ 2), eR (ρ 0) (ρ 1) (ρ 2)]) := by
  induction ms with
  | nil => simp [symLoop] at h
  | cons m ms ih =>
    have next : symLoop S expandOk A biv bEx fresh n mono cons f ms = some r → _ := fun h' =>
      (ih h').imp fun m' hm' => (⟨List.mem_cons_of_mem _ hm'.1, hm'.2⟩ : m' ∈ m :: ms ∧ _)
    simp only [symLoop] at h
    cases hs : symMethod A biv fresh n cons f m with
    | none => rw [hs] at h; exact next h
    | some s =>
      simp only [hs] at h
      cases hfi : finish S expandOk mono (symExpr bEx s) with
      | none => rw [hfi] at h; exact next h
      | some r' =>
        simp only [hfi] at h
        obtain rfl := Option.some.inj h
        have hm : s.method = m := by
          unfold symMethod at hs
          obtain ⟨t, _, h1⟩ := Option.bind_eq_some_iff.1 hs
          obtain ⟨e, _, rfl⟩ := Option.map_eq_some_iff.1 h1
          rfl
        refine ⟨m, List.mem_cons_self .., fun ρ => ⟨fun hfeas => ?_, fun hdom hp hw => ?_⟩⟩
        · rw [finish_same S expandOk mono _ _ hfi]
          exact finish_sound S expandOk mono _ _ hfn hfrac (fracSafe_symExpr bEx hB.safe s) hnorm hfi ρ hfeas
        · rw [finish_same S expandOk mono _ _ hfi]
          obtain ⟨e1, _⟩ := symMethod_sound_partial A hA biv bval hb fresh hfr n d cons f hf ha hne m s hs _ _ _ hdom
          simp only [symExpr, eval_mul_list, List.map_cons, List.map_nil, List.prod_cons, List.prod_nil, eval_toEx S bval bEx hB, hm, eval_pow_int,
            eval_p0, eval_wE, mul_one]
          exact clear_den _ _ _ _ _ _ hp hw e1

/-- **C100.** If `SymmetricSOS` answers, the polynomial is the value of the answer and nonnegative at all positive points that are not all equal
and satisfy the monomial constraints, whatever signs were inferred from the symmetric constraints. -/
theorem symmetricSOS_positive (r : Ex K) (h : symmetricSOS S expandOk A biv bEx fresh n mono cons f = some r) (ρ : ℕ → K)
    (h0 : 0 < ρ 0) (h1 : 0 < ρ 1) (h2 : 0 < ρ 2) (hab : ¬(ρ 0 = ρ 1 ∧ ρ 1 = ρ 2)) (hfeas : ∀ c ∈ mono, 0 ≤ c.lc * ρ c.sym ^ c.deg) :
    eval S r ρ ρ = evalDict f [eP (ρ 0) (ρ 1) (ρ 2), eQ (ρ 0) (ρ 1) (ρ 2), eR (ρ 0) (ρ 1) (ρ 2)] ∧
      0 ≤ evalDict f [eP (ρ 0) (ρ 1) (ρ 2), eQ (ρ 0) (ρ 1) (ρ 2), eR (ρ 0) (ρ 1) (ρ 2)] := by
  obtain ⟨m, _, hm⟩ := symLoop_sound S expandOk A hA biv bval hb bEx hB fresh hfr n d mono cons f hfn hfrac hf ha hne hnorm _ r h
  obtain ⟨k1, k2⟩ := hm ρ
  have hp : eP (ρ 0) (ρ 1) (ρ 2) ≠ 0 := by unfold eP; positivity
  have hw : wVal m (ρ 0) (ρ 1) (ρ 2) ≠ 0 := by
    cases m with
    | real =>
      intro hw
      simp only [wVal, realW] at hw
      have := sq_nonneg (ρ 0 - ρ 1)
      have := sq_nonneg (ρ 1 - ρ 2)
      have := sq_nonneg (ρ 2 - ρ 0)
      have e1 : (ρ 0 - ρ 1) ^ 2 = 0 := by linarith
      have e2 : (ρ 1 - ρ 2) ^ 2 = 0 := by linarith
      exact hab ⟨sub_eq_zero.1 (pow_eq_zero_iff two_ne_zero |>.1 e1), sub_eq_zero.1 (pow_eq_zero_iff two_ne_zero |>.1 e2)⟩
    | positive => exact fun hw => hab (posW_eq_zero _ _ _ h0 h1 h2 hw)
  have e := k2 (by cases m; exacts [trivial, ⟨h0, h1, h2⟩]) hp hw
  exact ⟨e, e ▸ k1 hfeas⟩

/-- **C100.** Unless all three variables are given as nonnegative only the method for real numbers is used: the same then holds at all real
points with nonzero sum that are not all equal and satisfy the monomial constraints. -/
theorem symmetricSOS_real (r : Ex K) (h : symmetricSOS S expandOk A biv bEx fresh n mono cons f = some r) (i : ℕ) (hi : i < 3)
    (hno : ∀ c ∈ mono, c.sym = i → c.lc < 0) (ρ : ℕ → K)
    (hp : ρ 0 + ρ 1 + ρ 2 ≠ 0) (hab : ¬(ρ 0 = ρ 1 ∧ ρ 1 = ρ 2)) (hfeas : ∀ c ∈ mono, 0 ≤ c.lc * ρ c.sym ^ c.deg) :
    eval S r ρ ρ = evalDict f [eP (ρ 0) (ρ 1) (ρ 2), eQ (ρ 0) (ρ 1) (ρ 2), eR (ρ 0) (ρ 1) (ρ 2)] ∧
      0 ≤ evalDict f [eP (ρ 0) (ρ 1) (ρ 2), eQ (ρ 0) (ρ 1) (ρ 2), eR (ρ 0) (ρ 1) (ρ 2)] := by
  have hms : symMethods mono = [.real] := by
    unfold symMethods
    rw [if_neg]
    intro hall
    rw [List.all_eq_true] at hall
    have := hall i (by rcases i with _ | _ | _ | i <;> simp at hi ⊢; omega)
    rw [List.any_eq_true] at this
    obtain ⟨c, hc, hcs⟩ := this
    simp only [Bool.and_eq_true, beq_iff_eq, decide_eq_true_eq] at hcs
    exact absurd hcs.2 (not_le.2 (hno c hc hcs.1.1))
  unfold symmetricSOS at h
  rw [hms] at h
  obtain ⟨m, hmem, hm⟩ := symLoop_sound S expandOk A hA biv bval hb bEx hB fresh hfr n d mono cons f hfn hfrac hf ha hne hnorm _ r h
  obtain rfl : m = .real := by simpa using hmem
  obtain ⟨k1, k2⟩ := hm ρ
  have e := k2 trivial hp (by
    intro hw
    simp only [wVal, realW] at hw
    have := sq_nonneg (ρ 0 - ρ 1)
    have := sq_nonneg (ρ 1 - ρ 2)
    have := sq_nonneg (ρ 2 - ρ 0)
    have e1 : (ρ 0 - ρ 1) ^ 2 = 0 := by linarith
    have e2 : (ρ 1 - ρ 2) ^ 2 = 0 := by linarith
    exact hab ⟨sub_eq_zero.1 (pow_eq_zero_iff two_ne_zero |>.1 e1), sub_eq_zero.1 (pow_eq_zero_iff two_ne_zero |>.1 e2)⟩)
  exact ⟨e, e ▸ k1 hfeas⟩

/-- **C100.** If `SymmetricSOS` answers, the polynomial is nonnegative at all points with nonnegative coordinates, also where the answer divides
by zero, provided no constraint says that a variable is not positive. -/
theorem symmetricSOS_nonneg (r : Ex K) (h : symmetricSOS S expandOk A biv bEx fresh n mono cons f = some r)
    (hmono : ∀ c ∈ mono, c.sym < 3 ∧ 0 ≤ c.lc) (a b c : K) (h0 : 0 ≤ a) (h1 : 0 ≤ b) (h2 : 0 ≤ c) :
    0 ≤ evalDict f [eP a b c, eQ a b c, eR a b c] := by
  have main : ∀ x y z : K, 0 < x → 0 < y → 0 < z → x ≠ y → 0 ≤ evalDict f [eP x y z, eQ x y z, eR x y z] := by
    intro x y z hx hy hz hxy
    refine (symmetricSOS_positive S expandOk A hA biv bval hb bEx hB fresh hfr n d mono cons f hfn hfrac hf ha hne hnorm r h
      (fun i => [x, y, z].getD i 0) hx hy hz (fun e => hxy e.1) fun c hc => ?_).2
    obtain ⟨k1, k2⟩ := hmono c hc
    refine mul_nonneg k2 (pow_nonneg ?_ _)
    rcases hs : c.sym with _ | _ | _ | i
    · exact hx.le
    · exact hy.le
    · exact hz.le
    · omega
  have step : ∃ ε : K, 0 < ε ∧ ∀ t, 0 < t → t < ε → a + t ≠ b + 2 * t := by
    by_cases hab : 0 < a - b
    · exact ⟨a - b, hab, fun t _ ht e => by linarith⟩
    · exact ⟨1, one_pos, fun t ht _ e => by linarith⟩
  obtain ⟨ε, hε, hne'⟩ := step
  exact nonneg_of_near f a b c ε hε fun t ht hte => main _ _ _ (by linarith) (by linarith) (by linarith) (hne' t ht hte)

/-- **C100.** If `SymmetricSOS` answers without constraints on single variables, the polynomial is nonnegative at all real points. -/
theorem symmetricSOS_all (r : Ex K) (h : symmetricSOS S expandOk A biv bEx fresh n mono cons f = some r) (hmono : mono = []) (a b c : K) :
    0 ≤ evalDict f [eP a b c, eQ a b c, eR a b c] := by
  have main : ∀ x y z : K, x + y + z ≠ 0 → x ≠ y → 0 ≤ evalDict f [eP x y z, eQ x y z, eR x y z] := fun x y z hp hxy =>
    (symmetricSOS_real S expandOk A hA biv bval hb bEx hB fresh hfr n d mono cons f hfn hfrac hf ha hne hnorm r h 0 (by omega)
      (by rw [hmono]; simp) (fun i => [x, y, z].getD i 0) hp (fun e => hxy e.1) (by rw [hmono]; simp)).2
  have step : ∃ ε : K, 0 < ε ∧ ∀ t, 0 < t → t < ε → a + t ≠ b + 2 * t := by
    by_cases hab : 0 < a - b
    · exact ⟨a - b, hab, fun t _ ht e => by linarith⟩
    · exact ⟨1, one_pos, fun t ht _ e => by linarith⟩
  have step2 : ∃ ε : K, 0 < ε ∧ ∀ t, 0 < t → t < ε → a + t + (b + 2 * t) + (c + 4 * t) ≠ 0 := by
    by_cases hs : a + b + c < 0
    · exact ⟨-(a + b + c) / 7, by linarith, fun t _ ht e => by linarith⟩
    · exact ⟨1, one_pos, fun t ht _ e => by linarith⟩
  obtain ⟨ε, hε, k1⟩ := step
  obtain ⟨ε', hε', k2⟩ := step2
  exact nonneg_of_near f a b c (min ε ε') (lt_min hε hε') fun t ht hte =>
    main _ _ _ (k2 t ht (lt_of_lt_of_le hte (min_le_right ..))) (k1 t ht (lt_of_lt_of_le hte (min_le_left ..)))

end Sound

/-! ### Concrete cases -/

section Concrete

/-- The answer of the example solver `monoBiv` written as an expression. -/
def monoEx (m : Method) (b : List ℕ × Terms ℚ) (h : Option ℕ) : Ex ℚ :=
  .add (b.2.map fun t => .mul [.const t.2, .mul (List.zipWith (fun (e : ℕ) (g : ℕ) => .pow (if h = some g then .const 1 else invE m g) (e : ℚ)) t.1 b.1)])

theorem monoEx_ok : BExOk exSem (fun (b : List ℕ × Terms ℚ) v => evalDict b.2 (b.1.map v)) monoEx := by
  have hmon : ∀ (m : Method) (h : Option ℕ) (v : ℕ → ℚ) (ρ : ℕ → ℚ),
      (∀ g, eval exSem (if h = some g then .const 1 else invE m g) ρ ρ = v g) → ∀ (es gs : List ℕ),
      eval exSem (.mul (List.zipWith (fun (e : ℕ) (g : ℕ) => .pow (if h = some g then .const 1 else invE m g) (e : ℚ)) es gs)) ρ ρ =
        evalMonom es (gs.map v) := by
    intro m h v ρ hv es
    induction es with
    | nil => intro gs; simp [eval_mul_list, evalMonom]
    | cons e es ih =>
      intro gs
      rcases gs with _ | ⟨g, gs⟩
      · simp [eval_mul_list, evalMonom]
      · have := ih gs
        rw [eval_mul_list] at this ⊢
        simp only [List.zipWith_cons_cons, List.map_cons, List.prod_cons, this, eval_pow_nat, hv, evalMonom]
  have hsum : ∀ (m : Method) (h : Option ℕ) (v : ℕ → ℚ) (ρ : ℕ → ℚ),
      (∀ g, eval exSem (if h = some g then .const 1 else invE m g) ρ ρ = v g) → ∀ b : List ℕ × Terms ℚ,
      eval exSem (monoEx m b h) ρ ρ = evalDict b.2 (b.1.map v) := by
    intro m h v ρ hv b
    simp only [monoEx, eval_add_list, evalDict, List.map_map]
    congr 1
    apply List.map_congr_left
    intro t _
    simp only [Function.comp_apply]
    rw [eval_mul_list]
    simp only [List.map_cons, List.map_nil, List.prod_cons, List.prod_nil, eval_const, mul_one, hmon m h v ρ hv]
  refine ⟨fun m b h ρ => ?_, fun m b h => ?_⟩
  · cases h with
    | none => exact hsum m none _ ρ (fun g => by simp [eval_invE]) b
    | some h =>
      refine hsum m (some h) (Function.update (newVal m (ρ 0) (ρ 1) (ρ 2)) h 1) ρ (fun g => ?_) b
      by_cases hg : h = g
      · subst hg; simp [eval_const]
      · simp [hg, eval_invE, Function.update_of_ne (Ne.symm hg)]
  · have hz : ∀ es gs : List ℕ,
        fracSafeL (List.zipWith (fun (e : ℕ) (g : ℕ) => (.pow (if h = some g then .const 1 else invE m g) (e : ℚ) : Ex ℚ)) es gs) = true := by
      intro es
      induction es with
      | nil => intro gs; simp [fracSafeL]
      | cons e es ih =>
        intro gs
        rcases gs with _ | ⟨g, gs⟩
        · simp [fracSafeL]
        · simp only [List.zipWith_cons_cons, fracSafeL, fracSafe, ih gs, Bool.and_true]
          split_ifs
          · simp [fracSafe]
          · exact fracSafe_invE m g
    have hl : ∀ l : Terms ℚ, fracSafeL (l.map fun t => (.mul [.const t.2,
        .mul (List.zipWith (fun (e : ℕ) (g : ℕ) => .pow (if h = some g then .const 1 else invE m g) (e : ℚ)) t.1 b.1)] : Ex ℚ)) = true := by
      intro l
      induction l with
      | nil => simp [fracSafeL]
      | cons t l ih => simp [fracSafeL, fracSafe, ih, hz]
    simp only [monoEx, fracSafe, hl]

/-- The driver with rational arithmetic. -/
def exDriver (mono : List (MonoCon ℚ)) (cons : List (Terms ℚ)) (f : Terms ℚ) : Option (Ex ℚ) :=
  symmetricSOS exSem (fun _ => true) ratArith monoBiv monoEx (· + 10) 20 mono cons f

/-- Schur's inequality is answered if the three variables are given as nonnegative, and only then. -/
theorem exDriver_schur : (exDriver [⟨0, 1, 1⟩, ⟨1, 1, 1⟩, ⟨2, 1, 1⟩] [] schurPQR).isSome = true ∧
    (exDriver [⟨0, 1, 1⟩, ⟨1, 1, 1⟩] [] schurPQR).isSome = false := by decide +kernel

/-- The polynomial of `constraint_sign_wrong`, which is negative at a feasible point, gets no answer: the last check rejects the expression
that `prove_by_pivoting` found. -/
theorem exDriver_rejects : (exDriver [] [consPY] polyY).isSome = false ∧
    (symMethod ratArith monoBiv (· + 10) 20 [consPY] polyY .real).isSome = true := by decide +kernel

/-- A symmetric polynomial that is a square at all real points is answered by the real method without constraints. -/
theorem exDriver_real : (exDriver [] [] [([2, 0, 0], 1), ([0, 1, 0], -3)]).isSome = true := by decide +kernel

example (r : Ex ℚ) (h : exDriver [⟨0, 1, 1⟩, ⟨1, 1, 1⟩, ⟨2, 1, 1⟩] [] schurPQR = some r) :
    eval exSem r (fun i => [1, 2, 3].getD i 0) (fun i => [1, 2, 3].getD i 0) = evalDict schurPQR [eP 1 2 3, eQ 1 2 3, eR 1 2 3] :=
  (symmetricSOS_positive exSem _ ratArith ratArith_ok monoBiv _ monoBiv_ok monoEx monoEx_ok (· + 10) (by intro g; simp) 20 3 _ [] schurPQR
    (by intro k ρ; exact le_refl _) (by intro b q _; exact le_refl _) (by simp [schurPQR, WHom]) (by simp [schurPQR, Arity]) (by simp [schurPQR])
    (by intro c hc; simp at hc; rcases hc with rfl | rfl | rfl <;> norm_num) r h (fun i => [1, 2, 3].getD i 0) (by norm_num) (by norm_num)
    (by norm_num) (by norm_num) (by intro c hc; simp at hc; rcases hc with rfl | rfl | rfl <;> norm_num)).1

end Concrete

end Verif.SymSOS
