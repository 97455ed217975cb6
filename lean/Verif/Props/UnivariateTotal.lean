import Verif.Props.Univariate

/-!
# C18: merging never raises
-/

set_option linter.unusedSectionVars false

namespace Verif

section
variable {K : Type*} [Field K] [LinearOrder K] [IsStrictOrderedRing K]

theorem congLoop_diag (n : ℕ) (k i : ℕ) (st st' : CongState K) (hS : ∀ r, i ≤ r → st.S r = 0)
    (hd : ∀ r, st.S r ≠ 0 → st.U r r = 1) (h : congLoop n i k st = some st') :
    (∀ r, i + k ≤ r → st'.S r = 0) ∧ ∀ r, st'.S r ≠ 0 → st'.U r r = 1 := by
  induction k generalizing i st with
  | zero =>
    have := Option.some.inj h
    subst this
    exact ⟨by simpa using hS, hd⟩
  | succ k ih =>
    unfold congLoop at h
    cases h1 : congStep n i st with
    | none => rw [h1] at h; cases h
    | some st1 =>
      rw [h1] at h
      have h : congLoop n (i+1) k st1 = some st' := h
      rw [show i + (k + 1) = i + 1 + k by omega]
      apply ih (i + 1) st1 _ _ h
      · intro r hr
        unfold congStep at h1
        simp only at h1
        split_ifs at h1
        · have := Option.some.inj h1
          subst this
          simp only
          rw [if_neg (by omega)]; exact hS r (by omega)
        · have := Option.some.inj h1
          subst this
          exact hS r (by omega)
      · intro r hr
        unfold congStep at h1
        simp only at h1
        split_ifs at h1
        · have := Option.some.inj h1
          subst this
          simp only at hr ⊢
          by_cases hri : r = i
          · simp [hri]
          · rw [if_neg hri] at hr ⊢
            exact hd r hr
        · have := Option.some.inj h1
          subst this
          exact hd r hr

/-- A nonzero weight comes with a unit on the diagonal of `U`; the last diagonal entry is always one. -/
theorem congruence_diag (n : ℕ) (M U : ℕ → ℕ → K) (S : ℕ → K) (h : congruence n M = .ok (some (U, S))) :
    (∀ r, S r ≠ 0 → U r r = 1) ∧ U (n - 1) (n - 1) = 1 := by
  unfold congruence at h
  split_ifs at h with hn
  cases hl : congLoop n 0 (n-1) (⟨M, fun _ _ => 0, fun _ => 0⟩ : CongState K) with
  | none => rw [hl] at h; cases Except.ok.inj h
  | some st =>
    rw [hl] at h
    simp only at h
    obtain ⟨-, h2⟩ := congLoop_diag n (n-1) 0 _ st (fun _ _ => rfl) (fun r hr => absurd rfl hr) hl
    simp only [if_true] at h
    split_ifs at h
    · cases Except.ok.inj h
    · have := Option.some.inj (Except.ok.inj h)
      injection this with hU hS
      subst hU hS
      refine ⟨?_, by simp⟩
      intro r hr
      beta_reduce at hr ⊢
      by_cases hrn : r = n - 1
      · simp [hrn]
      · rw [if_neg hrn] at hr
        rw [if_neg (by omega)]
        exact h2 r hr

theorem toPoly_padd (p q : UPoly K) : toPoly (padd p q) = toPoly p + toPoly q := by
  induction p generalizing q with
  | nil => simp [padd, toPoly]
  | cons a p ih =>
    cases q with
    | nil => simp [padd, toPoly]
    | cons b q => simp only [padd, toPoly, ih, Polynomial.C_add]; ring

theorem toPoly_psmul (c : K) (p : UPoly K) : toPoly (psmul c p) = Polynomial.C c * toPoly p := by
  induction p with
  | nil => simp [psmul, toPoly]
  | cons a p ih =>
    have : psmul c (a :: p) = (c * a) :: psmul c p := rfl
    rw [this]; simp only [toPoly, ih, Polynomial.C_mul]; ring

theorem toPoly_pmul (p q : UPoly K) : toPoly (pmul p q) = toPoly p * toPoly q := by
  induction p with
  | nil => simp [pmul, toPoly]
  | cons a p ih => simp only [pmul, toPoly_padd, toPoly_psmul, toPoly, ih, Polynomial.C_0]; ring

theorem toPoly_ppow (p : UPoly K) (k : ℕ) : toPoly (ppow p k) = toPoly p ^ k := by
  induction k with
  | zero => simp [ppow, toPoly]
  | succ k ih => simp only [ppow, toPoly_pmul, ih]; ring

theorem toPoly_pstrip (p : UPoly K) : toPoly (pstrip p) = toPoly p := by
  have hinf : Infinite K := inferInstance
  apply Polynomial.funext
  intro x; rw [eval_toPoly, eval_toPoly, uev_pstrip]

theorem pstrip_nil_iff (p : UPoly K) : pstrip p = [] ↔ toPoly p = 0 := by
  constructor
  · intro h; rw [← toPoly_pstrip, h]; rfl
  · intro h
    by_contra hne
    have h1 := pstrip_getLast p hne
    rw [← toPoly_pstrip] at h
    have := coeff_toPoly (pstrip p) ((pstrip p).length - 1)
    rw [h, Polynomial.coeff_zero, List.getD_eq_getElem?_getD, ← List.getLast?_eq_getElem?, List.getLast?_eq_some_getLast hne] at this
    exact h1 this.symm

end

namespace Univariate
variable {K : Type*} [Field K] [LinearOrder K] [IsStrictOrderedRing K]

/-- empty, or containing a nonzero polynomial -/
def Alive (L : Sos K) : Prop := L = [] ∨ ∃ cp ∈ L, toPoly cp.2 ≠ 0

theorem Alive.append {A B : Sos K} (hA : Alive A) (hB : Alive B) : Alive (A ++ B) := by
  rcases hA with rfl | ⟨a, ha, h⟩
  · simpa using hB
  · exact Or.inr ⟨a, List.mem_append_left _ ha, h⟩

theorem alive_crossMul (m : UPoly K) (hm : toPoly m ≠ 0) {A B : Sos K} (hA : Alive A) (hB : Alive B) :
    Alive (crossMul m A B) := by
  rcases hA with rfl | ⟨a, ha, h⟩
  · left; rfl
  · rcases hB with rfl | ⟨b, hb, h'⟩
    · left; simp [crossMul]
    · right
      refine ⟨(a.1 * b.1, pmul m (pmul a.2 b.2)), ?_, ?_⟩
      · unfold crossMul
        rw [List.mem_flatMap]
        exact ⟨a, ha, List.mem_map.2 ⟨b, hb, rfl⟩⟩
      · simp only [toPoly_pmul]
        exact mul_ne_zero hm (mul_ne_zero h h')

theorem toPoly_row_ne (n : ℕ) (u : ℕ → K) (k : ℕ) (hk : k < n) (h : u k = 1) :
    toPoly ((List.range n).map fun i => u (n - 1 - i)) ≠ 0 := by
  intro h0
  have := coeff_toPoly ((List.range n).map fun i => u (n - 1 - i)) (n - 1 - k)
  rw [h0, Polynomial.coeff_zero, List.getD_eq_getElem?_getD, List.getElem?_map, List.getElem?_range (by omega)] at this
  simp only [Option.map_some, Option.getD_some] at this
  rw [show n - 1 - (n - 1 - k) = k by omega, h] at this
  exact zero_ne_one this

theorem alive_sosOfUS (n : ℕ) (M U : ℕ → ℕ → K) (S : ℕ → K) (h : congruence n M = .ok (some (U, S))) :
    Alive (sosOfUS n U S) := by
  by_cases hn : n = 0
  · left; simp [sosOfUS, hn]
  · right
    refine ⟨(S (n-1), (List.range n).map fun i => U (n-1) (n - 1 - i)), ?_, ?_⟩
    · unfold sosOfUS
      exact List.mem_map.2 ⟨n-1, List.mem_range.2 (by omega), rfl⟩
    · exact toPoly_row_ne n (U (n-1)) (n-1) (by omega) (congruence_diag n M U S h).2

theorem alive_reduceSos (L L' : Sos K) (h : reduceSos L = .ok L') : Alive L' := by
  unfold reduceSos at h
  by_cases h0 : L = []
  · rw [if_pos h0] at h
    have := Except.ok.inj h
    subst this; left; rfl
  rw [if_neg h0] at h
  split at h
  · cases h
  · rename_i n hn
    split at h
    · cases h
    · cases h
    · rename_i U S hc
      have := Except.ok.inj h
      subst this
      by_cases he : (sosOfUS (n+1) U S).filter (fun cp => decide (cp.1 ≠ 0)) = []
      · left; exact he
      · right
        obtain ⟨cp, hcp⟩ := List.exists_mem_of_ne_nil _ he
        refine ⟨cp, hcp, ?_⟩
        rw [List.mem_filter] at hcp
        obtain ⟨hcp, h1⟩ := hcp
        unfold sosOfUS at hcp
        obtain ⟨k, hk, rfl⟩ := List.mem_map.1 hcp
        exact toPoly_row_ne (n+1) (U k) k (List.mem_range.1 hk) ((congruence_diag _ _ U S hc).1 k (by simpa using h1))

theorem alive_mergeOne (p : Sos K × Sos K) (m : Raw K) (h1 : Alive p.1) (h2 : Alive p.2)
    (hm : ∀ e ∈ m, Alive e.2) : Alive (mergeOne p m).1 ∧ Alive (mergeOne p m).2 := by
  have t1 : toPoly ([1] : UPoly K) ≠ 0 := by simp [toPoly]
  have tx : toPoly ([0, 1] : UPoly K) ≠ 0 := by
    simp [toPoly, Polynomial.X_ne_zero]
  unfold mergeOne
  have key : ∀ (acc : Sos K × Sos K), Alive acc.1 → Alive acc.2 →
    Alive (m.foldl (fun acc e =>
    if e.1 then (acc.1 ++ crossMul [0, 1] p.2 e.2, acc.2 ++ crossMul [1] p.1 e.2)
    else (acc.1 ++ crossMul [1] p.1 e.2, acc.2 ++ crossMul [1] p.2 e.2)) acc).1 ∧
    Alive (m.foldl (fun acc e =>
    if e.1 then (acc.1 ++ crossMul [0, 1] p.2 e.2, acc.2 ++ crossMul [1] p.1 e.2)
    else (acc.1 ++ crossMul [1] p.1 e.2, acc.2 ++ crossMul [1] p.2 e.2)) acc).2 := by
    induction m with
    | nil => intro acc h1 h2; exact ⟨h1, h2⟩
    | cons e m ih =>
      intro acc ha1 ha2
      rw [List.foldl_cons]
      have he := hm e (by simp)
      apply ih (fun e' he' => hm e' (List.mem_cons_of_mem _ he'))
      · split_ifs
        · exact ha1.append (alive_crossMul _ tx h2 he)
        · exact ha1.append (alive_crossMul _ t1 h1 he)
      · split_ifs
        · exact ha2.append (alive_crossMul _ t1 h1 he)
        · exact ha2.append (alive_crossMul _ t1 h2 he)
  exact key ([], []) (Or.inl rfl) (Or.inl rfl)

theorem reduceSos_ok (L : Sos K) (hL : SosNonneg L) (ha : Alive L) : ∃ L', reduceSos L = .ok L' := by
  cases h : reduceSos L with
  | ok L' => exact ⟨L', rfl⟩
  | error e =>
    exfalso
    obtain ⟨h0, h1⟩ := reduceSos_error L hL e h
    rcases ha with ha | ⟨cp, hcp, hne⟩
    · exact h0 ha
    · exact hne ((pstrip_nil_iff _).1 (h1 cp hcp))

/-- **C18 (totality).** Merging factor proofs with nonnegative weights and without all-zero lists never raises. -/
theorem mergeAll_total (ms : List (Raw K)) (p : Sos K × Sos K) (h1 : SosNonneg p.1) (h2 : SosNonneg p.2)
    (a1 : Alive p.1) (a2 : Alive p.2) (hm : ∀ m ∈ ms, ∀ e ∈ m, SosNonneg e.2 ∧ Alive e.2) :
    ∃ p', mergeAll ms p = .ok p' := by
  induction ms generalizing p with
  | nil => exact ⟨p, rfl⟩
  | cons m ms ih =>
    obtain ⟨n1, n2⟩ := mergeOne_nonneg p m h1 h2 (fun e he => (hm m (by simp) e he).1)
    obtain ⟨b1, b2⟩ := alive_mergeOne p m a1 a2 (fun e he => (hm m (by simp) e he).2)
    obtain ⟨q1, hq1⟩ := reduceSos_ok _ n1 b1
    obtain ⟨q2, hq2⟩ := reduceSos_ok _ n2 b2
    unfold mergeAll
    rw [hq1, hq2]
    exact ih (q1, q2) (fun cp hcp => ((reduceSos_sound _ _ hq1).2 cp hcp).le) (fun cp hcp => ((reduceSos_sound _ _ hq2).2 cp hcp).le)
      (alive_reduceSos _ _ hq1) (alive_reduceSos _ _ hq2) (fun m' hm' => hm m' (List.mem_cons_of_mem _ hm'))

theorem alive_mk (c : K) (p : UPoly K) (L : Sos K) (h : toPoly p ≠ 0) : Alive ((c, p) :: L) :=
  Or.inr ⟨(c, p), by simp, h⟩

theorem alive_simple (p : UPoly K) (R : Raw K) (h : proveSimple p = .ok (some R)) : ∀ e ∈ R, Alive e.2 := by
  have t1 : toPoly ([1] : UPoly K) ≠ 0 := by simp [toPoly]
  have tl : ∀ b : K, toPoly ([b, 1] : UPoly K) ≠ 0 := by
    intro b h0
    have := coeff_toPoly ([b, 1] : UPoly K) 1
    rw [h0] at this; simp at this
  match p, h with
  | [c], h =>
    simp only [proveSimple] at h
    split_ifs at h with h0
    · have := Option.some.inj (Except.ok.inj h)
      subst this
      intro e he; simp at he; subst he; exact alive_mk _ _ _ t1
    · cases Except.ok.inj h
  | [b, a], h =>
    simp only [proveSimple] at h
    split_ifs at h with h0
    · have := Option.some.inj (Except.ok.inj h)
      subst this
      intro e he; simp at he
      rcases he with rfl | rfl <;> exact alive_mk _ _ _ t1
    · cases Except.ok.inj h
  | [c, b, a], h =>
    simp only [proveSimple] at h
    split_ifs at h with h0 h1 h2
    · cases Except.ok.inj h
    · have := Option.some.inj (Except.ok.inj h)
      subst this
      intro e he; simp at he; subst he
      exact alive_mk _ _ _ (tl _)
    · have := Option.some.inj (Except.ok.inj h)
      subst this
      intro e he; simp at he
      rcases he with rfl | rfl
      · exact alive_mk _ _ _ (tl _)
      · exact alive_mk _ _ _ t1
    · cases Except.ok.inj h
  | [], h => simp [proveSimple] at h
  | _ :: _ :: _ :: _ :: _, h => simp [proveSimple] at h

theorem toPoly_pmonom_ne (k : ℕ) : toPoly (pmonom k : UPoly K) ≠ 0 := by
  intro h
  have := eval_toPoly (pmonom k : UPoly K) 1
  rw [h, uev_pmonom] at this; simp at this

theorem alive_map_pmonom (l : List (ℕ × K)) : Alive (l.map fun t => (t.2, (pmonom (t.1 / 2) : UPoly K))) := by
  cases l with
  | nil => left; rfl
  | cons t l => exact alive_mk _ _ _ (toPoly_pmonom_ne _)

theorem alive_loopReal (f : UPoly K) (n0 : ℕ) (cands) (R : Raw K) (h : loopReal f n0 cands = .ok (some R)) :
    ∀ e ∈ R, SosNonneg e.2 ∧ Alive e.2 := by
  induction cands with
  | nil => simp [loopReal] at h
  | cons c rest ih =>
    unfold loopReal at h
    split at h
    · cases h
    · rename_i M hM
      split at h
      · cases h
      · exact ih h
      · rename_i U S hc
        split_ifs at h with ha
        · have := Option.some.inj (Except.ok.inj h)
          subst this
          intro e he; simp at he; subst he
          refine ⟨sosOfUS_nonneg n0 U S ?_, alive_sosOfUS n0 M U S hc⟩
          intro k hk
          simpa using List.all_eq_true.1 ha k (List.mem_range.2 hk)
        · exact ih h

theorem alive_loopPos (f : UPoly K) (n0 n1 : ℕ) (cands) (R : Raw K) (h : loopPos f n0 n1 cands = .ok (some R)) :
    ∀ e ∈ R, SosNonneg e.2 ∧ Alive e.2 := by
  induction cands with
  | nil => simp [loopPos] at h
  | cons c rest ih =>
    unfold loopPos at h
    split at h
    · cases h
    · rename_i M0 hM0
      split at h
      · cases h
      · exact ih h
      · rename_i U1 S1 hc1
        split_ifs at h with ha1
        · split at h
          · cases h
          · exact ih h
          · rename_i U0 S0 hc0
            split_ifs at h with ha0
            · have := Option.some.inj (Except.ok.inj h)
              subst this
              intro e he; simp at he
              rcases he with rfl | rfl
              · refine ⟨sosOfUS_nonneg n0 U0 S0 ?_, alive_sosOfUS n0 M0 U0 S0 hc0⟩
                intro k hk
                simpa using List.all_eq_true.1 ha0 k (List.mem_range.2 hk)
              · refine ⟨sosOfUS_nonneg n1 U1 S1 ?_, alive_sosOfUS n1 _ U1 S1 hc1⟩
                intro k hk
                simpa using List.all_eq_true.1 ha1 k (List.mem_range.2 hk)
            · exact ih h
        · exact ih h

theorem alive_proveIrr (f : UPoly K) (nu : Numeric K) (R : Raw K) (h : proveIrr f nu = .ok (some R)) :
    ∀ e ∈ R, SosNonneg e.2 ∧ Alive e.2 := by
  unfold proveIrr at h
  split_ifs at h with h1 h2 h3 h4 h5
  · cases Except.ok.inj h
  · intro e he
    exact ⟨(proveSimple_sound _ R h).2 e he, alive_simple _ R h e he⟩
  · cases Except.ok.inj h
  · have := Option.some.inj (Except.ok.inj h)
    subst this
    rw [Bool.and_eq_true] at h4
    intro e he
    refine ⟨(trivialProof_sound _ h4.2).2 e he, ?_⟩
    unfold trivialProof at he
    simp only [List.mem_cons, List.not_mem_nil, or_false] at he
    rcases he with rfl | rfl <;> exact alive_map_pmonom _
  · exact alive_loopReal f nu.n0 nu.cands R h
  · exact alive_loopPos f nu.n0 nu.n1 nu.cands R h

theorem alive_collect (fs : List (UPoly K × ℕ × Numeric K)) (hne : ∀ f ∈ fs, toPoly f.1 ≠ 0)
    (l : List (Raw K)) (h : collect fs = .ok (some l)) : ∀ m ∈ l, ∀ e ∈ m, SosNonneg e.2 ∧ Alive e.2 := by
  induction fs generalizing l with
  | nil =>
    have := Option.some.inj (Except.ok.inj h)
    subst this
    simp
  | cons f fs ih =>
    obtain ⟨f, k, nu⟩ := f
    have ih := ih (fun g hg => hne g (List.mem_cons_of_mem _ hg))
    have hsq : ∀ e ∈ ([(false, [(1, ppow f (k / 2))])] : Raw K), SosNonneg e.2 ∧ Alive e.2 := by
      intro e he; simp at he; subst he
      refine ⟨?_, alive_mk _ _ _ ?_⟩
      · intro cp hcp; simp at hcp; subst hcp; exact zero_le_one
      · rw [toPoly_ppow]; exact pow_ne_zero _ (hne (f, k, nu) (by simp))
    unfold collect at h
    by_cases hk : k % 2 = 0
    · rw [if_pos hk] at h
      split at h
      · rename_i l' hl'
        have := Option.some.inj (Except.ok.inj h)
        subst this
        intro m hm
        rcases List.mem_cons.1 hm with rfl | hm
        · exact hsq
        · exact ih l' hl' m hm
      · rename_i r hr
        exact absurd h (hr l)
    · rw [if_neg hk] at h
      split at h
      · cases h
      · cases Except.ok.inj h
      · rename_i ret hret
        have g2 := alive_proveIrr f nu ret hret
        split at h
        · rename_i l' hl'
          split_ifs at h with h1
          · have := Option.some.inj (Except.ok.inj h)
            subst this
            intro m hm
            rcases List.mem_cons.1 hm with rfl | hm
            · exact hsq
            · rcases List.mem_cons.1 hm with rfl | hm
              · exact g2
              · exact ih l' hl' m hm
          · have := Option.some.inj (Except.ok.inj h)
            subst this
            intro m hm
            rcases List.mem_cons.1 hm with rfl | hm
            · exact g2
            · exact ih l' hl' m hm
        · rename_i r hr
          exact absurd h (hr l)

/-- **C18 (totality of the prover).** For nonzero factors the prover raises only if the proof of a single factor raised;
the merge never adds an exception. -/
theorem proveUnivariate_error (lc : K) (fs : List (UPoly K × ℕ × Numeric K)) (hne : ∀ f ∈ fs, toPoly f.1 ≠ 0)
    (e : PyErr) (h : proveUnivariate lc fs = .error e) : collect fs = .error e := by
  unfold proveUnivariate at h
  split_ifs at h with hlc
  split at h
  · rename_i e' he
    rw [he]
    exact congrArg _ (Except.error.inj h)
  · cases h
  · rename_i l hl
    obtain ⟨p', hp'⟩ := mergeAll_total l ([(lc, [1])], []) (by intro cp hcp; simp at hcp; subst hcp; exact not_lt.1 hlc)
      (by intro cp hcp; simp at hcp) (alive_mk _ _ _ (by simp [toPoly])) (Or.inl rfl) (alive_collect fs hne l hl)
    rw [hp'] at h
    cases h

example : toPoly ([1, 0, 1] : UPoly ℚ) ≠ 0 := by
  intro h
  have := eval_toPoly ([1, 0, 1] : UPoly ℚ) 0
  rw [h] at this; simp at this

end Univariate
end Verif
