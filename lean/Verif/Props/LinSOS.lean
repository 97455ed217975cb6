import Verif.Model.LinSOS
import Verif.Props.LinCorrect
import Verif.Props.LinBasis
import Verif.Props.Shared
import Mathlib.Tactic.Positivity

/-!
# C30: the certificate of `LinearSOS`
-/

namespace Verif.LinSOS

open Verif TermsPoly MonoMgr Coeff LinBasis Shared

variable {K : Type*}

/-! ### Well-formed polynomials -/

/-- The right number of variables, and homogeneous. -/
def Good (n : ℕ) (p : List (List ℕ × K)) : Prop := Arity n p ∧ ∃ d, HomDeg d p

theorem good_pmul [Semiring K] [DecidableEq K] {n : ℕ} {p q : List (List ℕ × K)} (hp : Good n p) (hq : Good n q) : Good n (pmul p q) := by
  obtain ⟨h1, d1, h2⟩ := hp
  obtain ⟨h3, d2, h4⟩ := hq
  exact ⟨arity_pmul h1 h3, _, homDeg_pmul h1 h3 h2 h4⟩

theorem good_pconst [Zero K] [DecidableEq K] (n : ℕ) (c : K) : Good n (pconst n c) := ⟨arity_pconst _ _, 0, homDeg_pconst _ _⟩

theorem good_ppow [Semiring K] [DecidableEq K] {n : ℕ} {p : List (List ℕ × K)} (hp : Good n p) (k : ℕ) : Good n (ppow n p k) := by
  obtain ⟨h1, d1, h2⟩ := hp
  exact ⟨arity_ppow h1 k, _, homDeg_ppow h1 h2 k⟩

theorem good_foldl [Semiring K] [DecidableEq K] {n : ℕ} : ∀ (l : List (List (List ℕ × K))) (a : List (List ℕ × K)),
    (∀ p ∈ l, Good n p) → Good n a → Good n (l.foldl pmul a)
  | [], _, _, ha => ha
  | p :: l, a, hl, ha => good_foldl l _ (fun q hq => hl q (List.mem_cons_of_mem _ hq)) (good_pmul ha (hl p List.mem_cons_self))

theorem good_pprod [Semiring K] [DecidableEq K] {n : ℕ} (l : List (List (List ℕ × K))) (hl : ∀ p ∈ l, Good n p) : Good n (pprod n l) :=
  good_foldl l _ hl (good_pconst _ _)

theorem good_sqDiff [Ring K] [DecidableEq K] (n : ℕ) (m1 m2 : List ℕ) (h1 : m1.length = n) (h2 : m2.length = n) (h3 : m1.sum = m2.sum) :
    Good n (sqDiff (K := K) n m1 m2) := by
  apply good_ppow
  refine ⟨?_, m1.sum, ?_⟩
  · intro t ht
    simp only [List.mem_cons, List.not_mem_nil, or_false] at ht
    rcases ht with rfl | rfl <;> assumption
  · intro t ht
    simp only [List.mem_cons, List.not_mem_nil, or_false] at ht
    rcases ht with rfl | rfl
    · rfl
    · exact h3.symm

section ordered
variable [Field K] [LinearOrder K] [IsStrictOrderedRing K]

theorem eval_sq_nonneg (n : ℕ) (p : List (List ℕ × K)) (x : List K) (hx : x.length = n) (hp : Arity n p) : 0 ≤ evalDict (ppow n p 2) x := by
  subst hx
  rw [evalDict_ppow p x hp]; positivity

/-- `p` is well formed and nonnegative at `x`. -/
def GoodNN (n : ℕ) (x : List K) (p : List (List ℕ × K)) : Prop := Good n p ∧ 0 ≤ evalDict p x

theorem goodNN_sq {n : ℕ} {x : List K} (hx : x.length = n) {p : List (List ℕ × K)} (hp : Good n p) : GoodNN n x (ppow n p 2) :=
  ⟨good_ppow hp 2, eval_sq_nonneg n p x hx hp.1⟩

theorem goodNN_pmul {n : ℕ} {x : List K} (hx : x.length = n) {p q : List (List ℕ × K)} (hp : GoodNN n x p) (hq : GoodNN n x q) :
    GoodNN n x (pmul p q) := by
  subst hx
  exact ⟨good_pmul hp.1 hq.1, by rw [evalDict_pmul p q x hp.1.1 hq.1.1]; exact mul_nonneg hp.2 hq.2⟩

theorem goodNN_one {n : ℕ} (x : List K) : GoodNN n x (pconst n 1) := ⟨good_pconst _ _, by rw [evalDict_pconst]; exact zero_le_one⟩

theorem goodNN_pprod {n : ℕ} {x : List K} (hx : x.length = n) (l : List (List (List ℕ × K))) (hl : ∀ p ∈ l, GoodNN n x p) :
    GoodNN n x (pprod n l) := by
  have : ∀ (l : List (List (List ℕ × K))) (a : List (List ℕ × K)), (∀ p ∈ l, GoodNN n x p) → GoodNN n x a → GoodNN n x (l.foldl pmul a) := by
    intro l
    induction l with
    | nil => intro a _ ha; exact ha
    | cons p l ih => intro a hl ha; exact ih _ (fun q hq => hl q (List.mem_cons_of_mem _ hq)) (goodNN_pmul hx ha (hl p List.mem_cons_self))
  exact this l _ hl (goodNN_one x)

theorem goodNN_ppow {n : ℕ} {x : List K} (hx : x.length = n) {p : List (List ℕ × K)} (hp : GoodNN n x p) (k : ℕ) : GoodNN n x (ppow n p k) := by
  subst hx
  exact ⟨good_ppow hp.1 k, by rw [evalDict_ppow p x hp.1.1]; exact pow_nonneg hp.2 k⟩

theorem goodNN_sqDiff {n : ℕ} {x : List K} (hx : x.length = n) (m1 m2 : List ℕ) (h1 : m1.length = n) (h2 : m2.length = n) (h3 : m1.sum = m2.sum) :
    GoodNN n x (sqDiff n m1 m2) := by
  refine ⟨good_sqDiff n m1 m2 h1 h2 h3, eval_sq_nonneg n _ x hx ?_⟩
  intro t ht
  simp only [List.mem_cons, List.not_mem_nil, or_false] at ht
  rcases ht with rfl | rfl <;> assumption

/-! ### Tangents and the quadratic module -/

theorem goodNN_default {n : ℕ} {x : List K} (hx : x.length = n) : ∀ t ∈ defaultTangents (K := K) n, GoodNN n x t := by
  intro t ht
  unfold defaultTangents at ht
  split at ht
  · rename_i h3
    subst h3
    simp only [List.mem_cons, List.not_mem_nil, or_false] at ht
    rcases ht with rfl | rfl | rfl | rfl | rfl | rfl | rfl | rfl | rfl <;> exact goodNN_sqDiff hx _ _ rfl rfl rfl
  · split at ht
    · rename_i h4
      subst h4
      simp only [List.mem_cons, List.not_mem_nil, or_false] at ht
      rcases ht with rfl | rfl | rfl <;> exact goodNN_sqDiff hx _ _ rfl rfl rfl
    · simp at ht

theorem goodNN_tangents {n : ℕ} {x : List K} (hx : x.length = n) (user : List (List (List ℕ × K))) (keep : List (List ℕ × K) → Bool)
    (roots : List (List (List ℕ × K))) (nontrivial : Bool) (hu : ∀ t ∈ user, GoodNN n x t) (hr : ∀ t ∈ roots, Good n t) :
    ∀ t ∈ prepareTangents n user keep roots nontrivial, GoodNN n x t := by
  have hb : ∀ t ∈ user.filter keep ++ roots.map (fun t => ppow n t 2), GoodNN n x t := by
    intro t ht
    rcases List.mem_append.1 ht with ht | ht
    · exact hu t (List.mem_filter.1 ht).1
    · obtain ⟨r, hr2, rfl⟩ := List.mem_map.1 ht
      exact goodNN_sq hx (hr r hr2)
  intro t ht
  unfold prepareTangents at ht
  simp only at ht
  split at ht
  · exact hb t ht
  · rcases List.mem_append.1 ht with ht | ht
    · split at ht
      · exact hb t ht
      · rcases List.mem_append.1 ht with ht | ht
        · exact hb t ht
        · rw [List.mem_singleton] at ht
          rw [ht]; exact goodNN_one x
    · exact goodNN_default hx t ht

theorem good_tangents {n : ℕ} (user : List (List (List ℕ × K))) (keep : List (List ℕ × K) → Bool)
    (roots : List (List (List ℕ × K))) (nontrivial : Bool) (hu : ∀ t ∈ user, Good n t) (hr : ∀ t ∈ roots, Good n t) :
    ∀ t ∈ prepareTangents n user keep roots nontrivial, Good n t := by
  have hb : ∀ t ∈ user.filter keep ++ roots.map (fun t => ppow n t 2), Good n t := by
    intro t ht
    rcases List.mem_append.1 ht with ht | ht
    · exact hu t (List.mem_filter.1 ht).1
    · obtain ⟨r, hr2, rfl⟩ := List.mem_map.1 ht
      exact good_ppow (hr r hr2) 2
  intro t ht
  unfold prepareTangents at ht
  simp only at ht
  split at ht
  · exact hb t ht
  · rcases List.mem_append.1 ht with ht | ht
    · split at ht
      · exact hb t ht
      · rcases List.mem_append.1 ht with ht | ht
        · exact hb t ht
        · rw [List.mem_singleton] at ht
          rw [ht]; exact good_pconst n 1
    · exact (goodNN_default (x := List.replicate n (0 : K)) (by simp) t ht).1

theorem combos_subset {α : Type*} : ∀ (k : ℕ) (l : List α) (c : List α), c ∈ combos k l → ∀ a ∈ c, a ∈ l
  | 0, _, c, hc, a, ha => by
    have : c = [] := by simpa [combos] using hc
    rw [this] at ha; simp at ha
  | k + 1, [], c, hc, a, ha => by simp [combos] at hc
  | k + 1, b :: l, c, hc, a, ha => by
    rw [combos, List.mem_append] at hc
    rcases hc with hc | hc
    · obtain ⟨c', hc', rfl⟩ := List.mem_map.1 hc
      rcases List.mem_cons.1 ha with rfl | ha
      · exact List.mem_cons_self
      · exact List.mem_cons_of_mem _ (combos_subset k l c' hc' a ha)
    · exact List.mem_cons_of_mem _ (combos_subset (k + 1) l c hc a ha)

theorem qmodule_closed {n : ℕ} (P : List (List ℕ × K) → Prop) (h1 : P (pconst n 1)) (hmul : ∀ p q, P p → P q → P (pmul p q)) (degree : ℕ)
    (ineqs : List (List (List ℕ × K))) (allNN : Bool) (pre : String) (hi : ∀ p ∈ ineqs, P p) (q : List (List (List ℕ × K))) (hq : qmoduleList n degree ineqs allNN pre = .ok q) : ∀ p ∈ q, P p := by
  have hfold : ∀ (l : List (List (List ℕ × K))) (a : List (List ℕ × K)), P a → (∀ c ∈ l, P c) → P (l.foldl pmul a) := by
    intro l
    induction l with
    | nil => intro a ha _; exact ha
    | cons c l ih => intro a ha h; exact ih _ (hmul a c ha (h c List.mem_cons_self)) fun d hd => h d (List.mem_cons_of_mem _ hd)
  have hprod : ∀ l : List (List (List ℕ × K)), (∀ c ∈ l, P c) → P (pprod n l) := fun l h => hfold l _ h1 h
  unfold qmoduleList at hq
  split at hq
  · simp at hq
  · simp only at hq
    have hlin : ∀ p ∈ (if allNN then ineqs.filter (fun p => !isNonnegVar p && isLinear p)
        else ineqs.filter isNonnegVar ++ ineqs.filter fun p => !isNonnegVar p && isLinear p), P p := by
      intro p hp
      split at hp
      · exact hi p (List.mem_filter.1 hp).1
      · rcases List.mem_append.1 hp with hp | hp
        · exact hi p (List.mem_filter.1 hp).1
        · exact hi p (List.mem_filter.1 hp).1
    have hnon : ∀ p ∈ pconst n 1 :: ineqs.filter (fun p => !isNonnegVar p && !isLinear p), P p := by
      intro p hp
      rcases List.mem_cons.1 hp with rfl | hp
      · exact h1
      · exact hi p (List.mem_filter.1 hp).1
    split at hq
    · have e := Except.ok.inj hq
      subst e
      intro p hp
      rcases List.mem_append.1 hp with hp | hp
      · exact hlin p hp
      · exact hnon p hp
    · have e := Except.ok.inj hq
      subst e
      intro p hp
      rcases List.mem_append.1 hp with hp | hp
      · exact hnon p hp
      · obtain ⟨k, -, hp⟩ := List.mem_flatMap.1 hp
        obtain ⟨comb, hcomb, hp⟩ := List.mem_flatMap.1 hp
        split at hp
        · simp at hp
        · obtain ⟨r, hr, rfl⟩ := List.mem_map.1 hp
          exact hmul _ _ (hprod comb fun c hc => hlin c (combos_subset _ _ _ hcomb c hc)) (hnon r (List.mem_filter.1 hr).1)

theorem goodNN_qmodule {n : ℕ} {x : List K} (hx : x.length = n) (degree : ℕ) (ineqs : List (List (List ℕ × K))) (allNN : Bool) (pre : String)
    (hi : ∀ p ∈ ineqs, GoodNN n x p) (q : List (List (List ℕ × K))) (hq : qmoduleList n degree ineqs allNN pre = .ok q) : ∀ p ∈ q, GoodNN n x p :=
  qmodule_closed (GoodNN n x) (goodNN_one x) (fun _ _ hp hq => goodNN_pmul hx hp hq) degree ineqs allNN pre hi q hq

theorem good_qmodule {n : ℕ} (degree : ℕ) (ineqs : List (List (List ℕ × K))) (allNN : Bool) (pre : String)
    (hi : ∀ p ∈ ineqs, Good n p) (q : List (List (List ℕ × K))) (hq : qmoduleList n degree ineqs allNN pre = .ok q) : ∀ p ∈ q, Good n p :=
  qmodule_closed (Good n) (good_pconst n 1) (fun _ _ hp hq => good_pmul hp hq) degree ineqs allNN pre hi q hq

omit [IsStrictOrderedRing K] in
theorem mem_clearBySymmetry (M : MonoMgr) (ps : List (List (List ℕ × K))) (p : List (List ℕ × K)) (hp : p ∈ clearBySymmetry M ps) : p ∈ ps := by
  obtain ⟨t, ht, rfl⟩ := List.mem_map.1 hp
  have key : t ∈ ps.map fun p => (p, ()) := by
    unfold clearPolys at ht
    split at ht
    · exact ht
    · obtain ⟨e, he, rfl⟩ := List.mem_map.1 ht
      have h1 : e ∈ dictOf ((ps.map fun p => (p, ())).map fun t => (representation M t.1, t)) := by
        unfold ddel at he
        exact (List.mem_filter.1 he).1
      obtain ⟨u, hu, rfl⟩ := List.mem_map.1 (mem_dictOf _ _ h1)
      exact hu
  obtain ⟨q, hq, rfl⟩ := List.mem_map.1 key
  exact hq

/-! ### The bases -/

theorem varMonom_length (n i : ℕ) : (varMonom n i).length = n := by simp [varMonom]

theorem varMonom_sum (n i : ℕ) (hi : i < n) : (varMonom n i).sum = 1 := by
  unfold varMonom
  induction n with
  | zero => omega
  | succ n ih =>
    rw [List.range_succ, List.map_append, List.sum_append]
    by_cases h : i = n
    · subst h
      have : ((List.range i).map fun j => if j = i then 1 else 0).sum = 0 := by
        apply List.sum_eq_zero
        intro v hv
        obtain ⟨j, hj, rfl⟩ := List.mem_map.1 hv
        rw [List.mem_range] at hj
        rw [if_neg (by omega)]
      rw [this]; simp
    · rw [ih (by omega)]
      simp; omega

theorem goodNN_quadDiffs {n : ℕ} {x : List K} (hx : x.length = n) : ∀ q ∈ quadDiffs (K := K) n, GoodNN n x q := by
  intro q hq
  obtain ⟨i, hi, hq⟩ := List.mem_flatMap.1 hq
  obtain ⟨j, hj, rfl⟩ := List.mem_map.1 hq
  have hj := (List.mem_filter.1 hj).1
  rw [List.mem_range] at hi hj
  exact goodNN_sqDiff hx _ _ (varMonom_length _ _) (varMonom_length _ _) (by rw [varMonom_sum n i hi, varMonom_sum n j hj])

theorem goodNN_powers {n : ℕ} {x : List K} (hx : x.length = n) (qs : List (List (List ℕ × K))) (hq : ∀ q ∈ qs, GoodNN n x q) (power : List ℕ) :
    GoodNN n x (pprod n (List.zipWith (fun q p => ppow n q p) qs power)) := by
  apply goodNN_pprod hx
  intro p hp
  obtain ⟨i, hi, rfl⟩ := List.mem_iff_getElem.1 hp
  rw [List.getElem_zipWith]
  exact goodNN_ppow hx (hq _ (List.getElem_mem _)) _

theorem run_mono (ds : List ℕ) (degree : ℤ) (req : Bool) : ∀ (fuel : ℕ) (s : St) (r : List (List ℕ)), run ds degree req fuel s = some r →
    ∀ k, run ds degree req (fuel + k) s = some r
  | 0, s, r, h, k => by simp [run] at h
  | fuel + 1, s, r, h, k => by
    have e : fuel + 1 + k = (fuel + k) + 1 := by omega
    rw [e]
    rw [run] at h ⊢
    cases hs : step ds degree req s with
    | inl p => rw [hs] at h; exact h
    | inr s' => rw [hs] at h; exact run_mono ds degree req fuel s' r h k

theorem generate_mono (stp n : ℕ) (td d : ℤ) (req : Bool) (fuel k : ℕ) (r : List (List ℕ)) (h : generate stp n td d req fuel = some r) :
    generate stp n td d req (fuel + k) = some r := by
  unfold generate at h ⊢
  simp only at h ⊢
  split at h
  · rename_i hc; rw [if_pos hc]; exact h
  · rename_i hc
    rw [if_neg hc]
    unfold degreeCombinations at h ⊢
    split at h
    · rename_i hc2; rw [if_pos hc2]; exact h
    · rename_i hc2
      rw [if_neg hc2]
      cases hr : run (List.replicate n stp) (d - td) req fuel ⟨[], 0, 0, List.replicate (List.replicate n stp).length 0⟩ with
      | none => rw [hr] at h; simp at h
      | some p => rw [hr] at h; rw [run_mono _ _ _ _ _ _ hr k]; exact h

/-- The generated exponents, whatever the fuel. -/
theorem generate_mem (stp n : ℕ) (hstp : 0 < stp) (hn : 2 ≤ n) (td d : ℤ) (fuel : ℕ) (r : List (List ℕ)) (h : generate stp n td d true fuel = some r)
    (v : List ℕ) (hv : v ∈ r) : v.length = n ∧ (∀ e ∈ v, stp ∣ e) ∧ (v.sum : ℤ) + td = d := by
  obtain ⟨out, ⟨k, hk⟩, -, hmem⟩ := generate_spec stp n hstp hn td d
  have h1 := generate_mono stp n td d true fuel k r h
  rw [hk (fuel + k) (by omega)] at h1
  have e := Option.some.inj h1
  rw [e] at hmem
  exact (hmem v).1 hv

theorem mapM_mem {α β : Type*} (f : α → Option β) : ∀ (l : List α) (r : List β), l.mapM f = some r → ∀ b ∈ r, ∃ a ∈ l, f a = some b
  | [], r, h, b, hb => by
    have : r = [] := by simpa using h.symm
    rw [this] at hb; simp at hb
  | a :: l, r, h, b, hb => by
    rw [List.mapM_cons] at h
    cases hfa : f a with
    | none => rw [hfa] at h; simp at h
    | some c =>
      rw [hfa] at h
      cases hl : l.mapM f with
      | none => rw [hl] at h; simp at h
      | some r' =>
        rw [hl] at h
        have e : c :: r' = r := by simpa using h
        rw [← e] at hb
        rcases List.mem_cons.1 hb with rfl | hb
        · exact ⟨a, List.mem_cons_self, hfa⟩
        · obtain ⟨a', ha', h2⟩ := mapM_mem f l r' hl b hb
          exact ⟨a', List.mem_cons_of_mem _ ha', h2⟩

/-- A generated basis element is a monomial with exponents divisible by the step, times the tangent times a product of squared differences,
of the right degree. -/
theorem generateQuadDiff_mem {n : ℕ} (stp degree order : ℕ) (hstp : 0 < stp) (t : List (List ℕ × K)) (ht : Good n t) (fuel : ℕ)
    (bs : List (Base K)) (h : generateQuadDiff n stp degree order t fuel = some bs) (b : Base K) (hb : b ∈ bs) :
    ∃ ps power, b = .tangent ps (pmul (pprod n (List.zipWith (fun q p => ppow n q p) (quadDiffs n) power)) t) ∧ ps.length = n ∧ (∀ e ∈ ps, stp ∣ e) ∧
      ps.sum + totalDegree n (pmul (pprod n (List.zipWith (fun q p => ppow n q p) (quadDiffs n) power)) t) = degree := by
  unfold generateQuadDiff crossTangents at h
  simp only at h
  by_cases hn : 2 ≤ n
  · cases hd : degreeCombinations (List.replicate (n * (n - 1) / 2) 2) (max 0 (min (order : ℤ) ((degree : ℤ) - totalDegree n t))) false fuel with
    | none => rw [hd] at h; simp at h
    | some powers =>
      rw [hd] at h
      simp only [Option.map_some, Option.bind_some] at h
      cases hm : (powers.map fun power => pmul (pprod n (List.zipWith (fun q p => ppow n q p) (quadDiffs n) power)) t).mapM
          (fun t2 => (generate stp n (totalDegree n t2) degree true fuel).map fun l => l.map fun ps => Base.tangent ps t2) with
      | none => rw [hm] at h; simp at h
      | some ls =>
        rw [hm] at h
        have e : ls.flatten = bs := by simpa using h
        rw [← e] at hb
        obtain ⟨l, hl, hb⟩ := List.mem_flatten.1 hb
        obtain ⟨t2, ht2, h2⟩ := mapM_mem _ _ _ hm l hl
        obtain ⟨power, -, rfl⟩ := List.mem_map.1 ht2
        cases hg : generate stp n (totalDegree n (pmul (pprod n (List.zipWith (fun q p => ppow n q p) (quadDiffs n) power)) t)) degree true fuel with
        | none => rw [hg] at h2; simp at h2
        | some r =>
          rw [hg] at h2
          have e2 := Option.some.inj h2
          rw [← e2] at hb
          obtain ⟨ps, hps, rfl⟩ := List.mem_map.1 hb
          obtain ⟨h3, h4, h5⟩ := generate_mem stp n hstp hn _ _ fuel r hg ps hps
          exact ⟨ps, power, rfl, h3, h4, by exact_mod_cast h5⟩
  · have : n * (n - 1) / 2 = 0 := by
      rcases n with _ | _ | n
      · rfl
      · rfl
      · omega
    rw [this] at h
    simp [degreeCombinations] at h
    rw [h] at hb
    simp at hb

/-! ### Signs of the variables -/

omit [Field K] [IsStrictOrderedRing K] in
theorem signs_spec [Zero K] (n : ℕ) (ineqs : List (List (List ℕ × K))) (i : ℕ) (s : ℤ) (h : (signsOfVars n ineqs)[i]? = some s) (hs : 0 < s) :
    ∃ p ∈ ineqs, ∃ c, asVariable p = some (i, c) ∧ 0 < c := by
  unfold signsOfVars at h
  induction ineqs using List.reverseRecOn with
  | nil =>
    simp only [List.foldl_nil, List.getElem?_replicate] at h
    split at h
    · have := Option.some.inj h; omega
    · simp at h
  | append_singleton l p ih =>
    rw [List.foldl_append, List.foldl_cons, List.foldl_nil] at h
    cases hv : asVariable p with
    | none =>
      rw [hv] at h
      obtain ⟨q, hq, r⟩ := ih h
      exact ⟨q, List.mem_append_left _ hq, r⟩
    | some jc =>
      obtain ⟨j, c⟩ := jc
      rw [hv] at h
      simp only at h
      by_cases hji : j = i
      · subst hji
        rw [List.getElem?_set] at h
        simp only [if_true] at h
        split at h
        · have e := Option.some.inj h
          refine ⟨p, by simp, c, hv, ?_⟩
          unfold sgn at e
          split at e
          · assumption
          · split at e <;> omega
        · simp at h
      · rw [List.getElem?_set_ne hji] at h
        obtain ⟨q, hq, r⟩ := ih h
        exact ⟨q, List.mem_append_left _ hq, r⟩

theorem unit_sum : ∀ (m : List ℕ), m.sum = 1 → ∀ (x : List K), x.length = m.length → evalMonom m x = x.getD (m.idxOf 1) 0
  | [], h, _, _ => by simp at h
  | a :: m, h, x, hx => by
    cases x with
    | nil => simp at hx
    | cons b x =>
      have hx' : x.length = m.length := by simpa using hx
      rw [List.sum_cons] at h
      by_cases ha : a = 1
      · subst ha
        have h0 : m = List.replicate m.length 0 := by
          apply List.eq_replicate_of_mem
          intro c hc
          have := List.le_sum_of_mem hc
          omega
        have h1 : evalMonom m x = 1 := by rw [h0]; exact evalMonom_zero _ _
        unfold evalMonom at h1 ⊢
        rw [List.zipWith_cons_cons, List.prod_cons, h1]
        simp
      · have ha0 : a = 0 := by omega
        subst ha0
        have ih := unit_sum m (by omega) x hx'
        unfold evalMonom at ih ⊢
        rw [List.zipWith_cons_cons, List.prod_cons, ih, List.idxOf_cons_ne _ (by omega)]
        simp

theorem nonneg_of_asVariable (p : List (List ℕ × K)) (x : List K) (hp : Arity x.length p) (i : ℕ) (c : K) (h : asVariable p = some (i, c)) (hc : 0 < c)
    (hn : 0 ≤ evalDict p x) : 0 ≤ x.getD i 0 := by
  unfold asVariable at h
  split at h
  · rename_i m c'
    split at h
    · rename_i hm
      have e := Option.some.inj h
      simp only [Prod.mk.injEq] at e
      obtain ⟨rfl, rfl⟩ := e
      rw [evalDict_cons, evalDict_nil, add_zero, unit_sum m hm x (by rw [hp (m, c') List.mem_cons_self])] at hn
      exact (mul_nonneg_iff_of_pos_left hc).1 hn
    · simp at h
  · simp at h

/-- If the solver believes that all variables are nonnegative, they are, at every feasible point. -/
theorem allNonneg_sound (n : ℕ) (ineqs : List (List (List ℕ × K))) (h : allNonneg n ineqs = true) (x : List K) (hx : x.length = n)
    (hi : ∀ p ∈ ineqs, GoodNN n x p) : ∀ v ∈ x, 0 ≤ v := by
  intro v hv
  obtain ⟨i, hil, rfl⟩ := List.mem_iff_getElem.1 hv
  have hlen : (signsOfVars n ineqs).length = n := by
    unfold signsOfVars
    clear hi h
    induction ineqs using List.reverseRecOn with
    | nil => simp
    | append_singleton l p ih =>
      rw [List.foldl_append, List.foldl_cons, List.foldl_nil]
      split
      · rw [List.length_set, ih]
      · exact ih
  have hs : (signsOfVars n ineqs)[i]? = some ((signsOfVars n ineqs)[i]'(by omega)) := List.getElem?_eq_getElem _
  have hpos : 0 < (signsOfVars n ineqs)[i]'(by omega) := by
    unfold allNonneg at h
    rw [List.all_eq_true] at h
    simpa using h _ (List.getElem_mem _)
  obtain ⟨p, hp, c, hc1, hc2⟩ := signs_spec n ineqs i _ hs hpos
  obtain ⟨hg, hnn⟩ := hi p hp
  have := nonneg_of_asVariable p x (by rw [hx]; exact hg.1) i c hc1 hc2 hnn
  rwa [List.getD_eq_getElem?_getD, List.getElem?_eq_getElem hil, Option.getD_some] at this

theorem evalMonom_nonneg : ∀ (ps : List ℕ) (x : List K), (∀ v ∈ x, 0 ≤ v) → 0 ≤ evalMonom ps x
  | [], _, _ => by simp [evalMonom]
  | _ :: _, [], _ => by simp [evalMonom]
  | p :: ps, v :: x, h => by
    have ih := evalMonom_nonneg ps x fun w hw => h w (List.mem_cons_of_mem _ hw)
    unfold evalMonom at ih ⊢
    rw [List.zipWith_cons_cons, List.prod_cons]
    exact mul_nonneg (pow_nonneg (h v List.mem_cons_self) _) ih

theorem evalMonom_even : ∀ (ps : List ℕ) (x : List K), (∀ e ∈ ps, 2 ∣ e) → 0 ≤ evalMonom ps x
  | [], _, _ => by simp [evalMonom]
  | _ :: _, [], _ => by simp [evalMonom]
  | p :: ps, v :: x, h => by
    have ih := evalMonom_even ps x fun w hw => h w (List.mem_cons_of_mem _ hw)
    unfold evalMonom at ih ⊢
    rw [List.zipWith_cons_cons, List.prod_cons]
    exact mul_nonneg (Even.pow_nonneg (even_iff_two_dvd.2 (h p List.mem_cons_self)) _) ih

/-! ### The whole basis -/

/-- A point satisfying the constraints. -/
def Feasible (n : ℕ) (ineqs eqs : List (List (List ℕ × K))) (x : List K) : Prop :=
  x.length = n ∧ (∀ p ∈ ineqs, 0 ≤ evalDict p x) ∧ ∀ h ∈ eqs, evalDict h x = 0

/-- What the solver needs of a basis element: well formed, of the right degree, nonnegative at `x`. -/
structure BaseOK (n degree : ℕ) (f : List (List ℕ × K)) (F : List K → Prop) (b : Base K) : Prop where
  wf : b.WellFormed n
  arity : Arity n (b.asPoly f)
  hom : HomDeg degree (b.asPoly f)
  nonneg : ∀ x, F x → match b with
    | .tangent ps t => 0 ≤ evalMonom ps x * evalDict t x
    | .mult m => 0 ≤ evalDict m x

omit [LinearOrder K] [IsStrictOrderedRing K] in
theorem pmul_nil_right [DecidableEq K] (p : List (List ℕ × K)) : pmul p [] = [] := by
  have : rawMul p ([] : List (List ℕ × K)) = [] := by simp [rawMul]
  simp [pmul, this, collect]

omit [LinearOrder K] [IsStrictOrderedRing K] in
theorem pmul_nil_left [DecidableEq K] (p : List (List ℕ × K)) : pmul [] p = [] := by simp [pmul, rawMul, collect]

omit [LinearOrder K] [IsStrictOrderedRing K] in
theorem homDeg_tangent [DecidableEq K] {n degree : ℕ} (ps : List ℕ) (t : List (List ℕ × K)) (hps : ps.length = n) (ht : Good n t)
    (h : ps.sum + totalDegree n t = degree) : Arity n (pmul [(ps, 1)] t) ∧ HomDeg degree (pmul [(ps, 1)] t) := by
  have h1 : Arity n [(ps, (1 : K))] := by intro u hu; rw [List.mem_singleton] at hu; rw [hu]; exact hps
  refine ⟨arity_pmul h1 ht.1, ?_⟩
  by_cases hne : t = []
  · rw [hne, pmul_nil_right]; intro u hu; simp at hu
  · obtain ⟨d, hd⟩ := ht.2
    rw [totalDegree_of_homDeg hd hne] at h
    rw [← h]
    exact homDeg_pmul h1 ht.1 (by intro u hu; rw [List.mem_singleton] at hu; rw [hu]) hd

theorem tangents_ok {n : ℕ} (f : List (List ℕ × K)) (allNN : Bool) (degree order : ℕ) (F : List K → Prop) (hF : ∀ x, F x → x.length = n)
    (hvar : allNN = true → ∀ x, F x → ∀ v ∈ x, 0 ≤ v) (t : List (List ℕ × K)) (hg : Good n t) (ht : ∀ x, F x → 0 ≤ evalDict t x) (fuel : ℕ)
    (bs : List (Base K)) (h : generateQuadDiff n (if allNN then 1 else 2) degree order t fuel = some bs) (b : Base K) (hb : b ∈ bs) :
    BaseOK n degree f F b ∧ b.isMult = false := by
  obtain ⟨ps, power, rfl, h1, h2, h3⟩ := generateQuadDiff_mem _ degree order (by split <;> omega) t hg fuel bs h b hb
  have hq : ∀ x : List K, x.length = n → GoodNN n x (pprod n (List.zipWith (fun q p => ppow n q p) (quadDiffs n) power)) :=
    fun x hx => goodNN_powers hx _ (goodNN_quadDiffs hx) power
  have hgq : Good n (pmul (pprod n (List.zipWith (fun q p => ppow n q p) (quadDiffs n) power)) t) :=
    good_pmul (hq (List.replicate n (0 : K)) (by simp)).1 hg
  obtain ⟨h4, h5⟩ := homDeg_tangent ps _ h1 hgq h3
  refine ⟨⟨⟨h1, hgq.1⟩, h4, h5, ?_⟩, rfl⟩
  intro x hx
  simp only
  refine mul_nonneg ?_ (goodNN_pmul (hF x hx) (hq x (hF x hx)) ⟨hg, ht x hx⟩).2
  cases allNN with
  | true => exact evalMonom_nonneg _ _ (hvar rfl x hx)
  | false => exact evalMonom_even _ _ (by simpa using h2)

theorem eqs_ok {n : ℕ} (f : List (List ℕ × K)) (degree : ℕ) (F : List K → Prop) (hF : ∀ x, F x → x.length = n)
    (t : List (List ℕ × K)) (hg : Good n t) (ht : ∀ x, F x → evalDict t x = 0) (fuel : ℕ)
    (bs : List (Base K)) (h : generateQuadDiff n 1 degree 0 t fuel = some bs) (b : Base K) (hb : b ∈ bs ++ bs.map Base.neg) :
    BaseOK n degree f F b ∧ b.isMult = false := by
  have key : ∀ c ∈ bs, ∃ ps q, c = .tangent ps q ∧ ps.length = n ∧ Good n q ∧ ps.sum + totalDegree n q = degree ∧ ∀ x, F x → evalDict q x = 0 := by
    intro c hc
    obtain ⟨ps, power, rfl, h1, -, h3⟩ := generateQuadDiff_mem 1 degree 0 (by omega) t hg fuel bs h c hc
    have hq : ∀ x : List K, x.length = n → GoodNN n x (pprod n (List.zipWith (fun q p => ppow n q p) (quadDiffs n) power)) :=
      fun x hx => goodNN_powers hx _ (goodNN_quadDiffs hx) power
    have hgp := (hq (List.replicate n (0 : K)) (by simp)).1
    refine ⟨ps, _, rfl, h1, good_pmul hgp hg, h3, ?_⟩
    intro x hx
    have hl := hF x hx
    rw [evalDict_pmul _ _ x (by rw [hl]; exact hgp.1) (by rw [hl]; exact hg.1), ht x hx, mul_zero]
  rcases List.mem_append.1 hb with hb | hb
  · obtain ⟨ps, q, rfl, h1, h2, h3, h4⟩ := key b hb
    obtain ⟨h5, h6⟩ := homDeg_tangent ps q h1 h2 h3
    exact ⟨⟨⟨h1, h2.1⟩, h5, h6, fun x hx => by simp [h4 x hx]⟩, rfl⟩
  · obtain ⟨c, hc, rfl⟩ := List.mem_map.1 hb
    obtain ⟨ps, q, rfl, h1, h2, h3, h4⟩ := key c hc
    have hgn : Good n (pneg q) := ⟨arity_pneg h2.1, h2.2.imp fun d hd => homDeg_pneg hd⟩
    have htd : totalDegree n (pneg q) = totalDegree n q := by
      unfold totalDegree repTerms pneg
      cases q with
      | nil => rfl
      | cons a l => simp [List.map_map, Function.comp_def]
    have h3' : ps.sum + totalDegree n (pneg q) = degree := by rw [htd]; exact h3
    obtain ⟨h5, h6⟩ := homDeg_tangent ps (pneg q) h1 hgn h3'
    refine ⟨⟨⟨h1, hgn.1⟩, h5, h6, fun x hx => ?_⟩, rfl⟩
    change 0 ≤ evalMonom ps x * evalDict (pneg q) x
    rw [evalDict_pneg, h4 x hx]; simp

theorem prepareBasis_ok {n : ℕ} (f : List (List ℕ × K)) (allNN : Bool) (degree order limit : ℕ) (F : List K → Prop) (hF : ∀ x, F x → x.length = n)
    (hvar : allNN = true → ∀ x, F x → ∀ v ∈ x, 0 ≤ v) (tangents eqs : List (List (List ℕ × K)))
    (ht : ∀ t ∈ tangents, Good n t ∧ ∀ x, F x → 0 ≤ evalDict t x) (he : ∀ t ∈ eqs, Good n t ∧ ∀ x, F x → evalDict t x = 0) (fuel : ℕ)
    (bs : List (Base K)) (h : prepareBasis n allNN degree tangents eqs order limit fuel = some (some bs)) :
    ∀ b ∈ bs, BaseOK n degree f F b ∧ b.isMult = false := by
  unfold prepareBasis at h
  cases h1 : tangents.mapM (fun t => generateQuadDiff n (if allNN then 1 else 2) degree order t fuel) with
  | none => rw [h1] at h; simp at h
  | some l1 =>
    rw [h1] at h
    simp only [Option.bind_some] at h
    cases h2 : eqs.mapM (fun h => (generateQuadDiff n 1 degree 0 h fuel).map fun l => l ++ l.map Base.neg) with
    | none => rw [h2] at h; simp at h
    | some l2 =>
      rw [h2] at h
      simp only [Option.map_some] at h
      have e := Option.some.inj h
      split at e
      · simp at e
      · have e := Option.some.inj e
        intro b hb
        rw [← e] at hb
        rcases List.mem_append.1 hb with hb | hb
        · obtain ⟨l, hl, hb⟩ := List.mem_flatten.1 hb
          obtain ⟨t, htm, h3⟩ := mapM_mem _ _ _ h1 l hl
          exact tangents_ok f allNN degree order F hF hvar t (ht t htm).1 (ht t htm).2 fuel l h3 b hb
        · obtain ⟨l, hl, hb⟩ := List.mem_flatten.1 hb
          obtain ⟨t, htm, h3⟩ := mapM_mem _ _ _ h2 l hl
          cases hg : generateQuadDiff n 1 degree 0 t fuel with
          | none => rw [hg] at h3; simp at h3
          | some r =>
            rw [hg] at h3
            have e3 := Option.some.inj h3
            rw [← e3] at hb
            exact eqs_ok f degree F hF t (he t htm).1 (he t htm).2 fuel r hg b hb

/-! ### Multipliers -/

omit [LinearOrder K] [IsStrictOrderedRing K] in
theorem mem_crossMul [DecidableEq K] : ∀ (l : List (List (List ℕ × K))) (m : List (List ℕ × K)), m ∈ crossMul l → ∃ p ∈ l, ∃ q ∈ l, m = pmul p q
  | [], m, h => by simp [crossMul] at h
  | p :: l, m, h => by
    rw [crossMul, List.mem_append] at h
    rcases h with h | h
    · obtain ⟨q, hq, rfl⟩ := List.mem_map.1 h
      exact ⟨p, List.mem_cons_self, q, List.mem_cons_of_mem _ hq, rfl⟩
    · obtain ⟨a, ha, b, hb, e⟩ := mem_crossMul l m h
      exact ⟨a, List.mem_cons_of_mem _ ha, b, List.mem_cons_of_mem _ hb, e⟩

omit [LinearOrder K] [IsStrictOrderedRing K] in
theorem homDeg_powers [DecidableEq K] {n : ℕ} : ∀ (qs : List (List (List ℕ × K))) (power : List ℕ) (a : List (List ℕ × K)) (d : ℕ),
    (∀ q ∈ qs, Arity n q ∧ HomDeg 1 q) → power.length = qs.length → Arity n a → HomDeg d a →
    Arity n ((List.zipWith (fun q p => ppow n q p) qs power).foldl pmul a) ∧
      HomDeg (d + power.sum) ((List.zipWith (fun q p => ppow n q p) qs power).foldl pmul a)
  | [], [], a, d, _, _, ha, hd => ⟨ha, hd⟩
  | q :: qs, p :: power, a, d, hq, hl, ha, hd => by
    obtain ⟨h1, h2⟩ := hq q List.mem_cons_self
    have h3 := homDeg_ppow h1 h2 p
    have := homDeg_powers qs power (pmul a (ppow n q p)) (d + p * 1) (fun r hr => hq r (List.mem_cons_of_mem _ hr)) (by simpa using hl)
      (arity_pmul ha (arity_ppow h1 p)) (homDeg_pmul ha (arity_ppow h1 p) hd h3)
    rw [List.zipWith_cons_cons, List.foldl_cons, List.sum_cons]
    refine ⟨this.1, ?_⟩
    have e : d + (p + power.sum) = d + p * 1 + power.sum := by ring
    rw [e]; exact this.2
  | [], _ :: _, _, _, _, hl, _, _ => by simp at hl
  | _ :: _, [], _, _, _, hl, _, _ => by simp at hl

theorem multipliers_ok {n : ℕ} (f : List (List ℕ × K)) (hf : Good n f) (ineqs : List (List (List ℕ × K))) (nplus : ℕ) (F : List K → Prop)
    (hF : ∀ x, F x → x.length = n)
    (hi : ∀ p ∈ ineqs, Good n p ∧ (isLinear p = true → HomDeg 1 p) ∧ ∀ x, F x → 0 ≤ evalDict p x) (m : List (List ℕ × K)) (hm : m ∈ rawMultipliers n ineqs nplus) :
    BaseOK n (totalDegree n f + nplus) f F (.mult m) := by
  have key : Arity n m ∧ HomDeg nplus m ∧ ∀ x, F x → 0 ≤ evalDict m x := by
    unfold rawMultipliers at hm
    simp only at hm
    have hlin : ∀ p ∈ ineqs.filter isLinear, Arity n p ∧ HomDeg 1 p ∧ ∀ x, F x → 0 ≤ evalDict p x := by
      intro p hp
      obtain ⟨h1, h2⟩ := List.mem_filter.1 hp
      obtain ⟨h3, h4, h5⟩ := hi p h1
      exact ⟨h3.1, h4 h2, h5⟩
    rcases List.mem_append.1 hm with hm1 | hm1
    · clear hm
      have hm := hm1
      clear hm1
      by_cases h2 : nplus = 2
      · rw [if_pos h2] at hm
        subst h2
        rcases List.mem_append.1 hm with hm | hm
        · have h0 := goodNN_quadDiffs (x := List.replicate n (0 : K)) (by simp) m hm
          refine ⟨h0.1.1, ?_, fun x hx => (goodNN_quadDiffs (hF x hx) m hm).2⟩
          obtain ⟨i, hi, hm⟩ := List.mem_flatMap.1 hm
          obtain ⟨j, hj, rfl⟩ := List.mem_map.1 hm
          have hj := (List.mem_filter.1 hj).1
          rw [List.mem_range] at hi hj
          apply homDeg_ppow (d := 1)
          · intro t ht
            simp only [List.mem_cons, List.not_mem_nil, or_false] at ht
            rcases ht with rfl | rfl <;> exact varMonom_length _ _
          · intro t ht
            simp only [List.mem_cons, List.not_mem_nil, or_false] at ht
            rcases ht with rfl | rfl
            · exact varMonom_sum n i hi
            · exact varMonom_sum n j hj
        · obtain ⟨p, hp, q, hq, rfl⟩ := mem_crossMul _ _ hm
          obtain ⟨a1, a2, a3⟩ := hlin p hp
          obtain ⟨b1, b2, b3⟩ := hlin q hq
          refine ⟨arity_pmul a1 b1, homDeg_pmul a1 b1 a2 b2, fun x hx => ?_⟩
          have hl := hF x hx
          rw [evalDict_pmul p q x (by rw [hl]; exact a1) (by rw [hl]; exact b1)]
          exact mul_nonneg (a3 x hx) (b3 x hx)
      · rw [if_neg h2] at hm
        obtain ⟨power, hp, rfl⟩ := List.mem_map.1 hm
        have hp2 := (generatePartitions_mem _ _ _).2.1 hp
        have := homDeg_powers (ineqs.filter isLinear) power (pconst n 1) 0 (fun q hq => ⟨(hlin q hq).1, (hlin q hq).2.1⟩) hp2.1
          (arity_pconst _ _) (homDeg_pconst _ _)
        rw [hp2.2, Nat.zero_add] at this
        refine ⟨this.1, this.2, fun x hx => ?_⟩
        exact (goodNN_powers (hF x hx) _ (fun q hq => ⟨⟨(hlin q hq).1, 1, (hlin q hq).2.1⟩, (hlin q hq).2.2 x hx⟩) power).2
    · clear hm
      have hm := hm1
      clear hm1
      split at hm
      · rename_i hc
        obtain ⟨power, hp, rfl⟩ := List.mem_map.1 hm
        have hp2 := (generatePartitions_mem _ _ _).2.1 hp
        refine ⟨?_, ?_, fun x hx => ?_⟩
        · intro t ht
          rw [List.mem_singleton] at ht
          rw [ht]; simpa using hp2.1
        · intro t ht
          rw [List.mem_singleton] at ht
          rw [ht]
          simp only [List.sum_map_mul_right, List.map_id']
          rw [hp2.2]; omega
        · rw [evalDict_cons, evalDict_nil, add_zero, one_mul]
          apply evalMonom_even
          intro e he
          obtain ⟨k, _, rfl⟩ := List.mem_map.1 he
          exact ⟨k, by ring⟩
      · simp at hm
  obtain ⟨k1, k2, k3⟩ := key
  refine ⟨k1, arity_pmul hf.1 (arity_pneg k1), ?_, k3⟩
  change HomDeg _ (pmul f (pneg m))
  by_cases hne : f = []
  · rw [hne, pmul_nil_left]; intro t ht; simp at ht
  · obtain ⟨d, hd⟩ := hf.2
    rw [totalDegree_of_homDeg hd hne]
    exact homDeg_pmul hf.1 (arity_pneg k1) hd (homDeg_pneg k2)

/-! ### The solver -/

/-- What the caller has to provide, in terms of the problem: homogeneous data in the right number of variables, linear constraints of degree
exactly one (`sanitize_input` drops the constants), a polynomial and a feasible set invariant under the group, user tangents that are
nonnegative at feasible points, a linear program that respects its bounds up to the tolerance, and a solver that only returns solutions. -/
structure Hyps [Inhabited K] (cfg : Config K) (M : MonoMgr) (f : List (List ℕ × K)) (ineqs eqs : List (List (List ℕ × K))) : Prop where
  valid : M.Valid
  hom : M.hom = true
  poly : Good M.nvars f
  invariant : ∀ g ∈ M.elements, ∀ x : List K, x.length = M.nvars → evalDict f (papply g x) = evalDict f x
  ineq : ∀ p ∈ ineqs, Good M.nvars p ∧ (isLinear p = true → HomDeg 1 p)
  eq : ∀ p ∈ eqs, Good M.nvars p
  closed : ∀ g ∈ M.elements, ∀ x, Feasible M.nvars ineqs eqs x → Feasible M.nvars ineqs eqs (papply g x)
  user : ∀ t ∈ cfg.user, Good M.nvars t ∧ ∀ x, Feasible M.nvars ineqs eqs x → 0 ≤ evalDict t x
  roots : ∀ t ∈ cfg.roots, Good M.nvars t
  linprog : ∀ bs y, cfg.linprog bs = some y → ∀ mx, maxAbs y = some mx → ∀ v ∈ y, 0 ≤ v ∨ |v| < mx * (1 / 1000000)
  solve : ∀ rows reg width z, cfg.solve rows reg width = some z → z.length = rows.length ∧ product width rows reg z = target width

theorem attempt_sound [Inhabited K] (cfg : Config K) (M : MonoMgr) (f : List (List ℕ × K)) (ineqs eqs tangents eqs' : List (List (List ℕ × K)))
    (H : Hyps cfg M f ineqs eqs) (ht : ∀ t ∈ tangents, Good M.nvars t ∧ ∀ x, Feasible M.nvars ineqs eqs x → 0 ≤ evalDict t x)
    (he : ∀ t ∈ eqs', t ∈ eqs) (fuel k : ℕ) (z : List K) (out : List (Base K)) (h : attempt cfg M f ineqs tangents eqs' fuel k = .ok (some (z, out, true))) :
    Certificate M f z out ∧ multWeight z out = 1 ∧ (∀ v ∈ z, 0 < v) ∧
      ∀ b ∈ out, BaseOK M.nvars (totalDegree M.nvars f + k) f (Feasible M.nvars ineqs eqs) b := by
  unfold attempt at h
  simp only at h
  split at h
  · simp at h
  · rename_i hne
    split at h
    · simp at h
    · simp at h
    · rename_i bs hbs
      split at h
      · simp at h
      · split at h
        · simp at h
        · rename_i hrow
          split at h
          · simp at h
          · rename_i y hy
            split at h
            · simp at h
            · rename_i hlen
              push Not at hlen
              split at h
              · simp at h
              · rename_i z' out' eq' hcor
                split at h
                · have e := Option.some.inj (Except.ok.inj h)
                  simp only [Prod.mk.injEq] at e
                  obtain ⟨rfl, rfl, rfl⟩ := e
                  push Not at hrow
                  have hF : ∀ x, Feasible M.nvars ineqs eqs x → x.length = M.nvars := fun x hx => hx.1
                  have hB := prepareBasis_ok f (allNonneg M.nvars ineqs) _ _ _ _ hF
                    (fun ha x hx => allNonneg_sound _ ineqs ha x hx.1 fun p hp => ⟨(H.ineq p hp).1, hx.2.1 p hp⟩) tangents eqs' ht
                    (fun t htm => ⟨H.eq t (he t htm), fun x hx => hx.2.2 t (he t htm)⟩) fuel bs hbs
                  have hM2 : ∀ b ∈ (clearBySymmetry M (rawMultipliers M.nvars ineqs k)).map Base.mult,
                      BaseOK M.nvars (totalDegree M.nvars f + k) f (Feasible M.nvars ineqs eqs) b ∧ b.isMult = true := by
                    intro b hb
                    obtain ⟨m, hm, rfl⟩ := List.mem_map.1 hb
                    exact ⟨multipliers_ok f H.poly ineqs k _ hF (fun p hp => ⟨(H.ineq p hp).1, (H.ineq p hp).2, fun x hx => hx.2.1 p hp⟩) m
                      (mem_clearBySymmetry M _ m hm), rfl⟩
                  have hall : ∀ b ∈ bs ++ (clearBySymmetry M (rawMultipliers M.nvars ineqs k)).map Base.mult,
                      BaseOK M.nvars (totalDegree M.nvars f + k) f (Feasible M.nvars ineqs eqs) b := by
                    intro b hb
                    rcases List.mem_append.1 hb with hb | hb
                    · exact (hB b hb).1
                    · exact (hM2 b hb).1
                  have htail := tailed_append bs _ (fun b hb => (hB b hb).2) (fun b hb => (hM2 b hb).2)
                  obtain ⟨c1, c2, -⟩ := linearCorrection_identity M H.valid H.hom f cfg.solve _ y _ _ _ _
                    (fun b hb => ⟨(hall b hb).arity, (hall b hb).hom⟩) hrow _ _ hcor
                  refine ⟨c1, ?_, ?_, fun b hb => hall b (c2 b hb)⟩
                  · refine linearCorrection_weight M f cfg.solve _ y _ _ _ H.solve hrow htail ?_ hlen _ _ hcor
                    intro h0
                    exact hne (List.length_eq_zero_iff.1 h0)
                  · exact linearCorrection_pos M f cfg.solve _ y (H.linprog _ _ hy) _ _ _ _ hcor
                · simp at h

theorem lift_sound [Inhabited K] (cfg : Config K) (M : MonoMgr) (f : List (List ℕ × K)) (ineqs tangents eqs : List (List (List ℕ × K)))
    (fuel : ℕ) (r : List K × List (Base K) × Bool) : ∀ (ks : List ℕ), lift cfg M f ineqs tangents eqs fuel ks = .ok (some r) →
    ∃ k ∈ ks, attempt cfg M f ineqs tangents eqs fuel k = .ok (some r)
  | [], h => by simp [lift] at h
  | k :: ks, h => by
    unfold lift at h
    split at h
    · simp at h
    · split at h
      · simp at h
      · simp at h
      · rename_i r' hr
        have e := Option.some.inj (Except.ok.inj h)
        subst e
        exact ⟨k, List.mem_cons_self, hr⟩
      · obtain ⟨k', hk, hr⟩ := lift_sound cfg M f ineqs tangents eqs fuel r ks h
        exact ⟨k', List.mem_cons_of_mem _ hk, hr⟩

/-- **C30.** If the linear solver claims an exact solution, its weights are positive and those of the multipliers add up to one; at every
feasible point the polynomial times the multiplier equals the weighted sum of the bases, both sides are nonnegative, and so is the polynomial
wherever the multiplier does not vanish. -/
theorem linearSOS_sound [Inhabited K] (cfg : Config K) (M : MonoMgr) (f : List (List ℕ × K)) (ineqs eqs : List (List (List ℕ × K)))
    (H : Hyps cfg M f ineqs eqs) (fuel : ℕ) (z : List K) (out : List (Base K)) (h : linearSOS cfg M f ineqs eqs fuel = .ok (some (z, out, true))) :
    z.length = out.length ∧ (∀ v ∈ z, 0 < v) ∧ multWeight z out = 1 ∧
      (∀ x : List K, x.length = M.nvars → evalDict f x * multValue M x z out = tanValue M x z out) ∧
      ∀ x, Feasible M.nvars ineqs eqs x → 0 ≤ multValue M x z out ∧ 0 ≤ tanValue M x z out ∧ (multValue M x z out ≠ 0 → 0 ≤ evalDict f x) := by
  unfold linearSOS at h
  split at h
  · simp at h
  · rename_i q hq
    obtain ⟨k, -, hk⟩ := lift_sound _ _ _ _ _ _ _ _ _ h
    have ht : ∀ t ∈ clearBySymmetry M q, ∀ x, Feasible M.nvars ineqs eqs x → GoodNN M.nvars x t := by
      intro t htm x hx
      refine goodNN_qmodule hx.1 _ _ _ _ ?_ q hq t (mem_clearBySymmetry M _ t htm)
      intro p hp
      rcases List.mem_append.1 hp with hp | hp
      · exact goodNN_tangents hx.1 cfg.user cfg.keep cfg.roots cfg.nontrivial (fun t ht => ⟨(H.user t ht).1, (H.user t ht).2 x hx⟩) H.roots p hp
      · exact ⟨(H.ineq p hp).1, hx.2.1 p hp⟩
    have hg : ∀ t ∈ clearBySymmetry M q, Good M.nvars t := by
      intro t htm
      refine good_qmodule _ _ _ _ ?_ q hq t (mem_clearBySymmetry M _ t htm)
      intro p hp
      rcases List.mem_append.1 hp with hp | hp
      · exact good_tangents cfg.user cfg.keep cfg.roots cfg.nontrivial (fun t ht => (H.user t ht).1) H.roots p hp
      · exact (H.ineq p hp).1
    obtain ⟨c1, c2, c3, c4⟩ := attempt_sound cfg M f ineqs eqs _ _ H (fun t htm => ⟨hg t htm, fun x hx => (ht t htm x hx).2⟩)
      (fun t htm => mem_clearBySymmetry M _ t htm) fuel k z out hk
    refine ⟨c1.length, c3, c2, ?_, ?_⟩
    · intro x hx
      exact certificate_value M H.valid f H.poly.1 z out c1 (fun b hb => (c4 b hb).wf) x hx (fun g hg => H.invariant g hg x hx)
    · intro x hx
      exact certificate_nonneg M H.valid f H.poly.1 z out c1 (fun b hb => (c4 b hb).wf) x hx.1 (fun g hg => H.invariant g hg x hx.1)
        (fun v hv => (c3 v hv).le) fun b hb g hg => by
          have := (c4 b hb).nonneg _ (H.closed g hg x hx)
          cases b <;> exact this

end ordered

/-! ### Examples -/

/-- The constraints `a ≥ 0` and `b ≥ 0`. -/
def exIneqs : List (List (List ℕ × ℚ)) := [[([1, 0], 1)], [([0, 1], 1)]]

/-- A run without user tangents; the stub of the linear program answers for the basis of degree 2 only. -/
def exCfg : Config ℚ where
  user := []
  keep := fun _ => true
  roots := []
  nontrivial := false
  preordering := "none"
  quadDiffOrder := 2
  basisLimit := 100
  liftDegreeLimit := 1
  allowNumer := 0
  linprog := fun bs => if bs.length = 8 then some [1, 0, 1, 1, 0, 0, 0, 1] else none
  solve := fun _ _ _ => none

/-- `2a² - 2ab + 2b² = a² + b² + (a-b)²` is found. -/
example : linearSOS exCfg exM exF exIneqs [] 50 = .ok (some ([1, 1, 1, 1],
    [.tangent [0, 2] [([0, 0], 1)], .tangent [2, 0] [([0, 0], 1)], .tangent [0, 0] [([2, 0], 1), ([1, 1], -2), ([0, 2], 1)], .mult [([0, 0], 1)]],
    true)) := by decide +kernel

theorem two_list {x : List ℚ} (h : x.length = 2) : ∃ a b, x = [a, b] := by
  match x, h with
  | [a, b], _ => exact ⟨a, b, rfl⟩

/-- The hypotheses of `linearSOS_sound` hold for this run. -/
example : Hyps exCfg exM exF exIneqs [] where
  valid := exM_valid
  hom := rfl
  poly := ⟨by unfold Arity; decide +kernel, 2, by unfold HomDeg; decide +kernel⟩
  invariant := by
    intro g hg x hx
    obtain ⟨a, b, rfl⟩ := two_list hx
    have : g = [0, 1] ∨ g = [1, 0] := by simpa [exM] using hg
    rcases this with rfl | rfl
    · rfl
    · simp [exF, evalDict, evalMonom, papply]; ring
  ineq := by
    intro p hp
    have : p = [([1, 0], 1)] ∨ p = [([0, 1], 1)] := by simpa [exIneqs] using hp
    rcases this with rfl | rfl
    · exact ⟨⟨by unfold Arity; decide +kernel, 1, by unfold HomDeg; decide +kernel⟩, fun _ => by unfold HomDeg; decide +kernel⟩
    · exact ⟨⟨by unfold Arity; decide +kernel, 1, by unfold HomDeg; decide +kernel⟩, fun _ => by unfold HomDeg; decide +kernel⟩
  eq := by intro p hp; simp at hp
  closed := by
    intro g hg x hx
    obtain ⟨h1, h2, -⟩ := hx
    obtain ⟨a, b, rfl⟩ := two_list h1
    have hab : 0 ≤ a ∧ 0 ≤ b := by simpa [exIneqs, evalDict, evalMonom] using h2
    have : g = [0, 1] ∨ g = [1, 0] := by simpa [exM] using hg
    rcases this with rfl | rfl
    · refine ⟨rfl, ?_, by simp⟩
      simpa [exIneqs, evalDict, evalMonom, papply] using hab
    · refine ⟨rfl, ?_, by simp⟩
      simpa [exIneqs, evalDict, evalMonom, papply] using ⟨hab.2, hab.1⟩
  user := by intro t ht; simp [exCfg] at ht
  roots := by intro t ht; simp [exCfg] at ht
  linprog := by
    intro bs y hy mx _ v hv
    left
    simp only [exCfg] at hy
    split at hy
    · have e := Option.some.inj hy
      subst e
      simp only [List.mem_cons, List.not_mem_nil, or_false] at hv
      rcases hv with rfl | rfl | rfl | rfl | rfl | rfl | rfl | rfl <;> norm_num
    · simp at hy
  solve := by intro rows reg width z hz; simp [exCfg] at hz

/-- `(a-b)²(a²+b²) - a²b²`, that is `a⁴ - 2a³b + a²b² - 2ab³ + b⁴`, which is `-1` at `(1, 1)`. -/
def exBad : List (List ℕ × ℚ) := [([4, 0], 1), ([3, 1], -2), ([2, 2], 1), ([1, 3], -2), ([0, 4], 1)]

/-- **C30 (negation, internal function).** If a constant constraint reached `_LinearSOS`, the multiplier `1` would be offered in degree five,
where the coefficient vector of the quartic has the same length as those of the quintic bases: the quartic, negative at `(1, 1)`, would be
"proved" by `2 a³(a-b)²`.  The public function is safe because `sanitize_input` drops constant constraints. -/
theorem linearSOS_constant_wrong :
    linearSOS { exCfg with linprog := fun bs => if bs.length = 18 then some [0, 0, 0, 0, 0, 0, 0, 0, 0, 2, 0, 0, 0, 0, 0, 0, 0, 1] else none }
      exM exBad (exIneqs ++ [[([0, 0], 1)]]) [] 50 =
      .ok (some ([2, 1], [.tangent [3, 0] [([2, 0], 1), ([1, 1], -2), ([0, 2], 1)], .mult [([0, 0], 1)]], true)) ∧
    evalDict exBad [1, 1] = -1 := by
  decide +kernel

end Verif.LinSOS
