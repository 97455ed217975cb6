import Verif.Proofs.Coeff
import Mathlib.Algebra.BigOperators.Ring.List
import Mathlib.Algebra.GroupWithZero.Basic
import Mathlib.Tactic.Ring
import Mathlib.Data.List.Rotate
import Mathlib.Algebra.Order.BigOperators.Group.List

/-!
# C08, C09, C10: the `Coeff` class
-/

set_option linter.unusedSectionVars false

namespace Verif
namespace Coeff

variable {K : Type*} [DecidableEq K]

/-! ## C08 -/

/-- **C08.** `is_cyclic(G)` looks only at the generators and the stored keys, yet it returns `True` iff the
coefficients are unchanged by every permutation of the generated group at every exponent tuple. -/
theorem isCyclic_iff [Zero K] (c : Coeff K) (h : c.WF) (gens : List (List ℕ))
    (hg : ∀ p ∈ gens, p.Perm (List.range c.nvars)) :
    c.isCyclic gens = true ↔
      ∀ g, Generated c.nvars gens g → ∀ m : List ℕ, m.length = c.nvars → c.call (papply g m) = c.call m := by
  have hloop : c.isCyclicLoop gens = true ↔
      ∀ p ∈ gens, ∀ m : List ℕ, m.length = c.nvars → c.call (papply p m) = c.call m := by
    unfold isCyclicLoop
    rw [List.all_eq_true]
    constructor
    · intro hall p hp
      have := hall p hp
      simp only [Bool.and_eq_true, beq_iff_eq, List.all_eq_true, decide_eq_true_eq] at this
      exact (check_iff_invariant c h p (hg p hp)).1 this.2
    · intro hall p hp
      simp only [Bool.and_eq_true, beq_iff_eq, List.all_eq_true, decide_eq_true_eq]
      exact ⟨by simpa using (hg p hp).length_eq, (check_iff_invariant c h p (hg p hp)).2 (hall p hp)⟩
  have main : c.isCyclicLoop gens = true ↔
      ∀ g, Generated c.nvars gens g → ∀ m : List ℕ, m.length = c.nvars → c.call (papply g m) = c.call m := by
    rw [hloop]
    constructor
    · intro hinv g hgen; exact invariant_of_generated c gens hg hinv hgen
    · intro hall p hp; exact hall p (.gen p hp)
  unfold isCyclic
  split_ifs with h1
  · simp only [true_iff]
    -- one variable: the only permutation is the identity
    intro g hgen m hm
    have hp := hgen.perm hg
    rw [h1] at hp hm
    have : g = [0] := by
      have := List.perm_singleton.1 (by simpa [List.range_succ] using hp)
      exact this
    subst this
    have e := IsPermGroup.papply_one hm
    rw [show List.range 1 = [0] from rfl] at e
    rw [e]
  · exact main

/-- A permutation of the wrong size is rejected (for more than one variable). -/
theorem isCyclic_size_mismatch [Zero K] (c : Coeff K) (gens : List (List ℕ)) (h1 : c.nvars ≠ 1)
    (p : List ℕ) (hp : p ∈ gens) (hs : p.length ≠ c.nvars) : c.isCyclic gens = false := by
  unfold isCyclic
  rw [if_neg h1]
  unfold isCyclicLoop
  rw [List.all_eq_false]
  exact ⟨p, hp, by simp [hs]⟩

theorem papply_rot (a : ℕ) (l : List ℕ) (n : ℕ) (h : l.length = n) :
    papply ((List.range n).map (· + 1) ++ [0]) (a :: l) = l ++ [a] := by
  subst h
  unfold papply
  rw [List.map_append, List.map_map]
  congr 1
  have : ((fun j => (a :: l).getD j default) ∘ fun x => x + 1) = fun j => l.getD j default := by
    funext j; simp [List.getD_eq_getElem?_getD]
  rw [this]
  exact papply_range l

theorem papply_swap (a b : ℕ) (l : List ℕ) (n : ℕ) (h : l.length = n) :
    papply (1 :: 0 :: (List.range n).map (· + 2)) (a :: b :: l) = b :: a :: l := by
  subst h
  unfold papply
  simp only [List.map_cons, List.map_map]
  have : ((fun j => (a :: b :: l).getD j default) ∘ fun x => x + 2) = fun j => l.getD j default := by
    funext j; simp [List.getD_eq_getElem?_getD]
  rw [this]
  have := papply_range l
  unfold papply at this
  rw [this]; rfl

theorem cyclicGens_perm (n : ℕ) (hn : n ≠ 0) : ∀ p ∈ cyclicGens n, p.Perm (List.range n) := by
  intro p hp
  simp only [cyclicGens, List.mem_singleton] at hp
  subst hp
  obtain ⟨k, rfl⟩ : ∃ k, n = k + 1 := ⟨n - 1, by omega⟩
  rw [List.range_succ_eq_map]
  simp only [Nat.add_sub_cancel]
  exact (List.perm_append_singleton _ _)

/-- **C08 (default group of `is_cyclic`).** For a nonzero polynomial dictionary, `is_cyclic()` holds iff the
coefficients are unchanged by every cyclic rotation of the exponents. -/
theorem isCyclicDefault_iff [Zero K] (c : Coeff K) (h : c.WF) (hn : c.nvars ≠ 0) :
    c.isCyclicDefault = true ↔ ∀ (m : List ℕ) (k : ℕ), m.length = c.nvars → c.call (m.rotate k) = c.call m := by
  unfold isCyclicDefault
  rw [isCyclic_iff c h _ (cyclicGens_perm _ hn)]
  have step : ∀ m : List ℕ, m.length = c.nvars →
      papply ((List.range (c.nvars - 1)).map (· + 1) ++ [0]) m = m.rotate 1 := by
    intro m hm
    cases m with
    | nil => simp at hm; omega
    | cons a l =>
      rw [papply_rot a l _ (by simp at hm; omega)]
      simp
  constructor
  · intro hall m k hm
    induction k with
    | zero => simp
    | succ k ih =>
      rw [← ih, ← List.rotate_rotate, ← step _ (by simpa using hm)]
      exact hall _ (.gen _ (by simp [cyclicGens])) _ (by simpa using hm)
  · intro hall g hg
    apply invariant_of_generated c _ (cyclicGens_perm _ hn) _ hg
    intro p hp m hm
    simp only [cyclicGens, List.mem_singleton] at hp
    subst hp
    rw [step m hm]; exact hall m 1 hm

/-- **C08 (default group of `is_symmetric`).** For a nonzero polynomial dictionary, `is_symmetric()` holds iff
any two exponent tuples that are rearrangements of each other have the same coefficient. -/
theorem isSymmetricDefault_iff [Zero K] (c : Coeff K) (h : c.WF) (hn : c.nvars ≠ 0) :
    ∃ b, c.isSymmetricDefault = .ok b ∧
      (b = true ↔ ∀ m m' : List ℕ, m.length = c.nvars → m.Perm m' → c.call m = c.call m') := by
  unfold isSymmetricDefault
  have fwd : ∀ gens : List (List ℕ), (∀ p ∈ gens, p.Perm (List.range c.nvars)) →
      (∀ m m' : List ℕ, m.length = c.nvars → m.Perm m' → c.call m = c.call m') → c.isCyclic gens = true := by
    intro gens hg hall
    rw [isCyclic_iff c h gens hg]
    intro g hgen m hm
    exact (hall m _ hm (papply_perm g m (by rw [hm]; exact hgen.perm hg)).symm).symm
  match hnv : c.nvars, hn with
  | 1, _ =>
    refine ⟨_, rfl, ?_⟩
    unfold isCyclic
    simp only [hnv, if_true, true_iff]
    intro m m' hm hp
    obtain ⟨a, rfl⟩ := List.length_eq_one_iff.1 hm
    rw [List.singleton_perm.1 hp]
  | 2, _ =>
    refine ⟨_, rfl, ?_⟩
    constructor
    · intro hc m m' hm hp
      rw [isCyclic_iff c h _ (by intro p hp; simp only [List.mem_singleton] at hp; subst hp; rw [hnv]; decide)] at hc
      match m, hm with
      | [a, b], _ =>
        have hsw := hc [1,0] (.gen _ (by simp)) [a, b] (by simp [hnv])
        have : papply [1,0] [a,b] = [b,a] := rfl
        rw [this] at hsw
        have hp2 : m' = [a,b] ∨ m' = [b,a] := by
          have hl := hp.length_eq
          match m', hl with
          | [x, y], _ =>
            have h1 : x ∈ [a, b] := hp.symm.mem_iff.1 (by simp)
            simp only [List.mem_cons, List.not_mem_nil, or_false] at h1
            rcases h1 with rfl | rfl
            · left; have := (List.perm_cons x).1 hp; rw [List.singleton_perm] at this; simp at this; simp [this]
            · right
              have := (List.perm_cons x).1 ((List.Perm.swap a x []).trans hp); rw [List.singleton_perm] at this
              simp at this; simp [this]
        rcases hp2 with rfl | rfl
        · rfl
        · exact hsw.symm
    · intro hall
      exact fwd _ (by intro p hp; simp only [List.mem_singleton] at hp; subst hp; rw [hnv]; decide)
        (by rw [hnv]; exact hall)
  | n + 3, _ =>
    have hg : ∀ p ∈ [(List.range (n + 2)).map (· + 1) ++ [0], 1 :: 0 :: (List.range (n + 1)).map (· + 2)],
        p.Perm (List.range c.nvars) := by
      intro p hp
      rw [hnv]
      simp only [List.mem_cons, List.not_mem_nil, or_false] at hp
      rcases hp with rfl | rfl
      · exact cyclicGens_perm (n+3) (by omega) _ (by simp [cyclicGens])
      · have : List.range (n + 3) = 0 :: 1 :: (List.range (n + 1)).map (· + 2) := by
          rw [List.range_succ_eq_map, List.range_succ_eq_map]
          simp [Function.comp_def]
        rw [this]; exact List.Perm.swap _ _ _
    refine ⟨_, rfl, ?_⟩
    constructor
    · intro hc
      rw [isCyclic_iff c h _ hg] at hc
      have hrot1 : ∀ a (l : List ℕ), l.length = n + 2 → c.call (l ++ [a]) = c.call (a :: l) := by
        intro a l hl
        have := hc ((List.range (n + 2)).map (· + 1) ++ [0]) (.gen _ (by simp)) (a :: l) (by simp [hnv, hl])
        rwa [papply_rot a l _ hl] at this
      have hswap : ∀ a b (l : List ℕ), l.length = n + 1 → c.call (b :: a :: l) = c.call (a :: b :: l) := by
        intro a b l hl
        have := hc (1 :: 0 :: (List.range (n + 1)).map (· + 2)) (.gen _ (by simp)) (a :: b :: l) (by simp [hnv, hl])
        rwa [papply_swap a b l _ hl] at this
      have hrot : ∀ (l0 l : List ℕ), (l0 ++ l).length = n + 3 → c.call (l ++ l0) = c.call (l0 ++ l) := by
        intro l0
        induction l0 with
        | nil => intro l _; simp
        | cons a l0 ih =>
          intro l hl
          have := ih (l ++ [a]) (by simp at hl ⊢; omega)
          rw [List.append_assoc, List.singleton_append] at this
          rw [this, ← List.append_assoc, hrot1 a (l0 ++ l) (by simp at hl ⊢; omega)]; rfl
      have key : ∀ (l l' : List ℕ), l.Perm l' → ∀ l0 : List ℕ, (l0 ++ l).length = n + 3 →
          c.call (l0 ++ l) = c.call (l0 ++ l') := by
        intro l l' hp
        induction hp with
        | nil => intro l0 _; rfl
        | cons x hp ih =>
          intro l0 hl
          have := ih (l0 ++ [x]) (by simpa using hl)
          simpa using this
        | swap x y l =>
          intro l0 hl
          rw [← hrot l0 (y :: x :: l) hl, ← hrot l0 (x :: y :: l) (by simpa using hl)]
          exact hswap x y (l ++ l0) (by simp at hl ⊢; omega)
        | trans h1 h2 ih1 ih2 =>
          intro l0 hl
          rw [ih1 l0 hl, ih2 l0 (by simpa [h1.length_eq] using hl)]
      intro m m' hm hp
      exact key m m' hp [] (by simpa using hm)
    · intro hall
      exact fwd _ hg (by rw [hnv]; exact hall)

/-- On the zero dictionary the default symmetry test raises `IndexError` instead of answering. -/
theorem isSymmetricDefault_zero_raises [Zero K] : (ofDict ([] : List (List ℕ × K))).isSymmetricDefault
    = .error .indexError := rfl

/-! ## C10 -/

theorem operator_spec [Zero K] (a b : Coeff K) (ha : (dkeys a.coeffs).Nodup) (hb : (dkeys b.coeffs).Nodup)
    (op : K → K → K) (hop : ∀ x, op x 0 = x) :
    (∀ m, (operator a b op).call m = op (a.call m) (b.call m)) ∧
    ((∀ kv ∈ a.coeffs, kv.2 ≠ 0) → ∀ kv ∈ (operator a b op).coeffs, kv.2 ≠ 0) ∧
    (operator a b op).coeffs.Pairwise (fun x y => y.1 < x.1) := by
  obtain ⟨h1, h2, h3⟩ := opFold_spec a op b.coeffs a.coeffs hb ha (fun k _ => rfl)
  set r := b.coeffs.foldl (opStep a op) a.coeffs with hr
  have hperm : (r.mergeSort fun x y => decide (y.1 ≤ x.1)).Perm r := List.mergeSort_perm _ _
  have hnd : (dkeys (r.mergeSort fun x y => decide (y.1 ≤ x.1))).Nodup := (hperm.map Prod.fst).nodup_iff.2 h1
  refine ⟨?_, ?_, ?_⟩
  · intro m
    have : (operator a b op).call m = (dget r m).getD 0 := by
      unfold call operator ofDict
      simp only [← hr]
      rw [dget_perm hperm hnd]
    rw [this, h2 m]
    split_ifs with hm
    · rfl
    · have : b.call m = 0 := by unfold call; rw [(dget_eq_none_iff _ _).2 hm]; rfl
      rw [this, hop]; rfl
  · intro hz kv hkv
    exact h3 hz kv (hperm.mem_iff.1 hkv)
  · have hs : (r.mergeSort fun x y => decide (y.1 ≤ x.1)).Pairwise (fun x y => decide (y.1 ≤ x.1) = true) := by
      apply List.pairwise_mergeSort
      · intro x y z hxy hyz; simp only [decide_eq_true_eq] at *; exact le_trans hyz hxy
      · intro x y; simp only [Bool.or_eq_true, decide_eq_true_eq]; exact le_total _ _
    have hne : (r.mergeSort fun x y => decide (y.1 ≤ x.1)).Pairwise (fun x y => x.1 ≠ y.1) := by
      unfold dkeys at hnd; rwa [List.Nodup, List.pairwise_map] at hnd
    refine (hs.and hne).imp ?_
    rintro x y ⟨h4, h5⟩
    simp only [decide_eq_true_eq] at h4
    exact lt_of_le_of_ne h4 (fun h => h5 h.symm)

/-- **C10.** `A + B` has the coefficientwise sum at every exponent tuple, introduces no zero entry, and its
keys are in strictly descending order. -/
theorem add_spec [AddGroup K] (a b : Coeff K) (ha : (dkeys a.coeffs).Nodup) (hb : (dkeys b.coeffs).Nodup) :
    (∀ m, (a.add b).call m = a.call m + b.call m) ∧
    ((∀ kv ∈ a.coeffs, kv.2 ≠ 0) → ∀ kv ∈ (a.add b).coeffs, kv.2 ≠ 0) ∧
    (a.add b).coeffs.Pairwise (fun x y => y.1 < x.1) :=
  operator_spec a b ha hb (· + ·) (fun x => add_zero x)

/-- **C10.** `A - B` likewise. -/
theorem sub_spec [AddGroup K] (a b : Coeff K) (ha : (dkeys a.coeffs).Nodup) (hb : (dkeys b.coeffs).Nodup) :
    (∀ m, (a.sub b).call m = a.call m - b.call m) ∧
    ((∀ kv ∈ a.coeffs, kv.2 ≠ 0) → ∀ kv ∈ (a.sub b).coeffs, kv.2 ≠ 0) ∧
    (a.sub b).coeffs.Pairwise (fun x y => y.1 < x.1) :=
  operator_spec a b ha hb (· - ·) (fun x => sub_zero x)

/-! ## C09 -/

/-- The value of the monomial `x^m` (specification). -/
def evalMonom {R : Type*} [CommSemiring R] (m : List ℕ) (x : List R) : R :=
  (List.zipWith (fun e y => y ^ e) m x).prod

/-- The value of the polynomial at `x` (specification). -/
def evalDict [CommSemiring K] (d : List (List ℕ × K)) (x : List K) : K :=
  (d.map fun kv => kv.2 * evalMonom kv.1 x).sum

theorem evalMonom_sub {R : Type*} [CommSemiring R] : ∀ (m e : List ℕ) (x : List R),
    m.length = x.length → e.length = x.length → List.Forall₂ (· ≤ ·) e m →
    evalMonom e x * evalMonom (List.zipWith (· - ·) m e) x = evalMonom m x
  | [], [], [], _, _, _ => by simp [evalMonom]
  | a :: m, b :: e, y :: x, h1, h2, h3 => by
      rw [List.forall₂_cons] at h3
      have ih := evalMonom_sub m e x (by simpa using h1) (by simpa using h2) h3.2
      simp only [evalMonom, List.zipWith_cons_cons, List.prod_cons] at ih ⊢
      rw [← ih]
      have : y ^ a = y ^ b * y ^ (a - b) := by rw [← pow_add]; congr 1; omega
      rw [this]; ring
  | [], _ :: _, _, _, _, h => by cases h
  | _ :: _, [], _, _, _, h => by cases h
  | [], [], _ :: _, h, _, _ => by simp at h
  | _ :: _, _ :: _, [], h, _, _ => by simp at h

theorem commonLoop_spec : ∀ (ms : List (List ℕ)) (c0 : List ℕ), (∀ m ∈ ms, m.length = c0.length) →
    (∀ c, commonLoop ms c0 = some c → c.length = c0.length ∧ List.Forall₂ (· ≤ ·) c c0 ∧
      (∀ m ∈ ms, List.Forall₂ (· ≤ ·) c m) ∧
      ∀ i, i < c.length → c.getD i 0 = c0.getD i 0 ∨ ∃ m ∈ ms, c.getD i 0 = m.getD i 0) ∧
    (commonLoop ms c0 = none → ∀ i, i < c0.length → ∃ m ∈ ms, m.getD i 0 = 0 ∨ c0.getD i 0 = 0)
  | [], c0, _ => by
      refine ⟨?_, ?_⟩
      · intro c hc; simp only [commonLoop, Option.some.injEq] at hc; subst hc
        exact ⟨rfl, List.forall₂_same.2 (fun _ _ => le_rfl), by simp, fun i _ => Or.inl rfl⟩
      · intro h; simp [commonLoop] at h
  | m :: ms, c0, hl => by
      have hlm : m.length = c0.length := hl m (by simp)
      have hlen : (List.zipWith min c0 m).length = c0.length := by simp [hlm]
      have hmin : ∀ (a b : List ℕ), b.length = a.length →
          List.Forall₂ (· ≤ ·) (List.zipWith min a b) a ∧ List.Forall₂ (· ≤ ·) (List.zipWith min a b) b := by
        intro a
        induction a with
        | nil => intro b hb; simp at hb; subst hb; simp
        | cons x a ih =>
          intro b hb
          cases b with
          | nil => simp at hb
          | cons y b =>
            obtain ⟨h1, h2⟩ := ih b (by simpa using hb)
            simp only [List.zipWith_cons_cons, List.forall₂_cons]
            exact ⟨⟨min_le_left _ _, h1⟩, ⟨min_le_right _ _, h2⟩⟩
      have hgetD : ∀ i, i < c0.length → (List.zipWith min c0 m).getD i 0 = min (c0.getD i 0) (m.getD i 0) := by
        intro i hi
        have hi2 : i < m.length := by omega
        simp [List.getD_eq_getElem?_getD, hi, hi2]
      have htrans : ∀ (a b c : List ℕ), List.Forall₂ (· ≤ ·) a b → List.Forall₂ (· ≤ ·) b c →
          List.Forall₂ (· ≤ ·) a c := by
        intro a b c hab
        induction hab generalizing c with
        | nil => intro h; exact h
        | cons h1 _ ih =>
          intro h; cases h with
          | cons h2 h3 => exact List.Forall₂.cons (le_trans h1 h2) (ih _ h3)
      obtain ⟨ih1, ih2⟩ := commonLoop_spec ms (List.zipWith min c0 m)
        (fun m' hm' => by rw [hlen]; exact hl m' (by simp [hm']))
      refine ⟨?_, ?_⟩
      · intro c hc
        simp only [commonLoop] at hc
        split_ifs at hc
        obtain ⟨a1, a2, a3, a4⟩ := ih1 c hc
        refine ⟨a1.trans hlen, htrans _ _ _ a2 (hmin c0 m hlm).1, ?_, ?_⟩
        · intro m' hm'
          simp only [List.mem_cons] at hm'
          rcases hm' with rfl | hm'
          · exact htrans _ _ _ a2 (hmin c0 _ hlm).2
          · exact a3 m' hm'
        · intro i hi
          rcases a4 i hi with h | ⟨m', hm', h⟩
          · rw [hgetD i (by omega)] at h
            rcases min_choice (c0.getD i 0) (m.getD i 0) with h2 | h2
            · left; rw [h, h2]
            · right; exact ⟨m, by simp, by rw [h, h2]⟩
          · exact Or.inr ⟨m', by simp [hm'], h⟩
      · intro hnone i hi
        simp only [commonLoop] at hnone
        split_ifs at hnone with hz
        · refine ⟨m, by simp, ?_⟩
          rw [List.all_eq_true] at hz
          have hi2 : i < (List.zipWith min c0 m).length := by omega
          have := hz _ (List.getElem_mem hi2)
          have e : (List.zipWith min c0 m).getD i 0 = (List.zipWith min c0 m)[i] := by
            rw [List.getD_eq_getElem?_getD, List.getElem?_eq_getElem hi2]; rfl
          rw [beq_iff_eq, ← e, hgetD i hi] at this
          omega
        · obtain ⟨m', hm', h⟩ := ih2 hnone i (by omega)
          rcases h with h | h
          · exact ⟨m', by simp [hm'], Or.inl h⟩
          · rw [hgetD i hi] at h
            have : c0.getD i 0 = 0 ∨ m.getD i 0 = 0 := by omega
            rcases this with h3 | h3
            · exact ⟨m, by simp, Or.inr h3⟩
            · exact ⟨m, by simp, Or.inl h3⟩

theorem dictOf_eq_of_nodup {κ ν : Type*} [DecidableEq κ] (l : List (κ × ν)) (h : (dkeys l).Nodup) :
    dictOf l = l := by
  have key : ∀ (a d : List (κ × ν)), (dkeys d ++ dkeys a).Nodup →
      a.foldl (fun d e => dset d e.1 e.2) d = d ++ a := by
    intro a
    induction a with
    | nil => intro d _; simp
    | cons e a ih =>
      intro d hn
      have hfresh : ∀ d : List (κ × ν), e.1 ∉ dkeys d → dset d e.1 e.2 = d ++ [e] := by
        intro d
        induction d with
        | nil => intro _; rfl
        | cons x d ih2 =>
          intro hne
          obtain ⟨x1, x2⟩ := x
          rw [dkeys_cons, List.mem_cons, not_or] at hne
          simp only [dset]
          rw [if_neg (fun h => hne.1 h.symm), ih2 hne.2]; rfl
      have hne : e.1 ∉ dkeys d := by
        intro hm
        rw [List.nodup_append] at hn
        exact hn.2.2 _ hm e.1 (by simp [dkeys]) rfl
      rw [List.foldl_cons, hfresh d hne, ih]
      · simp
      · simpa [dkeys] using hn
  unfold dictOf
  rw [key l [] (by simpa [dkeys] using h)]; simp

theorem evalDict_filter [CommSemiring K] (d : List (List ℕ × K)) (x : List K) :
    evalDict (d.filter fun kv => decide (kv.2 ≠ 0)) x = evalDict d x := by
  unfold evalDict
  induction d with
  | nil => rfl
  | cons a l ih =>
    by_cases h : a.2 = 0
    · simp only [List.filter_cons, h, ne_eq, not_true, decide_false, Bool.false_eq_true, if_false,
        List.map_cons, List.sum_cons, zero_mul, zero_add]
      exact ih
    · simp only [List.filter_cons, ne_eq, h, not_false_eq_true, decide_true, if_true, List.map_cons,
        List.sum_cons]
      rw [← ih]

/-- **C09 (cancel_abc).** For a polynomial without stored zeros, `cancel_abc` returns exponents `e` and a
polynomial `q` with `p(x) = x^e q(x)` for all `x`, and no variable divides `q`: every variable has a term of
`q` in which its exponent is zero (the zero polynomial is returned unchanged with `e = 0`). -/
theorem cancelAbc_spec [CommSemiring K] (c : Coeff K) (h : c.WF) (hz : ∀ kv ∈ c.coeffs, kv.2 ≠ 0) :
    (c.cancelAbc).1.length = c.nvars ∧
    (∀ x : List K, x.length = c.nvars →
      evalDict c.coeffs x = evalMonom c.cancelAbc.1 x * evalDict c.cancelAbc.2.coeffs x) ∧
    (c.coeffs ≠ [] → ∀ i, i < c.nvars → ∃ kv ∈ c.cancelAbc.2.coeffs, kv.2 ≠ 0 ∧ kv.1.getD i 0 = 0) := by
  have hone : ∀ (n : ℕ) (x : List K), evalMonom (List.replicate n 0) x = 1 := by
    intro n
    induction n with
    | zero => intro x; simp [evalMonom]
    | succ n ih =>
      intro x
      cases x with
      | nil => simp [evalMonom]
      | cons y x =>
        have := ih x
        simp only [evalMonom] at this
        simp [evalMonom, List.replicate_succ, this]
  have hall : ∀ m ∈ dkeys c.coeffs, m.length = (List.replicate c.nvars (c.degree + 1)).length := by
    intro m hm
    unfold dkeys at hm; rw [List.mem_map] at hm
    obtain ⟨kv, hkv, rfl⟩ := hm
    simpa using h.length kv hkv
  obtain ⟨hsome, hnone⟩ := commonLoop_spec (dkeys c.coeffs) (List.replicate c.nvars (c.degree + 1)) hall
  unfold cancelAbc
  cases hce : c.coeffs with
  | nil => simp [evalDict, hce]
  | cons kv0 rest =>
    simp only [List.isEmpty_cons, Bool.false_eq_true, if_false]
    rw [← hce]
    cases hcl : commonLoop (dkeys c.coeffs) (List.replicate c.nvars (c.degree + 1)) with
    | none =>
      refine ⟨by simp, ?_, ?_⟩
      · intro x hx; simp only [hone, one_mul]
      · intro _ i hi
        obtain ⟨m, hm, h1⟩ := hnone hcl i (by simpa using hi)
        have h2 : (List.replicate c.nvars (c.degree + 1)).getD i 0 ≠ 0 := by
          simp [List.getD_eq_getElem?_getD, hi]
        unfold dkeys at hm; rw [List.mem_map] at hm
        obtain ⟨kv, hkv, rfl⟩ := hm
        exact ⟨kv, hkv, hz kv hkv, h1.resolve_right h2⟩
    | some e =>
      obtain ⟨h1, h2, h3, h4⟩ := hsome e hcl
      simp only [List.length_replicate] at h1
      have hfil : (c.coeffs.filter fun kv => decide (kv.2 ≠ 0)) = c.coeffs := by
        rw [List.filter_eq_self]; intro a ha; simpa using hz a ha
      have hle : ∀ kv ∈ c.coeffs, List.Forall₂ (· ≤ ·) e kv.1 := by
        intro kv hkv; exact h3 _ (List.mem_map_of_mem hkv)
      have hinj : ∀ (a b e : List ℕ), List.Forall₂ (· ≤ ·) e a → List.Forall₂ (· ≤ ·) e b →
          List.zipWith (· - ·) a e = List.zipWith (· - ·) b e → a = b := by
        intro a
        induction a with
        | nil =>
          intro b e ha hb _
          cases ha; cases hb; rfl
        | cons x a ih =>
          intro b e ha hb hab
          cases ha with
          | cons hx ha' =>
            cases hb with
            | cons hy hb' =>
              simp only [List.zipWith_cons_cons, List.cons.injEq] at hab
              rw [ih _ _ ha' hb' hab.2]
              congr 1; omega
      have hnd : (dkeys (c.coeffs.map fun kv => (List.zipWith (· - ·) kv.1 e, kv.2))).Nodup := by
        unfold dkeys
        rw [List.map_map]
        have hn := h.nodup
        unfold dkeys at hn
        rw [List.Nodup, List.pairwise_map] at hn ⊢
        refine (List.Pairwise.and_mem.1 hn).imp ?_
        rintro a b ⟨ha, hb, hab⟩ he
        exact hab (hinj _ _ e (hle a ha) (hle b hb) he)
      have hdict : dictOf ((c.coeffs.filter fun kv => decide (kv.2 ≠ 0)).map fun kv =>
          (List.zipWith (· - ·) kv.1 e, kv.2)) = c.coeffs.map fun kv => (List.zipWith (· - ·) kv.1 e, kv.2) := by
        rw [hfil, dictOf_eq_of_nodup _ hnd]
      refine ⟨h1, ?_, ?_⟩
      · intro x hx
        simp only [ofDict, hdict]
        unfold evalDict
        rw [List.map_map]
        have : ∀ l : List (List ℕ × K), (∀ kv ∈ l, kv ∈ c.coeffs) →
            (l.map fun kv => kv.2 * evalMonom kv.1 x).sum = evalMonom e x *
              (l.map ((fun kv => kv.2 * evalMonom kv.1 x) ∘ fun kv => (List.zipWith (· - ·) kv.1 e, kv.2))).sum := by
          intro l
          induction l with
          | nil => intro _; simp
          | cons a l ih =>
            intro hl
            simp only [List.map_cons, List.sum_cons, Function.comp_apply]
            rw [ih (fun kv hkv => hl kv (by simp [hkv]))]
            have ha := hl a (by simp)
            rw [← evalMonom_sub a.1 e x (by rw [h.length a ha, hx]) (by rw [h1, hx]) (hle a ha)]
            simp only [Function.comp_def]
            ring
        exact this c.coeffs (fun _ h => h)
      · intro _ i hi
        have hrep : (List.replicate c.nvars (c.degree + 1)).getD i 0 = c.degree + 1 := by
          simp [List.getD_eq_getElem?_getD, hi]
        have hwit : ∃ m ∈ dkeys c.coeffs, e.getD i 0 = m.getD i 0 := by
          rcases h4 i (by omega) with h5 | h5
          · -- impossible: the first key is bounded by the degree
            exfalso
            rw [hrep] at h5
            have hk0 : kv0 ∈ c.coeffs := by rw [hce]; simp
            have hle0 := hle kv0 hk0
            have hi0 : i < kv0.1.length := by rw [h.length kv0 hk0]; exact hi
            have hb : e.getD i 0 ≤ kv0.1.getD i 0 := by
              have := (List.forall₂_iff_get.1 hle0).2 i (by omega) hi0
              simpa [List.getD_eq_getElem?_getD, hi0, (by omega : i < e.length)] using this
            have hs : kv0.1.getD i 0 ≤ kv0.1.sum := by
              have : kv0.1.getD i 0 = kv0.1[i] := by simp [List.getD_eq_getElem?_getD, hi0]
              rw [this]
              exact List.single_le_sum (fun _ _ => Nat.zero_le _) _ (List.getElem_mem hi0)
            have hdeg : c.degree = kv0.1.sum := by unfold degree; rw [hce]
            omega
          · exact h5
        obtain ⟨m, hm, hme⟩ := hwit
        unfold dkeys at hm; rw [List.mem_map] at hm
        obtain ⟨kv, hkv, rfl⟩ := hm
        refine ⟨(List.zipWith (· - ·) kv.1 e, kv.2), ?_, hz kv hkv, ?_⟩
        · simp only [ofDict, hdict]; exact List.mem_map_of_mem hkv
        · have hi0 : i < kv.1.length := by rw [h.length kv hkv]; exact hi
          have hi1 : i < e.length := by omega
          have e1 : kv.1.getD i 0 = kv.1[i] := by simp [List.getD_eq_getElem?_getD, hi0]
          have e2 : e.getD i 0 = e[i] := by simp [List.getD_eq_getElem?_getD, hi1]
          rw [e1, e2] at hme
          simp [List.getD_eq_getElem?_getD, hi0, hi1, hme]

theorem gcdLoop_spec : ∀ (us : List ℕ) (d : ℕ),
    (∀ r, gcdLoop us d = some r → r = us.foldl Nat.gcd d) ∧
    (gcdLoop us d = none → us.foldl Nat.gcd d = 1)
  | [], d => by simp [gcdLoop]
  | u :: us, d => by
      obtain ⟨h1, h2⟩ := gcdLoop_spec us (Nat.gcd d u)
      simp only [gcdLoop, List.foldl_cons]
      have hone : ∀ l : List ℕ, l.foldl Nat.gcd 1 = 1 := by
        intro l; induction l with
        | nil => rfl
        | cons a l ih => simp [ih]
      split_ifs with hd
      · exact ⟨by simp, fun _ => by rw [hd]; exact hone us⟩
      · exact ⟨h1, h2⟩

theorem foldl_gcd_dvd : ∀ (us : List ℕ) (d : ℕ), us.foldl Nat.gcd d ∣ d ∧ ∀ u ∈ us, us.foldl Nat.gcd d ∣ u
  | [], d => by simp
  | u :: us, d => by
      obtain ⟨h1, h2⟩ := foldl_gcd_dvd us (Nat.gcd d u)
      simp only [List.foldl_cons, List.mem_cons]
      refine ⟨h1.trans (Nat.gcd_dvd_left _ _), ?_⟩
      rintro x (rfl | hx)
      · exact h1.trans (Nat.gcd_dvd_right _ _)
      · exact h2 x hx

theorem dvd_foldl_gcd (k : ℕ) : ∀ (us : List ℕ) (d : ℕ), k ∣ d → (∀ u ∈ us, k ∣ u) → k ∣ us.foldl Nat.gcd d
  | [], d, h, _ => by simpa using h
  | u :: us, d, h, h2 => by
      rw [List.foldl_cons]
      exact dvd_foldl_gcd k us _ (Nat.dvd_gcd h (h2 u (by simp))) (fun x hx => h2 x (by simp [hx]))

theorem evalMonom_div {R : Type*} [CommSemiring R] (d : ℕ) : ∀ (m : List ℕ) (x : List R), (∀ u ∈ m, d ∣ u) →
    evalMonom (m.map (· / d)) (x.map (· ^ d)) = evalMonom m x
  | [], _, _ => by simp [evalMonom]
  | a :: m, [], _ => by simp [evalMonom]
  | a :: m, y :: x, h => by
      have ih := evalMonom_div d m x (fun u hu => h u (by simp [hu]))
      simp only [evalMonom, List.map_cons, List.zipWith_cons_cons, List.prod_cons] at ih ⊢
      rw [ih, ← pow_mul, Nat.mul_div_cancel' (h a (by simp))]

/-- **C09 (cancel_k).** For a polynomial without stored zeros, `cancel_k` returns `d` and `q` with
`p(x) = q(x^d)` for all `x`; and unless `p` is constant the exponents of `q` have no common divisor above 1. -/
theorem cancelK_spec [CommSemiring K] (c : Coeff K) (h : c.WF) (hz : ∀ kv ∈ c.coeffs, kv.2 ≠ 0) :
    (∀ x : List K, x.length = c.nvars →
      evalDict c.coeffs x = evalDict c.cancelK.2.coeffs (x.map (· ^ c.cancelK.1))) ∧
    ((∃ kv ∈ c.coeffs, ∃ u ∈ kv.1, u ≠ 0) →
      ∀ k, (∀ kv ∈ c.cancelK.2.coeffs, ∀ u ∈ kv.1, k ∣ u) → k = 1) := by
  unfold cancelK
  cases hce : c.coeffs with
  | nil => simp [hce, evalDict]
  | cons kv0 rest =>
    simp only [List.isEmpty_cons, Bool.false_eq_true, if_false]
    rw [← hce]
    obtain ⟨hsome, hnone⟩ := gcdLoop_spec (dkeys c.coeffs).flatten 0
    have hmemflat : ∀ u, u ∈ (dkeys c.coeffs).flatten ↔ ∃ kv ∈ c.coeffs, u ∈ kv.1 := by
      intro u
      simp only [List.mem_flatten, dkeys, List.mem_map]
      constructor
      · rintro ⟨l, ⟨kv, hkv, rfl⟩, hu⟩; exact ⟨kv, hkv, hu⟩
      · rintro ⟨kv, hkv, hu⟩; exact ⟨_, ⟨kv, hkv, rfl⟩, hu⟩
    cases hgl : gcdLoop (dkeys c.coeffs).flatten 0 with
    | none =>
      refine ⟨by intro x _; simp, ?_⟩
      intro _ k hk
      have h1 := hnone hgl
      have : k ∣ (dkeys c.coeffs).flatten.foldl Nat.gcd 0 := by
        apply dvd_foldl_gcd k _ _ (dvd_zero k)
        intro u hu
        obtain ⟨kv, hkv, hu⟩ := (hmemflat u).1 hu
        exact hk kv hkv u hu
      rw [h1] at this
      exact Nat.dvd_one.1 this
    | some d =>
      have hd := hsome d hgl
      have hdvd : ∀ kv ∈ c.coeffs, ∀ u ∈ kv.1, d ∣ u := by
        intro kv hkv u hu
        rw [hd]; exact (foldl_gcd_dvd _ _).2 u ((hmemflat u).2 ⟨kv, hkv, hu⟩)
      simp only
      split_ifs with hd0
      · -- constant polynomial
        subst hd0
        refine ⟨?_, ?_⟩
        · intro x _
          unfold evalDict
          congr 1
          apply List.map_congr_left
          intro kv hkv
          have hz0 : ∀ u ∈ kv.1, u = 0 := fun u hu => Nat.eq_zero_of_zero_dvd (hdvd kv hkv u hu)
          congr 1
          have : ∀ (m : List ℕ) (x y : List K), x.length = y.length → (∀ u ∈ m, u = 0) →
              evalMonom m x = evalMonom m y := by
            intro m
            induction m with
            | nil => intro x y _ _; simp [evalMonom]
            | cons a m ih =>
              intro x y hxy hm
              cases x with
              | nil => cases y with
                | nil => rfl
                | cons => simp at hxy
              | cons x1 x => cases y with
                | nil => simp at hxy
                | cons y1 y =>
                  have := ih x y (by simpa using hxy) (fun u hu => hm u (by simp [hu]))
                  simp only [evalMonom] at this
                  simp [evalMonom, hm a (by simp), this]
          exact this kv.1 x _ (by simp) hz0
        · rintro ⟨kv, hkv, u, hu, hne⟩
          exact absurd (Nat.eq_zero_of_zero_dvd (hdvd kv hkv u hu)) hne
      · have hfil : (c.coeffs.filter fun kv => decide (kv.2 ≠ 0)) = c.coeffs := by
          rw [List.filter_eq_self]; intro a ha; simpa using hz a ha
        have hinj : ∀ a ∈ c.coeffs, ∀ b ∈ c.coeffs, a.1.map (· / d) = b.1.map (· / d) → a.1 = b.1 := by
          intro a ha b hb hab
          have : ∀ l : List ℕ, (∀ u ∈ l, d ∣ u) → (l.map (· / d)).map (d * ·) = l := by
            intro l hl
            rw [List.map_map]
            conv_rhs => rw [← List.map_id l]
            apply List.map_congr_left
            intro u hu; simp [Nat.mul_div_cancel' (hl u hu)]
          rw [← this a.1 (hdvd a ha), hab, this b.1 (hdvd b hb)]
        have hnd : (dkeys (c.coeffs.map fun kv => (kv.1.map (· / d), kv.2))).Nodup := by
          have hn := h.nodup
          unfold dkeys at hn ⊢
          rw [List.map_map]
          rw [List.Nodup, List.pairwise_map] at hn ⊢
          refine (List.Pairwise.and_mem.1 hn).imp ?_
          rintro a b ⟨ha, hb, hab⟩ he
          exact hab (hinj a ha b hb he)
        have hdict : dictOf ((c.coeffs.filter fun kv => decide (kv.2 ≠ 0)).map fun kv =>
            (kv.1.map (· / d), kv.2)) = c.coeffs.map fun kv => (kv.1.map (· / d), kv.2) := by
          rw [hfil, dictOf_eq_of_nodup _ hnd]
        refine ⟨?_, ?_⟩
        · intro x hx
          simp only [ofDict, hdict]
          unfold evalDict
          rw [List.map_map]
          congr 1
          apply List.map_congr_left
          intro kv hkv
          simp only [Function.comp_apply]
          rw [evalMonom_div d kv.1 x (hdvd kv hkv)]
        · intro _ k hk
          simp only [ofDict, hdict, List.mem_map] at hk
          have : d * k ∣ d := by
            conv_rhs => rw [hd]
            apply dvd_foldl_gcd _ _ _ (dvd_zero _)
            intro u hu
            obtain ⟨kv, hkv, hu⟩ := (hmemflat u).1 hu
            have h5 := hk _ ⟨kv, hkv, rfl⟩ (u / d) (List.mem_map_of_mem hu)
            have h6 := Nat.mul_dvd_mul_left d h5
            rwa [Nat.mul_div_cancel' (hdvd kv hkv u hu)] at h6
          have hd1 : d * k ∣ d * 1 := by simpa using this
          exact Nat.dvd_one.1 ((Nat.mul_dvd_mul_iff_left (Nat.pos_of_ne_zero hd0)).1 hd1)

/-- `reflect` swaps the first two exponents. -/
theorem reflect_call [Zero K] (c : Coeff K) (h : c.WF) (h3 : c.nvars = 3) (hne : c.coeffs ≠ []) :
    ∃ r, c.reflect = .ok r ∧ ∀ i j k, r.call [j, i, k] = c.call [i, j, k] := by
  unfold reflect
  have he : c.coeffs.isEmpty = false := by cases hc : c.coeffs with
    | nil => exact absurd hc hne
    | cons => rfl
  rw [he]
  simp only [Bool.false_eq_true, if_false, h3, ne_eq, not_true]
  let sw : List ℕ → List ℕ := fun l => match l with | [i, j, k] => [j, i, k] | l => l
  have hmap : ∀ l : List (List ℕ × K), (∀ kv ∈ l, kv.1.length = 3) →
      l.mapM reflectEntry = .ok (l.map fun kv => (sw kv.1, kv.2)) := by
    intro l
    induction l with
    | nil => intro _; rfl
    | cons a l ih =>
      intro hl
      obtain ⟨m, v⟩ := a
      have := hl (m, v) (by simp)
      match m, this with
      | [i, j, k], _ =>
        rw [List.mapM_cons, ih (fun kv hkv => hl kv (by simp [hkv]))]
        rfl
  rw [hmap _ (by intro kv hkv; rw [h.length kv hkv, h3])]
  refine ⟨_, rfl, ?_⟩
  intro i j k
  have hnd : (dkeys (c.coeffs.map fun kv => (sw kv.1, kv.2))).Nodup := by
    have hn := h.nodup
    unfold dkeys at hn ⊢
    rw [List.map_map]
    rw [List.Nodup, List.pairwise_map] at hn ⊢
    refine (List.Pairwise.and_mem.1 hn).imp ?_
    rintro a b ⟨ha, hb, hab⟩ he
    apply hab
    have la := h.length a ha
    have lb := h.length b hb
    rw [h3] at la lb
    obtain ⟨am, av⟩ := a
    obtain ⟨bm, bv⟩ := b
    match am, bm, la, lb with
    | [a1, a2, a3], [b1, b2, b3], _, _ =>
      simp [sw] at he ⊢
      exact ⟨he.2.1, he.1, he.2.2⟩
  unfold call ofDict
  simp only
  rw [dictOf_eq_of_nodup _ hnd]
  congr 1
  apply Option.ext; intro v
  rw [dget_eq_some_iff _ hnd, dget_eq_some_iff _ h.nodup, List.mem_map]
  constructor
  · rintro ⟨⟨m, w⟩, hm, he⟩
    have hl := h.length _ hm
    rw [h3] at hl
    match m, hl with
    | [a1, a2, a3], _ =>
      simp [sw] at he
      obtain ⟨⟨rfl, rfl, rfl⟩, rfl⟩ := he
      exact hm
  · intro hm
    exact ⟨_, hm, rfl⟩

/-! Non-vacuity -/

/-- `2 a²b² + 2 b²c² + 2 c²a²` (cyclic and symmetric). -/
def exCoeff : Coeff ℤ := ofDict [([2,2,0],2),([2,0,2],2),([0,2,2],2)]

example : exCoeff.WF ∧ (∀ kv ∈ exCoeff.coeffs, kv.2 ≠ 0) := ⟨⟨by decide, by decide⟩, by decide⟩
example : exCoeff.isCyclicDefault = true ∧ exCoeff.isSymmetricDefault = .ok true := by decide
example : (ofDict [([2,1,0],1),([0,2,1],1),([1,0,2],(1:ℤ))]).isSymmetricDefault = .ok false := by decide
example : exCoeff.cancelK.1 = 2 := by decide
example : (ofDict [([3,1],(1:ℤ)),([2,2],5)]).cancelAbc.1 = [2,1] := by decide
example : (exCoeff.sub exCoeff).coeffs = [] := by decide +kernel

end Coeff
end Verif
