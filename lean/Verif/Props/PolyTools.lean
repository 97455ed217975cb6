import Verif.Model.PolyTools
import Mathlib.Tactic.Ring
import Mathlib.Tactic.Linarith
import Mathlib.Data.Rat.Defs
import Mathlib.Data.List.GetD

/-!
# `verify_hom_cyclic` and `verify_is_symmetric` are exact (C74)
-/

namespace Verif.PolyTools

open Verif

set_option linter.unusedSectionVars false

variable {K : Type*} [Zero K] [DecidableEq K]

/-! ## The coefficients of a dense representation -/

/-- The coefficient of `c^k`. -/
def coef1 (x : List K) (k : ℕ) : K := x.reverse.getD k 0

/-- The coefficient of `b^j c^k`. -/
def coef2 (x : List (List K)) (j k : ℕ) : K := coef1 (x.reverse.getD j []) k

/-- The coefficient of `a^i b^j c^k`. -/
def coef3 (x : Dense K) (i j k : ℕ) : K := coef2 (x.reverse.getD i []) j k

/-- The invariants of SymPy's dense representation: no level is empty, no leading zero except in the zero polynomial. -/
structure Stripped (rep : Dense K) : Prop where
  nonempty : rep ≠ []
  inner : ∀ xi ∈ rep, xi ≠ []
  head1 : ∀ xi ∈ rep, ∀ c tail, (c :: tail) ∈ xi → c ≠ 0
  head2 : ∀ xi ∈ rep, ∀ l, xi = [] :: l → l = []
  head3 : ∀ l, rep = [[]] :: l → l = []

/-- All terms have degree `n`. -/
def HomOf (f : ℕ → ℕ → ℕ → K) (n : ℕ) : Prop := ∀ i j k, f i j k ≠ 0 → i + j + k = n

/-- The polynomial is homogeneous. -/
def Homogeneous (f : ℕ → ℕ → ℕ → K) : Prop := ∃ n, HomOf f n

/-- The polynomial does not change under `a → b → c → a`. -/
def Cyclic (f : ℕ → ℕ → ℕ → K) : Prop := ∀ i j k, f i j k = f j k i

theorem getD_reverse_cons {α : Type*} (a d : α) (l : List α) (j : ℕ) :
    (a :: l).reverse.getD j d = if j < l.length then l.reverse.getD j d else if j = l.length then a else d := by
  rw [List.reverse_cons]
  by_cases h : j < l.length
  · rw [if_pos h, List.getD_append _ _ _ _ (by simpa using h)]
  · rw [if_neg h, List.getD_append_right _ _ _ _ (by simpa using h)]
    by_cases h2 : j = l.length
    · simp [h2]
    · rw [if_neg h2, List.length_reverse, List.getD_eq_default]
      simp only [List.length_cons, List.length_nil]; omega

theorem coef1_nil (k : ℕ) : coef1 ([] : List K) k = 0 := by simp [coef1]

theorem coef1_cons (c : K) (l : List K) (k : ℕ) : coef1 (c :: l) k = if k < l.length then coef1 l k else if k = l.length then c else 0 :=
  getD_reverse_cons c 0 l k

theorem coef2_cons (x : List K) (l : List (List K)) (j k : ℕ) :
    coef2 (x :: l) j k = if j < l.length then coef2 l j k else if j = l.length then coef1 x k else 0 := by
  unfold coef2
  rw [getD_reverse_cons]
  split_ifs
  · rfl
  · rfl
  · exact coef1_nil k

theorem coef2_nil (j k : ℕ) : coef2 ([] : List (List K)) j k = 0 := by simp [coef2, coef1_nil]

theorem coef3_cons (x : List (List K)) (l : Dense K) (i j k : ℕ) :
    coef3 (x :: l) i j k = if i < l.length then coef3 l i j k else if i = l.length then coef2 x j k else 0 := by
  unfold coef3
  rw [getD_reverse_cons]
  split_ifs
  · rfl
  · rfl
  · exact coef2_nil j k

theorem coef1_tail_zero {l : List K} (h : ∀ z ∈ l, z = 0) (k : ℕ) : coef1 l k = 0 := by
  unfold coef1
  by_cases hk : k < l.length
  · rw [List.getD_eq_getElem _ _ (by simpa using hk)]
    exact h _ (List.mem_reverse.1 (List.getElem_mem _))
  · rw [List.getD_eq_default]; simpa using hk

theorem coef1_exists {l : List K} {z : K} (hz : z ∈ l) : ∃ k < l.length, coef1 l k = z := by
  obtain ⟨i, hi, h⟩ := List.getElem_of_mem (List.mem_reverse.2 hz)
  refine ⟨i, by simpa using hi, ?_⟩
  unfold coef1
  rw [List.getD_eq_getElem _ _ hi, h]

/-! ## The loops -/

theorem enc_inj {n a b a' b' : ℕ} (hb : b ≤ n) (hb' : b' ≤ n) (h : a * (n + 1) + b = a' * (n + 1) + b') : a = a' ∧ b = b' := by
  have key : ∀ a b, b ≤ n → (a * (n + 1) + b) / (n + 1) = a := by
    intro a b hb
    rw [add_comm, Nat.add_mul_div_right _ _ (Nat.succ_pos n), Nat.div_eq_of_lt (Nat.lt_succ_of_le hb), zero_add]
  have ha : a = a' := by rw [← key a b hb, ← key a' b' hb', h]
  subst ha
  exact ⟨rfl, by omega⟩

/-- The array `coeffs` stores the function `f`. -/
def Stores (n : ℕ) (cs : List K) (f : ℕ → ℕ → K) : Prop := cs.length = (n + 1) ^ 2 ∧ ∀ a b, b ≤ n → cs.getD (a * (n + 1) + b) 0 = f a b

theorem getD_set {l : List K} {p q : ℕ} {c : K} (h : p < l.length) : (l.set p c).getD q 0 = if q = p then c else l.getD q 0 := by
  rw [List.getD_eq_getElem?_getD, List.getD_eq_getElem?_getD, List.getElem?_set]
  by_cases e : p = q
  · subst e; simp [h]
  · simp [e, Ne.symm e]

theorem stores_set {n a b : ℕ} {cs : List K} {f : ℕ → ℕ → K} (h : Stores n cs f) (ha : a ≤ n) (hb : b ≤ n) (c : K) :
    a * (n + 1) + b < cs.length ∧ Stores n (cs.set (a * (n + 1) + b) c) fun x y => if x = a ∧ y = b then c else f x y := by
  have hlt : a * (n + 1) + b < cs.length := by
    rw [h.1]
    calc a * (n + 1) + b ≤ n * (n + 1) + n := by gcongr
      _ < (n + 1) ^ 2 := by ring_nf; omega
  refine ⟨hlt, by simpa using h.1, fun x y hy => ?_⟩
  change _ = if x = a ∧ y = b then c else f x y
  rw [getD_set hlt]
  by_cases e : x * (n + 1) + y = a * (n + 1) + b
  · obtain ⟨rfl, rfl⟩ := enc_inj hy hb e
    simp
  · rw [if_neg e, if_neg (fun h' => e (by rw [h'.1, h'.2])), h.2 x y hy]

/-- The loop over `j`: it stops with `False` exactly when some term has another degree. -/
theorem innerLoop_spec (n mi : ℕ) : ∀ (l : List (List K)) (cs : List K) (f : ℕ → ℕ → K), Stores n cs f → (∀ c tail, (c :: tail) ∈ l → c ≠ 0) →
    ((∃ j k, coef2 l j k ≠ 0 ∧ mi + j + k ≠ n) ∧ innerLoop l ((mi : ℤ) * (n + 1) + l.length) ((n : ℤ) - mi - l.length) cs = .ok none) ∨
    ((∀ j k, coef2 l j k ≠ 0 → mi + j + k = n) ∧ ∃ cs', innerLoop l ((mi : ℤ) * (n + 1) + l.length) ((n : ℤ) - mi - l.length) cs = .ok (some cs') ∧
      Stores n cs' fun a b => if a = mi ∧ mi + b ≤ n ∧ coef2 l b (n - mi - b) ≠ 0 then coef2 l b (n - mi - b) else f a b)
  | [], cs, f, hs, _ => by
    refine .inr ⟨fun j k h => absurd (coef2_nil j k) h, cs, rfl, hs.1, fun a b hb => ?_⟩
    dsimp only
    rw [if_neg (fun h => h.2.2 (coef2_nil _ _))]
    exact hs.2 a b hb
  | xj :: l, cs, f, hs, hh => by
    have hh' : ∀ c tail, (c :: tail) ∈ l → c ≠ 0 := fun c t h => hh c t (List.mem_cons_of_mem _ h)
    have hv : (mi : ℤ) * (n + 1) + (xj :: l).length - 1 = (mi : ℤ) * (n + 1) + l.length := by simp only [List.length_cons]; push_cast; ring
    have hr : (n : ℤ) - mi - (xj :: l).length + 1 = (n : ℤ) - mi - l.length := by simp only [List.length_cons]; push_cast; ring
    match xj with
    | [] =>
      have e : innerLoop ([] :: l) ((mi : ℤ) * (n + 1) + ([] :: l).length) ((n : ℤ) - mi - ([] :: l).length) cs
          = innerLoop l ((mi : ℤ) * (n + 1) + l.length) ((n : ℤ) - mi - l.length) cs := by
        rw [innerLoop, hv, hr]
      have hc : ∀ j k, coef2 ([] :: l) j k = coef2 l j k := by
        intro j k
        rw [coef2_cons]
        split_ifs with h1 h2
        · rfl
        · subst h2
          rw [coef1_nil]; unfold coef2
          rw [List.getD_eq_default _ _ (by simp), coef1_nil]
        · unfold coef2
          rw [List.getD_eq_default _ _ (by simp only [List.length_reverse]; omega), coef1_nil]
      rw [e]; simp only [hc]
      exact innerLoop_spec n mi l cs f hs hh'
    | c :: tail =>
      have hc0 : c ≠ 0 := hh c tail (by simp)
      rw [innerLoop, hv, hr]
      by_cases hbad : (tail.length : ℤ) ≠ (n : ℤ) - mi - l.length ∨ tail.any (fun z => decide (z ≠ 0)) = true
      · rw [if_pos hbad]
        left
        refine ⟨?_, rfl⟩
        rcases hbad with h | h
        · refine ⟨l.length, tail.length, ?_, ?_⟩
          · rw [coef2_cons, if_neg (lt_irrefl _), if_pos rfl, coef1_cons, if_neg (lt_irrefl _), if_pos rfl]; exact hc0
          · intro he; apply h; omega
        · by_cases hd : (tail.length : ℤ) = (n : ℤ) - mi - l.length
          · obtain ⟨z, hz, hz0⟩ := List.any_eq_true.1 h
            obtain ⟨k, hk, hck⟩ := coef1_exists hz
            refine ⟨l.length, k, ?_, by omega⟩
            rw [coef2_cons, if_neg (lt_irrefl _), if_pos rfl, coef1_cons, if_pos hk, hck]
            simpa using hz0
          · refine ⟨l.length, tail.length, ?_, ?_⟩
            · rw [coef2_cons, if_neg (lt_irrefl _), if_pos rfl, coef1_cons, if_neg (lt_irrefl _), if_pos rfl]; exact hc0
            · intro he; apply hd; omega
      · push Not at hbad
        obtain ⟨hlen, htail⟩ := hbad
        have hz : ∀ z ∈ tail, z = 0 := by
          intro z hz
          by_contra h0
          exact htail (List.any_eq_true.2 ⟨z, hz, by simpa using h0⟩)
        have hmi : mi ≤ n := by omega
        have hl : l.length ≤ n := by omega
        obtain ⟨hlt, hst⟩ := stores_set hs hmi hl c
        have hvn : ((mi : ℤ) * (n + 1) + l.length) = ((mi * (n + 1) + l.length : ℕ) : ℤ) := by push_cast; ring
        rw [if_neg (by push Not; exact ⟨hlen, htail⟩), if_neg (by rw [hvn]; push Not; constructor <;> omega)]
        rw [show ((mi : ℤ) * (n + 1) + l.length).toNat = mi * (n + 1) + l.length by rw [hvn]; exact Int.toNat_natCast _]
        have hx : ∀ k, coef1 (c :: tail) k = if k = tail.length then c else 0 := by
          intro k
          rw [coef1_cons, coef1_tail_zero hz]
          split_ifs <;> first | rfl | omega
        rcases innerLoop_spec n mi l _ _ hst hh' with ⟨⟨j, k, h1, h2⟩, h3⟩ | ⟨h1, cs', h2, h3⟩
        · left
          refine ⟨⟨j, k, ?_, h2⟩, h3⟩
          rw [coef2_cons]
          have : j < l.length := by
            by_contra hj
            apply h1; unfold coef2
            rw [List.getD_eq_default _ _ (by simpa using hj), coef1_nil]
          rwa [if_pos this]
        · right
          refine ⟨fun j k h => ?_, cs', h2, h3.1, fun a b hb => ?_⟩
          · rw [coef2_cons] at h
            split_ifs at h with g1 g2
            · exact h1 j k h
            · rw [hx] at h
              split_ifs at h with g3
              · subst g2; omega
              · exact absurd rfl h
            · exact absurd rfl h
          · rw [h3.2 a b hb]
            by_cases hbl : b < l.length
            · simp only [coef2_cons, if_pos hbl, show b ≠ l.length by omega, and_false, if_false]
            · have hb0 : ∀ k, coef2 l b k = 0 := fun k => by
                unfold coef2; rw [List.getD_eq_default _ _ (by simpa using hbl), coef1_nil]
              simp only [hb0, ne_eq, not_true, and_false, if_false, coef2_cons, if_neg hbl]
              by_cases hbe : b = l.length
              · subst hbe
                simp only [if_true, hx, and_true, show n - mi - l.length = tail.length by omega]
                by_cases ha : a = mi
                · rw [if_pos ha, if_pos ⟨ha, by omega, hc0⟩]
                · rw [if_neg ha, if_neg fun h => ha h.1]
              · simp only [hbe, if_false, not_true, and_false]

/-- The loop over `i`. -/
theorem outerLoop_spec (n : ℕ) : ∀ (l : Dense K) (cs : List K) (f : ℕ → ℕ → K), Stores n cs f → (∀ xi ∈ l, ∀ c tail, (c :: tail) ∈ xi → c ≠ 0) →
    ((∃ i j k, coef3 l i j k ≠ 0 ∧ i + j + k ≠ n) ∧ outerLoop n l cs = .ok none) ∨
    (HomOf (coef3 l) n ∧ ∃ cs', outerLoop n l cs = .ok (some cs') ∧
      Stores n cs' fun a b => if a + b ≤ n ∧ coef3 l a b (n - a - b) ≠ 0 then coef3 l a b (n - a - b) else f a b)
  | [], cs, f, hs, _ => by
    have h0 : ∀ i j k, coef3 ([] : Dense K) i j k = 0 := fun i j k => by simp [coef3, coef2_nil]
    refine .inr ⟨fun i j k h => absurd (h0 i j k) h, cs, rfl, hs.1, fun a b hb => ?_⟩
    dsimp only
    rw [if_neg (fun h => h.2 (h0 _ _ _))]
    exact hs.2 a b hb
  | xi :: l, cs, f, hs, hh => by
    have hh' : ∀ xi ∈ l, ∀ c tail, (c :: tail) ∈ xi → c ≠ 0 := fun x hx => hh x (List.mem_cons_of_mem _ hx)
    have hout : ∀ {i j k : ℕ}, ¬ i < l.length → coef3 l i j k = 0 := fun h => by
      unfold coef3; rw [List.getD_eq_default _ _ (by simpa using h), coef2_nil]
    have hstep : outerLoop (n : ℤ) (xi :: l) cs = match innerLoop xi ((l.length : ℤ) * (n + 1) + xi.length) ((n : ℤ) - l.length - xi.length) cs with
        | .error e => .error e
        | .ok none => .ok none
        | .ok (some cs') => outerLoop (n : ℤ) l cs' := by
      rw [outerLoop]
      by_cases h0 : xi.length = 0
      · rw [if_pos h0, List.length_eq_zero_iff.1 h0]; simp [innerLoop]
      · rw [if_neg h0]
        rfl
    rw [hstep]
    rcases innerLoop_spec n l.length xi cs f hs (hh xi (by simp)) with ⟨⟨j, k, h1, h2⟩, h3⟩ | ⟨h1, cs1, h2, h3⟩
    · left
      refine ⟨⟨l.length, j, k, ?_, h2⟩, by rw [h3]⟩
      rw [coef3_cons, if_neg (lt_irrefl _), if_pos rfl]; exact h1
    · rw [h2]
      rcases outerLoop_spec n l cs1 _ h3 hh' with ⟨⟨i, j, k, g1, g2⟩, g3⟩ | ⟨g1, cs', g2, g3⟩
      · left
        refine ⟨⟨i, j, k, ?_, g2⟩, g3⟩
        rw [coef3_cons]
        have : i < l.length := by
          by_contra h; exact g1 (hout h)
        rwa [if_pos this]
      · right
        refine ⟨fun i j k h => ?_, cs', g2, g3.1, fun a b hb => ?_⟩
        · rw [coef3_cons] at h
          split_ifs at h with e1 e2
          · exact g1 i j k h
          · subst e2; exact h1 j k h
          · exact absurd rfl h
        · rw [g3.2 a b hb]
          by_cases ha : a < l.length
          · simp only [coef3_cons, if_pos ha, show a ≠ l.length by omega, false_and, if_false]
          · simp only [hout ha, ne_eq, not_true, and_false, if_false, coef3_cons, if_neg ha]
            by_cases hae : a = l.length
            · subst hae; simp only [if_true, true_and, ne_eq]
            · simp only [hae, not_true, and_false, false_and, if_false]

/-- The comparison loop decides cyclicity. -/
theorem cyclicCheck_iff {n : ℕ} {cs : List K} {f : ℕ → ℕ → ℕ → K} (hf : HomOf f n) (h : ∀ a b, a + b ≤ n → cs.getD (a * (n + 1) + b) 0 = f a b (n - a - b)) :
    cyclicCheck n cs = true ↔ Cyclic f := by
  have hget : ∀ i j k, i + j + k = n → cs.getD (i * (n + 1) + j) 0 = f i j k := fun i j k e => by
    rw [h i j (by omega)]; congr 1; omega
  simp only [cyclicCheck, List.all_eq_true, List.mem_filter, List.mem_range, decide_eq_true_eq, Bool.and_eq_true]
  constructor
  · intro hc
    have key : ∀ i j k, i + j + k = n → j ≤ i → k ≤ i → f i j k = f j k i ∧ f i j k = f k i j := by
      intro i j k e h1 h2
      have := hc i ⟨by omega, by omega⟩ j ⟨by omega, by omega⟩
      rw [show n - i - j = k by omega, hget i j k e, hget j k i (by omega), hget k i j (by omega)] at this
      exact this
    intro i j k
    by_cases e : i + j + k = n
    · rcases le_total j i with a1 | a1 <;> rcases le_total k i with a2 | a2 <;> rcases le_total k j with a3 | a3
      all_goals first
        | exact (key i j k e (by omega) (by omega)).1
        | (have q := key j k i (by omega) (by omega) (by omega); exact q.2.symm)
        | (have q := key k i j (by omega) (by omega) (by omega); exact q.1.symm.trans q.2)
    · have z : ∀ i j k, i + j + k ≠ n → f i j k = 0 := fun i j k h => by
        by_contra h0; exact h (hf i j k h0)
      rw [z i j k e, z j k i (by omega)]
  · intro hc i hi j hj
    have e : i + j + (n - i - j) = n := by omega
    rw [hget i j (n - i - j) e, hget j (n - i - j) i (by omega), hget (n - i - j) i j (by omega)]
    exact ⟨hc _ _ _, (hc _ _ _).trans (hc _ _ _)⟩

/-- The fast test never raises, and it is exact: the first answer says whether the polynomial is homogeneous, the second whether it is homogeneous and
cyclic. -/
theorem verifyFast_exact {rep : Dense K} (hs : Stripped rep) :
    ∃ h c, verifyFast rep = .ok (h, c) ∧ (h = true ↔ Homogeneous (coef3 rep)) ∧ (c = true ↔ Homogeneous (coef3 rep) ∧ Cyclic (coef3 rep)) := by
  obtain ⟨xi, rest, rfl⟩ := List.exists_cons_of_ne_nil hs.nonempty
  obtain ⟨x, r0, rfl⟩ := List.exists_cons_of_ne_nil (hs.inner xi (by simp))
  have hlead : ∀ c tail, x = c :: tail → coef3 ((x :: r0) :: rest) rest.length r0.length tail.length ≠ 0 := by
    rintro c tail rfl
    rw [coef3_cons, if_neg (lt_irrefl _), if_pos rfl, coef2_cons, if_neg (lt_irrefl _), if_pos rfl, coef1_cons, if_neg (lt_irrefl _), if_pos rfl]
    exact hs.head1 _ (List.mem_cons_self) c tail (by simp)
  match x, hs, hlead with
  | [], hs, _ =>
    have e1 : r0 = [] := hs.head2 _ (List.mem_cons_self) r0 rfl
    subst e1
    have e2 : rest = [] := hs.head3 rest rfl
    subst e2
    have h0 : ∀ i j k, coef3 ([[([] : List K)]]) i j k = 0 := fun i j k => by
      rw [coef3_cons]
      split_ifs with h1 h2
      · simp at h1
      · rw [coef2_cons]
        split_ifs with h3 h4
        · simp at h3
        · exact coef1_nil k
        · rfl
      · rfl
    have hom : Homogeneous (coef3 ([[([] : List K)]])) := ⟨0, fun i j k h => absurd (h0 i j k) h⟩
    refine ⟨true, true, by simp [verifyFast], by simp [hom], by simp only [true_iff]; exact ⟨hom, fun i j k => by rw [h0, h0]⟩⟩
  | c :: tail, hs, hlead =>
    have hl := hlead c tail rfl
    let n := rest.length + r0.length + tail.length
    have hn : ((rest.length + 1 : ℕ) : ℤ) + (r0.length + 1 : ℕ) + (c :: tail).length - 3 = (n : ℤ) := by
      simp only [List.length_cons, n]; push_cast; ring
    have hfix : ∀ m, HomOf (coef3 (((c :: tail) :: r0) :: rest)) m → m = n := fun m hm => (hm _ _ _ hl).symm
    simp only [verifyFast, hn]
    by_cases h1 : (n : ℤ) < 1
    · have hr : rest = [] := List.length_eq_zero_iff.1 (by omega)
      have hr0 : r0 = [] := List.length_eq_zero_iff.1 (by omega)
      have ht : tail = [] := List.length_eq_zero_iff.1 (by omega)
      subst hr hr0 ht
      have h0 : ∀ i j k, coef3 [[[c]]] i j k = if i = 0 ∧ j = 0 ∧ k = 0 then c else 0 := by
        intro i j k
        rw [coef3_cons]
        by_cases e1 : i = 0
        · subst e1
          simp only [List.length_nil, lt_irrefl, if_false, if_true, coef2_cons, not_lt_zero, true_and]
          by_cases e2 : j = 0
          · subst e2
            simp only [if_true, coef1_cons, List.length_nil, not_lt_zero, if_false, true_and]
          · simp [e2]
        · simp [e1]
      have hom : Homogeneous (coef3 [[[c]]]) := ⟨0, fun i j k h => by
        rw [h0] at h
        split_ifs at h with e
        · omega
        · exact absurd rfl h⟩
      refine ⟨true, true, by rw [if_pos h1], by simp [hom], ?_⟩
      simp only [true_iff]
      refine ⟨hom, fun i j k => ?_⟩
      rw [h0, h0]
      by_cases e : i = 0 ∧ j = 0 ∧ k = 0
      · rw [if_pos e, if_pos ⟨e.2.1, e.2.2, e.1⟩]
      · rw [if_neg e, if_neg fun h => e ⟨h.2.2, h.1, h.2.1⟩]
    · rw [if_neg h1]
      have hrep : Stores n (List.replicate (((n : ℤ).toNat + 1) ^ 2) (0 : K)) fun _ _ => 0 := by
        refine ⟨by simp, fun a b _ => ?_⟩
        rw [List.getD_eq_getElem?_getD, List.getElem?_replicate]
        split_ifs <;> rfl
      rcases outerLoop_spec n (((c :: tail) :: r0) :: rest) _ _ hrep hs.head1 with ⟨⟨i, j, k, g1, g2⟩, g3⟩ | ⟨g1, cs', g2, g3⟩
      · have hnot : ¬ Homogeneous (coef3 (((c :: tail) :: r0) :: rest)) := by
          rintro ⟨m, hm⟩
          have := hm i j k g1
          rw [hfix m hm] at this
          exact g2 this
        exact ⟨false, false, by rw [g3], by simp [hnot], by simp [hnot]⟩
      · have hom : Homogeneous (coef3 (((c :: tail) :: r0) :: rest)) := ⟨n, g1⟩
        refine ⟨true, cyclicCheck n cs', by rw [g2]; rfl, by simp [hom], ?_⟩
        rw [cyclicCheck_iff g1]
        · exact ⟨fun h => ⟨hom, h⟩, fun h => h.2⟩
        · intro a b hab
          rw [g3.2 a b (by omega)]
          dsimp only
          by_cases h0 : coef3 (((c :: tail) :: r0) :: rest) a b (n - a - b) = 0
          · rw [if_neg (fun h => h.2 h0), h0]
          · rw [if_pos ⟨hab, h0⟩]

/-! ## The slow algorithm -/

/-- The coefficient of a monomial in a list of terms. -/
def coefT (terms : List (List ℕ × K)) (i j k : ℕ) : K := (dget terms [i, j, k]).getD 0

theorem slow_fold (n : ℕ) : ∀ (terms : List (List ℕ × K)) (cs : List K) (f : ℕ → ℕ → K), Stores n cs f → (∀ t ∈ terms, t.1.length = 3) →
    ((∃ t ∈ terms, t.1.sum ≠ n) ∧ terms.foldl (slowStep n) (some cs) = none) ∨
    ((∀ t ∈ terms, t.1.sum = n) ∧ ∃ cs', terms.foldl (slowStep n) (some cs) = some cs' ∧
      Stores n cs' fun a b => (dget terms.reverse [a, b, n - a - b]).getD (f a b)) := by
  intro terms
  induction terms with
  | nil => intro cs f hs _; exact .inr ⟨by simp, cs, rfl, by simpa [dget] using hs⟩
  | cons t terms ih =>
    intro cs f hs hl
    have hnone : ∀ l : List (List ℕ × K), l.foldl (slowStep n) none = none := by
      intro l
      induction l with
      | nil => rfl
      | cons a l ih => exact ih
    by_cases ht : t.1.sum = n
    · obtain ⟨m, c⟩ := t
      have h3 := hl (m, c) (by simp)
      match m, h3, ht with
      | [a, b, d], _, ht =>
        have hsum : a + b + d = n := by simpa [add_assoc] using ht
        obtain ⟨_, hst⟩ := stores_set hs (show a ≤ n by omega) (show b ≤ n by omega) c
        have hstep : slowStep n (some cs) ([a, b, d], c) = some (cs.set (a * (n + 1) + b) c) := by
          have : ([a, b, d], c).1.sum = n := ht
          simp only [slowStep, Option.bind_some, this, ne_eq, not_true, if_false, List.getD_cons_zero, List.getD_cons_succ]
        rw [List.foldl_cons, hstep]
        rcases ih _ _ hst (fun t h => hl t (by simp [h])) with ⟨⟨t, h1, h2⟩, h4⟩ | ⟨h1, cs', h2, h4⟩
        · exact .inl ⟨⟨t, by simp [h1], h2⟩, h4⟩
        · refine .inr ⟨fun t h => ?_, cs', h2, h4.1, fun x y hy => ?_⟩
          · rcases List.mem_cons.1 h with rfl | h
            · exact ht
            · exact h1 t h
          · rw [h4.2 x y hy, List.reverse_cons]
            dsimp only
            have happ : ∀ (l : List (List ℕ × K)) (k k' : List ℕ) (v : K), dget (l ++ [(k', v)]) k = (dget l k).or (if k' = k then some v else none) := by
              intro l k k' v
              induction l with
              | nil => simp [dget]
              | cons p l ih =>
                simp only [List.cons_append, dget]
                split_ifs <;> simp_all
            rw [happ]
            cases hd : dget terms.reverse [x, y, n - x - y] with
            | some v => simp
            | none =>
              simp only [Option.none_or, Option.getD_none]
              by_cases e : x = a ∧ y = b
              · obtain ⟨rfl, rfl⟩ := e
                rw [if_pos ⟨rfl, rfl⟩, if_pos (by congr 3; omega)]; rfl
              · rw [if_neg e, if_neg (fun h => by simp only [List.cons.injEq] at h; exact e ⟨h.1.symm, h.2.1.symm⟩)]; rfl
    · refine .inl ⟨⟨t, by simp, ht⟩, ?_⟩
      rw [List.foldl_cons]
      have : slowStep n (some cs) t = none := by simp [slowStep, ht]
      rw [this, hnone]

/-- The slow test is exact as well, for a polynomial in three variables given by its terms. -/
theorem verifySlow_exact {terms : List (List ℕ × K)} (hne : terms ≠ []) (hl : ∀ t ∈ terms, t.1.length = 3) (hnd : (dkeys terms).Nodup)
    (hz : ∀ t ∈ terms, t.2 ≠ 0) :
    ∃ h c, verifySlow 3 terms = .ok (h, c) ∧ (h = true ↔ Homogeneous (coefT terms)) ∧
      (c = true ↔ Homogeneous (coefT terms) ∧ Cyclic (coefT terms)) := by
  obtain ⟨t0, l0, rfl⟩ := List.exists_cons_of_ne_nil hne
  let n := t0.1.sum
  let terms := t0 :: l0
  have hmem : ∀ t ∈ terms, dget terms t.1 = some t.2 := fun t ht => (dget_eq_some_iff terms hnd t.1 t.2).2 (by obtain ⟨a, b⟩ := t; exact ht)
  have hcoef : ∀ t ∈ terms, ∃ i j k, t.1 = [i, j, k] ∧ coefT terms i j k = t.2 := by
    intro t ht
    have h3 := hl t ht
    have hm := hmem t ht
    obtain ⟨m, c⟩ := t
    match m, h3, hm with
    | [i, j, k], _, hm => exact ⟨i, j, k, rfl, by simp only [coefT]; rw [hm]; rfl⟩
  have hfix : ∀ m, HomOf (coefT terms) m → m = n := by
    intro m hm
    obtain ⟨i, j, k, h1, h2⟩ := hcoef t0 (by simp [terms])
    have := hm i j k (by rw [h2]; exact hz t0 (by simp))
    rw [← this]; simp only [n]; rw [h1]; simp [add_assoc]
  have hrep : Stores n (List.replicate ((n + 1) ^ 2) (0 : K)) fun _ _ => 0 := by
    refine ⟨by simp, fun a b _ => ?_⟩
    rw [List.getD_eq_getElem?_getD, List.getElem?_replicate]
    split_ifs <;> rfl
  have hv : verifySlow 3 terms = match terms.foldl (slowStep n) (some (List.replicate ((n + 1) ^ 2) 0)) with
      | none => .ok (false, false)
      | some cs => .ok (true, cyclicCheck n cs) := rfl
  rw [show t0 :: l0 = terms from rfl, hv]
  rcases slow_fold n terms _ _ hrep hl with ⟨⟨t, h1, h2⟩, h3⟩ | ⟨h1, cs', h2, h3⟩
  · have hnot : ¬ Homogeneous (coefT terms) := by
      rintro ⟨m, hm⟩
      obtain ⟨i, j, k, e1, e2⟩ := hcoef t h1
      have := hm i j k (by rw [e2]; exact hz t h1)
      rw [hfix m hm] at this
      apply h2; rw [e1, ← this]; simp [add_assoc]
    exact ⟨false, false, by rw [h3], by simp [hnot], by simp [hnot]⟩
  · have hom : HomOf (coefT terms) n := by
      intro i j k h
      unfold coefT at h
      cases hd : dget terms [i, j, k] with
      | none => rw [hd] at h; exact absurd rfl h
      | some v =>
        have := h1 _ ((dget_eq_some_iff terms hnd _ _).1 hd)
        simpa [add_assoc] using this
    refine ⟨true, cyclicCheck n cs', by rw [h2], by simp only [true_iff]; exact ⟨n, hom⟩, ?_⟩
    rw [cyclicCheck_iff hom]
    · exact ⟨fun h => ⟨⟨n, hom⟩, h⟩, fun h => h.2⟩
    · intro a b hab
      rw [h3.2 a b (by omega)]
      dsimp only
      unfold coefT
      congr 1
      have hnd' : (dkeys terms.reverse).Nodup := by
        have : dkeys terms.reverse = (dkeys terms).reverse := by simp [dkeys]
        rw [this]; exact List.nodup_reverse.2 hnd
      cases hd : dget terms [a, b, n - a - b] with
      | some v =>
        rw [dget_eq_some_iff _ hnd', List.mem_reverse, ← dget_eq_some_iff _ hnd]; exact hd
      | none =>
        rw [dget_eq_none_iff] at hd ⊢
        intro h; apply hd
        simp only [dkeys, List.map_reverse, List.mem_reverse] at h ⊢; exact h

/-- The zero polynomial, which SymPy lists as one term with coefficient zero. -/
theorem verifySlow_zero : verifySlow 3 [([0, 0, 0], (0 : K))] = .ok (true, true) := by
  simp [verifySlow, slowStep, cyclicCheck]

/-- For another number of variables the slow test decides homogeneity; the second answer is always `False`. -/
theorem verifySlow_other {nvars : ℕ} (h3 : nvars ≠ 3) {terms : List (List ℕ × K)} (hne : terms ≠ []) :
    ∃ h, verifySlow nvars terms = .ok (h, false) ∧ (h = true ↔ ∃ n, ∀ t ∈ terms, t.1.sum = n) := by
  obtain ⟨t0, l0, rfl⟩ := List.exists_cons_of_ne_nil hne
  by_cases h : ((t0 :: l0).all fun t => decide (t.1.sum = t0.1.sum)) = true
  · refine ⟨true, by simp only [verifySlow, h3, ne_eq, not_false_eq_true, if_true, h], ?_⟩
    simp only [true_iff]
    exact ⟨t0.1.sum, fun t ht => by simpa using List.all_eq_true.1 h t ht⟩
  · refine ⟨false, by simp only [verifySlow, h3, ne_eq, not_false_eq_true, if_true, h]; rfl, ?_⟩
    simp only [Bool.false_eq_true, false_iff]
    rintro ⟨n, hn⟩
    refine h (List.all_eq_true.2 fun t ht => ?_)
    rw [decide_eq_true_eq, hn t ht, hn t0 (by simp)]

/-- The two algorithms agree on every polynomial that is not zero. -/
theorem fast_eq_slow {rep : Dense K} {terms : List (List ℕ × K)} (hs : Stripped rep) (hne : terms ≠ []) (hl : ∀ t ∈ terms, t.1.length = 3)
    (hnd : (dkeys terms).Nodup) (hz : ∀ t ∈ terms, t.2 ≠ 0) (same : ∀ i j k, coef3 rep i j k = coefT terms i j k) :
    verifyFast rep = verifySlow 3 terms := by
  obtain ⟨h, c, e, h1, h2⟩ := verifyFast_exact hs
  obtain ⟨h', c', e', h1', h2'⟩ := verifySlow_exact hne hl hnd hz
  have : coef3 rep = coefT terms := by funext i j k; exact same i j k
  rw [this] at h1 h2
  have eh : h = h' := Bool.eq_iff_iff.2 (h1.trans h1'.symm)
  have ec : c = c' := Bool.eq_iff_iff.2 (h2.trans h2'.symm)
  rw [e, e', eh, ec]

/-! ## Symmetry -/

/-- For a cyclic polynomial `verify_is_symmetric` decides invariance under all permutations. -/
theorem verifySymmetric_exact {terms : List (List ℕ × K)} (hl : ∀ t ∈ terms, t.1.length = 3) (hnd : (dkeys terms).Nodup)
    (hcyc : Cyclic (coefT terms)) : ∃ b, verifySymmetric terms = .ok b ∧
      (b = true ↔ ∀ i j k, coefT terms i j k = coefT terms j i k ∧ coefT terms i j k = coefT terms j k i) := by
  have hdict : ∀ k, dget (dictOf terms) k = dget terms k := fun k => dget_dictOf_of_nodup terms hnd k
  have hmem : ∀ t : List ℕ × K, t ∈ dictOf terms ↔ t ∈ terms := by
    rintro ⟨m, c⟩
    rw [← dget_eq_some_iff _ (dkeys_nodup_dictOf terms), hdict, dget_eq_some_iff _ hnd]
  have hno : ((dictOf terms).any fun t => decide (t.1.length ≠ 3)) = false := by
    rw [List.any_eq_false]
    intro t ht
    simpa using hl t ((hmem t).1 ht)
  refine ⟨(dictOf terms).all fun t => decide ((dget (dictOf terms) [t.1.getD 1 0, t.1.getD 0 0, t.1.getD 2 0]).getD 0 = t.2), by
    simp only [verifySymmetric, hno]; simp only [Bool.false_eq_true, if_false], ?_⟩
  simp only [List.all_eq_true, decide_eq_true_eq, hdict]
  constructor
  · intro h i j k
    refine ⟨?_, hcyc i j k⟩
    have key : ∀ i j k, coefT terms i j k ≠ 0 → coefT terms j i k = coefT terms i j k := by
      intro i j k hne
      unfold coefT at hne ⊢
      cases hd : dget terms [i, j, k] with
      | none => rw [hd] at hne; exact absurd rfl hne
      | some v =>
        have := h ([i, j, k], v) ((hmem _).2 ((dget_eq_some_iff _ hnd _ _).1 hd))
        simpa using this
    by_cases h1 : coefT terms i j k = 0
    · by_cases h2 : coefT terms j i k = 0
      · rw [h1, h2]
      · rw [← key j i k h2]
    · exact (key i j k h1).symm
  · intro h t ht
    obtain ⟨m, c⟩ := t
    have h3 := hl _ ((hmem _).1 ht)
    have hd := (dget_eq_some_iff _ hnd _ _).2 ((hmem _).1 ht)
    match m, h3, hd with
    | [i, j, k], _, hd =>
      have := (h i j k).1
      unfold coefT at this
      rw [hd] at this
      simpa using this.symm

/-! ## Examples -/

/-- `a^2 + b^2 + c^2 - a*b - b*c - c*a` as SymPy stores it -/
def exRep : Dense ℚ := [[[1]], [[-1], [-1, 0]], [[1], [-1, 0], [1, 0, 0]]]

theorem ex_stripped : Stripped exRep where
  nonempty := by decide
  inner := by decide
  head1 := by
    intro xi hxi c tail h
    simp only [exRep, List.mem_cons, List.not_mem_nil, or_false] at hxi
    rcases hxi with rfl | rfl | rfl <;> simp only [List.mem_cons, List.not_mem_nil, or_false, List.cons.injEq] at h
    · rw [h.1]; decide
    · rcases h with h | h <;> rw [h.1] <;> decide
    · rcases h with h | h | h <;> rw [h.1] <;> decide
  head2 := by
    intro xi hxi l h
    simp only [exRep, List.mem_cons, List.not_mem_nil, or_false] at hxi
    rcases hxi with rfl | rfl | rfl <;> simp at h
  head3 := by intro l h; simp [exRep] at h

theorem ex_fast : verifyFast exRep = .ok (true, true) ∧ verifyFast ([[[1]], [[-1], [-1, 0]], [[1], [1, 0], [1, 0, 0]]] : Dense ℚ) = .ok (true, false) ∧
    verifyFast ([[[1]], [[1]]] : Dense ℚ) = .ok (false, false) := by decide +kernel

/-- The terms of the same polynomial. -/
def exTerms : List (List ℕ × ℚ) := [([2, 0, 0], 1), ([1, 1, 0], -1), ([1, 0, 1], -1), ([0, 2, 0], 1), ([0, 1, 1], -1), ([0, 0, 2], 1)]

theorem ex_slow : verifySlow 3 exTerms = .ok (true, true) ∧ (dkeys exTerms).Nodup ∧ (∀ t ∈ exTerms, t.1.length = 3) ∧ (∀ t ∈ exTerms, t.2 ≠ 0) ∧
    verifySymmetric exTerms = .ok true ∧ verifySymmetric ([([2, 1, 0], 1), ([0, 2, 1], 1), ([1, 0, 2], 1)] : List (List ℕ × ℚ)) = .ok false ∧
    verifySlow 2 ([([1, 0], 1), ([0, 1], 1)] : List (List ℕ × ℚ)) = .ok (true, false) := by decide +kernel

/-- The second answer is also `False` for a cyclic polynomial that is not homogeneous, here `a + b + c + 1`. -/
theorem cyclic_not_homogeneous : verifyFast ([[[1]], [[1], [1, 1]]] : Dense ℚ) = .ok (false, false) ∧ Cyclic (coef3 ([[[1]], [[1], [1, 1]]] : Dense ℚ)) := by
  refine ⟨by decide +kernel, fun i j k => ?_⟩
  have h : ∀ i j k, coef3 ([[[1]], [[1], [1, 1]]] : Dense ℚ) i j k =
      if (i = 1 ∧ j = 0 ∧ k = 0) ∨ (i = 0 ∧ j = 1 ∧ k = 0) ∨ (i = 0 ∧ j = 0 ∧ k = 1) ∨ (i = 0 ∧ j = 0 ∧ k = 0) then 1 else 0 := by
    intro i j k
    rcases i with _ | _ | i <;> rcases j with _ | _ | j <;> rcases k with _ | _ | k <;> simp [coef3, coef2, coef1]
  rw [h, h]
  congr 1
  apply propext
  omega

end Verif.PolyTools
