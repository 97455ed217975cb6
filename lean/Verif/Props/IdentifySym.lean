import Verif.Model.IdentifySym
import Verif.Proofs.SymEval
import Mathlib.Data.List.Permutation

/-!
# C101: the symmetry group found for one polynomial
-/

set_option linter.unusedSectionVars false

namespace Verif.IdentifySym

open Verif Coeff

variable {K : Type*} [DecidableEq K]

/-! ### The candidate generators are permutations -/

theorem range_shift (k n : ℕ) : List.range (k + n) = List.range k ++ (List.range n).map (· + k) := by
  rw [List.range_add]
  congr 1
  exact List.map_congr_left fun i _ => Nat.add_comm _ _

theorem homSwap_perm (n : ℕ) (hn : 2 ≤ n) : (homSwap n).Perm (List.range n) := by
  obtain ⟨k, rfl⟩ : ∃ k, n = 2 + k := ⟨n - 2, by omega⟩
  rw [range_shift 2 k]
  unfold homSwap
  rw [Nat.add_sub_cancel_left]
  exact List.Perm.append_right _ (by decide)

theorem homRot_perm (n : ℕ) (hn : 2 ≤ n) : (homRot n).Perm (List.range n) := by
  obtain ⟨k, rfl⟩ : ∃ k, n = k + 1 + 1 := ⟨n - 2, by omega⟩
  unfold homRot
  rw [List.range_succ]
  have h := cyclicGens_perm (k + 1) (by omega) ((List.range (k + 1 - 1)).map (· + 1) ++ [0]) (by simp [cyclicGens])
  exact List.Perm.append_right _ h

theorem alternatingGens_perm (n : ℕ) (hn : 3 < n) : ∀ p ∈ alternatingGens n, p.Perm (List.range n) := by
  intro p hp
  simp only [alternatingGens, List.mem_cons, List.not_mem_nil, or_false] at hp
  rcases hp with rfl | rfl
  · obtain ⟨k, rfl⟩ : ∃ k, n = 3 + k := ⟨n - 3, by omega⟩
    rw [range_shift 3 k, Nat.add_sub_cancel_left]
    exact List.Perm.append_right _ (by decide)
  · split_ifs with h
    · exact cyclicGens_perm n (by omega) _ (by simp [cyclicGens])
    · obtain ⟨k, rfl⟩ : ∃ k, n = 2 + k := ⟨n - 2, by omega⟩
      rw [range_shift 2 k, Nat.add_sub_cancel_left, List.append_assoc]
      have : List.range 2 ++ (List.range k).map (· + 2) = [0] ++ ([1] ++ (List.range k).map (· + 2)) := rfl
      rw [this]
      exact List.Perm.append_left _ List.perm_append_comm

theorem symmetricGens_perm (n : ℕ) (gens : List (List ℕ)) (h : symmetricGens n = some gens) : ∀ p ∈ gens, p.Perm (List.range n) := by
  match n, h with
  | 1, h => cases h; decide
  | 2, h => cases h; decide
  | k + 3, h =>
    cases h
    intro p hp
    simp only [List.mem_cons, List.not_mem_nil, or_false] at hp
    rcases hp with rfl | rfl
    · exact cyclicGens_perm (k + 3) (by omega) _ (by simp [cyclicGens])
    · exact homSwap_perm (k + 3) (by omega)

/-! ### What the permutations do -/

theorem papply_homSwap (a b : ℕ) (l : List ℕ) (n : ℕ) (h : l.length + 2 = n) : papply (homSwap n) (a :: b :: l) = b :: a :: l := by
  subst h
  exact papply_swap a b l _ (by omega)

theorem papply_append_last (p : List ℕ) (n : ℕ) (hp : ∀ i ∈ p, i < n) (l : List ℕ) (t : ℕ) (hl : l.length = n) :
    papply (p ++ [n]) (l ++ [t]) = papply p l ++ [t] := by
  unfold papply
  rw [List.map_append]
  congr 1
  · apply List.map_congr_left
    intro i hi
    have := hp i hi
    rw [List.getD_eq_getElem?_getD, List.getD_eq_getElem?_getD, List.getElem?_append_left (by omega)]
  · simp [List.getD_eq_getElem?_getD, ← hl]

theorem papply_homRot (a : ℕ) (l : List ℕ) (t n : ℕ) (h : l.length + 2 = n) : papply (homRot n) (a :: l ++ [t]) = l ++ [a] ++ [t] := by
  subst h
  have e : homRot (l.length + 2) = ((List.range l.length).map (· + 1) ++ [0]) ++ [l.length + 1] := rfl
  rw [e, papply_append_last _ (l.length + 1) _ (a :: l) t (by simp), papply_rot a l _ rfl]
  intro i hi
  simp only [List.mem_append, List.mem_map, List.mem_range, List.mem_singleton] at hi
  rcases hi with ⟨j, hj, rfl⟩ | rfl <;> omega

theorem papply_fixFirst (a b : ℕ) (l : List ℕ) (n : ℕ) (h : l.length = n) :
    papply ([0] ++ (List.range n).map (· + 2) ++ [1]) (a :: b :: l) = a :: (l ++ [b]) := by
  subst h
  unfold papply
  simp only [List.singleton_append, List.cons_append, List.map_cons, List.map_append, List.map_map, List.map_nil]
  have : ((fun j => (a :: b :: l).getD j default) ∘ fun x => x + 2) = fun j => l.getD j default := by
    funext j; simp [List.getD_eq_getElem?_getD]
  rw [this]
  have := papply_range l
  unfold papply at this
  rw [this]; rfl

/-- A function of lists of length `N` that is unchanged by the rotation and by exchanging the first two entries is unchanged by every
rearrangement. -/
theorem perm_inv {V : Type*} (N : ℕ) (f : List ℕ → V) (hrot1 : ∀ a l, l.length + 1 = N → f (l ++ [a]) = f (a :: l))
    (hswap : ∀ a b l, l.length + 2 = N → f (b :: a :: l) = f (a :: b :: l)) :
    ∀ l l' : List ℕ, l.length = N → l.Perm l' → f l = f l' := by
  have hrot : ∀ (l0 l : List ℕ), (l0 ++ l).length = N → f (l ++ l0) = f (l0 ++ l) := by
    intro l0
    induction l0 with
    | nil => intro l _; simp
    | cons a l0 ih =>
      intro l hl
      have := ih (l ++ [a]) (by simp at hl ⊢; omega)
      rw [List.append_assoc, List.singleton_append] at this
      rw [this, ← List.append_assoc, hrot1 a (l0 ++ l) (by simp at hl ⊢; omega)]; rfl
  have key : ∀ (l l' : List ℕ), l.Perm l' → ∀ l0 : List ℕ, (l0 ++ l).length = N → f (l0 ++ l) = f (l0 ++ l') := by
    intro l l' hp
    induction hp with
    | nil => intro l0 _; rfl
    | cons x hp ih =>
      intro l0 hl
      have := ih (l0 ++ [x]) (by simpa using hl)
      simpa using this
    | swap x y l =>
      intro l0 hl
      rw [← hrot l0 (y :: x :: l) hl, ← hrot l0 (x :: y :: l) (by simpa using hl)]
      exact hswap x y (l ++ l0) (by simp at hl ⊢; omega)
    | trans h1 h2 ih1 ih2 =>
      intro l0 hl
      rw [ih1 l0 hl, ih2 l0 (by simpa [h1.length_eq] using hl)]
  intro l l' hl hp
  exact key l l' hp [] (by simpa using hl)

/-! ### Soundness -/

/-- Coefficients unchanged by a permutation of the exponents: the value is unchanged by the permutation of the point. -/
theorem evalDict_of_inv [CommRing K] [Inhabited K] (c : Coeff K) (h : c.WF) {p : List ℕ} (hp : p.Perm (List.range c.nvars))
    (hinv : ∀ m : List ℕ, m.length = c.nvars → c.call (papply p m) = c.call m) (x : List K) (hx : x.length = c.nvars) :
    evalDict c.coeffs (papply p x) = evalDict c.coeffs x := by
  rw [← evalDict_filter c.coeffs (papply p x), ← evalDict_filter c.coeffs x]
  set d := c.coeffs.filter fun kv => decide (kv.2 ≠ 0) with hd
  have hlen : ∀ t ∈ d, t.1.length = c.nvars := fun t ht => h.length t (List.mem_filter.1 ht).1
  have hnd : d.Nodup := (List.Nodup.of_map _ (by simpa [dkeys] using h.nodup : (c.coeffs.map Prod.fst).Nodup)).filter _
  have hnd' : (d.map fun t => (papply p t.1, t.2)).Nodup := by
    rw [List.nodup_map_iff_inj_on hnd]
    intro a ha b hb hab
    simp only [Prod.mk.injEq] at hab
    exact Prod.ext (papply_injective hp (hlen a ha) (hlen b hb) hab.1) hab.2
  have hsub : (d.map fun t => (papply p t.1, t.2)) ⊆ d := by
    intro t ht
    obtain ⟨s, hs, rfl⟩ := List.mem_map.1 ht
    have h0 := List.mem_filter.1 hs
    have hv : s.2 ≠ 0 := by simpa using h0.2
    have e : c.call (papply p s.1) = s.2 := by rw [hinv s.1 (hlen s hs)]; exact call_eq_of_mem h h0.1
    have := mem_of_call_ne_zero h (k := papply p s.1) (by rw [e]; exact hv)
    rw [e] at this
    exact List.mem_filter.2 ⟨this, by simpa using hv⟩
  have hperm : (d.map fun t => (papply p t.1, t.2)).Perm d := (List.subperm_of_subset hnd' hsub).perm_of_length_le (by simp)
  have e1 : evalDict d (papply p x) = evalDict (d.map fun t => (papply p t.1, t.2)) (papply p x) := by
    unfold evalDict
    exact (hperm.map _).sum_eq.symm
  rw [e1]
  unfold evalDict
  rw [List.map_map]
  congr 1
  apply List.map_congr_left
  intro t ht
  simp only [Function.comp]
  rw [evalMonom_papply hp t.1 x (hlen t ht) hx]

theorem identify_cases [Zero K] (c : Coeff K) (h : c.WF) (hn : c.nvars ≠ 0) (hom : Bool) :
    ∃ gens, identify c hom = .ok gens ∧ (∀ p ∈ gens, p.Perm (List.range c.nvars)) ∧ c.isCyclic gens = true := by
  obtain ⟨b, hb, -⟩ := isSymmetricDefault_iff c h hn
  have hid : c.isCyclic [List.range c.nvars] = true := by
    rw [isCyclic_iff c h _ (by simp)]
    intro g hg
    refine invariant_of_generated c [List.range c.nvars] (by simp) ?_ hg
    intro p hp m hm
    rw [List.mem_singleton.1 hp, IsPermGroup.papply_one hm]
  unfold identify
  rw [hb]
  cases b with
  | true =>
    unfold isSymmetricDefault at hb
    cases hg : symmetricGens c.nvars with
    | none => rw [hg] at hb; cases hb
    | some gens =>
      rw [hg] at hb
      exact ⟨gens, rfl, symmetricGens_perm _ gens hg, Except.ok.inj hb⟩
  | false =>
    simp only
    split_ifs with h1 h2 h3 h4 h5
    · exact ⟨_, rfl, cyclicGens_perm _ hn, h1⟩
    · exact ⟨_, rfl, alternatingGens_perm _ h2.1, h2.2⟩
    · refine ⟨_, rfl, ?_, h4⟩
      intro p hp
      simp only [List.mem_cons, List.not_mem_nil, or_false] at hp
      rcases hp with rfl | rfl
      · exact homRot_perm _ (by omega)
      · exact homSwap_perm _ (by omega)
    · refine ⟨_, rfl, ?_, h5⟩
      intro p hp
      rw [List.mem_singleton.1 hp]
      exact homRot_perm _ (by omega)
    · exact ⟨_, rfl, by simp, hid⟩
    · exact ⟨_, rfl, by simp, hid⟩

/-- **C101.** For a polynomial in at least one variable an answer is always returned; it is a group of permutations of the variables, and
every element of it leaves the value of the polynomial unchanged at every point. -/
theorem identify_sound [CommRing K] [Inhabited K] (c : Coeff K) (h : c.WF) (hn : c.nvars ≠ 0) (hom : Bool) :
    ∃ gens, identify c hom = .ok gens ∧ (∀ p ∈ gens, p.Perm (List.range c.nvars)) ∧
      ∀ g, Generated c.nvars gens g → ∀ x : List K, x.length = c.nvars → evalDict c.coeffs (papply g x) = evalDict c.coeffs x := by
  obtain ⟨gens, h1, h2, h3⟩ := identify_cases c h hn hom
  refine ⟨gens, h1, h2, fun g hg x hx => ?_⟩
  exact evalDict_of_inv c h (hg.perm h2) ((isCyclic_iff c h gens h2).1 h3 g hg) x hx

/-! ### Which group is found -/

/-- **C101.** The symmetric group is returned exactly for the polynomials whose coefficients do not depend on the order of the exponents. -/
theorem identify_symmetric [Zero K] (c : Coeff K) (h : c.WF) (hn : c.nvars ≠ 0) (hom : Bool) :
    (∃ gens, symmetricGens c.nvars = some gens ∧ identify c hom = .ok gens) ↔
      ∀ m m' : List ℕ, m.length = c.nvars → m.Perm m' → c.call m = c.call m' := by
  obtain ⟨b, hb, hi⟩ := isSymmetricDefault_iff c h hn
  rw [← hi]
  constructor
  · rintro ⟨gens, hg, hid⟩
    obtain ⟨gens', h1, -, h3⟩ := identify_cases c h hn hom
    rw [hid] at h1
    obtain rfl := Except.ok.inj h1
    unfold isSymmetricDefault at hb
    rw [hg] at hb
    exact (Except.ok.inj hb).symm.trans h3
  · rintro rfl
    unfold identify
    rw [hb]
    unfold isSymmetricDefault at hb
    cases hg : symmetricGens c.nvars with
    | none => rw [hg] at hb; cases hb
    | some gens => exact ⟨gens, rfl, rfl⟩

theorem not_symmetric [Zero K] (c : Coeff K) (h : c.WF) (hn : c.nvars ≠ 0)
    (hs : ¬ ∀ m m' : List ℕ, m.length = c.nvars → m.Perm m' → c.call m = c.call m') : c.isSymmetricDefault = .ok false := by
  obtain ⟨b, hb, hi⟩ := isSymmetricDefault_iff c h hn
  cases b with
  | true => exact absurd (hi.1 rfl) hs
  | false => exact hb

/-- **C101.** A polynomial unchanged by the rotations but not by all rearrangements gets the cyclic group. -/
theorem identify_cyclic [Zero K] (c : Coeff K) (h : c.WF) (hn : c.nvars ≠ 0) (hom : Bool)
    (hs : ¬ ∀ m m' : List ℕ, m.length = c.nvars → m.Perm m' → c.call m = c.call m')
    (hc : ∀ (m : List ℕ) (k : ℕ), m.length = c.nvars → c.call (m.rotate k) = c.call m) : identify c hom = .ok (cyclicGens c.nvars) := by
  unfold identify
  rw [not_symmetric c h hn hs]
  simp only
  rw [if_pos ((isCyclicDefault_iff c h hn).2 hc)]

/-- **C101, a lost symmetry.** For an odd number of variables the alternating group is never found: a polynomial with exactly this
symmetry is rotation invariant, and the smaller cyclic group is returned. -/
theorem identify_odd [Zero K] (c : Coeff K) (h : c.WF) (hom : Bool) (hn : 3 < c.nvars) (hodd : c.nvars % 2 = 1)
    (hs : ¬ ∀ m m' : List ℕ, m.length = c.nvars → m.Perm m' → c.call m = c.call m')
    (ha : ∀ g, Generated c.nvars (alternatingGens c.nvars) g → ∀ m : List ℕ, m.length = c.nvars → c.call (papply g m) = c.call m) :
    identify c hom = .ok (cyclicGens c.nvars) ∧
      ∃ g, Generated c.nvars (alternatingGens c.nvars) g ∧ ¬ Generated c.nvars (cyclicGens c.nvars) g := by
  constructor
  · unfold identify
    rw [not_symmetric c h (by omega) hs]
    simp only
    have : c.isCyclicDefault = true := by
      unfold isCyclicDefault
      rw [isCyclic_iff c h _ (cyclicGens_perm _ (by omega))]
      intro g hg
      refine invariant_of_generated c _ (cyclicGens_perm _ (by omega)) ?_ hg
      intro p hp m hm
      refine ha p (.gen p ?_) m hm
      simp only [cyclicGens, List.mem_singleton] at hp
      simp [alternatingGens, hodd, hp]
    rw [if_pos this]
  · refine ⟨[1, 2, 0] ++ (List.range (c.nvars - 3)).map (· + 3), .gen _ (by simp [alternatingGens]), ?_⟩
    have key : ∀ g, Generated c.nvars (cyclicGens c.nvars) g → ∃ k, ∀ i, i < c.nvars → g.getD i 0 = (i + k) % c.nvars := by
      generalize hN : c.nvars = N at *
      have hlen : ∀ g, Generated N (cyclicGens N) g → g.length = N := fun g hg => by
        simpa using (hg.perm (cyclicGens_perm N (by omega))).length_eq
      intro g hg
      induction hg with
      | one => exact ⟨0, fun i hi => by rw [List.getD_eq_getElem?_getD, List.getElem?_range hi]; simp [Nat.mod_eq_of_lt hi]⟩
      | gen p hp =>
        refine ⟨1, fun i hi => ?_⟩
        simp only [cyclicGens, List.mem_singleton] at hp
        subst hp
        rw [List.getD_eq_getElem?_getD]
        by_cases hi' : i < N - 1
        · rw [List.getElem?_append_left (by simpa using hi'), List.getElem?_map, List.getElem?_range hi']
          simp [Nat.mod_eq_of_lt (show i + 1 < N by omega)]
        · have : i = N - 1 := by omega
          rw [List.getElem?_append_right (by simp; omega)]
          simp [this, show N - 1 + 1 = N by omega]
      | mul p q hp hq h1 h2 =>
        obtain ⟨k, hk⟩ := h1
        obtain ⟨j, hj⟩ := h2
        refine ⟨k + j, fun i hi => ?_⟩
        unfold papply
        have hpl := hlen p hp
        rw [List.getD_eq_getElem?_getD, List.getElem?_map, List.getElem?_eq_getElem (by omega)]
        have hpi : p[i]'(by omega) = (i + k) % N := by
          rw [← hk i hi, List.getD_eq_getElem?_getD, List.getElem?_eq_getElem (by omega)]; rfl
        simp only [Option.map_some, Option.getD_some, hpi]
        have := hj ((i + k) % N) (Nat.mod_lt _ (by omega))
        rw [show (default : ℕ) = 0 from rfl, this, Nat.mod_add_mod, Nat.add_assoc]
      | inv p q hp hq hpq h1 =>
        obtain ⟨k, hk⟩ := h1
        have hpl := hlen p hp
        -- `q[(i + k) % N] = i` for all `i`
        have hq' : ∀ i, i < N → q.getD ((i + k) % N) 0 = i := by
          intro i hi
          have e := congrArg (fun l => l.getD i 0) hpq
          simp only [papply] at e
          rw [List.getD_eq_getElem?_getD, List.getElem?_map, List.getElem?_eq_getElem (by omega)] at e
          have hpi : p[i]'(by omega) = (i + k) % N := by
            rw [← hk i hi, List.getD_eq_getElem?_getD, List.getElem?_eq_getElem (by omega)]; rfl
          simp only [Option.map_some, Option.getD_some, hpi] at e
          rw [show (default : ℕ) = 0 from rfl] at e
          rw [e, List.getD_eq_getElem?_getD, List.getElem?_range hi]; rfl
        refine ⟨N - k % N, fun i hi => ?_⟩
        have hm : k % N < N := Nat.mod_lt _ (by omega)
        have := hq' ((i + (N - k % N)) % N) (Nat.mod_lt _ (by omega))
        have e : ((i + (N - k % N)) % N + k) % N = i := by
          rw [Nat.mod_add_mod, ← Nat.add_mod_mod, Nat.add_assoc, Nat.sub_add_cancel hm.le, Nat.add_mod_right, Nat.mod_eq_of_lt hi]
        rwa [e] at this
    intro hg
    obtain ⟨k, hk⟩ := key _ hg
    have h0 := hk 0 (by omega)
    have h2 := hk 2 (by omega)
    simp at h0 h2
    rw [← Nat.add_mod_mod, ← h0, Nat.mod_eq_of_lt (by omega)] at h2
    omega

theorem identify_hom_of [Zero K] (c : Coeff K) (h : c.WF) (hn : 2 < c.nvars)
    (hs : ¬ ∀ m m' : List ℕ, m.length = c.nvars → m.Perm m' → c.call m = c.call m')
    (hp : ∀ (l l' : List ℕ) (t : ℕ), l.length + 1 = c.nvars → l.Perm l' → c.call (l ++ [t]) = c.call (l' ++ [t])) :
    identify c true = .ok [homRot c.nvars, homSwap c.nvars] := by
  have hsw : ∀ a b l, l.length + 2 = c.nvars → c.call (b :: a :: l) = c.call (a :: b :: l) := by
    intro a b l hl
    obtain ⟨l0, t, rfl⟩ : ∃ l0 t, l = l0 ++ [t] := by
      refine ⟨l.dropLast, l.getLast (by rintro rfl; simp at hl; omega), (List.dropLast_append_getLast _).symm⟩
    have := hp (b :: a :: l0) (a :: b :: l0) t (by simp at hl ⊢; omega) (List.Perm.swap _ _ _)
    simpa using this
  have noRot : ¬ ∀ a l, l.length + 1 = c.nvars → c.call (l ++ [a]) = c.call (a :: l) := fun hr => hs (perm_inv c.nvars c.call hr hsw)
  unfold identify
  rw [not_symmetric c h (by omega) hs]
  simp only
  have h1 : ¬ c.isCyclicDefault = true := by
    intro hc
    rw [isCyclicDefault_iff c h (by omega)] at hc
    exact noRot fun a l hl => by simpa using hc (a :: l) 1 (by simpa using hl)
  have h2 : ¬ (c.nvars > 3 ∧ c.isCyclic (alternatingGens c.nvars) = true) := by
    rintro ⟨h3, hc⟩
    rw [isCyclic_iff c h _ (alternatingGens_perm _ h3)] at hc
    apply noRot
    intro a l hl
    have hg := hc _ (.gen _ (by simp [alternatingGens] : (if c.nvars % 2 = 1 then (List.range (c.nvars - 1)).map (· + 1) ++ [0]
      else [0] ++ (List.range (c.nvars - 2)).map (· + 2) ++ [1]) ∈ alternatingGens c.nvars))
    by_cases ho : c.nvars % 2 = 1
    · rw [if_pos ho] at hg
      have := hg (a :: l) (by simpa using hl)
      rwa [papply_rot a l _ (by omega)] at this
    · rw [if_neg ho] at hg
      cases l with
      | nil => simp at hl; omega
      | cons b l =>
        have := hg (b :: a :: l) (by simpa using hl)
        rw [papply_fixFirst b a l _ (by simp at hl; omega)] at this
        rw [List.cons_append, this]
        exact hsw a b l (by simpa using hl)
  rw [if_neg h1, if_neg h2, if_pos ⟨trivial, hn⟩, if_pos]
  rw [isCyclic_iff c h _ (by
    intro p hp
    simp only [List.mem_cons, List.not_mem_nil, or_false] at hp
    rcases hp with rfl | rfl
    · exact homRot_perm _ (by omega)
    · exact homSwap_perm _ (by omega))]
  intro g hg
  refine invariant_of_generated c _ ?_ ?_ hg
  · intro p hp
    simp only [List.mem_cons, List.not_mem_nil, or_false] at hp
    rcases hp with rfl | rfl
    · exact homRot_perm _ (by omega)
    · exact homSwap_perm _ (by omega)
  · intro p hp' m hm
    simp only [List.mem_cons, List.not_mem_nil, or_false] at hp'
    rcases hp' with rfl | rfl
    · obtain ⟨l0, t, rfl⟩ : ∃ l0 t, m = l0 ++ [t] :=
        ⟨m.dropLast, m.getLast (by rintro rfl; simp at hm; omega), (List.dropLast_append_getLast _).symm⟩
      cases l0 with
      | nil => simp at hm; omega
      | cons a l =>
        rw [papply_homRot a l t _ (by simp at hm; omega)]
        exact hp (l ++ [a]) (a :: l) t (by simp at hm ⊢; omega) (List.perm_append_singleton _ _)
    · match m, hm with
      | [], hm => simp at hm; omega
      | [_], hm => simp at hm; omega
      | a :: b :: l, hm =>
        rw [papply_homSwap a b l _ (by simpa using hm)]
        exact hsw a b l (by simpa using hm)

/-- **C101.** For a homogenised polynomial that is not symmetric in all its variables, the group of all permutations fixing the added
variable is found exactly when the coefficients do not depend on the order of the other exponents. -/
theorem identify_hom [Zero K] (c : Coeff K) (h : c.WF) (hn : 2 < c.nvars)
    (hs : ¬ ∀ m m' : List ℕ, m.length = c.nvars → m.Perm m' → c.call m = c.call m') :
    identify c true = .ok [homRot c.nvars, homSwap c.nvars] ↔
      ∀ (l l' : List ℕ) (t : ℕ), l.length + 1 = c.nvars → l.Perm l' → c.call (l ++ [t]) = c.call (l' ++ [t]) := by
  refine ⟨fun hi l l' t hl hll => ?_, identify_hom_of c h hn hs⟩
  obtain ⟨gens, h1, h2, h3⟩ := identify_cases c h (by omega) true
  rw [hi] at h1
  obtain rfl := Except.ok.inj h1
  rw [isCyclic_iff c h _ h2] at h3
  refine perm_inv (c.nvars - 1) (fun l => c.call (l ++ [t])) ?_ ?_ l l' (by omega) hll
  · intro a l hl
    have := h3 _ (.gen (homRot c.nvars) (by simp)) (a :: l ++ [t]) (by simp; omega)
    rwa [papply_homRot a l t _ (by omega)] at this
  · intro a b l hl
    have := h3 _ (.gen (homSwap c.nvars) (by simp)) (a :: b :: (l ++ [t])) (by simp; omega)
    rw [papply_homSwap a b _ _ (by simp; omega)] at this
    simpa using this

/-- **C101.** With an even number of variables a polynomial with the alternating symmetry that is not rotation invariant gets the
alternating group. -/
theorem identify_alternating [Zero K] (c : Coeff K) (h : c.WF) (hom : Bool) (hn : 3 < c.nvars)
    (hc : ¬ ∀ (m : List ℕ) (k : ℕ), m.length = c.nvars → c.call (m.rotate k) = c.call m)
    (ha : ∀ g, Generated c.nvars (alternatingGens c.nvars) g → ∀ m : List ℕ, m.length = c.nvars → c.call (papply g m) = c.call m) :
    identify c hom = .ok (alternatingGens c.nvars) := by
  unfold identify
  rw [not_symmetric c h (by omega) fun hs => hc fun m k hm => hs _ _ (by simpa using hm) (List.rotate_perm m k)]
  simp only
  rw [if_neg (fun hh => hc ((isCyclicDefault_iff c h (by omega)).1 hh)), if_pos ⟨hn, (isCyclic_iff c h _ (alternatingGens_perm _ hn)).2 ha⟩]

/-- **C101.** For a homogenised polynomial with none of the symmetries above: the rotations of the other variables are found exactly when
the coefficients are unchanged by them. -/
theorem identify_homRot [Zero K] (c : Coeff K) (h : c.WF) (hn : 2 < c.nvars)
    (hc : ¬ ∀ (m : List ℕ) (k : ℕ), m.length = c.nvars → c.call (m.rotate k) = c.call m)
    (ha : c.nvars > 3 → ¬ ∀ g, Generated c.nvars (alternatingGens c.nvars) g → ∀ m : List ℕ, m.length = c.nvars → c.call (papply g m) = c.call m)
    (hp : ¬ ∀ (l l' : List ℕ) (t : ℕ), l.length + 1 = c.nvars → l.Perm l' → c.call (l ++ [t]) = c.call (l' ++ [t])) :
    (identify c true = .ok [homRot c.nvars] ↔
      ∀ (l : List ℕ) (k t : ℕ), l.length + 1 = c.nvars → c.call (l.rotate k ++ [t]) = c.call (l ++ [t])) ∧
    (identify c true = .ok [homRot c.nvars] ∨ identify c true = .ok [List.range c.nvars]) := by
  have hs : ¬ ∀ m m' : List ℕ, m.length = c.nvars → m.Perm m' → c.call m = c.call m' :=
    fun hs => hc fun m k hm => hs _ _ (by simpa using hm) (List.rotate_perm m k)
  have h2 : ¬ (c.nvars > 3 ∧ c.isCyclic (alternatingGens c.nvars) = true) :=
    fun hh => ha hh.1 ((isCyclic_iff c h _ (alternatingGens_perm _ hh.1)).1 hh.2)
  have h3 : ¬ c.isCyclic [homRot c.nvars, homSwap c.nvars] = true := by
    intro hh
    apply hp
    rw [← identify_hom c h hn hs]
    unfold identify
    rw [not_symmetric c h (by omega) hs]
    simp only
    rw [if_neg (fun hh => hc ((isCyclicDefault_iff c h (by omega)).1 hh)), if_neg h2, if_pos ⟨trivial, hn⟩, if_pos hh]
  have e : identify c true = if c.isCyclic [homRot c.nvars] then .ok [homRot c.nvars] else .ok [List.range c.nvars] := by
    unfold identify
    rw [not_symmetric c h (by omega) hs]
    simp only
    rw [if_neg (fun hh => hc ((isCyclicDefault_iff c h (by omega)).1 hh)), if_neg h2, if_pos ⟨trivial, hn⟩, if_neg h3]
  have hperm : ∀ p ∈ [homRot c.nvars], p.Perm (List.range c.nvars) := fun p hp => by
    rw [List.mem_singleton.1 hp]; exact homRot_perm _ (by omega)
  have step : ∀ (l : List ℕ) (t : ℕ), l.length + 1 = c.nvars → papply (homRot c.nvars) (l ++ [t]) = l.rotate 1 ++ [t] := by
    intro l t hl
    cases l with
    | nil => simp at hl; omega
    | cons a l => rw [papply_homRot a l t _ (by simpa using hl)]; simp
  have key : c.isCyclic [homRot c.nvars] = true ↔
      ∀ (l : List ℕ) (k t : ℕ), l.length + 1 = c.nvars → c.call (l.rotate k ++ [t]) = c.call (l ++ [t]) := by
    rw [isCyclic_iff c h _ hperm]
    constructor
    · intro hall l k t hl
      induction k with
      | zero => simp
      | succ k ih =>
        rw [← ih, ← List.rotate_rotate, ← step _ t (by simpa using hl)]
        exact hall _ (.gen _ (by simp)) _ (by simpa using hl)
    · intro hall g hg
      refine invariant_of_generated c _ hperm ?_ hg
      intro p hp m hm
      rw [List.mem_singleton.1 hp]
      obtain ⟨l0, t, rfl⟩ : ∃ l0 t, m = l0 ++ [t] :=
        ⟨m.dropLast, m.getLast (by rintro rfl; simp at hm; omega), (List.dropLast_append_getLast _).symm⟩
      rw [step l0 t (by simpa using hm)]
      exact hall l0 1 t (by simpa using hm)
  have hne : homRot c.nvars ≠ List.range c.nvars := by
    intro hh
    have := congrArg (fun l => l.getD 0 7) hh
    obtain ⟨k, hk⟩ : ∃ k, c.nvars = k + 3 := ⟨c.nvars - 3, by omega⟩
    rw [hk] at this
    simp [homRot, List.range_succ_eq_map] at this
  rw [e, ← key]
  by_cases hh : c.isCyclic [homRot c.nvars] = true
  · simp [hh]
  · simp [hh, hne.symm]

/-! ### Examples -/

/-- The sum of the monomials whose exponents are an even rearrangement of `0, 1, ..., n - 1`: unchanged by the alternating group only. -/
def exAlt (n : ℕ) : Coeff ℤ :=
  ⟨(((List.range n).permutations').filter fun l => decide (((List.range n).flatMap fun i => (List.range i).filter fun j =>
    decide (l.getD i 0 < l.getD j 0)).length % 2 = 0)).map fun l => (l, 1), n⟩

example : (exAlt 4).coeffs.length = 12 := by decide +kernel

/-- Four variables: the alternating group is found. -/
example : identify (exAlt 4) false = .ok (alternatingGens 4) := by decide +kernel

/-- Five variables: only the cyclic group is found, although the alternating test would have succeeded. -/
example : identify (exAlt 5) false = .ok (cyclicGens 5) ∧ (exAlt 5).isCyclic (alternatingGens 5) = true := by decide +kernel

/-- `a² + b² + a s` with the homogenising variable `s` is not symmetric before homogenisation; `a² + b² + a s + b s` is. -/
example : identify (⟨[([2,0,0],1), ([0,2,0],1), ([1,0,1],1)], 3⟩ : Coeff ℤ) true = .ok [[0,1,2]] ∧
    identify (⟨[([2,0,0],1), ([0,2,0],1), ([1,0,1],1), ([0,1,1],1)], 3⟩ : Coeff ℤ) true = .ok [homRot 3, homSwap 3] := by decide +kernel

/-- The same polynomial without the hint: nothing is found. -/
example : identify (⟨[([2,0,0],1), ([0,2,0],1), ([1,0,1],1), ([0,1,1],1)], 3⟩ : Coeff ℤ) false = .ok [[0,1,2]] := by decide +kernel

/-- `a² b + b² c + c² a + s³`: rotation invariant before homogenisation only. -/
example : identify (⟨[([2,1,0,0],1), ([0,2,1,0],1), ([1,0,2,0],1), ([0,0,0,3],1)], 4⟩ : Coeff ℤ) true = .ok [homRot 4] := by decide +kernel

end Verif.IdentifySym
