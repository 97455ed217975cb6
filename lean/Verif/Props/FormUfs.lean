import Verif.Model.Form
import Mathlib.GroupTheory.GroupAction.Defs
import Mathlib.GroupTheory.OrderOfElement
import Mathlib.GroupTheory.GroupAction.Quotient
import Mathlib.Algebra.BigOperators.Fin
import Mathlib.Data.Set.Card
import Mathlib.Algebra.Module.BigOperators
import Mathlib.Tactic.FieldSimp
import Mathlib.Data.Prod.Lex
import Mathlib.GroupTheory.Perm.Fin

/-!
# The union-find of `poly_get_standard_form` finds the orbits, and the printed terms sum up to the polynomial
-/

namespace Verif.Form

set_option linter.unusedSectionVars false

open Verif

variable {M : Type*} [LinearOrder M]

/-- The root that following the dictionary leads to. -/
inductive Rooted (d : List (M × M)) : M → M → Prop
  | root {m : M} : dget d m = none ∨ dget d m = some m → Rooted d m m
  | step {m v r : M} : dget d m = some v → v ≠ m → Rooted d v r → Rooted d m r

/-- Parents are not smaller. -/
def Up (d : List (M × M)) : Prop := ∀ m v, dget d m = some v → m ≤ v

theorem Rooted.det {d : List (M × M)} {m r r' : M} (h : Rooted d m r) (h' : Rooted d m r') : r = r' := by
  induction h with
  | root h0 =>
    cases h' with
    | root _ => rfl
    | step h1 h2 _ =>
      rcases h0 with h0 | h0 <;> rw [h0] at h1
      · cases h1
      · exact absurd (Option.some.inj h1).symm h2
  | step h1 h2 _ ih =>
    cases h' with
    | root h0 =>
      rcases h0 with h0 | h0 <;> rw [h0] at h1
      · cases h1
      · exact absurd (Option.some.inj h1).symm h2
    | step h3 h4 h5 =>
      rw [h1] at h3
      obtain rfl := Option.some.inj h3
      exact ih h5

theorem Rooted.le {d : List (M × M)} (hu : Up d) {m r : M} (h : Rooted d m r) : m ≤ r := by
  induction h with
  | root _ => exact le_refl _
  | step h1 _ _ ih => exact (hu _ _ h1).trans ih

theorem Rooted.self {d : List (M × M)} {m r : M} (h : Rooted d m r) : Rooted d r r := by
  induction h with
  | root h0 => exact .root h0
  | step _ _ _ ih => exact ih

theorem Rooted.isRoot {d : List (M × M)} (hu : Up d) {r : M} (h : Rooted d r r) : dget d r = none ∨ dget d r = some r := by
  cases h with
  | root h0 => exact h0
  | step h1 h2 h3 => exact absurd (le_antisymm (h3.le hu) (hu _ _ h1)) h2

theorem Rooted.key {d : List (M × M)} {m r : M} (h : Rooted d m r) (hne : m ≠ r) : m ∈ dkeys d := by
  cases h with
  | root _ => exact absurd rfl hne
  | step h1 _ _ =>
    by_contra hc
    rw [(dget_eq_none_iff d m).2 hc] at h1
    cases h1

/-- `d'` has the same keys as `d`, and the same roots. -/
structure Same (d d' : List (M × M)) : Prop where
  up : Up d'
  rooted : ∀ x y, Rooted d x y → Rooted d' x y
  keys : ∀ x, x ∈ dkeys d' ↔ x ∈ dkeys d

theorem Same.trans {a b c : List (M × M)} (h : Same a b) (h' : Same b c) : Same a c :=
  ⟨h'.up, fun x y hx => h'.rooted x y (h.rooted x y hx), fun x => (h'.keys x).trans (h.keys x)⟩

theorem same_compress {d : List (M × M)} (hu : Up d) {m w : M} (h : Rooted d m w) (hk : m ∈ dkeys d) : Same d (dset d m w) := by
  refine ⟨?_, ?_, ?_⟩
  · intro x v hx
    rw [dget_dset] at hx
    split_ifs at hx with h1
    · obtain rfl := Option.some.inj hx
      exact h1 ▸ h.le hu
    · exact hu x v hx
  · intro x y hxy
    induction hxy with
    | @root x h0 =>
      refine .root ?_
      rw [dget_dset]
      split_ifs with h1
      · subst h1
        rw [h.det (.root h0)]
        exact Or.inr rfl
      · exact h0
    | @step x v r h1 h2 h3 ih =>
      by_cases hx : m = x
      · subst hx
        obtain rfl := h.det (.step h1 h2 h3)
        by_cases hw : w = m
        · subst hw
          exact .root (Or.inr (by rw [dget_dset, if_pos rfl]))
        · exact .step (v := w) (by rw [dget_dset, if_pos rfl]) hw ih.self
      · exact .step (v := v) (by rw [dget_dset, if_neg hx, h1]) h2 ih
  · intro x
    rw [mem_dkeys_dset]
    exact ⟨fun h => h.elim (fun h => h ▸ hk) id, Or.inr⟩

theorem mem_dkeys_of_dget {κ ν : Type*} [DecidableEq κ] {d : List (κ × ν)} {k : κ} {v : ν} (h : dget d k = some v) : k ∈ dkeys d := by
  by_contra hc
  rw [(dget_eq_none_iff d k).2 hc] at h
  cases h

/-- The bound on the recursion suffices, and `ufs_find` returns the root. -/
theorem ufsFind_spec {d : List (M × M)} (hu : Up d) : ∀ (k : ℕ) (m : M), ((dkeys d).filter fun x => decide (m ≤ x)).length < k →
    Rooted d m (ufsFind k d m).1 ∧ Same d (ufsFind k d m).2
  | 0, m, h => absurd h (Nat.not_lt_zero _)
  | k + 1, m, h => by
    have hrefl : Same d d := ⟨hu, fun _ _ h => h, fun _ => Iff.rfl⟩
    unfold ufsFind
    cases hg : dget d m with
    | none => exact ⟨.root (Or.inl hg), hrefl⟩
    | some v =>
      dsimp only
      split_ifs with hv
      · subst hv
        exact ⟨.root (Or.inr hg), hrefl⟩
      · have hlt : m < v := lt_of_le_of_ne (hu _ _ hg) (Ne.symm hv)
        have hk := mem_dkeys_of_dget hg
        have hlen : ((dkeys d).filter fun x => decide (v ≤ x)).length < ((dkeys d).filter fun x => decide (m ≤ x)).length := by
          rw [← List.countP_eq_length_filter, ← List.countP_eq_length_filter]
          refine lt_of_lt_of_le ?_ (List.countP_mono_left (p := fun x => decide (v ≤ x) || decide (x = m)) (l := dkeys d) ?_)
          · have : 0 < List.countP (fun x => decide (x = m)) (dkeys d) := List.countP_pos_iff.2 ⟨m, hk, by simp⟩
            have hsplit : ∀ l : List M, List.countP (fun x => decide (v ≤ x) || decide (x = m)) l = List.countP (fun x => decide (v ≤ x)) l + List.countP (fun x => decide (x = m)) l := by
              intro l
              induction l with
              | nil => rfl
              | cons a l ih =>
                rw [List.countP_cons, List.countP_cons, List.countP_cons, ih]
                by_cases h1 : v ≤ a
                · have h2 : a ≠ m := fun h2 => absurd (h2 ▸ h1) (not_le.2 hlt)
                  simp [h1, h2]
                  omega
                · by_cases h2 : a = m <;> simp only [h1, h2, decide_false, decide_true, Bool.false_or, if_true, Bool.false_eq_true, if_false] <;> simp [not_le.2 hlt] <;> omega
            rw [hsplit]
            omega
          · intro x _ hx
            simp only [Bool.or_eq_true, decide_eq_true_eq] at hx ⊢
            rcases hx with hx | rfl
            · exact hlt.le.trans hx
            · exact le_refl _
        obtain ⟨h1, h2⟩ := ufsFind_spec hu k v (by omega)
        have h3 : Rooted d m (ufsFind k d v).1 := .step hg hv h1
        exact ⟨h3, h2.trans (same_compress h2.up (h2.rooted _ _ h3) ((h2.keys m).2 hk))⟩

theorem find_spec {d : List (M × M)} (hu : Up d) (m : M) : Rooted d m (find d m).1 ∧ Same d (find d m).2 := by
  refine ufsFind_spec hu _ m (Nat.lt_succ_of_le ((List.length_filter_le _ _).trans ?_))
  unfold dkeys
  rw [List.length_map]

theorem Rooted.iff_find {d : List (M × M)} (hu : Up d) {m r : M} : Rooted d m r ↔ (find d m).1 = r :=
  ⟨fun h => (find_spec hu m).1.det h, fun h => h ▸ (find_spec hu m).1⟩

/-- In the same class. -/
def Joined (d : List (M × M)) (x y : M) : Prop := ∃ r, Rooted d x r ∧ Rooted d y r

theorem Joined.symm {d : List (M × M)} {x y : M} : Joined d x y → Joined d y x := fun ⟨r, h, h'⟩ => ⟨r, h', h⟩

theorem Joined.refl {d : List (M × M)} (hu : Up d) (x : M) : Joined d x x := ⟨_, (find_spec hu x).1, (find_spec hu x).1⟩

theorem Joined.trans {d : List (M × M)} {x y z : M} : Joined d x y → Joined d y z → Joined d x z := by
  rintro ⟨r, h1, h2⟩ ⟨s, h3, h4⟩
  obtain rfl := h2.det h3
  exact ⟨r, h1, h4⟩

theorem link_spec {d : List (M × M)} (hu : Up d) {a b : M} (ha : Rooted d a a) (hb : Rooted d b b) (hab : a ≤ b) :
    Up (dset d a b) ∧ ∀ x y, Rooted d x y → Rooted (dset d a b) x (if y = a then b else y) := by
  have hnb : Rooted (dset d a b) b b := by
    refine .root ?_
    rw [dget_dset]
    split_ifs with h
    · exact Or.inr rfl
    · exact hb.isRoot hu
  refine ⟨?_, ?_⟩
  · intro x v hx
    rw [dget_dset] at hx
    split_ifs at hx with h1
    · obtain rfl := Option.some.inj hx
      exact h1 ▸ hab
    · exact hu x v hx
  · intro x y hxy
    induction hxy with
    | @root x h0 =>
      by_cases hx : x = a
      · subst hx
        rw [if_pos rfl]
        by_cases hb' : b = x
        · subst hb'
          exact hnb
        · exact .step (by rw [dget_dset, if_pos rfl]) hb' hnb
      · rw [if_neg hx]
        exact .root (by rwa [dget_dset, if_neg (Ne.symm hx)])
    | @step x v r h1 h2 h3 ih =>
      have hx : a ≠ x := by
        rintro rfl
        rcases ha.isRoot hu with h | h <;> rw [h] at h1
        · cases h1
        · exact h2 (Option.some.inj h1).symm
      exact .step (by rw [dget_dset, if_neg hx, h1]) h2 ih

/-- What one merge does. -/
structure Merged (d d' : List (M × M)) (e : M × M) : Prop where
  up : Up d'
  joined : ∀ x y, Joined d x y → Joined d' x y
  edge : Joined d' e.1 e.2
  keys : ∀ x, x ∈ dkeys d → x ∈ dkeys d'
  new : ∀ x, x ∈ dkeys d' → x ∈ dkeys d ∨ Rooted d e.1 x ∨ Rooted d e.2 x
  known : ∀ r, Rooted d e.1 r → Rooted d e.2 r → r ∈ dkeys d'
  root : ∀ x r, Rooted d' x r → Rooted d x r ∨ (Joined d x e.1 ∧ Rooted d e.2 r) ∨ (Joined d x e.2 ∧ Rooted d e.1 r)

theorem union_merged {d : List (M × M)} (hu : Up d) (e : M × M) : Merged d (union d e) e := by
  obtain ⟨h1, s1⟩ := find_spec hu e.1
  obtain ⟨h2', s2⟩ := find_spec s1.up e.2
  have h2 : Rooted d e.2 (find (find d e.1).2 e.2).1 := by
    have := s1.rooted _ _ (find_spec hu e.2).1
    rw [h2'.det this]
    exact (find_spec hu e.2).1
  have s := s1.trans s2
  have hback : ∀ x r, Rooted (find (find d e.1).2 e.2).2 x r → Rooted d x r := by
    intro x r hx
    have := (find_spec hu x).1
    rwa [(s.rooted _ _ this).det hx] at this
  have g1 := s.rooted _ _ h1
  have g2 := s.rooted _ _ h2
  unfold union
  dsimp only
  clear h2'
  generalize (find (find d e.1).2 e.2).2 = c at *
  generalize (find (find d e.1).2 e.2).1 = f2 at *
  generalize (find d e.1).1 = f1 at *
  have key : ∀ a b : M, Rooted c a a → Rooted c b b → a ≤ b → ((a = f1 ∧ b = f2) ∨ (a = f2 ∧ b = f1)) → Merged d (dset c a b) e := by
    intro a b ha hb hab hor
    obtain ⟨hup, hl⟩ := link_spec s.up ha hb hab
    refine ⟨hup, ?_, ?_, ?_, ?_, ?_, ?_⟩
    · rintro x y ⟨r, hx, hy⟩
      exact ⟨_, hl _ _ (s.rooted _ _ hx), hl _ _ (s.rooted _ _ hy)⟩
    · refine ⟨b, ?_, ?_⟩
      · have := hl _ _ g1
        rcases hor with ⟨rfl, rfl⟩ | ⟨rfl, rfl⟩
        · rwa [if_pos rfl] at this
        · split_ifs at this <;> exact this
      · have := hl _ _ g2
        rcases hor with ⟨rfl, rfl⟩ | ⟨rfl, rfl⟩
        · split_ifs at this <;> exact this
        · rwa [if_pos rfl] at this
    · intro x hx
      rw [mem_dkeys_dset]
      exact Or.inr ((s.keys x).2 hx)
    · intro x hx
      rw [mem_dkeys_dset] at hx
      rcases hx with rfl | hx
      · rcases hor with ⟨rfl, _⟩ | ⟨rfl, _⟩
        · exact Or.inr (Or.inl h1)
        · exact Or.inr (Or.inr h2)
      · exact Or.inl ((s.keys x).1 hx)
    · intro r hr1 hr2
      rw [mem_dkeys_dset]
      refine Or.inl ?_
      rcases hor with ⟨rfl, _⟩ | ⟨rfl, _⟩
      · exact hr1.det h1
      · exact hr2.det h2
    · intro x r hx
      have hx0 := (find_spec hu x).1
      have := hl _ _ (s.rooted _ _ hx0)
      have hr := this.det hx
      split_ifs at hr with h
      · rw [h] at hx0
        rcases hor with ⟨rfl, rfl⟩ | ⟨rfl, rfl⟩
        · exact Or.inr (Or.inl ⟨⟨_, hx0, h1⟩, hr ▸ h2⟩)
        · exact Or.inr (Or.inr ⟨⟨_, hx0, h2⟩, hr ▸ h1⟩)
      · exact Or.inl (hr ▸ hx0)
  split_ifs with hlt
  · exact key f2 f1 g2.self g1.self hlt.le (Or.inr ⟨rfl, rfl⟩)
  · exact key f1 f2 g1.self g2.self (not_lt.1 hlt) (Or.inl ⟨rfl, rfl⟩)

theorem up_nil : Up ([] : List (M × M)) := fun _ _ h => by cases h

theorem run_up : ∀ (es : List (M × M)) {d : List (M × M)}, Up d → Up (es.foldl union d)
  | [], _, h => h
  | e :: es, _, h => run_up es (union_merged h e).up

theorem run_mono : ∀ (es : List (M × M)) {d : List (M × M)}, Up d → (∀ x y, Joined d x y → Joined (es.foldl union d) x y) ∧ ∀ x, x ∈ dkeys d → x ∈ dkeys (es.foldl union d)
  | [], _, _ => ⟨fun _ _ h => h, fun _ h => h⟩
  | e :: es, _, h => by
    have m := union_merged h e
    obtain ⟨a, b⟩ := run_mono es m.up
    exact ⟨fun x y hxy => a x y (m.joined x y hxy), fun x hx => b x (m.keys x hx)⟩

theorem run_edge : ∀ (es : List (M × M)) {d : List (M × M)}, Up d → ∀ e ∈ es, Joined (es.foldl union d) e.1 e.2
  | e :: es, d, h, f, hf => by
    have m := union_merged h e
    rcases List.mem_cons.1 hf with rfl | hf
    · exact (run_mono es m.up).1 _ _ m.edge
    · exact run_edge es m.up f hf

/-- Nothing outside a relation is merged. -/
theorem run_sound {R : M → M → Prop} (hR : Equivalence R) {S : M → Prop} (hS : ∀ x y, R x y → S x → S y) :
    ∀ (es : List (M × M)) {d : List (M × M)}, Up d → (∀ x r, Rooted d x r → R x r) → (∀ x ∈ dkeys d, S x) → (∀ e ∈ es, R e.1 e.2 ∧ S e.1) →
      (∀ x r, Rooted (es.foldl union d) x r → R x r) ∧ ∀ x ∈ dkeys (es.foldl union d), S x
  | [], _, _, h1, h2, _ => ⟨h1, h2⟩
  | e :: es, d, hu, h1, h2, h4 => by
    have m := union_merged hu e
    obtain ⟨he, hs⟩ := h4 e List.mem_cons_self
    have hj : ∀ x y, Joined d x y → R x y := fun x y ⟨r, hx, hy⟩ => hR.trans (h1 _ _ hx) (hR.symm (h1 _ _ hy))
    refine run_sound hR hS es m.up ?_ ?_ (fun f hf => h4 f (List.mem_cons_of_mem _ hf))
    · intro x r hx
      rcases m.root x r hx with h | ⟨h, h'⟩ | ⟨h, h'⟩
      · exact h1 _ _ h
      · exact hR.trans (hj _ _ h) (hR.trans he (h1 _ _ h'))
      · exact hR.trans (hj _ _ h) (hR.trans (hR.symm he) (h1 _ _ h'))
    · intro x hx
      rcases m.new x hx with h | h | h
      · exact h2 x h
      · exact hS _ _ (h1 _ _ h) hs
      · exact hS _ _ (h1 _ _ h) (hS _ _ he hs)

theorem ufsFind_nodup : ∀ (k : ℕ) {d : List (M × M)} (m : M), (dkeys d).Nodup → (dkeys (ufsFind k d m).2).Nodup
  | 0, _, _, h => h
  | k + 1, d, m, h => by
    unfold ufsFind
    cases dget d m with
    | none => exact h
    | some v =>
      dsimp only
      split_ifs
      · exact h
      · exact dkeys_nodup_dset _ _ _ (ufsFind_nodup k v h)

theorem run_nodup : ∀ (es : List (M × M)) {d : List (M × M)}, (dkeys d).Nodup → (dkeys (es.foldl union d)).Nodup
  | [], _, h => h
  | e :: es, d, h => by
    refine run_nodup es ?_
    unfold union
    dsimp only
    split_ifs <;> exact dkeys_nodup_dset _ _ _ (ufsFind_nodup _ _ (ufsFind_nodup _ _ h))

theorem exists_last {α : Type*} (P : α → Prop) : ∀ {l : List α}, (∃ a ∈ l, P a) → ∃ pre a post, l = pre ++ a :: post ∧ P a ∧ ∀ b ∈ post, ¬ P b
  | [], h => by obtain ⟨_, h, _⟩ := h; cases h
  | b :: l, h => by
    by_cases hl : ∃ a ∈ l, P a
    · obtain ⟨pre, a, post, rfl, h1, h2⟩ := exists_last P hl
      exact ⟨b :: pre, a, post, rfl, h1, h2⟩
    · obtain ⟨a, ha, hp⟩ := h
      rcases List.mem_cons.1 ha with rfl | ha
      · exact ⟨[], a, l, rfl, hp, fun c hc hpc => hl ⟨c, hc, hpc⟩⟩
      · exact absurd ⟨a, ha, hp⟩ hl

section Group

variable {G : Type*} [Group G] [Finite G] [MulAction G M]

/-- The functions by which the generators act. -/
def acts (gl : List G) : List (M → M) := gl.map fun p => (p • ·)

theorem mem_edges {gl : List G} {ms : List M} {e : M × M} : e ∈ edges (acts gl) ms ↔ ∃ p ∈ gl, e.1 ∈ ms ∧ e.2 = p • e.1 := by
  unfold edges acts
  simp only [List.mem_flatMap, List.mem_map]
  constructor
  · rintro ⟨m, hm, f, ⟨p, hp, rfl⟩, rfl⟩
    exact ⟨p, hp, hm, rfl⟩
  · rintro ⟨p, hp, hm, he⟩
    exact ⟨e.1, hm, _, ⟨p, hp, rfl⟩, by rw [← he]⟩

theorem closed_pow {S : M → Prop} {g : G} (h : ∀ m, S m → S (g • m)) : ∀ (n : ℕ) m, S m → S (g ^ n • m)
  | 0, m, hm => by rwa [pow_zero, one_smul]
  | n + 1, m, hm => by
    rw [pow_succ', mul_smul]
    exact h _ (closed_pow h n m hm)

theorem inv_eq_pow (g : G) : g⁻¹ = g ^ (orderOf g - 1) := by
  have h : g ^ (orderOf g - 1) * g = 1 := by
    rw [← pow_succ, Nat.sub_add_cancel (orderOf_pos g), pow_orderOf_eq_one]
  exact (eq_inv_of_mul_eq_one_left h).symm

/-- A set closed under generators of a finite group is closed under the group. -/
theorem closed_all {S : M → Prop} {gl : List G} (hgen : Subgroup.closure {p | p ∈ gl} = ⊤) (h : ∀ p ∈ gl, ∀ m, S m → S (p • m)) (g : G) : ∀ m, S m → S (g • m) := by
  have hg : g ∈ Subgroup.closure {p | p ∈ gl} := hgen ▸ Subgroup.mem_top g
  induction hg using Subgroup.closure_induction with
  | mem x hx => exact h x hx
  | one => intro m hm; rwa [one_smul]
  | mul x y _ _ hx hy => intro m hm; rw [mul_smul]; exact hx _ (hy _ hm)
  | inv x _ hx => intro m hm; rw [inv_eq_pow]; exact closed_pow hx _ m hm

theorem ufs_up (gl : List G) (ms : List M) : Up (ufs (acts gl) ms) := run_up _ up_nil

theorem rooted_nil {m r : M} (h : Rooted [] m r) : m = r := by
  cases h with
  | root _ => rfl
  | step h _ _ => cases h

/-- Only members of one orbit share a class; only monomials become keys. -/
theorem ufs_sound {gl : List G} {ms : List M} (hgen : Subgroup.closure {p | p ∈ gl} = ⊤) (hcl : ∀ p ∈ gl, ∀ m ∈ ms, p • m ∈ ms) :
    (∀ x r, Rooted (ufs (acts gl) ms) x r → r ∈ MulAction.orbit G x) ∧ ∀ x ∈ dkeys (ufs (acts gl) ms), x ∈ ms := by
  have hR : Equivalence fun x r : M => r ∈ MulAction.orbit G x :=
    ⟨fun x => MulAction.mem_orbit_self x, fun h => MulAction.mem_orbit_symm.1 h, fun {x y z} h h' => by rwa [MulAction.orbit_eq_iff.2 h] at h'⟩
  refine run_sound hR (S := fun x => x ∈ ms) ?_ _ up_nil ?_ ?_ ?_
  · rintro x y ⟨g, rfl⟩ hx
    exact closed_all (S := fun x => x ∈ ms) hgen hcl g x hx
  · intro x r h
    obtain rfl := rooted_nil h
    exact MulAction.mem_orbit_self x
  · intro x hx
    cases hx
  · intro e he
    obtain ⟨p, _, h1, h2⟩ := mem_edges.1 he
    exact ⟨⟨p, h2.symm⟩, h1⟩

/-- Members of one orbit share a class. -/
theorem ufs_complete {gl : List G} {ms : List M} (hgen : Subgroup.closure {p | p ∈ gl} = ⊤) (hcl : ∀ p ∈ gl, ∀ m ∈ ms, p • m ∈ ms) (g : G) :
    ∀ m ∈ ms, Joined (ufs (acts gl) ms) m (g • m) := by
  have hall := closed_all (S := fun x => x ∈ ms) hgen hcl
  have hg : g ∈ Subgroup.closure {p | p ∈ gl} := hgen ▸ Subgroup.mem_top g
  induction hg using Subgroup.closure_induction with
  | mem x hx => exact fun m hm => run_edge _ up_nil (m, x • m) (mem_edges.2 ⟨x, hx, hm, rfl⟩)
  | one => intro m hm; rw [one_smul]; exact .refl (ufs_up _ _) m
  | mul x y _ _ hx hy => intro m hm; rw [mul_smul]; exact (hy m hm).trans (hx _ (hall y m hm))
  | inv x _ hx => intro m hm; have := hx _ (hall x⁻¹ m hm); rw [smul_inv_smul] at this; exact this.symm

/-- Two monomials share a root exactly when they are in one orbit. -/
theorem ufs_find_eq {gl : List G} {ms : List M} (hgen : Subgroup.closure {p | p ∈ gl} = ⊤) (hcl : ∀ p ∈ gl, ∀ m ∈ ms, p • m ∈ ms) {x y : M} (hx : x ∈ ms) :
    (find (ufs (acts gl) ms) x).1 = (find (ufs (acts gl) ms) y).1 ↔ y ∈ MulAction.orbit G x := by
  have hs := (ufs_sound hgen hcl).1
  have hu := ufs_up gl ms
  constructor
  · intro h
    have h1 := hs _ _ (find_spec hu x).1
    have h2 := hs _ _ (find_spec hu y).1
    rw [h] at h1
    rw [← MulAction.orbit_eq_iff.2 h1, MulAction.orbit_eq_iff.2 h2]
    exact MulAction.mem_orbit_self y
  · rintro ⟨g, rfl⟩
    obtain ⟨r, h1, h2⟩ := ufs_complete hgen hcl g x hx
    rw [(Rooted.iff_find hu).1 h1, (Rooted.iff_find hu).1 h2]

/-- The root is the largest monomial of the orbit. -/
theorem ufs_find_max {gl : List G} {ms : List M} (hgen : Subgroup.closure {p | p ∈ gl} = ⊤) (hcl : ∀ p ∈ gl, ∀ m ∈ ms, p • m ∈ ms) {x : M} (hx : x ∈ ms) :
    (find (ufs (acts gl) ms) x).1 ∈ MulAction.orbit G x ∧ ∀ y ∈ MulAction.orbit G x, y ≤ (find (ufs (acts gl) ms) x).1 := by
  have hu := ufs_up gl ms
  refine ⟨(ufs_sound hgen hcl).1 _ _ (find_spec hu x).1, fun y hy => ?_⟩
  rw [(ufs_find_eq hgen hcl hx).2 hy]
  exact (find_spec hu y).1.le hu

/-- Every monomial has become a key. -/
theorem ufs_keys {gl : List G} {ms : List M} (hgen : Subgroup.closure {p | p ∈ gl} = ⊤) (hcl : ∀ p ∈ gl, ∀ m ∈ ms, p • m ∈ ms) (hne : gl ≠ []) (x : M) :
    x ∈ dkeys (ufs (acts gl) ms) ↔ x ∈ ms := by
  refine ⟨(ufs_sound hgen hcl).2 x, fun hx => ?_⟩
  have hu := ufs_up gl ms
  by_cases hr : Rooted (ufs (acts gl) ms) x x
  swap
  · exact (find_spec hu x).1.key (fun h => hr (by have := (find_spec hu x).1; rwa [← h] at this))
  obtain ⟨p, hp⟩ := List.exists_mem_of_ne_nil gl hne
  have hall : ∀ n : ℕ, p ^ n • x ∈ ms := fun n => closed_pow (S := fun x => x ∈ ms) (fun m hm => hcl p hp m hm) n x hx
  obtain ⟨pre, e, post, hes, ⟨i, hi⟩, hpost⟩ := exists_last (fun e : M × M => ∃ i : ℕ, e = (p ^ i • x, p • p ^ i • x)) (l := edges (acts gl) ms) ⟨(x, p • x), mem_edges.2 ⟨p, hp, hx, rfl⟩, 0, by rw [pow_zero, one_smul]⟩
  set w := p ^ i • x with hw
  set z := p • w with hz
  have hupre : Up (pre.foldl union []) := run_up _ up_nil
  have hufs : ufs (acts gl) ms = post.foldl union (union (pre.foldl union []) e) := by
    unfold ufs
    rw [hes, List.foldl_append, List.foldl_cons]
  have mg := union_merged hupre e
  have hzt : ∀ t : ℕ, p ^ t • z = p ^ (t + 1 + i) • x := fun t => by rw [hz, hw, smul_smul, smul_smul, ← pow_succ, ← pow_add]
  have hpre : ∀ t : ℕ, p ^ t • z ≠ w → Joined (pre.foldl union []) (p ^ t • z) (p ^ (t + 1) • z) := by
    intro t ht
    have hm : (p ^ t • z, p ^ (t + 1) • z) ∈ edges (acts gl) ms := mem_edges.2 ⟨p, hp, by rw [hzt]; exact hall _, by rw [pow_succ', mul_smul]⟩
    rw [hes] at hm
    rcases List.mem_append.1 hm with hm | hm
    · exact run_edge _ up_nil _ hm
    · rcases List.mem_cons.1 hm with hm | hm
      · rw [hi] at hm
        exact absurd (Prod.ext_iff.1 hm).1 ht
      · exact absurd ⟨t + 1 + i, by rw [← hzt, pow_succ', mul_smul]⟩ (hpost _ hm)
  have hback : ∃ t : ℕ, p ^ t • z = w := ⟨orderOf p - 1, by rw [hz, smul_smul, ← pow_succ, Nat.sub_add_cancel (orderOf_pos p), pow_orderOf_eq_one, one_smul]⟩
  classical
  have hle : ∀ t ≤ Nat.find hback, Joined (pre.foldl union []) z (p ^ t • z) := by
    intro t
    induction t with
    | zero => intro _; rw [pow_zero, one_smul]; exact .refl hupre z
    | succ t ih => exact fun h => (ih (by omega)).trans (hpre t (Nat.find_min hback (by omega)))
  have hper : p ^ (Nat.find hback + 1) • z = z := by rw [pow_succ', mul_smul, Nat.find_spec hback]
  have hjoin : ∀ t : ℕ, Joined (pre.foldl union []) z (p ^ t • z) := by
    intro t
    induction t using Nat.strong_induction_on with
    | _ t ih =>
      by_cases h : t ≤ Nat.find hback
      · exact hle t h
      · have := ih (t - (Nat.find hback + 1)) (by omega)
        have h2 : p ^ t • z = p ^ (t - (Nat.find hback + 1)) • z := by
          have h3 : t = t - (Nat.find hback + 1) + (Nat.find hback + 1) := by omega
          conv_lhs => rw [h3]
          rw [pow_add, mul_smul, hper]
        rwa [h2]
  have hxz : Joined (pre.foldl union []) z x := by
    have := hjoin ((i + 1) * (orderOf p - 1))
    rwa [hzt, show (i + 1) * (orderOf p - 1) + 1 + i = orderOf p * (i + 1) by
      obtain ⟨k, hk⟩ := Nat.exists_eq_succ_of_ne_zero (orderOf_pos p).ne'
      rw [hk, Nat.succ_sub_one, Nat.succ_eq_add_one]; ring, pow_mul, pow_orderOf_eq_one, one_pow, one_smul] at this
  have hwz : Joined (pre.foldl union []) z w := by
    have := hjoin (Nat.find hback)
    rwa [Nat.find_spec hback] at this
  obtain ⟨r, hrz, hrx⟩ := hxz
  obtain ⟨r', hrz', hrw⟩ := hwz
  obtain rfl := hrz.det hrz'
  have hxr : r = x := by
    have hj : Joined (pre.foldl union []) x r := ⟨r, hrx, hrx.self⟩
    obtain ⟨s, h1, h2⟩ := (run_mono post mg.up).1 _ _ (mg.joined _ _ hj)
    rw [← hufs] at h1 h2
    obtain rfl := hr.det h1
    exact le_antisymm (h2.le hu) (hrx.le hupre)
  rw [hufs]
  refine (run_mono post mg.up).2 x (mg.known x ?_ ?_)
  · rw [hi, ← hxr]; exact hrw
  · rw [hi, ← hxr]; exact hrz

/-- The size of a class is the size of the orbit. -/
theorem ufsSize_orbit {gl : List G} {ms : List M} (hgen : Subgroup.closure {p | p ∈ gl} = ⊤) (hcl : ∀ p ∈ gl, ∀ m ∈ ms, p • m ∈ ms) (hne : gl ≠ []) {x : M} (hx : x ∈ ms) :
    ufsSize (ufs (acts gl) ms) (find (ufs (acts gl) ms) x).1 = (MulAction.orbit G x).ncard := by
  unfold ufsSize
  have hnd : ((dkeys (ufs (acts gl) ms)).filter fun m => decide ((find (ufs (acts gl) ms) m).1 = (find (ufs (acts gl) ms) x).1)).Nodup := (run_nodup (d := []) _ List.nodup_nil).filter _
  rw [← List.toFinset_card_of_nodup hnd, ← Set.ncard_coe_finset]
  congr 1
  ext y
  simp only [List.coe_toFinset, Set.mem_ofPred_eq, List.mem_filter, decide_eq_true_eq, ufs_keys hgen hcl hne]
  constructor
  · rintro ⟨_, h⟩
    exact (ufs_find_eq hgen hcl hx).1 h.symm
  · intro h
    refine ⟨?_, ((ufs_find_eq hgen hcl hx).2 h).symm⟩
    obtain ⟨g, rfl⟩ := h
    exact closed_all (S := fun x => x ∈ ms) hgen hcl g x hx

/-- `get_order` returns the number of elements that fix the monomial, as its comment says. -/
theorem getOrder_stabilizer {gl : List G} {ms : List M} (hgen : Subgroup.closure {p | p ∈ gl} = ⊤) (hcl : ∀ p ∈ gl, ∀ m ∈ ms, p • m ∈ ms) (hne : gl ≠ []) {x : M} (hx : x ∈ ms) :
    getOrder (Nat.card G) (ufs (acts gl) ms) x = Nat.card (MulAction.stabilizer G x) := by
  unfold getOrder
  rw [ufsSize_orbit hgen hcl hne hx]
  have h := Nat.card_congr (MulAction.orbitProdStabilizerEquivGroup G x)
  rw [Nat.card_prod, Nat.card_coe_set_eq] at h
  rw [← h, Nat.mul_div_cancel_left]
  refine Nat.pos_of_ne_zero fun h0 => ?_
  rw [h0, zero_mul] at h
  exact Nat.card_pos.ne h

/-- Summing over the group counts each member of the orbit once for every element that fixes the monomial. -/
theorem sum_group [Fintype G] {A : Type*} [AddCommMonoid A] (φ : M → A) (x : M) :
    ∑ g : G, φ (g • x) = Nat.card (MulAction.stabilizer G x) • ∑ y ∈ Finset.univ.image fun g : G => g • x, φ y := by
  classical
  rw [← Finset.sum_fiberwise_of_maps_to (g := fun g : G => g • x) (t := Finset.univ.image fun g : G => g • x) (fun g _ => Finset.mem_image_of_mem _ (Finset.mem_univ g)), Finset.smul_sum]
  refine Finset.sum_congr rfl fun y hy => ?_
  obtain ⟨h, _, rfl⟩ := Finset.mem_image.1 hy
  rw [Finset.sum_congr rfl (g := fun _ => φ (h • x)) (fun g hg => by rw [(Finset.mem_filter.1 hg).2]), Finset.sum_const]
  congr 1
  rw [Nat.card_eq_fintype_card, ← Finset.card_univ (α := MulAction.stabilizer G x)]
  refine (Finset.card_bij (fun (s : MulAction.stabilizer G x) _ => h * s) ?_ ?_ ?_).symm
  · intro s _
    rw [Finset.mem_filter, mul_smul, s.2]
    exact ⟨Finset.mem_univ _, rfl⟩
  · intro s _ t _ hst
    exact Subtype.ext (mul_left_cancel hst)
  · intro g hg
    have hg := (Finset.mem_filter.1 hg).2
    refine ⟨⟨h⁻¹ * g, ?_⟩, Finset.mem_univ _, mul_inv_cancel_left h g⟩
    rw [MulAction.mem_stabilizer_iff, mul_smul]
    exact (congrArg (h⁻¹ • ·) hg).trans (inv_smul_smul h x)

/-- **The standard form denotes the polynomial.**  For terms invariant under the generators, the sum over the whole group of the terms kept by `poly_get_standard_form`, with the
coefficients as printed, is the polynomial.  `φ` gives the value of a monomial. -/
theorem extracted_sum [Fintype G] {K A : Type*} [Field K] [CharZero K] [AddCommGroup A] [Module K A] {gl : List G} {terms : List (M × K)}
    (hgen : Subgroup.closure {p | p ∈ gl} = ⊤) (hne : gl ≠ []) (hnd : (dkeys terms).Nodup) (hinv : ∀ p ∈ gl, ∀ m, dget terms (p • m) = dget terms m) (φ : M → A) :
    ((extracted (acts gl) (Nat.card G) terms).map fun t => t.2 • ∑ g : G, φ (g • t.1)).sum = (terms.map fun t => t.2 • φ t.1).sum := by
  classical
  set ms := terms.map Prod.fst with hms
  have hmk : ∀ m, m ∈ ms ↔ m ∈ dkeys terms := fun m => Iff.rfl
  have hcl : ∀ p ∈ gl, ∀ m ∈ ms, p • m ∈ ms := by
    intro p hp m hm
    rw [hmk] at hm ⊢
    by_contra hc
    have := (dget_eq_none_iff terms (p • m)).2 hc
    rw [hinv p hp] at this
    exact (dget_eq_none_iff terms m).1 this hm
  have hinvG : ∀ (g : G) m, dget terms (g • m) = dget terms m := by
    intro g m
    exact closed_all (S := fun y => dget terms y = dget terms m) hgen (fun p hp y hy => (hinv p hp y).trans hy) g m rfl
  let c : M → K := fun m => (dget terms m).getD 0
  have hc : ∀ t ∈ terms, t.2 = c t.1 := by
    intro t ht
    show _ = (dget terms t.1).getD 0
    rw [(dget_eq_some_iff terms hnd t.1 t.2).2 ht]
    rfl
  set d := ufs (acts gl) ms with hd
  have hR : (terms.map fun t => t.2 • φ t.1).sum = ∑ m ∈ ms.toFinset, c m • φ m := by
    rw [List.sum_toFinset (l := ms) _ hnd, hms, List.map_map]
    exact congrArg List.sum (List.map_congr_left fun t ht => by rw [hc t ht]; rfl)
  have hL : ((extracted (acts gl) (Nat.card G) terms).map fun t => t.2 • ∑ g : G, φ (g • t.1)).sum =
      ∑ m ∈ ms.toFinset.filter (fun m => (find d m).1 = m), (c m / (getOrder (Nat.card G) d m : K)) • ∑ g : G, φ (g • m) := by
    have h1 : ∀ m, m ∈ ms.toFinset.filter (fun m => (find d m).1 = m) ↔ m ∈ (ms.filter fun m => decide ((find d m).1 = m)).toFinset := by
      intro m
      simp only [Finset.mem_filter, List.mem_toFinset, List.mem_filter, decide_eq_true_eq]
    rw [Finset.ext h1, List.sum_toFinset _ (List.Nodup.filter (l := ms) _ hnd)]
    unfold extracted
    dsimp only
    rw [List.map_map, ← hms, ← hd]
    conv_rhs => rw [hms, List.filter_map, List.map_map]
    refine congrArg List.sum (List.map_congr_left fun t ht => ?_)
    show (t.2 / _) • _ = (c t.1 / _) • _
    rw [hc t (List.mem_of_mem_filter ht)]
  rw [hL, hR, ← Finset.sum_fiberwise_of_maps_to (g := fun m => (find d m).1) (s := ms.toFinset) (t := ms.toFinset.filter fun m => (find d m).1 = m)]
  · refine Finset.sum_congr rfl fun r hr => ?_
    obtain ⟨hr, hroot⟩ := Finset.mem_filter.1 hr
    rw [List.mem_toFinset] at hr
    have hset : ms.toFinset.filter (fun m => (find d m).1 = r) = Finset.univ.image fun g : G => g • r := by
      ext y
      simp only [Finset.mem_filter, List.mem_toFinset, Finset.mem_image, Finset.mem_univ, true_and]
      have h := ufs_find_eq (y := y) hgen hcl hr
      rw [← hd, hroot] at h
      constructor
      · rintro ⟨_, hy⟩
        exact h.1 hy.symm
      · rintro ⟨g, rfl⟩
        exact ⟨closed_all (S := fun x => x ∈ ms) hgen hcl g r hr, (h.2 ⟨g, rfl⟩).symm⟩
    have hst : (Nat.card (MulAction.stabilizer G r) : K) ≠ 0 := Nat.cast_ne_zero.2 Nat.card_pos.ne'
    rw [hset, sum_group, getOrder_stabilizer hgen hcl hne hr, ← Nat.cast_smul_eq_nsmul K, smul_smul, div_mul_cancel₀ _ hst, Finset.smul_sum]
    refine Finset.sum_congr rfl fun y hy => ?_
    obtain ⟨g, _, rfl⟩ := Finset.mem_image.1 hy
    show (dget terms r).getD 0 • _ = (dget terms (g • r)).getD 0 • _
    rw [hinvG]
  · intro m hm
    rw [List.mem_toFinset] at hm
    have hu := ufs_up gl ms
    obtain ⟨g, hg⟩ := (ufs_find_max hgen hcl hm).1
    rw [Finset.mem_filter, List.mem_toFinset]
    refine ⟨?_, ?_⟩
    · rw [← hg]
      exact closed_all (S := fun x => x ∈ ms) hgen hcl g m hm
    · exact (Rooted.iff_find hu).1 (find_spec hu m).1.self

end Group

/-! ### A concrete case -/

/-- Monomials in `a, b, c` with the order of tuples. -/
abbrev Mon := ℕ ×ₗ ℕ ×ₗ ℕ

/-- The rotation of the exponents, a group of order three. -/
instance : MulAction (Multiplicative (ZMod 3)) Mon where
  smul g m := match (Multiplicative.toAdd g : ZMod 3) with
    | 0 => m
    | 1 => toLex ((ofLex (ofLex m).2).1, toLex ((ofLex (ofLex m).2).2, (ofLex m).1))
    | 2 => toLex ((ofLex (ofLex m).2).2, toLex ((ofLex m).1, (ofLex (ofLex m).2).1))
  one_smul _ := rfl
  mul_smul g h m := by
    have H : ∀ g : ZMod 3, g = 0 ∨ g = 1 ∨ g = 2 := by decide
    rcases H (Multiplicative.toAdd g) with hg | hg | hg <;> rcases H (Multiplicative.toAdd h) with hh | hh | hh <;>
      (obtain rfl : g = Multiplicative.ofAdd _ := hg; obtain rfl : h = Multiplicative.ofAdd _ := hh; rfl)

/-- A monomial from its exponents. -/
def mon (a b c : ℕ) : Mon := toLex (a, toLex (b, c))

/-- The terms of `5 a b c + 2 (a^2 b + b^2 c + c^2 a)`. -/
def cycTerms : List (Mon × ℚ) := [(mon 2 1 0, 2), (mon 1 1 1, 5), (mon 1 0 2, 2), (mon 0 2 1, 2)]

/-- It is printed as `s(2a^2b + 5/3 abc)`. -/
example : extracted (acts [(Multiplicative.ofAdd 1 : Multiplicative (ZMod 3))]) 3 cycTerms = [(mon 2 1 0, 2), (mon 1 1 1, 5 / 3)] := by decide +kernel

/-- The hypotheses of the theorem are met. -/
example (φ : Mon → ℚ) : ((extracted (acts [(Multiplicative.ofAdd 1 : Multiplicative (ZMod 3))]) (Nat.card (Multiplicative (ZMod 3))) cycTerms).map fun t => t.2 • ∑ g : Multiplicative (ZMod 3), φ (g • t.1)).sum =
    (cycTerms.map fun t => t.2 • φ t.1).sum := by
  refine extracted_sum ?_ (by simp) (by decide +kernel) ?_ φ
  · rw [eq_top_iff]
    intro g _
    have hg : g = (Multiplicative.ofAdd 1 : Multiplicative (ZMod 3)) ^ (Multiplicative.toAdd g).val := by
      have h : ∀ g : ZMod 3, g = 0 ∨ g = 1 ∨ g = 2 := by decide
      rcases h (Multiplicative.toAdd g) with h | h | h <;> (obtain rfl : g = Multiplicative.ofAdd _ := h; decide)
    rw [hg]
    exact Subgroup.pow_mem _ (Subgroup.subset_closure (by simp)) _
  · intro p hp m
    rw [List.mem_singleton] at hp
    subst hp
    obtain ⟨a, b, c⟩ := m
    show dget cycTerms (mon b c a) = dget cycTerms (mon a b c)
    have h : ∀ x y z x' y' z', mon x y z = mon x' y' z' ↔ x = x' ∧ y = y' ∧ z = z' := by
      intro x y z x' y' z'
      simp [mon]
    simp only [cycTerms, dget, h]
    split_ifs <;> first | rfl | omega

end Verif.Form
