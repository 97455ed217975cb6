import Mathlib.Order.Bounds.Basic
import Mathlib.Tactic.Linarith
import Mathlib.Tactic.FieldSimp
import Mathlib.Tactic.Ring
import Verif.Model.MonotonicOpt

/-!
# C94: the global minimum found by reverse polyblocks

Statements about `rpa_monotonic`.  `Feasible`, `Prob.Ok` and `Root.Sound` do not use the functions of the model.
-/

namespace Verif.Rpa

open Verif

variable {K : Type*} [Field K] [LinearOrder K] [IsStrictOrderedRing K] {n : ℕ}

/-- The search along a segment returns the last argument at which the function is not positive, and raises `ValueError` if it is positive everywhere. -/
structure Root.Sound (rs : Root K) : Prop where
  last : ∀ φ α, IsGreatest {t : K | 0 ≤ t ∧ t ≤ 1 ∧ φ t ≤ 0} α → rs φ = .ok α
  fail : ∀ φ, (∀ t, 0 ≤ t → t ≤ 1 → 0 < φ t) → rs φ = .error .valueError

/-- The functions increase on the box, and on every segment of it the searches have a result. -/
structure Prob.Ok (P : Prob K n) (a b : Pt K n) : Prop where
  mono_f : MonotoneOn P.f (Set.Icc a b)
  mono_g : MonotoneOn P.g (Set.Icc a b)
  mono_h : MonotoneOn P.h (Set.Icc a b)
  last_f : ∀ p q c, a ≤ p → p ≤ q → q ≤ b → P.f p ≤ c → ∃ α, IsGreatest {t : K | 0 ≤ t ∧ t ≤ 1 ∧ P.f (fun i => p i + t * (q i - p i)) ≤ c} α
  last_g : ∀ p q, a ≤ p → p ≤ q → q ≤ b → P.g p ≤ 0 → ∃ α, IsGreatest {t : K | 0 ≤ t ∧ t ≤ 1 ∧ P.g (fun i => p i + t * (q i - p i)) ≤ 0} α
  last_h : ∀ p q, a ≤ p → p ≤ q → q ≤ b → 0 ≤ P.h q → ∃ α, IsGreatest {t : K | 0 ≤ t ∧ t ≤ 1 ∧ 0 ≤ P.h (fun i => q i + t * (p i - q i))} α

/-- The points over which the minimum is taken. -/
def Prob.Feasible (P : Prob K n) (a b x : Pt K n) : Prop := a ≤ x ∧ x ≤ b ∧ P.g x ≤ 0 ∧ 0 ≤ P.h x

/-- `v <= cbv`. -/
def Le (v : K) (cbv : Option K) : Prop := ∀ c, cbv = some c → v ≤ c

theorem less_iff (v : K) (cbv : Option K) : less v cbv = true ↔ ∀ c, cbv = some c → v < c := by
  cases cbv <;> simp [less]

theorem less.le {v : K} {cbv : Option K} (h : less v cbv = true) : Le v cbv := fun c hc => ((less_iff v cbv).1 h c hc).le

/-- A point of a segment. -/
theorem onRay_mem {p q : Pt K n} (hpq : p ≤ q) {t : K} (h0 : 0 ≤ t) (h1 : t ≤ 1) : p ≤ onRay p q t ∧ onRay p q t ≤ q := by
  constructor <;> intro i <;> have := hpq i <;> simp only [onRay]
  · nlinarith
  · nlinarith

theorem onRay_mem' {p q : Pt K n} (hpq : p ≤ q) {t : K} (h0 : 0 ≤ t) (h1 : t ≤ 1) : p ≤ onRay q p t ∧ onRay q p t ≤ q := by
  constructor <;> intro i <;> have := hpq i <;> simp only [onRay]
  · nlinarith
  · nlinarith

theorem onRay_le {p q : Pt K n} (hpq : p ≤ q) {s t : K} (h : s ≤ t) : onRay p q s ≤ onRay p q t := by
  intro i; have := hpq i; simp only [onRay]; nlinarith

theorem onRay_ge {p q : Pt K n} (hpq : p ≤ q) {s t : K} (h : s ≤ t) : onRay q p t ≤ onRay q p s := by
  intro i; have := hpq i; simp only [onRay]; nlinarith

theorem update_up (a : Pt K n) (i : Fin n) (v t : K) : Function.update a i (a i + t * (v - a i)) = onRay a (Function.update a i v) t := by
  funext j
  by_cases h : j = i
  · subst h; simp [onRay]
  · simp [onRay, h]

theorem update_down (b : Pt K n) (i : Fin n) (v t : K) : Function.update b i (b i - t * (b i - v)) = onRay b (Function.update b i v) t := by
  funext j
  by_cases h : j = i
  · subst h; simp [onRay]; ring
  · simp [onRay, h]

/-- Both ways to compute the end of a segment agree. -/
theorem reach_last {rs : Root K} (hrs : rs.Sound) {φ : K → K} {α : K} (h : IsGreatest {t : K | 0 ≤ t ∧ t ≤ 1 ∧ φ t ≤ 0} α) : reach rs φ = .ok α := by
  unfold reach
  by_cases c : 0 ≤ φ 1
  · rw [if_pos c]; exact hrs.last φ α h
  · rw [if_neg c]
    have h1 : (1 : K) ≤ α := h.2 ⟨zero_le_one, le_rfl, (not_le.1 c).le⟩
    rw [le_antisymm h1 h.1.2.1]

theorem reach_fail {rs : Root K} (hrs : rs.Sound) {φ : K → K} (h : ∀ t, 0 ≤ t → t ≤ 1 → 0 < φ t) : reach rs φ = .error .valueError := by
  unfold reach
  rw [if_pos (h 1 zero_le_one le_rfl).le]; exact hrs.fail φ h

/-- `gap` is not positive exactly at the points that are good enough. -/
theorem gap_le (P : Prob K n) (cbv : Option K) (x : Pt K n) : gap P cbv x ≤ 0 ↔ Le (P.f x) cbv ∧ P.g x ≤ 0 := by
  cases cbv with
  | none => simp [gap, Le]
  | some c => simp [gap, Le]

/-- The last point of a segment that is good enough. -/
theorem gap_last {P : Prob K n} {a₀ b₀ : Pt K n} (hP : P.Ok a₀ b₀) {cbv : Option K} {p q : Pt K n} (hp : a₀ ≤ p) (hpq : p ≤ q) (hq : q ≤ b₀) (hf : Le (P.f p) cbv)
    (hg : P.g p ≤ 0) : ∃ α, IsGreatest {t : K | 0 ≤ t ∧ t ≤ 1 ∧ gap P cbv (onRay p q t) ≤ 0} α := by
  obtain ⟨β, hβ⟩ := hP.last_g p q hp hpq hq hg
  cases cbv with
  | none => exact ⟨β, hβ⟩
  | some c =>
    obtain ⟨γ, hγ⟩ := hP.last_f p q c hp hpq hq (hf c rfl)
    have mem : ∀ t, 0 ≤ t → t ≤ 1 → onRay p q t ∈ Set.Icc a₀ b₀ := fun t h0 h1 => ⟨hp.trans (onRay_mem hpq h0 h1).1, (onRay_mem hpq h0 h1).2.trans hq⟩
    have hβ1 := hβ.1
    have hγ1 := hγ.1
    have m0 : 0 ≤ min β γ := le_min hβ1.1 hγ1.1
    have m1 : min β γ ≤ 1 := (min_le_left _ _).trans hβ1.2.1
    refine ⟨min β γ, ⟨m0, m1, (gap_le P _ _).2 ⟨?_, ?_⟩⟩, ?_⟩
    · intro c' hc'; cases hc'
      exact (hP.mono_f (mem _ m0 m1) (mem _ hγ1.1 hγ1.2.1) (onRay_le hpq (min_le_right _ _))).trans hγ1.2.2
    · exact (hP.mono_g (mem _ m0 m1) (mem _ hβ1.1 hβ1.2.1) (onRay_le hpq (min_le_left _ _))).trans hβ1.2.2
    · intro t ht
      have h := (gap_le P _ _).1 ht.2.2
      exact le_min (hβ.2 ⟨ht.1, ht.2.1, h.2⟩) (hγ.2 ⟨ht.1, ht.2.1, h.1 c rfl⟩)

theorem update_le_of {a b : Pt K n} (hab : a ≤ b) (i : Fin n) {v : K} (h : v ≤ b i) : Function.update a i v ≤ b := by
  intro j; by_cases c : j = i
  · subst c; simpa using h
  · simpa [c] using hab j

theorem le_update_of {a b : Pt K n} (hab : a ≤ b) (i : Fin n) {v : K} (h : a i ≤ v) : a ≤ Function.update b i v := by
  intro j; by_cases c : j = i
  · subst c; simpa using h
  · simpa [c] using hab j

/-- The first loop keeps every good point. -/
theorem redUp_spec {P : Prob K n} {rs : Root K} {a₀ b₀ : Pt K n} (hP : P.Ok a₀ b₀) (hrs : rs.Sound) {cbv : Option K} {a : Pt K n} (ha : a₀ ≤ a)
    (hf : Le (P.f a) cbv) (hg : P.g a ≤ 0) : ∀ (is : List (Fin n)) (b : Pt K n), a ≤ b → b ≤ b₀ →
      ∃ b', redUp P rs cbv a is b = .ok b' ∧ a ≤ b' ∧ b' ≤ b ∧ ∀ y, a ≤ y → y ≤ b → Le (P.f y) cbv → P.g y ≤ 0 → y ≤ b'
  | [], b, hab, _ => ⟨b, rfl, hab, le_rfl, fun y _ hy _ _ => hy⟩
  | i :: is, b, hab, hb => by
    have hpq : a ≤ Function.update a i (b i) := le_update_of le_rfl i (hab i)
    have hq : Function.update a i (b i) ≤ b := update_le_of hab i le_rfl
    obtain ⟨α, hα⟩ := gap_last hP (cbv := cbv) ha hpq (hq.trans hb) hf hg
    have hr : reach rs (fun α => gap P cbv (Function.update a i (a i + α * (b i - a i)))) = .ok α := by
      simp only [update_up]; exact reach_last hrs hα
    have h0 := hα.1.1
    have h1 := hα.1.2.1
    have hi := hab i
    have hlo : a i ≤ a i + α * (b i - a i) := by nlinarith
    have hhi : a i + α * (b i - a i) ≤ b i := by nlinarith
    have hab' : a ≤ Function.update b i (a i + α * (b i - a i)) := le_update_of hab i hlo
    have hbb : Function.update b i (a i + α * (b i - a i)) ≤ b := update_le_of le_rfl i hhi
    obtain ⟨b', e, h2, h3, h4⟩ := redUp_spec hP hrs ha hf hg is _ hab' (hbb.trans hb)
    refine ⟨b', by rw [redUp, hr]; exact e, h2, h3.trans hbb, fun y hy hyb hfy hgy => h4 y hy ?_ hfy hgy⟩
    refine le_update_of hyb i ?_
    by_cases hz : b i = a i
    · have := hyb i; rw [hz] at this ⊢; simpa using this
    · have hpos : 0 < b i - a i := sub_pos.2 (lt_of_le_of_ne hi (Ne.symm hz))
      have ht : (y i - a i) / (b i - a i) ≤ α := by
        refine hα.2 ⟨div_nonneg (sub_nonneg.2 (hy i)) hpos.le, (div_le_one hpos).2 (by have := hyb i; linarith), ?_⟩
        rw [← update_up, div_mul_cancel₀ _ hpos.ne', add_sub_cancel]
        have hl : Function.update a i (y i) ≤ y := update_le_of hy i le_rfl
        have hm : Function.update a i (y i) ∈ Set.Icc a₀ b₀ := ⟨ha.trans (le_update_of le_rfl i (hy i)), (hl.trans hyb).trans hb⟩
        have hy' : y ∈ Set.Icc a₀ b₀ := ⟨ha.trans hy, hyb.trans hb⟩
        exact (gap_le P _ _).2 ⟨fun c hc => (hP.mono_f hm hy' hl).trans (hfy c hc), (hP.mono_g hm hy' hl).trans hgy⟩
      have := (div_le_iff₀ hpos).1 ht
      linarith

/-- The second loop keeps every good point. -/
theorem redDown_spec {P : Prob K n} {rs : Root K} {a₀ b₀ : Pt K n} (hP : P.Ok a₀ b₀) (hrs : rs.Sound) {b : Pt K n} (hb : b ≤ b₀) (hh : 0 ≤ P.h b) :
    ∀ (is : List (Fin n)) (a : Pt K n), a ≤ b → a₀ ≤ a →
      ∃ a', redDown P rs b is a = .ok a' ∧ a ≤ a' ∧ a' ≤ b ∧ ∀ y, a ≤ y → y ≤ b → 0 ≤ P.h y → a' ≤ y
  | [], a, hab, _ => ⟨a, rfl, le_rfl, hab, fun y hy _ _ => hy⟩
  | i :: is, a, hab, ha => by
    have hpq : Function.update b i (a i) ≤ b := update_le_of le_rfl i (hab i)
    have hp : a ≤ Function.update b i (a i) := le_update_of hab i le_rfl
    obtain ⟨α, hα⟩ := hP.last_h _ b (ha.trans hp) hpq hb hh
    have hα' : IsGreatest {t : K | 0 ≤ t ∧ t ≤ 1 ∧ -P.h (onRay b (Function.update b i (a i)) t) ≤ 0} α := by
      refine ⟨⟨hα.1.1, hα.1.2.1, neg_nonpos.2 hα.1.2.2⟩, fun t ht => hα.2 ⟨ht.1, ht.2.1, neg_nonpos.1 ht.2.2⟩⟩
    have hr : reach rs (fun α => -P.h (Function.update b i (b i - α * (b i - a i)))) = .ok α := by
      simp only [update_down]; exact reach_last hrs hα'
    have h0 := hα.1.1
    have h1 := hα.1.2.1
    have hi := hab i
    have hlo : a i ≤ b i - α * (b i - a i) := by nlinarith
    have hhi : b i - α * (b i - a i) ≤ b i := by nlinarith
    have hab' : Function.update a i (b i - α * (b i - a i)) ≤ b := update_le_of hab i hhi
    have haa : a ≤ Function.update a i (b i - α * (b i - a i)) := le_update_of le_rfl i hlo
    obtain ⟨a', e, h2, h3, h4⟩ := redDown_spec hP hrs hb hh is _ hab' (ha.trans haa)
    refine ⟨a', by rw [redDown, hr]; exact e, haa.trans h2, h3, fun y hy hyb hhy => h4 y ?_ hyb hhy⟩
    refine update_le_of hy i ?_
    by_cases hz : b i = a i
    · have := hy i; rw [hz]; simpa using this
    · have hpos : 0 < b i - a i := sub_pos.2 (lt_of_le_of_ne hi (Ne.symm hz))
      have ht : (b i - y i) / (b i - a i) ≤ α := by
        refine hα.2 ⟨div_nonneg (sub_nonneg.2 (hyb i)) hpos.le, (div_le_one hpos).2 (by have := hy i; linarith), ?_⟩
        have e : onRay b (Function.update b i (a i)) ((b i - y i) / (b i - a i)) = Function.update b i (y i) := by
          rw [← update_down, div_mul_cancel₀ _ hpos.ne', sub_sub_cancel]
        have hl : y ≤ Function.update b i (y i) := le_update_of hyb i le_rfl
        have hm : Function.update b i (y i) ∈ Set.Icc a₀ b₀ := ⟨(ha.trans hy).trans hl, (update_le_of le_rfl i (hyb i)).trans hb⟩
        have := hP.mono_h ⟨ha.trans hy, hyb.trans hb⟩ hm hl
        show 0 ≤ P.h (onRay b (Function.update b i (a i)) ((b i - y i) / (b i - a i)))
        rw [e]; exact hhy.trans this
      have := (div_le_iff₀ hpos).1 ht
      linarith

/-- `_red` shrinks the box and keeps every good point, if there is one. -/
theorem red_spec {P : Prob K n} {rs : Root K} {rtol : K} {a₀ b₀ : Pt K n} (hP : P.Ok a₀ b₀) (hrs : rs.Sound) (hrt : 0 < rtol) {cbv : Option K} {a b : Pt K n}
    (ha : a₀ ≤ a) (hb : b ≤ b₀) {x : Pt K n} (hx : P.Feasible a b x) (hf : Le (P.f x) cbv) :
    ∃ a' b', red P rs rtol cbv a b = .ok (a', b') ∧ a ≤ a' ∧ a' ≤ b' ∧ b' ≤ b ∧ 0 ≤ P.h b' ∧
      ∀ y, P.Feasible a b y → Le (P.f y) cbv → a' ≤ y ∧ y ≤ b' := by
  obtain ⟨hax, hxb, hgx, hhx⟩ := hx
  have hab := hax.trans hxb
  have mx : x ∈ Set.Icc a₀ b₀ := ⟨ha.trans hax, hxb.trans hb⟩
  have ma : a ∈ Set.Icc a₀ b₀ := ⟨ha, hab.trans hb⟩
  obtain ⟨b', e, h1, h2, h3⟩ := redUp_spec hP hrs (cbv := cbv) ha (fun c hc => (hP.mono_f ma mx hax).trans (hf c hc)) ((hP.mono_g ma mx hax).trans hgx)
    (List.finRange n) b hab hb
  have hxb' := h3 x hax hxb hf hgx
  have hh : 0 ≤ P.h b' := hhx.trans (hP.mono_h mx ⟨mx.1.trans hxb', h2.trans hb⟩ hxb')
  obtain ⟨a', e', h4, h5, h6⟩ := redDown_spec hP hrs (h2.trans hb) hh (List.finRange n) a h1 ha
  refine ⟨a', b', ?_, h4, h5, h2, hh, fun y hy hfy => ?_⟩
  · unfold red
    rw [e]; simp only
    rw [if_neg (by linarith), e']
  · have := h3 y hy.1 hy.2.1 hfy hy.2.2.1
    exact ⟨h6 y hy.1 this hy.2.2.2, this⟩

/-- Finitely many bounds above a number leave room. -/
theorem room (α : K) (t : Fin n → K) (c : Fin n → Prop) (h1 : α < 1) : ∀ (S : Finset (Fin n)), (∀ i ∈ S, c i → α < t i) → ∃ β, α < β ∧ β ≤ 1 ∧ ∀ i ∈ S, c i → β ≤ t i := by
  classical
  intro S
  induction S using Finset.induction_on with
  | empty => exact fun _ => ⟨1, h1, le_rfl, by simp⟩
  | insert j S hj ih =>
    intro h
    obtain ⟨β, h2, h3, h4⟩ := ih fun i hi => h i (Finset.mem_insert_of_mem hi)
    by_cases cj : c j
    · refine ⟨min β (t j), lt_min h2 (h j (Finset.mem_insert_self _ _) cj), (min_le_left _ _).trans h3, ?_⟩
      intro i hi hc
      rcases Finset.mem_insert.1 hi with rfl | hi
      · exact min_le_right _ _
      · exact (min_le_left _ _).trans (h4 i hi hc)
    · refine ⟨β, h2, h3, ?_⟩
      intro i hi hc
      rcases Finset.mem_insert.1 hi with rfl | hi
      · exact absurd hc cj
      · exact h4 i hi hc

/-- **The new vertices cover what the old one covered**: a point of `H` above `z` lies above a new vertex or above `x`. -/
theorem split_covers {P : Prob K n} {a₀ b₀ : Pt K n} (hP : P.Ok a₀ b₀) {z b y : Pt K n} {α : K} (hz : a₀ ≤ z) (hzb : z ≤ b) (hb : b ≤ b₀)
    (hα : IsGreatest {t : K | 0 ≤ t ∧ t ≤ 1 ∧ 0 ≤ P.h (onRay b z t)} α) (hzy : z ≤ y) (hyb : y ≤ b) (hy : 0 ≤ P.h y) :
    (∃ i, z i ≠ onRay b z α i ∧ onRay b z α i ≤ y i) ∨ onRay b z α ≤ y := by
  by_contra hcon
  rw [not_or] at hcon
  obtain ⟨h1, h2⟩ := hcon
  push Not at h1
  have hα1 : α < 1 := by
    refine lt_of_le_of_ne hα.1.2.1 fun e => h2 ?_
    intro i; have := hzy i; simp only [onRay, e]; linarith
  obtain ⟨β, hβ, hβ1, hβ2⟩ := room α (fun i => (b i - y i) / (b i - z i)) (fun i => z i ≠ b i) hα1 Finset.univ (by
    intro i _ hi
    have hpos : 0 < b i - z i := sub_pos.2 (lt_of_le_of_ne (hzb i) hi)
    rw [lt_div_iff₀ hpos]
    have := h1 i (by simp only [onRay]; intro e; have : (1 - α) * (b i - z i) = 0 := by linarith
                     rcases mul_eq_zero.1 this with h | h <;> linarith)
    simp only [onRay] at this
    linarith)
  have hle : y ≤ onRay b z β := by
    intro i
    simp only [onRay]
    by_cases hi : z i = b i
    · rw [hi]; have := hyb i; linarith
    · have hpos : 0 < b i - z i := sub_pos.2 (lt_of_le_of_ne (hzb i) hi)
      have := (le_div_iff₀ hpos).1 (hβ2 i (Finset.mem_univ i) hi)
      linarith
  have hβ0 : 0 ≤ β := hα.1.1.trans hβ.le
  have hm := onRay_mem' hzb hβ0 hβ1
  have := hα.2 ⟨hβ0, hβ1, hy.trans (hP.mono_h ⟨hz.trans hzy, hyb.trans hb⟩ ⟨hz.trans hm.1, hm.2.trans hb⟩ hle)⟩
  linarith

/-- What is true before every pass of the loop; `cbv₀` is the argument plus the tolerance. -/
structure Inv (P : Prob K n) (a₀ b₀ : Pt K n) (cbv₀ : Option K) (s : St K n) : Prop where
  la : a₀ ≤ s.a
  lb : s.b ≤ b₀
  h : 0 ≤ P.h s.b
  valid : ∀ y, P.Feasible a₀ b₀ y → Le (P.f y) s.cbv → s.a ≤ y ∧ y ≤ s.b
  mem : ∀ z ∈ s.T, a₀ ≤ z ∧ z ≤ s.b
  none : s.best = none → s.cbv = cbv₀
  some : ∀ x, s.best = some x → P.Feasible a₀ b₀ x ∧ s.cbv = some (P.f x) ∧ less (P.f x) cbv₀ = true

/-- Every point that is better by more than the tolerance lies above a vertex. -/
def Cover (P : Prob K n) (a₀ b₀ : Pt K n) (tol : K) (s : St K n) : Prop :=
  ∀ y, P.Feasible a₀ b₀ y → less (P.f y) (s.cbv.map (· - tol)) = true → ∃ z ∈ s.T, z ≤ y

theorem less_sub {v c tol : K} (h : less v ((some c).map (· - tol)) = true) : v < c - tol := by simpa [less] using h

theorem mem_split {P : Prob K n} {tol : K} {cbv : Option K} {z x w : Pt K n} :
    w ∈ split P tol cbv z x ↔ ∃ i, z i ≠ x i ∧ w = Function.update z i (x i) ∧ less (P.f w) (cbv.map (· - tol)) = true ∧ P.g w ≤ 0 := by
  unfold split
  rw [List.mem_filterMap]
  constructor
  · rintro ⟨i, _, h⟩
    by_cases c : z i = x i
    · rw [if_pos c] at h; cases h
    · rw [if_neg c] at h
      simp only at h
      split_ifs at h with h'
      cases h
      exact ⟨i, c, rfl, h'.1, h'.2⟩
  · rintro ⟨i, c, rfl, h1, h2⟩
    refine ⟨i, List.mem_finRange i, ?_⟩
    rw [if_neg c]
    simp only
    rw [if_pos ⟨h1, h2⟩]

/-- One pass keeps the invariant and does not raise; vertices are covered unless the test of the lower bound drops one. -/
theorem step_spec {P : Prob K n} {rs : Root K} {rtol tol : K} {a₀ b₀ : Pt K n} (hP : P.Ok a₀ b₀) (hrs : rs.Sound) (hrt : 0 < rtol) (ht : 0 ≤ tol) {cbv₀ : Option K}
    {s : St K n} (hs : Inv P a₀ b₀ cbv₀ s) {i : ℕ} (hi : i < s.T.length) :
    ∃ s', step P rs rtol tol s i = .ok s' ∧ Inv P a₀ b₀ cbv₀ s' ∧ (s'.best = none → s.best = none ∧ s'.cbv = s.cbv) ∧
      (Cover P a₀ b₀ tol s → (s'.cbv = s.cbv ∨ ∀ z ∈ s.T.eraseIdx i, z ≤ s'.b → s'.a ≤ z) → Cover P a₀ b₀ tol s') := by
  set z := s.T[i] with hzdef
  have hzT : z ∈ s.T := List.getElem_mem hi
  obtain ⟨hz, hzb⟩ := hs.mem z hzT
  obtain ⟨α, hα⟩ := hP.last_h z s.b hz hzb hs.lb hs.h
  change IsGreatest {t : K | 0 ≤ t ∧ t ≤ 1 ∧ 0 ≤ P.h (onRay s.b z t)} α at hα
  have hr : reach rs (fun α => -P.h (onRay s.b z α)) = .ok α :=
    reach_last hrs ⟨⟨hα.1.1, hα.1.2.1, neg_nonpos.2 hα.1.2.2⟩, fun t h => hα.2 ⟨h.1, h.2.1, neg_nonpos.1 h.2.2⟩⟩
  set x := onRay s.b z α with hx
  have hm := onRay_mem' hzb hα.1.1 hα.1.2.1
  rw [← hx] at hm
  have hhx : 0 ≤ P.h x := hα.1.2.2
  have hxm : x ∈ Set.Icc a₀ b₀ := ⟨hz.trans hm.1, hm.2.trans hs.lb⟩
  have memErase : ∀ w ∈ s.T, w ∈ s.T.eraseIdx i ∨ w = z := by
    intro w hw
    obtain ⟨j, hj, rfl⟩ := List.getElem_of_mem hw
    by_cases c : j = i
    · subst c; exact .inr rfl
    · left
      rw [List.mem_eraseIdx_iff_getElem]
      exact ⟨j, hj, c, rfl⟩
  have eraseMem : ∀ w ∈ s.T.eraseIdx i, w ∈ s.T := fun w hw => List.mem_of_mem_eraseIdx hw
  have hstep : step P rs rtol tol s i = match improve P rs rtol tol s x (s.T.eraseIdx i) with
      | .error e => .error e
      | .ok s' => .ok { s' with T := s'.T ++ split P tol s'.cbv z x } := by
    unfold step
    rw [List.getElem?_eq_getElem hi]
    simp only
    rw [← hzdef, hr]
    rfl
  -- the new vertices lie between `z` and `x`
  have splitLe : ∀ cbv, ∀ w ∈ split P tol cbv z x, a₀ ≤ w ∧ w ≤ x := by
    intro cbv w hw
    obtain ⟨j, _, rfl, _, _⟩ := mem_split.1 hw
    exact ⟨hz.trans (le_update_of le_rfl j (hm.1 j)), update_le_of hm.1 j le_rfl⟩
  -- what `z` covered is covered
  have splitCov : ∀ cbv : Option K, (P.g x ≤ 0 → ∀ c, cbv = some c → c ≤ P.f x) → (P.g x ≤ 0 → cbv ≠ none) → ∀ y, P.Feasible a₀ b₀ y → y ≤ s.b → z ≤ y →
      less (P.f y) (cbv.map (· - tol)) = true → ∃ w ∈ split P tol cbv z x, w ≤ y := by
    intro cbv hc hne y hy hyb hzy hl
    have my : y ∈ Set.Icc a₀ b₀ := ⟨hy.1, hy.2.1⟩
    rcases split_covers hP hz hzb hs.lb hα hzy hyb hy.2.2.2 with ⟨j, hj, hjy⟩ | hxy
    · have hle : Function.update z j (x j) ≤ y := update_le_of hzy j hjy
      have hmw : Function.update z j (x j) ∈ Set.Icc a₀ b₀ := ⟨hz.trans (le_update_of le_rfl j (hm.1 j)), hle.trans hy.2.1⟩
      refine ⟨_, mem_split.2 ⟨j, hj, rfl, ?_, (hP.mono_g hmw my hle).trans hy.2.2.1⟩, hle⟩
      rw [less_iff] at hl ⊢
      exact fun c hc => lt_of_le_of_lt (hP.mono_f hmw my hle) (hl c hc)
    · exfalso
      have hgx : P.g x ≤ 0 := (hP.mono_g hxm my hxy).trans hy.2.2.1
      have hfx := hP.mono_f hxm my hxy
      cases cbv with
      | none => exact hne hgx rfl
      | some c =>
        have h1 := hc hgx c rfl
        have h2 := less_sub hl
        linarith
  by_cases c : P.g x ≤ 0 ∧ less (P.f x) s.cbv = true
  · -- an improvement
    have hxF : P.Feasible a₀ b₀ x := ⟨hxm.1, hxm.2, c.1, hhx⟩
    obtain ⟨hax, hxb⟩ := hs.valid x hxF (less.le c.2)
    obtain ⟨a', b', e, h1, h2, h3, h4, h5⟩ := red_spec hP hrs hrt (cbv := some (P.f x)) hs.la hs.lb (x := x) ⟨hax, hxb, c.1, hhx⟩ (by intro c hc; cases hc; exact le_rfl)
    have himp : improve P rs rtol tol s x (s.T.eraseIdx i) = .ok ⟨a', b', (s.T.eraseIdx i).filter (keep P tol (P.f x) a' b'), some x, some (P.f x)⟩ := by
      unfold improve
      rw [if_pos c, e]
    rw [himp] at hstep
    simp only at hstep
    have hxx := h5 x ⟨hax, hxb, c.1, hhx⟩ (by intro c hc; cases hc; exact le_rfl)
    have lt0 : ∀ y, Le (P.f y) (some (P.f x)) → Le (P.f y) s.cbv := fun y hy c' hc' => (hy _ rfl).trans ((less.le c.2) c' hc')
    have valid' : ∀ y, P.Feasible a₀ b₀ y → Le (P.f y) (some (P.f x)) → a' ≤ y ∧ y ≤ b' := by
      intro y hy hle
      obtain ⟨k1, k2⟩ := hs.valid y hy (lt0 y hle)
      exact h5 y ⟨k1, k2, hy.2.2.1, hy.2.2.2⟩ hle
    refine ⟨_, hstep, ⟨hs.la.trans h1, h3.trans hs.lb, h4, valid', ?_, (fun h => by cases h), ?_⟩, (fun h => by cases h), ?_⟩
    · intro w hw
      rcases List.mem_append.1 hw with hw | hw
      · obtain ⟨hw1, hw2⟩ := List.mem_filter.1 hw
        simp only [keep, Bool.and_eq_true, decide_eq_true_eq] at hw2
        exact ⟨(hs.mem w (eraseMem w hw1)).1, hw2.1.1.2⟩
      · obtain ⟨k1, k2⟩ := splitLe _ w hw
        exact ⟨k1, k2.trans hxx.2⟩
    · intro w hw
      cases hw
      refine ⟨hxF, rfl, ?_⟩
      cases hb : s.best with
      | none => rw [← hs.none hb]; exact c.2
      | some v =>
        obtain ⟨_, k1, k2⟩ := hs.some v hb
        rw [less_iff] at k2 ⊢
        have := (less_iff _ _).1 c.2 _ k1
        exact fun c' hc' => this.trans (k2 c' hc')
    · intro hcov hloss y hy hl
      have hl' := less_sub hl
      have hle : Le (P.f y) (some (P.f x)) := by intro c' hc'; cases hc'; linarith
      have hv := valid' y hy hle
      have hbound := hs.valid y hy (lt0 y hle)
      have hlold : less (P.f y) (s.cbv.map (· - tol)) = true := by
        rw [less_iff]
        intro c' hc'
        cases hcb : s.cbv with
        | none => rw [hcb] at hc'; cases hc'
        | some d =>
          rw [hcb] at hc'; cases hc'
          have := (less_iff _ _).1 c.2 d hcb
          linarith
      obtain ⟨w, hw, hwy⟩ := hcov y hy hlold
      rcases memErase w hw with hwe | rfl
      · have hwm : w ∈ Set.Icc a₀ b₀ := ⟨(hs.mem w hw).1, ((hs.mem w hw).2).trans hs.lb⟩
        have my : y ∈ Set.Icc a₀ b₀ := ⟨hy.1, hy.2.1⟩
        refine ⟨w, List.mem_append.2 (.inl (List.mem_filter.2 ⟨hwe, ?_⟩)), hwy⟩
        have hwb : w ≤ b' := hwy.trans hv.2
        have haw : a' ≤ w := by
          rcases hloss with h | h
          · exfalso
            have h : some (P.f x) = s.cbv := h
            exact lt_irrefl _ ((less_iff _ _).1 c.2 _ h.symm)
          · exact h w hwe hwb
        simp only [keep, Bool.and_eq_true, decide_eq_true_eq]
        exact ⟨⟨⟨haw, hwb⟩, lt_of_le_of_lt (hP.mono_f hwm my hwy) hl'⟩, (hP.mono_g hwm my hwy).trans hy.2.2.1⟩
      · obtain ⟨v, hv1, hv2⟩ := splitCov (some (P.f x)) (fun _ c' hc' => by cases hc'; exact le_rfl) (fun _ h => by cases h) y hy hbound.2 hwy hl
        exact ⟨v, List.mem_append.2 (.inr hv1), hv2⟩
  · -- no improvement
    have himp : improve P rs rtol tol s x (s.T.eraseIdx i) = .ok { s with T := s.T.eraseIdx i } := by
      unfold improve
      rw [if_neg c]
    rw [himp] at hstep
    simp only at hstep
    refine ⟨_, hstep, ⟨hs.la, hs.lb, hs.h, hs.valid, ?_, hs.none, hs.some⟩, fun h => ⟨h, rfl⟩, ?_⟩
    · intro w hw
      rcases List.mem_append.1 hw with hw | hw
      · exact hs.mem w (eraseMem w hw)
      · obtain ⟨k1, k2⟩ := splitLe _ w hw
        exact ⟨k1, k2.trans hm.2⟩
    · intro hcov _ y hy hl
      obtain ⟨w, hw, hwy⟩ := hcov y hy hl
      rcases memErase w hw with hwe | rfl
      · exact ⟨w, List.mem_append.2 (.inl hwe), hwy⟩
      · have hbound := hs.valid y hy (by
          intro c' hc'
          have := (less_iff _ _).1 hl (c' - tol) (by rw [hc']; rfl)
          linarith)
        obtain ⟨v, hv1, hv2⟩ := splitCov s.cbv (fun hg c' hc' => by
            by_contra hlt
            refine c ⟨hg, (less_iff _ _).2 fun d hd => ?_⟩
            rw [hc'] at hd; cases hd; exact not_le.1 hlt)
          (fun hg h => c ⟨hg, by rw [h]; rfl⟩) y hy hbound.2 hwy hl
        exact ⟨v, List.mem_append.2 (.inr hv1), hv2⟩

/-- No improvement drops a vertex because it is below the new lower bound. -/
def Lossless (P : Prob K n) (rs : Root K) (rtol tol : K) (pick : ℕ → ℕ) : ℕ → ℕ → St K n → Prop
  | 0, _, _ => True
  | fuel + 1, k, s => s.T = [] ∨ ∃ s', step P rs rtol tol s (pick k % s.T.length) = .ok s' ∧
      (s'.cbv = s.cbv ∨ ∀ z ∈ s.T.eraseIdx (pick k % s.T.length), z ≤ s'.b → s'.a ≤ z) ∧ Lossless P rs rtol tol pick fuel (k + 1) s'

/-- The loop keeps the invariant and does not raise. -/
theorem loop_spec {P : Prob K n} {rs : Root K} {rtol tol : K} {a₀ b₀ : Pt K n} (hP : P.Ok a₀ b₀) (hrs : rs.Sound) (hrt : 0 < rtol) (ht : 0 ≤ tol) {cbv₀ : Option K}
    {pick : ℕ → ℕ} : ∀ (fuel k : ℕ) (s : St K n), Inv P a₀ b₀ cbv₀ s →
    ∃ r, loop P rs rtol tol pick fuel k s = .ok r ∧ Inv P a₀ b₀ cbv₀ r.2 ∧ (r.2.best = none → s.best = none) ∧
      (Cover P a₀ b₀ tol s → (r.2.best = none ∨ Lossless P rs rtol tol pick fuel k s) → Cover P a₀ b₀ tol r.2)
  | 0, k, s, hs => ⟨_, rfl, hs, id, fun h _ => h⟩
  | fuel + 1, k, s, hs => by
    by_cases hT : s.T = []
    · exact ⟨(k, s), by rw [loop, if_pos hT], hs, id, fun h _ => h⟩
    · obtain ⟨s', e, h1, h2, h3⟩ := step_spec hP hrs hrt ht hs (i := pick k % s.T.length) (Nat.mod_lt _ (List.length_pos_iff.2 hT))
      obtain ⟨r, e', h4, h5, h6⟩ := loop_spec hP hrs hrt ht (pick := pick) fuel (k + 1) s' h1
      refine ⟨r, by rw [loop, if_neg hT, e]; exact e', h4, fun h => (h2 (h5 h)).1, fun hc hl => ?_⟩
      rcases hl with hl | hl
      · exact h6 (h3 hc (.inl (h2 (h5 hl)).2)) (.inl hl)
      · rcases hl with hl | ⟨s'', e'', hl, hr⟩
        · exact absurd hl hT
        · rw [e] at e''; cases e''
          exact h6 (h3 hc hl) (.inr hr)

/-- The state before the loop: either the invariant holds, or the box was found to be empty and the next pass raises. -/
theorem start_spec {P : Prob K n} {rs : Root K} {rtol tol : K} {a b : Pt K n} (hP : P.Ok a b) (hrs : rs.Sound) (hrt : 0 < rtol) (ht : 0 ≤ tol) (hab : a ≤ b) {cbv : Option K}
    (hh : hopeless P cbv a b = false) :
    (∃ s, start P rs rtol tol cbv a b = .ok s ∧ s.best = none ∧ Inv P a b (cbv.map (· + tol)) s ∧ Cover P a b tol s) ∨
    ((start P rs rtol tol cbv a b = .error .valueError ∨ ∃ s z, start P rs rtol tol cbv a b = .ok s ∧ s.T = [z] ∧ s.b = z ∧ P.h z < 0) ∧
      ∀ y, P.Feasible a b y → ¬ Le (P.f y) (cbv.map (· + tol))) := by
  simp only [hopeless, Bool.or_eq_false_iff, decide_eq_false_iff_not, not_lt] at hh
  obtain ⟨⟨hg, hhb⟩, hf⟩ := hh
  have hf' : Le (P.f a) (cbv.map (· + tol)) := by
    intro c hc
    cases cbv with
    | none => cases hc
    | some d =>
      cases hc
      simp only [decide_eq_false_iff_not, not_lt] at hf
      linarith
  obtain ⟨b', e, h1, h2, h3⟩ := redUp_spec hP hrs (cbv := cbv.map (· + tol)) le_rfl hf' hg (List.finRange n) b hab le_rfl
  by_cases hb' : 0 ≤ P.h b'
  · left
    obtain ⟨a', e', h4, h5, h6⟩ := redDown_spec hP hrs h2 hb' (List.finRange n) a h1 le_rfl
    have valid : ∀ y, P.Feasible a b y → Le (P.f y) (cbv.map (· + tol)) → a' ≤ y ∧ y ≤ b' := fun y hy hl =>
      ⟨h6 y hy.1 (h3 y hy.1 hy.2.1 hl hy.2.2.1) hy.2.2.2, h3 y hy.1 hy.2.1 hl hy.2.2.1⟩
    refine ⟨⟨a', b', [a'], none, cbv.map (· + tol)⟩, ?_, rfl, ⟨h4, h2, hb', valid, ?_, fun _ => rfl, fun x hx => by cases hx⟩, ?_⟩
    · unfold start red
      rw [e]; simp only
      rw [if_neg (by linarith), e']
    · intro z hz
      rw [List.mem_singleton.1 hz]; exact ⟨h4, h5⟩
    · intro y hy hl
      refine ⟨a', by simp, (valid y hy fun c hc => ?_).1⟩
      have := (less_iff _ _).1 hl (c - tol) (by show Option.map _ (Option.map _ cbv) = _; rw [hc]; rfl)
      linarith
  · right
    rw [not_le] at hb'
    refine ⟨?_, fun y hy hl => ?_⟩
    · by_cases hr : P.h b' ≤ -rtol
      · right
        refine ⟨⟨b', b', [b'], none, cbv.map (· + tol)⟩, b', ?_, rfl, rfl, hb'⟩
        unfold start red
        rw [e]; simp only
        rw [if_pos hr]
      · left
        unfold start red
        rw [e]; simp only
        rw [if_neg hr]
        cases n with
        | zero =>
          exfalso
          have : b' = b := Subsingleton.elim _ _
          rw [this] at hb'; linarith
        | succ m =>
          rw [List.finRange_succ, redDown, reach_fail hrs]
          intro t t0 t1
          rw [update_down]
          have hpq : Function.update b' 0 (a 0) ≤ b' := update_le_of le_rfl 0 (h1 0)
          have hm := onRay_mem' hpq t0 t1
          have hp : a ≤ Function.update b' 0 (a 0) := le_update_of h1 0 le_rfl
          have := hP.mono_h ⟨hp.trans hm.1, hm.2.trans h2⟩ ⟨h1, h2⟩ hm.2
          linarith
    · have hy' := h3 y hy.1 hy.2.1 hl hy.2.2.1
      have := hP.mono_h ⟨hy.1, hy.2.1⟩ ⟨h1, h2⟩ hy'
      have := hy.2.2.2
      linarith

/-- A pass raises if the upper end of the box is not in `H`. -/
theorem step_raises {P : Prob K n} {rs : Root K} {rtol tol : K} (hrs : rs.Sound) {s : St K n} {z : Pt K n} (hT : s.T = [z]) (hb : s.b = z) (hz : P.h z < 0) (k : ℕ) :
    step P rs rtol tol s (k % s.T.length) = .error .valueError := by
  unfold step
  rw [hT, hb]
  simp only [List.length_singleton, Nat.mod_one, List.getElem?_cons_zero]
  rw [reach_fail hrs]
  intro t _ _
  have : onRay z z t = z := by funext i; simp [onRay]
  rw [this]; linarith

/-- The points that are better than the argument `cbv`. -/
def Below (v : K) (cbv : Option K) : Prop := ∀ c, cbv = some c → v < c

theorem hopeless_none {P : Prob K n} {a b : Pt K n} (hP : P.Ok a b) {cbv : Option K} (hh : hopeless P cbv a b = true) : ∀ y, P.Feasible a b y → ∃ c, cbv = some c ∧ c < P.f y := by
  intro y hy
  have hab := hy.1.trans hy.2.1
  have ma : a ∈ Set.Icc a b := ⟨le_rfl, hab⟩
  have mb : b ∈ Set.Icc a b := ⟨hab, le_rfl⟩
  have my : y ∈ Set.Icc a b := ⟨hy.1, hy.2.1⟩
  simp only [hopeless, Bool.or_eq_true, decide_eq_true_eq] at hh
  rcases hh with (h | h) | h
  · have := hP.mono_g ma my hy.1
    have := hy.2.2.1
    linarith
  · have := hP.mono_h my mb hy.2.1
    have := hy.2.2.2
    linarith
  · cases cbv with
    | none => cases h
    | some c =>
      simp only [decide_eq_true_eq] at h
      exact ⟨c, rfl, lt_of_lt_of_le h (hP.mono_f ma my hy.1)⟩

/-- The three ways in which `rpa_monotonic` ends. -/
theorem rpa_cases {P : Prob K n} {rs : Root K} {rtol tol : K} {pick : ℕ → ℕ} {maxIter : ℕ} {a b : Pt K n} (hP : P.Ok a b) (hrs : rs.Sound) (hrt : 0 < rtol) (ht : 0 ≤ tol)
    (hab : a ≤ b) {cbv : Option K} (hm : 0 < maxIter) :
    (hopeless P cbv a b = true ∧ rpa P rs rtol tol pick maxIter cbv a b = .ok ⟨none, none, 1, true, a, b⟩) ∨
    (hopeless P cbv a b = false ∧ ∃ s r, start P rs rtol tol cbv a b = .ok s ∧ rpa P rs rtol tol pick maxIter cbv a b = .ok (finish r) ∧ Inv P a b (cbv.map (· + tol)) r.2 ∧
      ((r.2.best = none ∨ Lossless P rs rtol tol pick maxIter 1 s) → Cover P a b tol r.2)) ∨
    (hopeless P cbv a b = false ∧ rpa P rs rtol tol pick maxIter cbv a b = .error .valueError ∧ ∀ y, P.Feasible a b y → ¬ Le (P.f y) (cbv.map (· + tol))) := by
  obtain ⟨m, rfl⟩ := Nat.exists_eq_succ_of_ne_zero hm.ne'
  cases hh : hopeless P cbv a b with
  | true =>
    left
    refine ⟨rfl, ?_⟩
    unfold rpa
    rw [hh, if_pos rfl]
    simp [loop, Except.map, finish]
  | false =>
    right
    rcases start_spec hP hrs hrt ht hab hh with ⟨s, e, _, hi, hc⟩ | ⟨hr, hn⟩
    · left
      obtain ⟨r, e', h1, _, h3⟩ := loop_spec hP hrs hrt ht (pick := pick) (m + 1) 1 s hi
      refine ⟨rfl, s, r, e, ?_, h1, fun h => h3 hc h⟩
      unfold rpa
      rw [hh, if_neg (by simp), e]
      simp only
      rw [if_neg (by omega), e']
      rfl
    · right
      refine ⟨rfl, ?_, hn⟩
      unfold rpa
      rw [hh, if_neg (by simp)]
      rcases hr with hr | ⟨s, z, hr, hT, hb, hz⟩
      · rw [hr]
      · rw [hr]
        simp only
        rw [if_neg (by omega), loop, if_neg (by rw [hT]; simp), step_raises hrs hT hb hz]
        rfl

/-- **C94, soundness.** A point that is returned is feasible and its value is the value returned, which beats the bound given by the caller up to the tolerance. -/
theorem rpa_sound {P : Prob K n} {rs : Root K} {rtol tol : K} {pick : ℕ → ℕ} {maxIter : ℕ} {a b : Pt K n} (hP : P.Ok a b) (hrs : rs.Sound) (hrt : 0 < rtol) (ht : 0 ≤ tol)
    (hab : a ≤ b) {cbv : Option K} (hm : 0 < maxIter) {r : Result K n} (h : rpa P rs rtol tol pick maxIter cbv a b = .ok r) {x : Pt K n} (hx : r.x = some x) :
    P.Feasible a b x ∧ r.f = some (P.f x) ∧ ∀ c, cbv = some c → P.f x < c + tol := by
  rcases rpa_cases (pick := pick) hP hrs hrt ht hab (cbv := cbv) hm with ⟨_, e⟩ | ⟨_, s, q, _, e, hi, _⟩ | ⟨_, e, _⟩
  · rw [e] at h; cases h; cases hx
  · rw [e] at h; cases h
    obtain ⟨h1, h2, h3⟩ := hi.some x hx
    refine ⟨h1, ?_, fun c hc => (less_iff _ _).1 h3 _ (by rw [hc]; rfl)⟩
    have hx : q.2.best = some x := hx
    simp [finish, hx, h2]
  · rw [e] at h; cases h

/-- **C94, infeasibility.** If no point is returned the value is infinite; if the search has converged, no feasible point beats the bound given by the caller.
Without a bound there is no feasible point. -/
theorem rpa_none {P : Prob K n} {rs : Root K} {rtol tol : K} {pick : ℕ → ℕ} {maxIter : ℕ} {a b : Pt K n} (hP : P.Ok a b) (hrs : rs.Sound) (hrt : 0 < rtol) (ht : 0 ≤ tol)
    (hab : a ≤ b) {cbv : Option K} (hm : 0 < maxIter) {r : Result K n} (h : rpa P rs rtol tol pick maxIter cbv a b = .ok r) (hx : r.x = none) :
    r.f = none ∧ (r.converged = true → ∀ y, P.Feasible a b y → ∃ c, cbv = some c ∧ c ≤ P.f y) := by
  rcases rpa_cases (pick := pick) hP hrs hrt ht hab (cbv := cbv) hm with ⟨hh, e⟩ | ⟨_, s, q, _, e, hi, hc⟩ | ⟨_, e, _⟩
  · rw [e] at h; cases h
    refine ⟨rfl, fun _ y hy => ?_⟩
    obtain ⟨c, h1, h2⟩ := hopeless_none hP hh y hy
    exact ⟨c, h1, h2.le⟩
  · rw [e] at h; cases h
    have hx : q.2.best = none := hx
    refine ⟨by simp [finish, hx], fun hconv y hy => ?_⟩
    have hT : q.2.T = [] := by simpa [finish] using hconv
    by_contra hcon
    push Not at hcon
    obtain ⟨z, hz, _⟩ := hc (.inl hx) y hy (by
      rw [hi.none hx, less_iff]
      intro c hc
      cases cbv with
      | none => cases hc
      | some d => cases hc; have := hcon d rfl; simpa using this)
    rw [hT] at hz; cases hz
  · rw [e] at h; cases h

/-- **C94, no exception.** If there is a feasible point that is not worse than the bound given by the caller, the function returns. -/
theorem rpa_returns {P : Prob K n} {rs : Root K} {rtol tol : K} {pick : ℕ → ℕ} {maxIter : ℕ} {a b : Pt K n} (hP : P.Ok a b) (hrs : rs.Sound) (hrt : 0 < rtol) (ht : 0 ≤ tol)
    {cbv : Option K} (hm : 0 < maxIter) {y : Pt K n} (hy : P.Feasible a b y) (hf : ∀ c, cbv = some c → P.f y ≤ c) :
    ∃ r, rpa P rs rtol tol pick maxIter cbv a b = .ok r := by
  rcases rpa_cases (pick := pick) hP hrs hrt ht (hy.1.trans hy.2.1) (cbv := cbv) hm with ⟨_, e⟩ | ⟨_, s, q, _, e, _, _⟩ | ⟨_, _, h⟩
  · exact ⟨_, e⟩
  · exact ⟨_, e⟩
  · refine absurd ?_ (h y hy)
    intro c hc
    cases cbv with
    | none => cases hc
    | some d => cases hc; have := hf d rfl; linarith

/-- **C94, only `ValueError` is raised**, and only if no feasible point is as good as the bound given by the caller. -/
theorem rpa_raises {P : Prob K n} {rs : Root K} {rtol tol : K} {pick : ℕ → ℕ} {maxIter : ℕ} {a b : Pt K n} (hP : P.Ok a b) (hrs : rs.Sound) (hrt : 0 < rtol) (ht : 0 ≤ tol)
    (hab : a ≤ b) {cbv : Option K} (hm : 0 < maxIter) {e : PyErr} (h : rpa P rs rtol tol pick maxIter cbv a b = .error e) :
    e = .valueError ∧ ∀ y, P.Feasible a b y → ∃ c, cbv = some c ∧ c + tol < P.f y := by
  rcases rpa_cases (pick := pick) hP hrs hrt ht hab (cbv := cbv) hm with ⟨_, e'⟩ | ⟨_, s, q, _, e', _, _⟩ | ⟨_, e', hn⟩
  · rw [e'] at h; cases h
  · rw [e'] at h; cases h
  · rw [e'] at h; cases h
    refine ⟨rfl, fun y hy => ?_⟩
    have := hn y hy
    unfold Le at this
    push Not at this
    obtain ⟨c, hc, hlt⟩ := this
    cases cbv with
    | none => cases hc
    | some d => cases hc; exact ⟨d, rfl, hlt⟩

/-- **C94, optimality, partial.** If the search has converged and no vertex was dropped because of the new lower bound, the value returned exceeds the minimum by at most the
tolerance.  Missing: such vertices are dropped in general, and then the claim is false (`rpa_wrong`). -/
theorem rpa_optimal_partial {P : Prob K n} {rs : Root K} {rtol tol : K} {pick : ℕ → ℕ} {maxIter : ℕ} {a b : Pt K n} (hP : P.Ok a b) (hrs : rs.Sound) (hrt : 0 < rtol)
    (ht : 0 ≤ tol) (hab : a ≤ b) {cbv : Option K} (hm : 0 < maxIter) {r : Result K n} (h : rpa P rs rtol tol pick maxIter cbv a b = .ok r) (hc : r.converged = true)
    (hl : ∀ s, start P rs rtol tol cbv a b = .ok s → Lossless P rs rtol tol pick maxIter 1 s) {x : Pt K n} (hx : r.x = some x) {y : Pt K n} (hy : P.Feasible a b y) :
    P.f x - tol ≤ P.f y := by
  rcases rpa_cases (pick := pick) hP hrs hrt ht hab (cbv := cbv) hm with ⟨_, e⟩ | ⟨_, s, q, es, e, hi, hcov⟩ | ⟨_, e, _⟩
  · rw [e] at h; cases h; cases hx
  · rw [e] at h; cases h
    obtain ⟨h1, h2, h3⟩ := hi.some x hx
    have hT : q.2.T = [] := by simpa [finish] using hc
    by_contra hcon
    obtain ⟨z, hz, _⟩ := hcov (.inr (hl s es)) y hy (by
      rw [h2]; simp only [Option.map_some, less, decide_eq_true_eq]; exact not_le.1 hcon)
    rw [hT] at hz; cases hz
  · rw [e] at h; cases h

end Verif.Rpa
