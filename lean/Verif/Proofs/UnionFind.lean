import Verif.Model.ClearFree
import Mathlib.Logic.Relation
import Mathlib.Data.List.Nodup
import Mathlib.Data.Finset.Card
import Mathlib.Data.Finset.Range
import Mathlib.Data.Nat.Find

/-!
# The union-find dictionary of `clear_free_symbols`
-/

namespace Verif.ClearFree

/-- `r` is the representative of `x`: follow the dictionary until a fixed point. -/
inductive Root (u : ℕ → ℕ) : ℕ → ℕ → Prop
  | base {x} : u x = x → Root u x x
  | step {x r} : u x ≠ x → Root u (u x) r → Root u x r

theorem Root.unique {u : ℕ → ℕ} {x r s : ℕ} (h : Root u x r) (h' : Root u x s) : r = s := by
  induction h with
  | base hx => cases h' with
    | base _ => rfl
    | step hn _ => exact absurd hx hn
  | step hn _ ih => cases h' with
    | base hx => exact absurd hx hn
    | step _ h2 => exact ih h2

theorem Root.fixed {u : ℕ → ℕ} {x r : ℕ} (h : Root u x r) : u r = r := by
  induction h with
  | base h => exact h
  | step _ _ ih => exact ih

theorem Root.self {u : ℕ → ℕ} {x r : ℕ} (h : Root u x r) : Root u r r := .base h.fixed

/-- compressing a path does not change the representatives -/
theorem root_compress {u : ℕ → ℕ} {x r : ℕ} (hx : Root u x r) {y s : ℕ} (h : Root u y s) : Root (Function.update u x r) y s := by
  induction h with
  | @base y hy =>
    by_cases e : y = x
    · subst e
      have : r = y := hx.unique (.base hy)
      subst this
      exact .base (by simp)
    · exact .base (by simpa [Function.update_of_ne e] using hy)
  | @step y s hn hs ih =>
    by_cases e : y = x
    · subst e
      have hrs : r = s := hx.unique (.step hn hs)
      subst hrs
      by_cases er : r = y
      · subst er; exact .base (by simp)
      · refine .step (by simpa using er) ?_
        rw [Function.update_self]
        exact .base (by rw [Function.update_of_ne er]; exact hx.fixed)
    · refine .step (by simpa [Function.update_of_ne e] using hn) ?_
      rw [Function.update_of_ne e]; exact ih

/-- joining the representative `a` to the representative `b` -/
theorem root_join {u : ℕ → ℕ} {a b : ℕ} (ha : u a = a) (hb : u b = b) {y s : ℕ} (h : Root u y s) :
    Root (Function.update u a b) y (if s = a then b else s) := by
  have hb' : Root (Function.update u a b) b b := by
    by_cases e : b = a
    · subst e; exact .base (by simp)
    · exact .base (by rw [Function.update_of_ne e]; exact hb)
  induction h with
  | @base y hy =>
    by_cases e : y = a
    · subst e
      rw [if_pos rfl]
      by_cases e2 : b = y
      · subst e2; exact hb'
      · exact .step (by simpa using e2) (by simpa using hb')
    · rw [if_neg e]; exact .base (by rw [Function.update_of_ne e]; exact hy)
  | @step y s hn hs ih =>
    have e : y ≠ a := fun e => hn (e ▸ ha)
    refine .step (by simpa [Function.update_of_ne e] using hn) ?_
    rw [Function.update_of_ne e]; exact ih

/-- every generator has a representative that is a generator -/
def Forest (n : ℕ) (u : ℕ → ℕ) : Prop := (∀ x < n, u x < n) ∧ ∀ x < n, ∃ r, Root u x r

theorem Root.lt {n : ℕ} {u : ℕ → ℕ} (hu : ∀ x < n, u x < n) {x r : ℕ} (h : Root u x r) (hx : x < n) : r < n := by
  induction h with
  | base _ => exact hx
  | step _ _ ih => exact ih (hu _ hx)

/-- the representatives agree -/
def SameRoots (n : ℕ) (u v : ℕ → ℕ) : Prop := ∀ x < n, ∀ r, Root u x r ↔ Root v x r

/-- a chain that ends cannot meet a vertex twice -/
theorem root_not_below {u : ℕ → ℕ} {x r : ℕ} (h : Root u x r) : ∃ rk : ℕ → ℕ, ∀ y s, Root u y s → u y ≠ y → rk (u y) < rk y := by
  classical
  let len : ∀ (k y : ℕ), Prop := fun k y => u (u^[k] y) = u^[k] y
  have ex : ∀ y s, Root u y s → ∃ k, len k y := by
    intro y s hy
    induction hy with
    | base hy => exact ⟨0, hy⟩
    | step _ _ ih => obtain ⟨k, hk⟩ := ih; exact ⟨k + 1, hk⟩
  refine ⟨fun y => if h : ∃ k, len k y then Nat.find h else 0, fun y s hy hn => ?_⟩
  have h1 := ex y s hy
  have h2 : ∃ k, len k (u y) := by
    cases hy with
    | base hy => exact absurd hy hn
    | step _ hs => exact ex _ _ hs
  simp only [dif_pos h1, dif_pos h2]
  have hpos : Nat.find h1 ≠ 0 := by
    intro e
    have := Nat.find_spec h1
    rw [e] at this
    exact hn this
  obtain ⟨m, hm⟩ := Nat.exists_eq_succ_of_ne_zero hpos
  have hs := Nat.find_spec h1
  rw [hm] at hs ⊢
  have : len m (u y) := hs
  exact Nat.lt_succ_of_le (Nat.find_min' h2 this)

theorem find_aux {n : ℕ} {u : ℕ → ℕ} (hu : ∀ x < n, u x < n) (rk : ℕ → ℕ) (hrk : ∀ y s, Root u y s → u y ≠ y → rk (u y) < rk y) :
    ∀ (k : ℕ) (V : List ℕ) (x r : ℕ), x < n → Root u x r → V.Nodup → (∀ v ∈ V, v < n ∧ rk x < rk v) → n + 1 ≤ k + V.length →
      ∃ u', find k u x = some (r, u') ∧ (∀ y < n, u' y < n) ∧ ∀ y s, Root u y s → Root u' y s
  | 0, V, x, r, _, _, hV, hv, hk => by
    have h1 : V.toFinset ⊆ Finset.range n := fun v h => Finset.mem_range.2 (hv v (List.mem_toFinset.1 h)).1
    have h2 := Finset.card_le_card h1
    rw [List.toFinset_card_of_nodup hV, Finset.card_range] at h2
    omega
  | k + 1, V, x, r, hx, hr, hV, hv, hk => by
    by_cases e : u x = x
    · have : r = x := hr.unique (.base e)
      subst this
      exact ⟨u, by simp [find, e], hu, fun _ _ h => h⟩
    · have hr' : Root u (u x) r := by
        cases hr with
        | base h => exact absurd h e
        | step _ h => exact h
      have hlt := hrk x r hr e
      have hxV : x ∉ V := fun h => absurd (hv x h).2 (lt_irrefl _)
      obtain ⟨u', h1, h2, h3⟩ := find_aux hu rk hrk k (x :: V) (u x) r (hu x hx) hr' (List.nodup_cons.2 ⟨hxV, hV⟩)
        (fun v h => by
          rcases List.mem_cons.1 h with rfl | h
          · exact ⟨hx, hlt⟩
          · exact ⟨(hv v h).1, hlt.trans (hv v h).2⟩) (by simp only [List.length_cons]; omega)
      refine ⟨Function.update u' x r, ?_, ?_, ?_⟩
      · simp only [find, e, if_false, h1]
      · intro y hy
        by_cases ey : y = x
        · subst ey; simpa using hr.lt hu hx
        · rw [Function.update_of_ne ey]; exact h2 y hy
      · intro y s h
        exact root_compress (h3 x r hr) (h3 y s h)

/-- `ufsfind` returns the representative, keeps all representatives, and the recursion is never deeper than the number of generators. -/
theorem find_spec {n : ℕ} {u : ℕ → ℕ} (hf : Forest n u) {x : ℕ} (hx : x < n) :
    ∃ r u', find (n + 1) u x = some (r, u') ∧ Root u x r ∧ Forest n u' ∧ ∀ y s, Root u y s → Root u' y s := by
  obtain ⟨r, hr⟩ := hf.2 x hx
  obtain ⟨rk, hrk⟩ := root_not_below hr
  obtain ⟨u', h1, h2, h3⟩ := find_aux hf.1 rk hrk (n + 1) [] x r hx hr List.nodup_nil (by simp) (by simp)
  exact ⟨r, u', h1, hr, ⟨h2, fun y hy => (hf.2 y hy).imp fun s hs => h3 y s hs⟩, h3⟩

/-- two generators have the same representative -/
def Conn (u : ℕ → ℕ) (x y : ℕ) : Prop := ∃ r, Root u x r ∧ Root u y r

theorem Conn.symm {u : ℕ → ℕ} {x y : ℕ} (h : Conn u x y) : Conn u y x := h.imp fun _ h => h.symm

theorem Conn.trans {u : ℕ → ℕ} {x y z : ℕ} (h : Conn u x y) (h' : Conn u y z) : Conn u x z := by
  obtain ⟨r, h1, h2⟩ := h
  obtain ⟨s, h3, h4⟩ := h'
  exact ⟨r, h1, (h2.unique h3) ▸ h4⟩

/-- the relation after an operation: generated by the old relation and the pairs `P` -/
def JoinSpec (n : ℕ) (u v : ℕ → ℕ) (P : ℕ → ℕ → Prop) : Prop :=
  ∀ x < n, ∀ y < n, Conn v x y ↔ Relation.EqvGen (fun a b => a < n ∧ b < n ∧ (Conn u a b ∨ P a b)) x y

theorem eqvGen_lt {n : ℕ} {R : ℕ → ℕ → Prop} {x y : ℕ} (h : Relation.EqvGen (fun a b => a < n ∧ b < n ∧ R a b) x y) : x < n ↔ y < n := by
  induction h with
  | rel _ _ h => exact ⟨fun _ => h.2.1, fun _ => h.1⟩
  | refl _ => exact Iff.rfl
  | symm _ _ _ ih => exact ih.symm
  | trans _ _ _ _ _ ih1 ih2 => exact ih1.trans ih2

/-- from a generated relation to any equivalence on the generators that contains it -/
theorem eqvGen_le {n : ℕ} {R S : ℕ → ℕ → Prop} (hr : ∀ x < n, S x x) (hs : ∀ x y, S x y → S y x) (ht : ∀ x y z, S x y → S y z → S x z)
    (h : ∀ a b, a < n → b < n → R a b → S a b) {x y : ℕ} (hxy : Relation.EqvGen (fun a b => a < n ∧ b < n ∧ R a b) x y) : x < n → S x y := by
  induction hxy with
  | rel a b hab => exact fun _ => h a b hab.1 hab.2.1 hab.2.2
  | refl a => exact fun ha => hr a ha
  | symm a b hab ih => exact fun hb => hs _ _ (ih ((eqvGen_lt hab).2 hb))
  | trans a b c hab _ ih1 ih2 => exact fun ha => ht _ _ _ (ih1 ha) (ih2 ((eqvGen_lt hab).1 ha))

theorem Forest.conn_refl {n : ℕ} {u : ℕ → ℕ} (hf : Forest n u) {x : ℕ} (hx : x < n) : Conn u x x := by
  obtain ⟨r, hr⟩ := hf.2 x hx
  exact ⟨r, hr, hr⟩

/-- finding a representative does not change the relation -/
theorem conn_of_roots {n : ℕ} {u v : ℕ → ℕ} (hf : Forest n u) (h : ∀ y s, Root u y s → Root v y s) {x y : ℕ} (hx : x < n) (hy : y < n) :
    Conn v x y ↔ Conn u x y := by
  obtain ⟨r, hr⟩ := hf.2 x hx
  obtain ⟨s, hs⟩ := hf.2 y hy
  constructor
  · rintro ⟨t, h1, h2⟩
    have e1 := (h x r hr).unique h1
    have e2 := (h y s hs).unique h2
    exact ⟨t, e1 ▸ hr, e2 ▸ hs⟩
  · rintro ⟨t, h1, h2⟩
    exact ⟨t, h x t h1, h y t h2⟩

/-- the loop `ufs[ufsfind(x)] = y0` -/
theorem unite_spec {n : ℕ} : ∀ (l : List ℕ) (u : ℕ → ℕ) (y0 : ℕ), Forest n u → (∀ x ∈ l, x < n) → y0 < n → u y0 = y0 →
    ∃ v, unite (n + 1) y0 l u = some v ∧ Forest n v ∧ JoinSpec n u v fun a b => a = y0 ∧ b ∈ l
  | [], u, y0, hf, _, _, _ => by
    refine ⟨u, rfl, hf, fun x hx y hy => ⟨fun h => .rel _ _ ⟨hx, hy, .inl h⟩, fun h => ?_⟩⟩
    refine eqvGen_le (S := Conn u) (fun _ h => hf.conn_refl h) (fun _ _ => Conn.symm) (fun _ _ _ => Conn.trans) ?_ h hx
    rintro a b _ _ (h | h)
    · exact h
    · exact absurd h.2 (by simp)
  | x :: l, u, y0, hf, hl, hy0, hfix => by
    have hx : x < n := hl x (by simp)
    obtain ⟨r, u', h1, hr, hf', h3⟩ := find_spec hf hx
    have hrn : r < n := hr.lt hf.1 hx
    have hr' : Root u' x r := h3 x r hr
    have hy0' : u' y0 = y0 := (h3 y0 y0 (.base hfix)).fixed
    let w := Function.update u' r y0
    have hroot : ∀ {y s}, Root u' y s → Root w y (if s = r then y0 else s) := fun h => root_join hr'.fixed hy0' h
    have hfw : Forest n w := by
      refine ⟨fun y hy => ?_, fun y hy => ?_⟩
      · by_cases e : y = r
        · simp only [w]; rw [e, Function.update_self]; exact hy0
        · simp only [w]; rw [Function.update_of_ne e]; exact hf'.1 y hy
      · obtain ⟨s, hs⟩ := hf'.2 y hy
        exact ⟨_, hroot hs⟩
    have hw0 : w y0 = y0 := by
      by_cases e : y0 = r
      · simp only [w]; rw [e, Function.update_self]
      · simp only [w]; rw [Function.update_of_ne e]; exact hy0'
    obtain ⟨v, g1, g2, g3⟩ := unite_spec l w y0 hfw (fun z hz => hl z (by simp [hz])) hy0 hw0
    -- the relation of `w`
    have hconn : ∀ a < n, ∀ b < n, Conn u a b → Conn w a b := by
      rintro a _ b _ ⟨t, ha, hb⟩
      exact ⟨_, hroot (h3 _ _ ha), hroot (h3 _ _ hb)⟩
    have hjoin : Conn w y0 x := by
      refine ⟨y0, ?_, ?_⟩
      · exact .base hw0
      · have := hroot hr'; rwa [if_pos rfl] at this
    refine ⟨v, by simp only [unite, h1]; exact g1, g2, fun a ha b hb => ?_⟩
    rw [g3 a ha b hb]
    constructor
    · intro h
      refine eqvGen_le (S := Relation.EqvGen _) (fun _ _ => .refl _) (fun _ _ h => .symm _ _ h) (fun _ _ _ h h' => .trans _ _ _ h h') ?_ h ha
      rintro c d hc hd (h | ⟨rfl, hq⟩)
      · -- a pair related by `w`
        obtain ⟨s, hs⟩ := hf'.2 c hc
        obtain ⟨t, ht⟩ := hf'.2 d hd
        have hsu : Root u c s := by
          obtain ⟨s', hs'⟩ := hf.2 c hc
          exact ((h3 c s' hs').unique hs) ▸ hs'
        have htu : Root u d t := by
          obtain ⟨t', ht'⟩ := hf.2 d hd
          exact ((h3 d t' ht').unique ht) ▸ ht'
        obtain ⟨q, q1, q2⟩ := h
        have e1 := (hroot hs).unique q1
        have e2 := (hroot ht).unique q2
        have base : ∀ a b, a < n → b < n → Conn u a b →
            Relation.EqvGen (fun a b => a < n ∧ b < n ∧ (Conn u a b ∨ a = y0 ∧ b ∈ x :: l)) a b := fun a b h1 h2 h => .rel _ _ ⟨h1, h2, .inl h⟩
        have hyx : Relation.EqvGen (fun a b => a < n ∧ b < n ∧ (Conn u a b ∨ a = y0 ∧ b ∈ x :: l)) y0 x :=
          .rel _ _ ⟨hy0, hx, .inr ⟨rfl, by simp⟩⟩
        by_cases es : s = r
        · have c1 := base c x hc hx ⟨r, es ▸ hsu, hr⟩
          by_cases et : t = r
          · exact .trans _ _ _ c1 (.symm _ _ (base d x hd hx ⟨r, et ▸ htu, hr⟩))
          · rw [if_pos es] at e1; rw [if_neg et] at e2
            have : t = y0 := e2.trans e1.symm
            exact .trans _ _ _ c1 (.trans _ _ _ (.symm _ _ hyx) (base y0 d hy0 hd ⟨y0, .base hfix, this ▸ htu⟩))
        · by_cases et : t = r
          · rw [if_neg es] at e1; rw [if_pos et] at e2
            have : s = y0 := e1.trans e2.symm
            exact .trans _ _ _ (base c y0 hc hy0 ⟨y0, this ▸ hsu, .base hfix⟩)
              (.trans _ _ _ hyx (.symm _ _ (base d x hd hx ⟨r, et ▸ htu, hr⟩)))
          · rw [if_neg es] at e1; rw [if_neg et] at e2
            have : s = t := e1.trans e2.symm
            exact base c d hc hd ⟨t, this ▸ hsu, htu⟩
      · exact .rel _ _ ⟨hc, hd, .inr ⟨rfl, by simp [hq]⟩⟩
    · intro h
      refine eqvGen_le (S := Relation.EqvGen _) (fun _ _ => .refl _) (fun _ _ h => .symm _ _ h) (fun _ _ _ h h' => .trans _ _ _ h h') ?_ h ha
      rintro c d hc hd (h | ⟨rfl, hq⟩)
      · exact .rel _ _ ⟨hc, hd, .inl (hconn c hc d hd h)⟩
      · rcases List.mem_cons.1 hq with rfl | hq
        · exact .rel _ _ ⟨hc, hd, .inl hjoin⟩
        · exact .rel _ _ ⟨hc, hd, .inr ⟨rfl, hq⟩⟩

/-- `ufsunion(p)`: the symbols of one polynomial become connected and nothing else -/
theorem unionSyms_spec {n : ℕ} (l : List ℕ) (u : ℕ → ℕ) (hf : Forest n u) (hl : ∀ x ∈ l, x < n) :
    ∃ v, unionSyms (n + 1) l u = some v ∧ Forest n v ∧ JoinSpec n u v fun a b => a ∈ l ∧ b ∈ l := by
  cases l with
  | nil =>
    refine ⟨u, rfl, hf, fun x hx y hy => ⟨fun h => .rel _ _ ⟨hx, hy, .inl h⟩, fun h => ?_⟩⟩
    refine eqvGen_le (S := Conn u) (fun _ h => hf.conn_refl h) (fun _ _ => Conn.symm) (fun _ _ _ => Conn.trans) ?_ h hx
    rintro a b _ _ (h | h)
    · exact h
    · exact absurd h.2 (by simp)
  | cons x l =>
    have hx : x < n := hl x (by simp)
    obtain ⟨r, u', h1, hr, hf', h3⟩ := find_spec hf hx
    have hr' : Root u' x r := h3 x r hr
    obtain ⟨v, g1, g2, g3⟩ := unite_spec l u' r hf' (fun z hz => hl z (by simp [hz])) (hr.lt hf.1 hx) hr'.fixed
    have hrn := hr.lt hf.1 hx
    refine ⟨v, by simp only [unionSyms, h1]; exact g1, g2, fun a ha b hb => ?_⟩
    rw [g3 a ha b hb]
    constructor
    · intro h
      refine eqvGen_le (S := Relation.EqvGen _) (fun _ _ => .refl _) (fun _ _ h => .symm _ _ h) (fun _ _ _ h h' => .trans _ _ _ h h') ?_ h ha
      rintro c d hc hd (h | ⟨rfl, hq⟩)
      · exact .rel _ _ ⟨hc, hd, .inl ((conn_of_roots hf h3 hc hd).1 h)⟩
      · exact .trans _ _ _ (.rel _ _ ⟨hc, hx, .inl ⟨c, hr.self, hr⟩⟩) (.rel _ _ ⟨hx, hd, .inr ⟨by simp, by simp [hq]⟩⟩)
    · intro h
      have key : ∀ z, z ∈ x :: l → Relation.EqvGen (fun a b => a < n ∧ b < n ∧ (Conn u' a b ∨ a = r ∧ b ∈ l)) r z := by
        intro z hz
        rcases List.mem_cons.1 hz with rfl | hz
        · exact .rel _ _ ⟨hrn, hx, .inl ⟨r, hr'.self, hr'⟩⟩
        · exact .rel _ _ ⟨hrn, hl z (by simp [hz]), .inr ⟨rfl, hz⟩⟩
      refine eqvGen_le (S := Relation.EqvGen _) (fun _ _ => .refl _) (fun _ _ h => .symm _ _ h) (fun _ _ _ h h' => .trans _ _ _ h h') ?_ h ha
      rintro c d hc hd (h | ⟨h1, h2⟩)
      · exact .rel _ _ ⟨hc, hd, .inl ((conn_of_roots hf h3 hc hd).2 h)⟩
      · exact .trans _ _ _ (.symm _ _ (key c h1)) (key d h2)

/-- The loops over all polynomials: two generators are connected exactly when a chain of polynomials links them. -/
theorem unionPolys_spec {n : ℕ} : ∀ (L : List (List ℕ)) (u : ℕ → ℕ), Forest n u → (∀ l ∈ L, ∀ x ∈ l, x < n) →
    ∃ v, unionPolys (n + 1) L u = some v ∧ Forest n v ∧ JoinSpec n u v fun a b => ∃ l ∈ L, a ∈ l ∧ b ∈ l
  | [], u, hf, _ => by
    refine ⟨u, rfl, hf, fun x hx y hy => ⟨fun h => .rel _ _ ⟨hx, hy, .inl h⟩, fun h => ?_⟩⟩
    refine eqvGen_le (S := Conn u) (fun _ h => hf.conn_refl h) (fun _ _ => Conn.symm) (fun _ _ _ => Conn.trans) ?_ h hx
    rintro a b _ _ (h | ⟨l, h, _⟩)
    · exact h
    · exact absurd h (by simp)
  | l :: L, u, hf, hl => by
    obtain ⟨w, h1, h2, h3⟩ := unionSyms_spec l u hf (hl l (by simp))
    obtain ⟨v, g1, g2, g3⟩ := unionPolys_spec L w h2 (fun z hz => hl z (by simp [hz]))
    refine ⟨v, by simp only [unionPolys, h1]; exact g1, g2, fun a ha b hb => ?_⟩
    rw [g3 a ha b hb]
    constructor
    · intro h
      refine eqvGen_le (S := Relation.EqvGen _) (fun _ _ => .refl _) (fun _ _ h => .symm _ _ h) (fun _ _ _ h h' => .trans _ _ _ h h') ?_ h ha
      rintro c d hc hd (h | ⟨m, hm, h⟩)
      · refine eqvGen_le (S := Relation.EqvGen _) (fun _ _ => .refl _) (fun _ _ h => .symm _ _ h) (fun _ _ _ h h' => .trans _ _ _ h h') ?_
          ((h3 c hc d hd).1 h) hc
        rintro e f he hf' (h | h)
        · exact .rel _ _ ⟨he, hf', .inl h⟩
        · exact .rel _ _ ⟨he, hf', .inr ⟨l, by simp, h⟩⟩
      · exact .rel _ _ ⟨hc, hd, .inr ⟨m, by simp [hm], h⟩⟩
    · intro h
      refine eqvGen_le (S := Relation.EqvGen _) (fun _ _ => .refl _) (fun _ _ h => .symm _ _ h) (fun _ _ _ h h' => .trans _ _ _ h h') ?_ h ha
      rintro c d hc hd (h | ⟨m, hm, hq⟩)
      · exact .rel _ _ ⟨hc, hd, .inl ((h3 c hc d hd).2 (.rel _ _ ⟨hc, hd, .inl h⟩))⟩
      · rcases List.mem_cons.1 hm with rfl | hm
        · exact .rel _ _ ⟨hc, hd, .inl ((h3 c hc d hd).2 (.rel _ _ ⟨hc, hd, .inr hq⟩))⟩
        · exact .rel _ _ ⟨hc, hd, .inr ⟨m, hm, hq⟩⟩

theorem forest_id (n : ℕ) : Forest n id := ⟨fun _ h => h, fun x _ => ⟨x, .base rfl⟩⟩

/-- `[ufsfind(x) for x in l]` returns the representatives -/
theorem findAll_spec {n : ℕ} : ∀ (l : List ℕ) (u : ℕ → ℕ), Forest n u → (∀ x ∈ l, x < n) →
    ∃ rs v, findAll (n + 1) l u = some (rs, v) ∧ List.Forall₂ (Root u) l rs ∧ Forest n v ∧ ∀ y s, Root u y s → Root v y s
  | [], u, hf, _ => ⟨[], u, rfl, .nil, hf, fun _ _ h => h⟩
  | x :: l, u, hf, hl => by
    obtain ⟨r, u', h1, hr, hf', h3⟩ := find_spec hf (hl x (by simp))
    obtain ⟨rs, v, g1, g2, g3, g4⟩ := findAll_spec l u' hf' (fun z hz => hl z (by simp [hz]))
    refine ⟨r :: rs, v, by simp only [findAll, h1, g1], .cons hr ?_, g3, fun y s h => g4 y s (h3 y s h)⟩
    have : ∀ (l rs : List ℕ), (∀ x ∈ l, x < n) → List.Forall₂ (Root u') l rs → List.Forall₂ (Root u) l rs := by
      intro l rs hl h
      induction h with
      | nil => exact .nil
      | @cons a b _ _ hab _ ih =>
        obtain ⟨s, hs⟩ := hf.2 a (hl a (by simp))
        exact .cons (((h3 a s hs).unique hab) ▸ hs) (ih fun z hz => hl z (by simp [hz]))
    exact this l rs (fun z hz => hl z (by simp [hz])) g2

end Verif.ClearFree
