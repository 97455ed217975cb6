import Verif.Model.TernaryQuartic
import Verif.Props.StructUtils
import Verif.Props.Congruence
import Verif.Proofs.HomForm
import Mathlib.Tactic.Ring
import Mathlib.Tactic.Linarith
import Mathlib.Tactic.FieldSimp
import Mathlib.Tactic.LinearCombination
import Mathlib.Tactic.Positivity
import Mathlib.Tactic.IntervalCases
import Mathlib.Algebra.Order.Field.Basic
import Mathlib.Algebra.Order.BigOperators.Group.List

/-!
# C47: the ternary quartic solvers return identities with nonnegative weights
-/

set_option linter.unusedSectionVars false

namespace Verif.Ternary

open Verif Finset

variable {K : Type*} [Field K] [LinearOrder K] [IsStrictOrderedRing K]

/-- The numerator of a solution. -/
def Cert.num (C : Cert K) (a b c : K) : K := (C.terms.map fun t => t.1 * t.2 a b c).sum

/-- The nonnegative octant. -/
def Octant (a b c : K) : Prop := 0 ≤ a ∧ 0 ≤ b ∧ 0 ≤ c

/-- All points. -/
def Everywhere (_ _ _ : K) : Prop := True

/-- A solution of `f` on the domain `D`: numerator = denominator times `f` everywhere, the weights are nonnegative, the expressions and the denominator are
nonnegative on `D`, and the denominator vanishes at the origin only. -/
structure Proves (D : K → K → K → Prop) (f : Val3 K) (C : Cert K) : Prop where
  identity : ∀ a b c, C.num a b c = C.den a b c * f a b c
  weights : ∀ t ∈ C.terms, 0 ≤ t.1
  exprs : ∀ t ∈ C.terms, ∀ a b c, D a b c → 0 ≤ t.2 a b c
  den : ∀ a b c, D a b c → 0 ≤ C.den a b c
  pos : ∀ a b c, D a b c → ¬ (a = 0 ∧ b = 0 ∧ c = 0) → 0 < C.den a b c

theorem sum_pos_of_octant {a b c : K} (hD : Octant a b c) (h0 : ¬ (a = 0 ∧ b = 0 ∧ c = 0)) : 0 < a + b + c := by
  obtain ⟨ha, hb, hc⟩ := hD
  by_contra hle
  exact h0 ⟨by linarith, by linarith, by linarith⟩

/-- A solution shows that the polynomial is nonnegative at every point of the domain other than the origin. -/
theorem Proves.nonneg {D : K → K → K → Prop} {f : Val3 K} {C : Cert K} (h : Proves D f C) {a b c : K} (hD : D a b c) (hd : ¬ (a = 0 ∧ b = 0 ∧ c = 0)) :
    0 ≤ f a b c := by
  have hpos : 0 < C.den a b c := h.pos a b c hD hd
  have hnum : 0 ≤ C.num a b c := by
    unfold Cert.num
    apply List.sum_nonneg
    intro x hx
    obtain ⟨t, ht, rfl⟩ := List.mem_map.1 hx
    exact mul_nonneg (h.weights t ht) (h.exprs t ht a b c hD)
  rw [h.identity] at hnum
  exact nonneg_of_mul_nonneg_right hnum hpos

theorem Proves.mono {D D' : K → K → K → Prop} {f : Val3 K} {C : Cert K} (h : Proves D f C) (hD : ∀ a b c, D' a b c → D a b c) : Proves D' f C :=
  ⟨h.identity, h.weights, fun t ht a b c hd => h.exprs t ht a b c (hD a b c hd), fun a b c hd => h.den a b c (hD a b c hd),
    fun a b c hd => h.pos a b c (hD a b c hd)⟩

theorem Proves.congr {D : K → K → K → Prop} {f g : Val3 K} {C : Cert K} (h : Proves D f C) (hfg : ∀ a b c, f a b c = g a b c) : Proves D g C :=
  ⟨fun a b c => by rw [h.identity, hfg], h.weights, h.exprs, h.den, h.pos⟩

theorem plain_proves {D : K → K → K → Prop} {f : Val3 K} {l : List (K × Val3 K)} (hid : ∀ a b c, (l.map fun t => t.1 * t.2 a b c).sum = f a b c)
    (hw : ∀ t ∈ l, 0 ≤ t.1) (he : ∀ t ∈ l, ∀ a b c, D a b c → 0 ≤ t.2 a b c) : Proves D f (Cert.plain l) :=
  ⟨fun a b c => by change (l.map fun t => t.1 * t.2 a b c).sum = 1 * f a b c; rw [hid, one_mul], hw, he, fun _ _ _ _ => zero_le_one,
    fun _ _ _ _ _ => zero_lt_one⟩

theorem Proves.add {D : K → K → K → Prop} {f : Val3 K} {C : Cert K} (h : Proves D f C) {w : K} (hw : 0 ≤ w) {e : Val3 K} (he : ∀ a b c, D a b c → 0 ≤ e a b c) :
    Proves D (fun a b c => f a b c + w * e a b c) (C.add w e) := by
  refine ⟨?_, ?_, ?_, h.den, h.pos⟩
  · intro a b c
    change w * (e a b c * C.den a b c) + C.num a b c = _
    rw [h.identity]
    change _ = C.den a b c * (f a b c + w * e a b c)
    ring
  · intro t ht
    rcases List.mem_cons.1 ht with rfl | ht
    · exact hw
    · exact h.weights t ht
  · intro t ht a b c hD
    rcases List.mem_cons.1 ht with rfl | ht
    · exact mul_nonneg (he a b c hD) (h.den a b c hD)
    · exact h.exprs t ht a b c hD

theorem cyc3_nonneg {f : K → K → K → K} (hf : ∀ a b c, 0 ≤ a → 0 ≤ b → 0 ≤ c → 0 ≤ f a b c) (a b c : K) (h : Octant a b c) : 0 ≤ cyc3 f a b c := by
  obtain ⟨ha, hb, hc⟩ := h
  unfold cyc3
  have h1 := hf a b c ha hb hc
  have h2 := hf b c a hb hc ha
  have h3 := hf c a b hc ha hb
  linarith

theorem cyc3_nonneg_all {f : K → K → K → K} (hf : ∀ a b c, 0 ≤ f a b c) (a b c : K) : 0 ≤ cyc3 f a b c := by
  unfold cyc3
  have h1 := hf a b c
  have h2 := hf b c a
  have h3 := hf c a b
  linarith

theorem cyc3_nonneg_of {f : K → K → K → K} (a b c : K) (h : Octant a b c) (hf : ∀ a b c, 0 ≤ a → 0 ≤ b → 0 ≤ c → 0 ≤ f a b c) : 0 ≤ cyc3 f a b c :=
  cyc3_nonneg hf a b c h

theorem cyc3_nonneg_all_of {f : K → K → K → K} (a b c : K) (hf : ∀ a b c, 0 ≤ f a b c) : 0 ≤ cyc3 f a b c := cyc3_nonneg_all hf a b c

/-- The cyclic quartic `m Σa⁴ + p Σa³b + n Σa²b² + q Σab³ + r Σa²bc`. -/
def Quartic.poly (f : Quartic K) (a b c : K) : K :=
  f.m * (a ^ 4 + b ^ 4 + c ^ 4) + f.p * (a ^ 3 * b + b ^ 3 * c + c ^ 3 * a) + f.n * (a ^ 2 * b ^ 2 + b ^ 2 * c ^ 2 + c ^ 2 * a ^ 2) +
    f.q * (a * b ^ 3 + b * c ^ 3 + c * a ^ 3) + f.r * (a ^ 2 * b * c + b ^ 2 * c * a + c ^ 2 * a * b)

theorem quarticDegenerate_sound {f : Quartic K} {C : Cert K} (h : quarticDegenerate f = some C) : Proves Octant f.poly C := by
  unfold quarticDegenerate at h
  split at h
  · rename_i hc
    obtain ⟨hm, hp, hq, hn, hnr, hr⟩ := hc
    rw [← Option.some.inj h]
    apply plain_proves
    · intro a b c
      simp only [List.map_cons, List.map_nil, List.sum_cons, List.sum_nil, cyc3, Quartic.poly, hm, hp, hq]
      field_simp
      ring
    · intro t ht
      simp only [List.mem_cons, List.not_mem_nil, or_false] at ht
      rcases ht with rfl | rfl
      · change 0 ≤ (2 * f.n - f.r) / 3 / 2
        have : 0 ≤ 2 * f.n - f.r := by linarith
        positivity
      · change 0 ≤ f.n - (2 * f.n - f.r) / 3
        linarith
    · intro t ht a b c _
      simp only [List.mem_cons, List.not_mem_nil, or_false] at ht
      rcases ht with rfl | rfl
      · dsimp only; exact cyc3_nonneg_all_of a b c (by intro a b c; positivity)
      · exact sq_nonneg _
  · split at h
    · rename_i _ hc
      obtain ⟨hm, hp, hq, hrem, hn⟩ := hc
      simp only at h
      split at h
      · rename_i hn0
        rw [← Option.some.inj h]
        apply plain_proves
        · intro a b c
          simp only [List.map_cons, List.map_nil, List.sum_cons, List.sum_nil, cyc3, Quartic.poly, hm]
          field_simp
          ring
        · intro t ht
          simp only [List.mem_cons, List.not_mem_nil, or_false] at ht
          rcases ht with rfl | rfl
          · exact zero_le_one
          · exact hrem
        · intro t ht a b c hD
          simp only [List.mem_cons, List.not_mem_nil, or_false] at ht
          rcases ht with rfl | rfl
          · dsimp only; exact cyc3_nonneg_of a b c hD (by intro a b c ha hb hc; positivity)
          · dsimp only; exact cyc3_nonneg_of a b c hD (by intro a b c ha hb hc; positivity)
      · rw [Option.map_eq_some_iff] at h
        obtain ⟨l, hl, hC⟩ := h
        obtain ⟨hw, hsum⟩ := quadraticWeighting_sound f.p f.n f.q l hl
        rw [← hC]
        apply plain_proves
        · intro a b c
          rw [List.map_append, List.sum_append, List.map_map]
          have hlist : ∀ l : List (K × K × K), (l.map ((fun t : K × Val3 K => t.1 * t.2 a b c) ∘
              fun w => (w.1, cyc3 fun a b c => b * c * (w.2.1 * (a - b) + w.2.2 * (a - c)) ^ 2))).sum =
              b * c * (l.map fun w => w.1 * (w.2.1 * (a - b) + w.2.2 * (a - c)) ^ 2).sum +
              c * a * (l.map fun w => w.1 * (w.2.1 * (b - c) + w.2.2 * (b - a)) ^ 2).sum +
              a * b * (l.map fun w => w.1 * (w.2.1 * (c - a) + w.2.2 * (c - b)) ^ 2).sum := by
            intro l
            induction l with
            | nil => simp
            | cons w l ih =>
              simp only [List.map_cons, List.sum_cons, ih, Function.comp_apply, cyc3]
              ring
          rw [hlist, hsum, hsum, hsum]
          simp only [List.map_cons, List.map_nil, List.sum_cons, List.sum_nil, cyc3, Quartic.poly, hm]
          ring
        · intro t ht
          rcases List.mem_append.1 ht with ht | ht
          · obtain ⟨w, hwl, rfl⟩ := List.mem_map.1 ht
            exact hw w hwl
          · rw [List.mem_singleton] at ht
            rw [ht]
            exact hrem
        · intro t ht a b c hD
          rcases List.mem_append.1 ht with ht | ht
          · obtain ⟨w, hwl, rfl⟩ := List.mem_map.1 ht
            dsimp only; exact cyc3_nonneg_of a b c hD (by intro a b c ha hb hc; positivity)
          · rw [List.mem_singleton] at ht
            rw [ht]
            dsimp only; exact cyc3_nonneg_of a b c hD (by intro a b c ha hb hc; positivity)
    · simp at h

/-- The core solver with a nonzero leading coefficient: a solution on all real points. -/
theorem quarticCore_real {f : Quartic K} (hm : f.m ≠ 0) {C : Cert K} (h : quarticCore f = some C) : Proves Everywhere f.poly C := by
  unfold quarticCore at h
  rw [if_neg hm] at h
  simp only at h
  split at h
  · simp at h
  · rename_i hc
    push Not at hc
    obtain ⟨hm0, hdet, hrem⟩ := hc
    rw [← Option.some.inj h]
    apply plain_proves
    · intro a b c
      simp only [List.map_cons, List.map_nil, List.sum_cons, List.sum_nil, cyc3, Quartic.poly]
      field_simp
      ring
    · intro t ht
      simp only [List.mem_cons, List.not_mem_nil, or_false] at ht
      rcases ht with rfl | rfl | rfl
      · change 0 ≤ f.m / 2
        positivity
      · exact div_nonneg (div_nonneg hdet (by norm_num)) hm0
      · exact hrem
    · intro t ht a b c _
      simp only [List.mem_cons, List.not_mem_nil, or_false] at ht
      rcases ht with rfl | rfl | rfl
      · dsimp only; exact cyc3_nonneg_all_of a b c (by intro a b c; positivity)
      · dsimp only; exact cyc3_nonneg_all_of a b c (by intro a b c; positivity)
      · exact sq_nonneg _

theorem quarticCore_sound {f : Quartic K} {C : Cert K} (h : quarticCore f = some C) : Proves Octant f.poly C := by
  by_cases hm : f.m = 0
  · unfold quarticCore at h
    rw [if_pos hm] at h
    exact quarticDegenerate_sound h
  · exact (quarticCore_real hm h).mono fun _ _ _ _ => trivial

theorem quarticBorder_sound {irr : K → Bool} {f : Quartic K} (hm : 0 < f.m) {C : Cert K} (h : quarticBorder irr f = some C) : Proves Octant f.poly C := by
  unfold quarticBorder at h
  simp only at h
  split at h
  · rename_i hc
    obtain ⟨hp, hn⟩ := hc
    split at h
    · split at h
      · rename_i hy
        rw [← Option.some.inj h]
        obtain ⟨t, ht⟩ : ∃ t, t = f.q / 2 / f.m := ⟨_, rfl⟩
        rw [← ht] at hn ⊢
        have hq : f.q = 2 * t * f.m := by rw [ht]; field_simp
        refine ⟨?_, ?_, ?_, ?_, ?_⟩
        · intro a b c
          simp only [Cert.num, List.map_cons, List.map_nil, List.sum_cons, List.sum_nil, cyc3, cycp3, Quartic.poly, hp, hn, hq]
          field_simp
          ring
        · intro s hs
          simp only [List.mem_cons, List.not_mem_nil, or_false] at hs
          rcases hs with rfl | rfl | rfl
          · exact hm.le
          · change 0 ≤ (t ^ 2 + 3) / 2 * f.m
            positivity
          · exact hy
        · intro s hs a b c hD
          obtain ⟨ha, hb, hc⟩ := hD
          simp only [List.mem_cons, List.not_mem_nil, or_false] at hs
          rcases hs with rfl | rfl | rfl
          · dsimp only; exact cyc3_nonneg_of a b c ⟨ha, hb, hc⟩ (by intro a b c ha hb hc; positivity)
          · simp only [cyc3, cycp3]; positivity
          · simp only [cyc3, cycp3]; positivity
        · intro a b c hD
          exact cyc3_nonneg (fun a b c ha hb hc => ha) a b c hD
        · intro a b c hD h0
          exact sum_pos_of_octant hD h0
      · simp at h
    · simp at h
  · simp at h

theorem quarticBiased_sound {irr : K → Bool} {rational : Bool} {u : Option K} {f : Quartic K} (hm : 0 < f.m) (hrem : 0 ≤ f.m + f.p + f.n + f.q + f.r) {C : Cert K}
    (h : quarticBiased irr rational u f = some C) : Proves Octant f.poly C := by
  have hrest : ∀ C, (match u with
      | none => none
      | some u =>
        if 0 ≤ (((2 * (f.q / f.m) + f.p / f.m) * u + 6) * u + 2 * (f.p / f.m) + f.q / f.m) / (2 * (u ^ 2 * (u ^ 2 + 1) + 1)) * f.m then
          (quarticCore ⟨f.m - (((2 * (f.q / f.m) + f.p / f.m) * u + 6) * u + 2 * (f.p / f.m) + f.q / f.m) / (2 * (u ^ 2 * (u ^ 2 + 1) + 1)) * f.m * 0,
            f.p - (((2 * (f.q / f.m) + f.p / f.m) * u + 6) * u + 2 * (f.p / f.m) + f.q / f.m) / (2 * (u ^ 2 * (u ^ 2 + 1) + 1)) * f.m * 1,
            f.n - (((2 * (f.q / f.m) + f.p / f.m) * u + 6) * u + 2 * (f.p / f.m) + f.q / f.m) / (2 * (u ^ 2 * (u ^ 2 + 1) + 1)) * f.m * (-2 * u),
            f.q - (((2 * (f.q / f.m) + f.p / f.m) * u + 6) * u + 2 * (f.p / f.m) + f.q / f.m) / (2 * (u ^ 2 * (u ^ 2 + 1) + 1)) * f.m * u ^ 2,
            f.r - (((2 * (f.q / f.m) + f.p / f.m) * u + 6) * u + 2 * (f.p / f.m) + f.q / f.m) / (2 * (u ^ 2 * (u ^ 2 + 1) + 1)) * f.m * (2 * u - u ^ 2 - 1) -
              (f.m + f.n + f.p + f.q + f.r)⟩).map fun C =>
            (C.add (f.m + f.n + f.p + f.q + f.r) (cyc3 fun a b c => a ^ 2 * b * c)).add
              ((((2 * (f.q / f.m) + f.p / f.m) * u + 6) * u + 2 * (f.p / f.m) + f.q / f.m) / (2 * (u ^ 2 * (u ^ 2 + 1) + 1)) * f.m)
              (cyc3 fun a b c => a * b * (a - u * b + (u - 1) * c) ^ 2)
        else none) = some C → Proves Octant f.poly C := by
    intro C hC
    cases u with
    | none => simp at hC
    | some u =>
      simp only at hC
      generalize (((2 * (f.q / f.m) + f.p / f.m) * u + 6) * u + 2 * (f.p / f.m) + f.q / f.m) / (2 * (u ^ 2 * (u ^ 2 + 1) + 1)) * f.m = y at hC
      split at hC
      · rename_i hy
        rw [Option.map_eq_some_iff] at hC
        obtain ⟨C', hC', rfl⟩ := hC
        refine (((quarticCore_sound hC').add (w := f.m + f.n + f.p + f.q + f.r) (by linarith)
          (cyc3_nonneg fun a b c ha hb hc => by positivity)).add hy (cyc3_nonneg fun a b c ha hb hc => by positivity)).congr ?_
        intro a b c
        simp only [Quartic.poly, cyc3]
        ring
      · simp at hC
  unfold quarticBiased at h
  simp only at h
  split at h
  · split at h
    · rename_i C' hb
      rw [← Option.some.inj h]
      exact quarticBorder_sound hm hb
    · exact hrest C h
  · exact hrest C h

theorem quarticRealLoop_sound {f : Quartic K} (hm : 0 < f.m) {s : K} (hs : 0 < s) {eq : K → K} : ∀ {ws : List K} {C : Cert K},
    quarticRealLoop f s eq ws = some C → Proves Octant f.poly C
  | [], C, h => by simp [quarticRealLoop] at h
  | w :: ws, C, h => by
    unfold quarticRealLoop at h
    split at h
    · rename_i hv
      simp only at h
      split at h
      · rename_i C' hC'
        rw [← Option.some.inj h]
        have hz : 0 ≤ s / (1 - w) ^ 2 / 9 * f.m := by positivity
        refine ((quarticCore_sound hC').add hz (e := fun a b c => cyc3 (fun a b _ => a ^ 2 - w * a * b) a b c ^ 2) fun a b c _ => sq_nonneg _).congr ?_
        intro a b c
        simp only [Quartic.poly, cyc3]
        ring
      · exact quarticRealLoop_sound hm hs h
    · exact quarticRealLoop_sound hm hs h

theorem quarticReal_sound {approx : K → K} {f : Quartic K} {C : Cert K} (h : quarticReal approx f = some C) : Proves Octant f.poly C := by
  unfold quarticReal at h
  split at h
  · split at h
    · exact quarticDegenerate_sound h
    · simp at h
  · rename_i hm0
    split at h
    · simp at h
    · rename_i hm1
      have hm : 0 < f.m := lt_of_le_of_ne (not_lt.1 hm1) (Ne.symm hm0)
      simp only at h
      split at h
      · simp at h
      · rename_i hs0
        split at h
        · exact quarticCore_sound h
        · rename_i hs1
          push Not at hs1
          exact quarticRealLoop_sound hm (lt_of_le_of_ne (not_lt.1 hs0) (Ne.symm hs1.2)) h

theorem quarticTightLoop_sound {approx : K → K} {f : Quartic K} (hm : 0 < f.m) : ∀ {xs : List K} {C : Cert K},
    quarticTightLoop approx f xs = some C → Proves Octant f.poly C
  | [], C, h => by simp [quarticTightLoop] at h
  | x :: xs, C, h => by
    unfold quarticTightLoop at h
    split at h
    · rename_i hx
      split at h
      · rename_i C' hC'
        rw [← Option.some.inj h]
        have hw : 0 ≤ (f.r / f.m - x) * f.m := mul_nonneg (by linarith) hm.le
        refine ((quarticReal_sound hC').add hw (cyc3_nonneg fun a b c ha hb hc => by positivity)).congr ?_
        intro a b c
        simp only [Quartic.poly, cyc3]
        field_simp
        ring
      · exact quarticTightLoop_sound hm h
    · exact quarticTightLoop_sound hm h

/-- **C47.** Whatever candidates the searches supply, the cyclic quartic solver never raises, and an answer is an identity with nonnegative weights
whose expressions are nonnegative on the octant. -/
theorem quarticSolve_sound (irr : K → Bool) (rational : Bool) (approx : K → K) (u : Option K) (xs : List K) (f : Quartic K) :
    ∃ r, quarticSolve irr rational approx u xs f = .ok r ∧ ∀ C, r = some C → Proves Octant f.poly C := by
  unfold quarticSolve
  split
  · rename_i C hC
    refine ⟨some C, rfl, ?_⟩
    intro C' h
    rw [← Option.some.inj h]
    exact quarticReal_sound hC
  · simp only
    split
    · exact ⟨none, rfl, by simp⟩
    · rename_i hc
      push Not at hc
      obtain ⟨hm0, hrem⟩ := hc
      split
      · exact ⟨_, rfl, fun C h => quarticDegenerate_sound h⟩
      · rename_i hmne
        have hm : 0 < f.m := lt_of_le_of_ne hm0 (Ne.symm hmne)
        split
        · rename_i hdet
          split
          · rename_i C hC
            refine ⟨_, rfl, ?_⟩
            intro C' h
            rw [← Option.some.inj h]
            refine ((quarticCore_sound hC).add hrem (cyc3_nonneg fun a b c ha hb hc => by positivity)).congr ?_
            intro a b c
            simp only [Quartic.poly, cyc3]
            ring
          · rename_i hC
            exfalso
            unfold quarticCore at hC
            simp only at hC
            rw [if_neg hmne, if_neg ?_] at hC
            · simp at hC
            · have e : f.m + f.n + f.p + f.q + -(f.m + f.p + f.n + f.q) = 0 := by ring
              rw [e]
              push Not
              refine ⟨hm0, ?_, by norm_num⟩
              rw [zero_div, sub_zero]
              exact hdet
        · split
          · exact ⟨_, rfl, fun C h => quarticBiased_sound hm hrem h⟩
          · exact ⟨_, rfl, fun C h => quarticTightLoop_sound hm h⟩

/-- The answer proves the inequality at every point of the octant. -/
theorem quarticSolve_nonneg (irr : K → Bool) (rational : Bool) (approx : K → K) (u : Option K) (xs : List K) (f : Quartic K) {C : Cert K}
    (h : quarticSolve irr rational approx u xs f = .ok (some C)) {a b c : K} (hD : Octant a b c) : 0 ≤ f.poly a b c := by
  obtain ⟨r, h1, h2⟩ := quarticSolve_sound irr rational approx u xs f
  rw [h1] at h
  by_cases h0 : a = 0 ∧ b = 0 ∧ c = 0
  · obtain ⟨rfl, rfl, rfl⟩ := h0
    simp [Quartic.poly]
  · exact (h2 C (Except.ok.inj h)).nonneg hD h0

/-- Completeness of the core theorem: with a zero at `(1,1,1)` and positive leading coefficient, the discriminant condition is exactly when it answers. -/
theorem quarticCore_complete {f : Quartic K} (hm : 0 < f.m) (hzero : f.m + f.n + f.p + f.q + f.r = 0) :
    (∃ C, quarticCore f = some C) ↔ 0 ≤ 3 * f.m * (f.m + f.n) - (f.p ^ 2 + f.p * f.q + f.q ^ 2) := by
  unfold quarticCore
  rw [if_neg hm.ne']
  simp only [hzero, zero_div, sub_zero]
  constructor
  · rintro ⟨C, hC⟩
    by_contra hneg
    rw [if_pos (Or.inr (Or.inl (not_le.1 hneg)))] at hC
    simp at hC
  · intro h
    rw [if_neg (by push Not; exact ⟨hm.le, h, le_refl _⟩)]
    exact ⟨_, rfl⟩

/-- The five numbers read by the solver determine a cyclic quartic polynomial. -/
theorem quartic_ofCoeff (co : Coeff K) (h : co.WF) (hn : co.nvars = 3) (hd : co.Hom 4) (hc : co.isCyclicDefault = true) (a b c : K) :
    Coeff.evalDict co.coeffs [a, b, c] = (Quartic.ofCoeff co).poly a b c := by
  have hrot := (Coeff.isCyclicDefault_iff co h (by omega)).1 hc
  rw [Coeff.evalDict_hom co h 4 hd, hn]
  have e : generatePartitions 3 4 true = [[4, 0, 0], [3, 1, 0], [3, 0, 1], [2, 2, 0], [2, 1, 1], [2, 0, 2], [1, 3, 0], [1, 2, 1], [1, 1, 2], [1, 0, 3],
    [0, 4, 0], [0, 3, 1], [0, 2, 2], [0, 1, 3], [0, 0, 4]] := by decide +kernel
  have r1 : ∀ x y z : ℕ, co.call [y, z, x] = co.call [x, y, z] := fun x y z => hrot [x, y, z] 1 (by simp [hn])
  have r2 : ∀ x y z : ℕ, co.call [z, x, y] = co.call [x, y, z] := fun x y z => hrot [x, y, z] 2 (by simp [hn])
  rw [e]
  simp only [List.map_cons, List.map_nil, List.sum_cons, List.sum_nil, Coeff.evalMonom, List.zipWith_cons_cons, List.zipWith_nil_left, List.zipWith_nil_right,
    List.prod_cons, List.prod_nil, Quartic.poly, Quartic.ofCoeff]
  rw [r1 4 0 0, r2 4 0 0, r1 3 1 0, r2 3 1 0, r1 2 2 0, r2 2 2 0, r1 1 3 0, r2 1 3 0, r1 2 1 1, r2 2 1 1]
  ring

/-- **C47 (on polynomials).** For every cyclic quartic polynomial in three variables an answer of the solver is an identity for it and shows that it is
nonnegative on the octant. -/
theorem quarticSolve_polynomial (irr : K → Bool) (rational : Bool) (approx : K → K) (u : Option K) (xs : List K) (co : Coeff K) (h : co.WF) (hn : co.nvars = 3)
    (hd : co.Hom 4) (hc : co.isCyclicDefault = true) {C : Cert K} (hs : quarticSolve irr rational approx u xs (Quartic.ofCoeff co) = .ok (some C)) (a b c : K) :
    C.num a b c = C.den a b c * Coeff.evalDict co.coeffs [a, b, c] ∧ (Octant a b c → 0 ≤ Coeff.evalDict co.coeffs [a, b, c]) := by
  rw [quartic_ofCoeff co h hn hd hc]
  refine ⟨?_, quarticSolve_nonneg irr rational approx u xs _ hs⟩
  obtain ⟨r, h1, h2⟩ := quarticSolve_sound irr rational approx u xs (Quartic.ofCoeff co)
  rw [h1] at hs
  exact (h2 C (Except.ok.inj hs)).identity a b c

/-- A cyclic quartic polynomial with its coefficient table. -/
def exQuarticCoeff : Coeff ℚ := ⟨[([4, 0, 0], 1), ([0, 4, 0], 1), ([0, 0, 4], 1), ([3, 1, 0], -3), ([0, 3, 1], -3), ([1, 0, 3], -3),
  ([2, 2, 0], 2), ([0, 2, 2], 2), ([2, 0, 2], 2)], 3⟩
example : exQuarticCoeff.WF ∧ exQuarticCoeff.Hom 4 ∧ exQuarticCoeff.isCyclicDefault = true ∧
    (match quarticSolve (fun _ => false) true id none [] (Quartic.ofCoeff exQuarticCoeff) with | .ok (some _) => true | _ => false) = true := by
  exact ⟨⟨by decide, by decide⟩, by unfold Coeff.Hom; decide, by decide +kernel, by decide +kernel⟩

/-- `(a²+b²+c²)² ≥ 3(a³b+b³c+c³a)` is answered by the core solver. -/
example : ∃ C, quarticCore (⟨1, -3, 2, 0, 0⟩ : Quartic ℚ) = some C :=
  (quarticCore_complete (f := ⟨1, -3, 2, 0, 0⟩) (by norm_num) (by norm_num)).2 (by norm_num)
example : (quarticReal id (⟨4, -5, 7, -9, 4⟩ : Quartic ℚ)).isSome = true := by decide +kernel
example : (quarticDegenerate (⟨0, 1, -14/5, 2, -1/5⟩ : Quartic ℚ)).isSome = true := by decide +kernel
example : (quarticBorder (fun _ => true) (⟨1, 4, 2, -4, -3⟩ : Quartic ℚ)).isSome = true := by decide +kernel

/-! ### Acyclic quartics symmetric in two variables -/

/-- The quartic symmetric in `a` and `b`. -/
def SymQuartic.poly (f : SymQuartic K) (a b c : K) : K :=
  f.c400 * (a ^ 4 + b ^ 4) + f.c310 * (a ^ 3 * b + a * b ^ 3) + f.c220 * (a ^ 2 * b ^ 2) + f.c301 * (a ^ 3 * c + b ^ 3 * c) +
    f.c211 * (a ^ 2 * b * c + a * b ^ 2 * c) + f.c202 * (a ^ 2 * c ^ 2 + b ^ 2 * c ^ 2) + f.c103 * (a * c ^ 3 + b * c ^ 3) + f.c112 * (a * b * c ^ 2) + f.c004 * c ^ 4

theorem rowForm_eq (n : ℕ) (U : ℕ → ℕ → K) (k : ℕ) (v : ℕ → K) : rowForm n U k v = ∑ i ∈ range n, U k i * v i := by
  unfold rowForm
  induction n with
  | zero => simp
  | succ n ih => rw [List.range_succ, List.map_append, List.sum_append, ih, sum_range_succ]; simp

theorem symSolution_sound {f : SymQuartic K} {r00 r01 r11 l : K} {C : Cert K} (h : symSolution f r00 r01 r11 l = .ok (some C)) :
    Proves Everywhere f.poly C := by
  unfold symSolution at h
  cases h1 : congruence 4 (symM1 f r00 r01 r11 l) with
  | error e => rw [h1] at h; simp [Except.bind] at h
  | ok r1 =>
    cases h2 : congruence 2 (symM2 r00 r01 r11) with
    | error e => rw [h1, h2] at h; simp [Except.bind, Except.map] at h
    | ok r2 =>
      rw [h1, h2] at h
      match r1, r2, h1, h2, h with
      | some (U1, S1), some (U2, S2), h1, h2, h =>
        have hC := Option.some.inj (Except.ok.inj h)
        have hs1 : ∀ r c, r < 4 → c < 4 → symM1 f r00 r01 r11 l r c = symM1 f r00 r01 r11 l c r := by
          intro r c hr hc
          interval_cases r <;> interval_cases c <;> rfl
        have hs2 : ∀ r c, r < 2 → c < 2 → symM2 r00 r01 r11 r c = symM2 r00 r01 r11 c r := by
          intro r c hr hc
          interval_cases r <;> interval_cases c <;> rfl
        have n1 := (congruence_sound 4 _ hs1 U1 S1 h1).2.2
        have n2 := (congruence_sound 2 _ hs2 U2 S2 h2).2.2
        rw [← hC]
        apply plain_proves
        · intro a b c
          have e1 := congruence_sum_of_squares 4 _ hs1 U1 S1 h1 (symV1 a b c)
          have e2 := congruence_sum_of_squares 2 _ hs2 U2 S2 h2 (symV2 a b c)
          rw [List.map_append, List.sum_append, List.map_map, List.map_map]
          have g1 : ((List.range 4).map ((fun t : K × Val3 K => t.1 * t.2 a b c) ∘ fun k => (S1 k, fun a b c => rowForm 4 U1 k (symV1 a b c) ^ 2))).sum =
              quadForm 4 (symM1 f r00 r01 r11 l) (symV1 a b c) := by
            rw [e1]
            simp only [← rowForm_eq]
            simp [List.range_succ, sum_range_succ]
            ring
          have g2 : ((List.range 2).map ((fun t : K × Val3 K => t.1 * t.2 a b c) ∘
              fun k => (S2 k, fun a b c => (a - b) ^ 2 * rowForm 2 U2 k (symV2 a b c) ^ 2))).sum = (a - b) ^ 2 * quadForm 2 (symM2 r00 r01 r11) (symV2 a b c) := by
            rw [e2]
            simp only [← rowForm_eq]
            simp [List.range_succ, sum_range_succ]
            ring
          rw [g1, g2]
          simp only [quadForm, sum_range_succ, sum_range_zero, symM1, symM2, symV1, symV2, List.getD_cons_zero, List.getD_cons_succ, SymQuartic.poly]
          ring
        · intro t ht
          rcases List.mem_append.1 ht with ht | ht
          · obtain ⟨k, hk, rfl⟩ := List.mem_map.1 ht
            exact n1 k (List.mem_range.1 hk)
          · obtain ⟨k, hk, rfl⟩ := List.mem_map.1 ht
            exact n2 k (List.mem_range.1 hk)
        · intro t ht a b c _
          rcases List.mem_append.1 ht with ht | ht
          · obtain ⟨k, hk, rfl⟩ := List.mem_map.1 ht
            exact sq_nonneg _
          · obtain ⟨k, hk, rfl⟩ := List.mem_map.1 ht
            exact mul_nonneg (sq_nonneg _) (sq_nonneg _)
      | none, _, _, _, h => simp [Except.bind, Except.map] at h
      | some _, none, _, _, h => simp [Except.bind, Except.map] at h

/-- **C47 (quartics symmetric in two variables).** Whatever candidates are tried, an answer is an identity with nonnegative weights and squares, valid at
every real point. -/
theorem symQuartic_sound {f : SymQuartic K} : ∀ {xs : List (K × K × K × K)} {C : Cert K}, symQuartic f xs = .ok (some C) → Proves Everywhere f.poly C
  | [], C, h => by simp [symQuartic] at h
  | x :: xs, C, h => by
    unfold symQuartic at h
    cases hs : symSolution f x.1 x.2.1 x.2.2.1 x.2.2.2 with
    | error e => rw [hs] at h; simp [Except.bind] at h
    | ok r =>
      rw [hs] at h
      cases r with
      | none => exact symQuartic_sound h
      | some C' =>
        rw [← Option.some.inj (Except.ok.inj h)]
        exact symSolution_sound hs

/-- `(a-b)^4 + c^2 (a-b)^2`. -/
example : (match symQuartic (⟨1, -4, 6, 0, 0, 1, 0, -2, 0⟩ : SymQuartic ℚ) [(0, 0, 1, 0)] with | .ok (some _) => true | _ => false) = true := by decide +kernel

end Verif.Ternary
