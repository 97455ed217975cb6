import Verif.Model.SdpSolve
import Verif.Props.Congruence
import Verif.Props.Sdp
import Mathlib.Data.Rat.Floor
import Mathlib.Tactic.Ring
import Mathlib.Tactic.FieldSimp
import Mathlib.Tactic.NormNum

/-!
# C90: what `solve` of an SDP problem leaves behind
-/

set_option linter.unusedSectionVars false

namespace Verif.SdpSolve
open Verif Verif.Sdp Verif.SdpUtils Finset

variable {K : Type*} [Field K] [LinearOrder K] [IsStrictOrderedRing K]

/-- `A = Uᵀ diag(D) U` with weights that are not negative. -/
def Decomposes (A : Mat K) (r : LDL K) : Prop :=
  ∃ k : ℕ, (∀ i j, i < A.1 → j < A.1 → A.2 i j = ∑ l ∈ range k, r.1 l i * r.2 l * r.1 l j) ∧ ∀ l, l < k → 0 ≤ r.2 l

/-- The matrices of the problem are symmetric at every vector. -/
def Prob.Sym (P : Prob K) : Prop :=
  ∀ y Ss, P.mats y = .ok Ss → ∀ A ∈ Ss, ∀ i j, i < A.1 → j < A.1 → A.2 i j = A.2 j i

/-- What a user reads from a solved problem: an exact vector, its matrices, and for each of them a decomposition that can
be unpacked and proves that the matrix is positive semidefinite. -/
def Certified (P : Prob K) (st : St K) : Prop :=
  ∃ y Ss rs, st.y = some (.sympy, y) ∧ P.mats y = .ok Ss ∧ st.S = some Ss ∧ st.dec = some (rs.map Pack.pair) ∧
    List.Forall₂ Decomposes Ss rs

/-! ## Decompositions -/

theorem congPert_sound (E : Ext K) (A : Mat K) (hsym : ∀ i j, i < A.1 → j < A.1 → A.2 i j = A.2 j i) (r : LDL K)
    (h : congPert E false A = .ok (some r)) : Decomposes A r := by
  unfold congPert at h
  by_cases hn : A.1 = 0
  · rw [if_pos hn] at h
    exact ⟨0, fun i j hi _ => by omega, fun l hl => by omega⟩
  · rw [if_neg hn, if_pos (by rfl)] at h
    obtain ⟨h1, -, h3⟩ := congruence_sound A.1 A.2 hsym r.1 r.2 h
    exact ⟨A.1, h1, h3⟩

theorem congPert_psd (E : Ext K) (A : Mat K) (h : PSD A.1 A.2) : ∃ r, congPert E false A = .ok (some r) := by
  unfold congPert
  by_cases hn : A.1 = 0
  · exact ⟨_, if_pos hn⟩
  · rw [if_neg hn, if_pos (by rfl)]
    cases hc : congruence A.1 A.2 with
    | error e => exact absurd ((congruence_error_iff A.1 A.2 e).1 hc).1 hn
    | ok o =>
      cases o with
      | some r => exact ⟨r, rfl⟩
      | none =>
        obtain ⟨x, hx⟩ := (congruence_none_iff A.1 hn A.2 h.1).1 hc
        have := h.2 x
        unfold quadForm at hx
        exact absurd hx (not_lt.2 this)

theorem congPert_noerr (E : Ext K) (p : Bool) (A : Mat K) (e : PyErr) : congPert E p A ≠ .error e := by
  unfold congPert
  by_cases hn : A.1 = 0
  · rw [if_pos hn]; exact fun h => by cases h
  · have hc : congruence A.1 A.2 ≠ .error e := fun h => hn ((congruence_error_iff A.1 A.2 e).1 h).1
    rw [if_neg hn]
    split_ifs
    · exact hc
    · split
      · exact fun h => by cases h
      · exact hc
    · exact hc

theorem decompAll_noerr (E : Ext K) (p : Bool) (e : PyErr) : ∀ Ss : List (Mat K), decompAll E p Ss ≠ .error e
  | [] => fun h => by cases h
  | A :: l => by
    intro h
    unfold decompAll at h
    cases hc : congPert E p A with
    | error e' => exact congPert_noerr E p A e' hc
    | ok o =>
      rw [hc] at h
      cases o with
      | none => cases h
      | some r =>
        dsimp only at h
        cases hd : decompAll E p l with
        | error e' => exact decompAll_noerr E p e' l hd
        | ok o' =>
          rw [hd] at h
          cases o' <;> cases h

theorem decompAll_sound (E : Ext K) : ∀ (Ss : List (Mat K)) (rs : List (LDL K)),
    (∀ A ∈ Ss, ∀ i j, i < A.1 → j < A.1 → A.2 i j = A.2 j i) → decompAll E false Ss = .ok (some rs) → List.Forall₂ Decomposes Ss rs
  | [], rs, _, h => by
    unfold decompAll at h
    cases h
    exact .nil
  | A :: l, rs, hs, h => by
    unfold decompAll at h
    cases hc : congPert E false A with
    | error e' => rw [hc] at h; cases h
    | ok o =>
      rw [hc] at h
      cases o with
      | none => cases h
      | some r =>
        dsimp only at h
        cases hd : decompAll E false l with
        | error e' => rw [hd] at h; cases h
        | ok o' =>
          rw [hd] at h
          cases o' with
          | none => cases h
          | some rs' =>
            cases h
            exact .cons (congPert_sound E A (hs A (by simp)) r hc)
              (decompAll_sound E l rs' (fun B hB => hs B (by simp [hB])) hd)

theorem decompAll_psd (E : Ext K) : ∀ (Ss : List (Mat K)), (∀ A ∈ Ss, PSD A.1 A.2) → ∃ rs, decompAll E false Ss = .ok (some rs)
  | [], _ => ⟨[], rfl⟩
  | A :: l, h => by
    obtain ⟨r, hr⟩ := congPert_psd E A (h A (by simp))
    obtain ⟨rs, hrs⟩ := decompAll_psd E l fun B hB => h B (by simp [hB])
    refine ⟨r :: rs, ?_⟩
    unfold decompAll
    rw [hr]; dsimp only; rw [hrs]

theorem decompAll_length (E : Ext K) (p : Bool) : ∀ (Ss : List (Mat K)) (rs : List (LDL K)),
    decompAll E p Ss = .ok (some rs) → rs.length = Ss.length
  | [], rs, h => by
    unfold decompAll at h
    cases h; rfl
  | A :: l, rs, h => by
    unfold decompAll at h
    cases hc : congPert E p A with
    | error e' => rw [hc] at h; cases h
    | ok o =>
      rw [hc] at h
      cases o with
      | none => cases h
      | some r =>
        dsimp only at h
        cases hd : decompAll E p l with
        | error e' => rw [hd] at h; cases h
        | ok o' =>
          rw [hd] at h
          cases o' with
          | none => cases h
          | some rs' =>
            cases h
            simp [decompAll_length E p l rs' hd]

/-- a matrix with such a decomposition is positive semidefinite -/
theorem Decomposes.psd {A : Mat K} {r : LDL K} (h : Decomposes A r) : PSD A.1 A.2 := by
  obtain ⟨k, h1, h2⟩ := h
  refine ⟨fun i j hi hj => ?_, fun x => ?_⟩
  · rw [h1 i j hi hj, h1 j i hj hi]
    exact Finset.sum_congr rfl fun l _ => by ring
  · have e : ∑ i ∈ range A.1, ∑ j ∈ range A.1, x i * A.2 i j * x j = ∑ l ∈ range k, r.2 l * (∑ i ∈ range A.1, r.1 l i * x i) ^ 2 := by
      have e1 : ∑ i ∈ range A.1, ∑ j ∈ range A.1, x i * A.2 i j * x j
          = ∑ i ∈ range A.1, ∑ j ∈ range A.1, ∑ l ∈ range k, r.2 l * ((r.1 l i * x i) * (r.1 l j * x j)) := by
        refine Finset.sum_congr rfl fun i hi => Finset.sum_congr rfl fun j hj => ?_
        rw [h1 i j (mem_range.1 hi) (mem_range.1 hj), Finset.mul_sum, Finset.sum_mul]
        exact Finset.sum_congr rfl fun l _ => by ring
      have e2 : ∀ l, r.2 l * (∑ i ∈ range A.1, r.1 l i * x i) ^ 2
          = ∑ i ∈ range A.1, ∑ j ∈ range A.1, r.2 l * ((r.1 l i * x i) * (r.1 l j * x j)) := by
        intro l
        rw [sq, Finset.sum_mul_sum, Finset.mul_sum]
        exact Finset.sum_congr rfl fun i _ => by rw [Finset.mul_sum]
      rw [e1, Finset.sum_congr rfl (fun l _ => e2 l), Finset.sum_comm]
      rw [Finset.sum_comm]
      rw [Finset.sum_congr rfl (fun i _ => Finset.sum_comm)]
      rw [Finset.sum_comm]
    rw [e]
    exact Finset.sum_nonneg fun l hl => mul_nonneg (h2 l (mem_range.1 hl)) (sq_nonneg _)

/-! ## `verify_is_pretty` and the simultaneous rounding -/

/-- the least common multiple of all denominators -/
def lcmAll (den : K → ℕ) (y : List K) : ℕ := y.foldr (fun v l => Nat.lcm (den v) l) 1

theorem prettyLoop_iff (den : K → ℕ) (s : ℕ) : ∀ (y : List K) (l : ℕ), 0 < l → l ≤ s → (∀ v ∈ y, 0 < den v) →
    (prettyLoop den s l y = true ↔ Nat.lcm l (lcmAll den y) ≤ s)
  | [], l, _, hs, _ => by simp [prettyLoop, lcmAll, hs]
  | v :: vs, l, hl, hs, hd => by
    have hv : 0 < den v := hd v (by simp)
    have hr : ∀ w ∈ vs, 0 < den w := fun w hw => hd w (by simp [hw])
    have hpos : ∀ (z : List K), (∀ w ∈ z, 0 < den w) → 0 < lcmAll den z := by
      intro z
      induction z with
      | nil => intro _; exact Nat.one_pos
      | cons a z ih => intro h; exact Nat.lcm_pos (h a (by simp)) (ih fun w hw => h w (by simp [hw]))
    have e : Nat.lcm l (lcmAll den (v :: vs)) = Nat.lcm (Nat.lcm l (den v)) (lcmAll den vs) := by
      unfold lcmAll
      rw [List.foldr_cons, Nat.lcm_assoc]
    rw [e]
    unfold prettyLoop
    by_cases hc : s < Nat.lcm l (den v)
    · rw [if_pos hc]
      simp only [Bool.false_eq_true, false_iff, not_le]
      exact lt_of_lt_of_le hc (Nat.le_of_dvd (Nat.lcm_pos (Nat.lcm_pos hl hv) (hpos vs hr)) (Nat.dvd_lcm_left _ _))
    · rw [if_neg hc]
      exact prettyLoop_iff den s vs _ (Nat.lcm_pos hl hv) (not_lt.1 hc) hr

/-- **C90.** `verify_is_pretty` answers exactly whether the least common multiple of the denominators is at most the
square of the largest of `36` and the denominators, although it stops early. -/
theorem verifyPretty_iff (den : K → ℕ) (y : List K) (hd : ∀ v ∈ y, 0 < den v) :
    verifyPretty den y = true ↔ lcmAll den y ≤ prettyBound den y := by
  unfold verifyPretty
  by_cases h : y = []
  · subst h; simp [lcmAll, prettyBound]
  · rw [if_neg h, prettyLoop_iff den _ y 1 Nat.one_pos (by
      unfold prettyBound
      have : 1 ≤ max 36 (y.foldr (fun v m => max (den v) m) 0) := le_trans (by norm_num) (le_max_left _ _)
      exact Nat.one_le_pow _ _ this) hd]
    simp

theorem verifyPretty_ex : verifyPretty (K := ℚ) Rat.den [2 / 11, 56 / 33, 18 / 11, 2 / 3] = true ∧
    verifyPretty (K := ℚ) Rat.den [1 / 2, 2 / 3, 3 / 5, 4 / 7, 5 / 11] = false := by decide +kernel

/-- **C90.** Every vector proposed by the simultaneous rounding with denominator `l` has entries with that denominator and
differs from the numerical vector by at most `1 / (2 l)` in each entry. -/
theorem simul_close (E : Ext K) (hE : E.Sound) (lcms : List ℕ) (hl : ∀ l ∈ lcms, 0 < l) (y c : List K)
    (hc : c ∈ candidates E (.simul lcms) y) :
    ∃ l ∈ lcms, c.length = y.length ∧ ∀ i, |c.getD i 0 - y.getD i 0| ≤ 1 / (2 * l) ∧ ∃ z : ℤ, c.getD i 0 * l = z := by
  unfold candidates at hc
  obtain ⟨l, hm, rfl⟩ := List.mem_map.1 hc
  have hp : (0 : K) < l := by exact_mod_cast hl l hm
  refine ⟨l, hm, by simp, fun i => ?_⟩
  by_cases hi : i < y.length
  · have e : (y.map fun v => (E.rnd (v * (l : K)) : K) / (l : K)).getD i 0 = (E.rnd (y[i] * (l : K)) : K) / (l : K) := by
      simp [List.getD_eq_getElem?_getD, List.getElem?_map, hi]
    have e' : y.getD i 0 = y[i] := by simp [List.getD_eq_getElem?_getD, hi]
    rw [e, e']
    refine ⟨?_, E.rnd (y[i] * (l : K)), by field_simp⟩
    have h1 := hE.rnd (y[i] * (l : K))
    have e2 : (E.rnd (y[i] * (l : K)) : K) / (l : K) - y[i] = ((E.rnd (y[i] * (l : K)) : K) - y[i] * l) / l := by field_simp
    rw [e2, abs_div, abs_of_pos hp, div_le_div_iff₀ hp (by positivity)]
    nlinarith
  · have e : (y.map fun v => (E.rnd (v * (l : K)) : K) / (l : K)).getD i 0 = 0 := by
      simp [List.getD_eq_getElem?_getD, List.getElem?_map, hi, not_lt.1 hi]
    have e' : y.getD i 0 = 0 := by simp [List.getD_eq_getElem?_getD, not_lt.1 hi]
    rw [e, e']
    exact ⟨by simp, 0, by simp⟩

/-! ## Soundness -/

/-- the vector and the entries returned come from one exact decomposition -/
def Found (E : Ext K) (P : Prob K) (perturb : Bool) (y : List K) (es : List (Entry K)) : Prop :=
  ∃ Ss rs, P.mats y = .ok Ss ∧ decompAll E perturb Ss = .ok (some rs) ∧ es = List.zipWith Entry.triple Ss rs ∧
    ∃ c same, P.project .sympy c = .ok (y, same)

theorem tryCands_found (E : Ext K) (P : Prob K) (p ch : Bool) : ∀ (cs : List (List K)) (y : List K) (es : List (Entry K)),
    tryCands E P p ch cs = .ok (some (y, es)) → Found E P p y es
  | [], y, es, h => by unfold tryCands at h; cases h
  | c :: cs, y, es, h => by
    unfold tryCands at h
    by_cases hp : (ch && !verifyPretty E.den c) = true
    · rw [if_pos hp] at h
      exact tryCands_found E P p ch cs y es h
    · rw [if_neg hp] at h
      cases hj : P.project .sympy c with
      | error e => rw [hj] at h; cases h
      | ok o =>
        obtain ⟨y', same⟩ := o
        rw [hj] at h
        dsimp only at h
        cases hm : P.mats y' with
        | error e => rw [hm] at h; cases h
        | ok Ss =>
          rw [hm] at h
          dsimp only at h
          cases hd : decompAll E p Ss with
          | error e => rw [hd] at h; cases h
          | ok o =>
            rw [hd] at h
            cases o with
            | none => exact tryCands_found E P p ch cs y es h
            | some rs =>
              cases h
              exact ⟨Ss, rs, hm, hd, rfl, c, same, hj⟩

theorem rationalize_found (E : Ext K) (P : Prob K) (y : List K) (rzs : List Rz) (p ch : Bool) (y' : List K) (es : List (Entry K))
    (h : rationalize E P y rzs p ch = .ok (some (y', es))) : Found E P p y' es := by
  unfold rationalize at h
  split_ifs at h
  · cases h
  · exact tryCands_found E P p ch _ y' es h

/-- the loop changes no attribute except the list of numerical solutions, to which it appends -/
theorem configLoop_frame {C : Type*} (E : Ext K) (P : Prob K) (numer : C → Except PyErr (Option (List K))) (allow : ℕ) (ha : allow ≤ 1) :
    ∀ (cs : List C) (st st1 : St K) (o : Option ((Kind × List K) × List (Entry K))), configLoop E P numer allow cs st = .ok (st1, o) →
      st1.y = st.y ∧ st1.S = st.S ∧ st1.dec = st.dec ∧ (∃ l, st1.ys = st.ys ++ l ∧ ∀ y ∈ l, ∃ c ∈ cs, numer c = .ok (some y)) ∧
      (∀ r, o = some r → r.1.1 = .sympy ∧ Found E P false r.1.2 r.2 ∧ st.ys.length < st1.ys.length)
  | [], st, st1, o, h => by
    unfold configLoop at h
    cases h
    exact ⟨rfl, rfl, rfl, ⟨[], by simp, by simp⟩, fun r hr => by cases hr⟩
  | c :: cs, st, st1, o, h => by
    unfold configLoop at h
    cases hn : numer c with
    | error e => rw [hn] at h; cases h
    | ok on =>
      rw [hn] at h
      cases on with
      | none =>
        obtain ⟨h1, h2, h3, ⟨l, h4, h5⟩, h6⟩ := configLoop_frame E P numer allow ha cs st st1 o h
        exact ⟨h1, h2, h3, ⟨l, h4, fun y hy => by obtain ⟨c', hc, e⟩ := h5 y hy; exact ⟨c', by simp [hc], e⟩⟩, h6⟩
      | some y =>
        dsimp only at h
        rw [if_neg (by omega)] at h
        cases hr : rationalize E P y [.mask, .simul [1, 1260, 1260 ^ 3]] false true with
        | error e => rw [hr] at h; cases h
        | ok o' =>
          rw [hr] at h
          cases o' with
          | some r =>
            cases h
            exact ⟨rfl, rfl, rfl, ⟨[y], rfl, fun z hz => ⟨c, by simp, by simp at hz; rw [hz]; exact hn⟩⟩,
              fun r' hr' => by
                cases hr'
                exact ⟨rfl, rationalize_found E P y _ false true r.1 r.2 hr, by simp⟩⟩
          | none =>
            dsimp only at h
            rw [if_neg (by omega)] at h
            obtain ⟨h1, h2, h3, ⟨l, h4, h5⟩, h6⟩ := configLoop_frame E P numer allow ha cs _ st1 o h
            refine ⟨h1, h2, h3, ⟨y :: l, by rw [h4]; simp, fun z hz => ?_⟩, fun r hr => ?_⟩
            · rcases List.mem_cons.1 hz with rfl | hz
              · exact ⟨c, by simp, hn⟩
              · obtain ⟨c', hc, e⟩ := h5 z hz; exact ⟨c', by simp [hc], e⟩
            · obtain ⟨a, b, d⟩ := h6 r hr
              refine ⟨a, b, ?_⟩
              simp only [List.length_append, List.length_singleton] at d
              omega

/-- with `allow_numer = 0` the solution is exact -/
theorem solveConfigs_found {C : Type*} (E : Ext K) (P : Prob K) (numer : C → Except PyErr (Option (List K))) (cs : List C)
    (st st1 : St K) (o : Option ((Kind × List K) × List (Entry K))) (h : solveConfigs E P numer 0 cs st = .ok (st1, o)) :
    st1.y = st.y ∧ st1.S = st.S ∧ st1.dec = st.dec ∧ (∃ l, st1.ys = st.ys ++ l ∧ ∀ y ∈ l, ∃ c ∈ cs, numer c = .ok (some y)) ∧
    (∀ r, o = some r → r.1.1 = .sympy ∧ Found E P false r.1.2 r.2) ∧ (o = none → st1.ys = st.ys) := by
  unfold solveConfigs at h
  cases hc : configLoop E P numer 0 cs st with
  | error e => rw [hc] at h; cases h
  | ok q =>
    obtain ⟨s, oo⟩ := q
    rw [hc] at h
    obtain ⟨h1, h2, h3, ⟨l, h4, h5⟩, h6⟩ := configLoop_frame E P numer 0 (by omega) cs st s oo hc
    cases oo with
    | some r =>
      cases h
      exact ⟨h1, h2, h3, ⟨l, h4, h5⟩, fun r' hr' => by cases hr'; exact ⟨(h6 r rfl).1, (h6 r rfl).2.1⟩, fun hn => by cases hn⟩
    | none =>
      dsimp only at h
      by_cases hl : st.ys.length < s.ys.length
      · rw [if_pos hl] at h
        cases hr : rationalize E P (meanVec P.dof s.ys) [.mask, .simul [1, 1260, 1260 ^ 2, 1260 ^ 3]] false false with
        | error e => rw [hr] at h; cases h
        | ok o' =>
          rw [hr] at h
          cases o' with
          | some r =>
            cases h
            exact ⟨h1, h2, h3, ⟨l, h4, h5⟩, fun r' hr' => by
              cases hr'
              exact ⟨rfl, rationalize_found E P _ _ false false r.1 r.2 hr⟩, fun hn => by cases hn⟩
          | none => cases h
      · rw [if_neg hl] at h
        cases h
        refine ⟨h1, h2, h3, ⟨l, h4, h5⟩, fun r' hr' => (by cases hr'), fun _ => ?_⟩
        rw [h4] at hl ⊢
        simp only [List.length_append, not_lt] at hl
        have : l = [] := List.length_eq_zero_iff.1 (by omega)
        rw [this, List.append_nil]

theorem map_head_zip : ∀ (Ss : List (Mat K)) (rs : List (LDL K)), rs.length = Ss.length →
    (List.zipWith Entry.triple Ss rs).map Entry.head = Ss ∧ (List.zipWith Entry.triple Ss rs).map Entry.tail = rs.map Pack.pair
  | [], [], _ => ⟨rfl, rfl⟩
  | [], _ :: _, h => by simp at h
  | _ :: _, [], h => by simp at h
  | A :: Ss, r :: rs, h => by
    obtain ⟨h1, h2⟩ := map_head_zip Ss rs (by simpa using h)
    simp [Entry.head, Entry.tail, h1, h2]

theorem Found.certified {E : Ext K} {P : Prob K} (hs : P.Sym) {y : List K} {es : List (Entry K)} (h : Found E P false y es) (st : St K) :
    Certified P (register st (some ((.sympy, y), es))) := by
  obtain ⟨Ss, rs, hm, hd, rfl, -⟩ := h
  obtain ⟨e1, e2⟩ := map_head_zip Ss rs (decompAll_length E false Ss rs hd)
  exact ⟨y, Ss, rs, rfl, hm, by simp [register, e1], by simp [register, e2], decompAll_sound E Ss rs (hs y Ss hm) hd⟩

/-! ### The chain of transformations -/

/-- A transformation is sound for a child `P` and a parent `Q`: a feasible vector of the child becomes one of the parent.
This is what C25-C27, C61 and C62 state for each transformation. -/
def Link.Sound (P Q : Prob K) : Link K → Prop
  | .affine t => Q.Sym ∧ ∀ y Ss, P.mats y = .ok Ss → (∀ A ∈ Ss, PSD A.1 A.2) → (t y = [] → Q.dof = 0) ∧
      ∃ y2 same Ss', Q.project .sympy (t y) = .ok (y2, same) ∧ Q.mats y2 = .ok Ss' ∧ ∀ A ∈ Ss', PSD A.1 A.2
  | .carry t => ∀ y Ss, P.mats y = .ok Ss → Q.mats (t y) = .ok Ss
  | .copy => ∀ y Ss, P.mats y = .ok Ss → Q.mats y = .ok Ss
  | .mask um => ∀ y Ss, P.mats y = .ok Ss → List.Forall₂ (fun (m : ℕ × List ℕ) A => A.1 = m.2.length) um Ss ∧
      Q.mats ((List.zipWith (fun (m : ℕ × List ℕ) A => padM m.1 m.2 A) um Ss).flatMap fun A => flatten A.1 A.1 A.2)
        = .ok (List.zipWith (fun (m : ℕ × List ℕ) A => padM m.1 m.2 A) um Ss)

/-- every transformation of the chain is sound -/
def ChainSound : Prob K → List (Up K) → Prop
  | _, [] => True
  | P, u :: us => u.link.Sound P u.P ∧ ChainSound u.P us

theorem unpackAll_pair : ∀ rs : List (LDL K), unpackAll (rs.map Pack.pair) = .ok rs
  | [] => rfl
  | r :: rs => by
    rw [List.map_cons]
    unfold unpackAll
    rw [unpackAll_pair rs]
    rfl

theorem pad_decomposes {n : ℕ} {um : List ℕ} {A : Mat K} {r : LDL K} (hl : A.1 = um.length) (h : Decomposes A r) :
    Decomposes (padM n um A) (padU um r) := by
  obtain ⟨k, h1, h2⟩ := h
  refine ⟨k, fun i j _ _ => ?_, h2⟩
  unfold padM padU
  dsimp only
  by_cases hi : i ∈ um
  · by_cases hj : j ∈ um
    · rw [if_pos ⟨hi, hj⟩, h1 _ _ (by rw [hl]; exact List.idxOf_lt_length_iff.2 hi) (by rw [hl]; exact List.idxOf_lt_length_iff.2 hj)]
      simp only [if_pos hi, if_pos hj]
    · rw [if_neg (fun h => hj h.2)]
      simp only [if_neg hj, mul_zero, Finset.sum_const_zero]
  · rw [if_neg (fun h => hi h.1)]
    simp only [if_neg hi, zero_mul, Finset.sum_const_zero]

theorem pad_forall : ∀ (um : List (ℕ × List ℕ)) (Ss : List (Mat K)) (rs : List (LDL K)),
    List.Forall₂ (fun (m : ℕ × List ℕ) A => A.1 = m.2.length) um Ss → List.Forall₂ Decomposes Ss rs →
    List.Forall₂ Decomposes (List.zipWith (fun (m : ℕ × List ℕ) A => padM m.1 m.2 A) um Ss)
      (List.zipWith (fun (m : ℕ × List ℕ) r => padU m.2 r) um rs)
  | _, _, _, .nil, .nil => .nil
  | _, _, _, .cons h1 t1, .cons h2 t2 => .cons (pad_decomposes h1 h2) (pad_forall _ _ _ t1 t2)

theorem forall_psd : ∀ {Ss : List (Mat K)} {rs : List (LDL K)}, List.Forall₂ Decomposes Ss rs → ∀ A ∈ Ss, PSD A.1 A.2
  | _, _, .nil => by simp
  | _, _, .cons h t => by
    intro A hA
    rcases List.mem_cons.1 hA with rfl | hA
    · exact h.psd
    · exact forall_psd t A hA

/-- **C90.** A certified result travels through the whole chain of transformations: no exception is raised and every
ancestor ends up with a certified result of its own. -/
theorem propagate_certified (E : Ext K) : ∀ (ups : List (Up K)) (P : Prob K) (st : St K), ChainSound P ups → Certified P st →
    ∃ ups', propagate E st ups = .ok ups' ∧ ups'.map (fun u => u.P) = ups.map (fun u => u.P) ∧ ∀ u ∈ ups', Certified u.P u.st
  | [], P, st, _, _ => ⟨[], rfl, rfl, by simp⟩
  | u :: us, P, st, hc, hs => by
    obtain ⟨hl, hr⟩ := hc
    obtain ⟨y, Ss, rs, hy, hm, hS, hd, hf⟩ := hs
    obtain ⟨lk, Q, ust⟩ := u
    dsimp only at hl hr
    unfold propagate
    dsimp only
    cases lk with
    | affine t =>
      obtain ⟨hq, hq2⟩ := hl
      obtain ⟨hz, y2, same, Ss', e1, e2, e3⟩ := hq2 y Ss hm (forall_psd hf)
      obtain ⟨rs', hrs'⟩ := decompAll_psd E Ss' e3
      rw [hy]
      dsimp only
      have er : registerY E Q ust .sympy (t y) true false
          = .ok { ust with y := some (.sympy, y2), S := some Ss', dec := some (rs'.map Pack.pair) } := by
        unfold registerY
        rw [if_neg (fun h => h.2 (hz h.1)), e1]
        dsimp only
        rw [if_neg (by simp), e2]
        dsimp only
        rw [hrs']
        dsimp only
        cases same <;> rfl
      rw [er]
      dsimp only
      have hcert : Certified Q { ust with y := some (.sympy, y2), S := some Ss', dec := some (rs'.map Pack.pair) } :=
        ⟨y2, Ss', rs', rfl, e2, rfl, rfl, decompAll_sound E Ss' rs' (hq y2 Ss' e2) hrs'⟩
      obtain ⟨ups', p1, p2, p3⟩ := propagate_certified E us Q _ hr hcert
      rw [p1]
      refine ⟨_, rfl, by simp [p2], fun v hv => ?_⟩
      rcases List.mem_cons.1 hv with rfl | hv
      · exact hcert
      · exact p3 v hv
    | carry t =>
      rw [hy]
      dsimp only
      have hcert : Certified Q { ust with y := some (.sympy, t y), S := st.S, dec := st.dec } :=
        ⟨t y, Ss, rs, rfl, hl y Ss hm, hS, hd, hf⟩
      obtain ⟨ups', p1, p2, p3⟩ := propagate_certified E us Q _ hr hcert
      rw [p1]
      refine ⟨_, rfl, by simp [p2], fun v hv => ?_⟩
      rcases List.mem_cons.1 hv with rfl | hv
      · exact hcert
      · exact p3 v hv
    | copy =>
      dsimp only
      have hcert : Certified Q { ust with y := st.y, S := st.S, dec := st.dec } :=
        ⟨y, Ss, rs, hy, hl y Ss hm, hS, hd, hf⟩
      obtain ⟨ups', p1, p2, p3⟩ := propagate_certified E us Q _ hr hcert
      rw [p1]
      refine ⟨_, rfl, by simp [p2], fun v hv => ?_⟩
      rcases List.mem_cons.1 hv with rfl | hv
      · exact hcert
      · exact p3 v hv
    | mask um =>
      obtain ⟨hm1, hm2⟩ := hl y Ss hm
      rw [hS, hd]
      dsimp only
      rw [unpackAll_pair]
      dsimp only
      have hcert : Certified Q { ust with
          y := some (.sympy, (List.zipWith (fun (m : ℕ × List ℕ) A => padM m.1 m.2 A) um Ss).flatMap fun A => flatten A.1 A.1 A.2),
          S := some (List.zipWith (fun (m : ℕ × List ℕ) A => padM m.1 m.2 A) um Ss),
          dec := some ((List.zipWith (fun (m : ℕ × List ℕ) r => padU m.2 r) um rs).map Pack.pair) } :=
        ⟨_, _, _, rfl, hm2, rfl, rfl, pad_forall um Ss rs hm1 hf⟩
      obtain ⟨ups', p1, p2, p3⟩ := propagate_certified E us Q _ hr hcert
      rw [p1]
      refine ⟨_, rfl, by simp [p2], fun v hv => ?_⟩
      rcases List.mem_cons.1 hv with rfl | hv
      · exact hcert
      · exact p3 v hv

/-- **C90, soundness.** If `solve` with `allow_numer = 0` returns `True` then the problem that was solved holds an exact
vector, its matrices and decompositions that prove them positive semidefinite, and so does every ancestor.  Nothing is
assumed about the numerical solver, the rounding or the earlier solutions. -/
theorem solve_sound {C : Type*} (E : Ext K) (P : Prob K) (hP : P.Sym) (numer : C → Except PyErr (Option (List K))) (given defaults : List C)
    (useDefault : ℕ) (st st' : St K) (ups ups' : List (Up K)) (hc : ChainSound P ups)
    (h : solve E P numer given defaults useDefault 0 st ups = .ok (true, st', ups')) :
    Certified P st' ∧ ups'.map (fun u => u.P) = ups.map (fun u => u.P) ∧ ∀ u ∈ ups', Certified u.P u.st := by
  unfold solve at h
  cases hs : solveConfigs E P numer 0 (chooseConfigs P.dof (if ups = [] then useDefault else 1) given defaults) st with
  | error e => rw [hs] at h; cases h
  | ok q =>
    obtain ⟨st1, o⟩ := q
    rw [hs] at h
    dsimp only at h
    obtain ⟨-, -, -, -, h6, -⟩ := solveConfigs_found E P numer _ st st1 o hs
    cases o with
    | none =>
      cases hp : propagate E (register st1 none) ups with
      | error e => rw [hp] at h; cases h
      | ok q => rw [hp] at h; cases h
    | some r =>
      obtain ⟨⟨kd, y⟩, es⟩ := r
      obtain ⟨hk, hf⟩ := h6 _ rfl
      dsimp only at hk hf
      subst hk
      have hcert := hf.certified hP st1
      obtain ⟨us, p1, p2, p3⟩ := propagate_certified E ups P _ hc hcert
      rw [p1] at h
      cases h
      exact ⟨hcert, p2, p3⟩

/-- **C90.** `solve` on a sound chain with `allow_numer = 0` answers `False` only if no configuration gave a numerical
solution; then the attributes of the problem are as before. -/
theorem solve_false {C : Type*} (E : Ext K) (P : Prob K) (numer : C → Except PyErr (Option (List K))) (given defaults : List C)
    (useDefault : ℕ) (st st' : St K) (ups ups' : List (Up K))
    (h : solve E P numer given defaults useDefault 0 st ups = .ok (false, st', ups')) :
    st' = st ∧ ∀ c ∈ chooseConfigs P.dof (if ups = [] then useDefault else 1) given defaults, numer c = .ok none := by
  unfold solve at h
  cases hs : solveConfigs E P numer 0 (chooseConfigs P.dof (if ups = [] then useDefault else 1) given defaults) st with
  | error e => rw [hs] at h; cases h
  | ok q =>
    obtain ⟨st1, o⟩ := q
    rw [hs] at h
    dsimp only at h
    obtain ⟨f1, f2, f3, -, -, f6⟩ := solveConfigs_found E P numer _ st st1 o hs
    cases o with
    | some r =>
      cases hp : propagate E (register st1 (some r)) ups with
      | error e => rw [hp] at h; cases h
      | ok q => rw [hp] at h; cases h
    | none =>
      have e0 : st1 = st := by
        cases st1; cases st
        simp only at f1 f2 f3
        have := f6 rfl
        simp only at this
        subst f1 f2 f3 this
        rfl
      cases hp : propagate E (register st1 none) ups with
      | error e => rw [hp] at h; cases h
      | ok q =>
        rw [hp] at h
        cases h
        refine ⟨e0, ?_⟩
        -- every configuration gave nothing, otherwise the list of numerical solutions would have grown
        unfold solveConfigs at hs
        generalize hcs : chooseConfigs P.dof (if ups = [] then useDefault else 1) given defaults = cs at hs
        cases hc : configLoop E P numer 0 cs st with
        | error e => rw [hc] at hs; cases hs
        | ok q =>
          obtain ⟨s, oo⟩ := q
          rw [hc] at hs
          cases oo with
          | some r => cases hs
          | none =>
            dsimp only at hs
            have hlen : s.ys.length ≤ st.ys.length := by
              by_contra hl
              rw [if_pos (not_le.1 hl)] at hs
              cases hr : rationalize E P (meanVec P.dof s.ys) [.mask, .simul [1, 1260, 1260 ^ 2, 1260 ^ 3]] false false with
              | error e => rw [hr] at hs; cases hs
              | ok o' =>
                rw [hr] at hs
                cases o' <;> cases hs
            have key : ∀ (cs : List C) (st s : St K), configLoop E P numer 0 cs st = .ok (s, none) →
                (st.ys.length ≤ s.ys.length) ∧ (s.ys.length ≤ st.ys.length → ∀ c ∈ cs, numer c = .ok none) := by
              intro cs
              induction cs with
              | nil => intro st s h; unfold configLoop at h; cases h; exact ⟨le_refl _, by simp⟩
              | cons c cs ih =>
                intro st s h
                unfold configLoop at h
                cases hn : numer c with
                | error e => rw [hn] at h; cases h
                | ok on =>
                  rw [hn] at h
                  cases on with
                  | none =>
                    obtain ⟨a, b⟩ := ih st s h
                    refine ⟨a, fun hle c' hc' => ?_⟩
                    rcases List.mem_cons.1 hc' with rfl | hc'
                    · exact hn
                    · exact b hle c' hc'
                  | some y =>
                    dsimp only at h
                    rw [if_neg (by omega)] at h
                    cases hr : rationalize E P y [.mask, .simul [1, 1260, 1260 ^ 3]] false true with
                    | error e => rw [hr] at h; cases h
                    | ok o' =>
                      rw [hr] at h
                      cases o' with
                      | some r => cases h
                      | none =>
                        dsimp only at h
                        rw [if_neg (by omega)] at h
                        obtain ⟨a, -⟩ := ih _ s h
                        simp only [List.length_append, List.length_singleton] at a
                        exact ⟨by omega, fun hle => by omega⟩
            exact (key cs st s hc).2 hlen

end Verif.SdpSolve
