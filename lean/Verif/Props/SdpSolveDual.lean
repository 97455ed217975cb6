import Verif.Props.SdpSolve
import Verif.Props.SdpMatrix
import Verif.Props.SdpUtils

/-!
# C90 continued: when `solve` succeeds, primal problems, and the faults
-/

set_option linter.unusedSectionVars false

namespace Verif.SdpSolve
open Verif Verif.Sdp Verif.SdpUtils Finset

variable {K : Type*} [Field K] [LinearOrder K] [IsStrictOrderedRing K]

/-! ## Dual problems and their transformations -/

theorem dual_mats (d : Dual K) (y : List K) (h : y.length = d.dof) :
    (dualProb d).mats y = .ok (d.blocks.map fun b => (b.n, b.mat d.dof fun l => y.getD l 0)) := if_pos h

theorem dual_sym (d : Dual K) (hsym : ∀ b ∈ d.blocks, SymPencil d.dof b) : (dualProb d).Sym := by
  intro y Ss h A hA i j hi hj
  unfold dualProb at h
  dsimp only at h
  split_ifs at h
  cases h
  obtain ⟨b, hb, rfl⟩ := List.mem_map.1 hA
  exact mat_symm d.dof b (hsym b hb) _ i j hi hj

/-- `_trans_space * z + _trans_x0` as a list (sdp/transform.py 229) -/
def liftAff (dof : ℕ) (t : Aff K) (z : List K) : List K := (List.range dof).map (t.app fun m => z.getD m 0)

theorem liftAff_get (dof : ℕ) (t : Aff K) (z : List K) (l : ℕ) (hl : l < dof) : (liftAff dof t z).getD l 0 = t.app (fun m => z.getD m 0) l := by
  unfold liftAff
  simp [List.getD_eq_getElem?_getD, hl]

theorem dual_feasible (d : Dual K) (y : List K) (h : y.length = d.dof) (Ss : List (Mat K)) (hm : (dualProb d).mats y = .ok Ss) :
    (∀ A ∈ Ss, PSD A.1 A.2) ↔ Feasible d fun l => y.getD l 0 := by
  rw [dual_mats d y h] at hm
  cases hm
  unfold Feasible
  constructor
  · intro hA b hb
    exact hA _ (List.mem_map.2 ⟨b, hb, rfl⟩)
  · intro hb A hA
    obtain ⟨b, hb', rfl⟩ := List.mem_map.1 hA
    exact hb b hb'

theorem affine_link (d d' : Dual K) (hsym : ∀ b ∈ d.blocks, SymPencil d.dof b) (t : Aff K)
    (h : ∀ z, Feasible d' z → Feasible d (t.app z)) : (Link.affine (liftAff d.dof t)).Sound (dualProb d') (dualProb d) := by
  refine ⟨dual_sym d hsym, fun z Ss hm hp => ⟨fun hz => ?_, ?_⟩⟩
  · have : (liftAff d.dof t z).length = 0 := by rw [hz]; rfl
    show d.dof = 0
    simpa [liftAff] using this
  · have hlen : (liftAff d.dof t z).length = d.dof := by simp [liftAff]
    have hz : z.length = d'.dof := by
      unfold dualProb at hm
      dsimp only at hm
      by_contra hne
      rw [if_neg hne] at hm
      cases hm
    refine ⟨liftAff d.dof t z, true, _, rfl, dual_mats d _ hlen, ?_⟩
    have hf := h _ ((dual_feasible d' z hz Ss hm).1 hp)
    rw [dual_feasible d _ hlen _ (dual_mats d _ hlen)]
    intro b hb
    rw [mat_congr b d.dof (fun l hl => liftAff_get d.dof t z l hl)]
    exact hf b hb

/-- **C90.** Row masking hands results back soundly (it discharges the assumption of `solve_sound`). -/
theorem rowMask_link (d d' : Dual K) (masks : List (List ℕ)) (hsym : ∀ b ∈ d.blocks, SymPencil d.dof b)
    (hin : ∀ p ∈ d.blocks.zip masks, ∀ i ∈ p.2, i < p.1.n) (t : Aff K) (h : rowMask d masks = .ok (t, d')) :
    (Link.affine (liftAff d.dof t)).Sound (dualProb d') (dualProb d) := by
  refine affine_link d d' hsym t fun z hz => ?_
  exact (((rowMask_ok d masks hsym hin t d' h).1 (t.app z)).2 ⟨z, fun _ _ => rfl, hz⟩).1

/-- **C90.** Restriction to a subspace hands results back soundly. -/
theorem matrixTransform_link (d d' : Dual K) (uv : List (Cols K × Cols K)) (hsym : ∀ b ∈ d.blocks, SymPencil d.dof b)
    (hsp : ∀ p ∈ d.blocks.zip uv, Spans p.1.n p.2.1 p.2.2) (t : Aff K) (h : matrixTransform d uv = .ok (t, d')) :
    (Link.affine (liftAff d.dof t)).Sound (dualProb d') (dualProb d) := by
  refine affine_link d d' hsym t fun z hz => ?_
  exact (((matrixTransform_ok d uv hsym hsp t d' h).1 (t.app z)).2 ⟨z, fun _ _ => rfl, hz⟩).1

/-- **C90.** Affine reparametrisation hands results back soundly. -/
theorem vectorTransform_link (d : Dual K) (t : Aff K) :
    (Link.carry (liftAff d.dof t)).Sound (dualProb (vectorTransform d t)) (dualProb d) := by
  intro z Ss hm
  have hz : z.length = (vectorTransform d t).dof := by
    unfold dualProb at hm
    dsimp only at hm
    by_contra hne
    rw [if_neg hne] at hm
    cases hm
  rw [dual_mats _ z hz] at hm
  cases hm
  rw [dual_mats d _ (by simp [liftAff])]
  congr 1
  unfold vectorTransform
  dsimp only
  rw [List.map_map]
  apply List.map_congr_left
  intro b _
  dsimp only [Function.comp]
  rw [mat_subst, mat_congr b d.dof (fun l hl => liftAff_get d.dof t z l hl)]
  rfl

/-! ## Completeness for strictly feasible numerical solutions -/

/-- the quadratic form of every block is at least `δ |x|²` -/
def Margin (d : Dual K) (δ : K) (y : ℕ → K) : Prop :=
  ∀ b ∈ d.blocks, ∀ x : ℕ → K, δ * ∑ i ∈ range b.n, x i ^ 2 ≤ ∑ i ∈ range b.n, ∑ j ∈ range b.n, x i * b.mat d.dof y i j * x j

/-- the coefficients of the pencil are bounded by `a` -/
def Bounded (d : Dual K) (a : K) : Prop :=
  ∀ b ∈ d.blocks, ∀ i j l, i < b.n → j < b.n → l < d.dof → |b.sp (i * b.n + j) l| ≤ a

theorem quad_lower (n : ℕ) (e : ℕ → ℕ → K) (η : K) (he : ∀ i j, i < n → j < n → |e i j| ≤ η) (x : ℕ → K) :
    -(η * n * ∑ i ∈ range n, x i ^ 2) ≤ ∑ i ∈ range n, ∑ j ∈ range n, x i * e i j * x j := by
  have h1 : ∀ i ∈ range n, ∀ j ∈ range n, -(η * ((x i ^ 2 + x j ^ 2) / 2)) ≤ x i * e i j * x j := by
    intro i hi j hj
    obtain ⟨a1, a2⟩ := abs_le.1 (he i j (mem_range.1 hi) (mem_range.1 hj))
    have b1 : 0 ≤ (η + e i j) * (x i + x j) ^ 2 := mul_nonneg (by linarith) (sq_nonneg _)
    have b2 : 0 ≤ (η - e i j) * (x i - x j) ^ 2 := mul_nonneg (by linarith) (sq_nonneg _)
    nlinarith
  have h2 : ∑ i ∈ range n, ∑ j ∈ range n, -(η * ((x i ^ 2 + x j ^ 2) / 2)) = -(η * n * ∑ i ∈ range n, x i ^ 2) := by
    have e1 : ∀ i, ∑ j ∈ range n, -(η * ((x i ^ 2 + x j ^ 2) / 2)) = -(η / 2) * (n * x i ^ 2) + -(η / 2) * ∑ j ∈ range n, x j ^ 2 := by
      intro i
      rw [Finset.mul_sum]
      have : -(η / 2) * (n * x i ^ 2) = ∑ _j ∈ range n, -(η / 2) * x i ^ 2 := by
        rw [Finset.sum_const, card_range, nsmul_eq_mul]; ring
      rw [this, ← Finset.sum_add_distrib]
      exact Finset.sum_congr rfl fun j _ => by ring
    rw [Finset.sum_congr rfl (fun i _ => e1 i), Finset.sum_add_distrib, Finset.sum_const, card_range, nsmul_eq_mul, ← Finset.mul_sum,
      ← Finset.mul_sum]
    ring
  rw [← h2]
  exact Finset.sum_le_sum fun i hi => Finset.sum_le_sum fun j hj => h1 i hi j hj

theorem psd_near (d : Dual K) (hsym : ∀ b ∈ d.blocks, SymPencil d.dof b) (a δ ε : K) (N : ℕ) (ha : Bounded d a) (ha0 : 0 ≤ a) (hε : 0 ≤ ε)
    (hN : ∀ b ∈ d.blocks, b.n ≤ N) (hδ : d.dof * a * ε * N ≤ δ) (y y' : ℕ → K) (hy : Margin d δ y) (hd : ∀ l, l < d.dof → |y' l - y l| ≤ ε) :
    Feasible d y' := by
  intro b hb
  refine ⟨fun i j hi hj => mat_symm d.dof b (hsym b hb) y' i j hi hj, fun x => ?_⟩
  let e : ℕ → ℕ → K := fun i j => ∑ l ∈ range d.dof, b.sp (i * b.n + j) l * (y' l - y l)
  have hm : ∀ i j, b.mat d.dof y' i j = b.mat d.dof y i j + e i j := by
    intro i j
    simp only [e]
    unfold Block.mat
    rw [add_assoc, ← Finset.sum_add_distrib]
    congr 1
    exact Finset.sum_congr rfl fun l _ => by ring
  have he : ∀ i j, i < b.n → j < b.n → |e i j| ≤ d.dof * a * ε := by
    intro i j hi hj
    calc |e i j| ≤ ∑ l ∈ range d.dof, |b.sp (i * b.n + j) l * (y' l - y l)| := Finset.abs_sum_le_sum_abs _ _
      _ ≤ ∑ _l ∈ range d.dof, a * ε := Finset.sum_le_sum fun l hl => by
          rw [abs_mul]
          exact mul_le_mul (ha b hb i j l hi hj (mem_range.1 hl)) (hd l (mem_range.1 hl)) (abs_nonneg _) ha0
      _ = d.dof * a * ε := by rw [Finset.sum_const, card_range, nsmul_eq_mul]; ring
  have h1 := hy b hb x
  have h2 := quad_lower b.n e (d.dof * a * ε) he x
  have h3 : ∑ i ∈ range b.n, ∑ j ∈ range b.n, x i * b.mat d.dof y' i j * x j
      = ∑ i ∈ range b.n, ∑ j ∈ range b.n, x i * b.mat d.dof y i j * x j + ∑ i ∈ range b.n, ∑ j ∈ range b.n, x i * e i j * x j := by
    rw [← Finset.sum_add_distrib]
    refine Finset.sum_congr rfl fun i _ => ?_
    rw [← Finset.sum_add_distrib]
    exact Finset.sum_congr rfl fun j _ => by rw [hm]; ring
  rw [h3]
  have h4 : (d.dof * a * ε * b.n) * ∑ i ∈ range b.n, x i ^ 2 ≤ δ * ∑ i ∈ range b.n, x i ^ 2 := by
    apply mul_le_mul_of_nonneg_right _ (Finset.sum_nonneg fun i _ => sq_nonneg _)
    refine le_trans ?_ hδ
    apply mul_le_mul_of_nonneg_left _ (by positivity)
    exact_mod_cast hN b hb
  linarith

theorem meanVec_get (n : ℕ) (ys : List (List K)) (l : ℕ) (hl : l < n) :
    (meanVec n ys).getD l 0 = (ys.map fun y => y.getD l 0).sum / (ys.length : K) := by
  unfold meanVec
  simp [List.getD_eq_getElem?_getD, hl]

/-- the margin is kept by the mean of several vectors -/
theorem margin_mean (d : Dual K) (δ : K) (ys : List (List K)) (hne : ys ≠ []) (h : ∀ y ∈ ys, Margin d δ fun l => y.getD l 0) :
    Margin d δ fun l => (meanVec d.dof ys).getD l 0 := by
  intro b hb x
  have hN : (0 : K) < ys.length := by
    have : 0 < ys.length := List.length_pos_iff.2 hne
    exact_mod_cast this
  set X := ∑ i ∈ range b.n, x i ^ 2
  -- the sum of the matrices
  have key : ∀ zs : List (List K), (∀ y ∈ zs, Margin d δ fun l => y.getD l 0) →
      (zs.length : K) * (δ * X) ≤ ∑ i ∈ range b.n, ∑ j ∈ range b.n,
        x i * ((zs.length : K) * b.x0 (i * b.n + j) + ∑ l ∈ range d.dof, b.sp (i * b.n + j) l * (zs.map fun y => y.getD l 0).sum) * x j := by
    intro zs
    induction zs with
    | nil => intro _; simp
    | cons z zs ih =>
      intro hz
      have h1 := hz z (by simp) b hb x
      have h2 := ih fun y hy => hz y (by simp [hy])
      have e : ∑ i ∈ range b.n, ∑ j ∈ range b.n,
          x i * (((z :: zs).length : K) * b.x0 (i * b.n + j) + ∑ l ∈ range d.dof, b.sp (i * b.n + j) l * ((z :: zs).map fun y => y.getD l 0).sum) * x j
          = ∑ i ∈ range b.n, ∑ j ∈ range b.n, x i * b.mat d.dof (fun l => z.getD l 0) i j * x j
            + ∑ i ∈ range b.n, ∑ j ∈ range b.n,
              x i * ((zs.length : K) * b.x0 (i * b.n + j) + ∑ l ∈ range d.dof, b.sp (i * b.n + j) l * (zs.map fun y => y.getD l 0).sum) * x j := by
        rw [← Finset.sum_add_distrib]
        refine Finset.sum_congr rfl fun i _ => ?_
        rw [← Finset.sum_add_distrib]
        refine Finset.sum_congr rfl fun j _ => ?_
        unfold Block.mat
        simp only [List.map_cons, List.sum_cons, List.length_cons, Nat.cast_add, Nat.cast_one, mul_add, Finset.sum_add_distrib]
        ring
      rw [e]
      simp only [List.length_cons, Nat.cast_add, Nat.cast_one]
      linarith
  have hk := key ys h
  have e2 : ∑ i ∈ range b.n, ∑ j ∈ range b.n,
      x i * ((ys.length : K) * b.x0 (i * b.n + j) + ∑ l ∈ range d.dof, b.sp (i * b.n + j) l * (ys.map fun y => y.getD l 0).sum) * x j
      = (ys.length : K) * ∑ i ∈ range b.n, ∑ j ∈ range b.n, x i * b.mat d.dof (fun l => (meanVec d.dof ys).getD l 0) i j * x j := by
    rw [Finset.mul_sum]
    refine Finset.sum_congr rfl fun i _ => ?_
    rw [Finset.mul_sum]
    refine Finset.sum_congr rfl fun j _ => ?_
    unfold Block.mat
    have : (ys.length : K) * ∑ l ∈ range d.dof, b.sp (i * b.n + j) l * (meanVec d.dof ys).getD l 0
        = ∑ l ∈ range d.dof, b.sp (i * b.n + j) l * (ys.map fun y => y.getD l 0).sum := by
      rw [Finset.mul_sum]
      refine Finset.sum_congr rfl fun l hl => ?_
      rw [meanVec_get d.dof ys l (mem_range.1 hl)]
      field_simp
    rw [← this]
    ring
  rw [e2] at hk
  exact le_of_mul_le_mul_left hk hN

/-- for vectors of the right length the loop over the candidates never raises, and it finds a solution if one of them is
feasible and no other test is made -/
theorem dual_try (E : Ext K) (d : Dual K) (ch : Bool) : ∀ (cs : List (List K)), (∀ c ∈ cs, c.length = d.dof) →
    ∃ o, tryCands E (dualProb d) false ch cs = .ok o ∧ (ch = false → (∃ c ∈ cs, Feasible d fun l => c.getD l 0) → o.isSome = true)
  | [], _ => ⟨none, rfl, fun _ h => by obtain ⟨c, hc, -⟩ := h; cases hc⟩
  | c :: cs, hl => by
    obtain ⟨o, ho, hs⟩ := dual_try E d ch cs fun x hx => hl x (by simp [hx])
    have hlen := hl c (by simp)
    unfold tryCands
    by_cases hp : (ch && !verifyPretty E.den c) = true
    · rw [if_pos hp]
      refine ⟨o, ho, fun hf => ?_⟩
      rw [hf] at hp
      simp at hp
    · rw [if_neg hp]
      have ep : (dualProb d).project .sympy c = .ok (c, true) := rfl
      rw [ep]
      dsimp only
      rw [dual_mats d c hlen]
      dsimp only
      cases hd : decompAll E false (d.blocks.map fun b => (b.n, b.mat d.dof fun l => c.getD l 0)) with
      | error e => exact absurd hd (decompAll_noerr E false e _)
      | ok o' =>
        cases o' with
        | some rs => exact ⟨_, rfl, fun _ _ => rfl⟩
        | none =>
          refine ⟨o, ho, fun hf hx => ?_⟩
          obtain ⟨c', hc', hfe⟩ := hx
          rcases List.mem_cons.1 hc' with rfl | hc'
          · obtain ⟨rs, hrs⟩ := decompAll_psd E _ ((dual_feasible d c' hlen _ (dual_mats d c' hlen)).2 hfe)
            rw [hrs] at hd
            cases hd
          · exact hs hf ⟨c', hc', hfe⟩

theorem dual_cands_length (E : Ext K) (d : Dual K) (y : List K) (hy : y.length = d.dof) (lcms : List ℕ) :
    ∀ c ∈ (if y = [] then [Rz.empty] else [.mask, .simul lcms]).flatMap (fun r => candidates E r y), c.length = d.dof := by
  intro c hc
  by_cases h : y = []
  · rw [if_pos h] at hc
    simp only [List.flatMap_cons, List.flatMap_nil, List.append_nil, candidates, List.mem_singleton] at hc
    rw [hc, ← hy, h]
  · rw [if_neg h] at hc
    simp only [List.flatMap_cons, List.flatMap_nil, List.append_nil, candidates, List.mem_append, List.mem_singleton, List.mem_map] at hc
    rcases hc with rfl | ⟨l, -, rfl⟩ <;> simpa using hy

/-- `rationalize` of a dual problem never raises -/
theorem dual_rationalize (E : Ext K) (d : Dual K) (y : List K) (hy : y.length = d.dof) (lcms : List ℕ) (ch : Bool) :
    ∃ o, rationalize E (dualProb d) y [.mask, .simul lcms] false ch = .ok o ∧
      (ch = false → (∃ c ∈ (if y = [] then [Rz.empty] else [.mask, .simul lcms]).flatMap (fun r => candidates E r y), Feasible d fun l => c.getD l 0) →
        o.isSome = true) := by
  unfold rationalize
  rw [if_neg (fun h => h.2 (by rw [h.1] at hy; exact hy.symm))]
  exact dual_try E d ch _ (dual_cands_length E d y hy lcms)

theorem configLoop_dual {C : Type*} (E : Ext K) (d : Dual K) (numer : C → Except PyErr (Option (List K))) :
    ∀ (cs : List C) (st : St K), (∀ c ∈ cs, ∃ o, numer c = .ok o ∧ ∀ y, o = some y → y.length = d.dof) →
      ∃ st1 o, configLoop E (dualProb d) numer 0 cs st = .ok (st1, o) ∧
        (o = none → (∃ c ∈ cs, numer c ≠ .ok none) → st.ys.length < st1.ys.length) ∧ st.ys.length ≤ st1.ys.length
  | [], st, _ => ⟨st, none, rfl, (fun _ h => (by obtain ⟨c, hc, -⟩ := h; cases hc)), le_refl _⟩
  | c :: cs, st, h => by
    obtain ⟨o, ho, hl⟩ := h c (by simp)
    have hr := fun c' (hc : c' ∈ cs) => h c' (by simp [hc])
    unfold configLoop
    rw [ho]
    cases o with
    | none =>
      obtain ⟨st1, o1, e1, e2, e3⟩ := configLoop_dual E d numer cs st hr
      refine ⟨st1, o1, e1, fun hn hx => e2 hn ?_, e3⟩
      obtain ⟨c', hc', hne⟩ := hx
      rcases List.mem_cons.1 hc' with rfl | hc'
      · exact absurd ho hne
      · exact ⟨c', hc', hne⟩
    | some y =>
      dsimp only
      rw [if_neg (by omega)]
      obtain ⟨o', ho', -⟩ := dual_rationalize E d y (hl y rfl) [1, 1260, 1260 ^ 3] true
      rw [ho']
      cases o' with
      | some r => exact ⟨_, _, rfl, fun hn => by simp at hn, by simp⟩
      | none =>
        dsimp only
        rw [if_neg (by omega)]
        obtain ⟨st1, o1, e1, -, e3⟩ := configLoop_dual E d numer cs { st with ys := st.ys ++ [y] } hr
        simp only [List.length_append, List.length_singleton] at e3
        exact ⟨st1, o1, e1, fun _ _ => by omega, by omega⟩

/-- **C90, completeness.** If every numerical solution (of this and of earlier calls) is strictly feasible with a margin
`δ` that dominates the rounding error `1 / (2·1260³)` propagated through the matrices, and at least one configuration gives
one, then `solve` returns `True`: the search for an exact solution cannot fail. -/
theorem solve_complete {C : Type*} (E : Ext K) (hE : E.Sound) (d : Dual K) (hsym : ∀ b ∈ d.blocks, SymPencil d.dof b) (a δ : K) (N : ℕ)
    (ha : Bounded d a) (ha0 : 0 ≤ a) (hN : ∀ b ∈ d.blocks, b.n ≤ N) (hδ : d.dof * a * N ≤ 2 * 1260 ^ 3 * δ)
    (numer : C → Except PyErr (Option (List K))) (given defaults : List C) (useDefault : ℕ) (st : St K) (ups : List (Up K))
    (hc : ChainSound (dualProb d) ups) (hist : ∀ y ∈ st.ys, Margin d δ fun l => y.getD l 0)
    (hnum : ∀ c ∈ chooseConfigs d.dof (if ups = [] then useDefault else 1) given defaults, ∃ o, numer c = .ok o ∧
      ∀ y, o = some y → y.length = d.dof ∧ Margin d δ fun l => y.getD l 0)
    (hex : ∃ c ∈ chooseConfigs d.dof (if ups = [] then useDefault else 1) given defaults, numer c ≠ .ok none) :
    ∃ st' ups', solve E (dualProb d) numer given defaults useDefault 0 st ups = .ok (true, st', ups') := by
  have hP : (dualProb d).Sym := dual_sym d hsym
  obtain ⟨s, o, e1, e2, -⟩ := configLoop_dual E d numer _ st (fun c hc => by
    obtain ⟨o, h1, h2⟩ := hnum c hc
    exact ⟨o, h1, fun y hy => (h2 y hy).1⟩)
  obtain ⟨f1, f2, f3, ⟨l, f4, f5⟩, f6⟩ := configLoop_frame E (dualProb d) numer 0 (by omega) _ st s o e1
  have main : ∃ st1 y es, solveConfigs E (dualProb d) numer 0 (chooseConfigs d.dof (if ups = [] then useDefault else 1) given defaults) st
      = .ok (st1, some ((.sympy, y), es)) ∧ Found E (dualProb d) false y es := by
    unfold solveConfigs
    rw [e1]
    cases o with
    | some r =>
      obtain ⟨⟨kd, y⟩, es⟩ := r
      obtain ⟨g1, g2, -⟩ := f6 _ rfl
      dsimp only at g1 g2
      subst g1
      exact ⟨_, y, es, rfl, g2⟩
    | none =>
      dsimp only
      have hlt := e2 rfl hex
      rw [if_pos hlt]
      have hne : s.ys ≠ [] := by
        intro h
        rw [h] at hlt
        simp at hlt
      have hmar : Margin d δ fun l => (meanVec d.dof s.ys).getD l 0 := by
        refine margin_mean d δ s.ys hne fun y hy => ?_
        rw [f4] at hy
        rcases List.mem_append.1 hy with hy | hy
        · exact hist y hy
        · obtain ⟨c, hc', hcy⟩ := f5 y hy
          obtain ⟨o, h1, h2⟩ := hnum c hc'
          rw [hcy] at h1
          cases h1
          exact (h2 y rfl).2
      have hlen : (meanVec d.dof s.ys).length = d.dof := by simp [meanVec]
      obtain ⟨o', ho', hs'⟩ := dual_rationalize E d (meanVec d.dof s.ys) hlen [1, 1260, 1260 ^ 2, 1260 ^ 3] false
      have hsome : o'.isSome = true := by
        refine hs' rfl ?_
        by_cases hemp : meanVec d.dof s.ys = []
        · rw [if_pos hemp]
          refine ⟨[], by simp [candidates], ?_⟩
          have hd0 : d.dof = 0 := by rw [← hlen, hemp]; rfl
          refine psd_near d hsym a δ 0 N ha ha0 le_rfl hN ?_ _ _ hmar (fun l hl => by omega)
          rw [hd0] at hδ
          simp only [Nat.cast_zero, zero_mul] at hδ
          have : 0 ≤ δ := by
            by_contra hneg
            push Not at hneg
            linarith
          simpa using this
        · rw [if_neg hemp]
          refine ⟨(meanVec d.dof s.ys).map fun v => (E.rnd (v * ((1260 ^ 3 : ℕ) : K)) : K) / ((1260 ^ 3 : ℕ) : K), ?_, ?_⟩
          · simp only [List.flatMap_cons, List.flatMap_nil, List.append_nil, List.mem_append]
            right
            unfold candidates
            exact List.mem_map.2 ⟨1260 ^ 3, by simp, rfl⟩
          · refine psd_near d hsym a δ (1 / (2 * ((1260 ^ 3 : ℕ) : K))) N ha ha0 (by positivity) hN ?_ _ _ hmar (fun l _ => ?_)
            · have e : (d.dof : K) * a * (1 / (2 * ((1260 ^ 3 : ℕ) : K))) * N = d.dof * a * N / (2 * 1260 ^ 3) := by
                push_cast
                ring
              rw [e, div_le_iff₀ (by positivity)]
              linarith
            · obtain ⟨l0, hl0, -, hcl⟩ := simul_close E hE [1260 ^ 3] (by simp) (meanVec d.dof s.ys)
                ((meanVec d.dof s.ys).map fun v => (E.rnd (v * ((1260 ^ 3 : ℕ) : K)) : K) / ((1260 ^ 3 : ℕ) : K)) (by
                  unfold candidates; exact List.mem_map.2 ⟨1260 ^ 3, by simp, rfl⟩)
              have : l0 = 1260 ^ 3 := by simpa using hl0
              subst this
              exact (hcl l).1
      have ed : (dualProb d).dof = d.dof := rfl
      rw [ed, ho']
      cases o' with
      | none => simp at hsome
      | some r => exact ⟨_, r.1, r.2, rfl, rationalize_found E _ _ _ false false r.1 r.2 ho'⟩
  obtain ⟨st1, y, es, m1, m2⟩ := main
  obtain ⟨us, p1, -, -⟩ := propagate_certified E ups (dualProb d) _ hc (m2.certified hP st1)
  refine ⟨register st1 (some ((.sympy, y), es)), us, ?_⟩
  unfold solve
  have ed : (dualProb d).dof = d.dof := rfl
  rw [ed, m1]
  dsimp only
  rw [p1]
  rfl

/-! ## Numerical answers (`allow_numer = 1`) -/

theorem tryEps_sound (n : ℕ) (M : ℕ → ℕ → K) (hsym : ∀ i j, i < n → j < n → M i j = M j i) (m : K) (hm : m < 0) :
    ∀ (k : ℕ) (eps : K), 0 ≤ eps → ∀ r, tryEps n M m k eps = some r → ∃ c, 0 ≤ c ∧ Decomposes (n, shift c M) r
  | 0, _, _, r, h => by unfold tryEps at h; cases h
  | k + 1, eps, he, r, h => by
    unfold tryEps at h
    split at h
    · rename_i r' hc
      cases h
      have hs : ∀ i j, i < n → j < n → shift (-m + eps) M i j = shift (-m + eps) M j i := by
        intro i j hi hj
        unfold shift
        by_cases hij : i = j
        · subst hij; rfl
        · rw [if_neg hij, if_neg (fun h => hij h.symm), hsym i j hi hj]
      obtain ⟨h1, -, h3⟩ := congruence_sound n _ hs r.1 r.2 hc
      exact ⟨-m + eps, by linarith, n, h1, h3⟩
    · exact tryEps_sound n M hsym m hm k (eps * 10) (by linarith) r h

/-- **C90.** The decomposition with a perturbation belongs to the matrix plus a multiple `c ≥ 0` of the identity, and `c = 0`
unless the computed least eigenvalue is negative. -/
theorem congPert_near (E : Ext K) (p : Bool) (A : Mat K) (hsym : ∀ i j, i < A.1 → j < A.1 → A.2 i j = A.2 j i) (r : LDL K)
    (h : congPert E p A = .ok (some r)) : ∃ c, 0 ≤ c ∧ (0 ≤ E.minEig A.1 A.2 → c = 0) ∧ Decomposes (A.1, shift c A.2) r := by
  have h0 : (A.1, shift 0 A.2) = A := by
    have : shift 0 A.2 = A.2 := by funext i j; unfold shift; simp
    rw [this]
  by_cases hn : A.1 = 0
  · refine ⟨0, le_refl _, fun _ => rfl, ?_⟩
    exact ⟨0, fun i j hi _ => by simp only at hi; omega, fun l hl => by omega⟩
  have hcase : congruence A.1 A.2 = .ok (some r) → ∃ c, 0 ≤ c ∧ (0 ≤ E.minEig A.1 A.2 → c = 0) ∧ Decomposes (A.1, shift c A.2) r := by
    intro hc
    obtain ⟨h1, -, h3⟩ := congruence_sound A.1 A.2 hsym r.1 r.2 hc
    exact ⟨0, le_refl _, fun _ => rfl, by rw [h0]; exact ⟨A.1, h1, h3⟩⟩
  unfold congPert at h
  rw [if_neg hn] at h
  by_cases hp : (!p) = true
  · rw [if_pos hp] at h; exact hcase h
  · rw [if_neg hp] at h
    by_cases hm : E.minEig A.1 A.2 < 0
    · rw [if_pos hm] at h
      cases ht : tryEps A.1 A.2 (E.minEig A.1 A.2) 10 (1 / 10 ^ 15) with
      | some r' =>
        rw [ht] at h
        cases h
        obtain ⟨c, c1, c2⟩ := tryEps_sound A.1 A.2 hsym _ hm 10 _ (by positivity) r ht
        exact ⟨c, c1, fun h => absurd hm (not_lt.2 h), c2⟩
      | none => rw [ht] at h; exact hcase h
    · rw [if_neg hm] at h; exact hcase h

/-! ## Primal problems -/

/-- the contract of the exact solvers used by `project`: the normal equations hold and the correction lies in the row
space (`LDLsolve` with full column rank or a symmetric matrix, `pinv_solve` otherwise) -/
def LsqSound (lsq : PrimalP K → (ℕ → K) → Except PyErr (ℕ → K)) : Prop :=
  ∀ (p : PrimalP K) (r dy : ℕ → K), lsq p r = .ok dy →
    (∀ l, l < p.dof → ∑ i ∈ range p.m, p.A i l * (∑ k ∈ range p.dof, p.A i k * dy k - r i) = 0) ∧
    ∃ w : ℕ → K, ∀ l, l < p.dof → dy l = ∑ i ∈ range p.m, p.A i l * w i

/-- `y` satisfies the equations -/
def PrimalP.Sat (p : PrimalP K) (y : ℕ → K) : Prop := ∀ i, i < p.m → ∑ l ∈ range p.dof, p.A i l * y l = p.b i

theorem sum_swap_mul (m n : ℕ) (A : ℕ → ℕ → K) (w u : ℕ → K) :
    ∑ l ∈ range n, (∑ i ∈ range m, A i l * w i) * u l = ∑ i ∈ range m, w i * ∑ l ∈ range n, A i l * u l := by
  have : ∀ l, (∑ i ∈ range m, A i l * w i) * u l = ∑ i ∈ range m, w i * (A i l * u l) := by
    intro l
    rw [Finset.sum_mul]
    exact Finset.sum_congr rfl fun i _ => by ring
  rw [Finset.sum_congr rfl (fun l _ => this l), Finset.sum_comm]
  exact Finset.sum_congr rfl fun i _ => by rw [Finset.mul_sum]

theorem res_zero_sat (p : PrimalP K) (y : ℕ → K) (h : ((List.range p.m).all fun i => decide (p.res y i = 0)) = true) : p.Sat y := by
  intro i hi
  have := of_decide_eq_true (List.all_eq_true.1 h i (List.mem_range.2 hi))
  unfold PrimalP.res at this
  linarith

/-- **C90.** If the equations of a primal problem have a solution at all, then `project` returns a vector that satisfies
them exactly. -/
theorem project_feasible (lsq : PrimalP K → (ℕ → K) → Except PyErr (ℕ → K)) (hl : LsqSound lsq) (p : PrimalP K) (z : ℕ → K) (hz : p.Sat z)
    (kind : Kind) (y y' : List K) (same : Bool) (h : p.project lsq kind y = .ok (y', same)) : p.Sat fun l => y'.getD l 0 := by
  unfold PrimalP.project at h
  split_ifs at h with h1 h2
  · cases h
    exact res_zero_sat p _ h2
  · cases hd : lsq p (p.res fun l => y.getD l 0) with
    | error e => rw [hd] at h; cases h
    | ok dy =>
      rw [hd] at h
      cases h
      obtain ⟨n1, -⟩ := hl p _ dy hd
      set r := p.res fun l => y.getD l 0 with hr
      let e : ℕ → K := fun i => ∑ k ∈ range p.dof, p.A i k * dy k - r i
      have he : ∀ i, i < p.m → e i = ∑ k ∈ range p.dof, p.A i k * (dy k + y.getD k 0 - z k) := by
        intro i hi
        have := hz i hi
        simp only [e, hr, PrimalP.res]
        rw [← this, ← Finset.sum_sub_distrib, ← Finset.sum_sub_distrib]
        exact Finset.sum_congr rfl fun k _ => by ring
      have hsq : ∑ i ∈ range p.m, e i ^ 2 = 0 := by
        have : ∑ i ∈ range p.m, e i ^ 2 = ∑ i ∈ range p.m, e i * ∑ k ∈ range p.dof, p.A i k * (dy k + y.getD k 0 - z k) :=
          Finset.sum_congr rfl fun i hi => by rw [sq]; congr 1; exact he i (mem_range.1 hi)
        rw [this, ← sum_swap_mul p.m p.dof p.A e]
        refine Finset.sum_eq_zero fun l hl' => ?_
        have := n1 l (mem_range.1 hl')
        rw [this, zero_mul]
      have hzero : ∀ i, i < p.m → e i = 0 := by
        intro i hi
        have := (Finset.sum_eq_zero_iff_of_nonneg (fun i _ => sq_nonneg (e i))).1 hsq i (mem_range.2 hi)
        exact pow_eq_zero_iff (two_ne_zero) |>.1 this
      intro i hi
      have h0 := hzero i hi
      simp only [e, hr, PrimalP.res] at h0
      have : ∑ l ∈ range p.dof, p.A i l * ((List.range p.dof).map (fun l => y.getD l 0 + dy l)).getD l 0
          = ∑ l ∈ range p.dof, p.A i l * y.getD l 0 + ∑ l ∈ range p.dof, p.A i l * dy l := by
        rw [← Finset.sum_add_distrib]
        refine Finset.sum_congr rfl fun l hl' => ?_
        have : ((List.range p.dof).map (fun l => y.getD l 0 + dy l)).getD l 0 = y.getD l 0 + dy l := by
          have := mem_range.1 hl'
          simp [List.getD_eq_getElem?_getD, this]
        rw [this]; ring
      rw [this]
      linarith

/-- **C90.** `project` returns the nearest vector that satisfies the equations. -/
theorem project_closest (lsq : PrimalP K → (ℕ → K) → Except PyErr (ℕ → K)) (hl : LsqSound lsq) (p : PrimalP K) (z : ℕ → K) (hz : p.Sat z)
    (kind : Kind) (y y' : List K) (same : Bool) (h : p.project lsq kind y = .ok (y', same)) :
    ∑ l ∈ range p.dof, (y'.getD l 0 - y.getD l 0) ^ 2 ≤ ∑ l ∈ range p.dof, (z l - y.getD l 0) ^ 2 := by
  have hf := project_feasible lsq hl p z hz kind y y' same h
  unfold PrimalP.project at h
  split_ifs at h with h1 h2
  · cases h
    simp only [sub_self]
    rw [Finset.sum_eq_zero (fun l _ => by ring)]
    exact Finset.sum_nonneg fun l _ => sq_nonneg _
  · cases hd : lsq p (p.res fun l => y.getD l 0) with
    | error e => rw [hd] at h; cases h
    | ok dy =>
      rw [hd] at h
      cases h
      obtain ⟨-, w, hw⟩ := hl p _ dy hd
      have hg : ∀ l ∈ range p.dof, ((List.range p.dof).map (fun l => y.getD l 0 + dy l)).getD l 0 = y.getD l 0 + dy l := by
        intro l hl'
        have := mem_range.1 hl'
        simp [List.getD_eq_getElem?_getD, this]
      set y2 : ℕ → K := fun l => ((List.range p.dof).map (fun l => y.getD l 0 + dy l)).getD l 0 with hy2
      have hort : ∑ l ∈ range p.dof, dy l * (z l - y2 l) = 0 := by
        have e1 : ∑ l ∈ range p.dof, dy l * (z l - y2 l) = ∑ l ∈ range p.dof, (∑ i ∈ range p.m, p.A i l * w i) * (z l - y2 l) :=
          Finset.sum_congr rfl fun l hl' => by rw [hw l (mem_range.1 hl')]
        rw [e1, sum_swap_mul p.m p.dof p.A w]
        refine Finset.sum_eq_zero fun i hi => ?_
        have a1 := hz i (mem_range.1 hi)
        have a2 := hf i (mem_range.1 hi)
        have : ∑ l ∈ range p.dof, p.A i l * (z l - y2 l) = 0 := by
          have : ∑ l ∈ range p.dof, p.A i l * (z l - y2 l) = ∑ l ∈ range p.dof, p.A i l * z l - ∑ l ∈ range p.dof, p.A i l * y2 l := by
            rw [← Finset.sum_sub_distrib]
            exact Finset.sum_congr rfl fun l _ => by ring
          rw [this, a1, a2, sub_self]
        rw [this, mul_zero]
      have e2 : ∑ l ∈ range p.dof, (z l - y.getD l 0) ^ 2
          = ∑ l ∈ range p.dof, (y2 l - y.getD l 0) ^ 2 + 2 * ∑ l ∈ range p.dof, dy l * (z l - y2 l) + ∑ l ∈ range p.dof, (z l - y2 l) ^ 2 := by
        rw [Finset.mul_sum, ← Finset.sum_add_distrib, ← Finset.sum_add_distrib]
        refine Finset.sum_congr rfl fun l hl' => ?_
        have := hg l hl'
        rw [show y2 l = y.getD l 0 + dy l from this]
        ring
      rw [e2, hort]
      have := Finset.sum_nonneg (s := range p.dof) (fun l _ => sq_nonneg (z l - y2 l))
      change ∑ l ∈ range p.dof, (y2 l - y.getD l 0) ^ 2 ≤ _
      linarith

/-- **C90.** Hence the vector that an exact `solve` of a consistent primal problem returns satisfies the equations. -/
theorem primal_found_sat (E : Ext K) (lsq : PrimalP K → (ℕ → K) → Except PyErr (ℕ → K)) (hl : LsqSound lsq) (p : PrimalP K) (z : ℕ → K)
    (hz : p.Sat z) {C : Type*} (numer : C → Except PyErr (Option (List K))) (given defaults : List C) (useDefault : ℕ) (st st' : St K)
    (h : solve E (primalProb lsq p) numer given defaults useDefault 0 st [] = .ok (true, st', [])) :
    ∃ y, st'.y = some (.sympy, y) ∧ p.Sat fun l => y.getD l 0 := by
  unfold solve at h
  cases hs : solveConfigs E (primalProb lsq p) numer 0 (chooseConfigs (primalProb lsq p).dof (if ([] : List (Up K)) = [] then useDefault else 1) given defaults) st with
  | error e => rw [hs] at h; cases h
  | ok q =>
    obtain ⟨st1, o⟩ := q
    rw [hs] at h
    obtain ⟨-, -, -, -, h6, -⟩ := solveConfigs_found E (primalProb lsq p) numer _ st st1 o hs
    unfold propagate at h
    cases o with
    | none => cases h
    | some r =>
      cases h
      obtain ⟨⟨kd, y⟩, es⟩ := r
      obtain ⟨hk, Ss, rs, -, -, -, c, same, hp⟩ := h6 _ rfl
      dsimp only at hk hp
      subst hk
      exact ⟨y, rfl, project_feasible lsq hl p z hz .sympy c y same hp⟩

end Verif.SdpSolve
