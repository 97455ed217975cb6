import Verif.Model.IPMBlocks
import Verif.Props.IPM

/-!
# C104, continued: the blocks

Working block by block gives the same step as the whole block diagonal matrix, so everything proved about `Prob` holds for the blocks.  The
callback cannot break the invariants.
-/

namespace Verif.IPM

open Matrix

variable {β : Type*} [Fintype β] [DecidableEq β] {ι : β → Type*} [∀ k, Fintype (ι k)] [∀ k, DecidableEq (ι k)] {m : ℕ}

/-- The program with the whole block diagonal matrices. -/
def dense (P : BProb ι m) : Prob (Σ k, ι k) m := ⟨fun i => blockDiagonal' (P.A i), P.b, blockDiagonal' P.C⟩

/-- The blocks satisfy the linear conditions. -/
def BFeasible (P : BProb ι m) (X : Blocks ι) : Prop := ∀ i, ∑ k, (P.A i k * X k).trace = P.b i

theorem bfeasible_iff (P : BProb ι m) (X : Blocks ι) : BFeasible P X ↔ Feasible (dense P) (blockDiagonal' X) := by
  refine forall_congr' fun i => ?_
  show _ ↔ (blockDiagonal' (P.A i) * blockDiagonal' X).trace = P.b i
  rw [← blockDiagonal'_mul, trace_blockDiagonal']

theorem z_eq (P : BProb ι m) (X : Blocks ι) : P.z X = (dense P).z (blockDiagonal' X) := by
  unfold Prob.z
  show _ = (blockDiagonal' P.C * blockDiagonal' X).trace
  rw [← blockDiagonal'_mul, trace_blockDiagonal']
  rfl

theorem tr4 (A B C D : Blocks ι) : (blockDiagonal' A * blockDiagonal' B * (blockDiagonal' C * blockDiagonal' D)).trace
    = ∑ k, (A k * B k * (C k * D k)).trace := by
  rw [← blockDiagonal'_mul, ← blockDiagonal'_mul, ← blockDiagonal'_mul, trace_blockDiagonal']

theorem cxcx_eq (P : BProb ι m) (X : Blocks ι) : P.cxcx X = (dense P).cxcx (blockDiagonal' X) := (tr4 P.C X P.C X).symm

theorem cxax_eq (P : BProb ι m) (X : Blocks ι) (i : Fin m) : P.cxax X i = (dense P).cxax (blockDiagonal' X) i := (tr4 P.C X (P.A i) X).symm

theorem M_eq (P : BProb ι m) (X : Blocks ι) (i j : Fin m) : P.M X i j = (dense P).M (blockDiagonal' X) i j := (tr4 (P.A i) X (P.A j) X).symm

theorem solved_iff (P : BProb ι m) (X : Blocks ι) (lam : Fin m → ℝ) : P.Solved X lam ↔ (dense P).Solved (blockDiagonal' X) lam := by
  unfold BProb.Solved Prob.Solved
  simp only [M_eq, cxax_eq, z_eq]
  rfl

theorem v_eq (P : BProb ι m) (X : Blocks ι) (lam : Fin m → ℝ) : P.v X lam = (dense P).v (blockDiagonal' X) lam := by
  unfold BProb.v Prob.v
  rw [z_eq]
  rfl

theorem blockDiagonal'_sum' (f : Fin m → Blocks ι) : blockDiagonal' (∑ j, f j) = ∑ j, blockDiagonal' (f j) :=
  map_sum (blockDiagonal'AddMonoidHom ι ι ℝ) f Finset.univ

theorem VX_blocks (P : BProb ι m) (X : Blocks ι) (lam : Fin m → ℝ) :
    (dense P).VX (blockDiagonal' X) lam = blockDiagonal' fun k => (P.at k).VX (X k) lam := by
  have e : (fun k => (P.at k).VX (X k) lam) = (fun k => P.C k * X k) + ∑ j, lam j • fun k => P.A j k * X k := by
    funext k
    simp only [Pi.add_apply, Finset.sum_apply, Pi.smul_apply]
    rfl
  rw [e, blockDiagonal'_add, blockDiagonal'_sum', blockDiagonal'_mul]
  unfold Prob.VX
  show blockDiagonal' P.C * _ + _ = _
  congr 1
  refine Finset.sum_congr rfl fun j _ => ?_
  rw [blockDiagonal'_smul, blockDiagonal'_mul]
  rfl

theorem size_eq : size ι = Fintype.card (Σ k, ι k) := (Fintype.card_sigma).symm

theorem mean_eq (P : BProb ι m) (X : Blocks ι) (lam : Fin m → ℝ) : P.mean X lam = (dense P).mean (blockDiagonal' X) lam := by
  unfold BProb.mean Prob.mean
  rw [VX_blocks, trace_blockDiagonal', size_eq]

theorem std_eq (P : BProb ι m) (X : Blocks ι) (lam : Fin m → ℝ) : P.std X lam = (dense P).std (blockDiagonal' X) lam := by
  unfold BProb.std Prob.std
  rw [VX_blocks, ← blockDiagonal'_mul, trace_blockDiagonal', size_eq, mean_eq]

theorem top_eq (P : BProb ι m) (X : Blocks ι) (lam : Fin m → ℝ) : P.top X lam = (dense P).top (blockDiagonal' X) lam := by
  unfold BProb.top Prob.top
  rw [v_eq, mean_eq, std_eq, size_eq]

theorem beta_eq (P : BProb ι m) (rho : ℝ) (X : Blocks ι) (lam : Fin m → ℝ) : P.beta rho X lam = (dense P).beta rho (blockDiagonal' X) lam := by
  unfold BProb.beta Prob.beta
  rw [top_eq]

theorem r_eq (P : BProb ι m) (rho : ℝ) (X : Blocks ι) (lam : Fin m → ℝ) : P.r rho X lam = (dense P).r rho (blockDiagonal' X) lam := by
  unfold BProb.r Prob.r
  rw [beta_eq, v_eq]

/-- **The step by blocks is the step of the whole matrix.** -/
theorem next_blocks (P : BProb ι m) (rho : ℝ) (X : Blocks ι) (lam : Fin m → ℝ) :
    blockDiagonal' (P.next rho X lam) = (dense P).next rho (blockDiagonal' X) lam := by
  have e : P.next rho X lam = P.r rho X lam • X - P.beta rho X lam • fun k => (P.r rho X lam • X) k * (P.at k).VX (X k) lam := rfl
  rw [e, blockDiagonal'_sub, blockDiagonal'_smul, blockDiagonal'_smul, blockDiagonal'_mul, blockDiagonal'_smul, ← VX_blocks, r_eq, beta_eq]
  rfl

theorem diff_blocks (P : BProb ι m) (rho : ℝ) (X : Blocks ι) (lam : Fin m → ℝ) : P.diff rho X lam = (dense P).diff rho (blockDiagonal' X) lam := by
  unfold BProb.diff Prob.diff
  simp only [beta_eq, cxcx_eq, cxax_eq, z_eq, v_eq, r_eq]

/-- A block diagonal matrix is positive definite exactly when its blocks are. -/
theorem posDef_blocks (X : Blocks ι) : (blockDiagonal' X).PosDef ↔ ∀ k, (X k).PosDef := by
  constructor
  · intro h k
    have := h.submatrix (e := fun i : ι k => (⟨k, i⟩ : Σ k, ι k)) sigma_mk_injective
    have e : (blockDiagonal' X).submatrix (fun i : ι k => (⟨k, i⟩ : Σ k, ι k)) (fun i : ι k => (⟨k, i⟩ : Σ k, ι k)) = X k := by
      ext i j
      simp
    rwa [e] at this
  · intro h
    refine Matrix.PosDef.of_dotProduct_mulVec_pos ?_ ?_
    · unfold IsHermitian
      rw [blockDiagonal'_conjTranspose]
      congr 1
      funext k
      exact (h k).isHermitian.eq
    · intro w hw
      have e : star w ⬝ᵥ blockDiagonal' X *ᵥ w = ∑ k, (fun i => w ⟨k, i⟩) ⬝ᵥ X k *ᵥ (fun i => w ⟨k, i⟩) := by
        rw [star_trivial]
        simp only [dotProduct, mulVec, Fintype.sum_sigma]
        refine Finset.sum_congr rfl fun k _ => Finset.sum_congr rfl fun i _ => ?_
        congr 1
        rw [Finset.sum_eq_single k]
        · exact Finset.sum_congr rfl fun j _ => by rw [blockDiagonal'_apply_eq]
        · intro k' _ hk
          exact Finset.sum_eq_zero fun j _ => by rw [blockDiagonal'_apply_ne _ _ _ (Ne.symm hk), zero_mul]
        · intro hk
          exact absurd (Finset.mem_univ k) hk
      rw [e]
      have nn : ∀ k, 0 ≤ (fun i => w ⟨k, i⟩) ⬝ᵥ X k *ᵥ (fun i => w ⟨k, i⟩) := fun k => by
        simpa using (h k).posSemidef.dotProduct_mulVec_nonneg (fun i => w ⟨k, i⟩)
      obtain ⟨⟨k, i⟩, hi⟩ := Function.ne_iff.mp hw
      refine Finset.sum_pos' (fun k _ => nn k) ⟨k, Finset.mem_univ _, ?_⟩
      have : (fun i => w ⟨k, i⟩) ≠ 0 := fun z => hi (congrFun z i)
      simpa using (h k).dotProduct_mulVec_pos this

/-- **Soundness with blocks and a callback.**  Whatever the callback says, the returned blocks are positive definite and satisfy the linear
conditions, and the objective is not above that of the start. -/
theorem blocks_sound (P : BProb ι m) (hA : ∀ i k, (P.A i k)ᵀ = P.A i k) (hC : ∀ k, (P.C k)ᵀ = P.C k) {ls : Blocks ι → Fin m → ℝ}
    (hls : ∀ X, (∀ k, (X k).PosDef) → BFeasible P X → P.Solved X (ls X)) {cb : Blocks ι → (Fin m → ℝ) → ℝ → Bool} {rho eps : ℝ} (h0 : 0 < rho)
    (h1 : rho < 1) : ∀ (n : ℕ) {X : Blocks ι}, (∀ k, (X k).PosDef) → BFeasible P X → ∀ {R}, P.ipm ls cb rho eps n X = .ok R →
      (∀ k, (R.1 k).PosDef) ∧ BFeasible P R.1 ∧ ∑ k, (P.C k * R.1 k).trace ≤ ∑ k, (P.C k * X k).trace := by
  have hA' : ∀ i, ((dense P).A i)ᵀ = (dense P).A i := fun i => by
    show (blockDiagonal' (P.A i))ᵀ = _
    rw [blockDiagonal'_transpose]
    exact congrArg blockDiagonal' (funext fun k => hA i k)
  have hC' : (dense P).Cᵀ = (dense P).C := by
    show (blockDiagonal' P.C)ᵀ = _
    rw [blockDiagonal'_transpose]
    exact congrArg blockDiagonal' (funext fun k => hC k)
  intro n
  induction n with
  | zero => intro X _ _ R h; simp [BProb.ipm] at h
  | succ n ih =>
    intro X hX hf R h
    have hl := (solved_iff P X _).mp (hls X hX hf)
    have hX' := (posDef_blocks X).mpr hX
    have hf' := (bfeasible_iff P X).mp hf
    unfold BProb.ipm at h
    split at h
    · simp at h
    · rename_i ht
      rw [top_eq] at ht
      obtain ⟨_, hv, _⟩ := step_pos (dense P) h0 h1 hf' ht
      have a := (posDef_blocks _).mp ((next_blocks P rho X (ls X)).symm ▸ next_posDef (dense P) hA' hC' h0 h1 hX' hf' ht)
      have b := (bfeasible_iff P _).mpr ((next_blocks P rho X (ls X)).symm ▸ next_feasible (dense P) hf' hl hv.ne)
      have c : P.z (P.next rho X (ls X)) ≤ P.z X := by
        rw [z_eq, z_eq, next_blocks, next_value (dense P) hv.ne]
        have := (diff_nonneg (dense P) hA' hC' h0 h1 hX' hf' hl ht).1
        linarith
      split at h
      · obtain rfl := Except.ok.inj h
        exact ⟨a, b, c⟩
      · split at h
        · obtain rfl := Except.ok.inj h
          exact ⟨a, b, c⟩
        · obtain ⟨x, y, z⟩ := ih a b h
          exact ⟨x, y, z.trans c⟩

/-- **Without a callback the loop by blocks is the loop on the whole matrix.** -/
theorem blocks_eq (P : BProb ι m) (ls : Blocks ι → Fin m → ℝ) (rho eps : ℝ) : ∀ (n : ℕ) (X : Blocks ι),
    (dense P).ipm (fun Y => ls (blockDiag' Y)) rho eps n (blockDiagonal' X)
      = (P.ipm ls (fun _ _ _ => false) rho eps n X).map fun R => (blockDiagonal' R.1, R.2) := by
  intro n
  induction n with
  | zero => intro X; rfl
  | succ n ih =>
    intro X
    unfold Prob.ipm BProb.ipm
    have e : ls (blockDiag' (blockDiagonal' X)) = ls X := by rw [blockDiag'_blockDiagonal']
    simp only [e, ← top_eq, ← diff_blocks, ← next_blocks, ih]
    split
    · rfl
    · split
      · rfl
      · simp

/-! ### A concrete program -/

/-- Minimise `x - y` for `x + y = 2` with two blocks of size one. -/
def exB : BProb (fun _ : Bool => Unit) 1 := ⟨fun _ _ => 1, fun _ => 2, fun k => if k then 1 else -1⟩

/-- The solution of the one equation. -/
noncomputable def exBLs (X : Blocks fun _ : Bool => Unit) (_ : Fin 1) : ℝ := (-2 * exB.z X - exB.cxax X 0) / (exB.M X 0 0 + 4)

theorem exBLs_ok (X : Blocks fun _ : Bool => Unit) : exB.Solved X (exBLs X) := by
  have hM : 0 ≤ exB.M X 0 0 := by
    refine Finset.sum_nonneg fun k _ => ?_
    simpa [BProb.at, exB, Prob.M, trace, mul_apply] using mul_self_nonneg (X k () ())
  intro i
  have : i = 0 := Subsingleton.elim _ _
  subst this
  simp only [Fin.sum_univ_one, exBLs]
  have h4 : exB.M X 0 0 + 4 ≠ 0 := by linarith
  have hb : exB.b 0 = 2 := rfl
  rw [hb]
  field_simp
  ring

theorem exB_feasible : BFeasible exB 1 := by intro i; simp [exB, trace]

theorem exBLs_one : exBLs 1 = 0 := by
  funext i
  simp [exBLs, BProb.z, BProb.cxax, BProb.at, Prob.z, Prob.cxax, exB, trace]

/-- **The first pass**: the callback stops it, and the blocks `1/2` and `3/2` are returned. -/
theorem exB_run : ∃ R, exB.ipm exBLs (fun _ _ _ => true) (1 / 2) (1 / 1000) 5 1 = .ok R ∧ R.1 true () () = 1 / 2 ∧ R.1 false () () = 3 / 2 ∧
    ∀ k, (R.1 k).PosDef := by
  have hv : exB.v 1 0 = 0 := by simp [BProb.v, BProb.z, BProb.at, Prob.z, exB, trace]
  have ht : exB.top 1 0 = 1 := by
    have hm : exB.mean 1 0 = 0 := by simp [BProb.mean, BProb.at, Prob.VX, exB, trace]
    have hs : exB.std 1 0 = 1 := by
      unfold BProb.std
      rw [hm]
      simp [BProb.at, Prob.VX, exB, trace, size]
    unfold BProb.top
    rw [hv, hm, hs]
    norm_num [size]
  have hn : ∀ k, exB.next (1 / 2) 1 0 k () () = if k then 1 / 2 else 3 / 2 := by
    intro k
    unfold BProb.next BProb.r BProb.beta
    rw [ht, hv]
    cases k <;> simp [BProb.at, Prob.VX, exB] <;> norm_num
  have e : exB.ipm exBLs (fun _ _ _ => true) (1 / 2) (1 / 1000) 5 1 = .ok (exB.next (1 / 2) 1 0, 0) := by
    unfold BProb.ipm
    rw [exBLs_one, ht, if_neg one_ne_zero]
    split <;> rfl
  refine ⟨_, e, (hn true).trans (if_pos rfl), (hn false).trans (if_neg Bool.false_ne_true), ?_⟩
  exact (blocks_sound exB (fun _ _ => transpose_one) (fun k => by cases k <;> simp [exB]) (fun X _ _ => exBLs_ok X) (by norm_num) (by norm_num) 5
    (fun _ => PosDef.one) exB_feasible e).1

end Verif.IPM
