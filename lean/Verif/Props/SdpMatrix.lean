import Verif.Props.Sdp

/-!
# C26: restricting the range or the null space of the matrices of a dual SDP problem
-/

set_option linter.unusedSectionVars false

namespace Verif.Sdp
open Verif Verif.LinSolve Finset

variable {K : Type*} [Field K] [LinearOrder K] [IsStrictOrderedRing K]

/-! ### Projection onto a span -/

/-- the linear combination `Σ_k b_k v_k` of the first `c` columns -/
def lc (c : ℕ) (V : ℕ → ℕ → K) (b : ℕ → K) : ℕ → K := fun i => ∑ k ∈ range c, V i k * b k

def dot (n : ℕ) (x y : ℕ → K) : K := ∑ i ∈ range n, x i * y i

theorem dot_comm (n : ℕ) (x y : ℕ → K) : dot n x y = dot n y x := by
  unfold dot; apply Finset.sum_congr rfl; intro i _; ring

theorem dot_add (n : ℕ) (x y z : ℕ → K) : dot n x (fun i => y i + z i) = dot n x y + dot n x z := by
  unfold dot; rw [← Finset.sum_add_distrib]; apply Finset.sum_congr rfl; intro i _; ring

theorem dot_smul (n : ℕ) (x y : ℕ → K) (a : K) : dot n x (fun i => a * y i) = a * dot n x y := by
  unfold dot; rw [Finset.mul_sum]; apply Finset.sum_congr rfl; intro i _; ring

theorem dot_congr (n : ℕ) (x : ℕ → K) {y z : ℕ → K} (h : ∀ i, i < n → y i = z i) : dot n x y = dot n x z := by
  unfold dot; apply Finset.sum_congr rfl; intro i hi; rw [h i (Finset.mem_range.1 hi)]

theorem dot_lc (n c : ℕ) (V : ℕ → ℕ → K) (b x : ℕ → K) : dot n x (lc c V b) = ∑ k ∈ range c, b k * dot n x (fun i => V i k) := by
  unfold dot lc
  simp only [Finset.mul_sum]
  rw [Finset.sum_comm]
  apply Finset.sum_congr rfl
  intro k _
  apply Finset.sum_congr rfl
  intro i _; ring

theorem dot_lc_zero (n c : ℕ) (V : ℕ → ℕ → K) (b x : ℕ → K) (h : ∀ k, k < c → dot n x (fun i => V i k) = 0) :
    dot n x (lc c V b) = 0 := by
  rw [dot_lc]
  apply Finset.sum_eq_zero
  intro k hk
  rw [h k (Finset.mem_range.1 hk), mul_zero]

theorem dot_self_zero (n : ℕ) (x : ℕ → K) (h : dot n x x = 0) : ∀ i, i < n → x i = 0 := by
  intro i hi
  unfold dot at h
  have := (Finset.sum_eq_zero_iff_of_nonneg (fun i _ => mul_self_nonneg (x i))).1 h i (Finset.mem_range.2 hi)
  exact mul_self_eq_zero.1 this

/-- Over an ordered field every vector is a combination of given columns plus a vector orthogonal to all of them. -/
theorem projection (n : ℕ) (V : ℕ → ℕ → K) : ∀ (c : ℕ) (x : ℕ → K), ∃ (b w : ℕ → K),
    (∀ i, i < n → x i = lc c V b i + w i) ∧ ∀ k, k < c → dot n w (fun i => V i k) = 0 := by
  intro c
  induction c with
  | zero => intro x; exact ⟨fun _ => 0, x, fun i _ => by simp [lc], fun k hk => by omega⟩
  | succ c ih =>
    intro x
    obtain ⟨b, w, hx, hw⟩ := ih x
    obtain ⟨p, q, hv, hq⟩ := ih (fun i => V i c)
    by_cases hqq : dot n q q = 0
    · refine ⟨fun k => if k < c then b k else 0, w, fun i hi => ?_, fun k hk => ?_⟩
      · rw [hx i hi]
        unfold lc
        rw [Finset.sum_range_succ]
        beta_reduce
        rw [if_neg (Nat.lt_irrefl c), mul_zero, add_zero]
        congr 1
        apply Finset.sum_congr rfl
        intro k hk
        rw [if_pos (Finset.mem_range.1 hk)]
      · by_cases hkc : k = c
        · subst hkc
          rw [dot_congr n w hv, dot_add, dot_lc_zero n k V p w hw, zero_add]
          have hq0 := dot_self_zero n q hqq
          unfold dot
          apply Finset.sum_eq_zero
          intro i hi
          rw [hq0 i (Finset.mem_range.1 hi), mul_zero]
        · exact hw k (by omega)
    · refine ⟨fun k => if k < c then b k - dot n w q / dot n q q * p k else dot n w q / dot n q q,
        fun i => w i + (-(dot n w q / dot n q q)) * q i, fun i hi => ?_, ?_⟩
      · rw [hx i hi]
        have hvi := hv i hi
        unfold lc at hvi ⊢
        rw [Finset.sum_range_succ]
        beta_reduce
        rw [if_neg (Nat.lt_irrefl c)]
        have e : ∑ k ∈ range c, V i k * (if k < c then b k - dot n w q / dot n q q * p k else dot n w q / dot n q q)
            = ∑ k ∈ range c, V i k * b k - dot n w q / dot n q q * ∑ k ∈ range c, V i k * p k := by
          rw [Finset.mul_sum, ← Finset.sum_sub_distrib]
          apply Finset.sum_congr rfl
          intro k hk
          rw [if_pos (Finset.mem_range.1 hk)]; ring
        rw [e, hvi]
        ring
      · have hw' : ∀ k, k < c → dot n (fun i => w i + (-(dot n w q / dot n q q)) * q i) (fun i => V i k) = 0 := by
          intro k hk
          rw [dot_comm, dot_add, dot_smul, dot_comm n _ w, hw k hk, dot_comm n (fun i => V i k) q, hq k hk]; ring
        intro k hk
        by_cases hkc : k = c
        · subst hkc
          rw [dot_congr n _ hv, dot_add, dot_lc_zero n k V p _ hw', zero_add, dot_comm, dot_add, dot_smul, dot_comm n q w]
          field_simp
          ring
        · exact hw' k (by omega)

/-! ### Quadratic forms -/

/-- `Uᵀ M U` -/
def conj (n : ℕ) (U : ℕ → ℕ → K) (M : ℕ → ℕ → K) : ℕ → ℕ → K :=
  fun a c => ∑ i ∈ range n, ∑ j ∈ range n, U i a * M i j * U j c

theorem quad_lc (n r : ℕ) (U M : ℕ → ℕ → K) (a : ℕ → K) :
    ∑ i ∈ range n, ∑ j ∈ range n, lc r U a i * M i j * lc r U a j = ∑ k ∈ range r, ∑ l ∈ range r, a k * conj n U M k l * a l := by
  have h1 : ∀ i j, lc r U a i * M i j * lc r U a j = ∑ k ∈ range r, ∑ l ∈ range r, a k * (U i k * M i j * U j l) * a l := by
    intro i j
    unfold lc
    rw [Finset.sum_mul, Finset.sum_mul_sum]
    apply Finset.sum_congr rfl
    intro k _
    apply Finset.sum_congr rfl
    intro l _; ring
  simp only [h1]
  have h2 : ∀ i, ∑ j ∈ range n, ∑ k ∈ range r, ∑ l ∈ range r, a k * (U i k * M i j * U j l) * a l
      = ∑ k ∈ range r, ∑ l ∈ range r, ∑ j ∈ range n, a k * (U i k * M i j * U j l) * a l := by
    intro i
    rw [Finset.sum_comm]
    apply Finset.sum_congr rfl
    intro k _
    rw [Finset.sum_comm]
  simp only [h2]
  rw [Finset.sum_comm]
  apply Finset.sum_congr rfl
  intro k _
  rw [Finset.sum_comm]
  apply Finset.sum_congr rfl
  intro l _
  unfold conj
  rw [Finset.mul_sum, Finset.sum_mul]
  apply Finset.sum_congr rfl
  intro i _
  rw [Finset.mul_sum, Finset.sum_mul]

theorem psd_conj (n r : ℕ) (U M : ℕ → ℕ → K) (h : PSD n M) : PSD r (conj n U M) := by
  obtain ⟨hs, hp⟩ := h
  refine ⟨fun a c _ _ => ?_, fun x => ?_⟩
  · unfold conj
    rw [Finset.sum_comm]
    apply Finset.sum_congr rfl
    intro j hj
    apply Finset.sum_congr rfl
    intro i hi
    rw [hs i j (Finset.mem_range.1 hi) (Finset.mem_range.1 hj)]; ring
  · rw [← quad_lc]
    exact hp _

/-- every vector is a combination of the columns of `U` and `V` -/
def Spans (n : ℕ) (U V : Cols K) : Prop := ∀ x : ℕ → K, ∃ a b : ℕ → K, ∀ i, i < n → x i = lc U.c U.m a i + lc V.c V.m b i

/-- `S V = 0` -/
def Kills (n : ℕ) (M : ℕ → ℕ → K) (V : Cols K) : Prop := ∀ i, i < n → ∀ c, c < V.c → ∑ j ∈ range n, M i j * V.m j c = 0

theorem kills_lc (n : ℕ) (M : ℕ → ℕ → K) (V : Cols K) (h : Kills n M V) (b : ℕ → K) (i : ℕ) (hi : i < n) :
    ∑ j ∈ range n, M i j * lc V.c V.m b j = 0 := by
  have := dot_lc_zero n V.c V.m b (fun j => M i j) (fun k hk => h i hi k hk)
  exact this

/-- **C26 (core).** If every vector is `U a + V b`, a symmetric matrix that kills `V` is positive semidefinite exactly
when `Uᵀ M U` is. -/
theorem psd_iff_conj (n : ℕ) (U V : Cols K) (hsp : Spans n U V) (M : ℕ → ℕ → K)
    (hs : ∀ i j, i < n → j < n → M i j = M j i) (hk : Kills n M V) : PSD n M ↔ PSD U.c (conj n U.m M) := by
  constructor
  · exact psd_conj n U.c U.m M
  · rintro ⟨-, hp⟩
    refine ⟨hs, fun x => ?_⟩
    obtain ⟨a, b, hx⟩ := hsp x
    have h1 := hp a
    rw [← quad_lc] at h1
    have hrow : ∀ i, i < n → ∑ j ∈ range n, M i j * x j = ∑ j ∈ range n, M i j * lc U.c U.m a j := by
      intro i hi
      have : ∑ j ∈ range n, M i j * x j = ∑ j ∈ range n, M i j * lc U.c U.m a j + ∑ j ∈ range n, M i j * lc V.c V.m b j := by
        rw [← Finset.sum_add_distrib]
        apply Finset.sum_congr rfl
        intro j hj
        rw [hx j (Finset.mem_range.1 hj)]; ring
      rw [this, kills_lc n M V hk b i hi, add_zero]
    have hfac : ∀ (u v : ℕ → K), ∑ i ∈ range n, ∑ j ∈ range n, u i * M i j * v j = ∑ i ∈ range n, u i * ∑ j ∈ range n, M i j * v j := by
      intro u v
      apply Finset.sum_congr rfl
      intro i _
      rw [Finset.mul_sum]
      apply Finset.sum_congr rfl
      intro j _; ring
    have hflip : ∀ (u v : ℕ → K), ∑ i ∈ range n, ∑ j ∈ range n, u i * M i j * v j = ∑ i ∈ range n, ∑ j ∈ range n, v i * M i j * u j := by
      intro u v
      rw [Finset.sum_comm]
      apply Finset.sum_congr rfl
      intro j hj
      apply Finset.sum_congr rfl
      intro i hi
      rw [hs i j (Finset.mem_range.1 hi) (Finset.mem_range.1 hj)]; ring
    have e1 : ∑ i ∈ range n, ∑ j ∈ range n, x i * M i j * x j = ∑ i ∈ range n, ∑ j ∈ range n, x i * M i j * lc U.c U.m a j := by
      rw [hfac, hfac]
      apply Finset.sum_congr rfl
      intro i hi
      rw [hrow i (Finset.mem_range.1 hi)]
    have e2 : ∑ i ∈ range n, ∑ j ∈ range n, x i * M i j * lc U.c U.m a j
        = ∑ i ∈ range n, ∑ j ∈ range n, lc U.c U.m a i * M i j * lc U.c U.m a j := by
      rw [hflip, hfac, hfac]
      apply Finset.sum_congr rfl
      intro i hi
      rw [hrow i (Finset.mem_range.1 hi)]
    rw [e1, e2]
    exact h1

theorem mat_bilinear (b : Block K) (U : Cols K) (dof : ℕ) (y : ℕ → K) (a c : ℕ) (hc : c < U.c) :
    (b.bilinear U).mat dof y a c = conj b.n U.m (b.mat dof y) a c := by
  have h1 : (a * U.c + c) / U.c = a := by
    rw [Nat.add_comm, Nat.mul_comm, Nat.add_mul_div_left _ _ (by omega), Nat.div_eq_of_lt hc]; omega
  have h2 : (a * U.c + c) % U.c = c := by
    rw [Nat.add_comm, Nat.mul_comm, Nat.add_mul_mod_self_left, Nat.mod_eq_of_lt hc]
  unfold Block.mat Block.bilinear conj
  simp only [h1, h2]
  have e : ∑ l ∈ range dof, (∑ i ∈ range b.n, ∑ j ∈ range b.n, U.m i a * b.sp (i * b.n + j) l * U.m j c) * y l
      = ∑ i ∈ range b.n, ∑ j ∈ range b.n, ∑ l ∈ range dof, U.m i a * (b.sp (i * b.n + j) l * y l) * U.m j c := by
    have : ∀ l ∈ range dof, (∑ i ∈ range b.n, ∑ j ∈ range b.n, U.m i a * b.sp (i * b.n + j) l * U.m j c) * y l
        = ∑ i ∈ range b.n, ∑ j ∈ range b.n, U.m i a * (b.sp (i * b.n + j) l * y l) * U.m j c := by
      intro l _
      rw [Finset.sum_mul]
      apply Finset.sum_congr rfl
      intro i _
      rw [Finset.sum_mul]
      apply Finset.sum_congr rfl
      intro j _; ring
    rw [Finset.sum_congr rfl this, Finset.sum_comm]
    apply Finset.sum_congr rfl
    intro i _
    rw [Finset.sum_comm]
  rw [e, ← Finset.sum_add_distrib]
  apply Finset.sum_congr rfl
  intro i _
  rw [← Finset.sum_add_distrib]
  apply Finset.sum_congr rfl
  intro j _
  rw [mul_add, add_mul, Finset.mul_sum, Finset.sum_mul]

theorem nullRows_iff (b : Block K) (V : Cols K) (dof : ℕ) (y : ℕ → K) :
    (∀ r ∈ nullRows b V, ∑ l ∈ range dof, r.1 l * y l + r.2 = 0) ↔ Kills b.n (b.mat dof y) V := by
  have key : ∀ i c, ∑ l ∈ range dof, (∑ j ∈ range b.n, b.sp (i * b.n + j) l * V.m j c) * y l + ∑ j ∈ range b.n, b.x0 (i * b.n + j) * V.m j c
      = ∑ j ∈ range b.n, b.mat dof y i j * V.m j c := by
    intro i c
    have e : ∑ l ∈ range dof, (∑ j ∈ range b.n, b.sp (i * b.n + j) l * V.m j c) * y l
        = ∑ j ∈ range b.n, (∑ l ∈ range dof, b.sp (i * b.n + j) l * y l) * V.m j c := by
      simp only [Finset.sum_mul]
      rw [Finset.sum_comm]
      apply Finset.sum_congr rfl
      intro j _
      apply Finset.sum_congr rfl
      intro l _; ring
    rw [e, ← Finset.sum_add_distrib]
    apply Finset.sum_congr rfl
    intro j _
    unfold Block.mat
    ring
  unfold nullRows Kills
  constructor
  · intro h i hi c hc
    have := h _ (List.mem_flatMap.2 ⟨i, List.mem_range.2 hi, List.mem_map.2 ⟨c, List.mem_range.2 hc, rfl⟩⟩)
    rw [← key]; exact this
  · intro h r hr
    obtain ⟨i, hi, hr⟩ := List.mem_flatMap.1 hr
    obtain ⟨c, hc, rfl⟩ := List.mem_map.1 hr
    rw [key]
    exact h i (List.mem_range.1 hi) c (List.mem_range.1 hc)

/-- The matrix transform for arbitrary column/null spaces that together span everything. -/
theorem matrixTransform_ok (d : Dual K) (uv : List (Cols K × Cols K)) (hsym : ∀ b ∈ d.blocks, SymPencil d.dof b)
    (hsp : ∀ p ∈ d.blocks.zip uv, Spans p.1.n p.2.1 p.2.2) (t : Aff K) (d' : Dual K)
    (h : matrixTransform d uv = .ok (t, d')) :
    (∀ y : ℕ → K, (Feasible d y ∧ ∀ p ∈ d.blocks.zip uv, Kills p.1.n (p.1.mat d.dof y) p.2.2) ↔
      ∃ z, (∀ l, l < d.dof → y l = t.app z l) ∧ Feasible d' z) ∧
    (∀ z z' : ℕ → K, (∀ l, l < d.dof → t.app z l = t.app z' l) → ∀ m, m < d'.dof → z m = z' m) := by
  unfold matrixTransform at h
  by_cases hlen : uv.length ≠ d.blocks.length
  · rw [if_pos hlen] at h; cases h
  rw [if_neg hlen] at h
  push Not at hlen
  simp only at h
  split_ifs at h with hsh
  cases hs : solveEqs d.dof ((d.blocks.zip uv).flatMap fun p => nullRows p.1 p.2.2) with
  | error e => rw [hs] at h; cases h
  | ok t' =>
    rw [hs] at h
    obtain ⟨rfl, rfl⟩ := Prod.mk.inj (Except.ok.inj h)
    obtain ⟨h1, h2⟩ := solveEqs_ok _ _ _ hs
    refine ⟨fun y => ?_, h2⟩
    have hrows : ∀ y : ℕ → K, (∀ p ∈ d.blocks.zip uv, Kills p.1.n (p.1.mat d.dof y) p.2.2) ↔
        ∃ z, ∀ l, l < d.dof → y l = t'.app z l := by
      intro y
      rw [← h1 y]
      constructor
      · intro h r hr
        obtain ⟨p, hp, hr⟩ := List.mem_flatMap.1 hr
        exact (nullRows_iff p.1 p.2.2 d.dof y).2 (h p hp) r hr
      · intro h p hp
        exact (nullRows_iff p.1 p.2.2 d.dof y).1 (fun r hr => h r (List.mem_flatMap.2 ⟨p, hp, hr⟩))
    have hblock : ∀ (y z : ℕ → K), (∀ l, l < d.dof → y l = t'.app z l) → ∀ p ∈ d.blocks.zip uv,
        (PSD p.1.n (p.1.mat d.dof y) ↔ PSD ((p.1.bilinear p.2.1).subst d.dof t').n (((p.1.bilinear p.2.1).subst d.dof t').mat t'.dim z)) := by
      intro y z hyz p hp
      have hk := (hrows y).2 ⟨z, hyz⟩ p hp
      rw [mat_subst, ← mat_congr _ d.dof hyz]
      rw [show ((p.1.bilinear p.2.1).subst d.dof t').n = p.2.1.c from rfl]
      rw [psd_congr _ _ _ (fun a c _ hc => mat_bilinear p.1 p.2.1 d.dof y a c hc)]
      exact psd_iff_conj _ _ _ (hsp p hp) _ (mat_symm d.dof p.1 (hsym _ (List.of_mem_zip hp).1) y) hk
    constructor
    · rintro ⟨hf, hz⟩
      obtain ⟨z, hyz⟩ := (hrows y).1 hz
      refine ⟨z, hyz, ?_⟩
      intro b hb
      obtain ⟨p, hp, rfl⟩ := List.mem_map.1 hb
      have hp := (List.mem_filter.1 hp).1
      exact (hblock y z hyz p hp).1 (hf _ (List.of_mem_zip hp).1)
    · rintro ⟨z, hyz, hf⟩
      refine ⟨?_, (hrows y).2 ⟨z, hyz⟩⟩
      intro b hb
      obtain ⟨k, hk, rfl⟩ := List.mem_iff_getElem.1 hb
      have hp : (d.blocks[k], uv[k]'(by omega)) ∈ d.blocks.zip uv := by
        rw [List.mem_iff_getElem]
        exact ⟨k, by simp; omega, by simp⟩
      by_cases hkeep : (d.blocks[k]).n ≠ 0 ∧ (uv[k]'(by omega)).1.c ≠ 0
      · exact (hblock y z hyz _ hp).2 (hf _ (List.mem_map.2 ⟨_, List.mem_filter.2 ⟨hp, by simpa using hkeep⟩, rfl⟩))
      · have h0 : PSD 0 (fun _ _ => (0 : K)) := ⟨fun i j hi => by omega, fun x => by simp⟩
        by_cases hn : (d.blocks[k]).n = 0
        · rw [hn]
          exact ⟨fun i j hi => by omega, fun x => by simp⟩
        · have hc : (uv[k]'(by omega)).1.c = 0 := by
            by_contra hc; exact hkeep ⟨hn, hc⟩
          rw [hblock y z hyz _ hp]
          rw [show ((d.blocks[k], uv[k]'(by omega)).1.bilinear (d.blocks[k], uv[k]'(by omega)).2.1 |>.subst d.dof t').n = 0 from hc]
          exact ⟨fun i j hi => by omega, fun x => by simp⟩

theorem matrixTransform_error (d : Dual K) (uv : List (Cols K × Cols K)) (hlen : uv.length = d.blocks.length) (e : PyErr)
    (h : matrixTransform d uv = .error e) :
    e = .valueError ∧ ((∀ p ∈ d.blocks.zip uv, p.1.n = 0 ∨ p.2.2.c = 0) ∨
      ¬ ∃ y : ℕ → K, ∀ p ∈ d.blocks.zip uv, Kills p.1.n (p.1.mat d.dof y) p.2.2) := by
  unfold matrixTransform at h
  rw [if_neg (by simpa using hlen)] at h
  simp only at h
  split_ifs at h with hsh
  · injection h with h
    refine ⟨h.symm, Or.inl ?_⟩
    rw [Bool.and_eq_true, List.all_eq_true] at hsh
    intro p hp
    simpa using hsh.1 p hp
  · cases hs : solveEqs d.dof ((d.blocks.zip uv).flatMap fun p => nullRows p.1 p.2.2) with
    | ok t => rw [hs] at h; cases h
    | error e' =>
      rw [hs] at h
      injection h with h
      obtain ⟨he, hno⟩ := solveEqs_error _ _ _ hs
      refine ⟨by rw [← h, he], Or.inr ?_⟩
      rintro ⟨y, hy⟩
      apply hno
      refine ⟨y, fun r hr => ?_⟩
      obtain ⟨p, hp, hr⟩ := List.mem_flatMap.1 hr
      exact (nullRows_iff p.1 p.2.2 d.dof y).2 (hy p hp) r hr

/-! ### The complements computed by the code -/

theorem perp_iff (n : ℕ) (X : Cols K) (x : ℕ → K) :
    (∀ j, j < X.c → ∑ i ∈ range n, X.m i j * x i = 0) ↔ ∃ b, ∀ i, i < n → x i = lc (perpCols n X).c (perpCols n X).m b i :=
  (solveNullspace_spec n X.c X.m _ rfl).1 x

/-- `[U V]` spans everything, for `U` any columns and `V` their computed complement. -/
theorem spans_perp (n : ℕ) (X : Cols K) : Spans n X (perpCols n X) := by
  intro x
  obtain ⟨b, w, hx, hw⟩ := projection n X.m X.c x
  obtain ⟨a, ha⟩ := (perp_iff n X w).1 (fun j hj => by have := hw j hj; rw [dot_comm] at this; exact this)
  exact ⟨b, a, fun i hi => by rw [hx i hi, ha i hi]⟩

theorem spans_symm (n : ℕ) (U V : Cols K) (h : Spans n U V) : Spans n V U := by
  intro x
  obtain ⟨a, b, hx⟩ := h x
  exact ⟨b, a, fun i hi => by rw [hx i hi, add_comm]⟩

/-- Every column of `X` is a combination of the kept (pivot) columns. -/
theorem reg_col (n : ℕ) (X : Cols K) (c : ℕ) (hc : c < X.c) :
    ∃ b, ∀ i, i < n → X.m i c = lc (regCols n X).c (regCols n X).m b i := by
  rcases hR : rowReduce n X.c X.m with ⟨M, ps, b0⟩
  obtain ⟨-, hlen, hsort, hlt, hone, hzero, hleft, hbelow, hker⟩ := rowReduce_spec _ _ _ _ _ _ hR
  have hreg : regCols n X = ⟨fun i a => X.m i (ps.getD a 0), ps.length⟩ := by unfold regCols; rw [hR]
  rw [hreg]
  refine ⟨fun k => M k c, fun i hi => ?_⟩
  have hnd : ps.Nodup := hsort.imp (fun h => Nat.ne_of_lt h)
  have hgd : ∀ k (hk : k < ps.length), ps.getD k 0 = ps[k] := by
    intro k hk; rw [List.getD_eq_getElem?_getD, List.getElem?_eq_getElem hk]; rfl
  let x : ℕ → K := fun j => (if j = c then 1 else 0) - ∑ k ∈ range ps.length, if j = ps.getD k 0 then M k c else 0
  have hsum : ∀ (A : ℕ → ℕ → K) i, ∑ j ∈ range X.c, A i j * x j = A i c - ∑ k ∈ range ps.length, A i (ps.getD k 0) * M k c := by
    intro A i
    have e : ∀ j ∈ range X.c, A i j * x j = (if j = c then A i j else 0) - ∑ k ∈ range ps.length, if j = ps.getD k 0 then A i j * M k c else 0 := by
      intro j _
      simp only [x]
      rw [mul_sub, Finset.mul_sum]
      congr 1
      · by_cases hjc : j = c <;> simp [hjc]
      · apply Finset.sum_congr rfl
        intro k _
        by_cases hj : j = ps.getD k 0
        · rw [if_pos hj, if_pos hj]
        · rw [if_neg hj, if_neg hj, mul_zero]
    rw [Finset.sum_congr rfl e, Finset.sum_sub_distrib, Finset.sum_ite_eq', if_pos (Finset.mem_range.2 hc), Finset.sum_comm]
    congr 1
    apply Finset.sum_congr rfl
    intro k hk
    rw [Finset.sum_ite_eq', if_pos]
    rw [Finset.mem_range, hgd k (Finset.mem_range.1 hk)]
    exact hlt _ (List.getElem_mem _)
  have hk : Kernel n X.c M x := by
    intro i hi
    show ∑ j ∈ range X.c, M i j * x j = 0
    rw [hsum M i]
    by_cases hip : i < ps.length
    · rw [Finset.sum_eq_single i]
      · rw [hgd i hip, hone i hip]; ring
      · intro k hk hki
        rw [hgd k (Finset.mem_range.1 hk), hzero k (Finset.mem_range.1 hk) i hi (Ne.symm hki), zero_mul]
      · intro h; exact absurd (Finset.mem_range.2 hip) h
    · rw [hbelow i (by omega) hi c hc, zero_sub, neg_eq_zero]
      apply Finset.sum_eq_zero
      intro k hk
      rw [hgd k (Finset.mem_range.1 hk), hbelow i (by omega) hi _ (hlt _ (List.getElem_mem _)), zero_mul]
  have := (hker x).1 hk i hi
  have := (hsum X.m i).symm.trans this
  unfold lc
  linear_combination this

theorem reg_kills (n : ℕ) (M : ℕ → ℕ → K) (X : Cols K) : Kills n M (regCols n X) ↔ Kills n M X := by
  constructor
  · intro h i hi c hc
    obtain ⟨b, hb⟩ := reg_col n X c hc
    have := kills_lc n M _ h b i hi
    rw [← this]
    apply Finset.sum_congr rfl
    intro j hj
    rw [hb j (Finset.mem_range.1 hj)]
  · intro h i hi c hc
    rcases hR : rowReduce n X.c X.m with ⟨M', ps, b0⟩
    obtain ⟨-, -, -, hlt, -⟩ := rowReduce_spec _ _ _ _ _ _ hR
    have hreg : regCols n X = ⟨fun i a => X.m i (ps.getD a 0), ps.length⟩ := by unfold regCols; rw [hR]
    rw [hreg] at hc ⊢
    simp only at hc ⊢
    apply h i hi
    rw [List.getD_eq_getElem?_getD, List.getElem?_eq_getElem hc]
    exact hlt _ (List.getElem_mem hc)

theorem zero_kills (n : ℕ) (X : Cols K) (h : isZeroCols n X = true) (M : ℕ → ℕ → K) : Kills n M X := by
  intro i _ c hc
  apply Finset.sum_eq_zero
  intro j hj
  unfold isZeroCols at h
  rw [List.all_eq_true] at h
  have := h j (List.mem_range.2 (Finset.mem_range.1 hj))
  rw [List.all_eq_true] at this
  have := this c (List.mem_range.2 hc)
  rw [decide_eq_true_eq] at this
  rw [this, mul_zero]

theorem reg_zero (n : ℕ) (X : Cols K) (h : n = 0 ∨ (regCols n X).c = 0) : isZeroCols n X = true := by
  unfold isZeroCols
  rw [List.all_eq_true]
  intro i hi
  rw [List.all_eq_true]
  intro c hc
  rw [decide_eq_true_eq]
  rw [List.mem_range] at hi hc
  rcases h with h | h
  · omega
  · obtain ⟨b, hb⟩ := reg_col n X c hc
    rw [hb i hi]
    unfold lc
    rw [h]; simp

theorem zip_mapmap {α β γ : Type*} (f : α → β → γ) : ∀ (l : List α) (m : List β), m.length = l.length →
    ∀ q : α × γ, q ∈ l.zip ((l.zip m).map fun p => f p.1 p.2) ↔ ∃ p ∈ l.zip m, q = (p.1, f p.1 p.2) := by
  intro l m hlen q
  constructor
  · intro h
    obtain ⟨k, hk, rfl⟩ := List.mem_iff_getElem.1 h
    simp only [List.length_zip, List.length_map, hlen, Nat.min_self] at hk
    refine ⟨(l.zip m)[k]'(by simp; omega), List.getElem_mem _, ?_⟩
    simp
  · rintro ⟨p, hp, rfl⟩
    obtain ⟨k, hk, rfl⟩ := List.mem_iff_getElem.1 hp
    simp only [List.length_zip, hlen, Nat.min_self] at hk
    rw [List.mem_iff_getElem]
    exact ⟨k, by simp; omega, by simp⟩

/-- **C26 (null spaces).** `constrain_nullspace(N)` on a problem with symmetric matrices: the feasible points of the child
are mapped one-to-one onto the feasible points of the parent with `S_i N_i = 0` for every block. -/
theorem constrainNullspace_ok (d : Dual K) (Ns : List (Cols K)) (hsym : ∀ b ∈ d.blocks, SymPencil d.dof b)
    (o : Option (Aff K)) (d' : Dual K) (h : constrainNullspace d Ns = .ok (o, d')) :
    (∀ y : ℕ → K, (Feasible d y ∧ ∀ p ∈ d.blocks.zip Ns, Kills p.1.n (p.1.mat d.dof y) p.2) ↔
      ∃ z, (∀ l, l < d.dof → y l = optApp o z l) ∧ Feasible d' z) ∧
    (∀ z z' : ℕ → K, (∀ l, l < d.dof → optApp o z l = optApp o z' l) → ∀ m, m < d'.dof → z m = z' m) := by
  unfold constrainNullspace at h
  by_cases hlen : Ns.length ≠ d.blocks.length
  · rw [if_pos hlen] at h; cases h
  rw [if_neg hlen] at h
  push Not at hlen
  by_cases hz : ((d.blocks.zip Ns).all fun p => isZeroCols p.1.n p.2) = true
  · rw [if_pos hz] at h
    obtain ⟨rfl, rfl⟩ := Prod.mk.inj (Except.ok.inj h)
    refine ⟨fun y => ?_, fun z z' hzz m hm => hzz m hm⟩
    rw [List.all_eq_true] at hz
    constructor
    · rintro ⟨hf, -⟩; exact ⟨y, fun _ _ => rfl, hf⟩
    · rintro ⟨z, hyz, hf⟩
      refine ⟨?_, fun p hp => zero_kills _ _ (hz p hp) _⟩
      intro b hb
      rw [mat_congr b d.dof hyz]
      exact hf b hb
  · rw [if_neg hz] at h
    cases hm : matrixTransform d ((d.blocks.zip Ns).map fun p => (perpCols p.1.n (regCols p.1.n p.2), regCols p.1.n p.2)) with
    | error e => rw [hm] at h; cases h
    | ok r =>
      obtain ⟨t, d2⟩ := r
      rw [hm] at h
      obtain ⟨rfl, rfl⟩ := Prod.mk.inj (Except.ok.inj h)
      have hzm := zip_mapmap (fun (b : Block K) (N : Cols K) => (perpCols b.n (regCols b.n N), regCols b.n N)) d.blocks Ns hlen
      obtain ⟨h1, h2⟩ := matrixTransform_ok d _ hsym (fun q hq => by
        obtain ⟨p, hp, rfl⟩ := (hzm q).1 hq
        exact spans_symm _ _ _ (spans_perp _ _)) t d2 hm
      refine ⟨fun y => ?_, h2⟩
      show _ ↔ ∃ z, (∀ l, l < d.dof → y l = t.app z l) ∧ Feasible d2 z
      rw [← h1 y]
      apply and_congr_right
      intro _
      constructor
      · intro hk q hq
        obtain ⟨p, hp, rfl⟩ := (hzm q).1 hq
        exact (reg_kills _ _ _).2 (hk p hp)
      · intro hk p hp
        exact (reg_kills _ _ _).1 (hk _ ((hzm _).2 ⟨p, hp, rfl⟩))

/-- **C26 (null spaces, refusal).** With one null space per block the call raises exactly when no `y` at all satisfies
`S_i N_i = 0`. -/
theorem constrainNullspace_error_iff (d : Dual K) (Ns : List (Cols K)) (hlen : Ns.length = d.blocks.length) :
    (∃ e, constrainNullspace d Ns = .error e) ↔
      ¬ ∃ y : ℕ → K, ∀ p ∈ d.blocks.zip Ns, Kills p.1.n (p.1.mat d.dof y) p.2 := by
  have hzm := zip_mapmap (fun (b : Block K) (N : Cols K) => (perpCols b.n (regCols b.n N), regCols b.n N)) d.blocks Ns hlen
  constructor
  · rintro ⟨e, h⟩
    unfold constrainNullspace at h
    rw [if_neg (by simpa using hlen)] at h
    by_cases hz : ((d.blocks.zip Ns).all fun p => isZeroCols p.1.n p.2) = true
    · rw [if_pos hz] at h; cases h
    · rw [if_neg hz] at h
      cases hm : matrixTransform d ((d.blocks.zip Ns).map fun p => (perpCols p.1.n (regCols p.1.n p.2), regCols p.1.n p.2)) with
      | ok r => rw [hm] at h; cases h
      | error e' =>
        obtain ⟨-, h1 | h1⟩ := matrixTransform_error d _ (by simp [hlen]) e' hm
        · exfalso
          apply hz
          rw [List.all_eq_true]
          intro p hp
          exact reg_zero _ _ (h1 _ ((hzm _).2 ⟨p, hp, rfl⟩))
        · rintro ⟨y, hy⟩
          apply h1
          refine ⟨y, fun q hq => ?_⟩
          obtain ⟨p, hp, rfl⟩ := (hzm q).1 hq
          exact (reg_kills _ _ _).2 (hy p hp)
  · intro hno
    cases hc : constrainNullspace d Ns with
    | error e => exact ⟨e, rfl⟩
    | ok r =>
      exfalso
      apply hno
      obtain ⟨o, d'⟩ := r
      unfold constrainNullspace at hc
      rw [if_neg (by simpa using hlen)] at hc
      by_cases hz : ((d.blocks.zip Ns).all fun p => isZeroCols p.1.n p.2) = true
      · rw [List.all_eq_true] at hz
        exact ⟨fun _ => 0, fun p hp => zero_kills _ _ (hz p hp) _⟩
      · rw [if_neg hz] at hc
        unfold matrixTransform at hc
        rw [if_neg (by simp [hlen])] at hc
        simp only at hc
        split_ifs at hc with hsh
        cases hs : solveEqs d.dof ((d.blocks.zip ((d.blocks.zip Ns).map fun p =>
            (perpCols p.1.n (regCols p.1.n p.2), regCols p.1.n p.2))).flatMap fun p => nullRows p.1 p.2.2) with
        | error e => rw [hs] at hc; cases hc
        | ok t =>
          obtain ⟨h1, -⟩ := solveEqs_ok _ _ _ hs
          have := (h1 (t.app fun _ => 0)).2 ⟨fun _ => 0, fun _ _ => rfl⟩
          refine ⟨t.app fun _ => 0, fun p hp => ?_⟩
          rw [← reg_kills, ← nullRows_iff]
          intro r hr
          exact this r (List.mem_flatMap.2 ⟨_, (hzm _).2 ⟨p, hp, rfl⟩, hr⟩)

/-! ### Column spaces -/

/-- every row of `M` is a combination of the columns of `Q` -/
def InRange (n : ℕ) (Q : Cols K) (M : ℕ → ℕ → K) : Prop := ∀ i, i < n → ∃ a, ∀ j, j < n → M i j = lc Q.c Q.m a j

theorem kills_perp_iff (n : ℕ) (Q : Cols K) (M : ℕ → ℕ → K) : Kills n M (perpCols n Q) ↔ InRange n Q M := by
  constructor
  · intro h i hi
    obtain ⟨b, w, hx, hw⟩ := projection n Q.m Q.c (fun j => M i j)
    obtain ⟨a, ha⟩ := (perp_iff n Q w).1 (fun j hj => by have := hw j hj; rw [dot_comm] at this; exact this)
    have h0 := kills_lc n M _ h a i hi
    have h1 : dot n (fun j => M i j) w = 0 := by
      rw [dot_congr n _ ha]; exact h0
    have h2 : dot n w w = 0 := by
      rw [dot_comm, dot_congr n w hx, dot_add, dot_lc_zero n Q.c Q.m b w hw, zero_add] at h1
      exact h1
    have hw0 := dot_self_zero n w h2
    exact ⟨b, fun j hj => by rw [hx j hj, hw0 j hj, add_zero]⟩
  · intro h i hi c hc
    obtain ⟨a, ha⟩ := h i hi
    have hp := (perp_iff n Q (fun i => (perpCols n Q).m i c)).2 ⟨fun k => if k = c then 1 else 0, fun i hi => by
      unfold lc
      rw [Finset.sum_eq_single c]
      · simp
      · intro k _ hk; beta_reduce; rw [if_neg hk, mul_zero]
      · intro hh; exact absurd (Finset.mem_range.2 hc) hh⟩
    show dot n (fun j => M i j) (fun j => (perpCols n Q).m j c) = 0
    rw [dot_comm, dot_congr n _ ha]
    apply dot_lc_zero
    intro k hk
    have := hp k hk
    rw [dot_comm]
    exact this

theorem reg_lc (n : ℕ) (X : Cols K) (x : ℕ → K) :
    (∃ a, ∀ j, j < n → x j = lc (regCols n X).c (regCols n X).m a j) ↔ ∃ a, ∀ j, j < n → x j = lc X.c X.m a j := by
  have key := reg_kills n (fun _ j => x j - x j) X
  constructor
  · rintro ⟨a, ha⟩
    rcases hR : rowReduce n X.c X.m with ⟨M', ps, b0⟩
    obtain ⟨-, -, hsort, hlt, -⟩ := rowReduce_spec _ _ _ _ _ _ hR
    have hreg : regCols n X = ⟨fun i a => X.m i (ps.getD a 0), ps.length⟩ := by unfold regCols; rw [hR]
    rw [hreg] at ha
    refine ⟨fun c => ∑ k ∈ range ps.length, if c = ps.getD k 0 then a k else 0, fun j hj => ?_⟩
    rw [ha j hj]
    unfold lc
    simp only [Finset.mul_sum]
    rw [Finset.sum_comm]
    apply Finset.sum_congr rfl
    intro k hk
    rw [Finset.sum_eq_single (ps.getD k 0)]
    · rw [if_pos rfl]
    · intro c _ hc; rw [if_neg hc, mul_zero]
    · intro hh
      exfalso; apply hh
      rw [Finset.mem_range, List.getD_eq_getElem?_getD, List.getElem?_eq_getElem (Finset.mem_range.1 hk)]
      exact hlt _ (List.getElem_mem _)
  · rintro ⟨a, ha⟩
    have hch : ∀ c, ∃ b, c < X.c → ∀ i, i < n → X.m i c = lc (regCols n X).c (regCols n X).m b i := by
      intro c
      by_cases hc : c < X.c
      · obtain ⟨b, hb⟩ := reg_col n X c hc
        exact ⟨b, fun _ => hb⟩
      · exact ⟨fun _ => 0, fun h => absurd h hc⟩
    choose B hB using hch
    refine ⟨fun k => ∑ c ∈ range X.c, B c k * a c, fun j hj => ?_⟩
    rw [ha j hj]
    unfold lc
    simp only [Finset.mul_sum]
    rw [Finset.sum_comm]
    apply Finset.sum_congr rfl
    intro c hc
    rw [hB c (Finset.mem_range.1 hc) j hj]
    unfold lc
    rw [Finset.sum_mul]
    apply Finset.sum_congr rfl
    intro k _; ring

/-- `M = Q M' Qᵀ` with `M'` positive semidefinite -/
def Factors (n : ℕ) (Q : Cols K) (M : ℕ → ℕ → K) : Prop :=
  ∃ M' : ℕ → ℕ → K, PSD Q.c M' ∧ ∀ i j, i < n → j < n → M i j = ∑ a ∈ range Q.c, ∑ c ∈ range Q.c, Q.m i a * M' a c * Q.m j c

/-- A positive semidefinite matrix has its range in the span of `Q` exactly when it is `Q M' Qᵀ` for some positive
semidefinite `M'`. -/
theorem factors_iff (n : ℕ) (Q : Cols K) (M : ℕ → ℕ → K) : (PSD n M ∧ InRange n Q M) ↔ Factors n Q M := by
  constructor
  · rintro ⟨hpsd, hr⟩
    -- a section T with Q T = identity on the span
    have hT : ∀ j, ∃ b w : ℕ → K, (∀ i, i < n → (if i = j then (1 : K) else 0) = lc Q.c Q.m b i + w i) ∧
        ∀ k, k < Q.c → dot n w (fun i => Q.m i k) = 0 := fun j => projection n Q.m Q.c _
    choose T W hTW hW using hT
    have hsec : ∀ (x : ℕ → K), (∃ a, ∀ j, j < n → x j = lc Q.c Q.m a j) →
        ∀ i, i < n → x i = lc Q.c Q.m (fun k => ∑ j ∈ range n, T j k * x j) i := by
      rintro x ⟨a, ha⟩
      let r : ℕ → K := fun i => ∑ j ∈ range n, W j i * x j
      have hdec : ∀ i, i < n → x i = lc Q.c Q.m (fun k => ∑ j ∈ range n, T j k * x j) i + r i := by
        intro i hi
        have e1 : lc Q.c Q.m (fun k => ∑ j ∈ range n, T j k * x j) i = ∑ j ∈ range n, lc Q.c Q.m (T j) i * x j := by
          unfold lc
          simp only [Finset.mul_sum, Finset.sum_mul]
          rw [Finset.sum_comm]
          apply Finset.sum_congr rfl
          intro j _
          apply Finset.sum_congr rfl
          intro k _; ring
        rw [e1]
        simp only [r]
        rw [← Finset.sum_add_distrib]
        have e2 : ∀ j ∈ range n, lc Q.c Q.m (T j) i * x j + W j i * x j = if j = i then x j else 0 := by
          intro j _
          rw [← add_mul, ← hTW j i hi]
          by_cases hij : i = j
          · rw [if_pos hij, if_pos hij.symm, one_mul]
          · rw [if_neg hij, if_neg (Ne.symm hij), zero_mul]
        rw [Finset.sum_congr rfl e2, Finset.sum_ite_eq', if_pos (Finset.mem_range.2 hi)]
      have hrq : ∀ k, k < Q.c → dot n r (fun i => Q.m i k) = 0 := by
        intro k hk
        unfold dot
        simp only [r, Finset.sum_mul]
        rw [Finset.sum_comm]
        apply Finset.sum_eq_zero
        intro j _
        have := hW j k hk
        unfold dot at this
        have e : ∑ i ∈ range n, W j i * x j * Q.m i k = x j * ∑ i ∈ range n, W j i * Q.m i k := by
          rw [Finset.mul_sum]
          apply Finset.sum_congr rfl
          intro i _; ring
        rw [e, this, mul_zero]
      have hrr : dot n r r = 0 := by
        have h1 : ∀ i, i < n → r i = lc Q.c Q.m (fun k => a k + -1 * ∑ j ∈ range n, T j k * x j) i := by
          intro i hi
          have e := hdec i hi
          have e' := ha i hi
          have : lc Q.c Q.m (fun k => a k + -1 * ∑ j ∈ range n, T j k * x j) i
              = lc Q.c Q.m a i - lc Q.c Q.m (fun k => ∑ j ∈ range n, T j k * x j) i := by
            unfold lc
            rw [← Finset.sum_sub_distrib]
            apply Finset.sum_congr rfl
            intro k _; ring
          rw [this, ← e']
          linear_combination -e
        rw [dot_congr n r h1]
        exact dot_lc_zero n Q.c Q.m _ r hrq
      have hr0 := dot_self_zero n r hrr
      intro i hi
      have := hdec i hi
      rw [hr0 i hi, add_zero] at this
      exact this
    refine ⟨conj n T M, psd_conj n Q.c T M hpsd, ?_⟩
    intro i j hi hj
    -- row i of M is in the span, so expand in j; then by symmetry expand in i
    have hrow : ∀ i, i < n → ∀ j, j < n → M i j = ∑ c ∈ range Q.c, Q.m j c * ∑ l ∈ range n, T l c * M i l :=
      fun i hi j hj => hsec (fun l => M i l) (hr i hi) j hj
    have hM : M i j = ∑ c ∈ range Q.c, Q.m j c * ∑ l ∈ range n, T l c * ∑ a ∈ range Q.c, Q.m i a * ∑ k ∈ range n, T k a * M k l := by
      rw [hrow i hi j hj]
      apply Finset.sum_congr rfl
      intro c _
      congr 1
      apply Finset.sum_congr rfl
      intro l hl
      have hl := Finset.mem_range.1 hl
      congr 1
      rw [hpsd.1 i l hi hl, hrow l hl i hi]
      apply Finset.sum_congr rfl
      intro a _
      congr 1
      apply Finset.sum_congr rfl
      intro k hk
      rw [hpsd.1 l k hl (Finset.mem_range.1 hk)]
    rw [hM]
    unfold conj
    rw [Finset.sum_comm]
    apply Finset.sum_congr rfl
    intro c _
    simp only [Finset.mul_sum, Finset.sum_mul]
    rw [Finset.sum_comm]
    apply Finset.sum_congr rfl
    intro a _
    rw [Finset.sum_comm]
    apply Finset.sum_congr rfl
    intro k _
    apply Finset.sum_congr rfl
    intro l _
    ring
  · rintro ⟨M', hp, hM⟩
    constructor
    · have hcj := psd_conj Q.c n (fun a i => Q.m i a) M' hp
      rw [psd_congr n M (conj Q.c (fun a i => Q.m i a) M')]
      · exact hcj
      · intro i j hi hj
        rw [hM i j hi hj]
        rfl
    · intro i hi
      refine ⟨fun c => ∑ a ∈ range Q.c, Q.m i a * M' a c, fun j hj => ?_⟩
      rw [hM i j hi hj]
      unfold lc
      rw [Finset.sum_comm]
      apply Finset.sum_congr rfl
      intro c _
      rw [Finset.mul_sum]
      apply Finset.sum_congr rfl
      intro a _; ring

/-- **C26 (column spaces), partial.** When `constrain_subspace(Q)` returns and some `Q_i` is non-zero, the feasible points
of the child are mapped one-to-one onto the points at which every parent matrix is `Q_i M_i Q_iᵀ` with `M_i` positive
semidefinite.  Missing: the two cases below in which the call does not do this. -/
theorem constrainSubspace_ok_partial (d : Dual K) (Qs : List (Cols K)) (hsym : ∀ b ∈ d.blocks, SymPencil d.dof b)
    (hne : ¬ ∀ p ∈ d.blocks.zip Qs, isZeroCols p.1.n p.2 = true)
    (o : Option (Aff K)) (d' : Dual K) (h : constrainSubspace d Qs = .ok (o, d')) :
    (∀ y : ℕ → K, (∀ p ∈ d.blocks.zip Qs, Factors p.1.n p.2 (p.1.mat d.dof y)) ↔
      ∃ z, (∀ l, l < d.dof → y l = optApp o z l) ∧ Feasible d' z) ∧
    (∀ z z' : ℕ → K, (∀ l, l < d.dof → optApp o z l = optApp o z' l) → ∀ m, m < d'.dof → z m = z' m) := by
  unfold constrainSubspace at h
  rw [if_neg (by rw [List.all_eq_true]; exact hne)] at h
  by_cases hlen : Qs.length ≠ d.blocks.length
  · rw [if_pos hlen] at h; cases h
  rw [if_neg hlen] at h
  push Not at hlen
  cases hm : matrixTransform d ((d.blocks.zip Qs).map fun p => (regCols p.1.n p.2, perpCols p.1.n (regCols p.1.n p.2))) with
  | error e => rw [hm] at h; cases h
  | ok r =>
    obtain ⟨t, d2⟩ := r
    rw [hm] at h
    obtain ⟨rfl, rfl⟩ := Prod.mk.inj (Except.ok.inj h)
    have hzm := zip_mapmap (fun (b : Block K) (Q : Cols K) => (regCols b.n Q, perpCols b.n (regCols b.n Q))) d.blocks Qs hlen
    obtain ⟨h1, h2⟩ := matrixTransform_ok d _ hsym (fun q hq => by
      obtain ⟨p, hp, rfl⟩ := (hzm q).1 hq
      exact spans_perp _ _) t d2 hm
    refine ⟨fun y => ?_, h2⟩
    show _ ↔ ∃ z, (∀ l, l < d.dof → y l = t.app z l) ∧ Feasible d2 z
    rw [← h1 y]
    have hrng : ∀ p ∈ d.blocks.zip Qs, (Kills p.1.n (p.1.mat d.dof y) (perpCols p.1.n (regCols p.1.n p.2)) ↔
        InRange p.1.n p.2 (p.1.mat d.dof y)) := by
      intro p _
      rw [kills_perp_iff]
      unfold InRange
      constructor
      · intro hh i hi; exact (reg_lc p.1.n p.2 (fun j => p.1.mat d.dof y i j)).1 (hh i hi)
      · intro hh i hi; exact (reg_lc p.1.n p.2 (fun j => p.1.mat d.dof y i j)).2 (hh i hi)
    constructor
    · intro hF
      constructor
      · intro b hb
        obtain ⟨k, hk, rfl⟩ := List.mem_iff_getElem.1 hb
        have hp : (d.blocks[k], Qs[k]'(by omega)) ∈ d.blocks.zip Qs := by
          rw [List.mem_iff_getElem]
          exact ⟨k, by simp; omega, by simp⟩
        exact ((factors_iff _ _ _).2 (hF _ hp)).1
      · intro q hq
        obtain ⟨p, hp, rfl⟩ := (hzm q).1 hq
        exact (hrng p hp).2 ((factors_iff _ _ _).2 (hF p hp)).2
    · rintro ⟨hf, hk⟩ p hp
      rw [← factors_iff]
      exact ⟨hf _ (List.of_mem_zip hp).1, (hrng p hp).1 (hk _ ((hzm _).2 ⟨p, hp, rfl⟩))⟩

/-- The problem `S = [y]` of size one. -/
def oneDual : Dual ℚ := ⟨1, [⟨1, fun _ => 0, fun _ _ => 1⟩]⟩

/-- **C26 violated (zero column space).** Constraining the range of `S = [y]` to the zero space should leave only `y = 0`,
but the unconstrained problem is returned: `y = 1` remains feasible although `S = [1]` is not `Q M Qᵀ`. -/
theorem constrainSubspace_zero_wrong : ∃ (d : Dual ℚ) (Q : Cols ℚ) (d' : Dual ℚ) (y : ℕ → ℚ),
    constrainSubspace d [Q] = .ok (none, d') ∧ Feasible d' y ∧ ¬ ∀ p ∈ d.blocks.zip [Q], Factors p.1.n p.2 (p.1.mat d.dof y) := by
  refine ⟨oneDual, ⟨fun _ _ => 0, 1⟩, oneDual, fun _ => 1, ?_, ?_, ?_⟩
  · unfold constrainSubspace
    rw [if_pos (by decide +kernel)]
  · intro b hb
    have hb : b = ⟨1, fun _ => 0, fun _ _ => 1⟩ := by simpa [oneDual] using hb
    subst hb
    refine ⟨fun i j hi hj => ?_, fun x => ?_⟩
    · have : i = 0 := by simp at hi; omega
      have : j = 0 := by simp at hj; omega
      subst_vars; rfl
    · simp [Block.mat, oneDual]
      exact mul_self_nonneg _
  · intro h
    obtain ⟨M', -, hM⟩ := h _ (by simp [oneDual]; rfl)
    have := hM 0 0 (by decide) (by decide)
    simp [Block.mat, oneDual] at this

/-- **C26 violated (full column space).** Constraining the range of `S = [y]` to the whole space is no constraint, but
the call raises. -/
theorem constrainSubspace_full_raises : (match constrainSubspace oneDual [⟨fun _ _ => 1, 1⟩] with | .error e => decide (e = .valueError) | _ => false) = true := by
  decide +kernel

/-! ### Propagating further null spaces to the child -/

/-- The formula `Uᵀ N` for the child is right when the columns of `U` are orthonormal and complemented by `V`. -/
theorem propagateNull_ok_partial (n : ℕ) (U V N : Cols K) (hsp : Spans n U V) (hperp : ∀ a c, a < U.c → c < V.c → ∑ i ∈ range n, U.m i a * V.m i c = 0)
    (horth : ∀ a c, a < U.c → c < U.c → ∑ i ∈ range n, U.m i a * U.m i c = if a = c then 1 else 0)
    (M : ℕ → ℕ → K) (hs : ∀ i j, i < n → j < n → M i j = M j i) (hk : Kills n M V) :
    Kills n M N ↔ Kills U.c (conj n U.m M) (propagateNull n U N) := by
  -- N_c = U (UᵀN)_c + V b
  have hdec : ∀ c, ∃ b : ℕ → K, ∀ i, i < n → N.m i c = lc U.c U.m (fun a => (propagateNull n U N).m a c) i + lc V.c V.m b i := by
    intro c
    obtain ⟨a, b, hx⟩ := hsp (fun i => N.m i c)
    refine ⟨b, fun i hi => ?_⟩
    rw [hx i hi]
    congr 1
    unfold lc
    apply Finset.sum_congr rfl
    intro k hk'
    congr 1
    have hk' := Finset.mem_range.1 hk'
    show a k = dot n (fun i => U.m i k) (fun i => N.m i c)
    rw [dot_congr n _ hx, dot_add, dot_lc, dot_lc_zero n V.c V.m b _ (fun m hm => hperp k m hk' hm), add_zero]
    rw [Finset.sum_eq_single k]
    · have := horth k k hk' hk'
      rw [if_pos rfl] at this
      unfold dot
      rw [this, mul_one]
    · intro m hm hmk
      have := horth k m hk' (Finset.mem_range.1 hm)
      rw [if_neg (Ne.symm hmk)] at this
      unfold dot
      rw [this, mul_zero]
    · intro hh; exact absurd (Finset.mem_range.2 hk') hh
  have hMN : ∀ i, i < n → ∀ c, ∑ j ∈ range n, M i j * N.m j c = ∑ j ∈ range n, M i j * lc U.c U.m (fun a => (propagateNull n U N).m a c) j := by
    intro i hi c
    obtain ⟨b, hb⟩ := hdec c
    have : ∑ j ∈ range n, M i j * N.m j c = ∑ j ∈ range n, M i j * lc U.c U.m (fun a => (propagateNull n U N).m a c) j + ∑ j ∈ range n, M i j * lc V.c V.m b j := by
      rw [← Finset.sum_add_distrib]
      apply Finset.sum_congr rfl
      intro j hj
      rw [hb j (Finset.mem_range.1 hj)]; ring
    rw [this, kills_lc n M V hk b i hi, add_zero]
  have hconj : ∀ k c, ∑ l ∈ range U.c, conj n U.m M k l * (propagateNull n U N).m l c = ∑ i ∈ range n, U.m i k * ∑ j ∈ range n, M i j * N.m j c := by
    intro k c
    have e : ∀ i ∈ range n, U.m i k * ∑ j ∈ range n, M i j * N.m j c = ∑ l ∈ range U.c, (∑ j ∈ range n, U.m i k * M i j * U.m j l) * (propagateNull n U N).m l c := by
      intro i hi
      rw [hMN i (Finset.mem_range.1 hi) c]
      unfold lc
      simp only [Finset.mul_sum, Finset.sum_mul]
      rw [Finset.sum_comm]
      apply Finset.sum_congr rfl
      intro l _
      apply Finset.sum_congr rfl
      intro j _; ring
    rw [Finset.sum_congr rfl e, Finset.sum_comm]
    apply Finset.sum_congr rfl
    intro l _
    unfold conj
    rw [Finset.sum_mul]
  constructor
  · intro h k hk' c hc
    rw [hconj]
    apply Finset.sum_eq_zero
    intro i hi
    rw [h i (Finset.mem_range.1 hi) c hc, mul_zero]
  · intro h i hi c hc
    -- the vector M N_c is orthogonal to U, and to V since M V = 0
    let w : ℕ → K := fun i => ∑ j ∈ range n, M i j * N.m j c
    have hU : ∀ k, k < U.c → dot n w (fun i => U.m i k) = 0 := by
      intro k hk'
      have := h k hk' c hc
      rw [hconj] at this
      rw [dot_comm]
      exact this
    have hV : ∀ k, k < V.c → dot n w (fun i => V.m i k) = 0 := by
      intro k hk'
      unfold dot
      simp only [w, Finset.sum_mul]
      rw [Finset.sum_comm]
      apply Finset.sum_eq_zero
      intro j hj
      have hj := Finset.mem_range.1 hj
      have := hk j hj k hk'
      have e : ∑ i ∈ range n, M i j * N.m j c * V.m i k = N.m j c * ∑ i ∈ range n, M j i * V.m i k := by
        rw [Finset.mul_sum]
        apply Finset.sum_congr rfl
        intro i hi
        rw [hs i j (Finset.mem_range.1 hi) hj]; ring
      rw [e, this, mul_zero]
    obtain ⟨a, b, hx⟩ := hsp w
    have : dot n w w = 0 := by
      rw [dot_congr n w hx, dot_add, dot_lc_zero n _ _ _ _ hU, dot_lc_zero n _ _ _ _ hV, add_zero]
    exact dot_self_zero n w this i hi

/-- For a row masking the propagated null space (the unmasked rows of `N`) is right whenever the masked rows of the
matrix vanish. -/
theorem propagateNullMask_ok (n : ℕ) (mask : List ℕ) (M : ℕ → ℕ → K) (N : Cols K) (hs : ∀ i j, i < n → j < n → M i j = M j i)
    (hin : ∀ i ∈ mask, i < n) (hz : ∀ i ∈ mask, ∀ j, j < n → M i j = 0) :
    Kills n M N ↔ Kills (unmask n mask).length (fun a c => M ((unmask n mask).getD a 0) ((unmask n mask).getD c 0))
      (propagateNullMask (unmask n mask) N) := by
  have hrow : ∀ i, i < n → ∀ c, ∑ j ∈ range n, M i j * N.m j c =
      ∑ b ∈ range (unmask n mask).length, M i ((unmask n mask).getD b 0) * N.m ((unmask n mask).getD b 0) c := by
    intro i hi c
    apply sum_um n mask (fun j => M i j * N.m j c)
    intro j hj
    rw [hs i j hi (hin j hj), hz j hj i hi, zero_mul]
  constructor
  · intro h a ha c hc
    have := h _ (um_mem_lt ha) c hc
    rw [hrow _ (um_mem_lt ha)] at this
    exact this
  · intro h i hi c hc
    by_cases him : i ∈ mask
    · apply Finset.sum_eq_zero
      intro j hj
      rw [hz i him j (Finset.mem_range.1 hj), zero_mul]
    · have hi' : i ∈ unmask n mask := List.mem_filter.2 ⟨List.mem_range.2 hi, by simpa using him⟩
      obtain ⟨a, ha, hai⟩ := List.mem_iff_getElem.1 hi'
      have hg : (unmask n mask).getD a 0 = i := by
        rw [List.getD_eq_getElem?_getD, List.getElem?_eq_getElem ha]; exact hai
      have := h a ha c hc
      simp only [hg] at this
      rw [hrow i hi]
      exact this

/-- `S = y · w wᵀ` with `w = (1, 1, -2)`. -/
def rankOne : Dual ℚ := ⟨1, [⟨3, fun _ => 0, fun k _ => [1, 1, -2, 1, 1, -2, -2, -2, 4].getD k 0⟩]⟩
def onesV : Cols ℚ := ⟨fun _ _ => 1, 1⟩
def diffN : Cols ℚ := ⟨fun i _ => [1, -1, 0].getD i 0, 1⟩

/-- **C26 violated (further null spaces).** After `constrain_nullspace((1,1,1))`, the further constraint
`S (1,-1,0)ᵀ = 0` is passed to the child as `Uᵀ N`.  The parent satisfies both constraints and is feasible at `y = 1`, but
no point of the constrained child maps to it. -/
theorem propagateNull_wrong : ∃ (t : Aff ℚ) (d' : Dual ℚ), constrainNullspace rankOne [onesV] = .ok (some t, d') ∧
    (∀ p ∈ rankOne.blocks, PSD p.n (p.mat rankOne.dof fun _ => 1) ∧ Kills p.n (p.mat rankOne.dof fun _ => 1) onesV ∧
      Kills p.n (p.mat rankOne.dof fun _ => 1) diffN) ∧
    ¬ ∃ z : ℕ → ℚ, t.app z 0 = 1 ∧ ∀ b ∈ d'.blocks,
      Kills b.n (b.mat d'.dof z) (propagateNull 3 (perpCols 3 (regCols 3 onesV)) diffN) := by
  cases hc : constrainNullspace rankOne [onesV] with
  | error e =>
    exfalso
    have : (match constrainNullspace rankOne [onesV] with | .error _ => true | _ => false) = false := by decide +kernel
    rw [hc] at this
    cases this
  | ok r =>
    obtain ⟨o, d'⟩ := r
    have hval : (match constrainNullspace rankOne [onesV] with
        | .ok (some t, d') => decide (t.x0 0 = 0 ∧ t.sp 0 0 = -1 ∧ t.dim = 1 ∧ d'.dof = 1 ∧
            d'.blocks.map (fun b => (b.n, b.x0 0, b.x0 1, b.x0 2, b.x0 3)) = [(2, 0, 0, 0, 0)] ∧
            d'.blocks.map (fun b => (b.sp 0 0, b.sp 1 0, b.sp 2 0, b.sp 3 0)) = [(0, 0, 0, -9)])
        | _ => false) = true := by decide +kernel
    have hN : (propagateNull 3 (perpCols 3 (regCols 3 onesV)) diffN).c = 1 ∧
        (propagateNull 3 (perpCols 3 (regCols 3 onesV)) diffN).m 0 0 = -2 ∧
        (propagateNull 3 (perpCols 3 (regCols 3 onesV)) diffN).m 1 0 = -1 := by decide +kernel
    rw [hc] at hval
    cases o with
    | none => simp at hval
    | some t =>
      simp only [decide_eq_true_eq] at hval
      obtain ⟨ht0, ht1, hdim, hdof, hb1, hb2⟩ := hval
      refine ⟨t, d', rfl, ?_, ?_⟩
      · intro p hp
        have hp : p = ⟨3, fun _ => 0, fun k _ => [1, 1, -2, 1, 1, -2, -2, -2, 4].getD k 0⟩ := by simpa [rankOne] using hp
        subst hp
        have hM : ∀ i < 3, ∀ j < 3, (Block.mat ⟨3, fun _ => (0 : ℚ), fun k _ => [1, 1, -2, 1, 1, -2, -2, -2, 4].getD k 0⟩ rankOne.dof (fun _ => 1)) i j
            = [1, 1, -2].getD i 0 * [1, 1, -2].getD j 0 := by decide +kernel
        refine ⟨⟨fun i j hi hj => ?_, fun x => ?_⟩, ?_, ?_⟩
        · rw [hM i hi j hj, hM j hj i hi]; ring
        · have e : ∑ i ∈ range 3, ∑ j ∈ range 3, x i * (Block.mat ⟨3, fun _ => (0 : ℚ), fun k _ => [1, 1, -2, 1, 1, -2, -2, -2, 4].getD k 0⟩ rankOne.dof (fun _ => 1)) i j * x j
              = (x 0 + x 1 - 2 * x 2) * (x 0 + x 1 - 2 * x 2) := by
            rw [Finset.sum_congr rfl (fun i hi => Finset.sum_congr rfl (fun j hj => by
              rw [hM i (Finset.mem_range.1 hi) j (Finset.mem_range.1 hj)]))]
            simp [Finset.sum_range_succ]
            ring
          rw [e]
          exact mul_self_nonneg _
        · have : ∀ i < 3, ∀ c < 1, ∑ j ∈ range 3, (Block.mat ⟨3, fun _ => (0 : ℚ), fun k _ => [1, 1, -2, 1, 1, -2, -2, -2, 4].getD k 0⟩ rankOne.dof (fun _ => 1)) i j * onesV.m j c = 0 := by
            decide +kernel
          exact this
        · have : ∀ i < 3, ∀ c < 1, ∑ j ∈ range 3, (Block.mat ⟨3, fun _ => (0 : ℚ), fun k _ => [1, 1, -2, 1, 1, -2, -2, -2, 4].getD k 0⟩ rankOne.dof (fun _ => 1)) i j * diffN.m j c = 0 := by
            decide +kernel
          exact this
      · rintro ⟨z, hz, hk⟩
        have hz0 : z 0 = -1 := by
          unfold Aff.app at hz
          rw [hdim, ht0] at hz
          simp [ht1] at hz
          linarith
        rcases hbl : d'.blocks with _ | ⟨b, _ | ⟨b2, l⟩⟩
        · rw [hbl] at hb1; simp at hb1
        · rw [hbl] at hb1 hb2
          simp only [List.map_cons, List.map_nil, List.cons.injEq, Prod.mk.injEq, and_true] at hb1 hb2
          obtain ⟨hbn, x0, x1, x2, x3⟩ := hb1
          obtain ⟨s0, s1, s2, s3⟩ := hb2
          have := hk b (by rw [hbl]; simp) 1 (by omega) 0 (by rw [hN.1]; omega)
          rw [hbn, hdof] at this
          simp only [Finset.sum_range_succ, Finset.sum_range_zero, Block.mat, hbn, hN.2.1, hN.2.2, hz0] at this
          norm_num [x2, x3, s2, s3] at this
        · rw [hbl] at hb1; simp at hb1

/-- `constrain_nullspace` on a concrete problem: the pencil `y w wᵀ` of size three loses one dimension. -/
example : (match constrainNullspace rankOne [onesV] with | .ok (some t, d') => decide (t.dim = 1 ∧ d'.blocks.map (·.n) = [2]) | _ => false) = true := by
  decide +kernel
example : ∀ b ∈ rankOne.blocks, SymPencil rankOne.dof b := by
  intro b hb
  have hb : b = ⟨3, fun _ => 0, fun k _ => [1, 1, -2, 1, 1, -2, -2, -2, 4].getD k 0⟩ := by simpa [rankOne] using hb
  subst hb
  have key : ∀ i < 3, ∀ j < 3, ([1, 1, -2, 1, 1, -2, -2, -2, 4].getD (i * 3 + j) 0 : ℚ) = [1, 1, -2, 1, 1, -2, -2, -2, 4].getD (j * 3 + i) 0 := by
    decide +kernel
  intro i j hi hj
  exact ⟨rfl, fun _ _ => key i hi j hj⟩
/-- a non-zero column space on which `constrain_subspace` succeeds -/
example : (match constrainSubspace rankOne [⟨fun i _ => [1, 1, -2].getD i 0, 1⟩] with | .ok (some t, d') => decide (t.dim = 1 ∧ d'.blocks.map (·.n) = [1]) | _ => false) = true := by
  decide +kernel
/-- an inconsistent null space: `S = I` cannot kill a vector -/
example : (match constrainNullspace (⟨1, [⟨1, fun _ => 1, fun _ _ => 0⟩]⟩ : Dual ℚ) [⟨fun _ _ => 1, 1⟩] with | .error e => decide (e = .valueError) | _ => false) = true := by
  decide +kernel

end Verif.Sdp
