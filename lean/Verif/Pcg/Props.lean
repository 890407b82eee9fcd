import Verif.Pcg.Blocks

/-!
# C142: the iterative solver
-/

namespace Kalibr.Pcg

open Kalibr.Sparse Matrix

/-- The quadratic form of `S` is positive. -/
def PosDef (n : ℕ) (S : ℕ → ℕ → ℝ) : Prop :=
  ∀ u : ℕ → ℝ, (∃ i < n, u i ≠ 0) → 0 < ∑ i ∈ Finset.range n, u i * ∑ j ∈ Finset.range n, S i j * u j

/-! ## Vectors -/

/-- A vector of length `n` continued by zeros. -/
noncomputable def ext {n : ℕ} (u : Fin n → ℝ) : ℕ → ℝ := fun k => if h : k < n then u ⟨k, h⟩ else 0

/-- The first `n` entries. -/
def cut (n : ℕ) (v : ℕ → ℝ) : Fin n → ℝ := fun i => v i

theorem ext_lt {n : ℕ} (u : Fin n → ℝ) {k : ℕ} (h : k < n) : ext u k = u ⟨k, h⟩ := dif_pos h

theorem dot_cut (n : ℕ) (u v : ℕ → ℝ) : dot n u v = cut n u ⬝ᵥ cut n v := by
  unfold dot dotProduct cut
  rw [Finset.sum_range]

/-- Symmetric with positive values, for a matrix. -/
theorem inv_pos {m : ℕ} (B : Matrix (Fin m) (Fin m) ℝ) (hs : Bᵀ = B) (hp : ∀ u, u ≠ 0 → 0 < u ⬝ᵥ (B *ᵥ u)) :
    (B⁻¹)ᵀ = B⁻¹ ∧ (∀ u, u ≠ 0 → 0 < u ⬝ᵥ (B⁻¹ *ᵥ u)) ∧ ∀ u, B *ᵥ (B⁻¹ *ᵥ u) = u := by
  have hu : IsUnit B := by
    rw [← Matrix.mulVec_injective_iff_isUnit]
    intro u v huv
    by_contra hne
    have h1 : u - v ≠ 0 := sub_ne_zero.2 hne
    have h2 := hp _ h1
    have huv' : B *ᵥ u = B *ᵥ v := huv
    rw [mulVec_sub, huv', sub_self, dotProduct_zero] at h2
    exact lt_irrefl _ h2
  have hd : IsUnit B.det := (Matrix.isUnit_iff_isUnit_det B).1 hu
  have hmul : ∀ u, B *ᵥ (B⁻¹ *ᵥ u) = u := by
    intro u
    rw [mulVec_mulVec, Matrix.mul_nonsing_inv B hd, one_mulVec]
  refine ⟨by rw [Matrix.transpose_nonsing_inv, hs], ?_, hmul⟩
  intro u hu0
  have hne : B⁻¹ *ᵥ u ≠ 0 := by
    intro hc
    apply hu0
    rw [← hmul u, hc, mulVec_zero]
  have := hp _ hne
  rw [hmul, dotProduct_comm] at this
  exact this

section
variable {A : SBM ℝ} {S : ℕ → ℕ → ℝ}

/-- The part of a vector that belongs to a block. -/
noncomputable def part (A : SBM ℝ) (r : ℕ) (v : ℕ → ℝ) : Fin (dblk A r).rows → ℝ := fun i => v (base A.cbi r + i)

/-- The diagonal block as a matrix. -/
noncomputable def dmat (A : SBM ℝ) (r : ℕ) : Matrix (Fin (dblk A r).rows) (Fin (dblk A r).rows) ℝ :=
  Matrix.of fun p q => (dblk A r).get p q

theorem dot_blocks (h : Upper A S) (u v : ℕ → ℝ) :
    dot (total A.rbi) u v = ∑ r ∈ Finset.range A.cbi.length, part A r u ⬝ᵥ part A r v := by
  unfold dot
  rw [h.square, sum_blocks h.wf.cols]
  apply Finset.sum_congr rfl
  intro r hr
  rw [← (dblk_fits h (Finset.mem_range.1 hr)).1, Finset.sum_range]
  rfl

theorem dmat_entry (h : Upper A S) {r : ℕ} (hr : r < A.cbi.length) (p q : Fin (dblk A r).rows) :
    dmat A r p q = S (base A.cbi r + p) (base A.cbi r + q) := by
  have f := (dblk_fits h hr).1
  rw [h.entry r r p q le_rfl hr (by rw [← f]; exact p.2) (by rw [← f]; exact q.2)]
  unfold val
  rw [dblk_eq h hr]
  rfl

theorem dmat_pos (h : Upper A S) (hS : PosDef (total A.rbi) S) {r : ℕ} (hr : r < A.cbi.length) :
    (dmat A r)ᵀ = dmat A r ∧ ∀ u, u ≠ 0 → 0 < u ⬝ᵥ (dmat A r *ᵥ u) := by
  have f := (dblk_fits h hr).1
  have lt : ∀ p : Fin (dblk A r).rows, base A.cbi r + (p : ℕ) < total A.rbi := by
    intro p
    rw [h.square]
    exact base_add_lt h.wf.cols hr (by rw [← f]; exact p.2)
  constructor
  · ext p q
    rw [transpose_apply, dmat_entry h hr, dmat_entry h hr, h.symm _ _ (lt _) (lt _)]
  · intro u hu
    obtain ⟨p, hp⟩ := Function.ne_iff.1 hu
    obtain ⟨w, hw⟩ : ∃ w : ℕ → ℝ, w = fun k => if hk : base A.cbi r ≤ k ∧ k - base A.cbi r < (dblk A r).rows then u ⟨k - base A.cbi r, hk.2⟩ else 0 := ⟨_, rfl⟩
    have wp : ∀ q : Fin (dblk A r).rows, w (base A.cbi r + q) = u q := by
      intro q
      rw [hw]
      simp only
      rw [dif_pos ⟨by omega, by rw [Nat.add_sub_cancel_left]; exact q.2⟩]
      congr 1
      exact Fin.ext (Nat.add_sub_cancel_left ..)
    have w0 : ∀ c < A.cbi.length, c ≠ r → ∀ i < size A.cbi c, w (base A.cbi c + i) = 0 := by
      intro c hc hne i hi
      rw [hw]
      refine dif_neg ?_
      rintro ⟨h1, h2⟩
      rw [f] at h2
      exact hne (block_unique h.wf.cols hc hr (n := base A.cbi c + i) (by omega) (by omega) h1 (by omega))
    have hpos := hS w ⟨base A.cbi r + p, lt p, by rw [wp]; exact hp⟩
    have inner : ∀ i, ∑ j ∈ Finset.range (total A.rbi), S i j * w j = ∑ q : Fin (dblk A r).rows, S i (base A.cbi r + q) * u q := by
      intro i
      rw [h.square, sum_blocks h.wf.cols, Finset.sum_eq_single r]
      · rw [← f, Finset.sum_range]
        apply Finset.sum_congr rfl
        intro q _
        rw [wp]
      · intro c hc hne
        apply Finset.sum_eq_zero
        intro j hj
        rw [w0 c (Finset.mem_range.1 hc) hne j (Finset.mem_range.1 hj), mul_zero]
      · intro hnot
        exact absurd (Finset.mem_range.2 hr) hnot
    have outer : ∑ i ∈ Finset.range (total A.rbi), w i * ∑ j ∈ Finset.range (total A.rbi), S i j * w j =
        ∑ p : Fin (dblk A r).rows, u p * ∑ q : Fin (dblk A r).rows, S (base A.cbi r + p) (base A.cbi r + q) * u q := by
      simp only [inner]
      rw [h.square, sum_blocks h.wf.cols, Finset.sum_eq_single r]
      · rw [← f, Finset.sum_range]
        apply Finset.sum_congr rfl
        intro q _
        rw [wp]
      · intro c hc hne
        apply Finset.sum_eq_zero
        intro j hj
        rw [w0 c (Finset.mem_range.1 hc) hne j (Finset.mem_range.1 hj), zero_mul]
      · intro hnot
        exact absurd (Finset.mem_range.2 hr) hnot
    rw [outer] at hpos
    unfold dotProduct mulVec dotProduct
    simp only [dmat_entry h hr]
    exact hpos

/-- What the preconditioner does to a block. -/
theorem pre_part (h : Upper A S) (v dest : ℕ → ℝ) {r : ℕ} (hr : r < A.cbi.length) :
    part A r (multDiag A.cbi ((diagOf A).map inverse) v dest) = (dmat A r)⁻¹ *ᵥ part A r v := by
  funext i
  have f := (dblk_fits h hr).1
  have := multDiag_blocks h inverse (fun _ => rfl) v dest hr (i := i) (by rw [← f]; exact i.2)
  unfold part
  rw [this]
  show ∑ k ∈ Finset.range (dblk A r).rows, _ = _
  rw [Finset.sum_range]
  unfold mulVec dotProduct
  apply Finset.sum_congr rfl
  intro k _
  congr 1
  exact dif_pos ⟨i.2, k.2⟩

theorem part_ext (h : Upper A S) {u v : ℕ → ℝ} (huv : ∀ k < total A.rbi, u k = v k) {r : ℕ} (hr : r < A.cbi.length) :
    part A r u = part A r v := by
  funext i
  apply huv
  rw [h.square]
  exact base_add_lt h.wf.cols hr (by rw [← (dblk_fits h hr).1]; exact i.2)

theorem of_parts (h : Upper A S) {u v : ℕ → ℝ} (huv : ∀ r < A.cbi.length, part A r u = part A r v) (k : ℕ) (hk : k < total A.rbi) :
    u k = v k := by
  rw [h.square] at hk
  obtain ⟨r, i, hr, hi, rfl⟩ := block_exists h.wf.cols hk
  have := congrFun (huv r hr) ⟨i, by rw [(dblk_fits h hr).1]; exact hi⟩
  exact this

/-- The preconditioner as a map. -/
noncomputable def preMap (h : Upper A S) : (Fin (total A.rbi) → ℝ) →ₗ[ℝ] (Fin (total A.rbi) → ℝ) where
  toFun u := cut _ (multDiag A.cbi ((diagOf A).map inverse) (ext u) fun _ => 0)
  map_add' u v := by
    funext p
    refine of_parts h (u := multDiag A.cbi ((diagOf A).map inverse) (ext (u + v)) fun _ => 0)
      (v := fun k => multDiag A.cbi ((diagOf A).map inverse) (ext u) (fun _ => 0) k + multDiag A.cbi ((diagOf A).map inverse) (ext v) (fun _ => 0) k) ?_ p p.2
    intro r hr
    have e : part A r (fun k => multDiag A.cbi ((diagOf A).map inverse) (ext u) (fun _ => 0) k + multDiag A.cbi ((diagOf A).map inverse) (ext v) (fun _ => 0) k)
        = part A r (multDiag A.cbi ((diagOf A).map inverse) (ext u) fun _ => 0) + part A r (multDiag A.cbi ((diagOf A).map inverse) (ext v) fun _ => 0) := rfl
    rw [e, pre_part h _ _ hr, pre_part h _ _ hr, pre_part h _ _ hr, ← mulVec_add]
    congr 1
    refine (part_ext h (v := fun k => ext u k + ext v k) ?_ hr).trans rfl
    intro k hk
    rw [ext_lt _ hk, ext_lt _ hk, ext_lt _ hk]
    rfl
  map_smul' c u := by
    funext p
    refine of_parts h (u := multDiag A.cbi ((diagOf A).map inverse) (ext (c • u)) fun _ => 0)
      (v := fun k => c * multDiag A.cbi ((diagOf A).map inverse) (ext u) (fun _ => 0) k) ?_ p p.2
    intro r hr
    have e : part A r (fun k => c * multDiag A.cbi ((diagOf A).map inverse) (ext u) (fun _ => 0) k)
        = c • part A r (multDiag A.cbi ((diagOf A).map inverse) (ext u) fun _ => 0) := rfl
    rw [e, pre_part h _ _ hr, pre_part h _ _ hr, ← mulVec_smul]
    congr 1
    refine (part_ext h (v := fun k => c * ext u k) ?_ hr).trans rfl
    intro k hk
    rw [ext_lt _ hk, ext_lt _ hk]
    rfl

theorem cut_pre (h : Upper A S) (v dest : ℕ → ℝ) :
    cut (total A.rbi) (multDiag A.cbi ((diagOf A).map inverse) v dest) = preMap h (cut _ v) := by
  funext p
  refine of_parts h (u := multDiag A.cbi ((diagOf A).map inverse) v dest)
    (v := multDiag A.cbi ((diagOf A).map inverse) (ext (cut (total A.rbi) v)) fun _ => 0) ?_ p p.2
  intro r hr
  rw [pre_part h _ _ hr, pre_part h _ _ hr]
  congr 1
  apply part_ext h _ hr
  intro k hk
  rw [ext_lt _ hk]
  rfl

/-- The matrix as a map. -/
noncomputable def mulMap (n : ℕ) (S : ℕ → ℕ → ℝ) : (Fin n → ℝ) →ₗ[ℝ] (Fin n → ℝ) :=
  Matrix.mulVecLin (Matrix.of fun p q : Fin n => S p q)

theorem mulMap_apply (n : ℕ) (S : ℕ → ℕ → ℝ) (v : ℕ → ℝ) (p : Fin n) :
    mulMap n S (cut n v) p = ∑ k ∈ Finset.range n, S p k * v k := by
  rw [Finset.sum_range]
  rfl

theorem cut_ext {n : ℕ} (u : Fin n → ℝ) : cut n (ext u) = u := by
  funext p
  exact ext_lt u p.2

theorem mulMap_pos (h : Upper A S) (hS : PosDef (total A.rbi) S) : Pos (mulMap (total A.rbi) S) := by
  constructor
  · intro u v
    unfold mulMap
    have hs : (Matrix.of fun p q : Fin (total A.rbi) => S p q)ᵀ = Matrix.of fun p q : Fin (total A.rbi) => S p q := by
      funext p q
      show S q p = S p q
      exact h.symm _ _ q.2 p.2
    rw [mulVecLin_apply, mulVecLin_apply, dotProduct_mulVec, ← mulVec_transpose, hs, dotProduct_comm]
  · intro u hu
    obtain ⟨p, hp⟩ := Function.ne_iff.1 hu
    have := hS (ext u) ⟨p, p.2, by rw [ext_lt u p.2]; exact hp⟩
    rw [Finset.sum_range] at this
    unfold dotProduct
    refine lt_of_lt_of_eq this (Finset.sum_congr rfl fun q _ => ?_)
    rw [← mulMap_apply, cut_ext, ext_lt u q.2]

theorem preMap_dot (h : Upper A S) (u v : Fin (total A.rbi) → ℝ) :
    u ⬝ᵥ preMap h v = ∑ r ∈ Finset.range A.cbi.length, part A r (ext u) ⬝ᵥ ((dmat A r)⁻¹ *ᵥ part A r (ext v)) := by
  have e : u ⬝ᵥ preMap h v = dot (total A.rbi) (ext u) (multDiag A.cbi ((diagOf A).map inverse) (ext v) fun _ => 0) := by
    rw [dot_cut, cut_ext]
    rfl
  rw [e, dot_blocks h]
  apply Finset.sum_congr rfl
  intro r hr
  rw [pre_part h _ _ (Finset.mem_range.1 hr)]

theorem preMap_pos (h : Upper A S) (hS : PosDef (total A.rbi) S) : Pos (preMap h) := by
  constructor
  · intro u v
    rw [preMap_dot, preMap_dot]
    apply Finset.sum_congr rfl
    intro r hr
    obtain ⟨h1, h2⟩ := dmat_pos h hS (Finset.mem_range.1 hr)
    obtain ⟨i1, i2, i3⟩ := inv_pos _ h1 h2
    rw [dotProduct_mulVec, ← mulVec_transpose, i1, dotProduct_comm]
  · intro u hu
    rw [preMap_dot]
    have nn : ∀ r ∈ Finset.range A.cbi.length, 0 ≤ part A r (ext u) ⬝ᵥ ((dmat A r)⁻¹ *ᵥ part A r (ext u)) := by
      intro r hr
      obtain ⟨h1, h2⟩ := dmat_pos h hS (Finset.mem_range.1 hr)
      obtain ⟨i1, i2, i3⟩ := inv_pos _ h1 h2
      by_cases hz : part A r (ext u) = 0
      · rw [hz]; simp
      · exact (i2 _ hz).le
    apply Finset.sum_pos' nn
    by_contra hc
    push Not at hc
    apply hu
    have z : ∀ k < total A.rbi, ext u k = (fun _ => (0 : ℝ)) k := by
      apply of_parts h
      intro r hr
      by_contra hz
      obtain ⟨h1, h2⟩ := dmat_pos h hS hr
      obtain ⟨i1, i2, i3⟩ := inv_pos _ h1 h2
      exact absurd (i2 _ hz) (not_lt.2 (hc r (Finset.mem_range.2 hr)))
    funext p
    have := z p p.2
    rw [ext_lt u p.2] at this
    exact this

/-! ## The loop -/

/-- The variables as vectors of length `n`. -/
def Vars.it (n : ℕ) (v : Vars) : It n := ⟨cut n v.x, cut n v.r, cut n v.d, v.dn⟩

theorem iterate_it {n : ℕ} {mul pre : (ℕ → ℝ) → (ℕ → ℝ) → ℕ → ℝ} {Am Pm : (Fin n → ℝ) →ₗ[ℝ] (Fin n → ℝ)}
    (hm : ∀ v d, cut n (mul v d) = Am (cut n v)) (hp : ∀ v d, cut n (pre v d) = Pm (cut n v)) (v : Vars) :
    (iterate n mul pre v).it n = (v.it n).step Am Pm := by
  obtain ⟨a, ha⟩ : ∃ a, a = v.dn / dot n v.d (mul v.d v.q) := ⟨_, rfl⟩
  have ha' : a = v.dn / (cut n v.d ⬝ᵥ Am (cut n v.d)) := by rw [ha, dot_cut, hm]
  obtain ⟨r, hr⟩ : ∃ r : ℕ → ℝ, r = fun i => v.r i - a * mul v.d v.q i := ⟨_, rfl⟩
  have hr' : cut n r = cut n v.r - a • Am (cut n v.d) := by
    rw [← hm v.d v.q, hr]
    rfl
  have e : iterate n mul pre v = ⟨fun i => v.x i + a * v.d i, r,
      fun i => pre r v.s i + dot n r (pre r v.s) / v.dn * v.d i, mul v.d v.q, pre r v.s, dot n r (pre r v.s)⟩ := by
    rw [hr, ha]; rfl
  have hdn : dot n r (pre r v.s) = cut n r ⬝ᵥ Pm (cut n r) := by rw [dot_cut, hp]
  rw [e]
  have e2 : (v.it n).step Am Pm = ⟨cut n v.x + a • cut n v.d, cut n r,
      Pm (cut n r) + ((cut n r ⬝ᵥ Pm (cut n r)) / v.dn) • cut n v.d, cut n r ⬝ᵥ Pm (cut n r)⟩ := by
    rw [hr', ha']; rfl
  rw [e2]
  unfold Vars.it
  simp only
  rw [hdn, ← hp r v.s]
  rfl

theorem run_it {n : ℕ} {mul pre : (ℕ → ℝ) → (ℕ → ℝ) → ℕ → ℝ} {Am Pm : (Fin n → ℝ) →ₗ[ℝ] (Fin n → ℝ)}
    (hm : ∀ v d, cut n (mul v d) = Am (cut n v)) (hp : ∀ v d, cut n (pre v d) = Pm (cut n v)) (d0 : ℝ) (k : ℕ) : ∀ v : Vars,
    (run n mul pre d0 k v).it n = cg Am Pm d0 k (v.it n) := by
  induction k with
  | zero => intro v; rfl
  | succ k ih =>
    intro v
    by_cases hc : v.dn ≤ d0
    · have e1 : run n mul pre d0 (k + 1) v = v := if_pos hc
      have e2 : cg Am Pm d0 (k + 1) (v.it n) = v.it n := if_pos hc
      rw [e1, e2]
    · have e1 : run n mul pre d0 (k + 1) v = run n mul pre d0 k (iterate n mul pre v) := if_neg hc
      have e2 : cg Am Pm d0 (k + 1) (v.it n) = cg Am Pm d0 k ((v.it n).step Am Pm) := if_neg hc
      rw [e1, e2, ih, iterate_it hm hp]

end

/-! ## The solver -/

/-- The pointers that the solver has kept are those of the matrix `a`, or there are none. -/
def Ready (s : Solver) (a : ℕ) (A : SBM ℝ) : Prop :=
  (s.indices = [] ∧ s.sparseMat = []) ∨ (s.indices = (offOf a A).map (·.1) ∧ s.sparseMat = (offOf a A).map (·.2))

/-- The size of a remainder `r` as the solver measures it: its product with the solution `y` of the systems of the
diagonal blocks. -/
def Size (A : SBM ℝ) (S : ℕ → ℕ → ℝ) (r : ℕ → ℝ) (e : ℝ) : Prop :=
  ∃ y : ℕ → ℝ, (∀ c < A.cbi.length, ∀ i < size A.cbi c,
      ∑ j ∈ Finset.range (size A.cbi c), S (base A.cbi c + i) (base A.cbi c + j) * y (base A.cbi c + j) = r (base A.cbi c + i)) ∧
    e = ∑ k ∈ Finset.range (total A.rbi), r k * y k

theorem size_pre {A : SBM ℝ} {S : ℕ → ℕ → ℝ} (h : Upper A S) (hS : PosDef (total A.rbi) S) (r dest : ℕ → ℝ) :
    Size A S r (dot (total A.rbi) r (multDiag A.cbi ((diagOf A).map inverse) r dest)) := by
  refine ⟨_, ?_, rfl⟩
  intro c hc i hi
  obtain ⟨h1, h2⟩ := dmat_pos h hS hc
  obtain ⟨i1, i2, i3⟩ := inv_pos _ h1 h2
  have f := (dblk_fits h hc).1
  have := congrFun (i3 (part A c r)) ⟨i, by rw [f]; exact hi⟩
  rw [← pre_part h r dest hc] at this
  rw [← f, Finset.sum_range]
  refine Eq.trans ?_ this
  unfold mulVec dotProduct
  apply Finset.sum_congr rfl
  intro q _
  show _ = dmat A c ⟨i, by rw [f]; exact hi⟩ q * _
  rw [dmat_entry h hc]
  rfl

theorem size_zero {A : SBM ℝ} {S : ℕ → ℕ → ℝ} (h : Upper A S) (hS : PosDef (total A.rbi) S) (r dest : ℕ → ℝ)
    (h0 : dot (total A.rbi) r (multDiag A.cbi ((diagOf A).map inverse) r dest) = 0) : ∀ k < total A.rbi, r k = 0 := by
  rw [dot_cut, cut_pre h] at h0
  have := ((preMap_pos h hS).zero_iff _).1 h0
  intro k hk
  exact congrFun this ⟨k, hk⟩

/-- Everything about one call. -/
theorem solve_spec {A : SBM ℝ} {S : ℕ → ℕ → ℝ} (h : Upper A S) (hS : PosDef (total A.rbi) S) {H : Heap} {a : ℕ} (hH : H a = some A)
    {s : Solver} (hs : Ready s a A) (ht : 0 ≤ s.tolerance) (b : ℕ → ℝ) :
    ∃ x s' e0, solve H s a b = .ok (x, s') ∧ Size A S b e0 ∧
      Size A S (fun i => b i - ∑ k ∈ Finset.range (total A.rbi), S i k * x k) (2 * s'.residual) ∧
      ((∑ i ∈ Finset.range (total A.rbi), x i * ∑ k ∈ Finset.range (total A.rbi), S i k * x k) / 2
        - ∑ i ∈ Finset.range (total A.rbi), b i * x i ≤ 0) ∧
      (s.maxIter < 0 ∨ (total A.rbi : ℤ) ≤ s.maxIter → 2 * s'.residual ≤ max (s.tolerance * e0) (if s.absoluteTolerance then s.residual else 0)) ∧
      (s'.residual = 0 → ∀ i < total A.rbi, ∑ k ∈ Finset.range (total A.rbi), S i k * x k = b i) ∧
      s'.tolerance = s.tolerance ∧ s'.maxIter = s.maxIter ∧ s'.absoluteTolerance = s.absoluteTolerance ∧ Ready s' a A ∧
      0 ≤ e0 ∧ 0 ≤ s'.residual := by
  obtain ⟨n, hn⟩ : ∃ n, n = total A.rbi := ⟨_, rfl⟩
  obtain ⟨s1, hs1⟩ : ∃ s1 : Solver, s1 = if s.indices.length = 0 then
      { s with indices := s.indices ++ (offOf a A).map (·.1), sparseMat := s.sparseMat ++ (offOf a A).map (·.2) } else s := ⟨_, rfl⟩
  have q1 : s1.indices = (offOf a A).map (·.1) ∧ s1.sparseMat = (offOf a A).map (·.2) ∧ s1.tolerance = s.tolerance ∧
      s1.residual = s.residual ∧ s1.maxIter = s.maxIter ∧ s1.absoluteTolerance = s.absoluteTolerance := by
    rcases hs with ⟨e1, e2⟩ | ⟨e1, e2⟩
    · rw [if_pos (by rw [e1]; rfl)] at hs1
      rw [hs1]
      simp only [e1, e2, List.nil_append, and_self]
    · by_cases hz : s.indices.length = 0
      · have hi0 : s.indices = [] := List.eq_nil_of_length_eq_zero hz
        have hl : (offOf a A) = [] := by
          rw [hi0] at e1
          exact List.map_eq_nil_iff.1 e1.symm
        rw [if_pos hz] at hs1
        rw [hs1]
        simp [e1, e2, hl]
      · rw [if_neg hz] at hs1
        rw [hs1]
        exact ⟨e1, e2, rfl, rfl, rfl, rfl⟩
  obtain ⟨hi1, hp1, ht1, hr1, hm1, hb1⟩ := q1
  have hoff := offOf_eq h a
  have hd : derefAll H s1.sparseMat = .ok ((above A).map fun b => b.2.2) := by
    rw [hp1, hoff, List.map_map]
    exact derefAll_eq h.wf hH (above A) fun b hb => List.mem_of_mem_filter hb
  have hi2 : s1.indices = (above A).map fun b => (base A.rbi b.1, base A.cbi b.2.1) := by
    rw [hi1, hoff, List.map_map]; rfl
  obtain ⟨mul, hmul⟩ : ∃ mul, mul = mult A.cbi (diagOf A) s1.indices ((above A).map fun b => b.2.2) := ⟨_, rfl⟩
  obtain ⟨pre, hpre⟩ : ∃ pre, pre = multDiag A.cbi ((diagOf A).map inverse) := ⟨_, rfl⟩
  obtain ⟨dn, hdn⟩ : ∃ dn, dn = dot n b (pre b fun _ => 0) := ⟨_, rfl⟩
  obtain ⟨d0, hd0⟩ : ∃ d0, d0 = if s1.absoluteTolerance = true ∧ s1.residual > 0 ∧ s1.residual > s1.tolerance * dn then s1.residual
      else s1.tolerance * dn := ⟨_, rfl⟩
  obtain ⟨mi, hmi⟩ : ∃ mi : ℕ, mi = if s1.maxIter < 0 then n else s1.maxIter.toNat := ⟨_, rfl⟩
  obtain ⟨v, hv⟩ : ∃ v, v = run n mul pre d0 mi ⟨fun _ => 0, b, pre b fun _ => 0, fun _ => 0, fun _ => 0, dn⟩ := ⟨_, rfl⟩
  have esolve : solve H s a b = .ok (v.x, { s1 with residual := 1 / 2 * v.dn }) := by
    unfold solve
    simp only [hH]
    rw [← hs1, hd]
    simp only [Out.ok_bind]
    rw [hv, hd0, hmi, hdn, hmul, hpre, hn]
    rfl
  have hm : ∀ w d, cut n (mul w d) = mulMap n S (cut n w) := by
    intro w d
    funext p
    rw [mulMap_apply, hmul, hi2]
    have := mult_spec h w d (n := p) (by rw [← hn]; exact p.2)
    rw [← hn] at this
    exact this
  subst hn
  have hp : ∀ w d, cut (total A.rbi) (pre w d) = preMap h (cut _ w) := by
    intro w d
    rw [hpre]
    exact cut_pre h w d
  have hA := mulMap_pos h hS
  have hP := preMap_pos h hS
  have hdn' : dn = cut (total A.rbi) b ⬝ᵥ preMap h (cut _ b) := by rw [hdn, dot_cut, hp]
  have hdn0 : 0 ≤ dn := by rw [hdn']; exact hP.nonneg _
  have hd00 : 0 ≤ d0 := by
    rw [hd0]
    by_cases hc : s1.absoluteTolerance = true ∧ s1.residual > 0 ∧ s1.residual > s1.tolerance * dn
    · rw [if_pos hc]; exact hc.2.1.le
    · rw [if_neg hc, ht1]; exact mul_nonneg ht hdn0
  have start : (Vars.it (total A.rbi) ⟨fun _ => 0, b, pre b fun _ => 0, fun _ => 0, fun _ => 0, dn⟩) =
      ⟨0, cut _ b, preMap h (cut _ b), cut _ b ⬝ᵥ preMap h (cut _ b)⟩ := by
    unfold Vars.it
    simp only
    rw [hp, ← hdn']
    rfl
  have spec := cg_spec hA hP hd00 mi (conj_start (mulMap (total A.rbi) S) (preMap h) hP (cut _ b))
  rw [← start, ← run_it hm hp, ← hv] at spec
  obtain ⟨c1, c2, c3, c4⟩ := spec
  have c1' : ∀ i < total A.rbi, v.r i = b i - ∑ k ∈ Finset.range (total A.rbi), S i k * v.x k := by
    intro i hi
    have := congrFun c1 ⟨i, hi⟩
    rw [← mulMap_apply (total A.rbi) S v.x ⟨i, hi⟩]
    exact this
  have cutr : cut (total A.rbi) v.r = cut (total A.rbi) (fun i => b i - ∑ k ∈ Finset.range (total A.rbi), S i k * v.x k) := by
    funext i
    exact c1' i i.2
  have hres : v.dn = dot (total A.rbi) (fun i => b i - ∑ k ∈ Finset.range (total A.rbi), S i k * v.x k)
      (multDiag A.cbi ((diagOf A).map inverse) (fun i => b i - ∑ k ∈ Finset.range (total A.rbi), S i k * v.x k) fun _ => 0) := by
    have c2' : v.dn = cut _ v.r ⬝ᵥ preMap h (cut _ v.r) := c2
    rw [dot_cut, cut_pre h, ← cutr]
    exact c2'
  have hvdn : 0 ≤ v.dn := by
    have c2' : v.dn = cut _ v.r ⬝ᵥ preMap h (cut _ v.r) := c2
    rw [c2']
    exact hP.nonneg _
  refine ⟨v.x, { s1 with residual := 1 / 2 * v.dn }, dn, esolve, ?_, ?_, ?_, ?_, ?_, ht1, hm1, hb1, Or.inr ⟨hi1, hp1⟩, hdn0, ?_⟩
  · rw [hdn, hpre]
    exact size_pre h hS b _
  · have := size_pre h hS (fun i => b i - ∑ k ∈ Finset.range (total A.rbi), S i k * v.x k) (fun _ => 0)
    rw [← hres] at this
    have e : 2 * (1 / 2 * v.dn) = v.dn := by ring
    simp only [e]
    exact this
  · have e0 : energy (mulMap (total A.rbi) S) (cut _ b) (Vars.it (total A.rbi) ⟨fun _ => 0, b, pre b fun _ => 0, fun _ => 0, fun _ => 0, dn⟩).x = 0 := by
      rw [start]
      unfold energy
      simp
    rw [e0] at c3
    refine le_trans (le_of_eq ?_) c3
    unfold energy
    have a1 : ∑ i ∈ Finset.range (total A.rbi), v.x i * ∑ k ∈ Finset.range (total A.rbi), S i k * v.x k =
        cut _ v.x ⬝ᵥ mulMap (total A.rbi) S (cut _ v.x) := by
      rw [Finset.sum_range]
      unfold dotProduct
      apply Finset.sum_congr rfl
      intro i _
      rw [mulMap_apply]
      rfl
    have a2 : ∑ i ∈ Finset.range (total A.rbi), b i * v.x i = cut (total A.rbi) b ⬝ᵥ cut (total A.rbi) v.x := by
      rw [← dot_cut]; rfl
    rw [a1, a2]
    rfl
  · intro hmax
    have hle := c4 (by
      rw [hmi, hm1]
      by_cases hneg : s.maxIter < 0
      · rw [if_pos hneg]; omega
      · rw [if_neg hneg]
        rcases hmax with h1 | h1
        · exact absurd h1 hneg
        · omega)
    have hle' : v.dn ≤ d0 := hle
    have e : 2 * (1 / 2 * v.dn) = v.dn := by ring
    show 2 * (1 / 2 * v.dn) ≤ _
    rw [e]
    refine hle'.trans ?_
    rw [hd0]
    by_cases hc : s1.absoluteTolerance = true ∧ s1.residual > 0 ∧ s1.residual > s1.tolerance * dn
    · rw [if_pos hc, hr1]
      rw [hb1] at hc
      rw [if_pos hc.1]
      exact le_max_right _ _
    · rw [if_neg hc, ht1]
      exact le_max_left _ _
  · intro hz i hi
    have hz' : v.dn = 0 := by
      have : 1 / 2 * v.dn = 0 := hz
      linarith
    rw [hres] at hz'
    have := size_zero h hS _ _ hz' i hi
    linarith
  · show 0 ≤ 1 / 2 * v.dn
    linarith

/-- **C142.** For a symmetric positive definite matrix of which the blocks on and above the diagonal are stored, and
with the number of iterations not limited below the number of unknowns, the solver ends with a remainder
of at most the tolerance times that of the right hand side, or at most the absolute bound left by the last call.
The reported residual is half the size of the remainder of the returned solution. -/
theorem C142_accuracy_partial (A : SBM ℝ) (S : ℕ → ℕ → ℝ) (h : Upper A S) (hS : PosDef (total A.rbi) S) (H : Heap) (a : ℕ) (hH : H a = some A)
    (s : Solver) (hs : Ready s a A) (ht : 0 ≤ s.tolerance) (hm : s.maxIter < 0 ∨ (total A.rbi : ℤ) ≤ s.maxIter) (b : ℕ → ℝ) :
    ∃ x s' e0 e, solve H s a b = .ok (x, s') ∧ Size A S b e0 ∧
      Size A S (fun i => b i - ∑ k ∈ Finset.range (total A.rbi), S i k * x k) e ∧ s'.residual = e / 2 ∧
      e ≤ max (s.tolerance * e0) (if s.absoluteTolerance then s.residual else 0) := by
  obtain ⟨x, s', e0, q1, q2, q3, -, q5, -⟩ := solve_spec h hS hH hs ht b
  exact ⟨x, s', e0, 2 * s'.residual, q1, q2, q3, by ring, q5 hm⟩

/-- **C142, exact solution.** With tolerance zero and a fresh solver, the system is solved exactly within as many iterations
as there are unknowns. -/
theorem C142_exact (A : SBM ℝ) (S : ℕ → ℕ → ℝ) (h : Upper A S) (hS : PosDef (total A.rbi) S) (H : Heap) (a : ℕ) (hH : H a = some A)
    (s : Solver) (ht : s.tolerance = 0) (hm : s.maxIter < 0 ∨ (total A.rbi : ℤ) ≤ s.maxIter) (b : ℕ → ℝ) :
    ∃ x s', solve H s.init a b = .ok (x, s') ∧ ∀ i < total A.rbi, ∑ k ∈ Finset.range (total A.rbi), S i k * x k = b i := by
  obtain ⟨x, s', e0, q1, -, -, -, q5, q6, -, -, -, -, -, q7⟩ := solve_spec h hS hH (s := s.init) (Or.inl ⟨rfl, rfl⟩) (le_of_eq ht.symm) b
  refine ⟨x, s', q1, q6 ?_⟩
  have := q5 hm
  have e1 : s.init.tolerance = 0 := ht
  have e2 : (if s.init.absoluteTolerance then s.init.residual else 0) ≤ 0 := by
    by_cases hc : s.init.absoluteTolerance = true
    · rw [if_pos hc]
      show (-1 : ℝ) ≤ 0
      norm_num
    · rw [if_neg hc]
  rw [e1, zero_mul, max_eq_left e2] at this
  linarith

/-- **C142, never worse.** Whatever the limit of iterations and the tolerances, the returned point has a value of the quadratic function of the
system that is not above that of the point zero. -/
theorem C142_descent (A : SBM ℝ) (S : ℕ → ℕ → ℝ) (h : Upper A S) (hS : PosDef (total A.rbi) S) (H : Heap) (a : ℕ) (hH : H a = some A)
    (s : Solver) (hs : Ready s a A) (ht : 0 ≤ s.tolerance) (b : ℕ → ℝ) :
    ∃ x s', solve H s a b = .ok (x, s') ∧
      (∑ i ∈ Finset.range (total A.rbi), x i * ∑ k ∈ Finset.range (total A.rbi), S i k * x k) / 2
        - ∑ i ∈ Finset.range (total A.rbi), b i * x i ≤ 0 := by
  obtain ⟨x, s', e0, q1, -, -, q4, -⟩ := solve_spec h hS hH hs ht b
  exact ⟨x, s', q1, q4⟩

/-! ## Several calls -/

/-- Same layout, same places of stored blocks. -/
structure SamePattern (A A' : SBM ℝ) : Prop where
  rbi : A.rbi = A'.rbi
  cbi : A.cbi = A'.cbi
  keys : A.bcols.map (fun m => m.map Prod.fst) = A'.bcols.map fun m => m.map Prod.fst

theorem scan_keys (i : ℕ) : ∀ m m' : List (ℕ × Mat ℝ), m.map Prod.fst = m'.map Prod.fst →
    (scan i m).1.map Prod.fst = (scan i m').1.map Prod.fst := by
  intro m
  induction m with
  | nil =>
    intro m' h
    have : m' = [] := by simpa using h.symm
    rw [this]
  | cons p m ih =>
    intro m' h
    cases m' with
    | nil => simp at h
    | cons p' m' =>
      rw [List.map_cons, List.map_cons] at h
      obtain ⟨h1, h2⟩ := List.cons.inj h
      by_cases hp : p.1 = i
      · have e1 : scan i (p :: m) = ([], some p.2) := if_pos hp
        have e2 : scan i (p' :: m') = ([], some p'.2) := if_pos (h1 ▸ hp)
        rw [e1, e2]
      · have e1 : scan i (p :: m) = (p :: (scan i m).1, (scan i m).2) := if_neg hp
        have e2 : scan i (p' :: m') = (p' :: (scan i m').1, (scan i m').2) := if_neg (h1 ▸ hp)
        rw [e1, e2]
        simp only [List.map_cons]
        rw [ih m' h2, h1]

theorem offOf_pattern {A A' : SBM ℝ} (h : SamePattern A A') (a : ℕ) : offOf a A = offOf a A' := by
  unfold offOf
  rw [h.rbi, h.cbi]
  have key : ∀ (l l' : List (List (ℕ × Mat ℝ))) (n : ℕ), l.map (fun m => m.map Prod.fst) = l'.map (fun m => m.map Prod.fst) →
      (l.zipIdx n).flatMap (fun x => (scan x.2 x.1).1.map fun p => ((base A'.rbi p.1, base A'.cbi x.2), (⟨a, p.1, x.2⟩ : Ptr))) =
      (l'.zipIdx n).flatMap (fun x => (scan x.2 x.1).1.map fun p => ((base A'.rbi p.1, base A'.cbi x.2), (⟨a, p.1, x.2⟩ : Ptr))) := by
    intro l
    induction l with
    | nil =>
      intro l' n hl
      have : l' = [] := by simpa using hl.symm
      rw [this]
    | cons m l ih =>
      intro l' n hl
      cases l' with
      | nil => simp at hl
      | cons m' l' =>
        rw [List.map_cons, List.map_cons] at hl
        obtain ⟨h1, h2⟩ := List.cons.inj hl
        rw [List.zipIdx_cons, List.zipIdx_cons, List.flatMap_cons, List.flatMap_cons, ih l' (n + 1) h2]
        congr 1
        have e : ∀ m : List (ℕ × Mat ℝ), (scan n m).1.map (fun p => ((base A'.rbi p.1, base A'.cbi n), (⟨a, p.1, n⟩ : Ptr))) =
            ((scan n m).1.map Prod.fst).map fun k => ((base A'.rbi k, base A'.cbi n), (⟨a, k, n⟩ : Ptr)) := by
          intro m
          rw [List.map_map]
          rfl
        rw [e, e, scan_keys n m m' h1]
  exact key A.bcols A'.bcols 0 h.keys

/-- **C142, repeated use.** After a call the solver can be used again for the same matrix object, also when the numbers in its
blocks have changed since, as long as the places of the stored blocks have not. -/
theorem C142_reuse (A A' : SBM ℝ) (S : ℕ → ℕ → ℝ) (h : Upper A S) (hS : PosDef (total A.rbi) S) (H : Heap) (a : ℕ) (hH : H a = some A)
    (s : Solver) (hs : Ready s a A) (ht : 0 ≤ s.tolerance) (b : ℕ → ℝ) (hA' : SamePattern A A') :
    ∃ x s', solve H s a b = .ok (x, s') ∧ Ready s' a A' ∧ s'.tolerance = s.tolerance ∧ s'.maxIter = s.maxIter ∧
      s'.absoluteTolerance = s.absoluteTolerance := by
  obtain ⟨x, s', e0, q1, -, -, -, -, -, q5, q6, q7, q8, -⟩ := solve_spec h hS hH hs ht b
  refine ⟨x, s', q1, ?_, q5, q6, q7⟩
  unfold Ready
  rw [← offOf_pattern hA' a]
  exact q8

end Kalibr.Pcg
