import Verif.Solvers.Qr
import Mathlib.LinearAlgebra.FiniteDimensional.Basic
import Mathlib.LinearAlgebra.FiniteDimensional.Lemmas

/-!
# C144: the demands on the libraries can be met; counterexamples
-/

namespace Kalibr.Solvers

open Jacobian CCM CCS

/-! ## The demands can be met -/

/-- The normal equations have a solution if the columns are independent. -/
theorem normal_solvable (A : Mat ℝ) (h : ∀ x : ℕ → ℝ, (∀ k < A.rows, ∑ j ∈ Finset.range A.cols, A.get k j * x j = 0) → ∀ i < A.cols, x i = 0) (b : ℕ → ℝ) :
    ∃ x : ℕ → ℝ, ∀ i < A.cols, ∑ k ∈ Finset.range A.rows, A.get k i * ∑ j ∈ Finset.range A.cols, A.get k j * x j = b i := by
  let ext : (Fin A.cols → ℝ) → ℕ → ℝ := fun x j => if hj : j < A.cols then x ⟨j, hj⟩ else 0
  let f : (Fin A.cols → ℝ) →ₗ[ℝ] (Fin A.cols → ℝ) :=
    { toFun := fun x i => ∑ k ∈ Finset.range A.rows, A.get k i * ∑ j ∈ Finset.range A.cols, A.get k j * ext x j
      map_add' := by
        intro x y
        funext i
        simp only [Pi.add_apply]
        rw [← Finset.sum_add_distrib]
        apply Finset.sum_congr rfl
        intro k _
        rw [← mul_add, ← Finset.sum_add_distrib]
        congr 1
        apply Finset.sum_congr rfl
        intro j hj
        simp only [ext, dif_pos (Finset.mem_range.1 hj), Pi.add_apply]
        ring
      map_smul' := by
        intro c x
        funext i
        simp only [Pi.smul_apply, smul_eq_mul, RingHom.id_apply]
        rw [Finset.mul_sum]
        apply Finset.sum_congr rfl
        intro k _
        rw [mul_left_comm, Finset.mul_sum (a := c)]
        congr 1
        apply Finset.sum_congr rfl
        intro j hj
        simp only [ext, dif_pos (Finset.mem_range.1 hj), Pi.smul_apply, smul_eq_mul]
        ring }
  have hinj : Function.Injective f := by
    rw [injective_iff_map_eq_zero]
    intro x hx
    have h1 : ∀ i : Fin A.cols, ∑ k ∈ Finset.range A.rows, A.get k i * ∑ j ∈ Finset.range A.cols, A.get k j * ext x j = 0 := fun i => congrFun hx i
    have h2 : ∑ k ∈ Finset.range A.rows, (∑ j ∈ Finset.range A.cols, A.get k j * ext x j) ^ 2 = 0 := by
      have : ∀ k ∈ Finset.range A.rows, (∑ j ∈ Finset.range A.cols, A.get k j * ext x j) ^ 2 =
          ∑ i ∈ Finset.range A.cols, ext x i * (A.get k i * ∑ j ∈ Finset.range A.cols, A.get k j * ext x j) := by
        intro k _
        rw [pow_two, Finset.sum_mul]
        exact Finset.sum_congr rfl fun i _ => by ring
      rw [Finset.sum_congr rfl this, Finset.sum_comm]
      apply Finset.sum_eq_zero
      intro i hi
      rw [← Finset.mul_sum, h1 ⟨i, Finset.mem_range.1 hi⟩, mul_zero]
    have h3 := (Finset.sum_eq_zero_iff_of_nonneg fun k _ => sq_nonneg _).1 h2
    have h4 := h (ext x) fun k hk => by
      have := h3 k (Finset.mem_range.2 hk)
      exact pow_eq_zero_iff (two_ne_zero) |>.1 this
    funext i
    have := h4 i i.2
    simpa [ext] using this
  obtain ⟨x, hx⟩ := (LinearMap.injective_iff_surjective.1 hinj) fun i => b i
  exact ⟨ext x, fun i hi => congrFun hx ⟨i, hi⟩⟩

open Classical in
/-- A library as expected of CHOLMOD. -/
noncomputable def exactCholmod : Cholmod :=
  ⟨fun _ => true, fun m b =>
    if h : ∃ x : ℕ → ℝ, ∀ M, Is m M → ∀ i < M.rows, ∑ k ∈ Finset.range M.cols, M.get i k * ∑ j ∈ Finset.range M.rows, M.get j k * x j = b i then some h.choose
    else none⟩

theorem is_same {m : CCM ℝ} {M N : Mat ℝ} (h : Is m M) (h' : Is m N) : M.Same N := by
  obtain ⟨T, h1, h2⟩ := C27_toDense m M h
  obtain ⟨T', h3, h4⟩ := C27_toDense m N h'
  rw [h1] at h3
  injection h3 with h3
  subst h3
  exact ⟨h2.1.symm.trans h4.1, h2.2.1.symm.trans h4.2.1, fun i j hi hj => by
    rw [← h2.2.2 i j (by rw [h2.1]; exact hi) (by rw [h2.2.1]; exact hj)]
    exact h4.2.2 i j (by rw [h2.1]; exact hi) (by rw [h2.2.1]; exact hj)⟩

theorem exactCholmod_right : exactCholmod.Right := by
  refine ⟨fun _ => rfl, ?_, ?_⟩
  · intro m M b x hM hx
    unfold exactCholmod at hx
    simp only at hx
    by_cases h : ∃ x : ℕ → ℝ, ∀ M, Is m M → ∀ i < M.rows, ∑ k ∈ Finset.range M.cols, M.get i k * ∑ j ∈ Finset.range M.rows, M.get j k * x j = b i
    · rw [dif_pos h, Option.some.injEq] at hx
      rw [← hx]
      exact h.choose_spec M hM
    · rw [dif_neg h] at hx
      exact absurd hx (by simp)
  · intro m M b hM hr
    unfold exactCholmod
    simp only
    rw [dif_pos]
    · simp
    · obtain ⟨x, hx⟩ := normal_solvable M.transpose hr b
      refine ⟨x, fun N hN i hi => ?_⟩
      have hs := is_same hN hM
      have := hx i (by show i < M.rows; rw [← hs.1]; exact hi)
      rw [← this, hs.2.1, hs.1]
      apply Finset.sum_congr rfl
      intro k hk
      have hk' : k < N.cols := by rw [hs.2.1]; exact Finset.mem_range.1 hk
      show N.get i k * _ = M.get i k * ∑ j ∈ Finset.range M.rows, M.get j k * x j
      rw [hs.2.2 i k hi hk']
      congr 1
      apply Finset.sum_congr rfl
      intro j hj
      rw [hs.2.2 j k (by rw [hs.1]; exact Finset.mem_range.1 hj) hk']

open Classical in
/-- A library as expected of SuiteSparseQR. -/
noncomputable def exactQr : Qr :=
  ⟨fun _ => true, fun _ A b => if h : ∃ x : ℕ → ℝ, ∀ y, sq A b x ≤ sq A b y then some h.choose else none⟩

theorem exactQr_right (tol : ℝ) : exactQr.Right tol := by
  refine ⟨fun _ => rfl, ?_, ?_⟩
  · intro A b x hx
    unfold exactQr at hx
    simp only at hx
    by_cases h : ∃ x : ℕ → ℝ, ∀ y, sq A b x ≤ sq A b y
    · rw [dif_pos h, Option.some.injEq] at hx
      rw [← hx]
      exact h.choose_spec
    · rw [dif_neg h] at hx
      exact absurd hx (by simp)
  · intro A b hr
    unfold exactQr
    simp only
    rw [dif_pos]
    · simp
    · obtain ⟨x, hx⟩ := normal_solvable A hr fun i => ∑ k ∈ Finset.range A.rows, A.get k i * b k
      refine ⟨x, sq_min A b x fun i hi => ?_⟩
      rw [Finset.sum_congr rfl fun k _ => mul_sub _ _ _, Finset.sum_sub_distrib, hx i hi, sub_self]

/-! ## One variable, one error term -/

/-- One active variable of dimension one. -/
def env1 : Env Unit ℝ := ⟨fun _ => 0, fun _ => 1, fun _ => true, fun _ => 1⟩

/-- Its error term, of dimension one with derivative 1. -/
def jc1 : Container Unit ℝ := ⟨1, [((), ⟨1, 1, fun _ _ => 1⟩)]⟩

theorem layout1 : Layout env1 (fun _ => 0) 1 := by
  constructor
  · intro d d' _ _ h
    simp [env1] at h
  · intro d _
    simp [env1]

theorem matches1 : Matches env1 [(1, [()])] [jc1] := by
  refine List.Forall₂.cons ⟨rfl, ?_, ?_, ?_⟩ List.Forall₂.nil
  · simp [jc1, activeSorted, env1]
  · simp [Ordered, jc1]
  · simp [Fits, jc1, env1]

/-- What is asked for in the examples: error 1, conditioner 1. -/
def ops1 : List (Op Unit) := [.evaluate [1], .build [0] [jc1], .setConstant 1]

theorem good1 : ∀ o ∈ ops1, o.Good env1 1 [(1, [()])] := by
  intro o ho
  simp only [ops1, List.mem_cons, List.not_mem_nil, or_false] at ho
  rcases ho with rfl | rfl | rfl
  · rfl
  · exact ⟨List.Perm.refl _, matches1⟩
  · trivial

theorem stack1 (x : ℕ → ℝ) (e c : ℕ → ℝ) : damped (stackT env1 (fun _ => 0) 1 [jc1]).transpose e c x = (x 0 - e 0) ^ 2 + (c 0 * x 0) ^ 2 := by
  unfold damped sq
  simp [stackT, hcat, Mat.transpose, Mat.zero, jacT, jc1, env1]

/-- The hypotheses of `C144_sparse_cholesky` are met; the step for error 1 with conditioner 1 is 1/2, also if the error is evaluated elsewhere in between. -/
example : ∃ s s' x, ((Sparse.init env1 (fun _ => 0) (CCM.new 0 0) 1 [(1, [()])] true [0] fun _ => 0).bind fun s =>
      steps (Sparse.step (Sparse.solveCholesky exactCholmod)) s (ops1 ++ [.solve, .evaluate [7]])) = .ok s ∧
    s.solveCholesky exactCholmod = .ok (s', some x) ∧ x 0 = 1 / 2 := by
  obtain ⟨s, s', r, h1, h2, -, h4⟩ := C144_sparse_cholesky exactCholmod exactCholmod_right env1 (fun _ => 0) 1 layout1 [(1, [()])] true (CCM.new 0 0) [0]
    (fun _ => 0) rfl (ops1 ++ [.solve, .evaluate [7]]) (by
      intro o ho
      rcases List.mem_append.1 ho with ho | ho
      · exact good1 o ho
      · simp only [List.mem_cons, List.not_mem_nil, or_false] at ho
        rcases ho with rfl | rfl
        · trivial
        · rfl)
  obtain ⟨h5, h6⟩ := h4 [jc1] [1] rfl _ rfl
  have hr : r ≠ none := h6 (by
    intro x hx i hi
    rw [stack1] at hx
    have hi0 : i = 0 := by
      have : i < 1 := hi
      omega
    subst hi0
    nlinarith [sq_nonneg (x 0), sq_nonneg (x 0 - 0), sq_nonneg ((1 : ℝ) * x 0), hx])
  cases r with
  | none => exact absurd rfl hr
  | some x =>
    refine ⟨s, s', x, h1, h2, ?_⟩
    have := h5 x rfl fun _ => 1 / 2
    rw [stack1, stack1] at this
    simp only [ops1, List.cons_append, List.nil_append, List.foldl_cons, List.foldl_nil, Now.step, List.replicate, List.getD_cons_zero, if_true] at this
    nlinarith [sq_nonneg (x 0 - 1 / 2)]

/-- Sparse QR, after `ops` with the system of `jc1` built: the step for the error evaluated last. -/
theorem qr1 (lib : Qr) (tol : ℝ) (hlib : lib.Right tol) (ops : List (Op Unit)) (hops : ∀ o ∈ ops, o.Good env1 1 [(1, [()])])
    (hs : SolvesAt 1 (fun a => a.built ≠ none) ⟨[0], none, [0]⟩ ops) (e : List ℝ) (hb : (ops.foldl (Now.step 1) ⟨[0], none, [0]⟩).built = some ([jc1], e)) :
    ∃ s s' x, ((Sparse.initQr env1 (fun _ => 0) (CCM.new 0 0) 1 [(1, [()])] true [0] fun _ => 0).bind fun s =>
      steps (Sparse.step (Sparse.solveQr lib ⟨false, tol, 1⟩)) s ops) = .ok s ∧
    s.solveQr lib ⟨false, tol, 1⟩ = .ok (s', some x) ∧ x 0 = (ops.foldl (Now.step 1) ⟨[0], none, [0]⟩).e.getD 0 0 := by
  obtain ⟨s, s', r, h1, h2, -, h4, h5⟩ := C144_sparse_qr_partial lib ⟨false, tol, 1⟩ hlib (by simp) (by simp) env1 (fun _ => 0) 1 layout1 [(1, [()])] true
    (CCM.new 0 0) [0] (fun _ => 0) rfl ops hops hs [jc1] e hb
  have hr : r ≠ none := h5 rfl (by
    intro x hx i hi
    rw [stack1] at hx
    have hi0 : i = 0 := by
      have : i < 1 := hi
      omega
    subst hi0
    nlinarith [sq_nonneg (x 0), hx])
  cases r with
  | none => exact absurd rfl hr
  | some x =>
    refine ⟨s, s', x, h1, h2, ?_⟩
    have h6 := (h4 _ rfl x rfl).2 (fun _ => (ops.foldl (Now.step 1) ⟨[0], none, [0]⟩).e.getD 0 0) (fun i _ hd => absurd hd.1 (by simp))
    have h7 : ∀ (z b : ℕ → ℝ), sq (stackT env1 (fun _ => 0) 1 [jc1]).transpose b z = (z 0 - b 0) ^ 2 := by
      intro z b
      have := stack1 z b fun _ => 0
      unfold damped at this
      simpa using this
    have h8 := h7 x fun k => (ops.foldl (Now.step 1) ⟨[0], none, [0]⟩).e.getD k 0
    have h9 := h7 (fun _ => (ops.foldl (Now.step 1) ⟨[0], none, [0]⟩).e.getD 0 0) fun k => (ops.foldl (Now.step 1) ⟨[0], none, [0]⟩).e.getD k 0
    rw [sub_self] at h9
    have h10 : (x 0 - (ops.foldl (Now.step 1) ⟨[0], none, [0]⟩).e.getD 0 0) ^ 2 ≤ 0 := by
      rw [← h8]
      exact le_trans h6 (le_of_eq (h9.trans (by norm_num)))
    have := pow_eq_zero_iff (two_ne_zero) |>.1 (le_antisymm h10 (sq_nonneg _))
    linarith

/-- With sparse QR a conditioner asked for at initialisation and set has no effect: the step for error 1 and conditioner 1 is 1, though 1/2 is better. -/
theorem C144_undamped_counterexample (lib : Qr) (tol : ℝ) (hlib : lib.Right tol) :
    ∃ s s' x, ((Sparse.initQr env1 (fun _ => 0) (CCM.new 0 0) 1 [(1, [()])] true [0] fun _ => 0).bind fun s =>
      steps (Sparse.step (Sparse.solveQr lib ⟨false, tol, 1⟩)) s [.evaluate [1], .build [0] [jc1], .setConstant 1]) = .ok s ∧
    s.solveQr lib ⟨false, tol, 1⟩ = .ok (s', some x) ∧
    damped (stackT env1 (fun _ => 0) 1 [jc1]).transpose (fun _ => 1) (fun _ => 1) (fun _ => 1 / 2) <
      damped (stackT env1 (fun _ => 0) 1 [jc1]).transpose (fun _ => 1) (fun _ => 1) x := by
  obtain ⟨s, s', x, h1, h2, h3⟩ := qr1 lib tol hlib ops1 good1 (by simp [ops1, SolvesAt]) [1] rfl
  refine ⟨s, s', x, h1, h2, ?_⟩
  have h4 : x 0 = 1 := h3
  rw [stack1, stack1, h4]
  norm_num

/-- With sparse QR an evaluation of the errors after the system was built, as for a step that is then rejected, changes what is solved: the error was 1 where
the Jacobian was evaluated and 0 at the rejected place, and the next step is 0 instead of 1. -/
theorem C144_stale_error_counterexample (lib : Qr) (tol : ℝ) (hlib : lib.Right tol) :
    ∃ s s' x, ((Sparse.initQr env1 (fun _ => 0) (CCM.new 0 0) 1 [(1, [()])] true [0] fun _ => 0).bind fun s =>
      steps (Sparse.step (Sparse.solveQr lib ⟨false, tol, 1⟩)) s [.evaluate [1], .build [0] [jc1], .solve, .evaluate [0]]) = .ok s ∧
    s.solveQr lib ⟨false, tol, 1⟩ = .ok (s', some x) ∧
    sq (stackT env1 (fun _ => 0) 1 [jc1]).transpose (fun _ => 1) (fun _ => 1) < sq (stackT env1 (fun _ => 0) 1 [jc1]).transpose (fun _ => 1) x := by
  obtain ⟨s, s', x, h1, h2, h3⟩ := qr1 lib tol hlib [.evaluate [1], .build [0] [jc1], .solve, .evaluate [0]] (by
      intro o ho
      simp only [List.mem_cons, List.not_mem_nil, or_false] at ho
      rcases ho with rfl | rfl | rfl | rfl
      · rfl
      · exact ⟨List.Perm.refl _, matches1⟩
      · trivial
      · rfl) (by simp [SolvesAt, Now.step]) [1] rfl
  refine ⟨s, s', x, h1, h2, ?_⟩
  have h4 : x 0 = 0 := h3
  have h7 : ∀ (z b : ℕ → ℝ), sq (stackT env1 (fun _ => 0) 1 [jc1]).transpose b z = (z 0 - b 0) ^ 2 := by
    intro z b
    have := stack1 z b fun _ => 0
    unfold damped at this
    simpa using this
  rw [h7, h7, h4]
  norm_num

/-- With normalised columns a failed factorisation is not reported but a write through a null pointer; without, it is reported. -/
theorem C144_null_counterexample (lib : Qr) (o : QrOptions) (A : Mat ℝ) (b : ℕ → ℝ) (h : ∀ B c, lib.solve o.qrTol B c = none) :
    qrSolve lib o A b = if o.colNorm then .ub else .ok none := by
  unfold qrSolve
  rw [h, h]

/-- The hypothesis of `C144_dense_qr_partial` on the factorisation can be met on the matrix of the examples: least squares in one unknown. -/
example : ∃ x : ℕ → ℝ, ∀ y, sq (vcat (stackT env1 (fun _ => 0) 1 [jc1]).transpose fun _ => 1) (padded 1 fun _ => 1) x ≤
    sq (vcat (stackT env1 (fun _ => 0) 1 [jc1]).transpose fun _ => 1) (padded 1 fun _ => 1) y := by
  refine ⟨fun _ => 1 / 2, fun y => ?_⟩
  have h := fun z => sq_vcat (stackT env1 (fun _ => 0) 1 [jc1]).transpose (fun _ => 1) (fun _ => 1) z
  have hr : (stackT env1 (fun _ => 0) 1 [jc1]).transpose.rows = 1 := rfl
  rw [hr] at h
  rw [h, h, stack1, stack1]
  nlinarith [sq_nonneg (y 0 - 1 / 2)]

end Kalibr.Solvers
