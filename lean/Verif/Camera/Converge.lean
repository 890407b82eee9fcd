import Verif.Camera.UndistProps
import Mathlib.Analysis.Calculus.MeanValue
import Mathlib.LinearAlgebra.Matrix.NonsingularInverse

/-!
How close the iterative undistortions come to the undistorted point (C92).  The distance between two points of the image
plane is the larger of the two coordinate differences.
-/

namespace Kalibr.Camera

open Real

set_option linter.unusedSimpArgs false

/-! ### Radial-tangential: Newton's method -/

theorem mulVec_norm_le (A : M2) (c : ℝ) (hc : 0 ≤ c) (h : ∀ i j, |A i j| ≤ c) (v : V2) : ‖A.mulVec v‖ ≤ 2 * c * ‖v‖ := by
  rw [pi_norm_le_iff_of_nonneg (by positivity)]
  intro i
  have h0 : |v 0| ≤ ‖v‖ := norm_le_pi_norm v 0
  have h1 : |v 1| ≤ ‖v‖ := norm_le_pi_norm v 1
  simp only [Matrix.mulVec, dotProduct, Fin.sum_univ_two, Real.norm_eq_abs]
  calc |A i 0 * v 0 + A i 1 * v 1| ≤ |A i 0| * |v 0| + |A i 1| * |v 1| := by
        rw [← abs_mul, ← abs_mul]; exact abs_add_le _ _
    _ ≤ c * ‖v‖ + c * ‖v‖ := by
        gcongr
        · exact h i 0
        · exact h i 1
    _ = _ := by ring

/-- The Gauss-Newton step of a square system is the Newton step: it cancels the residual of the linearised equation. -/
theorem newton_step (F : M2) (e : V2) (h : F.det ≠ 0) :
    F.mulVec ((F.transpose * F)⁻¹.mulVec (F.transpose.mulVec e)) = e := by
  have hu : IsUnit F.det := isUnit_iff_ne_zero.2 h
  have hu' : IsUnit F.transpose.det := by rw [Matrix.det_transpose]; exact hu
  rw [Matrix.mul_inv_rev, Matrix.mulVec_mulVec, Matrix.mulVec_mulVec]
  have : F * (F⁻¹ * F.transpose⁻¹) * F.transpose = 1 := by
    rw [← Matrix.mul_assoc, Matrix.mul_nonsing_inv _ hu, Matrix.one_mul, Matrix.nonsing_inv_mul _ hu']
  rw [this, Matrix.one_mulVec]

/-- Within distance `r` of `u` the distortion is locally invertible, its Jacobian shrinks no vector by more than the
factor `M`, and the entries of the Jacobian change at most `L` per unit of distance. -/
structure RegularNear (k : V4) (u : V2) (r M L : ℝ) : Prop where
  /-- The Jacobian has a bounded inverse. -/
  inv : ∀ x, ‖x - u‖ ≤ r → ∀ v, ‖v‖ ≤ M * ‖(radtanJ k x).mulVec v‖
  /-- The Jacobian changes slowly. -/
  lip : ∀ x z, ‖x - u‖ ≤ r → ‖z - u‖ ≤ r → ∀ i j, |radtanJ k x i j - radtanJ k z i j| ≤ L * ‖x - z‖

theorem det_ne_zero_of_inv (A : M2) (M : ℝ) (h : ∀ v, ‖v‖ ≤ M * ‖A.mulVec v‖) : A.det ≠ 0 := by
  intro hd
  obtain ⟨v, hv, hv0⟩ := Matrix.exists_mulVec_eq_zero_iff.2 hd
  have := h v
  rw [hv0] at this
  simp at this
  exact hv this

/-- The error of the linearisation. -/
theorem radtan_taylor (k : V4) (u : V2) (r M L : ℝ) (hL : 0 ≤ L) (h : RegularNear k u r M L) (x : V2)
    (hx : ‖x - u‖ ≤ r) :
    ‖radtanDistort k u - radtanDistort k x - (radtanJ k x).mulVec (u - x)‖ ≤ 2 * L * ‖x - u‖ * ‖x - u‖ := by
  have hr : 0 ≤ r := (norm_nonneg _).trans hx
  have hseg : ∀ z ∈ segment ℝ x u, ‖z - u‖ ≤ r ∧ ‖z - x‖ ≤ ‖x - u‖ := by
    intro z hz
    obtain ⟨a, b, ha, hb, hab, rfl⟩ := hz
    have e1 : a • x + b • u - u = a • (x - u) := by
      have : b = 1 - a := by linarith
      subst this; module
    have e2 : a • x + b • u - x = b • (u - x) := by
      have : a = 1 - b := by linarith
      subst this; module
    rw [e1, e2, norm_smul, norm_smul, Real.norm_of_nonneg ha, Real.norm_of_nonneg hb, norm_sub_rev u x]
    have := norm_nonneg (x - u)
    constructor <;> nlinarith
  have hd : ∀ z ∈ segment ℝ x u, HasFDerivWithinAt (radtanDistort k)
      (LinearMap.toContinuousLinearMap (Matrix.toLin' (radtanJ k z))) (segment ℝ x u) z := by
    intro z _
    exact HasFDerivAt.hasFDerivWithinAt (isJacobianAt_iff.2 fun i => radtan_grad z k i)
  have hb : ∀ z ∈ segment ℝ x u, ‖LinearMap.toContinuousLinearMap (Matrix.toLin' (radtanJ k z)) -
      LinearMap.toContinuousLinearMap (Matrix.toLin' (radtanJ k x))‖ ≤ 2 * L * ‖x - u‖ := by
    intro z hz
    refine ContinuousLinearMap.opNorm_le_bound _ (by positivity) fun v => ?_
    have hz' := hseg z hz
    have := mulVec_norm_le (radtanJ k z - radtanJ k x) (L * ‖x - u‖) (by positivity) (fun i j => by
      refine (h.lip z x hz'.1 hx i j).trans ?_
      exact mul_le_mul_of_nonneg_left hz'.2 hL) v
    rw [Matrix.sub_mulVec] at this
    rw [mul_assoc 2 L]
    simpa using this
  have := (convex_segment x u).norm_image_sub_le_of_norm_hasFDerivWithin_le' hd hb (left_mem_segment ℝ x u)
    (right_mem_segment ℝ x u)
  simpa [norm_sub_rev u x] using this

/-- One iteration squares the error. -/
theorem radtan_newton (k : V4) (u : V2) (r M L : ℝ) (hL : 0 ≤ L) (hM : 0 ≤ M) (h : RegularNear k u r M L) (x s : V2)
    (hx : ‖x - u‖ ≤ r) (hs : (radtanJ k x).mulVec s = radtanDistort k u - radtanDistort k x) :
    ‖x + s - u‖ ≤ 2 * M * L * ‖x - u‖ * ‖x - u‖ := by
  have h1 := h.inv x hx (x + s - u)
  have e : (radtanJ k x).mulVec (x + s - u)
      = radtanDistort k u - radtanDistort k x - (radtanJ k x).mulVec (u - x) := by
    rw [← hs, ← Matrix.mulVec_sub]; congr 1; abel
  rw [e] at h1
  have h2 := radtan_taylor k u r M L hL h x hx
  calc _ ≤ _ := h1
    _ ≤ M * (2 * L * ‖x - u‖ * ‖x - u‖) := mul_le_mul_of_nonneg_left h2 hM
    _ = _ := by ring

theorem norm_sq_le_dot (e : V2) : ‖e‖ * ‖e‖ ≤ dotProduct e e := by
  have h : ‖e‖ ≤ √(dotProduct e e) := by
    rw [pi_norm_le_iff_of_nonneg (Real.sqrt_nonneg _)]
    intro i
    rw [Real.norm_eq_abs]
    refine Real.abs_le_sqrt ?_
    simp only [dotProduct, Fin.sum_univ_two]
    fin_cases i <;> simp <;> nlinarith [mul_self_nonneg (e 0), mul_self_nonneg (e 1)]
  have h0 : 0 ≤ dotProduct e e := by
    simp only [dotProduct, Fin.sum_univ_two]; nlinarith [mul_self_nonneg (e 0), mul_self_nonneg (e 1)]
  calc _ ≤ √(dotProduct e e) * √(dotProduct e e) := by gcongr
    _ = _ := Real.mul_self_sqrt h0

theorem radtanLoop_converges (k : V4) (u : V2) (r M L : ℝ) (hL : 0 ≤ L) (hM : 0 ≤ M) (h : RegularNear k u r M L)
    (hc : 4 * M * L * r ≤ 1) (n : ℕ) : ∀ (x : V2) (d : ℝ), ‖x - u‖ ≤ d → d ≤ r →
      ∃ v, radtanLoop k (radtanDistort k u) n x = some v ∧
        (‖v - u‖ ≤ (2 * M * L) ^ (2 ^ n - 1) * d ^ (2 ^ n) ∨ ‖v - u‖ ≤ 8 * M ^ 3 * L / 10 ^ 15) := by
  induction n with
  | zero => intro x d hx _; exact ⟨x, rfl, Or.inl (by simpa using hx)⟩
  | succ n ih =>
    intro x d hx hd
    have hxr := hx.trans hd
    have h0 := norm_nonneg (x - u)
    have hdet := det_ne_zero_of_inv _ M (h.inv x hxr)
    simp only [radtanLoop, if_neg hdet]
    set s := ((radtanJ k x).transpose * radtanJ k x)⁻¹.mulVec
      ((radtanJ k x).transpose.mulVec (radtanDistort k u - radtanDistort k x)) with hsdef
    have hs : (radtanJ k x).mulVec s = radtanDistort k u - radtanDistort k x := newton_step _ _ hdet
    have hN := radtan_newton k u r M L hL hM h x s hxr hs
    have hhalf : 2 * M * L * ‖x - u‖ * ‖x - u‖ ≤ ‖x - u‖ / 2 := by
      have : 2 * M * L * ‖x - u‖ ≤ 1 / 2 := by
        have : 2 * M * L * ‖x - u‖ ≤ 2 * M * L * r := mul_le_mul_of_nonneg_left hxr (by positivity)
        linarith
      nlinarith
    split_ifs with he
    · refine ⟨_, rfl, Or.inr ?_⟩
      have hsn := h.inv x hxr s
      rw [hs] at hsn
      set e := radtanDistort k u - radtanDistort k x
      have hde : ‖x - u‖ ≤ 2 * (M * ‖e‖) := by
        have : ‖x - u‖ ≤ ‖s‖ + ‖x + s - u‖ := by
          have := norm_sub_le (x + s - u) s
          rw [show x + s - u - s = x - u by abel] at this
          linarith
        linarith
      have he2 : ‖e‖ * ‖e‖ ≤ 1 / 10 ^ 15 := (norm_sq_le_dot e).trans he.le
      calc _ ≤ _ := hN
        _ ≤ 2 * M * L * (2 * (M * ‖e‖)) * (2 * (M * ‖e‖)) := by gcongr
        _ = 8 * M ^ 3 * L * (‖e‖ * ‖e‖) := by ring
        _ ≤ 8 * M ^ 3 * L * (1 / 10 ^ 15) := by gcongr
        _ = _ := by ring
    · have hd0 : 0 ≤ d := h0.trans hx
      have hr0 : 0 ≤ r := hd0.trans hd
      obtain ⟨v, hv, hb⟩ := ih (x + s) (2 * M * L * d * d) (hN.trans (by gcongr)) (by
        have h1 : 2 * M * L * d ≤ 2 * M * L * r := mul_le_mul_of_nonneg_left hd (by positivity)
        nlinarith)
      refine ⟨v, hv, hb.imp (fun hb => hb.trans (le_of_eq ?_)) id⟩
      have hp : 2 ^ n ≠ 0 := by positivity
      rw [show 2 ^ (n + 1) - 1 = (2 ^ n - 1) + 2 ^ n by rw [pow_succ]; omega, pow_add, pow_succ 2 n,
        show d ^ (2 ^ n * 2) = (d * d) ^ 2 ^ n by rw [← sq, ← pow_mul, mul_comm], mul_assoc (2 * M * L) d d, mul_pow]
      ring

/-- **C92, radial-tangential distortion.** If the distortion is regular near the point `u` and moves `u` by a distance
at most `r` that is small compared with the regularity, undistorting the distorted point gives `u` back up to the 32nd
power of the initial distance (five iterations, each squaring the error), or up to the error left when the iteration stops
early. -/
theorem C92_radtan_partial (k : V4) (u : V2) (r M L : ℝ) (hL : 0 ≤ L) (hM : 0 ≤ M) (h : RegularNear k u r M L)
    (hu : ‖(radtan k).distort u - u‖ ≤ r) (hc : 4 * M * L * r ≤ 1) :
    ∃ v, (radtan k).undistort ((radtan k).distort u) = some v ∧
      ‖v - u‖ ≤ max ((2 * M * L * r) ^ 31 * r) (8 * M ^ 3 * L / 10 ^ 15) := by
  obtain ⟨v, hv, hb⟩ := radtanLoop_converges k u r M L hL hM h hc 5 (radtanDistort k u) r hu le_rfl
  refine ⟨v, hv, ?_⟩
  rcases hb with hb | hb
  · refine hb.trans (le_trans (le_of_eq ?_) (le_max_left _ _))
    norm_num
    ring
  · exact hb.trans (le_max_right _ _)

/-! Regularity from bounds on the parameters. -/

/-- Both `a` and `b` are at most `A` in absolute value and differ by at most `D`. -/
def Near (a b A D : ℝ) : Prop := |a| ≤ A ∧ |b| ≤ A ∧ |a - b| ≤ D

theorem Near.add {a b A D a' b' A' D' : ℝ} (h : Near a b A D) (h' : Near a' b' A' D') :
    Near (a + a') (b + b') (A + A') (D + D') := by
  refine ⟨(abs_add_le _ _).trans (add_le_add h.1 h'.1), (abs_add_le _ _).trans (add_le_add h.2.1 h'.2.1), ?_⟩
  rw [show a + a' - (b + b') = (a - b) + (a' - b') by ring]
  exact (abs_add_le _ _).trans (add_le_add h.2.2 h'.2.2)

theorem Near.mul {a b A D a' b' A' D' : ℝ} (h : Near a b A D) (h' : Near a' b' A' D') :
    Near (a * a') (b * b') (A * A') (A * D' + D * A') := by
  have hA : 0 ≤ A := (abs_nonneg _).trans h.1
  have hD : 0 ≤ D := (abs_nonneg _).trans h.2.2
  refine ⟨?_, ?_, ?_⟩
  · rw [abs_mul]; exact mul_le_mul h.1 h'.1 (abs_nonneg _) hA
  · rw [abs_mul]; exact mul_le_mul h.2.1 h'.2.1 (abs_nonneg _) hA
  · rw [show a * a' - b * b' = a * (a' - b') + (a - b) * b' by ring]
    refine (abs_add_le _ _).trans ?_
    rw [abs_mul, abs_mul]
    exact add_le_add (mul_le_mul h.1 h'.2.2 (abs_nonneg _) hA) (mul_le_mul h.2.2 h'.2.1 (abs_nonneg _) hD)

theorem Near.const {a A : ℝ} (h : |a| ≤ A) : Near a a A 0 := ⟨h, h, by simp⟩

theorem near_num (a : ℝ) (h : 0 ≤ a) : Near a a a 0 := Near.const (by rw [abs_of_nonneg h])

/-- The parameters are bounded by `K0`, `K1`, `P`. -/
structure Bounded (k : V4) (K0 K1 P : ℝ) : Prop where
  /-- k1 -/
  b0 : |k 0| ≤ K0
  /-- k2 -/
  b1 : |k 1| ≤ K1
  /-- p1 -/
  b2 : |k 2| ≤ P
  /-- p2 -/
  b3 : |k 3| ≤ P

/-- Bound on an entry of the Jacobian minus the identity. -/
def offBound (R K0 K1 P : ℝ) : ℝ := 4 * K0 * R ^ 2 + 12 * K1 * R ^ 4 + 8 * P * R

/-- Lipschitz bound of an entry of the Jacobian. -/
def lipBound (R K0 K1 P : ℝ) : ℝ := 8 * K0 * R + 48 * K1 * R ^ 3 + 8 * P

/-- Bound on the distance a point is moved. -/
def moveBound (R K0 K1 P : ℝ) : ℝ := 2 * K0 * R ^ 3 + 4 * K1 * R ^ 5 + 6 * P * R ^ 2

theorem radtan_bounds {k : V4} {R K0 K1 P : ℝ} (hk : Bounded k K0 K1 P) (hR : 0 ≤ R) (x z : V2) (hx : ‖x‖ ≤ R)
    (hz : ‖z‖ ≤ R) :
    (∀ i j, |radtanJ k x i j - (1 : M2) i j| ≤ offBound R K0 K1 P) ∧
      (∀ i j, |radtanJ k x i j - radtanJ k z i j| ≤ lipBound R K0 K1 P * ‖x - z‖) ∧
      ‖radtanDistort k x - x‖ ≤ moveBound R K0 K1 P := by
  have hK0 : 0 ≤ K0 := (abs_nonneg _).trans hk.b0
  have hK1 : 0 ≤ K1 := (abs_nonneg _).trans hk.b1
  have hP : 0 ≤ P := (abs_nonneg _).trans hk.b2
  set d := ‖x - z‖ with hd
  have hd0 : 0 ≤ d := norm_nonneg _
  have n0 : Near (x 0) (z 0) R d :=
    ⟨(norm_le_pi_norm x 0).trans hx, (norm_le_pi_norm z 0).trans hz, norm_le_pi_norm (x - z) 0⟩
  have n1 : Near (x 1) (z 1) R d :=
    ⟨(norm_le_pi_norm x 1).trans hx, (norm_le_pi_norm z 1).trans hz, norm_le_pi_norm (x - z) 1⟩
  have k0 := Near.const hk.b0
  have k1 := Near.const hk.b1
  have k2 := Near.const hk.b2
  have k3 := Near.const hk.b3
  have two := near_num 2 (by norm_num)
  have four := near_num 4 (by norm_num)
  have six := near_num 6 (by norm_num)
  have rho := (n0.mul n0).add (n1.mul n1)
  have rad := (k0.mul rho).add ((k1.mul rho).mul rho)
  have off := (((((k0.mul two).mul n0).mul n1).add ((((k1.mul four).mul rho).mul n0).mul n1)).add
    ((k2.mul two).mul n0)).add ((two.mul k3).mul n1)
  have d0 := (((rad.add ((k0.mul two).mul (n0.mul n0))).add (((k1.mul rho).mul four).mul (n0.mul n0))).add
    ((two.mul k2).mul n1)).add ((six.mul k3).mul n0)
  have d1 := (((rad.add ((k0.mul two).mul (n1.mul n1))).add (((k1.mul rho).mul four).mul (n1.mul n1))).add
    ((six.mul k2).mul n1)).add ((two.mul k3).mul n0)
  have p1 : 0 ≤ K0 * R ^ 2 := by positivity
  have p2 : 0 ≤ K1 * R ^ 4 := by positivity
  have p3 : 0 ≤ P * R := by positivity
  have q1 : 0 ≤ K0 * R * d := by positivity
  have q2 : 0 ≤ K1 * R ^ 3 * d := by positivity
  have q3 : 0 ≤ P * d := by positivity
  refine ⟨fun i j => ?_, fun i j => ?_, ?_⟩
  · unfold offBound
    fin_cases i <;> fin_cases j
    · refine le_trans (le_of_eq ?_) (d0.1.trans ?_)
      · congr 1; simp [radtanJ]; ring
      · nlinarith
    · refine le_trans (le_of_eq ?_) (off.1.trans ?_)
      · congr 1; simp [radtanJ]
      · nlinarith
    · refine le_trans (le_of_eq ?_) (off.1.trans ?_)
      · congr 1; simp [radtanJ]
      · nlinarith
    · refine le_trans (le_of_eq ?_) (d1.1.trans ?_)
      · congr 1; simp [radtanJ]; ring
      · nlinarith
  · unfold lipBound
    fin_cases i <;> fin_cases j
    · refine le_trans (le_of_eq ?_) (d0.2.2.trans ?_)
      · congr 1; simp [radtanJ]; ring
      · nlinarith
    · refine le_trans (le_of_eq ?_) (off.2.2.trans ?_)
      · congr 1
      · nlinarith
    · refine le_trans (le_of_eq ?_) (off.2.2.trans ?_)
      · congr 1
      · nlinarith
    · refine le_trans (le_of_eq ?_) (d1.2.2.trans ?_)
      · congr 1; simp [radtanJ]; ring
      · nlinarith
  · unfold moveBound
    have m0 := ((n0.mul rad).add ((two.mul k2).mul (n0.mul n1))).add (k3.mul (rho.add (two.mul (n0.mul n0))))
    have m1 := ((n1.mul rad).add ((two.mul k3).mul (n0.mul n1))).add (k2.mul (rho.add (two.mul (n1.mul n1))))
    rw [pi_norm_le_iff_of_nonneg (by positivity)]
    intro i
    rw [Real.norm_eq_abs]
    fin_cases i
    · refine le_trans (le_of_eq ?_) (m0.1.trans ?_)
      · congr 1; simp [radtanDistort]; try ring
      · nlinarith
    · refine le_trans (le_of_eq ?_) (m1.1.trans ?_)
      · congr 1; simp [radtanDistort]; try ring
      · nlinarith

theorem regularNear_of_bounded {k : V4} {R K0 K1 P : ℝ} (hk : Bounded k K0 K1 P) (u : V2) (r : ℝ) (hr : 0 ≤ r)
    (hu : ‖u‖ + r ≤ R) (M : ℝ) (hM : 0 ≤ M) (h : 1 ≤ M * (1 - 2 * offBound R K0 K1 P)) :
    RegularNear k u r M (lipBound R K0 K1 P) := by
  have hR : 0 ≤ R := by have := norm_nonneg u; linarith
  have hb : ∀ x, ‖x - u‖ ≤ r → ‖x‖ ≤ R := fun x hx => by
    have := norm_add_le (x - u) u
    rw [sub_add_cancel] at this
    linarith
  refine ⟨fun x hx v => ?_, fun x z hx hz => (radtan_bounds hk hR x z (hb x hx) (hb z hz)).2.1⟩
  have ho := (radtan_bounds hk hR x x (hb x hx) (hb x hx)).1
  have h1 := mulVec_norm_le (radtanJ k x - 1) (offBound R K0 K1 P) ((abs_nonneg _).trans (ho 0 0)) ho v
  rw [Matrix.sub_mulVec, Matrix.one_mulVec] at h1
  have h2 : ‖v‖ ≤ ‖(radtanJ k x).mulVec v‖ + ‖(radtanJ k x).mulVec v - v‖ := by
    have := norm_sub_le ((radtanJ k x).mulVec v) ((radtanJ k x).mulVec v - v)
    simpa using this
  have hv := norm_nonneg v
  have h3 : (1 - 2 * offBound R K0 K1 P) * ‖v‖ ≤ ‖(radtanJ k x).mulVec v‖ := by nlinarith
  calc ‖v‖ = 1 * ‖v‖ := (one_mul _).symm
    _ ≤ M * (1 - 2 * offBound R K0 K1 P) * ‖v‖ := by gcongr
    _ = M * ((1 - 2 * offBound R K0 K1 P) * ‖v‖) := by ring
    _ ≤ _ := by gcongr

/-- **C92, radial-tangential distortion, wide images and weak distortion.** If all four parameters are at most 1/200 in
absolute value and the coordinates of `u` at most 0.9, undistorting the distorted point returns `u` up to 1e-14. -/
theorem C92_radtan_weak (k : V4) (hk : ∀ i, |k i| ≤ 1 / 200) (u : V2) (hu : ∀ i, |u i| ≤ 9 / 10) :
    ∃ v, (radtan k).undistort ((radtan k).distort u) = some v ∧ ∀ i, |v i - u i| ≤ 1 / 10 ^ 14 := by
  have hun : ‖u‖ ≤ 9 / 10 := (pi_norm_le_iff_of_nonneg (by norm_num)).2 hu
  have hb : Bounded k (1 / 200) (1 / 200) (1 / 200) := ⟨hk 0, hk 1, hk 2, hk 3⟩
  have hreg := regularNear_of_bounded (R := 1) hb u (6 / 100) (by norm_num) (by linarith) (4 / 3) (by norm_num)
    (by norm_num [offBound])
  obtain ⟨v, hv, hd⟩ := C92_radtan_partial k u _ _ _ (by norm_num [lipBound]) (by norm_num) hreg
    ((radtan_bounds hb (R := 1) (by norm_num) u u (by linarith) (by linarith)).2.2.trans (by norm_num [moveBound]))
    (by norm_num [lipBound])
  refine ⟨v, hv, fun i => (norm_le_pi_norm (v - u) i).trans (hd.trans ?_)⟩
  rw [max_le_iff]
  constructor <;> norm_num [lipBound]

/-- **C92, radial-tangential distortion, narrow images and strong distortion.** If the radial parameters are at most 0.3
in absolute value, the tangential ones at most 0.01, and the coordinates of `u` at most 0.3, undistorting the distorted
point returns `u` up to 1e-13. -/
theorem C92_radtan_strong (k : V4) (h0 : |k 0| ≤ 3 / 10) (h1 : |k 1| ≤ 3 / 10) (h2 : |k 2| ≤ 1 / 100)
    (h3 : |k 3| ≤ 1 / 100) (u : V2) (hu : ∀ i, |u i| ≤ 3 / 10) :
    ∃ v, (radtan k).undistort ((radtan k).distort u) = some v ∧ ∀ i, |v i - u i| ≤ 1 / 10 ^ 13 := by
  have hun : ‖u‖ ≤ 3 / 10 := (pi_norm_le_iff_of_nonneg (by norm_num)).2 hu
  have hb : Bounded k (3 / 10) (3 / 10) (1 / 100) := ⟨h0, h1, h2, h3⟩
  have hreg := regularNear_of_bounded (R := 1 / 3) hb u (1 / 30) (by norm_num) (by linarith) (9 / 5) (by norm_num)
    (by norm_num [offBound])
  obtain ⟨v, hv, hd⟩ := C92_radtan_partial k u _ _ _ (by norm_num [lipBound]) (by norm_num) hreg
    ((radtan_bounds hb (R := 3 / 10) (by norm_num) u u hun hun).2.2.trans (by norm_num [moveBound]))
    (by norm_num [lipBound])
  refine ⟨v, hv, fun i => (norm_le_pi_norm (v - u) i).trans (hd.trans ?_)⟩
  rw [max_le_iff]
  constructor <;> norm_num [lipBound]

/-- Actual lens parameters and a point away from the centre. -/
example : ∃ v, (radtan ![-0.28, 0.07, 0.0002, -0.0001]).undistort
    ((radtan ![-0.28, 0.07, 0.0002, -0.0001]).distort ![0.25, -0.3]) = some v ∧
      ∀ i, |v i - (![0.25, -0.3] : V2) i| ≤ 1 / 10 ^ 13 := by
  refine C92_radtan_strong _ ?_ ?_ ?_ ?_ _ (fun i => ?_)
  · simp [abs_le]; norm_num
  · simp [abs_le]; norm_num
  · simp [abs_le]; norm_num
  · simp [abs_le]; norm_num
  · fin_cases i <;> simp [abs_le] <;> norm_num

/-! ### Equidistant: fixed-point iteration -/

theorem eqLoop_converges (k : V4) (t l m δ : ℝ) (ht : 0 ≤ t) (hm : 0 < m) (hl : 0 ≤ l)
    (hlip : ∀ s, |s - t| ≤ δ → |eqPoly k s - eqPoly k t| ≤ l * |s - t|) (hpos : ∀ s, |s - t| ≤ δ → m ≤ eqPoly k s)
    (hq : t * l ≤ m) (n : ℕ) : ∀ s, |s - t| ≤ δ →
      ∃ v, eqLoop k (t * eqPoly k t) n s = some v ∧ |v - t| ≤ (t * l / m) ^ n * |s - t| := by
  induction n with
  | zero => intro s _; exact ⟨s, rfl, by simp⟩
  | succ n ih =>
    intro s hs
    have hp : 0 < eqPoly k s := hm.trans_le (hpos s hs)
    have hq1 : t * l / m ≤ 1 := (div_le_one hm).2 hq
    have hq0 : 0 ≤ t * l / m := by positivity
    have hstep : |t * eqPoly k t / eqPoly k s - t| ≤ t * l / m * |s - t| := by
      rw [show t * eqPoly k t / eqPoly k s - t = t * (eqPoly k t - eqPoly k s) / eqPoly k s by field_simp, abs_div,
        abs_mul, abs_of_nonneg ht, abs_of_pos hp, abs_sub_comm]
      calc t * |eqPoly k s - eqPoly k t| / eqPoly k s ≤ t * (l * |s - t|) / m := by
            gcongr
            · exact hlip s hs
            · exact hpos s hs
        _ = _ := by ring
    simp only [eqLoop, if_neg hp.ne']
    obtain ⟨v, hv, hd⟩ := ih (t * eqPoly k t / eqPoly k s) (hstep.trans ((mul_le_of_le_one_left (abs_nonneg _) hq1).trans hs))
    refine ⟨v, hv, hd.trans ?_⟩
    calc _ ≤ (t * l / m) ^ n * (t * l / m * |s - t|) := by gcongr
      _ = _ := by ring

/-- **C92, equidistant distortion.** Let `t` be the angle between the viewing ray of the point `u` and the optical axis,
and `t'` the angle after distortion.  If between `t - |t' - t|` and `t + |t' - t|` the distortion factor is at least
`m` and changes at most `l` per unit, undistorting the distorted point gives a point in the same direction from the centre
whose angle `t''` differs from `t` by at most `(t l / m)^20` times the distance moved by the distortion. -/
theorem C92_equidistant_partial (k : V4) (u : V2) (hu : 1 / 10 ^ 8 < norm2 u) (l m : ℝ) (hm : 0 < m) (hl : 0 ≤ l)
    (t : ℝ) (htdef : t = arctan (norm2 u))
    (hlip : ∀ s, |s - t| ≤ |norm2 ((equidistant k).distort u) - t| → |eqPoly k s - eqPoly k t| ≤ l * |s - t|)
    (hpos : ∀ s, |s - t| ≤ |norm2 ((equidistant k).distort u) - t| → m ≤ eqPoly k s)
    (hq : t * l ≤ m) :
    ∃ v t'', (equidistant k).undistort ((equidistant k).distort u) = some v ∧
      (∀ i, v i = tan t'' * (u i / norm2 u)) ∧
      |t'' - t| ≤ (t * l / m) ^ 20 * |norm2 ((equidistant k).distort u) - t| := by
  have hpu : 0 < norm2 u := lt_trans (by norm_num) hu
  have ht : 0 < t := by rw [htdef, ← Real.arctan_zero]; exact Real.arctan_strictMono hpu
  have hP : 0 < eqPoly k t := hm.trans_le (hpos t (by simp))
  have hd : eqDistort k u = (t * eqPoly k t / norm2 u) • u := by
    rw [eqDistort_of_lt _ u hu, ← htdef]; funext i; simp [mul_comm]
  have hn : norm2 (eqDistort k u) = t * eqPoly k t := by
    rw [hd, norm2_smul, abs_of_pos (by positivity)]; field_simp
  have hn' : norm2 ((equidistant k).distort u) = t * eqPoly k t := hn
  rw [hn'] at hlip hpos ⊢
  obtain ⟨s, hs, hb⟩ := eqLoop_converges k t l m _ ht.le hm hl hlip hpos hq 20 (t * eqPoly k t) le_rfl
  have htd : 0 < t * eqPoly k t := by positivity
  refine ⟨_, s, ?_, fun i => rfl, hb⟩
  change eqUndistort k (eqDistort k u) = _
  unfold eqUndistort
  simp only
  rw [show √(eqDistort k u 0 * eqDistort k u 0 + eqDistort k u 1 * eqDistort k u 1) = norm2 (eqDistort k u) from rfl,
    hn, hs]
  simp only [htd.ne', if_false, hd]
  congr 1; funext i; fin_cases i <;> simp <;> field_simp

theorem eqPoly_bounds (k : V4) (K b : ℝ) (hk : ∀ i, |k i| ≤ K) (s t : ℝ) (hs : |s| ≤ b) (ht : |t| ≤ b) :
    |eqPoly k s - 1| ≤ K * (b ^ 2 + b ^ 4 + b ^ 6 + b ^ 8) ∧
      |eqPoly k s - eqPoly k t| ≤ K * (2 * b + 4 * b ^ 3 + 6 * b ^ 5 + 8 * b ^ 7) * |s - t| := by
  have n : Near s t b |s - t| := ⟨hs, ht, le_rfl⟩
  have k0 := Near.const (hk 0)
  have k1 := Near.const (hk 1)
  have k2 := Near.const (hk 2)
  have k3 := Near.const (hk 3)
  have n2 := n.mul n
  have n4 := n2.mul n2
  have n6 := n4.mul n2
  have n8 := n4.mul n4
  have h := (((k0.mul n2).add (k1.mul n4)).add (k2.mul n6)).add (k3.mul n8)
  constructor
  · refine le_trans (le_of_eq ?_) (h.1.trans (le_of_eq ?_))
    · congr 1; simp only [eqPoly]; ring
    · ring
  · refine le_trans (le_of_eq ?_) (h.2.2.trans (le_of_eq ?_))
    · congr 1; simp only [eqPoly]; ring
    · ring

/-- **C92, equidistant distortion, weak distortion.** If all four coefficients are at most 1/20 in absolute value, then for
every point up to 45 degrees from the optical axis, undistorting the distorted point gives a point in the same direction
whose angle from the axis is right up to 1e-8 radian. -/
theorem C92_equidistant_weak (k : V4) (hk : ∀ i, |k i| ≤ 1 / 20) (u : V2) (hu : 1 / 10 ^ 8 < norm2 u)
    (hu1 : norm2 u ≤ 1) :
    ∃ v t'', (equidistant k).undistort ((equidistant k).distort u) = some v ∧
      (∀ i, v i = tan t'' * (u i / norm2 u)) ∧ |t'' - arctan (norm2 u)| ≤ 1 / 10 ^ 8 := by
  have hpu : 0 < norm2 u := lt_trans (by norm_num) hu
  set t := arctan (norm2 u) with htdef
  have ht : 0 < t := by rw [htdef, ← Real.arctan_zero]; exact Real.arctan_strictMono hpu
  have ht1 : t ≤ 79 / 100 := by
    have : t ≤ π / 4 := by rw [htdef, ← Real.arctan_one]; exact Real.arctan_strictMono.monotone hu1
    linarith [Real.pi_lt_d2]
  have hP := (eqPoly_bounds k (1 / 20) (79 / 100) hk t t (by rw [abs_of_pos ht]; exact ht1)
    (by rw [abs_of_pos ht]; exact ht1)).1
  have hP' : |eqPoly k t - 1| ≤ 71 / 1000 := hP.trans (by norm_num)
  have hn : norm2 ((equidistant k).distort u) = t * eqPoly k t := by
    have hPp : 0 < eqPoly k t := by rw [abs_le] at hP'; linarith [hP'.1]
    change norm2 (eqDistort k u) = _
    have hd : eqDistort k u = (t * eqPoly k t / norm2 u) • u := by
      rw [eqDistort_of_lt _ u hu, ← htdef]; funext i; simp [mul_comm]
    rw [hd, norm2_smul, abs_of_pos (by positivity)]; field_simp
  have hδ : |norm2 ((equidistant k).distort u) - t| ≤ 57 / 1000 := by
    rw [hn, show t * eqPoly k t - t = t * (eqPoly k t - 1) by ring, abs_mul, abs_of_pos ht]
    calc t * |eqPoly k t - 1| ≤ (79 / 100) * (71 / 1000) := by gcongr
      _ ≤ _ := by norm_num
  have hrange : ∀ s, |s - t| ≤ |norm2 ((equidistant k).distort u) - t| → |s| ≤ 85 / 100 := by
    intro s hs
    have := abs_le.1 (hs.trans hδ)
    rw [abs_le]; constructor <;> linarith [this.1, this.2]
  have htb : |t| ≤ 85 / 100 := by rw [abs_of_pos ht]; linarith
  obtain ⟨v, t'', hv, hdir, hb⟩ := C92_equidistant_partial k u hu (47 / 100) (9 / 10) (by norm_num) (by norm_num) t htdef
    (fun s hs => by
      refine (eqPoly_bounds k (1 / 20) (85 / 100) hk s t (hrange s hs) htb).2.trans ?_
      gcongr; norm_num)
    (fun s hs => by
      have h1 := (eqPoly_bounds k (1 / 20) (85 / 100) hk s t (hrange s hs) htb).1
      have h2 : |eqPoly k s - 1| ≤ 1 / 10 := h1.trans (by norm_num)
      rw [abs_le] at h2; linarith [h2.1])
    (by linarith)
  refine ⟨v, t'', hv, hdir, hb.trans ?_⟩
  calc _ ≤ (79 / 100 * (47 / 100) / (9 / 10)) ^ 20 * (57 / 1000 : ℝ) := by gcongr
    _ ≤ _ := by norm_num

/-- Actual fisheye coefficients. -/
example : ∃ v t'', (equidistant ![-0.01, 0.02, -0.03, 0.005]).undistort
    ((equidistant ![-0.01, 0.02, -0.03, 0.005]).distort ![0.6, 0.8]) = some v ∧
      (∀ i, v i = tan t'' * ((![0.6, 0.8] : V2) i / norm2 ![0.6, 0.8])) ∧
      |t'' - arctan (norm2 ![0.6, 0.8])| ≤ 1 / 10 ^ 8 := by
  have h1 : norm2 ![0.6, 0.8] = 1 := by unfold norm2; simp; norm_num
  refine C92_equidistant_weak _ (fun i => ?_) _ (by rw [h1]; norm_num) (by rw [h1])
  fin_cases i <;> simp [abs_le] <;> norm_num

end Kalibr.Camera
