import Verif.Camera.Projection
import Verif.Camera.UndistProps

/-!
The pinhole projection: back-projection (C54), Jacobians (C55) and homogeneous points (C56).
-/

namespace Kalibr.Camera

open Real

set_option linter.unusedSimpArgs false

/-- `f` has a value near `x`, and `J` is the derivative of that value at `x`. -/
def IsPartialJacobianAt {n m : ℕ} (f : (Fin n → ℝ) → Option (Fin m → ℝ)) (J : Matrix (Fin m) (Fin n) ℝ)
    (x : Fin n → ℝ) : Prop :=
  ∃ g, (∀ᶠ z in nhds x, f z = some (g z)) ∧ IsJacobianAt g J x

theorem v2ext {a b : V2} (h0 : a 0 = b 0) (h1 : a 1 = b 1) : a = b := by
  funext i; fin_cases i
  · exact h0
  · exact h1

theorem v3ext {a b : V3} (h0 : a 0 = b 0) (h1 : a 1 = b 1) (h2 : a 2 = b 2) : a = b := by
  funext i; fin_cases i
  · exact h0
  · exact h1
  · exact h2

theorem toPixel_lift {n : ℕ} (c : Frame n) (hu : c.fu ≠ 0) (hv : c.fv ≠ 0) (k : V2) :
    c.toPixel (Pinhole.lift c k) = k := by
  apply v2ext <;> simp [Frame.toPixel, Pinhole.lift] <;> field_simp <;> ring

theorem lift_toPixel {n : ℕ} (c : Frame n) (hu : c.fu ≠ 0) (hv : c.fv ≠ 0) (y : V2) :
    Pinhole.lift c (c.toPixel y) = y := by
  apply v2ext <;> simp [Frame.toPixel, Pinhole.lift] <;> field_simp

/-- **C54, point to keypoint to ray.** A point in front of a pinhole camera projects to a keypoint; the ray of that
keypoint is the point divided by its depth, if undistort undoes distort at the point's place on the image plane.  The
back-projection is flagged valid exactly if the projection was. -/
theorem C54_ray {n : ℕ} (c : Frame n) (hu : c.fu ≠ 0) (hv : c.fv ≠ 0) (p : V3) (hp : 0 < p 2)
    (hD : c.D.undistort (c.D.distort ![p 0 / p 2, p 1 / p 2]) = some ![p 0 / p 2, p 1 / p 2]) :
    ∃ k, (Pinhole.project c p).1 = some k ∧ (Pinhole.backproject c k).1 = some ((1 / p 2) • p) ∧
      ((Pinhole.backproject c k).2 ↔ (Pinhole.project c p).2) := by
  have hpl : Pinhole.plane p = ![p 0 / p 2, p 1 / p 2] := by
    apply v2ext <;> simp [Pinhole.plane] <;> field_simp
  refine ⟨_, rfl, ?_, ?_⟩
  · simp only [Pinhole.backproject, lift_toPixel c hu hv, hpl, hD, Option.map_some]
    congr 1
    apply v3ext <;> simp <;> field_simp
  · simp only [Pinhole.backproject, Pinhole.project]
    exact ⟨fun h => ⟨h, hp⟩, fun h => h.1⟩

/-- **C54, keypoint to ray to keypoint.** If distort undoes undistort at the keypoint's place on the image plane, the ray
of the keypoint lies in front of the camera and projects back to the keypoint; the projection is valid exactly if the
keypoint lies in the image. -/
theorem C54_keypoint {n : ℕ} (c : Frame n) (hu : c.fu ≠ 0) (hv : c.fv ≠ 0) (k u : V2)
    (h1 : c.D.undistort ![(k 0 - c.cu) / c.fu, (k 1 - c.cv) / c.fv] = some u)
    (h2 : c.D.distort u = ![(k 0 - c.cu) / c.fu, (k 1 - c.cv) / c.fv]) :
    ∃ p, (Pinhole.backproject c k).1 = some p ∧ 0 < p 2 ∧ (Pinhole.project c p).1 = some k ∧
      ((Pinhole.project c p).2 ↔ 0 ≤ k 0 ∧ k 0 < c.ru ∧ 0 ≤ k 1 ∧ k 1 < c.rv) ∧
      ((Pinhole.backproject c k).2 ↔ (Pinhole.project c p).2) := by
  have hl : Pinhole.lift c k = ![(k 0 - c.cu) / c.fu, (k 1 - c.cv) / c.fv] := rfl
  have hpl : Pinhole.plane ![u 0, u 1, 1] = u := by apply v2ext <;> simp [Pinhole.plane]
  have hk : c.toPixel (c.D.distort (Pinhole.plane ![u 0, u 1, 1])) = k := by
    rw [hpl, h2, ← hl, toPixel_lift c hu hv]
  refine ⟨![u 0, u 1, 1], ?_, by simp, ?_, ?_, ?_⟩
  · simp only [Pinhole.backproject, hl, h1, Option.map_some]
  · simp only [Pinhole.project, hk]
  · simp only [Pinhole.project, hk]; simp [Frame.isValid]
  · simp only [Pinhole.project, Pinhole.backproject, hk]; simp

/-- **C54 without distortion** needs no hypothesis on the distortion. -/
theorem C54_no_distortion (c : Frame 0) (hc : c.D = noDistortion) (hu : c.fu ≠ 0) (hv : c.fv ≠ 0) :
    (∀ p : V3, 0 < p 2 → ∃ k, (Pinhole.project c p).1 = some k ∧
      (Pinhole.backproject c k).1 = some ((1 / p 2) • p)) ∧
    (∀ k, ∃ p, (Pinhole.backproject c k).1 = some p ∧ (Pinhole.project c p).1 = some k) := by
  constructor
  · intro p hp
    obtain ⟨k, h1, h2, _⟩ := C54_ray c hu hv p hp (by simp [hc, noDistortion])
    exact ⟨k, h1, h2⟩
  · intro k
    obtain ⟨p, h1, _, h2, _⟩ := C54_keypoint c hu hv k _ (by simp only [hc, noDistortion]; rfl)
      (by simp only [hc, noDistortion])
    exact ⟨p, h1, h2⟩

/-- **C54 with the field-of-view distortion:** every point in front of the camera whose distorted angle is between the
small disc around the centre and 89 degrees. -/
theorem C54_fov (c : Frame 1) (w : ℝ) (hc : c.D = fov w) (h1 : 1 / 2 ≤ w) (h2 : w ≤ 3 / 2) (hu : c.fu ≠ 0)
    (hv : c.fv ≠ 0) (p : V3) (hp : 0 < p 2) (hr : 1 / 10 ^ 5 ≤ (p 0 / p 2) ^ 2 + (p 1 / p 2) ^ 2)
    (ha : arctan (2 * tan (w / 2) * √((p 0 / p 2) ^ 2 + (p 1 / p 2) ^ 2)) ≤ 89 * π / 180) :
    ∃ k, (Pinhole.project c p).1 = some k ∧ (Pinhole.backproject c k).1 = some ((1 / p 2) • p) := by
  have hn : √((p 0 / p 2) ^ 2 + (p 1 / p 2) ^ 2) = norm2 ![p 0 / p 2, p 1 / p 2] := by simp [norm2, sq]
  rw [hn] at ha
  obtain ⟨k, h1, h2, _⟩ := C54_ray c hu hv p hp (by
    simp only [hc, fov]
    rw [fov_undistort_distort h1 h2 ?_ ha]
    rw [← sq, norm2_sq]; simpa [sq] using hr)
  exact ⟨k, h1, h2⟩

/-- **C54 fails with the equidistant distortion at the principal point:** the ray of the principal point is not a
number. -/
theorem C54_equidistant_counterexample (k : V4) (c : Frame 4) (hc : c.D = equidistant k) :
    (Pinhole.project c ![0, 0, 1]).1 = some ![c.cu, c.cv] ∧
      (Pinhole.backproject c ![c.cu, c.cv]).1 = none := by
  have h := C60_equidistant_centre_counterexample k
  have hz : Pinhole.plane ![0, 0, 1] = 0 := by apply v2ext <;> simp [Pinhole.plane]
  have hl : Pinhole.lift c ![c.cu, c.cv] = 0 := by apply v2ext <;> simp [Pinhole.lift]
  refine ⟨?_, ?_⟩
  · simp only [Pinhole.project, hz, hc, h.1]
    congr 1; apply v2ext <;> simp [Frame.toPixel]
  · simp only [Pinhole.backproject, hl, hc, h.2]; rfl

example : ∃ k, (Pinhole.project ⟨400, 410, 320, 240, 640, 480, noDistortion⟩ ![1, 2, 4]).1 = some k ∧
    (Pinhole.backproject ⟨400, 410, 320, 240, 640, 480, noDistortion⟩ k).1 = some ((1 / 4 : ℝ) • ![1, 2, 4]) := by
  have := (C54_no_distortion ⟨400, 410, 320, 240, 640, 480, noDistortion⟩ rfl (by norm_num) (by norm_num)).1
    ![1, 2, 4] (by simp)
  simpa using this

/-! ### Jacobians -/

theorem grad_plane (p : V3) (h : p 2 ≠ 0) (i : Fin 2) :
    GradAt (fun q => Pinhole.plane q i) (fun j => (!![1 / p 2, 0, -p 0 * (1 / p 2) ^ 2; 0, 1 / p 2, -p 1 * (1 / p 2) ^ 2]
      : Matrix (Fin 2) (Fin 3) ℝ) i j) p := by
  have c (i : Fin 3) := gradAt_coord (x := p) i
  fin_cases i
  · refine ((c 0).mul ((c 2).inv h)).congr ?_
    funext j; fin_cases j <;> simp
  · refine ((c 1).mul ((c 2).inv h)).congr ?_
    funext j; fin_cases j <;> simp

theorem jac_toPixel {n m : ℕ} (c : Frame n) {g : (Fin m → ℝ) → V2} {J : Matrix (Fin 2) (Fin m) ℝ} {x : Fin m → ℝ}
    (h : IsJacobianAt g J x) :
    IsJacobianAt (fun z => c.toPixel (g z)) (Matrix.of fun i j => ![c.fu, c.fv] i * J i j) x := by
  rw [isJacobianAt_iff] at h ⊢
  intro i
  fin_cases i
  · refine (((gradAt_const c.fu).mul (h 0)).add (gradAt_const c.cu)).congr ?_
    funext j; simp
  · refine (((gradAt_const c.fv).mul (h 1)).add (gradAt_const c.cv)).congr ?_
    funext j; simp

/-- **C55, pinhole, point.** For every point off the camera's principal plane, the Jacobian returned with the projection
is the derivative of the keypoint, if the distortion's Jacobian is the derivative of the distortion there. -/
theorem C55_pinhole_point {n : ℕ} (c : Frame n) (p : V3) (hp : p 2 ≠ 0)
    (hD : PointJacobianCorrect c.D ![p 0 / p 2, p 1 / p 2]) :
    ∃ J, Pinhole.projectJ c p = some J ∧ IsPartialJacobianAt (fun q => (Pinhole.project c q).1) J p := by
  have hpl : Pinhole.plane p = ![p 0 / p 2, p 1 / p 2] := by
    apply v2ext <;> simp [Pinhole.plane] <;> field_simp
  obtain ⟨Jd, h1, h2⟩ := hD
  rw [← hpl] at h1 h2
  have hc := h2.comp (isJacobianAt_iff.2 (grad_plane p hp))
  refine ⟨_, by simp only [Pinhole.projectJ, h1, Option.map_some]; rfl, _, Filter.Eventually.of_forall fun q => rfl, ?_⟩
  convert jac_toPixel c hc using 1
  ext i j
  fin_cases i <;> fin_cases j <;> simp [Matrix.mul_apply, Fin.sum_univ_two] <;> ring

/-- **C55, pinhole, intrinsics.** The intrinsics Jacobian is the derivative of the keypoint with respect to the update
vector (fu, fv, cu, cv). -/
theorem C55_pinhole_intrinsics {n : ℕ} (c : Frame n) (p : V3) :
    IsPartialJacobianAt (fun v => (Pinhole.project (Pinhole.update c v) p).1) (Pinhole.intrinsicsJ c p) 0 := by
  refine ⟨_, Filter.Eventually.of_forall fun v => rfl, isJacobianAt_iff.2 fun i => ?_⟩
  have co (i : Fin 4) := gradAt_coord (x := (0 : V4)) i
  have K (c : ℝ) := gradAt_const (x := (0 : V4)) c
  fin_cases i
  · refine ((((K c.fu).add (co 0)).mul (K (c.D.distort (Pinhole.plane p) 0))).add ((K c.cu).add (co 2))).congr ?_
    funext j; fin_cases j <;> simp [Pinhole.intrinsicsJ]
  · refine ((((K c.fv).add (co 1)).mul (K (c.D.distort (Pinhole.plane p) 1))).add ((K c.cv).add (co 3))).congr ?_
    funext j; fin_cases j <;> simp [Pinhole.intrinsicsJ]

/-- **C55, pinhole, distortion parameters.** If the distortion's parameter Jacobian is right, so is the camera's. -/
theorem C55_pinhole_distortion {n : ℕ} (c : Frame n) (F : (Fin n → ℝ) → Distortion n) (k : Fin n → ℝ)
    (hc : c.D = F k) (p : V3) (hD : ParamJacobianCorrect F k (Pinhole.plane p)) :
    ∃ J, Pinhole.distortionJ c p = some J ∧
      IsPartialJacobianAt (fun k' => (Pinhole.project { c with D := F k' } p).1) J k := by
  obtain ⟨J, h1, h2⟩ := hD
  refine ⟨_, by simp only [Pinhole.distortionJ, hc, h1, Option.map_some]; rfl, _,
    Filter.Eventually.of_forall fun q => rfl, ?_⟩
  exact jac_toPixel c h2

/-- All three Jacobians of a pinhole camera with radial-tangential distortion are right. -/
example (k : V4) : ∃ J, Pinhole.projectJ ⟨400, 410, 320, 240, 640, 480, radtan k⟩ ![1, 2, 4] = some J ∧
    IsPartialJacobianAt (fun q => (Pinhole.project ⟨400, 410, 320, 240, 640, 480, radtan k⟩ q).1) J ![1, 2, 4] :=
  C55_pinhole_point _ _ (by simp) (C55_radtan_point k _)

example (k : V4) : ∃ J, Pinhole.distortionJ ⟨400, 410, 320, 240, 640, 480, radtan k⟩ ![1, 2, 4] = some J ∧
    IsPartialJacobianAt (fun k' => (Pinhole.project ⟨400, 410, 320, 240, 640, 480, radtan k'⟩ ![1, 2, 4]).1) J k :=
  C55_pinhole_distortion ⟨400, 410, 320, 240, 640, 480, radtan k⟩ radtan k rfl _ (C55_radtan_parameters k _)

theorem jac_lift {n : ℕ} (c : Frame n) (k : V2) :
    IsJacobianAt (fun q => Pinhole.lift c q) (!![1 / c.fu, 0; 0, 1 / c.fv] : M2) k := by
  refine isJacobianAt_iff.2 fun i => ?_
  have co (i : Fin 2) := gradAt_coord (x := k) i
  have K (c : ℝ) := gradAt_const (x := k) c
  fin_cases i
  · have := ((co 0).sub (K c.cu)).mul (K (1 / c.fu))
    simp only [← div_eq_mul_one_div] at this
    refine this.congr ?_
    funext j; fin_cases j <;> simp
  · have := ((co 1).sub (K c.cv)).mul (K (1 / c.fv))
    simp only [← div_eq_mul_one_div] at this
    refine this.congr ?_
    funext j; fin_cases j <;> simp

theorem cont_lift {n : ℕ} (c : Frame n) : Continuous (fun q => Pinhole.lift c q) := by
  unfold Pinhole.lift
  refine continuous_pi fun i => ?_
  fin_cases i <;> simp <;> fun_prop

theorem IsPartialJacobianAt.unique {n m : ℕ} {f : (Fin n → ℝ) → Option (Fin m → ℝ)} {J K : Matrix (Fin m) (Fin n) ℝ}
    {x : Fin n → ℝ} (hJ : IsPartialJacobianAt f J x) (hK : IsPartialJacobianAt f K x) : J = K := by
  obtain ⟨g, hg, hJ⟩ := hJ
  obtain ⟨h, hh, hK⟩ := hK
  refine hJ.unique (hK.congr_of_eventuallyEq ?_)
  filter_upwards [hg, hh] with z h1 h2
  exact Option.some.inj (h1.symm.trans h2)

/-- The derivative of the ray of a keypoint: the Jacobian of undistort times diag(1/fu, 1/fv), and a zero row. -/
theorem ray_jacobian {n : ℕ} (c : Frame n) (k : V2) (J : M2)
    (hD : IsPartialJacobianAt c.D.undistort J (Pinhole.lift c k)) :
    IsPartialJacobianAt (fun q => (Pinhole.backproject c q).1)
      (!![J 0 0 * (1 / c.fu), J 0 1 * (1 / c.fv); J 1 0 * (1 / c.fu), J 1 1 * (1 / c.fv); 0, 0]) k := by
  obtain ⟨g, hg, h2⟩ := hD
  refine ⟨fun q => ![g (Pinhole.lift c q) 0, g (Pinhole.lift c q) 1, 1], ?_, ?_⟩
  · filter_upwards [(cont_lift c).continuousAt.eventually hg] with q hq
    simp only [Pinhole.backproject, hq, Option.map_some]
  · have hc := isJacobianAt_iff.1 (h2.comp (jac_lift c k))
    refine isJacobianAt_iff.2 fun i => ?_
    fin_cases i
    · refine (hc 0).congr ?_
      funext j; fin_cases j <;> simp [Matrix.mul_apply, Fin.sum_univ_two]
    · refine (hc 1).congr ?_
      funext j; fin_cases j <;> simp [Matrix.mul_apply, Fin.sum_univ_two]
    · refine (gradAt_const 1).congr ?_
      funext j; fin_cases j <;> simp

/-- **C55, pinhole, back-projection.** With equal focal lengths the Jacobian returned by keypointToEuclidean is the
derivative of the ray, if the Jacobian of undistort is right. -/
theorem C55_pinhole_ray_partial {n : ℕ} (c : Frame n) (hf : c.fu = c.fv) (k u : V2) (J : M2)
    (h1 : c.D.undistortJ (Pinhole.lift c k) = some (u, J))
    (h2 : IsPartialJacobianAt c.D.undistort J (Pinhole.lift c k)) :
    ∃ J, Pinhole.backprojectJ c k = some J ∧ IsPartialJacobianAt (fun q => (Pinhole.backproject c q).1) J k := by
  refine ⟨_, by simp only [Pinhole.backprojectJ, h1, Option.map_some]; rfl, ?_⟩
  convert ray_jacobian c k J h2 using 1
  ext i j
  fin_cases i <;> fin_cases j <;> simp [Matrix.mul_apply, Fin.sum_univ_two, hf, mul_comm]

/-- **C55 fails for the pinhole back-projection when the focal lengths differ:** the Jacobian is then not the derivative
of the ray wherever the (correct) Jacobian of undistort is not diagonal. -/
theorem C55_pinhole_ray_counterexample {n : ℕ} (c : Frame n) (hu : c.fu ≠ 0) (hv : c.fv ≠ 0) (hf : c.fu ≠ c.fv)
    (k u : V2) (J : M2) (h1 : c.D.undistortJ (Pinhole.lift c k) = some (u, J))
    (h2 : IsPartialJacobianAt c.D.undistort J (Pinhole.lift c k)) (h3 : J 0 1 ≠ 0) :
    ∃ K, Pinhole.backprojectJ c k = some K ∧ ¬ IsPartialJacobianAt (fun q => (Pinhole.backproject c q).1) K k := by
  refine ⟨_, by simp only [Pinhole.backprojectJ, h1, Option.map_some]; rfl, fun h => ?_⟩
  have := congrFun (congrFun (h.unique (ray_jacobian c k J h2)) 0) 1
  simp [Matrix.mul_apply, Fin.sum_univ_two] at this
  field_simp at this
  exact hf this.symm

/-- A distortion that shears the image plane, used to show that the hypotheses above can be met. -/
noncomputable def shear : Distortion 0 where
  distort := fun y => ![y 0 - y 1, y 1]
  distortJ := fun _ => some !![1, -1; 0, 1]
  undistort := fun y => some ![y 0 + y 1, y 1]
  undistortJ := fun y => some (![y 0 + y 1, y 1], !![1, 1; 0, 1])
  paramJ := fun _ => some (Matrix.of fun _ j => j.elim0)

theorem shear_jac (y : V2) : IsPartialJacobianAt shear.undistort !![1, 1; 0, 1] y := by
  refine ⟨fun y => ![y 0 + y 1, y 1], Filter.Eventually.of_forall fun z => rfl, isJacobianAt_iff.2 fun i => ?_⟩
  fin_cases i
  · refine ((gradAt_coord (x := y) 0).add (gradAt_coord 1)).congr ?_
    funext j; fin_cases j <;> simp
  · refine (gradAt_coord (x := y) 1).congr ?_
    funext j; fin_cases j <;> simp

example : ∃ K, Pinhole.backprojectJ ⟨400, 410, 320, 240, 640, 480, shear⟩ ![100, 100] = some K ∧
    ¬ IsPartialJacobianAt (fun q => (Pinhole.backproject ⟨400, 410, 320, 240, 640, 480, shear⟩ q).1) K ![100, 100] :=
  C55_pinhole_ray_counterexample _ (by norm_num) (by norm_num) (by norm_num) _ _ _ rfl (shear_jac _) (by simp)

example : ∃ K, Pinhole.backprojectJ ⟨400, 400, 320, 240, 640, 480, shear⟩ ![100, 100] = some K ∧
    IsPartialJacobianAt (fun q => (Pinhole.backproject ⟨400, 400, 320, 240, 640, 480, shear⟩ q).1) K ![100, 100] :=
  C55_pinhole_ray_partial _ rfl _ _ _ rfl (shear_jac _)

/-! ### Homogeneous points -/

theorem head3_neg (ph : V4) : head3 (-ph) = -head3 ph := by
  apply v3ext <;> simp [head3]

/-- **C56, pinhole.** A homogeneous point with non-zero scale and its negation project to the same keypoint with the same
validity flag, namely those of the point divided by its scale. -/
theorem C56_pinhole_partial {n : ℕ} (c : Frame n) (ph : V4) (h : ph 3 ≠ 0) :
    Pinhole.projectH c (-ph) = Pinhole.projectH c ph ∧
      (Pinhole.projectH c ph).1 = (Pinhole.project c ((1 / ph 3) • head3 ph)).1 ∧
      ((Pinhole.projectH c ph).2 ↔ (Pinhole.project c ((1 / ph 3) • head3 ph)).2) := by
  have hpl : Pinhole.plane ((1 / ph 3) • head3 ph) = Pinhole.plane (head3 ph) := by
    apply v2ext <;> simp [Pinhole.plane] <;> field_simp
  have hpn : Pinhole.plane (-head3 ph) = Pinhole.plane (head3 ph) := by
    apply v2ext <;> simp [Pinhole.plane]
  simp only [Pinhole.projectH, head3_neg, neg_neg, Pi.neg_apply]
  rcases lt_or_gt_of_ne h with h | h
  · rw [if_neg (by linarith), if_pos h]
    refine ⟨rfl, ?_, ?_⟩
    · simp only [Pinhole.project, hpl, hpn]
    · simp only [Pinhole.project, hpl, hpn]
      refine and_congr Iff.rfl ?_
      have h' : 1 / ph 3 < 0 := one_div_neg.2 h
      simp only [Pi.neg_apply, Pi.smul_apply, smul_eq_mul, gt_iff_lt]
      constructor
      · intro hh; nlinarith
      · intro hh; nlinarith
  · rw [if_pos (by linarith), if_neg (by linarith)]
    refine ⟨rfl, ?_, ?_⟩
    · simp only [Pinhole.project, hpl]
    · simp only [Pinhole.project, hpl]
      refine and_congr Iff.rfl ?_
      have h' : 0 < 1 / ph 3 := by positivity
      simp only [Pi.smul_apply, smul_eq_mul, gt_iff_lt]
      constructor
      · intro hh; positivity
      · intro hh; exact (mul_pos_iff_of_pos_left h').1 hh

/-- **C56 fails for points at infinity:** (0, 0, 1, 0) is in the image and its negation is not. -/
theorem C56_infinity_counterexample : ∃ (c : Frame 0) (ph : V4),
    (Pinhole.projectH c ph).2 ∧ ¬ (Pinhole.projectH c (-ph)).2 := by
  refine ⟨⟨400, 410, 320, 240, 640, 480, noDistortion⟩, ![0, 0, 1, 0], ?_, ?_⟩
  · simp [Pinhole.projectH, Pinhole.project, Frame.isValid, Frame.toPixel, Pinhole.plane, noDistortion, head3]
    norm_num
  · simp [Pinhole.projectH, Pinhole.project, Frame.isValid, Frame.toPixel, Pinhole.plane, noDistortion, head3]

/-- **C56 fails for the pinhole overload that also returns the Jacobian:** for a point with negative scale the two
overloads disagree, and a point and its negation disagree. -/
theorem C56_pinhole_jacobian_counterexample : ∃ (c : Frame 0) (ph : V4), ph 3 < 0 ∧
    (Pinhole.projectH c ph).2 ∧ ¬ (Pinhole.projectHJ c ph).2 ∧ (Pinhole.projectHJ c (-ph)).2 := by
  refine ⟨⟨400, 410, 320, 240, 640, 480, noDistortion⟩, ![0, 0, -1, -1], by simp, ?_, ?_, ?_⟩
  · simp [Pinhole.projectH, Pinhole.project, Frame.isValid, Frame.toPixel, Pinhole.plane, noDistortion, head3]
    norm_num
  · simp [Pinhole.projectHJ, Pinhole.project, head3]
  · simp [Pinhole.projectHJ, Pinhole.project, Frame.isValid, Frame.toPixel, Pinhole.plane, noDistortion, head3]
    norm_num

/-- **C56, pinhole, Jacobian overload.** With positive scale the two overloads agree; the keypoint agrees for every
non-zero scale. -/
theorem C56_pinhole_jacobian_partial {n : ℕ} (c : Frame n) (ph : V4) :
    (0 ≤ ph 3 → Pinhole.projectHJ c ph = Pinhole.projectH c ph) ∧
      (Pinhole.projectHJ c ph).1 = (Pinhole.projectH c ph).1 := by
  have hpn : Pinhole.plane (-head3 ph) = Pinhole.plane (head3 ph) := by
    apply v2ext <;> simp [Pinhole.plane]
  refine ⟨fun h => ?_, ?_⟩
  · simp only [Pinhole.projectHJ, Pinhole.projectH]; rw [if_neg (by linarith)]
  · simp only [Pinhole.projectHJ, Pinhole.projectH]
    split_ifs
    · simp only [Pinhole.project, hpn]
    · rfl

example : Pinhole.projectH ⟨400, 410, 320, 240, 640, 480, noDistortion⟩ (-![1, 2, 4, -2])
    = Pinhole.projectH ⟨400, 410, 320, 240, 640, 480, noDistortion⟩ ![1, 2, 4, -2] :=
  (C56_pinhole_partial _ _ (by simp)).1

end Kalibr.Camera
