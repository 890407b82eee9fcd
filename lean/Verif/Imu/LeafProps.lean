import Verif.Imu.Leaves
import Verif.Pose.Nodes
import Verif.Expr.Props

/-! # Splines in expressions: the leaves are honest and their Jacobians are right -/

namespace Kalibr.Imu

open Kalibr.Kin Kalibr.BSpline Kalibr.Exp Kalibr.Pose Matrix Finset

variable {D : ℕ}

theorem mapped_wf {s : Spline ℝ D} (w : WellFormed s) (b : ℕ) (a : Vecs) : WellFormed (mapped s b a) where
  order_ge := w.order_ge
  enough := w.enough
  count := by
    have := w.count
    simpa [mapped] using this
  basis_eq := w.basis_eq
  sorted := w.sorted

theorem mapped_getD (s : Spline ℝ D) (b : ℕ) (a : Vecs) {i : ℕ} (h : i < s.coeffs.length) :
    (mapped s b a).coeffs.getD i 0 = a (b + i) D := by
  simp [mapped, List.getD_eq_getElem?_getD, h]

/-- The value of the spline depends on the coefficients that take part only. -/
theorem evalD_congr {s : Spline ℝ D} (w : WellFormed s) {t : ℝ} {q : ℝ × ℕ} (hq : computeTIndex s t = .ok q) (b : ℕ)
    {a a' : Vecs} (h : ∀ c < s.order, a (b + (q.2 + 1 - s.order + c)) D = a' (b + (q.2 + 1 - s.order + c)) D) (n : ℕ) :
    evalD (mapped s b a) t n = evalD (mapped s b a') t n := by
  obtain ⟨_, h1, h2, h3, _⟩ := computeTIndex_ok w hq
  have hn := w.enough; have hk := w.order_ge; have hc := w.count
  rw [evalD_of (mapped_wf w b a) (t := t) (p := q) hq, evalD_of (mapped_wf w b a') (t := t) (p := q) hq]
  congr 1
  funext e
  refine sum_congr rfl fun c hcm => ?_
  have hlt : c < s.order := Finset.mem_range.mp hcm
  show (mapped s b a).coeffs.getD (q.2 + 1 - s.order + c) 0 e * _ = (mapped s b a').coeffs.getD (q.2 + 1 - s.order + c) 0 e * _
  rw [mapped_getD s b a (by omega), mapped_getD s b a' (by omega), h c hlt]
  rfl

theorem activeVariables_of {P : PoseSpline} (w : WellFormed P.spline) {t : ℝ} {q : ℝ × ℕ}
    (hq : computeTIndex P.spline t = .ok q) :
    activeVariables P t = .ok ((List.range P.spline.order).map (q.2 + 1 - P.spline.order + ·)) := by
  rw [activeVariables, firstIndex_of w hq]; rfl

theorem activeCoefficients_of {s : Spline ℝ D} (w : WellFormed s) {t : ℝ} {q : ℝ × ℕ}
    (hq : computeTIndex s t = .ok q) :
    activeCoefficients s t = .ok ((List.range s.order).map (q.2 + 1 - s.order + ·)) := by
  obtain ⟨_, h1, h2, h3, _⟩ := computeTIndex_ok w hq
  have hk := w.order_ge
  rw [activeCoefficients, hq]
  simp only [Out.ok_bind]
  rw [if_neg (by omega)]
  rfl

/-! ## Leaves on a pose spline -/

/-- Which design variables the blocks of a node are for. -/
theorem addBlocks_vars {m k : ℕ} (A : Matrix (Fin k) (Fin m) ℝ) (l : List ℕ) (J : Blocks m) :
    (addBlocks A l J).map Prod.fst = l := by
  unfold addBlocks
  rw [List.map_map]
  show l.zipIdx.map Prod.fst = l
  simp

theorem poseLeaf_honest {k : Kind} {P : PoseSpline} (w : WellFormed P.spline) {t : ℝ} {q : ℝ × ℕ}
    (hq : computeTIndex P.spline t = .ok q) (b : ℕ) (d : Val k) {value : PoseSpline → Out (Val k)}
    {node : PoseSpline → Out (List (DvBlock (tdim k)))}
    (hv : ∀ Q Q' : PoseSpline, Q.rot = Q'.rot → (∀ n, evalD Q.spline t n = evalD Q'.spline t n) → value Q = value Q')
    (hn : ∀ Q : PoseSpline, WellFormed Q.spline → computeTIndex Q.spline t = .ok q →
      ∃ bs, node Q = .ok bs ∧ activeVariables Q t = .ok (bs.map Prod.fst)) :
    (poseLeaf P b t d value node).Honest := by
  have hav := activeVariables_of w hq
  constructor
  · intro a a' h
    show orElse (value _) d = orElse (value _) d
    rw [hv (mappedPose P b a) (mappedPose P b a') rfl]
    intro n
    refine evalD_congr w hq b (fun c hc => h _ _ ?_) n
    show _ ∈ (orElse (activeVariables P t) []).map _
    rw [hav]
    simp only [orElse, List.mem_map, List.mem_range]
    exact ⟨_, ⟨c, hc, rfl⟩, rfl⟩
  · intro a x
    obtain ⟨bs, h1, h2⟩ := hn (mappedPose P b a) (mapped_wf w b a) hq
    have h3 : activeVariables P t = .ok (bs.map Prod.fst) := h2
    show x ∈ ((orElse (node _) []).map _).map _ ↔ x ∈ (orElse (activeVariables P t) []).map _
    rw [h1, h3]
    simp only [orElse, List.map_map]
    rfl

theorem mappedPose_perturb (P : PoseSpline) (b : ℕ) (a : Vecs) (δ : Incr) (s : ℝ) :
    mappedPose P b (fun i n => a i n + s • δ (.vec i n)) = (mappedPose P b a).perturb (fun i => δ (.vec (b + i) 6)) s := by
  unfold mappedPose mapped PoseSpline.perturb
  congr 2
  apply List.ext_getElem
  · simp
  · intro j h1 h2
    simp only [List.getElem_map, List.getElem_mapIdx]
    let g : ℕ → V6 := fun i => a (b + i) 6 + s • δ (.vec (b + i) 6)
    have hj : j < P.spline.coeffs.length := by simpa using h1
    have e : (List.range P.spline.coeffs.length)[j]'(by simpa using hj) = j := List.getElem_range _
    have h : g ((List.range P.spline.coeffs.length)[j]'(by simpa using hj)) = g j := by rw [e]
    have h' : a (b + (List.range P.spline.coeffs.length)[j]'(by simpa using hj)) 6 = a (b + j) 6 := by rw [e]
    exact h.trans (by rw [h'])

theorem lin_leaf {k : ℕ} (bs : List (DvBlock k)) (b : ℕ) (δ : Incr) :
    lin (bs.map fun x => (⟨.vec (b + x.1) 6, x.2⟩ : Block k)) δ = announced bs fun i => δ (.vec (b + i) 6) := by
  unfold lin announced
  rw [List.map_map]
  rfl

theorem poseLeaf_correct {k : Kind} {P : PoseSpline} (b : ℕ) (t : ℝ) (d : Val k)
    {value : PoseSpline → Out (Val k)} {node : PoseSpline → Out (List (DvBlock (tdim k)))} {a : Vecs}
    (hs : Shape k (orElse (value (mappedPose P b a)) d))
    (h : ∃ bs, node (mappedPose P b a) = .ok bs ∧ RightBlocks value (Moves k) (mappedPose P b a) 1 bs) :
    (poseLeaf P b t d value node).Correct a := by
  obtain ⟨bs, h1, h2⟩ := h
  refine ⟨hs, fun δ => ?_⟩
  obtain ⟨f, ξ, h3, h4, h5⟩ := h2 fun i => δ (.vec (b + i) 6)
  have e1 : (fun s => (poseLeaf P b t d value node).value fun i n => a i n + s • δ (.vec i n)) = f := by
    funext s
    show orElse (value (mappedPose P b _)) d = _
    rw [mappedPose_perturb, h3]
    rfl
  rw [e1]
  show Moves k f (lin ((orElse (node _) []).map _) δ)
  rw [h1]
  have e2 := lin_leaf bs b δ
  rw [h5, Matrix.one_mulVec] at e2
  show Moves k f (lin (bs.map _) δ)
  rw [e2]
  exact h4

section
variable {P : PoseSpline} (w : WellFormed P.spline) {t : ℝ} {q : ℝ × ℕ} (hq : computeTIndex P.spline t = .ok q) (b : ℕ)
include w hq

theorem transformation_honest : (transformationLeaf P b t).Honest := by
  refine poseLeaf_honest w hq b _ (fun Q Q' hr he => ?_) fun Q hw hQ => ?_
  · simp only [Pose.transformation, he, curveValueToTransformation, hr]
  · obtain ⟨W, v, h1, h2, h3, h4⟩ := core hw hQ
    refine ⟨_, by rw [transformationNode, activeVariables_of hw hQ, transformationAndJacobian, h2]; rfl, ?_⟩
    rw [addBlocks_vars]; exact activeVariables_of hw hQ

theorem orientation_honest : (orientationLeaf P b t).Honest := by
  refine poseLeaf_honest w hq b _ (fun Q Q' hr he => ?_) fun Q hw hQ => ?_
  · simp only [Pose.orientation, he, hr]
  · obtain ⟨W, v, h1, h2, h3, h4⟩ := core hw hQ
    refine ⟨_, by rw [orientationNode, activeVariables_of hw hQ, orientationAndJacobian, h2]; rfl, ?_⟩
    rw [addBlocks_vars]; exact activeVariables_of hw hQ

theorem head_honest (n : ℕ) {value : PoseSpline → Out V3}
    (hv : ∀ Q, value Q = do let v ← evalD Q.spline t n; return head v) :
    (poseLeaf (k := .euc) P b t 0 value (positionNode · t n 1)).Honest := by
  refine poseLeaf_honest w hq b _ (fun Q Q' hr he => ?_) fun Q hw hQ => ?_
  · rw [hv, hv, he]
  · obtain ⟨W, v, h1, h2, h3, h4⟩ := core hw hQ
    refine ⟨_, by rw [positionNode, activeVariables_of hw hQ, h2]; rfl, ?_⟩
    rw [addBlocks_vars]; exact activeVariables_of hw hQ

theorem position_honest : (positionLeaf P b t).Honest := head_honest w hq b 0 fun _ => rfl
theorem velocity_honest : (velocityLeaf P b t).Honest := head_honest w hq b 1 fun _ => rfl
theorem acceleration_honest : (accelerationLeaf P b t).Honest := head_honest w hq b 2 fun _ => rfl

theorem body_honest (n : ℕ) {value : PoseSpline → Out V3}
    (hv : ∀ Q, value Q = do
      let r ← evalD Q.spline t 0
      let v ← evalD Q.spline t n
      return (-(Q.rot.toR (tail r))ᵀ * Q.rot.S (tail r)).mulVec (tail v)) :
    (poseLeaf (k := .euc) P b t 0 value (bodyRateNode · t n 1)).Honest := by
  refine poseLeaf_honest w hq b _ (fun Q Q' hr he => ?_) fun Q hw hQ => ?_
  · rw [hv, hv, he, he, hr]
  · obtain ⟨W, v, h1, h2, h3, h4⟩ := core hw hQ
    refine ⟨_, by rw [bodyRateNode, activeVariables_of hw hQ, bodyRateAndJacobian, h2]; simp only [Out.ok_bind]; rw [h2, inverseOrientationAndJacobian, h2]; rfl, ?_⟩
    rw [addBlocks_vars]; exact activeVariables_of hw hQ

theorem angularVelocity_honest : (angularVelocityLeaf P b t).Honest := body_honest w hq b 1 fun _ => rfl
theorem angularAcceleration_honest : (angularAccelerationLeaf P b t).Honest := body_honest w hq b 2 fun _ => rfl

omit hq
variable {a : Vecs} {p : V6} (hp : evalD (mapped P.spline b a) t 0 = .ok p)
include hp

theorem transformation_correct (hs : Supported P.rot (tail p)) : (transformationLeaf P b t).Correct a := by
  refine poseLeaf_correct b t _ ?_ (C100_transformation (P := mappedPose P b a) (mapped_wf w b a) hp hs 1)
  show Rigid _
  rw [show Pose.transformation (mappedPose P b a) t = .ok (curveValueToTransformation P p) by
    rw [Pose.transformation, show evalD (mappedPose P b a).spline t 0 = .ok p from hp]; rfl]
  exact ⟨_, hs.so3 _, _, rfl⟩

theorem orientation_correct (hs : Supported P.rot (tail p)) : (orientationLeaf P b t).Correct a := by
  refine poseLeaf_correct b t _ ?_ (C100_orientation (P := mappedPose P b a) (mapped_wf w b a) hp hs 1)
  show orElse _ _ ∈ SO3
  rw [show Pose.orientation (mappedPose P b a) t = .ok (P.rot.toR (tail p)) by
    rw [Pose.orientation, show evalD (mappedPose P b a).spline t 0 = .ok p from hp]; rfl]
  exact hs.so3 _

theorem position_correct : (positionLeaf P b t).Correct a :=
  poseLeaf_correct b t _ trivial (C100_position_velocity_acceleration (P := mappedPose P b a) (mapped_wf w b a) hp 1).1

theorem velocity_correct : (velocityLeaf P b t).Correct a :=
  poseLeaf_correct b t _ trivial (C100_position_velocity_acceleration (P := mappedPose P b a) (mapped_wf w b a) hp 1).2.1

theorem acceleration_correct : (accelerationLeaf P b t).Correct a :=
  poseLeaf_correct b t _ trivial (C100_position_velocity_acceleration (P := mappedPose P b a) (mapped_wf w b a) hp 1).2.2

theorem angularVelocity_correct (hs : Supported P.rot (tail p)) : (angularVelocityLeaf P b t).Correct a :=
  poseLeaf_correct b t _ trivial (C100_body_rates (P := mappedPose P b a) (mapped_wf w b a) hp hs 1).1

theorem angularAcceleration_correct (hs : Supported P.rot (tail p)) : (angularAccelerationLeaf P b t).Correct a :=
  poseLeaf_correct b t _ trivial (C100_body_rates (P := mappedPose P b a) (mapped_wf w b a) hp hs 1).2

end

/-! ## Leaves on a spline of points -/

theorem point_core {s : Spline ℝ D} (w : WellFormed s) {t : ℝ} {q : ℝ × ℕ} (hq : computeTIndex s t = .ok q) (b n : ℕ) :
    ∃ W : ℕ → ℝ, ∀ a : Vecs,
      evalD (mapped s b a) t n = .ok (∑ c ∈ range s.order, W c • a (b + (q.2 + 1 - s.order + c)) D) ∧
      evalAndBlocks (mapped s b a) t n = .ok (∑ c ∈ range s.order, W c • a (b + (q.2 + 1 - s.order + c)) D,
        fun c => W c • 1, q.2 + 1 - s.order) := by
  obtain ⟨_, h1, h2, h3, _⟩ := computeTIndex_ok w hq
  have hn := w.enough; have hk := w.order_ge; have hc := w.count
  refine ⟨weights s.order (basisM (knotAt s.knots) s.order q.2)
      (computeU (knotAt s.knots) s.order (normTime s t q.2) q.2 n), fun a => ?_⟩
  have hw := mapped_wf w b a
  have hq' : computeTIndex (mapped s b a) t = .ok q := hq
  have e : (fun e => ∑ c ∈ range (mapped s b a).order, ((mapped s b a).coeffs.getD (q.2 + 1 - (mapped s b a).order + c) 0) e *
      weights (mapped s b a).order (basisM (knotAt (mapped s b a).knots) (mapped s b a).order q.2)
      (computeU (knotAt (mapped s b a).knots) (mapped s b a).order (normTime (mapped s b a) t q.2) q.2 n) c) =
      ∑ c ∈ range s.order, weights s.order (basisM (knotAt s.knots) s.order q.2)
      (computeU (knotAt s.knots) s.order (normTime s t q.2) q.2 n) c • a (b + (q.2 + 1 - s.order + c)) D := by
    funext e
    simp only [Finset.sum_apply, Pi.smul_apply, smul_eq_mul]
    refine sum_congr rfl fun c hcm => ?_
    have hlt : c < s.order := Finset.mem_range.mp hcm
    show (mapped s b a).coeffs.getD (q.2 + 1 - s.order + c) 0 e * _ = _
    rw [mapped_getD s b a (by omega), mul_comm]
    rfl
  refine ⟨by rw [evalD_of hw hq', e], ?_⟩
  unfold evalAndBlocks
  rw [locate_of hw hq']
  simp only [Out.ok_bind]
  rw [localBi_of hw hq']
  have hc' : (mapped s b a).coeffs.length = s.coeffs.length := by simp [mapped]
  have hk' : (mapped s b a).order = s.order := rfl
  simp only [Out.ok_bind, combine]
  rw [if_pos (by omega)]
  rw [← e]
  rfl

theorem point_honest {s : Spline ℝ 3} (w : WellFormed s) {t : ℝ} {q : ℝ × ℕ} (hq : computeTIndex s t = .ok q) (b n : ℕ) :
    (pointLeaf s b t n).Honest := by
  constructor
  · intro a a' h
    show orElse (evalD _ _ _) 0 = orElse (evalD _ _ _) 0
    rw [evalD_congr w hq b (fun c hc => h _ _ ?_) n]
    show _ ∈ (orElse (activeCoefficients s t) []).map _
    rw [activeCoefficients_of w hq]
    simp only [orElse, List.mem_map, List.mem_range]
    exact ⟨_, ⟨c, hc, rfl⟩, rfl⟩
  · intro a x
    obtain ⟨W, hW⟩ := point_core w hq b n
    show x ∈ (match evalAndBlocks (mapped s b a) t n with
      | .ok r => (orElse (activeCoefficients s t) []).zipIdx.map fun x : ℕ × ℕ => (⟨.vec (b + x.1) 3, r.2.1 x.2⟩ : Block 3)
      | _ => []).map Sigma.fst ↔ x ∈ (orElse (activeCoefficients s t) []).map _
    rw [(hW a).2]
    simp only [List.map_map]
    have e : List.map (fun y : ℕ × ℕ => (DV.vec (b + y.1) 3)) (orElse (activeCoefficients s t) []).zipIdx =
        (orElse (activeCoefficients s t) []).map fun i => DV.vec (b + i) 3 := by
      conv_rhs => rw [← List.zipIdx_map_fst 0 (orElse (activeCoefficients s t) []), List.map_map]
      rfl
    exact Eq.to_iff (congrArg (x ∈ ·) e)

theorem point_correct {s : Spline ℝ 3} (w : WellFormed s) {t : ℝ} {q : ℝ × ℕ} (hq : computeTIndex s t = .ok q) (b n : ℕ)
    (a : Vecs) : (pointLeaf s b t n).Correct a := by
  obtain ⟨W, hW⟩ := point_core w hq b n
  refine ⟨trivial, fun δ => ?_⟩
  have e1 : (fun r : ℝ => (pointLeaf s b t n).value fun i n => a i n + r • δ (.vec i n)) =
      fun r : ℝ => (∑ c ∈ range s.order, W c • a (b + (q.2 + 1 - s.order + c)) 3) +
        r • ∑ c ∈ range s.order, W c • δ (.vec (b + (q.2 + 1 - s.order + c)) 3) := by
    funext r
    show orElse (evalD _ _ _) 0 = _
    rw [(hW _).1]
    show ∑ c ∈ range s.order, W c • (a (b + (q.2 + 1 - s.order + c)) 3 + r • δ (.vec (b + (q.2 + 1 - s.order + c)) 3)) = _
    rw [smul_sum, ← sum_add_distrib]
    refine sum_congr rfl fun c _ => ?_
    rw [smul_add, smul_comm]
  have e2 : lin ((pointLeaf s b t n).blocks a) δ = ∑ c ∈ range s.order, W c • δ (.vec (b + (q.2 + 1 - s.order + c)) 3) := by
    show lin (match evalAndBlocks (mapped s b a) t n with
      | .ok r => (orElse (activeCoefficients s t) []).zipIdx.map fun x => (⟨.vec (b + x.1) 3, r.2.1 x.2⟩ : Block 3)
      | _ => []) δ = _
    rw [(hW a).2, activeCoefficients_of w hq]
    show lin ((((List.range s.order).map (q.2 + 1 - s.order + ·)).zipIdx).map fun x => (⟨.vec (b + x.1) 3, W x.2 • 1⟩ : Block 3)) δ = _
    have : ((List.range s.order).map (q.2 + 1 - s.order + ·)).zipIdx = (List.range s.order).map fun c => (q.2 + 1 - s.order + c, c) := by
      apply List.ext_getElem
      · simp
      · intro j h1 h2
        simp
    rw [this, lin, List.map_map, List.map_map]
    have main (N i : ℕ) : (List.map (fun c => (W c • (1 : M3)).mulVec (δ (.vec (b + (i + c)) 3))) (List.range N)).sum =
        ∑ c ∈ range N, W c • δ (.vec (b + (i + c)) 3) := by
      induction N with
      | zero => simp
      | succ N ih =>
        rw [List.range_succ, List.map_append, List.sum_append, ih, Finset.sum_range_succ]
        simp [Matrix.smul_mulVec]
    exact main _ _
  rw [e2]
  show HasDerivAt _ _ 0
  rw [e1]
  exact line _ _

end Kalibr.Imu
