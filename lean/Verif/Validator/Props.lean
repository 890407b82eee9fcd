import Verif.Validator.Model

/-!
# C158: the views of a pair of cameras
-/

namespace Kalibr.Validator

open Kin Matrix

/-! ## Overlap graph -/

theorem hasEdge_iff (G : List (Nat × Nat)) (a b : Nat) : hasEdge G a b = true ↔ (a, b) ∈ G ∨ (b, a) ∈ G := by
  simp [hasEdge]

/-- C158: two cameras are shown as a pair if one of them names the other, and no pair is shown twice. -/
theorem C158_pairs (overlaps : List (List Nat)) :
    (∀ a b, (a, b) ∈ overlapGraph overlaps ∨ (b, a) ∈ overlapGraph overlaps ↔
      (∃ l, overlaps[a]? = some l ∧ b ∈ l) ∨ (∃ l, overlaps[b]? = some l ∧ a ∈ l)) ∧
    (overlapGraph overlaps).Pairwise (fun e f => e ≠ f ∧ e ≠ (f.2, f.1)) := by
  have key : ∀ (es G : List (Nat × Nat)), G.Pairwise (fun e f => e ≠ f ∧ e ≠ (f.2, f.1)) →
      (∀ a b, (a, b) ∈ es.foldl addEdge G ∨ (b, a) ∈ es.foldl addEdge G ↔ ((a, b) ∈ G ∨ (b, a) ∈ G) ∨ ((a, b) ∈ es ∨ (b, a) ∈ es)) ∧
      (es.foldl addEdge G).Pairwise (fun e f => e ≠ f ∧ e ≠ (f.2, f.1)) := by
    intro es
    induction es with
    | nil => intro G hG; exact ⟨fun a b => by simp, hG⟩
    | cons e es ih =>
      intro G hG
      rw [List.foldl_cons]
      have hG' : (addEdge G e).Pairwise (fun e f => e ≠ f ∧ e ≠ (f.2, f.1)) := by
        unfold addEdge
        by_cases h : hasEdge G e.1 e.2 = true
        · rw [if_pos h]; exact hG
        · rw [if_neg h, List.pairwise_append]
          refine ⟨hG, List.pairwise_singleton _ _, ?_⟩
          intro x hx y hy
          rw [List.mem_singleton] at hy
          subst hy
          rw [hasEdge_iff] at h
          push Not at h
          exact ⟨fun hc => h.1 (hc ▸ hx), fun hc => h.2 (hc ▸ hx)⟩
      obtain ⟨h1, h2⟩ := ih _ hG'
      refine ⟨fun a b => (h1 a b).trans ?_, h2⟩
      unfold addEdge
      obtain ⟨x, y⟩ := e
      by_cases h : hasEdge G x y = true
      · rw [if_pos h]
        rw [hasEdge_iff] at h
        simp only [List.mem_cons, Prod.mk.injEq]
        constructor
        · tauto
        · rintro (h' | (⟨rfl, rfl⟩ | h') | (⟨rfl, rfl⟩ | h')) <;> tauto
      · rw [if_neg h]
        simp only [List.mem_append, List.mem_cons, List.not_mem_nil, or_false]
        tauto
  have mem : ∀ a b, (a, b) ∈ (overlaps.zipIdx.flatMap fun o => o.1.map fun b => (o.2, b)) ↔ ∃ l, overlaps[a]? = some l ∧ b ∈ l := by
    intro a b
    simp only [List.mem_flatMap, List.mem_map, Prod.mk.injEq, Prod.exists]
    constructor
    · rintro ⟨l, i, hl, c, hc, rfl, rfl⟩
      exact ⟨l, List.mk_mem_zipIdx_iff_getElem?.1 hl, hc⟩
    · rintro ⟨l, hl, hb⟩
      exact ⟨l, a, List.mk_mem_zipIdx_iff_getElem?.2 hl, b, hb, rfl, rfl⟩
  obtain ⟨h1, h2⟩ := key _ [] List.Pairwise.nil
  refine ⟨fun a b => (h1 a b).trans ?_, h2⟩
  simp [mem]

/-! ## Poses -/

/-- The pose of camera `n` seen from camera 0: what `baseline 1`, ..., `baseline n` do to a point one after the other. -/
def pose (baseline : Nat → Trafo) : Nat → V3 → V3
  | 0, x => x
  | n + 1, x => (baseline (n + 1)).apply (pose baseline n x)

theorem chain_spec (baseline : Nat → Trafo) (h : ∀ n, (baseline n).Valid) (low n : Nat) (x : V3) :
    (chain baseline low n).Valid ∧ (chain baseline low n).apply (pose baseline low x) = pose baseline (low + n) x := by
  induction n with
  | zero =>
    refine ⟨(C50_closed _ _ (h 0) (h 0)).2.2, ?_⟩
    exact (C50_action (baseline 0) (baseline 0) (h 0) (h 0) _).2.1
  | succ n ih =>
    refine ⟨(C50_closed _ _ (h _) ih.1).1, ?_⟩
    rw [chain, (C50_action _ _ (h _) ih.1 _).1, ih.2]
    rfl

/-- C158: the transformation between any two cameras of the chain, in either order, takes what a point is in the one to what it is in the
other. -/
theorem C158_poses (baseline : Nat → Trafo) (h : ∀ n, (baseline n).Valid) (a b : Nat) (x : V3) :
    (camFromTo baseline a b).apply (pose baseline a x) = pose baseline b x := by
  unfold camFromTo
  by_cases hab : a < b
  · simp only [if_pos hab]
    rw [Nat.min_eq_left hab.le, Nat.max_eq_right hab.le, (chain_spec baseline h a (b - a) x).2]
    congr 1
    omega
  · simp only [if_neg hab]
    have hba : b ≤ a := Nat.le_of_not_lt hab
    rw [Nat.min_eq_right hba, Nat.max_eq_left hba]
    obtain ⟨h1, h2⟩ := chain_spec baseline h b (a - b) x
    have : b + (a - b) = a := by omega
    rw [this] at h2
    rw [← h2, (C50_action _ _ h1 h1 _).2.2.1]

/-! ## The rotation -/

theorem norm3_sq (v : V3) : norm3 v ^ 2 = v 0 ^ 2 + v 1 ^ 2 + v 2 ^ 2 := by
  unfold norm3
  exact Real.sq_sqrt (by positivity)

theorem norm3_ne {v : V3} (h : v ≠ 0) : norm3 v ≠ 0 := by
  intro hc
  have := norm3_sq v
  rw [hc] at this
  apply h
  have h0 : v 0 = 0 := by nlinarith [sq_nonneg (v 0), sq_nonneg (v 1), sq_nonneg (v 2)]
  have h1 : v 1 = 0 := by nlinarith [sq_nonneg (v 0), sq_nonneg (v 1), sq_nonneg (v 2)]
  have h2 : v 2 = 0 := by nlinarith [sq_nonneg (v 0), sq_nonneg (v 1), sq_nonneg (v 2)]
  exact ext3 h0 h1 h2

/-- Two directions at a right angle and their cross product, made of unit length, are the rows of a rotation. -/
theorem frame_rotation (u w : V3) (hu : u ≠ 0) (hw : w ≠ 0) (huw : u 0 * w 0 + u 1 * w 1 + u 2 * w 2 = 0) :
    (Matrix.of ![unit u, unit w, unit (crossProduct u w)] : M3) ∈ SO3 := by
  have nu := norm3_sq u
  have nw := norm3_sq w
  have hnu := norm3_ne hu
  have hnw := norm3_ne hw
  have hx : norm3 (crossProduct u w) = norm3 u * norm3 w := by
    have h1 : 0 ≤ norm3 (crossProduct u w) := Real.sqrt_nonneg _
    have h2 : 0 ≤ norm3 u * norm3 w := mul_nonneg (Real.sqrt_nonneg _) (Real.sqrt_nonneg _)
    have h3 : norm3 (crossProduct u w) ^ 2 = (norm3 u * norm3 w) ^ 2 := by
      rw [mul_pow, nu, nw, norm3_sq]
      simp [cross_apply]
      linear_combination (-(u 0 * w 0 + u 1 * w 1 + u 2 * w 2)) * huw
    exact (sq_eq_sq₀ h1 h2).1 h3
  have ha : (norm3 u)⁻¹ ^ 2 * (u 0 ^ 2 + u 1 ^ 2 + u 2 ^ 2) = 1 := by
    rw [← nu, ← mul_pow, inv_mul_cancel₀ hnu, one_pow]
  have hb : (norm3 w)⁻¹ ^ 2 * (w 0 ^ 2 + w 1 ^ 2 + w 2 ^ 2) = 1 := by
    rw [← nw, ← mul_pow, inv_mul_cancel₀ hnw, one_pow]
  have e3 : unit (crossProduct u w) = ((norm3 u)⁻¹ * (norm3 w)⁻¹) • ![u 1 * w 2 - u 2 * w 1, u 2 * w 0 - u 0 * w 2, u 0 * w 1 - u 1 * w 0] := by
    unfold unit
    rw [hx, mul_inv, cross_apply]
  rw [e3]
  unfold unit
  generalize (norm3 u)⁻¹ = a at *
  generalize (norm3 w)⁻¹ = b at *
  have h22 : a ^ 2 * b ^ 2 * ((u 1 * w 2 - u 2 * w 1) ^ 2 + (u 2 * w 0 - u 0 * w 2) ^ 2 + (u 0 * w 1 - u 1 * w 0) ^ 2) = 1 := by
    linear_combination (b ^ 2 * (w 0 ^ 2 + w 1 ^ 2 + w 2 ^ 2)) * ha + hb - (a ^ 2 * b ^ 2 * (u 0 * w 0 + u 1 * w 1 + u 2 * w 2)) * huw
  rw [Matrix.mem_specialOrthogonalGroup_iff]
  constructor
  · rw [Matrix.mem_orthogonalGroup_iff]
    ext i j
    fin_cases i <;> fin_cases j <;>
      simp [Matrix.mul_apply, Fin.sum_univ_three, Matrix.star_eq_conjTranspose]
    · linear_combination ha
    · linear_combination a * b * huw
    · ring
    · linear_combination a * b * huw
    · linear_combination hb
    · ring
    · ring
    · ring
    · linear_combination h22
  · rw [Matrix.det_fin_three]
    simp
    linear_combination h22

/-! ## Rectification -/

/-- Focal lengths are positive. -/
def Pinhole.Valid (p : Pinhole) : Prop := 0 < p.fu ∧ 0 < p.fv

theorem K_det (p : Pinhole) : p.K.det = p.fu * p.fv := by
  unfold Pinhole.K
  rw [Matrix.det_fin_three]
  simp

theorem K_unit (p : Pinhole) (h : p.Valid) : IsUnit p.K.det := by
  rw [K_det]
  exact (mul_pos h.1 h.2).ne'.isUnit

theorem SO3_mul {R : M3} (h : R ∈ SO3) : R * Rᵀ = 1 ∧ Rᵀ * R = 1 ∧ IsUnit R.det := by
  have ho := Matrix.mem_specialOrthogonalGroup_iff.mp h
  refine ⟨(Matrix.mem_orthogonalGroup_iff _ _).mp ho.1, (Matrix.mem_orthogonalGroup_iff' _ _).mp ho.1, ?_⟩
  rw [ho.2]
  exact isUnit_one

theorem center_eq (p : Pinhole) (h : p.Valid) {C : M3} (hC : C ∈ SO3) (t : V3) : center p.K C t = -(Cᵀ.mulVec t) := by
  unfold center
  rw [Matrix.mulVec_mulVec, Matrix.mul_inv_rev, Matrix.mul_assoc, Matrix.nonsing_inv_mul _ (K_unit p h), Matrix.mul_one,
    Matrix.inv_eq_left_inv (SO3_mul hC).2.1]

/-- The direction of the baseline, seen from camera A. -/
def baseDir (BA : Trafo) : V3 := BA.Cᵀ.mulVec BA.t

/-- The cameras are apart, and not one behind the other: the baseline is not along the mean of the viewing directions. -/
def Apart (BA : Trafo) : Prop := crossProduct (zMean BA.C) (baseDir BA) ≠ 0

theorem rectR_eq (a b : Pinhole) (ha : a.Valid) (hb : b.Valid) (BA : Trafo) (hBA : BA.Valid) :
    rectR a.K b.K BA = Matrix.of ![unit (baseDir BA), unit (crossProduct (zMean BA.C) (baseDir BA)),
      unit (crossProduct (baseDir BA) (crossProduct (zMean BA.C) (baseDir BA)))] := by
  have h1 : center a.K 1 0 = 0 := by
    unfold center
    rw [Matrix.mulVec_zero, Matrix.mulVec_zero, neg_zero]
  have h2 : center b.K BA.C BA.t = -baseDir BA := center_eq b hb (C48_unit_gives_rotation _ hBA) _
  unfold rectR
  simp only [h1, h2, zero_sub, neg_neg]

theorem Apart.ne {BA : Trafo} (h : Apart BA) : baseDir BA ≠ 0 := by
  intro hc
  apply h
  rw [hc, map_zero]

theorem rectR_rotation (a b : Pinhole) (ha : a.Valid) (hb : b.Valid) (BA : Trafo) (hBA : BA.Valid) (h : Apart BA) :
    rectR a.K b.K BA ∈ SO3 := by
  rw [rectR_eq a b ha hb BA hBA]
  refine frame_rotation _ _ h.ne h ?_
  simp [cross_apply]
  ring

theorem rectA_eq (a b : Pinhole) : rectA a.K b.K = (⟨(a.fu + b.fu) / 2, (a.fv + b.fv) / 2, (a.pu + b.pu) / 2, (a.pv + b.pv) / 2⟩ : Pinhole).K := by
  ext i j
  fin_cases i <;> fin_cases j <;> simp [rectA, Pinhole.K] <;> ring

/-- The map of OpenCV undoes the projection of the rectified camera. -/
theorem rectMap_spec (K R A : M3) (hA : IsUnit (A * R).det) (x : V3) (hd : (A * R).mulVec x 2 ≠ 0) :
    rectMap K R A (pixel ((A * R).mulVec x)) = pixel (K.mulVec x) := by
  have h : (![(pixel ((A * R).mulVec x)).1, (pixel ((A * R).mulVec x)).2, 1] : V3) = ((A * R).mulVec x 2)⁻¹ • (A * R).mulVec x := by
    apply ext3 <;> simp [pixel, div_eq_inv_mul, hd]
  unfold rectMap
  rw [h, Matrix.mulVec_smul, Matrix.mulVec_mulVec, Matrix.nonsing_inv_mul _ hA, Matrix.one_mulVec, Matrix.mulVec_smul]
  have hd' := inv_ne_zero hd
  unfold pixel
  simp only [Pi.smul_apply, smul_eq_mul]
  rw [mul_div_mul_left _ _ hd', mul_div_mul_left _ _ hd']

/-- C158: for two cameras that are apart, the rectified views are views of cameras turned by rotations; a point in front of them (at a depth that is
not zero) is shown in the two views in the same row, each view shows there what its camera sees of the point, and the columns differ by focal
length times baseline over depth. -/
theorem C158_rectified (a b : Pinhole) (ha : a.Valid) (hb : b.Valid) (BA : Trafo) (hBA : BA.Valid) (h : Apart BA) :
    rectR a.K b.K BA ∈ SO3 ∧ rectRb a.K b.K BA ∈ SO3 ∧
    ∀ x : V3, (rectR a.K b.K BA).mulVec x 2 ≠ 0 → ∃ pa pb : ℝ × ℝ,
      pa = pixel ((rectA a.K b.K * rectR a.K b.K BA).mulVec x) ∧ pb = pixel ((rectA a.K b.K * rectRb a.K b.K BA).mulVec (BA.apply x)) ∧
      rectMap a.K (rectR a.K b.K BA) (rectA a.K b.K) pa = pixel (a.K.mulVec x) ∧
      rectMap b.K (rectRb a.K b.K BA) (rectA a.K b.K) pb = pixel (b.K.mulVec (BA.apply x)) ∧
      pa.2 = pb.2 ∧ pb.1 - pa.1 = (a.fu + b.fu) / 2 * norm3 BA.t / (rectR a.K b.K BA).mulVec x 2 := by
  have hR := rectR_rotation a b ha hb BA hBA h
  have hC : BA.C ∈ SO3 := C48_unit_gives_rotation _ hBA
  have hCi : BA.inverse.C = BA.Cᵀ := by
    unfold Trafo.C Trafo.inverse Trafo.mk'
    rw [normalize_unit (C48_unit_closed BA.q BA.q hBA hBA).2.1]
    exact C48_inverse_is_transpose _
  have hCt : BA.Cᵀ ∈ SO3 := by
    rw [← hCi]
    exact C48_unit_gives_rotation _ (C50_closed BA BA hBA hBA).2.1
  have hRb : rectRb a.K b.K BA ∈ SO3 := by
    unfold rectRb
    rw [hCi]
    exact mul_mem hR hCt
  -- the rectified camera
  have hAv : ((⟨(a.fu + b.fu) / 2, (a.fv + b.fv) / 2, (a.pu + b.pu) / 2, (a.pv + b.pv) / 2⟩ : Pinhole)).Valid :=
    ⟨by have := ha.1; have := hb.1; simp only; linarith, by have := ha.2; have := hb.2; simp only; linarith⟩
  have hAu : IsUnit (rectA a.K b.K).det := by rw [rectA_eq]; exact K_unit _ hAv
  have uA : IsUnit (rectA a.K b.K * rectR a.K b.K BA).det := by rw [Matrix.det_mul]; exact hAu.mul (SO3_mul hR).2.2
  have uB : IsUnit (rectA a.K b.K * rectRb a.K b.K BA).det := by rw [Matrix.det_mul]; exact hAu.mul (SO3_mul hRb).2.2
  have proj : ∀ y : V3, (rectA a.K b.K).mulVec y = ![(a.fu + b.fu) / 2 * y 0 + (a.pu + b.pu) / 2 * y 2,
      (a.fv + b.fv) / 2 * y 1 + (a.pv + b.pv) / 2 * y 2, y 2] := by
    intro y
    rw [rectA_eq]
    apply ext3 <;> simp [Pinhole.K, Matrix.mulVec, dotProduct, Fin.sum_univ_three]
  -- the baseline is the first axis
  have hnorm : norm3 (baseDir BA) = norm3 BA.t := by
    have := C50_isometry ⟨quatInv BA.q, 0⟩ (C48_unit_closed BA.q BA.q hBA hBA).2.1 BA.t 0
    unfold Trafo.apply at this
    simp only [C48_rotate_is_matrix _ (C48_unit_closed BA.q BA.q hBA hBA).2.1, C48_inverse_is_transpose, Matrix.mulVec_zero, add_zero, sub_zero] at this
    exact this
  have hbase : (rectR a.K b.K BA).mulVec (baseDir BA) = ![norm3 BA.t, 0, 0] := by
    rw [rectR_eq a b ha hb BA hBA, ← hnorm]
    have hn := norm3_ne h.ne
    have hs := norm3_sq (baseDir BA)
    generalize baseDir BA = d at *
    generalize zMean BA.C = z
    apply ext3
    · simp [Matrix.mulVec, dotProduct, Fin.sum_univ_three, unit]
      field_simp
      linear_combination -hs
    · simp [Matrix.mulVec, dotProduct, Fin.sum_univ_three, unit, cross_apply]
      ring
    · simp [Matrix.mulVec, dotProduct, Fin.sum_univ_three, unit, cross_apply]
      ring
  refine ⟨hR, hRb, fun x hx => ?_⟩
  have hB : (rectRb a.K b.K BA).mulVec (BA.apply x) = (rectR a.K b.K BA).mulVec x + ![norm3 BA.t, 0, 0] := by
    unfold rectRb Trafo.apply
    rw [hCi, C48_rotate_is_matrix _ hBA, Matrix.mulVec_add, Matrix.mulVec_mulVec, Matrix.mul_assoc]
    have : BA.Cᵀ * quat2r BA.q = 1 := (SO3_mul hC).2.1
    rw [this, Matrix.mul_one, ← Matrix.mulVec_mulVec]
    exact congrArg _ hbase
  have eA : (rectA a.K b.K * rectR a.K b.K BA).mulVec x = (rectA a.K b.K).mulVec ((rectR a.K b.K BA).mulVec x) := (Matrix.mulVec_mulVec _ _ _).symm
  have eB : (rectA a.K b.K * rectRb a.K b.K BA).mulVec (BA.apply x) = (rectA a.K b.K).mulVec ((rectR a.K b.K BA).mulVec x + ![norm3 BA.t, 0, 0]) := by
    rw [← Matrix.mulVec_mulVec, hB]
  refine ⟨_, _, rfl, rfl, ?_, ?_, ?_, ?_⟩
  · refine rectMap_spec _ _ _ uA _ ?_
    rw [eA, proj]
    exact hx
  · refine rectMap_spec _ _ _ uB _ ?_
    rw [eB, proj]
    simpa using hx
  · rw [eA, eB, proj, proj]
    simp [pixel]
  · rw [eA, eB, proj, proj]
    simp [pixel]
    field_simp
    ring

/-- Two cameras side by side, the second to the right of the first. -/
noncomputable def sideBySide : Trafo := ⟨![0, 0, 0, 1], ![-1, 0, 0]⟩

theorem side_C : sideBySide.C = 1 := quat2r_identity

theorem side_base : baseDir sideBySide = ![-1, 0, 0] := by
  unfold baseDir
  rw [side_C, Matrix.transpose_one, Matrix.one_mulVec]
  rfl

theorem side_valid : sideBySide.Valid := by simp [sideBySide, Trafo.Valid, Unit4]

theorem side_cross : crossProduct (zMean sideBySide.C) (baseDir sideBySide) = ![0, -1, 0] := by
  rw [side_C, side_base]
  apply ext3 <;> simp [zMean, cross_apply]

theorem side_apart : Apart sideBySide := by
  unfold Apart
  rw [side_cross]
  intro h
  have := congrFun h 1
  simp at this

/-- C158 is false of views the right way up: of a pair whose second camera is to the right of the first, the views are turned by half a turn. -/
theorem C158_upright_counterexample (a b : Pinhole) (ha : a.Valid) (hb : b.Valid) :
    rectR a.K b.K sideBySide = !![-1, 0, 0; 0, -1, 0; 0, 0, 1] := by
  rw [rectR_eq a b ha hb _ side_valid, side_cross, side_base]
  have h1 : norm3 ![-1, 0, 0] = 1 := by simp [norm3]
  have h2 : norm3 ![0, -1, 0] = 1 := by simp [norm3]
  have h3 : crossProduct ![(-1 : ℝ), 0, 0] ![0, -1, 0] = ![0, 0, 1] := by
    apply ext3 <;> simp [cross_apply]
  have h4 : norm3 ![0, 0, 1] = 1 := by simp [norm3]
  rw [h3]
  unfold unit
  rw [h1, h2, h4]
  ext i j
  fin_cases i <;> fin_cases j <;> simp

/-- C158 is false of the errors of a pair: as soon as there is a common corner the table cannot be made, its width is a float. -/
theorem C158_errors_counterexample (errs : List ((ℝ × ℝ) × (ℝ × ℝ))) : pairErrors errs = .raise ↔ errs ≠ [] := by
  unfold pairErrors
  cases errs with
  | nil => simp
  | cons e es => simp [reshape, truediv]

/-! ## The hypotheses can be met -/

/-- The two cameras side by side see a point at depth 2 in the same row, half a focal length apart. -/
example (p : Pinhole) (hp : p.Valid) : ∃ pa pb : ℝ × ℝ,
    rectMap p.K (rectR p.K p.K sideBySide) (rectA p.K p.K) pa = pixel (p.K.mulVec ![1, 1, 2]) ∧ pa.2 = pb.2 ∧
    pb.1 - pa.1 = p.fu / 2 := by
  have hd : (rectR p.K p.K sideBySide).mulVec ![1, 1, 2] 2 = 2 := by
    rw [C158_upright_counterexample p p hp hp]
    simp [Matrix.mulVec, dotProduct, Fin.sum_univ_three]
  obtain ⟨pa, pb, -, -, h1, -, h2, h3⟩ := (C158_rectified p p hp hp sideBySide side_valid side_apart).2.2 ![1, 1, 2] (by rw [hd]; norm_num)
  have hn : norm3 sideBySide.t = 1 := by simp [sideBySide, norm3]
  refine ⟨pa, pb, h1, h2, ?_⟩
  rw [h3, hd, hn]
  ring

example : overlapGraph [[1, 2], [0], []] = [(0, 1), (0, 2)] := by decide

end Kalibr.Validator
