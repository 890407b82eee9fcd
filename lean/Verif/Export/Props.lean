import Verif.Export.Model

/-!
# C157: exported calibrations describe the same cameras
-/

namespace Kalibr.Export

open Kin Matrix

/-- The matrix of a quaternion of this code is the one of the conjugate of Hamilton. -/
theorem hamilton_transpose (q : V4) : Hamilton q (quat2r q)ᵀ := by
  intro v
  have r (q : V4) : (toH q).re = q 3 := rfl
  have i (q : V4) : (toH q).imI = q 0 := rfl
  have j (q : V4) : (toH q).imJ = q 1 := rfl
  have k (q : V4) : (toH q).imK = q 2 := rfl
  have pr (v : V3) : (pure3 v).re = 0 := rfl
  have pi (v : V3) : (pure3 v).imI = v 0 := rfl
  have pj (v : V3) : (pure3 v).imJ = v 1 := rfl
  have pk (v : V3) : (pure3 v).imK = v 2 := rfl
  ext <;> simp [r, i, j, k, pr, pi, pj, pk, quat2r, Matrix.mulVec, dotProduct, Fin.sum_univ_three] <;> ring

theorem inverse_q (A : Trafo) (hA : A.Valid) : A.inverse.q = quatInv A.q := by
  unfold Trafo.inverse Trafo.mk'
  exact normalize_unit (C48_unit_closed A.q A.q hA hA).2.1

theorem inverse_C (A : Trafo) (hA : A.Valid) : quat2r A.inverse.q = (quat2r A.q)ᵀ := by
  rw [inverse_q A hA, C48_inverse_is_transpose]

theorem mul_C (A B : Trafo) (hA : A.Valid) (hB : B.Valid) : quat2r (A.mul B).q = quat2r A.q * quat2r B.q := by
  unfold Trafo.mul Trafo.mk'
  rw [normalize_unit (C48_unit_closed A.q B.q hA hB).1]
  exact C48_matrix_of_product _ _

/-- C157, MSF: the quaternion, read as a quaternion of Hamilton, and the vector are rotation and translation of the motion that takes points from
the sensor of the camera to the sensor of the vehicle by way of the camera; the delay is the time shift with the other sign. -/
theorem C157_msf (T_SB T_B : Trafo) (h1 : T_SB.Valid) (h2 : T_B.Valid) (timeshift : ℝ) :
    ∃ R : M3, Hamilton (msfConfig T_SB T_B timeshift).q_ic R ∧
      (∀ x, T_B.apply (R.mulVec x + (msfConfig T_SB T_B timeshift).p_ic) = T_SB.apply x) ∧
      (msfConfig T_SB T_B timeshift).poseDelay = -timeshift := by
  have i1 := (C50_closed T_SB T_SB h1 h1).2.1
  have i2 := (C50_closed T_B T_B h2 h2).2.1
  have v1 := (C50_closed T_SB.inverse T_B i1 h2).1
  have v2 := (C50_closed T_B.inverse T_SB i2 h1).1
  refine ⟨quat2r (T_B.inverse.mul T_SB).q, ?_, ?_, rfl⟩
  · have hq : quat2r (msfConfig T_SB T_B timeshift).q_ic = quat2r (T_SB.inverse.mul T_B).q := by
      unfold msfConfig
      simp only
      rw [← C50_matrix_of_product _ _ i1 h2]
      unfold Trafo.T
      rw [transform2C_rt]
      exact (C49_round_trip _ (C48_unit_gives_rotation _ v1)).1
    have := hamilton_transpose (msfConfig T_SB T_B timeshift).q_ic
    rwa [hq, mul_C _ _ i1 h2, inverse_C _ h1, Matrix.transpose_mul, Matrix.transpose_transpose, ← inverse_C _ h2, ← mul_C _ _ i2 h1] at this
  · intro x
    have hp : (msfConfig T_SB T_B timeshift).p_ic = (T_B.inverse.mul T_SB).t := by
      unfold msfConfig
      simp only
      rw [← C50_matrix_of_product _ _ i2 h1]
      unfold Trafo.T
      rw [transform2rho_rt]
    have ha : (quat2r (T_B.inverse.mul T_SB).q).mulVec x + (T_B.inverse.mul T_SB).t = (T_B.inverse.mul T_SB).apply x := by
      unfold Trafo.apply
      rw [C48_rotate_is_matrix _ v2]
    rw [hp, ha, (C50_action _ _ i2 h1 x).1, (C50_action T_B T_B h2 h2 (T_SB.apply x)).2.2.2]

/-! ## Topics -/

/-- A topic `/<ns>/<image>` in which the name of the image does not stand earlier. -/
structure Plain (topic ns image : List Char) : Prop where
  eq : topic = ('/' :: ns ++ ['/']) ++ image
  image_ne : image ≠ []
  image_noslash : ∀ c ∈ image, c ≠ '/'
  once : ∀ k < ns.length + 2, ¬ image <+: topic.drop k

theorem before_append (sub : List Char) : ∀ (pre : List Char), (∀ k < pre.length, ¬ sub <+: (pre ++ sub).drop k) → sub ≠ [] →
    before sub (pre ++ sub) = pre := by
  intro pre
  induction pre with
  | nil =>
    intro _ hs
    obtain ⟨c, s, rfl⟩ := List.exists_cons_of_ne_nil hs
    rw [List.nil_append, before, if_pos (List.isPrefixOf_iff_prefix.2 (List.prefix_refl _))]
  | cons c pre ih =>
    intro h hs
    have h0 := h 0 (by simp)
    rw [List.drop_zero] at h0
    rw [List.cons_append] at h0 ⊢
    rw [before, if_neg (fun hc => h0 (List.isPrefixOf_iff_prefix.1 hc))]
    rw [ih (fun k hk => ?_) hs]
    have := h (k + 1) (by simpa using hk)
    rwa [List.cons_append, List.drop_succ_cons] at this

theorem lastToken_append {pre image : List Char} (h : ∀ c ∈ image, c ≠ '/') : lastToken (pre ++ '/' :: image) = image := by
  unfold lastToken
  rw [List.reverse_append, List.reverse_cons, List.append_assoc, List.takeWhile_append_of_pos]
  · simp
  · intro c hc
    simpa using h c (List.mem_reverse.1 hc)

theorem plain_lastToken {topic ns image : List Char} (h : Plain topic ns image) : lastToken topic = image := by
  rw [h.eq]
  have := lastToken_append (pre := '/' :: ns) h.image_noslash
  simpa using this

theorem plain_base {topic ns image : List Char} (h : Plain topic ns image) : baseTopic topic = .ok ('/' :: ns ++ ['/']) := by
  unfold baseTopic
  rw [plain_lastToken h, if_neg h.image_ne]
  congr 1
  rw [h.eq]
  refine before_append image _ (fun k hk => ?_) h.image_ne
  rw [← h.eq]
  exact h.once k (by simp at hk; omega)

theorem four {l : List ℝ} (h : l.length = 4) : ∃ a b c d, l = [a, b, c, d] := by
  match l, h with
  | [a, b, c, d], _ => exact ⟨a, b, c, d, rfl⟩

/-! ## OKVIS -/

theorem inverse_rows (A : Trafo) :
    (Matrix.of ![A.T 0, A.T 1, A.T 2, ![0, 0, 0, 1]] : M4) = A.T := by
  ext i j
  fin_cases i <;> fin_cases j <;> simp [Trafo.T, rt2Transform]

/-- C157, OKVIS: of a pinhole camera with four distortion coefficients, the block names the topic, its matrix takes points from the camera to the
sensor (it is the inverse of the one of the chain), and coefficients, focal length and principal point are the ones of the camera.
Missing: the size of the image (`C157_okvis_size_counterexample`), other distortions (`C157_okvis_fov_counterexample`) and topics in which the
name of the image stands twice (`C157_okvis_topic_counterexample`). -/
theorem C157_okvis_partial (c : Camera) (hc : c.Valid) (hp : c.projection = .pinhole) (hd : c.distortion = .radtan ∨ c.distortion = .equidistant)
    (ns image : List Char) (ht : Plain c.topic ns image) :
    ∃ b, okvisBlock c = .ok (some b) ∧ '/' :: b.imageBaseTopic ++ b.imageTopic = c.topic ∧ b.imageTopic = image ∧
      b.T_SC * c.T_CS.T = 1 ∧ c.T_CS.T * b.T_SC = 1 ∧ b.coeffs = c.coeffs ∧
      c.intrinsics = [b.focal.1, b.focal.2, b.principal.1, b.principal.2] ∧
      (b.distortionType = "radialtangential" ↔ c.distortion = .radtan) ∧ (b.distortionType = "equidistant" ↔ c.distortion = .equidistant) := by
  have h1 : c.coeffs.length = 4 := by
    rcases hd with hd | hd <;> rw [hc.coeffs, hd] <;> rfl
  have h2 : c.intrinsics.length = 4 := by rw [hc.intrinsics, hp]; rfl
  obtain ⟨d0, d1, d2, d3, hd'⟩ := four h1
  obtain ⟨fu, fv, pu, pv, hi'⟩ := four h2
  have hm := C50_matrix_of_inverse c.T_CS hc.pose
  refine ⟨{
    imageBaseTopic := dropSlash ('/' :: ns ++ ['/'])
    imageTopic := lastToken c.topic
    T_SC := Matrix.of ![c.T_CS.inverse.T 0, c.T_CS.inverse.T 1, c.T_CS.inverse.T 2, ![0, 0, 0, 1]]
    imageDimension := (752, 480)
    coeffs := [d0, d1, d2, d3]
    distortionType := okvisDistortion c.distortion
    focal := (fu, fv)
    principal := (pu, pv) }, ?_, ?_, plain_lastToken ht, ?_, ?_, hd'.symm, hi', ?_, ?_⟩
  · unfold okvisBlock
    rw [plain_base ht, hd', hi']
    simp [item, hp]
  · have hl := plain_lastToken ht
    have he := ht.eq
    simp only [hl]
    rw [he]
    simp [dropSlash]
  · simp only [inverse_rows]
    exact hm.1
  · simp only [inverse_rows]
    exact hm.2.1
  · rcases hd with hd | hd <;> simp [hd, okvisDistortion]
  · rcases hd with hd | hd <;> simp [hd, okvisDistortion]

/-- Cameras OKVIS has no model of are left out. -/
theorem C157_okvis_left_out (c : Camera) (h : c.projection ≠ .pinhole) (b : OkvisBlock) : okvisBlock c ≠ .ok (some b) := by
  unfold okvisBlock
  simp only [if_pos h]
  rcases baseTopic c.topic with b' | _ | _
  · rcases item c.coeffs 0 with x | _ | _
    · rcases item c.coeffs 1 with x | _ | _
      · rcases item c.coeffs 2 with x | _ | _
        · rcases item c.coeffs 3 with x | _ | _ <;> simp
        all_goals simp
      all_goals simp
    all_goals simp
  all_goals simp

/-- A camera for the examples. -/
noncomputable def camera (topic : String) (d : Distortion) (coeffs : List ℝ) : Camera :=
  { topic := topic.toList, resolution := (640, 512), distortion := d, coeffs := coeffs, projection := .pinhole, intrinsics := [400, 401, 320, 256],
    T_CS := ⟨![3 / 5, 0, 0, 4 / 5], ![1, 2, 3]⟩ }

theorem camera_valid (topic : String) (d : Distortion) (coeffs : List ℝ) (h : coeffs.length = d.size) : (camera topic d coeffs).Valid where
  coeffs := h
  intrinsics := rfl
  pose := by simp [camera, Trafo.Valid, Unit4]; norm_num

theorem plain_cam0 (d : Distortion) (coeffs : List ℝ) :
    Plain (camera "/cam0/image_raw" d coeffs).topic ['c', 'a', 'm', '0'] "image_raw".toList where
  eq := by simp [camera]
  image_ne := by decide
  image_noslash := by decide
  once := by
    show ∀ k < 6, ¬ "image_raw".toList <+: "/cam0/image_raw".toList.drop k
    decide

/-- C157 is false of OKVIS: every camera is given the size 752 x 480. -/
theorem C157_okvis_size_counterexample : ∃ (c : Camera) (b : OkvisBlock), c.Valid ∧ okvisBlock c = .ok (some b) ∧
    c.resolution = (640, 512) ∧ b.imageDimension = (752, 480) := by
  have hv := camera_valid "/cam0/image_raw" .radtan [1, 2, 3, 4] rfl
  obtain ⟨b, hb, -⟩ := C157_okvis_partial _ hv rfl (Or.inl rfl) _ _ (plain_cam0 .radtan [1, 2, 3, 4])
  refine ⟨_, b, hv, hb, rfl, ?_⟩
  unfold okvisBlock at hb
  rw [plain_base (plain_cam0 .radtan [1, 2, 3, 4])] at hb
  simp only [Out.bind, item, camera] at hb
  exact congrArg OkvisBlock.imageDimension (Option.some.inj (Out.ok.inj hb)).symm

/-- C157 is false of OKVIS: a camera with the FOV distortion makes the tool fail. -/
theorem C157_okvis_fov_counterexample (c : Camera) (hc : c.Valid) (hd : c.distortion = .fov ∨ c.distortion = .none) :
    okvisBlock c = .raise := by
  have h : c.coeffs[1]? = none := by
    rw [List.getElem?_eq_none_iff, hc.coeffs]
    rcases hd with hd | hd <;> rw [hd] <;> simp [Distortion.size]
  unfold okvisBlock baseTopic
  by_cases h1 : lastToken c.topic = []
  · rw [if_pos h1]; rfl
  · rw [if_neg h1]
    simp only [Out.bind]
    unfold item
    rw [h]
    rcases c.coeffs[0]? with _ | x <;> rfl

/-- C157 is false of topics in which the name of the image stands earlier: the namespace is lost. -/
theorem C157_okvis_topic_counterexample :
    baseTopic "/raw0/raw".toList = .ok ['/'] ∧ lastToken "/raw0/raw".toList = ['r', 'a', 'w'] := by
  constructor <;> decide

/-! ## ROVIO -/

/-- C157, ROVIO: of a pinhole camera, the quaternion, read as a quaternion of Hamilton, is the rotation from the sensor to the camera, the vector is
the place of the camera seen from the sensor, and the file has the size, the camera matrix and the coefficients, followed by zeros up to what
ROVIO reads.  Missing: several cameras with names that end in the same letter (`C157_rovio_counterexample`). -/
theorem C157_rovio_partial (c : Camera) (hc : c.Valid) (hp : c.projection = .pinhole) (ns image : List Char) (ht : Plain c.topic ns image) :
    ∃ b name f, rovioBlock c = .ok (some (b, name, f)) ∧ Hamilton b.qCM c.T_CS.C ∧ c.T_CS.apply b.MrMC = 0 ∧ f.size = c.resolution ∧
      (∃ fu fv pu pv, c.intrinsics = [fu, fv, pu, pv] ∧ f.matrix = [fu, 0, pu, 0, fv, pv, 0, 0, 1]) ∧
      f.coeffs = c.coeffs ++ (if c.distortion = .radtan then [0] else []) ∧
      f.model = (match c.distortion with | .radtan => "plumb_bob" | .equidistant => "equidistant" | .fov => "fov" | .none => "none") ∧
      (∀ ns' d, ns = ns' ++ [d] → d ≠ '/' → name = [d]) := by
  have h2 : c.intrinsics.length = 4 := by rw [hc.intrinsics, hp]; rfl
  obtain ⟨fu, fv, pu, pv, hi'⟩ := four h2
  refine ⟨⟨c.T_CS.inverse.q, c.T_CS.inverse.t⟩, rovioIndex ('/' :: ns ++ ['/']), ⟨c.resolution, [fu, 0, pu, 0, fv, pv, 0, 0, 1],
    (mapDistModel c.distortion c.coeffs).1, (mapDistModel c.distortion c.coeffs).2⟩, ?_, ?_, ?_, rfl, ⟨fu, fv, pu, pv, hi', rfl⟩, ?_, ?_, ?_⟩
  · unfold rovioBlock
    rw [plain_base ht, hi']
    simp [item, hp]
  · have := hamilton_transpose c.T_CS.inverse.q
    rwa [inverse_C _ hc.pose, Matrix.transpose_transpose] at this
  · have := (C50_action c.T_CS c.T_CS hc.pose hc.pose 0).2.2.2
    have hz : c.T_CS.inverse.apply 0 = c.T_CS.inverse.t := by
      unfold Trafo.apply
      rw [C48_rotate_is_matrix _ (C50_closed c.T_CS c.T_CS hc.pose hc.pose).2.1, Matrix.mulVec_zero, zero_add]
    rwa [hz] at this
  · have hl := hc.coeffs
    cases hd : c.distortion <;> rw [hd] at hl <;> simp [mapDistModel, listFillWith, hl, Distortion.size]
  · cases hd : c.distortion <;> rfl
  · rintro ns' d rfl hd
    unfold rovioIndex
    simp [List.filter_append, hd]

/-- C157, ROVIO: with names that differ, every camera has its own file. -/
theorem C157_rovio_files (cs : List Camera) (out : Camera → RovioBlock × List Char × RovioFile)
    (h : ∀ c ∈ cs, rovioBlock c = .ok (some (out c))) (hn : (cs.map fun c => (out c).2.1).Nodup) :
    rovioExport cs ([], []) = .ok (cs.map fun c => (out c).1, cs.map fun c => (out c).2) := by
  have key : ∀ (cs : List Camera) (s : List RovioBlock × List (List Char × RovioFile)), (∀ c ∈ cs, rovioBlock c = .ok (some (out c))) →
      (s.2.map Prod.fst ++ cs.map fun c => (out c).2.1).Nodup →
      rovioExport cs s = .ok (s.1 ++ cs.map fun c => (out c).1, s.2 ++ cs.map fun c => (out c).2) := by
    intro cs
    induction cs with
    | nil => intro s _ _; simp [rovioExport]
    | cons c cs ih =>
      intro s h hn
      rw [rovioExport, h c (by simp)]
      simp only [Out.bind]
      have hw : writeFile s.2 (out c).2.1 (out c).2.2 = s.2 ++ [(out c).2] := by
        unfold writeFile
        congr 1
        rw [List.filter_eq_self]
        intro g hg
        have := (List.nodup_append.1 hn).2.2 g.1 (List.mem_map_of_mem hg) (out c).2.1 (by simp)
        simpa using this
      rw [ih _ (fun x hx => h x (by simp [hx])) ?_, hw]
      · simp
      · rw [hw]
        simpa using hn
  simpa using key cs ([], []) h (by simpa using hn)

/-- C157 is false of ROVIO with two cameras `left` and `right`: both are camera `t`, and the file of the first is lost. -/
theorem C157_rovio_counterexample : ∃ b1 b2 f1 f2,
    rovioBlock (camera "/left/image_raw" .fov [1]) = .ok (some (b1, ['t'], f1)) ∧
    rovioBlock (camera "/right/image_raw" .equidistant [1, 2, 3, 4]) = .ok (some (b2, ['t'], f2)) ∧ f1.model ≠ f2.model ∧
    rovioExport [camera "/left/image_raw" .fov [1], camera "/right/image_raw" .equidistant [1, 2, 3, 4]] ([], []) =
      .ok ([b1, b2], [(['t'], f2)]) := by
  have p1 : Plain (camera "/left/image_raw" .fov [1]).topic ['l', 'e', 'f', 't'] "image_raw".toList := by
    refine ⟨by simp [camera], by decide, by decide, ?_⟩
    show ∀ k < 6, ¬ "image_raw".toList <+: "/left/image_raw".toList.drop k
    decide
  have p2 : Plain (camera "/right/image_raw" .equidistant [1, 2, 3, 4]).topic ['r', 'i', 'g', 'h', 't'] "image_raw".toList := by
    refine ⟨by simp [camera], by decide, by decide, ?_⟩
    show ∀ k < 7, ¬ "image_raw".toList <+: "/right/image_raw".toList.drop k
    decide
  obtain ⟨b1, n1, f1, h1, -, -, -, -, -, m1, e1⟩ := C157_rovio_partial _ (camera_valid "/left/image_raw" .fov [1] rfl) rfl _ _ p1
  obtain ⟨b2, n2, f2, h2, -, -, -, -, -, m2, e2⟩ := C157_rovio_partial _ (camera_valid "/right/image_raw" .equidistant [1, 2, 3, 4] rfl) rfl _ _ p2
  have := e1 ['l', 'e', 'f'] 't' rfl (by decide)
  subst this
  have := e2 ['r', 'i', 'g', 'h'] 't' rfl (by decide)
  subst this
  refine ⟨b1, b2, f1, f2, h1, h2, by rw [m1, m2]; simp [camera], ?_⟩
  rw [rovioExport, h1]
  simp only [Out.bind]
  rw [rovioExport, h2]
  simp [Out.bind, rovioExport, writeFile]

/-! ## The hypotheses can be met -/

example : ∃ b, okvisBlock (camera "/cam0/image_raw" .radtan [1, 2, 3, 4]) = .ok (some b) ∧ b.coeffs = [1, 2, 3, 4] := by
  obtain ⟨b, h1, -, -, -, -, h2, -⟩ := C157_okvis_partial (camera "/cam0/image_raw" .radtan [1, 2, 3, 4]) (camera_valid _ _ _ rfl) rfl (Or.inl rfl)
    _ _ (plain_cam0 .radtan [1, 2, 3, 4])
  exact ⟨b, h1, h2⟩

example : ∃ b f, rovioBlock (camera "/cam0/image_raw" .radtan [1, 2, 3, 4]) = .ok (some (b, ['0'], f)) ∧ f.coeffs = [1, 2, 3, 4, 0] := by
  obtain ⟨b, n, f, h1, -, -, -, -, h2, -, h3⟩ := C157_rovio_partial (camera "/cam0/image_raw" .radtan [1, 2, 3, 4]) (camera_valid _ _ _ rfl) rfl
    _ _ (plain_cam0 .radtan [1, 2, 3, 4])
  have := h3 ['c', 'a', 'm'] '0' rfl (by decide)
  subst this
  exact ⟨b, f, h1, h2⟩

end Kalibr.Export
