import Verif.Kinematics.Quat

/-!
# Rotation matrix to quaternion and back (C49)
-/

namespace Kalibr.Kin

open Matrix Real

/-- The equations between the entries of a rotation matrix: orthonormal rows and columns, and every entry
is its own cofactor. -/
structure Eqs (R : M3) : Prop where
  r0 : R 0 0 ^ 2 + R 0 1 ^ 2 + R 0 2 ^ 2 = 1
  r1 : R 1 0 ^ 2 + R 1 1 ^ 2 + R 1 2 ^ 2 = 1
  r2 : R 2 0 ^ 2 + R 2 1 ^ 2 + R 2 2 ^ 2 = 1
  c0 : R 0 0 ^ 2 + R 1 0 ^ 2 + R 2 0 ^ 2 = 1
  c1 : R 0 1 ^ 2 + R 1 1 ^ 2 + R 2 1 ^ 2 = 1
  c2 : R 0 2 ^ 2 + R 1 2 ^ 2 + R 2 2 ^ 2 = 1
  r01 : R 0 0 * R 1 0 + R 0 1 * R 1 1 + R 0 2 * R 1 2 = 0
  r02 : R 0 0 * R 2 0 + R 0 1 * R 2 1 + R 0 2 * R 2 2 = 0
  r12 : R 1 0 * R 2 0 + R 1 1 * R 2 1 + R 1 2 * R 2 2 = 0
  c01 : R 0 0 * R 0 1 + R 1 0 * R 1 1 + R 2 0 * R 2 1 = 0
  c02 : R 0 0 * R 0 2 + R 1 0 * R 1 2 + R 2 0 * R 2 2 = 0
  c12 : R 0 1 * R 0 2 + R 1 1 * R 1 2 + R 2 1 * R 2 2 = 0
  k00 : R 1 1 * R 2 2 - R 1 2 * R 2 1 = R 0 0
  k01 : R 1 2 * R 2 0 - R 1 0 * R 2 2 = R 0 1
  k02 : R 1 0 * R 2 1 - R 1 1 * R 2 0 = R 0 2
  k10 : R 0 2 * R 2 1 - R 0 1 * R 2 2 = R 1 0
  k11 : R 0 0 * R 2 2 - R 0 2 * R 2 0 = R 1 1
  k12 : R 0 1 * R 2 0 - R 0 0 * R 2 1 = R 1 2
  k20 : R 0 1 * R 1 2 - R 0 2 * R 1 1 = R 2 0
  k21 : R 0 2 * R 1 0 - R 0 0 * R 1 2 = R 2 1
  k22 : R 0 0 * R 1 1 - R 0 1 * R 1 0 = R 2 2

theorem SO3.eqs {R : M3} (h : R ∈ SO3) : Eqs R := by
  obtain ⟨h1, hd⟩ := Matrix.mem_specialOrthogonalGroup_iff.mp h
  have h2 : R * Rᵀ = 1 := (Matrix.mem_orthogonalGroup_iff _ _).mp h1
  have h3 : Rᵀ * R = 1 := (Matrix.mem_orthogonalGroup_iff' _ _).mp h1
  have row (i j : Fin 3) : R i 0 * R j 0 + R i 1 * R j 1 + R i 2 * R j 2 = (1 : M3) i j := by
    rw [← h2]; simp [Matrix.mul_apply, Fin.sum_univ_succ]; ring
  have col (i j : Fin 3) : R 0 i * R 0 j + R 1 i * R 1 j + R 2 i * R 2 j = (1 : M3) i j := by
    rw [← h3]; simp [Matrix.mul_apply, Fin.sum_univ_succ]; ring
  rw [Matrix.det_fin_three] at hd
  have r00 := row 0 0; have r11 := row 1 1; have r22 := row 2 2
  have r01 := row 0 1; have r02 := row 0 2; have r12 := row 1 2
  have c00 := col 0 0; have c11 := col 1 1; have c22 := col 2 2
  have c01 := col 0 1; have c02 := col 0 2; have c12 := col 1 2
  simp at r00 r11 r22 r01 r02 r12 c00 c11 c22 c01 c02 c12
  refine ⟨by linarith, by linarith, by linarith, by linarith, by linarith, by linarith, r01, r02, r12, c01, c02,
    c12, ?_, ?_, ?_, ?_, ?_, ?_, ?_, ?_, ?_⟩
  · grind
  · grind
  · grind
  · grind
  · grind
  · grind
  · grind
  · grind
  · grind

/-- The four candidates without the absolute value. -/
def sd (R : M3) : V4 :=
  ![1 + R 0 0 - R 1 1 - R 2 2, 1 - R 0 0 + R 1 1 - R 2 2, 1 - R 0 0 - R 1 1 + R 2 2, 1 + R 0 0 + R 1 1 + R 2 2]

theorem sd_nonneg {R : M3} (e : Eqs R) (i : Fin 4) : 0 ≤ sd R i := by
  have h01 : sd R 0 * sd R 1 = (R 0 1 + R 1 0) ^ 2 := by simp [sd]; obtain ⟨⟩ := e; grind
  have h02 : sd R 0 * sd R 2 = (R 0 2 + R 2 0) ^ 2 := by simp [sd]; obtain ⟨⟩ := e; grind
  have h03 : sd R 0 * sd R 3 = (R 1 2 - R 2 1) ^ 2 := by simp [sd]; obtain ⟨⟩ := e; grind
  have h12 : sd R 1 * sd R 2 = (R 1 2 + R 2 1) ^ 2 := by simp [sd]; obtain ⟨⟩ := e; grind
  have h13 : sd R 1 * sd R 3 = (R 2 0 - R 0 2) ^ 2 := by simp [sd]; obtain ⟨⟩ := e; grind
  have h23 : sd R 2 * sd R 3 = (R 0 1 - R 1 0) ^ 2 := by simp [sd]; obtain ⟨⟩ := e; grind
  have hs : sd R 0 + sd R 1 + sd R 2 + sd R 3 = 4 := by simp [sd]; ring
  fin_cases i <;> simp only [Fin.zero_eta, Fin.mk_one, Fin.reduceFinMk]
  · nlinarith [sq_nonneg (R 0 1 + R 1 0), sq_nonneg (R 0 2 + R 2 0), sq_nonneg (R 1 2 - R 2 1),
      sq_nonneg (sd R 0)]
  · nlinarith [sq_nonneg (R 0 1 + R 1 0), sq_nonneg (R 1 2 + R 2 1), sq_nonneg (R 2 0 - R 0 2),
      sq_nonneg (sd R 1)]
  · nlinarith [sq_nonneg (R 0 2 + R 2 0), sq_nonneg (R 1 2 + R 2 1), sq_nonneg (R 0 1 - R 1 0),
      sq_nonneg (sd R 2)]
  · nlinarith [sq_nonneg (R 1 2 - R 2 1), sq_nonneg (R 2 0 - R 0 2), sq_nonneg (R 0 1 - R 1 0),
      sq_nonneg (sd R 3)]

theorem dc_eq {R : M3} (e : Eqs R) : dc R = sd R := by
  have h := sd_nonneg e
  have h0 := h 0; have h1 := h 1; have h2 := h 2; have h3 := h 3
  simp only [sd, Matrix.cons_val] at h0 h1 h2 h3
  simp only [dc, sd, abs_of_nonneg h0, abs_of_nonneg h1, abs_of_nonneg h2, abs_of_nonneg h3]

theorem argmax_spec (d : V4) (i : Fin 4) : d i ≤ d (argmax d) := by
  unfold argmax
  fin_cases i <;> simp only [Fin.zero_eta, Fin.mk_one, Fin.reduceFinMk] <;> split_ifs <;> linarith

theorem argmax_pos {R : M3} (e : Eqs R) : 0 < sd R (argmax (sd R)) := by
  have hs : sd R 0 + sd R 1 + sd R 2 + sd R 3 = 4 := by simp [sd]; ring
  have h0 := argmax_spec (sd R) 0; have h1 := argmax_spec (sd R) 1
  have h2 := argmax_spec (sd R) 2; have h3 := argmax_spec (sd R) 3
  linarith

/-- The products of the components of the quaternion determine the matrix. -/
theorem of_products {R : M3} {q : V4} (h00 : 4 * (q 0 * q 0) = sd R 0) (h11 : 4 * (q 1 * q 1) = sd R 1)
    (h22 : 4 * (q 2 * q 2) = sd R 2) (h33 : 4 * (q 3 * q 3) = sd R 3)
    (h01 : 4 * (q 0 * q 1) = R 0 1 + R 1 0) (h02 : 4 * (q 0 * q 2) = R 0 2 + R 2 0)
    (h03 : 4 * (q 0 * q 3) = R 1 2 - R 2 1) (h12 : 4 * (q 1 * q 2) = R 1 2 + R 2 1)
    (h13 : 4 * (q 1 * q 3) = R 2 0 - R 0 2) (h23 : 4 * (q 2 * q 3) = R 0 1 - R 1 0) :
    quat2r q = R ∧ Unit4 q := by
  simp only [sd, Matrix.cons_val] at h00 h11 h22 h33
  constructor
  · ext i j
    fin_cases i <;> fin_cases j <;> simp [quat2r] <;> linarith
  · unfold Unit4
    linarith

/-- All two by two minors of the matrix of products of components vanish. -/
structure Minors (R : M3) : Prop where
  h01 : sd R 0 * sd R 1 = (R 0 1 + R 1 0) ^ 2
  h02 : sd R 0 * sd R 2 = (R 0 2 + R 2 0) ^ 2
  h03 : sd R 0 * sd R 3 = (R 1 2 - R 2 1) ^ 2
  h12 : sd R 1 * sd R 2 = (R 1 2 + R 2 1) ^ 2
  h13 : sd R 1 * sd R 3 = (R 2 0 - R 0 2) ^ 2
  h23 : sd R 2 * sd R 3 = (R 0 1 - R 1 0) ^ 2
  m012 : (R 0 1 + R 1 0) * (R 0 2 + R 2 0) = sd R 0 * (R 1 2 + R 2 1)
  m013 : (R 0 1 + R 1 0) * (R 1 2 - R 2 1) = sd R 0 * (R 2 0 - R 0 2)
  m023 : (R 0 2 + R 2 0) * (R 1 2 - R 2 1) = sd R 0 * (R 0 1 - R 1 0)
  m102 : (R 0 1 + R 1 0) * (R 1 2 + R 2 1) = sd R 1 * (R 0 2 + R 2 0)
  m103 : (R 0 1 + R 1 0) * (R 2 0 - R 0 2) = sd R 1 * (R 1 2 - R 2 1)
  m123 : (R 1 2 + R 2 1) * (R 2 0 - R 0 2) = sd R 1 * (R 0 1 - R 1 0)
  m201 : (R 0 2 + R 2 0) * (R 1 2 + R 2 1) = sd R 2 * (R 0 1 + R 1 0)
  m203 : (R 0 2 + R 2 0) * (R 0 1 - R 1 0) = sd R 2 * (R 1 2 - R 2 1)
  m213 : (R 1 2 + R 2 1) * (R 0 1 - R 1 0) = sd R 2 * (R 2 0 - R 0 2)
  m301 : (R 1 2 - R 2 1) * (R 2 0 - R 0 2) = sd R 3 * (R 0 1 + R 1 0)
  m302 : (R 1 2 - R 2 1) * (R 0 1 - R 1 0) = sd R 3 * (R 0 2 + R 2 0)
  m312 : (R 2 0 - R 0 2) * (R 0 1 - R 1 0) = sd R 3 * (R 1 2 + R 2 1)

theorem Eqs.minors {R : M3} (e : Eqs R) : Minors R := by
  obtain ⟨⟩ := e
  constructor <;> simp only [sd, Matrix.cons_val] <;> grind

theorem raw_spec {R : M3} (e : Eqs R) :
    quat2r (r2quatBranch R (dc R) (argmax (dc R))) = R ∧ Unit4 (r2quatBranch R (dc R) (argmax (dc R))) := by
  have hp := argmax_pos e
  obtain ⟨h01, h02, h03, h12, h13, h23, m012, m013, m023, m102, m103, m123, m201, m203, m213, m301, m302, m312⟩ :=
    e.minors
  have hx (s : ℝ) (hs : 0 < s) : 0 < 1 / 2 * √s ∧ 4 * ((1 / 2 * √s) * (1 / 2 * √s)) = s := by
    have h1 := Real.sqrt_pos.mpr hs
    have h2 := Real.mul_self_sqrt (le_of_lt hs)
    exact ⟨by linarith, by linarith⟩
  rw [dc_eq e]
  generalize argmax (sd R) = m at hp ⊢
  -- `u` and `v` divided by the chosen component
  have one (x u : ℝ) (hx0 : 0 < x) : 4 * (x * (1 / 4 / x * u)) = u := by field_simp
  have two (s x u v w : ℝ) (hs : 0 < s) (hx0 : 0 < x) (hxs : 4 * (x * x) = s) (h : u * v = s * w) :
      4 * ((1 / 4 / x * u) * (1 / 4 / x * v)) = w := by
    have : 4 * ((1 / 4 / x * u) * (1 / 4 / x * v)) = u * v / (4 * (x * x)) := by field_simp
    rw [this, hxs, h]; field_simp
  obtain ⟨hx0, hxs⟩ := hx _ hp
  have one' (x u : ℝ) (hx0 : 0 < x) : 4 * (1 / 4 / x * u * x) = u := by field_simp
  fin_cases m <;> refine of_products (R := R) ?_ ?_ ?_ ?_ ?_ ?_ ?_ ?_ ?_ ?_ <;>
    first
    | exact hxs
    | exact Eq.trans (one _ _ hx0) (by ring)
    | exact Eq.trans (one' _ _ hx0) (by ring)
    | (refine two _ _ _ _ _ hp hx0 hxs ?_
       simp only [Fin.zero_eta, Fin.mk_one, Fin.reduceFinMk]
       first |
        (linear_combination -h01; done) |
        (linear_combination -h02; done) |
        (linear_combination -h03; done) |
        (linear_combination -h12; done) |
        (linear_combination -h13; done) |
        (linear_combination -h23; done) |
        (linear_combination m012; done) |
        (linear_combination m013; done) |
        (linear_combination m023; done) |
        (linear_combination m102; done) |
        (linear_combination m103; done) |
        (linear_combination m123; done) |
        (linear_combination m201; done) |
        (linear_combination m203; done) |
        (linear_combination m213; done) |
        (linear_combination m301; done) |
        (linear_combination m302; done) |
        (linear_combination m312; done))

/-- For every rotation, half turns included: converting the rotation matrix to a quaternion and back
returns the same matrix; the quaternion is unit and its scalar part is not negative. -/
theorem C49_round_trip (R : M3) (h : R ∈ SO3) :
    quat2r (r2quat R) = R ∧ Unit4 (r2quat R) ∧ 0 ≤ r2quat R 3 := by
  obtain ⟨h1, h2⟩ := raw_spec (SO3.eqs h)
  unfold r2quat
  generalize r2quatBranch R (dc R) (argmax (dc R)) = q at *
  simp only
  split_ifs with h3
  · refine ⟨?_, ?_, ?_⟩
    · rw [← h1]
      ext i j
      fin_cases i <;> fin_cases j <;> simp [quat2r]
    · simpa [Unit4] using h2
    · simp only [Pi.neg_apply]; linarith
  · exact ⟨h1, h2, by linarith⟩

/-- The other way round: a unit quaternion with positive scalar part is recovered from its matrix; one
with negative scalar part comes back with the opposite sign. -/
theorem C49_quaternion_recovered (q : V4) (hq : Unit4 q) :
    (0 < q 3 → r2quat (quat2r q) = q) ∧ (q 3 < 0 → r2quat (quat2r q) = -q) ∧
      (q 3 = 0 → r2quat (quat2r q) = q ∨ r2quat (quat2r q) = -q) := by
  obtain ⟨h1, h2, h3⟩ := C49_round_trip _ (C48_unit_gives_rotation q hq)
  have h4 := (C48_double_cover _ _ h2 hq).mp h1
  refine ⟨fun h => ?_, fun h => ?_, fun _ => h4⟩ <;> rcases h4 with h5 | h5
  · exact h5
  · rw [h5, Pi.neg_apply] at h3; linarith
  · rw [h5] at h3; linarith
  · exact h5

/-- A half turn about the `x` axis, for which the scalar part is zero. -/
example : (!![1, 0, 0; 0, -1, 0; 0, 0, -1] : M3) ∈ SO3 := by
  have : (!![1, 0, 0; 0, -1, 0; 0, 0, -1] : M3) = quat2r ![1, 0, 0, 0] := by
    ext i j
    fin_cases i <;> fin_cases j <;> simp [quat2r]
  rw [this]
  exact C48_unit_gives_rotation _ (by simp [Unit4])

end Kalibr.Kin
