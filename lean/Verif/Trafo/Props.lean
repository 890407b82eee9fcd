import Verif.Trafo.Model
import Verif.Tactics

/-!
# Transformations and their inverses (C171)
-/

namespace Kalibr.Trafo

open Matrix Real Kin

theorem turnX_mem (a : ℝ) : turnX a ∈ SO3 := by
  rw [Matrix.mem_specialOrthogonalGroup_iff, Matrix.mem_orthogonalGroup_iff]
  have h := sin_sq_add_cos_sq a
  constructor
  · ext i j
    fin_cases i <;> fin_cases j <;> simp [turnX, Matrix.mul_apply, Fin.sum_univ_three] <;>
      first | linear_combination h | ring
  · rw [Matrix.det_fin_three]; simp [turnX]; linear_combination h

theorem turnY_mem (a : ℝ) : turnY a ∈ SO3 := by
  rw [Matrix.mem_specialOrthogonalGroup_iff, Matrix.mem_orthogonalGroup_iff]
  have h := sin_sq_add_cos_sq a
  constructor
  · ext i j
    fin_cases i <;> fin_cases j <;> simp [turnY, Matrix.mul_apply, Fin.sum_univ_three] <;>
      first | linear_combination h | ring
  · rw [Matrix.det_fin_three]; simp [turnY]; linear_combination h

theorem turnZ_mem (a : ℝ) : turnZ a ∈ SO3 := by
  rw [Matrix.mem_specialOrthogonalGroup_iff, Matrix.mem_orthogonalGroup_iff]
  have h := sin_sq_add_cos_sq a
  constructor
  · ext i j
    fin_cases i <;> fin_cases j <;> simp [turnZ, Matrix.mul_apply, Fin.sum_univ_three] <;>
      first | linear_combination h | ring
  · rw [Matrix.det_fin_three]; simp [turnZ]; linear_combination h

theorem rpy_mem (roll pitch yaw : ℝ) : rpy roll pitch yaw ∈ SO3 :=
  SO3.mul_mem (SO3.mul_mem (turnZ_mem yaw) (turnY_mem pitch)) (turnX_mem roll)

/-- A rotation of space as a `4 x 4` matrix. -/
def emb (C : M3) : M4 :=
  !![C 0 0, C 0 1, C 0 2, 0;
     C 1 0, C 1 1, C 1 2, 0;
     C 2 0, C 2 1, C 2 2, 0;
     0, 0, 0, 1]

theorem rot3_eq (roll pitch yaw : ℝ) : rot3 roll pitch yaw = emb (rpy roll pitch yaw) := by
  ext i j
  fin_cases i <;> fin_cases j <;>
    simp [rot3, emb, rpy, turnX, turnY, turnZ, Matrix.mul_apply, Fin.sum_univ_three] <;> ring

theorem emb_transpose (C : M3) : (emb C)ᵀ = emb Cᵀ := by
  ext i j
  fin_cases i <;> fin_cases j <;> simp [emb]

theorem negLast3_trans (x y z : ℝ) : negLast3 (trans3 x y z) = trans3 (-x) (-y) (-z) := by
  ext i j
  fin_cases i <;> fin_cases j <;> simp [negLast3, trans3]

theorem does_MR (C : M3) (x y z : ℝ) (R M : Option M4) :
    Does3 ⟨some (trans3 x y z * emb C), R, M⟩ fun p => C.mulVec p + ![x, y, z] := by
  intro p
  simp only [T3.transform]
  congr 1
  ext i
  fin_cases i <;>
    simp [trans3, emb, Matrix.mulVec, dotProduct, Fin.sum_univ_succ, Matrix.mul_apply] <;> ring

theorem does_RM (C : M3) (x y z : ℝ) (R M : Option M4) :
    Does3 ⟨some (emb C * trans3 x y z), R, M⟩ fun p => C.mulVec (p + ![x, y, z]) := by
  intro p
  simp only [T3.transform]
  congr 1
  ext i
  fin_cases i <;>
    simp [trans3, emb, Matrix.mulVec, dotProduct, Fin.sum_univ_succ, Matrix.mul_apply] <;> ring

/-- What `setTransformation` makes turns every point by roll, pitch and yaw, a proper rotation, and then moves it. -/
theorem C171_set (o : T3) (x y z roll pitch yaw : ℝ) :
    Does3 (o.set x y z roll pitch yaw) (fun p => (rpy roll pitch yaw).mulVec p + ![x, y, z]) ∧
    rpy roll pitch yaw ∈ SO3 := by
  refine ⟨?_, rpy_mem _ _ _⟩
  unfold T3.set
  simp only [rot3_eq]
  exact does_MR _ _ _ _ _ _

theorem inverse_set (o : T3) (x y z roll pitch yaw : ℝ) : (o.set x y z roll pitch yaw).inverse =
    .ok ⟨some (emb (rpy roll pitch yaw)ᵀ * trans3 (-x) (-y) (-z)), some (emb (rpy roll pitch yaw)ᵀ),
      some (trans3 (-x) (-y) (-z))⟩ := by
  simp only [T3.set, T3.inverse, rot3_eq, emb_transpose, negLast3_trans]

/-- The inverse of a transformation that has been set, by `getInverse` or `inverse`: it undoes the transformation and
is undone by it.  Missing for the full property: transformations that were given as a matrix, and ones that have been
inverted already. -/
theorem C171_inverse_partial (o : T3) (x y z roll pitch yaw : ℝ) :
    ∃ (i : T3) (f g : V3 → V3), (o.set x y z roll pitch yaw).getInverse = .ok i ∧
      (o.set x y z roll pitch yaw).inverse = .ok i ∧
      Does3 (o.set x y z roll pitch yaw) f ∧ Does3 i g ∧ (∀ p, g (f p) = p) ∧ ∀ p, f (g p) = p := by
  obtain ⟨h1, h2⟩ := C171_set o x y z roll pitch yaw
  obtain ⟨ho, -⟩ := Matrix.mem_specialOrthogonalGroup_iff.mp h2
  have e1 := (Matrix.mem_orthogonalGroup_iff' _ _).mp ho
  have e2 := (Matrix.mem_orthogonalGroup_iff _ _).mp ho
  refine ⟨_, _, _, inverse_set .., inverse_set .., h1, does_RM _ _ _ _ _ _, fun p => ?_, fun p => ?_⟩
  · have : (rpy roll pitch yaw).mulVec p + ![x, y, z] + ![-x, -y, -z] = (rpy roll pitch yaw).mulVec p := by
      generalize (rpy roll pitch yaw).mulVec p = v
      ext i; rw [Pi.add_apply, Pi.add_apply]; fin_cases i <;> simp
    rw [this, Matrix.mulVec_mulVec, e1, Matrix.one_mulVec]
  · rw [Matrix.mulVec_mulVec, e2, Matrix.one_mulVec]
    ext i; rw [Pi.add_apply, Pi.add_apply]; fin_cases i <;> simp

/-- The matrix of a transformation that has been set, and the one of its inverse: the rotation, the translation and the row
`0 0 0 1`.  Before anything is set there is no matrix to read. -/
theorem C171_matrix (o : T3) (x y z roll pitch yaw : ℝ) (C : M3) (t : V3) (hC : C = rpy roll pitch yaw)
    (ht : t = Cᵀ.mulVec ![-x, -y, -z]) :
    (o.set x y z roll pitch yaw).T = some !![C 0 0, C 0 1, C 0 2, x; C 1 0, C 1 1, C 1 2, y; C 2 0, C 2 1, C 2 2, z;
      0, 0, 0, 1] ∧
    (∃ k, (o.set x y z roll pitch yaw).inverse = .ok k ∧
      k.T = some !![C 0 0, C 1 0, C 2 0, t 0; C 0 1, C 1 1, C 2 1, t 1; C 0 2, C 1 2, C 2 2, t 2; 0, 0, 0, 1]) ∧
    (∀ p, T3.new.transform p = .ub) ∧ T3.new.inverse = .ub := by
  subst hC ht
  refine ⟨?_, ⟨_, inverse_set .., ?_⟩, fun _ => rfl, rfl⟩
  · simp only [T3.set, rot3_eq]
    congr 1
    ext i j
    fin_cases i <;> fin_cases j <;> simp [trans3, emb, Matrix.mul_apply, Fin.sum_univ_succ]
  · simp only
    congr 1
    ext i j
    fin_cases i <;> fin_cases j <;>
      simp [trans3, emb, Matrix.mul_apply, Fin.sum_univ_succ, Matrix.mulVec, dotProduct] <;> ring

/-- The matrix of a transformation of the plane that has been set, and the one of its inverse: the turn, the translation and
the row `0 0 1`.  A transformation that was never set has no matrix to read, and one that was made from a matrix has no
inverse to read. -/
theorem C171_matrix_plane (o : T2) (x y yaw : ℝ) (m : M3) :
    (o.set x y yaw).T = some !![cos yaw, -sin yaw, x; sin yaw, cos yaw, y; 0, 0, 1] ∧
    (∃ k, (o.set x y yaw).inverse = .ok k ∧
      k.T = some !![cos yaw, sin yaw, -(cos yaw * x + sin yaw * y); -sin yaw, cos yaw, sin yaw * x - cos yaw * y; 0, 0, 1]) ∧
    (∀ p, T2.new.transform p = .ub) ∧ T2.new.inverse = .ub ∧ (T2.ofMatrix m).inverse = .ub ∧
    (∀ p, (T2.ofMatrix m).transform p = .ok ![m 0 0 * p 0 + m 0 1 * p 1 + m 0 2, m 1 0 * p 0 + m 1 1 * p 1 + m 1 2]) := by
  refine ⟨?_, ⟨_, rfl, ?_⟩, fun _ => rfl, rfl, rfl, fun p => ?_⟩
  · simp only [T2.set]
    congr 1
    ext i j
    fin_cases i <;> fin_cases j <;> simp [trans2, rot2, Matrix.mul_apply, Fin.sum_univ_succ]
  · simp only
    congr 1
    ext i j
    fin_cases i <;> fin_cases j <;> simp [trans2, rot2, negLast2, Matrix.mul_apply, Fin.sum_univ_succ] <;> ring
  · simp only [T2.transform, T2.ofMatrix]
    congr 1
    ext i
    fin_cases i <;> simp [Matrix.mulVec, dotProduct, Fin.sum_univ_succ] <;> ring

/-- After any number of calls of `inverse`: an odd number undoes the transformation, but an even one does not bring
it back: the point is moved before it is turned. -/
theorem C171_inverses (o : T3) (x y z roll pitch yaw : ℝ) (k : ℕ) :
    (∃ i, inverses3 (o.set x y z roll pitch yaw) (2 * k + 1) = .ok i ∧
      Does3 i fun p => (rpy roll pitch yaw)ᵀ.mulVec (p - ![x, y, z])) ∧
    (∃ i, inverses3 (o.set x y z roll pitch yaw) (2 * k + 2) = .ok i ∧
      Does3 i fun p => (rpy roll pitch yaw).mulVec (p + ![x, y, z])) := by
  set C := rpy roll pitch yaw with hC
  have step1 (T : Option M4) : T3.inverse ⟨T, some (emb C), some (trans3 x y z)⟩ =
      .ok ⟨some (emb Cᵀ * trans3 (-x) (-y) (-z)), some (emb Cᵀ), some (trans3 (-x) (-y) (-z))⟩ := by
    simp only [T3.inverse, emb_transpose, negLast3_trans]
  have step2 (T : Option M4) : T3.inverse ⟨T, some (emb Cᵀ), some (trans3 (-x) (-y) (-z))⟩ =
      .ok ⟨some (emb C * trans3 x y z), some (emb C), some (trans3 x y z)⟩ := by
    simp only [T3.inverse, emb_transpose, negLast3_trans, transpose_transpose, neg_neg]
  have odd : inverses3 (o.set x y z roll pitch yaw) (2 * k + 1) =
      .ok ⟨some (emb Cᵀ * trans3 (-x) (-y) (-z)), some (emb Cᵀ), some (trans3 (-x) (-y) (-z))⟩ := by
    induction k with
    | zero =>
      simp only [Nat.mul_zero, inverses3, Out.bind]
      exact inverse_set o x y z roll pitch yaw
    | succ k ih =>
      rw [show 2 * (k + 1) + 1 = (2 * k + 1) + 1 + 1 by ring, inverses3, inverses3, ih]
      simp only [Out.bind]
      rw [step2]
      simp only [Out.bind]
      rw [step1]
  refine ⟨⟨_, odd, ?_⟩, ⟨⟨some (emb C * trans3 x y z), some (emb C), some (trans3 x y z)⟩, ?_, does_RM _ _ _ _ _ _⟩⟩
  · have := does_RM Cᵀ (-x) (-y) (-z) (some (emb Cᵀ)) (some (trans3 (-x) (-y) (-z)))
    intro p
    rw [this p]
    have e : p + ![-x, -y, -z] = p - ![x, y, z] := by
      ext i; fin_cases i <;> simp <;> ring
    simp only [e]
  · rw [inverses3, odd]
    simp only [Out.bind]
    rw [step2]

/-- Inverting twice does not give the transformation back, although the code answers without an error. -/
theorem C171_inverse_twice_counterexample : ∃ (i : T3) (p q : V3),
    ((T3.new.set 1 0 0 0 0 π).inverse.bind T3.inverse) = .ok i ∧
    (T3.new.set 1 0 0 0 0 π).transform p = .ok p ∧ i.transform p = .ok q ∧ q ≠ p := by
  obtain ⟨-, i, hi, hd⟩ := C171_inverses T3.new 1 0 0 0 0 π 0
  have hs := (C171_set T3.new 1 0 0 0 0 π).1
  refine ⟨i, ![1 / 2, 0, 0], _, ?_, ?_, hd _, ?_⟩
  · simpa [inverses3] using hi
  · rw [hs]
    congr 1
    ext j
    fin_cases j <;>
      simp [rpy, turnX, turnY, turnZ, Matrix.mulVec, dotProduct, Fin.sum_univ_three, Matrix.mul_apply] <;> norm_num
  · intro h
    have := congrFun h 0
    simp [rpy, turnX, turnY, turnZ, Matrix.mulVec, dotProduct, Fin.sum_univ_three, Matrix.mul_apply] at this
    norm_num at this

/-- A transformation that was made from a matrix transforms points, but asking for its inverse reads members that
were never set. -/
theorem C171_inverse_of_matrix_counterexample (m : M4) (n : M3) (p : V3) (q : V2) :
    (∃ r, (T3.ofMatrix m).transform p = .ok r) ∧ (T3.ofMatrix m).getInverse = .ub ∧ (T3.ofMatrix m).inverse = .ub ∧
    (∃ r, (T2.ofMatrix n).transform q = .ok r) ∧ (T2.ofMatrix n).getInverse = .ub ∧ (T2.ofMatrix n).inverse = .ub :=
  ⟨⟨_, rfl⟩, rfl, rfl, ⟨_, rfl⟩, rfl, rfl⟩

/-- After the matrix of a transformation has been replaced, the inverse is still the one of the transformation
before, whatever the new matrix is. -/
theorem C171_inverse_stale_counterexample (o : T3) (x y z roll pitch yaw : ℝ) (m : M4) :
    ∃ i, ((o.set x y z roll pitch yaw).setMatrix m).getInverse = .ok i ∧
      (o.set x y z roll pitch yaw).getInverse = .ok i :=
  ⟨_, inverse_set o x y z roll pitch yaw, inverse_set o x y z roll pitch yaw⟩

/-! ## The plane -/

theorem negLast2_trans (x y : ℝ) : negLast2 (trans2 x y) = trans2 (-x) (-y) := by
  ext i j
  fin_cases i <;> fin_cases j <;> simp [negLast2, trans2]

theorem does_MR2 (a x y : ℝ) (R M : Option M3) :
    Does2 ⟨some (trans2 x y * rot2 a), R, M⟩ fun p => turn2 a p + ![x, y] := by
  intro p
  simp only [T2.transform]
  congr 1
  ext i
  fin_cases i <;>
    simp [trans2, rot2, turn2, Matrix.mulVec, dotProduct, Fin.sum_univ_succ, Matrix.mul_apply] <;> ring

theorem does_RM2 (a x y : ℝ) (R M : Option M3) :
    Does2 ⟨some ((rot2 a)ᵀ * trans2 x y), R, M⟩ fun p => turn2 (-a) (p + ![x, y]) := by
  intro p
  simp only [T2.transform]
  congr 1
  ext i
  fin_cases i <;>
    simp [trans2, rot2, turn2, Matrix.mulVec, dotProduct, Fin.sum_univ_succ, Matrix.mul_apply] <;> ring

/-- In the plane: what `setTransformation` makes turns every point and then moves it; the inverse of a transformation
that has been set undoes it and is undone by it. -/
theorem C171_plane_partial (o : T2) (x y yaw : ℝ) :
    ∃ (i : T2) (g : V2 → V2), Does2 (o.set x y yaw) (fun p => turn2 yaw p + ![x, y]) ∧
      (o.set x y yaw).getInverse = .ok i ∧ (o.set x y yaw).inverse = .ok i ∧ Does2 i g ∧
      (∀ p, g (turn2 yaw p + ![x, y]) = p) ∧ ∀ p, turn2 yaw (g p) + ![x, y] = p := by
  have h := sin_sq_add_cos_sq yaw
  have hi : (o.set x y yaw).inverse = .ok ⟨some ((rot2 yaw)ᵀ * trans2 (-x) (-y)), some (rot2 yaw)ᵀ,
      some (trans2 (-x) (-y))⟩ := by
    simp only [T2.set, T2.inverse, negLast2_trans]
  refine ⟨_, _, does_MR2 _ _ _ _ _, hi, hi, does_RM2 _ _ _ _ _, fun p => ?_, fun p => ?_⟩
  · ext i
    fin_cases i <;> simp [turn2]
    · linear_combination p 0 * h
    · linear_combination p 1 * h
  · ext i
    fin_cases i <;> simp [turn2]
    · linear_combination (p 0 - x) * h
    · linear_combination (p 1 - y) * h

/-- Inverting twice in the plane moves the point before it is turned; for half a turn that is another point. -/
theorem C171_plane_twice_counterexample : ∃ (i : T2) (p q : V2),
    ((T2.new.set 1 0 π).inverse.bind T2.inverse) = .ok i ∧
    (T2.new.set 1 0 π).transform p = .ok p ∧ i.transform p = .ok q ∧ q ≠ p := by
  refine ⟨⟨some ((rot2 π)ᵀᵀ * trans2 (-(-1)) (-(-0))), some (rot2 π)ᵀᵀ, some (trans2 (-(-1)) (-(-0)))⟩, ![1 / 2, 0],
    ![-(3 / 2), 0], ?_, ?_, ?_, ?_⟩
  · simp only [T2.set, T2.inverse, Out.bind, negLast2_trans]
  · rw [show T2.new.set 1 0 π = ⟨some (trans2 1 0 * rot2 π), some (rot2 π), some (trans2 1 0)⟩ from rfl, does_MR2]
    congr 1
    ext j
    fin_cases j <;> simp [turn2]; norm_num
  · simp only [T2.transform]
    congr 1
    ext j
    fin_cases j <;> simp [trans2, rot2, Matrix.mulVec, dotProduct, Fin.sum_univ_succ, Matrix.mul_apply]; norm_num
  · intro h
    have := congrFun h 0
    simp at this
    norm_num at this

end Kalibr.Trafo
