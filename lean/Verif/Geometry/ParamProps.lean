import Verif.Geometry.Props

/-!
# Offsets in time and parameters of a camera (C107)
-/

namespace Kalibr.Geometry

open Kalibr.Camera Kalibr.Reproj Matrix

variable {C : Type} {ni nd : ℕ}

/-! ## Offsets in time -/

theorem update_delay {K : CamClass C ni nd} {rs : Bool} {g g' : Geo C} {v : ℕ → ℝ} {a : Active}
    (h : g.update K rs v a = .ok g') :
    g'.lineDelay = if a.shutter ∧ rs then g.lineDelay + v (dimP ni a + dimD nd a) else g.lineDelay := by
  rw [update_form] at h
  obtain ⟨c, -, h2⟩ := Out.bind_eq_ok.mp h
  exact (Out.ok.inj h2) ▸ rfl

/-- **C107** (offsets in time).  The Jacobian of the offset in time of a keypoint has a column for each entry of the
vector that `update` takes, and gives the change of the offset for every such vector. -/
theorem C107_temporal (K : CamClass C ni nd) (rs : Bool) (g : Geo C) (k : V2) (a : Active) :
    ∃ J, temporalOffsetJacobian ni nd rs k a = .ok J ∧ J.rows = 1 ∧ J.cols = minimalDimensions ni nd rs a ∧
      ∀ (v : Fin (minimalDimensions ni nd rs a) → ℝ) (g' : Geo C), g.update K rs (pointer v) a = .ok g' →
        g'.temporalOffset rs k = g.temporalOffset rs k + ((J.mat 1 (minimalDimensions ni nd rs a)).mulVec v) 0 := by
  have hN := dims_eq ni nd rs a
  have hcol : (if a.distortion then (if a.projection then 0 + ni else 0) + nd else if a.projection then 0 + ni else 0) =
      dimP ni a + dimD nd a := by
    unfold dimP dimD; split_ifs <;> simp
  unfold temporalOffsetJacobian
  simp only [hcol]
  by_cases h : a.shutter ∧ rs
  · have hS : dimS rs a = 1 := by simp [dimS, shutterDims, h]
    obtain ⟨J, h1, h2, h3, h4⟩ := setBlock_ok (A := Dyn.zero 1 (minimalDimensions ni nd rs a))
      (B := ⟨1, 1, fun _ => k 1⟩) (r := 0) (c := dimP ni a + dimD nd a) (by simp) (by simp [hN, hS])
    refine ⟨J, by rw [if_pos h, h1], h2, h3, fun v g' hu => ?_⟩
    have hd := update_delay hu
    rw [if_pos h] at hd
    have e : ((J.mat 1 (minimalDimensions ni nd rs a)).mulVec v) 0 =
        ∑ o ∈ Finset.range (dimP ni a + dimD nd a + 1), J.coeff 0 o * pointer v o := by
      have e : dimP ni a + dimD nd a + 1 = minimalDimensions ni nd rs a := by rw [hN, hS]
      rw [e, Finset.sum_range]
      simp only [Matrix.mulVec, dotProduct, Dyn.mat, Matrix.of_apply, pointer, Fin.is_lt, dif_pos, Fin.eta]
      rfl
    rw [e, Finset.sum_range_succ, Finset.sum_eq_zero, zero_add]
    · rw [h4 _ _ (by simp), if_pos (by simp)]
      simp only [Geo.temporalOffset, h.2, if_true, hd, Dyn.coeff]
      ring
    · intro o ho
      rw [Finset.mem_range] at ho
      rw [h4 _ _ (by simp), if_neg (by simp; omega)]
      simp
  · refine ⟨_, by rw [if_neg h], rfl, rfl, fun v g' hu => ?_⟩
    have hd := update_delay hu
    rw [if_neg h] at hd
    simp [Geo.temporalOffset, hd, Matrix.mulVec, dotProduct, Dyn.mat]

/-- Witness for the hypotheses of `C107_temporal`: an update that changes the offset. -/
example : ∃ g' : Geo (Cam (Frame 4) 4),
    (⟨demoCam, 1 / 100000⟩ : Geo _).update (pinhole Family.radtan) true (pointer fun _ : Fin 9 => 1 / 100) ⟨true, true, true⟩ = .ok g' ∧
      g'.temporalOffset true ![10, 20] ≠ (⟨demoCam, 1 / 100000⟩ : Geo (Cam (Frame 4) 4)).temporalOffset true ![10, 20] := by
  rw [update_form]
  refine ⟨_, by simp only [pinhole, Family.update, Family.radtan, if_true, Out.bind]; rfl, ?_⟩
  norm_num [Geo.temporalOffset, dimP, dimD, pointer]

/-! ## Parameters -/

/-- Specification: the functions for the parameters of the parts of a camera set what they get, and nothing else.
`ok` says which distortion parameters are accepted. -/
structure Lawful (Q : ParClass C ni nd) (ok : (Fin nd → ℝ) → Prop) : Prop where
  getI_setI : ∀ c p, Q.getI (Q.setI c p) = p
  getD_setI : ∀ c p, Q.getD (Q.setI c p) = Q.getD c
  setD_ok : ∀ c k, ok k → ∃ c', Q.setD c k = .ok c' ∧ Q.getD c' = k ∧ Q.getI c' = Q.getI c
  setD_raise : ∀ c k, ¬ ok k → Q.setD c k = .raise
  setI_getI : ∀ c, Q.setI c (Q.getI c) = c
  setD_getD : ∀ c, ok (Q.getD c) → Q.setD c (Q.getD c) = .ok c

theorem C107_lawful {n : ℕ} (F : Family n) :
    Lawful (pinholeP F) F.valid ∧ Lawful (omniP F) F.valid ∧ Lawful eucmP (fun _ => True) ∧
      Lawful dsP (fun _ => True) := by
  refine ⟨⟨?_, ?_, ?_, ?_, ?_, ?_⟩, ⟨?_, ?_, ?_, ?_, ?_, ?_⟩, ⟨?_, ?_, ?_, ?_, ?_, ?_⟩, ⟨?_, ?_, ?_, ?_, ?_, ?_⟩⟩
  · intro c p; funext i; fin_cases i <;> rfl
  · intro c p; rfl
  · intro c k hk; exact ⟨{ c with k := k }, by simp only [pinholeP, setDistortion, hk, if_true], rfl, rfl⟩
  · intro c k hk; simp [pinholeP, setDistortion, hk]
  · intro c; rfl
  · intro c h
    have h : F.valid c.k := h
    simp [pinholeP, setDistortion, h]
  · intro c p; funext i; fin_cases i <;> rfl
  · intro c p; rfl
  · intro c k hk; exact ⟨{ c with k := k }, by simp only [omniP, setDistortion, hk, if_true], rfl, rfl⟩
  · intro c k hk; simp [omniP, setDistortion, hk]
  · intro c; rfl
  · intro c h
    have h : F.valid c.k := h
    simp [omniP, setDistortion, h]
  · intro c p; funext i; fin_cases i <;> rfl
  · intro c p; rfl
  · intro c k hk; exact ⟨_, rfl, funext fun i => i.elim0, rfl⟩
  · intro c k hk; exact absurd trivial hk
  · intro c; rfl
  · intro c h; rfl
  · intro c p; funext i; fin_cases i <;> rfl
  · intro c p; rfl
  · intro c k hk; exact ⟨_, rfl, funext fun i => i.elim0, rfl⟩
  · intro c k hk; exact absurd trivial hk
  · intro c; rfl
  · intro c h; rfl

theorem column_rows {n : ℕ} (v : Fin n → ℝ) : (column v).rows = n := rfl

theorem column_cols {n : ℕ} (v : Fin n → ℝ) : (column v).cols ≤ 1 := by unfold column; dsimp; split_ifs <;> omega

theorem column_cols_pos {n : ℕ} (v : Fin n → ℝ) (h : 0 < n) : (column v).cols = 1 := by
  unfold column; dsimp; rw [if_neg (by omega)]

theorem column_coeff {n : ℕ} (v : Fin n → ℝ) (i : Fin n) : (column v).coeff i 0 = v i := by
  simp [Dyn.coeff, column]

theorem shutterColumn_rows (rs : Bool) (d : ℝ) : (shutterColumn rs d).rows = shutterDims rs := by
  cases rs <;> rfl

theorem shutterColumn_cols (rs : Bool) (d : ℝ) : (shutterColumn rs d).cols = shutterDims rs := by
  cases rs <;> rfl

/-- Specification: the column `P` holds the parameters of the parts to estimate of the camera `g`, one after another:
the projection, the distortion, the shutter. -/
structure Holds (Q : ParClass C ni nd) (rs : Bool) (a : Active) (P : Dyn) (g : Geo C) : Prop where
  rows : P.rows = minimalDimensions ni nd rs a
  cols : 0 < P.rows → P.cols = 1
  projection : a.projection → ∀ i : Fin ni, P.coeff i 0 = Q.getI g.cam i
  distortion : a.distortion → ∀ i : Fin nd, P.coeff ((if a.projection then ni else 0) + i) 0 = Q.getD g.cam i
  shutter : a.shutter → rs →
    P.coeff ((if a.projection then ni else 0) + if a.distortion then nd else 0) 0 = g.lineDelay

theorem put_ok {A B : Dyn} {row : ℕ} (act : Bool) (hr : row + (if act then B.rows else 0) ≤ A.rows)
    (hc : act → B.cols ≤ A.cols) :
    ∃ A', (if act then (do
        let params ← A.setBlock row 0 B
        pure (params, row + B.rows)) else pure (A, row) : Out (Dyn × ℕ)) = .ok (A', row + if act then B.rows else 0) ∧
      A'.rows = A.rows ∧ A'.cols = A.cols ∧ ∀ i, i < A.rows → A'.coeff i 0 =
        if act ∧ row ≤ i ∧ i < row + B.rows ∧ 0 < B.cols then B.coeff (i - row) 0 else A.coeff i 0 := by
  cases act with
  | false => exact ⟨A, rfl, rfl, rfl, fun i _ => by simp⟩
  | true =>
    obtain ⟨A', h1, h2, h3, h4⟩ := setBlock_ok (A := A) (B := B) (r := row) (c := 0) (by simpa using hr) (by simpa using hc rfl)
    refine ⟨A', by simp [h1], h2, h3, fun i hi => ?_⟩
    rw [h4 i 0 hi]
    simp [and_assoc]

theorem get_form (Q : ParClass C ni nd) (rs : Bool) (g : Geo C) (a : Active) :
    g.getParameters Q rs a = (do
      let (params, row) ← (if a.projection then (do
          let params ← (Dyn.zero ((if a.projection then ni else 0) + (if a.distortion then nd else 0) +
              if a.shutter then shutterDims rs else 0)
            (max (if a.projection then (column (Q.getI g.cam)).cols else 0)
              (max (if a.distortion then (column (Q.getD g.cam)).cols else 0)
                (if a.shutter then shutterDims rs else 0)))).setBlock 0 0 (column (Q.getI g.cam))
          pure (params, 0 + (column (Q.getI g.cam)).rows))
        else pure (Dyn.zero ((if a.projection then ni else 0) + (if a.distortion then nd else 0) +
              if a.shutter then shutterDims rs else 0)
            (max (if a.projection then (column (Q.getI g.cam)).cols else 0)
              (max (if a.distortion then (column (Q.getD g.cam)).cols else 0)
                (if a.shutter then shutterDims rs else 0))), 0) : Out (Dyn × ℕ))
      let (params, row) ← (if a.distortion then (do
          let params ← params.setBlock row 0 (column (Q.getD g.cam))
          pure (params, row + (column (Q.getD g.cam)).rows))
        else pure (params, row) : Out (Dyn × ℕ))
      if a.shutter then params.setBlock row 0 (shutterColumn rs g.lineDelay) else pure params) := by
  unfold Geo.getParameters
  simp only [column_rows, shutterColumn_rows, shutterColumn_cols]
  obtain ⟨p, d, s⟩ := a
  cases p <;> cases d <;> cases s <;> simp [max_assoc]

/-- **C107** (getParameters).  It gives the parameters of the parts to estimate, in the order in which `update` takes
them. -/
theorem C107_parameters_get (Q : ParClass C ni nd) (rs : Bool) (g : Geo C) (a : Active) :
    ∃ P, g.getParameters Q rs a = .ok P ∧ Holds Q rs a P g := by
  rw [get_form]
  have hN := dims_eq ni nd rs a
  simp only [dimP, dimD, dimS] at hN
  have hcol1 := column_cols (Q.getI g.cam)
  have hcol2 := column_cols (Q.getD g.cam)
  have hcol3 : shutterDims rs ≤ 1 := by cases rs <;> decide
  generalize hZ : Dyn.zero _ _ = Z
  have hZr : Z.rows = minimalDimensions ni nd rs a := by rw [← hZ, hN]; rfl
  have hZc : Z.cols = max (if a.projection then (column (Q.getI g.cam)).cols else 0)
              (max (if a.distortion then (column (Q.getD g.cam)).cols else 0)
                (if a.shutter then shutterDims rs else 0)) := by rw [← hZ]; rfl
  have hpos : 0 < minimalDimensions ni nd rs a → Z.cols = 1 := by
    intro h
    rw [hZc]
    rw [hN] at h
    by_cases h1 : 0 < ni
    all_goals by_cases h2 : 0 < nd
    all_goals (try rw [column_cols_pos (Q.getI g.cam) h1])
    all_goals (try rw [column_cols_pos (Q.getD g.cam) h2])
    all_goals split_ifs at h ⊢ <;> omega
  obtain ⟨A, a1, a2, a3, a4⟩ := put_ok (A := Z) (B := column (Q.getI g.cam)) (row := 0) a.projection
    (by rw [hZr, hN, column_rows]; split_ifs <;> omega) (fun h => by rw [hZc, if_pos h]; exact le_max_left _ _)
  obtain ⟨B, b1, b2, b3, b4⟩ := put_ok (A := A) (B := column (Q.getD g.cam)) (row := if a.projection then ni else 0) a.distortion
    (by rw [a2, hZr, hN, column_rows]; split_ifs <;> omega)
    (fun h => by rw [a3, hZc, if_pos h]; exact le_max_of_le_right (le_max_left _ _))
  obtain ⟨D, d1, d2, d3, d4⟩ := put_ok (A := B) (B := shutterColumn rs g.lineDelay)
    (row := (if a.projection then ni else 0) + if a.distortion then nd else 0) a.shutter
    (by rw [b2, a2, hZr, hN, shutterColumn_rows])
    (fun h => by rw [b3, a3, hZc, if_pos h, shutterColumn_cols]; exact le_max_of_le_right (le_max_right _ _))
  have hDr : D.rows = minimalDimensions ni nd rs a := by rw [d2, b2, a2, hZr]
  refine ⟨D, ?_, hDr, fun h => by rw [d3, b3, a3]; exact hpos (hDr ▸ h), fun h i => ?_, fun h i => ?_, fun h hr => ?_⟩
  · rw [a1]
    simp only [Out.ok_bind, Nat.zero_add, column_rows]
    rw [column_rows] at b1
    rw [b1]
    simp only [Out.ok_bind]
    cases hs : a.shutter with
    | false => simpa [hs] using d1
    | true =>
      simp only [hs, if_true] at d1 ⊢
      obtain ⟨x, h1, h2⟩ := Out.bind_eq_ok.mp d1
      rw [h1]
      simpa using h2
  · have hi := i.2
    have hlt : (i : ℕ) < minimalDimensions ni nd rs a := by rw [hN, if_pos h]; omega
    rw [d4 _ (by rw [b2, a2, hZr]; exact hlt), if_neg, b4 _ (by rw [a2, hZr]; exact hlt), if_neg,
      a4 _ (by rw [hZr]; exact hlt), if_pos]
    · exact column_coeff _ i
    · exact ⟨h, by omega, by rw [column_rows]; omega, by rw [column_cols_pos _ (by omega)]; omega⟩
    · rintro ⟨-, h1, -⟩; rw [if_pos h] at h1; omega
    · rintro ⟨-, h1, -⟩; rw [if_pos h] at h1; omega
  · have hi := i.2
    have hlt : (if a.projection then ni else 0) + (i : ℕ) < minimalDimensions ni nd rs a := by rw [hN, if_pos h]; omega
    rw [d4 _ (by rw [b2, a2, hZr]; exact hlt), if_neg, b4 _ (by rw [a2, hZr]; exact hlt), if_pos]
    · rw [Nat.add_sub_cancel_left]; exact column_coeff _ i
    · exact ⟨h, by omega, by rw [column_rows]; omega, by rw [column_cols_pos _ (by omega)]; omega⟩
    · rintro ⟨-, h1, -⟩; rw [if_pos h] at h1; omega
  · have hlt : (if a.projection then ni else 0) + (if a.distortion then nd else 0) < minimalDimensions ni nd rs a := by
      rw [hN, if_pos h, hr]; simp [shutterDims]
    rw [d4 _ (by rw [b2, a2, hZr]; exact hlt), if_pos]
    · rw [hr]; simp [shutterColumn, Dyn.coeff]
    · exact ⟨h, by omega, by rw [shutterColumn_rows, hr]; simp [shutterDims], by rw [shutterColumn_cols, hr]; simp [shutterDims]⟩

theorem take_ok {P : Dyn} {row n : ℕ} (hr : row + n ≤ P.rows) (hc : 0 < P.rows → P.cols = 1) :
    ∃ B, P.block row 0 n (if n = 0 then 0 else 1) = .ok B ∧
      (fun i : Fin n => B.coeff i 0) = fun i : Fin n => P.coeff (row + i) 0 := by
  obtain ⟨B, h1, h2⟩ := block_ok (A := P) (r := row) (c := 0) (m := n) (n := if n = 0 then 0 else 1) hr (by
    split_ifs with h
    · omega
    · rw [hc (by omega)])
  refine ⟨B, h1, funext fun i => ?_⟩
  have := h2 i 0 i.2 (by rw [if_neg (by have := i.2; omega)]; omega)
  simpa using this

theorem set_form (Q : ParClass C ni nd) (rs : Bool) (g : Geo C) (a : Active) (P : Dyn)
    (hr : P.rows = minimalDimensions ni nd rs a) (hc : 0 < P.rows → P.cols = 1) :
    g.setParameters Q rs P a =
      (if a.distortion then Q.setD (if a.projection then Q.setI g.cam fun i => P.coeff i 0 else g.cam)
          fun i => P.coeff ((if a.projection then ni else 0) + i) 0
        else .ok (if a.projection then Q.setI g.cam fun i => P.coeff i 0 else g.cam)).bind fun c =>
      .ok ⟨c, if a.shutter ∧ rs then P.coeff ((if a.projection then ni else 0) + if a.distortion then nd else 0) 0
        else g.lineDelay⟩ := by
  have hN := dims_eq ni nd rs a
  simp only [dimP, dimD, dimS] at hN
  unfold Geo.setParameters
  have h1 : (if a.projection then do
      let P ← P.block 0 0 ni (if ni = 0 then 0 else 1)
      pure (Q.setI g.cam fun i => P.coeff i 0, 0 + ni)
    else pure (g.cam, 0) : Out (C × ℕ)) = .ok (if a.projection then Q.setI g.cam fun i => P.coeff i 0 else g.cam,
      if a.projection then ni else 0) := by
    by_cases h : a.projection
    · obtain ⟨B, b1, b2⟩ := take_ok (P := P) (row := 0) (n := ni) (by rw [hr, hN, if_pos h]; omega) hc
      simp only [h, if_true, b1, Out.ok_bind, Out.pure_eq, b2, Nat.zero_add]
    · simp [h]
  simp only [h1, Out.ok_bind]
  generalize (if a.projection then Q.setI g.cam fun i => P.coeff i 0 else g.cam) = c
  have h2 : (if a.distortion then do
      let P ← P.block (if a.projection then ni else 0) 0 nd (if nd = 0 then 0 else 1)
      let c ← Q.setD c fun i => P.coeff i 0
      pure (c, (if a.projection then ni else 0) + nd)
    else pure (c, if a.projection then ni else 0) : Out (C × ℕ)) =
      (if a.distortion then Q.setD c fun i => P.coeff ((if a.projection then ni else 0) + i) 0 else .ok c).bind fun c =>
        .ok (c, (if a.projection then ni else 0) + if a.distortion then nd else 0) := by
    by_cases h : a.distortion
    · obtain ⟨B, b1, b2⟩ := take_ok (P := P) (row := if a.projection then ni else 0) (n := nd)
        (by rw [hr, hN, if_pos h]; omega) hc
      simp only [h, if_true, b1, Out.ok_bind, b2]
      rfl
    · simp [h, Out.bind]
  rw [h2]
  have h3 : (if a.shutter ∧ rs then do
      let P ← P.block ((if a.projection then ni else 0) + if a.distortion then nd else 0) 0 1 1
      pure (P.coeff 0 0)
    else pure g.lineDelay : Out ℝ) = .ok (if a.shutter ∧ rs then
      P.coeff ((if a.projection then ni else 0) + if a.distortion then nd else 0) 0 else g.lineDelay) := by
    by_cases h : a.shutter ∧ rs
    · obtain ⟨B, b1, b2⟩ := take_ok (P := P) (row := (if a.projection then ni else 0) + if a.distortion then nd else 0)
        (n := 1) (by rw [hr, hN, if_pos h.1, h.2]; simp [shutterDims]) hc
      have b3 := congrFun b2 0
      simp only [Fin.val_zero, Nat.add_zero, one_ne_zero, if_false] at b1 b3
      rw [if_pos h, if_pos h, b1, Out.ok_bind, b3]
      rfl
    · rw [if_neg h, if_neg h]
      rfl
  cases hq : (if a.distortion then Q.setD c fun i => P.coeff ((if a.projection then ni else 0) + i) 0 else .ok c) with
  | ok c' =>
    simp only [Out.bind, Out.ok_bind]
    rw [h3]
    rfl
  | raise => rfl
  | ub => rfl

/-- **C107** (setParameters).  For every camera and every column of the right length, it refuses distortion parameters
that are not valid, and otherwise gives a camera that has the parameters in the column for the parts to estimate, and
its old ones for the others. -/
theorem C107_parameters_set {Q : ParClass C ni nd} {ok : (Fin nd → ℝ) → Prop} (hQ : Lawful Q ok) (rs : Bool) (g : Geo C)
    (a : Active) (P : Dyn) (hr : P.rows = minimalDimensions ni nd rs a) (hc : 0 < P.rows → P.cols = 1) :
    ((a.distortion ∧ ¬ ok fun i => P.coeff ((if a.projection then ni else 0) + i) 0) → g.setParameters Q rs P a = .raise) ∧
    ((a.distortion → ok fun i => P.coeff ((if a.projection then ni else 0) + i) 0) →
      ∃ g', g.setParameters Q rs P a = .ok g' ∧ Holds Q rs a P g' ∧
        (¬ a.projection → Q.getI g'.cam = Q.getI g.cam) ∧ (¬ a.distortion → Q.getD g'.cam = Q.getD g.cam) ∧
        (¬ (a.shutter ∧ rs) → g'.lineDelay = g.lineDelay)) := by
  rw [set_form Q rs g a P hr hc]
  have hI : ∀ i : Fin ni, a.projection → Q.getI (if a.projection then Q.setI g.cam fun i => P.coeff i 0 else g.cam) i = P.coeff i 0 :=
    fun i h => by rw [if_pos h, hQ.getI_setI]
  have hI' : ¬ a.projection → Q.getI (if a.projection then Q.setI g.cam fun i => P.coeff i 0 else g.cam) = Q.getI g.cam :=
    fun h => by rw [if_neg h]
  have hD : Q.getD (if a.projection then Q.setI g.cam fun i => P.coeff i 0 else g.cam) = Q.getD g.cam := by
    split_ifs
    · rw [hQ.getD_setI]
    · rfl
  revert hI hI' hD
  generalize (if a.projection then Q.setI g.cam fun i => P.coeff i 0 else g.cam) = c
  intro hI hI' hD
  refine ⟨fun h => ?_, fun h => ?_⟩
  · rw [if_pos h.1, hQ.setD_raise _ _ h.2]
    rfl
  · by_cases hd : a.distortion
    · obtain ⟨c', h1, h2, h3⟩ := hQ.setD_ok c _ (h hd)
      rw [if_pos hd, h1]
      refine ⟨_, rfl, ⟨hr, hc, fun hp i => ?_, fun _ i => ?_, fun hs hrs => ?_⟩, fun hp => ?_, fun h => absurd hd h, fun h => ?_⟩
      · simp only [h3]; exact (hI i hp).symm
      · simp only [h2]
      · simp [hs, hrs]
      · simp only [h3]; exact hI' hp
      · simp [h]
    · rw [if_neg hd]
      refine ⟨_, rfl, ⟨hr, hc, fun hp i => ?_, fun h => absurd h hd, fun hs hrs => ?_⟩, fun hp => ?_, fun h => hD, fun h => ?_⟩
      · exact (hI i hp).symm
      · simp [hs, hrs]
      · exact hI' hp
      · simp [h]

/-- **C107** (parameters, there and back).  Setting the parameters a camera was asked for leaves it as it is. -/
theorem C107_parameters_identity {Q : ParClass C ni nd} {ok : (Fin nd → ℝ) → Prop} (hQ : Lawful Q ok) (rs : Bool) (g : Geo C)
    (a : Active) (hok : ok (Q.getD g.cam)) :
    ∃ P, g.getParameters Q rs a = .ok P ∧ g.setParameters Q rs P a = .ok g := by
  obtain ⟨P, h1, h2⟩ := C107_parameters_get Q rs g a
  refine ⟨P, h1, ?_⟩
  rw [set_form Q rs g a P h2.rows h2.cols]
  have e1 : (if a.projection then Q.setI g.cam fun i => P.coeff i 0 else g.cam) = g.cam := by
    split_ifs with h
    · rw [show (fun i : Fin ni => P.coeff i 0) = Q.getI g.cam from funext (h2.projection h), hQ.setI_getI]
    · rfl
  rw [e1]
  have e2 : (if a.distortion then Q.setD g.cam fun i => P.coeff ((if a.projection then ni else 0) + i) 0 else .ok g.cam) =
      .ok g.cam := by
    by_cases h : a.distortion
    · rw [if_pos h, show (fun i : Fin nd => P.coeff (((if a.projection then ni else 0)) + i) 0) = Q.getD g.cam from
        funext (h2.distortion h), hQ.setD_getD _ hok]
    · rw [if_neg h]
  rw [e2]
  have e3 : (if a.shutter ∧ rs then P.coeff ((if a.projection then ni else 0) + if a.distortion then nd else 0) 0
        else g.lineDelay) = g.lineDelay := by
    by_cases h : a.shutter ∧ rs
    · rw [if_pos h]; exact h2.shutter h.1 h.2
    · rw [if_neg h]
  rw [e3]
  rfl

/-- **C107** (parameters, to another camera).  Setting the parameters that another camera gave makes the parts to
estimate equal to those of the other camera, and leaves the others. -/
theorem C107_parameters_copy {Q : ParClass C ni nd} {ok : (Fin nd → ℝ) → Prop} (hQ : Lawful Q ok) (rs : Bool) (g g₀ : Geo C)
    (a : Active) (hok : ok (Q.getD g.cam)) :
    ∃ P g', g.getParameters Q rs a = .ok P ∧ g₀.setParameters Q rs P a = .ok g' ∧
      Q.getI g'.cam = (if a.projection then Q.getI g.cam else Q.getI g₀.cam) ∧
      Q.getD g'.cam = (if a.distortion then Q.getD g.cam else Q.getD g₀.cam) ∧
      g'.lineDelay = if a.shutter ∧ rs then g.lineDelay else g₀.lineDelay := by
  obtain ⟨P, h1, h2⟩ := C107_parameters_get Q rs g a
  have hd : a.distortion → (fun i : Fin nd => P.coeff ((if a.projection then ni else 0) + i) 0) = Q.getD g.cam :=
    fun h => funext (h2.distortion h)
  obtain ⟨g', h3, h4, h5, h6, h7⟩ := (C107_parameters_set hQ rs g₀ a P h2.rows h2.cols).2 (fun h => by rw [hd h]; exact hok)
  refine ⟨P, g', h1, h3, ?_, ?_, ?_⟩
  · split_ifs with h
    · funext i; rw [← h2.projection h, ← h4.projection h]
    · exact h5 h
  · split_ifs with h
    · funext i; rw [← h2.distortion h, ← h4.distortion h]
    · exact h6 h
  · split_ifs with h
    · rw [← h2.shutter h.1 h.2, ← h4.shutter h.1 h.2]
    · exact h7 h

/-- Witness for the hypotheses of the theorems about parameters. -/
example : Lawful (omniP Family.fov) Family.fov.valid ∧
    Family.fov.valid ((omniP Family.fov).getD ⟨⟨⟨400, 410, 320, 240, 640, 480, Camera.fov 1⟩, 1⟩, ![9 / 10]⟩) :=
  ⟨(C107_lawful _).2.1, by simp [Family.fov, omniP]; right; norm_num⟩

/-- **C107** (refused updates).  An update of the parameter of the FOV distortion that is refused nevertheless changes
the parameter: a valid parameter becomes one that is not valid. -/
theorem C107_fov_update_counterexample :
    ∃ w v : ℝ, Family.fov.valid ![w] ∧ (fovUpdate w v).1 = .raise ∧ (fovUpdate w v).2 ≠ w ∧
      ¬ Family.fov.valid ![(fovUpdate w v).2] := by
  refine ⟨1, 1, ?_, ?_, ?_, ?_⟩
  · simp only [Family.fov]; right; norm_num
  · unfold fovUpdate
    dsimp only
    rw [if_neg]
    norm_num
  · simp [fovUpdate]
  · simp only [Family.fov, fovUpdate]
    norm_num

/-- **C107** (accepted updates).  Updates that are accepted give valid parameters. -/
theorem C107_fov_update (w v : ℝ) (h : (fovUpdate w v).1 = .ok ()) :
    Family.fov.valid ![(fovUpdate w v).2] ∧ (fovUpdate w v).2 = w + v := by
  unfold fovUpdate at *
  simp only at *
  split_ifs at h with h1
  exact ⟨by simpa [Family.fov] using h1, trivial⟩

end Kalibr.Geometry
