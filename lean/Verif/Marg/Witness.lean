import Verif.Marg.Props
import Verif.Tactics
import Mathlib.Tactic.FinCases
import Mathlib.Tactic.IntervalCases
import Mathlib.Algebra.Order.Field.Rat

/-!
# Marginalisation: cases that meet the hypotheses, and cases in which the properties fail
-/

namespace Kalibr.Marg

open Finset

/-- A QR decomposition that is right for matrices that are already upper triangular. -/
def idQr (M : Mat ℚ) : Mat ℚ × Mat ℚ := (⟨M.rows, M.rows, fun i j => if i = j then 1 else 0⟩, M)

theorem idQr_ok {M : Mat ℚ} (h : ∀ i j, i < M.rows → j < M.cols → j < i → M.get i j = 0) :
    IsQr M (idQr M).1 (idQr M).2 := by
  refine ⟨rfl, rfl, fun i k hi hk => ?_, fun i j hi hj => ?_⟩
  · simp only [idQr]
    rw [sum_eq_single i]
    · simp
    · intro l _ hl; simp [hl]
    · intro h; exact absurd (mem_range.2 hi) h
  · simp only [idQr]
    rw [sum_eq_single i]
    · by_cases hij : i ≤ j
      · simp [hij]
      · simp [hij, h i j hi hj (by omega)]
    · intro l _ hl; simp [Ne.symm hl]
    · intro h; exact absurd (mem_range.2 hi) h

/-- Two variables, a term with two rows that depends on both, and a term with one row that depends on none. -/
def exT : Terms ℚ where
  dim := fun _ => 1
  edim := fun e => if e = 0 then 2 else 1
  err := fun e i => if e = 0 then (if i = 0 then 1 else 2) else 5
  jac := fun e => if e = 0 then [(1, ⟨2, 1, fun i _ => if i = 0 then 1 else 3⟩), (0, ⟨2, 1, fun i _ => if i = 0 then 2 else 0⟩)] else []

def exW : World := ⟨fun v => 10 + v, fun v => 20 + v, fun e => 30 + e⟩

theorem exT_sound : Sound exT [0, 1] [0, 1] := by
  intro e he
  fin_cases he
  · refine ⟨by simp [exT], fun q hq => ?_⟩
    simp only [exT, if_true, List.mem_cons, List.not_mem_nil, or_false] at hq
    rcases hq with rfl | rfl <;> exact ⟨by simp, by simp [exT], by simp [exT]⟩
  · exact ⟨by simp [exT], by simp [exT]⟩

theorem exT_qr : ∀ M, IsJacobian exT [0, 1] [0, 1] M → IsQr M (idQr M).1 (idQr M).2 := by
  intro M ⟨h1, h2, h3⟩
  refine idQr_ok fun i j hi hj hji => ?_
  rw [h1] at hi
  rw [h2] at hj
  simp only [dims, exT, List.map_cons, List.map_nil, List.sum_cons, List.sum_nil, if_true,
    if_neg (show ¬(1 : Nat) = 0 by omega)] at hi hj
  have e1 := h3 0 0 0 0 1 0 rfl rfl (by simp [exT]) (by simp [exT])
  have e2 := h3 1 1 0 0 0 0 rfl rfl (by simp [exT]) (by simp [exT])
  have e3 := h3 1 1 1 1 0 0 rfl rfl (by simp [exT]) (by simp [exT])
  simp [dims, exT, deriv] at e1 e2 e3
  interval_cases i <;> interval_cases j <;> first | omega | assumption

theorem exT_det : Determined exT [0, 1] [0, 1] [0] := by
  intro δ h1 h2 v hv j hj
  have e := h2 0 (by simp) 0 (by simp [exT])
  have h := h1 1 (by simp) 0
  simp [linError, exT, deriv, h] at e
  simp only [List.mem_singleton] at hv
  subst hv
  simp only [exT] at hj
  interval_cases j
  exact e

/-- The hypotheses of `C116_prior_partial`. -/
example : ∃ P : Prior ℚ, marginalize exT idQr id exW [0, 1] [0, 1] 1 0 = ⟨exW, [], .ok (P, none)⟩ ∧
    P.vars = [1] ∧
    ∃ const : ℚ, ∀ δ : Nat → Nat → ℚ,
      P.cost exT.dim δ + const ≤ linCost exT [0, 1] [0, 1] δ ∧
      ∃ δ' : Nat → Nat → ℚ, (∀ v ∈ [1], ∀ j, δ' v j = δ v j) ∧
        linCost exT [0, 1] [0, 1] δ' = P.cost exT.dim δ + const :=
  C116_prior_partial exT idQr id exW [0, 1] [0, 1] 1 (by simp) (by simp) exT_sound (by simp [dims, exT]) (by simp)
    exT_qr exT_det

/-- The prior of the example: the row `3 δ + 2`. -/
example : (match (marginalize exT idQr id exW [0, 1] [0, 1] 1 0).out with
    | .ok (P, _) => decide (P.size = 1 ∧ P.R 0 0 = 3 ∧ P.d 0 = -2)
    | _ => false) = true := by decide +kernel

/-- A case of `C116_covariance_counterexample`: three rows, two columns. -/
example : (marginalize exT idQr id exW [0, 1] [0, 1] 1 1).out = .ub :=
  C116_covariance_counterexample exT idQr id exW [0, 1] [0, 1] 1 1 (by simp) (by simp) exT_sound (by simp [dims, exT])
    exT_qr (by omega)

/-- A case of `C116_nothing_left`. -/
example : (marginalize exT idQr id exW [0, 1] [0, 1] 2 0).out = .raise :=
  C116_nothing_left exT idQr id exW [0, 1] [0, 1] 2 (by simp) (by simp) exT_sound (by simp)

/-- A case of `C116_duplicates`. -/
example : marginalize exT idQr id exW [0, 1, 0] [0, 1] 1 0 = ⟨exW, [], .raise⟩ :=
  C116_duplicates exT idQr id exW _ _ 1 0 (Or.inl (by simp))

/-- A case of `C116_top`: two variables of dimension one for two rows, out of three. -/
example : (partition exT.dim 1 2 [4, 5, 6] 0 0).2.2 = [4, 5] := by decide

/-- The inverse of an upper triangular matrix with two rows. -/
def inv2 (M : Mat ℚ) : Mat ℚ := ⟨M.cols, M.rows, fun i j =>
  if i = j then 1 / M.get i i else if i = 0 ∧ j = 1 then -M.get 0 1 / (M.get 0 0 * M.get 1 1) else 0⟩

theorem exT_sound' : Sound exT [0, 1] [0] := fun e he => exT_sound e (by simp at he; simp [he])

theorem exT_entries {M : Mat ℚ} (h : IsJacobian exT [0, 1] [0] M) :
    M.rows = 2 ∧ M.cols = 2 ∧ M.get 0 0 = 2 ∧ M.get 0 1 = 1 ∧ M.get 1 0 = 0 ∧ M.get 1 1 = 3 := by
  obtain ⟨h1, h2, h3⟩ := h
  have e1 := h3 0 0 0 0 0 0 rfl rfl (by simp [exT]) (by simp [exT])
  have e2 := h3 0 0 1 1 0 0 rfl rfl (by simp [exT]) (by simp [exT])
  have e3 := h3 0 0 0 0 1 0 rfl rfl (by simp [exT]) (by simp [exT])
  have e4 := h3 0 0 1 1 1 0 rfl rfl (by simp [exT]) (by simp [exT])
  simp [dims, exT, deriv] at h1 h2 e1 e2 e3 e4
  exact ⟨h1, h2, e1, e2, e3, e4⟩

/-- The hypotheses of `C116_covariance_partial`. -/
example : ∃ (J : Mat ℚ) (P : Prior ℚ) (C : Mat ℚ) (S : Nat → Nat → ℚ), IsJacobian exT [0, 1] [0] J ∧
      (marginalize exT idQr inv2 exW [0, 1] [0] 1 1).out = .ok (P, some C) ∧
      (marginalize exT idQr inv2 exW [0, 1] [0] 1 1).world = exW ∧
      C.rows = 1 ∧ C.cols = 1 ∧ (∀ i j, i < 1 → j < 1 → C.get i j = S i j) ∧
      ∀ i k, i < 2 → k < 2 →
        ∑ l ∈ range 2, (∑ p ∈ range 2, J.get p i * J.get p l) * S l k = if i = k then 1 else 0 :=
  C116_covariance_partial exT idQr inv2 exW [0, 1] [0] 1 1 (by simp) (by simp) exT_sound' (by simp [dims, exT])
    (by simp) (fun M hM => by
      obtain ⟨r, c, _, _, e, _⟩ := exT_entries hM
      refine idQr_ok fun i j hi hj hji => ?_
      rw [r] at hi
      rw [c] at hj
      interval_cases i <;> interval_cases j <;> first | omega | assumption)
    (fun M hM => by
      obtain ⟨r, c, e1, e2, e3, e4⟩ := exT_entries hM
      refine ⟨rfl, rfl, fun i k hi hk => ?_⟩
      simp only [upper, idQr, r, c] at hi hk ⊢
      simp only [sum_range_succ, sum_range_zero, zero_add, inv2]
      interval_cases i <;> interval_cases k <;> simp [e1, e2, e4] <;> norm_num)
    (by omega) (by simp [dims, exT])

/-- **C116**, the indices: an exception leaves the variables with the columns of the marginalisation. -/
theorem C116_indices_counterexample :
    ∃ (T : Terms ℚ) (W : World) (dvs ets : List Nat), dvs.Nodup ∧ ets.Nodup ∧ Sound T dvs ets ∧
      (marginalize T idQr id W dvs ets 1 0).out = .raise ∧
      (marginalize T idQr id W dvs ets 1 0).world.columnBase 1 ≠ W.columnBase 1 :=
  ⟨{ exT with jac := fun _ => [] }, exW, [0, 1], [1], by simp, by simp, fun e _ => ⟨by simp, by simp⟩,
    C116_underdetermined _ _ _ _ _ _ _ _ (by simp) (by simp) (fun e _ => ⟨by simp, by simp⟩) (by simp [dims, exT]),
    by decide⟩

/-- A term of two rows that depends on the second of two variables only. -/
def exR : Terms ℚ where
  dim := fun _ => 1
  edim := fun _ => 2
  err := fun _ _ => 0
  jac := fun _ => [(1, ⟨2, 1, fun i _ => if i = 0 then 1 else 0⟩)]

theorem exR_sound : Sound exR [0, 1] [0] := by
  intro e he
  refine ⟨by simp [exR], fun q hq => ?_⟩
  simp only [exR, List.mem_cons, List.not_mem_nil, or_false] at hq
  rw [hq]
  exact ⟨by simp, by simp [exR], by simp [exR]⟩

theorem exR_cost (δ : Nat → Nat → ℚ) : linCost exR [0, 1] [0] δ = δ 1 0 * δ 1 0 := by
  simp [linCost, linError, exR, deriv, sum_range_succ]

/-- **C116**, a removed variable that is not determined: the prior loses what is known about the remaining variable. -/
theorem C116_rank_counterexample :
    ∃ (T : Terms ℚ) (dvs ets : List Nat), dvs.Nodup ∧ ets.Nodup ∧ Sound T dvs ets ∧
      dims T.dim dvs ≤ dims T.edim ets ∧ (∀ M, IsJacobian T dvs ets M → IsQr M (idQr M).1 (idQr M).2) ∧
      ∀ W, ∃ P, (marginalize T idQr id W dvs ets 1 0).out = .ok (P, none) ∧
        (∀ δ, P.cost T.dim δ = 0) ∧
        ¬∃ const : ℚ, ∀ δ : Nat → Nat → ℚ,
          P.cost T.dim δ + const ≤ linCost T dvs ets δ ∧
          ∃ δ' : Nat → Nat → ℚ, (∀ v ∈ dvs.drop 1, ∀ j, δ' v j = δ v j) ∧
            linCost T dvs ets δ' = P.cost T.dim δ + const := by
  have hqr : ∀ M, IsJacobian exR [0, 1] [0] M → IsQr M (idQr M).1 (idQr M).2 := by
    intro M ⟨h1, h2, h3⟩
    refine idQr_ok fun i j hi hj hji => ?_
    rw [h1] at hi
    rw [h2] at hj
    simp only [dims, exR, List.map_cons, List.map_nil, List.sum_cons, List.sum_nil] at hi hj
    have e1 := h3 0 0 0 0 1 0 rfl rfl (by simp [exR]) (by simp [exR])
    simp [dims, exR, deriv] at e1
    interval_cases i <;> interval_cases j <;> first | omega | assumption
  refine ⟨exR, [0, 1], [0], by simp, by simp, exR_sound, by simp [dims, exR], hqr, fun W => ?_⟩
  obtain ⟨J, b, top, hJ, hb, _, e⟩ := marginalize_ok (inv := id) (W := W) (toRemove := 1) (numTop := 0) (by simp) (by simp)
    exR_sound (by simp [dims, exR]) (by simp) hqr (Nat.zero_le _) (cov := fun _ => none)
    (fun M _ => by rw [covariance, if_neg (by omega)])
  refine ⟨_, by rw [e], ?_⟩
  have hJ11 := hJ.2.2 0 0 1 1 1 0 rfl rfl (by simp [exR]) (by simp [exR])
  have hb1 := hb 0 0 1 rfl (by simp [exR])
  have hr := hJ.1
  simp [dims, exR, deriv] at hJ11 hb1 hr
  have h0 : ∀ δ, (Prior.mk (List.drop (Int.toNat 1) [0, 1]) (dims exR.dim [0, 1] - dims exR.dim (List.take (Int.toNat 1) [0, 1]))
      (fun i => ∑ k ∈ range (dims exR.edim [0]), (idQr J).1.get k (dims exR.dim (List.take (Int.toNat 1) [0, 1]) + i) * b k)
      (fun i j => (upper (idQr J).2).get (dims exR.dim (List.take (Int.toNat 1) [0, 1]) + i)
        (dims exR.dim (List.take (Int.toNat 1) [0, 1]) + j))).cost exR.dim δ = 0 := by
    intro δ
    simp [Prior.cost, Prior.error, dims, exR, sum_range_succ, idQr, upper, hJ11, hb1]
  refine ⟨h0, ?_⟩
  rintro ⟨const, h⟩
  obtain ⟨a1, _⟩ := h fun _ _ => 0
  obtain ⟨_, δ', b1, b2⟩ := h fun _ _ => 1
  rw [h0, exR_cost] at a1
  rw [h0, exR_cost, b1 1 (by simp)] at b2
  linarith

/-- **C116**, a term that depends on an active variable which is not listed: the block is written where the variable was
left by an earlier problem, here outside the matrix. -/
theorem C116_unlisted_counterexample :
    ∃ (T : Terms ℚ) (W : World) (dvs ets : List Nat), dvs.Nodup ∧ ets.Nodup ∧
      dims T.dim dvs ≤ dims T.edim ets ∧ (marginalize T idQr id W dvs ets 0 0).out = .ub :=
  ⟨exT, exW, [0], [0], by simp, by simp, by simp [dims, exT], by rfl⟩

end Kalibr.Marg
