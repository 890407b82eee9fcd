import Verif.Fit.Least

/-!
# Fits with the acceleration at the knots

`BSpline::initSpline2` and `BSpline::addCurveSegment2`
(`aslam_nonparametric_estimation/aslam_bsplines/src/BSpline.cpp`), which replace the integral of the squared
acceleration by its values at single times.
-/

namespace Kalibr.Fit

open BSpline Motion Finset

section Model

variable {K : Type} [Field K] [LinearOrder K] [IsStrictOrderedRing K] {D : Nat}

/-- The regularization constraints of `initSpline2` (809-816): `lambda * Phi(t, 2)` with right hand side zero for
each of the listed knots. -/
def regRows (s : Spline K D) (C : Nat) (lam : K) : List K → Out (List (Row K D))
  | [] => .ok []
  | t :: rest => do
    let b ← localIndex s t
    let r ← row s C b t 2 0
    let rs ← regRows s C lam rest
    return { r with P := fun i j => lam * r.P i j } :: rs

/-- The knots from index `splineOrder_ - 1` to `knots.size() - splineOrder_` (809). -/
def validKnots (s : Spline K D) : List K :=
  (s.knots.drop (s.order - 1)).take (s.knots.length - s.order + 1 - (s.order - 1))

/-- `initSpline2` (762-846). -/
def initSpline2 (sol : Solvers K) (s : Spline K D) (data : List (K × (Fin D → K))) (numSegments : Nat)
    (lam : K) : Out (Spline K D) := do
  let s ← fitKnots s data numSegments
  let C := s.coeffs.length
  let reg ← regRows s C lam (validKnots s)
  let pos ← fitRows s C data
  let rows := reg ++ pos
  setCoefficientVector s (toVec (C * D) (sol.ldlt (C * D)
    (gram (rows.length * D) (denseA s.order rows)) (gramRhs (rows.length * D) (denseA s.order rows) (denseB rows))))

/-- `lambda * P.block(0, off*D, D, 2*D)` for `P = Phi(t, 2)`, with right hand side zero (1238-1248). -/
def accelRow (s : Spline K D) (off : Nat) (lam t : K) : Out (Row K D) := do
  let P ← phi s t 2
  return ⟨0, fun r c => lam * P r (off * D + c), 0⟩

/-- `addCurveSegment2` (1169-1248), up to the solution of the system: as in `addCurveSegment`, with two more
constraints.  The spline with the new knots, and the block rows. -/
def segment2Rows (junk : Fin D → K) (s : Spline K D) (t : K) (p1 : Fin D → K) (lam : K) :
    Out (Spline K D × List (Row K D)) := do
  let hi ← tMax s
  if ¬ hi < t then .raise
  else
    let NT := numValidTimeSegments s.order s.knots.length
    let I ← timeInterval s (NT - 1)
    let p0 ← evalD s I.2 0
    let p ← computeTIndex s I.1
    if s.knots.length ≤ p.2 + 1 then .ub
    else
      let dt := t - knotAt s.knots (p.2 + 1)
      let s ← setKnotsAndCoefficients s (extendKnots s.knots p.2 t dt) (s.coeffs ++ [junk])
      let J ← timeInterval s NT
      let off := s.order - 2
      let fixed ← localCoefficientVector s J.1
      let r0 ← extendRow s off (fixed.take (off * D)) J.1 p0
      let r1 ← extendRow s off (fixed.take (off * D)) J.2 p1
      let r2 ← accelRow s off lam J.1
      let r3 ← accelRow s off lam J.2
      return (s, [r0, r1, r2, r3])

/-- `addCurveSegment2` (1167-1274).  There are `4 D` rows and `2 D` columns, so the system is solved by its normal
equations. -/
def addCurveSegment2 (sol : Solvers K) (junk : Fin D → K) (s : Spline K D) (t : K) (p1 : Fin D → K) (lam : K) :
    Out (Spline K D) := do
  let r ← segment2Rows junk s t p1 lam
  let A := denseA 2 r.2
  let x := sol.qr (2 * D) (gram (4 * D) A) (gramRhs (4 * D) A (denseB r.2))
  return { r.1 with coeffs := setLastTwo r.1.coeffs x }

end Model

/-- The squared derivative of order `d` of the spline at the time. -/
noncomputable def derivSq {D : Nat} (s : Spline ℝ D) (t : ℝ) (d : Nat) : ℝ :=
  match evalD s t d with
  | .ok v => ∑ e, v e ^ 2
  | _ => 0

/-- The cost of `initSpline2`: the squared distances from the points, and the square of `lam` times the sum of
the squared accelerations at the borders of the segments. -/
noncomputable def pointCost {D : Nat} (s : Spline ℝ D) (data : List (ℝ × (Fin D → ℝ))) (lam : ℝ) : ℝ :=
  (data.map fun q => missSq s q.1 q.2).sum +
    lam ^ 2 * ∑ i ∈ range (numValidTimeSegments s.order s.knots.length + 1),
      derivSq s (s.knots.getD (s.order - 1 + i) 0) 2

section Props

variable {D : Nat} {s : Spline ℝ D}

/-- The contribution of one block row to the squared error. -/
structure RowFor (s : Spline ℝ D) (f : (Nat → ℝ) → ℝ) (R : Row ℝ D) : Prop where
  fits : R.start + s.order ≤ s.coeffs.length
  weights : ∃ W, HasWeights s.order R W ∧ ∀ x : Nat → ℝ, f x =
    ∑ e : Fin D, (∑ c ∈ range s.order, W c * x ((R.start + c) * D + e) - R.rhs e) ^ 2

theorem rowsFor_cost {fs : List ((Nat → ℝ) → ℝ)} {rows : List (Row ℝ D)} (h : List.Forall₂ (RowFor s) fs rows)
    (x : Nat → ℝ) :
    (fs.map fun f => f x).sum =
      ∑ a ∈ range (rows.length * D), (∑ j ∈ range (s.coeffs.length * D), denseA s.order rows a j * x j -
        denseB rows a) ^ 2 := by
  have hl := h.length_eq
  rw [sum_range_mul, ← Fin.sum_univ_fun_getElem, ← hl, Finset.sum_range]
  apply sum_congr rfl
  intro r _
  have hr := (List.forall₂_iff_get.1 h).2 r r.2 (by rw [← hl]; exact r.2)
  simp only [List.get_eq_getElem] at hr
  obtain ⟨W, hW, hv⟩ := hr.weights
  have hg : rows[(r : Nat)]? = some rows[(r : Nat)] := by simp
  rw [hv x, Finset.sum_range]
  apply sum_congr rfl
  intro e _
  rw [denseA_row hg rfl hW hr.fits e x, denseB_row hg e]

theorem rowOf_for {q : ℝ × (Fin D → ℝ)} {R : Row ℝ D} (h : RowOf s q R) :
    RowFor s (fun x => missSq (withCoeffs s x) q.1 q.2) R := by
  obtain ⟨W, h1, h2⟩ := h.weights
  refine ⟨h.fits, W, h1, fun x => ?_⟩
  simp only [missSq, h2 x, h.rhs]

theorem rowsOf_for {data : List (ℝ × (Fin D → ℝ))} {rows : List (Row ℝ D)} (h : List.Forall₂ (RowOf s) data rows) :
    List.Forall₂ (RowFor s) (data.map fun q x => missSq (withCoeffs s x) q.1 q.2) rows := by
  induction h with
  | nil => exact List.Forall₂.nil
  | cons h1 _ ih => exact List.Forall₂.cons (rowOf_for h1) ih

theorem regRows_ok (w : WellFormed s) {lo hi : ℝ} (hlo : tMin s = .ok lo) (hhi : tMax s = .ok hi) (lam : ℝ)
    (ts : List ℝ) (h : ∀ t ∈ ts, lo ≤ t ∧ t ≤ hi) :
    ∃ rows, regRows s s.coeffs.length lam ts = .ok rows ∧
      List.Forall₂ (RowFor s) (ts.map fun t x => lam ^ 2 * derivSq (withCoeffs s x) t 2) rows := by
  induction ts with
  | nil => exact ⟨[], rfl, List.Forall₂.nil⟩
  | cons t rest ih =>
    obtain ⟨rows, h1, h2⟩ := ih fun q hq => h q (by simp [hq])
    obtain ⟨a1, a2⟩ := h t (by simp)
    obtain ⟨p, hp⟩ := accepted w hlo hhi a1 a2
    obtain ⟨l1, l2⟩ := localIndex_of w hp
    obtain ⟨W, hW⟩ : ∃ W, W = weights s.order (basisM (knotAt s.knots) s.order p.2)
      (computeU (knotAt s.knots) s.order (normTime s t p.2) p.2 2) := ⟨_, rfl⟩
    refine ⟨⟨p.2 + 1 - s.order, fun i j => lam * phiOf D s.order W i j, 0⟩ :: rows, ?_, ?_⟩
    · unfold regRows row phi
      rw [l1, localBi_of w hp]
      simp only [Out.ok_bind, Out.pure_eq]
      rw [if_neg (by omega), h1, hW]
      rfl
    · refine List.Forall₂.cons ⟨l2, fun c => lam * W c, ?_, fun x => ?_⟩ h2
      · intro j hj e e'
        have := phi_weights (st := 0) (w := W) (rhs := (0 : Fin D → ℝ)) j hj e e'
        simp only at this
        show lam * (if _ then _ else _) = _
        rw [this]
        split <;> simp
      · have hp' : computeTIndex (withCoeffs s x) t = .ok p := hp
        simp only [derivSq]
        rw [evalD_of (withCoeffs_wf w x) hp', mul_sum]
        apply sum_congr rfl
        intro e _
        rw [← mul_pow, mul_sum]
        congr 1
        show _ = _ - (0 : Fin D → ℝ) e
        rw [Pi.zero_apply, sub_zero]
        apply sum_congr rfl
        intro c hc
        have hc : c < s.order := by
          have : c < (withCoeffs s x).order := by simpa using hc
          exact this
        have hun : (unstack D s.coeffs.length x).getD (p.2 + 1 - s.order + c) 0 e = x ((p.2 + 1 - s.order + c) * D + e) := by
          unfold unstack
          rw [List.getD_eq_getElem?_getD, List.getElem?_map, List.getElem?_range (by omega)]
          rfl
        have : (withCoeffs s x).coeffs.getD (p.2 + 1 - (withCoeffs s x).order + c) 0 e =
          x ((p.2 + 1 - s.order + c) * D + e) := hun
        rw [this, hW]
        show lam * (_ * _) = lam * _ * _
        rw [mul_assoc]
        congr 1
        exact mul_comm _ _

/-- **C114** (acceleration at the knots).  The same for `initSpline2`, whose cost is the sum of the squared
distances from the points plus the square of `λ` times the sum of the squared accelerations at the borders of
all segments, and for any sign of `λ`. -/
theorem C114_points_partial {sol : Solvers ℝ} (hx : Exact sol) (hk : 2 ≤ s.order) {data : List (ℝ × (Fin D → ℝ))}
    {first last : ℝ × (Fin D → ℝ)} (hfirst : data.head? = some first) (hlast : data.getLast? = some last)
    (h2 : 2 ≤ data.length) (hsorted : (data.map Prod.fst).Pairwise (· ≤ ·)) {n : Nat} (hn : 1 ≤ n)
    (hlen : s.knots.length ≤ n + 2 * s.order - 1) (lam : ℝ) :
    ∃ s', initSpline2 sol s data n lam = .ok s' ∧ WellFormed s' ∧ s'.order = s.order ∧
      tMin s' = .ok first.1 ∧ tMax s' = .ok last.1 ∧ numValidTimeSegments s'.order s'.knots.length = n ∧
      ∀ y, pointCost s' data lam ≤ pointCost (withCoeffs s' y) data lam := by
  obtain ⟨q, g1, w, g3, g4, g5, g6, g7⟩ := fitKnots_ok hk hfirst hlast h2 hsorted hn hlen
  have wk := w.order_ge; have wn := w.enough
  have hvk : ∀ i, i < n + 1 → (validKnots q)[i]? = some (knotAt q.knots (q.order - 1 + i)) := by
    intro i hi
    have hn' : n = q.knots.length + 1 - 2 * q.order := by rw [← g6]; rfl
    unfold validKnots
    rw [List.getElem?_take, if_pos (by omega), List.getElem?_drop, List.getElem?_eq_getElem (by omega),
      knotAt_getElem _ _ (by omega)]
  have hvl : (validKnots q).length = n + 1 := by
    have hn' : n = q.knots.length + 1 - 2 * q.order := by rw [← g6]; rfl
    unfold validKnots
    simp
    omega
  have hin : ∀ t ∈ validKnots q, first.1 ≤ t ∧ t ≤ last.1 := by
    intro t ht
    obtain ⟨i, hi, rfl⟩ := List.mem_iff_getElem.1 ht
    have := hvk i (by omega)
    rw [List.getElem?_eq_getElem hi] at this
    rw [Option.some.inj this]
    have e1 := g4; have e2 := g5
    rw [w.tMin_eq] at e1; rw [w.tMax_eq] at e2
    rw [← Out.ok.inj e1, ← Out.ok.inj e2]
    have hn' : n = q.knots.length + 1 - 2 * q.order := by rw [← g6]; rfl
    exact ⟨w.sorted _ _ (by omega) (by omega), w.sorted _ _ (by omega) (by omega)⟩
  obtain ⟨reg, r1, r2⟩ := regRows_ok w g4 g5 lam _ hin
  obtain ⟨pos, p1, p2⟩ := fitRows_ok w g4 g5 data g7
  have hall := List.rel_append r2 (rowsOf_for p2)
  have hcost : ∀ z : Spline ℝ D, (∀ y, withCoeffs z y = withCoeffs q y) → z.order = q.order → z.knots = q.knots →
      ∀ x, pointCost (withCoeffs z x) data lam = ∑ a ∈ range ((reg ++ pos).length * D),
        (∑ j ∈ range (q.coeffs.length * D), denseA q.order (reg ++ pos) a j * x j - denseB (reg ++ pos) a) ^ 2 := by
    intro z hz ho hkn x
    rw [← rowsFor_cost hall x, List.map_append, List.sum_append, List.map_map, List.map_map, add_comm, hz]
    unfold pointCost
    congr 1
    rw [mul_sum, show (withCoeffs q x).order = q.order from rfl, show (withCoeffs q x).knots = q.knots from rfl, g6,
      ← Fin.sum_univ_fun_getElem, Finset.sum_range]
    have hrange : ∀ F : ℝ → ℝ, ∑ i : Fin (n + 1), F (q.knots.getD (q.order - 1 + i) 0) =
        ∑ i : Fin (validKnots q).length, F (validKnots q)[(i : Nat)] := by
      intro F
      rw [← Finset.sum_range (fun i => F (q.knots.getD (q.order - 1 + i) 0)), ← hvl, Finset.sum_range]
      apply sum_congr rfl
      intro i _
      have := hvk i (by have := i.2; omega)
      rw [List.getElem?_eq_getElem i.2] at this
      rw [Option.some.inj this]
      rfl
    exact hrange fun t => lam ^ 2 * derivSq (withCoeffs q x) t 2
  obtain ⟨n1, n2⟩ := normal_ok (n := q.coeffs.length * D) (m := (reg ++ pos).length * D)
    (A := denseA q.order (reg ++ pos)) (denseB (reg ++ pos)) (Q := fun _ _ => 0) (by simp) (by simp)
  simp only [add_zero] at n1 n2
  obtain ⟨x, hxd⟩ : ∃ x, x = sol.ldlt (q.coeffs.length * D) (gram ((reg ++ pos).length * D) (denseA q.order (reg ++ pos)))
    (gramRhs ((reg ++ pos).length * D) (denseA q.order (reg ++ pos)) (denseB (reg ++ pos))) := ⟨_, rfl⟩
  have hsol := hx.ldlt _ _ _ n1 n2
  obtain ⟨s', b1, b2, b3, b4, b5, b6⟩ := set_fit w x
  refine ⟨s', ?_, b2, by rw [b3, g3], by rw [b2.tMin_eq, b3, b4, ← w.tMin_eq, g4],
    by rw [b2.tMax_eq, b3, b4, ← w.tMax_eq, g5], by rw [b3, b4, g6], fun y => ?_⟩
  · unfold initSpline2
    rw [g1]
    simp only [Out.ok_bind, r1, p1]
    rw [← hxd]
    exact b1
  · have e1 := hcost s' b6 b3 b4 y
    have e2 := hcost q (fun _ => rfl) rfl rfl x
    rw [← b5] at e2
    rw [e1, e2]
    have := quad_min (Q := fun _ _ => 0) (by simp) (by simp) (x := x) (n := q.coeffs.length * D) (by
      simp only [add_zero]; rw [hxd]; exact hsol) y
    simpa using this

/-- **C114** (rejections of `initSpline2`). -/
theorem C114_points_rejects (sol : Solvers ℝ) (data : List (ℝ × (Fin D → ℝ))) (n : Nat) (lam : ℝ)
    (h : data.length < 2 ∨ n = 0 ∨ ¬(data.map Prod.fst).Pairwise (· ≤ ·)) :
    initSpline2 sol s data n lam = .raise := by
  have := (C114_rejects (s := s) sol data n [] lam).1 h
  unfold initSpline3 at this
  have hf : fitKnots s data n = .raise := by
    unfold fitKnots
    by_cases h1 : data.length < 2
    · rw [if_pos h1]
    by_cases h2 : n < 1
    · rw [if_neg h1, if_pos h2]
    rw [if_neg h1, if_neg h2, if_pos]
    rcases h with h | h | h
    · exact absurd h h1
    · omega
    · exact h
  unfold initSpline2
  rw [hf]
  rfl

end Props

section Segment2

variable {K : Type} [Field K] [LinearOrder K] [IsStrictOrderedRing K] {D : Nat} {s : Spline K D}

/-- The solvers with the QR decomposition applied to the normal equations. -/
def viaNormal (sol : Solvers K) : Solvers K :=
  { sol with qr := fun n A b => sol.qr n (gram n A) (gramRhs n A b) }

theorem viaNormal_exact {sol : Solvers K} (hx : Exact sol) : Exact (viaNormal sol) := by
  refine ⟨fun n A b h => ?_, hx.ldlt, hx.cholmod⟩
  have hg : Nonsingular n (gram n A) := gram_nonsingular fun x hx' => h x hx'
  have h1 : Solves n (gram n A) (sol.qr n (gram n A) (gramRhs n A b)) (gramRhs n A b) := hx.qr _ _ _ hg
  have h0 := hx.qr n A b h
  have h2 : Solves n (gram n A) (sol.qr n A b) (gramRhs n A b) := by
    intro i hi
    rw [gram_mul]
    unfold gramRhs
    exact sum_congr rfl fun a ha => by rw [h0 a (by simpa using ha)]
  have hu := hg.unique h1 h2
  intro i hi
  rw [← h0 i hi]
  exact sum_congr rfl fun j hj => by
    show A i j * sol.qr n (gram n A) (gramRhs n A b) j = _
    rw [hu j (by simpa using hj)]

theorem phi_two {t : K} {P : Nat → Nat → K} (h : phi s t 0 = .ok P) : ∃ P, phi s t 2 = .ok P := by
  unfold phi localBi at h ⊢
  obtain ⟨w, h1, _⟩ := Out.bind_eq_ok.mp h
  obtain ⟨l, h2, h3⟩ := Out.bind_eq_ok.mp h1
  rw [h2, Out.ok_bind]
  cases hb : s.basis[l.2.2]? with
  | none => rw [hb] at h3; cases h3
  | some M =>
    simp only [Out.pure_eq, Out.ok_bind]
    exact ⟨_, rfl⟩

theorem dense_zero {rows : List (Row K D)} {r2 r3 : Row K D} (h2 : rows.length = 2)
    (z2 : ∀ i j, r2.P i j = 0) (z3 : ∀ i j, r3.P i j = 0) :
    gram (4 * D) (denseA 2 (rows ++ [r2, r3])) = gram (2 * D) (denseA 2 rows) ∧
    gramRhs (4 * D) (denseA 2 (rows ++ [r2, r3])) (denseB (rows ++ [r2, r3])) =
      gramRhs (2 * D) (denseA 2 rows) (denseB rows) := by
  have hlo : ∀ a, a < 2 * D → (rows ++ [r2, r3])[a / D]? = rows[a / D]? := by
    intro a ha
    have : a / D < 2 := Nat.div_lt_of_lt_mul (by rwa [Nat.mul_comm])
    rw [List.getElem?_append_left (by omega)]
  have hz : ∀ a j, 2 * D ≤ a → a < 4 * D → denseA 2 (rows ++ [r2, r3]) a j = 0 := by
    intro a j ha hb
    have hD : 0 < D := by omega
    have h1 : 2 ≤ a / D := (Nat.le_div_iff_mul_le hD).2 ha
    have h3 : a / D < 4 := Nat.div_lt_of_lt_mul (by rwa [Nat.mul_comm])
    unfold denseA
    rw [List.getElem?_append_right (by omega), h2]
    have : a / D - 2 = 0 ∨ a / D - 2 = 1 := by omega
    rcases this with h | h <;> rw [h] <;> simp [z2, z3]
  have hsum : ∀ F G : Nat → K, (∀ a, a < 2 * D → F a = G a) → (∀ a, 2 * D ≤ a → a < 4 * D → F a = 0) →
      ∑ a ∈ range (4 * D), F a = ∑ a ∈ range (2 * D), G a := by
    intro F G h1 h2
    rw [← sum_subset (s₁ := range (2 * D)) (by intro a; simp; omega)]
    · exact sum_congr rfl fun a ha => h1 a (by simpa using ha)
    · intro a ha hb
      exact h2 a (by simpa using hb) (by simpa using ha)
  have hA : ∀ a j, a < 2 * D → denseA 2 (rows ++ [r2, r3]) a j = denseA 2 rows a j := by
    intro a j ha
    unfold denseA
    rw [hlo a ha]
  constructor
  · funext i j
    unfold gram
    exact hsum _ _ (fun a ha => by rw [hA _ _ ha, hA _ _ ha]) fun a h1 h2 => by rw [hz _ _ h1 h2, zero_mul]
  · funext i
    unfold gramRhs
    refine hsum _ _ (fun a ha => ?_) fun a h1 h2 => by rw [hz _ _ h1 h2, zero_mul]
    rw [hA _ _ ha]
    congr 1
    unfold denseB
    rw [hlo a ha]

/-- With the weight zero, `addCurveSegment2` is `addCurveSegment` with the system solved by its normal
equations. -/
theorem segment2_zero (sol : Solvers K) (junk : Fin D → K) (t : K) (p1 : Fin D → K) {s' : Spline K D}
    (h : addCurveSegment (viaNormal sol) junk s t p1 = .ok s') :
    addCurveSegment2 sol junk s t p1 0 = .ok s' := by
  unfold addCurveSegment at h
  obtain ⟨hi, h1, h⟩ := Out.bind_eq_ok.mp h
  by_cases hc : ¬ hi < t
  · rw [if_pos hc] at h; cases h
  rw [if_neg hc] at h
  obtain ⟨I, h2, h⟩ := Out.bind_eq_ok.mp h
  obtain ⟨p0, h3, h⟩ := Out.bind_eq_ok.mp h
  obtain ⟨p, h4, h⟩ := Out.bind_eq_ok.mp h
  by_cases hc2 : s.knots.length ≤ p.2 + 1
  · rw [if_pos hc2] at h; cases h
  rw [if_neg hc2] at h
  obtain ⟨q, h5, h⟩ := Out.bind_eq_ok.mp h
  obtain ⟨J, h6, h⟩ := Out.bind_eq_ok.mp h
  obtain ⟨v, h7, h⟩ := Out.bind_eq_ok.mp h
  obtain ⟨r0, h8, h⟩ := Out.bind_eq_ok.mp h
  obtain ⟨r1, h9, h⟩ := Out.bind_eq_ok.mp h
  have ex : ∀ {q : Spline K D} {off : Nat} {fixed : List K} {t : K} {rhs : Fin D → K} {r : Row K D},
      extendRow q off fixed t rhs = .ok r →
      ∃ r', accelRow q off 0 t = .ok r' ∧ (∀ i j, r'.P i j = 0) := by
    intro q off fixed t rhs r hr
    unfold extendRow at hr
    obtain ⟨P, hP, _⟩ := Out.bind_eq_ok.mp hr
    obtain ⟨P2, hP2⟩ := phi_two hP
    exact ⟨⟨0, fun r c => 0 * P2 r (off * D + c), 0⟩, by unfold accelRow; rw [hP2]; rfl, by simp⟩
  obtain ⟨r2, h10, z2⟩ := ex h8
  obtain ⟨r3, h11, z3⟩ := ex h9
  obtain ⟨d1, d2⟩ := dense_zero (rows := [r0, r1]) rfl z2 z3
  unfold addCurveSegment2 segment2Rows
  rw [h1, Out.ok_bind, if_neg hc]
  simp only [h2, h3, h4, Out.ok_bind]
  rw [if_neg hc2]
  simp only [h5, h6, h7, h8, h9, h10, h11, Out.ok_bind, Out.pure_eq]
  rw [← h]
  simp only [List.cons_append, List.nil_append] at d1 d2
  rw [d1, d2]
  rfl

/-- **C113** (the second variant, without regularisation).  With the weight zero, appending a segment with
`addCurveSegment2` keeps the value at the old end, goes through the new point at the new end, and leaves all but
the last `order - 2` segments as they were. -/
theorem C113_second_partial {sol : Solvers K} (hx : Exact sol) (junk : Fin D → K) (w : WellFormed s) {lo hi t : K}
    (hlo : tMin s = .ok lo) (hhi : tMax s = .ok hi) (ht : hi < t) {L : K × K}
    (hL : timeInterval s (numValidTimeSegments s.order s.knots.length - 1) = .ok L) (hlast : L.1 < L.2)
    (p1 : Fin D → K) :
    ∃ s', addCurveSegment2 sol junk s t p1 0 = .ok s' ∧ WellFormed s' ∧ s'.order = s.order ∧
      tMin s' = .ok lo ∧ tMax s' = .ok t ∧
      numValidTimeSegments s'.order s'.knots.length = numValidTimeSegments s.order s.knots.length + 1 ∧
      evalD s' hi 0 = evalD s hi 0 ∧ evalD s' t 0 = .ok p1 ∧
      (∀ j, j + 1 < s.coeffs.length → s'.coeffs[j]? = s.coeffs[j]?) ∧
      ∀ i I, i + s.order < numValidTimeSegments s.order s.knots.length + 2 → timeInterval s i = .ok I →
        ∀ x, I.1 ≤ x → x < I.2 → x ≤ hi - 1 / 10000000000 → ∀ d, evalD s' x d = evalD s x d := by
  obtain ⟨s', h, h'⟩ := C113_extend_partial (viaNormal_exact hx) junk w hlo hhi ht hL hlast p1
  exact ⟨s', segment2_zero sol junk t p1 h, h'⟩

/-- **C113** (rejections of the second variant). -/
theorem C113_second_rejects (sol : Solvers K) (junk : Fin D → K) {hi t : K} (hhi : tMax s = .ok hi) (ht : t ≤ hi)
    (p1 : Fin D → K) (lam : K) : addCurveSegment2 sol junk s t p1 lam = .raise := by
  unfold addCurveSegment2 segment2Rows
  rw [hhi, Out.ok_bind, if_pos (not_lt.2 ht)]
  rfl

/-- The spline of the counterexample: quadratic, one segment `[2, 3]`, constantly 1. -/
def flat : Spline ℚ 1 := ⟨3, [0, 1, 2, 3, 4, 5], [fun _ => 1, fun _ => 1, fun _ => 1], initBasis 3 [0, 1, 2, 3, 4, 5]⟩

/-- The coefficients after the extension. -/
def flatCoeffs : List (Fin 1 → ℚ) := [fun _ => 1, fun _ => 1, fun _ => 19 / 27, fun _ => 113 / 81]

theorem flat_rows : (segment2Rows 0 flat 4 (fun _ => 1) 1).okAnd (fun r =>
    decide (r.1.coeffs.map (fun c => c 0) = [1, 1, 1, 0] ∧
      (List.range 2).map (fun i => (List.range 2).map fun j => gram 4 (denseA 2 r.2) i j) =
        [[17 / 2, -15 / 4], [-15 / 4, 9 / 4]] ∧
      (List.range 2).map (gramRhs 4 (denseA 2 r.2) (denseB r.2)) = [3 / 4, 1 / 2] ∧
      (evalD { r.1 with coeffs := flatCoeffs } 3 0).okAnd (fun v => decide (v 0 = 23 / 27)) = true ∧
      (evalD { r.1 with coeffs := flatCoeffs } 4 0).okAnd (fun v => decide (v 0 = 85 / 81)) = true)) = true := by
  decide +kernel

theorem okAnd_fin1 {x : Out (Fin 1 → ℚ)} {a : ℚ} (h : x.okAnd (fun v => decide (v 0 = a)) = true) :
    x = .ok fun _ => a := by
  obtain ⟨v, h1, h2⟩ := Out.okAnd_spec h
  rw [h1]
  congr 1
  funext e
  rw [Subsingleton.elim e 0]
  exact of_decide_eq_true h2

/-- **C113** (counterexample for the regularisation).  A spline that is constantly 1 is extended, with weight 1,
by a point with the value 1.  The extended curve has neither the value 1 at the old end, nor at the new end,
although the constant curve has no acceleration at all: the constraints on the acceleration leave out the
coefficients that are not solved for. -/
theorem C113_second_counterexample : tMax flat = .ok 3 ∧ evalD flat 3 0 = .ok (fun _ => 1) ∧
    ∀ sol, Exact sol → ∃ s', addCurveSegment2 sol 0 flat 4 (fun _ => 1) 1 = .ok s' ∧
      evalD s' 3 0 = .ok (fun _ => 23 / 27) ∧ evalD s' 4 0 = .ok (fun _ => 85 / 81) := by
  refine ⟨by decide +kernel, okAnd_fin1 (by decide +kernel), ?_⟩
  intro sol hx
  obtain ⟨r, h1, h2⟩ := Out.okAnd_spec flat_rows
  have h2 := of_decide_eq_true h2
  obtain ⟨c, g, b, v3, v4⟩ := h2
  simp only [List.range_succ, List.range_zero, List.nil_append, List.map_append, List.map_cons, List.map_nil,
    List.cons_append, List.cons.injEq, and_true] at g b
  obtain ⟨⟨g00, g01⟩, g10, g11⟩ := g
  obtain ⟨b0, b1⟩ := b
  have hns : Nonsingular (2 * 1) (gram (4 * 1) (denseA 2 r.2)) := by
    intro x h
    have e0 := h 0 (by omega)
    have e1 := h 1 (by omega)
    simp only [Nat.mul_one, sum_range_succ, range_zero, sum_empty, zero_add, g00, g01, g10, g11] at e0 e1
    intro j hj
    have : j = 0 ∨ j = 1 := by omega
    rcases this with rfl | rfl <;> linarith
  have hs := hx.qr _ _ (gramRhs (4 * 1) (denseA 2 r.2) (denseB r.2)) hns
  obtain ⟨x, hxd⟩ : ∃ x, x = sol.qr (2 * 1) (gram (4 * 1) (denseA 2 r.2))
    (gramRhs (4 * 1) (denseA 2 r.2) (denseB r.2)) := ⟨_, rfl⟩
  rw [← hxd] at hs
  have e0 := hs 0 (by omega)
  have e1 := hs 1 (by omega)
  simp only [Nat.mul_one, sum_range_succ, range_zero, sum_empty, zero_add, g00, g01, g10, g11, b0, b1] at e0 e1
  have x0 : x 0 = 19 / 27 := by linarith
  have x1 : x 1 = 113 / 81 := by linarith
  have hc : setLastTwo r.1.coeffs x = flatCoeffs := by
    have hl : r.1.coeffs.length = 4 := by simpa using congrArg List.length c
    match hr : r.1.coeffs, hl with
    | [c0, c1, c2, c3], _ =>
      rw [hr] at c
      simp only [List.map_cons, List.map_nil, List.cons.injEq, and_true] at c
      have f1 : ∀ {f : Fin 1 → ℚ} {a : ℚ}, f 0 = a → f = fun _ => a := by
        intro f a h
        funext e
        rw [Subsingleton.elim e 0, h]
      have k1 : (fun e : Fin 1 => x e) = fun _ => 19 / 27 := f1 (by simpa using x0)
      have k2 : (fun e : Fin 1 => x (1 + e)) = fun _ => 113 / 81 := f1 (by simpa using x1)
      unfold setLastTwo flatCoeffs
      rw [k1, k2, f1 c.1, f1 c.2.1]
      rfl
  refine ⟨{ r.1 with coeffs := flatCoeffs }, ?_, okAnd_fin1 v3, okAnd_fin1 v4⟩
  unfold addCurveSegment2
  rw [h1, Out.ok_bind]
  simp only [Out.pure_eq]
  rw [← hxd, hc]

end Segment2

end Kalibr.Fit
