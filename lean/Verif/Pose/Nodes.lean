import Verif.Pose.NodeModel
import Verif.Pose.Rates

/-! # Expressions on a pose spline: their Jacobians -/

namespace Kalibr.Pose

open Kalibr.Kin Kalibr.BSpline Matrix Finset Kalibr.Exp

variable {P : PoseSpline} {t : ℝ}

/-! ## Nodes at a fixed time -/

theorem announced_addBlocks {m k : ℕ} (A : Matrix (Fin k) (Fin m) ℝ) (J : Blocks m) (i n : ℕ) (δ : ℕ → V6) :
    announced (addBlocks A ((List.range n).map (i + ·)) J) δ = A.mulVec (total n J i δ) := by
  unfold announced addBlocks total
  rw [Matrix.mulVec_sum]
  have : ((List.range n).map (i + ·)).zipIdx = (List.range n).map fun c => (i + c, c) := by
    apply List.ext_getElem
    · simp
    · intro j h1 h2
      simp
  rw [this, List.map_map, List.map_map]
  induction n with
  | zero => simp
  | succ n ih =>
    have h2 : ((List.range n).map (i + ·)).zipIdx = (List.range n).map fun c => (i + c, c) := by
      apply List.ext_getElem
      · simp
      · intro j h1 h2
        simp
    rw [List.range_succ, List.map_append, List.sum_append, Finset.sum_range_succ, ih h2]
    simp [Matrix.mulVec_mulVec]

theorem node_right {α : Type} {m k : ℕ} {value : PoseSpline → Out α} {moves : (ℝ → α) → (Fin m → ℝ) → Prop}
    {r : α × Blocks m × ℕ} (hi : firstIndex P.spline t = .ok r.2.2) (h : RightJacobian value moves P r)
    (A : Matrix (Fin k) (Fin m) ℝ) :
    activeVariables P t = .ok ((List.range P.spline.order).map (r.2.2 + ·)) ∧
      RightBlocks value moves P A (addBlocks A ((List.range P.spline.order).map (r.2.2 + ·)) r.2.1) := by
  refine ⟨by rw [activeVariables, hi]; rfl, fun δ => ?_⟩
  obtain ⟨f, h1, _, h3⟩ := h.2 δ
  exact ⟨f, _, h1, h3, announced_addBlocks _ _ _ _ _⟩

section
variable (w : WellFormed P.spline) {p : V6} (hp : evalD P.spline t 0 = .ok p)
include w hp

/-- The node of the transformation. -/
theorem C100_transformation (hs : Supported P.rot (tail p)) {k : ℕ} (A : Matrix (Fin k) (Fin 6) ℝ) :
    ∃ bs, transformationNode P t A = .ok bs ∧ RightBlocks (transformation · t) TMoves P A bs := by
  obtain ⟨r, h1, h2, h3⟩ := C99_transformation w hp hs
  obtain ⟨h4, h5⟩ := node_right h2 h3 A
  exact ⟨_, by rw [transformationNode, h4]; simp only [Out.ok_bind]; rw [h1]; rfl, h5⟩

/-- The node of the orientation. -/
theorem C100_orientation (hs : Supported P.rot (tail p)) {k : ℕ} (A : Matrix (Fin k) (Fin 3) ℝ) :
    ∃ bs, orientationNode P t A = .ok bs ∧ RightBlocks (orientation · t) RMoves P A bs := by
  obtain ⟨r, h1, h2, h3⟩ := C99_orientation w hp hs
  obtain ⟨h4, h5⟩ := node_right h2 h3 A
  exact ⟨_, by rw [orientationNode, h4]; simp only [Out.ok_bind]; rw [h1]; rfl, h5⟩

theorem headD (n : ℕ) : ∃ r : V6 × Blocks 6 × ℕ, evalDAndJacobian P.spline t n = .ok r ∧
    firstIndex P.spline t = .ok r.2.2 ∧
    RightJacobian (fun Q => do let v ← evalD Q.spline t n; return head v) VMoves P
      (head r.1, (fun c => headRows (r.2.1 c)), r.2.2) := by
  obtain ⟨q, hq⟩ := index_of_eval w hp
  obtain ⟨W, v, h1, h2, h3, h4⟩ := core w hq
  refine ⟨_, h2 n, h3, by simp only [h1]; rfl, fun δ =>
    ⟨fun ε => head (v n + ε • ∑ c ∈ range P.spline.order, W n c • δ (q.2 + 1 - P.spline.order + c)),
      fun ε => by simp only [h4]; rfl, by simp, ?_⟩⟩
  simp only [headRows_eq]
  rw [total_mul, headSel_mulVec]
  exact head_line _ _

/-- The nodes of position, velocity and acceleration. -/
theorem C100_position_velocity_acceleration {k : ℕ} (A : Matrix (Fin k) (Fin 3) ℝ) :
    (∃ bs, positionNode P t 0 A = .ok bs ∧ RightBlocks (position · t) VMoves P A bs) ∧
    (∃ bs, positionNode P t 1 A = .ok bs ∧ RightBlocks (linearVelocity · t) VMoves P A bs) ∧
    (∃ bs, positionNode P t 2 A = .ok bs ∧ RightBlocks (linearAcceleration · t) VMoves P A bs) := by
  have main (n : ℕ) : ∃ bs, positionNode P t n A = .ok bs ∧
      RightBlocks (fun Q => do let v ← evalD Q.spline t n; return head v) VMoves P A bs := by
    obtain ⟨r, h1, h2, h3⟩ := headD w hp n
    obtain ⟨h4, h5⟩ := node_right (r := (head r.1, (fun c => headRows (r.2.1 c)), r.2.2)) h2 h3 A
    exact ⟨_, by rw [positionNode, h4]; simp only [Out.ok_bind]; rw [h1]; rfl, h5⟩
  exact ⟨main 0, main 1, main 2⟩

/-- The nodes of the angular velocity and the angular acceleration in the body frame. -/
theorem C100_body_rates (hs : Supported P.rot (tail p)) {k : ℕ} (A : Matrix (Fin k) (Fin 3) ℝ) :
    (∃ bs, bodyRateNode P t 1 A = .ok bs ∧ RightBlocks (angularVelocityBodyFrame · t) VMoves P A bs) ∧
    (∃ bs, bodyRateNode P t 2 A = .ok bs ∧ RightBlocks (angularAccelerationBodyFrame · t) VMoves P A bs) := by
  constructor
  · obtain ⟨r, h1, h2, h3⟩ := C99_angular_velocity_body_frame w hp hs
    obtain ⟨h4, h5⟩ := node_right h2 h3 A
    exact ⟨_, by rw [bodyRateNode, h4]; simp only [Out.ok_bind]; rw [h1]; rfl, h5⟩
  · obtain ⟨r, h1, h2, h3⟩ := C99_angular_acceleration_body_frame w hp hs
    obtain ⟨h4, h5⟩ := node_right h2 h3 A
    exact ⟨_, by rw [bodyRateNode, h4]; simp only [Out.ok_bind]; rw [h1]; rfl, h5⟩

/-- The node of the acceleration in the body frame announces the Jacobian of the acceleration in the world frame. Full
statement: that of the acceleration in the body frame. -/
theorem C100_acceleration_body_frame_partial {k : ℕ} (A : Matrix (Fin k) (Fin 3) ℝ) :
    ∃ bs, accelerationBodyFrameNode P t A = .ok bs ∧ RightBlocks (linearAcceleration · t) VMoves P A bs :=
  (C100_position_velocity_acceleration w hp A).2.2

end

/-! ## The transformation at a time that is an expression -/

/-- Every valid segment is longer than twice the `1e-10` within which times snap to the end. -/
def LongSegments (P : PoseSpline) : Prop :=
  ∀ i, P.spline.order - 1 ≤ i → i < P.spline.knots.length - P.spline.order →
    2 * snapTol < knotAt P.spline.knots (i + 1) - knotAt P.spline.knots i

theorem firstIndex_of (w : WellFormed P.spline) {q : ℝ × ℕ} (hq : computeTIndex P.spline t = .ok q) :
    firstIndex P.spline t = .ok (q.2 + 1 - P.spline.order) := by
  obtain ⟨_, h1, h2, h3, _⟩ := computeTIndex_ok w hq
  have := w.order_ge
  unfold firstIndex
  rw [hq]
  simp only [Out.ok_bind]
  rw [if_neg (by omega)]
  rfl

theorem center (w : WellFormed P.spline) (hl : LongSegments P) {i : ℕ} {iv : ℝ × ℝ}
    (h : timeInterval P.spline i = .ok iv) :
    iv = (knotAt P.spline.knots (P.spline.order - 1 + i), knotAt P.spline.knots (P.spline.order + i)) ∧
    P.spline.order + i ≤ P.spline.knots.length - P.spline.order ∧
    firstIndex P.spline ((iv.1 + iv.2) / 2) = .ok i := by
  have hk := w.order_ge; have hn := w.enough
  unfold timeInterval at h
  split at h
  · cases h
  split at h
  · cases h
  rename_i h2
  have e : iv = (knotAt P.spline.knots (P.spline.order - 1 + i), knotAt P.spline.knots (P.spline.order + i)) := by
    cases h
    rw [show P.spline.order + i - 1 = P.spline.order - 1 + i by omega]
  have hb : P.spline.order + i ≤ P.spline.knots.length - P.spline.order := by
    unfold numValidTimeSegments at h2; omega
  refine ⟨e, hb, ?_⟩
  rw [e]
  simp only
  have hseg := hl (P.spline.order - 1 + i) (by omega) (by omega)
  rw [show P.spline.order - 1 + i + 1 = P.spline.order + i by omega] at hseg
  have hs := snapTol_pos (K := ℝ)
  have hin : Inside P.spline (P.spline.order - 1 + i)
      ((knotAt P.spline.knots (P.spline.order - 1 + i) + knotAt P.spline.knots (P.spline.order + i)) / 2) := by
    refine ⟨by omega, by omega, by linarith, ?_, ?_⟩
    · rw [show P.spline.order - 1 + i + 1 = P.spline.order + i by omega]; linarith
    · left
      have := w.sorted (P.spline.order + i) (P.spline.knots.length - P.spline.order) hb (by omega)
      linarith
  rw [firstIndex_of w (computeTIndex_inside w hin)]
  congr 1
  simp only
  omega

/-- For every time for which the node may be evaluated, the design variables that take part are among those the node
declares. -/
theorem C100_time_offset_coverage_partial (w : WellFormed P.spline) (hl : LongSegments P) {t0 b1 b2 : ℝ} {N : TimeNode}
    (hN : makeTimeNode P t0 b1 b2 = .ok N) (h1 : N.tmin ≤ t) (h2 : t < N.tmax) :
    ∃ i, firstIndex P.spline t = .ok i ∧ N.l ≤ i ∧ i + P.spline.order - 1 ≤ N.r ∧
      N.r < P.spline.coeffs.length ∧ ∃ T, timeNodeValue P t N = .ok T := by
  have hk := w.order_ge; have hn := w.enough; have hc := w.count
  unfold makeTimeNode at hN
  obtain ⟨R, hR, hN⟩ := Out.bind_eq_ok.mp hN
  obtain ⟨L, hL, hN⟩ := Out.bind_eq_ok.mp hN
  obtain ⟨ir, hir, hN⟩ := Out.bind_eq_ok.mp hN
  obtain ⟨il, hil, hN⟩ := Out.bind_eq_ok.mp hN
  obtain ⟨c1, c2, c3⟩ := center w hl hir
  obtain ⟨d1, d2, d3⟩ := center w hl hil
  rw [d3, c3] at hN
  simp only [Out.ok_bind, Out.pure_eq, Out.ok.injEq] at hN
  subst hN
  simp only at h1 h2 ⊢
  rw [d1] at h1
  rw [c1] at h2
  simp only at h1 h2
  have s1 := w.sorted (P.spline.order - 1) (P.spline.order - 1 + L) (by omega) (by omega)
  have s2 := w.sorted (P.spline.order + R) (P.spline.knots.length - P.spline.order) c2 (by omega)
  obtain ⟨q, hq⟩ := accepted w w.tMin_eq w.tMax_eq (show _ ≤ t by linarith) (by linarith)
  obtain ⟨_, g1, g2, g3, g4⟩ := computeTIndex_ok w hq
  have hs := snapTol_pos (K := ℝ)
  have hlow : P.spline.order - 1 + L ≤ q.2 := by
    rcases g4 with ⟨_, g5⟩ | ⟨_, _, g6⟩
    · omega
    · by_contra hlt
      have := w.sorted (q.2 + 1) (P.spline.order - 1 + L) (by omega) (by omega)
      linarith
  have hhigh : q.2 ≤ P.spline.order - 1 + R := by
    rcases g4 with ⟨g5, g6⟩ | ⟨_, g6, _⟩
    · by_contra hlt
      have hlast := hl q.2 g1 g2
      have := w.sorted (P.spline.order + R) q.2 (by omega) (by omega)
      unfold Snapped at g5
      rw [abs_lt, ← g6] at g5
      linarith
    · by_contra hlt
      have := w.sorted (P.spline.order + R) q.2 (by omega) (by omega)
      linarith
  refine ⟨_, firstIndex_of w hq, by omega, by omega, by omega, ?_⟩
  obtain ⟨W, v, e1, _⟩ := core w hq
  refine ⟨curveValueToTransformation P (v 0), ?_⟩
  unfold timeNodeValue
  rw [d1, c1]
  rw [if_pos ⟨h1, h2⟩, transformation, e1]
  rfl

theorem timeInterval_of (w : WellFormed P.spline) {i : ℕ}
    (h : P.spline.order + i ≤ P.spline.knots.length - P.spline.order) : ∃ iv, timeInterval P.spline i = .ok iv := by
  have hk := w.order_ge; have hn := w.enough
  unfold timeInterval minimumKnotsRequired numKnotsRequired numCoefficientsRequired numValidTimeSegments
  rw [if_neg (by omega), if_neg (by omega)]
  exact ⟨_, rfl⟩

/-- For an initial time within the domain of the spline the node is made, and it may be evaluated at every time of the
domain that differs from the initial time by no more than the margins. -/
theorem C100_time_offset_margins_partial (w : WellFormed P.spline) (hl : LongSegments P) {t0 b1 b2 lo hi : ℝ}
    (hlo : tMin P.spline = .ok lo) (hhi : tMax P.spline = .ok hi) (hb1 : 0 ≤ b1) (hb2 : 0 ≤ b2) (h0 : lo ≤ t0)
    (h0' : t0 ≤ hi) :
    ∃ N, makeTimeNode P t0 b1 b2 = .ok N ∧
      ∀ t, lo ≤ t → t < hi → t0 - b1 ≤ t → t ≤ t0 + b2 → N.tmin ≤ t ∧ t < N.tmax := by
  have hk := w.order_ge; have hn := w.enough
  have hs := snapTol_pos (K := ℝ)
  have elo := hlo; have ehi := hhi
  rw [w.tMin_eq] at elo
  rw [w.tMax_eq] at ehi
  simp only [Out.ok.injEq] at elo ehi
  have hR : ∃ R, bufferRight P t0 b2 = .ok R ∧ P.spline.order + R ≤ P.spline.knots.length - P.spline.order ∧
      ∀ t, t < hi → t ≤ t0 + b2 → t < knotAt P.spline.knots (P.spline.order + R) := by
    by_cases hc : hi < b2 + t0
    · refine ⟨numValidTimeSegments P.spline.order P.spline.knots.length - 1, by
        rw [bufferRight, hhi]; simp only [Out.ok_bind]; rw [if_pos hc]; rfl, ?_, fun t h1 _ => ?_⟩
      · unfold numValidTimeSegments; omega
      · rw [show P.spline.order + (numValidTimeSegments P.spline.order P.spline.knots.length - 1) =
          P.spline.knots.length - P.spline.order by unfold numValidTimeSegments; omega, ehi]
        exact h1
    · push Not at hc
      obtain ⟨q, hq⟩ := accepted w hlo hhi (show lo ≤ t0 + b2 by linarith) (by linarith)
      obtain ⟨_, g1, g2, g3, g4⟩ := computeTIndex_ok w hq
      refine ⟨q.2 + 1 - P.spline.order, by
        rw [bufferRight, hhi]; simp only [Out.ok_bind]; rw [if_neg (by linarith), segmentIndex, firstIndex_of w hq],
        by omega, fun t h1 h2 => ?_⟩
      rw [show P.spline.order + (q.2 + 1 - P.spline.order) = q.2 + 1 by omega]
      rcases g4 with ⟨_, g5⟩ | ⟨_, _, g6⟩
      · rw [g5, ehi]; exact h1
      · linarith
  have hL : ∃ L, bufferLeft P t0 b1 = .ok L ∧ P.spline.order + L ≤ P.spline.knots.length - P.spline.order ∧
      ∀ t, lo ≤ t → t0 - b1 ≤ t → knotAt P.spline.knots (P.spline.order - 1 + L) ≤ t := by
    by_cases hc : t0 - b1 < lo
    · refine ⟨0, by rw [bufferLeft, hlo]; simp only [Out.ok_bind]; rw [if_pos hc]; rfl, by omega, fun t h1 _ => ?_⟩
      rw [Nat.add_zero, elo]
      exact h1
    · push Not at hc
      obtain ⟨q, hq⟩ := accepted w hlo hhi (show lo ≤ t0 - b1 by linarith) (by linarith)
      obtain ⟨_, g1, g2, g3, g4⟩ := computeTIndex_ok w hq
      refine ⟨q.2 + 1 - P.spline.order, by
        rw [bufferLeft, hlo]; simp only [Out.ok_bind]; rw [if_neg (by linarith), segmentIndex, firstIndex_of w hq],
        by omega, fun t h1 h2 => ?_⟩
      rw [show P.spline.order - 1 + (q.2 + 1 - P.spline.order) = q.2 by omega]
      rcases g4 with ⟨g5, g6⟩ | ⟨_, g6, _⟩
      · have hlast := hl q.2 g1 g2
        unfold Snapped at g5
        rw [abs_lt, ← g6] at g5
        linarith
      · linarith
  obtain ⟨R, hR1, hR2, hR3⟩ := hR
  obtain ⟨L, hL1, hL2, hL3⟩ := hL
  obtain ⟨ir, hir⟩ := timeInterval_of w hR2
  obtain ⟨il, hil⟩ := timeInterval_of w hL2
  obtain ⟨c1, c2, c3⟩ := center w hl hir
  obtain ⟨d1, d2, d3⟩ := center w hl hil
  refine ⟨{ tmin := il.1, tmax := ir.2, l := L, r := R + P.spline.order - 1 }, ?_, fun t a1 a2 a3 a4 => ?_⟩
  · unfold makeTimeNode
    rw [hR1, hL1]
    simp only [Out.ok_bind]
    rw [hir, hil]
    simp only [Out.ok_bind]
    rw [d3, c3]
    rfl
  · rw [d1, c1]
    exact ⟨hL3 t a1 a3, hR3 t a2 a4⟩

theorem announced_cons {k : ℕ} (b : DvBlock k) (bs : List (DvBlock k)) (δ : ℕ → V6) :
    announced (b :: bs) δ = b.2.mulVec (δ b.1) + announced bs δ := by
  simp [announced]

theorem chainLoop_announced {k n : ℕ} (A : Matrix (Fin k) (Fin 6) ℝ) (J : Blocks 6) (lo c : ℕ) (hc : 1 ≤ c)
    (δ : ℕ → V6) (a : ℕ) :
    announced (chainLoop A J lo (lo + c - 1) (List.range' a n) (min (a - lo) c)) δ =
      ∑ v ∈ Finset.Ico a (a + n), if lo ≤ v ∧ v ≤ lo + c - 1 then (A * J (v - lo)).mulVec (δ v) else 0 := by
  induction n generalizing a with
  | zero => simp [chainLoop, announced]
  | succ n ih =>
    rw [List.range'_succ, chainLoop, Finset.sum_eq_sum_Ico_succ_bot (by omega)]
    have ih' := ih (a + 1)
    rw [show a + 1 + n = a + (n + 1) by omega] at ih'
    by_cases h : lo ≤ a ∧ a ≤ lo + c - 1
    · rw [if_pos h, if_pos h, announced_cons]
      rw [show min (a - lo) c + 1 = min (a + 1 - lo) c by omega, ih']
      simp only
      rw [show min (a - lo) c = a - lo by omega]
    · rw [if_neg h, if_neg h, announced_cons]
      rw [show min (a - lo) c = min (a + 1 - lo) c by omega, ih']
      simp

theorem window {m n lo a c : ℕ} (h1 : a ≤ lo) (h2 : lo + c ≤ a + n) (hc : 1 ≤ c) (F : ℕ → Fin m → ℝ) :
    (∑ v ∈ Finset.Ico a (a + n), if lo ≤ v ∧ v ≤ lo + c - 1 then F v else 0) = ∑ x ∈ range c, F (lo + x) := by
  rw [← Finset.sum_filter, show Finset.filter (fun v => lo ≤ v ∧ v ≤ lo + c - 1) (Finset.Ico a (a + n)) =
    Finset.Ico lo (lo + c) by ext v; simp; omega, Finset.sum_Ico_eq_sum_range]
  simp

theorem chainLoop_total {k n : ℕ} (A : Matrix (Fin k) (Fin 6) ℝ) (J : Blocks 6) {lo a c : ℕ} (hc : 1 ≤ c)
    (h1 : a ≤ lo) (h2 : lo + c ≤ a + n) (δ : ℕ → V6) :
    announced (chainLoop A J lo (lo + c - 1) (List.range' a n) 0) δ = A.mulVec (total c J lo δ) := by
  have := chainLoop_announced (n := n) A J lo c hc δ a
  rw [show min (a - lo) c = 0 by omega] at this
  rw [this, window h1 h2 hc, total, Matrix.mulVec_sum]
  apply sum_congr rfl
  intro x _
  rw [Matrix.mulVec_mulVec, show lo + x - lo = x by omega]

theorem chainLoop_indices {k : ℕ} (A : Matrix (Fin k) (Fin 6) ℝ) (J : Blocks 6) (lo hi : ℕ) (vs : List ℕ) (j : ℕ) :
    (chainLoop A J lo hi vs j).map Prod.fst = vs := by
  induction vs generalizing j with
  | nil => rfl
  | cons v vs ih =>
    unfold chainLoop
    split <;> simp [ih]

/-- The increments as coefficients of a spline with the same knots. -/
noncomputable def increments (P : PoseSpline) (δ : ℕ → V6) : PoseSpline :=
  { P with spline := { P.spline with coeffs := P.spline.coeffs.mapIdx fun i _ => δ i } }

theorem wf_increments (w : WellFormed P.spline) (δ : ℕ → V6) : WellFormed (increments P δ).spline where
  order_ge := w.order_ge
  enough := w.enough
  count := by
    have := w.count
    simpa [increments] using this
  basis_eq := w.basis_eq
  sorted := w.sorted

theorem inside_increments {idx : ℕ} (h : Inside P.spline idx t) (δ : ℕ → V6) : Inside (increments P δ).spline idx t :=
  ⟨h.low, h.high, h.left, h.right, h.zone⟩

theorem inside_perturb {idx : ℕ} (h : Inside P.spline idx t) (δ : ℕ → V6) (ε : ℝ) :
    Inside (P.perturb δ ε).spline idx t :=
  ⟨h.low, h.high, h.left, h.right, h.zone⟩

theorem eval_perturb (w : WellFormed P.spline) {idx : ℕ} (h : Inside P.spline idx t) (δ : ℕ → V6) (ε : ℝ) :
    evalD (P.perturb δ ε).spline t 0 = .ok (curveV P 0 t + ε • curveV (increments P δ) 0 t) := by
  have hq := computeTIndex_inside w h
  obtain ⟨_, g1, g2, _⟩ := computeTIndex_ok w hq
  have hk := w.order_ge; have hn := w.enough; have hc := w.count
  have e1 := (eval_curveV w h 0).symm.trans (evalD_of w hq 0)
  have e2 := (eval_curveV (wf_increments w δ) (inside_increments h δ) 0).symm.trans
    (evalD_of (wf_increments w δ) (computeTIndex_inside (wf_increments w δ) (inside_increments h δ)) 0)
  simp only [Out.ok.injEq] at e1 e2
  rw [evalD_of (wf_perturb w δ ε) (computeTIndex_inside (wf_perturb w δ ε) (inside_perturb h δ ε)), e1, e2]
  congr 1
  funext e
  simp only [Pi.add_apply, Pi.smul_apply, smul_eq_mul, mul_sum]
  have : (increments P δ).spline.order = P.spline.order := rfl
  simp only [this]
  rw [← sum_add_distrib]
  apply sum_congr rfl
  intro c hcm
  have hlt : idx + 1 - P.spline.order + c < P.spline.coeffs.length := by
    have : c < P.spline.order := Finset.mem_range.mp hcm
    simp only at g1 g2
    omega
  have f1 : (P.perturb δ ε).spline.coeffs.getD (idx + 1 - P.spline.order + c) 0 =
      P.spline.coeffs.getD (idx + 1 - P.spline.order + c) 0 + ε • δ (idx + 1 - P.spline.order + c) := by
    simp [PoseSpline.perturb, List.getD_eq_getElem?_getD, List.getElem?_mapIdx, List.getElem?_eq_getElem hlt]
  have f2 : (increments P δ).spline.coeffs.getD (idx + 1 - P.spline.order + c) 0 = δ (idx + 1 - P.spline.order + c) := by
    simp [increments, List.getD_eq_getElem?_getD, List.getElem?_mapIdx, List.getElem?_eq_getElem hlt]
  show ((P.perturb δ ε).spline.coeffs.getD (idx + 1 - P.spline.order + c) 0) e * _ = _
  rw [f1, f2]
  simp only [Pi.add_apply, Pi.smul_apply, smul_eq_mul]
  show _ * weights P.spline.order (basisM (knotAt P.spline.knots) P.spline.order idx)
    (computeU (knotAt P.spline.knots) P.spline.order (normTime P.spline t idx) idx 0) c = _ +
    ε * (_ * weights P.spline.order (basisM (knotAt P.spline.knots) P.spline.order idx)
    (computeU (knotAt P.spline.knots) P.spline.order (normTime P.spline t idx) idx 0) c)
  ring

/-- The motion of the pose when the design variables and the time change together. -/
theorem time_moves (w : WellFormed P.spline) {idx : ℕ} (h : Inside P.spline idx t) {p : V6}
    (hp : evalD P.spline t 0 = .ok p) (hs : Supported P.rot (tail p)) (N : TimeNode) (h1 : N.tmin < t) (h2 : t < N.tmax)
    (δ : ℕ → V6) (τ : ℝ) : ∃ (f : ℝ → M4),
      (∀ᶠ ε in nhds 0, timeNodeValue (P.perturb δ ε) (t + ε * τ) N = .ok (f ε)) ∧
      TMoves f ((curveValueJacobian P p).mulVec (τ • curveV P 1 t + curveV (increments P δ) 0 t)) := by
  have e0 : curveV P 0 t = p := by
    have := (eval_curveV w h 0).symm.trans hp
    simpa using this
  have hsh : HasDerivAt (fun ε : ℝ => t + ε * τ) τ 0 := by
    simpa using ((hasDerivAt_id (0 : ℝ)).mul_const τ).const_add t
  have hg1 : HasDerivAt (fun ε : ℝ => curveV P 0 (t + ε * τ)) (τ • curveV P 1 t) 0 := by
    have := HasDerivAt.scomp (𝕜 := ℝ) 0 (by simpa using curveV_deriv w h 0) hsh
    simpa [Function.comp_def] using this
  have hg2 : HasDerivAt (fun ε : ℝ => curveV (increments P δ) 0 (t + ε * τ)) (τ • curveV (increments P δ) 1 t) 0 := by
    have := HasDerivAt.scomp (𝕜 := ℝ) 0
      (by simpa using curveV_deriv (wf_increments w δ) (inside_increments h δ) 0) hsh
    simpa [Function.comp_def] using this
  have hg : HasDerivAt (fun ε : ℝ => curveV P 0 (t + ε * τ) + ε • curveV (increments P δ) 0 (t + ε * τ))
      (τ • curveV P 1 t + curveV (increments P δ) 0 t) 0 := by
    have := hg1.fun_add ((hasDerivAt_id (0 : ℝ)).fun_smul hg2)
    simpa using this
  refine ⟨fun ε => curveValueToTransformation P
    (curveV P 0 (t + ε * τ) + ε • curveV (increments P δ) 0 (t + ε * τ)), ?_,
    curve_moves' hs (by simp [e0]) (head_deriv hg) (tail_deriv hg)⟩
  have hc : Filter.Tendsto (fun ε : ℝ => t + ε * τ) (nhds 0) (nhds t) := by
    have := hsh.continuousAt
    unfold ContinuousAt at this
    simpa using this
  filter_upwards [hc.eventually (inside_eventually h), hc.eventually (lt_mem_nhds h1),
    hc.eventually (gt_mem_nhds h2)] with ε a1 a2 a3
  unfold timeNodeValue
  rw [if_pos ⟨a2.le, a3⟩, transformation, eval_perturb w a1]
  rfl

theorem curveV_increments (w : WellFormed P.spline) {idx : ℕ} (h : Inside P.spline idx t) (δ : ℕ → V6) {W : ℕ → ℝ} {v : V6}
    (hW : ∀ ε, evalD (P.perturb δ ε).spline t 0 = .ok (v + ε • ∑ c ∈ range P.spline.order,
      W c • δ (idx + 1 - P.spline.order + c))) :
    curveV (increments P δ) 0 t = ∑ c ∈ range P.spline.order, W c • δ (idx + 1 - P.spline.order + c) := by
  have h0 := (hW 0).symm.trans (eval_perturb w h δ 0)
  have h1 := (hW 1).symm.trans (eval_perturb w h δ 1)
  simp only [Out.ok.injEq, zero_smul, add_zero, one_smul] at h0 h1
  rw [h0] at h1
  exact (add_left_cancel h1).symm

/-- The Jacobian with chain rule: at a time strictly inside a segment, when the design variables change by `ε δ` and the
time by `ε τ`, the pose moves with a twist `ξ`, and the blocks together with the column handed to the time expression
announce the chain rule matrix times `ξ`.  All the blocks are for design variables the node declares.  Full statement:
also at the knots, where the derivative in time need not exist, and for segments of any length. -/
theorem C100_time_offset_partial (w : WellFormed P.spline) (hl : LongSegments P) {t0 b1 b2 : ℝ} {N : TimeNode}
    (hN : makeTimeNode P t0 b1 b2 = .ok N) (h1 : N.tmin < t) (h2 : t < N.tmax) {idx : ℕ} (h : Inside P.spline idx t)
    {p : V6} (hp : evalD P.spline t 0 = .ok p) (hs : Supported P.rot (tail p)) {k : ℕ}
    (A : Matrix (Fin k) (Fin 6) ℝ) :
    ∃ bs col, timeNodeChain P t N A = .ok (bs, col) ∧ (∀ b ∈ bs, N.l ≤ b.1 ∧ b.1 ≤ N.r) ∧
      ∀ (δ : ℕ → V6) (τ : ℝ), ∃ (f : ℝ → M4) (ξ : Fin 6 → ℝ),
        (∀ᶠ ε in nhds 0, timeNodeValue (P.perturb δ ε) (t + ε * τ) N = .ok (f ε)) ∧ TMoves f ξ ∧
          announced bs δ + τ • col = A.mulVec ξ := by
  have hk := w.order_ge
  obtain ⟨i, g1, g2, g3, _⟩ := C100_time_offset_coverage_partial w hl hN h1.le h2
  have hq := computeTIndex_inside w h
  obtain ⟨W, v, e1, e2, e3, e4⟩ := core w hq
  have ei : i = idx + 1 - P.spline.order := by
    have := g1.symm.trans e3
    simpa using this
  have ep : v 0 = p := by
    have := (e1 0).symm.trans hp
    simpa using this
  refine ⟨_, _, by
    unfold timeNodeChain
    rw [if_pos ⟨h1.le, h2⟩, g1]
    simp only [Out.ok_bind]
    rw [e2]
    simp only [Out.ok_bind]
    rw [e1]
    rfl, ?_, fun δ τ => ?_⟩
  · intro b hb
    have := List.mem_map_of_mem (f := Prod.fst) hb
    rw [chainLoop_indices, List.mem_range'_1] at this
    omega
  · obtain ⟨f, f1, f2⟩ := time_moves w h hp hs N h1 h2 δ τ
    refine ⟨f, _, f1, f2, ?_⟩
    rw [chainLoop_total A _ (by omega) g2 (by omega), total_mul, ep, curveV_increments w h δ (e4 0 δ), ei]
    have e5 : curveV P 1 t = v 1 := by
      have := (eval_curveV w h 1).symm.trans (e1 1)
      simpa using this
    rw [e5, Matrix.mulVec_add, Matrix.mulVec_add, Matrix.mulVec_smul, Matrix.mulVec_smul, Matrix.mulVec_mulVec,
      Matrix.mulVec_mulVec, add_comm]

/-! ## The Jacobian of that expression without chain rule -/

theorem plainLoop_ok {c : ℕ} (J : Blocks 6) (lo : ℕ) (hc : 1 ≤ c) (δ : ℕ → V6) (n a : ℕ) :
    ∃ bs, plainLoop c J lo (lo + c - 1) (List.range' a n) a = .ok bs ∧
      announced bs δ = ∑ v ∈ Finset.Ico a (a + n), if lo ≤ v ∧ v ≤ lo + c - 1 then (J (v - lo)).mulVec (δ v) else 0 := by
  induction n generalizing a with
  | zero => exact ⟨[], rfl, by simp [announced]⟩
  | succ n ih =>
    obtain ⟨bs, h1, h2⟩ := ih (a + 1)
    rw [show a + 1 + n = a + (n + 1) by omega] at h2
    rw [List.range'_succ, Finset.sum_eq_sum_Ico_succ_bot (by omega), ← h2]
    by_cases h : lo ≤ a ∧ a ≤ lo + c - 1
    · refine ⟨(a, J (a - lo)) :: bs, ?_, ?_⟩
      · rw [plainLoop, if_pos h, if_neg (by omega), h1]; rfl
      · rw [announced_cons, if_pos h]
    · refine ⟨(a, 0) :: bs, ?_, ?_⟩
      · rw [plainLoop, if_neg h, h1]; rfl
      · rw [announced_cons, if_neg h]; simp

theorem plainLoop_ub {c : ℕ} (J : Blocks 6) (l lo n a : ℕ) (hl : 0 < l) (h1 : l ≤ a) (h2 : a ≤ lo) (h3 : lo < a + n)
    (hc : 1 ≤ c) : plainLoop c J lo (lo + c - 1) (List.range' a n) (a - l) = .ub := by
  induction n generalizing a with
  | zero => omega
  | succ n ih =>
    rw [List.range'_succ, plainLoop]
    by_cases h : lo ≤ a ∧ a ≤ lo + c - 1
    · rw [if_pos h, if_pos (by omega)]
    · rw [if_neg h, show a - l + 1 = a + 1 - l by omega, ih (a + 1) (by omega) (by omega) (by omega)]
      rfl

/-- Without chain rule the Jacobian is right when the first design variable of the node is the first one of the spline.
Full statement: for every node. -/
theorem C100_time_offset_plain_partial (w : WellFormed P.spline) (hl : LongSegments P) {t0 b1 b2 : ℝ} {N : TimeNode}
    (hN : makeTimeNode P t0 b1 b2 = .ok N) (h1 : N.tmin < t) (h2 : t < N.tmax) {idx : ℕ} (h : Inside P.spline idx t)
    {p : V6} (hp : evalD P.spline t 0 = .ok p) (hs : Supported P.rot (tail p)) (h0 : N.l = 0) :
    ∃ bs col, timeNodePlain P t N = .ok (bs, col) ∧
      ∀ (δ : ℕ → V6) (τ : ℝ), ∃ (f : ℝ → M4) (ξ : Fin 6 → ℝ),
        (∀ᶠ ε in nhds 0, timeNodeValue (P.perturb δ ε) (t + ε * τ) N = .ok (f ε)) ∧ TMoves f ξ ∧
          announced bs δ + τ • col = ξ := by
  have hk := w.order_ge
  obtain ⟨i, g1, g2, g3, _⟩ := C100_time_offset_coverage_partial w hl hN h1.le h2
  have hq := computeTIndex_inside w h
  obtain ⟨W, v, e1, e2, e3, e4⟩ := core w hq
  have ei : i = idx + 1 - P.spline.order := by
    have := g1.symm.trans e3
    simpa using this
  have ep : v 0 = p := by
    have := (e1 0).symm.trans hp
    simpa using this
  have hloop (δ : ℕ → V6) := plainLoop_ok (c := P.spline.order)
    (fun c => curveValueJacobian P (v 0) * (W 0 c • (1 : Matrix (Fin 6) (Fin 6) ℝ))) i (by omega) δ (N.r + 1 - N.l) 0
  obtain ⟨bs, hbs, _⟩ := hloop 0
  refine ⟨bs, (curveValueJacobian P (v 0)).mulVec (v 1), by
    unfold timeNodePlain
    rw [if_pos ⟨h1.le, h2⟩, g1]
    simp only [Out.ok_bind]
    rw [e2]
    simp only [Out.ok_bind]
    rw [e1]
    simp only [h0] at hbs ⊢
    rw [hbs]
    rfl, fun δ τ => ?_⟩
  obtain ⟨f, f1, f2⟩ := time_moves w h hp hs N h1 h2 δ τ
  refine ⟨f, _, f1, f2, ?_⟩
  obtain ⟨bs', hbs', ha⟩ := hloop δ
  rw [hbs] at hbs'
  cases hbs'
  rw [ha, window (by omega) (by omega) (by omega) (fun v' => (curveValueJacobian P (v 0) *
    (W 0 (v' - i) • (1 : Matrix (Fin 6) (Fin 6) ℝ))).mulVec (δ v')), curveV_increments w h δ (e4 0 δ)]
  have e5 : curveV P 1 t = v 1 := by
    have := (eval_curveV w h 1).symm.trans (e1 1)
    simpa using this
  rw [e5, ← ep, Matrix.mulVec_add, Matrix.mulVec_smul, Matrix.mulVec_sum, add_comm, ei]
  congr 1
  apply sum_congr rfl
  intro c _
  rw [show idx + 1 - P.spline.order + c - (idx + 1 - P.spline.order) = c by omega]
  simp [Matrix.smul_mulVec, Matrix.mulVec_smul]

/-- Without chain rule, whenever the first design variable of the node is not the first one of the spline, a block
outside the matrix is read. -/
theorem C100_time_offset_plain_reads_outside (w : WellFormed P.spline) (hl : LongSegments P) {t0 b1 b2 : ℝ}
    {N : TimeNode} (hN : makeTimeNode P t0 b1 b2 = .ok N) (h1 : N.tmin ≤ t) (h2 : t < N.tmax) (h0 : 0 < N.l) :
    timeNodePlain P t N = .ub := by
  have hk := w.order_ge
  obtain ⟨i, g1, g2, g3, _, T, hT⟩ := C100_time_offset_coverage_partial w hl hN h1 h2
  unfold timeNodeValue at hT
  rw [if_pos ⟨h1, h2⟩, transformation] at hT
  obtain ⟨p, hp, _⟩ := Out.bind_eq_ok.mp hT
  obtain ⟨q, hq⟩ := index_of_eval w hp
  obtain ⟨W, v, e1, e2, e3, e4⟩ := core w hq
  unfold timeNodePlain
  rw [if_pos ⟨h1, h2⟩, g1]
  simp only [Out.ok_bind]
  rw [e2]
  simp only [Out.ok_bind]
  have := plainLoop_ub (c := P.spline.order)
    (fun c => curveValueJacobian P (v 0) * (W 0 c • (1 : Matrix (Fin 6) (Fin 6) ℝ))) N.l i (N.r + 1 - N.l) N.l h0
    le_rfl g2 (by omega) (by omega)
  rw [Nat.sub_self] at this
  rw [this]
  rfl

/-! ## Witnesses -/

/-- Order 2, three segments of length 1 from 1 to 4. -/
noncomputable def threeSegments (R : RotKin) (a b c d : V6) : PoseSpline :=
  ⟨⟨2, [0, 1, 2, 3, 4, 5], [a, b, c, d], initBasis 2 [0, 1, 2, 3, 4, 5]⟩, R⟩

theorem three_wf (R : RotKin) (a b c d : V6) : WellFormed (threeSegments R a b c d).spline where
  order_ge := by simp [threeSegments]
  enough := by simp [threeSegments]
  count := by simp [threeSegments]
  basis_eq := rfl
  sorted := (nondecreasing_iff _).1 (by unfold Nondecreasing; simp [threeSegments]; norm_num)

theorem three_long (R : RotKin) (a b c d : V6) : LongSegments (threeSegments R a b c d) := by
  intro i h1 h2
  simp only [threeSegments] at h1 h2
  simp at h1 h2
  obtain rfl | rfl | rfl : i = 1 ∨ i = 2 ∨ i = 3 := by omega
  all_goals simp [threeSegments, knotAt, snapTol]; norm_num

theorem three_inside (R : RotKin) (a b c d : V6) {t : ℝ} (h1 : 3 < t) (h2 : t < 4) :
    Inside (threeSegments R a b c d).spline 3 t := by
  refine ⟨?_, ?_, ?_, ?_, Or.inr ?_⟩ <;> simp [threeSegments, knotAt] <;> linarith

/-- A node for the time 7/2 without margins. -/
theorem three_node (R : RotKin) (a b c d : V6) :
    makeTimeNode (threeSegments R a b c d) (7 / 2) 0 0 = .ok ⟨3, 4, 2, 3⟩ := by
  have w := three_wf R a b c d
  have hlo := w.tMin_eq
  have hhi := w.tMax_eq
  have hin := three_inside R a b c d (t := 7 / 2) (by norm_num) (by norm_num)
  have hf := firstIndex_of w (computeTIndex_inside w hin)
  have h2 : firstIndex (threeSegments R a b c d).spline (7 / 2) = .ok 2 := by
    rw [hf]; simp [threeSegments]
  have ti : timeInterval (threeSegments R a b c d).spline 2 = .ok (3, 4) := by
    unfold timeInterval minimumKnotsRequired numKnotsRequired numCoefficientsRequired numValidTimeSegments
    rw [if_neg (by simp [threeSegments]), if_neg (by simp [threeSegments])]
    simp [threeSegments, knotAt]
  unfold makeTimeNode
  have hr : bufferRight (threeSegments R a b c d) (7 / 2) 0 = .ok 2 := by
    rw [bufferRight, hhi]; simp only [Out.ok_bind]
    rw [if_neg (by simp [threeSegments, knotAt]; norm_num), segmentIndex, add_zero, h2]
  have hL : bufferLeft (threeSegments R a b c d) (7 / 2) 0 = .ok 2 := by
    rw [bufferLeft, hlo]; simp only [Out.ok_bind]
    rw [if_neg (by simp [threeSegments, knotAt]; norm_num), segmentIndex, sub_zero, h2]
  rw [hr, hL]
  simp only [Out.ok_bind]
  rw [ti]
  simp only [Out.ok_bind]
  rw [show ((3 : ℝ) + 4) / 2 = 7 / 2 by norm_num, h2]
  simp only [Out.ok_bind, Out.pure_eq]
  rfl

/-- The value exists and the Jacobian with chain rule exists, but the one without reads outside its matrix. -/
theorem C100_time_offset_counterexample :
    ∃ (P : PoseSpline) (t : ℝ) (N : TimeNode), WellFormed P.spline ∧ LongSegments P ∧ makeTimeNode P t 0 0 = .ok N ∧
      (∃ T, timeNodeValue P t N = .ok T) ∧ timeNodePlain P t N = .ub := by
  have w := three_wf ypr 0 0 0 0
  have hl := three_long ypr 0 0 0 0
  have hN := three_node ypr 0 0 0 0
  obtain ⟨_, _, _, _, _, hT⟩ := C100_time_offset_coverage_partial (t := 7 / 2) w hl hN
    (show (3 : ℝ) ≤ 7 / 2 by norm_num) (show (7 / 2 : ℝ) < 4 by norm_num)
  exact ⟨_, _, _, w, hl, hN, hT, C100_time_offset_plain_reads_outside w hl hN
    (show (3 : ℝ) ≤ 7 / 2 by norm_num) (show (7 / 2 : ℝ) < 4 by norm_num) (by norm_num)⟩

/-- Order 3, one segment from 2 to 3. -/
noncomputable def parabola (R : RotKin) (a b c : V6) : PoseSpline :=
  ⟨⟨3, [0, 1, 2, 3, 4, 5], [a, b, c], initBasis 3 [0, 1, 2, 3, 4, 5]⟩, R⟩

theorem parabola_wf (R : RotKin) (a b c : V6) : WellFormed (parabola R a b c).spline where
  order_ge := by simp [parabola]
  enough := by simp [parabola]
  count := by simp [parabola]
  basis_eq := rfl
  sorted := (nondecreasing_iff _).1 (by unfold Nondecreasing; simp [parabola]; norm_num)

theorem parabola_inside (R : RotKin) (a b c : V6) : Inside (parabola R a b c).spline 2 (5 / 2) := by
  refine ⟨?_, ?_, ?_, ?_, Or.inr ?_⟩ <;> simp [parabola, knotAt] <;> norm_num

theorem parabola_eval (R : RotKin) (a b c : V6) :
    evalD (parabola R a b c).spline (5 / 2) 0 = .ok ((1 / 8 : ℝ) • a + (3 / 4 : ℝ) • b + (1 / 8 : ℝ) • c) ∧
    evalD (parabola R a b c).spline (5 / 2) 2 = .ok (a - (2 : ℝ) • b + c) := by
  have hw := parabola_wf R a b c
  have hi := computeTIndex_inside hw (parabola_inside R a b c)
  have hn : normTime (parabola R a b c).spline (5 / 2) 2 = 1 / 2 := by
    simp [normTime, parabola, knotAt]; norm_num
  refine ⟨?_, ?_⟩
  · rw [evalD_of hw hi, hn]
    congr 1
    funext e
    simp [parabola, weights, basisM, computeU, matA, BSpline.matB, d0, d1, dmul, knotAt, Finset.sum_range_succ]
    norm_num
    ring
  · rw [evalD_of hw hi, hn]
    congr 1
    funext e
    simp [parabola, weights, basisM, computeU, matA, BSpline.matB, d0, d1, dmul, knotAt, Finset.sum_range_succ]
    norm_num
    ring

/-- The node of the acceleration in the body frame announces a wrong Jacobian: for a constant yaw of a quarter turn, a
change of the acceleration along the `x` axis of the world is announced as one along the `x` axis of the body. -/
theorem C100_acceleration_body_frame_counterexample :
    ∃ (P : PoseSpline) (t : ℝ) (bs : List (DvBlock 3)), WellFormed P.spline ∧ P.rot = ypr ∧
      (∃ a, linearAccelerationBodyFrame P t = .ok a) ∧ accelerationBodyFrameNode P t (1 : Matrix (Fin 3) (Fin 3) ℝ) = .ok bs ∧
      ¬ RightBlocks (linearAccelerationBodyFrame · t) VMoves P 1 bs := by
  set c : V6 := ![0, 0, 0, Real.pi / 2, 0, 0] with hc
  set P := parabola ypr c c c with hP
  have hw : WellFormed P.spline := parabola_wf _ _ _ _
  obtain ⟨e0, e2⟩ := parabola_eval ypr c c c
  obtain ⟨bs, hb, hr⟩ := C100_acceleration_body_frame_partial (P := P) hw e0 (1 : Matrix (Fin 3) (Fin 3) ℝ)
  have hv (x : V6) (hx : tail x = tail c) : linearAccelerationBodyFrame (parabola ypr c c x) (5 / 2) =
      .ok ((yprToR (tail c))ᵀ.mulVec (head (x - c))) := by
    obtain ⟨e0, e2⟩ := parabola_eval ypr c c x
    rw [linearAccelerationBodyFrame, e0]
    simp only [Out.ok_bind]
    rw [e2]
    simp only [Out.ok_bind, Out.pure_eq, Out.ok.injEq]
    have h3 := congrFun hx 0; have h4 := congrFun hx 1; have h5 := congrFun hx 2
    simp only [tail, Matrix.cons_val_zero, Matrix.cons_val_one, Matrix.cons_val] at h3 h4 h5
    congr 1
    · show (yprToR _)ᵀ = _
      congr 2
      apply ext3 <;> simp [tail, h3, h4, h5] <;> ring
    · apply ext3 <;> simp [head] <;> ring
  refine ⟨P, 5 / 2, bs, hw, rfl, ⟨_, hv c rfl⟩, hb, fun h => ?_⟩
  set e : V6 := ![1, 0, 0, 0, 0, 0] with he
  let δ : ℕ → V6 := fun i => if i = 2 then e else 0
  have hpert (ε : ℝ) : P.perturb δ ε = parabola ypr c c (c + ε • e) := by
    simp [hP, parabola, PoseSpline.perturb, δ, List.mapIdx_cons]
  have ht (ε : ℝ) : tail (c + ε • e) = tail c := by
    apply ext3 <;> simp [tail, he]
  have hh (ε : ℝ) : head (ε • e) = ε • head e := by
    apply ext3 <;> simp [head]
  obtain ⟨f, ξ, f1, f2, f3⟩ := hr δ
  obtain ⟨g, η, g1, g2, g3⟩ := h δ
  have hf : f = fun ε => ε • head e := by
    funext ε
    have h1 := f1 ε
    simp only [hpert] at h1
    rw [linearAcceleration, (parabola_eval ypr c c _).2] at h1
    simp only [Out.ok_bind, Out.pure_eq, Out.ok.injEq] at h1
    rw [← h1, ← hh]
    apply ext3 <;> simp [head] <;> ring
  have hg : g = fun ε => ε • (yprToR (tail c))ᵀ.mulVec (head e) := by
    funext ε
    have h1 := g1 ε
    simp only [hpert] at h1
    rw [hv _ (ht ε)] at h1
    simp only [Out.ok.injEq] at h1
    rw [← h1, add_sub_cancel_left, hh, Matrix.mulVec_smul]
  have hl (v : V3) : HasDerivAt (fun ε : ℝ => ε • v) v 0 := by
    simpa using (hasDerivAt_id (0 : ℝ)).smul_const v
  have hξ : ξ = head e := by
    have : HasDerivAt f ξ 0 := f2
    rw [hf] at this
    exact this.unique (hl _)
  have hη : η = (yprToR (tail c))ᵀ.mulVec (head e) := by
    have : HasDerivAt g η 0 := g2
    rw [hg] at this
    exact this.unique (hl _)
  rw [Matrix.one_mulVec] at f3 g3
  have h0 := congrFun (f3.symm.trans g3) 0
  rw [hξ, hη] at h0
  simp [head, he, tail, hc, yprToR, Matrix.mulVec, dotProduct, Fin.sum_univ_three] at h0

/-- A node to which the theorems on the time expression apply, with a time strictly inside. -/
example : ∃ (P : PoseSpline) (N : TimeNode) (p : V6), WellFormed P.spline ∧ LongSegments P ∧
    makeTimeNode P (7 / 2) 0 0 = .ok N ∧ N.tmin < 10 / 3 ∧ 10 / 3 < N.tmax ∧ Inside P.spline 3 (10 / 3) ∧
    evalD P.spline (10 / 3) 0 = .ok p ∧ Supported P.rot (tail p) :=
  have hi := three_inside zyx 0 0 0 0 (t := 10 / 3) (by norm_num) (by norm_num)
  ⟨_, _, _, three_wf zyx 0 0 0 0, three_long zyx 0 0 0 0, three_node zyx 0 0 0 0, by norm_num, by norm_num, hi,
    eval_curveV (three_wf zyx 0 0 0 0) hi 0, Supported.zyx _⟩

end Kalibr.Pose
