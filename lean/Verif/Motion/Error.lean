import Verif.Motion.Props

/-!
# C102: the motion error term

`BSplineMotionError` is the integral of the weighted squared derivative, and what it adds to the normal equations
is the exact quadratic expansion of this integral.
-/

set_option linter.unusedSectionVars false

namespace Kalibr.Motion

open BSpline Sparse Finset

variable {D : Nat} {s : Spline ℝ D}

/-! ## Structure of the matrix -/

theorem derive_symm (w : WellFormed s) {i : Nat} (hi : i + 1 < s.knots.length) (n : Nat) {r q : Nat}
    (hr : r < s.order) (hq : q < s.order) :
    derive s.order (difMat s i) n (powMat s i) r q = derive s.order (difMat s i) n (powMat s i) q r := by
  rw [derive_eq w hi n hr hq, derive_eq w hi n hq hr]
  simp only [mul_comm]

/-- The scalar matrix of a segment. -/
noncomputable def gram (s : Spline ℝ D) (seg n i j : Nat) : ℝ :=
  ∑ r ∈ range s.order, ∑ q ∈ range s.order, basisM (knotAt s.knots) s.order (seg + s.order - 1) r i *
    derive s.order (difMat s (seg + s.order - 1)) n (powMat s (seg + s.order - 1)) r q *
    basisM (knotAt s.knots) s.order (seg + s.order - 1) q j

theorem gram_symm (w : WellFormed s) {seg : Nat} (h : seg < numValidTimeSegments s.order s.knots.length)
    (n i j : Nat) : gram s seg n i j = gram s seg n j i := by
  have hk := w.order_ge; have hn := w.enough
  unfold numValidTimeSegments at h
  unfold gram
  rw [sum_comm]
  refine sum_congr rfl fun q hq => sum_congr rfl fun r hr => ?_
  rw [derive_symm w (by omega) n (mem_range.1 hr) (mem_range.1 hq)]
  ring

theorem segMat_entry (W : Nat → Nat → ℝ) (seg n i j : Nat) {x y : Nat} (hx : x < D) (hy : y < D) :
    segMat s W seg n (i * D + x) (j * D + y) = W x y * gram s seg n i j := by
  unfold segMat mmul tr gram
  simp only [div_lin hx, div_lin hy, mod_lin hx, mod_lin hy]
  rw [sum_range_mul, sum_eq_single y]
  · rw [sum_congr rfl (g := fun q => ∑ r ∈ range s.order, W x y *
      (basisM (knotAt s.knots) s.order (seg + s.order - 1) r i *
      derive s.order (difMat s (seg + s.order - 1)) n (powMat s (seg + s.order - 1)) r q *
      basisM (knotAt s.knots) s.order (seg + s.order - 1) q j))]
    · rw [sum_comm, mul_sum]
      refine sum_congr rfl fun r _ => ?_
      rw [mul_sum]
    · intro q hq
      have hq := mem_range.1 hq
      rw [sum_range_mul, sum_eq_single x, Bij, div_lin hq, mod_lin hq, if_pos rfl, sum_mul]
      · refine sum_congr rfl fun r hr => ?_
        have hr := mem_range.1 hr
        rw [Bij, div_lin hr, mod_lin hr, if_pos rfl]
        ring
      · intro d _ hd
        refine sum_eq_zero fun r hr => ?_
        rw [Bij, div_lin (mem_range.1 hr), if_neg hd, zero_mul]
      · intro h
        exact absurd (mem_range.2 hx) h
  · intro d _ hd
    refine sum_eq_zero fun q hq => ?_
    rw [Bij, div_lin (mem_range.1 hq), if_neg hd, mul_zero]
  · intro h
    exact absurd (mem_range.2 hy) h

/-- What the sparse function returns, for a symmetric weight matrix. -/
theorem sparse_structure (w : WellFormed s) {W : Mat ℝ} (hs : ∀ r c, W.get r c = W.get c r) {n : Nat}
    {A : SBM ℝ} (h : curveQuadraticIntegralSparse s W n = .ok A) :
    WF A ∧ A.rbi = layout D s.coeffs.length ∧ A.cbi = layout D s.coeffs.length ∧
    ∃ Q : Nat → Nat → ℝ, curveQuadraticIntegral s W n = .ok Q ∧
      Denotes A ⟨s.coeffs.length * D, s.coeffs.length * D, Q⟩ ∧
      (∀ i j x y, x < D → y < D → Q (i * D + x) (j * D + y) = Q (j * D + y) (i * D + x)) ∧
      ∀ i j x y, x < D → y < D → Q (i * D + x) (j * D + y) = Q (j * D + x) (i * D + y) := by
  rcases C101_sparse w W n with ⟨Q, A', hQ, hA, wA, rA, cA, dA⟩ | ⟨-, h2⟩
  · rw [hA, Out.ok.injEq] at h
    subst h
    refine ⟨wA, rA, cA, Q, hQ, dA, ?_⟩
    have hW : W.rows = D ∧ W.cols = D ∧ nearSymmetric D W := by
      by_contra hW
      have et : (1 / 10 ^ 14 : ℝ) = symTol := by unfold symTol; norm_num
      have : curveQuadraticIntegral s W n = .raise := (C101_rejects w W n).2 (by rw [et]; exact hW)
      rw [this] at hQ
      cases hQ
    obtain ⟨hr, hc, hn⟩ := hW
    obtain ⟨Q', hQ', vQ⟩ := denseLoop_ok (D := D) s.order s.coeffs.length
      (fun seg => segmentQuadraticIntegral s W seg n) (fun a => segMat s W.get a n)
      (List.range (numValidTimeSegments s.order s.knots.length))
      (fun a ha => ⟨segment_ok w hr hc hn n (List.mem_range.1 ha), numValid_cols w (List.mem_range.1 ha)⟩)
      fun _ _ => 0
    simp only [curveQuadraticIntegral, hr, hc, ne_eq, not_true_eq_false, if_false] at hQ
    rw [hQ', Out.ok.injEq] at hQ
    subst hQ
    have entry : ∀ i j x y, x < D → y < D → Q' (i * D + x) (j * D + y) =
        ((List.range (numValidTimeSegments s.order s.knots.length)).map fun a =>
          if a ≤ i ∧ i < a + s.order ∧ a ≤ j ∧ j < a + s.order then W.get x y * gram s a n (i - a) (j - a)
            else 0).sum := by
      intro i j x y hx hy
      rw [vQ, zero_add]
      refine congrArg _ (List.map_congr_left fun a _ => ?_)
      have g : ∀ b z : Nat, z < D → ((a * D ≤ b * D + z ∧ b * D + z < a * D + s.order * D) ↔
          (a ≤ b ∧ b < a + s.order)) := by
        intro b z hz
        rw [← Nat.add_mul]
        constructor
        · rintro ⟨p, q⟩
          constructor
          · by_contra hlt
            have := Nat.mul_le_mul_right D (show b + 1 ≤ a by omega)
            rw [Nat.succ_mul] at this
            omega
          · by_contra hlt
            have := Nat.mul_le_mul_right D (show a + s.order ≤ b by omega)
            omega
        · rintro ⟨p, q⟩
          have h1 := Nat.mul_le_mul_right D p
          have h2 := Nat.mul_le_mul_right D (show b + 1 ≤ a + s.order by omega)
          rw [Nat.succ_mul] at h2
          omega
      have gr := g i x hx
      have gc := g j y hy
      by_cases hin : a ≤ i ∧ i < a + s.order ∧ a ≤ j ∧ j < a + s.order
      · rw [if_pos hin, if_pos ⟨(gr.2 ⟨hin.1, hin.2.1⟩).1, (gr.2 ⟨hin.1, hin.2.1⟩).2, gc.2 hin.2.2⟩]
        have e : ∀ b z : Nat, a ≤ b → b * D + z - a * D = (b - a) * D + z := by
          intro b z hb
          rw [Nat.sub_mul]
          have := Nat.mul_le_mul_right D hb
          omega
        rw [e i x hin.1, e j y hin.2.2.1, segMat_entry _ _ _ _ _ hx hy]
      · rw [if_neg hin, if_neg]
        rintro ⟨p1, p2, p3⟩
        exact hin ⟨(gr.1 ⟨p1, p2⟩).1, (gr.1 ⟨p1, p2⟩).2, gc.1 p3⟩
    have key : ∀ i j x y x' y', x < D → y < D → x' < D → y' < D → W.get x y = W.get x' y' →
        Q' (i * D + x) (j * D + y) = Q' (j * D + x') (i * D + y') := by
      intro i j x y x' y' hx hy hx' hy' hW
      rw [entry i j x y hx hy, entry j i x' y' hx' hy']
      refine congrArg _ (List.map_congr_left fun a ha => ?_)
      by_cases hin : a ≤ i ∧ i < a + s.order ∧ a ≤ j ∧ j < a + s.order
      · rw [if_pos hin, if_pos (by omega), gram_symm w (List.mem_range.1 ha), hW]
      · rw [if_neg hin, if_neg (by omega)]
    exact ⟨fun i j x y hx hy => key i j x y y x hx hy hy hx (hs x y),
      fun i j x y hx hy => key i j x y x y hx hy hx hy rfl⟩
  · rw [h2] at h
    cases h

theorem quad_eq_mulVec {A : SBM ℝ} (hA : WF A) {m : Nat} {Q : Nat → Nat → ℝ} (hd : Denotes A ⟨m, m, Q⟩)
    (x : Nat → ℝ) : ∑ i ∈ range m, x i * A.mulVec x i = quad m Q x := by
  unfold quad
  refine sum_congr rfl fun i hi => ?_
  rw [(C33_mulVec A hA _ hd (fun _ => 0) x i (mem_range.1 hi)).1, mul_sum]
  refine sum_congr rfl fun j _ => ?_
  ring

/-- The coefficients of a spline, as a stacked vector, are those of the spline. -/
theorem withCoeffs_stacked (s : Spline ℝ D) : withCoeffs s (stacked s.coeffs) = s := by
  have : unstack D s.coeffs.length (stacked s.coeffs) = s.coeffs := by
    apply List.ext_getElem
    · simp [unstack]
    · intro m h1 h2
      funext d
      have : (unstack D s.coeffs.length (stacked s.coeffs))[m] = fun d : Fin D => stacked s.coeffs (m * D + d) := by
        simp [unstack]
      rw [this]
      dsimp only
      rw [stacked_lin]
      simp [List.getD_eq_getElem?_getD, h2]
  unfold withCoeffs
  rw [this]

/-- **C102** (value).  For every well-formed spline, weight matrix and order of the derivative for which the term
can be constructed, and for every value that the coefficients take afterwards, the error is the integral of the
weighted squared derivative of the curve; a derivative of the order of the spline or higher is replaced by the
highest one that does not vanish everywhere. -/
theorem C102_value (w : WellFormed s) (W : Mat ℝ) (n : Nat) {A : SBM ℝ} (h : motionInit s W n = .ok A)
    (x : Nat → ℝ) :
    motionError A (withCoeffs s x) = motionIntegral (withCoeffs s x) W (min n (s.order - 1)) := by
  have hk := w.order_ge
  have en : (if s.order ≤ n ∧ 2 ≤ s.order then s.order - 1 else n) = min n (s.order - 1) := by
    split_ifs <;> omega
  rw [motionInit, en] at h
  rcases C101_sparse w W (min n (s.order - 1)) with ⟨Q, A', hQ, hA, wA, rA, cA, dA⟩ | ⟨-, h2⟩
  · rw [hA, Out.ok.injEq] at h
    subst h
    have hl : (withCoeffs s x).coeffs.length = s.coeffs.length := by simp [withCoeffs, unstack]
    rw [motionError, hl, mul_comm, quad_eq_mulVec wA dA]
    refine (quad_congr Q (y := x) fun i hi => ?_).trans (C101_integral w W _ hQ x)
    exact stacked_unstack x hi
  · rw [h2] at h
    cases h

/-! ## The normal equations -/

/-- The block of an active design variable. -/
def blockOf (dvs : List DvInfo) (i : Nat) : Option Nat :=
  match dvs[i]? with
  | none => none
  | some a => if a.active then some a.block else none

/-- The numbering of the design variables fits the system: the rows and columns of the system have the same
layout, every active design variable has a block of its size, and the active ones are numbered in the order of the
coefficients. -/
structure Numbered (D : Nat) (dvs : List DvInfo) (H : SBM ℝ) : Prop where
  same : H.rbi = H.cbi
  fits : ∀ i b, blockOf dvs i = some b → b < H.cbi.length ∧ size H.cbi b = D
  increasing : ∀ i j b c, blockOf dvs i = some b → blockOf dvs j = some c → i < j → b < c

/-- The increment of the coefficients that an increment of the system means. -/
def pull (D : Nat) (dvs : List DvInfo) (H : SBM ℝ) (z : Nat → ℝ) : Nat → ℝ := fun m =>
  match blockOf dvs (m / D) with
  | none => 0
  | some b => z (base H.cbi b + m % D)

/-- The symmetric matrix whose upper triangle is that of `M`: how the solvers read a Hessian. -/
def fromUpper (M : Nat → Nat → ℝ) (m n : Nat) : ℝ := if m ≤ n then M m n else M n m

theorem hessianStep_val (Q : SBM ℝ) (dvs : List DvInfo) (i : Nat) (a : DvInfo) {H : SBM ℝ} (hH : WF H)
    (hn : Numbered D dvs H) (ha : blockOf dvs i = some a.block) (j : Nat) :
    WF (hessianStep Q dvs i a H j) ∧ (hessianStep Q dvs i a H j).rbi = H.rbi ∧
    (hessianStep Q dvs i a H j).cbi = H.cbi ∧
    ∀ p q x y, Sparse.val (hessianStep Q dvs i a H j) p q x y = Sparse.val H p q x y +
      if blockOf dvs j = some p ∧ a.block = q then Sparse.val Q i j x y else 0 := by
  unfold hessianStep
  cases hj : dvs[j]? with
  | none => exact ⟨hH, rfl, rfl, fun p q x y => by simp [blockOf, hj]⟩
  | some b =>
    dsimp only
    by_cases hb : b.active
    · rw [if_pos hb]
      have hbl : blockOf dvs j = some b.block := by simp [blockOf, hj, hb]
      cases hQ : Q.blk i j with
      | none => exact ⟨hH, rfl, rfl, fun p q x y => by simp [Sparse.val, hQ]⟩
      | some B =>
        dsimp only
        refine ⟨hH.modBlk (by rw [hn.same]; exact (hn.fits j _ hbl).1) _ fun J h1 h2 => ⟨h1, h2⟩, rfl, rfl, ?_⟩
        intro p q x y
        rw [val_modBlk_add hH (hn.fits i _ ha).1]
        congr 1
        simp [hbl, Sparse.val, hQ]
    · rw [if_neg hb]
      exact ⟨hH, rfl, rfl, fun p q x y => by simp [blockOf, hj, hb]⟩

theorem Numbered.congr {dvs : List DvInfo} {H H' : SBM ℝ} (h : Numbered D dvs H) (hr : H'.rbi = H.rbi)
    (hc : H'.cbi = H.cbi) : Numbered D dvs H' :=
  ⟨by rw [hr, hc, h.same], by rw [hc]; exact h.fits, h.increasing⟩

theorem hessianFold_val (Q : SBM ℝ) (dvs : List DvInfo) (i : Nat) (a : DvInfo) (l : List Nat) {H : SBM ℝ}
    (hH : WF H) (hn : Numbered D dvs H) (ha : blockOf dvs i = some a.block) :
    WF (l.foldl (hessianStep Q dvs i a) H) ∧ (l.foldl (hessianStep Q dvs i a) H).rbi = H.rbi ∧
    (l.foldl (hessianStep Q dvs i a) H).cbi = H.cbi ∧
    ∀ p q x y, Sparse.val (l.foldl (hessianStep Q dvs i a) H) p q x y = Sparse.val H p q x y +
      (l.map fun j => if blockOf dvs j = some p ∧ a.block = q then Sparse.val Q i j x y else 0).sum := by
  induction l generalizing H with
  | nil => exact ⟨hH, rfl, rfl, by simp⟩
  | cons j l ih =>
    obtain ⟨w1, r1, c1, v1⟩ := hessianStep_val Q dvs i a hH hn ha j
    obtain ⟨w2, r2, c2, v2⟩ := ih w1 (hn.congr r1 c1)
    refine ⟨w2, r2.trans r1, c2.trans c1, fun p q x y => ?_⟩
    rw [List.foldl_cons, v2, v1, List.map_cons, List.sum_cons, add_assoc]

theorem hessianLoop_val (Q : SBM ℝ) (dvs : List DvInfo) (bu : Nat → ℝ) (l : List Nat) {H : SBM ℝ}
    (r : Nat → ℝ) (hH : WF H) (hn : Numbered D dvs H) :
    WF (hessianLoop D Q dvs bu l (H, r)).1 ∧ (hessianLoop D Q dvs bu l (H, r)).1.rbi = H.rbi ∧
    (hessianLoop D Q dvs bu l (H, r)).1.cbi = H.cbi ∧
    (∀ p q x y, Sparse.val (hessianLoop D Q dvs bu l (H, r)).1 p q x y = Sparse.val H p q x y +
      (l.map fun i => ∑ j ∈ range (i + 1), if blockOf dvs i = some q ∧ blockOf dvs j = some p then
        Sparse.val Q i j x y else 0).sum) ∧
    ∀ m, (hessianLoop D Q dvs bu l (H, r)).2 m = r m - (l.map fun i => match blockOf dvs i with
      | none => 0
      | some b => if base H.cbi b ≤ m ∧ m < base H.cbi b + D then bu (i * D + (m - base H.cbi b)) else 0).sum := by
  induction l generalizing H r with
  | nil => exact ⟨hH, rfl, rfl, by simp [hessianLoop], by simp [hessianLoop]⟩
  | cons i l ih =>
    rw [hessianLoop]
    cases hi : dvs[i]? with
    | none =>
      obtain ⟨w1, r1, c1, v1, b1⟩ := ih r hH hn
      refine ⟨w1, r1, c1, fun p q x y => ?_, fun m => ?_⟩
      · dsimp only; rw [v1]; simp [blockOf, hi]
      · dsimp only; rw [b1]; simp [blockOf, hi]
    | some a =>
      dsimp only
      by_cases ha : a.active
      · rw [if_pos ha]
        have hbl : blockOf dvs i = some a.block := by simp [blockOf, hi, ha]
        obtain ⟨w1, r1, c1, v1⟩ := hessianFold_val Q dvs i a (List.range (i + 1)) hH hn hbl
        obtain ⟨w2, r2, c2, v2, b2⟩ := ih (subSegment r (base H.cbi a.block) D i bu) w1 (hn.congr r1 c1)
        refine ⟨w2, r2.trans r1, c2.trans c1, fun p q x y => ?_, fun m => ?_⟩
        · rw [v2, v1, List.map_cons, List.sum_cons, add_assoc, sum_list_range]
          congr 2
          refine sum_congr rfl fun j _ => ?_
          simp only [hbl, Option.some.injEq, and_comm]
        · rw [b2, c1, List.map_cons, List.sum_cons, hbl]
          dsimp only
          unfold subSegment
          split_ifs <;> ring
      · rw [if_neg ha]
        obtain ⟨w1, r1, c1, v1, b1⟩ := ih r hH hn
        refine ⟨w1, r1, c1, fun p q x y => ?_, fun m => ?_⟩
        · rw [v1]; simp [blockOf, hi, ha]
        · rw [b1]; simp [blockOf, hi, ha]

theorem blockOf_lt {dvs : List DvInfo} {i b : Nat} (h : blockOf dvs i = some b) : i < dvs.length := by
  by_contra hlt
  rw [blockOf, List.getElem?_eq_none (by omega)] at h
  cases h

theorem pull_lin (dvs : List DvInfo) (H : SBM ℝ) (z : Nat → ℝ) (i : Nat) {x : Nat} (hx : x < D) :
    pull D dvs H z (i * D + x) = match blockOf dvs i with
      | none => 0
      | some b => z (base H.cbi b + x) := by
  rw [pull, div_lin hx, mod_lin hx]

/-- A sum over the system of contributions of the design variables. -/
theorem sum_system {dvs : List DvInfo} {H : SBM ℝ} (hH : WF H) (hn : Numbered D dvs H) (z : Nat → ℝ)
    (v : Nat → Nat → ℝ) (g : Nat → ℝ)
    (hg : ∀ b x, b < H.cbi.length → x < size H.cbi b → g (base H.cbi b + x) =
      ∑ i ∈ range dvs.length, if blockOf dvs i = some b then v i x else 0) :
    ∑ m ∈ range (total H.cbi), z m * g m =
      ∑ i ∈ range dvs.length, ∑ x ∈ range D, pull D dvs H z (i * D + x) * v i x := by
  rw [sum_blocks hH.cols]
  have e : ∀ b ∈ range H.cbi.length, ∑ x ∈ range (size H.cbi b), z (base H.cbi b + x) * g (base H.cbi b + x) =
      ∑ i ∈ range dvs.length, if blockOf dvs i = some b then
        ∑ x ∈ range D, z (base H.cbi b + x) * v i x else 0 := by
    intro b hb
    have hb := mem_range.1 hb
    rw [sum_congr rfl (g := fun x => ∑ i ∈ range dvs.length, if blockOf dvs i = some b then
      z (base H.cbi b + x) * v i x else 0)]
    · rw [sum_comm]
      refine sum_congr rfl fun i _ => ?_
      by_cases hi : blockOf dvs i = some b
      · simp only [if_pos hi, (hn.fits i b hi).2]
      · simp only [if_neg hi, sum_const_zero]
    · intro x hx
      rw [hg b x hb (mem_range.1 hx), mul_sum]
      refine sum_congr rfl fun i _ => ?_
      split_ifs <;> ring
  rw [sum_congr rfl e, sum_comm]
  refine sum_congr rfl fun i _ => ?_
  cases hi : blockOf dvs i with
  | none =>
    rw [sum_eq_zero (fun b _ => by simp), sum_eq_zero]
    intro x hx
    rw [pull_lin dvs H z i (mem_range.1 hx), hi, zero_mul]
  | some b =>
    rw [sum_eq_single b]
    · rw [if_pos rfl]
      refine sum_congr rfl fun x hx => ?_
      rw [pull_lin dvs H z i (mem_range.1 hx), hi]
    · intro c _ hc
      rw [if_neg (by simpa using fun h => hc h.symm)]
    · intro h
      exact absurd (mem_range.2 (hn.fits i b hi).1) h

theorem quad_expand {m : Nat} {Q : Nat → Nat → ℝ} (hs : ∀ i j, i < m → j < m → Q i j = Q j i) (x δ : Nat → ℝ) :
    quad m Q (fun i => x i + δ i) = quad m Q x + 2 * ∑ i ∈ range m, δ i * ∑ j ∈ range m, Q i j * x j +
      quad m Q δ := by
  have e : ∑ i ∈ range m, ∑ j ∈ range m, x i * Q i j * δ j = ∑ i ∈ range m, ∑ j ∈ range m, δ i * Q i j * x j := by
    rw [sum_comm]
    refine sum_congr rfl fun i hi => sum_congr rfl fun j hj => ?_
    rw [hs j i (mem_range.1 hj) (mem_range.1 hi)]
    ring
  have e2 : ∑ i ∈ range m, δ i * ∑ j ∈ range m, Q i j * x j =
      ∑ i ∈ range m, ∑ j ∈ range m, δ i * Q i j * x j := by
    refine sum_congr rfl fun i _ => ?_
    rw [mul_sum]
    refine sum_congr rfl fun j _ => ?_
    ring
  rw [e2, two_mul]
  nth_rewrite 1 [← e]
  simp only [quad, ← sum_add_distrib]
  refine sum_congr rfl fun i _ => sum_congr rfl fun j _ => ?_
  ring

/-- **C102** (normal equations).  When the active design variables are numbered in the order of the coefficients,
what the term adds to the Hessian and to the right-hand side is the exact quadratic expansion of its value: for
every increment `z` of the system, the integral at the incremented coefficients is the integral at the present
ones, minus twice the product of `z` with what was added to the right-hand side, plus the quadratic form, at `z`, of
what was added to the Hessian (read from its upper triangle).  Design variables that are not active do not move.
Missing for the full claim: other numberings, see `C102_numbering_counterexample`. -/
theorem C102_normal_equations_partial (w : WellFormed s) (W : Mat ℝ) (hs : ∀ r c, W.get r c = W.get c r) (n : Nat)
    {A : SBM ℝ} (h : motionInit s W n = .ok A) (dvs : List DvInfo) (hl : dvs.length = s.coeffs.length)
    {H : SBM ℝ} (hH : WF H) (hn : Numbered D dvs H) (r : Nat → ℝ) (M M' : Mat ℝ) (hM : Denotes H M)
    (hM' : Denotes (motionHessian A s dvs H r).1 M') (z : Nat → ℝ) :
    motionIntegral (withCoeffs s fun m => stacked s.coeffs m + pull D dvs H z m) W (min n (s.order - 1)) =
      motionIntegral s W (min n (s.order - 1)) -
      2 * ∑ m ∈ range (total H.cbi), z m * ((motionHessian A s dvs H r).2 m - r m) +
      ∑ m ∈ range (total H.cbi), ∑ k ∈ range (total H.cbi),
        z m * (fromUpper M'.get m k - fromUpper M.get m k) * z k := by
  have hk := w.order_ge
  have en : (if s.order ≤ n ∧ 2 ≤ s.order then s.order - 1 else n) = min n (s.order - 1) := by
    split_ifs <;> omega
  rw [motionInit, en] at h
  obtain ⟨wA, rA, cA, Q, hQ, dA, symQ, blkQ⟩ := sparse_structure w hs h
  have hI : ∀ x, motionIntegral (withCoeffs s x) W (min n (s.order - 1)) = quad (s.coeffs.length * D) Q x :=
    fun x => (C101_integral w W _ hQ x).symm
  have hI0 : motionIntegral s W (min n (s.order - 1)) = quad (s.coeffs.length * D) Q (stacked s.coeffs) := by
    rw [← hI, withCoeffs_stacked]
  have symQ' : ∀ i j, i < s.coeffs.length * D → j < s.coeffs.length * D → Q i j = Q j i := by
    intro i j hi hj
    rcases Nat.eq_zero_or_pos D with h0 | h0
    · rw [Nat.mul_eq_zero.2 (Or.inr h0)] at hi; omega
    · have := symQ (i / D) (j / D) (i % D) (j % D) (Nat.mod_lt _ h0) (Nat.mod_lt _ h0)
      rwa [mul_comm, Nat.div_add_mod, mul_comm (j / D), Nat.div_add_mod] at this
  rw [hI, quad_expand symQ', hI0]
  obtain ⟨w1, r1, c1, v1, b1⟩ := hessianLoop_val (D := D) A dvs (A.mulVec (stacked s.coeffs))
    (List.range dvs.length) r hH hn
  change WF (motionHessian A s dvs H r).1 at w1
  change (motionHessian A s dvs H r).1.rbi = H.rbi at r1
  change (motionHessian A s dvs H r).1.cbi = H.cbi at c1
  change ∀ p q x y, Sparse.val (motionHessian A s dvs H r).1 p q x y = _ at v1
  change ∀ m, (motionHessian A s dvs H r).2 m = _ at b1
  -- the right-hand side
  have hrhs : ∑ m ∈ range (total H.cbi), z m * ((motionHessian A s dvs H r).2 m - r m) =
      -∑ i ∈ range (s.coeffs.length * D), pull D dvs H z i * ∑ j ∈ range (s.coeffs.length * D),
        Q i j * stacked s.coeffs j := by
    rw [sum_system hH hn z (fun i x => -∑ j ∈ range (s.coeffs.length * D), Q (i * D + x) j * stacked s.coeffs j)
      (fun m => (motionHessian A s dvs H r).2 m - r m), sum_range_mul, hl, ← sum_neg_distrib]
    · refine sum_congr rfl fun i _ => ?_
      rw [← sum_neg_distrib]
      refine sum_congr rfl fun x _ => ?_
      ring
    · intro b x hb hx
      rw [b1, sum_list_range, sub_sub_cancel_left, ← sum_neg_distrib]
      refine sum_congr rfl fun i hi => ?_
      have hi := mem_range.1 hi
      cases hbi : blockOf dvs i with
      | none => simp
      | some c =>
        have hf := hn.fits i c hbi
        dsimp only
        by_cases hcb : c = b
        · subst hcb
          rw [hf.2] at hx
          rw [if_pos (by omega), if_pos rfl, Nat.add_sub_cancel_left,
            (C33_mulVec A wA _ dA (fun _ => 0) (stacked s.coeffs) (i * D + x) ?_).1]
          dsimp only
          have := Nat.mul_le_mul_right D (show i + 1 ≤ s.coeffs.length by omega)
          rw [Nat.succ_mul] at this
          omega
        · rw [if_neg, if_neg (by simpa using hcb), neg_zero]
          rintro ⟨p1, p2⟩
          exact hcb (block_unique hH.cols hf.1 hb p1 (by rw [hf.2]; exact p2) (by omega) (by omega))
  -- the Hessian
  have hval : ∀ i j x y, i < s.coeffs.length → j < s.coeffs.length → x < D → y < D →
      Sparse.val A i j x y = Q (i * D + x) (j * D + y) := by
    intro i j x y hi hj hx hy
    have := dA.entry i j x y (by rwa [rA, layout_length]) (by rwa [cA, layout_length])
      (by rwa [rA, layout_size _ _ hi]) (by rwa [cA, layout_size _ _ hj])
    rw [rA, cA, layout_base _ _ hi.le, layout_base _ _ hj.le] at this
    exact this.symm
  have inc : ∀ i j b c, blockOf dvs i = some b → blockOf dvs j = some c → b < c → i < j := by
    intro i j b c hi hj hbc
    rcases Nat.lt_trichotomy i j with h | h | h
    · exact h
    · subst h; rw [hi, Option.some.injEq] at hj; omega
    · have := hn.increasing j i c b hj hi h; omega
  have inj : ∀ i j b, blockOf dvs i = some b → blockOf dvs j = some b → i = j := by
    intro i j b hi hj
    rcases Nat.lt_trichotomy i j with h | h | h
    · have := hn.increasing i j b b hi hj h; omega
    · exact h
    · have := hn.increasing j i b b hj hi h; omega
  -- the stored increment at an upper place
  have hup : ∀ b c x y, b ≤ c → b < H.cbi.length → c < H.cbi.length → x < size H.cbi b → y < size H.cbi c →
      M'.get (base H.cbi b + x) (base H.cbi c + y) - M.get (base H.cbi b + x) (base H.cbi c + y) =
      ∑ i ∈ range dvs.length, ∑ j ∈ range dvs.length,
        if blockOf dvs i = some b ∧ blockOf dvs j = some c then Q (i * D + x) (j * D + y) else 0 := by
    intro b c x y hbc hb hc hx hy
    have e1 := hM'.entry b c x y (by rw [r1, hn.same]; exact hb) (by rw [c1]; exact hc)
      (by rw [r1, hn.same]; exact hx) (by rw [c1]; exact hy)
    have e2 := hM.entry b c x y (by rw [hn.same]; exact hb) hc (by rw [hn.same]; exact hx) hy
    rw [r1, c1, hn.same] at e1
    rw [hn.same] at e2
    rw [e1, e2, v1, add_sub_cancel_left, sum_list_range]
    rw [sum_comm]
    refine sum_congr rfl fun i hi => ?_
    have hi := mem_range.1 hi
    by_cases hci : blockOf dvs i = some c
    · have hyD : y < D := by rw [← (hn.fits i c hci).2]; exact hy
      have sub : range (i + 1) ⊆ range dvs.length := range_subset_range.2 (by omega)
      rw [← sum_subset sub]
      · refine sum_congr rfl fun j hj => ?_
        by_cases hbj : blockOf dvs j = some b
        · have hj' := blockOf_lt hbj
          have hxD : x < D := by rw [← (hn.fits j b hbj).2]; exact hx
          rw [if_pos ⟨hci, hbj⟩, if_pos ⟨hbj, hci⟩, hval i j x y (by omega) (by omega) hxD hyD]
          exact blkQ i j x y hxD hyD
        · rw [if_neg (by tauto), if_neg (by tauto)]
      · intro j _ hj
        rw [if_neg]
        rintro ⟨hbj, -⟩
        have hji : j ≤ i := by
          rcases Nat.lt_or_ge b c with hlt | hge
          · exact (inc j i b c hbj hci hlt).le
          · have : b = c := by omega
            subst this
            exact (inj j i b hbj hci).le
        exact hj (mem_range.2 (by omega))
    · rw [sum_eq_zero, sum_eq_zero]
      · intro j _; rw [if_neg (by tauto)]
      · intro j _; rw [if_neg (by tauto)]
  have hfull : ∀ b c x y, b < H.cbi.length → c < H.cbi.length → x < size H.cbi b → y < size H.cbi c →
      fromUpper M'.get (base H.cbi b + x) (base H.cbi c + y) -
        fromUpper M.get (base H.cbi b + x) (base H.cbi c + y) =
      ∑ i ∈ range dvs.length, ∑ j ∈ range dvs.length,
        if blockOf dvs i = some b ∧ blockOf dvs j = some c then Q (i * D + x) (j * D + y) else 0 := by
    intro b c x y hb hc hx hy
    have low : c ≤ b → M'.get (base H.cbi c + y) (base H.cbi b + x) - M.get (base H.cbi c + y) (base H.cbi b + x) =
        ∑ i ∈ range dvs.length, ∑ j ∈ range dvs.length,
          if blockOf dvs i = some b ∧ blockOf dvs j = some c then Q (i * D + x) (j * D + y) else 0 := by
      intro hcb
      rw [hup c b y x hcb hc hb hy hx, sum_comm]
      refine sum_congr rfl fun i hi => sum_congr rfl fun j hj => ?_
      by_cases hij : blockOf dvs i = some b ∧ blockOf dvs j = some c
      · rw [if_pos hij, if_pos hij.symm]
        refine symQ j i y x ?_ ?_
        · rw [← (hn.fits j c hij.2).2]; exact hy
        · rw [← (hn.fits i b hij.1).2]; exact hx
      · rw [if_neg hij, if_neg (by tauto)]
    unfold fromUpper
    rcases Nat.lt_trichotomy b c with hlt | heq | hgt
    · have := base_mono hH.cols (show b + 1 ≤ c by omega) hc.le
      rw [base_succ hH.cols hb] at this
      rw [if_pos (by omega), if_pos (by omega)]
      exact hup b c x y hlt.le hb hc hx hy
    · subst heq
      split_ifs
      · exact hup b b x y le_rfl hb hc hx hy
      · exact low le_rfl
    · have := base_mono hH.cols (show c + 1 ≤ b by omega) hb.le
      rw [base_succ hH.cols hc] at this
      rw [if_neg (by omega), if_neg (by omega)]
      exact low hgt.le
  have hhess : ∑ m ∈ range (total H.cbi), ∑ k ∈ range (total H.cbi),
        z m * (fromUpper M'.get m k - fromUpper M.get m k) * z k =
      quad (s.coeffs.length * D) Q (pull D dvs H z) := by
    have e0 : ∀ m, ∑ k ∈ range (total H.cbi), z m * (fromUpper M'.get m k - fromUpper M.get m k) * z k =
        z m * ∑ k ∈ range (total H.cbi), z k * (fromUpper M'.get m k - fromUpper M.get m k) := by
      intro m
      rw [mul_sum]
      refine sum_congr rfl fun k _ => ?_
      ring
    rw [sum_congr rfl fun m _ => e0 m]
    rw [sum_system hH hn z (fun i x => ∑ j ∈ range dvs.length, ∑ y ∈ range D,
      pull D dvs H z (j * D + y) * Q (i * D + x) (j * D + y))
      (fun m => ∑ k ∈ range (total H.cbi), z k * (fromUpper M'.get m k - fromUpper M.get m k))]
    · rw [quad, sum_range_mul, hl]
      refine sum_congr rfl fun i _ => sum_congr rfl fun x _ => ?_
      rw [sum_range_mul, mul_sum]
      refine sum_congr rfl fun j _ => ?_
      rw [mul_sum]
      refine sum_congr rfl fun y _ => ?_
      ring
    · intro b x hb hx
      rw [sum_system hH hn z (fun j y => ∑ i ∈ range dvs.length, if blockOf dvs i = some b then
        Q (i * D + x) (j * D + y) else 0)
        (fun k => fromUpper M'.get (base H.cbi b + x) k - fromUpper M.get (base H.cbi b + x) k)]
      · simp only [mul_sum]
        have e1 : ∀ i, (if blockOf dvs i = some b then ∑ j ∈ range dvs.length, ∑ y ∈ range D,
            pull D dvs H z (j * D + y) * Q (i * D + x) (j * D + y) else 0) =
            ∑ j ∈ range dvs.length, ∑ y ∈ range D, pull D dvs H z (j * D + y) *
              if blockOf dvs i = some b then Q (i * D + x) (j * D + y) else 0 := by
          intro i
          split_ifs
          · rfl
          · simp
        rw [sum_congr rfl fun i _ => e1 i]
        symm
        rw [sum_comm]
        refine sum_congr rfl fun j _ => ?_
        rw [sum_comm]
      · intro c y hc hy
        rw [hfull b c x y hb hc hx hy, sum_comm]
        refine sum_congr rfl fun j _ => ?_
        by_cases hj : blockOf dvs j = some c
        · rw [if_pos hj]
          refine sum_congr rfl fun i _ => ?_
          by_cases hi : blockOf dvs i = some b
          · rw [if_pos ⟨hi, hj⟩, if_pos hi]
          · rw [if_neg (by tauto), if_neg hi]
        · rw [if_neg hj]
          refine sum_eq_zero fun i _ => ?_
          rw [if_neg (by tauto)]
  rw [hrhs, hhess]
  ring

/-- **C102** (`rhs()`).  For every increment `δ` of the coefficients, the integral at the incremented coefficients
is the integral at the present ones, minus twice the product of `δ` with `rhs()`, plus the integral of the curve
whose coefficients are `δ`. -/
theorem C102_rhs (w : WellFormed s) (W : Mat ℝ) (hs : ∀ r c, W.get r c = W.get c r) (n : Nat)
    {A : SBM ℝ} (h : motionInit s W n = .ok A) (δ : Nat → ℝ) :
    motionIntegral (withCoeffs s fun m => stacked s.coeffs m + δ m) W (min n (s.order - 1)) =
      motionIntegral s W (min n (s.order - 1)) -
      2 * ∑ m ∈ range (s.coeffs.length * D), δ m * motionRhs A s m +
      motionIntegral (withCoeffs s δ) W (min n (s.order - 1)) := by
  have hk := w.order_ge
  have en : (if s.order ≤ n ∧ 2 ≤ s.order then s.order - 1 else n) = min n (s.order - 1) := by
    split_ifs <;> omega
  rw [motionInit, en] at h
  obtain ⟨wA, rA, cA, Q, hQ, dA, symQ, -⟩ := sparse_structure w hs h
  have symQ' : ∀ i j, i < s.coeffs.length * D → j < s.coeffs.length * D → Q i j = Q j i := by
    intro i j hi hj
    rcases Nat.eq_zero_or_pos D with h0 | h0
    · rw [Nat.mul_eq_zero.2 (Or.inr h0)] at hi; omega
    · have := symQ (i / D) (j / D) (i % D) (j % D) (Nat.mod_lt _ h0) (Nat.mod_lt _ h0)
      rwa [mul_comm, Nat.div_add_mod, mul_comm (j / D), Nat.div_add_mod] at this
  have hI : ∀ x, motionIntegral (withCoeffs s x) W (min n (s.order - 1)) = quad (s.coeffs.length * D) Q x :=
    fun x => (C101_integral w W _ hQ x).symm
  have hI0 : motionIntegral s W (min n (s.order - 1)) = quad (s.coeffs.length * D) Q (stacked s.coeffs) := by
    rw [← hI, withCoeffs_stacked]
  rw [hI, quad_expand symQ', hI0, hI]
  have e : ∑ m ∈ range (s.coeffs.length * D), δ m * motionRhs A s m =
      -∑ i ∈ range (s.coeffs.length * D), δ i * ∑ j ∈ range (s.coeffs.length * D), Q i j * stacked s.coeffs j := by
    rw [← sum_neg_distrib]
    refine sum_congr rfl fun i hi => ?_
    rw [motionRhs, (C33_mulVec A wA _ dA (fun _ => 0) _ i (mem_range.1 hi)).1, ← mul_neg, ← sum_neg_distrib]
    congr 1
    refine sum_congr rfl fun j _ => ?_
    ring
  rw [e]
  ring

/-! ## Cases -/

/-- All design variables active, numbered in order: the hypotheses of `C102_normal_equations_partial` are met. -/
theorem numbered_layout (D N : Nat) : Numbered D ((List.range N).map fun i => ⟨true, i⟩)
    (SBM.new (layout D N) (layout D N)) := by
  have hb : ∀ i b, blockOf ((List.range N).map fun i => ⟨true, i⟩) i = some b → b = i ∧ i < N := by
    intro i b h
    have hi := blockOf_lt h
    simp only [List.length_map, List.length_range] at hi
    simp [blockOf, List.getElem?_range hi] at h
    exact ⟨h.symm, hi⟩
  refine ⟨rfl, ?_, ?_⟩
  · intro i b h
    obtain ⟨rfl, hi⟩ := hb i b h
    exact ⟨by rw [SBM.new, layout_length]; exact hi, layout_size D N hi⟩
  · intro i j b c h1 h2 hij
    rw [(hb i b h1).1, (hb j c h2).1]
    exact hij

/-- The hypotheses of the theorems are met by a spline of order 3 with repeated knots, for every order of the
derivative. -/
example (n : Nat) : ∃ A, motionInit rSpline ⟨1, 1, fun _ _ => 2⟩ n = .ok A ∧
    Numbered 1 ((List.range 5).map fun i => ⟨true, i⟩) (SBM.new (layout 1 5) (layout 1 5)) ∧
    WF (SBM.new (K := ℝ) (layout 1 5) (layout 1 5)) := by
  obtain ⟨Q, A, -, hA⟩ := C101_accepts rSpline_wf ⟨1, 1, fun _ _ => 2⟩ rfl rfl (fun _ _ => rfl)
    (if rSpline.order ≤ n ∧ 2 ≤ rSpline.order then rSpline.order - 1 else n)
  exact ⟨A, hA, numbered_layout 1 5, new_wf (layout_mono _ _) (layout_mono _ _)⟩

/-- A spline of order 2 with one segment, over the rationals. -/
def lineQ : Spline ℚ 1 :=
  ⟨2, [0, 1, 2, 3], [fun _ => 0, fun _ => 1], initBasis 2 [0, 1, 2, 3]⟩

/-- **C102** is false when the coefficients are not numbered in order: with the two coefficients of a one-segment
spline in exchanged blocks, the entry that couples them is added below the diagonal, and the upper triangle, which
the solvers read, does not change. -/
theorem C102_numbering_counterexample : ∃ A, motionInit lineQ ⟨1, 1, fun _ _ => 1⟩ 0 = .ok A ∧
    A.toDense.get 0 1 = 1 / 6 ∧ A.toDense.get 1 0 = 1 / 6 ∧
    (motionHessian A lineQ [⟨true, 1⟩, ⟨true, 0⟩] (SBM.new [1, 2] [1, 2]) fun _ => 0).1.toDense.get 0 1 = 0 ∧
    (motionHessian A lineQ [⟨true, 1⟩, ⟨true, 0⟩] (SBM.new [1, 2] [1, 2]) fun _ => 0).1.toDense.get 1 0 =
      1 / 6 := by
  have h : (match motionInit lineQ ⟨1, 1, fun _ _ => 1⟩ 0 with
      | .ok A => decide (A.toDense.get 0 1 = 1 / 6 ∧ A.toDense.get 1 0 = 1 / 6 ∧
        (motionHessian A lineQ [⟨true, 1⟩, ⟨true, 0⟩] (SBM.new [1, 2] [1, 2]) fun _ => 0).1.toDense.get 0 1 = 0 ∧
        (motionHessian A lineQ [⟨true, 1⟩, ⟨true, 0⟩] (SBM.new [1, 2] [1, 2]) fun _ => 0).1.toDense.get 1 0 =
          1 / 6)
      | _ => false) = true := by decide +kernel
  split at h
  · rename_i A hA
    exact ⟨A, hA, of_decide_eq_true h⟩
  · cases h

end Kalibr.Motion
