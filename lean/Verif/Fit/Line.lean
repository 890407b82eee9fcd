import Verif.Fit.System
import Mathlib.Algebra.Polynomial.FieldDivision
import Mathlib.Algebra.Polynomial.RingDivision

/-! C112: `initSpline` builds the straight line between the two points. -/

namespace Kalibr.Fit

open BSpline Finset

variable {K : Type} [Field K] [LinearOrder K] [IsStrictOrderedRing K] {D : Nat} {s : Spline K D}

theorem dmul_eq (r d : Nat) : dmul r d = r.descFactorial d := by
  induction d with
  | zero => rfl
  | succ d ih =>
    rw [Nat.descFactorial_succ, ← ih]
    have : ∀ r d, dmul r (d + 1) = dmul r d * (r - d) := by
      intro r d
      induction d generalizing r with
      | zero => simp [dmul]
      | succ d ih =>
        show r * dmul (r - 1) (d + 1) = _
        rw [ih]
        cases d with
        | zero => simp [dmul]
        | succ d =>
          show _ = r * dmul (r - 1) (d + 1) * _
          rw [show r - 1 - (d + 1) = r - (d + 1 + 1) by omega, Nat.mul_assoc]
    rw [this, Nat.mul_comm]

open Polynomial in
/-- A polynomial of degree less than `2 m` with zeros of multiplicity `m` at 0 and 1 is zero. -/
theorem hermite_zero {k m : Nat} (hm : k ≤ 2 * m) {b : Nat → K}
    (h0 : ∀ j, j < m → ∑ r ∈ range k, (if j ≤ r then (0 : K) ^ (r - j) * (dmul r j : K) else 0) * b r = 0)
    (h1 : ∀ j, j < m → ∑ r ∈ range k, (if j ≤ r then (1 : K) ^ (r - j) * (dmul r j : K) else 0) * b r = 0) :
    ∀ r, r < k → b r = 0 := by
  set Q : K[X] := ∑ r ∈ range k, C (b r) * X ^ r with hQ
  have hev : ∀ (j : Nat) (u : K), (derivative^[j] Q).eval u =
      ∑ r ∈ range k, (if j ≤ r then u ^ (r - j) * (dmul r j : K) else 0) * b r := by
    intro j u
    rw [hQ, iterate_derivative_sum, eval_finsetSum]
    apply sum_congr rfl
    intro r _
    rw [iterate_derivative_C_mul, iterate_derivative_X_pow_eq_C_mul, dmul_eq]
    simp only [eval_mul, eval_C, eval_pow, eval_X]
    by_cases h : j ≤ r
    · rw [if_pos h]; ring
    · rw [if_neg h, Nat.descFactorial_of_lt (by omega)]; simp
  have hcoef : ∀ r, r < k → Q.coeff r = b r := by
    intro r hr
    rw [hQ, finsetSum_coeff]
    simp only [coeff_C_mul, coeff_X_pow]
    rw [sum_eq_single r]
    · simp
    · intro c _ hc
      rw [if_neg (fun h => hc h.symm), mul_zero]
    · intro h
      exact absurd (mem_range.2 hr) h
  have hQ0 : Q = 0 := by
    by_contra hne
    rcases Nat.eq_zero_or_pos m with hm0 | hm0
    · subst hm0
      apply hne
      rw [hQ, show k = 0 by omega]
      simp
    have hk0 : Q.natDegree < k := by
      have : Q.natDegree ≤ k - 1 := by
        rw [hQ]
        apply natDegree_sum_le_of_forall_le
        intro r hr
        have hr : r < k := by simpa using hr
        exact le_trans (natDegree_C_mul_X_pow_le _ _) (by omega)
      have : 0 < k := by
        by_contra hk
        apply hne
        rw [hQ, show k = 0 by omega]
        simp
      omega
    have r0 := lt_rootMultiplicity_of_isRoot_iterate_derivative (p := Q) (t := 0) (n := m - 1) hne (by
      intro j hj
      rw [IsRoot.def, hev]
      exact h0 j (by omega))
    have r1 := lt_rootMultiplicity_of_isRoot_iterate_derivative (p := Q) (t := 1) (n := m - 1) hne (by
      intro j hj
      rw [IsRoot.def, hev]
      exact h1 j (by omega))
    have d0 : (X - C (0 : K)) ^ m ∣ Q :=
      dvd_trans (pow_dvd_pow _ (by omega)) (pow_rootMultiplicity_dvd Q 0)
    have d1 : (X - C (1 : K)) ^ m ∣ Q :=
      dvd_trans (pow_dvd_pow _ (by omega)) (pow_rootMultiplicity_dvd Q 1)
    have hco : IsCoprime ((X - C (0 : K)) ^ m) ((X - C (1 : K)) ^ m) :=
      (isCoprime_X_sub_C_of_isUnit_sub (by simp)).pow
    have hd := natDegree_le_of_dvd (hco.mul_dvd d0 d1) hne
    rw [natDegree_mul (pow_ne_zero _ (X_sub_C_ne_zero _)) (pow_ne_zero _ (X_sub_C_ne_zero _)),
      natDegree_pow, natDegree_pow, natDegree_X_sub_C, natDegree_X_sub_C] at hd
    omega
  intro r hr
  rw [← hcoef r hr, hQ0, coeff_zero]

/-- The weighted sum at a normalised time, by the coefficients of the powers. -/
theorem sum_weights (τ : Nat → K) (k i d : Nat) (a : Nat → K) (u : K) :
    ∑ c ∈ range k, weights k (basisM τ k i) (computeU τ k u i d) c * a c =
      ∑ r ∈ range k, computeU τ k u i d r * ∑ c ∈ range k, basisM τ k i r c * a c := by
  unfold weights
  simp only [mul_sum, sum_mul]
  rw [sum_comm]
  exact sum_congr rfl fun r _ => sum_congr rfl fun c _ => by ring

/-- The matrix that `Phi` returns for the weights. -/
def phiOf (D k : Nat) (w : Nat → K) : Nat → Nat → K := fun r c =>
  if c % D = r ∧ c / D < k then w (c / D) else 0

/-- The weights at normalised time `u` of the only segment. -/
def wAt (s : Spline K D) (u : K) (d : Nat) : Nat → K :=
  weights s.order (basisM (knotAt s.knots) s.order (s.order - 1))
    (computeU (knotAt s.knots) s.order u (s.order - 1) d)

/-- The right hand side for derivative `j`. -/
def lineRhs (dt : K) (p0 p1 q : Fin D → K) (j : Nat) : Fin D → K :=
  if j = 0 then q else if j = 1 then fun e => (p1 e - p0 e) / dt else 0

/-- The two block rows for derivative `j`. -/
def pair (s : Spline K D) (dt : K) (p0 p1 : Fin D → K) (j : Nat) : List (Row K D) :=
  [⟨0, phiOf D s.order (wAt s 0 j), lineRhs dt p0 p1 p0 j⟩,
   ⟨0, phiOf D s.order (wAt s 1 j), lineRhs dt p0 p1 p1 j⟩]

theorem flat_length {α : Type} (f : Nat → List α) (h : ∀ j, (f j).length = 2) (a n : Nat) :
    ((List.range' a n).flatMap f).length = 2 * n := by
  induction n generalizing a with
  | zero => simp
  | succ n ih => rw [List.range'_succ, List.flatMap_cons, List.length_append, h, ih]; omega

theorem flat_get {α : Type} (f : Nat → List α) (h : ∀ j, (f j).length = 2) (a n j i : Nat) (hj : j < n)
    (hi : i < 2) : ((List.range' a n).flatMap f)[2 * j + i]? = (f (a + j))[i]? := by
  induction n generalizing a j with
  | zero => omega
  | succ n ih =>
    rw [List.range'_succ, List.flatMap_cons]
    cases j with
    | zero =>
      rw [List.getElem?_append_left (by rw [h]; omega)]
      simp
    | succ j =>
      rw [List.getElem?_append_right (by rw [h]; omega), h,
        show 2 * (j + 1) + i - 2 = 2 * j + i by omega, ih (a + 1) j (by omega)]
      rw [show a + 1 + j = a + (j + 1) by omega]

section OneSegment

variable (w : WellFormed s) (hl : s.knots.length = 2 * s.order) {lo hi : K} (hlo : tMin s = .ok lo)
  (hhi : tMax s = .ok hi) (hlt : lo < hi)

include w hl hlo hhi hlt

theorem one_knots : knotAt s.knots (s.order - 1) = lo ∧ knotAt s.knots (s.order - 1 + 1) = hi := by
  have := w.order_ge
  rw [w.tMin_eq] at hlo; rw [w.tMax_eq] at hhi
  rw [hl, show 2 * s.order - s.order = s.order - 1 + 1 by omega] at hhi
  exact ⟨Out.ok.inj hlo, Out.ok.inj hhi⟩

theorem one_locate {t : K} (h1 : lo ≤ t) (h2 : t ≤ hi) :
    computeTIndex s t = .ok (hi - lo, s.order - 1) := by
  have := w.order_ge
  obtain ⟨p, hp⟩ := accepted w hlo hhi h1 h2
  obtain ⟨_, a1, a2, a3, _⟩ := computeTIndex_ok w hp
  obtain ⟨e1, e2⟩ := one_knots w hl hlo hhi hlt
  have hi' : p.2 = s.order - 1 := by omega
  rw [hp, show p = (p.1, p.2) from rfl, a3, hi', e1, e2]

theorem one_norm (t : K) : normTime s t (s.order - 1) = (t - lo) / (hi - lo) := by
  obtain ⟨e1, e2⟩ := one_knots w hl hlo hhi hlt
  unfold normTime
  rw [e1, e2, if_neg (not_le.2 (by linarith))]

theorem one_phi {t : K} (h1 : lo ≤ t) (h2 : t ≤ hi) (d : Nat) :
    phi s t d = .ok (phiOf D s.order (wAt s ((t - lo) / (hi - lo)) d)) := by
  unfold phi
  rw [localBi_of w (one_locate w hl hlo hhi hlt h1 h2)]
  rw [one_norm w hl hlo hhi hlt]
  rfl

theorem one_eval {t : K} (h1 : lo ≤ t) (h2 : t ≤ hi) (d : Nat) :
    evalD s t d = .ok fun e => ∑ c ∈ range s.order, wAt s ((t - lo) / (hi - lo)) d c * s.coeffs.getD c 0 e := by
  have := w.order_ge
  rw [evalD_of w (one_locate w hl hlo hhi hlt h1 h2)]
  rw [one_norm w hl hlo hhi hlt]
  congr 1
  funext e
  apply sum_congr rfl
  intro c _
  simp only
  rw [show s.order - 1 + 1 - s.order + c = c by omega, mul_comm]
  rfl

theorem ends_ok (d : Nat) (a b : Fin D → K) : ends s s.order lo hi d a b =
    .ok [⟨0, phiOf D s.order (wAt s 0 d), a⟩, ⟨0, phiOf D s.order (wAt s 1 d), b⟩] := by
  have hd : hi - lo ≠ 0 := by intro h; linarith
  have e1 := one_phi w hl hlo hhi hlt (le_refl lo) hlt.le d
  have e2 := one_phi w hl hlo hhi hlt hlt.le (le_refl hi) d
  rw [sub_self, zero_div] at e1
  rw [div_self hd] at e2
  unfold ends row
  rw [e1, e2]
  simp only [Out.ok_bind, Nat.zero_add, lt_irrefl, if_false, Out.pure_eq]

theorem higher_ok {m : Nat} (dt : K) (p0 p1 : Fin D → K) (fuel d : Nat) (hf : m ≤ fuel + d) (hd : 2 ≤ d)
    (hdm : d ≤ m) (rows : List (Row K D)) (hr : rows.length = 2 * d) :
    higher s s.order (2 * m) lo hi fuel d rows =
      .ok (rows ++ (List.range' d (m - d)).flatMap (pair s dt p0 p1)) := by
  induction fuel generalizing d rows with
  | zero =>
    unfold higher
    rw [if_neg (by omega), show m - d = 0 by omega]
    simp
  | succ fuel ih =>
    unfold higher
    by_cases h : d < m
    · rw [if_pos (by omega), ends_ok w hl hlo hhi hlt, Out.ok_bind,
        ih (d + 1) (by omega) (by omega) (by omega) _ (by simp [hr]; omega)]
      rw [show m - d = m - (d + 1) + 1 by omega, List.range'_succ, List.flatMap_cons, ← List.append_assoc]
      congr 3
      have e0 : ∀ q : Fin D → K, lineRhs dt p0 p1 q d = 0 := fun q => by
        unfold lineRhs; rw [if_neg (by omega), if_neg (by omega)]
      unfold pair
      rw [e0, e0]
    · rw [if_neg (by omega), show m - d = 0 by omega]
      simp

theorem lineRows_ok (dt : K) (p0 p1 : Fin D → K) :
    lineRows s s.order (s.order + s.order % 2) lo hi dt p0 p1 =
      .ok ((List.range' 0 ((s.order + 1) / 2)).flatMap (pair s dt p0 p1)) := by
  have hk := w.order_ge
  have hp0 : pair s dt p0 p1 0 = [⟨0, phiOf D s.order (wAt s 0 0), p0⟩, ⟨0, phiOf D s.order (wAt s 1 0), p1⟩] := by
    simp [pair, lineRhs]
  have hp1 : pair s dt p0 p1 1 = [⟨0, phiOf D s.order (wAt s 0 1), fun e => (p1 e - p0 e) / dt⟩,
      ⟨0, phiOf D s.order (wAt s 1 1), fun e => (p1 e - p0 e) / dt⟩] := by
    simp [pair, lineRhs]
  unfold lineRows
  rw [ends_ok w hl hlo hhi hlt, ends_ok w hl hlo hhi hlt]
  simp only [Out.ok_bind]
  by_cases h2 : 2 < s.order
  · rw [if_pos h2]
    by_cases h4 : 4 < s.order
    · rw [if_pos h4, show s.order + s.order % 2 = 2 * ((s.order + 1) / 2) by omega,
        higher_ok w hl hlo hhi hlt dt p0 p1 _ 2 (by omega) (by omega) (by omega) _ (by simp)]
      rw [show (s.order + 1) / 2 = (s.order + 1) / 2 - 2 + 1 + 1 by omega, List.range'_succ, List.range'_succ,
        List.flatMap_cons, List.flatMap_cons, hp0, hp1]
      simp
    · rw [if_neg h4, show (s.order + 1) / 2 = 2 by omega]
      simp [List.range'_succ, hp0, hp1]
  · rw [if_neg h2, show (s.order + 1) / 2 = 1 by omega]
    simp [hp0]

/-- One equation of the system of `initSpline`. -/
theorem line_row (dt : K) (p0 p1 : Fin D → K) (x : Nat → K) {r : Nat} (hr : r < s.order + s.order % 2)
    (e : Fin D) :
    ∑ m ∈ range (s.order * D), denseA s.order
        ((List.range' 0 ((s.order + 1) / 2)).flatMap (pair s dt p0 p1)) (r * D + e) m * x m =
      ∑ c ∈ range s.order, wAt s (if r % 2 = 0 then 0 else 1) (r / 2) c * x (c * D + e) ∧
    denseB ((List.range' 0 ((s.order + 1) / 2)).flatMap (pair s dt p0 p1)) (r * D + e) =
      lineRhs dt p0 p1 (if r % 2 = 0 then p0 else p1) (r / 2) e := by
  have hg := flat_get (pair s dt p0 p1) (fun _ => rfl) 0 ((s.order + 1) / 2) (r / 2) (r % 2) (by omega)
    (by omega)
  rw [show 2 * (r / 2) + r % 2 = r by omega, Nat.zero_add] at hg
  have hcase : r % 2 = 0 ∨ r % 2 = 1 := by omega
  rcases hcase with hc | hc
  · rw [hc] at hg
    have hg' : ((List.range' 0 ((s.order + 1) / 2)).flatMap (pair s dt p0 p1))[r]? =
      some ⟨0, phiOf D s.order (wAt s 0 (r / 2)), lineRhs dt p0 p1 p0 (r / 2)⟩ := hg
    rw [denseA_row (w := wAt s 0 (r / 2)) hg' rfl phi_weights (by simp), denseB_row hg', hc]
    simp
  · rw [hc] at hg
    have hg' : ((List.range' 0 ((s.order + 1) / 2)).flatMap (pair s dt p0 p1))[r]? =
      some ⟨0, phiOf D s.order (wAt s 1 (r / 2)), lineRhs dt p0 p1 p1 (r / 2)⟩ := hg
    rw [denseA_row (w := wAt s 1 (r / 2)) hg' rfl phi_weights (by simp), denseB_row hg', hc]
    simp

/-- Only the zero vector satisfies the homogeneous equations. -/
theorem line_injective (dt : K) (p0 p1 : Fin D → K) (x : Nat → K)
    (h : ∀ a, a < (s.order + s.order % 2) * D → ∑ j ∈ range (s.order * D), denseA s.order
        ((List.range' 0 ((s.order + 1) / 2)).flatMap (pair s dt p0 p1)) a j * x j = 0) :
    ∀ j, j < s.order * D → x j = 0 := by
  intro j hj
  have hk := w.order_ge
  obtain ⟨e1, e2⟩ := one_knots w hl hlo hhi hlt
  obtain ⟨c, hc, e, rfl⟩ := index_split hj
  obtain ⟨k, hkk⟩ : ∃ k, s.order = k + 1 := ⟨s.order - 1, by omega⟩
  have hst : knotAt s.knots (s.order - 1) < knotAt s.knots (s.order - 1 + 1) := by rw [e1, e2]; exact hlt
  have hdt : 0 < knotAt s.knots (s.order - 1 + 1) - knotAt s.knots (s.order - 1) := by linarith
  have key : ∀ (u : K) (i : Nat), i < 2 → u = (if i = 0 then 0 else 1) → ∀ j, j < (s.order + 1) / 2 →
      ∑ r ∈ range s.order, (if j ≤ r then u ^ (r - j) * (dmul r j : K) else 0) *
        ∑ c ∈ range s.order, basisM (knotAt s.knots) s.order (s.order - 1) r c * x (c * D + e) = 0 := by
    intro u i hi2 hu j hj
    have hlt2 : (2 * j + i) * D + (e : Nat) < (s.order + s.order % 2) * D := by
      have := Nat.mul_le_mul_right D (show 2 * j + i + 1 ≤ s.order + s.order % 2 by omega)
      rw [Nat.succ_mul] at this
      have := e.2
      omega
    have h1 := h _ hlt2
    rw [(line_row w hl hlo hhi hlt dt p0 p1 x (by omega) e).1,
      show (2 * j + i) % 2 = i by omega, show (2 * j + i) / 2 = j by omega, ← hu] at h1
    unfold wAt at h1
    rw [sum_weights] at h1
    have h2 : ∀ r ∈ range s.order, computeU (knotAt s.knots) s.order u (s.order - 1) j r *
        ∑ c ∈ range s.order, basisM (knotAt s.knots) s.order (s.order - 1) r c * x (c * D + e) =
        (1 / (knotAt s.knots (s.order - 1 + 1) - knotAt s.knots (s.order - 1)) ^ j) *
        ((if j ≤ r then u ^ (r - j) * (dmul r j : K) else 0) *
        ∑ c ∈ range s.order, basisM (knotAt s.knots) s.order (s.order - 1) r c * x (c * D + e)) := by
      intro r hr
      have hr : r < s.order := by simpa using hr
      unfold computeU
      simp only [if_pos hdt, hr, and_true]
      split <;> ring
    rw [sum_congr rfl h2, ← mul_sum] at h1
    rcases mul_eq_zero.1 h1 with h3 | h3
    · exact absurd h3 (by positivity)
    · exact h3
  have hb := hermite_zero (k := s.order) (m := (s.order + 1) / 2) (by omega)
    (b := fun r => ∑ c ∈ range s.order, basisM (knotAt s.knots) s.order (s.order - 1) r c * x (c * D + e))
    (key 0 0 (by omega) (by simp)) (key 1 1 (by omega) (by simp))
  rw [hkk] at hb hst
  have := bw_independent (knotAt s.knots) s.knots.length k k w.sorted (by simpa using hst) (by omega)
    (by omega) (fun c => x (c * D + e)) (by simpa using hb)
  exact this c (by omega)

/-- The coefficients of the straight line: they satisfy the equations, and the curve and its derivatives are
those of the line. -/
theorem line_exists {dt : K} (hdt : dt = hi - lo) (p0 p1 : Fin D → K) :
    ∃ y : Nat → K, (∀ a, a < (s.order + s.order % 2) * D → ∑ j ∈ range (s.order * D), denseA s.order
        ((List.range' 0 ((s.order + 1) / 2)).flatMap (pair s dt p0 p1)) a j * y j =
        denseB ((List.range' 0 ((s.order + 1) / 2)).flatMap (pair s dt p0 p1)) a) ∧
      ∀ (u : K) (d : Nat) (e : Fin D), ∑ c ∈ range s.order, wAt s u d c * y (c * D + e) =
        if d = 0 then p0 e + u * (p1 e - p0 e) else if d = 1 then (p1 e - p0 e) / dt else 0 := by
  have hk := w.order_ge
  obtain ⟨e1, e2⟩ := one_knots w hl hlo hhi hlt
  obtain ⟨k, hkk⟩ : ∃ k, s.order = k + 1 := ⟨s.order - 1, by omega⟩
  have hst : knotAt s.knots k < knotAt s.knots (k + 1) := by
    rw [show k = s.order - 1 by omega, e1, e2]; exact hlt
  have hpos : 0 < hi - lo := by linarith
  have hsur : ∀ e : Fin D, ∃ a : Nat → K, ∀ r, r < s.order →
      ∑ c ∈ range s.order, basisM (knotAt s.knots) s.order (s.order - 1) r c * a c =
        if r = 0 then p0 e else if r = 1 then p1 e - p0 e else 0 := by
    intro e
    have := bw_surjective (knotAt s.knots) s.knots.length k k w.sorted hst (by omega) (by omega)
      (fun r => if r = 0 then p0 e else if r = 1 then p1 e - p0 e else 0)
    rw [hkk]
    simpa using this
  choose a ha using hsur
  have hval : ∀ (u : K) (d : Nat) (e : Fin D), ∑ c ∈ range s.order, wAt s u d c *
      (fun n => if h : n % D < D then a ⟨n % D, h⟩ (n / D) else 0) (c * D + e) =
        if d = 0 then p0 e + u * (p1 e - p0 e) else if d = 1 then (p1 e - p0 e) / dt else 0 := by
    intro u d e
    simp only [Motion.mod_lin e.2, Motion.div_lin e.2, e.2, dif_pos, Fin.eta]
    unfold wAt
    rw [sum_weights]
    have h1 : ∀ r ∈ range s.order, computeU (knotAt s.knots) s.order u (s.order - 1) d r *
        ∑ c ∈ range s.order, basisM (knotAt s.knots) s.order (s.order - 1) r c * a e c =
        (if r = 0 then computeU (knotAt s.knots) s.order u (s.order - 1) d 0 * p0 e else 0) +
        (if r = 1 then computeU (knotAt s.knots) s.order u (s.order - 1) d 1 * (p1 e - p0 e) else 0) := by
      intro r hr
      rw [ha e r (by simpa using hr)]
      rcases eq_or_ne r 0 with rfl | h0
      · simp
      · rcases eq_or_ne r 1 with rfl | h1
        · simp
        · simp [h0, h1]
    rw [sum_congr rfl h1, sum_add_distrib, sum_ite_eq', sum_ite_eq', if_pos (by simp; omega),
      if_pos (by simp; omega)]
    have hd0 : 0 < knotAt s.knots (s.order - 1 + 1) - knotAt s.knots (s.order - 1) := by
      rw [e1, e2]; exact hpos
    unfold computeU
    simp only [if_pos hd0]
    rw [e1, e2, ← hdt]
    rcases Nat.eq_zero_or_pos d with rfl | hd
    · simp [dmul, show 0 < s.order by omega, show 1 < s.order by omega]
    · rcases eq_or_ne d 1 with rfl | hd1
      · simp [dmul, show 1 < s.order by omega]
        field_simp
      · simp [show d ≠ 0 by omega, hd1, show ¬ d ≤ 1 by omega]
  refine ⟨(fun n => if h : n % D < D then a ⟨n % D, h⟩ (n / D) else 0), ?_, hval⟩
  intro i hi'
  obtain ⟨r, hr, e, rfl⟩ := index_split hi'
  obtain ⟨g1, g2⟩ := line_row w hl hlo hhi hlt dt p0 p1
    (fun n => if h : n % D < D then a ⟨n % D, h⟩ (n / D) else 0) hr e
  rw [g1, g2, hval]
  unfold lineRhs
  have hcase : r % 2 = 0 ∨ r % 2 = 1 := by omega
  rcases hcase with hc | hc <;> rw [hc] <;> simp
  · split
    · rfl
    · split <;> rfl
  · split
    · rfl
    · split <;> rfl

end OneSegment

/-- **C112**.  For every order, every two times `t0 < t1` and every two points, `initSpline` on an object that
does not have more knots than the new spline succeeds: the valid times of the spline are `[t0, t1]`, and on them
the curve is the straight line from the first to the second point, traversed with constant velocity; all higher
derivatives vanish.  The linear solver is assumed to be exact. -/
theorem C112_line_partial {sol : Solvers K} (hx : Exact sol) (hk : 2 ≤ s.order)
    (hlen : s.knots.length ≤ 2 * s.order) {t0 t1 : K} (h : t0 < t1) (p0 p1 : Fin D → K) :
    ∃ s', initSpline sol s t0 t1 p0 p1 = .ok s' ∧ WellFormed s' ∧ s'.order = s.order ∧
      tMin s' = .ok t0 ∧ tMax s' = .ok t1 ∧ numValidTimeSegments s'.order s'.knots.length = 1 ∧
      ∀ t, t0 ≤ t → t ≤ t1 →
        evalD s' t 0 = .ok (fun e => p0 e + (t - t0) / (t1 - t0) * (p1 e - p0 e)) ∧
        evalD s' t 1 = .ok (fun e => (p1 e - p0 e) / (t1 - t0)) ∧
        ∀ d, 2 ≤ d → evalD s' t d = .ok 0 := by
  obtain ⟨q, e, w, ho, hc, hkn, hlo, hhi, hseg⟩ := set_uniform (s := s) hk (n := 1) le_rfl h.le (by omega)
    (c := List.replicate (numCoefficientsRequired s.order 1) 0) (by simp)
  have hC : numCoefficientsRequired s.order 1 = q.order := by
    rw [ho]; unfold numCoefficientsRequired; omega
  have hK : numKnotsRequired s.order 1 = 2 * q.order := by
    rw [ho]; unfold numKnotsRequired numCoefficientsRequired; omega
  have hl : q.knots.length = 2 * q.order := by rw [hkn, uniform_length, hK]
  have hcl : q.coeffs.length = q.order := by rw [hc]; simp [hC]
  rw [show ((1 : Nat) : K) = 1 by simp, div_one] at e
  obtain ⟨y, hy, hval⟩ := line_exists w hl hlo hhi h (dt := t1 - t0) rfl p0 p1
  set rows := (List.range' 0 ((q.order + 1) / 2)).flatMap (pair q (t1 - t0) p0 p1) with hrows
  have hrl : rows.length ≤ q.order + q.order % 2 := by
    rw [hrows, flat_length _ (fun _ => rfl)]; omega
  have inj := line_injective w hl hlo hhi h (t1 - t0) p0 p1
  -- whatever vector is set, if it agrees with `y` the spline is the line
  have fin : ∀ x : Nat → K, (∀ j, j < q.order * D → x j = y j) →
      ∃ s', setCoefficientVector q (toVec (q.order * D) x) = .ok s' ∧ WellFormed s' ∧ s'.order = s.order ∧
      tMin s' = .ok t0 ∧ tMax s' = .ok t1 ∧ numValidTimeSegments s'.order s'.knots.length = 1 ∧
      ∀ t, t0 ≤ t → t ≤ t1 →
        evalD s' t 0 = .ok (fun e => p0 e + (t - t0) / (t1 - t0) * (p1 e - p0 e)) ∧
        evalD s' t 1 = .ok (fun e => (p1 e - p0 e) / (t1 - t0)) ∧
        ∀ d, 2 ≤ d → evalD s' t d = .ok 0 := by
    intro x hxy
    obtain ⟨s', g1, g2, g3, g4, g5, g6, g7⟩ := (C110_set (s := q) (toVec (q.order * D) x)).2
      (by simp [toVec, hcl])
    have w' : WellFormed s' := ⟨by rw [g4]; exact w.order_ge, by rw [g4, g5]; exact w.enough,
      by rw [g3, g4, g5]; exact w.count, by rw [g4, g5, g6]; exact w.basis_eq, by rw [g5]; exact w.sorted⟩
    have hlo' : tMin s' = .ok t0 := by rw [w'.tMin_eq, g4, g5, ← w.tMin_eq, hlo]
    have hhi' : tMax s' = .ok t1 := by rw [w'.tMax_eq, g4, g5, ← w.tMax_eq, hhi]
    have hl' : s'.knots.length = 2 * s'.order := by rw [g4, g5, hl]
    refine ⟨s', g1, w', by rw [g4, ho], hlo', hhi', by rw [g4, g5]; exact hseg, ?_⟩
    intro t h1 h2
    have hev : ∀ d, evalD s' t d = .ok fun e => if d = 0 then p0 e + (t - t0) / (t1 - t0) * (p1 e - p0 e)
        else if d = 1 then (p1 e - p0 e) / (t1 - t0) else 0 := by
      intro d
      rw [one_eval w' hl' hlo' hhi' h h1 h2]
      congr 1
      funext e
      rw [← hval, g4]
      apply sum_congr rfl
      intro c hc'
      have hc' : c < q.order := by simpa using hc'
      have hj : c * D + (e : Nat) < q.order * D := by
        have := Nat.mul_le_mul_right D (show c + 1 ≤ q.order by omega)
        rw [Nat.succ_mul] at this
        have := e.2
        omega
      rw [g7 c (by omega) e]
      unfold wAt
      rw [g4, g5]
      congr 1
      rw [← hxy _ hj]
      simp [toVec, List.getD_eq_getElem?_getD, hj]
    refine ⟨by rw [hev]; simp, by rw [hev]; simp, fun d hd => ?_⟩
    rw [hev]
    congr 1
    funext e
    rw [if_neg (by omega), if_neg (by omega)]
    rfl
  have hinit : initSpline sol s t0 t1 p0 p1 =
      if q.order + q.order % 2 = q.order then
        setCoefficientVector q (toVec (q.order * D) (sol.qr (q.order * D) (denseA q.order rows) (denseB rows)))
      else setCoefficientVector q (toVec (q.order * D) (sol.qr (q.order * D)
        (gram ((q.order + q.order % 2) * D) (denseA q.order rows))
        (gramRhs ((q.order + q.order % 2) * D) (denseA q.order rows) (denseB rows)))) := by
    unfold initSpline
    rw [if_neg (by simpa using h)]
    simp only [e, Out.ok_bind, hlo, hhi]
    rw [hC]
    simp only [lineRows_ok w hl hlo hhi h (t1 - t0) p0 p1, Out.ok_bind, ← hrows]
    rw [if_neg (by omega)]
  rw [hinit]
  by_cases hpar : q.order + q.order % 2 = q.order
  · rw [if_pos hpar]
    apply fin
    rw [hpar] at inj hy
    have hns : Nonsingular (q.order * D) (denseA q.order rows) := inj
    exact hns.unique (hx.qr _ _ _ hns) hy
  · rw [if_neg hpar]
    apply fin
    have hns : Nonsingular (q.order * D) (gram ((q.order + q.order % 2) * D) (denseA q.order rows)) :=
      gram_nonsingular inj
    refine hns.unique (hx.qr _ _ _ hns) ?_
    intro i _
    rw [gram_mul]
    unfold gramRhs
    apply sum_congr rfl
    intro a ha
    rw [hy a (by simpa using ha)]

/-- **C112** (rejections).  Times that do not increase are rejected. -/
theorem C112_rejects (sol : Solvers K) {t0 t1 : K} (h : t1 ≤ t0) (p0 p1 : Fin D → K) :
    initSpline sol s t0 t1 p0 p1 = .raise := by
  unfold initSpline
  rw [if_pos (not_lt.2 h)]

end Kalibr.Fit
