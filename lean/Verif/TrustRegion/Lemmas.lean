import Verif.TrustRegion.Model

/-! Lemmas about the dog leg. -/

namespace Kalibr.TrustRegion

set_option linter.unusedSectionVars false

variable {V : Type} [NormedAddCommGroup V] [InnerProductSpace ℝ V]

theorem norm_sq_line (a d : V) (t : ℝ) :
    ‖a + t • d‖ ^ 2 = ‖a‖ ^ 2 + 2 * t * inner ℝ a d + t ^ 2 * ‖d‖ ^ 2 := by
  rw [norm_add_sq_real, inner_smul_right, norm_smul, mul_pow, Real.norm_eq_abs, sq_abs]
  ring

/-- The roots of the quadratic that the code computes. -/
theorem root_spec (A c n2 D2 : ℝ) (hn : 0 < n2) (hD : 0 ≤ c * c + n2 * (D2 - A)) :
    let root := Real.sqrt (c * c + n2 * (D2 - A))
    let b := if c ≤ 0 then (-c + root) / n2 else (D2 - A) / (c + root)
    A + 2 * b * c + b ^ 2 * n2 = D2 ∧ n2 * b = -c + root := by
  intro root b
  have hr := Real.mul_self_sqrt hD
  have hr0 := Real.sqrt_nonneg (c * c + n2 * (D2 - A))
  change root * root = _ at hr
  change 0 ≤ root at hr0
  have hb : n2 * b = -c + root := by
    by_cases hc : c ≤ 0
    · simp only [b, if_pos hc]
      field_simp
    · simp only [b, if_neg hc]
      have : 0 < c + root := by
        have := not_le.1 hc
        linarith
      field_simp
      linear_combination -hr
  refine ⟨?_, hb⟩
  have h2 : n2 * (A + 2 * b * c + b ^ 2 * n2) = n2 * D2 := by
    linear_combination (n2 * b + root + c) * hb + hr
  exact mul_left_cancel₀ (ne_of_gt hn) h2

/-- With the steepest descent step inside the region or the midpoint of the segment on its boundary, and
the Gauss-Newton step outside, `beta` is in `[0, 1]` and the step ends on the boundary. -/
theorem beta_spec (s : DogLeg V) (h0 : 0 ≤ s.delta) (hs : s.sdNorm = ‖s.sd‖) (hg : s.delta < ‖s.gn‖)
    (hc : ‖s.sd‖ ≤ s.delta ∨ s.delta = ‖s.sd + (1 / 2 : ℝ) • (s.gn - s.sd)‖) :
    ‖s.sd + s.computeBeta • (s.gn - s.sd)‖ = s.delta ∧ 0 ≤ s.computeBeta ∧ s.computeBeta ≤ 1 := by
  have hgn : s.gn = s.sd + (1 : ℝ) • (s.gn - s.sd) := by simp
  have hne : s.gn - s.sd ≠ 0 := by
    intro hz
    have e : s.gn = s.sd := sub_eq_zero.1 hz
    rcases hc with h | h
    · rw [e] at hg; linarith
    · rw [hz, smul_zero, add_zero] at h; rw [e] at hg; linarith
  have hn : 0 < ‖s.gn - s.sd‖ ^ 2 := by
    have := norm_pos_iff.2 hne
    positivity
  have hG : ‖s.gn‖ ^ 2 = ‖s.sd‖ ^ 2 + 2 * inner ℝ s.sd (s.gn - s.sd) + ‖s.gn - s.sd‖ ^ 2 := by
    conv_lhs => rw [hgn]
    rw [norm_sq_line]
    ring
  have hG2 : s.delta ^ 2 < ‖s.gn‖ ^ 2 := by
    have := norm_nonneg s.gn
    nlinarith
  have hM := norm_sq_line s.sd (s.gn - s.sd) (1 / 2)
  generalize hcdef : inner ℝ s.sd (s.gn - s.sd) = c at *
  generalize hndef : ‖s.gn - s.sd‖ ^ 2 = n2 at *
  have hsq : 0 ≤ ‖s.sd‖ := norm_nonneg _
  generalize hadef : ‖s.sd‖ = a at *
  have hD : 0 ≤ c * c + n2 * (s.delta * s.delta - s.sdNorm * s.sdNorm) := by
    rw [hs]
    rcases hc with h | h
    · have : 0 ≤ s.delta * s.delta - a * a := by nlinarith
      have := mul_nonneg (le_of_lt hn) this
      nlinarith [mul_self_nonneg c]
    · rw [← h] at hM
      have : c * c + n2 * (s.delta * s.delta - a * a) = (c + n2 / 2) ^ 2 := by
        linear_combination n2 * hM
      rw [this]
      positivity
  have hroot := root_spec (s.sdNorm * s.sdNorm) c n2 (s.delta * s.delta) hn hD
  have hbeta : s.computeBeta = if c ≤ 0 then
      (-c + Real.sqrt (c * c + n2 * (s.delta * s.delta - s.sdNorm * s.sdNorm))) / n2
      else (s.delta * s.delta - s.sdNorm * s.sdNorm) /
        (c + Real.sqrt (c * c + n2 * (s.delta * s.delta - s.sdNorm * s.sdNorm))) := by
    rw [DogLeg.computeBeta, hcdef, hndef]
  obtain ⟨hr1, hr2⟩ := hroot
  rw [← hbeta] at hr1 hr2
  set b := s.computeBeta with hb
  set root := Real.sqrt (c * c + n2 * (s.delta * s.delta - s.sdNorm * s.sdNorm)) with hrt
  have hroot0 : 0 ≤ root := Real.sqrt_nonneg _
  have hrr : root * root = c * c + n2 * (s.delta * s.delta - s.sdNorm * s.sdNorm) := Real.mul_self_sqrt hD
  rw [hs] at hr1 hrr
  refine ⟨?_, ?_, ?_⟩
  · have h1 := norm_sq_line s.sd (s.gn - s.sd) b
    rw [hcdef, hndef, hadef] at h1
    have h2 : ‖s.sd + b • (s.gn - s.sd)‖ ^ 2 = s.delta ^ 2 := by rw [h1]; linear_combination hr1
    exact (pow_left_inj₀ (norm_nonneg _) h0 (by norm_num)).1 h2
  · have h3 : 0 ≤ -c + root := by
      by_cases hc0 : c ≤ 0
      · linarith
      · have hc0 := not_le.1 hc0
        have hle : a * a ≤ s.delta * s.delta := by
          rcases hc with h | h
          · nlinarith
          · rw [← h] at hM
            nlinarith
        by_contra hlt
        have hlt := not_le.1 hlt
        have hp : 0 ≤ n2 * (s.delta * s.delta - a * a) := mul_nonneg (le_of_lt hn) (by linarith)
        nlinarith
    by_contra hlt
    have hlt := not_le.1 hlt
    nlinarith
  · -- root ≤ c + n2
    have hsum : 0 ≤ c + n2 := by
      rcases hc with h | h
      · have : a ^ 2 ≤ s.delta ^ 2 := by gcongr
        linarith
      · rw [← h] at hM
        linarith
    have h4 : root ≤ c + n2 := by
      apply Real.sqrt_le_iff.2
      refine ⟨hsum, ?_⟩
      rw [hs]
      have h6 := mul_pos hn (sub_pos.2 hG2)
      rw [hG] at h6
      linarith [h6]
    have h5 : n2 * b ≤ n2 * 1 := by rw [hr2]; linarith
    exact le_of_mul_le_mul_left h5 hn

theorem radius_nonneg (s : DogLeg V) (h0 : 0 ≤ s.delta) (hg : 0 ≤ s.gnNorm) : 0 ≤ s.radius := by
  have hn := norm_nonneg s.dx
  rw [DogLeg.radius]
  simp only
  repeat' split
  all_goals first | assumption | linarith

/-- A ratio with a positive divisor and a negative dividend is at most zero. -/
theorem rho_neg (num den : ℝ) (h1 : num < 0) (h2 : 0 ≤ den) (a : ℝ) (ha : 0 ≤ a) :
    ¬ (Rho.div num den).gt a ∧ (Rho.div num den).le 0 := by
  rw [Rho.div]
  split
  · rename_i h
    have h3 : 0 < den := lt_of_le_of_ne h2 (Ne.symm h)
    have h4 : num / den < 0 := div_neg_of_neg_of_pos h1 h3
    exact ⟨by simp only [Rho.gt]; linarith, le_of_lt h4⟩
  · rw [if_neg (show ¬ 0 < num by linarith)]
    exact ⟨id, trivial⟩

/-- What a step of the policy establishes. -/
structure Inv (s : DogLeg V) : Prop where
  first : s.base.first = false
  delta : 0 ≤ s.delta
  sdNorm : s.sdNorm = ‖s.sd‖
  gnNorm : s.gnNorm = ‖s.gn‖
  type : s.type ≠ .none
  sd : s.type = .SD → s.dx = (s.delta / s.sdNorm) • s.sd ∧ 0 < s.delta ∧ s.delta ≤ s.sdNorm
  gn : s.type = .GN → s.dx = s.gn ∧ ‖s.dx‖ ≤ s.delta
  dl : s.type = .DL → s.dx = s.sd + s.beta • (s.gn - s.sd) ∧ 0 ≤ s.beta ∧ s.beta ≤ 1 ∧ ‖s.dx‖ = s.delta

theorem Inv.sd_norm {s : DogLeg V} (h : Inv s) (ht : s.type = .SD) : ‖s.dx‖ = s.delta := by
  obtain ⟨h1, h2, h3⟩ := h.sd ht
  have h4 : 0 < s.sdNorm := by linarith
  rw [h1, norm_smul, ← h.sdNorm, Real.norm_eq_abs, abs_of_nonneg (by positivity)]
  field_simp

/-- The steepest descent branch. -/
theorem inv_takeSD (s : DogLeg V) (h1 : s.sdNorm = ‖s.sd‖) (h2 : s.gnNorm = ‖s.gn‖) (h3 : 0 ≤ s.delta)
    (h4 : s.delta ≤ s.sdNorm ∧ s.delta ≠ 0) :
    Inv { s.takeSD with base := { s.takeSD.base with first := false } } :=
  ⟨rfl, h3, h1, h2, by simp [DogLeg.takeSD], fun _ => ⟨rfl, lt_of_le_of_ne h3 (Ne.symm h4.2), h4.1⟩,
    fun h => by simp [DogLeg.takeSD] at h, fun h => by simp [DogLeg.takeSD] at h⟩

/-- The other branches. -/
theorem inv_takeGN (s : DogLeg V) (J : ℝ) (h1 : s.sdNorm = ‖s.sd‖) (h2 : s.gnNorm = ‖s.gn‖) (h3 : 0 ≤ s.delta)
    (h4 : ¬ (s.delta ≤ s.sdNorm ∧ s.delta ≠ 0)) :
    Inv { s.firstRadius.takeGN J with base := { (s.firstRadius.takeGN J).base with first := false } } := by
  have key : ∀ t : DogLeg V, t.sdNorm = ‖t.sd‖ → t.gnNorm = ‖t.gn‖ → 0 ≤ t.delta →
      (‖t.sd‖ ≤ t.delta ∨ t.delta = ‖t.sd + (1 / 2 : ℝ) • (t.gn - t.sd)‖) →
      Inv { t.takeGN J with base := { (t.takeGN J).base with first := false } } := by
    intro t h1 h2 h3 hc
    rw [DogLeg.takeGN]
    by_cases hle : t.gnNorm ≤ t.delta
    · rw [if_pos hle]
      exact ⟨rfl, h3, h1, h2, by simp, fun h => by simp at h, fun _ => ⟨rfl, by rw [← h2]; exact hle⟩,
        fun h => by simp at h⟩
    · rw [if_neg hle]
      have := beta_spec t h3 h1 (by rw [← h2]; exact not_le.1 hle) hc
      exact ⟨rfl, h3, h1, h2, by simp, fun h => by simp at h, fun h => by simp at h,
        fun _ => ⟨rfl, this.2.1, this.2.2, this.1⟩⟩
  rw [DogLeg.firstRadius]
  by_cases hd : s.delta = 0
  · rw [if_pos hd]
    exact key _ h1 h2 (norm_nonneg _) (Or.inr rfl)
  · rw [if_neg hd]
    refine key _ h1 h2 h3 (Or.inl ?_)
    rw [← h1]
    by_contra hlt
    exact h4 ⟨le_of_lt (not_le.1 hlt), hd⟩

theorem inv_solve (s : DogLeg V) (c : Call V) (s' : DogLeg V) (h0 : 0 ≤ s.delta) (hg : 0 ≤ s.gnNorm)
    (h : (s.sdNorm = ‖s.sd‖ ∧ s.gnNorm = ‖s.gn‖) ∨ (c.failed = false ∧ s.base.first = true ∧ s.delta = 0))
    (hs : s.solve c = some (s', true)) : Inv s' := by
  rw [DogLeg.solve] at hs
  simp only at hs
  have hr := radius_nonneg ({ s with base := s.base.enter c.J c.failed } : DogLeg V) h0 hg
  have hz : s.base.first = true → s.delta = 0 →
      ({ s with base := s.base.enter c.J c.failed } : DogLeg V).radius = 0 := by
    intro h1 h2
    rw [DogLeg.radius, if_pos]
    · exact h2
    · show (s.base.enter c.J c.failed).first = true
      rw [Base.enter]; split <;> exact h1
  generalize ({ s with base := s.base.enter c.J c.failed } : DogLeg V).radius = r at *
  split at hs
  · simp at hs
  · rename_i hcur
    by_cases hf : c.failed = true
    · simp only [hf, if_true] at hs
      have h' : s.sdNorm = ‖s.sd‖ ∧ s.gnNorm = ‖s.gn‖ := by
        rcases h with h | h
        · exact h
        · rw [hf] at h; simp at h
      split at hs
      · rename_i hb
        obtain rfl := (Prod.mk.inj (Option.some.inj hs)).1
        exact inv_takeSD { s with base := s.base.enter c.J true, delta := r } h'.1 h'.2 hr hb
      · rename_i hb
        simp only [reduceCtorEq, false_and, if_false] at hs
        obtain rfl := (Prod.mk.inj (Option.some.inj hs)).1
        exact inv_takeGN { s with base := s.base.enter c.J true, delta := r } c.J h'.1 h'.2 hr hb
    · have hf' : c.failed = false := by simpa using hf
      simp only [hf', Bool.false_eq_true, if_false, true_and] at hs
      split at hs
      · rename_i hb
        obtain rfl := (Prod.mk.inj (Option.some.inj hs)).1
        have h' : s.gnNorm = ‖s.gn‖ := by
          rcases h with h | h
          · exact h.2
          · exact absurd (hz h.2.1 h.2.2) hb.2
        exact inv_takeSD (DogLeg.rebuild { s with base := s.base.enter c.J false, delta := r } c.sys) rfl h' hr hb
      · rename_i hb
        split at hs
        · simp at hs
        · rename_i hok
          obtain rfl := (Prod.mk.inj (Option.some.inj hs)).1
          have hok' : (DogLeg.rebuild { s with base := s.base.enter c.J false, delta := r } c.sys).sys.ok = true := by
            simpa using hok
          rw [DogLeg.solveGN, if_pos hok']
          exact inv_takeGN { DogLeg.rebuild { s with base := s.base.enter c.J false, delta := r } c.sys with
            gn := c.sys.gn, gnNorm := ‖c.sys.gn‖ } c.J rfl rfl hr hb

/-- States of the policy after any number of calls since the start of an optimisation, all of them
successful and satisfying `P`: `s` is whatever the object held before. -/
inductive Reach (P : DogLeg V → Call V → Prop) : DogLeg V → Prop
  | first (s : DogLeg V) (J : ℝ) (c : Call V) (s' : DogLeg V) (hf : c.failed = false) (hP : P (s.starting J) c)
      (h : (s.starting J).solve c = some (s', true)) : Reach P s'
  | next (s : DogLeg V) (c : Call V) (s' : DogLeg V) (hr : Reach P s) (hP : P s c)
      (h : s.solve c = some (s', true)) : Reach P s'

theorem Reach.inv {P : DogLeg V → Call V → Prop} {s : DogLeg V} (h : Reach P s) : Inv s := by
  induction h with
  | first s J c s' hf _ h => exact inv_solve (s.starting J) c s' le_rfl le_rfl (Or.inr ⟨hf, rfl, rfl⟩) h
  | next s c s' _ _ h ih =>
    exact inv_solve s c s' ih.delta (by rw [ih.gnNorm]; exact norm_nonneg _) (Or.inl ⟨ih.sdNorm, ih.gnNorm⟩) h

/-- A cost and a curvature that a least squares problem can have. -/
def Valid (_ : DogLeg V) (c : Call V) : Prop := 0 ≤ c.J ∧ 0 < c.sys.curv

/-- The same, and a rejected step has a higher cost than the state before the last accepted step. -/
def Good (s : DogLeg V) (c : Call V) : Prop := Valid s c ∧ (c.failed = true → s.base.pJ < c.J)

/-- The branches of a successful call. -/
theorem solve_cases (s : DogLeg V) (c : Call V) (s' : DogLeg V) (hs : s.solve c = some (s', true)) :
    let r := ({ s with base := s.base.enter c.J c.failed } : DogLeg V).radius
    let t := if c.failed then { s with base := s.base.enter c.J c.failed, delta := r }
      else DogLeg.rebuild { s with base := s.base.enter c.J c.failed, delta := r } c.sys
    let u := if c.failed then t else { t with gn := c.sys.gn, gnNorm := ‖c.sys.gn‖ }
    ((r ≤ t.sdNorm ∧ r ≠ 0) ∧ s' = { t.takeSD with base := { t.takeSD.base with first := false } }) ∨
    (¬ (r ≤ t.sdNorm ∧ r ≠ 0) ∧
      s' = { u.firstRadius.takeGN c.J with base := { (u.firstRadius.takeGN c.J).base with first := false } }) := by
  rw [DogLeg.solve] at hs
  simp only at hs
  simp only
  generalize ({ s with base := s.base.enter c.J c.failed } : DogLeg V).radius = r at *
  split at hs
  · simp at hs
  · by_cases hf : c.failed = true
    · simp only [hf, if_true] at hs ⊢
      split at hs
      · rename_i hb
        exact Or.inl ⟨hb, ((Prod.mk.inj (Option.some.inj hs)).1).symm⟩
      · rename_i hb
        simp only [reduceCtorEq, false_and, if_false] at hs
        exact Or.inr ⟨hb, ((Prod.mk.inj (Option.some.inj hs)).1).symm⟩
    · have hf' : c.failed = false := by simpa using hf
      simp only [hf', Bool.false_eq_true, if_false, true_and] at hs ⊢
      split at hs
      · rename_i hb
        exact Or.inl ⟨hb, ((Prod.mk.inj (Option.some.inj hs)).1).symm⟩
      · rename_i hb
        split at hs
        · simp at hs
        · rename_i hok
          have hok' : (DogLeg.rebuild { s with base := s.base.enter c.J false, delta := r } c.sys).sys.ok = true := by
            simpa using hok
          rw [DogLeg.solveGN, if_pos hok'] at hs
          exact Or.inr ⟨hb, ((Prod.mk.inj (Option.some.inj hs)).1).symm⟩

theorem firstRadius_fields (s : DogLeg V) : s.firstRadius.scale = s.scale ∧ s.firstRadius.sys = s.sys ∧
    s.firstRadius.gn = s.gn ∧ s.firstRadius.base = s.base := by
  rw [DogLeg.firstRadius]; split <;> exact ⟨rfl, rfl, rfl, rfl⟩

theorem takeGN_fields (s : DogLeg V) (J : ℝ) : (s.takeGN J).scale = s.scale ∧ (s.takeGN J).sys = s.sys ∧
    (s.takeGN J).gn = s.gn ∧ (s.takeGN J).base = s.base ∧ (s.takeGN J).delta = s.delta ∧
    (s.takeGN J).type ≠ .SD := by
  rw [DogLeg.takeGN]; split <;> exact ⟨rfl, rfl, rfl, rfl, rfl, by simp⟩

theorem takeGN_L0 (u : DogLeg V) (J : ℝ) (hJ : 0 ≤ J)
    (hi : Inv { u.takeGN J with base := { (u.takeGN J).base with first := false } }) : 0 ≤ (u.takeGN J).L0 := by
  rw [DogLeg.takeGN] at hi ⊢
  by_cases hle : u.gnNorm ≤ u.delta
  · rw [if_pos hle]
    exact hJ
  · rw [if_neg hle] at hi ⊢
    obtain ⟨-, h3, h4, -⟩ := hi.dl rfl
    change 0 ≤ u.computeBeta at h3
    change u.computeBeta ≤ 1 at h4
    show 0 ≤ u.computeBeta * (2 - u.computeBeta) * J
    exact mul_nonneg (mul_nonneg h3 (by linarith)) hJ

/-- The model's reduction is not negative. -/
theorem L0_nonneg (s : DogLeg V) (c : Call V) (s' : DogLeg V) (hi : Inv s') (hc : 0 ≤ c.J ∧ 0 < c.sys.curv)
    (h0 : 0 ≤ s.scale) (hs : s.solve c = some (s', true)) : 0 ≤ s'.L0 ∧ 0 ≤ s'.scale := by
  have hsc : ∀ r, 0 ≤ (if c.failed then { s with base := s.base.enter c.J c.failed, delta := r }
      else DogLeg.rebuild { s with base := s.base.enter c.J c.failed, delta := r } c.sys).scale := by
    intro r
    split
    · exact h0
    · have := hc.2
      show 0 ≤ ‖c.sys.rhs‖ ^ 2 / c.sys.curv
      positivity
  rcases solve_cases s c s' hs with ⟨hb, rfl⟩ | ⟨hb, rfl⟩
  · have h1 := hsc ({ s with base := s.base.enter c.J c.failed } : DogLeg V).radius
    have h2 := hi.sd rfl
    refine ⟨?_, h1⟩
    show 0 ≤ _ * (2 * _ - _) / (2 * _)
    apply div_nonneg
    · apply mul_nonneg
      · exact hi.delta
      · have := h2.2.1
        have := h2.2.2
        simp only [DogLeg.takeSD] at *
        linarith
    · linarith
  · have h1 := hsc ({ s with base := s.base.enter c.J c.failed } : DogLeg V).radius
    refine ⟨?_, ?_⟩
    · exact takeGN_L0 _ c.J hc.1 hi
    · show 0 ≤ (DogLeg.takeGN _ _).scale
      rw [(takeGN_fields _ _).1, (firstRadius_fields _).1]
      split
      · exact h0
      · rename_i hf
        have := hc.2
        show 0 ≤ (DogLeg.scale _)
        simp only [if_neg hf]
        show 0 ≤ ‖c.sys.rhs‖ ^ 2 / c.sys.curv
        positivity

theorem Reach.L0 {P : DogLeg V → Call V → Prop} (hP : ∀ s c, P s c → Valid s c) {s : DogLeg V} (h : Reach P s) :
    0 ≤ s.L0 ∧ 0 ≤ s.scale := by
  induction h with
  | first s J c s' hf hp h => exact L0_nonneg _ c s' (Reach.first s J c s' hf hp h).inv (hP _ _ hp) le_rfl h
  | next s c s' hr hp h ih => exact L0_nonneg s c s' (Reach.next s c s' hr hp h).inv (hP _ _ hp) ih.2 h

/-- After a rejected step whose cost is above `pJ` the radius is half the length of the step. -/
theorem radius_rejected (s : DogLeg V) (hi : Inv s) (hL : 0 ≤ s.L0) (J : ℝ) (hJ : s.base.pJ < J) :
    ({ s with base := s.base.enter J true } : DogLeg V).radius = ‖s.dx‖ / 2 := by
  have hneg : (s.base.enter J true).dJ < 0 := by
    show s.base.pJ - J < 0
    linarith
  have h1 := rho_neg _ _ hneg hL (3 / 4) (by norm_num)
  have h2 := rho_neg _ _ hneg hL 0 le_rfl
  rw [DogLeg.radius, if_neg]
  · simp only
    rw [if_neg h1.1, if_neg (fun h => h2.1 h.1), if_pos h1.2]
    show (if s.type = .GN then s.gnNorm / 2 else s.delta / 2) = _
    cases ht : s.type with
    | none => exact absurd ht hi.type
    | SD => rw [if_neg (by simp), hi.sd_norm ht]
    | GN => rw [if_pos rfl, (hi.gn ht).1, hi.gnNorm]
    | DL => rw [if_neg (by simp), (hi.dl ht).2.2.2]
  · show ¬ (s.base.enter J true).first = true
    have : (s.base.enter J true).first = s.base.first := rfl
    rw [this, hi.first]
    simp

end Kalibr.TrustRegion
