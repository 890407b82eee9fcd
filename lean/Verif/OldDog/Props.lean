import Mathlib.Algebra.Order.Archimedean.Basic
import Mathlib.Analysis.InnerProductSpace.Basic
import Verif.OldDog.Model
import Verif.Tactics

/-!
# The dog leg of the first optimizer: what a user relies on

C188.  Steps stay in the trust region, a step is kept exactly if it lowers the objective, a rejected one at least halves the
radius and with a positive limit the loops end, and the reported final objective is the one of the result and not larger than
the one at the start.  The steepest descent step is not the best one along the gradient: its length is wrong.
-/

namespace Kalibr.OldDog

variable {X E : Type} [NormedAddCommGroup E] [InnerProductSpace ℝ E]

/-! ## Specification -/

/-- `y` is reached from `x` by steps that are improvements. -/
inductive Improves (P : Problem X E) : X → X → Prop
  | none (x) : Improves P x x
  | step {x y} (d : E) : Improves P x y → P.cost (P.apply y d) < P.cost y → Improves P x (P.apply y d)

/-- The states of the loops. -/
inductive Reached (P : Problem X E) (cx cj : ℝ) (x : X) : Loop X → Prop
  | start : Reached P cx cj x (start P cx cj x)
  | attempt {s} : Reached P cx cj x s → Reached P cx cj x (attempt P s)

theorem Improves.le {P : Problem X E} {x y : X} (h : Improves P x y) : P.cost y ≤ P.cost x := by
  induction h with
  | none => exact le_rfl
  | step _ _ hlt ih => exact le_of_lt (lt_of_lt_of_le hlt ih)

/-! ## The point on the dog leg -/

/-- Real numbers only: the larger root of the circle on the leg. -/
theorem root_facts {a c e r : ℝ} (ha : 0 < a) (hr0 : 0 ≤ r) (hr : r * r = c * c + a * e)
    (he : 0 ≤ e ∨ a / 4 + c = e) (h1 : e < a + 2 * c) :
    a * ((r - c) / a) ^ 2 + 2 * c * ((r - c) / a) = e ∧ 0 ≤ (r - c) / a ∧ (r - c) / a ≤ 1 := by
  refine ⟨?_, ?_, ?_⟩
  · field_simp
    nlinarith
  · apply div_nonneg _ ha.le
    rcases he with he | he
    · have : 0 ≤ a * e := mul_nonneg ha.le he
      by_contra hc
      push Not at hc
      nlinarith
    · by_contra hc
      push Not at hc
      have : r * r = (c + a / 2) * (c + a / 2) := by rw [hr, ← he]; ring
      nlinarith
  · rw [div_le_one ha]
    have hac : 0 ≤ a + c := by
      rcases he with he | he <;> by_contra hc <;> push Not at hc <;> linarith
    have : r * r ≤ (a + c) * (a + c) := by rw [hr]; nlinarith
    have := abs_le_abs_of_sq_le_sq' this hr0 hac
    linarith
where
  abs_le_abs_of_sq_le_sq' {u v : ℝ} (h : u * u ≤ v * v) (hu : 0 ≤ u) (hv : 0 ≤ v) : u ≤ v := by
    by_contra hc
    push Not at hc
    nlinarith

theorem beta_eq (s d : E) (delta : ℝ) (hd : d ≠ 0)
    (hdisc : 0 ≤ inner ℝ s d * inner ℝ s d + ‖d‖ ^ 2 * (delta * delta - ‖s‖ * ‖s‖)) :
    beta s d delta =
      (Real.sqrt (inner ℝ s d * inner ℝ s d + ‖d‖ ^ 2 * (delta * delta - ‖s‖ * ‖s‖)) - inner ℝ s d) / ‖d‖ ^ 2 := by
  have ha : 0 < ‖d‖ ^ 2 := by have := norm_pos_iff.2 hd; positivity
  unfold beta
  simp only
  by_cases hc : (inner ℝ s d : ℝ) ≤ 0
  · rw [if_pos hc]; ring
  · rw [if_neg hc]
    push Not at hc
    have hr := Real.mul_self_sqrt hdisc
    have hr0 := Real.sqrt_nonneg (inner ℝ s d * inner ℝ s d + ‖d‖ ^ 2 * (delta * delta - ‖s‖ * ‖s‖))
    generalize Real.sqrt (inner ℝ s d * inner ℝ s d + ‖d‖ ^ 2 * (delta * delta - ‖s‖ * ‖s‖)) = r at *
    rw [div_eq_div_iff (by linarith) ha.ne']
    nlinarith

/-- The point lies on the boundary of the region, between the two steps. -/
theorem beta_facts (s g : E) (delta : ℝ) (h0 : 0 ≤ delta) (hg : delta < ‖g‖)
    (hs : ‖s‖ ≤ delta ∨ ‖s + (0.5 : ℝ) • (g - s)‖ = delta) :
    ‖s + beta s (g - s) delta • (g - s)‖ = delta ∧ 0 ≤ beta s (g - s) delta ∧ beta s (g - s) delta ≤ 1 := by
  obtain ⟨d, hd⟩ : ∃ d, d = g - s := ⟨_, rfl⟩
  have hgd : g = s + d := by rw [hd]; abel
  have expand : ∀ t : ℝ, ‖s + t • d‖ ^ 2 = ‖s‖ ^ 2 + 2 * t * inner ℝ s d + t ^ 2 * ‖d‖ ^ 2 := by
    intro t
    rw [norm_add_sq_real, inner_smul_right, norm_smul, mul_pow, Real.norm_eq_abs, sq_abs]; ring
  have hd0 : d ≠ 0 := by
    intro h
    rw [h, add_zero] at hgd
    rw [hgd] at hg
    rcases hs with hs | hs
    · linarith
    · rw [← hd, h, smul_zero, add_zero] at hs; linarith
  have ha : 0 < ‖d‖ ^ 2 := by have := norm_pos_iff.2 hd0; positivity
  have h1 : delta * delta - ‖s‖ * ‖s‖ < ‖d‖ ^ 2 + 2 * inner ℝ s d := by
    have := expand 1
    rw [one_smul, ← hgd] at this
    nlinarith
  have he : 0 ≤ delta * delta - ‖s‖ * ‖s‖ ∨ ‖d‖ ^ 2 / 4 + inner ℝ s d = delta * delta - ‖s‖ * ‖s‖ := by
    rcases hs with hs | hs
    · left; have := norm_nonneg s; nlinarith
    · right
      have := expand 0.5
      rw [hd, hs, ← hd] at this
      nlinarith
  have hdisc : 0 ≤ inner ℝ s d * inner ℝ s d + ‖d‖ ^ 2 * (delta * delta - ‖s‖ * ‖s‖) := by
    rcases he with he | he
    · have := mul_nonneg ha.le he; nlinarith [mul_self_nonneg (inner ℝ s d : ℝ)]
    · rw [← he]; nlinarith [mul_self_nonneg (inner ℝ s d + ‖d‖ ^ 2 / 2 : ℝ)]
  rw [← hd, beta_eq s d delta hd0 hdisc]
  obtain ⟨f1, f2, f3⟩ := root_facts ha (Real.sqrt_nonneg _) (Real.mul_self_sqrt hdisc) he h1
  refine ⟨?_, f2, f3⟩
  have h2 := expand ((Real.sqrt (inner ℝ s d * inner ℝ s d + ‖d‖ ^ 2 * (delta * delta - ‖s‖ * ‖s‖)) - inner ℝ s d) / ‖d‖ ^ 2)
  rw [← sq_eq_sq₀ (norm_nonneg _) h0, h2]
  nlinarith

/-- All that is needed of a step. -/
theorem trial_facts (P : Problem X E) (x : X) (J delta : ℝ) (hJ : 0 ≤ J) (h0 : 0 ≤ delta) :
    ‖(trial P x J delta).dx‖ ≤ (trial P x J delta).delta ∧ (delta ≠ 0 → (trial P x J delta).delta = delta) ∧
    0 ≤ (trial P x J delta).L0 ∧
    ((trial P x J delta).kind = .GN → ‖gn P x‖ ≤ (trial P x J delta).delta) := by
  unfold trial
  simp only
  have hsc : 0 ≤ sdScale P x := by unfold sdScale; positivity
  by_cases hc : delta ≤ ‖sd P x‖ ∧ delta ≠ 0
  · rw [if_pos hc]
    have hp : 0 < delta := lt_of_le_of_ne h0 (Ne.symm hc.2)
    have hs : 0 < ‖sd P x‖ := lt_of_lt_of_le hp hc.1
    refine ⟨?_, fun _ => rfl, ?_, fun h => by simp at h⟩
    · show ‖(delta / ‖sd P x‖) • sd P x‖ ≤ delta
      rw [norm_smul, Real.norm_eq_abs, abs_of_nonneg (by positivity), div_mul_cancel₀ _ hs.ne']
    · exact div_nonneg (mul_nonneg h0 (by linarith [hc.1])) (by linarith)
  · rw [if_neg hc]
    obtain ⟨D, hD⟩ : ∃ D, D = (if delta = 0 then ‖sd P x + (0.5 : ℝ) • (gn P x - sd P x)‖ else delta) := ⟨_, rfl⟩
    rw [← hD]
    have hD0 : 0 ≤ D := by rw [hD]; split_ifs; exacts [norm_nonneg _, h0]
    have hDd : delta ≠ 0 → D = delta := fun h => by rw [hD, if_neg h]
    by_cases hg : ‖gn P x‖ ≤ D
    · rw [if_pos hg]
      exact ⟨hg, hDd, hJ, fun _ => hg⟩
    · rw [if_neg hg]
      push Not at hg
      have hs : ‖sd P x‖ ≤ D ∨ ‖sd P x + (0.5 : ℝ) • (gn P x - sd P x)‖ = D := by
        by_cases hz : delta = 0
        · right; rw [hD, if_pos hz]
        · left
          rw [hDd hz]
          by_contra hn
          exact hc ⟨(not_le.1 hn).le, hz⟩
      obtain ⟨b1, b2, b3⟩ := beta_facts (sd P x) (gn P x) D hD0 hg hs
      refine ⟨b1.le, hDd, ?_, fun h => by simp at h⟩
      show 0 ≤ ((1 / 2 : ℤ) : ℝ) * _ * _ * _ * _ + _
      have : ((1 / 2 : ℤ) : ℝ) = 0 := by norm_num
      rw [this]
      have := mul_nonneg (mul_nonneg b2 (by linarith : 0 ≤ 2 - beta (sd P x) (gn P x - sd P x) D)) hJ
      linarith

theorem ratio_pos {a b : ℝ} (hb : 0 ≤ b) : 0 < ratio a b ↔ 0 < a := by
  unfold ratio
  by_cases h : b = 0
  · rw [if_pos h]
    by_cases ha : 0 < a
    · simp [ha]
    · rw [if_neg ha]; constructor
      · intro h; norm_num at h
      · intro h; exact absurd h ha
  · rw [if_neg h]
    have : 0 < b := lt_of_le_of_ne hb (Ne.symm h)
    rw [div_pos_iff]
    constructor
    · rintro (⟨h1, _⟩ | ⟨_, h2⟩)
      · exact h1
      · linarith
    · intro ha; exact Or.inl ⟨ha, this⟩

/-- What holds in every state. -/
structure Inv (P : Problem X E) (x : X) (s : Loop X) : Prop where
  J : s.J = P.cost s.cur
  pJ : s.pJ = P.cost s.cur
  lin : s.lin = s.cur
  delta : 0 ≤ s.delta
  path : Improves P x s.cur

theorem attempt_facts {P : Problem X E} (hc : ∀ x, 0 ≤ P.cost x) {x : X} {s : Loop X} (h : Inv P x s) (t : Trial E)
    (ht : t = trial P s.cur (P.cost s.cur) s.delta) :
    Inv P x (attempt P s) ∧
    (P.cost (P.apply s.cur t.dx) < P.cost s.cur → (attempt P s).cur = P.apply s.cur t.dx ∧ 0 < (attempt P s).rho) ∧
    (P.cost s.cur ≤ P.cost (P.apply s.cur t.dx) → (attempt P s).cur = s.cur ∧ (attempt P s).deltaJ = 0 ∧
      (attempt P s).delta ≤ t.delta / 2 ∧ (attempt P s).rho ≤ 0) := by
  obtain ⟨f1, f2, f3, f4⟩ := trial_facts P s.cur (P.cost s.cur) s.delta (hc _) h.delta
  rw [← ht] at f1 f2 f3 f4
  have htd : 0 ≤ t.delta := le_trans (norm_nonneg _) f1
  have hrp := ratio_pos (a := P.cost s.cur - P.cost (P.apply s.cur t.dx)) f3
  have ea : attempt P s =
      { cur := if 0 < ratio (P.cost s.cur - P.cost (P.apply s.cur t.dx)) t.L0 then P.apply s.cur t.dx else s.cur
        lin := if 0 < ratio (P.cost s.cur - P.cost (P.apply s.cur t.dx)) t.L0 then P.apply s.cur t.dx else s.cur
        J := if P.cost (if 0 < ratio (P.cost s.cur - P.cost (P.apply s.cur t.dx)) t.L0 then P.apply s.cur t.dx
          else s.cur) < P.cost s.cur then P.cost (if 0 < ratio (P.cost s.cur - P.cost (P.apply s.cur t.dx)) t.L0
          then P.apply s.cur t.dx else s.cur) else P.cost s.cur
        pJ := if P.cost (if 0 < ratio (P.cost s.cur - P.cost (P.apply s.cur t.dx)) t.L0 then P.apply s.cur t.dx
          else s.cur) < P.cost s.cur then P.cost (if 0 < ratio (P.cost s.cur - P.cost (P.apply s.cur t.dx)) t.L0
          then P.apply s.cur t.dx else s.cur) else P.cost s.cur
        delta := radius t.delta (ratio (P.cost s.cur - P.cost (P.apply s.cur t.dx)) t.L0) ‖t.dx‖ ‖gn P s.cur‖ t.kind
        deltaX := P.size t.dx
        deltaJ := P.cost s.cur - P.cost (if 0 < ratio (P.cost s.cur - P.cost (P.apply s.cur t.dx)) t.L0
          then P.apply s.cur t.dx else s.cur)
        rho := ratio (P.cost s.cur - P.cost (P.apply s.cur t.dx)) t.L0 } := by
    unfold attempt
    simp only [h.lin, h.J, h.pJ, ← ht]
  generalize ratio (P.cost s.cur - P.cost (P.apply s.cur t.dx)) t.L0 = rho at *
  have hrad : 0 ≤ radius t.delta rho ‖t.dx‖ ‖gn P s.cur‖ t.kind := by
    unfold radius
    have := norm_nonneg t.dx
    have := norm_nonneg (gn P s.cur)
    split_ifs <;> linarith
  by_cases hlt : P.cost (P.apply s.cur t.dx) < P.cost s.cur
  · have hr : 0 < rho := hrp.2 (by linarith)
    simp only [if_pos hr, if_pos hlt] at ea
    rw [ea]
    exact ⟨⟨rfl, rfl, rfl, hrad, Improves.step _ h.path hlt⟩, fun _ => ⟨rfl, hr⟩, fun hle => absurd hlt (not_lt.2 hle)⟩
  · have hr : ¬ 0 < rho := fun hr => hlt (by have := hrp.1 hr; linarith)
    simp only [if_neg hr, lt_irrefl, if_false] at ea
    rw [ea]
    refine ⟨⟨rfl, rfl, rfl, hrad, h.path⟩, fun hl => absurd hl hlt, fun _ => ⟨rfl, sub_self _, ?_, not_lt.1 hr⟩⟩
    show radius t.delta rho ‖t.dx‖ ‖gn P s.cur‖ t.kind ≤ t.delta / 2
    have hr' := not_lt.1 hr
    unfold radius
    rw [if_neg (by norm_num; linarith), if_neg (fun hh => hr hh.1), if_pos hr']
    split_ifs with hk
    · have := f4 hk; linarith
    · exact le_rfl

omit [NormedAddCommGroup E] [InnerProductSpace ℝ E] in
theorem start_inv (P : Problem X E) (cx cj : ℝ) (x : X) : Inv P x (start P cx cj x) :=
  ⟨rfl, rfl, rfl, le_rfl, Improves.none x⟩

theorem Reached.inv {P : Problem X E} (hc : ∀ x, 0 ≤ P.cost x) {cx cj : ℝ} {x : X} {s : Loop X}
    (h : Reached P cx cj x s) : Inv P x s := by
  induction h with
  | start => exact start_inv P cx cj x
  | attempt _ ih => exact (attempt_facts hc ih _ rfl).1

theorem attempts_reached {P : Problem X E} {cx cj conv : ℝ} {x : X} (n : ℕ) {s t : Loop X} (h : Reached P cx cj x s)
    (ht : attempts P conv n s = some t) : Reached P cx cj x t := by
  induction n generalizing s with
  | zero => simp [attempts] at ht
  | succ n ih =>
    simp only [attempts] at ht
    split_ifs at ht
    · exact ih h.attempt ht
    · rw [← Option.some.inj ht]; exact h.attempt

theorem outer_reached {P : Problem X E} {cx cj : ℝ} {x : X} (fuel n : ℕ) {s t : Loop X} (h : Reached P cx cj x s)
    (ht : outer P cx cj fuel n s = some t) : Reached P cx cj x t := by
  induction n generalizing s with
  | zero => simp only [outer] at ht; rw [← Option.some.inj ht]; exact h
  | succ n ih =>
    simp only [outer] at ht
    split_ifs at ht
    · cases hi : attempts P cx fuel s with
      | none => rw [hi] at ht; simp at ht
      | some u => rw [hi] at ht; exact ih (attempts_reached fuel h hi) ht
    · rw [← Option.some.inj ht]; exact h

theorem attempts_inv {P : Problem X E} (hc : ∀ x, 0 ≤ P.cost x) {conv : ℝ} {x : X} (n : ℕ) {s t : Loop X}
    (h : Inv P x s) (ht : attempts P conv n s = some t) : Inv P x t := by
  induction n generalizing s with
  | zero => simp [attempts] at ht
  | succ n ih =>
    simp only [attempts] at ht
    split_ifs at ht
    · exact ih (attempt_facts hc h _ rfl).1 ht
    · rw [← Option.some.inj ht]; exact (attempt_facts hc h _ rfl).1

theorem attempts_mono (P : Problem X E) (conv : ℝ) (n m : ℕ) (s t : Loop X) (hnm : n ≤ m)
    (h : attempts P conv n s = some t) : attempts P conv m s = some t := by
  induction n generalizing m s with
  | zero => simp [attempts] at h
  | succ n ih =>
    obtain ⟨m, rfl⟩ : ∃ k, m = k + 1 := ⟨m - 1, by omega⟩
    simp only [attempts] at h ⊢
    split_ifs at h ⊢ with hg
    · exact ih m _ (by omega) h
    · exact h

theorem outer_mono (P : Problem X E) (cx cj : ℝ) (f g n : ℕ) (s t : Loop X) (hfg : f ≤ g)
    (h : outer P cx cj f n s = some t) : outer P cx cj g n s = some t := by
  induction n generalizing s with
  | zero => exact h
  | succ n ih =>
    simp only [outer] at h ⊢
    split_ifs at h ⊢ with hg
    · cases hi : attempts P cx f s with
      | none => rw [hi] at h; simp at h
      | some u => rw [hi] at h; rw [attempts_mono P cx f g s u hfg hi]; exact ih _ h
    · exact h

theorem attempts_ends {P : Problem X E} (hc : ∀ x, 0 ≤ P.cost x) {conv : ℝ} (h0 : 0 < conv) {x : X} (k : ℕ) {s : Loop X}
    (h : Inv P x s) (hs : conv < s.delta) (hk : s.delta ≤ conv * 2 ^ k) : ∃ t, attempts P conv k s = some t := by
  induction k generalizing s with
  | zero => rw [pow_zero, mul_one] at hk; linarith
  | succ k ih =>
    simp only [attempts]
    obtain ⟨g1, g2, g3⟩ := attempt_facts hc h _ rfl
    split_ifs with hg
    · apply ih g1 hg.2
      have hle : P.cost s.cur ≤ P.cost (P.apply s.cur (trial P s.cur (P.cost s.cur) s.delta).dx) := by
        by_contra hn
        have := (g2 (not_le.1 hn)).2
        linarith [hg.1]
      have h1 := (g3 hle).2.2.1
      rw [(trial_facts P s.cur (P.cost s.cur) s.delta (hc _) h.delta).2.1 (by linarith)] at h1
      rw [pow_succ] at hk
      linarith
    · exact ⟨_, rfl⟩

theorem attempts_ends' {P : Problem X E} (hc : ∀ x, 0 ≤ P.cost x) {conv : ℝ} (h0 : 0 < conv) {x : X} {s : Loop X}
    (h : Inv P x s) : ∃ n t, attempts P conv n s = some t := by
  obtain ⟨k, hk⟩ := pow_unbounded_of_one_lt ((attempt P s).delta / conv) (by norm_num : (1 : ℝ) < 2)
  rw [div_lt_iff₀ h0] at hk
  by_cases hg : (attempt P s).rho < 0 ∧ conv < (attempt P s).delta
  · obtain ⟨t, ht⟩ := attempts_ends hc h0 k (attempt_facts hc h _ rfl).1 hg.2 (by linarith)
    refine ⟨k + 1, t, ?_⟩
    simp only [attempts]
    rw [if_pos hg]; exact ht
  · exact ⟨1, attempt P s, by simp only [attempts]; rw [if_neg hg]⟩

/-! ## C188 -/

/-- Every step, of every kind, at every state and with every radius, stays within the region, whose radius is the one before
except for the first step. -/
theorem C188_region (P : Problem X E) (x : X) (J delta : ℝ) (hJ : 0 ≤ J) (h0 : 0 ≤ delta) :
    ‖(trial P x J delta).dx‖ ≤ (trial P x J delta).delta ∧ (delta ≠ 0 → (trial P x J delta).delta = delta) :=
  ⟨(trial_facts P x J delta hJ h0).1, (trial_facts P x J delta hJ h0).2.1⟩

/-- In every state a step is computed from the system of this state; it is kept exactly if it lowers the objective, and
otherwise the state stays and the radius is at most half of what it was. -/
theorem C188_keeps {P : Problem X E} (hc : ∀ x, 0 ≤ P.cost x) {cx cj : ℝ} {x : X} {s : Loop X}
    (h : Reached P cx cj x s) (t : Trial E) (ht : t = trial P s.cur (P.cost s.cur) s.delta) :
    (P.cost (P.apply s.cur t.dx) < P.cost s.cur → (attempt P s).cur = P.apply s.cur t.dx) ∧
    (P.cost s.cur ≤ P.cost (P.apply s.cur t.dx) → (attempt P s).cur = s.cur ∧ (attempt P s).delta ≤ t.delta / 2) := by
  obtain ⟨_, g2, g3⟩ := attempt_facts hc (h.inv hc) t ht
  exact ⟨fun a => (g2 a).1, fun a => ⟨(g3 a).1, (g3 a).2.2.1⟩⟩

/-- The result is reached by improvements, and the reported final objective is the one of the result. -/
theorem C188_descent {P : Problem X E} (hc : ∀ x, 0 ≤ P.cost x) {cx cj : ℝ} {x : X} (fuel n : ℕ) (r : Loop X)
    (hr : outer P cx cj fuel n (start P cx cj x) = some r) :
    Improves P x r.cur ∧ P.cost r.cur ≤ P.cost x ∧ r.J = P.cost r.cur := by
  have h := (outer_reached fuel n Reached.start hr).inv hc
  exact ⟨h.path, h.path.le, h.J⟩

/-- With a positive limit for the change of the state the optimizer ends, however many iterations are allowed, with a result
that does not depend on the passes allowed for the inner loop. -/
theorem C188_ends {P : Problem X E} (hc : ∀ x, 0 ≤ P.cost x) {cx : ℝ} (cj : ℝ) (h0 : 0 < cx) (x : X) (n : ℕ) :
    ∃ N r, ∀ fuel, N ≤ fuel → outer P cx cj fuel n (start P cx cj x) = some r := by
  have key : ∀ (n : ℕ) (s : Loop X), Inv P x s → ∃ N r, outer P cx cj N n s = some r := by
    intro n
    induction n with
    | zero => intro s _; exact ⟨0, s, rfl⟩
    | succ n ih =>
      intro s hs
      by_cases hg : cx < s.deltaX ∧ cj < |s.deltaJ|
      · obtain ⟨a, t, ht⟩ := attempts_ends' hc h0 hs
        have hti := attempts_inv hc a hs ht
        obtain ⟨b, r, hr⟩ := ih t hti
        refine ⟨max a b, r, ?_⟩
        simp only [outer]
        rw [if_pos hg, attempts_mono P cx a (max a b) s t (le_max_left _ _) ht]
        exact outer_mono P cx cj b (max a b) n t r (le_max_right _ _) hr
      · refine ⟨0, s, ?_⟩
        simp only [outer]
        rw [if_neg hg]
  obtain ⟨N, r, hr⟩ := key n _ (start_inv P cx cj x)
  exact ⟨N, r, fun fuel hf => outer_mono P cx cj N fuel n _ r hf hr⟩

/-- The least squares problem with the single residual `x / 2`. -/
noncomputable def half : Problem ℝ ℝ where
  cost x := (x / 2) ^ 2
  rhs x := -(1 / 4) * x
  hrhs x := (1 / 4) * (-(1 / 4) * x)
  newton x := some (-x)
  apply x d := x + d
  size d := |d|

/-- The steepest descent step is not the best one along the gradient: on a linear problem with one variable, where the
Newton step is within the region and reaches the minimum, a step of four times its length is tried, which multiplies the
objective by nine. -/
theorem C188_cauchy_counterexample :
    half.cost (half.apply 1 (gn half 1)) = 0 ∧ ‖gn half 1‖ ≤ 4 ∧
    half.cost (half.apply 1 (trial half 1 (half.cost 1) 4).dx) = 9 * half.cost 1 := by
  have hsc : sdScale half 1 = 16 := by
    unfold sdScale half
    simp only [Real.norm_eq_abs, sq_abs]
    norm_num
  have hsd : sd half 1 = -4 := by
    unfold sd; rw [hsc]; simp only [half, smul_eq_mul]; norm_num
  have hgn : gn half 1 = -1 := by unfold gn half; simp
  refine ⟨?_, ?_, ?_⟩
  · rw [hgn]; simp [half]
  · rw [hgn]; norm_num
  · unfold trial
    simp only [hsd]
    rw [if_pos (by norm_num)]
    simp only [half, smul_eq_mul]
    norm_num

/-- The conditions are met, and there the first step, to the end of the Newton step, is kept. -/
example : (∀ x, 0 ≤ half.cost x) ∧ (attempt half (start half 1 1 1)).cur = 0 := by
  have hsc : sdScale half 1 = 16 := by
    unfold sdScale half
    simp only [Real.norm_eq_abs, sq_abs]
    norm_num
  have hsd : sd half 1 = -4 := by
    unfold sd; rw [hsc]; simp only [half, smul_eq_mul]; norm_num
  have hgn : gn half 1 = -1 := by unfold gn half; simp
  have hc : ∀ x, 0 ≤ half.cost x := fun x => by show 0 ≤ (x / 2) ^ 2; positivity
  refine ⟨hc, ?_⟩
  have ht : (trial half 1 (half.cost 1) 0).dx = -1 := by
    unfold trial
    simp only [hsd, hgn]
    norm_num
  have := (C188_keeps hc (Reached.start (P := half) (cx := 1) (cj := 1) (x := 1)) _ rfl).1
  have hcur : (start half 1 1 1).cur = 1 := rfl
  have hdel : (start half 1 1 1).delta = 0 := rfl
  rw [hcur, hdel, ht] at this
  rw [this (by simp [half])]
  simp [half]

end Kalibr.OldDog
