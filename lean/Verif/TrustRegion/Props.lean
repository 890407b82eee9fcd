import Verif.TrustRegion.Lemmas
import Mathlib.Analysis.RCLike.Inner

/-!
# Properties of the trust region policies (C32, C78, C79)
-/

namespace Kalibr.TrustRegion

set_option linter.unusedSectionVars false

variable {V : Type} [NormedAddCommGroup V] [InnerProductSpace ℝ V]

/-! ## C32: the dog leg step -/

/-- The step returned by the dog leg policy is not longer than the radius, whatever systems and costs
the policy has seen, as long as the linear solver has not failed since the optimisation started. -/
theorem C32_dogleg_in_region_partial (s : DogLeg V) (h : Reach (fun _ _ => True) s) : ‖s.dx‖ ≤ s.delta := by
  have hi := h.inv
  cases ht : s.type with
  | none => exact absurd ht hi.type
  | SD => exact le_of_eq (hi.sd_norm ht)
  | GN => exact (hi.gn ht).2
  | DL => exact le_of_eq (hi.dl ht).2.2.2

/-- The step lies on the dog leg: on the way from zero to the steepest descent step or on the segment
from there to the Gauss-Newton step. -/
theorem C32_dogleg_on_path_partial (s : DogLeg V) (h : Reach (fun _ _ => True) s) :
    (∃ t : ℝ, 0 ≤ t ∧ t ≤ 1 ∧ s.dx = t • s.sd) ∨ ∃ t : ℝ, 0 ≤ t ∧ t ≤ 1 ∧ s.dx = s.sd + t • (s.gn - s.sd) := by
  have hi := h.inv
  cases ht : s.type with
  | none => exact absurd ht hi.type
  | SD =>
    obtain ⟨h1, h2, h3⟩ := hi.sd ht
    have h4 : 0 < s.sdNorm := by linarith
    exact Or.inl ⟨_, by positivity, div_le_one_of_le₀ h3 (le_of_lt h4), h1⟩
  | GN => exact Or.inr ⟨1, by norm_num, le_rfl, by rw [(hi.gn ht).1]; simp⟩
  | DL => exact Or.inr ⟨s.beta, (hi.dl ht).2.1, (hi.dl ht).2.2.1, (hi.dl ht).1⟩

/-- An arbitrary policy object, before anything happened. -/
def fresh : DogLeg ℝ := ⟨.starting 0, 0, 0, 0, 0, 0, 0, 0, 0, 0, .none, ⟨0, 0, 0, false⟩⟩

/-- After a failure of the linear solver the next call takes the vector left by the failed solve for the
Gauss-Newton step, reports success and returns it although it is longer than the radius. -/
theorem C32_dogleg_counterexample :
    ∃ s1 s2 : DogLeg ℝ, (fresh.starting 1).solve ⟨1, false, ⟨1, 1, 10, false⟩⟩ = some (s1, false) ∧
      s1.solve ⟨1, true, ⟨1, 1, 10, false⟩⟩ = some (s2, true) ∧ s2.dx = 10 ∧ s2.delta = 11 / 2 := by
  refine ⟨⟨⟨1, 1, 1, false⟩, 0, 1, 10, 1, 0, 0, 1, 0, 0, .none, ⟨1, 1, 10, false⟩⟩,
    ⟨⟨1, 1, 1, false⟩, 10, 1, 10, 1, 0, 1, 1, 0, 11 / 2, .GN, ⟨1, 1, 10, false⟩⟩, ?_, ?_, rfl, rfl⟩
  · simp [DogLeg.solve, DogLeg.starting, fresh, Base.starting, Base.enter, DogLeg.radius, DogLeg.rebuild,
      DogLeg.solveGN]
  · simp [DogLeg.solve, Base.enter, DogLeg.radius, Rho.div, Base.dJ, DogLeg.firstRadius, DogLeg.takeGN, Rho.gt,
      Rho.lt, Rho.le]
    norm_num

/-! ## C32: the damping -/

/-- States of the Levenberg-Marquardt policy after any number of calls, successful or not, since the
start of an optimisation. -/
inductive LReach (i : LMInit) : LM V → Prop
  | start (s : LM V) (J : ℝ) : LReach i (s.starting i J)
  | next (s : LM V) (c : LCall V) (s' : LM V) (ok : Bool) (hr : LReach i s) (h : s.solve c = some (s', ok)) :
      LReach i s'

/-- The three ways a call changes the damping. -/
theorem lm_cases (s : LM V) (c : LCall V) (s' : LM V) (ok : Bool) (h : s.solve c = some (s', ok)) :
    s'.gamma = s.gamma ∧ s'.beta = s.beta ∧ s'.base.first = false ∧
    ((s.base.first = true ∧ s'.lam = s.lam ∧ s'.mu = s.mu ∧ s'.sys = c.sys) ∨
     (s.base.first = false ∧ c.failed = true ∧ s'.lam = s.lam * s'.mu ∧ s'.mu = s.mu * 2 ∧ s'.sys = s.sys) ∨
     (s.base.first = false ∧ c.failed = false ∧ s'.lam = s.lam * s'.mu ∧ s'.mu = s.mu * 10 ∧ s'.sys = s.sys) ∨
     (s.base.first = false ∧ c.failed = false ∧ (∃ u, 1 / s.gamma ≤ u ∧ s'.lam = s.lam * u) ∧ s'.mu = s.beta ∧
        s'.sys = c.sys) ∨
     (s.base.first = false ∧ c.failed = false ∧ s'.lam = 1 / 10 ^ 15 ∧ s'.mu = s.mu ∧ s'.sys = c.sys)) := by
  rw [LM.solve, Option.map_eq_some_iff] at h
  obtain ⟨t, ht, he⟩ := h
  obtain rfl := (Prod.mk.inj he).1
  have hfe : (s.base.enter c.J c.failed).first = s.base.first := by rw [Base.enter]; split <;> rfl
  rw [LM.update] at ht
  simp only [hfe] at ht
  split at ht
  · rename_i h1
    obtain rfl := Option.some.inj ht
    exact ⟨rfl, rfl, rfl, Or.inl ⟨h1, rfl, rfl, rfl⟩⟩
  · rename_i h1
    have h1' : s.base.first = false := by simpa using h1
    split at ht
    · rename_i h2
      obtain rfl := Option.some.inj ht
      exact ⟨rfl, rfl, rfl, Or.inr (Or.inl ⟨h1', h2, rfl, rfl, rfl⟩)⟩
    · rename_i h2
      have h2' : c.failed = false := by simpa using h2
      split at ht
      · obtain rfl := Option.some.inj ht
        exact ⟨rfl, rfl, rfl, Or.inr (Or.inr (Or.inl ⟨h1', h2', rfl, rfl, rfl⟩))⟩
      · split at ht
        · split at ht
          · obtain rfl := Option.some.inj ht
            refine ⟨rfl, rfl, rfl, Or.inr (Or.inr (Or.inr (Or.inl ⟨h1', h2', ⟨_, ?_, rfl⟩, rfl, rfl⟩)))⟩
            split
            · exact le_rfl
            · rename_i h5; exact not_lt.1 h5
          · split at ht
            · obtain rfl := Option.some.inj ht
              exact ⟨rfl, rfl, rfl, Or.inr (Or.inr (Or.inr (Or.inl ⟨h1', h2', ⟨_, le_rfl, rfl⟩, rfl, rfl⟩)))⟩
            · simp at ht
          · simp at ht
        · obtain rfl := Option.some.inj ht
          exact ⟨rfl, rfl, rfl, Or.inr (Or.inr (Or.inr (Or.inr ⟨h1', h2', rfl, rfl, rfl⟩)))⟩

theorem lm_inv (i : LMInit) (m : ℝ) (hl : 0 < i.lam) (hg : 0 < i.gamma) (h0 : 0 < m) (hb : m ≤ i.beta) (hm : m ≤ i.mu)
    (s : LM V) (h : LReach i s) : 0 < s.lam ∧ m ≤ s.mu ∧ s.gamma = i.gamma ∧ s.beta = i.beta := by
  induction h with
  | start s J => exact ⟨hl, hm, rfl, rfl⟩
  | next s c s' ok _ h ih =>
    obtain ⟨h1, h2, h3, h4⟩ := ih
    obtain ⟨g1, g2, -, hc⟩ := lm_cases s c s' ok h
    rw [g1, g2]
    rcases hc with ⟨-, e1, e2, -⟩ | ⟨-, -, e1, e2, -⟩ | ⟨-, -, e1, e2, -⟩ | ⟨-, -, ⟨u, hu, e1⟩, e2, -⟩ |
      ⟨-, -, e1, e2, -⟩
    · exact ⟨by rw [e1]; exact h1, by rw [e2]; exact h2, h3, h4⟩
    · exact ⟨by rw [e1, e2]; have : 0 < s.mu := by linarith
                positivity, by rw [e2]; linarith, h3, h4⟩
    · exact ⟨by rw [e1, e2]; have : 0 < s.mu := by linarith
                positivity, by rw [e2]; linarith, h3, h4⟩
    · refine ⟨?_, by rw [e2, h4]; exact hb, h3, h4⟩
      rw [e1]
      have : 0 < 1 / s.gamma := by rw [h3]; positivity
      exact mul_pos h1 (lt_of_lt_of_le this hu)
    · exact ⟨by rw [e1]; positivity, by rw [e2]; exact h2, h3, h4⟩

/-- The damping stays positive, for all positive parameters, whatever costs, systems, failures and
rejections the policy sees. -/
theorem C32_damping_positive (i : LMInit) (hl : 0 < i.lam) (hg : 0 < i.gamma) (hb : 0 < i.beta) (hm : 0 < i.mu)
    (s : LM V) (h : LReach i s) : 0 < s.lam :=
  (lm_inv i (min i.beta i.mu) hl hg (lt_min hb hm) (min_le_left _ _) (min_le_right _ _) s h).1

/-! ## C78: rejected steps -/

/-- The costs the policies remember, for every history of calls with a cost and whether the previous
iteration failed: with the costs of the start and of the calls that follow an accepted step in a list,
`lastJ` is the last one and `pJ` the one before it; `dJ` is the difference of `pJ` and the last cost. -/
theorem C78_remembered_costs (J0 : ℝ) (cs : List (ℝ × Bool)) :
    let b := cs.foldl (fun b c => b.enter c.1 c.2) (Base.starting J0)
    let acc := J0 :: (cs.filter fun c => !c.2).map Prod.fst
    acc.getLast? = some b.lastJ ∧ b.pJ = acc.dropLast.getLast?.getD J0 ∧
      b.dJ = b.pJ - (cs.getLast?.map Prod.fst).getD J0 := by
  intro b acc
  induction cs using List.reverseRecOn with
  | nil => exact ⟨rfl, rfl, rfl⟩
  | append_singleton cs c ih =>
    obtain ⟨h1, h2, h3⟩ := ih
    have hb : b = (cs.foldl (fun b c => b.enter c.1 c.2) (Base.starting J0)).enter c.1 c.2 := by
      show List.foldl _ _ (cs ++ [c]) = _
      rw [List.foldl_append]; rfl
    obtain ⟨J, f⟩ := c
    cases f with
    | true =>
      have ha : acc = J0 :: (cs.filter fun c => !c.2).map Prod.fst := by simp [acc]
      rw [ha, hb]
      refine ⟨h1, h2, ?_⟩
      rw [List.getLast?_append]
      rfl
    | false =>
      have ha : acc = (J0 :: (cs.filter fun c => !c.2).map Prod.fst) ++ [J] := by simp [acc]
      rw [ha, hb]
      refine ⟨by rw [List.getLast?_append]; rfl, ?_, ?_⟩
      · rw [List.dropLast_concat, h1]
        rfl
      · rw [List.getLast?_append]
        rfl

/-- After a rejected step the next dog leg step is confined to a radius of half the length of the
rejected one, provided the rejected cost is above the cost before the last accepted step. -/
theorem C78_dogleg_partial (s : DogLeg V) (h : Reach Valid s) (c : Call V) (s' : DogLeg V) (hf : c.failed = true)
    (hJ : s.base.pJ < c.J) (hdx : s.dx ≠ 0) (hs : s.solve c = some (s', true)) :
    s'.delta = ‖s.dx‖ / 2 ∧ ‖s'.dx‖ ≤ ‖s.dx‖ / 2 := by
  have hi := h.inv
  have hr := radius_rejected s hi (h.L0 fun _ _ => id).1 c.J hJ
  have hi' := inv_solve s c s' hi.delta (by rw [hi.gnNorm]; exact norm_nonneg _) (Or.inl ⟨hi.sdNorm, hi.gnNorm⟩) hs
  have hpos : ‖s.dx‖ / 2 ≠ 0 := by
    have := norm_pos_iff.2 hdx
    positivity
  have hd : s'.delta = ‖s.dx‖ / 2 := by
    have hcase := solve_cases s c s' hs
    simp only [hf, if_true, hr] at hcase
    rcases hcase with ⟨-, rfl⟩ | ⟨-, rfl⟩
    · rfl
    · show (DogLeg.takeGN _ _).delta = _
      rw [(takeGN_fields _ _).2.2.2.2.1, DogLeg.firstRadius, if_neg (by exact hpos)]
  refine ⟨hd, ?_⟩
  rw [← hd]
  cases ht : s'.type with
  | none => exact absurd ht hi'.type
  | SD => exact le_of_eq (hi'.sd_norm ht)
  | GN => exact (hi'.gn ht).2
  | DL => exact le_of_eq (hi'.dl ht).2.2.2

/-- Otherwise the radius can grow after a rejected step: the cost goes from 10 to 5, the next step leads
to 6 and is rejected; it is compared with 10, the radius grows from 1 to 3, and the step taken is the
Gauss-Newton step of the system before (1), not that of the current one (7). -/
theorem C78_dogleg_counterexample :
    ∃ s1 s2 s3 : DogLeg ℝ, (fresh.starting 10).solve ⟨10, false, ⟨1, 1, 1, true⟩⟩ = some (s1, true) ∧
      s1.solve ⟨5, false, ⟨1, 1, 7, true⟩⟩ = some (s2, true) ∧
      s2.solve ⟨6, true, ⟨1, 1, 7, true⟩⟩ = some (s3, true) ∧
      s2.delta = 1 ∧ s2.dx = 1 ∧ s3.delta = 3 ∧ s3.dx = 1 ∧ s3.type = .GN ∧ s3.sys.gn = 7 := by
  refine ⟨⟨⟨10, 10, 10, false⟩, 1, 1, 1, 1, 1, 10, 1, 0, 1, .GN, ⟨1, 1, 1, true⟩⟩,
    ⟨⟨5, 10, 5, false⟩, 1, 1, 1, 1, 1, 1 / 2, 1, 0, 1, .SD, ⟨1, 1, 7, true⟩⟩,
    ⟨⟨6, 10, 5, false⟩, 1, 1, 1, 1, 1, 6, 1, 0, 3, .GN, ⟨1, 1, 7, true⟩⟩, ?_, ?_, ?_, rfl, rfl, rfl, rfl, rfl, rfl⟩
  · simp [DogLeg.solve, DogLeg.starting, fresh, Base.starting, Base.enter, DogLeg.radius, DogLeg.rebuild,
      DogLeg.solveGN, DogLeg.firstRadius, DogLeg.takeGN]
  · simp [DogLeg.solve, Base.enter, DogLeg.radius, Rho.div, Base.dJ, DogLeg.rebuild, DogLeg.takeSD, Rho.gt,
      Rho.lt, Rho.le]
    norm_num
  · simp [DogLeg.solve, Base.enter, DogLeg.radius, Rho.div, Base.dJ, DogLeg.firstRadius, DogLeg.takeGN, Rho.gt,
      Rho.lt, Rho.le]
    norm_num

/-- After a rejected step or a failure of the linear solver the damping at least doubles, if the
parameters `β` and `μ` are at least one. -/
theorem C78_damping_grows (i : LMInit) (hl : 0 < i.lam) (hg : 0 < i.gamma) (hb : 1 ≤ i.beta) (hm : 1 ≤ i.mu)
    (s : LM V) (h : LReach i s) (c : LCall V) (s' : LM V) (ok : Bool) (hf : c.failed = true)
    (hfirst : s.base.first = false) (hs : s.solve c = some (s', ok)) : 2 * s.lam ≤ s'.lam ∧ s'.sys = s.sys := by
  obtain ⟨h1, h2, -, -⟩ := lm_inv i 1 hl hg one_pos hb hm s h
  obtain ⟨-, -, -, hc⟩ := lm_cases s c s' ok hs
  rcases hc with ⟨e, -⟩ | ⟨-, -, e1, e2, e3⟩ | ⟨-, e, -⟩ | ⟨-, e, -⟩ | ⟨-, e, -⟩
  · rw [hfirst] at e; cases e
  · refine ⟨?_, e3⟩
    rw [e1, e2]
    nlinarith
  all_goals (rw [hf] at e; cases e)

/-! ## C79: the step belongs to the current system -/

/-- The system is rebuilt by every call that follows an accepted step, and only then. -/
theorem dogleg_sys (s : DogLeg V) (c : Call V) (s' : DogLeg V) (hs : s.solve c = some (s', true)) :
    s'.sys = if c.failed then s.sys else c.sys := by
  have hcase := solve_cases s c s' hs
  by_cases hf : c.failed = true
  · simp only [hf, if_true] at hcase ⊢
    rcases hcase with ⟨-, rfl⟩ | ⟨-, rfl⟩
    · rfl
    · show (DogLeg.takeGN _ _).sys = _
      rw [(takeGN_fields _ _).2.1, (firstRadius_fields _).2.1]
  · simp only [if_neg hf] at hcase ⊢
    rcases hcase with ⟨-, rfl⟩ | ⟨-, rfl⟩
    · rfl
    · show (DogLeg.takeGN _ _).sys = _
      rw [(takeGN_fields _ _).2.1, (firstRadius_fields _).2.1]
      rfl

/-- The Gauss-Newton step used by the dog leg is that of the current system, provided every rejected cost
was above the cost before the last accepted step and the linear solver has not failed. -/
theorem C79_dogleg_partial (s : DogLeg V) (h : Reach Good s) : s.type = .SD ∨ s.gn = s.sys.gn := by
  induction h with
  | first s J c s' hf hp h =>
    have hcase := solve_cases _ c s' h
    simp only [hf, Bool.false_eq_true, if_false] at hcase
    rcases hcase with ⟨-, rfl⟩ | ⟨-, rfl⟩
    · exact Or.inl rfl
    · refine Or.inr ?_
      show (DogLeg.takeGN _ _).gn = (DogLeg.takeGN _ _).sys.gn
      rw [(takeGN_fields _ _).2.2.1, (firstRadius_fields _).2.2.1, (takeGN_fields _ _).2.1, (firstRadius_fields _).2.1]
      rfl
  | next s c s' hr hp h ih =>
    have hcase := solve_cases _ c s' h
    by_cases hf : c.failed = true
    · have hi := hr.inv
      have hrad := radius_rejected s hi (hr.L0 fun _ _ h => h.1).1 c.J (hp.2 hf)
      simp only [hf, if_true, hrad] at hcase
      rcases hcase with ⟨-, rfl⟩ | ⟨hb, rfl⟩
      · exact Or.inl rfl
      · refine Or.inr ?_
        show (DogLeg.takeGN _ _).gn = (DogLeg.takeGN _ _).sys.gn
        rw [(takeGN_fields _ _).2.2.1, (firstRadius_fields _).2.2.1, (takeGN_fields _ _).2.1,
          (firstRadius_fields _).2.1]
        rcases ih with ih | ih
        · exfalso
          obtain ⟨-, h2, h3⟩ := hi.sd ih
          apply hb
          rw [hi.sd_norm ih]
          exact ⟨by show s.delta / 2 ≤ s.sdNorm; linarith, by positivity⟩
        · exact ih
    · simp only [if_neg hf] at hcase
      rcases hcase with ⟨-, rfl⟩ | ⟨-, rfl⟩
      · exact Or.inl rfl
      · refine Or.inr ?_
        show (DogLeg.takeGN _ _).gn = (DogLeg.takeGN _ _).sys.gn
        rw [(takeGN_fields _ _).2.2.1, (firstRadius_fields _).2.2.1, (takeGN_fields _ _).2.1,
          (firstRadius_fields _).2.1]
        rfl

/-- The Levenberg-Marquardt step is the solution of the system held by the solver; that is the system
of the current state if the call is the first one or follows an accepted step with `rho > 0`. -/
theorem C79_lm_partial (s : LM V) (c : LCall V) (s' : LM V) (ok : Bool) (hs : s.solve c = some (s', ok))
    (hcur : s.base.first = true ∨
      (c.failed = false ∧ ¬ (LM.rho { s with base := s.base.enter c.J c.failed }).le 0)) :
    s'.dx = (c.sys.sol s'.lam).1 ∧ ok = (c.sys.sol s'.lam).2 := by
  have hsys : s'.sys = c.sys := by
    rw [LM.solve, Option.map_eq_some_iff] at hs
    obtain ⟨t, ht, he⟩ := hs
    obtain rfl := (Prod.mk.inj he).1
    have hfe : (s.base.enter c.J c.failed).first = s.base.first := by rw [Base.enter]; split <;> rfl
    rw [LM.update] at ht
    simp only [hfe] at ht
    rcases hcur with h1 | ⟨h1, h2⟩
    · rw [if_pos h1] at ht
      obtain rfl := Option.some.inj ht
      rfl
    · split at ht
      · obtain rfl := Option.some.inj ht
        rfl
      · rw [if_neg (show ¬ c.failed = true by rw [h1]; simp)] at ht
        split at ht
        · split at ht
          · obtain rfl := Option.some.inj ht
            rfl
          · split at ht
            · obtain rfl := Option.some.inj ht
              rfl
            · simp at ht
          · simp at ht
        · obtain rfl := Option.some.inj ht
          rfl
  rw [LM.solve, Option.map_eq_some_iff] at hs
  obtain ⟨t, ht, he⟩ := hs
  obtain ⟨rfl, rfl⟩ := Prod.mk.inj he
  rw [← hsys]
  exact ⟨rfl, rfl⟩

/-- A Levenberg-Marquardt object, before anything happened. -/
noncomputable def lmFresh : LM ℝ := ⟨.starting 0, 0, 0, 0, 0, 0, 0, ⟨0, fun _ => (0, false)⟩⟩

/-- After an accepted step that leaves the cost unchanged the system is not rebuilt: the step is that of
the previous state's system (1), not that of the current one (2). -/
theorem C79_lm_counterexample :
    ∃ s1 s2 : LM ℝ, (lmFresh.starting .default 10).solve ⟨10, false, ⟨1, fun _ => (1, true)⟩⟩ = some (s1, true) ∧
      s1.solve ⟨10, false, ⟨2, fun _ => (2, true)⟩⟩ = some (s2, true) ∧ s2.dx = 1 := by
  refine ⟨⟨⟨10, 10, 10, false⟩, 1 / 1000, 3, 2, 3, 2, 1, ⟨1, fun _ => (1, true)⟩⟩,
    ⟨⟨10, 10, 10, false⟩, 1 / 50, 3, 2, 3, 20, 1, ⟨1, fun _ => (1, true)⟩⟩, ?_, ?_, rfl⟩
  · simp [LM.solve, LM.update, LM.starting, lmFresh, LMInit.default, Base.starting, Base.enter]
  · have hr : ({ J := 10, pJ := 10, lastJ := 10, first := false } : Base).dJ = 0 := by norm_num [Base.dJ]
    simp [LM.solve, LM.update, LM.rho, Base.enter, Rho.div]
    norm_num [Rho.le]
    rw [hr]
    norm_num

/-! ## Concrete cases -/

/-- A reachable state of the dog leg policy after a proper dog leg start and a rejected step. -/
example : ∃ s : DogLeg ℝ, Reach Good s ∧ s.dx = 1 ∧ s.type = .GN := by
  refine ⟨⟨⟨10, 10, 10, false⟩, 1, 1, 1, 1, 1, 10, 1, 0, 1, .GN, ⟨1, 1, 1, true⟩⟩, ?_, rfl, rfl⟩
  refine Reach.first fresh 10 ⟨10, false, ⟨1, 1, 1, true⟩⟩ _ rfl ⟨⟨by norm_num, by norm_num⟩, fun h => by cases h⟩ ?_
  simp [DogLeg.solve, DogLeg.starting, fresh, Base.starting, Base.enter, DogLeg.radius, DogLeg.rebuild,
      DogLeg.solveGN, DogLeg.firstRadius, DogLeg.takeGN]

/-- A rejected step that meets the hypotheses of `C78_dogleg_partial`. -/
example : ∃ s' : DogLeg ℝ, (⟨⟨10, 10, 10, false⟩, 1, 1, 1, 1, 1, 10, 1, 0, 1, .GN, ⟨1, 1, 1, true⟩⟩ : DogLeg ℝ).solve
    ⟨12, true, ⟨1, 1, 1, true⟩⟩ = some (s', true) ∧ s'.delta = 1 / 2 := by
  refine ⟨⟨⟨12, 10, 10, false⟩, 1 / 2, 1, 1, 1, 1, 3 / 8, 1, 0, 1 / 2, .SD, ⟨1, 1, 1, true⟩⟩, ?_, rfl⟩
  simp [DogLeg.solve, Base.enter, DogLeg.radius, Rho.div, Base.dJ, DogLeg.takeSD, Rho.gt, Rho.lt, Rho.le]
  norm_num

/-- The default parameters meet the hypotheses on the parameters. -/
example : 0 < LMInit.default.lam ∧ 0 < LMInit.default.gamma ∧ 1 ≤ LMInit.default.beta ∧ 1 ≤ LMInit.default.mu := by
  norm_num [LMInit.default]

/-- A rejected Levenberg-Marquardt step: the damping goes from `1/1000` to `4/1000`. -/
example : ∃ s' : LM ℝ, (⟨⟨10, 10, 10, false⟩, 1 / 1000, 3, 2, 3, 2, 1, ⟨1, fun _ => (1, true)⟩⟩ : LM ℝ).solve
    ⟨12, true, ⟨1, fun _ => (1, true)⟩⟩ = some (s', true) ∧ s'.lam = 1 / 250 := by
  refine ⟨⟨⟨12, 10, 10, false⟩, 1 / 250, 3, 2, 3, 4, 1, ⟨1, fun _ => (1, true)⟩⟩, ?_, rfl⟩
  simp [LM.solve, LM.update, Base.enter]
  norm_num

end Kalibr.TrustRegion
