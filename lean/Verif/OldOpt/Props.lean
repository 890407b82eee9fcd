import Mathlib.Data.List.Perm.Basic
import Mathlib.Logic.Function.Iterate
import Verif.OldOpt.Model
import Verif.Tactics

/-!
# The first optimizer: what a user relies on

C187.  Every step is computed at the current state; in Levenberg-Marquardt mode it is kept exactly if it lowers the
objective, and otherwise the state stays and the damping at least doubles, so the result is reached by as many improvements
as there were iterations that did not fail.  This needs that the linear solver does not fail: a failure undoes the last
improvement.  The reported final objective is the one of the result exactly if the last step was kept.
-/

namespace Kalibr.OldOpt

variable {X S : Type}

/-! ## Specification -/

/-- `y` is reached from `x` by `n` steps, each computed where it starts, with a positive damping, and each an improvement. -/
inductive Improves (P : Problem X S) : ℕ → X → X → Prop
  | none (x) : Improves P 0 x x
  | step {n x y} {l : ℝ} {d : S} : Improves P n x y → 0 < l → P.solve y l = some d → P.cost (P.apply y d) < P.cost y →
      Improves P (n + 1) x (P.apply y d)

/-- `y` is reached from `x` by `n` steps, each computed where it starts. -/
inductive Steps (P : Problem X S) : ℕ → X → X → Prop
  | none (x) : Steps P 0 x x
  | step {n x y} {l : ℝ} {d : S} : Steps P n x y → P.solve y l = some d → Steps P (n + 1) x (P.apply y d)

/-- Sensible options of Levenberg-Marquardt. -/
def Options.Sensible (o : Options) : Prop := o.lm = true ∧ 0 < o.gamma ∧ 2 ≤ o.beta ∧ 2 ≤ o.muInit

/-- The solver solves every damped system, and the model of the objective predicts a decrease. -/
def Solvable (P : Problem X S) : Prop :=
  ∀ x l, 0 < l → ∃ d, P.solve x l = some d ∧ 0 < P.predicted x l d

theorem Improves.le {P : Problem X S} {n : ℕ} {x y : X} (h : Improves P n x y) : P.cost y ≤ P.cost x := by
  induction h with
  | none => exact le_rfl
  | step _ _ _ hlt ih => exact le_of_lt (lt_of_lt_of_le hlt ih)

theorem Improves.lt {P : Problem X S} {n : ℕ} {x y : X} (h : Improves P n x y) (hn : n ≠ 0) : P.cost y < P.cost x := by
  cases h with
  | none => exact absurd rfl hn
  | step h _ _ hlt => exact lt_of_lt_of_le hlt h.le

/-! ## The passes -/

/-- What holds before every pass. -/
structure Inv (P : Problem X S) (x : X) (s : Loop X) : Prop where
  cost : P.cost s.cur = s.pJ
  le : s.pJ ≤ s.J
  lambda : s.lambda = 0 ∨ 0 < s.lambda
  kept : s.regression = true → 0 < s.lambda ∧ s.lin = s.cur
  mu : 2 ≤ s.mu
  failed : s.failed ≤ s.iterations
  path : Improves P (s.iterations - s.failed) x s.cur

theorem with_lin (s : Loop X) (h : s.lin = s.cur) : s = { s with lin := s.cur, lambda := s.lambda } := by
  cases s
  simp only at h
  rw [h]

theorem accept_form {o : Options} (hg : 0 < o.gamma) (hb : (2 : ℝ) ≤ (o.beta : ℝ)) (rho : ℝ) (t : Loop X)
    (hl : 0 < t.lambda) (hm : 2 ≤ t.mu) :
    ∃ lam m, 0 < lam ∧ 2 ≤ m ∧ accept o rho t = { t with regression := false, lambda := lam, mu := m } := by
  unfold accept
  by_cases h16 : (1e-16 : ℝ) < t.lambda
  · rw [if_pos h16]
    refine ⟨_, _, ?_, hb, rfl⟩
    apply mul_pos hl
    have : 0 < 1 / o.gamma := by positivity
    split_ifs with hu
    · exact this
    · linarith
  · rw [if_neg h16]
    exact ⟨1e-15, t.mu, by norm_num, hm, rfl⟩

/-- One pass: with the damping `l` of this pass. -/
theorem pass_inv {P : Problem X S} {o : Options} {init : X → ℝ} (ho : o.Sensible) (hP : Solvable P)
    (hi : ∀ x, 0 < init x) {x : X} {s : Loop X} (h : Inv P x s) :
    Inv P x (pass P o init s) ∧ (pass P o init s).iterations = s.iterations + 1 ∧ 0 < (pass P o init s).lambda ∧
    ∃ l d, 0 < l ∧ (s.lambda ≠ 0 → l = s.lambda) ∧ P.solve s.cur l = some d ∧
      ((P.cost (P.apply s.cur d) < P.cost s.cur ∧ (pass P o init s).cur = P.apply s.cur d ∧
          (pass P o init s).J = P.cost (P.apply s.cur d) ∧ (pass P o init s).failed = s.failed) ∨
       (P.cost s.cur ≤ P.cost (P.apply s.cur d) ∧ (pass P o init s).cur = s.cur ∧
          (pass P o init s).J = P.cost (P.apply s.cur d) ∧
          (pass P o init s).failed = s.failed + 1 ∧ 2 * l ≤ (pass P o init s).lambda)) := by
  obtain ⟨hlm, hg, hb, _⟩ := ho
  -- the state after building
  obtain ⟨l, hl, hl', hbd⟩ : ∃ l, 0 < l ∧ (s.lambda ≠ 0 → l = s.lambda) ∧
      build init s = { s with lin := s.cur, lambda := l } := by
    unfold build
    by_cases hr : s.regression = true
    · obtain ⟨h1, h2⟩ := h.kept hr
      refine ⟨s.lambda, h1, fun _ => rfl, ?_⟩
      rw [if_pos hr]
      exact with_lin s h2
    · rw [if_neg hr]
      rcases h.lambda with h0 | h0
      · exact ⟨init s.cur, hi _, fun hne => absurd h0 hne, by simp [h0]⟩
      · exact ⟨s.lambda, h0, fun _ => rfl, by simp [h0.ne']⟩
  obtain ⟨d, hd, hp⟩ := hP s.cur l hl
  have hmu := h.mu
  by_cases hc : P.cost (P.apply s.cur d) < P.cost s.cur
  · -- kept
    have hrho : ¬ (s.pJ - P.cost (P.apply s.cur d)) / P.predicted s.cur l d ≤ 0 := by
      rw [← h.cost, not_le]; exact div_pos (by linarith) hp
    have hb' : (2 : ℝ) ≤ (o.beta : ℝ) := by exact_mod_cast hb
    obtain ⟨lam, m, hlam, hm, hacc⟩ : ∃ lam m, 0 < lam ∧ 2 ≤ m ∧
        accept o ((s.pJ - P.cost (P.apply s.cur d)) / P.predicted s.cur l d)
          (advance P d { s with lin := s.cur, lambda := l }) =
          { advance P d { s with lin := s.cur, lambda := l } with regression := false, lambda := lam, mu := m } :=
      accept_form hg hb' _ (advance P d { s with lin := s.cur, lambda := l }) hl hmu
    have hpass : pass P o init s =
        { advance P d { s with lin := s.cur, lambda := l } with
          regression := false, lambda := lam, mu := m, iterations := s.iterations + 1,
          pJ := P.cost (P.apply s.cur d) } := by
      unfold pass
      simp only [hbd, hd, hlm, if_true]
      have e1 : (advance P d { s with lin := s.cur, lambda := l }).pJ = s.pJ := rfl
      have e2 : (advance P d { s with lin := s.cur, lambda := l }).J = P.cost (P.apply s.cur d) := rfl
      rw [e1, e2, if_neg hrho, hacc]
      simp only [advance]
      congr 1
      exact if_pos (by rw [← h.cost]; exact hc)
    rw [hpass]
    refine ⟨⟨rfl, le_rfl, Or.inr hlam, fun hr => by simp at hr, hm, ?_, ?_⟩, rfl, hlam,
      l, d, hl, hl', hd, Or.inl ⟨hc, rfl, rfl, rfl⟩⟩
    · simp only [advance]; have := h.failed; omega
    · simp only [advance]
      have e : s.iterations + 1 - s.failed = (s.iterations - s.failed) + 1 := by have := h.failed; omega
      rw [e]
      exact Improves.step h.path hl hd hc
  · -- rejected
    rw [not_lt] at hc
    have hrho : (s.pJ - P.cost (P.apply s.cur d)) / P.predicted s.cur l d ≤ 0 := by
      rw [← h.cost]; exact div_nonpos_of_nonpos_of_nonneg (by linarith) hp.le
    have hpass : pass P o init s =
        { advance P d { s with lin := s.cur, lambda := l } with
          regression := true, cur := s.cur, lambda := l * s.mu, mu := s.mu * 2, failed := s.failed + 1,
          iterations := s.iterations + 1 } := by
      unfold pass
      simp only [hbd, hd, hlm, if_true]
      have e1 : (advance P d { s with lin := s.cur, lambda := l }).pJ = s.pJ := rfl
      have e2 : (advance P d { s with lin := s.cur, lambda := l }).J = P.cost (P.apply s.cur d) := rfl
      rw [e1, e2, if_pos hrho]
      simp only [advance, reject]
      congr 1
      exact if_neg (by rw [← h.cost]; exact not_lt.2 hc)
    have hpos : 0 < l * s.mu := mul_pos hl (by linarith)
    rw [hpass]
    refine ⟨⟨h.cost, by rw [← h.cost]; exact hc, Or.inr hpos, fun _ => ⟨hpos, rfl⟩, ?_, ?_, ?_⟩, rfl, hpos,
      l, d, hl, hl', hd, Or.inr ⟨hc, rfl, rfl, rfl, ?_⟩⟩
    · show 2 ≤ s.mu * 2; linarith
    · show s.failed + 1 ≤ s.iterations + 1; have := h.failed; omega
    · show Improves P (s.iterations + 1 - (s.failed + 1)) x s.cur
      rw [Nat.add_sub_add_right]; exact h.path
    · show 2 * l ≤ l * s.mu; nlinarith

theorem start_inv (P : Problem X S) {o : Options} (ho : o.Sensible) (x junk lin : X) :
    Inv P x (start P o x junk lin) :=
  ⟨rfl, le_rfl, Or.inl rfl, fun h => by simp [start] at h, ho.2.2.2, le_rfl, Improves.none x⟩

theorem iterate_inv {P : Problem X S} {o : Options} {init : X → ℝ} (ho : o.Sensible) (hP : Solvable P)
    (hi : ∀ x, 0 < init x) (x junk lin : X) (n : ℕ) :
    Inv P x ((pass P o init)^[n] (start P o x junk lin)) := by
  induction n with
  | zero => exact start_inv P ho x junk lin
  | succ n ih => rw [Function.iterate_succ_apply']; exact (pass_inv ho hP hi ih).1

/-- The loop stops after some passes, all of them before the limit, and not earlier than it must. -/
theorem loop_iterate (P : Problem X S) (o : Options) (init : X → ℝ) (n : ℕ) (s : Loop X) :
    ∃ k, k ≤ n ∧ loop P o init n s = (pass P o init)^[k] s ∧
      (∀ j, j < k → goOn o ((pass P o init)^[j] s)) ∧ (k < n → ¬ goOn o ((pass P o init)^[k] s)) := by
  induction n generalizing s with
  | zero => exact ⟨0, le_rfl, rfl, fun j hj => absurd hj (Nat.not_lt_zero _), fun h => absurd h (Nat.lt_irrefl _)⟩
  | succ n ih =>
    unfold loop
    by_cases hg : goOn o s
    · rw [if_pos hg]
      obtain ⟨k, hk, he, hj, hs⟩ := ih (pass P o init s)
      refine ⟨k + 1, by omega, he, ?_, fun h => hs (by omega)⟩
      intro j hjk
      cases j with
      | zero => exact hg
      | succ j => exact hj j (by omega)
    · rw [if_neg hg]
      exact ⟨0, Nat.zero_le _, rfl, fun j hj => absurd hj (Nat.not_lt_zero _), fun _ => hg⟩

theorem pass_iterations (P : Problem X S) (o : Options) (init : X → ℝ) (s : Loop X) :
    (pass P o init s).iterations = s.iterations + 1 := by
  have hb : (build init s).iterations = s.iterations := by unfold build; split_ifs <;> rfl
  unfold pass
  simp only
  cases P.solve (build init s).lin (build init s).lambda with
  | none => simp only [reject]; rw [hb]
  | some d =>
    simp only
    split_ifs
    · simp only [reject, advance]; rw [hb]
    · unfold accept; split_ifs <;> (simp only [advance]; rw [hb])
    · simp only [advance]; rw [hb]

theorem iterate_iterations (P : Problem X S) (o : Options) (init : X → ℝ) (s : Loop X) (n : ℕ) :
    ((pass P o init)^[n] s).iterations = s.iterations + n := by
  induction n with
  | zero => rfl
  | succ n ih => rw [Function.iterate_succ_apply', pass_iterations, ih]; omega

/-! ## C187 -/

/-- Whatever the solver does, the optimizer stops for one of the three reasons, and not before. -/
theorem C187_stops (P : Problem X S) (o : Options) (init : X → ℝ) (x junk lin : X) :
    (optimize P o init x junk lin).iterations ≤ o.maxIterations ∧
    ((optimize P o init x junk lin).iterations = o.maxIterations ∨
      (optimize P o init x junk lin).deltaX ≤ o.convergenceDeltaX ∨
      |(optimize P o init x junk lin).deltaJ| ≤ o.convergenceDeltaJ) ∧
    ∀ j, j < (optimize P o init x junk lin).iterations →
      o.convergenceDeltaX < ((pass P o init)^[j] (start P o x junk lin)).deltaX ∧
      o.convergenceDeltaJ < |((pass P o init)^[j] (start P o x junk lin)).deltaJ| := by
  obtain ⟨k, hk, he, hj, hs⟩ := loop_iterate P o init o.maxIterations (start P o x junk lin)
  have hit : (optimize P o init x junk lin).iterations = k := by
    unfold optimize; rw [he, iterate_iterations]; simp [start]
  refine ⟨by omega, ?_, ?_⟩
  · rcases Nat.lt_or_ge k o.maxIterations with h | h
    · have hn := hs h
      right
      by_contra hc
      rw [not_or, not_le, not_le] at hc
      unfold optimize at hc
      rw [he] at hc
      exact hn ⟨by rw [iterate_iterations]; simpa [start] using h, hc.1, hc.2⟩
    · left; omega
  · intro j hjk
    rw [hit] at hjk
    exact ⟨(hj j hjk).2.1, (hj j hjk).2.2⟩

/-- In every iteration the step is computed at the current state.  It is kept exactly if it lowers the objective; otherwise
the state stays as it is and the damping at least doubles. -/
theorem C187_iteration_partial {P : Problem X S} {o : Options} {init : X → ℝ} (ho : o.Sensible) (hP : Solvable P)
    (hi : ∀ x, 0 < init x) (x junk lin : X) (n : ℕ) (s t : Loop X)
    (hs : s = (pass P o init)^[n] (start P o x junk lin)) (ht : t = pass P o init s) :
    ∃ l d, 0 < l ∧ (0 < n → l = s.lambda) ∧ P.solve s.cur l = some d ∧
      ((P.cost (P.apply s.cur d) < P.cost s.cur ∧ t.cur = P.apply s.cur d ∧ t.failed = s.failed) ∨
       (P.cost s.cur ≤ P.cost (P.apply s.cur d) ∧ t.cur = s.cur ∧ t.failed = s.failed + 1 ∧ 2 * l ≤ t.lambda)) := by
  subst hs ht
  obtain ⟨_, _, _, l, d, h1, h2, h3, h4⟩ := pass_inv ho hP hi (iterate_inv ho hP hi x junk lin n)
  refine ⟨l, d, h1, fun hn => h2 ?_, h3, ?_⟩
  · obtain ⟨m, rfl⟩ : ∃ m, n = m + 1 := ⟨n - 1, by omega⟩
    rw [Function.iterate_succ_apply']
    exact (pass_inv ho hP hi (iterate_inv ho hP hi x junk lin m)).2.2.1.ne'
  · rcases h4 with ⟨a, b, _, c⟩ | ⟨a, b, _, c, e⟩
    · exact Or.inl ⟨a, b, c⟩
    · exact Or.inr ⟨a, b, c, e⟩

/-- The result is reached by as many improvements as there are iterations that did not fail; so its objective is at most
the one at the start, and less if there is one.  The reported final objective is at least the one of the result. -/
theorem C187_descent_partial {P : Problem X S} {o : Options} {init : X → ℝ} (ho : o.Sensible) (hP : Solvable P)
    (hi : ∀ x, 0 < init x) (x junk lin : X) (r : Loop X) (hr : r = optimize P o init x junk lin) :
    r.failed ≤ r.iterations ∧ Improves P (r.iterations - r.failed) x r.cur ∧ P.cost r.cur ≤ P.cost x ∧
      (r.failed < r.iterations → P.cost r.cur < P.cost x) ∧ P.cost r.cur ≤ r.J := by
  obtain ⟨k, _, he, _⟩ := loop_iterate P o init o.maxIterations (start P o x junk lin)
  have hI : Inv P x r := by
    rw [hr]; unfold optimize; rw [he]; exact iterate_inv ho hP hi x junk lin k
  exact ⟨hI.failed, hI.path, hI.path.le, fun h => hI.path.lt (by omega), by rw [hI.cost]; exact hI.le⟩

/-- The reported final objective is the one of the result if the last iteration did not fail. -/
theorem C187_final_partial {P : Problem X S} {o : Options} {init : X → ℝ} (ho : o.Sensible) (hP : Solvable P)
    (hi : ∀ x, 0 < init x) (x junk lin : X) (n : ℕ) (s t : Loop X)
    (hs : s = (pass P o init)^[n] (start P o x junk lin)) (ht : t = pass P o init s) (hf : t.failed = s.failed) :
    t.J = P.cost t.cur := by
  subst hs ht
  obtain ⟨_, _, _, l, d, _, _, _, h4⟩ := pass_inv ho hP hi (iterate_inv ho hP hi x junk lin n)
  rcases h4 with ⟨_, b, c, _⟩ | ⟨_, _, _, c, _⟩
  · rw [c, b]
  · omega

/-- Without Levenberg-Marquardt every step is kept, and the reported final objective is the one of the result, if the solver
does not fail. -/
theorem C187_newton_partial {P : Problem X S} {o : Options} {init : X → ℝ} (ho : o.lm = false)
    (hP : ∀ x l, ∃ d, P.solve x l = some d) (x junk lin : X) (r : Loop X) (hr : r = optimize P o init x junk lin) :
    r.failed = 0 ∧ Steps P r.iterations x r.cur ∧ r.J = P.cost r.cur := by
  obtain ⟨k, _, he, _⟩ := loop_iterate P o init o.maxIterations (start P o x junk lin)
  rw [hr]; unfold optimize; rw [he]
  clear he hr
  have key : ∀ n, let s := (pass P o init)^[n] (start P o x junk lin)
      s.failed = 0 ∧ Steps P s.iterations x s.cur ∧ s.J = P.cost s.cur ∧ s.regression = false := by
    intro n
    induction n with
    | zero => exact ⟨rfl, Steps.none x, rfl, rfl⟩
    | succ n ih =>
      simp only [Function.iterate_succ_apply'] at ih ⊢
      obtain ⟨s, hs⟩ : ∃ s, s = (pass P o init)^[n] (start P o x junk lin) := ⟨_, rfl⟩
      rw [← hs] at ih ⊢
      obtain ⟨h1, h2, h3, h4⟩ := ih
      obtain ⟨d, hd⟩ := hP s.cur (if s.lambda ≠ 0 then s.lambda else init s.cur)
      unfold pass
      simp only [build, h4, Bool.false_eq_true, if_false, hd, ho, advance]
      exact ⟨h1, Steps.step h2 hd, trivial, trivial⟩
  obtain ⟨a, b, c, _⟩ := key k
  exact ⟨a, b, c⟩

/-- A failure of the linear solver undoes the last improvement: the result is worse than a state that was kept, and the
reported final objective is less than the one of the result. -/
theorem C187_failure_counterexample :
    ∃ (P : Problem ℕ ℕ) (o : Options) (s r : Loop ℕ), o.Sensible ∧
      s = pass P o (fun _ => 1) (start P o 2 0 0) ∧ r = optimize P o (fun _ => 1) 2 0 0 ∧
      s.cur = 1 ∧ s.failed = 0 ∧ r.cur = 2 ∧ P.cost s.cur < P.cost r.cur ∧ r.J < P.cost r.cur := by
  let P : Problem ℕ ℕ := ⟨fun x => x, fun x _ => if x = 1 then none else some 1, fun x d => x - d, fun _ => 1,
    fun _ _ _ => 1⟩
  let o : Options := ⟨0, 0, 2, 3, 2, 3, 2, true⟩
  have h1 : pass P o (fun _ => 1) (start P o 2 0 0) =
      ⟨1, 2, 2, 1, 1, (1 : ℝ) * (1 / 3), 2, 1, 1, false, 1, 0⟩ := by
    have hr : ((2 : ℝ) - 1) / 1 = 1 := by norm_num
    simp only [pass, build, start, P, o, advance, accept, reject]
    norm_num
  have h2 : pass P o (fun _ => 1) ⟨1, 2, 2, 1, 1, (1 : ℝ) * (1 / 3), 2, 1, 1, false, 1, 0⟩ =
      ⟨2, 2, 1, 1, 1, (1 : ℝ) * (1 / 3) * 2, 2 * 2, 1, 1, true, 2, 1⟩ := by
    simp only [pass, build, P, reject]
    norm_num
  have hr : optimize P o (fun _ => 1) 2 0 0 = ⟨2, 2, 1, 1, 1, (1 : ℝ) * (1 / 3) * 2, 2 * 2, 1, 1, true, 2, 1⟩ := by
    show loop P o (fun _ => 1) 2 (start P o 2 0 0) = _
    unfold loop
    rw [if_pos (by simp [goOn, start, o])]
    unfold loop
    rw [h1, if_pos (by simp [goOn, o]), h2]
    rfl
  refine ⟨P, o, _, _, ⟨rfl, by norm_num [o], by norm_num [o], by norm_num [o]⟩, rfl, rfl, ?_, ?_, ?_, ?_, ?_⟩
  · rw [h1]
  · rw [h1]
  · rw [hr]
  · rw [h1, hr]; norm_num [P]
  · rw [hr]; norm_num [P]

/-- The reported final objective is the one of a state that was given up, if the last iteration failed. -/
theorem C187_final_counterexample :
    ∃ (P : Problem ℕ ℕ) (o : Options) (r : Loop ℕ), o.Sensible ∧ Solvable P ∧
      r = optimize P o (fun _ => 1) 1 0 0 ∧ r.cur = 1 ∧ P.cost r.cur = 1 ∧ r.J = 2 := by
  let P : Problem ℕ ℕ := ⟨fun x => x, fun _ _ => some 1, fun x d => x + d, fun _ => 1, fun _ _ _ => 1⟩
  let o : Options := ⟨0, 0, 1, 3, 2, 3, 2, true⟩
  have h1 : pass P o (fun _ => 1) (start P o 1 0 0) = ⟨1, 1, 1, 2, 1, 2, 2 * 2, 1, -1, true, 1, 1⟩ := by
    simp only [pass, build, start, P, o, advance, accept, reject]
    norm_num
  have hr : optimize P o (fun _ => 1) 1 0 0 = ⟨1, 1, 1, 2, 1, 2, 2 * 2, 1, -1, true, 1, 1⟩ := by
    show loop P o (fun _ => 1) 1 (start P o 1 0 0) = _
    unfold loop
    rw [if_pos (by simp [goOn, start, o]), h1]
    rfl
  refine ⟨P, o, _, ⟨rfl, by norm_num [o], by norm_num [o], by norm_num [o]⟩,
    fun _ _ _ => ⟨1, rfl, by norm_num [P]⟩, rfl, ?_, ?_, ?_⟩
  · rw [hr]
  · rw [hr]; norm_num [P]
  · rw [hr]

/-- The damping computed from the matrices is not the largest entry of the diagonal, and looking for it can read outside of a
block. -/
theorem C187_lambda_counterexample :
    (∃ H : ℕ → ℕ → ℝ, H 0 0 = 1 ∧ H 1 1 = 9 ∧ diagonalMaximum [(2, H)] = .ok 5) ∧
    diagonalMaximum [(1, fun _ _ => 1), (1, fun _ _ => 9)] = .ub := by
  refine ⟨⟨fun i j => if i = j then (if i = 0 then 1 else 9) else 5, by simp, by simp, ?_⟩, ?_⟩
  · simp [diagonalMaximum, List.range_succ]
  · simp [diagonalMaximum, List.range_succ]

/-- The variables get consecutive block indices: the active ones that are not eliminated in their order, then the eliminated
ones in their order; without one that is not eliminated the optimizer raises. -/
theorem C187_order (schur : Bool) (l : List Var) (D M : List Var)
    (hD : D = l.filter fun v => v.active && !(v.marginalized && schur))
    (hM : M = l.filter fun v => v.active && (v.marginalized && schur)) :
    order schur l = (if D = [] then .raise else .ok (D ++ M, D.length)) ∧
    (D ++ M).Perm (l.filter fun v => v.active) := by
  have key : ∀ (l : List Var) (a b : List Var), l.foldl (fun r v =>
      if v.active then if v.marginalized && schur then (r.1, r.2 ++ [v]) else (r.1 ++ [v], r.2) else r) (a, b) =
      (a ++ l.filter (fun v => v.active && !(v.marginalized && schur)),
        b ++ l.filter fun v => v.active && (v.marginalized && schur)) := by
    intro l
    induction l with
    | nil => intro a b; simp
    | cons v l ih =>
      intro a b
      rw [List.foldl_cons]
      cases ha : v.active <;> cases hm : (v.marginalized && schur) <;>
        simp only [Bool.false_eq_true, if_false, if_true, ih, List.filter_cons, ha, hm, Bool.and_self, Bool.not_false,
          Bool.not_true, Bool.and_false, Bool.false_and, List.append_assoc, List.singleton_append]
  constructor
  · unfold order
    rw [key]
    simp only [List.nil_append, ← hD, ← hM]
  · rw [hD, hM]
    clear hD hM
    induction l with
    | nil => simp
    | cons v l ih =>
      cases ha : v.active <;> cases hm : (v.marginalized && schur) <;>
        simp only [List.filter_cons, ha, hm, Bool.and_self, Bool.not_false, Bool.not_true, Bool.and_false,
          Bool.false_and, Bool.false_eq_true, if_false, if_true, List.cons_append]
      · exact ih
      · exact ih
      · exact ih.cons v
      · exact List.perm_middle.trans (ih.cons v)

/-- A problem that meets the conditions: steps towards zero. -/
example : Solvable (⟨fun x => x ^ 2, fun x l => some (x / (1 + l)), fun x d => x - d, fun d => |d|, fun _ _ _ => 1⟩ :
    Problem ℝ ℝ) := fun _ _ _ => ⟨_, rfl, by norm_num⟩

/-- The default options are sensible. -/
example : (⟨1e-3, 1e-3, 20, 3, 2, 3, 2, true⟩ : Options).Sensible :=
  ⟨rfl, by norm_num, by norm_num, by norm_num⟩

end Kalibr.OldOpt
