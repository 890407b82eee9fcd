import Verif.Problem.Lemmas

/-!
# Property C30: bookkeeping of the optimisation problem
-/

namespace Kalibr.Problem

open Spec

variable {D E : Type} [DecidableEq D] [DecidableEq E]

theorem run_spec {env : Env D E} (ops : List (Op D E)) : ∀ {s s' : St D E} {rs : List Bool} {l : Live D E},
    Inv env.deps s → s.dvs = l.dvs → s.errs = l.errs → run env s ops = .ok (rs, s') →
    (∀ (k : Nat) (e : E), ops[k]? = some (.addErrorTerm e) → rs[k]? = some false) →
    Inv env.deps s' ∧ s'.dvs = (ops.foldl (apply env.deps) l).dvs ∧
      s'.errs = (ops.foldl (apply env.deps) l).errs := by
  induction ops with
  | nil =>
    intro s s' rs l hi h1 h2 h _
    simp [run] at h; obtain ⟨-, rfl⟩ := h; exact ⟨hi, h1, h2⟩
  | cons op ops ih =>
    intro s s' rs l hi h1 h2 h hr
    rw [run] at h
    obtain ⟨⟨r, t⟩, ht, h⟩ := Out.bind_eq_ok.mp h
    obtain ⟨⟨rs', t'⟩, ht', h⟩ := Out.bind_eq_ok.mp h
    simp at h
    obtain ⟨rfl, rfl⟩ := h
    have hstep : Inv env.deps t ∧ t.dvs = (apply env.deps l op).dvs ∧ t.errs = (apply env.deps l op).errs := by
      cases op with
      | addDesignVariable d =>
        simp only [step, addDesignVariable, Out.ok.injEq] at ht
        by_cases hd : d ∈ s.dvs
        · rw [if_pos hd] at ht; simp at ht; obtain ⟨-, rfl⟩ := ht
          rw [h1] at hd
          simp [apply, hd, hi, h1, h2]
        · rw [if_neg hd] at ht; simp at ht; obtain ⟨-, rfl⟩ := ht
          refine ⟨⟨?_, hi.map⟩, ?_, ?_⟩
          · simpa using List.Nodup.append hi.nodup (by simp) (by simpa using hd)
          · rw [h1] at hd; simp [apply, hd, h1]
          · rw [h1] at hd; simp [apply, hd, h2]
      | addErrorTerm e =>
        have h0 := hr 0 e rfl
        simp at h0; subst h0
        simp only [step, addErrorTerm, Out.ok.injEq] at ht
        have h3 := addPairs_ok env e (env.deps e) { s with errs := s.errs ++ [e] } (by rw [ht])
        rw [ht] at h3
        simp only at h3
        subst h3
        refine ⟨⟨hi.nodup, ?_⟩, h1, ?_⟩
        · have : pairs env.deps (s.errs ++ [e]) = pairs env.deps s.errs ++ (env.deps e).map fun d => (d, e) := by
            simp [pairs]
          simp only [this]
          exact hi.map.append_right _
        · simp [apply, h2]
      | removeErrorTerm e =>
        simp only [step] at ht
        obtain ⟨u, hu, ht⟩ := Out.bind_eq_ok.mp ht
        simp at ht; obtain ⟨-, rfl⟩ := ht
        obtain ⟨i1, i2, i3⟩ := removeErrorTerm_inv hi hu
        exact ⟨i1, by rw [i2, h1]; rfl, by rw [i3, h2]; rfl⟩
      | removeDesignVariable d =>
        simp only [step] at ht
        obtain ⟨u, hu, ht⟩ := Out.bind_eq_ok.mp ht
        simp at ht; obtain ⟨-, rfl⟩ := ht
        obtain ⟨i1, i2, i3⟩ := removeDesignVariable_inv hi hu
        exact ⟨i1, by rw [i2, h1]; rfl, by rw [i3, h2]; rfl⟩
      | clear =>
        simp [step, clear] at ht; obtain ⟨-, rfl⟩ := ht
        exact ⟨inv_init _, rfl, rfl⟩
    exact ih hstep.1 hstep.2.1 hstep.2.2 ht' (fun k e hk => by
      have := hr (k + 1) e (by simpa using hk)
      simpa using this)

/-- **C30 (partial).**  After every history without undefined behaviour in which no `addErrorTerm`
raised: the problem contains exactly the live variables (each once) and the live error terms, in the
order they were added; removing a variable removes exactly the terms that mention it; and the errors
listed for a variable are exactly the live terms mentioning it.  Missing: histories with a raising
`addErrorTerm` (debug builds only) and terms that mention a variable twice; see the counterexamples. -/
theorem C30_bookkeeping_partial {env : Env D E} {ops : List (Op D E)} {rs : List Bool} {s : St D E}
    (h : run env init ops = .ok (rs, s))
    (hr : ∀ (k : Nat) (e : E), ops[k]? = some (.addErrorTerm e) → rs[k]? = some false) :
    s.dvs = (live env.deps ops).dvs ∧ s.errs = (live env.deps ops).errs ∧ s.dvs.Nodup ∧
    (∀ d, isDesignVariableInProblem s d = true ↔ d ∈ (live env.deps ops).dvs) ∧
    (∀ d e, e ∈ getErrors s d ↔ e ∈ (live env.deps ops).errs ∧ d ∈ env.deps e) := by
  obtain ⟨h1, h2, h3⟩ := run_spec ops (l := ⟨[], []⟩) (inv_init env.deps) rfl rfl h hr
  refine ⟨h2, h3, h1.nodup, ?_, ?_⟩
  · intro d
    simp only [isDesignVariableInProblem, List.any_eq_true, decide_eq_true_eq, exists_eq_right]
    rw [h2]; rfl
  · intro d e
    simp only [getErrors, List.mem_dedup, List.mem_map, List.mem_filter, decide_eq_true_eq]
    constructor
    · rintro ⟨⟨d', e'⟩, ⟨hm, rfl⟩, rfl⟩
      have := mem_pairs.mp (h1.map.mem_iff.mp hm)
      rw [h3] at this; exact this
    · rintro ⟨h4, h5⟩
      exact ⟨(d, e), ⟨h1.map.mem_iff.mpr (mem_pairs.mpr ⟨by rw [h3]; exact h4, h5⟩), rfl⟩, rfl⟩

omit [DecidableEq E] in
/-- Adding a variable raises exactly when it is in the problem already, and then changes nothing. -/
theorem C30_duplicate_variable (s : St D E) (d : D) :
    ((addDesignVariable s d).1 = true ↔ d ∈ s.dvs) ∧
      ((addDesignVariable s d).1 = true → (addDesignVariable s d).2 = s) := by
  unfold addDesignVariable
  split <;> rename_i h <;> simp [h]

/-- Release builds accept every error term; debug builds raise exactly when a variable of the term is
missing. -/
theorem C30_add_error_raises (env : Env D E) (s : St D E) (e : E) :
    (addErrorTerm env s e).1 = true ↔ env.debug = true ∧ ∃ d ∈ env.deps e, d ∉ s.dvs := by
  unfold addErrorTerm
  rw [addPairs_raised]

/-- **C30 (no deleted term is used).**  After such a history, removing a variable is defined provided
every live term that the caller does not hold mentions the variable at most once. -/
theorem C30_remove_variable_defined {env : Env D E} {ops : List (Op D E)} {rs : List Bool} {s : St D E}
    (h : run env init ops = .ok (rs, s))
    (hr : ∀ (k : Nat) (e : E), ops[k]? = some (.addErrorTerm e) → rs[k]? = some false) (d : D)
    (hd : ∀ e ∈ (live env.deps ops).errs, env.held e = true ∨ (env.deps e).count d ≤ 1) :
    ∃ s', removeDesignVariable env s d = .ok s' := by
  obtain ⟨h1, h2, h3⟩ := run_spec ops (l := ⟨[], []⟩) (inv_init env.deps) rfl rfl h hr
  unfold removeDesignVariable
  obtain ⟨s', hs'⟩ := removeAll_ok (env := env) ((s.map.filter (·.1 = d)).map (·.2)) (s := s) (by
    intro e he
    have hcount : ((s.map.filter (·.1 = d)).map (·.2)).count e = s.errs.count e * (env.deps e).count d := by
      rw [← count_terms]
      exact ((h1.map.filter _).map _).count_eq e
    have hpos : 0 < s.errs.count e * (env.deps e).count d := by
      rw [← hcount]; exact List.count_pos_iff.mpr he
    have hmem : e ∈ s.errs := List.count_pos_iff.mp (Nat.pos_of_mul_pos_right hpos)
    rcases hd e (by unfold live; rw [← h3]; exact hmem) with h | h
    · exact Or.inl h
    · right
      rw [hcount]
      calc s.errs.count e * (env.deps e).count d ≤ s.errs.count e * 1 := Nat.mul_le_mul_left _ h
        _ = s.errs.count e := Nat.mul_one _)
  simp only [hs', Out.ok_bind, Out.pure_eq]
  exact ⟨_, rfl⟩

/-- Three terms on variables 0, 1, 2; term 2 mentions variable 2 twice. -/
def exEnv (debug : Bool) : Env Nat Nat where
  deps := fun e => if e = 0 then [0, 1] else if e = 1 then [1] else [2, 2]
  held := fun _ => false
  debug := debug

/-- A history with a rejected duplicate, a removed term and a removed variable. -/
def exOps : List (Op Nat Nat) :=
  [.addDesignVariable 0, .addDesignVariable 1, .addDesignVariable 1, .addErrorTerm 0, .addErrorTerm 1,
    .addErrorTerm 1, .removeErrorTerm 1, .removeDesignVariable 0]

example : ∃ s, run (exEnv true) init exOps =
    .ok ([false, false, true, false, false, false, false, false], s) ∧
    s.dvs = [1] ∧ s.errs = [1] ∧ getErrors s 1 = [1] ∧ getErrors s 0 = [] :=
  ⟨_, rfl, by decide, by decide, by decide, by decide⟩

/-- **C30 is false after a raise**: in a debug build, an error term whose second variable is missing
is rejected but stays in the problem and in the list of its first variable. -/
theorem C30_counterexample_rejected_term :
    ∃ (s s' : St Nat Nat), addDesignVariable init 0 = (false, s) ∧
      addErrorTerm (exEnv true) s 0 = (true, s') ∧ s'.errs = [0] ∧ getErrors s' 0 = [0] ∧
      getErrors s' 1 = [] :=
  ⟨_, _, rfl, rfl, by decide, by decide, by decide⟩

/-- **C30 is false for a term that mentions a variable twice**: if the problem holds the only
reference to it, removing the variable uses the term after it was deleted. -/
theorem C30_counterexample_repeated_variable :
    ∃ (s : St Nat Nat), run (exEnv false) init [.addDesignVariable 2, .addErrorTerm 2] =
        .ok ([false, false], s) ∧
      removeDesignVariable (exEnv false) s 2 = .ub :=
  ⟨_, rfl, by rfl⟩

end Kalibr.Problem
