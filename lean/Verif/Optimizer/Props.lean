import Verif.Optimizer.Lemmas

/-!
# Properties C22-C25, C68, C69: the optimiser

All theorems hold for every cost function, every update law and every sequence of answers of the
linear solver and trust region policy.
-/

namespace Kalibr.Optimizer

open Spec

variable {V K : Type}

/-! ## Concrete problems used as witnesses: one-dimensional values, additive update -/

/-- Adds the entries of the step. -/
def addAll (x : ℚ) (dx : List ℚ) : ℚ := dx.foldl (· + ·) x

/-- A variable holding `x`, never updated and never given an index. -/
def mkVar (x : ℚ) (dim : Nat) (active : Bool) (scaling : ℚ) : Var ℚ ℚ :=
  ⟨x, x, dim, active, scaling, -1, -1, addAll⟩

/-- Sum of squares. -/
def sq (xs : List ℚ) : ℚ := xs.foldl (fun a x => a + x * x) 0

def defaultOptions : Options ℚ := ⟨1/1000, 1/1000, 20, true⟩

/-- Three variables, the middle one inactive. -/
def exVars : List (Var ℚ ℚ) := [mkVar 4 1 true 1, mkVar 7 3 false 1, mkVar 2 2 true (1/2)]

/-! ## C24 -/

/-- **C24 (indices tile).**  After initialisation the active variables are numbered 0, 1, … in order,
their column ranges follow one another from 0 and cover the state vector exactly, and so do the row
ranges of the error terms; only indices of active variables have changed.  The part of the English
property about inactive variables is false of the code, see the counterexample. -/
theorem C24_indices_tile_partial {vars vars' : List (Var V K)} {errs rows : List Nat}
    (h : setUp vars errs = .ok (vars', rows)) :
    (∀ (i : Nat) (v : Var V K), (vars'.filter (·.active))[i]? = some v → v.blockIndex = i) ∧
    Consecutive ((vars'.filter (·.active)).map (·.columnBase)) ((vars'.filter (·.active)).map (·.dim)) ∧
    ExactCover ((vars'.filter (·.active)).map (·.columnBase)) ((vars'.filter (·.active)).map (·.dim)) ∧
    Consecutive (rows.map Int.ofNat) errs ∧ ExactCover (rows.map Int.ofNat) errs ∧
    vars'.length = vars.length ∧
    ∀ (k : Nat) (v : Var V K), vars[k]? = some v → ∃ w : Var V K, vars'[k]? = some w ∧
      w = { v with blockIndex := w.blockIndex, columnBase := w.columnBase } ∧
      (v.active = false → w = v) := by
  have hv : assign 0 0 vars = vars' ∧ rowBases 0 errs = rows := by
    unfold setUp at h
    split at h
    · cases h
    · split at h
      · cases h
      · simpa using h
  obtain ⟨rfl, rfl⟩ := hv
  have hc : Consecutive (((assign 0 0 vars).filter (·.active)).map (·.columnBase))
      (((assign 0 0 vars).filter (·.active)).map (·.dim)) := by
    refine ⟨by simp, ?_⟩
    intro i b hb
    rw [List.getElem?_map, Option.map_eq_some_iff] at hb
    obtain ⟨w, hw, rfl⟩ := hb
    rw [(assign_blocks vars 0 0 i w hw).2, assign_active]
    simp
  have hr : Consecutive ((rowBases 0 errs).map Int.ofNat) errs := by
    refine ⟨by simp [rowBases_length], ?_⟩
    intro i b hb
    rw [List.getElem?_map, Option.map_eq_some_iff] at hb
    obtain ⟨w, hw, rfl⟩ := hb
    rw [rowBases_get errs 0 i w hw]; simp
  refine ⟨?_, hc, exactCover_of_consecutive hc, hr, exactCover_of_consecutive hr,
    assign_length _ _ _, ?_⟩
  · intro i v hv
    simpa using (assign_blocks vars 0 0 i v hv).1
  · intro k v hk
    obtain ⟨w, h1, h2, h3, -⟩ := assign_get vars 0 0 k v hk
    exact ⟨w, h1, h2, h3⟩

example : ∃ vars' rows, setUp exVars [2, 3] = .ok (vars', rows) := ⟨_, _, rfl⟩

/-- Initialisation raises exactly when there is no active variable or no error term. -/
theorem C24_raises (vars : List (Var V K)) (errs : List Nat) :
    setUp vars errs = .raise ↔ (∀ v ∈ vars, v.active = false) ∨ errs = [] := by
  unfold setUp
  have h1 : (vars.filter (·.active)).isEmpty = true ↔ ∀ v ∈ vars, v.active = false := by
    simp [List.filter_eq_nil_iff]
  by_cases ha : (vars.filter (·.active)).isEmpty = true
  · rw [if_pos ha]; simp; exact Or.inl (h1.mp ha)
  · rw [if_neg ha]
    have hna := mt h1.mpr ha
    cases errs with
    | nil => simp
    | cons e es => simp; simpa using hna

/-- **C24 is false for inactive variables.**  A variable that took part in an earlier optimisation and
is then deactivated keeps its old block index, which collides with that of an active variable. -/
theorem C24_counterexample :
    ∃ (vars vars' vars'' : List (Var ℚ ℚ)) (rows rows' : List Nat),
      setUp vars [1] = .ok (vars', rows) ∧
      setUp (vars'.modify 0 fun v => { v with active := false }) [1] = .ok (vars'', rows') ∧
      vars''.map (·.active) = [false, true] ∧ vars''.map (·.blockIndex) = [0, 0] :=
  ⟨[mkVar 1 1 true 1, mkVar 2 1 true 1], _, _, _, _, rfl, rfl, rfl, rfl⟩

/-- A variable that never had an index keeps -1 while it is inactive. -/
theorem C24_never_active {vars vars' : List (Var V K)} {errs rows : List Nat}
    (h : setUp vars errs = .ok (vars', rows)) {k : Nat} {v : Var V K} (hk : vars[k]? = some v)
    (ha : v.active = false) (hb : v.blockIndex = -1) :
    ∃ w, vars'[k]? = some w ∧ w.blockIndex = -1 := by
  obtain ⟨w, h1, -, h3⟩ := (C24_indices_tile_partial h).2.2.2.2.2.2 k v hk
  exact ⟨w, h1, by rw [h3 ha, hb]⟩

example : ∃ vars' rows, setUp exVars [2, 3] = .ok (vars', rows) ∧ exVars[1]? = some (mkVar 7 3 false 1) :=
  ⟨_, _, rfl, rfl⟩

/-! ## C25 -/

section
variable [Field K] [LinearOrder K]

/-- **C25 (each variable gets its own segment).**  On variables set up by `initialize`, a step gives
every active variable of positive dimension the scaled piece of the step at its own column range, and
leaves every other variable as it was; the returned number is the largest magnitude in the step. -/
theorem C25_own_segment {vars0 vars vars' : List (Var V K)} {errs rows : List Nat} {dx : List K} {d : K}
    (h0 : setUp vars0 errs = .ok (vars, rows)) (h : applyStateUpdate vars dx = .ok (vars', d)) :
    vars'.length = vars.length ∧
    (∀ (k : Nat) (v : Var V K), vars[k]? = some v →
      (v.active = true ∧ 0 < v.dim → ∃ seg, IsSegment seg dx v.columnBase v.dim v.scaling ∧
        vars'[k]? = some { v with prev := v.value, value := v.plus v.value seg }) ∧
      (¬ (v.active = true ∧ 0 < v.dim) → vars'[k]? = some v)) ∧
    (∀ x ∈ dx, |x| ≤ d) ∧ (∃ x ∈ dx, d = |x|) := by
  obtain ⟨h1, x, xs, hdx, hd⟩ := apply_eq_ok h
  obtain ⟨hl, hg⟩ := applyLoop_get dx vars 0 vars' h1
  have hv : assign 0 0 vars0 = vars := by
    unfold setUp at h0
    split at h0
    · cases h0
    · split at h0
      · cases h0
      · simp at h0; exact h0.1
  refine ⟨hl, ?_, ?_, ?_⟩
  · intro k v hk
    obtain ⟨g1, g2, g3⟩ := hg k v hk
    refine ⟨?_, ?_⟩
    · rintro ⟨ha, hp⟩
      obtain ⟨g4, g5⟩ := g3 ha hp
      -- the running start index is the column base
      have hcol : v.columnBase = (((vars.take k).filter (·.active)).map (·.dim)).sum := by
        have hlt : k < vars0.length := by
          have := (List.getElem?_eq_some_iff.mp hk).1
          rw [← hv, assign_length] at this; exact this
        obtain ⟨w, w1, w2, -, w4⟩ := assign_get vars0 0 0 k vars0[k] (by simp [hlt])
        rw [hv, hk] at w1
        simp at w1; subst w1
        have hact : vars0[k].active = true := by
          have := congrArg Var.active w2; simpa [ha] using this.symm
        rw [(w4 hact).2]
        have hpre : ((vars.take k).filter (·.active)).map (·.dim) =
            ((vars0.take k).filter (·.active)).map (·.dim) := by
          rw [← hv]
          have hassign : ∀ (vs : List (Var V K)) i b n, (assign i b vs).take n = assign i b (vs.take n) := by
            intro vs
            induction vs with
            | nil => intro i b n; simp [assign]
            | cons u us ih =>
              intro i b n
              cases n with
              | zero => simp [assign]
              | succ n =>
                rw [assign, List.take_succ_cons, assign]
                split <;> simp [ih]
          rw [hassign, assign_active]
        rw [hpre]; simp
      refine ⟨_, ⟨?_, ?_⟩, g5⟩
      · simp; omega
      · intro j hj
        have hlt : (((vars.take k).filter (·.active)).map (·.dim)).sum + j < dx.length := by omega
        refine ⟨dx[(((vars.take k).filter (·.active)).map (·.dim)).sum + j], ?_, ?_⟩
        · rw [hcol]
          rw [← Int.natCast_add, Int.toNat_natCast]; exact List.getElem?_eq_getElem hlt
        · simp only [List.getElem?_map, List.getElem?_take, hj, if_true, List.getElem?_drop, Nat.zero_add]
          rw [List.getElem?_eq_getElem hlt]; rfl
    · intro hn
      by_cases ha : v.active = true
      · rcases Nat.eq_zero_or_pos v.dim with hz | hz
        · exact g2 ha hz
        · exact absurd ⟨ha, hz⟩ hn
      · exact g1 (by simpa using ha)
  · intro y hy
    obtain ⟨f1, f2, -⟩ := foldl_max_spec xs |x|
    rw [hd]
    rw [hdx] at hy
    rcases List.mem_cons.mp hy with rfl | hy
    · exact f1
    · exact f2 y hy
  · obtain ⟨-, -, f3⟩ := foldl_max_spec xs |x|
    rw [hd, hdx]
    rcases f3 with f3 | ⟨y, hy, f3⟩
    · exact ⟨x, by simp, f3⟩
    · exact ⟨y, by simp [hy], f3⟩

example : ∃ vars rows vars' d, setUp exVars [2, 3] = .ok (vars, rows) ∧
    applyStateUpdate vars [1, -2, 4] = .ok (vars', d) ∧ values vars' = [5, 7, 3] ∧ d = 4 :=
  ⟨_, _, _, _, rfl, rfl, by decide +kernel, by decide +kernel⟩

/-- Applying a step is defined exactly when the step is at least as long as the state and not empty. -/
theorem C25_step_defined (vars : List (Var V K)) (dx : List K) :
    (∃ vars' d, applyStateUpdate vars dx = .ok (vars', d)) ↔
      ((vars.filter (·.active)).map (·.dim)).sum ≤ dx.length ∧ dx ≠ [] := by
  constructor
  · rintro ⟨vars', d, h⟩
    obtain ⟨h1, x, xs, hdx, -⟩ := apply_eq_ok h
    refine ⟨?_, by simp [hdx]⟩
    by_contra hn
    rw [applyLoop_ub dx vars 0 (by omega) (by omega)] at h1
    cases h1
  · rintro ⟨h1, h2⟩
    obtain ⟨vs, hvs⟩ := applyLoop_ok dx vars 0 (by omega)
    cases dx with
    | nil => exact absurd rfl h2
    | cons x xs => exact ⟨vs, _, by simp [applyStateUpdate, hvs]; rfl⟩

/-- **C25 (revert, partial).**  Reverting a step gives every active variable of positive dimension its
value from before the step and leaves every inactive one exactly as it was before the step.  Missing:
active variables of dimension 0, see the counterexample. -/
theorem C25_revert_partial {vars vars' : List (Var V K)} {dx : List K} {d : K}
    (h : applyStateUpdate vars dx = .ok (vars', d)) :
    (revertLastStateUpdate vars').length = vars.length ∧
    ∀ (k : Nat) (v : Var V K), vars[k]? = some v → ∃ w : Var V K, (revertLastStateUpdate vars')[k]? = some w ∧
      (v.active = false → w = v) ∧ (v.active = true → 0 < v.dim → w.value = v.value) := by
  refine ⟨?_, ?_⟩
  · simp [revertLastStateUpdate, (applyLoop_get dx vars 0 vars' (apply_eq_ok h).1).1]
  · intro k v hk
    obtain ⟨w, h1, -, -, h4, h5, -⟩ := revert_apply_get h k v hk
    exact ⟨w, h1, h4, h5⟩

/-- If the zero-dimensional active variables have not been overwritten since they were created, a
revert restores all values. -/
theorem C25_revert_all {vars vars' : List (Var V K)} {dx : List K} {d : K}
    (hz : ∀ v ∈ vars, v.active = true → v.dim = 0 → v.prev = v.value)
    (h : applyStateUpdate vars dx = .ok (vars', d)) :
    values (revertLastStateUpdate vars') = values vars :=
  (revert_apply_values h hz).1

example : ∃ vars' d, applyStateUpdate exVars [1, -2, 4] = .ok (vars', d) ∧
    (∀ v ∈ exVars, v.active = true → v.dim = 0 → v.prev = v.value) ∧ values vars' ≠ values exVars := by
  refine ⟨_, _, rfl, ?_, by decide +kernel⟩
  intro v hv _ h0
  simp [exVars, mkVar] at hv
  rcases hv with rfl | rfl | rfl <;> simp at h0

/-- **C25 is false for zero-dimensional variables**: the step skips them but the revert does not, so
a value set with `setParameters` is replaced by the value before it. -/
theorem C25_counterexample :
    ∃ (vars vars' : List (Var ℚ ℚ)) (d : ℚ),
      vars = [mkVar 1 1 true 1, (mkVar 5 0 true 1).setParameters 9] ∧
      applyStateUpdate vars [3] = .ok (vars', d) ∧ values vars = [1, 9] ∧
      values (revertLastStateUpdate vars') = [1, 5] :=
  ⟨_, _, _, rfl, rfl, rfl, by decide +kernel⟩

/-! ## C22 -/

variable {o : Options K} {cost : List V → K} {answers : Nat → Option (List K)}

/-- **C22 (the cost does not grow).**  With a policy that reverts, the final cost reported by
`optimize` is at most the initial one, which is the cost of the variables it was called with. -/
theorem C22_final_cost [IsStrictOrderedRing K] (hr : o.revertOnFailure = true)
    {vars : List (Var V K)} {errs : List Nat} {n : Nat} {r : Ret K} {s : St V K}
    (h : optimize o cost answers vars errs n = .ok (some (r, s))) :
    r.jFinal ≤ r.jStart ∧ r.jStart = cost (values vars) := by
  obtain ⟨vs, rows, -, hvs, hp, -, rfl⟩ := optimize_eq h
  have := passes_induction (o := o) (cost := cost) (answers := answers)
    (P := fun s => s.jStart = cost (values vars) ∧ s.pJ ≤ s.jStart) (s0 := start o cost vs)
    (by simp [start, hvs, values, assign_values])
    (by
      rintro s s' a ⟨h1, h2⟩ - hpass
      obtain ⟨h3, h4⟩ := pass_cost hr hpass
      exact ⟨by rw [h3, h1], by rw [h3]; exact le_trans h4 h2⟩) n s hp
  exact ⟨this.2, this.1⟩

/-- **C22 (accepted costs).**  From one pass to the next the cost of the last accepted state never
grows. -/
theorem C22_non_increasing [IsStrictOrderedRing K] (hr : o.revertOnFailure = true)
    {s0 : St V K} {n m : Nat} {s s' : St V K} (hnm : n ≤ m)
    (h : passes o cost answers n s0 = .ok s) (h' : passes o cost answers m s0 = .ok s') :
    s'.pJ ≤ s.pJ := by
  induction hnm generalizing s' with
  | refl => rw [h] at h'; simp at h'; rw [h']
  | step _ ih =>
    rw [passes] at h'
    obtain ⟨t, ht, he⟩ := Out.bind_eq_ok.mp h'
    split at he
    · exact le_trans (pass_cost hr he).2 (ih ht)
    · simp at he; subst he; exact ih ht

/-- **C22 (the variables left behind, partial).**  With a policy that reverts, the variables left
behind have exactly the reported final cost, provided no zero-dimensional active variable has been
overwritten before the call. -/
theorem C22_reported_cost_partial (hr : o.revertOnFailure = true)
    {vars : List (Var V K)} {errs : List Nat} {n : Nat} {r : Ret K} {s : St V K}
    (hz : ∀ v ∈ vars, v.active = true → v.dim = 0 → v.prev = v.value)
    (h : optimize o cost answers vars errs n = .ok (some (r, s))) :
    r.jFinal = cost (values s.vars) := by
  obtain ⟨vs, rows, -, hvs, hp, -, rfl⟩ := optimize_eq h
  have hf : Fresh vs := by
    intro w hw ha h0
    obtain ⟨k, hk⟩ := List.mem_iff_getElem?.mp hw
    have hlt : k < vars.length := by
      have := (List.getElem?_eq_some_iff.mp hk).1
      rw [hvs, assign_length] at this; exact this
    obtain ⟨w', w1, w2, -⟩ := assign_get vars 0 0 k vars[k] (by simp [hlt])
    rw [← hvs, hk] at w1; simp at w1; subst w1
    have e1 := congrArg Var.active w2
    have e2 := congrArg Var.dim w2
    have e3 := congrArg Var.prev w2
    have e4 := congrArg Var.value w2
    simp at e1 e2 e3 e4
    rw [e3, e4]
    exact hz _ (List.getElem_mem hlt) (e1 ▸ ha) (e2 ▸ h0)
  have := passes_induction (o := o) (cost := cost) (answers := answers)
    (P := fun s => Fresh s.vars ∧ s.pJ = cost (values s.vars)) (s0 := start o cost vs)
    ⟨hf, rfl⟩
    (by rintro s s' a ⟨h1, h2⟩ - hpass; exact pass_state hr hpass h1 h2) n s hp
  exact this.2

/-- A run in which a step is rejected, then one accepted, then the solver fails, then a small step is
accepted: the answers. -/
def exAnswers : Nat → Option (List ℚ)
  | 0 => some [10, 0, 0]
  | 1 => some [-4, 1, 1]
  | 2 => none
  | _ => some [0, 0, 0]

example : (optimize ⟨1/1000, 1/1000, 5, true⟩ sq exAnswers exVars [1] 10).okAnd (fun x =>
    x.any fun (r, s) => r.iterations == 5 && r.failedIterations == 2 && decide (r.jFinal < r.jStart)
        && r.linearSolverFailure && decide (values s.vars = [0, 7, 3])) = true := by decide +kernel

/-- **C22 fails with zero-dimensional variables**: after a rejected step the variables left behind are
not those whose cost is reported. -/
theorem C22_counterexample :
    ∃ (o : Options ℚ) (vars : List (Var ℚ ℚ)) (r : Ret ℚ) (s : St ℚ ℚ),
      o.revertOnFailure = true ∧ vars = [mkVar 1 1 true 1, (mkVar 5 0 true 1).setParameters 2] ∧
      optimize o sq (fun _ => some [3]) vars [1] 2 = .ok (some (r, s)) ∧
      r.jFinal = 5 ∧ sq (values s.vars) = 26 := by
  have h : (optimize ⟨1/1000, 1/1000, 1, true⟩ sq (fun _ => some [3])
      [mkVar 1 1 true 1, (mkVar 5 0 true 1).setParameters 2] [1] 2).okAnd
      (fun x => x.any fun (r, s) => decide (r.jFinal = 5 ∧ sq (values s.vars) = 26)) = true := by
    decide +kernel
  obtain ⟨x, hx, hp⟩ := Out.okAnd_spec h
  rcases x with _ | ⟨r, s⟩
  · cases hp
  · exact ⟨_, _, r, s, rfl, rfl, hx, by simpa using hp⟩

/-! ## C23 -/

/-- **C23 (the loop ends).**  `optimize` never makes more than `2 * maxIterations` passes. -/
theorem C23_terminates (vars : List (Var V K)) (errs : List Nat) {n : Nat}
    (hn : 2 * o.maxIterations ≤ n) : optimize o cost answers vars errs n ≠ .ok none := by
  intro h
  unfold optimize at h
  obtain ⟨⟨vs, rows⟩, h1, h2⟩ := Out.bind_eq_ok.mp h
  obtain ⟨t, h3, h4⟩ := Out.bind_eq_ok.mp h2
  simp only [Out.pure_eq, Out.ok.injEq] at h4
  split at h4
  · rename_i hg
    have := passes_progress (s0 := start o cost vs) rfl rfl n t h3 hg
    have := goOn_bounds hg
    omega
  · cases h4

/-- The outcome does not depend on how many passes one is willing to wait for. -/
theorem C23_deterministic {vars : List (Var V K)} {errs : List Nat} {n m : Nat} {x : Ret K × St V K}
    (hnm : n ≤ m) (h : optimize o cost answers vars errs n = .ok (some x)) :
    optimize o cost answers vars errs m = .ok (some x) := by
  obtain ⟨r, s⟩ := x
  obtain ⟨vs, rows, h1, h2, h3, h4, h5⟩ := optimize_eq h
  unfold optimize
  rw [h1, Out.ok_bind]
  simp only
  rw [passes_stay h3 h4 hnm]
  simp [h4, h5]

/-- **C23 (budget).**  The reported numbers of iterations and of failed iterations are between 0 and
`maxIterations` (0 if that is negative). -/
theorem C23_budget {vars : List (Var V K)} {errs : List Nat} {n : Nat} {r : Ret K} {s : St V K}
    (h : optimize o cost answers vars errs n = .ok (some (r, s))) :
    0 ≤ r.iterations ∧ r.iterations ≤ max 0 o.maxIterations ∧
    0 ≤ r.failedIterations ∧ r.failedIterations ≤ max 0 o.maxIterations := by
  obtain ⟨vs, rows, -, -, hp, -, rfl⟩ := optimize_eq h
  exact passes_induction (o := o) (cost := cost) (answers := answers)
    (P := fun s => 0 ≤ s.iterations ∧ s.iterations ≤ max 0 o.maxIterations ∧
      0 ≤ s.failedIterations ∧ s.failedIterations ≤ max 0 o.maxIterations) (s0 := start o cost vs)
    (by simp [start])
    (by
      rintro s s' a ⟨h1, h2, h3, h4⟩ hg hpass
      obtain ⟨c1, c2, -⟩ := pass_counts hpass
      obtain ⟨b1, b2⟩ := goOn_bounds hg
      omega) n s hp

example : (optimize defaultOptions sq exAnswers exVars [1] 40).okAnd (·.isSome) = true := by
  decide +kernel

/-! ## C68, C69 -/

/-- **C68 is false of the code**: when the last step was rejected, `J()` is the cost of the rejected
state, not of the variables left behind. -/
theorem C68_counterexample :
    ∃ (o : Options ℚ) (r : Ret ℚ) (s : St ℚ ℚ), o.revertOnFailure = true ∧
      optimize o sq (fun _ => some [3]) [mkVar 1 1 true 1] [1] 2 = .ok (some (r, s)) ∧
      s.J = 16 ∧ sq (values s.vars) = 1 ∧ r.jFinal = 1 := by
  have h : (optimize ⟨1/1000, 1/1000, 1, true⟩ sq (fun _ => some [3]) [mkVar 1 1 true 1] [1] 2).okAnd
      (fun x => x.any fun (r, s) =>
        decide (s.J = 16 ∧ sq (values s.vars) = 1 ∧ r.jFinal = 1)) = true := by
    decide +kernel
  obtain ⟨x, hx, hp⟩ := Out.okAnd_spec h
  rcases x with _ | ⟨r, s⟩
  · cases hp
  · exact ⟨_, r, s, rfl, hx, by simpa using hp⟩

/-- **C68 (partial).**  With a policy that does not revert (Gauss-Newton) `J()` after `optimize` is the
cost of the variables left behind and the reported final cost. -/
theorem C68_current_cost_partial (hr : o.revertOnFailure = false)
    {vars : List (Var V K)} {errs : List Nat} {n : Nat} {r : Ret K} {s : St V K}
    (h : optimize o cost answers vars errs n = .ok (some (r, s))) :
    s.J = cost (values s.vars) ∧ r.jFinal = s.J := by
  obtain ⟨vs, rows, -, -, hp, -, rfl⟩ := optimize_eq h
  exact passes_induction (o := o) (cost := cost) (answers := answers)
    (P := fun s => s.J = cost (values s.vars) ∧ s.pJ = s.J) (s0 := start o cost vs)
    (by simp [start])
    (by
      rintro s s' a ⟨h1, h2⟩ - hpass
      cases a with
      | none => simp [pass] at hpass; subst hpass; exact ⟨h1, h2⟩
      | some dx =>
        simp only [pass] at hpass
        obtain ⟨⟨vs, d⟩, hv, he⟩ := Out.bind_eq_ok.mp hpass
        simp [hr] at he; subst he; exact ⟨rfl, rfl⟩) n s hp

example : (optimize { defaultOptions with revertOnFailure := false } sq exAnswers exVars [1] 40).okAnd
    (·.isSome) = true := by decide +kernel

/-- **C69 (partial: while the solver has not failed).**  If the solver never failed, `optimize` stops
exactly when a budget is used up, the last step was at most `convergenceDeltaX`, or the last cost
change was at most `convergenceDeltaJ`; and no earlier pass ended that way. -/
theorem C69_stops_on_convergence_partial (ha : ∀ k, answers k ≠ none)
    {s0 : St V K} (h0 : s0.linearSolverFailure = false) {n : Nat} {s : St V K}
    (h : passes o cost answers n s0 = .ok s) :
    goOn o s = false ↔ (o.maxIterations ≤ s.iterations ∨ o.maxIterations ≤ s.failedIterations ∨
      s.deltaX ≤ o.convergenceDeltaX ∨ |s.deltaJ| ≤ o.convergenceDeltaJ) := by
  have hl : s.linearSolverFailure = false := by
    clear * - h h0 ha
    induction n generalizing s with
    | zero => simp [passes] at h; subst h; exact h0
    | succ n ih =>
      rw [passes] at h
      obtain ⟨r, hr, he⟩ := Out.bind_eq_ok.mp h
      split at he
      · rcases hn : answers n with _ | dx
        · exact absurd hn (ha n)
        · rw [hn] at he
          simp only [pass] at he
          obtain ⟨⟨vs, d⟩, hv, he⟩ := Out.bind_eq_ok.mp he
          simp only [Out.pure_eq, Out.ok.injEq] at he
          split at he
          · have := ih hr
            split at he <;> subst he <;> exact this
          · have := ih hr
            subst he; exact this
      · simp at he; subst he; exact ih hr
  have hg : goOn o s = true ↔ (s.iterations < o.maxIterations ∧ s.failedIterations < o.maxIterations ∧
      o.convergenceDeltaX < s.deltaX ∧ o.convergenceDeltaJ < |s.deltaJ|) := by
    simp [goOn, hl]; tauto
  rw [← Bool.not_eq_true, hg]
  constructor
  · intro hn
    by_contra hc
    push Not at hc
    exact hn ⟨hc.1, hc.2.1, hc.2.2.1, hc.2.2.2⟩
  · rintro hc ⟨h1, h2, h3, h4⟩
    rcases hc with hc | hc | hc | hc
    · omega
    · omega
    · exact absurd h3 (not_lt.mpr hc)
    · exact absurd h4 (not_lt.mpr hc)

/-- **C69 is false after a solver failure**: one failure on the first pass makes the loop use up its
whole budget although every later step is zero and changes nothing. -/
theorem C69_counterexample :
    ∃ (answers : Nat → Option (List ℚ)) (s s' : St ℚ ℚ) (r : Ret ℚ),
      answers = (fun k => if k = 0 then none else some [0]) ∧
      passes defaultOptions sq answers 2 (start defaultOptions sq [mkVar 1 1 true 1]) = .ok s ∧
      s.deltaX = 0 ∧ s.deltaJ = 0 ∧ s.previousIterationFailed = false ∧
      optimize defaultOptions sq answers [mkVar 1 1 true 1] [1] 40 = .ok (some (r, s')) ∧
      r.iterations = 20 ∧ r.linearSolverFailure = true := by
  have h : (passes defaultOptions sq (fun k => if k = 0 then none else some [0]) 2
      (start defaultOptions sq [mkVar 1 1 true 1])).okAnd (fun s =>
        decide (s.deltaX = 0 ∧ s.deltaJ = 0 ∧ s.previousIterationFailed = false)) = true := by
    decide +kernel
  have h' : (optimize defaultOptions sq (fun k => if k = 0 then none else some [0])
      [mkVar 1 1 true 1] [1] 40).okAnd (fun x => x.any fun (r, _) =>
        decide (r.iterations = 20 ∧ r.linearSolverFailure = true)) = true := by
    decide +kernel
  obtain ⟨s, hs, hp⟩ := Out.okAnd_spec h
  obtain ⟨x, hx, hp'⟩ := Out.okAnd_spec h'
  simp only [decide_eq_true_eq] at hp
  rcases x with _ | ⟨r, s'⟩
  · cases hp'
  · simp only [Option.any_some, decide_eq_true_eq] at hp'
    exact ⟨_, s, s', r, rfl, hs, hp.1, hp.2.1, hp.2.2, hx, hp'.1, hp'.2⟩

end

end Kalibr.Optimizer
