import Verif.Batch.Lemmas
import Verif.Batch.Spec

/-!
# Properties of a batch problem (C35)
-/

namespace Kalibr.Batch

variable {V : Type}

theorem step_spec {deps : Nat → List Nat} {w : World V} {a : Spec}
    (hg : ∀ d, w.b.lookup.find d = a.group d) (ht : ∀ e, decide (e ∈ w.b.etLookup) = a.term e)
    (op : Op V) :
    (∀ o, (a.step deps op).1 = some o → (step deps w op).1 = o) ∧
    (∀ d, (step deps w op).2.b.lookup.find d = (a.step deps op).2.group d) ∧
    (∀ e, decide (e ∈ (step deps w op).2.b.etLookup) = (a.step deps op).2.term e) := by
  cases op with
  | addDV dv g =>
    cases dv with
    | none => exact ⟨fun o h => by cases h; rfl, hg, ht⟩
    | some dv =>
      have hin : isDesignVariableInProblem w.b dv = (a.group dv).isSome := by
        unfold isDesignVariableInProblem; rw [hg]
      simp only [Batch.step, addDesignVariable, Spec.step, hin]
      rcases Option.eq_none_or_eq_some (a.group dv) with hf | ⟨g', hf⟩
      swap
      · simp only [hf, Option.isSome_some, if_true]
        rw [if_neg (by simp)]
        exact ⟨fun o h => by cases h; rfl, hg, ht⟩
      · simp only [hf, Option.isSome_none, Bool.false_eq_true, if_false, if_true]
        refine ⟨fun o h => by cases h; rfl, ?_, ht⟩
        intro d
        rw [FMap.find_set, hg]
  | addET et =>
    cases et with
    | none => exact ⟨fun o h => by cases h; rfl, hg, ht⟩
    | some et =>
      have hall : ((deps et).all (isDesignVariableInProblem w.b) = true) ↔
          ∀ dv ∈ deps et, a.group dv ≠ none := by
        rw [List.all_eq_true]
        constructor
        · intro h dv hdv
          have := h dv hdv
          unfold isDesignVariableInProblem at this
          rw [hg] at this
          exact Option.isSome_iff_ne_none.1 this
        · intro h dv hdv
          unfold isDesignVariableInProblem
          rw [hg]
          exact Option.isSome_iff_ne_none.2 (h dv hdv)
      have hin : isErrorTermInProblem w.b et = a.term et := ht et
      simp only [Batch.step, addErrorTerm, Spec.step, hin]
      rcases Bool.eq_false_or_eq_true (a.term et) with hte | hte
      · simp only [hte, Bool.true_eq_false, false_and, if_false, if_true]
        exact ⟨fun o h => by cases h; rfl, hg, ht⟩
      · simp only [hte, Bool.false_eq_true, if_false, true_and]
        by_cases hd : ∀ dv ∈ deps et, a.group dv ≠ none
        · rw [if_pos hd, if_pos (hall.2 hd)]
          refine ⟨fun o h => by cases h; rfl, hg, ?_⟩
          intro e
          simp only [List.mem_cons]
          by_cases he : e = et
          · simp [he]
          · simp [he, ← ht e]
        · rw [if_neg hd, if_neg (fun hc => hd (hall.1 hc))]
          exact ⟨fun o h => by cases h; rfl, hg, ht⟩
  | setOrdering l =>
    simp only [Batch.step, setGroupsOrdering, Spec.step]
    split
    · exact ⟨fun o h => by (cases h), hg, ht⟩
    · split <;> exact ⟨fun o h => by (cases h), hg, ht⟩
  | permuteDV p g =>
    refine ⟨fun o h => by (cases h), ?_, ?_⟩
    · simp only [Batch.step, permuteDesignVariables, Spec.step]
      split <;> exact hg
    · intro e
      have : (step deps w (.permuteDV p g)).2.b.etLookup = w.b.etLookup := by
        simp only [Batch.step, permuteDesignVariables]
        split <;> rfl
      rw [this]; exact ht e
  | permuteET p => exact ⟨fun o h => by (cases h), hg, ht⟩
  | save => exact ⟨fun o h => by cases h; rfl, hg, ht⟩
  | restore => exact ⟨fun o h => by cases h; rfl, hg, ht⟩
  | clear => exact ⟨fun o h => by cases h; rfl, fun d => rfl, fun e => rfl⟩
  | assign dv v => exact ⟨fun o h => by cases h; rfl, hg, ht⟩

theorem runFrom_spec {deps : Nat → List Nat} {w : World V} {a : Spec}
    (hg : ∀ d, w.b.lookup.find d = a.group d) (ht : ∀ e, decide (e ∈ w.b.etLookup) = a.term e)
    (ops : List (Op V)) :
    Agree (runFrom deps w ops).1 (Spec.runFrom deps a ops).1 ∧
    (∀ d, (runFrom deps w ops).2.b.lookup.find d = (Spec.runFrom deps a ops).2.group d) ∧
    (∀ e, decide (e ∈ (runFrom deps w ops).2.b.etLookup) = (Spec.runFrom deps a ops).2.term e) := by
  induction ops generalizing w a with
  | nil => exact ⟨trivial, hg, ht⟩
  | cons op ops ih =>
    obtain ⟨h1, h2, h3⟩ := step_spec (deps := deps) hg ht op
    obtain ⟨i1, i2, i3⟩ := ih h2 h3
    refine ⟨?_, i2, i3⟩
    simp only [runFrom, Spec.runFrom]
    cases ho : (a.step deps op).1 with
    | none => exact ⟨rfl, i1⟩
    | some o => exact ⟨h1 o ho, i1⟩

/-- C35: after any history the problem answers additions as specified and contains exactly the
variables (with their groups) and error terms added since the last clear. -/
theorem C35_contents (deps : Nat → List Nat) (mem : Nat → V) (ops : List (Op V)) :
    Agree (run deps mem ops).1 (Spec.run deps ops).1 ∧
    (∀ dv, getGroupId (run deps mem ops).2.b dv =
      match (Spec.run deps ops).2.group dv with
      | some g => .ok g
      | none => .raise) ∧
    (∀ dv, isDesignVariableInProblem (run deps mem ops).2.b dv =
      ((Spec.run deps ops).2.group dv).isSome) ∧
    (∀ et, isErrorTermInProblem (run deps mem ops).2.b et = (Spec.run deps ops).2.term et) := by
  obtain ⟨h1, h2, h3⟩ := runFrom_spec (deps := deps) (w := ⟨(Batch.empty : Batch V), mem⟩)
    (a := Spec.empty) (fun d => rfl) (fun e => rfl) ops
  refine ⟨h1, ?_, ?_, h3⟩
  · intro dv
    unfold getGroupId
    rw [show (run deps mem ops).2.b.lookup.find dv = _ from h2 dv]
    rfl
  · intro dv
    unfold isDesignVariableInProblem
    rw [show (run deps mem ops).2.b.lookup.find dv = _ from h2 dv]
    rfl

/-- C35: the ordering lists every group in use exactly once. -/
theorem C35_ordering (deps : Nat → List Nat) (mem : Nat → V) (ops : List (Op V)) :
    (run deps mem ops).2.b.order.Nodup ∧
    (∀ g, g ∈ (run deps mem ops).2.b.order ↔ ∃ dv, getGroupId (run deps mem ops).2.b dv = .ok g) ∧
    (∀ g, isGroupInProblem (run deps mem ops).2.b g = decide (g ∈ (run deps mem ops).2.b.order)) := by
  have h := run_inv deps mem ops
  generalize (run deps mem ops).2.b = b at h
  refine ⟨h.grouped.nodup, ?_, ?_⟩
  · intro g
    rw [h.grouped.mem_order]
    constructor
    · rintro ⟨l, hl⟩
      obtain ⟨dv, hdv⟩ := List.exists_mem_of_ne_nil l (h.grouped.nonempty g l hl)
      refine ⟨dv, ?_⟩
      unfold getGroupId
      rw [(h.grouped.mem_grp g l hl dv).1 hdv]
    · rintro ⟨dv, hdv⟩
      unfold getGroupId at hdv
      split at hdv
      · rename_i g' hg'
        cases hdv
        exact h.grouped.has_grp dv g hg'
      · cases hdv
  · intro g
    rw [Bool.eq_iff_iff]
    unfold isGroupInProblem
    rw [decide_eq_true_iff, h.grouped.mem_order, Option.isSome_iff_exists]

/-- C35: asking for a group raises if no variable has it; otherwise it gives the variables that have it, each once. -/
theorem C35_group (deps : Nat → List Nat) (mem : Nat → V) (ops : List (Op V)) (g : Nat) :
    (getDesignVariablesGroup (run deps mem ops).2.b g = .raise ↔
      ∀ dv, getGroupId (run deps mem ops).2.b dv ≠ .ok g) ∧
    ((∃ dv, getGroupId (run deps mem ops).2.b dv = .ok g) → ∃ l,
      getDesignVariablesGroup (run deps mem ops).2.b g = .ok l ∧ l.Nodup ∧
      ∀ dv, dv ∈ l ↔ getGroupId (run deps mem ops).2.b dv = .ok g) := by
  have h := run_inv deps mem ops
  generalize (run deps mem ops).2.b = b at h
  have hg (dv : Nat) : getGroupId b dv = .ok g ↔ b.lookup.find dv = some g := by
    unfold getGroupId
    cases b.lookup.find dv <;> simp
  simp only [ne_eq, hg]
  constructor
  · constructor
    · intro hr dv hdv
      obtain ⟨l, hl⟩ := h.grouped.has_grp dv g hdv
      unfold getDesignVariablesGroup at hr
      rw [hl] at hr
      cases hr
    · intro hn
      unfold getDesignVariablesGroup
      cases hf : b.groups.find g with
      | none => rfl
      | some l =>
        obtain ⟨dv, hdv⟩ := List.exists_mem_of_ne_nil l (h.grouped.nonempty g l hf)
        exact absurd ((h.grouped.mem_grp g l hf dv).1 hdv) (hn dv)
  · rintro ⟨dv, hdv⟩
    obtain ⟨l, hl⟩ := h.grouped.has_grp dv g hdv
    exact ⟨l, by unfold getDesignVariablesGroup; rw [hl], h.grouped.grpNodup g l hl, h.grouped.mem_grp g l hl⟩

/-- C35: flat indices below the reported number address every variable of the problem exactly once,
in the order of the groups; larger indices raise; the number is the sum of the group sizes. -/
theorem C35_flat_index (deps : Nat → List Nat) (mem : Nat → V) (ops : List (Op V)) :
    let b := (run deps mem ops).2.b
    (∀ i, numDesignVariables b ≤ i → designVariable b i = .raise) ∧
    (∀ i, i < numDesignVariables b →
      ∃ dv, designVariable b i = .ok dv ∧ isDesignVariableInProblem b dv = true) ∧
    (∀ dv, isDesignVariableInProblem b dv = true →
      ∃ i, i < numDesignVariables b ∧ designVariable b i = .ok dv ∧
        ∀ j, designVariable b j = .ok dv → j = i) ∧
    (∀ i j d e g g', i < j → designVariable b i = .ok d → designVariable b j = .ok e →
      getGroupId b d = .ok g → getGroupId b e = .ok g' → b.order.idxOf g ≤ b.order.idxOf g') ∧
    (numDesignVariables b =
      (b.order.map fun g => match getDesignVariablesGroup b g with
        | .ok l => l.length
        | _ => 0).sum) := by
  intro b
  have h : Inv deps b := run_inv deps mem ops
  clear_value b
  have hdv := designVariable_eq h
  have hok : ∀ i d, designVariable b i = .ok d ↔ (flat b.groups b.order)[i]? = some d := by
    intro i d
    rw [hdv]
    cases (flat b.groups b.order)[i]? with
    | none => simp
    | some x => simp
  refine ⟨?_, ?_, ?_, ?_, ?_⟩
  · intro i hi
    unfold designVariable
    rw [if_pos hi]
  · intro i hi
    rw [numDV_eq h] at hi
    refine ⟨_, (hok i _).2 (List.getElem?_eq_getElem hi), ?_⟩
    obtain ⟨g, hg⟩ := (mem_flat h.grouped _).1 (List.getElem_mem hi)
    unfold isDesignVariableInProblem
    rw [hg]; rfl
  · intro dv hin
    unfold isDesignVariableInProblem at hin
    obtain ⟨i, hi, he⟩ := List.mem_iff_getElem.1 ((mem_flat h.grouped dv).2
      (Option.isSome_iff_exists.1 hin))
    refine ⟨i, by rw [numDV_eq h]; exact hi, (hok i dv).2 (by rw [List.getElem?_eq_getElem hi, he]), ?_⟩
    intro j hj
    obtain ⟨hj', he'⟩ := List.getElem?_eq_some_iff.1 ((hok j dv).1 hj)
    exact ((flat_nodup h.grouped).getElem_inj_iff).1 (he'.trans he.symm)
  · intro i j d e g g' hij hd he hg hg'
    have conv : ∀ x y, getGroupId b x = .ok y → b.lookup.find x = some y := by
      intro x y hx
      unfold getGroupId at hx
      split at hx
      · cases hx; assumption
      · cases hx
    exact flat_monotone h.grouped hij ((hok i d).1 hd) ((hok j e).1 he) (conv _ _ hg) (conv _ _ hg')
  · rw [numDV_eq h]
    unfold flat getDesignVariablesGroup
    rw [List.length_flatMap]
    congr 1
    apply List.map_congr_left
    intro g hg
    obtain ⟨l, hl⟩ := (h.grouped.mem_order g).1 hg
    rw [hl]
    rfl

/-- C35: a new ordering is accepted exactly when it is a permutation of the groups in use; a
rejected one changes nothing. -/
theorem C35_set_ordering (deps : Nat → List Nat) (mem : Nat → V) (ops : List (Op V)) (l : List Nat) :
    let w := (run deps mem ops).2
    (l.Perm w.b.order → (step deps w (.setOrdering l)).1 = .ok () ∧
      (step deps w (.setOrdering l)).2.b = { w.b with order := l }) ∧
    (¬ l.Perm w.b.order → step deps w (.setOrdering l) = (.raise, w)) := by
  intro w
  have h : Inv deps w.b := run_inv deps mem ops
  clear_value w
  have ha := ordering_accepts h.grouped l
  constructor
  · intro hp
    obtain ⟨h1, h2⟩ := ha.2 hp
    simp only [step, setGroupsOrdering]
    rw [if_neg (not_not.2 h1), if_pos h2]
    exact ⟨rfl, rfl⟩
  · intro hp
    simp only [step, setGroupsOrdering]
    by_cases h1 : l.length = w.b.order.length
    · rw [if_neg (not_not.2 h1), if_neg (fun hc => hp (ha.1 ⟨h1, hc⟩))]
    · rw [if_pos h1]

/-- C35: error terms are enumerated exactly once, and only terms whose variables are in the problem
are there. -/
theorem C35_error_terms (deps : Nat → List Nat) (mem : Nat → V) (ops : List (Op V)) :
    let b := (run deps mem ops).2.b
    (∀ i, numErrorTerms b ≤ i → errorTerm b i = .raise) ∧
    (∀ i, i < numErrorTerms b → ∃ et, errorTerm b i = .ok et ∧ isErrorTermInProblem b et = true) ∧
    (∀ et, isErrorTermInProblem b et = true →
      ∃ i, i < numErrorTerms b ∧ errorTerm b i = .ok et ∧ ∀ j, errorTerm b j = .ok et → j = i) ∧
    (∀ et, isErrorTermInProblem b et = true →
      ∀ dv ∈ deps et, isDesignVariableInProblem b dv = true) := by
  intro b
  have h : Inv deps b := run_inv deps mem ops
  clear_value b
  have hlen : numErrorTerms b = b.ets.length := h.ets.length_eq.symm
  have hnd : b.ets.Nodup := h.ets.nodup_iff.2 h.etNodup
  have hok : ∀ i e, errorTerm b i = .ok e ↔ b.ets[i]? = some e := by
    intro i e
    unfold errorTerm
    cases b.ets[i]? with
    | none => simp
    | some x => simp
  refine ⟨?_, ?_, ?_, ?_⟩
  · intro i hi
    unfold errorTerm
    rw [List.getElem?_eq_none (by omega)]
  · intro i hi
    rw [hlen] at hi
    refine ⟨_, (hok i _).2 (List.getElem?_eq_getElem hi), ?_⟩
    unfold isErrorTermInProblem
    rw [decide_eq_true_iff]
    exact h.ets.mem_iff.1 (List.getElem_mem hi)
  · intro et hin
    unfold isErrorTermInProblem at hin
    rw [decide_eq_true_iff] at hin
    obtain ⟨i, hi, he⟩ := List.mem_iff_getElem.1 (h.ets.mem_iff.2 hin)
    refine ⟨i, by omega, (hok i et).2 (by rw [List.getElem?_eq_getElem hi, he]), ?_⟩
    intro j hj
    obtain ⟨hj', he'⟩ := List.getElem?_eq_some_iff.1 ((hok j et).1 hj)
    exact (hnd.getElem_inj_iff).1 (he'.trans he.symm)
  · intro et hin dv hdv
    unfold isErrorTermInProblem at hin
    rw [decide_eq_true_iff] at hin
    exact Option.isSome_iff_exists.2 (h.closed et hin dv hdv)

/-- C35: permuting the variables of a group by a permutation vector reorders exactly that group. -/
theorem C35_permute (deps : Nat → List Nat) (mem : Nat → V) (ops : List (Op V)) (p l : List Nat)
    (g : Nat) (hl : getDesignVariablesGroup (run deps mem ops).2.b g = .ok l)
    (hp : Permute.IsPermutation p l.length) :
    ∃ l', (step deps (run deps mem ops).2 (.permuteDV p g)).1 = .ok () ∧
      (∀ i (h : i < p.length), l'[i]? = l[p[i]]?) ∧ l'.length = l.length ∧
      ∀ g', getDesignVariablesGroup (step deps (run deps mem ops).2 (.permuteDV p g)).2.b g' =
        if g' = g then .ok l' else getDesignVariablesGroup (run deps mem ops).2.b g' := by
  have hl' : (run deps mem ops).2.b.groups.find g = some l := by
    unfold getDesignVariablesGroup at hl
    split at hl
    · cases hl; assumption
    · cases hl
  obtain ⟨l', h1, h2, h3⟩ := Permute.C61_permutation_partial p l hp (l.length + 1) (by omega)
  refine ⟨l', ?_, h3, h2, ?_⟩
  · simp only [step, permuteDesignVariables, hl', doPermute, h1]
  · intro g'
    simp only [step, permuteDesignVariables, hl', doPermute, h1, getDesignVariablesGroup,
      FMap.find_set]
    by_cases hg : g' = g
    · simp [hg]
    · simp [hg]

/-- C35: permuting a group that no variable has raises and leaves the problem. -/
theorem C35_permute_missing (deps : Nat → List Nat) (mem : Nat → V) (ops : List (Op V)) (p : List Nat) (g : Nat)
    (hg : ∀ dv, getGroupId (run deps mem ops).2.b dv ≠ .ok g) :
    step deps (run deps mem ops).2 (.permuteDV p g) = (.raise, (run deps mem ops).2) := by
  have h := ((C35_group deps mem ops g).1).2 hg
  have hn : (run deps mem ops).2.b.groups.find g = none := by
    unfold getDesignVariablesGroup at h
    cases hf : (run deps mem ops).2.b.groups.find g with
    | none => rfl
    | some l => rw [hf] at h; cases h
  simp only [step, permuteDesignVariables, hn]

/-- C35: permuting the error terms reorders them as asked and leaves the rest of the problem. -/
theorem C35_permute_terms (deps : Nat → List Nat) (w : World V) (p : List Nat)
    (hp : Permute.IsPermutation p (w.b.ets.length)) :
    ∃ l, step deps w (.permuteET p) = (.ok (), { w with b := { w.b with ets := l } }) ∧
      l.length = w.b.ets.length ∧ ∀ i (h : i < p.length), l[i]? = w.b.ets[p[i]]? := by
  obtain ⟨l', h1, h2, h3⟩ := Permute.C61_permutation_partial p w.b.ets hp (w.b.ets.length + 1) (by omega)
  exact ⟨l', by simp only [step, permuteErrorTerms, doPermute, h1], h2, h3⟩

/-- C35: a vector of the wrong length is rejected and nothing changes. -/
theorem C35_permute_length (deps : Nat → List Nat) (w : World V) (p : List Nat) (hp : p.length ≠ w.b.ets.length) :
    step deps w (.permuteET p) = (.raise, w) := by
  simp only [step, permuteErrorTerms, doPermute, Permute.C61_wrong_length _ p w.b.ets hp]

/-- C35: a vector of the right length that is no permutation need not be rejected: the call may never return. -/
theorem C35_permute_hangs :
    (step (fun _ => []) (run (fun _ => []) (fun _ => (0 : Int)) [.addET (some 7), .addET (some 8)]).2
      (.permuteET [0, 0])).1 = .ub := by
  decide

/-- C35: saving, letting anything write to the parameters, and restoring gives every variable of the
problem its saved value and leaves all other parameters as they were just before the restore. -/
theorem C35_save_restore (deps : Nat → List Nat) (mem : Nat → V) (ops : List (Op V))
    (writes : List (Nat × V)) :
    let w := (run deps mem ops).2
    let w1 := (step deps w .save).2
    let w2 := (runFrom deps w1 (writes.map fun e => .assign e.1 e.2)).2
    let w3 := (step deps w2 .restore).2
    ∀ dv, w3.mem dv = if isDesignVariableInProblem w.b dv then w.mem dv else w2.mem dv := by
  intro w w1 w2 w3 dv
  have h : Inv deps w.b := run_inv deps mem ops
  have h1 : Inv deps w1.b := h.step .save
  have hb : w2.b = w1.b := by
    have : ∀ (l : List (Nat × V)) (x : World V),
        (runFrom deps x (l.map fun e => .assign e.1 e.2)).2.b = x.b := by
      intro l
      induction l with
      | nil => intro x; rfl
      | cons e l ih =>
        intro x
        rw [List.map_cons]
        simp only [runFrom]
        rw [ih]
        rfl
    exact this writes w1
  show restoreDesignVariables w2.b w2.mem dv = _
  rw [hb]
  unfold restoreDesignVariables
  rw [restoreFold h1.bwf]
  have hf : w1.b.backup.find dv = if dv ∈ FMap.keys w.b.lookup then some (w.mem dv)
      else w.b.backup.find dv := find_saveFold _ _ _ _
  rw [hf]
  unfold isDesignVariableInProblem
  by_cases hk : dv ∈ FMap.keys w.b.lookup
  · obtain ⟨g, hg⟩ := FMap.mem_keys.1 hk
    rw [if_pos hk, hg]
    rfl
  · rw [if_neg hk]
    have hn : w.b.lookup.find dv = none := FMap.find_none_of_notMem hk
    have hbn : w.b.backup.find dv = none := by
      cases hc : w.b.backup.find dv with
      | none => rfl
      | some v =>
        obtain ⟨g, hg⟩ := h.backup dv v hc
        rw [hn] at hg; cases hg
    rw [hbn, hn]
    rfl

/-- Non-trivial history: three groups, a reordering, a permuted group, error terms, a rejected
ordering. -/
def demo : List (Op Int) :=
  [.addDV (some 10) 5, .addDV (some 11) 7, .addDV (some 12) 5, .addDV (some 13) 9, .addDV (some 12) 7,
   .addET (some 100), .addET (some 101), .setOrdering [9, 5, 7], .setOrdering [9, 5, 5],
   .permuteDV [1, 0] 5, .addDV none 5]

def demoDeps : Nat → List Nat := fun e => if e = 100 then [10, 13] else [99]

example : (run demoDeps (fun _ => 0) demo).1 =
    [.ok (), .ok (), .ok (), .ok (), .raise, .ok (), .raise, .ok (), .raise, .ok (), .raise] ∧
    (List.range 5).map (designVariable (run demoDeps (fun _ => 0) demo).2.b) =
      [.ok 13, .ok 12, .ok 10, .ok 11, .raise] ∧
    (run demoDeps (fun _ => 0) demo).2.b.order = [9, 5, 7] := by
  decide

/-- Hypotheses of `C35_permute` are met. -/
example : getDesignVariablesGroup (run demoDeps (fun _ => (0 : Int)) demo).2.b 5 = .ok [12, 10] ∧
    Permute.IsPermutation [1, 0] [12, 10].length := by
  refine ⟨by decide, by unfold Permute.IsPermutation; decide⟩

end Kalibr.Batch
