import Verif.Merged.Lemmas

/-!
# Properties of the merged problem (C36, C37, C62)
-/

namespace Kalibr.Merged

open Kalibr.Batch (Batch Grouped flat)

variable {V : Type}

theorem Built.inv {deps : Nat → List Nat} {B : Nat → Batch V} (h : Built deps B) (id : Nat) :
    Batch.Inv deps (B id) := by
  obtain ⟨mem, ops, he⟩ := h id
  rw [he]; exact Batch.run_inv deps mem ops

theorem batchGroup_iff (b : Batch V) (dv g : Nat) :
    Batch.getGroupId b dv = .ok g ↔ b.lookup.find dv = some g := by
  unfold Batch.getGroupId
  cases b.lookup.find dv with
  | none => simp
  | some x => simp

theorem group_iff (m : Merged V) (dv g : Nat) :
    getGroupId m dv = .ok g ↔ groupOf m dv = some g := by
  unfold getGroupId groupOf
  cases m.counts.find dv with
  | none => simp
  | some x => simp

theorem in_iff (m : Merged V) (dv : Nat) :
    isDesignVariableInProblem m dv = true ↔ ∃ g, groupOf m dv = some g := by
  unfold isDesignVariableInProblem groupOf
  cases m.counts.find dv with
  | none => simp
  | some x => simp

theorem MInv.live {B : Nat → Batch V} {m : Merged V} (h : MInv B m) (dv g : Nat) :
    groupOf m dv = some g ↔ Live B m.problems dv g := by
  unfold Live
  constructor
  · intro hg
    have : 0 < occOf B m.problems dv := (h.c.present dv).2 ⟨g, hg⟩
    unfold occOf at this
    obtain ⟨id, hid, hs⟩ := List.countP_pos_iff.1 this
    obtain ⟨g', hg'⟩ := Option.isSome_iff_exists.1 hs
    have := h.grp id hid dv g' hg'
    rw [hg] at this
    cases this
    exact ⟨id, hid, (batchGroup_iff _ _ _).2 hg'⟩
  · rintro ⟨id, hid, hg⟩
    exact h.grp id hid dv g ((batchGroup_iff _ _ _).1 hg)

theorem run_inv {deps : Nat → List Nat} {B : Nat → Batch V} (hB : Built deps B) (mem : Nat → V)
    (ops : List (Op V)) (ha : AddsReturn ops (run B mem ops).1) : MInv B (run B mem ops).2.m :=
  runFrom_inv hB.inv (MInv.empty B) ops ha

/-- C36: the merged problem contains exactly the variables of the live batches, each in the group
its batches give it. -/
theorem C36_variables {deps : Nat → List Nat} {B : Nat → Batch V} (hB : Built deps B) (mem : Nat → V)
    (ops : List (Op V)) (ha : AddsReturn ops (run B mem ops).1) :
    let m := (run B mem ops).2.m
    (∀ dv g, getGroupId m dv = .ok g ↔ Live B m.problems dv g) ∧
    (∀ dv, isDesignVariableInProblem m dv = true ↔ ∃ g, Live B m.problems dv g) := by
  intro m
  have h : MInv B m := run_inv hB mem ops ha
  clear_value m
  refine ⟨fun dv g => (group_iff m dv g).trans (h.live dv g), fun dv => ?_⟩
  rw [in_iff]
  exact exists_congr fun g => h.live dv g

/-- C36: flat indices below the reported number list every variable of the live batches exactly
once, group by group in the current order; larger indices raise. -/
theorem C36_flat_index {deps : Nat → List Nat} {B : Nat → Batch V} (hB : Built deps B) (mem : Nat → V)
    (ops : List (Op V)) (ha : AddsReturn ops (run B mem ops).1) :
    let m := (run B mem ops).2.m
    (∀ i, numDesignVariables m ≤ i → designVariable m i = .raise) ∧
    (∀ i, i < numDesignVariables m → ∃ dv g, designVariable m i = .ok dv ∧ Live B m.problems dv g) ∧
    (∀ dv g, Live B m.problems dv g →
      ∃ i, i < numDesignVariables m ∧ designVariable m i = .ok dv ∧
        ∀ j, designVariable m j = .ok dv → j = i) ∧
    (∀ i j d e g g', i < j → designVariable m i = .ok d → designVariable m j = .ok e →
      getGroupId m d = .ok g → getGroupId m e = .ok g' → m.order.idxOf g ≤ m.order.idxOf g') := by
  intro m
  have h : MInv B m := run_inv hB mem ops ha
  clear_value m
  have hok : ∀ i d, designVariable m i = .ok d ↔ (flat m.groups m.order)[i]? = some d := by
    intro i d
    rw [designVariable_eq h]
    cases (flat m.groups m.order)[i]? with
    | none => simp
    | some x => simp
  refine ⟨?_, ?_, ?_, ?_⟩
  · intro i hi
    unfold designVariable
    rw [if_pos hi]
  · intro i hi
    rw [numDV_eq h] at hi
    obtain ⟨g, hg⟩ := (Batch.mem_flat h.c.grouped _).1 (List.getElem_mem hi)
    exact ⟨_, g, (hok i _).2 (List.getElem?_eq_getElem hi), (h.live _ g).1 hg⟩
  · intro dv g hl
    obtain ⟨i, hi, he⟩ := List.mem_iff_getElem.1 ((Batch.mem_flat h.c.grouped dv).2
      ⟨g, (h.live dv g).2 hl⟩)
    refine ⟨i, by rw [numDV_eq h]; exact hi, (hok i dv).2 (by rw [List.getElem?_eq_getElem hi, he]), ?_⟩
    intro j hj
    obtain ⟨hj', he'⟩ := List.getElem?_eq_some_iff.1 ((hok j dv).1 hj)
    exact ((Batch.flat_nodup h.c.grouped).getElem_inj_iff).1 (he'.trans he.symm)
  · intro i j d e g g' hij hd he hg hg'
    exact Batch.flat_monotone h.c.grouped hij ((hok i d).1 hd) ((hok j e).1 he)
      ((group_iff _ _ _).1 hg) ((group_iff _ _ _).1 hg')

/-- C36: the ordering lists every group that a live batch uses exactly once. -/
theorem C36_ordering {deps : Nat → List Nat} {B : Nat → Batch V} (hB : Built deps B) (mem : Nat → V)
    (ops : List (Op V)) (ha : AddsReturn ops (run B mem ops).1) :
    let m := (run B mem ops).2.m
    m.order.Nodup ∧ (∀ g, g ∈ m.order ↔ ∃ dv, Live B m.problems dv g) ∧
    (∀ g, isGroupInProblem m g = decide (g ∈ m.order)) := by
  intro m
  have h : MInv B m := run_inv hB mem ops ha
  clear_value m
  refine ⟨h.c.grouped.nodup, ?_, ?_⟩
  · intro g
    rw [h.c.grouped.mem_order]
    constructor
    · rintro ⟨l, hl⟩
      obtain ⟨dv, hdv⟩ := List.exists_mem_of_ne_nil l (h.c.grouped.nonempty g l hl)
      exact ⟨dv, (h.live dv g).1 ((h.c.grouped.mem_grp g l hl dv).1 hdv)⟩
    · rintro ⟨dv, hdv⟩
      exact h.c.grouped.has_grp dv g ((h.live dv g).2 hdv)
  · intro g
    rw [Bool.eq_iff_iff]
    unfold isGroupInProblem
    rw [decide_eq_true_iff, h.c.grouped.mem_order, Option.isSome_iff_exists]

/-- C36: asking for the group of a variable that no live batch has raises; so do asking for and permuting a group that no live
batch uses, and the latter leaves the problem.  Any other group gives the variables that have it, each once. -/
theorem C36_lookup {deps : Nat → List Nat} {B : Nat → Batch V} (hB : Built deps B) (mem : Nat → V)
    (ops : List (Op V)) (ha : AddsReturn ops (run B mem ops).1) :
    let w := (run B mem ops).2
    (∀ dv, getGroupId w.m dv = .raise ↔ ∀ g, ¬ Live B w.m.problems dv g) ∧
    (∀ g, getDesignVariablesGroup w.m g = .raise ↔ ∀ dv, ¬ Live B w.m.problems dv g) ∧
    (∀ g, (∃ dv, Live B w.m.problems dv g) → ∃ l, getDesignVariablesGroup w.m g = .ok l ∧ l.Nodup ∧
      ∀ dv, dv ∈ l ↔ Live B w.m.problems dv g) ∧
    (∀ p g, (∀ dv, ¬ Live B w.m.problems dv g) → step B w (.permuteDV p g) = (.raise, w)) := by
  intro w
  have h : MInv B w.m := run_inv hB mem ops ha
  clear_value w
  have hnone (g : Nat) : w.m.groups.find g = none ↔ ∀ dv, ¬ Live B w.m.problems dv g := by
    constructor
    · intro hn dv hdv
      obtain ⟨l, hl⟩ := h.c.grouped.has_grp dv g ((h.live dv g).2 hdv)
      rw [hn] at hl
      cases hl
    · intro hn
      cases hf : w.m.groups.find g with
      | none => rfl
      | some l =>
        obtain ⟨dv, hdv⟩ := List.exists_mem_of_ne_nil l (h.c.grouped.nonempty g l hf)
        exact absurd ((h.live dv g).1 ((h.c.grouped.mem_grp g l hf dv).1 hdv)) (hn dv)
  refine ⟨fun dv => ?_, fun g => ?_, ?_, ?_⟩
  · simp only [← h.live]
    unfold getGroupId groupOf
    cases w.m.counts.find dv <;> simp
  · rw [← hnone]
    unfold getDesignVariablesGroup
    cases w.m.groups.find g <;> simp
  · rintro g ⟨dv, hdv⟩
    obtain ⟨l, hl⟩ := h.c.grouped.has_grp dv g ((h.live dv g).2 hdv)
    exact ⟨l, by unfold getDesignVariablesGroup; rw [hl], h.c.grouped.grpNodup g l hl,
      fun d => (h.c.grouped.mem_grp g l hl d).trans (h.live d g)⟩
  · intro p g hg
    simp only [step, permuteDesignVariables, (hnone g).2 hg]

/-- C36: permuting a group reorders it as asked and leaves the other groups. -/
theorem C36_permute (B : Nat → Batch V) (w : World V) (p l : List Nat)
    (g : Nat) (hl : getDesignVariablesGroup w.m g = .ok l) (hp : Permute.IsPermutation p l.length) :
    ∃ l', (step B w (.permuteDV p g)).1 = .ok () ∧ (∀ i (h : i < p.length), l'[i]? = l[p[i]]?) ∧ l'.length = l.length ∧
      ∀ g', getDesignVariablesGroup (step B w (.permuteDV p g)).2.m g' =
        if g' = g then .ok l' else getDesignVariablesGroup w.m g' := by
  have hl' : w.m.groups.find g = some l := by
    unfold getDesignVariablesGroup at hl
    split at hl
    · cases hl; assumption
    · cases hl
  obtain ⟨l', h1, h2, h3⟩ := Permute.C61_permutation_partial p l hp (l.length + 1) (by omega)
  refine ⟨l', ?_, h3, h2, ?_⟩
  · simp only [step, permuteDesignVariables, hl', Batch.doPermute, h1]
  · intro g'
    simp only [step, permuteDesignVariables, hl', Batch.doPermute, h1, getDesignVariablesGroup,
      FMap.find_set]
    by_cases hg : g' = g
    · simp [hg]
    · simp [hg]

/-- C36: permuting the batches reorders them as asked and leaves the rest. -/
theorem C36_permute_problems (B : Nat → Batch V) (w : World V) (p : List Nat)
    (hp : Permute.IsPermutation p w.m.problems.length) :
    ∃ l, step B w (.permuteProblems p) = (.ok (), { w with m := { w.m with problems := l } }) ∧
      l.length = w.m.problems.length ∧ ∀ i (h : i < p.length), l[i]? = w.m.problems[p[i]]? := by
  obtain ⟨l', h1, h2, h3⟩ := Permute.C61_permutation_partial p w.m.problems hp (w.m.problems.length + 1) (by omega)
  exact ⟨l', by simp only [step, permuteProblems, Batch.doPermute, h1], h2, h3⟩

/-- C36: flat error indices enumerate all error terms of the live batches, each exactly once. -/
theorem C36_errors {deps : Nat → List Nat} {B : Nat → Batch V} (hB : Built deps B) (mem : Nat → V)
    (ops : List (Op V)) (ha : AddsReturn ops (run B mem ops).1) :
    let m := (run B mem ops).2.m
    (∀ i, numErrorTerms B m ≤ i → errorTerm B m i = .raise) ∧
    (∀ i, i < numErrorTerms B m → ∃ et, errorTerm B m i = .ok et ∧ LiveTerm B m.problems et) ∧
    (∀ et, LiveTerm B m.problems et →
      ∃ i, i < numErrorTerms B m ∧ errorTerm B m i = .ok et ∧
        ∀ j, errorTerm B m j = .ok et → j = i) ∧
    (∀ et, isErrorTermInProblem B m et = true ↔ LiveTerm B m.problems et) ∧
    numErrorTerms B m = (m.problems.map fun id => Batch.numErrorTerms (B id)).sum := by
  intro m
  have h : MInv B m := run_inv hB mem ops ha
  clear_value m
  have hlen : numErrorTerms B m = (terms B m.problems).length := by
    unfold numErrorTerms terms
    rw [List.length_flatMap]
    congr 1
    apply List.map_congr_left
    intro id _
    exact ((hB.inv id).ets.length_eq).symm
  have hlive : ∀ et, et ∈ terms B m.problems ↔ LiveTerm B m.problems et := by
    intro et
    rw [← isET_iff hB.inv]
    unfold isErrorTermInProblem LiveTerm
    rw [List.any_eq_true]
  have hok : ∀ i e, errorTerm B m i = .ok e ↔ (terms B m.problems)[i]? = some e := by
    intro i e
    rw [errorTerm_eq hB.inv]
    cases (terms B m.problems)[i]? with
    | none => simp
    | some x => simp
  refine ⟨?_, ?_, ?_, ?_, rfl⟩
  · intro i hi
    rw [errorTerm_eq hB.inv, List.getElem?_eq_none (by omega)]
  · intro i hi
    rw [hlen] at hi
    exact ⟨_, (hok i _).2 (List.getElem?_eq_getElem hi), (hlive _).1 (List.getElem_mem hi)⟩
  · intro et hl
    obtain ⟨i, hi, he⟩ := List.mem_iff_getElem.1 ((hlive et).2 hl)
    refine ⟨i, by omega, (hok i et).2 (by rw [List.getElem?_eq_getElem hi, he]), ?_⟩
    intro j hj
    obtain ⟨hj', he'⟩ := List.getElem?_eq_some_iff.1 ((hok j et).1 hj)
    exact (h.ets.getElem_inj_iff).1 (he'.trans he.symm)
  · intro et
    rw [isET_iff hB.inv]
    exact hlive et

/-- C36: a batch is accepted exactly when it gives no variable a group other than the one a live
batch gives it and shares no error term with a live batch; it becomes the last live batch. -/
theorem C36_add {deps : Nat → List Nat} {B : Nat → Batch V} (hB : Built deps B) (mem : Nat → V)
    (ops : List (Op V)) (ha : AddsReturn ops (run B mem ops).1) (id : Nat) :
    let w := (run B mem ops).2
    let r := step B w (.add (some id))
    (r.1 = .ok () ↔
      (∀ dv g g', Batch.getGroupId (B id) dv = .ok g → Live B w.m.problems dv g' → g' = g) ∧
      (∀ et, Batch.isErrorTermInProblem (B id) et = true → ¬ LiveTerm B w.m.problems et)) ∧
    (r.1 ≠ .ok () → r.1 = .raise) ∧
    (r.1 = .ok () → r.2.m.problems = w.m.problems ++ [id] ∧ r.2.mem = w.mem) := by
  intro w r
  have h : MInv B w.m := run_inv hB mem ops ha
  have hcomp : Compatible B w.m id ↔
      (∀ dv g g', Batch.getGroupId (B id) dv = .ok g → Live B w.m.problems dv g' → g' = g) ∧
      (∀ et, Batch.isErrorTermInProblem (B id) et = true → ¬ LiveTerm B w.m.problems et) := by
    unfold Compatible
    refine and_congr ?_ ?_
    · constructor
      · intro hc dv g g' hg hl
        have hg' := (h.live dv g').2 hl
        rcases hc dv g ((batchGroup_iff _ _ _).1 hg) with hx | hx
        · rw [hg'] at hx; cases hx
        · rw [hg'] at hx; cases hx; rfl
      · intro hc dv g hg
        cases hgm : groupOf w.m dv with
        | none => left; rfl
        | some g' =>
          right
          rw [hc dv g g' ((batchGroup_iff _ _ _).2 hg) ((h.live dv g').1 hgm)]
    · have h1 : ∀ et, et ∈ (B id).ets ↔ Batch.isErrorTermInProblem (B id) et = true := by
        intro et
        unfold Batch.isErrorTermInProblem
        rw [decide_eq_true_iff]
        exact (hB.inv id).ets.mem_iff
      have h2 : ∀ et, et ∈ terms B w.m.problems ↔ LiveTerm B w.m.problems et := by
        intro et
        rw [← isET_iff hB.inv]
        unfold isErrorTermInProblem LiveTerm
        rw [List.any_eq_true]
      exact forall_congr' fun et => by rw [h1, h2]
  rw [← hcomp]
  by_cases hc : Compatible B w.m id
  · obtain ⟨m', e, _, hp, _⟩ := add_ok hB.inv h hc
    have hr : r = (.ok (), { w with m := m' }) := by
      show step B w (.add (some id)) = _
      simp only [step, e]
    rw [hr]
    exact ⟨⟨fun _ => hc, fun _ => rfl⟩, fun hn => absurd rfl hn, fun _ => ⟨hp, rfl⟩⟩
  · obtain ⟨m', e, _⟩ := add_raise hB.inv h hc
    have hr : r = (.raise, { w with m := m' }) := by
      show step B w (.add (some id)) = _
      simp only [step, e]
    rw [hr]
    exact ⟨⟨fun hx => (by cases hx), fun hx => absurd hx hc⟩, fun _ => rfl, fun hx => (by cases hx)⟩

/-- C36: removing a live batch (by position or by pointer) never fails, drops exactly that batch and
forgets exactly the variables no remaining live batch has; other removals raise and change nothing. -/
theorem C36_remove {deps : Nat → List Nat} {B : Nat → Batch V} (hB : Built deps B) (mem : Nat → V)
    (ops : List (Op V)) (ha : AddsReturn ops (run B mem ops).1) :
    let w := (run B mem ops).2
    (∀ idx, w.m.problems.length ≤ idx → step B w (.remove idx) = (.raise, w)) ∧
    (∀ idx, idx < w.m.problems.length →
      let r := step B w (.remove idx)
      r.1 = .ok () ∧ r.2.m.problems = w.m.problems.eraseIdx idx ∧ r.2.mem = w.mem ∧
      ∀ dv g, getGroupId r.2.m dv = .ok g ↔ Live B (w.m.problems.eraseIdx idx) dv g) ∧
    (∀ id, id ∉ w.m.problems → step B w (.removePtr id) = (.raise, w)) ∧
    (∀ id, id ∈ w.m.problems →
      let r := step B w (.removePtr id)
      r.1 = .ok () ∧ r.2.m.problems = w.m.problems.erase id ∧ r.2.mem = w.mem ∧
      ∀ dv g, getGroupId r.2.m dv = .ok g ↔ Live B (w.m.problems.erase id) dv g) := by
  intro w
  have h : MInv B w.m := run_inv hB mem ops ha
  clear_value w
  have key : ∀ idx, idx < w.m.problems.length →
      ∃ m', remove B w.m idx = (.ok (), m') ∧ m'.problems = w.m.problems.eraseIdx idx ∧
        ∀ dv g, getGroupId m' dv = .ok g ↔ Live B (w.m.problems.eraseIdx idx) dv g := by
    intro idx hi
    obtain ⟨m', e, hm, hp, _⟩ := remove_ok hB.inv h (List.getElem?_eq_getElem hi)
    refine ⟨m', e, hp, fun dv g => ?_⟩
    rw [group_iff, hm.live, hp]
  refine ⟨?_, ?_, ?_, ?_⟩
  · intro idx hi
    have : w.m.problems[idx]? = none := List.getElem?_eq_none hi
    simp only [step, remove, this]
  · intro idx hi
    obtain ⟨m', e, hp, hg⟩ := key idx hi
    simp only [step, e]
    exact ⟨trivial, hp, trivial, hg⟩
  · intro id hid
    simp only [step, removePtr, if_neg hid]
  · intro id hid
    obtain ⟨m', e, hp, hg⟩ := key _ (List.idxOf_lt_length_of_mem hid)
    have he : w.m.problems.eraseIdx (w.m.problems.idxOf id) = w.m.problems.erase id :=
      (List.erase_eq_eraseIdx_of_idxOf rfl).symm
    rw [he] at hp hg
    simp only [step, removePtr, if_pos hid, e]
    exact ⟨trivial, hp, trivial, hg⟩

/-- C36: the other calls do not add or drop batches; permuting the batches only reorders them. -/
theorem C36_other_calls (B : Nat → Batch V) (w : World V) (op : Op V) :
    (op = .clear → (step B w op).2.m.problems = []) ∧
    ((∃ p, op = .permuteProblems p) → (step B w op).2.m.problems.Perm w.m.problems) ∧
    ((∃ l, op = .setOrdering l) ∨ (∃ p g, op = .permuteDV p g) ∨ op = .save ∨ op = .restore ∨
      (∃ d v, op = .assign d v) → (step B w op).2.m.problems = w.m.problems) := by
  refine ⟨?_, ?_, ?_⟩
  · rintro rfl; rfl
  · rintro ⟨p, rfl⟩
    exact Batch.doPermute_perm p _
  · rintro (⟨l, rfl⟩ | ⟨p, g, rfl⟩ | rfl | rfl | ⟨d, v, rfl⟩)
    · simp only [step, setGroupsOrdering]
      split
      · rfl
      · split <;> rfl
    · simp only [step, permuteDesignVariables]
      split <;> rfl
    · rfl
    · rfl
    · rfl

/-- C36: a new ordering is accepted exactly when it is a permutation of the groups in use. -/
theorem C36_set_ordering {deps : Nat → List Nat} {B : Nat → Batch V} (hB : Built deps B) (mem : Nat → V)
    (ops : List (Op V)) (ha : AddsReturn ops (run B mem ops).1) (l : List Nat) :
    let w := (run B mem ops).2
    (l.Perm w.m.order → step B w (.setOrdering l) = (.ok (), { w with m := { w.m with order := l } })) ∧
    (¬ l.Perm w.m.order → step B w (.setOrdering l) = (.raise, w)) := by
  intro w
  have h : MInv B w.m := run_inv hB mem ops ha
  clear_value w
  have hacc := Batch.ordering_accepts h.c.grouped l
  constructor
  · intro hp
    obtain ⟨h1, h2⟩ := hacc.2 hp
    simp only [step, setGroupsOrdering]
    rw [if_neg (not_not.2 h1), if_pos h2]
  · intro hp
    simp only [step, setGroupsOrdering]
    by_cases h1 : l.length = w.m.order.length
    · rw [if_neg (not_not.2 h1), if_neg (fun hc => hp (hacc.1 ⟨h1, hc⟩))]
    · rw [if_pos h1]

/-! ### Concrete batches -/

/-- Batch 0: variables 10, 11 in group 5, term 100.  Batch 1: 11 in group 5 and 12 in group 7, term
101.  Batch 2: 11 in group 7 (clashes), 13 in group 9.  Others: 10 in group 5, terms 100 (shared
with batch 0). -/
def demoOps (id : Nat) : List (Batch.Op Int) :=
  if id = 0 then [.addDV (some 10) 5, .addDV (some 11) 5, .addET (some 100)]
  else if id = 1 then [.addDV (some 11) 5, .addDV (some 12) 7, .addET (some 101)]
  else if id = 2 then [.addDV (some 13) 9, .addDV (some 11) 7]
  else [.addDV (some 10) 5, .addET (some 100)]

def demoB (id : Nat) : Batch Int := (Batch.run (fun _ => []) (fun _ => 0) (demoOps id)).2.b

theorem demoBuilt : Built (fun _ => []) demoB := fun id => ⟨fun _ => 0, demoOps id, rfl⟩

/-- Two batches sharing variable 11; the first is removed: 10 is forgotten, 11 stays. -/
def demo : List (Op Int) := [.add (some 0), .add (some 1), .remove 7, .setOrdering [7, 5], .remove 0]

theorem demoAdds : AddsReturn demo (run demoB (fun _ => 0) demo).1 := by
  have : (run demoB (fun _ => 0) demo).1 = [.ok (), .ok (), .raise, .ok (), .ok ()] := by decide
  rw [this]
  intro i id h
  match i with
  | 0 => rfl
  | 1 => rfl
  | 2 => simp [demo] at h
  | 3 => simp [demo] at h
  | 4 => simp [demo] at h
  | n + 5 => simp [demo] at h

example : AddsReturn demo (run demoB (fun _ => 0) demo).1 ∧
    (List.range 3).map (designVariable (run demoB (fun _ => 0) demo).2.m) = [.ok 12, .ok 11, .raise] ∧
    isDesignVariableInProblem (run demoB (fun _ => 0) demo).2.m 10 = false ∧
    errorTerm demoB (run demoB (fun _ => 0) demo).2.m 0 = .ok 101 :=
  ⟨demoAdds, by decide, by decide, by decide⟩

/-- Hypotheses of `C36_lookup` and `C36_permute` are met: a group with two variables and one with none. -/
example : getDesignVariablesGroup (run demoB (fun _ => (0 : Int)) [.add (some 0), .add (some 1)]).2.m 5 = .ok [10, 11] ∧
    getDesignVariablesGroup (run demoB (fun _ => (0 : Int)) demo).2.m 99 = .raise ∧
    getGroupId (run demoB (fun _ => (0 : Int)) demo).2.m 10 = .raise ∧
    Permute.IsPermutation [1, 0] [10, 11].length := by
  refine ⟨by decide, by decide, by decide, by unfold Permute.IsPermutation; decide⟩

/-! ### Failed additions -/

/-- The observable state: live batches, variables with groups, flat lists, ordering. -/
def Same (m m' : Merged V) : Prop :=
  m.problems = m'.problems ∧ m.order = m'.order ∧ (∀ d, getGroupId m d = getGroupId m' d) ∧
  (∀ i, designVariable m i = designVariable m' i)

/-- C37 is false: after a rejected batch (group clash, or shared error term) variables of the
rejected batch are in the merged problem although no live batch has them, and a group that has no
variable can be in the ordering. -/
theorem C37_counterexample :
    (∃ w : World Int, w = (run demoB (fun _ => 0) [.add (some 0)]).2 ∧
      (step demoB w (.add (some 2))).1 = .raise ∧
      ¬ Same w.m (step demoB w (.add (some 2))).2.m ∧
      isDesignVariableInProblem (step demoB w (.add (some 2))).2.m 13 = true ∧
      (¬ ∃ g, Live demoB (step demoB w (.add (some 2))).2.m.problems 13 g) ∧
      (step demoB w (.add (some 2))).2.m.order = [5, 9, 7] ∧
      isGroupInProblem (step demoB w (.add (some 2))).2.m 7 = false) ∧
    -- a shared error term: removing the only live batch keeps variable 10 in the problem
    (∃ w : World Int, w = (run demoB (fun _ => 0) [.add (some 0), .add (some 3), .remove 0]).2 ∧
      (run demoB (fun _ => 0) [.add (some 0), .add (some 3), .remove 0]).1 = [.ok (), .raise, .ok ()] ∧
      w.m.problems = [] ∧ designVariable w.m 0 = .ok 10) := by
  refine ⟨⟨_, rfl, by decide, ?_, by decide, ?_, by decide, by decide⟩, ⟨_, rfl, by decide, by decide,
    by decide⟩⟩
  · intro h
    exact absurd (h.2.1) (by decide)
  · rintro ⟨g, id, hid, hg⟩
    have hp : (step demoB (run demoB (fun _ => 0) [.add (some 0)]).2 (.add (some 2))).2.m.problems = [0] := by
      decide
    rw [hp, List.mem_singleton] at hid
    subst hid
    have : Batch.getGroupId (demoB 0) 13 = .raise := by decide
    rw [this] at hg
    cases hg

theorem addVar_other (m : Merged V) (dv g : Nat) :
    (addVar m dv g).2.problems = m.problems ∧ (addVar m dv g).2.backup = m.backup := by
  unfold addVar
  by_cases hin : isGroupInProblem m g = true
  · simp only [hin]
    constructor <;> (simp only [Bool.not_true, Bool.false_eq_true, if_false]; split <;> [rfl; (split <;> rfl)])
  · rw [Bool.not_eq_true] at hin
    simp only [hin]
    constructor <;> (simp only [Bool.not_false, if_true]; split <;> [rfl; (split <;> rfl)])

theorem addLoop_other (b : Batch V) (n i : Nat) (m : Merged V) :
    (addLoop b n i m).2.problems = m.problems ∧ (addLoop b n i m).2.backup = m.backup := by
  induction n generalizing i m with
  | zero => exact ⟨rfl, rfl⟩
  | succ n ih =>
    simp only [addLoop]
    split
    · split
      · rename_i dv _ _ g _
        have hv := addVar_other m dv g
        rcases hr : addVar m dv g with ⟨o, m'⟩
        rw [hr] at hv
        cases o with
        | ok u =>
          simp only
          obtain ⟨h1, h2⟩ := ih (i + 1) m'
          exact ⟨h1.trans hv.1, h2.trans hv.2⟩
        | raise => exact hv
        | ub => exact hv
      · exact ⟨rfl, rfl⟩
      · exact ⟨rfl, rfl⟩
    · exact ⟨rfl, rfl⟩
    · exact ⟨rfl, rfl⟩

/-- C37, what does hold, in every state whatsoever: a rejected batch never becomes live, the live
batches, saved values and parameter values stay, and a null batch changes nothing at all.  Missing:
counters, groups and ordering (see `C37_counterexample`). -/
theorem C37_failed_add_partial (B : Nat → Batch V) (w : World V) (id : Option Nat)
    (hfail : (step B w (.add id)).1 ≠ .ok ()) :
    (step B w (.add id)).2.m.problems = w.m.problems ∧
    (step B w (.add id)).2.m.backup = w.m.backup ∧
    (step B w (.add id)).2.mem = w.mem ∧
    (id = none → step B w (.add id) = (.raise, w)) := by
  cases id with
  | none => exact ⟨rfl, rfl, rfl, fun _ => rfl⟩
  | some id =>
    have hl := addLoop_other (B id) (Batch.numDesignVariables (B id)) 0 w.m
    simp only [step, add] at hfail ⊢
    rcases hr : addLoop (B id) (Batch.numDesignVariables (B id)) 0 w.m with ⟨o, m'⟩
    rw [hr] at hl
    simp only [hr] at hfail ⊢
    cases o with
    | ok u =>
      simp only at hfail ⊢
      cases hc : checkTerms B m' (B id) (Batch.numErrorTerms (B id)) 0 with
      | ok u => simp only [hc] at hfail; exact absurd rfl hfail
      | raise => exact ⟨hl.1, hl.2, trivial, fun h => (by cases h)⟩
      | ub => exact ⟨hl.1, hl.2, trivial, fun h => (by cases h)⟩
    | raise => exact ⟨hl.1, hl.2, trivial, fun h => (by cases h)⟩
    | ub => exact ⟨hl.1, hl.2, trivial, fun h => (by cases h)⟩

example : (step demoB (run demoB (fun _ => 0) [.add (some 0)]).2 (.add (some 2))).1 ≠ .ok () := by
  decide

/-! ### Saved values -/

/-- C62 (partial): after a history without `clear` whose additions returned, saving, letting anything
write to the parameters and restoring gives every variable of the merged problem its saved value and
leaves all other parameters alone.  Missing: histories with `clear` (see `C62_counterexample`). -/
theorem C62_save_restore_partial {deps : Nat → List Nat} {B : Nat → Batch V} (hB : Built deps B)
    (mem : Nat → V) (ops : List (Op V)) (ha : AddsReturn ops (run B mem ops).1) (hc : .clear ∉ ops)
    (writes : List (Nat × V)) :
    let w := (run B mem ops).2
    let w1 := (step B w .save).2
    let w2 := (runFrom B w1 (writes.map fun e => .assign e.1 e.2)).2
    let w3 := (step B w2 .restore).2
    ∀ dv, w3.mem dv = if isDesignVariableInProblem w.m dv then w.mem dv else w2.mem dv := by
  intro w w1 w2 w3 dv
  have h : MInv B w.m := run_inv hB mem ops ha
  have hs : NoStale w.m := runFrom_noStale hB.inv (MInv.empty B) (by intro d v hd; cases hd) ops ha hc
  have h1 : MInv B w1.m := h.step hB.inv .save (by intro id hid; cases hid)
  have hb : w2.m = w1.m := by
    have : ∀ (l : List (Nat × V)) (x : World V),
        (runFrom B x (l.map fun e => .assign e.1 e.2)).2.m = x.m := by
      intro l
      induction l with
      | nil => intro x; rfl
      | cons e l ih =>
        intro x
        rw [List.map_cons]
        simp only [runFrom]
        rw [ih]
        rfl
    exact this writes w1
  show restoreDesignVariables w2.m w2.mem dv = _
  rw [hb]
  unfold restoreDesignVariables
  rw [Batch.restoreFold h1.bwf]
  have hf : w1.m.backup.find dv = if dv ∈ FMap.keys w.m.counts then some (w.mem dv)
      else w.m.backup.find dv := Batch.find_saveFold _ _ _ _
  rw [hf]
  unfold isDesignVariableInProblem
  by_cases hk : dv ∈ FMap.keys w.m.counts
  · obtain ⟨g, hg⟩ := FMap.mem_keys.1 hk
    rw [if_pos hk, hg]
    rfl
  · rw [if_neg hk]
    have hn : w.m.counts.find dv = none := FMap.find_none_of_notMem hk
    have hbn : w.m.backup.find dv = none := by
      cases hcv : w.m.backup.find dv with
      | none => rfl
      | some v =>
        obtain ⟨g, hg⟩ := hs dv v hcv
        unfold groupOf at hg
        rw [hn] at hg; cases hg
    rw [hbn, hn]
    rfl

/-- Hypotheses of `C62_save_restore_partial` are met. -/
example : AddsReturn demo (run demoB (fun _ => 0) demo).1 ∧ Op.clear ∉ demo :=
  ⟨demoAdds, by simp [demo]⟩

/-- C62 is false after `clear`: restoring writes the old value into a parameter that is not in the
problem any more. -/
theorem C62_counterexample :
    ∃ ops : List (Op Int), AddsReturn ops (run demoB (fun _ => 0) ops).1 ∧
      let w := (run demoB (fun _ => 0) ops).2
      isDesignVariableInProblem w.m 10 = false ∧ w.mem 10 = 8 ∧
      (step demoB (step demoB w .save).2 .restore).2.mem 10 = 0 := by
  refine ⟨[.add (some 0), .save, .clear, .assign 10 8, .add (some 1)], ?_, by decide, by decide, by decide⟩
  have : (run demoB (fun _ => 0) [.add (some 0), .save, .clear, .assign 10 8, .add (some 1)]).1 =
      [.ok (), .ok (), .ok (), .ok (), .ok ()] := by decide
  rw [this]
  intro i id h
  match i with
  | 0 => rfl
  | 1 => rfl
  | 2 => rfl
  | 3 => rfl
  | 4 => rfl
  | n + 5 => simp at h

end Kalibr.Merged
