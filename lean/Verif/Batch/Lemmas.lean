import Verif.Batch.Grouped

/-! Invariant of a batch problem over all histories. -/

namespace Kalibr.Batch

variable {V : Type}

/-- Saving: fold over the entries of a map. -/
theorem find_saveFold {W : Type} (l : FMap Nat W) (mem : Nat → V) (k0 : FMap Nat V) (d : Nat) :
    FMap.find (l.foldl (fun k e => FMap.set k e.1 (mem e.1)) k0) d =
      if d ∈ FMap.keys l then some (mem d) else FMap.find k0 d := by
  induction l generalizing k0 with
  | nil => simp [FMap.keys]
  | cons e l ih =>
    rw [List.foldl_cons, ih, FMap.find_set]
    have hk : d ∈ FMap.keys (e :: l) ↔ d = e.1 ∨ d ∈ FMap.keys l := by
      unfold FMap.keys; rw [List.map_cons, List.mem_cons]
    by_cases h1 : d ∈ FMap.keys l
    · rw [if_pos h1, if_pos (hk.2 (Or.inr h1))]
    · by_cases h2 : d = e.1
      · rw [if_neg h1, if_pos h2, if_pos (hk.2 (Or.inl h2)), h2]
      · rw [if_neg h1, if_neg h2, if_neg (fun hc => (hk.1 hc).elim h2 h1)]

theorem wf_saveFold {W : Type} (l : FMap Nat W) (mem : Nat → V) {k0 : FMap Nat V} (h : k0.WF) :
    FMap.WF (l.foldl (fun k e => FMap.set k e.1 (mem e.1)) k0) := by
  induction l generalizing k0 with
  | nil => exact h
  | cons e l ih => exact ih (FMap.wf_set h _ _)

/-- Restoring: every saved variable gets its saved value, nothing else changes. -/
theorem restoreFold {l : FMap Nat V} (h : l.WF) (mem : Nat → V) (d : Nat) :
    l.foldl (fun m e => Function.update m e.1 e.2) mem d = (l.find d).getD (mem d) := by
  induction l generalizing mem with
  | nil => rfl
  | cons e l ih =>
    unfold FMap.WF at h
    rw [List.map_cons, List.nodup_cons] at h
    rw [List.foldl_cons, ih h.2, FMap.find_cons]
    by_cases hd : e.1 = d
    · rw [if_pos hd]
      have : FMap.find l d = none := FMap.find_none_of_notMem (hd ▸ h.1)
      rw [this]
      subst hd
      simp
    · rw [if_neg hd, Function.update_of_ne (fun hc => hd hc.symm)]

structure Inv (deps : Nat → List Nat) (b : Batch V) : Prop where
  wf : b.lookup.WF
  grouped : Grouped b.lookup.find b.groups b.order
  ets : b.ets.Perm b.etLookup
  etNodup : b.etLookup.Nodup
  closed : ∀ et ∈ b.etLookup, ∀ dv ∈ deps et, ∃ g, b.lookup.find dv = some g
  bwf : b.backup.WF
  backup : ∀ dv v, b.backup.find dv = some v → ∃ g, b.lookup.find dv = some g

theorem Inv.empty (deps : Nat → List Nat) : Inv deps (Batch.empty : Batch V) := by
  refine ⟨FMap.wf_nil, ?_, List.Perm.refl _, List.nodup_nil, by simp [Batch.empty], FMap.wf_nil,
    by simp [Batch.empty]⟩
  exact Grouped.empty.congr (fun d => rfl)

theorem Inv.step {deps : Nat → List Nat} {w : World V} (h : Inv deps w.b) (op : Op V) :
    Inv deps (step deps w op).2.b := by
  cases op with
  | addDV dv g =>
    cases dv with
    | none => exact h
    | some dv =>
      simp only [Batch.step, addDesignVariable, isDesignVariableInProblem, isGroupInProblem]
      rcases Option.eq_none_or_eq_some (w.b.lookup.find dv) with hf | ⟨g', hf⟩
      swap
      · simpa [hf] using h
      · simp only [hf, Option.isSome_none, Bool.false_eq_true, if_false]
        have hmono : ∀ d g', w.b.lookup.find d = some g' →
            (w.b.lookup.set dv g).find d = some g' := by
          intro d g' hd
          rw [FMap.find_set, if_neg]
          · exact hd
          · rintro rfl; rw [hf] at hd; cases hd
        refine ⟨FMap.wf_set h.wf _ _, ?_, h.ets, h.etNodup, ?_, h.bwf, ?_⟩
        · exact (h.grouped.add hf).congr (fun d => (FMap.find_set _ _ _ _).symm)
        · intro et het d hd
          obtain ⟨g', hg'⟩ := h.closed et het d hd
          exact ⟨g', hmono d g' hg'⟩
        · intro d v hd
          obtain ⟨g', hg'⟩ := h.backup d v hd
          exact ⟨g', hmono d g' hg'⟩
  | addET et =>
    cases et with
    | none => exact h
    | some et =>
      simp only [Batch.step, addErrorTerm, isErrorTermInProblem]
      by_cases hin : et ∈ w.b.etLookup
      · simpa [hin] using h
      · simp only [hin, decide_false, Bool.false_eq_true, if_false]
        split
        · rename_i hall
          refine ⟨h.wf, h.grouped, ?_, ?_, ?_, h.bwf, h.backup⟩
          · simp only
            exact (List.perm_append_singleton et w.b.ets).trans (h.ets.cons et)
          · exact List.nodup_cons.2 ⟨hin, h.etNodup⟩
          · intro e he d hd
            simp only [List.mem_cons] at he
            rcases he with rfl | he
            · rw [List.all_eq_true] at hall
              have := hall d hd
              unfold isDesignVariableInProblem at this
              exact Option.isSome_iff_exists.1 this
            · exact h.closed e he d hd
        · exact h
  | setOrdering l =>
    simp only [Batch.step, setGroupsOrdering]
    split
    · exact h
    · split
      · rename_i hlen hc
        have hp := (ordering_accepts h.grouped l).1 ⟨not_not.1 hlen, hc⟩
        exact ⟨h.wf, h.grouped.reorder hp, h.ets, h.etNodup, h.closed, h.bwf, h.backup⟩
      · exact h
  | permuteDV p g =>
    simp only [Batch.step, permuteDesignVariables]
    split
    · exact h
    · rename_i l hl
      exact ⟨h.wf, h.grouped.permuteGroup hl (doPermute_perm p l), h.ets, h.etNodup, h.closed, h.bwf,
        h.backup⟩
  | permuteET p =>
    simp only [Batch.step, permuteErrorTerms]
    exact ⟨h.wf, h.grouped, (doPermute_perm p w.b.ets).trans h.ets, h.etNodup, h.closed, h.bwf,
      h.backup⟩
  | save =>
    simp only [Batch.step, saveDesignVariables]
    refine ⟨h.wf, h.grouped, h.ets, h.etNodup, h.closed, wf_saveFold _ _ h.bwf, ?_⟩
    intro dv v hv
    rw [find_saveFold] at hv
    split at hv
    · rename_i hk; exact FMap.mem_keys.1 hk
    · exact h.backup dv v hv
  | restore => exact h
  | clear => exact Inv.empty deps
  | assign dv v => exact h

theorem runFrom_inv {deps : Nat → List Nat} {w : World V} (h : Inv deps w.b) (ops : List (Op V)) :
    Inv deps (runFrom deps w ops).2.b := by
  induction ops generalizing w with
  | nil => exact h
  | cons op ops ih => exact ih (h.step op)

theorem run_inv (deps : Nat → List Nat) (mem : Nat → V) (ops : List (Op V)) :
    Inv deps (run deps mem ops).2.b := runFrom_inv (Inv.empty deps) ops

theorem numDV_eq {deps : Nat → List Nat} {b : Batch V} (h : Inv deps b) :
    numDesignVariables b = (flat b.groups b.order).length := by
  unfold numDesignVariables
  exact FMap.length_eq_of_mem h.wf (flat_nodup h.grouped) (mem_flat h.grouped)

theorem designVariable_eq {deps : Nat → List Nat} {b : Batch V} (h : Inv deps b) (idx : Nat) :
    designVariable b idx =
      match (flat b.groups b.order)[idx]? with
      | some dv => .ok dv
      | none => .raise := by
  unfold designVariable
  rw [numDV_eq h]
  by_cases hi : (flat b.groups b.order).length ≤ idx
  · rw [if_pos hi, List.getElem?_eq_none hi]
  · rw [if_neg hi]
    obtain ⟨g, l, i, h1, h2, h3, h4, h5⟩ := locate_ok (groups := b.groups) (idx := idx)
      (order := b.order) (run := 0) (fun g hg => (h.grouped.mem_order g).1 hg) (by omega) (by omega)
    rw [h1]
    simp only [Out.ok_bind, h3]
    rw [Nat.sub_zero] at h5
    rw [← h5, List.getElem?_eq_getElem h4]

end Kalibr.Batch
