import Verif.Merged.Spec
import Verif.Batch.Lemmas

/-! Invariants of the merged problem. -/

namespace Kalibr.Merged

open Kalibr.Batch (Batch Grouped flat)

variable {V : Type}

/-- The group recorded for a variable. -/
def groupOf (m : Merged V) (d : Nat) : Option Nat := (m.counts.find d).map (·.2)

/-- The counter recorded for a variable (0 when absent). -/
def countOf (m : Merged V) (d : Nat) : Nat := ((m.counts.find d).map (·.1)).getD 0

/-- Counters equal `occ`, and the grouped storage agrees with the counted variables. -/
structure CInv (m : Merged V) (occ : Nat → Nat) : Prop where
  wf : m.counts.WF
  cnt : ∀ d, countOf m d = occ d
  pos : ∀ d c g, m.counts.find d = some (c, g) → 0 < c
  grouped : Grouped (groupOf m) m.groups m.order

theorem CInv.present {m : Merged V} {occ : Nat → Nat} (h : CInv m occ) (d : Nat) :
    0 < occ d ↔ ∃ g, groupOf m d = some g := by
  rw [← h.cnt]
  unfold countOf groupOf
  cases hf : m.counts.find d with
  | none => simp
  | some e =>
    obtain ⟨c, g⟩ := e
    simpa using h.pos d c g hf

theorem CInv.absent {m : Merged V} {occ : Nat → Nat} (h : CInv m occ) (d : Nat) :
    occ d = 0 ↔ groupOf m d = none := by
  have := h.present d
  cases hg : groupOf m d with
  | none =>
    rw [hg] at this
    simp at this
    simp [this]
  | some g =>
    have h2 := this.2 ⟨g, hg⟩
    constructor
    · intro h3; omega
    · intro h3; cases h3

theorem addVar_ok {m : Merged V} {occ : Nat → Nat} (h : CInv m occ) {dv g : Nat}
    (hc : groupOf m dv = none ∨ groupOf m dv = some g) :
    ∃ m', addVar m dv g = (.ok (), m') ∧
      CInv m' (fun d => if d = dv then occ d + 1 else occ d) ∧
      (∀ d, groupOf m' d = if d = dv then some g else groupOf m d) ∧
      m'.problems = m.problems ∧ m'.backup = m.backup := by
  unfold addVar
  rcases Option.eq_none_or_eq_some (m.counts.find dv) with hf | ⟨⟨c, g'⟩, hf⟩
  · have hnew : groupOf m dv = none := by unfold groupOf; rw [hf]; rfl
    have hadd := h.grouped.add (g := g) hnew
    have hfind : (if !isGroupInProblem m g then { m with order := m.order ++ [g] } else m).counts.find dv
        = none := by split <;> exact hf
    simp only [hfind]
    have hocc : occ dv = 0 := (h.absent dv).2 hnew
    have hgrp : ∀ d, ((m.counts.set dv (1, g)).find d).map (·.2) =
        if d = dv then some g else groupOf m d := by
      intro d
      rw [FMap.find_set]
      split
      · rfl
      · rfl
    have hcnt : ∀ d, (((m.counts.set dv (1, g)).find d).map (·.1)).getD 0 =
        if d = dv then occ d + 1 else occ d := by
      intro d
      rw [FMap.find_set]
      split
      · rename_i hd; rw [hd, hocc]; rfl
      · exact h.cnt d
    have hpos : ∀ d c' g', (m.counts.set dv (1, g)).find d = some (c', g') → 0 < c' := by
      intro d c' g' hd
      rw [FMap.find_set] at hd
      split at hd
      · cases hd; omega
      · exact h.pos d c' g' hd
    by_cases hin : isGroupInProblem m g = true
    · refine ⟨_, rfl, ?_, ?_, ?_, ?_⟩
      · simp only [hin]
        refine ⟨FMap.wf_set h.wf _ _, hcnt, hpos, ?_⟩
        unfold isGroupInProblem at hin
        simp only [hin] at hadd
        exact Grouped.congr hadd (fun d => (hgrp d).symm)
      · intro d; simp only [hin]; exact hgrp d
      · simp [hin]
      · simp [hin]
    · rw [Bool.not_eq_true] at hin
      refine ⟨_, rfl, ?_, ?_, ?_, ?_⟩
      · simp only [hin]
        refine ⟨FMap.wf_set h.wf _ _, hcnt, hpos, ?_⟩
        unfold isGroupInProblem at hin
        simp only [hin] at hadd
        exact Grouped.congr hadd (fun d => (hgrp d).symm)
      · intro d; simp only [hin]; exact hgrp d
      · simp [hin]
      · simp [hin]
  · have hg' : groupOf m dv = some g' := by unfold groupOf; rw [hf]; rfl
    have hgg : g' = g := by
      rcases hc with hc | hc
      · rw [hg'] at hc; cases hc
      · rw [hg'] at hc; cases hc; rfl
    subst hgg
    obtain ⟨l, hl⟩ := h.grouped.has_grp dv g' hg'
    have hin : isGroupInProblem m g' = true := by unfold isGroupInProblem; rw [hl]; rfl
    simp only [hin, Bool.not_true, Bool.false_eq_true, if_false, hf]
    have hgrp : ∀ d, ((m.counts.set dv (c + 1, g')).find d).map (·.2) =
        if d = dv then some g' else groupOf m d := by
      intro d
      rw [FMap.find_set]
      split <;> rfl
    have hcd : c = occ dv := by rw [← h.cnt dv]; unfold countOf; rw [hf]; rfl
    refine ⟨{ m with counts := m.counts.set dv (c + 1, g') }, by simp, ?_, hgrp, rfl, rfl⟩
    refine ⟨FMap.wf_set h.wf _ _, ?_, ?_, ?_⟩
    · intro d
      unfold countOf
      simp only
      rw [FMap.find_set]
      by_cases hd : d = dv
      · rw [if_pos hd, if_pos hd, hd, ← hcd]; rfl
      · rw [if_neg hd, if_neg hd]; exact h.cnt d
    · intro d c' g'' hd
      simp only at hd
      rw [FMap.find_set] at hd
      split at hd
      · cases hd; omega
      · exact h.pos d c' g'' hd
    · refine h.grouped.congr ?_
      intro d
      refine Eq.trans ?_ (hgrp d).symm
      split
      · rename_i hd; rw [hd, hg']
      · rfl

theorem addVar_raise {m : Merged V} {dv g g' : Nat}
    (hc : groupOf m dv = some g') (hne : g' ≠ g) :
    ∃ m', addVar m dv g = (.raise, m') ∧ m'.problems = m.problems ∧ m'.backup = m.backup ∧
      m'.counts = m.counts ∧ m'.groups = m.groups := by
  unfold groupOf at hc
  rcases Option.eq_none_or_eq_some (m.counts.find dv) with hf | ⟨⟨c, g''⟩, hf⟩
  · rw [hf] at hc; cases hc
  · rw [hf] at hc
    have hg : g'' = g' := by simpa using hc
    subst hg
    unfold addVar
    have hfind : (if !isGroupInProblem m g then { m with order := m.order ++ [g] } else m).counts.find dv
        = some (c, g'') := by split <;> exact hf
    simp only [hfind]
    rw [if_pos hne]
    refine ⟨_, rfl, ?_, ?_, ?_, ?_⟩ <;> split <;> rfl

/-- The loop of `add` as a recursion over the listed variables. -/
def addList : List (Nat × Nat) → Merged V → Out Unit × Merged V
  | [], m => (.ok (), m)
  | e :: l, m =>
    match addVar m e.1 e.2 with
    | (.ok _, m) => addList l m
    | r => r

/-- Variables of a batch with their groups, in flat order. -/
def vars (b : Batch V) : List (Nat × Nat) :=
  (flat b.groups b.order).map fun d => (d, (b.lookup.find d).getD 0)

theorem vars_fst (b : Batch V) : (vars b).map (·.1) = flat b.groups b.order := by
  unfold vars; rw [List.map_map]; exact List.map_id' _

theorem mem_vars {deps} {b : Batch V} (h : Batch.Inv deps b) (d g : Nat) :
    (d, g) ∈ vars b ↔ b.lookup.find d = some g := by
  unfold vars
  rw [List.mem_map]
  constructor
  · rintro ⟨x, hx, he⟩
    obtain ⟨g', hg⟩ := (Batch.mem_flat h.grouped x).1 hx
    rw [hg] at he
    cases he
    exact hg
  · intro hg
    exact ⟨d, (Batch.mem_flat h.grouped d).2 ⟨g, hg⟩, by rw [hg]; rfl⟩

theorem addLoop_eq {deps} {b : Batch V} (h : Batch.Inv deps b) (n i : Nat)
    (hn : n + i = (vars b).length) (m : Merged V) :
    addLoop b n i m = addList ((vars b).drop i) m := by
  induction n generalizing i m with
  | zero => rw [List.drop_of_length_le (by omega)]; rfl
  | succ n ih =>
    have hi : i < (vars b).length := by omega
    have hfl : (flat b.groups b.order).length = (vars b).length := by rw [← vars_fst]; simp
    have hif : i < (flat b.groups b.order).length := by omega
    rw [List.drop_eq_getElem_cons hi]
    simp only [addLoop, addList]
    rw [Batch.designVariable_eq h, List.getElem?_eq_getElem hif]
    have hv : (vars b)[i] = ((flat b.groups b.order)[i],
        (b.lookup.find (flat b.groups b.order)[i]).getD 0) := by
      simp [vars]
    obtain ⟨g, hg⟩ := (Batch.mem_flat h.grouped _).1 (List.getElem_mem hif)
    have hgid : Batch.getGroupId b (flat b.groups b.order)[i] = .ok g := by
      unfold Batch.getGroupId; rw [hg]
    simp only [hgid]
    rw [hv, hg]
    simp only [Option.getD_some]
    rcases addVar m (flat b.groups b.order)[i] g with ⟨o, m'⟩
    cases o with
    | ok u => exact ih (i + 1) (by omega) m'
    | raise => rfl
    | ub => rfl

/-- Adding a list of variables with compatible groups. -/
theorem addList_ok {m : Merged V} {occ : Nat → Nat} (h : CInv m occ) {l : List (Nat × Nat)}
    (hnd : (l.map (·.1)).Nodup)
    (hc : ∀ d g, (d, g) ∈ l → groupOf m d = none ∨ groupOf m d = some g) :
    ∃ m', addList l m = (.ok (), m') ∧
      CInv m' (fun d => if d ∈ l.map (·.1) then occ d + 1 else occ d) ∧
      (∀ d g, (d, g) ∈ l → groupOf m' d = some g) ∧
      (∀ d, d ∉ l.map (·.1) → groupOf m' d = groupOf m d) ∧
      m'.problems = m.problems ∧ m'.backup = m.backup := by
  induction l generalizing m occ with
  | nil => exact ⟨m, rfl, by simpa using h, by simp, by simp, rfl, rfl⟩
  | cons e l ih =>
    obtain ⟨dv, g⟩ := e
    rw [List.map_cons, List.nodup_cons] at hnd
    obtain ⟨m1, e1, c1, g1, p1, b1⟩ := addVar_ok h (hc dv g (by simp))
    obtain ⟨m2, e2, c2, g2, g2', p2, b2⟩ := ih c1 hnd.2 (by
      intro d g' hm
      rw [g1]
      have hne : d ≠ dv := by
        rintro rfl
        exact hnd.1 (List.mem_map.2 ⟨_, hm, rfl⟩)
      rw [if_neg hne]
      exact hc d g' (by simp [hm]))
    refine ⟨m2, ?_, ?_, ?_, ?_, p2.trans p1, b2.trans b1⟩
    · simp only [addList, e1, e2]
    · convert c2 using 1
      funext d
      simp only [List.map_cons, List.mem_cons]
      by_cases hd : d = dv
      · subst hd
        rw [if_pos (Or.inl rfl), if_neg hnd.1, if_pos rfl]
      · simp only [hd, false_or, if_false]
    · intro d g' hm
      simp only [List.mem_cons] at hm
      rcases hm with hm | hm
      · simp only [Prod.mk.injEq] at hm
        obtain ⟨rfl, rfl⟩ := hm
        rw [g2' d hnd.1, g1, if_pos rfl]
      · exact g2 d g' hm
    · intro d hd
      simp only [List.map_cons, List.mem_cons, not_or] at hd
      rw [g2' d hd.2, g1, if_neg hd.1]

/-- An incompatible group is detected. -/
theorem addList_raise {m : Merged V} {occ : Nat → Nat} (h : CInv m occ) {l : List (Nat × Nat)}
    (hnd : (l.map (·.1)).Nodup)
    (hc : ∃ d g g', (d, g) ∈ l ∧ groupOf m d = some g' ∧ g' ≠ g) :
    ∃ m', addList l m = (.raise, m') ∧ m'.problems = m.problems ∧ m'.backup = m.backup := by
  induction l generalizing m occ with
  | nil => obtain ⟨d, g, g', hm, _⟩ := hc; simp at hm
  | cons e l ih =>
    obtain ⟨dv, g⟩ := e
    rw [List.map_cons, List.nodup_cons] at hnd
    by_cases hbad : ∃ g', groupOf m dv = some g' ∧ g' ≠ g
    · obtain ⟨g', hg', hne⟩ := hbad
      obtain ⟨m', e1, p1, b1, _, _⟩ := addVar_raise hg' hne
      exact ⟨m', by simp only [addList, e1], p1, b1⟩
    · have hok : groupOf m dv = none ∨ groupOf m dv = some g := by
        cases hg : groupOf m dv with
        | none => left; rfl
        | some g' =>
          right
          by_contra hc
          exact hbad ⟨g', hg, fun he => hc (by rw [he])⟩
      obtain ⟨m1, e1, c1, g1, p1, b1⟩ := addVar_ok h hok
      obtain ⟨d, g2, g', hm, hg', hne⟩ := hc
      have hdm : (d, g2) ∈ l := by
        simp only [List.mem_cons] at hm
        rcases hm with hm | hm
        · cases hm; exact absurd ⟨g', hg', hne⟩ hbad
        · exact hm
      have hd : d ≠ dv := by
        rintro rfl
        exact hnd.1 (List.mem_map.2 ⟨_, hdm, rfl⟩)
      obtain ⟨m2, e2, p2, b2⟩ := ih c1 hnd.2 ⟨d, g2, g', hdm, by rw [g1, if_neg hd]; exact hg', hne⟩
      exact ⟨m2, by simp only [addList, e1, e2], p2.trans p1, b2.trans b1⟩

theorem removeVar_ok {m : Merged V} {occ : Nat → Nat} (h : CInv m occ) {dv : Nat} (hocc : 0 < occ dv) :
    ∃ m', removeVar m dv = (.ok (), m') ∧
      CInv m' (fun d => if d = dv then occ d - 1 else occ d) ∧
      (∀ d, groupOf m' d = if d = dv ∧ occ dv = 1 then none else groupOf m d) ∧
      m'.problems = m.problems ∧
      (∀ d, m'.backup.find d = if d = dv ∧ occ dv = 1 then none else m.backup.find d) ∧
      (m.backup.WF → m'.backup.WF) := by
  obtain ⟨g, hg⟩ := (h.present dv).1 hocc
  have hf : ∃ c, m.counts.find dv = some (c, g) := by
    unfold groupOf at hg
    cases hf : m.counts.find dv with
    | none => rw [hf] at hg; cases hg
    | some e =>
      rw [hf] at hg
      obtain ⟨c, g'⟩ := e
      cases hg
      exact ⟨c, rfl⟩
  obtain ⟨c, hf⟩ := hf
  have hc : c = occ dv := by rw [← h.cnt dv]; unfold countOf; rw [hf]; rfl
  subst hc
  have hdec : dec (occ dv) = occ dv - 1 := by unfold dec; rw [if_neg (by omega)]
  unfold removeVar
  rw [hf]
  simp only [Option.getD_some, hdec]
  by_cases h1 : occ dv = 1
  · rw [if_neg (by omega)]
    obtain ⟨l, hl⟩ := h.grouped.has_grp dv g hg
    have hmem : dv ∈ l := (h.grouped.mem_grp g l hl dv).2 hg
    have hord : g ∈ m.order := (h.grouped.mem_order g).2 ⟨l, hl⟩
    have hcf : ∀ d, ((m.counts.set dv (occ dv - 1, g)).erase dv).find d =
        if d = dv then none else m.counts.find d := by
      intro d
      rw [FMap.find_erase, FMap.find_set]
      split <;> rfl
    have hgrp : ∀ d, (((m.counts.set dv (occ dv - 1, g)).erase dv).find d).map (·.2) =
        if d = dv then none else groupOf m d := by
      intro d
      rw [hcf]
      split <;> rfl
    have hcnt : ∀ d, ((((m.counts.set dv (occ dv - 1, g)).erase dv).find d).map (·.1)).getD 0 =
        if d = dv then occ d - 1 else occ d := by
      intro d
      rw [hcf]
      split
      · rename_i hd; rw [hd]; simp only [Option.map_none, Option.getD_none]; omega
      · exact h.cnt d
    have hpos : ∀ d c' g', ((m.counts.set dv (occ dv - 1, g)).erase dv).find d = some (c', g') →
        0 < c' := by
      intro d c' g' hd
      rw [hcf] at hd
      split at hd
      · cases hd
      · exact h.pos d c' g' hd
    have hwf := FMap.wf_erase (FMap.wf_set h.wf dv (occ dv - 1, g)) dv
    rw [hl]
    simp only [Option.getD_some, hmem, if_true, h1, and_true]
    rw [h1] at hgrp hcnt hpos hwf
    by_cases hne : l.erase dv = []
    · rw [if_pos hne, if_pos hord]
      refine ⟨_, rfl, ⟨hwf, hcnt, hpos, ?_⟩, hgrp, rfl, ?_, fun hb => FMap.wf_erase hb dv⟩
      · exact (h.grouped.removeGroup hl hg hne).congr (fun d => (hgrp d).symm)
      · intro d; simp only; rw [FMap.find_erase]
    · rw [if_neg hne]
      refine ⟨_, rfl, ⟨hwf, hcnt, hpos, ?_⟩, hgrp, rfl, ?_, fun hb => FMap.wf_erase hb dv⟩
      · exact (h.grouped.removeVar hl hg hne).congr (fun d => (hgrp d).symm)
      · intro d; simp only; rw [FMap.find_erase]
  · rw [if_pos (by omega)]
    have hgrp : ∀ d, ((m.counts.set dv (occ dv - 1, g)).find d).map (·.2) = groupOf m d := by
      intro d
      rw [FMap.find_set]
      split
      · rename_i hd; rw [hd, hg]; rfl
      · rfl
    refine ⟨_, rfl, ⟨FMap.wf_set h.wf _ _, ?_, ?_, ?_⟩, ?_, rfl, ?_, fun hb => hb⟩
    · intro d
      unfold countOf
      simp only
      rw [FMap.find_set]
      by_cases hd : d = dv
      · rw [if_pos hd, if_pos hd, hd]; rfl
      · rw [if_neg hd, if_neg hd]; exact h.cnt d
    · intro d c' g' hd
      simp only at hd
      rw [FMap.find_set] at hd
      split at hd
      · cases hd; omega
      · exact h.pos d c' g' hd
    · exact h.grouped.congr (fun d => (hgrp d).symm)
    · intro d
      simp only [h1, and_false, if_false]
      exact hgrp d
    · intro d
      simp only [h1, and_false, if_false]

/-- The loop of `remove` as a recursion over the listed variables. -/
def removeList : List Nat → Merged V → Out Unit × Merged V
  | [], m => (.ok (), m)
  | dv :: l, m =>
    match removeVar m dv with
    | (.ok _, m) => removeList l m
    | r => r

theorem removeLoop_eq {deps} {b : Batch V} (h : Batch.Inv deps b) (n i : Nat)
    (hn : n + i = (flat b.groups b.order).length) (m : Merged V) :
    removeLoop b n i m = removeList ((flat b.groups b.order).drop i) m := by
  induction n generalizing i m with
  | zero => rw [List.drop_of_length_le (by omega)]; rfl
  | succ n ih =>
    have hi : i < (flat b.groups b.order).length := by omega
    rw [List.drop_eq_getElem_cons hi]
    simp only [removeLoop, removeList]
    rw [Batch.designVariable_eq h, List.getElem?_eq_getElem hi]
    simp only
    rcases removeVar m (flat b.groups b.order)[i] with ⟨o, m'⟩
    cases o with
    | ok u => exact ih (i + 1) (by omega) m'
    | raise => rfl
    | ub => rfl

theorem removeList_ok {m : Merged V} {occ : Nat → Nat} (h : CInv m occ) {l : List Nat}
    (hnd : l.Nodup) (hocc : ∀ d ∈ l, 0 < occ d) :
    ∃ m', removeList l m = (.ok (), m') ∧
      CInv m' (fun d => if d ∈ l then occ d - 1 else occ d) ∧
      (∀ d, groupOf m' d = if d ∈ l ∧ occ d = 1 then none else groupOf m d) ∧
      m'.problems = m.problems ∧
      (∀ d, m'.backup.find d = if d ∈ l ∧ occ d = 1 then none else m.backup.find d) ∧
      (m.backup.WF → m'.backup.WF) := by
  induction l generalizing m occ with
  | nil => exact ⟨m, rfl, by simpa using h, by simp, rfl, by simp, fun h => h⟩
  | cons dv l ih =>
    rw [List.nodup_cons] at hnd
    obtain ⟨m1, e1, c1, g1, p1, b1, w1⟩ := removeVar_ok h (hocc dv (by simp))
    have hne : ∀ d ∈ l, d ≠ dv := by rintro d hd rfl; exact hnd.1 hd
    obtain ⟨m2, e2, c2, g2, p2, b2, w2⟩ := ih c1 hnd.2 (by
      intro d hd
      rw [if_neg (hne d hd)]
      exact hocc d (by simp [hd]))
    have hcond : ∀ {α : Type} (d : Nat) (x : α) (y : Option α),
        (if d ∈ l ∧ (if d = dv then occ d - 1 else occ d) = 1 then none
          else if d = dv ∧ occ dv = 1 then none else y) =
        if d ∈ dv :: l ∧ occ d = 1 then none else y := by
      intro α d x y
      by_cases hd : d = dv
      · subst hd
        simp [hnd.1]
      · simp [hd]
    refine ⟨m2, ?_, ?_, ?_, p2.trans p1, ?_, fun hb => w2 (w1 hb)⟩
    · simp only [removeList, e1, e2]
    · convert c2 using 1
      funext d
      by_cases hd : d = dv
      · subst hd; simp [hnd.1]
      · simp [hd]
    · intro d
      rw [g2, g1]
      exact hcond d 0 _
    · intro d
      rw [b2, b1]
      by_cases hd : d = dv
      · subst hd; simp [hnd.1]
      · simp [hd]

/-- Number of live batches that contain the variable. -/
def occOf (B : Nat → Batch V) (ids : List Nat) (d : Nat) : Nat :=
  ids.countP fun id => ((B id).lookup.find d).isSome

/-- All error terms of the live batches. -/
def terms (B : Nat → Batch V) (ids : List Nat) : List Nat := ids.flatMap fun id => (B id).ets

structure MInv (B : Nat → Batch V) (m : Merged V) : Prop where
  c : CInv m (occOf B m.problems)
  grp : ∀ id ∈ m.problems, ∀ d g, (B id).lookup.find d = some g → groupOf m d = some g
  ets : (terms B m.problems).Nodup
  bwf : m.backup.WF

theorem MInv.empty (B : Nat → Batch V) : MInv B (Merged.empty : Merged V) := by
  refine ⟨⟨FMap.wf_nil, fun d => rfl, fun d c g h => by (cases h), ?_⟩, by simp [Merged.empty], ?_,
    FMap.wf_nil⟩
  · exact Grouped.empty.congr (fun d => rfl)
  · simp [Merged.empty, terms]

theorem mem_terms (B : Nat → Batch V) (ids : List Nat) (e : Nat) :
    e ∈ terms B ids ↔ ∃ id ∈ ids, e ∈ (B id).ets := by
  unfold terms; rw [List.mem_flatMap]

theorem isET_iff {deps} {B : Nat → Batch V} (hB : ∀ id, Batch.Inv deps (B id)) (m : Merged V) (e : Nat) :
    isErrorTermInProblem B m e = true ↔ e ∈ terms B m.problems := by
  unfold isErrorTermInProblem Batch.isErrorTermInProblem
  rw [List.any_eq_true, mem_terms]
  constructor
  · rintro ⟨id, h1, h2⟩
    rw [decide_eq_true_iff] at h2
    exact ⟨id, h1, (hB id).ets.mem_iff.2 h2⟩
  · rintro ⟨id, h1, h2⟩
    exact ⟨id, h1, decide_eq_true ((hB id).ets.mem_iff.1 h2)⟩

theorem checkTerms_eq {deps} {B : Nat → Batch V} (hB : ∀ id, Batch.Inv deps (B id)) (m : Merged V)
    (b : Batch V) (n i : Nat) (hn : n + i = b.ets.length) :
    checkTerms B m b n i =
      if ∀ e ∈ b.ets.drop i, e ∉ terms B m.problems then .ok () else .raise := by
  induction n generalizing i with
  | zero =>
    rw [List.drop_of_length_le (by omega)]
    simp [checkTerms]
  | succ n ih =>
    have hi : i < b.ets.length := by omega
    rw [List.drop_eq_getElem_cons hi]
    simp only [checkTerms, Batch.errorTerm, List.getElem?_eq_getElem hi]
    by_cases hb : isErrorTermInProblem B m b.ets[i] = true
    · rw [if_pos hb, if_neg]
      intro hc
      exact hc b.ets[i] List.mem_cons_self ((isET_iff hB m _).1 hb)
    · rw [if_neg hb, ih (i + 1) (by omega)]
      have : b.ets[i] ∉ terms B m.problems := fun hc => hb ((isET_iff hB m _).2 hc)
      simp only [List.mem_cons, forall_eq_or_imp, this, not_false_eq_true, true_and]

/-- A batch can be added: groups agree with the variables already there and no term is shared. -/
def Compatible (B : Nat → Batch V) (m : Merged V) (id : Nat) : Prop :=
  (∀ d g, (B id).lookup.find d = some g → groupOf m d = none ∨ groupOf m d = some g) ∧
  ∀ e ∈ (B id).ets, e ∉ terms B m.problems

theorem occOf_snoc (B : Nat → Batch V) (ids : List Nat) (id d : Nat) :
    occOf B (ids ++ [id]) d = if ((B id).lookup.find d).isSome then occOf B ids d + 1 else occOf B ids d := by
  unfold occOf
  rw [List.countP_append]
  by_cases h : ((B id).lookup.find d).isSome = true
  · simp [h]
  · simp [h]

theorem add_ok {deps} {B : Nat → Batch V} (hB : ∀ id, Batch.Inv deps (B id)) {m : Merged V}
    (h : MInv B m) {id : Nat} (hc : Compatible B m id) :
    ∃ m', add B m (some id) = (.ok (), m') ∧ MInv B m' ∧ m'.problems = m.problems ++ [id] ∧
      m'.backup = m.backup ∧
      (∀ d, groupOf m' d = ((B id).lookup.find d).or (groupOf m d)) := by
  have hb := hB id
  have hfl : (flat (B id).groups (B id).order).length = (vars (B id)).length := by
    rw [← vars_fst]; simp
  have hnd : ((vars (B id)).map (·.1)).Nodup := by
    rw [vars_fst]; exact Batch.flat_nodup hb.grouped
  obtain ⟨m1, e1, c1, g1, g1', p1, b1⟩ := addList_ok h.c hnd
    (fun d g hm => hc.1 d g ((mem_vars hb d g).1 hm))
  have hmem : ∀ d, d ∈ (vars (B id)).map (·.1) ↔ ((B id).lookup.find d).isSome = true := by
    intro d
    rw [vars_fst, Batch.mem_flat hb.grouped, Option.isSome_iff_exists]
  have hloop : addLoop (B id) (Batch.numDesignVariables (B id)) 0 m = (.ok (), m1) := by
    rw [addLoop_eq hb _ 0 (by rw [Batch.numDV_eq hb]; omega)]
    exact e1
  have hcheck : checkTerms B m1 (B id) (Batch.numErrorTerms (B id)) 0 = .ok () := by
    rw [checkTerms_eq hB _ _ _ 0 (by unfold Batch.numErrorTerms; rw [hb.ets.length_eq]; omega)]
    rw [if_pos]
    intro e he
    rw [List.drop_zero] at he
    rw [p1]
    exact hc.2 e he
  refine ⟨{ m1 with problems := m1.problems ++ [id] }, ?_, ?_, by rw [p1], b1, ?_⟩
  · simp only [add, hloop, hcheck]
  · refine ⟨⟨c1.wf, ?_, c1.pos, c1.grouped⟩, ?_, ?_, b1 ▸ h.bwf⟩
    · intro d
      simp only
      rw [p1, occOf_snoc]
      have := c1.cnt d
      unfold countOf at this ⊢
      rw [this]
      by_cases hd : ((B id).lookup.find d).isSome = true
      · rw [if_pos hd, if_pos ((hmem d).2 hd)]
      · rw [if_neg hd, if_neg (fun hcd => hd ((hmem d).1 hcd))]
    · intro id' hid' d g hg
      simp only at hid'
      rw [p1, List.mem_append, List.mem_singleton] at hid'
      show groupOf m1 d = some g
      rcases hid' with hid' | rfl
      · have hgm := h.grp id' hid' d g hg
        by_cases hd : d ∈ (vars (B id)).map (·.1)
        · obtain ⟨g2, hg2⟩ := Option.isSome_iff_exists.1 ((hmem d).1 hd)
          rw [g1 d g2 ((mem_vars hb d g2).2 hg2)]
          rcases hc.1 d g2 hg2 with hx | hx
          · rw [hgm] at hx; cases hx
          · rw [hgm] at hx; cases hx; rfl
        · rw [g1' d hd]; exact hgm
      · exact g1 d g ((mem_vars hb d g).2 hg)
    · simp only
      rw [p1]
      unfold terms
      rw [List.flatMap_append, List.nodup_append]
      refine ⟨h.ets, ?_, ?_⟩
      · simp only [List.flatMap_cons, List.flatMap_nil, List.append_nil]
        exact hb.ets.nodup_iff.2 hb.etNodup
      · intro a ha x hx
        simp only [List.flatMap_cons, List.flatMap_nil, List.append_nil] at hx
        rintro rfl
        exact hc.2 a hx ha
  · intro d
    show groupOf m1 d = _
    by_cases hd : d ∈ (vars (B id)).map (·.1)
    · obtain ⟨g2, hg2⟩ := Option.isSome_iff_exists.1 ((hmem d).1 hd)
      rw [g1 d g2 ((mem_vars hb d g2).2 hg2), hg2]; rfl
    · rw [g1' d hd]
      have : (B id).lookup.find d = none := by
        cases hf : (B id).lookup.find d with
        | none => rfl
        | some g => exact absurd ((hmem d).2 (by rw [hf]; rfl)) hd
      rw [this]; rfl

theorem add_raise {deps} {B : Nat → Batch V} (hB : ∀ id, Batch.Inv deps (B id)) {m : Merged V}
    (h : MInv B m) {id : Nat} (hc : ¬ Compatible B m id) :
    ∃ m', add B m (some id) = (.raise, m') ∧ m'.problems = m.problems ∧ m'.backup = m.backup := by
  have hb := hB id
  have hnd : ((vars (B id)).map (·.1)).Nodup := by
    rw [vars_fst]; exact Batch.flat_nodup hb.grouped
  have hfl : (flat (B id).groups (B id).order).length = (vars (B id)).length := by
    rw [← vars_fst]; simp
  have hloopeq : addLoop (B id) (Batch.numDesignVariables (B id)) 0 m = addList (vars (B id)) m := by
    rw [addLoop_eq hb _ 0 (by rw [Batch.numDV_eq hb]; omega)]
    rfl
  by_cases h1 : ∀ d g, (B id).lookup.find d = some g → groupOf m d = none ∨ groupOf m d = some g
  · obtain ⟨m1, e1, c1, g1, g1', p1, b1⟩ := addList_ok h.c hnd
      (fun d g hm => h1 d g ((mem_vars hb d g).1 hm))
    have h2 : ¬ ∀ e ∈ (B id).ets, e ∉ terms B m.problems := fun h2 => hc ⟨h1, h2⟩
    have hcheck : checkTerms B m1 (B id) (Batch.numErrorTerms (B id)) 0 = .raise := by
      rw [checkTerms_eq hB _ _ _ 0 (by unfold Batch.numErrorTerms; rw [hb.ets.length_eq]; omega)]
      rw [if_neg]
      rw [List.drop_zero, p1]
      exact h2
    refine ⟨m1, ?_, p1, b1⟩
    simp only [add, hloopeq, e1, hcheck]
  · have hbad : ∃ d g g', (d, g) ∈ vars (B id) ∧ groupOf m d = some g' ∧ g' ≠ g := by
      by_contra hno
      apply h1
      intro d g hg
      cases hgm : groupOf m d with
      | none => left; rfl
      | some g' =>
        right
        by_contra hne
        exact hno ⟨d, g, g', (mem_vars hb d g).2 hg, hgm, fun he => hne (by rw [he])⟩
    obtain ⟨m1, e1, p1, b1⟩ := addList_raise h.c hnd hbad
    refine ⟨m1, ?_, p1, b1⟩
    simp only [add, hloopeq, e1]

theorem occOf_eraseIdx (B : Nat → Batch V) {ids : List Nat} {idx id : Nat} (hid : ids[idx]? = some id)
    (d : Nat) :
    occOf B ids d = occOf B (ids.eraseIdx idx) d + (if ((B id).lookup.find d).isSome then 1 else 0) := by
  obtain ⟨hlt, he⟩ := List.getElem?_eq_some_iff.1 hid
  have hp : ids.Perm (ids[idx] :: ids.eraseIdx idx) := (List.getElem_cons_eraseIdx_perm hlt).symm
  unfold occOf
  rw [hp.countP_eq, List.countP_cons, he]

theorem remove_ok {deps} {B : Nat → Batch V} (hB : ∀ id, Batch.Inv deps (B id)) {m : Merged V}
    (h : MInv B m) {idx id : Nat} (hid : m.problems[idx]? = some id) :
    ∃ m', remove B m idx = (.ok (), m') ∧ MInv B m' ∧ m'.problems = m.problems.eraseIdx idx ∧
      (∀ d, groupOf m' d = if occOf B (m.problems.eraseIdx idx) d = 0 then none else groupOf m d) ∧
      (∀ d, m'.backup.find d =
        if ((B id).lookup.find d).isSome ∧ occOf B (m.problems.eraseIdx idx) d = 0 then none
        else m.backup.find d) := by
  have hb := hB id
  have hocc := fun d => occOf_eraseIdx B hid d
  have hmem : ∀ d, d ∈ flat (B id).groups (B id).order ↔ ((B id).lookup.find d).isSome = true := by
    intro d
    rw [Batch.mem_flat hb.grouped, Option.isSome_iff_exists]
  obtain ⟨m1, e1, c1, g1, p1, b1, w1⟩ := removeList_ok h.c (Batch.flat_nodup hb.grouped) (by
    intro d hd
    rw [hocc, if_pos ((hmem d).1 hd)]
    omega)
  have hloop : removeLoop (B id) (Batch.numDesignVariables (B id)) 0 m = (.ok (), m1) := by
    rw [removeLoop_eq hb _ 0 (by rw [Batch.numDV_eq hb]; omega)]
    exact e1
  have hone : ∀ d, (d ∈ flat (B id).groups (B id).order ∧ occOf B m.problems d = 1) ↔
      (((B id).lookup.find d).isSome = true ∧ occOf B (m.problems.eraseIdx idx) d = 0) := by
    intro d
    rw [hmem, hocc d]
    by_cases hd : ((B id).lookup.find d).isSome = true
    · rw [if_pos hd]; simp [hd]
    · simp [hd]
  have hgrp : ∀ d, groupOf m1 d =
      if occOf B (m.problems.eraseIdx idx) d = 0 then none else groupOf m d := by
    intro d
    rw [g1]
    by_cases h0 : occOf B (m.problems.eraseIdx idx) d = 0
    · rw [if_pos h0]
      by_cases hd : ((B id).lookup.find d).isSome = true
      · rw [if_pos ((hone d).2 ⟨hd, h0⟩)]
      · rw [if_neg (fun hc => hd ((hone d).1 hc).1)]
        have : occOf B m.problems d = 0 := by rw [hocc, if_neg hd, h0]
        exact (h.c.absent d).1 this
    · rw [if_neg h0, if_neg (fun hc => h0 ((hone d).1 hc).2)]
  refine ⟨{ m1 with problems := m1.problems.eraseIdx idx }, ?_, ?_, by rw [p1], hgrp, ?_⟩
  · simp only [remove, hid, hloop]
  · refine ⟨⟨c1.wf, ?_, c1.pos, c1.grouped⟩, ?_, ?_, w1 h.bwf⟩
    · intro d
      simp only
      rw [p1]
      have := c1.cnt d
      unfold countOf at this ⊢
      rw [this, hocc d]
      by_cases hd : ((B id).lookup.find d).isSome = true
      · rw [if_pos ((hmem d).2 hd), if_pos hd]; omega
      · rw [if_neg (fun hc => hd ((hmem d).1 hc)), if_neg hd]; omega
    · intro id' hid' d g hg
      simp only at hid'
      rw [p1] at hid'
      show groupOf m1 d = some g
      rw [hgrp, if_neg]
      · exact h.grp id' (List.mem_of_mem_eraseIdx hid') d g hg
      · have : 0 < occOf B (m.problems.eraseIdx idx) d := by
          unfold occOf
          rw [List.countP_pos_iff]
          exact ⟨id', hid', by rw [hg]; rfl⟩
        omega
    · simp only
      rw [p1]
      have : (terms B (m.problems.eraseIdx idx)).Sublist (terms B m.problems) := by
        unfold terms
        exact (List.eraseIdx_sublist m.problems idx).flatMap _
      exact h.ets.sublist this
  · intro d
    show m1.backup.find d = _
    rw [b1]
    by_cases hc : ((B id).lookup.find d).isSome = true ∧ occOf B (m.problems.eraseIdx idx) d = 0
    · rw [if_pos hc, if_pos ((hone d).2 hc)]
    · rw [if_neg hc, if_neg (fun hx => hc ((hone d).1 hx))]

theorem MInv.permProblems {B : Nat → Batch V} {m : Merged V} (h : MInv B m) {l : List Nat}
    (hp : l.Perm m.problems) : MInv B { m with problems := l } := by
  refine ⟨⟨h.c.wf, ?_, h.c.pos, h.c.grouped⟩, ?_, ?_, h.bwf⟩
  · intro d
    have := h.c.cnt d
    unfold occOf at this ⊢
    rw [hp.countP_eq]
    exact this
  · intro id hid
    exact h.grp id (hp.mem_iff.1 hid)
  · have : (terms B l).Perm (terms B m.problems) := hp.flatMap_right _
    exact this.nodup_iff.2 h.ets

/-- Any call other than a failing `add` keeps the invariant. -/
theorem MInv.step {deps} {B : Nat → Batch V} (hB : ∀ id, Batch.Inv deps (B id)) {w : World V}
    (h : MInv B w.m) (op : Op V) (hadd : ∀ id, op = .add id → (step B w op).1 = .ok ()) :
    MInv B (step B w op).2.m := by
  cases op with
  | add id =>
    cases id with
    | none => exact h
    | some id =>
      by_cases hc : Compatible B w.m id
      · obtain ⟨m', e, hm, _⟩ := add_ok hB h hc
        simp only [Merged.step, e]
        exact hm
      · obtain ⟨m', e, _⟩ := add_raise hB h hc
        have := hadd _ rfl
        simp only [Merged.step, e] at this
        cases this
  | remove idx =>
    cases hf : w.m.problems[idx]? with
    | none => simp only [Merged.step, remove, hf]; exact h
    | some id =>
      obtain ⟨m', e, hm, _⟩ := remove_ok hB h hf
      simp only [Merged.step, e]
      exact hm
  | removePtr id =>
    simp only [Merged.step, removePtr]
    split
    · rename_i hin
      have hf : w.m.problems[w.m.problems.idxOf id]? = some id := by
        rw [List.getElem?_eq_getElem (List.idxOf_lt_length_of_mem hin)]; simp
      obtain ⟨m', e, hm, _⟩ := remove_ok hB h hf
      rw [e]
      exact hm
    · exact h
  | clear =>
    exact ⟨⟨FMap.wf_nil, fun d => rfl, fun d c g hd => (by cases hd),
      Grouped.empty.congr (fun d => rfl)⟩, by simp [Merged.step, clear], by simp [Merged.step, clear, terms],
      h.bwf⟩
  | setOrdering l =>
    simp only [Merged.step, setGroupsOrdering]
    split
    · exact h
    · split
      · rename_i hlen hc
        have hp := (Batch.ordering_accepts h.c.grouped l).1 ⟨not_not.1 hlen, hc⟩
        exact ⟨⟨h.c.wf, h.c.cnt, h.c.pos, h.c.grouped.reorder hp⟩, h.grp, h.ets, h.bwf⟩
      · exact h
  | permuteProblems p => exact h.permProblems (Batch.doPermute_perm p _)
  | permuteDV p g =>
    simp only [Merged.step, permuteDesignVariables]
    split
    · exact h
    · rename_i l hl
      exact ⟨⟨h.c.wf, h.c.cnt, h.c.pos, h.c.grouped.permuteGroup hl (Batch.doPermute_perm p l)⟩, h.grp,
        h.ets, h.bwf⟩
  | save => exact ⟨⟨h.c.wf, h.c.cnt, h.c.pos, h.c.grouped⟩, h.grp, h.ets, Batch.wf_saveFold _ _ h.bwf⟩
  | restore => exact h
  | assign dv v => exact h

theorem runFrom_inv {deps} {B : Nat → Batch V} (hB : ∀ id, Batch.Inv deps (B id)) {w : World V}
    (h : MInv B w.m) (ops : List (Op V)) (hadd : AddsReturn ops (runFrom B w ops).1) :
    MInv B (runFrom B w ops).2.m := by
  induction ops generalizing w with
  | nil => exact h
  | cons op ops ih =>
    simp only [runFrom] at hadd ⊢
    refine ih (h.step hB op ?_) ?_
    · rintro id rfl
      have := hadd 0 id rfl
      simpa using this
    · intro i id hi
      have := hadd (i + 1) id (by simpa using hi)
      simpa using this

theorem numDV_eq {B : Nat → Batch V} {m : Merged V} (h : MInv B m) :
    numDesignVariables m = (flat m.groups m.order).length := by
  unfold numDesignVariables
  refine FMap.length_eq_of_mem h.c.wf (Batch.flat_nodup h.c.grouped) ?_
  intro k
  rw [Batch.mem_flat h.c.grouped]
  unfold groupOf
  cases m.counts.find k with
  | none => simp
  | some e => simp

theorem designVariable_eq {B : Nat → Batch V} {m : Merged V} (h : MInv B m) (idx : Nat) :
    designVariable m idx =
      match (flat m.groups m.order)[idx]? with
      | some dv => .ok dv
      | none => .raise := by
  unfold designVariable
  rw [numDV_eq h]
  by_cases hi : (flat m.groups m.order).length ≤ idx
  · rw [if_pos hi, List.getElem?_eq_none hi]
  · rw [if_neg hi]
    obtain ⟨g, l, i, h1, h2, h3, h4, h5⟩ := Batch.locate_ok (groups := m.groups) (idx := idx)
      (order := m.order) (run := 0) (fun g hg => (h.c.grouped.mem_order g).1 hg) (by omega) (by omega)
    rw [h1]
    simp only [Out.ok_bind, h3]
    rw [Nat.sub_zero] at h5
    rw [← h5, List.getElem?_eq_getElem h4]

theorem errorTerm_eq {deps} {B : Nat → Batch V} (hB : ∀ id, Batch.Inv deps (B id)) (m : Merged V)
    (idx : Nat) :
    errorTerm B m idx =
      match (terms B m.problems)[idx]? with
      | some e => .ok e
      | none => .raise := by
  unfold errorTerm
  have key : ∀ (ids : List Nat) (run : Nat), run ≤ idx →
      (getErrorIdx B idx ids run >>= fun r => Batch.errorTerm (B r.1) r.2) =
      match (terms B ids)[idx - run]? with
      | some e => .ok e
      | none => .raise := by
    intro ids
    induction ids with
    | nil => intro run _; simp [getErrorIdx, terms]
    | cons id ids ih =>
      intro run hr
      have hlen : Batch.numErrorTerms (B id) = (B id).ets.length := (hB id).ets.length_eq.symm
      have ht : terms B (id :: ids) = (B id).ets ++ terms B ids := by simp [terms]
      simp only [getErrorIdx, hlen]
      by_cases hlt : idx < run + (B id).ets.length
      · rw [if_pos hlt, ht, List.getElem?_append_left (by omega)]
        simp only [Out.ok_bind, Batch.errorTerm]
        rw [List.getElem?_eq_getElem (by omega)]
      · rw [if_neg hlt, ih _ (by omega), ht, List.getElem?_append_right (by omega)]
        congr 2
        omega
  have := key m.problems 0 (by omega)
  simpa using this

/-- Saved values belong to variables of the problem. -/
def NoStale (m : Merged V) : Prop := ∀ d v, m.backup.find d = some v → ∃ g, groupOf m d = some g

theorem NoStale.step {deps} {B : Nat → Batch V} (hB : ∀ id, Batch.Inv deps (B id)) {w : World V}
    (h : MInv B w.m) (hs : NoStale w.m) (op : Op V)
    (hadd : ∀ id, op = .add id → (Merged.step B w op).1 = .ok ()) (hclear : op ≠ .clear) :
    NoStale (Merged.step B w op).2.m := by
  have hrem : ∀ idx id, w.m.problems[idx]? = some id → NoStale (remove B w.m idx).2 := by
    intro idx id hf
    obtain ⟨m', e, hm, hp, hg, hb⟩ := remove_ok hB h hf
    rw [e]
    intro d v hd
    rw [hb] at hd
    split at hd
    · cases hd
    · rename_i hc
      rw [hg]
      obtain ⟨g, hgd⟩ := hs d v hd
      rw [if_neg]
      · exact ⟨g, hgd⟩
      · intro h0
        apply hc
        refine ⟨?_, h0⟩
        by_contra hno
        have := occOf_eraseIdx B hf d
        rw [if_neg hno, h0] at this
        rw [(h.c.absent d).1 this] at hgd
        cases hgd
  cases op with
  | add id =>
    cases id with
    | none => exact hs
    | some id =>
      by_cases hc : Compatible B w.m id
      · obtain ⟨m', e, hm, _, hb, hg⟩ := add_ok hB h hc
        simp only [Merged.step, e]
        intro d v hd
        rw [hb] at hd
        obtain ⟨g, hgd⟩ := hs d v hd
        rw [hg, hgd]
        cases (B id).lookup.find d with
        | none => exact ⟨g, rfl⟩
        | some g' => exact ⟨g', rfl⟩
      · obtain ⟨m', e, _⟩ := add_raise hB h hc
        have := hadd _ rfl
        simp only [Merged.step, e] at this
        cases this
  | remove idx =>
    cases hf : w.m.problems[idx]? with
    | none => simp only [Merged.step, remove, hf]; exact hs
    | some id => exact hrem idx id hf
  | removePtr id =>
    simp only [Merged.step, removePtr]
    split
    · rename_i hin
      exact hrem _ id (by
        rw [List.getElem?_eq_getElem (List.idxOf_lt_length_of_mem hin)]; simp)
    · exact hs
  | clear => exact absurd rfl hclear
  | setOrdering l =>
    simp only [Merged.step, setGroupsOrdering]
    split
    · exact hs
    · split <;> exact hs
  | permuteProblems p => exact hs
  | permuteDV p g =>
    simp only [Merged.step, permuteDesignVariables]
    split <;> exact hs
  | save =>
    intro d v hd
    have hf : (Merged.step B w .save).2.m.backup.find d =
        if d ∈ FMap.keys w.m.counts then some (w.mem d) else w.m.backup.find d :=
      Batch.find_saveFold _ _ _ _
    rw [hf] at hd
    split at hd
    · rename_i hk
      obtain ⟨e, he⟩ := FMap.mem_keys.1 hk
      refine ⟨e.2, ?_⟩
      show (w.m.counts.find d).map (·.2) = _
      rw [he]; rfl
    · exact hs d v hd
  | restore => exact hs
  | assign dv v => exact hs

theorem runFrom_noStale {deps} {B : Nat → Batch V} (hB : ∀ id, Batch.Inv deps (B id)) {w : World V}
    (h : MInv B w.m) (hs : NoStale w.m) (ops : List (Op V)) (hadd : AddsReturn ops (runFrom B w ops).1)
    (hclear : .clear ∉ ops) : NoStale (runFrom B w ops).2.m := by
  induction ops generalizing w with
  | nil => exact hs
  | cons op ops ih =>
    simp only [runFrom] at hadd ⊢
    have h0 : ∀ id, op = .add id → (Merged.step B w op).1 = .ok () := by
      rintro id rfl
      have := hadd 0 id rfl
      simpa using this
    simp only [List.mem_cons, not_or] at hclear
    refine ih (h.step hB op h0) (hs.step hB h op h0 (fun hc => hclear.1 hc.symm)) ?_ hclear.2
    intro i id hi
    have := hadd (i + 1) id (by simpa using hi)
    simpa using this

/-! ### Positions -/

/-- Variables listed in a group. -/
def listOf (m : Merged V) (g : Nat) : List Nat := (m.groups.find g).getD []

theorem addVar_lists {m : Merged V} {dv g : Nat} {m' : Merged V} (he : addVar m dv g = (.ok (), m')) :
    m.order <+: m'.order ∧
    ∀ g', ∃ ext, listOf m' g' = listOf m g' ++ ext ∧ ∀ d ∈ ext, groupOf m d = none := by
  unfold addVar at he
  have hfind : (if !isGroupInProblem m g then { m with order := m.order ++ [g] } else m).counts.find dv
      = m.counts.find dv := by split <;> rfl
  have hord : m.order <+: (if !isGroupInProblem m g then { m with order := m.order ++ [g] } else m).order := by
    split
    · exact List.prefix_append _ _
    · exact List.prefix_refl _
  have hgr : (if !isGroupInProblem m g then { m with order := m.order ++ [g] } else m).groups = m.groups := by
    split <;> rfl
  rcases Option.eq_none_or_eq_some (m.counts.find dv) with hf | ⟨⟨c, g''⟩, hf⟩
  · simp only [hfind, hf] at he
    cases he
    refine ⟨hord, ?_⟩
    intro g'
    unfold listOf
    simp only
    rw [FMap.find_set, hgr]
    by_cases hg : g' = g
    · rw [if_pos hg, hg]
      refine ⟨[dv], rfl, ?_⟩
      intro d hd
      rw [List.mem_singleton] at hd
      subst hd
      unfold groupOf
      rw [hf]; rfl
    · rw [if_neg hg]
      exact ⟨[], by simp, by simp⟩
  · simp only [hfind, hf] at he
    split at he
    · cases he
    · cases he
      refine ⟨hord, ?_⟩
      intro g'
      unfold listOf
      simp only [hgr]
      exact ⟨[], by simp, by simp⟩

theorem addList_lists {m : Merged V} {occ : Nat → Nat} (h : CInv m occ) {l : List (Nat × Nat)}
    {m' : Merged V} (he : addList l m = (.ok (), m')) :
    m.order <+: m'.order ∧
    ∀ g', ∃ ext, listOf m' g' = listOf m g' ++ ext ∧ ∀ d ∈ ext, groupOf m d = none := by
  induction l generalizing m occ with
  | nil =>
    cases he
    exact ⟨List.prefix_refl _, fun g' => ⟨[], by simp, by simp⟩⟩
  | cons e l ih =>
    obtain ⟨dv, g⟩ := e
    simp only [addList] at he
    rcases hr : addVar m dv g with ⟨o, m1⟩
    rw [hr] at he
    cases o with
    | raise => cases he
    | ub => cases he
    | ok u =>
      simp only at he
      have hcompat : groupOf m dv = none ∨ groupOf m dv = some g := by
        cases hg : groupOf m dv with
        | none => left; rfl
        | some g' =>
          right
          by_contra hne
          obtain ⟨m2, e2, _⟩ := addVar_raise (m := m) (g := g) hg (fun hx => hne (by rw [hx]))
          rw [hr] at e2
          cases e2
      obtain ⟨m2, e2, c2, g2, _, _⟩ := addVar_ok h hcompat
      rw [hr] at e2
      cases e2
      obtain ⟨o1, l1⟩ := addVar_lists hr
      obtain ⟨o2, l2⟩ := ih c2 he
      refine ⟨o1.trans o2, ?_⟩
      intro g'
      obtain ⟨x1, e1, d1⟩ := l1 g'
      obtain ⟨x2, e2, d2⟩ := l2 g'
      refine ⟨x1 ++ x2, by rw [e2, e1, List.append_assoc], ?_⟩
      intro d hd
      rcases List.mem_append.1 hd with hd | hd
      · exact d1 d hd
      · have := d2 d hd
        rw [g2] at this
        split at this
        · cases this
        · exact this

theorem removeVar_lists {m m' : Merged V} {dv : Nat} (he : removeVar m dv = (.ok (), m')) :
    m'.order.Sublist m.order ∧ ∀ g', (listOf m' g').Sublist (listOf m g') := by
  unfold removeVar at he
  simp only at he
  split at he
  · cases he
    exact ⟨List.Sublist.refl _, fun _ => List.Sublist.refl _⟩
  · split at he
    · split at he
      · split at he
        · cases he
          refine ⟨List.erase_sublist, ?_⟩
          intro g'
          unfold listOf
          simp only
          rw [FMap.find_erase]
          split
          · simp
          · exact List.Sublist.refl _
        · cases he
      · cases he
        refine ⟨List.Sublist.refl _, ?_⟩
        intro g'
        unfold listOf
        simp only
        rw [FMap.find_set]
        split
        · rename_i hg
          rw [hg]
          exact List.erase_sublist
        · exact List.Sublist.refl _
    · cases he

theorem removeList_lists {m m' : Merged V} {l : List Nat} (he : removeList l m = (.ok (), m')) :
    m'.order.Sublist m.order ∧ ∀ g', (listOf m' g').Sublist (listOf m g') := by
  induction l generalizing m with
  | nil =>
    cases he
    exact ⟨List.Sublist.refl _, fun _ => List.Sublist.refl _⟩
  | cons dv l ih =>
    simp only [removeList] at he
    rcases hr : removeVar m dv with ⟨o, m1⟩
    rw [hr] at he
    cases o with
    | raise => cases he
    | ub => cases he
    | ok u =>
      simp only at he
      obtain ⟨a1, b1⟩ := removeVar_lists hr
      obtain ⟨a2, b2⟩ := ih he
      exact ⟨a2.trans a1, fun g' => (b2 g').trans (b1 g')⟩

/-- A returning `add` keeps every position: orderings and groups are extended at the end. -/
theorem add_lists {deps} {B : Nat → Batch V} (hB : ∀ id, Batch.Inv deps (B id)) {m m' : Merged V}
    (h : MInv B m) {id : Nat} (he : add B m (some id) = (.ok (), m')) :
    m.order <+: m'.order ∧
    ∀ g', ∃ ext, listOf m' g' = listOf m g' ++ ext ∧ ∀ d ∈ ext, groupOf m d = none := by
  have hfl : (flat (B id).groups (B id).order).length = (vars (B id)).length := by
    rw [← vars_fst]; simp
  have hloopeq : addLoop (B id) (Batch.numDesignVariables (B id)) 0 m = addList (vars (B id)) m := by
    rw [addLoop_eq (hB id) _ 0 (by rw [Batch.numDV_eq (hB id)]; omega)]
    rfl
  simp only [add, hloopeq] at he
  rcases hr : addList (vars (B id)) m with ⟨o, m1⟩
  rw [hr] at he
  cases o with
  | raise => cases he
  | ub => cases he
  | ok u =>
    simp only at he
    split at he
    · cases he
      have hx := addList_lists h.c hr
      exact hx
    · cases he
    · cases he

/-- A returning `remove` keeps the relative positions. -/
theorem remove_lists {deps} {B : Nat → Batch V} (hB : ∀ id, Batch.Inv deps (B id)) {m m' : Merged V}
    {idx : Nat} (he : remove B m idx = (.ok (), m')) :
    m'.order.Sublist m.order ∧ ∀ g', (listOf m' g').Sublist (listOf m g') := by
  unfold remove at he
  split at he
  · cases he
  · rename_i id hid
    have hloopeq : removeLoop (B id) (Batch.numDesignVariables (B id)) 0 m =
        removeList (flat (B id).groups (B id).order) m := by
      rw [removeLoop_eq (hB id) _ 0 (by rw [Batch.numDV_eq (hB id)]; omega)]
      rfl
    rw [hloopeq] at he
    rcases hr : removeList (flat (B id).groups (B id).order) m with ⟨o, m1⟩
    rw [hr] at he
    cases o with
    | raise => cases he
    | ub => cases he
    | ok u =>
      simp only at he
      cases he
      have hx := removeList_lists hr
      exact hx

theorem sublist_eq {l l' : List Nat} (hs : l'.Sublist l) (hnd : l.Nodup) :
    l' = l.filter (fun x => decide (x ∈ l')) := by
  have h1 : l'.Sublist (l.filter (fun x => decide (x ∈ l'))) := by
    have := hs.filter (fun x => decide (x ∈ l'))
    rwa [List.filter_eq_self.2 (by intro a ha; exact decide_eq_true ha)] at this
  refine h1.eq_of_length ?_
  have hp : l'.Perm (l.filter (fun x => decide (x ∈ l'))) := by
    rw [List.perm_ext_iff_of_nodup (hnd.sublist hs) (hnd.filter _)]
    intro a
    rw [List.mem_filter, decide_eq_true_iff]
    exact ⟨fun ha => ⟨hs.subset ha, ha⟩, fun ha => ha.2⟩
  exact hp.length_eq

end Kalibr.Merged
