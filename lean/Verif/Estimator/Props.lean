import Verif.Estimator.Lemmas

/-!
# Properties of the incremental estimator (C38, C39, C63)
-/

namespace Kalibr.Estimator

open Kalibr.Batch (Batch)
open Kalibr.Merged (Merged Built MInv groupOf listOf)

variable {V S : Type}

/-- Every `addBatch` of the history returned (accepted or not). -/
def AddsReturn (ops : List (Op V S)) (outs : List (Out (Option Bool))) : Prop :=
  ∀ (i : Nat) id force s, ops[i]? = some (.addBatch id force s) → ∃ b, outs[i]? = some (.ok b)

theorem runFrom_inv {deps} {B : Nat → Batch V} (hB : Built deps B) {cfg : Config} {w : World V S}
    (h : EInv B cfg w.m) (ops : List (Op V S)) (ha : AddsReturn ops (runFrom B cfg w ops).1) :
    EInv B cfg (runFrom B cfg w ops).2.m := by
  induction ops generalizing w with
  | nil => exact h
  | cons op ops ih =>
    simp only [runFrom] at ha ⊢
    refine ih (h.step hB op ?_) ?_
    · rintro id force s rfl
      obtain ⟨b, hb⟩ := ha 0 id force s rfl
      exact ⟨b, by simpa using hb⟩
    · intro i id force s hi
      obtain ⟨b, hb⟩ := ha (i + 1) id force s (by simpa using hi)
      exact ⟨b, by simpa using hb⟩

theorem run_inv {deps} {B : Nat → Batch V} (hB : Built deps B) (cfg : Config) (rest : S) (mem : Nat → V)
    (ops : List (Op V S)) (ha : AddsReturn ops (run B cfg rest mem ops).1) :
    EInv B cfg (run B cfg rest mem ops).2.m := runFrom_inv hB (EInv.init B cfg) ops ha

theorem addBatch_of_step {B : Nat → Batch V} {cfg : Config} {w w' : World V S} {id : Option Nat}
    {force b : Bool} {s : Solve V S} (he : step B cfg w (.addBatch id force s) = (.ok (some b), w')) :
    addBatch B cfg w id force s = (.ok b, w') := by
  simp only [step] at he
  rcases hr : addBatch B cfg w id force s with ⟨o, w1⟩
  rw [hr] at he
  cases o with
  | ok b' => simp only at he; cases he; rfl
  | raise => cases he
  | ub => cases he

/-- C38: when a batch is not kept, the batches, every parameter value, the stored estimates, the
group of every variable, the ordering and every flat position are what they were. -/
theorem C38_rejected {deps} {B : Nat → Batch V} (hB : Built deps B) (cfg : Config) (rest : S)
    (mem : Nat → V) (ops : List (Op V S)) (ha : AddsReturn ops (run B cfg rest mem ops).1)
    (id : Option Nat) (force : Bool) (s : Solve V S) (w' : World V S)
    (he : step B cfg (run B cfg rest mem ops).2 (.addBatch id force s) = (.ok (some false), w')) :
    let w := (run B cfg rest mem ops).2
    w'.m.problems.Perm w.m.problems ∧
    ((∀ i, id = some i → i ∉ w.m.problems) → w'.m.problems = w.m.problems) ∧
    w'.mem = w.mem ∧ w'.stored = w.stored ∧ w'.m.order = w.m.order ∧
    (∀ dv, Merged.getGroupId w'.m dv = Merged.getGroupId w.m dv) ∧
    (∀ g, Merged.getDesignVariablesGroup w'.m g = Merged.getDesignVariablesGroup w.m g) ∧
    (∀ i, Merged.designVariable w'.m i = Merged.designVariable w.m i) ∧
    Merged.numDesignVariables w'.m = Merged.numDesignVariables w.m := by
  intro w
  have h : EInv B cfg w.m := run_inv hB cfg rest mem ops ha
  obtain ⟨i, rfl, hE, hst, hmem, hprob, hlay⟩ := addBatch_rejected hB h (addBatch_of_step he)
  have hflat : Batch.flat w'.m.groups w'.m.order = Batch.flat w.m.groups w.m.order := by
    unfold Batch.flat
    rw [hlay.order]
    apply List.flatMap_congr
    intro g _
    exact hlay.lists g
  refine ⟨?_, ?_, hmem, hst, hlay.order, ?_, ?_, ?_, ?_⟩
  · rw [hprob]
    have h2 := (List.perm_append_singleton i w.m.problems).erase i
    rwa [List.erase_cons_head] at h2
  · intro hn
    rw [hprob, List.erase_append_right _ (hn i rfl)]
    simp
  · intro dv
    have key : ∀ m : Merged V, Merged.getGroupId m dv =
        match groupOf m dv with | some g => .ok g | none => .raise := by
      intro m
      unfold Merged.getGroupId groupOf
      cases m.counts.find dv <;> rfl
    rw [key, key, hlay.group]
  · intro g
    have key : ∀ {m : Merged V}, MInv B m → Merged.getDesignVariablesGroup m g =
        if listOf m g = [] then .raise else .ok (listOf m g) := by
      intro m hm
      unfold Merged.getDesignVariablesGroup listOf
      cases hf : m.groups.find g with
      | none => rfl
      | some l =>
        simp only [Option.getD_some]
        rw [if_neg (hm.c.grouped.nonempty g l hf)]
    rw [key hE.inv, key h.inv, hlay.lists]
  · intro j
    rw [Merged.designVariable_eq hE.inv, Merged.designVariable_eq h.inv, hflat]
  · rw [Merged.numDV_eq hE.inv, Merged.numDV_eq h.inv, hflat]

/-- C38: when a batch is kept it becomes the last batch, the parameters outside the problem are not
touched, and the stored estimates are those of this solve. -/
theorem C38_accepted {deps} {B : Nat → Batch V} (hB : Built deps B) (cfg : Config) (rest : S)
    (mem : Nat → V) (ops : List (Op V S)) (ha : AddsReturn ops (run B cfg rest mem ops).1)
    (id : Option Nat) (force : Bool) (s : Solve V S) (w' : World V S)
    (he : step B cfg (run B cfg rest mem ops).2 (.addBatch id force s) = (.ok (some true), w')) :
    let w := (run B cfg rest mem ops).2
    ∃ i r, id = some i ∧ s.report = some r ∧ w'.m.problems = w.m.problems ++ [i] ∧
      (∀ d, w'.mem d = if Merged.isDesignVariableInProblem w'.m d then s.values d else w.mem d) ∧
      w'.stored.svLog2Sum = r.svLog2Sum ∧ w'.stored.rankTheta = r.rankTheta ∧
      w'.stored.informationGain = (r.svLog2Sum - w.stored.svLog2Sum) / 2 ∧
      w'.stored.initialCost = r.jStart ∧ w'.stored.finalCost = r.jFinal ∧ w'.stored.rest = r.rest := by
  intro w
  have h : EInv B cfg w.m := run_inv hB cfg rest mem ops ha
  obtain ⟨i, r, m, rfl, hsol, _, hacc, _⟩ := addBatch_reaches hB h (addBatch_of_step he)
  rw [hacc rfl]
  exact ⟨i, r, rfl, hsol.report, hsol.problems, fun d => rfl, rfl, rfl, by simp only; ring, rfl, rfl, rfl⟩

/-- C38: the decision.  A batch is kept exactly when forced, or when it brings enough information or
raises the rank and, if validity is checked, the optimiser converged before its iteration limit with a
lower cost. -/
theorem C38_decision {deps} {B : Nat → Batch V} (hB : Built deps B) (cfg : Config) (rest : S)
    (mem : Nat → V) (ops : List (Op V S)) (ha : AddsReturn ops (run B cfg rest mem ops).1)
    (id : Option Nat) (force : Bool) (s : Solve V S) (r : Report S) (hr : s.report = some r)
    (b : Bool) (w' : World V S)
    (he : step B cfg (run B cfg rest mem ops).2 (.addBatch id force s) = (.ok (some b), w')) :
    let st := (run B cfg rest mem ops).2.stored
    b = true ↔ force = true ∨
      (((r.svLog2Sum - st.svLog2Sum) / 2 > cfg.infoGainDelta ∨ r.rankTheta > st.rankTheta) ∧
        (cfg.checkValidity = true → r.iterations ≠ cfg.maxIterations ∧ r.jFinal < r.jStart)) := by
  intro st
  have h := run_inv hB cfg rest mem ops ha
  obtain ⟨i, r', m, rfl, hsol, hk, _⟩ := addBatch_reaches hB h (addBatch_of_step he)
  have hrr := hsol.report
  rw [hr] at hrr
  cases hrr
  rw [← hk]
  unfold keep
  have hgain : (1 / 2 : ℚ) * (r.svLog2Sum - (run B cfg rest mem ops).2.stored.svLog2Sum) =
      (r.svLog2Sum - st.svLog2Sum) / 2 := by ring
  simp only [hgain, Bool.or_eq_true, Bool.and_eq_true, decide_eq_true_eq, Bool.not_eq_true',
    Bool.and_eq_false_iff, Bool.or_eq_false_iff, beq_eq_false_iff_ne, decide_eq_false_iff_not, not_le,
    ge_iff_le]
  cases cfg.checkValidity <;> simp <;> tauto

/-- C39: with the marginalised group in the problem, ordering succeeds, loses and duplicates no group,
puts the marginalised group last, changes nothing else, and the start column handed to the linear
solver is the total dimension of the other groups.  Otherwise it raises and changes nothing. -/
theorem C39_order {deps} {B : Nat → Batch V} (hB : Built deps B) (cfg : Config) (mem : Nat → V)
    (ops : List (Merged.Op V)) (ha : Merged.AddsReturn ops (Merged.run B mem ops).1) :
    let m := (Merged.run B mem ops).2.m
    (cfg.marg ∈ m.order → ∃ l, orderMarg cfg m = (.ok (), { m with order := l }) ∧
      l.Perm m.order ∧ l.getLast? = some cfg.marg ∧
      ∀ dim : Nat → Nat, margStartIndex cfg dim { m with order := l } = (l.dropLast.map dim).sum) ∧
    (cfg.marg ∉ m.order → orderMarg cfg m = (.raise, m)) := by
  intro m
  have h : MInv B m := Merged.run_inv hB mem ops ha
  refine ⟨?_, orderMarg_raise⟩
  intro hin
  obtain ⟨l, e, hp, hl, _⟩ := orderMarg_ok h hin
  refine ⟨l, e, hp, hl, ?_⟩
  intro dim
  obtain ⟨a, ha⟩ := List.getLast?_eq_some_iff.1 hl
  unfold margStartIndex
  simp only
  rw [ha, List.dropLast_concat]
  simp

/-- C39: after every returning call that solves, the marginalised group is last, and the groups are
those of the live batches. -/
theorem C39_after_solve {deps} {B : Nat → Batch V} (hB : Built deps B) (cfg : Config) (rest : S)
    (mem : Nat → V) (ops : List (Op V S)) (ha : AddsReturn ops (run B cfg rest mem ops).1)
    (op : Op V S) (o : Option Bool) (w' : World V S)
    (he : step B cfg (run B cfg rest mem ops).2 op = (.ok o, w'))
    (hop : (∃ id f s, op = .addBatch id f s ∧ o = some true) ∨ (∃ s, op = .reoptimize s) ∨
      (∃ i s, op = .removeBatch i s)) :
    w'.m.order.getLast? = some cfg.marg ∧ w'.m.order.Nodup ∧
      ∀ g, g ∈ w'.m.order ↔ ∃ dv, Merged.Live B w'.m.problems dv g := by
  have h := run_inv hB cfg rest mem ops ha
  generalize (run B cfg rest mem ops).2 = w at h he
  have hE : EInv B cfg w'.m := by
    have := h.step hB op (by rintro id f s rfl; exact ⟨o, by rw [he]⟩)
    rwa [he] at this
  have hmem : ∀ g, g ∈ w'.m.order ↔ ∃ dv, Merged.Live B w'.m.problems dv g := by
    intro g
    rw [hE.inv.c.grouped.mem_order]
    constructor
    · rintro ⟨l, hl⟩
      obtain ⟨dv, hdv⟩ := List.exists_mem_of_ne_nil l (hE.inv.c.grouped.nonempty g l hl)
      exact ⟨dv, (hE.inv.live dv g).1 ((hE.inv.c.grouped.mem_grp g l hl dv).1 hdv)⟩
    · rintro ⟨dv, hdv⟩
      exact hE.inv.c.grouped.has_grp dv g ((hE.inv.live dv g).2 hdv)
  refine ⟨?_, hE.inv.c.grouped.nodup, hmem⟩
  have hreopt : ∀ (w : World V S) (s : Solve V S), EInv B cfg w.m → (reoptimize cfg w s).1 = .ok () →
      (reoptimize cfg w s).2.m.order.getLast? = some cfg.marg := by
    intro w s hw hok
    unfold reoptimize at hok ⊢
    by_cases hin : cfg.marg ∈ w.m.order
    · obtain ⟨l, e, hp, hl, _⟩ := orderMarg_ok hw.inv hin
      rw [e] at hok ⊢
      simp only at hok ⊢
      split at hok
      · cases hok
      · exact hl
    · rw [orderMarg_raise hin] at hok
      cases hok
  rcases hop with ⟨id, f, s, rfl, rfl⟩ | ⟨s, rfl⟩ | ⟨i, s, rfl⟩
  · obtain ⟨i, r, m, rfl, hsol, _, hacc, _⟩ := addBatch_reaches hB h (addBatch_of_step he)
    rw [hacc rfl]
    exact hsol.inv.last hsol.marg
  · simp only [step] at he
    rcases hr : reoptimize cfg w s with ⟨o', w1⟩
    have := hreopt w s h
    rw [hr] at he this
    cases o' with
    | ok u => simp only at he; cases he; exact this rfl
    | raise => cases he
    | ub => cases he
  · simp only [step, removeBatch] at he
    rcases hr : Merged.remove B w.m i with ⟨o1, m1⟩
    rw [hr] at he
    cases o1 with
    | raise => cases he
    | ub => cases he
    | ok u =>
      simp only at he
      have hi : i < w.m.problems.length := by
        by_contra hc
        have hn : w.m.problems[i]? = none := List.getElem?_eq_none (by omega)
        simp only [Merged.remove, hn] at hr
        cases hr
      obtain ⟨m', e, hE1⟩ := h.remove hB w.mem hi
      rw [hr] at e
      cases e
      have := hreopt { w with m := m1 } s hE1
      rcases hr2 : reoptimize cfg { w with m := m1 } s with ⟨o', w1⟩
      rw [hr2] at he this
      cases o' with
      | ok u => simp only at he; cases he; exact this rfl
      | raise => cases he
      | ub => cases he

/-! ### Concrete history -/

/-- The batches of `Merged.demoB`; the marginalised group is 5. -/
def cfg : Config := ⟨5, 1 / 5, true, 10⟩

/-- A solve that brings information / brings none / throws; all write 7 into every variable. -/
def good : Solve Int Nat := ⟨some ⟨3, 9, 4, 2, 2, 1⟩, fun _ => 7⟩
def poor : Solve Int Nat := ⟨some ⟨3, 9, 4, 2, 2, 2⟩, fun _ => 8⟩
def bad : Solve Int Nat := ⟨none, fun _ => 9⟩

def demo : List (Op Int Nat) := [.addBatch (some 0) false good]

theorem demoAdds : AddsReturn demo (run Merged.demoB cfg 0 (fun _ => 1) demo).1 := by
  have : (run Merged.demoB cfg 0 (fun _ => 1) demo).1 = [.ok (some true)] := by decide +kernel
  rw [this]
  intro i id f s h
  match i with
  | 0 => exact ⟨_, rfl⟩
  | n + 1 => simp [demo] at h

/-- Hypotheses of `C38_rejected`: batch 1 (new variable 12 in a new group) is rejected; variable 12
gets its old value back. -/
example : (step Merged.demoB cfg (run Merged.demoB cfg 0 (fun _ => 1) demo).2
      (.addBatch (some 1) false poor)).1 = .ok (some false) ∧
    (List.range 14).map (step Merged.demoB cfg (run Merged.demoB cfg 0 (fun _ => 1) demo).2
      (.addBatch (some 1) false poor)).2.mem = [1, 1, 1, 1, 1, 1, 1, 1, 1, 1, 7, 7, 1, 1] := by
  decide +kernel

/-- Hypotheses of `C38_accepted` and `C39_after_solve`: the same batch with `force`; the marginalised
group is moved behind the new group. -/
example : (step Merged.demoB cfg (run Merged.demoB cfg 0 (fun _ => 1) demo).2
      (.addBatch (some 1) true poor)).1 = .ok (some true) ∧
    (step Merged.demoB cfg (run Merged.demoB cfg 0 (fun _ => 1) demo).2
      (.addBatch (some 1) true poor)).2.m.order = [7, 5] := by
  decide +kernel

/-! ### Calls that raise -/

/-- C63 is false: a call that raises can leave the estimator changed.  (1) A batch without the
marginalised group: `addBatch` raises and the batch stays in the problem.  (2) The optimiser throws:
the batch stays and the parameters keep whatever was written.  (3) Removing the only batch always
raises, with the batch removed. -/
theorem C63_counterexample :
    ((step Merged.demoB ⟨9, 0, false, 10⟩ (initial 0 (fun _ => 1)) (.addBatch (some 0) false good)).1 = .raise ∧
     (step Merged.demoB ⟨9, 0, false, 10⟩ (initial 0 (fun _ => 1))
      (.addBatch (some 0) false good)).2.m.problems = [0]) ∧
    ((step Merged.demoB cfg (initial 0 (fun _ => 1)) (.addBatch (some 0) false bad)).1 = .raise ∧
     (step Merged.demoB cfg (initial 0 (fun _ => 1)) (.addBatch (some 0) false bad)).2.m.problems = [0] ∧
     (step Merged.demoB cfg (initial 0 (fun _ => 1)) (.addBatch (some 0) false bad)).2.mem 10 = 9) ∧
    ((step Merged.demoB cfg (run Merged.demoB cfg 0 (fun _ => 1) demo).2 (.removeBatch 0 good)).1 = .raise ∧
     (step Merged.demoB cfg (run Merged.demoB cfg 0 (fun _ => 1) demo).2
      (.removeBatch 0 good)).2.m.problems = []) := by
  decide +kernel

/-- C63, what does hold, in every state: a call that raises never changes the stored estimates.
Missing: batches, groups and parameter values (see `C63_counterexample`). -/
theorem C63_failed_call_partial (B : Nat → Batch V) (cfg : Config) (w : World V S) (op : Op V S)
    (hfail : (step B cfg w op).1 = .raise) : (step B cfg w op).2.stored = w.stored := by
  have hre : ∀ (w : World V S) (s : Solve V S), (reoptimize cfg w s).1 = .raise →
      (reoptimize cfg w s).2.stored = w.stored := by
    intro w s h
    unfold reoptimize at h ⊢
    rcases hr : orderMarg cfg w.m with ⟨o, m⟩
    rw [hr] at h
    cases o with
    | ok u =>
      simp only at h ⊢
      cases hrep : s.report with
      | none => rfl
      | some r => rw [hrep] at h; cases h
    | raise => rfl
    | ub => rfl
  have hrem : ∀ idx s, (removeBatch B cfg w idx s).1 = .raise →
      (removeBatch B cfg w idx s).2.stored = w.stored := by
    intro idx s h
    unfold removeBatch at h ⊢
    rcases hr : Merged.remove B w.m idx with ⟨o, m⟩
    rw [hr] at h
    cases o with
    | ok u => exact hre { w with m := m } s h
    | raise => rfl
    | ub => rfl
  cases op with
  | addBatch id force s =>
    simp only [step] at hfail ⊢
    have hf : (addBatch B cfg w id force s).1 = .raise := by
      cases ho : (addBatch B cfg w id force s).1 with
      | ok b => rw [ho] at hfail; cases hfail
      | raise => rfl
      | ub => rw [ho] at hfail; cases hfail
    clear hfail
    unfold addBatch at hf ⊢
    rcases hr : Merged.add B w.m id with ⟨o, m⟩
    rw [hr] at hf
    cases o with
    | raise => rfl
    | ub => rfl
    | ok u =>
      simp only at hf ⊢
      rcases hr2 : orderMarg cfg m with ⟨o2, m2⟩
      rw [hr2] at hf
      cases o2 with
      | raise => rfl
      | ub => rfl
      | ok u =>
        simp only at hf ⊢
        cases hrep : s.report with
        | none => rfl
        | some r =>
          rw [hrep] at hf
          simp only at hf ⊢
          split at hf
          · cases hf
          · rename_i hk
            rw [if_neg hk]
            cases id with
            | none => rfl
            | some i =>
              simp only at hf ⊢
              split at hf
              · cases hf
              · rfl
              · cases hf
  | removeBatch idx s =>
    simp only [step] at hfail ⊢
    refine hrem idx s ?_
    cases ho : (removeBatch B cfg w idx s).1 with
    | ok b => rw [ho] at hfail; cases hfail
    | raise => rfl
    | ub => rw [ho] at hfail; cases hfail
  | removeBatchPtr id s =>
    simp only [step, removeBatchPtr] at hfail ⊢
    by_cases hin : id ∈ w.m.problems
    · simp only [hin, if_true] at hfail ⊢
      refine hrem _ s ?_
      cases ho : (removeBatch B cfg w (w.m.problems.idxOf id) s).1 with
      | ok b => rw [ho] at hfail; cases hfail
      | raise => rfl
      | ub => rw [ho] at hfail; cases hfail
    · simp only [hin, if_false] at hfail ⊢
  | reoptimize s =>
    simp only [step] at hfail ⊢
    refine hre w s ?_
    cases ho : (reoptimize cfg w s).1 with
    | ok b => rw [ho] at hfail; cases hfail
    | raise => rfl
    | ub => rw [ho] at hfail; cases hfail
  | assign dv v => rfl

/-- Hypothesis of `C63_failed_call_partial`. -/
example : (step Merged.demoB cfg (initial 0 (fun _ => 1)) (.addBatch (some 0) false bad)).1 = .raise := by
  decide +kernel

end Kalibr.Estimator
