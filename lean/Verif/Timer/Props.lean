import Verif.Timer.Lemmas

/-!
# Properties of the timers (C21)
-/

namespace Kalibr.Timer

/-- C21: on every history the registry answers exactly like the specification, in which samples are
filed under tags directly. -/
theorem C21_refines (ops : List Op) :
    (run ops).1 = (Spec.run ops).1 ∧
    (∀ tag, lookup (run ops).2.tagMap tag =
      if tag ∈ (Spec.run ops).2.tags then some ((Spec.run ops).2.tags.idxOf tag) else none) ∧
    (∀ tag h, lookup (run ops).2.tagMap tag = some h →
      (run ops).2.timers[h]? = some ((Spec.run ops).2.samples tag)) := by
  obtain ⟨h1, h2⟩ := runFrom_rel Rel.init ops
  refine ⟨h1, fun tag => lookup_rel h2 tag, ?_⟩
  intro tag h hl
  have hl2 := lookup_rel h2 tag
  unfold run at hl
  rw [hl] at hl2
  split at hl2
  · rename_i hm
    cases hl2
    show (runFrom State.init ops).2.timers[_]? = _
    rw [h2.timers, List.getElem?_map, get_idxOf hm]
    rfl
  · cases hl2

theorem step_lookup {s : State} {a : Spec} (r : Rel s a) (op : Op) {tag : String} {h : Nat}
    (hl : lookup s.tagMap tag = some h) : lookup (step s op).2.tagMap tag = some h := by
  have hg : ∀ t, lookup (getHandle s t).1.tagMap tag = some h := by
    intro t
    unfold getHandle
    split
    · simp only
      unfold lookup at hl ⊢
      rw [List.find?_append]
      cases hf : s.tagMap.find? (fun e => e.1 == tag) with
      | none => rw [hf] at hl; cases hl
      | some e => rw [hf] at hl; simpa using hl
    · exact hl
  have hreset : ∀ (s : State) h', (reset s h').2.tagMap = s.tagMap := by
    intro s h'; unfold reset; split <;> rfl
  have hstop : ∀ id o now s', stopObj s id o now = .ok s' → s'.tagMap = s.tagMap := by
    intro id o now s' he
    unfold stopObj at he
    split at he
    · unfold addTime at he
      split at he
      · cases he
      · cases he; rfl
    · cases he
  cases op with
  | handle t => exact hg t
  | newTag t b n => exact hg t
  | newHandle h' b n => simp only [step]; split <;> exact hl
  | start id n =>
    simp only [step]
    split
    · split <;> exact hl
    · exact hl
  | stop id n =>
    simp only [step]
    split
    · split
      · rename_i he; rw [hstop _ _ _ _ he]; exact hl
      · exact hl
      · exact hl
    · exact hl
  | destroy id n =>
    simp only [step]
    split
    · split
      · split
        · rename_i he; simp only; rw [hstop _ _ _ _ he]; exact hl
        · exact hl
        · exact hl
      · exact hl
    · exact hl
  | numSamples h' => exact hl
  | numSamplesTag t => exact hg t
  | reset h' => simp only [step, hreset]; exact hl
  | resetTag t => simp only [step, hreset]; exact hg t

/-- C21: tags have distinct, dense handles that never change, whatever happens later; a tag not seen
before gets the next free handle, and `getTag` inverts the assignment. -/
theorem C21_handles (ops : List Op) :
    (∀ tag tag' h, lookup (run ops).2.tagMap tag = some h → lookup (run ops).2.tagMap tag' = some h →
      tag = tag') ∧
    (∀ h, h < (run ops).2.timers.length ↔ ∃ tag, lookup (run ops).2.tagMap tag = some h) ∧
    (∀ tag h, lookup (run ops).2.tagMap tag = some h → getTag (run ops).2 h = .ok tag) ∧
    (∀ tag, lookup (run ops).2.tagMap tag = none →
      (step (run ops).2 (.handle tag)).1 = .ok (run ops).2.timers.length) ∧
    (∀ tag h, lookup (run ops).2.tagMap tag = some h →
      (step (run ops).2 (.handle tag)) = (.ok h, (run ops).2) ∧
      ∀ more, lookup (run (ops ++ more)).2.tagMap tag = some h) := by
  obtain ⟨_, r⟩ := runFrom_rel Rel.init ops
  have hlk := fun tag => lookup_rel r tag
  have hsome : ∀ tag h, lookup (run ops).2.tagMap tag = some h →
      (Spec.runFrom Spec.init ops).2.tags[h]? = some tag := by
    intro tag h hl
    rw [show (run ops).2 = (runFrom State.init ops).2 from rfl, hlk tag] at hl
    split at hl
    · rename_i hm; cases hl; exact get_idxOf hm
    · cases hl
  refine ⟨?_, ?_, ?_, ?_, ?_⟩
  · intro tag tag' h h1 h2
    have := hsome _ _ h1
    rw [hsome _ _ h2] at this
    cases this; rfl
  · intro h
    constructor
    · intro hh
      have hh' : h < (Spec.runFrom Spec.init ops).2.tags.length := r.timers_len ▸ hh
      refine ⟨(Spec.runFrom Spec.init ops).2.tags[h], ?_⟩
      have := hlk (Spec.runFrom Spec.init ops).2.tags[h]
      rw [if_pos (List.getElem_mem hh'), r.nodup.idxOf_getElem] at this
      exact this
    · rintro ⟨tag, hl⟩
      have := (List.getElem?_eq_some_iff.1 (hsome _ _ hl)).1
      rw [← r.timers_len] at this
      exact this
  · intro tag h hl
    have ht := hsome _ _ hl
    unfold getTag
    rw [show (run ops).2 = (runFrom State.init ops).2 from rfl, r.map]
    have : ∀ (l : List String) (k : Nat), l[h]? = some tag →
        ((l.zipIdx k).find? fun e => e.2 == h + k) = some (tag, h + k) := by
      clear hl ht hsome hlk r
      intro l
      induction h generalizing l with
      | zero =>
        intro k hl
        cases l with
        | nil => simp at hl
        | cons x l => simp at hl; subst hl; simp [List.zipIdx_cons]
      | succ h ih =>
        intro k hl
        cases l with
        | nil => simp at hl
        | cons x l =>
          simp only [List.getElem?_cons_succ] at hl
          rw [List.zipIdx_cons, List.find?_cons]
          have : ¬ (k == h + 1 + k) = true := by simp
          simp only [this]
          rw [show h + 1 + k = h + (k + 1) by omega]
          exact ih l (k + 1) hl
    have := this _ 0 ht
    simp only [Nat.add_zero] at this
    rw [this]
  · intro tag hl
    simp only [step, getHandle]
    rw [hl]
  · intro tag h hl
    constructor
    · simp only [step, getHandle]
      rw [hl]
    · intro more
      have hgen : ∀ (more : List Op) (s : State) (a : Spec), Rel s a → lookup s.tagMap tag = some h →
          lookup (runFrom s more).2.tagMap tag = some h := by
        intro more
        induction more with
        | nil => intro s a _ h; exact h
        | cons op ops ih =>
          intro s a r h
          exact ih _ _ (step_rel r op).2 (step_lookup r op h)
      unfold run
      rw [runFrom_append]
      exact hgen more _ _ r hl

/-- C21: stopping a running timer records exactly one sample, under its own handle, and touches no
other; the timer is then stopped.  Starting records nothing. -/
theorem C21_stop_records (ops : List Op) (id : Nat) (o : Obj) (now : ℚ)
    (ho : (run ops).2.objs[id]? = some (some o)) (hon : o.timing = true) :
    ∃ s l, step (run ops).2 (.stop id now) = (.ok 0, s) ∧
      (run ops).2.timers[o.handle]? = some l ∧
      s.timers[o.handle]? = some (l ++ [now - o.time]) ∧
      (∀ h, h ≠ o.handle → s.timers[h]? = (run ops).2.timers[h]?) ∧
      s.tagMap = (run ops).2.tagMap ∧
      s.objs[id]? = some (some { o with timing := false }) ∧
      (∀ i, i ≠ id → s.objs[i]? = (run ops).2.objs[i]?) := by
  obtain ⟨_, r⟩ := runFrom_rel Rel.init ops
  have hid : id < (run ops).2.objs.length := (List.getElem?_eq_some_iff.1 ho).1
  rcases objs_cases r id with ⟨h1, _⟩ | ⟨h1, _⟩ | ⟨o', tag, st, h1, h2, h3, h4⟩
  · rw [show (runFrom State.init ops).2 = (run ops).2 from rfl, ho] at h1; cases h1
  · rw [show (runFrom State.init ops).2 = (run ops).2 from rfl, ho] at h1; cases h1
  · rw [show (runFrom State.init ops).2 = (run ops).2 from rfl, ho] at h1
    cases h1
    have hl : ∃ l, (run ops).2.timers[o.handle]? = some l := by
      rw [show (run ops).2 = (runFrom State.init ops).2 from rfl, r.timers, List.getElem?_map, h3]
      exact ⟨_, rfl⟩
    obtain ⟨l, hl⟩ := hl
    have hlt : o.handle < (run ops).2.timers.length := (List.getElem?_eq_some_iff.1 hl).1
    refine ⟨{ (run ops).2 with
        timers := (run ops).2.timers.set o.handle (l ++ [now - o.time])
        objs := (run ops).2.objs.set id (some { o with timing := false }) }, l,
      ?_, hl, ?_, ?_, rfl, ?_, ?_⟩
    · simp only [step, ho, stopObj, hon, if_true, addTime, hl]
      rfl
    · simp [hlt]
    · intro h hne
      simp only
      rw [List.getElem?_set_ne (fun hc => hne hc.symm)]
    · simp [hid]
    · intro i hne
      simp only
      rw [List.getElem?_set_ne (fun hc => hne hc.symm)]

/-- C21: starting a running timer or stopping a stopped one raises and changes nothing; starting a
stopped one records no sample. -/
theorem C21_wrong_state_raises (ops : List Op) (id : Nat) (o : Obj) (now : ℚ)
    (ho : (run ops).2.objs[id]? = some (some o)) :
    (o.timing = true → step (run ops).2 (.start id now) = (.raise, (run ops).2)) ∧
    (o.timing = false → step (run ops).2 (.stop id now) = (.raise, (run ops).2)) ∧
    (o.timing = false → ∃ s, step (run ops).2 (.start id now) = (.ok 0, s) ∧
      s.timers = (run ops).2.timers ∧ s.tagMap = (run ops).2.tagMap) := by
  refine ⟨?_, ?_, ?_⟩
  · intro h; simp only [step, ho, startObj, h, if_true]
  · intro h; simp [step, ho, stopObj, h]
  · intro h; simp only [step, ho, startObj, h]
    exact ⟨_, rfl, rfl, rfl⟩

/-- Non-trivial history: two tags, interleaved timers, an illegal start, a reset. -/
example : (run [.newTag "a" false 1, .newTag "b" true 0, .start 1 2, .start 0 3, .stop 0 5, .stop 1 9,
      .stop 1 9, .numSamplesTag "a", .newTag "a" false 10, .destroy 2 12, .numSamples 0,
      .resetTag "b", .numSamples 1, .numSamples 2]).1 =
    [.ok 0, .ok 1, .ok 0, .raise, .ok 0, .ok 0, .raise, .ok 1, .ok 2, .ok 0, .ok 2, .ok 0, .ok 0,
      .raise] := by
  decide +kernel

/-- Hypotheses of the two theorems above are met. -/
example : ∃ o, (run [.newTag "a" false 1]).2.objs[0]? = some (some o) ∧ o.timing = true :=
  ⟨⟨true, 0, 1⟩, rfl, rfl⟩

end Kalibr.Timer
