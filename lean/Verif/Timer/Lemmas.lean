import Verif.Timer.Spec

/-! Refinement of the timer registry to its specification. -/

namespace Kalibr.Timer

/-- A timer object represents a specification timer. -/
def ObjRel (tags : List String) : Option Obj → Option (String × Option ℚ) → Prop
  | none, none => True
  | some o, some (tag, st) => tags[o.handle]? = some tag ∧
      (match st with
       | none => o.timing = false
       | some t => o.timing = true ∧ o.time = t)
  | _, _ => False

structure Rel (s : State) (a : Spec) : Prop where
  nodup : a.tags.Nodup
  map : s.tagMap = a.tags.zipIdx
  timers : s.timers = a.tags.map a.samples
  unused : ∀ t, t ∉ a.tags → a.samples t = []
  len : s.objs.length = a.objs.length
  objs : ∀ i : Nat, ∀ x y, s.objs[i]? = some x → a.objs[i]? = some y → ObjRel a.tags x y

theorem Rel.init : Rel State.init Spec.init := by
  constructor <;> simp [State.init, Spec.init]

theorem find_zipIdx (l : List String) (k : Nat) (tag : String) :
    ((l.zipIdx k).find? fun e => e.1 == tag).map (·.2) =
      if tag ∈ l then some (l.idxOf tag + k) else none := by
  induction l generalizing k with
  | nil => simp
  | cons x l ih =>
    rw [List.zipIdx_cons, List.find?_cons]
    by_cases h : x = tag
    · subst h; simp
    · have hb : (x == tag) = false := by simpa using h
      simp only [hb]
      rw [ih]
      have h' : ¬ tag = x := fun hc => h hc.symm
      simp only [List.mem_cons, h', false_or]
      split
      · rw [List.idxOf_cons]; simp [hb]; omega
      · rfl

theorem lookup_rel {s : State} {a : Spec} (r : Rel s a) (tag : String) :
    lookup s.tagMap tag = if tag ∈ a.tags then some (a.tags.idxOf tag) else none := by
  unfold lookup
  rw [r.map]
  simpa using find_zipIdx a.tags 0 tag

theorem Rel.timers_len {s : State} {a : Spec} (r : Rel s a) : s.timers.length = a.tags.length := by
  rw [r.timers]; simp

theorem ObjRel.mono {tags : List String} {tag : String} {x y} (h : ObjRel tags x y) :
    ObjRel (tags ++ [tag]) x y := by
  cases x with
  | none => cases y <;> simpa [ObjRel] using h
  | some o =>
    cases y with
    | none => simp [ObjRel] at h
    | some y =>
      obtain ⟨t, st⟩ := y
      simp only [ObjRel] at h ⊢
      refine ⟨?_, h.2⟩
      rw [List.getElem?_append_left]
      · exact h.1
      · exact (List.getElem?_eq_some_iff.1 h.1).1

theorem idxOf_get {l : List String} (hn : l.Nodup) {i : Nat} {t : String} (h : l[i]? = some t) :
    l.idxOf t = i := by
  obtain ⟨hi, he⟩ := List.getElem?_eq_some_iff.1 h
  rw [← he]; exact hn.idxOf_getElem i hi

theorem get_idxOf {l : List String} {t : String} (h : t ∈ l) : l[l.idxOf t]? = some t := by
  rw [List.getElem?_eq_getElem (List.idxOf_lt_length_of_mem h)]
  simp

theorem getHandle_rel {s : State} {a : Spec} (r : Rel s a) (tag : String) :
    Rel (getHandle s tag).1 (a.use tag) ∧ (getHandle s tag).2 = (a.use tag).tags.idxOf tag ∧
      tag ∈ (a.use tag).tags := by
  unfold getHandle Spec.use
  rw [lookup_rel r]
  by_cases h : tag ∈ a.tags
  · rw [if_pos h, if_pos h]
    exact ⟨r, rfl, h⟩
  · rw [if_neg h, if_neg h]
    refine ⟨⟨?_, ?_, ?_, ?_, r.len, ?_⟩, ?_, by simp⟩
    · simp only
      rw [List.nodup_append]
      refine ⟨r.nodup, by simp, ?_⟩
      intro x hx y hy
      simp at hy; subst hy
      exact fun hc => h (hc ▸ hx)
    · simp only [r.map, r.timers_len, List.zipIdx_append]
      simp
    · simp only [r.timers, List.map_append, List.map_cons, List.map_nil]
      rw [r.unused tag h]
    · intro t ht
      simp at ht
      exact r.unused t ht.1
    · intro i x y hx hy
      exact (r.objs i x y hx hy).mono
    · simp only [r.timers_len]
      rw [List.idxOf_append_of_notMem h]
      simp

theorem construct_rel {s : State} {a : Spec} (r : Rel s a) {h : Nat} {tag : String}
    (ht : a.tags[h]? = some tag) (stopped : Bool) (now : ℚ) :
    (construct s h stopped now).1 = (a.new tag stopped now).1 ∧
    Rel (construct s h stopped now).2 (a.new tag stopped now).2 := by
  unfold construct Spec.new
  refine ⟨by rw [r.len], ⟨r.nodup, r.map, r.timers, r.unused, by simp [r.len], ?_⟩⟩
  intro i x y hx hy
  simp only at hx hy
  by_cases hi : i < s.objs.length
  · rw [List.getElem?_append_left hi] at hx
    rw [List.getElem?_append_left (r.len ▸ hi)] at hy
    exact r.objs i x y hx hy
  · rw [List.getElem?_append_right (by omega)] at hx
    rw [List.getElem?_append_right (by have := r.len; omega)] at hy
    have h0 : i - s.objs.length = 0 := by
      by_contra hc
      rw [List.getElem?_eq_none (by simp only [List.length_cons, List.length_nil]; omega)] at hx
      cases hx
    rw [h0] at hx
    rw [← r.len, h0] at hy
    simp at hx hy
    subst hx hy
    simp only [ObjRel]
    refine ⟨ht, ?_⟩
    cases stopped <;> simp

theorem record_rel {s : State} {a : Spec} (r : Rel s a) {h : Nat} {tag : String}
    (ht : a.tags[h]? = some tag) (dt : ℚ) :
    ∃ s', addTime s h dt = .ok s' ∧ Rel s' (a.record tag dt) ∧ s'.objs = s.objs := by
  have hh : h < a.tags.length := (List.getElem?_eq_some_iff.1 ht).1
  unfold addTime
  rw [r.timers, List.getElem?_map, ht]
  refine ⟨_, rfl, ⟨r.nodup, r.map, ?_, ?_, r.len, r.objs⟩, rfl⟩
  · simp only [Spec.record]
    apply List.ext_getElem?
    intro i
    rw [List.getElem?_set, List.getElem?_map]
    by_cases hi : h = i
    · subst hi
      rw [if_pos rfl, if_pos (by simpa using hh), List.getElem?_map, ht]
      simp
    · rw [if_neg hi, List.getElem?_map]
      cases hti : a.tags[i]? with
      | none => rfl
      | some t =>
        simp only [Option.map_some, Option.some.injEq]
        rw [if_neg]
        intro hc
        subst hc
        exact hi ((idxOf_get r.nodup ht).symm.trans (idxOf_get r.nodup hti))
  · intro t hnt
    simp only [Spec.record] at hnt ⊢
    rw [if_neg]
    · exact r.unused t hnt
    · intro hc
      subst hc
      exact hnt (List.mem_of_getElem? ht)

theorem setObj_rel {s : State} {a : Spec} (r : Rel s a) (id : Nat) {x y}
    (h : ObjRel a.tags x y) :
    Rel { s with objs := s.objs.set id x } { a with objs := a.objs.set id y } := by
  refine ⟨r.nodup, r.map, r.timers, r.unused, by simp [r.len], ?_⟩
  intro i x' y' hx hy
  simp only at hx hy ⊢
  rw [List.getElem?_set] at hx hy
  by_cases hi : id = i
  · rw [if_pos hi] at hx hy
    split at hx
    · split at hy
      · cases hx; cases hy; exact h
      · cases hy
    · cases hx
  · rw [if_neg hi] at hx hy
    exact r.objs i x' y' hx hy

theorem clear_rel {s : State} {a : Spec} (r : Rel s a) {h : Nat} {tag : String}
    (ht : a.tags[h]? = some tag) :
    (reset s h).1 = .ok 0 ∧ Rel (reset s h).2 (a.clear tag) := by
  have hh : h < a.tags.length := (List.getElem?_eq_some_iff.1 ht).1
  unfold reset
  rw [r.timers, List.getElem?_map, ht]
  refine ⟨rfl, ⟨r.nodup, r.map, ?_, ?_, r.len, r.objs⟩⟩
  · simp only [Spec.clear, Option.map_some]
    apply List.ext_getElem?
    intro i
    rw [List.getElem?_set, List.getElem?_map]
    by_cases hi : h = i
    · subst hi
      rw [if_pos rfl, if_pos (by simpa using hh), List.getElem?_map, ht]
      simp
    · rw [if_neg hi, List.getElem?_map]
      cases hti : a.tags[i]? with
      | none => rfl
      | some t =>
        simp only [Option.map_some, Option.some.injEq]
        rw [if_neg]
        intro hc
        subst hc
        exact hi ((idxOf_get r.nodup ht).symm.trans (idxOf_get r.nodup hti))
  · intro t hnt
    simp only [Spec.clear] at hnt ⊢
    split
    · rfl
    · exact r.unused t hnt

theorem objs_cases {s : State} {a : Spec} (r : Rel s a) (id : Nat) :
    (s.objs[id]? = none ∧ a.objs[id]? = none) ∨
    (s.objs[id]? = some none ∧ a.objs[id]? = some none) ∨
    (∃ o tag st, s.objs[id]? = some (some o) ∧ a.objs[id]? = some (some (tag, st)) ∧
      a.tags[o.handle]? = some tag ∧
      ((st = none ∧ o.timing = false) ∨ (st = some o.time ∧ o.timing = true))) := by
  by_cases hi : id < s.objs.length
  · have hi' : id < a.objs.length := r.len ▸ hi
    have e1 := List.getElem?_eq_getElem hi
    have e2 := List.getElem?_eq_getElem hi'
    have h := r.objs id _ _ e1 e2
    rw [e1, e2]
    generalize s.objs[id] = x at h
    generalize a.objs[id] = y at h
    cases x with
    | none =>
      cases y with
      | none => right; left; exact ⟨rfl, rfl⟩
      | some y => simp [ObjRel] at h
    | some o =>
      cases y with
      | none => simp [ObjRel] at h
      | some y =>
        obtain ⟨tag, st⟩ := y
        right; right
        simp only [ObjRel] at h
        refine ⟨o, tag, st, rfl, rfl, h.1, ?_⟩
        cases st with
        | none => exact Or.inl ⟨rfl, h.2⟩
        | some t => exact Or.inr ⟨by rw [h.2.2], h.2.1⟩
  · left
    rw [List.getElem?_eq_none (by omega), List.getElem?_eq_none (by have := r.len; omega)]
    exact ⟨rfl, rfl⟩

theorem stop_rel {s : State} {a : Spec} (r : Rel s a) (id : Nat) {o : Obj} {tag : String}
    (ht : a.tags[o.handle]? = some tag) (hon : o.timing = true) (now : ℚ) :
    ∃ s', stopObj s id o now = .ok s' ∧
      Rel s' { a.record tag (now - o.time) with objs := a.objs.set id (some (tag, none)) } ∧
      Rel { s' with objs := s'.objs.set id none }
        { a.record tag (now - o.time) with objs := a.objs.set id none } := by
  obtain ⟨s1, e1, r1, ho⟩ := record_rel r ht (now - o.time)
  unfold stopObj
  rw [if_pos hon, e1]
  refine ⟨_, rfl, ?_, ?_⟩
  · exact setObj_rel r1 id (x := some { o with timing := false }) (y := some (tag, none))
      ⟨ht, rfl⟩
  · have := setObj_rel r1 id (x := none) (y := none) trivial
    simpa [Spec.record] using this

theorem step_rel {s : State} {a : Spec} (r : Rel s a) (op : Op) :
    (step s op).1 = (a.step op).1 ∧ Rel (step s op).2 (a.step op).2 := by
  cases op with
  | handle tag =>
    obtain ⟨h1, h2, h3⟩ := getHandle_rel r tag
    simp only [step, Spec.step, h2]
    exact ⟨trivial, h1⟩
  | newTag tag stopped now =>
    obtain ⟨h1, h2, h3⟩ := getHandle_rel r tag
    simp only [step, Spec.step]
    apply construct_rel h1
    rw [h2]; exact get_idxOf h3
  | newHandle h stopped now =>
    simp only [step, Spec.step]
    by_cases hh : h < s.timers.length
    · rw [if_pos hh, List.getElem?_eq_getElem (r.timers_len ▸ hh)]
      exact construct_rel r (List.getElem?_eq_getElem (r.timers_len ▸ hh)) _ _
    · rw [if_neg hh, List.getElem?_eq_none (by have := r.timers_len; omega)]
      exact ⟨rfl, r⟩
  | start id now =>
    simp only [step, Spec.step]
    rcases objs_cases r id with ⟨h1, h2⟩ | ⟨h1, h2⟩ | ⟨o, tag, st, h1, h2, h3, h4⟩
    · simp only [h1, h2]; exact ⟨trivial, r⟩
    · simp only [h1, h2]; exact ⟨trivial, r⟩
    · rcases h4 with ⟨rfl, h4⟩ | ⟨rfl, h4⟩
      · simp only [h1, h2, startObj, h4]
        refine ⟨by simp, ?_⟩
        exact setObj_rel r id (x := some ⟨true, o.handle, now⟩) ⟨h3, rfl, rfl⟩
      · simp only [h1, h2, startObj, h4]
        exact ⟨by simp, by simpa using r⟩
  | stop id now =>
    simp only [step, Spec.step]
    rcases objs_cases r id with ⟨h1, h2⟩ | ⟨h1, h2⟩ | ⟨o, tag, st, h1, h2, h3, h4⟩
    · simp only [h1, h2]; exact ⟨trivial, r⟩
    · simp only [h1, h2]; exact ⟨trivial, r⟩
    · rcases h4 with ⟨rfl, h4⟩ | ⟨rfl, h4⟩
      · simp only [h1, h2, stopObj, h4]
        exact ⟨by simp, by simpa using r⟩
      · obtain ⟨s', e, r1, _⟩ := stop_rel r id h3 h4 now
        simp only [h1, h2, e]
        exact ⟨trivial, r1⟩
  | destroy id now =>
    simp only [step, Spec.step]
    rcases objs_cases r id with ⟨h1, h2⟩ | ⟨h1, h2⟩ | ⟨o, tag, st, h1, h2, h3, h4⟩
    · simp only [h1, h2]; exact ⟨trivial, r⟩
    · simp only [h1, h2]; exact ⟨trivial, r⟩
    · rcases h4 with ⟨rfl, h4⟩ | ⟨rfl, h4⟩
      · simp only [h1, h2, h4]
        exact ⟨by simp, by simpa using setObj_rel r id (x := none) (y := none) trivial⟩
      · obtain ⟨s', e, _, r2⟩ := stop_rel r id h3 h4 now
        simp only [h1, h2, h4, if_true, e]
        exact ⟨trivial, r2⟩
  | numSamples h =>
    simp only [step, Spec.step, getNumSamples, r.timers, List.getElem?_map]
    cases a.tags[h]? with
    | none => exact ⟨rfl, r⟩
    | some tag => exact ⟨rfl, r⟩
  | numSamplesTag tag =>
    obtain ⟨h1, h2, h3⟩ := getHandle_rel r tag
    simp only [step, Spec.step, getNumSamples, h1.timers, List.getElem?_map, h2, get_idxOf h3,
      Option.map_some]
    refine ⟨?_, h1⟩
    unfold Spec.use
    split <;> rfl
  | reset h =>
    simp only [step, Spec.step]
    cases hh : a.tags[h]? with
    | none =>
      simp only [reset, r.timers, List.getElem?_map, hh, Option.map_none]
      exact ⟨trivial, r⟩
    | some tag => exact clear_rel r hh
  | resetTag tag =>
    obtain ⟨h1, h2, h3⟩ := getHandle_rel r tag
    simp only [step, Spec.step]
    apply clear_rel h1
    rw [h2]; exact get_idxOf h3

theorem runFrom_rel {s : State} {a : Spec} (r : Rel s a) (ops : List Op) :
    (runFrom s ops).1 = (Spec.runFrom a ops).1 ∧ Rel (runFrom s ops).2 (Spec.runFrom a ops).2 := by
  induction ops generalizing s a with
  | nil => exact ⟨rfl, r⟩
  | cons op ops ih =>
    obtain ⟨h1, h2⟩ := step_rel r op
    obtain ⟨h3, h4⟩ := ih h2
    simp only [runFrom, Spec.runFrom, h1, h3]
    exact ⟨trivial, h4⟩

theorem runFrom_append (s : State) (ops more : List Op) :
    (runFrom s (ops ++ more)).2 = (runFrom (runFrom s ops).2 more).2 := by
  induction ops generalizing s with
  | nil => rfl
  | cons op ops ih => simp only [List.cons_append, runFrom]; exact ih _

end Kalibr.Timer
