import Verif.Single.Model
import Verif.Tactics

/-!
# C196: singletons
-/

namespace Kalibr.Single

/-- The pointer is the one object there is. -/
def Inv (s : St) : Prop := s.live = s.instance'.toList ∧ ∀ p ∈ s.live, p < s.next

theorem inv_new : Inv St.new := ⟨rfl, by simp [St.new]⟩

theorem construct_inv {s t : St} (h : Inv s) (hc : construct s = .ok t) :
    Inv t ∧ s.instance' = none ∧ t.instance' = some s.next ∧ t.live = [s.next] := by
  unfold construct at hc
  cases hi : s.instance' with
  | some p => rw [hi] at hc; cases hc
  | none =>
    rw [hi] at hc
    simp only [Option.isSome_none, Bool.false_eq_true, if_false, Out.ok.injEq] at hc
    subst hc
    have hl : s.live = [] := by rw [h.1, hi]; rfl
    simp only [Inv, hl]
    simp

theorem destroy_inv {s t : St} {a : ℕ} (h : Inv s) (hd : destroy s a = .ok t) : Inv t ∧ t.instance' = none := by
  unfold destroy at hd
  split_ifs at hd with ha
  rw [Out.ok.injEq] at hd
  subst hd
  refine ⟨⟨?_, ?_⟩, rfl⟩
  · rw [h.1] at ha ⊢
    cases hi : s.instance' with
    | none => rw [hi] at ha; cases ha
    | some p =>
      rw [hi] at ha
      simp only [Option.toList_some, List.mem_singleton] at ha
      simp [ha]
  · intro p hp
    exact h.2 p (List.mem_of_mem_erase hp)

theorem get_inv {s : St} (h : Inv s) : ∃ p t, getInstance s = .ok (p, t) ∧ Inv t ∧ t.instance' = some p ∧ t.live = [p] ∧
    (∀ q, s.instance' = some q → q = p ∧ t = s) := by
  cases hi : s.instance' with
  | some p =>
    refine ⟨p, s, ?_, h, hi, ?_, ?_⟩
    · simp [getInstance, hi]
    · rw [h.1, hi]; rfl
    · rintro q hq
      exact ⟨(Option.some.inj hq).symm, rfl⟩
  | none =>
    have hc : construct s = .ok { instance' := some s.next, live := s.next :: s.live, next := s.next + 1 } := by
      simp [construct, hi]
    have := construct_inv h hc
    refine ⟨s.next, _, ?_, this.1, rfl, this.2.2.2, by simp⟩
    simp [getInstance, hi, hc]

theorem step_inv {s t : St} (h : Inv s) (o : Op) (hs : step s o = .ok t) : Inv t := by
  cases o with
  | get =>
    obtain ⟨p, u, hg, hu, -⟩ := get_inv h
    simp only [step, hg, Out.ok.injEq] at hs
    exact hs ▸ hu
  | make =>
    simp only [step] at hs
    cases hc : construct s with
    | ok u => rw [hc] at hs; simp only [Out.ok.injEq] at hs; exact hs ▸ (construct_inv h hc).1
    | raise => rw [hc] at hs; simp only [Out.ok.injEq] at hs; exact hs ▸ h
    | ub => rw [hc] at hs; cases hs
  | makeFails =>
    simp only [step] at hs
    cases hc : construct s with
    | ok u => rw [hc] at hs; exact (destroy_inv (construct_inv h hc).1 hs).1
    | raise => rw [hc] at hs; simp only [Out.ok.injEq] at hs; exact hs ▸ h
    | ub => rw [hc] at hs; cases hs
  | destroy a => exact (destroy_inv h hs).1

theorem run_inv {s t : St} (h : Inv s) (l : List Op) (hr : run s l = .ok t) : Inv t := by
  induction l generalizing s with
  | nil => simp only [run, Out.ok.injEq] at hr; exact hr ▸ h
  | cons o l ih =>
    simp only [run] at hr
    cases hs : step s o with
    | ok u => rw [hs] at hr; exact ih (step_inv h o hs) hr
    | raise => rw [hs] at hr; cases hr
    | ub => rw [hs] at hr; cases hr

/-- In a program of one thread there is at most one object at any time, and it exists exactly if `exists` says so.
`getInstance` always gives it, and makes it if needed.  Making another one raises and leaves it as it is. -/
theorem C196_one_partial (l : List Op) (s : St) (hr : run St.new l = .ok s) :
    s.live.length ≤ 1 ∧ (exists' s = true ↔ s.live ≠ []) ∧
    (∃ p t, getInstance s = .ok (p, t) ∧ t.live = [p] ∧ (∀ q, s.live = [q] → p = q ∧ t = s)) ∧
    (s.live ≠ [] → construct s = .raise) ∧ (s.live = [] → ∃ t, construct s = .ok t) ∧
    (∀ a, destroy s a = .ub ↔ a ∉ s.live) := by
  have h := run_inv inv_new l hr
  have hex : exists' s = true ↔ s.live ≠ [] := by
    unfold exists'
    rw [h.1]
    cases s.instance' <;> simp
  refine ⟨?_, hex, ?_, ?_, ?_, fun a => ?_⟩
  · rw [h.1]
    cases s.instance' <;> simp
  · obtain ⟨p, t, h1, -, -, h4, h5⟩ := get_inv h
    refine ⟨p, t, h1, h4, fun q hq => ?_⟩
    rw [h.1] at hq
    cases hi : s.instance' with
    | none => rw [hi] at hq; cases hq
    | some r =>
      rw [hi] at hq
      simp only [Option.toList_some, List.cons.injEq, and_true] at hq
      have := h5 r hi
      exact ⟨by rw [← this.1, hq], this.2⟩
  · intro hl
    unfold construct
    exact if_pos (hex.2 hl)
  · intro hl
    have : ¬ s.instance'.isSome = true := fun hc => hex.1 hc hl
    exact ⟨_, by unfold construct; rw [if_neg this]⟩
  · unfold destroy
    split_ifs with ha <;> simp [ha]

/-- The object stays the same as long as it is not destroyed, whatever else the program does. -/
theorem C196_same (l m : List Op) (s t : St) (hs : run St.new l = .ok s) (p : ℕ) (u : St) (hg : getInstance s = .ok (p, u))
    (hm : ∀ a, Op.destroy a ∉ m) (ht : run u m = .ok t) : ∃ v, getInstance t = .ok (p, v) ∧ v = t := by
  have h := run_inv inv_new l hs
  obtain ⟨p', u', hg', hu, hp, -⟩ := get_inv h
  rw [hg'] at hg
  simp only [Out.ok.injEq, Prod.mk.injEq] at hg
  obtain ⟨rfl, rfl⟩ := hg
  have keep : ∀ (m : List Op) (u : St), Inv u → u.instance' = some p' → (∀ a, Op.destroy a ∉ m) → run u m = .ok t → t = u := by
    intro m
    induction m with
    | nil => intro u _ _ _ hr; simp only [run, Out.ok.injEq] at hr; exact hr.symm
    | cons o m ih =>
      intro u hu hp hm hr
      have hc : construct u = .raise := by unfold construct; rw [hp]; rfl
      have hst : step u o = .ok u := by
        cases o with
        | get =>
          obtain ⟨q, v, h1, -, -, -, h5⟩ := get_inv hu
          simp only [step, h1]
          rw [(h5 p' hp).2]
        | make => simp only [step, hc]
        | makeFails => simp only [step, hc]
        | destroy a => exact absurd (List.mem_cons_self ..) (hm a)
      simp only [run, hst, Out.bind] at hr
      exact ih u hu hp (fun a ha => hm a (List.mem_cons_of_mem _ ha)) hr
  have := keep m _ hu hp hm ht
  subst this
  obtain ⟨q, v, h1, -, -, -, h5⟩ := get_inv hu
  obtain ⟨rfl, rfl⟩ := h5 p' hp
  exact ⟨_, h1, rfl⟩

/-- Threads that call `getInstance` only after the object was made all get this object, whatever the schedule, and no other one
is made. -/
theorem C196_threads_partial (s : St) (p : ℕ) (hi : s.instance' = some p) (l : List ℕ) :
    let w := sched ⟨s, fun _ => .check⟩ l
    w.s = s ∧ ∀ t, w.pc t = .check ∨ w.pc t = .ret ∨ w.pc t = .done p := by
  have key : ∀ (l : List ℕ) (w : World), w.s = s → (∀ t, w.pc t = .check ∨ w.pc t = .ret ∨ w.pc t = .done p) →
      (sched w l).s = s ∧ ∀ t, (sched w l).pc t = .check ∨ (sched w l).pc t = .ret ∨ (sched w l).pc t = .done p := by
    intro l
    induction l with
    | nil => intro w h1 h2; exact ⟨h1, h2⟩
    | cons a l ih =>
      intro w h1 h2
      refine ih (tstep w a) ?_ ?_
      · rcases h2 a with h | h | h <;> simp [tstep, h, h1, hi]
      · intro t
        by_cases ht : t = a
        · subst ht
          rcases h2 t with h | h | h <;> simp [tstep, h, h1, hi]
        · rcases h2 a with h | h | h <;> simp [tstep, h, h1, hi, Function.update_of_ne ht, h2 t]
  exact key l _ rfl fun _ => Or.inl rfl

/-- Each thread that is given two steps then has the object. -/
theorem C196_threads_end (s : St) (p : ℕ) (hi : s.instance' = some p) (l : List ℕ) (t : ℕ) (h : 2 ≤ l.count t) :
    (sched ⟨s, fun _ => .check⟩ l).pc t = .done p := by
  have key : ∀ (l : List ℕ) (w : World), w.s = s → (∀ t, w.pc t = .check ∨ w.pc t = .ret ∨ w.pc t = .done p) →
      (w.pc t = .check → 2 ≤ l.count t) → (w.pc t = .ret → 1 ≤ l.count t) → (sched w l).pc t = .done p := by
    intro l
    induction l with
    | nil =>
      intro w _ h2 h3 h4
      rcases h2 t with h | h | h
      · have := h3 h; simp at this
      · have := h4 h; simp at this
      · exact h
    | cons a l ih =>
      intro w h1 h2 h3 h4
      refine ih (tstep w a) ?_ ?_ ?_ ?_
      · rcases h2 a with h | h | h <;> simp [tstep, h, h1, hi]
      · intro t
        by_cases ht : t = a
        · subst ht
          rcases h2 t with h | h | h <;> simp [tstep, h, h1, hi]
        · rcases h2 a with h | h | h <;> simp [tstep, h, h1, hi, Function.update_of_ne ht, h2 t]
      · by_cases ht : t = a
        · subst ht
          rcases h2 t with h | h | h <;> simp [tstep, h, h1, hi]
        · intro hc
          have hw : w.pc t = .check := by
            rcases h2 a with h | h | h <;> simpa [tstep, h, h1, hi, Function.update_of_ne ht] using hc
          have := h3 hw
          rwa [List.count_cons_of_ne (Ne.symm ht)] at this
      · by_cases ht : t = a
        · subst ht
          rcases h2 t with h | h | h
          · intro _
            have := h3 h
            rw [List.count_cons_self] at this
            omega
          · simp [tstep, h, h1, hi]
          · simp [tstep, h]
        · intro hc
          have hw : w.pc t = .ret := by
            rcases h2 a with h | h | h <;> simpa [tstep, h, h1, hi, Function.update_of_ne ht] using hc
          have := h4 hw
          rwa [List.count_cons_of_ne (Ne.symm ht)] at this
  exact key l _ rfl (fun _ => Or.inl rfl) (fun _ => h) (fun h => by cases h)

/-- Two threads that call `getInstance` first may each get an object of their own, or one of them an exception. -/
theorem C196_counterexample :
    (∃ l, (sched ⟨St.new, fun _ => .check⟩ l).pc 0 = .done 0 ∧ (sched ⟨St.new, fun _ => .check⟩ l).pc 1 = .done 1 ∧
      (sched ⟨St.new, fun _ => .check⟩ l).s.live = [1, 0]) ∧
    (∃ l, (sched ⟨St.new, fun _ => .check⟩ l).pc 0 = .done 0 ∧ (sched ⟨St.new, fun _ => .check⟩ l).pc 1 = .raised) :=
  ⟨⟨[0, 1, 0, 1, 0, 0, 1, 1], by decide, by decide, by decide⟩, ⟨[0, 1, 0, 0, 0, 1], by decide, by decide⟩⟩

/-- A program that makes, destroys and makes the object again. -/
example : ∃ s, run St.new [.get, .make, .destroy 0, .makeFails, .get] = .ok s ∧ s.live = [2] := ⟨_, rfl, rfl⟩

end Kalibr.Single
