import Verif.Mutex.Model
import Verif.Tactics

/-!
# Mutual exclusion for every schedule (C172)
-/

namespace Kalibr.Mutex

/-- The thread is in `Condition::wait`. -/
def Ph.cond : Ph → Bool
  | .condW _ => true
  | .condM _ => true
  | .condL _ => true
  | _ => false

/-- What holds after every schedule without `tryLock`: `h` counts how often each thread holds the mutex. -/
structure Good (s : Sys) (h : Tid → ℤ) : Prop where
  zero : s.numLocks = 0 ↔ s.owner = none
  hold : ∀ t, h t = if s.owner = some t then (s.numLocks : ℤ) else 0
  single : s.recursive = false → s.numLocks ≤ 1
  busy : ∀ t, s.recursive = false → (s.ph t).cond = true → s.owner ≠ some t

theorem good_init (r : Bool) : Good (Sys.init r) fun _ => 0 :=
  ⟨by simp [Sys.init], by simp [Sys.init], by simp [Sys.init], by simp [Sys.init, Ph.cond]⟩

/-- The fields that count are the same. -/
theorem Good.of_eq {s s' : Sys} {h h' : Tid → ℤ} (g : Good s h) (e1 : s'.numLocks = s.numLocks) (e2 : s'.owner = s.owner)
    (e3 : s'.recursive = s.recursive) (e4 : ∀ t, h' t = h t)
    (e5 : ∀ t, s.recursive = false → (s'.ph t).cond = true → s.owner ≠ some t) : Good s' h' :=
  ⟨by rw [e1, e2]; exact g.zero, fun t => by rw [e4, e1, e2]; exact g.hold t, by rw [e1, e3]; exact g.single,
    fun t hr hp => by rw [e2]; exact e5 t (e3 ▸ hr) hp⟩

theorem signalM_fields (s : Sys) (p : Tid) : (s.signalM p).numLocks = s.numLocks ∧ (s.signalM p).owner = s.owner ∧
    (s.signalM p).recursive = s.recursive ∧ (s.signalM p).ph = s.ph ∧ (s.signalM p).stuck = s.stuck := by
  unfold Sys.signalM
  split <;> simp

theorem Good.signalM {s : Sys} {h : Tid → ℤ} (g : Good s h) (p : Tid) : Good (s.signalM p) h := by
  obtain ⟨a, b, c, d, -⟩ := signalM_fields s p
  exact g.of_eq a b c (fun _ => rfl) (fun t hr hp => g.busy t hr (by rw [← d]; exact hp))

theorem Good.move {s : Sys} {h : Tid → ℤ} (g : Good s h) {t : Tid} {p : Ph}
    (hp : p.cond = false ∨ (s.recursive = false → s.owner ≠ some t)) : Good (s.move t p) h := by
  refine g.of_eq rfl rfl rfl (fun _ => rfl) (fun u hr hu => ?_)
  by_cases e : u = t
  · subst e
    rcases hp with hp | hp
    · simp [Sys.move, hp] at hu
    · exact hp hr
  · simp only [Sys.move, Function.update_of_ne e] at hu
    exact g.busy u hr hu

theorem Good.take {s : Sys} {h : Tid → ℤ} (g : Good s h) (t : Tid) (h0 : s.numLocks = 0) {e : Ev}
    (he : ∀ u, change u e = if t = u then 1 else 0) : Good (s.take t) fun u => h u + change u e := by
  have ho := g.zero.mp h0
  refine ⟨by simp [Sys.take], fun u => ?_, fun _ => by simp [Sys.take, h0], fun u hr hu => ?_⟩
  · rw [he, g.hold u, ho]
    by_cases e : t = u
    · subst e; simp [Sys.take, h0]
    · simp [Sys.take, e]
  · by_cases e : u = t
    · subst e; simp [Sys.take, Sys.move, Ph.cond] at hu
    · simp only [Sys.take]
      intro h
      exact e (Option.some.inj h).symm

theorem Good.more {s : Sys} {h : Tid → ℤ} (g : Good s h) {s' : Sys} (t : Tid) (ho : s.owner = some t) {e : Ev}
    (he : ∀ u, change u e = if t = u then 1 else 0) (e1 : s'.numLocks = s.numLocks + 1) (e2 : s'.owner = s.owner)
    (e3 : s'.recursive = true) : Good s' fun u => h u + change u e := by
  refine ⟨by rw [e1, e2, ho]; simp, fun u => ?_, fun hr => by rw [e3] at hr; simp at hr,
    fun u hr => by rw [e3] at hr; simp at hr⟩
  rw [he, g.hold u, e2, ho, e1]
  by_cases e : t = u
  · subst e; simp
  · simp [e]

theorem Good.add_zero {s : Sys} {h : Tid → ℤ} (g : Good s h) {e : Ev} (he : ∀ u, change u e = 0) :
    Good s fun u => h u + change u e := by
  simpa [he] using g

theorem Good.lockStep {s : Sys} {h : Tid → ℤ} (g : Good s h) (t : Tid) {w : W} (hw : w ≠ .no) :
    Good (lockStep s t w).1 fun u => h u + change u (lockStep s t w).2 := by
  unfold Mutex.lockStep
  by_cases ho : s.owner = some t
  · rw [if_pos ho]
    by_cases hr : s.recursive = true
    · rw [if_pos hr]
      exact g.more t ho (fun _ => rfl) rfl rfl hr
    · rw [if_neg hr]
      exact g.add_zero fun _ => rfl
  · rw [if_neg ho]
    by_cases h0 : s.numLocks ≠ 0
    · rw [if_pos h0]
      cases w with
      | no => exact absurd rfl hw
      | «until» => exact (g.move (Or.inr fun _ => ho)).add_zero fun _ => rfl
      | eternal => exact (g.move (Or.inr fun _ => ho)).add_zero fun _ => rfl
    · rw [if_neg h0]
      exact g.take t (by simpa using h0) fun _ => rfl

theorem Good.relock {s : Sys} {h : Tid → ℤ} (g : Good s h) (t : Tid) (r : Bool) :
    Good (relock s t r).1 fun u => h u + change u (relock s t r).2 := by
  unfold Mutex.relock
  by_cases ho : s.owner = some t
  · rw [if_pos ho]
    by_cases hr : s.recursive = true
    · rw [if_pos hr]
      exact g.more t ho (fun _ => rfl) rfl rfl hr
    · rw [if_neg hr]
      exact ((g.move (p := .idle) (Or.inl rfl)).of_eq (s' := { s.move t .idle with stuck := true }) rfl rfl rfl (fun _ => rfl)
        (g.move (p := .idle) (Or.inl rfl)).busy).add_zero fun _ => rfl
  · rw [if_neg ho]
    by_cases h0 : s.numLocks ≠ 0
    · rw [if_pos h0]
      exact (g.move (Or.inr fun _ => ho)).add_zero fun _ => rfl
    · rw [if_neg h0]
      exact g.take t (by simpa using h0) fun _ => rfl

theorem safeUnlock_some {s s' : Sys} {t p : Tid} (e : safeUnlock s t p = some s') : s.owner = some t ∧ s.numLocks ≠ 0 ∧
    s'.numLocks = s.numLocks - 1 ∧ s'.owner = (if s.numLocks = 1 then none else some t) ∧ s'.recursive = s.recursive ∧
    s'.ph = s.ph ∧ s'.stuck = s.stuck := by
  unfold safeUnlock at e
  by_cases h0 : s.numLocks = 0
  · rw [if_pos h0] at e; simp at e
  rw [if_neg h0] at e
  by_cases ho : s.owner = some t
  · rw [if_neg (by simpa using ho)] at e
    refine ⟨ho, h0, ?_⟩
    simp only at e
    by_cases h1 : s.numLocks - 1 = 0
    · rw [if_pos h1] at e
      have hone : s.numLocks = 1 := by omega
      rw [← Option.some.inj e]
      obtain ⟨a, b, c, d, f⟩ := signalM_fields ({ s with numLocks := s.numLocks - 1, owner := none } : Sys) p
      rw [if_pos hone]
      exact ⟨a, b, c, d, f⟩
    · rw [if_neg h1] at e
      rw [← Option.some.inj e, if_neg (by omega)]
      exact ⟨rfl, ho, rfl, rfl, rfl⟩
  · rw [if_pos ho] at e; simp at e

theorem safeUnlock_none {s : Sys} {t p : Tid} : safeUnlock s t p = none ↔ s.numLocks = 0 ∨ s.owner ≠ some t := by
  unfold safeUnlock
  by_cases h0 : s.numLocks = 0
  · simp [h0]
  · rw [if_neg h0]
    by_cases ho : s.owner = some t
    · rw [if_neg (by simpa using ho)]
      simp only
      split <;> simp [h0, ho]
    · rw [if_pos ho]; simp [ho]

theorem Good.safeUnlock {s s' : Sys} {h : Tid → ℤ} (g : Good s h) {t p : Tid} (e : safeUnlock s t p = some s') {ev : Ev}
    (he : ∀ u, change u ev = if t = u then -1 else 0) : Good s' fun u => h u + change u ev := by
  obtain ⟨ho, h0, a, b, c, d, -⟩ := safeUnlock_some e
  refine ⟨?_, fun u => ?_, fun hr => ?_, fun u hr hu => ?_⟩
  · rw [a, b]
    split
    · rename_i h; simp [h]
    · rename_i h
      have : ¬ s.numLocks - 1 = 0 := by omega
      simp [this]
  · rw [he, g.hold u, ho, a, b]
    by_cases e : t = u
    · subst e
      by_cases h : s.numLocks = 1
      · simp [h]
      · have : 1 ≤ s.numLocks := by omega
        simp only [if_neg h, if_true]
        push_cast [Nat.cast_sub this]; ring
    · have e' : ¬ some t = some u := fun h => e (Option.some.inj h)
      by_cases h : s.numLocks = 1
      · simp [h, e]
      · simp [h, e]
  · rw [a]
    have := g.single (c ▸ hr)
    omega
  · rw [d] at hu
    rw [b]
    split
    · simp
    · intro hh
      exact g.busy u (c ▸ hr) hu (by rw [ho]; exact hh)

theorem Good.stuck {s : Sys} {h : Tid → ℤ} (g : Good s h) : Good { s with stuck := true } h :=
  g.of_eq rfl rfl rfl (fun _ => rfl) g.busy

theorem Good.sig {s : Sys} {h : Tid → ℤ} (g : Good s h) (f : Tid → Bool) : Good { s with sig := f } h :=
  g.of_eq rfl rfl rfl (fun _ => rfl) g.busy

/-- One step keeps the count. -/
theorem Good.step {s : Sys} {h : Tid → ℤ} (g : Good s h) {a : Act} (ha : a.waits) :
    Good (step s a).1 fun u => h u + change u (step s a).2 := by
  unfold Mutex.step
  split
  · exact g.add_zero fun _ => rfl
  cases a with
  | lock t w =>
    simp only
    split
    · exact g.lockStep t (by rintro rfl; exact ha)
    · exact g.add_zero fun _ => rfl
  | unlock t pick =>
    simp only
    split
    · split
      · rename_i s' e
        exact g.safeUnlock e fun _ => rfl
      · exact g.add_zero fun _ => rfl
    · exact g.add_zero fun _ => rfl
  | waitUnlock t w pick =>
    simp only
    split
    · cases w with
      | no => exact (g.signalM pick).add_zero fun _ => rfl
      | «until» =>
        simp only
        split
        · exact (g.move (Or.inl rfl)).add_zero fun _ => rfl
        · exact (g.signalM pick).add_zero fun _ => rfl
      | eternal =>
        simp only
        split
        · exact (g.move (Or.inl rfl)).add_zero fun _ => rfl
        · exact (g.signalM pick).add_zero fun _ => rfl
    · exact g.add_zero fun _ => rfl
  | cwait t w pick =>
    have un (s' : Sys) (tm : Bool) (e : Mutex.safeUnlock s t pick = some s') :
        Good (s'.move t (.condW tm)) fun u => h u + change u (.condReleased t) := by
      refine (g.safeUnlock (ev := .condReleased t) e fun _ => rfl).move (Or.inr fun hr => ?_)
      obtain ⟨_, h0, _, b, c, _, _⟩ := safeUnlock_some e
      have := g.single (c ▸ hr)
      rw [b, if_pos (by omega)]
      simp
    simp only
    split
    · cases w with
      | no => exact g.add_zero fun _ => rfl
      | «until» =>
        simp only
        split
        · rename_i s' e
          exact un s' true e
        · exact g.stuck.add_zero fun _ => rfl
      | eternal =>
        simp only
        split
        · rename_i s' e
          exact un s' false e
        · exact g.stuck.add_zero fun _ => rfl
    · exact g.add_zero fun _ => rfl
  | csignal pick =>
    simp only
    split
    · exact (g.sig _).add_zero fun _ => rfl
    · exact g.add_zero fun _ => rfl
  | cbroadcast => exact (g.sig _).add_zero fun _ => rfl
  | wake t pick =>
    simp only
    cases hp : s.ph t with
    | idle => exact g.add_zero fun _ => rfl
    | lockW tm =>
      simp only
      split
      · exact (g.move (Or.inl rfl)).add_zero fun _ => rfl
      · rename_i h0
        exact g.take t (by simpa using h0) fun _ => rfl
    | unlW tm =>
      simp only
      split
      · exact (g.move (Or.inl rfl)).add_zero fun _ => rfl
      · exact ((g.move (p := .idle) (Or.inl rfl)).signalM pick).add_zero fun _ => rfl
    | condW tm =>
      simp only
      split
      · exact (g.move (Or.inr fun hr => g.busy t hr (by rw [hp]; rfl))).add_zero fun _ => rfl
      · exact g.relock t true
    | condM tm =>
      simp only
      split
      · exact (g.move (Or.inr fun hr => g.busy t hr (by rw [hp]; rfl))).add_zero fun _ => rfl
      · exact g.relock t true
    | condL r =>
      simp only
      split
      · exact (g.move (Or.inr fun hr => g.busy t hr (by rw [hp]; rfl))).add_zero fun _ => rfl
      · rename_i h0
        exact g.take t (by simpa using h0) fun _ => rfl
  | timeout t =>
    simp only
    split
    · exact g.add_zero fun _ => rfl
    split
    · exact (g.move (p := .idle) (Or.inl rfl)).add_zero fun _ => rfl
    · exact (g.move (p := .idle) (Or.inl rfl)).add_zero fun _ => rfl
    · exact g.relock t false
    · exact g.relock t false
    · exact g.add_zero fun _ => rfl

theorem safeUnlock_recursive {s s' : Sys} {t p : Tid} (e : safeUnlock s t p = some s') : s'.recursive = s.recursive :=
  (safeUnlock_some e).2.2.2.2.1

theorem step_recursive (s : Sys) (a : Act) : (step s a).1.recursive = s.recursive := by
  have sg (s : Sys) (p : Tid) := (signalM_fields s p).2.2.1
  have rl (t : Tid) (r : Bool) : (relock s t r).1.recursive = s.recursive := by
    unfold relock; split_ifs <;> rfl
  unfold step
  split
  · rfl
  cases a with
  | lock t w => simp only [lockStep]; split_ifs <;> first | rfl | (cases w <;> rfl)
  | unlock t p =>
    simp only
    split_ifs
    · split
      · rename_i e; exact safeUnlock_recursive e
      · rfl
    · rfl
  | waitUnlock t w p => cases w <;> simp only <;> split_ifs <;> first | rfl | exact sg _ _
  | cwait t w p =>
    cases w <;> simp only <;> split_ifs <;> first | rfl | skip
    all_goals
      split
      · rename_i e; have := safeUnlock_recursive e; exact this
      · rfl
  | csignal p => simp only; split_ifs <;> rfl
  | cbroadcast => rfl
  | wake t p =>
    simp only
    split <;> (try split_ifs) <;> first | rfl | exact rl _ _ | exact sg _ _
  | timeout t =>
    simp only
    split_ifs
    · rfl
    · split <;> first | rfl | exact rl _ _

theorem run_recursive (s : Sys) (as : List Act) : (run s as).1.recursive = s.recursive := by
  induction as generalizing s with
  | nil => rfl
  | cons a as ih => simp only [run]; rw [ih, step_recursive]

theorem Good.run {s : Sys} {h : Tid → ℤ} (g : Good s h) {as : List Act} (ha : ∀ a ∈ as, a.waits) :
    Good (run s as).1 fun u => h u + holds u (run s as).2 := by
  induction as generalizing s h with
  | nil => simpa [Mutex.run, holds] using g
  | cons a as ih =>
    have := ih (g.step (ha a (by simp))) fun b hb => ha b (by simp [hb])
    simp only [Mutex.run, holds]
    simpa only [add_assoc] using this

/-- The state and the events after a schedule of a new mutex on which nobody asks for the mutex without waiting. -/
theorem good_run (r : Bool) {as : List Act} (ha : ∀ a ∈ as, a.waits) :
    Good (run (Sys.init r) as).1 fun u => holds u (run (Sys.init r) as).2 := by
  simpa using (good_init r).run ha

/-- Mutual exclusion, for every schedule, any number of threads, with spurious wake-ups and times that run out:
at most one thread holds the mutex; without recursion it holds it once; `isLocked` and `getNumLocks` tell whether
and how often it is held.  Missing for the full property: `tryLock`. -/
theorem C172_exclusion_partial (r : Bool) (as : List Act) (ha : ∀ a ∈ as, a.waits) :
    (∀ t u, 0 < holds t (run (Sys.init r) as).2 → 0 < holds u (run (Sys.init r) as).2 → t = u) ∧
    (∀ t, 0 ≤ holds t (run (Sys.init r) as).2) ∧
    (r = false → ∀ t, holds t (run (Sys.init r) as).2 ≤ 1) ∧
    ((run (Sys.init r) as).1.numLocks ≠ 0 ↔ ∃ t, 0 < holds t (run (Sys.init r) as).2) ∧
    ∀ t, 0 < holds t (run (Sys.init r) as).2 → holds t (run (Sys.init r) as).2 = (run (Sys.init r) as).1.numLocks := by
  have g := good_run r ha
  have hr := run_recursive (Sys.init r) as
  generalize run (Sys.init r) as = x at g hr ⊢
  refine ⟨fun t u ht hu => ?_, fun t => ?_, fun h t => ?_, ⟨fun h => ?_, ?_⟩, fun t ht => ?_⟩
  · rw [g.hold] at ht hu
    split at ht
    · split at hu
      · rename_i a b
        rw [a] at b
        exact Option.some.inj b
      · simp at hu
    · simp at ht
  · rw [g.hold]; split <;> simp
  · rw [g.hold]
    have := g.single (by rw [hr]; exact h)
    split
    · exact_mod_cast this
    · simp
  · rcases ho : x.1.owner with _ | t
    · exact absurd (g.zero.mpr ho) h
    · exact ⟨t, by rw [g.hold, if_pos ho]; exact_mod_cast Nat.pos_of_ne_zero h⟩
  · rintro ⟨t, ht⟩ h0
    rw [g.hold, h0] at ht
    simp at ht
  · rw [g.hold] at ht ⊢
    split at ht
    · rename_i h; rw [if_pos h]
    · simp at ht

/-- `tryLock` never fails: a mutex that another thread holds is taken away from it, so that two threads hold it, and
the one that had it first cannot give it back. -/
theorem C172_try_lock_counterexample :
    (∀ (s : Sys) (t : Tid), (step s (.lock t .no)).2 ≠ .failed t) ∧
    ∃ as : List Act, holds 1 (run (Sys.init false) as).2 = 1 ∧ holds 2 (run (Sys.init false) as).2 = 1 ∧
      (step (run (Sys.init false) as).1 (.unlock 1 0)).2 = .raised 1 := by
  refine ⟨fun s t => ?_, [.lock 1 .eternal, .lock 2 .no], by decide, by decide, by decide⟩
  unfold step
  split
  · simp
  · simp only [lockStep]
    split_ifs <;> simp

/-- What `lock` and `unlock` do after any schedule: a thread that holds the mutex may unlock it, and no other; a
thread that holds it and locks again gets it once more if it is recursive, and an exception that changes nothing if it
is not; another thread waits as long as somebody holds the mutex, and gets it at once if nobody does. -/
theorem C172_calls (r : Bool) (as : List Act) (ha : ∀ a ∈ as, a.waits) (s : Sys) (es : List Ev)
    (hrun : run (Sys.init r) as = (s, es)) (hs : s.stuck = false) (t p : Tid) (ht : s.ph t = .idle) (w : W) (hw : w ≠ .no) :
    (step s (.unlock t p)).2 = (if 0 < holds t es then .released t else .raised t) ∧
    (0 < holds t es → r = true → (step s (.lock t w)).2 = .acquired t) ∧
    (0 < holds t es → r = false → step s (.lock t w) = (s, .raised t)) ∧
    (¬ 0 < holds t es → (∃ u, 0 < holds u es) →
      (step s (.lock t w)).2 = .nothing ∧ ∃ tm, (step s (.lock t w)).1.ph t = .lockW tm) ∧
    ((∀ u, ¬ 0 < holds u es) → (step s (.lock t w)).2 = .acquired t) := by
  have g := good_run r ha
  have hr := run_recursive (Sys.init r) as
  rw [hrun] at g hr
  simp only at g hr
  have own : 0 < holds t es ↔ s.owner = some t := by
    have : holds t es = _ := g.hold t
    rw [this]
    by_cases ho : s.owner = some t
    · have : s.numLocks ≠ 0 := fun h => by rw [g.zero.mp h] at ho; simp at ho
      simp [ho]; omega
    · simp [ho]
  have some_hold : (∃ u, 0 < holds u es) ↔ s.numLocks ≠ 0 := by
    have := (C172_exclusion_partial r as ha).2.2.2.1
    rw [hrun] at this
    exact this.symm
  refine ⟨?_, ?_, ?_, ?_, ?_⟩
  · simp only [step, hs, ht, Bool.false_eq_true, if_false, if_true]
    by_cases ho : s.owner = some t
    · rw [if_pos (own.mpr ho)]
      have hn : safeUnlock s t p ≠ none := by
        rw [Ne, safeUnlock_none, not_or]
        exact ⟨fun h => by rw [g.zero.mp h] at ho; simp at ho, not_not.mpr ho⟩
      split
      · rfl
      · rename_i h; exact absurd h hn
    · rw [if_neg (own.not.mpr ho), safeUnlock_none.mpr (Or.inr ho)]
  · intro ho h
    simp only [step, hs, ht, Bool.false_eq_true, if_false, if_true, lockStep, own.mp ho]
    rw [if_pos (by rw [hr]; exact h)]
  · intro ho h
    simp only [step, hs, ht, Bool.false_eq_true, if_false, if_true, lockStep, own.mp ho]
    rw [if_neg (by rw [hr, show (Sys.init r).recursive = r from rfl, h]; simp)]
  · intro ho h
    simp only [step, hs, ht, Bool.false_eq_true, if_false, if_true, lockStep]
    rw [if_neg (own.not.mp ho), if_pos (some_hold.mp h)]
    cases w with
    | no => exact absurd rfl hw
    | «until» => exact ⟨rfl, true, by simp [Sys.move]⟩
    | eternal => exact ⟨rfl, false, by simp [Sys.move]⟩
  · intro h
    simp only [step, hs, ht, Bool.false_eq_true, if_false, if_true, lockStep]
    rw [if_neg (own.not.mp (h t)), if_neg (fun h0 => (not_exists.mpr h) (some_hold.mpr h0))]

/-! ## Waiting threads -/

/-- The choice of POSIX is one that it may make when thread `t` signals: if a thread is blocked on the mutex, one of
those is unblocked. -/
def Fair (s : Sys) (t pick : Tid) : Prop :=
  (∃ u, u ≠ t ∧ (s.ph u).onMutex = true ∧ s.sig u = false) →
    pick ≠ t ∧ (s.ph pick).onMutex = true ∧ s.sig pick = false

/-- The choices of a step. -/
def FairStep (s : Sys) : Act → Prop
  | .unlock t p => Fair s t p
  | .waitUnlock t _ p => Fair s t p
  | .cwait t _ p => Fair s t p
  | .wake t p => Fair s t p
  | _ => True

/-- The choices of a schedule. -/
def FairRun (s : Sys) : List Act → Prop
  | [] => True
  | a :: as => FairStep s a ∧ FairRun (step s a).1 as

/-- If the mutex is free and a thread waits for it, a thread that waits has been signalled. -/
def Awake (s : Sys) : Prop :=
  s.numLocks = 0 → (∃ u, (s.ph u).onMutex = true) → ∃ u, (s.ph u).onMutex = true ∧ s.sig u = true

theorem awake_signal {s : Sys} {t p : Tid} (ht : (s.ph t).onMutex = false) (hf : Fair s t p) : Awake (s.signalM p) := by
  rintro - ⟨u, hu⟩
  rw [(signalM_fields s p).2.2.2.1] at hu ⊢
  by_cases hs : s.sig u = true
  · refine ⟨u, hu, ?_⟩
    unfold Sys.signalM
    split
    · simp only [Function.update_apply]; split <;> simp [hs]
    · exact hs
  · have hut : u ≠ t := by rintro rfl; rw [ht] at hu; simp at hu
    obtain ⟨-, b, -⟩ := hf ⟨u, hut, hu, by simpa using hs⟩
    exact ⟨p, b, by unfold Sys.signalM; rw [if_pos b]; simp⟩

theorem awake_of_ne {s : Sys} (h : s.numLocks ≠ 0) : Awake s := fun h0 => absurd h0 h

theorem awake_take (s : Sys) (t : Tid) : Awake (s.take t) := awake_of_ne (by simp [Sys.take])

/-- A thread that was not signalled stops waiting. -/
theorem awake_leave {s : Sys} (h : Awake s) {t : Tid} (hs : s.sig t = false) {p : Ph} (hp : p.onMutex = false) :
    Awake (s.move t p) := by
  rintro h0 ⟨u, hu⟩
  have hut : u ≠ t := by rintro rfl; simp [Sys.move, hp] at hu
  simp only [Sys.move, Function.update_of_ne hut] at hu
  obtain ⟨v, hv, hvs⟩ := h h0 ⟨u, hu⟩
  have hvt : v ≠ t := by rintro rfl; rw [hs] at hvs; simp at hvs
  exact ⟨v, by simpa [Sys.move, Function.update_of_ne hvt] using hv, by simpa [Sys.move, Function.update_of_ne hvt] using hvs⟩

theorem awake_relock {s : Sys} {h : Tid → ℤ} (g : Good s h) (t : Tid) (r : Bool) : Awake (relock s t r).1 := by
  unfold relock
  split_ifs with ho hr h0
  · exact awake_of_ne (by simp)
  · exact awake_of_ne fun h0 => by
      have := g.zero.mp h0
      rw [ho] at this; simp at this
  · exact awake_of_ne h0
  · exact awake_take s t

theorem awake_unlock {s s' : Sys} {t p : Tid} (ht : s.ph t = .idle) (hf : Fair s t p) (e : safeUnlock s t p = some s') :
    Awake s' := by
  unfold safeUnlock at e
  split_ifs at e with h0 ho
  simp only at e
  split_ifs at e with h1
  · rw [← Option.some.inj e]
    exact awake_signal (t := t) (by simp [ht, Ph.onMutex]) hf
  · rw [← Option.some.inj e]
    exact awake_of_ne h1

theorem awake_step {s : Sys} {h : Tid → ℤ} (g : Good s h) (w : Awake s) {a : Act} (hf : FairStep s a) :
    Awake (step s a).1 := by
  unfold step
  split
  · exact w
  cases a with
  | lock t w' =>
    simp only [lockStep]
    split_ifs with hi ho hr h0
    · exact awake_of_ne (by simp)
    · exact w
    · cases w' with
      | no => exact awake_take s t
      | «until» => exact awake_of_ne h0
      | eternal => exact awake_of_ne h0
    · exact awake_take s t
    · exact w
  | unlock t p =>
    simp only
    split_ifs with hi
    · split
      · rename_i e; exact awake_unlock hi hf e
      · exact w
    · exact w
  | waitUnlock t w' p =>
    cases w' <;> simp only <;> split_ifs with hi h0
    · exact awake_signal (t := t) (by simp [hi, Ph.onMutex]) hf
    · exact w
    · exact awake_of_ne h0
    · exact awake_signal (t := t) (by simp [hi, Ph.onMutex]) hf
    · exact w
    · exact awake_of_ne h0
    · exact awake_signal (t := t) (by simp [hi, Ph.onMutex]) hf
    · exact w
  | cwait t w' p =>
    have un (hi : s.ph t = .idle) (s' : Sys) (tm : Bool) (e : safeUnlock s t p = some s') : Awake (s'.move t (.condW tm)) := by
      have hw := awake_unlock hi hf e
      have hp : s'.ph = s.ph := (safeUnlock_some e).2.2.2.2.2.1
      rintro h0 ⟨u, hu⟩
      have hut : u ≠ t := by rintro rfl; simp [Sys.move, Ph.onMutex] at hu
      simp only [Sys.move, Function.update_of_ne hut] at hu
      obtain ⟨v, hv, hvs⟩ := hw h0 ⟨u, hu⟩
      have hvt : v ≠ t := by rintro rfl; rw [hp, hi] at hv; simp [Ph.onMutex] at hv
      exact ⟨v, by simpa [Sys.move, Function.update_of_ne hvt] using hv,
        by simpa [Sys.move, Function.update_of_ne hvt] using hvs⟩
    cases w' <;> simp only <;> split_ifs with hi
    · exact w
    · exact w
    · split
      · rename_i e; exact un hi _ _ e
      · exact w
    · exact w
    · split
      · rename_i e; exact un hi _ _ e
      · exact w
    · exact w
  | csignal p =>
    simp only
    split_ifs
    · intro h0 hu
      obtain ⟨v, hv, hvs⟩ := w h0 hu
      refine ⟨v, hv, ?_⟩
      simp only [Function.update_apply]; split <;> simp [hvs]
    · exact w
  | cbroadcast =>
    intro h0 hu
    obtain ⟨v, hv, hvs⟩ := w h0 hu
    refine ⟨v, hv, ?_⟩
    simp only; split <;> simp [hvs]
  | wake t p =>
    simp only
    cases hp : s.ph t with
    | idle => exact w
    | lockW tm =>
      simp only
      split_ifs with h0
      · exact awake_of_ne h0
      · exact awake_take s t
    | unlW tm =>
      simp only
      split_ifs with h0
      · exact awake_of_ne h0
      · refine awake_signal (t := t) (by simp [Sys.move, Ph.onMutex]) ?_
        rintro ⟨u, hut, hu, hs⟩
        simp only [Sys.move, Function.update_of_ne hut] at hu hs
        obtain ⟨a, b, c⟩ := hf ⟨u, hut, hu, hs⟩
        exact ⟨a, by simpa [Sys.move, Function.update_of_ne a] using b, by simpa [Sys.move, Function.update_of_ne a] using c⟩
    | condW tm =>
      simp only
      split_ifs with h0
      · exact awake_of_ne h0
      · exact awake_relock g t true
    | condM tm =>
      simp only
      split_ifs with h0
      · exact awake_of_ne h0
      · exact awake_relock g t true
    | condL r =>
      simp only
      split_ifs with h0
      · exact awake_of_ne h0
      · exact awake_take s t
  | timeout t =>
    simp only
    split_ifs with hs
    · exact w
    · split
      · exact awake_leave w (by simpa using hs) rfl
      · exact awake_leave w (by simpa using hs) rfl
      · exact awake_relock g t false
      · exact awake_relock g t false
      · exact w

theorem awake_run {s : Sys} {h : Tid → ℤ} (g : Good s h) (w : Awake s) {as : List Act} (ha : ∀ a ∈ as, a.waits)
    (hf : FairRun s as) : Awake (run s as).1 := by
  induction as generalizing s h with
  | nil => exact w
  | cons a as ih =>
    exact ih (g.step (ha a (by simp))) (awake_step g w hf.1) (fun b hb => ha b (by simp [hb])) hf.2

/-- The call a thread waits in returns. -/
def Returned (t : Tid) : Ev → Prop
  | .acquired u => u = t
  | .condReturned u _ => u = t
  | .sawUnlocked u _ => u = t
  | _ => False

/-- No wake-up is lost: whenever the mutex is free and a thread waits for it, some thread that waits has been
signalled, and its call returns as soon as it runs. -/
theorem C172_no_lost_wakeup (r : Bool) (as : List Act) (ha : ∀ a ∈ as, a.waits) (hf : FairRun (Sys.init r) as)
    (s : Sys) (es : List Ev) (hrun : run (Sys.init r) as = (s, es)) (hs : s.stuck = false) (hfree : s.numLocks = 0)
    (t : Tid) (ht : (s.ph t).onMutex = true) :
    ∃ u, (s.ph u).onMutex = true ∧ s.sig u = true ∧ ∀ p, Returned u (step s (.wake u p)).2 := by
  have g := good_run r ha
  have w := awake_run (good_init r) (by rintro - ⟨u, hu⟩; simp [Sys.init, Ph.onMutex] at hu) ha hf
  rw [hrun] at g w
  obtain ⟨u, hu, hus⟩ := w hfree ⟨t, ht⟩
  refine ⟨u, hu, hus, fun p => ?_⟩
  have ho := g.zero.mp hfree
  simp only at ho
  unfold step
  rw [if_neg (by simp [hs])]
  simp only
  cases hp : s.ph u with
  | idle => rw [hp] at hu; simp [Ph.onMutex] at hu
  | lockW tm => simp [hfree, Returned]
  | unlW tm => simp [hfree, Returned]
  | condW tm => rw [hp] at hu; simp [Ph.onMutex] at hu
  | condM tm => simp [hfree, relock, ho, Returned]
  | condL r => simp [hfree, Returned]

/-! ## The condition -/

/-- A thread in `Condition::wait` stays there and changes nothing in what it holds, until the call returns or
throws. -/
theorem step_cond {s : Sys} {t : Tid} (h : (s.ph t).cond = true) (a : Act) :
    (((step s a).1.ph t).cond = true ∧ change t (step s a).2 = 0) ∨ (∃ r, (step s a).2 = .condReturned t r) ∨
      (step s a).2 = .raised t := by
  have ne {u : Tid} (hi : (s.ph u).cond = false) : u ≠ t := by rintro rfl; rw [h] at hi; simp at hi
  have idle {u : Tid} (hi : s.ph u = .idle) : u ≠ t := ne (by rw [hi]; rfl)
  have mv {u : Tid} (hu : u ≠ t) (p : Ph) : ((s.move u p).ph t).cond = true := by
    simpa [Sys.move, Function.update_of_ne hu.symm] using h
  have rl (u : Tid) (r : Bool) : (((relock s u r).1.ph t).cond = true ∧ change t (relock s u r).2 = 0) ∨
      (∃ r', (relock s u r).2 = .condReturned t r') ∨ (relock s u r).2 = .raised t := by
    unfold relock
    by_cases hu : u = t
    · subst hu
      split_ifs
      · exact Or.inr (Or.inl ⟨r, rfl⟩)
      · exact Or.inr (Or.inr rfl)
      · exact Or.inl ⟨by simp [Sys.move, Ph.cond], rfl⟩
      · exact Or.inr (Or.inl ⟨r, rfl⟩)
    · split_ifs
      · exact Or.inl ⟨mv hu .idle, by simp [change, hu]⟩
      · exact Or.inl ⟨mv hu .idle, rfl⟩
      · exact Or.inl ⟨mv hu _, rfl⟩
      · exact Or.inl ⟨mv hu .idle, by simp [change, hu]⟩
  have sg (s' : Sys) (p : Tid) : (s'.signalM p).ph = s'.ph := (signalM_fields s' p).2.2.2.1
  unfold step
  split
  · exact Or.inl ⟨h, rfl⟩
  cases a with
  | lock u w =>
    simp only [lockStep]
    split_ifs with hi ho hr h0
    · exact Or.inl ⟨h, by simp [change, idle hi]⟩
    · exact Or.inl ⟨h, rfl⟩
    · cases w with
      | no => exact Or.inl ⟨mv (idle hi) .idle, by simp [change, idle hi]⟩
      | «until» => exact Or.inl ⟨mv (idle hi) _, rfl⟩
      | eternal => exact Or.inl ⟨mv (idle hi) _, rfl⟩
    · exact Or.inl ⟨mv (idle hi) .idle, by simp [change, idle hi]⟩
    · exact Or.inl ⟨h, rfl⟩
  | unlock u p =>
    simp only
    split_ifs with hi
    · split
      · rename_i e
        exact Or.inl ⟨by rw [(safeUnlock_some e).2.2.2.2.2.1]; exact h, by simp [change, idle hi]⟩
      · exact Or.inl ⟨h, rfl⟩
    · exact Or.inl ⟨h, rfl⟩
  | waitUnlock u w p =>
    cases w <;> simp only <;> split_ifs with hi h0
    · exact Or.inl ⟨by rw [sg]; exact h, rfl⟩
    · exact Or.inl ⟨h, rfl⟩
    · exact Or.inl ⟨mv (idle hi) _, rfl⟩
    · exact Or.inl ⟨by rw [sg]; exact h, rfl⟩
    · exact Or.inl ⟨h, rfl⟩
    · exact Or.inl ⟨mv (idle hi) _, rfl⟩
    · exact Or.inl ⟨by rw [sg]; exact h, rfl⟩
    · exact Or.inl ⟨h, rfl⟩
  | cwait u w p =>
    have un (hi : s.ph u = .idle) (s' : Sys) (tm : Bool) (e : safeUnlock s u p = some s') :
        ((s'.move u (.condW tm)).ph t).cond = true := by
      simp only [Sys.move, Function.update_of_ne (idle hi).symm]
      rw [(safeUnlock_some e).2.2.2.2.2.1]; exact h
    cases w <;> simp only <;> split_ifs with hi
    · exact Or.inl ⟨h, rfl⟩
    · exact Or.inl ⟨h, rfl⟩
    · split
      · rename_i e; exact Or.inl ⟨un hi _ _ e, by simp [change, idle hi]⟩
      · exact Or.inl ⟨h, rfl⟩
    · exact Or.inl ⟨h, rfl⟩
    · split
      · rename_i e; exact Or.inl ⟨un hi _ _ e, by simp [change, idle hi]⟩
      · exact Or.inl ⟨h, rfl⟩
    · exact Or.inl ⟨h, rfl⟩
  | csignal p => simp only; split_ifs <;> exact Or.inl ⟨h, rfl⟩
  | cbroadcast => exact Or.inl ⟨h, rfl⟩
  | wake u p =>
    simp only
    cases hp : s.ph u with
    | idle => exact Or.inl ⟨h, rfl⟩
    | lockW tm =>
      have hu : u ≠ t := ne (by rw [hp]; rfl)
      simp only
      split_ifs with h0
      · exact Or.inl ⟨mv hu _, rfl⟩
      · exact Or.inl ⟨mv hu .idle, by simp [change, hu]⟩
    | unlW tm =>
      have hu : u ≠ t := ne (by rw [hp]; rfl)
      simp only
      split_ifs with h0
      · exact Or.inl ⟨mv hu _, rfl⟩
      · exact Or.inl ⟨by rw [sg]; exact mv hu .idle, rfl⟩
    | condW tm =>
      simp only
      split_ifs with h0
      · refine Or.inl ⟨?_, rfl⟩
        by_cases hu : u = t
        · subst hu; simp [Sys.move, Ph.cond]
        · exact mv hu _
      · exact rl u true
    | condM tm =>
      simp only
      split_ifs with h0
      · refine Or.inl ⟨?_, rfl⟩
        by_cases hu : u = t
        · subst hu; simp [Sys.move, Ph.cond]
        · exact mv hu _
      · exact rl u true
    | condL r =>
      simp only
      split_ifs with h0
      · refine Or.inl ⟨?_, rfl⟩
        by_cases hu : u = t
        · subst hu; simp [Sys.move, Ph.cond]
        · exact mv hu _
      · by_cases hu : u = t
        · subst hu; exact Or.inr (Or.inl ⟨r, rfl⟩)
        · exact Or.inl ⟨mv hu .idle, by simp [change, hu]⟩
  | timeout u =>
    simp only
    split_ifs with hs
    · exact Or.inl ⟨h, rfl⟩
    · split
      · rename_i hp
        exact Or.inl ⟨mv (ne (by rw [hp]; rfl)) .idle, rfl⟩
      · rename_i hp
        exact Or.inl ⟨mv (ne (by rw [hp]; rfl)) .idle, rfl⟩
      · exact rl u false
      · exact rl u false
      · exact Or.inl ⟨h, rfl⟩

/-- The thread is inside `Condition::wait` from the event on at which it gave up the mutex, until the call returns or
throws. -/
theorem run_cond {s : Sys} {t : Tid} (h : (s.ph t).cond = true) (as : List Act)
    (hc : ∀ r, .condReturned t r ∉ (run s as).2) (hx : .raised t ∉ (run s as).2) :
    ((run s as).1.ph t).cond = true ∧ holds t (run s as).2 = 0 := by
  induction as generalizing s with
  | nil => exact ⟨h, rfl⟩
  | cons a as ih =>
    simp only [run, List.mem_cons, not_or] at hc hx
    rcases step_cond h a with ⟨h1, h2⟩ | ⟨r, h1⟩ | h1
    · obtain ⟨a1, a2⟩ := ih h1 (fun r => (hc r).2) hx.2
      exact ⟨a1, by simp only [run, holds, h2, a2]; rfl⟩
    · exact absurd h1.symm (hc r).1
    · exact absurd h1.symm hx.1

/-- It does not throw. -/
theorem step_cond_raised {s : Sys} {h : Tid → ℤ} (g : Good s h) {t : Tid} (hc : (s.ph t).cond = true) (a : Act) :
    (step s a).2 ≠ .raised t := by
  have idle {u : Tid} (hi : s.ph u = .idle) : u ≠ t := by rintro rfl; rw [hi] at hc; simp [Ph.cond] at hc
  have rl (u : Tid) (r : Bool) : (relock s u r).2 ≠ .raised t := by
    unfold relock
    split_ifs with ho hr
    · simp
    · intro e
      have : u = t := by simpa using e
      subst this
      exact g.busy u (by simpa using hr) hc ho
    · simp
    · simp
  unfold step
  split
  · simp
  cases a with
  | lock u w =>
    simp only [lockStep]
    split_ifs with hi ho hr h0
    · simp
    · simpa using idle hi
    · cases w <;> simp
    · simp
    · simp
  | unlock u p =>
    simp only
    split_ifs with hi
    · split
      · simp
      · simpa using idle hi
    · simp
  | waitUnlock u w p => cases w <;> simp only <;> split_ifs <;> simp
  | cwait u w p =>
    cases w <;> simp only <;> split_ifs with hi
    · simp
    · simp
    · split
      · simp
      · simpa using idle hi
    · simp
    · split
      · simp
      · simpa using idle hi
    · simp
  | csignal p => simp only; split_ifs <;> simp
  | cbroadcast => simp
  | wake u p =>
    simp only
    cases hp : s.ph u <;> simp only <;> (try split_ifs) <;> first | exact rl _ _ | simp
  | timeout u =>
    simp only
    split_ifs with hs
    · simp
    · split <;> first | exact rl _ _ | simp

theorem run_cond_raised {s : Sys} {h : Tid → ℤ} (g : Good s h) {t : Tid} (hc : (s.ph t).cond = true) (as : List Act)
    (ha : ∀ a ∈ as, a.waits) (hr : ∀ r, .condReturned t r ∉ (run s as).2) : .raised t ∉ (run s as).2 := by
  induction as generalizing s h with
  | nil => simp [run]
  | cons a as ih =>
    simp only [run, List.mem_cons, not_or] at hr ⊢
    have hx := step_cond_raised g hc a
    refine ⟨hx.symm, ih (g.step (ha a (by simp))) ?_ (fun b hb => ha b (by simp [hb])) fun r => (hr r).2⟩
    rcases step_cond hc a with ⟨h1, -⟩ | ⟨r, h1⟩ | h1
    · exact h1
    · exact absurd h1.symm (hr r).1
    · exact absurd h1 hx

theorem cwait_released {s : Sys} {t p : Tid} {w : W} (h : (step s (.cwait t w p)).2 = .condReleased t) :
    s.owner = some t ∧ ((step s (.cwait t w p)).1.ph t).cond = true := by
  unfold step at h ⊢
  split
  · rename_i hs; simp [hs] at h
  rename_i hs
  rw [if_neg hs] at h
  simp only at h ⊢
  split_ifs with hi
  · rw [if_pos hi] at h
    cases w with
    | no => simp at h
    | «until» =>
      simp only at h ⊢
      split
      · rename_i e
        exact ⟨(safeUnlock_some e).1, by simp [Sys.move, Ph.cond]⟩
      · rename_i e; simp [e] at h
    | eternal =>
      simp only at h ⊢
      split
      · rename_i e
        exact ⟨(safeUnlock_some e).1, by simp [Sys.move, Ph.cond]⟩
      · rename_i e; simp [e] at h
  · simp [hi] at h

/-- `Condition::wait` by a thread that holds the mutex, after any schedule `as`, and for any schedule `bs` during which
the call has not returned: the call does not throw, and the thread holds the mutex once less than before.  If the next
step is the one in which the call returns, the thread holds the mutex as often as before, and nobody else does. -/
theorem C172_condition_wait (r : Bool) (as bs : List Act) (ha : ∀ a ∈ as, a.waits) (hbs : ∀ a ∈ bs, a.waits) (t p : Tid)
    (w : W) (s0 s1 s2 : Sys) (es fs : List Ev) (h0 : run (Sys.init r) as = (s0, es))
    (h1 : step s0 (.cwait t w p) = (s1, .condReleased t)) (h2 : run s1 bs = (s2, fs))
    (hc : ∀ q, .condReturned t q ∉ fs) :
    .raised t ∉ fs ∧ holds t (es ++ .condReleased t :: fs) = holds t es - 1 ∧
    ∀ b : Act, b.waits → (step s2 b).2 ≠ .raised t ∧
      ∀ q, (step s2 b).2 = .condReturned t q →
        holds t (es ++ .condReleased t :: fs ++ [.condReturned t q]) = holds t es ∧ 0 < holds t es ∧
        ∀ u, u ≠ t → holds u (es ++ .condReleased t :: fs ++ [.condReturned t q]) = 0 := by
  have app (u : Tid) (x y : List Ev) : holds u (x ++ y) = holds u x + holds u y := by
    induction x with
    | nil => simp [holds]
    | cons e x ih => simp only [List.cons_append, holds, ih]; ring
  have g0 := good_run r ha
  rw [h0] at g0
  obtain ⟨ho, hcd⟩ := cwait_released (by rw [h1] : (step s0 (.cwait t w p)).2 = .condReleased t)
  have g1 := g0.step (show (Act.cwait t w p).waits from trivial)
  rw [h1] at g1 hcd
  simp only at g1 hcd
  have g2 := g1.run hbs
  have hx := run_cond_raised g1 hcd bs hbs (by rw [h2]; exact hc)
  obtain ⟨hcd2, hz⟩ := run_cond hcd bs (by rw [h2]; exact hc) hx
  rw [h2] at g2 hx hcd2 hz
  simp only at g2 hx hcd2 hz
  have hpos : 0 < holds t es := by
    have : holds t es = _ := g0.hold t
    rw [this, if_pos ho]
    have : s0.numLocks ≠ 0 := fun h => by have := g0.zero.mp h; simp only at this; rw [ho] at this; simp at this
    exact_mod_cast Nat.pos_of_ne_zero this
  refine ⟨hx, ?_, fun b hb => ⟨step_cond_raised g2 hcd2 b, fun q hq => ?_⟩⟩
  · rw [app]; simp [holds, change, hz]; ring
  have g3 := g2.step hb
  rw [hq] at g3
  have e (u : Tid) : holds u (es ++ .condReleased t :: fs ++ [.condReturned t q]) =
      holds u es + change u (.condReleased t) + holds u fs + change u (.condReturned t q) := by
    rw [app, app]; simp [holds]; ring
  have et : holds t (es ++ .condReleased t :: fs ++ [.condReturned t q]) = holds t es := by
    rw [e]; simp [change, hz]
  refine ⟨et, hpos, fun u hu => ?_⟩
  have ht := g3.hold t
  have hu' := g3.hold u
  rw [e] at et ⊢
  rw [hu', if_neg]
  intro h
  rw [ht, if_neg (by rw [h]; simpa using hu)] at et
  omega

/-- A thread that waits on a condition without holding the mutex gets an exception, and from then on no call of any
thread on that mutex returns. -/
theorem C172_wait_without_lock_counterexample :
    (step (Sys.init false) (.cwait 1 .eternal 0)).2 = .raised 1 ∧
    ∀ as : List Act, ∀ e ∈ (run (step (Sys.init false) (.cwait 1 .eternal 0)).1 as).2, e = .nothing := by
  refine ⟨by decide, ?_⟩
  have h : (step (Sys.init false) (.cwait 1 .eternal 0)).1.stuck = true := by decide
  generalize (step (Sys.init false) (.cwait 1 .eternal 0)).1 = s at h
  intro as
  induction as with
  | nil => simp [run]
  | cons a as ih =>
    have : step s a = (s, .nothing) := by unfold step; rw [if_pos h]
    simp only [run, this]
    intro e he
    rcases List.mem_cons.mp he with rfl | he
    · rfl
    · exact ih e he

/-- What stays true when a thread that locked a recursive mutex twice waits on a condition. -/
structure Hung (t : Tid) (s : Sys) : Prop where
  own : s.owner = some t
  held : s.numLocks ≠ 0
  ph : s.ph t = .condW false ∨ s.ph t = .condM false

theorem Hung.of_eq {t : Tid} {s s' : Sys} (h : Hung t s) (e1 : s'.owner = s.owner) (e2 : s'.numLocks = s.numLocks)
    (e3 : s'.ph t = s.ph t) : Hung t s' := ⟨by rw [e1, h.own], by rw [e2]; exact h.held, by rw [e3]; exact h.ph⟩

theorem Hung.step {t : Tid} {s : Sys} (h : Hung t s) {a : Act} (ha : a.waits) :
    Hung t (step s a).1 ∧ ∀ r, (step s a).2 ≠ .condReturned t r := by
  have idle {u : Tid} (hi : s.ph u = .idle) : u ≠ t := by
    rintro rfl; rcases h.ph with e | e <;> rw [e] at hi <;> simp at hi
  have mv {u : Tid} (hu : u ≠ t) (p : Ph) : Hung t (s.move u p) :=
    h.of_eq rfl rfl (by simp [Sys.move, Function.update_of_ne hu.symm])
  have no {u : Tid} (hu : u ≠ t) : s.owner ≠ some u := by rw [h.own]; simpa using hu.symm
  have su {u p : Tid} (hu : u ≠ t) : safeUnlock s u p = none := safeUnlock_none.mpr (Or.inr (no hu))
  have rl {u : Tid} (hu : u ≠ t) (r : Bool) : Hung t (relock s u r).1 ∧ ∀ q, (relock s u r).2 ≠ .condReturned t q := by
    unfold relock
    rw [if_neg (no hu), if_pos h.held]
    exact ⟨mv hu _, by simp⟩
  unfold Mutex.step
  split
  · exact ⟨h, by simp⟩
  cases a with
  | lock u w =>
    simp only [lockStep]
    by_cases hi : s.ph u = .idle
    · rw [if_pos hi, if_neg (no (idle hi)), if_pos h.held]
      cases w with
      | no => exact absurd ha (by simp [Act.waits])
      | «until» => exact ⟨mv (idle hi) _, by simp⟩
      | eternal => exact ⟨mv (idle hi) _, by simp⟩
    · rw [if_neg hi]; exact ⟨h, by simp⟩
  | unlock u p =>
    simp only
    by_cases hi : s.ph u = .idle
    · rw [if_pos hi, su (idle hi)]; exact ⟨h, by simp⟩
    · rw [if_neg hi]; exact ⟨h, by simp⟩
  | waitUnlock u w p =>
    have sg : Hung t (s.signalM p) := by
      obtain ⟨a, b, c, d, -⟩ := signalM_fields s p
      exact h.of_eq (by assumption) (by assumption) (by rw [d])
    cases w <;> simp only <;> split_ifs with hi h0
    · exact ⟨sg, by simp⟩
    · exact ⟨h, by simp⟩
    · exact ⟨mv (idle hi) _, by simp⟩
    · exact ⟨sg, by simp⟩
    · exact ⟨h, by simp⟩
    · exact ⟨mv (idle hi) _, by simp⟩
    · exact ⟨sg, by simp⟩
    · exact ⟨h, by simp⟩
  | cwait u w p =>
    by_cases hi : s.ph u = .idle
    · cases w <;> simp only [if_pos hi]
      · exact ⟨h, by simp⟩
      · rw [su (idle hi)]; exact ⟨h.of_eq rfl rfl rfl, by simp⟩
      · rw [su (idle hi)]; exact ⟨h.of_eq rfl rfl rfl, by simp⟩
    · cases w <;> simp only [if_neg hi] <;> exact ⟨h, by simp⟩
  | csignal p => simp only; split_ifs <;> exact ⟨h.of_eq rfl rfl rfl, by simp⟩
  | cbroadcast => exact ⟨h.of_eq rfl rfl rfl, by simp⟩
  | wake u p =>
    simp only
    by_cases hu : u = t
    · subst hu
      have : Hung u (s.move u (.condM false)) := ⟨h.own, h.held, Or.inr (by simp [Sys.move])⟩
      rcases h.ph with e | e <;> simp only [e, if_pos h.held] <;> exact ⟨this, by simp⟩
    · cases hp : s.ph u <;> simp only <;> (try rw [if_pos h.held]) <;>
        first | exact ⟨h, by simp⟩ | exact ⟨mv hu _, by simp⟩
  | timeout u =>
    simp only
    by_cases hu : u = t
    · subst hu
      split_ifs with hs
      · exact ⟨h, by simp⟩
      · rcases h.ph with e | e <;> simp only [e] <;> exact ⟨h, by simp⟩
    · split_ifs with hs
      · exact ⟨h, by simp⟩
      · split
        · exact ⟨mv hu _, by simp⟩
        · exact ⟨mv hu _, by simp⟩
        · exact rl hu false
        · exact rl hu false
        · exact ⟨h, by simp⟩

/-- A thread that locked a recursive mutex twice and waits on a condition without a limit waits for ever, whatever is
signalled: the wait gives up the mutex once only, and goes on until the mutex is free. -/
theorem C172_recursive_wait_counterexample (as : List Act) (ha : ∀ a ∈ as, a.waits) (r : Bool) :
    .condReturned 1 r ∉ (run (Sys.init true) ([.lock 1 .eternal, .lock 1 .eternal, .cwait 1 .eternal 0] ++ as)).2 := by
  have go (s : Sys) (h : Hung 1 s) : .condReturned 1 r ∉ (run s as).2 := by
    induction as generalizing s with
    | nil => simp [run]
    | cons a as ih =>
      simp only [run, List.mem_cons, not_or]
      obtain ⟨x, y⟩ := h.step (ha a (by simp))
      exact ⟨(y r).symm, ih (fun b hb => ha b (by simp [hb])) _ x⟩
  have h : Hung 1 (run (Sys.init true) [.lock 1 .eternal, .lock 1 .eternal, .cwait 1 .eternal 0]).1 :=
    ⟨by decide, by decide, Or.inl (by decide)⟩
  simp only [List.cons_append, List.nil_append, run, List.mem_cons, not_or]
  refine ⟨by cases r <;> decide, by cases r <;> decide, by cases r <;> decide, ?_⟩
  exact go _ h

/-! ## The hypotheses are met -/

/-- Two threads, the second waits for the first, is signalled and gets the mutex. -/
def sched : List Act := [.lock 1 .eternal, .lock 2 .eternal, .unlock 1 2]

example : (∀ a ∈ sched, a.waits) ∧ FairRun (Sys.init false) sched ∧ (run (Sys.init false) sched).1.numLocks = 0 ∧
    ((run (Sys.init false) sched).1.ph 2).onMutex = true ∧ (run (Sys.init false) sched).1.stuck = false := by
  refine ⟨by simp [sched, Act.waits], ⟨trivial, trivial, ?_, trivial⟩, by decide, by decide, by decide⟩
  exact fun _ => ⟨by decide, by decide, by decide⟩

/-- The second thread gets the mutex, and holds it alone. -/
example : holds 2 (run (Sys.init false) (sched ++ [.wake 2 0])).2 = 1 ∧
    holds 1 (run (Sys.init false) (sched ++ [.wake 2 0])).2 = 0 := by decide

/-- A wait on a condition that is signalled and returns. -/
example : (step (run (Sys.init false) [.lock 1 .eternal]).1 (.cwait 1 .eternal 0)).2 = .condReleased 1 ∧
    (step (run (Sys.init false) [.lock 1 .eternal, .cwait 1 .eternal 0, .lock 2 .eternal, .csignal 1, .wake 1 0,
      .unlock 2 1]).1 (.wake 1 0)).2 = .condReturned 1 true := by decide

end Kalibr.Mutex
