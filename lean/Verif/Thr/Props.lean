import Verif.Thr.Model
import Verif.Tactics

/-!
# Theorems about the threads of the incremental calibration
-/

namespace Kalibr.Thr

/-! ## The life of an object -/

/-- Running, interrupted or not. -/
def live (st : St) : Prop := st = .running ∨ st = .interrupting

/-- What the numbers of cycles and calls are at a point of the loop. -/
def ptOk (n : ℕ) (inside : Bool) (k : ℕ) : Pt → Prop
  | .check => n = 0 ∧ k = 0 ∧ inside = false
  | .proc => n = k ∧ inside = true
  | .stopped => n = k + 1 ∧ inside = false
  | .ending => n = k ∧ 1 ≤ n ∧ inside = false

/-- What the members are while the thread of the run is somewhere. -/
def wOk (s : Sys) (t : Wid) (n : ℕ) (inside : Bool) : WPh → Prop
  | .gone => False
  | .fresh => s.st = .starting ∧ (∀ o, s.reg o = false) ∧ n = 0 ∧ s.numCycles = 0 ∧ inside = false
  | .at p => (live s.st ∧ (s.cancel = true → s.st ≠ .running)) ∧ (∀ o, s.reg o = decide (o = some t)) ∧ ptOk n inside s.numCycles p
  | .rest sv p =>
    (s.st = .sleeping ∨ s.st = .waiting) ∧ live sv ∧ (∀ o, s.reg o = decide (o = some t)) ∧ ptOk n inside s.numCycles p
  | .trig _ none => False
  | .trig _ (some sv) =>
    s.st = .waiting ∧ live sv ∧ (∀ o, s.reg o = decide (o = some t)) ∧ n = s.numCycles + 1 ∧ inside = false

/-- The state of the object and its life. -/
def R (s : Sys) (l : Life) : Prop :=
  s.dead = false ∧ (∀ c tm, s.cl c ≠ .startW tm) ∧
  match l with
  | .off => s.ident = none ∧ (∀ u, s.wk u = .gone) ∧ ¬ s.busy ∧ (∀ o, s.reg o = false) ∧ s.cancel = false
  | .on t a n p => s.ident = some t ∧ (∀ u, u ≠ t → s.wk u = .gone) ∧ s.cancel = a ∧ wOk s t n p (s.wk t)
  | .wrong => False

theorem busy_of_wOk {s : Sys} {t : Wid} {n : ℕ} {p : Bool} {w : WPh} (h : wOk s t n p w) : s.busy := by
  unfold Sys.busy
  match w, h with
  | .fresh, h => rw [h.1]; decide
  | .at _, h => rcases h.1.1 with e | e <;> rw [e] <;> decide
  | .rest _ _, h => rcases h.1 with e | e <;> rw [e] <;> decide
  | .trig _ (some _), h => rw [h.1]; decide

theorem live_set {s : Sys} {st : St} (h : live st) :
    live (s.set st).st ∧ ((s.set st).cancel = true → (s.set st).st ≠ .running) := by
  unfold Sys.set live at *
  dsimp only
  split
  · exact ⟨Or.inr rfl, by simp⟩
  · rename_i e
    refine ⟨h, fun hc hr => e ⟨hc, hr⟩⟩

theorem set_ne {s : Sys} {st : St} (h : st ≠ .running) : (s.set st).st = st := by
  unfold Sys.set
  dsimp only
  rw [if_neg (by simp [h])]

theorem wOk_congr {s s' : Sys} {t : Wid} {n : ℕ} {p : Bool} {w : WPh} (h : wOk s t n p w) (h1 : s'.st = s.st)
    (h2 : s'.reg = s.reg) (h3 : s'.numCycles = s.numCycles)
    (h4 : s'.cancel = true → s'.st ≠ .running ∨ s.cancel = true) : wOk s' t n p w := by
  match w, h with
  | .fresh, h => simpa only [wOk, h1, h2, h3] using h
  | .at _, h =>
    refine ⟨⟨by rw [h1]; exact h.1.1, fun hc => ?_⟩, by simpa only [h2] using h.2.1, by simpa only [h3] using h.2.2⟩
    rcases h4 hc with e | e
    · exact e
    · rw [h1]; exact h.1.2 e
  | .rest _ _, h => simpa only [wOk, h1, h2, h3] using h
  | .trig _ (some _), h => simpa only [wOk, h1, h2, h3] using h

/-- A caller may be moved anywhere but to the first wait of `start`. -/
theorem R.goC {s : Sys} {l : Life} (h : R s l) (c : Cid) (ph : CPh) (hp : ∀ tm, ph ≠ .startW tm) : R (s.goC c ph) l := by
  obtain ⟨h1, h2, h3⟩ := h
  refine ⟨h1, ?_, ?_⟩
  · intro d tm
    unfold Sys.goC
    simp only [Function.update_apply]
    split
    · exact hp tm
    · exact h2 d tm
  · cases l with
    | off => exact h3
    | on t a n p => exact ⟨h3.1, h3.2.1, h3.2.2.1, wOk_congr h3.2.2.2 rfl rfl rfl Or.inr⟩
    | wrong => exact h3

theorem R.trigger {s : Sys} {l : Life} (h : R s l) (pick : Wid) : R (s.trigger pick) l := by
  unfold Sys.trigger
  split
  · obtain ⟨h1, h2, h3⟩ := h
    refine ⟨h1, h2, ?_⟩
    cases l with
    | off => exact h3
    | on t a n p => exact ⟨h3.1, h3.2.1, h3.2.2.1, wOk_congr h3.2.2.2 rfl rfl rfl Or.inr⟩
    | wrong => exact h3
  · exact h

/-- Interrupting keeps the thread where it is. -/
theorem R.ask {s : Sys} {t : Wid} {a : Bool} {n : ℕ} {p : Bool} (h : R s (.on t a n p)) (pick : Wid) :
    R (s.ask pick) (.on t true n p) := by
  unfold Sys.ask
  refine R.trigger ?_ pick
  obtain ⟨h1, h2, h3, h4, h5, h6⟩ := h
  dsimp only
  split
  · rename_i e
    refine ⟨h1, h2, h3, h4, rfl, ?_⟩
    have e' : s.st = .running := e
    change wOk _ t n p (s.wk t)
    revert h6
    generalize s.wk t = w
    intro h6
    match w, h6 with
    | .fresh, h => rw [h.1] at e'; cases e'
    | .at q, h => exact ⟨live_set (Or.inr rfl), h.2⟩
    | .rest _ _, h => rcases h.1 with e | e <;> rw [e] at e' <;> cases e'
    | .trig _ (some _), h => rw [h.1] at e'; cases e'
  · rename_i e
    exact ⟨h1, h2, h3, h4, rfl, wOk_congr h6 rfl rfl rfl fun _ => Or.inl e⟩

/-- Waiting of a caller changes nothing. -/
theorem R.await {s : Sys} {l : Life} (h : R s l) (c : Cid) (w : W) :
    R (await s c w).1 ((await s c w).2.foldl Life.next l) := by
  have nr (c : Cid) (r : Bool) : Life.next l (.ret c r) = l := by
    rcases l with _ | ⟨_, _, _, _ | _⟩ | _ <;> rfl
  have nw (c : Cid) : Life.next l (.waits c) = l := by
    rcases l with _ | ⟨_, _, _, _ | _⟩ | _ <;> rfl
  cases w with
  | no => simpa [Thr.await, nr] using h
  | «until» =>
    unfold Thr.await
    dsimp only
    split
    · simpa [nw] using h.goC c _ (by simp)
    · simpa [nr] using h
  | eternal =>
    unfold Thr.await
    dsimp only
    split
    · simpa [nw] using h.goC c _ (by simp)
    · simpa [nr] using h

/-- Moving the thread of the run. -/
theorem R.goW {s s' : Sys} {t : Wid} {a a' : Bool} {n n' : ℕ} {p p' : Bool} (h : R s (.on t a n p)) (w : WPh)
    (hd : s'.dead = s.dead) (hc : s'.cl = s.cl) (hi : s'.ident = s.ident) (hw : s'.wk = s.wk) (ha : s'.cancel = a')
    (ok : wOk s' t n' p' w) : R (s'.goW t w) (.on t a' n' p') := by
  obtain ⟨h1, h2, h3, h4, -, -⟩ := h
  refine ⟨hd.trans h1, ?_, hi.trans h3, ?_, ha, ?_⟩
  · intro c tm
    change s'.cl c ≠ _
    rw [hc]; exact h2 c tm
  · intro u hu
    change Function.update s'.wk t w u = _
    rw [Function.update_of_ne hu, hw]
    exact h4 u hu
  · change wOk _ t n' p' (Function.update s'.wk t w t)
    rw [Function.update_self]
    exact wOk_congr ok rfl rfl rfl Or.inr

theorem R.launch {s : Sys} {c : Cid} {id : Wid} {l : Life} (h : R s l) (hb : ¬ s.busy) :
    R (launch s c id true).1 ((launch s c id true).2.foldl Life.next l) := by
  obtain ⟨h1, h2, h3⟩ := h
  cases l with
  | wrong => exact h3.elim
  | on t a n p => exact absurd (busy_of_wOk h3.2.2.2) hb
  | off =>
    obtain ⟨h3, h4, h5, h6, h7⟩ := h3
    unfold Thr.launch
    rw [if_neg (by simp [h4])]
    simp only [if_true, List.foldl_cons, List.foldl_nil, Life.next]
    refine R.goC ?_ c _ (by simp)
    refine ⟨h1, h2, rfl, ?_, h7, ?_⟩
    · intro u hu
      change Function.update s.wk id .fresh u = _
      rw [Function.update_of_ne hu]; exact h4 u
    · change wOk _ id 0 false (Function.update s.wk id .fresh id)
      rw [Function.update_self]
      refine ⟨?_, h6, rfl, rfl, rfl⟩
      exact set_ne (by simp)

theorem R.loopTest {s s0 : Sys} {t : Wid} {a b : Bool} {n n' : ℕ} {p : Bool} (h0 : R s0 (.on t a n' p))
    (hd : s.dead = s0.dead) (hc : s.cl = s0.cl) (hi : s.ident = s0.ident) (hw : s.wk = s0.wk) (ha : s.cancel = b)
    (hl : live s.st ∧ (s.cancel = true → s.st ≠ .running)) (hr : ∀ o, s.reg o = decide (o = some t)) (hn : n = s.numCycles) :
    R (loopTest s t).1 ((loopTest s t).2.foldl Life.next (.on t b n false)) := by
  unfold Thr.loopTest
  split
  · rename_i h
    have e : Life.next (.on t b n false) (.procBegin t) = .on t b n true :=
      if_pos ⟨rfl, by rw [← ha, hn]; exact h⟩
    rw [List.foldl_cons, List.foldl_nil, e]
    exact R.goW h0 _ hd hc hi hw ha ⟨hl, hr, hn, rfl⟩
  · rename_i h
    simp only [List.foldl_nil]
    exact R.goW h0 _ hd hc hi hw ha ⟨hl, hr, hn, by push Not at h; omega, rfl⟩

theorem R.work {s : Sys} {t : Wid} {a : Bool} {n : ℕ} {p : Bool} (h : R s (.on t a n p)) (late : Bool) :
    R (step s (.work t late)).1 ((step s (.work t late)).2.foldl Life.next (.on t a n p)) := by
  have H := h
  obtain ⟨h1, h2, h3, h4, h5, h6⟩ := h
  unfold step
  rw [if_neg (by simp [h1])]
  dsimp only
  generalize hw : s.wk t = w
  rw [hw] at h6
  match w, h6 with
  | .fresh, ⟨e1, e2, e3, e4, e5⟩ =>
    dsimp only
    unfold enter
    rw [if_neg (by simp [e2])]
    dsimp only
    rw [List.foldl_nil]
    refine R.goW H _ rfl rfl rfl rfl h5 ⟨live_set (Or.inl rfl), ?_, e3, e4, e5⟩
    intro o
    change Function.update s.reg s.ident true o = _
    rw [h3, Function.update_apply]
    split
    · rename_i e; simp [e]
    · rename_i e; simp [e, e2]
  | .at .check, ⟨e1, e2, e3, e4, e5⟩ =>
    dsimp only
    subst e5
    exact R.loopTest H rfl rfl rfl rfl h5 e1 e2 (e3.trans e4.symm)
  | .at .proc, ⟨e1, e2, e3, e4⟩ =>
    dsimp only
    subst e4
    have next : Life.next (.on t a n true) (.procEnd t) = .on t a (n + 1) false := by simp [Life.next]
    unfold waitTrigger
    rw [if_pos (by simp [e2]), if_pos (by simp [e2])]
    have c1 : R (s.goW t (.at .stopped)) (.on t a (n + 1) false) :=
      R.goW H _ rfl rfl rfl rfl h5 ⟨e1, e2, by rw [e3], rfl⟩
    have c2 (tm : Bool) : R ((s.set .waiting).goW t (.trig tm (some s.st))) (.on t a (n + 1) false) :=
      R.goW H _ rfl rfl rfl rfl h5 ⟨set_ne (by simp), e1.1, e2, by rw [e3]; rfl, rfl⟩
    cases s.cycle with
    | once => simpa only [List.foldl_cons, List.foldl_nil, next] using c1
    | timed =>
      cases late with
      | true => simpa only [List.foldl_cons, List.foldl_nil, next, if_true] using c1
      | false => simpa only [List.foldl_cons, List.foldl_nil, next, if_true, Bool.false_eq_true, if_false] using c2 true
    | eternal => simpa only [List.foldl_cons, List.foldl_nil, next] using c2 false
  | .at .stopped, ⟨e1, e2, e3, e4⟩ =>
    dsimp only
    subst e4
    unfold cycleEnd
    dsimp only
    split
    · rw [List.foldl_nil]
      exact R.goW H _ rfl rfl rfl rfl h5 ⟨e1, e2, e3, by omega, rfl⟩
    · exact R.loopTest H rfl rfl rfl rfl h5 e1 e2 e3
  | .at .ending, ⟨e1, e2, e3, e4, e5⟩ =>
    dsimp only
    subst e5
    unfold cleanup
    have hr : ∀ st, ({ s.set st with cancel := false } : Sys).reg ({ s.set st with cancel := false } : Sys).ident = true := by
      intro st
      change s.reg s.ident = true
      rw [h3, e2]; simp
    dsimp only
    rw [if_pos (hr _)]
    have st : (s.set (if s.cancel = true then .interrupted else .finished)).st = if a then St.interrupted else .finished := by
      rw [set_ne (by split <;> simp), h5]
    have e : Life.next (.on t a n false) (.ended t (s.set (if s.cancel = true then .interrupted else .finished)).st) = .off :=
      if_pos ⟨rfl, e4, st⟩
    rw [List.foldl_cons, List.foldl_nil, e]
    refine ⟨h1, h2, rfl, ?_, ?_, ?_, rfl⟩
    · intro u
      change Function.update s.wk t .gone u = _
      rw [Function.update_apply]
      split
      · rfl
      · rename_i e; exact h4 u e
    · change ¬ ((s.set (if s.cancel = true then .interrupted else .finished)).st ≠ _ ∧ (s.set (if s.cancel = true then .interrupted else .finished)).st ≠ _ ∧ (s.set (if s.cancel = true then .interrupted else .finished)).st ≠ _)
      rw [st]
      cases a <;> simp
    · intro o
      change Function.update s.reg s.ident false o = _
      rw [Function.update_apply]
      split
      · rfl
      · rename_i e
        rw [h3] at e
        simp [e2, e]
  | .rest _ _, h6 => exact H
  | .trig _ (some sv), ⟨e1, e2, e3, e4, e5⟩ =>
    dsimp only [Sys.restore]
    rw [List.foldl_nil]
    exact R.goW H _ rfl rfl rfl rfl h5 ⟨live_set e2, e3, e4, e5⟩

/-- Every step of an orderly schedule is one the life of the object allows. -/
theorem R.step {s : Sys} {l : Life} (h : R s l) (a : Act) (ho : Orderly s a) :
    R (step s a).1 ((step s a).2.foldl Life.next l) := by
  have nr (c : Cid) (r : Bool) : Life.next l (.ret c r) = l := by
    rcases l with _ | ⟨_, _, _, _ | _⟩ | _ <;> rfl
  have hd : s.dead = false := h.1
  have lone {t : Wid} (hw : s.wk t ≠ .gone) : ∃ a n p, l = .on t a n p := by
    obtain ⟨-, -, h3⟩ := h
    cases l with
    | wrong => exact h3.elim
    | off => exact absurd (h3.2.1 t) hw
    | on u a n p =>
      by_cases e : t = u
      · exact ⟨a, n, p, by rw [e]⟩
      · exact absurd (h3.2.1 t e) hw
  have busyOn (hb : s.busy) : ∃ t a n p, l = .on t a n p := by
    obtain ⟨-, -, h3⟩ := h
    cases l with
    | wrong => exact h3.elim
    | off => exact absurd hb h3.2.2.1
    | on t a n p => exact ⟨t, a, n, p, rfl⟩
  cases a with
  | start c w id ok =>
    obtain ⟨hb, rfl⟩ := ho
    unfold Thr.step
    rw [if_neg (by simp [hd])]
    dsimp only
    split
    · cases w with
      | no => exact h.launch hb
      | «until» => simpa only [if_neg hb] using h.launch hb
      | eternal => simpa only [if_neg hb] using h.launch hb
    · exact h
  | interrupt c w pick =>
    unfold Thr.step
    rw [if_neg (by simp [hd])]
    dsimp only
    split
    · split
      · rename_i hb
        obtain ⟨t, a, n, p, rfl⟩ := busyOn hb
        rw [List.foldl_cons]
        have : Life.next (.on t a n p) .asked = .on t true n p := by cases p <;> rfl
        rw [this]
        exact (h.ask pick).await c w
      · simpa [nr] using h
    · exact h
  | wait c w =>
    unfold Thr.step
    rw [if_neg (by simp [hd])]
    dsimp only
    split
    · exact h.await c w
    · exact h
  | setCycle cy =>
    unfold Thr.step
    rw [if_neg (by simp [hd])]
    obtain ⟨h1, h2, h3⟩ := h
    refine ⟨h1, h2, ?_⟩
    cases l with
    | off => exact h3
    | on t a n p => exact ⟨h3.1, h3.2.1, h3.2.2.1, wOk_congr h3.2.2.2 rfl rfl rfl Or.inr⟩
    | wrong => exact h3
  | trigger pick =>
    unfold Thr.step
    rw [if_neg (by simp [hd])]
    exact h.trigger pick
  | wakeC c id ok =>
    unfold Thr.step
    rw [if_neg (by simp [hd])]
    dsimp only
    cases e : s.cl c with
    | idle => exact h
    | startW tm => exact absurd e (h.2.1 c tm)
    | startS => simpa [nr] using h.goC c .idle (by simp)
    | waitW tm => simpa [nr] using h.goC c .idle (by simp)
  | timeoutC c =>
    unfold Thr.step
    rw [if_neg (by simp [hd])]
    dsimp only
    split
    · exact h
    · cases e : s.cl c with
      | idle => exact h
      | startW tm => exact absurd e (h.2.1 c tm)
      | startS => exact h
      | waitW tm =>
        cases tm
        · exact h
        · simpa [nr] using h.goC c .idle (by simp)
  | work t late =>
    by_cases hw : s.wk t = .gone
    · unfold Thr.step
      rw [if_neg (by simp [hd])]
      dsimp only
      rw [hw]
      exact h
    · obtain ⟨a, n, p, rfl⟩ := lone hw
      exact h.work late
  | timeoutW t =>
    unfold Thr.step
    rw [if_neg (by simp [hd])]
    dsimp only
    cases hw : s.wk t with
    | trig tm sv =>
      cases tm with
      | false => exact h
      | true =>
        obtain ⟨a, n, p, rfl⟩ := lone (t := t) (by simp [hw])
        have h6 := h.2.2.2.2.2
        rw [hw] at h6
        match sv, h6 with
        | some sv, ⟨e1, e2, e3, e4, e5⟩ =>
          dsimp only [Sys.restore]
          rw [List.foldl_nil]
          exact R.goW h _ rfl rfl rfl rfl h.2.2.2.2.1 ⟨live_set e2, e3, e4, e5⟩
    | gone => exact h
    | fresh => exact h
    | «at» _ => exact h
    | rest _ _ => exact h
  | rest t sleep =>
    unfold Thr.step
    rw [if_neg (by simp [hd])]
    dsimp only
    cases hw : s.wk t with
    | «at» q =>
      obtain ⟨a, n, p, rfl⟩ := lone (t := t) (by simp [hw])
      have h6 := h.2.2.2.2.2
      rw [hw] at h6
      obtain ⟨e1, e2, e3⟩ := h6
      dsimp only
      split
      · rw [List.foldl_nil]
        refine R.goW h _ rfl rfl rfl rfl h.2.2.2.2.1 ⟨?_, e1.1, e2, e3⟩
        rw [set_ne (by split <;> simp)]
        cases sleep <;> simp
      · exact h
    | gone => exact h
    | fresh => exact h
    | trig _ _ => exact h
    | rest _ _ => exact h
  | unrest t =>
    unfold Thr.step
    rw [if_neg (by simp [hd])]
    dsimp only
    cases hw : s.wk t with
    | rest sv q =>
      obtain ⟨a, n, p, rfl⟩ := lone (t := t) (by simp [hw])
      have h6 := h.2.2.2.2.2
      rw [hw] at h6
      obtain ⟨e0, e1, e2, e3⟩ := h6
      dsimp only
      rw [List.foldl_nil]
      exact R.goW h _ rfl rfl rfl rfl h.2.2.2.2.1 ⟨live_set e1, e2, e3⟩
    | gone => exact h
    | fresh => exact h
    | trig _ _ => exact h
    | «at» _ => exact h
  | exit t pick =>
    unfold Thr.step
    rw [if_neg (by simp [hd])]
    dsimp only
    cases hw : s.wk t with
    | «at» q =>
      cases q with
      | proc =>
        dsimp only
        split
        · obtain ⟨a, n, p, rfl⟩ := lone (t := t) (by simp [hw])
          have : Life.next (.on t a n p) .asked = .on t true n p := by cases p <;> rfl
          simp only [List.foldl_cons, List.foldl_nil, this]
          exact h.ask pick
        · exact h
      | check => exact h
      | stopped => exact h
      | ending => exact h
    | gone => exact h
    | fresh => exact h
    | trig _ _ => exact h
    | rest _ _ => exact h

theorem R.run {s : Sys} {l : Life} (h : R s l) (as : List Act) (ho : OrderlyRun s as) :
    R (run s as).1 ((run s as).2.foldl Life.next l) := by
  induction as generalizing s l with
  | nil => exact h
  | cons a as ih =>
    unfold Thr.run
    rw [List.foldl_append]
    exact ih (h.step a ho.1) ho.2

theorem R.init (cy : Cycle) : R (Sys.init cy) .off :=
  ⟨rfl, by intro c tm; simp [Sys.init], rfl, fun _ => rfl, by simp [Sys.busy, Sys.init], fun _ => rfl, rfl⟩

theorem run_append (s : Sys) (as bs : List Act) :
    run s (as ++ bs) = ((run (run s as).1 bs).1, (run s as).2 ++ (run (run s as).1 bs).2) := by
  induction as generalizing s with
  | nil => simp [run]
  | cons a as ih =>
    simp only [List.cons_append, run, ih, List.append_assoc]

/-- In every schedule in which the object is started only when it is not busy, and the system can create threads, its life
is one the specification allows: one thread at a time runs it; `process()` is called at least once and never again
after an interrupt but for the first time; the final state tells whether it was interrupted; no exception ends the
program.  `isBusy` and `exists` are true from the start of a run to its end, `getNumCycles` counts the calls that have
returned, up to the cycle that is under way, and a run that was interrupted does not say that it is running.  Missing
for the full property: other schedules. -/
theorem C175_life_partial (cy : Cycle) (as : List Act) (ho : OrderlyRun (Sys.init cy) as) :
    life (run (Sys.init cy) as).2 ≠ .wrong ∧
    ((run (Sys.init cy) as).1.busy ↔ ∃ t a n p, life (run (Sys.init cy) as).2 = .on t a n p) ∧
    ((run (Sys.init cy) as).1.ident ≠ none ↔ ∃ t a n p, life (run (Sys.init cy) as).2 = .on t a n p) ∧
    (∀ t a n p, life (run (Sys.init cy) as).2 = .on t a n p →
      (run (Sys.init cy) as).1.numCycles ≤ n ∧ n ≤ (run (Sys.init cy) as).1.numCycles + 1 ∧
      (a = true → (run (Sys.init cy) as).1.st ≠ .running) ∧
      (run (Sys.init cy) as).1.ident = some t ∧ ∀ u, (run (Sys.init cy) as).1.wk u ≠ .gone ↔ u = t) := by
  have h : R (run (Sys.init cy) as).1 (life (run (Sys.init cy) as).2) := (R.init cy).run as ho
  generalize (run (Sys.init cy) as).1 = s at h
  generalize life (run (Sys.init cy) as).2 = l at h
  obtain ⟨-, -, h⟩ := h
  cases l with
  | wrong => exact h.elim
  | off =>
    refine ⟨by simp, ?_, ?_, ?_⟩
    · simp only [h.2.2.1, false_iff]; simp
    · simp [h.1]
    · simp
  | on t a n p =>
    obtain ⟨h1, h2, h3, h4⟩ := h
    refine ⟨by simp, ?_, ?_, ?_⟩
    · simp only [busy_of_wOk h4, true_iff]; exact ⟨_, _, _, _, rfl⟩
    · simp [h1]
    · intro t' a' n' p' e
      simp only [Life.on.injEq] at e
      obtain ⟨rfl, rfl, rfl, rfl⟩ := e
      have hu : ∀ u, s.wk u ≠ .gone ↔ u = t := by
        intro u
        refine ⟨fun hu => by_contra fun e => hu (h2 u e), ?_⟩
        rintro rfl e
        rw [e] at h4
        exact h4
      have pt {q : Pt} (hp : ptOk n p s.numCycles q) : s.numCycles ≤ n ∧ n ≤ s.numCycles + 1 := by
        cases q <;> simp only [ptOk] at hp <;> omega
      rw [← and_assoc]
      refine ⟨?_, ?_, h1, hu⟩
      · revert h4
        generalize s.wk t = w
        intro h4
        match w, h4 with
        | .fresh, ⟨_, _, e1, e2, _⟩ => omega
        | .at _, h => exact pt h.2.2
        | .rest _ _, h => exact pt h.2.2.2
        | .trig _ (some _), h => have := h.2.2.2.1; omega
      · intro ha
        revert h4
        generalize s.wk t = w
        intro h4
        match w, h4 with
        | .fresh, h => rw [h.1]; simp
        | .at _, h => exact h.1.2 (h3.trans ha)
        | .rest _ _, h => rcases h.1 with e | e <;> rw [e] <;> simp
        | .trig _ (some _), h => rw [h.1]; simp

/-- How many steps the thread has to go to the end of a run that was interrupted. -/
def rank : WPh → ℕ
  | .gone => 0
  | .at .ending => 1
  | .at .stopped => 2
  | .trig _ _ => 3
  | .at .proc => 4
  | .at .check => 5
  | .fresh => 6
  | .rest _ _ => 7

theorem rank_step {s : Sys} {t : Wid} {n : ℕ} {p : Bool} (h : R s (.on t true n p)) (hr : ∀ sv q, s.wk t ≠ .rest sv q) :
    (∀ sv q, (step s (.work t false)).1.wk t ≠ .rest sv q) ∧ rank ((step s (.work t false)).1.wk t) < rank (s.wk t) := by
  obtain ⟨h1, h2, h3, h4, h5, h6⟩ := h
  have go (s : Sys) (w : WPh) : (s.goW t w).wk t = w := by simp [Sys.goW]
  have hs : (step s (.work t false)).1 = (match s.wk t with
    | .gone => (s, [])
    | .fresh => enter s t
    | .at .check => loopTest s t
    | .at .proc => waitTrigger s t false
    | .at .stopped => cycleEnd s t
    | .at .ending => cleanup s t
    | .rest _ _ => (s, [])
    | .trig _ saved => ((s.restore saved).goW t (.at .stopped), [])).1 := by
    unfold step
    rw [if_neg (by simp [h1])]
    rfl
  rw [hs]
  generalize hw : s.wk t = w
  rw [hw] at h6
  match w, h6 with
  | .fresh, ⟨e1, e2, _⟩ =>
    dsimp only
    unfold enter
    rw [if_neg (by simp [e2])]
    dsimp only
    rw [go]
    simp [rank]
  | .at .check, ⟨e1, e2, e3, e4, e5⟩ =>
    dsimp only
    unfold loopTest
    rw [if_pos (Or.inr e4)]
    dsimp only
    rw [go]
    simp [rank]
  | .at .proc, ⟨e1, e2, e3, e4⟩ =>
    dsimp only
    unfold waitTrigger
    cases s.cycle <;> simp [go, rank]
  | .at .stopped, ⟨e1, e2, e3, e4⟩ =>
    dsimp only
    unfold cycleEnd loopTest
    dsimp only
    split
    · dsimp only
      rw [go]; simp [rank]
    · rw [if_neg (by simp [h5])]
      dsimp only
      rw [go]; simp [rank]
  | .at .ending, ⟨e1, e2, e3, e4, e5⟩ =>
    dsimp only
    unfold cleanup
    have hr : ∀ st, ({ s.set st with cancel := false } : Sys).reg ({ s.set st with cancel := false } : Sys).ident = true := by
      intro st
      change s.reg s.ident = true
      rw [h3, e2]; simp
    dsimp only
    rw [if_pos (hr _)]
    dsimp only
    rw [go]; simp [rank]
  | .rest sv q, h6 => exact absurd hw (hr sv q)
  | .trig _ (some sv), _ =>
    dsimp only
    rw [go]; simp [rank]

theorem work_events (s : Sys) (t : Wid) (late : Bool) :
    (step s (.work t late)).2 = [] ∨ ∃ e, (step s (.work t late)).2 = [e] := by
  have h1 : ∀ s : Sys, (loopTest s t).2 = [] ∨ ∃ e, (loopTest s t).2 = [e] := by
    intro s; unfold loopTest; split <;> simp
  unfold step
  split
  · simp
  dsimp only
  split
  · simp
  · unfold enter; split <;> simp
  · exact h1 s
  · unfold waitTrigger
    cases s.cycle <;> cases late <;> simp
  · unfold cycleEnd
    dsimp only
    split
    · simp
    · exact h1 _
  · unfold cleanup
    generalize (if s.cancel = true then St.interrupted else .finished) = fin
    dsimp only
    split <;> simp
  · simp
  · simp

theorem next_on {t u : Wid} {n n' : ℕ} {p p' a : Bool} {e : Ev} (h : Life.next (.on t true n p) e = .on u a n' p') :
    u = t ∧ a = true := by
  cases p <;> cases e <;> simp [Life.next] at h <;> (try split at h) <;> simp_all

theorem ends_in {s : Sys} {t : Wid} {n : ℕ} {p : Bool} (k : ℕ) (h : R s (.on t true n p)) (hr : ∀ sv q, s.wk t ≠ .rest sv q)
    (hk : rank (s.wk t) ≤ k) :
    (run s (List.replicate k (.work t false))).2.foldl Life.next (.on t true n p) = .off := by
  induction k generalizing s n p with
  | zero =>
    have := h.2.2.2.2.2
    rcases e : s.wk t with _ | _ | (_ | _ | _ | _) | _ | _ <;> rw [e] at hk this <;> simp [rank] at hk
    exact this.elim
  | succ k ih =>
    have h' := h.step (.work t false) trivial
    obtain ⟨r1, r2⟩ := rank_step h hr
    rw [List.replicate_succ]
    unfold run
    rw [List.foldl_append]
    generalize hl : (step s (.work t false)).2.foldl Life.next (.on t true n p) = l at h' ⊢
    have hg : ∀ s' : Sys, (∀ u, s'.wk u = .gone) → ∀ k, (run s' (List.replicate k (.work t false))).2 = [] := by
      intro s' hs' k
      induction k with
      | zero => rfl
      | succ k ih =>
        have : step s' (.work t false) = (s', []) := by
          unfold step
          split
          · rfl
          · dsimp only; rw [hs']
        rw [List.replicate_succ]
        unfold run
        rw [this, List.nil_append]
        exact ih
    cases l with
    | wrong => exact h'.2.2.elim
    | off =>
      rw [hg _ h'.2.2.2.1, List.foldl_nil]
    | on u a n' p' =>
      have : u = t ∧ a = true := by
        rcases work_events s t false with e | ⟨e, he⟩
        · rw [e, List.foldl_nil] at hl
          simp only [Life.on.injEq] at hl
          exact ⟨hl.1.symm, hl.2.1.symm⟩
        · rw [he, List.foldl_cons, List.foldl_nil] at hl
          exact next_on hl
      obtain ⟨rfl, rfl⟩ := this
      exact ih h' r1 (by omega)

/-- A run that was interrupted ends after six steps of its thread at most, if the waits in them return. -/
theorem C175_interrupt_ends_partial (cy : Cycle) (as : List Act) (ho : OrderlyRun (Sys.init cy) as) (t : Wid) (n : ℕ) (p : Bool)
    (hl : life (run (Sys.init cy) as).2 = .on t true n p) (hr : ∀ sv q, (run (Sys.init cy) as).1.wk t ≠ .rest sv q) :
    life (run (Sys.init cy) (as ++ List.replicate 6 (.work t false))).2 = .off := by
  have h : R (run (Sys.init cy) as).1 (life (run (Sys.init cy) as).2) := (R.init cy).run as ho
  rw [hl] at h
  rw [run_append]
  unfold life at hl ⊢
  rw [List.foldl_append, hl]
  refine ends_in 6 h hr ?_
  rcases e : (run (Sys.init cy) as).1.wk t with _ | _ | (_ | _ | _ | _) | ⟨sv, q⟩ | _ <;> simp [rank]
  exact hr sv q e

/-! ## Waiting for the end of a run -/

/-- What a caller is in and what it has seen. -/
def W1 (s : Sys) (c : Cid) (x : Seen) : Prop :=
  match s.cl c with
  | .waitW _ => x = .an_end ∨ x = .nothing ∧ s.sigC c = false
  | _ => x = .idle

theorem W1.congr {s s' : Sys} {c : Cid} {x : Seen} (h : W1 s c x) (h1 : s'.cl c = s.cl c) (h2 : s'.sigC c = s.sigC c) :
    W1 s' c x := by
  unfold W1 at *
  rw [h1, h2]
  exact h

theorem trigger_same (s : Sys) (pick : Wid) : (s.trigger pick).cl = s.cl ∧ (s.trigger pick).sigC = s.sigC := by
  unfold Sys.trigger
  split <;> exact ⟨rfl, rfl⟩

theorem ask_same (s : Sys) (pick : Wid) : (s.ask pick).cl = s.cl ∧ (s.ask pick).sigC = s.sigC := by
  unfold Sys.ask
  dsimp only
  rw [(trigger_same _ pick).1, (trigger_same _ pick).2]
  split <;> exact ⟨rfl, rfl⟩

theorem W1.goC_ne {s : Sys} {c d : Cid} {x : Seen} (h : W1 s c x) (hd : c ≠ d) (p : CPh) : W1 (s.goC d p) c x :=
  h.congr (by simp [Sys.goC, hd]) (by simp [Sys.goC, hd])

theorem Seen.next_ended (c : Cid) {x : Seen} (t : Wid) (st : St) :
    Seen.next c x (.ended t st) = match x with | .nothing => .an_end | x => x := by
  cases x <;> rfl

theorem W1.launch {s : Sys} {c d : Cid} {x : Seen} (h : W1 s c x) (hd : ∀ tm, s.cl d ≠ .waitW tm) (id : Wid) (ok : Bool) :
    W1 (launch s d id ok).1 c ((launch s d id ok).2.foldl (Seen.next c) x) := by
  unfold Thr.launch
  split
  · exact h
  · dsimp only
    by_cases e : c = d
    · subst e
      have : x = .idle := by
        unfold W1 at h
        cases hc : s.cl c with
        | waitW tm => exact absurd hc (hd tm)
        | _ => rw [hc] at h; exact h
      subst this
      cases ok <;> simp [W1, Sys.goC, Seen.next]
    · cases ok
      · have := (h.congr (s' := ({ s with numCycles := 0 } : Sys).set .starting) rfl rfl).goC_ne e .idle
        cases x <;> simpa [Seen.next] using this
      · have := (h.congr (s' := ({ ({ s with numCycles := 0 } : Sys).set .starting with ident := some id } : Sys).goW id .fresh)
          rfl rfl).goC_ne e .startS
        cases x <;> simpa [Seen.next] using this

theorem Seen.next_other (c d : Cid) (h : c ≠ d) (x : Seen) (r : Bool) : Seen.next c x (.ret d r) = x ∧ Seen.next c x (.waits d) = x := by
  have h' : d ≠ c := Ne.symm h
  cases x <;> simp [Seen.next, h']

theorem W1.await {s : Sys} {c d : Cid} {x : Seen} (h : W1 s c x) (hd : s.cl d = .idle) (w : W) :
    W1 (await s d w).1 c ((await s d w).2.foldl (Seen.next c) x) := by
  by_cases e : c = d
  · subst e
    have : x = .idle := by unfold W1 at h; rw [hd] at h; exact h
    subst this
    cases w
    · simpa [Thr.await, Seen.next] using h
    · simp only [Thr.await]; split
      · simp [Seen.next, W1, Sys.goC]
      · simpa [Seen.next] using h
    · simp only [Thr.await]; split
      · simp [Seen.next, W1, Sys.goC]
      · simpa [Seen.next] using h
  · cases w
    · simpa [Thr.await, Seen.next_other c d e] using h
    · simp only [Thr.await]; split
      · simpa [Seen.next_other c d e x true] using h.goC_ne e _
      · simpa [Seen.next_other c d e] using h
    · simp only [Thr.await]; split
      · simpa [Seen.next_other c d e x true] using h.goC_ne e _
      · simpa [Seen.next_other c d e] using h

theorem W1.step {s : Sys} {c : Cid} {x : Seen} (h : W1 s c x) (a : Act) (ha : Honest s a) :
    W1 (step s a).1 c ((step s a).2.foldl (Seen.next c) x) := by
  have noEv (e : Ev) (he : e = .asked ∨ e = .crashed ∨ (∃ t, e = .procBegin t) ∨ (∃ t, e = .procEnd t)) :
      Seen.next c x e = x := by
    rcases he with rfl | rfl | ⟨t, rfl⟩ | ⟨t, rfl⟩ <;> cases x <;> rfl
  have ret (d : Cid) (r : Bool) (hr : c = d → x ≠ .nothing ∨ r = false) (hi : ∃ tm, s.cl d = .waitW tm) :
      W1 (s.goC d .idle) c (Seen.next c x (.ret d r)) := by
    by_cases e : c = d
    · subst e
      obtain ⟨tm, hi⟩ := hi
      unfold W1 at h
      rw [hi] at h
      have : Seen.next c x (.ret c r) = .idle := by
        rcases h with rfl | ⟨rfl, -⟩
        · simp [Seen.next]
        · rcases hr rfl with e | e
          · exact absurd rfl e
          · simp [Seen.next, e]
      rw [this]
      simp [W1, Sys.goC]
    · rw [(Seen.next_other c d e x r).1]
      exact h.goC_ne e _
  have retS (d : Cid) (r : Bool) (hi : ∀ tm, s.cl d ≠ .waitW tm) :
      W1 (s.goC d .idle) c (Seen.next c x (.ret d r)) := by
    by_cases e : c = d
    · subst e
      have : x = .idle := by
        unfold W1 at h
        cases hc : s.cl c with
        | waitW tm => exact absurd hc (hi tm)
        | _ => rw [hc] at h; exact h
      subst this
      simp [W1, Sys.goC, Seen.next]
    · rw [(Seen.next_other c d e x r).1]
      exact h.goC_ne e _
  unfold Thr.step
  split
  · exact h
  cases a with
  | start d w id ok =>
    dsimp only
    split
    · rename_i hi
      have hi' : ∀ tm, s.cl d ≠ .waitW tm := by simp [hi]
      have wS (tm : Bool) : W1 (s.goC d (.startW tm)) c x := by
        by_cases e : c = d
        · subst e
          unfold W1 at h
          rw [hi] at h
          simp [W1, Sys.goC, h]
        · exact h.goC_ne e _
      cases w with
      | no => exact h.launch hi' id ok
      | «until» => dsimp only; split <;> [exact wS true; exact h.launch hi' id ok]
      | eternal => dsimp only; split <;> [exact wS false; exact h.launch hi' id ok]
    · exact h
  | interrupt d w pick =>
    dsimp only
    split
    · rename_i hi
      split
      · rw [List.foldl_cons, noEv _ (Or.inl rfl)]
        have hcl := ask_same s pick
        exact (h.congr (by rw [hcl.1]) (by rw [hcl.2])).await (by rw [hcl.1]; exact hi) w
      · have := retS d false (by simp [hi])
        simp only [List.foldl_cons, List.foldl_nil]
        by_cases e : c = d
        · subst e
          unfold W1 at h ⊢
          rw [hi] at h ⊢
          rw [h]; simp [Seen.next]
        · rw [(Seen.next_other c d e x false).1]
          exact h
    · exact h
  | wait d w =>
    dsimp only
    split
    · rename_i hi
      exact h.await hi w
    · exact h
  | setCycle cy => exact h.congr rfl rfl
  | trigger pick =>
    exact h.congr (by rw [(trigger_same s pick).1]) (by rw [(trigger_same s pick).2])
  | wakeC d id ok =>
    dsimp only
    cases hc : s.cl d with
    | idle => exact h
    | startW tm => exact h.launch (by simp [hc]) id ok
    | startS => exact retS d true (by simp [hc])
    | waitW tm =>
      refine ret d true ?_ ⟨tm, hc⟩
      rintro rfl
      left
      rintro rfl
      unfold W1 at h
      rw [hc] at h
      simp only [reduceCtorEq, true_and, false_or] at h
      have : s.sigC c = true := ha
      rw [h] at this
      cases this
  | timeoutC d =>
    dsimp only
    split
    · exact h
    · cases hc : s.cl d with
      | idle => exact h
      | startS => exact h
      | startW tm =>
        cases tm
        · exact h
        · exact retS d false (by simp [hc])
      | waitW tm =>
        cases tm
        · exact h
        · exact ret d false (fun _ => Or.inr rfl) ⟨true, hc⟩
  | work t late =>
    have lt (s' : Sys) (h' : W1 s' c x) : W1 (loopTest s' t).1 c ((loopTest s' t).2.foldl (Seen.next c) x) := by
      unfold loopTest
      split
      · rw [List.foldl_cons, List.foldl_nil, noEv _ (by simp)]
        exact h'.congr rfl rfl
      · exact h'.congr rfl rfl
    dsimp only
    split
    · exact h
    · unfold enter
      split
      · rw [List.foldl_cons, List.foldl_nil, noEv _ (by simp)]
        exact h.congr rfl rfl
      · dsimp only
        rw [List.foldl_nil]
        unfold W1 at h ⊢
        change (match s.cl c with | .waitW _ => x = .an_end ∨ x = .nothing ∧ (if s.cl c = .startS then true else s.sigC c) = false | _ => x = .idle)
        cases hc : s.cl c <;> rw [hc] at h <;> simpa using h
    · exact lt s h
    · unfold waitTrigger
      have hp := noEv (.procEnd t) (by simp)
      cases s.cycle <;> cases late <;> simp only [List.foldl_cons, List.foldl_nil, hp, if_true, Bool.false_eq_true, if_false] <;>
        (try split) <;> exact h.congr rfl rfl
    · unfold cycleEnd
      dsimp only
      split
      · exact h.congr rfl rfl
      · exact lt _ (h.congr rfl rfl)
    · unfold cleanup
      generalize (if s.cancel = true then St.interrupted else .finished) = fin
      dsimp only
      split
      · rw [List.foldl_cons, List.foldl_nil, Seen.next_ended]
        unfold W1 at h ⊢
        change (match s.cl c with | .waitW _ => _ = Seen.an_end ∨ _ = Seen.nothing ∧ (if (s.cl c).onCleaned = true then true else s.sigC c) = false | _ => _ = Seen.idle)
        cases hc : s.cl c <;> rw [hc] at h
        · subst h; rfl
        · subst h; rfl
        · subst h; rfl
        · rcases h with rfl | ⟨rfl, -⟩ <;> left <;> rfl
      · rw [List.foldl_cons, List.foldl_nil, noEv _ (by simp)]
        exact h.congr rfl rfl
    · exact h
    · rename_i sv _
      cases sv <;> exact h.congr rfl rfl
  | timeoutW t =>
    dsimp only
    split
    · rename_i sv _
      cases sv <;> exact h.congr rfl rfl
    · exact h
  | rest t sl =>
    dsimp only
    split
    · split
      · exact h.congr rfl rfl
      · exact h
    · exact h
  | unrest t =>
    dsimp only
    split
    · exact h.congr rfl rfl
    · exact h
  | exit t pick =>
    dsimp only
    split
    · split
      · rw [List.foldl_cons, List.foldl_nil, noEv _ (Or.inl rfl)]
        have hcl := ask_same s pick
        exact h.congr (by rw [hcl.1]) (by rw [hcl.2])
      · exact h
    · exact h

/-- A caller that waits in `interrupt` or `wait` for the end of a run is told that it is over only if a run has ended
since it began to wait, in every schedule, orderly or not, in which callers wake up only when they were signalled.
Missing for the full property: POSIX lets them wake up for no reason. -/
theorem C175_wait_partial (cy : Cycle) (as : List Act) (ha : HonestRun (Sys.init cy) as) (c : Cid) :
    seen c (run (Sys.init cy) as).2 ≠ .wrong := by
  have key (as : List Act) (s : Sys) (x : Seen) (h : W1 s c x) (ha : HonestRun s as) :
      W1 (run s as).1 c ((run s as).2.foldl (Seen.next c) x) := by
    induction as generalizing s x with
    | nil => exact h
    | cons a as ih =>
      unfold run
      rw [List.foldl_append]
      exact ih _ _ (h.step a ha.1) ha.2
  have := key as (Sys.init cy) .idle (by simp [W1, Sys.init]) ha
  intro e
  unfold seen at e
  rw [e] at this
  unfold W1 at this
  split at this <;> simp at this

/-! ## Where the property fails -/

/-- A run of the object by the thread `0`, up to the point at which `process()` is under way and `start` has returned. -/
def begun : List Act := [.start 0 .eternal 0 true, .work 0 false, .wakeC 0 0 true, .work 0 false]

/-- A caller that wakes up for no reason is told that the run is over while `process()` is under way. -/
theorem C175_spurious_counterexample :
    seen 1 (run (Sys.init .timed) (begun ++ [.wait 1 .eternal, .wakeC 1 0 true])).2 = .wrong ∧
    OrderlyRun (Sys.init .timed) (begun ++ [.wait 1 .eternal, .wakeC 1 0 true]) := by
  refine ⟨by decide, ?_⟩
  refine ⟨⟨by decide, rfl⟩, trivial, trivial, trivial, trivial, trivial, trivial⟩

/-- A start without waiting starts a second thread while the first is in `process()`; when the first one ends, the
program ends with it. -/
theorem C175_start_busy_counterexample :
    Ev.launched 1 ∈ (run (Sys.init .once) (begun ++ [.start 1 .no 1 true])).2 ∧
    Ev.ended 0 .finished ∉ (run (Sys.init .once) (begun ++ [.start 1 .no 1 true])).2 ∧
    Ev.crashed ∈ (run (Sys.init .once) (begun ++ [.start 1 .no 1 true, .work 0 false, .work 0 false, .work 0 false])).2 := by
  decide

/-- Two callers that start a busy object, and are both ready to wait for the end of its run, start two threads, without
any of them waking up for no reason. -/
theorem C175_two_starts_counterexample :
    HonestRun (Sys.init .once) (begun ++ [.start 1 .eternal 1 true, .start 2 .eternal 2 true, .work 0 false, .work 0 false,
      .work 0 false, .wakeC 1 1 true, .wakeC 2 2 true]) ∧
    (run (Sys.init .once) (begun ++ [.start 1 .eternal 1 true, .start 2 .eternal 2 true, .work 0 false, .work 0 false,
      .work 0 false, .wakeC 1 1 true, .wakeC 2 2 true])).1.wk 1 = .fresh ∧
    (run (Sys.init .once) (begun ++ [.start 1 .eternal 1 true, .start 2 .eternal 2 true, .work 0 false, .work 0 false,
      .work 0 false, .wakeC 1 1 true, .wakeC 2 2 true])).1.wk 2 = .fresh := by
  refine ⟨?_, by decide, by decide⟩
  refine ⟨trivial, trivial, ?_, trivial, trivial, trivial, trivial, trivial, trivial, ?_, ?_, trivial⟩ <;> (unfold Honest; decide)

/-- If the system cannot create the thread, the object says that it is busy for ever, whatever is called but another
start: no run ends, and so no caller that interrupts it or waits for it without a time comes back. -/
theorem C175_create_counterexample (cy : Cycle) (w : W) (as : List Act)
    (ha : ∀ a ∈ as, ∀ c w id ok, a ≠ .start c w id ok) :
    (run (Sys.init cy) (.start 0 w 0 false :: as)).1.busy ∧
    ∀ t st, Ev.ended t st ∉ (run (Sys.init cy) (.start 0 w 0 false :: as)).2 := by
  have key (as : List Act) (ha : ∀ a ∈ as, ∀ c w id ok, a ≠ .start c w id ok) (s : Sys) (h1 : s.st = .starting)
      (h2 : ∀ t, s.wk t = .gone) (h3 : ∀ c tm, s.cl c ≠ .startW tm) :
      (run s as).1.busy ∧ ∀ t st, Ev.ended t st ∉ (run s as).2 := by
    induction as generalizing s with
    | nil => exact ⟨by simp [run, Sys.busy, h1], by simp [run]⟩
    | cons a as ih =>
      have goC (c : Cid) (p : CPh) (hp : ∀ tm, p ≠ .startW tm) : (s.goC c p).st = .starting ∧
          (∀ t, (s.goC c p).wk t = .gone) ∧ (∀ d tm, (s.goC c p).cl d ≠ .startW tm) := by
        refine ⟨h1, h2, fun d tm => ?_⟩
        change Function.update s.cl c p d ≠ _
        rw [Function.update_apply]
        split
        · exact hp tm
        · exact h3 d tm
      have ask (pick : Wid) : (s.ask pick).st = .starting ∧ (s.ask pick).wk = s.wk ∧ (s.ask pick).cl = s.cl := by
        refine ⟨?_, ?_, (ask_same s pick).1⟩
        · unfold Sys.ask Sys.trigger
          simp [h1, h2, WPh.onTrigger]
        · unfold Sys.ask Sys.trigger
          simp [h1, h2, WPh.onTrigger]
      have aw (s : Sys) (h1 : s.st = .starting) (h2 : ∀ t, s.wk t = .gone) (h3 : ∀ c tm, s.cl c ≠ .startW tm) (c : Cid) (w : W) :
          (await s c w).1.st = .starting ∧ (∀ t, (await s c w).1.wk t = .gone) ∧
          (∀ d tm, (await s c w).1.cl d ≠ .startW tm) ∧ ∀ t st, Ev.ended t st ∉ (await s c w).2 := by
        have hb : s.busy := by simp [Sys.busy, h1]
        have up (d : Cid) (tm tm' : Bool) : Function.update s.cl c (.waitW tm') d ≠ .startW tm := by
          rw [Function.update_apply]
          split
          · simp
          · exact h3 d tm
        cases w with
        | no => exact ⟨h1, h2, h3, by simp [await]⟩
        | «until» =>
          simp only [await, if_pos hb]
          exact ⟨h1, h2, fun d tm => up d tm _, by simp⟩
        | eternal =>
          simp only [await, if_pos hb]
          exact ⟨h1, h2, fun d tm => up d tm _, by simp⟩
      have st : (step s a).1.st = .starting ∧ (∀ t, (step s a).1.wk t = .gone) ∧ (∀ c tm, (step s a).1.cl c ≠ .startW tm) ∧
          ∀ t st, Ev.ended t st ∉ (step s a).2 := by
        unfold step
        split
        · exact ⟨h1, h2, h3, by simp⟩
        cases a with
        | start c w id ok => exact absurd rfl (ha _ (by simp) c w id ok)
        | interrupt c w pick =>
          dsimp only
          split
          · split
            · obtain ⟨a1, a2, a3⟩ := ask pick
              obtain ⟨b1, b2, b3, b4⟩ := aw (s.ask pick) a1 (by rw [a2]; exact h2) (by rw [a3]; exact h3) c w
              exact ⟨b1, b2, b3, by simpa using b4⟩
            · exact ⟨h1, h2, h3, by simp⟩
          · exact ⟨h1, h2, h3, by simp⟩
        | wait c w =>
          dsimp only
          split
          · exact aw s h1 h2 h3 c w
          · exact ⟨h1, h2, h3, by simp⟩
        | setCycle cy => exact ⟨h1, h2, h3, by simp⟩
        | trigger pick =>
          have : s.trigger pick = s := by unfold Sys.trigger; simp [h2, WPh.onTrigger]
          dsimp only
          rw [this]
          exact ⟨h1, h2, h3, by simp⟩
        | wakeC c id ok =>
          dsimp only
          cases hc : s.cl c with
          | idle => exact ⟨h1, h2, h3, by simp⟩
          | startW tm => exact absurd hc (h3 c tm)
          | startS => obtain ⟨x, y, z⟩ := goC c .idle (by simp); exact ⟨x, y, z, by simp⟩
          | waitW tm => obtain ⟨x, y, z⟩ := goC c .idle (by simp); exact ⟨x, y, z, by simp⟩
        | timeoutC c =>
          dsimp only
          split
          · exact ⟨h1, h2, h3, by simp⟩
          · split
            · obtain ⟨x, y, z⟩ := goC c .idle (by simp); exact ⟨x, y, z, by simp⟩
            · obtain ⟨x, y, z⟩ := goC c .idle (by simp); exact ⟨x, y, z, by simp⟩
            · exact ⟨h1, h2, h3, by simp⟩
        | work t late => dsimp only; rw [h2]; exact ⟨h1, h2, h3, by simp⟩
        | timeoutW t => dsimp only; rw [h2]; exact ⟨h1, h2, h3, by simp⟩
        | rest t sl => dsimp only; rw [h2]; exact ⟨h1, h2, h3, by simp⟩
        | unrest t => dsimp only; rw [h2]; exact ⟨h1, h2, h3, by simp⟩
        | exit t pick => dsimp only; rw [h2]; exact ⟨h1, h2, h3, by simp⟩
      obtain ⟨s1, s2, s3, s4⟩ := st
      obtain ⟨r1, r2⟩ := ih (fun b hb => ha b (List.mem_cons_of_mem _ hb)) _ s1 s2 s3
      refine ⟨r1, fun t st => ?_⟩
      unfold run
      rw [List.mem_append, not_or]
      exact ⟨s4 t st, r2 t st⟩
  have e : step (Sys.init cy) (.start 0 w 0 false) = ((({ Sys.init cy with numCycles := 0 } : Sys).set .starting).goC 0 .idle, [.raised 0]) := by
    cases w <;> rfl
  have := key as ha (step (Sys.init cy) (.start 0 w 0 false)).1 (by rw [e]; rfl) (by rw [e]; intro t; rfl)
    (by
      rw [e]; intro c tm
      change Function.update (fun _ => CPh.idle) 0 .idle c ≠ _
      rw [Function.update_apply]
      split <;> simp)
  refine ⟨this.1, fun t st => ?_⟩
  unfold run
  rw [List.mem_append, not_or]
  refine ⟨?_, this.2 t st⟩
  rw [e]; simp

/-- An interrupt that comes while `process()` is under way is lost if the thread waits for its trigger without a time
between two cycles: as long as nobody else signals the trigger, the run does not end and the caller of
`interrupt` does not come back. -/
theorem C175_lost_interrupt_counterexample (as : List Act)
    (hq : QuietRun (run (Sys.init .eternal) (begun ++ [.interrupt 0 .eternal 0, .work 0 false])).1 as) :
    OrderlyRun (Sys.init .eternal) (begun ++ [.interrupt 0 .eternal 0, .work 0 false]) ∧
    Ev.asked ∈ (run (Sys.init .eternal) (begun ++ [.interrupt 0 .eternal 0, .work 0 false])).2 ∧
    (run (run (Sys.init .eternal) (begun ++ [.interrupt 0 .eternal 0, .work 0 false])).1 as).1.busy ∧
    (run (run (Sys.init .eternal) (begun ++ [.interrupt 0 .eternal 0, .work 0 false])).1 as).1.cl 0 = .waitW false ∧
    ∀ t st, Ev.ended t st ∉ (run (run (Sys.init .eternal) (begun ++ [.interrupt 0 .eternal 0, .work 0 false])).1 as).2 := by
  refine ⟨⟨⟨by decide, rfl⟩, trivial, trivial, trivial, trivial, trivial, trivial⟩, by decide, ?_⟩
  have key (as : List Act) (s : Sys) (hq : QuietRun s as) (h1 : s.st = .waiting)
      (h2 : ∀ t, t ≠ 0 → s.wk t = .gone) (h3 : ∃ sv, s.wk 0 = .trig false sv) (h4 : s.sigT 0 = false)
      (h5 : ∀ c tm, s.cl c ≠ .startW tm) (h6 : s.cl 0 = .waitW false) (h7 : s.sigC 0 = false) :
      (run s as).1.busy ∧ (run s as).1.cl 0 = .waitW false ∧ ∀ t st, Ev.ended t st ∉ (run s as).2 := by
    induction as generalizing s with
    | nil => exact ⟨by simp [run, Sys.busy, h1], h6, by simp [run]⟩
    | cons a as ih =>
      obtain ⟨hqa, hqs⟩ := hq
      have hb : s.busy := by simp [Sys.busy, h1]
      have fin (r : Sys × List Ev) (e : step s a = r) (f1 : r.1.st = .waiting)
          (f2 : ∀ t, t ≠ 0 → r.1.wk t = .gone) (f3 : ∃ sv, r.1.wk 0 = .trig false sv) (f4 : r.1.sigT 0 = false)
          (f5 : ∀ c tm, r.1.cl c ≠ .startW tm) (f6 : r.1.cl 0 = .waitW false) (f7 : r.1.sigC 0 = false)
          (f8 : ∀ t st, Ev.ended t st ∉ r.2) :
          (run s (a :: as)).1.busy ∧ (run s (a :: as)).1.cl 0 = .waitW false ∧ ∀ t st, Ev.ended t st ∉ (run s (a :: as)).2 := by
        rw [e] at hqs
        obtain ⟨g1, g2, g3⟩ := ih r.1 hqs f1 f2 f3 f4 f5 f6 f7
        unfold run
        rw [e]
        refine ⟨g1, g2, fun t st => ?_⟩
        rw [List.mem_append, not_or]
        exact ⟨f8 t st, g3 t st⟩
      have same (e : step s a = (s, [])) := fin _ e h1 h2 h3 h4 h5 h6 h7 (by simp)
      have goC (c : Cid) (hc : c ≠ 0) (p : CPh) (hp : ∀ tm, p ≠ .startW tm) (ev : Ev) (hev : ∀ t st, Ev.ended t st ≠ ev)
          (e : step s a = (s.goC c p, [ev])) := by
        refine fin _ e h1 h2 h3 h4 ?_ ?_ ?_ ?_
        · intro d tm
          change Function.update s.cl c p d ≠ _
          rw [Function.update_apply]
          split
          · exact hp tm
          · exact h5 d tm
        · change Function.update s.cl c p 0 = _
          rw [Function.update_of_ne (Ne.symm hc)]
          exact h6
        · change Function.update s.sigC c false 0 = _
          rw [Function.update_of_ne (Ne.symm hc)]
          exact h7
        · intro t st h
          rw [List.mem_singleton] at h
          exact hev t st h
      by_cases hd : s.dead = true
      · exact same (by unfold step; rw [if_pos hd])
      cases a with
      | start c w id ok => exact hqa.elim
      | interrupt c w pick => exact hqa.elim
      | trigger pick => exact hqa.elim
      | wait c w =>
        by_cases hc : s.cl c = .idle
        · have hc0 : c ≠ 0 := by rintro rfl; rw [h6] at hc; cases hc
          cases w with
          | no => exact fin (s, [.ret c true]) (by unfold step; rw [if_neg hd]; simp [hc, await]) h1 h2 h3 h4 h5 h6 h7 (by simp)
          | «until» => exact goC c hc0 (.waitW true) (by simp) (.waits c) (by simp) (by unfold step; rw [if_neg hd]; simp [hc, await, hb])
          | eternal => exact goC c hc0 (.waitW false) (by simp) (.waits c) (by simp) (by unfold step; rw [if_neg hd]; simp [hc, await, hb])
        · exact same (by unfold step; rw [if_neg hd]; simp [hc])
      | setCycle cy => exact fin ({ s with cycle := cy }, []) (by unfold step; rw [if_neg hd]) h1 h2 h3 h4 h5 h6 h7 (by simp)
      | wakeC c id ok =>
        have hc0 : c ≠ 0 := by
          rintro rfl
          have : s.sigC 0 = true := hqa
          rw [h7] at this; cases this
        cases hc : s.cl c with
        | idle => exact same (by unfold step; rw [if_neg hd]; simp [hc])
        | startW tm => exact absurd hc (h5 c tm)
        | startS => exact goC c hc0 .idle (by simp) (.ret c true) (by simp) (by unfold step; rw [if_neg hd]; simp [hc])
        | waitW tm => exact goC c hc0 .idle (by simp) (.ret c true) (by simp) (by unfold step; rw [if_neg hd]; simp [hc])
      | timeoutC c =>
        by_cases hs : s.sigC c = true
        · exact same (by unfold step; rw [if_neg hd]; simp [hs])
        cases hc : s.cl c with
        | idle => exact same (by unfold step; rw [if_neg hd]; simp [hc])
        | startW tm => exact absurd hc (h5 c tm)
        | startS => exact same (by unfold step; rw [if_neg hd]; simp [hc])
        | waitW tm =>
          cases tm with
          | false => exact same (by unfold step; rw [if_neg hd]; simp [hc])
          | true =>
            have hc0 : c ≠ 0 := by rintro rfl; rw [h6] at hc; cases hc
            exact goC c hc0 .idle (by simp) (.ret c false) (by simp) (by unfold step; rw [if_neg hd]; simp [hc, hs])
      | work t late =>
        by_cases ht : t = 0
        · subst ht
          obtain ⟨sv, h3⟩ := h3
          have : s.sigT 0 = true := hqa (by rw [h3]; rfl)
          rw [h4] at this; cases this
        · exact same (by unfold step; rw [if_neg hd]; simp [h2 t ht])
      | timeoutW t =>
        by_cases ht : t = 0
        · subst ht
          obtain ⟨sv, h3⟩ := h3
          exact same (by unfold step; rw [if_neg hd]; simp [h3])
        · exact same (by unfold step; rw [if_neg hd]; simp [h2 t ht])
      | rest t sl =>
        by_cases ht : t = 0
        · subst ht
          obtain ⟨sv, h3⟩ := h3
          exact same (by unfold step; rw [if_neg hd]; simp [h3])
        · exact same (by unfold step; rw [if_neg hd]; simp [h2 t ht])
      | unrest t =>
        by_cases ht : t = 0
        · subst ht
          obtain ⟨sv, h3⟩ := h3
          exact same (by unfold step; rw [if_neg hd]; simp [h3])
        · exact same (by unfold step; rw [if_neg hd]; simp [h2 t ht])
      | exit t pick =>
        by_cases ht : t = 0
        · subst ht
          obtain ⟨sv, h3⟩ := h3
          exact same (by unfold step; rw [if_neg hd]; simp [h3])
        · exact same (by unfold step; rw [if_neg hd]; simp [h2 t ht])
  refine key as _ hq (by decide) ?_ ⟨some .interrupting, by decide⟩ (by decide) ?_ (by decide) (by decide)
  · intro t ht
    simp [begun, run, step, launch, enter, loopTest, waitTrigger, await, Sys.ask, Sys.trigger, Sys.goC, Sys.goW, Sys.set, Sys.init, Sys.busy, WPh.onTrigger, ht]
  · intro c tm
    by_cases hc : c = 0
    · subst hc; decide +revert
    · simp [begun, run, step, launch, enter, loopTest, waitTrigger, await, Sys.ask, Sys.trigger, Sys.goC, Sys.goW, Sys.set, Sys.init, Sys.busy, WPh.onTrigger, hc]

/-- A schedule that meets the conditions of the theorems: two cycles, an interrupt during the wait for the trigger, the
end, and a second run of one cycle. -/
example :
    OrderlyRun (Sys.init .timed) (begun ++ [.rest 0 true, .unrest 0, .work 0 false, .work 0 false, .work 0 false, .work 0 false,
      .interrupt 1 .eternal 0, .work 0 false, .work 0 false, .work 0 false, .wakeC 1 0 true, .setCycle .once,
      .start 0 .eternal 3 true]) ∧
    HonestRun (Sys.init .timed) (begun ++ [.rest 0 true, .unrest 0, .work 0 false, .work 0 false, .work 0 false, .work 0 false,
      .interrupt 1 .eternal 0, .work 0 false, .work 0 false, .work 0 false, .wakeC 1 0 true, .setCycle .once,
      .start 0 .eternal 3 true]) ∧
    (run (Sys.init .timed) (begun ++ [.rest 0 true, .unrest 0, .work 0 false, .work 0 false, .work 0 false, .work 0 false,
      .interrupt 1 .eternal 0, .work 0 false, .work 0 false, .work 0 false, .wakeC 1 0 true, .setCycle .once,
      .start 0 .eternal 3 true])).2 =
      [.launched 0, .ret 0 true, .procBegin 0, .procEnd 0, .procBegin 0, .procEnd 0, .asked, .waits 1, .ended 0 .interrupted,
       .ret 1 true, .launched 3] := by
  refine ⟨?_, ?_, by decide⟩
  · refine ⟨⟨by decide, rfl⟩, trivial, trivial, trivial, trivial, trivial, trivial, trivial, trivial, trivial, trivial, trivial,
      trivial, trivial, trivial, trivial, ⟨by decide, rfl⟩, trivial⟩
  · refine ⟨trivial, trivial, ?_, trivial, trivial, trivial, trivial, trivial, trivial, trivial, trivial, trivial, trivial,
      trivial, ?_, trivial, trivial, trivial⟩ <;> (unfold Honest; decide)

end Kalibr.Thr
