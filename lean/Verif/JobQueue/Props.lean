import Verif.JobQueue.Lemmas

/-!
# Properties of the job queue (C07, C08, C76)

A state is `Reachable` when some interleaving of any number of client calls, workers and spurious wakeups
leads to it.  Tickets number the jobs in the order of scheduling.
-/

namespace Kalibr.JobQueue

/-! ## C07 -/

/-- Jobs leave the queue in the order in which they were scheduled: what waits is always the last
`sched - taken` jobs in order, and the job a worker takes is the oldest one. -/
theorem C07_taken_in_order (s : St) (h : Reachable s) :
    s.q = List.range' s.taken (s.sched - s.taken) ∧ s.taken ≤ s.sched ∧
    ∀ i s', step s (.w i) = some s' → s'.taken ≠ s.taken →
      s'.taken = s.taken + 1 ∧ s.workers[i]? = some .chk ∧ s'.workers[i]? = some (.got s.taken) := by
  refine ⟨h.inv.queue, h.inv.le, ?_⟩
  intro i s' hs hne
  change s.worker i = some s' at hs
  rw [St.worker] at hs
  split at hs
  · split at hs
    · obtain rfl := (Option.some.inj hs).symm; exact absurd rfl hne
    · split at hs
      · obtain rfl := (Option.some.inj hs).symm; exact absurd rfl hne
      · simp at hs
  · split at hs <;> (obtain rfl := (Option.some.inj hs).symm; exact absurd rfl hne)
  · obtain rfl := (Option.some.inj hs).symm; exact absurd rfl hne
  · split at hs
    · obtain rfl := (Option.some.inj hs).symm; exact absurd rfl hne
    · simp at hs
  · rename_i hw
    split at hs
    · obtain rfl := (Option.some.inj hs).symm; exact absurd rfl hne
    · split at hs
      · obtain rfl := (Option.some.inj hs).symm; exact absurd rfl hne
      · rename_i j q hq
        obtain rfl := (Option.some.inj hs).symm
        have hqueue := h.inv.queue
        have hj : j = s.taken := by
          rw [hq] at hqueue
          cases hn : s.sched - s.taken with
          | zero => rw [hn] at hqueue; simp at hqueue
          | succ n => rw [hn, List.range'_succ] at hqueue; exact (List.cons.inj hqueue).1
        subst hj
        refine ⟨rfl, hw, ?_⟩
        show (s.workers.set i (.got s.taken))[i]? = _
        rw [List.getElem?_set_self]
        exact (List.getElem?_eq_some_iff.1 hw).1
  · obtain rfl := (Option.some.inj hs).symm; exact absurd rfl hne
  · obtain rfl := (Option.some.inj hs).symm; exact absurd rfl hne
  · split at hs
    · obtain rfl := (Option.some.inj hs).symm; exact absurd rfl hne
    · simp at hs
  · simp at hs

/-- No job is executed twice, and only scheduled jobs are executed. -/
theorem C07_once (s : St) (h : Reachable s) :
    s.begun.Nodup ∧ s.ended.Nodup ∧ (∀ j ∈ s.begun, j < s.sched) ∧ ∀ j ∈ s.ended, j ∈ s.begun := by
  have hi := h.inv
  have hb : ∀ j, s.begun.count j ≤ 1 := by
    intro j; have := hi.got j; split at this <;> omega
  refine ⟨List.nodup_iff_count_le_one.2 hb, List.nodup_iff_count_le_one.2 fun j => ?_, fun j hj => ?_, fun j hj => ?_⟩
  · have := hi.run j; have := hb j; omega
  · have h1 := List.count_pos_iff.2 hj
    have h2 := hi.got j
    have h3 := hi.le
    split at h2 <;> omega
  · have h1 := List.count_pos_iff.2 hj
    have h2 := hi.run j
    exact List.count_pos_iff.1 (by omega)

/-- No scheduled job is lost: at any time it waits, or exactly one worker has it, or it is finished. -/
theorem C07_not_lost (s : St) (h : Reachable s) (j : Nat) (hj : j < s.sched) :
    j ∈ s.q ∨ (∃ i : Nat, s.workers[i]? = some (.got j)) ∨ (∃ i : Nat, s.workers[i]? = some (.run j)) ∨
      j ∈ s.ended := by
  have hi := h.inv
  by_cases ht : j < s.taken
  · have h1 := hi.got j
    rw [if_pos ht] at h1
    by_cases hg : 0 < cnt (fGot j) s.workers
    · obtain ⟨i, w, h2, h3⟩ := cnt_pos _ _ hg
      refine Or.inr (Or.inl ⟨i, ?_⟩)
      rw [h2]
      by_contra hc
      rw [fGot, if_neg (by simpa using hc)] at h3
      omega
    · have h4 := hi.run j
      by_cases hr : 0 < cnt (fRun j) s.workers
      · obtain ⟨i, w, h2, h3⟩ := cnt_pos _ _ hr
        refine Or.inr (Or.inr (Or.inl ⟨i, ?_⟩))
        rw [h2]
        by_contra hc
        rw [fRun, if_neg (by simpa using hc)] at h3
        omega
      · exact Or.inr (Or.inr (Or.inr (List.count_pos_iff.1 (by omega))))
  · left
    rw [hi.queue, List.mem_range']
    exact ⟨j - s.taken, by omega, by omega⟩

/-- How far a worker is from going to sleep. -/
def weight : WPc → Nat
  | .asleep | .exited => 0
  | .goWait => 1
  | .chk => 2
  | .top => 3
  | .wake | .start | .ran => 4
  | .run _ => 5
  | .got _ => 6

/-- A bound on the number of steps workers can make with what is in the queue now. -/
def bound (s : St) : Nat := 10 * s.q.length + cnt weight s.workers

theorem bound_step (s s' : St) (h : Inv s) (hk : s.kill = false) (i : Nat) (hs : step s (.w i) = some s') :
    bound s' < bound s ∧ s'.kill = false ∧ s'.workers.length = s.workers.length ∧ s'.sched = s.sched := by
  have hd : s.dtor = .none := by
    by_contra hc
    have := (h.dkill hc).1
    rw [hk] at this
    cases this
  change s.worker i = some s' at hs
  rw [St.worker] at hs
  split at hs
  · rename_i hw
    rw [if_neg (by rw [hd]; simp)] at hs
    split at hs
    · obtain rfl := (Option.some.inj hs).symm
      have := cnt_set weight s.workers i _ .top hw
      refine ⟨?_, hk, List.length_set, rfl⟩
      simp only [bound, weight] at *
      omega
    · simp at hs
  · rename_i hw
    split at hs
    · obtain rfl := (Option.some.inj hs).symm
      have := cnt_set weight s.workers i _ .goWait hw
      refine ⟨?_, hk, List.length_set, rfl⟩
      simp only [bound, weight] at *
      omega
    · obtain rfl := (Option.some.inj hs).symm
      have := cnt_set weight s.workers i _ .chk hw
      refine ⟨?_, hk, List.length_set, rfl⟩
      simp only [bound, weight] at *
      omega
  · rename_i hw
    obtain rfl := (Option.some.inj hs).symm
    have := cnt_set weight s.workers i _ .asleep hw
    refine ⟨?_, hk, List.length_set, rfl⟩
    simp only [bound, weight] at *
    omega
  · rename_i hw
    split at hs
    · obtain rfl := (Option.some.inj hs).symm
      have := cnt_set weight s.workers i _ .top hw
      refine ⟨?_, hk, List.length_set, rfl⟩
      simp only [bound, weight] at *
      omega
    · simp at hs
  · rename_i hw
    rw [if_neg (by rw [hk]; simp)] at hs
    split at hs
    · rename_i hq
      exfalso
      have hck := cnt_le fChk s.workers i .chk hw
      simp only [fChk, if_true] at hck
      rcases h.chk (by omega) with h1 | h1
      · rw [hk] at h1; cases h1
      · exact h1 hq
    · rename_i j q hq
      obtain rfl := (Option.some.inj hs).symm
      have := cnt_set weight s.workers i _ (.got j) hw
      refine ⟨?_, hk, List.length_set, rfl⟩
      simp only [bound, weight, hq, List.length_cons] at *
      omega
  · rename_i j hw
    obtain rfl := (Option.some.inj hs).symm
    have := cnt_set weight s.workers i _ (.run j) hw
    refine ⟨?_, hk, List.length_set, rfl⟩
    simp only [bound, weight] at *
    omega
  · rename_i j hw
    obtain rfl := (Option.some.inj hs).symm
    have := cnt_set weight s.workers i _ .ran hw
    refine ⟨?_, hk, List.length_set, rfl⟩
    simp only [bound, weight] at *
    omega
  · rename_i hw
    split at hs
    · obtain rfl := (Option.some.inj hs).symm
      have := cnt_set weight s.workers i _ .top hw
      refine ⟨?_, hk, List.length_set, rfl⟩
      simp only [bound, weight, St.notifyWork] at *
      omega
    · simp at hs
  · simp at hs

/-- While the queue is not stopped and has workers, they finish everything that is scheduled: left to
themselves they can make only a bounded number of steps, whatever the schedule, and when no worker
can go on, every job scheduled so far is finished.  In particular no wakeup is lost. -/
theorem C07_progress (s : St) (h : Reachable s) (hk : s.kill = false) (hw : s.workers ≠ []) (is : List Nat)
    (s' : St) (hs : exec s (is.map .w) = some s') :
    is.length ≤ bound s ∧ ((∀ i, step s' (.w i) = none) → ∀ j, j < s.sched → j ∈ s'.ended) := by
  have hi := h.inv
  clear h
  induction is generalizing s with
  | nil =>
    obtain rfl := Option.some.inj hs
    refine ⟨Nat.zero_le _, fun hst => ?_⟩
    have hd : s.dtor = .none := by
      by_contra hc
      have := (hi.dkill hc).1
      rw [hk] at this
      cases this
    have hst' : ∀ i, s.worker i = none := hst
    have hnh : ∀ (i : Nat) (w : WPc), s.workers[i]? = some w → w.holds = false ∧ fAct w = 0 ∨ w = .ran := by
      intro i w hwi
      have h1 := hst' i
      rw [St.worker, hwi] at h1
      cases w with
      | top => simp only at h1; split at h1 <;> simp at h1
      | goWait => simp at h1
      | chk =>
        simp only at h1
        split at h1
        · simp at h1
        · split at h1 <;> simp at h1
      | got j => simp at h1
      | run j => simp at h1
      | ran => exact Or.inr rfl
      | start => exact Or.inl ⟨rfl, rfl⟩
      | asleep => exact Or.inl ⟨rfl, rfl⟩
      | wake => exact Or.inl ⟨rfl, rfl⟩
      | exited => exact Or.inl ⟨rfl, rfl⟩
    have hfree : s.free = true := by
      rw [St.free, List.all_eq_true]
      intro w hwm
      obtain ⟨i, hi'⟩ := List.getElem?_of_mem hwm
      rcases hnh i w hi' with h1 | h1
      · rw [h1.1]; rfl
      · rw [h1]; rfl
    have hasl : ∀ (i : Nat) (w : WPc), s.workers[i]? = some w → w = .asleep := by
      intro i w hwi
      have h1 := hst' i
      rw [St.worker, hwi] at h1
      have h2 := hnh i w hwi
      cases w with
      | start => simp only [hfree, if_true] at h1; split at h1 <;> simp at h1
      | wake => simp only [hfree, if_true] at h1; simp at h1
      | ran => simp only [hfree, if_true] at h1; simp at h1
      | asleep => rfl
      | exited =>
        have := cnt_le fExit s.workers i _ hwi
        have := hi.exit (by simp only [fExit, if_true] at this; omega)
        rw [hk] at this
        cases this
      | top => rcases h2 with h2 | h2 <;> simp [WPc.holds] at h2
      | goWait => rcases h2 with h2 | h2 <;> simp [WPc.holds] at h2
      | chk => rcases h2 with h2 | h2 <;> simp [WPc.holds] at h2
      | got j => rcases h2 with h2 | h2 <;> simp [fAct] at h2
      | run j => rcases h2 with h2 | h2 <;> simp [fAct] at h2
    have hq : s.q = [] := by
      apply hi.sleep
      cases hws : s.workers with
      | nil => exact absurd hws hw
      | cons w ws =>
        have := hasl 0 w (by rw [hws]; rfl)
        subst this
        simp [cnt, fSleep]
    have ha : s.active = 0 := by
      rw [hi.active]
      apply cnt_zero
      intro w hwm
      obtain ⟨i, hi'⟩ := List.getElem?_of_mem hwm
      rw [hasl i w hi']; rfl
    have hts : s.taken = s.sched := by
      have h1 := hi.le
      have h2 := congrArg List.length (hi.queue.symm.trans hq)
      simp at h2
      omega
    intro j hj
    have := hi.all_ended ha j (by omega)
    exact List.count_pos_iff.1 (by omega)
  | cons i is ih =>
    rw [List.map_cons, exec, Option.bind_eq_some_iff] at hs
    obtain ⟨t, h1, h2⟩ := hs
    obtain ⟨b1, b2, b3, b4⟩ := bound_step s t hi hk i h1
    have := ih t b2 (by intro hc; rw [hc] at b3; exact hw (List.length_eq_zero_iff.1 b3.symm)) h2 (inv_step s t _ hi h1)
    rw [b4] at this
    rw [List.length_cons]
    exact ⟨by omega, this.2⟩

/-- The invariant for a single worker. -/
structure Single (s : St) : Prop where
  begun : s.begun = List.range s.begun.length
  ended : s.ended = List.range s.ended.length
  got : ∀ j, s.workers = [.got j] → j = s.begun.length
  run : ∀ j, s.workers = [.run j] → j = s.ended.length

theorem single_same (s s' : St) (h : Single s) (hb : s'.begun = s.begun) (he : s'.ended = s.ended)
    (hg : ∀ j, s'.workers = [.got j] → s.workers = [.got j])
    (hr : ∀ j, s'.workers = [.run j] → s.workers = [.run j]) : Single s' :=
  ⟨by rw [hb]; exact h.begun, by rw [he]; exact h.ended, fun j hj => by rw [hb]; exact h.got j (hg j hj),
    fun j hj => by rw [he]; exact h.run j (hr j hj)⟩

theorem notified_got (ws : List WPc) (j : Nat) (h : ws.map WPc.notified = [.got j]) : ws = [.got j] := by
  cases ws with
  | nil => simp at h
  | cons w ws =>
    rw [List.map_cons] at h
    obtain ⟨h1, h2⟩ := List.cons.inj h
    have h3 : ws = [] := by simpa using h2
    subst h3
    cases w <;> simp [WPc.notified] at h1
    rw [h1]

theorem notified_run (ws : List WPc) (j : Nat) (h : ws.map WPc.notified = [.run j]) : ws = [.run j] := by
  cases ws with
  | nil => simp at h
  | cons w ws =>
    rw [List.map_cons] at h
    obtain ⟨h1, h2⟩ := List.cons.inj h
    have h3 : ws = [] := by simpa using h2
    subst h3
    cases w <;> simp [WPc.notified] at h1
    rw [h1]

theorem single_step (s s' : St) (l : Lbl) (h : Single s) (hi : Inv s) (hl : s'.workers.length ≤ 1)
    (hs : step s l = some s') : Single s' := by
  cases l with
  | create n =>
    simp only [step] at hs
    split at hs
    · obtain rfl := (Option.some.inj hs).symm; exact h
    · obtain rfl := (Option.some.inj hs).symm
      refine single_same s _ h rfl rfl ?_ ?_ <;>
      · intro j hj
        have hj' : List.replicate n WPc.start = _ := hj
        have : WPc.start ∈ List.replicate n WPc.start := by
          rw [hj']
          match n, hj' with
          | n + 1, hj' => rw [List.replicate_succ] at hj'; simp at hj'
        rw [hj'] at this
        simp at this
  | schedule =>
    simp only [step] at hs
    split at hs
    · obtain rfl := (Option.some.inj hs).symm
      exact single_same s _ h rfl rfl (fun j => notified_got _ j) (fun j => notified_run _ j)
    · simp at hs
  | stop => obtain rfl := (Option.some.inj hs).symm; exact single_same s _ h rfl rfl (fun _ => id) (fun _ => id)
  | notify =>
    obtain rfl := (Option.some.inj hs).symm
    exact single_same s _ h rfl rfl (fun j => notified_got _ j) (fun j => notified_run _ j)
  | w i =>
    change s.worker i = some s' at hs
    have hone : ∀ w, s.workers[i]? = some w → s.workers.length ≤ 1 → i = 0 ∧ s.workers = [w] := by
      intro w hw hl
      have h1 := (List.getElem?_eq_some_iff.1 hw).1
      have h0 : i = 0 := by omega
      subst h0
      refine ⟨rfl, ?_⟩
      match hws : s.workers, hl with
      | [w'], _ => rw [hws] at hw; simpa using hw
      | [], _ => rw [hws] at hw; simp at hw
    rw [St.worker] at hs
    split at hs
    · rename_i hw
      split at hs
      · obtain rfl := (Option.some.inj hs).symm; exact single_same s _ h rfl rfl (fun _ => id) (fun _ => id)
      · split at hs
        · obtain rfl := (Option.some.inj hs).symm
          obtain ⟨rfl, e⟩ := hone _ hw (by simpa using hl)
          refine single_same s _ h rfl rfl ?_ ?_ <;> (intro j hj; simp [e] at hj)
        · simp at hs
    · rename_i hw
      split at hs
      all_goals
        obtain rfl := (Option.some.inj hs).symm
        obtain ⟨rfl, e⟩ := hone _ hw (by simpa using hl)
        refine single_same s _ h rfl rfl ?_ ?_ <;> (intro j hj; simp [e] at hj)
    · rename_i hw
      obtain rfl := (Option.some.inj hs).symm
      obtain ⟨rfl, e⟩ := hone _ hw (by simpa using hl)
      refine single_same s _ h rfl rfl ?_ ?_ <;> (intro j hj; simp [e] at hj)
    · rename_i hw
      split at hs
      · obtain rfl := (Option.some.inj hs).symm
        obtain ⟨rfl, e⟩ := hone _ hw (by simpa using hl)
        refine single_same s _ h rfl rfl ?_ ?_ <;> (intro j hj; simp [e] at hj)
      · simp at hs
    · rename_i hw
      split at hs
      · obtain rfl := (Option.some.inj hs).symm
        obtain ⟨rfl, e⟩ := hone _ hw (by simpa [St.notify] using hl)
        refine single_same s _ h rfl rfl ?_ ?_ <;> (intro j hj; simp [e, St.notify, WPc.notified] at hj)
      · split at hs
        · obtain rfl := (Option.some.inj hs).symm; exact single_same s _ h rfl rfl (fun _ => id) (fun _ => id)
        · rename_i j q hq
          obtain rfl := (Option.some.inj hs).symm
          obtain ⟨rfl, e⟩ := hone _ hw (by simpa using hl)
          have hj : j = s.begun.length := by
            have h1 := hi.gots
            rw [e] at h1
            simp [cnt, fGots] at h1
            have hqueue := hi.queue
            rw [hq] at hqueue
            cases hn : s.sched - s.taken with
            | zero => rw [hn] at hqueue; simp at hqueue
            | succ n => rw [hn, List.range'_succ] at hqueue; rw [h1]; exact (List.cons.inj hqueue).1
          refine ⟨h.begun, h.ended, ?_, ?_⟩
          · intro k hk
            simp [e] at hk
            rw [← hk]; exact hj
          · intro k hk
            simp [e] at hk
    · rename_i j hw
      obtain rfl := (Option.some.inj hs).symm
      obtain ⟨rfl, e⟩ := hone _ hw (by simpa using hl)
      have hj := h.got j e
      have hr := hi.runs
      rw [e] at hr
      simp [cnt, fRuns] at hr
      refine ⟨?_, h.ended, ?_, ?_⟩
      · show s.begun ++ [j] = List.range (s.begun ++ [j]).length
        rw [List.length_append, List.length_singleton, List.range_succ, ← h.begun, hj]
      · intro k hk; simp [e] at hk
      · intro k hk
        simp [e] at hk
        show k = s.ended.length
        omega
    · rename_i j hw
      obtain rfl := (Option.some.inj hs).symm
      obtain ⟨rfl, e⟩ := hone _ hw (by simpa using hl)
      have hj := h.run j e
      refine ⟨h.begun, ?_, ?_, ?_⟩
      · show s.ended ++ [j] = List.range (s.ended ++ [j]).length
        rw [List.length_append, List.length_singleton, List.range_succ, ← h.ended, hj]
      · intro k hk; simp [e] at hk
      · intro k hk; simp [e] at hk
    · rename_i hw
      split at hs
      · obtain rfl := (Option.some.inj hs).symm
        obtain ⟨rfl, e⟩ := hone _ hw (by simpa [St.notifyWork] using hl)
        refine single_same s _ h rfl rfl ?_ ?_ <;> (intro j hj; simp [e, St.notifyWork] at hj)
      · simp at hs
    · simp at hs
  | spur i =>
    simp only [step] at hs
    split at hs
    · rename_i hw
      obtain rfl := (Option.some.inj hs).symm
      have hne : ∀ w, w ≠ WPc.wake → s.workers.set i .wake ≠ [w] := by
        intro w hww hc
        have h1 : (s.workers.set i .wake)[i]? = some .wake :=
          List.getElem?_set_self (List.getElem?_eq_some_iff.1 hw).1
        rw [hc] at h1
        have := List.mem_of_getElem? h1
        simp at this
        exact hww this.symm
      exact single_same s _ h rfl rfl (fun j hj => absurd hj (hne _ (by simp)))
        (fun j hj => absurd hj (hne _ (by simp)))
    · simp at hs
  | call => obtain rfl := (Option.some.inj hs).symm; exact single_same s _ h rfl rfl (fun _ => id) (fun _ => id)
  | v i =>
    simp only [step] at hs
    split at hs
    · split at hs
      · split at hs
        all_goals
          obtain rfl := (Option.some.inj hs).symm
          exact single_same s _ h rfl rfl (fun _ => id) (fun _ => id)
      · simp at hs
    · simp at hs
  | vspur i =>
    simp only [step] at hs
    split at hs
    · obtain rfl := (Option.some.inj hs).symm; exact single_same s _ h rfl rfl (fun _ => id) (fun _ => id)
    · simp at hs
  | dtor =>
    simp only [step] at hs
    split at hs
    · obtain rfl := (Option.some.inj hs).symm
      exact single_same s _ h rfl rfl (fun j => notified_got _ j) (fun j => notified_run _ j)
    · simp at hs
  | d =>
    simp only [step] at hs
    split at hs
    · obtain rfl := (Option.some.inj hs).symm; exact single_same s _ h rfl rfl (fun _ => id) (fun _ => id)
    · simp at hs
  | dspur =>
    simp only [step] at hs
    split at hs
    · obtain rfl := (Option.some.inj hs).symm; exact single_same s _ h rfl rfl (fun _ => id) (fun _ => id)
    · simp at hs

theorem length_step (s s' : St) (l : Lbl) (hi : Inv s) (hs : step s l = some s') :
    s.workers.length ≤ s'.workers.length := by
  cases l with
  | create n =>
    simp only [step] at hs
    split at hs
    · obtain rfl := (Option.some.inj hs).symm; exact le_rfl
    · rename_i hst
      rw [hi.fresh (by simpa using hst)]
      exact Nat.zero_le _
  | w i =>
    change s.worker i = some s' at hs
    rw [St.worker] at hs
    repeat' split at hs
    all_goals first
      | (obtain rfl := (Option.some.inj hs).symm; simp [St.notify, St.notifyWork])
      | simp at hs
  | _ =>
    simp only [step] at hs
    repeat' split at hs
    all_goals first
      | (obtain rfl := (Option.some.inj hs).symm; simp [St.notify])
      | simp at hs

/-- With one worker jobs start and end in the order in which they were scheduled. -/
theorem C07_one_worker (s : St) (h : Reachable s) (hl : s.workers.length ≤ 1) :
    s.begun = List.range s.begun.length ∧ s.ended = List.range s.ended.length := by
  obtain ⟨ls, hs⟩ := h
  have key : ∀ (ls : List Lbl) (t : St), Inv t → Single t → exec t ls = some s → Single s := by
    intro ls
    induction ls with
    | nil => intro t _ ht he; obtain rfl := Option.some.inj he; exact ht
    | cons l ls ih =>
      intro t hti ht he
      rw [exec, Option.bind_eq_some_iff] at he
      obtain ⟨u, h1, h2⟩ := he
      have hui := inv_step t u l hti h1
      have hul : u.workers.length ≤ s.workers.length := by
        clear h1 ih
        induction ls generalizing u with
        | nil => obtain rfl := Option.some.inj h2; exact le_rfl
        | cons l' ls ih' =>
          rw [exec, Option.bind_eq_some_iff] at h2
          obtain ⟨v, g1, g2⟩ := h2
          exact le_trans (length_step u v l' hui g1) (ih' v g2 (inv_step u v l' hui g1))
      exact ih u hui (single_step t u l ht hti (le_trans hul hl) h1) h2
  have := key ls init inv_init ⟨rfl, rfl, by simp [init], by simp [init]⟩ hs
  exact ⟨this.begun, this.ended⟩

/-- With two workers the job functions need not be entered in the order of scheduling: a worker may be
overtaken between taking a job and calling it. -/
theorem C07_two_workers_counterexample :
    ∃ s, exec init ([.create 2, .schedule, .schedule] ++
      [.w 0, .w 0, .w 0, .w 1, .w 1, .w 1, .w 1, .w 0]) = some s ∧ s.begun = [1, 0] :=
  ⟨_, rfl, rfl⟩

/-- The deque is never read while it is empty. -/
theorem C07_no_ub (s : St) (h : Reachable s) (hd : s.dtor = .none) : s.ub = false := h.inv.ub hd

/-! ## C08 -/

/-- When a call of `waitForEmptyQueue` has returned, all jobs scheduled before the call are finished. -/
theorem C08_wait_means_done (s : St) (h : Reachable s) (i n : Nat) (hr : s.waiters[i]? = some (.done n))
    (j : Nat) (hj : j < n) : j ∈ s.ended := by
  have := h.inv.done i n hr j hj
  exact List.count_pos_iff.1 (by omega)

/-- `n` is the number of jobs scheduled when the call was made. -/
theorem call_number (s : St) (s' : St) (h : step s .call = some s') :
    s'.waiters = s.waiters ++ [.check s.sched] := by
  obtain rfl := (Option.some.inj h).symm
  rfl

/-- A waiting caller is not forgotten: when it sleeps, there still is work whose end will wake it. -/
theorem C08_no_lost_wakeup (s : St) (h : Reachable s) (i n : Nat) (hr : s.waiters[i]? = some (.asleep n)) :
    0 < s.active ∨ s.q ≠ [] := (h.inv.vsleep i n hr).2

/-! ## C76: stopping -/

/-- Once told to stop, no further job is started. -/
theorem C76_stop_takes_no_job (s s' : St) (l : Lbl) (hk : s.kill = true) (hs : step s l = some s') :
    s'.taken = s.taken ∧ s'.kill = true := by
  cases l with
  | w i =>
    change s.worker i = some s' at hs
    rw [St.worker] at hs
    repeat' split at hs
    all_goals first
      | (obtain rfl := (Option.some.inj hs).symm; exact ⟨rfl, hk⟩)
      | simp at hs
  | stop => obtain rfl := (Option.some.inj hs).symm; exact ⟨rfl, rfl⟩
  | dtor =>
    simp only [step] at hs
    repeat' split at hs
    all_goals first
      | (obtain rfl := (Option.some.inj hs).symm; exact ⟨rfl, rfl⟩)
      | simp at hs
  | _ =>
    simp only [step] at hs
    repeat' split at hs
    all_goals first
      | (obtain rfl := (Option.some.inj hs).symm; exact ⟨rfl, hk⟩)
      | simp at hs

/-- When all workers have returned (what `join` waits for), no job runs, the jobs that were started are
finished and the others are still in the queue, in order. -/
theorem C76_joined_partial (s : St) (h : Reachable s) (he : ∀ w ∈ s.workers, w = .exited) :
    s.active = 0 ∧ s.pool = 0 ∧ (∀ j, j < s.taken → j ∈ s.ended) ∧
      s.q = List.range' s.taken (s.sched - s.taken) := by
  have hi := h.inv
  have ha : s.active = 0 := by rw [hi.active]; exact cnt_zero _ _ fun w hw => by rw [he w hw]; rfl
  refine ⟨ha, ?_, fun j hj => ?_, hi.queue⟩
  · rw [hi.pool]; exact cnt_zero _ _ fun w hw => by rw [he w hw]; rfl
  · have := hi.all_ended ha j hj
    exact List.count_pos_iff.1 (by omega)

/-- `join` can hang: `stop` and the notification come between the worker's test and its wait; the worker
then sleeps and no step other than a spurious wakeup or a further call is possible. -/
theorem C76_join_counterexample :
    ∃ s, exec init [.create 1, .w 0, .w 0, .stop, .notify, .w 0] = some s ∧ s.workers = [.asleep] ∧
      s.kill = true ∧ ∀ i, step s (.w i) = none := by
  refine ⟨_, rfl, rfl, rfl, fun i => ?_⟩
  cases i with
  | zero => rfl
  | succ i => rfl

/-- When the destructor has returned, every worker that had begun its loop has returned and no job
runs. -/
theorem C76_destructor_partial (s : St) (h : Reachable s) (hd : s.dtor = .returned) :
    s.active = 0 ∧ ∀ w ∈ s.workers, w = .exited ∨ w = .start := by
  have hi := h.inv
  have hp := hi.dret hd
  rw [hi.pool] at hp
  have hall : ∀ w ∈ s.workers, w = .exited ∨ w = .start := by
    intro w hw
    obtain ⟨i, hi'⟩ := List.getElem?_of_mem hw
    have := cnt_le fPool s.workers i w hi'
    cases w <;> simp [fPool] at this ⊢ <;> omega
  refine ⟨?_, hall⟩
  rw [hi.active]
  apply cnt_zero
  intro w hw
  rcases hall w hw with rfl | rfl <;> rfl

/-- The destructor can return while a worker thread has been created but has not counted itself yet: the
worker then uses the mutex of a destroyed queue. -/
theorem C76_destructor_counterexample :
    ∃ s, exec init [.create 1, .dtor, .w 0] = some s ∧ s.dtor = .returned ∧ s.ub = true := ⟨_, rfl, rfl, rfl⟩

/-- How far everything is from the return of the destructor. -/
def dbound (s : St) : Nat := cnt weight s.workers + if s.dtor = .wake then 1 else 0

/-- The destructor does not hang: until it has returned some worker or the destructor itself can go on,
and each such step comes closer to the end. -/
theorem C76_destructor_progress (s : St) (h : Reachable s) (h1 : s.dtor ≠ .none) (h2 : s.dtor ≠ .returned) :
    (∃ l s', (l = .d ∨ ∃ i, l = .w i) ∧ step s l = some s') ∧
    ∀ l s', (l = .d ∨ ∃ i, l = .w i) → step s l = some s' → dbound s' < dbound s := by
  have hi := h.inv
  obtain ⟨hk, hsl, hgo⟩ := hi.dkill h1
  constructor
  · by_cases hx : ∃ (i : Nat) (w : WPc), s.workers[i]? = some w ∧ (w.holds = true ∨ ∃ j, w = .got j ∨ w = .run j)
    · obtain ⟨i, w, hw, hc⟩ := hx
      have hne : ∃ s', s.worker i = some s' := by
        rw [St.worker, hw]
        cases w with
        | top => simp only [hk]; exact ⟨_, by simp; rfl⟩
        | goWait => exact ⟨_, rfl⟩
        | chk => simp only [hk, if_true]; exact ⟨_, rfl⟩
        | got j => exact ⟨_, rfl⟩
        | run j => exact ⟨_, rfl⟩
        | _ => simp [WPc.holds] at hc
      obtain ⟨s', hs'⟩ := hne
      exact ⟨.w i, s', Or.inr ⟨i, rfl⟩, hs'⟩
    · push Not at hx
      have hfree : s.free = true := by
        rw [St.free, List.all_eq_true]
        intro w hw
        obtain ⟨i, hi'⟩ := List.getElem?_of_mem hw
        have := (hx i w hi').1
        simpa using this
      by_cases hd : s.dtor = .wake
      · exact ⟨.d, _, Or.inl rfl, by simp only [step]; rw [if_pos ⟨hd, hfree⟩]⟩
      · have hda : s.dtor = .asleep := by
          cases hdd : s.dtor with
          | none => exact absurd hdd h1
          | wake => exact absurd hdd hd
          | returned => exact absurd hdd h2
          | asleep => rfl
        have hp := hi.dsleep hda
        rw [hi.pool] at hp
        obtain ⟨i, w, hw, hwp⟩ := cnt_pos _ _ hp
        have hsi := cnt_le fSleep s.workers i w hw
        obtain ⟨hx1, hx2⟩ := hx i w hw
        have hne : ∃ s', s.worker i = some s' := by
          rw [St.worker, hw]
          cases w with
          | wake => simp only [hfree, if_true]; exact ⟨_, rfl⟩
          | ran => simp only [hfree, if_true]; exact ⟨_, rfl⟩
          | start => simp [fPool] at hwp
          | exited => simp [fPool] at hwp
          | asleep => simp [fSleep, hsl] at hsi
          | got j => exact absurd rfl (hx2 j).1
          | run j => exact absurd rfl (hx2 j).2
          | _ => simp [WPc.holds] at hx1
        obtain ⟨s', hs'⟩ := hne
        exact ⟨.w i, s', Or.inr ⟨i, rfl⟩, hs'⟩
  · intro l s' hl hs
    rcases hl with rfl | ⟨i, rfl⟩
    · simp only [step] at hs
      split at hs
      · rename_i hc
        obtain rfl := (Option.some.inj hs).symm
        simp only [dbound, hc.1, if_true]
        split <;> simp
      · simp at hs
    · change s.worker i = some s' at hs
      rw [St.worker] at hs
      split at hs
      · rename_i hw
        rw [if_neg h2] at hs
        split at hs
        · obtain rfl := (Option.some.inj hs).symm
          have := cnt_set weight s.workers i _ .top hw
          simp only [dbound, weight] at *
          omega
        · simp at hs
      · rename_i hw
        rw [hk] at hs
        simp only [Bool.not_true, Bool.and_false] at hs
        obtain rfl := (Option.some.inj hs).symm
        have := cnt_set weight s.workers i _ .chk hw
        simp only [dbound, weight] at *
        omega
      · rename_i hw
        have := cnt_le fGo s.workers i _ hw
        simp [fGo, hgo] at this
      · rename_i hw
        split at hs
        · obtain rfl := (Option.some.inj hs).symm
          have := cnt_set weight s.workers i _ .top hw
          simp only [dbound, weight] at *
          omega
        · simp at hs
      · rename_i hw
        rw [if_pos hk] at hs
        obtain rfl := (Option.some.inj hs).symm
        have h3 := cnt_set weight s.workers i _ .exited hw
        have hsl' := cnt_set fSleep s.workers i _ .exited hw
        simp [fSleep] at hsl'
        have e : (s.workers.set i .exited).map WPc.notified = s.workers.set i .exited := by
          conv_rhs => rw [← List.map_id (s.workers.set i .exited)]
          apply List.map_congr_left
          intro w hwm
          obtain ⟨k, hk'⟩ := List.getElem?_of_mem hwm
          have := cnt_le fSleep _ k w hk'
          cases w with
          | asleep => simp [fSleep] at this; simp only [fSleep] at *; omega
          | _ => rfl
        show cnt weight ((s.workers.set i .exited).map WPc.notified) + (if s.dtor.notified = .wake then 1 else 0) < _
        rw [e]
        simp only [dbound, weight] at *
        split <;> omega
      · rename_i j hw
        obtain rfl := (Option.some.inj hs).symm
        have := cnt_set weight s.workers i _ (.run j) hw
        simp only [dbound, weight] at *
        omega
      · rename_i j hw
        obtain rfl := (Option.some.inj hs).symm
        have := cnt_set weight s.workers i _ .ran hw
        simp only [dbound, weight] at *
        omega
      · rename_i hw
        split at hs
        · obtain rfl := (Option.some.inj hs).symm
          have := cnt_set weight s.workers i _ .top hw
          show cnt weight (s.workers.set i .top) + (if s.dtor = .wake then 1 else 0) <
            cnt weight s.workers + (if s.dtor = .wake then 1 else 0)
          simp only [weight] at this
          omega
        · simp at hs
      · simp at hs

/-! ## Concrete cases -/

/-- Two workers, three jobs and a waiter: the waiter sleeps, is woken and returns with everything done. -/
def exTrace : List Lbl := [.create 2, .schedule, .schedule, .schedule, .call, .v 0,
  .w 0, .w 0, .w 0, .w 1, .w 1, .w 1, .w 1, .w 0, .w 1, .w 0, .w 1, .w 1, .w 1, .w 0, .w 0, .w 0, .w 1, .w 1, .w 1,
  .w 1, .w 1, .v 0]

example : ∃ s, exec init exTrace = some s ∧ s.waiters = [.done 3] ∧ s.ended.length = 3 ∧
    s.workers.length = 2 ∧ s.kill = false := by
  refine ⟨_, rfl, ?_⟩
  decide +kernel

/-- The hypotheses of the progress theorem are met with a job waiting. -/
example : ∃ s, Reachable s ∧ s.kill = false ∧ s.workers ≠ [] ∧ s.q ≠ [] :=
  ⟨_, ⟨[.create 2, .schedule], rfl⟩, rfl, by decide, by decide⟩

/-- One worker with a job done and a job running. -/
example : ∃ s, Reachable s ∧ s.workers.length ≤ 1 ∧ s.begun = [0, 1] ∧ s.ended = [0] :=
  ⟨_, ⟨[.create 1, .schedule, .schedule, .w 0, .w 0, .w 0, .w 0, .w 0, .w 0, .w 0, .w 0, .w 0], rfl⟩,
    by decide, rfl, rfl⟩

/-- All workers exited with a job left, and the destructor waiting for a running job. -/
example : ∃ s, Reachable s ∧ (∀ w ∈ s.workers, w = .exited) ∧ s.workers.length = 1 ∧ s.q = [0] :=
  ⟨_, ⟨[.create 1, .stop, .schedule, .w 0, .w 0, .w 0], rfl⟩, by decide, rfl, rfl⟩

example : ∃ s, Reachable s ∧ s.dtor ≠ .none ∧ s.dtor ≠ .returned ∧ s.workers = [.run 0] :=
  ⟨_, ⟨[.create 1, .schedule, .w 0, .w 0, .w 0, .w 0, .dtor], rfl⟩, by decide, by decide, rfl⟩

example : ∃ s, Reachable s ∧ s.dtor = .returned ∧ s.workers = [.exited] :=
  ⟨_, ⟨[.create 1, .w 0, .w 0, .w 0, .dtor, .w 0, .w 0, .w 0, .d], rfl⟩, rfl, rfl⟩

end Kalibr.JobQueue
