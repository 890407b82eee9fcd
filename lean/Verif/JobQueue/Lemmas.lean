import Verif.JobQueue.Model

/-!
# Invariants of the job queue
-/

namespace Kalibr.JobQueue

/-- Sum of a number over the workers. -/
def cnt (f : WPc → Nat) (ws : List WPc) : Nat := (ws.map f).sum

theorem cnt_set (f : WPc → Nat) (ws : List WPc) (i : Nat) (a b : WPc) (h : ws[i]? = some a) :
    cnt f (ws.set i b) + f a = cnt f ws + f b := by
  induction ws generalizing i with
  | nil => simp at h
  | cons w ws ih =>
    cases i with
    | zero =>
      simp only [List.getElem?_cons_zero, Option.some.injEq] at h
      subst h
      simp only [cnt, List.set_cons_zero, List.map_cons, List.sum_cons]
      omega
    | succ i =>
      have := ih i h
      simp only [cnt, List.set_cons_succ, List.map_cons, List.sum_cons] at this ⊢
      omega

theorem cnt_le (f : WPc → Nat) (ws : List WPc) (i : Nat) (a : WPc) (h : ws[i]? = some a) :
    f a ≤ cnt f ws := by
  have := cnt_set f ws i a a h
  induction ws generalizing i with
  | nil => simp at h
  | cons w ws ih =>
    cases i with
    | zero =>
      simp only [List.getElem?_cons_zero, Option.some.injEq] at h
      subst h
      simp [cnt]
    | succ i =>
      have := ih i h (cnt_set f ws i a a h)
      simp only [cnt, List.map_cons, List.sum_cons] at this ⊢
      omega

theorem cnt_notified (f : WPc → Nat) (ws : List WPc) (h : f .asleep = f .wake) :
    cnt f (ws.map WPc.notified) = cnt f ws := by
  rw [cnt, cnt, List.map_map]
  congr 1
  apply List.map_congr_left
  intro w _
  cases w <;> first | rfl | exact h.symm

theorem cnt_zero (f : WPc → Nat) (ws : List WPc) (h : ∀ w ∈ ws, f w = 0) : cnt f ws = 0 := by
  induction ws with
  | nil => rfl
  | cons w ws ih =>
    have h1 := h w (by simp)
    have h2 := ih fun w' hw' => h w' (by simp [hw'])
    simp only [cnt, List.map_cons, List.sum_cons] at *
    omega

theorem cnt_pos (f : WPc → Nat) (ws : List WPc) (h : 0 < cnt f ws) : ∃ (i : Nat) (w : WPc), ws[i]? = some w ∧ 0 < f w := by
  induction ws with
  | nil => simp [cnt] at h
  | cons w ws ih =>
    by_cases hw : 0 < f w
    · exact ⟨0, w, rfl, hw⟩
    · obtain ⟨i, w', h1, h2⟩ := ih (by simp only [cnt, List.map_cons, List.sum_cons] at h ⊢; omega)
      exact ⟨i + 1, w', h1, h2⟩

def fHold (w : WPc) : Nat := if w.holds then 1 else 0
def fGot (j : Nat) (w : WPc) : Nat := if w = .got j then 1 else 0
def fRun (j : Nat) (w : WPc) : Nat := if w = .run j then 1 else 0
def fGots : WPc → Nat
  | .got _ => 1
  | _ => 0
def fRuns : WPc → Nat
  | .run _ => 1
  | _ => 0
def fAct : WPc → Nat
  | .got _ | .run _ | .ran => 1
  | _ => 0
def fPool : WPc → Nat
  | .start | .exited => 0
  | _ => 1
def fGo (w : WPc) : Nat := if w = .goWait then 1 else 0
def fChk (w : WPc) : Nat := if w = .chk then 1 else 0
def fSleep (w : WPc) : Nat := if w = .asleep then 1 else 0
def fExit (w : WPc) : Nat := if w = .exited then 1 else 0
def fStart (w : WPc) : Nat := if w = .start then 1 else 0

theorem free_iff (s : St) : s.free = true ↔ cnt fHold s.workers = 0 := by
  rw [St.free, List.all_eq_true]
  constructor
  · intro h
    apply cnt_zero
    intro w hw
    have := h w hw
    simp only [fHold]
    rw [if_neg (by simpa using this)]
  · intro h w hw
    obtain ⟨i, hi⟩ := List.getElem?_of_mem hw
    have := cnt_le fHold s.workers i w hi
    by_contra hc
    rw [fHold, if_pos (by simpa using hc)] at this
    omega

/-- The invariant. -/
structure Inv (s : St) : Prop where
  hold : cnt fHold s.workers ≤ 1
  queue : s.q = List.range' s.taken (s.sched - s.taken)
  le : s.taken ≤ s.sched
  active : s.active = cnt fAct s.workers
  pool : s.pool = cnt fPool s.workers
  got : ∀ j, cnt (fGot j) s.workers + s.begun.count j = if j < s.taken then 1 else 0
  run : ∀ j, cnt (fRun j) s.workers + s.ended.count j = s.begun.count j
  gots : cnt fGots s.workers + s.begun.length = s.taken
  runs : cnt fRuns s.workers + s.ended.length = s.begun.length
  go : 0 < cnt fGo s.workers → s.q = []
  chk : 0 < cnt fChk s.workers → s.kill = true ∨ s.q ≠ []
  sleep : 0 < cnt fSleep s.workers → s.q = []
  exit : 0 < cnt fExit s.workers → s.kill = true
  ub : s.dtor = .none → s.ub = false
  fresh : s.started = false → s.workers = []
  check : ∀ (i n : Nat), s.waiters[i]? = some (.check n) → n ≤ s.sched
  vsleep : ∀ (i n : Nat), s.waiters[i]? = some (.asleep n) → n ≤ s.sched ∧ (0 < s.active ∨ s.q ≠ [])
  done : ∀ (i n : Nat), s.waiters[i]? = some (.done n) → ∀ j, j < n → s.ended.count j = 1
  dkill : s.dtor ≠ .none → s.kill = true ∧ cnt fSleep s.workers = 0 ∧ cnt fGo s.workers = 0
  dret : s.dtor = .returned → s.pool = 0
  dsleep : s.dtor = .asleep → 0 < s.pool

theorem inv_init : Inv init := by
  refine ⟨by decide, rfl, by decide, rfl, rfl, ?_, ?_, rfl, rfl, ?_, ?_, ?_, ?_, fun _ => rfl, fun _ => rfl, ?_, ?_, ?_, ?_, ?_, ?_⟩ <;>
    simp [init, cnt]

theorem notified_check (vs : List VPc) (i n : Nat) (h : (vs.map VPc.notified)[i]? = some (.check n)) :
    vs[i]? = some (.check n) ∨ vs[i]? = some (.asleep n) := by
  rw [List.getElem?_map, Option.map_eq_some_iff] at h
  obtain ⟨v, h1, h2⟩ := h
  cases v with
  | check m => left; rw [h1]; simpa [VPc.notified] using h2
  | asleep m => right; rw [h1]; simpa [VPc.notified] using h2
  | done m => simp [VPc.notified] at h2

theorem notified_asleep (vs : List VPc) (i n : Nat) (h : (vs.map VPc.notified)[i]? = some (.asleep n)) :
    False := by
  rw [List.getElem?_map, Option.map_eq_some_iff] at h
  obtain ⟨v, h1, h2⟩ := h
  cases v <;> simp [VPc.notified] at h2

theorem notified_done (vs : List VPc) (i n : Nat) (h : (vs.map VPc.notified)[i]? = some (.done n)) :
    vs[i]? = some (.done n) := by
  rw [List.getElem?_map, Option.map_eq_some_iff] at h
  obtain ⟨v, h1, h2⟩ := h
  cases v with
  | check m => simp [VPc.notified] at h2
  | asleep m => simp [VPc.notified] at h2
  | done m => rw [h1]; simpa [VPc.notified] using h2

theorem sleep_notified (ws : List WPc) : cnt fSleep (ws.map WPc.notified) = 0 := by
  apply cnt_zero
  intro w hw
  obtain ⟨v, _, rfl⟩ := List.mem_map.1 hw
  cases v <;> simp [WPc.notified, fSleep]

theorem set_get {α : Type} (l : List α) (i k : Nat) (a b : α) (h : (l.set i a)[k]? = some b) :
    (i = k ∧ a = b) ∨ l[k]? = some b := by
  by_cases hik : i = k
  · subst hik
    rw [List.getElem?_set] at h
    simp only [if_true] at h
    split at h
    · left; exact ⟨rfl, by simpa using h⟩
    · simp at h
  · right
    rwa [List.getElem?_set_ne hik] at h

/-- All the counts after a worker has moved. -/
theorem set_all (ws : List WPc) (i : Nat) (a b : WPc) (h : ws[i]? = some a) :
    cnt fHold (ws.set i b) + fHold a = cnt fHold ws + fHold b ∧
    cnt fAct (ws.set i b) + fAct a = cnt fAct ws + fAct b ∧
    cnt fPool (ws.set i b) + fPool a = cnt fPool ws + fPool b ∧
    cnt fGots (ws.set i b) + fGots a = cnt fGots ws + fGots b ∧
    cnt fRuns (ws.set i b) + fRuns a = cnt fRuns ws + fRuns b ∧
    cnt fGo (ws.set i b) + fGo a = cnt fGo ws + fGo b ∧
    cnt fChk (ws.set i b) + fChk a = cnt fChk ws + fChk b ∧
    cnt fSleep (ws.set i b) + fSleep a = cnt fSleep ws + fSleep b ∧
    cnt fExit (ws.set i b) + fExit a = cnt fExit ws + fExit b ∧
    (∀ j, cnt (fGot j) (ws.set i b) + fGot j a = cnt (fGot j) ws + fGot j b) ∧
    (∀ j, cnt (fRun j) (ws.set i b) + fRun j a = cnt (fRun j) ws + fRun j b) :=
  ⟨cnt_set _ _ _ _ _ h, cnt_set _ _ _ _ _ h, cnt_set _ _ _ _ _ h, cnt_set _ _ _ _ _ h,
   cnt_set _ _ _ _ _ h, cnt_set _ _ _ _ _ h, cnt_set _ _ _ _ _ h, cnt_set _ _ _ _ _ h,
   cnt_set _ _ _ _ _ h, fun _ => cnt_set _ _ _ _ _ h, fun _ => cnt_set _ _ _ _ _ h⟩

theorem go_le_hold (ws : List WPc) : cnt fGo ws + cnt fChk ws ≤ cnt fHold ws := by
  induction ws with
  | nil => simp [cnt]
  | cons w ws ih =>
    simp only [cnt, List.map_cons, List.sum_cons] at ih ⊢
    cases w <;> simp [fGo, fChk, fHold, WPc.holds] <;> omega

theorem inv_notify (s : St) (h : Inv s) : Inv s.notify := by
  have hs := sleep_notified s.workers
  have hdt : s.notify.dtor = s.dtor.notified := rfl
  refine ⟨?_, h.queue, h.le, ?_, ?_, ?_, ?_, ?_, ?_, ?_, ?_, ?_, ?_, ?_, ?_, h.check, h.vsleep, h.done, ?_, ?_, ?_⟩
  · show cnt fHold (s.workers.map WPc.notified) ≤ 1
    rw [cnt_notified _ _ rfl]; exact h.hold
  · show s.active = cnt fAct (s.workers.map WPc.notified)
    rw [cnt_notified _ _ rfl]; exact h.active
  · show s.pool = cnt fPool (s.workers.map WPc.notified)
    rw [cnt_notified _ _ rfl]; exact h.pool
  · intro j
    show cnt (fGot j) (s.workers.map WPc.notified) + _ = _
    rw [cnt_notified _ _ rfl]; exact h.got j
  · intro j
    show cnt (fRun j) (s.workers.map WPc.notified) + _ = _
    rw [cnt_notified _ _ rfl]; exact h.run j
  · show cnt fGots (s.workers.map WPc.notified) + _ = _
    rw [cnt_notified _ _ rfl]; exact h.gots
  · show cnt fRuns (s.workers.map WPc.notified) + _ = _
    rw [cnt_notified _ _ rfl]; exact h.runs
  · show 0 < cnt fGo (s.workers.map WPc.notified) → _
    rw [cnt_notified _ _ rfl]; exact h.go
  · show 0 < cnt fChk (s.workers.map WPc.notified) → _
    rw [cnt_notified _ _ rfl]; exact h.chk
  · show 0 < cnt fSleep (s.workers.map WPc.notified) → _
    rw [hs]; intro hc; exact absurd hc (by omega)
  · show 0 < cnt fExit (s.workers.map WPc.notified) → _
    rw [cnt_notified _ _ rfl]; exact h.exit
  · intro hd
    apply h.ub
    rw [hdt] at hd
    cases hx : s.dtor <;> rw [hx] at hd <;> simp [DPc.notified] at hd
  · intro hst
    show s.workers.map _ = []
    rw [h.fresh hst]; rfl
  · intro hd
    have : s.dtor ≠ .none := by
      intro hx; apply hd; rw [hdt, hx]; rfl
    refine ⟨(h.dkill this).1, hs, ?_⟩
    show cnt fGo (s.workers.map WPc.notified) = 0
    rw [cnt_notified _ _ rfl]; exact (h.dkill this).2.2
  · intro hd
    apply h.dret
    rw [hdt] at hd
    cases hx : s.dtor <;> rw [hx] at hd <;> simp [DPc.notified] at hd
  · intro hd
    rw [hdt] at hd
    cases hx : s.dtor <;> rw [hx] at hd <;> simp [DPc.notified] at hd

theorem inv_worker (s s' : St) (i : Nat) (h : Inv s) (hs : s.worker i = some s') : Inv s' := by
  rw [St.worker] at hs
  split at hs
  · -- start
    rename_i hw
    split at hs
    · rename_i hd
      obtain rfl := (Option.some.inj hs).symm
      exact { h with ub := fun hc => by rw [show s.dtor = .none from hc] at hd; cases hd }
    split at hs
    · rename_i hd hf
      obtain rfl := (Option.some.inj hs).symm
      rw [free_iff] at hf
      obtain ⟨a1, a2, a3, a4, a5, a6, a7, a8, a9, a10, a11⟩ := set_all s.workers i .start .top hw
      simp [fHold, fAct, fPool, fGots, fRuns, fGo, fChk, fSleep, fExit, fGot, fRun, WPc.holds] at a1 a2 a3 a4 a5 a6 a7 a8 a9 a10 a11
      refine ⟨?_, h.queue, h.le, ?_, ?_, ?_, ?_, ?_, ?_, ?_, ?_, ?_, ?_, h.ub, ?_, h.check, h.vsleep, h.done, ?_, ?_, ?_⟩
      · show cnt fHold (s.workers.set i .top) ≤ 1; omega
      · show s.active = cnt fAct (s.workers.set i .top); rw [a2]; exact h.active
      · show s.pool + 1 = cnt fPool (s.workers.set i .top); rw [a3, h.pool]
      · intro j; show cnt (fGot j) (s.workers.set i .top) + _ = _; rw [a10]; exact h.got j
      · intro j; show cnt (fRun j) (s.workers.set i .top) + _ = _; rw [a11]; exact h.run j
      · show cnt fGots (s.workers.set i .top) + _ = _; rw [a4]; exact h.gots
      · show cnt fRuns (s.workers.set i .top) + _ = _; rw [a5]; exact h.runs
      · show 0 < cnt fGo (s.workers.set i .top) → _; rw [a6]; exact h.go
      · show 0 < cnt fChk (s.workers.set i .top) → _; rw [a7]; exact h.chk
      · show 0 < cnt fSleep (s.workers.set i .top) → _; rw [a8]; exact h.sleep
      · show 0 < cnt fExit (s.workers.set i .top) → _; rw [a9]; exact h.exit
      · intro hst; rw [h.fresh hst] at hw; simp at hw
      · intro hx
        obtain ⟨b1, b2, b3⟩ := h.dkill hx
        refine ⟨b1, ?_, ?_⟩
        · show cnt fSleep (s.workers.set i .top) = 0; omega
        · show cnt fGo (s.workers.set i .top) = 0; omega
      · intro hx; exact absurd hx hd
      · intro _; show 0 < s.pool + 1; omega
    · simp at hs
  · -- top
    rename_i hw
    have hwh := cnt_le fHold s.workers i .top hw
    simp only [fHold, WPc.holds, if_true] at hwh
    have hh := h.hold
    have hgc := go_le_hold s.workers
    split at hs
    · rename_i hq
      obtain rfl := (Option.some.inj hs).symm
      simp only [Bool.and_eq_true, List.isEmpty_iff, Bool.not_eq_true'] at hq
      obtain ⟨a1, a2, a3, a4, a5, a6, a7, a8, a9, a10, a11⟩ := set_all s.workers i .top .goWait hw
      simp [fHold, fAct, fPool, fGots, fRuns, fGo, fChk, fSleep, fExit, fGot, fRun, WPc.holds] at a1 a2 a3 a4 a5 a6 a7 a8 a9 a10 a11
      refine ⟨?_, h.queue, h.le, ?_, ?_, ?_, ?_, ?_, ?_, ?_, ?_, ?_, ?_, h.ub, ?_, h.check, h.vsleep, h.done, ?_, h.dret, h.dsleep⟩
      · show cnt fHold (s.workers.set i .goWait) ≤ 1; omega
      · show s.active = cnt fAct (s.workers.set i .goWait); rw [a2]; exact h.active
      · show s.pool = cnt fPool (s.workers.set i .goWait); rw [a3]; exact h.pool
      · intro j; show cnt (fGot j) (s.workers.set i .goWait) + _ = _; rw [a10]; exact h.got j
      · intro j; show cnt (fRun j) (s.workers.set i .goWait) + _ = _; rw [a11]; exact h.run j
      · show cnt fGots (s.workers.set i .goWait) + _ = _; rw [a4]; exact h.gots
      · show cnt fRuns (s.workers.set i .goWait) + _ = _; rw [a5]; exact h.runs
      · intro _; exact hq.1
      · show 0 < cnt fChk (s.workers.set i .goWait) → _; rw [a7]; exact h.chk
      · show 0 < cnt fSleep (s.workers.set i .goWait) → _; rw [a8]; exact h.sleep
      · show 0 < cnt fExit (s.workers.set i .goWait) → _; rw [a9]; exact h.exit
      · intro hst; rw [h.fresh hst] at hw; simp at hw
      · intro hx
        have := (h.dkill hx).1
        rw [hq.2] at this
        cases this
    · rename_i hq
      obtain rfl := (Option.some.inj hs).symm
      simp only [Bool.and_eq_true, List.isEmpty_iff, Bool.not_eq_true', not_and, Bool.not_eq_false] at hq
      obtain ⟨a1, a2, a3, a4, a5, a6, a7, a8, a9, a10, a11⟩ := set_all s.workers i .top .chk hw
      simp [fHold, fAct, fPool, fGots, fRuns, fGo, fChk, fSleep, fExit, fGot, fRun, WPc.holds] at a1 a2 a3 a4 a5 a6 a7 a8 a9 a10 a11
      refine ⟨?_, h.queue, h.le, ?_, ?_, ?_, ?_, ?_, ?_, ?_, ?_, ?_, ?_, h.ub, ?_, h.check, h.vsleep, h.done, ?_, h.dret, h.dsleep⟩
      · show cnt fHold (s.workers.set i .chk) ≤ 1; omega
      · show s.active = cnt fAct (s.workers.set i .chk); rw [a2]; exact h.active
      · show s.pool = cnt fPool (s.workers.set i .chk); rw [a3]; exact h.pool
      · intro j; show cnt (fGot j) (s.workers.set i .chk) + _ = _; rw [a10]; exact h.got j
      · intro j; show cnt (fRun j) (s.workers.set i .chk) + _ = _; rw [a11]; exact h.run j
      · show cnt fGots (s.workers.set i .chk) + _ = _; rw [a4]; exact h.gots
      · show cnt fRuns (s.workers.set i .chk) + _ = _; rw [a5]; exact h.runs
      · show 0 < cnt fGo (s.workers.set i .chk) → _; rw [a6]; exact h.go
      · intro _
        show s.kill = true ∨ s.q ≠ []
        by_cases hq0 : s.q = []
        · exact Or.inl (hq hq0)
        · exact Or.inr hq0
      · show 0 < cnt fSleep (s.workers.set i .chk) → _; rw [a8]; exact h.sleep
      · show 0 < cnt fExit (s.workers.set i .chk) → _; rw [a9]; exact h.exit
      · intro hst; rw [h.fresh hst] at hw; simp at hw
      · intro hx
        obtain ⟨b1, b2, b3⟩ := h.dkill hx
        refine ⟨b1, ?_, ?_⟩
        · show cnt fSleep (s.workers.set i .chk) = 0; omega
        · show cnt fGo (s.workers.set i .chk) = 0; omega
  · -- goWait
    rename_i hw
    have hgo := cnt_le fGo s.workers i .goWait hw
    simp only [fGo, if_true] at hgo
    have hq := h.go (by omega)
    have hgc := go_le_hold s.workers
    have hh := h.hold
    obtain rfl := (Option.some.inj hs).symm
    obtain ⟨a1, a2, a3, a4, a5, a6, a7, a8, a9, a10, a11⟩ := set_all s.workers i .goWait .asleep hw
    simp [fHold, fAct, fPool, fGots, fRuns, fGo, fChk, fSleep, fExit, fGot, fRun, WPc.holds] at a1 a2 a3 a4 a5 a6 a7 a8 a9 a10 a11
    refine ⟨?_, h.queue, h.le, ?_, ?_, ?_, ?_, ?_, ?_, fun _ => hq, ?_, fun _ => hq, ?_, h.ub, ?_, h.check, h.vsleep, h.done, ?_, h.dret, h.dsleep⟩
    · show cnt fHold (s.workers.set i .asleep) ≤ 1; omega
    · show s.active = cnt fAct (s.workers.set i .asleep); rw [a2]; exact h.active
    · show s.pool = cnt fPool (s.workers.set i .asleep); rw [a3]; exact h.pool
    · intro j; show cnt (fGot j) (s.workers.set i .asleep) + _ = _; rw [a10]; exact h.got j
    · intro j; show cnt (fRun j) (s.workers.set i .asleep) + _ = _; rw [a11]; exact h.run j
    · show cnt fGots (s.workers.set i .asleep) + _ = _; rw [a4]; exact h.gots
    · show cnt fRuns (s.workers.set i .asleep) + _ = _; rw [a5]; exact h.runs
    · show 0 < cnt fChk (s.workers.set i .asleep) → _; rw [a7]; exact h.chk
    · show 0 < cnt fExit (s.workers.set i .asleep) → _; rw [a9]; exact h.exit
    · intro hst; rw [h.fresh hst] at hw; simp at hw
    · intro hx
      have := (h.dkill hx).2.2
      omega
  · -- wake
    rename_i hw
    split at hs
    · rename_i hf
      obtain rfl := (Option.some.inj hs).symm
      rw [free_iff] at hf
      obtain ⟨a1, a2, a3, a4, a5, a6, a7, a8, a9, a10, a11⟩ := set_all s.workers i .wake .top hw
      simp [fHold, fAct, fPool, fGots, fRuns, fGo, fChk, fSleep, fExit, fGot, fRun, WPc.holds] at a1 a2 a3 a4 a5 a6 a7 a8 a9 a10 a11
      refine ⟨?_, h.queue, h.le, ?_, ?_, ?_, ?_, ?_, ?_, ?_, ?_, ?_, ?_, h.ub, ?_, h.check, h.vsleep, h.done, ?_, h.dret, h.dsleep⟩
      · show cnt fHold (s.workers.set i .top) ≤ 1; omega
      · show s.active = cnt fAct (s.workers.set i .top); rw [a2]; exact h.active
      · show s.pool = cnt fPool (s.workers.set i .top); rw [a3]; exact h.pool
      · intro j; show cnt (fGot j) (s.workers.set i .top) + _ = _; rw [a10]; exact h.got j
      · intro j; show cnt (fRun j) (s.workers.set i .top) + _ = _; rw [a11]; exact h.run j
      · show cnt fGots (s.workers.set i .top) + _ = _; rw [a4]; exact h.gots
      · show cnt fRuns (s.workers.set i .top) + _ = _; rw [a5]; exact h.runs
      · show 0 < cnt fGo (s.workers.set i .top) → _; rw [a6]; exact h.go
      · show 0 < cnt fChk (s.workers.set i .top) → _; rw [a7]; exact h.chk
      · show 0 < cnt fSleep (s.workers.set i .top) → _; rw [a8]; exact h.sleep
      · show 0 < cnt fExit (s.workers.set i .top) → _; rw [a9]; exact h.exit
      · intro hst; rw [h.fresh hst] at hw; simp at hw
      · intro hx
        obtain ⟨b1, b2, b3⟩ := h.dkill hx
        refine ⟨b1, ?_, ?_⟩
        · show cnt fSleep (s.workers.set i .top) = 0; omega
        · show cnt fGo (s.workers.set i .top) = 0; omega
    · simp at hs
  · -- chk
    rename_i hw
    have hck := cnt_le fChk s.workers i .chk hw
    simp only [fChk, if_true] at hck
    have hgc := go_le_hold s.workers
    have hh := h.hold
    split at hs
    · rename_i hk
      obtain rfl := (Option.some.inj hs).symm
      obtain ⟨a1, a2, a3, a4, a5, a6, a7, a8, a9, a10, a11⟩ := set_all s.workers i .chk .exited hw
      simp [fHold, fAct, fPool, fGots, fRuns, fGo, fChk, fSleep, fExit, fGot, fRun, WPc.holds] at a1 a2 a3 a4 a5 a6 a7 a8 a9 a10 a11
      have hdt : ∀ x : St, x.notify.dtor = x.dtor.notified := fun _ => rfl
      have hp := h.pool
      refine ⟨?_, h.queue, h.le, ?_, ?_, ?_, ?_, ?_, ?_, ?_, ?_, ?_, ?_, ?_, ?_, h.check, h.vsleep, h.done, ?_, ?_, ?_⟩
      · show cnt fHold ((s.workers.set i .exited).map WPc.notified) ≤ 1
        rw [cnt_notified _ _ rfl]; omega
      · show s.active = cnt fAct ((s.workers.set i .exited).map WPc.notified)
        rw [cnt_notified _ _ rfl, a2]; exact h.active
      · show s.pool - 1 = cnt fPool ((s.workers.set i .exited).map WPc.notified)
        rw [cnt_notified _ _ rfl]; omega
      · intro j
        show cnt (fGot j) ((s.workers.set i .exited).map WPc.notified) + _ = _
        rw [cnt_notified _ _ rfl, a10]; exact h.got j
      · intro j
        show cnt (fRun j) ((s.workers.set i .exited).map WPc.notified) + _ = _
        rw [cnt_notified _ _ rfl, a11]; exact h.run j
      · show cnt fGots ((s.workers.set i .exited).map WPc.notified) + _ = _
        rw [cnt_notified _ _ rfl, a4]; exact h.gots
      · show cnt fRuns ((s.workers.set i .exited).map WPc.notified) + _ = _
        rw [cnt_notified _ _ rfl, a5]; exact h.runs
      · show 0 < cnt fGo ((s.workers.set i .exited).map WPc.notified) → _
        rw [cnt_notified _ _ rfl, a6]; exact h.go
      · intro _; exact Or.inl hk
      · show 0 < cnt fSleep ((s.workers.set i .exited).map WPc.notified) → _
        rw [sleep_notified]; intro hc; omega
      · intro _; exact hk
      · intro hd
        apply h.ub
        rw [hdt] at hd
        simp only at hd
        cases hx : s.dtor <;> rw [hx] at hd <;> simp [DPc.notified] at hd
      · intro hst; rw [h.fresh hst] at hw; simp at hw
      · intro hd
        have : s.dtor ≠ .none := by
          intro hx; apply hd; rw [hdt]; simp only [hx]; rfl
        refine ⟨hk, sleep_notified _, ?_⟩
        show cnt fGo ((s.workers.set i .exited).map WPc.notified) = 0
        rw [cnt_notified _ _ rfl, a6]; exact (h.dkill this).2.2
      · intro hd
        have : s.dtor = .returned := by
          rw [hdt] at hd
          simp only at hd
          cases hx : s.dtor <;> rw [hx] at hd <;> simp [DPc.notified] at hd
        show s.pool - 1 = 0
        rw [h.dret this]
      · intro hd
        rw [hdt] at hd
        simp only at hd
        cases hx : s.dtor <;> rw [hx] at hd <;> simp [DPc.notified] at hd
    · rename_i hk
      split at hs
      · rename_i hq
        exfalso
        rcases h.chk (by omega) with h1 | h1
        · exact hk h1
        · exact h1 hq
      · rename_i j q hq
        obtain rfl := (Option.some.inj hs).symm
        have hqueue := h.queue
        have hlt : s.taken < s.sched := by
          by_contra hc
          rw [show s.sched - s.taken = 0 by omega, hq] at hqueue
          simp at hqueue
        have hj : j = s.taken ∧ q = List.range' (s.taken + 1) (s.sched - (s.taken + 1)) := by
          rw [hq, show s.sched - s.taken = (s.sched - (s.taken + 1)) + 1 by omega, List.range'_succ] at hqueue
          simpa using hqueue
        obtain ⟨rfl, hq'⟩ := hj
        have hsl : cnt fSleep s.workers = 0 := by
          by_contra hc
          have := h.sleep (by omega)
          rw [hq] at this
          simp at this
        obtain ⟨a1, a2, a3, a4, a5, a6, a7, a8, a9, a10, a11⟩ := set_all s.workers i .chk (.got s.taken) hw
        simp [fHold, fAct, fPool, fGots, fRuns, fGo, fChk, fSleep, fExit, fGot, fRun, WPc.holds] at a1 a2 a3 a4 a5 a6 a7 a8 a9 a10 a11
        refine ⟨?_, hq', hlt, ?_, ?_, ?_, ?_, ?_, ?_, ?_, ?_, ?_, ?_, h.ub, ?_, h.check, ?_, h.done, ?_, h.dret, h.dsleep⟩
        · show cnt fHold (s.workers.set i (.got s.taken)) ≤ 1; omega
        · show s.active + 1 = cnt fAct (s.workers.set i (.got s.taken)); rw [a2, h.active]
        · show s.pool = cnt fPool (s.workers.set i (.got s.taken)); rw [a3]; exact h.pool
        · intro j
          show cnt (fGot j) (s.workers.set i (.got s.taken)) + s.begun.count j = if j < s.taken + 1 then 1 else 0
          have h1 := h.got j
          have h2 := a10 j
          by_cases hj : s.taken = j
          · subst hj
            rw [if_neg (by omega)] at h1
            rw [if_pos rfl] at h2
            rw [if_pos (by omega)]
            omega
          · rw [if_neg hj] at h2
            rw [h2]
            by_cases hl : j < s.taken
            · rw [if_pos hl] at h1; rw [if_pos (by omega)]; omega
            · rw [if_neg hl] at h1; rw [if_neg (by omega)]; omega
        · intro j; show cnt (fRun j) (s.workers.set i (.got s.taken)) + _ = _; rw [a11]; exact h.run j
        · show cnt fGots (s.workers.set i (.got s.taken)) + s.begun.length = s.taken + 1
          have := h.gots
          omega
        · show cnt fRuns (s.workers.set i (.got s.taken)) + _ = _; rw [a5]; exact h.runs
        · show 0 < cnt fGo (s.workers.set i (.got s.taken)) → _
          intro hc
          omega
        · show 0 < cnt fChk (s.workers.set i (.got s.taken)) → _
          intro hc
          omega
        · show 0 < cnt fSleep (s.workers.set i (.got s.taken)) → _
          intro hc
          omega
        · show 0 < cnt fExit (s.workers.set i (.got s.taken)) → _; rw [a9]; exact h.exit
        · intro hst; rw [h.fresh hst] at hw; simp at hw
        · intro k n hv
          exact ⟨(h.vsleep k n hv).1, Or.inl (Nat.succ_pos _)⟩
        · intro hx
          exact absurd (h.dkill hx).1 hk
  · -- got
    rename_i j hw
    obtain rfl := (Option.some.inj hs).symm
    obtain ⟨a1, a2, a3, a4, a5, a6, a7, a8, a9, a10, a11⟩ := set_all s.workers i (.got j) (.run j) hw
    simp [fHold, fAct, fPool, fGots, fRuns, fGo, fChk, fSleep, fExit, fGot, fRun, WPc.holds] at a1 a2 a3 a4 a5 a6 a7 a8 a9 a10 a11
    refine ⟨?_, h.queue, h.le, ?_, ?_, ?_, ?_, ?_, ?_, ?_, ?_, ?_, ?_, h.ub, ?_, h.check, h.vsleep, h.done, ?_, h.dret, h.dsleep⟩
    · show cnt fHold (s.workers.set i (.run j)) ≤ 1; have := h.hold; omega
    · show s.active = cnt fAct (s.workers.set i (.run j)); rw [a2]; exact h.active
    · show s.pool = cnt fPool (s.workers.set i (.run j)); rw [a3]; exact h.pool
    · intro k
      show cnt (fGot k) (s.workers.set i (.run j)) + (s.begun ++ [j]).count k = if k < s.taken then 1 else 0
      rw [← h.got k, List.count_append, List.count_singleton]
      have := a10 k
      by_cases hk : j = k
      · subst hk
        simp only [beq_self_eq_true, if_true] at this ⊢
        omega
      · simp only [if_neg hk, beq_iff_eq] at this ⊢
        omega
    · intro k
      show cnt (fRun k) (s.workers.set i (.run j)) + s.ended.count k = (s.begun ++ [j]).count k
      rw [List.count_append, List.count_singleton, ← h.run k]
      have := a11 k
      by_cases hk : j = k
      · subst hk
        simp only [beq_self_eq_true, if_true] at this ⊢
        omega
      · simp only [if_neg hk, beq_iff_eq] at this ⊢
        omega
    · show cnt fGots (s.workers.set i (.run j)) + (s.begun ++ [j]).length = s.taken
      have := h.gots
      rw [List.length_append, List.length_singleton]
      omega
    · show cnt fRuns (s.workers.set i (.run j)) + s.ended.length = (s.begun ++ [j]).length
      have := h.runs
      rw [List.length_append, List.length_singleton]
      omega
    · show 0 < cnt fGo (s.workers.set i (.run j)) → _; rw [a6]; exact h.go
    · show 0 < cnt fChk (s.workers.set i (.run j)) → _; rw [a7]; exact h.chk
    · show 0 < cnt fSleep (s.workers.set i (.run j)) → _; rw [a8]; exact h.sleep
    · show 0 < cnt fExit (s.workers.set i (.run j)) → _; rw [a9]; exact h.exit
    · intro hst; rw [h.fresh hst] at hw; simp at hw
    · intro hx
      obtain ⟨b1, b2, b3⟩ := h.dkill hx
      refine ⟨b1, ?_, ?_⟩
      · show cnt fSleep (s.workers.set i (.run j)) = 0; omega
      · show cnt fGo (s.workers.set i (.run j)) = 0; omega
  · -- run
    rename_i j hw
    obtain rfl := (Option.some.inj hs).symm
    obtain ⟨a1, a2, a3, a4, a5, a6, a7, a8, a9, a10, a11⟩ := set_all s.workers i (.run j) .ran hw
    simp [fHold, fAct, fPool, fGots, fRuns, fGo, fChk, fSleep, fExit, fGot, fRun, WPc.holds] at a1 a2 a3 a4 a5 a6 a7 a8 a9 a10 a11
    refine ⟨?_, h.queue, h.le, ?_, ?_, ?_, ?_, ?_, ?_, ?_, ?_, ?_, ?_, h.ub, ?_, h.check, h.vsleep, ?_, ?_, h.dret, h.dsleep⟩
    · show cnt fHold (s.workers.set i .ran) ≤ 1; have := h.hold; omega
    · show s.active = cnt fAct (s.workers.set i .ran); rw [a2]; exact h.active
    · show s.pool = cnt fPool (s.workers.set i .ran); rw [a3]; exact h.pool
    · intro k; show cnt (fGot k) (s.workers.set i .ran) + _ = _; rw [a10]; exact h.got k
    · intro k
      show cnt (fRun k) (s.workers.set i .ran) + (s.ended ++ [j]).count k = s.begun.count k
      rw [List.count_append, List.count_singleton, ← h.run k]
      have := a11 k
      by_cases hk : j = k
      · subst hk
        simp only [beq_self_eq_true, if_true] at this ⊢
        omega
      · simp only [if_neg hk, beq_iff_eq] at this ⊢
        omega
    · show cnt fGots (s.workers.set i .ran) + _ = _; rw [a4]; exact h.gots
    · show cnt fRuns (s.workers.set i .ran) + (s.ended ++ [j]).length = s.begun.length
      have := h.runs
      rw [List.length_append, List.length_singleton]
      omega
    · show 0 < cnt fGo (s.workers.set i .ran) → _; rw [a6]; exact h.go
    · show 0 < cnt fChk (s.workers.set i .ran) → _; rw [a7]; exact h.chk
    · show 0 < cnt fSleep (s.workers.set i .ran) → _; rw [a8]; exact h.sleep
    · show 0 < cnt fExit (s.workers.set i .ran) → _; rw [a9]; exact h.exit
    · intro hst; rw [h.fresh hst] at hw; simp at hw
    · intro k n hv m hm
      have h1 := h.done k n hv m hm
      show (s.ended ++ [j]).count m = 1
      rw [List.count_append, List.count_singleton, h1]
      by_cases hk : j = m
      · exfalso
        subst hk
        have h2 := h.run j
        have h3 := h.got j
        have h4 := cnt_le (fRun j) s.workers i (.run j) hw
        simp only [fRun, if_true] at h4 h2
        split at h3 <;> omega
      · rw [if_neg (by simpa using hk)]
    · intro hx
      obtain ⟨b1, b2, b3⟩ := h.dkill hx
      refine ⟨b1, ?_, ?_⟩
      · show cnt fSleep (s.workers.set i .ran) = 0; omega
      · show cnt fGo (s.workers.set i .ran) = 0; omega
  · -- ran
    rename_i hw
    split at hs
    · rename_i hf
      obtain rfl := (Option.some.inj hs).symm
      rw [free_iff] at hf
      obtain ⟨a1, a2, a3, a4, a5, a6, a7, a8, a9, a10, a11⟩ := set_all s.workers i .ran .top hw
      simp [fHold, fAct, fPool, fGots, fRuns, fGo, fChk, fSleep, fExit, fGot, fRun, WPc.holds] at a1 a2 a3 a4 a5 a6 a7 a8 a9 a10 a11
      refine ⟨?_, h.queue, h.le, ?_, ?_, ?_, ?_, ?_, ?_, ?_, ?_, ?_, ?_, h.ub, ?_, ?_, ?_, ?_, ?_, h.dret, h.dsleep⟩
      · show cnt fHold (s.workers.set i .top) ≤ 1; omega
      · show s.active - 1 = cnt fAct (s.workers.set i .top); have := h.active; omega
      · show s.pool = cnt fPool (s.workers.set i .top); rw [a3]; exact h.pool
      · intro j; show cnt (fGot j) (s.workers.set i .top) + _ = _; rw [a10]; exact h.got j
      · intro j; show cnt (fRun j) (s.workers.set i .top) + _ = _; rw [a11]; exact h.run j
      · show cnt fGots (s.workers.set i .top) + _ = _; rw [a4]; exact h.gots
      · show cnt fRuns (s.workers.set i .top) + _ = _; rw [a5]; exact h.runs
      · show 0 < cnt fGo (s.workers.set i .top) → _; rw [a6]; exact h.go
      · show 0 < cnt fChk (s.workers.set i .top) → _; rw [a7]; exact h.chk
      · show 0 < cnt fSleep (s.workers.set i .top) → _; rw [a8]; exact h.sleep
      · show 0 < cnt fExit (s.workers.set i .top) → _; rw [a9]; exact h.exit
      · intro hst; rw [h.fresh hst] at hw; simp at hw
      · intro k n hv
        rcases notified_check s.waiters k n hv with h1 | h1
        · exact h.check k n h1
        · exact (h.vsleep k n h1).1
      · intro k n hv
        exact absurd (notified_asleep s.waiters k n hv) id
      · intro k n hv
        exact h.done k n (notified_done s.waiters k n hv)
      · intro hx
        obtain ⟨b1, b2, b3⟩ := h.dkill hx
        refine ⟨b1, ?_, ?_⟩
        · show cnt fSleep (s.workers.set i .top) = 0; omega
        · show cnt fGo (s.workers.set i .top) = 0; omega
    · simp at hs
  · simp at hs

theorem cnt_replicate (f : WPc → Nat) (n : Nat) (w : WPc) (h : f w = 0) : cnt f (List.replicate n w) = 0 :=
  cnt_zero f _ fun w' hw => by rw [List.eq_of_mem_replicate hw]; exact h

theorem inv_schedule (s : St) (h : Inv s) (hf : s.free = true) :
    Inv { s with q := s.q ++ [s.sched], sched := s.sched + 1 }.notify := by
  rw [free_iff] at hf
  have hgc := go_le_hold s.workers
  have hs := sleep_notified s.workers
  set t : St := { s with q := s.q ++ [s.sched], sched := s.sched + 1 } with ht
  have hdt : t.notify.dtor = s.dtor.notified := rfl
  have hle := h.le
  refine ⟨?_, ?_, ?_, ?_, ?_, ?_, ?_, ?_, ?_, ?_, ?_, ?_, ?_, ?_, ?_, ?_, ?_, h.done, ?_, ?_, ?_⟩
  · show cnt fHold (s.workers.map WPc.notified) ≤ 1
    rw [cnt_notified _ _ rfl]; exact h.hold
  · show s.q ++ [s.sched] = List.range' s.taken (s.sched + 1 - s.taken)
    rw [h.queue, show s.sched + 1 - s.taken = (s.sched - s.taken) + 1 by omega, List.range'_concat]
    congr 2
    omega
  · show s.taken ≤ s.sched + 1
    omega
  · show s.active = cnt fAct (s.workers.map WPc.notified)
    rw [cnt_notified _ _ rfl]; exact h.active
  · show s.pool = cnt fPool (s.workers.map WPc.notified)
    rw [cnt_notified _ _ rfl]; exact h.pool
  · intro j
    show cnt (fGot j) (s.workers.map WPc.notified) + _ = _
    rw [cnt_notified _ _ rfl]; exact h.got j
  · intro j
    show cnt (fRun j) (s.workers.map WPc.notified) + _ = _
    rw [cnt_notified _ _ rfl]; exact h.run j
  · show cnt fGots (s.workers.map WPc.notified) + _ = _
    rw [cnt_notified _ _ rfl]; exact h.gots
  · show cnt fRuns (s.workers.map WPc.notified) + _ = _
    rw [cnt_notified _ _ rfl]; exact h.runs
  · show 0 < cnt fGo (s.workers.map WPc.notified) → _
    rw [cnt_notified _ _ rfl]; intro hc; omega
  · show 0 < cnt fChk (s.workers.map WPc.notified) → _
    rw [cnt_notified _ _ rfl]; intro hc; omega
  · show 0 < cnt fSleep (s.workers.map WPc.notified) → _
    rw [hs]; intro hc; exact absurd hc (by omega)
  · show 0 < cnt fExit (s.workers.map WPc.notified) → _
    rw [cnt_notified _ _ rfl]; exact h.exit
  · intro hd
    apply h.ub
    rw [hdt] at hd
    cases hx : s.dtor <;> rw [hx] at hd <;> simp [DPc.notified] at hd
  · intro hst
    show s.workers.map _ = []
    rw [h.fresh hst]; rfl
  · intro k n hv
    have := h.check k n hv
    show n ≤ s.sched + 1
    omega
  · intro k n hv
    have := h.vsleep k n hv
    refine ⟨?_, Or.inr ?_⟩
    · show n ≤ s.sched + 1
      omega
    · show s.q ++ [s.sched] ≠ []
      simp
  · intro hd
    have : s.dtor ≠ .none := by
      intro hx; apply hd; rw [hdt, hx]; rfl
    refine ⟨(h.dkill this).1, hs, ?_⟩
    show cnt fGo (s.workers.map WPc.notified) = 0
    rw [cnt_notified _ _ rfl]; exact (h.dkill this).2.2
  · intro hd
    apply h.dret
    rw [hdt] at hd
    cases hx : s.dtor <;> rw [hx] at hd <;> simp [DPc.notified] at hd
  · intro hd
    rw [hdt] at hd
    cases hx : s.dtor <;> rw [hx] at hd <;> simp [DPc.notified] at hd

/-- Every job taken is finished when nothing is active. -/
theorem Inv.all_ended {s : St} (h : Inv s) (ha : s.active = 0) (j : Nat) (hj : j < s.taken) :
    s.ended.count j = 1 := by
  have h0 : ∀ f : WPc → Nat, (∀ w, 0 < f w → 0 < fAct w) → cnt f s.workers = 0 := by
    intro f hf
    by_contra hc
    obtain ⟨i, w, h1, h2⟩ := cnt_pos f s.workers (by omega)
    have h3 := cnt_le fAct s.workers i w h1
    have h4 := hf w h2
    have h5 := h.active
    omega
  have g1 := h.got j
  have g2 := h.run j
  have e1 := h0 (fGot j) (by intro w; cases w <;> simp [fGot, fAct])
  have e2 := h0 (fRun j) (by intro w; cases w <;> simp [fRun, fAct])
  rw [if_pos hj] at g1
  omega

theorem inv_step (s s' : St) (l : Lbl) (h : Inv s) (hs : step s l = some s') : Inv s' := by
  cases l with
  | create n =>
    simp only [step] at hs
    split at hs
    · obtain rfl := (Option.some.inj hs).symm; exact h
    · rename_i hst
      obtain rfl := (Option.some.inj hs).symm
      have hst' : s.started = false := by simpa using hst
      have hw := h.fresh hst'
      have e : ∀ f : WPc → Nat, f .start = 0 → cnt f (List.replicate n .start) = cnt f s.workers := by
        intro f hf
        rw [cnt_replicate f n .start hf, hw]; rfl
      refine ⟨?_, h.queue, h.le, ?_, ?_, ?_, ?_, ?_, ?_, ?_, ?_, ?_, ?_, h.ub, ?_, h.check, h.vsleep, h.done, ?_, h.dret, h.dsleep⟩
      · show cnt fHold (List.replicate n .start) ≤ 1; rw [e _ rfl]; exact h.hold
      · show s.active = cnt fAct (List.replicate n .start); rw [e _ rfl]; exact h.active
      · show s.pool = cnt fPool (List.replicate n .start); rw [e _ rfl]; exact h.pool
      · intro j; show cnt (fGot j) (List.replicate n .start) + _ = _; rw [e _ rfl]; exact h.got j
      · intro j; show cnt (fRun j) (List.replicate n .start) + _ = _; rw [e _ rfl]; exact h.run j
      · show cnt fGots (List.replicate n .start) + _ = _; rw [e _ rfl]; exact h.gots
      · show cnt fRuns (List.replicate n .start) + _ = _; rw [e _ rfl]; exact h.runs
      · show 0 < cnt fGo (List.replicate n .start) → _; rw [e _ rfl]; exact h.go
      · show 0 < cnt fChk (List.replicate n .start) → _; rw [e _ rfl]; exact h.chk
      · show 0 < cnt fSleep (List.replicate n .start) → _; rw [e _ rfl]; exact h.sleep
      · show 0 < cnt fExit (List.replicate n .start) → _; rw [e _ rfl]; exact h.exit
      · intro hc; exact absurd hc (by simp)
      · intro hx
        obtain ⟨b1, b2, b3⟩ := h.dkill hx
        refine ⟨b1, ?_, ?_⟩
        · show cnt fSleep (List.replicate n .start) = 0; rw [e _ rfl]; exact b2
        · show cnt fGo (List.replicate n .start) = 0; rw [e _ rfl]; exact b3
  | schedule =>
    simp only [step] at hs
    split at hs
    · rename_i hf
      obtain rfl := (Option.some.inj hs).symm
      exact inv_schedule s h hf
    · simp at hs
  | stop =>
    obtain rfl := (Option.some.inj hs).symm
    exact { h with
      chk := fun _ => Or.inl rfl
      exit := fun _ => rfl
      dkill := fun hx => ⟨rfl, (h.dkill hx).2⟩ }
  | notify =>
    obtain rfl := (Option.some.inj hs).symm
    exact inv_notify s h
  | w i => exact inv_worker s s' i h hs
  | spur i =>
    simp only [step] at hs
    split at hs
    · rename_i hw
      obtain rfl := (Option.some.inj hs).symm
      obtain ⟨a1, a2, a3, a4, a5, a6, a7, a8, a9, a10, a11⟩ := set_all s.workers i .asleep .wake hw
      simp [fHold, fAct, fPool, fGots, fRuns, fGo, fChk, fSleep, fExit, fGot, fRun, WPc.holds] at a1 a2 a3 a4 a5 a6 a7 a8 a9 a10 a11
      refine ⟨?_, h.queue, h.le, ?_, ?_, ?_, ?_, ?_, ?_, ?_, ?_, ?_, ?_, h.ub, ?_, h.check, h.vsleep, h.done, ?_, h.dret, h.dsleep⟩
      · show cnt fHold (s.workers.set i .wake) ≤ 1; rw [a1]; exact h.hold
      · show s.active = cnt fAct (s.workers.set i .wake); rw [a2]; exact h.active
      · show s.pool = cnt fPool (s.workers.set i .wake); rw [a3]; exact h.pool
      · intro j; show cnt (fGot j) (s.workers.set i .wake) + _ = _; rw [a10]; exact h.got j
      · intro j; show cnt (fRun j) (s.workers.set i .wake) + _ = _; rw [a11]; exact h.run j
      · show cnt fGots (s.workers.set i .wake) + _ = _; rw [a4]; exact h.gots
      · show cnt fRuns (s.workers.set i .wake) + _ = _; rw [a5]; exact h.runs
      · show 0 < cnt fGo (s.workers.set i .wake) → _; rw [a6]; exact h.go
      · show 0 < cnt fChk (s.workers.set i .wake) → _; rw [a7]; exact h.chk
      · intro hc; apply h.sleep; change 0 < cnt fSleep (s.workers.set i .wake) at hc; omega
      · show 0 < cnt fExit (s.workers.set i .wake) → _; rw [a9]; exact h.exit
      · intro hst; rw [h.fresh hst] at hw; simp at hw
      · intro hx
        obtain ⟨b1, b2, b3⟩ := h.dkill hx
        refine ⟨b1, ?_, ?_⟩
        · show cnt fSleep (s.workers.set i .wake) = 0; omega
        · show cnt fGo (s.workers.set i .wake) = 0; omega
    · simp at hs
  | call =>
    obtain rfl := (Option.some.inj hs).symm
    have key : ∀ (k : Nat) (v : VPc), (s.waiters ++ [.check s.sched])[k]? = some v →
        s.waiters[k]? = some v ∨ v = .check s.sched := by
      intro k v hv
      by_cases hk : k < s.waiters.length
      · rw [List.getElem?_append_left hk] at hv; exact Or.inl hv
      · rw [List.getElem?_append_right (by omega)] at hv
        right
        have := List.mem_of_getElem? hv
        simpa using this
    refine { h with check := ?_, vsleep := ?_, done := ?_ }
    · intro k n hv
      rcases key k _ hv with h1 | h1
      · exact h.check k n h1
      · injection h1 with h1; rw [h1]
    · intro k n hv
      rcases key k _ hv with h1 | h1
      · exact h.vsleep k n h1
      · cases h1
    · intro k n hv
      rcases key k _ hv with h1 | h1
      · exact h.done k n h1
      · cases h1
  | v i =>
    simp only [step] at hs
    split at hs
    · rename_i n hv
      have hn := h.check i n hv
      split at hs
      · split at hs
        · rename_i hc
          obtain rfl := (Option.some.inj hs).symm
          have hc' : 0 < s.active ∨ s.q ≠ [] := by
            simp only [ne_eq, decide_not, Bool.or_eq_true, Bool.not_eq_true', decide_eq_false_iff_not] at hc
            rcases hc with hc | hc
            · left; omega
            · right; intro hq; rw [hq] at hc; simp at hc
          refine { h with check := ?_, vsleep := ?_, done := ?_ }
          · intro k m hk
            rcases set_get _ _ _ _ _ hk with ⟨_, h1⟩ | h1
            · cases h1
            · exact h.check k m h1
          · intro k m hk
            rcases set_get _ _ _ _ _ hk with ⟨_, h1⟩ | h1
            · injection h1 with h1; subst h1; exact ⟨hn, hc'⟩
            · exact h.vsleep k m h1
          · intro k m hk
            rcases set_get _ _ _ _ _ hk with ⟨_, h1⟩ | h1
            · cases h1
            · exact h.done k m h1
        · rename_i hc
          obtain rfl := (Option.some.inj hs).symm
          simp only [ne_eq, decide_not, Bool.or_eq_true, Bool.not_eq_true', decide_eq_false_iff_not, not_or,
            not_not, Bool.not_eq_false, List.isEmpty_iff] at hc
          have hq := h.queue
          rw [hc.2] at hq
          have hts : s.taken = s.sched := by
            have h1 := h.le
            have h2 := congrArg List.length hq
            simp at h2
            omega
          refine { h with check := ?_, vsleep := ?_, done := ?_ }
          · intro k m hk
            rcases set_get _ _ _ _ _ hk with ⟨_, h1⟩ | h1
            · cases h1
            · exact h.check k m h1
          · intro k m hk
            rcases set_get _ _ _ _ _ hk with ⟨_, h1⟩ | h1
            · cases h1
            · exact h.vsleep k m h1
          · intro k m hk
            rcases set_get _ _ _ _ _ hk with ⟨_, h1⟩ | h1
            · injection h1 with h1
              subst h1
              intro j hj
              exact h.all_ended hc.1 j (by omega)
            · exact h.done k m h1
      · simp at hs
    · simp at hs
  | vspur i =>
    simp only [step] at hs
    split at hs
    · rename_i n hv
      obtain rfl := (Option.some.inj hs).symm
      refine { h with check := ?_, vsleep := ?_, done := ?_ }
      · intro k m hk
        rcases set_get _ _ _ _ _ hk with ⟨_, h1⟩ | h1
        · injection h1 with h1; subst h1; exact (h.vsleep i n hv).1
        · exact h.check k m h1
      · intro k m hk
        rcases set_get _ _ _ _ _ hk with ⟨_, h1⟩ | h1
        · cases h1
        · exact h.vsleep k m h1
      · intro k m hk
        rcases set_get _ _ _ _ _ hk with ⟨_, h1⟩ | h1
        · cases h1
        · exact h.done k m h1
    · simp at hs
  | dtor =>
    simp only [step] at hs
    split at hs
    · rename_i hc
      obtain rfl := (Option.some.inj hs).symm
      have hf := (free_iff s).1 hc.2
      have hgc := go_le_hold s.workers
      have hk : Inv { s with kill := true } := { h with
        chk := fun _ => Or.inl rfl
        exit := fun _ => rfl
        dkill := fun hx => ⟨rfl, (h.dkill hx).2⟩ }
      have hn := inv_notify _ hk
      have hub := h.ub hc.1
      refine { hn with ub := ?_, dkill := ?_, dret := ?_, dsleep := ?_ }
      · intro _; exact hub
      · intro _
        refine ⟨rfl, sleep_notified _, ?_⟩
        show cnt fGo (s.workers.map WPc.notified) = 0
        rw [cnt_notified _ _ rfl]; omega
      · intro hx
        by_contra hp
        have hp' : s.pool ≠ 0 := hp
        have : (if s.pool ≠ 0 then DPc.asleep else DPc.returned) = DPc.returned := hx
        rw [if_pos hp'] at this
        cases this
      · intro hx
        have : (if s.pool ≠ 0 then DPc.asleep else DPc.returned) = DPc.asleep := hx
        by_cases hp : s.pool = 0
        · rw [if_neg (by simpa using hp)] at this
          cases this
        · show 0 < s.pool; omega
    · simp at hs
  | d =>
    simp only [step] at hs
    split at hs
    · rename_i hc
      obtain rfl := (Option.some.inj hs).symm
      have hd := h.dkill (by rw [hc.1]; simp)
      refine { h with ub := ?_, dkill := fun _ => hd, dret := ?_, dsleep := ?_ }
      · intro hx
        have : (if s.pool ≠ 0 then DPc.asleep else DPc.returned) = DPc.none := hx
        split at this <;> cases this
      · intro hx
        by_contra hp
        have hp' : s.pool ≠ 0 := hp
        have : (if s.pool ≠ 0 then DPc.asleep else DPc.returned) = DPc.returned := hx
        rw [if_pos hp'] at this
        cases this
      · intro hx
        have : (if s.pool ≠ 0 then DPc.asleep else DPc.returned) = DPc.asleep := hx
        by_cases hp : s.pool = 0
        · rw [if_neg (by simpa using hp)] at this
          cases this
        · show 0 < s.pool; omega
    · simp at hs
  | dspur =>
    simp only [step] at hs
    split at hs
    · rename_i hc
      obtain rfl := (Option.some.inj hs).symm
      exact { h with
        ub := fun hx => by cases hx
        dkill := fun _ => h.dkill (by rw [hc]; simp)
        dret := fun hx => by cases hx
        dsleep := fun hx => by cases hx }
    · simp at hs

theorem inv_exec (s s' : St) (ls : List Lbl) (h : Inv s) (hs : exec s ls = some s') : Inv s' := by
  induction ls generalizing s with
  | nil => obtain rfl := Option.some.inj hs; exact h
  | cons l ls ih =>
    rw [exec, Option.bind_eq_some_iff] at hs
    obtain ⟨t, h1, h2⟩ := hs
    exact ih t (inv_step s t l h h1) h2

theorem Reachable.inv {s : St} (h : Reachable s) : Inv s := by
  obtain ⟨ls, hs⟩ := h
  exact inv_exec init s ls inv_init hs

end Kalibr.JobQueue
