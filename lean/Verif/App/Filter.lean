import Verif.Common
import Verif.Tactics
import Mathlib.Algebra.BigOperators.Group.List.Basic
import Mathlib.Algebra.Order.BigOperators.Group.List
import Mathlib.Data.List.Nodup
import Mathlib.Data.List.Basic

/-!
# The outlier filter of the camera calibration (C125)

`aslam_offline_calibration/kalibr/python/kalibr_calibrate_cameras` (cited as `kcc`) 206-211, 250-266, 297-386 and 424-450, and
`kalibr_camera_calibration/CameraCalibrator.py` (cited as `CC.py`) 222-244, 264-281 and 355-378.

What the estimator does is given by a `World`: which batches it accepts, when an optimisation runs out of iterations, and the
reprojection errors, each as a function of the number of calls made so far. Errors are exact numbers; the comparison with four
standard deviations is that of the squares. A view is one time stamp, with the corners that each camera saw; the observations are
the objects of the database (they are shared), and a batch has its number, because Python finds it by identity.
Not modelled: printing, plotting, the guesses, the initialisation of the intrinsics.
-/

namespace Kalibr.App.Filter

/-- The cameras of a view, and the corners that they saw. -/
abbrev Rig := List (Nat × List Nat)

/-- CC.py 143-220: a batch; `src` is the time stamp of the view. -/
structure Batch where
  uid : Nat
  src : Nat
  rig : Rig
  deriving DecidableEq

/-- The answers of the estimator after `clock` calls; the order in which attempt `n` takes the time stamps (kcc 250-253). -/
structure World where
  accept : Nat → Bool
  diverge : Nat → Bool
  err : Nat → Nat → Nat → Nat → ℚ × ℚ
  order : Nat → List Nat

/-- The options, kcc 99-103. -/
structure Config where
  removeOutliers : Bool
  allowEndFiltering : Bool
  minViewOutlier : Nat
  numCams : Nat

/-- The observations of the database, the views of the calibrator, the batches of the estimator, and kcc 207-209. -/
structure State where
  data : List Rig
  views : List Batch
  est : List Batch
  next : Nat
  clock : Nat
  removed : List (Nat × Nat × Nat)
  init : Bool
  deriving DecidableEq

/-- CC.py 376, `np.std`, squared. -/
def variance (l : List ℚ) : ℚ := (l.map fun x => (x - l.sum / l.length) ^ 2).sum / l.length

/-- CC.py 380-413 and 363-372: the errors of a camera in all the views. -/
def camErrors (w : World) (s : State) (cam : Nat) : List (ℚ × ℚ) :=
  s.views.flatMap fun v => v.rig.flatMap fun x => if x.1 = cam then x.2.map (w.err s.clock v.src cam) else []

/-- kcc 335-342: an error is larger than four standard deviations. -/
def overThreshold (all : List (ℚ × ℚ)) (e : ℚ × ℚ) : Bool :=
  decide (e.1 ^ 2 > 16 * variance (all.map Prod.fst)) || decide (e.2 ^ 2 > 16 * variance (all.map Prod.snd))

/-- kcc 331-342, for corner `i` of camera `cam` in batch `b`. -/
def outlier (w : World) (s : State) (b : Batch) (cam i : Nat) : Bool :=
  overThreshold (camErrors w s cam) (w.err s.clock b.src cam i)

/-- CC.py 264-281, `addTargetView`. `true` in the first place: it diverged. -/
def addTargetView (w : World) (s : State) (src : Nat) : Option (Bool × Bool × State) :=
  match s.data[src]? with
  | none => none
  | some rig =>
    let b : Batch := ⟨s.next, src, rig⟩
    let acc := w.accept s.clock
    let s1 := { s with est := if acc then s.est ++ [b] else s.est, next := s.next + 1, clock := s.clock + 1 }
    if w.diverge s.clock then some (true, false, s1)
    else some (false, acc, { s1 with views := if acc then s1.views ++ [b] else s1.views })

/-- kcc 325-386: the check of one batch. `none`: an exception. -/
def filterBatch (w : World) (s : State) (k : Nat) : Option State :=
  match s.views[k]? with
  | none => none
  | some b =>
    let removal : Rig := b.rig.map fun x => (x.1, x.2.filter fun i => outlier w s b x.1 i)
    if (removal.map fun x => x.2.length).sum > 0 then
      let rig : Rig := b.rig.map fun x => (x.1, x.2.filter fun i => !outlier w s b x.1 i)
      let nb : Batch := ⟨s.next, b.src, rig⟩
      if b ∈ s.est then
        let views := s.views.set k nb
        let acc := w.accept (s.clock + 1)
        some { s with
          data := s.data.set b.src rig
          views := if acc then views else views.erase nb
          est := if acc then s.est.erase b ++ [nb] else s.est.erase b
          next := s.next + 1
          clock := s.clock + 2
          removed := s.removed ++ removal.flatMap fun x => x.2.map fun i => (b.src, x.1, i) }
      else none
    else some s

/-- kcc 300-324: the batches to check, from the last to the first, and the flag after that. -/
def toCheck (c : Config) (s : State) (success last : Bool) : List Nat × Bool :=
  if (success && decide (s.est.length > c.minViewOutlier * c.numCams) ||
      (last && c.allowEndFiltering) && decide (s.est.length > c.minViewOutlier * c.numCams)) && c.removeOutliers then
    if s.init then ((List.range s.est.length).reverse, false)
    else if last && c.allowEndFiltering then ((List.range s.est.length).reverse, s.init)
    else ([s.est.length - 1], s.init)
  else ([], s.init)

/-- How an attempt ends. -/
inductive Res
  | done (s : State)
  | diverged (s : State)
  | error
  deriving DecidableEq

/-- kcc 258-386: one time stamp. -/
def process (w : World) (c : Config) (s : State) (src : Nat) (last : Bool) : Res :=
  match addTargetView w s src with
  | none => .error
  | some (true, _, s1) => .diverged s1
  | some (false, success, s1) =>
    match (toCheck c s1 success last).1.foldlM (filterBatch w) { s1 with init := (toCheck c s1 success last).2 } with
    | none => .error
    | some s2 => .done s2

/-- kcc 250-386: all the time stamps. -/
def attempt (w : World) (c : Config) : State → List Nat → Res
  | s, [] => .done s
  | s, src :: rest =>
    match process w c s src rest.isEmpty with
    | .done s1 => attempt w c s1 rest
    | .diverged s1 => .diverged s1
    | .error => .error

/-- How the program ends. -/
inductive Final
  | result (s : State)
  | gaveUp
  | error
  deriving DecidableEq

/-- kcc 206-450: the loop of the attempts; `left` attempts are left. A restart makes a new calibrator, and keeps the rest. -/
def main (w : World) (c : Config) : Nat → State → Nat → Final
  | 0, _, _ => .gaveUp
  | left + 1, s, n =>
    match attempt w c { s with views := [], est := [] } (w.order n) with
    | .done s1 => .result s1
    | .error => .error
    | .diverged s1 => main w c left s1 (n + 1)

/-- The state at the start, kcc 206-209. -/
def start (data : List Rig) : State := ⟨data, [], [], 0, 0, [], true⟩

/-! ## Specification -/

/-- Corner `i` is among those of camera `cam` in time stamp `src`. -/
def Has (data : List Rig) (src cam i : Nat) : Prop := ∃ rig ∈ data[src]?, ∃ x ∈ rig, x.1 = cam ∧ i ∈ x.2

/-- The views of the calibrator and the batches of the estimator are the same, each of them once, and each of them holds the
corners that its observations have. -/
structure Agree (s : State) : Prop where
  perm : s.views.Perm s.est
  uids : (s.views.map Batch.uid).Nodup
  rigs : ∀ v ∈ s.views, s.data[v.src]? = some v.rig

/-- In a view each camera is there once, and has each of its corners once. -/
def RigOk (rig : Rig) : Prop := (rig.map Prod.fst).Nodup ∧ ∀ x ∈ rig, x.2.Nodup

/-! ## Proofs -/

/-- The invariant. -/
structure Inv (s : State) : Prop extends Agree s where
  fresh : ∀ v ∈ s.views, v.uid < s.next
  srcs : (s.views.map Batch.src).Nodup

theorem inv_start (s : State) : Inv { s with views := [], est := [] } :=
  { perm := .nil, uids := by simp, rigs := by simp, fresh := by simp, srcs := by simp }

theorem inv_add {w : World} {s s1 : State} {src : Nat} {b : Bool} (hs : Inv s) (hsrc : src ∉ s.views.map Batch.src)
    (h : addTargetView w s src = some (false, b, s1)) : Inv s1 ∧ s1.data = s.data ∧ s1.removed = s.removed ∧
      s1.views.map Batch.src ⊆ s.views.map Batch.src ++ [src] := by
  unfold addTargetView at h
  cases hr : s.data[src]? with
  | none => simp [hr] at h
  | some rig =>
    simp only [hr] at h
    by_cases hd : w.diverge s.clock = true
    · rw [if_pos hd] at h
      simp at h
    · rw [if_neg hd] at h
      simp only [Option.some.injEq, Prod.mk.injEq, true_and] at h
      obtain ⟨-, rfl⟩ := h
      by_cases ha : w.accept s.clock = true
      · simp only [ha, if_true]
        refine ⟨{ perm := hs.perm.append_right _, uids := ?_, rigs := ?_, fresh := ?_, srcs := ?_ }, trivial, trivial, by simp⟩
        · rw [List.map_append, List.nodup_append]
          refine ⟨hs.uids, by simp, ?_⟩
          intro a ha b hb
          obtain ⟨v, hv, rfl⟩ := List.mem_map.1 ha
          simp only [List.map_cons, List.map_nil, List.mem_singleton] at hb
          have := hs.fresh v hv
          omega
        · intro v hv
          rcases List.mem_append.1 hv with hv | hv
          · exact hs.rigs v hv
          · rw [List.mem_singleton.1 hv]; exact hr
        · intro v hv
          rcases List.mem_append.1 hv with hv | hv
          · exact Nat.lt_succ_of_lt (hs.fresh v hv)
          · rw [List.mem_singleton.1 hv]; exact Nat.lt_succ_self _
        · rw [List.map_append, List.nodup_append]
          refine ⟨hs.srcs, by simp, ?_⟩
          intro a ha b hb hab
          simp only [List.map_cons, List.map_nil, List.mem_singleton] at hb
          exact hsrc (hb ▸ hab ▸ ha)
      · simp only [ha]
        refine ⟨{ perm := hs.perm, uids := hs.uids, rigs := hs.rigs, fresh := ?_, srcs := hs.srcs }, trivial, trivial, by simp⟩
        intro v hv
        exact Nat.lt_succ_of_lt (hs.fresh v hv)

/-- What the check of one batch does. -/
theorem filterBatch_spec {w : World} {s : State} {k : Nat} (hs : Inv s) (hk : k < s.views.length) :
    (filterBatch w s k = some s ∧ ∀ x ∈ s.views[k].rig, ∀ i ∈ x.2, outlier w s s.views[k] x.1 i = false) ∨
    ∃ rig nb, rig = s.views[k].rig.map (fun x => (x.1, x.2.filter fun i => !outlier w s s.views[k] x.1 i)) ∧
      nb = (⟨s.next, s.views[k].src, rig⟩ : Batch) ∧
      filterBatch w s k = some { s with
        data := s.data.set s.views[k].src rig
        views := if w.accept (s.clock + 1) then s.views.set k nb else s.views.eraseIdx k
        est := if w.accept (s.clock + 1) then s.est.erase s.views[k] ++ [nb] else s.est.erase s.views[k]
        next := s.next + 1
        clock := s.clock + 2
        removed := s.removed ++ s.views[k].rig.flatMap fun x =>
          (x.2.filter fun i => outlier w s s.views[k] x.1 i).map fun i => (s.views[k].src, x.1, i) } ∧
      ∃ x ∈ s.views[k].rig, ∃ i ∈ x.2, outlier w s s.views[k] x.1 i = true := by
  have hmem : s.views[k] ∈ s.est := hs.perm.subset (List.getElem_mem hk)
  have herase : ∀ nb : Batch, nb.uid = s.next → (s.views.set k nb).erase nb = s.views.eraseIdx k := by
    intro nb hnb
    have hgen : ∀ (l : List Batch) (k : Nat), k < l.length → (∀ v ∈ l, v.uid < s.next) → (l.set k nb).erase nb = l.eraseIdx k := by
      intro l
      induction l with
      | nil => intro k hk; simp at hk
      | cons a l ih =>
        intro k hk hf
        cases k with
        | zero => simp
        | succ k =>
          have hne : a ≠ nb := by rintro rfl; have := hf a (by simp); omega
          rw [List.set_cons_succ, List.erase_cons_tail (by simpa using hne), List.eraseIdx_cons_succ,
            ih k (by simpa using hk) fun v hv => hf v (by simp [hv])]
    exact hgen _ _ hk hs.fresh
  unfold filterBatch
  rw [List.getElem?_eq_getElem hk]
  simp only []
  by_cases hz : 0 < (List.map (fun x : Nat × List Nat => x.2.length) (s.views[k].rig.map fun x =>
      (x.1, x.2.filter fun i => outlier w s s.views[k] x.1 i))).sum
  · right
    refine ⟨_, _, rfl, rfl, ?_, ?_⟩
    · rw [if_pos hz, if_pos hmem, herase _ rfl]
      simp only [List.flatMap_map]
    · by_contra hno
      push Not at hno
      have : (List.map (fun x : Nat × List Nat => x.2.length) (s.views[k].rig.map fun x =>
          (x.1, x.2.filter fun i => outlier w s s.views[k] x.1 i))).sum = 0 := by
        rw [List.sum_eq_zero_iff]
        intro n hn
        simp only [List.map_map, List.mem_map, Function.comp] at hn
        obtain ⟨x, hx, rfl⟩ := hn
        rw [List.length_eq_zero_iff, List.filter_eq_nil_iff]
        exact fun i hi => hno x hx i hi
      omega
  · left
    rw [if_neg hz]
    refine ⟨rfl, ?_⟩
    intro x hx i hi
    have h0 : (List.map (fun x : Nat × List Nat => x.2.length) (s.views[k].rig.map fun x =>
        (x.1, x.2.filter fun i => outlier w s s.views[k] x.1 i))).sum = 0 := by omega
    rw [List.sum_eq_zero_iff] at h0
    have := h0 (x.2.filter fun i => outlier w s s.views[k] x.1 i).length (by
      rw [List.map_map]; exact List.mem_map.2 ⟨x, hx, rfl⟩)
    rw [List.length_eq_zero_iff, List.filter_eq_nil_iff] at this
    simpa using this i hi

/-- The views other than the one that was checked. -/
theorem mem_views_ne {s : State} {k : Nat} (hs : Inv s) (hk : k < s.views.length) {v : Batch} (hv : v ∈ s.views.eraseIdx k) :
    v ∈ s.views ∧ v.src ≠ s.views[k].src := by
  rw [List.mem_eraseIdx_iff_getElem] at hv
  obtain ⟨j, hj, hne, rfl⟩ := hv
  refine ⟨List.getElem_mem hj, fun h => hne ?_⟩
  have hnd := hs.srcs
  rw [List.nodup_iff_injective_getElem] at hnd
  have := @hnd ⟨j, by simpa using hj⟩ ⟨k, by simpa using hk⟩ (by simpa using h)
  simpa using congrArg Fin.val this

/-- Corner `i` of camera `cam` in time stamp `src` was over the threshold when it was checked: in a state where the view was in
use and had the corner. -/
def WasOver (w : World) (src cam i : Nat) : Prop :=
  ∃ s0 : State, Agree s0 ∧ Has s0.data src cam i ∧ ∃ b ∈ s0.views, b.src = src ∧
    overThreshold (camErrors w s0 cam) (w.err s0.clock src cam i) = true

/-- The effect of a part of the program on the observations. -/
structure Effect (w : World) (s s' : State) : Prop where
  len : s'.data.length = s.data.length
  removed : ∃ l, s'.removed = s.removed ++ l ∧
    (∀ src cam i, (src, cam, i) ∈ l ↔ Has s.data src cam i ∧ ¬ Has s'.data src cam i) ∧
    ∀ src cam i, (src, cam, i) ∈ l → WasOver w src cam i
  sub : ∀ src cam i, Has s'.data src cam i → Has s.data src cam i

theorem Effect.refl {w : World} {s s' : State} (hd : s'.data = s.data) (hr : s'.removed = s.removed) : Effect w s s' :=
  { len := by rw [hd]
    removed := ⟨[], by simp [hr], fun _ _ _ => by simp [hd], fun _ _ _ h => by simp at h⟩
    sub := fun _ _ _ h => hd ▸ h }

theorem Effect.trans {w : World} {s s1 s2 : State} (h1 : Effect w s s1) (h2 : Effect w s1 s2) : Effect w s s2 := by
  obtain ⟨l1, e1, m1, o1⟩ := h1.removed
  obtain ⟨l2, e2, m2, o2⟩ := h2.removed
  refine ⟨h2.len.trans h1.len, ⟨l1 ++ l2, by rw [e2, e1, List.append_assoc], ?_, ?_⟩, fun _ _ _ h => h1.sub _ _ _ (h2.sub _ _ _ h)⟩
  · intro src cam i
    rw [List.mem_append, m1, m2]
    have := h1.sub src cam i
    have := h2.sub src cam i
    tauto
  · intro src cam i h
    rcases List.mem_append.1 h with h | h
    · exact o1 _ _ _ h
    · exact o2 _ _ _ h

/-- The data after the check of one batch: only its time stamp is different. -/
theorem has_set {data : List Rig} {src : Nat} {r : Rig} (hsrc : data[src]? = some r) (f : Nat → Nat → Bool) (q cam i : Nat) :
    Has (data.set src (r.map fun x => (x.1, x.2.filter fun i => f x.1 i))) q cam i ↔
      Has data q cam i ∧ (q = src → f cam i = true) := by
  have hlt : src < data.length := (List.getElem?_eq_some_iff.1 hsrc).1
  by_cases hq : q = src
  · subst hq
    unfold Has
    rw [List.getElem?_set_self hlt, hsrc]
    simp only [Option.mem_some_iff, exists_eq_left', List.mem_map, forall_const]
    constructor
    · rintro ⟨_, ⟨x, hx, rfl⟩, rfl, hi⟩
      rw [List.mem_filter] at hi
      exact ⟨⟨x, hx, rfl, hi.1⟩, hi.2⟩
    · rintro ⟨⟨x, hx, rfl, hi⟩, hf⟩
      exact ⟨_, ⟨x, hx, rfl⟩, rfl, List.mem_filter.2 ⟨hi, hf⟩⟩
  · unfold Has
    rw [List.getElem?_set_ne (Ne.symm hq)]
    simp [hq]

/-- The check of one batch, in terms of the corners. -/
theorem filterBatch_effect {w : World} {s : State} {k : Nat} (hs : Inv s) (hk : k < s.views.length) :
    ∃ s', filterBatch w s k = some s' ∧ Inv s' ∧ Effect w s s' ∧ s.views.length ≤ s'.views.length + 1 ∧
      s'.init = s.init ∧ s'.views.map Batch.src ⊆ s.views.map Batch.src ∧
      (∀ j < k, s'.views[j]? = s.views[j]?) ∧
      (∀ q, q ≠ s.views[k].src → s'.data[q]? = s.data[q]?) ∧
      ∀ cam i, Has s'.data s.views[k].src cam i ↔ Has s.data s.views[k].src cam i ∧ outlier w s s.views[k] cam i = false := by
  have hr : s.data[s.views[k].src]? = some s.views[k].rig := hs.rigs _ (List.getElem_mem hk)
  have hlt : s.views[k].src < s.data.length := (List.getElem?_eq_some_iff.1 hr).1
  rcases filterBatch_spec (w := w) hs hk with ⟨h, hno⟩ | ⟨rig, nb, hrig, hnb, h, -⟩
  · refine ⟨s, h, hs, Effect.refl rfl rfl, by omega, rfl, fun _ h => h, fun _ _ => rfl, fun _ _ => rfl, ?_⟩
    intro cam i
    constructor
    · intro hh
      refine ⟨hh, ?_⟩
      obtain ⟨r, hr', x, hx, rfl, hi⟩ := hh
      rw [hr, Option.mem_some_iff] at hr'
      subst hr'
      exact hno x hx i hi
    · exact fun hh => hh.1
  · have hsrcs : ∀ nv, nv = (if w.accept (s.clock + 1) = true then s.views.set k nb else s.views.eraseIdx k) →
        ∀ v ∈ nv, v = nb ∨ (v ∈ s.views ∧ v.src ≠ s.views[k].src) := by
      rintro nv rfl v hv
      by_cases ha : w.accept (s.clock + 1) = true
      · rw [if_pos ha] at hv
        rw [List.set_eq_take_append_cons_drop, if_pos hk] at hv
        have : v = nb ∨ v ∈ s.views.eraseIdx k := by
          rw [List.eraseIdx_eq_take_drop_succ]
          simp only [List.mem_append, List.mem_cons] at hv ⊢
          tauto
        exact this.imp id (mem_views_ne hs hk)
      · rw [if_neg ha] at hv
        exact .inr (mem_views_ne hs hk hv)
    have hdata : ∀ q cam i, Has (s.data.set s.views[k].src rig) q cam i ↔
        Has s.data q cam i ∧ (q = s.views[k].src → outlier w s s.views[k] cam i = false) := by
      intro q cam i
      rw [hrig, has_set hr fun c i => !outlier w s s.views[k] c i]
      simp
    have hlen : (s.data.set s.views[k].src rig).length = s.data.length := by simp
    refine ⟨_, h, ?_, ?_, ?_, rfl, ?_, ?_, ?_, ?_⟩
    · refine { perm := ?_, uids := ?_, rigs := ?_, fresh := ?_, srcs := ?_ }
      · by_cases ha : w.accept (s.clock + 1) = true
        · simp only [ha, if_true]
          have h1 : (s.views.set k nb).Perm (s.views.eraseIdx k ++ [nb]) := by
            rw [List.set_eq_take_append_cons_drop, if_pos hk, List.eraseIdx_eq_take_drop_succ]
            refine List.Perm.trans List.perm_middle ?_
            exact (List.perm_append_singleton _ _).symm
          have h2 : (s.views.eraseIdx k).Perm (s.est.erase s.views[k]) := by
            have := List.Perm.erase s.views[k] hs.perm
            refine List.Perm.trans ?_ this
            exact (List.erase_getElem hk).symm
          exact h1.trans (h2.append_right _)
        · simp only [ha]
          have := List.Perm.erase s.views[k] hs.perm
          exact (List.erase_getElem hk).symm.trans this
      · by_cases ha : w.accept (s.clock + 1) = true
        · simp only [ha, if_true]
          have h1 : (s.views.set k nb).Perm (s.views.eraseIdx k ++ [nb]) := by
            rw [List.set_eq_take_append_cons_drop, if_pos hk, List.eraseIdx_eq_take_drop_succ]
            refine List.Perm.trans List.perm_middle ?_
            exact (List.perm_append_singleton _ _).symm
          rw [(h1.map _).nodup_iff, List.map_append, List.nodup_append]
          refine ⟨hs.uids.sublist ((List.eraseIdx_sublist _ _).map _), by simp, ?_⟩
          intro a ha b hb
          obtain ⟨v, hv, rfl⟩ := List.mem_map.1 ha
          simp only [List.map_cons, List.map_nil, List.mem_singleton] at hb
          have := hs.fresh v (mem_views_ne hs hk hv).1
          rw [hb, hnb]
          simp only []
          omega
        · simp only [ha]
          exact hs.uids.sublist ((List.eraseIdx_sublist _ _).map _)
      · intro v hv
        rcases hsrcs _ rfl v hv with rfl | ⟨hv1, hv2⟩
        · rw [hnb]
          simp only [List.getElem?_set_self hlt]
        · rw [List.getElem?_set_ne (Ne.symm hv2)]
          exact hs.rigs v hv1
      · intro v hv
        rcases hsrcs _ rfl v hv with rfl | ⟨hv1, hv2⟩
        · rw [hnb]; exact Nat.lt_succ_self _
        · exact Nat.lt_succ_of_lt (hs.fresh v hv1)
      · by_cases ha : w.accept (s.clock + 1) = true
        · simp only [ha, if_true]
          have : (s.views.set k nb).map Batch.src = s.views.map Batch.src := by
            rw [List.map_set, hnb]
            simp only []
            have h3 := List.set_getElem_self (as := s.views.map Batch.src) (i := k) (by simpa using hk)
            rwa [List.getElem_map] at h3
          rw [this]; exact hs.srcs
        · simp only [ha]
          exact hs.srcs.sublist ((List.eraseIdx_sublist _ _).map _)
    · refine ⟨hlen, ⟨_, rfl, ?_, ?_⟩, ?_⟩
      · intro src cam i
        simp only [hdata, List.mem_flatMap, List.mem_map, List.mem_filter, Prod.mk.injEq]
        constructor
        · rintro ⟨x, hx, j, ⟨hj, ho⟩, rfl, rfl, rfl⟩
          exact ⟨⟨_, hr, x, hx, rfl, hj⟩, fun hc => by simp [hc.2 rfl] at ho⟩
        · rintro ⟨hh, hc⟩
          have hq : src = s.views[k].src := by
            by_contra hne
            exact hc ⟨hh, fun h => absurd h hne⟩
          subst hq
          have ho : outlier w s s.views[k] cam i = true := by
            by_contra hne
            exact hc ⟨hh, fun _ => by simpa using hne⟩
          obtain ⟨r, hr', x, hx, rfl, hi⟩ := hh
          rw [hr, Option.mem_some_iff] at hr'
          subst hr'
          exact ⟨x, hx, i, ⟨hi, ho⟩, rfl, rfl, rfl⟩
      · intro src cam i hm
        simp only [List.mem_flatMap, List.mem_map, List.mem_filter, Prod.mk.injEq] at hm
        obtain ⟨x, hx, j, ⟨hj, ho⟩, rfl, rfl, rfl⟩ := hm
        exact ⟨s, hs.toAgree, ⟨_, hr, x, hx, rfl, hj⟩, _, List.getElem_mem hk, rfl, ho⟩
      · intro q cam i hh
        exact ((hdata q cam i).1 hh).1
    · by_cases ha : w.accept (s.clock + 1) = true
      · simp [ha]
      · simp only [ha]
        have := List.length_eraseIdx_of_lt hk
        simp only [Bool.false_eq_true, if_false]
        omega
    · intro a hm
      obtain ⟨v, hv, rfl⟩ := List.mem_map.1 hm
      rcases hsrcs _ rfl v hv with rfl | ⟨hv1, hv2⟩
      · rw [hnb]; exact List.mem_map.2 ⟨_, List.getElem_mem hk, rfl⟩
      · exact List.mem_map.2 ⟨v, hv1, rfl⟩
    · intro j hj
      by_cases ha : w.accept (s.clock + 1) = true
      · simp only [ha, if_true]
        exact List.getElem?_set_ne (by omega)
      · simp only [ha]
        simp only [Bool.false_eq_true, if_false]
        exact List.getElem?_eraseIdx_of_lt hj
    · intro q hq
      exact List.getElem?_set_ne (Ne.symm hq)
    · intro cam i
      rw [hdata]
      simp

/-- The check of the first `n` batches, from the last to the first. -/
theorem pass_spec (w : World) : ∀ (n : Nat) (s : State), Inv s → n ≤ s.views.length →
    ∃ s', (List.range n).reverse.foldlM (filterBatch w) s = some s' ∧ Inv s' ∧ Effect w s s' ∧ s'.init = s.init ∧
      s'.views.map Batch.src ⊆ s.views.map Batch.src ∧
      (∀ q, q ∉ (s.views.take n).map Batch.src → s'.data[q]? = s.data[q]?) ∧
      ∀ j (hj : j < s.views.length), j < n → ∃ sj, Inv sj ∧ sj.views[j]? = some s.views[j] ∧
        ∀ cam i, Has s'.data s.views[j].src cam i ↔ Has s.data s.views[j].src cam i ∧ outlier w sj s.views[j] cam i = false
  | 0, s, hs, _ => ⟨s, rfl, hs, Effect.refl rfl rfl, rfl, fun _ h => h, fun _ _ => rfl, fun j _ h => absurd h (by omega)⟩
  | n + 1, s, hs, hn => by
    obtain ⟨s1, h1, i1, e1, l1, t1, c1, v1, d1, o1⟩ := filterBatch_effect (w := w) hs (k := n) (by omega)
    obtain ⟨s2, h2, i2, e2, t2, c2, d2, o2⟩ := pass_spec w n s1 i1 (by omega)
    have htake : s1.views.take n = s.views.take n := by
      apply List.ext_getElem?
      intro j
      rw [List.getElem?_take, List.getElem?_take]
      by_cases hj : j < n
      · rw [if_pos hj, if_pos hj, v1 j hj]
      · rw [if_neg hj, if_neg hj]
    have hnd : s.views[n].src ∉ (s.views.take n).map Batch.src := by
      intro hm
      rw [List.mem_map] at hm
      obtain ⟨v, hv, he⟩ := hm
      obtain ⟨j, hj, rfl⟩ := List.mem_iff_getElem.1 hv
      simp only [List.length_take] at hj
      rw [List.getElem_take] at he
      have hnd := hs.srcs
      rw [List.nodup_iff_injective_getElem] at hnd
      have := @hnd ⟨j, by rw [List.length_map]; omega⟩ ⟨n, by rw [List.length_map]; omega⟩ (by simpa using he)
      have := congrArg Fin.val this
      simp only [] at this
      omega
    refine ⟨s2, ?_, i2, e1.trans e2, t2.trans t1, fun _ h => c1 (c2 h), ?_, ?_⟩
    · rw [List.range_succ, List.reverse_append]
      simp only [List.reverse_cons, List.reverse_nil, List.nil_append, List.singleton_append, List.foldlM_cons, h1]
      exact h2
    · intro q hq
      rw [List.take_add_one, List.getElem?_eq_getElem (by omega)] at hq
      simp only [Option.toList_some, List.map_append, List.map_cons, List.map_nil, List.mem_append, List.mem_singleton,
        not_or] at hq
      rw [d2 q (by rw [htake]; exact hq.1), d1 q hq.2]
    · intro j hj hjn
      by_cases hjn' : j = n
      · subst hjn'
        refine ⟨s, hs, List.getElem?_eq_getElem hj, fun cam i => ?_⟩
        rw [← o1]
        unfold Has
        rw [d2 _ (by rw [htake]; exact hnd)]
      · have hjlt : j < n := by omega
        have hj1 : j < s1.views.length := by omega
        have heq : s1.views[j] = s.views[j] := by
          have := v1 j hjlt
          rw [List.getElem?_eq_getElem hj1, List.getElem?_eq_getElem hj] at this
          exact Option.some.inj this
        obtain ⟨sj, hsj, hv, ho⟩ := o2 j hj1 hjlt
        rw [heq] at hv ho
        refine ⟨sj, hsj, hv, fun cam i => ?_⟩
        rw [ho]
        unfold Has
        rw [d1]
        intro hc
        exact hnd (hc ▸ List.mem_map.2 ⟨s.views[j], by
          rw [List.mem_take_iff_getElem]; exact ⟨j, by omega, rfl⟩, rfl⟩)

/-- One time stamp. -/
theorem process_spec {w : World} {c : Config} {s : State} {src : Nat} (last : Bool) (hs : Inv s) (hlt : src < s.data.length)
    (hsrc : src ∉ s.views.map Batch.src) :
    (∃ s', process w c s src last = .done s' ∧ Inv s' ∧ Effect w s s' ∧ s'.views.map Batch.src ⊆ s.views.map Batch.src ++ [src]) ∨
    (∃ s', process w c s src last = .diverged s' ∧ Effect w s s') := by
  unfold process
  have hadd : ∃ d b s1, addTargetView w s src = some (d, b, s1) ∧ s1.data = s.data ∧ s1.removed = s.removed := by
    unfold addTargetView
    rw [List.getElem?_eq_getElem hlt]
    simp only []
    by_cases hd : w.diverge s.clock = true
    · rw [if_pos hd]; exact ⟨_, _, _, rfl, rfl, rfl⟩
    · rw [if_neg hd]; exact ⟨_, _, _, rfl, rfl, rfl⟩
  obtain ⟨d, b, s1, ha, hd1, hr1⟩ := hadd
  rw [ha]
  cases d with
  | true => exact .inr ⟨s1, rfl, Effect.refl hd1 hr1⟩
  | false =>
    left
    simp only []
    obtain ⟨i1, -, -, hsub⟩ := inv_add hs hsrc ha
    have hinv : ∀ f, Inv { s1 with init := f } := fun f =>
      { perm := i1.perm, uids := i1.uids, rigs := i1.rigs, fresh := i1.fresh, srcs := i1.srcs }
    have hlen := i1.perm.length_eq
    have hall : ∀ f, ∃ s', (List.range s1.est.length).reverse.foldlM (filterBatch w) { s1 with init := f } = some s' ∧ Inv s' ∧
        Effect w s s' ∧ s'.views.map Batch.src ⊆ s.views.map Batch.src ++ [src] := by
      intro f
      obtain ⟨s2, h2, i2, e2, -, c2, -⟩ := pass_spec w s1.est.length _ (hinv f) (by simp [hlen])
      exact ⟨s2, h2, i2, (Effect.refl (w := w) (s := s) (s' := { s1 with init := f }) hd1 hr1).trans e2, fun _ h => hsub (c2 h)⟩
    have hnone : ∀ f, ∃ s', ([] : List Nat).foldlM (filterBatch w) { s1 with init := f } = some s' ∧ Inv s' ∧
        Effect w s s' ∧ s'.views.map Batch.src ⊆ s.views.map Batch.src ++ [src] := fun f =>
      ⟨_, rfl, hinv f, Effect.refl hd1 hr1, hsub⟩
    have hone : ∀ f, 0 < s1.est.length → ∃ s', [s1.est.length - 1].foldlM (filterBatch w) { s1 with init := f } = some s' ∧ Inv s' ∧
        Effect w s s' ∧ s'.views.map Batch.src ⊆ s.views.map Batch.src ++ [src] := by
      intro f hpos
      obtain ⟨s2, h2, i2, e2, -, -, c2, -⟩ := filterBatch_effect (w := w) (hinv f) (k := s1.est.length - 1) (by simp only []; omega)
      refine ⟨s2, ?_, i2, (Effect.refl (w := w) (s := s) (s' := { s1 with init := f }) hd1 hr1).trans e2, fun _ h => hsub (c2 h)⟩
      simp [List.foldlM_cons, h2]
    have key : ∃ s', (toCheck c s1 b last).1.foldlM (filterBatch w) { s1 with init := (toCheck c s1 b last).2 } = some s' ∧ Inv s' ∧
        Effect w s s' ∧ s'.views.map Batch.src ⊆ s.views.map Batch.src ++ [src] := by
      unfold toCheck
      by_cases h1 : (b && decide (s1.est.length > c.minViewOutlier * c.numCams) ||
          (last && c.allowEndFiltering) && decide (s1.est.length > c.minViewOutlier * c.numCams)) && c.removeOutliers
      · rw [if_pos h1]
        by_cases h2 : s1.init = true
        · rw [if_pos h2]; exact hall _
        · rw [if_neg h2]
          by_cases h3 : (last && c.allowEndFiltering) = true
          · rw [if_pos h3]; exact hall _
          · rw [if_neg h3]
            apply hone
            simp only [Bool.and_eq_true, Bool.or_eq_true, decide_eq_true_eq] at h1
            rcases h1.1 with h | h <;> omega
      · rw [if_neg h1]; exact hnone _
    obtain ⟨s', hs', r⟩ := key
    rw [hs']
    exact ⟨s', rfl, r⟩

/-- One attempt. -/
theorem attempt_spec (w : World) (c : Config) : ∀ (order : List Nat) (s : State), Inv s → (∀ q ∈ order, q < s.data.length) →
    order.Nodup → (∀ q ∈ order, q ∉ s.views.map Batch.src) →
    (∃ s', attempt w c s order = .done s' ∧ Inv s' ∧ Effect w s s') ∨ (∃ s', attempt w c s order = .diverged s' ∧ Effect w s s')
  | [], s, hs, _, _, _ => .inl ⟨s, rfl, hs, Effect.refl rfl rfl⟩
  | src :: rest, s, hs, hlt, hnd, hnew => by
    unfold attempt
    rw [List.nodup_cons] at hnd
    rcases process_spec (w := w) (c := c) rest.isEmpty hs (hlt src (by simp)) (hnew src (by simp)) with
      ⟨s1, h1, i1, e1, c1⟩ | ⟨s1, h1, e1⟩
    · rw [h1]
      simp only []
      rcases attempt_spec w c rest s1 i1 (fun q hq => by rw [e1.len]; exact hlt q (by simp [hq])) hnd.2 (by
          intro q hq hm
          rcases List.mem_append.1 (c1 hm) with h | h
          · exact hnew q (by simp [hq]) h
          · rw [List.mem_singleton.1 h] at hq; exact hnd.1 hq) with ⟨s2, h2, i2, e2⟩ | ⟨s2, h2, e2⟩
      · exact .inl ⟨s2, h2, i2, e1.trans e2⟩
      · exact .inr ⟨s2, h2, e1.trans e2⟩
    · rw [h1]
      exact .inr ⟨s1, rfl, e1⟩

theorem main_spec (w : World) (c : Config) : ∀ (left : Nat) (s : State) (n : Nat),
    (∀ m, (w.order m).Nodup ∧ ∀ q ∈ w.order m, q < s.data.length) →
    main w c left s n = .gaveUp ∨ ∃ s', main w c left s n = .result s' ∧ Inv s' ∧ Effect w s s'
  | 0, _, _, _ => .inl rfl
  | left + 1, s, n, ho => by
    unfold main
    rcases attempt_spec w c (w.order n) { s with views := [], est := [] } (inv_start s) (ho n).2 (ho n).1 (by simp) with
      ⟨s1, h1, i1, e1⟩ | ⟨s1, h1, e1⟩
    · rw [h1]
      exact .inr ⟨s1, rfl, i1, (Effect.refl (w := w) (s := s) (s' := { s with views := [], est := [] }) rfl rfl).trans e1⟩
    · rw [h1]
      simp only []
      have e0 := (Effect.refl (w := w) (s := s) (s' := { s with views := [], est := [] }) rfl rfl).trans e1
      rcases main_spec w c left s1 (n + 1) (fun m => by rw [e0.len]; exact ho m) with h2 | ⟨s2, h2, i2, e2⟩
      · exact .inl h2
      · exact .inr ⟨s2, h2, i2, e0.trans e2⟩

/-- The program has a result, and it satisfies `p`. -/
def Final.okAnd (r : Final) (p : State → Bool) : Bool :=
  match r with
  | .result s => p s
  | _ => false

theorem Final.okAnd_spec {r : Final} {p : State → Bool} (h : r.okAnd p = true) : ∃ s, r = .result s ∧ p s = true := by
  cases r <;> simp_all [Final.okAnd]

/-- The attempt was completed, and its state satisfies `p`. -/
def Res.okAnd (r : Res) (p : State → Bool) : Bool :=
  match r with
  | .done s => p s
  | _ => false

theorem Res.okAnd_spec {r : Res} {p : State → Bool} (h : r.okAnd p = true) : ∃ s, r = .done s ∧ p s = true := by
  cases r <;> simp_all [Res.okAnd]

/-! ## The claims -/

/-- **C125** Whatever the estimator answers, and in whatever order the views are taken, the program does not fail in the filter; and
at the end the views of the calibrator are the batches of the estimator, each of them once, and every view holds exactly the
corners that are left in its observations. -/
theorem C125_views (w : World) (c : Config) (data : List Rig) (ho : ∀ m, (w.order m).Nodup ∧ ∀ q ∈ w.order m, q < data.length) :
    main w c 3 (start data) 0 ≠ .error ∧ ∀ s, main w c 3 (start data) 0 = .result s → Agree s := by
  rcases main_spec w c 3 (start data) 0 ho with h | ⟨s', h, i, e⟩
  · rw [h]
    exact ⟨by simp, fun s hs => by simp at hs⟩
  · rw [h]
    refine ⟨by simp, fun s hs => ?_⟩
    rw [Final.result.injEq] at hs
    subst hs
    exact i.toAgree

/-- **C125** The corners that are missing at the end are those that are in the list of the outliers, and each of these was, when
it was checked, larger than four standard deviations of the errors of its camera. -/
theorem C125_removed (w : World) (c : Config) (data : List Rig) (ho : ∀ m, (w.order m).Nodup ∧ ∀ q ∈ w.order m, q < data.length)
    {s : State} (h : main w c 3 (start data) 0 = .result s) (src cam i : Nat) :
    (Has s.data src cam i ↔ Has data src cam i ∧ (src, cam, i) ∉ s.removed) ∧
      ((src, cam, i) ∈ s.removed → Has data src cam i ∧ WasOver w src cam i) := by
  rcases main_spec w c 3 (start data) 0 ho with h' | ⟨s', h', i', e⟩
  · rw [h'] at h; simp at h
  · rw [h', Final.result.injEq] at h
    subst h
    obtain ⟨l, hl, hm, hov⟩ := e.removed
    have hl' : s'.removed = l := by simpa [start] using hl
    rw [hl']
    have h1 := hm src cam i
    have h2 := e.sub src cam i
    have h3 := hov src cam i
    simp only [start] at h1 h2
    tauto

/-- **C125** A filter pass over all the views checks every corner of every view once: a corner is left if and only if it was not
over the threshold in the state in which its view was checked, and in this state the view was still as it was. -/
theorem C125_pass (w : World) {s : State} (hs : Inv s) :
    ∃ s', (List.range s.est.length).reverse.foldlM (filterBatch w) s = some s' ∧ Agree s' ∧
      (∀ q, q ∉ s.views.map Batch.src → s'.data[q]? = s.data[q]?) ∧
      ∀ v ∈ s.views, ∃ sv, Agree sv ∧ v ∈ sv.views ∧
        ∀ cam i, Has s'.data v.src cam i ↔ Has s.data v.src cam i ∧
          overThreshold (camErrors w sv cam) (w.err sv.clock v.src cam i) = false := by
  have hlen := hs.perm.length_eq
  obtain ⟨s', h, i, -, -, -, d, o⟩ := pass_spec w s.est.length s hs (by omega)
  refine ⟨s', h, i.toAgree, ?_, ?_⟩
  · intro q hq
    exact d q (by rw [List.take_of_length_le (by omega)]; exact hq)
  · intro v hv
    obtain ⟨j, hj, rfl⟩ := List.mem_iff_getElem.1 hv
    obtain ⟨sj, hsj, hvj, ho⟩ := o j hj (by omega)
    exact ⟨sj, hsj.toAgree, List.mem_of_getElem? hvj, ho⟩

/-- The number of the errors that are large in one coordinate. -/
theorem count_over {l : List ℚ} (h0 : l.sum = 0) : 16 * (l.filter fun x => decide (x ^ 2 > 16 * variance l)).length ≤ l.length := by
  by_cases hl : l = []
  · subst hl; simp
  have hpos : (0 : ℚ) < l.length := by exact_mod_cast List.length_pos_iff.2 hl
  have hv : variance l * l.length = (l.map fun x => x ^ 2).sum := by
    unfold variance
    rw [h0]
    simp only [zero_div, sub_zero]
    field_simp
  have hge : ∀ (V : ℚ) (l : List ℚ), 0 ≤ V → 16 * V * (l.filter fun x => decide (x ^ 2 > 16 * V)).length ≤ (l.map fun x => x ^ 2).sum := by
    intro V l hV
    induction l with
    | nil => simp
    | cons a l ih =>
      by_cases ha : a ^ 2 > 16 * V
      · rw [List.filter_cons_of_pos (by simpa using ha)]
        simp only [List.length_cons, List.map_cons, List.sum_cons]
        push_cast
        nlinarith
      · rw [List.filter_cons_of_neg (by simpa using ha)]
        simp only [List.map_cons, List.sum_cons]
        have := sq_nonneg a
        linarith
  have hV : 0 ≤ variance l := by
    unfold variance
    refine div_nonneg (List.sum_nonneg ?_) hpos.le
    intro x hx
    obtain ⟨y, -, rfl⟩ := List.mem_map.1 hx
    exact sq_nonneg _
  have h1 := hge (variance l) l hV
  rw [← hv] at h1
  rcases hV.eq_or_lt with hz | hz
  · have hsum : (l.map fun x => x ^ 2).sum = 0 := by rw [← hv, ← hz]; ring
    have hall : ∀ x ∈ l, x ^ 2 = 0 := by
      intro x hx
      have := List.single_le_sum (l := l.map fun x => x ^ 2) (by
        intro y hy
        obtain ⟨z, -, rfl⟩ := List.mem_map.1 hy
        exact sq_nonneg z) (x ^ 2) (List.mem_map.2 ⟨x, hx, rfl⟩)
      have := sq_nonneg x
      linarith
    have : (l.filter fun x => decide (x ^ 2 > 16 * variance l)) = [] := by
      rw [List.filter_eq_nil_iff]
      intro x hx
      rw [← hz, hall x hx]
      simp
    rw [this]; simp
  · have : (16 * (l.filter fun x => decide (x ^ 2 > 16 * variance l)).length : ℚ) ≤ l.length := by
      by_contra hc
      push Not at hc
      nlinarith
    exact_mod_cast this

/-- **C125, in part** If the errors of a camera are centred, at most one in eight is over the threshold. -/
theorem C125_few_partial (all : List (ℚ × ℚ)) (hx : (all.map Prod.fst).sum = 0) (hy : (all.map Prod.snd).sum = 0) :
    8 * (all.filter fun e => overThreshold all e).length ≤ all.length := by
  have h1 := count_over hx
  have h2 := count_over hy
  have hcount : (all.filter fun e => overThreshold all e).length ≤
      ((all.map Prod.fst).filter fun x => decide (x ^ 2 > 16 * variance (all.map Prod.fst))).length +
      ((all.map Prod.snd).filter fun x => decide (x ^ 2 > 16 * variance (all.map Prod.snd))).length := by
    rw [← List.countP_eq_length_filter, ← List.countP_eq_length_filter, ← List.countP_eq_length_filter, List.countP_map,
      List.countP_map]
    unfold overThreshold
    generalize variance (all.map Prod.fst) = V1
    generalize variance (all.map Prod.snd) = V2
    clear h1 h2 hx hy
    induction all with
    | nil => simp
    | cons a l ih =>
      simp only [List.countP_cons, Function.comp_def]
      simp only [Function.comp_def] at ih
      by_cases p : a.1 ^ 2 > 16 * V1 <;> by_cases q : a.2 ^ 2 > 16 * V2 <;>
        simp only [p, q, decide_true, decide_false, Bool.or_true, Bool.or_false, Bool.true_or, if_true, if_false,
          Bool.false_eq_true, Bool.or_self] <;> omega
  simp only [List.length_map] at h1 h2
  omega

/-- Errors that are all the same, except for the second camera of the second view. -/
def shifted : World := ⟨fun _ => true, fun _ => false, fun _ _ _ _ => (1, 0), fun _ => [0]⟩

/-- **C125** The standard deviation is taken about the mean, but the errors are compared with zero: if all the corners have the
same error of one pixel, all of them are removed. -/
theorem C125_mean_counterexample : ∃ s, main shifted ⟨true, true, 0, 1⟩ 3 (start [[(0, [0, 1, 2])]]) 0 = .result s ∧
    s.data = [[(0, [])]] ∧ s.removed.length = 3 := by
  obtain ⟨s, h, hp⟩ := Final.okAnd_spec (p := fun s => decide (s.data = [[(0, [])]] ∧ s.removed.length = 3))
    (show (main shifted ⟨true, true, 0, 1⟩ 3 (start [[(0, [0, 1, 2])]]) 0).okAnd _ = true by decide +kernel)
  exact ⟨s, h, of_decide_eq_true hp⟩

/-- In the first attempt the error of corner 0 of the first view is large, and the optimisation diverges at the third view; after
that it is the error of corner 1. -/
def restart : World := ⟨fun _ => true, fun k => k == 4, fun k v _ i =>
  if v = 0 ∧ i = (if k ≤ 4 then 0 else 1) then (100, 0) else (0, 0), fun _ => [0, 1, 2]⟩

/-- **C125** An attempt after a restart does not start from where the first one did: the corner that was removed before the
divergence is missing, although the results it was judged by are thrown away, it is counted in the list of the outliers, and the
check of all the views when there are enough of them is left out. Here the second attempt alone, with the same answers of the
estimator, finds the outlier and keeps the good corner; after the restart it is the other way round. -/
theorem C125_restart_counterexample :
    ∃ s t, main restart ⟨true, false, 1, 1⟩ 3 (start (List.replicate 3 [(0, List.range 20)])) 0 = .result s ∧
      attempt restart ⟨true, false, 1, 1⟩ { start (List.replicate 3 [(0, List.range 20)]) with clock := 5 } [0, 1, 2] = .done t ∧
      s.removed = [(0, 0, 0)] ∧ s.data = [(0, (List.range 20).erase 0)] :: List.replicate 2 [(0, List.range 20)] ∧
      t.removed = [(0, 0, 1)] ∧ t.data = [(0, (List.range 20).erase 1)] :: List.replicate 2 [(0, List.range 20)] := by
  obtain ⟨s, h, hp⟩ := Final.okAnd_spec
    (p := fun s => decide (s.removed = [(0, 0, 0)] ∧
      s.data = [(0, (List.range 20).erase 0)] :: List.replicate 2 [(0, List.range 20)]))
    (show (main restart ⟨true, false, 1, 1⟩ 3 (start (List.replicate 3 [(0, List.range 20)])) 0).okAnd _ = true by
      decide +kernel)
  obtain ⟨t, ht, hq⟩ := Res.okAnd_spec
    (p := fun t => decide (t.removed = [(0, 0, 1)] ∧
      t.data = [(0, (List.range 20).erase 1)] :: List.replicate 2 [(0, List.range 20)]))
    (show (attempt restart ⟨true, false, 1, 1⟩ { start (List.replicate 3 [(0, List.range 20)]) with clock := 5 }
      [0, 1, 2]).okAnd _ = true by decide +kernel)
  exact ⟨s, t, h, ht, (of_decide_eq_true hp).1, (of_decide_eq_true hp).2, of_decide_eq_true hq⟩

/-- For the example: one large error. -/
def oneLarge : World :=
  ⟨fun _ => true, fun _ => false, fun _ v c i => if v = 0 ∧ c = 0 ∧ i = 3 then (9, 0) else (0, 0), fun _ => [1, 0]⟩

/-- The hypotheses of `C125_views` and `C125_removed`: two views of two cameras; an outlier is removed, and the view is kept. -/
example : (∀ m, (oneLarge.order m).Nodup ∧ ∀ q ∈ oneLarge.order m, q < 2) ∧ ∃ s,
    main oneLarge ⟨true, true, 0, 2⟩ 3 (start [[(0, List.range 30), (1, [0, 2])], [(0, List.range 30)]]) 0 = .result s ∧
    s.removed = [(0, 0, 3)] ∧ s.views.length = 2 := by
  refine ⟨fun m => ⟨by simp [oneLarge], by simp [oneLarge]⟩, ?_⟩
  obtain ⟨s, h, hp⟩ := Final.okAnd_spec (p := fun s => decide (s.removed = [(0, 0, 3)] ∧ s.views.length = 2))
    (show (main oneLarge ⟨true, true, 0, 2⟩ 3 (start [[(0, List.range 30), (1, [0, 2])], [(0, List.range 30)]]) 0).okAnd _ = true by
      decide +kernel)
  exact ⟨s, h, of_decide_eq_true hp⟩

/-- The hypothesis of `C125_pass`. -/
example : Inv ⟨[[(0, [0, 1])]], [⟨0, 0, [(0, [0, 1])]⟩], [⟨0, 0, [(0, [0, 1])]⟩], 1, 1, [], true⟩ :=
  { perm := .refl _, uids := by decide, rigs := by decide, fresh := by decide, srcs := by decide }

/-- The hypotheses of `C125_few_partial`. -/
example : ((((1 : ℚ), (2 : ℚ)) :: [(-1, -2)]).map Prod.fst).sum = 0 ∧ ((((1 : ℚ), (2 : ℚ)) :: [(-1, -2)]).map Prod.snd).sum = 0 := by
  norm_num

end Kalibr.App.Filter
