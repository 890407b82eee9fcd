import Verif.Common
import Verif.Tactics
import Mathlib.Data.Finset.Basic
import Mathlib.Data.Finset.Card
import Mathlib.Algebra.Order.Field.Rat
import Mathlib.Algebra.Order.AbsoluteValue.Basic

/-!
# The table of observations of a camera system (C121)

`aslam_offline_calibration/kalibr/python/kalibr_camera_calibration/ObsDb.py` (cited as `ObsDb.py`). Times are exact. An
observation is its time and the set of the numbers of its corners; what else it holds does not matter here. The image points
are in `Verif.App.View`.
-/

namespace Kalibr.App

/-- `acv.GridCalibrationTargetObservation`: `time().toSec()` and `getCornersIdx()`. The name tells observations apart. -/
structure Obs where
  name : Nat
  time : ℚ
  corners : Finset Nat
  deriving DecidableEq

/-- ObsDb.py 63-65: the entry of a camera in a row. -/
structure Entry where
  cam : Nat
  obsId : Nat
  corners : Finset Nat

/-- A row: `self.targetViews[timestamp]`. The entries are in the order of the insertion. -/
structure Row where
  stamp : ℚ
  entries : List Entry

/-- ObsDb.py 23-29. `cams` are the keys of `self.observations`, in the order of their insertion; `logged` counts the errors. -/
structure Db where
  maxDelta : ℚ
  cams : List Nat
  archive : Nat → List Obs
  rows : List Row
  logged : Nat

/-- ObsDb.py 23-29. -/
def Db.empty (maxDelta : ℚ) : Db := ⟨maxDelta, [], fun _ => [], [], 0⟩

/-- `min(timestamps_table, key=lambda x: abs(x-timestamp_obs))`: the first that is nearest. -/
def nearest (t : ℚ) (r : Row) (rs : List Row) : ℚ :=
  rs.foldl (fun best x => if |x.stamp - t| < |best - t| then x.stamp else best) r.stamp

/-- ObsDb.py 44-49. -/
def Db.nearestTimestamp (db : Db) (t : ℚ) : ℚ :=
  match db.rows with
  | [] => t + 5 * (db.maxDelta + 1)
  | r :: rs => nearest t r rs

/-- ObsDb.py 61-69 on one row. -/
def Row.fill (r : Row) (cam obsId : Nat) (corners : Finset Nat) : Row :=
  if r.entries.any (fun e => e.cam == cam) then r else { r with entries := r.entries ++ [⟨cam, obsId, corners⟩] }

/-- `self.targetViews[timestamp]`: the row of a time. A key is there once. -/
def Db.row? (db : Db) (stamp : ℚ) : Option Row := db.rows.find? fun r => r.stamp == stamp

/-- ObsDb.py 31-69, `addObservation`. -/
def Db.add (db : Db) (cam : Nat) (obs : Obs) : Db :=
  let cams := if cam ∈ db.cams then db.cams else db.cams ++ [cam]
  let archive := fun c => if c = cam then db.archive c ++ [obs] else db.archive c
  let obsIdx := (archive cam).length - 1
  let near := db.nearestTimestamp obs.time
  let stamp := if |near - obs.time| ≤ db.maxDelta then near else obs.time
  let rows := if |near - obs.time| ≤ db.maxDelta then db.rows
    else if db.rows.any (fun r => r.stamp == obs.time) then
      db.rows.map fun r => if r.stamp = obs.time then ⟨r.stamp, []⟩ else r
    else db.rows ++ [⟨obs.time, []⟩]
  let second := rows.any fun r => r.stamp == stamp && r.entries.any fun e => e.cam == cam
  { db with
    cams := cams
    archive := archive
    rows := rows.map fun r => if r.stamp = stamp then r.fill cam obsIdx obs.corners else r
    logged := if second then db.logged + 1 else db.logged }

/-- ObsDb.py 86, `numCameras`. -/
def Db.numCameras (db : Db) : Nat := db.cams.length

/-- ObsDb.py 89-90, `getAllViewTimestamps`. -/
def Db.stamps (db : Db) : List ℚ := db.rows.map Row.stamp

/-- The entry of a camera in a row. -/
def Row.entry? (r : Row) (cam : Nat) : Option Entry := r.entries.find? fun e => e.cam == cam

/-- ObsDb.py 97-103, `getObservationAtTime`, on a row; `none` is the `KeyError`. -/
def Db.obsOf (db : Db) (r : Row) (cam : Nat) : Option Obs :=
  match r.entry? cam with
  | none => none
  | some e => (db.archive cam)[e.obsId]?

/-- ObsDb.py 76-82, `getAllObsAtTimestamp`. -/
def Db.allObsAt (db : Db) (stamp : ℚ) : Out (List (Nat × Obs)) :=
  match db.row? stamp with
  | none => .raise
  | some r => r.entries.foldlM (fun acc e =>
      match (db.archive e.cam)[e.obsId]? with
      | none => .raise
      | some o => .ok (acc ++ [(e.cam, o)])) []

/-- ObsDb.py 112-126, `getAllObsTwoCams`. -/
def Db.twoCams (db : Db) (a b : Nat) : List (Option Obs × Option Obs) :=
  db.rows.filterMap fun r =>
    match db.obsOf r a, db.obsOf r b with
    | none, none => none
    | x, y => some (x, y)

/-- ObsDb.py 129-139, `getAllObsCam`. -/
def Db.oneCam (db : Db) (cam : Nat) : List Obs := db.rows.filterMap fun r => db.obsOf r cam

/-- A history: the observations in the order in which they are added. -/
def Db.addAll (maxDelta : ℚ) (h : List (Nat × Obs)) : Db := h.foldl (fun db x => db.add x.1 x.2) (Db.empty maxDelta)

/-! ## Proofs -/

theorem nearest_spec (t : ℚ) (r : Row) (rs : List Row) : (∃ x ∈ r :: rs, x.stamp = nearest t r rs) ∧
    ∀ x ∈ r :: rs, |nearest t r rs - t| ≤ |x.stamp - t| := by
  have key : ∀ (l : List Row) (b : ℚ), (l.foldl (fun best x => if |x.stamp - t| < |best - t| then x.stamp else best) b = b ∨
      ∃ x ∈ l, x.stamp = l.foldl (fun best x => if |x.stamp - t| < |best - t| then x.stamp else best) b) ∧
      |l.foldl (fun best x => if |x.stamp - t| < |best - t| then x.stamp else best) b - t| ≤ |b - t| ∧
      ∀ x ∈ l, |l.foldl (fun best x => if |x.stamp - t| < |best - t| then x.stamp else best) b - t| ≤ |x.stamp - t| := by
    intro l
    induction l with
    | nil => intro b; simp
    | cons a l ih =>
      intro b
      rw [List.foldl_cons]
      by_cases h : |a.stamp - t| < |b - t|
      · simp only [if_pos h]
        obtain ⟨h1, h2, h3⟩ := ih a.stamp
        refine ⟨Or.inr ?_, le_trans h2 h.le, ?_⟩
        · rcases h1 with h1 | ⟨x, hx, h1⟩
          · exact ⟨a, by simp, h1.symm⟩
          · exact ⟨x, by simp [hx], h1⟩
        · intro x hx
          rcases List.mem_cons.1 hx with rfl | hx
          · exact h2
          · exact h3 x hx
      · simp only [if_neg h]
        obtain ⟨h1, h2, h3⟩ := ih b
        refine ⟨?_, h2, ?_⟩
        · rcases h1 with h1 | ⟨x, hx, h1⟩
          · exact Or.inl h1
          · exact Or.inr ⟨x, by simp [hx], h1⟩
        · intro x hx
          rcases List.mem_cons.1 hx with rfl | hx
          · exact le_trans h2 (not_lt.1 h)
          · exact h3 x hx
  obtain ⟨h1, h2, h3⟩ := key rs r.stamp
  refine ⟨?_, ?_⟩
  · rcases h1 with h1 | ⟨x, hx, h1⟩
    · exact ⟨r, by simp, h1.symm⟩
    · exact ⟨x, by simp [hx], h1⟩
  · intro x hx
    rcases List.mem_cons.1 hx with rfl | hx
    · exact h2
    · exact h3 x hx

/-- Near: some row is within the tolerance, then the nearest is taken; or none is, and there is no such row. -/
theorem nearest_cases (db : Db) (hd : 0 ≤ db.maxDelta) (t : ℚ) :
    (|db.nearestTimestamp t - t| ≤ db.maxDelta ∧ ∃ r ∈ db.rows, r.stamp = db.nearestTimestamp t ∧
      ∀ x ∈ db.rows, |r.stamp - t| ≤ |x.stamp - t|) ∨
    (¬ |db.nearestTimestamp t - t| ≤ db.maxDelta ∧ ∀ r ∈ db.rows, db.maxDelta < |r.stamp - t|) := by
  unfold Db.nearestTimestamp
  cases hr : db.rows with
  | nil =>
    right
    simp only [List.not_mem_nil, false_implies, implies_true, and_true, add_sub_cancel_left]
    rw [abs_of_nonneg (by linarith)]
    linarith
  | cons r rs =>
    obtain ⟨⟨x, hx, h1⟩, h2⟩ := nearest_spec t r rs
    simp only []
    by_cases h : |nearest t r rs - t| ≤ db.maxDelta
    · left
      exact ⟨h, x, hx, h1, fun y hy => by rw [h1]; exact h2 y hy⟩
    · right
      exact ⟨h, fun y hy => lt_of_lt_of_le (not_le.1 h) (h2 y hy)⟩

/-- The two ways of an addition: into row `k`, or into a new row. -/
theorem add_cases (db : Db) (hd : 0 ≤ db.maxDelta) (cam : Nat) (obs : Obs)
    (hsep : db.rows.Pairwise fun a b => a.stamp ≠ b.stamp) :
    (∃ pre r post, db.rows = pre ++ r :: post ∧ |r.stamp - obs.time| ≤ db.maxDelta ∧
      (∀ x ∈ db.rows, |r.stamp - obs.time| ≤ |x.stamp - obs.time|) ∧
      (db.add cam obs).rows = pre ++ r.fill cam (db.archive cam).length obs.corners :: post ∧
      (db.add cam obs).logged = if r.entries.any (fun e => e.cam == cam) then db.logged + 1 else db.logged) ∨
    ((∀ r ∈ db.rows, db.maxDelta < |r.stamp - obs.time|) ∧
      (db.add cam obs).rows = db.rows ++ [⟨obs.time, [⟨cam, (db.archive cam).length, obs.corners⟩]⟩] ∧
      (db.add cam obs).logged = db.logged) := by
  have hlen : (db.archive cam ++ [obs]).length - 1 = (db.archive cam).length := by simp
  rcases nearest_cases db hd obs.time with ⟨h, r, hr, hst, hmin⟩ | ⟨h, hall⟩
  · left
    obtain ⟨pre, post, hpp⟩ := List.append_of_mem hr
    refine ⟨pre, r, post, hpp, by rw [hst]; exact h, hmin, ?_, ?_⟩
    · rw [hpp, List.pairwise_append, List.pairwise_cons] at hsep
      obtain ⟨h1, ⟨h2, h3⟩, h4⟩ := hsep
      have h' : |r.stamp - obs.time| ≤ db.maxDelta := by rw [hst]; exact h
      simp only [Db.add, if_true, hlen, ← hst, if_pos h']
      rw [hpp, List.map_append, List.map_cons, if_pos rfl]
      congr 1
      · conv_rhs => rw [← List.map_id pre]
        refine List.map_congr_left fun x hx => ?_
        rw [if_neg (h4 x hx r (by simp))]
        rfl
      · congr 1
        conv_rhs => rw [← List.map_id post]
        refine List.map_congr_left fun x hx => ?_
        rw [if_neg (Ne.symm (h2 x hx))]
        rfl
    · simp only [Db.add, if_pos h]
      have : (db.rows.any fun r' => r'.stamp == db.nearestTimestamp obs.time && r'.entries.any fun e => e.cam == cam) =
          r.entries.any fun e => e.cam == cam := by
        rw [Bool.eq_iff_iff, List.any_eq_true]
        constructor
        · rintro ⟨x, hx, hx2⟩
          simp only [Bool.and_eq_true, beq_iff_eq] at hx2
          have : x = r := by
            rw [hpp, List.pairwise_append, List.pairwise_cons] at hsep
            obtain ⟨h1, ⟨h2, h3⟩, h4⟩ := hsep
            rw [hpp] at hx
            rcases List.mem_append.1 hx with hx | hx
            · exact absurd (hx2.1.trans hst.symm) (h4 x hx r (by simp))
            · rcases List.mem_cons.1 hx with hx | hx
              · exact hx
              · exact absurd (hx2.1.trans hst.symm).symm (h2 x hx)
          rw [← this]; exact hx2.2
        · intro hx
          exact ⟨r, hr, by simp [hst, hx]⟩
      rw [this]
  · right
    have hno : ∀ r ∈ db.rows, r.stamp ≠ obs.time := fun r hr he => by
      have := hall r hr
      rw [he, sub_self, abs_zero] at this
      linarith
    have hany : ¬ (db.rows.any fun r => r.stamp == obs.time) = true := by
      rw [List.any_eq_true]
      rintro ⟨x, hx, hx2⟩
      exact hno x hx (by simpa using hx2)
    refine ⟨hall, ?_, ?_⟩
    · simp only [Db.add, if_neg h, if_neg hany, if_true, hlen]
      rw [List.map_append, List.map_singleton, if_pos rfl]
      congr 1
      conv_rhs => rw [← List.map_id db.rows]
      refine List.map_congr_left fun x hx => ?_
      rw [if_neg (hno x hx)]
      rfl
    · simp only [Db.add, if_neg h, if_neg hany]
      rw [if_neg]
      rw [List.any_eq_true]
      rintro ⟨x, hx, hx2⟩
      simp only [Bool.and_eq_true, beq_iff_eq] at hx2
      rcases List.mem_append.1 hx with hx | hx
      · exact hno x hx hx2.1
      · rw [List.mem_singleton] at hx
        subst hx
        simp at hx2

end Kalibr.App
