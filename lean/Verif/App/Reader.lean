import Verif.Common
import Verif.Tactics
import Mathlib.Data.List.Sort
import Mathlib.Order.Defs.LinearOrder
import Mathlib.Algebra.Order.Field.Rat

/-!
# The readers of recorded data (C119)

`aslam_offline_calibration/kalibr/python/kalibr_common/ImageDatasetReader.py` (cited as `IDR.py`) and, the same line for
line, `ImuDatasetReader.py`.

A recording is the list of the header stamps of the messages of the topic, in the order of the index of the bag. A message is
named by its place there. Stamps are exact (`double` rounds the nanoseconds since 1970 to multiples of 256). Not modelled: the
correction of the stamps, the shuffled reading, and the conversion of the images.
-/

namespace Kalibr.App

/-- `data.header.stamp`: seconds and nanoseconds. -/
abbrev Stamp := Nat × Nat

/-- IDR.py 62: in nanoseconds. -/
def nanos (s : Stamp) : Nat := s.1 * 1000000000 + s.2

/-- IDR.py 77: in seconds. -/
def seconds (s : Stamp) : ℚ := s.1 + s.2 / 1000000000

/-- `self.bag._read_message(self.index[idx].position)`. -/
def stampAt (stamps : List Stamp) (idx : Nat) : Stamp := stamps.getD idx (0, 0)

/-- The order of pairs. -/
def pairLe (a b : Nat × Nat) : Prop := a.1 < b.1 ∨ (a.1 = b.1 ∧ a.2 ≤ b.2)

instance : DecidableRel pairLe := fun a b => inferInstanceAs (Decidable (a.1 < b.1 ∨ (a.1 = b.1 ∧ a.2 ≤ b.2)))

/-- IDR.py 56-70, `sortByTime`. -/
def sortByTime (stamps : List Stamp) (indices : List Nat) : List Nat :=
  ((indices.map fun i => (nanos (stampAt stamps i), i)).insertionSort pairLe).map Prod.snd

/-- IDR.py 72-100, `truncateIndicesFromTime`. The least of no stamps is an exception. -/
def truncateIndicesFromTime (stamps : List Stamp) (indices : List Nat) (fromTo : ℚ × ℚ) : Out (List Nat) :=
  match indices.map fun i => seconds (stampAt stamps i) with
  | [] => .raise
  | t :: ts =>
    let bagstart := ts.foldl min t
    if fromTo.2 ≤ fromTo.1 then .raise
    else .ok ((List.range (t :: ts).length).filter fun idx =>
      bagstart + fromTo.1 ≤ (t :: ts).getD idx 0 ∧ (t :: ts).getD idx 0 ≤ bagstart + fromTo.2)

/-- IDR.py 29-53 and 106-107: the messages that are delivered, in order. -/
def readDataset (stamps : List Stamp) (fromTo : Option (ℚ × ℚ)) : Out (List Nat) :=
  let indices := sortByTime stamps (List.range stamps.length)
  match fromTo with
  | none => .ok indices
  | some w => truncateIndicesFromTime stamps indices w

/-! ## Specification -/

/-- Message `a` is to be delivered before message `b`: its stamp is earlier, or the same and it was recorded before. -/
def Before (stamps : List Stamp) (a b : Nat) : Prop :=
  seconds (stampAt stamps a) < seconds (stampAt stamps b) ∨ (seconds (stampAt stamps a) = seconds (stampAt stamps b) ∧ a < b)

/-- `t0` is the earliest stamp of the recording. -/
def Starts (stamps : List Stamp) (t0 : ℚ) : Prop :=
  (∃ s ∈ stamps, seconds s = t0) ∧ ∀ s ∈ stamps, t0 ≤ seconds s

/-! ## Proofs -/

theorem seconds_nanos (s : Stamp) : (nanos s : ℚ) = seconds s * 1000000000 := by
  simp only [nanos, seconds]
  push_cast
  ring

theorem nanos_lt {a b : Stamp} : nanos a < nanos b ↔ seconds a < seconds b := by
  rw [← Nat.cast_lt (α := ℚ), seconds_nanos, seconds_nanos]
  constructor <;> intro h <;> linarith

theorem nanos_eq {a b : Stamp} : nanos a = nanos b ↔ seconds a = seconds b := by
  rw [← Nat.cast_inj (R := ℚ), seconds_nanos, seconds_nanos]
  constructor <;> intro h <;> linarith

instance : Std.Total pairLe := ⟨fun a b => by unfold pairLe; omega⟩

instance : IsTrans (Nat × Nat) pairLe := ⟨fun a b c h1 h2 => by unfold pairLe at *; omega⟩

theorem sortByTime_perm (stamps : List Stamp) (indices : List Nat) : (sortByTime stamps indices).Perm indices := by
  rw [sortByTime]
  refine ((List.perm_insertionSort pairLe _).map Prod.snd).trans ?_
  rw [List.map_map]
  exact List.Perm.of_eq (List.map_id _)

theorem sortByTime_before (stamps : List Stamp) {indices : List Nat} (hn : indices.Nodup) :
    (sortByTime stamps indices).Pairwise (Before stamps) := by
  have hs := List.pairwise_insertionSort pairLe (indices.map fun i => (nanos (stampAt stamps i), i))
  have hnd : (sortByTime stamps indices).Nodup := (sortByTime_perm stamps indices).nodup_iff.2 hn
  rw [sortByTime] at hnd ⊢
  rw [List.pairwise_map]
  rw [List.Nodup, List.pairwise_map] at hnd
  have hmem : ∀ p ∈ (indices.map fun i => (nanos (stampAt stamps i), i)).insertionSort pairLe, p.1 = nanos (stampAt stamps p.2) := by
    intro p hp
    rw [(List.perm_insertionSort pairLe _).mem_iff, List.mem_map] at hp
    obtain ⟨i, -, rfl⟩ := hp
    rfl
  refine (List.pairwise_iff_getElem.2 fun i j hi hj hij => ?_)
  have h1 := List.pairwise_iff_getElem.1 hs i j hi hj hij
  have h2 := List.pairwise_iff_getElem.1 hnd i j hi hj hij
  have m1 := hmem _ (List.getElem_mem hi)
  have m2 := hmem _ (List.getElem_mem hj)
  rcases h1 with h | ⟨h, h'⟩
  · rw [m1, m2, nanos_lt] at h
    exact Or.inl h
  · rw [m1, m2, nanos_eq] at h
    exact Or.inr ⟨h, lt_of_le_of_ne h' h2⟩

/-- **C119** Without a window every message is delivered, once, in the order of the header stamps. -/
theorem C119_all (stamps : List Stamp) : ∃ l, readDataset stamps none = .ok l ∧ l.Perm (List.range stamps.length) ∧
    l.Pairwise (Before stamps) :=
  ⟨_, rfl, sortByTime_perm _ _, sortByTime_before _ List.nodup_range⟩

theorem foldl_min_spec (l : List ℚ) (t : ℚ) : (l.foldl min t ∈ t :: l) ∧ ∀ x ∈ t :: l, l.foldl min t ≤ x := by
  induction l generalizing t with
  | nil => simp
  | cons a l ih =>
    obtain ⟨h1, h2⟩ := ih (min t a)
    rw [List.foldl_cons]
    refine ⟨?_, ?_⟩
    · rcases List.mem_cons.1 h1 with h | h
      · rcases min_choice t a with h' | h'
        · rw [h, h']; simp
        · rw [h, h']; simp
      · simp [h]
    · intro x hx
      have h3 := h2 (min t a) (by simp)
      rcases List.mem_cons.1 hx with rfl | hx
      · exact le_trans h3 (min_le_left _ _)
      · rcases List.mem_cons.1 hx with rfl | hx
        · exact le_trans h3 (min_le_right _ _)
        · exact h2 x (by simp [hx])

/-- The sorted order of a recording that is in order is the order of the recording. -/
theorem sortByTime_id {stamps : List Stamp} (hs : stamps.Pairwise fun a b => seconds a ≤ seconds b) :
    sortByTime stamps (List.range stamps.length) = List.range stamps.length := by
  have hp := sortByTime_perm stamps (List.range stamps.length)
  have hb := sortByTime_before stamps (indices := List.range stamps.length) List.nodup_range
  have hr : (List.range stamps.length).Pairwise (Before stamps) := by
    refine List.pairwise_iff_getElem.2 fun i j hi hj hij => ?_
    rw [List.length_range] at hi hj
    have h := List.pairwise_iff_getElem.1 hs i j hi hj hij
    simp only [List.getElem_range, Before, stampAt, List.getD, List.getElem?_eq_getElem hi, List.getElem?_eq_getElem hj,
      Option.getD_some]
    rcases lt_or_eq_of_le h with h | h
    · exact Or.inl h
    · exact Or.inr ⟨h, hij⟩
  refine List.Perm.eq_of_pairwise (fun a b _ _ h1 h2 => ?_) hb hr hp
  rcases h1 with h1 | ⟨h1, h1'⟩ <;> rcases h2 with h2 | ⟨h2, h2'⟩
  · exact absurd h1 (not_lt.2 (le_of_lt h2))
  · rw [h2] at h1; exact absurd h1 (lt_irrefl _)
  · rw [h1] at h2; exact absurd h2 (lt_irrefl _)
  · omega

/-- **C119, in part** If the messages were recorded in the order of their header stamps, a window delivers exactly the messages
of which the stamp is in the window, counted from the first stamp, in order. -/
theorem C119_window_partial {stamps : List Stamp} {fromTo : ℚ × ℚ} {l : List Nat}
    (hs : stamps.Pairwise fun a b => seconds a ≤ seconds b) (h : readDataset stamps (some fromTo) = .ok l) :
    ∃ t0, Starts stamps t0 ∧ l.Pairwise (Before stamps) ∧ l.Nodup ∧ ∀ i, i ∈ l ↔ i < stamps.length ∧
      t0 + fromTo.1 ≤ seconds (stampAt stamps i) ∧ seconds (stampAt stamps i) ≤ t0 + fromTo.2 := by
  have hid := sortByTime_id hs
  have hb := sortByTime_before stamps (indices := List.range stamps.length) List.nodup_range
  rw [hid] at hb
  simp only [readDataset, hid, truncateIndicesFromTime] at h
  have hmap : (List.range stamps.length).map (fun i => seconds (stampAt stamps i)) = stamps.map seconds := by
    apply List.ext_getElem
    · simp
    · intro i h1 h2
      rw [List.length_map] at h2
      simp [stampAt, List.getD, List.getElem?_eq_getElem h2]
  rw [hmap] at h
  rcases stamps with _ | ⟨s, ss⟩
  · simp at h
  · simp only [List.map_cons] at h
    by_cases hw : fromTo.2 ≤ fromTo.1
    · rw [if_pos hw] at h; cases h
    rw [if_neg hw] at h
    simp only [Out.ok.injEq] at h
    obtain ⟨hm1, hm2⟩ := foldl_min_spec (ss.map seconds) (seconds s)
    obtain ⟨t0, ht0⟩ : ∃ t0, t0 = (ss.map seconds).foldl min (seconds s) := ⟨_, rfl⟩
    rw [← ht0] at h hm1 hm2
    have hlen : (seconds s :: ss.map seconds).length = (s :: ss).length := by simp
    rw [hlen] at h
    refine ⟨t0, ⟨?_, ?_⟩, ?_, ?_, fun i => ?_⟩
    · rw [← List.map_cons, List.mem_map] at hm1
      exact hm1
    · intro x hx
      exact hm2 _ (by rw [← List.map_cons]; exact List.mem_map_of_mem hx)
    · rw [← h]; exact hb.filter _
    · rw [← h]; exact List.nodup_range.filter _
    · rw [← h, List.mem_filter, List.mem_range]
      refine and_congr_right fun hi => ?_
      have : (seconds s :: ss.map seconds).getD i 0 = seconds (stampAt (s :: ss) i) := by
        rw [← List.map_cons, stampAt, List.getD, List.getD, List.getElem?_map, List.getElem?_eq_getElem hi]
        rfl
      rw [this]
      simp

/-- **C119** An empty recording, or a window that does not end after it starts, is an exception. -/
theorem C119_rejected (stamps : List Stamp) (fromTo : ℚ × ℚ) :
    readDataset stamps (some fromTo) = .raise ↔ stamps = [] ∨ fromTo.2 ≤ fromTo.1 := by
  have hlen : (sortByTime stamps (List.range stamps.length)).length = stamps.length := by
    rw [(sortByTime_perm _ _).length_eq, List.length_range]
  simp only [readDataset, truncateIndicesFromTime]
  cases hc : (sortByTime stamps (List.range stamps.length)).map fun i => seconds (stampAt stamps i) with
  | nil =>
    have := congrArg List.length hc
    rw [List.length_map, hlen] at this
    simp [List.length_eq_zero_iff.1 this]
  | cons t ts =>
    have := congrArg List.length hc
    rw [List.length_map, hlen] at this
    have hne : stamps ≠ [] := by rintro rfl; simp at this
    by_cases hw : fromTo.2 ≤ fromTo.1
    · simp [hw]
    · simp [hw, hne]

/-- **C119** With a window the places in the sorted list are taken for places in the recording: when two messages were not
recorded in the order of their stamps, a message outside the window is delivered and one inside is not, and out of order. Here
the stamps are 10, 12, 11 and 13 seconds and the window is from 0 to 1. -/
theorem C119_window_counterexample : ∃ (stamps : List Stamp) (fromTo : ℚ × ℚ) (l : List Nat), Starts stamps 10 ∧
    readDataset stamps (some fromTo) = .ok l ∧
    (∃ i ∈ l, ¬ seconds (stampAt stamps i) ≤ 10 + fromTo.2) ∧
    ∃ i, i < stamps.length ∧ 10 + fromTo.1 ≤ seconds (stampAt stamps i) ∧ seconds (stampAt stamps i) ≤ 10 + fromTo.2 ∧ i ∉ l := by
  refine ⟨[(10, 0), (12, 0), (11, 0), (13, 0)], (0, 1), [0, 1], ?_, by decide +kernel, ⟨1, by decide, by decide +kernel⟩,
    ⟨2, by decide, by decide +kernel, by decide +kernel, by decide⟩⟩
  simp [Starts, seconds]
  norm_num

/-- The hypotheses of `C119_window_partial`: of five messages three are in the window. -/
example : readDataset [(10, 0), (10, 500000000), (11, 0), (11, 250000000), (13, 0)] (some (1 / 2, 5 / 4)) = .ok [1, 2, 3] ∧
    ([(10, 0), (10, 500000000), (11, 0), (11, 250000000), (13, 0)] : List Stamp).Pairwise fun a b => seconds a ≤ seconds b := by
  decide +kernel

end Kalibr.App
