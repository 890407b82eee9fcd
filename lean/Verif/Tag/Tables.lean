import Verif.Tag.Distance
import Verif.Tag.Distance36h9

/-! # Facts about the shipped code tables -/

namespace Kalibr.Tag

theorem t16h5_check : check 4 20 5 t16h5 = true := by decide +kernel

theorem t25h7_check : check 5 26 7 t25h7 = true := by decide +kernel

theorem t25h9_check : check 5 26 9 t25h9 = true := by decide +kernel

/-! The largest table is examined in pieces, to bound the memory of the kernel. -/

theorem t36h11_lt : allLt (2 ^ 36) t36h11 = true := by decide +kernel

theorem t36h11_later :
    (force (pack 37 (t36h11.map fun _ => 1)) fun R => force (pack 37 t36h11) fun P =>
      checkLater 37 36 11 t36h11 R P) = true := by decide +kernel

/-- The rotations of some codes against the whole table. -/
def turned36h11 (l : List Nat) : Bool :=
  force (pack 37 (t36h11.map fun _ => 1)) fun R => force (pack 37 t36h11) fun P =>
    checkTurned 6 37 36 11 R P l

theorem t36h11_turned0 : turned36h11 (t36h11.take 120) = true := by decide +kernel
theorem t36h11_turned1 : turned36h11 ((t36h11.drop 120).take 120) = true := by decide +kernel
theorem t36h11_turned2 : turned36h11 ((t36h11.drop 240).take 120) = true := by decide +kernel
theorem t36h11_turned3 : turned36h11 ((t36h11.drop 360).take 120) = true := by decide +kernel
theorem t36h11_turned4 : turned36h11 (t36h11.drop 480) = true := by decide +kernel

theorem t36h11_distance : MinDistance 6 t36h11 11 := by
  have hL : ∀ x ∈ t36h11, x < 2 ^ 36 := allLt_sound t36h11_lt
  have hs : ∀ l, turned36h11 l = true → ∀ w ∈ l, ∀ x ∈ t36h11, 11 ≤ ones (x ^^^ rowsVal w 6 6) ∧
      11 ≤ ones (x ^^^ rowsVal (rowsVal w 6 6) 6 6) ∧
      11 ≤ ones (x ^^^ rowsVal (rowsVal (rowsVal w 6 6) 6 6) 6 6) := by
    intro l h
    unfold turned36h11 at h
    rw [force_eq, force_eq] at h
    exact checkTurned_sound 6 37 36 11 rfl (by norm_num) (by norm_num) (by norm_num) (by norm_num) _ l hL h
  have hl := t36h11_later
  rw [force_eq, force_eq] at hl
  refine minDistance_of_check 6 11 _ (by norm_num) hL
    (checkLater_sound 37 36 11 (by norm_num) (by norm_num) (by norm_num) (by norm_num) _ hL hl) ?_
  intro w hw
  have split : ∀ (l : List Nat) n, w ∈ l → w ∈ l.take n ∨ w ∈ l.drop n := by
    intro l n h
    rw [← List.take_append_drop n l, List.mem_append] at h
    exact h
  rcases split _ 120 hw with h | h
  · exact hs _ t36h11_turned0 w h
  rcases split _ 120 h with h | h
  · exact hs _ t36h11_turned1 w h
  rw [List.drop_drop] at h
  rcases split _ 120 h with h | h
  · exact hs _ t36h11_turned2 w h
  rw [List.drop_drop] at h
  rcases split _ 120 h with h | h
  · exact hs _ t36h11_turned3 w h
  rw [List.drop_drop] at h
  exact hs _ t36h11_turned4 w h

/-- **C66 (partial).** The five standard tables have the minimum distance stated in their
`TagCodes(bits, minHammingDistance, …)`, over all pairs of codes and all rotations, including the
distance of each code to its own rotations.  Missing: the two `_other` tables (false, see below). -/
theorem C66_distance_partial :
    MinDistance 4 t16h5 5 ∧ MinDistance 5 t25h7 7 ∧ MinDistance 5 t25h9 9 ∧ MinDistance 6 t36h9 9 ∧
      MinDistance 6 t36h11 11 :=
  ⟨check_sound 4 20 5 _ (by norm_num) (by norm_num) (by norm_num) (by norm_num) t16h5_check,
   check_sound 5 26 7 _ (by norm_num) (by norm_num) (by norm_num) (by norm_num) t25h7_check,
   check_sound 5 26 9 _ (by norm_num) (by norm_num) (by norm_num) (by norm_num) t25h9_check,
   t36h9_distance, t36h11_distance⟩

/-- **C66 is false** of the `_other` tables: each holds a code that looks the same after half a turn,
so its rotation cannot be recovered (`TagCodes` declares distance 5 and 11). -/
theorem C66_counterexample :
    ¬ MinDistance 4 t16h5_other 5 ∧ ¬ MinDistance 6 t36h11_other 11 := by
  have key : ∀ d codes i, d * d ≤ 64 → i < codes.length →
      rowsVal (rowsVal (codes.getD i 0) d d) d d = codes.getD i 0 → ∀ m, 0 < m → ¬ MinDistance d codes m := by
    intro d codes i hd hi he m hm h
    have h2 := h.2 i i 2 hi hi (by norm_num) (Or.inr (by norm_num))
    have hpat : ∀ w, pattern (rowsVal w d d) = turn d (pattern w) := by
      intro w
      obtain ⟨w', e1, _, e3⟩ := rotate90_eq w d hd
      have : rotate90 w d = .ok (rowsVal w d d) := rotRows_eq w d d hd le_rfl
      rw [this] at e1
      cases e1
      exact e3
    have e2 : turns d 2 (pattern (codes.getD i 0)) = pattern (codes.getD i 0) := by
      show turn d (turn d (pattern (codes.getD i 0))) = _
      rw [← hpat, ← hpat, he]
    rw [e2] at h2
    simp [diff] at h2
    omega
  exact ⟨key 4 t16h5_other 23 (by norm_num) (by decide) (by decide +kernel) 5 (by norm_num),
    key 6 t36h11_other 543 (by norm_num) (by decide +kernel) (by decide +kernel) 11 (by norm_num)⟩

/-- **C67.** With the table 36h11 (the one the calibration target uses) and any error-recovery bound of
at least 5: a code printed on the target, seen in any of the four rotations with at most 5 of its 36
cells misread, is decoded to its own id and rotation and reported good. -/
theorem C67_target_tags (e : Int) (he : 5 ≤ e) (rCode id rot : Nat) (hr : rCode < 2 ^ 36)
    (hid : id < t36h11.length) (hrot : rot < 4)
    (hobs : diff (turns 6 rot (pattern rCode)) (pattern (t36h11.getD id 0)) ≤ 5) :
    ∃ det, decode ⟨6, e, t36h11⟩ rCode = .ok det ∧ det.id = id ∧ det.rotation = rot ∧
      det.good = true := by
  have hm := C66_distance_partial.2.2.2.2
  obtain ⟨det, h1, h2, h3, _, _, h6⟩ := C15_corrects ⟨6, e, t36h11⟩ 5 rCode id rot (by norm_num)
    (by simpa using hr) hm.1
    (fun i j k hi hj hk hne => by
      exact lt_of_lt_of_le (by norm_num) (hm.2 i j k hi hj hk hne)) hid hrot hobs
  exact ⟨det, h1, h2, h3, h6 (by exact_mod_cast he)⟩

/-- Non-vacuity: code 0 with five misread cells. -/
example : diff (turns 6 0 (pattern (0xd5d628584 ^^^ 31))) (pattern (t36h11.getD 0 0)) ≤ 5 ∧
    0xd5d628584 ^^^ 31 < 2 ^ 36 ∧ 0 < t36h11.length := by
  refine ⟨?_, by decide, by decide +kernel⟩
  show diff (pattern _) (pattern _) ≤ 5
  rw [← hammingDistance_eq _ _ (by decide) (by decide +kernel)]
  decide +kernel

end Kalibr.Tag
