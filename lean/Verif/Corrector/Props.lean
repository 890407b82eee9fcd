import Verif.Corrector.Lemmas
import Mathlib.Algebra.Order.Field.Rat

/-!
# Properties of the timestamp corrector (C17–C20)

`run ss` is the state after the calls `correctTimestamp(s.x, s.y)` for the samples of `ss` in order;
`accepted ss` (specification) are the samples later than all accepted before.
`(run ss).at? i` is hull point `i`, oldest first.
-/

namespace Kalibr.Corrector

variable {K : Type} [Field K] [LinearOrder K] [IsStrictOrderedRing K]

theorem above_iff_line {a b q : Pt K} (h : a.x < b.x) : Above a b q ↔ lineAt a b q.x ≤ q.y := by
  unfold Above lineAt
  have hd : 0 < b.x - a.x := by linarith
  rw [div_mul_eq_mul_div, ← le_sub_iff_add_le', div_le_iff₀ hd, sub_nonneg, mul_comm (q.y - a.y)]

theorem above_iff_slope {a b c : Pt K} (h1 : a.x < b.x) (h2 : b.x < c.x) :
    Above a b c ↔ slope a b ≤ slope b c := by
  unfold Above slope
  rw [div_le_div_iff₀ (by linarith) (by linarith)]
  constructor <;> intro h <;> nlinarith

theorem Good.last {S : List (Pt K)} {h : List (Pt K)} (hg : Good S h) (hne : h ≠ []) :
    h.getLast? = S.head? := by
  induction h with
  | nil => exact absurd rfl hne
  | cons t r ih =>
    cases r with
    | nil => simpa using hg.2.1.symm
    | cons b r =>
      have := ih hg.2.2.2 (by simp)
      rw [← this]; simp

/-- C17: the stored points are a subsequence of the accepted samples from the first to the last,
strictly increasing in remote time, with nondecreasing slopes, and every accepted sample lies on or
above every line of the polyline.  Missing from the full property: *strictly* increasing slopes
(see `C17_counterexample`). -/
theorem C17_hull_partial (ss : List (Pt K)) :
    (run ss).hull.reverse.Sublist (accepted ss) ∧
    (run ss).at? 0 = (accepted ss).head? ∧
    (run ss).at? ((run ss).hull.length - 1) = (accepted ss).getLast? ∧
    (∀ i a b, (run ss).at? i = some a → (run ss).at? (i + 1) = some b →
      a.x < b.x ∧ (∀ q ∈ accepted ss, lineAt a b q.x ≤ q.y) ∧
      ∀ c, (run ss).at? (i + 2) = some c → slope a b ≤ slope b c) := by
  have inv := run_inv ss
  refine ⟨inv.sub, ?_, ?_, ?_⟩
  · cases hh : (run ss).hull with
    | nil =>
      have := inv.good
      rw [hh] at this
      rw [show accepted ss = [] from this]
      simp [Corr.at?, hh]
    | cons t r =>
      rw [← inv.good.last (by simp [hh])]
      unfold Corr.at?
      rw [← List.head?_eq_getElem?, List.head?_reverse]
  · rw [← inv.last]
    unfold Corr.at?
    rw [show (run ss).hull.length - 1 = (run ss).hull.reverse.length - 1 by simp,
      ← List.getLast?_eq_getElem?, List.getLast?_reverse]
  · intro i a b ha hb
    obtain ⟨h1, h2⟩ := inv.good.consecutive i ha hb
    refine ⟨h1, fun q hq => (above_iff_line h1).1 (h2 q hq), ?_⟩
    intro c hc
    obtain ⟨h3, _⟩ := inv.good.consecutive (i + 1) hb hc
    apply (above_iff_slope h1 h3).1
    apply h2
    apply inv.sub.subset
    exact List.mem_of_getElem? hc

/-- C17: the full property is false: three samples on a line are all kept, with equal slopes. -/
theorem C17_counterexample :
    let c := run [(⟨0, 0⟩ : Pt ℚ), ⟨1, 1⟩, ⟨2, 2⟩]
    c.at? 0 = some ⟨0, 0⟩ ∧ c.at? 1 = some ⟨1, 1⟩ ∧ c.at? 2 = some ⟨2, 2⟩ ∧
    ¬ slope (⟨0, 0⟩ : Pt ℚ) ⟨1, 1⟩ < slope ⟨1, 1⟩ ⟨2, 2⟩ := by
  decide +kernel

/-! ## The stored midpoint index -/

theorem lowerBound_mid {c : Corr K} {S : List (Pt K)} (h : Inv c S) {h0 p : Pt K}
    (h0e : c.hull.reverse[0]? = some h0) (hp : c.hull.head? = some p) (h3 : 3 ≤ c.hull.length) :
    1 ≤ lowerBound c.hull.reverse ((h0.x + p.x) / 2) ∧
    lowerBound c.hull.reverse ((h0.x + p.x) / 2) < c.hull.length := by
  have hlt : h0.x < p.x := by
    have hpw : c.hull.reverse.Pairwise (fun a b => a.x < b.x) := h.sorted.sublist h.sub
    rw [List.pairwise_iff_getElem] at hpw
    have hl : c.hull.reverse.length = c.hull.length := by simp
    have := hpw 0 (c.hull.reverse.length - 1) (by omega) (by omega) (by omega)
    rw [List.getElem?_eq_getElem (by omega)] at h0e
    have h0e : c.hull.reverse[0] = h0 := by simpa using h0e
    rw [h0e] at this
    have hpe : c.hull.reverse.getLast? = some p := by rw [List.getLast?_reverse]; exact hp
    rw [List.getLast?_eq_getElem?, List.getElem?_eq_getElem (by omega)] at hpe
    have hpe : c.hull.reverse[c.hull.reverse.length - 1] = p := by simpa using hpe
    rwa [hpe] at this
  unfold lowerBound
  constructor
  · cases hrev : c.hull.reverse with
    | nil => rw [hrev] at h0e; simp at h0e
    | cons a r =>
      rw [hrev] at h0e
      simp at h0e
      subst h0e
      have : a.x < (a.x + p.x) / 2 := by linarith
      simp [List.findIdx_cons, this]
  · have : (c.hull.reverse.findIdx fun q => !decide (q.x < (h0.x + p.x) / 2)) < c.hull.reverse.length := by
      apply List.findIdx_lt_length_of_exists
      refine ⟨p, ?_, ?_⟩
      · simp only [List.mem_reverse]
        exact List.mem_of_mem_head? (by simp [hp])
      · have : (h0.x + p.x) / 2 ≤ p.x := by linarith
        simpa using this
    simpa using this

/-- What an accepted call does. -/
theorem correctTimestamp_accept {c : Corr K} {S : List (Pt K)} (h : Inv c S) (s : Pt K)
    (hw : wentBackwards c.hull s.x = false) :
    let c' := (correctTimestamp c s.x s.y).2
    (3 ≤ c'.hull.length → c'.mid + 1 < c'.hull.length ∧
      (correctTimestamp c s.x s.y).1 = getLocalTime c' s.x) ∧
    (c'.hull.length < 3 → c'.mid = c.mid ∧ (correctTimestamp c s.x s.y).1 = .ok s.y) := by
  obtain ⟨sx, sy⟩ := s
  simp only at hw ⊢
  unfold correctTimestamp
  rw [if_neg (by simp [hw])]
  simp only
  by_cases h3 : 3 ≤ (pushHull c.hull ⟨sx, sy⟩).length
  · rw [if_pos h3]
    have hinv := pushHull_inv h ⟨sx, sy⟩ hw 0
    cases h0 : (pushHull c.hull ⟨sx, sy⟩).reverse[0]? with
    | none =>
      exfalso
      rw [List.getElem?_eq_none_iff] at h0
      simp at h0
      rw [h0] at h3
      simp at h3
    | some p0 =>
      simp only
      have hb := lowerBound_mid hinv (p := ⟨sx, sy⟩) (h0 := p0) h0 rfl h3
      simp only at hb
      refine ⟨fun _ => ⟨?_, trivial⟩, fun hlt => absurd h3 (by omega)⟩
      unfold predSize
      rw [if_neg (by omega)]
      omega
  · rw [if_neg h3]
    simp only
    exact ⟨fun hc => absurd hc h3, fun _ => ⟨trivial, trivial⟩⟩

theorem getLocalTime_ok {c : Corr K} (h : c.mid + 1 < c.hull.length) (t : K) :
    ∃ l1 l2, c.at? c.mid = some l1 ∧ c.at? (c.mid + 1) = some l2 ∧
      getLocalTime c t = .ok (l1.y + (t - l1.x) * (l2.y - l1.y) / (l2.x - l1.x)) ∧
      getSlope c = .ok ((l2.y - l1.y) / (l2.x - l1.x)) ∧
      getOffset c = .ok (l1.y + (-l1.x) * (l2.y - l1.y) / (l2.x - l1.x)) := by
  have hl : c.hull.reverse.length = c.hull.length := by simp
  have e1 : c.at? c.mid = some c.hull.reverse[c.mid] := List.getElem?_eq_getElem _
  have e2 : c.at? (c.mid + 1) = some c.hull.reverse[c.mid + 1] := List.getElem?_eq_getElem _
  refine ⟨_, _, e1, e2, ?_, ?_, ?_⟩
  · unfold getLocalTime; rw [if_neg (by omega), e1, e2]
  · unfold getSlope; rw [if_neg (by omega), e1, e2]
  · unfold getOffset; rw [if_neg (by omega), e1, e2]

/-- C18: after every history, the corrected time returned for an accepted sample exists and does not
exceed its reception time. -/
theorem C18_not_ahead (ss : List (Pt K)) (s : Pt K)
    (hacc : ∀ a, (accepted ss).getLast? = some a → a.x < s.x) :
    ∃ v, (correctTimestamp (run ss) s.x s.y).1 = .ok v ∧ v ≤ s.y := by
  have inv := run_inv ss
  have hw : wentBackwards (run ss).hull s.x = false := by
    cases hc : wentBackwards (run ss).hull s.x with
    | false => rfl
    | true =>
      obtain ⟨a, ha, hle⟩ := (wentBackwards_iff inv _).1 hc
      exact absurd (hacc a ha) (not_lt.2 hle)
  have hinv : Inv (correctTimestamp (run ss) s.x s.y).2 (accepted ss ++ [s]) := by
    rcases correctTimestamp_inv inv s with ⟨h1, _⟩ | ⟨_, h2⟩
    · rw [hw] at h1; cases h1
    · exact h2
  obtain ⟨h3, h4⟩ := correctTimestamp_accept inv s hw
  by_cases hl : 3 ≤ (correctTimestamp (run ss) s.x s.y).2.hull.length
  · obtain ⟨hm, he⟩ := h3 hl
    obtain ⟨l1, l2, e1, e2, e3, _⟩ := getLocalTime_ok hm s.x
    rw [he, e3]
    refine ⟨_, rfl, ?_⟩
    obtain ⟨g1, g2⟩ := hinv.good.consecutive _ e1 e2
    have := (above_iff_line g1).1 (g2 s (by simp))
    unfold lineAt at this
    rw [div_mul_eq_mul_div] at this
    rw [mul_comm (s.x - l1.x)]
    exact this
  · rw [(h4 (by omega)).2]
    exact ⟨_, rfl, le_refl _⟩

/-- Invariant on the stored index. -/
theorem run_mid (ss : List (Pt K)) : 3 ≤ (run ss).hull.length → (run ss).mid + 1 < (run ss).hull.length := by
  induction ss using List.reverseRecOn with
  | nil => simp [run, Corr.init]
  | append_singleton ss s ih =>
    have e1 : run (ss ++ [s]) = (correctTimestamp (run ss) s.x s.y).2 := by
      unfold run; rw [List.foldl_append]; rfl
    rw [e1]
    rcases correctTimestamp_inv (run_inv ss) s with ⟨_, h2⟩ | ⟨h1, _⟩
    · rw [h2]; exact ih
    · intro h3
      exact ((correctTimestamp_accept (run_inv ss) s h1).1 h3).1

/-- C19: with three or more hull points every query reads two existing consecutive hull points; with
two it does if the stored index is 0; with fewer it raises.  Missing: two hull points and a stale
index (see `C19_counterexample`). -/
theorem C19_reads_in_range_partial (ss : List (Pt K)) (t : K) :
    ((run ss).hull.length < 2 →
      getLocalTime (run ss) t = .raise ∧ getSlope (run ss) = .raise ∧ getOffset (run ss) = .raise) ∧
    (3 ≤ (run ss).hull.length ∨ ((run ss).hull.length = 2 ∧ (run ss).mid = 0) →
      ∃ i l1 l2, (run ss).at? i = some l1 ∧ (run ss).at? (i + 1) = some l2 ∧ l1.x < l2.x ∧
        getLocalTime (run ss) t = .ok (lineAt l1 l2 t) ∧
        getSlope (run ss) = .ok (slope l1 l2) ∧
        getOffset (run ss) = .ok (lineAt l1 l2 0)) := by
  constructor
  · intro h
    unfold getLocalTime getSlope getOffset
    simp [if_pos h]
  · intro h
    have hm : (run ss).mid + 1 < (run ss).hull.length := by
      rcases h with h | ⟨h, h'⟩
      · exact run_mid ss h
      · omega
    obtain ⟨l1, l2, e1, e2, e3, e4, e5⟩ := getLocalTime_ok hm t
    refine ⟨_, l1, l2, e1, e2, ((run_inv ss).good.consecutive _ e1 e2).1, ?_, e4, ?_⟩
    · rw [e3]; unfold lineAt
      rw [div_mul_eq_mul_div, mul_comm (t - l1.x)]
    · rw [e5]; unfold lineAt
      rw [div_mul_eq_mul_div, zero_sub, mul_comm (-l1.x)]

/-- C19: the full property is false: when a very late-clock sample collapses the hull to two points
the stored index still points behind its end, and every query reads out of range. -/
theorem C19_counterexample :
    let c := run [(⟨0, 0⟩ : Pt ℚ), ⟨1, 1⟩, ⟨10, 100⟩, ⟨11, -100⟩]
    c.hull.length = 2 ∧ getLocalTime c 12 = .ub ∧ getSlope c = .ub ∧ getOffset c = .ub := by
  decide +kernel

/-- C20: a sample whose remote time is not later than that of the last accepted one raises and leaves
the corrector exactly as it was, so all later results are those of the history without it; every
other sample is accepted. -/
theorem C20_backwards_rejected (ss rest : List (Pt K)) (s : Pt K) :
    ((∃ a, (accepted ss).getLast? = some a ∧ s.x ≤ a.x) →
      (correctTimestamp (run ss) s.x s.y).1 = .raise ∧
      run (ss ++ [s]) = run ss ∧ run (ss ++ s :: rest) = run (ss ++ rest)) ∧
    ((¬ ∃ a, (accepted ss).getLast? = some a ∧ s.x ≤ a.x) →
      (correctTimestamp (run ss) s.x s.y).1 ≠ .raise) := by
  have inv := run_inv ss
  constructor
  · intro h
    have hw := (wentBackwards_iff inv _).2 h
    rcases correctTimestamp_inv inv s with ⟨_, h2⟩ | ⟨h1, _⟩
    · have e1 : run (ss ++ [s]) = run ss := by
        have : run (ss ++ [s]) = (correctTimestamp (run ss) s.x s.y).2 := by
          unfold run; rw [List.foldl_append]; rfl
        rw [this, h2]
      refine ⟨by rw [h2], e1, ?_⟩
      have : ss ++ s :: rest = (ss ++ [s]) ++ rest := by simp
      rw [this]
      unfold run at e1 ⊢
      rw [List.foldl_append, e1, List.foldl_append]
    · rw [hw] at h1; cases h1
  · intro h
    have hacc : ∀ a, (accepted ss).getLast? = some a → a.x < s.x := by
      intro a ha
      by_contra hc
      exact h ⟨a, ha, not_lt.1 hc⟩
    obtain ⟨v, hv, _⟩ := C18_not_ahead ss s hacc
    rw [hv]; simp

/-! ## Witnesses -/

/-- A history in which a point is popped, a later sample corrected, and one rejected. -/
example :
    let ss : List (Pt ℚ) := [⟨0, 5⟩, ⟨1, 9⟩, ⟨2, 8⟩, ⟨3, 10⟩, ⟨3, 11⟩, ⟨5, 16⟩]
    accepted ss = [⟨0, 5⟩, ⟨1, 9⟩, ⟨2, 8⟩, ⟨3, 10⟩, ⟨5, 16⟩] ∧
    (run ss).hull.reverse = [⟨0, 5⟩, ⟨2, 8⟩, ⟨3, 10⟩, ⟨5, 16⟩] ∧
    (∀ a, (accepted ss).getLast? = some a → a.x < (7 : ℚ)) ∧
    (correctTimestamp (run ss) 7 40).1 = .ok 22 ∧
    (∃ a, (accepted ss).getLast? = some a ∧ (4 : ℚ) ≤ a.x) ∧
    3 ≤ (run ss).hull.length := by
  refine ⟨by decide +kernel, by decide +kernel, ?_, by decide +kernel, ?_, by decide +kernel⟩
  · have : accepted ([⟨0, 5⟩, ⟨1, 9⟩, ⟨2, 8⟩, ⟨3, 10⟩, ⟨3, 11⟩, ⟨5, 16⟩] : List (Pt ℚ)) =
      [⟨0, 5⟩, ⟨1, 9⟩, ⟨2, 8⟩, ⟨3, 10⟩, ⟨5, 16⟩] := by decide +kernel
    rw [this]; intro a ha; simp at ha; subst ha; norm_num
  · exact ⟨⟨5, 16⟩, by decide +kernel, by norm_num⟩

end Kalibr.Corrector
