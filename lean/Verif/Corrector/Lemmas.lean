import Verif.Corrector.Spec

/-! Invariant of the hull. -/

namespace Kalibr.Corrector

variable {K : Type} [Field K] [LinearOrder K] [IsStrictOrderedRing K]

/-- The determinant test as a proposition. -/
def Above (l1 l2 p : Pt K) : Prop :=
  0 ≤ (l2.x - l1.x) * (p.y - l1.y) - (l2.y - l1.y) * (p.x - l1.x)

theorem isAboveLine_iff (l1 l2 p : Pt K) : isAboveLine l1 l2 p = true ↔ Above l1 l2 p := by
  simp [isAboveLine, Above]

/-- Pushing across a convex corner: points left of the corner stay above the new line. -/
theorem above_left {b t p q : Pt K} (hbt : b.x < t.x) (htp : t.x < p.x) (hq : q.x ≤ t.x)
    (h1 : Above b t q) (h2 : Above b t p) : Above t p q := by
  unfold Above at *
  have hd : 0 < t.x - b.x := by linarith
  have key : 0 ≤ (t.x - b.x) * ((p.x - t.x) * (q.y - t.y) - (p.y - t.y) * (q.x - t.x)) := by
    have e1 : 0 ≤ (p.x - t.x) * ((t.x - b.x) * (q.y - b.y) - (t.y - b.y) * (q.x - b.x)) :=
      mul_nonneg (by linarith) h1
    have e2 : 0 ≤ (t.x - q.x) * ((t.x - b.x) * (p.y - b.y) - (t.y - b.y) * (p.x - b.x)) :=
      mul_nonneg (by linarith) h2
    have : (t.x - b.x) * ((p.x - t.x) * (q.y - t.y) - (p.y - t.y) * (q.x - t.x)) =
      (p.x - t.x) * ((t.x - b.x) * (q.y - b.y) - (t.y - b.y) * (q.x - b.x)) +
      (t.x - q.x) * ((t.x - b.x) * (p.y - b.y) - (t.y - b.y) * (p.x - b.x)) := by ring
    rw [this]; linarith
  exact le_of_mul_le_mul_left (by simpa using key) hd

/-- Points right of `b` above a steeper line through `b` are above a flatter one. -/
theorem above_right {b c p q : Pt K} (hbc : b.x < c.x) (hbp : b.x < p.x) (hq : b.x ≤ q.x)
    (h1 : Above b c q) (h2 : Above b p c) : Above b p q := by
  unfold Above at *
  have hd : 0 < c.x - b.x := by linarith
  have key : 0 ≤ (c.x - b.x) * ((p.x - b.x) * (q.y - b.y) - (p.y - b.y) * (q.x - b.x)) := by
    have e1 : 0 ≤ (p.x - b.x) * ((c.x - b.x) * (q.y - b.y) - (c.y - b.y) * (q.x - b.x)) :=
      mul_nonneg (by linarith) h1
    have e2 : 0 ≤ (q.x - b.x) * ((p.x - b.x) * (c.y - b.y) - (p.y - b.y) * (c.x - b.x)) :=
      mul_nonneg (by linarith) h2
    have : (c.x - b.x) * ((p.x - b.x) * (q.y - b.y) - (p.y - b.y) * (q.x - b.x)) =
      (p.x - b.x) * ((c.x - b.x) * (q.y - b.y) - (c.y - b.y) * (q.x - b.x)) +
      (q.x - b.x) * ((p.x - b.x) * (c.y - b.y) - (p.y - b.y) * (c.x - b.x)) := by ring
    rw [this]; linarith
  exact le_of_mul_le_mul_left (by simpa using key) hd

/-- A point above the newest line of a convex chain is above the previous one. -/
theorem above_chain {c b t p : Pt K} (hcb : c.x < b.x) (hbt : b.x < t.x) (htp : t.x < p.x)
    (h1 : Above c b t) (h2 : Above b t p) : Above c b p := by
  unfold Above at *
  have hd : 0 < t.x - b.x := by linarith
  have key : 0 ≤ (t.x - b.x) * ((b.x - c.x) * (p.y - c.y) - (b.y - c.y) * (p.x - c.x)) := by
    have e1 : 0 ≤ (b.x - c.x) * ((t.x - b.x) * (p.y - b.y) - (t.y - b.y) * (p.x - b.x)) :=
      mul_nonneg (by linarith) h2
    have e2 : 0 ≤ (p.x - b.x) * ((b.x - c.x) * (t.y - c.y) - (b.y - c.y) * (t.x - c.x)) :=
      mul_nonneg (by linarith) h1
    have : (t.x - b.x) * ((b.x - c.x) * (p.y - c.y) - (b.y - c.y) * (p.x - c.x)) =
      (b.x - c.x) * ((t.x - b.x) * (p.y - b.y) - (t.y - b.y) * (p.x - b.x)) +
      (p.x - b.x) * ((b.x - c.x) * (t.y - c.y) - (b.y - c.y) * (t.x - c.x)) := by ring
    rw [this]; linarith
  exact le_of_mul_le_mul_left (by simpa using key) hd

/-- Exchanging the tested point and the end of the line flips the strict side. -/
theorem above_of_not_swap {b t p : Pt K} (h : ¬ Above b p t) : Above b t p := by
  unfold Above at *
  push Not at h
  have : (t.x - b.x) * (p.y - b.y) - (t.y - b.y) * (p.x - b.x) =
    -((p.x - b.x) * (t.y - b.y) - (p.y - b.y) * (t.x - b.x)) := by ring
  rw [this]; linarith

/-- Hull invariant for the samples `S`, newest point first. -/
def Good (S : List (Pt K)) : List (Pt K) → Prop
  | [] => S = []
  | [a] => a ∈ S ∧ S.head? = some a ∧ ∀ q ∈ S, a.x ≤ q.x
  | a :: b :: r => a ∈ S ∧ b.x < a.x ∧ (∀ q ∈ S, Above b a q) ∧ Good S (b :: r)

theorem Good.mem {S : List (Pt K)} {a : Pt K} {r : List (Pt K)} (h : Good S (a :: r)) : a ∈ S := by
  cases r with
  | nil => exact h.1
  | cons b r => exact h.1

theorem Good.extend {S : List (Pt K)} {t p : Pt K} {r : List (Pt K)} (h : Good S (t :: r))
    (htp : t.x < p.x) (hp : ∀ b r', r = b :: r' → Above b t p) : Good (S ++ [p]) (t :: r) := by
  induction r generalizing t with
  | nil =>
    obtain ⟨h1, h2, h3⟩ := h
    refine ⟨by simp [h1], ?_, ?_⟩
    · cases S with
      | nil => simp at h1
      | cons s S => simpa using h2
    · intro q hq
      simp at hq
      rcases hq with hq | hq
      · exact h3 q hq
      · subst hq; exact htp.le
  | cons b r ih =>
    obtain ⟨h1, h2, h3, h4⟩ := h
    have hbt := hp b r rfl
    refine ⟨by simp [h1], h2, ?_, ?_⟩
    · intro q hq
      simp at hq
      rcases hq with hq | hq
      · exact h3 q hq
      · subst hq; exact hbt
    · apply ih h4 (by linarith)
      intro c r' hr
      subst hr
      obtain ⟨_, g2, g3, _⟩ := h4
      exact above_chain g2 h2 htp (g3 t h1) hbt

theorem Good.push {S : List (Pt K)} {t p : Pt K} {r : List (Pt K)} (h : Good S (t :: r))
    (htp : t.x < p.x) (hp : ∀ b r', r = b :: r' → Above b t p)
    (hr : ∀ q ∈ S, t.x ≤ q.x → Above t p q) : Good (S ++ [p]) (p :: t :: r) := by
  refine ⟨by simp, htp, ?_, h.extend htp hp⟩
  intro q hq
  simp at hq
  rcases hq with hq | hq
  · rcases le_total t.x q.x with hc | hc
    · exact hr q hq hc
    · cases r with
      | nil => exact hr q hq (h.2.2 q hq)
      | cons b r =>
        obtain ⟨h1, h2, h3, h4⟩ := h
        exact above_left h2 htp hc (h3 q hq) (hp b r rfl)
  · subst hq
    unfold Above; linarith [mul_comm (q.x - t.x) (q.y - t.y)]

theorem popLoop_spec {S : List (Pt K)} {p t : Pt K} {r : List (Pt K)} (h : Good S (t :: r))
    (htp : t.x < p.x) (hr : ∀ q ∈ S, t.x ≤ q.x → Above t p q) :
    ∃ t' r', popLoop p (t :: r) = t' :: r' ∧ (t' :: r') <:+ (t :: r) ∧ Good S (t' :: r') ∧
      t'.x < p.x ∧ (∀ b r'', r' = b :: r'' → Above b t' p) ∧
      (∀ q ∈ S, t'.x ≤ q.x → Above t' p q) := by
  induction r generalizing t with
  | nil =>
    refine ⟨t, [], by simp [popLoop], List.suffix_refl _, h, htp, ?_, hr⟩
    intro b r'' hb; simp at hb
  | cons b r ih =>
    simp only [popLoop]
    by_cases hab : isAboveLine b p t = true
    · rw [if_pos hab]
      rw [isAboveLine_iff] at hab
      obtain ⟨h1, h2, h3, h4⟩ := h
      obtain ⟨t', r', g1, g2, g3⟩ := ih h4 (by linarith)
        (fun q hq hbq => above_right h2 (by linarith) hbq (h3 q hq) hab)
      exact ⟨t', r', g1, g2.trans (List.suffix_cons _ _), g3⟩
    · rw [if_neg hab]
      rw [isAboveLine_iff] at hab
      refine ⟨t, b :: r, rfl, List.suffix_refl _, h, htp, ?_, hr⟩
      intro b' r'' hb
      simp at hb
      rw [← hb.1]
      exact above_of_not_swap hab

/-- Invariant of a corrector state with respect to the accepted samples. -/
structure Inv (c : Corr K) (S : List (Pt K)) : Prop where
  sorted : S.Pairwise (fun a b => a.x < b.x)
  last : c.hull.head? = S.getLast?
  good : Good S c.hull
  sub : c.hull.reverse.Sublist S

theorem Inv.init : Inv (Corr.init : Corr K) [] :=
  ⟨List.Pairwise.nil, rfl, rfl, by simp [Corr.init]⟩

theorem last_max {S : List (Pt K)} {t : Pt K} (hs : S.Pairwise (fun a b => a.x < b.x))
    (hl : S.getLast? = some t) : ∀ q ∈ S, q = t ∨ q.x < t.x := by
  intro q hq
  obtain ⟨S', rfl⟩ : ∃ S', S = S' ++ [t] := List.getLast?_eq_some_iff.1 hl
  rw [List.pairwise_append] at hs
  simp at hq
  rcases hq with hq | hq
  · exact Or.inr (hs.2.2 q hq t (by simp))
  · exact Or.inl hq

theorem pushHull_inv {c : Corr K} {S : List (Pt K)} (h : Inv c S) (p : Pt K)
    (hw : wentBackwards c.hull p.x = false) (m : Nat) : Inv ⟨pushHull c.hull p, m⟩ (S ++ [p]) := by
  obtain ⟨hull, mid⟩ := c
  obtain ⟨h1, h2, h3, h4⟩ := h
  simp only at h2 h3 h4 hw
  cases hull with
  | nil =>
    have : S = [] := h3
    subst this
    simp only [pushHull, isAboveTopLine]
    exact ⟨by simp, by simp, ⟨by simp, by simp, by simp⟩, by simp⟩
  | cons t r =>
    have htp : t.x < p.x := by simpa [wentBackwards] using hw
    have hmax := last_max h1 (by simpa using h2.symm)
    have hr : ∀ q ∈ S, t.x ≤ q.x → Above t p q := by
      intro q hq hle
      rcases hmax q hq with rfl | hlt
      · unfold Above; simp
      · exact absurd hle (not_le.2 hlt)
    have hsorted : (S ++ [p]).Pairwise (fun a b => a.x < b.x) := by
      rw [List.pairwise_append]
      refine ⟨h1, by simp, ?_⟩
      intro a ha b hb
      simp at hb; subst hb
      rcases hmax a ha with rfl | hlt
      · exact htp
      · linarith
    have hstep : ∃ t' r', (if !isAboveTopLine (t :: r) p then popLoop p (t :: r) else t :: r) = t' :: r' ∧
        (t' :: r') <:+ (t :: r) ∧ Good S (t' :: r') ∧
        t'.x < p.x ∧ (∀ b r'', r' = b :: r'' → Above b t' p) ∧
        (∀ q ∈ S, t'.x ≤ q.x → Above t' p q) := by
      by_cases hab : isAboveTopLine (t :: r) p = true
      · rw [if_neg (by simp [hab])]
        refine ⟨t, r, rfl, List.suffix_refl _, h3, htp, ?_, hr⟩
        intro b r'' hb
        subst hb
        rw [← isAboveLine_iff]
        simpa [isAboveTopLine] using hab
      · rw [if_pos (by simpa using hab)]
        exact popLoop_spec h3 htp hr
    obtain ⟨t', r', e, hsuf, g1, g2, g3, g4⟩ := hstep
    unfold pushHull
    simp only [e]
    refine ⟨hsorted, by simp, g1.push g2 g3 g4, ?_⟩
    simp only [List.reverse_cons]
    apply List.Sublist.append _ (List.Sublist.refl _)
    have : (t' :: r').reverse.Sublist (t :: r).reverse := by
      rw [List.reverse_sublist]; exact hsuf.sublist
    simpa using this.trans h4

theorem correctTimestamp_inv {c : Corr K} {S : List (Pt K)} (h : Inv c S) (s : Pt K) :
    (wentBackwards c.hull s.x = true ∧ correctTimestamp c s.x s.y = (.raise, c)) ∨
    (wentBackwards c.hull s.x = false ∧ Inv (correctTimestamp c s.x s.y).2 (S ++ [s])) := by
  cases hw : wentBackwards c.hull s.x with
  | true => left; exact ⟨rfl, by unfold correctTimestamp; rw [if_pos hw]⟩
  | false =>
    right
    refine ⟨rfl, ?_⟩
    unfold correctTimestamp
    rw [if_neg (by simp [hw])]
    simp only
    split
    · split
      · exact pushHull_inv h s hw _
      · exact pushHull_inv h s hw _
    · exact pushHull_inv h s hw _

theorem wentBackwards_iff {c : Corr K} {S : List (Pt K)} (h : Inv c S) (t : K) :
    wentBackwards c.hull t = true ↔ ∃ a, S.getLast? = some a ∧ t ≤ a.x := by
  rw [← h.last]
  unfold wentBackwards
  cases c.hull <;> simp

theorem run_inv (ss : List (Pt K)) : Inv (run ss) (accepted ss) := by
  induction ss using List.reverseRecOn with
  | nil => exact Inv.init
  | append_singleton ss s ih =>
    have e1 : run (ss ++ [s]) = (correctTimestamp (run ss) s.x s.y).2 := by
      unfold run; rw [List.foldl_append]; rfl
    have e2 : accepted (ss ++ [s]) = match (accepted ss).getLast? with
        | none => accepted ss ++ [s]
        | some a => if a.x < s.x then accepted ss ++ [s] else accepted ss := by
      unfold accepted; rw [List.foldl_append]; rfl
    rw [e1, e2]
    rcases correctTimestamp_inv ih s with ⟨h1, h2⟩ | ⟨h1, h2⟩
    · obtain ⟨a, ha, hle⟩ := (wentBackwards_iff ih _).1 h1
      rw [h2, ha]
      simp only
      rw [if_neg (not_lt.2 hle)]
      exact ih
    · have hno : ¬ ∃ a, (accepted ss).getLast? = some a ∧ s.x ≤ a.x := by
        rw [← wentBackwards_iff ih]; simp [h1]
      cases hl : (accepted ss).getLast? with
      | none => exact h2
      | some a =>
        simp only
        rw [if_pos]
        · exact h2
        · by_contra hc
          exact hno ⟨a, hl, not_lt.1 hc⟩

/-! ### Reading the invariant through indices of the hull in time order -/

theorem Good.consecutive {S : List (Pt K)} {h : List (Pt K)} (hg : Good S h) (i : Nat) {a b : Pt K}
    (ha : h.reverse[i]? = some a) (hb : h.reverse[i + 1]? = some b) :
    a.x < b.x ∧ (∀ q ∈ S, Above a b q) := by
  induction h with
  | nil => simp at ha
  | cons t r ih =>
    cases r with
    | nil =>
      simp at hb
    | cons b' r =>
      obtain ⟨h1, h2, h3, h4⟩ := hg
      have hlen : (b' :: r).reverse.length = r.length + 1 := by simp
      rw [List.reverse_cons, List.getElem?_append] at ha hb
      by_cases hi : i + 1 < (b' :: r).reverse.length
      · rw [if_pos hi] at hb
        rw [if_pos (by omega)] at ha
        exact ih h4 ha hb
      · rw [if_neg hi] at hb
        have hi2 : i + 1 - (b' :: r).reverse.length = 0 := by
          by_contra hc
          rw [List.getElem?_eq_none (by simp only [List.length_cons, List.length_nil]; omega)] at hb
          cases hb
        rw [hi2] at hb
        have hbt : t = b := by simpa using hb
        rw [if_pos (by omega)] at ha
        have : i = r.length := by omega
        subst this
        simp at ha
        subst ha hbt
        exact ⟨h2, h3⟩

end Kalibr.Corrector
