import Verif.Quads.Model

/-!
# C135: loops of four segments
-/

namespace Kalibr.Quads

/-- `p` is a loop of four segments, written from its first segment and back to it. -/
def IsLoop (children : ℕ → List ℕ) (p : List ℕ) : Prop :=
  ∃ a b c d, p = [a, b, c, d, a] ∧ b ∈ children a ∧ c ∈ children b ∧ d ∈ children c ∧ a ∈ children d

/-- The four ways to write the loop `a b c d`. -/
def rotations (a b c d : ℕ) : List (List ℕ) :=
  [[a, b, c, d, a], [b, c, d, a, b], [c, d, a, b, c], [d, a, b, c, d]]

theorem mem_search {children : ℕ → List ℕ} {theta : ℕ → ℝ} {i : ℕ} {p : List ℕ} :
    p ∈ search children theta i 4 i [i] ↔ ∃ b c d, p = [i, b, c, d, i] ∧ b ∈ children i ∧ c ∈ children b ∧
      d ∈ children c ∧ i ∈ children d ∧ theta b ≤ theta i ∧ theta c ≤ theta i ∧ theta d ≤ theta i := by
  simp only [search, List.mem_flatMap, List.mem_filter, not_lt, decide_eq_true_eq]
  constructor
  · rintro ⟨b, ⟨hb, tb⟩, c, ⟨hc, tc⟩, d, ⟨hd, td⟩, e, ⟨he, te⟩, hp⟩
    by_cases h : e = i
    · rw [if_pos h, List.mem_singleton] at hp
      subst h
      exact ⟨b, c, d, by simpa using hp, hb, hc, hd, he, tb, tc, td⟩
    · rw [if_neg h] at hp; cases hp
  · rintro ⟨b, c, d, rfl, hb, hc, hd, he, tb, tc, td⟩
    exact ⟨b, ⟨hb, tb⟩, c, ⟨hc, tc⟩, d, ⟨hd, td⟩, i, ⟨he, le_refl _⟩, by simp⟩

/-- **C135.** Exactly the loops of four segments are examined, each from every segment of it with the
greatest angle. -/
theorem C135_loops (children : ℕ → List ℕ) (theta : ℕ → ℝ) (n : ℕ) (p : List ℕ) :
    p ∈ loops children theta n ↔
      IsLoop children p ∧ p.headD 0 < n ∧ ∀ s ∈ p, theta s ≤ theta (p.headD 0) := by
  simp only [loops, List.mem_flatMap, List.mem_range, mem_search]
  constructor
  · rintro ⟨i, hi, b, c, d, rfl, hb, hc, hd, he, tb, tc, td⟩
    refine ⟨⟨i, b, c, d, rfl, hb, hc, hd, he⟩, hi, ?_⟩
    simp only [List.headD_cons, List.forall_mem_cons]
    exact ⟨le_refl _, tb, tc, td, le_refl _, by simp⟩
  · rintro ⟨⟨a, b, c, d, rfl, hb, hc, hd, he⟩, hn, ht⟩
    simp only [List.headD_cons, List.forall_mem_cons] at hn ht
    exact ⟨a, hn, b, c, d, rfl, hb, hc, hd, he, ht.2.1, ht.2.2.1, ht.2.2.2.1⟩

theorem search_length {children : ℕ → List ℕ} {theta : ℕ → ℝ} {i : ℕ} :
    ∀ (k parent : ℕ) (path p : List ℕ), p ∈ search children theta i k parent path →
      ∃ q, p = path ++ q ∧ q.length = k := by
  intro k
  induction k with
  | zero =>
    intro parent path p h
    rw [search] at h
    split at h
    · exact ⟨[], by simpa using h, rfl⟩
    · cases h
  | succ k ih =>
    intro parent path p h
    rw [search, List.mem_flatMap] at h
    obtain ⟨c, _, hc⟩ := h
    obtain ⟨q, rfl, hq⟩ := ih c _ p hc
    exact ⟨c :: q, by simp, by simp [hq]⟩

theorem search_nodup {children : ℕ → List ℕ} {theta : ℕ → ℝ} {i : ℕ} (hc : ∀ s, (children s).Nodup) :
    ∀ (k parent : ℕ) (path : List ℕ), (search children theta i k parent path).Nodup := by
  intro k
  induction k with
  | zero => intro parent path; rw [search]; split <;> simp
  | succ k ih =>
    intro parent path
    rw [search, List.nodup_flatMap]
    refine ⟨fun c _ => ih c _, ?_⟩
    refine List.Pairwise.imp ?_ ((hc parent).filter _)
    intro a b hab p ha hb
    obtain ⟨q, rfl, _⟩ := search_length _ _ _ _ ha
    obtain ⟨q', h, _⟩ := search_length _ _ _ _ hb
    rw [List.append_assoc, List.append_assoc] at h
    have := List.append_cancel_left h
    simp at this
    exact hab this.1

/-- Each way to write a loop is examined at most once, if no segment is listed twice as a successor. -/
theorem loops_nodup {children : ℕ → List ℕ} {theta : ℕ → ℝ} (n : ℕ) (hc : ∀ s, (children s).Nodup) :
    (loops children theta n).Nodup := by
  rw [loops, List.nodup_flatMap]
  refine ⟨fun i _ => search_nodup hc 4 i [i], ?_⟩
  refine List.Pairwise.imp ?_ List.nodup_range
  intro a b hab p ha hb
  obtain ⟨_, _, _, e1, _⟩ := mem_search.1 ha
  obtain ⟨_, _, _, e2, _⟩ := mem_search.1 hb
  rw [e1] at e2
  simp at e2
  exact hab e2.1

/-- **C135.** If one of the four segments of a loop has a greater angle than the others, the loop is
examined exactly once: exactly one of the four ways to write it is examined, and once. -/
theorem C135_once (children : ℕ → List ℕ) (theta : ℕ → ℝ) (n : ℕ) (hc : ∀ s, (children s).Nodup)
    (a b c d : ℕ) (hn : a < n ∧ b < n ∧ c < n ∧ d < n) (hl : IsLoop children [a, b, c, d, a])
    (hmax : (theta b < theta a ∧ theta c < theta a ∧ theta d < theta a) ∨
      (theta a < theta b ∧ theta c < theta b ∧ theta d < theta b) ∨
      (theta a < theta c ∧ theta b < theta c ∧ theta d < theta c) ∨
      (theta a < theta d ∧ theta b < theta d ∧ theta c < theta d)) :
    ((loops children theta n).filter fun p => p ∈ rotations a b c d).length = 1 := by
  obtain ⟨a', b', c', d', e, hb, hcc, hd, ha⟩ := hl
  simp only [List.cons.injEq, and_true] at e
  obtain ⟨rfl, rfl, rfl, rfl, _⟩ := e
  have key : ∀ m x y z : ℕ, m < n → x ∈ children m → y ∈ children x → z ∈ children y → m ∈ children z →
      theta x < theta m → theta y < theta m → theta z < theta m →
      (∀ p, p ∈ rotations a b c d ↔ p ∈ rotations m x y z) →
      ((loops children theta n).filter fun p => p ∈ rotations a b c d).length = 1 := by
    intro m x y z hm hx hy hz hmz tx ty tz hr
    have hmem : [m, x, y, z, m] ∈ (loops children theta n).filter fun p => p ∈ rotations a b c d := by
      rw [List.mem_filter]
      refine ⟨(C135_loops _ _ _ _).2 ⟨⟨m, x, y, z, rfl, hx, hy, hz, hmz⟩, by simpa using hm, ?_⟩, ?_⟩
      · simp only [List.headD_cons, List.forall_mem_cons]
        exact ⟨le_refl _, tx.le, ty.le, tz.le, le_refl _, by simp⟩
      · rw [decide_eq_true_eq, hr]; simp [rotations]
    have hone : ∀ p ∈ (loops children theta n).filter fun p => p ∈ rotations a b c d, p = [m, x, y, z, m] := by
      intro p hp
      rw [List.mem_filter, decide_eq_true_eq, hr] at hp
      obtain ⟨h1, h2⟩ := hp
      have h3 := ((C135_loops _ _ _ _).1 h1).2.2
      simp only [rotations, List.mem_cons, List.not_mem_nil, or_false] at h2
      rcases h2 with rfl | rfl | rfl | rfl
      · rfl
      · exact absurd (h3 m (by simp)) (not_le.2 (by simpa using tx))
      · exact absurd (h3 m (by simp)) (not_le.2 (by simpa using ty))
      · exact absurd (h3 m (by simp)) (not_le.2 (by simpa using tz))
    have hnd := (loops_nodup (theta := theta) n hc).filter (fun p => decide (p ∈ rotations a b c d))
    cases hL : (loops children theta n).filter fun p => p ∈ rotations a b c d with
    | nil => rw [hL] at hmem; cases hmem
    | cons p L =>
      cases L with
      | nil => rfl
      | cons q L =>
        rw [hL] at hone hnd
        have e1 := hone p (by simp)
        have e2 := hone q (by simp)
        rw [e1, e2] at hnd
        simp at hnd
  obtain ⟨na, nb, nc, nd⟩ := hn
  rcases hmax with h | h | h | h
  · exact key a b c d na hb hcc hd ha h.1 h.2.1 h.2.2 (fun p => Iff.rfl)
  · exact key b c d a nb hcc hd ha hb h.2.1 h.2.2 h.1 (fun p => by
      simp only [rotations, List.mem_cons, List.not_mem_nil, or_false]
      constructor
      · rintro (h | h | h | h) <;> simp [h]
      · rintro (h | h | h | h) <;> simp [h])
  · exact key c d a b nc hd ha hb hcc h.2.2 h.1 h.2.1 (fun p => by
      simp only [rotations, List.mem_cons, List.not_mem_nil, or_false]
      constructor
      · rintro (h | h | h | h) <;> simp [h]
      · rintro (h | h | h | h) <;> simp [h])
  · exact key d a b c nd ha hb hcc hd h.1 h.2.1 h.2.2 (fun p => by
      simp only [rotations, List.mem_cons, List.not_mem_nil, or_false]
      constructor
      · rintro (h | h | h | h) <;> simp [h]
      · rintro (h | h | h | h) <;> simp [h])

/-- Four segments in a ring, and a fifth that leads away. -/
def ringChildren : ℕ → List ℕ
  | 0 => [1, 4]
  | 1 => [2]
  | 2 => [3]
  | 3 => [0]
  | _ => []

/-- Non-vacuity. -/
example : (∀ s, (ringChildren s).Nodup) ∧ IsLoop ringChildren [0, 1, 2, 3, 0] ∧
    (fun s : ℕ => (s : ℝ)) 0 < (fun s : ℕ => (s : ℝ)) 3 := by
  refine ⟨?_, ⟨0, 1, 2, 3, rfl, by decide, by decide, by decide, by decide⟩, by norm_num⟩
  intro s
  match s with
  | 0 => decide
  | 1 => decide
  | 2 => decide
  | 3 => decide
  | _ + 4 => exact List.nodup_nil

/-- **C135 is false for equal angles.**  A ring whose angles are all equal is examined four times. -/
theorem C135_equal_counterexample :
    ((loops ringChildren (fun _ => 0) 5).filter fun p => p ∈ rotations 0 1 2 3).length = 4 := by
  have : ∀ c : ℕ, decide (¬ ((0 : ℝ) > 0)) = true := fun _ => by simp
  have hf : ∀ l : List ℕ, l.filter (fun _ => decide (¬ ((0 : ℝ) > 0))) = l := by
    intro l; simp
  simp only [loops, search, hf]
  decide

end Kalibr.Quads
