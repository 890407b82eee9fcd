import Verif.Quads.Winding

/-!
# C139: the line through the points of an edge, and the direction of the segment
-/

namespace Kalibr.Quads

open Kalibr.Target (P2)
open Real

/-! ## The fit -/

/-- The weighted sum of the squared distances of the points from the line through `q` with the unit
direction `(u, v)`. -/
def cost (l : List XYW) (q : P2) (u v : ℝ) : ℝ :=
  (l.map fun s => s.w * ((s.x - q.1) * v - (s.y - q.2) * u) ^ 2).sum

theorem cost_eq (l : List XYW) (q : P2) (u v : ℝ) :
    cost l q u v = v ^ 2 * (l.map fun s => s.x * s.x * s.w).sum - 2 * u * v * (l.map fun s => s.x * s.y * s.w).sum
      + u ^ 2 * (l.map fun s => s.y * s.y * s.w).sum
      - 2 * (q.1 * v - q.2 * u) * (v * (l.map fun s => s.x * s.w).sum - u * (l.map fun s => s.y * s.w).sum)
      + (q.1 * v - q.2 * u) ^ 2 * (l.map fun s => s.w).sum := by
  unfold cost
  induction l with
  | nil => simp
  | cons s l ih =>
    simp only [List.map_cons, List.sum_cons]
    rw [ih]
    ring

/-- The smallest value of the quadratic form of a covariance on unit vectors is taken at the angle that
the code computes. -/
theorem form_min (A B C a b : ℝ) (h : a ^ 2 + b ^ 2 = 1) :
    let phi := 1 / 2 * atan2 (-2 * B) (C - A)
    A * cos phi ^ 2 + 2 * B * cos phi * sin phi + C * sin phi ^ 2 ≤ A * a ^ 2 + 2 * B * a * b + C * b ^ 2 := by
  intro phi
  have c2 : cos phi ^ 2 = (1 + cos (2 * phi)) / 2 := by rw [cos_two_mul]; ring
  have s2 : sin phi ^ 2 = (1 - cos (2 * phi)) / 2 := by rw [cos_two_mul, sin_sq]; ring
  have cs : 2 * cos phi * sin phi = sin (2 * phi) := by rw [sin_two_mul]; ring
  have h2 : 2 * phi = atan2 (-2 * B) (C - A) := by show 2 * (1 / 2 * _) = _; ring
  have lhs : A * cos phi ^ 2 + 2 * B * cos phi * sin phi + C * sin phi ^ 2
      = (A + C) / 2 + ((A - C) / 2 * cos (2 * phi) + B * sin (2 * phi)) := by
    rw [c2, s2, ← cs]; ring
  have rhs : A * a ^ 2 + 2 * B * a * b + C * b ^ 2
      = (A + C) / 2 + ((A - C) / 2 * (a ^ 2 - b ^ 2) + B * (2 * a * b)) := by
    have : (A + C) / 2 = (A + C) / 2 * (a ^ 2 + b ^ 2) := by rw [h]; ring
    rw [this]; ring
  rw [lhs, rhs, h2]
  have hunit : (a ^ 2 - b ^ 2) ^ 2 + (2 * a * b) ^ 2 = 1 := by
    have : (a ^ 2 - b ^ 2) ^ 2 + (2 * a * b) ^ 2 = (a ^ 2 + b ^ 2) ^ 2 := by ring
    rw [this, h]; norm_num
  by_cases h0 : ((C - A, -2 * B) : P2) = 0
  · have e1 : C - A = 0 := congrArg Prod.fst h0
    have e2 : -2 * B = 0 := congrArg Prod.snd h0
    have e3 : B = 0 := by linarith
    have e4 : A = C := by linarith
    rw [e3, e4]; simp
  · obtain ⟨x1, x2⟩ := atan2_spec (e := (C - A, -2 * B)) h0
    simp only at x1 x2
    have hl := len_pos h0
    obtain ⟨R, hR⟩ : ∃ R, R = len (C - A, -2 * B) := ⟨_, rfl⟩
    rw [← hR] at x1 x2 hl
    generalize atan2 (-2 * B) (C - A) = θ at *
    have hcs := sin_sq_add_cos_sq θ
    have l1 : (A - C) / 2 * cos θ + B * sin θ = -(R / 2) := by
      have e1 : A - C = -(R * cos θ) := by linarith
      have e2 : B = -(R * sin θ) / 2 := by linarith
      rw [e1, e2]
      linear_combination (-(R / 2)) * hcs
    have r1 : (A - C) / 2 * (a ^ 2 - b ^ 2) + B * (2 * a * b)
        = -(R / 2) * (cos θ * (a ^ 2 - b ^ 2) + sin θ * (2 * a * b)) := by
      have e1 : A - C = -(R * cos θ) := by linarith
      have e2 : B = -(R * sin θ) / 2 := by linarith
      rw [e1, e2]; ring
    have hle : cos θ * (a ^ 2 - b ^ 2) + sin θ * (2 * a * b) ≤ 1 := by
      nlinarith [sq_nonneg (cos θ - (a ^ 2 - b ^ 2)), sq_nonneg (sin θ - 2 * a * b)]
    rw [l1, r1]
    nlinarith

/-- **C139.** The fitted line has a unit direction, and no other line has a smaller weighted sum of squared
distances from the points, if the weights add up to a positive number. -/
theorem C139_fit (l : List XYW) (hn : 0 < (l.map fun s => s.w).sum) :
    let g := Line.lsqFit l
    g.dx ^ 2 + g.dy ^ 2 = 1 ∧
    ∀ (q : P2) (u v : ℝ), u ^ 2 + v ^ 2 = 1 → cost l g.p g.dx g.dy ≤ cost l q u v := by
  intro g
  refine ⟨?_, ?_⟩
  · show (-sin _) ^ 2 + cos _ ^ 2 = 1
    rw [neg_sq]; exact sin_sq_add_cos_sq _
  intro q u v huv
  rw [cost_eq, cost_eq]
  show (cos _) ^ 2 * _ - 2 * (-sin _) * cos _ * _ + (-sin _) ^ 2 * _
    - 2 * (_ / _ * cos _ - _ / _ * (-sin _)) * (cos _ * _ - (-sin _) * _)
    + (_ / _ * cos _ - _ / _ * (-sin _)) ^ 2 * _ ≤ _
  obtain ⟨n, hn'⟩ : ∃ n, n = (l.map fun s => s.w).sum := ⟨_, rfl⟩
  rw [← hn'] at hn ⊢
  generalize (l.map fun s => s.x * s.w).sum = mX
  generalize (l.map fun s => s.y * s.w).sum = mY
  generalize (l.map fun s => s.x * s.x * s.w).sum = mXX
  generalize (l.map fun s => s.y * s.y * s.w).sum = mYY
  generalize (l.map fun s => s.x * s.y * s.w).sum = mXY
  have key := form_min (mXX / n - mX / n * (mX / n)) (mXY / n - mX / n * (mY / n)) (mYY / n - mY / n * (mY / n)) v (-u)
    (by rw [neg_sq]; linarith)
  simp only at key
  generalize 1 / 2 * atan2 (-2 * (mXY / n - mX / n * (mY / n)))
    (mYY / n - mY / n * (mY / n) - (mXX / n - mX / n * (mX / n))) = φ at *
  obtain ⟨a, ha⟩ : ∃ a, a = mX / n := ⟨_, rfl⟩
  obtain ⟨b, hb⟩ : ∃ b, b = mY / n := ⟨_, rfl⟩
  obtain ⟨c, hc⟩ : ∃ c, c = mXX / n := ⟨_, rfl⟩
  obtain ⟨d, hd⟩ : ∃ d, d = mYY / n := ⟨_, rfl⟩
  obtain ⟨e, he⟩ : ∃ e, e = mXY / n := ⟨_, rfl⟩
  rw [← ha, ← hb, ← hc, ← hd, ← he] at key
  have ha' : mX = a * n := by rw [ha]; field_simp
  have hb' : mY = b * n := by rw [hb]; field_simp
  have hc' : mXX = c * n := by rw [hc]; field_simp
  have hd' : mYY = d * n := by rw [hd]; field_simp
  have he' : mXY = e * n := by rw [he]; field_simp
  rw [← ha, ← hb, ha', hb', hc', hd', he']
  have k2 := mul_le_mul_of_nonneg_right key hn.le
  have sq : 0 ≤ n * ((q.1 - a) * v - (q.2 - b) * u) ^ 2 := by positivity
  nlinarith

/-! ## The ends of the segment -/

/-- For a line with a unit direction: a point and its projection. -/
theorem project {g : Line} (hg : g.dx ^ 2 + g.dy ^ 2 = 1) (c : ℝ) :
    (∀ q : P2, g.coordinate q = q.1 * g.dx + q.2 * g.dy) ∧
    g.pointOf c = (g.p.1 + (c - (g.p.1 * g.dx + g.p.2 * g.dy)) * g.dx, g.p.2 + (c - (g.p.1 * g.dx + g.p.2 * g.dy)) * g.dy) := by
  have hm : √(g.dx * g.dx + g.dy * g.dy) = 1 := by
    rw [show g.dx * g.dx + g.dy * g.dy = 1 by linarith, sqrt_one]
  have e : g.normalizeSlope = g := by
    unfold Line.normalizeSlope
    simp only [hm, div_one]
  constructor
  · intro q
    unfold Line.coordinate
    simp only [e]
  · unfold Line.pointOf
    simp only [e]
    ext
    · simp only
      linear_combination (g.p.1) * hg
    · simp only
      linear_combination (g.p.2) * hg

theorem foldl_min_spec (cs : List ℝ) : ∀ c : ℝ, (cs.foldl min c ∈ c :: cs) ∧ ∀ x ∈ c :: cs, cs.foldl min c ≤ x := by
  induction cs with
  | nil => intro c; simp
  | cons d cs ih =>
    intro c
    obtain ⟨h1, h2⟩ := ih (min c d)
    simp only [List.foldl_cons]
    constructor
    · rcases List.mem_cons.1 h1 with h | h
      · rw [h]
        rcases min_choice c d with hm | hm <;> rw [hm] <;> simp
      · simp [h]
    · intro x hx
      rcases List.mem_cons.1 hx with rfl | hx
      · exact (h2 _ (List.mem_cons_self ..)).trans (min_le_left _ _)
      · rcases List.mem_cons.1 hx with rfl | hx
        · exact (h2 _ (List.mem_cons_self ..)).trans (min_le_right _ _)
        · exact h2 _ (List.mem_cons_of_mem _ hx)

theorem foldl_max_spec (cs : List ℝ) : ∀ c : ℝ, (cs.foldl max c ∈ c :: cs) ∧ ∀ x ∈ c :: cs, x ≤ cs.foldl max c := by
  induction cs with
  | nil => intro c; simp
  | cons d cs ih =>
    intro c
    obtain ⟨h1, h2⟩ := ih (max c d)
    simp only [List.foldl_cons]
    constructor
    · rcases List.mem_cons.1 h1 with h | h
      · rw [h]
        rcases max_choice c d with hm | hm <;> rw [hm] <;> simp
      · simp [h]
    · intro x hx
      rcases List.mem_cons.1 hx with rfl | hx
      · exact (le_max_left _ _).trans (h2 _ (List.mem_cons_self ..))
      · rcases List.mem_cons.1 hx with rfl | hx
        · exact (le_max_right _ _).trans (h2 _ (List.mem_cons_self ..))
        · exact h2 _ (List.mem_cons_of_mem _ hx)

/-- `f` is the foot of the perpendicular from `q` to the line. -/
def IsFoot (g : Line) (q f : P2) : Prop :=
  (∃ t, f = (g.p.1 + t * g.dx, g.p.2 + t * g.dy)) ∧ (q.1 - f.1) * g.dx + (q.2 - f.2) * g.dy = 0

theorem foot_pointOf {g : Line} (hg : g.dx ^ 2 + g.dy ^ 2 = 1) (q : P2) : IsFoot g q (g.pointOf (g.coordinate q)) := by
  obtain ⟨h1, h2⟩ := project hg (g.coordinate q)
  rw [h2, h1]
  refine ⟨⟨_, rfl⟩, ?_⟩
  simp only
  linear_combination (-(q.1 * g.dx + q.2 * g.dy - (g.p.1 * g.dx + g.p.2 * g.dy))) * hg

/-- **C139, the segment.** With at least one point there is a segment; each of its ends is the foot on the
fitted line of one of the points, and the feet of all points lie between the ends. -/
theorem C139_segment (l : List XYW) (hl : l ≠ []) :
    ∃ p0 p1, fitSegment l = some (p0, p1) ∧
      (∃ s ∈ l, IsFoot (Line.lsqFit l) (s.x, s.y) p0) ∧ (∃ s ∈ l, IsFoot (Line.lsqFit l) (s.x, s.y) p1) ∧
      ∀ s ∈ l, ∃ t : ℝ, 0 ≤ t ∧ t ≤ 1 ∧ IsFoot (Line.lsqFit l) (s.x, s.y) (p0 + t • (p1 - p0)) := by
  have hg : (Line.lsqFit l).dx ^ 2 + (Line.lsqFit l).dy ^ 2 = 1 := by
    show (-sin _) ^ 2 + cos _ ^ 2 = 1
    rw [neg_sq]; exact sin_sq_add_cos_sq _
  obtain ⟨g, hgd⟩ : ∃ g, g = Line.lsqFit l := ⟨_, rfl⟩
  rw [← hgd] at hg ⊢
  obtain ⟨s0, ss, rfl⟩ := List.exists_cons_of_ne_nil hl
  obtain ⟨cs, hcs⟩ : ∃ cs, cs = ss.map fun s => g.coordinate (s.x, s.y) := ⟨_, rfl⟩
  obtain ⟨c, hc⟩ : ∃ c, c = g.coordinate (s0.x, s0.y) := ⟨_, rfl⟩
  have hall : c :: cs = (s0 :: ss).map fun s => g.coordinate (s.x, s.y) := by
    rw [List.map_cons, hcs, hc]
  have hfit : fitSegment (s0 :: ss) = some (g.pointOf (cs.foldl min c), g.pointOf (cs.foldl max c)) := by
    unfold fitSegment
    simp only [← hgd, ← hall]
  obtain ⟨m1, m2⟩ := foldl_min_spec cs c
  obtain ⟨M1, M2⟩ := foldl_max_spec cs c
  refine ⟨_, _, hfit, ?_, ?_, ?_⟩
  · rw [hall] at m1
    obtain ⟨s, hs, he⟩ := List.mem_map.1 m1
    exact ⟨s, hs, by rw [← he]; exact foot_pointOf hg _⟩
  · rw [hall] at M1
    obtain ⟨s, hs, he⟩ := List.mem_map.1 M1
    exact ⟨s, hs, by rw [← he]; exact foot_pointOf hg _⟩
  · intro s hs
    have hx : g.coordinate (s.x, s.y) ∈ c :: cs := by
      rw [hall]; exact List.mem_map.2 ⟨s, hs, rfl⟩
    have b1 := m2 _ hx
    have b2 := M2 _ hx
    generalize cs.foldl min c = lo at *
    generalize cs.foldl max c = hi at *
    obtain ⟨x, hxd⟩ : ∃ x, x = g.coordinate (s.x, s.y) := ⟨_, rfl⟩
    rw [← hxd] at b1 b2
    have foot := foot_pointOf hg (s.x, s.y)
    rw [← hxd] at foot
    by_cases h : lo = hi
    · refine ⟨0, le_rfl, zero_le_one, ?_⟩
      have : x = lo := le_antisymm (by rw [h]; exact b2) b1
      rw [zero_smul, add_zero, ← this]
      exact foot
    · have hlt : 0 < hi - lo := sub_pos.2 (lt_of_le_of_ne (b1.trans b2) h)
      refine ⟨(x - lo) / (hi - lo), div_nonneg (by linarith) hlt.le, (div_le_one hlt).2 (by linarith), ?_⟩
      have e : g.pointOf lo + ((x - lo) / (hi - lo)) • (g.pointOf hi - g.pointOf lo) = g.pointOf x := by
        rw [(project hg lo).2, (project hg hi).2, (project hg x).2]
        ext
        · simp only [Prod.fst_add, Prod.smul_fst, Prod.fst_sub, smul_eq_mul]
          field_simp
          ring
        · simp only [Prod.snd_add, Prod.smul_snd, Prod.snd_sub, smul_eq_mul]
          field_simp
          ring
      rw [e]
      exact foot

/-! ## The direction of the segment -/

theorem sin_mod2pi (v : ℝ) : sin (mod2pi v) = sin v := by
  obtain ⟨⟨k, hk⟩, _⟩ := mod2pi_spec v
  rw [hk, sin_add_int_mul_two_pi]

theorem sin_neg_of_mod {v : ℝ} (h : mod2pi v < 0) : sin v ≤ 0 := by
  rw [← sin_mod2pi]
  exact sin_nonpos_of_nonpos_of_neg_pi_le h.le (mod2pi_spec v).2.1

theorem sin_nonneg_of_mod {v : ℝ} (h : ¬ mod2pi v < 0) : 0 ≤ sin v := by
  rw [← sin_mod2pi]
  exact sin_nonneg_of_nonneg_of_le_pi (not_lt.1 h) (mod2pi_spec v).2.2

open Classical in
/-- The weight of the gradients whose direction satisfies `P`. -/
noncomputable def weightOf (grads : List (ℝ × ℝ)) (P : ℝ → Prop) : ℝ :=
  (grads.map fun g => if P g.1 then g.2 else 0).sum

theorem weight_mono {grads : List (ℝ × ℝ)} (hw : ∀ g ∈ grads, 0 ≤ g.2) {P Q : ℝ → Prop} (h : ∀ a, P a → Q a) :
    weightOf grads P ≤ weightOf grads Q := by
  classical
  unfold weightOf
  apply List.sum_le_sum
  intro g hg
  by_cases hp : P g.1
  · rw [if_pos hp, if_pos (h _ hp)]
  · rw [if_neg hp]
    by_cases hq : Q g.1
    · rw [if_pos hq]; exact hw g hg
    · rw [if_neg hq]

/-- **C139, the direction.** The oriented segment joins the two given points and has their distance as its
length; its recorded angle is opposite to the way from its first to its second end; and the gradients that
point to the right of that way have together no more weight than the others. -/
theorem C139_direction (p0 p1 : P2) (hp : p0 ≠ p1) (grads : List (ℝ × ℝ)) (hw : ∀ g ∈ grads, 0 ≤ g.2) :
    let s := orient p0 p1 grads
    (((s.x0, s.y0) = p0 ∧ (s.x1, s.y1) = p1) ∨ ((s.x0, s.y0) = p1 ∧ (s.x1, s.y1) = p0)) ∧
    0 < s.length ∧ s.length = √((p1.1 - p0.1) ^ 2 + (p1.2 - p0.2) ^ 2) ∧
    s.x1 - s.x0 = -(s.length * cos s.theta) ∧ s.y1 - s.y0 = -(s.length * sin s.theta) ∧
    weightOf grads (fun a => cross (s.x1 - s.x0, s.y1 - s.y0) (cos a, sin a) < 0)
      ≤ weightOf grads (fun a => 0 ≤ cross (s.x1 - s.x0, s.y1 - s.y0) (cos a, sin a)) := by
  classical
  intro s
  have hd : ((p1.1 - p0.1, p1.2 - p0.2) : P2) ≠ 0 := by
    intro h
    have h1 := congrArg Prod.fst h
    have h2 := congrArg Prod.snd h
    simp only [Prod.fst_zero, Prod.snd_zero] at h1 h2
    exact hp (Prod.ext (by linarith) (by linarith))
  obtain ⟨a1, a2⟩ := atan2_spec hd
  have hl := len_pos hd
  have hlen : distance2D p0 p1 = len (p1.1 - p0.1, p1.2 - p0.2) := by
    unfold distance2D len
    congr 1; ring
  simp only at a1 a2
  obtain ⟨L, hL⟩ : ∃ L, L = len (p1.1 - p0.1, p1.2 - p0.2) := ⟨_, rfl⟩
  obtain ⟨t0, ht0⟩ : ∃ t, t = atan2 (p1.2 - p0.2) (p1.1 - p0.1) := ⟨_, rfl⟩
  rw [← hL, ← ht0] at a1 a2
  rw [← hL] at hl hlen
  have hcs := sin_sq_add_cos_sq t0
  -- the votes
  obtain ⟨A, hA⟩ : ∃ A, A = (grads.map fun g => if mod2pi (g.1 - t0) < 0 then g.2 else 0).sum := ⟨_, rfl⟩
  obtain ⟨B, hB⟩ : ∃ B, B = (grads.map fun g => if mod2pi (g.1 - t0) < 0 then 0 else g.2).sum := ⟨_, rfl⟩
  have hA' : A = weightOf grads fun a => mod2pi (a - t0) < 0 := by
    rw [hA]; unfold weightOf; congr 1
  have hB' : B = weightOf grads fun a => ¬ mod2pi (a - t0) < 0 := by
    rw [hB]; unfold weightOf; congr 1
    apply List.map_congr_left
    intro g _
    by_cases h : mod2pi (g.1 - t0) < 0 <;> simp [h]
  have hs : s = orient p0 p1 grads := rfl
  unfold orient at hs
  simp only [← ht0, hlen, ← hA, ← hB] at hs
  have llen : L = √((p1.1 - p0.1) ^ 2 + (p1.2 - p0.2) ^ 2) := hL
  by_cases hf : B > A
  · rw [if_pos hf] at hs
    have hdot : ¬ (p1.1 - p0.1) * cos (t0 + π) + (p1.2 - p0.2) * sin (t0 + π) > 0 := by
      rw [cos_add_pi, sin_add_pi, a1, a2]
      nlinarith
    rw [if_neg hdot] at hs
    rw [hs]
    simp only [cos_add_pi, sin_add_pi]
    refine ⟨Or.inl (by simp), hl, llen, by linarith, by linarith, ?_⟩
    have cr : ∀ a, cross (p1.1 - p0.1, p1.2 - p0.2) (cos a, sin a) = L * sin (a - t0) := by
      intro a
      unfold cross
      rw [sin_sub]
      simp only
      rw [a1, a2]; ring
    simp only [cr]
    calc _ ≤ A := by
          rw [hA']
          apply weight_mono hw
          intro a h
          by_contra hc
          have := sin_nonneg_of_mod hc
          nlinarith
      _ ≤ B := hf.le
      _ ≤ _ := by
          rw [hB']
          apply weight_mono hw
          intro a h
          have := sin_nonneg_of_mod h
          positivity
  · rw [if_neg hf] at hs
    have hdot : (p1.1 - p0.1) * cos t0 + (p1.2 - p0.2) * sin t0 > 0 := by
      rw [a1, a2]
      nlinarith
    rw [if_pos hdot] at hs
    rw [hs]
    simp only
    refine ⟨Or.inr (by simp), hl, llen, by linarith, by linarith, ?_⟩
    have cr : ∀ a, cross (p0.1 - p1.1, p0.2 - p1.2) (cos a, sin a) = -(L * sin (a - t0)) := by
      intro a
      unfold cross
      rw [sin_sub]
      simp only
      linear_combination (-sin a) * a1 + cos a * a2
    simp only [cr]
    calc _ ≤ B := by
          rw [hB']
          apply weight_mono hw
          intro a h hc
          have := sin_neg_of_mod hc
          nlinarith
      _ ≤ A := not_lt.1 hf
      _ ≤ _ := by
          rw [hA']
          apply weight_mono hw
          intro a h
          have := sin_neg_of_mod h
          nlinarith

/-- The hypotheses are met: two points with weights. -/
example : 0 < (([⟨0, 0, 1⟩, ⟨4, 2, 3⟩] : List XYW).map fun s => s.w).sum := by norm_num

end Kalibr.Quads
