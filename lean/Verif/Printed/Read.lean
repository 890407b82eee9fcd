import Verif.Printed.Props

/-!
# Reading the printed target
-/

namespace Kalibr.Printed

open Kalibr.Target (P2 P3)
open Kalibr.Tag (turn turns pattern src)

/-- Reading a row of bits. -/
theorem row_testBit (f : ℕ → Bool) (w m i : ℕ) :
    ((List.range m).foldl (fun w c => Nat.bit (f c) w) w).testBit i =
      if i < m then f (m - 1 - i) else w.testBit (i - m) := by
  induction m generalizing i with
  | zero => simp
  | succ m ih =>
    rw [List.range_succ, List.foldl_append, List.foldl_cons, List.foldl_nil]
    cases i with
    | zero => rw [Nat.testBit_bit_zero, if_pos (by omega)]; rfl
    | succ i =>
      rw [Nat.testBit_bit_succ, ih]
      by_cases h : i < m
      · rw [if_pos h, if_pos (by omega), show m + 1 - 1 - (i + 1) = m - 1 - i by omega]
      · rw [if_neg h, if_neg (by omega), show i + 1 - (m + 1) = i - m by omega]

/-- Reading rows of bits. -/
theorem rows_testBit (f : ℕ → ℕ → Bool) (d n i : ℕ) (hd : 0 < d) :
    ((List.range n).foldl (fun w k => (List.range d).foldl (fun w c => Nat.bit (f k c) w) w) 0).testBit i =
      (decide (i < d * n) && f (n - 1 - i / d) (d - 1 - i % d)) := by
  induction n generalizing i with
  | zero => simp
  | succ n ih =>
    rw [List.range_succ, List.foldl_append, List.foldl_cons, List.foldl_nil, row_testBit]
    by_cases h : i < d
    · have h2 : i < d * (n + 1) := by rw [Nat.mul_succ]; omega
      rw [if_pos h, decide_eq_true h2, Bool.true_and, Nat.div_eq_of_lt h, Nat.mod_eq_of_lt h]
      rfl
    · rw [if_neg h, ih]
      have e : i = (i - d) + d := by omega
      have h1 : i / d = (i - d) / d + 1 := by
        conv_lhs => rw [e]
        exact Nat.add_div_right _ hd
      have h2 : i % d = (i - d) % d := by
        conv_lhs => rw [e]
        exact Nat.add_mod_right _ _
      rw [h1, h2, show n + 1 - 1 - ((i - d) / d + 1) = n - 1 - (i - d) / d by omega]
      congr 1
      rw [Nat.mul_succ]
      exact decide_eq_decide.2 (by omega)

/-- A view of the page that keeps lines parallel. -/
def Affine (view : P2 → P2) : Prop :=
  ∃ a b c d e f : ℝ, ∀ p, view p = (a + b * p.1 + c * p.2, d + e * p.1 + f * p.2)

theorem interpolate01_view {view : P2 → P2} (hv : Affine view) (q : Fin 4 → P2) (x y : ℝ) :
    interpolate01 (fun i => view (q i)) x y = view (interpolate01 q x y) := by
  obtain ⟨a, b, c, d, e, f, h⟩ := hv
  simp only [interpolate01, h]
  ext <;> simp only [Prod.fst_add, Prod.snd_add, Prod.fst_sub, Prod.snd_sub, Prod.smul_fst, Prod.smul_snd, smul_eq_mul] <;>
    ring

/-- The cell that is read for the cell `(ix, iy)` of a quadrilateral that begins at corner `k` of the tag. -/
def cellOf (d : ℕ) (k : Fin 4) (ix iy : ℕ) : ℕ × ℕ :=
  if k = 0 then (ix, iy) else if k = 1 then (d - 1 - iy, ix) else if k = 2 then (d - 1 - ix, d - 1 - iy)
  else (iy, d - 1 - ix)

theorem cellOf_lt {d ix iy : ℕ} (k : Fin 4) (hx : ix < d) (hy : iy < d) :
    (cellOf d k ix iy).1 < d ∧ (cellOf d k ix iy).2 < d := by
  fin_cases k <;> simp [cellOf] <;> omega

theorem rest_rest {d a : ℕ} (h : a < d) : d - 1 - (d - 1 - a) = a := by omega

theorem rest_lt {d a : ℕ} (h : a < d) : d - 1 - a < d := by omega

theorem cast_rest {d i : ℕ} (h : i < d) : ((d - 1 - i : ℕ) : ℝ) = d - 1 - i := by
  rw [Nat.cast_sub (by omega), Nat.cast_sub (by omega)]
  push_cast
  ring

theorem interpolate01_corner {size sp : ℝ} {d b x y ix iy : ℕ} (k : Fin 4) (hx : ix < d) (hy : iy < d) :
    interpolate01 (fun i => corner size sp x y (i + k)) ((b + ix + 1 / 2) / (2 * b + d)) ((b + iy + 1 / 2) / (2 * b + d)) =
      cell size sp d b x y (cellOf d k ix iy).1 (cellOf d k ix iy).2 := by
  have hd : (0 : ℝ) < d := by exact_mod_cast (by omega : 0 < d)
  have h0 : (2 * b + d : ℝ) ≠ 0 := by positivity
  have h1 : (d + b * 2 : ℝ) ≠ 0 := by positivity
  fin_cases k
  · ext <;> simp [interpolate01, corner, cell, cellOf] <;> field_simp <;> ring
  · ext <;> simp [interpolate01, corner, cell, cellOf, cast_rest hy] <;> field_simp <;> ring
  · ext <;> simp [interpolate01, corner, cell, cellOf, cast_rest hx, cast_rest hy] <;> field_simp <;> ring
  · ext <;> simp [interpolate01, corner, cell, cellOf, cast_rest hx] <;> field_simp <;> ring

/-- **C182**: whichever corner the quadrilateral begins with, and however the board is seen, the word read from a tag is
its code turned by as many quarters. -/
theorem C182_read (nCols nRows d : ℕ) (size sp : ℝ) (codes ids : List ℕ) (page : List Rect) (hz : 0 < size)
    (h : aprilBoard nCols nRows size sp d codes (some ids) = .ok page) (x y : ℕ) (hx : x < nCols) (hy : y < nRows)
    (hid : nCols * y + x ∉ ids) (hd : 0 < d) (hc : codes.getD (nCols * y + x) 0 < 2 ^ (d * d))
    (view : P2 → P2) (hv : Affine view) (white : P2 → Bool) (hw : ∀ p, white (view p) = true ↔ ¬ Black page p)
    (k : Fin 4) :
    pattern (readCode d 2 white fun i => view (corner (100 * size) sp x y (i + k))) =
      turns d k (pattern (codes.getD (nCols * y + x) 0)) := by
  set code := codes.getD (nCols * y + x) 0 with hcode
  have hcell : ∀ j r, j < d → r < d → white (view (cell (100 * size) sp d 2 x y j r)) =
      code.testBit (d * r + (d - 1 - j)) := by
    intro j r hj hr
    have := C182_cells nCols nRows d size sp codes ids page hz h x y hx hy hid j r hj hr
    rw [← hcode] at this
    cases hb : code.testBit (d * r + (d - 1 - j)) with
    | false =>
      rw [← Bool.not_eq_true, hw, not_not]
      exact this.2 hb
    | true =>
      rw [hw, this, hb]
      simp
  have hread : ∀ i, pattern (readCode d 2 white fun i => view (corner (100 * size) sp x y (i + k))) i =
      (decide (i < d * d) && code.testBit
        (d * (cellOf d k (d - 1 - i % d) (i / d)).2 + (d - 1 - (cellOf d k (d - 1 - i % d) (i / d)).1))) := by
    intro i
    unfold pattern readCode
    simp only
    rw [rows_testBit (fun k' ix => white (interpolate01 (fun i => view (corner (100 * size) sp x y (i + k)))
      (((2 : ℕ) + ix + 1 / 2) / (2 * (2 : ℕ) + d)) (((2 : ℕ) + (d - 1 - k' : ℕ) + 1 / 2) / (2 * (2 : ℕ) + d)))) d d i hd]
    by_cases hi : i < d * d
    · have hr : i / d < d := Nat.div_lt_of_lt_mul hi
      have hm : i % d < d := Nat.mod_lt _ hd
      obtain ⟨l1, l2⟩ := cellOf_lt k (rest_lt hm) hr
      rw [rest_rest hr, interpolate01_view hv, interpolate01_corner k (rest_lt hm) hr, hcell _ _ l1 l2]
    · rw [decide_eq_false hi, Bool.false_and, Bool.false_and]
  funext i
  rw [hread]
  by_cases hi : i < d * d
  · rw [decide_eq_true hi, Bool.true_and]
    have hr : i / d < d := Nat.div_lt_of_lt_mul hi
    have hm : i % d < d := Nat.mod_lt _ hd
    have h1 := Tag.src_lt hi
    have h2 := Tag.src_lt h1
    obtain ⟨a1, b1⟩ := Tag.src_div_mod hi
    obtain ⟨a2, b2⟩ := Tag.src_div_mod h1
    fin_cases k
    · show code.testBit (d * (i / d) + (d - 1 - (d - 1 - i % d))) = code.testBit i
      rw [show d - 1 - (d - 1 - i % d) = i % d by omega, Nat.div_add_mod]
    · show code.testBit (d * (d - 1 - i % d) + (d - 1 - (d - 1 - i / d))) = turn d (pattern code) i
      rw [Tag.turn_apply _ _ hi, show d - 1 - (d - 1 - i / d) = i / d by omega]
      rfl
    · show code.testBit (d * (d - 1 - i / d) + (d - 1 - (d - 1 - (d - 1 - i % d)))) =
        turn d (turn d (pattern code)) i
      rw [Tag.turn_apply _ _ hi, Tag.turn_apply _ _ h1, show d - 1 - (d - 1 - (d - 1 - i % d)) = d - 1 - i % d by omega]
      show _ = code.testBit (d * (d - 1 - src d i % d) + src d i / d)
      rw [a1, b1]
    · show code.testBit (d * (d - 1 - (d - 1 - i % d)) + (d - 1 - i / d)) =
        turn d (turn d (turn d (pattern code))) i
      rw [Tag.turn_apply _ _ hi, Tag.turn_apply _ _ h1, Tag.turn_apply _ _ h2,
        show d - 1 - (d - 1 - i % d) = i % d by omega]
      show _ = code.testBit (d * (d - 1 - src d (src d i) % d) + src d (src d i) / d)
      rw [a2, b2, a1, b1, show d - 1 - (d - 1 - i % d) = i % d by omega]
  · rw [decide_eq_false hi, Bool.false_and]
    exact (Tag.inside_turns (Tag.inside_pattern hc) k i hi).symm

theorem dist2D_self (p : P2) : dist2D p p = 0 := by simp [dist2D]

theorem dist2D_pos {p q : P2} (h : p ≠ q) : 0 < dist2D p q := by
  unfold dist2D
  apply Real.sqrt_pos.2
  by_contra hn
  apply h
  have h1 := mul_self_nonneg (p.1 - q.1)
  have h2 := mul_self_nonneg (p.2 - q.2)
  have e1 : (p.1 - q.1) * (p.1 - q.1) = 0 := by linarith
  have e2 : (p.2 - q.2) * (p.2 - q.2) = 0 := by linarith
  exact Prod.ext (sub_eq_zero.1 (mul_self_eq_zero.1 e1)) (sub_eq_zero.1 (mul_self_eq_zero.1 e2))

theorem bestRot_eq {far : ℝ} (hf : 0 < far) {q : Fin 4 → P2} (hq : Function.Injective q) (k : Fin 4) :
    bestRot far q (q k) = k := by
  have hpos : ∀ i, i ≠ k → 0 < dist2D (q k) (q i) := fun i hi => dist2D_pos fun h => hi (hq h).symm
  have h0 := dist2D_self (q k)
  have hnn : ∀ i, 0 ≤ dist2D (q k) (q i) := fun i => Real.sqrt_nonneg _
  have key : ∀ (l : List (Fin 4)) (s : ℝ × Fin 4), (s.1 = 0 ∧ s.2 = k) ∨ (0 < s.1 ∧ k ∈ l) →
      (open Classical in
        l.foldl (fun (s : ℝ × Fin 4) i => if dist2D (q k) (q i) < s.1 then (dist2D (q k) (q i), i) else s) s).2 = k := by
    intro l
    induction l with
    | nil =>
      rintro s (⟨_, h⟩ | ⟨_, h⟩)
      · exact h
      · simp at h
    | cons a l ih =>
      rintro s (⟨h1, h2⟩ | ⟨h1, h2⟩)
      · rw [List.foldl_cons]
        apply ih
        left
        rw [if_neg (by rw [h1]; exact not_lt.2 (hnn a))]
        exact ⟨h1, h2⟩
      · rw [List.foldl_cons]
        apply ih
        by_cases hak : a = k
        · left
          rw [hak, h0, if_pos h1]
          exact ⟨rfl, rfl⟩
        · right
          have hl : k ∈ l := by
            rcases List.mem_cons.1 h2 with h | h
            · exact absurd h.symm hak
            · exact h
          refine ⟨?_, hl⟩
          split
          · exact hpos a hak
          · exact h1
  exact key (List.finRange 4) (far, 0) (Or.inr ⟨hf, List.mem_finRange k⟩)

/-- `H` takes the corners of the unit square to those of the quadrilateral. -/
def Fits (H : P2 → P2) (q : Fin 4 → P2) : Prop :=
  H (-1, -1) = q 0 ∧ H (1, -1) = q 1 ∧ H (1, 1) = q 2 ∧ H (-1, 1) = q 3

theorem bottomLeft_eq {H : P2 → P2} {q : Fin 4 → P2} (hH : Fits H q) (k : Fin 4) :
    H (Real.cos ((k : ℕ) * Real.pi / 2) * (-1) + -Real.sin ((k : ℕ) * Real.pi / 2) * (-1),
      Real.sin ((k : ℕ) * Real.pi / 2) * (-1) + Real.cos ((k : ℕ) * Real.pi / 2) * (-1)) = q k := by
  obtain ⟨h0, h1, h2, h3⟩ := hH
  have c3 : Real.cos (3 * Real.pi / 2) = 0 := by
    rw [show 3 * Real.pi / 2 = Real.pi / 2 + Real.pi by ring, Real.cos_add_pi, Real.cos_pi_div_two, neg_zero]
  have s3 : Real.sin (3 * Real.pi / 2) = -1 := by
    rw [show 3 * Real.pi / 2 = Real.pi / 2 + Real.pi by ring, Real.sin_add_pi, Real.sin_pi_div_two]
  have e2 : 2 * Real.pi / 2 = Real.pi := by ring
  fin_cases k
  · simpa using h0
  · simpa using h1
  · simpa [e2] using h2
  · simpa [c3, s3] using h3

theorem corner_injective {size sp : ℝ} (hz : 0 < size) (x y : ℕ) : Function.Injective (corner size sp x y) := by
  intro i j h
  fin_cases i <;> fin_cases j <;> simp_all [corner] <;> linarith

/-- **C182**: the target the detector looks for is the one that is printed.  For every printed board, every tag on it that
is not skipped, every affine view, whichever corner the quadrilateral begins with: the tag is found under its own
identifier, and its corners are the views of the points of the target, in centimetres, under whose indices they are
stored. -/
theorem C182_found (nCols nRows : ℕ) (size sp far : ℝ) (e : ℤ) (ids : List ℕ) (page : List Rect) (mem : List P3)
    (hz : 0 < size) (hs : 0 < sp) (he : 0 ≤ e) (hf : 0 < far) (hm : mem.length = 2 * nRows * (2 * nCols))
    (h : aprilBoard nCols nRows size sp 6 printed36h11 (some ids) = .ok page)
    (x y : ℕ) (hx : x < nCols) (hy : y < nRows) (hid : nCols * y + x ∉ ids)
    (view : P2 → P2) (hv : Affine view) (hi : Function.Injective view)
    (white : P2 → Bool) (hw : ∀ p, white (view p) = true ↔ ¬ Black page p)
    (k : Fin 4) (H : P2 → P2) (hH : Fits H fun i => view (corner (100 * size) sp x y (i + k))) :
    ∃ t det p, Target.aprilgrid nRows nCols size sp mem = .ok t ∧
      detect ⟨6, e, Tag.t36h11⟩ 2 far white (fun i => view (corner (100 * size) sp x y (i + k))) H = .ok (det, p) ∧
      det.id = (nCols * y + x : ℕ) ∧ det.good = true ∧
      ∀ i, ∃ P, t.point (Target.cornerIdx t.cols (nCols * y + x) i) = .ok P ∧ P.2.2 = 0 ∧
        p i = view (100 * P.1, 100 * P.2.1) := by
  set q : Fin 4 → P2 := fun i => view (corner (100 * size) sp x y (i + k)) with hq
  have hm11 := Tag.C66_distance_partial.2.2.2.2
  have hlt : nCols * y + x < Tag.t36h11.length := by
    rw [← C182_table]
    exact ((C182_printable nCols nRows 6 size sp printed36h11 ids).1 ⟨page, h⟩).2 x y hx hy hid
  have hcode : Tag.t36h11.getD (nCols * y + x) 0 < 2 ^ (6 * 6) := by
    rw [List.getD_eq_getElem _ _ hlt]
    exact hm11.1 _ (List.getElem_mem hlt)
  have hread := C182_read nCols nRows 6 size sp printed36h11 ids page hz h x y hx hy hid (by norm_num)
    (by rw [C182_table]; exact hcode) view hv white hw k
  rw [C182_table, ← hq] at hread
  have hr : readCode 6 2 white q < 2 ^ (6 * 6) := by
    apply Nat.lt_pow_two_of_testBit
    intro i hi
    have := congrFun hread i
    rw [Tag.inside_turns (Tag.inside_pattern hcode) k i (by omega)] at this
    exact this
  have hback : turns 6 ((-k : Fin 4) : ℕ) (pattern (readCode 6 2 white q)) = pattern (Tag.t36h11.getD (nCols * y + x) 0) := by
    rw [hread, ← Tag.turns_add]
    have : ((-k : Fin 4) : ℕ) + (k : ℕ) = 0 ∨ ((-k : Fin 4) : ℕ) + (k : ℕ) = 4 := by
      fin_cases k <;> decide
    rcases this with h' | h' <;> rw [h']
    · rfl
    · exact Tag.turns_four (Tag.inside_pattern hcode)
  obtain ⟨det, d1, d2, d3, _, _, d6⟩ := Tag.C15_corrects ⟨6, e, Tag.t36h11⟩ 0 (readCode 6 2 white q) (nCols * y + x)
    ((-k : Fin 4) : ℕ) (by norm_num) hr hm11.1
    (fun i j k hi hj hk hne => lt_of_lt_of_le (by norm_num) (hm11.2 i j k hi hj hk hne)) hlt (-k : Fin 4).2
    (by rw [hback]; simp [Tag.diff])
  obtain ⟨t, t1, _, t3, _, t5⟩ := (Target.C88_aprilgrid nRows nCols size sp mem hm).1 ⟨hz, hs⟩
  have hinj : Function.Injective q := fun i j hij =>
    add_right_cancel (corner_injective (by linarith) x y (hi hij))
  refine ⟨t, det, fun i => q (i + -k), t1, ?_, d2, d6 (by simpa using he), ?_⟩
  · unfold detect
    simp only [d1, Out.bind, d3]
    rw [bottomLeft_eq hH (-k), bestRot_eq hf hinj]
  · have hp : ∀ i, q (i + -k) = view (corner (100 * size) sp x y i) := by
      intro i
      simp only [hq, neg_add_cancel_right]
    have hb : ∀ dr dc, dr < 2 → dc < 2 → t.point ((nCols * y + x) / (t.cols / 2) * t.cols * 2 + (nCols * y + x) % (t.cols / 2) * 2 +
        (dr * t.cols + dc)) = .ok (x * (1 + sp) * size + dc * size, y * (1 + sp) * size + dr * size, 0) := by
      intro dr dc hdr hdc
      rw [← t5 y x dr dc hy hx hdr hdc, Target.C58_grid_point]
      congr 1
      unfold Target.Target.gridCoordinatesToPoint
      have e1 : t.cols / 2 = nCols := by omega
      have e2 : (nCols * y + x) / nCols = y := by
        rw [Nat.mul_add_div (by omega), Nat.div_eq_of_lt hx, add_zero]
      have e3 : (nCols * y + x) % nCols = x := by
        rw [Nat.mul_add_mod, Nat.mod_eq_of_lt hx]
      rw [e1, e2, e3]
      ring
    intro i
    beta_reduce
    rw [hp]
    fin_cases i
    · refine ⟨_, by simpa [Target.cornerIdx] using hb 0 0 (by norm_num) (by norm_num), rfl, ?_⟩
      simp [corner]; ring_nf
    · refine ⟨_, by simpa [Target.cornerIdx] using hb 0 1 (by norm_num) (by norm_num), rfl, ?_⟩
      simp [corner]; ring_nf
    · refine ⟨_, by simpa [Target.cornerIdx, add_assoc] using hb 1 1 (by norm_num) (by norm_num), rfl, ?_⟩
      simp [corner]; ring_nf
    · refine ⟨_, by simpa [Target.cornerIdx] using hb 1 0 (by norm_num) (by norm_num), rfl, ?_⟩
      simp [corner]; ring_nf

end Kalibr.Printed
