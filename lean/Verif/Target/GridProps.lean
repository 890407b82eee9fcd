import Verif.Target.Model
import Mathlib.Tactic.LinearCombination

/-!
# Properties of the calibration targets (C58, C88)

The specification of a target is a function giving the documented position of the point in row `r`,
column `c`.
-/

namespace Kalibr.Target

open Kalibr

instance : LawfulMonad Out := LawfulMonad.mk' (m := Out)
  (id_map := by intro α x; cases x <;> rfl)
  (pure_bind := by intro α β x f; rfl)
  (bind_assoc := by intro α β γ x f g; cases x <;> rfl)

/-- Invariant rule for a loop `for (i = 0; i < n; i++)`. -/
theorem foldlM_range_inv {σ : Type} {f : σ → ℕ → Out σ} {n : ℕ} {s : σ} (P : ℕ → σ → Prop)
    (h0 : P 0 s) (hstep : ∀ i, i < n → ∀ s, P i s → ∃ s', f s i = .ok s' ∧ P (i + 1) s') :
    ∃ s', (List.range n).foldlM f s = .ok s' ∧ P n s' := by
  induction n with
  | zero => exact ⟨s, rfl, h0⟩
  | succ n ih =>
    obtain ⟨s1, h1, hP⟩ := ih (fun i hi => hstep i (by omega))
    obtain ⟨s2, h2, hP2⟩ := hstep n (by omega) s1 hP
    refine ⟨s2, ?_, hP2⟩
    rw [List.range_succ, List.foldlM_append, h1]
    simp [h2]

theorem readAt_ok {α : Type} {l : List α} {i : ℕ} (h : i < l.length) : readAt l i = .ok l[i] := by
  simp [readAt, h]

theorem readAt_eq_ok {α : Type} {l : List α} {i : ℕ} {a : α} :
    readAt l i = .ok a ↔ l[i]? = some a := by
  unfold readAt
  cases l[i]? <;> simp

theorem writeAt_ok {α : Type} {l : List α} {i : ℕ} {a : α} (h : i < l.length) :
    writeAt l i a = .ok (l.set i a) := by
  simp [writeAt, h]

theorem idx_lt {rows cols r c : ℕ} (hr : r < rows) (hc : c < cols) : cols * r + c < rows * cols := by
  have : cols * (r + 1) ≤ cols * rows := Nat.mul_le_mul_left _ hr
  rw [Nat.mul_comm rows cols]
  calc cols * r + c < cols * r + cols := by omega
    _ = cols * (r + 1) := by ring
    _ ≤ _ := this

theorem idx_inj {cols r c r' c' : ℕ} (hc : c < cols) (hc' : c' < cols)
    (h : cols * r + c = cols * r' + c') : r = r' ∧ c = c' := by
  have hp : 0 < cols := by omega
  have h1 : (cols * r + c) / cols = (cols * r' + c') / cols := by rw [h]
  have h2 : (cols * r + c) % cols = (cols * r' + c') % cols := by rw [h]
  rw [Nat.mul_add_div hp, Nat.mul_add_div hp, Nat.div_eq_of_lt hc, Nat.div_eq_of_lt hc'] at h1
  rw [Nat.mul_add_mod, Nat.mul_add_mod, Nat.mod_eq_of_lt hc, Nat.mod_eq_of_lt hc'] at h2
  exact ⟨by simpa using h1, h2⟩

/-- The double loop writes every grid point once. -/
theorem fillPoints_ok (rows cols : ℕ) (f : ℕ → ℕ → P3) (mem : List P3)
    (hm : mem.length = rows * cols) :
    ∃ m, fillPoints rows cols f mem = .ok m ∧ m.length = rows * cols ∧
      ∀ r, r < rows → ∀ c, c < cols → m[cols * r + c]? = some (f r c) := by
  refine foldlM_range_inv (P := fun k (m : List P3) => m.length = rows * cols ∧
      ∀ r, r < k → ∀ c, c < cols → m[cols * r + c]? = some (f r c)) ⟨hm, by omega⟩ ?_
  rintro k hk m ⟨hl, hP⟩
  obtain ⟨m', hm', hl', hprev, hrow⟩ := foldlM_range_inv (n := cols) (s := m)
      (f := fun m c => writeAt m (cols * k + c) (f k c))
      (P := fun j (m : List P3) => m.length = rows * cols ∧
      (∀ r, r < k → ∀ c, c < cols → m[cols * r + c]? = some (f r c)) ∧
      ∀ c, c < j → m[cols * k + c]? = some (f k c)) ⟨hl, hP, by omega⟩ (by
    rintro j hj m ⟨hl, hP, hR⟩
    have hlt : cols * k + j < m.length := by rw [hl]; exact idx_lt hk hj
    refine ⟨_, writeAt_ok hlt, by simpa using hl, ?_, ?_⟩
    · intro r hr c hc
      have hne : cols * k + j ≠ cols * r + c := fun h => by
        have := (idx_inj hj hc h).1; omega
      rw [List.getElem?_set_ne hne]
      exact hP r hr c hc
    · intro c hc
      by_cases hcj : c = j
      · subst hcj
        rw [List.getElem?_set_self hlt]
      · have hne : cols * k + j ≠ cols * k + c := by omega
        rw [List.getElem?_set_ne hne]
        exact hR c (by omega))
  refine ⟨m', hm', hl', ?_⟩
  intro r hr c hc
  by_cases hrk : r = k
  · subst hrk; exact hrow c hc
  · exact hprev r (by omega) c hc

/-! ## C58: indices and grid coordinates -/

/-- **C58**: the point index numbers the grid: every pair of row and column has an index of the target,
every index of the target belongs to a row and a column, and no two pairs share an index. -/
theorem C58_index (t : Target) :
    (∀ r c, r < t.rows → c < t.cols → t.gridCoordinatesToPoint r c < t.size) ∧
    (∀ i, i < t.size → ∃ r c, r < t.rows ∧ c < t.cols ∧ t.gridCoordinatesToPoint r c = i) ∧
    (∀ r c r' c', c < t.cols → c' < t.cols →
      t.gridCoordinatesToPoint r c = t.gridCoordinatesToPoint r' c' → r = r' ∧ c = c') := by
  refine ⟨fun r c hr hc => idx_lt hr hc, ?_, fun r c r' c' hc hc' h => idx_inj hc hc' h⟩
  intro i hi
  have hp : 0 < t.cols := by
    rcases Nat.eq_zero_or_pos t.cols with h | h
    · simp [Target.size, h] at hi
    · exact h
  refine ⟨i / t.cols, i % t.cols, ?_, Nat.mod_lt _ hp, ?_⟩
  · rw [Nat.div_lt_iff_lt_mul hp]; exact hi
  · exact Nat.div_add_mod i t.cols

/-- **C58**: looking a point up by row and column is looking it up by its index. -/
theorem C58_grid_point (t : Target) (r c : ℕ) :
    t.gridPoint r c = t.point (t.gridCoordinatesToPoint r c) := rfl

/-- **C58** (partial): for targets below `2^31` points the grid coordinates reported for an index are
those of the index, but in the order column, row.  The full property asks for the order row, column, in
which every other call takes them. -/
theorem C58_coordinates_partial (t : Target) (i : ℕ) (hi : i < t.size) (h31 : i < 2 ^ 31) :
    ∃ r c, t.pointToGridCoordinates i = .ok (c, r) ∧ r < t.rows ∧ c < t.cols ∧
      t.gridCoordinatesToPoint r c = i := by
  have hp : 0 < t.cols := by
    rcases Nat.eq_zero_or_pos t.cols with h | h
    · simp [Target.size, h] at hi
    · exact h
  have hcast : intCast i = i := by
    have : i % 2 ^ 32 = i := Nat.mod_eq_of_lt (by omega)
    simp only [intCast, this]
    rw [if_pos h31]
  refine ⟨i / t.cols, i % t.cols, ?_, ?_, Nat.mod_lt _ hp, Nat.div_add_mod i t.cols⟩
  · simp [Target.pointToGridCoordinates, hp.ne', hcast]
  · rw [Nat.div_lt_iff_lt_mul hp]; exact hi

example : ∃ (t : Target) (i : ℕ), i < t.size ∧ i < 2 ^ 31 := ⟨⟨2, 3, []⟩, 4, by decide, by decide⟩

/-- **C58** fails: on a grid of two rows and three columns the point in row 0, column 1 is reported at
row 1, column 0, which is another point. -/
theorem C58_coordinates_counterexample : ∃ (t : Target) (r c : ℕ), r < t.rows ∧ c < t.cols ∧
    ∃ r' c', t.pointToGridCoordinates (t.gridCoordinatesToPoint r c) = .ok (r', c') ∧
      (r', c') ≠ (r, c) ∧ t.gridCoordinatesToPoint r' c' ≠ t.gridCoordinatesToPoint r c :=
  ⟨⟨2, 3, []⟩, 0, 1, by decide, by decide, 1, 0, by decide, by decide, by decide⟩

/-- **C58** fails: no valid index of any target yields a pointer; the call raises for all of them. -/
theorem C58_pointer_counterexample (t : Target) (i : ℕ) (hi : i < t.size) :
    t.getPointDataPointer i = .raise := by
  have : sizeMinusOne t.size ≥ i := by unfold sizeMinusOne; split <;> omega
  simp [Target.getPointDataPointer, this]

example : ∃ (t : Target) (i : ℕ), i < t.size := ⟨⟨2, 3, []⟩, 4, by decide⟩

/-- **C58** fails: for an invalid index of a non-empty target the call does not raise, it reads outside
the points. -/
theorem C58_pointer_invalid_counterexample (t : Target) (i : ℕ) (h0 : 0 < t.size)
    (hl : t.pts.length = t.size) (hi : t.size ≤ i) : t.getPointDataPointer i = .ub := by
  have h1 : ¬ sizeMinusOne t.size ≥ i := by unfold sizeMinusOne; split <;> omega
  have h2 : ¬ i < t.pts.length := by omega
  simp [Target.getPointDataPointer, h1, h2]

example : ∃ (t : Target) (i : ℕ), 0 < t.size ∧ t.pts.length = t.size ∧ t.size ≤ i :=
  ⟨⟨1, 2, [(0, 0, 0), (1, 0, 0)]⟩, 2, by decide, by decide, by decide⟩

/-- **C58** fails, observably: no container of design variables can be built from a non-empty target. -/
theorem C58_container_counterexample (t : Target) (h0 : 0 < t.size) : container t = .raise := by
  obtain ⟨n, hn⟩ : ∃ n, t.size = n + 1 := ⟨t.size - 1, by omega⟩
  unfold container
  rw [hn, List.range_succ_eq_map, List.foldlM_cons, C58_pointer_counterexample t 0 h0]
  rfl

example : ∃ t : Target, 0 < t.size := ⟨⟨2, 3, []⟩, by decide⟩

/-! ## C88: positions of the points -/

/-- `t` is a complete grid whose point in row `r`, column `c` is at `pos r c`. -/
def Realises (t : Target) (rows cols : ℕ) (pos : ℕ → ℕ → P3) : Prop :=
  t.rows = rows ∧ t.cols = cols ∧ t.pts.length = rows * cols ∧
  ∀ r, r < rows → ∀ c, c < cols → t.gridPoint r c = .ok (pos r c)

/-- **C88**: a checkerboard can be built exactly from positive spacings, and its points are the grid with
row spacing along the first axis and column spacing along the second, whatever the fresh storage held. -/
theorem C88_checkerboard (rows cols : ℕ) (a b : ℝ) (mem : List P3) (hm : mem.length = rows * cols) :
    (0 < a ∧ 0 < b → ∃ t, checkerboard rows cols a b mem = .ok t ∧
      Realises t rows cols fun r c => (a * r, b * c, 0)) ∧
    (¬ (0 < a ∧ 0 < b) → checkerboard rows cols a b mem = .raise) := by
  constructor
  · rintro ⟨ha, hb⟩
    obtain ⟨m, hm', hl, hp⟩ := fillPoints_ok rows cols (checkerPoint a b) mem hm
    refine ⟨⟨rows, cols, m⟩, by simp [checkerboard, ha, hb, hm'], rfl, rfl, hl, ?_⟩
    intro r hr c hc
    exact readAt_eq_ok.mpr (hp r hr c hc)
  · intro h
    unfold checkerboard
    by_cases ha : a > 0
    · have hb : ¬ b > 0 := fun hb => h ⟨ha, hb⟩
      simp [ha, hb]
    · simp [ha]

/-- **C88**: a circle grid can be built exactly from a positive spacing; the symmetric grid is a square
lattice, in the asymmetric grid every second row is shifted by one spacing and the points of a row are
two spacings apart. -/
theorem C88_circlegrid (rows cols : ℕ) (a : ℝ) (asym : Bool) (mem : List P3)
    (hm : mem.length = rows * cols) :
    (0 < a → ∃ t, circlegrid rows cols a asym mem = .ok t ∧
      Realises t rows cols fun r c =>
        if asym then ((2 * c + if r % 2 = 1 then 1 else 0) * a, r * a, 0) else (a * r, a * c, 0)) ∧
    (¬ 0 < a → circlegrid rows cols a asym mem = .raise) := by
  constructor
  · intro ha
    obtain ⟨m, hm', hl, hp⟩ := fillPoints_ok rows cols (circlePoint false a) mem hm
    obtain ⟨m2, hm2, hl2, hp2⟩ := fillPoints_ok rows cols (circlePoint asym a) m hl
    refine ⟨⟨rows, cols, m2⟩, by simp [circlegrid, ha, hm', hm2], rfl, rfl, hl2, ?_⟩
    intro r hr c hc
    refine readAt_eq_ok.mpr ((hp2 r hr c hc).trans ?_)
    cases asym
    · simp [circlePoint]
    · rcases Nat.mod_two_eq_zero_or_one r with h | h <;> simp [circlePoint, h]
  · intro h
    simp [circlegrid, h]

/-- **C88**: an April grid can be built exactly from positive sizes.  The corner of tag `(R, C)` with
offset `(dr, dc)` is at the tag's origin, `(1 + spacing)` tag sizes per tag, plus the offset in tag
sizes. -/
theorem C88_aprilgrid (tagRows tagCols : ℕ) (a s : ℝ) (mem : List P3)
    (hm : mem.length = 2 * tagRows * (2 * tagCols)) :
    (0 < a ∧ 0 < s → ∃ t, aprilgrid tagRows tagCols a s mem = .ok t ∧
      t.rows = 2 * tagRows ∧ t.cols = 2 * tagCols ∧ t.pts.length = t.size ∧
      ∀ R C dr dc, R < tagRows → C < tagCols → dr < 2 → dc < 2 →
        t.gridPoint (2 * R + dr) (2 * C + dc) =
          .ok (C * (1 + s) * a + dc * a, R * (1 + s) * a + dr * a, 0)) ∧
    (¬ (0 < a ∧ 0 < s) → aprilgrid tagRows tagCols a s mem = .raise) := by
  constructor
  · rintro ⟨ha, hs⟩
    obtain ⟨m, hm', hl, hp⟩ := fillPoints_ok _ _ (aprilPoint a s) mem hm
    refine ⟨⟨2 * tagRows, 2 * tagCols, m⟩, by simp [aprilgrid, ha, hs, hm'], rfl, rfl, hl, ?_⟩
    intro R C dr dc hR hC hdr hdc
    refine readAt_eq_ok.mpr ((hp (2 * R + dr) (by omega) (2 * C + dc) (by omega)).trans ?_)
    have h1 : (2 * C + dc) / 2 = C := by omega
    have h2 : (2 * C + dc) % 2 = dc := by omega
    have h3 : (2 * R + dr) / 2 = R := by omega
    have h4 : (2 * R + dr) % 2 = dr := by omega
    simp [aprilPoint, h1, h2, h3, h4]
  · intro h
    unfold aprilgrid
    by_cases ha : a > 0
    · have hb : ¬ s > 0 := fun hb => h ⟨ha, hb⟩
      simp [ha, hb]
    · simp [ha]

example : (List.replicate 6 ((0, 0, 0) : P3)).length = 2 * 3 := by simp
example : (List.replicate 24 ((0, 0, 0) : P3)).length = 2 * 2 * (2 * 3) := by simp

/-- Positions given by a function injective on the grid are distinct for distinct indices. -/
theorem Realises.distinct {t : Target} {rows cols : ℕ} {pos : ℕ → ℕ → P3} (h : Realises t rows cols pos)
    (hinj : ∀ r c r' c', r < rows → c < cols → r' < rows → c' < cols → pos r c = pos r' c' →
      r = r' ∧ c = c') :
    ∀ i j, i < t.size → j < t.size → t.point i = t.point j → i = j := by
  obtain ⟨hr, hc, hl, hp⟩ := h
  intro i j hi hj hij
  obtain ⟨r, c, h1, h2, rfl⟩ := (C58_index t).2.1 i hi
  obtain ⟨r', c', h1', h2', rfl⟩ := (C58_index t).2.1 j hj
  rw [hr] at h1 h1'
  rw [hc] at h2 h2'
  have e1 := hp r h1 c h2
  have e2 := hp r' h1' c' h2'
  rw [C58_grid_point] at e1 e2
  rw [hij, e2] at e1
  injection e1 with e1
  obtain ⟨rfl, rfl⟩ := hinj r c r' c' h1 h2 h1' h2' e1.symm
  rfl

/-- **C88**: no two points of a checkerboard share a position. -/
theorem C88_checkerboard_distinct (rows cols : ℕ) (a b : ℝ) (mem : List P3)
    (hm : mem.length = rows * cols) (t : Target) (ht : checkerboard rows cols a b mem = .ok t) :
    ∀ i j, i < t.size → j < t.size → t.point i = t.point j → i = j := by
  obtain ⟨h1, h2⟩ := C88_checkerboard rows cols a b mem hm
  by_cases hab : 0 < a ∧ 0 < b
  · obtain ⟨t', ht', hr⟩ := h1 hab
    rw [ht] at ht'
    injection ht' with e
    subst e
    refine hr.distinct ?_
    intro r c r' c' _ _ _ _ he
    simp only [Prod.mk.injEq] at he
    have e1 := mul_left_cancel₀ hab.1.ne' he.1
    have e2 := mul_left_cancel₀ hab.2.ne' he.2.1
    exact ⟨by exact_mod_cast e1, by exact_mod_cast e2⟩
  · rw [h2 hab] at ht
    cases ht

/-- **C88**: no two points of a circle grid share a position. -/
theorem C88_circlegrid_distinct (rows cols : ℕ) (a : ℝ) (asym : Bool) (mem : List P3)
    (hm : mem.length = rows * cols) (t : Target) (ht : circlegrid rows cols a asym mem = .ok t) :
    ∀ i j, i < t.size → j < t.size → t.point i = t.point j → i = j := by
  obtain ⟨h1, h2⟩ := C88_circlegrid rows cols a asym mem hm
  by_cases ha : 0 < a
  · obtain ⟨t', ht', hr⟩ := h1 ha
    rw [ht] at ht'
    injection ht' with e
    subst e
    refine hr.distinct ?_
    intro r c r' c' _ _ _ _ he
    cases asym
    · simp only [Bool.false_eq_true, if_false, Prod.mk.injEq] at he
      have e1 := mul_left_cancel₀ ha.ne' he.1
      have e2 := mul_left_cancel₀ ha.ne' he.2.1
      exact ⟨by exact_mod_cast e1, by exact_mod_cast e2⟩
    · simp only [if_true, Prod.mk.injEq] at he
      have e2 := mul_right_cancel₀ ha.ne' he.2.1
      have e2' : r = r' := by exact_mod_cast e2
      subst e2'
      have e1 := mul_right_cancel₀ ha.ne' he.1
      have e3 : (c : ℝ) = c' := by linarith
      exact ⟨rfl, by exact_mod_cast e3⟩
  · rw [h2 ha] at ht
    cases ht

theorem april_coord_inj {a s : ℝ} (ha : 0 < a) (hs : 0 < s) {R R' d d' : ℕ} (hd : d < 2) (hd' : d' < 2)
    (h : (R : ℝ) * (1 + s) * a + d * a = R' * (1 + s) * a + d' * a) : R = R' ∧ d = d' := by
  have h1 : (R : ℝ) * (1 + s) + d = R' * (1 + s) + d' := by
    apply mul_right_cancel₀ ha.ne'
    linarith
  have key : ∀ {R R' d d' : ℕ}, d' < 2 → R < R' →
      (R : ℝ) * (1 + s) + d = R' * (1 + s) + d' → d < 2 → False := by
    intro R R' d d' hd' hlt h hd
    have : (R : ℝ) + 1 ≤ R' := by exact_mod_cast hlt
    have hd1 : (d : ℝ) ≤ 1 := by exact_mod_cast (by omega : d ≤ 1)
    have hd0 : (0 : ℝ) ≤ d' := Nat.cast_nonneg _
    nlinarith
  rcases lt_trichotomy R R' with hlt | rfl | hlt
  · exact (key hd' hlt h1 hd).elim
  · refine ⟨rfl, ?_⟩
    have : (d : ℝ) = d' := by linarith
    exact_mod_cast this
  · exact (key hd hlt h1.symm hd').elim

/-- **C88**: no two points of an April grid share a position. -/
theorem C88_aprilgrid_distinct (tagRows tagCols : ℕ) (a s : ℝ) (mem : List P3)
    (hm : mem.length = 2 * tagRows * (2 * tagCols)) (t : Target)
    (ht : aprilgrid tagRows tagCols a s mem = .ok t) :
    ∀ i j, i < t.size → j < t.size → t.point i = t.point j → i = j := by
  obtain ⟨h1, h2⟩ := C88_aprilgrid tagRows tagCols a s mem hm
  by_cases hab : 0 < a ∧ 0 < s
  · obtain ⟨t', ht', hr, hc, hl, hp⟩ := h1 hab
    rw [ht] at ht'
    injection ht' with e
    subst e
    have hreal : Realises t (2 * tagRows) (2 * tagCols) fun r c =>
        (((c / 2 : ℕ) : ℝ) * (1 + s) * a + ((c % 2 : ℕ) : ℝ) * a,
         ((r / 2 : ℕ) : ℝ) * (1 + s) * a + ((r % 2 : ℕ) : ℝ) * a, 0) := by
      refine ⟨hr, hc, by rw [hl, Target.size, hr, hc], ?_⟩
      intro r hr c hc
      have := hp (r / 2) (c / 2) (r % 2) (c % 2) (by omega) (by omega) (by omega) (by omega)
      rwa [Nat.div_add_mod, Nat.div_add_mod] at this
    refine hreal.distinct ?_
    intro r c r' c' _ _ _ _ he
    simp only [Prod.mk.injEq] at he
    obtain ⟨e1, e2⟩ := april_coord_inj hab.1 hab.2 (by omega) (by omega) he.1
    obtain ⟨e3, e4⟩ := april_coord_inj hab.1 hab.2 (by omega) (by omega) he.2.1
    omega
  · rw [h2 hab] at ht
    cases ht

example : ∃ (t : Target), checkerboard 2 3 1 1 (List.replicate 6 (0, 0, 0)) = .ok t :=
  ((C88_checkerboard 2 3 1 1 _ (by simp)).1 ⟨one_pos, one_pos⟩).imp fun _ h => h.1
example : ∃ (t : Target), circlegrid 2 3 1 true (List.replicate 6 (0, 0, 0)) = .ok t :=
  ((C88_circlegrid 2 3 1 true _ (by simp)).1 one_pos).imp fun _ h => h.1
example : ∃ (t : Target), aprilgrid 2 3 1 1 (List.replicate 24 (0, 0, 0)) = .ok t :=
  ((C88_aprilgrid 2 3 1 1 _ (by simp)).1 ⟨one_pos, one_pos⟩).imp fun _ h => h.1

/-- **C88** fails for the documented axes of a checkerboard (Checkerboard.cpp:14-26: the row spacing is
the spacing in y-direction, the second point of the first row lies along x): on a board of two rows and
two columns with row spacing 1 and column spacing 2 the second point of the first row is at `(0, 2, 0)`
instead of `(2, 0, 0)`. -/
theorem C88_axes_counterexample : ∃ (t : Target),
    checkerboard 2 2 1 2 (List.replicate 4 (0, 0, 0)) = .ok t ∧
    t.gridPoint 0 1 = .ok (0, 2, 0) ∧ t.gridPoint 0 1 ≠ .ok (2, 0, 0) := by
  obtain ⟨t, ht, -, -, -, hp⟩ := (C88_checkerboard 2 2 1 2 (List.replicate 4 (0, 0, 0)) (by simp)).1
    ⟨by norm_num, by norm_num⟩
  have := hp 0 (by norm_num) 1 (by norm_num)
  refine ⟨t, ht, by simpa using this, ?_⟩
  rw [this]
  simp

end Kalibr.Target
