import Mathlib.Data.List.Perm.Basic
import Verif.Quads.Winding

/-!
# C137: what a search in the table of positions delivers
-/

namespace Kalibr.Quads

open Kalibr.Target (P2)

variable {α : Type}

theorem toInt_mono {x y : ℝ} (h : x ≤ y) : toInt x ≤ toInt y := by
  unfold toInt
  by_cases hx : 0 ≤ x
  · rw [if_pos hx, if_pos (hx.trans h)]
    exact Int.floor_le_floor h
  · rw [if_neg hx]
    by_cases hy : 0 ≤ y
    · rw [if_pos hy]
      have h1 : ⌈x⌉ ≤ 0 := Int.ceil_le.2 (by push_cast; linarith)
      exact h1.trans (Int.floor_nonneg.2 hy)
    · rw [if_neg hy]
      exact Int.ceil_le_ceil h

theorem toInt_lt (x : ℝ) : x < toInt x + 1 := by
  unfold toInt
  by_cases hx : 0 ≤ x
  · rw [if_pos hx]; exact Int.lt_floor_add_one x
  · rw [if_neg hx]; linarith [Int.le_ceil x]

theorem lt_toInt (x : ℝ) : (toInt x : ℝ) - 1 < x := by
  unfold toInt
  by_cases hx : 0 ≤ x
  · rw [if_pos hx]; linarith [Int.floor_le x]
  · rw [if_neg hx]; linarith [Int.ceil_lt_add_one x]

theorem toInt_le {x : ℝ} (h : 0 ≤ x) : (toInt x : ℝ) ≤ x := by
  rw [toInt_nonneg h]; exact Int.floor_le x

/-! ## The order of the cells -/

/-- The place of the cell of number `k` in a window of `W` columns. -/
def place (w : Window) (W : ℕ) (k : ℕ) : ℤ × ℤ := (w.ix0 + (k % W : ℕ), w.iy0 + (k / W : ℕ))

/-- The objects of the cell of number `k`. -/
def inCell (g : Gridder α) (w : Window) (W k : ℕ) : List α := g.cells (place w W k).1 (place w W k).2

/-- The objects of the `n` cells after the one of number `k`. -/
def later (g : Gridder α) (w : Window) (W k n : ℕ) : List α :=
  (List.range' (k + 1) n).flatMap (inCell g w W)

theorem seek_spec (g : Gridder α) (w : Window) (W H : ℕ) (hW : 0 < W) (hw : w.ix1 + 1 = w.ix0 + W)
    (hh : w.iy1 + 1 = w.iy0 + H) (n : ℕ) : ∀ (k fuel : ℕ), k + n + 1 = W * H → n < fuel →
    (∃ k' n', k < k' ∧ k' + n' + 1 = W * H ∧ inCell g w W k' ≠ [] ∧
        later g w W k n = inCell g w W k' ++ later g w W k' n' ∧
        g.seek w fuel ((place w W k).1 + 1) (place w W k).2
          = some ⟨(place w W k').1, (place w W k').2, inCell g w W k'⟩) ∨
    (later g w W k n = [] ∧
      g.seek w fuel ((place w W k).1 + 1) (place w W k).2 = some ⟨w.ix0, w.iy1 + 1, []⟩) := by
  have norm : ∀ k, (if (place w W k).1 + 1 > w.ix1 then (place w W k).2 + 1 else (place w W k).2) = (place w W (k + 1)).2 ∧
      (if (place w W k).1 + 1 > w.ix1 then w.ix0 else (place w W k).1 + 1) = (place w W (k + 1)).1 := by
    intro k
    unfold place
    simp only
    have hm : k % W < W := Nat.mod_lt _ hW
    have hd := Nat.div_add_mod k W
    by_cases hc : k % W + 1 = W
    · have e1 : (k + 1) = W * (k / W + 1) := by rw [Nat.mul_add]; omega
      have e2 : (k + 1) / W = k / W + 1 := by rw [e1, Nat.mul_div_cancel_left _ hW]
      have e3 : (k + 1) % W = 0 := by rw [e1, Nat.mul_mod_right]
      rw [e2, e3, if_pos (by omega), if_pos (by omega)]
      push_cast
      omega
    · have e2 : (k + 1) / W = k / W := by
        apply Nat.div_eq_of_lt_le
        · rw [Nat.mul_comm]; omega
        · rw [Nat.add_mul, Nat.mul_comm]; omega
      have e3 : (k + 1) % W = k % W + 1 := by
        have := Nat.div_add_mod (k + 1) W
        rw [e2] at this
        omega
      rw [e2, e3, if_neg (by omega), if_neg (by omega)]
      push_cast
      omega
  induction n with
  | zero =>
    intro k fuel hk hf
    right
    obtain ⟨fuel, rfl⟩ : ∃ f, fuel = f + 1 := ⟨fuel - 1, by omega⟩
    refine ⟨rfl, ?_⟩
    obtain ⟨n1, n2⟩ := norm k
    have hT : k + 1 = W * H := by omega
    have p2 : (place w W (k + 1)).2 = w.iy1 + 1 := by
      unfold place; simp only; rw [hT, Nat.mul_div_cancel_left _ hW, hh]
    have p1 : (place w W (k + 1)).1 = w.ix0 := by
      unfold place; simp only; rw [hT, Nat.mul_mod_right]; simp
    unfold Gridder.seek
    simp only [n1, n2, p1, p2]
    rw [if_pos (by omega)]
  | succ n ih =>
    intro k fuel hk hf
    obtain ⟨fuel, rfl⟩ : ∃ f, fuel = f + 1 := ⟨fuel - 1, by omega⟩
    obtain ⟨n1, n2⟩ := norm k
    have hlt : (place w W (k + 1)).2 ≤ w.iy1 := by
      unfold place; simp only
      have : (k + 1) / W < H := Nat.div_lt_of_lt_mul (by omega)
      omega
    have el : later g w W k (n + 1) = inCell g w W (k + 1) ++ later g w W (k + 1) n := by
      unfold later
      rw [List.range'_succ, List.flatMap_cons]
    unfold Gridder.seek
    simp only [n1, n2]
    rw [if_neg (by omega)]
    by_cases hc : inCell g w W (k + 1) = []
    · have hc' : ¬ g.cells (place w W (k + 1)).1 (place w W (k + 1)).2 ≠ [] := not_not.2 hc
      rw [if_neg hc', el, hc, List.nil_append]
      rcases ih (k + 1) fuel (by omega) (by omega) with ⟨k', n', h1, h2⟩ | h
      · exact Or.inl ⟨k', n', by omega, h2⟩
      · exact Or.inr h
    · left
      have hc' : g.cells (place w W (k + 1)).1 (place w W (k + 1)).2 ≠ [] := hc
      rw [if_pos hc']
      exact ⟨k + 1, n, by omega, by omega, hc, el, rfl⟩

/-- The whole of a search, from the cell of number `k` with `c` still to deliver. -/
theorem drain_spec (g : Gridder α) (w : Window) (W H : ℕ) (hW : 0 < W) (hw : w.ix1 + 1 = w.ix0 + W)
    (hh : w.iy1 + 1 = w.iy0 + H) (cells : ℕ) (hcells : W * H < cells) (fuel : ℕ) :
    ∀ (k n : ℕ) (c : List α), k + n + 1 = W * H → c.length + (later g w W k n).length < fuel →
      g.drain w cells fuel ⟨(place w W k).1, (place w W k).2, c⟩ = some (c ++ later g w W k n) := by
  induction fuel with
  | zero => intro k n c _ h; omega
  | succ fuel ih =>
    -- one object is delivered, and the iterator has moved on
    have step : ∀ (k n : ℕ) (a : α) (cs : List α), k + n + 1 = W * H →
        cs.length + (later g w W k n).length < fuel →
        ((g.findNext w cells ⟨(place w W k).1, (place w W k).2, a :: cs⟩).bind
          fun it'' => (g.drain w cells fuel it'').map (a :: ·)) = some (a :: (cs ++ later g w W k n)) := by
      intro k n a cs hk hl
      cases cs with
      | cons b bs =>
        show ((g.drain w cells fuel ⟨(place w W k).1, (place w W k).2, b :: bs⟩).map (a :: ·)) = _
        rw [ih k n (b :: bs) hk hl]
        rfl
      | nil =>
        show ((g.seek w cells ((place w W k).1 + 1) (place w W k).2).bind
          fun it'' => (g.drain w cells fuel it'').map (a :: ·)) = _
        rcases seek_spec g w W H hW hw hh n k cells hk (by omega) with ⟨k', n', _, hk', _, hl', hs⟩ | ⟨hl', hs⟩
        · rw [hs]
          show (g.drain w cells fuel _).map (a :: ·) = _
          rw [ih k' n' _ hk' (by rw [hl'] at hl; simpa using hl), hl']
          rfl
        · rw [hs, hl']
          show (g.drain w cells fuel _).map (a :: ·) = _
          obtain ⟨f, rfl⟩ : ∃ f, fuel = f + 1 := ⟨fuel - 1, by omega⟩
          obtain ⟨m, rfl⟩ : ∃ m, cells = m + 1 := ⟨cells - 1, by omega⟩
          have : g.findNext w (m + 1) ⟨w.ix0, w.iy1 + 1, []⟩
              = some ⟨if w.ix0 + 1 > w.ix1 then w.ix0 else w.ix0 + 1, if w.ix0 + 1 > w.ix1 then w.iy1 + 1 + 1 else w.iy1 + 1, []⟩ := by
            show g.seek w (m + 1) (w.ix0 + 1) (w.iy1 + 1) = _
            unfold Gridder.seek
            simp only
            rw [if_pos]
            by_cases h : w.ix0 + 1 > w.ix1
            · rw [if_pos h]; omega
            · rw [if_neg h]; omega
          unfold Gridder.drain
          simp only [if_true, this]
          rfl
    intro k n c hk hl
    unfold Gridder.drain
    cases c with
    | cons a cs =>
      simp only [reduceCtorEq, if_false]
      exact step k n a cs hk (by simp at hl; omega)
    | nil =>
      simp only [if_true]
      have e : g.findNext w cells ⟨(place w W k).1, (place w W k).2, []⟩
          = g.seek w cells ((place w W k).1 + 1) (place w W k).2 := rfl
      rw [e]
      rcases seek_spec g w W H hW hw hh n k cells hk (by omega) with ⟨k', n', _, hk', hne, hl', hs⟩ | ⟨hl', hs⟩
      · rw [hs, hl']
        rw [hl'] at hl
        obtain ⟨a, cs, hcs⟩ : ∃ a cs, inCell g w W k' = a :: cs := List.exists_cons_of_ne_nil hne
        rw [hcs] at hl ⊢
        simp only
        rw [step k' n' a cs hk' (by simp at hl; omega)]
        rfl
      · rw [hs, hl']
        rfl

/-! ## What the table holds -/

/-- Adds objects one after the other. -/
noncomputable def addAll (g : Gridder α) (items : List (P2 × α)) : Gridder α :=
  items.foldl (fun g it => g.add it.1.1 it.1.2 it.2) g

/-- Column and row of a position. -/
noncomputable def cellOf (g : Gridder α) (p : P2) : ℤ × ℤ :=
  (toInt ((p.1 - g.x0) / g.pp), toInt ((p.2 - g.y0) / g.pp))

/-- The position has a cell in the table. -/
def Inside (g : Gridder α) (p : P2) : Prop :=
  (cellOf g p).1 ≥ 0 ∧ (cellOf g p).2 ≥ 0 ∧ (cellOf g p).1 < g.width ∧ (cellOf g p).2 < g.height

theorem add_frame (g : Gridder α) (x y : ℝ) (a : α) : (g.add x y a).x0 = g.x0 ∧ (g.add x y a).y0 = g.y0 ∧
    (g.add x y a).pp = g.pp ∧ (g.add x y a).width = g.width ∧ (g.add x y a).height = g.height := by
  unfold Gridder.add
  simp only
  by_cases h : toInt ((x - g.x0) / g.pp) ≥ 0 ∧ toInt ((y - g.y0) / g.pp) ≥ 0 ∧
      toInt ((x - g.x0) / g.pp) < g.width ∧ toInt ((y - g.y0) / g.pp) < g.height
  · rw [if_pos h]; exact ⟨rfl, rfl, rfl, rfl, rfl⟩
  · rw [if_neg h]; exact ⟨rfl, rfl, rfl, rfl, rfl⟩

theorem addAll_frame (items : List (P2 × α)) : ∀ g : Gridder α, (addAll g items).x0 = g.x0 ∧
    (addAll g items).y0 = g.y0 ∧ (addAll g items).pp = g.pp ∧ (addAll g items).width = g.width ∧
    (addAll g items).height = g.height := by
  induction items with
  | nil => intro g; exact ⟨rfl, rfl, rfl, rfl, rfl⟩
  | cons it items ih =>
    intro g
    obtain ⟨a1, a2, a3, a4, a5⟩ := add_frame g it.1.1 it.1.2 it.2
    obtain ⟨b1, b2, b3, b4, b5⟩ := ih (g.add it.1.1 it.1.2 it.2)
    exact ⟨b1.trans a1, b2.trans a2, b3.trans a3, b4.trans a4, b5.trans a5⟩

open Classical in
/-- The objects of a cell. -/
theorem cells_addAll (items : List (P2 × α)) : ∀ (g : Gridder α) (i j : ℤ),
    ((addAll g items).cells i j).Perm
      (((items.filter fun it => Inside g it.1 ∧ cellOf g it.1 = (i, j)).map Prod.snd) ++ g.cells i j) := by
  induction items with
  | nil => intro g i j; exact List.Perm.refl _
  | cons it items ih =>
    intro g i j
    have h := ih (g.add it.1.1 it.1.2 it.2) i j
    obtain ⟨a1, a2, a3, a4, a5⟩ := add_frame g it.1.1 it.1.2 it.2
    have c : ∀ p, cellOf (g.add it.1.1 it.1.2 it.2) p = cellOf g p := by
      intro p; unfold cellOf; rw [a1, a2, a3]
    have n : ∀ p, Inside (g.add it.1.1 it.1.2 it.2) p ↔ Inside g p := by
      intro p; unfold Inside; rw [c, a4, a5]
    simp only [c, n] at h
    refine List.Perm.trans (show _ from h) ?_
    rw [List.filter_cons]
    by_cases hp : Inside g it.1 ∧ cellOf g it.1 = (i, j)
    · rw [if_pos (by simpa using hp), List.map_cons, List.cons_append]
      have : (g.add it.1.1 it.1.2 it.2).cells i j = it.2 :: g.cells i j := by
        have hi := hp.1
        unfold Inside cellOf at hi
        have hc := hp.2
        unfold cellOf at hc
        unfold Gridder.add
        simp only
        rw [if_pos hi]
        simp only
        rw [if_pos ⟨(congrArg Prod.fst hc).symm, (congrArg Prod.snd hc).symm⟩]
      rw [this]
      exact List.perm_middle
    · rw [if_neg (by simpa using hp)]
      have : (g.add it.1.1 it.1.2 it.2).cells i j = g.cells i j := by
        unfold Gridder.add
        simp only
        by_cases hi : toInt ((it.1.1 - g.x0) / g.pp) ≥ 0 ∧ toInt ((it.1.2 - g.y0) / g.pp) ≥ 0 ∧
            toInt ((it.1.1 - g.x0) / g.pp) < g.width ∧ toInt ((it.1.2 - g.y0) / g.pp) < g.height
        · rw [if_pos hi]
          simp only
          rw [if_neg]
          rintro ⟨h1, h2⟩
          apply hp
          refine ⟨hi, ?_⟩
          unfold cellOf
          rw [h1, h2]
        · rw [if_neg hi]
      rw [this]

theorem place_inj {w : Window} {W k k' : ℕ} (h : place w W k = place w W k') : k = k' := by
  have h1 := congrArg Prod.fst h
  have h2 := congrArg Prod.snd h
  unfold place at h1 h2
  simp only at h1 h2
  have e1 : k % W = k' % W := by omega
  have e2 : k / W = k' / W := by omega
  rw [← Nat.div_add_mod k W, ← Nat.div_add_mod k' W, e1, e2]

theorem place_mem {w : Window} {W H : ℕ} (hW : 0 < W) (hw : w.ix1 + 1 = w.ix0 + W) (hh : w.iy1 + 1 = w.iy0 + H)
    (c : ℤ × ℤ) : (∃ k < W * H, place w W k = c) ↔ (w.ix0 ≤ c.1 ∧ c.1 ≤ w.ix1) ∧ w.iy0 ≤ c.2 ∧ c.2 ≤ w.iy1 := by
  constructor
  · rintro ⟨k, hk, rfl⟩
    have hm : k % W < W := Nat.mod_lt _ hW
    have hd : k / W < H := Nat.div_lt_of_lt_mul hk
    unfold place
    simp only
    generalize k % W = a at *
    generalize k / W = b at *
    omega
  · rintro ⟨⟨h1, h2⟩, h3, h4⟩
    obtain ⟨a, ha⟩ : ∃ a : ℕ, c.1 = w.ix0 + a := ⟨(c.1 - w.ix0).toNat, by omega⟩
    obtain ⟨b, hb⟩ : ∃ b : ℕ, c.2 = w.iy0 + b := ⟨(c.2 - w.iy0).toNat, by omega⟩
    have la : a < W := by omega
    have lb : b < H := by omega
    refine ⟨W * b + a, ?_, ?_⟩
    · calc W * b + a < W * b + W := by omega
        _ = W * (b + 1) := by ring
        _ ≤ W * H := Nat.mul_le_mul_left _ lb
    · unfold place
      rw [Nat.mul_add_mod, Nat.mod_eq_of_lt la, Nat.mul_add_div hW, Nat.div_eq_of_lt la, Nat.add_zero]
      exact Prod.ext ha.symm hb.symm

open Classical in
theorem perm_cells {β : Type} (f : ℕ → ℤ × ℤ) (hf : ∀ k k', f k = f k' → k = k') (T : ℕ) (cell : β → ℤ × ℤ)
    (l : List β) : ((List.range T).flatMap fun k => l.filter fun b => cell b = f k).Perm
      (l.filter fun b => ∃ k < T, f k = cell b) := by
  induction l with
  | nil => simp
  | cons b l ih =>
    have e : (fun k => (b :: l).filter fun b => cell b = f k)
        = fun k => (if cell b = f k then [b] else []) ++ l.filter fun b => cell b = f k := by
      funext k
      rw [List.filter_cons]
      by_cases h : cell b = f k <;> simp [h]
    rw [e]
    refine (List.flatMap_append_perm _ _ _).symm.trans ?_
    have one : ((List.range T).flatMap fun k => if cell b = f k then [b] else [])
        = if ∃ k < T, f k = cell b then [b] else [] := by
      clear ih e
      induction T with
      | zero => simp
      | succ T ih =>
        rw [List.range_succ, List.flatMap_append, ih, List.flatMap_singleton]
        by_cases h1 : ∃ k < T, f k = cell b
        · obtain ⟨k, hk, hk'⟩ := h1
          have hn : ¬ cell b = f T := by
            intro h
            have := hf _ _ (hk'.trans h)
            omega
          rw [if_pos ⟨k, hk, hk'⟩, if_neg hn, if_pos ⟨k, by omega, hk'⟩]
          rfl
        · rw [if_neg h1]
          by_cases h2 : cell b = f T
          · rw [if_pos h2, if_pos ⟨T, by omega, h2.symm⟩]; rfl
          · rw [if_neg h2, if_neg]
            · rfl
            · rintro ⟨k, hk, hk'⟩
              rcases Nat.lt_succ_iff_lt_or_eq.1 hk with h | h
              · exact h1 ⟨k, h, hk'⟩
              · exact h2 (h ▸ hk'.symm)
    rw [one, List.filter_cons]
    by_cases h : ∃ k < T, f k = cell b
    · rw [if_pos h, if_pos (by simpa using h)]
      exact List.Perm.cons b ih
    · rw [if_neg h, if_neg (by simpa using h)]
      exact ih

/-- The cell is one of those that a search visits. -/
def InWindow (w : Window) (c : ℤ × ℤ) : Prop := (w.ix0 ≤ c.1 ∧ c.1 ≤ w.ix1) ∧ w.iy0 ≤ c.2 ∧ c.2 ≤ w.iy1

open Classical in
/-- A search ends, and delivers the objects of the cells it visits, each as often as it was added. -/
theorem find_spec (x0 y0 x1 y1 pp : ℝ) (hpp : 0 < pp) (hx : x0 ≤ x1) (hy : y0 ≤ y1) (items : List (P2 × α))
    (x y range : ℝ) (hr : 0 ≤ range) :
    let g := addAll (Gridder.new α x0 y0 x1 y1 pp) items
    ∃ out bound, (∀ cells fuel, bound ≤ cells → bound ≤ fuel → g.find x y range cells fuel = some out) ∧
      out.Perm ((items.filter fun it => Inside g it.1 ∧ InWindow (g.window x y range) (cellOf g it.1)).map Prod.snd) := by
  intro g
  obtain ⟨f1, f2, f3, f4, f5⟩ := addAll_frame items (Gridder.new α x0 y0 x1 y1 pp)
  have wpos : 1 ≤ g.width := by
    rw [show g.width = _ from f4]
    show 1 ≤ toInt ((x1 - x0) / pp + 1)
    have : 0 ≤ (x1 - x0) / pp := div_nonneg (by linarith) hpp.le
    rw [toInt_nonneg (by linarith)]
    exact Int.le_floor.2 (by push_cast; linarith)
  have hpos : 1 ≤ g.height := by
    rw [show g.height = _ from f5]
    show 1 ≤ toInt ((y1 - y0) / pp + 1)
    have : 0 ≤ (y1 - y0) / pp := div_nonneg (by linarith) hpp.le
    rw [toInt_nonneg (by linarith)]
    exact Int.le_floor.2 (by push_cast; linarith)
  have gpp : 0 < g.pp := by rw [show g.pp = _ from f3]; exact hpp
  obtain ⟨w, hw⟩ : ∃ w, w = g.window x y range := ⟨_, rfl⟩
  have mx : toInt ((x - range - g.x0) / g.pp) ≤ toInt ((x + range - g.x0) / g.pp) :=
    toInt_mono (by gcongr; linarith)
  have my : toInt ((y - range - g.y0) / g.pp) ≤ toInt ((y + range - g.y0) / g.pp) :=
    toInt_mono (by gcongr; linarith)
  have wx : w.ix0 ≤ w.ix1 := by rw [hw]; unfold Gridder.window; simp only; omega
  have wy : w.iy0 ≤ w.iy1 := by rw [hw]; unfold Gridder.window; simp only; omega
  obtain ⟨W, hW⟩ : ∃ W : ℕ, w.ix1 + 1 = w.ix0 + W := ⟨(w.ix1 + 1 - w.ix0).toNat, by omega⟩
  obtain ⟨H, hH⟩ : ∃ H : ℕ, w.iy1 + 1 = w.iy0 + H := ⟨(w.iy1 + 1 - w.iy0).toNat, by omega⟩
  have W0 : 0 < W := by omega
  have H0 : 0 < H := by omega
  have T0 : 0 < W * H := Nat.mul_pos W0 H0
  have p0 : place w W 0 = (w.ix0, w.iy0) := by unfold place; simp
  have hall : inCell g w W 0 ++ later g w W 0 (W * H - 1) = (List.range (W * H)).flatMap (inCell g w W) := by
    unfold later
    rw [List.range_eq_range', show W * H = (W * H - 1) + 1 by omega, List.range'_succ, List.flatMap_cons]
    simp
  refine ⟨inCell g w W 0 ++ later g w W 0 (W * H - 1),
    max (W * H + 1) ((inCell g w W 0).length + (later g w W 0 (W * H - 1)).length + 1), ?_, ?_⟩
  · intro cells fuel hc hf
    have := drain_spec g w W H W0 hW hH cells (by omega) fuel 0 (W * H - 1) (inCell g w W 0) (by omega) (by omega)
    rw [p0] at this
    unfold Gridder.find
    simp only
    rw [← hw]
    rw [← this]
    unfold inCell
    rw [p0]
  · rw [hall]
    have ce : ∀ p, cellOf (Gridder.new α x0 y0 x1 y1 pp) p = cellOf g p := by
      intro p; unfold cellOf; rw [show g.x0 = _ from f1, show g.y0 = _ from f2, show g.pp = _ from f3]
    have ie : ∀ p, Inside (Gridder.new α x0 y0 x1 y1 pp) p ↔ Inside g p := by
      intro p; unfold Inside; rw [ce, show g.width = _ from f4, show g.height = _ from f5]
    have hcell : ∀ k, (inCell g w W k).Perm
        (((items.filter fun it => Inside g it.1).filter fun it => cellOf g it.1 = place w W k).map Prod.snd) := by
      intro k
      have h := cells_addAll items (Gridder.new α x0 y0 x1 y1 pp) (place w W k).1 (place w W k).2
      simp only [ce, ie] at h
      have hz : (Gridder.new α x0 y0 x1 y1 pp).cells (place w W k).1 (place w W k).2 = [] := rfl
      rw [hz, List.append_nil] at h
      rw [List.filter_filter]
      refine List.Perm.trans (show _ from h) ?_
      apply List.Perm.of_eq
      congr 1
      apply List.filter_congr
      intro it _
      simp [Bool.and_comm, and_comm]
    have s1 : ((List.range (W * H)).flatMap (inCell g w W)).Perm
        ((List.range (W * H)).flatMap fun k =>
          ((items.filter fun it => Inside g it.1).filter fun it => cellOf g it.1 = place w W k).map Prod.snd) :=
      List.Perm.flatMap_left _ fun k _ => hcell k
    refine s1.trans ?_
    rw [← List.map_flatMap]
    apply List.Perm.map
    refine (perm_cells (place w W) (fun k k' h => place_inj h) (W * H) (fun it : P2 × α => cellOf g it.1) _).trans ?_
    rw [List.filter_filter]
    apply List.Perm.of_eq
    apply List.filter_congr
    intro it _
    have := place_mem W0 hW hH (cellOf g it.1)
    simp only [this, InWindow, ← hw]
    simp [Bool.and_comm, and_comm]

theorem clamp_in {n a lo hi : ℤ} (h0 : 0 ≤ a) (hn : a < n) (hl : lo ≤ a) (hh : a ≤ hi) :
    min (n - 1) (max 0 lo) ≤ a ∧ a ≤ min (n - 1) (max 0 hi) := by omega

/-- One axis: the cells of the limits of a search contain the cells of all positions within range. -/
theorem axis_near {u x r o pp : ℝ} (hpp : 0 < pp) (h : |u - x| ≤ r) :
    toInt ((x - r - o) / pp) ≤ toInt ((u - o) / pp) ∧ toInt ((u - o) / pp) ≤ toInt ((x + r - o) / pp) := by
  obtain ⟨h1, h2⟩ := abs_le.1 h
  exact ⟨toInt_mono (by gcongr; linarith), toInt_mono (by gcongr; linarith)⟩

/-- One axis: a position in a visited cell is within range and one cell, if the interval of the search
meets the table. -/
theorem axis_far {u x r o pp : ℝ} {n : ℤ} (hpp : 0 < pp) (h0 : 0 ≤ toInt ((u - o) / pp))
    (hn : toInt ((u - o) / pp) < n)
    (hl : min (n - 1) (max 0 (toInt ((x - r - o) / pp))) ≤ toInt ((u - o) / pp))
    (hh : toInt ((u - o) / pp) ≤ min (n - 1) (max 0 (toInt ((x + r - o) / pp))))
    (hx0 : o ≤ x + r) (hx1 : x - r < o + pp * n) (hu : o ≤ u) : |u - x| < r + pp := by
  have e : ∀ v, v / pp * pp = v := fun v => div_mul_cancel₀ v hpp.ne'
  have u1 : u - o < (toInt ((u - o) / pp) + 1) * pp := by
    have := mul_lt_mul_of_pos_right (toInt_lt ((u - o) / pp)) hpp
    rwa [e] at this
  have u2 : (toInt ((u - o) / pp) - 1) * pp < u - o := by
    have := mul_lt_mul_of_pos_right (lt_toInt ((u - o) / pp)) hpp
    rwa [e] at this
  have q : 0 ≤ (x + r - o) / pp := div_nonneg (by linarith) hpp.le
  have t1 : (toInt ((x + r - o) / pp) : ℝ) * pp ≤ x + r - o := by
    have := mul_le_mul_of_nonneg_right (toInt_le q) hpp.le
    rwa [e] at this
  have q0 : 0 ≤ toInt ((x + r - o) / pp) := by
    rw [toInt_nonneg q]; exact Int.floor_nonneg.2 q
  have c1 : toInt ((u - o) / pp) ≤ toInt ((x + r - o) / pp) := by omega
  have c1' : (toInt ((u - o) / pp) : ℝ) ≤ toInt ((x + r - o) / pp) := by exact_mod_cast c1
  have m1 := mul_le_mul_of_nonneg_right c1' hpp.le
  refine abs_lt.2 ⟨?_, by nlinarith⟩
  -- the lower side
  have up : 0 ≤ (u - o) / pp := div_nonneg (by linarith) hpp.le
  have up' : (toInt ((u - o) / pp) : ℝ) * pp ≤ u - o := by
    have := mul_le_mul_of_nonneg_right (toInt_le up) hpp.le
    rwa [e] at this
  by_cases hc : n - 1 < toInt ((x - r - o) / pp)
  · have : toInt ((u - o) / pp) = n - 1 := by omega
    rw [this] at up'
    push_cast at up'
    nlinarith
  · have c2 : toInt ((x - r - o) / pp) ≤ toInt ((u - o) / pp) := by omega
    have c2' : (toInt ((x - r - o) / pp) : ℝ) ≤ toInt ((u - o) / pp) := by exact_mod_cast c2
    have m2 := mul_le_mul_of_nonneg_right c2' hpp.le
    have t2 : x - r - o < (toInt ((x - r - o) / pp) + 1) * pp := by
      have := mul_lt_mul_of_pos_right (toInt_lt ((x - r - o) / pp)) hpp
      rwa [e] at this
    nlinarith

/-- The position is in the rectangle that the table was made for. -/
def InRect (x0 y0 x1 y1 : ℝ) (p : P2) : Prop := (x0 ≤ p.1 ∧ p.1 ≤ x1) ∧ y0 ≤ p.2 ∧ p.2 ≤ y1

theorem inRect_inside {x0 y0 x1 y1 pp : ℝ} (hpp : 0 < pp) {p : P2} (h : InRect x0 y0 x1 y1 p) :
    Inside (Gridder.new α x0 y0 x1 y1 pp) p := by
  have ax : ∀ {o t u : ℝ}, o ≤ u → u ≤ t → 0 ≤ toInt ((u - o) / pp) ∧ toInt ((u - o) / pp) < toInt ((t - o) / pp + 1) := by
    intro o t u h1 h2
    have q : 0 ≤ (u - o) / pp := div_nonneg (by linarith) hpp.le
    have q2 : (u - o) / pp ≤ (t - o) / pp := by gcongr
    rw [toInt_nonneg q, toInt_nonneg (by linarith)]
    refine ⟨Int.floor_nonneg.2 q, ?_⟩
    rw [Int.floor_add_one]
    have := Int.floor_le_floor q2
    omega
  obtain ⟨⟨a, b⟩, c, d⟩ := h
  exact ⟨(ax a b).1, (ax c d).1, (ax a b).2, (ax c d).2⟩

open Classical in
/-- **C137.** Objects are added to the table at positions of its rectangle, in any number and order.  A search
then ends, whatever the position and the range; it delivers no object twice that was added once, it
delivers every object within range in both coordinates, and, if it starts in the rectangle, only objects
less than one cell beyond the range. -/
theorem C137_find (x0 y0 x1 y1 pp : ℝ) (hpp : 0 < pp) (hx : x0 ≤ x1) (hy : y0 ≤ y1) (items : List (P2 × α))
    (hin : ∀ it ∈ items, InRect x0 y0 x1 y1 it.1) (x y range : ℝ) (hr : 0 ≤ range) :
    ∃ (found : List (P2 × α)) (bound : ℕ),
      (∀ cells fuel, bound ≤ cells → bound ≤ fuel → ∃ out : List α, out.Perm (found.map Prod.snd) ∧
        (addAll (Gridder.new α x0 y0 x1 y1 pp) items).find x y range cells fuel = some out) ∧
      found.Sublist items ∧
      (∀ it ∈ items, |it.1.1 - x| ≤ range → |it.1.2 - y| ≤ range → it ∈ found) ∧
      (InRect x0 y0 x1 y1 (x, y) → ∀ it ∈ found, |it.1.1 - x| < range + pp ∧ |it.1.2 - y| < range + pp) := by
  obtain ⟨out, bound, h1, h2⟩ := find_spec x0 y0 x1 y1 pp hpp hx hy items x y range hr
  obtain ⟨g, hg⟩ : ∃ g, g = addAll (Gridder.new α x0 y0 x1 y1 pp) items := ⟨_, rfl⟩
  obtain ⟨f1, f2, f3, f4, f5⟩ := addAll_frame items (Gridder.new α x0 y0 x1 y1 pp)
  rw [← hg] at h1 h2 f1 f2 f3 f4 f5 ⊢
  have ins : ∀ it ∈ items, Inside g it.1 := by
    intro it hit
    have := inRect_inside (α := α) hpp (hin it hit)
    unfold Inside cellOf at this ⊢
    rw [f1, f2, f3, f4, f5]
    exact this
  refine ⟨items.filter fun it => Inside g it.1 ∧ InWindow (g.window x y range) (cellOf g it.1), bound, ?_, ?_, ?_, ?_⟩
  · intro cells fuel hc hf
    exact ⟨out, h2, h1 cells fuel hc hf⟩
  · exact List.filter_sublist
  · intro it hit hdx hdy
    rw [List.mem_filter]
    refine ⟨hit, ?_⟩
    rw [decide_eq_true_eq]
    have i := ins it hit
    refine ⟨i, ?_⟩
    have hpp' : 0 < g.pp := by rw [f3]; exact hpp
    obtain ⟨i1, i2, i3, i4⟩ := i
    have a := axis_near (o := g.x0) hpp' hdx
    have b := axis_near (o := g.y0) hpp' hdy
    exact ⟨clamp_in i1 i3 a.1 a.2, clamp_in i2 i4 b.1 b.2⟩
  · intro hq it hit
    rw [List.mem_filter, decide_eq_true_eq] at hit
    obtain ⟨hmem, ⟨i1, i2, i3, i4⟩, ⟨w1, w2⟩, w3, w4⟩ := hit
    have hpp' : 0 < g.pp := by rw [f3]; exact hpp
    have hI := hin it hmem
    have hw : x1 < x0 + pp * g.width := by
      rw [f4]
      show x1 < x0 + pp * toInt ((x1 - x0) / pp + 1)
      have := toInt_lt ((x1 - x0) / pp + 1)
      have q : (x1 - x0) / pp < toInt ((x1 - x0) / pp + 1) := by linarith
      have := mul_lt_mul_of_pos_right q hpp
      rw [div_mul_cancel₀ _ hpp.ne'] at this
      linarith
    have hh : y1 < y0 + pp * g.height := by
      rw [f5]
      show y1 < y0 + pp * toInt ((y1 - y0) / pp + 1)
      have := toInt_lt ((y1 - y0) / pp + 1)
      have q : (y1 - y0) / pp < toInt ((y1 - y0) / pp + 1) := by linarith
      have := mul_lt_mul_of_pos_right q hpp
      rw [div_mul_cancel₀ _ hpp.ne'] at this
      linarith
    have e1 : g.x0 = x0 := f1
    have e2 : g.y0 = y0 := f2
    have e3 : g.pp = pp := f3
    obtain ⟨⟨q1, q2⟩, q3, q4⟩ := hq
    have A := axis_far hpp' i1 i3 w1 w2 (by rw [e1]; simp only at q1; linarith)
      (by rw [e1, e3]; simp only at q2; linarith) (by rw [e1]; exact hI.1.1)
    have B := axis_far hpp' i2 i4 w3 w4 (by rw [e2]; simp only at q3; linarith)
      (by rw [e2, e3]; simp only at q4; linarith) (by rw [e2]; exact hI.2.1)
    rw [e3] at A B
    exact ⟨A, B⟩

/-- **C137, outside of the rectangle.** An object added a cell or more to the left of the rectangle is
delivered by no search, not even one at its own position. -/
theorem C137_outside (x0 y0 x1 y1 pp : ℝ) (hpp : 0 < pp) (hx : x0 ≤ x1) (hy : y0 ≤ y1) (p : P2) (a : α)
    (hp : p.1 ≤ x0 - pp) (x y range : ℝ) (hr : 0 ≤ range) :
    ∃ bound : ℕ, ∀ cells fuel, bound ≤ cells → bound ≤ fuel →
      ((Gridder.new α x0 y0 x1 y1 pp).add p.1 p.2 a).find x y range cells fuel = some [] := by
  obtain ⟨out, bound, h1, h2⟩ := find_spec x0 y0 x1 y1 pp hpp hx hy [(p, a)] x y range hr
  refine ⟨bound, fun cells fuel hc hf => ?_⟩
  have hn : ¬ Inside (addAll (Gridder.new α x0 y0 x1 y1 pp) [(p, a)]) p := by
    obtain ⟨f1, f2, f3, f4, f5⟩ := addAll_frame [(p, a)] (Gridder.new α x0 y0 x1 y1 pp)
    rintro ⟨h, -⟩
    unfold cellOf at h
    rw [f1, f3] at h
    have h' : (0 : ℤ) ≤ toInt ((p.1 - x0) / pp) := h
    have hq : (p.1 - x0) / pp ≤ -1 := by
      rw [div_le_iff₀ hpp]; linarith
    have := toInt_mono hq
    have e : toInt (-1) = -1 := by
      unfold toInt
      rw [if_neg (by norm_num)]
      rw [show (-1 : ℝ) = ((-1 : ℤ) : ℝ) by push_cast; rfl, Int.ceil_intCast]
    omega
  have : out = [] := by
    simpa [hn] using h2
  have h := h1 cells fuel hc hf
  rw [this] at h
  exact h

/-- **C137, the successors.** With all segments starting in the image, the successors of a segment are found in
finite time, none is listed twice, and every segment that passes the tests and starts within half the
length of the first one (in both coordinates) is among them. -/
theorem C137_successors (seg : ℕ → Seg) (n : ℕ) (width height : ℝ) (hw : 0 ≤ width) (hh : 0 ≤ height)
    (hin : ∀ i < n, InRect 0 0 width height ((seg i).x0, (seg i).y0)) (i : ℕ) (hl : 0 ≤ (seg i).length) :
    ∃ bound : ℕ, ∀ cells fuel, bound ≤ cells → bound ≤ fuel →
      ∃ out, successors seg n width height cells fuel i = some out ∧ out.Nodup ∧
        (∀ c ∈ out, c < n ∧ isChild (seg i) (seg c) = true) ∧
        (∀ c < n, isChild (seg i) (seg c) = true → |(seg c).x0 - (seg i).x1| ≤ (seg i).length / 2 →
          |(seg c).y0 - (seg i).y1| ≤ (seg i).length / 2 → c ∈ out) := by
  have et : table seg n width height = addAll (Gridder.new ℕ 0 0 width height 10)
      ((List.range n).map fun k => (((seg k).x0, (seg k).y0), k)) := by
    unfold table addAll
    rw [List.foldl_map]
  obtain ⟨found, bound, h1, h2, h3, -⟩ := C137_find 0 0 width height 10 (by norm_num) hw hh
    ((List.range n).map fun k => (((seg k).x0, (seg k).y0), k)) (by
      intro it hit
      obtain ⟨k, hk, rfl⟩ := List.mem_map.1 hit
      exact hin k (List.mem_range.1 hk)) (seg i).x1 (seg i).y1 (1 / 2 * (seg i).length) (by linarith)
  refine ⟨bound, fun cells fuel hc hf => ?_⟩
  obtain ⟨out, ho, hf⟩ := h1 cells fuel hc hf
  rw [← et] at hf
  refine ⟨out.filter fun c => isChild (seg i) (seg c), ?_, ?_, ?_, ?_⟩
  · unfold successors
    rw [hf]
    rfl
  · apply List.Nodup.filter
    rw [ho.nodup_iff]
    have := h2.map Prod.snd
    rw [List.map_map] at this
    have e : (Prod.snd ∘ fun k : ℕ => ((((seg k).x0, (seg k).y0), k) : P2 × ℕ)) = id := rfl
    rw [e, List.map_id] at this
    exact this.nodup List.nodup_range
  · intro c hc
    rw [List.mem_filter] at hc
    refine ⟨?_, hc.2⟩
    have := ho.mem_iff.1 hc.1
    obtain ⟨it, hit, rfl⟩ := List.mem_map.1 this
    obtain ⟨k, hk, rfl⟩ := List.mem_map.1 (h2.subset hit)
    exact List.mem_range.1 hk
  · intro c hc hch hx hy
    rw [List.mem_filter]
    refine ⟨?_, hch⟩
    rw [ho.mem_iff]
    refine List.mem_map.2 ⟨(((seg c).x0, (seg c).y0), c), ?_, rfl⟩
    exact h3 _ (List.mem_map.2 ⟨c, List.mem_range.2 hc, rfl⟩) (by simp only; linarith) (by simp only; linarith)

/-- The hypotheses of `C137_find` are met, and the search for one of two objects finds that one. -/
example : ∃ cells fuel, (addAll (Gridder.new ℕ 0 0 640 480 10) [((3, 4), 7), ((500, 4), 8)]).find 5 5 6 cells fuel
    = some [7] := by
  have hin : ∀ it ∈ [(((3, 4) : P2), 7), (((500, 4) : P2), 8)], InRect 0 0 640 480 it.1 := by
    intro it hit
    simp only [List.mem_cons, List.not_mem_nil, or_false] at hit
    rcases hit with rfl | rfl <;> norm_num [InRect]
  obtain ⟨found, bound, h1, h2, h3, h4⟩ := C137_find 0 0 640 480 10 (by norm_num) (by norm_num) (by norm_num)
    [(((3, 4) : P2), 7), (((500, 4) : P2), 8)] hin 5 5 6 (by norm_num)
  have m7 := h3 ((3, 4), 7) (by simp) (by norm_num [abs_le]) (by norm_num [abs_le])
  have m8 : (((500, 4) : P2), 8) ∉ found := by
    intro h
    have := (h4 (by norm_num [InRect]) _ h).1
    norm_num [abs_lt] at this
  obtain ⟨out, ho, hf⟩ := h1 bound bound le_rfl le_rfl
  refine ⟨bound, bound, ?_⟩
  rw [hf]
  have : found = [((3, 4), 7)] := by
    cases h2 with
    | cons _ h => 
      cases h with
      | cons _ h => cases h; simp at m7
      | cons_cons _ h => simp at m8
    | cons_cons _ h =>
      cases h with
      | cons _ h => cases h; rfl
      | cons_cons _ h => simp at m8
  rw [this] at ho
  rw [List.perm_singleton.1 ho]

end Kalibr.Quads
