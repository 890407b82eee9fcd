import Verif.Histogram.Props

/-!
# Mean, median, mode and variance of a histogram of one dimension (C151)
-/

namespace Kalibr.Histogram

open Kalibr.Grid

/-- The numbers in the range of a dimension. -/
def within (d : Dim) (xs : List ℚ) : List ℚ := xs.filter fun x => decide (d.lo ≤ x ∧ x ≤ d.hi)

/-- The histogram of one dimension after samples. -/
def Filled (d : Dim) (xs : List ℚ) (g : Grid ℚ) : Prop :=
  ∃ g0, make [d] = .ok g0 ∧ addSamples g0 (xs.map fun x => [x]) = .ok g

/-! ## The loop -/

theorem inc_one (n i : Int) (h : i < n) : incrementIndex [n] [i] = [i + 1] := by
  unfold incrementIndex
  rw [incLoop]
  by_cases h1 : i + 1 < n
  · rw [if_pos h1]; rfl
  · rw [if_neg h1]
    show [n] = [i + 1]
    have : n = i + 1 := by omega
    rw [this]

theorem walk_one {β : Type} (g : Grid ℚ) (n : ℕ) (hn : g.numCells = [(n : Int)]) (body : β → List Int → Out β) (f : β → ℕ → β)
    (hb : ∀ b i, i < n → body b [(i : Int)] = .ok (f b i)) (fuel i : ℕ) (b : β) (hi : i ≤ n) (hf : n - i < fuel) :
    walk g body fuel [(i : Int)] b = .ok ((List.range' i (n - i)).foldl f b) := by
  induction fuel generalizing i b with
  | zero => omega
  | succ fuel ih =>
    rw [walk, hn]
    by_cases h : i = n
    · subst h
      rw [if_pos rfl, Nat.sub_self]
      rfl
    · rw [if_neg (by simpa using h), hb b i (by omega), Out.bind, inc_one _ _ (by omega)]
      have := ih (i + 1) (f b i) (by omega) (by omega)
      push_cast at this
      rw [this, show n - i = (n - (i + 1)) + 1 by omega, List.range'_succ, List.foldl_cons]

theorem loop_one {β : Type} (g : Grid ℚ) (n : ℕ) (hn : g.numCells = [(n : Int)]) (body : β → List Int → Out β) (f : β → ℕ → β)
    (hb : ∀ b i, i < n → body b [(i : Int)] = .ok (f b i)) (b : β) :
    loop g body b = .ok ((List.range n).foldl f b) := by
  unfold loop
  have h := walk_one g n hn body f hb (g.numCells.prod.toNat + 1) 0 b (Nat.zero_le _) (by rw [hn]; simp)
  rw [hn] at h ⊢
  rw [List.range_eq_range']
  exact h

/-! ## Filled histograms -/

/-- What a filled histogram is. -/
structure Full (d : Dim) (xs : List ℚ) (g : Grid ℚ) (n : ℕ) : Prop where
  good : Good [d] g
  fits : 0 < d.res ∧ d.lo < d.hi ∧ d.res ≤ d.hi - d.lo
  num : g.numCells = [(n : Int)]
  n_eq : (n : Int) = d.numCells
  len : g.cells.length = n
  sum : ∀ f : ℕ → ℚ, ∑ i ∈ Finset.range n, f i * g.cells.getD i 0 = ((within d xs).map fun x => f (d.index x).toNat).sum

theorem inRange_one (d : Dim) (x : ℚ) : InRange [d] [x] ↔ d.lo ≤ x ∧ x ≤ d.hi := by
  unfold InRange
  simp

theorem filled_full {d : Dim} {xs : List ℚ} {g : Grid ℚ} (h : Filled d xs g) : ∃ n, 0 < n ∧ Full d xs g n := by
  obtain ⟨g0, h1, h2⟩ := h
  obtain ⟨h3, h4⟩ := make_good h1
  obtain ⟨g', h5, h6, h7, h8⟩ := addSamples_sum h3 (xs.map fun x => [x]) (by
    intro p hp
    obtain ⟨x, _, rfl⟩ := List.mem_map.1 hp
    rfl)
  rw [h2] at h5
  cases h5
  have hf := h3.fits d (by simp)
  have hp := numCells_pos d hf
  obtain ⟨n, hn⟩ : ∃ n : ℕ, (n : Int) = d.numCells := ⟨d.numCells.toNat, by omega⟩
  have hlen : g.cells.length = n := by
    rw [h7, h4]
    simp [← hn]
  refine ⟨n, by omega, h6, hf, by rw [h6.num, List.map_singleton, hn], hn, hlen, fun f => ?_⟩
  have h9 := h8 f
  rw [h4, zero_sum, zero_add, hlen] at h9
  rw [h9]
  clear h2 h9 h8 h7 h6 hlen
  induction xs with
  | nil => simp [inside, within]
  | cons x xs ih =>
    have hm : (x :: xs).map (fun x => [x]) = [x] :: xs.map fun x => [x] := rfl
    rw [hm]
    by_cases hx : d.lo ≤ x ∧ x ≤ d.hi
    · rw [inside_pos ((inRange_one d x).2 hx), within, List.filter_cons_of_pos (by simpa using hx), List.map_cons,
        List.map_cons, List.sum_cons, List.map_cons, List.sum_cons]
      refine congrArg₂ (· + ·) ?_ ih
      simp [place, linearIndex, linProd]
    · rw [inside_neg (fun h => hx ((inRange_one d x).1 h)), within, List.filter_cons_of_neg (by simpa using hx), ih]
      rfl

theorem Full.valid {d : Dim} {xs : List ℚ} {g : Grid ℚ} {n : ℕ} (h : Full d xs g n) {i : ℕ} (hi : i < n) :
    ValidIdx g.numCells [(i : Int)] := by
  rw [h.num]
  exact List.Forall₂.cons ⟨by omega, by omega⟩ List.Forall₂.nil

theorem Full.cell {d : Dim} {xs : List ℚ} {g : Grid ℚ} {n : ℕ} (h : Full d xs g n) {i : ℕ} (hi : i < n) :
    g.getCell [(i : Int)] = .ok (g.cells.getD i 0) := by
  rw [getCell_eq h.good (h.valid hi)]
  congr 1
  have h1 : place g.numCells [(i : Int)] = i := by rw [h.num]; simp [place, linearIndex, linProd]
  have h2 : i < g.cells.length := by rw [h.len]; exact hi
  simp [h1, h2]

theorem Full.coord {d : Dim} {xs : List ℚ} {g : Grid ℚ} {n : ℕ} (h : Full d xs g n) {i : ℕ} (hi : i < n) :
    coordinate g [(i : Int)] = .ok (d.centre i) := by
  unfold coordinate Grid.getCoordinates
  rw [if_neg (by rw [h.num]; simp), if_neg (by rw [validIdx_isValid _ _ (h.valid hi)]; simp), h.good.dim]
  rfl

theorem Full.total {d : Dim} {xs : List ℚ} {g : Grid ℚ} {n : ℕ} (h : Full d xs g n) : getSum g = (within d xs).length := by
  have h1 := h.sum fun _ => 1
  simp only [one_mul] at h1
  rw [getSum_eq, h.len, h1, map_one_sum]

theorem within_mem {d : Dim} {xs : List ℚ} {x : ℚ} (h : x ∈ within d xs) : d.lo ≤ x ∧ x ≤ d.hi := by
  unfold within at h
  simpa using (List.mem_filter.1 h).2

theorem Full.near {d : Dim} {xs : List ℚ} {g : Grid ℚ} {n : ℕ} (h : Full d xs g n) {x : ℚ} (hx : x ∈ within d xs) :
    (d.index x).toNat < n ∧ ((d.index x).toNat : Int) = d.index x ∧ |d.centre (d.index x) - x| ≤ d.res / 2 := by
  have hx := within_mem hx
  obtain ⟨⟨h1, h2⟩, h3, h4⟩ := index_spec d h.fits x hx.1 hx.2
  have hn := h.n_eq
  have hr := h.fits.1
  refine ⟨by omega, by omega, ?_⟩
  have h5 : x ≤ d.lo + (d.index x + 1) * d.res := by
    rcases h4 with h4 | ⟨h4, h5⟩
    · exact h4.le
    · rw [h5, h4]
      push_cast
      have h6 : (d.hi - d.lo) / d.res ≤ d.numCells := Int.le_ceil _
      rw [div_le_iff₀ hr] at h6
      linarith
  unfold Dim.centre
  rw [abs_le]
  constructor <;> linarith

theorem foldl_range_sum (f : ℕ → ℚ) (n : ℕ) (b : ℚ) : (List.range n).foldl (fun m i => m + f i) b = b + ∑ i ∈ Finset.range n, f i := by
  induction n with
  | zero => simp
  | succ n ih => rw [List.range_succ, List.foldl_append, ih, List.foldl_cons, List.foldl_nil, Finset.sum_range_succ]; ring

theorem Full.mean {d : Dim} {xs : List ℚ} {g : Grid ℚ} {n : ℕ} (h : Full d xs g n) :
    getMean g = .ok (((within d xs).map fun x => d.centre (d.index x)).sum / (within d xs).length) := by
  unfold getMean
  rw [loop_one g n h.num _ (fun m i => m + d.centre i * g.cells.getD i 0) (fun b i hi => by
    rw [h.coord hi, Out.bind, h.cell hi, Out.bind]), Out.bind, foldl_range_sum (fun i => d.centre i * g.cells.getD i 0), zero_add,
    h.sum fun i => d.centre i, h.total]
  congr 3
  refine List.map_congr_left fun x hx => ?_
  rw [(h.near hx).2.1]

theorem sum_near (l : List ℚ) (f : ℚ → ℚ) (e : ℚ) (h : ∀ x ∈ l, |f x - x| ≤ e) : |(l.map f).sum - l.sum| ≤ l.length * e := by
  induction l with
  | nil => simp
  | cons a l ih =>
    have h1 := h a (by simp)
    have h2 := ih fun x hx => h x (by simp [hx])
    rw [List.map_cons, List.sum_cons, List.sum_cons, List.length_cons]
    push_cast
    rw [abs_le] at *
    constructor <;> linarith [h1.1, h1.2, h2.1, h2.2]

/-- C151: when there is a sample in range, the mean reported differs from the mean of the samples in range by at most half
of the size of a bin. -/
theorem C151_mean (d : Dim) (xs : List ℚ) (g : Grid ℚ) (h : Filled d xs g) (hne : within d xs ≠ []) :
    ∃ m, getMean g = .ok m ∧ |m - (within d xs).sum / (within d xs).length| ≤ d.res / 2 := by
  obtain ⟨n, _, hF⟩ := filled_full h
  refine ⟨_, hF.mean, ?_⟩
  have hl : (0 : ℚ) < (within d xs).length := by exact_mod_cast List.length_pos_iff.2 hne
  have h1 := sum_near (within d xs) (fun x => d.centre (d.index x)) (d.res / 2) fun x hx => (hF.near hx).2.2
  rw [← sub_div, abs_div, abs_of_pos hl, div_le_iff₀ hl]
  linarith

/-- C151: when there are two samples in range, the variance reported is that of the samples in range, each moved to the
centre of its bin, about their mean, divided by the number less one. -/
theorem C151_variance (d : Dim) (xs : List ℚ) (g : Grid ℚ) (h : Filled d xs g) (_hne : 2 ≤ (within d xs).length) :
    ∃ m cs, getMean g = .ok m ∧ List.Forall₂ (fun x c => |c - x| ≤ d.res / 2 ∧ ∃ i, 0 ≤ i ∧ i < d.numCells ∧ c = d.centre i) (within d xs) cs ∧
      m = cs.sum / cs.length ∧ getVariance g = .ok ((cs.map fun c => (c - m) ^ 2).sum / (cs.length - 1)) := by
  obtain ⟨n, _, hF⟩ := filled_full h
  refine ⟨_, (within d xs).map fun x => d.centre (d.index x), hF.mean, ?_, by rw [List.length_map], ?_⟩
  · rw [List.forall₂_map_right_iff, List.forall₂_same]
    intro x hx
    obtain ⟨h1, h2, h3⟩ := hF.near hx
    have := hF.n_eq
    exact ⟨h3, _, by omega, by omega, rfl⟩
  · obtain ⟨m, hm⟩ : ∃ m, m = ((within d xs).map fun x => d.centre (d.index x)).sum / (within d xs).length := ⟨_, rfl⟩
    rw [← hm]
    unfold getVariance
    rw [hF.mean, Out.bind, ← hm, loop_one g n hF.num _ (fun m' i => m' + (d.centre i - m) * (d.centre i - m) * g.cells.getD i 0)
      (fun b i hi => by rw [hF.coord hi, Out.bind, hF.cell hi, Out.bind]), Out.bind,
      foldl_range_sum (fun i => (d.centre i - m) * (d.centre i - m) * g.cells.getD i 0), zero_add,
      hF.sum fun i => (d.centre i - m) * (d.centre i - m), hF.total, List.length_map, List.map_map]
    congr 3
    refine List.map_congr_left fun x hx => ?_
    simp only [Function.comp]
    rw [(hF.near hx).2.1]
    ring

/-! ## Mode -/

theorem mode_fold (c : ℕ → ℚ) (n : ℕ) :
    ((List.range n).foldl (fun (s : Option (ℚ × List Int)) i => match s with
      | none => some (c i, [(i : Int)])
      | some (m, j) => if c i > m then some (c i, [(i : Int)]) else some (m, j)) none = none ∧ n = 0) ∨
    ∃ k < n, (List.range n).foldl (fun (s : Option (ℚ × List Int)) i => match s with
      | none => some (c i, [(i : Int)])
      | some (m, j) => if c i > m then some (c i, [(i : Int)]) else some (m, j)) none = some (c k, [(k : Int)]) ∧ ∀ i < n, c i ≤ c k := by
  induction n with
  | zero => left; exact ⟨rfl, rfl⟩
  | succ n ih =>
    right
    rw [List.range_succ, List.foldl_append, List.foldl_cons, List.foldl_nil]
    rcases ih with ⟨h1, h2⟩ | ⟨k, h1, h2, h3⟩
    · subst h2
      rw [h1]
      exact ⟨0, by omega, rfl, fun i hi => by have : i = 0 := by omega
                                              rw [this]⟩
    · rw [h2]
      simp only
      by_cases h4 : c n > c k
      · rw [if_pos h4]
        refine ⟨n, by omega, rfl, fun i hi => ?_⟩
        rcases Nat.lt_succ_iff_lt_or_eq.1 hi with h5 | h5
        · exact (h3 i h5).trans (le_of_lt h4)
        · rw [h5]
      · rw [if_neg h4]
        refine ⟨k, by omega, rfl, fun i hi => ?_⟩
        rcases Nat.lt_succ_iff_lt_or_eq.1 hi with h5 | h5
        · exact h3 i h5
        · rw [h5]; exact not_lt.1 h4

/-- C151: the mode reported is the centre of a bin, and no bin holds more samples than that one. -/
theorem C151_mode (d : Dim) (xs : List ℚ) (g : Grid ℚ) (h : Filled d xs g) :
    ∃ (k : Int) (c : ℚ), 0 ≤ k ∧ k < d.numCells ∧ getMode g = .ok (d.centre k) ∧ g.getCell [k] = .ok c ∧
      ∀ i, 0 ≤ i → i < d.numCells → ∃ c', g.getCell [i] = .ok c' ∧ c' ≤ c := by
  obtain ⟨n, hn, hF⟩ := filled_full h
  have hne := hF.n_eq
  rcases mode_fold (fun i => g.cells.getD i 0) n with ⟨_, h0⟩ | ⟨k, hk, h1, h2⟩
  · omega
  · refine ⟨k, g.cells.getD k 0, by omega, by omega, ?_, hF.cell hk, ?_⟩
    · unfold getMode
      rw [loop_one g n hF.num _ (fun (s : Option (ℚ × List Int)) i => match s with
        | none => some (g.cells.getD i 0, [(i : Int)])
        | some (m, j) => if g.cells.getD i 0 > m then some (g.cells.getD i 0, [(i : Int)]) else some (m, j)) (fun b i hi => by
          rw [hF.cell hi, Out.bind]
          cases b with
          | none => rfl
          | some q =>
            obtain ⟨m, j⟩ := q
            simp only
            by_cases h3 : g.cells.getD i 0 > m
            · rw [if_pos h3, if_pos h3]
            · rw [if_neg h3, if_neg h3]), h1, Out.bind]
      exact hF.coord hk
    · intro i hi1 hi2
      obtain ⟨j, rfl⟩ := Int.eq_ofNat_of_zero_le hi1
      have hj : j < n := by omega
      exact ⟨_, hF.cell hj, h2 j hj⟩

/-! ## Median -/

theorem median_fold (c x : ℕ → ℚ) (half : ℚ) (n : ℕ) :
    ((List.range n).foldl (fun (s : ℚ × Option ℚ) i => match s.2 with
      | some _ => s
      | none => if s.1 + c i ≥ half then (s.1 + c i, some (x i)) else (s.1 + c i, none)) (0, none) = (∑ i ∈ Finset.range n, c i, none) ∧
        ∀ k < n, ∑ i ∈ Finset.range (k + 1), c i < half) ∨
    ∃ k < n, (∃ s, (List.range n).foldl (fun (s : ℚ × Option ℚ) i => match s.2 with
      | some _ => s
      | none => if s.1 + c i ≥ half then (s.1 + c i, some (x i)) else (s.1 + c i, none)) (0, none) = (s, some (x k))) ∧
        half ≤ ∑ i ∈ Finset.range (k + 1), c i ∧ ∀ j < k, ∑ i ∈ Finset.range (j + 1), c i < half := by
  induction n with
  | zero => left; exact ⟨by simp, by intro k hk; omega⟩
  | succ n ih =>
    rw [List.range_succ, List.foldl_append, List.foldl_cons, List.foldl_nil]
    rcases ih with ⟨h1, h2⟩ | ⟨k, h1, ⟨s, h2⟩, h3, h4⟩
    · rw [h1]
      simp only
      rw [← Finset.sum_range_succ]
      by_cases h3 : ∑ i ∈ Finset.range (n + 1), c i ≥ half
      · right
        rw [if_pos h3]
        exact ⟨n, by omega, ⟨_, rfl⟩, h3, h2⟩
      · left
        rw [if_neg h3]
        refine ⟨rfl, fun k hk => ?_⟩
        rcases Nat.lt_succ_iff_lt_or_eq.1 hk with h5 | h5
        · exact h2 k h5
        · rw [h5]; exact not_le.1 h3
    · right
      rw [h2]
      exact ⟨k, by omega, ⟨s, rfl⟩, h3, h4⟩

theorem sum_indicator (l : List ℚ) (P : ℚ → Prop) [DecidablePred P] : (l.map fun x => if P x then (1 : ℚ) else 0).sum = (l.countP fun x => decide (P x) : ℕ) := by
  induction l with
  | nil => simp
  | cons a l ih =>
    rw [List.map_cons, List.sum_cons, ih, List.countP_cons]
    by_cases h : P a
    · rw [if_pos h, if_pos (by simpa using h)]; push_cast; ring
    · rw [if_neg h, if_neg (by simpa using h)]; push_cast; ring

theorem Full.below {d : Dim} {xs : List ℚ} {g : Grid ℚ} {n : ℕ} (h : Full d xs g n) {k : ℕ} (hk : k ≤ n) :
    ∑ i ∈ Finset.range k, g.cells.getD i 0 = ((within d xs).countP fun x => decide (d.index x < (k : Int)) : ℕ) := by
  have h1 := h.sum fun i => if i < k then 1 else 0
  have h2 : ∑ i ∈ Finset.range n, (if i < k then (1 : ℚ) else 0) * g.cells.getD i 0 = ∑ i ∈ Finset.range k, g.cells.getD i 0 := by
    rw [← Finset.sum_subset (Finset.range_subset_range.2 hk)]
    · refine Finset.sum_congr rfl fun i hi => ?_
      rw [if_pos (Finset.mem_range.1 hi), one_mul]
    · intro i _ hi
      rw [if_neg (fun h => hi (Finset.mem_range.2 h)), zero_mul]
  rw [h2] at h1
  rw [h1, ← sum_indicator]
  congr 1
  refine List.map_congr_left fun x hx => ?_
  have := (h.near hx).2.1
  by_cases h3 : d.index x < (k : Int)
  · rw [if_pos h3, if_pos (by omega)]
  · rw [if_neg h3, if_neg (by omega)]

/-- C151: at least half of the samples in range are at most half a bin above the median reported, and at least half of them
are at most half a bin below it. -/
theorem C151_median (d : Dim) (xs : List ℚ) (g : Grid ℚ) (h : Filled d xs g) :
    ∃ m, getMedian g = .ok m ∧
      (within d xs).length ≤ 2 * (within d xs).countP (fun x => decide (x ≤ m + d.res / 2)) ∧
      (within d xs).length ≤ 2 * (within d xs).countP (fun x => decide (m - d.res / 2 ≤ x)) := by
  obtain ⟨n, hn, hF⟩ := filled_full h
  have hloop := loop_one g n hF.num (fun (s : ℚ × Option ℚ) i => match s.2 with
    | some _ => .ok s
    | none => (g.getCell i).bind fun c =>
      if s.1 + c ≥ getSum g * (1 / 2) then (coordinate g i).bind fun x => .ok (s.1 + c, some x) else .ok (s.1 + c, none))
    (fun (s : ℚ × Option ℚ) i => match s.2 with
      | some _ => s
      | none => if s.1 + g.cells.getD i 0 ≥ getSum g * (1 / 2) then (s.1 + g.cells.getD i 0, some (d.centre i)) else (s.1 + g.cells.getD i 0, none))
    (fun b i hi => by
      obtain ⟨a, o⟩ := b
      cases o with
      | some q => rfl
      | none =>
        simp only
        rw [hF.cell hi, Out.bind]
        by_cases h3 : a + g.cells.getD i 0 ≥ getSum g * (1 / 2)
        · rw [if_pos h3, if_pos h3, hF.coord hi, Out.bind]
        · rw [if_neg h3, if_neg h3]) (0, none)
  have htot : getSum g = ∑ i ∈ Finset.range n, g.cells.getD i 0 := by rw [getSum_eq, hF.len]
  have hpos : 0 ≤ getSum g := by rw [hF.total]; positivity
  rcases median_fold (fun i => g.cells.getD i 0) (fun i => d.centre i) (getSum g * (1 / 2)) n with ⟨_, h1⟩ | ⟨k, hk, ⟨s, h1⟩, h2, h3⟩
  · exfalso
    have := h1 (n - 1) (by omega)
    rw [show n - 1 + 1 = n by omega, ← htot] at this
    linarith
  · refine ⟨d.centre k, ?_, ?_, ?_⟩
    · unfold getMedian
      refine (congrArg (fun o => Out.bind o _) hloop).trans ?_
      rw [h1]
      rfl
    · rw [hF.below (by omega), hF.total] at h2
      have h4 : (within d xs).countP (fun x => decide (d.index x < ((k + 1 : ℕ) : Int))) ≤
          (within d xs).countP (fun x => decide (x ≤ d.centre k + d.res / 2)) := by
        refine List.countP_mono_left fun x hx h5 => ?_
        simp only [decide_eq_true_eq] at *
        obtain ⟨_, _, h6⟩ := hF.near hx
        have h7 := (abs_le.1 h6).1
        have h8 : d.centre (d.index x) ≤ d.centre k := by
          unfold Dim.centre
          have : ((d.index x : Int) : ℚ) ≤ ((k : Int) : ℚ) := by exact_mod_cast (by omega : d.index x ≤ (k : Int))
          have := mul_le_mul_of_nonneg_right this hF.fits.1.le
          linarith
        linarith
      have h5 : ((within d xs).length : ℚ) ≤ 2 * ((within d xs).countP (fun x => decide (d.index x < ((k + 1 : ℕ) : Int))) : ℕ) := by linarith
      have h6 : (within d xs).length ≤ 2 * (within d xs).countP (fun x => decide (d.index x < ((k + 1 : ℕ) : Int))) := by exact_mod_cast h5
      omega
    · have h4 : ((within d xs).countP (fun x => decide (d.index x < (k : Int))) : ℕ) * 2 ≤ (within d xs).length := by
        rcases Nat.eq_zero_or_pos k with hk0 | hk0
        · subst hk0
          have : (within d xs).countP (fun x => decide (d.index x < ((0 : ℕ) : Int))) = 0 := by
            rw [List.countP_eq_zero]
            intro x hx
            have := (hF.near hx).2.1
            simp
            omega
          omega
        · have h5 := h3 (k - 1) (by omega)
          rw [show k - 1 + 1 = k by omega, hF.below (by omega), hF.total] at h5
          have h6 : (((within d xs).countP (fun x => decide (d.index x < (k : Int))) : ℕ) : ℚ) * 2 < (within d xs).length := by linarith
          have : ((within d xs).countP (fun x => decide (d.index x < (k : Int))) : ℕ) * 2 < (within d xs).length := by exact_mod_cast h6
          omega
      have h5 : (within d xs).countP (fun x => decide (¬ d.index x < (k : Int))) ≤
          (within d xs).countP (fun x => decide (d.centre k - d.res / 2 ≤ x)) := by
        refine List.countP_mono_left fun x hx h5 => ?_
        simp only [decide_eq_true_eq] at *
        obtain ⟨_, _, h6⟩ := hF.near hx
        have h7 := (abs_le.1 h6).2
        have h8 : d.centre k ≤ d.centre (d.index x) := by
          unfold Dim.centre
          have : ((k : Int) : ℚ) ≤ ((d.index x : Int) : ℚ) := by exact_mod_cast (by omega : (k : Int) ≤ d.index x)
          have := mul_le_mul_of_nonneg_right this hF.fits.1.le
          linarith
        linarith
      have h6 := List.length_eq_countP_add_countP (fun x => decide (d.index x < (k : Int))) (l := within d xs)
      have h7 : (within d xs).countP (fun x => decide ¬(decide (d.index x < (k : Int))) = true) =
          (within d xs).countP (fun x => decide (¬ d.index x < (k : Int))) := by
        refine List.countP_congr fun x _ => by simp
      rw [h7] at h6
      omega

example : ∃ g, Filled ⟨0, 4, 1⟩ [1 / 2, 7 / 2, 3, 5, 4] g ∧ within ⟨0, 4, 1⟩ [1 / 2, 7 / 2, 3, 5, 4] ≠ [] := by
  obtain ⟨g0, h0⟩ := (C40_constructor [⟨0, 4, 1⟩] (0 : ℚ)).2 (by
    intro d hd
    rw [List.mem_singleton] at hd
    subst hd
    norm_num)
  obtain ⟨h1, _⟩ := make_good (dims := [⟨0, 4, 1⟩]) h0
  obtain ⟨g, h2, _⟩ := addSamples_sum h1 ([1 / 2, 7 / 2, 3, 5, 4].map fun x => [x]) (by
    intro p hp
    obtain ⟨x, _, rfl⟩ := List.mem_map.1 hp
    rfl)
  refine ⟨g, ⟨g0, h0, h2⟩, ?_⟩
  norm_num [within]
  exact List.cons_ne_nil _ _

end Kalibr.Histogram
