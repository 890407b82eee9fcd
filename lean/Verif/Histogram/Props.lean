import Verif.Histogram.Model
import Mathlib.Algebra.BigOperators.Group.Finset.Piecewise
import Mathlib.Algebra.BigOperators.Ring.Finset
import Mathlib.Algebra.Order.BigOperators.Group.Finset

/-!
# Histograms count the samples in range (C151)
-/

namespace Kalibr.Histogram

open Kalibr.Grid

/-- The dimensions are those the constructor accepts. -/
def Fits (dims : List Dim) : Prop := ∀ d ∈ dims, 0 < d.res ∧ d.lo < d.hi ∧ d.res ≤ d.hi - d.lo

/-- The sample is in range and in the cell: the half-open interval of the cell in every dimension, the last cell with its
upper end. -/
def Holds (dims : List Dim) (idx : List Int) (p : List ℚ) : Prop :=
  InRange dims p ∧ ∀ (k : ℕ) (d : Dim) (i : Int) (x : ℚ), dims[k]? = some d → idx[k]? = some i → p[k]? = some x → InCell d i x

/-- A histogram made for the dimensions. -/
structure Good (dims : List Dim) (g : Grid ℚ) : Prop where
  wf : g.WF
  dim : g.dims = dims
  num : g.numCells = dims.map Dim.numCells
  fits : Fits dims

theorem make_good {dims : List Dim} {g : Grid ℚ} (h : make dims = .ok g) :
    Good dims g ∧ g.cells = List.replicate (dims.map Dim.numCells).prod.toNat 0 := by
  have h1 := make_wf dims 0 g h
  obtain ⟨h2, h3⟩ := make_ok dims 0 g h
  subst h2
  exact ⟨⟨h1, rfl, rfl, h3⟩, rfl⟩

theorem index_valid {dims : List Dim} (hf : Fits dims) {p : List ℚ} (h : InRange dims p) :
    ValidIdx (dims.map Dim.numCells) (List.zipWith Dim.index dims p) := by
  induction h with
  | nil => exact List.Forall₂.nil
  | @cons d x dims p hx _ ih =>
    exact List.Forall₂.cons (index_spec d (hf d List.mem_cons_self) x hx.1 hx.2).1
      (ih fun d' hd' => hf d' (List.mem_cons_of_mem _ hd'))

theorem inCell_unique {d : Dim} (h : 0 < d.res ∧ d.lo < d.hi ∧ d.res ≤ d.hi - d.lo) {i : Int} {x : ℚ} (h1 : d.lo ≤ x)
    (h2 : x ≤ d.hi) (hi : i < d.numCells) (hc : InCell d i x) : i = d.index x := by
  obtain ⟨⟨h3, h4⟩, h5⟩ := index_spec d h x h1 h2
  have hr := h.1
  have key : ∀ i j : Int, i < d.numCells → j < d.numCells → InCell d i x → InCell d j x → i ≤ j := by
    intro i j hi hj hi' hj'
    rcases hj'.2 with h6 | h6
    · have h7 : (i : ℚ) * d.res < (j + 1) * d.res := by linarith [hi'.1]
      have h8 : (i : ℚ) < j + 1 := lt_of_mul_lt_mul_right h7 hr.le
      have : i < j + 1 := by exact_mod_cast h8
      omega
    · omega
  exact le_antisymm (key _ _ hi h4 hc h5) (key _ _ h4 hi h5 hc)

theorem holds_iff {dims : List Dim} (hf : Fits dims) {idx : List Int} (hv : ValidIdx (dims.map Dim.numCells) idx) {p : List ℚ} :
    Holds dims idx p ↔ InRange dims p ∧ List.zipWith Dim.index dims p = idx := by
  constructor
  · rintro ⟨h1, h2⟩
    refine ⟨h1, ?_⟩
    induction h1 generalizing idx with
    | nil =>
      cases hv
      rfl
    | @cons d x dims p hx _ ih =>
      rw [List.map_cons] at hv
      cases hv with
      | @cons _ i _ is hi hv =>
        rw [List.zipWith_cons_cons]
        congr 1
        · exact (inCell_unique (hf d List.mem_cons_self) hx.1 hx.2 hi.2 (h2 0 d i x rfl rfl rfl)).symm
        · exact ih (fun d' hd' => hf d' (List.mem_cons_of_mem _ hd')) hv fun k d i x e1 e2 e3 => h2 (k + 1) d i x e1 e2 e3
  · rintro ⟨h1, rfl⟩
    refine ⟨h1, ?_⟩
    clear hv
    induction h1 with
    | nil => intro k d i x e1; simp at e1
    | @cons d x dims p hx _ ih =>
      intro k d' i x' e1 e2 e3
      cases k with
      | zero =>
        simp only [List.getElem?_cons_zero, List.zipWith_cons_cons, Option.some.injEq] at e1 e2 e3
        subst e1 e2 e3
        exact (index_spec d (hf d List.mem_cons_self) x hx.1 hx.2).2
      | succ k =>
        simp only [List.getElem?_cons_succ, List.zipWith_cons_cons] at e1 e2 e3
        exact ih (fun d' hd' => hf d' (List.mem_cons_of_mem _ hd')) k d' i x' e1 e2 e3

/-- The place of a valid index. -/
def place (ns idx : List Int) : ℕ := (linearIndex ns idx).toNat

theorem place_lt {dims : List Dim} {g : Grid ℚ} (hg : Good dims g) {idx : List Int} (hv : ValidIdx g.numCells idx) :
    place g.numCells idx < g.cells.length := by
  have hb := linear_bound _ _ hg.wf.pos hv
  have := hg.wf.cells
  unfold place
  omega

theorem getCell_eq {dims : List Dim} {g : Grid ℚ} (hg : Good dims g) {idx : List Int} (hv : ValidIdx g.numCells idx) :
    g.getCell idx = .ok (g.cells[place g.numCells idx]'(place_lt hg hv)) := by
  have hb := linear_bound _ _ hg.wf.pos hv
  rw [Grid.getCell, if_neg (by simpa using hv.length_eq.symm), if_neg (by rw [validIdx_isValid _ _ hv]; simp)]
  simp only
  rw [if_neg (by omega), show (linearIndex g.numCells idx).toNat = place g.numCells idx from rfl,
    List.getElem?_eq_getElem (place_lt hg hv)]

theorem setCell_eq {dims : List Dim} {g : Grid ℚ} (hg : Good dims g) {idx : List Int} (hv : ValidIdx g.numCells idx) (c : ℚ) :
    g.setCell idx c = .ok { g with cells := g.cells.set (place g.numCells idx) c } := by
  have hb := linear_bound _ _ hg.wf.pos hv
  have := place_lt hg hv
  unfold place at this
  rw [Grid.setCell, if_neg (by simpa using hv.length_eq.symm), if_neg (by rw [validIdx_isValid _ _ hv]; simp)]
  simp only
  rw [if_neg (by omega), if_pos this]
  rfl

theorem place_inj {ns a b : List Int} (hn : ∀ n ∈ ns, 0 < n) (ha : ValidIdx ns a) (hb : ValidIdx ns b) (h : place ns a = place ns b) :
    a = b := by
  have h1 := linear_bound _ _ hn ha
  have h2 := linear_bound _ _ hn hb
  have h3 : linearIndex ns a = linearIndex ns b := by unfold place at h; omega
  obtain ⟨_, _, hu⟩ := (C40_linear_index_bijection ns hn).2 (linearIndex ns a) h1.1 h1.2
  rw [hu a ⟨ha, rfl⟩, hu b ⟨hb, h3.symm⟩]

theorem addSample_eq {dims : List Dim} {g : Grid ℚ} (hg : Good dims g) {p : List ℚ} (hl : p.length = dims.length) :
    (InRange dims p → ∃ k, ∃ hk : k < g.cells.length, k = place g.numCells (List.zipWith Dim.index dims p) ∧
      addSample g p = .ok { g with cells := g.cells.set k (g.cells[k] + 1) }) ∧
    (¬ InRange dims p → addSample g p = .ok g) := by
  have hr := inRange_iff g p (by rw [hg.dim]; exact hl)
  rw [hg.dim] at hr
  constructor
  · intro hin
    have hv := index_valid hg.fits hin
    rw [← hg.num] at hv
    refine ⟨_, place_lt hg hv, rfl, ?_⟩
    unfold addSample
    rw [if_pos (hr.2 hin), Grid.getIndex, if_neg (by rw [hg.dim]; exact not_not.2 hl), if_neg (by rw [hr.2 hin]; simp), Out.bind,
      hg.dim, getCell_eq hg hv, Out.bind, setCell_eq hg hv, hg.dim]
  · intro hin
    unfold addSample
    rw [if_neg (fun h => hin (hr.1 h))]

theorem sum_set (l : List ℚ) (k : ℕ) (hk : k < l.length) (f : ℕ → ℚ) :
    ∑ i ∈ Finset.range l.length, f i * (l.set k (l[k] + 1)).getD i 0 = ∑ i ∈ Finset.range l.length, f i * l.getD i 0 + f k := by
  have h : ∀ i ∈ Finset.range l.length, f i * (l.set k (l[k] + 1)).getD i 0 = f i * l.getD i 0 + if i = k then f k else 0 := by
    intro i hi
    have hi := Finset.mem_range.1 hi
    by_cases h : i = k
    · subst h
      rw [if_pos rfl]
      simp [hk]
      ring
    · rw [if_neg h]
      simp [Ne.symm h]
  rw [Finset.sum_congr rfl h, Finset.sum_add_distrib]
  congr 1
  rw [Finset.sum_ite_eq' (Finset.range l.length) k (fun _ => f k), if_pos (Finset.mem_range.2 hk)]

open Classical in
/-- The samples in range. -/
noncomputable def inside (dims : List Dim) (ps : List (List ℚ)) : List (List ℚ) := ps.filter fun p => decide (InRange dims p)

theorem inside_pos {dims : List Dim} {p : List ℚ} (h : InRange dims p) (ps : List (List ℚ)) :
    inside dims (p :: ps) = p :: inside dims ps := by
  unfold inside
  exact List.filter_cons_of_pos (by simpa using h)

theorem inside_neg {dims : List Dim} {p : List ℚ} (h : ¬ InRange dims p) (ps : List (List ℚ)) :
    inside dims (p :: ps) = inside dims ps := by
  unfold inside
  exact List.filter_cons_of_neg (by simpa using h)

theorem addSamples_sum {dims : List Dim} {g : Grid ℚ} (hg : Good dims g) (ps : List (List ℚ)) (hl : ∀ p ∈ ps, p.length = dims.length) :
    ∃ g', addSamples g ps = .ok g' ∧ Good dims g' ∧ g'.cells.length = g.cells.length ∧ ∀ f : ℕ → ℚ,
      ∑ i ∈ Finset.range g'.cells.length, f i * g'.cells.getD i 0 = ∑ i ∈ Finset.range g.cells.length, f i * g.cells.getD i 0 +
        ((inside dims ps).map fun p => f (place (dims.map Dim.numCells) (List.zipWith Dim.index dims p))).sum := by
  induction ps generalizing g with
  | nil => exact ⟨g, rfl, hg, rfl, fun f => by simp [inside]⟩
  | cons p ps ih =>
    have hlp := hl p (by simp)
    have hlps : ∀ q ∈ ps, q.length = dims.length := fun q hq => hl q (by simp [hq])
    rw [addSamples]
    by_cases hin : InRange dims p
    · obtain ⟨k, hk, hk', h1⟩ := (addSample_eq hg hlp).1 hin
      rw [h1, Out.bind]
      have hg2 : Good dims { g with cells := g.cells.set k (g.cells[k] + 1) } :=
        ⟨⟨hg.wf.pos, by simpa using hg.wf.cells⟩, hg.dim, hg.num, hg.fits⟩
      obtain ⟨g', h2, h3, h4, h5⟩ := ih hg2 hlps
      refine ⟨g', h2, h3, by simpa using h4, fun f => ?_⟩
      rw [h5 f]
      simp only [List.length_set]
      rw [sum_set g.cells k hk f, inside_pos hin, List.map_cons, List.sum_cons, hk', hg.num]
      ring
    · rw [(addSample_eq hg hlp).2 hin, Out.bind]
      obtain ⟨g', h2, h3, h4, h5⟩ := ih hg hlps
      refine ⟨g', h2, h3, h4, fun f => ?_⟩
      rw [h5 f, inside_neg hin]

theorem foldl_sum (l : List ℚ) (a : ℚ) : l.foldl (· + ·) a = a + l.sum := by
  induction l generalizing a with
  | nil => simp
  | cons b l ih => rw [List.foldl_cons, ih, List.sum_cons]; ring

theorem list_sum_range (l : List ℚ) : l.sum = ∑ i ∈ Finset.range l.length, l.getD i 0 := by
  induction l with
  | nil => simp
  | cons a l ih =>
    rw [List.sum_cons, List.length_cons, Finset.sum_range_succ', ih]
    simp [add_comm]

theorem getSum_eq (g : Grid ℚ) : getSum g = ∑ i ∈ Finset.range g.cells.length, g.cells.getD i 0 := by
  unfold getSum
  rw [foldl_sum, zero_add, list_sum_range]

theorem zero_sum (n : ℕ) (f : ℕ → ℚ) : ∑ i ∈ Finset.range (List.replicate n (0 : ℚ)).length, f i * (List.replicate n (0 : ℚ)).getD i 0 = 0 := by
  refine Finset.sum_eq_zero fun i hi => ?_
  have : i < n := by simpa using hi
  simp [this]

theorem map_one_sum {α : Type} (l : List α) : (l.map fun _ => (1 : ℚ)).sum = l.length := by
  induction l with
  | nil => simp
  | cons a l ih => rw [List.map_cons, List.sum_cons, ih, List.length_cons]; push_cast; ring

open Classical in
/-- C151: from a new histogram, whatever samples are added, every cell holds the number of samples that lie in it, and the
sum of the cells is the number of samples in range; samples out of range change nothing. -/
theorem C151_counts (dims : List Dim) (g : Grid ℚ) (h : make dims = .ok g) (ps : List (List ℚ))
    (hl : ∀ p ∈ ps, p.length = dims.length) :
    ∃ g', addSamples g ps = .ok g' ∧
      (∀ idx, ValidIdx (dims.map Dim.numCells) idx → g'.getCell idx = .ok ((ps.countP fun p => decide (Holds dims idx p) : ℕ) : ℚ)) ∧
      getSum g' = ((ps.countP fun p => decide (InRange dims p) : ℕ) : ℚ) := by
  obtain ⟨h1, h2⟩ := make_good h
  obtain ⟨g', h3, h4, h5, h6⟩ := addSamples_sum h1 ps hl
  refine ⟨g', h3, ?_, ?_⟩
  · intro idx hv
    have hv' : ValidIdx g'.numCells idx := by rw [h4.num]; exact hv
    rw [getCell_eq h4 hv']
    congr 1
    have h7 := h6 fun i => if i = place (dims.map Dim.numCells) idx then 1 else 0
    rw [h2, zero_sum, zero_add] at h7
    have h8 := place_lt h4 hv'
    simp only [ite_mul, one_mul, zero_mul] at h7
    rw [Finset.sum_ite_eq' (Finset.range g'.cells.length) _ (fun i => g'.cells.getD i 0), if_pos (by rw [← h4.num]; exact Finset.mem_range.2 h8)] at h7
    rw [← h4.num] at h7
    rw [List.getD_eq_getElem?_getD, List.getElem?_eq_getElem h8, Option.getD_some] at h7
    rw [h7, h4.num]
    clear h3 h6 h7 hl
    induction ps with
    | nil => simp [inside]
    | cons p ps ih =>
      rw [List.countP_cons]
      by_cases hin : InRange dims p
      · rw [inside_pos hin, List.map_cons, List.sum_cons, ih]
        by_cases hh : Holds dims idx p
        · have := ((holds_iff h1.fits hv).1 hh).2
          rw [this, if_pos rfl, if_pos (by simpa using hh)]
          push_cast
          ring
        · rw [if_neg (fun he => hh ((holds_iff h1.fits hv).2 ⟨hin, place_inj (h4.num ▸ h4.wf.pos) (index_valid h1.fits hin) hv he⟩)),
            if_neg (by simpa using hh)]
          push_cast
          ring
      · have hh : ¬ Holds dims idx p := fun hh => hin hh.1
        rw [inside_neg hin, if_neg (by simpa using hh), ih]
        push_cast
        ring
  · rw [getSum_eq]
    have h7 := h6 fun _ => 1
    rw [h2, zero_sum, zero_add] at h7
    simp only [one_mul] at h7
    rw [h7, map_one_sum, inside, List.countP_eq_length_filter]

/-- C151: when there is a sample in range, the cells of the normalized histogram are the parts of the samples, and sum to
one. -/
theorem C151_normalized (g : Grid ℚ) (h : getSum g ≠ 0) :
    getSum (getNormalized g) = 1 ∧ (getNormalized g).dims = g.dims ∧ (getNormalized g).numCells = g.numCells ∧
    ∀ i : ℕ, (getNormalized g).cells[i]? = (g.cells[i]?).map (· / getSum g) := by
  refine ⟨?_, rfl, rfl, ?_⟩
  · have h1 : ∀ (l : List ℚ) (c : ℚ), (l.map (· / c)).sum = l.sum / c := by
      intro l c
      induction l with
      | nil => simp
      | cons a l ih => rw [List.map_cons, List.sum_cons, List.sum_cons, ih]; ring
    have h2 : getSum (getNormalized g) = getSum g / getSum g := by
      conv_lhs => unfold getSum getNormalized
      rw [foldl_sum, zero_add, h1]
      congr 1
      unfold getSum
      rw [foldl_sum, zero_add]
    rw [h2, div_self h]
  · intro i
    unfold getNormalized
    simp

end Kalibr.Histogram
