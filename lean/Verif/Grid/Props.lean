import Verif.Grid.Model
import Mathlib.Data.List.Forall2
import Mathlib.Algebra.Order.BigOperators.Ring.List
import Mathlib.Algebra.Order.Field.Rat

/-!
# Properties of the grid (C40)
-/

namespace Kalibr.Grid

set_option linter.dupNamespace false

/-- `idx` is the index of a cell of a grid with `ns` cells in the dimensions. -/
def ValidIdx (ns idx : List Int) : Prop := List.Forall₂ (fun n i => 0 ≤ i ∧ i < n) ns idx

/-- The point is within the bounds in every dimension. -/
def InRange (dims : List Dim) (p : List ℚ) : Prop := List.Forall₂ (fun d x => d.lo ≤ x ∧ x ≤ d.hi) dims p

/-- The coordinate is in cell `i` of the dimension; the cells are half-open, the last one contains the
maximum. -/
def InCell (d : Dim) (i : Int) (x : ℚ) : Prop :=
  d.lo + i * d.res ≤ x ∧ (x < d.lo + (i + 1) * d.res ∨ (x = d.hi ∧ i = d.numCells - 1))

theorem linearIndex_cons (n : Int) (ns : List Int) (i : Int) (is : List Int) :
    linearIndex (n :: ns) (i :: is) = ns.prod * i + linearIndex ns is := rfl

theorem prod_pos (ns : List Int) (h : ∀ n ∈ ns, 0 < n) : 0 < ns.prod := by
  induction ns with
  | nil => simp
  | cons n ns ih =>
    rw [List.prod_cons]
    exact mul_pos (h n List.mem_cons_self) (ih fun m hm => h m (List.mem_cons_of_mem _ hm))

theorem linear_bound (ns idx : List Int) (hn : ∀ n ∈ ns, 0 < n) (h : ValidIdx ns idx) :
    0 ≤ linearIndex ns idx ∧ linearIndex ns idx < ns.prod := by
  induction h with
  | nil => simp [linearIndex, linProd]
  | @cons n i ns is hi _ ih =>
    have hp := prod_pos ns fun m hm => hn m (List.mem_cons_of_mem _ hm)
    have ih := ih fun m hm => hn m (List.mem_cons_of_mem _ hm)
    rw [linearIndex_cons, List.prod_cons]
    have h1 : ns.prod * i + ns.prod ≤ n * ns.prod := by nlinarith [hi.2]
    have h2 : 0 ≤ ns.prod * i := mul_nonneg hp.le hi.1
    constructor <;> linarith [ih.1, ih.2]

/-- The linear index is a bijection between the cells and `0, ..., n - 1`. -/
theorem C40_linear_index_bijection (ns : List Int) (hn : ∀ n ∈ ns, 0 < n) :
    (∀ idx, ValidIdx ns idx → 0 ≤ linearIndex ns idx ∧ linearIndex ns idx < ns.prod) ∧
    ∀ k, 0 ≤ k → k < ns.prod → ∃! idx, ValidIdx ns idx ∧ linearIndex ns idx = k := by
  refine ⟨fun idx => linear_bound ns idx hn, ?_⟩
  induction ns with
  | nil =>
    intro k h0 h1
    have hk : k = 0 := by simp at h1; omega
    subst hk
    refine ⟨[], ⟨List.Forall₂.nil, rfl⟩, ?_⟩
    rintro idx ⟨h, -⟩
    cases h
    rfl
  | cons n ns ih =>
    intro k h0 h1
    have hns : ∀ m ∈ ns, 0 < m := fun m hm => hn m (List.mem_cons_of_mem _ hm)
    have hp := prod_pos ns hns
    rw [List.prod_cons] at h1
    obtain ⟨is, ⟨hv, hl⟩, hu⟩ := ih hns (k % ns.prod) (Int.emod_nonneg _ hp.ne') (Int.emod_lt_of_pos _ hp)
    have hdm := Int.mul_ediv_add_emod k ns.prod
    refine ⟨k / ns.prod :: is, ⟨List.Forall₂.cons ⟨Int.ediv_nonneg h0 hp.le, Int.ediv_lt_of_lt_mul hp h1⟩ hv, ?_⟩, ?_⟩
    · rw [linearIndex_cons, hl]; exact hdm
    · rintro idx ⟨h, he⟩
      cases h with
      | @cons _ i _ is' hi hvs =>
        rw [linearIndex_cons] at he
        have hb := linear_bound ns is' hns hvs
        have e1 : k % ns.prod = linearIndex ns is' := by
          rw [← he, Int.mul_add_emod_self_left]
          exact Int.emod_eq_of_lt hb.1 hb.2
        have e2 : is' = is := hu is' ⟨hvs, e1.symm⟩
        subst e2
        have e3 : ns.prod * (k / ns.prod) = ns.prod * i := by linarith
        rw [mul_left_cancel₀ hp.ne' e3]

/-- The value of an index when the first dimension runs fastest. -/
def val : List Int → List Int → Int
  | n :: ns, i :: is => i + n * val ns is
  | _, _ => 0

theorem val_bound (ns idx : List Int) (hn : ∀ n ∈ ns, 0 < n) (h : ValidIdx ns idx) :
    0 ≤ val ns idx ∧ val ns idx < ns.prod := by
  induction h with
  | nil => simp [val]
  | @cons n i ns is hi _ ih =>
    have ih := ih fun m hm => hn m (List.mem_cons_of_mem _ hm)
    have hn0 := hn n List.mem_cons_self
    rw [val, List.prod_cons]
    constructor
    · have := mul_nonneg hn0.le ih.1; linarith [hi.1]
    · have : n * (val ns is + 1) ≤ n * ns.prod := by nlinarith [ih.2]
      linarith [hi.2]

theorem val_inj (ns : List Int) (a b : List Int) (hn : ∀ n ∈ ns, 0 < n) (ha : ValidIdx ns a) (hb : ValidIdx ns b)
    (h : val ns a = val ns b) : a = b := by
  induction ha generalizing b with
  | nil => cases hb; rfl
  | @cons n i ns is hi _ ih =>
    cases hb with
    | @cons _ j _ js hj hjs =>
      rw [val, val] at h
      have hn0 := hn n List.mem_cons_self
      have e : i = j := by
        have h1 := congrArg (· % n) h
        simp only [Int.add_mul_emod_self_left] at h1
        rwa [Int.emod_eq_of_lt hi.1 hi.2, Int.emod_eq_of_lt hj.1 hj.2] at h1
      subst e
      have h2 : n * val ns is = n * val ns js := by linarith
      rw [ih js (fun m hm => hn m (List.mem_cons_of_mem _ hm)) hjs (mul_left_cancel₀ hn0.ne' h2)]

theorem incLoop_cons (n : Int) (ns : List Int) (i : Int) (is : List Int) :
    incLoop (n :: ns) (i :: is) = if i + 1 < n then some ((i + 1) :: is)
      else match is with
        | [] => none
        | _ :: _ => (incLoop ns is).map (0 :: ·) := rfl

theorem incLoop_spec (ns idx : List Int) (hn : ∀ n ∈ ns, 0 < n) (hne : ns ≠ []) (h : ValidIdx ns idx) :
    (val ns idx + 1 < ns.prod → ∃ idx', incLoop ns idx = some idx' ∧ ValidIdx ns idx' ∧ val ns idx' = val ns idx + 1) ∧
    (val ns idx + 1 = ns.prod → incLoop ns idx = none) := by
  induction h with
  | nil => exact absurd rfl hne
  | @cons n i ns is hi hv ih =>
    have hns : ∀ m ∈ ns, 0 < m := fun m hm => hn m (List.mem_cons_of_mem _ hm)
    have hn0 := hn n List.mem_cons_self
    have hb := val_bound ns is hns hv
    rw [val, List.prod_cons, incLoop_cons]
    by_cases hc : i + 1 < n
    · rw [if_pos hc]
      refine ⟨fun _ => ⟨_, rfl, List.Forall₂.cons ⟨by linarith [hi.1], hc⟩ hv, by rw [val]; ring⟩, fun he => ?_⟩
      exfalso
      have : n * (val ns is + 1) ≤ n * ns.prod := by nlinarith [hb.2]
      linarith
    · rw [if_neg hc]
      have hin : i = n - 1 := by omega
      cases hv with
      | nil =>
        refine ⟨fun hlt => ?_, fun _ => rfl⟩
        exfalso
        rw [hin] at hlt
        simp [val] at hlt
      | @cons m j ms js hj hjs =>
        have ih := ih hns (by simp)
        generalize hvdef : val (m :: ms) (j :: js) = v at *
        generalize hpdef : (m :: ms).prod = P at *
        constructor
        · intro hlt
          have h1 : v + 1 < P := by
            have : n * (v + 1) < n * P := by rw [hin] at hlt; linarith
            exact lt_of_mul_lt_mul_left this hn0.le
          obtain ⟨idx', e1, e2, e3⟩ := ih.1 h1
          refine ⟨0 :: idx', by simp only [e1, Option.map_some], List.Forall₂.cons ⟨le_rfl, hn0⟩ e2, ?_⟩
          rw [val, e3, hin]; ring
        · intro he
          have h1 : v + 1 = P := by
            have : n * (v + 1) = n * P := by rw [hin] at he; linarith
            exact mul_left_cancel₀ hn0.ne' this
          simp only [ih.2 h1, Option.map_none]

/-- The index that stepping starts with. -/
def zeros (ns : List Int) : List Int := ns.map fun _ => 0

theorem zeros_valid (ns : List Int) (hn : ∀ n ∈ ns, 0 < n) : ValidIdx ns (zeros ns) ∧ val ns (zeros ns) = 0 := by
  induction ns with
  | nil => exact ⟨List.Forall₂.nil, rfl⟩
  | cons n ns ih =>
    have ih := ih fun m hm => hn m (List.mem_cons_of_mem _ hm)
    refine ⟨List.Forall₂.cons ⟨le_rfl, hn n List.mem_cons_self⟩ ih.1, ?_⟩
    show 0 + n * val ns (zeros ns) = 0
    rw [ih.2]; ring

theorem iterate_spec (ns : List Int) (hn : ∀ n ∈ ns, 0 < n) (hne : ns ≠ []) (k : Nat) (hk : (k : Int) < ns.prod) :
    ValidIdx ns ((incrementIndex ns)^[k] (zeros ns)) ∧ val ns ((incrementIndex ns)^[k] (zeros ns)) = k := by
  induction k with
  | zero => exact zeros_valid ns hn
  | succ k ih =>
    have ih := ih (by omega)
    rw [Function.iterate_succ_apply']
    obtain ⟨idx', e1, e2, e3⟩ := (incLoop_spec ns _ hn hne ih.1).1 (by rw [ih.2]; push_cast at hk; exact hk)
    rw [incrementIndex, e1]
    exact ⟨e2, by rw [Option.getD_some, e3, ih.2]; push_cast; rfl⟩

/-- Stepping from the zero index visits every cell exactly once and then stops at the index made of the
numbers of cells, where it stays. -/
theorem C40_stepping_visits_all (ns : List Int) (hn : ∀ n ∈ ns, 0 < n) (hne : ns ≠ []) :
    (∀ idx, ValidIdx ns idx → ∃! k : Nat, (k : Int) < ns.prod ∧ (incrementIndex ns)^[k] (zeros ns) = idx) ∧
    (∀ k : Nat, (k : Int) < ns.prod → ValidIdx ns ((incrementIndex ns)^[k] (zeros ns))) ∧
    (incrementIndex ns)^[ns.prod.toNat] (zeros ns) = ns ∧ incrementIndex ns ns = ns := by
  have hp := prod_pos ns hn
  refine ⟨fun idx hv => ?_, fun k hk => (iterate_spec ns hn hne k hk).1, ?_, ?_⟩
  · have hb := val_bound ns idx hn hv
    refine ⟨(val ns idx).toNat, ⟨by omega, ?_⟩, ?_⟩
    · have := iterate_spec ns hn hne (val ns idx).toNat (by omega)
      exact val_inj ns _ _ hn this.1 hv (by rw [this.2]; omega)
    · rintro k ⟨hk, rfl⟩
      have := iterate_spec ns hn hne k hk
      simp only [this.2]
      omega
  · obtain ⟨m, hm⟩ : ∃ m, ns.prod.toNat = m + 1 := ⟨ns.prod.toNat - 1, by omega⟩
    rw [hm, Function.iterate_succ_apply']
    have h1 := iterate_spec ns hn hne m (by omega)
    rw [incrementIndex, (incLoop_spec ns _ hn hne h1.1).2 (by rw [h1.2]; omega)]
    rfl
  · have : incLoop ns ns = none := by
      clear hp hn
      induction ns with
      | nil => exact absurd rfl hne
      | cons n ns ih =>
        rw [incLoop_cons, if_neg (by omega)]
        cases ns with
        | nil => rfl
        | cons m ms => simp only [ih (by simp), Option.map_none]
    rw [incrementIndex, this]
    rfl

/-! ## Grids made by the constructor -/

theorem make_ok {C : Type} (dims : List Dim) (c : C) (g : Grid C) (h : Grid.make dims c = .ok g) :
    g = ⟨dims, dims.map Dim.numCells, List.replicate (dims.map Dim.numCells).prod.toNat c⟩ ∧
    ∀ d ∈ dims, 0 < d.res ∧ d.lo < d.hi ∧ d.res ≤ d.hi - d.lo := by
  rw [Grid.make] at h
  split at h
  · cases h
  · rename_i h1
    split at h
    · cases h
    · rename_i h2
      split at h
      · cases h
      · rename_i h3
        cases h
        refine ⟨rfl, fun d hd => ?_⟩
        simp only [List.any_eq_true, decide_eq_true_eq, not_exists, not_and, not_le, not_lt] at h1 h2 h3
        exact ⟨h1 d hd, h2 d hd, h3 d hd⟩

theorem numCells_pos (d : Dim) (h : 0 < d.res ∧ d.lo < d.hi ∧ d.res ≤ d.hi - d.lo) : 0 < d.numCells := by
  rw [Dim.numCells, Int.ceil_pos]
  have : 0 < d.hi - d.lo := by linarith [h.2.1]
  have := h.1
  positivity

theorem make_pos {C : Type} (dims : List Dim) (c : C) (g : Grid C) (h : Grid.make dims c = .ok g) :
    ∀ n ∈ g.numCells, 0 < n := by
  obtain ⟨rfl, hd⟩ := make_ok dims c g h
  intro n hn
  obtain ⟨d, hm, rfl⟩ := List.mem_map.1 hn
  exact numCells_pos d (hd d hm)

/-- The constructor accepts exactly the dimensions it can cover. -/
theorem C40_constructor {C : Type} (dims : List Dim) (c : C) :
    (∃ g, Grid.make dims c = .ok g) ↔ ∀ d ∈ dims, 0 < d.res ∧ d.lo < d.hi ∧ d.res ≤ d.hi - d.lo := by
  constructor
  · rintro ⟨g, h⟩; exact (make_ok dims c g h).2
  · intro h
    refine ⟨⟨dims, dims.map Dim.numCells, List.replicate (dims.map Dim.numCells).prod.toNat c⟩, ?_⟩
    rw [Grid.make, if_neg, if_neg, if_neg]
    all_goals
      simp only [List.any_eq_true, decide_eq_true_eq, not_exists, not_and, not_le, not_lt]
      intro d hd
      have := h d hd
      first | exact this.1 | exact this.2.1 | exact this.2.2

/-- A coordinate within the bounds is in the cell computed for it. -/
theorem index_spec (d : Dim) (h : 0 < d.res ∧ d.lo < d.hi ∧ d.res ≤ d.hi - d.lo) (x : ℚ) (h1 : d.lo ≤ x) (h2 : x ≤ d.hi) :
    (0 ≤ d.index x ∧ d.index x < d.numCells) ∧ InCell d (d.index x) x := by
  have hp := numCells_pos d h
  have hr := h.1
  have hceil : ((d.hi - d.lo) / d.res : ℚ) ≤ d.numCells ∧ (d.numCells : ℚ) < (d.hi - d.lo) / d.res + 1 :=
    ⟨Int.le_ceil _, Int.ceil_lt_add_one _⟩
  rw [Dim.index]
  split
  · rename_i he
    refine ⟨⟨by omega, by omega⟩, ?_, Or.inr ⟨he, rfl⟩⟩
    have h3 : ((d.numCells : ℚ) - 1) * d.res < d.hi - d.lo := by
      rw [← lt_div_iff₀ hr]; linarith [hceil.2]
    push_cast
    rw [he]
    linarith
  · rename_i he
    have hq : 0 ≤ (x - d.lo) / d.res := div_nonneg (by linarith) hr.le
    rw [if_pos hq]
    have f1 := Int.floor_le ((x - d.lo) / d.res)
    have f2 := Int.lt_floor_add_one ((x - d.lo) / d.res)
    refine ⟨⟨Int.floor_nonneg.2 hq, ?_⟩, ?_, Or.inl ?_⟩
    · rw [Int.floor_lt]
      refine lt_of_lt_of_le ?_ hceil.1
      rw [div_lt_div_iff_of_pos_right hr]
      have : x < d.hi := lt_of_le_of_ne h2 he
      linarith
    · rw [le_div_iff₀ hr] at f1; linarith
    · rw [div_lt_iff₀ hr] at f2; linarith

theorem inRange_iff {C : Type} (g : Grid C) (p : List ℚ) (hl : p.length = g.dims.length) :
    g.isInRange p = true ↔ InRange g.dims p := by
  obtain ⟨dims, ns, cells⟩ := g
  simp only [Grid.isInRange, InRange] at *
  induction dims generalizing p with
  | nil =>
    have : p = [] := List.length_eq_zero_iff.1 hl
    subst this
    simp
  | cons d dims ih =>
    cases p with
    | nil => simp at hl
    | cons x p =>
      have ih := ih p (by simpa using hl)
      simp only [List.zipWith_cons_cons, List.all_cons, id_eq, List.forall₂_cons, Bool.and_eq_true, decide_eq_true_eq]
        at ih ⊢
      tauto

/-- A point in range is mapped to a cell that contains it; a point out of range raises. -/
theorem C40_point_in_cell {C : Type} (dims : List Dim) (c : C) (g : Grid C) (h : Grid.make dims c = .ok g)
    (p : List ℚ) (hl : p.length = dims.length) :
    (InRange dims p → ∃ idx, g.getIndex p = .ok idx ∧ ValidIdx (dims.map Dim.numCells) idx ∧
      ∀ (k : Nat) (d : Dim) (i : Int) (x : ℚ), dims[k]? = some d → idx[k]? = some i → p[k]? = some x → InCell d i x) ∧
    (¬ InRange dims p → g.getIndex p = .raise) := by
  obtain ⟨rfl, hd⟩ := make_ok dims c g h
  constructor
  · intro hin
    refine ⟨List.zipWith Dim.index dims p, ?_, ?_⟩
    · rw [Grid.getIndex, if_neg (not_not.2 hl), if_neg]
      rw [(inRange_iff _ p hl).2 hin]; simp
    · clear h hl
      induction hin with
      | nil => exact ⟨List.Forall₂.nil, by simp⟩
      | @cons d x dims p hx _ ih =>
        have hs := index_spec d (hd d List.mem_cons_self) x hx.1 hx.2
        obtain ⟨i1, i2⟩ := ih fun d' hd' => hd d' (List.mem_cons_of_mem _ hd')
        refine ⟨List.Forall₂.cons hs.1 i1, ?_⟩
        intro k d' i x' e1 e2 e3
        cases k with
        | zero =>
          simp only [List.getElem?_cons_zero, List.zipWith_cons_cons, Option.some.injEq] at e1 e2 e3
          subst e1 e2 e3
          exact hs.2
        | succ k =>
          simp only [List.getElem?_cons_succ, List.zipWith_cons_cons] at e1 e2 e3
          exact i2 k d' i x' e1 e2 e3
  · intro hin
    rw [Grid.getIndex, if_neg (not_not.2 hl), if_pos]
    cases hr : Grid.isInRange ⟨dims, dims.map Dim.numCells, List.replicate (dims.map Dim.numCells).prod.toNat c⟩ p with
    | false => rfl
    | true => exact absurd ((inRange_iff _ p hl).1 hr) hin

theorem validIdx_isValid (ns idx : List Int) (h : ValidIdx ns idx) : isValidIndex ns idx = true := by
  induction h with
  | nil => rfl
  | @cons n i ns is hi _ ih =>
    rw [isValidIndex] at ih ⊢
    simp only [List.zipWith_cons_cons, List.all_cons, id_eq, Bool.and_eq_true, decide_eq_true_eq]
    exact ⟨hi.2, ih⟩

/-- The state of a grid: the number of stored cells is the product of the numbers of cells. -/
structure Grid.WF {C : Type} (g : Grid C) : Prop where
  pos : ∀ n ∈ g.numCells, 0 < n
  cells : (g.cells.length : Int) = g.numCells.prod

theorem make_wf {C : Type} (dims : List Dim) (c : C) (g : Grid C) (h : Grid.make dims c = .ok g) : g.WF := by
  have hp := make_pos dims c g h
  obtain ⟨rfl, hd⟩ := make_ok dims c g h
  refine ⟨hp, ?_⟩
  have := prod_pos _ hp
  show ((List.replicate _ _).length : Int) = _
  rw [List.length_replicate]
  simp only at *
  omega

/-- Every cell can be read and written through its index, and a write changes that cell only. -/
theorem C40_cells_independent {C : Type} (g : Grid C) (hg : g.WF) (idx : List Int) (h : ValidIdx g.numCells idx) (c : C) :
    (∃ c', g.getCell idx = .ok c') ∧ ∃ g', g.setCell idx c = .ok g' ∧ g'.WF ∧ g'.getCell idx = .ok c ∧
      ∀ idx', ValidIdx g.numCells idx' → idx' ≠ idx → g'.getCell idx' = g.getCell idx' := by
  have hread : ∀ (g : Grid C), g.WF → ∀ idx, ValidIdx g.numCells idx → ∃ hk : (linearIndex g.numCells idx).toNat < g.cells.length,
      g.getCell idx = .ok (g.cells[(linearIndex g.numCells idx).toNat]'hk) := by
    intro g hg idx h
    have hb := linear_bound _ _ hg.pos h
    have hk : (linearIndex g.numCells idx).toNat < g.cells.length := by have := hg.cells; omega
    refine ⟨hk, ?_⟩
    rw [Grid.getCell, if_neg (by simpa using h.length_eq.symm), if_neg (by rw [validIdx_isValid _ _ h]; simp)]
    simp only
    rw [if_neg (by omega), List.getElem?_eq_getElem hk]
  have hb := linear_bound _ _ hg.pos h
  have hk : (linearIndex g.numCells idx).toNat < g.cells.length := by have := hg.cells; omega
  refine ⟨⟨_, (hread g hg idx h).2⟩, { g with cells := g.cells.set (linearIndex g.numCells idx).toNat c }, ?_, ?_, ?_, ?_⟩
  · rw [Grid.setCell, if_neg (by simpa using h.length_eq.symm), if_neg (by rw [validIdx_isValid _ _ h]; simp)]
    simp only
    rw [if_neg (by omega), if_pos hk]
  · exact ⟨hg.pos, by simpa using hg.cells⟩
  · obtain ⟨hk', e⟩ := hread { g with cells := g.cells.set (linearIndex g.numCells idx).toNat c }
      ⟨hg.pos, by simpa using hg.cells⟩ idx h
    rw [e]
    simp
  · intro idx' h' hne
    obtain ⟨hk1, e1⟩ := hread { g with cells := g.cells.set (linearIndex g.numCells idx).toNat c }
      ⟨hg.pos, by simpa using hg.cells⟩ idx' h'
    obtain ⟨hk2, e2⟩ := hread g hg idx' h'
    rw [e1, e2]
    congr 1
    have hb' := linear_bound _ _ hg.pos h'
    apply List.getElem_set_ne
    intro he
    apply hne
    have he' : linearIndex g.numCells idx = linearIndex g.numCells idx' := by
      have : (linearIndex g.numCells idx).toNat = (linearIndex g.numCells idx').toNat := he
      omega
    obtain ⟨_, _, hu⟩ := (C40_linear_index_bijection g.numCells hg.pos).2 (linearIndex g.numCells idx) hb.1 hb.2
    rw [hu idx' ⟨h', he'.symm⟩, hu idx ⟨h, rfl⟩]

/-- An index that is too large in some dimension raises, in every function that takes an index. -/
theorem C40_too_large_raises {C : Type} (g : Grid C) (idx : List Int) (hl : idx.length = g.numCells.length) (k : Nat)
    (i n : Int) (hi : idx[k]? = some i) (hn : g.numCells[k]? = some n) (h : n ≤ i) (c : C) :
    g.getCell idx = .raise ∧ g.setCell idx c = .raise ∧ g.getCoordinates idx = .raise := by
  have : isValidIndex g.numCells idx = false := by
    rw [isValidIndex, List.all_eq_false]
    refine ⟨decide (i < n), ?_, by simpa using h⟩
    apply List.mem_of_getElem? (i := k)
    rw [List.getElem?_zipWith, hi, hn]
  rw [Grid.getCell, Grid.setCell, Grid.getCoordinates, if_neg (by simpa using hl), if_pos this, if_neg (by simpa using hl),
    if_pos this, if_neg (by simpa using hl), if_pos this]
  exact ⟨rfl, rfl, rfl⟩

/-- `reset` gives every cell the default value. -/
theorem C40_reset {C : Type} (g : Grid C) (hg : g.WF) (c : C) (idx : List Int) (h : ValidIdx g.numCells idx) :
    (g.reset c).getCell idx = .ok c := by
  have hb := linear_bound _ _ hg.pos h
  have hk : (linearIndex g.numCells idx).toNat < g.cells.length := by have := hg.cells; omega
  rw [Grid.getCell, if_neg (show ¬ idx.length ≠ (g.reset c).numCells.length from not_not.2 h.length_eq.symm),
    if_neg (show ¬ isValidIndex (g.reset c).numCells idx = false by
      show ¬ isValidIndex g.numCells idx = false
      rw [validIdx_isValid _ _ h]; simp)]
  show (if linearIndex g.numCells idx < 0 then _ else _) = _
  rw [if_neg (by omega)]
  show (match (g.cells.map fun _ => c)[(linearIndex g.numCells idx).toNat]? with
    | some c => Out.ok c
    | none => .ub) = _
  rw [List.getElem?_map, List.getElem?_eq_getElem hk]
  rfl

/-- Negative indices are accepted as valid and then read outside the cells. -/
theorem C40_negative_index_counterexample :
    ∃ g, Grid.make [⟨0, 4, 1⟩, ⟨0, 4, 1⟩] 0 = .ok g ∧ isValidIndex g.numCells [-1, 0] = true ∧
      g.getCell [-1, 0] = .ub := by
  refine ⟨⟨[⟨0, 4, 1⟩, ⟨0, 4, 1⟩], [4, 4], List.replicate 16 0⟩, ?_, by decide +kernel, by decide +kernel⟩
  decide +kernel

theorem centre_index (d : Dim) (h : 0 < d.res ∧ d.lo < d.hi ∧ d.res ≤ d.hi - d.lo) (i : Int)
    (hi : 0 ≤ i ∧ i < d.numCells) : InCell d i (d.centre i) ∧ d.lo ≤ d.centre i ∧ d.index (d.centre i) = i := by
  have hr := h.1
  have hi0 : (0 : ℚ) ≤ i := by exact_mod_cast hi.1
  have hlo : d.lo ≤ d.centre i := by
    rw [Dim.centre]
    have : 0 ≤ ((i : ℚ) + 1 / 2) * d.res := by positivity
    linarith
  have hin : InCell d i (d.centre i) := by
    rw [InCell, Dim.centre]
    exact ⟨by nlinarith, Or.inl (by nlinarith)⟩
  refine ⟨hin, hlo, ?_⟩
  rw [Dim.index]
  split
  · rename_i he
    -- the centre is the maximum: the last cell
    have h1 : (d.hi - d.lo) / d.res = i + 1 / 2 := by
      rw [div_eq_iff hr.ne', ← he, Dim.centre]; ring
    have : d.numCells = i + 1 := by
      rw [Dim.numCells, h1, Int.ceil_eq_iff]
      push_cast
      constructor <;> linarith
    omega
  · have h1 : (d.centre i - d.lo) / d.res = i + 1 / 2 := by
      rw [div_eq_iff hr.ne', Dim.centre]; ring
    rw [h1, if_pos (by positivity), Int.floor_eq_iff]
    constructor <;> linarith

/-- The coordinates of a valid index are in the cell in every dimension, and if they are within the bounds
they are mapped back to the index. -/
theorem C40_centre_partial {C : Type} (dims : List Dim) (c : C) (g : Grid C) (h : Grid.make dims c = .ok g)
    (idx : List Int) (hv : ValidIdx (dims.map Dim.numCells) idx) :
    ∃ p, g.getCoordinates idx = .ok p ∧ (InRange dims p → g.getIndex p = .ok idx) ∧
      ∀ (k : Nat) (d : Dim) (i : Int) (x : ℚ), dims[k]? = some d → idx[k]? = some i → p[k]? = some x → InCell d i x := by
  obtain ⟨rfl, hd⟩ := make_ok dims c g h
  have hlen : idx.length = dims.length := by simpa using hv.length_eq.symm
  have key : List.zipWith Dim.index dims (List.zipWith Dim.centre dims idx) = idx ∧
      ∀ (k : Nat) (d : Dim) (i : Int) (x : ℚ), dims[k]? = some d → idx[k]? = some i →
        (List.zipWith Dim.centre dims idx)[k]? = some x → InCell d i x := by
    clear h hlen
    induction dims generalizing idx with
    | nil => cases hv; simp
    | cons d dims ih =>
      cases hv with
      | @cons _ i _ is hi his =>
        have hs := centre_index d (hd d List.mem_cons_self) i hi
        obtain ⟨i1, i2⟩ := ih is his fun d' hd' => hd d' (List.mem_cons_of_mem _ hd')
        constructor
        · simp only [List.zipWith_cons_cons, i1, hs.2.2]
        · intro k d' i' x' e1 e2 e3
          cases k with
          | zero =>
            simp only [List.getElem?_cons_zero, List.zipWith_cons_cons, Option.some.injEq] at e1 e2 e3
            subst e1 e2 e3
            exact hs.1
          | succ k =>
            simp only [List.getElem?_cons_succ, List.zipWith_cons_cons] at e1 e2 e3
            exact i2 k d' i' x' e1 e2 e3
  refine ⟨List.zipWith Dim.centre dims idx, ?_, fun hin => ?_, key.2⟩
  · rw [Grid.getCoordinates, if_neg (by simpa using hlen), if_neg (by rw [validIdx_isValid _ _ hv]; simp)]
  · have hl : (List.zipWith Dim.centre dims idx).length = dims.length := by simp [hlen]
    rw [Grid.getIndex, if_neg (not_not.2 hl), if_neg (by rw [(inRange_iff _ _ hl).2 hin]; simp), key.1]

/-- In the last cell of a range that is not a multiple of the resolution the centre can be out of range:
asking for the index of the coordinates of a valid index raises. -/
theorem C40_centre_counterexample :
    ∃ g, Grid.make [⟨0, 10, 3⟩] 0 = .ok g ∧ ValidIdx g.numCells [3] ∧ g.getCoordinates [3] = .ok [21 / 2] ∧
      g.getIndex [21 / 2] = .raise := by
  refine ⟨⟨[⟨0, 10, 3⟩], [4], List.replicate 4 0⟩, by decide +kernel, ?_, by decide +kernel, by decide +kernel⟩
  exact List.Forall₂.cons (by decide) List.Forall₂.nil

/-! ## Integral coordinates -/

/-- With integral coordinates every coordinate within the bounds is in the cell computed for it. -/
theorem C40_integral_point_in_cell (d : IDim) (h : 0 < d.res ∧ d.lo < d.hi) (x : Int) (h1 : d.lo ≤ x) (h2 : x ≤ d.hi) :
    (0 ≤ d.index x ∧ d.index x < d.numCells) ∧ d.lo + d.index x * d.res ≤ x ∧ x < d.lo + (d.index x + 1) * d.res := by
  have hr := h.1
  have key : ∀ y, 0 ≤ y → 0 ≤ y.tdiv d.res ∧ y.tdiv d.res * d.res ≤ y ∧ y < (y.tdiv d.res + 1) * d.res := by
    intro y hy
    rw [Int.tdiv_eq_ediv_of_nonneg hy]
    have h1 := Int.ediv_nonneg hy hr.le
    have h2 := Int.mul_ediv_add_emod y d.res
    have h3 := Int.emod_nonneg y hr.ne'
    have h4 := Int.emod_lt_of_pos y hr
    refine ⟨h1, by linarith [mul_comm (y / d.res) d.res], ?_⟩
    have : (y / d.res + 1) * d.res = d.res * (y / d.res) + d.res := by ring
    linarith
  have e : d.index x = (x - d.lo).tdiv d.res := by
    rw [IDim.index]
    split
    · rename_i he; rw [IDim.numCells, he]; ring
    · rfl
  rw [e]
  obtain ⟨k1, k2, k3⟩ := key (x - d.lo) (by linarith)
  obtain ⟨m1, m2, m3⟩ := key (d.hi - d.lo) (by linarith)
  refine ⟨⟨k1, ?_⟩, by linarith, by linarith⟩
  rw [IDim.numCells]
  by_contra hc
  have hc : (d.hi - d.lo).tdiv d.res + 1 ≤ (x - d.lo).tdiv d.res := by omega
  have := mul_le_mul_of_nonneg_right hc hr.le
  linarith

/-- With integral coordinates the centre is rounded toward zero, which leads into the next cell for
negative coordinates. -/
theorem C40_integral_centre_counterexample :
    (⟨-3, 3, 1⟩ : IDim).centre 0 = -2 ∧ (⟨-3, 3, 1⟩ : IDim).index (-2) = 1 := by decide +kernel

/-! ## Concrete cases -/

/-- A two-dimensional grid, the point (2.5, 6) in it and its cell. -/
example : ∃ g, Grid.make [⟨0, 5, 2⟩, ⟨1, 6, 1⟩] 0 = .ok g ∧ InRange [⟨0, 5, 2⟩, ⟨1, 6, 1⟩] [5 / 2, 6] ∧
    g.getIndex [5 / 2, 6] = .ok [1, 4] ∧ ValidIdx g.numCells [1, 4] ∧ linearIndex g.numCells [1, 4] = 9 := by
  refine ⟨⟨[⟨0, 5, 2⟩, ⟨1, 6, 1⟩], [3, 5], List.replicate 15 0⟩, by decide +kernel, ?_, by decide +kernel, ?_,
    by decide +kernel⟩
  · exact List.Forall₂.cons (by decide +kernel) (List.Forall₂.cons (by decide +kernel) List.Forall₂.nil)
  · exact List.Forall₂.cons (by decide) (List.Forall₂.cons (by decide) List.Forall₂.nil)

example : (incrementIndex [2, 3])^[3] (zeros [2, 3]) = [1, 1] ∧ (incrementIndex [2, 3])^[6] (zeros [2, 3]) = [2, 3] := by
  decide

end Kalibr.Grid
