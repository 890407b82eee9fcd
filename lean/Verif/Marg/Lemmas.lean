import Verif.Marg.Linear
import Verif.Sparse.Lemmas
import Mathlib.Data.List.GetD

/-!
# Lemmas on the loops of the marginalisation
-/

namespace Kalibr.Marg

open Finset Sparse

variable {K : Type} [Field K]

/-! ### Layouts -/

/-- The cumulative dimensions. -/
def lay (dim : Nat → Nat) (l : List Nat) : List Nat := (List.range l.length).map fun k => dims dim (l.take (k + 1))

theorem dims_append (dim : Nat → Nat) (l l' : List Nat) : dims dim (l ++ l') = dims dim l + dims dim l' := by
  simp [dims]

theorem dims_take_succ {dim : Nat → Nat} {l : List Nat} {k v : Nat} (h : l[k]? = some v) :
    dims dim (l.take (k + 1)) = dims dim (l.take k) + dim v := by
  obtain ⟨hk, e⟩ := List.getElem?_eq_some_iff.1 h
  rw [List.take_add_one, h, dims_append]
  simp [dims]

theorem dims_take_mono (dim : Nat → Nat) (l : List Nat) {a b : Nat} (h : a ≤ b) :
    dims dim (l.take a) ≤ dims dim (l.take b) := by
  obtain ⟨c, rfl⟩ := Nat.exists_eq_add_of_le h
  rw [List.take_add, dims_append]
  omega

theorem lay_length (dim : Nat → Nat) (l : List Nat) : (lay dim l).length = l.length := by simp [lay]

theorem lay_mono (dim : Nat → Nat) (l : List Nat) : Mono (lay dim l) := by
  rw [Mono, List.pairwise_iff_getElem]
  intro i j hi hj hij
  simp only [lay, List.getElem_map, List.getElem_range]
  exact dims_take_mono dim l (by omega)

theorem lay_getD (dim : Nat → Nat) {l : List Nat} {k : Nat} (hk : k < l.length) :
    (lay dim l).getD k 0 = dims dim (l.take (k + 1)) := by
  rw [List.getD_eq_getElem _ _ (by rw [lay_length]; exact hk)]
  simp [lay]

theorem lay_base (dim : Nat → Nat) {l : List Nat} {k : Nat} (hk : k ≤ l.length) :
    base (lay dim l) k = dims dim (l.take k) := by
  rw [base]
  by_cases h0 : k = 0
  · subst h0; simp [dims]
  · rw [if_neg h0, lay_getD dim (by omega), Nat.sub_add_cancel (by omega)]

theorem lay_size (dim : Nat → Nat) {l : List Nat} {k v : Nat} (h : l[k]? = some v) : size (lay dim l) k = dim v := by
  obtain ⟨hk, e⟩ := List.getElem?_eq_some_iff.1 h
  have h1 := dims_take_succ (dim := dim) h
  rw [size]
  by_cases h0 : k = 0
  · subst h0
    rw [if_pos rfl, lay_getD dim hk, h1]
    simp [dims]
  · rw [if_neg h0, lay_getD dim hk, lay_getD dim (by omega), Nat.sub_add_cancel (by omega), h1]
    omega

theorem lay_total (dim : Nat → Nat) (l : List Nat) : total (lay dim l) = dims dim l := by
  rw [total_eq, lay_length, lay_base dim le_rfl, List.take_length]

/-- A sum over all coordinates, variable by variable. -/
theorem sum_lay (dim : Nat → Nat) (l : List Nat) (f : Nat → K) :
    ∑ c ∈ range (dims dim l), f c =
      ∑ k ∈ range l.length, ∑ j ∈ range (dim (l.getD k 0)), f (dims dim (l.take k) + j) := by
  have := sum_blocks (lay_mono dim l) f
  rw [lay_total, lay_length] at this
  rw [this]
  refine sum_congr rfl fun k hk => ?_
  have hk := mem_range.1 hk
  have hg : l[k]? = some (l.getD k 0) := by
    rw [List.getD_eq_getElem?_getD, List.getElem?_eq_getElem hk, Option.getD_some]
  rw [lay_size dim hg, lay_base dim hk.le]

theorem sum_list (l : List Nat) (f : Nat → K) : (l.map f).sum = ∑ k ∈ range l.length, f (l.getD k 0) := by
  induction l with
  | nil => simp
  | cons a l ih =>
    rw [List.map_cons, List.sum_cons, List.length_cons, sum_range_succ', ih, add_comm]
    simp

theorem getD_some {l : List Nat} {k : Nat} (hk : k < l.length) : l[k]? = some (l.getD k 0) := by
  rw [List.getD_eq_getElem?_getD, List.getElem?_eq_getElem hk, Option.getD_some]

/-- The displacement as one vector. -/
def flat (dim : Nat → Nat) (l : List Nat) (δ : Nat → Nat → K) : List K := l.flatMap fun v => (List.range (dim v)).map (δ v)

theorem flat_length (dim : Nat → Nat) (l : List Nat) (δ : Nat → Nat → K) : (flat dim l δ).length = dims dim l := by
  simp [flat, dims, List.length_flatMap]

theorem flat_append (dim : Nat → Nat) (l l' : List Nat) (δ : Nat → Nat → K) :
    flat dim (l ++ l') δ = flat dim l δ ++ flat dim l' δ := by simp [flat]

theorem flat_get {dim : Nat → Nat} {l : List Nat} (δ : Nat → Nat → K) {k v j : Nat} (h : l[k]? = some v) (hj : j < dim v) :
    (flat dim l δ).getD (dims dim (l.take k) + j) 0 = δ v j := by
  obtain ⟨hk, e⟩ := List.getElem?_eq_some_iff.1 h
  have hs : l = l.take k ++ (v :: l.drop (k + 1)) := by
    rw [← e]; simp
  conv_lhs => rw [hs]
  have ht : (l.take k ++ (v :: l.drop (k + 1))).take k = l.take k := by rw [← hs]
  rw [ht, flat_append, List.getD_eq_getElem?_getD, List.getElem?_append_right (by rw [flat_length]; omega),
    flat_length, Nat.add_sub_cancel_left]
  have : flat dim (v :: l.drop (k + 1)) δ = (List.range (dim v)).map (δ v) ++ flat dim (l.drop (k + 1)) δ := by
    simp [flat]
  rw [this, List.getElem?_append_left (by simpa using hj)]
  simp [hj]

/-! ### The loops -/

theorem hasDuplicate_iff (seen l : List Nat) :
    hasDuplicate seen l = false ↔ l.Nodup ∧ ∀ a ∈ l, a ∉ seen := by
  induction l generalizing seen with
  | nil => simp [hasDuplicate]
  | cons a l ih =>
    rw [hasDuplicate]
    by_cases ha : a ∈ seen
    · simp only [ha, if_true]
      constructor
      · intro h; cases h
      · rintro ⟨_, h⟩; exact absurd ha (h a (by simp))
    · simp only [ha, if_false, ih, List.nodup_cons, List.mem_cons, not_or]
      constructor
      · rintro ⟨h1, h2⟩
        exact ⟨⟨fun h => (h2 a h).1 rfl, h1⟩, fun b hb => by
          rcases hb with rfl | hb
          · exact ha
          · exact (h2 b hb).2⟩
      · rintro ⟨⟨h1, h2⟩, h3⟩
        exact ⟨h2, fun b hb => ⟨fun e => h1 (e ▸ hb), h3 b (.inr hb)⟩⟩

theorem partition_eq (dim : Nat → Nat) (toRemove : Int) (numTop : Nat) (l : List Nat) (k dimTop : Nat) :
    (partition dim toRemove numTop l k dimTop).1 = dims dim (l.take (toRemove - k).toNat) ∧
    (partition dim toRemove numTop l k dimTop).2.1 = l.drop (toRemove - k).toNat := by
  induction l generalizing k dimTop with
  | nil => simp [partition, dims]
  | cons v vs ih =>
    obtain ⟨h1, h2⟩ := ih (k + 1) (dimTop + dim v)
    rw [partition]
    by_cases hk : (k : Int) < toRemove
    · obtain ⟨q, hq⟩ : ∃ q, (toRemove - k).toNat = q + 1 := ⟨(toRemove - k).toNat - 1, by omega⟩
      have hq' : (toRemove - ((k + 1 : Nat) : Int)).toNat = q := by omega
      rw [hq'] at h1 h2
      simp only [hk, if_true, h1, h2, hq]
      simp [dims]
    · have hq : (toRemove - k).toNat = 0 := by omega
      have hq' : (toRemove - ((k + 1 : Nat) : Int)).toNat = 0 := by omega
      rw [hq'] at h1 h2
      simp only [hk, if_false, h1, h2, hq]
      simp [dims]

/-- The variables in the top block: those that start before row `numTop`. -/
theorem top_eq (dim : Nat → Nat) (toRemove : Int) (numTop : Nat) (l : List Nat) (k dimTop : Nat) :
    ∃ q, q ≤ l.length ∧ (partition dim toRemove numTop l k dimTop).2.2 = l.take q ∧
      (∀ i, i < q → dimTop + dims dim (l.take i) < numTop) ∧
      ∀ i, q ≤ i → i < l.length → numTop ≤ dimTop + dims dim (l.take i) := by
  induction l generalizing k dimTop with
  | nil => exact ⟨0, by simp, by simp [partition], fun i hi => by omega, fun i _ hi => by simp at hi⟩
  | cons v vs ih =>
    obtain ⟨q, hq, e, h1, h2⟩ := ih (k + 1) (dimTop + dim v)
    have hd : ∀ i, dims dim ((v :: vs).take (i + 1)) = dim v + dims dim (vs.take i) := fun i => by simp [dims]
    have e' : (partition dim toRemove numTop (v :: vs) k dimTop).2.2 =
        if dimTop < numTop then v :: vs.take q else vs.take q := by
      rw [partition]
      by_cases hk : (k : Int) < toRemove
      · simp only [hk, if_true, e]
      · simp only [hk, if_false, e]
    by_cases ht : dimTop < numTop
    · refine ⟨q + 1, by simpa using hq, by rw [e', if_pos ht]; simp, ?_, ?_⟩
      · intro i hi
        cases i with
        | zero => simpa [dims] using ht
        | succ i => rw [hd]; have := h1 i (by omega); omega
      · intro i hi hl
        cases i with
        | zero => omega
        | succ i => rw [hd]; have := h2 i (by omega) (by simpa using hl); omega
    · have hq0 : q = 0 := by
        by_contra hne
        have := h1 0 (by omega)
        simp only [List.take_zero, dims, List.map_nil, List.sum_nil] at this
        omega
      subst hq0
      refine ⟨0, by simp, by rw [e', if_neg ht]; simp, fun i hi => by omega, ?_⟩
      intro i _ hl
      omega

/-- The state after the columns have been assigned. -/
theorem assignColumns_eq (dim : Nat → Nat) (l : List Nat) (hl : l.Nodup) (i b : Nat) (W : World) :
    (assignColumns dim l i b W).2.1 = l.map (fun v => (W.blockIndex v, W.columnBase v)) ∧
    (assignColumns dim l i b W).2.2 = b + dims dim l ∧
    (assignColumns dim l i b W).1.rowBase = W.rowBase ∧
    (∀ v, v ∉ l → (assignColumns dim l i b W).1.blockIndex v = W.blockIndex v ∧
      (assignColumns dim l i b W).1.columnBase v = W.columnBase v) ∧
    ∀ k v, l[k]? = some v → (assignColumns dim l i b W).1.blockIndex v = ((i + k : Nat) : Int) ∧
      (assignColumns dim l i b W).1.columnBase v = ((b + dims dim (l.take k) : Nat) : Int) := by
  induction l generalizing i b W with
  | nil => simp [assignColumns, dims]
  | cons u us ih =>
    obtain ⟨hu, hus⟩ := List.nodup_cons.1 hl
    obtain ⟨h1, h2, h3, h4, h5⟩ := ih hus (i + 1) (b + dim u) (W.setVar u (i, b))
    refine ⟨?_, ?_, h3, ?_, ?_⟩
    · show (W.blockIndex u, W.columnBase u) :: (assignColumns dim us (i + 1) (b + dim u) (W.setVar u (i, b))).2.1 = _
      rw [h1, List.map_cons]
      congr 1
      refine List.map_congr_left fun v hv => ?_
      have : v ≠ u := fun e => hu (e ▸ hv)
      simp [World.setVar, this]
    · show (assignColumns dim us (i + 1) (b + dim u) (W.setVar u (i, b))).2.2 = _
      rw [h2]; simp only [dims, List.map_cons, List.sum_cons]; omega
    · intro v hv
      simp only [List.mem_cons, not_or] at hv
      have := h4 v hv.2
      simpa [World.setVar, hv.1, assignColumns] using this
    · intro k v hk
      cases k with
      | zero =>
        simp only [List.getElem?_cons_zero, Option.some.injEq] at hk
        subst hk
        have := h4 u hu
        simpa [World.setVar, assignColumns, dims] using this
      | succ k =>
        simp only [List.getElem?_cons_succ] at hk
        have := h5 k v hk
        refine ⟨?_, ?_⟩
        · show (assignColumns dim us (i + 1) (b + dim u) (W.setVar u (i, b))).1.blockIndex v = _
          rw [this.1]; congr 1; omega
        · show (assignColumns dim us (i + 1) (b + dim u) (W.setVar u (i, b))).1.columnBase v = _
          rw [this.2]; congr 1
          simp only [dims, List.take_succ_cons, List.map_cons, List.sum_cons]; omega

/-- The state after the rows have been assigned. -/
theorem assignRows_eq (edim : Nat → Nat) (l : List Nat) (hl : l.Nodup) (b : Nat) (W : World) :
    (assignRows edim l b W).2.1 = l.map W.rowBase ∧
    (assignRows edim l b W).2.2 = b + dims edim l ∧
    (assignRows edim l b W).1.blockIndex = W.blockIndex ∧ (assignRows edim l b W).1.columnBase = W.columnBase ∧
    (∀ e, e ∉ l → (assignRows edim l b W).1.rowBase e = W.rowBase e) ∧
    ∀ k e, l[k]? = some e → (assignRows edim l b W).1.rowBase e = b + dims edim (l.take k) := by
  induction l generalizing b W with
  | nil => simp [assignRows, dims]
  | cons u us ih =>
    obtain ⟨hu, hus⟩ := List.nodup_cons.1 hl
    obtain ⟨h1, h2, h3, h3', h4, h5⟩ := ih hus (b + edim u) (W.setRow u b)
    refine ⟨?_, ?_, h3, h3', ?_, ?_⟩
    · show W.rowBase u :: (assignRows edim us (b + edim u) (W.setRow u b)).2.1 = _
      rw [h1, List.map_cons]
      congr 1
      refine List.map_congr_left fun v hv => ?_
      have : v ≠ u := fun e => hu (e ▸ hv)
      simp [World.setRow, this]
    · show (assignRows edim us (b + edim u) (W.setRow u b)).2.2 = _
      rw [h2]; simp only [dims, List.map_cons, List.sum_cons]; omega
    · intro v hv
      simp only [List.mem_cons, not_or] at hv
      have := h4 v hv.2
      simpa [World.setRow, hv.1, assignRows] using this
    · intro k v hk
      cases k with
      | zero =>
        simp only [List.getElem?_cons_zero, Option.some.injEq] at hk
        subst hk
        have := h4 u hu
        simpa [World.setRow, assignRows, dims] using this
      | succ k =>
        simp only [List.getElem?_cons_succ] at hk
        show (assignRows edim us (b + edim u) (W.setRow u b)).1.rowBase v = _
        rw [h5 k v hk]
        simp only [dims, List.take_succ_cons, List.map_cons, List.sum_cons]; omega

theorem restoreColumns_eq (l : List Nat) (f : Nat → Int × Int) (X : World) :
    (restoreColumns l (l.map f) X).rowBase = X.rowBase ∧
    ∀ v, (restoreColumns l (l.map f) X).blockIndex v = (if v ∈ l then (f v).1 else X.blockIndex v) ∧
      (restoreColumns l (l.map f) X).columnBase v = (if v ∈ l then (f v).2 else X.columnBase v) := by
  induction l generalizing X with
  | nil => simp [restoreColumns]
  | cons u us ih =>
    obtain ⟨h1, h2⟩ := ih (X.setVar u (f u))
    refine ⟨h1, fun v => ?_⟩
    have := h2 v
    rw [List.map_cons, restoreColumns, this.1, this.2]
    by_cases hv : v ∈ us
    · simp [hv]
    · by_cases he : v = u
      · subst he; simp [hv, World.setVar]
      · simp [hv, he, World.setVar]

theorem restoreRows_eq (l : List Nat) (f : Nat → Nat) (X : World) :
    (restoreRows l (l.map f) X).blockIndex = X.blockIndex ∧ (restoreRows l (l.map f) X).columnBase = X.columnBase ∧
    ∀ v, (restoreRows l (l.map f) X).rowBase v = if v ∈ l then f v else X.rowBase v := by
  induction l generalizing X with
  | nil => simp [restoreRows]
  | cons u us ih =>
    obtain ⟨h1, h1', h2⟩ := ih (X.setRow u (f u))
    refine ⟨h1, h1', fun v => ?_⟩
    rw [List.map_cons, restoreRows, h2 v]
    by_cases hv : v ∈ us
    · simp [hv]
    · by_cases he : v = u
      · subst he; simp [hv, World.setRow]
      · simp [hv, he, World.setRow]

/-- Assigning and restoring leaves everything as it was. -/
theorem restored (dim edim : Nat → Nat) (dvs ets : List Nat) (hd : dvs.Nodup) (he : ets.Nodup) (W : World) :
    let c := assignColumns dim dvs 0 0 W
    let r := assignRows edim ets 0 c.1
    restoreRows ets r.2.1 (restoreColumns dvs c.2.1 r.1) = W := by
  intro c r
  obtain ⟨c1, c2, c3, c4, c5⟩ := assignColumns_eq dim dvs hd 0 0 W
  obtain ⟨r1, r2, r3, r3', r4, r5⟩ := assignRows_eq edim ets he 0 c.1
  change c.2.1 = _ at c1
  change r.2.1 = _ at r1
  rw [c1, r1]
  obtain ⟨a1, a2, a3⟩ := restoreRows_eq ets c.1.rowBase
    (restoreColumns dvs (dvs.map fun v => (W.blockIndex v, W.columnBase v)) r.1)
  obtain ⟨b1, b2⟩ := restoreColumns_eq dvs (fun v => (W.blockIndex v, W.columnBase v)) r.1
  obtain ⟨X, hX⟩ : ∃ X, X = restoreRows ets (ets.map c.1.rowBase)
    (restoreColumns dvs (dvs.map fun v => (W.blockIndex v, W.columnBase v)) r.1) := ⟨_, rfl⟩
  rw [← hX] at a1 a2 a3 ⊢
  have e1 : X.blockIndex = W.blockIndex := by
    funext v
    rw [a1, (b2 v).1]
    by_cases hv : v ∈ dvs
    · rw [if_pos hv]
    · rw [if_neg hv, r3]; exact (c4 v hv).1
  have e2 : X.columnBase = W.columnBase := by
    funext v
    rw [a2, (b2 v).2]
    by_cases hv : v ∈ dvs
    · rw [if_pos hv]
    · rw [if_neg hv, r3']; exact (c4 v hv).2
  have e3 : X.rowBase = W.rowBase := by
    funext v
    rw [a3 v]
    by_cases hv : v ∈ ets
    · rw [if_pos hv]; exact congrFun c3 v
    · rw [if_neg hv, b1, r4 v hv]; exact congrFun c3 v
  cases X; cases W
  simp only at e1 e2 e3
  subst e1; subst e2; subst e3
  rfl

end Kalibr.Marg
