import Verif.Optimizer.Spec

/-! # Lemmas about the optimiser model -/

namespace Kalibr.Optimizer

open Spec

variable {V K : Type}

/-! ## Indices -/

theorem assign_length (vs : List (Var V K)) : ∀ i b, (assign i b vs).length = vs.length := by
  induction vs with
  | nil => intros; rfl
  | cons v vs ih => intro i b; rw [assign]; split <;> simp [ih]

/-- Fields other than the indices are untouched; inactive variables entirely so. -/
theorem assign_get (vs : List (Var V K)) : ∀ i b k v, vs[k]? = some v →
    ∃ w, (assign i b vs)[k]? = some w ∧
      w = { v with blockIndex := w.blockIndex, columnBase := w.columnBase } ∧
      (v.active = false → w = v) ∧
      (v.active = true → w.blockIndex = ((i + ((vs.take k).filter (·.active)).length : Nat) : Int) ∧
        w.columnBase = ((b + (((vs.take k).filter (·.active)).map (·.dim)).sum : Nat) : Int)) := by
  induction vs with
  | nil => intro i b k v h; simp at h
  | cons u us ih =>
    intro i b k v h
    rw [assign]
    cases k with
    | zero =>
      simp at h; subst h
      by_cases ha : u.active = true
      · simp [ha]
      · exact ⟨u, by simp [ha], rfl, fun _ => rfl, fun h => absurd h ha⟩
    | succ k =>
      simp at h
      by_cases ha : u.active = true
      · obtain ⟨w, h1, h2, h3, h4⟩ := ih (i + 1) (b + u.dim) k v h
        refine ⟨w, by simpa [ha] using h1, h2, h3, fun hv => ?_⟩
        obtain ⟨h5, h6⟩ := h4 hv
        rw [h5, h6]
        simp only [List.take_succ_cons, List.filter_cons, ha, if_true, List.length_cons,
          List.map_cons, List.sum_cons]
        constructor <;> congr 1 <;> omega
      · obtain ⟨w, h1, h2, h3, h4⟩ := ih i b k v h
        refine ⟨w, by simpa [ha] using h1, h2, h3, fun hv => ?_⟩
        obtain ⟨h5, h6⟩ := h4 hv
        rw [h5, h6]
        simp [ha]

theorem assign_active (vs : List (Var V K)) : ∀ i b,
    ((assign i b vs).filter (·.active)).map (·.dim) = (vs.filter (·.active)).map (·.dim) := by
  induction vs with
  | nil => intros; rfl
  | cons v vs ih =>
    intro i b; rw [assign]
    by_cases ha : v.active = true <;> simp [ha, ih]

theorem assign_values (vs : List (Var V K)) : ∀ i b,
    (assign i b vs).map (·.value) = vs.map (·.value) := by
  induction vs with
  | nil => intros; rfl
  | cons v vs ih => intro i b; rw [assign]; split <;> simp [ih]

theorem assign_blocks (vs : List (Var V K)) : ∀ i b k w,
    ((assign i b vs).filter (·.active))[k]? = some w →
      w.blockIndex = ((i + k : Nat) : Int) ∧
      w.columnBase = ((b + (((vs.filter (·.active)).map (·.dim)).take k).sum : Nat) : Int) := by
  induction vs with
  | nil => intro i b k w h; simp [assign] at h
  | cons v vs ih =>
    intro i b k w h
    rw [assign] at h
    by_cases ha : v.active = true
    · simp only [ha, if_true, List.filter_cons] at h ⊢
      cases k with
      | zero => simp at h; subst h; simp
      | succ k =>
        simp at h
        obtain ⟨h1, h2⟩ := ih _ _ k w h
        rw [h1, h2]
        simp only [List.map_cons, List.take_succ_cons, List.sum_cons]
        constructor <;> congr 1 <;> omega
    · simp only [ha, List.filter_cons] at h ⊢
      exact ih _ _ k w (by simpa [ha] using h)

theorem rowBases_get (ds : List Nat) : ∀ b k r, (rowBases b ds)[k]? = some r →
    r = b + (ds.take k).sum := by
  induction ds with
  | nil => intro b k r h; simp [rowBases] at h
  | cons d ds ih =>
    intro b k r h
    rw [rowBases] at h
    cases k with
    | zero => simp at h; simp [h]
    | succ k =>
      simp at h
      rw [ih _ _ _ h]; simp; omega

theorem rowBases_length (ds : List Nat) : ∀ b, (rowBases b ds).length = ds.length := by
  induction ds with
  | nil => intros; rfl
  | cons d ds ih => intro b; simp [rowBases, ih]

theorem take_sum_mono (ds : List Nat) {i j : Nat} (h : i ≤ j) : (ds.take i).sum ≤ (ds.take j).sum := by
  have : ds.take i = (ds.take j).take i := by rw [List.take_take, min_eq_left h]
  rw [this]
  have h2 := congrArg List.sum (List.take_append_drop i (ds.take j))
  rw [List.sum_append] at h2
  omega

theorem take_succ_sum (ds : List Nat) {i d : Nat} (h : ds[i]? = some d) :
    (ds.take (i + 1)).sum = (ds.take i).sum + d := by
  rw [List.take_add_one, h]; simp

theorem cover_exists (ds : List Nat) : ∀ x, x < ds.sum →
    ∃ i d, ds[i]? = some d ∧ (ds.take i).sum ≤ x ∧ x < (ds.take i).sum + d := by
  induction ds with
  | nil => intro x h; simp at h
  | cons d ds ih =>
    intro x h
    by_cases hx : x < d
    · exact ⟨0, d, rfl, by simp, by simpa using hx⟩
    · simp at h
      obtain ⟨i, e, h1, h2, h3⟩ := ih (x - d) (by omega)
      refine ⟨i + 1, e, by simpa using h1, ?_, ?_⟩ <;> simp <;> omega

/-- Consecutive ranges cover exactly. -/
theorem exactCover_of_consecutive {bs : List Int} {ds : List Nat} (h : Consecutive bs ds) :
    ExactCover bs ds := by
  obtain ⟨hl, hb⟩ := h
  refine ⟨?_, ?_⟩
  · intro i b d h1 h2
    rw [hb i b h1]
    have h3 := take_succ_sum ds h2
    have h4 := take_sum_mono ds (i := i + 1) (j := ds.length)
      (by have := (List.getElem?_eq_some_iff.mp h2).1; omega)
    rw [List.take_length] at h4
    omega
  · intro x hx
    obtain ⟨i, d, h1, h2, h3⟩ := cover_exists ds x hx
    have hi : i < bs.length := by rw [hl]; exact (List.getElem?_eq_some_iff.mp h1).1
    refine ⟨i, ⟨bs[i], d, by simp [hi], h1, ?_⟩, ?_⟩
    · rw [hb i bs[i] (by simp [hi])]; omega
    · rintro j ⟨b, e, k1, k2, k3, k4⟩
      rw [hb j b k1] at k3 k4
      rcases Nat.lt_trichotomy i j with hlt | heq | hgt
      · have := take_sum_mono ds (i := i + 1) (j := j) hlt
        rw [take_succ_sum ds h1] at this; omega
      · exact heq.symm
      · have := take_sum_mono ds (i := j + 1) (j := i) hgt
        rw [take_succ_sum ds k2] at this; omega

/-! ## Applying and reverting a step -/

section
variable [Mul K]

theorem applyLoop_get (dx : List K) (vs : List (Var V K)) : ∀ s vs', applyLoop dx s vs = .ok vs' →
    vs'.length = vs.length ∧ ∀ k v, vs[k]? = some v →
      let base := s + (((vs.take k).filter (·.active)).map (·.dim)).sum
      (v.active = false → vs'[k]? = some v) ∧
      (v.active = true → v.dim = 0 → vs'[k]? = some v) ∧
      (v.active = true → 0 < v.dim → base + v.dim ≤ dx.length ∧
        vs'[k]? = some (v.update (((dx.drop base).take v.dim).map (· * v.scaling)))) := by
  induction vs with
  | nil => intro s vs' h; simp [applyLoop] at h; subst h; simp
  | cons u us ih =>
    intro s vs' h
    rw [applyLoop] at h
    by_cases ha : u.active = true
    · rw [if_pos ha] at h
      by_cases hs : s + u.dim ≤ dx.length
      · rw [if_pos hs] at h
        obtain ⟨r, hr, he⟩ := Out.bind_eq_ok.mp h
        simp at he; subst he
        obtain ⟨hl, hg⟩ := ih _ _ hr
        refine ⟨by simp [hl], ?_⟩
        intro k v hk
        cases k with
        | zero =>
          simp at hk; subst hk
          refine ⟨by simp [ha], ?_, ?_⟩
          · intro _ h0; simp [h0]
          · intro _ h0; simp [h0, hs]
        | succ k =>
          simp at hk
          have := hg k v hk
          simp only [List.take_succ_cons, List.filter_cons, ha, if_true, List.map_cons,
            List.sum_cons, List.getElem?_cons_succ] at this ⊢
          rw [← Nat.add_assoc]; exact this
      · rw [if_neg hs] at h; cases h
    · rw [if_neg ha] at h
      obtain ⟨r, hr, he⟩ := Out.bind_eq_ok.mp h
      simp at he; subst he
      obtain ⟨hl, hg⟩ := ih _ _ hr
      refine ⟨by simp [hl], ?_⟩
      intro k v hk
      cases k with
      | zero => simp at hk; subst hk; simp [ha]
      | succ k =>
        simp at hk
        have := hg k v hk
        simpa [ha] using this

theorem applyLoop_ok (dx : List K) (vs : List (Var V K)) : ∀ s,
    s + ((vs.filter (·.active)).map (·.dim)).sum ≤ dx.length → ∃ vs', applyLoop dx s vs = .ok vs' := by
  induction vs with
  | nil => intro s h; exact ⟨[], rfl⟩
  | cons u us ih =>
    intro s h
    rw [applyLoop]
    by_cases ha : u.active = true
    · simp only [List.filter_cons, ha, if_true, List.map_cons, List.sum_cons] at h
      obtain ⟨r, hr⟩ := ih (s + u.dim) (by omega)
      rw [if_pos ha, if_pos (by omega), hr]
      exact ⟨_, rfl⟩
    · obtain ⟨r, hr⟩ := ih s (by simpa [ha] using h)
      rw [if_neg ha, hr]
      exact ⟨_, rfl⟩

theorem applyLoop_ub (dx : List K) (vs : List (Var V K)) : ∀ s,
    s ≤ dx.length → dx.length < s + ((vs.filter (·.active)).map (·.dim)).sum →
      applyLoop dx s vs = .ub := by
  induction vs with
  | nil => intro s h0 h; simp at h; omega
  | cons u us ih =>
    intro s h0 h
    rw [applyLoop]
    by_cases ha : u.active = true
    · simp only [List.filter_cons, ha, if_true, List.map_cons, List.sum_cons] at h
      rw [if_pos ha]
      by_cases hs : s + u.dim ≤ dx.length
      · rw [if_pos hs, ih (s + u.dim) hs (by omega)]; rfl
      · rw [if_neg hs]
    · rw [if_neg ha, ih s h0 (by simpa [ha] using h)]; rfl

end

/-- Variables a revert leaves where they are if they were not updated. -/
def Fresh (vs : List (Var V K)) : Prop :=
  ∀ v ∈ vs, v.active = true → v.dim = 0 → v.prev = v.value

theorem revert_get (vs : List (Var V K)) (k : Nat) (v : Var V K) (h : vs[k]? = some v) :
    (revertLastStateUpdate vs)[k]? = some (if v.active then v.revert else v) := by
  simp [revertLastStateUpdate, h]

section
variable [Field K] [LinearOrder K]

theorem apply_eq_ok {vs vs' : List (Var V K)} {dx : List K} {d : K}
    (h : applyStateUpdate vs dx = .ok (vs', d)) :
    applyLoop dx 0 vs = .ok vs' ∧ ∃ x xs, dx = x :: xs ∧
      d = xs.foldl (fun m x => max m |x|) |x| := by
  unfold applyStateUpdate at h
  obtain ⟨r, hr, he⟩ := Out.bind_eq_ok.mp h
  cases dx with
  | nil => cases he
  | cons x xs =>
    simp at he
    exact ⟨by rw [hr, he.1], x, xs, rfl, he.2.symm⟩

theorem foldl_max_spec (xs : List K) : ∀ m : K,
    m ≤ xs.foldl (fun m x => max m |x|) m ∧
    (∀ x ∈ xs, |x| ≤ xs.foldl (fun m x => max m |x|) m) ∧
    (xs.foldl (fun m x => max m |x|) m = m ∨ ∃ x ∈ xs, xs.foldl (fun m x => max m |x|) m = |x|) := by
  induction xs with
  | nil => intro m; simp
  | cons y ys ih =>
    intro m
    obtain ⟨h1, h2, h3⟩ := ih (max m |y|)
    simp only [List.foldl_cons]
    refine ⟨le_trans (le_max_left _ _) h1, ?_, ?_⟩
    · intro x hx
      rcases List.mem_cons.mp hx with rfl | hx
      · exact le_trans (le_max_right _ _) h1
      · exact h2 x hx
    · rcases h3 with h3 | ⟨x, hx, h3⟩
      · rw [h3]
        rcases max_choice m |y| with h | h
        · exact Or.inl h
        · exact Or.inr ⟨y, by simp, h⟩
      · exact Or.inr ⟨x, List.mem_cons_of_mem _ hx, h3⟩

theorem revert_apply_get {vs vs' : List (Var V K)} {dx : List K} {d : K}
    (h : applyStateUpdate vs dx = .ok (vs', d)) (k : Nat) (v : Var V K) (hk : vs[k]? = some v) :
    ∃ w, (revertLastStateUpdate vs')[k]? = some w ∧ w.active = v.active ∧ w.dim = v.dim ∧
      (v.active = false → w = v) ∧ (v.active = true → 0 < v.dim → w.value = v.value) ∧
      (v.active = true → v.dim = 0 → w.value = v.prev) ∧
      (v.active = true → v.dim = 0 → w.prev = v.prev) := by
  obtain ⟨h1, -⟩ := apply_eq_ok h
  obtain ⟨-, hg⟩ := applyLoop_get dx vs 0 vs' h1
  obtain ⟨g1, g2, g3⟩ := hg k v hk
  by_cases ha : v.active = true
  · rcases Nat.eq_zero_or_pos v.dim with h0 | h0
    · refine ⟨_, revert_get _ _ _ (g2 ha h0), ?_⟩
      simp [ha, h0, Var.revert]
    · refine ⟨_, revert_get _ _ _ (g3 ha h0).2, ?_⟩
      simp [ha, Var.revert, Var.update]
      omega
  · have ha : v.active = false := by simpa using ha
    refine ⟨_, revert_get _ _ _ (g1 ha), ?_⟩
    simp [ha]

theorem revert_apply_values {vs vs' : List (Var V K)} {dx : List K} {d : K}
    (h : applyStateUpdate vs dx = .ok (vs', d)) (hf : Fresh vs) :
    values (revertLastStateUpdate vs') = values vs ∧ Fresh (revertLastStateUpdate vs') := by
  have hl : (revertLastStateUpdate vs').length = vs.length := by
    simp [revertLastStateUpdate, (applyLoop_get dx vs 0 vs' (apply_eq_ok h).1).1]
  constructor
  · apply List.ext_getElem?
    intro k
    simp only [values, List.getElem?_map]
    rcases hk : vs[k]? with _ | v
    · rw [List.getElem?_eq_none_iff] at hk
      rw [List.getElem?_eq_none_iff.mpr (by omega)]
    · obtain ⟨w, h1, -, -, h4, h5, h6, -⟩ := revert_apply_get h k v hk
      rw [h1]
      simp only [Option.map_some, Option.some.injEq]
      by_cases ha : v.active = true
      · rcases Nat.eq_zero_or_pos v.dim with h0 | h0
        · rw [h6 ha h0]; exact hf v (List.mem_of_getElem? hk) ha h0
        · exact h5 ha h0
      · rw [h4 (by simpa using ha)]
  · intro w hw ha h0
    obtain ⟨k, hk⟩ := List.mem_iff_getElem?.mp hw
    have hlt : k < vs.length := by rw [← hl]; exact (List.getElem?_eq_some_iff.mp hk).1
    obtain ⟨w', h1, h2, h3, h4, h5, h6, h7⟩ := revert_apply_get h k vs[k] (by simp [hlt])
    rw [hk] at h1; simp at h1; subst h1
    rw [h6 (h2 ▸ ha) (h3 ▸ h0), h7 (h2 ▸ ha) (h3 ▸ h0)]

theorem apply_fresh {vs vs' : List (Var V K)} {dx : List K} {d : K}
    (h : applyStateUpdate vs dx = .ok (vs', d)) (hf : Fresh vs) : Fresh vs' := by
  obtain ⟨h1, -⟩ := apply_eq_ok h
  obtain ⟨hl, hg⟩ := applyLoop_get dx vs 0 vs' h1
  intro w hw ha h0
  obtain ⟨k, hk⟩ := List.mem_iff_getElem?.mp hw
  have hlt : k < vs.length := by rw [← hl]; exact (List.getElem?_eq_some_iff.mp hk).1
  obtain ⟨g1, g2, g3⟩ := hg k vs[k] (by simp [hlt])
  by_cases ha' : vs[k].active = true
  · rcases Nat.eq_zero_or_pos vs[k].dim with hz | hz
    · have e := (g2 ha' hz).symm.trans hk
      simp at e; rw [← e]
      exact hf _ (List.getElem_mem hlt) ha' hz
    · have e := (g3 ha' hz).2.symm.trans hk
      simp at e; rw [← e] at h0
      simp [Var.update] at h0; omega
  · have e := (g1 (by simpa using ha')).symm.trans hk
    simp at e; rw [← e] at ha; exact absurd ha ha'

/-! ## The loop -/

variable {o : Options K} {cost : List V → K}

/-- What one pass does to the cost bookkeeping. -/
theorem pass_cost [IsStrictOrderedRing K] (hr : o.revertOnFailure = true) {s s' : St V K} {a : Option (List K)}
    (h : pass o cost s a = .ok s') : s'.jStart = s.jStart ∧ s'.pJ ≤ s.pJ := by
  cases a with
  | none => simp [pass] at h; subst h; exact ⟨rfl, le_refl _⟩
  | some dx =>
    simp only [pass] at h
    obtain ⟨⟨vs, d⟩, hv, he⟩ := Out.bind_eq_ok.mp h
    simp only [hr, if_true, Out.pure_eq, Out.ok.injEq] at he
    split at he
    · subst he; exact ⟨rfl, le_refl _⟩
    · rename_i hn
      subst he
      refine ⟨rfl, ?_⟩
      have := not_lt.mp hn
      simpa using sub_nonneg.mp this

theorem pass_state (hr : o.revertOnFailure = true) {s s' : St V K} {a : Option (List K)}
    (h : pass o cost s a = .ok s') (hf : Fresh s.vars) (hc : s.pJ = cost (values s.vars)) :
    Fresh s'.vars ∧ s'.pJ = cost (values s'.vars) := by
  cases a with
  | none => simp [pass] at h; subst h; exact ⟨hf, hc⟩
  | some dx =>
    simp only [pass] at h
    obtain ⟨⟨vs, d⟩, hv, he⟩ := Out.bind_eq_ok.mp h
    simp only [hr, if_true, Out.pure_eq, Out.ok.injEq] at he
    split at he
    · subst he
      obtain ⟨h1, h2⟩ := revert_apply_values hv hf
      exact ⟨h2, by simp [h1, hc]⟩
    · subst he
      exact ⟨apply_fresh hv hf, rfl⟩

theorem pass_counts {s s' : St V K} {a : Option (List K)} (h : pass o cost s a = .ok s') :
    (s'.iterations = s.iterations ∨ s'.iterations = s.iterations + 1) ∧
    (s'.failedIterations = s.failedIterations ∨ s'.failedIterations = s.failedIterations + 1) ∧
    s.iterations + s.failedIterations + 1 ≤ s'.iterations + s'.failedIterations := by
  cases a with
  | none => simp [pass] at h; subst h; simp; omega
  | some dx =>
    simp only [pass] at h
    obtain ⟨⟨vs, d⟩, hv, he⟩ := Out.bind_eq_ok.mp h
    simp only [Out.pure_eq, Out.ok.injEq] at he
    split at he
    · split at he <;> subst he <;> simp <;> omega
    · subst he; simp; omega

/-- Induction over the passes that were made. -/
theorem passes_induction {answers : Nat → Option (List K)} {P : St V K → Prop} {s0 : St V K}
    (h0 : P s0) (hs : ∀ s s' a, P s → goOn o s = true → pass o cost s a = .ok s' → P s') :
    ∀ n s, passes o cost answers n s0 = .ok s → P s := by
  intro n
  induction n with
  | zero => intro s h; simp [passes] at h; subst h; exact h0
  | succ n ih =>
    intro s h
    rw [passes] at h
    obtain ⟨r, hr, he⟩ := Out.bind_eq_ok.mp h
    split at he
    · exact hs _ _ _ (ih r hr) (by assumption) he
    · simp at he; subst he; exact ih r hr

theorem goOn_bounds {s : St V K} (h : goOn o s = true) :
    s.iterations < o.maxIterations ∧ s.failedIterations < o.maxIterations := by
  simp [goOn] at h; exact ⟨h.1.1, h.1.2⟩

/-- Every pass makes progress towards the bounds. -/
theorem passes_progress {answers : Nat → Option (List K)} {s0 : St V K}
    (h0 : s0.iterations = 0) (h0' : s0.failedIterations = 0) :
    ∀ n s, passes o cost answers n s0 = .ok s → goOn o s = true →
      (n : Int) ≤ s.iterations + s.failedIterations := by
  intro n
  induction n with
  | zero => intro s h _; simp [passes] at h; subst h; omega
  | succ n ih =>
    intro s h hg
    rw [passes] at h
    obtain ⟨r, hr, he⟩ := Out.bind_eq_ok.mp h
    by_cases hgr : goOn o r = true
    · rw [if_pos hgr] at he
      have := ih r hr hgr
      have := (pass_counts he).2.2
      push_cast; omega
    · rw [if_neg hgr] at he
      simp at he; subst he; exact absurd hg hgr

theorem passes_stay {answers : Nat → Option (List K)} {s0 s : St V K} {n m : Nat}
    (h : passes o cost answers n s0 = .ok s) (hg : goOn o s = false) (hnm : n ≤ m) :
    passes o cost answers m s0 = .ok s := by
  induction hnm with
  | refl => exact h
  | step _ ih => rw [passes, ih]; simp [hg]

theorem optimize_eq {answers : Nat → Option (List K)} {vars : List (Var V K)} {errs : List Nat}
    {n : Nat} {r : Ret K} {s : St V K} (h : optimize o cost answers vars errs n = .ok (some (r, s))) :
    ∃ vs rows, setUp vars errs = .ok (vs, rows) ∧ vs = assign 0 0 vars ∧
      passes o cost answers n (start o cost vs) = .ok s ∧ goOn o s = false ∧ r = ret s := by
  unfold optimize at h
  obtain ⟨⟨vs, rows⟩, h1, h2⟩ := Out.bind_eq_ok.mp h
  obtain ⟨t, h3, h4⟩ := Out.bind_eq_ok.mp h2
  simp only [Out.pure_eq, Out.ok.injEq] at h4
  split at h4
  · cases h4
  · rename_i hg
    simp at h4
    obtain ⟨rfl, rfl⟩ := h4
    refine ⟨vs, rows, h1, ?_, h3, by simpa using hg, rfl⟩
    unfold setUp at h1
    split at h1
    · cases h1
    · split at h1
      · cases h1
      · simp at h1; exact h1.1.symm

end

end Kalibr.Optimizer
