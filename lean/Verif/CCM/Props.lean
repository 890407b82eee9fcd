import Verif.CCM.Builder

/-!
# Properties of the compressed column matrix and of the Jacobian builder (C27, C28, C75)
-/

namespace Kalibr.CCM

open CCS Jacobian

variable {D K : Type}

/-! ## C27: the compressed form is well formed and means the intended dense matrix -/

/-- A new matrix is the zero matrix. -/
theorem C27_new [Zero K] (rows cols : Nat) :
    Is (CCM.new rows cols : CCM K) (Mat.zero rows cols) ∧ (CCM.new rows cols : CCM K).diag = false := by
  have h : (CCM.new rows cols : CCM K).s = ofCols (List.replicate cols []) := by
    have e1 : ∀ n, (List.replicate n ([] : List (Nat × K))).flatten = [] := by simp
    rw [ofCols, e1]
    show CCS.mk (List.replicate (cols + 1) 0) [] [] = CCS.mk _ [] []
    congr 1
    induction cols with
    | zero => rfl
    | succ n ih => rw [List.replicate_succ, ih]; rfl
  refine ⟨⟨?_, rfl, rfl⟩, rfl⟩
  rw [h]
  refine ColsOf.lists ⟨by simp [Mat.zero], ?_, ?_, ?_, fun _ _ _ _ _ _ => rfl⟩
  · intro l hl; rw [List.eq_of_mem_replicate hl]; simp
  · intro l hl; rw [List.eq_of_mem_replicate hl]; simp
  · intro j l hl; rw [List.eq_of_mem_replicate (List.mem_of_getElem? hl)]; simp

/-- Whatever sequence of Jacobian appends and diagonal pushes, updates and pops is applied to a matrix
that means `M`: the object raises exactly when the operation makes no sense, and otherwise ends well
formed and with the intended dense meaning. -/
theorem C27_history [AddMonoid K] (env : Env D K) (cb : D → Nat) (m : CCM K) (M : Mat K) (h : Is m M)
    (hd : m.diag = false) (hl : Layout env cb M.rows) (ops : List (Op D K))
    (ho : ∀ o ∈ ops, o.Good env M.rows) :
    (∃ m' a', steps (CCM.step env cb) m ops = .ok m' ∧ steps (Abs.step env cb) ⟨M, none⟩ ops = .ok a' ∧
      Agree m' a') ∨
    (steps (CCM.step env cb) m ops = .raise ∧ steps (Abs.step env cb) ⟨M, none⟩ ops = .raise) := by
  have key : ∀ (m : CCM K) (a : Abs K), Inv m a → a.M.rows = M.rows →
      (∃ m' a', steps (CCM.step env cb) m ops = .ok m' ∧ steps (Abs.step env cb) a ops = .ok a' ∧
        Agree m' a') ∨
      (steps (CCM.step env cb) m ops = .raise ∧ steps (Abs.step env cb) a ops = .raise) := by
    induction ops with
    | nil => intro m a hi _; exact Or.inl ⟨m, a, rfl, rfl, hi.agree⟩
    | cons o ops ih =>
      intro m a hi hr
      rcases inv_step env cb m a hi (hr ▸ hl) o (hr ▸ ho o (by simp)) with ⟨m', a', h1, h2, h3, h4⟩ | ⟨h1, h2⟩
      · rw [steps, steps, h1, h2]
        exact ih (fun o' ho' => ho o' (by simp [ho'])) m' a' h3 (h4.trans hr)
      · right
        rw [steps, steps, h1, h2]
        exact ⟨rfl, rfl⟩
  exact key m ⟨M, none⟩ (inv_of_is h hd) rfl

/-- Appending the Jacobians of an error term puts its transposed Jacobian to the right. -/
theorem C27_appendJacobians [AddMonoid K] (env : Env D K) (cb : D → Nat) (m : CCM K) (M : Mat K)
    (h : Is m M) (hd : m.diag = false) (hl : Layout env cb M.rows) (jc : Container D K)
    (ho : Ordered env jc) (hf : Fits env jc) :
    ∃ m', m.appendJacobians env cb jc = .ok m' ∧ Is m' (hcat M (jacT env cb M.rows jc)) ∧
      m'.diag = false := by
  obtain ⟨L, hL, hc⟩ := h.lists.colsOf
  refine ⟨_, appendJacobians_eq env cb m L hL (by rw [h.cols, hc.len]) hd jc ho hf, ⟨?_, h.rows, ?_⟩, rfl⟩
  · exact (hc.append (newCol_colsOf env cb M.rows hl jc ho hf) rfl).lists
  · show m.cols + jc.rows = M.cols + jc.rows
    rw [h.cols]

/-- The dense expansion is the matrix. -/
theorem C27_toDense [Zero K] (m : CCM K) (M : Mat K) (h : Is m M) :
    ∃ T, m.toDense = .ok T ∧ T.Same M := by
  have hn : m.s.cp.length - 1 = m.cols := by rw [h.lists.valid.cp_length, h.cols]; omega
  rw [CCM.toDense, if_neg]
  · refine ⟨_, rfl, h.rows, h.cols, fun i j hi hj => ?_⟩
    have hi' : i < M.rows := h.rows ▸ hi
    have e := toDense_fold m.s M h.lists m.cols (by rw [h.cols]) i j hi'
    rw [if_pos hj] at e
    simp only [hn]
    exact e
  · rw [Bool.not_eq_false, List.all_eq_true]
    intro c hc
    rw [List.mem_range, hn] at hc
    simp only [decide_eq_true_eq, List.all_eq_true]
    exact ⟨(h.ptr c hc).1, (h.ptr c hc).2, fun p hp =>
      ⟨h.rows ▸ h.lists.valid.inside c (h.cols ▸ hc) p hp, hc⟩⟩

/-- Access by index gives the entry of the dense matrix, and raises outside. -/
theorem C27_value [Zero K] (m : CCM K) (M : Mat K) (h : Is m M) (r c : Nat) :
    m.value r c = if r < M.rows ∧ c < M.cols then .ok (M.get r c) else .raise := by
  rw [CCM.value]
  by_cases hr : r < m.rows
  · by_cases hc : c < m.cols
    · rw [if_neg (not_not.2 hr), if_neg (not_not.2 hc), if_pos ⟨h.rows ▸ hr, h.cols ▸ hc⟩, CCM.at, if_neg]
      · rw [← lookup_entry m.s M h.lists r c (h.rows ▸ hr) (h.cols ▸ hc)]
        exact find_lower _ (h.lists.valid.increasing c (h.cols ▸ hc)) r
      · push Not
        exact ⟨by rw [h.lists.valid.cp_length, ← h.cols]; omega, h.ptr c hc⟩
    · rw [if_neg (not_not.2 hr), if_pos hc, if_neg]
      exact fun hx => hc (h.cols ▸ hx.2)
  · rw [if_pos hr, if_neg]
    exact fun hx => hr (h.rows ▸ hx.1)

/-- The products are those with the matrix; a diagonal that has been pushed takes no part. -/
theorem C27_products [NonUnitalNonAssocSemiring K] (m : CCM K) (a : Abs K) (h : Agree m a) (x : List K) :
    (x.length = a.M.cols → ∃ y, m.rightMultiply x = .ok y ∧
      ∀ i, i < a.M.rows → y i = ∑ c ∈ Finset.range a.M.cols, a.M.get i c * x.getD c 0) ∧
    (x.length = a.M.rows → ∃ y, m.leftMultiply x = .ok y ∧
      ∀ c, c < a.M.cols → y c = ∑ r ∈ Finset.range a.M.rows, a.M.get r c * x.getD r 0) ∧
    (x.length ≠ a.M.cols → m.rightMultiply x = .raise) ∧
    (x.length ≠ a.M.rows → m.leftMultiply x = .raise) := by
  obtain ⟨h1, h2, h3, h4⟩ := h
  have hfull : a.M.cols ≤ a.full.cols ∧ a.full.rows = a.M.rows ∧
      (∀ i c, c < a.M.cols → a.full.get i c = a.M.get i c) ∧ m.mulCols = a.M.cols := by
    obtain ⟨M, d⟩ := a
    cases d with
    | none =>
      refine ⟨le_rfl, rfl, fun _ _ _ => rfl, ?_⟩
      rw [CCM.mulCols, h3, h1.cols]; rfl
    | some d =>
      have hd := h4 d rfl
      refine ⟨Nat.le_add_right _ _, rfl, fun i c hc => if_pos hc, ?_⟩
      rw [CCM.mulCols, h3, h1.cols, h2]
      show M.cols + d.length - M.rows = M.cols
      rw [hd]; show M.cols + M.rows - M.rows = _; omega
  obtain ⟨g1, g2, g3, g4⟩ := hfull
  refine ⟨fun hx => ?_, fun hx => ?_, fun hx => ?_, fun hx => ?_⟩
  · refine ⟨_, by rw [CCM.rightMultiply, if_neg (by rw [g4]; simpa using hx), if_neg (by rw [h1.mulOk]; simp)],
      fun i hi => ?_⟩
    rw [g4, right_fold m.s a.full h1.lists (fun c => x.getD c 0) a.M.cols g1 i (g2 ▸ hi)]
    exact Finset.sum_congr rfl fun c hc => by rw [g3 i c (Finset.mem_range.1 hc)]
  · refine ⟨_, by rw [CCM.leftMultiply, if_neg (by rw [h2]; simpa using hx), if_neg (by rw [h1.mulOk]; simp)],
      fun c hc => ?_⟩
    rw [g4, left_fold m.s a.full h1.lists (fun c => x.getD c 0) a.M.cols g1 c, if_pos hc, g2]
    exact Finset.sum_congr rfl fun r _ => by rw [g3 r c hc]
  · rw [CCM.rightMultiply, if_pos (by rw [g4]; exact hx)]
  · rw [CCM.leftMultiply, if_pos (by rw [h2]; exact hx)]

/-- Taking over a dense matrix keeps exactly the entries above the tolerance (the object must have no
diagonal appended, see the counterexample). -/
theorem C27_fromDense [Lattice K] [AddGroup K] [DecidableLT K] (m : CCM K) (M : Mat K) (tol : K) :
    ∃ m', m.fromDense M tol = .ok m' ∧ m'.diag = m.diag ∧
      Is m' ⟨M.rows, M.cols, fun r c => if |tol| < |M.get r c| then M.get r c else 0⟩ := by
  set col : Nat → List (Nat × K) := fun c =>
    ((List.range M.rows).filter fun r => |tol| < |M.get r c|).map fun r => (r, M.get r c) with hcol
  have inner : ∀ (c n : Nat) (s : CCS K), (List.range n).foldl (fun s r =>
      if |tol| < |M.get r c| then { s with cx := s.cx ++ [M.get r c], ci := s.ci ++ [r] } else s) s =
      ⟨s.cp, s.ci ++ (((List.range n).filter fun r => |tol| < |M.get r c|)),
        s.cx ++ (((List.range n).filter fun r => |tol| < |M.get r c|).map fun r => M.get r c)⟩ := by
    intro c n s
    induction n with
    | zero => simp
    | succ n ih =>
      rw [List.range_succ, List.foldl_append, ih, List.filter_append, List.map_append]
      by_cases hx : |tol| < |M.get n c|
      · simp [hx, List.append_assoc]
      · simp [hx]
  have outer : ∀ n, (List.range n).foldl (fun s c =>
        let s := (List.range M.rows).foldl (fun s r =>
          if |tol| < |M.get r c| then { s with cx := s.cx ++ [M.get r c], ci := s.ci ++ [r] } else s) s
        ({ s with cp := s.cp ++ [s.cx.length] } : CCS K)) ⟨[0], [], []⟩ =
      ofCols ((List.range n).map col) := by
    intro n
    induction n with
    | zero => rfl
    | succ n ih =>
      rw [List.range_succ, List.foldl_append, ih, List.foldl_cons, List.foldl_nil, inner, List.map_append,
        List.map_cons, List.map_nil]
      have h2 := ofCols_append ((List.range n).map col) [col n]
      have e1 : ([col n].flatten.map (·.1)) = (List.range M.rows).filter fun r => |tol| < |M.get r n| := by
        simp [hcol, Function.comp_def]
      have e2 : ([col n].flatten.map (·.2)) =
          ((List.range M.rows).filter fun r => |tol| < |M.get r n|).map fun r => M.get r n := by
        simp [hcol, Function.comp_def]
      rw [e1, e2] at h2
      have e3 : (ofCols ((List.range n).map col)).cp ++ [((ofCols ((List.range n).map col)).cx ++
          ((List.range M.rows).filter fun r => |tol| < |M.get r n|).map fun r => M.get r n).length] =
          (ofCols ((List.range n).map col ++ [col n])).cp := by
        show cps 0 _ ++ _ = cps 0 _
        rw [cps_append, cps_last]
        congr 2
        rw [List.length_append, List.length_map]
        simp only [ofCols, List.length_map, hcol]
      show CCS.mk _ _ _ = _
      rw [← h2.1, ← h2.2] at *
      rw [e3]
  refine ⟨⟨M.rows, M.cols, ofCols ((List.range M.cols).map col), m.diag⟩, ?_, ?_⟩
  · rw [CCM.fromDense]
    simp only
    rw [outer M.cols, if_neg]
    rw [check_ofCols M.rows M.cols _ m.diag (by simp)]
    simp
  · refine ⟨rfl, ?_, rfl, rfl⟩
    have key : ∀ (j : Nat) (l : List (Nat × K)), ((List.range M.cols).map col)[j]? = some l → l = col j := by
      intro j l h
      rw [List.getElem?_map, Option.map_eq_some_iff] at h
      obtain ⟨k, hk, rfl⟩ := h
      rw [List.getElem?_eq_some_iff] at hk
      obtain ⟨h1, h2⟩ := hk
      simp only [List.getElem_range] at h2
      rw [h2]
    refine ColsOf.lists ⟨by simp, ?_, ?_, ?_, ?_⟩
    · intro l hl
      obtain ⟨c, _, rfl⟩ := List.mem_map.1 hl
      rw [List.pairwise_map]
      exact List.Pairwise.sublist List.filter_sublist List.pairwise_lt_range
    · intro l hl p hp
      obtain ⟨c, _, rfl⟩ := List.mem_map.1 hl
      obtain ⟨r, hr, rfl⟩ := List.mem_map.1 hp
      exact List.mem_range.1 (List.mem_filter.1 hr).1
    · intro j l hl p hp
      rw [key j l hl] at hp
      obtain ⟨r, hr, rfl⟩ := List.mem_map.1 hp
      have := (List.mem_filter.1 hr).2
      exact (if_pos (by simpa using this)).symm
    · intro j l hl i hi hn
      rw [key j l hl] at hn
      apply if_neg
      intro hx
      apply hn
      rw [hcol, List.map_map]
      exact List.mem_map.2 ⟨i, List.mem_filter.2 ⟨List.mem_range.2 hi, by simpa using hx⟩, rfl⟩

/-! ## C28: push and pop -/

/-- After a push, any number of updates and a pop the object is exactly what it was. -/
theorem C28_push_updates_pop [Zero K] (m : CCM K) (M : Mat K) (h : Is m M) (hd : m.diag = false)
    (d : List K) (hl : d.length = m.rows) (us : List (List K)) (hu : ∀ u ∈ us, u.length = m.rows) :
    ((m.pushDiagonal d).bind fun m => (steps CCM.updateDiagonal m us).bind CCM.popDiagonal) = .ok m := by
  obtain ⟨L, hL, hc⟩ := h.lists.colsOf
  have hcl : m.cols = L.length := by rw [h.cols, hc.len]
  rw [push_eq m L hL hcl hd d hl]
  simp only [Out.bind]
  have : ∀ (d : List K), d.length = m.rows →
      (steps CCM.updateDiagonal ⟨m.rows, m.cols + m.rows, ofCols (L ++ dcols d), true⟩ us).bind
        CCM.popDiagonal = .ok m := by
    induction us with
    | nil =>
      intro d hl
      show CCM.popDiagonal _ = _
      rw [pop_eq ⟨m.rows, m.cols + m.rows, ofCols (L ++ dcols d), true⟩ L d rfl (by rw [hcl]) rfl hl,
        ← hL, ← hcl, ← hd]
    | cons u us ih =>
      intro d hl
      rw [steps, update_eq ⟨m.rows, m.cols + m.rows, ofCols (L ++ dcols d), true⟩ L d u rfl rfl hl
        (hu u (by simp))]
      exact ih (fun u' hu' => hu u' (by simp [hu'])) u (hu u (by simp))
  exact this d hl

/-- With a diagonal pushed the object means the matrix with that diagonal to the right. -/
theorem C28_push [Zero K] (m : CCM K) (M : Mat K) (h : Is m M) (hd : m.diag = false) (d : List K)
    (hl : d.length = M.rows) :
    ∃ m', m.pushDiagonal d = .ok m' ∧ Is m' (hcat M (diagMat d)) ∧ m'.diag = true := by
  obtain ⟨L, hL, hc⟩ := h.lists.colsOf
  refine ⟨_, push_eq m L hL (by rw [h.cols, hc.len]) hd d (hl.trans h.rows.symm), ⟨?_, h.rows, ?_⟩, rfl⟩
  · exact (hc.append (diag_colsOf d d.length rfl) hl.symm).lists
  · show m.cols + m.rows = M.cols + d.length
    rw [h.cols, hl, h.rows]

/-- Misuse raises: a second push, an update or pop without a push, a diagonal of the wrong size, and
appending Jacobians while a diagonal is there. -/
theorem C28_misuse [Zero K] (env : Env D K) (cb : D → Nat) (m : CCM K) :
    (m.diag = true → ∀ d, m.pushDiagonal d = .raise) ∧
    (m.diag = true → ∀ jc, m.appendJacobians env cb jc = .raise) ∧
    (m.diag = false → m.popDiagonal = .raise ∧ ∀ d, m.updateDiagonal d = .raise) ∧
    (∀ d, d.length ≠ m.rows → m.pushDiagonal d = .raise) := by
  refine ⟨fun h d => ?_, fun h jc => ?_, fun h => ⟨?_, fun d => ?_⟩, fun d hd => ?_⟩
  · rw [CCM.pushDiagonal]
    split
    · rfl
    · split
      · rfl
      · simp [h]
  · rw [CCM.appendJacobians, CCM.appendSymbolic, if_pos h]; rfl
  · rw [CCM.popDiagonal, if_pos h]
  · rw [CCM.updateDiagonal, if_pos h]
  · rw [CCM.pushDiagonal]
    split
    · rfl
    · simp [hd]

/-! ## C75: the builder assembles the transposed Jacobian of the problem -/

/-- When each error term fills its container with exactly its active design variables, then after the
structure has been set up and the values written, in whatever order the terms are evaluated and
whatever the object held before, the matrix is the transposed Jacobians of all terms side by side. -/
theorem C75_builder_partial [AddMonoid K] (env : Env D K) (cb : D → Nat) (m : CCM K) (rows : Nat)
    (hl : Layout env cb rows) (ts : List (List D × Container D K))
    (hts : ∀ t ∈ ts, t.2.map.map (·.1) = activeSorted env t.1 ∧ Ordered env t.2 ∧ Fits env t.2) :
    ∃ m0 ptrs, initMatrixStructure env cb m rows (ts.map fun t => (t.2.rows, t.1)) = .ok (m0, ptrs) ∧
      ptrs.length = ts.length ∧ ∀ order : List Nat, order.Perm (List.range ts.length) →
      ∃ m', writeAll m0 (order.filterMap fun i => ((ts.map (·.2)).zip ptrs)[i]?) = .ok m' ∧
        Is m' ((ts.map (·.2)).foldl (fun M jc => hcat M (jacT env cb rows jc)) (Mat.zero rows 0)) ∧
        m'.diag = false := by
  obtain ⟨m0, h1, h2, h3, h4, h5⟩ := initStructure_eq env cb (m.clear.init rows 0) [] rfl rfl rfl
    (ts.map fun t => (t.2.rows, t.1))
  refine ⟨m0, _, h1, by rw [ptrsOf_length]; simp, fun order hperm => ?_⟩
  have hblank : List.Forall₂ (Shape env cb) ts ((ts.map fun t => (t.2.rows, t.1)).map (blank (K := K) env cb)) := by
    clear h1 h3 h4 hperm
    induction ts with
    | nil => simp
    | cons t ts ih =>
      refine List.Forall₂.cons ⟨by simp [blank], fun l hl => ?_⟩ (ih fun t' ht' => hts t' (by simp [ht']))
      rw [List.eq_of_mem_replicate hl, (hts t (by simp)).1, List.map_map]
      simp [Function.comp_def]
  rw [List.nil_append] at h3 h4
  obtain ⟨B', g1, g2, g3⟩ := writeAll_eq env cb ts (fun t ht => ⟨(hts t ht).1, (hts t ht).2.2⟩) order
    (fun i hi => List.mem_range.1 (hperm.mem_iff.1 hi)) _ hblank m0 h3
  have hB' : B' = (ts.map (·.2)).map fun jc => (List.range jc.rows).map (newCol env cb jc) := by
    apply List.ext_getElem?
    intro i
    by_cases hi : i < ts.length
    · rw [g3 i ts[i] (List.getElem?_eq_getElem hi), if_pos (hperm.mem_iff.2 (List.mem_range.2 hi))]
      simp [hi]
    · rw [List.getElem?_eq_none (by rw [← g2.length_eq]; omega), List.getElem?_eq_none (by simp; omega)]
  refine ⟨_, g1, ⟨?_, ?_, ?_⟩, h5⟩
  · show (ofCols B'.flatten).Lists _
    rw [hB']
    have := stack_colsOf env cb rows hl (ts.map (·.2)) (fun jc hjc => by
      obtain ⟨t, ht, rfl⟩ := List.mem_map.1 hjc
      exact (hts t ht).2) [] (Mat.zero rows 0) rfl ⟨rfl, by simp, by simp, by simp, by simp⟩
    rw [List.nil_append] at this
    exact this.lists
  · show m0.rows = _
    rw [h2]
    have : ∀ (js : List (Container D K)) (M : Mat K),
        (js.foldl (fun M jc => hcat M (jacT env cb rows jc)) M).rows = M.rows := by
      intro js
      induction js with
      | nil => intro M; rfl
      | cons j js ih => intro M; rw [List.foldl_cons, ih]; rfl
    rw [this]; rfl
  · show m0.cols = _
    rw [h4]
    have : ∀ (js : List (Container D K)) (M : Mat K),
        (js.foldl (fun M jc => hcat M (jacT env cb rows jc)) M).cols = M.cols + (js.map (·.rows)).sum := by
      intro js
      induction js with
      | nil => intro M; rfl
      | cons j js ih =>
        intro M
        rw [List.foldl_cons, ih, List.map_cons, List.sum_cons]
        show M.cols + j.rows + _ = _
        omega
    rw [this, List.length_flatten, List.map_map, List.map_map, List.map_map]
    simp only [Mat.zero, Nat.zero_add]
    congr 1
    apply List.map_congr_left
    intro t _
    simp [blank]

/-! ## Counterexamples and concrete cases -/

/-- Two variables of dimension one and two, at coordinates 0 and 1. -/
def exEnv : Env Nat Int := ⟨fun d => d, fun d => d + 1, fun d => d ≤ 1, fun _ => 1⟩

def exCb : Nat → Nat := fun d => d

/-- A container with both variables and two rows. -/
def exJc : Container Nat Int := ⟨2, [(0, Mat.ofRows 2 1 [[1], [2]]), (1, Mat.ofRows 2 2 [[3, 4], [5, 6]])]⟩

theorem exLayout : Layout exEnv exCb 3 := by
  constructor
  · intro d d' h h' hlt
    simp only [exEnv, exCb, decide_eq_true_eq] at *
    omega
  · intro d h
    simp only [exEnv, exCb, decide_eq_true_eq] at *
    omega

theorem exOrdered : Ordered exEnv exJc := by simp [Ordered, exEnv, exJc]

theorem exFits : Fits exEnv exJc := by simp [Fits, exEnv, exJc, Mat.ofRows]

/-- The hypotheses of `C27_history` are met, and the operations go through. -/
example : (∃ m' a', steps (CCM.step exEnv exCb) (CCM.new 3 0)
      [.append exJc, .push [7, 8, 9], .update [1, 1, 1], .pop, .append exJc] = .ok m' ∧
      steps (Abs.step exEnv exCb) ⟨Mat.zero 3 0, none⟩
        [.append exJc, .push [7, 8, 9], .update [1, 1, 1], .pop, .append exJc] = .ok a' ∧ Agree m' a') := by
  rcases C27_history exEnv exCb (CCM.new 3 0) (Mat.zero 3 0) (C27_new 3 0).1 rfl exLayout
    [.append exJc, .push [7, 8, 9], .update [1, 1, 1], .pop, .append exJc] (by
      simp [Op.Good, exOrdered, exFits, Mat.zero]) with h | h
  · exact h
  · exact absurd h.2 (by simp [steps, Abs.step, Out.bind, Mat.zero, hcat])

/-- The dense meaning in a concrete case. -/
example : (jacT exEnv exCb 3 exJc).toRows = [[1, 2], [3, 5], [4, 6]] := by decide +kernel

example : ((CCM.new 3 0).appendJacobians exEnv exCb exJc).okAnd (fun m =>
    m.s.cp = [0, 3, 6] ∧ m.s.ci = [0, 1, 2, 0, 1, 2] ∧ m.s.cx = [1, 3, 4, 2, 5, 6]) := by decide +kernel

/-- The hypotheses of `C75_builder_partial` are met. -/
example : ∀ t ∈ [([1, 0, 5], exJc), ([0, 1], exJc)],
    t.2.map.map (·.1) = activeSorted exEnv t.1 ∧ Ordered exEnv t.2 ∧ Fits exEnv t.2 := by
  have e1 : activeSorted exEnv [1, 0, 5] = [0, 1] := by decide +kernel
  have e2 : activeSorted exEnv [0, 1] = [0, 1] := by decide +kernel
  intro t ht
  simp only [List.mem_cons, List.not_mem_nil, or_false] at ht
  rcases ht with rfl | rfl
  · exact ⟨e1.symm, exOrdered, exFits⟩
  · exact ⟨e2.symm, exOrdered, exFits⟩

/-- An error term whose container lacks one of its active variables: its values end in the rows of the
other variable.  Here the only derivative, 5 with respect to the variable at coordinate 1, is written to
row 0. -/
theorem C75_missing_variable_counterexample :
    let env : Env Nat Int := ⟨fun d => d, fun _ => 1, fun _ => true, fun _ => 1⟩
    let jc : Container Nat Int := ⟨1, [(1, Mat.ofRows 1 1 [[5]])]⟩
    (jacT env (fun d => d) 2 jc).toRows = [[0], [5]] ∧
    ((initMatrixStructure env (fun d => d) (CCM.new 0 0) 2 [(1, [0, 1])]).bind fun x =>
      (writeAll x.1 ([jc].zip x.2)).bind CCM.toDense).okAnd fun T => T.toRows = [[5], [0]] := by
  decide +kernel

/-- `clear` sizes the column pointers by the rows: afterwards access inside the matrix reads outside the
arrays, and appending to the cleared matrix raises. -/
theorem C27_clear_counterexample :
    (CCM.clear (CCM.new 1 3 : CCM Int)).cols = 3 ∧ (CCM.clear (CCM.new 1 3 : CCM Int)).rows = 1 ∧
    (CCM.clear (CCM.new 1 3 : CCM Int)).value 0 2 = .ub ∧
    (CCM.clear (CCM.new 1 3 : CCM Int)).appendJacobians exEnv exCb ⟨1, []⟩ = .raise := by
  refine ⟨rfl, rfl, rfl, rfl⟩

/-- Taking over a dense matrix while a diagonal is pushed leaves the flag set: pop then removes columns
of the new matrix. -/
theorem C27_fromDense_counterexample :
    ((CCM.new 1 0 : CCM Int).pushDiagonal [9]).okAnd fun m =>
      (m.fromDense (Mat.ofRows 1 2 [[3, 4]]) 0).okAnd fun m => m.diag = true ∧
        (m.popDiagonal.bind CCM.toDense).okAnd fun T => T.toRows = [[3]] := by
  decide +kernel

/-- Initialising an object that has been used keeps its old entries: it then fails its own check. -/
theorem C27_init_counterexample :
    ((CCM.new 3 0).appendJacobians exEnv exCb exJc).okAnd fun m =>
      !(m.init 3 0).check && (match (m.init 3 0).appendJacobians exEnv exCb exJc with
        | .raise => true
        | _ => false) := by
  decide +kernel

end Kalibr.CCM
