import Verif.Solvers.Lemmas

/-!
# C144: the linear system solvers compute the damped Gauss-Newton step
-/

namespace Kalibr.Solvers

open Jacobian CCM CCS

variable {D : Type}

/-- The structure of the matrix given to the library. -/
def patternOf (env : Env D ℝ) (cb : D → ℕ) (rows : ℕ) (es : List (ℕ × List D)) (keep : Bool) : ℕ × ℕ × List ℕ × List ℕ :=
  let K := (es.flatMap fun e => List.replicate e.1 (pat env cb (activeSorted env e.2))) ++
    if keep then (List.range rows).map fun i => [i] else []
  (rows, K.length, cps 0 K, K.flatten)

theorem pattern_cols (rows : ℕ) (L : List (List (ℕ × ℝ))) (d : Bool) :
    pattern ⟨rows, L.length, ofCols L, d⟩ = (rows, (keys L).length, cps 0 (keys L), (keys L).flatten) := by
  unfold pattern
  simp only [keys_length, Prod.mk.injEq, true_and]
  refine ⟨cps_keys 0 L, ?_⟩
  show L.flatten.map (·.1) = _
  rw [List.map_flatten]
  rfl

theorem keys_dcols (d : List ℝ) : keys (dcols d) = (List.range d.length).map fun i => [i] := by
  unfold keys dcols
  rw [List.map_map]
  rfl

/-- What holds of the object throughout. -/
structure Inv (env : Env D ℝ) (cb : D → ℕ) (rows : ℕ) (es : List (ℕ × List D)) (keep : Bool) (s : Sparse) (a : Now D) : Prop where
  mat : ∃ B, List.Forall₂ (ShapeE env cb) es B ∧ s.Jt = ⟨rows, B.flatten.length, ofCols B.flatten, false⟩
  ptrs : s.ptrs = ptrsOf ℝ env cb 0 es
  e : s.e = a.e
  elen : a.e.length = (es.map (·.1)).sum
  useDiag : s.useDiag = keep
  cond : s.cond = a.cond
  clen : a.cond.length = rows
  factor : ∀ f, s.factor = some f → f = patternOf env cb rows es keep
  built : ∀ js e, a.built = some (js, e) → Matches env es js ∧ Is s.Jt (stackT env cb rows js) ∧
    ∀ i < rows, s.rhs i = ∑ k ∈ Finset.range (stackT env cb rows js).cols, (stackT env cb rows js).get i k * e.getD k 0

theorem inv_init (env : Env D ℝ) (cb : D → ℕ) (old : CCM ℝ) (rows : ℕ) (es : List (ℕ × List D)) (keep : Bool) (junk : List ℝ) (junkRhs : ℕ → ℝ)
    (hj : junk.length = (es.map (·.1)).sum) :
    ∃ s, Sparse.init env cb old rows es keep junk junkRhs = .ok s ∧ Inv env cb rows es keep s ⟨junk, none, List.replicate rows 0⟩ := by
  obtain ⟨m0, h1, h2, h3, h4, h5⟩ := initStructure_eq env cb (old.clear.init rows 0) [] rfl rfl rfl es
  have hblank : List.Forall₂ (ShapeE env cb) es (es.map (blank (K := ℝ) env cb)) := by
    clear h1 h3 h4 hj
    induction es with
    | nil => simp
    | cons t ts ih =>
      refine List.Forall₂.cons ⟨by simp [blank], fun l hl => ?_⟩ ih
      rw [List.eq_of_mem_replicate hl, List.map_map]
      simp [Function.comp_def]
  rw [List.nil_append] at h3 h4
  have hm : m0 = ⟨rows, (es.map (blank (K := ℝ) env cb)).flatten.length, ofCols (es.map (blank (K := ℝ) env cb)).flatten, false⟩ := by
    obtain ⟨a, b, c, d⟩ := m0
    simp only at h2 h3 h4 h5
    rw [h2, h3, h4, h5]
    rfl
  refine ⟨⟨m0, ptrsOf ℝ env cb 0 es, junk, junkRhs, keep, List.replicate rows 0, none⟩, ?_, ⟨_, hblank, hm⟩, rfl, rfl, hj, rfl, rfl, by simp,
    by simp, by simp⟩
  unfold Sparse.init
  have : initMatrixStructure env cb old rows es = .ok (m0, ptrsOf ℝ env cb 0 es) := h1
  rw [this, Out.ok_bind]
  simp only
  cases keep with
  | false => rfl
  | true =>
    rw [if_pos rfl]
    have hp : (m0.pushConstantDiagonal 1).bind CCM.popDiagonal = .ok m0 := by
      unfold CCM.pushConstantDiagonal
      rw [push_eq m0 _ h3 h4 h5 _ (by simp)]
      show CCM.popDiagonal _ = _
      rw [pop_eq ⟨m0.rows, m0.cols + m0.rows, ofCols ((es.map (blank (K := ℝ) env cb)).flatten ++ dcols (List.replicate m0.rows 1)), true⟩
        (es.map (blank (K := ℝ) env cb)).flatten (List.replicate m0.rows 1) rfl (by rw [h4]) rfl (by simp)]
      rw [← h3, ← h4, ← h5]
    rw [hp]
    rfl

/-- What a call of `solveSystem` does, whatever has been built. -/
theorem cholesky_call (lib : Cholmod) (hlib : lib.Right) {env : Env D ℝ} {cb : D → ℕ} {rows : ℕ} {es : List (ℕ × List D)} {keep : Bool} {s : Sparse}
    {a : Now D} (h : Inv env cb rows es keep s a) :
    ∃ A, s.solveCholesky lib = .ok ({ s with factor := some (patternOf env cb rows es keep) }, lib.solve A s.rhs) ∧
      ∀ M, Is s.Jt M → Is A (if keep then hcat M (diagMat a.cond) else M) := by
  obtain ⟨B, hB, hJ⟩ := h.mat
  have hfac : ∀ A : CCM ℝ, ensureFactor (lib.analyzes A) (patternOf env cb rows es keep) s.factor = .ok (patternOf env cb rows es keep) := by
    intro A
    cases hf : s.factor with
    | none =>
      show (if lib.analyzes A = true then _ else _) = _
      rw [if_pos (hlib.analyzes A)]
    | some f => rw [h.factor f hf]; rfl
  unfold Sparse.solveCholesky
  rw [h.useDiag]
  cases keep with
  | false =>
    have hpat : pattern s.Jt = patternOf env cb rows es false := by
      rw [hJ, pattern_cols, shapes_keys hB]
      unfold patternOf
      simp
    refine ⟨s.Jt, ?_, fun M hM => hM⟩
    simp only [Bool.false_eq_true, if_false, Out.ok_bind, hfac, hpat, if_true]
    rfl
  | true =>
    have hlen : s.cond.length = rows := by rw [h.cond, h.clen]
    have hpush : s.Jt.pushDiagonal s.cond = .ok ⟨rows, B.flatten.length + rows, ofCols (B.flatten ++ dcols s.cond), true⟩ := by
      rw [push_eq s.Jt B.flatten (by rw [hJ]) (by rw [hJ]) (by rw [hJ]) s.cond (by rw [hJ]; exact hlen), hJ]
    have hl : B.flatten.length + rows = (B.flatten ++ dcols s.cond).length := by
      rw [List.length_append]
      simp [hlen]
    have hpat : pattern ⟨rows, B.flatten.length + rows, ofCols (B.flatten ++ dcols s.cond), true⟩ = patternOf env cb rows es true := by
      rw [hl, pattern_cols]
      have : keys (B.flatten ++ dcols s.cond) = keys B.flatten ++ (List.range rows).map fun i => [i] := by
        have := keys_dcols s.cond
        rw [hlen] at this
        rw [← this]
        exact List.map_append
      rw [this, shapes_keys hB]
      rfl
    refine ⟨⟨rows, B.flatten.length + rows, ofCols (B.flatten ++ dcols s.cond), true⟩, ?_, ?_⟩
    · have hpop : CCM.popDiagonal ⟨rows, B.flatten.length + rows, ofCols (B.flatten ++ dcols s.cond), true⟩ = .ok s.Jt := by
        rw [pop_eq ⟨rows, B.flatten.length + rows, ofCols (B.flatten ++ dcols s.cond), true⟩ B.flatten s.cond rfl rfl rfl hlen, hJ]
      simp only [if_true, hpush, Out.ok_bind, hfac, hpat, hpop]
      rfl
    · intro M hM
      obtain ⟨m', g1, g2, -⟩ := C28_push s.Jt M hM (by rw [hJ]) s.cond (by rw [hlen, ← hM.rows, hJ])
      rw [hpush] at g1
      injection g1 with g1
      rw [← g1, h.cond] at g2
      rw [h.cond]
      exact g2

theorem solvesAt_true (rows : ℕ) (a : Now D) (ops : List (Op D)) : SolvesAt rows (fun _ => True) a ops := by
  induction ops generalizing a with
  | nil => trivial
  | cons o os ih => exact ⟨fun _ => trivial, ih _⟩

/-- A solver that at most makes the factor. -/
def Keeps (env : Env D ℝ) (cb : D → ℕ) (rows : ℕ) (es : List (ℕ × List D)) (keep : Bool) (P : Now D → Prop)
    (solve : Sparse → Out (Sparse × Option (ℕ → ℝ))) : Prop :=
  ∀ s a, Inv env cb rows es keep s a → P a → ∃ r, solve s = .ok ({ s with factor := some (patternOf env cb rows es keep) }, r)

theorem inv_step {env : Env D ℝ} {cb : D → ℕ} {rows : ℕ} (hl : Layout env cb rows) {es : List (ℕ × List D)} {keep : Bool}
    {P : Now D → Prop} {solve : Sparse → Out (Sparse × Option (ℕ → ℝ))} (hs : Keeps env cb rows es keep P solve) {s : Sparse} {a : Now D} (h : Inv env cb rows es keep s a) (o : Op D) (ho : o.Good env rows es) (hP : o = .solve → P a) :
    ∃ s', s.step solve o = .ok s' ∧ Inv env cb rows es keep s' (a.step rows o) := by
  obtain ⟨B, hB, hJ⟩ := h.mat
  cases o with
  | evaluate e => exact ⟨_, rfl, h.mat, h.ptrs, rfl, ho, h.useDiag, h.cond, h.clen, h.factor, h.built⟩
  | setConditioner d =>
    refine ⟨{ s with cond := d }, ?_, h.mat, h.ptrs, h.e, h.elen, h.useDiag, rfl, ho, h.factor, h.built⟩
    show (if d.length = s.Jt.rows then _ else _) = _
    rw [if_pos (by rw [hJ]; exact ho)]
  | setConstant x =>
    refine ⟨_, rfl, h.mat, h.ptrs, h.e, h.elen, h.useDiag, ?_, by simp [Now.step], h.factor, h.built⟩
    show List.replicate s.Jt.rows x = List.replicate rows x
    rw [hJ]
  | solve =>
    obtain ⟨r, hA⟩ := hs s a h (hP rfl)
    refine ⟨{ s with factor := some (patternOf env cb rows es keep) }, ?_, h.mat, h.ptrs, h.e, h.elen, h.useDiag, h.cond, h.clen, ?_, h.built⟩
    · show (solve s).bind _ = _
      rw [hA]
      rfl
    · intro f hf
      injection hf with hf
      exact hf.symm
  | build order js =>
    obtain ⟨ho1, ho2⟩ := ho
    obtain ⟨B', g1, g2, g3⟩ := rebuild env cb rows hl es B hB order ho1 js ho2
    have hag : Agree (⟨rows, B'.flatten.length, ofCols B'.flatten, false⟩ : CCM ℝ) ⟨stackT env cb rows js, none⟩ :=
      ⟨g3, by rw [(stackT_cols env cb rows js).2], rfl, by simp⟩
    obtain ⟨y, hy1, hy2⟩ := (C27_products _ _ hag s.e).1 (by
      show s.e.length = (stackT env cb rows js).cols
      rw [(stackT_cols env cb rows js).1, matches_rows ho2, h.e, h.elen])
    refine ⟨{ s with Jt := ⟨rows, B'.flatten.length, ofCols B'.flatten, false⟩, rhs := y }, ?_, ⟨B', g1, rfl⟩, h.ptrs, h.e, h.elen, h.useDiag, h.cond, h.clen,
      h.factor, ?_⟩
    · show s.build order js = _
      unfold Sparse.build
      rw [h.ptrs, hJ, g2, Out.ok_bind, hy1, Out.ok_bind]
      rfl
    · intro js' e' hb
      simp only [Now.step, Option.some.injEq, Prod.mk.injEq] at hb
      obtain ⟨rfl, rfl⟩ := hb
      refine ⟨ho2, g3, ?_⟩
      intro i hi
      rw [← h.e]
      exact hy2 i (by rw [(stackT_cols env cb rows js).2]; exact hi)

theorem inv_steps {env : Env D ℝ} {cb : D → ℕ} {rows : ℕ} (hl : Layout env cb rows) {es : List (ℕ × List D)} {keep : Bool}
    {P : Now D → Prop} {solve : Sparse → Out (Sparse × Option (ℕ → ℝ))} (hs : Keeps env cb rows es keep P solve) (ops : List (Op D)) (hops : ∀ o ∈ ops, o.Good env rows es) {s : Sparse} {a : Now D} (h : Inv env cb rows es keep s a)
    (hP : SolvesAt rows P a ops) : ∃ s', steps (Sparse.step solve) s ops = .ok s' ∧ Inv env cb rows es keep s' (ops.foldl (Now.step rows) a) := by
  induction ops generalizing s a with
  | nil => exact ⟨s, rfl, h⟩
  | cons o ops ih =>
    obtain ⟨s1, h1, h2⟩ := inv_step hl hs h o (hops o (List.mem_cons_self ..)) hP.1
    obtain ⟨s2, h3, h4⟩ := ih (fun o' ho' => hops o' (List.mem_cons_of_mem _ ho')) h2 hP.2
    refine ⟨s2, ?_, h4⟩
    rw [steps, h1]
    exact h3

/-- The normal equations of the matrix given to CHOLMOD are those of the damped problem. -/
theorem damped_min (M : Mat ℝ) (e : List ℝ) (keep : Bool) (c : List ℝ) (hc : c.length = M.rows) (x : ℕ → ℝ)
    (h : ∀ i < M.rows, ∑ k ∈ Finset.range (if keep then hcat M (diagMat c) else M).cols, (if keep then hcat M (diagMat c) else M).get i k *
      ∑ j ∈ Finset.range M.rows, (if keep then hcat M (diagMat c) else M).get j k * x j = ∑ k ∈ Finset.range M.cols, M.get i k * e.getD k 0) (y : ℕ → ℝ) :
    damped M.transpose (fun k => e.getD k 0) (fun i => if keep then c.getD i 0 else 0) x ≤
      damped M.transpose (fun k => e.getD k 0) (fun i => if keep then c.getD i 0 else 0) y := by
  cases keep with
  | false =>
    simp only [Bool.false_eq_true, if_false] at h ⊢
    have hd : ∀ z, damped M.transpose (fun k => e.getD k 0) (fun _ => 0) z = sq M.transpose (fun k => e.getD k 0) z := by
      intro z
      unfold damped
      simp
    rw [hd, hd]
    apply sq_min
    intro i hi
    have := h i hi
    show ∑ k ∈ Finset.range M.cols, M.get i k * (∑ j ∈ Finset.range M.rows, M.get j k * x j - e.getD k 0) = 0
    rw [Finset.sum_congr rfl fun k _ => mul_sub _ _ _, Finset.sum_sub_distrib, this, sub_self]
  | true =>
    simp only [if_true] at h ⊢
    rw [← sq_vcat, ← sq_vcat, ← sq_same (hcat_transpose M c hc), ← sq_same (hcat_transpose M c hc)]
    apply sq_min
    intro i hi
    have hi' : i < M.rows := hi
    have := h i hi'
    show ∑ k ∈ Finset.range (hcat M (diagMat c)).cols, (hcat M (diagMat c)).get i k *
      (∑ j ∈ Finset.range M.rows, (hcat M (diagMat c)).get j k * x j - padded M.cols (fun k => e.getD k 0) k) = 0
    rw [Finset.sum_congr rfl fun k _ => mul_sub _ _ _, Finset.sum_sub_distrib, this, sub_eq_zero]
    show _ = ∑ k ∈ Finset.range (M.cols + c.length), _
    rw [Finset.sum_range_add]
    have h2 : ∑ k ∈ Finset.range c.length, (hcat M (diagMat c)).get i (M.cols + k) * padded M.cols (fun k => e.getD k 0) (M.cols + k) = 0 := by
      apply Finset.sum_eq_zero
      intro k _
      unfold padded
      rw [if_neg (by omega), mul_zero]
    rw [h2, add_zero]
    apply Finset.sum_congr rfl
    intro k hk
    unfold padded
    show _ = (if k < M.cols then M.get i k else _) * _
    rw [if_pos (Finset.mem_range.1 hk), if_pos (Finset.mem_range.1 hk)]

theorem determined_rank (M : Mat ℝ) (keep : Bool) (c : List ℝ) (hc : c.length = M.rows)
    (h : Determined M.transpose fun i => if keep then c.getD i 0 else 0) (x : ℕ → ℝ)
    (hx : ∀ k < (if keep then hcat M (diagMat c) else M).cols, ∑ j ∈ Finset.range M.rows, (if keep then hcat M (diagMat c) else M).get j k * x j = 0) :
    ∀ i < M.rows, x i = 0 := by
  apply h
  cases keep with
  | false =>
    simp only [Bool.false_eq_true, if_false] at hx ⊢
    unfold damped sq
    have h1 : ∑ k ∈ Finset.range M.transpose.rows, (∑ i ∈ Finset.range M.transpose.cols, M.transpose.get k i * x i - 0) ^ 2 = 0 := by
      apply Finset.sum_eq_zero
      intro k hk
      have := hx k (Finset.mem_range.1 hk)
      show (∑ i ∈ Finset.range M.rows, M.get i k * x i - 0) ^ 2 = 0
      rw [this]
      norm_num
    rw [h1]
    simp
  | true =>
    simp only [if_true] at hx ⊢
    rw [← sq_vcat, ← sq_same (hcat_transpose M c hc)]
    unfold sq
    apply Finset.sum_eq_zero
    intro k hk
    have := hx k (Finset.mem_range.1 hk)
    have hp : padded M.transpose.rows (fun _ => (0 : ℝ)) k = 0 := by
      unfold padded
      simp
    rw [hp]
    show (∑ i ∈ Finset.range M.rows, (hcat M (diagMat c)).get i k * x i - 0) ^ 2 = 0
    rw [this]
    norm_num

/-- **C144, sparse Cholesky.** Whatever is called after the initialisation, in whatever order (error evaluations in between included), a call of the solver
afterwards returns normally. If a system has been built, a step it returns makes `‖J x - e‖² + ‖c x‖²` least, for the Jacobian and error of the last
building of the system and the conditioner set last; and it returns one if the step is determined. -/
theorem C144_sparse_cholesky (lib : Cholmod) (hlib : lib.Right) (env : Env D ℝ) (cb : D → ℕ) (rows : ℕ) (hl : Layout env cb rows) (es : List (ℕ × List D))
    (keep : Bool) (old : CCM ℝ) (junk : List ℝ) (junkRhs : ℕ → ℝ) (hj : junk.length = (es.map (·.1)).sum) (ops : List (Op D))
    (hops : ∀ o ∈ ops, o.Good env rows es) :
    ∃ s s' r, ((Sparse.init env cb old rows es keep junk junkRhs).bind fun s => steps (Sparse.step (Sparse.solveCholesky lib)) s ops) = .ok s ∧
      s.solveCholesky lib = .ok (s', r) ∧ s'.Jt = s.Jt ∧
      ∀ js e, (ops.foldl (Now.step rows) ⟨junk, none, List.replicate rows 0⟩).built = some (js, e) →
        ∀ c : ℕ → ℝ, c = (fun i => if keep then (ops.foldl (Now.step rows) ⟨junk, none, List.replicate rows 0⟩).cond.getD i 0 else 0) →
        (∀ x, r = some x → ∀ y, damped (stackT env cb rows js).transpose (fun k => e.getD k 0) c x ≤
          damped (stackT env cb rows js).transpose (fun k => e.getD k 0) c y) ∧
        (Determined (stackT env cb rows js).transpose c → r ≠ none) := by
  obtain ⟨s0, h0, hi0⟩ := inv_init env cb old rows es keep junk junkRhs hj
  obtain ⟨s, h1, hi⟩ := inv_steps hl (P := fun _ => True) (fun s a h _ => ⟨_, (cholesky_call lib hlib h).choose_spec.1⟩) ops hops hi0 (solvesAt_true rows _ ops)
  obtain ⟨A, hA, hM⟩ := cholesky_call lib hlib hi
  refine ⟨s, _, _, ?_, hA, rfl, ?_⟩
  · rw [h0]
    exact h1
  · intro js e hb c hc
    obtain ⟨b1, b2, b3⟩ := hi.built js e hb
    have hA2 := hM _ b2
    obtain ⟨M, hMM⟩ : ∃ M, M = stackT env cb rows js := ⟨_, rfl⟩
    rw [← hMM] at hA2 b3 ⊢
    have hMr : M.rows = rows := by rw [hMM]; exact (stackT_cols env cb rows js).2
    have hlen : (ops.foldl (Now.step rows) ⟨junk, none, List.replicate rows 0⟩).cond.length = M.rows := by rw [hi.clen, hMr]
    have hrows : (if keep then hcat M (diagMat (ops.foldl (Now.step rows) ⟨junk, none, List.replicate rows 0⟩).cond) else M).rows = M.rows := by
      cases keep <;> rfl
    rw [hc]
    constructor
    · intro x hx
      apply damped_min M e keep _ hlen x
      intro i hi'
      have := hlib.solves A _ s.rhs x hA2 hx i (by rw [hrows]; exact hi')
      rw [hrows] at this
      rw [this, b3 i (by rw [← hMr]; exact hi')]
    · intro hdet
      apply hlib.total A _ s.rhs hA2
      intro x hx
      rw [hrows] at hx ⊢
      exact determined_rank M keep _ hlen hdet x hx

end Kalibr.Solvers
