import Verif.Solvers.Props

/-!
# C144: the solvers by orthogonal factorisation
-/

namespace Kalibr.Solvers

open Jacobian CCM CCS

variable {D : Type}

/-! ## Sparse -/

/-- Column `i` is left out by the normalisation of the columns. -/
def Dropped (o : QrOptions) (A : Mat ℝ) (i : ℕ) : Prop :=
  o.colNorm = true ∧ ∑ k ∈ Finset.range A.rows, A.get k i ^ 2 < o.normTol ^ 2

theorem norm_lt (A : Mat ℝ) (i : ℕ) (t : ℝ) (ht : 0 < t) : colNorm A i < t ↔ ∑ k ∈ Finset.range A.rows, A.get k i ^ 2 < t ^ 2 := by
  unfold colNorm
  rw [Real.sqrt_lt' ht, Finset.sum_congr rfl fun k _ => (pow_two (A.get k i)).symm]

theorem sq_scale (A : Mat ℝ) (s b x : ℕ → ℝ) : sq (scaleCols A s) b x = sq A b fun i => s i * x i := by
  unfold sq scaleCols
  simp only [mul_assoc]

theorem qr_call (lib : Qr) (o : QrOptions) (hlib : lib.Right o.qrTol) (ho : o.colNorm = true → 0 < o.normTol) (A : Mat ℝ) (b : ℕ → ℝ) (r : Option (ℕ → ℝ))
    (h : qrSolve lib o A b = .ok r) (x : ℕ → ℝ) (hx : r = some x) :
    (∀ i, Dropped o A i → x i = 0) ∧ ∀ y : ℕ → ℝ, (∀ i < A.cols, Dropped o A i → y i = 0) → sq A b x ≤ sq A b y := by
  unfold qrSolve at h
  by_cases hc : o.colNorm = true
  · rw [if_pos hc] at h
    cases hs : lib.solve o.qrTol (scaleCols A (scaling o.normTol A)) b with
    | none => rw [hs] at h; exact absurd h (by simp)
    | some y0 =>
      rw [hs] at h
      simp only [Out.ok.injEq] at h
      rw [hx, Option.some.injEq] at h
      subst h
      constructor
      · intro i hi
        simp only [scaling]
        rw [if_pos ((norm_lt A i _ (ho hc)).2 hi.2), zero_mul]
      · intro y hy
        have h1 := hlib.solves _ _ _ hs fun i => colNorm A i * y i
        rw [sq_scale, sq_scale] at h1
        refine le_trans h1 (le_of_eq ?_)
        unfold sq
        apply Finset.sum_congr rfl
        intro k _
        congr 2
        apply Finset.sum_congr rfl
        intro i hi
        congr 1
        show scaling o.normTol A i * (colNorm A i * y i) = y i
        unfold scaling
        by_cases hd : colNorm A i < o.normTol
        · rw [if_pos hd, zero_mul, hy i (Finset.mem_range.1 hi) ⟨hc, (norm_lt A i _ (ho hc)).1 hd⟩]
        · rw [if_neg hd]
          have : 0 < colNorm A i := lt_of_lt_of_le (ho hc) (not_lt.1 hd)
          field_simp
  · rw [if_neg hc, Out.ok.injEq] at h
    refine ⟨fun i hi => absurd hi.1 hc, fun y _ => ?_⟩
    exact hlib.solves A b x (by rw [h, hx]) y

theorem qr_keeps (lib : Qr) (o : QrOptions) (hlib : lib.Right o.qrTol) (hf : o.colNorm = true → ∀ A b, lib.solve o.qrTol A b ≠ none) {env : Env D ℝ} {cb : D → ℕ}
    {rows : ℕ} {es : List (ℕ × List D)} {s : Sparse} {a : Now D} (h : Inv env cb rows es false s a) (hb : a.built ≠ none) :
    ∃ r, s.solveQr lib o = .ok ({ s with factor := some (patternOf env cb rows es false) }, r) ∧
      ∀ M, Is s.Jt M → ∃ T : Mat ℝ, T.Same M ∧ qrSolve lib o T.transpose (fun k => a.e.getD k 0) = .ok r := by
  obtain ⟨B, hB, hJ⟩ := h.mat
  have hpat : pattern s.Jt = patternOf env cb rows es false := by
    rw [hJ, pattern_cols, shapes_keys hB]
    unfold patternOf
    simp
  have hfac : ensureFactor (lib.analyzes s.Jt) (patternOf env cb rows es false) s.factor = .ok (patternOf env cb rows es false) := by
    cases hf : s.factor with
    | none =>
      show (if lib.analyzes s.Jt = true then _ else _) = _
      rw [if_pos (hlib.analyzes _)]
    | some f => rw [h.factor f hf]; rfl
  have hqr : ∀ A b, ∃ r, qrSolve lib o A b = .ok r := by
    intro A b
    unfold qrSolve
    by_cases hc : o.colNorm = true
    · rw [if_pos hc]
      cases hs : lib.solve o.qrTol (scaleCols A (scaling o.normTol A)) b with
      | none => exact absurd hs (hf hc _ _)
      | some y0 => exact ⟨_, rfl⟩
    · rw [if_neg hc]
      exact ⟨_, rfl⟩
  have hd : ∃ T, s.Jt.toDense = .ok T := by
    cases hbb : a.built with
    | none => exact absurd hbb hb
    | some p => exact ⟨_, (C27_toDense s.Jt _ (h.built p.1 p.2 hbb).2.1).choose_spec.1⟩
  obtain ⟨T, hT⟩ := hd
  obtain ⟨r, hr⟩ := hqr T.transpose fun k => s.e.getD k 0
  refine ⟨r, ?_, ?_⟩
  · unfold Sparse.solveQr
    simp only [hpat, hfac, Out.ok_bind, hT, hr, ne_eq, not_true_eq_false, if_false]
    rfl
  · intro M hM
    obtain ⟨T', h1, h2⟩ := C27_toDense s.Jt M hM
    rw [hT] at h1
    injection h1 with h1
    refine ⟨T, h1 ▸ h2, ?_⟩
    rw [← h.e]
    exact hr

theorem transpose_same {A B : Mat ℝ} (h : A.Same B) : A.transpose.Same B.transpose :=
  ⟨h.2.1, h.1, fun i j hi hj => h.2.2 j i hj hi⟩

theorem dropped_same {A B : Mat ℝ} (h : A.Same B) (o : QrOptions) (i : ℕ) (hi : i < A.cols) : Dropped o A i ↔ Dropped o B i := by
  unfold Dropped
  rw [← h.1]
  rw [Finset.sum_congr rfl fun k hk => by rw [h.2.2 k i (Finset.mem_range.1 hk) hi]]

/-- **C144, sparse QR, partial.** After the initialisation, whatever is called (the solver only once a system has been built; with normalised columns the
library must not fail), a call of the solver returns normally. A step it returns makes `‖J x - e‖²` least for the Jacobian of the system built last and the
errors evaluated last, of those that are zero in the columns the normalisation leaves out; in these it is zero. Missing: the conditioner has no effect
(`C144_undamped_counterexample`), an evaluation of the errors in between changes the step (`C144_stale_error_counterexample`), and a failure of the library with
normalised columns is a write through a null pointer (`C144_null_counterexample`). -/
theorem C144_sparse_qr_partial (lib : Qr) (o : QrOptions) (hlib : lib.Right o.qrTol) (ho : o.colNorm = true → 0 < o.normTol)
    (hf : o.colNorm = true → ∀ A b, lib.solve o.qrTol A b ≠ none) (env : Env D ℝ) (cb : D → ℕ) (rows : ℕ) (hl : Layout env cb rows) (es : List (ℕ × List D))
    (keep : Bool) (old : CCM ℝ) (junk : List ℝ) (junkRhs : ℕ → ℝ) (hj : junk.length = (es.map (·.1)).sum) (ops : List (Op D))
    (hops : ∀ o ∈ ops, o.Good env rows es) (hsolve : SolvesAt rows (fun a => a.built ≠ none) ⟨junk, none, List.replicate rows 0⟩ ops) (js : List (Container D ℝ))
    (e : List ℝ) (hb : (ops.foldl (Now.step rows) ⟨junk, none, List.replicate rows 0⟩).built = some (js, e)) :
    ∃ s s' r, ((Sparse.initQr env cb old rows es keep junk junkRhs).bind fun s => steps (Sparse.step (Sparse.solveQr lib o)) s ops) = .ok s ∧
      s.solveQr lib o = .ok (s', r) ∧ s'.Jt = s.Jt ∧
      (∀ J : Mat ℝ, J = (stackT env cb rows js).transpose → ∀ x, r = some x →
        (∀ i < J.cols, Dropped o J i → x i = 0) ∧
        ∀ y : ℕ → ℝ, (∀ i < J.cols, Dropped o J i → y i = 0) →
          sq J (fun k => (ops.foldl (Now.step rows) ⟨junk, none, List.replicate rows 0⟩).e.getD k 0) x ≤
          sq J (fun k => (ops.foldl (Now.step rows) ⟨junk, none, List.replicate rows 0⟩).e.getD k 0) y) ∧
      (o.colNorm = false → Determined (stackT env cb rows js).transpose (fun _ => 0) → r ≠ none) := by
  obtain ⟨s0, h0, hi0⟩ := inv_init env cb old rows es false junk junkRhs hj
  obtain ⟨s, h1, hi⟩ := inv_steps hl (P := fun a => a.built ≠ none) (fun s a h h2 => ⟨_, (qr_keeps lib o hlib hf h h2).choose_spec.1⟩) ops hops hi0 hsolve
  obtain ⟨r, hr, hT⟩ := qr_keeps lib o hlib hf hi (by rw [hb]; simp)
  obtain ⟨b1, b2, b3⟩ := hi.built js e hb
  obtain ⟨T, hT1, hT2⟩ := hT _ b2
  have hTt := transpose_same hT1
  refine ⟨s, _, r, ?_, hr, rfl, ?_, ?_⟩
  · show (Sparse.init env cb old rows es false junk junkRhs).bind _ = _
    rw [h0]
    exact h1
  · intro J hJ x hx
    subst hJ
    obtain ⟨c1, c2⟩ := qr_call lib o hlib ho _ _ r hT2 x hx
    have hc : T.transpose.cols = (stackT env cb rows js).transpose.cols := hTt.2.1
    refine ⟨fun i hi' hd => c1 i ((dropped_same hTt o i (by rw [hc]; exact hi')).2 hd), fun y hy => ?_⟩
    rw [← sq_same hTt, ← sq_same hTt]
    exact c2 y fun i hi' hd => hy i (by rw [← hc]; exact hi') ((dropped_same hTt o i hi').1 hd)
  · intro hcn hdet hrn
    rw [hrn] at hT2
    unfold qrSolve at hT2
    rw [if_neg (by simp [hcn]), Out.ok.injEq] at hT2
    refine hlib.total _ _ ?_ hT2
    intro x hx i hi'
    refine hdet x ?_ i (by rw [← hTt.2.1]; exact hi')
    unfold damped
    rw [← sq_same hTt]
    unfold sq
    rw [Finset.sum_eq_zero]
    · simp
    · intro k hk
      rw [hx k (Finset.mem_range.1 hk)]
      norm_num

/-! ## Dense -/

/-- What is expected of `Eigen::ColPivHouseholderQR`. -/
def QrMin (qr : Mat ℝ → (ℕ → ℝ) → (ℕ → ℝ)) : Prop := ∀ A b y, sq A b (qr A b) ≤ sq A b y

/-- **C144, dense QR, partial.** Where the flag for the conditioner has a value, the step makes `‖J x - e‖² + ‖c x‖²` least. Missing: it never gets one
(`C144_dense_counterexample`). -/
theorem C144_dense_qr_partial (qr : Mat ℝ → (ℕ → ℝ) → (ℕ → ℝ)) (hqr : QrMin qr) (s : Dense) (keep : Bool) (hk : s.useDiag = some keep) :
    ∃ x, s.solve qr = .ok (s, x) ∧ ∀ y, damped s.J s.e (fun i => if keep then s.cond i else 0) x ≤ damped s.J s.e (fun i => if keep then s.cond i else 0) y := by
  unfold Dense.solve
  rw [hk]
  cases keep with
  | false =>
    refine ⟨_, rfl, fun y => ?_⟩
    simp only [Bool.false_eq_true, if_false]
    unfold damped
    simpa using hqr s.J s.e y
  | true =>
    refine ⟨_, rfl, fun y => ?_⟩
    simp only [if_true]
    rw [← sq_vcat, ← sq_vcat]
    exact hqr _ _ y

/-- The flag has no value after construction and initialisation, whatever was asked for. -/
theorem C144_dense_counterexample (qr : Mat ℝ → (ℕ → ℝ) → (ℕ → ℝ)) (rows cols : ℕ) (keep : Bool) (junk : ℕ → ℕ → ℝ) (junkE : ℕ → ℝ) :
    (Dense.new.init rows cols keep junk junkE).solve qr = .ub := rfl

end Kalibr.Solvers
