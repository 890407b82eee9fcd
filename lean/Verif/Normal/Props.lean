import Verif.Normal.Lemmas
import Verif.Sparse.Props

/-!
# C71, C73, C74: the normal equations of the block Cholesky solver
-/

namespace Kalibr.Normal

open Jacobian Sparse

set_option linter.unusedSectionVars false

variable {D K : Type} [CommRing K]

/-! ## C71 -/

/-- **C71** (one error term).  For a Jacobian container built through the API whose variables have their
own blocks of the right size, `evaluateHessian` adds `Jᵀ invR J` to the blocks on and above the
diagonal, subtracts `Jᵀ invR e` from the right-hand side, and changes nothing else. -/
theorem C71_evaluateHessian (env : Env D K) (c : Container D K) (hc : Reachable env c) (e : Nat → K)
    (S : Mat K) (H : SBM K) (rhs : Nat → K) (h : WF H) (hsq : H.rbi = H.cbi) (hrows : c.rows = S.rows)
    (hin : ∀ p ∈ c.map, 0 ≤ env.blockIndex p.1 ∧ place env p < H.rbi.length)
    (hdim : ∀ p ∈ c.map, size H.rbi (place env p) = env.dim p.1) :
    ∃ H' rhs', evaluateHessian env c e S H rhs = .ok (H', rhs') ∧ WF H' ∧ H'.rbi = H.rbi ∧
      H'.cbi = H.cbi ∧ (UpperOnly H → UpperOnly H') ∧
      (∀ r q i j, val H' r q i j = val H r q i j + if r ≤ q then hess env c S r q i j else 0) ∧
      (∀ r i, r < H.rbi.length → i < size H.rbi r →
        rhs' (base H.rbi r + i) = rhs (base H.rbi r + i) - grad env c S e r i) :=
  evaluateHessian_spec env c e S H rhs h hsq
    ⟨hrows, (reachable_inv env hc).1, (reachable_inv env hc).2, hin, hdim⟩

/-- The weight of a term: its M-estimator weight, or one. -/
def termWeight (useMEstimator : Bool) (t : Term D K) : K := if useMEstimator then t.weight else 1

theorem buildLoop_spec (env : Env D K) (sqrt : K → K) (useM : Bool) (ts : List (Term D K))
    (hsqrt : useM = true → ∀ t ∈ ts, sqrt t.weight * sqrt t.weight = t.weight)
    (H : SBM K) (rhs : Nat → K) (h : WF H) (hsq : H.rbi = H.cbi) (hu : UpperOnly H)
    (hf : ∀ t ∈ ts, Fit env t.jac t.sqrtInvR H) :
    ∃ H' rhs', buildLoop env sqrt useM ts (H, rhs) = .ok (H', rhs') ∧ WF H' ∧ H'.rbi = H.rbi ∧
      H'.cbi = H.cbi ∧ UpperOnly H' ∧
      (∀ r q i j, val H' r q i j = val H r q i j + if r ≤ q then
        (ts.map fun t => termWeight useM t * hess env t.jac t.sqrtInvR r q i j).sum else 0) ∧
      (∀ r i, r < H.rbi.length → i < size H.rbi r → rhs' (base H.rbi r + i) = rhs (base H.rbi r + i) -
        (ts.map fun t => termWeight useM t * grad env t.jac t.sqrtInvR t.err r i).sum) := by
  induction ts generalizing H rhs with
  | nil => exact ⟨H, rhs, rfl, h, rfl, rfl, hu, by simp, by simp⟩
  | cons t ts ih =>
    have ht := hf t (by simp)
    have hw : (if useM then sqrt t.weight else 1) * (if useM then sqrt t.weight else 1) =
        termWeight useM t := by
      unfold termWeight
      cases useM with
      | false => simp
      | true => simpa using hsqrt rfl t (by simp)
    obtain ⟨H1, r1, e1, w1, l1, l2, u1, v1, g1⟩ := evaluateHessian_spec env t.jac t.err
      (t.sqrtInvR.scale (if useM then sqrt t.weight else 1)) H rhs h hsq
      ⟨ht.rows, ht.ordered, ht.fits, ht.inside, ht.dims⟩
    obtain ⟨H2, r2, e2, w2, m1, m2, u2, v2, g2⟩ := ih (fun hm t' ht' => hsqrt hm t' (by simp [ht']))
      H1 r1 w1 (by rw [l1, l2, hsq]) (u1 hu) (fun t' ht' => by
        have := hf t' (by simp [ht'])
        exact ⟨this.rows, this.ordered, this.fits, by rw [l1]; exact this.inside,
          by rw [l1]; exact this.dims⟩)
    refine ⟨H2, r2, ?_, w2, m1.trans l1, m2.trans l2, u2, ?_, ?_⟩
    · rw [buildLoop, buildHessian]
      dsimp only
      rw [e1]
      exact e2
    · intro r q i j
      rw [v2, v1, hess_scale, hw, List.map_cons, List.sum_cons, add_assoc]
      congr 1
      split <;> simp
    · intro r i hr hi
      have := g2 r i (by rw [l1]; exact hr) (by rw [l1]; exact hi)
      rw [l1] at this
      rw [this, g1 r i hr hi, grad_scale, hw, List.map_cons, List.sum_cons]
      ring

theorem blk_clear (H : SBM K) (r c : Nat) :
    (clear H).blk r c = (H.blk r c).map fun J => Mat.zero J.rows J.cols := by
  simp only [SBM.blk, clear, List.getD_eq_getElem?_getD, List.getElem?_map]
  cases H.bcols[c]? with
  | none => rfl
  | some m =>
    simp only [Option.map_some, Option.getD_some]
    induction m with
    | nil => rfl
    | cons p m ih =>
      rw [List.map_cons, mapFind_cons, mapFind_cons, ih]
      split <;> rfl

theorem clear_wf {H : SBM K} (h : WF H) : WF (clear H) := by
  refine ⟨h.rows, h.cols, by simpa [clear] using h.length, ?_, ?_⟩
  · intro c m hm
    simp only [clear, List.getElem?_map, Option.map_eq_some_iff] at hm
    obtain ⟨m0, hm0, rfl⟩ := hm
    rw [List.pairwise_map]
    exact h.sorted c m0 hm0
  · intro c m hm p hp
    simp only [clear, List.getElem?_map, Option.map_eq_some_iff] at hm
    obtain ⟨m0, hm0, rfl⟩ := hm
    obtain ⟨q, hq, rfl⟩ := List.mem_map.1 hp
    exact h.fits c m0 hm0 q hq

theorem val_clear (H : SBM K) (r c i j : Nat) : val (clear H) r c i j = 0 := by
  rw [val, blk_clear]
  cases H.blk r c <;> rfl

/-- **C71** (the whole system).  Whatever the matrix held before, after `buildSystem` the symmetric
matrix whose upper triangle is stored is the sum over the error terms of weight · `Jᵀ invR J`, and the
right-hand side is minus the sum of weight · `Jᵀ invR e`. -/
theorem C71_buildSystem (env : Env D K) (sqrt : K → K) (useM : Bool) (ts : List (Term D K))
    (hsqrt : useM = true → ∀ t ∈ ts, sqrt t.weight * sqrt t.weight = t.weight)
    (H : SBM K) (h : WF H) (hsq : H.rbi = H.cbi) (hu : UpperOnly H)
    (hf : ∀ t ∈ ts, Fit env t.jac t.sqrtInvR H) :
    ∃ H' rhs', buildSystem env sqrt useM ts H = .ok (H', rhs') ∧ WF H' ∧ H'.rbi = H.rbi ∧
      H'.cbi = H.cbi ∧ UpperOnly H' ∧
      (∀ N, Denotes H' N → ∀ r q i j, r < H.rbi.length → q < H.rbi.length → i < size H.rbi r →
        j < size H.rbi q → (symm N).get (base H.rbi r + i) (base H.rbi q + j) =
          (ts.map fun t => termWeight useM t * hess env t.jac t.sqrtInvR r q i j).sum) ∧
      (∀ r i, r < H.rbi.length → i < size H.rbi r → rhs' (base H.rbi r + i) =
        -(ts.map fun t => termWeight useM t * grad env t.jac t.sqrtInvR t.err r i).sum) := by
  have hu' : UpperOnly (clear H) := by
    intro r c J hJ
    rw [blk_clear] at hJ
    cases hb : H.blk r c with
    | none => rw [hb] at hJ; cases hJ
    | some J' => exact hu r c J' hb
  obtain ⟨H', rhs', e1, w1, l1, l2, u1, v1, g1⟩ := buildLoop_spec env sqrt useM ts hsqrt (clear H)
    (fun _ => 0) (clear_wf h) hsq hu' (fun t ht => by
      have := hf t ht
      exact ⟨this.rows, this.ordered, this.fits, this.inside, this.dims⟩)
  have l1' : H'.rbi = H.rbi := l1
  have l2' : H'.cbi = H.cbi := l2
  have hsq' : H'.rbi = H'.cbi := by rw [l1', l2', hsq]
  refine ⟨H', rhs', e1, w1, l1', l2', u1, ?_, ?_⟩
  · intro N hN r q i j hr hq hi hj
    have e := symm_entry w1 hsq' hN (r := r) (c := q) (i := i) (j := j) (by rw [l1']; exact hr)
      (by rw [l2', ← hsq]; exact hq) (by rw [l1']; exact hi) (by rw [l2', ← hsq]; exact hj)
    rw [l1', l2', ← hsq] at e
    rw [e, symVal]
    simp only [v1, val_clear, zero_add]
    have hsw : (ts.map fun t => termWeight useM t * hess env t.jac t.sqrtInvR q r j i) =
        ts.map fun t => termWeight useM t * hess env t.jac t.sqrtInvR r q i j :=
      List.map_congr_left fun t _ => by rw [hess_symm]
    rcases Nat.lt_trichotomy r q with hlt | heq | hgt
    · rw [if_pos hlt, if_pos (by omega)]
    · subst heq
      rw [if_neg (lt_irrefl _), if_neg (lt_irrefl _), if_pos le_rfl, if_pos le_rfl, hsw]
      split <;> rfl
    · rw [if_neg (by omega), if_pos hgt, if_pos (by omega), hsw]
  · intro r i hr hi
    have := g1 r i hr hi
    rw [zero_sub] at this
    exact this

/-- The matrix made when the structure is initialised meets the hypotheses of `C71_buildSystem`: no
block is stored, and the block of variable `k` has its dimension. -/
theorem C71_initMatrix (dims : List Nat) :
    WF (initMatrix (K := K) dims) ∧ (initMatrix (K := K) dims).rbi = (initMatrix (K := K) dims).cbi ∧
    UpperOnly (initMatrix (K := K) dims) ∧ (initMatrix (K := K) dims).rbi.length = dims.length ∧
    ∀ k, k < dims.length → size (initMatrix (K := K) dims).rbi k = dims.getD k 0 := by
  refine ⟨new_wf (cumul_list dims).1 (cumul_list dims).1, rfl, ?_, by simp [initMatrix, SBM.new], ?_⟩
  · intro r c J hJ
    rw [initMatrix, new_blk] at hJ
    cases hJ
  · intro k hk
    exact cumul_list_size dims k hk

/-! ## C73 -/

theorem val_modBlk_diag {H : SBM K} (hD : WF H) {r : Nat} (hr : r < H.cbi.length) (f : Nat → K)
    (r' c' i j : Nat) :
    val (H.modBlk r r fun d => addDiag d f) r' c' i j =
      val H r' c' i j + if r' = r ∧ c' = r ∧ i = j then f i else 0 := by
  simp only [val, blk_modBlk hD hr]
  by_cases h : r' = r ∧ c' = r
  · rw [if_pos h, h.1, h.2]
    by_cases hij : i = j <;> cases H.blk r r <;> simp [addDiag, Mat.zero, hij]
  · rw [if_neg h, if_neg (fun e => h ⟨e.1, e.2.1⟩), add_zero]

theorem diagLoop_spec (d : Nat → K) (n i : Nat) (H : SBM K) (h : WF H) (hsq : H.rbi = H.cbi)
    (hn : i + n ≤ H.rbi.length) :
    WF (diagLoop d n i (base H.rbi i) H) ∧ (diagLoop d n i (base H.rbi i) H).rbi = H.rbi ∧
      (diagLoop d n i (base H.rbi i) H).cbi = H.cbi ∧
      ∀ r c a b, val (diagLoop d n i (base H.rbi i) H) r c a b = val H r c a b +
        if i ≤ r ∧ r < i + n ∧ r = c ∧ a = b then d (base H.rbi r + a) else 0 := by
  induction n generalizing i H with
  | zero =>
    refine ⟨h, rfl, rfl, ?_⟩
    intro r c a b
    rw [if_neg (by omega), add_zero]; rfl
  | succ n ih =>
    have hi : i < H.rbi.length := by omega
    have hw := h.modBlk (c := i) hi (fun b => addDiag b fun k => d (base H.rbi i + k))
      fun _ h1 h2 => ⟨h1, h2⟩
    have hb : base H.rbi i + size H.rbi i = base H.rbi (i + 1) := (base_succ h.rows hi).symm
    obtain ⟨a1, a2, a3, a4⟩ := ih (i + 1) (H.modBlk i i fun b => addDiag b fun k => d (base H.rbi i + k))
      hw hsq (by show i + 1 + n ≤ H.rbi.length; omega)
    have hstep : diagLoop d (n + 1) i (base H.rbi i) H = diagLoop d n (i + 1)
        (base (H.modBlk i i fun b => addDiag b fun k => d (base H.rbi i + k)).rbi (i + 1))
        (H.modBlk i i fun b => addDiag b fun k => d (base H.rbi i + k)) := by
      rw [diagLoop]
      rw [modBlk_rbi, hb]
    rw [hstep]
    refine ⟨a1, a2, a3, ?_⟩
    intro r c a b
    rw [a4, val_modBlk_diag h (by rw [← hsq]; exact hi), add_assoc]
    congr 1
    simp only [modBlk_rbi]
    by_cases h1 : r = i ∧ c = i ∧ a = b
    · rw [if_pos h1, if_neg (by omega), if_pos (by omega), add_zero, h1.1]
    · rw [if_neg h1, zero_add]
      by_cases h2 : i + 1 ≤ r ∧ r < i + 1 + n ∧ r = c ∧ a = b
      · rw [if_pos h2, if_pos (by omega)]
      · rw [if_neg h2, if_neg (by omega)]

theorem dense_diag {H H' : SBM K} (h : WF H) (hsq : H.rbi = H.cbi) (l1 : H'.rbi = H.rbi)
    (l2 : H'.cbi = H.cbi) (f : Nat → K)
    (hv : ∀ r c a b, r < H.rbi.length → val H' r c a b = val H r c a b +
      if r = c ∧ a = b then f (base H.rbi r + a) else 0)
    {N N' : Mat K} (hN : Denotes H N) (hN' : Denotes H' N') {n m : Nat} (hn : n < total H.rbi)
    (hm : m < total H.rbi) : N'.get n m = N.get n m + if n = m then f n else 0 := by
  obtain ⟨r, a, hr, ha, rfl⟩ := block_exists h.rows hn
  obtain ⟨c, b, hc, hb, rfl⟩ := block_exists h.rows hm
  have e1 := hN.entry r c a b hr (by rw [← hsq]; exact hc) ha (by rw [← hsq]; exact hb)
  have e2 := hN'.entry r c a b (by rw [l1]; exact hr) (by rw [l2, ← hsq]; exact hc) (by rw [l1]; exact ha)
    (by rw [l2, ← hsq]; exact hb)
  rw [← hsq] at e1
  rw [l1, l2, ← hsq] at e2
  rw [e1, e2, hv r c a b hr]
  congr 1
  by_cases he : r = c ∧ a = b
  · rw [if_pos he, if_pos (by rw [he.1, he.2])]
  · rw [if_neg he, if_neg]
    intro e
    have hrc : r = c := block_unique h.rows (n := base H.rbi r + a) hr hc (by omega) (by omega)
      (by omega) (by omega)
    subst hrc
    exact he ⟨rfl, by omega⟩

/-- **C73** (the damped system).  With a conditioner `c`, the factorisation is given the matrix plus the
squares of the conditioner on the diagonal; the result is what it returns for that matrix. -/
theorem C73_solve_damped (solver : SBM K → (Nat → K) → Option (Nat → K)) (c : Nat → K) (H : SBM K)
    (rhs : Nat → K) (h : WF H) (hsq : H.rbi = H.cbi) :
    ∃ H2 H1 out, solveSystem solver (some c) H rhs = (H2, H1, out) ∧ out = solver H1 rhs ∧ WF H1 ∧
      ∀ N N1, Denotes H N → Denotes H1 N1 → ∀ n m, n < total H.rbi → m < total H.rbi →
        N1.get n m = N.get n m + if n = m then c n * c n else 0 := by
  obtain ⟨a1, a2, a3, a4⟩ := diagLoop_spec (fun k => c k * c k) H.rbi.length 0 H h hsq (by omega)
  refine ⟨_, _, _, rfl, rfl, a1, ?_⟩
  intro N N1 hN hN1 n m hn hm
  refine dense_diag h hsq a2 a3 (fun k => c k * c k) ?_ hN hN1 hn hm
  intro r q a b hr
  refine (a4 r q a b).trans ?_
  congr 1
  by_cases he : r = q ∧ a = b
  · rw [if_pos he, if_pos ⟨by omega, by omega, he⟩]
  · rw [if_neg he, if_neg (fun e => he e.2.2)]

/-- **C73** (what the code does).  After solving, the diagonal of the stored matrix has grown by
`c² - c`: the squares are added but the conditioner itself is taken away. -/
theorem C73_solve_leaves (solver : SBM K → (Nat → K) → Option (Nat → K)) (c : Nat → K) (H : SBM K)
    (rhs : Nat → K) (h : WF H) (hsq : H.rbi = H.cbi) :
    ∀ N N2, Denotes H N → Denotes (solveSystem solver (some c) H rhs).1 N2 →
      ∀ n m, n < total H.rbi → m < total H.rbi →
        N2.get n m = N.get n m + if n = m then c n * c n - c n else 0 := by
  obtain ⟨a1, a2, a3, a4⟩ := diagLoop_spec (fun k => c k * c k) H.rbi.length 0 H h hsq (by omega)
  obtain ⟨b1, b2, b3, b4⟩ := diagLoop_spec (fun k => -c k) (diagLoop (fun k => c k * c k)
    H.rbi.length 0 (base H.rbi 0) H).rbi.length 0 _ a1 (by rw [a2, a3, hsq]) (by omega)
  intro N N2 hN hN2 n m hn hm
  refine dense_diag h hsq (b2.trans a2) (b3.trans a3) (fun k => c k * c k - c k) ?_ hN hN2 hn hm
  intro r q a b hr
  refine (b4 r q a b).trans ?_
  rw [a4, a2, add_assoc]
  congr 1
  by_cases he : r = q ∧ a = b
  · rw [if_pos ⟨by omega, by omega, he⟩, if_pos ⟨by omega, by omega, he⟩, if_pos he]
    ring
  · rw [if_neg (fun e => he e.2.2), if_neg (fun e => he e.2.2), if_neg he, add_zero]

/-- **C73** (partial).  Solving leaves the system unchanged without a conditioner, and with one whose
entries are all zero or one. -/
theorem C73_solve_restores_partial (solver : SBM K → (Nat → K) → Option (Nat → K))
    (c : Option (Nat → K)) (hc : ∀ f, c = some f → ∀ n, f n = 0 ∨ f n = 1) (H : SBM K)
    (rhs : Nat → K) (h : WF H) (hsq : H.rbi = H.cbi) :
    ∀ N N2, Denotes H N → Denotes (solveSystem solver c H rhs).1 N2 →
      ∀ n m, n < total H.rbi → m < total H.rbi → N2.get n m = N.get n m := by
  intro N N2 hN hN2 n m hn hm
  cases c with
  | none =>
    have := denotes_unique h hN2 hN
    exact this.2.2 n m (by rw [hN2.rows]; exact hn) (by rw [hN2.cols]; exact hsq ▸ hm)
  | some f =>
    rw [C73_solve_leaves solver f H rhs h hsq N N2 hN hN2 n m hn hm]
    have : f n * f n - f n = 0 := by rcases hc f rfl n with e | e <;> rw [e] <;> ring
    simp [this]

/-- One unknown, `H = 1`. -/
def exH : SBM Int := (SBM.new [1] [1]).modBlk 0 0 fun _ => Mat.ofRows 1 1 [[1]]

theorem exH_wf : WF exH :=
  (new_wf (by simp [Mono]) (by simp [Mono])).modBlk (by decide) _ fun _ _ _ => ⟨rfl, rfl⟩

/-- **C73** (counterexample).  With conditioner 2 and `H = 1`, the first solve is given 5, and leaves 3
behind, so that the next solve is given 7. -/
theorem C73_solve_counterexample (solver : SBM Int → (Nat → Int) → Option (Nat → Int)) :
    WF exH ∧ exH.toDense.toRows = [[1]] ∧
    (solveSystem solver (some fun _ => 2) exH fun _ => 1).2.1.toDense.toRows = [[5]] ∧
    (solveSystem solver (some fun _ => 2) exH fun _ => 1).1.toDense.toRows = [[3]] ∧
    (solveSystem solver (some fun _ => 2) (solveSystem solver (some fun _ => 2) exH fun _ => 1).1
      fun _ => 1).2.1.toDense.toRows = [[7]] :=
  ⟨exH_wf, by decide +kernel,
    by
      change (diagLoop _ _ 0 0 exH).toDense.toRows = _
      decide +kernel,
    by
      change (diagLoop _ _ 0 0 (diagLoop _ _ 0 0 exH)).toDense.toRows = _
      decide +kernel,
    by
      change (diagLoop _ 1 0 0 (diagLoop _ _ 0 0 (diagLoop _ _ 0 0 exH))).toDense.toRows = _
      decide +kernel⟩

/-! ## C74 -/

/-- The quadratic form of a matrix: `xᵀ A x`. -/
def quad (A : Mat K) (x : Nat → K) : K :=
  ∑ n ∈ Finset.range A.rows, ∑ m ∈ Finset.range A.cols, x n * A.get n m * x m

/-- **C74** (what the code computes).  The curvature along the right-hand side is computed from the
stored matrix, that is from the upper triangle only. -/
theorem C74_rhsJtJrhs_stored (H : SBM K) (h : WF H) (rhs : Nat → K) (N : Mat K) (hN : Denotes H N) :
    rhsJtJrhs H rhs = quad N rhs := by
  unfold rhsJtJrhs quad
  rw [hN.rows]
  apply Finset.sum_congr rfl
  intro n hn
  rw [(C33_mulVec H h N hN (fun _ => 0) rhs n (by rw [hN.rows]; exact Finset.mem_range.1 hn)).1,
    Finset.mul_sum]
  exact Finset.sum_congr rfl fun m _ => by ring

/-- **C74** (partial).  It is the curvature of the symmetric matrix if that matrix is diagonal. -/
theorem C74_rhsJtJrhs_partial (H : SBM K) (h : WF H) (rhs : Nat → K) (N : Mat K) (hN : Denotes H N)
    (hd : ∀ n m, n < N.rows → m < N.cols → n ≠ m → (symm N).get n m = 0)
    (hl : ∀ n m, n < N.rows → m < N.cols → m < n → N.get n m = 0) :
    rhsJtJrhs H rhs = quad (symm N) rhs := by
  rw [C74_rhsJtJrhs_stored H h rhs N hN]
  unfold quad
  apply Finset.sum_congr rfl
  intro n hn
  apply Finset.sum_congr rfl
  intro m hm
  rw [Finset.mem_range] at hn hm
  by_cases hnm : n ≤ m
  · have : (Sparse.symm N).get n m = N.get n m := if_pos hnm
    rw [this]
  · rw [hl n m hn hm (by omega), hd n m hn hm (by omega)]

/-! ## A concrete system: one error `x0 + x1 = 1` at `x = 0`, so `J = (1 1)`, `e = -1` -/

/-- Two scalar unknowns. -/
def exEnv : Env Nat Int := ⟨fun d => d, fun _ => 1, fun _ => true, fun _ => 1⟩

/-- The error term. -/
def exTerm : Term Nat Int :=
  ⟨⟨1, [(0, Mat.ofRows 1 1 [[1]]), (1, Mat.ofRows 1 1 [[1]])]⟩, fun _ => -1, Mat.ofRows 1 1 [[1]], 1⟩

/-- The hypotheses of `C71_buildSystem` and `C71_evaluateHessian` are met. -/
theorem exTerm_fit : Fit exEnv exTerm.jac exTerm.sqrtInvR (initMatrix [1, 1]) where
  rows := rfl
  ordered := by simp [Ordered, exTerm, exEnv]
  fits := by simp [Fits, exTerm, exEnv, Mat.ofRows]
  inside := by simp [exTerm, exEnv, place, initMatrix, SBM.new]
  dims := by
    intro p hp
    simp only [exTerm, List.mem_cons, List.not_mem_nil, or_false] at hp
    rcases hp with rfl | rfl <;> rfl

example : Reachable exEnv exTerm.jac :=
  Reachable.addBlock 1 (Mat.ofRows 1 1 [[1]])
    (Reachable.addBlock 0 (Mat.ofRows 1 1 [[1]]) (Reachable.new 1) rfl) rfl

/-- **C74** (counterexample).  For `J = (1 1)`, `e = -1` the system is `JᵀJ = ((1 1) (1 1))`,
`-Jᵀe = (1 1)`; the curvature is 4, the code computes 3. -/
theorem C74_rhsJtJrhs_counterexample : ∃ H rhs,
    buildSystem exEnv id false [exTerm] (initMatrix [1, 1]) = .ok (H, rhs) ∧ WF H ∧
    (symm H.toDense).toRows = [[1, 1], [1, 1]] ∧ rhs 0 = 1 ∧ rhs 1 = 1 ∧
    quad (symm H.toDense) rhs = 4 ∧ rhsJtJrhs H rhs = 3 := by
  have h0 := C71_initMatrix (K := Int) [1, 1]
  obtain ⟨H, rhs, e, hw, _⟩ := C71_buildSystem exEnv id false [exTerm] (by simp) (initMatrix [1, 1])
    h0.1 h0.2.1 h0.2.2.1 (by
      intro t ht
      simp only [List.mem_singleton] at ht
      subst ht
      exact exTerm_fit)
  have hd : (buildSystem exEnv id false [exTerm] (initMatrix [1, 1])).okAnd (fun x =>
      (symm x.1.toDense).toRows = [[1, 1], [1, 1]] ∧ x.2 0 = 1 ∧ x.2 1 = 1 ∧
      quad (symm x.1.toDense) x.2 = 4 ∧ rhsJtJrhs x.1 x.2 = 3) = true := by decide +kernel
  obtain ⟨x, hx, p⟩ := Out.okAnd_spec hd
  rw [e] at hx
  injection hx with hx
  subst hx
  exact ⟨H, rhs, e, hw, by simpa using p⟩

end Kalibr.Normal
