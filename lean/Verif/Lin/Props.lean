import Verif.Lin.Solve

/-!
# C117: solving for one group of unknowns with the other eliminated
-/

namespace Kalibr.Lin

open Finset

variable {K : Type} [Field K] [LinearOrder K]

/-- **C117** A system is refused, and no step delivered, if the sizes do not fit, if one of the two groups of unknowns is
empty, or if there are no more equations than unknowns in the first group. -/
theorem C117_refused (T : Tools K) (o : Options K) (A b : Mat K) (j : Int)
    (h : A.rows ≠ b.rows ∨ j ≤ 0 ∨ (A.cols : Int) ≤ j ∨ (A.rows : Int) ≤ j) : solveSystem T o A b j = .ok none := by
  suffices hs : solve T o A b j = .raise by rw [solveSystem, hs]
  rw [solve]
  by_cases hb : A.rows ≠ b.rows
  · rw [if_pos hb]
  rw [if_neg hb]
  by_cases hl : (0 : Int) ≤ 0 ∧ (0 : Int) ≤ j - 1 ∧ j - 1 < A.cols
  swap
  · rw [scaledPart_raise T o A hl]; rfl
  obtain ⟨n, rfl⟩ : ∃ n : Nat, j = n := ⟨j.toNat, by omega⟩
  rw [scaledPart_left T o A (by omega) (by omega)]
  simp only [Out.ok_bind]
  cases T.qr (leftPart T o A n) with
  | none => rfl
  | some F =>
    by_cases hr : (0 : Int) ≤ n ∧ (n : Int) ≤ (A.cols : Int) - 1 ∧ (A.cols : Int) - 1 < A.cols
    swap
    · rw [scaledPart_raise T o A hr]; rfl
    have hnc : n < A.cols := by omega
    rw [scaledPart_right T o A hnc]
    simp only [Out.ok_bind]
    have hm : A.rows ≤ n := by
      rcases h with h | h | h | h
      · exact absurd h hb
      · omega
      · omega
      · omega
    rw [show (leftPart T o A n).cols = n from rfl, reduceLeft_raise (Ar := rightPart T o A n) hm]
    rfl

/-- **C117** The estimated rank of singular values in descending order is the number of those above the tolerance, but never
zero unless there are none. -/
theorem C117_rank {sv : List K} (hs : sv.Pairwise (fun a b => b ≤ a)) (hne : sv ≠ []) (tol : K) :
    estimateNumericalRank sv tol = max 1 (sv.countP fun s => decide (tol < s)) := by
  have key : ∀ n, 0 < n → n ≤ sv.length → rankFrom sv tol n = max 1 ((sv.take n).countP fun s => decide (tol < s)) := by
    intro n
    induction n with
    | zero => intro h; exact absurd h (lt_irrefl 0)
    | succ n ih =>
      intro _ hn
      cases n with
      | zero =>
        rw [rankFrom]
        show 1 = max 1 ((sv.take 1).countP _)
        have : ((sv.take 1).countP fun s => decide (tol < s)) ≤ (sv.take 1).length := List.countP_le_length
        rw [List.length_take] at this
        omega
      | succ n =>
        rw [rankFrom]
        have hg : sv.getD (n + 1) 0 = sv[n + 1] := by
          simp [List.getD, List.getElem?_eq_getElem (show n + 1 < sv.length by omega)]
        rw [List.take_succ_eq_append_getElem (by omega), List.countP_append, hg]
        by_cases h : tol < sv[n + 1]
        · rw [if_pos h]
          have hall : ((sv.take (n + 1)).countP fun s => decide (tol < s)) = (sv.take (n + 1)).length := by
            rw [List.countP_eq_length]
            intro a ha
            obtain ⟨i, hi, rfl⟩ := List.mem_iff_getElem.1 ha
            rw [List.length_take] at hi
            have := List.pairwise_iff_getElem.1 hs i (n + 1) (by omega) (by omega) (by omega)
            rw [List.getElem_take]
            exact decide_eq_true (lt_of_lt_of_le h this)
          rw [hall, List.length_take]
          simp [h]
          omega
        · rw [if_neg h, ih (by omega) (by omega)]
          simp [h]
  have := key sv.length (List.length_pos_iff.2 hne) le_rfl
  rwa [List.take_length] at this

variable [IsStrictOrderedRing K]

/-- The residual in the scaled unknowns. -/
theorem scaled_residual {T : Tools K} {o : Options K} {A : Mat K} {n : Nat} (hn : n ≤ A.cols)
    (hs : ∀ c, c < A.cols → scaleOf T o A c ≠ 0) (x : Nat → K) (p : Nat) :
    ∑ c ∈ range A.cols, A.get p c * x c =
      ∑ c ∈ range (leftPart T o A n).cols, (leftPart T o A n).get p c * (x c / scaleOf T o A c) +
      ∑ c ∈ range (rightPart T o A n).cols, (rightPart T o A n).get p c * (x (n + c) / scaleOf T o A (n + c)) := by
  have e : A.cols = n + (A.cols - n) := by omega
  rw [show range A.cols = range (n + (A.cols - n)) by rw [← e], sum_range_add]
  congr 1
  · refine sum_congr rfl fun c hc => ?_
    have hc : c < n := mem_range.1 hc
    have := hs c (by omega)
    simp only [leftPart]
    field_simp
  · refine sum_congr rfl fun c hc => ?_
    have hc : c < A.cols - n := mem_range.1 hc
    have := hs (n + c) (by omega)
    simp only [rightPart]
    field_simp

theorem cost_split {T : Tools K} {o : Options K} {A b : Mat K} {n : Nat} {F : Spqr K} (hF : IsSpqr (leftPart T o A n) F)
    (hb : b.rows = A.rows) (hn : n ≤ A.cols) (hm : n < A.rows) (hs : ∀ c, c < A.cols → scaleOf T o A c ≠ 0) (x : Nat → K) :
    cost A b x - along F.q n A b x ^ 2 =
      ∑ i ∈ range n, (∑ c ∈ range n, rot F (leftPart T o A n) i c * (x c / scaleOf T o A c) +
        ∑ c ∈ range (A.cols - n), rot F (rightPart T o A n) i c * (x (n + c) / scaleOf T o A (n + c)) - rot F b i 0) ^ 2 +
      ∑ i ∈ Ico (n + 1) A.rows,
        (∑ c ∈ range (A.cols - n), rot F (rightPart T o A n) i c * (x (n + c) / scaleOf T o A (n + c)) - rot F b i 0) ^ 2 := by
  have h := residual_split hF (le_of_lt hm) (rightPart T o A n) b rfl hb (fun c => x c / scaleOf T o A c)
    (fun c => x (n + c) / scaleOf T o A (n + c))
  have ha := rot_residual F (leftPart T o A n) (rightPart T o A n) b rfl hb (fun c => x c / scaleOf T o A c)
    (fun c => x (n + c) / scaleOf T o A (n + c)) n
  have h0 : ∑ c ∈ range (leftPart T o A n).cols, rot F (leftPart T o A n) n c * (x c / scaleOf T o A c) = 0 :=
    sum_eq_zero fun c hc => by rw [rot, hF.zero n c le_rfl hm (mem_range.1 hc), zero_mul]
  rw [h0, zero_add] at ha
  simp only [← scaled_residual hn hs x] at h ha
  have hc : cost A b x = _ := h
  have hal : along F.q n A b x = _ := ha
  rw [hc, hal, show (leftPart T o A n).cols = n from rfl, show (leftPart T o A n).rows = A.rows from rfl,
    sum_eq_sum_Ico_succ_bot hm]
  simp only [show (rightPart T o A n).cols = A.cols - n from rfl]
  ring

/-- **C117, in part** The step minimises the sum of squared residuals, but for one of its orthogonal components, which is
left out; if the unknowns of the second group do not act on that component the step is a least squares solution. -/
theorem C117_solve_partial {T : Tools K} {o : Options K} {A b : Mat K} {n : Nat} {F : Spqr K} {st : State K} {x : Nat → K}
    (h : solve T o A b n = .ok (st, x)) (hqr : T.qr (leftPart T o A n) = some F) (hF : IsSpqr (leftPart T o A n) F)
    (hS : IsSvd (without F.q (n + 1) (rightPart T o A n)) (T.svd (without F.q (n + 1) (rightPart T o A n))))
    (hs : ∀ c, c < A.cols → scaleOf T o A c ≠ 0) (hrank : ∀ k, st.svdRank.toNat ≤ k → k < A.cols - n → st.sv.getD k 0 = 0) :
    (∀ x', cost A b x - along F.q n A b x ^ 2 ≤ cost A b x' - along F.q n A b x' ^ 2) ∧
    ((∀ c, n ≤ c → c < A.cols → ∑ l ∈ range A.rows, F.q l n * A.get l c = 0) → ∀ x', cost A b x ≤ cost A b x') := by
  obtain ⟨hb, h0, hn, hm, hst, br, xr, hbr1, hbr2, hxr, hx⟩ := solve_ok h hqr hF.orth
  obtain ⟨e1, e2, e3, e4, -, -, hlen⟩ := rankState_ok hst
  obtain ⟨hpos, hxr⟩ := solveSVD_ok hxr
  have hxl : ∀ c, c < n → x c / scaleOf T o A c = solveQR F b (rightPart T o A n) xr c := by
    intro c hc
    have := hs c (by omega)
    rw [hx]
    simp only [if_pos hc]
    field_simp
  have hxr' : ∀ c, c < A.cols - n → x (n + c) / scaleOf T o A (n + c) = xr c := by
    intro c hc
    have := hs (n + c) (by omega)
    have hlt : ¬ n + c < n := by omega
    rw [hx]
    simp only [if_neg hlt, Nat.add_sub_cancel_left]
    field_simp
  have hmain : ∀ x', cost A b x - along F.q n A b x ^ 2 ≤ cost A b x' - along F.q n A b x' ^ 2 := by
    intro x'
    rw [cost_split hF hb (le_of_lt hn) hm hs x, cost_split hF hb (le_of_lt hn) hm hs x']
    refine add_le_add ?_ ?_
    · refine le_trans (le_of_eq ?_) (sum_nonneg fun i _ => sq_nonneg _)
      refine sum_eq_zero fun i hi => ?_
      have hi := mem_range.1 hi
      rw [sum_congr rfl fun c hc => by rw [hxl c (mem_range.1 hc)], sum_congr (s₁ := range (A.cols - n)) rfl fun c hc => by
        rw [hxr' c (mem_range.1 hc)]]
      have := hF.solves (fun i => ∑ l ∈ range b.rows, F.q l i *
        (b.get l 0 - ∑ c ∈ range (rightPart T o A n).cols, (rightPart T o A n).get l c * xr c)) i hi
      have hq : ∑ c ∈ range n, rot F (leftPart T o A n) i c * solveQR F b (rightPart T o A n) xr c =
          ∑ l ∈ range b.rows, F.q l i *
            (b.get l 0 - ∑ c ∈ range (rightPart T o A n).cols, (rightPart T o A n).get l c * xr c) := this
      rw [hq]
      have hz := rot_residual F (leftPart T o A n) (rightPart T o A n) b rfl hb (fun _ => 0) xr i
      simp only [mul_zero, sum_const_zero, zero_add, show (rightPart T o A n).cols = A.cols - n from rfl] at hz
      rw [add_sub_assoc, ← hz, hb, show (leftPart T o A n).rows = A.rows from rfl, ← sum_add_distrib,
        sum_eq_zero fun l _ => ?_]
      · simp
      · simp only [show (rightPart T o A n).cols = A.cols - n from rfl]
        ring
    · rw [sum_congr rfl fun i _ => by
        rw [sum_congr (s₁ := range (A.cols - n)) rfl fun c hc => by rw [hxr' c (mem_range.1 hc)]]]
      refine normal_min (x := xr) (fun c hc => ?_) _
      rw [hxr]
      simp only [hbr1, hbr2]
      have hrl : st.svdRank.toNat ≤ A.cols - n := by
        rw [e4, Int.toNat_natCast]
        refine le_trans (rankFrom_le _ _ _) ?_
        rw [hS.len]
        exact le_rfl
      rw [e1] at hrank
      exact svd_solves (s := Ico (n + 1) A.rows) (W := rot F (rightPart T o A n)) (e := fun i => rot F b i 0) hS rfl
        (fun c c' _ _ => rfl) hrl hpos hrank hc
  refine ⟨hmain, fun hz x' => ?_⟩
  have hal : ∀ x x' : Nat → K, along F.q n A b x = along F.q n A b x' := by
    have : ∀ x, along F.q n A b x = - ∑ l ∈ range A.rows, F.q l n * b.get l 0 := by
      intro x
      have hl : ∑ l ∈ range A.rows, F.q l n * ∑ c ∈ range A.cols, A.get l c * x c = 0 := by
        simp only [mul_sum]
        rw [sum_comm]
        refine sum_eq_zero fun c hc => ?_
        have hc := mem_range.1 hc
        have : ∑ l ∈ range A.rows, F.q l n * A.get l c = 0 := by
          by_cases hcn : n ≤ c
          · exact hz c hcn hc
          · have h1 := hF.zero n c le_rfl hm (by simpa [leftPart] using Nat.lt_of_not_le hcn)
            simp only [leftPart, ← mul_assoc] at h1
            rw [← sum_mul] at h1
            exact (mul_eq_zero.1 h1).resolve_right (hs c hc)
        rw [sum_congr rfl fun l _ => (mul_assoc (F.q l n) (A.get l c) (x c)).symm, ← sum_mul, this, zero_mul]
      simp only [along, mul_sub, sum_sub_distrib]
      rw [hl, zero_sub]
    intro x x'
    rw [this, this]
  have := hmain x'
  rw [hal x x'] at this
  linarith

omit [IsStrictOrderedRing K] in
/-- **C117** With exactly one more equation than unknowns in the first group no step is ever delivered, whatever the
equations are. -/
theorem C117_square_counterexample {T : Tools K} {o : Options K} {A b : Mat K} {n : Nat} {F : Spqr K} (hm : A.rows = n + 1)
    (hqr : T.qr (leftPart T o A n) = some F) (hF : IsSpqr (leftPart T o A n) F)
    (hS : IsSvd (without F.q (n + 1) (rightPart T o A n)) (T.svd (without F.q (n + 1) (rightPart T o A n))))
    (st : State K) (x : Nat → K) : solve T o A b n ≠ .ok (st, x) := by
  intro h
  obtain ⟨hb, h0, hn, hm', hst, br, xr, hbr1, hbr2, hxr, hx⟩ := solve_ok h hqr hF.orth
  obtain ⟨e1, e2, e3, e4, -, -, hlen⟩ := rankState_ok hst
  obtain ⟨hpos, -⟩ := solveSVD_ok hxr
  have hp : 0 < st.svdRank.toNat := by
    rw [e4, Int.toNat_natCast]
    exact rankFrom_pos _ _ hlen
  refine hpos 0 hp ?_
  have hc : 0 < A.cols - n := by omega
  have hzero : ∀ c c', (without F.q (n + 1) (rightPart T o A n)).get c c' = 0 := by
    intro c c'
    simp only [without, show (rightPart T o A n).rows = A.rows from rfl, hm, Ico_self, sum_empty]
  -- `U S Vᵀ = 0`
  have hU := hS.U
  have hV := hS.V
  have hprod := hS.prod
  simp only [hzero, show (without F.q (n + 1) (rightPart T o A n)).cols = A.cols - n from rfl] at hU hV hprod
  obtain ⟨S, hSS⟩ : ∃ S, S = T.svd (without F.q (n + 1) (rightPart T o A n)) := ⟨_, rfl⟩
  rw [← hSS] at hU hV hprod ⊢
  obtain ⟨r, hr⟩ : ∃ r, r = A.cols - n := ⟨_, rfl⟩
  rw [← hr] at hU hV hprod hc
  have h1 : ∀ i, i < r → S.U.get i 0 * S.sv.getD 0 0 = 0 := by
    intro i hi
    calc S.U.get i 0 * S.sv.getD 0 0
        = ∑ k ∈ range r, S.U.get i k * S.sv.getD k 0 * ∑ j ∈ range r, S.V.get j k * S.V.get j 0 := by
          rw [sum_eq_single 0]
          · rw [hV 0 0 hc hc]; simp
          · intro k hk hk0
            rw [hV k 0 (mem_range.1 hk) hc, if_neg hk0, mul_zero]
          · intro h; exact absurd (mem_range.2 hc) h
      _ = ∑ j ∈ range r, (∑ k ∈ range r, S.U.get i k * S.sv.getD k 0 * S.V.get j k) * S.V.get j 0 := by
          simp only [mul_sum, sum_mul]
          rw [sum_comm]
          exact sum_congr rfl fun j _ => sum_congr rfl fun k _ => by ring
      _ = 0 := sum_eq_zero fun j hj => by rw [← hprod i j hi (mem_range.1 hj), zero_mul]
  calc S.sv.getD 0 0 = S.sv.getD 0 0 * ∑ l ∈ range r, S.U.get l 0 * S.U.get l 0 := by rw [hU 0 0 hc hc]; simp
    _ = ∑ l ∈ range r, (S.U.get l 0 * S.sv.getD 0 0) * S.U.get l 0 := by
        rw [mul_sum]
        exact sum_congr rfl fun l _ => by ring
    _ = 0 := sum_eq_zero fun l hl => by rw [h1 l (mem_range.1 hl), zero_mul]

omit [IsStrictOrderedRing K] in
/-- What `analyzeMarginal` keeps. -/
theorem analyze_ok {T : Tools K} {o : Options K} {st st' : State K} {A : Mat K} {n : Nat} {F : Spqr K}
    (h : analyzeMarginal T o st A n = .ok st') (hqr : T.qr (firstColumns A n) = some F) (hF : Orthonormal A.rows F.q) :
    0 < n ∧ n < A.cols ∧ n < A.rows ∧ ∃ S, S = T.svd (without F.q (n + 1) (lastColumns A n)) ∧
      st'.sv = S.sv ∧ st'.U = S.U ∧ st'.V = S.V ∧
      ((checkFactor st (A.rows, n, T.nnz (firstColumns A n))).svdRank = -1 →
        st'.svdRank = estimateNumericalRank S.sv st'.svdTolerance) ∧
      ((checkFactor st (A.rows, n, T.nnz (firstColumns A n))).svdRank ≠ -1 →
        st'.svdRank = (checkFactor st (A.rows, n, T.nnz (firstColumns A n))).svdRank) := by
  rw [analyzeMarginal] at h
  by_cases hl : (0 : Int) ≤ 0 ∧ (0 : Int) ≤ (n : Int) - 1 ∧ (n : Int) - 1 < A.cols
  swap
  · rw [columnSubmatrix_raise A hl] at h; cases h
  have e : ((n : Int) - 1 - 0 + 1).toNat = n := by omega
  rw [columnSubmatrix_eq A hl, e] at h
  simp only [Out.ok_bind, Int.toNat_zero, Nat.zero_add] at h
  rw [show (⟨A.rows, n, fun i j => A.get i j⟩ : Mat K) = firstColumns A n from rfl, hqr] at h
  simp only at h
  by_cases hr : (0 : Int) ≤ n ∧ (n : Int) ≤ (A.cols : Int) - 1 ∧ (A.cols : Int) - 1 < A.cols
  swap
  · rw [columnSubmatrix_raise A hr] at h; cases h
  have hnc : n < A.cols := by omega
  have e2 : ((A.cols : Int) - 1 - n + 1).toNat = A.cols - n := by omega
  rw [columnSubmatrix_eq A hr, e2] at h
  simp only [Out.ok_bind, Int.toNat_natCast] at h
  rw [show (⟨A.rows, A.cols - n, fun i j => A.get i (n + j)⟩ : Mat K) = lastColumns A n from rfl] at h
  by_cases hm : A.rows ≤ n
  · rw [reduceLeft_raise (Ar := lastColumns A n) hm] at h; cases h
  push Not at hm
  rw [reduceLeft_eq (Ar := lastColumns A n) hm hF] at h
  simp only [Out.ok_bind] at h
  refine ⟨by omega, hnc, hm, _, rfl, ?_⟩
  by_cases hk : (checkFactor st (A.rows, n, T.nnz (firstColumns A n))).svdRank = -1
  · rw [if_pos hk] at h
    obtain ⟨e1, e2, e3, e4, -, -, -⟩ := rankState_ok h
    exact ⟨e1, e2, e3, fun _ => e4, fun hh => absurd hk hh⟩
  · rw [if_neg hk] at h
    simp only [Out.pure_eq, Out.ok.injEq] at h
    subst h
    exact ⟨rfl, rfl, rfl, fun hh => absurd hh hk, fun _ => rfl⟩

/-- **C117, in part** The singular values and vectors describe the information about the second group of unknowns, but for
the part in one direction (a matrix of rank one), which is lost; nothing is lost if that part is zero. At full rank the
covariance is the inverse of what is described. -/
theorem C117_information_partial {T : Tools K} {o : Options K} {st st' : State K} {A : Mat K} {n : Nat} {F : Spqr K}
    (h : analyzeMarginal T o st A n = .ok st') (hqr : T.qr (firstColumns A n) = some F) (hF : IsSpqr (firstColumns A n) F)
    (hS : IsSvd (without F.q (n + 1) (lastColumns A n)) (T.svd (without F.q (n + 1) (lastColumns A n)))) :
    IsInformation A n (A.cols - n) (fun i j => ∑ k ∈ range (A.cols - n), st'.V.get i k * st'.sv.getD k 0 * st'.V.get j k +
      (∑ l ∈ range A.rows, F.q l n * A.get l (n + i)) * ∑ l ∈ range A.rows, F.q l n * A.get l (n + j)) ∧
    ((∀ c, c < A.cols - n → ∑ l ∈ range A.rows, F.q l n * A.get l (n + c) = 0) →
      IsInformation A n (A.cols - n) fun i j => ∑ k ∈ range (A.cols - n), st'.V.get i k * st'.sv.getD k 0 * st'.V.get j k) ∧
    ((st'.svdRank = (A.cols - n : Nat) ∧ ∀ k, k < A.cols - n → st'.sv.getD k 0 ≠ 0) →
      ∀ i j, i < A.cols - n → j < A.cols - n → ∑ l ∈ range (A.cols - n),
        (∑ k ∈ range (A.cols - n), st'.V.get i k * st'.sv.getD k 0 * st'.V.get l k) * (getCovariance st').get l j =
          if i = j then 1 else 0) ∧
    (st.factor = none → st.svdRank = -1 → st'.svdRank = estimateNumericalRank st'.sv st'.svdTolerance) := by
  obtain ⟨h0, hn, hm, S, hSe, e1, e2, e3, e4, -⟩ := analyze_ok h hqr hF.orth
  obtain ⟨R, hR⟩ : ∃ R : Mat K, R = lastColumns A n := ⟨_, rfl⟩
  rw [← hR] at hSe
  have hRr : R.rows = A.rows := by rw [hR]; rfl
  have hRc : R.cols = A.cols - n := by rw [hR]; rfl
  have hSv : IsSvd (without F.q (n + 1) R) S := by
    rw [hSe, hR]
    exact hS
  have hsym : ∀ i j, i < A.cols - n → j < A.cols - n →
      ∑ k ∈ range (A.cols - n), st'.V.get i k * st'.sv.getD k 0 * st'.V.get j k =
        ∑ i' ∈ Ico (n + 1) A.rows, rot F R i' i * rot F R i' j := by
    intro i j hi hj
    have := svd_sym (s := Ico (n + 1) A.rows) (r := A.cols - n) (W := rot F R) hSv hRc (fun c c' _ _ => by
      simp only [without, rot, hRr]) hi hj
    rw [e1, e3]
    refine Eq.trans this.symm ?_
    simp only [without, rot, hRr]
  have hfirst : IsInformation A n (A.cols - n) (fun i j => ∑ k ∈ range (A.cols - n), st'.V.get i k * st'.sv.getD k 0 * st'.V.get j k +
      (∑ l ∈ range A.rows, F.q l n * A.get l (n + i)) * ∑ l ∈ range A.rows, F.q l n * A.get l (n + j)) := by
    refine information hF (le_of_lt hm) fun c c' hc hc' => ?_
    rw [hsym c c' hc hc', sum_eq_sum_Ico_succ_bot hm, hR]
    simp only [rot, lastColumns]
    ring
  refine ⟨hfirst, fun hz => ?_, ?_, fun hf hk => ?_⟩
  · intro y
    have hform : form (A.cols - n) (fun i j => ∑ k ∈ range (A.cols - n), st'.V.get i k * st'.sv.getD k 0 * st'.V.get j k +
      (∑ l ∈ range A.rows, F.q l n * A.get l (n + i)) * ∑ l ∈ range A.rows, F.q l n * A.get l (n + j)) y =
        form (A.cols - n) (fun i j => ∑ k ∈ range (A.cols - n), st'.V.get i k * st'.sv.getD k 0 * st'.V.get j k) y := by
      refine sum_congr rfl fun i hi => sum_congr rfl fun j hj => ?_
      simp only [hz i (mem_range.1 hi), zero_mul, add_zero]
    have := hfirst y
    rwa [hform] at this
  · rintro ⟨hk, hpos⟩ i j hi hj
    have hV := hSv.V
    have hVs := hSv.Vsize
    simp only [show (without F.q (n + 1) R).cols = A.cols - n from hRc] at hV hVs
    have hcov : ∀ l, (getCovariance st').get l j = ∑ k ∈ range (A.cols - n), S.V.get l k * (1 / S.sv.getD k 0) * S.V.get j k := by
      intro l
      rw [getCovariance, if_pos ⟨by omega, by rw [hk, e3, hVs.2]⟩, hk, e1, e3]
      simp only [Int.toNat_natCast]
    simp only [hcov]
    rw [e1] at hpos
    have := sym_inverse (r := A.cols - n) (S := S) hV hpos hi hj
    simp only [sym] at this
    rw [e1, e3]
    exact this
  · rw [e1]
    exact e4 (by simp [checkFactor, hf, hk])

end Kalibr.Lin
