import Verif.Pcg.Props

/-!
# C142: what earlier calls do to later ones
-/

namespace Kalibr.Pcg

open Kalibr.Sparse Matrix

/-- A matrix of two unknowns with ones on the diagonal and `e` beside it, in blocks of one entry. -/
def two (e : ℝ) : SBM ℝ := ⟨[1, 2], [1, 2], [[(0, ⟨1, 1, fun _ _ => 1⟩)], [(0, ⟨1, 1, fun _ _ => e⟩), (1, ⟨1, 1, fun _ _ => 1⟩)]]⟩

/-- Its entries. -/
def twoS (e : ℝ) (i j : ℕ) : ℝ := if i = j then 1 else e

theorem two_total (e : ℝ) : total (two e).rbi = 2 := rfl

theorem two_blk (e : ℝ) : (two e).blk 0 0 = some ⟨1, 1, fun _ _ => 1⟩ ∧ (two e).blk 0 1 = some ⟨1, 1, fun _ _ => e⟩ ∧
    (two e).blk 1 1 = some ⟨1, 1, fun _ _ => 1⟩ := ⟨rfl, rfl, rfl⟩

theorem two_upper (e : ℝ) : Upper (two e) (twoS e) := by
  have hm : Mono [1, 2] := by
    unfold Mono
    decide
  refine ⟨⟨hm, hm, rfl, ?_, ?_⟩, rfl, ?_, ?_, ?_⟩
  · intro c m hc
    rcases c with _ | _ | c
    · simp only [two, List.getElem?_cons_zero, Option.some.injEq] at hc
      rw [← hc]; simp
    · simp only [two, List.getElem?_cons_zero, List.getElem?_cons_succ, Option.some.injEq] at hc
      rw [← hc]; simp
    · simp [two] at hc
  · intro c m hc
    rcases c with _ | _ | c
    · simp only [two, List.getElem?_cons_zero, Option.some.injEq] at hc
      rw [← hc]; simp [two, size, base]
    · simp only [two, List.getElem?_cons_zero, List.getElem?_cons_succ, Option.some.injEq] at hc
      rw [← hc]; simp [two, size, base]
    · simp [two] at hc
  · intro c hc
    have : c < 2 := hc
    rcases (by omega : c = 0 ∨ c = 1) with rfl | rfl
    · exact ⟨_, (two_blk e).1⟩
    · exact ⟨_, (two_blk e).2.2⟩
  · intro i j _ _
    unfold twoS
    simp only [eq_comm]
  · intro r c i j hrc hc hi hj
    have hc : c < 2 := hc
    have s0 : size (two e).cbi 0 = 1 := rfl
    have s1 : size (two e).cbi 1 = 1 := rfl
    rcases (by omega : (r = 0 ∧ c = 0) ∨ (r = 0 ∧ c = 1) ∨ (r = 1 ∧ c = 1)) with ⟨rfl, rfl⟩ | ⟨rfl, rfl⟩ | ⟨rfl, rfl⟩
    · obtain ⟨rfl, rfl⟩ : i = 0 ∧ j = 0 := by omega
      rfl
    · obtain ⟨rfl, rfl⟩ : i = 0 ∧ j = 0 := by omega
      rfl
    · obtain ⟨rfl, rfl⟩ : i = 0 ∧ j = 0 := by omega
      rfl

theorem two_posDef {e : ℝ} (h1 : -1 < e) (h2 : e < 1) : PosDef (total (two e).rbi) (twoS e) := by
  rintro u ⟨i, hi, hne⟩
  rw [two_total] at hi ⊢
  have e1 : ∑ i ∈ Finset.range 2, u i * ∑ j ∈ Finset.range 2, twoS e i j * u j = (u 0 + e * u 1) ^ 2 + (1 - e ^ 2) * u 1 ^ 2 := by
    simp [Finset.sum_range_succ, twoS]
    ring
  rw [e1]
  have hp : 0 < 1 - e ^ 2 := by nlinarith
  by_cases h : u 1 = 0
  · have h0 : u 0 ≠ 0 := by
      rcases (by omega : i = 0 ∨ i = 1) with rfl | rfl
      · exact hne
      · exact absurd h hne
    rw [h]
    have := sq_pos_of_pos (abs_pos.2 h0)
    rw [sq_abs] at this
    simp only [mul_zero, add_zero]
    nlinarith
  · have := sq_pos_of_pos (abs_pos.2 h)
    rw [sq_abs] at this
    have := mul_pos hp this
    nlinarith [sq_nonneg (u 0 + e * u 1)]

theorem inverse_one : (inverse ⟨1, 1, fun _ _ => 1⟩).get 0 0 = 1 := by
  unfold inverse
  simp only
  rw [dif_pos (by omega)]
  have : (Matrix.of fun _ _ : Fin 1 => (1 : ℝ)) = 1 := by
    ext i j
    rw [Subsingleton.elim i j, one_apply_eq]
    rfl
  rw [this, inv_one]
  rfl

theorem two_diag (e : ℝ) : diagOf (two e) = [⟨1, 1, fun _ _ => 1⟩, ⟨1, 1, fun _ _ => 1⟩] := rfl

theorem two_off (a : ℕ) (e : ℝ) : offOf a (two e) = [((0, 1), ⟨a, 0, 1⟩)] := rfl

theorem two_pre (e : ℝ) (v d : ℕ → ℝ) :
    multDiag (two e).cbi ((diagOf (two e)).map inverse) v d 0 = v 0 ∧ multDiag (two e).cbi ((diagOf (two e)).map inverse) v d 1 = v 1 := by
  rw [two_diag]
  have c : (inverse ⟨1, 1, fun _ _ => 1⟩).cols = 1 := rfl
  have r : (inverse ⟨1, 1, fun _ _ => 1⟩).rows = 1 := rfl
  constructor <;> simp [multDiag, List.zipIdx, axy, two, base, c, r, inverse_one]

theorem two_mult (e f : ℝ) (v d : ℕ → ℝ) :
    mult (two e).cbi (diagOf (two e)) [(0, 1)] [⟨1, 1, fun _ _ => f⟩] v d 0 = v 0 + f * v 1 ∧
      mult (two e).cbi (diagOf (two e)) [(0, 1)] [⟨1, 1, fun _ _ => f⟩] v d 1 = v 1 + f * v 0 := by
  rw [two_diag]
  constructor <;> simp [mult, multDiag, List.zipIdx, axy, axpy, two, base, Mat.transpose]

/-- Three iterations at most, spelled out. -/
theorem two_solve (H : Heap) (s : Solver) (a : ℕ) (e f : ℝ) (hH : H a = some (two e)) (hf : derefAll H s.sparseMat = .ok [⟨1, 1, fun _ _ => f⟩])
    (hi : s.indices = [(0, 1)]) (b : ℕ → ℝ) :
    solve H s a b = .ok (
      (fun v : Vars => (v.x, { s with residual := 1 / 2 * v.dn }))
      (run 2 (mult (two e).cbi (diagOf (two e)) [(0, 1)] [⟨1, 1, fun _ _ => f⟩]) (multDiag (two e).cbi ((diagOf (two e)).map inverse))
        (if s.absoluteTolerance = true ∧ s.residual > 0 ∧ s.residual > s.tolerance * (b 0 * b 0 + b 1 * b 1) then s.residual
          else s.tolerance * (b 0 * b 0 + b 1 * b 1)) (if s.maxIter < 0 then 2 else s.maxIter.toNat)
        ⟨fun _ => 0, b, multDiag (two e).cbi ((diagOf (two e)).map inverse) b fun _ => 0, fun _ => 0, fun _ => 0, b 0 * b 0 + b 1 * b 1⟩)) := by
  have hl : ¬ s.indices.length = 0 := by rw [hi]; simp
  have hd : dot 2 b (multDiag (two e).cbi ((diagOf (two e)).map inverse) b fun _ => 0) = b 0 * b 0 + b 1 * b 1 := by
    unfold dot
    rw [Finset.sum_range_succ, Finset.sum_range_one, (two_pre e b _).1, (two_pre e b _).2]
  unfold solve
  simp only [hH, if_neg hl, hf, Out.ok_bind, two_total, hd]
  rw [hi]
  rfl

theorem two_first (H : Heap) (s : Solver) (a : ℕ) (e : ℝ) (hH : H a = some (two e)) (hi : s.indices = []) (hp : s.sparseMat = []) (b : ℕ → ℝ) :
    solve H s a b = solve H { s with indices := [(0, 1)], sparseMat := [⟨a, 0, 1⟩] } a b := by
  unfold solve
  simp only [hH, two_off, hi, hp]
  rfl

/-- `C142_accuracy_partial`, `C142_exact`, `C142_descent` and `C142_reuse` speak about something. -/
example : Upper (two (1 / 2)) (twoS (1 / 2)) ∧ PosDef (total (two (1 / 2)).rbi) (twoS (1 / 2)) ∧ Ready Solver.new 0 (two (1 / 2)) ∧
    0 ≤ Solver.new.tolerance ∧ Solver.new.maxIter < 0 ∧ SamePattern (two (1 / 2)) (two (1 / 3)) :=
  ⟨two_upper _, two_posDef (by norm_num) (by norm_num), Or.inl ⟨rfl, rfl⟩, by unfold Solver.new; norm_num, by unfold Solver.new; norm_num,
    rfl, rfl, rfl⟩

/-- **C142, counterexample: the bound of the last call.** A solver as constructed is used twice for one matrix.
The first call leaves its residual behind as an absolute bound, and the second call, with a smaller right hand side,
returns zero: the remainder is the right hand side itself and not a millionth of it. -/
theorem C142_absolute_counterexample :
    ∃ (H : Heap) (b1 b2 x1 x2 : ℕ → ℝ) (s1 s2 : Solver), H 0 = some (two (1 / 1000)) ∧
      solve H Solver.new 0 b1 = .ok (x1, s1) ∧ solve H s1 0 b2 = .ok (x2, s2) ∧ x2 0 = 0 ∧ x2 1 = 0 ∧ b2 0 ≠ 0 := by
  obtain ⟨H, hH⟩ : ∃ H : Heap, H = fun _ => some (two (1 / 1000)) := ⟨_, rfl⟩
  have h0 : H 0 = some (two (1 / 1000)) := by rw [hH]
  have hd : derefAll H [⟨0, 0, 1⟩] = .ok [⟨1, 1, fun _ _ => 1 / 1000⟩] := by rw [hH]; rfl
  have hm := two_mult (1 / 1000) (1 / 1000)
  have hp := two_pre (1 / 1000)
  obtain ⟨mul, hmul⟩ : ∃ mul, mul = mult (two (1 / 1000)).cbi (diagOf (two (1 / 1000))) [(0, 1)] [⟨1, 1, fun _ _ => 1 / 1000⟩] := ⟨_, rfl⟩
  obtain ⟨pre, hpre⟩ : ∃ pre, pre = multDiag (two (1 / 1000)).cbi ((diagOf (two (1 / 1000))).map inverse) := ⟨_, rfl⟩
  rw [← hmul] at hm
  rw [← hpre] at hp
  obtain ⟨b1, hb0, hb1⟩ : ∃ b : ℕ → ℝ, b 0 = 1000 ∧ b 1 = 0 := ⟨fun i => if i = 0 then 1000 else 0, rfl, rfl⟩
  obtain ⟨b2, hc0, hc1⟩ : ∃ b : ℕ → ℝ, b 0 = 1 / 2 ∧ b 1 = 0 := ⟨fun i => if i = 0 then 1 / 2 else 0, rfl, rfl⟩
  have first := two_first H Solver.new 0 _ h0 rfl rfl b1
  rw [two_solve H { Solver.new with indices := [(0, 1)], sparseMat := [⟨0, 0, 1⟩] } 0 _ (1 / 1000) h0 hd rfl, ← hmul, ← hpre] at first
  obtain ⟨v, hv⟩ : ∃ v, v = run 2 mul pre 1 2 ⟨fun _ => 0, b1, pre b1 fun _ => 0, fun _ => 0, fun _ => 0, 1000000⟩ := ⟨_, rfl⟩
  have hdn : v.dn = 1 := by
    rw [hv]
    have e1 : (iterate 2 mul pre ⟨fun _ => 0, b1, pre b1 fun _ => 0, fun _ => 0, fun _ => 0, 1000000⟩).dn = 1 := by
      unfold iterate dot
      simp only [Finset.sum_range_succ, Finset.sum_range_zero, hm, hp, hb0, hb1]
      norm_num
    unfold run
    rw [if_neg (by norm_num)]
    unfold run
    rw [if_pos (by rw [e1])]
    exact e1
  obtain ⟨s1, hs1⟩ : ∃ s1 : Solver, s1 = ⟨1 / 1000000, 1 / 2, true, -1, [(0, 1)], [⟨0, 0, 1⟩]⟩ := ⟨_, rfl⟩
  have first' : solve H Solver.new 0 b1 = .ok (v.x, s1) := by
    rw [first]
    unfold Solver.new
    simp only
    rw [if_neg (by norm_num), if_pos (by norm_num), hb0, hb1]
    have e1 : (1 : ℝ) / 1000000 * (1000 * 1000 + 0 * 0) = 1 := by norm_num
    have e2 : ((1000 * 1000 + 0 * 0) : ℝ) = 1000000 := by norm_num
    rw [e1, e2, ← hv, hdn, hs1]
    norm_num
  have second := two_solve H s1 0 _ (1 / 1000) h0 (by rw [hs1]; exact hd) (by rw [hs1]) b2
  rw [← hmul, ← hpre, hs1] at second
  simp only at second
  rw [hc0, hc1, if_pos (by norm_num), if_pos (by norm_num)] at second
  unfold run at second
  rw [if_pos (by norm_num)] at second
  rw [← hs1] at second
  exact ⟨H, _, _, _, _, s1, _, h0, first', second, rfl, rfl, by rw [hc0]; norm_num⟩

/-- **C142, counterexample: the matrix of the last call.** A solver as constructed is used for one matrix and then for another one,
without `init` in between. The second call takes the blocks off the diagonal from the first matrix: what it returns does
not solve the system it was given. If the first matrix does not exist any more, the call has no defined behaviour. -/
theorem C142_stale_counterexample :
    ∃ (H : Heap) (b1 b2 x1 x2 : ℕ → ℝ) (s1 s2 : Solver), H 0 = some (two (1 / 2)) ∧ H 1 = some (two (-1 / 2)) ∧
      solve H Solver.new 0 b1 = .ok (x1, s1) ∧ solve H s1 1 b2 = .ok (x2, s2) ∧ s2.residual = 0 ∧
      ∑ k ∈ Finset.range 2, twoS (-1 / 2) 0 k * x2 k ≠ b2 0 ∧
      solve (fun a => if a = 0 then none else H a) s1 1 b2 = .ub := by
  obtain ⟨H, hH⟩ : ∃ H : Heap, H = fun a => if a = 0 then some (two (1 / 2)) else some (two (-1 / 2)) := ⟨_, rfl⟩
  have h0 : H 0 = some (two (1 / 2)) := by rw [hH]; rfl
  have h1 : H 1 = some (two (-1 / 2)) := by rw [hH]; rfl
  have hd : derefAll H [⟨0, 0, 1⟩] = .ok [⟨1, 1, fun _ _ => 1 / 2⟩] := by rw [hH]; rfl
  have first := two_first H Solver.new 0 _ h0 rfl rfl (fun _ => 0)
  rw [two_solve H { Solver.new with indices := [(0, 1)], sparseMat := [⟨0, 0, 1⟩] } 0 _ (1 / 2) h0 hd rfl] at first
  unfold Solver.new at first
  simp only at first
  rw [if_neg (by norm_num), if_pos (by norm_num)] at first
  unfold run at first
  rw [if_pos (by norm_num)] at first
  obtain ⟨s1, hs1⟩ : ∃ s1 : Solver, s1 = ⟨1 / 1000000, 1 / 2 * (0 * 0 + 0 * 0), true, -1, [(0, 1)], [⟨0, 0, 1⟩]⟩ := ⟨_, rfl⟩
  simp only at first
  rw [← hs1] at first
  have hm := two_mult (-1 / 2) (1 / 2)
  have hp := two_pre (-1 / 2)
  obtain ⟨b2, hc0, hc1⟩ : ∃ b : ℕ → ℝ, b 0 = 1 ∧ b 1 = 0 := ⟨fun i => if i = 0 then 1 else 0, rfl, rfl⟩
  have second := two_solve H s1 1 _ (1 / 2) h1 (by rw [hs1]; exact hd) (by rw [hs1]) b2
  obtain ⟨mul, hmul⟩ : ∃ mul, mul = mult (two (-1 / 2)).cbi (diagOf (two (-1 / 2))) [(0, 1)] [⟨1, 1, fun _ _ => 1 / 2⟩] := ⟨_, rfl⟩
  obtain ⟨pre, hpre⟩ : ∃ pre, pre = multDiag (two (-1 / 2)).cbi ((diagOf (two (-1 / 2))).map inverse) := ⟨_, rfl⟩
  rw [← hmul] at hm second
  rw [← hpre] at hp second
  rw [hs1] at second
  simp only at second
  rw [hc0, hc1, if_neg (by norm_num), if_pos (by norm_num)] at second
  obtain ⟨v0, hv0⟩ : ∃ v0 : Vars, v0 = ⟨fun _ => 0, b2, pre b2 fun _ => 0, fun _ => 0, fun _ => 0, 1 * 1 + 0 * 0⟩ := ⟨_, rfl⟩
  rw [← hv0] at second
  obtain ⟨v1, hv1⟩ : ∃ v1, v1 = iterate 2 mul pre v0 := ⟨_, rfl⟩
  obtain ⟨v2, hv2⟩ : ∃ v2, v2 = iterate 2 mul pre v1 := ⟨_, rfl⟩
  have f1 : v1.x 0 = 1 ∧ v1.x 1 = 0 ∧ v1.r 0 = 0 ∧ v1.r 1 = -1 / 2 ∧ v1.d 0 = 1 / 4 ∧ v1.d 1 = -1 / 2 ∧ v1.dn = 1 / 4 := by
    rw [hv1, hv0]
    unfold iterate dot
    simp only [Finset.sum_range_succ, Finset.sum_range_zero, hm, hp, hc0, hc1]
    norm_num
  obtain ⟨g1, g2, g3, g4, g5, g6, g7⟩ := f1
  have f2 : v2.x 0 = 4 / 3 ∧ v2.x 1 = -2 / 3 ∧ v2.dn = 0 := by
    rw [hv2]
    unfold iterate dot
    simp only [Finset.sum_range_succ, Finset.sum_range_zero, hm, hp, g1, g2, g3, g4, g5, g6, g7]
    norm_num
  have hrun : ∀ d0, d0 < 1 / 4 → run 2 mul pre d0 2 v0 = v2 := by
    intro d0 hd0
    unfold run
    rw [if_neg (by rw [hv0]; norm_num; linarith), ← hv1]
    unfold run
    rw [if_neg (by rw [g7]; linarith), ← hv2]
    rfl
  rw [hrun _ (by norm_num), ← hs1] at second
  refine ⟨H, _, _, _, v2.x, s1, _, h0, h1, first, second, ?_, ?_, ?_⟩
  · show 1 / 2 * v2.dn = 0
    rw [f2.2.2, mul_zero]
  · simp only [Finset.sum_range_succ, Finset.sum_range_zero, f2.1, f2.2.1, twoS, hc0]
    norm_num
  · unfold solve
    rw [hs1]
    simp only [hH]
    rfl

end Kalibr.Pcg
