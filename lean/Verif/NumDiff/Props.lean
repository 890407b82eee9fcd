import Mathlib.Analysis.Calculus.MeanValue
import Mathlib.Analysis.Calculus.Deriv.Add
import Mathlib.Analysis.Calculus.Deriv.Mul
import Mathlib.Analysis.Calculus.Deriv.Pow
import Mathlib.Analysis.Calculus.Deriv.Comp
import Verif.NumDiff.Model
import Verif.Tactics

/-!
# Numerical Jacobians: what a user relies on

C189.  The estimates are central differences at the given point, exact for quadratic functions and with an error that is
quadratic in the step for smooth ones.  The estimates by intrinsics and distortion are taken at a point that moves from
column to column, and an error term keeps the error of the last perturbed state.
-/

namespace Kalibr.NumDiff

variable {n m : ℕ}

/-! ## Specification -/

/-- The function along one coordinate. -/
def along (f : V n → V m) (x : V n) (c : Fin n) (r : Fin m) (t : ℝ) : ℝ := f (Function.update x c (x c + t)) r

/-- The central difference of a function at zero. -/
noncomputable def central (g : ℝ → ℝ) (h : ℝ) : ℝ := (g h - g (-h)) / (h * 2)

/-- The difference with five points. -/
noncomputable def five (g : ℝ → ℝ) (h : ℝ) : ℝ := (8 * g h + g (-(2 * h)) - g (2 * h) - 8 * g (-h)) / (h * 12)

/-! ## Differences -/

theorem central_quadratic {g : ℝ → ℝ} {a b q h : ℝ} (hh : h ≠ 0) (hg : ∀ t, g t = a + b * t + q * t ^ 2) :
    central g h = b := by
  unfold central
  rw [hg, hg]
  field_simp
  ring

theorem five_quartic {g : ℝ → ℝ} {a b q d e h : ℝ} (hh : h ≠ 0)
    (hg : ∀ t, g t = a + b * t + q * t ^ 2 + d * t ^ 3 + e * t ^ 4) : five g h = b := by
  unfold five
  rw [hg, hg, hg, hg]
  field_simp
  ring

/-- Bounding a function by bounding its derivative. -/
theorem bound_of_deriv {u u' B B' : ℝ → ℝ} {h : ℝ} (hu : ∀ t, HasDerivAt u (u' t) t) (hB : ∀ t, HasDerivAt B (B' t) t)
    (h0 : u 0 = 0) (hB0 : B 0 = 0) (hb : ∀ t, 0 ≤ t → t ≤ h → |u' t| ≤ B' t) : ∀ t, 0 ≤ t → t ≤ h → |u t| ≤ B t := by
  intro t ht hth
  have := image_norm_le_of_norm_deriv_right_le_deriv_boundary' (f := u) (f' := u') (a := 0) (b := h) (B := B) (B' := B')
    (fun x _ => (hu x).continuousAt.continuousWithinAt) (fun x _ => (hu x).hasDerivWithinAt)
    (by rw [h0, hB0]; simp) (fun x _ => (hB x).continuousAt.continuousWithinAt) (fun x _ => (hB x).hasDerivWithinAt)
    (fun x hx => by rw [Real.norm_eq_abs]; exact hb x hx.1 hx.2.le) ⟨ht, hth⟩
  rwa [Real.norm_eq_abs] at this

theorem hasDerivAt_reflect {g g' : ℝ → ℝ} (hg : ∀ t, HasDerivAt g (g' t) t) (t : ℝ) :
    HasDerivAt (fun t => g (-t)) (-g' (-t)) t := by
  exact ((hg (-t)).comp t (hasDerivAt_neg t)).congr_deriv (by ring)

theorem central_error {g g1 g2 g3 : ℝ → ℝ} {h M : ℝ} (hh : 0 < h) (d1 : ∀ t, HasDerivAt g (g1 t) t)
    (d2 : ∀ t, HasDerivAt g1 (g2 t) t) (d3 : ∀ t, HasDerivAt g2 (g3 t) t) (hM : ∀ t, |t| ≤ h → |g3 t| ≤ M) :
    |central g h - g1 0| ≤ M * h ^ 2 / 6 := by
  have r1 := hasDerivAt_reflect d1
  have r2 := hasDerivAt_reflect d2
  have r3 := hasDerivAt_reflect d3
  -- the three levels
  have e3 : ∀ t, HasDerivAt (fun t => g2 t - g2 (-t)) (g3 t - -g3 (-t)) t := fun t => (d3 t).sub (r3 t)
  have e2 : ∀ t, HasDerivAt (fun t => g1 t + g1 (-t) - 2 * g1 0) (g2 t - g2 (-t)) t := fun t => by
    exact (((d2 t).add (r2 t)).sub_const (2 * g1 0)).congr_deriv (by ring)
  have e1 : ∀ t, HasDerivAt (fun t => g t - g (-t) - 2 * g1 0 * t) (g1 t + g1 (-t) - 2 * g1 0) t := fun t => by
    exact (((d1 t).sub (r1 t)).sub ((hasDerivAt_id t).const_mul (2 * g1 0))).congr_deriv (by ring)
  have b3 : ∀ t, HasDerivAt (fun t : ℝ => 2 * M * t) (2 * M) t := fun t => by
    simpa using (hasDerivAt_id t).const_mul (2 * M)
  have b2 : ∀ t, HasDerivAt (fun t : ℝ => M * t ^ 2) (2 * M * t) t := fun t => by
    exact ((hasDerivAt_pow 2 t).const_mul M).congr_deriv (by push_cast; ring)
  have b1 : ∀ t, HasDerivAt (fun t : ℝ => M / 3 * t ^ 3) (M * t ^ 2) t := fun t => by
    exact ((hasDerivAt_pow 3 t).const_mul (M / 3)).congr_deriv (by push_cast; ring)
  have k3 := bound_of_deriv (h := h) e3 b3 (by simp) (by simp) fun t h0 h1 => by
    have m1 := hM t (by rw [abs_of_nonneg h0]; exact h1)
    have m2 := hM (-t) (by rw [abs_neg, abs_of_nonneg h0]; exact h1)
    rw [abs_le] at *
    constructor <;> linarith
  have k2 := bound_of_deriv (h := h) e2 b2 (by simp; ring) (by simp) k3
  have k1 := bound_of_deriv (h := h) e1 b1 (by simp) (by simp) k2 h hh.le le_rfl
  have he : central g h - g1 0 = (g h - g (-h) - 2 * g1 0 * h) / (h * 2) := by
    unfold central; field_simp
  rw [he, abs_div, abs_of_pos (by linarith : 0 < h * 2), div_le_iff₀ (by linarith)]
  calc _ ≤ _ := k1
    _ = _ := by ring

theorem stepOf_pos {eps x : ℝ} (h : 0 < eps) : 0 < stepOf eps x := lt_of_lt_of_le h (le_max_right _ _)

/-! ## The loops -/

theorem setCol_self (J : Jac m n) (c : Fin n) (v : V m) (r : Fin m) : setCol J c v r c = v r := by simp [setCol]

theorem setCol_ne (J : Jac m n) {c d : Fin n} (h : d ≠ c) (v : V m) (r : Fin m) : setCol J c v r d = J r d := by
  simp [setCol, h]

theorem estimate_foldl {S : Type} (g : V n → V m) (f : V n → S → V m × S) (hf : ∀ x s, (f x s).1 = g x) (eps : ℝ)
    (x0 : V n) (l : List (Fin n)) (hl : l.Nodup) (J : Jac m n) (s : S) (c : Fin n) (r : Fin m) :
    (l.foldl (fun (a : Jac m n × S) c =>
      let h := stepOf eps (x0 c)
      let p := f (update x0 c h) a.2
      let q := f (update x0 c (-h)) p.2
      (setCol a.1 c fun r => (p.1 r - q.1 r) / (h * 2), q.2)) (J, s)).1 r c =
    if c ∈ l then central (along g x0 c r) (stepOf eps (x0 c)) else J r c := by
  induction l generalizing J s with
  | nil => simp
  | cons d l ih =>
    rw [List.foldl_cons, ih (List.nodup_cons.1 hl).2]
    by_cases hc : c ∈ l
    · rw [if_pos hc, if_pos (List.mem_cons_of_mem _ hc)]
    · rw [if_neg hc]
      by_cases hcd : c = d
      · subst hcd
        rw [if_pos (by simp)]
        simp only [setCol_self, hf]
        rfl
      · rw [if_neg (by simp [hcd, hc])]
        simp only
        rw [setCol_ne _ hcd]

theorem update_cancel (x : V n) (c : Fin n) (a b : ℝ) : update (update x c a) c b = update x c (a + b) := by
  unfold update
  simp [add_assoc]

theorem update_zero (x : V n) (c : Fin n) : update x c 0 = x := by simp [update]

theorem camera_foldl (f : V n → V m) (step : ℝ) (x0 : V n) (l : List (Fin n)) (hl : l.Nodup) (J : Jac m n) :
    (l.foldl (fun (a : Jac m n × V n) c =>
      let x := update a.2 c step
      let fxp := f x
      let x := update x c (-(2 * step))
      let fxm := f x
      let x := update x c step
      (setCol a.1 c fun r => (fxp r - fxm r) / (step * 2), x)) (J, x0)).2 = x0 ∧
    ∀ c r, (l.foldl (fun (a : Jac m n × V n) c =>
      let x := update a.2 c step
      let fxp := f x
      let x := update x c (-(2 * step))
      let fxm := f x
      let x := update x c step
      (setCol a.1 c fun r => (fxp r - fxm r) / (step * 2), x)) (J, x0)).1 r c =
      if c ∈ l then central (along f x0 c r) step else J r c := by
  induction l generalizing J with
  | nil => simp
  | cons d l ih =>
    simp only [List.foldl_cons, update_cancel]
    have e0 : -step + step = 0 := by ring
    have e1 : step + -(2 * step) = -step := by ring
    simp only [update_cancel, e0, e1, update_zero] at ih ⊢
    obtain ⟨i1, i2⟩ := ih (List.nodup_cons.1 hl).2 (setCol J d fun r => (f (update x0 d step) r - f (update x0 d (-step)) r) / (step * 2))
    refine ⟨i1, fun c r => ?_⟩
    rw [i2]
    by_cases hc : c ∈ l
    · rw [if_pos hc, if_pos (List.mem_cons_of_mem _ hc)]
    · rw [if_neg hc]
      by_cases hcd : c = d
      · subst hcd
        rw [if_pos (by simp), setCol_self]
        rfl
      · rw [if_neg (by simp [hcd, hc]), setCol_ne _ hcd]

/-- The loop over the parameters: the point the columns are taken at moves by two steps in each coordinate that was done. -/
theorem intrinsic_foldl (f : V n → V m) (step : ℝ) (p : V n) (l : List (Fin n)) (hl : l.Nodup) (J : Jac m n) (I q : V n)
    (pre : List (Fin n)) (c : Fin n) (suf : List (Fin n)) (hpre : l = pre ++ c :: suf) (r : Fin m) :
    (l.foldl (fun (a : Jac m n × V n × V n) c =>
      let I := update a.2.1 c (2 * step)
      let fa := f I
      let I := update I c (-step)
      let fb := f I
      let I := update I c (-(2 * step))
      let fc := f I
      let I := update I c (-step)
      let fd := f I
      (setCol a.1 c fun r => (8 * fb r + fd r - fa r - 8 * fc r) / (step * 12), I, p)) (J, I, q)).1 r c =
    five (along f (fun j => if j ∈ pre then I j - 2 * step else I j) c r) step := by
  have keep : ∀ (l : List (Fin n)) (a : Jac m n × V n × V n), c ∉ l →
      (l.foldl (fun (a : Jac m n × V n × V n) c =>
        let I := update a.2.1 c (2 * step)
        let fa := f I
        let I := update I c (-step)
        let fb := f I
        let I := update I c (-(2 * step))
        let fc := f I
        let I := update I c (-step)
        let fd := f I
        (setCol a.1 c fun r => (8 * fb r + fd r - fa r - 8 * fc r) / (step * 12), I, p)) a).1 r c = a.1 r c := by
    intro l
    induction l with
    | nil => intro a _; rfl
    | cons d l ih =>
      intro a h
      rw [List.mem_cons, not_or] at h
      rw [List.foldl_cons, ih _ h.2]
      simp only
      rw [setCol_ne _ h.1]
  induction pre generalizing l J I q with
  | nil =>
    subst hpre
    simp only [List.nil_append] at *
    rw [List.foldl_cons, keep _ _ (List.nodup_cons.1 hl).1]
    simp only [setCol_self, update_cancel, List.not_mem_nil, if_false]
    have e1 : 2 * step + -step = step := by ring
    have e2 : step + -(2 * step) = -step := by ring
    have e3 : -step + -step = -(2 * step) := by ring
    rw [e1, e2, e3]
    rfl
  | cons d pre ih =>
    subst hpre
    have hl' := List.nodup_cons.1 hl
    rw [List.cons_append, List.foldl_cons]
    simp only [update_cancel] at *
    rw [ih (pre ++ c :: suf) hl'.2 _ _ _ rfl]
    congr 2
    funext j
    have e : 2 * step + -step + -(2 * step) + -step = -(2 * step) := by ring
    rw [e]
    have hd : d ∉ pre := fun h => hl'.1 (List.mem_append_left _ h)
    by_cases hjd : j = d
    · subst hjd
      rw [if_neg hd, if_pos (by simp)]
      simp [update, sub_eq_add_neg]
    · have : update I d (-(2 * step)) j = I j := by simp [update, hjd]
      rw [this]
      simp [hjd]

/-! ## C189 -/

/-- The estimate, of a functor with whatever effects, is in every entry the central difference at the given point with a step
of at least `eps`, at least `eps` times the coordinate and no longer. -/
theorem C189_estimate {S : Type} (g : V n → V m) (f : V n → S → V m × S) (hf : ∀ x s, (f x s).1 = g x) (eps : ℝ)
    (h0 : 0 < eps) (x0 : V n) (s : S) (r : Fin m) (c : Fin n) :
    ∃ h, 0 < h ∧ eps ≤ h ∧ |x0 c| * eps ≤ h ∧ (h = eps ∨ h = |x0 c| * eps) ∧
      (estimate f eps x0 s).1 r c = central (along g x0 c r) h := by
  refine ⟨stepOf eps (x0 c), stepOf_pos h0, le_max_right _ _, le_max_left _ _, ?_, ?_⟩
  · rcases max_choice (|x0 c| * eps) eps with h | h
    · exact Or.inr h
    · exact Or.inl h
  · unfold estimate
    rw [estimate_foldl g f hf eps x0 _ (List.nodup_finRange n)]
    simp

/-- So it is exact for functions that are quadratic along the coordinate. -/
theorem C189_exact {S : Type} (g : V n → V m) (f : V n → S → V m × S) (hf : ∀ x s, (f x s).1 = g x) (eps : ℝ)
    (h0 : 0 < eps) (x0 : V n) (s : S) (r : Fin m) (c : Fin n) (a b q : ℝ)
    (hg : ∀ t, along g x0 c r t = a + b * t + q * t ^ 2) : (estimate f eps x0 s).1 r c = b := by
  obtain ⟨h, hp, _, _, _, he⟩ := C189_estimate g f hf eps h0 x0 s r c
  rw [he]; exact central_quadratic hp.ne' hg

/-- And for functions with a third derivative bounded by `M` its error is at most `M / 6` times the square of the step. -/
theorem C189_error {S : Type} (g : V n → V m) (f : V n → S → V m × S) (hf : ∀ x s, (f x s).1 = g x) (eps : ℝ)
    (h0 : 0 < eps) (x0 : V n) (s : S) (r : Fin m) (c : Fin n) (g1 g2 g3 : ℝ → ℝ) (M : ℝ)
    (d1 : ∀ t, HasDerivAt (along g x0 c r) (g1 t) t) (d2 : ∀ t, HasDerivAt g1 (g2 t) t)
    (d3 : ∀ t, HasDerivAt g2 (g3 t) t) (hM : ∀ t, |g3 t| ≤ M) :
    |(estimate f eps x0 s).1 r c - g1 0| ≤ M * (max (|x0 c| * eps) eps) ^ 2 / 6 := by
  unfold estimate
  rw [estimate_foldl g f hf eps x0 _ (List.nodup_finRange n)]
  simp only [List.mem_finRange, if_true]
  exact central_error (stepOf_pos h0) d1 d2 d3 fun t _ => hM t

/-- The Jacobian of an error term is the one of its error by changes of its variables, and the variables are as before. -/
theorem C189_term {X : Type} (apply : X → V n → X) (err : X → V m) (t : Term X m) :
    (evaluateJacobians apply err t).2.vars = t.vars ∧
    ∀ r c, (evaluateJacobians apply err t).1 r c = central (along (fun d => err (apply t.vars d)) (fun _ => 0) c r) 1e-6 := by
  -- the variables are the same all the time
  have key : ∀ (l : List (Fin n)), l.Nodup → ∀ (J : Jac m n) (u : Term X m), u.vars = t.vars →
      (l.foldl (fun (a : Jac m n × Term X m) c =>
        let h := stepOf 1e-6 ((fun _ => 0 : V n) c)
        let p := functor apply err (update (fun _ => 0) c h) a.2
        let q := functor apply err (update (fun _ => 0) c (-h)) p.2
        (setCol a.1 c fun r => (p.1 r - q.1 r) / (h * 2), q.2)) (J, u)).2.vars = t.vars ∧
      ∀ r c, (l.foldl (fun (a : Jac m n × Term X m) c =>
        let h := stepOf 1e-6 ((fun _ => 0 : V n) c)
        let p := functor apply err (update (fun _ => 0) c h) a.2
        let q := functor apply err (update (fun _ => 0) c (-h)) p.2
        (setCol a.1 c fun r => (p.1 r - q.1 r) / (h * 2), q.2)) (J, u)).1 r c =
        if c ∈ l then central (along (fun d => err (apply t.vars d)) (fun _ => 0) c r) 1e-6 else J r c := by
    intro l
    induction l with
    | nil => intro _ J u hu; exact ⟨hu, fun r c => by simp⟩
    | cons d l ih =>
      intro hl J u hu
      simp only [List.foldl_cons]
      have hs : stepOf 1e-6 0 = 1e-6 := by unfold stepOf; norm_num
      obtain ⟨i1, i2⟩ := ih (List.nodup_cons.1 hl).2
        (setCol J d fun r => ((functor apply err (update (fun _ => 0) d (stepOf 1e-6 0)) u).1 r -
          (functor apply err (update (fun _ => 0) d (-stepOf 1e-6 0))
            (functor apply err (update (fun _ => 0) d (stepOf 1e-6 0)) u).2).1 r) / (stepOf 1e-6 0 * 2))
        (functor apply err (update (fun _ => 0) d (-stepOf 1e-6 0))
            (functor apply err (update (fun _ => 0) d (stepOf 1e-6 0)) u).2).2 hu
      refine ⟨i1, fun r c => ?_⟩
      rw [i2]
      by_cases hc : c ∈ l
      · rw [if_pos hc, if_pos (List.mem_cons_of_mem _ hc)]
      · rw [if_neg hc]
        by_cases hcd : c = d
        · subst hcd
          rw [if_pos (by simp), setCol_self, hs]
          simp only [functor, hu]
          rfl
        · rw [if_neg (by simp [hcd, hc]), setCol_ne _ hcd]
  have := key (List.finRange n) (List.nodup_finRange n) (fun _ _ => 0)
    (functor apply err (fun _ => 0) t).2 rfl
  unfold evaluateJacobians estimate
  refine ⟨this.1, fun r c => ?_⟩
  rw [this.2]
  simp

/-- The estimate by the point or the keypoint takes the central difference at the given point in every column, and leaves the
point as it was. -/
theorem C189_camera (f : V n → V m) (step : ℝ) (x0 : V n) :
    (camera f step x0).2 = x0 ∧ ∀ r c, (camera f step x0).1 r c = central (along f x0 c r) step := by
  obtain ⟨h1, h2⟩ := camera_foldl f step x0 (List.finRange n) (List.nodup_finRange n) fun _ _ => 0
  unfold camera
  refine ⟨h1, fun r c => ?_⟩
  rw [h2]; simp

/-- So it is exact for functions that are quadratic along the coordinate. -/
theorem C189_camera_exact (f : V n → V m) (step : ℝ) (hs : step ≠ 0) (x0 : V n) (r : Fin m) (c : Fin n) (a b q : ℝ)
    (hf : ∀ t, along f x0 c r t = a + b * t + q * t ^ 2) : (camera f step x0).1 r c = b := by
  rw [(C189_camera f step x0).2]; exact central_quadratic hs hf

/-- The estimate by the parameters, in whichever order of the columns: a column is exact for functions that are quartic along
the parameter, but at a point where the parameters of the columns before are smaller by two steps.  The parameters are left
as they were. -/
theorem C189_intrinsic_partial (f : V n → V m) (step : ℝ) (hs : step ≠ 0) (x0 : V n) (pre : List (Fin n)) (c : Fin n)
    (suf : List (Fin n)) (hn : (pre ++ c :: suf).Nodup) (r : Fin m) (a b q d e : ℝ)
    (hf : ∀ t, along f (fun j => if j ∈ pre then x0 j - 2 * step else x0 j) c r t =
      a + b * t + q * t ^ 2 + d * t ^ 3 + e * t ^ 4) :
    (intrinsic f step x0 (pre ++ c :: suf)).1 r c = b ∧ (intrinsic f step x0 (pre ++ c :: suf)).2.2 = x0 := by
  constructor
  · unfold intrinsic
    rw [intrinsic_foldl f step x0 _ hn _ _ _ pre c suf rfl]
    exact five_quartic hs hf
  · unfold intrinsic
    have : ∀ (l : List (Fin n)) (b : Jac m n × V n × V n), b.2.2 = x0 →
        (l.foldl (fun (a : Jac m n × V n × V n) c =>
          let I := update a.2.1 c (2 * step)
          let fa := f I
          let I := update I c (-step)
          let fb := f I
          let I := update I c (-(2 * step))
          let fc := f I
          let I := update I c (-step)
          let fd := f I
          (setCol a.1 c fun r => (8 * fb r + fd r - fa r - 8 * fc r) / (step * 12), I, x0)) b).2.2 = x0 := by
      intro l
      induction l with
      | nil => intro b hb; exact hb
      | cons d l ih => intro b _; rw [List.foldl_cons]; exact ih _ rfl
    exact this _ _ rfl

/-- So the estimate by the parameters is wrong already for the product of two parameters. -/
theorem C189_intrinsic_counterexample (step : ℝ) (hs : step ≠ 0) (x0 : V 2) :
    (intrinsic (fun x => (fun _ => x 0 * x 1 : V 1)) step x0 [0, 1]).1 0 1 = x0 0 - 2 * step ∧
    ∀ t, HasDerivAt (along (fun x => (fun _ => x 0 * x 1 : V 1)) x0 1 0) (x0 0) t := by
  constructor
  · refine (C189_intrinsic_partial (fun x => (fun _ => x 0 * x 1 : V 1)) step hs x0 [0] 1 [] (by decide) 0
      ((x0 0 - 2 * step) * x0 1) (x0 0 - 2 * step) 0 0 0 fun t => ?_).1
    simp [along]
    ring
  · intro t
    have h : along (fun x => (fun _ => x 0 * x 1 : V 1)) x0 1 0 = fun t => x0 0 * (x0 1 + t) := by
      funext t; simp [along]
    rw [h]
    have := ((hasDerivAt_id t).const_add (x0 1)).const_mul (x0 0)
    simpa using this

/-- The error that an error term holds after its Jacobian was estimated is not the one of its variables. -/
theorem C189_stale_counterexample :
    ∃ (apply : ℝ → V 1 → ℝ) (err : ℝ → V 1) (t : Term ℝ 1), t.error = err t.vars ∧
      (evaluateJacobians apply err t).2.vars = t.vars ∧ (evaluateJacobians apply err t).2.error ≠ err t.vars := by
  refine ⟨fun x d => x + d 0, fun x _ => x, ⟨1, fun _ => 1⟩, rfl, (C189_term _ _ _).1, ?_⟩
  intro h
  have h0 := congrFun h 0
  simp only [evaluateJacobians, estimate, List.finRange_succ, List.finRange_zero, List.map_nil, List.foldl_cons,
    List.foldl_nil, functor, update, stepOf] at h0
  norm_num at h0

/-- A function that meets the conditions: a product, which is linear along each coordinate. -/
example (x0 : V 2) : ∀ t, along (fun x => (fun _ => x 0 * x 1 : V 1)) x0 0 0 t = x0 0 * x0 1 + x0 1 * t + 0 * t ^ 2 := by
  intro t; simp [along]; ring

/-- The cube has a bounded third derivative. -/
example : ∀ t : ℝ, HasDerivAt (fun t : ℝ => t ^ 3) (3 * t ^ 2) t ∧ HasDerivAt (fun t : ℝ => 3 * t ^ 2) (6 * t) t ∧
    HasDerivAt (fun t : ℝ => 6 * t) 6 t := fun t =>
  ⟨by simpa using hasDerivAt_pow 3 t,
   ((hasDerivAt_pow 2 t).const_mul 3).congr_deriv (by push_cast; ring),
   by simpa using (hasDerivAt_id t).const_mul 6⟩

end Kalibr.NumDiff
