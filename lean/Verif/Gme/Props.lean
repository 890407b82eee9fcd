import Verif.Gme.Calc

/-!
# C169: the generic matrix expressions and the quaternion expressions
-/

namespace Kalibr.Gme

open Kalibr.Kin Kalibr.Exp Matrix

/-! ## The change of an expression with a step -/

/-- The change of the value of an expression with a step of the variables, by the rules of calculus. -/
noncomputable def tan (x : St) (δ : Incr) : {r c : ℕ} → GE r c → Mat r c
  | _, _, .const _ => 0
  | _, _, .gen id n => colOf 1 (δ (.gen id n))
  | _, _, .quat id m g => colOf 1 ((dUpdate m g (x (.quat id m g))).mulVec (δ (.quat id m g)))
  | _, _, .vec id n => colOf 1 (δ (.vec id n))
  | _, _, .same e => tan x δ e
  | _, _, .transpose e => (tan x δ e)ᵀ
  | _, _, .inverse e => -(eval x e)⁻¹ * tan x δ e * (eval x e)⁻¹
  | _, _, .mul a b => tan x δ a * eval x b + eval x a * tan x δ b
  | _, _, .add a b => tan x δ a + tan x δ b
  | _, _, .sub a b => tan x δ a + -tan x δ b
  | _, _, .neg e => -tan x δ e
  | _, _, .scale e s => s • tan x δ e
  | _, _, .crossL a b => crossCols (tan x δ a) (eval x b) + crossCols (eval x a) (tan x δ b)
  | _, _, .crossR a b => colsCross (tan x δ a) (eval x b) + colsCross (eval x a) (tan x δ b)
  | _, _, .qmul m a b => colOf 1 (quatMult m (vecOf (tan x δ a)) (vecOf (eval x b))) + colOf 1 (quatMult m (vecOf (eval x a)) (vecOf (tan x δ b)))
  | _, _, .qinv m e =>
    let c := conjugate m (vecOf (eval x e))
    colOf 1 ((1 / (sqNorm c * sqNorm c)) • -quatMult m c (quatMult m (vecOf (tan x δ e)) c))
  | _, _, .qconj m e => colOf 1 (conjugate m (vecOf (tan x δ e)))
  | _, _, .imag m e => colOf 1 (imagPart m (vecOf (tan x δ e)))
  | _, _, .rotate m q v =>
    let a := vecOf (eval x q)
    let b := vecOf (eval x v)
    colOf 1 (imagPart m (quatMult m (quatMultV m a b) (conjugate m (vecOf (tan x δ q))) + quatMult m (quatMultV m (vecOf (tan x δ q)) b) (conjugate m a))) +
      colOf 1 (imagPart m (quatMult m (quatMultV m a (vecOf (tan x δ v))) (conjugate m a)))
  | _, _, .exp m v => colOf 1 ((dexp m (vecOf (eval x v))).mulVec (vecOf (tan x δ v)))

theorem cross_bilin {a b : ℝ → V3} {a' b' : V3} (ha : VDeriv a a') (hb : VDeriv b b') :
    VDeriv (fun s => crossProduct (a s) (b s)) (crossProduct a' (b 0) + crossProduct (a 0) b') :=
  VDeriv.bilin crossProduct ha hb

theorem tan_deriv (x : St) (δ : Incr) {r c : ℕ} (e : GE r c) (hr : Regular x e) : MDeriv (fun s : ℝ => eval (upd x (s • δ)) e) (tan x δ e) := by
  have z : upd x ((0 : ℝ) • δ) = x := by rw [zero_smul, upd_zero]
  induction e with
  | const M => exact MDeriv.const M
  | gen id n =>
    refine mderiv_colOf 1 (v := fun s => upd x (s • δ) (.gen id n)) fun i => ?_
    have : HasDerivAt (fun s : ℝ => x (.gen id n) i + s * δ (.gen id n) i) (δ (.gen id n) i) 0 := by
      simpa using ((hasDerivAt_id (0 : ℝ)).mul_const (δ (.gen id n) i)).const_add (x (.gen id n) i)
    exact this
  | quat id m g => exact mderiv_colOf 1 (v := fun s : ℝ => updateQ m g (x (.quat id m g)) (s • δ (.quat id m g))) (updateQ_deriv m g _ _)
  | vec id n =>
    refine mderiv_colOf 1 (v := fun s => upd x (s • δ) (.vec id n)) fun i => ?_
    have : HasDerivAt (fun s : ℝ => x (.vec id n) i + s * δ (.vec id n) i) (δ (.vec id n) i) 0 := by
      simpa using ((hasDerivAt_id (0 : ℝ)).mul_const (δ (.vec id n) i)).const_add (x (.vec id n) i)
    exact this
  | same e ih => exact ih hr
  | transpose e ih => exact (ih hr).transpose
  | inverse e ih =>
    refine ((ih hr.1).inv (by rw [z]; exact hr.2)).congr ?_
    simp only [z, tan, Matrix.neg_mul]
  | mul a b iha ihb =>
    refine ((iha hr.1).mul (ihb hr.2)).congr ?_
    simp only [z, tan]
  | add a b iha ihb => exact fun i j => (iha hr.1 i j).add (ihb hr.2 i j)
  | sub a b iha ihb =>
    intro i j
    refine ((iha hr.1 i j).sub (ihb hr.2 i j)).congr_deriv ?_
    simp [tan, sub_eq_add_neg]
  | neg e ih => exact fun i j => (ih hr i j).neg
  | scale e s ih => exact fun i j => (ih hr i j).const_mul s
  | crossL a b iha ihb =>
    intro i j
    have := cross_bilin (mderiv_vecOf (iha hr.1)) (b := fun s k => eval (upd x (s • δ)) b k j) (b' := fun k => tan x δ b k j) (fun k => ihb hr.2 k j) i
    simp only [z] at this
    exact this
  | crossR a b iha ihb =>
    intro i j
    have := cross_bilin (a := fun s k => eval (upd x (s • δ)) a k j) (a' := fun k => tan x δ a k j) (fun k => iha hr.1 k j) (mderiv_vecOf (ihb hr.2)) i
    simp only [z] at this
    exact this
  | qmul m a b iha ihb =>
    refine (mderiv_colOf 1 (VDeriv.bilin (multB m) (mderiv_vecOf (iha hr.1)) (mderiv_vecOf (ihb hr.2)))).congr ?_
    simp only [z, tan, multB_apply]
    rfl
  | qinv m e ih =>
    refine (mderiv_colOf 1 (invert_deriv m (mderiv_vecOf (ih hr.1)) (by rw [z]; exact hr.2))).congr ?_
    simp only [z, tan]
  | qconj m e ih => exact mderiv_colOf 1 (VDeriv.lin (conjL m) (mderiv_vecOf (ih hr)))
  | imag m e ih => exact mderiv_colOf 1 (VDeriv.lin (imagL m) (mderiv_vecOf (ih hr)))
  | rotate m q v ihq ihv =>
    have hq := mderiv_vecOf (ihq hr.1)
    have hv := mderiv_vecOf (ihv hr.2)
    have h1 := VDeriv.bilin (multVB m) hq hv
    have h2 := VDeriv.bilin (multB m) h1 (VDeriv.lin (conjL m) hq)
    refine (mderiv_colOf 1 (VDeriv.lin (imagL m) h2)).congr ?_
    simp only [z, tan, multB_apply, multVB_apply, conjL_apply, imagL_apply]
    have e1 : ∀ a b c : V4, quatMult m (a + b) c = quatMult m a c + quatMult m b c := fun a b c => by
      rw [← multB_apply, map_add]; rfl
    have e2 : ∀ a b : V4, imagPart m (a + b) = imagPart m a + imagPart m b := fun a b => map_add (imagL m) a b
    have e3 : ∀ a b : V3, colOf 1 (a + b) = colOf 1 a + colOf 1 b := fun a b => rfl
    rw [e1, e2, e2, e2, e3, e3, e3]
    abel
  | exp m v ih =>
    refine (mderiv_colOf 1 (qexp_deriv m (mderiv_vecOf (ih hr.1)) (by rw [z]; exact hr.2))).congr ?_
    simp only [z, tan]

/-! ## What the differentials add -/

/-- A differential is linear, and what it adds for a variable agrees with it. -/
structure Good {R r c : ℕ} (D : Diff R r c) : Prop where
  add : ∀ s t, D.applyInto (s + t) = D.applyInto s + D.applyInto t
  smul : ∀ (k : ℝ) t, D.applyInto (k • t) = k • D.applyInto t
  addTo : c = 1 → ∀ v, D.addTo.mulVec v = D.applyInto (colOf c v)
  addToWith : c = 1 → ∀ {k : ℕ} (J : Mat r k) v, (D.addToWith J).mulVec v = D.applyInto (colOf c (J.mulVec v))

/-- The matrix of a differential agrees with it. -/
def GoodC {R r c : ℕ} (D : Diff R r c) : Prop := c = 1 → ∃ A, D.convert = some A ∧ ∀ v, A.mulVec v = D.applyInto (colOf c v)

theorem vecOf_colOf {n : ℕ} (v : Fin n → ℝ) : vecOf (colOf 1 v) = v := rfl

theorem good_identity (r : ℕ) : Good (Diff.identity r) ∧ GoodC (Diff.identity r) :=
  ⟨⟨fun _ _ => rfl, fun _ _ => rfl, fun _ v => by simp [Diff.identity, vecOf_colOf], fun _ _ _ v => rfl⟩,
    fun _ => ⟨1, rfl, fun v => by simp [Diff.identity, vecOf_colOf]⟩⟩

theorem good_matrix {R r : ℕ} (A : Mat R r) : Good (Diff.matrix A) ∧ GoodC (Diff.matrix A) :=
  ⟨⟨fun s t => by simp only [Diff.matrix]; rw [← Matrix.mulVec_add]; rfl, fun k t => by simp only [Diff.matrix]; rw [← Matrix.mulVec_smul]; rfl,
    fun _ v => rfl, fun _ _ J v => by simp [Diff.matrix, vecOf_colOf]⟩, fun _ => ⟨A, rfl, fun v => rfl⟩⟩

/-- A linear function on columns is the sum over its values on a basis. -/
theorem sum_columns {R r k : ℕ} (f : Mat r 1 → Fin R → ℝ) (ha : ∀ s t, f (s + t) = f s + f t) (hs : ∀ (a : ℝ) t, f (a • t) = a • f t)
    (C : Fin k → Mat r 1) (v : Fin k → ℝ) : (fun ρ => ∑ j, f (C j) ρ * v j) = f (∑ j, v j • C j) := by
  let F : Mat r 1 →ₗ[ℝ] (Fin R → ℝ) := ⟨⟨f, ha⟩, hs⟩
  have : f (∑ j, v j • C j) = ∑ j, v j • f (C j) := by
    show F _ = _
    rw [map_sum]
    exact Finset.sum_congr rfl fun j _ => map_smul F (v j) (C j)
  rw [this]
  funext ρ
  rw [Finset.sum_apply]
  exact Finset.sum_congr rfl fun j _ => by simp [mul_comm]

theorem basis_sum {r : ℕ} (v : Fin r → ℝ) : ∑ i, v i • basisMat r 1 i = colOf 1 v := by
  funext a b
  rw [Matrix.sum_apply]
  rw [Finset.sum_eq_single a]
  · have h1 : a.val % r = a.val := Nat.mod_eq_of_lt a.isLt
    have h2 : a.val / r = 0 := Nat.div_eq_of_lt a.isLt
    have : b.val = 0 := by omega
    simp [basisMat, colOf, h1, h2, this]
  · intro i _ hi
    have h1 : i.val % r = i.val := Nat.mod_eq_of_lt i.isLt
    have : a.val ≠ i.val % r := fun e => hi (Fin.ext (by rw [e, h1]))
    simp [basisMat, this]
  · intro h; exact absurd (Finset.mem_univ a) h

theorem cols_sum {r k : ℕ} (J : Mat r k) (v : Fin k → ℝ) : ∑ j, v j • colOf 1 (fun a => J a j) = colOf 1 (J.mulVec v) := by
  funext a b
  rw [Matrix.sum_apply]
  simp [colOf, Matrix.mulVec, dotProduct, mul_comm]

theorem good_composed {R r c r' c' : ℕ} {f : Mat r c → Mat r' c'} {D : Diff R r' c'} (hD : Good D) (ha : ∀ s t, f (s + t) = f s + f t)
    (hs : ∀ (k : ℝ) t, f (k • t) = k • f t) : Good (Diff.composed f D) ∧ GoodC (Diff.composed f D) := by
  have add : ∀ s t, (Diff.composed f D).applyInto (s + t) = (Diff.composed f D).applyInto s + (Diff.composed f D).applyInto t := fun s t => by
    simp only [Diff.composed]; rw [ha, hD.add]
  have smul : ∀ (k : ℝ) t, (Diff.composed f D).applyInto (k • t) = k • (Diff.composed f D).applyInto t := fun k t => by
    simp only [Diff.composed]; rw [hs, hD.smul]
  have h1 : c = 1 → ∀ v, (Diff.composed f D).addTo.mulVec v = (Diff.composed f D).applyInto (colOf c v) := by
    rintro rfl v
    rw [← basis_sum, ← sum_columns _ add smul]; rfl
  have h2 : c = 1 → ∀ {k : ℕ} (J : Mat r k) v, ((Diff.composed f D).addToWith J).mulVec v = (Diff.composed f D).applyInto (colOf c (J.mulVec v)) := by
    rintro rfl k J v
    rw [← cols_sum, ← sum_columns _ add smul]; rfl
  exact ⟨⟨add, smul, h1, h2⟩, fun hc => ⟨_, rfl, h1 hc⟩⟩

theorem good_composedMatrix {R r r' : ℕ} (M : Mat r' r) {D : Diff R r' 1} (hD : Good D) : Good (Diff.composedMatrix M D) := by
  refine ⟨fun s t => ?_, fun k t => ?_, fun _ v => ?_, fun _ k J v => ?_⟩
  · simp only [Diff.composedMatrix]; rw [← hD.add]; congr 1
    have : vecOf (s + t) = vecOf s + vecOf t := rfl
    rw [this, Matrix.mulVec_add]; rfl
  · simp only [Diff.composedMatrix]; rw [← hD.smul]; congr 1
    have : vecOf (k • t) = k • vecOf t := rfl
    rw [this, Matrix.mulVec_smul]; rfl
  · show _ = D.applyInto (colOf 1 (M.mulVec v))
    rw [← cols_sum, ← sum_columns _ hD.add hD.smul]; rfl
  · show _ = D.applyInto (colOf 1 (M.mulVec (J.mulVec v)))
    rw [Matrix.mulVec_mulVec, ← cols_sum, ← sum_columns _ hD.add hD.smul]; rfl

theorem both_ok {R : ℕ} {a b : Out (List (Block R))} {l k : List (Block R)} (ha : a = .ok l) (hb : b = .ok k) : both a b = .ok (l ++ k) := by
  rw [ha, hb]; rfl

theorem change_append {R : ℕ} (l k : List (Block R)) (δ : Incr) : change (l ++ k) δ = change l δ + change k δ := by
  simp [change]

theorem change_one {R : ℕ} (d : DV) (A : Mat R d.dim) (δ : Incr) : change [⟨d, A⟩] δ = A.mulVec (δ d) := by
  simp [change]

theorem change_nil {R : ℕ} (δ : Incr) : change ([] : List (Block R)) δ = 0 := rfl

/-- What is added to the container of Jacobians is the differential of the change of the expression, with one block for every variable. -/
def JacOk (x : St) {r c : ℕ} (e : GE r c) {R : ℕ} (D : Diff R r c) (f : Incr → Fin R → ℝ) : Prop :=
  ∃ l, jac x e D = .ok l ∧ (∀ δ, change l δ = f δ) ∧ l.map Sigma.fst = vars e

theorem jac_un (x : St) {r c r' c' R : ℕ} {e : GE r' c'} {D : Diff R r c} (hD : Good D) (f : Mat r' c' → Mat r c)
    (ih : ∀ {R : ℕ} (D : Diff R r' c'), Good D → (NotVec e ∨ GoodC D) → JacOk x e D (fun δ => D.applyInto (tan x δ e)))
    (ha : ∀ s t, f (s + t) = f s + f t) (hk : ∀ (k : ℝ) t, f (k • t) = k • f t) :
    JacOk x e (.composed f D) (fun δ => D.applyInto (f (tan x δ e))) := by
  obtain ⟨g, gc⟩ := good_composed hD ha hk
  exact ih _ g (Or.inr gc)

theorem jac_bin (x : St) {r c r' c' r'' c'' R : ℕ} {a : GE r' c'} {b : GE r'' c''} {D : Diff R r c} (hD : Good D) {f : Mat r' c' → Mat r c}
    {g : Mat r'' c'' → Mat r c} (ha : JacOk x a (.composed f D) (fun δ => D.applyInto (f (tan x δ a))))
    (hb : JacOk x b (.composed g D) (fun δ => D.applyInto (g (tan x δ b)))) :
    ∃ l, both (jac x a (.composed f D)) (jac x b (.composed g D)) = .ok l ∧
        (∀ δ, change l δ = D.applyInto (f (tan x δ a) + g (tan x δ b))) ∧ l.map Sigma.fst = vars a ++ vars b := by
  obtain ⟨l, hl, hl2, hl3⟩ := ha
  obtain ⟨k, hk, hk2, hk3⟩ := hb
  exact ⟨l ++ k, both_ok hl hk, fun δ => by rw [change_append, hl2, hk2, hD.add], by rw [List.map_append, hl3, hk3]⟩

theorem crossCols_left {c : ℕ} (b : Mat 3 c) (s t : Mat 3 1) (k : ℝ) : crossCols (s + t) b = crossCols s b + crossCols t b ∧
    crossCols (k • t) b = k • crossCols t b := by
  constructor <;> funext i j
  · have : vecOf (s + t) = vecOf s + vecOf t := rfl
    simp only [crossCols, this, map_add, LinearMap.add_apply, Matrix.add_apply, Pi.add_apply]
  · have : vecOf (k • t) = k • vecOf t := rfl
    simp only [crossCols, this, map_smul, LinearMap.smul_apply, Matrix.smul_apply, Pi.smul_apply]

theorem crossCols_right {c : ℕ} (a : Mat 3 1) (s t : Mat 3 c) (k : ℝ) : crossCols a (s + t) = crossCols a s + crossCols a t ∧
    crossCols a (k • t) = k • crossCols a t := by
  constructor <;> funext i j
  · show crossProduct (vecOf a) ((fun k => s k j) + fun k => t k j) i = _
    rw [map_add]; rfl
  · show crossProduct (vecOf a) (k • fun i => t i j) i = _
    rw [map_smul]; rfl

theorem colsCross_left {c : ℕ} (b : Mat 3 1) (s t : Mat 3 c) (k : ℝ) : colsCross (s + t) b = colsCross s b + colsCross t b ∧
    colsCross (k • t) b = k • colsCross t b := by
  constructor <;> funext i j
  · show crossProduct ((fun k => s k j) + fun k => t k j) (vecOf b) i = _
    rw [map_add]; rfl
  · show crossProduct (k • fun i => t i j) (vecOf b) i = _
    rw [map_smul]; rfl

theorem colsCross_right {c : ℕ} (a : Mat 3 c) (s t : Mat 3 1) (k : ℝ) : colsCross a (s + t) = colsCross a s + colsCross a t ∧
    colsCross a (k • t) = k • colsCross a t := by
  constructor <;> funext i j
  · have : vecOf (s + t) = vecOf s + vecOf t := rfl
    simp only [colsCross, this, map_add, Matrix.add_apply, Pi.add_apply]
  · have : vecOf (k • t) = k • vecOf t := rfl
    simp only [colsCross, this, map_smul, Matrix.smul_apply, Pi.smul_apply]

/-- A linear function on columns. -/
theorem linCol {n k : ℕ} (L : (Fin n → ℝ) →ₗ[ℝ] (Fin k → ℝ)) : (∀ s t : Mat n 1, colOf 1 (L (vecOf (s + t))) = colOf 1 (L (vecOf s)) + colOf 1 (L (vecOf t))) ∧
    ∀ (a : ℝ) (t : Mat n 1), colOf 1 (L (vecOf (a • t))) = a • colOf 1 (L (vecOf t)) := by
  constructor
  · intro s t
    have : vecOf (s + t) = vecOf s + vecOf t := rfl
    rw [this, map_add]; rfl
  · intro a t
    have : vecOf (a • t) = a • vecOf t := rfl
    rw [this, map_smul]; rfl

theorem jac_good (x : St) {r c : ℕ} (e : GE r c) (hs : Supported e) {R : ℕ} (D : Diff R r c) (hD : Good D) (hc : NotVec e ∨ GoodC D) :
    JacOk x e D (fun δ => D.applyInto (tan x δ e)) := by
  induction e generalizing R with
  | const M => exact ⟨[], rfl, fun δ => by
      rw [change_nil]
      have := hD.smul 0 0
      simp only [zero_smul, smul_zero] at this
      exact this.symm, rfl⟩
  | gen id n => exact ⟨_, rfl, fun δ => by rw [change_one]; exact hD.addTo rfl _, rfl⟩
  | quat id m g =>
    have hg : g = .right := hs
    refine ⟨_, by simp only [jac]; rw [if_pos hg], fun δ => ?_, rfl⟩
    rw [change_one]; exact hD.addToWith rfl _ _
  | vec id n =>
    obtain ⟨A, hA, hA2⟩ := (hc.resolve_left fun h => h) rfl
    exact ⟨[⟨.vec id n, A⟩], by simp only [jac]; rw [hA], fun δ => by rw [change_one]; exact hA2 _, rfl⟩
  | same e ih => exact jac_un x hD (fun t => t) (ih hs) (fun _ _ => rfl) (fun _ _ => rfl)
  | transpose e ih => exact jac_un x hD (fun t => tᵀ) (ih hs) (fun _ _ => rfl) (fun _ _ => rfl)
  | inverse e ih =>
    exact jac_un x hD (fun t => -(eval x e)⁻¹ * t * (eval x e)⁻¹) (ih hs) (fun s t => by rw [Matrix.mul_add, Matrix.add_mul])
      (fun k t => by rw [Matrix.mul_smul, Matrix.smul_mul])
  | mul a b iha ihb =>
    exact jac_bin x hD (jac_un x hD (fun t => t * eval x b) (iha hs.1) (fun s t => Matrix.add_mul s t _) (fun k t => Matrix.smul_mul k t _))
      (jac_un x hD (fun t => eval x a * t) (ihb hs.2) (fun s t => Matrix.mul_add _ s t) (fun k t => Matrix.mul_smul _ k t))
  | add a b iha ihb =>
    exact jac_bin x hD (jac_un x hD (fun t => t) (iha hs.1) (fun _ _ => rfl) (fun _ _ => rfl))
      (jac_un x hD (fun t => t) (ihb hs.2) (fun _ _ => rfl) (fun _ _ => rfl))
  | sub a b iha ihb =>
    exact jac_bin x hD (jac_un x hD (fun t => t) (iha hs.1) (fun _ _ => rfl) (fun _ _ => rfl))
      (jac_un x hD (fun t => -t) (ihb hs.2) (fun s t => neg_add s t) (fun k t => (smul_neg k t).symm))
  | neg e ih => exact jac_un x hD (fun t => -t) (ih hs) (fun s t => neg_add s t) (fun k t => (smul_neg k t).symm)
  | scale e s ih => exact jac_un x hD (fun t => s • t) (ih hs) (fun a b => smul_add s a b) (fun k t => smul_comm s k t)
  | crossL a b iha ihb =>
    exact jac_bin x hD
      (jac_un x hD (fun t => crossCols t (eval x b)) (iha hs.1) (fun s t => (crossCols_left _ s t 0).1) (fun k t => (crossCols_left _ 0 t k).2))
      (jac_un x hD (fun t => crossCols (eval x a) t) (ihb hs.2) (fun s t => (crossCols_right _ s t 0).1) (fun k t => (crossCols_right _ 0 t k).2))
  | crossR a b iha ihb =>
    exact jac_bin x hD
      (jac_un x hD (fun t => colsCross t (eval x b)) (iha hs.1) (fun s t => (colsCross_left _ s t 0).1) (fun k t => (colsCross_left _ 0 t k).2))
      (jac_un x hD (fun t => colsCross (eval x a) t) (ihb hs.2) (fun s t => (colsCross_right _ s t 0).1) (fun k t => (colsCross_right _ 0 t k).2))
  | qmul m a b iha ihb =>
    have h1 := linCol ((multB m).flip (vecOf (eval x b)))
    have h2 := linCol (multB m (vecOf (eval x a)))
    exact jac_bin x hD (jac_un x hD _ (iha hs.1) h1.1 h1.2) (jac_un x hD _ (ihb hs.2) h2.1 h2.2)
  | qinv m e ih =>
    have h1 := linCol ((1 / (sqNorm (conjugate m (vecOf (eval x e))) * sqNorm (conjugate m (vecOf (eval x e))))) •
      -((multB m (conjugate m (vecOf (eval x e)))).comp ((multB m).flip (conjugate m (vecOf (eval x e))))))
    exact jac_un x hD _ (ih hs) h1.1 h1.2
  | qconj m e ih => exact jac_un x hD _ (ih hs) (linCol (conjL m)).1 (linCol (conjL m)).2
  | imag m e ih => exact jac_un x hD _ (ih hs) (linCol (imagL m)).1 (linCol (imagL m)).2
  | rotate m q v ihq ihv =>
    have h1 := linCol ((imagL m).comp ((multB m (quatMultV m (vecOf (eval x q)) (vecOf (eval x v)))).comp (conjL m) +
      ((multB m).flip (conjugate m (vecOf (eval x q)))).comp ((multVB m).flip (vecOf (eval x v)))))
    have h2 := linCol ((imagL m).comp (((multB m).flip (conjugate m (vecOf (eval x q)))).comp (multVB m (vecOf (eval x q)))))
    exact jac_bin x hD (jac_un x hD _ (ihq hs.1) h1.1 h1.2) (jac_un x hD _ (ihv hs.2) h2.1 h2.2)
  | exp m v ih => exact ih hs.1 _ (good_composedMatrix _ hD) (Or.inl hs.2)

/-! ## The theorems -/

/-- C169 (partial): the Jacobians that an expression collects, without and with a matrix for the chain rule, are the derivatives of its value with
respect to the steps of the design variables, with one block for every occurrence of a design variable.  Missing: left translated unit quaternions
and exponential maps directly over vector expressions (`C169_left_translated_counterexample`, `C169_exp_of_vector_counterexample`), and the points
where the exponential map is computed with a series. -/
theorem C169_jacobian_partial (x : St) {r : ℕ} (e : GE r 1) (hs : Supported e) (hr : Regular x e) :
    (∃ l, jacobians x e = .ok l ∧ l.map Sigma.fst = vars e ∧
      ∀ δ i, HasDerivAt (fun s : ℝ => eval (upd x (s • δ)) e i 0) (change l δ i) 0) ∧
    ∀ (R : ℕ) (A : Mat R r), ∃ l, jacobiansChain x e A = .ok l ∧ l.map Sigma.fst = vars e ∧
      ∀ δ i, HasDerivAt (fun s : ℝ => (A * eval (upd x (s • δ)) e) i 0) (change l δ i) 0 := by
  constructor
  · obtain ⟨l, hl, h2, h3⟩ := jac_good x e hs (Diff.identity r) (good_identity r).1 (Or.inr (good_identity r).2)
    refine ⟨l, hl, h3, fun δ i => ?_⟩
    rw [h2]
    exact tan_deriv x δ e hr i 0
  · intro R A
    obtain ⟨l, hl, h2, h3⟩ := jac_good x e hs (Diff.matrix A) (good_matrix A).1 (Or.inr (good_matrix A).2)
    refine ⟨l, hl, h3, fun δ i => ?_⟩
    rw [h2]
    refine ((MDeriv.const A).mul (tan_deriv x δ e hr) i 0).congr_deriv ?_
    rw [Matrix.zero_mul, zero_add]; rfl

/-- C169: the value of an expression depends only on the design variables that it names. -/
theorem C169_design_variables {r c : ℕ} (e : GE r c) (x y : St) (h : ∀ d ∈ vars e, x d = y d) : eval x e = eval y e := by
  induction e with
  | const M => rfl
  | gen id n => simp only [eval]; rw [h _ (List.mem_singleton_self _)]
  | quat id m g => simp only [eval]; rw [h _ (List.mem_singleton_self _)]
  | vec id n => simp only [eval]; rw [h _ (List.mem_singleton_self _)]
  | same e ih => exact ih h
  | transpose e ih => simp only [eval]; rw [ih h]
  | inverse e ih => simp only [eval]; rw [ih h]
  | neg e ih => simp only [eval]; rw [ih h]
  | scale e s ih => simp only [eval]; rw [ih h]
  | qinv m e ih => simp only [eval]; rw [ih h]
  | qconj m e ih => simp only [eval]; rw [ih h]
  | imag m e ih => simp only [eval]; rw [ih h]
  | exp m e ih => simp only [eval]; rw [ih h]
  | mul a b iha ihb => simp only [eval]; rw [iha fun d hd => h d (List.mem_append_left _ hd), ihb fun d hd => h d (List.mem_append_right _ hd)]
  | add a b iha ihb => simp only [eval]; rw [iha fun d hd => h d (List.mem_append_left _ hd), ihb fun d hd => h d (List.mem_append_right _ hd)]
  | sub a b iha ihb => simp only [eval]; rw [iha fun d hd => h d (List.mem_append_left _ hd), ihb fun d hd => h d (List.mem_append_right _ hd)]
  | crossL a b iha ihb => simp only [eval]; rw [iha fun d hd => h d (List.mem_append_left _ hd), ihb fun d hd => h d (List.mem_append_right _ hd)]
  | crossR a b iha ihb => simp only [eval]; rw [iha fun d hd => h d (List.mem_append_left _ hd), ihb fun d hd => h d (List.mem_append_right _ hd)]
  | qmul m a b iha ihb => simp only [eval]; rw [iha fun d hd => h d (List.mem_append_left _ hd), ihb fun d hd => h d (List.mem_append_right _ hd)]
  | rotate m a b iha ihb => simp only [eval]; rw [iha fun d hd => h d (List.mem_append_left _ hd), ihb fun d hd => h d (List.mem_append_right _ hd)]

/-- C169: the Jacobian of a step of a unit quaternion is right in both geometries and in all modes. -/
theorem C169_unit_quaternion_step (m : Mode) (g : Geo) (p : V4) (d : V3) (i : Fin 4) :
    HasDerivAt (fun s : ℝ => updateQ m g p (s • d) i) ((dUpdate m g p).mulVec d i) 0 := updateQ_deriv m g p d i

/-- C169 is false for left translated unit quaternions: they add no Jacobian, although their value changes with a step. -/
theorem C169_left_translated_counterexample (id : ℕ) (m : Mode) : ∃ (x : St) (δ : Incr), jacobians x (.quat id m .left) = .ok [] ∧
    ¬ ∀ i, HasDerivAt (fun s : ℝ => eval (upd x (s • δ)) (.quat id m .left) i 0) (change ([] : List (Block 4)) δ i) 0 := by
  refine ⟨fun d => match d with | .quat _ m _ => m.put 0 0 0 1 | .gen _ _ => 0 | .vec _ _ => 0,
    fun d => match d with | .quat _ _ _ => ![1, 0, 0] | .gen _ _ => 0 | .vec _ _ => 0, rfl, fun h => ?_⟩
  have h2 := updateQ_deriv m .left (m.put 0 0 0 1) ![1, 0, 0] m.iI
  have := (h m.iI).unique h2
  revert this
  rw [change_nil, show (dUpdate m .left (m.put 0 0 0 1)).mulVec ![1, 0, 0] = fromLast m (Matrix.mulVec (fun i (j : Fin 3) => (if m.traditional ≠
    decide (Geo.left = Geo.right) then quatOPlus (toLast m (m.put 0 0 0 1)) else quatPlus (toLast m (m.put 0 0 0 1))) i j.castSucc) ![1, 0, 0])
    from fromLastM_mulVec m _ _]
  obtain ⟨rf, tr⟩ := m
  cases rf <;> cases tr <;> simp [fromLast, toLast, Mode.put, Mode.rI, Mode.iI, Mode.jI, Mode.kI, Matrix.mulVec, dotProduct, Fin.sum_univ_three,
    quatOPlus, quatPlus]

/-- C169 is false for an exponential map directly over a vector expression: what stands above the exponential map is left out of the Jacobian, and
with another number of rows the container refuses it. -/
theorem C169_exp_of_vector_counterexample (id : ℕ) (m : Mode) : ∃ (x : St) (δ : Incr),
    (∃ l, jacobians x (.qconj m (.exp m (.vec id 3))) = .ok l ∧ Regular x (.qconj m (.exp m (.vec id 3))) ∧
      ¬ ∀ i, HasDerivAt (fun s : ℝ => eval (upd x (s • δ)) (.qconj m (.exp m (.vec id 3))) i 0) (change l δ i) 0) ∧
    jacobians x (.imag m (.exp m (.vec id 3))) = .raise := by
  let x : St := fun d => match d with | .quat _ _ _ => 0 | .gen _ _ => 0 | .vec _ _ => fun i => if i.val = 0 then Real.pi / 2 else 0
  let δ : Incr := fun d => match d with | .quat _ _ _ => 0 | .gen _ _ => 0 | .vec _ _ => fun i => if i.val = 1 then 1 else 0
  have hx : (2 : ℝ) • vecOf (eval x (.vec id 3)) = ![Real.pi, 0, 0] := by
    funext i; fin_cases i <;> simp [eval, x, vecOf, colOf]; ring
  have hn : norm3 (![Real.pi, 0, 0] : V3) = Real.pi := by
    simp [norm3, Real.sqrt_sq Real.pi_pos.le]
  have he : eps4 < Real.pi := by
    have := Real.pi_gt_three
    have : eps4 < 1 := by unfold eps4; norm_num
    linarith
  have hr : Regular x (.qconj m (.exp m (.vec id 3))) := ⟨trivial, by rw [hx, hn]; exact he⟩
  refine ⟨x, δ, ⟨[⟨.vec id 3, dexp m (vecOf (eval x (.vec id 3)))⟩], rfl, hr, fun h => ?_⟩, rfl⟩
  have h1 := tan_deriv x δ _ hr m.jI 0
  have h2 := (h m.jI).unique h1
  rw [change_one] at h2
  have hv : (dexp m (vecOf (eval x (.vec id 3)))).mulVec (δ (.vec id 3)) = fromLast m ![0, 2 / Real.pi, 0, 0] := by
    unfold dexp
    rw [fromLastM_mulVec, hx, Matrix.smul_mulVec, expJacobian_mulVec _ _ (by rw [hn]; exact he.le), hn]
    congr 1
    have hp := Real.pi_pos.ne'
    have hs : Real.sin (Real.pi * (1 / 2)) = 1 := by rw [mul_one_div, Real.sin_pi_div_two]
    apply ext4 <;> simp [δ] <;> rw [show Real.pi * 2⁻¹ = Real.pi * (1 / 2) by ring, hs] <;> ring
  have ht : tan x δ (.qconj m (.exp m (.vec id 3))) m.jI 0 = conjugate m (fromLast m ![0, 2 / Real.pi, 0, 0]) m.jI := by
    rw [← hv]; rfl
  rw [ht, hv] at h2
  have hp : (0 : ℝ) < 2 / Real.pi := by have := Real.pi_pos; positivity
  have h3 : ∀ a : ℝ, fromLast m ![0, a, 0, 0] m.jI = a ∧ conjugate m (fromLast m ![0, a, 0, 0]) m.jI = -a := by
    intro a
    obtain ⟨rf, tr⟩ := m
    cases rf <;> simp [fromLast, conjugate, Mode.put, Mode.rI, Mode.iI, Mode.jI, Mode.kI]
  rw [(h3 _).1, (h3 _).2] at h2
  linarith

/-! ## Quaternions -/

open Quaternion

/-- The quaternion with the given components. -/
def toQuat (m : Mode) (v : V4) : ℍ[ℝ] := ⟨v m.rI, v m.iI, v m.jI, v m.kI⟩

/-- The quaternion without a real part. -/
def pureQuat (v : V3) : ℍ[ℝ] := ⟨0, v 0, v 1, v 2⟩

@[simp] theorem toQuat_re (m : Mode) (v : V4) : (toQuat m v).re = v m.rI := rfl
@[simp] theorem toQuat_imI (m : Mode) (v : V4) : (toQuat m v).imI = v m.iI := rfl
@[simp] theorem toQuat_imJ (m : Mode) (v : V4) : (toQuat m v).imJ = v m.jI := rfl
@[simp] theorem toQuat_imK (m : Mode) (v : V4) : (toQuat m v).imK = v m.kI := rfl
@[simp] theorem pureQuat_re (v : V3) : (pureQuat v).re = 0 := rfl
@[simp] theorem pureQuat_imI (v : V3) : (pureQuat v).imI = v 0 := rfl
@[simp] theorem pureQuat_imJ (v : V3) : (pureQuat v).imJ = v 1 := rfl
@[simp] theorem pureQuat_imK (v : V3) : (pureQuat v).imK = v 2 := rfl

@[simp] theorem put_r (m : Mode) (i j k r : ℝ) : m.put i j k r m.rI = r := by
  obtain ⟨rf, tr⟩ := m; cases rf <;> rfl
@[simp] theorem put_i (m : Mode) (i j k r : ℝ) : m.put i j k r m.iI = i := by
  obtain ⟨rf, tr⟩ := m; cases rf <;> rfl
@[simp] theorem put_j (m : Mode) (i j k r : ℝ) : m.put i j k r m.jI = j := by
  obtain ⟨rf, tr⟩ := m; cases rf <;> rfl
@[simp] theorem put_k (m : Mode) (i j k r : ℝ) : m.put i j k r m.kI = k := by
  obtain ⟨rf, tr⟩ := m; cases rf <;> rfl

theorem multQQ_quat (m : Mode) (a b : V4) : toQuat m (multQQ m a b) = toQuat m a * toQuat m b := by
  rw [multQQ]
  ext <;> simp <;> ring

theorem multVQ_quat (m : Mode) (a : V3) (b : V4) : toQuat m (multVQ m a b) = pureQuat a * toQuat m b := by
  rw [multVQ]
  ext <;> simp <;> ring

theorem multQV_quat (m : Mode) (a : V4) (b : V3) : toQuat m (multQV m a b) = toQuat m a * pureQuat b := by
  rw [multQV]
  ext <;> simp <;> ring

/-- C169: the product is the product of quaternions in the traditional order, and that of the swapped factors in the opposite order; the conjugate
is the conjugate and the inverse is the inverse. -/
theorem C169_quaternion_operations (m : Mode) (a b : V4) :
    toQuat m (quatMult m a b) = (if m.traditional then toQuat m a * toQuat m b else toQuat m b * toQuat m a) ∧
    toQuat m (conjugate m a) = star (toQuat m a) ∧ toQuat m (invert m a) = (toQuat m a)⁻¹ := by
  have hc : toQuat m (conjugate m a) = star (toQuat m a) := by
    rw [conjugate]
    ext <;> simp
  refine ⟨?_, hc, ?_⟩
  · unfold quatMult
    split_ifs
    · exact multQQ_quat m a b
    · exact multQQ_quat m b a
  · have hs : toQuat m (invert m a) = (sqNorm a)⁻¹ • toQuat m (conjugate m a) := by
      unfold invert
      rw [sqNorm_conj]
      ext <;> simp
    have hn : Quaternion.normSq (toQuat m a) = sqNorm a := by
      rw [Quaternion.normSq_def']
      obtain ⟨rf, tr⟩ := m
      cases rf <;> simp [sqNorm, Mode.rI, Mode.iI, Mode.jI, Mode.kI] <;> ring
    rw [hs, hc, ← hn]
    rfl

/-- C169: a rotated vector is `q v q*`, with the factors swapped in the opposite order, and it has no real part to lose. -/
theorem C169_rotate (m : Mode) (q : V4) (v : V3) :
    pureQuat (rotateBy m q v) = if m.traditional then toQuat m q * pureQuat v * star (toQuat m q) else star (toQuat m q) * (pureQuat v * toQuat m q) := by
  have hc := (C169_quaternion_operations m q q).2.1
  have key : ∀ w : V4, (toQuat m w).re = 0 → pureQuat (imagPart m w) = toQuat m w := by
    intro w hw
    ext
    · exact hw.symm
    · rfl
    · rfl
    · rfl
  unfold rotateBy
  by_cases ht : m.traditional
  · have e : toQuat m (quatMult m (quatMultV m q v) (conjugate m q)) = toQuat m q * pureQuat v * star (toQuat m q) := by
      rw [(C169_quaternion_operations m _ _).1, if_pos ht, hc, quatMultV, if_pos ht, multQV_quat]
    rw [if_pos ht, key, e]
    rw [e]
    simp; ring
  · have e : toQuat m (quatMult m (quatMultV m q v) (conjugate m q)) = star (toQuat m q) * (pureQuat v * toQuat m q) := by
      rw [(C169_quaternion_operations m _ _).1, if_neg ht, hc, quatMultV, if_neg ht, multVQ_quat]
    rw [if_neg ht, key, e]
    rw [e]
    simp; ring

/-- C169: a unit quaternion rotates without changing the length. -/
theorem C169_rotate_length (m : Mode) (q : V4) (v : V3) (hq : ‖toQuat m q‖ = 1) : ‖pureQuat (rotateBy m q v)‖ = ‖pureQuat v‖ := by
  rw [C169_rotate]
  split_ifs <;> simp [hq]

theorem pureQuat_norm (v : V3) : ‖pureQuat v‖ = norm3 v := by
  have h := Quaternion.normSq_eq_norm_mul_self (pureQuat v)
  rw [Quaternion.normSq_def'] at h
  have : ‖pureQuat v‖ = √(‖pureQuat v‖ * ‖pureQuat v‖) := (Real.sqrt_mul_self (norm_nonneg _)).symm
  rw [this, ← h, norm3]
  simp

/-- C169 (partial): the exponential map of a vector is the exponential of quaternions.  Missing: the short vectors, for which a series is used. -/
theorem C169_exp_partial (m : Mode) (v : V3) (h : eps4 ≤ norm3 ((2 : ℝ) • v)) : toQuat m (qexp m v) = NormedSpace.exp (pureQuat v) := by
  rw [Quaternion.exp_of_re_eq_zero _ rfl, pureQuat_norm]
  have hn : norm3 ((2 : ℝ) • v) = 2 * norm3 v := by rw [norm3_smul]; norm_num
  have h0 : 0 < norm3 v := by have := eps4_pos; linarith
  unfold qexp axisAngle2quat
  simp only [not_lt.mpr h, if_false]
  rw [hn, show 2 * norm3 v * (1 / 2) = norm3 v by ring]
  unfold fromLast
  have h1 := h0.ne'
  ext <;> simp <;> field_simp

/-- C169 (partial): a step keeps the length of a quaternion.  Missing: the short steps, for which a series is used. -/
theorem C169_update_keeps_length_partial (m : Mode) (g : Geo) (p : V4) (v : V3) (h : eps4 ≤ norm3 ((2 : ℝ) • v)) :
    ‖toQuat m (updateQ m g p v)‖ = ‖toQuat m p‖ := by
  have he : ‖toQuat m (qexp m v)‖ = 1 := by
    rw [C169_exp_partial m v h, Quaternion.norm_exp]
    simp
  cases g <;> unfold updateQ <;> rw [(C169_quaternion_operations m _ _).1] <;> split_ifs <;> simp [he]

/-! ## The hypotheses can be met -/

/-- A rotated vector, with a product of a unit quaternion and an exponential map. -/
example : ∃ (x : St) (e : GE 3 1), Supported e ∧ Regular x e ∧ vars e = [.quat 0 ⟨false, true⟩ .right, .gen 1 3, .vec 2 3] := by
  let x : St := fun d => match d with | .quat _ _ _ => 0 | .gen _ _ => fun _ => 1 | .vec _ _ => 0
  refine ⟨x, .rotate ⟨false, true⟩ (.qmul ⟨false, true⟩ (.quat 0 ⟨false, true⟩ .right) (.exp ⟨false, true⟩ (.gen 1 3))) (.neg (.vec 2 3)),
    ⟨⟨rfl, trivial, trivial⟩, trivial⟩, ⟨⟨trivial, trivial, ?_⟩, trivial⟩, rfl⟩
  have : (1 : ℝ) ≤ norm3 ((2 : ℝ) • vecOf (eval x (.gen 1 3))) := by
    unfold norm3
    rw [Real.one_le_sqrt]
    simp [eval, x, vecOf, colOf]; norm_num
  have h2 : eps4 < 1 := by unfold eps4; norm_num
  linarith

/-- A unit quaternion, and a vector that is not short. -/
example : ‖toQuat ⟨true, false⟩ ![1, 0, 0, 0]‖ = 1 ∧ eps4 ≤ norm3 ((2 : ℝ) • ![1, 0, 0]) := by
  constructor
  · have : toQuat ⟨true, false⟩ ![1, 0, 0, 0] = 1 := by ext <;> simp [Mode.rI, Mode.iI, Mode.jI, Mode.kI]
    rw [this, norm_one]
  · have h2 : eps4 < 1 := by unfold eps4; norm_num
    have : (1 : ℝ) ≤ norm3 ((2 : ℝ) • ![1, 0, 0]) := by
      unfold norm3
      rw [Real.one_le_sqrt]
      simp
    linarith

end Kalibr.Gme
