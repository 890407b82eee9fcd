import Verif.Expr.Caches

/-!
# The Jacobians an expression adds

Once the members are up to date, the blocks of an expression stand for the velocity `vel`.
-/

namespace Kalibr.Exp

open Kalibr.Kin Matrix

variable {f : ℕ → (k : Kind) × Expr k} {x : State}

theorem lin_append {m : ℕ} (a b : List (Block m)) (δ : Incr) : lin (a ++ b) δ = lin a δ + lin b δ := by
  simp [lin]

/-- What a Jacobian does. -/
structure Jacs (f : ℕ → (k : Kind) × Expr k) (x : State) {k : Kind} (e : Expr k) : Prop where
  keep : ∀ {m : ℕ} (M : Chain m k) c, Keep f x c (jac x e M c).2
  lin : ∀ {m : ℕ} (M : Chain m k) c, Fresh x c e → ∀ δ, lin (jac x e M c).1 δ = M.mulVec (vel x δ e)

theorem jacs {k : Kind} (e : Expr k) (hw : WF f e) : Jacs f x e := by
  induction e with
  | rotDv i => exact ⟨fun M c => Keep.refl c, fun M c _ δ => by simp [jac, pure_apply, lin, vel]⟩
  | rotMul id l r hl hr =>
    obtain ⟨h0, h1, h2⟩ := hw
    have hl := hl h1; have hr := hr h2
    refine ⟨fun M c => (hr.keep _ c).trans (hl.keep _ _), fun M c hf δ => ?_⟩
    obtain ⟨f0, f1, f2⟩ := hf
    simp only [jac, bind_apply, pure_apply, load, lin_append]
    rw [hr.lin _ _ f2, hl.lin _ _ (f1.keep (hr.keep _ _) l h1), f0, vel, Matrix.mulVec_add, Matrix.mulVec_mulVec,
      add_comm]
  | rotInv id e he =>
    obtain ⟨h0, h1⟩ := hw
    have he := he h1
    refine ⟨fun M c => he.keep _ c, fun M c hf δ => ?_⟩
    obtain ⟨f0, f1⟩ := hf
    simp only [jac, bind_apply, load]
    rw [he.lin _ _ f1, f0, vel, ← Matrix.mulVec_mulVec]
    simp [Matrix.neg_mulVec, Matrix.mulVec_neg]
  | rotOfTr e he =>
    have he := he hw
    refine ⟨fun M c => he.keep _ c, fun M c hf δ => ?_⟩
    simp only [jac]
    rw [he.lin _ _ hf, vel]
    simp [Matrix.mulVec_mulVec, Matrix.neg_mulVec, Matrix.mulVec_neg]
  | eucDv i => exact ⟨fun M c => Keep.refl c, fun M c _ δ => by simp [jac, pure_apply, lin, vel]⟩
  | dirDv i => exact ⟨fun M c => Keep.refl c, fun M c _ δ => by simp [jac, pure_apply, lin, vel]⟩
  | eucConst p => exact ⟨fun M c => Keep.refl c, fun M c _ δ => by simp [jac, pure_apply, lin, vel]⟩
  | rotEuc id l r hl hr =>
    obtain ⟨h0, h1, h2⟩ := hw
    have hl := hl h1; have hr := hr h2
    refine ⟨fun M c => (hl.keep _ c).trans (hr.keep _ _), fun M c hf δ => ?_⟩
    have hk := hf
    obtain ⟨⟨f0, f0'⟩, f1, f2⟩ := hf
    have hk := (hk.keep (f := f) (hl.keep (M * crossMx ((val x l : M3).mulVec (val x r))) c) (.rotEuc id l r) ⟨h0, h1, h2⟩).1.1
    rw [← f0, ← f0'] at hk
    simp only [jac, bind_apply, pure_apply, load, lin_append]
    rw [hl.lin _ _ f1, hr.lin _ _ (f2.keep (hl.keep _ _) r h2), hk, f0, f0', vel, Matrix.mulVec_add,
      Matrix.mulVec_mulVec, Matrix.mulVec_mulVec]
  | matEuc id l r hl hr =>
    obtain ⟨h0, h1, h2⟩ := hw
    have hl := hl h1; have hr := hr h2
    refine ⟨fun M c => (hl.keep _ c).trans (hr.keep _ _), fun M c hf δ => ?_⟩
    have hk := hf
    obtain ⟨⟨f0, f0'⟩, f1, f2⟩ := hf
    have hk := (hk.keep (f := f) (hl.keep (M * jFull (val x r)) c) (.matEuc id l r) ⟨h0, h1, h2⟩).1.1
    rw [← f0, ← f0'] at hk
    simp only [jac, bind_apply, pure_apply, load, lin_append]
    rw [hl.lin _ _ f1, hr.lin _ _ (f2.keep (hl.keep _ _) r h2), hk, f0, f0', vel, Matrix.mulVec_add,
      Matrix.mulVec_mulVec, Matrix.mulVec_mulVec]
  | cross l r hl hr =>
    have hl := hl hw.1; have hr := hr hw.2
    have el := evals (x := x) l hw.1; have er := evals (x := x) r hw.2
    refine ⟨fun M c => (er.keep c).trans ((hl.keep _ _).trans ((el.keep _).trans (hr.keep _ _))),
      fun M c hf δ => ?_⟩
    obtain ⟨f1, f2⟩ := hf
    simp only [jac, bind_apply, pure_apply, lin_append, el.val, er.val]
    rw [hl.lin _ _ (f1.keep (er.keep _) l hw.1),
      hr.lin _ _ (f2.keep ((er.keep _).trans ((hl.keep _ _).trans (el.keep _))) r hw.2), vel, Matrix.mulVec_add]
    simp [Matrix.mulVec_mulVec, Matrix.neg_mulVec, Matrix.mulVec_neg]
  | add l r hl hr =>
    have hl := hl hw.1; have hr := hr hw.2
    refine ⟨fun M c => (hl.keep _ _).trans (hr.keep _ _), fun M c hf δ => ?_⟩
    obtain ⟨f1, f2⟩ := hf
    simp only [jac, bind_apply, pure_apply, lin_append]
    rw [hl.lin _ _ f1, hr.lin _ _ (f2.keep (hl.keep _ _) r hw.2), vel, Matrix.mulVec_add]
  | sub l r hl hr =>
    have hl := hl hw.1; have hr := hr hw.2
    refine ⟨fun M c => (hl.keep _ _).trans (hr.keep _ _), fun M c hf δ => ?_⟩
    obtain ⟨f1, f2⟩ := hf
    simp only [jac, bind_apply, pure_apply, lin_append]
    rw [hl.lin _ _ f1, hr.lin _ _ (f2.keep (hl.keep _ _) r hw.2), vel, Matrix.mulVec_sub, Matrix.neg_mulVec, sub_eq_add_neg]
  | subVec l p hl => exact ⟨fun M c => (hl hw).keep M c, fun M c hf δ => (hl hw).lin M c hf δ⟩
  | neg e he =>
    have he := he hw
    refine ⟨fun M c => he.keep _ c, fun M c hf δ => ?_⟩
    simp only [jac]
    rw [he.lin _ _ hf, vel]
    simp [Matrix.mulVec_mulVec, Matrix.neg_mulVec, Matrix.mulVec_neg]
  | smul p s hp hs =>
    have hl := hp hw.1; have hr := hs hw.2
    have el := evals (x := x) p hw.1; have er := evals (x := x) s hw.2
    refine ⟨fun M c => (er.keep c).trans ((hl.keep _ _).trans ((el.keep _).trans (hr.keep _ _))),
      fun M c hf δ => ?_⟩
    obtain ⟨f1, f2⟩ := hf
    simp only [jac, bind_apply, pure_apply, lin_append, el.val, er.val]
    rw [hl.lin _ _ (f1.keep (er.keep _) p hw.1),
      hr.lin _ _ (f2.keep ((er.keep _).trans ((hl.keep _ _).trans (el.keep _))) s hw.2), vel, Matrix.mulVec_add]
    simp [Matrix.mulVec_mulVec, Matrix.smul_mulVec, Matrix.mulVec_smul]
  | cwise l r hl hr =>
    have hl := hl hw.1; have hr := hr hw.2
    have el := evals (x := x) l hw.1; have er := evals (x := x) r hw.2
    refine ⟨fun M c => (er.keep c).trans ((hl.keep _ _).trans ((el.keep _).trans (hr.keep _ _))),
      fun M c hf δ => ?_⟩
    obtain ⟨f1, f2⟩ := hf
    simp only [jac, bind_apply, pure_apply, lin_append, el.val, er.val]
    rw [hl.lin _ _ (f1.keep (er.keep _) l hw.1),
      hr.lin _ _ (f2.keep ((er.keep _).trans ((hl.keep _ _).trans (el.keep _))) r hw.2), vel, Matrix.mulVec_add]
    simp [Matrix.mulVec_mulVec]
  | transl e he =>
    have he := he hw
    have ev := evals (x := x) e hw
    refine ⟨fun M c => (ev.keep c).trans (he.keep _ _), fun M c hf δ => ?_⟩
    simp only [jac, bind_apply, ev.val]
    rw [he.lin _ _ (hf.keep (ev.keep _) e hw), vel, Matrix.mulVec_mulVec]
  | rotParams rk e he =>
    have he := he hw
    have ev := evals (x := x) e hw
    refine ⟨fun M c => (ev.keep c).trans (he.keep _ _), fun M c hf δ => ?_⟩
    simp only [jac, bind_apply, ev.val]
    rw [he.lin _ _ (hf.keep (ev.keep _) e hw), vel, Matrix.mulVec_mulVec]
  | ofHom e he =>
    have he := he hw
    have ev := evals (x := x) e hw
    refine ⟨fun M c => (ev.keep c).trans (he.keep _ _), fun M c hf δ => ?_⟩
    simp only [jac, bind_apply, ev.val]
    rw [he.lin _ _ (hf.keep (ev.keep _) e hw), vel, Matrix.mulVec_mulVec]
  | scaDv i => exact ⟨fun M c => Keep.refl c, fun M c _ δ => by simp [jac, pure_apply, lin, vel]⟩
  | scaConst s => exact ⟨fun M c => Keep.refl c, fun M c _ δ => by simp [jac, pure_apply, lin, vel]⟩
  | scaMul l r hl hr =>
    have hl := hl hw.1; have hr := hr hw.2
    have el := evals (x := x) l hw.1; have er := evals (x := x) r hw.2
    refine ⟨fun M c => (el.keep c).trans ((er.keep _).trans ((hl.keep _ _).trans (hr.keep _ _))),
      fun M c hf δ => ?_⟩
    obtain ⟨f1, f2⟩ := hf
    simp only [jac, bind_apply, pure_apply, lin_append, el.val, er.val]
    rw [hl.lin _ _ (f1.keep ((el.keep _).trans (er.keep _)) l hw.1),
      hr.lin _ _ (f2.keep ((el.keep _).trans ((er.keep _).trans (hl.keep _ _))) r hw.2), vel, Matrix.mulVec_add,
      Matrix.mulVec_mulVec, Matrix.mulVec_mulVec]
  | scaDiv l r hl hr =>
    have hl := hl hw.1; have hr := hr hw.2
    have el := evals (x := x) l hw.1; have er := evals (x := x) r hw.2
    refine ⟨fun M c => (er.keep c).trans ((el.keep _).trans ((er.keep _).trans ((er.keep _).trans
      ((hl.keep _ _).trans (hr.keep _ _))))), fun M c hf δ => ?_⟩
    obtain ⟨f1, f2⟩ := hf
    simp only [jac, bind_apply, pure_apply, lin_append, el.val, er.val]
    rw [hl.lin _ _ (f1.keep ((er.keep _).trans ((el.keep _).trans ((er.keep _).trans (er.keep _)))) l hw.1),
      hr.lin _ _ (f2.keep ((er.keep _).trans ((el.keep _).trans ((er.keep _).trans ((er.keep _).trans
        (hl.keep _ _))))) r hw.2), vel, Matrix.mulVec_add, Matrix.mulVec_mulVec, Matrix.mulVec_mulVec]
  | scaAdd l r m hl hr =>
    have hl := hl hw.1; have hr := hr hw.2
    refine ⟨fun M c => (hl.keep _ _).trans (hr.keep _ _), fun M c hf δ => ?_⟩
    obtain ⟨f1, f2⟩ := hf
    simp only [jac, bind_apply, pure_apply, lin_append]
    rw [hl.lin _ _ f1, hr.lin _ _ (f2.keep (hl.keep _ _) r hw.2), vel, Matrix.mulVec_add, Matrix.smul_mulVec, Matrix.mulVec_smul]
  | homDv i => exact ⟨fun M c => Keep.refl c, fun M c _ δ => by simp [jac, pure_apply, lin, vel]⟩
  | homConst p => exact ⟨fun M c => Keep.refl c, fun M c _ δ => by simp [jac, pure_apply, lin, vel]⟩
  | trHom id l r hl hr =>
    obtain ⟨h0, h1, h2⟩ := hw
    have hl := hl h1; have hr := hr h2
    refine ⟨fun M c => (hl.keep _ c).trans (hr.keep _ _), fun M c hf δ => ?_⟩
    have hk := hf
    obtain ⟨⟨f0, f0'⟩, f1, f2⟩ := hf
    have hk := (hk.keep (f := f) (hl.keep (M * boxMinus ((val x l : M4).mulVec (val x r))) c) (.trHom id l r) ⟨h0, h1, h2⟩).1.1
    rw [← f0, ← f0'] at hk
    simp only [jac, bind_apply, pure_apply, load, lin_append]
    rw [hl.lin _ _ f1, hr.lin _ _ (f2.keep (hl.keep _ _) r h2), hk, f0, f0', vel, Matrix.mulVec_add,
      Matrix.mulVec_mulVec, Matrix.mulVec_mulVec]
  | homOfEuc e he =>
    have he := he hw
    refine ⟨fun M c => he.keep _ c, fun M c hf δ => ?_⟩
    simp only [jac]
    rw [he.lin _ _ hf, vel]
    simp [Matrix.mulVec_mulVec, Matrix.neg_mulVec, Matrix.mulVec_neg]
  | trBasic C t hC ht =>
    have hC := hC hw.1; have ht := ht hw.2
    have et := evals (x := x) t hw.2
    refine ⟨fun M c => (et.keep c).trans ((hC.keep _ _).trans (ht.keep _ _)), fun M c hf δ => ?_⟩
    obtain ⟨f1, f2⟩ := hf
    simp only [jac, bind_apply, pure_apply, lin_append, et.val]
    rw [hC.lin _ _ (f1.keep (et.keep _) C hw.1), ht.lin _ _ (f2.keep ((et.keep _).trans (hC.keep _ _)) t hw.2), vel,
      Matrix.mulVec_add, Matrix.mulVec_mulVec, Matrix.mulVec_mulVec]
  | trConst T => exact ⟨fun M c => Keep.refl c, fun M c _ δ => by simp [jac, pure_apply, lin, vel]⟩
  | trMul id l r hl hr =>
    obtain ⟨h0, h1, h2⟩ := hw
    have hl := hl h1; have hr := hr h2
    refine ⟨fun M c => (hr.keep _ c).trans (hl.keep _ _), fun M c hf δ => ?_⟩
    obtain ⟨f0, f1, f2⟩ := hf
    simp only [jac, bind_apply, pure_apply, load, lin_append]
    rw [hr.lin _ _ f2, hl.lin _ _ (f1.keep (hr.keep _ _) l h1), f0, vel, Matrix.mulVec_add, Matrix.mulVec_mulVec,
      add_comm]
  | trInv id e he =>
    obtain ⟨h0, h1⟩ := hw
    have he := he h1
    refine ⟨fun M c => he.keep _ c, fun M c hf δ => ?_⟩
    obtain ⟨f0, f1⟩ := hf
    simp only [jac, bind_apply, load]
    rw [he.lin _ _ f1, f0, vel, ← Matrix.mulVec_mulVec]
  | leaf L =>
    refine ⟨fun M c => Keep.refl c, fun M c _ δ => ?_⟩
    simp only [jac, pure_apply, vel]
    induction L.blocks x.vecs with
    | nil => simp [lin]
    | cons b bs ih =>
      simp only [lin, List.map_cons, List.sum_cons, Matrix.mulVec_add, Matrix.mulVec_mulVec] at ih ⊢
      rw [ih]
  | matDv i cells =>
    refine ⟨fun M c => ?_, fun M c _ δ => ?_⟩
    · unfold jac; split <;> exact Keep.refl c
    · unfold jac
      split
      · simp [pure_apply, lin, vel]
      · rename_i h
        simp only [ne_eq, not_not] at h
        have : IsEmpty (Fin cells.length) := by rw [h]; infer_instance
        simp [pure_apply, lin, vel, Subsingleton.elim (δ (.mat i cells)) 0]

/-- The same without a chain rule matrix. -/
theorem jac0s {k : Kind} (e : Expr k) (hk : k ≠ .mat) (hw : WF f e) :
    (∀ c, Keep f x c (jac0 x e hk c).2) ∧
      ∀ c, Fresh x c e → ∀ δ, lin (jac0 x e hk c).1 δ = vel x δ e := by
  induction e with
  | rotDv i => exact ⟨fun c => Keep.refl c, fun c _ δ => by simp [jac0, pure_apply, lin, vel]⟩
  | rotMul id l r hl _ =>
    obtain ⟨h0, h1, h2⟩ := hw
    have hl := hl hk h1; have hr := jacs (x := x) r h2
    refine ⟨fun c => (hr.keep _ c).trans (hl.1 _), fun c hf δ => ?_⟩
    obtain ⟨f0, f1, f2⟩ := hf
    simp only [jac0, bind_apply, pure_apply, load, lin_append]
    rw [hr.lin _ _ f2, hl.2 _ (f1.keep (hr.keep _ _) l h1), f0, vel, add_comm]
  | rotInv id e _ =>
    obtain ⟨h0, h1⟩ := hw
    have he := jacs (x := x) e h1
    refine ⟨fun c => he.keep _ c, fun c hf δ => ?_⟩
    obtain ⟨f0, f1⟩ := hf
    simp only [jac0, bind_apply, load]
    rw [he.lin _ _ f1, f0, vel]
  | rotOfTr e _ =>
    have he := jacs (x := x) e hw
    refine ⟨fun c => he.keep _ c, fun c hf δ => ?_⟩
    simp only [jac0]
    rw [he.lin _ _ hf, vel]
  | eucDv i => exact ⟨fun c => Keep.refl c, fun c _ δ => by simp [jac0, pure_apply, lin, vel]⟩
  | dirDv i => exact ⟨fun c => Keep.refl c, fun c _ δ => by simp [jac0, pure_apply, lin, vel]⟩
  | eucConst p => exact ⟨fun c => Keep.refl c, fun c _ δ => by simp [jac0, pure_apply, lin, vel]⟩
  | rotEuc id l r _ _ =>
    obtain ⟨h0, h1, h2⟩ := hw
    have hl := jacs (x := x) l h1; have hr := jacs (x := x) r h2
    refine ⟨fun c => (hl.keep _ c).trans (hr.keep _ _), fun c hf δ => ?_⟩
    have hk := hf
    obtain ⟨⟨f0, f0'⟩, f1, f2⟩ := hf
    have hk := (hk.keep (f := f) (hl.keep (crossMx ((val x l : M3).mulVec (val x r))) c) (.rotEuc id l r) ⟨h0, h1, h2⟩).1.1
    rw [← f0, ← f0'] at hk
    simp only [jac0, bind_apply, pure_apply, load, lin_append]
    rw [hl.lin _ _ f1, hr.lin _ _ (f2.keep (hl.keep _ _) r h2), hk, f0, f0', vel]
  | matEuc id l r _ _ =>
    obtain ⟨h0, h1, h2⟩ := hw
    have hl := jacs (x := x) l h1; have hr := jacs (x := x) r h2
    refine ⟨fun c => (hl.keep _ c).trans (hr.keep _ _), fun c hf δ => ?_⟩
    have hk := hf
    obtain ⟨⟨f0, f0'⟩, f1, f2⟩ := hf
    have hk := (hk.keep (f := f) (hl.keep (jFull (val x r)) c) (.matEuc id l r) ⟨h0, h1, h2⟩).1.1
    rw [← f0, ← f0'] at hk
    simp only [jac0, bind_apply, pure_apply, load, lin_append]
    rw [hl.lin _ _ f1, hr.lin _ _ (f2.keep (hl.keep _ _) r h2), hk, f0, f0', vel]
  | cross l r _ _ =>
    have hl := jacs (x := x) l hw.1; have hr := jacs (x := x) r hw.2
    have el := evals (x := x) l hw.1; have er := evals (x := x) r hw.2
    refine ⟨fun c => (er.keep c).trans ((hl.keep _ _).trans ((el.keep _).trans (hr.keep _ _))),
      fun c hf δ => ?_⟩
    obtain ⟨f1, f2⟩ := hf
    simp only [jac0, bind_apply, pure_apply, lin_append, el.val, er.val]
    rw [hl.lin _ _ (f1.keep (er.keep _) l hw.1),
      hr.lin _ _ (f2.keep ((er.keep _).trans ((hl.keep _ _).trans (el.keep _))) r hw.2), vel]
  | add l r hl hr =>
    have hl := hl hk hw.1; have hr := hr hk hw.2
    refine ⟨fun c => (hl.1 _).trans (hr.1 _), fun c hf δ => ?_⟩
    simp only [jac0, bind_apply, pure_apply, lin_append]
    rw [hl.2 _ hf.1, hr.2 _ (hf.2.keep (hl.1 _) r hw.2), vel]
  | sub l r hl _ =>
    have hl := hl hk hw.1; have hr := jacs (x := x) r hw.2
    refine ⟨fun c => (hl.1 _).trans (hr.keep _ _), fun c hf δ => ?_⟩
    simp only [jac0, bind_apply, pure_apply, lin_append]
    rw [hl.2 _ hf.1, hr.lin _ _ (hf.2.keep (hl.1 _) r hw.2), vel, Matrix.neg_mulVec, Matrix.one_mulVec,
      sub_eq_add_neg]
  | subVec l p hl => exact hl hk hw
  | neg e _ =>
    have he := jacs (x := x) e hw
    refine ⟨fun c => he.keep _ c, fun c hf δ => ?_⟩
    simp only [jac0]
    rw [he.lin _ _ hf, vel, Matrix.neg_mulVec, Matrix.one_mulVec]
  | smul p s _ _ =>
    have hl := jacs (x := x) p hw.1; have hr := jacs (x := x) s hw.2
    have el := evals (x := x) p hw.1; have er := evals (x := x) s hw.2
    refine ⟨fun c => (er.keep c).trans ((hl.keep _ _).trans ((el.keep _).trans (hr.keep _ _))),
      fun c hf δ => ?_⟩
    obtain ⟨f1, f2⟩ := hf
    simp only [jac0, bind_apply, pure_apply, lin_append, el.val, er.val]
    rw [hl.lin _ _ (f1.keep (er.keep _) p hw.1),
      hr.lin _ _ (f2.keep ((er.keep _).trans ((hl.keep _ _).trans (el.keep _))) s hw.2), vel, Matrix.smul_mulVec, Matrix.one_mulVec]
  | cwise l r _ _ =>
    have hl := jacs (x := x) l hw.1; have hr := jacs (x := x) r hw.2
    have el := evals (x := x) l hw.1; have er := evals (x := x) r hw.2
    refine ⟨fun c => (er.keep c).trans ((hl.keep _ _).trans ((el.keep _).trans (hr.keep _ _))),
      fun c hf δ => ?_⟩
    obtain ⟨f1, f2⟩ := hf
    simp only [jac0, bind_apply, pure_apply, lin_append, el.val, er.val]
    rw [hl.lin _ _ (f1.keep (er.keep _) l hw.1),
      hr.lin _ _ (f2.keep ((er.keep _).trans ((hl.keep _ _).trans (el.keep _))) r hw.2), vel]
  | transl e _ =>
    have he := jacs (x := x) e hw
    have ev := evals (x := x) e hw
    refine ⟨fun c => (ev.keep c).trans (he.keep _ _), fun c hf δ => ?_⟩
    simp only [jac0, bind_apply, ev.val]
    rw [he.lin _ _ (hf.keep (ev.keep _) e hw), vel]
  | rotParams rk e _ =>
    have he := jacs (x := x) e hw
    have ev := evals (x := x) e hw
    refine ⟨fun c => (ev.keep c).trans (he.keep _ _), fun c hf δ => ?_⟩
    simp only [jac0, bind_apply, ev.val]
    rw [he.lin _ _ (hf.keep (ev.keep _) e hw), vel]
  | ofHom e _ =>
    have he := jacs (x := x) e hw
    have ev := evals (x := x) e hw
    refine ⟨fun c => (ev.keep c).trans (he.keep _ _), fun c hf δ => ?_⟩
    simp only [jac0, bind_apply, ev.val]
    rw [he.lin _ _ (hf.keep (ev.keep _) e hw), vel]
  | scaDv i =>
    refine ⟨fun c => Keep.refl c, fun c _ δ => ?_⟩
    funext j
    fin_cases j
    simp [jac0, pure_apply, lin, vel, mx1]
    rfl
  | scaConst s => exact ⟨fun c => Keep.refl c, fun c _ δ => by simp [jac0, pure_apply, lin, vel]⟩
  | scaMul l r _ _ =>
    have hl := jacs (x := x) l hw.1; have hr := jacs (x := x) r hw.2
    have el := evals (x := x) l hw.1; have er := evals (x := x) r hw.2
    refine ⟨fun c => (el.keep c).trans ((er.keep _).trans ((hl.keep _ _).trans (hr.keep _ _))),
      fun c hf δ => ?_⟩
    obtain ⟨f1, f2⟩ := hf
    simp only [jac0, bind_apply, pure_apply, lin_append, el.val, er.val]
    rw [hl.lin _ _ (f1.keep ((el.keep _).trans (er.keep _)) l hw.1),
      hr.lin _ _ (f2.keep ((el.keep _).trans ((er.keep _).trans (hl.keep _ _))) r hw.2), vel]
  | scaDiv l r _ _ =>
    have hl := jacs (x := x) l hw.1; have hr := jacs (x := x) r hw.2
    have el := evals (x := x) l hw.1; have er := evals (x := x) r hw.2
    refine ⟨fun c => (er.keep c).trans ((el.keep _).trans ((er.keep _).trans ((er.keep _).trans
      ((hl.keep _ _).trans (hr.keep _ _))))), fun c hf δ => ?_⟩
    obtain ⟨f1, f2⟩ := hf
    simp only [jac0, bind_apply, pure_apply, lin_append, el.val, er.val]
    rw [hl.lin _ _ (f1.keep ((er.keep _).trans ((el.keep _).trans ((er.keep _).trans (er.keep _)))) l hw.1),
      hr.lin _ _ (f2.keep ((er.keep _).trans ((el.keep _).trans ((er.keep _).trans ((er.keep _).trans
        (hl.keep _ _))))) r hw.2), vel]
  | scaAdd l r m hl _ =>
    have hl := hl hk hw.1; have hr := jacs (x := x) r hw.2
    refine ⟨fun c => (hl.1 _).trans (hr.keep _ _), fun c hf δ => ?_⟩
    simp only [jac0, bind_apply, pure_apply, lin_append]
    rw [hl.2 _ hf.1, hr.lin _ _ (hf.2.keep (hl.1 _) r hw.2), vel]
    congr 1
    funext j
    fin_cases j
    simp [mx1]
    exact Or.inl rfl
  | homDv i => exact ⟨fun c => Keep.refl c, fun c _ δ => by simp [jac0, pure_apply, lin, vel]⟩
  | homConst p => exact ⟨fun c => Keep.refl c, fun c _ δ => by simp [jac0, pure_apply, lin, vel]⟩
  | trHom id l r _ _ =>
    obtain ⟨h0, h1, h2⟩ := hw
    have hl := jacs (x := x) l h1; have hr := jacs (x := x) r h2
    refine ⟨fun c => (hl.keep _ c).trans (hr.keep _ _), fun c hf δ => ?_⟩
    have hk := hf
    obtain ⟨⟨f0, f0'⟩, f1, f2⟩ := hf
    have hk := (hk.keep (f := f) (hl.keep (boxMinus ((val x l : M4).mulVec (val x r))) c) (.trHom id l r) ⟨h0, h1, h2⟩).1.1
    rw [← f0, ← f0'] at hk
    simp only [jac0, bind_apply, pure_apply, load, lin_append]
    rw [hl.lin _ _ f1, hr.lin _ _ (f2.keep (hl.keep _ _) r h2), hk, f0, f0', vel]
  | homOfEuc e _ =>
    have he := jacs (x := x) e hw
    refine ⟨fun c => he.keep _ c, fun c hf δ => ?_⟩
    simp only [jac0]
    rw [he.lin _ _ hf, vel]
  | trBasic C t _ _ =>
    have hC := jacs (x := x) C hw.1; have ht := jacs (x := x) t hw.2
    have et := evals (x := x) t hw.2
    refine ⟨fun c => (et.keep c).trans ((hC.keep _ _).trans (ht.keep _ _)), fun c hf δ => ?_⟩
    obtain ⟨f1, f2⟩ := hf
    simp only [jac0, bind_apply, pure_apply, lin_append, et.val]
    rw [hC.lin _ _ (f1.keep (et.keep _) C hw.1), ht.lin _ _ (f2.keep ((et.keep _).trans (hC.keep _ _)) t hw.2), vel]
  | trConst T => exact ⟨fun c => Keep.refl c, fun c _ δ => by simp [jac0, pure_apply, lin, vel]⟩
  | trMul id l r hl _ =>
    obtain ⟨h0, h1, h2⟩ := hw
    have hl := hl hk h1; have hr := jacs (x := x) r h2
    refine ⟨fun c => (hr.keep _ c).trans (hl.1 _), fun c hf δ => ?_⟩
    obtain ⟨f0, f1, f2⟩ := hf
    simp only [jac0, bind_apply, pure_apply, load, lin_append]
    rw [hr.lin _ _ f2, hl.2 _ (f1.keep (hr.keep _ _) l h1), f0, vel, add_comm]
  | trInv id e _ =>
    obtain ⟨h0, h1⟩ := hw
    have he := jacs (x := x) e h1
    refine ⟨fun c => he.keep _ c, fun c hf δ => ?_⟩
    obtain ⟨f0, f1⟩ := hf
    simp only [jac0, bind_apply, load]
    rw [he.lin _ _ f1, f0, vel]
  | matDv i cells => exact absurd rfl hk
  | leaf L => exact ⟨fun c => Keep.refl c, fun c _ δ => rfl⟩

/-- Whatever is evaluated meanwhile, up to date members stay up to date. -/
theorem steps_keep {c c' : Cache} (h : Steps f x c c') : Keep f x c c' := by
  induction h with
  | refl => exact Keep.refl _
  | eval e hw _ ih => exact ih.trans ((evals e hw).keep _)
  | jac e M hw _ ih => exact ih.trans ((jacs e hw).keep M _)
  | jac0 e hk hw _ ih => exact ih.trans ((jac0s e hk hw).1 _)

end Kalibr.Exp
