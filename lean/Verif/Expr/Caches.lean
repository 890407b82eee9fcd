import Verif.Expr.Vel

/-!
# The members of the nodes

Evaluating an expression gives its value whatever the members were before, and leaves in every node of the tree
the values of its children; the Jacobian then finds them there.
-/

namespace Kalibr.Exp

open Kalibr.Kin Matrix

/-- What the members of a node are once it was evaluated. -/
noncomputable def want (x : State) : (k : Kind) × Expr k → Slot
  | ⟨_, .rotMul _ l r⟩ => { C1 := val x l, C2 := val x r, p := 0, h := 0, T1 := 0, T2 := 0 }
  | ⟨_, .rotInv _ e⟩ => { C1 := val x e, C2 := 0, p := 0, h := 0, T1 := 0, T2 := 0 }
  | ⟨_, .rotEuc _ l r⟩ => { C1 := val x l, C2 := 0, p := val x r, h := 0, T1 := 0, T2 := 0 }
  | ⟨_, .matEuc _ l r⟩ => { C1 := val x l, C2 := 0, p := val x r, h := 0, T1 := 0, T2 := 0 }
  | ⟨_, .trHom _ l r⟩ => { C1 := 0, C2 := 0, p := 0, h := val x r, T1 := val x l, T2 := 0 }
  | ⟨_, .trMul _ l r⟩ => { C1 := 0, C2 := 0, p := 0, h := 0, T1 := val x l, T2 := val x r }
  | ⟨_, .trInv _ e⟩ => { C1 := 0, C2 := 0, p := 0, h := 0, T1 := (val x e : M4)⁻¹, T2 := 0 }
  | _ => { C1 := 0, C2 := 0, p := 0, h := 0, T1 := 0, T2 := 0 }

/-- Members that are up to date stay up to date. -/
structure Keep (f : ℕ → (k : Kind) × Expr k) (x : State) (c c' : Cache) : Prop where
  C1 : ∀ id, (c id).C1 = (want x (f id)).C1 → (c' id).C1 = (want x (f id)).C1
  C2 : ∀ id, (c id).C2 = (want x (f id)).C2 → (c' id).C2 = (want x (f id)).C2
  p : ∀ id, (c id).p = (want x (f id)).p → (c' id).p = (want x (f id)).p
  h : ∀ id, (c id).h = (want x (f id)).h → (c' id).h = (want x (f id)).h
  T1 : ∀ id, (c id).T1 = (want x (f id)).T1 → (c' id).T1 = (want x (f id)).T1
  T2 : ∀ id, (c id).T2 = (want x (f id)).T2 → (c' id).T2 = (want x (f id)).T2

variable {f : ℕ → (k : Kind) × Expr k} {x : State}

theorem Keep.refl (c : Cache) : Keep f x c c :=
  ⟨fun _ h => h, fun _ h => h, fun _ h => h, fun _ h => h, fun _ h => h, fun _ h => h⟩

theorem Keep.trans {a b c : Cache} (h : Keep f x a b) (g : Keep f x b c) : Keep f x a c :=
  ⟨fun i e => g.C1 i (h.C1 i e), fun i e => g.C2 i (h.C2 i e), fun i e => g.p i (h.p i e),
    fun i e => g.h i (h.h i e), fun i e => g.T1 i (h.T1 i e), fun i e => g.T2 i (h.T2 i e)⟩

theorem keep_store (c : Cache) (id : ℕ) (g : Slot → Slot)
    (h1 : (g (c id)).C1 = (c id).C1 ∨ (g (c id)).C1 = (want x (f id)).C1)
    (h2 : (g (c id)).C2 = (c id).C2 ∨ (g (c id)).C2 = (want x (f id)).C2)
    (h3 : (g (c id)).p = (c id).p ∨ (g (c id)).p = (want x (f id)).p)
    (h4 : (g (c id)).h = (c id).h ∨ (g (c id)).h = (want x (f id)).h)
    (h5 : (g (c id)).T1 = (c id).T1 ∨ (g (c id)).T1 = (want x (f id)).T1)
    (h6 : (g (c id)).T2 = (c id).T2 ∨ (g (c id)).T2 = (want x (f id)).T2) :
    Keep f x c (store id g c).2 := by
  unfold store
  refine ⟨fun i e => ?_, fun i e => ?_, fun i e => ?_, fun i e => ?_, fun i e => ?_, fun i e => ?_⟩ <;>
    by_cases hi : i = id <;> simp only [Function.update_apply, hi, if_true, if_false] <;>
    (try subst hi) <;> grind

/-- The members the Jacobian reads are up to date in every node of the tree. -/
def Fresh (x : State) (c : Cache) : {k : Kind} → Expr k → Prop
  | _, .rotMul id l r => (c id).C1 = val x l ∧ Fresh x c l ∧ Fresh x c r
  | _, .rotInv id e => (c id).C1 = val x e ∧ Fresh x c e
  | _, .rotOfTr e => Fresh x c e
  | _, .rotEuc id l r => ((c id).C1 = val x l ∧ (c id).p = val x r) ∧ Fresh x c l ∧ Fresh x c r
  | _, .matEuc id l r => ((c id).C1 = val x l ∧ (c id).p = val x r) ∧ Fresh x c l ∧ Fresh x c r
  | _, .cross l r => Fresh x c l ∧ Fresh x c r
  | _, .add l r => Fresh x c l ∧ Fresh x c r
  | _, .sub l r => Fresh x c l ∧ Fresh x c r
  | _, .subVec l _ => Fresh x c l
  | _, .neg e => Fresh x c e
  | _, .smul p s => Fresh x c p ∧ Fresh x c s
  | _, .cwise l r => Fresh x c l ∧ Fresh x c r
  | _, .transl e => Fresh x c e
  | _, .rotParams _ e => Fresh x c e
  | _, .ofHom e => Fresh x c e
  | _, .scaMul l r => Fresh x c l ∧ Fresh x c r
  | _, .scaDiv l r => Fresh x c l ∧ Fresh x c r
  | _, .scaAdd l r _ => Fresh x c l ∧ Fresh x c r
  | _, .trHom id l r => ((c id).T1 = val x l ∧ (c id).h = val x r) ∧ Fresh x c l ∧ Fresh x c r
  | _, .homOfEuc e => Fresh x c e
  | _, .trBasic C t => Fresh x c C ∧ Fresh x c t
  | _, .trMul id l r => (c id).T1 = val x l ∧ Fresh x c l ∧ Fresh x c r
  | _, .trInv id e => (c id).T1 = (val x e : M4)⁻¹ ∧ Fresh x c e
  | _, _ => True

theorem Fresh.keep {c c' : Cache} (hk : Keep f x c c') {k : Kind} (e : Expr k) (hw : WF f e) (h : Fresh x c e) :
    Fresh x c' e := by
  induction e with
  | rotMul id l r hl hr =>
    refine ⟨?_, hl hw.2.1 h.2.1, hr hw.2.2 h.2.2⟩
    have := hk.C1 id; rw [hw.1] at this; exact this h.1
  | rotInv id e he =>
    refine ⟨?_, he hw.2 h.2⟩
    have := hk.C1 id; rw [hw.1] at this; exact this h.1
  | rotOfTr e he => exact he hw h
  | rotEuc id l r hl hr =>
    refine ⟨⟨?_, ?_⟩, hl hw.2.1 h.2.1, hr hw.2.2 h.2.2⟩
    · have := hk.C1 id; rw [hw.1] at this; exact this h.1.1
    · have := hk.p id; rw [hw.1] at this; exact this h.1.2
  | matEuc id l r hl hr =>
    refine ⟨⟨?_, ?_⟩, hl hw.2.1 h.2.1, hr hw.2.2 h.2.2⟩
    · have := hk.C1 id; rw [hw.1] at this; exact this h.1.1
    · have := hk.p id; rw [hw.1] at this; exact this h.1.2
  | trHom id l r hl hr =>
    refine ⟨⟨?_, ?_⟩, hl hw.2.1 h.2.1, hr hw.2.2 h.2.2⟩
    · have := hk.T1 id; rw [hw.1] at this; exact this h.1.1
    · have := hk.h id; rw [hw.1] at this; exact this h.1.2
  | trMul id l r hl hr =>
    refine ⟨?_, hl hw.2.1 h.2.1, hr hw.2.2 h.2.2⟩
    have := hk.T1 id; rw [hw.1] at this; exact this h.1
  | trInv id e he =>
    refine ⟨?_, he hw.2 h.2⟩
    have := hk.T1 id; rw [hw.1] at this; exact this h.1
  | cross l r hl hr => exact ⟨hl hw.1 h.1, hr hw.2 h.2⟩
  | add l r hl hr => exact ⟨hl hw.1 h.1, hr hw.2 h.2⟩
  | sub l r hl hr => exact ⟨hl hw.1 h.1, hr hw.2 h.2⟩
  | subVec l p hl => exact hl hw h
  | neg e he => exact he hw h
  | smul p s hp hs => exact ⟨hp hw.1 h.1, hs hw.2 h.2⟩
  | cwise l r hl hr => exact ⟨hl hw.1 h.1, hr hw.2 h.2⟩
  | transl e he => exact he hw h
  | rotParams rk e he => exact he hw h
  | ofHom e he => exact he hw h
  | scaMul l r hl hr => exact ⟨hl hw.1 h.1, hr hw.2 h.2⟩
  | scaDiv l r hl hr => exact ⟨hl hw.1 h.1, hr hw.2 h.2⟩
  | scaAdd l r m hl hr => exact ⟨hl hw.1 h.1, hr hw.2 h.2⟩
  | homOfEuc e he => exact he hw h
  | trBasic C t hC ht => exact ⟨hC hw.1 h.1, ht hw.2 h.2⟩
  | _ => trivial

theorem bind_apply {A B : Type} (m : W A) (g : A → W B) (c : Cache) : (m >>= g) c = g (m c).1 (m c).2 := rfl

theorem pure_apply {A : Type} (a : A) (c : Cache) : (pure a : W A) c = (a, c) := rfl

/-- What an evaluation does. -/
structure Evals (f : ℕ → (k : Kind) × Expr k) (x : State) {k : Kind} (e : Expr k) : Prop where
  val : ∀ c, (eval x e c).1 = val x e
  keep : ∀ c, Keep f x c (eval x e c).2
  fresh : ∀ c, Fresh x (eval x e c).2 e

/-- Nodes with two children and no members. -/
theorem two {k₁ k₂ k : Kind} {l : Expr k₁} {r : Expr k₂} {e : Expr k} {g : Val k₁ → Val k₂ → Val k}
    (hwl : WF f l) (hl : Evals f x l) (hr : Evals f x r)
    (he : eval x e = do let a ← eval x l; let b ← eval x r; pure (g a b))
    (hv : val x e = g (val x l) (val x r)) (hf : ∀ c, Fresh x c l → Fresh x c r → Fresh x c e) : Evals f x e := by
  refine ⟨fun c => ?_, fun c => ?_, fun c => ?_⟩
  · rw [he, hv]; simp only [bind_apply, pure_apply, hl.val, hr.val]
  · rw [he]; exact (hl.keep c).trans (hr.keep _)
  · rw [he]; exact hf _ ((hl.fresh c).keep (hr.keep _) l hwl) (hr.fresh _)

/-- Nodes with one child and no members. -/
theorem one {k₁ k : Kind} {l : Expr k₁} {e : Expr k} {g : Val k₁ → Val k} (hl : Evals f x l)
    (he : eval x e = do let a ← eval x l; pure (g a))
    (hv : val x e = g (val x l)) (hf : ∀ c, Fresh x c l → Fresh x c e) : Evals f x e := by
  refine ⟨fun c => ?_, fun c => ?_, fun c => ?_⟩
  · rw [he, hv]; simp only [bind_apply, pure_apply, hl.val]
  · rw [he]; exact hl.keep c
  · rw [he]; exact hf _ (hl.fresh c)

/-- Leaves. -/
theorem leaf {k : Kind} {e : Expr k} {v : Val k} (he : eval x e = pure v) (hv : val x e = v)
    (hf : ∀ c, Fresh x c e) : Evals f x e :=
  ⟨fun c => by rw [he, hv]; rfl, fun c => by rw [he]; exact Keep.refl c, fun c => hf _⟩

/-- Nodes with two children and members for their values. -/
theorem twoC {k₁ k₂ k : Kind} {l : Expr k₁} {r : Expr k₂} {e : Expr k} {id : ℕ} {s1 : Val k₁ → Slot → Slot}
    {s2 : Val k₂ → Slot → Slot} {g : Slot → Val k} (G1 G2 : Slot → Prop)
    (hwl : WF f l) (hwr : WF f r) (hl : Evals f x l) (hr : Evals f x r)
    (he : eval x e = do
      let a ← eval x l
      store id (s1 a)
      let b ← eval x r
      store id (s2 b)
      let s ← load id
      pure (g s))
    (k1 : ∀ c, Keep f x c (store id (s1 (val x l)) c).2) (k2 : ∀ c, Keep f x c (store id (s2 (val x r)) c).2)
    (hG1 : ∀ c c', Keep f x c c' → G1 (c id) → G1 (c' id))
    (g1 : ∀ s, G1 (s1 (val x l) s)) (g2 : ∀ s, G2 (s2 (val x r) s))
    (hv : ∀ s, G1 s → G2 s → g s = val x e)
    (hf : ∀ c, G1 (c id) → G2 (c id) → Fresh x c l → Fresh x c r → Fresh x c e) : Evals f x e := by
  have key : ∀ c, ∃ c', eval x e c = (g (c' id), c') ∧ G1 (c' id) ∧ G2 (c' id) ∧ Keep f x c c' ∧
      Fresh x c' l ∧ Fresh x c' r := by
    intro c
    let c1 := (eval x l c).2
    let c2 := (store id (s1 (val x l)) c1).2
    let c3 := (eval x r c2).2
    let c4 := (store id (s2 (val x r)) c3).2
    have h12 : Keep f x c1 c2 := k1 c1
    have h23 : Keep f x c2 c3 := hr.keep c2
    have h34 : Keep f x c3 c4 := k2 c3
    refine ⟨c4, ?_, ?_, ?_, ?_, ?_, ?_⟩
    · rw [he]
      simp only [bind_apply, pure_apply, hl.val, hr.val, load]
      rfl
    · refine hG1 _ _ (h23.trans h34) ?_
      show G1 ((store id (s1 (val x l)) c1).2 id)
      simp only [store, Function.update_self]
      exact g1 _
    · show G2 ((store id (s2 (val x r)) c3).2 id)
      simp only [store, Function.update_self]
      exact g2 _
    · exact (hl.keep c).trans (h12.trans (h23.trans h34))
    · exact (hl.fresh c).keep (h12.trans (h23.trans h34)) l hwl
    · exact (hr.fresh c2).keep h34 r hwr
  refine ⟨fun c => ?_, fun c => ?_, fun c => ?_⟩ <;> obtain ⟨c', h, p1, p2, hk, f1, f2⟩ := key c <;> rw [h]
  · exact hv _ p1 p2
  · exact hk
  · exact hf _ p1 p2 f1 f2

/-- Nodes with one child and a member for its value. -/
theorem oneC {k₁ k : Kind} {l : Expr k₁} {e : Expr k} {id : ℕ} {s1 : Val k₁ → Slot → Slot}
    {g : Slot → Val k} (G1 : Slot → Prop) (hwl : WF f l) (hl : Evals f x l)
    (he : eval x e = do
      let a ← eval x l
      store id (s1 a)
      let s ← load id
      pure (g s))
    (k1 : ∀ c, Keep f x c (store id (s1 (val x l)) c).2) (g1 : ∀ s, G1 (s1 (val x l) s))
    (hv : ∀ s, G1 s → g s = val x e) (hf : ∀ c, G1 (c id) → Fresh x c l → Fresh x c e) : Evals f x e := by
  have key : ∀ c, ∃ c', eval x e c = (g (c' id), c') ∧ G1 (c' id) ∧ Keep f x c c' ∧ Fresh x c' l := by
    intro c
    let c1 := (eval x l c).2
    let c2 := (store id (s1 (val x l)) c1).2
    have h12 : Keep f x c1 c2 := k1 c1
    refine ⟨c2, ?_, ?_, ?_, ?_⟩
    · rw [he]
      simp only [bind_apply, pure_apply, hl.val, load]
      rfl
    · show G1 ((store id (s1 (val x l)) c1).2 id)
      simp only [store, Function.update_self]
      exact g1 _
    · exact (hl.keep c).trans h12
    · exact (hl.fresh c).keep h12 l hwl
  refine ⟨fun c => ?_, fun c => ?_, fun c => ?_⟩ <;> obtain ⟨c', h, p1, hk, f1⟩ := key c <;> rw [h]
  · exact hv _ p1
  · exact hk
  · exact hf _ p1 f1

theorem evals {k : Kind} (e : Expr k) (hw : WF f e) : Evals f x e := by
  induction e with
  | rotMul id l r hl hr =>
    obtain ⟨h0, h1, h2⟩ := hw
    refine twoC (fun s => s.C1 = val x l) (fun s => s.C2 = val x r) h1 h2 (hl h1) (hr h2) rfl
      (fun c => by apply keep_store <;> simp [h0, want]) (fun c => by apply keep_store <;> simp [h0, want])
      (fun c c' hk h => ?_) (fun _ => rfl) (fun _ => rfl) (fun s a b => ?_) (fun c a b p q => ⟨a, p, q⟩)
    · have := hk.C1 id; rw [h0] at this; exact this h
    · simp only [a, b]; rfl
  | rotInv id e he =>
    obtain ⟨h0, h1⟩ := hw
    exact oneC (fun s => s.C1 = val x e) h1 (he h1) rfl
      (fun c => by apply keep_store <;> simp [h0, want]) (fun _ => rfl)
      (fun s a => by simp only [a]; rfl) (fun c a p => ⟨a, p⟩)
  | rotOfTr e he => exact one (he hw) rfl rfl fun _ h => h
  | eucDv i => exact leaf rfl rfl fun _ => trivial
  | rotDv i => exact leaf rfl rfl fun _ => trivial
  | dirDv i => exact leaf rfl rfl fun _ => trivial
  | eucConst p => exact leaf rfl rfl fun _ => trivial
  | rotEuc id l r hl hr =>
    obtain ⟨h0, h1, h2⟩ := hw
    refine twoC (fun s => s.C1 = val x l) (fun s => s.p = val x r) h1 h2 (hl h1) (hr h2) rfl
      (fun c => by apply keep_store <;> simp [h0, want]) (fun c => by apply keep_store <;> simp [h0, want])
      (fun c c' hk h => ?_) (fun _ => rfl) (fun _ => rfl) (fun s a b => ?_) (fun c a b p q => ⟨⟨a, b⟩, p, q⟩)
    · have := hk.C1 id; rw [h0] at this; exact this h
    · simp only [a, b]; rfl
  | matEuc id l r hl hr =>
    obtain ⟨h0, h1, h2⟩ := hw
    refine twoC (fun s => s.C1 = val x l) (fun s => s.p = val x r) h1 h2 (hl h1) (hr h2) rfl
      (fun c => by apply keep_store <;> simp [h0, want]) (fun c => by apply keep_store <;> simp [h0, want])
      (fun c c' hk h => ?_) (fun _ => rfl) (fun _ => rfl) (fun s a b => ?_) (fun c a b p q => ⟨⟨a, b⟩, p, q⟩)
    · have := hk.C1 id; rw [h0] at this; exact this h
    · simp only [a, b]; rfl
  | cross l r hl hr => exact two hw.1 (hl hw.1) (hr hw.2) rfl rfl fun _ p q => ⟨p, q⟩
  | add l r hl hr => exact two hw.1 (hl hw.1) (hr hw.2) rfl rfl fun _ p q => ⟨p, q⟩
  | sub l r hl hr => exact two hw.1 (hl hw.1) (hr hw.2) rfl rfl fun _ p q => ⟨p, q⟩
  | subVec l p hl => exact one (hl hw) rfl rfl fun _ h => h
  | neg e he => exact one (he hw) rfl rfl fun _ h => h
  | smul p s hp hs => exact two hw.1 (hp hw.1) (hs hw.2) rfl rfl fun _ p q => ⟨p, q⟩
  | cwise l r hl hr => exact two hw.1 (hl hw.1) (hr hw.2) rfl rfl fun _ p q => ⟨p, q⟩
  | transl e he => exact one (he hw) rfl rfl fun _ h => h
  | rotParams rk e he => exact one (he hw) rfl rfl fun _ h => h
  | ofHom e he => exact one (he hw) rfl rfl fun _ h => h
  | scaDv i => exact leaf rfl rfl fun _ => trivial
  | scaConst s => exact leaf rfl rfl fun _ => trivial
  | scaMul l r hl hr => exact two hw.1 (hl hw.1) (hr hw.2) rfl rfl fun _ p q => ⟨p, q⟩
  | scaDiv l r hl hr => exact two hw.1 (hl hw.1) (hr hw.2) rfl rfl fun _ p q => ⟨p, q⟩
  | scaAdd l r m hl hr => exact two hw.1 (hl hw.1) (hr hw.2) rfl rfl fun _ p q => ⟨p, q⟩
  | homDv i => exact leaf rfl rfl fun _ => trivial
  | homConst p => exact leaf rfl rfl fun _ => trivial
  | trHom id l r hl hr =>
    obtain ⟨h0, h1, h2⟩ := hw
    refine twoC (fun s => s.T1 = val x l) (fun s => s.h = val x r) h1 h2 (hl h1) (hr h2) rfl
      (fun c => by apply keep_store <;> simp [h0, want]) (fun c => by apply keep_store <;> simp [h0, want])
      (fun c c' hk h => ?_) (fun _ => rfl) (fun _ => rfl) (fun s a b => ?_) (fun c a b p q => ⟨⟨a, b⟩, p, q⟩)
    · have := hk.T1 id; rw [h0] at this; exact this h
    · simp only [a, b]; rfl
  | homOfEuc e he => exact one (he hw) rfl rfl fun _ h => h
  | trBasic C t hC ht => exact two hw.1 (hC hw.1) (ht hw.2) rfl rfl fun _ p q => ⟨p, q⟩
  | trConst T => exact leaf rfl rfl fun _ => trivial
  | trMul id l r hl hr =>
    obtain ⟨h0, h1, h2⟩ := hw
    refine twoC (fun s => s.T1 = val x l) (fun s => s.T2 = val x r) h1 h2 (hl h1) (hr h2) rfl
      (fun c => by apply keep_store <;> simp [h0, want]) (fun c => by apply keep_store <;> simp [h0, want])
      (fun c c' hk h => ?_) (fun _ => rfl) (fun _ => rfl) (fun s a b => ?_) (fun c a b p q => ⟨a, p, q⟩)
    · have := hk.T1 id; rw [h0] at this; exact this h
    · simp only [a, b]; rfl
  | trInv id e he =>
    obtain ⟨h0, h1⟩ := hw
    exact oneC (fun s => s.T1 = (val x e : M4)⁻¹) h1 (he h1) rfl
      (fun c => by apply keep_store <;> simp [h0, want]) (fun _ => rfl)
      (fun s a => by simp only [a]; rfl) (fun c a p => ⟨a, p⟩)
  | matDv i cells => exact leaf rfl rfl fun _ => trivial
  | leaf L => exact leaf rfl rfl fun _ => trivial

end Kalibr.Exp
