import Verif.Target.GridProps

/-!
# Properties of target observations (C59)

The specification of an observation is `View`: the target and, for every index, the image point when the
corner is currently observed.
-/

namespace Kalibr.Target

open Kalibr

variable {T : Type}

/-! ## Specification -/

/-- The abstract content of an observation. -/
structure View where
  target : Target
  seen : ℕ → Option P2

/-- A call of the public interface. -/
inductive Op (T : Type) where
  | setTarget (t : Option Target)
  | update (i : ℕ) (p : P2)
  | remove (i : ℕ)
  | setPose (x : T)

/-- The specified effect of a call: a new target forgets all corners, an update or a removal with an index
of the target changes that corner, everything else changes nothing. -/
noncomputable def View.step (v : View) : Op T → View
  | .setTarget none => v
  | .setTarget (some t) => ⟨t, fun _ => none⟩
  | .update i p => if i < v.target.size then ⟨v.target, Function.update v.seen i (some p)⟩ else v
  | .remove i => if i < v.target.size then ⟨v.target, Function.update v.seen i none⟩ else v
  | .setPose _ => v

/-- The indices of the observed corners in increasing order. -/
def View.indices (v : View) : List ℕ := (List.range v.target.size).filter fun i => (v.seen i).isSome

/-- A target as the constructors build it: it stores all its points. -/
def Target.Complete (t : Target) : Prop := t.pts.length = t.size

/-! ## Execution of a history on the model -/

/-- One call; a call that raises leaves the observation as it is, because all checks come first. -/
def Obs.exec (o : Obs T) (op : Op T) : Out (Obs T) :=
  let r := match op with
    | .setTarget t => o.setTarget t
    | .update i p => o.updateImagePoint i p
    | .remove i => o.removeImagePoint i
    | .setPose x => .ok { o with pose := some x }
  match r with
  | .raise => .ok o
  | r => r

/-- A history of calls. -/
def Obs.run (o : Obs T) (ops : List (Op T)) : Out (Obs T) := ops.foldlM Obs.exec o

/-- The observation `o` stands for the view `v`. -/
structure Rel (o : Obs T) (v : View) : Prop where
  target : o.target = some v.target
  lp : o.pts.length = v.target.size
  ls : o.success.length = v.target.size
  succ : ∀ i, i < v.target.size → o.success[i]? = some (v.seen i).isSome
  pt : ∀ i p, v.seen i = some p → o.pts[i]? = some p
  out : ∀ i, v.target.size ≤ i → v.seen i = none

theorem rel_new (t : Target) (o : Obs T) :
    ∃ o', o.setTarget (some t) = .ok o' ∧ Rel o' ⟨t, fun _ => none⟩ ∧ o'.pose = o.pose := by
  refine ⟨_, rfl, ⟨rfl, by simp, by simp, ?_, by simp, by simp⟩, rfl⟩
  intro i hi
  simp only [Option.isSome_none] at hi ⊢
  rw [List.getElem?_replicate, if_pos hi]

theorem rel_update {o : Obs T} {v : View} (h : Rel o v) {i : ℕ} (hi : i < v.target.size) (p : P2) :
    ∃ o', o.updateImagePoint i p = .ok o' ∧ o'.pose = o.pose ∧
      Rel o' ⟨v.target, Function.update v.seen i (some p)⟩ := by
  have h1 : i < o.pts.length := by rw [h.lp]; exact hi
  have h2 : i < o.success.length := by rw [h.ls]; exact hi
  have h2' : ¬ i ≥ o.success.length := by omega
  refine ⟨{ o with pts := o.pts.set i p, success := o.success.set i true }, ?_, rfl, ?_⟩
  · simp [Obs.updateImagePoint, h.target, h2', writeAt_ok h1, writeAt_ok h2]
  · refine ⟨h.target, by simpa using h.lp, by simpa using h.ls, ?_, ?_, ?_⟩
    · intro j hj
      by_cases hji : j = i
      · subst hji
        simp [List.getElem?_set_self h2]
      · simp only [Function.update_of_ne hji]
        rw [List.getElem?_set_ne (Ne.symm hji)]
        exact h.succ j hj
    · intro j q hq
      by_cases hji : j = i
      · subst hji
        simp at hq
        subst hq
        simp [List.getElem?_set_self h1]
      · simp only [Function.update_of_ne hji] at hq
        rw [List.getElem?_set_ne (Ne.symm hji)]
        exact h.pt j q hq
    · intro j hj
      have hji : j ≠ i := by simp only at hj; omega
      simp only [Function.update_of_ne hji]
      exact h.out j hj

theorem rel_remove {o : Obs T} {v : View} (h : Rel o v) {i : ℕ} (hi : i < v.target.size) :
    ∃ o', o.removeImagePoint i = .ok o' ∧ o'.pose = o.pose ∧
      Rel o' ⟨v.target, Function.update v.seen i none⟩ := by
  have h2 : i < o.success.length := by rw [h.ls]; exact hi
  have h2' : ¬ i ≥ o.success.length := by omega
  refine ⟨{ o with success := o.success.set i false }, ?_, rfl, ?_⟩
  · simp [Obs.removeImagePoint, h.target, h2', writeAt_ok h2]
  · refine ⟨h.target, h.lp, by simpa using h.ls, ?_, ?_, ?_⟩
    · intro j hj
      by_cases hji : j = i
      · subst hji
        simp [List.getElem?_set_self h2]
      · simp only [Function.update_of_ne hji]
        rw [List.getElem?_set_ne (Ne.symm hji)]
        exact h.succ j hj
    · intro j q hq
      by_cases hji : j = i
      · subst hji
        simp at hq
      · simp only [Function.update_of_ne hji] at hq
        exact h.pt j q hq
    · intro j hj
      have hji : j ≠ i := by simp only at hj; omega
      simp only [Function.update_of_ne hji]
      exact h.out j hj

theorem rel_step {o : Obs T} {v : View} (h : Rel o v) (op : Op T) :
    ∃ o', o.exec op = .ok o' ∧ Rel o' (v.step op) := by
  cases op with
  | setTarget t =>
    cases t with
    | none => exact ⟨o, rfl, h⟩
    | some t =>
      obtain ⟨o', h1, h2, -⟩ := rel_new t o
      exact ⟨o', by simp [Obs.exec, h1], h2⟩
  | update i p =>
    by_cases hi : i < v.target.size
    · obtain ⟨o', h1, -, h2⟩ := rel_update h hi p
      exact ⟨o', by simp [Obs.exec, h1], by simpa [View.step, hi] using h2⟩
    · have : i ≥ o.success.length := by rw [h.ls]; omega
      exact ⟨o, by simp [Obs.exec, Obs.updateImagePoint, h.target, this],
        by simpa [View.step, hi] using h⟩
  | remove i =>
    by_cases hi : i < v.target.size
    · obtain ⟨o', h1, -, h2⟩ := rel_remove h hi
      exact ⟨o', by simp [Obs.exec, h1], by simpa [View.step, hi] using h2⟩
    · have : i ≥ o.success.length := by rw [h.ls]; omega
      exact ⟨o, by simp [Obs.exec, Obs.removeImagePoint, h.target, this],
        by simpa [View.step, hi] using h⟩
  | setPose x =>
    exact ⟨{ o with pose := some x }, rfl, ⟨h.target, h.lp, h.ls, h.succ, h.pt, h.out⟩⟩

theorem rel_run {o : Obs T} {v : View} (h : Rel o v) (ops : List (Op T)) :
    ∃ o', o.run ops = .ok o' ∧ Rel o' (ops.foldl View.step v) := by
  induction ops generalizing o v with
  | nil => exact ⟨o, rfl, h⟩
  | cons op ops ih =>
    obtain ⟨o1, h1, h2⟩ := rel_step h op
    obtain ⟨o2, h3, h4⟩ := ih h2
    refine ⟨o2, ?_, h4⟩
    unfold Obs.run at h3 ⊢
    rw [List.foldlM_cons, h1]
    exact h3

/-! ## The loops of the accessors -/

/-- A loop that appends `g i` and counts for every `i` with `b i`. -/
theorem collect {β : Type} (n : ℕ) (b : ℕ → Bool) (g : ℕ → β)
    (body : List β × ℕ → ℕ → Out (List β × ℕ))
    (hb : ∀ i, i < n → ∀ acc, body acc i = .ok (if b i then (acc.1 ++ [g i], acc.2 + 1) else acc)) :
    (List.range n).foldlM body ([], 0) =
      .ok (((List.range n).filter b).map g, ((List.range n).filter b).length) := by
  obtain ⟨s, h, hs⟩ := foldlM_range_inv (n := n) (f := body) (s := ([], 0))
    (P := fun k s => s = (((List.range k).filter b).map g, ((List.range k).filter b).length))
    (by simp) (by
      rintro k hk _ rfl
      refine ⟨_, hb k hk _, ?_⟩
      rw [List.range_succ, List.filter_append]
      by_cases hbk : b k <;> simp [hbk])
  rw [h, hs]

theorem collect' {β : Type} (n : ℕ) (b : ℕ → Bool) (g : ℕ → β) (body : List β → ℕ → Out (List β))
    (hb : ∀ i, i < n → ∀ acc, body acc i = .ok (if b i then acc ++ [g i] else acc)) :
    (List.range n).foldlM body [] = .ok (((List.range n).filter b).map g) := by
  obtain ⟨s, h, hs⟩ := foldlM_range_inv (n := n) (f := body) (s := [])
    (P := fun k s => s = ((List.range k).filter b).map g)
    (by simp) (by
      rintro k hk _ rfl
      refine ⟨_, hb k hk _, ?_⟩
      rw [List.range_succ, List.filter_append]
      by_cases hbk : b k <;> simp [hbk])
  rw [h, hs]

theorem View.mem_indices {v : View} {i : ℕ} :
    i ∈ v.indices ↔ i < v.target.size ∧ (v.seen i).isSome := by
  simp [View.indices]

theorem Rel.idx {o : Obs T} {v : View} (h : Rel o v) :
    o.getCornersIdx = .ok (v.indices, v.indices.length) := by
  have := collect' v.target.size (fun i => (v.seen i).isSome) id
    (fun (acc : List ℕ) i => do if ← readAt o.success i then .ok (acc ++ [i]) else .ok acc) (by
      intro i hi acc
      simp only [readAt_eq_ok.mpr (h.succ i hi), Out.ok_bind, id]
      split <;> rfl)
  simp only [Obs.getCornersIdx, h.target]
  rw [this]
  simp [View.indices]

theorem Rel.readPt {o : Obs T} {v : View} (h : Rel o v) {i : ℕ} (hi : i < v.target.size) :
    ∃ p, o.imagePoint i = .ok (p, (v.seen i).isSome) ∧ ∀ q, v.seen i = some q → p = q := by
  have h1 : i < o.pts.length := by rw [h.lp]; exact hi
  have h2' : ¬ i ≥ o.success.length := by rw [h.ls]; omega
  refine ⟨o.pts[i], ?_, ?_⟩
  · simp [Obs.imagePoint, h.target, h2', readAt_ok h1, readAt_eq_ok.mpr (h.succ i hi)]
  · intro q hq
    have := h.pt i q hq
    rw [List.getElem?_eq_getElem h1] at this
    exact Option.some.inj this

theorem Rel.image {o : Obs T} {v : View} (h : Rel o v) :
    o.getCornersImageFrame =
      .ok (v.indices.map fun i => (v.seen i).getD (0, 0), v.indices.length) := by
  have := collect v.target.size (fun i => (v.seen i).isSome) (fun i => (v.seen i).getD (0, 0))
    (fun (acc : List P2 × ℕ) i => do
      if ← readAt o.success i then
        let p ← o.imagePoint i
        .ok (acc.1 ++ [p.1], acc.2 + 1)
      else .ok acc) (by
      intro i hi acc
      simp only [readAt_eq_ok.mpr (h.succ i hi), Out.ok_bind]
      obtain ⟨p, hp, hq⟩ := h.readPt hi
      cases hs : v.seen i with
      | none => simp
      | some q =>
        have := hq q hs
        subst this
        simp [hp])
  simp only [Obs.getCornersImageFrame, h.target]
  rw [this]
  rfl

theorem Rel.frame {o : Obs T} {v : View} (h : Rel o v) (hc : v.target.Complete) :
    o.getCornersTargetFrame =
      .ok (v.indices.map fun i => ((v.target.pts.getD i 0).1, (v.target.pts.getD i 0).2.1, 0),
        v.indices.length) := by
  have := collect v.target.size (fun i => (v.seen i).isSome)
    (fun i => (((v.target.pts.getD i 0).1, (v.target.pts.getD i 0).2.1, 0) : P3))
    (fun (acc : List P3 × ℕ) i => do
      if ← readAt o.success i then
        let p ← v.target.point i
        .ok (acc.1 ++ [(p.1, p.2.1, 0)], acc.2 + 1)
      else .ok acc) (by
      intro i hi acc
      simp only [readAt_eq_ok.mpr (h.succ i hi), Out.ok_bind]
      have h1 : i < v.target.pts.length := by rw [hc]; exact hi
      cases hs : v.seen i with
      | none => simp
      | some q => simp [Target.point, readAt_ok h1, h1])
  simp only [Obs.getCornersTargetFrame, h.target]
  rw [this]
  rfl

theorem Rel.reproj {o : Obs T} {v : View} (h : Rel o v) (hc : v.target.Complete) {x : T}
    (hx : o.pose = some x) (project : T → P3 → P2) :
    o.getCornerReprojection project =
      .ok (v.indices.map fun i =>
        project x ((v.target.pts.getD i 0).1, (v.target.pts.getD i 0).2.1, 0), v.indices.length) := by
  simp only [Obs.getCornerReprojection, hx, h.frame hc, Out.ok_bind]
  set l := v.indices.map fun i => (((v.target.pts.getD i 0).1, (v.target.pts.getD i 0).2.1, 0) : P3)
    with hl
  have hlen : v.indices.length = l.length := by simp [hl]
  have := collect l.length (fun _ => true) (fun i => project x (l.getD i 0))
    (fun (acc : List P2 × ℕ) i => do
      let p ← readAt l i
      .ok (acc.1 ++ [project x p], acc.2 + 1)) (by
      intro i hi acc
      simp [readAt_ok hi, hi])
  rw [hlen, this]
  simp only [List.filter_true, List.length_range]
  congr 2
  have e1 : ((List.range l.length).map fun i => project x (l.getD i 0)) = l.map (project x) := by
    apply List.ext_getElem
    · simp
    · intro i h1 h2
      simp at h1
      simp [h1]
  rw [e1, hl, List.map_map]
  rfl

/-! ## C59 -/

/-- **C59**: start an observation with a target and make any sequence of calls, some of which may raise.
Nothing undefined happens.  Afterwards the list of indices is the increasing list of the corners that are
observed according to the history; the list of image points holds the last point given for each of them,
the list of target points their position in the target, both in the same order; and all three calls
return the number of observed corners. -/
theorem C59_lists (t0 : Target) (ops : List (Op T)) (hc : t0.Complete)
    (hops : ∀ t, Op.setTarget (some t) ∈ ops → t.Complete) :
    ∃ o0 o, Obs.new (some t0) = .ok o0 ∧ o0.run ops = .ok o ∧
      let v := ops.foldl View.step ⟨t0, fun _ => none⟩
      o.getCornersIdx = .ok (v.indices, v.indices.length) ∧
      (∃ im, o.getCornersImageFrame = .ok (im, v.indices.length) ∧
        List.Forall₂ (fun i p => v.seen i = some p) v.indices im) ∧
      (∃ fr, o.getCornersTargetFrame = .ok (fr, v.indices.length) ∧
        List.Forall₂ (fun i p => ∃ z, v.target.point i = .ok (p.1, p.2.1, z) ∧ p.2.2 = 0)
          v.indices fr) := by
  obtain ⟨o0, h0, hr0, -⟩ := rel_new (T := T) t0 ⟨none, [], [], none⟩
  obtain ⟨o, h1, hr⟩ := rel_run hr0 ops
  refine ⟨o0, o, h0, h1, ?_⟩
  have hcv : (ops.foldl View.step ⟨t0, fun _ => none⟩).target.Complete := by
    have : ∀ (l : List (Op T)) (v : View), v.target.Complete →
        (∀ t, Op.setTarget (some t) ∈ l → t.Complete) → (l.foldl View.step v).target.Complete := by
      intro l
      induction l with
      | nil => intro v hv _; exact hv
      | cons op l ih =>
        intro v hv hl
        refine ih _ ?_ (fun t ht => hl t (List.mem_cons_of_mem _ ht))
        cases op with
        | setTarget t =>
          cases t with
          | none => exact hv
          | some t => exact hl t (List.mem_cons_self ..)
        | update i p =>
          by_cases hi : i < v.target.size <;> simpa [View.step, hi] using hv
        | remove i =>
          by_cases hi : i < v.target.size <;> simpa [View.step, hi] using hv
        | setPose x => exact hv
    exact this ops _ hc hops
  generalize hv : ops.foldl View.step ⟨t0, fun _ => none⟩ = v at hr hcv ⊢
  refine ⟨hr.idx, ⟨_, hr.image, ?_⟩, ⟨_, hr.frame hcv, ?_⟩⟩
  · rw [List.forall₂_map_right_iff, List.forall₂_same]
    intro i hi
    obtain ⟨-, hs⟩ := View.mem_indices.mp hi
    obtain ⟨p, hp⟩ := Option.isSome_iff_exists.mp hs
    simp [hp]
  · rw [List.forall₂_map_right_iff, List.forall₂_same]
    intro i hi
    obtain ⟨h1, -⟩ := View.mem_indices.mp hi
    have h2 : i < v.target.pts.length := by rw [hcv]; exact h1
    exact ⟨v.target.pts[i].2.2, by simp [Target.point, readAt_ok h2, h2], rfl⟩

example : ∃ (t : Target), t.Complete ∧ 0 < t.size :=
  ⟨⟨1, 2, [(0, 0, 0), (1, 0, 0)]⟩, rfl, by decide⟩

/-- **C59**: after any history a single corner is reported as observed exactly when it is, with the point
last given for it, and asking for an index outside the target raises. -/
theorem C59_image_point (t0 : Target) (ops : List (Op T)) :
    ∃ o0 o, Obs.new (some t0) = .ok o0 ∧ o0.run ops = .ok o ∧
      let v := ops.foldl View.step ⟨t0, fun _ => none⟩
      (∀ i p, v.seen i = some p → o.imagePoint i = .ok (p, true)) ∧
      (∀ i, i < v.target.size → v.seen i = none → ∃ p, o.imagePoint i = .ok (p, false)) ∧
      (∀ i, v.target.size ≤ i → o.imagePoint i = .raise) ∧
      (∀ r c, o.imageGridPoint r c = o.imagePoint (v.target.cols * r + c)) ∧
      (o.hasSuccessfulObservation = true ↔ ∃ i p, v.seen i = some p) := by
  obtain ⟨o0, h0, hr0, -⟩ := rel_new (T := T) t0 ⟨none, [], [], none⟩
  obtain ⟨o, h1, hr⟩ := rel_run hr0 ops
  refine ⟨o0, o, h0, h1, ?_⟩
  generalize hv : ops.foldl View.step ⟨t0, fun _ => none⟩ = v at hr ⊢
  have hlt : ∀ i p, v.seen i = some p → i < v.target.size := by
    intro i p hp
    by_contra hc
    rw [hr.out i (by omega)] at hp
    cases hp
  refine ⟨?_, ?_, ?_, ?_, ?_⟩
  · intro i p hp
    obtain ⟨q, hq, hq'⟩ := hr.readPt (hlt i p hp)
    rw [hq, hp, hq' p hp]
    rfl
  · intro i hi hn
    obtain ⟨q, hq, -⟩ := hr.readPt hi
    exact ⟨q, by rw [hq, hn]; rfl⟩
  · intro i hi
    have : i ≥ o.success.length := by rw [hr.ls]; exact hi
    simp [Obs.imagePoint, hr.target, this]
  · intro r c
    simp [Obs.imageGridPoint, hr.target, Target.gridCoordinatesToPoint]
  · unfold Obs.hasSuccessfulObservation
    rw [List.any_eq_true]
    constructor
    · rintro ⟨b, hb, hb'⟩
      obtain ⟨i, hi, rfl⟩ := List.getElem_of_mem hb
      have hi' : i < v.target.size := by rw [← hr.ls]; exact hi
      have := hr.succ i hi'
      rw [List.getElem?_eq_getElem hi] at this
      have h2 := Option.some.inj this
      simp only [id] at hb'
      rw [hb'] at h2
      obtain ⟨p, hp⟩ := Option.isSome_iff_exists.mp h2.symm
      exact ⟨i, p, hp⟩
    · rintro ⟨i, p, hp⟩
      have hi := hlt i p hp
      have := hr.succ i hi
      rw [hp] at this
      exact ⟨true, List.mem_of_getElem? this, rfl⟩

/-- **C59**: the reprojected corners are the projections of the observed corners, in the same order, and
asking for them before a pose was set raises. -/
theorem C59_reprojection {o : Obs T} {v : View} (h : Rel o v) (hc : v.target.Complete)
    (project : T → P3 → P2) :
    (o.pose = none → o.getCornerReprojection project = .raise) ∧
    ∀ x, o.pose = some x → ∃ fr, o.getCornersTargetFrame = .ok (fr, v.indices.length) ∧
      o.getCornerReprojection project = .ok (fr.map (project x), v.indices.length) := by
  refine ⟨fun hn => by simp [Obs.getCornerReprojection, hn], fun x hx => ⟨_, h.frame hc, ?_⟩⟩
  rw [h.reproj hc hx project, List.map_map]
  rfl

example : ∃ (o : Obs Unit) (v : View), Rel o v ∧ v.target.Complete ∧ o.pose = some () := by
  obtain ⟨o, -, h, -⟩ := rel_new (T := Unit) ⟨1, 2, [(0, 0, 0), (1, 0, 0)]⟩ ⟨none, [], [], none⟩
  exact ⟨{ o with pose := some () }, _, ⟨h.target, h.lp, h.ls, h.succ, h.pt, h.out⟩, rfl, rfl⟩

end Kalibr.Target
