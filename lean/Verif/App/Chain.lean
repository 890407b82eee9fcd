import Verif.App.GraphProps
import Mathlib.Algebra.Group.Basic
import Mathlib.Algebra.BigOperators.Group.List.Basic
import Mathlib.Data.List.Chain

/-!
# The first guess of the baselines and of the pose of the target (C123)

`MG.py` (`MulticamGraph.py`) 107-255. A transformation is an element of a group `M`: `*` composes and `⁻¹` inverts. The
calibration of a pair of cameras (`stereoCalibrate`), the solution of the pose problem (`estimateTransformation`) and the
searches for shortest paths of `igraph` are arguments. Not modelled: the refinement in the full batch (STEP 4), the log.
-/

namespace Kalibr.App

variable {M : Type} [Group M]

/-- MG.py 144: the edges on the paths. -/
def optimalEdges (epaths : List (List Nat)) : List Nat := epaths.flatten

/-- MG.py 153-180: the baseline of each of these edges, from the lower to the higher number. `none`: it is not set. -/
def storedBaseline (G : List Edge) (optimal : List Nat) (stereo : Nat → Nat → M) (a b : Nat) : Option M :=
  if optimal.any (fun i => match G[i]? with
    | some e => e.joins a b
    | none => false) then some (stereo (min a b) (max a b)) else none

/-- MG.py 207-210: the transformation from `s` to `t`. -/
def edgeTransform (baseline : Nat → Nat → Option M) (s t : Nat) : Out M :=
  match baseline s t with
  | none => .raise
  | some T => .ok (if s < t then T else T⁻¹)

/-- MG.py 203-213: along a path. -/
def chainPath (baseline : Nat → Nat → Option M) (path : List Nat) : Out M :=
  (List.range (path.length - 1)).foldlM (fun acc i => do
    let T ← edgeTransform baseline (path.getD i 0) (path.getD (i + 1) 0)
    pure (T * acc)) 1

/-- MG.py 197-216: the baselines from one camera to the next. -/
def baselineGuesses (baseline : Nat → Nat → Option M) (shortest : Nat → Nat → List Nat) (numCams : Nat) : Out (List M) :=
  (List.range (numCams - 1)).mapM fun b => chainPath baseline (shortest b (b + 1))

/-- `numcorners.index(max(numcorners))`: the first of the cameras that see most corners. -/
def mostCorners : List (Nat × Nat) → Option (Nat × Nat)
  | [] => none
  | c :: cs => some (cs.foldl (fun best x => if best.2 < x.2 then x else best) c)

/-- MG.py 228-255, `getTargetPoseGuess`. `cams` are the cameras of the view, each with its number of corners. -/
def targetPoseGuess (cams : List (Nat × Nat)) (pnp : Nat → M) (baselines : List M) : Out M :=
  match mostCorners cams with
  | none => .raise
  | some c => .ok (pnp c.1 * (baselines.take c.1).foldl (fun T b => b * T) 1)

/-! ## Specification -/

/-- `ids` are the numbers of the edges of a path from `s` to `t`. -/
inductive EdgePath (G : List Edge) : List Nat → Nat → Nat → Prop
  | nil (s : Nat) : EdgePath G [] s s
  | cons {i : Nat} {ids : List Nat} {s m t : Nat} {e : Edge} (he : G[i]? = some e) (hj : e.joins s m = true)
      (hp : EdgePath G ids m t) : EdgePath G (i :: ids) s t

/-- Two cameras are joined by one of the edges `optimal`. -/
def Joined (G : List Edge) (optimal : List Nat) (a b : Nat) : Prop :=
  ∃ i ∈ optimal, ∃ e, G[i]? = some e ∧ e.joins a b = true

/-- `path` goes from `s` to `t` along such edges. -/
def IsPath (E : Nat → Nat → Prop) (path : List Nat) (s t : Nat) : Prop :=
  path.head? = some s ∧ path.getLast? = some t ∧ path.IsChain E

/-- What `get_shortest_paths` of `igraph` promises: a path, if there is one. -/
def FindsPaths (E : Nat → Nat → Prop) (shortest : Nat → Nat → List Nat) : Prop :=
  ∀ s t, (∃ path, IsPath E path s t) → IsPath E (shortest s t) s t

/-! ## Proofs -/

theorem joined_symm {G : List Edge} {optimal : List Nat} {a b : Nat} (h : Joined G optimal a b) : Joined G optimal b a := by
  obtain ⟨i, hi, e, he, hj⟩ := h
  refine ⟨i, hi, e, he, ?_⟩
  rw [← hj]
  exact joins_congr (Or.inr ⟨rfl, rfl⟩) e

theorem edgePath_reach {G : List Edge} {optimal ids : List Nat} {s t : Nat} (h : EdgePath G ids s t)
    (hs : ∀ i ∈ ids, i ∈ optimal) : Relation.ReflTransGen (Joined G optimal) s t := by
  induction h with
  | nil => exact .refl
  | cons he hj _ ih => exact .head ⟨_, hs _ (by simp), _, he, hj⟩ (ih fun i hi => hs i (by simp [hi]))

theorem reach_isPath {E : Nat → Nat → Prop} {s t : Nat} (h : Relation.ReflTransGen E s t) : ∃ path, IsPath E path s t := by
  induction h with
  | refl => exact ⟨[s], rfl, rfl, List.isChain_singleton _⟩
  | @tail b c _ hE ih =>
    obtain ⟨p, h1, h2, h3⟩ := ih
    have hne : p ≠ [] := by rintro rfl; simp at h1
    refine ⟨p ++ [c], ?_, by simp, ?_⟩
    · rw [List.head?_append_of_ne_nil _ hne]; exact h1
    · rw [List.isChain_append]
      refine ⟨h3, List.isChain_singleton _, ?_⟩
      intro x hx y hy
      rw [h2, Option.mem_def, Option.some.injEq] at hx
      rw [List.head?_cons, Option.mem_def, Option.some.injEq] at hy
      subst hx hy
      exact hE

omit [Group M] in
theorem stored_joined {G : List Edge} {optimal : List Nat} {stereo : Nat → Nat → M} {a b : Nat} (h : Joined G optimal a b) :
    storedBaseline G optimal stereo a b = some (stereo (min a b) (max a b)) := by
  unfold storedBaseline
  rw [if_pos]
  rw [List.any_eq_true]
  obtain ⟨i, hi, e, he, hj⟩ := h
  exact ⟨i, hi, by rw [he]; exact hj⟩

/-- Along a path the transformations chain up. -/
theorem chainPath_spec {baseline : Nat → Nat → Option M} (X : Nat → M) {path : List Nat}
    (hE : path.IsChain fun a b => edgeTransform baseline a b = .ok (X b * (X a)⁻¹)) :
    ∀ k, k < path.length → (List.range k).foldlM (fun acc i => do
      let T ← edgeTransform baseline (path.getD i 0) (path.getD (i + 1) 0)
      pure (T * acc)) (1 : M) = .ok (X (path.getD k 0) * (X (path.getD 0 0))⁻¹) := by
  intro k
  induction k with
  | zero => intro _; simp
  | succ k ih =>
    intro hk
    rw [List.range_succ, List.foldlM_append, ih (by omega)]
    have := List.isChain_iff_getElem.1 hE k (by omega)
    have e1 : path.getD k 0 = path[k] := by rw [List.getD, List.getElem?_eq_getElem (by omega)]; rfl
    have e2 : path.getD (k + 1) 0 = path[k + 1] := by rw [List.getD, List.getElem?_eq_getElem hk]; rfl
    rw [← e1, ← e2] at this
    rw [Out.ok_bind, List.foldlM_cons, this]
    simp [mul_assoc]

theorem mapM_ok {α β : Type} (l : List α) (f : α → Out β) (g : α → β) (h : ∀ x ∈ l, f x = .ok (g x)) :
    l.mapM f = .ok (l.map g) := by
  induction l with
  | nil => rfl
  | cons a l ih =>
    rw [List.mapM_cons, h a (by simp), ih fun x hx => h x (by simp [hx])]
    rfl

/-- **C123** If every pair of cameras on the chosen edges is calibrated exactly - `X` are the poses of the cameras - and
`igraph` finds paths from camera 0 to every camera, then the baselines that are handed on are those from each camera to the
next, whatever the edges that were chosen and whatever the paths. -/
theorem C123_baselines {G : List Edge} {numCams : Nat} {epaths : List (List Nat)} {stereo : Nat → Nat → M}
    {shortest : Nat → Nat → List Nat} (X : Nat → M)
    (hepaths : ∀ c < numCams, ∃ ids ∈ epaths, EdgePath G ids 0 c)
    (hstereo : ∀ a b, a < b → Joined G (optimalEdges epaths) a b → stereo a b = X b * (X a)⁻¹)
    (hloop : ∀ e ∈ G, e.u ≠ e.v)
    (hshort : FindsPaths (Joined G (optimalEdges epaths)) shortest) :
    baselineGuesses (storedBaseline G (optimalEdges epaths) stereo) shortest numCams =
      .ok ((List.range (numCams - 1)).map fun b => X (b + 1) * (X b)⁻¹) := by
  unfold baselineGuesses
  refine mapM_ok _ _ _ fun b hb => ?_
  rw [List.mem_range] at hb
  have hreach : ∀ c < numCams, Relation.ReflTransGen (Joined G (optimalEdges epaths)) 0 c := by
    intro c hc
    obtain ⟨ids, hids, hp⟩ := hepaths c hc
    exact edgePath_reach hp fun i hi => List.mem_flatten.2 ⟨ids, hids, hi⟩
  have hsym : ∀ {s t}, Relation.ReflTransGen (Joined G (optimalEdges epaths)) s t →
      Relation.ReflTransGen (Joined G (optimalEdges epaths)) t s := by
    intro s t h
    induction h with
    | refl => exact .refl
    | tail _ hE ih => exact .head (joined_symm hE) ih
  obtain ⟨p1, p2, p3⟩ := hshort b (b + 1) (reach_isPath ((hsym (hreach b (by omega))).trans (hreach (b + 1) (by omega))))
  have hedge : ∀ a c, Joined G (optimalEdges epaths) a c →
      edgeTransform (storedBaseline G (optimalEdges epaths) stereo) a c = .ok (X c * (X a)⁻¹) := by
    intro a c hj
    unfold edgeTransform
    rw [stored_joined hj]
    simp only []
    have hne : a ≠ c := by
      obtain ⟨i, -, e, he, hj⟩ := hj
      have := hloop e (List.mem_of_getElem? he)
      rw [joins_iff] at hj
      unfold samePair at hj
      simp only [] at hj
      omega
    rcases Nat.lt_or_gt_of_ne hne with h | h
    · rw [if_pos h, Nat.min_eq_left h.le, Nat.max_eq_right h.le, hstereo a c h hj]
    · rw [if_neg (by omega), Nat.min_eq_right h.le, Nat.max_eq_left h.le, hstereo c a h (joined_symm hj)]
      simp
  have hne : shortest b (b + 1) ≠ [] := fun h => by rw [h] at p1; simp at p1
  have hlen : 0 < (shortest b (b + 1)).length := List.length_pos_iff.2 hne
  have := chainPath_spec X (p3.imp fun a c h => hedge a c h) ((shortest b (b + 1)).length - 1) (by omega)
  unfold chainPath
  rw [this]
  rw [List.getLast?_eq_getElem?] at p2
  rw [List.head?_eq_getElem?] at p1
  simp only [List.getD, p1, p2, Option.getD_some]

/-- The baselines of the first cameras chain up to the pose of a camera in the frame of camera 0. -/
theorem take_chain (X : Nat → M) (n c : Nat) (hc : c ≤ n) :
    (((List.range n).map fun b => X (b + 1) * (X b)⁻¹).take c).foldl (fun T b => b * T) 1 = X c * (X 0)⁻¹ := by
  induction c with
  | zero => simp
  | succ c ih =>
    rw [← List.map_take, List.take_range, Nat.min_eq_left hc, List.range_succ, List.map_append, List.foldl_append]
    have ih' := ih (by omega)
    rw [← List.map_take, List.take_range, Nat.min_eq_left (by omega)] at ih'
    rw [ih']
    simp [mul_assoc]

theorem mostCorners_spec {cams : List (Nat × Nat)} {c : Nat × Nat} (h : mostCorners cams = some c) :
    c ∈ cams ∧ ∀ x ∈ cams, x.2 ≤ c.2 := by
  cases cams with
  | nil => cases h
  | cons a l =>
    simp only [mostCorners, Option.some.injEq] at h
    have key : ∀ (l : List (Nat × Nat)) (b : Nat × Nat), (l.foldl (fun best x => if best.2 < x.2 then x else best) b ∈ b :: l) ∧
        ∀ x ∈ b :: l, x.2 ≤ (l.foldl (fun best x => if best.2 < x.2 then x else best) b).2 := by
      intro l
      induction l with
      | nil => intro b; simp
      | cons y l ih =>
        intro b
        rw [List.foldl_cons]
        by_cases hlt : b.2 < y.2
        · rw [if_pos hlt]
          obtain ⟨h1, h2⟩ := ih y
          refine ⟨?_, ?_⟩
          · exact List.mem_cons_of_mem _ h1
          · intro x hx
            rcases List.mem_cons.1 hx with rfl | hx
            · exact le_trans hlt.le (h2 y (by simp))
            · exact h2 x hx
        · rw [if_neg hlt]
          obtain ⟨h1, h2⟩ := ih b
          refine ⟨?_, ?_⟩
          · rcases List.mem_cons.1 h1 with h1 | h1
            · rw [h1]; simp
            · simp [h1]
          · intro x hx
            rcases List.mem_cons.1 hx with rfl | hx
            · exact h2 x (by simp)
            · rcases List.mem_cons.1 hx with rfl | hx
              · exact le_trans (not_lt.1 hlt) (h2 b (by simp))
              · exact h2 x (by simp [hx])
    rw [← h]
    exact key l a

/-- **C123** If the cameras of a view see the target where it is - `W` is its pose - and the baselines are those of the poses
`X` of the cameras, the guess is the pose of the target in the frame of camera 0, whichever camera sees most corners; and it
is computed from a camera of the view that no other camera of the view surpasses in corners. -/
theorem C123_target {cams : List (Nat × Nat)} {pnp : Nat → M} {numCams : Nat} {T : M} {baselines : List M} (X : Nat → M) (W : M)
    (hcams : ∀ c ∈ cams, c.1 < numCams) (hpnp : ∀ c ∈ cams, (∀ x ∈ cams, x.2 ≤ c.2) → pnp c.1 = W * (X c.1)⁻¹)
    (hbase : baselines = (List.range (numCams - 1)).map fun b => X (b + 1) * (X b)⁻¹)
    (h : targetPoseGuess cams pnp baselines = .ok T) : T = W * (X 0)⁻¹ := by
  subst hbase
  unfold targetPoseGuess at h
  cases hm : mostCorners cams with
  | none => rw [hm] at h; cases h
  | some c =>
    rw [hm, Out.ok.injEq] at h
    obtain ⟨h1, h2⟩ := mostCorners_spec hm
    have := hcams c h1
    rw [← h, take_chain X _ _ (by omega), hpnp c h1 h2]
    simp [mul_assoc]

/-- A view without cameras has no guess; every other has one. -/
theorem C123_target_total (cams : List (Nat × Nat)) (pnp : Nat → M) (baselines : List M) :
    targetPoseGuess cams pnp baselines = .raise ↔ cams = [] := by
  unfold targetPoseGuess
  cases cams with
  | nil => simp [mostCorners]
  | cons c cs => simp [mostCorners]

/-- The hypotheses of `C123_baselines`: three cameras, 0 and 2 and 2 and 1 have corners in common. So the baseline from 0 to 1
leads over camera 2. The poses are shifts. -/
example : ∃ (X : Nat → Multiplicative ℤ) (shortest : Nat → Nat → List Nat),
    (∀ c < 3, ∃ ids ∈ [[], [0], [0, 1]], EdgePath [⟨2, 0, 5, []⟩, ⟨1, 2, 4, []⟩] ids 0 c) ∧
    FindsPaths (Joined [⟨2, 0, 5, []⟩, ⟨1, 2, 4, []⟩] (optimalEdges [[], [0], [0, 1]])) shortest ∧
    X 0 ≠ X 1 := by
  refine ⟨fun c => Multiplicative.ofAdd (c : ℤ), ?_⟩
  have hex : ∀ s t, ∃ p : List Nat, (∃ path, IsPath (Joined [⟨2, 0, 5, []⟩, ⟨1, 2, 4, []⟩] (optimalEdges [[], [0], [0, 1]])) path s t) →
      IsPath (Joined [⟨2, 0, 5, []⟩, ⟨1, 2, 4, []⟩] (optimalEdges [[], [0], [0, 1]])) p s t := by
    intro s t
    by_cases h : ∃ path, IsPath (Joined [⟨2, 0, 5, []⟩, ⟨1, 2, 4, []⟩] (optimalEdges [[], [0], [0, 1]])) path s t
    · exact ⟨h.choose, fun _ => h.choose_spec⟩
    · exact ⟨[], fun h' => absurd h' h⟩
  refine ⟨fun s t => (hex s t).choose, ?_, fun s t => (hex s t).choose_spec, by decide⟩
  intro c hc
  have : c = 0 ∨ c = 1 ∨ c = 2 := by omega
  rcases this with rfl | rfl | rfl
  · exact ⟨[], by simp, .nil 0⟩
  · exact ⟨[0, 1], by simp, .cons (m := 2) rfl rfl (.cons (m := 1) rfl rfl (.nil 1))⟩
  · exact ⟨[0], by simp, .cons rfl rfl (.nil 2)⟩

end Kalibr.App
