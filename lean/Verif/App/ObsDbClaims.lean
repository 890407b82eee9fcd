import Verif.App.ObsDbProps

/-!
# The claims about the table of observations (C121)

`h` is the history: the observations that were added, each with its camera, in the order of the additions.
-/

namespace Kalibr.App

theorem inv_addAll {δ : ℚ} (hδ : 0 ≤ δ) (h : List (Nat × Obs)) : Db.Inv δ h (Db.addAll δ h) := by
  induction h using List.reverseRecOn with
  | nil => exact inv_empty δ
  | append_singleton h x ih =>
    rw [Db.addAll, List.foldl_append]
    exact inv_add hδ ih x.1 x.2

theorem row?_mem {db : Db} {s : ℚ} (hs : db.rows.Pairwise fun a b => a.stamp ≠ b.stamp) {r : Row} (hr : r ∈ db.rows)
    (hst : r.stamp = s) : db.row? s = some r := by
  unfold Db.row?
  obtain ⟨pre, post, hpp⟩ := List.append_of_mem hr
  rw [hpp, List.pairwise_append] at hs
  rw [hpp, List.find?_append, List.find?_eq_none.2]
  · rw [Option.none_or, List.find?_cons_of_pos]
    simpa using hst
  · intro x hx he
    exact hs.2.2 x hx r (by simp) ((by simpa using he : x.stamp = s).trans hst.symm)

theorem allObsAt_row {db : Db} {r : Row} (hok : db.RowOk r) : r.entries.foldlM (fun acc e =>
      match (db.archive e.cam)[e.obsId]? with
      | none => Out.raise
      | some o => .ok (acc ++ [(e.cam, o)])) [] = .ok (db.rowObs r) := by
  have key : ∀ (l : List Entry) (acc : List (Nat × Obs)), (∀ e ∈ l, ∃ o, (db.archive e.cam)[e.obsId]? = some o) →
      l.foldlM (fun acc e =>
        match (db.archive e.cam)[e.obsId]? with
        | none => Out.raise
        | some o => .ok (acc ++ [(e.cam, o)])) acc =
      .ok (acc ++ l.filterMap fun e => (db.archive e.cam)[e.obsId]?.map fun o => (e.cam, o)) := by
    intro l
    induction l with
    | nil => intro acc _; simp
    | cons a l ih =>
      intro acc hl
      obtain ⟨o, ho⟩ := hl a (by simp)
      rw [List.foldlM_cons]
      simp only [ho, Out.ok_bind]
      rw [ih _ fun e he => hl e (by simp [he])]
      simp [ho]
  rw [key _ _ fun e he => (hok.entry e he).imp fun o ho => ho.1]
  rfl

theorem sep_ne {δ : ℚ} (hδ : 0 ≤ δ) {h : List (Nat × Obs)} {db : Db} (hi : Db.Inv δ h db) :
    db.rows.Pairwise fun a b => a.stamp ≠ b.stamp := hi.sep.imp fun hab he => by
  rw [he, sub_self, abs_zero] at hab; linarith

theorem allObsAt_eq {δ : ℚ} (hδ : 0 ≤ δ) {h : List (Nat × Obs)} {db : Db} (hi : Db.Inv δ h db) {r : Row} (hr : r ∈ db.rows) :
    db.allObsAt r.stamp = .ok (db.rowObs r) := by
  rw [Db.allObsAt, row?_mem (sep_ne hδ hi) hr rfl]
  exact allObsAt_row (hi.rowOk r hr)

theorem rowObs_fst {db : Db} {r : Row} (hok : db.RowOk r) : (db.rowObs r).map Prod.fst = r.entries.map Entry.cam := by
  have key : ∀ l : List Entry, (∀ e ∈ l, ∃ o, (db.archive e.cam)[e.obsId]? = some o) →
      (l.filterMap fun e => (db.archive e.cam)[e.obsId]?.map fun o => (e.cam, o)).map Prod.fst = l.map Entry.cam := by
    intro l
    induction l with
    | nil => intro _; rfl
    | cons a l ih =>
      intro hl
      obtain ⟨o, ho⟩ := hl a (by simp)
      simp only [List.filterMap_cons, ho, Option.map_some, List.map_cons]
      rw [ih fun e he => hl e (by simp [he])]
  exact key _ fun e he => (hok.entry e he).imp fun o ho => ho.1

/-- **C121** After every history: the times of the views are further apart than the tolerance; at the time of a view there are
observations, at most one of a camera, all within the tolerance of that time, and one of them at that time. -/
theorem C121_views {δ : ℚ} (hδ : 0 ≤ δ) (h : List (Nat × Obs)) :
    ((Db.addAll δ h).stamps.Pairwise fun s t => δ < |s - t|) ∧
    ∀ s ∈ (Db.addAll δ h).stamps, ∃ l, (Db.addAll δ h).allObsAt s = .ok l ∧ (l.map Prod.fst).Nodup ∧
      (∃ x ∈ l, x.2.time = s) ∧ ∀ x ∈ l, x ∈ h ∧ |s - x.2.time| ≤ δ := by
  have hi := inv_addAll hδ h
  refine ⟨?_, ?_⟩
  · rw [Db.stamps, List.pairwise_map]; exact hi.sep
  · intro s hs
    rw [Db.stamps, List.mem_map] at hs
    obtain ⟨r, hr, rfl⟩ := hs
    have hok := hi.rowOk r hr
    refine ⟨_, allObsAt_eq hδ hi hr, by rw [rowObs_fst hok]; exact hok.nodup, ?_, ?_⟩
    · obtain ⟨e, he, o, ho, ht⟩ := hok.first
      exact ⟨(e.cam, o), List.mem_filterMap.2 ⟨e, he, by rw [ho]; rfl⟩, ht⟩
    · intro x hx
      obtain ⟨dropped, hperm, -, -⟩ := hi.perm
      refine ⟨hperm.mem_iff.1 (List.mem_append_left _ (List.mem_flatMap.2 ⟨r, hr, hx⟩)), ?_⟩
      rw [← hi.delta]; exact (mem_rowObs hok hx).1

/-- **C121** After every history each observation is in the table once, or it was refused with a message. It is refused only
when a view within the tolerance has another observation of its camera. -/
theorem C121_once {δ : ℚ} (hδ : 0 ≤ δ) (h : List (Nat × Obs)) : ∃ (views : List (List (Nat × Obs))) (refused : List (Nat × Obs)),
    ((Db.addAll δ h).stamps.map fun s => (Db.addAll δ h).allObsAt s) = views.map Out.ok ∧
    (views.flatten ++ refused).Perm h ∧ refused.length = (Db.addAll δ h).logged ∧
    ∀ x ∈ refused, ∃ y ∈ views.flatten, y.1 = x.1 ∧ |y.2.time - x.2.time| ≤ 2 * δ := by
  have hi := inv_addAll hδ h
  obtain ⟨dropped, hperm, hlen, hdrop⟩ := hi.perm
  refine ⟨(Db.addAll δ h).rows.map (Db.addAll δ h).rowObs, dropped, ?_, ?_, hlen, ?_⟩
  · rw [Db.stamps, List.map_map, List.map_map]
    exact List.map_congr_left fun r hr => allObsAt_eq hδ hi hr
  · rw [← List.flatMap_def]; exact hperm
  · intro x hx
    obtain ⟨r, hr, hd, y, hy, hy2⟩ := hdrop x hx
    refine ⟨y, ?_, hy2, ?_⟩
    · rw [← List.flatMap_def]; exact List.mem_flatMap.2 ⟨r, hr, hy⟩
    · have h1 := (mem_rowObs (hi.rowOk r hr) hy).1
      rw [hi.delta] at h1
      rw [abs_le] at *
      constructor <;> linarith [h1.1, h1.2, hd.1, hd.2]

/-- **C121** The number of cameras is the number of cameras of which there is an observation. -/
theorem C121_cameras {δ : ℚ} (hδ : 0 ≤ δ) (h : List (Nat × Obs)) :
    (Db.addAll δ h).numCameras = (h.map Prod.fst).toFinset.card := by
  have hi := inv_addAll hδ h
  rw [Db.numCameras, ← List.toFinset_card_of_nodup hi.camsNodup]
  congr 1
  ext c
  simp [hi.camsMem c]

theorem find_cam {l : List Entry} (hn : (l.map Entry.cam).Nodup) {e : Entry} (he : e ∈ l) :
    l.find? (fun x => x.cam == e.cam) = some e := by
  induction l with
  | nil => simp at he
  | cons a l ih =>
    rw [List.map_cons, List.nodup_cons] at hn
    rcases List.mem_cons.1 he with rfl | he
    · rw [List.find?_cons_of_pos]; simp
    · rw [List.find?_cons_of_neg, ih hn.2 he]
      intro hc
      exact hn.1 ((by simpa using hc : a.cam = e.cam) ▸ List.mem_map_of_mem he)

/-- The observation of a camera in a row. -/
theorem obsOf_iff {db : Db} {r : Row} (hok : db.RowOk r) {c : Nat} {o : Obs} :
    db.obsOf r c = some o ↔ (c, o) ∈ db.rowObs r := by
  unfold Db.obsOf Row.entry?
  constructor
  · intro h
    cases hf : r.entries.find? fun e => e.cam == c with
    | none => rw [hf] at h; simp at h
    | some e =>
      rw [hf] at h
      have he := List.mem_of_find?_eq_some hf
      have hc : e.cam = c := by simpa using List.find?_some hf
      subst hc
      simp only [] at h
      exact List.mem_filterMap.2 ⟨e, he, by rw [h]; rfl⟩
  · intro h
    obtain ⟨-, e, he, hc, ho, -⟩ := mem_rowObs hok h
    simp only [] at hc ho
    subst hc
    rw [find_cam hok.nodup he]
    exact ho

/-- **C121** `getAllObsTwoCams`: there is one pair for every view in which one of the cameras sees the target, in the order of
the views; in it is what each of the cameras saw in this view, and nothing else. So the two observations of a pair are at most
twice the tolerance apart. -/
theorem C121_pairs {δ : ℚ} (hδ : 0 ≤ δ) (h : List (Nat × Obs)) (a b : Nat) :
    ∃ views : List (List (Nat × Obs)), ((Db.addAll δ h).stamps.map fun s => (Db.addAll δ h).allObsAt s) = views.map Out.ok ∧
    List.Forall₂ (fun (p : Option Obs × Option Obs) (v : List (Nat × Obs)) => (∀ o, p.1 = some o ↔ (a, o) ∈ v) ∧ (∀ o, p.2 = some o ↔ (b, o) ∈ v))
      ((Db.addAll δ h).twoCams a b) (views.filter fun v => v.any fun x => x.1 == a || x.1 == b) ∧
    ∀ p ∈ (Db.addAll δ h).twoCams a b, ∀ oa ob, p.1 = some oa → p.2 = some ob → |oa.time - ob.time| ≤ 2 * δ := by
  have hi := inv_addAll hδ h
  have hmain : ∀ rows : List Row, (∀ r ∈ rows, (Db.addAll δ h).RowOk r) →
      List.Forall₂ (fun (p : Option Obs × Option Obs) (v : List (Nat × Obs)) => (∀ o, p.1 = some o ↔ (a, o) ∈ v) ∧ (∀ o, p.2 = some o ↔ (b, o) ∈ v))
      (rows.filterMap fun r => match (Db.addAll δ h).obsOf r a, (Db.addAll δ h).obsOf r b with
        | none, none => none
        | x, y => some (x, y))
      ((rows.map (Db.addAll δ h).rowObs).filter fun v => v.any fun x => x.1 == a || x.1 == b) := by
    intro rows
    induction rows with
    | nil => intro _; exact .nil
    | cons r rows ih =>
      intro hok
      have hr := hok r (by simp)
      have ih' := ih fun r hr => hok r (by simp [hr])
      have ha : ∀ o, (Db.addAll δ h).obsOf r a = some o ↔ (a, o) ∈ (Db.addAll δ h).rowObs r := fun o => obsOf_iff hr
      have hb : ∀ o, (Db.addAll δ h).obsOf r b = some o ↔ (b, o) ∈ (Db.addAll δ h).rowObs r := fun o => obsOf_iff hr
      rw [List.filterMap_cons, List.map_cons]
      cases ea : (Db.addAll δ h).obsOf r a with
      | some oa =>
        rw [List.filter_cons_of_pos (by
          rw [List.any_eq_true]; exact ⟨(a, oa), (ha oa).1 ea, by simp⟩)]
        rw [ea] at ha
        exact .cons ⟨ha, hb⟩ ih'
      | none =>
        cases eb : (Db.addAll δ h).obsOf r b with
        | some ob =>
          rw [List.filter_cons_of_pos (by
            rw [List.any_eq_true]; exact ⟨(b, ob), (hb ob).1 eb, by simp⟩)]
          rw [ea] at ha
          rw [eb] at hb
          exact .cons ⟨ha, hb⟩ ih'
        | none =>
          rw [List.filter_cons_of_neg]
          · exact ih'
          · rw [List.any_eq_true]
            rintro ⟨⟨c, o⟩, hx, hc⟩
            simp only [Bool.or_eq_true, beq_iff_eq] at hc
            rcases hc with rfl | rfl
            · have := (ha o).2 hx; rw [ea] at this; cases this
            · have := (hb o).2 hx; rw [eb] at this; cases this
  refine ⟨(Db.addAll δ h).rows.map (Db.addAll δ h).rowObs, ?_, hmain _ hi.rowOk, ?_⟩
  · rw [Db.stamps, List.map_map, List.map_map]
    exact List.map_congr_left fun r hr => allObsAt_eq hδ hi hr
  · intro p hp oa ob ha hb
    rw [Db.twoCams, List.mem_filterMap] at hp
    obtain ⟨r, hr, hp⟩ := hp
    have hok := hi.rowOk r hr
    have hp' : p = ((Db.addAll δ h).obsOf r a, (Db.addAll δ h).obsOf r b) := by
      revert hp
      cases (Db.addAll δ h).obsOf r a <;> cases (Db.addAll δ h).obsOf r b <;> simp +contextual [eq_comm]
    rw [hp'] at ha hb
    have h1 := (mem_rowObs hok ((obsOf_iff hok).1 ha)).1
    have h2 := (mem_rowObs hok ((obsOf_iff hok).1 hb)).1
    rw [hi.delta] at h1 h2
    simp only [] at h1 h2
    rw [abs_le] at *
    constructor <;> linarith [h1.1, h1.2, h2.1, h2.2]

/-- **C121** `getAllObsCam`: one observation for every view in which the camera sees the target, in the order of the views. -/
theorem C121_camera {δ : ℚ} (hδ : 0 ≤ δ) (h : List (Nat × Obs)) (c : Nat) :
    ∃ views : List (List (Nat × Obs)), ((Db.addAll δ h).stamps.map fun s => (Db.addAll δ h).allObsAt s) = views.map Out.ok ∧
    List.Forall₂ (fun (o : Obs) (v : List (Nat × Obs)) => (c, o) ∈ v) ((Db.addAll δ h).oneCam c)
      (views.filter fun v => v.any fun x => x.1 == c) := by
  have hi := inv_addAll hδ h
  have hmain : ∀ rows : List Row, (∀ r ∈ rows, (Db.addAll δ h).RowOk r) →
      List.Forall₂ (fun (o : Obs) (v : List (Nat × Obs)) => (c, o) ∈ v)
      (rows.filterMap fun r => (Db.addAll δ h).obsOf r c)
      ((rows.map (Db.addAll δ h).rowObs).filter fun v => v.any fun x => x.1 == c) := by
    intro rows
    induction rows with
    | nil => intro _; exact .nil
    | cons r rows ih =>
      intro hok
      have hr := hok r (by simp)
      have ih' := ih fun r hr => hok r (by simp [hr])
      have ha : ∀ o, (Db.addAll δ h).obsOf r c = some o ↔ (c, o) ∈ (Db.addAll δ h).rowObs r := fun o => obsOf_iff hr
      rw [List.filterMap_cons, List.map_cons]
      cases ea : (Db.addAll δ h).obsOf r c with
      | some oa =>
        rw [List.filter_cons_of_pos (by
          rw [List.any_eq_true]; exact ⟨(c, oa), (ha oa).1 ea, by simp⟩)]
        exact .cons ((ha oa).1 ea) ih'
      | none =>
        rw [List.filter_cons_of_neg]
        · exact ih'
        · rw [List.any_eq_true]
          rintro ⟨⟨c', o⟩, hx, hc⟩
          have hc' : c' = c := by simpa using hc
          subst hc'
          have := (ha o).2 hx; rw [ea] at this; cases this
  refine ⟨(Db.addAll δ h).rows.map (Db.addAll δ h).rowObs, ?_, hmain _ hi.rowOk⟩
  rw [Db.stamps, List.map_map, List.map_map]
  exact List.map_congr_left fun r hr => allObsAt_eq hδ hi hr

/-- **C121** If the images come in groups, those of a group at most the tolerance apart, those of different groups further
apart than the tolerance, and no two of a camera in a group, then whatever the order in which they are added nothing is refused
and the views are the groups. -/
theorem C121_groups {δ : ℚ} (hδ : 0 ≤ δ) {h : List (Nat × Obs)} {G : Type} (group : Nat × Obs → G)
    (hsame : ∀ x ∈ h, ∀ y ∈ h, group x = group y → |x.2.time - y.2.time| ≤ δ)
    (hdiff : ∀ x ∈ h, ∀ y ∈ h, group x ≠ group y → δ < |x.2.time - y.2.time|)
    (hcam : h.Pairwise fun x y => group x = group y → x.1 ≠ y.1) :
    (Db.addAll δ h).logged = 0 ∧ (∀ x ∈ h, ∃ s ∈ (Db.addAll δ h).stamps, ∃ l, (Db.addAll δ h).allObsAt s = .ok l ∧ x ∈ l) ∧
    ∀ s ∈ (Db.addAll δ h).stamps, ∃ l, (Db.addAll δ h).allObsAt s = .ok l ∧ ∃ x ∈ l, ∀ y, y ∈ l ↔ y ∈ h ∧ group y = group x := by
  have hi := inv_addAll hδ h
  obtain ⟨dropped, hperm, hlen, hdrop⟩ := hi.perm
  have hmem : ∀ r ∈ (Db.addAll δ h).rows, ∀ x ∈ (Db.addAll δ h).rowObs r, x ∈ h := fun r hr x hx =>
    hperm.mem_iff.1 (List.mem_append_left _ (List.mem_flatMap.2 ⟨r, hr, hx⟩))
  -- the stamp of a row is the time of one of its observations
  have hfirst : ∀ r ∈ (Db.addAll δ h).rows, ∃ z ∈ (Db.addAll δ h).rowObs r, z.2.time = r.stamp := fun r hr => by
    obtain ⟨e, he, o, ho, ht⟩ := (hi.rowOk r hr).first
    exact ⟨(e.cam, o), List.mem_filterMap.2 ⟨e, he, by rw [ho]; rfl⟩, ht⟩
  have hrow : ∀ r ∈ (Db.addAll δ h).rows, ∀ x ∈ h, |r.stamp - x.2.time| ≤ δ → ∀ z ∈ (Db.addAll δ h).rowObs r,
      z.2.time = r.stamp → group z = group x := by
    intro r hr x hx hd z hz hzt
    by_contra hne
    have := hdiff z (hmem r hr z hz) x hx hne
    rw [hzt] at this
    linarith
  have hgrp : ∀ r ∈ (Db.addAll δ h).rows, ∀ x ∈ (Db.addAll δ h).rowObs r, ∀ z ∈ (Db.addAll δ h).rowObs r,
      z.2.time = r.stamp → group z = group x := fun r hr x hx z hz hzt =>
    hrow r hr x (hmem r hr x hx) (by have := (mem_rowObs (hi.rowOk r hr) hx).1; rwa [hi.delta] at this) z hz hzt
  have hno : dropped = [] := by
    rw [List.eq_nil_iff_forall_not_mem]
    intro x hx
    obtain ⟨r, hr, hd, y, hy, hyc⟩ := hdrop x hx
    have hxh : x ∈ h := hperm.mem_iff.1 (List.mem_append_right _ hx)
    obtain ⟨z, hz, hzt⟩ := hfirst r hr
    have g1 := hrow r hr x hxh hd z hz hzt
    have g2 := hgrp r hr y hy z hz hzt
    -- `x` and `y` are two places of the history
    have hp2 := hperm.pairwise_iff (R := fun x y => group x = group y → x.1 ≠ y.1)
      (fun {_ _} hab hg hc => hab hg.symm hc.symm) |>.2 hcam
    rw [List.pairwise_append] at hp2
    exact hp2.2.2 y (List.mem_flatMap.2 ⟨r, hr, hy⟩) x hx (g2.symm.trans g1) hyc
  rw [hno, List.append_nil] at hperm
  refine ⟨by rw [← hlen, hno]; rfl, ?_, ?_⟩
  · intro x hx
    obtain ⟨r, hr, hxr⟩ := List.mem_flatMap.1 (hperm.mem_iff.2 hx)
    exact ⟨r.stamp, List.mem_map_of_mem hr, _, allObsAt_eq hδ hi hr, hxr⟩
  · intro s hs
    obtain ⟨r, hr, rfl⟩ := List.mem_map.1 hs
    obtain ⟨z, hz, hzt⟩ := hfirst r hr
    refine ⟨_, allObsAt_eq hδ hi hr, z, hz, fun y => ⟨fun hy => ⟨hmem r hr y hy, (hgrp r hr y hy z hz hzt).symm⟩, ?_⟩⟩
    rintro ⟨hy, hg⟩
    obtain ⟨r', hr', hyr⟩ := List.mem_flatMap.1 (hperm.mem_iff.2 hy)
    obtain ⟨z', hz', hzt'⟩ := hfirst r' hr'
    have g := hgrp r' hr' y hyr z' hz' hzt'
    have hclose : |r.stamp - r'.stamp| ≤ δ := by
      rw [← hzt, ← hzt']
      exact hsame z (hmem r hr z hz) z' (hmem r' hr' z' hz') (hg.symm.trans g.symm)
    have : r = r' := by
      by_contra hne
      have hpw := hi.sep
      have hs : ∀ {x y : Row}, x ∈ (Db.addAll δ h).rows → y ∈ (Db.addAll δ h).rows → x ≠ y → δ < |x.stamp - y.stamp| := by
        intro x y hx hy hxy
        obtain ⟨i, hi', rfl⟩ := List.getElem_of_mem hx
        obtain ⟨j, hj', rfl⟩ := List.getElem_of_mem hy
        rcases Nat.lt_trichotomy i j with hij | hij | hij
        · exact List.pairwise_iff_getElem.1 hpw i j hi' hj' hij
        · subst hij; exact absurd rfl hxy
        · rw [abs_sub_comm]; exact List.pairwise_iff_getElem.1 hpw j i hj' hi' hij
      have := hs hr hr' hne
      linarith
    rw [this]; exact hyr

/-- **C121** When images are not in such groups the views depend on the order. Three images at 0, 15 and 30 milliseconds of
three cameras, with a tolerance of 20: added in this order they are in two views, added in another order they are in one. -/
theorem C121_order_counterexample : ∃ h h' : List (Nat × Obs), h.Perm h' ∧
    (Db.addAll (1 / 50) h).stamps.length = 2 ∧ (Db.addAll (1 / 50) h').stamps.length = 1 := by
  refine ⟨[(0, ⟨0, 0, {1}⟩), (1, ⟨1, 15 / 1000, {1}⟩), (2, ⟨2, 30 / 1000, {1}⟩)],
    [(1, ⟨1, 15 / 1000, {1}⟩), (0, ⟨0, 0, {1}⟩), (2, ⟨2, 30 / 1000, {1}⟩)], List.Perm.swap _ _ _, ?_, ?_⟩ <;> decide +kernel

/-- An observation is refused: the second of camera 0 within the tolerance. -/
example : (Db.addAll (1 / 50) [(0, ⟨0, 0, {1}⟩), (1, ⟨1, 1 / 100, {1, 2}⟩), (0, ⟨2, 1 / 60, {3}⟩)]).logged = 1 := by
  decide +kernel

/-- The hypotheses of `C121_groups`: two cameras and two times, added camera by camera. -/
example : ∃ (h : List (Nat × Obs)) (group : Nat × Obs → Bool), h.length = 4 ∧
    (∀ x ∈ h, ∀ y ∈ h, group x = group y → |x.2.time - y.2.time| ≤ (1 / 50 : ℚ)) ∧
    (∀ x ∈ h, ∀ y ∈ h, group x ≠ group y → (1 / 50 : ℚ) < |x.2.time - y.2.time|) ∧
    (h.Pairwise fun x y => group x = group y → x.1 ≠ y.1) ∧ (Db.addAll (1 / 50) h).stamps = [0, 1 / 10] := by
  refine ⟨[(0, ⟨0, 0, {1}⟩), (0, ⟨1, 1 / 10, {1}⟩), (1, ⟨2, 1 / 100, {2}⟩), (1, ⟨3, 11 / 100, {2}⟩)],
    fun x => decide (x.2.time < 1 / 20), rfl, ?_, ?_, ?_, ?_⟩ <;> decide +kernel

end Kalibr.App
