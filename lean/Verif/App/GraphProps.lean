import Verif.App.Graph

/-!
# The claims about the graph of the cameras (C122)

`h` is the history of the observations, and `views` are the views of the table after it.
-/

namespace Kalibr.App

/-- What two cameras saw in a view in which they have a corner in common. -/
def sharedBy (view : List (Nat × Obs)) (a b : Nat) : Option (Obs × Obs) :=
  match seenBy view a, seenBy view b with
  | some oa, some ob => if (oa.corners ∩ ob.corners).Nonempty then some (oa, ob) else none
  | _, _ => none

theorem seenBy_row {db : Db} {r : Row} (hok : db.RowOk r) (c : Nat) : seenBy (db.rowObs r) c = db.obsOf r c := by
  have key : ∀ v : List (Nat × Obs), (v.map Prod.fst).Nodup → ∀ o, seenBy v c = some o ↔ (c, o) ∈ v := by
    intro v hv o
    unfold seenBy
    constructor
    · intro h
      rw [Option.map_eq_some_iff] at h
      obtain ⟨x, hx, rfl⟩ := h
      have h1 := List.mem_of_find?_eq_some hx
      have h2 : x.1 = c := by simpa using List.find?_some hx
      rw [← h2]; exact h1
    · intro h
      induction v with
      | nil => simp at h
      | cons a v ih =>
        rw [List.map_cons, List.nodup_cons] at hv
        rcases List.mem_cons.1 h with rfl | h
        · rw [List.find?_cons_of_pos (by simp)]; rfl
        · rw [List.find?_cons_of_neg, ih hv.2 h]
          intro he
          exact hv.1 ((by simpa using he : a.1 = c) ▸ List.mem_map_of_mem (f := Prod.fst) h)
  have hn : ((db.rowObs r).map Prod.fst).Nodup := by rw [rowObs_fst hok]; exact hok.nodup
  ext o
  rw [key _ hn o, obsOf_iff hok]

theorem obsOf_entry {db : Db} {r : Row} (hok : db.RowOk r) (c : Nat) :
    (db.obsOf r c = none ∧ r.entry? c = none) ∨ ∃ e o, r.entry? c = some e ∧ db.obsOf r c = some o ∧
      (db.archive c)[e.obsId]? = some o ∧ e.corners = o.corners := by
  unfold Db.obsOf
  cases he : r.entry? c with
  | none => exact Or.inl ⟨rfl, rfl⟩
  | some e =>
    right
    have hmem := List.mem_of_find?_eq_some he
    have hc : e.cam = c := by simpa using List.find?_some he
    obtain ⟨o, ho, hcor, -⟩ := hok.entry e hmem
    rw [hc] at ho
    exact ⟨e, o, rfl, ho, ho, hcor.symm⟩

/-- What a row adds to an edge, in terms of the view. -/
theorem rowShare_view {db : Db} {r : Row} (hok : db.RowOk r) (a b : Nat) :
    (sharedBy (db.rowObs r) a b = none ∧ rowShare r a b = none) ∨
    ∃ oa ob ia ib, sharedBy (db.rowObs r) a b = some (oa, ob) ∧ (db.archive a)[ia]? = some oa ∧ (db.archive b)[ib]? = some ob ∧
      rowShare r a b = some ((oa.corners ∩ ob.corners).card, if a < b then (ia, ib) else (ib, ia)) := by
  unfold sharedBy rowShare
  rw [seenBy_row hok, seenBy_row hok]
  rcases obsOf_entry hok a with ⟨h1, h2⟩ | ⟨ea, oa, ha1, ha2, ha3, ha4⟩
  · left; rw [h1, h2]; exact ⟨rfl, rfl⟩
  · rcases obsOf_entry hok b with ⟨h1, h2⟩ | ⟨eb, ob, hb1, hb2, hb3, hb4⟩
    · left; rw [h1, h2, ha1, ha2]; exact ⟨rfl, rfl⟩
    · rw [ha1, ha2, hb1, hb2]
      simp only []
      rw [ha4, hb4]
      by_cases hne : (oa.corners ∩ ob.corners).Nonempty
      · right
        rw [if_pos hne, if_pos hne]
        exact ⟨oa, ob, ea.obsId, eb.obsId, rfl, ha3, hb3, rfl⟩
      · left
        rw [if_neg hne, if_neg hne]
        exact ⟨rfl, rfl⟩

theorem common_shared (view : List (Nat × Obs)) (a b : Nat) : (commonCorners view a b).card =
    match sharedBy view a b with
    | none => 0
    | some p => (p.1.corners ∩ p.2.corners).card := by
  unfold commonCorners sharedBy
  cases seenBy view a with
  | none => rfl
  | some oa =>
    cases seenBy view b with
    | none => rfl
    | some ob =>
      simp only []
      by_cases hne : (oa.corners ∩ ob.corners).Nonempty
      · rw [if_pos hne]
      · rw [if_neg hne]
        rw [Finset.not_nonempty_iff_eq_empty] at hne
        rw [hne]; rfl

theorem share_sum {db : Db} {rows : List Row} (hok : ∀ r ∈ rows, db.RowOk r) (a b : Nat) :
    ((rows.filterMap fun r => rowShare r a b).map Prod.fst).sum =
      ((rows.map db.rowObs).map fun v => (commonCorners v a b).card).sum := by
  induction rows with
  | nil => rfl
  | cons r rows ih =>
    have ih' := ih fun r hr => hok r (by simp [hr])
    simp only [List.map_cons, List.sum_cons]
    rw [← ih', common_shared]
    rcases rowShare_view (hok r (by simp)) a b with ⟨h1, h2⟩ | ⟨oa, ob, ia, ib, h1, -, -, h2⟩
    · rw [List.filterMap_cons_none (f := fun r => rowShare r a b) h2, h1]; simp
    · rw [List.filterMap_cons_some (f := fun r => rowShare r a b) h2, h1]; simp

/-- Looking up an observation by its number. -/
def lookObs (db : Db) (c : Nat) (i : Nat) : Out Obs :=
  match (db.archive c)[i]? with
  | none => Out.raise
  | some o => .ok o

theorem share_obs {db : Db} {rows : List Row} (hok : ∀ r ∈ rows, db.RowOk r) (a b : Nat) :
    ((rows.filterMap fun r => rowShare r a b).map fun s : Nat × (Nat × Nat) => if a < b then s.2.1 else s.2.2).mapM (lookObs db a) =
      .ok (((rows.map db.rowObs).filterMap fun v => sharedBy v a b).map Prod.fst) ∧
    ((rows.filterMap fun r => rowShare r a b).map fun s : Nat × (Nat × Nat) => if a < b then s.2.2 else s.2.1).mapM (lookObs db b) =
      .ok (((rows.map db.rowObs).filterMap fun v => sharedBy v a b).map Prod.snd) := by
  induction rows with
  | nil => exact ⟨rfl, rfl⟩
  | cons r rows ih =>
    obtain ⟨ih1, ih2⟩ := ih fun r hr => hok r (by simp [hr])
    rw [List.map_cons]
    rcases rowShare_view (hok r (by simp)) a b with ⟨h1, h2⟩ | ⟨oa, ob, ia, ib, h1, ha, hb, h2⟩
    · rw [List.filterMap_cons_none (f := fun r => rowShare r a b) h2, List.filterMap_cons_none (f := fun v => sharedBy v a b) h1]
      exact ⟨ih1, ih2⟩
    · rw [List.filterMap_cons_some (f := fun r => rowShare r a b) h2, List.filterMap_cons_some (f := fun v => sharedBy v a b) h1]
      simp only [List.map_cons, List.mapM_cons]
      have e1 : (if a < b then (if a < b then (ia, ib) else (ib, ia)).1 else (if a < b then (ia, ib) else (ib, ia)).2) = ia := by
        by_cases h : a < b
        · rw [if_pos h, if_pos h]
        · rw [if_neg h, if_neg h]
      have e2 : (if a < b then (if a < b then (ia, ib) else (ib, ia)).2 else (if a < b then (ia, ib) else (ib, ia)).1) = ib := by
        by_cases h : a < b
        · rw [if_pos h, if_pos h]
        · rw [if_neg h, if_neg h]
      rw [e1, e2]
      have l1 : lookObs db a ia = .ok oa := by rw [lookObs, ha]
      have l2 : lookObs db b ib = .ok ob := by rw [lookObs, hb]
      rw [l1, l2, ih1, ih2]
      exact ⟨rfl, rfl⟩

theorem views_eq {δ : ℚ} (hδ : 0 ≤ δ) {h : List (Nat × Obs)} {views : List (List (Nat × Obs))}
    (hv : (Db.addAll δ h).HasViews views) : views = (Db.addAll δ h).rows.map (Db.addAll δ h).rowObs := by
  have hi := inv_addAll hδ h
  have : ((Db.addAll δ h).stamps.map fun s => (Db.addAll δ h).allObsAt s) =
      ((Db.addAll δ h).rows.map (Db.addAll δ h).rowObs).map Out.ok := by
    rw [Db.stamps, List.map_map, List.map_map]
    exact List.map_congr_left fun r hr => allObsAt_eq hδ hi hr
  rw [Db.HasViews, this] at hv
  exact (List.map_injective_iff.2 (fun _ _ h => Out.ok.inj h) hv).symm

/-- The attributes of the edge between two cameras. -/
theorem info_views {δ : ℚ} (hδ : 0 ≤ δ) {h : List (Nat × Obs)} {order : List Nat → List Nat} (ho : ∀ l, (order l).Perm l)
    {G : List Edge} (hG : buildGraph order (Db.addAll δ h) = .ok G) {a b : Nat} (hab : a ≠ b) :
    info G a b = if ((Db.addAll δ h).rows.filterMap fun r => rowShare r a b) = [] then none else
      some ((((Db.addAll δ h).rows.filterMap fun r => rowShare r a b).map Prod.fst).sum,
        ((Db.addAll δ h).rows.filterMap fun r => rowShare r a b).map Prod.snd) := by
  have hi := inv_addAll hδ h
  have := buildGraph_info ho (fun r hr => (hi.rowOk r hr).nodup) hG hab
  rw [this]
  have e : ∀ (l : List Row) (x : Option (Nat × List (Nat × Nat))), l.foldl (fun x r => applyShare (rowShare r a b) x) x =
      (l.map fun r => rowShare r a b).foldl (fun x s => applyShare s x) x := fun l x => by rw [List.foldl_map]
  rw [e, foldl_share, List.filterMap_map]
  have e2 : (id ∘ fun r => rowShare r a b) = fun r => rowShare r a b := rfl
  rw [e2]
  simp [info]

theorem shared_nil {δ : ℚ} (hδ : 0 ≤ δ) {h : List (Nat × Obs)} {views : List (List (Nat × Obs))}
    (hv : (Db.addAll δ h).HasViews views) (a b : Nat) :
    ((Db.addAll δ h).rows.filterMap fun r => rowShare r a b) = [] ↔ ∀ v ∈ views, ¬ (commonCorners v a b).Nonempty := by
  have hi := inv_addAll hδ h
  rw [views_eq hδ hv, List.filterMap_eq_nil_iff]
  have hc : ∀ v, (commonCorners v a b).Nonempty ↔ sharedBy v a b ≠ none := by
    intro v
    unfold commonCorners sharedBy
    cases seenBy v a with
    | none => simp
    | some oa =>
      cases seenBy v b with
      | none => simp
      | some ob => simp [Finset.nonempty_iff_ne_empty]
  constructor
  · intro hr v hv' hne
    obtain ⟨r, hrm, rfl⟩ := List.mem_map.1 hv'
    rcases rowShare_view (hi.rowOk r hrm) a b with ⟨h1, h2⟩ | ⟨oa, ob, ia, ib, h1, -, -, h2⟩
    · exact (hc _).1 hne h1
    · rw [hr r hrm] at h2; cases h2
  · intro hr r hrm
    rcases rowShare_view (hi.rowOk r hrm) a b with ⟨h1, h2⟩ | ⟨oa, ob, ia, ib, h1, -, -, h2⟩
    · exact h2
    · exact absurd ((hc _).2 (by rw [h1]; simp)) (hr _ (List.mem_map_of_mem hrm))

/-- **C122** Two cameras are joined in the graph exactly if in some view they see a corner in common, and the weight of the edge
is the number of corners they see in common, over all the views. This does not depend on the order in which the pairs of a view
are visited. -/
theorem C122_edges {δ : ℚ} (hδ : 0 ≤ δ) {h : List (Nat × Obs)} {order : List Nat → List Nat} (ho : ∀ l, (order l).Perm l)
    {views : List (List (Nat × Obs))} (hv : (Db.addAll δ h).HasViews views)
    {G : List Edge} (hG : buildGraph order (Db.addAll δ h) = .ok G) {a b : Nat} (hab : a ≠ b) :
    ((∃ e ∈ G, e.joins a b = true) ↔ ∃ v ∈ views, (commonCorners v a b).Nonempty) ∧
    ∀ e, G.find? (fun e => e.joins a b) = some e → e.weight = (views.map fun v => (commonCorners v a b).card).sum := by
  have hi := inv_addAll hδ h
  have hinf := info_views hδ ho hG hab
  have hnil := shared_nil hδ hv a b
  have hex : (∃ e ∈ G, e.joins a b = true) ↔ info G a b ≠ none := by
    rw [info, ne_eq, Option.map_eq_none_iff, List.find?_eq_none]
    push Not
    rfl
  refine ⟨?_, ?_⟩
  · rw [hex, hinf]
    by_cases hn : ((Db.addAll δ h).rows.filterMap fun r => rowShare r a b) = []
    · rw [if_pos hn]
      have := hnil.1 hn
      refine ⟨fun h' => absurd rfl h', ?_⟩
      rintro ⟨v, hv1, hv2⟩
      exact absurd hv2 (this v hv1)
    · rw [if_neg hn]
      refine ⟨fun _ => ?_, fun _ => by simp⟩
      by_contra hc
      exact hn (hnil.2 fun v hv1 hv2 => hc ⟨v, hv1, hv2⟩)
  · intro e he
    rw [info, he, Option.map_some] at hinf
    by_cases hn : ((Db.addAll δ h).rows.filterMap fun r => rowShare r a b) = []
    · rw [if_pos hn] at hinf; cases hinf
    · rw [if_neg hn, Option.some.injEq, Prod.mk.injEq] at hinf
      rw [hinf.1, share_sum hi.rowOk, views_eq hδ hv]

/-- **C122** `getAllMutualObsBetweenTwoCams` delivers, for every view in which the two cameras see a corner in common, the
observation of the first and that of the second, in the order of the views and whichever of the two has the lower number. -/
theorem C122_mutual {δ : ℚ} (hδ : 0 ≤ δ) {h : List (Nat × Obs)} {order : List Nat → List Nat} (ho : ∀ l, (order l).Perm l)
    {views : List (List (Nat × Obs))} (hv : (Db.addAll δ h).HasViews views)
    {G : List Edge} (hG : buildGraph order (Db.addAll δ h) = .ok G) {a b : Nat} (hab : a ≠ b) :
    mutualObs (Db.addAll δ h) G a b =
      .ok ((views.filterMap fun v => sharedBy v a b).map Prod.fst, (views.filterMap fun v => sharedBy v a b).map Prod.snd) := by
  have hi := inv_addAll hδ h
  have hinf := info_views hδ ho hG hab
  have hso := share_obs hi.rowOk a b
  rw [views_eq hδ hv]
  unfold mutualObs
  cases hf : G.find? fun e => e.joins a b with
  | none =>
    rw [info, hf] at hinf
    by_cases hn : ((Db.addAll δ h).rows.filterMap fun r => rowShare r a b) = []
    · rw [hn] at hso
      obtain ⟨h1, h2⟩ := hso
      simp only [List.map_nil, List.mapM_nil, Out.pure_eq, Out.ok.injEq] at h1 h2
      simp only []
      rw [← h1, ← h2]
    · rw [if_neg hn] at hinf; cases hinf
  | some e =>
    rw [info, hf, Option.map_some] at hinf
    by_cases hn : ((Db.addAll δ h).rows.filterMap fun r => rowShare r a b) = []
    · rw [if_pos hn] at hinf; cases hinf
    · rw [if_neg hn, Option.some.injEq, Prod.mk.injEq] at hinf
      have eA : (if a < b then e.obsIds.map Prod.fst else e.obsIds.map Prod.snd) =
          ((Db.addAll δ h).rows.filterMap fun r => rowShare r a b).map fun s : Nat × (Nat × Nat) => if a < b then s.2.1 else s.2.2 := by
        rw [hinf.2]
        by_cases hlt : a < b
        · simp only [if_pos hlt, List.map_map]; rfl
        · simp only [if_neg hlt, List.map_map]; rfl
      have eB : (if a < b then e.obsIds.map Prod.snd else e.obsIds.map Prod.fst) =
          ((Db.addAll δ h).rows.filterMap fun r => rowShare r a b).map fun s : Nat × (Nat × Nat) => if a < b then s.2.2 else s.2.1 := by
        rw [hinf.2]
        by_cases hlt : a < b
        · simp only [if_pos hlt, List.map_map]; rfl
        · simp only [if_neg hlt, List.map_map]; rfl
      simp only []
      rw [eA, eB]
      show (do
        let obsA ← (((Db.addAll δ h).rows.filterMap fun r => rowShare r a b).map fun s : Nat × (Nat × Nat) => if a < b then s.2.1 else s.2.2).mapM
          (lookObs (Db.addAll δ h) a)
        let obsB ← (((Db.addAll δ h).rows.filterMap fun r => rowShare r a b).map fun s : Nat × (Nat × Nat) => if a < b then s.2.2 else s.2.1).mapM
          (lookObs (Db.addAll δ h) b)
        pure (obsA, obsB)) = _
      rw [hso.1, hso.2]
      rfl

/-! ## The graph is built -/

/-- What holds of the graph while it is built: the ends of an edge are two vertices, an edge has a weight, and no two edges join
the same cameras. -/
def Wf (n : Nat) (G : List Edge) : Prop :=
  (∀ e ∈ G, e.u < n ∧ e.v < n ∧ e.u ≠ e.v ∧ 0 < e.weight) ∧ G.Pairwise fun e f => ¬ samePair (e.u, e.v) (f.u, f.v)

theorem addCommon_wf {n : Nat} {G G' : List Edge} {a b : Nat} (hab : a ≠ b) {common : Finset Nat} (hc : common.Nonempty)
    {ids : Nat × Nat} (hw : Wf n G) (h : addCommon n G a b common ids = .ok G') : Wf n G' := by
  obtain ⟨h1, h2⟩ := hw
  have hcard := hc.card_pos
  have hpw : ∀ {L : List Edge}, (L.Pairwise fun e f => ¬ samePair (e.u, e.v) (f.u, f.v)) → (L.map fun e =>
      if e.joins a b then { e with weight := e.weight + common.card, obsIds := e.obsIds ++ [ids] } else e).Pairwise
      fun e f => ¬ samePair (e.u, e.v) (f.u, f.v) := by
    intro L hL
    rw [List.pairwise_map]
    refine hL.imp fun {e f} hef => ?_
    by_cases he : e.joins a b = true <;> by_cases hf : f.joins a b = true
    · rw [if_pos he, if_pos hf]; exact hef
    · rw [if_pos he, if_neg hf]; exact hef
    · rw [if_neg he, if_pos hf]; exact hef
    · rw [if_neg he, if_neg hf]; exact hef
  unfold addCommon at h
  by_cases hany : G.any (fun e => e.joins a b) = true
  · rw [if_pos hany, Out.ok.injEq] at h
    subst h
    refine ⟨?_, hpw h2⟩
    intro e he
    obtain ⟨f, hf, rfl⟩ := List.mem_map.1 he
    obtain ⟨p1, p2, p3, p4⟩ := h1 f hf
    by_cases hj : f.joins a b = true
    · rw [if_pos hj]; exact ⟨p1, p2, p3, by simp only []; omega⟩
    · rw [if_neg hj]; exact ⟨p1, p2, p3, p4⟩
  · rw [if_neg hany] at h
    by_cases hn : a < n ∧ b < n
    · rw [if_pos hn, Out.ok.injEq] at h
      subst h
      refine ⟨?_, hpw ?_⟩
      · intro e he
        obtain ⟨f, hf, rfl⟩ := List.mem_map.1 he
        rcases List.mem_append.1 hf with hf | hf
        · obtain ⟨p1, p2, p3, p4⟩ := h1 f hf
          by_cases hj : f.joins a b = true
          · rw [if_pos hj]; exact ⟨p1, p2, p3, by simp only []; omega⟩
          · rw [if_neg hj]; exact ⟨p1, p2, p3, p4⟩
        · rw [List.mem_singleton] at hf
          subst hf
          have hj : (⟨a, b, 0, []⟩ : Edge).joins a b = true := by rw [joins_iff]; exact Or.inl ⟨rfl, rfl⟩
          rw [if_pos hj]
          exact ⟨hn.1, hn.2, hab, by simp only []; omega⟩
      · rw [List.pairwise_append]
        refine ⟨h2, List.pairwise_singleton _ _, ?_⟩
        intro e he f hf hs
        rw [List.mem_singleton] at hf
        subst hf
        exact hany (List.any_eq_true.2 ⟨e, he, (joins_iff _ _ _).2 hs⟩)
    · rw [if_neg hn] at h; cases h

theorem addPair_wf {n : Nat} {r : Row} {G G' : List Edge} {p : Nat × Nat} (hp : p.1 ≠ p.2) (hw : Wf n G)
    (h : addPair n r G p = .ok G') : Wf n G' := by
  unfold addPair at h
  cases ha : r.entry? p.1 with
  | none => rw [ha] at h; cases h
  | some ea =>
    cases hb : r.entry? p.2 with
    | none => rw [ha, hb] at h; cases h
    | some eb =>
      rw [ha, hb] at h
      simp only [] at h
      by_cases hne : (ea.corners ∩ eb.corners).Nonempty
      · rw [if_pos hne] at h
        exact addCommon_wf hp hne hw h
      · rw [if_neg hne, Out.ok.injEq] at h
        rw [← h]; exact hw

theorem foldlM_wf {n : Nat} {r : Row} {l : List (Nat × Nat)} (hl : ∀ p ∈ l, p.1 ≠ p.2) {G G' : List Edge} (hw : Wf n G)
    (h : l.foldlM (addPair n r) G = .ok G') : Wf n G' := by
  induction l generalizing G with
  | nil => rw [List.foldlM_nil, Out.pure_eq, Out.ok.injEq] at h; rw [← h]; exact hw
  | cons p l ih =>
    rw [List.foldlM_cons, Out.bind_eq_ok] at h
    obtain ⟨G1, h1, h2⟩ := h
    exact ih (fun p hp => hl p (by simp [hp])) (addPair_wf (hl p (by simp)) hw h1) h2

/-- **C122** Between two cameras there is at most one edge, no camera is joined to itself, and no edge has the weight zero, by
which the search for the best pairs divides. -/
theorem C122_graph {δ : ℚ} (hδ : 0 ≤ δ) {h : List (Nat × Obs)} {order : List Nat → List Nat} (ho : ∀ l, (order l).Perm l)
    {G : List Edge} (hG : buildGraph order (Db.addAll δ h) = .ok G) :
    (∀ e ∈ G, e.u ≠ e.v ∧ e.u < (Db.addAll δ h).numCameras ∧ e.v < (Db.addAll δ h).numCameras ∧ 0 < e.weight) ∧
    G.Pairwise fun e f => e.joins f.u f.v = false := by
  have hi := inv_addAll hδ h
  have key : ∀ (rows : List Row) (G G' : List Edge), (∀ r ∈ rows, (r.entries.map Entry.cam).Nodup) →
      Wf (Db.addAll δ h).numCameras G →
      rows.foldlM (fun G r => (combinations2 (order (r.entries.map Entry.cam))).foldlM
        (addPair (Db.addAll δ h).numCameras r) G) G = .ok G' → Wf (Db.addAll δ h).numCameras G' := by
    intro rows
    induction rows with
    | nil => intro G G' _ hw h'; rw [List.foldlM_nil, Out.pure_eq, Out.ok.injEq] at h'; rw [← h']; exact hw
    | cons r rows ih =>
      intro G G' hn hw h'
      rw [List.foldlM_cons, Out.bind_eq_ok] at h'
      obtain ⟨G1, h1, h2⟩ := h'
      refine ih _ _ (fun r hr => hn r (by simp [hr])) (foldlM_wf ?_ hw h1) h2
      exact fun p hp => combinations2_ne ((ho _).nodup_iff.2 (hn r (by simp))) hp
  obtain ⟨h1, h2⟩ := key _ [] G (fun r hr => (hi.rowOk r hr).nodup) ⟨by simp, List.Pairwise.nil⟩ hG
  refine ⟨fun e he => ⟨(h1 e he).2.2.1, (h1 e he).1, (h1 e he).2.1, (h1 e he).2.2.2⟩, h2.imp fun {e f} hef => ?_⟩
  rw [Bool.eq_false_iff, ne_eq, joins_iff]
  exact hef

/-- **C122** If the cameras of which there are observations are numbered from zero, the graph is built. -/
theorem C122_built {δ : ℚ} (hδ : 0 ≤ δ) {h : List (Nat × Obs)} {order : List Nat → List Nat} (ho : ∀ l, (order l).Perm l)
    (hn : ∀ x ∈ h, x.1 < (h.map Prod.fst).toFinset.card) : ∃ G, buildGraph order (Db.addAll δ h) = .ok G := by
  have hi := inv_addAll hδ h
  have hcams : ∀ r ∈ (Db.addAll δ h).rows, ∀ c ∈ r.entries.map Entry.cam, c < (Db.addAll δ h).numCameras := by
    intro r hr c hc
    rw [C121_cameras hδ]
    rw [← rowObs_fst (hi.rowOk r hr), List.mem_map] at hc
    obtain ⟨x, hx, rfl⟩ := hc
    obtain ⟨dropped, hperm, -⟩ := hi.perm
    exact hn x (hperm.mem_iff.1 (List.mem_append_left _ (List.mem_flatMap.2 ⟨r, hr, hx⟩)))
  have hstep : ∀ (r : Row), (∀ c ∈ r.entries.map Entry.cam, c < (Db.addAll δ h).numCameras) → ∀ (l : List (Nat × Nat)),
      (∀ p ∈ l, p.1 ∈ r.entries.map Entry.cam ∧ p.2 ∈ r.entries.map Entry.cam) → ∀ G, ∃ G',
      l.foldlM (addPair (Db.addAll δ h).numCameras r) G = .ok G' := by
    intro r hr l
    induction l with
    | nil => intro _ G; exact ⟨G, rfl⟩
    | cons p l ih =>
      intro hl G
      have hfind : ∀ c ∈ r.entries.map Entry.cam, ∃ e, r.entry? c = some e := by
        intro c hc
        rw [← Option.isSome_iff_exists, Row.entry?, List.find?_isSome]
        obtain ⟨e, he, hec⟩ := List.mem_map.1 hc
        exact ⟨e, he, by simpa using hec⟩
      obtain ⟨hp1, hp2⟩ := hl p (by simp)
      obtain ⟨ea, ha⟩ := hfind _ hp1
      obtain ⟨eb, hb⟩ := hfind _ hp2
      have : ∃ G1, addPair (Db.addAll δ h).numCameras r G p = .ok G1 := by
        unfold addPair
        rw [ha, hb]
        simp only []
        by_cases hne : (ea.corners ∩ eb.corners).Nonempty
        · rw [if_pos hne]
          unfold addCommon
          by_cases hany : G.any (fun e => e.joins p.1 p.2) = true
          · rw [if_pos hany]; exact ⟨_, rfl⟩
          · rw [if_neg hany, if_pos ⟨hr _ hp1, hr _ hp2⟩]; exact ⟨_, rfl⟩
        · rw [if_neg hne]; exact ⟨_, rfl⟩
      obtain ⟨G1, h1⟩ := this
      obtain ⟨G2, h2⟩ := ih (fun p hp => hl p (by simp [hp])) G1
      exact ⟨G2, by rw [List.foldlM_cons, h1]; exact h2⟩
  have key : ∀ (rows : List Row) (G : List Edge), (∀ r ∈ rows, r ∈ (Db.addAll δ h).rows) →
      ∃ G', rows.foldlM (fun G r => (combinations2 (order (r.entries.map Entry.cam))).foldlM
        (addPair (Db.addAll δ h).numCameras r) G) G = .ok G' := by
    intro rows
    induction rows with
    | nil => intro G _; exact ⟨G, rfl⟩
    | cons r rows ih =>
      intro G hr
      obtain ⟨G1, h1⟩ := hstep r (hcams r (hr r (by simp))) (combinations2 (order (r.entries.map Entry.cam)))
        (fun p hp => by
          have := combinations2_mem hp
          exact ⟨(ho _).mem_iff.1 this.1, (ho _).mem_iff.1 this.2⟩) G
      obtain ⟨G2, h2⟩ := ih G1 fun r hr' => hr r (by simp [hr'])
      exact ⟨G2, by rw [List.foldlM_cons, h1]; exact h2⟩
  exact key _ _ fun _ hr => hr

/-- **C122** The vertices are as many as the cameras that saw the target, not as there are cameras: when camera 0 saw nothing,
the common views of the cameras 1 and 2 are an error. -/
theorem C122_unseen_counterexample : buildGraph id (Db.addAll (1 / 50) [(1, ⟨0, 0, {1, 2}⟩), (2, ⟨1, 0, {2, 3}⟩)]) = .raise := by
  decide +kernel

/-- The hypotheses of the theorems of C122: three cameras, two views, two edges. -/
example : buildGraph List.reverse (Db.addAll (1 / 50) [(0, ⟨0, 0, {1, 2}⟩), (0, ⟨1, 1, {1, 2, 3}⟩), (1, ⟨2, 0, {2, 3}⟩),
    (1, ⟨3, 1, {1, 2}⟩), (2, ⟨4, 1, {3}⟩)]) = .ok [⟨1, 0, 3, [(0, 0), (1, 1)]⟩, ⟨2, 0, 1, [(1, 0)]⟩] := by
  decide +kernel

end Kalibr.App
