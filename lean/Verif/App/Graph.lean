import Verif.App.ObsDbClaims
import Verif.Target.GridProps

/-!
# The graph of the cameras (C122)

`aslam_offline_calibration/kalibr/python/kalibr_camera_calibration/MulticamGraph.py` (cited as `MG.py`) 23-80 and 257-281.
`igraph.Graph` is the list of its edges, in the order in which they are added. The order in which Python goes through a set of
cameras is an argument.
-/

namespace Kalibr.App

/-- An edge with its attributes `weight` and `obs_ids`. -/
structure Edge where
  u : Nat
  v : Nat
  weight : Nat
  obsIds : List (Nat × Nat)
  deriving DecidableEq

/-- `G.get_eid(a, b)` looks at the edge whichever way it was added. -/
def Edge.joins (e : Edge) (a b : Nat) : Bool := (e.u == a && e.v == b) || (e.u == b && e.v == a)

/-- `itertools.combinations(l, 2)`. -/
def combinations2 {α : Type} : List α → List (α × α)
  | [] => []
  | a :: l => l.map (fun b => (a, b)) ++ combinations2 l

/-- MG.py 61-72: the edge is added if it is not there, and the common corners are added to it. A number that is not that of a
vertex is an error of `igraph`. -/
def addCommon (numCams : Nat) (G : List Edge) (a b : Nat) (common : Finset Nat) (ids : Nat × Nat) : Out (List Edge) :=
  if G.any (fun e => e.joins a b) then
    .ok (G.map fun e => if e.joins a b then { e with weight := e.weight + common.card, obsIds := e.obsIds ++ [ids] } else e)
  else if a < numCams ∧ b < numCams then
    .ok ((G ++ [(⟨a, b, 0, []⟩ : Edge)]).map fun e =>
      if e.joins a b then { e with weight := e.weight + common.card, obsIds := e.obsIds ++ [ids] } else e)
  else .raise

/-- MG.py 47-72: one pair of cameras in a row. -/
def addPair (numCams : Nat) (r : Row) (G : List Edge) (edge : Nat × Nat) : Out (List Edge) :=
  match r.entry? edge.1, r.entry? edge.2 with
  | some ea, some eb =>
    let common := ea.corners ∩ eb.corners
    if common.Nonempty then
      addCommon numCams G edge.1 edge.2 common (if edge.1 < edge.2 then (ea.obsId, eb.obsId) else (eb.obsId, ea.obsId))
    else .ok G
  | _, _ => .raise

/-- MG.py 31-75, `initializeGraphFromObsDb`. -/
def buildGraph (order : List Nat → List Nat) (db : Db) : Out (List Edge) :=
  db.rows.foldlM (fun G r => (combinations2 (order (r.entries.map Entry.cam))).foldlM (addPair db.numCameras r) G) []

/-- MG.py 258-281, `getAllMutualObsBetweenTwoCams`. -/
def mutualObs (db : Db) (G : List Edge) (a b : Nat) : Out (List Obs × List Obs) :=
  match G.find? fun e => e.joins a b with
  | none => .ok ([], [])
  | some e =>
    let idxL := e.obsIds.map Prod.fst
    let idxH := e.obsIds.map Prod.snd
    let idxA := if a < b then idxL else idxH
    let idxB := if a < b then idxH else idxL
    do
      let obsA ← idxA.mapM fun i => match (db.archive a)[i]? with
        | none => Out.raise
        | some o => .ok o
      let obsB ← idxB.mapM fun i => match (db.archive b)[i]? with
        | none => Out.raise
        | some o => .ok o
      pure (obsA, obsB)

/-! ## Specification -/

/-- What camera `c` saw in a view. -/
def seenBy (view : List (Nat × Obs)) (c : Nat) : Option Obs := (view.find? fun x => x.1 == c).map Prod.snd

/-- The corners that both cameras see in a view. -/
def commonCorners (view : List (Nat × Obs)) (a b : Nat) : Finset Nat :=
  match seenBy view a, seenBy view b with
  | some oa, some ob => oa.corners ∩ ob.corners
  | _, _ => ∅

/-- The views of the table. -/
def Db.HasViews (db : Db) (views : List (List (Nat × Obs))) : Prop := (db.stamps.map fun s => db.allObsAt s) = views.map Out.ok

/-! ## Proofs -/

/-- The attributes of the edge between two cameras, if there is one. -/
def info (G : List Edge) (a b : Nat) : Option (Nat × List (Nat × Nat)) :=
  (G.find? fun e => e.joins a b).map fun e => (e.weight, e.obsIds)

/-- The same pair of cameras. -/
def samePair (p q : Nat × Nat) : Prop := (p.1 = q.1 ∧ p.2 = q.2) ∨ (p.1 = q.2 ∧ p.2 = q.1)

instance (p q : Nat × Nat) : Decidable (samePair p q) := inferInstanceAs (Decidable (_ ∨ _))

theorem joins_iff (e : Edge) (a b : Nat) : e.joins a b = true ↔ samePair (e.u, e.v) (a, b) := by
  simp [Edge.joins, samePair]

theorem joins_congr {a b c d : Nat} (h : samePair (a, b) (c, d)) (e : Edge) : e.joins a b = e.joins c d := by
  rw [Bool.eq_iff_iff, joins_iff, joins_iff]
  unfold samePair at *
  simp only [] at *
  omega

theorem joins_other {a b c d : Nat} (h : ¬ samePair (a, b) (c, d)) {e : Edge} (he : e.joins c d = true) :
    e.joins a b = false := by
  rw [joins_iff] at he
  rw [Bool.eq_false_iff, ne_eq, joins_iff]
  unfold samePair at *
  simp only [] at *
  omega

/-- What an addition does to the attributes. -/
def bumpInfo (w : Nat) (ids : Nat × Nat) (x : Option (Nat × List (Nat × Nat))) : Option (Nat × List (Nat × Nat)) :=
  match x with
  | none => some (w, [ids])
  | some x => some (x.1 + w, x.2 ++ [ids])

theorem find_bump (G : List Edge) (a b c d : Nat) (w : Nat) (ids : Nat × Nat) :
    (G.map fun e => if e.joins a b then { e with weight := e.weight + w, obsIds := e.obsIds ++ [ids] } else e).find?
      (fun e => e.joins c d) =
    (G.find? fun e => e.joins c d).map fun e =>
      if e.joins a b then { e with weight := e.weight + w, obsIds := e.obsIds ++ [ids] } else e := by
  rw [List.find?_map]
  congr 2
  funext e
  simp only [Function.comp]
  by_cases h : e.joins a b = true
  · rw [if_pos h]; rfl
  · rw [if_neg h]

theorem addCommon_info {n : Nat} {G G' : List Edge} {a b : Nat} {common : Finset Nat} {ids : Nat × Nat}
    (h : addCommon n G a b common ids = .ok G') (c d : Nat) :
    info G' c d = if samePair (a, b) (c, d) then bumpInfo common.card ids (info G c d) else info G c d := by
  unfold addCommon at h
  by_cases hany : G.any (fun e => e.joins a b) = true
  · rw [if_pos hany, Out.ok.injEq] at h
    subst h
    rw [info, find_bump, Option.map_map]
    by_cases hs : samePair (a, b) (c, d)
    · rw [if_pos hs]
      have hs' : (fun e : Edge => e.joins a b) = fun e => e.joins c d := funext fun e => joins_congr hs e
      rw [hs', List.any_eq_true] at hany
      rw [info]
      cases hf : G.find? fun e => e.joins c d with
      | none =>
        obtain ⟨e, he, hej⟩ := hany
        exact absurd hej (List.find?_eq_none.1 hf e he)
      | some e =>
        have hej : e.joins c d = true := by simpa using List.find?_some hf
        simp [joins_congr hs, hej, bumpInfo]
    · rw [if_neg hs, info]
      cases hf : G.find? fun e => e.joins c d with
      | none => rfl
      | some e =>
        have hej : e.joins c d = true := by simpa using List.find?_some hf
        simp [joins_other hs hej]
  · rw [if_neg hany] at h
    by_cases hn : a < n ∧ b < n
    · rw [if_pos hn, Out.ok.injEq] at h
      subst h
      have hnone : (G.find? fun e => e.joins a b) = none := by
        rw [List.find?_eq_none]
        intro e he hej
        exact hany (List.any_eq_true.2 ⟨e, he, hej⟩)
      rw [info, find_bump, Option.map_map, List.find?_append]
      by_cases hs : samePair (a, b) (c, d)
      · rw [if_pos hs]
        have hs' : (fun e : Edge => e.joins a b) = fun e => e.joins c d := funext fun e => joins_congr hs e
        rw [hs'] at hnone
        have hj : (⟨a, b, 0, []⟩ : Edge).joins c d = true := by rw [joins_iff]; exact hs
        rw [info, hnone, Option.none_or, List.find?_cons_of_pos (p := fun e => Edge.joins e c d) hj]
        have hj2 : (⟨a, b, 0, []⟩ : Edge).joins a b = true := by rw [joins_iff]; exact Or.inl ⟨rfl, rfl⟩
        simp [hj2, bumpInfo]
      · rw [if_neg hs, info]
        have hj : ¬ (⟨a, b, 0, []⟩ : Edge).joins c d = true := by rw [joins_iff]; exact hs
        rw [List.find?_cons_of_neg (p := fun e => Edge.joins e c d) hj, List.find?_nil, Option.or_none]
        cases hf : G.find? fun e => e.joins c d with
        | none => rfl
        | some e =>
          have hej : e.joins c d = true := by simpa using List.find?_some hf
          simp [joins_other hs hej]
    · rw [if_neg hn] at h; cases h

/-- What a row adds to the edge of a pair. -/
def rowShare (r : Row) (a b : Nat) : Option (Nat × (Nat × Nat)) :=
  match r.entry? a, r.entry? b with
  | some ea, some eb => if (ea.corners ∩ eb.corners).Nonempty then
      some ((ea.corners ∩ eb.corners).card, if a < b then (ea.obsId, eb.obsId) else (eb.obsId, ea.obsId)) else none
  | _, _ => none

/-- Added. -/
def applyShare (s : Option (Nat × (Nat × Nat))) (x : Option (Nat × List (Nat × Nat))) : Option (Nat × List (Nat × Nat)) :=
  match s with
  | none => x
  | some s => bumpInfo s.1 s.2 x

theorem rowShare_symm (r : Row) {a b : Nat} (h : a ≠ b) : rowShare r a b = rowShare r b a := by
  unfold rowShare
  cases r.entry? a <;> cases r.entry? b <;> try rfl
  rename_i ea eb
  simp only []
  rw [Finset.inter_comm ea.corners]
  rcases Nat.lt_or_gt_of_ne h with h | h
  · rw [if_pos h, if_neg (by omega : ¬ b < a)]
  · rw [if_neg (by omega : ¬ a < b), if_pos h]

theorem addPair_info {n : Nat} {r : Row} {G G' : List Edge} {p : Nat × Nat} (hp : p.1 ≠ p.2) (h : addPair n r G p = .ok G') (c d : Nat) :
    info G' c d = if samePair p (c, d) then applyShare (rowShare r c d) (info G c d) else info G c d := by
  obtain ⟨a, b⟩ := p
  have hsh : samePair (a, b) (c, d) → rowShare r c d = rowShare r a b := by
    rintro (⟨h1, h2⟩ | ⟨h1, h2⟩) <;> simp only [] at h1 h2 <;> subst h1 h2
    · rfl
    · exact rowShare_symm r (Ne.symm hp)
  unfold addPair at h
  simp only [] at h
  cases ha : r.entry? a with
  | none => rw [ha] at h; cases h
  | some ea =>
    cases hb : r.entry? b with
    | none => rw [ha, hb] at h; cases h
    | some eb =>
      rw [ha, hb] at h
      simp only [] at h
      by_cases hne : (ea.corners ∩ eb.corners).Nonempty
      · rw [if_pos hne] at h
        rw [addCommon_info h]
        by_cases hs : samePair (a, b) (c, d)
        · rw [if_pos hs, if_pos hs, hsh hs, rowShare, ha, hb]
          simp only [if_pos hne, applyShare]
        · rw [if_neg hs, if_neg hs]
      · rw [if_neg hne, Out.ok.injEq] at h
        subst h
        by_cases hs : samePair (a, b) (c, d)
        · rw [if_pos hs, hsh hs, rowShare, ha, hb]
          simp only [if_neg hne, applyShare]
        · rw [if_neg hs]

theorem foldlM_addPair_none {n : Nat} {r : Row} {c d : Nat} {l : List (Nat × Nat)} (hl : ∀ p ∈ l, p.1 ≠ p.2)
    (hn : ∀ p ∈ l, ¬ samePair p (c, d)) {G G' : List Edge} (h : l.foldlM (addPair n r) G = .ok G') :
    info G' c d = info G c d := by
  induction l generalizing G with
  | nil => rw [List.foldlM_nil, Out.pure_eq, Out.ok.injEq] at h; rw [h]
  | cons p l ih =>
    rw [List.foldlM_cons, Out.bind_eq_ok] at h
    obtain ⟨G1, h1, h2⟩ := h
    rw [ih (fun p hp => hl p (by simp [hp])) (fun p hp => hn p (by simp [hp])) h2,
      addPair_info (hl p (by simp)) h1, if_neg (hn p (by simp))]

theorem combinations2_mem {l : List Nat} {p : Nat × Nat} (h : p ∈ combinations2 l) : p.1 ∈ l ∧ p.2 ∈ l := by
  induction l with
  | nil => simp [combinations2] at h
  | cons a l ih =>
    rw [combinations2, List.mem_append, List.mem_map] at h
    rcases h with ⟨b, hb, rfl⟩ | h
    · simp [hb]
    · have := ih h; simp [this.1, this.2]

theorem combinations2_ne {l : List Nat} (hn : l.Nodup) {p : Nat × Nat} (h : p ∈ combinations2 l) : p.1 ≠ p.2 := by
  induction l with
  | nil => simp [combinations2] at h
  | cons a l ih =>
    rw [List.nodup_cons] at hn
    rw [combinations2, List.mem_append, List.mem_map] at h
    rcases h with ⟨b, hb, rfl⟩ | h
    · exact fun he => hn.1 ((show a = b from he) ▸ hb)
    · exact ih hn.2 h

/-- Of the pairs with `a`, the one with `b` is there once. -/
theorem foldlM_map {n : Nat} {r : Row} {a b c d : Nat} (hab : samePair (a, b) (c, d)) {l : List Nat} (hn : l.Nodup)
    (ha : a ∉ l) (hb : b ∈ l) {G G' : List Edge} (h : (l.map fun x => (a, x)).foldlM (addPair n r) G = .ok G') :
    info G' c d = applyShare (rowShare r c d) (info G c d) := by
  have hne : ∀ m : List Nat, a ∉ m → ∀ p ∈ m.map fun x => (a, x), p.1 ≠ p.2 := by
    intro m hm p hp
    obtain ⟨x, hx, rfl⟩ := List.mem_map.1 hp
    exact fun he => hm ((show a = x from he) ▸ hx)
  have hother : ∀ x, x ≠ b → ¬ samePair (a, x) (c, d) := by
    intro x hx hs
    unfold samePair at *
    simp only [] at *
    omega
  obtain ⟨pre, post, rfl⟩ := List.append_of_mem hb
  rw [List.nodup_append, List.nodup_cons] at hn
  obtain ⟨-, ⟨hpost, -⟩, hdis⟩ := hn
  have ha1 : a ∉ pre := fun h' => ha (by simp [h'])
  have ha2 : a ∉ post := fun h' => ha (by simp [h'])
  rw [List.map_append, List.foldlM_append, Out.bind_eq_ok] at h
  obtain ⟨G1, h1, h⟩ := h
  rw [List.map_cons, List.foldlM_cons, Out.bind_eq_ok] at h
  obtain ⟨G2, h2, h3⟩ := h
  rw [foldlM_addPair_none (hne post ha2) (fun p hp => by
      obtain ⟨x, hx, rfl⟩ := List.mem_map.1 hp
      exact hother x (fun he => hpost (he ▸ hx))) h3,
    addPair_info (p := (a, b)) (fun he => ha ((show a = b from he) ▸ hb)) h2, if_pos hab,
    foldlM_addPair_none (hne pre ha1) (fun p hp => by
      obtain ⟨x, hx, rfl⟩ := List.mem_map.1 hp
      exact hother x (fun he => hdis x hx b (by simp) he)) h1]

/-- A row: the edge of the pair gets its share once if both cameras are in the row. -/
theorem foldlM_row {n : Nat} {r : Row} {c d : Nat} (hcd : c ≠ d) {l : List Nat} (hn : l.Nodup) {G G' : List Edge}
    (h : (combinations2 l).foldlM (addPair n r) G = .ok G') :
    info G' c d = if c ∈ l ∧ d ∈ l then applyShare (rowShare r c d) (info G c d) else info G c d := by
  induction l generalizing G with
  | nil =>
    rw [combinations2, List.foldlM_nil, Out.pure_eq, Out.ok.injEq] at h
    rw [h]; simp
  | cons a l ih =>
    have hn' := List.nodup_cons.1 hn
    rw [combinations2, List.foldlM_append, Out.bind_eq_ok] at h
    obtain ⟨G1, h1, h2⟩ := h
    have hne : ∀ p ∈ l.map fun x => (a, x), p.1 ≠ p.2 := by
      intro p hp
      obtain ⟨x, hx, rfl⟩ := List.mem_map.1 hp
      exact fun he => hn'.1 ((show a = x from he) ▸ hx)
    have ih' := ih hn'.2 h2
    by_cases hac : a = c
    · subst hac
      rw [ih', if_neg (fun h' => hn'.1 h'.1)]
      by_cases hd : d ∈ l
      · rw [if_pos ⟨by simp, by simp [hd]⟩]
        exact foldlM_map (Or.inl ⟨rfl, rfl⟩) hn'.2 hn'.1 hd h1
      · rw [if_neg, foldlM_addPair_none hne _ h1]
        · intro p hp
          obtain ⟨x, hx, rfl⟩ := List.mem_map.1 hp
          unfold samePair
          simp only []
          rintro (⟨-, rfl⟩ | ⟨h', -⟩)
          · exact hd hx
          · exact hcd h'
        · rintro ⟨-, h'⟩
          rcases List.mem_cons.1 h' with h' | h'
          · exact hcd h'.symm
          · exact hd h'
    · by_cases had : a = d
      · subst had
        rw [ih', if_neg (fun h' => hn'.1 h'.2)]
        by_cases hc : c ∈ l
        · rw [if_pos ⟨by simp [hc], by simp⟩]
          exact foldlM_map (Or.inr ⟨rfl, rfl⟩) hn'.2 hn'.1 hc h1
        · rw [if_neg, foldlM_addPair_none hne _ h1]
          · intro p hp
            obtain ⟨x, hx, rfl⟩ := List.mem_map.1 hp
            unfold samePair
            simp only []
            rintro (⟨h', -⟩ | ⟨-, rfl⟩)
            · exact hac h'
            · exact hc hx
          · rintro ⟨h', -⟩
            rcases List.mem_cons.1 h' with h' | h'
            · exact hac h'.symm
            · exact hc h'
      · rw [ih', foldlM_addPair_none hne (fun p hp => by
          obtain ⟨x, hx, rfl⟩ := List.mem_map.1 hp
          unfold samePair
          simp only []
          rintro (⟨h', -⟩ | ⟨h', -⟩)
          · exact hac h'
          · exact had h') h1]
        have e : (c ∈ a :: l ∧ d ∈ a :: l) ↔ (c ∈ l ∧ d ∈ l) := by
          simp [Ne.symm hac, Ne.symm had]
        by_cases hcl : c ∈ l ∧ d ∈ l
        · rw [if_pos hcl, if_pos (e.2 hcl)]
        · rw [if_neg hcl, if_neg (fun h' => hcl (e.1 h'))]

theorem rowShare_absent {r : Row} {c d : Nat} (h : ¬ (c ∈ r.entries.map Entry.cam ∧ d ∈ r.entries.map Entry.cam)) :
    rowShare r c d = none := by
  have key : ∀ x, x ∉ r.entries.map Entry.cam → r.entry? x = none := by
    intro x hx
    rw [Row.entry?, List.find?_eq_none]
    intro e he hc
    exact hx (List.mem_map.2 ⟨e, he, by simpa using hc⟩)
  unfold rowShare
  by_cases hc : c ∈ r.entries.map Entry.cam
  · rw [key d fun hd => h ⟨hc, hd⟩]
    cases r.entry? c <;> rfl
  · rw [key c hc]

/-- The attributes of an edge after all the rows. -/
theorem buildGraph_info {order : List Nat → List Nat} (ho : ∀ l, (order l).Perm l) {n : Nat} {rows : List Row}
    (hn : ∀ r ∈ rows, (r.entries.map Entry.cam).Nodup) {G G' : List Edge}
    (h : rows.foldlM (fun G r => (combinations2 (order (r.entries.map Entry.cam))).foldlM (addPair n r) G) G = .ok G')
    {c d : Nat} (hcd : c ≠ d) : info G' c d = rows.foldl (fun x r => applyShare (rowShare r c d) x) (info G c d) := by
  induction rows generalizing G with
  | nil =>
    rw [List.foldlM_nil, Out.pure_eq, Out.ok.injEq] at h
    rw [h]; rfl
  | cons r rows ih =>
    rw [List.foldlM_cons, Out.bind_eq_ok] at h
    obtain ⟨G1, h1, h2⟩ := h
    rw [List.foldl_cons, ih (fun r hr => hn r (by simp [hr])) h2,
      foldlM_row hcd ((ho _).nodup_iff.2 (hn r (by simp))) h1]
    congr 1
    by_cases hm : c ∈ r.entries.map Entry.cam ∧ d ∈ r.entries.map Entry.cam
    · rw [if_pos ⟨(ho _).mem_iff.2 hm.1, (ho _).mem_iff.2 hm.2⟩]
    · rw [if_neg (fun h' => hm ⟨(ho _).mem_iff.1 h'.1, (ho _).mem_iff.1 h'.2⟩), rowShare_absent hm]; rfl

/-- All the shares together. -/
theorem foldl_share (sh : List (Option (Nat × (Nat × Nat)))) (x : Option (Nat × List (Nat × Nat))) :
    sh.foldl (fun x s => applyShare s x) x = if sh.filterMap id = [] then x else
      some (((x.map Prod.fst).getD 0) + ((sh.filterMap id).map Prod.fst).sum,
        ((x.map Prod.snd).getD []) ++ (sh.filterMap id).map Prod.snd) := by
  induction sh generalizing x with
  | nil => simp
  | cons s sh ih =>
    rw [List.foldl_cons, ih]
    cases s with
    | none => simp [applyShare]
    | some s =>
      have e : (some s :: sh).filterMap id = s :: sh.filterMap id := rfl
      rw [e, if_neg (by simp : ¬ (s :: sh.filterMap id) = [])]
      simp only [applyShare]
      by_cases hne : sh.filterMap id = []
      · rw [if_pos hne, hne]
        cases x <;> simp [bumpInfo]
      · rw [if_neg hne]
        cases x <;> simp [bumpInfo, Nat.add_assoc]

end Kalibr.App
