import Verif.App.ObsDb
import Mathlib.Data.List.Induction
import Mathlib.Data.List.Nodup

/-!
# What the table of observations holds, after every history of additions (C121)
-/

namespace Kalibr.App

/-- The observations of a row, each with its camera. -/
def Db.rowObs (db : Db) (r : Row) : List (Nat × Obs) :=
  r.entries.filterMap fun e => (db.archive e.cam)[e.obsId]?.map fun o => (e.cam, o)

/-- A row is in order. -/
structure Db.RowOk (db : Db) (r : Row) : Prop where
  nodup : (r.entries.map Entry.cam).Nodup
  first : ∃ e ∈ r.entries, ∃ o, (db.archive e.cam)[e.obsId]? = some o ∧ o.time = r.stamp
  entry : ∀ e ∈ r.entries, ∃ o, (db.archive e.cam)[e.obsId]? = some o ∧ o.corners = e.corners ∧
    |r.stamp - o.time| ≤ db.maxDelta

/-- What holds of the table after the history `h`. -/
structure Db.Inv (δ : ℚ) (h : List (Nat × Obs)) (db : Db) : Prop where
  delta : db.maxDelta = δ
  arch : ∀ c, db.archive c = (h.filter fun x => x.1 == c).map Prod.snd
  camsNodup : db.cams.Nodup
  camsMem : ∀ c, c ∈ db.cams ↔ ∃ x ∈ h, x.1 = c
  sep : db.rows.Pairwise fun a b => δ < |a.stamp - b.stamp|
  rowOk : ∀ r ∈ db.rows, db.RowOk r
  perm : ∃ dropped : List (Nat × Obs), (db.rows.flatMap db.rowObs ++ dropped).Perm h ∧ dropped.length = db.logged ∧
    ∀ x ∈ dropped, ∃ r ∈ db.rows, |r.stamp - x.2.time| ≤ δ ∧
      ∃ y ∈ db.rowObs r, y.1 = x.1

theorem add_archive (db : Db) (cam : Nat) (obs : Obs) (c : Nat) :
    (db.add cam obs).archive c = if c = cam then db.archive c ++ [obs] else db.archive c := rfl

theorem add_maxDelta (db : Db) (cam : Nat) (obs : Obs) : (db.add cam obs).maxDelta = db.maxDelta := rfl

theorem add_archive_mono {db : Db} {cam : Nat} {obs : Obs} {c i : Nat} {o : Obs} (h : (db.archive c)[i]? = some o) :
    ((db.add cam obs).archive c)[i]? = some o := by
  rw [add_archive]
  by_cases hc : c = cam
  · rw [if_pos hc, List.getElem?_append_left (List.getElem?_eq_some_iff.1 h).1, h]
  · rw [if_neg hc, h]

theorem Db.RowOk.add {db : Db} {r : Row} (h : db.RowOk r) (cam : Nat) (obs : Obs) : (db.add cam obs).RowOk r := by
  refine ⟨h.nodup, ?_, ?_⟩
  · obtain ⟨e, he, o, ho, ht⟩ := h.first
    exact ⟨e, he, o, add_archive_mono ho, ht⟩
  · intro e he
    obtain ⟨o, ho, hc⟩ := h.entry e he
    exact ⟨o, add_archive_mono ho, hc⟩

theorem Db.RowOk.rowObs {db : Db} {r : Row} (h : db.RowOk r) (cam : Nat) (obs : Obs) :
    (db.add cam obs).rowObs r = db.rowObs r := by
  unfold Db.rowObs
  refine List.filterMap_congr fun e he => ?_
  obtain ⟨o, ho, -⟩ := h.entry e he
  rw [ho, add_archive_mono ho]

theorem rowObs_append (db : Db) (r : Row) (e : Entry) (o : Obs) (ho : (db.archive e.cam)[e.obsId]? = some o) :
    db.rowObs { r with entries := r.entries ++ [e] } = db.rowObs r ++ [(e.cam, o)] := by
  simp [Db.rowObs, ho]

theorem flatMap_rowObs_add {db : Db} (cam : Nat) (obs : Obs) {rows : List Row} (h : ∀ r ∈ rows, db.RowOk r) :
    rows.flatMap (db.add cam obs).rowObs = rows.flatMap db.rowObs := by
  rw [List.flatMap_def, List.flatMap_def]
  congr 1
  exact List.map_congr_left fun r hr => (h r hr).rowObs cam obs

theorem mem_rowObs {db : Db} {r : Row} (h : db.RowOk r) {x : Nat × Obs} (hx : x ∈ db.rowObs r) :
    |r.stamp - x.2.time| ≤ db.maxDelta ∧ ∃ e ∈ r.entries, e.cam = x.1 ∧ (db.archive e.cam)[e.obsId]? = some x.2 ∧
      e.corners = x.2.corners := by
  rw [Db.rowObs, List.mem_filterMap] at hx
  obtain ⟨e, he, hx⟩ := hx
  obtain ⟨o, ho, hc, hd⟩ := h.entry e he
  rw [ho, Option.map_some, Option.some.injEq] at hx
  subst hx
  exact ⟨hd, e, he, rfl, ho, hc.symm⟩

theorem rowObs_of_entry {db : Db} {r : Row} (h : db.RowOk r) {e : Entry} (he : e ∈ r.entries) :
    ∃ o, (db.archive e.cam)[e.obsId]? = some o ∧ (e.cam, o) ∈ db.rowObs r := by
  obtain ⟨o, ho, -⟩ := h.entry e he
  exact ⟨o, ho, List.mem_filterMap.2 ⟨e, he, by rw [ho]; rfl⟩⟩

theorem any_cam {r : Row} {cam : Nat} : (r.entries.any fun e => e.cam == cam) = true ↔ cam ∈ r.entries.map Entry.cam := by
  rw [List.any_eq_true, List.mem_map]
  constructor
  · rintro ⟨e, he, hc⟩; exact ⟨e, he, by simpa using hc⟩
  · rintro ⟨e, he, hc⟩; exact ⟨e, he, by simpa using hc⟩

theorem inv_empty (δ : ℚ) : Db.Inv δ [] (Db.empty δ) :=
  ⟨rfl, fun _ => rfl, List.nodup_nil, by simp [Db.empty], List.Pairwise.nil, by simp [Db.empty], [], by simp [Db.empty],
    rfl, by simp⟩

theorem inv_add {δ : ℚ} (hδ : 0 ≤ δ) {h : List (Nat × Obs)} {db : Db} (hi : Db.Inv δ h db) (cam : Nat) (obs : Obs) :
    Db.Inv δ (h ++ [(cam, obs)]) (db.add cam obs) := by
  have hsep' : db.rows.Pairwise fun a b => a.stamp ≠ b.stamp := hi.sep.imp fun hab he => by
    rw [he, sub_self, abs_zero] at hab; linarith
  have hd : 0 ≤ db.maxDelta := by rw [hi.delta]; exact hδ
  have hnew : ((db.add cam obs).archive cam)[(db.archive cam).length]? = some obs := by
    rw [add_archive, if_pos rfl, List.getElem?_append_right (le_refl _), Nat.sub_self]
    rfl
  obtain ⟨dropped, hperm, hlen, hdrop⟩ := hi.perm
  have harch : ∀ c, (db.add cam obs).archive c = ((h ++ [(cam, obs)]).filter fun x => x.1 == c).map Prod.snd := by
    intro c
    rw [add_archive, hi.arch, List.filter_append, List.map_append]
    by_cases hc : c = cam
    · subst hc; simp
    · rw [if_neg hc]
      have : ((cam == c) = false) := by simpa using Ne.symm hc
      simp [this]
  have hcn : (db.add cam obs).cams.Nodup := by
    show (if cam ∈ db.cams then db.cams else db.cams ++ [cam]).Nodup
    by_cases hc : cam ∈ db.cams
    · rw [if_pos hc]; exact hi.camsNodup
    · rw [if_neg hc, ← List.concat_eq_append]
      exact hi.camsNodup.concat hc
  have hcm : ∀ c, c ∈ (db.add cam obs).cams ↔ ∃ x ∈ h ++ [(cam, obs)], x.1 = c := by
    intro c
    show c ∈ (if cam ∈ db.cams then db.cams else db.cams ++ [cam]) ↔ _
    have e : (∃ x ∈ h ++ [(cam, obs)], x.1 = c) ↔ c ∈ db.cams ∨ c = cam := by
      rw [hi.camsMem]
      simp only [List.mem_append, List.mem_singleton]
      constructor
      · rintro ⟨x, hx | rfl, hx2⟩
        · exact Or.inl ⟨x, hx, hx2⟩
        · exact Or.inr hx2.symm
      · rintro (⟨x, hx, hx2⟩ | rfl)
        · exact ⟨x, Or.inl hx, hx2⟩
        · exact ⟨_, Or.inr rfl, rfl⟩
    rw [e]
    by_cases hc : cam ∈ db.cams
    · rw [if_pos hc]
      refine ⟨Or.inl, ?_⟩
      rintro (h | rfl)
      · exact h
      · exact hc
    · rw [if_neg hc]; simp
  rcases add_cases db hd cam obs hsep' with ⟨pre, r, post, hpp, hnear, hmin, hrows, hlog⟩ | ⟨hfar, hrows, hlog⟩
  · have hok := hi.rowOk
    rw [hpp] at hok
    have hrok : db.RowOk r := hok r (by simp)
    have hpre : ∀ x ∈ pre, db.RowOk x := fun x hx => hok x (by simp [hx])
    have hpost : ∀ x ∈ post, db.RowOk x := fun x hx => hok x (by simp [hx])
    by_cases hsec : (r.entries.any fun e => e.cam == cam) = true
    · -- a second view
      have hf : r.fill cam (db.archive cam).length obs.corners = r := by rw [Row.fill, if_pos hsec]
      rw [hf, ← hpp] at hrows
      rw [if_pos hsec] at hlog
      refine ⟨hi.delta, harch, hcn, hcm, by rw [hrows]; exact hi.sep, ?_, dropped ++ [(cam, obs)], ?_, ?_, ?_⟩
      · rw [hrows]; intro x hx; exact (hi.rowOk x hx).add cam obs
      · rw [hrows, flatMap_rowObs_add cam obs hi.rowOk, ← List.append_assoc]
        exact hperm.append_right _
      · rw [hlog, List.length_append, hlen]; rfl
      · intro x hx
        rw [hrows]
        rcases List.mem_append.1 hx with hx | hx
        · obtain ⟨r', hr', hd', y, hy, hy2⟩ := hdrop x hx
          exact ⟨r', hr', hd', y, by rw [(hi.rowOk r' hr').rowObs]; exact hy, hy2⟩
        · rw [List.mem_singleton] at hx
          subst hx
          rw [any_cam, List.mem_map] at hsec
          obtain ⟨e, he, hec⟩ := hsec
          obtain ⟨o, -, ho⟩ := rowObs_of_entry hrok he
          refine ⟨r, by rw [hpp]; simp, by rw [← hi.delta]; exact hnear, (e.cam, o), ?_, hec⟩
          rw [hrok.rowObs]; exact ho
    · -- into the row
      have hf : r.fill cam (db.archive cam).length obs.corners =
          { r with entries := r.entries ++ [⟨cam, (db.archive cam).length, obs.corners⟩] } := by
        rw [Row.fill, if_neg hsec]
      rw [if_neg hsec] at hlog
      rw [hf] at hrows
      have hro : (db.add cam obs).rowObs { r with entries := r.entries ++ [⟨cam, (db.archive cam).length, obs.corners⟩] } =
          db.rowObs r ++ [(cam, obs)] := by
        rw [rowObs_append _ _ _ obs hnew, hrok.rowObs]
      refine ⟨hi.delta, harch, hcn, hcm, ?_, ?_, dropped, ?_, ?_, ?_⟩
      · rw [hrows]
        have hs := hi.sep
        rw [hpp] at hs
        rw [List.pairwise_append, List.pairwise_cons] at hs ⊢
        obtain ⟨h1, ⟨h2, h3⟩, h4⟩ := hs
        refine ⟨h1, ⟨h2, h3⟩, ?_⟩
        intro a ha b hb
        rcases List.mem_cons.1 hb with rfl | hb
        · exact h4 a ha r (by simp)
        · exact h4 a ha b (by simp [hb])
      · rw [hrows]
        intro x hx
        rcases List.mem_append.1 hx with hx | hx
        · exact (hpre x hx).add cam obs
        · rcases List.mem_cons.1 hx with rfl | hx
          · have hr2 := hrok.add cam obs
            refine ⟨?_, ?_, ?_⟩
            · simp only [List.map_append, List.map_singleton]
              rw [← List.concat_eq_append]
              exact hr2.nodup.concat (fun hm => hsec (any_cam.2 hm))
            · obtain ⟨e, he, hr3⟩ := hr2.first
              exact ⟨e, by simp [he], hr3⟩
            · intro e he
              rcases List.mem_append.1 he with he | he
              · exact hr2.entry e he
              · rw [List.mem_singleton] at he
                subst he
                exact ⟨obs, hnew, rfl, hnear⟩
          · exact (hpost x hx).add cam obs
      · rw [hrows, List.flatMap_append, List.flatMap_cons, hro, flatMap_rowObs_add cam obs hpre,
          flatMap_rowObs_add cam obs hpost]
        rw [hpp, List.flatMap_append, List.flatMap_cons] at hperm
        refine List.Perm.trans ?_ (hperm.append_right [(cam, obs)])
        simp only [List.append_assoc]
        refine List.Perm.append_left _ (List.Perm.append_left _ ?_)
        rw [← List.append_assoc _ _ [(cam, obs)]]
        exact List.perm_append_comm
      · rw [hlog]; exact hlen
      · intro x hx
        obtain ⟨r', hr', hd', y, hy, hy2⟩ := hdrop x hx
        rw [hrows]
        rw [hpp] at hr'
        rcases List.mem_append.1 hr' with hr' | hr'
        · exact ⟨r', by simp [hr'], hd', y, by rw [(hpre r' hr').rowObs]; exact hy, hy2⟩
        · rcases List.mem_cons.1 hr' with rfl | hr'
          · exact ⟨_, List.mem_append_right _ (List.mem_cons_self ..), hd', y, by rw [hro]; simp [hy], hy2⟩
          · exact ⟨r', by simp [hr'], hd', y, by rw [(hpost r' hr').rowObs]; exact hy, hy2⟩
  · -- a new row
    have hro : (db.add cam obs).rowObs ⟨obs.time, [⟨cam, (db.archive cam).length, obs.corners⟩]⟩ = [(cam, obs)] := by
      simp [Db.rowObs, hnew]
    refine ⟨hi.delta, harch, hcn, hcm, ?_, ?_, dropped, ?_, ?_, ?_⟩
    · rw [hrows, List.pairwise_append]
      refine ⟨hi.sep, List.pairwise_singleton _ _, ?_⟩
      intro a ha b hb
      rw [List.mem_singleton] at hb
      subst hb
      rw [← hi.delta]; exact hfar a ha
    · rw [hrows]
      intro x hx
      rcases List.mem_append.1 hx with hx | hx
      · exact (hi.rowOk x hx).add cam obs
      · rw [List.mem_singleton] at hx
        subst hx
        refine ⟨by simp, ⟨_, List.mem_singleton.2 rfl, obs, hnew, rfl⟩, ?_⟩
        intro e he
        rw [List.mem_singleton] at he
        subst he
        refine ⟨obs, hnew, rfl, ?_⟩
        simp only [sub_self, abs_zero]
        exact hd
    · rw [hrows, List.flatMap_append, flatMap_rowObs_add cam obs hi.rowOk]
      simp only [List.flatMap_cons, List.flatMap_nil, List.append_nil, hro, List.append_assoc]
      refine List.Perm.trans ?_ (hperm.append_right [(cam, obs)])
      rw [List.append_assoc]
      exact List.Perm.append_left _ List.perm_append_comm
    · rw [hlog]; exact hlen
    · intro x hx
      obtain ⟨r', hr', hd', y, hy, hy2⟩ := hdrop x hx
      rw [hrows]
      exact ⟨r', by simp [hr'], hd', y, by rw [(hi.rowOk r' hr').rowObs]; exact hy, hy2⟩

end Kalibr.App
