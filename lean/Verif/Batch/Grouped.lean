import Verif.Batch.Model
import Verif.Permute.Props

/-!
# Variables stored in groups

Facts shared by the batch problem and the merged problem: both keep a map from group to vector of
variables and a vector of groups.
-/

namespace Kalibr.Batch

/-- The grouped storage holds exactly the variables that have a group. -/
structure Grouped (groupOf : Nat → Option Nat) (groups : FMap Nat (List Nat)) (order : List Nat) :
    Prop where
  wf : groups.WF
  nodup : order.Nodup
  mem_order : ∀ g, g ∈ order ↔ ∃ l, groups.find g = some l
  nonempty : ∀ g l, groups.find g = some l → l ≠ []
  grpNodup : ∀ g l, groups.find g = some l → l.Nodup
  mem_grp : ∀ g l, groups.find g = some l → ∀ dv, dv ∈ l ↔ groupOf dv = some g
  has_grp : ∀ dv g, groupOf dv = some g → ∃ l, groups.find g = some l

/-- All variables, in the order flat indices address them. -/
def flat (groups : FMap Nat (List Nat)) (order : List Nat) : List Nat :=
  order.flatMap fun g => (groups.find g).getD []

theorem mem_flat {groupOf groups order} (h : Grouped groupOf groups order) (dv : Nat) :
    dv ∈ flat groups order ↔ ∃ g, groupOf dv = some g := by
  unfold flat
  rw [List.mem_flatMap]
  constructor
  · rintro ⟨g, hg, hdv⟩
    obtain ⟨l, hl⟩ := (h.mem_order g).1 hg
    rw [hl] at hdv
    exact ⟨g, (h.mem_grp g l hl dv).1 hdv⟩
  · rintro ⟨g, hg⟩
    obtain ⟨l, hl⟩ := h.has_grp dv g hg
    refine ⟨g, (h.mem_order g).2 ⟨l, hl⟩, ?_⟩
    rw [hl]
    exact (h.mem_grp g l hl dv).2 hg

theorem flat_nodup {groupOf groups order} (h : Grouped groupOf groups order) :
    (flat groups order).Nodup := by
  unfold flat
  rw [List.nodup_flatMap]
  constructor
  · intro g hg
    obtain ⟨l, hl⟩ := (h.mem_order g).1 hg
    rw [hl]
    exact h.grpNodup g l hl
  · refine List.Pairwise.imp_of_mem ?_ h.nodup
    intro g g' hg hg' hne
    obtain ⟨l, hl⟩ := (h.mem_order g).1 hg
    obtain ⟨l', hl'⟩ := (h.mem_order g').1 hg'
    simp only [Function.onFun]
    rw [hl, hl']
    intro dv h1 h2
    have e1 := (h.mem_grp g l hl dv).1 h1
    have e2 := (h.mem_grp g' l' hl' dv).1 h2
    rw [e1] at e2
    cases e2
    exact hne rfl

theorem locate_ok {groups : FMap Nat (List Nat)} {idx : Nat} {order : List Nat} {run : Nat}
    (hkeys : ∀ g ∈ order, ∃ l, groups.find g = some l) (hr : run ≤ idx)
    (hi : idx - run < (flat groups order).length) :
    ∃ g l i, locate groups idx order run = .ok (g, i) ∧ g ∈ order ∧ groups.find g = some l ∧
      i < l.length ∧ l[i]? = (flat groups order)[idx - run]? := by
  induction order generalizing run with
  | nil => simp [flat] at hi
  | cons g gs ih =>
    obtain ⟨l, hl⟩ := hkeys g (by simp)
    have hflat : flat groups (g :: gs) = l ++ flat groups gs := by simp [flat, hl]
    simp only [locate, hl]
    by_cases hlt : idx < run + l.length
    · rw [if_pos hlt]
      refine ⟨g, l, idx - run, rfl, by simp, hl, by omega, ?_⟩
      rw [hflat, List.getElem?_append_left (by omega)]
    · rw [if_neg hlt]
      rw [hflat, List.length_append] at hi
      obtain ⟨g', l', i, h1, h2, h3, h4, h5⟩ := ih (run := run + l.length)
        (fun g' hg' => hkeys g' (by simp [hg'])) (by omega) (by omega)
      refine ⟨g', l', i, h1, by simp [h2], h3, h4, ?_⟩
      rw [h5, hflat, List.getElem?_append_right (by omega)]
      congr 1; omega

theorem checkOrdering_iff (groups : FMap Nat (List Nat)) (seen l : List Nat) :
    checkOrdering groups seen l = true ↔
      (∀ g ∈ l, ∃ v, groups.find g = some v) ∧ l.Nodup ∧ ∀ g ∈ l, g ∉ seen := by
  induction l generalizing seen with
  | nil => simp [checkOrdering]
  | cons g gs ih =>
    simp only [checkOrdering]
    cases hf : groups.find g with
    | none =>
      simp only [Option.isSome_none, Bool.not_false, if_true]
      constructor
      · intro h; cases h
      · rintro ⟨h, _⟩
        obtain ⟨v, hv⟩ := h g (by simp)
        rw [hf] at hv; cases hv
    | some v =>
      simp only [Option.isSome_some, Bool.not_true, Bool.false_eq_true, if_false]
      by_cases hm : g ∈ seen
      · rw [if_pos hm]
        constructor
        · intro h; cases h
        · rintro ⟨_, _, h⟩
          exact absurd hm (h g (by simp))
      · rw [if_neg hm, ih]
        constructor
        · rintro ⟨h1, h2, h3⟩
          refine ⟨?_, ?_, ?_⟩
          · intro x hx
            rcases List.mem_cons.1 hx with rfl | hx
            · exact ⟨v, hf⟩
            · exact h1 x hx
          · rw [List.nodup_cons]
            exact ⟨fun hg => (h3 g hg) (by simp), h2⟩
          · intro x hx
            rcases List.mem_cons.1 hx with rfl | hx
            · exact hm
            · exact fun hs => h3 x hx (by simp [hs])
        · rintro ⟨h1, h2, h3⟩
          rw [List.nodup_cons] at h2
          refine ⟨fun x hx => h1 x (by simp [hx]), h2.2, ?_⟩
          intro x hx hs
          rcases List.mem_cons.1 hs with rfl | hs
          · exact h2.1 hx
          · exact h3 x (by simp [hx]) hs

/-- The checks of `setGroupsOrdering` accept exactly the permutations of the current ordering. -/
theorem ordering_accepts {groupOf groups order} (h : Grouped groupOf groups order) (l : List Nat) :
    (l.length = order.length ∧ checkOrdering groups [] l = true) ↔ l.Perm order := by
  rw [checkOrdering_iff]
  constructor
  · rintro ⟨h1, h2, h3, _⟩
    have hsub : l ⊆ order := fun g hg => (h.mem_order g).2 (h2 g hg)
    exact (List.subperm_of_subset h3 hsub).perm_of_length_le (by omega)
  · intro hp
    refine ⟨hp.length_eq, ?_, hp.nodup_iff.2 h.nodup, by simp⟩
    intro g hg
    exact (h.mem_order g).1 (hp.mem_iff.1 hg)

theorem Grouped.reorder {groupOf groups order} (h : Grouped groupOf groups order) {l : List Nat}
    (hp : l.Perm order) : Grouped groupOf groups l :=
  ⟨h.wf, hp.nodup_iff.2 h.nodup, fun g => hp.mem_iff.trans (h.mem_order g), h.nonempty, h.grpNodup,
    h.mem_grp, h.has_grp⟩

/-- Replacing a group's vector by a rearrangement keeps the storage consistent. -/
theorem Grouped.permuteGroup {groupOf groups order} (h : Grouped groupOf groups order) {g : Nat}
    {l l' : List Nat} (hg : groups.find g = some l) (hp : l'.Perm l) :
    Grouped groupOf (groups.set g l') order := by
  refine ⟨FMap.wf_set h.wf g l', h.nodup, ?_, ?_, ?_, ?_, ?_⟩
  · intro x
    rw [h.mem_order, FMap.find_set]
    split
    · rename_i hx; subst hx; simp [hg]
    · rfl
  · intro x m hm
    rw [FMap.find_set] at hm
    split at hm
    · cases hm
      intro hc
      rw [hc] at hp
      exact h.nonempty g l hg (hp.symm.eq_nil)
    · exact h.nonempty x m hm
  · intro x m hm
    rw [FMap.find_set] at hm
    split at hm
    · cases hm; exact hp.nodup_iff.2 (h.grpNodup g l hg)
    · exact h.grpNodup x m hm
  · intro x m hm dv
    rw [FMap.find_set] at hm
    split at hm
    · rename_i hx; cases hm; subst hx
      rw [hp.mem_iff]
      exact h.mem_grp x l hg dv
    · exact h.mem_grp x m hm dv
  · intro dv x hx
    rw [FMap.find_set]
    split
    · exact ⟨_, rfl⟩
    · exact h.has_grp dv x hx

/-- Adding a new variable to a group. -/
theorem Grouped.add {groupOf groups order} (h : Grouped groupOf groups order) {dv g : Nat}
    (hnew : groupOf dv = none) :
    Grouped (fun d => if d = dv then some g else groupOf d)
      (groups.set g ((groups.find g).getD [] ++ [dv]))
      (if !(groups.find g).isSome then order ++ [g] else order) := by
  have hnot : ∀ l, groups.find g = some l → dv ∉ l := by
    intro l hl hm
    have := (h.mem_grp g l hl dv).1 hm
    rw [hnew] at this; cases this
  refine ⟨FMap.wf_set h.wf _ _, ?_, ?_, ?_, ?_, ?_, ?_⟩
  · split
    · rename_i hn
      rw [List.nodup_append]
      refine ⟨h.nodup, by simp, ?_⟩
      intro a ha b hb
      simp at hb; subst hb
      rintro rfl
      obtain ⟨l, hl⟩ := (h.mem_order a).1 ha
      simp [hl] at hn
    · exact h.nodup
  · intro x
    rw [FMap.find_set]
    have hmo := h.mem_order x
    by_cases hx : x = g
    · subst hx
      rw [if_pos rfl]
      split
      · simp
      · rename_i hn
        rw [hmo]
        cases hf : groups.find x with
        | none => simp [hf] at hn
        | some l => simp
    · rw [if_neg hx]
      split
      · simp [hx, hmo]
      · exact hmo
  · intro x m hm
    rw [FMap.find_set] at hm
    split at hm
    · cases hm; simp
    · exact h.nonempty x m hm
  · intro x m hm
    rw [FMap.find_set] at hm
    split at hm
    · cases hm
      rw [List.nodup_append]
      cases hf : groups.find g with
      | none => simp
      | some l =>
        refine ⟨h.grpNodup g l hf, by simp, ?_⟩
        intro a ha b hb
        simp at hb; subst hb
        rintro rfl
        exact hnot l hf ha
    · exact h.grpNodup x m hm
  · intro x m hm d
    rw [FMap.find_set] at hm
    by_cases hx : x = g
    · subst hx
      rw [if_pos rfl] at hm
      cases hm
      simp only [List.mem_append, List.mem_singleton]
      by_cases hd : d = dv
      · simp [hd]
      · rw [if_neg hd]
        simp only [hd, or_false]
        cases hf : groups.find x with
        | none =>
          simp only [Option.getD_none, List.not_mem_nil, false_iff]
          intro hc
          obtain ⟨l, hl⟩ := h.has_grp d x hc
          rw [hf] at hl; cases hl
        | some l => exact h.mem_grp x l hf d
    · rw [if_neg hx] at hm
      by_cases hd : d = dv
      · subst hd
        rw [if_pos rfl]
        constructor
        · intro hc
          have := (h.mem_grp x m hm d).1 hc
          rw [hnew] at this; cases this
        · intro hc; cases hc; exact absurd rfl hx
      · rw [if_neg hd]
        exact h.mem_grp x m hm d
  · intro d x hx
    rw [FMap.find_set]
    by_cases hxg : x = g
    · rw [if_pos hxg]; exact ⟨_, rfl⟩
    · rw [if_neg hxg]
      by_cases hd : d = dv
      · rw [if_pos hd] at hx; cases hx; exact absurd rfl hxg
      · rw [if_neg hd] at hx
        exact h.has_grp d x hx

/-- Removing a variable that is not the last of its group. -/
theorem Grouped.removeVar {groupOf groups order} (h : Grouped groupOf groups order) {dv g : Nat}
    {l : List Nat} (hl : groups.find g = some l) (hdv : groupOf dv = some g) (hne : l.erase dv ≠ []) :
    Grouped (fun d => if d = dv then none else groupOf d) (groups.set g (l.erase dv)) order := by
  have hnd := h.grpNodup g l hl
  refine ⟨FMap.wf_set h.wf _ _, h.nodup, ?_, ?_, ?_, ?_, ?_⟩
  · intro x
    rw [h.mem_order, FMap.find_set]
    split
    · rename_i hx; subst hx; simp [hl]
    · rfl
  · intro x m hm
    rw [FMap.find_set] at hm
    split at hm
    · cases hm; exact hne
    · exact h.nonempty x m hm
  · intro x m hm
    rw [FMap.find_set] at hm
    split at hm
    · cases hm; exact hnd.erase dv
    · exact h.grpNodup x m hm
  · intro x m hm d
    rw [FMap.find_set] at hm
    by_cases hx : x = g
    · subst hx
      rw [if_pos rfl] at hm
      cases hm
      rw [hnd.mem_erase_iff, h.mem_grp x l hl d]
      by_cases hd : d = dv
      · simp [hd]
      · simp [hd]
    · rw [if_neg hx] at hm
      rw [h.mem_grp x m hm d]
      by_cases hd : d = dv
      · subst hd
        rw [if_pos rfl, hdv]
        constructor
        · intro hc; cases hc; exact absurd rfl hx
        · intro hc; cases hc
      · rw [if_neg hd]
  · intro d x hx
    by_cases hd : d = dv
    · rw [if_pos hd] at hx; cases hx
    · rw [if_neg hd] at hx
      rw [FMap.find_set]
      split
      · exact ⟨_, rfl⟩
      · exact h.has_grp d x hx

/-- Removing the last variable of a group removes the group. -/
theorem Grouped.removeGroup {groupOf groups order} (h : Grouped groupOf groups order) {dv g : Nat}
    {l : List Nat} (hl : groups.find g = some l) (hdv : groupOf dv = some g) (hne : l.erase dv = []) :
    Grouped (fun d => if d = dv then none else groupOf d) (groups.erase g) (order.erase g) := by
  have hnd := h.grpNodup g l hl
  have honly : ∀ d, groupOf d = some g → d = dv := by
    intro d hd
    by_contra hc
    have : d ∈ l.erase dv := hnd.mem_erase_iff.2 ⟨hc, (h.mem_grp g l hl d).2 hd⟩
    rw [hne] at this
    cases this
  refine ⟨FMap.wf_erase h.wf _, h.nodup.erase g, ?_, ?_, ?_, ?_, ?_⟩
  · intro x
    rw [h.nodup.mem_erase_iff, h.mem_order, FMap.find_erase]
    by_cases hx : x = g
    · simp [hx]
    · simp [hx]
  · intro x m hm
    rw [FMap.find_erase] at hm
    split at hm
    · cases hm
    · exact h.nonempty x m hm
  · intro x m hm
    rw [FMap.find_erase] at hm
    split at hm
    · cases hm
    · exact h.grpNodup x m hm
  · intro x m hm d
    rw [FMap.find_erase] at hm
    by_cases hx : x = g
    · rw [if_pos hx] at hm; cases hm
    · rw [if_neg hx] at hm
      rw [h.mem_grp x m hm d]
      by_cases hd : d = dv
      · subst hd
        rw [if_pos rfl, hdv]
        constructor
        · intro hc; cases hc; exact absurd rfl hx
        · intro hc; cases hc
      · rw [if_neg hd]
  · intro d x hx
    by_cases hd : d = dv
    · rw [if_pos hd] at hx; cases hx
    · rw [if_neg hd] at hx
      rw [FMap.find_erase, if_neg]
      · exact h.has_grp d x hx
      · rintro rfl; exact hd (honly d hx)

theorem Grouped.empty : Grouped (fun _ => none) [] [] := by
  constructor <;> simp [FMap.WF]

theorem Grouped.congr {f f' groups order} (h : Grouped f groups order) (he : ∀ d, f d = f' d) :
    Grouped f' groups order := by
  have : f = f' := funext he
  rwa [← this]

theorem doPermute_perm (p l : List Nat) : (doPermute p l).2.Perm l := by
  unfold doPermute
  split
  · rename_i r hr
    exact Permute.C61_elements_kept _ p l r.2 r.1 hr
  · exact List.Perm.refl _

/-- Flat indices respect the ordering of the groups. -/
theorem flat_monotone {groupOf groups order} (h : Grouped groupOf groups order) {i j d e g g' : Nat}
    (hij : i < j) (hi : (flat groups order)[i]? = some d) (hj : (flat groups order)[j]? = some e)
    (hg : groupOf d = some g) (hg' : groupOf e = some g') : order.idxOf g ≤ order.idxOf g' := by
  have key : ∀ (o : List Nat), (∀ x ∈ o, ∃ l, groups.find x = some l) → o.Nodup →
      ∀ i j : Nat, i < j → (flat groups o)[i]? = some d → (flat groups o)[j]? = some e →
      o.idxOf g ≤ o.idxOf g' := by
    intro o
    induction o with
    | nil => intro _ _ i j _ hi; simp [flat] at hi
    | cons x xs ih =>
      intro hk hnd i j hij hi hj
      rw [List.nodup_cons] at hnd
      obtain ⟨l, hl⟩ := hk x (by simp)
      have hf : flat groups (x :: xs) = l ++ flat groups xs := by simp [flat, hl]
      rw [hf] at hi hj
      by_cases hx : x = g
      · subst hx; simp
      · have hx' : (x == g) = false := by simpa using hx
        rw [List.idxOf_cons, hx', cond_false]
        have hil : l.length ≤ i := by
          by_contra hc
          rw [List.getElem?_append_left (by omega)] at hi
          have := (h.mem_grp x l hl d).1 (List.mem_of_getElem? hi)
          rw [hg] at this; cases this
          exact hx rfl
        rw [List.getElem?_append_right hil] at hi
        rw [List.getElem?_append_right (by omega)] at hj
        by_cases hxg' : x = g'
        · -- impossible: e would belong to the first group but lies behind it
          exfalso
          subst hxg'
          have hmem : e ∈ l := (h.mem_grp x l hl e).2 hg'
          have hmem2 : e ∈ flat groups xs := List.mem_of_getElem? hj
          unfold flat at hmem2
          rw [List.mem_flatMap] at hmem2
          obtain ⟨y, hy, hey⟩ := hmem2
          obtain ⟨l', hl'⟩ := hk y (by simp [hy])
          rw [hl'] at hey
          have := (h.mem_grp y l' hl' e).1 hey
          rw [hg'] at this
          cases this
          exact hnd.1 hy
        · have hxg'' : (x == g') = false := by simpa using hxg'
          rw [List.idxOf_cons, hxg'', cond_false]
          have := ih (fun z hz => hk z (by simp [hz])) hnd.2 (i - l.length) (j - l.length) (by omega) hi hj
          omega
  exact key order (fun x hx => (h.mem_order x).1 hx) h.nodup i j hij hi hj

end Kalibr.Batch
