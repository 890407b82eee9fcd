import Verif.Problem.Spec
import Mathlib.Data.List.Dedup

/-! # Lemmas about the optimisation problem -/

namespace Kalibr.Problem

open Spec

variable {D E : Type} [DecidableEq D] [DecidableEq E]

set_option linter.unusedSectionVars false

/-- All (variable, term) pairs of a list of terms. -/
def pairs (deps : E → List D) (es : List E) : List (D × E) :=
  es.flatMap fun e => (deps e).map fun d => (d, e)

theorem mem_pairs {deps : E → List D} {es : List E} {d : D} {e : E} :
    (d, e) ∈ pairs deps es ↔ e ∈ es ∧ d ∈ deps e := by
  simp only [pairs, List.mem_flatMap, List.mem_map, Prod.mk.injEq]
  constructor
  · rintro ⟨e', he, d', hd, rfl, rfl⟩; exact ⟨he, hd⟩
  · rintro ⟨he, hd⟩; exact ⟨e, he, d, hd, rfl, rfl⟩

/-- The bookkeeping invariant. -/
structure Inv (deps : E → List D) (s : St D E) : Prop where
  nodup : s.dvs.Nodup
  map : s.map.Perm (pairs deps s.errs)

theorem inv_init (deps : E → List D) : Inv deps (init : St D E) :=
  ⟨by simp [init], by simp [init, pairs]⟩

theorem addPairs_ok (env : Env D E) (e : E) (ds : List D) : ∀ s, (addPairs env e ds s).1 = false →
    (addPairs env e ds s).2 = { s with map := s.map ++ ds.map fun d => (d, e) } := by
  induction ds with
  | nil => intro s _; simp [addPairs]
  | cons d ds ih =>
    intro s h
    rw [addPairs] at h ⊢
    split at h
    · cases h
    · rename_i hc
      rw [if_neg hc, ih _ h]
      simp

theorem addPairs_raised (env : Env D E) (e : E) (ds : List D) : ∀ s,
    (addPairs env e ds s).1 = true ↔ (env.debug = true ∧ ∃ d ∈ ds, d ∉ s.dvs) := by
  induction ds with
  | nil => intro s; simp [addPairs]
  | cons d ds ih =>
    intro s
    rw [addPairs]
    split
    · rename_i hc; simp [hc.1]; exact Or.inl hc.2
    · rename_i hc
      rw [ih]
      constructor
      · rintro ⟨h1, d', h2, h3⟩; exact ⟨h1, d', by simp [h2], h3⟩
      · rintro ⟨h1, d', h2, h3⟩
        rcases List.mem_cons.mp h2 with rfl | h2
        · exact absurd ⟨h1, h3⟩ hc
        · exact ⟨h1, d', h2, h3⟩

theorem foldl_erase_perm (e : E) (ds : List D) : ∀ (m r : List (D × E)),
    m.Perm ((ds.map fun d => (d, e)) ++ r) → (ds.foldl (fun m d => m.erase (d, e)) m).Perm r := by
  induction ds with
  | nil => intro m r h; simpa using h
  | cons d ds ih =>
    intro m r h
    rw [List.foldl_cons]
    apply ih
    have := h.erase (d, e)
    simpa using this

theorem foldl_erase_none (e : E) (ds : List D) : ∀ (m : List (D × E)), (∀ d, (d, e) ∉ m) →
    ds.foldl (fun m d => m.erase (d, e)) m = m := by
  induction ds with
  | nil => intro m _; rfl
  | cons d ds ih =>
    intro m h
    rw [List.foldl_cons, List.erase_of_not_mem (h d)]
    exact ih m h

theorem removeErrorTerm_inv {env : Env D E} {s s' : St D E} {e : E} (hi : Inv env.deps s)
    (h : removeErrorTerm env s e = .ok s') :
    Inv env.deps s' ∧ s'.dvs = s.dvs ∧ s'.errs = s.errs.erase e := by
  unfold removeErrorTerm at h
  split at h
  · simp at h; subst h
    refine ⟨⟨hi.nodup, ?_⟩, rfl, rfl⟩
    simp only
    by_cases he : e ∈ s.errs
    · apply foldl_erase_perm
      refine hi.map.trans ?_
      have := (List.perm_cons_erase he).flatMap_right (fun e => (env.deps e).map fun d => (d, e))
      simpa [pairs] using this
    · rw [foldl_erase_none, List.erase_of_not_mem he]
      · exact hi.map
      · intro d hd
        exact he (mem_pairs.mp (hi.map.mem_iff.mp hd)).1
  · cases h

theorem removeAll_inv {env : Env D E} (es : List E) : ∀ {s s' : St D E}, Inv env.deps s →
    removeAll env es s = .ok s' →
    Inv env.deps s' ∧ s'.dvs = s.dvs ∧ s'.errs = es.foldl (fun l e => l.erase e) s.errs := by
  induction es with
  | nil => intro s s' hi h; simp [removeAll] at h; subst h; exact ⟨hi, rfl, rfl⟩
  | cons e es ih =>
    intro s s' hi h
    rw [removeAll] at h
    obtain ⟨t, h1, h2⟩ := Out.bind_eq_ok.mp h
    obtain ⟨i1, i2, i3⟩ := removeErrorTerm_inv hi h1
    obtain ⟨j1, j2, j3⟩ := ih i1 h2
    exact ⟨j1, j2.trans i2, by rw [j3, i3]; rfl⟩

/-- Erasing a list that contains every element of a kind at least as often as it occurs. -/
theorem foldl_erase_filter (p : E → Bool) : ∀ (ts l : List E), (∀ t ∈ ts, p t = true) →
    (∀ t, p t = true → l.count t ≤ ts.count t) →
    ts.foldl (fun l e => l.erase e) l = l.filter (fun e => !p e) := by
  intro ts
  induction ts with
  | nil =>
    intro l _ h
    symm
    rw [List.foldl_nil, List.filter_eq_self]
    intro x hx
    by_contra hc
    have hp : p x = true := by simpa using hc
    have := h x hp
    simp at this
    exact List.count_eq_zero.mp this hx
  | cons t ts ih =>
    intro l h1 h2
    rw [List.foldl_cons, ih (l.erase t) (fun x hx => h1 x (by simp [hx]))]
    · have hp := h1 t (by simp)
      by_cases hm : t ∈ l
      · obtain ⟨a, b, ha, rfl, he⟩ := List.exists_erase_eq hm
        rw [he]; simp [hp]
      · rw [List.erase_of_not_mem hm]
    · intro x hx
      have := h2 x hx
      rw [List.count_cons] at this
      rw [List.count_erase]
      split at this <;> rename_i hh
      · rw [if_pos hh]; omega
      · rw [if_neg hh]; omega

theorem count_terms {deps : E → List D} (es : List E) (d : D) (t : E) :
    (((pairs deps es).filter (·.1 = d)).map (·.2)).count t = es.count t * (deps t).count d := by
  induction es with
  | nil => simp [pairs]
  | cons e es ih =>
    have hs : pairs deps (e :: es) = ((deps e).map fun d => (d, e)) ++ pairs deps es := by simp [pairs]
    rw [hs, List.filter_append, List.map_append, List.count_append, ih, List.count_cons]
    have h1 : ((((deps e).map fun d => (d, e)).filter (·.1 = d)).map (·.2)).count t =
        if e = t then (deps e).count d else 0 := by
      clear * -
      induction deps e with
      | nil => simp
      | cons a as ih =>
        rw [List.map_cons, List.filter_cons]
        by_cases ha : a = d
        · subst ha
          simp only [decide_true, if_true, List.map_cons, List.count_cons, ih, beq_self_eq_true]
          by_cases he : e = t <;> simp [he]
        · simp only [ha, decide_false, Bool.false_eq_true, if_false, ih, List.count_cons]
          simp [ha]
    rw [h1]
    by_cases he : e = t
    · subst he; simp; ring
    · simp [he]

theorem removeDesignVariable_inv {env : Env D E} {s s' : St D E} {d : D} (hi : Inv env.deps s)
    (h : removeDesignVariable env s d = .ok s') :
    Inv env.deps s' ∧ s'.dvs = s.dvs.filter (· ≠ d) ∧
      s'.errs = s.errs.filter (d ∉ env.deps ·) := by
  unfold removeDesignVariable at h
  obtain ⟨t, h1, h2⟩ := Out.bind_eq_ok.mp h
  simp at h2; subst h2
  obtain ⟨i1, i2, i3⟩ := removeAll_inv _ hi h1
  have hcount : ∀ x, ((s.map.filter (·.1 = d)).map (·.2)).count x = s.errs.count x * (env.deps x).count d := by
    intro x
    rw [← count_terms]
    exact ((hi.map.filter _).map _).count_eq x
  have herr : t.errs = s.errs.filter (d ∉ env.deps ·) := by
    rw [i3, foldl_erase_filter (fun e => decide (d ∈ env.deps e))]
    · simp
    · intro x hx
      have : 0 < ((s.map.filter (·.1 = d)).map (·.2)).count x := List.count_pos_iff.mpr hx
      rw [hcount] at this
      have := Nat.pos_of_mul_pos_left this
      simpa using List.count_pos_iff.mp this
    · intro x hx
      rw [hcount]
      have : 0 < (env.deps x).count d := List.count_pos_iff.mpr (by simpa using hx)
      exact Nat.le_mul_of_pos_right _ this
  refine ⟨⟨?_, i1.map⟩, ?_, herr⟩
  · exact i1.nodup.erase d
  · simp only [i2]
    rw [hi.nodup.erase_eq_filter]
    simp [bne, BEq.beq]

/-- With no repeated variable in a term, removing a variable never looks at a deleted term. -/
theorem removeAll_ok {env : Env D E} (es : List E) : ∀ {s : St D E},
    (∀ e ∈ es, env.held e = true ∨ es.count e ≤ s.errs.count e) → ∃ s', removeAll env es s = .ok s' := by
  induction es with
  | nil => intro s _; exact ⟨s, rfl⟩
  | cons e es ih =>
    intro s h
    rw [removeAll]
    have hc : e ∈ s.errs ∨ env.held e = true := by
      rcases h e (by simp) with h | h
      · exact Or.inr h
      · left
        rw [List.count_cons_self] at h
        exact List.count_pos_iff.mp (by omega)
    unfold removeErrorTerm
    rw [if_pos hc]
    simp only [Out.ok_bind]
    apply ih
    intro x hx
    rcases h x (by simp [hx]) with h | h
    · exact Or.inl h
    · right
      simp only
      rw [List.count_erase]
      rw [List.count_cons] at h
      by_cases hex : e = x
      · subst hex; simp at h ⊢; omega
      · simp [hex] at h ⊢; exact h

end Kalibr.Problem
