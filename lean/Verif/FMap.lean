import Verif.Tactics
import Mathlib.Data.List.Nodup
import Mathlib.Data.List.Perm.Basic

/-!
# Finite maps

`std::unordered_map` (and `std::map` where the order is irrelevant) as association lists with at most
one entry per key.  The order of entries stands for the unspecified iteration order; theorems never
depend on it.
-/

namespace Kalibr

abbrev FMap (K V : Type) := List (K × V)

namespace FMap

variable {K V : Type} [DecidableEq K]

/-- `find` / `at` / `count`. -/
def find (m : FMap K V) (k : K) : Option V := (List.find? (fun e => e.1 == k) m).map (·.2)

/-- `erase(key)`. -/
def erase (m : FMap K V) (k : K) : FMap K V := List.filter (fun e => !(e.1 == k)) m

/-- `m[key] = value`: overwrites, or adds an entry. -/
def set (m : FMap K V) (k : K) (v : V) : FMap K V := erase m k ++ [(k, v)]

/-- At most one entry per key. -/
def WF (m : FMap K V) : Prop := (m.map (·.1)).Nodup

/-- The keys present. -/
def keys (m : FMap K V) : List K := m.map (·.1)

@[simp] theorem find_nil (k : K) : find ([] : FMap K V) k = none := rfl

theorem find_cons (e : K × V) (m : FMap K V) (k : K) :
    find (e :: m) k = if e.1 = k then some e.2 else find m k := by
  unfold find
  rw [List.find?_cons]
  by_cases h : e.1 = k
  · simp [h]
  · have : (e.1 == k) = false := by simpa using h
    simp [this, h]

theorem find_append (m m' : FMap K V) (k : K) :
    find (m ++ m') k = (find m k).or (find m' k) := by
  induction m with
  | nil => simp
  | cons e m ih =>
    rw [List.cons_append, find_cons, find_cons, ih]
    split <;> simp

theorem find_erase (m : FMap K V) (k k' : K) :
    find (erase m k) k' = if k' = k then none else find m k' := by
  induction m with
  | nil => simp [erase]
  | cons e m ih =>
    unfold erase at ih ⊢
    rw [List.filter_cons]
    by_cases h : e.1 = k
    · have : (!(e.1 == k)) = false := by simp [h]
      rw [this]
      simp only [Bool.false_eq_true, if_false]
      rw [ih, find_cons]
      by_cases h2 : k' = k
      · simp [h2]
      · rw [if_neg h2, if_neg h2, if_neg (fun hc => h2 (hc.symm.trans h))]
    · have : (!(e.1 == k)) = true := by simp [h]
      rw [this]
      simp only [if_true]
      rw [find_cons, find_cons, ih]
      by_cases h2 : e.1 = k'
      · rw [if_pos h2, if_neg (fun hc => h (h2.trans hc)), if_pos h2]
      · rw [if_neg h2, if_neg h2]

@[simp] theorem find_set (m : FMap K V) (k k' : K) (v : V) :
    find (set m k v) k' = if k' = k then some v else find m k' := by
  unfold set
  rw [find_append, find_erase, find_cons]
  by_cases h : k' = k
  · simp [h]
  · have : ¬ k = k' := fun hc => h hc.symm
    simp [h, this]

theorem wf_nil : WF ([] : FMap K V) := by simp [WF]

theorem wf_erase {m : FMap K V} (h : WF m) (k : K) : WF (erase m k) := by
  unfold WF erase at *
  exact h.sublist (List.Sublist.map _ List.filter_sublist)

theorem mem_keys_iff {m : FMap K V} {k : K} : k ∈ m.map (·.1) ↔ ∃ v, find m k = some v := by
  induction m with
  | nil => simp
  | cons e m ih =>
    rw [List.map_cons, List.mem_cons, find_cons, ih]
    by_cases h : e.1 = k
    · simp [h]
    · have : ¬ k = e.1 := fun hc => h hc.symm
      simp [h, this]

theorem mem_keys {m : FMap K V} {k : K} : k ∈ keys m ↔ ∃ v, find m k = some v := mem_keys_iff

theorem wf_set {m : FMap K V} (h : WF m) (k : K) (v : V) : WF (set m k v) := by
  have h1 := wf_erase h k
  unfold WF at *
  unfold set
  rw [List.map_append, List.nodup_append]
  refine ⟨h1, by simp, ?_⟩
  intro a ha b hb
  simp at hb
  subst hb
  rintro rfl
  obtain ⟨v', hv⟩ := mem_keys_iff.1 ha
  rw [find_erase] at hv
  simp at hv

theorem mem_iff_find {m : FMap K V} (h : WF m) {k : K} {v : V} : (k, v) ∈ m ↔ find m k = some v := by
  induction m with
  | nil => simp
  | cons e m ih =>
    unfold WF at h ih
    rw [List.map_cons, List.nodup_cons] at h
    rw [List.mem_cons, find_cons, ih h.2]
    by_cases hk : e.1 = k
    · rw [if_pos hk]
      constructor
      · rintro (h1 | h1)
        · rw [← h1]
        · exact absurd (mem_keys_iff.2 ⟨v, hk ▸ h1⟩) h.1
      · intro h1
        left
        cases h1
        rw [← hk]
    · rw [if_neg hk]
      constructor
      · rintro (h1 | h1)
        · rw [← h1] at hk; exact absurd rfl hk
        · exact h1
      · exact Or.inr

theorem keys_nodup {m : FMap K V} (h : WF m) : (keys m).Nodup := h

theorem length_keys (m : FMap K V) : (keys m).length = m.length := by simp [keys]

theorem find_none_of_notMem {m : FMap K V} {k : K} (h : k ∉ keys m) : find m k = none := by
  cases hf : find m k with
  | none => rfl
  | some v => exact absurd (mem_keys.2 ⟨v, hf⟩) h

theorem erase_of_none {m : FMap K V} {k : K} (h : find m k = none) : erase m k = m := by
  unfold erase
  rw [List.filter_eq_self]
  intro e he
  have : ¬ e.1 = k := by
    intro hc
    have : k ∈ keys m := by
      unfold keys
      rw [← hc]
      exact List.mem_map_of_mem he
    obtain ⟨v, hv⟩ := mem_keys.1 this
    rw [h] at hv; cases hv
  simpa using this

theorem set_of_none {m : FMap K V} {k : K} {v : V} (h : find m k = none) : set m k v = m ++ [(k, v)] := by
  unfold set; rw [erase_of_none h]

theorem length_set_new {m : FMap K V} {k : K} {v : V} (h : find m k = none) :
    (set m k v).length = m.length + 1 := by
  rw [set_of_none h]; simp

/-- Two maps with the same contents have equally many entries. -/
theorem length_eq_of_mem {m : FMap K V} {l : List K} (h : WF m) (hl : l.Nodup)
    (he : ∀ k, k ∈ l ↔ ∃ v, find m k = some v) : m.length = l.length := by
  have : (keys m).Perm l := by
    rw [List.perm_ext_iff_of_nodup (keys_nodup h) hl]
    intro k
    rw [mem_keys, he]
  rw [← length_keys, this.length_eq]

end FMap

end Kalibr
