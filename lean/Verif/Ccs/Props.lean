import Verif.Ccs.Model
import Verif.Tactics

/-!
# C191: the file of a sparse matrix
-/

namespace Kalibr.Ccs

/-- The sum of the values of the entries at a place. -/
noncomputable def at' (l : List Entry) (r c : ℕ) : ℝ := ((l.filter fun e => e.r == r && e.c == c).map Entry.x).sum

theorem at'_append (a b : List Entry) (r c : ℕ) : at' (a ++ b) r c = at' a r c + at' b r c := by
  simp [at']

theorem at'_perm {a b : List Entry} (h : a.Perm b) (r c : ℕ) : at' a r c = at' b r c :=
  ((h.filter _).map _).sum_eq

theorem at'_flatMap {α : Type} (l : List α) (f : α → List Entry) (r c : ℕ) :
    at' (l.flatMap f) r c = (l.map fun a => at' (f a) r c).sum := by
  induction l with
  | nil => simp [at']
  | cons a l ih => simp [List.flatMap_cons, at'_append, ih]

theorem file_element (name : List Char) (rows cols : ℕ) (out : List Entry) (r c : ℕ) :
    (print name rows cols out).element r c = at' out r c := by
  simp only [File.element, print, at', List.filter_map, List.map_map]
  have : ((fun l : ℕ × ℕ × ℝ => l.1 == r + 1 && l.2.1 == c + 1) ∘ fun e : Entry => (e.r + 1, e.c + 1, e.x)) =
      fun e => e.r == r && e.c == c := by
    funext e
    simp only [Function.comp]
    rw [Bool.eq_iff_iff]
    simp
  rw [this]
  rfl

theorem at'_single (e : Entry) (r c : ℕ) : at' [e] r c = if c = e.c ∧ e.r = r then e.x else 0 := by
  by_cases h : c = e.c ∧ e.r = r
  · simp [at', h.1, h.2]
  · rw [if_neg h]
    have : (e.r == r && e.c == c) = false := by
      simp only [Bool.and_eq_false_iff, beq_eq_false_iff_ne, ne_eq]
      omega
    simp [at', this]

theorem at'_push (sym : Bool) (Ai : ℕ → ℕ) (Ax : ℕ → ℝ) (i j r c : ℕ) :
    at' (push sym Ai Ax i j) r c = (if c = i ∧ Ai j = r then Ax j else 0) +
      (if sym = true ∧ r ≠ c ∧ r = i ∧ Ai j = c then Ax j else 0) := by
  unfold push
  by_cases hd : (sym && Ai j != i) = true
  · rw [if_pos hd]
    simp only [Bool.and_eq_true, bne_iff_ne, ne_eq] at hd
    rw [show ([⟨Ai j, i, Ax j⟩, ⟨i, Ai j, Ax j⟩] : List Entry) = [⟨Ai j, i, Ax j⟩] ++ [⟨i, Ai j, Ax j⟩] from rfl, at'_append,
      at'_single, at'_single]
    congr 1
    refine if_congr ?_ rfl rfl
    simp only [hd.1, true_and, ne_eq]
    omega
  · rw [if_neg hd, at'_single]
    simp only [Bool.and_eq_true, bne_iff_ne, ne_eq, not_and, not_not] at hd
    have : ¬ (sym = true ∧ r ≠ c ∧ r = i ∧ Ai j = c) := by
      rintro ⟨h, h1, h2, h3⟩
      have := hd h
      omega
    rw [if_neg this, add_zero]

theorem sum_ite (l : List ℕ) (p : ℕ → Prop) [DecidablePred p] (g : ℕ → ℝ) :
    (l.map fun j => if p j then g j else 0).sum = ((l.filter fun j => decide (p j)).map g).sum := by
  induction l with
  | nil => rfl
  | cons a l ih => by_cases h : p a <;> simp [h, ih]

theorem sum_range_single (n c : ℕ) (g : ℕ → ℝ) :
    ((List.range n).map fun i => if c = i then g i else 0).sum = if c < n then g c else 0 := by
  induction n with
  | zero => simp
  | succ n ih =>
    rw [List.range_succ, List.map_append, List.sum_append, ih]
    by_cases h : c = n
    · subst h
      simp
    · by_cases h2 : c < n
      · simp [h, h2, Nat.lt_succ_of_lt h2]
      · simp [h, h2, show ¬ c < n + 1 by omega]

theorem sum_add' (l : List ℕ) (f g : ℕ → ℝ) : (l.map fun j => f j + g j).sum = (l.map f).sum + (l.map g).sum := by
  induction l with
  | nil => simp
  | cons a l ih => simp only [List.map_cons, List.sum_cons, ih]; ring

theorem at'_entries (cols : ℕ) (Ap Ai : ℕ → ℕ) (Ax : ℕ → ℝ) (sym : Bool) (r c : ℕ) :
    at' (entries cols Ap Ai Ax sym) r c = element cols Ap Ai Ax r c +
      if sym = true ∧ r ≠ c then element cols Ap Ai Ax c r else 0 := by
  have key (i : ℕ) : at' ((List.range' (Ap i) (Ap (i + 1) - Ap i)).flatMap fun j => push sym Ai Ax i j) r c =
      (if c = i then (((List.range' (Ap i) (Ap (i + 1) - Ap i)).filter fun j => Ai j == r).map Ax).sum else 0) +
      (if r = i then (if sym = true ∧ r ≠ c then
        (((List.range' (Ap i) (Ap (i + 1) - Ap i)).filter fun j => Ai j == c).map Ax).sum else 0) else 0) := by
    rw [at'_flatMap]
    simp only [at'_push]
    rw [sum_add']
    congr 1
    · by_cases h : c = i
      · simp only [h, true_and, if_true]
        rw [sum_ite]
        simp [BEq.beq]
      · simp [h]
    · by_cases h : r = i
      · by_cases h2 : sym = true ∧ r ≠ c
        · rw [if_pos h, if_pos h2]
          simp only [h2.1, h2.2, h, true_and, ne_eq]
          rw [← h]
          simp only [h2.2, not_false_eq_true, true_and, ne_eq]
          rw [sum_ite]
          simp [BEq.beq]
        · rw [if_pos h, if_neg h2]
          have (j : ℕ) : ¬ (sym = true ∧ r ≠ c ∧ r = i ∧ Ai j = c) := fun k => h2 ⟨k.1, k.2.1⟩
          simp only [this, if_false]
          simp
      · simp [h]
  unfold entries
  rw [at'_flatMap]
  simp only [key]
  rw [sum_add', sum_range_single, sum_range_single]
  congr 1
  by_cases h2 : sym = true ∧ r ≠ c
  · simp only [if_pos h2, element]
  · simp only [if_neg h2, ite_self]

/-- A reader of the file sees the matrix: the one the compressed columns stand for, or, if only the upper half is stored and
the symmetric matrix was asked for, that half and its mirror image.  The header has the size of the matrix and the number of the
lines.  There always is such a file. -/
theorem C191_read (name : List Char) (rows cols : ℕ) (Ap Ai : ℕ → ℕ) (Ax : ℕ → ℝ) (sym : Bool) :
    (∃ f, Writes name rows cols Ap Ai Ax sym f) ∧
    ∀ f, Writes name rows cols Ap Ai Ax sym f →
      f.rows = rows ∧ f.columns = cols ∧ f.nnz = f.lines.length ∧
      (sym = false → ∀ r c, f.element r c = element cols Ap Ai Ax r c) ∧
      (sym = true → Upper cols Ap Ai → ∀ r c,
        f.element r c = if r ≤ c then element cols Ap Ai Ax r c else element cols Ap Ai Ax c r) := by
  constructor
  · refine ⟨_, (entries cols Ap Ai Ax sym).mergeSort fun a b => !less b a, ⟨List.mergeSort_perm _ _, ?_⟩, rfl⟩
    have := List.pairwise_mergeSort (le := fun a b : Entry => !less b a) (l := entries cols Ap Ai Ax sym)
      (by
        intro a b c h1 h2
        simp only [less, Bool.not_eq_true', Bool.or_eq_false_iff, decide_eq_false_iff_not, Bool.and_eq_false_iff,
          beq_eq_false_iff_ne, ne_eq] at h1 h2 ⊢
        omega)
      (by
        intro a b
        simp only [less, Bool.or_eq_true, Bool.not_eq_true', Bool.or_eq_false_iff, decide_eq_false_iff_not,
          Bool.and_eq_false_iff, beq_eq_false_iff_ne, ne_eq]
        omega)
    exact this.imp fun h => by simpa using h
  · rintro f ⟨out, ⟨hp, -⟩, rfl⟩
    refine ⟨rfl, rfl, by simp [print], fun hs r c => ?_, fun hs hu r c => ?_⟩
    · rw [file_element, at'_perm hp, at'_entries, hs]
      simp
    · rw [file_element, at'_perm hp, at'_entries, hs]
      have zero (r c : ℕ) (h : c < r) : element cols Ap Ai Ax r c = 0 := by
        unfold element
        split_ifs with hc
        · have : (List.range' (Ap c) (Ap (c + 1) - Ap c)).filter (fun j => Ai j == r) = [] := by
            rw [List.filter_eq_nil_iff]
            intro j hj
            rw [List.mem_range'_1] at hj
            have := hu c hc j hj.1 (by omega)
            simp only [beq_iff_eq]
            omega
          simp [this]
        · rfl
      by_cases h : r ≤ c
      · rw [if_pos h]
        by_cases he : r = c
        · simp [he]
        · rw [if_pos ⟨rfl, he⟩, zero c r (by omega), add_zero]
      · rw [if_neg h, if_pos ⟨rfl, by omega⟩, zero r c (by omega), zero_add]

theorem keys_nodup (cols : ℕ) (Ap Ai : ℕ → ℕ) (Ax : ℕ → ℝ) (sym : Bool) (ho : Once cols Ap Ai)
    (hu : sym = true → Upper cols Ap Ai) :
    (entries cols Ap Ai Ax sym).Pairwise fun a b => ¬ (a.r = b.r ∧ a.c = b.c) := by
  have mem (i j : ℕ) (e : Entry) (he : e ∈ push sym Ai Ax i j) :
      (e.r = Ai j ∧ e.c = i) ∨ (sym = true ∧ Ai j ≠ i ∧ e.r = i ∧ e.c = Ai j) := by
    unfold push at he
    rw [List.mem_cons] at he
    rcases he with he | he
    · left
      simp [he]
    · right
      by_cases h : (sym && Ai j != i) = true
      · rw [if_pos h, List.mem_singleton] at he
        simp only [Bool.and_eq_true, bne_iff_ne, ne_eq] at h
        simp [he, h]
      · rw [if_neg h] at he
        cases he
  unfold entries
  rw [List.pairwise_flatMap]
  constructor
  · intro i hi
    rw [List.mem_range] at hi
    rw [List.pairwise_flatMap]
    constructor
    · intro j hj
      unfold push
      by_cases h : (sym && Ai j != i) = true
      · rw [if_pos h]
        simp only [Bool.and_eq_true, bne_iff_ne, ne_eq] at h
        simp
        intro h1
        exact absurd h1 h.2
      · rw [if_neg h]
        simp
    · have hn : (List.range' (Ap i) (Ap (i + 1) - Ap i)).Pairwise (· ≠ ·) := List.nodup_range'
      refine hn.imp_of_mem ?_
      intro j j' hj hj' hne a ha b hb
      rw [List.mem_range'_1] at hj hj'
      have hA : Ai j ≠ Ai j' := fun h => hne (ho i hi j j' hj.1 (by omega) hj'.1 (by omega) h)
      rcases mem i j a ha with h | h <;> rcases mem i j' b hb with k | k <;> omega
  · have hn : (List.range cols).Pairwise (· ≠ ·) := List.nodup_range
    refine hn.imp_of_mem ?_
    intro i i' hi hi' hne a ha b hb
    rw [List.mem_range] at hi hi'
    rw [List.mem_flatMap] at ha hb
    obtain ⟨j, hj, ha⟩ := ha
    obtain ⟨j', hj', hb⟩ := hb
    rw [List.mem_range'_1] at hj hj'
    rcases mem i j a ha with h | h <;> rcases mem i' j' b hb with k | k
    · omega
    · have := hu k.1 i' hi' j' hj'.1 (by omega)
      have := hu k.1 i hi j hj.1 (by omega)
      omega
    · have := hu h.1 i' hi' j' hj'.1 (by omega)
      have := hu h.1 i hi j hj.1 (by omega)
      omega
    · omega

/-- If every place is stored once, it is on one line, and the lines are in the order of the columns and, in a column, of the
rows.  The file is then determined. -/
theorem C191_order (name : List Char) (rows cols : ℕ) (Ap Ai : ℕ → ℕ) (Ax : ℕ → ℝ) (sym : Bool) (ho : Once cols Ap Ai)
    (hu : sym = true → Upper cols Ap Ai) (f : File) (hf : Writes name rows cols Ap Ai Ax sym f) :
    f.lines.Pairwise fun a b => a.2.1 < b.2.1 ∨ (a.2.1 = b.2.1 ∧ a.1 < b.1) := by
  obtain ⟨out, ⟨hp, hs⟩, rfl⟩ := hf
  have hk := (hp.pairwise_iff (fun {a b} h k => h ⟨k.1.symm, k.2.symm⟩)).2 (keys_nodup cols Ap Ai Ax sym ho hu)
  simp only [print, List.pairwise_map]
  refine (hs.and hk).imp ?_
  rintro a b ⟨h1, h2⟩
  simp only [less, Bool.or_eq_false_iff, decide_eq_false_iff_not, Bool.and_eq_false_iff, beq_eq_false_iff_ne, ne_eq] at h1
  omega

/-- The name in the header is the one of the file up to its last dot; without a dot it is the whole name.  A dot in the name of
a directory counts as well. -/
theorem C191_name (rows cols : ℕ) (Ap Ai : ℕ → ℕ) (Ax : ℕ → ℝ) (sym : Bool) (name ext : List Char) (h : '.' ∉ ext) :
    (∀ f, Writes (name ++ '.' :: ext) rows cols Ap Ai Ax sym f → f.name = name) ∧
    (∀ f, Writes ext rows cols Ap Ai Ax sym f → f.name = ext) := by
  have hd : ∀ l : List Char, '.' ∉ l → ∀ r, (l ++ r).dropWhile (· != '.') = r.dropWhile (· != '.') := by
    intro l hl r
    induction l with
    | nil => rfl
    | cons a l ih =>
      rw [List.mem_cons, not_or] at hl
      rw [List.cons_append, List.dropWhile_cons_of_pos (by simpa using Ne.symm hl.1), ih hl.2]
  constructor
  · rintro f ⟨out, -, rfl⟩
    simp only [print, baseName]
    rw [List.reverse_append, List.reverse_cons, List.append_assoc, hd _ (by simpa using h)]
    simp
  · rintro f ⟨out, -, rfl⟩
    simp only [print, baseName]
    have := hd ext.reverse (by simpa using h) []
    rw [List.append_nil] at this
    rw [this]
    rfl

/-- Two columns with three values of the upper half. -/
example : ∃ Ap Ai : ℕ → ℕ, Once 2 Ap Ai ∧ Upper 2 Ap Ai ∧ Ap 2 - Ap 0 = 3 := by
  refine ⟨fun i => if i = 0 then 0 else if i = 1 then 1 else 3, fun j => if j = 2 then 1 else 0, ?_, ?_, rfl⟩
  · intro i hi j j' h1 h2 h3 h4 h
    obtain rfl | rfl : i = 0 ∨ i = 1 := by omega
    all_goals
      simp at h1 h2 h3 h4 h
      split_ifs at h <;> omega
  · intro i hi j h1 h2
    obtain rfl | rfl : i = 0 ∨ i = 1 := by omega
    all_goals
      simp at h1 h2 ⊢
      first | omega | (split_ifs <;> omega)

end Kalibr.Ccs
