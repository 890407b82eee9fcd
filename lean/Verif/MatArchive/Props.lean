import Verif.MatArchive.Lemmas
import Verif.MatArchive.Spec

namespace Kalibr.MatArchive

theorem validName_iff (n : Name) : validName n = true ↔ Legal n := by
  have e1 : 'A'.toNat = 65 := rfl
  have e2 : 'Z'.toNat = 90 := rfl
  have e3 : 'a'.toNat = 97 := rfl
  have e4 : 'z'.toNat = 122 := rfl
  have e5 : '0'.toNat = 48 := rfl
  have e6 : '9'.toNat = 57 := rfl
  have e7 : '_'.toNat = 95 := rfl
  have ha : ∀ c, isAlpha c = true ↔ Letter c := by
    intro c; simp [isAlpha, Letter, e1, e2, e3, e4]
  have hd : ∀ c, (isAlnum c || c == 95) = true ↔ Letter c ∨ Digit c ∨ c = '_'.toNat := by
    intro c
    simp [isAlnum, ha, Digit, e5, e6, e7, or_assoc]
  cases n with
  | nil => simp [validName, Legal]
  | cons c cs =>
    simp only [validName]
    by_cases hl : (c :: cs).length > 32
    · rw [if_pos hl]
      simp only [Bool.false_eq_true, false_iff]
      rintro ⟨_, h, _⟩; omega
    · rw [if_neg hl, Bool.and_eq_true, List.all_eq_true, ha]
      simp only [hd]
      constructor
      · rintro ⟨h1, h2⟩
        refine ⟨by simp, by omega, ⟨c, rfl, h1⟩, fun d hd => ?_⟩
        rcases List.mem_cons.1 hd with rfl | hd
        · exact Or.inl h1
        · exact h2 d hd
      · rintro ⟨_, _, ⟨d, h1, h2⟩, h3⟩
        simp only [List.head?_cons, Option.some.injEq] at h1
        subst h1
        exact ⟨h2, fun x hx => h3 x (by simp [hx])⟩

/-- **C09.** Saving an archive and loading the bytes — into an empty or into any other archive, with
any selection of names on either side — gives every selected entry back bit for bit and touches
nothing else.  Entries fit the format's 32-bit size fields (`Fits`). -/
theorem C09_round_trip_partial (n1 n2 : List Name) (a b : Store)
    (hv : a.values.WF) (hs : a.strings.WF)
    (hm : ∀ n m, a.values.find n = some m → Legal n ∧ m.Fits)
    (ht : ∀ n v, a.strings.find n = some v → Legal n ∧ v.length < 2 ^ 32) :
    ∃ file, save n1 a = .ok file ∧ ∃ r, load n2 file b = (.ok (), r) ∧
      ∀ n,
        (if (n1 = [] ∨ n ∈ n1) ∧ (n2 = [] ∨ n ∈ n2)
         then r.values.find n = (a.values.find n).or (b.values.find n) ∧
              r.strings.find n = (a.strings.find n).or (b.strings.find n)
         else r.values.find n = b.values.find n ∧ r.strings.find n = b.strings.find n) := by
  obtain ⟨f1, h1, h2⟩ := load_matrices n1 n2 a.values
    (fun e he => (validName_iff _).2 (hm e.1 e.2 ((FMap.mem_iff_find hv).1 he)).1)
    (fun e he => (hm e.1 e.2 ((FMap.mem_iff_find hv).1 he)).2)
  obtain ⟨f2, h3, h4⟩ := load_strings n1 n2 a.strings
    (fun e he => (validName_iff _).2 (ht e.1 e.2 ((FMap.mem_iff_find hs).1 he)).1)
    (fun e he => (ht e.1 e.2 ((FMap.mem_iff_find hs).1 he)).2)
  have hsel : ∀ (l : List Name) n, selected l n = true ↔ (l = [] ∨ n ∈ l) := by
    intro l n; simp [selected]
  refine ⟨f1 ++ f2, by simp [save, h1, h3], ?_⟩
  obtain ⟨fu, k1, k2⟩ := h2 f2 b (f1 ++ f2).length le_rfl
  refine ⟨_, by unfold load; rw [k2, h4 _ _ k1], fun n => ?_⟩
  rw [addStrs_values, addStrs_strings _ _ hs, addMats_values _ _ hv, addMats_strings]
  by_cases hn : (n1 = [] ∨ n ∈ n1) ∧ (n2 = [] ∨ n ∈ n2)
  · rw [if_pos hn]
    have : (selected n1 n && selected n2 n) = true := by
      rw [Bool.and_eq_true, hsel, hsel]; exact hn
    simp [this]
  · rw [if_neg hn]
    have : ¬ (selected n1 n && selected n2 n) = true := by
      rw [Bool.and_eq_true, hsel, hsel]; exact hn
    simp [this]

/-- Special case: everything saved, loaded into an empty archive. -/
theorem C09_round_trip_empty_partial (a : Store) (hv : a.values.WF) (hs : a.strings.WF)
    (hm : ∀ n m, a.values.find n = some m → Legal n ∧ m.Fits)
    (ht : ∀ n v, a.strings.find n = some v → Legal n ∧ v.length < 2 ^ 32) :
    ∃ file r, save [] a = .ok file ∧ load [] file Store.empty = (.ok (), r) ∧
      (∀ n, getMatrix r n = getMatrix a n) ∧ (∀ n, getString r n = getString a n) := by
  obtain ⟨f, h1, r, h2, h3⟩ := C09_round_trip_partial [] [] a Store.empty hv hs hm ht
  refine ⟨f, r, h1, h2, fun n => ?_, fun n => ?_⟩
  · have := h3 n
    simp [Store.empty] at this
    unfold getMatrix; rw [this.1]
  · have := h3 n
    simp [Store.empty] at this
    unfold getString; rw [this.2]

/-- **C09 is false** for matrices of 4 GiB or more, whose shape still fits the 32-bit fields: the
32-bit byte count wraps to 0, no entries are written, and loading the file is undefined. -/
theorem C09_counterexample (m : Mat) (hr : m.rows = 2 ^ 29) (hc : m.cols = 1) :
    ∃ file, save [] ⟨[([65], m)], []⟩ = .ok file ∧ file.length = 42 ∧
      (load [] file Store.empty).1 = .ub := by
  have e : u32 (u32 (2 ^ 29 * 1) * 8) = 0 := by decide
  have e1 : u32 m.rows = 2 ^ 29 := by rw [hr]; decide
  have e2 : u32 m.cols = 1 := by rw [hc]; decide
  refine ⟨65 :: (List.replicate 31 32 ++ [65]) ++ Archive.leBytes 4 (2 ^ 29) ++ Archive.leBytes 4 1 ++ [66],
    ?_, by decide, by decide +kernel⟩
  have hw : writeName [65] = .ok (List.replicate 31 32 ++ [65]) := by decide
  simp only [save, saveMatrices, saveStrings, writeMatrixBlock, hw, e, e1, e2, List.take_zero, List.append_nil]
  rfl

/-- The hypotheses of C09 hold of an archive with a 2×1 matrix "a" and a string "b_1". -/
example : ∃ a : Store, a.values.WF ∧ a.strings.WF ∧ a.values ≠ [] ∧ a.strings ≠ [] ∧
    (∀ n m, a.values.find n = some m → Legal n ∧ m.Fits) ∧
    (∀ n v, a.strings.find n = some v → Legal n ∧ v.length < 2 ^ 32) := by
  refine ⟨⟨[([97], ⟨2, 1, [4607182418800017408, 5]⟩)], [([98, 95, 49], [104, 105])]⟩, by simp [FMap.WF],
    by simp [FMap.WF], by simp, by simp, ?_, ?_⟩
  · intro n m h
    rw [FMap.find_cons] at h
    split at h
    · rename_i e; cases h; subst e
      exact ⟨(validName_iff _).1 (by decide), by constructor <;> simp⟩
    · simp at h
  · intro n m h
    rw [FMap.find_cons] at h
    split at h
    · rename_i e; cases h; subst e
      exact ⟨(validName_iff _).1 (by decide), by simp⟩
    · simp at h

/-! ### C10 -/

/-- **C10 is false**: after `setString("a", …); clear("a")` the string is still found. -/
theorem C10_counterexample_clear :
    getString (run [.setString [97] [104], .clearName [97]]) [97] = .ok [104] ∧
      last [97] [.setString [97] [104], .clearName [97]] = none := by
  refine ⟨by decide, ?_⟩
  simp [last, effect]

/-- **C10 is false**: after `setString("a", …); setScalar("a", …)` both kinds are found. -/
theorem C10_counterexample_kind :
    getString (run [.setString [97] [104], .setScalar [97] 5]) [97] = .ok [104] ∧
      getScalar (run [.setString [97] [104], .setScalar [97] 5]) [97] = .ok 5 := by
  decide

/-- What the lookups of a name must return for a stored value. -/
def Answers (s : Store) (n : Name) : Option Value → Prop
  | none => getMatrix s n = .raise ∧ getString s n = .raise ∧ getScalar s n = .raise ∧ getVector s n = .raise
  | some (.matrix m) => getMatrix s n = .ok m ∧ getString s n = .raise ∧
      (m.rows = 1 ∧ m.cols = 1 ∧ m.data.length = 1 → ∃ x, m.data = [x] ∧ getScalar s n = .ok x) ∧
      (¬(m.rows = 1 ∧ m.cols = 1) → getScalar s n = .raise) ∧
      (m.cols = 1 ∧ m.data.length = m.rows → getVector s n = .ok m.data) ∧
      (m.cols ≠ 1 → getVector s n = .raise)
  | some (.string v) => getString s n = .ok v ∧ getMatrix s n = .raise ∧ getScalar s n = .raise ∧
      getVector s n = .raise

/-- The two maps agree with a value. -/
def Holds (s : Store) (n : Name) : Option Value → Prop
  | none => s.values.find n = none ∧ s.strings.find n = none
  | some (.matrix m) => s.values.find n = some m ∧ s.strings.find n = none
  | some (.string v) => s.strings.find n = some v ∧ s.values.find n = none

theorem answers_of_holds {s : Store} {n : Name} {v : Option Value} (h : Holds s n v) : Answers s n v := by
  rcases v with _ | ⟨m | v⟩
  · obtain ⟨h1, h2⟩ := h
    simp [Answers, getMatrix, getString, getScalar, getVector, h1, h2]
  · obtain ⟨h1, h2⟩ := h
    refine ⟨by simp [getMatrix, h1], by simp [getString, h2], ?_, ?_, ?_, ?_⟩
    · rintro ⟨a, b, c⟩
      obtain ⟨x, hx⟩ := List.length_eq_one_iff.1 c
      exact ⟨x, hx, by simp [getScalar, h1, a, b, hx]⟩
    · intro hc; simp only [getScalar, h1]; rw [if_neg hc]
    · rintro ⟨a, b⟩; simp [getVector, h1, a, ← b]
    · intro hc; simp [getVector, h1, hc]
  · obtain ⟨h1, h2⟩ := h
    simp [Answers, getMatrix, getString, getScalar, getVector, h1, h2]

theorem holds_step {s : Store} (hi : Inv s) {n : Name} {b : Option Value} (h : Holds s n b) (op : Op)
    (ho : op.LeavesString n → ∀ v, b ≠ some (.string v)) : Holds (step s op).2 n (effect n b op) := by
  cases op with
  | setScalar k x =>
    simp only [step, setScalar, effect]
    by_cases hk : validName k = true
    · have hL := (validName_iff k).1 hk
      rw [if_pos hk]
      by_cases e : k = n
      · subst e
        rw [if_pos ⟨rfl, hL⟩]
        refine ⟨by simp, ?_⟩
        rcases b with _ | ⟨m | v⟩
        · exact h.2
        · exact h.2
        · exact absurd rfl (ho rfl v)
      · rw [if_neg (fun hc => e hc.1)]
        have e' : ¬ n = k := fun h => e h.symm
        rcases b with _ | ⟨m | v⟩ <;> simpa [Holds, e'] using h
    · rw [if_neg hk, if_neg (fun hc => hk ((validName_iff k).2 hc.2))]; exact h
  | setString k x =>
    simp only [step, setString, effect]
    by_cases hk : validName k = true
    · have hL := (validName_iff k).1 hk
      rw [if_pos hk]
      by_cases e : k = n
      · subst e
        rw [if_pos ⟨rfl, hL⟩]
        exact ⟨by simp, by simp [FMap.find_erase]⟩
      · rw [if_neg (fun hc => e hc.1)]
        have e' : ¬ n = k := fun h => e h.symm
        rcases b with _ | ⟨m | v⟩ <;> simpa [Holds, e', FMap.find_erase] using h
    · rw [if_neg hk, if_neg (fun hc => hk ((validName_iff k).2 hc.2))]; exact h
  | setMatrix k m =>
    simp only [step, setMatrix, effect]
    by_cases hk : validName k = true
    · have hL := (validName_iff k).1 hk
      rw [if_pos hk]
      by_cases e : k = n
      · subst e
        rw [if_pos ⟨rfl, hL⟩]
        exact ⟨by simp, by simp [FMap.find_erase]⟩
      · rw [if_neg (fun hc => e hc.1)]
        have e' : ¬ n = k := fun h => e h.symm
        rcases b with _ | ⟨m | v⟩ <;> simpa [Holds, e', FMap.find_erase] using h
    · rw [if_neg hk, if_neg (fun hc => hk ((validName_iff k).2 hc.2))]
      have : s.strings.find k = none := by
        cases hf : s.strings.find k with
        | none => rfl
        | some v => exact absurd (hi.legal k v hf) hk
      simpa only [FMap.erase_of_none this] using h
  | setVector k m =>
    simp only [step, setVector, effect]
    by_cases hc1 : m.cols = 1
    · by_cases hk : validName k = true
      · have hL := (validName_iff k).1 hk
        rw [if_neg (by simpa using hc1), if_pos hk]
        by_cases e : k = n
        · subst e
          rw [if_pos ⟨rfl, hL, hc1⟩]
          refine ⟨by simp, ?_⟩
          rcases b with _ | ⟨m | v⟩
          · exact h.2
          · exact h.2
          · exact absurd rfl (ho rfl v)
        · rw [if_neg (fun hc => e hc.1)]
          have e' : ¬ n = k := fun h => e h.symm
          rcases b with _ | ⟨m | v⟩ <;> simpa [Holds, e'] using h
      · rw [if_neg (by simpa using hc1), if_neg hk, if_neg (fun hc => hk ((validName_iff k).2 hc.2.1))]; exact h
    · rw [if_pos hc1, if_neg (fun hc => hc1 hc.2.2)]; exact h
  | createMatrix k m o =>
    simp only [step, createMatrix, effect]
    by_cases e : k = n
    · subst e
      rcases b with _ | ⟨m' | v⟩
      · simp [Holds] at h ⊢
        simp [h]
      · simp [Holds] at h
        cases o <;> simp [Holds, h]
      · exact absurd rfl (ho rfl v)
    · have e' : ¬ n = k := fun h => e h.symm
      have he : effect n b (.createMatrix k m o) = b := by
        rcases b with _ | ⟨m' | v⟩ <;> simp [effect, e]
      simp only [effect] at he
      rw [he]
      split
      · exact h
      · rcases b with _ | ⟨m | v⟩ <;> simpa [Holds, e'] using h
  | clear => simp [step, clear, effect, Holds]
  | clearName k =>
    simp only [step, clearName, effect]
    by_cases e : k = n
    · subst e
      rw [if_pos rfl]
      refine ⟨by simp [FMap.find_erase], ?_⟩
      rcases b with _ | ⟨m | v⟩
      · exact h.2
      · exact h.2
      · exact absurd rfl (ho rfl v)
    · rw [if_neg e]
      have e' : ¬ n = k := fun h => e h.symm
      rcases b with _ | ⟨m | v⟩ <;> simpa [Holds, e', FMap.find_erase] using h

theorem holds_run (n : Name) (ops : List Op) : ∀ {s : Store} {b : Option Value}, Inv s → Holds s n b →
    ((∀ v, b ≠ some (.string v)) ∧ (∀ op ∈ ops, ¬ op.StoresString n) ∨
      (∀ op ∈ ops, ¬ op.LeavesString n)) →
    Holds (runFrom s ops) n (ops.foldl (effect n) b) := by
  induction ops with
  | nil => intro s b _ h _; exact h
  | cons op ops ih =>
    intro s b hi h hc
    rw [runFrom, List.foldl_cons]
    apply ih (inv_step hi op)
    · apply holds_step hi h
      intro hl
      rcases hc with hc | hc
      · exact hc.1
      · exact absurd hl (hc op (by simp))
    · rcases hc with ⟨h1, h2⟩ | h1
      · left
        refine ⟨?_, fun op ho => h2 op (by simp [ho])⟩
        have := h2 op (by simp)
        intro v
        cases op with
        | createMatrix k m o =>
          have h1 := h1 v
          rcases b with _ | ⟨m' | v'⟩ <;> simp only [effect] <;> split_ifs <;> simp_all
        | _ => simp only [effect] <;> (try split_ifs) <;> simp_all [Op.StoresString]
      · right; exact fun op ho => h1 op (by simp [ho])

/-- **C10 (partial).** After any history of set/create/clear calls, every lookup of a name returns the
most recent value stored under it, with its kind, and raises if there is none — for every name under
which no string was ever stored, or which was never passed to `setScalar`, `setVector`,
`createMatrix` or `clear(name)`.  Missing: names with a string followed by one of those calls (false,
see the counterexamples). -/
theorem C10_last_value_partial (ops : List Op) (n : Name)
    (h : (∀ op ∈ ops, ¬ op.StoresString n) ∨ (∀ op ∈ ops, ¬ op.LeavesString n)) :
    Answers (run ops) n (last n ops) := by
  apply answers_of_holds
  apply holds_run n ops inv_empty
  · exact ⟨rfl, rfl⟩
  · rcases h with h | h
    · exact Or.inl ⟨by simp, h⟩
    · exact Or.inr h

/-- A history mixing both kinds under one name. -/
example : ∃ ops : List Op, (∀ op ∈ ops, ¬ op.LeavesString [97]) ∧
    Answers (run ops) [97] (some (.matrix ⟨1, 1, [7]⟩)) := by
  refine ⟨[.setString [97] [104], .setMatrix [97] ⟨1, 1, [7]⟩], ?_, ?_⟩
  · simp [Op.LeavesString]
  · apply answers_of_holds
    exact ⟨by decide, by decide⟩

/-! ### C11 -/

/-- **C11 (partial).** In every archive reachable from an empty one, `setScalar`, `setString`,
`setMatrix` and `setVector` (of a column) accept a name iff it is legal; a rejected name leaves the
archive unchanged and an accepted one is found afterwards.  Missing: `createMatrix`. -/
theorem C11_names_partial (ops : List Op) (n : Name) :
    (Legal n → ∀ op, (∃ x, op = .setScalar n x) ∨ (∃ v, op = .setString n v) ∨
        (∃ m, op = .setMatrix n m) ∨ (∃ m, m.cols = 1 ∧ op = .setVector n m) →
      (step (run ops) op).1 = .ok () ∧
        ((getMatrix (step (run ops) op).2 n ≠ .raise) ∨ getString (step (run ops) op).2 n ≠ .raise)) ∧
    (¬ Legal n → ∀ op, (∃ x, op = .setScalar n x) ∨ (∃ v, op = .setString n v) ∨
        (∃ m, op = .setMatrix n m) ∨ (∃ m, op = .setVector n m) →
      step (run ops) op = (.raise, run ops)) := by
  have hi := inv_run ops
  revert hi
  generalize run ops = s
  intro hi
  constructor
  · intro hL op ho
    have hv := (validName_iff n).2 hL
    rcases ho with ⟨x, rfl⟩ | ⟨v, rfl⟩ | ⟨m, rfl⟩ | ⟨m, hm, rfl⟩
    · simp [step, setScalar, hv, getMatrix]
    · simp [step, setString, hv, getString]
    · simp [step, setMatrix, hv, getMatrix]
    · simp [step, setVector, hv, getMatrix, hm]
  · intro hL op ho
    have hv : validName n = false := by
      rw [← Bool.not_eq_true, validName_iff]; exact hL
    rcases ho with ⟨x, rfl⟩ | ⟨v, rfl⟩ | ⟨m, rfl⟩ | ⟨m, rfl⟩
    · simp [step, setScalar, hv]
    · simp [step, setString, hv]
    · have : s.strings.find n = none := by
        cases hf : s.strings.find n with
        | none => rfl
        | some v => have := hi.legal n v hf; rw [hv] at this; cases this
      simp [step, setMatrix, hv, FMap.erase_of_none this]
    · simp [step, setVector, hv]

/-- **C11 is false** for `createMatrix`: the empty name is accepted, and from then on the archive can
no longer be saved. -/
theorem C11_counterexample :
    (step Store.empty (.createMatrix [] ⟨1, 1, [0]⟩ false)).1 = .ok () ∧ ¬ Legal [] ∧
      save [] (run [.createMatrix [] ⟨1, 1, [0]⟩ false]) = .raise := by
  refine ⟨by decide, ?_, by decide⟩
  simp [Legal]

/-! ### C12 -/

/-- **C12 (partial).** `sizeStrings` is the number of strings; `sizeMatrices` and `size` are right
exactly when there are as many matrices as strings. -/
theorem C12_sizes_partial (ops : List Op) (ns ms : List Name) (hns : ns.Nodup) (hms : ms.Nodup)
    (h1 : ∀ n, n ∈ ns ↔ getString (run ops) n ≠ .raise)
    (h2 : ∀ n, n ∈ ms ↔ getMatrix (run ops) n ≠ .raise) :
    sizeStrings (run ops) = ns.length ∧
      (sizeMatrices (run ops) = ms.length ↔ ms.length = ns.length) ∧
      (size (run ops) = ms.length + ns.length ↔ ms.length = ns.length) := by
  have hi := inv_run ops
  have e : (run ops).strings.length = ns.length := by
    apply FMap.length_eq_of_mem hi.strings hns
    intro n
    rw [h1]; unfold getString
    cases (run ops).strings.find n <;> simp
  have e2 : (run ops).values.length = ms.length := by
    apply FMap.length_eq_of_mem hi.values hms
    intro n
    rw [h2]; unfold getMatrix
    cases (run ops).values.find n <;> simp
  refine ⟨e, ?_, ?_⟩
  · unfold sizeMatrices; rw [e]; exact eq_comm
  · unfold size sizeMatrices sizeStrings; rw [e]; omega

/-- **C12 is false**: an archive with one matrix reports none. -/
theorem C12_counterexample :
    getScalar (run [.setScalar [97] 5]) [97] = .ok 5 ∧ sizeMatrices (run [.setScalar [97] 5]) = 0 ∧
      size (run [.setScalar [97] 5]) = 0 := by
  decide

/-! ### C64, C65 -/

/-- **C64 is false**: appending to an existing file adds nothing to it. -/
theorem C64_counterexample :
    ∃ file, save [] (run [.setScalar [97] 5]) = .ok file ∧
      getScalar (load [] (append [] (run [.setScalar [98] 6]) file) Store.empty).2 [98] = .raise := by
  refine ⟨_, rfl, by decide +kernel⟩

/-- **C64 (partial).** Appending keeps what the file already holds: loading it gives the same result as
before.  Missing: the appended entries (false). -/
theorem C64_keeps_partial (names n2 : List Name) (a b : Store) (file : List Nat) :
    load n2 (append names a file) b = load n2 file b := rfl

/-- **C65 (partial).** A file whose first block does not start with `A` or `S` is rejected and the
archive is left unchanged. -/
theorem C65_bad_start_partial (names : List Name) (c : Nat) (rest : List Nat) (s : Store)
    (h : c ≠ 'A'.toNat ∧ c ≠ 'S'.toNat) : load names (c :: rest) s = (.raise, s) := by
  have e1 : 'A'.toNat = 65 := rfl
  have e2 : 'S'.toNat = 83 := rfl
  rw [e1, e2] at h
  unfold load
  rw [List.length_cons, loadLoop, if_neg (by simp)]
  unfold readBlock
  rw [readN_one]
  simp [h]

/-- **C65 is false**: a file cut after its first byte is not rejected; reading it is undefined. -/
theorem C65_counterexample : (load [] [65] Store.empty).1 = .ub := by decide

end Kalibr.MatArchive
