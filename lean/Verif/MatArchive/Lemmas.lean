import Verif.MatArchive.Model
import Verif.Archive.Lemmas

namespace Kalibr.MatArchive

open Archive

/-! ### Names -/

theorem validName_length {n : Name} (h : validName n = true) : 1 ≤ n.length ∧ n.length ≤ 32 := by
  cases n with
  | nil => simp [validName] at h
  | cons c cs =>
    simp only [validName] at h
    split at h
    · simp at h
    · constructor
      · simp
      · omega

theorem isAlnum_spec {c : Nat} (h : (isAlnum c || c == 95) = true) : c ≠ 0 ∧ isSpace c = false := by
  simp only [isAlnum, isAlpha, isSpace, Bool.or_eq_true, Bool.and_eq_true, decide_eq_true_eq,
    beq_iff_eq, Bool.or_eq_false_iff, beq_eq_false_iff_ne, Bool.and_eq_false_iff,
    decide_eq_false_iff_not] at h ⊢
  omega

theorem validName_chars {n : Name} (h : validName n = true) : ∀ c ∈ n, c ≠ 0 ∧ isSpace c = false := by
  cases n with
  | nil => simp
  | cons c cs =>
    simp only [validName] at h
    split at h
    · simp at h
    · rw [Bool.and_eq_true, List.all_eq_true] at h
      intro d hd
      rcases List.mem_cons.1 hd with rfl | hd
      · apply isAlnum_spec; simp [isAlnum, h.1]
      · exact isAlnum_spec (h.2 d hd)

theorem takeWhile_all {p : Nat → Bool} {l : List Nat} (h : ∀ x ∈ l, p x = true) : l.takeWhile p = l := by
  induction l with
  | nil => rfl
  | cons a l ih =>
    rw [List.takeWhile_cons, h a (by simp)]
    simp [ih (fun x hx => h x (by simp [hx]))]

theorem dropWhile_none {p : Nat → Bool} {l : List Nat} (h : ∀ x ∈ l, p x = false) : l.dropWhile p = l := by
  cases l with
  | nil => rfl
  | cons a l => rw [List.dropWhile_cons, h a (by simp)]; simp

theorem dropWhile_replicate (k : Nat) (l : List Nat) (h : ∀ x ∈ l, isSpace x = false) :
    (List.replicate k 32 ++ l).dropWhile isSpace = l := by
  induction k with
  | zero => simpa using dropWhile_none h
  | succ k ih =>
    rw [List.replicate_succ, List.cons_append, List.dropWhile_cons]
    simpa [isSpace] using ih

/-- Reading back a padded name. -/
theorem trim_pad {n : Name} (h : validName n = true) (k : Nat) : trim (List.replicate k 32 ++ n) = n := by
  have hc := validName_chars h
  unfold trim
  rw [takeWhile_all, dropWhile_replicate, dropWhile_none, List.reverse_reverse]
  · intro x hx; exact (hc x (List.mem_reverse.1 hx)).2
  · intro x hx; exact (hc x hx).2
  · intro x hx
    rcases List.mem_append.1 hx with h1 | h1
    · rw [List.eq_of_mem_replicate h1]; rfl
    · have := (hc x h1).1
      simpa using this

/-! ### Reading -/

theorem readN_append (a b : List Nat) : readN a.length (a ++ b) = .ok (a, b) := by
  unfold readN
  rw [if_neg (by simp)]
  simp

theorem readN_append' {k : Nat} {a : List Nat} (b : List Nat) (h : a.length = k) :
    readN k (a ++ b) = .ok (a, b) := by
  subst h; exact readN_append a b

theorem readN_one (a : Nat) (b : List Nat) : readN 1 (a :: b) = .ok ([a], b) := by
  simp [readN]

theorem dataBytes_length (d : List Nat) : (dataBytes d).length = d.length * 8 := by
  unfold dataBytes
  induction d with
  | nil => rfl
  | cons a d ih =>
    rw [List.flatMap_cons, List.length_append, ih, leBytes_length, List.length_cons]; ring

theorem entries_dataBytes (d : List Nat) (h : ∀ x ∈ d, x < 2 ^ 64) : entries d.length (dataBytes d) = d := by
  induction d with
  | nil => rfl
  | cons a d ih =>
    have e : dataBytes (a :: d) = leBytes 8 a ++ dataBytes d := rfl
    rw [List.length_cons, entries, e]
    have hl : (leBytes 8 a).length = 8 := leBytes_length 8 a
    rw [List.take_left' hl, List.drop_left' hl, ih (fun x hx => h x (by simp [hx])), ofLE_leBytes]
    have := h a (by simp)
    norm_num at this ⊢
    exact this

/-- A matrix that fits the size fields of the format. -/
structure Mat.Fits (m : Mat) : Prop where
  rows : m.rows < 2 ^ 32
  cols : m.cols < 2 ^ 32
  bytes : m.rows * m.cols * 8 < 2 ^ 32
  data : m.data.length = m.rows * m.cols
  entry : ∀ x ∈ m.data, x < 2 ^ 64

theorem u32_eq {n : Nat} (h : n < 2 ^ 32) : u32 n = n := Nat.mod_eq_of_lt (by norm_num at h; exact h)

theorem ofLE4 {n : Nat} (h : n < 2 ^ 32) : ofLE (leBytes 4 n) = n :=
  ofLE_leBytes 4 n (by norm_num at h ⊢; exact h)

theorem writeName_ok {n : Name} (h : validName n = true) :
    ∃ b, writeName n = .ok b ∧ b.length = 32 ∧ trim b = n := by
  refine ⟨_, if_pos h, ?_, trim_pad h _⟩
  have := validName_length h
  simp; omega

theorem readMatrix_write (m : Mat) (h : m.Fits) (rest : List Nat) :
    readMatrix (leBytes 4 m.rows ++ (leBytes 4 m.cols ++ (dataBytes m.data ++ rest)))
      = .ok (m, rest) := by
  have h1 : m.rows * m.cols < 2 ^ 32 := by have := h.bytes; omega
  unfold readMatrix
  rw [readN_append' _ (leBytes_length 4 _)]
  simp only [Out.ok_bind]
  rw [readN_append' _ (leBytes_length 4 _)]
  simp only [Out.ok_bind]
  rw [ofLE4 h.rows, ofLE4 h.cols, u32_eq h1, readN_append' _ (by rw [dataBytes_length, h.data])]
  simp only [Out.ok_bind]
  rw [if_neg (by norm_num at h1; omega), ← h.data, entries_dataBytes _ h.entry]
  rfl

theorem writeMatrixBlock_ok {n : Name} (hn : validName n = true) {m : Mat} (h : m.Fits) :
    ∃ b, writeMatrixBlock n m = .ok b ∧ b ≠ [] ∧
      ∀ rest, readBlock (b ++ rest) = .ok ((n, .matrix m), rest) := by
  obtain ⟨nm, h1, h2, h3⟩ := writeName_ok hn
  have hb : u32 (u32 m.rows * u32 m.cols) = m.rows * m.cols := by
    rw [u32_eq h.rows, u32_eq h.cols, u32_eq]
    have := h.bytes; omega
  have hd : (dataBytes m.data).take (m.rows * m.cols * 8) = dataBytes m.data := by
    apply List.take_of_length_le
    rw [dataBytes_length, h.data]
  unfold writeMatrixBlock
  rw [h1]
  simp only [Out.ok_bind, Out.pure_eq]
  refine ⟨_, rfl, by simp, fun rest => ?_⟩
  rw [hb, u32_eq h.bytes, u32_eq h.rows, u32_eq h.cols, hd]
  unfold readBlock
  simp only [List.append_assoc, List.cons_append, List.nil_append]
  rw [readN_one]
  simp only [Out.ok_bind]
  rw [if_neg (by simp), if_pos trivial, readN_append' _ h2]
  simp only [Out.ok_bind]
  rw [readMatrix_write m h]
  simp only [Out.ok_bind]
  rw [readN_one]
  simp [h3]

theorem writeStringBlock_ok {n : Name} (hn : validName n = true) {v : List Nat}
    (h : v.length < 2 ^ 32) :
    ∃ b, writeStringBlock n v = .ok b ∧ b ≠ [] ∧
      ∀ rest, readBlock (b ++ rest) = .ok ((n, .string v), rest) := by
  obtain ⟨nm, h1, h2, h3⟩ := writeName_ok hn
  unfold writeStringBlock
  rw [h1]
  simp only [Out.ok_bind, Out.pure_eq]
  refine ⟨_, rfl, by simp, fun rest => ?_⟩
  rw [u32_eq h]
  unfold readBlock
  simp only [List.append_assoc, List.cons_append, List.nil_append, List.take_length]
  rw [readN_one]
  simp only [Out.ok_bind]
  rw [if_pos trivial, readN_append' _ h2]
  simp only [Out.ok_bind]
  unfold readString
  rw [readN_append' _ (leBytes_length 4 _)]
  simp only [Out.ok_bind]
  rw [ofLE4 h, readN_append]
  simp only [Out.ok_bind]
  rw [readN_one]
  simp [h3]

/-! ### Whole files -/

/-- The loop does not depend on spare fuel. -/
theorem loadLoop_nil (names : List Name) (fuel : Nat) (s : Store) : loadLoop names fuel [] s = (.ok (), s) := by
  cases fuel <;> simp [loadLoop]

/-- Stored matrices after loading a list of entries. -/
def addMats (sel : Name → Bool) (s : Store) : List (Name × Mat) → Store
  | [] => s
  | e :: es => addMats sel (if sel e.1 then { s with values := s.values.set e.1 e.2 } else s) es

def addStrs (sel : Name → Bool) (s : Store) : List (Name × List Nat) → Store
  | [] => s
  | e :: es => addStrs sel (if sel e.1 then { s with strings := s.strings.set e.1 e.2 } else s) es

theorem load_strings (n1 n2 : List Name) (es : List (Name × List Nat))
    (hv : ∀ e ∈ es, validName e.1 = true) (hf : ∀ e ∈ es, e.2.length < 2 ^ 32) :
    ∃ b, saveStrings n1 es = .ok b ∧ ∀ s fuel, b.length ≤ fuel →
      loadLoop n2 fuel b s = (.ok (), addStrs (fun n => selected n1 n && selected n2 n) s es) := by
  induction es with
  | nil => exact ⟨[], rfl, fun s fuel _ => loadLoop_nil _ _ _⟩
  | cons e es ih =>
    obtain ⟨b, h1, h2⟩ := ih (fun e he => hv e (by simp [he])) (fun e he => hf e (by simp [he]))
    unfold saveStrings
    cases hs : selected n1 e.1 with
    | false =>
      refine ⟨b, by simpa using h1, fun s fuel hfu => ?_⟩
      rw [h2 s fuel hfu]
      simp [addStrs, hs]
    | true =>
      obtain ⟨c, k1, k2, k3⟩ := writeStringBlock_ok (hv e (by simp)) (hf e (by simp))
      rw [if_pos rfl, k1, h1]
      simp only [Out.ok_bind, Out.pure_eq]
      refine ⟨_, rfl, fun s fuel hfu => ?_⟩
      have hc : 1 ≤ c.length := List.length_pos_iff.2 k2
      rw [List.length_append] at hfu
      obtain ⟨fuel, rfl⟩ : ∃ f, fuel = f + 1 := ⟨fuel - 1, by omega⟩
      rw [loadLoop, if_neg (by simp [k2]), k3]
      have := hv e (by simp)
      simp only
      cases h2s : selected n2 e.1 with
      | false => simp only [Bool.false_eq_true, if_false]; rw [h2 _ _ (by omega)]; simp [addStrs, h2s]
      | true =>
        rw [if_pos rfl, if_pos this, h2 _ _ (by omega)]; simp [addStrs, hs, h2s]

theorem load_matrices (n1 n2 : List Name) (es : List (Name × Mat))
    (hv : ∀ e ∈ es, validName e.1 = true) (hf : ∀ e ∈ es, e.2.Fits) :
    ∃ b, saveMatrices n1 es = .ok b ∧ ∀ rest s fuel, (b ++ rest).length ≤ fuel →
      ∃ fuel', rest.length ≤ fuel' ∧ loadLoop n2 fuel (b ++ rest) s
        = loadLoop n2 fuel' rest (addMats (fun n => selected n1 n && selected n2 n) s es) := by
  induction es with
  | nil => exact ⟨[], rfl, fun rest s fuel hfu => ⟨fuel, by simpa using hfu, rfl⟩⟩
  | cons e es ih =>
    obtain ⟨b, h1, h2⟩ := ih (fun e he => hv e (by simp [he])) (fun e he => hf e (by simp [he]))
    unfold saveMatrices
    cases hs : selected n1 e.1 with
    | false =>
      refine ⟨b, by simpa using h1, fun rest s fuel hfu => ?_⟩
      obtain ⟨f', k1, k2⟩ := h2 rest s fuel hfu
      refine ⟨f', k1, ?_⟩
      rw [k2]
      simp [addMats, hs]
    | true =>
      obtain ⟨c, k1, k2, k3⟩ := writeMatrixBlock_ok (hv e (by simp)) (hf e (by simp))
      rw [if_pos rfl, k1, h1]
      simp only [Out.ok_bind, Out.pure_eq]
      refine ⟨_, rfl, fun rest s fuel hfu => ?_⟩
      have hc : 1 ≤ c.length := List.length_pos_iff.2 k2
      rw [List.append_assoc, List.length_append] at hfu
      obtain ⟨fuel, rfl⟩ : ∃ f, fuel = f + 1 := ⟨fuel - 1, by omega⟩
      have := hv e (by simp)
      rw [List.append_assoc, loadLoop, if_neg (by simp [k2]), k3]
      simp only
      cases h2s : selected n2 e.1 with
      | false =>
        obtain ⟨f', m1, m2⟩ := h2 rest s fuel (by omega)
        refine ⟨f', m1, ?_⟩
        simp only [Bool.false_eq_true, if_false]; rw [m2]; simp [addMats, h2s]
      | true =>
        obtain ⟨f', m1, m2⟩ := h2 rest { s with values := s.values.set e.1 e.2 } fuel (by omega)
        refine ⟨f', m1, ?_⟩
        rw [if_pos rfl, if_pos this, m2]; simp [addMats, hs, h2s]

theorem addMats_strings (sel : Name → Bool) (es : List (Name × Mat)) : ∀ s,
    (addMats sel s es).strings = s.strings := by
  induction es with
  | nil => intro s; rfl
  | cons e es ih => intro s; rw [addMats, ih]; split <;> rfl

theorem addStrs_values (sel : Name → Bool) (es : List (Name × List Nat)) : ∀ s,
    (addStrs sel s es).values = s.values := by
  induction es with
  | nil => intro s; rfl
  | cons e es ih => intro s; rw [addStrs, ih]; split <;> rfl

theorem addMats_values (sel : Name → Bool) (es : FMap Name Mat) (hw : es.WF) : ∀ s n,
    FMap.find (addMats sel s es).values n
      = if sel n then (FMap.find es n).or (FMap.find s.values n) else FMap.find s.values n := by
  induction es with
  | nil => intro s n; simp [addMats]
  | cons e es ih =>
    intro s n
    have hw' : FMap.WF es := by
      unfold FMap.WF at hw ⊢; rw [List.map_cons, List.nodup_cons] at hw; exact hw.2
    have hne : FMap.find es e.1 = none := by
      apply FMap.find_none_of_notMem
      unfold FMap.WF at hw; rw [List.map_cons, List.nodup_cons] at hw; exact hw.1
    rw [addMats, ih hw', FMap.find_cons]
    by_cases hn : e.1 = n
    · subst hn
      cases hs : sel e.1 <;> simp [hne]
    · have hn' : ¬ n = e.1 := fun h => hn h.symm
      cases hs : sel e.1 <;> simp [hn, hn']

theorem addStrs_strings (sel : Name → Bool) (es : FMap Name (List Nat)) (hw : es.WF) : ∀ s n,
    FMap.find (addStrs sel s es).strings n
      = if sel n then (FMap.find es n).or (FMap.find s.strings n) else FMap.find s.strings n := by
  induction es with
  | nil => intro s n; simp [addStrs]
  | cons e es ih =>
    intro s n
    have hw' : FMap.WF es := by
      unfold FMap.WF at hw ⊢; rw [List.map_cons, List.nodup_cons] at hw; exact hw.2
    have hne : FMap.find es e.1 = none := by
      apply FMap.find_none_of_notMem
      unfold FMap.WF at hw; rw [List.map_cons, List.nodup_cons] at hw; exact hw.1
    rw [addStrs, ih hw', FMap.find_cons]
    by_cases hn : e.1 = n
    · subst hn
      cases hs : sel e.1 <;> simp [hne]
    · have hn' : ¬ n = e.1 := fun h => hn h.symm
      cases hs : sel e.1 <;> simp [hn, hn']

/-! ### Histories -/

/-- Both maps have one entry per name and strings have legal names. -/
structure Inv (s : Store) : Prop where
  values : s.values.WF
  strings : s.strings.WF
  legal : ∀ n v, s.strings.find n = some v → validName n = true

theorem inv_step {s : Store} (h : Inv s) (op : Op) : Inv (step s op).2 := by
  obtain ⟨h1, h2, h3⟩ := h
  have herase : ∀ k n v, (s.strings.erase k).find n = some v → validName n = true := by
    intro k n v hv
    rw [FMap.find_erase] at hv
    split at hv
    · cases hv
    · exact h3 n v hv
  cases op with
  | setScalar n x =>
    unfold step setScalar; dsimp only; split
    · exact ⟨FMap.wf_set h1 _ _, h2, h3⟩
    · exact ⟨h1, h2, h3⟩
  | setString n x =>
    unfold step setString; dsimp only; split
    · rename_i hv
      refine ⟨FMap.wf_erase h1 _, FMap.wf_set h2 _ _, fun m v hm => ?_⟩
      rw [FMap.find_set] at hm
      split at hm
      · rename_i e; rw [e]; exact hv
      · exact h3 m v hm
    · exact ⟨h1, h2, h3⟩
  | setMatrix n m =>
    unfold step setMatrix; dsimp only; split
    · exact ⟨FMap.wf_set h1 _ _, FMap.wf_erase h2 _, herase n⟩
    · exact ⟨h1, FMap.wf_erase h2 _, herase n⟩
  | setVector n m =>
    unfold step setVector; dsimp only; split
    · exact ⟨h1, h2, h3⟩
    · split
      · exact ⟨FMap.wf_set h1 _ _, h2, h3⟩
      · exact ⟨h1, h2, h3⟩
  | createMatrix n m o =>
    unfold step createMatrix; dsimp only; split
    · exact ⟨h1, h2, h3⟩
    · exact ⟨FMap.wf_set h1 _ _, h2, h3⟩
  | clear => exact ⟨FMap.wf_nil, FMap.wf_nil, fun n v hv => by simp [step, clear] at hv⟩
  | clearName n => exact ⟨FMap.wf_erase (FMap.wf_erase h1 _) _, h2, h3⟩

theorem inv_runFrom (ops : List Op) : ∀ {s : Store}, Inv s → Inv (runFrom s ops) := by
  induction ops with
  | nil => intro s h; exact h
  | cons op ops ih => intro s h; exact ih (inv_step h op)

theorem inv_empty : Inv Store.empty :=
  ⟨FMap.wf_nil, FMap.wf_nil, fun n v hv => by simp [Store.empty] at hv⟩

theorem inv_run (ops : List Op) : Inv (run ops) := inv_runFrom ops inv_empty

end Kalibr.MatArchive
