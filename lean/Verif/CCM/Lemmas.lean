import Verif.CCM.Spec

/-!
# Lemmas on compressed column matrices
-/

namespace Kalibr

namespace CCS

set_option linter.unusedSectionVars false

variable {K : Type}

/-- The columns `L` are those of `M`. -/
structure ColsOf [Zero K] (L : List (List (Nat × K))) (M : Mat K) : Prop where
  len : M.cols = L.length
  sorted : ∀ l ∈ L, l.Pairwise fun p q => p.1 < q.1
  inside : ∀ l ∈ L, ∀ p ∈ l, p.1 < M.rows
  value : ∀ (j : Nat) (l : List (Nat × K)), L[j]? = some l → ∀ p ∈ l, p.2 = M.get p.1 j
  rest : ∀ (j : Nat) (l : List (Nat × K)), L[j]? = some l → ∀ i, i < M.rows →
    i ∉ l.map (·.1) → M.get i j = 0

theorem ColsOf.lists [Zero K] {L : List (List (Nat × K))} {M : Mat K} (h : ColsOf L M) :
    (ofCols L).Lists M := by
  refine ⟨by rw [h.len]; exact valid_ofCols L M.rows h.sorted h.inside, ?_, ?_⟩
  · intro j hj p hp
    have hj' : j < L.length := h.len ▸ hj
    rw [column_ofCols L j hj'] at hp
    exact h.value j _ (List.getElem?_eq_getElem hj') p hp
  · intro i j hi hj hnot
    have hj' : j < L.length := h.len ▸ hj
    rw [column_ofCols L j hj'] at hnot
    exact h.rest j _ (List.getElem?_eq_getElem hj') i hi hnot

theorem getD_mono' {cp : List Nat} (h : cp.Pairwise (· ≤ ·)) {a b : Nat} (hab : a ≤ b)
    (hb : b < cp.length) : cp.getD a 0 ≤ cp.getD b 0 := by
  rw [List.getD_eq_getElem?_getD, List.getD_eq_getElem?_getD, List.getElem?_eq_getElem (by omega),
    List.getElem?_eq_getElem hb]
  rcases Nat.lt_or_ge a b with h1 | h1
  · exact List.pairwise_iff_getElem.1 h a b (by omega) hb h1
  · have : a = b := by omega
    subst this; exact le_rfl

/-- Well-formed arrays are those of their columns. -/
theorem Valid.eq_ofCols {s : CCS K} {rows cols : Nat} (h : s.Valid rows cols) :
    s = ofCols ((List.range cols).map s.column) := by
  have hl : (s.ci.zip s.cx).length = s.ci.length := by
    rw [List.length_zip, h.cx_length, Nat.min_self]
  have hle : ∀ j, j ≤ cols → s.cp.getD j 0 ≤ s.ci.length := fun j hj => by
    rw [← h.cp_last]; exact getD_mono' h.cp_mono hj (by rw [h.cp_length]; omega)
  have hcol : ∀ j, j < cols → (s.column j).length = s.cp.getD (j + 1) 0 - s.cp.getD j 0 := by
    intro j hj
    have h1 := hle (j + 1) (by omega)
    have h2 := getD_mono' h.cp_mono (show j ≤ j + 1 by omega) (by rw [h.cp_length]; omega)
    rw [column, List.length_take, List.length_drop, hl]
    omega
  have hflat : ∀ j, j ≤ cols → ((List.range j).map s.column).flatten =
      (s.ci.zip s.cx).take (s.cp.getD j 0) := by
    intro j
    induction j with
    | zero => intro _; rw [h.cp_first]; rfl
    | succ j ih =>
      intro hj
      have h2 := getD_mono' h.cp_mono (show j ≤ j + 1 by omega) (by rw [h.cp_length]; omega)
      rw [List.range_succ, List.map_append, List.flatten_append, ih (by omega)]
      simp only [List.map_cons, List.map_nil, List.flatten_cons, List.flatten_nil, List.append_nil]
      rw [column, show s.cp.getD (j + 1) 0 = s.cp.getD j 0 + (s.cp.getD (j + 1) 0 - s.cp.getD j 0) by omega,
        List.take_add]
      congr 2
      omega
  have hz := hflat cols le_rfl
  rw [h.cp_last, ← hl, List.take_length] at hz
  have hcp : s.cp = cps 0 ((List.range cols).map s.column) := by
    apply List.ext_getElem?
    intro j
    by_cases hj : j ≤ cols
    · have h1 := cps_get 0 ((List.range cols).map s.column) j (by simpa using hj)
      rw [← List.map_take, List.take_range, Nat.min_eq_left hj, hflat j hj, List.length_take, hl,
        Nat.min_eq_left (hle j hj), Nat.zero_add] at h1
      have h3 : j < (cps 0 ((List.range cols).map s.column)).length := by
        rw [cps_length]; simp; omega
      have h4 : j < s.cp.length := by rw [h.cp_length]; omega
      rw [List.getD_eq_getElem?_getD, List.getD_eq_getElem?_getD, List.getElem?_eq_getElem h3,
        List.getElem?_eq_getElem h4] at h1
      rw [List.getElem?_eq_getElem h3, List.getElem?_eq_getElem h4]
      simpa using h1.symm
    · rw [List.getElem?_eq_none (by rw [h.cp_length]; omega),
        List.getElem?_eq_none (by rw [cps_length]; simp; omega)]
  have hci : s.ci = (s.ci.zip s.cx).map (·.1) := by
    rw [List.map_fst_zip (by rw [h.cx_length])]
  have hcx : s.cx = (s.ci.zip s.cx).map (·.2) := by
    rw [List.map_snd_zip (by rw [h.cx_length])]
  rw [ofCols, hz, ← hci, ← hcx, ← hcp]

theorem Lists.colsOf [Zero K] {s : CCS K} {M : Mat K} (h : s.Lists M) :
    ∃ L, s = ofCols L ∧ ColsOf L M := by
  have key : ∀ (j : Nat) (l : List (Nat × K)), ((List.range M.cols).map s.column)[j]? = some l →
      j < M.cols ∧ l = s.column j := by
    intro j l hl
    rw [List.getElem?_map, Option.map_eq_some_iff] at hl
    obtain ⟨k, hk, rfl⟩ := hl
    rw [List.getElem?_eq_some_iff] at hk
    obtain ⟨h1, h2⟩ := hk
    simp only [List.getElem_range] at h2
    subst h2
    exact ⟨by simpa using h1, rfl⟩
  refine ⟨_, h.valid.eq_ofCols, by simp, ?_, ?_, ?_, ?_⟩
  · intro l hl
    obtain ⟨j, hj, rfl⟩ := List.mem_map.1 hl
    exact h.valid.increasing j (by simpa using hj)
  · intro l hl
    obtain ⟨j, hj, rfl⟩ := List.mem_map.1 hl
    exact h.valid.inside j (by simpa using hj)
  · intro j l hl
    obtain ⟨h1, rfl⟩ := key j l hl
    exact h.value j h1
  · intro j l hl i hi hn
    obtain ⟨h1, rfl⟩ := key j l hl
    exact h.rest i j hi h1 hn

theorem ColsOf.append [Zero K] {L1 L2 : List (List (Nat × K))} {A B : Mat K} (h1 : ColsOf L1 A)
    (h2 : ColsOf L2 B) (hr : A.rows = B.rows) : ColsOf (L1 ++ L2) (CCM.hcat A B) := by
  refine ⟨by simp [CCM.hcat, h1.len, h2.len], ?_, ?_, ?_, ?_⟩
  · intro l hl
    rcases List.mem_append.1 hl with hl | hl
    · exact h1.sorted l hl
    · exact h2.sorted l hl
  · intro l hl p hp
    rcases List.mem_append.1 hl with hl | hl
    · exact h1.inside l hl p hp
    · show p.1 < A.rows
      rw [hr]; exact h2.inside l hl p hp
  · intro j l hl p hp
    by_cases hj : j < L1.length
    · rw [List.getElem?_append_left hj] at hl
      show p.2 = if j < A.cols then _ else _
      rw [if_pos (h1.len ▸ hj)]
      exact h1.value j l hl p hp
    · rw [List.getElem?_append_right (by omega)] at hl
      show p.2 = if j < A.cols then _ else _
      rw [if_neg (by rw [h1.len]; omega), h1.len]
      exact h2.value _ l hl p hp
  · intro j l hl i hi hn
    by_cases hj : j < L1.length
    · rw [List.getElem?_append_left hj] at hl
      show (if j < A.cols then _ else _) = (0 : K)
      rw [if_pos (h1.len ▸ hj)]
      exact h1.rest j l hl i hi hn
    · rw [List.getElem?_append_right (by omega)] at hl
      show (if j < A.cols then _ else _) = (0 : K)
      rw [if_neg (by rw [h1.len]; omega), h1.len]
      exact h2.rest _ l hl i (hr ▸ hi) hn

theorem cps_append {α : Type} (n : Nat) (L : List (List α)) (l : List α) :
    cps n (L ++ [l]) = cps n L ++ [(cps n L).getLast?.getD 0 + l.length] := by
  induction L generalizing n with
  | nil => rfl
  | cons l' L ih =>
    rw [List.cons_append, cps, ih, cps, List.cons_append]
    congr 3
    rw [List.getLast?_cons]
    cases h : cps (n + l'.length) L with
    | nil => have := cps_length (n + l'.length) L; rw [h] at this; simp at this
    | cons x xs => simp [List.getLast?_cons]

theorem cps_congr {α β : Type} (n : Nat) (L : List (List α)) (L' : List (List β))
    (h : L.map List.length = L'.map List.length) : cps n L = cps n L' := by
  induction L generalizing n L' with
  | nil =>
    cases L' with
    | nil => rfl
    | cons l L' => simp at h
  | cons l L ih =>
    cases L' with
    | nil => simp at h
    | cons l' L' =>
      simp only [List.map_cons, List.cons.injEq] at h
      rw [cps, cps, h.1, ih _ L' h.2]

end CCS

namespace CCM

open CCS Jacobian

set_option linter.unusedSectionVars false

variable {D K : Type}

/-! ## Column pointers -/

theorem extendPtr_cps {α : Type} (n : Nat) (L N : List (List α)) (step : Nat)
    (hN : ∀ l ∈ N, l.length = step) : extendPtr (cps n L) step N.length = cps n (L ++ N) := by
  have : ∀ k, k ≤ N.length → extendPtr (cps n L) step k = cps n (L ++ N.take k) := by
    intro k
    induction k with
    | zero => intro _; simp [extendPtr]
    | succ k ih =>
      intro hk
      have e : extendPtr (cps n L) step (k + 1) = extendPtr (cps n L) step k ++
          [(extendPtr (cps n L) step k).getLast?.getD 0 + step] := by
        rw [extendPtr, List.range_succ, List.foldl_append]; rfl
      rw [e, ih (by omega), ← List.take_concat_get' N k (by omega), ← List.append_assoc, cps_append,
        hN _ (List.getElem_mem _)]
  have h := this N.length le_rfl
  rwa [List.take_length] at h

theorem cps_last {α : Type} (L : List (List α)) : (cps 0 L).getLast?.getD 0 = L.flatten.length := by
  have h := cps_get 0 L L.length le_rfl
  rw [List.take_length, Nat.zero_add] at h
  rw [← h, List.getLast?_eq_getElem?, cps_length, List.getD_eq_getElem?_getD]
  rfl

theorem check_ofCols (rows cols : Nat) (L : List (List (Nat × K))) (b : Bool) (h : cols = L.length) :
    CCM.check ⟨rows, cols, ofCols L, b⟩ = true := by
  simp only [CCM.check, ofCols, decide_eq_true_eq, List.length_map]
  exact ⟨cps_last L, cps_last L, by rw [cps_length, h]⟩

/-! ## Writing blocks -/

theorem writeAt_mid {α : Type} (X Y Z V : List α) (h : Y.length = V.length) :
    writeAt (X ++ Y ++ Z) X.length V = X ++ V ++ Z := by
  rw [writeAt, List.append_assoc X Y Z, List.take_left, ← List.drop_drop, List.drop_left, ← h,
    List.drop_left]

theorem writeAt_length {α : Type} (l : List α) (i : Nat) (v : List α) (h : i + v.length ≤ l.length) :
    (writeAt l i v).length = l.length := by
  rw [writeAt]
  simp only [List.length_append, List.length_take, List.length_drop]
  omega

/-- Writing inside the middle part. -/
theorem writeAt_inner {α : Type} (X Y Z V : List α) (o : Nat) (h : o + V.length ≤ Y.length) :
    writeAt (X ++ Y ++ Z) (X.length + o) V = X ++ writeAt Y o V ++ Z := by
  have hY : Y = Y.take o ++ (Y.drop o).take V.length ++ Y.drop (o + V.length) := by
    rw [List.append_assoc, ← List.drop_drop, List.take_append_drop, List.take_append_drop]
  have h1 : X ++ Y ++ Z = (X ++ Y.take o) ++ (Y.drop o).take V.length ++ (Y.drop (o + V.length) ++ Z) := by
    conv_lhs => rw [hY]
    simp only [List.append_assoc]
  have h2 : X.length + o = (X ++ Y.take o).length := by
    rw [List.length_append, List.length_take]; omega
  rw [h1, h2, writeAt_mid _ _ _ _ (by rw [List.length_take, List.length_drop]; omega), writeAt]
  simp only [List.append_assoc]

/-- Rows counted from `c`, each changed by `f`. -/
def mapRows {α : Type} (f : Nat → List α → List α) : Nat → List (List α) → List (List α)
  | _, [] => []
  | c, r :: R => f c r :: mapRows f (c + 1) R

theorem mapRows_comp {α : Type} (f g : Nat → List α → List α) (c : Nat) (R : List (List α)) :
    mapRows g c (mapRows f c R) = mapRows (fun c r => g c (f c r)) c R := by
  induction R generalizing c with
  | nil => rfl
  | cons r R ih => simp [mapRows, ih]

theorem mapRows_length {α : Type} (f : Nat → List α → List α) (c : Nat) (R : List (List α)) :
    (mapRows f c R).length = R.length := by
  induction R generalizing c with
  | nil => rfl
  | cons r R ih => simp [mapRows, ih]

theorem mem_mapRows {α : Type} (f : Nat → List α → List α) (c : Nat) (R : List (List α)) (y : List α)
    (h : y ∈ mapRows f c R) : ∃ c', ∃ r ∈ R, y = f c' r := by
  induction R generalizing c with
  | nil => simp [mapRows] at h
  | cons r R ih =>
    rw [mapRows, List.mem_cons] at h
    rcases h with h | h
    · exact ⟨c, r, by simp, h⟩
    · obtain ⟨c', r', hr, e⟩ := ih (c + 1) h
      exact ⟨c', r', by simp [hr], e⟩

theorem mapRows_const {α : Type} (f : Nat → List α → List α) (g : Nat → List α) (c : Nat)
    (R : List (List α)) (h : ∀ c', ∀ r ∈ R, f c' r = g c') :
    mapRows f c R = (List.range' c R.length).map g := by
  induction R generalizing c with
  | nil => rfl
  | cons r R ih =>
    rw [mapRows, h c r (by simp), ih (c + 1) fun c' r' hr => h c' r' (by simp [hr]), List.length_cons,
      List.range'_succ, List.map_cons]

theorem writeColumn {α : Type} (content : Nat → List α) (start epc off : Nat) (R : List (List α))
    (hR : ∀ r ∈ R, r.length = epc) (hc : ∀ c, off + (content c).length ≤ epc) (c0 : Nat)
    (P post : List α) (hP : P.length = start + c0 * epc) :
    (List.range' c0 R.length).foldl (fun l c => writeAt l (start + c * epc + off) (content c))
        (P ++ R.flatten ++ post) =
      P ++ (mapRows (fun c r => writeAt r off (content c)) c0 R).flatten ++ post := by
  induction R generalizing c0 P with
  | nil => rfl
  | cons r R ih =>
    have hr := hR r (by simp)
    rw [List.length_cons, List.range'_succ, List.foldl_cons, List.flatten_cons, mapRows, List.flatten_cons]
    have e1 : P ++ (r ++ R.flatten) ++ post = P ++ r ++ (R.flatten ++ post) := by
      simp only [List.append_assoc]
    rw [e1, ← hP, writeAt_inner _ _ _ _ _ (by rw [hr]; exact hc c0), ← List.append_assoc,
      ih (fun r' hr' => hR r' (by simp [hr'])) (c0 + 1) (P ++ writeAt r off (content c0)) (by
        rw [List.length_append, writeAt_length _ _ _ (by rw [hr]; exact hc c0), hP, hr, Nat.add_mul]
        omega)]
    simp only [List.append_assoc]

/-- The writes of all blocks into one row. -/
def rowFill {α β : Type} (content : β → Nat → List α) (size : β → Nat) : List β → Nat → Nat →
    List α → List α
  | [], _, _, r => r
  | b :: bs, off, c, r => rowFill content size bs (off + size b) c (writeAt r off (content b c))

theorem rowFill_eq {α β : Type} (content : β → Nat → List α) (size : β → Nat) (bs : List β)
    (c : Nat) (hs : ∀ b ∈ bs, (content b c).length = size b) (dn todo : List α)
    (ht : todo.length = (bs.map size).sum) :
    rowFill content size bs dn.length c (dn ++ todo) = dn ++ bs.flatMap fun b => content b c := by
  induction bs generalizing dn todo with
  | nil =>
    have : todo = [] := by simpa using ht
    subst this; rfl
  | cons b bs ih =>
    rw [List.map_cons, List.sum_cons] at ht
    have hb := hs b (by simp)
    rw [rowFill]
    have e : writeAt (dn ++ todo) dn.length (content b c) =
        (dn ++ content b c) ++ todo.drop (size b) := by
      have := writeAt_mid dn (todo.take (size b)) (todo.drop (size b)) (content b c)
        (by rw [List.length_take, hb]; omega)
      rw [List.append_assoc, List.take_append_drop] at this
      exact this
    rw [e, show dn.length + size b = (dn ++ content b c).length by rw [List.length_append, hb],
      ih (fun b' hb' => hs b' (by simp [hb'])) _ _ (by rw [List.length_drop]; omega), List.flatMap_cons,
      List.append_assoc]

theorem writeBlocks_rows {α β : Type} (n : β → Nat) (content : β → Nat → List α) (size : β → Nat)
    (start epc : Nat) (bs : List β) (off : Nat) (pre post : List α) (R : List (List α))
    (hpre : pre.length = start) (hn : ∀ b ∈ bs, n b = R.length)
    (hs : ∀ b ∈ bs, ∀ c, (content b c).length = size b) (hR : ∀ r ∈ R, r.length = epc)
    (he : off + (bs.map size).sum ≤ epc) :
    writeBlocks n content size start epc bs off (pre ++ R.flatten ++ post) =
      pre ++ (mapRows (fun c r => rowFill content size bs off c r) 0 R).flatten ++ post := by
  induction bs generalizing off R with
  | nil =>
    rw [writeBlocks]
    have : mapRows (fun c r => rowFill content size ([] : List β) off c r) 0 R = R := by
      have h : ∀ c, mapRows (fun c r => rowFill content size ([] : List β) off c r) c R = R := by
        induction R with
        | nil => intro c; rfl
        | cons r R ih =>
          intro c
          rw [mapRows, ih (by simp) (fun r' hr' => hR r' (by simp [hr']))]
          rfl
      exact h 0
    rw [this]
  | cons b bs ih =>
    rw [List.map_cons, List.sum_cons] at he
    have hb := hs b (by simp)
    rw [writeBlocks, hn b (by simp), List.range_eq_range', writeColumn (content b) start epc off R hR
      (fun c => by rw [hb]; omega) 0 pre post (by rw [hpre]; omega),
      ih (off + size b) (mapRows (fun c r => writeAt r off (content b c)) 0 R)
        (fun b' hb' => by rw [mapRows_length]; exact hn b' (by simp [hb']))
        (fun b' hb' => hs b' (by simp [hb']))
        (fun r hr => by
          obtain ⟨c', r', hr', rfl⟩ := mem_mapRows _ _ _ _ hr
          rw [writeAt_length _ _ _ (by rw [hb, hR r' hr']; omega), hR r' hr']) (by omega),
      mapRows_comp]
    rfl

/-- The loops fill the rows one after the other. -/
theorem writeBlocks_eq {α β : Type} (n : β → Nat) (content : β → Nat → List α) (size : β → Nat)
    (start epc : Nat) (bs : List β) (pre post : List α) (R : List (List α))
    (hpre : pre.length = start) (hn : ∀ b ∈ bs, n b = R.length)
    (hs : ∀ b ∈ bs, ∀ c, (content b c).length = size b) (hR : ∀ r ∈ R, r.length = epc)
    (he : (bs.map size).sum = epc) :
    writeBlocks n content size start epc bs 0 (pre ++ R.flatten ++ post) =
      pre ++ ((List.range R.length).map fun c => bs.flatMap fun b => content b c).flatten ++ post := by
  rw [writeBlocks_rows n content size start epc bs 0 pre post R hpre hn hs hR (by omega),
    mapRows_const (fun c r => rowFill content size bs 0 c r) (fun c => bs.flatMap fun b => content b c),
    List.range_eq_range']
  intro c r hr
  have := rowFill_eq content size bs c (fun b hb => hs b hb c) [] r (by rw [hR r hr, he])
  simpa using this

theorem writesFit_ok {α β : Type} (n : β → Nat) (content : β → Nat → List α) (size : β → Nat)
    (start epc : Nat) (bs : List β) (off len N : Nat) (hn : ∀ b ∈ bs, n b = N)
    (hs : ∀ b ∈ bs, ∀ c, (content b c).length = size b) (he : off + (bs.map size).sum ≤ epc)
    (hl : start + N * epc ≤ len) : writesFit n content size start epc bs off len = true := by
  induction bs generalizing off with
  | nil => rfl
  | cons b bs ih =>
    rw [List.map_cons, List.sum_cons] at he
    rw [writesFit, ih (off + size b) (fun b' hb' => hn b' (by simp [hb']))
      (fun b' hb' => hs b' (by simp [hb'])) (by omega), Bool.and_true, List.all_eq_true]
    intro c hc
    rw [List.mem_range, hn b (by simp)] at hc
    have h1 : c * epc + epc ≤ N * epc := by
      rw [← Nat.succ_mul]; exact Nat.mul_le_mul_right _ hc
    rw [decide_eq_true_eq, hs b (by simp)]
    omega

end CCM

end Kalibr
