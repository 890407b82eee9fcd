import Verif.CCM.Append
import Verif.Normal.Lemmas

/-!
# Reading a compressed column matrix
-/

namespace Kalibr.CCM

open CCS Jacobian

set_option linter.unusedSectionVars false

variable {D K : Type}

theorem Is.ptr [Zero K] {m : CCM K} {M : Mat K} (h : Is m M) (c : Nat) (hc : c < m.cols) :
    m.s.cp.getD (c + 1) 0 ≤ m.s.ci.length ∧ m.s.cp.getD (c + 1) 0 ≤ m.s.cx.length := by
  have hv := h.lists.valid
  have h1 : m.s.cp.getD (c + 1) 0 ≤ m.s.ci.length := by
    rw [← hv.cp_last]
    exact getD_mono' hv.cp_mono (by rw [← h.cols]; omega) (by rw [hv.cp_length]; omega)
  exact ⟨h1, by rw [hv.cx_length]; exact h1⟩

theorem putcol (l : List (Nat × K)) (f : Nat → K) (hf : ∀ p ∈ l, p.2 = f p.1) (H : Nat → Nat → K)
    (c i j : Nat) : l.foldl (fun H p => put H c p) H i j =
      if j = c ∧ i ∈ l.map (·.1) then f i else H i j := by
  induction l generalizing H with
  | nil => simp
  | cons p l ih =>
    rw [List.foldl_cons, ih (fun q hq => hf q (by simp [hq]))]
    by_cases h1 : j = c ∧ i ∈ l.map (·.1)
    · rw [if_pos h1, if_pos ⟨h1.1, by simp [h1.2]⟩]
    · rw [if_neg h1, put]
      by_cases h2 : i = p.1 ∧ j = c
      · rw [if_pos h2, if_pos ⟨h2.2, by simp [h2.1]⟩, h2.1, hf p (by simp)]
      · rw [if_neg h2, if_neg]
        rintro ⟨h3, h4⟩
        rw [List.map_cons, List.mem_cons] at h4
        rcases h4 with h4 | h4
        · exact h2 ⟨h4, h3⟩
        · exact h1 ⟨h3, h4⟩

theorem toDense_fold [Zero K] (s : CCS K) (M : Mat K) (h : s.Lists M) (n : Nat) (hn : n ≤ M.cols) (i j : Nat)
    (hi : i < M.rows) : (List.range n).foldl (fun H c =>
      (s.column c).foldl (fun H p => put H c p) H) (fun _ _ => (0 : K)) i j =
        if j < n then M.get i j else 0 := by
  induction n with
  | zero => rfl
  | succ n ih =>
    rw [List.range_succ, List.foldl_append, List.foldl_cons, List.foldl_nil,
      putcol _ (fun i => M.get i n) (h.value n (by omega)), ih (by omega)]
    by_cases hj : j = n
    · subst hj
      rw [if_pos (show j < j + 1 by omega), if_neg (show ¬j < j by omega)]
      by_cases hm : i ∈ (s.column j).map (·.1)
      · rw [if_pos ⟨rfl, hm⟩]
      · rw [if_neg (fun hc => hm hc.2), h.rest i j hi (by omega) hm]
    · rw [if_neg (fun hc => hj hc.1)]
      by_cases h1 : j < n
      · rw [if_pos h1, if_pos (by omega)]
      · rw [if_neg h1, if_neg (by omega)]

theorem find_lower (l : List (Nat × K)) (hl : l.Pairwise fun p q => p.1 < q.1) (r : Nat) [Zero K] :
    (match l.find? fun p => ¬p.1 < r with
      | none => (Out.ok 0 : Out K)
      | some p => .ok (if p.1 = r then p.2 else 0)) =
    .ok ((l.find? fun p => p.1 = r).elim 0 (·.2)) := by
  induction l with
  | nil => rfl
  | cons p l ih =>
    rw [List.pairwise_cons] at hl
    by_cases h1 : p.1 < r
    · rw [List.find?_cons_of_neg (by simpa using h1), List.find?_cons_of_neg (by simp; omega)]
      exact ih hl.2
    · rw [List.find?_cons_of_pos (by simpa using h1)]
      by_cases h2 : p.1 = r
      · rw [List.find?_cons_of_pos (by simpa using h2)]
        simp [h2]
      · rw [List.find?_cons_of_neg (by simpa using h2)]
        have : (l.find? fun p => p.1 = r) = none := by
          rw [List.find?_eq_none]
          intro q hq
          have := hl.1 q hq
          simp only [decide_eq_true_eq]
          omega
        rw [this]
        simp [h2]

theorem lookup_entry [Zero K] (s : CCS K) (M : Mat K) (h : s.Lists M) (r c : Nat) (hr : r < M.rows)
    (hc : c < M.cols) : ((s.column c).find? fun p => p.1 = r).elim 0 (·.2) = M.get r c := by
  cases hfind : (s.column c).find? fun p => p.1 = r with
  | none =>
    rw [List.find?_eq_none] at hfind
    exact (h.rest r c hr hc fun hm => by
      obtain ⟨p, hp, e⟩ := List.mem_map.1 hm
      exact hfind p hp (by simpa using e)).symm
  | some p =>
    have h1 := List.mem_of_find?_eq_some hfind
    have h2 := List.find?_some hfind
    simp only [decide_eq_true_eq] at h2
    subst h2
    exact h.value c hc p h1

theorem mulCol [NonUnitalNonAssocSemiring K] (l : List (Nat × K)) (hl : l.Pairwise fun p q => p.1 < q.1) (f : Nat → K)
    (hf : ∀ p ∈ l, p.2 = f p.1) (y : Nat → K) (x : K) (i : Nat) :
    l.foldl (fun y p => fun i => if i = p.1 then y i + p.2 * x else y i) y i =
      y i + if i ∈ l.map (·.1) then f i * x else 0 := by
  induction l generalizing y with
  | nil => simp
  | cons p l ih =>
    rw [List.pairwise_cons] at hl
    rw [List.foldl_cons, ih hl.2 (fun q hq => hf q (by simp [hq]))]
    by_cases h1 : i = p.1
    · have h2 : i ∉ l.map (·.1) := by
        intro hm
        obtain ⟨q, hq, e⟩ := List.mem_map.1 hm
        have := hl.1 q hq
        omega
      rw [if_neg h2, if_pos h1, if_pos (by simp [h1]), add_zero, h1, hf p (by simp)]
    · rw [if_neg h1]
      congr 1
      apply if_congr _ rfl rfl
      simp [h1]

theorem right_fold [NonUnitalNonAssocSemiring K] (s : CCS K) (M : Mat K) (h : s.Lists M) (x : Nat → K) (n : Nat)
    (hn : n ≤ M.cols) (i : Nat) (hi : i < M.rows) :
    (List.range n).foldl (fun y c => (s.column c).foldl
      (fun y p => fun i => if i = p.1 then y i + p.2 * x c else y i) y) (fun _ => (0 : K)) i =
      ∑ c ∈ Finset.range n, M.get i c * x c := by
  induction n with
  | zero => rfl
  | succ n ih =>
    rw [List.range_succ, List.foldl_append, List.foldl_cons, List.foldl_nil,
      mulCol _ (h.valid.increasing n (by omega)) (fun i => M.get i n) (h.value n (by omega)), ih (by omega),
      Finset.sum_range_succ]
    congr 1
    by_cases hm : i ∈ (s.column n).map (·.1)
    · rw [if_pos hm]
    · rw [if_neg hm, h.rest i n hi (by omega) hm, zero_mul]

theorem keysum [AddCommMonoid K] (l : List (Nat × K)) (hl : l.Pairwise fun p q => p.1 < q.1) (n : Nat)
    (hn : ∀ p ∈ l, p.1 < n) (f : Nat → K) :
    (l.map fun p => f p.1).sum = ∑ r ∈ Finset.range n, if r ∈ l.map (·.1) then f r else 0 := by
  induction l with
  | nil => simp
  | cons p l ih =>
    rw [List.pairwise_cons] at hl
    rw [List.map_cons, List.sum_cons, ih hl.2 fun q hq => hn q (by simp [hq])]
    have h0 : p.1 ∉ l.map (·.1) := by
      intro hm
      obtain ⟨q, hq, e⟩ := List.mem_map.1 hm
      have := hl.1 q hq
      omega
    have : ∀ r ∈ Finset.range n, (if r ∈ (p :: l).map (·.1) then f r else 0) =
        (if r = p.1 then f r else 0) + if r ∈ l.map (·.1) then f r else 0 := by
      intro r _
      by_cases h1 : r = p.1
      · subst h1; rw [if_pos (by simp), if_pos rfl, if_neg h0, add_zero]
      · rw [if_neg h1, zero_add]
        apply if_congr _ rfl rfl
        simp [h1]
    rw [Finset.sum_congr rfl this, Finset.sum_add_distrib, Finset.sum_ite_eq', if_pos (Finset.mem_range.2 (hn p (by simp)))]

theorem leftCol [NonUnitalNonAssocSemiring K] (l : List (Nat × K)) (y : Nat → K) (x : Nat → K) (c i : Nat) :
    l.foldl (fun y p => fun i => if i = c then y i + p.2 * x p.1 else y i) y i =
      if i = c then y i + (l.map fun p => p.2 * x p.1).sum else y i := by
  induction l generalizing y with
  | nil => simp
  | cons p l ih =>
    rw [List.foldl_cons, ih]
    by_cases h : i = c
    · simp only [h, if_true, List.map_cons, List.sum_cons, add_assoc]
    · simp only [h, if_false]

theorem left_fold [NonUnitalNonAssocSemiring K] (s : CCS K) (M : Mat K) (h : s.Lists M) (x : Nat → K) (n : Nat)
    (hn : n ≤ M.cols) (i : Nat) :
    (List.range n).foldl (fun y c => (s.column c).foldl
      (fun y p => fun i => if i = c then y i + p.2 * x p.1 else y i) y) (fun _ => (0 : K)) i =
      if i < n then ∑ r ∈ Finset.range M.rows, M.get r i * x r else 0 := by
  induction n with
  | zero => rfl
  | succ n ih =>
    rw [List.range_succ, List.foldl_append, List.foldl_cons, List.foldl_nil, leftCol, ih (by omega)]
    by_cases hi : i = n
    · subst hi
      rw [if_pos rfl, if_neg (Nat.lt_irrefl _), if_pos (Nat.lt_succ_self _), zero_add]
      have e : ((s.column i).map fun p => p.2 * x p.1) = (s.column i).map fun p => M.get p.1 i * x p.1 :=
        List.map_congr_left fun p hp => by rw [h.value i (by omega) p hp]
      rw [e, keysum _ (h.valid.increasing i (by omega)) M.rows (h.valid.inside i (by omega))
        (fun r => M.get r i * x r)]
      apply Finset.sum_congr rfl
      intro r hr
      by_cases hm : r ∈ (s.column i).map (·.1)
      · rw [if_pos hm]
      · rw [if_neg hm, h.rest r i (Finset.mem_range.1 hr) (by omega) hm, zero_mul]
    · rw [if_neg hi]
      by_cases h1 : i < n
      · rw [if_pos h1, if_pos (by omega)]
      · rw [if_neg h1, if_neg (by omega)]

theorem Is.mulOk [Zero K] {m : CCM K} {M : Mat K} (h : Is m M) : m.mulOk = true := by
  have hle : m.mulCols ≤ m.cols := by rw [CCM.mulCols]; split <;> omega
  simp only [CCM.mulOk, decide_eq_true_eq]
  refine ⟨by rw [h.lists.valid.cp_length, ← h.cols]; omega, ?_⟩
  rw [List.all_eq_true]
  intro c hc
  rw [List.mem_range] at hc
  simp only [decide_eq_true_eq, List.all_eq_true]
  exact ⟨(h.ptr c (by omega)).1, (h.ptr c (by omega)).2, fun p hp => by
    rw [h.rows]; exact h.lists.valid.inside c (by rw [← h.cols]; omega) p hp⟩

/-! ## Changing the diagonal -/

theorem diag_colsOf [Zero K] (d : List K) (n : Nat) (hd : d.length = n) :
    ColsOf ((List.range n).map fun i => [(i, d.getD i 0)]) (diagMat d) := by
  have key : ∀ (j : Nat) (l : List (Nat × K)),
      ((List.range n).map fun i => [(i, d.getD i 0)])[j]? = some l → l = [(j, d.getD j 0)] := by
    intro j l h
    rw [List.getElem?_map, Option.map_eq_some_iff] at h
    obtain ⟨k, hk, rfl⟩ := h
    rw [List.getElem?_eq_some_iff] at hk
    obtain ⟨h1, h2⟩ := hk
    simp only [List.getElem_range] at h2
    rw [h2]
  refine ⟨by simp [diagMat, hd], ?_, ?_, ?_, ?_⟩
  · intro l h
    obtain ⟨c, _, rfl⟩ := List.mem_map.1 h
    simp
  · intro l h p hp
    obtain ⟨c, hc, rfl⟩ := List.mem_map.1 h
    rw [List.mem_singleton] at hp
    subst hp
    show c < d.length
    rw [hd]; simpa using hc
  · intro j l h p hp
    rw [key j l h, List.mem_singleton] at hp
    subst hp
    show _ = if j = j then _ else _
    rw [if_pos rfl]
  · intro j l h i hi hn
    rw [key j l h] at hn
    show (if i = j then _ else _) = (0 : K)
    rw [if_neg (by simpa using hn)]

theorem diag_ofCols_ci (d : List K) (n : Nat) [Zero K] :
    (((List.range n).map fun i => [(i, d.getD i 0)]).flatten.map (·.1)) = List.range n := by
  rw [List.map_flatten, List.map_map]
  have : (List.map (fun x : Nat × K => x.1) ∘ fun i => [(i, d.getD i 0)]) = fun i => [i] := rfl
  rw [this]
  induction n with
  | zero => rfl
  | succ n ih => rw [List.range_succ, List.map_append, List.flatten_append, ih]; rfl

theorem range_getD (d : List K) [Zero K] : (List.range d.length).map (fun i => d.getD i 0) = d := by
  apply List.ext_getElem
  · simp
  · intro i h1 h2
    simp [List.getD_eq_getElem?_getD, List.getElem?_eq_getElem h2]

theorem diag_ofCols_cx (d : List K) [Zero K] :
    (((List.range d.length).map fun i => [(i, d.getD i 0)]).flatten.map (·.2)) = d := by
  rw [List.map_flatten, List.map_map]
  have : (List.map (fun x : Nat × K => x.2) ∘ fun i => [(i, d.getD i 0)]) = fun i => [d.getD i 0] := rfl
  rw [this]
  conv_rhs => rw [← range_getD d]
  generalize d.length = n
  induction n with
  | zero => rfl
  | succ n ih => rw [List.range_succ, List.map_append, List.flatten_append, ih, List.map_append]; rfl

/-- The columns of a diagonal. -/
abbrev dcols [Zero K] (d : List K) : List (List (Nat × K)) :=
  (List.range d.length).map fun i => [(i, d.getD i 0)]

theorem ofCols_append (L N : List (List (Nat × K))) :
    (ofCols (L ++ N)).ci = (ofCols L).ci ++ N.flatten.map (·.1) ∧
    (ofCols (L ++ N)).cx = (ofCols L).cx ++ N.flatten.map (·.2) := by
  simp [ofCols]

theorem push_eq [Zero K] (m : CCM K) (L : List (List (Nat × K))) (hs : m.s = ofCols L) (hc : m.cols = L.length)
    (hd : m.diag = false) (d : List K) (hl : d.length = m.rows) :
    m.pushDiagonal d = .ok ⟨m.rows, m.cols + m.rows, ofCols (L ++ dcols d), true⟩ := by
  have hchk : m.check = true := by
    have := check_ofCols m.rows m.cols L m.diag hc
    rw [← hs] at this
    exact this
  rw [CCM.pushDiagonal, if_neg (by rw [hchk]; simp), if_neg (by simpa using hl), if_neg (by rw [hd]; simp)]
  congr 2
  have h := extendPtr_cps 0 L (dcols d) 1 (fun l h => by obtain ⟨c, _, rfl⟩ := List.mem_map.1 h; rfl)
  rw [List.length_map, List.length_range, hl] at h
  have h2 := ofCols_append L (dcols d)
  rw [diag_ofCols_ci d d.length, diag_ofCols_cx d, ← hs] at h2
  rw [hs, show (ofCols L).cp = cps 0 L from rfl, h, ← hs, ← hl, ← h2.1, ← h2.2]
  rfl

theorem update_eq [Zero K] (m : CCM K) (L : List (List (Nat × K))) (d d' : List K)
    (hs : m.s = ofCols (L ++ dcols d)) (hd : m.diag = true) (hl : d.length = m.rows)
    (hl' : d'.length = m.rows) :
    m.updateDiagonal d' = .ok { m with s := ofCols (L ++ dcols d') } := by
  have h2 := ofCols_append L (dcols d)
  rw [diag_ofCols_ci d d.length, diag_ofCols_cx d, ← hs] at h2
  have h3 := ofCols_append L (dcols d')
  rw [diag_ofCols_ci d' d'.length, diag_ofCols_cx d'] at h3
  rw [CCM.updateDiagonal, if_neg (by rw [hd]; simp), if_neg]
  · congr 2
    have e : m.s.cx.length - m.rows = (ofCols L).cx.length := by
      rw [h2.2, List.length_append]; omega
    have e2 := writeAt_mid (ofCols L).cx d [] d' (by omega)
    rw [List.append_nil, List.append_nil] at e2
    have c1 : m.s.cp = (ofCols (L ++ dcols d')).cp := by
      rw [hs]
      apply cps_congr
      rw [List.map_append, List.map_append, List.map_map, List.map_map, hl, hl']
      rfl
    have c2 : m.s.ci = (ofCols (L ++ dcols d')).ci := by rw [h2.1, h3.1, hl, hl']
    have c3 : writeAt m.s.cx (m.s.cx.length - m.rows) d' = (ofCols (L ++ dcols d')).cx := by
      rw [e, h3.2, ← e2, h2.2]
    show CCS.mk m.s.cp m.s.ci (writeAt m.s.cx (m.s.cx.length - m.rows) d') = _
    rw [c1, c2, c3]
  · push Not
    exact ⟨hl', by rw [h2.2, List.length_append]; omega⟩

theorem cps_take {α : Type} (n : Nat) (L N : List (List α)) :
    (cps n (L ++ N)).take (L.length + 1) = cps n L := by
  induction L generalizing n with
  | nil => cases N <;> rfl
  | cons l L ih => rw [List.cons_append, cps, List.length_cons, List.take_succ_cons, ih, cps]

theorem pop_eq [Zero K] (m : CCM K) (L : List (List (Nat × K))) (d : List K)
    (hs : m.s = ofCols (L ++ dcols d)) (hc : m.cols = L.length + m.rows) (hd : m.diag = true)
    (hl : d.length = m.rows) :
    m.popDiagonal = .ok ⟨m.rows, L.length, ofCols L, false⟩ := by
  have h2 := ofCols_append L (dcols d)
  rw [diag_ofCols_ci d d.length, diag_ofCols_cx d, ← hs] at h2
  have e1 : m.s.ci.take (m.s.ci.length - m.rows) = (ofCols L).ci := by
    rw [h2.1, List.length_append, List.length_range, hl, Nat.add_sub_cancel, List.take_left]
  have e2 : m.s.cx.take (m.s.cx.length - m.rows) = (ofCols L).cx := by
    rw [h2.2, List.length_append, hl, Nat.add_sub_cancel, List.take_left]
  have e3 : m.s.cp.take (m.s.cp.length - m.rows) = (ofCols L).cp := by
    rw [hs]
    show (cps 0 (L ++ dcols d)).take _ = cps 0 L
    rw [show (ofCols (L ++ dcols d)).cp = cps 0 (L ++ dcols d) from rfl, cps_length, List.length_append,
      List.length_map, List.length_range, hl, show L.length + m.rows + 1 - m.rows = L.length + 1 by omega, cps_take]
  rw [CCM.popDiagonal, if_neg (by rw [hd]; simp)]
  simp only [e1, e2, e3, show m.cols - m.rows = L.length by omega]
  rw [if_neg]
  rw [check_ofCols m.rows L.length L false rfl]
  simp

/-- The columns of the matrix followed by those of the diagonal. -/
def Inv [Zero K] (m : CCM K) (a : Abs K) : Prop :=
  m.rows = a.M.rows ∧ m.diag = a.d.isSome ∧ (∀ d, a.d = some d → d.length = a.M.rows) ∧
    ∃ L, ColsOf L a.M ∧ m.s = ofCols (L ++ (a.d.map dcols).getD []) ∧
      m.cols = (L ++ (a.d.map dcols).getD []).length

theorem Inv.agree [Zero K] {m : CCM K} {a : Abs K} (h : Inv m a) : Agree m a := by
  obtain ⟨h1, h2, h3, L, hL, hs, hc⟩ := h
  refine ⟨?_, h1, h2, h3⟩
  obtain ⟨M, d⟩ := a
  cases d with
  | none =>
    simp only [Option.map_none, Option.getD_none, List.append_nil] at hs hc
    exact ⟨by rw [hs]; exact hL.lists, h1, by rw [hc, ← hL.len]; rfl⟩
  | some d =>
    simp only [Option.map_some, Option.getD_some] at hs hc
    have hd := h3 d rfl
    exact ⟨by rw [hs]; exact (hL.append (diag_colsOf d d.length rfl) hd.symm).lists, h1, by
      rw [hc]
      show _ = M.cols + d.length
      rw [hL.len]; simp⟩

theorem inv_of_is [Zero K] {m : CCM K} {M : Mat K} (h : Is m M) (hd : m.diag = false) : Inv m ⟨M, none⟩ := by
  obtain ⟨L, hL, hc⟩ := h.lists.colsOf
  refine ⟨h.rows, hd, by simp, L, hc, by simpa using hL, ?_⟩
  simp only [Option.map_none, Option.getD_none, List.append_nil]
  rw [h.cols, hc.len]

theorem inv_step [AddMonoid K] (env : Env D K) (cb : D → Nat) (m : CCM K) (a : Abs K) (h : Inv m a)
    (hl : Layout env cb a.M.rows) (o : Op D K) (ho : o.Good env a.M.rows) :
    (∃ m' a', CCM.step env cb m o = .ok m' ∧ a.step env cb o = .ok a' ∧ Inv m' a' ∧ a'.M.rows = a.M.rows) ∨
    (CCM.step env cb m o = .raise ∧ a.step env cb o = .raise) := by
  obtain ⟨h1, h2, h3, L, hL, hs, hc⟩ := h
  obtain ⟨M, d⟩ := a
  cases o with
  | append jc =>
    cases d with
    | none =>
      simp only [Option.map_none, Option.getD_none, List.append_nil] at hs hc
      have hd : m.diag = false := h2
      refine Or.inl ⟨_, ⟨hcat M (jacT env cb M.rows jc), none⟩, appendJacobians_eq env cb m L hs hc hd jc ho.1 ho.2,
        rfl, ⟨h1, rfl, by simp, L ++ (List.range jc.rows).map (newCol env cb jc), ?_, by simp, ?_⟩, rfl⟩
      · exact hL.append (newCol_colsOf env cb M.rows hl jc ho.1 ho.2) rfl
      · simp [hc]
    | some d =>
      right
      refine ⟨?_, rfl⟩
      show (m.appendSymbolic env cb jc.rows (jc.map.map (·.1))).bind _ = .raise
      rw [CCM.appendSymbolic, if_pos (by rw [h2]; rfl)]
      rfl
  | push d' =>
    by_cases hchk : m.check = false
    · exfalso
      have := check_ofCols m.rows m.cols _ m.diag hc
      rw [← hs] at this
      exact absurd (this.symm.trans hchk) (by simp)
    cases d with
    | none =>
      simp only [Option.map_none, Option.getD_none, List.append_nil] at hs hc
      have hd : m.diag = false := h2
      by_cases hlen : d'.length = M.rows
      · refine Or.inl ⟨_, ⟨M, some d'⟩, push_eq m L hs hc hd d' (hlen.trans h1.symm), by simp [Abs.step, hlen],
          ⟨h1, rfl, ?_, L, hL, rfl, ?_⟩, rfl⟩
        · intro d'' e
          rw [← Option.some.inj e]; exact hlen
        · simp [hc, hlen, h1]
      · right
        refine ⟨?_, if_pos (Or.inr hlen)⟩
        show m.pushDiagonal d' = _
        rw [CCM.pushDiagonal, if_neg hchk, if_pos (by rw [h1]; exact hlen)]
    | some d =>
      right
      refine ⟨?_, by simp [Abs.step]⟩
      show m.pushDiagonal d' = _
      rw [CCM.pushDiagonal, if_neg hchk]
      split
      · rfl
      · rw [if_pos (by rw [h2]; rfl)]
  | update d' =>
    have ho' : d'.length = M.rows := ho
    cases d with
    | none =>
      right
      refine ⟨?_, rfl⟩
      show m.updateDiagonal d' = _
      rw [CCM.updateDiagonal, if_pos (show m.diag = false from h2)]
    | some d =>
      left
      simp only [Option.map_some, Option.getD_some] at hs hc
      have hd := h3 d rfl
      refine ⟨_, ⟨M, some d'⟩, update_eq m L d d' hs h2 (hd.trans h1.symm) (ho'.trans h1.symm), rfl,
        ⟨h1, h2, ?_, L, hL, rfl, ?_⟩, rfl⟩
      · intro d'' e
        rw [← Option.some.inj e]; exact ho'
      · show m.cols = (L ++ dcols d').length
        rw [hc]
        simp [hd, ho']
  | pop =>
    cases d with
    | none =>
      right
      refine ⟨?_, rfl⟩
      show m.popDiagonal = _
      rw [CCM.popDiagonal, if_pos (show m.diag = false from h2)]
    | some d =>
      left
      simp only [Option.map_some, Option.getD_some] at hs hc
      have hd := h3 d rfl
      refine ⟨_, ⟨M, none⟩, pop_eq m L d hs (by rw [hc, h1, ← hd]; simp) h2 (hd.trans h1.symm), rfl,
        ⟨h1, rfl, by simp, L, hL, by simp, by simp⟩, rfl⟩

end Kalibr.CCM
