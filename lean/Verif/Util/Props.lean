import Verif.Util.Model
import Mathlib.Data.Nat.Digits.Lemmas
import Mathlib.Tactic.IntervalCases
import Mathlib.Data.List.GetD

/-!
# Strings, identifiers, comparisons and portable archives
-/

namespace Kalibr.Util

/-! ## Strings -/

theorem findFrom_append (t : Char) (d s : Str) : findFrom t (d ++ s) d.length = (s.findIdx? (· = t)).map (· + d.length) := by
  simp [findFrom]

/-- The search can start after a character that is another one. -/
theorem findFrom_shift (t c : Char) (d s : Str) (h : c ≠ t) : findFrom t (d ++ c :: s) d.length = findFrom t (d ++ c :: s) (d.length + 1) := by
  have h1 := findFrom_append t d (c :: s)
  have h2 := findFrom_append t (d ++ [c]) s
  simp only [List.append_assoc, List.singleton_append, List.length_append, List.length_singleton] at h2
  rw [h1, h2, List.findIdx?_cons]
  simp only [h, decide_false, Bool.false_eq_true, if_false, Option.map_map]
  congr 1
  funext i
  simp; omega

theorem Replace.shift {t r : Char} {s out : Str} {pos pos' skip : ℕ} (h : findFrom t s pos = findFrom t s pos') (hr : Replace t r s pos' skip out) :
    Replace t r s pos skip out := by
  cases hr with
  | done _ _ _ h' => exact .done _ _ _ (h.trans h')
  | skip _ _ _ p _ h' hr => exact .skip _ _ _ p _ (h.trans h') hr
  | put _ _ p _ h' hr => exact .put _ _ p _ (h.trans h') hr

theorem replace_aux (t r : Char) (hne : r ≠ t) (s d : Str) (skip : ℕ) : Replace t r (d ++ s) d.length skip (d ++ replaced t r skip s) := by
  induction s generalizing d skip with
  | nil =>
    have : findFrom t (d ++ []) d.length = none := by rw [findFrom_append]; rfl
    cases skip <;> exact .done _ _ _ this
  | cons c s ih =>
    by_cases hc : c = t
    · have hf : findFrom t (d ++ c :: s) d.length = some d.length := by
        rw [findFrom_append, List.findIdx?_cons]; simp [hc]
      cases skip with
      | zero =>
        have h1 := ih (d ++ [r]) 0
        simp only [List.append_assoc, List.singleton_append, List.length_append, List.length_singleton] at h1
        have h2 := Replace.shift (findFrom_shift t r d s hne) h1
        simp only [replaced, hc, if_true]
        refine .put _ _ _ _ (hc ▸ hf) ?_
        have : (d ++ t :: s).set d.length r = d ++ r :: s := by simp
        rw [this]
        exact h2
      | succ k =>
        have h1 := ih (d ++ [c]) k
        simp only [List.append_assoc, List.singleton_append, List.length_append, List.length_singleton] at h1
        simp only [replaced, hc, if_true]
        rw [hc] at h1 hf
        exact .skip _ _ _ _ _ hf h1
    · have h1 := ih (d ++ [c]) skip
      simp only [List.append_assoc, List.singleton_append, List.length_append, List.length_singleton] at h1
      have h2 := Replace.shift (findFrom_shift t c d s hc) h1
      cases skip with
      | zero => simpa [replaced, hc] using h2
      | succ k => simpa [replaced, hc] using h2

theorem Replace.unique {t r : Char} {s a b : Str} {pos skip : ℕ} (h1 : Replace t r s pos skip a) (h2 : Replace t r s pos skip b) : a = b := by
  induction h1 generalizing b with
  | done s pos skip h =>
    cases h2 with
    | done => rfl
    | skip _ _ _ _ _ h' => rw [h] at h'; simp at h'
    | put _ _ _ _ h' => rw [h] at h'; simp at h'
  | skip s pos skip p out h _ ih =>
    cases h2 with
    | done _ _ _ h' => rw [h] at h'; simp at h'
    | skip _ _ _ p' _ h' hr =>
      rw [h] at h'
      cases h'
      exact ih hr
  | put s pos p out h _ ih =>
    cases h2 with
    | done _ _ _ h' => rw [h] at h'; simp at h'
    | put _ _ p' _ h' hr =>
      rw [h] at h'
      cases h'
      exact ih hr

/-- C167: replacing a character by another one ends, and gives the string with all occurrences but the first ones replaced, as many of them as are to be skipped. -/
theorem C167_replace_partial (t r : Char) (hne : r ≠ t) (s : Str) (skip : ℕ) (out : Str) :
    Replace t r s 0 skip out ↔ out = replaced t r skip s := by
  have h := replace_aux t r hne s [] skip
  simp only [List.nil_append, List.length_nil] at h
  constructor
  · intro h'; exact h'.unique h
  · rintro rfl; exact h

/-- Two of three slashes. -/
example : Replace '/' '_' "a/b/c/d".toList 0 1 "a/b_c_d".toList := (C167_replace_partial _ _ (by decide) _ _ _).2 (by decide)

/-- C167: replacing a character by itself does not end if there is one to replace. -/
theorem C167_replace_counterexample (t : Char) (s out : Str) (h : t ∈ s) : ¬ Replace t t s 0 0 out := by
  have key : ∀ (s : Str) (pos skip : ℕ) (out : Str), Replace t t s pos skip out → skip = 0 → findFrom t s pos ≠ none → False := by
    intro s pos skip out hr
    induction hr with
    | done s pos skip h => intro _ hn; exact hn h
    | skip => intro h0; omega
    | put s pos p out h _ ih =>
      intro _ _
      apply ih rfl
      have hp : findFrom t (s.set p t) p ≠ none := by
        unfold findFrom at h ⊢
        cases hi : (s.drop pos).findIdx? (· = t) with
        | none => rw [hi] at h; simp at h
        | some i =>
          rw [hi] at h
          simp only [Option.map_some, Option.some.injEq] at h
          subst h
          have hlt : i + pos < s.length := by
            have := (List.findIdx?_eq_some_iff_findIdx_eq.1 hi).1
            rw [List.length_drop] at this
            omega
          intro hn
          simp only [Option.map_eq_none_iff, List.findIdx?_eq_none_iff, decide_eq_false_iff_not] at hn
          refine hn t ?_ rfl
          rw [List.mem_iff_getElem]
          exact ⟨0, by simp; omega, by simp⟩
      exact hp
  intro hr
  refine key s 0 0 out hr rfl ?_
  unfold findFrom
  simp only [List.drop_zero, ne_eq, Option.map_eq_none_iff, List.findIdx?_eq_none_iff, decide_eq_false_iff_not]
  intro hn
  exact hn t h rfl

theorem rfindFrom_some (t : Char) (s : Str) (p : ℕ) :
    rfindFrom t s (some p) = (((s.take (p + 1)).reverse.findIdx? (· = t)).map fun i => (s.take (p + 1)).length - 1 - i) := rfl

/-- The character at the end of the part that is searched. -/
theorem rfindFrom_last (t c : Char) (s d : Str) : rfindFrom t (s ++ c :: d) (some s.length) =
    if c = t then some s.length else if s = [] then none else rfindFrom t (s ++ c :: d) (some (s.length - 1)) := by
  have ht : (s ++ c :: d).take (s.length + 1) = s ++ [c] := by
    rw [List.take_append]; simp
  rw [rfindFrom_some, ht]
  simp only [List.reverse_append, List.reverse_cons, List.reverse_nil, List.nil_append, List.singleton_append, List.length_append, List.length_singleton]
  rw [List.findIdx?_cons]
  by_cases hc : c = t
  · simp [hc]
  · simp only [hc, decide_false, Bool.false_eq_true, if_false, Option.map_map]
    by_cases hs : s = []
    · simp [hs]
    · rw [if_neg hs]
      have hl : 0 < s.length := List.length_pos_iff.2 hs
      have ht' : (s ++ c :: d).take (s.length - 1 + 1) = s := by
        rw [Nat.sub_add_cancel hl]; simp
      rw [rfindFrom_some, ht']
      congr 1
      funext i
      simp; omega

theorem ReplaceReverse.shift {t r : Char} {s out : Str} {pos pos' : Option ℕ} {skip : ℕ} (h : rfindFrom t s pos = rfindFrom t s pos')
    (hr : ReplaceReverse t r s pos' skip out) : ReplaceReverse t r s pos skip out := by
  cases hr with
  | done _ _ _ h' => exact .done _ _ _ (h.trans h')
  | skip _ _ _ p _ h' hr => exact .skip _ _ _ p _ (h.trans h') hr
  | put _ _ p _ h' hr => exact .put _ _ p _ (h.trans h') hr

theorem replaceReverse_aux (t r : Char) (hne : r ≠ t) (s : Str) : ∀ (d : Str) (skip : ℕ), s ≠ [] →
    (skip = 0 ∨ skip < s.count t ∨ s.head? ≠ some t) →
    ReplaceReverse t r (s ++ d) (some (s.length - 1)) skip ((replaced t r skip s.reverse).reverse ++ d) := by
  induction s using List.reverseRecOn with
  | nil => intro d skip h; exact absurd rfl h
  | append_singleton s c ih =>
    intro d skip _ hskip
    have hl := rfindFrom_last t c s d
    simp only [List.append_assoc, List.singleton_append, List.length_append, List.length_singleton, Nat.add_sub_cancel, List.reverse_append,
      List.reverse_cons, List.reverse_nil, List.nil_append]
    by_cases hc : c = t
    · rw [if_pos hc] at hl
      cases skip with
      | zero =>
        refine .put _ _ _ _ hl ?_
        have hset : (s ++ c :: d).set s.length r = s ++ r :: d := by simp
        rw [hset]
        have hl' := rfindFrom_last t r s d
        rw [if_neg hne] at hl'
        simp only [replaced, hc, if_true, List.reverse_cons, List.append_assoc, List.singleton_append]
        by_cases hs : s = []
        · subst hs
          exact .done _ _ _ (by simpa using hl')
        · rw [if_neg hs] at hl'
          exact ReplaceReverse.shift hl' (ih (r :: d) 0 hs (Or.inl rfl))
      | succ k =>
        have hs : s ≠ [] := by
          rintro rfl
          rcases hskip with h | h | h
          · omega
          · simp [hc] at h
          · simp [hc] at h
        have hl0 : 0 < s.length := List.length_pos_iff.2 hs
        refine .skip _ _ _ _ _ hl ?_
        rw [if_neg (by omega)]
        have hk : k = 0 ∨ k < s.count t ∨ s.head? ≠ some t := by
          rcases hskip with h | h | h
          · omega
          · right; left
            simp [hc] at h
            exact h
          · right; right
            cases s with
            | nil => exact absurd rfl hs
            | cons a s => simpa using h
        have := ih (c :: d) k hs hk
        simp only [replaced, hc, if_true, List.reverse_cons, List.append_assoc, List.singleton_append]
        rw [hc] at this
        exact this
    · rw [if_neg hc] at hl
      have hrep : replaced t r skip (c :: s.reverse) = c :: replaced t r skip s.reverse := by
        cases skip <;> simp [replaced, hc]
      rw [hrep]
      simp only [List.reverse_cons, List.append_assoc, List.singleton_append]
      by_cases hs : s = []
      · subst hs
        have : replaced t r skip [] = [] := by cases skip <;> rfl
        simp only [List.reverse_nil, this, List.nil_append]
        exact .done _ _ _ (by simpa using hl)
      · rw [if_neg hs] at hl
        have hk : skip = 0 ∨ skip < s.count t ∨ s.head? ≠ some t := by
          rcases hskip with h | h | h
          · exact Or.inl h
          · right; left
            simpa [List.count_append, List.count_singleton, hc] using h
          · right; right
            cases s with
            | nil => exact absurd rfl hs
            | cons a s => simpa using h
        exact ReplaceReverse.shift hl (ih (c :: d) skip hs hk)

theorem ReplaceReverse.unique {t r : Char} {s a b : Str} {pos : Option ℕ} {skip : ℕ} (h1 : ReplaceReverse t r s pos skip a)
    (h2 : ReplaceReverse t r s pos skip b) : a = b := by
  induction h1 generalizing b with
  | done s pos skip h =>
    cases h2 with
    | done => rfl
    | skip _ _ _ _ _ h' => rw [h] at h'; simp at h'
    | put _ _ _ _ h' => rw [h] at h'; simp at h'
  | skip s pos skip p out h _ ih =>
    cases h2 with
    | done _ _ _ h' => rw [h] at h'; simp at h'
    | skip _ _ _ p' _ h' hr =>
      rw [h] at h'
      cases h'
      exact ih hr
  | put s pos p out h _ ih =>
    cases h2 with
    | done _ _ _ h' => rw [h] at h'; simp at h'
    | put _ _ p' _ h' hr =>
      rw [h] at h'
      cases h'
      exact ih hr

/-- C167: replacing from the end gives the string with all occurrences but the last ones replaced, if the first character of the string is not among those to be skipped. -/
theorem C167_replace_reverse_partial (t r : Char) (hne : r ≠ t) (s : Str) (skip : ℕ) (h : skip = 0 ∨ skip < s.count t ∨ s.head? ≠ some t) (out : Str) :
    ReplaceReverse t r s none skip out ↔ out = (replaced t r skip s.reverse).reverse := by
  have key : ReplaceReverse t r s none skip (replaced t r skip s.reverse).reverse := by
    by_cases hs : s = []
    · subst hs
      have : replaced t r skip [] = [] := by cases skip <;> rfl
      simp only [List.reverse_nil, this]
      exact .done _ _ _ rfl
    · have h1 := replaceReverse_aux t r hne s [] skip hs h
      simp only [List.append_nil] at h1
      refine ReplaceReverse.shift ?_ h1
      have hl0 : 0 < s.length := List.length_pos_iff.2 hs
      have : s.take (s.length - 1 + 1) = s := by rw [Nat.sub_add_cancel hl0]; simp
      rw [rfindFrom_some, this]
      rfl
  constructor
  · intro h'; exact h'.unique key
  · rintro rfl; exact key

/-- The last of three slashes stays. -/
example : ReplaceReverse '/' '_' "/b/c/d".toList none 1 "_b_c/d".toList :=
  (C167_replace_reverse_partial _ _ (by decide) _ _ (Or.inr (Or.inl (by decide))) _).2 (by decide)

/-- C167: when the first character is to be skipped, the search starts again at the end, and what was skipped is replaced. -/
theorem C167_replace_reverse_counterexample :
    (ReplaceReverse '/' '_' "/a".toList none 1 "_a".toList ∧ (replaced '/' '_' 1 "/a".toList.reverse).reverse = "/a".toList) ∧
    (ReplaceReverse '/' '_' "/a/".toList none 2 "_a_".toList ∧ (replaced '/' '_' 2 "/a/".toList.reverse).reverse = "/a/".toList) := by
  refine ⟨⟨.skip _ _ _ 0 _ (by decide) (.put _ _ 0 _ (by decide) (.done _ _ _ (by decide))), by decide⟩,
    ⟨.skip _ _ _ 2 _ (by decide) (.skip _ _ _ 0 _ (by decide) (.put _ _ 2 _ (by decide) (.put _ _ 0 _ (by decide) (.done _ _ _ (by decide))))), by decide⟩⟩

/-- C167: padding gives a string of at least the length that ends with the string and has only the character before it. -/
theorem C167_leading_pad (s : Str) (n : ℕ) (c : Char) :
    (leadingPad s n c).length = max s.length n ∧ ∃ p, leadingPad s n c = p ++ s ∧ ∀ x ∈ p, x = c := by
  unfold leadingPad
  split_ifs with h
  · refine ⟨by simp; omega, _, rfl, fun x hx => List.eq_of_mem_replicate hx⟩
  · exact ⟨by omega, [], rfl, by simp⟩

/-- C167: items are written one after the other with the delimiter between them. -/
theorem C167_to_stream (items : List Str) (delimiter pre post : Str) :
    toStream items delimiter pre post = pre ++ delimiter.intercalate items ++ post := by
  unfold toStream
  congr 2
  cases items with
  | nil => simp [List.intercalate]
  | cons i l =>
    simp only
    induction l generalizing i with
    | nil => simp [List.intercalate]
    | cons j l ih =>
      have := ih j
      simp only [List.intercalate, List.intersperse_cons_cons, List.flatten_cons] at this ⊢
      rw [← this]
      simp

/-! ### Variables -/

theorem findOpen_none {s : Str} (h : findOpen s = none) : ¬ ['$', '('] <:+: s := by
  induction s with
  | nil => rintro ⟨a, b, hab⟩; simp at hab
  | cons c s ih =>
    unfold findOpen at h
    split_ifs at h with hc
    simp only [Option.map_eq_none_iff] at h
    rintro ⟨a, b, hab⟩
    cases a with
    | nil =>
      simp only [List.nil_append, List.cons_append, List.cons.injEq] at hab
      obtain ⟨rfl, rfl⟩ := hab
      exact hc ⟨rfl, rfl⟩
    | cons x a =>
      simp only [List.cons_append, List.cons.injEq] at hab
      exact ih h ⟨a, b, by simpa using hab.2⟩

theorem findOpen_some {s : Str} {i : ℕ} (h : findOpen s = some i) :
    ∃ a r, s = a ++ '$' :: '(' :: r ∧ a.length = i ∧ ¬ ['$', '('] <:+: a ++ ['$'] := by
  induction s generalizing i with
  | nil => simp [findOpen] at h
  | cons c s ih =>
    unfold findOpen at h
    split_ifs at h with hc
    · cases h
      obtain ⟨rfl, hh⟩ := hc
      cases s with
      | nil => simp at hh
      | cons d s =>
        simp only [List.head?_cons, Option.some.injEq] at hh
        subst hh
        refine ⟨[], s, rfl, rfl, ?_⟩
        rintro ⟨a, b, hab⟩
        have := congrArg List.length hab
        simp at this
        omega
    · cases hf : findOpen s with
      | none => simp [hf] at h
      | some j =>
        simp [hf] at h
        subst h
        obtain ⟨a, r, rfl, rfl, hno⟩ := ih hf
        refine ⟨c :: a, r, rfl, rfl, ?_⟩
        rintro ⟨x, y, hxy⟩
        cases x with
        | nil =>
          simp only [List.nil_append, List.cons_append, List.cons.injEq] at hxy
          obtain ⟨rfl, hxy⟩ := hxy
          apply hc
          refine ⟨rfl, ?_⟩
          cases a with
          | nil => simp at hxy
          | cons z a =>
            simp only [List.cons_append, List.cons.injEq] at hxy
            simp [← hxy.1]
        | cons z x =>
          simp only [List.cons_append, List.cons.injEq] at hxy
          exact hno ⟨x, y, by simpa using hxy.2⟩

theorem findClose_some {s : Str} {j : ℕ} (h : s.findIdx? (· = ')') = some j) :
    ∃ n b, s = n ++ ')' :: b ∧ n.length = j ∧ ')' ∉ n := by
  induction s generalizing j with
  | nil => simp at h
  | cons c s ih =>
    rw [List.findIdx?_cons] at h
    by_cases hc : c = ')'
    · simp [hc] at h
      exact ⟨[], s, by rw [hc]; rfl, by simpa using h, by simp⟩
    · simp only [hc, decide_false, Bool.false_eq_true, if_false] at h
      cases hf : s.findIdx? (· = ')') with
      | none => simp [hf] at h
      | some k =>
        simp [hf] at h
        subst h
        obtain ⟨n, b, rfl, rfl, hn⟩ := ih hf
        refine ⟨c :: n, b, rfl, rfl, ?_⟩
        simp only [List.mem_cons, not_or]
        exact ⟨fun e => hc e.symm, hn⟩

theorem substLoop_spec (env : Str → Option Str) (s : Str) : ∀ (m : ℕ) (out : Str) (pidx off : ℕ), s.length - off ≤ m → pidx ≤ off → off ≤ s.length →
    ∃ r, Subst env (s.drop off) r ∧ substLoop env s out pidx off = out ++ (s.drop pidx).take (off - pidx) ++ r := by
  have hplain : ∀ pidx off : ℕ, pidx ≤ off → s.drop pidx = (s.drop pidx).take (off - pidx) ++ s.drop off := by
    intro pidx off h
    conv_lhs => rw [← List.take_append_drop (off - pidx) (s.drop pidx)]
    rw [List.drop_drop, Nat.add_sub_cancel' h]
  intro m
  induction m with
  | zero =>
    intro out pidx off hm hp ho
    have h0 : s.drop off = [] := List.drop_eq_nil_of_le (by omega)
    refine ⟨s.drop off, ?_, ?_⟩
    · refine .plain _ ?_
      rw [h0]
      rintro ⟨a, n, b, h⟩
      simp at h
    · rw [substLoop]
      have : findOpen (s.drop off) = none := by rw [h0]; rfl
      split
      · rw [List.append_assoc, ← hplain pidx off hp]
      · rename_i i hi; rw [this] at hi; simp at hi
  | succ m ih =>
    intro out pidx off hm hp ho
    rw [substLoop]
    split
    · rename_i hno
      refine ⟨s.drop off, .plain _ ?_, by rw [List.append_assoc, ← hplain pidx off hp]⟩
      rintro ⟨a, n, b, h⟩
      exact findOpen_none hno ⟨a, n ++ [')'] ++ b, by rw [h]; simp⟩
    · rename_i i hi
      obtain ⟨a, r, hs, ha, hno⟩ := findOpen_some hi
      have hd : s.drop (off + i) = '$' :: '(' :: r := by
        rw [← List.drop_drop, hs, ← ha]; simp
      rw [hd]
      split
      · rename_i hcl
        refine ⟨s.drop off, .plain _ ?_, by rw [List.append_assoc, ← hplain pidx off hp]⟩
        rintro ⟨a', n, b, h⟩
        have hmem : ')' ∉ r := by
          intro hm
          rw [List.findIdx?_eq_none_iff] at hcl
          have := hcl ')' (by simp [hm])
          simp at this
        -- the first opening is at `a`, so the one at `a'` is not before it
        have hle : a.length ≤ a'.length := by
          by_contra hlt
          push Not at hlt
          apply hno
          have hpre : a' ++ ['$', '('] <+: a ++ ['$'] := by
            have h1 : a' ++ ['$', '('] <+: s.drop off := ⟨n ++ [')'] ++ b, by rw [h]; simp⟩
            have h2 : a ++ ['$'] <+: s.drop off := ⟨'(' :: r, by rw [hs]; simp⟩
            exact List.prefix_of_prefix_length_le h1 h2 (by simp; omega)
          obtain ⟨y, hy⟩ := hpre
          exact ⟨a', y, hy⟩
        have hsuf : [')'] ++ b <:+ '$' :: '(' :: r := by
          have h1 : [')'] ++ b <:+ s.drop off := ⟨a' ++ ['$', '('] ++ n, by rw [h]; simp⟩
          have h2 : '$' :: '(' :: r <:+ s.drop off := ⟨a, by rw [hs]⟩
          refine List.suffix_of_suffix_length_le h1 h2 ?_
          have e1 := congrArg List.length h
          have e2 := congrArg List.length hs
          simp at e1 e2 ⊢
          omega
        have : ')' ∈ '$' :: '(' :: r := hsuf.subset (by simp)
        simp at this
        exact hmem this
      · rename_i j hj
        obtain ⟨n', b, hnb, hnj, hn'⟩ := findClose_some hj
        -- the name
        obtain ⟨n, rfl⟩ : ∃ n, n' = '$' :: '(' :: n := by
          cases n' with
          | nil => simp at hnb
          | cons x n' =>
            cases n' with
            | nil => simp at hnb
            | cons y n' =>
              simp only [List.cons_append, List.cons.injEq] at hnb
              exact ⟨n', by rw [← hnb.1, ← hnb.2.1]⟩
        have hr : r = n ++ ')' :: b := by simpa using hnb
        subst hr
        have hn : ')' ∉ n := fun h => hn' (by simp [h])
        have hname : (s.drop (off + i + 2)).take (j - 2) = n := by
          rw [← List.drop_drop, hd]
          simp at hnj
          have : j - 2 = n.length := by omega
          rw [this]; simp
        have hb : s.drop (off + i + j + 1) = b := by
          have : off + i + j + 1 = off + i + (j + 1) := by omega
          rw [this, ← List.drop_drop, hd, hnb, ← hnj]
          simp
        have hlen : off + i + j + 1 ≤ s.length := by
          have e := congrArg List.length hs
          simp at e hnj
          omega
        have htake : (s.drop pidx).take (off + i - pidx) = (s.drop pidx).take (off - pidx) ++ a := by
          have e : off + i - pidx = (off - pidx) + i := by omega
          rw [e, List.take_add, List.drop_drop, Nat.add_sub_cancel' hp, hs, ← ha]
          simp
        rw [hname]
        split
        · rename_i v hv
          obtain ⟨r, h1, h2⟩ := ih (out ++ (s.drop pidx).take (off + i - pidx) ++ v) (off + i + j + 1) (off + i + j + 1) (by omega) le_rfl hlen
          rw [hb] at h1
          refine ⟨a ++ v ++ r, ?_, ?_⟩
          · have := Subst.var (env := env) a n b r hno hn h1
            rw [hv] at this
            rw [hs]
            simpa using this
          · rw [h2, htake]; simp
        · rename_i hv
          obtain ⟨r, h1, h2⟩ := ih out pidx (off + i + j + 1) (by omega) (by omega) hlen
          rw [hb] at h1
          refine ⟨a ++ (['$', '('] ++ n ++ [')']) ++ r, ?_, ?_⟩
          · have := Subst.var (env := env) a n b r hno hn h1
            rw [hv] at this
            rw [hs]
            simpa using this
          · rw [h2]
            have e : off + i + j + 1 - pidx = (off - pidx) + (i + j + 1) := by omega
            rw [e, List.take_add, List.drop_drop, Nat.add_sub_cancel' hp, hs, ← ha]
            have e2 : a ++ '$' :: '(' :: (n ++ ')' :: b) = (a ++ ('$' :: '(' :: n ++ [')'])) ++ b := by simp
            have e3 : a.length + j + 1 = (a ++ ('$' :: '(' :: n ++ [')'])).length := by
              simp at hnj ⊢; omega
            rw [e2, e3, List.take_left]
            simp

/-- C167: every variable `$(NAME)` of a text is replaced by its value, once, and everything else stays, also variables that do not exist. -/
theorem C167_variables (env : Str → Option Str) (s : Str) : Subst env s (substituteEnvVars env s) := by
  obtain ⟨r, h1, h2⟩ := substLoop_spec env s s.length [] 0 0 (by omega) le_rfl (Nat.zero_le _)
  unfold substituteEnvVars
  rw [h2]
  simpa using h1

/-- C167: a text without variables stays. -/
theorem C167_no_variables (env : Str → Option Str) (s : Str) (h : ¬ ['$', '('] <:+: s) : substituteEnvVars env s = s := by
  have := C167_variables env s
  generalize substituteEnvVars env s = r at this
  cases this with
  | plain => rfl
  | var a n b b' => exact absurd ⟨a, n ++ [')'] ++ b, by simp⟩ h

/-- A variable that exists, and one that does not. -/
example : Subst (fun n => if n = "HOME".toList then some "/root".toList else none) "a$(HOME)b$(X)".toList "a/rootb$(X)".toList :=
  .var ['a'] "HOME".toList "b$(X)".toList "b$(X)".toList (by decide) (by decide)
    (.var ['b'] ['X'] [] [] (by decide) (by decide) (.plain [] (by rintro ⟨a, n, b, h⟩; simp at h)))

/-! ## Identifiers -/

theorem hexVal_hexDigit (n : ℕ) (h : n < 16) : hexVal (hexDigit n) = some n := by
  interval_cases n <;> decide

theorem readByte_hex (b : ℕ) (h : b < 256) : readByte (hexDigit (b / 16)) (hexDigit (b % 16)) = b := by
  unfold readByte
  rw [hexVal_hexDigit _ (by omega), hexVal_hexDigit _ (by omega)]
  simp only
  omega

theorem readBytes_hexString (v : List ℕ) (h : ∀ b ∈ v, b < 256) : readBytes (hexString v) = v := by
  induction v with
  | nil => rfl
  | cons b v ih =>
    have hb := h b (by simp)
    have ih := ih fun x hx => h x (by simp [hx])
    unfold hexString at ih ⊢
    simp only [List.map_cons, List.flatten_cons, List.cons_append, List.nil_append, readBytes]
    rw [readByte_hex b hb, ih]

theorem hexString_length (v : List ℕ) : (hexString v).length = 2 * v.length := by
  induction v with
  | nil => rfl
  | cons b v ih =>
    unfold hexString at ih ⊢
    simp only [List.map_cons, List.flatten_cons, List.length_append, List.length_cons, List.length_nil, ih]
    omega

/-- C167: an identifier is read back from its text, whatever was there before. -/
theorem C167_identifier_text (old v : List ℕ) (h : IsHash v) : fromHexString old (hexString v) = (true, v) := by
  unfold fromHexString
  rw [if_neg (by rw [hexString_length, h.length]; omega), readBytes_hexString v h.byte]

/-- C167: different identifiers have different texts. -/
theorem C167_identifier_injective (v w : List ℕ) (hv : IsHash v) (hw : IsHash w) (h : hexString v = hexString w) : v = w := by
  have h1 := C167_identifier_text [] v hv
  rw [h, C167_identifier_text [] w hw] at h1
  exact (Prod.mk.inj h1).2.symm

/-- C167: a text of another length is refused and the identifier stays. -/
theorem C167_identifier_length (old : List ℕ) (s : Str) (h : s.length ≠ 32) : fromHexString old s = (false, old) := by
  unfold fromHexString; rw [if_pos h]

/-- C167: a text of the right length is accepted also if it is not a hexadecimal number. -/
theorem C167_identifier_counterexample (old : List ℕ) : fromHexString old (List.replicate 32 'z') = (true, hashInvalid) := by
  unfold fromHexString
  rw [if_neg (by simp)]
  decide

theorem u64_lt (v : List ℕ) (i : ℕ) : u64 v i = Nat.ofDigits 256 ((v.drop (8 * i)).take 8) := rfl

theorem u64_inj {v w : List ℕ} (hv : IsHash v) (hw : IsHash w) (h0 : u64 v 0 = u64 w 0) (h1 : u64 v 1 = u64 w 1) : v = w := by
  have lv := hv.length
  have lw := hw.length
  have key : ∀ i, i < 2 → u64 v i = u64 w i → (v.drop (8 * i)).take 8 = (w.drop (8 * i)).take 8 := by
    intro i hi h
    refine Nat.ofDigits_inj_of_len_eq (b := 256) (by norm_num) ?_ ?_ ?_ h
    · simp [lv, lw]
    · intro l hl; exact hv.byte l (List.mem_of_mem_drop (List.mem_of_mem_take hl))
    · intro l hl; exact hw.byte l (List.mem_of_mem_drop (List.mem_of_mem_take hl))
  have k0 := key 0 (by norm_num) h0
  have k1 := key 1 (by norm_num) h1
  simp only [Nat.mul_zero, List.drop_zero, Nat.mul_one] at k0 k1
  have e : ∀ x : List ℕ, x.length = 16 → x = x.take 8 ++ (x.drop 8).take 8 := by
    intro x hx
    have : (x.drop 8).take 8 = x.drop 8 := List.take_of_length_le (by simp [hx])
    rw [this, List.take_append_drop]
  rw [e v lv, e w lw, k0, k1]

/-- C167: two identifiers are equal exactly if their bytes are. -/
theorem C167_identifier_equal (v w : List ℕ) (hv : IsHash v) (hw : IsHash w) : hashEq v w = true ↔ v = w := by
  unfold hashEq
  rw [decide_eq_true_iff]
  exact ⟨fun h => u64_inj hv hw h.1 h.2, by rintro rfl; exact ⟨rfl, rfl⟩⟩

/-- C167: identifiers are totally ordered, and greater is the opposite of less. -/
theorem C167_identifier_order :
    (∀ v, hashLt v v = false) ∧
    (∀ u v w, hashLt u v = true → hashLt v w = true → hashLt u w = true) ∧
    (∀ v w, IsHash v → IsHash w → v ≠ w → hashLt v w = true ∨ hashLt w v = true) ∧
    (∀ v w, hashGt v w = hashLt w v) := by
  refine ⟨?_, ?_, ?_, ?_⟩
  · intro v; simp [hashLt]
  · intro u v w h1 h2
    unfold hashLt at *
    split_ifs at h1 h2 ⊢ <;> simp only [decide_eq_true_eq] at * <;> omega
  · intro v w hv hw hne
    have : ¬ (u64 v 0 = u64 w 0 ∧ u64 v 1 = u64 w 1) := fun h => hne (u64_inj hv hw h.1 h.2)
    unfold hashLt
    by_cases h : u64 v 0 = u64 w 0
    · rw [if_pos h, if_pos h.symm]; simp only [decide_eq_true_eq]; omega
    · rw [if_neg h, if_neg (Ne.symm h)]; simp only [decide_eq_true_eq]; omega
  · intro v w
    unfold hashGt hashLt
    by_cases h : u64 v 0 = u64 w 0
    · rw [if_pos h, if_pos h.symm]
    · rw [if_neg h, if_neg (Ne.symm h)]

/-- C167: only the identifier that is made invalid is invalid. -/
theorem C167_identifier_valid (v : List ℕ) (hv : IsHash v) : hashValid v = false ↔ v = hashInvalid := by
  have hi : IsHash hashInvalid := ⟨rfl, by intro b hb; rw [List.eq_of_mem_replicate hb]; norm_num⟩
  have z0 : u64 hashInvalid 0 = 0 := by decide
  have z1 : u64 hashInvalid 1 = 0 := by decide
  rw [← C167_identifier_equal v _ hv hi]
  unfold hashValid hashEq
  rw [z0, z1]
  simp only [decide_eq_false_iff_not, decide_eq_true_eq]
  tauto

/-- Sixteen bytes. -/
example : IsHash ((List.range 16).map (· * 17)) := ⟨by simp, by decide⟩

/-! ## Comparisons -/

/-- C167: for every positive precision exactly one of equal, greater and less holds for two numbers, and the answers are those
of the numbers turned around and of the numbers scaled. -/
theorem C167_comparisons (a b e : ℝ) (he : 0 < e) :
    (∃ x y z, approximatelyEqual a b e = .ok x ∧ definitelyGreaterThan a b e = .ok y ∧ definitelyLessThan a b e = .ok z ∧
      ((x = true ∧ y = false ∧ z = false) ∨ (x = false ∧ y = true ∧ z = false) ∨ (x = false ∧ y = false ∧ z = true)) ∧
      (x = true ↔ |a - b| ≤ max |a| |b| * e) ∧ (y = true → b < a) ∧ (z = true → a < b)) ∧
    approximatelyEqual b a e = approximatelyEqual a b e ∧
    definitelyLessThan a b e = definitelyGreaterThan b a e ∧
    ∀ s, 0 < s → approximatelyEqual (s * a) (s * b) e = approximatelyEqual a b e ∧
      definitelyGreaterThan (s * a) (s * b) e = definitelyGreaterThan a b e := by
  have hm : 0 ≤ max |a| |b| * e := mul_nonneg (le_max_of_le_left (abs_nonneg a)) he.le
  refine ⟨⟨_, _, _, by rw [approximatelyEqual, if_pos he], by rw [definitelyGreaterThan, if_pos he], by rw [definitelyLessThan, if_pos he],
    ?_, ?_, ?_, ?_⟩, ?_, ?_, ?_⟩
  · unfold maxTimesEpsilon
    simp only [decide_eq_true_eq, decide_eq_false_iff_not, not_lt, not_le, gt_iff_lt]
    rcases le_or_gt (|a - b|) (max |a| |b| * e) with h | h
    · left
      have := abs_le.1 h
      exact ⟨h, by linarith, by linarith⟩
    · right
      rcases lt_abs.1 h with h' | h'
      · left; exact ⟨h, h', by linarith⟩
      · right; exact ⟨h, by linarith, by linarith⟩
  · rw [decide_eq_true_iff]; rfl
  · rw [decide_eq_true_iff]; unfold maxTimesEpsilon; intro h; linarith
  · rw [decide_eq_true_iff]; unfold maxTimesEpsilon; intro h; linarith
  · unfold approximatelyEqual maxTimesEpsilon
    rw [if_pos he, if_pos he, abs_sub_comm, max_comm]
  · unfold definitelyLessThan definitelyGreaterThan maxTimesEpsilon
    rw [if_pos he, if_pos he, max_comm]
  · intro s hs
    have hmax : max |s * a| |s * b| * e = s * (max |a| |b| * e) := by
      rw [abs_mul, abs_mul, abs_of_pos hs, ← mul_max_of_nonneg _ _ hs.le, mul_assoc]
    unfold approximatelyEqual definitelyGreaterThan maxTimesEpsilon
    rw [if_pos he, if_pos he, if_pos he, if_pos he, hmax, ← mul_sub, abs_mul, abs_of_pos hs]
    constructor
    · congr 1
      exact decide_eq_decide.2 (mul_le_mul_iff_right₀ hs)
    · congr 1
      exact decide_eq_decide.2 (mul_lt_mul_iff_right₀ hs)

/-- C167: a precision that is not positive is refused. -/
theorem C167_comparisons_refused (a b e : ℝ) (he : e ≤ 0) :
    approximatelyEqual a b e = .raise ∧ definitelyGreaterThan a b e = .raise ∧ definitelyLessThan a b e = .raise := by
  have h : ¬ e > 0 := not_lt.2 he
  exact ⟨if_neg h, if_neg h, if_neg h⟩

/-! ## Portable archives -/

theorem ofDigits_leBytes (m k : ℕ) : Nat.ofDigits 256 (leBytes m k) = m % 256 ^ k := by
  induction k generalizing m with
  | zero => simp [leBytes, Nat.mod_one]
  | succ k ih =>
    rw [leBytes, Nat.ofDigits_cons, ih, pow_succ', Nat.mod_mul]

theorem leBytes_length (m k : ℕ) : (leBytes m k).length = k := by
  induction k generalizing m with
  | zero => rfl
  | succ k ih => simp [leBytes, ih]

theorem leBytes_take (m k j : ℕ) (h : j ≤ k) : (leBytes m k).take j = leBytes m j := by
  induction j generalizing m k with
  | zero => simp [leBytes]
  | succ j ih =>
    obtain ⟨k, rfl⟩ : ∃ k', k = k' + 1 := ⟨k - 1, by omega⟩
    simp only [leBytes, List.take_succ_cons]
    rw [ih _ _ (by omega)]

theorem leBytes_drop (m k j : ℕ) (h : j ≤ k) : (leBytes m k).drop j = leBytes (m / 256 ^ j) (k - j) := by
  induction j generalizing m k with
  | zero => simp
  | succ j ih =>
    obtain ⟨k, rfl⟩ : ∃ k', k = k' + 1 := ⟨k - 1, by omega⟩
    simp only [leBytes, List.drop_succ_cons]
    rw [ih _ _ (by omega), Nat.div_div_eq_div_mul, ← pow_succ', Nat.succ_sub_succ]

theorem ofDigits_zeros (n : ℕ) : Nat.ofDigits 256 (List.replicate n 0) = 0 := by
  induction n with
  | zero => rfl
  | succ n ih => rw [List.replicate_succ, Nat.ofDigits_cons, ih]

theorem lt_byteCount (m : ℕ) : m < 256 ^ byteCount m := by
  induction m using Nat.strong_induction_on with
  | _ m ih =>
    rw [byteCount]
    split_ifs with h
    · simp; omega
    · have := ih (m / 256) (by omega)
      rw [pow_succ]
      omega

theorem byteCount_le (m k : ℕ) (hk : 0 < k) (h : m < 256 ^ k) : byteCount m ≤ k := by
  induction k generalizing m with
  | zero => omega
  | succ k ih =>
    rw [byteCount]
    split_ifs with h0
    · omega
    · have : m / 256 < 256 ^ k := by rw [pow_succ] at h; omega
      by_cases hk0 : k = 0
      · subst hk0; simp at h; omega
      · have := ih _ (by omega) this
        omega

theorem byteCount_pos (m : ℕ) : 0 < byteCount m := by
  rw [byteCount]; split_ifs <;> omega

theorem le_of_byteCount (m k : ℕ) (h : 256 ^ k ≤ m) : k < byteCount m := by
  by_contra hn
  push Not at hn
  have h1 := lt_byteCount m
  have := Nat.pow_le_pow_right (n := 256) (by norm_num) hn
  omega

/-- What comes back of the size of a number. -/
theorem load_save_nat (big fb fl : Bool) (l : ℤ) (t : ℕ) (h0 : l ≠ 0) (hmin : l ≠ -2 ^ 63) (hlt : l.natAbs < 256 ^ 8) (ht : byteCount l.natAbs ≤ t) :
    (saveImpl big fb fl l).bind (loadImpl big fb fl t) =
      .ok (l.sign * (if big then l.natAbs else l.natAbs / 256 ^ (8 - byteCount l.natAbs) * 256 ^ (8 - byteCount l.natAbs) : ℕ)) := by
  have hs8 := byteCount_le l.natAbs 8 (by norm_num) hlt
  have hs0 := byteCount_pos l.natAbs
  have hlb := lt_byteCount l.natAbs
  unfold saveImpl
  rw [if_neg h0, if_neg hmin]
  simp only [Out.bind, macroDefined, if_true, turned]
  generalize hs : byteCount l.natAbs = s at *
  generalize hm : l.natAbs = m at *
  -- the bytes
  have hpart : ∀ p : List ℕ, (if fl = true then (if fl = true then p.reverse else p).reverse else (if fl = true then p.reverse else p)) = p := by
    intro p; cases fl <;> simp
  have hsign : (if l < 0 then -(s : ℤ) else s) ≠ 0 := by split_ifs <;> omega
  have habs : (if l < 0 then -(s : ℤ) else s).natAbs = s := by split_ifs <;> omega
  have hneg : (if l < 0 then -(s : ℤ) else s) < 0 ↔ l < 0 := by split_ifs with h <;> omega
  unfold loadImpl
  simp only [macroDefined, if_true, turned]
  rw [if_neg hsign, habs, if_neg (by omega), hpart]
  have hval : ofMemory big (List.replicate (8 - s) 0 ++ ((memory big m).drop (8 - s)).take s) = (if big then m else m / 256 ^ (8 - s) * 256 ^ (8 - s)) := by
    cases big with
    | true =>
      simp only [ofMemory, memory, if_true]
      have : ((leBytes m 8).reverse.drop (8 - s)).take s = (leBytes m s).reverse := by
        rw [List.drop_reverse, leBytes_length]
        have e : 8 - (8 - s) = s := by omega
        rw [e, leBytes_take _ _ _ hs8, List.take_of_length_le (by simp [leBytes_length])]
      rw [this, List.reverse_append, List.reverse_reverse, List.reverse_replicate, Nat.ofDigits_append, ofDigits_leBytes, ofDigits_zeros,
        Nat.mod_eq_of_lt hlb]
      simp
    | false =>
      simp only [ofMemory, memory, Bool.false_eq_true, if_false]
      rw [leBytes_drop _ _ _ (by omega)]
      have e : 8 - (8 - s) = s := by omega
      rw [e, List.take_of_length_le (by simp [leBytes_length]), Nat.ofDigits_append, ofDigits_leBytes, ofDigits_zeros, List.length_replicate, zero_add]
      rw [Nat.mod_eq_of_lt, Nat.mul_comm]
      rw [Nat.div_lt_iff_lt_mul (by positivity), ← pow_add]
      have : s + (8 - s) = 8 := by omega
      rw [this]; exact hlt
  rw [hval]
  congr 1
  by_cases hl : l < 0
  · rw [if_pos (hneg.2 hl), Int.sign_eq_neg_one_of_neg hl]; ring
  · rw [if_neg (fun h => hl (hneg.1 h)), Int.sign_eq_one_of_pos (by omega)]; ring

theorem toMax_small {t : IntType} {v : ℤ} (hb : 0 < t.bytes ∧ t.bytes ≤ 8) (h : t.Has v) : (toMax v).natAbs < 256 ^ t.bytes ∧ (toMax v).natAbs < 256 ^ 8 ∧
    fromMax t (toMax v) = v := by
  obtain ⟨b, sg⟩ := t
  obtain ⟨h1, h2⟩ := hb
  simp only at h1 h2
  unfold IntType.Has at h
  unfold toMax fromMax
  simp only at h ⊢
  cases sg <;> simp only [if_true, Bool.false_eq_true, if_false] at h ⊢ <;> interval_cases b <;> norm_num at h ⊢ <;> simp only [Int.bmod] <;>
    norm_num <;> (try split_ifs) <;> omega

/-- C168: on a machine that stores the high byte first every integer is read back by its type, whatever the order of the bytes in the file, except for
the lowest one of 64 bits. -/
theorem C168_big_partial (fb fl : Bool) (t : IntType) (v : ℤ) (hb : 0 < t.bytes ∧ t.bytes ≤ 8) (h : t.Has v) (hmin : toMax v ≠ -2 ^ 63) :
    (saveInt true fb fl v).bind (loadInt true fb fl t) = .ok v := by
  obtain ⟨h1, h2, h3⟩ := toMax_small hb h
  unfold saveInt loadInt
  by_cases h0 : toMax v = 0
  · rw [h0] at h3 ⊢
    simp [saveImpl, loadImpl, h3]
  · have := load_save_nat true fb fl (toMax v) t.bytes h0 hmin h2 (byteCount_le _ _ hb.1 h1)
    cases hsv : saveImpl true fb fl (toMax v) with
    | ok a =>
      rw [hsv] at this
      simp only [Out.bind, if_true] at this ⊢
      rw [this]
      simp only [Int.sign_mul_natAbs, h3]
    | raise => rw [hsv] at this; simp [Out.bind] at this
    | ub => rw [hsv] at this; simp [Out.bind] at this

/-- A number of four bytes. -/
example : (⟨4, true⟩ : IntType).Has (-70000) ∧ toMax (-70000) ≠ -2 ^ 63 := by
  refine ⟨by simp [IntType.Has], ?_⟩
  simp only [toMax, Int.bmod]; norm_num

/-- C168: on a machine that stores the low byte first only the high half is read back: every integer with a value below `2 ^ 32` comes back as zero. -/
theorem C168_little_counterexample (fb fl : Bool) (t : IntType) (v : ℤ) (hb : 0 < t.bytes ∧ t.bytes ≤ 8) (h : t.Has v) (hs : (toMax v).natAbs < 2 ^ 32) :
    (saveInt false fb fl v).bind (loadInt false fb fl t) = .ok 0 := by
  obtain ⟨h1, h2, h3⟩ := toMax_small hb h
  unfold saveInt loadInt
  have hz : fromMax t 0 = 0 := by unfold fromMax; split_ifs <;> simp
  by_cases h0 : toMax v = 0
  · rw [h0]
    simp [saveImpl, loadImpl, hz]
  · have hmin : toMax v ≠ -2 ^ 63 := by intro e; rw [e] at hs; norm_num at hs
    have := load_save_nat false fb fl (toMax v) t.bytes h0 hmin h2 (byteCount_le _ _ hb.1 h1)
    have h4 : byteCount (toMax v).natAbs ≤ 4 := byteCount_le _ _ (by norm_num) (by norm_num; exact hs)
    have hdiv : (toMax v).natAbs / 256 ^ (8 - byteCount (toMax v).natAbs) = 0 := by
      apply Nat.div_eq_of_lt
      calc (toMax v).natAbs < 2 ^ 32 := hs
        _ = 256 ^ 4 := by norm_num
        _ ≤ 256 ^ (8 - byteCount (toMax v).natAbs) := Nat.pow_le_pow_right (by norm_num) (by omega)
    cases hsv : saveImpl false fb fl (toMax v) with
    | ok a =>
      rw [hsv] at this
      simp only [Out.bind, Bool.false_eq_true, if_false, hdiv] at this ⊢
      rw [this]
      simp [hz]
    | raise => rw [hsv] at this; simp [Out.bind] at this
    | ub => rw [hsv] at this; simp [Out.bind] at this

/-- The number five. -/
example (fb fl : Bool) : (saveInt false fb fl 5).bind (loadInt false fb fl ⟨4, true⟩) = .ok 0 :=
  C168_little_counterexample fb fl ⟨4, true⟩ 5 (by norm_num) (by norm_num [IntType.Has]) (by simp only [toMax, Int.bmod]; norm_num)

/-- C168: on a machine that stores the low byte first the integers that need all eight bytes are read back. -/
theorem C168_little_partial (fb fl : Bool) (t : IntType) (v : ℤ) (ht : t.bytes = 8) (h : t.Has v) (hmin : toMax v ≠ -2 ^ 63)
    (hs : 2 ^ 56 ≤ (toMax v).natAbs) : (saveInt false fb fl v).bind (loadInt false fb fl t) = .ok v := by
  obtain ⟨h1, h2, h3⟩ := toMax_small (by omega) h
  unfold saveInt loadInt
  have h0 : toMax v ≠ 0 := by intro e; rw [e] at hs; norm_num at hs
  have hle := byteCount_le (toMax v).natAbs 8 (by norm_num) h2
  have hge := le_of_byteCount (toMax v).natAbs 7 (by norm_num at hs ⊢; exact hs)
  have h8 : byteCount (toMax v).natAbs = 8 := by omega
  have := load_save_nat false fb fl (toMax v) t.bytes h0 hmin h2 (by omega)
  rw [h8] at this
  cases hsv : saveImpl false fb fl (toMax v) with
  | ok a =>
    rw [hsv] at this
    simp only [Out.bind, Bool.false_eq_true, if_false, Nat.sub_self, pow_zero, Nat.div_one, Nat.mul_one, Int.sign_mul_natAbs] at this ⊢
    rw [this]
    simp only [h3]
  | raise => rw [hsv] at this; simp [Out.bind] at this
  | ub => rw [hsv] at this; simp [Out.bind] at this

/-- C168: writing the lowest number of 64 bits overflows. -/
theorem C168_lowest_counterexample (big fb fl : Bool) : saveInt big fb fl (-2 ^ 63) = .ub := by
  have : toMax (-2 ^ 63) = -2 ^ 63 := by simp only [toMax, Int.bmod]; norm_num
  unfold saveInt saveImpl
  rw [this, if_neg (by norm_num), if_pos rfl]

/-- C168: what needs more bytes than the type has is refused, and a number that needs as many bytes can become another one. -/
theorem C168_narrow (fb fl : Bool) (t : IntType) (l : ℤ) (h0 : l ≠ 0) (hmin : l ≠ -2 ^ 63) (h : t.bytes < byteCount l.natAbs) (big : Bool) :
    (saveImpl big fb fl l).bind (loadInt big fb fl t) = .raise := by
  unfold saveImpl
  rw [if_neg h0, if_neg hmin]
  simp only [Out.bind]
  unfold loadInt loadImpl
  generalize byteCount l.natAbs = s at *
  have hsign : (if l < 0 then -(s : ℤ) else s) ≠ 0 := by split_ifs <;> omega
  have habs : (if l < 0 then -(s : ℤ) else s).natAbs = s := by split_ifs <;> omega
  simp only
  rw [if_neg hsign, habs, if_pos h]
  rfl

/-- C168: forty thousand is read into a type for numbers up to 32767 as another number. -/
theorem C168_narrow_counterexample (fb fl : Bool) : (saveInt true fb fl 40000).bind (loadInt true fb fl ⟨2, true⟩) = .ok (-25536) := by
  have ht : toMax 40000 = 40000 := by simp only [toMax, Int.bmod]; norm_num
  have hb : byteCount 40000 ≤ 2 := byteCount_le _ _ (by norm_num) (by norm_num)
  have := load_save_nat true fb fl 40000 2 (by norm_num) (by norm_num) (by norm_num) hb
  unfold saveInt loadInt
  rw [ht]
  cases hsv : saveImpl true fb fl 40000 with
  | ok a =>
    rw [hsv] at this
    simp only [Out.bind, if_true] at this ⊢
    rw [this]
    simp only [fromMax, if_true, Int.bmod]
    norm_num
  | raise => rw [hsv] at this; simp [Out.bind] at this
  | ub => rw [hsv] at this; simp [Out.bind] at this

end Kalibr.Util
