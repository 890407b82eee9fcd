import Verif.Reuse.Model
import Verif.Tactics
import Mathlib.Data.List.Perm.Basic
import Mathlib.Data.List.Range

/-! # C180: the buffers the sparse linear solvers reuse -/

namespace Kalibr.Reuse

/-! ## Specification -/

/-- The columns of a matrix: rows paired with values. -/
def columns {K : Type} : List (List ℕ) → List K → List (List (ℕ × K))
  | [], _ => []
  | c :: cs, v => c.zip (v.take c.length) :: columns cs (v.drop c.length)

/-- A matrix that has columns, one value per entry and not more entries than announced. -/
def Proper {K : Type} (A : Mtx K) : Prop :=
  A.pat ≠ [] ∧ A.vals.length = A.pat.flatten.length ∧ A.vals.length ≤ A.nonZeros

/-- The pattern only changes after `init`. -/
def Announced {K : Type} (ops : List (Op K)) : Prop :=
  ∀ a A p f b B p' f' c, ops = a ++ Op.solve A p f :: b ++ Op.solve B p' f' :: c →
    Op.init ∉ b → A.pat = B.pat

/-- The matrices of the solutions. -/
def wanted {K : Type} : List (Op K) → List (List (List (ℕ × K)) × List (List ℕ))
  | [] => []
  | .init :: r => wanted r
  | .solve A _ _ :: r => (columns A.pat A.vals, A.pat) :: wanted r

/-! ## Reading back -/

theorem readCols_spec {K : Type} (pat : List (List ℕ)) :
    ∀ (vals : List K) (I0 It : List ℕ) (X0 Xt : List K) (k : ℕ),
      vals.length = pat.flatten.length → I0.length = k → X0.length = k →
      readCols (I0 ++ (pat.flatten ++ It)) (X0 ++ (vals ++ Xt)) pat.length (pointers k pat) =
        .ok (columns pat vals) := by
  induction pat with
  | nil => intro vals I0 It X0 Xt k _ _ _; simp [readCols, columns]
  | cons c cs ih =>
    intro vals I0 It X0 Xt k hv hI hX
    have hlen : c.length ≤ vals.length := by
      rw [hv]; simp
    have ht : (vals.take c.length).length = c.length := by simp [hlen]
    have ih' := ih (vals.drop c.length) (I0 ++ c) It (X0 ++ vals.take c.length) Xt (k + c.length)
      (by simp [hv]) (by simp [hI]) (by simp [hX, hlen])
    have e1 : I0 ++ ((c :: cs).flatten ++ It) = (I0 ++ c) ++ (cs.flatten ++ It) := by simp
    have e2 : X0 ++ (vals ++ Xt) =
        (X0 ++ vals.take c.length) ++ (vals.drop c.length ++ Xt) := by
      rw [List.append_assoc, ← List.append_assoc (vals.take _), List.take_append_drop]
    rw [e1, e2]
    have hp : ∃ r, pointers (k + c.length) cs = (k + c.length) :: r := by
      cases cs <;> exact ⟨_, rfl⟩
    obtain ⟨r, hr⟩ := hp
    rw [hr] at ih'
    simp only [pointers, hr, List.length_cons, readCols]
    rw [if_pos ⟨by simp [hI], by simp [hX, ht]⟩, ih']
    simp only [Out.bind, columns]
    congr 2
    have hz : ((I0 ++ c) ++ (cs.flatten ++ It)).zip
          ((X0 ++ vals.take c.length) ++ (vals.drop c.length ++ Xt)) =
        I0.zip X0 ++ (c.zip (vals.take c.length) ++ (cs.flatten ++ It).zip
          (vals.drop c.length ++ Xt)) := by
      rw [List.append_assoc, List.append_assoc, List.zip_append (by omega),
        List.zip_append (by omega)]
    have l1 : (I0.zip X0).length = k := by simp [hI, hX]
    have l2 : (c.zip (vals.take c.length)).length = c.length := by simp [hlen]
    have l3 : (I0.zip X0 ++ c.zip (vals.take c.length)).length = k + c.length := by
      rw [List.length_append, l1, l2]
    rw [hz, ← List.append_assoc, List.take_left' l3, List.drop_left' l1]

/-- What the buffers hold while there is a symbolic factorization. -/
def Holds {K : Type} (s : Solver K) : Prop :=
  ∀ q, s.symbolic = some q →
    s.buf.p = some (pointers 0 q) ∧ (∃ t, s.buf.i = q.flatten ++ t) ∧
      q.flatten.length ≤ s.buf.nzmax ∧ q.length ≤ s.buf.colsAlloc

theorem overwrite_front {α : Type} (l o : List α) : ∃ t, overwrite l o = l ++ t := ⟨_, rfl⟩

theorem growCols_le {K : Type} (b : Buf K) (n : ℕ) : n ≤ (growCols b n).colsAlloc := by
  unfold growCols
  split
  · simp only; split <;> omega
  · omega

theorem growNz_le {K : Type} (b : Buf K) (n : ℕ) : n ≤ (growNz b n).nzmax := by
  unfold growNz
  split
  · simp only; split <;> omega
  · omega

theorem growNz_cols {K : Type} (b : Buf K) (n : ℕ) :
    (growNz b n).colsAlloc = b.colsAlloc := by
  unfold growNz
  split <;> rfl

/-- The first solution after `init` writes everything. -/
theorem fill_all {K : Type} (b : Buf K) (A : Mtx K) (hA : Proper A) :
    ∃ b', fill b A false = .ok b' ∧ b'.p = some (pointers 0 A.pat) ∧
      (∃ t, b'.i = A.pat.flatten ++ t) ∧ (∃ t, b'.x = A.vals ++ t) ∧
      A.vals.length ≤ b'.nzmax ∧ A.cols ≤ b'.colsAlloc ∧ b'.cols = A.cols := by
  obtain ⟨hne, _, hle⟩ := hA
  have h1 := growCols_le b A.cols
  have h2 := growNz_le (growCols b A.cols) A.nonZeros
  have h3 := growNz_cols (growCols b A.cols) A.nonZeros
  have hpos : 0 < A.cols := List.length_pos_iff.mpr hne
  have n1 : ¬ (growNz (growCols b A.cols) A.nonZeros).nzmax < A.vals.length := by omega
  have n2 : ¬ (growNz (growCols b A.cols) A.nonZeros).colsAlloc = 0 := by omega
  simp only [fill, Bool.false_eq_true, if_false, n1, n2]
  refine ⟨_, rfl, rfl, overwrite_front _ _, overwrite_front _ _, ?_, ?_, rfl⟩
  · simp only; omega
  · simp only; omega

/-- The following ones write the values only. -/
theorem fill_values {K : Type} (b : Buf K) (A : Mtx K) (hp : b.p = some (pointers 0 A.pat))
    (hi : ∃ t, b.i = A.pat.flatten ++ t) (hn : A.vals.length ≤ b.nzmax)
    (hc : A.cols ≤ b.colsAlloc) :
    ∃ b', fill b A true = .ok b' ∧ b'.p = some (pointers 0 A.pat) ∧
      (∃ t, b'.i = A.pat.flatten ++ t) ∧ (∃ t, b'.x = A.vals ++ t) ∧
      A.vals.length ≤ b'.nzmax ∧ A.cols ≤ b'.colsAlloc ∧ b'.cols = A.cols := by
  have n1 : ¬ b.colsAlloc < A.cols := by omega
  have n2 : ¬ b.nzmax < A.vals.length := by omega
  simp only [fill, growCols, n1, n2, if_false, if_true]
  exact ⟨_, rfl, hp, hi, overwrite_front _ _, hn, hc, rfl⟩

/-- **C180**, one solution: if the symbolic factorization in use, if any, was made for the pattern of
this matrix, exactly this matrix is handed to the numeric factorization. -/
theorem solve_exact {K : Type} (s : Solver K) (A : Mtx K) (posdef frees : Bool) (hs : Holds s)
    (hA : Proper A) (hq : ∀ q, s.symbolic = some q → q = A.pat) :
    ∃ s', s.solve A posdef frees = .ok (s', columns A.pat A.vals, A.pat) ∧ Holds s' ∧
      (∀ q, s'.symbolic = some q → q = A.pat) := by
  have key : ∃ b', fill s.buf A s.symbolic.isSome = .ok b' ∧ b'.p = some (pointers 0 A.pat) ∧
      (∃ t, b'.i = A.pat.flatten ++ t) ∧ (∃ t, b'.x = A.vals ++ t) ∧
      A.vals.length ≤ b'.nzmax ∧ A.cols ≤ b'.colsAlloc ∧ b'.cols = A.cols := by
    cases hsym : s.symbolic with
    | none => exact fill_all s.buf A hA
    | some q =>
      obtain ⟨h1, h2, h3, h4⟩ := hs q hsym
      have e := hq q hsym
      subst e
      exact fill_values s.buf A h1 h2 (by rw [hA.2.1]; exact h3) h4
  obtain ⟨b', hf, hp, ⟨ti, hi⟩, ⟨tx, hx⟩, hn, hc, hcols⟩ := key
  have hread : b'.read = .ok (columns A.pat A.vals) := by
    have := readCols_spec A.pat A.vals [] ti [] tx 0 hA.2.1 rfl rfl
    simp only [List.nil_append] at this
    simp only [Buf.read, hp, hi, hx, hcols]
    exact this
  have hsym : s.symbolic.getD A.pat = A.pat := by
    cases h : s.symbolic with
    | none => rfl
    | some q => exact hq q h
  refine ⟨⟨b', if posdef = false ∧ frees = true then none else some A.pat⟩,
    by simp only [Solver.solve, hf, Out.bind, hread, hsym], ?_, ?_⟩
  · intro q h
    simp only at h
    split at h
    · cases h
    · cases h
      exact ⟨hp, ⟨ti, hi⟩, by rw [← hA.2.1]; exact hn, hc⟩
  · intro q h
    simp only at h
    split at h
    · cases h
    · cases h; rfl

theorem Announced.tail {K : Type} {o : Op K} {r : List (Op K)} (h : Announced (o :: r)) :
    Announced r := by
  intro a A p f b B p' f' c e hb
  exact h (o :: a) A p f b B p' f' c (by rw [e]; rfl) hb

theorem run_exact {K : Type} (ops : List (Op K)) :
    ∀ (s : Solver K), Holds s → (∀ A p f, Op.solve A p f ∈ ops → Proper A) → Announced ops →
      (∀ q, s.symbolic = some q → ∀ b B p f c, ops = b ++ Op.solve B p f :: c → Op.init ∉ b →
        q = B.pat) →
      run s ops = .ok (wanted ops) := by
  induction ops with
  | nil => intro s _ _ _ _; rfl
  | cons o r ih =>
    intro s hs hp ha hq
    cases o with
    | init =>
      simp only [run, wanted]
      refine ih _ (by intro q h; cases h) (fun A p f h => hp A p f (List.mem_cons_of_mem _ h))
        ha.tail (by intro q h; cases h)
    | solve A posdef frees =>
      obtain ⟨s', e, h1, h2⟩ := solve_exact s A posdef frees hs (hp A posdef frees (by simp))
        (fun q h => hq q h [] A posdef frees r rfl (by simp))
      simp only [run, wanted, e, Out.bind]
      rw [ih s' h1 (fun A p f h => hp A p f (List.mem_cons_of_mem _ h)) ha.tail]
      intro q h b B p f c e' hb
      rw [h2 q h]
      exact ha [] A posdef frees b B p f c (by rw [e']; rfl) hb

/-- **C180**: whatever was solved before, whatever succeeded and failed, as long as `init` is called
whenever the pattern of the matrix has changed, nothing is written outside the buffers, nothing is
read that was not written, and every solution hands exactly its own matrix to the factorization,
together with a symbolic factorization of its own pattern. -/
theorem C180_exact {K : Type} (ops : List (Op K)) (hp : ∀ A p f, Op.solve A p f ∈ ops → Proper A)
    (ha : Announced ops) : run Solver.fresh ops = .ok (wanted ops) :=
  run_exact ops _ (by intro q h; cases h) hp ha (by intro q h; cases h)

/-- A matrix of two columns, one of three with more entries, and one of two with other entries. -/
def m₁ : Mtx ℤ := ⟨2, [[0], [0, 1]], [4, 1, 3], 4⟩
def m₂ : Mtx ℤ := ⟨3, [[0], [0, 1], [0, 1, 2]], [1, 2, 3, 4, 5, 6], 9⟩
def m₃ : Mtx ℤ := ⟨2, [[0, 1], [1]], [4, 1, 3], 4⟩

/-- A history with a failure and a change of the pattern meets the hypotheses. -/
example : run Solver.fresh [.solve m₁ true true, .solve m₁ false true, .solve m₁ true true, .init,
      .solve m₂ true true, .init, .solve m₃ true false] =
    .ok (wanted [.solve m₁ true true, .solve m₁ false true, .solve m₁ true true, .init,
      .solve m₂ true true, .init, .solve m₃ true false]) := by decide

/-- One solution after another with the same pattern meets the hypotheses. -/
example (A B : Mtx ℤ) (h : A.pat = B.pat) : Announced [Op.solve A true true, Op.solve B true true] := by
  intro a A' p f b B' p' f' c e _
  match a, b with
  | [], [] => simp at e; obtain ⟨⟨rfl, _⟩, ⟨rfl, _⟩, _⟩ := e; exact h
  | [], x :: b => simp at e
  | x :: a, b => 
    have := congrArg List.length e
    simp at this
    omega

example : Proper m₁ ∧ Proper m₂ ∧ Proper m₃ := by
  refine ⟨⟨by decide, by decide, by decide⟩, ⟨by decide, by decide, by decide⟩,
    ⟨by decide, by decide, by decide⟩⟩

/-- **C180**: without `init`, a matrix with more columns is factorized with column pointers that were
never written ... -/
theorem C180_columns_counterexample :
    run (K := ℤ) Solver.fresh [.solve m₁ true true, .solve ⟨3, [[0], [1], [2]], [1, 2, 3], 3⟩ true true] =
      .ub := by decide

/-- ... whatever the arrays held before, for every matrix with more columns than there is room for: its pointers
are not there, although the new array is large enough ... -/
theorem C180_columns_lost {K : Type} (b b' : Buf K) (A : Mtx K) (h : b.colsAlloc < A.cols)
    (hf : fill b A true = .ok b') : b'.p = none ∧ A.cols ≤ b'.colsAlloc := by
  unfold fill growCols at hf
  simp only [h, if_true] at hf
  split at hf
  · cases hf
  · injection hf with hf
    subst hf
    refine ⟨rfl, ?_⟩
    show A.cols ≤ if b.colsAlloc = 0 then A.cols else 2 * A.cols
    split <;> omega

example : ∃ b b' : Buf ℤ, b.p ≠ none ∧ b.colsAlloc < Mtx.cols (⟨3, [[0], [1], [2]], [1, 2, 3], 3⟩ : Mtx ℤ) ∧
    fill b ⟨3, [[0], [1], [2]], [1, 2, 3], 3⟩ true = .ok b' :=
  ⟨⟨2, 3, 2, 2, some [0, 1, 3], [0, 0, 1], [4, 5, 6]⟩, ⟨6, 3, 3, 3, none, [0, 0, 1], [1, 2, 3]⟩, by decide, by decide,
    rfl⟩

/-- ... one with more entries is written behind the end of the array ... -/
theorem C180_entries_counterexample :
    run (K := ℤ) Solver.fresh [.solve m₁ true true,
      .solve ⟨2, [[0, 1, 2], [0, 1, 2]], [1, 2, 3, 4, 5, 6], 6⟩ true true] = .ub := by decide

/-- ... and one with as many entries elsewhere is not what is factorized. -/
theorem C180_pattern_counterexample :
    run Solver.fresh [.solve m₁ true true, .solve m₃ true true] =
      .ok [(columns m₁.pat m₁.vals, m₁.pat), (columns m₁.pat m₃.vals, m₁.pat)] ∧
    columns m₁.pat m₃.vals ≠ columns m₃.pat m₃.vals := by
  constructor
  · decide
  · decide

/-- **C180**: a matrix without columns is written through a null pointer. -/
theorem C180_empty_counterexample :
    run (K := ℤ) Solver.fresh [.solve ⟨0, [], [], 0⟩ true true] = .ub := by decide

/-! ## The ordering -/

theorem blowUp_range (size : ℕ → ℕ) (m : ℕ) :
    blowUp (baseOf size) size (List.range m) = List.range (baseOf size m) := by
  induction m with
  | zero => rfl
  | succ m ih =>
    rw [List.range_succ, blowUp, List.flatMap_append, ← blowUp, ih]
    simp only [List.flatMap_cons, List.flatMap_nil, List.append_nil, baseOf]
    rw [List.range_add]

/-- **C180**: the ordering of the blocks, blown up, is an ordering of all scalar columns, none missing
and none twice, whatever sizes the blocks have. -/
theorem C180_ordering (size : ℕ → ℕ) (m : ℕ) (P : List ℕ) (h : P.Perm (List.range m)) :
    (blowUp (baseOf size) size P).Perm (List.range (baseOf size m)) ∧
      (blowUp (baseOf size) size P).length = baseOf size m := by
  have hp : (blowUp (baseOf size) size P).Perm (List.range (baseOf size m)) := by
    rw [← blowUp_range]
    exact h.flatMap_right _
  exact ⟨hp, by rw [hp.length_eq, List.length_range]⟩

/-- **C180**: and the columns of one block stay together and in their order. -/
theorem C180_together (size : ℕ → ℕ) (P Q : List ℕ) (p : ℕ) :
    blowUp (baseOf size) size (P ++ p :: Q) =
      blowUp (baseOf size) size P ++
        (List.range (size p)).map (fun j => baseOf size p + j) ++ blowUp (baseOf size) size Q := by
  simp [blowUp]

example : blowUp (baseOf fun p => p + 1) (fun p => p + 1) [2, 0, 1] = [3, 4, 5, 0, 1, 2] := by decide

/-- **C180**: there is room for it and for the ordering of the blocks, and in the workspace, however
large the problems before were. -/
theorem C180_room (old n : ℕ) (w : Option ℕ) : n ≤ permSize old n ∧ n ≤ workSize w n := by
  constructor
  · unfold permSize
    simp only
    split <;> split <;> omega
  · cases w with
    | none => simp only [workSize]; omega
    | some w =>
      simp only [workSize]
      split <;> omega

example : permSize 4 6 = 12 ∧ permSize 0 6 = 6 ∧ workSize none 6 = 12 := by decide

/-! ## The block structure -/

/-- The arrays are as long as recorded. -/
def MS.Good (s : MS) : Prop := s.n ≠ 0 → s.ap = s.maxN + 1 ∧ s.aii = s.maxNz

theorem good_apply (s : MS) (o : MOp) (h : s.Good) : (s.apply o).Good := by
  cases o with
  | free => intro h; exact absurd rfl h
  | alloc n nz =>
    intro hn
    simp only [MS.apply, MS.alloc] at hn ⊢
    by_cases h0 : s.n = 0
    · simp only [h0, if_true]; exact ⟨trivial, trivial⟩
    · obtain ⟨h1, h2⟩ := h h0
      simp only [h0, if_false]
      split <;> split <;> simp_all

theorem good_run (ops : List MOp) : ∀ s : MS, s.Good → (ops.foldl MS.apply s).Good := by
  induction ops with
  | nil => intro s h; exact h
  | cons o r ih => intro s h; exact ih _ (good_apply s o h)

/-- **C180**: after any history of allocations and releases the arrays have room for what was asked
for last. -/
theorem C180_structure (ops : List MOp) (n nz : ℕ) :
    let s := (ops.foldl MS.apply MS.fresh).alloc n nz
    s.n = n ∧ n + 1 ≤ s.ap ∧ nz ≤ s.aii := by
  have hg := good_run ops MS.fresh (by intro h; exact absurd rfl h)
  generalize ops.foldl MS.apply MS.fresh = s at hg
  simp only [MS.alloc]
  by_cases h0 : s.n = 0
  · simp only [h0, if_true]; exact ⟨trivial, le_refl _, le_refl _⟩
  · obtain ⟨h1, h2⟩ := hg h0
    simp only [h0, if_false]
    split <;> split <;> simp_all <;> omega

/-- An array is set while a size is recorded, and only then, if sizes are positive. -/
def MS.Tight (s : MS) : Prop := (s.live = true ↔ s.n ≠ 0) ∧ s.lost = 0

theorem tight_apply (s : MS) (o : MOp) (ho : ∀ nz, o ≠ .alloc 0 nz) (h : s.Tight) :
    (s.apply o).Tight := by
  obtain ⟨h1, h2⟩ := h
  cases o with
  | free => exact ⟨by simp [MS.apply, MS.free], h2⟩
  | alloc n nz =>
    have hn : n ≠ 0 := fun e => ho nz (by rw [e])
    simp only [MS.apply, MS.alloc]
    by_cases h0 : s.n = 0
    · have hl : s.live = false := by
        cases hl : s.live with
        | false => rfl
        | true => exact absurd h0 (h1.mp hl)
      simp only [h0, if_true, hl]
      exact ⟨by simp [hn], by simp [h2]⟩
    · have hl := h1.mpr h0
      simp only [h0, if_false]
      split <;> split <;> simp_all [MS.Tight]

/-- **C180**, in part: no array is lost as long as no structure without columns is asked for. -/
theorem C180_lost_partial (ops : List MOp) (ho : ∀ nz, MOp.alloc 0 nz ∉ ops) :
    (ops.foldl MS.apply MS.fresh).lost = 0 := by
  have : ∀ (ops : List MOp) (s : MS), (∀ nz, MOp.alloc 0 nz ∉ ops) → s.Tight →
      (ops.foldl MS.apply s).Tight := by
    intro ops
    induction ops with
    | nil => intro s _ h; exact h
    | cons o r ih =>
      intro s hno h
      refine ih _ (fun nz hm => hno nz (List.mem_cons_of_mem _ hm)) (tight_apply s o ?_ h)
      intro nz e
      exact hno nz (by rw [e]; simp)
  exact (this ops MS.fresh ho ⟨by simp [MS.fresh], rfl⟩).2

example : ([MOp.alloc 2 3, .alloc 5 7, .free, .alloc 1 1].foldl MS.apply MS.fresh).lost = 0 :=
  C180_lost_partial _ (by intro nz h; simp at h)

/-- What is missing: after such a structure the arrays are allocated again without being released. -/
theorem C180_lost_counterexample :
    ([MOp.alloc 0 0, .alloc 2 3].foldl MS.apply MS.fresh).lost = 2 := by decide

/-- **C180**: the file written lists an entry if and only if it or its mirror image is an entry of
the structure: the pattern written is symmetric. -/
theorem C180_written (cs : List (List ℕ)) : ∀ (c₀ r c : ℕ),
    (r, c) ∈ mirrored c₀ cs ↔
      ∃ k rs, cs[k]? = some rs ∧ ((c = c₀ + k ∧ r ∈ rs) ∨ (r = c₀ + k ∧ c ∈ rs)) := by
  induction cs with
  | nil => intro c₀ r c; simp [mirrored]
  | cons l cs ih =>
    intro c₀ r c
    rw [mirrored, List.mem_append, ih]
    have hhead : ((r, c) ∈ l.flatMap fun r' => if r' ≠ c₀ then [(r', c₀), (c₀, r')] else [(r', c₀)]) ↔
        (c = c₀ ∧ r ∈ l) ∨ (r = c₀ ∧ c ∈ l) := by
      rw [List.mem_flatMap]
      constructor
      · rintro ⟨r', hr', hm⟩
        split at hm
        · simp only [List.mem_cons, Prod.mk.injEq, List.not_mem_nil, or_false] at hm
          rcases hm with ⟨rfl, rfl⟩ | ⟨rfl, rfl⟩
          · exact .inl ⟨rfl, hr'⟩
          · exact .inr ⟨rfl, hr'⟩
        · simp only [List.mem_cons, Prod.mk.injEq, List.not_mem_nil, or_false] at hm
          obtain ⟨rfl, rfl⟩ := hm
          exact .inl ⟨rfl, hr'⟩
      · rintro (⟨rfl, h⟩ | ⟨rfl, h⟩)
        · refine ⟨r, h, ?_⟩
          split <;> simp
        · refine ⟨c, h, ?_⟩
          split
          · simp
          · next hne => 
            have : c = r := not_not.mp hne
            simp [this]
    rw [hhead]
    constructor
    · rintro (h | ⟨k, rs, hk, h⟩)
      · exact ⟨0, l, rfl, by simpa using h⟩
      · exact ⟨k + 1, rs, by simpa using hk, by
          rcases h with ⟨e, h⟩ | ⟨e, h⟩
          · exact .inl ⟨by omega, h⟩
          · exact .inr ⟨by omega, h⟩⟩
    · rintro ⟨k, rs, hk, h⟩
      cases k with
      | zero =>
        simp only [List.getElem?_cons_zero, Option.some.injEq] at hk
        subst hk
        exact .inl (by simpa using h)
      | succ k =>
        refine .inr ⟨k, rs, by simpa using hk, ?_⟩
        rcases h with ⟨e, h⟩ | ⟨e, h⟩
        · exact .inl ⟨by omega, h⟩
        · exact .inr ⟨by omega, h⟩

example : mirrored 0 [[0], [0, 1]] = [(0, 0), (0, 1), (1, 0), (1, 1)] := by decide

end Kalibr.Reuse
