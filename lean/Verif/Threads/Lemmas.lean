import Verif.Threads.Spec

/-! # Lemmas about threaded evaluation -/

namespace Kalibr.Threads

open Spec

variable {K X E : Type}

/-! ## The ranges -/

theorem split_le {rs : List (Nat × Nat)} : ∀ {a b}, Split a b rs → a ≤ b := by
  induction rs with
  | nil => intro a b h; exact le_of_eq h
  | cons r rs ih =>
    obtain ⟨x, y⟩ := r
    rintro a b ⟨rfl, h2, h3⟩
    exact le_trans h2 (ih h3)

theorem split_exactly_one {rs : List (Nat × Nat)} : ∀ {a b i}, Split a b rs → a ≤ i → i < b →
    ∃! t : Nat, ∃ r : Nat × Nat, rs[t]? = some r ∧ r.1 ≤ i ∧ i < r.2 := by
  induction rs with
  | nil => intro a b i h h1 h2; simp [Split] at h; omega
  | cons r rs ih =>
    obtain ⟨x, y⟩ := r
    rintro a b i ⟨rfl, h2, h3⟩ ha hb
    by_cases hy : i < y
    · refine ⟨0, ⟨(x, y), rfl, ha, hy⟩, ?_⟩
      rintro t ⟨r, hr, h4, h5⟩
      cases t with
      | zero => rfl
      | succ t =>
        exfalso
        simp at hr
        have : ∀ {rs : List (Nat × Nat)} {a b t : Nat} {r : Nat × Nat}, Split a b rs → rs[t]? = some r → a ≤ r.1 := by
          clear * -
          intro rs
          induction rs with
          | nil => intro a b t r _ h; simp at h
          | cons q qs ih =>
            obtain ⟨u, v⟩ := q
            rintro a b t r ⟨rfl, h2, h3⟩ h
            cases t with
            | zero => simp at h; subst h; exact le_refl _
            | succ t => simp at h; exact le_trans h2 (ih h3 h)
        have := this h3 hr
        omega
    · obtain ⟨t, ⟨r, hr, h4, h5⟩, hu⟩ := ih h3 (by omega) hb
      refine ⟨t + 1, ⟨r, by simpa using hr, h4, h5⟩, ?_⟩
      rintro t' ⟨r', hr', h6, h7⟩
      cases t' with
      | zero => simp at hr'; subst hr'; simp at h7; omega
      | succ t' =>
        simp at hr'
        rw [hu t' ⟨r', hr', h6, h7⟩]

theorem split_of_mono (f : Nat → Nat) (m : Nat) : ∀ a, (∀ i, a ≤ i → i < a + m → f i ≤ f (i + 1)) →
    Split (f a) (f (a + m)) ((List.range' a m).map fun i => (f i, f (i + 1))) := by
  induction m with
  | zero => intro a _; simp [Split]
  | succ m ih =>
    intro a h
    rw [List.range'_succ, List.map_cons]
    refine ⟨rfl, h a (le_refl _) (by omega), ?_⟩
    have := ih (a + 1) (fun i h1 h2 => h i (by omega) (by omega))
    rwa [show a + 1 + m = a + (m + 1) by omega] at this

theorem indices_loop (k per : Nat) : ∀ j, j ≤ k →
    ((List.range j).foldl (fun ind i => ind.set (i + 1) (ind.getD i 0 + per))
      (List.replicate (k + 1) 0)).length = k + 1 ∧
    ∀ i, i ≤ j → ((List.range j).foldl (fun ind i => ind.set (i + 1) (ind.getD i 0 + per))
      (List.replicate (k + 1) 0)).getD i 0 = i * per := by
  intro j
  induction j with
  | zero =>
    intro _
    refine ⟨by simp, fun i hi => ?_⟩
    have : i = 0 := by omega
    subst this; simp
  | succ j ih =>
    intro hj
    obtain ⟨h1, h2⟩ := ih (by omega)
    rw [List.range_succ, List.foldl_append]
    simp only [List.foldl_cons, List.foldl_nil]
    refine ⟨by rw [List.length_set, h1], fun i hi => ?_⟩
    rw [List.getD_eq_getElem?_getD, List.getElem?_set]
    by_cases he : j + 1 = i
    · subst he
      rw [if_pos rfl, if_pos (by rw [h1]; omega), h2 j (le_refl _)]
      simp; ring
    · rw [if_neg he, ← List.getD_eq_getElem?_getD]
      exact h2 i (by omega)

theorem indices_spec (n k per : Nat) :
    (∀ i, i < k → (indices n k per).getD i 0 = i * per) ∧ (indices n k per).getD k 0 = n := by
  obtain ⟨h1, h2⟩ := indices_loop k per k (le_refl _)
  unfold indices
  refine ⟨fun i hi => ?_, ?_⟩
  · rw [List.getD_eq_getElem?_getD, List.getElem?_set, if_neg (by omega),
      ← List.getD_eq_getElem?_getD]
    exact h2 i (by omega)
  · rw [List.getD_eq_getElem?_getD, List.getElem?_set, if_pos rfl, if_pos (by rw [h1]; omega)]
    rfl

theorem ranges_split {n k : Nat} {rs : List (Nat × Nat)} (h : ranges n k = .ok rs) :
    Split 0 n rs ∧ rs.length ≤ max 1 k ∧ rs ≠ [] ∧ (0 < n → ∀ r ∈ rs, r.1 < r.2) := by
  unfold ranges at h
  by_cases hk : k ≤ 1
  · rw [if_pos hk] at h; simp at h; subst h
    refine ⟨⟨rfl, by omega, rfl⟩, by simp, by simp, ?_⟩
    intro hn r hr; simp at hr; subst hr; exact hn
  · rw [if_neg hk] at h
    simp only at h
    by_cases hz : min k n = 0
    · rw [if_pos hz] at h; cases h
    · rw [if_neg hz] at h
      simp at h
      subst h
      set m := min k n with hm
      have hmn : m ≤ n := min_le_right _ _
      have hper : max 1 (n / m) = n / m := by
        rw [max_eq_right]
        exact Nat.div_pos hmn (by omega)
      rw [hper]
      obtain ⟨i1, i2⟩ := indices_spec n m (n / m)
      have hp : 1 ≤ n / m := Nat.div_pos hmn (by omega)
      have hmul : n / m * m ≤ n := Nat.div_mul_le_self n m
      have hstrict : ∀ i, i < m → (indices n m (n / m)).getD i 0 < (indices n m (n / m)).getD (i + 1) 0 := by
        intro i hi
        rw [i1 i hi]
        by_cases he : i + 1 = m
        · rw [he, i2]
          have : (i + 1) * (n / m) ≤ n := by rw [he, Nat.mul_comm]; exact hmul
          rw [Nat.succ_mul] at this
          omega
        · rw [i1 (i + 1) (by omega), Nat.succ_mul]; omega
      have hs := split_of_mono (fun i => (indices n m (n / m)).getD i 0) m 0
        (fun i _ hi => le_of_lt (hstrict i (by omega)))
      simp only [Nat.zero_add] at hs
      rw [i1 0 (by omega), i2, Nat.zero_mul, ← List.range_eq_range'] at hs
      refine ⟨hs, ?_, ?_, ?_⟩
      · simp only [List.length_map, List.length_range]; omega
      · intro hc
        have := congrArg List.length hc
        simp at this; omega
      · intro _ r hr
        rw [List.mem_map] at hr
        obtain ⟨i, hi, rfl⟩ := hr
        exact hstrict i (by simpa using hi)

/-! ## Layout of the rows -/

theorem laidOut_get (terms : List (Term K X E)) : ∀ {b i t}, LaidOut b terms → terms[i]? = some t →
    t.rowBase = b + ((terms.take i).map (·.dim)).sum := by
  induction terms with
  | nil => intro b i t _ h; simp at h
  | cons u us ih =>
    rintro b i t ⟨h1, h2⟩ h
    cases i with
    | zero => simp at h; subst h; simpa using h1
    | succ i => simp at h; rw [ih h2 h]; simp; omega

theorem take_dim_mono (terms : List (Term K X E)) {i j : Nat} {t : Term K X E} (h : terms[i]? = some t)
    (hij : i < j) :
    ((terms.take i).map (·.dim)).sum + t.dim ≤ ((terms.take j).map (·.dim)).sum := by
  induction terms generalizing i j with
  | nil => simp at h
  | cons u us ih =>
    cases j with
    | zero => omega
    | succ j =>
      cases i with
      | zero => simp at h; subst h; simp
      | succ i =>
        simp at h
        have := ih (j := j) h (by omega)
        simp only [List.take_succ_cons, List.map_cons, List.sum_cons]; omega

theorem rows_disjoint {terms : List (Term K X E)} (hl : LaidOut 0 terms) {i j : Nat} {t u : Term K X E}
    (hi : terms[i]? = some t) (hj : terms[j]? = some u) (hij : i ≠ j) :
    t.rowBase + t.dim ≤ u.rowBase ∨ u.rowBase + u.dim ≤ t.rowBase := by
  rw [laidOut_get terms hl hi, laidOut_get terms hl hj]
  rcases Nat.lt_or_gt_of_ne hij with h | h
  · have := take_dim_mono terms hi h; omega
  · have := take_dim_mono terms hj h; omega

theorem row_le_total {terms : List (Term K X E)} (hl : LaidOut 0 terms) {i : Nat} {t : Term K X E}
    (hi : terms[i]? = some t) : t.rowBase + t.dim ≤ (terms.map (·.dim)).sum := by
  rw [laidOut_get terms hl hi]
  have := take_dim_mono terms hi (j := terms.length) (List.getElem?_eq_some_iff.mp hi).1
  rw [List.take_length] at this; omega

theorem writeSegment_ok {e v e' : List X} {base dim : Nat} (h : writeSegment e base dim v = .ok e') :
    e'.length = e.length ∧ v.length = dim ∧ base + dim ≤ e.length ∧
    (∀ i, i < dim → e'[base + i]? = v[i]?) ∧
    (∀ x, x < base ∨ base + dim ≤ x → e'[x]? = e[x]?) := by
  unfold writeSegment at h
  split at h
  · rename_i hc
    simp at h; subst h
    obtain ⟨h1, h2⟩ := hc
    refine ⟨by simp; omega, h2, h1, ?_, ?_⟩
    · intro i hi
      rw [List.getElem?_append_right (by simp)]
      rw [List.getElem?_append_left (by simp; omega)]
      congr 1; simp; omega
    · intro x hx
      rcases hx with hx | hx
      · rw [List.getElem?_append_left (by simp; omega), List.getElem?_take, if_pos hx]
      · rw [List.getElem?_append_right (by simp; omega), List.getElem?_append_right (by simp; omega),
          List.getElem?_drop]
        congr 1; simp; omega
  · cases h

/-! ## The invariant -/

/-- What holds of a thread with range `r` at any time. -/
structure ThreadInv [AddCommMonoid K] (terms : List (Term K X E)) (r : Nat × Nat) (th : Thread K E) :
    Prop where
  stop : th.stop = r.2
  lo : r.1 ≤ th.pos
  hi : th.pos ≤ r.2
  acc : th.acc = (((terms.drop r.1).take (th.pos - r.1)).map sqError).sum
  ok : ∀ j, r.1 ≤ j → j < th.pos → ∃ t, terms[j]? = some t ∧ Evaluates t
  failed : ∀ ex, th.failed = some ex → th.pos < r.2 ∧ ∃ t, terms[th.pos]? = some t ∧ t.eval = .error ex

/-- What holds of the world at any time. -/
structure Inv [AddCommMonoid K] [Neg X] (terms : List (Term K X E)) (rs : List (Nat × Nat))
    (w : World K X E) : Prop where
  len : w.threads.length = rs.length
  thr : ∀ (t : Nat) (r : Nat × Nat) (th : Thread K E), rs[t]? = some r → w.threads[t]? = some th → ThreadInv terms r th
  elen : w.e.length = (terms.map (·.dim)).sum
  rows : ∀ (t : Nat) (r : Nat × Nat) (th : Thread K E) (j : Nat) (u : Term K X E), rs[t]? = some r → w.threads[t]? = some th → r.1 ≤ j → j < th.pos →
    terms[j]? = some u → ∀ i, i < u.dim → w.e[u.rowBase + i]? = ((weighted u).map (- ·))[i]?

section
variable [AddCommMonoid K] [Neg X]

theorem inv_init (terms : List (Term K X E)) (rs : List (Nat × Nat)) (e : List X) {n : Nat}
    (hs : Split 0 n rs) (he : e.length = (terms.map (·.dim)).sum) :
    Inv terms rs ⟨initThreads rs, e⟩ := by
  have hle : ∀ {rs : List (Nat × Nat)} {a b t : Nat} {r : Nat × Nat}, Split a b rs → rs[t]? = some r → r.1 ≤ r.2 := by
    intro rs
    induction rs with
    | nil => intro a b t r _ h; simp at h
    | cons q qs ih =>
      obtain ⟨u, v⟩ := q
      rintro a b t r ⟨rfl, h2, h3⟩ h
      cases t with
      | zero => simp at h; subst h; exact h2
      | succ t => simp at h; exact ih h3 h
  have hth : ∀ (t : Nat) (r : Nat × Nat) (th : Thread K E), rs[t]? = some r →
      (initThreads rs : List (Thread K E))[t]? = some th →
      th = ⟨r.1, r.2, none, 0⟩ := by
    intro t r th h1 h2
    rw [initThreads, List.getElem?_map, h1] at h2
    simpa using h2.symm
  refine ⟨by simp [initThreads], ?_, he, ?_⟩
  · intro t r th h1 h2
    rw [hth t r th h1 h2]
    exact ⟨rfl, le_refl _, hle hs h1, by simp, fun j h3 h4 => by simp at h4; omega, by simp⟩
  · intro t r th j u h1 h2 h3 h4
    rw [hth t r th h1 h2] at h4
    simp at h4; omega

omit [Neg X] in
theorem take_succ_sum_map (terms : List (Term K X E)) {a p : Nat} {t : Term K X E} (hap : a ≤ p)
    (h : terms[p]? = some t) (f : Term K X E → K) :
    (((terms.drop a).take (p + 1 - a)).map f).sum = (((terms.drop a).take (p - a)).map f).sum + f t := by
  rw [show p + 1 - a = (p - a) + 1 by omega, List.take_add_one, List.getElem?_drop,
    show a + (p - a) = p by omega, h]
  simp

/-- The rules keep the invariant, and never reach undefined behaviour. -/
theorem step_inv {terms : List (Term K X E)} {rs : List (Nat × Nat)} {n : Nat} {w : World K X E}
    (hl : LaidOut 0 terms) (hw : WellSized terms) (hs : Split 0 n rs) (hn : n = terms.length)
    (h : Inv terms rs w) (t : Nat) : ∃ w', step terms w t = .ok w' ∧ Inv terms rs w' := by
  unfold step
  rcases ht : w.threads[t]? with _ | th
  · exact ⟨w, rfl, h⟩
  · simp only
    by_cases hf : (th.failed.isSome || decide (th.stop ≤ th.pos)) = true
    · rw [if_pos hf]; exact ⟨w, rfl, h⟩
    · rw [if_neg hf]
      have htl : t < rs.length := by rw [← h.len]; exact (List.getElem?_eq_some_iff.mp ht).1
      obtain ⟨r, hr⟩ : ∃ r, rs[t]? = some r := ⟨rs[t], by simp [htl]⟩
      have ti := h.thr t r th hr ht
      simp only [Bool.or_eq_true, decide_eq_true_eq, not_or, not_le] at hf
      obtain ⟨hf1, hf2⟩ := hf
      have hnf : th.failed = none := by simpa using hf1
      rw [ti.stop] at hf2
      have hr2 : r.2 ≤ n := by
        have : ∀ {rs : List (Nat × Nat)} {a b t : Nat} {r : Nat × Nat}, Split a b rs → rs[t]? = some r → r.2 ≤ b := by
          clear * -
          intro rs
          induction rs with
          | nil => intro a b t r _ h; simp at h
          | cons q qs ih =>
            obtain ⟨u, v⟩ := q
            rintro a b t r ⟨rfl, h2, h3⟩ h
            cases t with
            | zero => simp at h; subst h; exact split_le h3
            | succ t => simp at h; exact ih h3 h
        exact this hs hr
      have hp : th.pos < terms.length := by omega
      obtain ⟨u, hu⟩ : ∃ u, terms[th.pos]? = some u := ⟨terms[th.pos], by simp [hp]⟩
      rw [hu]
      simp only
      rcases hev : u.eval with ex | ⟨s, v⟩
      · refine ⟨_, rfl, ⟨by simp [h.len], ?_, h.elen, ?_⟩⟩
        · intro t' r' th' hr' ht'
          rw [List.getElem?_set] at ht'
          split at ht'
          · rename_i heq
            subst heq
            rw [hr] at hr'; simp at hr'; subst hr'
            split at ht'
            · simp at ht'; subst ht'
              exact ⟨ti.stop, ti.lo, ti.hi, ti.acc, ti.ok, fun ex' he => by
                simp at he; subst he; exact ⟨hf2, u, hu, hev⟩⟩
            · cases ht'
          · exact h.thr t' r' th' hr' ht'
        · intro t' r' th' j u' hr' ht' hj1 hj2 hu' i hi
          simp only at ht' ⊢
          rw [List.getElem?_set] at ht'
          split at ht'
          · rename_i heq
            subst heq
            split at ht'
            · simp at ht'; subst ht'
              exact h.rows t r' th j u' hr' ht hj1 hj2 hu' i hi
            · cases ht'
          · exact h.rows t' r' th' j u' hr' ht' hj1 hj2 hu' i hi
      · have hv : v.length = u.dim := hw u (List.mem_of_getElem? hu) s v hev
        have hrow := row_le_total hl hu
        rcases he : writeSegment w.e u.rowBase u.dim (v.map (- ·)) with e' | _ | _
        · obtain ⟨e1, -, -, e4, e5⟩ := writeSegment_ok he
          refine ⟨⟨w.threads.set t { th with pos := th.pos + 1, acc := th.acc + s }, e'⟩,
            by simp only [he]; rfl, ⟨by simp [h.len], ?_, by rw [e1, h.elen], ?_⟩⟩
          · intro t' r' th' hr' ht'
            rw [List.getElem?_set] at ht'
            split at ht'
            · rename_i heq
              subst heq
              rw [hr] at hr'; simp at hr'; subst hr'
              split at ht'
              · simp at ht'; subst ht'
                refine ⟨ti.stop, by have := ti.lo; simp; omega, by simp; omega, ?_, ?_, ?_⟩
                · simp only
                  rw [take_succ_sum_map terms ti.lo hu, ti.acc]
                  congr 1
                  simp [sqError, hev]
                · intro j hj1 hj2
                  simp only at hj2
                  by_cases hjp : j = th.pos
                  · subst hjp; exact ⟨u, hu, _, hev⟩
                  · exact ti.ok j hj1 (by omega)
                · intro ex hex; simp [hnf] at hex
              · cases ht'
            · exact h.thr t' r' th' hr' ht'
          · -- rows written so far
            have key : ∀ j u', terms[j]? = some u' → (j = th.pos ∨ ∀ i, i < u'.dim →
                w.e[u'.rowBase + i]? = ((weighted u').map (- ·))[i]?) →
                ∀ i, i < u'.dim → e'[u'.rowBase + i]? = ((weighted u').map (- ·))[i]? := by
              intro j u' hu' hor i hi
              by_cases hjp : j = th.pos
              · subst hjp
                rw [hu] at hu'; simp at hu'; subst hu'
                rw [e4 i hi]; simp [weighted, hev]
              · have hrows := hor.resolve_left hjp
                rw [e5 _ (by have := rows_disjoint hl hu' hu hjp; omega)]
                exact hrows i hi
            intro t' r' th' j u' hr' ht' hj1 hj2 hu' i hi
            simp only at ht' ⊢
            refine key j u' hu' ?_ i hi
            rw [List.getElem?_set] at ht'
            split at ht'
            · rename_i heq
              subst heq
              split at ht'
              · simp at ht'; subst ht'
                simp only at hj2
                by_cases hjp : j = th.pos
                · exact Or.inl hjp
                · exact Or.inr (h.rows t r' th j u' hr' ht hj1 (by omega) hu')
              · cases ht'
            · exact Or.inr (h.rows t' r' th' j u' hr' ht' hj1 hj2 hu')
        · exfalso; unfold writeSegment at he; split at he <;> cases he
        · exfalso; unfold writeSegment at he
          rw [if_pos ⟨by rw [h.elen]; exact hrow, by simpa using hv⟩] at he
          cases he

theorem run_inv {terms : List (Term K X E)} {rs : List (Nat × Nat)} {n : Nat}
    (hl : LaidOut 0 terms) (hw : WellSized terms) (hs : Split 0 n rs) (hn : n = terms.length)
    (sched : List Nat) : ∀ {w : World K X E}, Inv terms rs w →
      ∃ w', run terms sched w = .ok w' ∧ Inv terms rs w' := by
  induction sched with
  | nil => intro w h; exact ⟨w, rfl, h⟩
  | cons t ts ih =>
    intro w h
    obtain ⟨w1, h1, h2⟩ := step_inv hl hw hs hn h t
    obtain ⟨w2, h3, h4⟩ := ih h2
    exact ⟨w2, by rw [run, h1]; exact h3, h4⟩

/-! ## Reading off the result -/

omit [Neg X] in
theorem split_sum (terms : List (Term K X E)) (f : Term K X E → K) (rs : List (Nat × Nat)) :
    ∀ {a b}, Split a b rs → b ≤ terms.length →
      (rs.map fun r => (((terms.drop r.1).take (r.2 - r.1)).map f).sum).sum =
        (((terms.drop a).take (b - a)).map f).sum := by
  induction rs with
  | nil => intro a b h _; simp [Split] at h; subst h; simp
  | cons r rs ih =>
    obtain ⟨x, y⟩ := r
    rintro a b ⟨rfl, h2, h3⟩ hb
    rw [List.map_cons, List.sum_cons, ih h3 hb, ← List.sum_append, ← List.map_append]
    congr 2
    have hyb := split_le h3
    rw [show b - x = (y - x) + (b - y) by omega, List.take_add, List.drop_drop,
      show x + (y - x) = y by omega]

omit [AddCommMonoid K] in
theorem rows_concat (terms : List (Term K X E)) : ∀ (b : Nat) (e : List X), LaidOut b terms →
    WellSized terms → (∀ t ∈ terms, Evaluates t) → e.length = b + (terms.map (·.dim)).sum →
    (∀ u ∈ terms, ∀ i, i < u.dim → e[u.rowBase + i]? = ((weighted u).map (- ·))[i]?) →
    e.drop b = (terms.flatMap weighted).map (- ·) := by
  induction terms with
  | nil => intro b e _ _ _ he _; simp at he; simp [he]
  | cons u us ih =>
    rintro b e ⟨hb, hl⟩ hw hev he hr
    have h1 := ih (b + u.dim) e hl (fun t ht => hw t (by simp [ht])) (fun t ht => hev t (by simp [ht]))
      (by rw [he]; simp; omega) (fun t ht => hr t (by simp [ht]))
    rw [List.flatMap_cons, List.map_append, ← h1]
    have hu := hr u (by simp)
    obtain ⟨⟨s, v⟩, hsv⟩ := hev u (by simp)
    have hvl : (weighted u).length = u.dim := by
      simp only [weighted, hsv]; exact hw u (by simp) s v hsv
    rw [← List.take_append_drop u.dim (e.drop b), List.drop_drop]
    congr 1
    apply List.ext_getElem?
    intro i
    by_cases hi : i < u.dim
    · rw [List.getElem?_take, if_pos hi, List.getElem?_drop, ← hb, hu i hi]
    · rw [List.getElem?_take, if_neg hi, eq_comm, List.getElem?_eq_none_iff]; simp; omega

end

end Kalibr.Threads
