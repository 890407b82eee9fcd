import Verif.Threads.Lemmas

/-!
# Properties C29 and C70: threaded error evaluation

The schedule is arbitrary: theorems hold for every interleaving of the threads.
-/

namespace Kalibr.Threads

open Spec

variable {K X E : Type}

/-- **C29 (the split).**  For every number of error terms and of threads for which the split is
defined, the ranges are contiguous from 0 to `n`, every term is in exactly one range, there are at
most `max 1 k` ranges, and no range is empty if there are terms. -/
theorem C29_split {n k : Nat} {rs : List (Nat × Nat)} (h : ranges n k = .ok rs) :
    Split 0 n rs ∧
    (∀ i, i < n → ∃! t : Nat, ∃ r : Nat × Nat, rs[t]? = some r ∧ r.1 ≤ i ∧ i < r.2) ∧
    rs.length ≤ max 1 k ∧ (0 < n → ∀ r ∈ rs, r.1 < r.2) := by
  obtain ⟨h1, h2, -, h4⟩ := ranges_split h
  exact ⟨h1, fun i hi => split_exactly_one h1 (Nat.zero_le _) hi, h2, h4⟩

example : ranges 7 3 = .ok [(0, 2), (2, 4), (4, 7)] := by decide +kernel

/-- The split is undefined exactly when several threads are asked for and there is no error term
(division by zero); the optimiser refuses such problems beforehand (`C24_raises`). -/
theorem C29_defined (n k : Nat) : (∃ rs, ranges n k = .ok rs) ↔ (k ≤ 1 ∨ 0 < n) := by
  unfold ranges
  by_cases hk : k ≤ 1
  · rw [if_pos hk]; simp [hk]
  · rw [if_neg hk]
    simp only
    by_cases hz : min k n = 0
    · rw [if_pos hz]; simp; omega
    · rw [if_neg hz]; simp; omega

/-- **C29 (the result).**  If no error term throws, then for every number of threads and every
interleaving in which all threads finish, the returned error is the sum of the squared errors of all
terms, each counted once, and the error vector is the concatenation of the negated weighted errors. -/
theorem C29_result [AddCommMonoid K] [Neg X] {nThreads : Nat} {terms : List (Term K X E)} {e e' : List X}
    {schedule : List Nat} {res : Result K E}
    (hl : LaidOut 0 terms) (hw : WellSized terms) (he : e.length = (terms.map (·.dim)).sum)
    (hok : ∀ t ∈ terms, Evaluates t)
    (h : evaluateError nThreads terms e schedule = .ok (some (res, e'))) :
    res = .value ((terms.map sqError).sum) ∧ e' = (terms.flatMap weighted).map (- ·) := by
  unfold evaluateError at h
  simp only at h
  obtain ⟨rs, hrs, h⟩ := Out.bind_eq_ok.mp h
  obtain ⟨hs, hlen, -, -⟩ := ranges_split hrs
  obtain ⟨w, hw1, hinv⟩ := run_inv hl hw hs rfl schedule (inv_init terms rs e hs he)
  rw [hw1] at h
  simp only [Out.ok_bind] at h
  split at h
  · rename_i hfin
    have hnf : ∀ th ∈ w.threads, th.failed = none := by
      intro th hth
      obtain ⟨t, ht⟩ := List.mem_iff_getElem?.mp hth
      have htl : t < rs.length := by rw [← hinv.len]; exact (List.getElem?_eq_some_iff.mp ht).1
      have ti := hinv.thr t rs[t] th (by simp [htl]) ht
      rcases hf : th.failed with _ | ex
      · rfl
      · obtain ⟨-, u, hu, hue⟩ := ti.failed ex hf
        obtain ⟨r, hr⟩ := hok u (List.mem_of_getElem? hu)
        rw [hr] at hue; cases hue
    have hpos : ∀ (t : Nat) (r : Nat × Nat) (th : Thread K E), rs[t]? = some r →
        w.threads[t]? = some th → th.pos = r.2 := by
      intro t r th hr ht
      have ti := hinv.thr t r th hr ht
      have := List.all_eq_true.mp hfin th (List.mem_of_getElem? ht)
      simp only [Thread.finished, hnf th (List.mem_of_getElem? ht), Option.isSome_none, Bool.false_or,
        decide_eq_true_eq] at this
      rw [ti.stop] at this
      exact le_antisymm ti.hi this
    have hfs : w.threads.findSome? (fun th : Thread K E => th.failed) = none := by
      rw [List.findSome?_eq_none_iff]; exact hnf
    rw [hfs] at h
    simp only [Out.pure_eq, Out.ok.injEq, Option.some.injEq, Prod.mk.injEq] at h
    obtain ⟨h1, h2⟩ := h
    constructor
    · rw [← h1]
      congr 1
      rw [List.sum_append, List.sum_replicate, nsmul_zero, add_zero]
      have hmap : w.threads.map Thread.acc =
          rs.map fun r => (((terms.drop r.1).take (r.2 - r.1)).map sqError).sum := by
        apply List.ext_getElem?
        intro t
        rw [List.getElem?_map, List.getElem?_map]
        rcases hr : rs[t]? with _ | r
        · rw [List.getElem?_eq_none_iff] at hr
          rw [List.getElem?_eq_none_iff.mpr (by rw [hinv.len]; exact hr)]; rfl
        · have htl : t < w.threads.length := by
            rw [hinv.len]; exact (List.getElem?_eq_some_iff.mp hr).1
          have ht : w.threads[t]? = some w.threads[t] := by simp [htl]
          rw [ht]
          simp only [Option.map_some, Option.some.injEq]
          rw [(hinv.thr t r _ hr ht).acc, hpos t r _ hr ht]
      rw [hmap, split_sum terms sqError rs hs (le_refl _)]
      simp
    · rw [← h2]
      have := rows_concat terms 0 w.e hl hw hok (by rw [hinv.elen]; simp) (by
        intro u hu i hi
        obtain ⟨j, hj⟩ := List.mem_iff_getElem?.mp hu
        obtain ⟨t, ⟨r, hr, hr1, hr2⟩, -⟩ := split_exactly_one hs (Nat.zero_le j)
          (List.getElem?_eq_some_iff.mp hj).1
        have htl : t < w.threads.length := by
          rw [hinv.len]; exact (List.getElem?_eq_some_iff.mp hr).1
        have ht : w.threads[t]? = some w.threads[t] := by simp [htl]
        exact hinv.rows t r _ j u hr ht hr1 (by rw [hpos t r _ hr ht]; exact hr2) hj i hi)
      simpa using this
  · simp at h

/-- **C29 (each once).**  The same, read as a count: if term `j` reports the multiset `{j}`, the
result is the multiset of all indices, so no term is left out or evaluated twice. -/
theorem C29_each_once [Neg X] {nThreads n : Nat} {terms : List (Term (Multiset Nat) X E)} {e e' : List X}
    {schedule : List Nat} {res : Result (Multiset Nat) E}
    (hl : LaidOut 0 terms) (hw : WellSized terms) (he : e.length = (terms.map (·.dim)).sum)
    (hok : ∀ t ∈ terms, Evaluates t) (hid : terms.map sqError = (List.range n).map ({·}))
    (h : evaluateError nThreads terms e schedule = .ok (some (res, e'))) :
    res = .value (Multiset.range n) := by
  rw [(C29_result hl hw he hok h).1, hid]
  congr 1
  clear * -
  induction n with
  | zero => rfl
  | succ n ih =>
    rw [List.range_succ, List.map_append, List.sum_append, ih, Multiset.range_succ]
    simp only [List.map_cons, List.map_nil, List.sum_cons, List.sum_nil, add_zero]
    rw [add_comm, Multiset.singleton_add]

/-- **C29 (no undefined behaviour).**  With well laid out terms the evaluation itself is defined under
every schedule. -/
theorem C29_no_ub [AddCommMonoid K] [Neg X] {nThreads : Nat} {terms : List (Term K X E)} {e : List X}
    (schedule : List Nat) (hl : LaidOut 0 terms) (hw : WellSized terms)
    (he : e.length = (terms.map (·.dim)).sum) (hn : nThreads ≤ 1 ∨ terms ≠ []) :
    ∃ r, evaluateError nThreads terms e schedule = .ok r := by
  unfold evaluateError
  obtain ⟨rs, hrs⟩ := (C29_defined terms.length (max 1 nThreads)).mpr (by
    rcases hn with h | h
    · left; omega
    · right; exact List.length_pos_iff.mpr h)
  obtain ⟨hs, -, -, -⟩ := ranges_split hrs
  obtain ⟨w, hw1, -⟩ := run_inv hl hw hs rfl schedule (inv_init terms rs e hs he)
  simp only [hrs, Out.ok_bind, hw1]
  split
  · split <;> exact ⟨_, rfl⟩
  · exact ⟨_, rfl⟩

/-- Three terms of dimensions 1, 2, 1, one of them throwing if asked to. -/
def exTerms (bad : Bool) : List (Term ℚ ℚ String) :=
  [⟨.ok (4, [2]), 0, 1⟩, ⟨if bad then .error "singular" else .ok (5, [1, 2]), 1, 2⟩, ⟨.ok (1, [-1]), 3, 1⟩]

example : LaidOut 0 (exTerms false) ∧ WellSized (exTerms false) ∧ (∀ t ∈ exTerms false, Evaluates t) ∧
    (evaluateError 2 (exTerms false) [0, 0, 0, 0] [1, 0, 1]).okAnd (fun r => match r with
      | some (.value x, v) => decide (x = 10 ∧ v = [-2, -1, -2, 1])
      | _ => false) = true := by
  refine ⟨by simp [exTerms, LaidOut], ?_, ?_, by decide +kernel⟩
  · intro t ht s v h
    simp [exTerms] at ht
    rcases ht with rfl | rfl | rfl <;> simp at h <;> obtain ⟨rfl, rfl⟩ := h <;> rfl
  · intro t ht
    simp [exTerms] at ht
    rcases ht with rfl | rfl | rfl <;> exact ⟨_, rfl⟩

/-! ## C70: exceptions of error terms -/

/-- **C70 (never swallowed, partial).**  For every number of threads and every interleaving in which
all threads finish: the call returns a value exactly when no term throws, and with one thread the
exception is the one thrown by the first throwing term.  Missing: with several threads the type and
message of the exception are lost, see the counterexample. -/
theorem C70_reported_partial [AddCommMonoid K] [Neg X] {nThreads : Nat} {terms : List (Term K X E)}
    {e e' : List X} {schedule : List Nat} {res : Result K E}
    (hl : LaidOut 0 terms) (hw : WellSized terms) (he : e.length = (terms.map (·.dim)).sum)
    (h : evaluateError nThreads terms e schedule = .ok (some (res, e'))) :
    ((∃ x, res = .value x) ↔ ∀ t ∈ terms, Evaluates t) ∧
    (∀ ex, res = .exception ex → nThreads ≤ 1 ∧ ∃ (j : Nat) (t : Term K X E), terms[j]? = some t ∧ t.eval = .error ex ∧
      ∀ i < j, ∀ u, terms[i]? = some u → Evaluates u) := by
  have h0 := h
  unfold evaluateError at h
  simp only at h
  obtain ⟨rs, hrs, h⟩ := Out.bind_eq_ok.mp h
  obtain ⟨hs, hlen, -, -⟩ := ranges_split hrs
  obtain ⟨w, hw1, hinv⟩ := run_inv hl hw hs rfl schedule (inv_init terms rs e hs he)
  rw [hw1] at h
  simp only [Out.ok_bind] at h
  split at h
  · rename_i hfin
    rcases hf : w.threads.findSome? (fun th : Thread K E => th.failed) with _ | ex
    · rw [hf] at h
      simp only [Out.pure_eq, Out.ok.injEq, Option.some.injEq, Prod.mk.injEq] at h
      rw [List.findSome?_eq_none_iff] at hf
      refine ⟨⟨fun _ => ?_, fun _ => ⟨_, h.1.symm⟩⟩, ?_⟩
      · intro u hu
        obtain ⟨j, hj⟩ := List.mem_iff_getElem?.mp hu
        obtain ⟨t, ⟨r, hr, hr1, hr2⟩, -⟩ := split_exactly_one hs (Nat.zero_le j)
          (List.getElem?_eq_some_iff.mp hj).1
        have htl : t < w.threads.length := by
          rw [hinv.len]; exact (List.getElem?_eq_some_iff.mp hr).1
        have ht : w.threads[t]? = some w.threads[t] := by simp [htl]
        have ti := hinv.thr t r _ hr ht
        have hd := List.all_eq_true.mp hfin _ (List.mem_of_getElem? ht)
        simp only [Thread.finished, hf _ (List.mem_of_getElem? ht), Option.isSome_none, Bool.false_or,
          decide_eq_true_eq] at hd
        rw [ti.stop] at hd
        obtain ⟨u', hu', hev⟩ := ti.ok j hr1 (by omega)
        rw [hj] at hu'; simp at hu'; subst hu'; exact hev
      · intro ex hex; rw [← h.1] at hex; cases hex
    · rw [hf] at h
      simp only [Out.pure_eq, Out.ok.injEq, Option.some.injEq, Prod.mk.injEq] at h
      obtain ⟨th, hth, hex⟩ := List.exists_of_findSome?_eq_some hf
      obtain ⟨t, ht⟩ := List.mem_iff_getElem?.mp hth
      have htl : t < rs.length := by rw [← hinv.len]; exact (List.getElem?_eq_some_iff.mp ht).1
      have ti := hinv.thr t rs[t] th (by simp [htl]) ht
      obtain ⟨-, u, hu, hue⟩ := ti.failed ex hex
      refine ⟨⟨?_, ?_⟩, ?_⟩
      · rintro ⟨x, rfl⟩
        split at h <;> cases h.1
      · intro hall
        obtain ⟨r, hr⟩ := hall u (List.mem_of_getElem? hu)
        rw [hr] at hue; cases hue
      · intro ex' hex'
        split at h
        · rename_i hk
          rw [hex'] at h
          simp only [Result.exception.injEq] at h
          obtain ⟨rfl, -⟩ := h
          refine ⟨by omega, th.pos, u, hu, hue, ?_⟩
          intro i hi v hv
          have hone : rs = [(0, terms.length)] := by
            unfold ranges at hrs; rw [if_pos hk] at hrs; simpa using hrs.symm
          subst hone
          have : t = 0 := by simpa using htl
          subst this
          obtain ⟨v', hv', hev⟩ := ti.ok i (by simp) hi
          rw [hv] at hv'; simp at hv'; subst hv'; exact hev
        · rw [hex'] at h; cases h.1
  · simp at h

/-- **C70 is false of the code**: with two threads the exception arrives as a plain `std::exception`;
with one thread it arrives unchanged. -/
theorem C70_counterexample :
    ∃ v v' : List ℚ,
      evaluateError 1 (exTerms true) [0, 0, 0, 0] [0, 0] = .ok (some (.exception "singular", v)) ∧
      evaluateError 2 (exTerms true) [0, 0, 0, 0] [0, 1] = .ok (some (.plainException, v')) := by
  exact ⟨_, _, rfl, rfl⟩

end Kalibr.Threads
