import Verif.VecDv.Model
import Verif.Tactics

/-!
# C193: vectors as design variables
-/

namespace Kalibr.VecDv

theorem getD_zipWith (a b : List ℝ) (h : b.length = a.length) (i : ℕ) :
    (List.zipWith (· + ·) a b).getD i 0 = a.getD i 0 + b.getD i 0 := by
  by_cases hi : i < a.length
  · have hb : i < b.length := h ▸ hi
    simp [List.getD_eq_getElem?_getD, hi, hb]
  · have hb : ¬ i < b.length := h ▸ hi
    simp [List.getD_eq_getElem?_getD, hi, hb]

/-- Every call does what it says: an update adds, a vector that is set is the value, and parameters of another shape raise and
leave the variable. -/
theorem C193_call (d e : Dv) (c : Call) (h : call d c = .ok e) : Means d.get e.get c ∧
    (∀ dp, c = .update dp → e.dim = d.dim) := by
  cases c with
  | set v =>
    simp only [call, Out.ok.injEq] at h
    subst h
    exact ⟨rfl, by simp⟩
  | update dp =>
    simp only [call, Dv.update] at h
    split_ifs at h with hl
    rw [Out.ok.injEq] at h
    subst h
    refine ⟨⟨hl, by simp [Dv.get, hl], fun i => getD_zipWith _ _ hl i⟩, fun _ _ => by simp [Dv.dim, hl]⟩
  | setParameters v k =>
    refine ⟨?_, by simp⟩
    simp only [call, Dv.setParameters] at h
    by_cases hk : k ≠ 1 ∨ v.length ≠ d.value.length
    · rw [if_pos hk] at h
      simp only [Out.ok.injEq] at h
      subst h
      exact ⟨fun ⟨a, b⟩ => (hk.elim (fun h => h a) (fun h => h b)).elim, fun _ => rfl⟩
    · rw [if_neg hk] at h
      simp only [Out.ok.injEq] at h
      subst h
      refine ⟨fun _ => rfl, fun h => (h ?_).elim⟩
      unfold Dv.get
      tauto
  | revert => exact ⟨trivial, by simp⟩

theorem run_append (d : Dv) (a b : List Call) : run d (a ++ b) = (run d a).bind fun e => run e b := by
  induction a generalizing d with
  | nil => rfl
  | cons c a ih =>
    simp only [List.cons_append, run]
    cases call d c <;> simp [Out.bind, ih]

theorem run_reverts (d : Dv) (n : ℕ) : run d (List.replicate (n + 1) .revert) = .ok d.revert := by
  induction n generalizing d with
  | zero => rfl
  | succ n ih =>
    rw [List.replicate_succ, run]
    simp only [call, Out.bind]
    rw [ih]
    rfl

/-- After any history, one or more reverts bring back the value before the last call that changed the variable.  There is one
step back only: more reverts do nothing more. -/
theorem C193_revert (v : List ℝ) (cs : List Call) (c : Call) (d e : Dv) (h : run (Dv.new v) cs = .ok d)
    (hc : Changes d c) (he : call d c = .ok e) (n : ℕ) :
    ∃ f, run (Dv.new v) (cs ++ c :: List.replicate (n + 1) .revert) = .ok f ∧ f.get = d.get := by
  refine ⟨e.revert, ?_, ?_⟩
  · rw [run_append, h]
    simp only [Out.bind, run, he]
    exact run_reverts e n
  · cases c with
    | set v => simp only [call, Out.ok.injEq] at he; subst he; rfl
    | update dp =>
      simp only [call, Dv.update] at he
      split_ifs at he
      rw [Out.ok.injEq] at he
      subst he
      rfl
    | setParameters v k =>
      simp only [call, Dv.setParameters] at he
      rw [if_neg (by unfold Changes Dv.get at hc; tauto)] at he
      simp only [Out.ok.injEq] at he
      subst he
      rfl
    | revert => exact hc.elim

/-- A new variable has its value, and a revert before any change keeps it.  Only an update of another size is undefined. -/
theorem C193_new (v : List ℝ) (n : ℕ) : (Dv.new v).get = v ∧ (Dv.new v).dim = v.length ∧
    (∃ f, run (Dv.new v) (List.replicate n .revert) = .ok f ∧ f.get = v) ∧
    ∀ d c, call d c = .ub ↔ ∃ dp, c = .update dp ∧ dp.length ≠ d.dim := by
  refine ⟨rfl, rfl, ?_, fun d c => ?_⟩
  · cases n with
    | zero => exact ⟨_, rfl, rfl⟩
    | succ n => exact ⟨_, run_reverts _ n, rfl⟩
  · cases c with
    | set v => simp [call]
    | update dp =>
      simp only [call, Dv.update, Dv.dim]
      split_ifs with h <;> simp [h]
    | setParameters v k =>
      simp only [call, Dv.setParameters]
      split_ifs <;> simp
    | revert => simp [call]

/-- A history that ends in an update. -/
example : ∃ d e, run (Dv.new [1, 2]) [.set [3, 4], .revert] = .ok d ∧ Changes d (.update [1, 1]) ∧
    call d (.update [1, 1]) = .ok e ∧ e.get ≠ d.get := by
  refine ⟨_, _, rfl, trivial, rfl, ?_⟩
  simp [Dv.get, Dv.revert, Dv.set, Dv.new]

end Kalibr.VecDv
