import Mathlib.Algebra.Order.Floor.Ring
import Verif.Random.Model
import Verif.Tactics

/-!
# Properties of the random numbers
-/

namespace Kalibr.Random

variable {B : Boost}

/-- What a sequence of calls returns. -/
noncomputable def values (B : Boost) (s : State B) (l : List Call) : Out (List ℝ) :=
  (s.run l).bind fun r => .ok r.1

theorem run_append (s s' : State B) (a b : List Call) (va : List ℝ) (h : s.run a = .ok (va, s')) :
    s.run (a ++ b) = (s'.run b).bind fun q => .ok (va ++ q.1, q.2) := by
  induction a generalizing s va with
  | nil =>
    simp only [State.run, Out.ok.injEq, Prod.mk.injEq] at h
    obtain ⟨rfl, rfl⟩ := h
    simp only [List.nil_append]
    cases s.run b <;> rfl
  | cons c a ih =>
    simp only [State.run, List.cons_append] at h ⊢
    cases hc : s.call c with
    | raise => rw [hc] at h; simp at h
    | ub => rw [hc] at h; simp at h
    | ok r =>
      rw [hc] at h
      simp only [Out.bind] at h ⊢
      cases hr : r.2.run a with
      | raise => rw [hr] at h; simp at h
      | ub => rw [hr] at h; simp at h
      | ok q =>
        rw [hr] at h
        simp only [Out.ok.injEq, Prod.mk.injEq] at h
        obtain ⟨rfl, rfl⟩ := h
        rw [ih r.2 q.1 hr]
        cases q.2.run b <;> rfl

/-- **C183**: after `seed` with the same number the same calls return the same values, whatever was drawn before. -/
theorem C183_seed (h₁ h₂ l : List Call) (v₁ v₂ : List ℝ) (s₁ s₂ : State B) (v : ℕ)
    (e₁ : (State.new B).run h₁ = .ok (v₁, s₁)) (e₂ : (State.new B).run h₂ = .ok (v₂, s₂)) :
    ∃ r : Out (List ℝ), values B (State.new B) (h₁ ++ .seed v :: l) = r.bind (fun w => .ok (v₁ ++ w)) ∧
      values B (State.new B) (h₂ ++ .seed v :: l) = r.bind (fun w => .ok (v₂ ++ w)) := by
  have hs : ∀ s : State B, s.seed v = ⟨B.seed (v % 2 ^ 32), B.fresh⟩ := fun s => rfl
  refine ⟨((⟨B.seed (v % 2 ^ 32), B.fresh⟩ : State B).run l).bind fun q => .ok (0 :: q.1), ?_, ?_⟩
  · rw [values, run_append _ _ _ _ _ e₁]
    simp only [State.run, State.call, Out.bind, hs]
    cases (⟨B.seed (v % 2 ^ 32), B.fresh⟩ : State B).run l <;> rfl
  · rw [values, run_append _ _ _ _ _ e₂]
    simp only [State.run, State.call, Out.bind, hs]
    cases (⟨B.seed (v % 2 ^ 32), B.fresh⟩ : State B).run l <;> rfl

/-- **C183**: but numbers of 64 bits that agree in the lower half are one and the same seed. -/
theorem C183_seed_counterexample (s : State B) : s.seed 1 = s.seed (2 ^ 32 + 1) ∧ (2 ^ 32 + 1 : ℕ) < 2 ^ 64 := by
  constructor
  · rfl
  · norm_num

/-- **C183**: `uniform` is at least zero and less than one, in every state. -/
theorem C183_uniform (s : State B) : 0 ≤ s.uniform.1 ∧ s.uniform.1 < 1 := by
  have h := B.word s.e
  have h' : ((B.next s.e).1 : ℝ) < 2 ^ 32 := by exact_mod_cast h
  simp only [State.uniform]
  exact ⟨by positivity, by rw [div_lt_one (by positivity)]; exact h'⟩

/-- **C183**: `randLU` includes its lower bound and excludes its upper one. -/
theorem C183_range (s : State B) (lo hi : ℝ) (h : lo < hi) : lo ≤ (s.randLU lo hi).1 ∧ (s.randLU lo hi).1 < hi := by
  obtain ⟨h0, h1⟩ := C183_uniform s
  simp only [State.randLU]
  have hd : 0 < hi - lo := by linarith
  constructor
  · linarith [mul_nonneg h0 hd.le]
  · linarith [mul_lt_mul_of_pos_right h1 hd]

/-- **C183**: with the bounds exchanged it excludes the lower one; with equal bounds it returns them. -/
theorem C183_reversed (s : State B) (lo hi : ℝ) :
    (hi < lo → hi < (s.randLU lo hi).1 ∧ (s.randLU lo hi).1 ≤ lo) ∧ (lo = hi → (s.randLU lo hi).1 = lo) := by
  obtain ⟨h0, h1⟩ := C183_uniform s
  simp only [State.randLU]
  constructor
  · intro h
    have hd : 0 < lo - hi := by linarith
    constructor
    · linarith [mul_lt_mul_of_pos_right h1 hd]
    · linarith [mul_nonneg h0 hd.le]
  · rintro rfl
    ring

/-- **C183**: `randLUi` returns a number between its bounds, the upper one excluded, for all bounds whose difference is an
`int`. -/
theorem C183_int (s : State B) (lo hi : ℤ) (hl : isInt lo) (hh : isInt hi) (h : lo < hi) (hd : isInt (hi - lo)) :
    ∃ z s', s.randLUi lo hi = .ok (z, s') ∧ lo ≤ z ∧ z < hi := by
  obtain ⟨h0, h1⟩ := C183_uniform s
  have hp : (0 : ℝ) < ((hi - lo : ℤ) : ℝ) := by exact_mod_cast (by omega : 0 < hi - lo)
  have f0 : 0 ≤ ⌊s.uniform.1 * ((hi - lo : ℤ) : ℝ)⌋ := Int.floor_nonneg.2 (mul_nonneg h0 hp.le)
  have f1 : ⌊s.uniform.1 * ((hi - lo : ℤ) : ℝ)⌋ < hi - lo := by
    rw [Int.floor_lt]
    linarith [mul_lt_mul_of_pos_right h1 hp]
  have hn : ¬ (¬ isInt ⌊s.uniform.1 * ((hi - lo : ℤ) : ℝ)⌋ ∨ ¬ isInt (⌊s.uniform.1 * ((hi - lo : ℤ) : ℝ)⌋ + lo)) := by
    unfold isInt at *
    omega
  refine ⟨⌊s.uniform.1 * ((hi - lo : ℤ) : ℝ)⌋ + lo, s.uniform.2, ?_, ?_, ?_⟩
  · unfold State.randLUi
    rw [if_neg (not_not.2 hd)]
    simp only
    rw [if_neg hn]
  · omega
  · omega

example : isInt (-3) ∧ isInt 7 ∧ isInt (7 - (-3)) := by
  unfold isInt
  omega

/-- **C183**: it can return each of these numbers: there is a word of the engine for which it does. -/
theorem C183_each (lo hi z : ℤ) (hl : isInt lo) (hh : isInt hi) (hd : isInt (hi - lo)) (h0 : lo ≤ z) (h1 : z < hi) :
    ∃ w : ℕ, w < 2 ^ 32 ∧ ∀ s : State B, (B.next s.e).1 = w → ∃ s', s.randLUi lo hi = .ok (z, s') := by
  set D : ℤ := hi - lo with hD
  have hDp : 0 < D := by omega
  have hDl : D < 2 ^ 31 := hd.2
  obtain ⟨k, hk⟩ : ∃ k : ℕ, (k : ℤ) = z - lo := ⟨(z - lo).toNat, Int.toNat_of_nonneg (by omega)⟩
  obtain ⟨n, hn⟩ : ∃ n : ℕ, (n : ℤ) = D := ⟨D.toNat, Int.toNat_of_nonneg hDp.le⟩
  have hkn : k < n := by omega
  have hn0 : 0 < n := by omega
  have hnl : n < 2 ^ 31 := by omega
  -- the smallest word that is large enough
  set w := (k * 2 ^ 32 + n - 1) / n with hw
  have hw1 : w * n ≤ k * 2 ^ 32 + n - 1 := Nat.div_mul_le_self _ _
  have hw2 : k * 2 ^ 32 + n - 1 < (w + 1) * n := by
    have h := Nat.lt_mul_div_succ (k * 2 ^ 32 + n - 1) hn0
    rw [Nat.mul_comm n] at h
    exact h
  have hw3 : k * 2 ^ 32 ≤ w * n := by rw [Nat.add_mul, one_mul] at hw2; omega
  have hw4 : w * n < (k + 1) * 2 ^ 32 := by rw [Nat.add_mul]; omega
  refine ⟨w, ?_, fun s hs => ?_⟩
  · by_contra hc
    push Not at hc
    have a1 : 2 ^ 32 * n ≤ w * n := Nat.mul_le_mul_right n hc
    have a2 : (k + 1) * 2 ^ 32 ≤ n * 2 ^ 32 := Nat.mul_le_mul_right _ hkn
    rw [Nat.mul_comm] at a1
    exact absurd (lt_of_lt_of_le hw4 (a2.trans a1)) (lt_irrefl _)
  · have hfl : ⌊s.uniform.1 * (D : ℝ)⌋ = z - lo := by
      have hu : s.uniform.1 = (w : ℝ) / 2 ^ 32 := by simp only [State.uniform, hs]
      rw [hu, ← hk, ← hn, Int.floor_eq_iff]
      have r3 : (k : ℝ) * 2 ^ 32 ≤ w * n := by exact_mod_cast hw3
      have r4 : (w : ℝ) * n < (k + 1) * 2 ^ 32 := by exact_mod_cast hw4
      push_cast
      constructor
      · rw [div_mul_eq_mul_div, le_div_iff₀ (by positivity)]
        exact r3
      · rw [div_mul_eq_mul_div, div_lt_iff₀ (by positivity)]
        exact r4
    refine ⟨s.uniform.2, ?_⟩
    unfold State.randLUi
    rw [← hD, if_neg (not_not.2 hd)]
    simp only
    rw [hfl, if_neg, sub_add_cancel]
    unfold isInt at *
    omega

/-- **C183**: for bounds that are too far apart the call is undefined. -/
theorem C183_overflow_counterexample (s : State B) :
    isInt (-2 ^ 31) ∧ isInt (2 ^ 31 - 1) ∧ s.randLUi (-2 ^ 31) (2 ^ 31 - 1) = .ub := by
  refine ⟨by unfold isInt; omega, by unfold isInt; omega, ?_⟩
  unfold State.randLUi
  rw [if_pos]
  unfold isInt
  omega

/-- An engine that counts, and a distribution that remembers whether it was asked before. -/
noncomputable def counting : Boost where
  E := ℕ
  N := Bool
  init := 5489
  seed := id
  next e := (e % 2 ^ 32, e + 1)
  word e := Nat.mod_lt _ (by norm_num)
  fresh := false
  normal e n := if n then (1, e, false) else (-1, e + 2, true)

/-- The hypotheses of `C183_seed` are met by two histories after which the state is not the same. -/
example : ∃ v₁ v₂ s₁ s₂, (State.new counting).run [.normal] = .ok (v₁, s₁) ∧
    (State.new counting).run [.normal, .normal, .normal, .uniform] = .ok (v₂, s₂) ∧ s₁ ≠ s₂ :=
  ⟨_, _, _, _, rfl, rfl, fun h => by
    have := congrArg (fun s : State counting => s.e) h
    revert this
    exact (by decide : ¬ (5489 + 2 : ℕ) = 5489 + 2 + 2 + 1)⟩

end Kalibr.Random
