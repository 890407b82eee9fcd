import Mathlib.Algebra.BigOperators.Intervals
import Verif.Schur.Model
import Verif.Tactics

/-!
# Properties of the Schur complement
-/

namespace Kalibr.Schur

open Matrix

variable {K : Type} [Field K] {d : ℕ → ℕ}

theorem val_put_self (B : Blocks K d) (r c : ℕ) (M : Matrix (Fin (d r)) (Fin (d c)) K) : val (put B r c M) r c = M := by
  simp [val, put]

theorem val_put_ne (B : Blocks K d) (r c r' c' : ℕ) (M : Matrix (Fin (d r)) (Fin (d c)) K) (h : ¬ (r' = r ∧ c' = c)) :
    val (put B r c M) r' c' = val B r' c' := by
  unfold val put
  by_cases hr : r' = r
  · subst hr
    rw [Function.update_self, Function.update_of_ne (fun hc => h ⟨rfl, hc⟩)]
  · rw [Function.update_of_ne hr]

theorem val_none {B : Blocks K d} {r c : ℕ} (h : ¬ (B r c).isSome) : val B r c = 0 := by
  simp only [Option.not_isSome_iff_eq_none] at h
  simp [val, h]

theorem val_slice (s : ℕ) (H A : Blocks K d) {r c : ℕ} (hr : r < s) (hc : c < s) : val (sliceInto s H A) r c = val H r c := by
  by_cases h : (H r c).isSome
  · simp [val, sliceInto, hr, hc, h]
  · rw [val_none h]
    simp only [Option.not_isSome_iff_eq_none] at h
    cases hA : A r c <;> simp [val, sliceInto, h, hA]

theorem val_inner (s : ℕ) (H : Blocks K d) (t j : ℕ) (Y : Matrix (Fin (d j)) (Fin (d t)) K) (A : Blocks K d) (r c : ℕ)
    (hc : c < s) (hrc : r ≤ c) :
    val (inner s H t j Y A) r c = val A r c - if h : r = j then (h ▸ Y) * (val H c t)ᵀ else 0 := by
  have key : ∀ (l : List ℕ) (A : Blocks K d), l.Nodup →
      val (l.foldl (fun A k => put A j k (val A j k - Y * (val H k t)ᵀ)) A) r c =
        val A r c - if h : r = j ∧ c ∈ l then (h.1 ▸ Y) * (val H c t)ᵀ else 0 := by
    intro l
    induction l with
    | nil => intro A _; simp
    | cons k l ih =>
      intro A hn
      rw [List.foldl_cons, ih _ (List.nodup_cons.1 hn).2]
      by_cases hk : r = j ∧ c = k
      · obtain ⟨rfl, rfl⟩ := hk
        rw [val_put_self]
        have : c ∉ l := (List.nodup_cons.1 hn).1
        simp [this]
      · rw [val_put_ne _ _ _ _ _ _ hk]
        by_cases hr : r = j
        · have hck : c ≠ k := fun h => hk ⟨hr, h⟩
          simp [hck]
        · simp [hr]
  rw [inner, key _ _ (List.nodup_range.filter _)]
  by_cases hr : r = j
  · subst hr
    by_cases hs : (H c t).isSome
    · simp [hc, hrc, hs]
    · simp [hs, val_none hs]
  · simp [hr]

theorem outer_fst (s : ℕ) (H : Blocks K d) (rhs : Vec K d) (t : ℕ) (I : Matrix (Fin (d t)) (Fin (d t)) K)
    (x : Blocks K d × Vec K d) (r c : ℕ) (hc : c < s) (hrc : r ≤ c) :
    val (outer s H rhs t I x).1 r c = val x.1 r c - val H r t * I * (val H c t)ᵀ ∧
      (outer s H rhs t I x).2 r = x.2 r - val H r t *ᵥ (I *ᵥ rhs t) := by
  have key : ∀ (l : List ℕ) (x : Blocks K d × Vec K d), l.Nodup →
      val (l.foldl (fun x j =>
        let Y := val H j t * I
        (inner s H t j Y x.1, Function.update x.2 j (x.2 j - Y *ᵥ rhs t))) x).1 r c =
        val x.1 r c - (if r ∈ l then val H r t * I * (val H c t)ᵀ else 0) ∧
      (l.foldl (fun x j =>
        let Y := val H j t * I
        (inner s H t j Y x.1, Function.update x.2 j (x.2 j - Y *ᵥ rhs t))) x).2 r =
        x.2 r - if r ∈ l then val H r t *ᵥ (I *ᵥ rhs t) else 0 := by
    intro l
    induction l with
    | nil => intro x _; simp
    | cons j l ih =>
      intro x hn
      obtain ⟨h1, h2⟩ := ih (inner s H t j (val H j t * I) x.1,
        Function.update x.2 j (x.2 j - (val H j t * I) *ᵥ rhs t)) (List.nodup_cons.1 hn).2
      simp only [List.foldl_cons]
      refine ⟨h1.trans ?_, h2.trans ?_⟩
      · rw [val_inner s H t j _ _ r c hc hrc]
        by_cases hr : r = j
        · subst hr
          have : r ∉ l := (List.nodup_cons.1 hn).1
          simp [this]
        · simp [hr]
      · by_cases hr : r = j
        · subst hr
          have : r ∉ l := (List.nodup_cons.1 hn).1
          simp [this]
        · simp [hr]
  obtain ⟨h1, h2⟩ := key ((List.range s).filter fun j => (H j t).isSome) x (List.nodup_range.filter _)
  unfold outer
  rw [h1, h2]
  by_cases hs : (H r t).isSome
  · have : r ∈ (List.range s).filter fun j => (H j t).isSome := by simp [hs]; omega
    simp [this]
  · have : r ∉ (List.range s).filter fun j => (H j t).isSome := by simp [hs]
    simp [this, val_none hs]

theorem val_augment (s : ℕ) (lambda : K) (A : Blocks K d) (r c : ℕ) (hr : r < s) :
    val (augment s lambda A) r c = val A r c + if h : r = c then h ▸ (lambda • (1 : Matrix (Fin (d r)) (Fin (d r)) K)) else 0 := by
  have key : ∀ (l : List ℕ) (A : Blocks K d), l.Nodup →
      val (l.foldl (fun A i => put A i i (val A i i + lambda • (1 : Matrix (Fin (d i)) (Fin (d i)) K))) A) r c =
        val A r c + if h : r = c ∧ r ∈ l then h.1 ▸ (lambda • (1 : Matrix (Fin (d r)) (Fin (d r)) K)) else 0 := by
    intro l
    induction l with
    | nil => intro A _; simp
    | cons k l ih =>
      intro A hn
      rw [List.foldl_cons, ih _ (List.nodup_cons.1 hn).2]
      by_cases hk : r = k ∧ c = k
      · obtain ⟨rfl, rfl⟩ := hk
        rw [val_put_self]
        have : c ∉ l := (List.nodup_cons.1 hn).1
        simp [this]
      · rw [val_put_ne _ _ _ _ _ _ hk]
        by_cases hr : r = c
        · subst hr
          have hck : r ≠ k := fun h => hk ⟨h, h⟩
          simp [hck]
        · simp [hr]
  rw [augment, key _ _ List.nodup_range]
  simp [hr]

/-- What is added to the diagonal. -/
def damping (lm : Bool) (lambda : K) : K := if lm then lambda else 0

/-- What `applySchurComplement` computes on and above the diagonal, whatever was in `A`. -/
theorem applySchur_eq (s m : ℕ) (lm : Bool) (lambda : K) (H : Blocks K d) (rhs : Vec K d) (A : Blocks K d) (r c : ℕ)
    (hc : c < s) (hrc : r ≤ c) :
    val (applySchur s m lm lambda H rhs A).1 r c = val H r c
        + (if h : r = c then h ▸ (damping lm lambda • (1 : Matrix (Fin (d r)) (Fin (d r)) K)) else 0)
        - ∑ i ∈ Finset.range m, val H r (s + i) * invV s lm lambda H i * (val H c (s + i))ᵀ ∧
      (applySchur s m lm lambda H rhs A).2 r =
        rhs r - ∑ i ∈ Finset.range m, val H r (s + i) *ᵥ (invV s lm lambda H i *ᵥ rhs (s + i)) := by
  have key : ∀ m,
      let x := (List.range m).foldl (fun x i => outer s H rhs (s + i) (invV s lm lambda H i) x) (sliceInto s H A, rhs)
      val x.1 r c = val H r c - ∑ i ∈ Finset.range m, val H r (s + i) * invV s lm lambda H i * (val H c (s + i))ᵀ ∧
      x.2 r = rhs r - ∑ i ∈ Finset.range m, val H r (s + i) *ᵥ (invV s lm lambda H i *ᵥ rhs (s + i)) := by
    intro m
    induction m with
    | zero => simp [val_slice s H A (show r < s by omega) hc]
    | succ m ih =>
      obtain ⟨h1, h2⟩ := ih
      simp only [List.range_succ, List.foldl_append, List.foldl_cons, List.foldl_nil]
      obtain ⟨g1, g2⟩ := outer_fst s H rhs (s + m) (invV s lm lambda H m)
        ((List.range m).foldl (fun x i => outer s H rhs (s + i) (invV s lm lambda H i) x) (sliceInto s H A, rhs)) r c hc hrc
      rw [g1, g2, h1, h2, Finset.sum_range_succ, Finset.sum_range_succ]
      constructor <;> abel
  obtain ⟨h1, h2⟩ := key m
  refine ⟨?_, h2⟩
  unfold applySchur
  cases lm with
  | false =>
    have hz : (if h : r = c then h ▸ (damping false lambda • (1 : Matrix (Fin (d r)) (Fin (d r)) K)) else 0) =
        (0 : Matrix (Fin (d r)) (Fin (d c)) K) := by
      split_ifs with h
      · subst h
        simp [damping]
      · rfl
    rw [hz, add_zero]
    exact h1
  | true =>
    simp only [if_true, damping]
    rw [val_augment _ _ _ _ _ (by omega), h1]
    abel

theorem buildDsi_eq (s i : ℕ) (H : Blocks K d) (rhs : Vec K d) (I : Matrix (Fin (d (s + i))) (Fin (d (s + i))) K)
    (dx : Vec K d) :
    buildDsi s i H rhs I dx = I *ᵥ (rhs (s + i) - ∑ j ∈ Finset.range s, (val H j (s + i))ᵀ *ᵥ dx j) := by
  have key : ∀ (t n : ℕ) (v : Fin (d t) → K), ((List.range n).filter fun j => (H j t).isSome).foldl
      (fun o j => o - (val H j t)ᵀ *ᵥ dx j) v = v - ∑ j ∈ Finset.range n, (val H j t)ᵀ *ᵥ dx j := by
    intro t n v
    induction n with
    | zero => simp
    | succ n ih =>
      rw [List.range_succ, List.filter_append, List.foldl_append, ih, Finset.sum_range_succ]
      by_cases hs : (H n t).isSome
      · rw [List.filter_cons_of_pos (by simpa using hs)]
        simp only [List.filter_nil, List.foldl_cons, List.foldl_nil]
        abel
      · rw [List.filter_cons_of_neg (by simpa using hs), val_none hs]
        simp
  rw [buildDsi, key]

/-- The symmetric matrix of which the blocks on and above the diagonal are given. -/
def sym (B : Blocks K d) (r c : ℕ) : Matrix (Fin (d r)) (Fin (d c)) K := if r ≤ c then val B r c else (val B c r)ᵀ

/-- `x` solves the damped system of `s + m` blocks. -/
def SolvesFull (s m : ℕ) (lm : Bool) (lambda : K) (H : Blocks K d) (rhs x : Vec K d) : Prop :=
  ∀ r < s + m, ∑ c ∈ Finset.range (s + m), sym H r c *ᵥ x c + (if lm then lambda else 0) • x r = rhs r

/-- `x` solves the reduced system of `s` blocks. -/
def SolvesReduced (s : ℕ) (A : Blocks K d) (b x : Vec K d) : Prop :=
  ∀ j < s, ∑ k ∈ Finset.range s, sym A j k *ᵥ x k = b j

/-- The blocks to be eliminated are symmetric and, with the damping, regular, and are not coupled with each other. -/
structure Eliminable (s m : ℕ) (lm : Bool) (lambda : K) (H : Blocks K d) : Prop where
  symmetric : ∀ i < m, (val H (s + i) (s + i))ᵀ = val H (s + i) (s + i)
  regular : ∀ i < m, (val H (s + i) (s + i) +
    (if lm then lambda else 0) • (1 : Matrix (Fin (d (s + i))) (Fin (d (s + i))) K)).det ≠ 0
  uncoupled : ∀ i < m, ∀ i' < m, i < i' → val H (s + i) (s + i') = 0

theorem invV_eq (s : ℕ) (lm : Bool) (lambda : K) (H : Blocks K d) (i : ℕ) :
    invV s lm lambda H i = (val H (s + i) (s + i) +
      damping lm lambda • (1 : Matrix (Fin (d (s + i))) (Fin (d (s + i))) K))⁻¹ := by
  cases lm <;> simp [invV, damping]

theorem sym_reduced (s m : ℕ) (lm : Bool) (lambda : K) (H : Blocks K d) (rhs : Vec K d) (A : Blocks K d)
    (h : ∀ i < m, (val H (s + i) (s + i))ᵀ = val H (s + i) (s + i)) (x : Vec K d) (j k : ℕ) (hj : j < s) (hk : k < s) :
    sym (applySchur s m lm lambda H rhs A).1 j k *ᵥ x k = sym H j k *ᵥ x k + (if k = j then damping lm lambda • x j else 0)
      - ∑ i ∈ Finset.range m, val H j (s + i) *ᵥ (invV s lm lambda H i *ᵥ ((val H k (s + i))ᵀ *ᵥ x k)) := by
  have hI : ∀ i < m, (invV s lm lambda H i)ᵀ = invV s lm lambda H i := by
    intro i hi
    rw [invV_eq, transpose_nonsing_inv, transpose_add, h i hi, transpose_smul, transpose_one]
  have hsum : (∑ i ∈ Finset.range m, val H j (s + i) * invV s lm lambda H i * (val H k (s + i))ᵀ) *ᵥ x k =
      ∑ i ∈ Finset.range m, val H j (s + i) *ᵥ (invV s lm lambda H i *ᵥ ((val H k (s + i))ᵀ *ᵥ x k)) := by
    rw [Matrix.sum_mulVec]
    refine Finset.sum_congr rfl fun i _ => ?_
    rw [Matrix.mulVec_mulVec, Matrix.mulVec_mulVec, Matrix.mul_assoc]
  rw [← hsum]
  by_cases hjk : j ≤ k
  · rw [sym, sym, if_pos hjk, if_pos hjk, (applySchur_eq s m lm lambda H rhs A j k hk hjk).1, Matrix.sub_mulVec,
      Matrix.add_mulVec]
    congr 2
    by_cases he : j = k
    · subst he
      simp [Matrix.smul_mulVec]
    · rw [dif_neg he, if_neg (fun h => he h.symm), Matrix.zero_mulVec]
  · rw [sym, sym, if_neg hjk, if_neg hjk, (applySchur_eq s m lm lambda H rhs A k j hj (by omega)).1, if_neg (by omega),
      dif_neg (by omega), add_zero, add_zero, transpose_sub, Matrix.sub_mulVec, transpose_sum]
    have he : ∑ i ∈ Finset.range m, (val H k (s + i) * invV s lm lambda H i * (val H j (s + i))ᵀ)ᵀ =
        ∑ i ∈ Finset.range m, val H j (s + i) * invV s lm lambda H i * (val H k (s + i))ᵀ := by
      refine Finset.sum_congr rfl fun i hi => ?_
      rw [transpose_mul, transpose_mul, transpose_transpose, hI i (Finset.mem_range.1 hi), Matrix.mul_assoc]
    rw [he]

/-- **C186**: eliminating blocks, solving the reduced system and substituting back is the same as solving the full system,
with and without damping, for every pattern of stored blocks and whatever the matrix held before. -/
theorem C186_schur (s m : ℕ) (lm : Bool) (lambda : K) (H A : Blocks K d) (rhs x : Vec K d)
    (h : Eliminable s m lm lambda H) :
    SolvesFull s m lm lambda H rhs x ↔
      SolvesReduced s (applySchur s m lm lambda H rhs A).1 (applySchur s m lm lambda H rhs A).2 x ∧
        ∀ i < m, x (s + i) = buildDsi s i H rhs (invV s lm lambda H i) x := by
  have hdamp : (if lm then lambda else 0) = damping lm lambda := rfl
  have hreg : ∀ i < m, IsUnit (val H (s + i) (s + i) +
      damping lm lambda • (1 : Matrix (Fin (d (s + i))) (Fin (d (s + i))) K)).det := fun i hi =>
    isUnit_iff_ne_zero.2 (h.regular i hi)
  -- the rows of the eliminated blocks
  have tail : ∀ i < m, (∑ c ∈ Finset.range (s + m), sym H (s + i) c *ᵥ x c + damping lm lambda • x (s + i) = rhs (s + i) ↔
      x (s + i) = buildDsi s i H rhs (invV s lm lambda H i) x) := by
    intro i hi
    rw [buildDsi_eq, Finset.sum_range_add]
    have h1 : ∑ c ∈ Finset.range s, sym H (s + i) c *ᵥ x c = ∑ j ∈ Finset.range s, (val H j (s + i))ᵀ *ᵥ x j := by
      refine Finset.sum_congr rfl fun j hj => ?_
      have := Finset.mem_range.1 hj
      rw [sym, if_neg (by omega)]
    have h2 : ∑ i' ∈ Finset.range m, sym H (s + i) (s + i') *ᵥ x (s + i') = val H (s + i) (s + i) *ᵥ x (s + i) := by
      rw [Finset.sum_eq_single i]
      · rw [sym, if_pos (le_refl _)]
      · intro i' hi' hne
        have hi' := Finset.mem_range.1 hi'
        rw [sym]
        split_ifs with hle
        · rw [h.uncoupled i hi i' hi' (by omega), Matrix.zero_mulVec]
        · rw [h.uncoupled i' hi' i hi (by omega), transpose_zero, Matrix.zero_mulVec]
      · intro hc; exact absurd (Finset.mem_range.2 hi) hc
    rw [h1, h2, invV_eq]
    set V := val H (s + i) (s + i) + damping lm lambda • (1 : Matrix (Fin (d (s + i))) (Fin (d (s + i))) K) with hV
    set w := ∑ j ∈ Finset.range s, (val H j (s + i))ᵀ *ᵥ x j
    have hVx : V *ᵥ x (s + i) = val H (s + i) (s + i) *ᵥ x (s + i) + damping lm lambda • x (s + i) := by
      rw [hV, Matrix.add_mulVec, Matrix.smul_mulVec, Matrix.one_mulVec]
    rw [add_assoc, ← hVx]
    constructor
    · intro he
      rw [← he, add_sub_cancel_left, Matrix.mulVec_mulVec, nonsing_inv_mul _ (hreg i hi), Matrix.one_mulVec]
    · intro he
      rw [he, Matrix.mulVec_mulVec, mul_nonsing_inv _ (hreg i hi), Matrix.one_mulVec]
      abel
  -- the rows of the others, once those are known
  have head : (∀ i < m, x (s + i) = buildDsi s i H rhs (invV s lm lambda H i) x) → ∀ j < s,
      (∑ c ∈ Finset.range (s + m), sym H j c *ᵥ x c + damping lm lambda • x j = rhs j ↔
        ∑ k ∈ Finset.range s, sym (applySchur s m lm lambda H rhs A).1 j k *ᵥ x k = (applySchur s m lm lambda H rhs A).2 j) := by
    intro hx j hj
    rw [Finset.sum_congr rfl fun k hk => sym_reduced s m lm lambda H rhs A h.symmetric x j k hj (Finset.mem_range.1 hk),
      (applySchur_eq s m lm lambda H rhs A j j hj (le_refl _)).2, Finset.sum_range_add]
    have h2 : ∑ i ∈ Finset.range m, sym H j (s + i) *ᵥ x (s + i) =
        ∑ i ∈ Finset.range m, val H j (s + i) *ᵥ (invV s lm lambda H i *ᵥ rhs (s + i)) -
        ∑ k ∈ Finset.range s, ∑ i ∈ Finset.range m,
          val H j (s + i) *ᵥ (invV s lm lambda H i *ᵥ ((val H k (s + i))ᵀ *ᵥ x k)) := by
      rw [Finset.sum_comm, ← Finset.sum_sub_distrib]
      refine Finset.sum_congr rfl fun i hi => ?_
      have hi := Finset.mem_range.1 hi
      rw [sym, if_pos (by omega), hx i hi, buildDsi_eq, Matrix.mulVec_sub, Matrix.mulVec_sub, Matrix.mulVec_sum,
        Matrix.mulVec_sum]
    rw [h2, Finset.sum_sub_distrib, Finset.sum_add_distrib, Finset.sum_ite_eq', if_pos (Finset.mem_range.2 hj)]
    constructor
    · intro he; rw [← he]; abel
    · intro he
      rw [eq_sub_iff_add_eq] at he
      rw [← he]; abel
  unfold SolvesFull SolvesReduced
  simp only [hdamp]
  constructor
  · intro hf
    have ht : ∀ i < m, x (s + i) = buildDsi s i H rhs (invV s lm lambda H i) x := fun i hi => (tail i hi).1 (hf (s + i) (by omega))
    exact ⟨fun j hj => (head ht j hj).1 (hf j (by omega)), ht⟩
  · rintro ⟨hr, ht⟩ r hr'
    by_cases hrs : r < s
    · exact (head ht r hrs).2 (hr r hrs)
    · obtain ⟨i, rfl⟩ : ∃ i, r = s + i := ⟨r - s, by omega⟩
      exact (tail i (by omega)).2 (ht i (by omega))

/-- **C186**: what is substituted back depends on the solution of the reduced system only. -/
theorem C186_back (s i : ℕ) (H : Blocks K d) (rhs x y : Vec K d) (I : Matrix (Fin (d (s + i))) (Fin (d (s + i))) K)
    (h : ∀ j < s, x j = y j) : buildDsi s i H rhs I x = buildDsi s i H rhs I y := by
  rw [buildDsi_eq, buildDsi_eq, Finset.sum_congr rfl fun j hj => by rw [h j (Finset.mem_range.1 hj)]]

/-- Blocks of one number each. -/
def scalars (f : ℕ → ℕ → Option ℚ) : Blocks ℚ (fun _ => 1) := fun r c => (f r c).map fun a => Matrix.of fun _ _ => a

theorem val_scalars (f : ℕ → ℕ → Option ℚ) (r c : ℕ) : val (scalars f) r c = Matrix.of fun _ _ => (f r c).getD 0 := by
  unfold val scalars
  cases f r c <;> rfl

/-- One block to keep and two to eliminate, one of them coupled with it. -/
example : Eliminable (d := fun _ => 1) 1 2 true 1
    (scalars fun r c => if r = c then some 2 else if r = 0 ∧ c = 2 then some 3 else none) := by
  constructor
  · intro i _
    rw [val_scalars]
    rfl
  · intro i _
    rw [val_scalars, Matrix.det_fin_one]
    simp
    norm_num
  · intro i _ i' _ hlt
    rw [val_scalars, if_neg (by omega), if_neg (by omega)]
    rfl

/-- **C186**: if two of the eliminated blocks are coupled, the result does not solve the system. -/
theorem C186_coupled_counterexample : ∃ (H : Blocks ℚ (fun _ => 1)) (rhs x : Vec ℚ (fun _ => 1)),
    (∀ i < 2, (val H (0 + i) (0 + i))ᵀ = val H (0 + i) (0 + i)) ∧ (∀ i < 2, (val H (0 + i) (0 + i)).det ≠ 0) ∧
      (∀ i < 2, x (0 + i) = buildDsi 0 i H rhs (invV 0 false 0 H i) x) ∧ ¬ SolvesFull 0 2 false 0 H rhs x := by
  set H : Blocks ℚ (fun _ => 1) := scalars fun r c => if r = c then some 2 else if r = 0 ∧ c = 1 then some 1 else none with hH
  have hdet : ∀ i < 2, (val H (0 + i) (0 + i)).det ≠ 0 := by
    intro i _
    rw [hH, val_scalars, Matrix.det_fin_one]
    simp
  have hV : ∀ i < 2, val H (0 + i) (0 + i) *ᵥ (invV 0 false 0 H i *ᵥ fun _ => 1) = fun _ => 1 := by
    intro i hi
    rw [invV_eq, Matrix.mulVec_mulVec]
    simp only [damping, Bool.false_eq_true, if_false, zero_smul, add_zero]
    rw [mul_nonsing_inv _ (isUnit_iff_ne_zero.2 (hdet i hi)), Matrix.one_mulVec]
  obtain ⟨y0, hy0⟩ : ∃ y0 : Fin 1 → ℚ, y0 = invV 0 false 0 H 0 *ᵥ fun _ => 1 := ⟨_, rfl⟩
  obtain ⟨y1, hy1⟩ : ∃ y1 : Fin 1 → ℚ, y1 = invV 0 false 0 H 1 *ᵥ fun _ => 1 := ⟨_, rfl⟩
  have e0 : (val H 0 0 *ᵥ y0) 0 = 1 := by rw [hy0]; exact congrFun (hV 0 (by norm_num)) 0
  have e1 : (val H 1 1 *ᵥ y1) 0 = 1 := by rw [hy1]; exact congrFun (hV 1 (by norm_num)) 0
  refine ⟨H, fun _ _ => 1, fun i => if i = 0 then y0 else y1, ?_, hdet, ?_, ?_⟩
  · intro i _
    rw [hH, val_scalars]
    rfl
  · intro i hi
    rw [buildDsi_eq]
    have : i = 0 ∨ i = 1 := by omega
    rcases this with rfl | rfl
    · simp [hy0]
    · simp [hy1]
  · intro hf
    have h0 := congrFun (hf 0 (by norm_num)) 0
    simp only [Nat.zero_add, Finset.sum_range_succ, Finset.sum_range_zero, sym, hH, val_scalars, Matrix.mulVec, dotProduct,
      Pi.add_apply] at h0 e0 e1
    simp at h0 e0 e1
    linarith

end Kalibr.Schur
