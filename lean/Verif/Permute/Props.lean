import Verif.Permute.Model
import Mathlib.Combinatorics.Pigeonhole
import Mathlib.Data.List.Perm.Basic
import Mathlib.Data.Finset.Card
import Mathlib.Logic.Function.Iterate

/-!
# Properties of `permute` (C61)
-/

namespace Kalibr.Permute

/-- `k` is the first point at or above `i` on the path of `x` under `f`. -/
def Reach (f : Nat → Nat) (i x k : Nat) : Prop :=
  ∃ n, f^[n] x = k ∧ i ≤ k ∧ ∀ m, m < n → f^[m] x < i

theorem chase_reach {p : List Nat} {i fuel x k : Nat} (h : chase p i fuel x = some k) :
    Reach (at' p) i x k := by
  induction fuel generalizing x with
  | zero => simp [chase] at h
  | succ n ih =>
    simp only [chase] at h
    split at h
    · rename_i hx
      obtain ⟨m, h1, h2, h3⟩ := ih h
      refine ⟨m + 1, by rw [Function.iterate_succ_apply]; exact h1, h2, ?_⟩
      intro j hj
      cases j with
      | zero => exact hx
      | succ j => rw [Function.iterate_succ_apply]; exact h3 j (by omega)
    · cases h
      exact ⟨0, rfl, by omega, by omega⟩

theorem reach_chase {p : List Nat} {i x k n fuel : Nat} (hn : n < fuel)
    (h1 : (at' p)^[n] x = k) (h2 : i ≤ k) (h3 : ∀ m, m < n → (at' p)^[m] x < i) :
    chase p i fuel x = some k := by
  induction n generalizing x fuel with
  | zero =>
    cases fuel with
    | zero => omega
    | succ f =>
      simp only [Function.iterate_zero, id_eq] at h1
      simp only [chase]
      rw [if_neg (by omega), h1]
  | succ n ih =>
    cases fuel with
    | zero => omega
    | succ f =>
      simp only [chase]
      rw [if_pos (by simpa using h3 0 (by omega))]
      apply ih (by omega)
      · rw [← Function.iterate_succ_apply]; exact h1
      · intro m hm
        rw [← Function.iterate_succ_apply]; exact h3 (m + 1) (by omega)

/-- Pigeonhole: a path that stays below `i` for `i + 1` points repeats itself. -/
theorem repeats {f : Nat → Nat} {i x : Nat} (h : ∀ m, m ≤ i → f^[m] x < i) :
    ∃ a b, a < b ∧ b ≤ i ∧ f^[a] x = f^[b] x := by
  obtain ⟨a, ha, b, hb, hne, he⟩ := Finset.exists_ne_map_eq_of_card_lt_of_maps_to
    (s := Finset.range (i + 1)) (t := Finset.range i) (f := fun m => f^[m] x)
    (by simp) (by
      intro m hm
      simp only [Finset.coe_range, Set.mem_Iio] at hm ⊢
      exact h m (by omega))
  simp at ha hb
  rcases Nat.lt_or_gt_of_ne hne with h1 | h1
  · exact ⟨a, b, h1, by omega, he⟩
  · exact ⟨b, a, h1, by omega, he.symm⟩

theorem stays {f : Nat → Nat} {i x : Nat} (h : ∀ m, m ≤ i → f^[m] x < i) (m : Nat) : f^[m] x < i := by
  obtain ⟨a, b, hab, hb, he⟩ := repeats h
  induction m using Nat.strong_induction_on with
  | _ m ih =>
    by_cases hm : m ≤ i
    · exact h m hm
    · have : f^[m] x = f^[m - b + a] x := by
        rw [Function.iterate_add_apply, he, ← Function.iterate_add_apply]
        congr 1; omega
      rw [this]
      exact ih _ (by omega)

/-- The inner loop ends within `i + 1` tests or never. -/
theorem chase_none {p : List Nat} {i x : Nat} (h : chase p i (i + 1) x = none) (fuel : Nat) :
    chase p i fuel x = none := by
  have key : ∀ m, m ≤ i → (at' p)^[m] x < i := by
    intro m
    induction m using Nat.strong_induction_on with
    | _ m ih =>
      intro hm
      by_contra hc
      have := reach_chase (p := p) (fuel := i + 1) (n := m) (by omega) rfl (Nat.le_of_not_lt hc)
        (fun j hj => ih j hj (by omega))
      rw [h] at this; cases this
  cases hf : chase p i fuel x with
  | none => rfl
  | some k =>
    obtain ⟨n, h1, h2, _⟩ := chase_reach hf
    have := stays key n
    omega

theorem reach_exists {f : Nat → Nat} (hf : Function.Injective f) {i j : Nat} (hj : i ≤ j) :
    ∃ n, n ≤ i ∧ i ≤ f^[n] (f j) ∧ ∀ m, m < n → f^[m] (f j) < i := by
  by_cases h : ∃ n, n ≤ i ∧ i ≤ f^[n] (f j)
  · classical
    have hs := Nat.find_spec h
    refine ⟨Nat.find h, hs.1, hs.2, ?_⟩
    intro m hm
    have := Nat.find_min h hm
    by_contra hc
    exact this ⟨by omega, by omega⟩
  · exfalso
    have hall : ∀ m, m ≤ i → f^[m] (f j) < i := by
      intro m hm
      by_contra hc
      exact h ⟨m, hm, by omega⟩
    obtain ⟨a, b, hab, hb, he⟩ := repeats hall
    have hb' : b = a + (b - a) := by omega
    rw [hb', Function.iterate_add_apply] at he
    have he2 := (hf.iterate a) he
    -- f j = f^[b - a] (f j) = f (f^[b - a] j)
    have h3 : f^[b - a] (f j) = f (f^[b - a - 1] (f j)) := by
      rw [← Function.iterate_succ_apply' f]
      congr 1; omega
    rw [h3] at he2
    have h4 := hf he2
    have := hall (b - a - 1) (by omega)
    omega

theorem reach_unique {f : Nat → Nat} {i x k k' : Nat} (h : Reach f i x k) (h' : Reach f i x k') :
    k = k' := by
  obtain ⟨n, h1, h2, h3⟩ := h
  obtain ⟨n', h1', h2', h3'⟩ := h'
  rcases Nat.lt_trichotomy n n' with hl | hl | hl
  · have := h3' n hl; omega
  · subst hl; omega
  · have := h3 n' hl; omega

theorem reach_inj {f : Nat → Nat} (hf : Function.Injective f) {i j j' k : Nat} (hj : i ≤ j)
    (hj' : i ≤ j') (h : Reach f i (f j) k) (h' : Reach f i (f j') k) : j = j' := by
  have key : ∀ {n n' j j' : Nat}, i ≤ j → (∀ m, m < n' → f^[m] (f j') < i) →
      f^[n] (f j) = f^[n'] (f j') → n ≤ n' → j = j' := by
    intro n n' j j' hj hlt he hle
    have hn : n' = n + (n' - n) := by omega
    rw [hn, Function.iterate_add_apply] at he
    have he2 := (hf.iterate n) he
    by_cases h0 : n' - n = 0
    · rw [h0] at he2; exact hf he2
    · exfalso
      have h3 : f^[n' - n] (f j') = f (f^[n' - n - 1] (f j')) := by
        rw [← Function.iterate_succ_apply' f]
        congr 1; omega
      rw [h3] at he2
      have h4 := hf he2
      have := hlt (n' - n - 1) (by omega)
      omega
  obtain ⟨n, h1, h2, h3⟩ := h
  obtain ⟨n', h1', h2', h3'⟩ := h'
  rcases Nat.le_total n n' with hl | hl
  · exact key hj h3' (h1.trans h1'.symm) hl
  · exact (key hj' h3 (h1'.trans h1.symm) hl).symm

theorem swap_length {α : Type} (c : List α) (i k : Nat) : (swap c i k).length = c.length := by
  unfold swap; split <;> simp

theorem swap_get {α : Type} (c : List α) {i k : Nat} (hi : i < c.length) (hk : k < c.length) (j : Nat) :
    (swap c i k)[j]? = if j = k then c[i]? else if j = i then c[k]? else c[j]? := by
  unfold swap
  rw [List.getElem?_eq_getElem hi, List.getElem?_eq_getElem hk]
  simp only [List.getElem?_set, List.length_set]
  by_cases h1 : j = k
  · subst h1; simp [hk]
  · by_cases h2 : j = i
    · subst h2
      rw [if_neg (fun h => h1 h.symm), if_pos rfl, if_neg h1, if_pos rfl, if_pos hi]
    · rw [if_neg (fun h => h1 h.symm), if_neg (fun h => h2 h.symm), if_neg h1, if_neg h2]

theorem swap_perm {α : Type} (c : List α) (i k : Nat) : (swap c i k).Perm c := by
  unfold swap
  split
  · rename_i a b ha hb
    obtain ⟨hi, ha⟩ := List.getElem?_eq_some_iff.1 ha
    obtain ⟨hk, hb⟩ := List.getElem?_eq_some_iff.1 hb
    subst ha hb
    exact List.set_set_perm hi hk
  · exact List.Perm.refl _

theorem loop_perm {α : Type} {fuel : Nat} {p : List Nat} {n i : Nat} {c c' : List α} {o : Out Unit}
    (h : loop fuel p n i c = some (o, c')) : c'.Perm c := by
  induction n generalizing i c with
  | zero => simp only [loop] at h; cases h; exact List.Perm.refl _
  | succ n ih =>
    simp only [loop] at h
    split at h
    · cases h; exact List.Perm.refl _
    · split at h
      · cases h
      · split at h
        · cases h; exact List.Perm.refl _
        · refine (ih h).trans ?_
          split
          · exact swap_perm _ _ _
          · exact List.Perm.refl _

/-- The vector names every position once. -/
def IsPermutation (p : List Nat) (n : Nat) : Prop := p.Perm (List.range n)

theorem at_lt {p : List Nat} {n : Nat} (h : IsPermutation p n) {i : Nat} (hi : i < n) : at' p i < n := by
  have hl : p.length = n := by simpa using h.length_eq
  unfold at'
  rw [List.getD_eq_getElem?_getD, List.getElem?_eq_getElem (by omega)]
  simp only [Option.getD_some]
  have := h.mem_iff.1 (List.getElem_mem (l := p) (n := i) (by omega))
  simpa using this

theorem at_ge {p : List Nat} {n : Nat} (h : IsPermutation p n) {i : Nat} (hi : n ≤ i) : at' p i = i := by
  have hl : p.length = n := by simpa using h.length_eq
  unfold at'
  rw [List.getD_eq_getElem?_getD, List.getElem?_eq_none (by omega)]
  rfl

theorem at_inj {p : List Nat} {n : Nat} (h : IsPermutation p n) : Function.Injective (at' p) := by
  have hl : p.length = n := by simpa using h.length_eq
  have hnd : p.Nodup := h.nodup_iff.2 List.nodup_range
  intro a b hab
  by_cases ha : a < n
  · by_cases hb : b < n
    · unfold at' at hab
      rw [List.getD_eq_getElem?_getD, List.getD_eq_getElem?_getD, List.getElem?_eq_getElem (by omega),
        List.getElem?_eq_getElem (by omega)] at hab
      simp only [Option.getD_some] at hab
      exact (hnd.getElem_inj_iff).1 hab
    · have := at_lt h ha
      rw [hab, at_ge h (by omega)] at this
      omega
  · by_cases hb : b < n
    · have := at_lt h hb
      rw [← hab, at_ge h (by omega)] at this
      omega
    · rw [at_ge h (by omega), at_ge h (by omega)] at hab
      exact hab

theorem iter_lt {p : List Nat} {n : Nat} (h : IsPermutation p n) (m : Nat) {i : Nat} (hi : i < n) :
    (at' p)^[m] i < n := by
  induction m with
  | zero => exact hi
  | succ m ih => rw [Function.iterate_succ_apply']; exact at_lt h ih

theorem loop_spec {α : Type} {p : List Nat} {N : Nat} (hp : IsPermutation p N) (c0 : List α)
    {fuel : Nat} (hfuel : N < fuel) (n i : Nat) (c : List α) (hn : n + i = N) (hlen : c.length = N)
    (h2 : ∀ j, j < i → c[j]? = c0[at' p j]?)
    (h3 : ∀ j k, i ≤ j → j < N → Reach (at' p) i (at' p j) k → c[k]? = c0[at' p j]?) :
    ∃ c', loop fuel p n i c = some (.ok (), c') ∧ c'.length = N ∧
      ∀ j, j < N → c'[j]? = c0[at' p j]? := by
  have hinj := at_inj hp
  induction n generalizing i c with
  | zero =>
    refine ⟨c, rfl, hlen, ?_⟩
    intro j hj
    exact h2 j (by omega)
  | succ n ih =>
    have hi : i < N := by omega
    obtain ⟨m, hm1, hm2, hm3⟩ := reach_exists hinj (i := i) (j := i) (le_refl i)
    have hch := reach_chase (p := p) (fuel := fuel) (n := m) (by omega) rfl hm2 hm3
    have hr : Reach (at' p) i (at' p i) ((at' p)^[m] (at' p i)) := ⟨m, rfl, hm2, hm3⟩
    have hkN : (at' p)^[m] (at' p i) < N := iter_lt hp m (at_lt hp hi)
    simp only [loop]
    rw [if_neg (by have := at_lt hp hi; omega), hch]
    simp only
    rw [if_neg (by omega)]
    generalize (at' p)^[m] (at' p i) = k at hr hkN hch hm2
    have hc' : ∀ j, (if i < k then swap c i k else c)[j]? =
        if j = k then c[i]? else if j = i then c[k]? else c[j]? := by
      intro j
      split
      · exact swap_get c (by omega) (by omega) j
      · have : k = i := by omega
        subst this
        split
        · rename_i hjk; rw [hjk]
        · rfl
    apply ih (i + 1) _ (by omega)
    · split
      · rw [swap_length]; exact hlen
      · exact hlen
    · intro j hj
      rw [hc']
      by_cases hjk : j = k
      · subst hjk
        have hji : j = i := by omega
        subst hji
        rw [if_pos rfl]
        exact h3 j j (le_refl _) hi hr
      · rw [if_neg hjk]
        by_cases hji : j = i
        · subst hji
          rw [if_pos rfl]
          exact h3 j k (le_refl _) hi hr
        · rw [if_neg hji]
          exact h2 j (by omega)
    · intro j k' hj hjN hr'
      obtain ⟨a, ha1, ha2, ha3⟩ := reach_exists hinj (i := i) (j := j) (by omega)
      have hra : Reach (at' p) i (at' p j) ((at' p)^[a] (at' p j)) := ⟨a, rfl, ha2, ha3⟩
      generalize hk2 : (at' p)^[a] (at' p j) = k2 at hra ha2
      have hne : k2 ≠ k := by
        rintro rfl
        have := reach_inj hinj (by omega) (le_refl i) hra hr
        omega
      have hck2 := h3 j k2 (by omega) hjN hra
      rw [hc']
      by_cases hk2i : k2 = i
      · -- the path goes through i, and on to k
        subst hk2i
        have hki : k2 + 1 ≤ k := by omega
        have hr2 : Reach (at' p) (k2 + 1) (at' p j) k := by
          obtain ⟨b, hb1, hb2, hb3⟩ := hr
          refine ⟨b + (a + 1), ?_, hki, ?_⟩
          · rw [Function.iterate_add_apply, Function.iterate_succ_apply', hk2, hb1]
          · intro q hq
            by_cases hqa : q < a
            · have := ha3 q hqa; omega
            · by_cases hqa2 : q = a
              · subst hqa2; omega
              · have : q = (q - (a + 1)) + (a + 1) := by omega
                rw [this, Function.iterate_add_apply, Function.iterate_succ_apply', hk2]
                have := hb3 (q - (a + 1)) (by omega)
                omega
        have := reach_unique hr' hr2
        subst this
        rw [if_pos rfl]
        exact hck2
      · have hr2 : Reach (at' p) (i + 1) (at' p j) k2 := by
          refine ⟨a, hk2, by omega, ?_⟩
          intro q hq
          have := ha3 q hq; omega
        have := reach_unique hr' hr2
        subst this
        rw [if_neg hne, if_neg hk2i]
        exact hck2

/-- C61: for every permutation vector, and with any sufficient number of loop tests, the call returns
and element `i` of the result is element `p[i]` of the original. -/
theorem C61_permutation_partial {α : Type} (p : List Nat) (c : List α) (hp : IsPermutation p c.length)
    (fuel : Nat) (hfuel : c.length < fuel) :
    ∃ c', permute fuel p c = some (.ok (), c') ∧ c'.length = c.length ∧
      ∀ i (h : i < p.length), c'[i]? = c[p[i]]? := by
  have hl : p.length = c.length := by simpa using hp.length_eq
  unfold permute
  rw [if_neg (by omega)]
  obtain ⟨c', h1, h2, h3⟩ := loop_spec hp c hfuel c.length 0 c rfl rfl (by omega) (by
    intro j k _ hj hr
    obtain ⟨n, hn1, _, hn3⟩ := hr
    cases n with
    | zero => rw [← hn1]; rfl
    | succ n => have := hn3 0 (by omega); omega)
  refine ⟨c', h1, h2, ?_⟩
  intro i hi
  rw [h3 i (by omega)]
  unfold at'
  rw [List.getD_eq_getElem?_getD, List.getElem?_eq_getElem hi]
  rfl

/-- C61: whatever the vector, no element is ever lost or duplicated, not even when the call raises. -/
theorem C61_elements_kept {α : Type} (fuel : Nat) (p : List Nat) (c c' : List α) (o : Out Unit)
    (h : permute fuel p c = some (o, c')) : c'.Perm c := by
  unfold permute at h
  split at h
  · cases h; exact List.Perm.refl _
  · exact loop_perm h

/-- C61: a vector of the wrong length is rejected and nothing changes. -/
theorem C61_wrong_length {α : Type} (fuel : Nat) (p : List Nat) (c : List α)
    (h : p.length ≠ c.length) : permute fuel p c = some (.raise, c) := by
  unfold permute
  rw [if_pos (fun hc => h hc.symm)]

/-- C61: whatever the vector and the container, no element outside the container is ever accessed. -/
theorem C61_in_range {α : Type} (fuel : Nat) (p : List Nat) (c c' : List α) :
    permute fuel p c ≠ some (.ub, c') := by
  have key : ∀ (n i : Nat) (c : List α), (∀ j, j < i → at' p j < c.length) →
      loop fuel p n i c ≠ some (.ub, c') := by
    intro n
    induction n with
    | zero => intro i c _ h; simp only [loop] at h; cases h
    | succ n ih =>
      intro i c hlt h
      simp only [loop] at h
      split at h
      · cases h
      · rename_i hi
        split at h
        · cases h
        · rename_i k hk
          have hkc : k < c.length := by
            obtain ⟨m, h1, h2, h3⟩ := chase_reach hk
            cases m with
            | zero => rw [← h1]; simp only [Function.iterate_zero, id_eq]; omega
            | succ m =>
              rw [← h1, Function.iterate_succ_apply']
              exact hlt _ (h3 m (by omega))
          rw [if_neg (by omega)] at h
          refine ih (i + 1) _ ?_ h
          intro j hj
          have hl : (if i < k then swap c i k else c).length = c.length := by
            split
            · exact swap_length _ _ _
            · rfl
          rw [hl]
          by_cases hji : j = i
          · rw [hji]; omega
          · exact hlt j (by omega)
  unfold permute
  split
  · intro h; cases h
  · exact key _ _ _ (by omega)

/-- C61: a vector with an index outside the container is never accepted. -/
theorem C61_out_of_range {α : Type} (fuel : Nat) (p : List Nat) (c c' : List α)
    (hx : ∃ x ∈ p, c.length ≤ x) : permute fuel p c ≠ some (.ok (), c') := by
  have key : ∀ (n i : Nat) (c : List α), loop fuel p n i c = some (.ok (), c') →
      ∀ j, i ≤ j → j < i + n → at' p j < c.length := by
    intro n
    induction n with
    | zero => intro i c _ j h1 h2; omega
    | succ n ih =>
      intro i c h j h1 h2
      simp only [loop] at h
      split at h
      · cases h
      · rename_i hi
        split at h
        · cases h
        · rename_i k hk
          split at h
          · cases h
          · have hl : (if i < k then swap c i k else c).length = c.length := by
              split
              · exact swap_length _ _ _
              · rfl
            by_cases hji : j = i
            · rw [hji]; omega
            · have := ih (i + 1) _ h j (by omega) (by omega)
              rwa [hl] at this
  intro h
  unfold permute at h
  split at h
  · cases h
  · rename_i hlen
    obtain ⟨x, hx, hxl⟩ := hx
    obtain ⟨j, hj, rfl⟩ := List.mem_iff_getElem.1 hx
    have := key _ _ _ h j (by omega) (by omega)
    unfold at' at this
    rw [List.getD_eq_getElem?_getD, List.getElem?_eq_getElem hj] at this
    simp only [Option.getD_some] at this
    omega

example : ∃ x ∈ [1, 5], [7, 8].length ≤ x := ⟨5, by simp, by simp⟩

/-- C61 fails for vectors that are not permutations: `[0, 0]` never returns, `[1, 5]` raises after
having swapped, `[1, 1]` is accepted. -/
theorem C61_counterexample :
    (∀ fuel, permute fuel [0, 0] [7, 8] = none) ∧
    permute 3 [1, 5] [7, 8] = some (.raise, [8, 7]) ∧
    permute 3 [1, 1] [7, 8] = some (.ok (), [8, 7]) := by
  refine ⟨?_, by decide, by decide⟩
  intro fuel
  cases fuel with
  | zero => rfl
  | succ n =>
    have h0 : chase [0, 0] 0 (n + 1) (at' [0, 0] 0) = some 0 := rfl
    have h1 : chase [0, 0] 1 (n + 1) 0 = none := chase_none (by decide) _
    simp only [permute, List.length_cons, List.length_nil, loop, h0]
    simp [h1, at']

/-- Non-trivial case: a 3-cycle and a fixed point. -/
example : IsPermutation [2, 0, 1, 3] 4 ∧
    permute 5 [2, 0, 1, 3] ["a", "b", "c", "d"] = some (.ok (), ["c", "a", "b", "d"]) := by
  refine ⟨by unfold IsPermutation; decide, by decide⟩

end Kalibr.Permute
