import Verif.Cov.Inverse

/-!
# Lemmas on the recursion for the entries of the inverse
-/

namespace Kalibr.Cov

open Sparse Finset

variable {K : Type} [Field K] {n : Nat} {Lp Li : List Nat} {Lx : List K}

theorem collect_ok {α β : Type} {f : α → Out β} {g : α → β} {l : List α} (h : ∀ a ∈ l, f a = .ok (g a)) :
    collect f l = .ok (l.map g) := by
  induction l with
  | nil => rfl
  | cons a l ih =>
    simp only [collect, h a (by simp), ih fun b hb => h b (by simp [hb]), Out.ok_bind, Out.pure_eq, List.map_cons]

theorem get_of_getD {α : Type} {l : List α} {d : α} {i : Nat} (hi : i < l.length) : l[i]? = some (l.getD i d) := by
  rw [List.getD_eq_getElem?_getD, List.getElem?_eq_getElem hi, Option.getD_some]

/-- The factor after `setCholeskyFactor`. -/
def factorOf (n : Nat) (Lp Li : List Nat) (Lx : List K) (pinv : Option (List Nat)) : Factor K :=
  ⟨n, Lp, Li, Lx, pinv, (List.range n).map fun r => 1 / Lx.getD (Lp.getD r 0) 0⟩

theorem set_ok (h : Lower n Lp Li Lx) (pinv : Option (List Nat)) :
    setCholeskyFactor n Lp Li Lx pinv = .ok (factorOf n Lp Li Lx pinv) := by
  have : ∀ r ∈ List.range n, diagEntry Lp Li Lx r = .ok (1 / Lx.getD (Lp.getD r 0) 0) := by
    intro r hr
    have hr := List.mem_range.1 hr
    have h1 := h.nonempty r hr
    have h2 := h.inside r hr
    have h3 := h.ptr
    have h4 := h.same
    have h5 := h.first r hr
    have e1 : Lp[r]? = some (Lp.getD r 0) := get_of_getD (by omega)
    have e2 : Li[Lp.getD r 0]? = some (Li.getD (Lp.getD r 0) 0) := get_of_getD (by omega)
    have e3 : Lx[Lp.getD r 0]? = some (Lx.getD (Lp.getD r 0) 0) := get_of_getD (by omega)
    simp only [diagEntry, e1, e2, e3, h5, if_true]
  simp only [setCholeskyFactor, collect_ok this, Out.ok_bind, Out.pure_eq, factorOf]

theorem index_inj {r c r' c' : Nat} (hc : c < n) (hc' : c' < n) (e : r * n + c = r' * n + c') :
    r = r' ∧ c = c' := by
  have hn : 0 < n := by omega
  have h1 : (r * n + c) / n = r := by
    rw [mul_comm, Nat.mul_add_div hn, Nat.div_eq_of_lt hc, Nat.add_zero]
  have h2 : (r' * n + c') / n = r' := by
    rw [mul_comm, Nat.mul_add_div hn, Nat.div_eq_of_lt hc', Nat.add_zero]
  have : r = r' := by rw [← h1, ← h2, e]
  subst this
  exact ⟨rfl, by omega⟩

theorem index_lt {r c : Nat} (hr : r < n) (hc : c < n) : r * n + c < n * n := by
  have : (r + 1) * n ≤ n * n := Nat.mul_le_mul_right n hr
  rw [Nat.add_mul, one_mul] at this
  omega

theorem index_up {r c r' c' : Nat} (hr : r < r') (hc : c < n) : r * n + c < r' * n + c' := by
  have : (r + 1) * n ≤ r' * n := Nat.mul_le_mul_right n hr
  rw [Nat.add_mul, one_mul] at this
  omega

/-- The table holds entries of `Z` only. -/
def Holds (n : Nat) (Z : Nat → Nat → K) (m : LookupMap K) : Prop :=
  ∀ r c v, r ≤ c → c < n → m (r * n + c) = some v → v = Z r c

/-- What is in the first table is in the second. -/
def Keeps (m m' : LookupMap K) : Prop := ∀ i, (m i).isSome → (m' i).isSome

/-- The loop over a column, with a recursive call that delivers the entries of `Z`. -/
theorem sum_ok {F : Factor K} {Z : Nat → Nat → K} (hZ : ∀ r c, Z r c = Z c r)
    {entry : Nat → Nat → LookupMap K → Out (K × LookupMap K)} {c : Nat} {l : List Nat}
    (hj : ∀ j ∈ l, j < F.Ai.length ∧ j < F.Ax.length)
    (he : ∀ j ∈ l, ∀ m, Holds n Z m → ∃ m',
      (if F.Ai.getD j 0 < c then entry (F.Ai.getD j 0) c m else entry c (F.Ai.getD j 0) m) =
        .ok (Z (F.Ai.getD j 0) c, m') ∧ Holds n Z m' ∧ Keeps m m') (s : K) (m : LookupMap K)
    (hm : Holds n Z m) :
    ∃ m', sumColumn F entry c l s m = .ok (s + (l.map fun j => Z (F.Ai.getD j 0) c * F.Ax.getD j 0).sum, m') ∧
      Holds n Z m' ∧ Keeps m m' := by
  induction l generalizing s m with
  | nil => exact ⟨m, by simp [sumColumn], hm, fun i h => h⟩
  | cons j l ih =>
    obtain ⟨m1, e1, h1, k1⟩ := he j (by simp) m hm
    obtain ⟨m2, e2, h2, k2⟩ := ih (fun j hj' => hj j (by simp [hj'])) (fun j hj' => he j (by simp [hj']))
      (s + Z (F.Ai.getD j 0) c * F.Ax.getD j 0) m1 h1
    refine ⟨m2, ?_, h2, fun i h => k2 i (k1 i h)⟩
    have a1 : F.Ai[j]? = some (F.Ai.getD j 0) := get_of_getD (hj j (by simp)).1
    have a2 : F.Ax[j]? = some (F.Ax.getD j 0) := get_of_getD (hj j (by simp)).2
    simp only [sumColumn, a1, a2, e1, Out.ok_bind, e2, List.map_cons, List.sum_cons, add_assoc]

/-- `computeEntry` delivers the entries of `Z`. -/
theorem entry_ok (h : Lower n Lp Li Lx) (pinv : Option (List Nat)) (hn : n * n ≤ 2147483648) {Z : Nat → Nat → K}
    (hZ : ∀ r c, Z r c = Z c r)
    (hrec : ∀ r c, r ≤ c → c < n →
      Z r c = if r = c then
        (1 / Lx.getD (Lp.getD r 0) 0) * (1 / Lx.getD (Lp.getD r 0) 0 - below Lp Li Lx r fun k => Z k c)
      else -(below Lp Li Lx r fun k => Z k c) * (1 / Lx.getD (Lp.getD r 0) 0)) (fuel : Nat) :
    ∀ (r c : Nat), r ≤ c → c < n → n * n < fuel + (r * n + c) → ∀ m : LookupMap K, Holds n Z m →
      ∃ m', computeEntry (factorOf n Lp Li Lx pinv) fuel r c m = .ok (Z r c, m') ∧ Holds n Z m' ∧ Keeps m m' ∧
        (m' (r * n + c)).isSome := by
  induction fuel with
  | zero =>
    intro r c hrc hc hf
    have := index_lt (n := n) (r := r) (c := c) (by omega) hc
    omega
  | succ fuel ih =>
    intro r c hrc hc hf m hm
    have hr : r < n := by omega
    have hlt := index_lt hr hc
    have hi : computeIndex n r c = .ok (r * n + c) := by
      rw [computeIndex, if_pos (by rw [intMax]; omega)]
    have hFn : (factorOf n Lp Li Lx pinv).n = n := rfl
    cases hmi : m (r * n + c) with
    | some v =>
      refine ⟨m, ?_, hm, fun i h => h, by rw [hmi]; rfl⟩
      simp only [computeEntry, if_neg (not_lt.2 hrc), hFn, hi, Out.ok_bind, hmi, Out.pure_eq,
        hm r c v hrc hc hmi]
    | none =>
      have hs : ∃ m', sumColumn (factorOf n Lp Li Lx pinv) (computeEntry (factorOf n Lp Li Lx pinv) fuel) c
          (tail Lp r) 0 m = .ok (0 + ((tail Lp r).map fun j => Z (Li.getD j 0) c * Lx.getD j 0).sum, m') ∧
          Holds n Z m' ∧ Keeps m m' := by
        apply sum_ok hZ _ _ 0 m hm
        · intro j hj
          have := (mem_tail h hr hj).2.2
          have h4 := h.same
          exact ⟨this, by show j < Lx.length; omega⟩
        · intro j hj m1 hm1
          obtain ⟨b1, b2, _⟩ := mem_tail h hr hj
          have hAi : (factorOf n Lp Li Lx pinv).Ai = Li := rfl
          rw [hAi]
          by_cases hlt' : Li.getD j 0 < c
          · rw [if_pos hlt']
            have := index_up (n := n) (c := c) (c' := c) b1 hc
            obtain ⟨m2, e2, h2, k2, _⟩ := ih (Li.getD j 0) c hlt'.le hc (by omega) m1 hm1
            exact ⟨m2, e2, h2, k2⟩
          · rw [if_neg hlt']
            have : r * n + c < c * n + Li.getD j 0 := by
              by_cases hrc' : r = c
              · subst hrc'; omega
              · exact index_up (by omega) hc
            obtain ⟨m2, e2, h2, k2, _⟩ := ih c (Li.getD j 0) (by omega) b2 (by omega) m1 hm1
            exact ⟨m2, by rw [e2, hZ], h2, k2⟩
      obtain ⟨m', e, h', k'⟩ := hs
      rw [zero_add] at e
      have hb : ((tail Lp r).map fun j => Z (Li.getD j 0) c * Lx.getD j 0).sum = below Lp Li Lx r fun k => Z k c := rfl
      rw [hb] at e
      have hz := hrec r c hrc hc
      have hp := h.ptr
      have a1 : (factorOf n Lp Li Lx pinv).Ap[r]? = some (Lp.getD r 0) :=
        get_of_getD (show r < Lp.length by omega)
      have a2 : (factorOf n Lp Li Lx pinv).Ap[r + 1]? = some (Lp.getD (r + 1) 0) :=
        get_of_getD (show r + 1 < Lp.length by omega)
      have a3 : (factorOf n Lp Li Lx pinv).diag[r]? = some (1 / Lx.getD (Lp.getD r 0) 0) := by
        simp [factorOf, hr]
      refine ⟨fun i => if i = r * n + c then some (Z r c) else m' i, ?_, ?_, ?_, ?_⟩
      · simp only [computeEntry, if_neg (not_lt.2 hrc), hFn, hi, Out.ok_bind, hmi, a1, a2, a3, Out.pure_eq]
        have e' := e
        rw [tail] at e'
        rw [e']
        simp only [Out.ok_bind, ← hz]
      · intro r' c' v hrc' hc' hv
        by_cases hidx : r' * n + c' = r * n + c
        · obtain ⟨rfl, rfl⟩ := index_inj hc' hc hidx
          simpa using hv.symm
        · simp only [if_neg hidx] at hv
          exact h' r' c' v hrc' hc' hv
      · intro i hi
        by_cases hidx : i = r * n + c
        · simp [hidx]
        · simp only [if_neg hidx]; exact k' i hi
      · simp

/-- A table computed for some elements. -/
theorem all_ok (h : Lower n Lp Li Lx) (pinv : Option (List Nat)) (hn : n * n ≤ 2147483648) {Z : Nat → Nat → K}
    (hZ : ∀ r c, Z r c = Z c r)
    (hrec : ∀ r c, r ≤ c → c < n →
      Z r c = if r = c then
        (1 / Lx.getD (Lp.getD r 0) 0) * (1 / Lx.getD (Lp.getD r 0) 0 - below Lp Li Lx r fun k => Z k c)
      else -(below Lp Li Lx r fun k => Z k c) * (1 / Lx.getD (Lp.getD r 0) 0)) (l : List (Nat × Nat))
    (hl : ∀ q ∈ l, q.1 ≤ q.2 ∧ q.2 < n) (m : LookupMap K) (hm : Holds n Z m) :
    ∃ m', computeAll (factorOf n Lp Li Lx pinv) l m = .ok m' ∧ Holds n Z m' ∧ Keeps m m' ∧
      ∀ q ∈ l, (m' (q.1 * n + q.2)).isSome := by
  induction l generalizing m with
  | nil => exact ⟨m, rfl, hm, fun i h => h, fun q hq => by simp at hq⟩
  | cons q l ih =>
    have hq := hl q (by simp)
    obtain ⟨m1, e1, h1, k1, s1⟩ := entry_ok h pinv hn hZ hrec (n * n + 1) q.1 q.2 hq.1 hq.2 (by omega) m hm
    obtain ⟨m2, e2, h2, k2, s2⟩ := ih (fun q hq => hl q (by simp [hq])) m1 h1
    refine ⟨m2, ?_, h2, fun i h => k2 i (k1 i h), ?_⟩
    · have hFn : (factorOf n Lp Li Lx pinv).n = n := rfl
      simp only [computeAll, hFn, e1, Out.ok_bind, e2]
    · intro q' hq'
      rcases List.mem_cons.1 hq' with rfl | hq'
      · exact k2 _ s1
      · exact s2 q' hq'

theorem place_lt {pinv : Option (List Nat)} (hp : Permutes n pinv) {i : Nat} (hi : i < n) : place pinv i < n := by
  cases pinv with
  | none => exact hi
  | some p =>
    have hp := hp p rfl
    have hl : p.length = n := by rw [hp.length_eq, List.length_range]
    show p.getD i 0 < n
    rw [List.getD_eq_getElem _ _ (by omega)]
    exact List.mem_range.1 (hp.mem_iff.1 (List.getElem_mem _))

theorem place_inj {pinv : Option (List Nat)} (hp : Permutes n pinv) {i j : Nat} (hi : i < n) (hj : j < n)
    (e : place pinv i = place pinv j) : i = j := by
  cases pinv with
  | none => exact e
  | some p =>
    have hp := hp p rfl
    have hl : p.length = n := by rw [hp.length_eq, List.length_range]
    have hnd : p.Nodup := hp.nodup_iff.2 List.nodup_range
    change p.getD i 0 = p.getD j 0 at e
    rw [List.getD_eq_getElem _ _ (by omega), List.getD_eq_getElem _ _ (by omega)] at e
    exact (hnd.getElem_inj_iff).1 e

theorem applyPerm_ok {pinv : Option (List Nat)} (hp : Permutes n pinv) {i : Nat} (hi : i < n) :
    applyPerm (factorOf n Lp Li Lx pinv) i = .ok (place pinv i) := by
  cases pinv with
  | none => rfl
  | some p =>
    have hl : p.length = n := by rw [(hp p rfl).length_eq, List.length_range]
    have : p[i]? = some (p.getD i 0) := get_of_getD (by omega)
    simp only [applyPerm, factorOf, this, place]

/-- The element for a place. -/
def elem (pinv : Option (List Nat)) (q : Nat × Nat) : Nat × Nat :=
  if place pinv q.2 < place pinv q.1 then (place pinv q.2, place pinv q.1) else (place pinv q.1, place pinv q.2)

theorem elem_le {pinv : Option (List Nat)} (hp : Permutes n pinv) {q : Nat × Nat} (h1 : q.1 < n) (h2 : q.2 < n) :
    (elem pinv q).1 ≤ (elem pinv q).2 ∧ (elem pinv q).2 < n := by
  have a1 := place_lt hp h1
  have a2 := place_lt hp h2
  rw [elem]; split <;> constructor <;> simp only <;> omega

theorem elemOf_ok {pinv : Option (List Nat)} (hp : Permutes n pinv) {q : Nat × Nat} (h1 : q.1 < n) (h2 : q.2 < n) :
    elemOf (factorOf n Lp Li Lx pinv) q = .ok (elem pinv q) := by
  simp only [elemOf, applyPerm_ok hp h1, applyPerm_ok hp h2, Out.ok_bind, Out.pure_eq, elem]

/-- What a table holds for a list of places. -/
def Serves (n : Nat) (pinv : Option (List Nat)) (Z : Nat → Nat → K) (m : LookupMap K) (l : List (Nat × Nat)) : Prop :=
  ∀ q ∈ l, m ((elem pinv q).1 * n + (elem pinv q).2) = some (Z (place pinv q.1) (place pinv q.2))

theorem fill_ok (h : Lower n Lp Li Lx) {pinv : Option (List Nat)} (hp : Permutes n pinv) (hn : n * n ≤ 2147483648)
    {Z : Nat → Nat → K} (hZ : ∀ r c, Z r c = Z c r)
    (hrec : ∀ r c, r ≤ c → c < n →
      Z r c = if r = c then
        (1 / Lx.getD (Lp.getD r 0) 0) * (1 / Lx.getD (Lp.getD r 0) 0 - below Lp Li Lx r fun k => Z k c)
      else -(below Lp Li Lx r fun k => Z k c) * (1 / Lx.getD (Lp.getD r 0) 0)) (l : List (Nat × Nat))
    (hl : ∀ q ∈ l, q.1 < n ∧ q.2 < n) :
    ∃ m, fillMap (factorOf n Lp Li Lx pinv) l = .ok m ∧ Serves n pinv Z m l := by
  have hc : collect (elemOf (factorOf n Lp Li Lx pinv)) l = .ok (l.map (elem pinv)) :=
    collect_ok fun q hq => elemOf_ok hp (hl q hq).1 (hl q hq).2
  have hmem : ∀ e, e ∈ (l.map (elem pinv)).insertionSort elemLe ↔ ∃ q ∈ l, elem pinv q = e := by
    intro e
    rw [List.mem_insertionSort, List.mem_map]
  obtain ⟨m, e, hm, _, hs⟩ := all_ok h pinv hn hZ hrec ((l.map (elem pinv)).insertionSort elemLe)
    (fun e he => by
      obtain ⟨q, hq, rfl⟩ := (hmem e).1 he
      exact elem_le hp (hl q hq).1 (hl q hq).2) (fun _ => none) (fun r c v _ _ hv => by simp at hv)
  refine ⟨m, by simp only [fillMap, hc, Out.ok_bind, e], ?_⟩
  intro q hq
  have h1 := hs (elem pinv q) ((hmem _).2 ⟨q, hq, rfl⟩)
  obtain ⟨v, hv⟩ := Option.isSome_iff_exists.1 h1
  have hle := elem_le hp (hl q hq).1 (hl q hq).2
  rw [hv, hm _ _ v hle.1 hle.2 hv]
  rw [elem]; split
  · simp only; rw [hZ]
  · rfl

theorem lookup_ok {pinv : Option (List Nat)} (hp : Permutes n pinv) (hn : n * n ≤ 2147483648) {Z : Nat → Nat → K}
    {m : LookupMap K} {l : List (Nat × Nat)} (hs : Serves n pinv Z m l) {q : Nat × Nat} (hq : q ∈ l)
    (h1 : q.1 < n) (h2 : q.2 < n) :
    lookup (factorOf n Lp Li Lx pinv) m q = .ok (Z (place pinv q.1) (place pinv q.2)) := by
  have hle := elem_le hp h1 h2
  have hlt := index_lt (n := n) (lt_of_le_of_lt hle.1 hle.2) hle.2
  have hi : computeIndex n (elem pinv q).1 (elem pinv q).2 = .ok ((elem pinv q).1 * n + (elem pinv q).2) := by
    rw [computeIndex, if_pos (by rw [intMax]; omega)]
  have hFn : (factorOf n Lp Li Lx pinv).n = n := rfl
  simp only [lookup, elemOf_ok hp h1 h2, Out.ok_bind, hFn, hi, hs q hq, Out.pure_eq]

/-- The inverse of the permuted matrix is the permuted inverse. -/
theorem inverse_place {pinv : Option (List Nat)} (hp : Permutes n pinv) {P Z A : Nat → Nat → K} (hi : IsInverse n P Z)
    (hA : ∀ i j, i < n → j < n → A i j = P (place pinv i) (place pinv j)) :
    IsInverse n A fun i j => Z (place pinv i) (place pinv j) := by
  have hbij : ∀ f : Nat → K, ∑ k ∈ range n, f (place pinv k) = ∑ k ∈ range n, f k := by
    intro f
    have hinj : Set.InjOn (place pinv) (range n : Finset Nat) := by
      intro a ha b hb e
      exact place_inj hp (mem_range.1 (by simpa using ha)) (mem_range.1 (by simpa using hb)) e
    rw [← sum_image (f := f) (g := place pinv) hinj]
    congr 1
    apply eq_of_subset_of_card_le
    · intro k hk
      obtain ⟨a, ha, rfl⟩ := mem_image.1 hk
      exact mem_range.2 (place_lt hp (mem_range.1 ha))
    · rw [card_image_of_injOn hinj]
  intro i j hi' hj'
  obtain ⟨e1, e2⟩ := hi (place pinv i) (place pinv j) (place_lt hp hi') (place_lt hp hj')
  have hij : (place pinv i = place pinv j) = (i = j) := propext ⟨place_inj hp hi' hj', fun e => by rw [e]⟩
  rw [← hbij] at e1 e2
  simp only [hij] at e1 e2
  constructor
  · rw [← e1]
    exact sum_congr rfl fun k hk => by rw [hA i k hi' (mem_range.1 hk)]
  · rw [← e2]
    exact sum_congr rfl fun k hk => by rw [hA k j (mem_range.1 hk) hj']

end Kalibr.Cov
