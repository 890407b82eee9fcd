import Verif.Quads.Winding
import Verif.UnionFind.Lemmas
import Verif.Pixels.Model

/-!
# C141: the pixels of an edge are grouped
-/

namespace Kalibr.Pixels

open Kalibr.Quads (mod2pi_spec)
open Kalibr.UnionFind (UF Inv mergeRt getRep getSetSize connect init getRep_spec init_inv)
open Real

/-- The union of two sets, with the roots after it. -/
theorem connect_roots {s : UF} {R : ℕ → ℕ → Prop} {rt h : ℕ → ℕ} (I : Inv s R rt h) {a b : ℕ} (ha : a < s.n)
    (hb : b < s.n) (hne : rt a ≠ rt b) :
    ∃ l w s' h', connect s a b = .ok (w, s') ∧ s'.n = s.n ∧ ((l = rt a ∧ w = rt b) ∨ (l = rt b ∧ w = rt a)) ∧
      Inv s' (fun x y => mergeRt rt l w x = mergeRt rt l w y) (mergeRt rt l w) h' := by
  obtain ⟨s1, h1, I1, n1, z1, k1⟩ := getRep_spec I ha
  obtain ⟨s2, h2, I2, n2, z2, k2⟩ := getRep_spec I1 (x := b) (by omega)
  have nn : s2.n = s.n := by omega
  have ha2 : a < s2.n := by omega
  have hb2 : b < s2.n := by omega
  unfold connect
  rw [h1]; simp only [Out.ok_bind, h2]
  rw [if_neg hne]
  have ra := I2.id_rt a ha2
  have rb := I2.id_rt b hb2
  have la := I2.rt_lt a ha2
  have lb := I2.rt_lt b hb2
  by_cases hs : s2.size (rt a) > s2.size (rt b)
  · rw [if_pos hs]
    exact ⟨rt b, rt a, _, _, rfl, nn, Or.inr ⟨rfl, rfl⟩, I2.merge lb la rb ra (fun h => hne h.symm)⟩
  · rw [if_neg hs]
    exact ⟨rt a, rt b, _, _, rfl, nn, Or.inl ⟨rfl, rfl⟩, I2.merge la lb ra rb hne⟩

/-- `a` is one of the values of an angle between two limits. -/
def Within (a lo hi : ℝ) : Prop := ∃ k : ℤ, lo ≤ a + k * (2 * π) ∧ a + k * (2 * π) ≤ hi

theorem within_all (a lo : ℝ) : Within a lo (lo + 2 * π) := by
  have hpi := pi_pos
  refine ⟨⌈(lo - a) / (2 * π)⌉, ?_, ?_⟩
  · have h := Int.le_ceil ((lo - a) / (2 * π))
    rw [div_le_iff₀ (by positivity)] at h
    linarith
  · have h := (Int.ceil_lt_add_one ((lo - a) / (2 * π))).le
    have h2 := mul_le_mul_of_nonneg_right h (show 0 ≤ 2 * π by positivity)
    rw [add_mul, div_mul_cancel₀ _ (by positivity)] at h2
    linarith

theorem within_mono {a lo hi lo' hi' : ℝ} (h : Within a lo hi) (h1 : lo' ≤ lo) (h2 : hi ≤ hi') : Within a lo' hi' := by
  obtain ⟨k, a1, a2⟩ := h
  exact ⟨k, h1.trans a1, a2.trans h2⟩

theorem within_shift {a lo hi s : ℝ} (h : Within a lo hi) (hs : ∃ k : ℤ, s = k * (2 * π)) : Within a (lo + s) (hi + s) := by
  obtain ⟨k, a1, a2⟩ := h
  obtain ⟨m, rfl⟩ := hs
  refine ⟨k + m, ?_, ?_⟩ <;> push_cast <;> linarith

/-- What the arrays say about the pixels with a gradient (`live`), given their roots. -/
structure Sound (live : ℕ → Prop) (th mg : ℕ → ℝ) (rt : ℕ → ℕ) (g : Ranges) : Prop where
  angle : ∀ i, live i → Within (th i) (g.tmin (rt i)) (g.tmax (rt i))
  span : ∀ i, live i → g.tmin (rt i) ≤ g.tmax (rt i) ∧ g.tmax (rt i) - g.tmin (rt i) ≤ 2 * π
  mag : ∀ i, live i → g.mmin (rt i) ≤ mg i ∧ mg i ≤ g.mmax (rt i)
  low : ∀ i, live i → ∃ j, live j ∧ rt j = rt i ∧ mg j = g.mmin (rt i)
  high : ∀ i, live i → ∃ j, live j ∧ rt j = rt i ∧ mg j = g.mmax (rt i)

theorem sound_merge {live : ℕ → Prop} {th mg : ℕ → ℝ} {rt : ℕ → ℕ} {g : Ranges} (S : Sound live th mg rt g)
    {a b l w : ℕ} (la : live a) (lb : live b) (hlw : (l = rt a ∧ w = rt b) ∨ (l = rt b ∧ w = rt a))
    {tn tx mn mx : ℝ}
    (ht : ∀ t, Within t (g.tmin (rt a)) (g.tmax (rt a)) ∨ Within t (g.tmin (rt b)) (g.tmax (rt b)) → Within t tn tx)
    (hs : tn ≤ tx ∧ tx - tn ≤ 2 * π) (hmn : mn = min (g.mmin (rt a)) (g.mmin (rt b)))
    (hmx : mx = max (g.mmax (rt a)) (g.mmax (rt b))) :
    Sound live th mg (mergeRt rt l w) ⟨Function.update g.tmin w tn, Function.update g.tmax w tx,
      Function.update g.mmin w mn, Function.update g.mmax w mx⟩ := by
  have case : ∀ i, (mergeRt rt l w i = w ∧ (rt i = rt a ∨ rt i = rt b)) ∨
      (mergeRt rt l w i = rt i ∧ rt i ≠ w ∧ rt i ≠ l) := by
    intro i
    unfold mergeRt
    by_cases h : rt i = l
    · left
      rw [if_pos h]
      refine ⟨rfl, ?_⟩
      rcases hlw with ⟨h1, _⟩ | ⟨h1, _⟩
      · exact Or.inl (h.trans h1)
      · exact Or.inr (h.trans h1)
    · rw [if_neg h]
      by_cases h2 : rt i = w
      · left
        refine ⟨h2, ?_⟩
        rcases hlw with ⟨_, h1⟩ | ⟨_, h1⟩
        · exact Or.inr (h2.trans h1)
        · exact Or.inl (h2.trans h1)
      · exact Or.inr ⟨rfl, h2, h⟩
  have back : ∀ j, rt j = rt a ∨ rt j = rt b → mergeRt rt l w j = w := by
    intro j hj
    unfold mergeRt
    rcases hlw with ⟨h1, h2⟩ | ⟨h1, h2⟩
    · rcases hj with h | h
      · rw [if_pos (h.trans h1.symm)]
      · by_cases h' : rt j = l
        · rw [if_pos h']
        · rw [if_neg h', h, h2]
    · rcases hj with h | h
      · by_cases h' : rt j = l
        · rw [if_pos h']
        · rw [if_neg h', h, h2]
      · rw [if_pos (h.trans h1.symm)]
  refine ⟨?_, ?_, ?_, ?_, ?_⟩
  · intro i hi
    rcases case i with ⟨e, h⟩ | ⟨e, h, _⟩
    · simp only [e, Function.update_self]
      apply ht
      rcases h with h | h
      · left; rw [← h]; exact S.angle i hi
      · right; rw [← h]; exact S.angle i hi
    · simp only [e, Function.update_of_ne h]
      exact S.angle i hi
  · intro i hi
    rcases case i with ⟨e, h⟩ | ⟨e, h, _⟩
    · simp only [e, Function.update_self]
      exact hs
    · simp only [e, Function.update_of_ne h]
      exact S.span i hi
  · intro i hi
    rcases case i with ⟨e, h⟩ | ⟨e, h, _⟩
    · simp only [e, Function.update_self]
      have := S.mag i hi
      rw [hmn, hmx]
      rcases h with h | h
      · rw [h] at this
        exact ⟨(min_le_left _ _).trans this.1, this.2.trans (le_max_left _ _)⟩
      · rw [h] at this
        exact ⟨(min_le_right _ _).trans this.1, this.2.trans (le_max_right _ _)⟩
    · simp only [e, Function.update_of_ne h]
      exact S.mag i hi
  · intro i hi
    rcases case i with ⟨e, h⟩ | ⟨e, h, h'⟩
    · simp only [e, Function.update_self]
      rw [hmn]
      rcases min_choice (g.mmin (rt a)) (g.mmin (rt b)) with hm | hm
      · obtain ⟨j, j1, j2, j3⟩ := S.low a la
        exact ⟨j, j1, back j (Or.inl j2), by rw [hm]; exact j3⟩
      · obtain ⟨j, j1, j2, j3⟩ := S.low b lb
        exact ⟨j, j1, back j (Or.inr j2), by rw [hm]; exact j3⟩
    · simp only [e, Function.update_of_ne h]
      obtain ⟨j, j1, j2, j3⟩ := S.low i hi
      refine ⟨j, j1, ?_, j3⟩
      unfold mergeRt
      rw [j2, if_neg h']
  · intro i hi
    rcases case i with ⟨e, h⟩ | ⟨e, h, h'⟩
    · simp only [e, Function.update_self]
      rw [hmx]
      rcases max_choice (g.mmax (rt a)) (g.mmax (rt b)) with hm | hm
      · obtain ⟨j, j1, j2, j3⟩ := S.high a la
        exact ⟨j, j1, back j (Or.inl j2), by rw [hm]; exact j3⟩
      · obtain ⟨j, j1, j2, j3⟩ := S.high b lb
        exact ⟨j, j1, back j (Or.inr j2), by rw [hm]; exact j3⟩
    · simp only [e, Function.update_of_ne h]
      obtain ⟨j, j1, j2, j3⟩ := S.high i hi
      refine ⟨j, j1, ?_, j3⟩
      unfold mergeRt
      rw [j2, if_neg h']

/-- The number of nodes with the root of `x`. -/
noncomputable def members (n : ℕ) (rt : ℕ → ℕ) (x : ℕ) : ℕ := ((Finset.range n).filter fun y => rt y = rt x).card

theorem members_mono {rt rt' : ℕ → ℕ} (n : ℕ) (h : ∀ x y, rt x = rt y → rt' x = rt' y) (x : ℕ) : members n rt x ≤ members n rt' x :=
  Finset.card_le_card fun y hy => by
    rw [Finset.mem_filter] at hy ⊢
    exact ⟨hy.1, h _ _ hy.2⟩

/-- One round of the merging keeps what the arrays say, and joins at most the two ends of the edge. -/
theorem mergeOne_spec {live : ℕ → Prop} {th mg : ℕ → ℝ} {uf : UF} {R : ℕ → ℕ → Prop} {rt h : ℕ → ℕ} {g : Ranges}
    (I : Inv uf R rt h) (S : Sound live th mg rt g) (e : Link) (ha : e.a < uf.n) (hb : e.b < uf.n)
    (la : live e.a) (lb : live e.b) :
    ∃ uf' g' rt' h' R', mergeOne (uf, g) e = .ok (uf', g') ∧ uf'.n = uf.n ∧ Inv uf' R' rt' h' ∧ Sound live th mg rt' g' ∧
      (∀ x y, rt' x = rt' y → rt x = rt y ∨ (rt x = rt e.a ∧ rt y = rt e.b) ∨ (rt x = rt e.b ∧ rt y = rt e.a)) ∧
      (∀ x y, rt x = rt y → rt' x = rt' y) ∧
      ((∀ i, live i → 0 ≤ mg i ∧ mg i ≤ 80) → rt' e.a = rt' e.b ∨ 15 < members uf.n rt e.a + members uf.n rt e.b) := by
  obtain ⟨s1, h1, I1, n1, -, -⟩ := getRep_spec I ha
  obtain ⟨s2, h2, I2, n2, -, -⟩ := getRep_spec I1 (x := e.b) (by omega)
  have ra : rt e.a < s2.n := I2.rt_lt _ (by omega)
  have rb : rt e.b < s2.n := I2.rt_lt _ (by omega)
  have rra : rt (rt e.a) = rt e.a := I2.rt_rt (by omega)
  have rrb : rt (rt e.b) = rt e.b := I2.rt_rt (by omega)
  obtain ⟨s3, h3, I3, n3, -, -⟩ := getRep_spec I2 ra
  obtain ⟨s4, h4, I4, n4, -, -⟩ := getRep_spec I3 (x := rt e.b) (by omega)
  rw [rra] at h3
  rw [rrb] at h4
  unfold mergeOne
  simp only [h1, h2, Out.ok_bind]
  by_cases hne : rt e.a = rt e.b
  · rw [if_pos hne]
    exact ⟨_, _, rt, h, R, rfl, by omega, I2, S, fun x y hxy => Or.inl hxy, fun x y hxy => hxy, fun _ => Or.inl hne⟩
  rw [if_neg hne]
  have z3 : getSetSize s2 (rt e.a) = .ok (s3.size (rt e.a), s3) := by
    unfold getSetSize; rw [h3]; rfl
  have z4 : getSetSize s3 (rt e.b) = .ok (s4.size (rt e.b), s4) := by
    unfold getSetSize; rw [h4]; rfl
  simp only [z3, z4, Out.ok_bind, pure_bind]
  have sa3 : s3.size (rt e.a) = members uf.n rt e.a := by
    rw [I3.size_eq e.a (by omega)]
    unfold members
    rw [show s3.n = uf.n by omega]
  have sb4 : s4.size (rt e.b) = members uf.n rt e.b := by
    rw [I4.size_eq e.b (by omega)]
    unfold members
    rw [show s4.n = uf.n by omega]
  rw [sa3, sb4]
  obtain ⟨sz, hsz⟩ : ∃ sz : ℝ, sz = (members uf.n rt e.a : ℝ) + (members uf.n rt e.b : ℝ) := ⟨_, rfl⟩
  rw [← hsz]
  obtain ⟨bs, hbs⟩ : ∃ bs, bs = (g.tmin (rt e.a) + g.tmax (rt e.a)) / 2 +
      Quads.mod2pi ((g.tmin (rt e.b) + g.tmax (rt e.b)) / 2 - (g.tmin (rt e.a) + g.tmax (rt e.a)) / 2)
      - (g.tmin (rt e.b) + g.tmax (rt e.b)) / 2 := ⟨_, rfl⟩
  have hbk : ∃ k : ℤ, bs = k * (2 * π) := by
    obtain ⟨⟨k, hk⟩, _⟩ := mod2pi_spec ((g.tmin (rt e.b) + g.tmax (rt e.b)) / 2 - (g.tmin (rt e.a) + g.tmax (rt e.a)) / 2)
    exact ⟨k, by rw [hbs, hk]; ring⟩
  rw [← hbs]
  obtain ⟨tn, htn⟩ : ∃ tn, tn = min (g.tmin (rt e.a)) (g.tmin (rt e.b) + bs) := ⟨_, rfl⟩
  obtain ⟨tm, htm⟩ : ∃ tm, tm = max (g.tmax (rt e.a)) (g.tmax (rt e.b) + bs) := ⟨_, rfl⟩
  rw [← htn, ← htm]
  obtain ⟨tx, htx⟩ : ∃ tx, tx = if tm - tn > 2 * π then tn + 2 * π else tm := ⟨_, rfl⟩
  rw [← htx]
  have hpi := pi_pos
  have sa := S.span e.a la
  have t1 : tn ≤ tm := by
    rw [htn, htm]; exact (min_le_left _ _).trans (sa.1.trans (le_max_left _ _))
  have hspan : tn ≤ tx ∧ tx - tn ≤ 2 * π := by
    by_cases hc : tm - tn > 2 * π
    · rw [if_pos hc] at htx
      constructor <;> linarith
    · rw [if_neg hc] at htx
      rw [htx]
      exact ⟨t1, by linarith⟩
  have hw : ∀ t, Within t (g.tmin (rt e.a)) (g.tmax (rt e.a)) ∨ Within t (g.tmin (rt e.b)) (g.tmax (rt e.b)) → Within t tn tx := by
    intro t ht
    by_cases hc : tm - tn > 2 * π
    · rw [if_pos hc] at htx
      rw [htx]
      exact within_all t tn
    · rw [if_neg hc] at htx
      rw [htx, htn, htm]
      rcases ht with ht | ht
      · exact within_mono ht (min_le_left _ _) (le_max_left _ _)
      · exact within_mono (within_shift ht hbk) (min_le_right _ _) (le_max_right _ _)
  by_cases hcond : tx - tn ≤ min (g.tmax (rt e.a) - g.tmin (rt e.a)) (g.tmax (rt e.b) - g.tmin (rt e.b)) + 100 / sz ∧
      max (g.mmax (rt e.a)) (g.mmax (rt e.b)) - min (g.mmin (rt e.a)) (g.mmin (rt e.b))
        ≤ min (g.mmax (rt e.a) - g.mmin (rt e.a)) (g.mmax (rt e.b) - g.mmin (rt e.b)) + 1200 / sz
  · rw [if_pos hcond]
    obtain ⟨l, w, s5, h', hc5, n5, hlw, I5⟩ := connect_roots I4 (a := rt e.a) (b := rt e.b) (by omega) (by omega)
      (by rw [rra, rrb]; exact hne)
    rw [rra, rrb] at hlw
    simp only [hc5, Out.ok_bind]
    refine ⟨_, _, mergeRt rt l w, h', _, rfl, by omega, I5, sound_merge S la lb hlw hw hspan rfl rfl, ?_,
      fun x y hxy => by unfold mergeRt; rw [hxy], fun _ => Or.inl ?_⟩
    rotate_left
    · unfold mergeRt
      rcases hlw with ⟨rfl, rfl⟩ | ⟨rfl, rfl⟩
      · rw [if_pos rfl, if_neg (fun hc => hne hc.symm)]
      · rw [if_pos rfl, if_neg hne]
    intro x y hxy
    unfold mergeRt at hxy
    by_cases ex : rt x = l <;> by_cases ey : rt y = l
    · exact Or.inl (ex.trans ey.symm)
    · rw [if_pos ex, if_neg ey] at hxy
      rcases hlw with ⟨l1, w1⟩ | ⟨l1, w1⟩
      · exact Or.inr (Or.inl ⟨ex.trans l1, hxy.symm.trans w1⟩)
      · exact Or.inr (Or.inr ⟨ex.trans l1, hxy.symm.trans w1⟩)
    · rw [if_neg ex, if_pos ey] at hxy
      rcases hlw with ⟨l1, w1⟩ | ⟨l1, w1⟩
      · exact Or.inr (Or.inr ⟨hxy.trans w1, ey.trans l1⟩)
      · exact Or.inr (Or.inl ⟨hxy.trans w1, ey.trans l1⟩)
    · rw [if_neg ex, if_neg ey] at hxy
      exact Or.inl hxy
  · rw [if_neg hcond]
    refine ⟨_, _, rt, h, R, rfl, by omega, I4, S, fun x y hxy => Or.inl hxy, fun x y hxy => hxy, fun hM => Or.inr ?_⟩
    by_contra hle
    apply hcond
    have h15 : sz ≤ 15 := by
      rw [hsz]
      exact_mod_cast not_lt.1 hle
    have hpos : 0 < sz := by
      have : 0 < members uf.n rt e.a := Finset.card_pos.2 ⟨e.a, by simp [ha]⟩
      rw [hsz]
      have : (0 : ℝ) < members uf.n rt e.a := by exact_mod_cast this
      positivity
    have sb := S.span e.b lb
    have q1 : 100 / 15 ≤ 100 / sz := div_le_div_of_nonneg_left (by norm_num) hpos h15
    have q2 : 1200 / 15 ≤ 1200 / sz := div_le_div_of_nonneg_left (by norm_num) hpos h15
    have hpi' := pi_lt_d2
    have c0 : 0 ≤ min (g.tmax (rt e.a) - g.tmin (rt e.a)) (g.tmax (rt e.b) - g.tmin (rt e.b)) := le_min (by linarith) (by linarith)
    have ma := S.mag e.a la
    have mb := S.mag e.b lb
    have d0 : 0 ≤ min (g.mmax (rt e.a) - g.mmin (rt e.a)) (g.mmax (rt e.b) - g.mmin (rt e.b)) := le_min (by linarith) (by linarith)
    have lo : 0 ≤ min (g.mmin (rt e.a)) (g.mmin (rt e.b)) := by
      obtain ⟨j, j1, -, j3⟩ := S.low e.a la
      obtain ⟨k, k1, -, k3⟩ := S.low e.b lb
      exact le_min (by rw [← j3]; exact (hM j j1).1) (by rw [← k3]; exact (hM k k1).1)
    have hi : max (g.mmax (rt e.a)) (g.mmax (rt e.b)) ≤ 80 := by
      obtain ⟨j, j1, -, j3⟩ := S.high e.a la
      obtain ⟨k, k1, -, k3⟩ := S.high e.b lb
      exact max_le (by rw [← j3]; exact (hM j j1).2) (by rw [← k3]; exact (hM k k1).2)
    constructor
    · linarith [hspan.2]
    · linarith

/-- Two numbers are the ends of one of the edges. -/
def Ends (es : List Link) (x y : ℕ) : Prop := ∃ e ∈ es, e.a = x ∧ e.b = y

theorem mergeEdges_spec {live : ℕ → Prop} {th mg : ℕ → ℝ} (es : List Link) : ∀ {uf : UF} {R : ℕ → ℕ → Prop}
    {rt h : ℕ → ℕ} {g : Ranges}, Inv uf R rt h → Sound live th mg rt g →
    (∀ e ∈ es, e.a < uf.n ∧ e.b < uf.n ∧ live e.a ∧ live e.b) →
    ∃ uf' g' rt' h' R', mergeEdges es (uf, g) = .ok (uf', g') ∧ uf'.n = uf.n ∧ Inv uf' R' rt' h' ∧ Sound live th mg rt' g' ∧
      (∀ Q : ℕ → ℕ → Prop, Equivalence Q → (∀ x y, rt x = rt y → Q x y) → (∀ x y, Ends es x y → Q x y) →
        ∀ x y, rt' x = rt' y → Q x y) ∧
      (∀ x y, rt x = rt y → rt' x = rt' y) ∧
      ((∀ i, live i → 0 ≤ mg i ∧ mg i ≤ 80) → ∀ x y, Ends es x y → rt' x = rt' y ∨ 15 < members uf.n rt' x + members uf.n rt' y) := by
  induction es with
  | nil =>
    intro uf R rt h g I S _
    exact ⟨uf, g, rt, h, R, rfl, rfl, I, S, fun Q _ h1 _ => h1, fun x y hxy => hxy, fun _ x y he => by
      obtain ⟨e, he, _⟩ := he
      exact absurd he List.not_mem_nil⟩
  | cons e es ih =>
    intro uf R rt h g I S hl
    obtain ⟨a1, a2, a3, a4⟩ := hl e (List.mem_cons_self ..)
    obtain ⟨uf1, g1, rt1, h1, R1, e1, n1, I1, S1, j1, k1, m1⟩ := mergeOne_spec I S e a1 a2 a3 a4
    obtain ⟨uf2, g2, rt2, h2, R2, e2, n2, I2, S2, j2, k2, m2⟩ := ih I1 S1 (by
      intro e' he'
      rw [n1]
      exact hl e' (List.mem_cons_of_mem _ he'))
    refine ⟨uf2, g2, rt2, h2, R2, ?_, by omega, I2, S2, ?_, fun x y hxy => k2 _ _ (k1 _ _ hxy), ?_⟩
    · show (mergeOne (uf, g) e >>= mergeEdges es) = _
      rw [e1]
      exact e2
    · intro Q hQ q1 q2 x y hxy
      refine j2 Q hQ ?_ ?_ x y hxy
      · intro x y hxy
        have qe : Q e.a e.b := q2 _ _ ⟨e, List.mem_cons_self .., rfl, rfl⟩
        rcases j1 x y hxy with h | ⟨h, h'⟩ | ⟨h, h'⟩
        · exact q1 _ _ h
        · exact hQ.trans (q1 _ _ h) (hQ.trans qe (q1 _ _ h'.symm))
        · exact hQ.trans (q1 _ _ h) (hQ.trans (hQ.symm qe) (q1 _ _ h'.symm))
      · rintro x y ⟨e', he', h⟩
        exact q2 _ _ ⟨e', List.mem_cons_of_mem _ he', h⟩
    · rintro hM x y ⟨e', he', rfl, rfl⟩
      rcases List.mem_cons.1 he' with rfl | he'
      · rcases m1 hM with h | h
        · exact Or.inl (k2 _ _ h)
        · right
          exact lt_of_lt_of_le h (Nat.add_le_add (members_mono uf.n (fun x y hxy => k2 _ _ (k1 x y hxy)) _)
            (members_mono uf.n (fun x y hxy => k2 _ _ (k1 x y hxy)) _))
      · have := m2 hM e'.a e'.b ⟨e', he', rfl, rfl⟩
        rw [n1] at this
        exact this

/-! ## The edges -/

/-- The two directions differ by no more than thirty degrees, up to full turns. -/
def Aligned (a b : ℝ) : Prop := ∃ k : ℤ, |b - a + k * (2 * π)| ≤ π / 6

theorem aligned_symm {a b : ℝ} (h : Aligned a b) : Aligned b a := by
  obtain ⟨k, hk⟩ := h
  refine ⟨-k, ?_⟩
  rw [← abs_neg]
  push_cast
  convert hk using 2
  ring

theorem aligned_iff (a b : ℝ) : Aligned a b ↔ |Quads.mod2pi (b - a)| ≤ maxEdgeCost := by
  have hpi := pi_pos
  have e : maxEdgeCost = π / 6 := by unfold maxEdgeCost; ring
  rw [e]
  obtain ⟨⟨m, hm⟩, h1, h2⟩ := mod2pi_spec (b - a)
  constructor
  · rintro ⟨k, hk⟩
    have hmk : m = k := by
      obtain ⟨k1, k2⟩ := abs_le.1 hk
      have d1 : ((m - k : ℤ) : ℝ) * (2 * π) < 1 * (2 * π) := by push_cast; nlinarith
      have d2 : (-1 : ℝ) * (2 * π) < ((m - k : ℤ) : ℝ) * (2 * π) := by push_cast; nlinarith
      have d1' := lt_of_mul_lt_mul_right d1 (by positivity)
      have d2' := lt_of_mul_lt_mul_right d2 (by positivity)
      have d1'' : m - k < 1 := by exact_mod_cast d1'
      have d2'' : -1 < m - k := by exact_mod_cast d2'
      omega
    rw [hm, hmk]
    exact hk
  · intro h
    exact ⟨m, by rw [← hm]; exact h⟩

theorem edgeCost_nonneg (t0 t1 m1 : ℝ) : 0 ≤ edgeCost t0 t1 m1 ↔ minMag ≤ m1 ∧ Aligned t0 t1 := by
  rw [aligned_iff]
  unfold edgeCost
  simp only
  by_cases h1 : m1 < minMag
  · rw [if_pos h1]
    constructor
    · intro h; omega
    · rintro ⟨h, _⟩; exact absurd h1 (not_lt.2 h)
  · rw [if_neg h1]
    by_cases h2 : |Quads.mod2pi (t1 - t0)| > maxEdgeCost
    · rw [if_pos h2]
      constructor
      · intro h; omega
      · rintro ⟨_, h⟩; exact absurd h2 (not_lt.2 h)
    · rw [if_neg h2]
      constructor
      · intro _; exact ⟨not_lt.1 h1, not_lt.1 h2⟩
      · intro _
        have hp : 0 < maxEdgeCost := by unfold maxEdgeCost; have := pi_pos; positivity
        have q : 0 ≤ |Quads.mod2pi (t1 - t0)| / maxEdgeCost * 100 := by positivity
        rw [Quads.toInt_nonneg q]
        exact Int.floor_nonneg.2 q

/-- Two different pixels that touch, also at a corner. -/
def Touch (p q : ℕ × ℕ) : Prop :=
  p ≠ q ∧ p.1 ≤ q.1 + 1 ∧ q.1 ≤ p.1 + 1 ∧ p.2 ≤ q.2 + 1 ∧ q.2 ≤ p.2 + 1

/-- Two pixels that may belong to one edge of the image: they touch, both have a gradient, and the
directions of the gradients are similar. -/
def Similar (theta mag : ℕ → ℕ → ℝ) (p q : ℕ × ℕ) : Prop :=
  Touch p q ∧ minMag ≤ mag p.1 p.2 ∧ minMag ≤ mag q.1 q.2 ∧ Aligned (theta p.1 p.2) (theta q.1 q.2)

/-- The number of a pixel. -/
def number (w : ℕ) (p : ℕ × ℕ) : ℕ := p.2 * w + p.1

theorem mem_calc (w : ℕ) (theta mag : ℕ → ℕ → ℝ) (x y a b : ℕ) :
    (∃ e ∈ calcEdges w theta mag x y, e.a = a ∧ e.b = b) ↔ a = number w (x, y) ∧
      ((minMag ≤ mag (x + 1) y ∧ Aligned (theta x y) (theta (x + 1) y) ∧ b = number w (x + 1, y)) ∨
       (minMag ≤ mag x (y + 1) ∧ Aligned (theta x y) (theta x (y + 1)) ∧ b = number w (x, y + 1)) ∨
       (minMag ≤ mag (x + 1) (y + 1) ∧ Aligned (theta x y) (theta (x + 1) (y + 1)) ∧ b = number w (x + 1, y + 1)) ∨
       (x ≠ 0 ∧ minMag ≤ mag (x - 1) (y + 1) ∧ Aligned (theta x y) (theta (x - 1) (y + 1)) ∧ b = number w (x - 1, y + 1))) := by
  have one : ∀ (c : ℤ) (a' b' : ℕ), (∃ e ∈ (if c ≥ 0 then [(⟨a', b', c⟩ : Link)] else []), e.a = a ∧ e.b = b) ↔ 0 ≤ c ∧ a' = a ∧ b' = b := by
    intro c a' b'
    by_cases h : c ≥ 0
    · rw [if_pos h]
      simp only [List.mem_singleton, exists_eq_left]
      exact ⟨fun h' => ⟨h, h'⟩, fun h' => h'.2⟩
    · rw [if_neg h]
      simp only [List.not_mem_nil, false_and, exists_false, false_iff]
      intro h'
      exact h h'.1
  have app : ∀ (l1 l2 : List Link), (∃ e ∈ l1 ++ l2, e.a = a ∧ e.b = b) ↔
      (∃ e ∈ l1, e.a = a ∧ e.b = b) ∨ (∃ e ∈ l2, e.a = a ∧ e.b = b) := by
    intro l1 l2
    constructor
    · rintro ⟨e, he, h⟩
      rcases List.mem_append.1 he with h' | h'
      · exact Or.inl ⟨e, h', h⟩
      · exact Or.inr ⟨e, h', h⟩
    · rintro (⟨e, he, h⟩ | ⟨e, he, h⟩)
      · exact ⟨e, List.mem_append_left _ he, h⟩
      · exact ⟨e, List.mem_append_right _ he, h⟩
  have c4 : (0 ≤ if x = 0 then -1 else edgeCost (theta x y) (theta (x - 1) (y + 1)) (mag (x - 1) (y + 1)))
      ↔ x ≠ 0 ∧ minMag ≤ mag (x - 1) (y + 1) ∧ Aligned (theta x y) (theta (x - 1) (y + 1)) := by
    by_cases h : x = 0
    · rw [if_pos h]
      constructor
      · intro h'; omega
      · rintro ⟨h', _⟩; exact absurd h h'
    · rw [if_neg h, edgeCost_nonneg]
      exact ⟨fun h' => ⟨h, h'⟩, fun h' => h'.2⟩
  unfold calcEdges
  simp only [app, one, edgeCost_nonneg, c4]
  unfold number
  simp only
  have hb : x ≠ 0 → (y + 1) * w + x - 1 = (y + 1) * w + (x - 1) := by intro h; omega
  constructor
  · rintro (((⟨⟨h1, h2⟩, rfl, rfl⟩ | ⟨⟨h1, h2⟩, rfl, rfl⟩) | ⟨⟨h1, h2⟩, rfl, rfl⟩) | ⟨⟨h0, h1, h2⟩, rfl, rfl⟩)
    · exact ⟨rfl, Or.inl ⟨h1, h2, by omega⟩⟩
    · exact ⟨rfl, Or.inr (Or.inl ⟨h1, h2, rfl⟩)⟩
    · exact ⟨rfl, Or.inr (Or.inr (Or.inl ⟨h1, h2, by omega⟩))⟩
    · exact ⟨rfl, Or.inr (Or.inr (Or.inr ⟨h0, h1, h2, hb h0⟩))⟩
  · rintro ⟨rfl, ⟨h1, h2, rfl⟩ | ⟨h1, h2, rfl⟩ | ⟨h1, h2, rfl⟩ | ⟨h0, h1, h2, rfl⟩⟩
    · exact Or.inl (Or.inl (Or.inl ⟨⟨h1, h2⟩, rfl, by omega⟩))
    · exact Or.inl (Or.inl (Or.inr ⟨⟨h1, h2⟩, rfl, rfl⟩))
    · exact Or.inl (Or.inr ⟨⟨h1, h2⟩, rfl, by omega⟩)
    · exact Or.inr ⟨⟨h0, h1, h2⟩, rfl, hb h0⟩

theorem mem_all (w h : ℕ) (theta mag : ℕ → ℕ → ℝ) (a b : ℕ) :
    (∃ e ∈ allEdges w h theta mag, e.a = a ∧ e.b = b) ↔ ∃ x y, x + 1 < w ∧ y + 1 < h ∧ minMag ≤ mag x y ∧
      ∃ e ∈ calcEdges w theta mag x y, e.a = a ∧ e.b = b := by
  unfold allEdges
  constructor
  · rintro ⟨e, he, hab⟩
    obtain ⟨y, hy, he⟩ := List.mem_flatMap.1 he
    obtain ⟨x, hx, he⟩ := List.mem_flatMap.1 he
    have hx' := List.mem_range.1 hx
    have hy' := List.mem_range.1 hy
    by_cases hm : mag x y < minMag
    · rw [if_pos hm] at he; simp at he
    · rw [if_neg hm] at he
      exact ⟨x, y, by omega, by omega, not_lt.1 hm, e, he, hab⟩
  · rintro ⟨x, y, hx, hy, hm, e, he, hab⟩
    refine ⟨e, ?_, hab⟩
    refine List.mem_flatMap.2 ⟨y, List.mem_range.2 (by omega), List.mem_flatMap.2 ⟨x, List.mem_range.2 (by omega), ?_⟩⟩
    rw [if_neg (not_lt.2 hm)]
    exact he

theorem number_inj {w : ℕ} {p q : ℕ × ℕ} (hp : p.1 < w) (hq : q.1 < w) (h : number w p = number w q) : p = q := by
  unfold number at h
  have e1 : (p.2 * w + p.1) / w = p.2 := by rw [Nat.mul_comm, Nat.mul_add_div (by omega), Nat.div_eq_of_lt hp]; omega
  have e2 : (q.2 * w + q.1) / w = q.2 := by rw [Nat.mul_comm, Nat.mul_add_div (by omega), Nat.div_eq_of_lt hq]; omega
  have : p.2 = q.2 := by rw [← e1, ← e2, h]
  rw [this] at h
  exact Prod.ext (by omega) this

/-- No gradient in the last row and the last column, as the detector computes it. -/
def NoBorder (w h : ℕ) (mag : ℕ → ℕ → ℝ) : Prop :=
  ∀ x y, x + 1 ≥ w ∨ y + 1 ≥ h → mag x y < minMag

/-- **C141, the edges.** The list of edges joins exactly the pairs of touching pixels that both have a
gradient, with directions that differ by at most thirty degrees. -/
theorem C141_edges (w h : ℕ) (theta mag : ℕ → ℕ → ℝ) (hb : NoBorder w h mag) (p q : ℕ × ℕ)
    (hp : p.1 < w ∧ p.2 < h) (hq : q.1 < w ∧ q.2 < h) :
    (Ends (allEdges w h theta mag) (number w p) (number w q) ∨ Ends (allEdges w h theta mag) (number w q) (number w p))
      ↔ Similar theta mag p q := by
  have inn : ∀ x y, minMag ≤ mag x y → x + 1 < w ∧ y + 1 < h := by
    intro x y hm
    by_contra hc
    exact absurd (hb x y (by omega)) (not_lt.2 hm)
  have dir : ∀ p q : ℕ × ℕ, p.1 < w ∧ p.2 < h → q.1 < w ∧ q.2 < h →
      (Ends (allEdges w h theta mag) (number w p) (number w q) → Similar theta mag p q) := by
    rintro ⟨px, py⟩ ⟨qx, qy⟩ hp hq h0
    obtain ⟨x, y, hx, hy, hm, h1⟩ := (mem_all w h theta mag _ _).1 h0
    obtain ⟨e, h2⟩ := (mem_calc w theta mag x y _ _).1 h1
    have := number_inj (q := (x, y)) hp.1 (by simp only; omega) e
    obtain ⟨rfl, rfl⟩ := Prod.mk.inj this
    rcases h2 with ⟨m, al, e⟩ | ⟨m, al, e⟩ | ⟨m, al, e⟩ | ⟨h0, m, al, e⟩
    all_goals
      have i := inn _ _ m
      have := number_inj hq.1 (by simp only; omega) e
      obtain ⟨rfl, rfl⟩ := Prod.mk.inj this
      refine ⟨⟨?_, ?_⟩, hm, m, al⟩
      · intro hc
        have := Prod.mk.inj hc
        omega
      · simp only; omega
  constructor
  · rintro (h | h)
    · exact dir p q hp hq h
    · obtain ⟨⟨h1, h2, h3, h4, h5⟩, m1, m2, al⟩ := dir q p hq hp h
      exact ⟨⟨fun hc => h1 hc.symm, h3, h2, h5, h4⟩, m2, m1, aligned_symm al⟩
  · rintro ⟨⟨hne, t1, t2, t3, t4⟩, m1, m2, al⟩
    obtain ⟨px, py⟩ := p
    obtain ⟨qx, qy⟩ := q
    simp only at *
    have i1 := inn _ _ m1
    have i2 := inn _ _ m2
    have put : ∀ (ax ay bx bY : ℕ), minMag ≤ mag ax ay → minMag ≤ mag bx bY → Aligned (theta ax ay) (theta bx bY) →
        ax + 1 < w → ay + 1 < h →
        ((bx = ax + 1 ∧ bY = ay) ∨ (bx = ax ∧ bY = ay + 1) ∨ (bx = ax + 1 ∧ bY = ay + 1) ∨ (ax = bx + 1 ∧ bY = ay + 1)) →
        Ends (allEdges w h theta mag) (number w (ax, ay)) (number w (bx, bY)) := by
      intro ax ay bx bY ma mb hal hx hy hcase
      refine (mem_all w h theta mag _ _).2 ⟨ax, ay, hx, hy, ma, (mem_calc w theta mag ax ay _ _).2 ⟨rfl, ?_⟩⟩
      rcases hcase with ⟨rfl, rfl⟩ | ⟨rfl, rfl⟩ | ⟨rfl, rfl⟩ | ⟨rfl, rfl⟩
      · exact Or.inl ⟨mb, hal, rfl⟩
      · exact Or.inr (Or.inl ⟨mb, hal, rfl⟩)
      · exact Or.inr (Or.inr (Or.inl ⟨mb, hal, rfl⟩))
      · refine Or.inr (Or.inr (Or.inr ⟨by omega, ?_, ?_, ?_⟩))
        · rw [Nat.add_sub_cancel]; exact mb
        · rw [Nat.add_sub_cancel]; exact hal
        · rw [Nat.add_sub_cancel]
    have hne' : ¬ (px = qx ∧ py = qy) := fun hc => hne (by rw [hc.1, hc.2])
    by_cases hfwd : py < qy ∨ (py = qy ∧ px < qx)
    · left
      exact put px py qx qy m1 m2 al i1.1 i1.2 (by omega)
    · right
      exact put qx qy px py m2 m1 (aligned_symm al) i2.1 i2.2 (by omega)

/-! ## The groups -/

/-- **C141.** Whatever the order in which the edges are merged: the merging ends without an invalid access;
two pixels get into one group only if a chain of similar touching pixels leads from one to the other;
and what is recorded of a group is true: the directions of all its pixels lie within the recorded limits,
up to full turns, the limits are never more than a full turn apart, and the recorded smallest and
greatest magnitudes are those of its pixels.  Small groups are never kept apart: two similar touching pixels
that end up in different groups have more than fifteen pixels in these groups together. -/
theorem C141_groups (w h : ℕ) (theta mag : ℕ → ℕ → ℝ) (hb : NoBorder w h mag) (es : List Link)
    (hes : es.Perm (allEdges w h theta mag)) :
    ∃ uf g, ∃ rep : ℕ × ℕ → ℕ, mergeEdges es (init (w * h), startRanges w h theta mag) = .ok (uf, g) ∧
      (∀ p : ℕ × ℕ, p.1 < w → p.2 < h → ∃ uf', getRep uf (number w p) = .ok (rep p, uf')) ∧
      (∀ p q : ℕ × ℕ, p.1 < w → p.2 < h → q.1 < w → q.2 < h → rep p = rep q →
        Relation.EqvGen (Similar theta mag) p q) ∧
      (∀ x y, x < w → y < h → minMag ≤ mag x y →
        Within (theta x y) (g.tmin (rep (x, y))) (g.tmax (rep (x, y))) ∧
        g.tmax (rep (x, y)) - g.tmin (rep (x, y)) ≤ 2 * π ∧
        g.mmin (rep (x, y)) ≤ mag x y ∧ mag x y ≤ g.mmax (rep (x, y)) ∧
        (∃ x' y', rep (x', y') = rep (x, y) ∧ mag x' y' = g.mmin (rep (x, y))) ∧
        (∃ x' y', rep (x', y') = rep (x, y) ∧ mag x' y' = g.mmax (rep (x, y)))) ∧
      ((∀ x y, minMag ≤ mag x y → mag x y ≤ 80) → ∀ p q, Similar theta mag p q → rep p ≠ rep q →
        15 < ((Finset.range w ×ˢ Finset.range h).filter fun r => rep r = rep p).card +
          ((Finset.range w ×ˢ Finset.range h).filter fun r => rep r = rep q).card) := by
  classical
  have inn : ∀ x y, minMag ≤ mag x y → x + 1 < w ∧ y + 1 < h := by
    intro x y hm
    by_contra hc
    exact absurd (hb x y (by omega)) (not_lt.2 hm)
  have numlt : ∀ x y, x < w → y < h → number w (x, y) < w * h := by
    intro x y hx hy
    unfold number
    simp only
    calc y * w + x < y * w + w := by omega
      _ = w * (y + 1) := by ring
      _ ≤ w * h := Nat.mul_le_mul_left _ hy
  have nmod : ∀ x y, x < w → number w (x, y) % w = x ∧ number w (x, y) / w = y := by
    intro x y hx
    unfold number
    simp only
    rw [Nat.mul_comm, Nat.mul_add_mod, Nat.mod_eq_of_lt hx, Nat.mul_add_div (by omega), Nat.div_eq_of_lt hx]
    omega
  obtain ⟨live, hlive⟩ : ∃ live : ℕ → Prop, live = fun i => i / w + 1 < h ∧ i % w + 1 < w ∧ ¬ mag (i % w) (i / w) < minMag := ⟨_, rfl⟩
  have S0 : Sound live (fun i => theta (i % w) (i / w)) (fun i => mag (i % w) (i / w)) (fun x => x) (startRanges w h theta mag) := by
    have pi0 := pi_pos
    have hm : ∀ i, live i → (startRanges w h theta mag).tmin i = theta (i % w) (i / w) ∧
        (startRanges w h theta mag).tmax i = theta (i % w) (i / w) ∧
        (startRanges w h theta mag).mmin i = mag (i % w) (i / w) ∧
        (startRanges w h theta mag).mmax i = mag (i % w) (i / w) := by
      intro i hi
      rw [hlive] at hi
      unfold startRanges
      simp only
      rw [if_pos hi, if_pos hi]
      exact ⟨rfl, rfl, rfl, rfl⟩
    refine ⟨?_, ?_, ?_, ?_, ?_⟩
    · intro i hi
      obtain ⟨a, b, _, _⟩ := hm i hi
      refine ⟨0, ?_, ?_⟩
      · simp only [a]; simp
      · simp only [b]; simp
    · intro i hi
      obtain ⟨a, b, _, _⟩ := hm i hi
      rw [a, b]
      exact ⟨le_rfl, by simp; positivity⟩
    · intro i hi
      obtain ⟨_, _, c, d⟩ := hm i hi
      rw [c, d]
      exact ⟨le_rfl, le_rfl⟩
    · intro i hi
      exact ⟨i, hi, rfl, (hm i hi).2.2.1.symm⟩
    · intro i hi
      exact ⟨i, hi, rfl, (hm i hi).2.2.2.symm⟩
  have livenum : ∀ x y, minMag ≤ mag x y → live (number w (x, y)) := by
    intro x y hm
    obtain ⟨hx, hy⟩ := inn x y hm
    obtain ⟨e1, e2⟩ := nmod x y (by omega)
    rw [hlive]
    show number w (x, y) / w + 1 < h ∧ number w (x, y) % w + 1 < w ∧ ¬ mag (number w (x, y) % w) (number w (x, y) / w) < minMag
    rw [e1, e2]
    exact ⟨hy, hx, not_lt.2 hm⟩
  have ends : ∀ e ∈ es, ∃ p q : ℕ × ℕ, e.a = number w p ∧ e.b = number w q ∧ (p.1 < w ∧ p.2 < h) ∧ (q.1 < w ∧ q.2 < h) ∧ Similar theta mag p q := by
    intro e he
    have he' := hes.mem_iff.1 he
    obtain ⟨x, y, hx, hy, hm, h1⟩ := (mem_all w h theta mag e.a e.b).1 ⟨e, he', rfl, rfl⟩
    obtain ⟨ea, h2⟩ := (mem_calc w theta mag x y _ _).1 h1
    have fin : ∀ q : ℕ × ℕ, minMag ≤ mag q.1 q.2 → e.b = number w q → ∃ p q : ℕ × ℕ, e.a = number w p ∧ e.b = number w q ∧ (p.1 < w ∧ p.2 < h) ∧ (q.1 < w ∧ q.2 < h) ∧ Similar theta mag p q := by
      intro q mq eb
      have iq := inn _ _ mq
      refine ⟨(x, y), q, ea, eb, ⟨by simp only; omega, by simp only; omega⟩, ⟨by omega, by omega⟩, ?_⟩
      exact (C141_edges w h theta mag hb (x, y) q ⟨by simp only; omega, by simp only; omega⟩ ⟨by omega, by omega⟩).1
        (Or.inl ⟨e, he', ea, eb⟩)
    rcases h2 with ⟨m, _, eb⟩ | ⟨m, _, eb⟩ | ⟨m, _, eb⟩ | ⟨_, m, _, eb⟩
    · exact fin _ m eb
    · exact fin _ m eb
    · exact fin _ m eb
    · exact fin _ m eb
  obtain ⟨uf, g, rt, h', R', e1, n1, I1, S1, j1, k1, m1⟩ := mergeEdges_spec (live := live)
    (th := fun i => theta (i % w) (i / w)) (mg := fun i => mag (i % w) (i / w)) es (init_inv (w * h)) S0 (by
      intro e he
      obtain ⟨p, q, ea, eb, hp, hq, hs⟩ := ends e he
      rw [ea, eb]
      exact ⟨numlt _ _ hp.1 hp.2, numlt _ _ hq.1 hq.2, livenum _ _ hs.2.1, livenum _ _ hs.2.2.1⟩)
  have nn : uf.n = w * h := n1
  refine ⟨uf, g, fun p => rt (number w p), e1, ?_, ?_, ?_, ?_⟩
  · intro p hx hy
    obtain ⟨uf', h1, _⟩ := getRep_spec I1 (x := number w p) (by rw [nn]; exact numlt _ _ hx hy)
    exact ⟨uf', h1⟩
  · intro p q hpx hpy hqx hqy hr
    have := j1 (fun a b => a = b ∨ ∃ p q : ℕ × ℕ, a = number w p ∧ b = number w q ∧ (p.1 < w ∧ p.2 < h) ∧ (q.1 < w ∧ q.2 < h) ∧
      Relation.EqvGen (Similar theta mag) p q) ⟨fun _ => Or.inl rfl, ?_, ?_⟩ (fun x y hxy => Or.inl hxy) ?_ _ _ hr
    · rcases this with h1 | ⟨p', q', e1, e2, hp', hq', h1⟩
      · rw [number_inj hpx hqx h1]
        exact Relation.EqvGen.refl q
      · rw [number_inj hpx hp'.1 e1, number_inj hqx hq'.1 e2]
        exact h1
    · rintro a b (rfl | ⟨p', q', e1, e2, hp', hq', h1⟩)
      · exact Or.inl rfl
      · exact Or.inr ⟨q', p', e2, e1, hq', hp', h1.symm⟩
    · rintro a b c (rfl | ⟨p', q', e1, e2, hp', hq', h1⟩) (rfl | ⟨p'', q'', e3, e4, hp'', hq'', h2⟩)
      · exact Or.inl rfl
      · exact Or.inr ⟨p'', q'', e3, e4, hp'', hq'', h2⟩
      · exact Or.inr ⟨p', q', e1, e2, hp', hq', h1⟩
      · have := number_inj hq'.1 hp''.1 (e2.symm.trans e3)
        subst this
        exact Or.inr ⟨p', q'', e1, e4, hp', hq'', h1.trans _ _ _ h2⟩
    · rintro a b ⟨e, he, rfl, rfl⟩
      obtain ⟨p', q', e1, e2, hp', hq', hs⟩ := ends e he
      exact Or.inr ⟨p', q', e1, e2, hp', hq', Relation.EqvGen.rel _ _ hs⟩
  · intro x y hx hy hm
    have hl := livenum x y hm
    obtain ⟨ex, ey⟩ := nmod x y hx
    have a1 := S1.angle _ hl
    have a2 := S1.span _ hl
    have a3 := S1.mag _ hl
    simp only [ex, ey] at a1 a3
    obtain ⟨j, _, j2, j3⟩ := S1.low _ hl
    obtain ⟨k, _, k2, k3⟩ := S1.high _ hl
    have back : ∀ j, number w (j % w, j / w) = j := by
      intro j
      unfold number
      simp only
      rw [Nat.mul_comm]
      exact Nat.div_add_mod j w
    exact ⟨a1, a2.2, a3.1, a3.2, ⟨j % w, j / w, by simp only [back]; exact j2, j3⟩, ⟨k % w, k / w, by simp only [back]; exact k2, k3⟩⟩
  · intro hM p q hs hne
    have cnt : ∀ p : ℕ × ℕ, members (w * h) rt (number w p) ≤
        ((Finset.range w ×ˢ Finset.range h).filter fun r => rt (number w r) = rt (number w p)).card := by
      intro p
      refine (Finset.card_le_card ?_).trans (Finset.card_image_le (f := number w))
      intro j hj
      rw [Finset.mem_filter, Finset.mem_range] at hj
      have hw : 0 < w := Nat.pos_of_ne_zero fun hc => by rw [hc] at hj; simp at hj
      have bk : number w (j % w, j / w) = j := by
        unfold number
        simp only
        rw [Nat.mul_comm]
        exact Nat.div_add_mod j w
      refine Finset.mem_image.2 ⟨(j % w, j / w), ?_, bk⟩
      rw [Finset.mem_filter, Finset.mem_product, Finset.mem_range, Finset.mem_range, bk]
      exact ⟨⟨Nat.mod_lt _ hw, Nat.div_lt_of_lt_mul hj.1⟩, hj.2⟩
    have hml : ∀ i, live i → 0 ≤ mag (i % w) (i / w) ∧ mag (i % w) (i / w) ≤ 80 := by
      intro i hi
      rw [hlive] at hi
      have := not_lt.1 hi.2.2
      refine ⟨le_trans ?_ this, hM _ _ this⟩
      unfold minMag
      norm_num
    have ip := inn _ _ hs.2.1
    have iq := inn _ _ hs.2.2.1
    have key : ∀ a b, Ends (allEdges w h theta mag) a b → rt a = rt b ∨ 15 < members (w * h) rt a + members (w * h) rt b := by
      rintro a b ⟨e, he, h1⟩
      exact m1 hml a b ⟨e, hes.mem_iff.2 he, h1⟩
    have cp := cnt p
    have cq := cnt q
    rcases (C141_edges w h theta mag hb p q ⟨by omega, by omega⟩ ⟨by omega, by omega⟩).2 hs with h1 | h1
    · rcases key _ _ h1 with h2 | h2
      · exact absurd h2 hne
      · exact lt_of_lt_of_le h2 (Nat.add_le_add cp cq)
    · rcases key _ _ h1 with h2 | h2
      · exact absurd h2.symm hne
      · exact lt_of_lt_of_le (Nat.add_comm _ _ ▸ h2) (Nat.add_le_add cp cq)

/-- The gradient that the detector computes vanishes on the border. -/
theorem C141_border (w h : ℕ) (p : ℕ → ℝ) : NoBorder w h (magnitude w h p) := by
  intro x y hxy
  unfold magnitude
  rw [if_neg (by omega)]
  unfold minMag
  norm_num

/-- A pixel without a gradient is in no group with another pixel. -/
theorem C141_alone (theta mag : ℕ → ℕ → ℝ) (p q : ℕ × ℕ) (h : Relation.EqvGen (Similar theta mag) p q) :
    p = q ∨ (minMag ≤ mag p.1 p.2 ∧ minMag ≤ mag q.1 q.2) := by
  induction h with
  | rel x y h => exact Or.inr ⟨h.2.1, h.2.2.1⟩
  | refl x => exact Or.inl rfl
  | symm x y _ ih =>
    rcases ih with rfl | ih
    · exact Or.inl rfl
    · exact Or.inr ⟨ih.2, ih.1⟩
  | trans x y z _ _ ih1 ih2 =>
    rcases ih1 with rfl | ih1
    · exact ih2
    · rcases ih2 with rfl | ih2
      · exact Or.inr ih1
      · exact Or.inr ⟨ih1.1, ih2.2⟩

/-- The magnitudes of a picture with values from zero to one are far below the bound of `C141_groups`. -/
theorem C141_bound (w h : ℕ) (p : ℕ → ℝ) (hp : ∀ i, 0 ≤ p i ∧ p i ≤ 1) (x y : ℕ) : magnitude w h p x y ≤ 2 := by
  unfold magnitude
  by_cases hc : 1 ≤ y ∧ y < h - 1 ∧ 1 ≤ x ∧ x < w - 1
  · rw [if_pos hc]
    simp only
    unfold get
    have sq : ∀ a b : ℝ, 0 ≤ a ∧ a ≤ 1 → 0 ≤ b ∧ b ≤ 1 → (a - b) * (a - b) ≤ 1 := by
      intro a b ha hb
      nlinarith
    have h1 := sq _ _ (hp (y * w + (x + 1))) (hp (y * w + (x - 1)))
    have h2 := sq _ _ (hp ((y + 1) * w + x)) (hp ((y - 1) * w + x))
    linarith
  · rw [if_neg hc]
    norm_num

/-- A picture with a vertical edge: two touching pixels with the same gradient are similar. -/
example : Similar (fun _ _ => 0) (fun x _ => if x = 3 then 1 else 0) (3, 4) (3, 5) := by
  refine ⟨⟨by simp, by simp, by simp, by simp, by simp⟩, ?_, ?_, 0, ?_⟩
  · norm_num [minMag]
  · norm_num [minMag]
  · have := pi_pos
    simp
    positivity

end Kalibr.Pixels
