import Verif.Marg.Lemmas

/-!
# The matrix and the right-hand side that are built
-/

namespace Kalibr.Marg

open Finset Sparse

variable {K : Type} [Field K]

theorem buildErrors_ok (T : Terms K) (W : World) (jrows : Nat) (l : List Nat)
    (hl : ∀ e ∈ l, W.rowBase e + T.edim e ≤ jrows) (b : Nat → K) :
    ∃ b', buildErrors T W jrows l b = .ok b' ∧ ∀ p,
      (∀ v, (∀ e ∈ l, W.rowBase e ≤ p ∧ p < W.rowBase e + T.edim e → -(T.err e (p - W.rowBase e)) = v) →
        (∃ e ∈ l, W.rowBase e ≤ p ∧ p < W.rowBase e + T.edim e) → b' p = v) ∧
      ((∀ e ∈ l, ¬(W.rowBase e ≤ p ∧ p < W.rowBase e + T.edim e)) → b' p = b p) := by
  induction l generalizing b with
  | nil => exact ⟨b, rfl, fun p => ⟨fun v _ h => by simp at h, fun _ => rfl⟩⟩
  | cons e l ih =>
    obtain ⟨b', e1, h⟩ := ih (fun e he => hl e (by simp [he])) (fun p =>
      if W.rowBase e ≤ p ∧ p < W.rowBase e + T.edim e then -(T.err e (p - W.rowBase e)) else b p)
    refine ⟨b', by rw [buildErrors, if_pos (hl e (by simp)), e1], fun p => ⟨fun v hv hex => ?_, fun hn => ?_⟩⟩
    · by_cases hL : ∃ e ∈ l, W.rowBase e ≤ p ∧ p < W.rowBase e + T.edim e
      · exact (h p).1 v (fun e he => hv e (by simp [he])) hL
      · rw [(h p).2 fun e he hc => hL ⟨e, he, hc⟩]
        obtain ⟨e', he', hc⟩ := hex
        rcases List.mem_cons.1 he' with rfl | he'
        · rw [if_pos hc, hv e' (by simp) hc]
        · exact absurd ⟨e', he', hc⟩ hL
    · rw [(h p).2 fun e he => hn e (by simp [he]), if_neg (hn e (by simp))]

/-- The place `(p, c)` lies in the block `q` of term `e`. -/
def Covers (W : World) (e : Nat) (q : Nat × Mat K) (p c : Nat) : Prop :=
  W.rowBase e ≤ p ∧ p < W.rowBase e + q.2.rows ∧ (W.columnBase q.1).toNat ≤ c ∧
    c < (W.columnBase q.1).toNat + q.2.cols

theorem writeBlocks_ok (W : World) (e : Nat) (l : List (Nat × Mat K)) (J : Mat K)
    (hl : ∀ q ∈ l, 0 ≤ W.columnBase q.1 ∧ (W.columnBase q.1).toNat + q.2.cols ≤ J.cols ∧
      W.rowBase e + q.2.rows ≤ J.rows) :
    ∃ J', writeBlocks W e l J = .ok J' ∧ J'.rows = J.rows ∧ J'.cols = J.cols ∧ ∀ p c,
      (∀ v, (∀ q ∈ l, Covers W e q p c → q.2.get (p - W.rowBase e) (c - (W.columnBase q.1).toNat) = v) →
        (∃ q ∈ l, Covers W e q p c) → J'.get p c = v) ∧
      ((∀ q ∈ l, ¬Covers W e q p c) → J'.get p c = J.get p c) := by
  induction l generalizing J with
  | nil => exact ⟨J, rfl, rfl, rfl, fun p c => ⟨fun v _ h => by simp at h, fun _ => rfl⟩⟩
  | cons q l ih =>
    have hq := hl q (by simp)
    obtain ⟨J', e1, r1, r2, h⟩ := ih ⟨J.rows, J.cols, fun p c =>
        if (W.rowBase e ≤ p ∧ p < W.rowBase e + q.2.rows ∧ (W.columnBase q.1).toNat ≤ c ∧
          c < (W.columnBase q.1).toNat + q.2.cols) then
          q.2.get (p - W.rowBase e) (c - (W.columnBase q.1).toNat)
        else J.get p c⟩ (fun q hq => hl q (by simp [hq]))
    refine ⟨J', by rw [writeBlocks, if_pos hq, e1], r1, r2, fun p c => ⟨fun v hv hex => ?_, fun hn => ?_⟩⟩
    · by_cases hL : ∃ q ∈ l, Covers W e q p c
      · exact (h p c).1 v (fun q hq => hv q (by simp [hq])) hL
      · rw [(h p c).2 fun q hq hc => hL ⟨q, hq, hc⟩]
        obtain ⟨q', hq', hc⟩ := hex
        rcases List.mem_cons.1 hq' with rfl | hq'
        · have hc' := hc
          rw [Covers] at hc'
          simp only
          rw [if_pos hc', hv q' (by simp) hc]
        · exact absurd ⟨q', hq', hc⟩ hL
    · rw [(h p c).2 fun q hq => hn q (by simp [hq])]
      have hc := hn q (by simp)
      rw [Covers] at hc
      simp only
      rw [if_neg hc]

theorem buildJacobian_ok (T : Terms K) (W : World) (l : List Nat) (J : Mat K)
    (hl : ∀ e ∈ l, ∀ q ∈ T.jac e, 0 ≤ W.columnBase q.1 ∧ (W.columnBase q.1).toNat + q.2.cols ≤ J.cols ∧
      W.rowBase e + q.2.rows ≤ J.rows) :
    ∃ J', buildJacobian T W l J = .ok J' ∧ J'.rows = J.rows ∧ J'.cols = J.cols ∧ ∀ p c,
      (∀ v, (∀ e ∈ l, ∀ q ∈ T.jac e, Covers W e q p c →
          q.2.get (p - W.rowBase e) (c - (W.columnBase q.1).toNat) = v) →
        (∃ e ∈ l, ∃ q ∈ T.jac e, Covers W e q p c) → J'.get p c = v) ∧
      ((∀ e ∈ l, ∀ q ∈ T.jac e, ¬Covers W e q p c) → J'.get p c = J.get p c) := by
  induction l generalizing J with
  | nil => exact ⟨J, rfl, rfl, rfl, fun p c => ⟨fun v _ h => by simp at h, fun _ => rfl⟩⟩
  | cons e l ih =>
    obtain ⟨J1, e1, r1, r2, h1⟩ := writeBlocks_ok W e (T.jac e) J (hl e (by simp))
    obtain ⟨J2, e2, s1, s2, h2⟩ := ih J1 (fun e he q hq => by rw [r1, r2]; exact hl e (by simp [he]) q hq)
    refine ⟨J2, by simp only [buildJacobian, e1, Out.ok_bind, e2], s1.trans r1, s2.trans r2,
      fun p c => ⟨fun v hv hex => ?_, fun hn => ?_⟩⟩
    · by_cases hL : ∃ e ∈ l, ∃ q ∈ T.jac e, Covers W e q p c
      · exact (h2 p c).1 v (fun e he => hv e (by simp [he])) hL
      · rw [(h2 p c).2 fun e he q hq hc => hL ⟨e, he, q, hq, hc⟩]
        obtain ⟨e', he', q, hq, hc⟩ := hex
        rcases List.mem_cons.1 he' with rfl | he'
        · exact (h1 p c).1 v (fun q hq => hv e' (by simp) q hq) ⟨q, hq, hc⟩
        · exact absurd ⟨e', he', q, hq, hc⟩ hL
    · rw [(h2 p c).2 fun e he => hn e (by simp [he]), (h1 p c).2 fun q hq => hn e (by simp) q hq]

/-- Two blocks of a layout that share a place are the same. -/
theorem lay_unique (dim : Nat → Nat) {l : List Nat} {k k' v v' p : Nat} (h : l[k]? = some v) (h' : l[k']? = some v')
    (h1 : dims dim (l.take k) ≤ p) (h2 : p < dims dim (l.take k) + dim v)
    (h1' : dims dim (l.take k') ≤ p) (h2' : p < dims dim (l.take k') + dim v') : k = k' := by
  obtain ⟨hk, _⟩ := List.getElem?_eq_some_iff.1 h
  obtain ⟨hk', _⟩ := List.getElem?_eq_some_iff.1 h'
  apply block_unique (lay_mono dim l) (by rw [lay_length]; exact hk) (by rw [lay_length]; exact hk')
    (n := p)
  · rw [lay_base dim hk.le]; exact h1
  · rw [lay_base dim hk.le, lay_size dim h]; exact h2
  · rw [lay_base dim hk'.le]; exact h1'
  · rw [lay_base dim hk'.le, lay_size dim h']; exact h2'

theorem lay_exists (dim : Nat → Nat) {l : List Nat} {p : Nat} (hp : p < dims dim l) :
    ∃ k v j, l[k]? = some v ∧ j < dim v ∧ p = dims dim (l.take k) + j := by
  rw [← lay_total] at hp
  obtain ⟨k, j, hk, hj, e⟩ := block_exists (lay_mono dim l) hp
  rw [lay_length] at hk
  have hg := getD_some hk
  rw [lay_size dim hg] at hj
  rw [lay_base dim hk.le] at e
  exact ⟨k, _, j, hg, hj, e⟩

theorem lay_inside (dim : Nat → Nat) {l : List Nat} {k v : Nat} (h : l[k]? = some v) :
    dims dim (l.take k) + dim v ≤ dims dim l := by
  obtain ⟨hk, _⟩ := List.getElem?_eq_some_iff.1 h
  rw [← dims_take_succ h]
  conv_rhs => rw [← List.take_length (l := l)]
  exact dims_take_mono dim l hk

/-- What the state after the numbering says. -/
structure Numbered (T : Terms K) (dvs ets : List Nat) (W : World) : Prop where
  col : ∀ k v, dvs[k]? = some v → W.columnBase v = ((dims T.dim (dvs.take k) : Nat) : Int)
  row : ∀ k e, ets[k]? = some e → W.rowBase e = dims T.edim (ets.take k)

omit [Field K] in
theorem numbered (T : Terms K) (dvs ets : List Nat) (hd : dvs.Nodup) (he : ets.Nodup) (W : World) :
    Numbered T dvs ets (assignRows T.edim ets 0 (assignColumns T.dim dvs 0 0 W).1).1 := by
  obtain ⟨_, _, _, _, c5⟩ := assignColumns_eq T.dim dvs hd 0 0 W
  obtain ⟨_, _, _, r3', _, r5⟩ := assignRows_eq T.edim ets he 0 (assignColumns T.dim dvs 0 0 W).1
  refine ⟨fun k v hk => ?_, fun k e hk => ?_⟩
  · rw [r3', (c5 k v hk).2, Nat.zero_add]
  · rw [r5 k e hk, Nat.zero_add]

/-- The right-hand side is minus the weighted error. -/
theorem errors_eq (T : Terms K) {dvs ets : List Nat} {W : World} (hN : Numbered T dvs ets W) :
    ∃ b, buildErrors T W (dims T.edim ets) ets (fun _ => 0) = .ok b ∧
      ∀ k e i, ets[k]? = some e → i < T.edim e → b (dims T.edim (ets.take k) + i) = -(T.err e i) := by
  obtain ⟨b, e1, h⟩ := buildErrors_ok T W (dims T.edim ets) ets (fun e he => by
    obtain ⟨k, hk⟩ := List.mem_iff_getElem?.1 he
    rw [hN.row k e hk]; exact lay_inside T.edim hk) fun _ => 0
  refine ⟨b, e1, fun k e i hk hi => ?_⟩
  refine (h _).1 _ ?_ ?_
  · intro e' he' hc
    obtain ⟨k', hk'⟩ := List.mem_iff_getElem?.1 he'
    rw [hN.row k' e' hk'] at hc ⊢
    have := lay_unique T.edim hk hk' (p := dims T.edim (ets.take k) + i) (by omega) (by omega) hc.1 hc.2
    subst this
    rw [hk] at hk'
    injection hk' with hk'
    subst hk'
    rw [Nat.add_sub_cancel_left]
  · exact ⟨e, List.mem_iff_getElem?.2 ⟨k, hk⟩, by rw [hN.row k e hk]; omega⟩

theorem deriv_eq {T : Terms K} {e : Nat} (hnd : ((T.jac e).map (·.1)).Nodup) {q : Nat × Mat K} (hq : q ∈ T.jac e)
    (i j : Nat) : deriv T e q.1 i j = q.2.get i j := by
  have : (T.jac e).find? (fun p => p.1 = q.1) = some q := by
    revert hq hnd
    induction T.jac e with
    | nil => intro _ hq; simp at hq
    | cons p l ih =>
      intro hnd hq
      simp only [List.map_cons, List.nodup_cons] at hnd
      rcases List.mem_cons.1 hq with rfl | hq
      · simp
      · have hne : p.1 ≠ q.1 := fun e => hnd.1 (List.mem_map.2 ⟨q, hq, e.symm⟩)
        rw [List.find?_cons_of_neg (by simpa using hne)]
        exact ih hnd.2 hq
  rw [deriv, this]

theorem deriv_zero {T : Terms K} {e v : Nat} (h : ∀ q ∈ T.jac e, q.1 ≠ v) (i j : Nat) : deriv T e v i j = 0 := by
  have : (T.jac e).find? (fun p => p.1 = v) = none := by
    rw [List.find?_eq_none]
    intro q hq
    simpa using h q hq
  rw [deriv, this]

/-- The matrix that is built is the Jacobian of the linearised problem. -/
theorem jacobian_eq (T : Terms K) {dvs ets : List Nat} (hS : Sound T dvs ets) {W : World}
    (hN : Numbered T dvs ets W) :
    ∃ J, buildJacobian T W ets (Mat.zero (dims T.edim ets) (dims T.dim dvs)) = .ok J ∧ IsJacobian T dvs ets J := by
  obtain ⟨J, e1, r1, r2, h⟩ := buildJacobian_ok T W ets (Mat.zero (dims T.edim ets) (dims T.dim dvs)) (by
    intro e hee q hq
    obtain ⟨_, hs⟩ := hS e hee
    obtain ⟨s1, s2, s3⟩ := hs q hq
    obtain ⟨k, hk⟩ := List.mem_iff_getElem?.1 hee
    obtain ⟨b, hb⟩ := List.mem_iff_getElem?.1 s1
    rw [hN.row k e hk, hN.col b q.1 hb, s2, s3]
    refine ⟨by omega, ?_, lay_inside T.edim hk⟩
    rw [Int.toNat_natCast]
    exact lay_inside T.dim hb)
  refine ⟨J, e1, r1, r2, ?_⟩
  intro a e b v i j ha hb hi hj
  have hee : e ∈ ets := List.mem_iff_getElem?.2 ⟨a, ha⟩
  -- a block that covers the place is the block of this term and variable
  have hcov : ∀ e' ∈ ets, ∀ q ∈ T.jac e', Covers W e' q (dims T.edim (ets.take a) + i) (dims T.dim (dvs.take b) + j) →
      e' = e ∧ q.1 = v ∧ q.2.get (dims T.edim (ets.take a) + i - W.rowBase e')
        (dims T.dim (dvs.take b) + j - (W.columnBase q.1).toNat) = q.2.get i j := by
    intro e' he' q hq hc
    obtain ⟨_, hs⟩ := hS e' he'
    obtain ⟨s1, s2, s3⟩ := hs q hq
    obtain ⟨k, hk⟩ := List.mem_iff_getElem?.1 he'
    obtain ⟨b', hb'⟩ := List.mem_iff_getElem?.1 s1
    obtain ⟨c1, c2, c3, c4⟩ := hc
    rw [hN.row k e' hk] at c1 c2 ⊢
    rw [hN.col b' q.1 hb', Int.toNat_natCast] at c3 c4 ⊢
    rw [s2] at c2
    rw [s3] at c4
    have ek := lay_unique T.edim ha hk (p := dims T.edim (ets.take a) + i) (by omega) (by omega) c1 c2
    have eb := lay_unique T.dim hb hb' (p := dims T.dim (dvs.take b) + j) (by omega) (by omega) c3 c4
    subst ek; subst eb
    rw [ha] at hk
    rw [hb] at hb'
    injection hk with hk
    injection hb' with hb'
    exact ⟨hk.symm, hb'.symm, by rw [Nat.add_sub_cancel_left, Nat.add_sub_cancel_left]⟩
  by_cases hex : ∃ q ∈ T.jac e, q.1 = v
  · obtain ⟨q, hq, rfl⟩ := hex
    rw [deriv_eq (hS e hee).1 hq]
    refine (h _ _).1 _ ?_ ?_
    · intro e' he' q' hq' hc
      obtain ⟨rfl, h2, h3⟩ := hcov e' he' q' hq' hc
      rw [h3, ← deriv_eq (hS e' hee).1 hq', h2, deriv_eq (hS e' hee).1 hq]
    · refine ⟨e, hee, q, hq, ?_⟩
      obtain ⟨s1, s2, s3⟩ := (hS e hee).2 q hq
      rw [Covers, hN.row a e ha, hN.col b q.1 hb, Int.toNat_natCast, s2, s3]
      omega
  · push Not at hex
    rw [deriv_zero hex]
    refine ((h _ _).2 ?_).trans rfl
    intro e' he' q hq hc
    obtain ⟨rfl, h2, _⟩ := hcov e' he' q hq hc
    exact hex q hq h2

end Kalibr.Marg
