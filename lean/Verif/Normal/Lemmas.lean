import Verif.Normal.Spec
import Verif.Jacobian.Lemmas
import Verif.Sparse.PermProps

/-!
# Lemmas on the normal equations
-/

namespace Kalibr.Normal

open Jacobian Sparse

set_option linter.unusedSectionVars false

variable {D K : Type} [CommRing K]

/-! ## Sums over lists -/

theorem listSum_finset {β : Type} (L : List β) (s : Finset Nat) (f : β → Nat → K) :
    (L.map fun p => ∑ k ∈ s, f p k).sum = ∑ k ∈ s, (L.map fun p => f p k).sum := by
  induction L with
  | nil => simp
  | cons p L ih => simp [ih, Finset.sum_add_distrib]

theorem listSum_mul_left {β : Type} (L : List β) (x : K) (f : β → K) :
    (L.map fun p => x * f p).sum = x * (L.map f).sum := by
  induction L with
  | nil => simp
  | cons p L ih => simp [ih, mul_add]

theorem listSum_mul_right {β : Type} (L : List β) (x : K) (f : β → K) :
    (L.map fun p => f p * x).sum = (L.map f).sum * x := by
  induction L with
  | nil => simp
  | cons p L ih => simp [ih, add_mul]

theorem listSum_zero {β : Type} (L : List β) (f : β → K) (h : ∀ p ∈ L, f p = 0) :
    (L.map f).sum = 0 := by
  induction L with
  | nil => rfl
  | cons p L ih =>
    rw [List.map_cons, List.sum_cons, h p (by simp), ih fun q hq => h q (by simp [hq]), add_zero]

/-! ## The pairs of blocks the recursion visits -/

/-- All pairs in list order, the first not after the second. -/
def pairs {β : Type} : List β → List (β × β)
  | [] => []
  | p :: ps => ((p :: ps).map fun q => (p, q)) ++ pairs ps

/-- The place a pair contributes to. -/
def pairKey (env : Env D K) (x : (D × Mat K) × (D × Mat K)) : Nat × Nat :=
  (place env x.1, place env x.2)

/-- The contribution of a pair. -/
def pairVal (x : (D × Mat K) × (D × Mat K)) : Mat K := x.1.2.transpose.mul x.2.2

theorem buildCorrelated_eq (env : Env D K) (p : D × Mat K) (L : List (D × Mat K)) (H : SBM K) :
    buildCorrelated env p.2 (place env p) L H =
      (L.map fun q => (p, q)).foldl (fun D x => D.modBlk (pairKey env x).1 (pairKey env x).2
        fun d => d.add (pairVal x)) H := by
  induction L generalizing H with
  | nil => rfl
  | cons q L ih =>
    rw [buildCorrelated, ih]
    rfl

theorem modBlk_rbi (H : SBM K) (r c : Nat) (f : Mat K → Mat K) : (H.modBlk r c f).rbi = H.rbi := rfl

theorem fold_rbi {β : Type} (L : List β) (key : β → Nat × Nat) (f : β → Mat K → Mat K) (H : SBM K) :
    (L.foldl (fun D b => D.modBlk (key b).1 (key b).2 (f b)) H).rbi = H.rbi := by
  induction L generalizing H with
  | nil => rfl
  | cons b L ih => rw [List.foldl_cons, ih]; rfl

theorem buildHessianBlock_eq (env : Env D K) (e : Nat → K) (L : List (D × Mat K)) (H : SBM K)
    (rhs : Nat → K) :
    buildHessianBlock env e L H rhs =
      ((pairs L).foldl (fun D x => D.modBlk (pairKey env x).1 (pairKey env x).2
        fun d => d.add (pairVal x)) H,
       L.foldl (fun y p => subSegment y (base H.rbi (place env p)) p.2 e) rhs) := by
  induction L generalizing H rhs with
  | nil => rfl
  | cons p L ih =>
    rw [buildHessianBlock, ih, buildCorrelated_eq]
    rw [fold_rbi (key := pairKey env) (f := fun x d => d.add (pairVal x)), pairs, List.foldl_append]
    rfl

theorem mem_pairs {β : Type} {R : β → β → Prop} (L : List β) (hs : L.Pairwise R) (hr : ∀ a ∈ L, R a a) :
    ∀ x ∈ pairs L, x.1 ∈ L ∧ x.2 ∈ L ∧ R x.1 x.2 := by
  induction L with
  | nil => simp [pairs]
  | cons p L ih =>
    have hs' := List.pairwise_cons.1 hs
    intro x hx
    rw [pairs, List.mem_append] at hx
    rcases hx with hx | hx
    · obtain ⟨q, hq, rfl⟩ := List.mem_map.1 hx
      refine ⟨by simp, hq, ?_⟩
      rcases List.mem_cons.1 hq with rfl | hq
      · exact hr _ (by simp)
      · exact hs'.1 q hq
    · obtain ⟨h1, h2, h3⟩ := ih hs'.2 (fun a ha => hr a (by simp [ha])) x hx
      exact ⟨by simp [h1], by simp [h2], h3⟩

/-- The pairs visited are those in order: a sum over them is a sum over all ordered pairs. -/
theorem sum_pairs {β : Type} (key : β → Nat) (L : List β) (hs : L.Pairwise fun p q => key p < key q)
    (G : β → β → K) :
    ((pairs L).map fun x => G x.1 x.2).sum =
      (L.map fun p => (L.map fun q => if key p ≤ key q then G p q else 0).sum).sum := by
  induction L with
  | nil => rfl
  | cons p L ih =>
    have hs' := List.pairwise_cons.1 hs
    rw [pairs, List.map_append, List.sum_append, ih hs'.2]
    conv_rhs => rw [List.map_cons, List.sum_cons]
    congr 1
    · rw [List.map_map]
      congr 1
      apply List.map_congr_left
      intro q hq
      rw [if_pos]
      · rfl
      · rcases List.mem_cons.1 hq with rfl | hq
        · exact le_rfl
        · exact (hs'.1 q hq).le
    · congr 1
      apply List.map_congr_left
      intro q hq
      rw [List.map_cons, List.sum_cons, if_neg (by have := hs'.1 q hq; omega), zero_add]

/-! ## The contribution of a term -/

/-- The scaled Jacobian of the unknowns, premultiplied by `Sᵀ`. -/
theorem whitened (env : Env D K) (c : Container D K) (S : Mat K) (r k i : Nat)
    (hb : ∀ p ∈ c.map, 0 ≤ env.blockIndex p.1) :
    (c.map.map fun p => if place env p = r then
      ((S.transpose.mul p.2).scale (env.scaling p.1)).get k i else 0).sum =
      ∑ a ∈ Finset.range S.rows, S.get a k * gJ env c r a i := by
  unfold gJ
  have h1 : ∀ a, S.get a k * (c.map.map fun p => if env.blockIndex p.1 = r then
      env.scaling p.1 * p.2.get a i else 0).sum =
      (c.map.map fun p => S.get a k * if env.blockIndex p.1 = r then
        env.scaling p.1 * p.2.get a i else 0).sum := fun a => (listSum_mul_left _ _ _).symm
  simp only [h1]
  rw [← listSum_finset c.map (Finset.range S.rows) (fun p a => S.get a k *
    if env.blockIndex p.1 = r then env.scaling p.1 * p.2.get a i else 0)]
  congr 1
  apply List.map_congr_left
  intro p hp
  have := hb p hp
  by_cases h : env.blockIndex p.1 = r
  · rw [if_pos (by unfold place; omega)]
    simp only [if_pos h, Mat.scale, Mat.mul, Mat.transpose, Finset.sum_mul]
    apply Finset.sum_congr rfl
    intro a _
    ring
  · rw [if_neg (by unfold place; omega)]
    simp [h]

theorem sum_sq (S : Mat K) (u v : Nat → K) :
    ∑ k ∈ Finset.range S.cols, (∑ a ∈ Finset.range S.rows, S.get a k * u a) *
      (∑ b ∈ Finset.range S.rows, S.get b k * v b) =
    ∑ a ∈ Finset.range S.rows, ∑ b ∈ Finset.range S.rows, u a * info S a b * v b := by
  unfold info
  simp_rw [Finset.sum_mul_sum]
  simp only [Finset.mul_sum, Finset.sum_mul]
  rw [Finset.sum_comm]
  apply Finset.sum_congr rfl
  intro a _
  rw [Finset.sum_comm]
  apply Finset.sum_congr rfl
  intro b _
  apply Finset.sum_congr rfl
  intro k _
  ring

theorem scaledMap_sum (env : Env D K) (S : Mat K) (m : List (D × Mat K)) (F : D × Mat K → K) :
    ((scaledMap env S m).map F).sum =
      (m.map fun p => F (p.1, (S.transpose.mul p.2).scale (env.scaling p.1))).sum := by
  rw [scaledMap, List.map_map]; rfl

theorem scaledMap_rows {env : Env D K} {S : Mat K} {m : List (D × Mat K)} {p : D × Mat K}
    (h : p ∈ scaledMap env S m) : p.2.rows = S.cols := by
  obtain ⟨q, _, rfl⟩ := List.mem_map.1 h
  rfl

/-- Sum of the contributions of the pairs at a place. -/
theorem sum_contrib (env : Env D K) (c : Container D K) (S : Mat K) (ho : Ordered env c)
    (hb : ∀ p ∈ c.map, 0 ≤ env.blockIndex p.1) (r q i j : Nat) :
    ((pairs (scaledMap env S c.map)).map fun x =>
      if (pairKey env x).1 = r ∧ (pairKey env x).2 = q then (pairVal x).get i j else 0).sum =
      if r ≤ q then hess env c S r q i j else 0 := by
  have hs : (scaledMap env S c.map).Pairwise fun p q => place env p < place env q := by
    rw [scaledMap, List.pairwise_map]
    refine List.Pairwise.imp_of_mem ?_ ho
    intro a b ha hb' hab
    have h1 := hb a ha
    have h2 := hb b hb'
    show (env.blockIndex a.1).toNat < (env.blockIndex b.1).toNat
    omega
  have e := sum_pairs (K := K) (place env) (scaledMap env S c.map) hs
    (fun x y => if place env x = r ∧ place env y = q then (x.2.transpose.mul y.2).get i j else 0)
  refine Eq.trans e ?_
  by_cases hrq : r ≤ q
  · rw [if_pos hrq]
    have e2 : ((scaledMap env S c.map).map fun x => ((scaledMap env S c.map).map fun y =>
        if place env x ≤ place env y then
          if place env x = r ∧ place env y = q then (x.2.transpose.mul y.2).get i j else 0 else 0).sum).sum =
        ∑ k ∈ Finset.range S.cols,
          ((scaledMap env S c.map).map fun x => if place env x = r then x.2.get k i else 0).sum *
          ((scaledMap env S c.map).map fun y => if place env y = q then y.2.get k j else 0).sum := by
      simp only [← listSum_mul_right]
      rw [← listSum_finset (scaledMap env S c.map) (Finset.range S.cols) (fun x k =>
        (if place env x = r then x.2.get k i else 0) *
          ((scaledMap env S c.map).map fun y => if place env y = q then y.2.get k j else 0).sum)]
      congr 1
      apply List.map_congr_left
      intro x hx
      simp only [← listSum_mul_left]
      rw [← listSum_finset (scaledMap env S c.map) (Finset.range S.cols) (fun y k =>
        (if place env x = r then x.2.get k i else 0) * (if place env y = q then y.2.get k j else 0))]
      congr 1
      apply List.map_congr_left
      intro y hy
      by_cases h1 : place env x = r
      · by_cases h2 : place env y = q
        · rw [if_pos (by omega), if_pos ⟨h1, h2⟩]
          simp only [if_pos h1, if_pos h2]
          have : x.2.transpose.cols = S.cols := scaledMap_rows hx
          rw [Mat.mul, this]
          rfl
        · rw [if_neg (c := place env x = r ∧ place env y = q) (by omega)]
          simp [h2]
      · rw [if_neg (c := place env x = r ∧ place env y = q) (by omega)]
        simp [h1]
    rw [e2]
    have e3 : ∀ r k i, ((scaledMap env S c.map).map fun x => if place env x = r then x.2.get k i else 0).sum =
        ∑ a ∈ Finset.range S.rows, S.get a k * gJ env c r a i := by
      intro r k i
      rw [scaledMap_sum]
      exact whitened env c S r k i hb
    simp only [e3]
    exact sum_sq S _ _
  · rw [if_neg hrq]
    apply listSum_zero
    intro x _
    apply listSum_zero
    intro y _
    split
    · rw [if_neg (by omega)]
    · rfl

theorem fold_subSegment (bi : List Nat) (hm : Mono bi) (env : Env D K) (e : Nat → K)
    (L : List (D × Mat K)) (hL : ∀ p ∈ L, place env p < bi.length ∧ p.2.cols = size bi (place env p))
    (rhs : Nat → K) (r i : Nat) (hr : r < bi.length) (hi : i < size bi r) :
    L.foldl (fun y p => subSegment y (base bi (place env p)) p.2 e) rhs (base bi r + i) =
      rhs (base bi r + i) - (L.map fun p => if place env p = r then
        ∑ k ∈ Finset.range p.2.rows, p.2.get k i * e k else 0).sum := by
  induction L generalizing rhs with
  | nil => simp
  | cons p L ih =>
    rw [List.foldl_cons, ih (fun q hq => hL q (by simp [hq])), List.map_cons, List.sum_cons]
    have hp := hL p (by simp)
    by_cases h : place env p = r
    · rw [if_pos h, subSegment, if_pos (by rw [hp.2, h]; omega), h,
        show base bi r + i - base bi r = i by omega]
      ring
    · rw [if_neg h, subSegment, if_neg]
      · ring
      · rintro ⟨h1, h2⟩
        rw [hp.2] at h2
        exact h (block_unique hm hp.1 hr h1 h2 (by omega) (by omega))

theorem sum_grad (env : Env D K) (c : Container D K) (S : Mat K) (e : Nat → K)
    (hb : ∀ p ∈ c.map, 0 ≤ env.blockIndex p.1) (r i : Nat) :
    ((scaledMap env S c.map).map fun p => if place env p = r then
      ∑ k ∈ Finset.range p.2.rows, p.2.get k i * ∑ a ∈ Finset.range S.rows, S.get a k * e a else 0).sum =
      grad env c S e r i := by
  have e1 : ((scaledMap env S c.map).map fun p => if place env p = r then
      ∑ k ∈ Finset.range p.2.rows, p.2.get k i * ∑ a ∈ Finset.range S.rows, S.get a k * e a else 0).sum =
      ∑ k ∈ Finset.range S.cols,
        ((scaledMap env S c.map).map fun x => if place env x = r then x.2.get k i else 0).sum *
        ∑ a ∈ Finset.range S.rows, S.get a k * e a := by
    simp only [← listSum_mul_right]
    rw [← listSum_finset (scaledMap env S c.map) (Finset.range S.cols) (fun x k =>
      (if place env x = r then x.2.get k i else 0) * ∑ a ∈ Finset.range S.rows, S.get a k * e a)]
    congr 1
    apply List.map_congr_left
    intro p hp
    by_cases h : place env p = r
    · rw [if_pos h, scaledMap_rows hp]
      simp only [if_pos h]
    · simp [h]
  rw [e1]
  have e3 : ∀ k, ((scaledMap env S c.map).map fun x => if place env x = r then x.2.get k i else 0).sum =
      ∑ a ∈ Finset.range S.rows, S.get a k * gJ env c r a i := by
    intro k
    rw [scaledMap_sum]
    exact whitened env c S r k i hb
  simp only [e3]
  exact sum_sq S _ _

theorem hess_symm (env : Env D K) (c : Container D K) (S : Mat K) (r q i j : Nat) :
    hess env c S r q i j = hess env c S q r j i := by
  unfold hess
  rw [Finset.sum_comm]
  apply Finset.sum_congr rfl
  intro b _
  apply Finset.sum_congr rfl
  intro a _
  have : info S a b = info S b a := by
    unfold info
    exact Finset.sum_congr rfl fun k _ => mul_comm _ _
  rw [this]; ring

theorem info_scale (S : Mat K) (w : K) (a b : Nat) : info (S.scale w) a b = w * w * info S a b := by
  unfold info
  rw [Finset.mul_sum]
  exact Finset.sum_congr rfl fun k _ => by simp only [Mat.scale]; ring

theorem hess_scale (env : Env D K) (c : Container D K) (S : Mat K) (w : K) (r q i j : Nat) :
    hess env c (S.scale w) r q i j = w * w * hess env c S r q i j := by
  unfold hess
  simp only [info_scale, Finset.mul_sum]
  exact Finset.sum_congr rfl fun a _ => Finset.sum_congr rfl fun b _ => by ring

theorem grad_scale (env : Env D K) (c : Container D K) (S : Mat K) (w : K) (e : Nat → K) (r i : Nat) :
    grad env c (S.scale w) e r i = w * w * grad env c S e r i := by
  unfold grad
  simp only [info_scale, Finset.mul_sum]
  exact Finset.sum_congr rfl fun a _ => Finset.sum_congr rfl fun b _ => by ring

/-! ## evaluateHessian -/

theorem evaluateHessian_spec (env : Env D K) (c : Container D K) (e : Nat → K) (S : Mat K) (H : SBM K)
    (rhs : Nat → K) (h : WF H) (hsq : H.rbi = H.cbi) (hf : Fit env c S H) :
    ∃ H' rhs', evaluateHessian env c e S H rhs = .ok (H', rhs') ∧ WF H' ∧ H'.rbi = H.rbi ∧
      H'.cbi = H.cbi ∧ (UpperOnly H → UpperOnly H') ∧
      (∀ r q i j, val H' r q i j = val H r q i j + if r ≤ q then hess env c S r q i j else 0) ∧
      (∀ r i, r < H.rbi.length → i < size H.rbi r →
        rhs' (base H.rbi r + i) = rhs (base H.rbi r + i) - grad env c S e r i) := by
  have hb : ∀ p ∈ c.map, 0 ≤ env.blockIndex p.1 := fun p hp => (hf.inside p hp).1
  have hdim : ∀ p ∈ c.map, size H.rbi (place env p) = p.2.cols := fun p hp => by
    rw [hf.dims p hp, (hf.fits p hp).2.1]
  have hok : ¬(c.rows ≠ S.rows ∨ (c.map.all fun p => p.2.rows = S.rows ∧ blockOk env H p) = false) := by
    rintro (h1 | h1)
    · exact h1 hf.rows
    · rw [Bool.eq_false_iff] at h1
      apply h1
      rw [List.all_eq_true]
      intro p hp
      have h3 := (hf.fits p hp).1
      simp only [decide_eq_true_eq, blockOk]
      refine ⟨h3.trans hf.rows, hb p hp, (hf.inside p hp).2, ?_, hdim p hp, ?_⟩
      · rw [← hsq]; exact (hf.inside p hp).2
      · rw [← hsq]; exact hdim p hp
  have hmem : ∀ p ∈ scaledMap env S c.map, place env p < H.rbi.length ∧
      p.2.cols = size H.rbi (place env p) := by
    intro p hp
    obtain ⟨q, hq, rfl⟩ := List.mem_map.1 hp
    exact ⟨(hf.inside q hq).2, (hdim q hq).symm⟩
  have hord : (scaledMap env S c.map).Pairwise fun p q => place env p ≤ place env q := by
    rw [scaledMap, List.pairwise_map]
    refine List.Pairwise.imp_of_mem ?_ hf.ordered
    intro a b ha hb' hab
    show (env.blockIndex a.1).toNat ≤ (env.blockIndex b.1).toNat
    omega
  have hp := mem_pairs (R := fun p q => place env p ≤ place env q) _ hord (fun _ _ => le_rfl)
  obtain ⟨w1, w2, w3⟩ := fold_wf (pairs (scaledMap env S c.map)) (pairKey env)
    (fun x d => d.add (pairVal x)) H h (fun x hx => ⟨(hmem _ (hp x hx).1).1, fun _ h1 h2 => ⟨h1, h2⟩⟩)
  have hadd := fold_add (pairs (scaledMap env S c.map)) (pairKey env) pairVal H h
    (fun x hx => ⟨(hmem _ (hp x hx).1).1, by rw [← hsq]; exact (hmem _ (hp x hx).2.1).1⟩)
  refine ⟨_, _, by rw [evaluateHessian, if_neg hok, buildHessianBlock_eq], w1, w2, w3, ?_, ?_, ?_⟩
  · intro hu
    have : ∀ (L : List ((D × Mat K) × (D × Mat K))) (H : SBM K), WF H → H.rbi = H.cbi → UpperOnly H →
        (∀ x ∈ L, place env x.1 ≤ place env x.2 ∧ place env x.2 < H.rbi.length) →
        UpperOnly (L.foldl (fun D x => D.modBlk (pairKey env x).1 (pairKey env x).2
          fun d => d.add (pairVal x)) H) := by
      intro L
      induction L with
      | nil => intro H _ _ hu _; exact hu
      | cons x L ih =>
        intro H hH hs hu hL
        have hx := hL x (by simp)
        refine ih _ (hH.modBlk (by show place env x.1 < _; omega) _ fun _ h1 h2 => ⟨h1, h2⟩) hs ?_
          (fun y hy => hL y (by simp [hy]))
        intro r q J hJ
        rw [blk_modBlk hH (by rw [← hs]; exact hx.2)] at hJ
        split at hJ
        · rename_i he; rw [he.1, he.2]; exact hx.1
        · exact hu r q J hJ
    exact this _ H h hsq hu fun x hx => ⟨(hp x hx).2.2, (hmem _ (hp x hx).2.1).1⟩
  · intro r q i j
    rw [hadd r q i j, sum_contrib env c S hf.ordered hb]
  · intro r i hr hi
    rw [fold_subSegment H.rbi h.rows env _ _ hmem rhs r i hr hi, sum_grad env c S e hb]

end Kalibr.Normal
