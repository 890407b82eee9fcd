import Verif.Marg.Build
import Mathlib.LinearAlgebra.Matrix.NonsingularInverse

/-!
# Properties of the marginalisation
-/

namespace Kalibr.Marg

open Finset Sparse

variable {K : Type} [Field K]

/-- A row of the Jacobian times the displacement. -/
theorem row_mul {T : Terms K} {dvs ets : List Nat} {J : Mat K} (hJ : IsJacobian T dvs ets J) (δ : Nat → Nat → K)
    {a e i : Nat} (ha : ets[a]? = some e) (hi : i < T.edim e) :
    ∑ c ∈ range (dims T.dim dvs), J.get (dims T.edim (ets.take a) + i) c * (flat T.dim dvs δ).getD c 0 =
      linError T dvs e δ i - T.err e i := by
  rw [sum_lay, linError, sum_list, add_sub_cancel_left]
  refine sum_congr rfl fun k hk => sum_congr rfl fun j hj => ?_
  have hk := getD_some (mem_range.1 hk)
  rw [hJ.2.2 a e k _ i j ha hk hi (mem_range.1 hj), flat_get δ hk (mem_range.1 hj)]

/-- The linearised cost in matrix form. -/
theorem cost_eq {T : Terms K} {dvs ets : List Nat} {J : Mat K} (hJ : IsJacobian T dvs ets J) {b : Nat → K}
    (hb : ∀ k e i, ets[k]? = some e → i < T.edim e → b (dims T.edim (ets.take k) + i) = -(T.err e i))
    (δ : Nat → Nat → K) :
    linCost T dvs ets δ = ∑ p ∈ range (dims T.edim ets),
      (∑ c ∈ range (dims T.dim dvs), J.get p c * (flat T.dim dvs δ).getD c 0 - b p) ^ 2 := by
  rw [sum_lay, linCost, sum_list]
  refine sum_congr rfl fun k hk => sum_congr rfl fun i hi => ?_
  have hk := getD_some (mem_range.1 hk)
  rw [row_mul hJ δ hk (mem_range.1 hi), hb k _ i hk (mem_range.1 hi)]
  ring

theorem idxOf_eq {l : List Nat} (hl : l.Nodup) {k v : Nat} (h : l[k]? = some v) : l.idxOf v = k := by
  obtain ⟨hk, e⟩ := List.getElem?_eq_some_iff.1 h
  rw [← e]
  exact hl.idxOf_getElem k hk

/-- The displacement of a vector. -/
def unflat (dim : Nat → Nat) (l : List Nat) (y : Nat → K) (v j : Nat) : K := y (dims dim (l.take (l.idxOf v)) + j)

theorem mem_take_iff {l : List Nat} (hl : l.Nodup) {k b v : Nat} (h : l[b]? = some v) : v ∈ l.take k ↔ b < k := by
  obtain ⟨hb, e⟩ := List.getElem?_eq_some_iff.1 h
  constructor
  · intro hv
    obtain ⟨i, hi⟩ := List.mem_iff_getElem?.1 hv
    rw [List.getElem?_take] at hi
    split at hi
    · next hik =>
      have : i = b := by
        rw [← idxOf_eq hl hi, ← idxOf_eq hl h]
      omega
    · cases hi
  · intro hbk
    exact List.mem_iff_getElem?.2 ⟨b, by rw [List.getElem?_take, if_pos hbk, h]⟩

/-- A displacement of the first `k` variables that matches a given vector, the others being as before. -/
theorem flat_mix {dim : Nat → Nat} {l : List Nat} (hl : l.Nodup) (k : Nat) (δ : Nat → Nat → K) (y : Nat → K)
    (hy : ∀ c, dims dim (l.take k) ≤ c → c < dims dim l → y c = (flat dim l δ).getD c 0) {c : Nat} (hc : c < dims dim l) :
    (flat dim l fun v j => if v ∈ l.take k then unflat dim l y v j else δ v j).getD c 0 = y c := by
  obtain ⟨b, v, j, hb, hj, rfl⟩ := lay_exists dim hc
  rw [flat_get _ hb hj]
  by_cases hv : v ∈ l.take k
  · rw [if_pos hv, unflat, idxOf_eq hl hb]
  · rw [if_neg hv, ← flat_get δ hb hj]
    have : ¬b < k := fun h => hv ((mem_take_iff hl hb).2 h)
    exact (hy _ (le_trans (dims_take_mono dim l (by omega)) (Nat.le_add_right _ _)) hc).symm

theorem difference_eq (dim : Nat → Nat) (l : List Nat) (k : Nat) (δ : Nat → Nat → K) (j : Nat) :
    (flat dim (l.drop k) δ).getD j 0 = (flat dim l δ).getD (dims dim (l.take k) + j) 0 := by
  conv_rhs => rw [← List.take_append_drop k l, flat_append, List.take_append_drop]
  rw [List.getD_eq_getElem?_getD, List.getD_eq_getElem?_getD,
    List.getElem?_append_right (by rw [flat_length]; omega), flat_length, Nat.add_sub_cancel_left]

/-- What `marginalize` delivers when it succeeds. -/
theorem marginalize_ok {T : Terms K} {qr : Mat K → Mat K × Mat K} {inv : Mat K → Mat K} {W : World} {dvs ets : List Nat}
    {toRemove : Int} {numTop : Nat} (hd : dvs.Nodup) (he : ets.Nodup) (hS : Sound T dvs ets)
    (hdim : dims T.dim dvs ≤ dims T.edim ets) (hrem : dvs.drop toRemove.toNat ≠ [])
    (hqr : ∀ M, IsJacobian T dvs ets M → IsQr M (qr M).1 (qr M).2) (ht : numTop ≤ dims T.dim dvs)
    {cov : Mat K → Option (Mat K)} (hcov : ∀ M, IsJacobian T dvs ets M →
      covariance inv (upper (qr M).2) numTop = .ok (cov M)) :
    ∃ (J : Mat K) (b : Nat → K) (top : List Nat), IsJacobian T dvs ets J ∧
      (∀ k e i, ets[k]? = some e → i < T.edim e → b (dims T.edim (ets.take k) + i) = -(T.err e i)) ∧
      (partition T.dim toRemove numTop dvs 0 0).2.2 = top ∧
      marginalize T qr inv W dvs ets toRemove numTop = ⟨W, top, .ok (⟨dvs.drop toRemove.toNat,
        dims T.dim dvs - dims T.dim (dvs.take toRemove.toNat),
        fun i => ∑ k ∈ range (dims T.edim ets), (qr J).1.get k (dims T.dim (dvs.take toRemove.toNat) + i) * b k,
        fun i j => (upper (qr J).2).get (dims T.dim (dvs.take toRemove.toNat) + i)
          (dims T.dim (dvs.take toRemove.toNat) + j)⟩, cov J)⟩ := by
  obtain ⟨p1, p2⟩ := partition_eq T.dim toRemove numTop dvs 0 0
  simp only [Nat.cast_zero, sub_zero] at p1 p2
  obtain ⟨_, c2, _⟩ := assignColumns_eq T.dim dvs hd 0 0 W
  obtain ⟨_, r2, _⟩ := assignRows_eq T.edim ets he 0 (assignColumns T.dim dvs 0 0 W).1
  rw [Nat.zero_add] at c2 r2
  have hN := numbered T dvs ets hd he W
  obtain ⟨b, eb, hb⟩ := errors_eq T hN
  obtain ⟨J, eJ, hJ⟩ := jacobian_eq T hS hN
  refine ⟨J, b, _, hJ, hb, rfl, ?_⟩
  have d1 : hasDuplicate [] dvs = false := (hasDuplicate_iff [] dvs).2 ⟨hd, by simp⟩
  have d2 : hasDuplicate [] ets = false := (hasDuplicate_iff [] ets).2 ⟨he, by simp⟩
  have hR : (upper (qr J).2).rows = dims T.edim ets ∧ (upper (qr J).2).cols = dims T.dim dvs := by
    obtain ⟨q1, q2, _⟩ := hqr J hJ
    exact ⟨q1.trans hJ.1, q2.trans hJ.2.1⟩
  have hbp : buildPrior T qr inv (assignRows T.edim ets 0 (assignColumns T.dim dvs 0 0 W).1).1 ets
      (dims T.edim ets) (dims T.dim dvs) (dims T.dim (dvs.take toRemove.toNat)) (dvs.drop toRemove.toNat) numTop =
      .ok (⟨dvs.drop toRemove.toNat,
        dims T.dim dvs - dims T.dim (dvs.take toRemove.toNat),
        fun i => ∑ k ∈ range (dims T.edim ets), (qr J).1.get k (dims T.dim (dvs.take toRemove.toNat) + i) * b k,
        fun i j => (upper (qr J).2).get (dims T.dim (dvs.take toRemove.toNat) + i)
          (dims T.dim (dvs.take toRemove.toNat) + j)⟩, cov J) := by
    simp only [buildPrior, eb, eJ, Out.ok_bind, hcov J hJ, if_neg (not_lt.2 hdim), hR.1, hR.2,
      if_neg (not_lt.2 ht), if_neg (not_lt.2 (ht.trans hdim)), if_neg hrem, Out.pure_eq]
  have hres := restored T.dim T.edim dvs ets hd he W
  simp only at hres
  simp only [marginalize, d1, d2, Bool.false_eq_true, if_false, p1, p2, c2, r2, hbp, hres]

section

variable [LinearOrder K] [IsStrictOrderedRing K]

/-- The prior is the minimum over the removed variables. -/
theorem prior_min {T : Terms K} {dvs ets : List Nat} (hd : dvs.Nodup) {k : Nat}
    (hdim : dims T.dim dvs ≤ dims T.edim ets) {J Q P : Mat K} (hJ : IsJacobian T dvs ets J) (hqr : IsQr J Q P)
    (hdet : Determined T dvs ets (dvs.take k)) {b : Nat → K}
    (hb : ∀ k e i, ets[k]? = some e → i < T.edim e → b (dims T.edim (ets.take k) + i) = -(T.err e i)) :
    ∃ const : K, ∀ δ : Nat → Nat → K,
      let prior : Prior K := ⟨dvs.drop k, dims T.dim dvs - dims T.dim (dvs.take k),
        fun i => ∑ p ∈ range (dims T.edim ets), Q.get p (dims T.dim (dvs.take k) + i) * b p,
        fun i j => (upper P).get (dims T.dim (dvs.take k) + i) (dims T.dim (dvs.take k) + j)⟩
      prior.cost T.dim δ + const ≤ linCost T dvs ets δ ∧
      ∃ δ' : Nat → Nat → K, (∀ v ∈ dvs.drop k, ∀ j, δ' v j = δ v j) ∧
        linCost T dvs ets δ' = prior.cost T.dim δ + const := by
  have hle : dims T.dim (dvs.take k) ≤ dims T.dim dvs := by
    conv_rhs => rw [← List.take_append_drop k dvs, dims_append]
    omega
  obtain ⟨q1, q2, q3, q4⟩ := hqr
  rw [hJ.1] at q3 q4
  rw [hJ.2.1] at q4
  obtain ⟨const, h⟩ := reduce (m := dims T.edim ets) (n := dims T.dim dvs) (a := dims T.dim (dvs.take k)) hle hdim
    (Q := Q.get) (J := J.get) (R := (upper P).get) q3 q4
    (fun l c hlc => by simp only [upper]; rw [if_neg (by omega)]) b (by
      intro y hy0 hJy c hc
      -- the displacement of the removed variables
      have hfl : ∀ c, c < dims T.dim dvs →
          (flat T.dim dvs fun v j => if v ∈ dvs.take k then unflat T.dim dvs y v j else 0).getD c 0 = y c :=
        fun c hc => flat_mix hd k (fun _ _ => 0) y (fun c' h1 h2 => by
          obtain ⟨b', v, j, hb', hj, rfl⟩ := lay_exists T.dim h2
          rw [hy0 _ h1, flat_get _ hb' hj]) hc
      have hδ := hdet (fun v j => if v ∈ dvs.take k then unflat T.dim dvs y v j else 0)
        (fun v hv j => if_neg hv) (by
          intro e he i hi
          obtain ⟨a, ha⟩ := List.mem_iff_getElem?.1 he
          have hp : dims T.edim (ets.take a) + i < dims T.edim ets := by
            have := lay_inside T.edim ha; omega
          have := hJy _ hp
          have h2 := row_mul hJ (fun v j => if v ∈ dvs.take k then unflat T.dim dvs y v j else 0) ha hi
          rw [sum_congr rfl fun c hc => by rw [hfl c (mem_range.1 hc)], this] at h2
          exact (sub_eq_zero.1 h2.symm))
      have hc' : c < dims T.dim dvs := by omega
      obtain ⟨b', v, j, hb', hj, rfl⟩ := lay_exists T.dim hc'
      have hbk : b' < k := by
        by_contra hne
        have := dims_take_mono T.dim dvs (show k ≤ b' by omega)
        omega
      have hv := (mem_take_iff hd hb').2 hbk
      have := hδ v hv j hj
      rw [if_pos hv, unflat, idxOf_eq hd hb'] at this
      exact this)
  refine ⟨const, fun δ => ?_⟩
  intro prior
  have hprior : prior.cost T.dim δ = ∑ i ∈ range (dims T.dim dvs - dims T.dim (dvs.take k)),
      (∑ j ∈ range (dims T.dim dvs - dims T.dim (dvs.take k)),
        (upper P).get (dims T.dim (dvs.take k) + i) (dims T.dim (dvs.take k) + j) *
          (flat T.dim dvs δ).getD (dims T.dim (dvs.take k) + j) 0 -
        ∑ p ∈ range (dims T.edim ets), Q.get p (dims T.dim (dvs.take k) + i) * b p) ^ 2 := by
    refine sum_congr rfl fun i _ => ?_
    have : prior.error T.dim δ i = ∑ j ∈ range (dims T.dim dvs - dims T.dim (dvs.take k)),
        (upper P).get (dims T.dim (dvs.take k) + i) (dims T.dim (dvs.take k) + j) *
          (flat T.dim dvs δ).getD (dims T.dim (dvs.take k) + j) 0 -
        ∑ p ∈ range (dims T.edim ets), Q.get p (dims T.dim (dvs.take k) + i) * b p := by
      rw [Prior.error, neg_sub]
      congr 1
      refine sum_congr rfl fun j _ => ?_
      congr 1
      exact difference_eq T.dim dvs k δ j
    rw [this, sq]
  obtain ⟨h1, x', hx', h2⟩ := h fun c => (flat T.dim dvs δ).getD c 0
  refine ⟨?_, fun v j => if v ∈ dvs.take k then unflat T.dim dvs x' v j else δ v j, ?_, ?_⟩
  · rw [hprior, cost_eq hJ hb]; exact h1
  · intro v hv j
    have : v ∉ dvs.take k := by
      intro hv'
      have := List.take_append_drop k dvs ▸ hd
      exact (List.nodup_append.1 (this : (dvs.take k ++ dvs.drop k).Nodup)).2.2 v hv' v hv rfl
    simp only [if_neg this]
  · rw [cost_eq hJ hb, hprior, ← h2]
    refine sum_congr rfl fun p _ => ?_
    congr 2
    refine sum_congr rfl fun c hc => ?_
    rw [flat_mix hd k δ x' (fun c h1 _ => hx' c h1) (mem_range.1 hc)]

/-- **C116**: marginalising the first variables of a linearised problem delivers an error term on the remaining ones whose
cost is, up to a constant, the least cost of the problem over all displacements of the removed variables.  The indices of
the variables and terms are as before. -/
theorem C116_prior_partial (T : Terms K) (qr : Mat K → Mat K × Mat K) (inv : Mat K → Mat K) (W : World)
    (dvs ets : List Nat) (toRemove : Int) (hd : dvs.Nodup) (he : ets.Nodup) (hS : Sound T dvs ets)
    (hdim : dims T.dim dvs ≤ dims T.edim ets) (hrem : dvs.drop toRemove.toNat ≠ [])
    (hqr : ∀ M, IsJacobian T dvs ets M → IsQr M (qr M).1 (qr M).2)
    (hdet : Determined T dvs ets (dvs.take toRemove.toNat)) :
    ∃ P : Prior K, marginalize T qr inv W dvs ets toRemove 0 = ⟨W, [], .ok (P, none)⟩ ∧
      P.vars = dvs.drop toRemove.toNat ∧
      ∃ const : K, ∀ δ : Nat → Nat → K,
        P.cost T.dim δ + const ≤ linCost T dvs ets δ ∧
        ∃ δ' : Nat → Nat → K, (∀ v ∈ dvs.drop toRemove.toNat, ∀ j, δ' v j = δ v j) ∧
          linCost T dvs ets δ' = P.cost T.dim δ + const := by
  obtain ⟨J, b, top, hJ, hb, htop, e⟩ := marginalize_ok (inv := inv) (W := W) (numTop := 0) hd he hS hdim hrem hqr
    (Nat.zero_le _) (cov := fun _ => none) (fun M _ => by rw [covariance, if_neg (by omega)])
  obtain ⟨q, _, e1, e2, _⟩ := top_eq T.dim toRemove 0 dvs 0 0
  have hq : q = 0 := by
    by_contra hne
    have := e2 0 (by omega)
    omega
  rw [htop, hq, List.take_zero] at e1
  rw [e1] at e
  exact ⟨_, e, rfl, prior_min hd hdim hJ (hqr J hJ) hdet hb⟩

end

/-- **C116**: which variables are reported as those of the top rows: the shortest beginning of the list that covers that
many rows, or all of it. -/
theorem C116_top (dim : Nat → Nat) (toRemove : Int) (numTop : Nat) (dvs : List Nat) :
    ∃ q, q ≤ dvs.length ∧ (partition dim toRemove numTop dvs 0 0).2.2 = dvs.take q ∧
      (∀ i, i < q → dims dim (dvs.take i) < numTop) ∧
      (q < dvs.length → numTop ≤ dims dim (dvs.take q)) := by
  obtain ⟨q, h1, h2, h3, h4⟩ := top_eq dim toRemove numTop dvs 0 0
  exact ⟨q, h1, h2, fun i hi => by simpa using h3 i hi, fun hq => by simpa using h4 q le_rfl hq⟩

/-- **C116**: a variable or an error term that is given twice is rejected, and nothing is changed. -/
theorem C116_duplicates (T : Terms K) (qr : Mat K → Mat K × Mat K) (inv : Mat K → Mat K) (W : World)
    (dvs ets : List Nat) (toRemove : Int) (numTop : Nat) (h : ¬dvs.Nodup ∨ ¬ets.Nodup) :
    marginalize T qr inv W dvs ets toRemove numTop = ⟨W, [], .raise⟩ := by
  rw [marginalize]
  by_cases hd : dvs.Nodup
  · have he : ¬ets.Nodup := by tauto
    have e1 : hasDuplicate [] dvs = false := (hasDuplicate_iff [] dvs).2 ⟨hd, by simp⟩
    have e2 : hasDuplicate [] ets = true := by
      rw [← Bool.not_eq_false, hasDuplicate_iff]; tauto
    rw [e1, e2]
    rfl
  · have e1 : hasDuplicate [] dvs = true := by
      rw [← Bool.not_eq_false, hasDuplicate_iff]; tauto
    rw [e1]
    rfl

/-- What comes before the QR decomposition. -/
theorem marginalize_system {T : Terms K} (qr : Mat K → Mat K × Mat K) (inv : Mat K → Mat K) (W : World) {dvs ets : List Nat}
    (toRemove : Int) (numTop : Nat) (hd : dvs.Nodup) (he : ets.Nodup) (hS : Sound T dvs ets) :
    ∃ J, IsJacobian T dvs ets J ∧
      let r := assignRows T.edim ets 0 (assignColumns T.dim dvs 0 0 W).1
      let p := partition T.dim toRemove numTop dvs 0 0
      (dims T.edim ets < dims T.dim dvs → marginalize T qr inv W dvs ets toRemove numTop = ⟨r.1, p.2.2, .raise⟩) ∧
      (dims T.dim dvs ≤ dims T.edim ets → covariance inv (upper (qr J).2) numTop = .ub →
        marginalize T qr inv W dvs ets toRemove numTop = ⟨r.1, p.2.2, .ub⟩) ∧
      (dims T.dim dvs ≤ dims T.edim ets → (∃ c, covariance inv (upper (qr J).2) numTop = .ok c) →
        dvs.drop toRemove.toNat = [] → marginalize T qr inv W dvs ets toRemove numTop = ⟨r.1, p.2.2, .raise⟩) := by
  obtain ⟨p1, p2⟩ := partition_eq T.dim toRemove numTop dvs 0 0
  simp only [Nat.cast_zero, sub_zero] at p1 p2
  obtain ⟨_, c2, _⟩ := assignColumns_eq T.dim dvs hd 0 0 W
  obtain ⟨_, r2, _⟩ := assignRows_eq T.edim ets he 0 (assignColumns T.dim dvs 0 0 W).1
  rw [Nat.zero_add] at c2 r2
  have hN := numbered T dvs ets hd he W
  obtain ⟨b, eb, hb⟩ := errors_eq T hN
  obtain ⟨J, eJ, hJ⟩ := jacobian_eq T hS hN
  have d1 : hasDuplicate [] dvs = false := (hasDuplicate_iff [] dvs).2 ⟨hd, by simp⟩
  have d2 : hasDuplicate [] ets = false := (hasDuplicate_iff [] ets).2 ⟨he, by simp⟩
  refine ⟨J, hJ, ?_⟩
  intro r p
  refine ⟨fun h => ?_, fun h hc => ?_, fun h hc hr => ?_⟩
  · simp only [marginalize, d1, d2, Bool.false_eq_true, if_false, buildPrior, c2, r2, eb, eJ, Out.ok_bind, if_pos h]
    rfl
  · simp only [marginalize, d1, d2, Bool.false_eq_true, if_false, buildPrior, c2, r2, eb, eJ, Out.ok_bind,
      if_neg (not_lt.2 h), hc, Out.ub_bind]
    rfl
  · obtain ⟨c, hc⟩ := hc
    have hraise : buildPrior T qr inv r.1 ets (dims T.edim ets) (dims T.dim dvs) p.1 p.2.1 numTop = .raise := by
      simp only [buildPrior, r, eb, eJ, Out.ok_bind, if_neg (not_lt.2 h), hc]
      have : p.2.1 = [] := p2.trans hr
      simp only [this, if_true, ite_self]
    simp only [marginalize, d1, d2, Bool.false_eq_true, if_false, c2, r2]
    simp only [r, p] at hraise
    rw [hraise]

/-- **C116**: a problem with fewer rows than columns is rejected. -/
theorem C116_underdetermined (T : Terms K) (qr : Mat K → Mat K × Mat K) (inv : Mat K → Mat K) (W : World)
    (dvs ets : List Nat) (toRemove : Int) (numTop : Nat) (hd : dvs.Nodup) (he : ets.Nodup) (hS : Sound T dvs ets)
    (h : dims T.edim ets < dims T.dim dvs) :
    (marginalize T qr inv W dvs ets toRemove numTop).out = .raise := by
  obtain ⟨J, _, h1, _⟩ := marginalize_system qr inv W toRemove numTop hd he hS
  rw [h1 h]

/-- **C116**: removing all the variables is rejected. -/
theorem C116_nothing_left (T : Terms K) (qr : Mat K → Mat K × Mat K) (inv : Mat K → Mat K) (W : World)
    (dvs ets : List Nat) (toRemove : Int) (hd : dvs.Nodup) (he : ets.Nodup) (hS : Sound T dvs ets)
    (h : (dvs.length : Int) ≤ toRemove) : (marginalize T qr inv W dvs ets toRemove 0).out = .raise := by
  obtain ⟨J, _, h1, _, h3⟩ := marginalize_system qr inv W toRemove 0 hd he hS
  by_cases hlt : dims T.edim ets < dims T.dim dvs
  · rw [h1 hlt]
  · rw [h3 (not_lt.1 hlt) ⟨none, by rw [covariance, if_neg (by omega)]⟩ (List.drop_eq_nil_of_le (by omega))]

/-- **C116**: the covariance of the top rows is the top left block of the inverse of `JᵀJ` — when the Jacobian is square. -/
theorem C116_covariance_partial (T : Terms K) (qr : Mat K → Mat K × Mat K) (inv : Mat K → Mat K) (W : World)
    (dvs ets : List Nat) (toRemove : Int) (numTop : Nat) (hd : dvs.Nodup) (he : ets.Nodup) (hS : Sound T dvs ets)
    (hdim : dims T.dim dvs = dims T.edim ets) (hrem : dvs.drop toRemove.toNat ≠ [])
    (hqr : ∀ M, IsJacobian T dvs ets M → IsQr M (qr M).1 (qr M).2)
    (hinv : ∀ M, IsJacobian T dvs ets M → IsRightInverse (upper (qr M).2) (inv (upper (qr M).2)))
    (h0 : 0 < numTop) (ht : numTop ≤ dims T.dim dvs) :
    ∃ (J : Mat K) (P : Prior K) (C : Mat K) (S : Nat → Nat → K), IsJacobian T dvs ets J ∧
      (marginalize T qr inv W dvs ets toRemove numTop).out = .ok (P, some C) ∧
      (marginalize T qr inv W dvs ets toRemove numTop).world = W ∧
      C.rows = numTop ∧ C.cols = numTop ∧ (∀ i j, i < numTop → j < numTop → C.get i j = S i j) ∧
      ∀ i k, i < dims T.dim dvs → k < dims T.dim dvs →
        ∑ l ∈ range (dims T.dim dvs), (∑ p ∈ range (dims T.edim ets), J.get p i * J.get p l) * S l k =
          if i = k then 1 else 0 := by
  obtain ⟨J, b, top, hJ, hb, htop, e⟩ := marginalize_ok (inv := inv) (W := W) hd he hS hdim.le hrem hqr ht
    (cov := fun M => some ⟨numTop, numTop,
      ((inv (upper (qr M).2)).mul (inv (upper (qr M).2)).transpose).get⟩) (fun M hM => by
      obtain ⟨i1, i2, _⟩ := hinv M hM
      obtain ⟨q1, q2, _⟩ := hqr M hM
      have hr : (upper (qr M).2).rows = dims T.edim ets := q1.trans hM.1
      have hc : (upper (qr M).2).cols = dims T.dim dvs := q2.trans hM.2.1
      rw [covariance, if_pos h0, if_neg (by rw [hr, hc, hdim]; simp), if_neg (by rw [i1, hc]; omega)])
  refine ⟨J, _, _, _, hJ, by rw [e], by rw [e], rfl, rfl, fun i j _ _ => rfl, ?_⟩
  obtain ⟨i1, i2, i3⟩ := hinv J hJ
  obtain ⟨q1, q2, q3, q4⟩ := hqr J hJ
  have hr : (upper (qr J).2).rows = dims T.edim ets := q1.trans hJ.1
  have hc : (upper (qr J).2).cols = dims T.dim dvs := q2.trans hJ.2.1
  obtain ⟨R, hR⟩ : ∃ R, R = upper (qr J).2 := ⟨_, rfl⟩
  rw [← hR] at i1 i2 i3 hr hc ⊢
  rw [hJ.1, ← hdim] at q3 q4
  rw [hJ.2.1] at q4
  rw [hr, ← hdim, hc] at i3
  rw [hr, ← hdim] at i2
  rw [hc] at i1
  rw [← hdim]
  obtain ⟨n, hn⟩ : ∃ n, n = dims T.dim dvs := ⟨_, rfl⟩
  rw [← hn] at q3 q4 i1 i2 i3 ⊢
  have hQQ : (Matrix.of fun a c : Fin n => (qr J).1.get a.1 c.1).transpose * (Matrix.of fun a c : Fin n => (qr J).1.get a.1 c.1) = 1 := by
    ext a c
    rw [Matrix.mul_apply, Matrix.one_apply]
    simp only [Matrix.transpose_apply, Matrix.of_apply]
    rw [← Finset.sum_range fun l => (qr J).1.get l a.1 * (qr J).1.get l c.1, q3 _ _ a.2 c.2]
    simp only [Fin.ext_iff]
  have hQR : (Matrix.of fun a c : Fin n => J.get a.1 c.1) =
      (Matrix.of fun a c : Fin n => (qr J).1.get a.1 c.1) * (Matrix.of fun a c : Fin n => R.get a.1 c.1) := by
    ext a c
    rw [Matrix.mul_apply]
    simp only [Matrix.of_apply]
    rw [← Finset.sum_range fun l => (qr J).1.get a.1 l * R.get l c.1, q4 _ _ a.2 c.2, hR]
    rfl
  have hRI : (Matrix.of fun a c : Fin n => R.get a.1 c.1) * (Matrix.of fun a c : Fin n => (inv R).get a.1 c.1) = 1 := by
    ext a c
    rw [Matrix.mul_apply, Matrix.one_apply]
    simp only [Matrix.of_apply]
    rw [← Finset.sum_range fun l => R.get a.1 l * (inv R).get l c.1, i3 _ _ a.2 c.2]
    simp only [Fin.ext_iff]
  intro i k hi hk
  have key : (Matrix.of fun a c : Fin n => J.get a.1 c.1).transpose * (Matrix.of fun a c : Fin n => J.get a.1 c.1) *
      ((Matrix.of fun a c : Fin n => (inv R).get a.1 c.1) * (Matrix.of fun a c : Fin n => (inv R).get a.1 c.1).transpose) = 1 := by
    obtain ⟨A, hA⟩ : ∃ A, A = Matrix.of fun a c : Fin n => R.get a.1 c.1 := ⟨_, rfl⟩
    obtain ⟨B, hB⟩ : ∃ B, B = Matrix.of fun a c : Fin n => (inv R).get a.1 c.1 := ⟨_, rfl⟩
    obtain ⟨Q, hQ⟩ : ∃ Q, Q = Matrix.of fun a c : Fin n => (qr J).1.get a.1 c.1 := ⟨_, rfl⟩
    rw [← hA, ← hB] at hRI
    rw [← hQ] at hQQ
    rw [hQR, ← hA, ← hB, ← hQ, Matrix.transpose_mul]
    have e1 : A.transpose * Q.transpose * (Q * A) * (B * B.transpose) =
        A.transpose * (Q.transpose * Q) * (A * B) * B.transpose := by simp only [Matrix.mul_assoc]
    rw [e1, hQQ, hRI, Matrix.mul_one, Matrix.mul_one, ← Matrix.transpose_mul, mul_eq_one_comm.1 hRI]
    simp
  have := congrFun (congrFun key ⟨i, hi⟩) ⟨k, hk⟩
  rw [Matrix.mul_apply, Matrix.one_apply] at this
  simp only [Fin.mk.injEq] at this
  rw [← this, Finset.sum_range]
  refine sum_congr rfl fun l _ => ?_
  rw [Matrix.mul_apply, Matrix.mul_apply]
  simp only [Matrix.transpose_apply, Matrix.of_apply]
  rw [← Finset.sum_range fun p => J.get p i * J.get p l.1]
  congr 1
  change ∑ p ∈ range (inv R).cols, (inv R).get l.1 p * (inv R).get k p = _
  rw [i2, Finset.sum_range]

/-- **C116**, the covariance: with more rows than columns it is undefined, whatever the problem. -/
theorem C116_covariance_counterexample (T : Terms K) (qr : Mat K → Mat K × Mat K) (inv : Mat K → Mat K) (W : World)
    (dvs ets : List Nat) (toRemove : Int) (numTop : Nat) (hd : dvs.Nodup) (he : ets.Nodup) (hS : Sound T dvs ets)
    (hdim : dims T.dim dvs < dims T.edim ets) (hqr : ∀ M, IsJacobian T dvs ets M → IsQr M (qr M).1 (qr M).2)
    (h0 : 0 < numTop) : (marginalize T qr inv W dvs ets toRemove numTop).out = .ub := by
  obtain ⟨J, hJ, _, h2, _⟩ := marginalize_system qr inv W toRemove numTop hd he hS
  obtain ⟨q1, q2, _⟩ := hqr J hJ
  have hr : (upper (qr J).2).rows = dims T.edim ets := q1.trans hJ.1
  have hc : (upper (qr J).2).cols = dims T.dim dvs := q2.trans hJ.2.1
  rw [h2 hdim.le (by rw [covariance, if_pos h0, if_pos (by rw [hr, hc]; omega)])]

end Kalibr.Marg
