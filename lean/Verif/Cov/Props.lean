import Verif.Cov.Lemmas
import Verif.Sparse.Props
import Verif.Sparse.ExportProps

/-!
# Properties of the marginal covariances
-/

namespace Kalibr.Cov

open Sparse Finset

variable {K : Type} [Field K] {n : Nat} {Lp Li : List Nat} {Lx : List K}

theorem write_ok {F : Factor K} {m : LookupMap K} {b vdim : Nat} {V : Nat → Nat → K} (hV : ∀ a c, V a c = V c a)
    (l : List (Nat × Nat)) (hl : ∀ q ∈ l, q.1 < vdim ∧ q.2 < vdim)
    (hv : ∀ q ∈ l, lookup F m (b + q.1, b + q.2) = .ok (V q.1 q.2)) (mem : Memory K) :
    ∃ mem', writeBlock F m b vdim l mem = .ok mem' ∧
      (∀ a c, a < vdim → c < vdim → mem' (a * vdim + c) =
        if (a, c) ∈ l ∨ (c, a) ∈ l then some (V a c) else mem (a * vdim + c)) ∧
      ∀ i, vdim * vdim ≤ i → mem' i = mem i := by
  induction l generalizing mem with
  | nil => exact ⟨mem, rfl, by simp, fun i _ => rfl⟩
  | cons q l ih =>
    obtain ⟨q1, q2⟩ := q
    have hq : q1 < vdim ∧ q2 < vdim := hl (q1, q2) (by simp)
    obtain ⟨mem', e, w, o⟩ := ih (fun q hq => hl q (by simp [hq])) (fun q hq => hv q (by simp [hq]))
      (writePair vdim mem (q1, q2) (V q1 q2))
    refine ⟨mem', ?_, ?_, ?_⟩
    · simp only [writeBlock, hv (q1, q2) (by simp), Out.ok_bind, e]
    · intro a c ha hc
      rw [w a c ha hc]
      by_cases h1 : (a, c) ∈ l ∨ (c, a) ∈ l
      · rw [if_pos h1, if_pos (by rcases h1 with h | h <;> simp [h])]
      · rw [if_neg h1]
        push Not at h1
        simp only [List.mem_cons, Prod.mk.injEq, h1.1, h1.2, or_false, writePair]
        by_cases h2 : (a = q1 ∧ c = q2) ∨ (c = q1 ∧ a = q2)
        · rw [if_pos h2, if_pos]
          · rcases h2 with ⟨rfl, rfl⟩ | ⟨rfl, rfl⟩
            · rfl
            · rw [hV]
          · rcases h2 with ⟨rfl, rfl⟩ | ⟨rfl, rfl⟩
            · exact .inr rfl
            · exact .inl rfl
        · rw [if_neg h2, if_neg]
          rintro (h | h)
          · exact h2 (.inr (index_inj hc hq.1 h).symm)
          · exact h2 (.inl (index_inj hc hq.2 h))
    · intro i hi
      rw [o i hi, writePair]
      have a1 := index_lt (n := vdim) hq.2 hq.1
      have a2 := index_lt (n := vdim) hq.1 hq.2
      rw [if_neg (by simp only; omega)]

theorem mem_upperPairs {vdim a c : Nat} : (a, c) ∈ upperPairs vdim ↔ a ≤ c ∧ c < vdim := by
  simp only [upperPairs, List.mem_flatMap, List.mem_range, List.mem_map, List.mem_range', Prod.mk.injEq]
  constructor
  · rintro ⟨rr, h1, cc, ⟨i, hi, rfl⟩, rfl, rfl⟩
    omega
  · rintro ⟨h1, h2⟩
    exact ⟨a, by omega, c, ⟨c - a, by omega, by omega⟩, rfl, rfl⟩

theorem mem_allPairs {rows cols : Nat} {q : Nat × Nat} : q ∈ allPairs rows cols ↔ q.1 < rows ∧ q.2 < cols := by
  obtain ⟨a, c⟩ := q
  simp only [allPairs, List.mem_flatMap, List.mem_range, List.mem_map, Prod.mk.injEq]
  constructor
  · rintro ⟨i, hi, j, hj, rfl, rfl⟩; exact ⟨hi, hj⟩
  · rintro ⟨h1, h2⟩; exact ⟨a, h1, c, h2, rfl, rfl⟩

theorem collect_get {α β : Type} {f : α → Out β} {P : α → β → Prop} {l : List α} (h : ∀ a ∈ l, ∃ b, f a = .ok b ∧ P a b) :
    ∃ bs, collect f l = .ok bs ∧ bs.length = l.length ∧
      ∀ (i : Nat) (a : α), l[i]? = some a → ∃ b, bs[i]? = some b ∧ P a b := by
  induction l with
  | nil => exact ⟨[], rfl, rfl, fun i a hi => by simp at hi⟩
  | cons a l ih =>
    obtain ⟨b, e, hb⟩ := h a (by simp)
    obtain ⟨bs, e2, l2, h2⟩ := ih fun a ha => h a (by simp [ha])
    refine ⟨b :: bs, by simp only [collect, e, e2, Out.ok_bind, Out.pure_eq], by simp [l2], ?_⟩
    intro i a' hi
    cases i with
    | zero => simp only [List.getElem?_cons_zero, Option.some.injEq] at hi ⊢; exact ⟨b, rfl, hi ▸ hb⟩
    | succ i => simp only [List.getElem?_cons_succ] at hi ⊢; exact h2 i a' hi

/-- **C115**: from the Cholesky factor of a matrix, the function that delivers the diagonal blocks writes into each
block, at every place of it and nowhere else, the entries of the inverse of the matrix. -/
theorem C115_blocks_partial (A : Nat → Nat → K) (h : Lower n Lp Li Lx) (pinv : Option (List Nat)) (hp : Permutes n pinv)
    (hA : Factors n A Lp Li Lx pinv) (hn : n * n ≤ 2147483648) (bi : List Nat) (hb : Mono bi) (ht : total bi ≤ n) :
    ∃ Z, IsInverse n A Z ∧ ∃ mems,
      (setCholeskyFactor n Lp Li Lx pinv >>= fun F => computeCovariance F bi) = .ok mems ∧
      mems.length = bi.length ∧
      ∀ k, k < bi.length → ∃ mem, mems[k]? = some mem ∧
        (∀ i j, i < size bi k → j < size bi k →
          mem (i * size bi k + j) = some (Z (base bi k + i) (base bi k + j))) ∧
        ∀ p, size bi k * size bi k ≤ p → mem p = none := by
  obtain ⟨Z, hZ, hI, hrec⟩ := inverse_exists h
  refine ⟨_, inverse_place hp hI hA, ?_⟩
  have hin : ∀ k i, k < bi.length → i < size bi k → base bi k + i < n := fun k i hk hi =>
    lt_of_lt_of_le (base_add_lt hb hk hi) ht
  obtain ⟨m, em, hs⟩ := fill_ok h hp hn hZ hrec ((List.range bi.length).flatMap fun i =>
    (upperPairs (size bi i)).map fun q => (base bi i + q.1, base bi i + q.2)) (by
      intro q hq
      obtain ⟨k, hk, hq⟩ := List.mem_flatMap.1 hq
      obtain ⟨⟨a, c⟩, hac, rfl⟩ := List.mem_map.1 hq
      have hk := List.mem_range.1 hk
      have := mem_upperPairs.1 hac
      exact ⟨hin k a hk (by omega), hin k c hk (by omega)⟩)
  obtain ⟨mems, e, hl, hg⟩ := collect_get (l := List.range bi.length)
    (f := fun i => writeBlock (factorOf n Lp Li Lx pinv) m (base bi i) (size bi i) (upperPairs (size bi i))
      fun _ => none)
    (P := fun k mem => (∀ i j, i < size bi k → j < size bi k →
          mem (i * size bi k + j) = some (Z (place pinv (base bi k + i)) (place pinv (base bi k + j)))) ∧
        ∀ p, size bi k * size bi k ≤ p → mem p = none) (by
      intro k hk
      have hk := List.mem_range.1 hk
      obtain ⟨mem, e, w, o⟩ := write_ok (F := factorOf n Lp Li Lx pinv) (m := m) (b := base bi k)
        (vdim := size bi k) (V := fun i j => Z (place pinv (base bi k + i)) (place pinv (base bi k + j)))
        (fun a c => hZ _ _) (upperPairs (size bi k))
        (fun q hq => by
          have := mem_upperPairs.1 (show (q.1, q.2) ∈ _ from hq)
          omega)
        (fun q hq => by
          have := mem_upperPairs.1 (show (q.1, q.2) ∈ _ from hq)
          exact lookup_ok hp hn hs (List.mem_flatMap.2 ⟨k, List.mem_range.2 hk, List.mem_map.2 ⟨q, hq, rfl⟩⟩)
            (hin k q.1 hk (by omega)) (hin k q.2 hk (by omega))) fun _ => none
      refine ⟨mem, e, ?_, fun p hp => o p hp⟩
      intro i j hi hj
      rw [w i j hi hj, if_pos]
      rcases le_total i j with hij | hij
      · exact .inl (mem_upperPairs.2 ⟨hij, hj⟩)
      · exact .inr (mem_upperPairs.2 ⟨hij, hi⟩))
  refine ⟨mems, ?_, by rw [hl, List.length_range], ?_⟩
  · rw [set_ok h]
    simp only [Out.ok_bind, computeCovariance, em, e]
  · intro k hk
    exact hg k k (List.getElem?_range hk)

theorem allPairs_get {rows cols i j : Nat} (hi : i < rows) (hj : j < cols) :
    (allPairs rows cols)[i * cols + j]? = some (i, j) := by
  induction rows generalizing i with
  | zero => omega
  | succ rows ih =>
    have hlen : ∀ r, (allPairs r cols).length = r * cols := by
      intro r
      simp [allPairs, List.length_flatMap]
    have hsplit : allPairs (rows + 1) cols = allPairs rows cols ++ (List.range cols).map fun j => (rows, j) := by
      simp [allPairs, List.range_succ]
    rw [hsplit]
    by_cases hir : i < rows
    · rw [List.getElem?_append_left (by
        rw [hlen]
        have : (i + 1) * cols ≤ rows * cols := Nat.mul_le_mul_right cols hir
        rw [Nat.add_mul, one_mul] at this
        omega)]
      exact ih hir
    · obtain rfl : i = rows := by omega
      rw [List.getElem?_append_right (by rw [hlen]; omega), hlen, Nat.add_sub_cancel_left]
      simp [hj]

theorem setBlocks_ok {F : Factor K} {m : LookupMap K} {rbi : List Nat} {V : Nat → Nat → K}
    (blocks : List (Nat × Nat)) (hb : ∀ b ∈ blocks, b.1 < rbi.length ∧ b.2 < rbi.length)
    (hv : ∀ b ∈ blocks, ∀ q ∈ blockPlaces rbi b, lookup F m q = .ok (V q.1 q.2)) (S : SBM K) (hS : WF S)
    (h1 : S.rbi = rbi) (h2 : S.cbi = rbi) :
    ∃ S', setBlocks F m rbi blocks S = .ok S' ∧ WF S' ∧ S'.rbi = rbi ∧ S'.cbi = rbi ∧
      ∀ a c, ((a, c) ∉ blocks → S'.blk a c = S.blk a c) ∧
        ((a, c) ∈ blocks → ∃ J, S'.blk a c = some J ∧ J.rows = size rbi a ∧ J.cols = size rbi c ∧
          ∀ i j, i < size rbi a → j < size rbi c → J.get i j = V (base rbi a + i) (base rbi c + j)) := by
  induction blocks generalizing S with
  | nil => exact ⟨S, rfl, hS, h1, h2, fun a c => ⟨fun _ => rfl, fun h => by simp at h⟩⟩
  | cons b bs ih =>
    have hb0 := hb b (by simp)
    have hc : collect (lookup F m) (blockPlaces rbi b) = .ok ((blockPlaces rbi b).map fun q => V q.1 q.2) :=
      collect_ok fun q hq => hv b (by simp) q hq
    obtain ⟨vs, hvs⟩ : ∃ vs, vs = (blockPlaces rbi b).map fun q => V q.1 q.2 := ⟨_, rfl⟩
    obtain ⟨S1, hS1⟩ : ∃ S1, S1 = S.modBlk b.1 b.2 fun J =>
      { J with get := fun i j => vs.getD (i * size rbi b.2 + j) 0 } := ⟨_, rfl⟩
    have hw1 : WF S1 := by
      rw [hS1]
      exact hS.modBlk (by rw [h1]; exact hb0.1) _ fun J hr hc => ⟨hr, hc⟩
    obtain ⟨S', e, w, r1, r2, hblk⟩ := ih (fun b hb' => hb b (by simp [hb'])) (fun b hb' => hv b (by simp [hb'])) S1 hw1
      (by rw [hS1]; exact h1) (by rw [hS1]; exact h2)
    refine ⟨S', ?_, w, r1, r2, ?_⟩
    · simp only [setBlocks, setBlock, hc, ← hvs, Out.ok_bind, Out.pure_eq, ← hS1, e]
    · intro a c
      have hb1 := blk_modBlk hS (r := b.1) (c := b.2) (by rw [h2]; exact hb0.2)
        (fun J => { J with get := fun i j => vs.getD (i * size rbi b.2 + j) 0 }) a c
      rw [← hS1, h1, h2] at hb1
      constructor
      · intro hn
        simp only [List.mem_cons, not_or] at hn
        rw [(hblk a c).1 hn.2, hb1, if_neg]
        rintro ⟨rfl, rfl⟩
        exact hn.1 rfl
      · intro hm
        by_cases hbs : (a, c) ∈ bs
        · exact (hblk a c).2 hbs
        · have hac : (a, c) = b := by
            rcases List.mem_cons.1 hm with h | h
            · exact h
            · exact absurd h hbs
          subst hac
          rw [(hblk a c).1 hbs, hb1, if_pos ⟨rfl, rfl⟩]
          have hfit : ((S.blk a c).getD (Mat.zero (size rbi a) (size rbi c))).rows = size rbi a ∧
              ((S.blk a c).getD (Mat.zero (size rbi a) (size rbi c))).cols = size rbi c := by
            cases hSb : S.blk a c with
            | none => exact ⟨rfl, rfl⟩
            | some J =>
              have := hS.blk_fits hSb
              rw [h1, h2] at this
              exact ⟨this.2.2.1, this.2.2.2⟩
          refine ⟨_, rfl, hfit.1, hfit.2, ?_⟩
          intro i j hi hj
          show vs.getD (i * size rbi c + j) 0 = _
          rw [hvs, List.getD_eq_getElem?_getD, List.getElem?_map, blockPlaces, List.getElem?_map,
            allPairs_get hi hj]
          rfl

/-- **C115**: from the Cholesky factor of a matrix, the function that delivers a sparse block matrix delivers exactly the
blocks asked for, and they hold the entries of the inverse of the matrix. -/
theorem C115_sparse_partial (A : Nat → Nat → K) (h : Lower n Lp Li Lx) (pinv : Option (List Nat)) (hp : Permutes n pinv)
    (hA : Factors n A Lp Li Lx pinv) (hn : n * n ≤ 2147483648) (rbi : List Nat) (hb : Mono rbi) (ht : total rbi ≤ n)
    (blocks : List (Nat × Nat)) (hblocks : ∀ b ∈ blocks, b.1 < rbi.length ∧ b.2 < rbi.length) :
    ∃ Z, IsInverse n A Z ∧ ∃ S,
      (setCholeskyFactor n Lp Li Lx pinv >>= fun F => computeCovarianceSparse F rbi blocks) = .ok S ∧
      S.rbi = rbi ∧ S.cbi = rbi ∧ (∀ a c, (a, c) ∉ blocks → S.blk a c = none) ∧
      ∀ a c, (a, c) ∈ blocks → ∃ J, S.blk a c = some J ∧ J.rows = size rbi a ∧ J.cols = size rbi c ∧
        ∀ i j, i < size rbi a → j < size rbi c → J.get i j = Z (base rbi a + i) (base rbi c + j) := by
  obtain ⟨Z, hZ, hI, hrec⟩ := inverse_exists h
  refine ⟨_, inverse_place hp hI hA, ?_⟩
  have hin : ∀ k i, k < rbi.length → i < size rbi k → base rbi k + i < n := fun k i hk hi =>
    lt_of_lt_of_le (base_add_lt hb hk hi) ht
  have hpl : ∀ b ∈ blocks, ∀ q ∈ blockPlaces rbi b, q.1 < n ∧ q.2 < n := by
    intro b hb q hq
    obtain ⟨p, hp, rfl⟩ := List.mem_map.1 hq
    have := mem_allPairs.1 hp
    exact ⟨hin _ _ (hblocks b hb).1 this.1, hin _ _ (hblocks b hb).2 this.2⟩
  obtain ⟨m, em, hs⟩ := fill_ok h hp hn hZ hrec (blocks.flatMap (blockPlaces rbi)) (by
      intro q hq
      obtain ⟨b, hb, hq⟩ := List.mem_flatMap.1 hq
      exact hpl b hb q hq)
  obtain ⟨S0, hS0⟩ : ∃ S0, S0 = blocks.foldl (fun S b => S.modBlk b.1 b.2 id) (SBM.new (K := K) rbi rbi) := ⟨_, rfl⟩
  have hw := fold_wf blocks id (fun _ => id) (SBM.new (K := K) rbi rbi) (new_wf hb hb)
    (fun b hb => ⟨(hblocks b hb).1, fun J h1 h2 => ⟨h1, h2⟩⟩)
  have hnone : ∀ (bs : List (Nat × Nat)) (S : SBM K), WF S → S.rbi = rbi → S.cbi = rbi →
      (∀ b ∈ bs, b.1 < rbi.length ∧ b.2 < rbi.length) →
      ∀ a c, (a, c) ∉ bs → (bs.foldl (fun S b => S.modBlk b.1 b.2 id) S).blk a c = S.blk a c := by
    intro bs
    induction bs with
    | nil => intro S _ _ _ _ a c _; rfl
    | cons b bs ih =>
      intro S hS h1 h2 hbs a c hac
      simp only [List.mem_cons, not_or] at hac
      rw [List.foldl_cons, ih (S.modBlk b.1 b.2 id)
        (hS.modBlk (by rw [h1]; exact (hbs b (by simp)).1) _ fun J h1 h2 => ⟨h1, h2⟩) h1 h2
        (fun b hb => hbs b (by simp [hb])) a c hac.2,
        blk_modBlk hS (by rw [h2]; exact (hbs b (by simp)).2), if_neg]
      rintro ⟨rfl, rfl⟩
      exact hac.1 rfl
  have hw0 : WF S0 ∧ S0.rbi = rbi ∧ S0.cbi = rbi := by rw [hS0]; exact hw
  obtain ⟨S, e, w, r1, r2, hblk⟩ := setBlocks_ok (F := factorOf n Lp Li Lx pinv) (m := m) (rbi := rbi)
    (V := fun i j => Z (place pinv i) (place pinv j)) blocks hblocks (fun b hb q hq =>
      lookup_ok hp hn hs (List.mem_flatMap.2 ⟨b, hb, hq⟩) (hpl b hb q hq).1 (hpl b hb q hq).2) S0 hw0.1 hw0.2.1 hw0.2.2
  refine ⟨S, ?_, r1, r2, ?_, fun a c hac => (hblk a c).2 hac⟩
  · rw [set_ok h]
    simp only [Out.ok_bind, computeCovarianceSparse, if_neg (not_not.2 hblocks), em, ← hS0, e]
  · intro a c hac
    rw [(hblk a c).1 hac, hS0, hnone blocks _ (new_wf hb hb) rfl rfl hblocks a c hac]
    exact new_blk rbi rbi a c

/-- **C115**, refuted without the bound on the size: with 46341 scalar variables or more the index of the last entry of the
inverse does not fit an `int`, whatever the factor. -/
theorem C115_counterexample (F : Factor K) (hn : 46341 ≤ F.n) (hp : F.perm = none) :
    computeCovarianceSparse F [F.n - 1, F.n] [(1, 1)] = .ub := by
  have h1 : blockPlaces [F.n - 1, F.n] (1, 1) = [(F.n - 1, F.n - 1)] := by
    have hs : size [F.n - 1, F.n] 1 = 1 := by simp [size]; omega
    simp only [blockPlaces, hs]
    simp [allPairs, base]
  have h2 : computeIndex F.n (F.n - 1) (F.n - 1) = .ub := by
    rw [computeIndex, if_neg]
    rw [intMax]
    obtain ⟨k, hk⟩ : ∃ k, F.n = k + 46341 := ⟨F.n - 46341, by omega⟩
    rw [hk, show k + 46341 - 1 = k + 46340 by omega]
    nlinarith
  have h3 : elemOf F (F.n - 1, F.n - 1) = .ok (F.n - 1, F.n - 1) := by
    simp [elemOf, applyPerm, hp]
  simp only [computeCovarianceSparse, List.length_cons, List.length_nil, List.flatMap_cons, List.flatMap_nil,
    List.append_nil, h1, fillMap, collect, h3, Out.ok_bind, Out.pure_eq]
  simp only [List.insertionSort_cons, List.insertionSort_nil, List.orderedInsert_nil, computeAll, computeEntry, h2, Out.ub_bind, lt_irrefl, if_false]
  simp

end Kalibr.Cov
