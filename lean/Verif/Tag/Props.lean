import Verif.Tag.Lemmas

namespace Kalibr.Tag

/-- The distance of the observation, turned `rot` times, to code number `id`. -/
def dist (f : Family) (rCode id rot : Nat) : Nat :=
  diff (turns f.dimension rot (pattern rCode)) (pattern (f.codes.getD id 0))

theorem decode_eq (f : Family) (rCode : Nat) (hd : f.dimension * f.dimension ≤ 64)
    (hr : rCode < 2 ^ 64) (hc : ∀ c ∈ f.codes, c < 2 ^ 64) :
    ∃ rCodes : List Nat, decode f rCode =
        (let b := (scan f.codes).foldl (consider rCodes) ⟨intMax, 0, -1, 0⟩
         .ok { id := b.id, hammingDistance := b.hamming, rotation := b.rotation,
               good := decide ((b.hamming : Int) ≤ f.errorRecoveryBits), obsCode := rCode, code := b.code }) ∧
      ∀ e ∈ scan f.codes, hammingDistance (rCodes.getD e.1.2 0) e.2 = dist f rCode e.1.1 e.1.2 := by
  obtain ⟨r1, h1, l1, p1⟩ := rotate90_eq rCode f.dimension hd
  obtain ⟨r2, h2, l2, p2⟩ := rotate90_eq r1 f.dimension hd
  obtain ⟨r3, h3, l3, p3⟩ := rotate90_eq r2 f.dimension hd
  have hp : (2 : Nat) ^ (f.dimension * f.dimension) ≤ 2 ^ 64 := Nat.pow_le_pow_right (by norm_num) hd
  refine ⟨[rCode, r1, r2, r3], ?_, ?_⟩
  · simp only [decode, h1, h2, h3, Out.ok_bind, Out.pure_eq]
  · intro e he
    obtain ⟨e1, e2, e3⟩ := mem_scan.1 he
    have hcode : e.2 < 2 ^ 64 := by
      rw [e3, List.getD_eq_getElem _ _ e1]; exact hc _ (List.getElem_mem e1)
    unfold dist
    rw [← e3]
    obtain ⟨⟨id, rot⟩, c⟩ := e
    simp only at e2 hcode ⊢
    have : rot = 0 ∨ rot = 1 ∨ rot = 2 ∨ rot = 3 := by omega
    rcases this with rfl | rfl | rfl | rfl
    · exact hammingDistance_eq _ _ hr hcode
    · show hammingDistance r1 c = diff (turn f.dimension (pattern rCode)) _
      rw [← p1]; exact hammingDistance_eq _ _ (by omega) hcode
    · show hammingDistance r2 c = diff (turn f.dimension (turn f.dimension (pattern rCode))) _
      rw [← p1, ← p2]; exact hammingDistance_eq _ _ (by omega) hcode
    · show hammingDistance r3 c =
        diff (turn f.dimension (turn f.dimension (turn f.dimension (pattern rCode)))) _
      rw [← p1, ← p2, ← p3]; exact hammingDistance_eq _ _ (by omega) hcode

theorem diff_le (g h : Nat → Bool) : diff g h ≤ 64 := by
  unfold diff
  exact le_trans (Finset.card_filter_le _ _) (by simp)

/-- **C14.** For every family with at least one code whose grid fits a word, and every observed word,
`decode` reports a code and a number of quarter turns of smallest distance, the first such pair in the
order (id, rotation), its distance, the code word, and `good` iff the distance is at most
`errorRecoveryBits`. -/
theorem C14_nearest (f : Family) (rCode : Nat) (hd : f.dimension * f.dimension ≤ 64)
    (hr : rCode < 2 ^ 64) (hc : ∀ c ∈ f.codes, c < 2 ^ 64) (hne : f.codes ≠ []) :
    ∃ det id rot, decode f rCode = .ok det ∧ id < f.codes.length ∧ rot < 4 ∧
      det.id = id ∧ det.rotation = rot ∧ det.code = f.codes.getD id 0 ∧ det.obsCode = rCode ∧
      det.hammingDistance = dist f rCode id rot ∧
      (∀ id' rot', id' < f.codes.length → rot' < 4 → dist f rCode id rot ≤ dist f rCode id' rot') ∧
      (∀ id' rot', id' < f.codes.length → rot' < 4 → (id' < id ∨ id' = id ∧ rot' < rot) →
        dist f rCode id rot < dist f rCode id' rot') ∧
      (det.good = true ↔ (dist f rCode id rot : Int) ≤ f.errorRecoveryBits) := by
  obtain ⟨rCodes, h1, h2⟩ := decode_eq f rCode hd hr hc
  have hl : 0 < f.codes.length := List.length_pos_iff.2 hne
  rcases foldl_consider rCodes (scan f.codes) ⟨intMax, 0, -1, 0⟩ with
    ⟨_, k2⟩ | ⟨pre, x, post, k1, k2, _, k4, k5⟩
  · exfalso
    have hm : (((0, 0), f.codes.getD 0 0) : (Nat × Nat) × Nat) ∈ scan f.codes :=
      mem_scan.2 ⟨hl, by norm_num, rfl⟩
    have := le_of_le_of_eq (k2 _ hm) (h2 _ hm)
    have h64 := diff_le (turns f.dimension 0 (pattern rCode)) (pattern (f.codes.getD 0 0))
    simp only [intMax, dist] at this
    omega
  · have hx : x ∈ scan f.codes := by rw [k1]; simp
    obtain ⟨x1, x2, x3⟩ := mem_scan.1 hx
    have hsub : ∀ e, e ∈ pre ∨ e ∈ post → e ∈ scan f.codes := by
      rintro e (he | he) <;> rw [k1] <;> simp [he]
    have hs := scan_sorted f.codes
    rw [k1, List.pairwise_append, List.pairwise_cons] at hs
    refine ⟨_, x.1.1, x.1.2, h1, x1, x2, ?_, ?_, ?_, rfl, ?_, ?_, ?_, ?_⟩
    · simp only [k2]
    · simp only [k2]
    · simp only [k2]; exact x3
    · simp only [k2]; exact h2 x hx
    · intro id' rot' h3 h4
      have hm : (((id', rot'), f.codes.getD id' 0) : (Nat × Nat) × Nat) ∈ scan f.codes :=
        mem_scan.2 ⟨h3, h4, rfl⟩
      have hm' := hm
      rw [k1, List.mem_append, List.mem_cons] at hm'
      have e := h2 _ hm
      rw [← h2 x hx]
      rcases hm' with hp | rfl | hp
      · exact (lt_of_lt_of_eq (k4 _ hp) e).le
      · rw [e]
      · exact le_of_le_of_eq (k5 _ hp) e
    · intro id' rot' h3 h4 hlt
      have hm : (((id', rot'), f.codes.getD id' 0) : (Nat × Nat) × Nat) ∈ scan f.codes :=
        mem_scan.2 ⟨h3, h4, rfl⟩
      have hm' := hm
      rw [k1, List.mem_append, List.mem_cons] at hm'
      have e := h2 _ hm
      rw [← h2 x hx]
      rcases hm' with hp | rfl | hp
      · exact lt_of_lt_of_eq (k4 _ hp) e
      · simp only at hlt; omega
      · have := hs.2.1.1 _ hp
        simp only at this
        omega
    · rw [decide_eq_true_iff, k2, ← h2 x hx]

/-- A family without codes: no id, and `good` only under an absurd error bound. -/
theorem C14_no_codes (f : Family) (rCode : Nat) (hd : f.dimension * f.dimension ≤ 64)
    (hr : rCode < 2 ^ 64) (hne : f.codes = []) :
    ∃ det, decode f rCode = .ok det ∧ det.id = -1 ∧
      (det.good = true ↔ 2147483647 ≤ f.errorRecoveryBits) := by
  obtain ⟨rCodes, h1, _⟩ := decode_eq f rCode hd hr (by simp [hne])
  refine ⟨_, h1, ?_, ?_⟩
  · simp [hne, scan]
  · simp [hne, scan, intMax]

/-- **C15.** If the code words, in all rotations, are pairwise more than `2e` cells apart (and each
more than `2e` from its own rotations), then an observation that, turned `rot` times, differs from
code `id` in at most `e` cells decodes to that id, that rotation and that distance. -/
theorem C15_corrects (f : Family) (e rCode id rot : Nat) (hd : f.dimension * f.dimension ≤ 64)
    (hr : rCode < 2 ^ (f.dimension * f.dimension))
    (hc : ∀ c ∈ f.codes, c < 2 ^ (f.dimension * f.dimension))
    (hfar : ∀ i j k, i < f.codes.length → j < f.codes.length → k < 4 → (i ≠ j ∨ k ≠ 0) →
      2 * e < diff (turns f.dimension k (pattern (f.codes.getD i 0))) (pattern (f.codes.getD j 0)))
    (hid : id < f.codes.length) (hrot : rot < 4)
    (hobs : diff (turns f.dimension rot (pattern rCode)) (pattern (f.codes.getD id 0)) ≤ e) :
    ∃ det, decode f rCode = .ok det ∧ det.id = id ∧ det.rotation = rot ∧
      det.code = f.codes.getD id 0 ∧
      det.hammingDistance = diff (turns f.dimension rot (pattern rCode)) (pattern (f.codes.getD id 0)) ∧
      ((e : Int) ≤ f.errorRecoveryBits → det.good = true) := by
  have hp : (2 : Nat) ^ (f.dimension * f.dimension) ≤ 2 ^ 64 := Nat.pow_le_pow_right (by norm_num) hd
  have hne : f.codes ≠ [] := by intro h; rw [h] at hid; simp at hid
  obtain ⟨det, id0, rot0, h1, h2, h3, h4, h5, h6, _, h8, h9, _, h11⟩ :=
    C14_nearest f rCode hd (by omega) (fun c hx => lt_of_lt_of_le (hc c hx) hp) hne
  have hle := h9 id rot hid hrot
  have hcode : ∀ i, i < f.codes.length → Inside f.dimension (pattern (f.codes.getD i 0)) := by
    intro i hi
    apply inside_pattern
    rw [List.getD_eq_getElem _ _ hi]; exact hc _ (List.getElem_mem hi)
  have hin := inside_pattern hr
  have key : id0 = id ∧ rot0 = rot := by
    by_contra hcon
    -- turn the observation `rot0` times by turning its `rot`-th rotation `k` more times
    obtain ⟨k, hk4, hk⟩ : ∃ k, k < 4 ∧ (k + rot = rot0 ∨ k + rot = rot0 + 4) := by
      rcases Nat.lt_or_ge rot0 rot with hlt | hge
      · exact ⟨rot0 + 4 - rot, by omega, by omega⟩
      · exact ⟨rot0 - rot, by omega, by omega⟩
    have hturn : turns f.dimension rot0 (pattern rCode)
        = turns f.dimension k (turns f.dimension rot (pattern rCode)) := by
      rw [← turns_add]
      rcases hk with hk | hk
      · rw [hk]
      · rw [hk, turns_add, turns_four hin]
    have hk0 : id ≠ id0 ∨ k ≠ 0 := by
      by_contra hx
      push Not at hx
      obtain ⟨hx1, rfl⟩ := hx
      apply hcon
      exact ⟨hx1.symm, by omega⟩
    have hf := hfar id id0 k hid h2 hk4 hk0
    have ht := diff_triangle (turns f.dimension k (pattern (f.codes.getD id 0)))
      (turns f.dimension rot0 (pattern rCode)) (pattern (f.codes.getD id0 0))
    rw [hturn, diff_turns hd (hcode id hid) (inside_turns hin rot), ← hturn,
      diff_comm (pattern (f.codes.getD id 0))] at ht
    unfold dist at hle
    omega
  obtain ⟨rfl, rfl⟩ := key
  refine ⟨det, h1, h4, h5, h6, h8, fun hb => h11.2 ?_⟩
  unfold dist
  omega

/-- **C16.** `rotate90` returns the word of the pattern turned by a quarter; four calls give the word
back; and it keeps all distances. -/
theorem C16_rotation (d w : Nat) (hd : d * d ≤ 64) (hw : w < 2 ^ (d * d)) :
    ∃ w1 w2 w3, rotate90 w d = .ok w1 ∧ rotate90 w1 d = .ok w2 ∧ rotate90 w2 d = .ok w3 ∧
      rotate90 w3 d = .ok w ∧ w1 < 2 ^ (d * d) ∧
      (∀ row col, row < d → col < d → w1.testBit (d * row + col) = w.testBit (d * (d - 1 - col) + row)) ∧
      ∀ v, v < 2 ^ (d * d) → ∃ v1, rotate90 v d = .ok v1 ∧ hammingDistance w1 v1 = hammingDistance w v := by
  obtain ⟨w1, h1, l1, p1⟩ := rotate90_eq w d hd
  obtain ⟨w2, h2, l2, p2⟩ := rotate90_eq w1 d hd
  obtain ⟨w3, h3, l3, p3⟩ := rotate90_eq w2 d hd
  obtain ⟨w4, h4, l4, p4⟩ := rotate90_eq w3 d hd
  have hp : (2 : Nat) ^ (d * d) ≤ 2 ^ 64 := Nat.pow_le_pow_right (by norm_num) hd
  have e4 : w4 = w := by
    apply Nat.eq_of_testBit_eq
    intro i
    have : pattern w4 = pattern w := by
      rw [p4, p3, p2, p1]; exact turns_four (inside_pattern hw)
    exact congrFun this i
  subst e4
  refine ⟨w1, w2, w3, h1, h2, h3, h4, l1, ?_, ?_⟩
  · intro row col hrow hcol
    have hlt : d * row + col < d * d := by
      have : d * (row + 1) ≤ d * d := Nat.mul_le_mul_left _ hrow
      rw [Nat.mul_succ] at this; omega
    have := congrFun p1 (d * row + col)
    rw [turn_apply _ _ hlt] at this
    unfold pattern src at this
    rw [this, Nat.mul_add_mod, Nat.mod_eq_of_lt hcol, Nat.mul_add_div (by omega), Nat.div_eq_of_lt hcol,
      Nat.add_zero]
  · intro v hv
    obtain ⟨v1, k1, m1, q1⟩ := rotate90_eq v d hd
    refine ⟨v1, k1, ?_⟩
    rw [hammingDistance_eq _ _ (by omega) (by omega), hammingDistance_eq _ _ (by omega) (by omega), p1, q1,
      diff_turn hd (inside_pattern hw) (inside_pattern hv)]

/-- Outside that range the call is undefined. -/
theorem C16_too_large (w d : Nat) (hd : 64 < d * d) : rotate90 w d = .ub := by
  apply rotate90_ub
  by_contra h
  have : d ≤ 8 := by omega
  have := Nat.mul_le_mul this this
  omega

end Kalibr.Tag
