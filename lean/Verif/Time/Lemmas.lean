import Verif.Time.Model

namespace Kalibr.AslamTime

theorem carryGe_spec (sec nsec : Int) :
    (carryGe sec nsec).1 * 1000000000 + (carryGe sec nsec).2 = sec * 1000000000 + nsec ∧
    (carryGe sec nsec).2 < 1000000000 ∧ (0 ≤ nsec → 0 ≤ (carryGe sec nsec).2) ∧
    (nsec < 1000000000 → carryGe sec nsec = (sec, nsec)) := by
  fun_induction carryGe sec nsec with
  | case1 s n h ih =>
    refine ⟨by omega, ih.2.1, fun _ => ih.2.2.1 (by omega), fun h' => by omega⟩
  | case2 s n h => exact ⟨rfl, by simp; omega, by simp, by simp⟩

theorem carryGt_spec (sec nsec : Int) :
    (carryGt sec nsec).1 * 1000000000 + (carryGt sec nsec).2 = sec * 1000000000 + nsec ∧
    (carryGt sec nsec).2 ≤ 1000000000 ∧ (0 < nsec → 0 < (carryGt sec nsec).2) ∧
    (nsec ≤ 1000000000 → carryGt sec nsec = (sec, nsec)) := by
  fun_induction carryGt sec nsec with
  | case1 s n h ih =>
    refine ⟨by omega, ih.2.1, fun _ => ih.2.2.1 (by omega), fun h' => by omega⟩
  | case2 s n h => exact ⟨rfl, by simp; omega, by simp, by simp⟩

theorem borrow_spec (sec nsec : Int) :
    (borrow sec nsec).1 * 1000000000 + (borrow sec nsec).2 = sec * 1000000000 + nsec ∧
    0 ≤ (borrow sec nsec).2 ∧ (nsec < 0 → (borrow sec nsec).2 < 1000000000) ∧
    (0 ≤ nsec → borrow sec nsec = (sec, nsec)) := by
  fun_induction borrow sec nsec with
  | case1 s n h ih =>
    refine ⟨by omega, ih.2.1, fun _ => ?_, fun h' => by omega⟩
    by_cases h2 : n + 1000000000 < 0
    · exact ih.2.2.1 h2
    · have := ih.2.2.2 (by omega)
      rw [this]; simp; omega
  | case2 s n h => exact ⟨rfl, by simp; omega, fun h' => absurd h' h, by simp⟩

/-- The unsigned normalisation is division with remainder, plus the range test. -/
theorem normUnsigned_eq (sec nsec : Int) :
    normUnsigned sec nsec =
      if (sec * 1000000000 + nsec) / 1000000000 < 0 ∨
         (sec * 1000000000 + nsec) / 1000000000 > 2147483647 then .raise
      else .ok ((sec * 1000000000 + nsec) / 1000000000, (sec * 1000000000 + nsec) % 1000000000) := by
  unfold normUnsigned
  simp only
  obtain ⟨a1, a2, a3, _⟩ := carryGe_spec sec nsec
  obtain ⟨b1, b2, b3, b4⟩ := borrow_spec (carryGe sec nsec).1 (carryGe sec nsec).2
  have hlt : (borrow (carryGe sec nsec).1 (carryGe sec nsec).2).2 < 1000000000 := by
    by_cases h : (carryGe sec nsec).2 < 0
    · exact b3 h
    · rw [b4 (by omega)]; exact a2
  have e1 : (borrow (carryGe sec nsec).1 (carryGe sec nsec).2).1 =
      (sec * 1000000000 + nsec) / 1000000000 := by omega
  have e2 : (borrow (carryGe sec nsec).1 (carryGe sec nsec).2).2 =
      (sec * 1000000000 + nsec) % 1000000000 := by omega
  rw [e1]
  split
  · rfl
  · congr 1
    exact Prod.ext e1 e2

/-- The signed normalisation: exact total; the remainder is proper unless the input nanoseconds
are a positive multiple of a second. -/
theorem normSigned_eq (sec nsec : Int) :
    normSigned sec nsec =
      let bad : Int := if 0 < nsec ∧ nsec % 1000000000 = 0 then 1 else 0
      let s := (sec * 1000000000 + nsec) / 1000000000 - bad
      if s < -2147483648 ∨ s > 2147483647 then .raise
      else .ok (s, (sec * 1000000000 + nsec) % 1000000000 + bad * 1000000000) := by
  unfold normSigned
  simp only
  obtain ⟨a1, a2, a3, a4⟩ := carryGt_spec sec nsec
  obtain ⟨b1, b2, b3, b4⟩ := borrow_spec (carryGt sec nsec).1 (carryGt sec nsec).2
  generalize hq : borrow (carryGt sec nsec).1 (carryGt sec nsec).2 = q at *
  generalize carryGt sec nsec = p at *
  have key : q.2 = (sec * 1000000000 + nsec) % 1000000000 +
      (if 0 < nsec ∧ nsec % 1000000000 = 0 then 1 else 0) * 1000000000 := by
    by_cases hn : 0 < nsec
    · have hp := a3 hn
      have : q = p := by rw [b4 (by omega)]
      subst this
      split <;> omega
    · have hp : p = (sec, nsec) := a4 (by omega)
      subst hp
      simp only at *
      by_cases h0 : nsec < 0
      · have := b3 h0
        split <;> omega
      · have := b4 (by omega)
        subst this
        split <;> omega
  have key1 : q.1 = (sec * 1000000000 + nsec) / 1000000000 -
      (if 0 < nsec ∧ nsec % 1000000000 = 0 then 1 else 0) := by
    split at key <;> rename_i hc <;> simp only [hc, if_false] <;> simp <;> omega
  rw [← key1, ← key]

theorem toU32_id {x : Int} (h : FitsU32 x) : toU32 x = x := by
  unfold toU32; unfold FitsU32 at h; omega

theorem toI32_id {x : Int} (h : FitsI32 x) : toI32 x = x := by
  unfold toI32; unfold FitsI32 at h; omega

theorem i32_ok {x : Int} (h : FitsI32 x) : i32 x = .ok x := by simp [i32, h]

end Kalibr.AslamTime
