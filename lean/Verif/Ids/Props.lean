import Verif.Ids.Model
import Verif.Tactics

/-!
# C192: identifiers
-/

namespace Kalibr.Ids

theorem toU64_neg : toU64 (-1) = top - 1 := by decide

theorem toU64_lt (x : ℤ) : toU64 x < top := by
  unfold toU64 top
  omega

theorem give_spec (s n : ℕ) (hn : s + n < top) :
    give ⟨s⟩ n = ((List.range n).map fun k => ⟨s + k⟩, ⟨s + n⟩) := by
  induction n with
  | zero => rfl
  | succ n ih =>
    rw [give, ih (by omega)]
    simp only [Ident.post, inc, List.range_succ, List.map_append, List.map_cons, List.map_nil]
    rw [if_neg (by omega)]
    rfl

/-- A counter that starts at zero gives different identifiers that are set, one after the other, as long as there are at most
`2^64 - 1` of them; the next one is not set. -/
theorem C192_counter :
    (∀ n < top, (give (Ident.of 0) n).1.length = n ∧ (give (Ident.of 0) n).1.Nodup ∧ (give (Ident.of 0) n).1.Pairwise (·.lt · = true) ∧
      ∀ a ∈ (give (Ident.of 0) n).1, a.isSet = true ∧ a ≠ Ident.new) ∧
    (give (Ident.of 0) (top - 1)).2.isSet = false ∧ (give (Ident.of 0) (top - 1)).2.pre = Ident.of 0 := by
  have h0 : Ident.of 0 = ⟨0⟩ := rfl
  refine ⟨fun n hn => ?_, ?_, ?_⟩
  · rw [h0, give_spec 0 n (by omega)]
    refine ⟨by simp, ?_, ?_, ?_⟩
    · exact List.nodup_range.map (by intro a b h; simpa using h)
    · rw [List.pairwise_map]
      exact List.pairwise_lt_range.imp fun h => by simpa [Ident.lt] using h
    · intro a ha
      simp only [List.mem_map, List.mem_range] at ha
      obtain ⟨k, hk, rfl⟩ := ha
      have hne : 0 + k ≠ toU64 (-1) := by rw [toU64_neg]; unfold top at *; omega
      refine ⟨by simpa [Ident.isSet] using hne, fun h => hne ?_⟩
      simpa [Ident.new] using h
  · rw [h0, give_spec 0 (top - 1) (by unfold top; omega)]
    simp [Ident.isSet, toU64_neg]
  · rw [h0, give_spec 0 (top - 1) (by unfold top; omega)]
    simp [Ident.pre, inc, top]

/-- The six comparisons are those of a linear order in which an identifier that is not set comes last; one that is made by the
default constructor or cleared is not set, and every other number is. -/
theorem C192_order (a b c : Ident) (ha : a.Valid) (hb : b.Valid) :
    (a.eq b = true ↔ a = b) ∧ a.ne b = !a.eq b ∧ a.gt b = b.lt a ∧ a.le b = !b.lt a ∧ a.ge b = !a.lt b ∧
    (a.lt b = true → b.lt c = true → a.lt c = true) ∧ a.lt a = false ∧ (a.lt b = true ∨ a = b ∨ b.lt a = true) ∧
    (a.isSet = true ↔ a ≠ Ident.new) ∧ a.clear = Ident.new ∧ (a.isSet = true → a.lt Ident.new = true) ∧ a.le Ident.new = true := by
  obtain ⟨a⟩ := a
  obtain ⟨b⟩ := b
  obtain ⟨c⟩ := c
  unfold Ident.Valid at ha hb
  simp only at ha hb
  simp only [Ident.eq, Ident.ne, Ident.gt, Ident.lt, Ident.le, Ident.ge, Ident.isSet, Ident.new, Ident.clear, toU64_neg, Ident.mk.injEq, beq_iff_eq,
    decide_eq_true_eq, bne_iff_ne, ne_eq, decide_eq_false_iff_not, true_and]
  refine ⟨⟨Eq.symm, Eq.symm⟩, rfl, ?_, ?_, fun h k => h.trans k, by omega, by omega, ?_⟩
  · rw [Bool.eq_iff_iff]; simp
  · rw [Bool.eq_iff_iff]; simp
  · exact ⟨fun h => by omega, by omega⟩

/-- The postincrement gives the value before, the preincrement the one after; both leave the same object.  From an identifier
that is not set they reach zero. -/
theorem C192_increment (a : Ident) (ha : a.Valid) :
    a.post.1 = a ∧ a.post.2 = a.pre ∧ a.pre.Valid ∧ (a.isSet = true → a.pre.id = a.id + 1) ∧ Ident.new.pre = Ident.of 0 ∧
    (∀ x : ℤ, (Ident.of x).Valid ∧ (0 ≤ x → x < top → ((Ident.of x).id : ℤ) = x)) := by
  refine ⟨rfl, rfl, ?_, fun h => ?_, by decide, fun x => ⟨toU64_lt x, fun h1 h2 => ?_⟩⟩
  · unfold Ident.Valid Ident.pre inc at *
    simp only
    split_ifs with h
    · decide
    · omega
  · simp only [Ident.isSet, toU64_neg, bne_iff_ne, ne_eq] at h
    simp only [Ident.pre, inc]
    rw [if_neg (by unfold top at *; omega)]
  · unfold Ident.of toU64
    simp only
    rw [Int.emod_eq_of_lt h1 h2]
    omega

example : (Ident.of 7).Valid ∧ (Ident.of 7).isSet = true ∧ (3 : ℕ) < top := ⟨show toU64 7 < top from toU64_lt 7, by decide, by decide⟩

end Kalibr.Ids
