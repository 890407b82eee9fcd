import Verif.UnionFind.Lemmas

/-! # Property C13: union-find merges exactly the connected pixels -/

namespace Kalibr.UnionFind

/-- **C13.**  For every element count and every history of calls on existing elements:
no call has undefined behaviour, and afterwards
* any two elements have the same representative iff they are linked by a chain of connected pairs,
* the reported set size of an element is the number of elements linked to it,
* the representative is itself an existing element, linked to the element. -/
theorem C13_union_find (n : Nat) (ops : List Op) (hops : ∀ op ∈ ops, op.InRange n) :
    ∃ s, run (init n) ops = .ok s ∧
      (∀ a < n, ∀ b < n, ∃ ra sa rb sb, getRep s a = .ok (ra, sa) ∧ getRep s b = .ok (rb, sb) ∧
        (ra = rb ↔ Linked ops a b)) ∧
      (∀ a < n, ∃ s', getSetSize s a = .ok (Set.ncard {b | b < n ∧ Linked ops a b}, s')) ∧
      (∀ a < n, ∃ r s', getRep s a = .ok (r, s') ∧ r < n ∧ Linked ops a r) := by
  obtain ⟨s, rt, h, h1, h2, I⟩ := run_inv n ops hops
  refine ⟨s, h1, ?_, ?_, ?_⟩
  · intro a ha b hb
    obtain ⟨sa, e1, _⟩ := getRep_spec I (x := a) (by omega)
    obtain ⟨sb, e2, _⟩ := getRep_spec I (x := b) (by omega)
    exact ⟨_, _, _, _, e1, e2, I.rel a (by omega) b (by omega)⟩
  · intro a ha
    obtain ⟨sa, e1, _, _, e4, _⟩ := getRep_spec I (x := a) (by omega)
    refine ⟨sa, ?_⟩
    simp only [getSetSize, e1, Out.ok_bind, Out.pure_eq, Out.ok.injEq, Prod.mk.injEq, and_true]
    rw [e4, I.size_eq a (by omega), ← Set.ncard_coe_finset]
    congr 1
    ext b
    simp only [Finset.coe_filter, Finset.mem_range, Set.mem_ofPred_eq, h2]
    constructor
    · rintro ⟨hb, e⟩; exact ⟨hb, (I.rel a (by omega) b (by omega)).1 e.symm⟩
    · rintro ⟨hb, e⟩; exact ⟨hb, ((I.rel a (by omega) b (by omega)).2 e).symm⟩
  · intro a ha
    obtain ⟨sa, e1, _⟩ := getRep_spec I (x := a) (by omega)
    have hlt := I.rt_lt a (by omega)
    refine ⟨_, _, e1, by omega, ?_⟩
    rw [← I.rel a (by omega) _ hlt, I.rt_rt (by omega)]

/-- **C13**, return value of `connectNodes`: it is the representative of both arguments
afterwards. -/
theorem C13_connect_returns_root (n : Nat) (ops : List Op) (hops : ∀ op ∈ ops, op.InRange n)
    (s : UF) (hs : run (init n) ops = .ok s) (a b : Nat) (ha : a < n) (hb : b < n) :
    ∃ r s', connect s a b = .ok (r, s') ∧
      (∃ sa, getRep s' a = .ok (r, sa)) ∧ (∃ sb, getRep s' b = .ok (r, sb)) := by
  obtain ⟨s0, rt, h, h1, h2, I⟩ := run_inv n ops hops
  rw [hs] at h1; cases h1
  obtain ⟨r, s', rt', h', e1, e2, I', e3, e4, _⟩ := connect_spec I (a := a) (b := b) (by omega) (by omega)
  obtain ⟨sa, f1, _⟩ := getRep_spec I' (x := a) (by omega)
  obtain ⟨sb, f2, _⟩ := getRep_spec I' (x := b) (by omega)
  exact ⟨r, s', e1, ⟨sa, by rw [f1, e3]⟩, ⟨sb, by rw [f2, e4]⟩⟩

/-- A non-trivial history: 0-1 and 2-1 are connected, 3 is not; the size reported for 2 is 3. -/
example : (∀ op ∈ [Op.connect 0 1, .setSize 0, .connect 2 1], op.InRange 4) ∧
    (match run (init 4) [Op.connect 0 1, .setSize 0, .connect 2 1] with
      | .ok s => match getSetSize s 2 with
        | .ok p => p.1
        | _ => 0
      | _ => 0) = 3 := by
  refine ⟨by simp [Op.InRange], by decide⟩

end Kalibr.UnionFind
