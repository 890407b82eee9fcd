import Mathlib.Data.List.Count
import Mathlib.Data.List.Nodup
import Verif.Simple.Model
import Verif.Tactics

/-!
# Properties of the simple optimization problem and the adapter
-/

namespace Kalibr.Simple

/-- The object a step hands to an owner. -/
def owner : Op → Option ℕ
  | .addDv p own => if own then some p else none
  | .addEt p own => if own then some p else none
  | .make p => some p
  | _ => none

/-- The objects a program hands to owners. -/
def given (l : List Op) : List ℕ := l.filterMap owner

/-- An object is owned by one of these shared pointers. -/
def Owned (l : List Handle) (p : ℕ) : Prop := ∃ h ∈ l, h.own = true ∧ h.p = p

/-- All shared pointers. -/
def State.all (s : State) : List Handle := s.ets ++ (s.dvs ++ s.user)

/-- The control block of an owner is that of exactly the owners of the same object. -/
def Wf (l : List Handle) : Prop :=
  ∀ g ∈ l, ∀ h ∈ l, h.own = true → (g.ctl = h.ctl ↔ g.own = true ∧ g.p = h.p)

theorem Wf.mono {l l' : List Handle} (h : Wf l) (hs : ∀ x ∈ l', x ∈ l) : Wf l' :=
  fun g hg x hx => h g (hs g hg) x (hs x hx)

theorem release_count {rest : List Handle} {h : Handle} (w : Wf (h :: rest)) (p : ℕ) [Decidable (Owned rest p)] :
    (release rest h).count p = if (h.own = true ∧ h.p = p) ∧ ¬ Owned rest p then 1 else 0 := by
  unfold release
  by_cases ho : h.own = true
  · have key : (∀ g ∈ rest, g.ctl ≠ h.ctl) ↔ ¬ Owned rest h.p := by
      constructor
      · rintro hc ⟨g, hg, h1, h2⟩
        exact hc g hg ((w g (by simp [hg]) h (by simp) ho).2 ⟨h1, h2⟩)
      · intro hn g hg hc
        obtain ⟨h1, h2⟩ := (w g (by simp [hg]) h (by simp) ho).1 hc
        exact hn ⟨g, hg, h1, h2⟩
    by_cases hp : h.p = p
    · subst hp
      by_cases hO : Owned rest h.p
      · rw [if_neg (fun hc => (key.1 hc.2) hO), if_neg (fun hc => hc.2 hO), List.count_nil]
      · rw [if_pos ⟨ho, key.2 hO⟩, if_pos ⟨⟨ho, rfl⟩, hO⟩]
        simp
    · rw [if_neg (c := (h.own = true ∧ h.p = p) ∧ ¬ Owned rest p) (fun hc => hp hc.1.2)]
      split_ifs with hc
      · exact List.count_eq_zero.2 (by simpa using fun h => hp h.symm)
      · simp
  · rw [if_neg (fun hc => ho hc.1), if_neg (fun hc => ho hc.1.1), List.count_nil]

theorem owned_cons (h : Handle) (l : List Handle) (p : ℕ) : Owned (h :: l) p ↔ (h.own = true ∧ h.p = p) ∨ Owned l p := by
  simp [Owned]

theorem owned_append (a b : List Handle) (p : ℕ) : Owned (a ++ b) p ↔ Owned a p ∨ Owned b p := by
  simp only [Owned, List.mem_append]
  constructor
  · rintro ⟨h, h1 | h1, h2⟩
    · exact .inl ⟨h, h1, h2⟩
    · exact .inr ⟨h, h1, h2⟩
  · rintro (⟨h, h1, h2⟩ | ⟨h, h1, h2⟩)
    · exact ⟨h, .inl h1, h2⟩
    · exact ⟨h, .inr h1, h2⟩

open Classical in
theorem drops_count (l rest : List Handle) (w : Wf (l ++ rest)) (p : ℕ) :
    (drops l rest).count p = if Owned l p ∧ ¬ Owned rest p then 1 else 0 := by
  induction l with
  | nil => simp [drops, Owned]
  | cons h t ih =>
    rw [drops, List.count_append, release_count (by simpa using w), ih (w.mono (by simp; tauto))]
    simp only [owned_cons, owned_append]
    by_cases a : h.own = true ∧ h.p = p <;> by_cases b : Owned t p <;> by_cases c : Owned rest p <;> simp [a, b, c]

open Classical in
theorem clear_count (s : State) (w : Wf s.all) (p : ℕ) :
    s.clear.log.count p = s.log.count p + if Owned (s.ets ++ s.dvs) p ∧ ¬ Owned s.user p then 1 else 0 := by
  simp only [State.clear, List.count_append]
  rw [drops_count _ _ w, drops_count _ _ (w.mono (by simp only [State.all, List.mem_append]; tauto))]
  simp only [owned_append]
  by_cases a : Owned s.ets p <;> by_cases b : Owned s.dvs p <;> by_cases c : Owned s.user p <;> simp [a, b, c]

/-- What holds of every state reached by a program that hands each object to at most one owner. -/
structure Inv (G : List ℕ) (s : State) : Prop where
  wf : Wf s.all
  ctl : ∀ h ∈ s.all, h.ctl < s.fresh
  owned : ∀ p, Owned s.all p → p ∈ G ∧ p ∉ s.log
  nodup : s.log.Nodup
  log : ∀ p ∈ s.log, p ∈ G

theorem Inv.weaken {G G' : List ℕ} {s : State} (i : Inv G s) (h : ∀ p ∈ G, p ∈ G') : Inv G' s :=
  ⟨i.wf, i.ctl, fun p hp => ⟨h p (i.owned p hp).1, (i.owned p hp).2⟩, i.nodup, fun p hp => h p (i.log p hp)⟩

/-- A shared pointer with a new control block. -/
theorem Inv.push {G G' : List ℕ} {s s' : State} {p : ℕ} {own : Bool} (i : Inv G s) (hG : ∀ p ∈ G, p ∈ G')
    (hp : own = true → p ∉ G ∧ p ∈ G')
    (hall : ∀ h, h ∈ s'.all ↔ h ∈ s.all ∨ h = ⟨p, s.fresh, own⟩) (hf : s'.fresh = s.fresh + 1) (hl : s'.log = s.log) :
    Inv G' s' := by
  have hno : own = true → ∀ g ∈ s.all, ¬ (g.own = true ∧ g.p = p) := fun ho g hg hc =>
    (hp ho).1 (i.owned p ⟨g, hg, hc⟩).1
  constructor
  · intro g hg h hh ho
    rcases (hall g).1 hg with hg | rfl <;> rcases (hall h).1 hh with hh | rfl
    · exact i.wf g hg h hh ho
    · have := i.ctl g hg
      constructor
      · intro hc; simp only at hc; omega
      · intro hc; exact absurd hc (hno ho g hg)
    · have := i.ctl h hh
      constructor
      · intro hc; simp only at hc; omega
      · rintro ⟨hc1, hc2⟩; exact absurd ⟨ho, hc2.symm⟩ (hno hc1 h hh)
    · exact ⟨fun _ => ⟨ho, rfl⟩, fun _ => rfl⟩
  · intro h hh
    rw [hf]
    rcases (hall h).1 hh with hh | rfl
    · exact Nat.lt_succ_of_lt (i.ctl h hh)
    · exact Nat.lt_succ_self _
  · rintro q ⟨h, hh, ho, rfl⟩
    rw [hl]
    rcases (hall h).1 hh with hh | rfl
    · have := i.owned _ ⟨h, hh, ho, rfl⟩
      exact ⟨hG _ this.1, this.2⟩
    · exact ⟨(hp ho).2, fun hc => (hp ho).1 (i.log _ hc)⟩
  · rw [hl]; exact i.nodup
  · rw [hl]; exact fun q hq => hG q (i.log q hq)

/-- A copy of a shared pointer. -/
theorem Inv.copy {G : List ℕ} {s s' : State} (i : Inv G s) (hall : ∀ h ∈ s'.all, h ∈ s.all)
    (hf : s'.fresh = s.fresh) (hl : s'.log = s.log) : Inv G s' := by
  refine ⟨i.wf.mono hall, fun h hh => hf ▸ i.ctl h (hall h hh), ?_, hl ▸ i.nodup, hl ▸ i.log⟩
  rintro p ⟨h, hh, ho⟩
  rw [hl]
  exact i.owned p ⟨h, hall h hh, ho⟩

/-- The release of shared pointers. -/
theorem Inv.release {G : List ℕ} {s s' : State} (i : Inv G s) (hall : ∀ h ∈ s'.all, h ∈ s.all) (hf : s'.fresh = s.fresh)
    (hl : ∀ p, s'.log.count p ≤ s.log.count p ∨ (s'.log.count p ≤ s.log.count p + 1 ∧ Owned s.all p ∧ ¬ Owned s'.all p)) :
    Inv G s' := by
  have hz : ∀ p, Owned s.all p → s.log.count p = 0 := fun p hp => List.count_eq_zero.2 (i.owned p hp).2
  refine ⟨i.wf.mono hall, fun h hh => hf ▸ i.ctl h (hall h hh), ?_, ?_, ?_⟩
  · rintro p hp
    have hp' : Owned s.all p := by
      obtain ⟨h, hh, ho⟩ := hp
      exact ⟨h, hall h hh, ho⟩
    refine ⟨(i.owned p hp').1, List.count_eq_zero.1 ?_⟩
    have := hz p hp'
    rcases hl p with h | h
    · omega
    · exact absurd hp h.2.2
  · rw [List.nodup_iff_count_le_one]
    intro p
    have h1 := List.nodup_iff_count_le_one.1 i.nodup p
    rcases hl p with h | h
    · omega
    · have := hz p h.2.1
      omega
  · intro p hp
    have hp' := List.count_pos_iff.2 hp
    rcases hl p with h | h
    · exact i.log p (List.count_pos_iff.1 (by omega))
    · exact (i.owned p h.2.1).1

theorem inv_step (G : List ℕ) (s : State) (i : Inv G s) (o : Op) (h : ∀ p, owner o = some p → p ∉ G) :
    Inv (G ++ (owner o).toList) (s.step o) := by
  classical
  have hG : ∀ p ∈ G, p ∈ G ++ (owner o).toList := fun p hp => by simp [hp]
  cases o with
  | addDv p own =>
    simp only [State.step, State.addDv]
    split_ifs
    · exact i.weaken hG
    · refine i.push (p := p) (own := own) hG (fun ho => ?_) ?_ rfl rfl
      · subst ho
        exact ⟨h p rfl, by simp [owner]⟩
      · intro g
        simp only [State.all, List.mem_append, List.mem_singleton]
        tauto
  | addDvShared j =>
    simp only [State.step]
    split_ifs with hj
    · refine (i.copy (s' := (s.addDvShared s.user[j]).1) ?_ ?_ ?_).weaken hG
      · have hm : s.user[j] ∈ s.user := List.getElem_mem hj
        intro g
        simp only [State.addDvShared]
        split_ifs
        · exact id
        · simp only [State.all, List.mem_append, List.mem_singleton]
          rintro (h1 | (h1 | rfl) | h1) <;> tauto
      · simp only [State.addDvShared]; split_ifs <;> rfl
      · simp only [State.addDvShared]; split_ifs <;> rfl
    · exact i.weaken hG
  | addEt p own =>
    refine i.push (p := p) (own := own) hG (fun ho => ?_) ?_ rfl rfl
    · subst ho
      exact ⟨h p rfl, by simp [owner]⟩
    · intro g
      simp only [State.step, State.addEt, State.addEtShared, State.all, List.mem_append, List.mem_singleton]
      tauto
  | addEtShared j =>
    simp only [State.step]
    split_ifs with hj
    · refine (i.copy (s' := s.addEtShared s.user[j]) ?_ rfl rfl).weaken hG
      have hm : s.user[j] ∈ s.user := List.getElem_mem hj
      intro g
      simp only [State.addEtShared, State.all, List.mem_append, List.mem_singleton]
      rintro ((h1 | rfl) | h1 | h1) <;> tauto
    · exact i.weaken hG
  | clear =>
    refine (i.release (s' := s.clear) ?_ rfl ?_).weaken hG
    · intro g
      simp only [State.clear, State.all, List.mem_append, List.not_mem_nil]
      tauto
    · intro p
      rw [clear_count s i.wf]
      split_ifs with hc
      · refine .inr ⟨le_refl _, ?_, ?_⟩
        · rw [State.all, ← List.append_assoc, owned_append]; exact .inl hc.1
        · simpa [State.clear, State.all] using hc.2
      · exact .inl (le_refl _)
  | make p =>
    refine i.push (p := p) (own := true) hG (fun ho => ?_) ?_ rfl rfl
    · exact ⟨h p rfl, by simp [owner]⟩
    · intro g
      simp only [State.step, State.all, List.mem_append, List.mem_singleton]
      tauto
  | drop j =>
    simp only [State.step]
    split_ifs with hj
    · have hm : s.user[j] ∈ s.user := List.getElem_mem hj
      have he : ∀ x ∈ s.user.eraseIdx j, x ∈ s.user := fun x hx => List.mem_of_mem_eraseIdx hx
      refine (i.release (s' := { s with user := s.user.eraseIdx j, log := s.log ++ Simple.release (s.ets ++ s.dvs ++ s.user.eraseIdx j) s.user[j] }) ?_ rfl ?_).weaken hG
      · intro g
        simp only [State.all, List.mem_append]
        rintro (h1 | h1 | h1)
        · tauto
        · tauto
        · exact .inr (.inr (he g h1))
      · intro p
        simp only [List.count_append]
        rw [release_count]
        · split_ifs with hc
          · refine .inr ⟨le_refl _, ⟨_, ?_, hc.1⟩, ?_⟩
            · simp only [State.all, List.mem_append]; tauto
            · simpa [State.all] using hc.2
          · exact .inl (le_refl _)
        · refine i.wf.mono ?_
          intro g
          simp only [State.all, List.mem_append, List.mem_cons]
          rintro (rfl | (h1 | h1) | h1)
          · tauto
          · tauto
          · tauto
          · exact .inr (.inr (he g h1))
    · exact i.weaken hG

theorem inv_run (l : List Op) : ∀ (G : List ℕ) (s : State), Inv G s → (G ++ given l).Nodup → Inv (G ++ given l) (s.run l) := by
  induction l with
  | nil => intro G s i _; simpa [given, State.run] using i
  | cons o l ih =>
    intro G s i hn
    have hg : given (o :: l) = (owner o).toList ++ given l := by
      simp only [given, List.filterMap_cons]
      cases owner o <;> rfl
    rw [hg, ← List.append_assoc] at hn ⊢
    refine ih _ _ (inv_step G s i o ?_) hn
    intro p hp hc
    rw [hp] at hn
    have := (List.nodup_append.1 (List.nodup_append.1 hn).1).2.2 p hc p (by simp)
    exact this rfl

theorem inv_start : Inv [] {} := by
  constructor
  · intro g hg; simp [State.all] at hg
  · intro g hg; simp [State.all] at hg
  · rintro p ⟨g, hg, _⟩; simp [State.all] at hg
  · exact List.nodup_nil
  · intro p hp; simp at hp

/-- **C184**: in a program that hands each object to at most one owner, whatever else it does, no object is deleted twice,
only objects handed to an owner are deleted, and what an owner still holds is not deleted. -/
theorem C184_once_partial (l : List Op) (h : (given l).Nodup) :
    let s := ({} : State).run l
    s.log.Nodup ∧ (∀ p ∈ s.log, p ∈ given l) ∧
      ∀ g, g ∈ s.dvs ∨ g ∈ s.ets ∨ g ∈ s.user → g.own = true → g.p ∉ s.log := by
  have i := inv_run l [] {} inv_start (by simpa using h)
  simp only [List.nil_append] at i
  refine ⟨i.nodup, i.log, fun g hg ho => (i.owned g.p ⟨g, ?_, ho, rfl⟩).2⟩
  simp only [State.all, List.mem_append]
  tauto

open Classical in
/-- **C184**: `clear`, and the destructor, then delete exactly once each object that the problem owns and the caller does
not; all others they leave as they are.  Afterwards the problem is empty. -/
theorem C184_clear (l : List Op) (h : (given l).Nodup) (p : ℕ) :
    let s := ({} : State).run l
    s.clear.log.count p = s.log.count p +
        (if (∃ g ∈ s.ets ++ s.dvs, g.own = true ∧ g.p = p) ∧ ¬ (∃ g ∈ s.user, g.own = true ∧ g.p = p) then 1 else 0) ∧
      s.clear.dvs = [] ∧ s.clear.ets = [] ∧ s.clear.user = s.user := by
  have i := inv_run l [] {} inv_start (by simpa using h)
  refine ⟨?_, rfl, rfl, rfl⟩
  rw [clear_count _ i.wf p]
  simp only [Owned]
  congr

theorem drops_mem (l rest : List Handle) : ∀ p ∈ drops l rest, p ∈ l.map (·.p) := by
  induction l with
  | nil => simp [drops]
  | cons h t ih =>
    intro p hp
    rw [drops, List.mem_append] at hp
    rcases hp with hp | hp
    · unfold release at hp
      split_ifs at hp
      · simp only [List.mem_singleton] at hp
        simp [hp]
      · simp at hp
    · simp [ih p hp]

/-- **C184**: the error terms go before the design variables they refer to. -/
theorem C184_order (s : State) :
    ∃ a b, s.clear.log = s.log ++ a ++ b ∧ (∀ p ∈ a, p ∈ s.ets.map (·.p)) ∧ ∀ p ∈ b, p ∈ s.dvs.map (·.p) :=
  ⟨_, _, rfl, drops_mem _ _, drops_mem _ _⟩

theorem has_iff (s : State) (p : ℕ) : s.has p = true ↔ p ∈ s.dvs.map (·.p) := by
  simp [State.has]

theorem nodup_step (s : State) (o : Op) (h : (s.dvs.map (·.p)).Nodup) : ((s.step o).dvs.map (·.p)).Nodup := by
  cases o with
  | addDv p own =>
    simp only [State.step, State.addDv]
    split_ifs with hc
    · exact h
    · rw [has_iff] at hc
      simp only [List.map_append, List.map_cons, List.map_nil]
      exact List.nodup_append.2 ⟨h, by simp, by rintro a ha b hb rfl; simp at hb; exact hc (hb ▸ ha)⟩
  | addDvShared j =>
    simp only [State.step]
    split_ifs
    · simp only [State.addDvShared]
      split_ifs with hc
      · exact h
      · rw [has_iff] at hc
        simp only [List.map_append, List.map_cons, List.map_nil]
        exact List.nodup_append.2 ⟨h, by simp, by rintro a ha b hb rfl; simp at hb; exact hc (hb ▸ ha)⟩
    · exact h
  | addEt p own => exact h
  | addEtShared j => simp only [State.step]; split_ifs <;> exact h
  | clear => exact List.nodup_nil
  | make p => exact h
  | drop j => simp only [State.step]; split_ifs <;> exact h

/-- **C184**: no design variable is in the problem twice, after any program. -/
theorem C184_distinct (l : List Op) : ((({} : State).run l).dvs.map (·.p)).Nodup := by
  suffices ∀ (l : List Op) (s : State), (s.dvs.map (·.p)).Nodup → ((s.run l).dvs.map (·.p)).Nodup from this l _ List.nodup_nil
  intro l
  induction l with
  | nil => exact fun s h => h
  | cons o l ih => exact fun s h => ih _ (nodup_step s o h)

/-- **C184**: adding raises, and changes nothing, exactly if the design variable is in the problem; otherwise it comes last
and the problem reports it, and no other, in addition. -/
theorem C184_add (s : State) (p : ℕ) (own : Bool) :
    ((s.addDv p own).2 = true ↔ p ∈ s.dvs.map (·.p)) ∧ ((s.addDv p own).2 = true → (s.addDv p own).1 = s) ∧
      ((s.addDv p own).2 = false → (∃ c, (s.addDv p own).1.dvs = s.dvs ++ [⟨p, c, own⟩]) ∧
        (s.addDv p own).1.ets = s.ets ∧ (s.addDv p own).1.log = s.log) ∧
      ∀ q, (s.addDv p own).1.isIn q = true ↔ s.isIn q = true ∨ q = p := by
  have hi : ∀ (s : State) q, s.isIn q = true ↔ q ∈ s.dvs.map (·.p) := fun s q => by simp [State.isIn]
  simp only [hi, ← has_iff s p]
  simp only [State.addDv]
  split_ifs with hc
  · refine ⟨by simp [hc], fun _ => rfl, by simp, fun q => ⟨.inl, ?_⟩⟩
    rw [has_iff] at hc
    rintro (h | rfl)
    · exact h
    · exact hc
  · refine ⟨by simp [hc], by simp, fun _ => ⟨⟨_, rfl⟩, rfl, rfl⟩, fun q => ?_⟩
    simp [eq_comm]

/-- **C184**: the same for the shared pointers of the caller, which keep their object alive. -/
theorem C184_addShared (s : State) (h : Handle) :
    ((s.addDvShared h).2 = true ↔ h.p ∈ s.dvs.map (·.p)) ∧ ((s.addDvShared h).2 = true → (s.addDvShared h).1 = s) ∧
      ((s.addDvShared h).2 = false → (s.addDvShared h).1 = { s with dvs := s.dvs ++ [h] }) := by
  rw [← has_iff]
  simp only [State.addDvShared]
  split_ifs with hc
  · simp [hc]
  · simp [hc]

/-- A program with two kinds of owners, a borrowed object and a shared pointer. -/
def program : List Op :=
  [.addDv 1 true, .addDv 2 false, .addDv 1 true, .make 3, .addDvShared 0, .addEt 10 true, .addEt 11 false, .addEt 11 false,
    .addEtShared 0]

/-- The hypothesis of `C184_once_partial` and `C184_clear` is not met by a program that adds a variable twice as owned, though
the second call raises ... -/
example : ¬ (given program).Nodup := by decide

/-- ... but by this one, in which each kind of step occurs. -/
example : (given [.addDv 1 true, .addDv 2 false, .addDv 2 false, .make 3, .addDvShared 0, .addEt 10 true, .addEt 11 false,
    .addEt 11 false, .addEtShared 0, .drop 0, .clear, .addDv 2 false]).Nodup := by decide

/-- **C184**: error terms are not compared: one added twice as owned is deleted twice. -/
theorem C184_twice_counterexample :
    (({} : State).run [.addEt 10 true, .addEt 10 true, .clear]).log = [10, 10] := by decide

section adapter

variable {V P D : Type}

/-- The adapter after a list of edits. -/
def Adapter.edits (w : Wrapped V P D) (a : Adapter V P) (l : List (Edit P D)) : Adapter V P := l.foldl (Adapter.edit w) a

/-- **C184**: reverting, once or more often, undoes the last `update` or `setParameters`, whatever came before. -/
theorem C184_revert (w : Wrapped V P D) (hw : ∀ v u, w.set (w.get v) u = v) (a : Adapter V P) (l : List (Edit P D))
    (e : Edit P D) (he : e ≠ .revert) (n : ℕ) (hn : 0 < n) :
    (a.edits w (l ++ e :: List.replicate n .revert)).v = (a.edits w l).v := by
  simp only [Adapter.edits, List.foldl_append, List.foldl_cons]
  generalize l.foldl (Adapter.edit w) a = b
  have hb : (b.edit w e).backup = w.get b.v := by
    cases e with
    | update d => rfl
    | setParameters p => rfl
    | revert => exact absurd rfl he
  have key : ∀ n (c : Adapter V P), c.backup = w.get b.v →
      ((List.replicate (n + 1) Edit.revert).foldl (Adapter.edit w) c).v = b.v := by
    intro n
    induction n with
    | zero => intro c hc; simp [Adapter.edit, hc, hw]
    | succ n ih =>
      intro c hc
      rw [List.replicate_succ, List.foldl_cons]
      exact ih _ hc
  obtain ⟨m, rfl⟩ : ∃ m, n = m + 1 := ⟨n - 1, by omega⟩
  exact key m _ hb

/-- A type that meets the hypothesis. -/
example : ∃ w : Wrapped ℕ ℕ ℕ, (∀ v u, w.set (w.get v) u = v) ∧ w.upd 1 1 ≠ 1 :=
  ⟨⟨id, fun p _ => p, fun d v => d + v⟩, fun _ _ => rfl, by decide⟩

/-- **C184**: the adapter does edit what it wraps. -/
theorem C184_edit (w : Wrapped V P D) (a : Adapter V P) (d : D) (p : P) :
    (a.edit w (.update d)).v = w.upd d a.v ∧ (a.edit w (.setParameters p)).v = w.set p a.v := ⟨rfl, rfl⟩

/-- **C184**: but it does not compute the difference to other parameters: the output is what it was before. -/
theorem C184_difference_counterexample : ∃ (w : Wrapped ℕ ℕ ℕ) (a : Adapter ℕ ℕ) (x y : ℕ), (∀ v u, w.set (w.get v) u = v) ∧
    x ≠ y ∧ ∀ out : ℕ, a.minimalDifference x out = out ∧ a.minimalDifference y out = out :=
  ⟨⟨id, fun p _ => p, fun d v => d + v⟩, ⟨0, 0⟩, 1, 2, fun _ _ => rfl, by decide, fun _ => ⟨rfl, rfl⟩⟩

end adapter

end Kalibr.Simple
