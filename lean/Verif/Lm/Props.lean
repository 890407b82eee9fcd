import Verif.Lm.Model

namespace Kalibr.Lm

variable {D P : Type}

theorem good_at {s : St D P} {n : ℕ} (hn : s.next ≤ n) (hs : s.Good) {a : ℕ} {l : Landmark P}
    (hl : ∀ p, l.desc = some p → p < n) (b p : ℕ) (h : (Function.update s.lm a l b).desc = some p) : p < n := by
  by_cases hb : b = a
  · subst hb; rw [Function.update_self] at h; exact hl p h
  · rw [Function.update_of_ne hb] at h; exact Nat.lt_of_lt_of_le (hs b p h) hn

/-- No call makes a descriptor go away. -/
theorem step_good (s : St D P) (o : Op D P) (hs : s.Good) (ho : o.Good s.next) :
    (step s o).Good ∧ s.next ≤ (step s o).next := by
  have keep (a : ℕ) (l : Landmark P) (hl : ∀ p, l.desc = some p → p < s.next) :
      ∀ b p, (Function.update s.lm a l b).desc = some p → p < s.next := good_at (Nat.le_refl _) hs hl
  cases o with
  | assign a b => exact ⟨keep a _ (hs b), Nat.le_refl _⟩
  | swap a b =>
    simp only [step, swap]
    split
    · refine ⟨?_, Nat.le_refl _⟩
      intro c p h
      simp only [exchange] at h
      by_cases hc : c = b
      · subst hc; rw [Function.update_self] at h; exact hs a p h
      · rw [Function.update_of_ne hc] at h; exact keep a _ (hs b) c p h
    · exact ⟨hs, Nat.le_refl _⟩
  | setDescriptor a d =>
    refine ⟨?_, Nat.le_succ _⟩
    exact good_at (Nat.le_succ _) hs fun p h => by
      cases h; exact Nat.lt_succ_self _
  | setDescriptorPtr a p => exact ⟨keep a _ ho, Nat.le_refl _⟩
  | setPoint a p => exact ⟨keep a _ (hs a), Nat.le_refl _⟩
  | setLandmarkId a i => exact ⟨keep a _ (hs a), Nat.le_refl _⟩
  | setFrameId a i => exact ⟨keep a _ (hs a), Nat.le_refl _⟩
  | fromTransformed a f k T =>
    have h1 : (s.at a fun l => { l with frame := f, desc := k.desc }).Good := keep a _ ho
    simp only [step, fromTransformedKeypoint]
    cases k.landmark with
    | none => exact ⟨h1, Nat.le_refl _⟩
    | some p => exact ⟨good_at (Nat.le_refl _) h1 (h1 a), Nat.le_refl _⟩
  | write a d =>
    simp only [step]
    split
    · exact ⟨hs, Nat.le_refl _⟩
    · exact ⟨hs, Nat.le_refl _⟩

/-- A program whose calls are all given descriptors that are there. -/
def Fine (s : St D P) : List (Op D P) → Prop
  | [] => True
  | o :: os => o.Good s.next ∧ Fine (step s o) os

theorem seen_other (s : St D P) (o : Op D P) (hs : s.Good) (b : ℕ) (hb : b ∉ o.on) (hw : o.writes = false) :
    seen (step s o) b = seen s b := by
  cases o with
  | assign a c =>
    have : b ≠ a := by simpa [Op.on] using hb
    simp [seen, step, assign, Function.update_of_ne this]
  | swap a c =>
    have : b ≠ a ∧ b ≠ c := by simpa [Op.on] using hb
    simp only [step, swap]
    split
    · simp [seen, exchange, Function.update_of_ne this.1, Function.update_of_ne this.2]
    · rfl
  | setDescriptor a d =>
    have hne : b ≠ a := by simpa [Op.on] using hb
    simp only [seen, step, setDescriptor, St.at, Function.update_of_ne hne]
    congr 1
    cases hd : (s.lm b).desc with
    | none => rfl
    | some p =>
      have := hs b p hd
      simp [Function.update_of_ne (show p ≠ s.next by omega)]
  | setDescriptorPtr a p =>
    have : b ≠ a := by simpa [Op.on] using hb
    simp [seen, step, St.at, Function.update_of_ne this]
  | setPoint a p =>
    have : b ≠ a := by simpa [Op.on] using hb
    simp [seen, step, St.at, Function.update_of_ne this]
  | setLandmarkId a i =>
    have : b ≠ a := by simpa [Op.on] using hb
    simp [seen, step, St.at, Function.update_of_ne this]
  | setFrameId a i =>
    have : b ≠ a := by simpa [Op.on] using hb
    simp [seen, step, St.at, Function.update_of_ne this]
  | fromTransformed a f k T =>
    have : b ≠ a := by simpa [Op.on] using hb
    simp only [step, fromTransformedKeypoint]
    cases k.landmark <;> simp [seen, St.at, Function.update_of_ne this]
  | write a d => simp [Op.writes] at hw

theorem seen_run (b : ℕ) (ops : List (Op D P)) : ∀ s : St D P, s.Good → Fine s ops →
    (∀ o ∈ ops, b ∉ o.on ∧ o.writes = false) → seen (run s ops) b = seen s b := by
  induction ops with
  | nil => intro s _ _ _; rfl
  | cons o os ih =>
    intro s hs hf h
    have h1 := h o List.mem_cons_self
    rw [show run s (o :: os) = run (step s o) os from rfl,
      ih _ (step_good s o hs hf.1).1 hf.2 fun x hx => h x (List.mem_cons_of_mem _ hx), seen_other s o hs b h1.1 h1.2]

/-- C199: a landmark that was assigned looks like the other one, and nothing that is done to the other one afterwards is seen in
it, nor the other way round — as long as no descriptor is written through a pointer. -/
theorem C199_copy_partial (s : St D P) (hs : s.Good) (a b : ℕ) (ops : List (Op D P)) (hf : Fine (step s (.assign a b)) ops)
    (hw : ∀ o ∈ ops, o.writes = false) :
    ((∀ o ∈ ops, a ∉ o.on) → seen (run s (.assign a b :: ops)) a = seen s b) ∧
    ((∀ o ∈ ops, b ∉ o.on) → seen (run s (.assign a b :: ops)) b = seen s b) := by
  have hg := (step_good s (.assign a b) hs trivial).1
  constructor
  · intro h
    rw [show run s (.assign a b :: ops) = run (step s (.assign a b)) ops from rfl,
      seen_run a ops _ hg hf fun o ho => ⟨h o ho, hw o ho⟩]
    simp [seen, step, assign, copyOf]
  · intro h
    rw [show run s (.assign a b :: ops) = run (step s (.assign a b)) ops from rfl,
      seen_run b ops _ hg hf fun o ho => ⟨h o ho, hw o ho⟩]
    by_cases hab : b = a
    · subst hab; simp [seen, step, assign, copyOf]
    · simp [seen, step, assign, Function.update_of_ne hab]

/-- C199: swapping exchanges what is seen of two landmarks. -/
theorem C199_swap (s : St D P) (a b : ℕ) :
    seen (step s (.swap a b)) a = seen s b ∧ seen (step s (.swap a b)) b = seen s a := by
  by_cases h : a = b
  · subst h; simp [step, swap]
  · have hne : b ≠ a := fun e => h e.symm
    simp [step, swap, h, seen, exchange, Function.update_of_ne h]

/-- C199: setting a part of a landmark sets it and leaves the others. -/
theorem C199_set (s : St D P) (a i : ℕ) (d : D) (p : P) :
    seen (step s (.setDescriptor a d)) a = (some d, (seen s a).2) ∧
    seen (step s (.setPoint a p)) a = ((seen s a).1, p, (seen s a).2.2) ∧
    seen (step s (.setLandmarkId a i)) a = ((seen s a).1, (seen s a).2.1, i, (seen s a).2.2.2) ∧
    seen (step s (.setFrameId a i)) a = ((seen s a).1, (seen s a).2.1, (seen s a).2.2.1, i) := by
  simp [seen, step, setDescriptor, St.at]

/-- C199: a landmark made from a keypoint has its point, transformed if that is asked for, its descriptor and its number. -/
theorem C199_keypoint (s : St D P) (a f : ℕ) (k : Keypoint P) (T : P → P) (p : P) (hk : k.landmark = some p) :
    (∃ t, fromKeypoint s a f k = .ok t ∧ seen t a = (k.desc.map s.heap, p, k.lid, f)) ∧
    (fromTransformedKeypoint s a f k T).1 = .ok () ∧
    seen (fromTransformedKeypoint s a f k T).2 a = (k.desc.map s.heap, T p, k.lid, f) := by
  refine ⟨⟨s.at a fun _ => ⟨k.desc, p, k.lid, f⟩, by simp only [fromKeypoint, hk], by simp [seen, St.at]⟩, ?_, ?_⟩
  · simp only [fromTransformedKeypoint, hk]
  · simp [fromTransformedKeypoint, hk, seen, St.at]

/-- A program with two landmarks without descriptors. -/
def demo : St ℕ ℕ := ⟨fun _ => 0, 0, fun _ => ⟨none, 0, 0, 0⟩⟩

/-- C199 is false: the copy shares its descriptor; a landmark made from a keypoint without a point is left with the frame and the
descriptor of that keypoint when it is transformed, and reads a null pointer when it is not. -/
theorem C199_counterexample :
    seen (run demo [.setDescriptor 0 5, .assign 1 0, .write 0 7]) 1 = (some 7, 0, 0, 0) ∧
    ((fromTransformedKeypoint demo 0 9 ⟨none, none, 3⟩ id).1 = .raise ∧
      seen (fromTransformedKeypoint demo 0 9 ⟨none, none, 3⟩ id).2 0 = (none, 0, 0, 9)) ∧
    fromKeypoint demo 0 9 ⟨none, none, 3⟩ = .ub := by
  refine ⟨by decide, ⟨rfl, by decide⟩, rfl⟩

/-- The hypotheses of `C199_copy_partial` are met by a program that replaces the descriptor of the original. -/
example : demo.Good ∧ Fine (step (step demo (.setDescriptor 0 5)) (.assign 1 0)) [.setDescriptor 0 7, .setPoint 0 3] ∧
    seen (run demo [.setDescriptor 0 5, .assign 1 0, .setDescriptor 0 7, .setPoint 0 3]) 1 = (some 5, 0, 0, 0) :=
  ⟨fun _ _ h => by (cases h), ⟨trivial, trivial, trivial⟩, by decide⟩

end Kalibr.Lm
