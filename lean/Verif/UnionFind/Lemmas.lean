import Verif.UnionFind.Spec
import Verif.Tactics
import Mathlib.Data.Finset.Card
import Mathlib.Data.Finset.Range
import Mathlib.Data.Finset.Filter

namespace Kalibr.UnionFind

open Finset

/-- The representation invariant, with ghost root and height functions. -/
structure Inv (s : UF) (R : Nat → Nat → Prop) (rt h : Nat → Nat) : Prop where
  rt_lt : ∀ x < s.n, rt x < s.n
  id_lt : ∀ x < s.n, s.id x < s.n
  id_rt : ∀ x < s.n, s.id (rt x) = rt x
  rt_id : ∀ x < s.n, rt (s.id x) = rt x
  rt_root : ∀ x < s.n, s.id x = x → rt x = x
  h_lt : ∀ x < s.n, s.id x ≠ x → h x < h (s.id x)
  h_size : ∀ x < s.n, h x < s.size (rt x)
  size_eq : ∀ x < s.n, s.size (rt x) = ((range s.n).filter (fun y => rt y = rt x)).card
  rel : ∀ a < s.n, ∀ b < s.n, (rt a = rt b ↔ R a b)

variable {s : UF} {R : Nat → Nat → Prop} {rt h : Nat → Nat}

theorem Inv.rt_rt (I : Inv s R rt h) {x : Nat} (hx : x < s.n) : rt (rt x) = rt x :=
  I.rt_root _ (I.rt_lt x hx) (I.id_rt x hx)

theorem Inv.h_lt_n (I : Inv s R rt h) {x : Nat} (hx : x < s.n) : h x < s.n := by
  have h1 := I.h_size x hx
  rw [I.size_eq x hx] at h1
  exact lt_of_lt_of_le h1 (by simpa using card_filter_le (range s.n) (fun y => rt y = rt x))

/-- If a node is not a root then its root is strictly higher. -/
theorem Inv.h_rt (I : Inv s R rt h) (k : Nat) : ∀ x < s.n, s.n ≤ h x + k → s.id x ≠ x → h x < h (rt x) := by
  induction k with
  | zero => intro x hx hk; have := I.h_lt_n hx; omega
  | succ k ih =>
    intro x hx hk hne
    have h1 := I.h_lt x hx hne
    by_cases hr : s.id (s.id x) = s.id x
    · have := I.rt_root _ (I.id_lt x hx) hr
      rw [I.rt_id x hx] at this
      rw [this]; exact h1
    · have := ih (s.id x) (I.id_lt x hx) (by omega) hr
      rw [I.rt_id x hx] at this
      omega

/-- Path compression of one node keeps the invariant. -/
theorem Inv.compress (I : Inv s R rt h) {x : Nat} (hx : x < s.n) (hne : s.id x ≠ x) :
    Inv { s with id := Function.update s.id x (rt x) } R rt h := by
  have hxr : x ≠ rt x := fun e => by
    have := I.id_rt x hx; rw [← e] at this; exact hne this
  refine ⟨I.rt_lt, ?_, ?_, ?_, ?_, ?_, I.h_size, I.size_eq, I.rel⟩
  · intro y hy
    by_cases e : y = x
    · subst e; simpa using I.rt_lt y hx
    · simpa [Function.update_of_ne e] using I.id_lt y hy
  · intro y hy
    by_cases e : rt y = x
    · exfalso
      have := I.id_rt y hy; rw [e] at this; exact hne this
    · simpa [Function.update_of_ne e] using I.id_rt y hy
  · intro y hy
    by_cases e : y = x
    · subst e; simpa using I.rt_rt hx
    · simpa [Function.update_of_ne e] using I.rt_id y hy
  · intro y hy
    by_cases e : y = x
    · subst e; intro h'; simp only [Function.update_self] at h'; exact absurd h'.symm hxr
    · simpa [Function.update_of_ne e] using I.rt_root y hy
  · intro y hy
    by_cases e : y = x
    · subst e; intro _; simpa using I.h_rt s.n y hx (by omega) hne
    · simpa [Function.update_of_ne e] using I.h_lt y hy

theorem getRepAux_spec (fuel : Nat) : ∀ (s : UF), Inv s R rt h → ∀ x < s.n, s.n ≤ h x + fuel →
    ∃ s', getRepAux fuel s x = .ok (rt x, s') ∧ Inv s' R rt h ∧ s'.n = s.n ∧ s'.size = s.size ∧
      ∀ y, s.id y = y → s'.id y = y := by
  induction fuel with
  | zero => intro s I x hx hf; have := I.h_lt_n hx; omega
  | succ fuel ih =>
    intro s I x hx hf
    unfold getRepAux
    rw [if_pos hx]
    by_cases hr : s.id x = x
    · rw [if_pos hr]
      exact ⟨s, by rw [I.rt_root x hx hr], I, rfl, rfl, fun _ h => h⟩
    · rw [if_neg hr]
      have hh := I.h_lt x hx hr
      obtain ⟨s', h1, I', h3, h4, h5⟩ := ih s I (s.id x) (I.id_lt x hx) (by omega)
      rw [I.rt_id x hx] at h1
      rw [h1]
      refine ⟨_, rfl, ?_, h3, h4, ?_⟩
      · by_cases hr' : s'.id x = x
        · exfalso
          have hx' : x < s'.n := by omega
          have e1 := I'.rt_root x hx' hr'
          have e2 := I.h_rt s.n x hx (by omega) hr
          rw [e1] at e2; omega
        · exact I'.compress (by omega) hr'
      · intro y hy
        by_cases e : y = x
        · subst e; exact absurd hy hr
        · simp [Function.update_of_ne e, h5 y hy]

theorem getRep_spec (I : Inv s R rt h) {x : Nat} (hx : x < s.n) :
    ∃ s', getRep s x = .ok (rt x, s') ∧ Inv s' R rt h ∧ s'.n = s.n ∧ s'.size = s.size ∧
      ∀ y, s.id y = y → s'.id y = y :=
  getRepAux_spec s.n s I x hx (by omega)

/-- The ghost root after merging root `l` into root `w`. -/
def mergeRt (rt : Nat → Nat) (l w : Nat) : Nat → Nat := fun x => if rt x = l then w else rt x

open Classical in
/-- Merging root `l` under root `w` keeps the invariant for the merged relation. -/
theorem Inv.merge (I : Inv s R rt h) {l w : Nat} (hl : l < s.n) (hw : w < s.n)
    (hlr : s.id l = l) (hwr : s.id w = w) (hne : l ≠ w) :
    Inv { s with id := Function.update s.id l w,
                 size := Function.update s.size w (s.size w + s.size l) }
      (fun a b => mergeRt rt l w a = mergeRt rt l w b)
      (mergeRt rt l w) (fun x => if x = w then max (h w) (h l + 1) else h x) := by
  have rl : rt l = l := I.rt_root l hl hlr
  have rw' : rt w = w := I.rt_root w hw hwr
  have hsl : h l < s.size l := by have := I.h_size l hl; rwa [rl] at this
  have hsw : h w < s.size w := by have := I.h_size w hw; rwa [rw'] at this
  have mrt : ∀ x, mergeRt rt l w x = if rt x = l then w else rt x := fun _ => rfl
  refine ⟨?_, ?_, ?_, ?_, ?_, ?_, ?_, ?_, ?_⟩
  · intro x hx
    simp only [mrt]; split
    · exact hw
    · exact I.rt_lt x hx
  · intro x hx
    by_cases e : x = l
    · subst e; simpa using hw
    · simpa [Function.update_of_ne e] using I.id_lt x hx
  · intro x hx
    simp only [mrt]; split
    · rw [Function.update_of_ne hne.symm, hwr]
    · rename_i e
      rw [Function.update_of_ne e]; exact I.id_rt x hx
  · intro x hx
    by_cases e : x = l
    · subst e; simp [mrt, rl, rw']
    · simp only [Function.update_of_ne e, mrt, I.rt_id x hx]
  · intro x hx
    by_cases e : x = l
    · subst e; intro h'; simp at h'; exact absurd h'.symm hne
    · simp only [Function.update_of_ne e]
      intro h'
      have := I.rt_root x hx h'
      simp only [mrt, this, if_neg e]
  · intro x hx
    by_cases e : x = l
    · subst e
      intro _
      simp only [Function.update_self, if_neg hne, if_true]
      omega
    · simp only [Function.update_of_ne e]
      intro hid
      have h1 := I.h_lt x hx hid
      by_cases e2 : x = w
      · subst e2; exact absurd hwr hid
      · simp only [if_neg e2]
        split
        · rename_i e3; rw [e3] at h1; omega
        · exact h1
  · intro x hx
    simp only [mrt]
    have hx1 := I.h_size x hx
    by_cases e : rt x = l
    · rw [if_pos e, Function.update_self]
      rw [e] at hx1
      split <;> omega
    · rw [if_neg e]
      by_cases e2 : rt x = w
      · rw [e2, Function.update_self]
        rw [e2] at hx1
        split <;> omega
      · rw [Function.update_of_ne e2]
        split
        · rename_i e3; subst e3; exact absurd rw' e2
        · exact hx1
  · intro x hx
    simp only [mrt]
    have key : ∀ r, r < s.n → rt r = r → s.size r = ((range s.n).filter (fun y => rt y = r)).card := by
      intro r hr hrr
      have := I.size_eq r hr
      rw [hrr] at this; exact this
    have hmerge : s.size w + s.size l =
        ((range s.n).filter (fun y => (if rt y = l then w else rt y) = w)).card := by
      rw [key w hw rw', key l hl rl, ← card_union_of_disjoint]
      · congr 1
        ext y
        simp only [mem_union, mem_filter, mem_range]
        constructor
        · rintro (⟨h1, h2⟩ | ⟨h1, h2⟩)
          · exact ⟨h1, by split <;> simp_all⟩
          · exact ⟨h1, by simp [h2]⟩
        · rintro ⟨h1, h2⟩
          by_cases e : rt y = l
          · exact Or.inr ⟨h1, e⟩
          · rw [if_neg e] at h2; exact Or.inl ⟨h1, h2⟩
      · rw [disjoint_left]
        intro y h1 h2
        simp only [mem_filter] at h1 h2
        exact hne (h2.2.symm.trans h1.2)
    by_cases e : rt x = l
    · simp only [if_pos e, Function.update_self]; exact hmerge
    · simp only [if_neg e]
      by_cases e2 : rt x = w
      · simp only [e2, Function.update_self]; exact hmerge
      · rw [Function.update_of_ne e2, I.size_eq x hx]
        congr 1
        apply filter_congr
        intro y _
        constructor
        · intro h1; rw [if_neg (by rw [h1]; exact e)]; exact h1
        · intro h1
          by_cases e3 : rt y = l
          · rw [if_pos e3] at h1; exact absurd h1.symm e2
          · rwa [if_neg e3] at h1
  · intro a _ b _; rfl

theorem Inv.congr_rel {R' : Nat → Nat → Prop} (I : Inv s R rt h)
    (hR : ∀ a < s.n, ∀ b < s.n, (R a b ↔ R' a b)) : Inv s R' rt h :=
  ⟨I.rt_lt, I.id_lt, I.id_rt, I.rt_id, I.rt_root, I.h_lt, I.h_size, I.size_eq,
    fun a ha b hb => (I.rel a ha b hb).trans (hR a ha b hb)⟩

theorem connect_spec (I : Inv s R rt h) {a b : Nat} (ha : a < s.n) (hb : b < s.n) :
    ∃ r s' rt' h', connect s a b = .ok (r, s') ∧ s'.n = s.n ∧
      Inv s' (fun x y => rt' x = rt' y) rt' h' ∧ rt' a = r ∧ rt' b = r ∧
      ∀ x y, rt' x = rt' y ↔
        (rt x = rt y ∨ (rt x = rt a ∧ rt y = rt b) ∨ (rt x = rt b ∧ rt y = rt a)) := by
  obtain ⟨s1, h1, I1, n1, z1, k1⟩ := getRep_spec I ha
  obtain ⟨s2, h2, I2, n2, z2, k2⟩ := getRep_spec I1 (x := b) (by omega)
  have nn : s2.n = s.n := by omega
  have ha2 : a < s2.n := by omega
  have hb2 : b < s2.n := by omega
  unfold connect
  rw [h1]; simp only [Out.ok_bind, h2]
  by_cases e : rt a = rt b
  · rw [if_pos e]
    refine ⟨_, _, rt, h, rfl, nn, I2.congr_rel fun x hx y hy => (I2.rel x hx y hy).symm, rfl,
      e.symm, ?_⟩
    intro x y
    constructor
    · exact Or.inl
    · rintro (h | ⟨h, h'⟩ | ⟨h, h'⟩)
      · exact h
      · rw [h, h', e]
      · rw [h, h', e]
  · rw [if_neg e]
    have ra := I2.id_rt a ha2
    have rb := I2.id_rt b hb2
    have la := I2.rt_lt a ha2
    have lb := I2.rt_lt b hb2
    split
    · refine ⟨_, _, mergeRt rt (rt b) (rt a), _, rfl, nn,
        I2.merge lb la rb ra (fun h => e h.symm), by simp [mergeRt, e], by simp [mergeRt], ?_⟩
      intro x y
      simp only [mergeRt]
      by_cases e1 : rt x = rt b <;> by_cases e2 : rt y = rt b <;>
        simp only [e1, e2, if_true, if_false] <;> constructor <;> intro hh <;>
        (try tauto)
    · refine ⟨_, _, mergeRt rt (rt a) (rt b), _, rfl, nn,
        I2.merge la lb ra rb e, by simp [mergeRt], by simp [mergeRt, Ne.symm e], ?_⟩
      intro x y
      simp only [mergeRt]
      by_cases e1 : rt x = rt a <;> by_cases e2 : rt y = rt a <;>
        simp only [e1, e2, if_true, if_false] <;> constructor <;> intro hh <;>
        (try tauto)

theorem init_inv (n : Nat) : Inv (init n) (fun a b => a = b) (fun x => x) (fun _ => 0) := by
  refine ⟨fun x h => h, fun x h => h, fun _ _ => rfl, fun _ _ => rfl, fun _ _ _ => rfl, ?_, ?_, ?_, ?_⟩
  · intro x _ h; exact absurd rfl h
  · intro x _; simp [init]
  · intro x hx
    simp only [init] at *
    rw [filter_eq' (range n) x, if_pos (by simpa using hx)]; simp
  · intro a _ b _; rfl

/-- The relation of a longer history. -/
theorem linked_connect (ops : List Op) (R : Nat → Nat → Prop) (hR : ∀ x y, R x y ↔ Linked ops x y)
    (a b : Nat) (x y : Nat) :
    Linked (ops ++ [.connect a b]) x y ↔ (R x y ∨ (R x a ∧ R b y) ∨ (R x b ∧ R a y)) := by
  have mono : ∀ {x y}, Linked ops x y → Linked (ops ++ [.connect a b]) x y := by
    intro x y h
    exact Relation.EqvGen.mono (fun u v (huv : Connected ops u v) =>
      (List.mem_append_left _ huv : Connected (ops ++ [.connect a b]) u v)) _ _ h
  have link : Linked (ops ++ [.connect a b]) a b := Relation.EqvGen.rel _ _ (by simp [Connected])
  simp only [hR]
  constructor
  · intro h
    induction h with
    | rel u v huv =>
      simp only [Connected, List.mem_append, List.mem_singleton, Op.connect.injEq] at huv
      rcases huv with huv | ⟨rfl, rfl⟩
      · exact Or.inl (Relation.EqvGen.rel _ _ huv)
      · exact Or.inr (Or.inl ⟨Relation.EqvGen.refl _, Relation.EqvGen.refl _⟩)
    | refl u => exact Or.inl (Relation.EqvGen.refl _)
    | symm u v _ ih =>
      rcases ih with ih | ⟨i1, i2⟩ | ⟨i1, i2⟩
      · exact Or.inl (Relation.EqvGen.symm _ _ ih)
      · exact Or.inr (Or.inr ⟨Relation.EqvGen.symm _ _ i2, Relation.EqvGen.symm _ _ i1⟩)
      · exact Or.inr (Or.inl ⟨Relation.EqvGen.symm _ _ i2, Relation.EqvGen.symm _ _ i1⟩)
    | trans u v w _ _ i1 i2 =>
      have sy : ∀ {p q}, Linked ops p q → Linked ops q p := fun h => Relation.EqvGen.symm _ _ h
      have tr : ∀ {p q r}, Linked ops p q → Linked ops q r → Linked ops p r :=
        fun h h' => Relation.EqvGen.trans _ _ _ h h'
      rcases i1 with i1 | ⟨i1, i1'⟩ | ⟨i1, i1'⟩ <;> rcases i2 with i2 | ⟨i2, i2'⟩ | ⟨i2, i2'⟩
      · exact Or.inl (tr i1 i2)
      · exact Or.inr (Or.inl ⟨tr i1 i2, i2'⟩)
      · exact Or.inr (Or.inr ⟨tr i1 i2, i2'⟩)
      · exact Or.inr (Or.inl ⟨i1, tr i1' i2⟩)
      · exact Or.inr (Or.inl ⟨i1, i2'⟩)
      · exact Or.inl (tr i1 i2')
      · exact Or.inr (Or.inr ⟨i1, tr i1' i2⟩)
      · exact Or.inl (tr i1 i2')
      · exact Or.inr (Or.inr ⟨i1, i2'⟩)
  · rintro (h | ⟨h1, h2⟩ | ⟨h1, h2⟩)
    · exact mono h
    · exact Relation.EqvGen.trans _ _ _ (mono h1) (Relation.EqvGen.trans _ _ _ link (mono h2))
    · exact Relation.EqvGen.trans _ _ _ (mono h1)
        (Relation.EqvGen.trans _ _ _ (Relation.EqvGen.symm _ _ link) (mono h2))

theorem linked_append_noop (ops : List Op) (op : Op) (hop : ∀ a b, op ≠ .connect a b) (x y : Nat) :
    Linked (ops ++ [op]) x y ↔ Linked ops x y := by
  have : Connected (ops ++ [op]) = Connected ops := by
    funext u v
    simp only [Connected, List.mem_append, List.mem_singleton, eq_iff_iff, or_iff_left_iff_imp]
    intro h; exact absurd h.symm (hop u v)
  unfold Linked; rw [this]

theorem run_append (s : UF) (ops : List Op) (op : Op) :
    run s (ops ++ [op]) = (run s ops >>= fun s' => (do let p ← step s' op; return p.2)) := by
  induction ops generalizing s with
  | nil =>
    simp only [List.nil_append, run, Out.ok_bind]
    cases step s op <;> simp
  | cons o ops ih =>
    simp only [List.cons_append, run]
    cases h : step s o with
    | ok p => simp [ih]
    | raise => simp
    | ub => simp

theorem linked_nil {a b : Nat} (h : Linked [] a b) : a = b := by
  induction h with
  | rel u v h => simp [Connected] at h
  | refl => rfl
  | symm u v _ ih => exact ih.symm
  | trans u v w _ _ i1 i2 => exact i1.trans i2

/-- The invariant holds after every history. -/
theorem run_inv (n : Nat) (ops : List Op) (hops : ∀ op ∈ ops, op.InRange n) :
    ∃ s rt h, run (init n) ops = .ok s ∧ s.n = n ∧ Inv s (Linked ops) rt h := by
  induction ops using List.reverseRecOn with
  | nil =>
    refine ⟨_, _, _, rfl, rfl, (init_inv n).congr_rel ?_⟩
    intro a _ b _
    constructor
    · rintro rfl; exact Relation.EqvGen.refl _
    · exact linked_nil
  | append_singleton ops op ih =>
    obtain ⟨s, rt, h, h1, h2, I⟩ := ih (fun o ho => hops o (by simp [ho]))
    have hr := hops op (by simp)
    rw [run_append, h1]
    simp only [Out.ok_bind]
    cases op with
    | connect a b =>
      obtain ⟨ha, hb⟩ := hr
      obtain ⟨r, s', rt', h', e1, e2, I', _, _, e5⟩ :=
        connect_spec I (a := a) (b := b) (by omega) (by omega)
      refine ⟨s', rt', h', by simp [step, e1], by omega, I'.congr_rel ?_⟩
      intro x hx y hy
      rw [e5, linked_connect ops (Linked ops) (fun _ _ => Iff.rfl), I.rel x (by omega) y (by omega),
        I.rel x (by omega) a (by omega), I.rel x (by omega) b (by omega),
        eq_comm (a := rt y), eq_comm (a := rt y), I.rel b (by omega) y (by omega),
        I.rel a (by omega) y (by omega)]
    | representative a =>
      obtain ⟨s', e1, I', e2, e3, _⟩ := getRep_spec I (x := a) (by simp only [Op.InRange] at hr; omega)
      refine ⟨s', rt, h, by simp [step, e1], by omega, I'.congr_rel ?_⟩
      intro x _ y _
      exact (linked_append_noop ops _ (by simp) x y).symm
    | setSize a =>
      obtain ⟨s', e1, I', e2, e3, _⟩ := getRep_spec I (x := a) (by simp only [Op.InRange] at hr; omega)
      refine ⟨s', rt, h, by simp [step, getSetSize, e1], by omega, I'.congr_rel ?_⟩
      intro x _ y _
      exact (linked_append_noop ops _ (by simp) x y).symm

end Kalibr.UnionFind
