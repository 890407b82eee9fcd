import Verif.Estimator.Model
import Verif.Merged.Props
import Verif.Permute.Props

/-! Invariants of the incremental estimator. -/

namespace Kalibr.Estimator

open Kalibr.Batch (Batch Grouped flat)
open Kalibr.Merged (Merged MInv NoStale groupOf listOf Live Built)

variable {V S : Type}

theorem swapLast_perm (marg : Nat) (l : List Nat) : (swapLast marg l).Perm l := Permute.swap_perm _ _ _

/-- Shape of the swapped ordering: what precedes the marginalised group stays in place. -/
theorem swapLast_shape {marg : Nat} {a s : List Nat} (ha : marg ∉ a) :
    ∃ s', swapLast marg (a ++ marg :: s) = a ++ (s' ++ [marg]) ∧ s'.Perm s := by
  unfold swapLast
  have hidx : (a ++ marg :: s).idxOf marg = a.length := by
    rw [List.idxOf_append_of_notMem ha]
    simp
  rw [hidx]
  rcases List.eq_nil_or_concat s with rfl | ⟨t, x, rfl⟩
  · refine ⟨[], ?_, List.Perm.refl _⟩
    have hlen : (a ++ [marg]).length - 1 = a.length := by simp
    rw [hlen]
    apply List.ext_getElem?
    intro j
    rw [Permute.swap_get _ (by simp) (by simp)]
    split
    · rename_i hj; rw [hj]; simp
    · rfl
  · refine ⟨x :: t, ?_, ?_⟩
    · have hlen : (a ++ marg :: t.concat x).length - 1 = a.length + t.length + 1 := by simp; omega
      rw [hlen]
      apply List.ext_getElem?
      intro j
      rw [Permute.swap_get _ (by simp) (by simp; omega)]
      rcases Nat.lt_trichotomy j a.length with hj | hj | hj
      · rw [if_neg (by omega), if_neg (by omega), List.getElem?_append_left hj,
          List.getElem?_append_left hj]
      · rw [if_neg (by omega), if_pos hj, hj, List.getElem?_append_right (by omega),
          List.getElem?_append_right (by omega)]
        have : a.length + t.length + 1 - a.length = t.length + 1 := by omega
        simp [this]
      · by_cases hj2 : j = a.length + t.length + 1
        · rw [if_pos hj2, hj2, List.getElem?_append_right (by omega), List.getElem?_append_right (by omega)]
          have : a.length + t.length + 1 - a.length = t.length + 1 := by omega
          rw [this]
          simp
        · rw [if_neg hj2, if_neg (by omega), List.getElem?_append_right (by omega),
            List.getElem?_append_right (by omega)]
          obtain ⟨q, hq⟩ : ∃ q, j - a.length = q + 1 := ⟨j - a.length - 1, by omega⟩
          rw [hq]
          simp only [List.getElem?_cons_succ, List.cons_append, List.concat_eq_append]
          by_cases hqt : q < t.length
          · rw [List.getElem?_append_left hqt, List.getElem?_append_left hqt]
          · rw [List.getElem?_eq_none (by simp; omega), List.getElem?_eq_none (by simp; omega)]
    · rw [List.concat_eq_append]
      exact (List.perm_append_singleton x t).symm

theorem split_at {marg : Nat} {l : List Nat} (h : marg ∈ l) : ∃ a s, l = a ++ marg :: s ∧ marg ∉ a := by
  induction l with
  | nil => cases h
  | cons x l ih =>
    by_cases hx : x = marg
    · exact ⟨[], l, by simp [hx], by simp⟩
    · have : marg ∈ l := by
        rcases List.mem_cons.1 h with h | h
        · exact absurd h.symm hx
        · exact h
      obtain ⟨a, s, he, hn⟩ := ih this
      exact ⟨x :: a, s, by simp [he], by simp [hn, Ne.symm hx]⟩

/-- Ordering the marginalised group last. -/
theorem orderMarg_ok {cfg : Config} {B : Nat → Batch V} {m : Merged V} (h : MInv B m)
    (hin : cfg.marg ∈ m.order) :
    ∃ l, orderMarg cfg m = (.ok (), { m with order := l }) ∧ l.Perm m.order ∧
      l.getLast? = some cfg.marg ∧
      (∀ a s, m.order = a ++ s → cfg.marg ∈ s → ∃ s', l = a ++ s' ∧ s'.Perm s) := by
  unfold orderMarg
  rw [if_neg (not_not.2 hin)]
  obtain ⟨a, s, he, hn⟩ := split_at hin
  by_cases hlast : m.order.getLast? = some cfg.marg
  · rw [if_neg (not_not.2 hlast)]
    exact ⟨m.order, rfl, List.Perm.refl _, hlast, fun a s hs _ => ⟨s, hs, List.Perm.refl _⟩⟩
  · rw [if_pos hlast]
    have hp := swapLast_perm cfg.marg m.order
    obtain ⟨h1, h2⟩ := (Batch.ordering_accepts h.c.grouped _).2 hp
    refine ⟨swapLast cfg.marg m.order, ?_, hp, ?_, ?_⟩
    · unfold Merged.setGroupsOrdering
      rw [if_neg (not_not.2 h1), if_pos h2]
    · rw [he]
      obtain ⟨s', e, _⟩ := swapLast_shape (s := s) hn
      rw [e, ← List.append_assoc, List.getLast?_append]
      simp
    · intro a' s0 hs hm
      have hnd := h.c.grouped.nodup
      rw [hs] at hnd ⊢
      have hna : cfg.marg ∉ a' := fun hc => (List.nodup_append.1 hnd).2.2 _ hc _ hm rfl
      obtain ⟨b, s1, hb, hnb⟩ := split_at hm
      rw [hb, ← List.append_assoc]
      obtain ⟨s', e, hp'⟩ := swapLast_shape (marg := cfg.marg) (a := a' ++ b) (s := s1) (by
        intro hc
        rcases List.mem_append.1 hc with hc | hc
        · exact hna hc
        · exact hnb hc)
      refine ⟨b ++ (s' ++ [cfg.marg]), by rw [e, List.append_assoc], ?_⟩
      refine List.Perm.append_left b ?_
      exact (List.perm_append_singleton _ _).trans (hp'.cons _)

theorem orderMarg_raise {cfg : Config} {m : Merged V} (hin : cfg.marg ∉ m.order) :
    orderMarg cfg m = (.raise, m) := by
  unfold orderMarg
  rw [if_pos hin]

theorem MInv.reorder {B : Nat → Batch V} {m : Merged V} (h : MInv B m) {l : List Nat}
    (hp : l.Perm m.order) : MInv B { m with order := l } :=
  ⟨⟨h.c.wf, h.c.cnt, h.c.pos, h.c.grouped.reorder hp⟩, h.grp, h.ets, h.bwf⟩

/-- The marginalised group is last, or absent. -/
def MargLast (cfg : Config) (l : List Nat) : Prop := cfg.marg ∈ l → l.getLast? = some cfg.marg

theorem MargLast.sublist {cfg : Config} {l l' : List Nat} (h : MargLast cfg l) (hs : l'.Sublist l)
    (hnd : l.Nodup) : MargLast cfg l' := by
  intro hin
  have hlast := h (hs.subset hin)
  obtain ⟨a, ha⟩ : ∃ a, l = a ++ [cfg.marg] := List.getLast?_eq_some_iff.1 hlast
  rw [ha] at hs hnd
  have he := Merged.sublist_eq hs hnd
  rw [he, List.filter_append]
  simp [hin]

structure EInv (B : Nat → Batch V) (cfg : Config) (m : Merged V) : Prop where
  inv : MInv B m
  fresh : NoStale m
  last : MargLast cfg m.order

theorem EInv.init (B : Nat → Batch V) (cfg : Config) : EInv B cfg (⟨[], [], [], [], []⟩ : Merged V) :=
  ⟨MInv.empty B, fun _ _ h => by (cases h), fun h => by (cases h)⟩

theorem EInv.reoptimize {B : Nat → Batch V} {cfg : Config} {w : World V S} (h : EInv B cfg w.m)
    (s : Solve V S) : EInv B cfg (reoptimize cfg w s).2.m := by
  unfold Estimator.reoptimize
  by_cases hin : cfg.marg ∈ w.m.order
  · obtain ⟨l, e, hp, hl, _⟩ := orderMarg_ok h.inv hin
    have hE : EInv B cfg { w.m with order := l } := ⟨MInv.reorder h.inv hp, h.fresh, fun _ => hl⟩
    rw [e]
    simp only
    split <;> exact hE
  · rw [orderMarg_raise hin]
    exact h

theorem EInv.remove {deps} {B : Nat → Batch V} (hB : Built deps B) {cfg : Config} {m : Merged V}
    (h : EInv B cfg m) (mem : Nat → V) {idx : Nat} (hi : idx < m.problems.length) :
    ∃ m', Merged.remove B m idx = (.ok (), m') ∧ EInv B cfg m' := by
  obtain ⟨m', e, hm, _⟩ := Merged.remove_ok hB.inv h.inv (List.getElem?_eq_getElem hi)
  refine ⟨m', e, hm, ?_, ?_⟩
  · have := h.fresh.step hB.inv (w := ⟨m, mem⟩) h.inv (.remove idx) (by intro id hc; cases hc)
      (by intro hc; cases hc)
    simp only [Merged.step, e] at this
    exact this
  · exact h.last.sublist (Merged.remove_lists hB.inv e).1 h.inv.c.grouped.nodup

/-- State reached inside `addBatch` just before the decision. -/
structure Solved (B : Nat → Batch V) (cfg : Config) (w : World V S) (i : Nat) (force : Bool)
    (s : Solve V S) (r : Report S) (m : Merged V) : Prop where
  inv : EInv B cfg m
  problems : m.problems = w.m.problems ++ [i]
  report : s.report = some r
  marg : cfg.marg ∈ m.order
  perm : ∀ a, w.m.order = a → ∃ t, a ++ t = m.order ∨
    ∃ a0, a = a0 ++ [cfg.marg] ∧ ∃ t', t'.Perm (cfg.marg :: t) ∧ m.order = a0 ++ t'
  lists : ∀ g, ∃ ext, listOf m g = listOf w.m g ++ ext ∧ ∀ d ∈ ext, groupOf w.m d = none
  saved : force = false → ∀ d, m.backup.find d =
    if Merged.isDesignVariableInProblem m d then some (w.mem d) else none

theorem addBatch_reaches {deps} {B : Nat → Batch V} (hB : Built deps B) {cfg : Config} {w : World V S}
    (h : EInv B cfg w.m) {id : Option Nat} {force : Bool} {s : Solve V S} {b : Bool} {w' : World V S}
    (he : addBatch B cfg w id force s = (.ok b, w')) :
    ∃ i r m, id = some i ∧ Solved B cfg w i force s r m ∧ keep cfg w.stored r force = b ∧
      (b = true → w' = { m := m, mem := written m w.mem s.values, stored :=
            { informationGain := (1 / 2) * (r.svLog2Sum - w.stored.svLog2Sum), svLog2Sum := r.svLog2Sum,
              rankTheta := r.rankTheta, initialCost := r.jStart, finalCost := r.jFinal, rest := r.rest } }) ∧
      (b = false → ∃ m', Merged.removePtr B m i = (.ok (), m') ∧
        w' = { w with m := m', mem := Merged.restoreDesignVariables m (written m w.mem s.values) }) := by
  cases id with
  | none => simp only [addBatch, Merged.add] at he; cases he
  | some i =>
    by_cases hc : Merged.Compatible B w.m i
    swap
    · obtain ⟨m', e, _⟩ := Merged.add_raise hB.inv h.inv hc
      simp only [addBatch, e] at he
      cases he
    obtain ⟨m1, e1, hm1, p1, b1, g1⟩ := Merged.add_ok hB.inv h.inv hc
    obtain ⟨o1, l1⟩ := Merged.add_lists hB.inv h.inv e1
    have hs1 : NoStale m1 := by
      have := h.fresh.step hB.inv (w := ⟨w.m, w.mem⟩) h.inv (.add (some i))
        (by intro id hid; simp only [Merged.step, e1]) (by intro hx; cases hx)
      simp only [Merged.step, e1] at this
      exact this
    by_cases hin : cfg.marg ∈ m1.order
    swap
    · simp only [addBatch, e1, orderMarg_raise hin] at he
      cases he
    obtain ⟨l, e2, hp, hl, hshape⟩ := orderMarg_ok hm1 hin
    have hE2 : EInv B cfg { m1 with order := l } := ⟨MInv.reorder hm1 hp, hs1, fun _ => hl⟩
    simp only [addBatch, e1, e2] at he
    generalize hm3 : (if force = true then { m1 with order := l } else
      Merged.saveDesignVariables { m1 with order := l } w.mem) = m3 at he
    have hE3 : EInv B cfg m3 := by
      rw [← hm3]
      split
      · exact hE2
      · refine ⟨?_, ?_, hE2.last⟩
        · exact hE2.inv.step hB.inv (w := ⟨{ m1 with order := l }, w.mem⟩) .save (by intro id hx; cases hx)
        · exact hE2.fresh.step hB.inv (w := ⟨{ m1 with order := l }, w.mem⟩) hE2.inv .save
            (by intro id hx; cases hx) (by intro hx; cases hx)
    have hprob : m3.problems = w.m.problems ++ [i] := by rw [← hm3, ← p1]; split <;> rfl
    have hord : m3.order = l := by rw [← hm3]; split <;> rfl
    have hlist : ∀ g, listOf m3 g = listOf m1 g := by intro g; rw [← hm3]; split <;> rfl
    have hcounts : m3.counts = m1.counts := by rw [← hm3]; split <;> rfl
    cases hrep : s.report with
    | none => rw [hrep] at he; cases he
    | some r =>
      rw [hrep] at he
      simp only at he
      have hsol : Solved B cfg w i force s r m3 := by
        refine ⟨hE3, hprob, hrep, by rw [hord]; exact hp.mem_iff.2 hin, ?_, ?_, ?_⟩
        · rintro a rfl
          obtain ⟨t, ht⟩ := o1
          by_cases hmo : cfg.marg ∈ w.m.order
          · obtain ⟨a0, ha0⟩ := List.getLast?_eq_some_iff.1 (h.last hmo)
            refine ⟨t, Or.inr ⟨a0, ha0, ?_⟩⟩
            obtain ⟨s', e', hp'⟩ := hshape a0 (cfg.marg :: t) (by
              rw [← ht, ha0, List.append_assoc]; rfl) (by simp)
            exact ⟨s', hp', by rw [hord, e']⟩
          · obtain ⟨s', e', hp'⟩ := hshape w.m.order t ht.symm (by
              rw [← ht, List.mem_append] at hin
              rcases hin with hx | hx
              · exact absurd hx hmo
              · exact hx)
            exact ⟨s', Or.inl (by rw [hord, e'])⟩
        · intro g
          rw [hlist]; exact l1 g
        · intro hf d
          have hfind : m3.backup.find d = if d ∈ FMap.keys m1.counts then some (w.mem d)
              else m1.backup.find d := by
            rw [← hm3, hf]
            exact Batch.find_saveFold _ _ _ _
          rw [hfind]
          unfold Merged.isDesignVariableInProblem
          rw [hcounts]
          by_cases hk : d ∈ FMap.keys m1.counts
          · obtain ⟨v, hv⟩ := FMap.mem_keys.1 hk
            rw [if_pos hk, hv]
            rfl
          · have hn : m1.counts.find d = none := FMap.find_none_of_notMem hk
            rw [if_neg hk, hn]
            cases hb : m1.backup.find d with
            | none => rfl
            | some v =>
              obtain ⟨g, hg⟩ := hs1 d v hb
              unfold groupOf at hg
              rw [hn] at hg; cases hg
      by_cases hk : keep cfg w.stored r force = true
      · rw [if_pos hk] at he
        cases he
        exact ⟨i, r, m3, rfl, hsol, hk, fun _ => rfl, fun hx => by (cases hx)⟩
      · rw [if_neg hk] at he
        rw [Bool.not_eq_true] at hk
        rcases hr : Merged.removePtr B m3 i with ⟨o, m4⟩
        rw [hr] at he
        cases o with
        | raise => cases he
        | ub => cases he
        | ok u =>
          simp only at he
          cases he
          exact ⟨i, r, m3, rfl, hsol, hk, fun hx => by (cases hx), fun _ => ⟨m4, hr, rfl⟩⟩

/-- Two merged problems with the same variables, groups and positions. -/
structure SameLayout (m m' : Merged V) : Prop where
  order : m'.order = m.order
  group : ∀ d, groupOf m' d = groupOf m d
  lists : ∀ g, listOf m' g = listOf m g

theorem addBatch_rejected {deps} {B : Nat → Batch V} (hB : Built deps B) {cfg : Config} {w : World V S}
    (h : EInv B cfg w.m) {id : Option Nat} {force : Bool} {s : Solve V S} {w' : World V S}
    (he : addBatch B cfg w id force s = (.ok false, w')) :
    ∃ i, id = some i ∧ EInv B cfg w'.m ∧ w'.stored = w.stored ∧ w'.mem = w.mem ∧
      w'.m.problems = (w.m.problems ++ [i]).erase i ∧ SameLayout w.m w'.m := by
  obtain ⟨i, r, m, rfl, hsol, hk, _, hrej⟩ := addBatch_reaches hB h he
  obtain ⟨m', hrm, rfl⟩ := hrej rfl
  have hmem : i ∈ m.problems := by rw [hsol.problems]; simp
  unfold Merged.removePtr at hrm
  rw [if_pos hmem] at hrm
  obtain ⟨m'', e, hE⟩ := hsol.inv.remove hB w.mem (List.idxOf_lt_length_of_mem hmem)
  rw [hrm] at e
  cases e
  obtain ⟨m'', e, hm', hp', _⟩ := Merged.remove_ok hB.inv hsol.inv.inv
    (List.getElem?_eq_getElem (List.idxOf_lt_length_of_mem hmem))
  rw [hrm] at e
  cases e
  have hprob : m'.problems = (w.m.problems ++ [i]).erase i := by
    rw [hp', hsol.problems]
    exact (List.erase_eq_eraseIdx_of_idxOf rfl).symm
  have hperm : m'.problems.Perm w.m.problems := by
    rw [hprob]
    have h1 : (w.m.problems ++ [i]).Perm (i :: w.m.problems) := List.perm_append_singleton _ _
    have h2 := h1.erase i
    rwa [List.erase_cons_head] at h2
  have hforce : force = false := by
    cases force with
    | false => rfl
    | true => simp [keep] at hk
  have hgrp : ∀ d, groupOf m' d = groupOf w.m d := by
    intro d
    apply Option.ext
    intro g
    rw [hm'.live, h.inv.live]
    unfold Live
    exact exists_congr fun id => by rw [hperm.mem_iff]
  obtain ⟨so, sl⟩ := Merged.remove_lists hB.inv hrm
  have hmemord : ∀ g, g ∈ m'.order ↔ g ∈ w.m.order := by
    have key : ∀ {x : Merged V}, MInv B x → ∀ g, g ∈ x.order ↔ ∃ d, groupOf x d = some g := by
      intro x hx g
      rw [hx.c.grouped.mem_order]
      constructor
      · rintro ⟨l, hl⟩
        obtain ⟨dv, hdv⟩ := List.exists_mem_of_ne_nil l (hx.c.grouped.nonempty g l hl)
        exact ⟨dv, (hx.c.grouped.mem_grp g l hl dv).1 hdv⟩
      · rintro ⟨dv, hdv⟩
        exact hx.c.grouped.has_grp dv g hdv
    intro g
    rw [key hm', key h.inv]
    exact exists_congr fun d => by rw [hgrp]
  refine ⟨i, rfl, hE, rfl, ?_, hprob, ⟨?_, hgrp, ?_⟩⟩
  · funext d
    show Merged.restoreDesignVariables m (written m w.mem s.values) d = w.mem d
    unfold Merged.restoreDesignVariables
    rw [Batch.restoreFold hsol.inv.inv.bwf, hsol.saved hforce]
    by_cases hd : Merged.isDesignVariableInProblem m d = true
    · rw [if_pos hd]; rfl
    · rw [if_neg hd]
      unfold written
      rw [if_neg hd]; rfl
  · have hnd := hsol.inv.inv.c.grouped.nodup
    have hnd0 := h.inv.c.grouped.nodup
    have hf := Merged.sublist_eq so hnd
    have hf2 : m'.order = m.order.filter (fun x => decide (x ∈ w.m.order)) := by
      rw [hf]
      apply List.filter_congr
      intro x _
      exact decide_eq_decide.2 (hmemord x)
    obtain ⟨t, ht⟩ := hsol.perm _ rfl
    rcases ht with ht | ⟨a0, ha0, t', ht', hmo⟩
    · rw [← ht] at hf2 hnd
      rw [hf2, List.filter_append, List.filter_eq_self.2 (by simp), List.filter_eq_nil_iff.2]
      · simp
      · intro x hx hc
        rw [decide_eq_true_iff] at hc
        exact (List.nodup_append.1 hnd).2.2 x hc x hx rfl
    · rw [hmo] at hf2 hnd
      have ht'nd : t'.Nodup := (List.nodup_append.1 hnd).2.1
      have hcnd : (cfg.marg :: t).Nodup := ht'.nodup_iff.1 ht'nd
      have hdis : ∀ x ∈ t', x ∉ a0 := fun x hx hc => (List.nodup_append.1 hnd).2.2 x hc x hx rfl
      have h1 : a0.filter (fun x => decide (x ∈ w.m.order)) = a0 := by
        rw [List.filter_eq_self]
        intro x hx
        rw [ha0]
        simp [hx]
      have h2 : t'.filter (fun x => decide (x ∈ w.m.order)) = [cfg.marg] := by
        have hp2 := ht'.filter (fun x => decide (x ∈ w.m.order))
        have h3 : (cfg.marg :: t).filter (fun x => decide (x ∈ w.m.order)) = [cfg.marg] := by
          rw [List.filter_cons, if_pos (by rw [ha0]; simp), List.filter_eq_nil_iff.2]
          intro x hx hc
          rw [decide_eq_true_iff, ha0, List.mem_append, List.mem_singleton] at hc
          rcases hc with hc | hc
          · exact hdis x (ht'.mem_iff.2 (by simp [hx])) hc
          · rw [hc] at hx
            exact (List.nodup_cons.1 hcnd).1 hx
        rw [h3] at hp2
        exact List.perm_singleton.1 hp2
      rw [hf2, List.filter_append, h1, h2, ha0]
  · intro g
    obtain ⟨ext, hext, hnone⟩ := hsol.lists g
    have hgr : ∀ {x : Merged V}, MInv B x → (listOf x g).Nodup ∧ ∀ d, d ∈ listOf x g ↔ groupOf x d = some g := by
      intro x hx
      unfold listOf
      cases hfx : x.groups.find g with
      | none =>
        refine ⟨by simp, fun d => ?_⟩
        simp only [Option.getD_none, List.not_mem_nil, false_iff]
        intro hc
        obtain ⟨l, hl⟩ := hx.c.grouped.has_grp d g hc
        rw [hfx] at hl; cases hl
      | some l =>
        exact ⟨hx.c.grouped.grpNodup g l hfx, hx.c.grouped.mem_grp g l hfx⟩
    have hnd := (hgr hsol.inv.inv).1
    have hf := Merged.sublist_eq (sl g) hnd
    have hf2 : listOf m' g = (listOf m g).filter (fun x => decide (x ∈ listOf w.m g)) := by
      rw [hf]
      apply List.filter_congr
      intro x _
      refine decide_eq_decide.2 ?_
      rw [(hgr hm').2, (hgr h.inv).2, hgrp]
    rw [hf2, hext, List.filter_append, List.filter_eq_self.2 (by simp), List.filter_eq_nil_iff.2]
    · simp
    · intro x hx hc
      rw [decide_eq_true_iff] at hc
      have := ((hgr h.inv).2 x).1 hc
      rw [hnone x hx] at this
      cases this

theorem EInv.step {deps} {B : Nat → Batch V} (hB : Built deps B) {cfg : Config} {w : World V S}
    (h : EInv B cfg w.m) (op : Op V S)
    (hadd : ∀ id force s, op = .addBatch id force s → ∃ b, (step B cfg w op).1 = .ok b) :
    EInv B cfg (step B cfg w op).2.m := by
  have hrem : ∀ idx s, EInv B cfg (removeBatch B cfg w idx s).2.m := by
    intro idx s
    unfold removeBatch
    by_cases hi : idx < w.m.problems.length
    · obtain ⟨m', e, hE⟩ := h.remove hB w.mem hi
      rw [e]
      exact EInv.reoptimize (w := { w with m := m' }) hE s
    · have : w.m.problems[idx]? = none := List.getElem?_eq_none (by omega)
      simp only [Merged.remove, this]
      exact h
  cases op with
  | addBatch id force s =>
    obtain ⟨b, hb⟩ := hadd id force s rfl
    simp only [Estimator.step] at hb ⊢
    rcases hr : addBatch B cfg w id force s with ⟨o, w'⟩
    rw [hr] at hb
    cases o with
    | raise => cases hb
    | ub => cases hb
    | ok b =>
      cases b with
      | false =>
        obtain ⟨i, _, hE, _⟩ := addBatch_rejected hB h hr
        exact hE
      | true =>
        obtain ⟨i, r, m, _, hsol, _, hacc, _⟩ := addBatch_reaches hB h hr
        rw [hacc rfl]
        exact hsol.inv
  | removeBatch idx s => exact hrem idx s
  | removeBatchPtr id s =>
    simp only [Estimator.step, removeBatchPtr]
    split
    · exact hrem _ s
    · exact h
  | reoptimize s => exact h.reoptimize s
  | assign dv v => exact h

end Kalibr.Estimator
