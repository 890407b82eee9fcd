import Verif.Common
import Verif.Tactics
import Mathlib.Data.List.Sort
import Mathlib.Logic.Relation

/-!
# The extraction of the corners by several processes (C120)

`aslam_offline_calibration/kalibr/python/kalibr_common/TargetExtractor.py` (cited as `TE.py`). The images are all in the queue
before the first worker starts. A step is what one worker does between two accesses to a queue; the steps of the workers come
in any order. `detect i` is what the detector does with image `i`: it finds the target (`ok (some b)`), does not (`ok none`), or
throws. Not modelled: the progress bar, the removal of the images from the observations, and the choice between the two
detectors. A queue of a manager process is a list.
-/

namespace Kalibr.App

variable {β : Type}

/-- A worker: about to take an image, at work on one, or ended. -/
inductive Worker
  | idle
  | busy (idx : Nat)
  | ended
  deriving DecidableEq

/-- The queues and the workers. -/
structure Ext (β : Type) where
  taskq : List Nat
  resultq : List (Nat × β)
  workers : List Worker

/-- TE.py 44-57: every image is in the queue, and `p` workers start. -/
def Ext.init (numImages p : Nat) : Ext β := ⟨List.range numImages, [], List.replicate p .idle⟩

/-- TE.py 11-29: what worker `w` can do next. An exception ends the process of the worker. -/
inductive Ext.Step (detect : Nat → Out (Option β)) : Ext β → Ext β → Prop
  | take (s : Ext β) (w i : Nat) (ts : List Nat) (hw : s.workers[w]? = some .idle) (ht : s.taskq = i :: ts) :
      Ext.Step detect s { s with taskq := ts, workers := s.workers.set w (.busy i) }
  | empty (s : Ext β) (w : Nat) (hw : s.workers[w]? = some .idle) (ht : s.taskq = []) :
      Ext.Step detect s { s with workers := s.workers.set w .ended }
  | found (s : Ext β) (w i : Nat) (b : β) (hw : s.workers[w]? = some (.busy i)) (hd : detect i = .ok (some b)) :
      Ext.Step detect s { s with resultq := s.resultq ++ [(i, b)], workers := s.workers.set w .idle }
  | missed (s : Ext β) (w i : Nat) (hw : s.workers[w]? = some (.busy i)) (hd : detect i = .ok none) :
      Ext.Step detect s { s with workers := s.workers.set w .idle }
  | died (s : Ext β) (w i : Nat) (hw : s.workers[w]? = some (.busy i)) (hd : detect i = .raise) :
      Ext.Step detect s { s with workers := s.workers.set w .ended }

/-- TE.py 41-42: how many workers there are. `None` and `0` stand for the number of processors but one. -/
def numWorkers (numProcesses : Option Nat) (cpuCount : Nat) : Nat :=
  match numProcesses with
  | none => max 1 (cpuCount - 1)
  | some p => if p = 0 then max 1 (cpuCount - 1) else p

/-- TE.py 62: no worker is alive. -/
def Ext.Final (s : Ext β) : Prop := ∀ x ∈ s.workers, x = Worker.ended

/-- The order of the sort, TE.py 82. -/
def idxLe (a b : Nat × β) : Prop := a.1 ≤ b.1

instance : DecidableRel (idxLe (β := β)) := fun a b => inferInstanceAs (Decidable (a.1 ≤ b.1))

/-- TE.py 71-84: what is made of the results. The mark `STOP` makes the queue one longer. -/
def Ext.collect (s : Ext β) : List β :=
  if 1 < s.resultq.length + 1 then (s.resultq.insertionSort idxLe).map Prod.snd else []

/-- TE.py 87-96: one image after another. -/
def extractSequential (detect : Nat → Out (Option β)) (numImages : Nat) : Out (List β) :=
  (List.range numImages).foldlM (fun acc i => do
    let r ← detect i
    match r with
    | some b => pure (acc ++ [b])
    | none => pure acc) []

/-! ## Specification -/

/-- `s` is a state in which no worker is left, reached in some order from the start with `p` workers. -/
def Ext.Ends (detect : Nat → Out (Option β)) (numImages p : Nat) (s : Ext β) : Prop :=
  Relation.ReflTransGen (Ext.Step detect) (Ext.init numImages p) s ∧ s.Final

/-- The observations of the images of a list in which the target was found, in the order of the list. -/
def foundIn (detect : Nat → Out (Option β)) (l : List Nat) : List β :=
  l.filterMap fun i => match detect i with
    | .ok (some b) => some b
    | _ => none

/-! ## Proofs -/

/-- The same with the number of the image. -/
def foundPairs (detect : Nat → Out (Option β)) (l : List Nat) : List (Nat × β) :=
  l.filterMap fun i => match detect i with
    | .ok (some b) => some (i, b)
    | _ => none

theorem foundPairs_snd (detect : Nat → Out (Option β)) (l : List Nat) :
    (foundPairs detect l).map Prod.snd = foundIn detect l := by
  rw [foundPairs, foundIn, List.map_filterMap]
  congr 1
  funext i
  cases detect i with
  | ok r => cases r <;> rfl
  | raise => rfl
  | ub => rfl

/-- The image a worker is at work on. -/
def Worker.image : Worker → Option Nat
  | .busy i => some i
  | _ => none

/-- The images at work. -/
def Ext.inHand (s : Ext β) : List Nat := s.workers.filterMap Worker.image

theorem filterMap_set_perm {α γ : Type} (f : α → Option γ) (l : List α) (w : Nat) (x y : α) (h : l[w]? = some x) :
    ((f x).toList ++ (l.set w y).filterMap f).Perm ((f y).toList ++ l.filterMap f) := by
  induction l generalizing w with
  | nil => simp at h
  | cons a l ih =>
    cases w with
    | zero =>
      simp only [List.getElem?_cons_zero, Option.some.injEq] at h
      subst h
      rw [List.set_cons_zero]
      have e : ∀ z, (z :: l).filterMap f = (f z).toList ++ l.filterMap f := by
        intro z; rw [List.filterMap_cons]; cases f z <;> rfl
      rw [e, e, ← List.append_assoc, ← List.append_assoc]
      exact List.perm_append_comm.append_right _
    | succ w =>
      rw [List.getElem?_cons_succ] at h
      rw [List.set_cons_succ]
      have e : ∀ l' : List α, (a :: l').filterMap f = (f a).toList ++ l'.filterMap f := by
        intro l'; rw [List.filterMap_cons]; cases f a <;> rfl
      rw [e, e, ← List.append_assoc, ← List.append_assoc]
      refine (List.perm_append_comm.append_right _).trans ?_
      rw [List.append_assoc]
      refine ((ih w h).append_left _).trans ?_
      rw [← List.append_assoc]
      exact List.perm_append_comm.append_right _

/-- At every time the images are: those that are done, those that are lost, those at work and those in the queue. -/
def Ext.Inv (detect : Nat → Out (Option β)) (numImages p : Nat) (s : Ext β) : Prop :=
  s.workers.length = p ∧ ∃ done lost : List Nat, (done ++ lost ++ s.inHand ++ s.taskq).Perm (List.range numImages) ∧
    s.resultq = foundPairs detect done ∧ (∀ i ∈ done, detect i ≠ .raise) ∧ (∀ i ∈ lost, detect i = .raise) ∧
    (∀ i, i ∈ s.inHand → i < numImages) ∧
    (lost = [] → Worker.ended ∈ s.workers → s.taskq = [])

theorem inv_init (detect : Nat → Out (Option β)) (n p : Nat) : Ext.Inv detect n p (Ext.init n p) := by
  have h : (List.replicate p Worker.idle).filterMap Worker.image = [] := by
    rw [List.filterMap_eq_nil_iff]
    intro a ha
    rw [List.eq_of_mem_replicate ha]
    rfl
  refine ⟨by simp [Ext.init], [], [], ?_, rfl, by simp, by simp, ?_, ?_⟩
  · simp [Ext.init, Ext.inHand, h]
  · simp [Ext.init, Ext.inHand, h]
  · intro _ hm
    exact absurd (List.eq_of_mem_replicate hm) (by decide)

theorem mem_of_mem_set {α : Type} {l : List α} {w : Nat} {x y : α} (h : x ∈ l.set w y) (hne : x ≠ y) : x ∈ l :=
  (List.mem_or_eq_of_mem_set h).resolve_right hne

theorem foundPairs_append (detect : Nat → Out (Option β)) (a b : List Nat) :
    foundPairs detect (a ++ b) = foundPairs detect a ++ foundPairs detect b := List.filterMap_append ..

theorem inv_step {detect : Nat → Out (Option β)} {n p : Nat} {s t : Ext β} (hi : Ext.Inv detect n p s)
    (h : Ext.Step detect s t) : Ext.Inv detect n p t := by
  obtain ⟨hl, done, lost, hp, hr, hd, hlo, hb, he⟩ := hi
  have hin : ∀ i ∈ s.taskq, i < n := fun i hi => by
    have := hp.mem_iff (a := i)
    simp only [List.mem_append, List.mem_range] at this
    exact this.1 (Or.inr hi)
  cases h with
  | take w i ts hw ht =>
    have hq := filterMap_set_perm Worker.image s.workers w _ (.busy i) hw
    have hq' : (Ext.inHand ⟨ts, s.resultq, s.workers.set w (.busy i)⟩).Perm (i :: s.inHand) := by
      simpa [Ext.inHand, Worker.image] using hq
    refine ⟨by simpa using hl, done, lost, ?_, hr, hd, hlo, ?_, ?_⟩
    · refine List.Perm.trans ?_ hp
      rw [ht]
      refine (((hq'.append_left (done ++ lost)).append_right ts)).trans ?_
      rw [List.append_assoc, List.append_assoc (done ++ lost)]
      refine List.Perm.append_left _ ?_
      exact List.perm_middle.symm
    · intro j hj
      rcases List.mem_cons.1 (hq'.mem_iff.1 hj) with rfl | hj
      · exact hin _ (by rw [ht]; simp)
      · exact hb j hj
    · intro h0 hm
      have := he h0 (mem_of_mem_set hm (by simp))
      rw [ht] at this; simp at this
  | empty w hw ht =>
    have hq := filterMap_set_perm Worker.image s.workers w _ .ended hw
    have hq' : (Ext.inHand ⟨s.taskq, s.resultq, s.workers.set w .ended⟩).Perm s.inHand := by
      simpa [Ext.inHand, Worker.image] using hq
    refine ⟨by simpa using hl, done, lost, ?_, hr, hd, hlo, ?_, fun _ _ => ht⟩
    · exact ((hq'.append_left (done ++ lost)).append_right _).trans hp
    · intro j hj; exact hb j (hq'.mem_iff.1 hj)
  | found w i b hw hf =>
    have hq := filterMap_set_perm Worker.image s.workers w _ .idle hw
    have hq' : (i :: Ext.inHand ⟨s.taskq, s.resultq ++ [(i, b)], s.workers.set w .idle⟩).Perm s.inHand := by
      simpa [Ext.inHand, Worker.image] using hq
    refine ⟨by simpa using hl, done ++ [i], lost, ?_, ?_, ?_, hlo, ?_, ?_⟩
    · refine List.Perm.trans ?_ hp
      refine List.Perm.append_right _ ?_
      refine List.Perm.trans ?_ (hq'.append_left (done ++ lost))
      rw [List.append_assoc, List.append_assoc, List.append_assoc done lost]
      refine List.Perm.append_left _ ?_
      rw [List.singleton_append]
      exact List.perm_middle.symm
    · simp only [hr, foundPairs_append]
      congr 1
      simp [foundPairs, hf]
    · intro j hj
      rcases List.mem_append.1 hj with hj | hj
      · exact hd j hj
      · rw [List.mem_singleton.1 hj, hf]; simp
    · intro j hj; exact hb j (hq'.mem_iff.1 (List.mem_cons_of_mem _ hj))
    · intro h0 hm; exact he h0 (mem_of_mem_set hm (by simp))
  | missed w i hw hf =>
    have hq := filterMap_set_perm Worker.image s.workers w _ .idle hw
    have hq' : (i :: Ext.inHand ⟨s.taskq, s.resultq, s.workers.set w .idle⟩).Perm s.inHand := by
      simpa [Ext.inHand, Worker.image] using hq
    refine ⟨by simpa using hl, done ++ [i], lost, ?_, ?_, ?_, hlo, ?_, ?_⟩
    · refine List.Perm.trans ?_ hp
      refine List.Perm.append_right _ ?_
      refine List.Perm.trans ?_ (hq'.append_left (done ++ lost))
      rw [List.append_assoc, List.append_assoc, List.append_assoc done lost]
      refine List.Perm.append_left _ ?_
      rw [List.singleton_append]
      exact List.perm_middle.symm
    · simp only [hr, foundPairs_append]
      simp [foundPairs, hf]
    · intro j hj
      rcases List.mem_append.1 hj with hj | hj
      · exact hd j hj
      · rw [List.mem_singleton.1 hj, hf]; simp
    · intro j hj; exact hb j (hq'.mem_iff.1 (List.mem_cons_of_mem _ hj))
    · intro h0 hm; exact he h0 (mem_of_mem_set hm (by simp))
  | died w i hw hf =>
    have hq := filterMap_set_perm Worker.image s.workers w _ .ended hw
    have hq' : (i :: Ext.inHand ⟨s.taskq, s.resultq, s.workers.set w .ended⟩).Perm s.inHand := by
      simpa [Ext.inHand, Worker.image] using hq
    refine ⟨by simpa using hl, done, lost ++ [i], ?_, hr, hd, ?_, ?_, ?_⟩
    · refine List.Perm.trans ?_ hp
      refine List.Perm.append_right _ ?_
      refine List.Perm.trans ?_ (hq'.append_left (done ++ lost))
      rw [← List.append_assoc done lost, List.append_assoc (done ++ lost)]
      rfl
    · intro j hj
      rcases List.mem_append.1 hj with hj | hj
      · exact hlo j hj
      · rw [List.mem_singleton.1 hj, hf]
    · intro j hj; exact hb j (hq'.mem_iff.1 (List.mem_cons_of_mem _ hj))
    · intro h0; simp at h0

theorem inv_reach {detect : Nat → Out (Option β)} {n p : Nat} {s : Ext β}
    (h : Relation.ReflTransGen (Ext.Step detect) (Ext.init n p) s) : Ext.Inv detect n p s := by
  induction h with
  | refl => exact inv_init _ _ _
  | tail _ hs ih => exact inv_step ih hs

instance : Std.Total (idxLe (β := β)) := ⟨fun a b => Nat.le_total a.1 b.1⟩

instance : IsTrans (Nat × β) idxLe := ⟨fun _ _ _ h1 h2 => Nat.le_trans h1 h2⟩

theorem collect_eq (s : Ext β) : s.collect = (s.resultq.insertionSort idxLe).map Prod.snd := by
  rw [Ext.collect]
  by_cases h : 1 < s.resultq.length + 1
  · rw [if_pos h]
  · rw [if_neg h]
    have : s.resultq = [] := List.length_eq_zero_iff.1 (by omega)
    rw [this]; rfl

/-- What is collected are the images that are done, in their order. -/
theorem collect_found {detect : Nat → Out (Option β)} {l m : List Nat} {s : Ext β} (hr : s.resultq = foundPairs detect l)
    (hp : l.Perm m) (hm : m.Pairwise (· < ·)) : s.collect = foundIn detect m := by
  rw [collect_eq, ← foundPairs_snd, hr]
  congr 1
  have hperm : ((foundPairs detect l).insertionSort idxLe).Perm (foundPairs detect m) :=
    (List.perm_insertionSort _ _).trans (hp.filterMap _)
  have hlt : (foundPairs detect m).Pairwise fun a b => a.1 < b.1 := by
    rw [foundPairs, List.pairwise_filterMap]
    refine hm.imp ?_
    intro a a' haa b hb b' hb'
    have e1 : b.1 = a := by
      revert hb; cases detect a with
      | ok r => cases r <;> simp +contextual [eq_comm]
      | raise => simp
      | ub => simp
    have e2 : b'.1 = a' := by
      revert hb'; cases detect a' with
      | ok r => cases r <;> simp +contextual [eq_comm]
      | raise => simp
      | ub => simp
    rw [e1, e2]; exact haa
  refine List.Perm.eq_of_pairwise (le := idxLe) (fun a b ha hb h1 h2 => ?_) (List.pairwise_insertionSort _ _)
    (hlt.imp fun h => Nat.le_of_lt h) hperm
  rw [hperm.mem_iff] at ha
  by_contra hne
  obtain ⟨i, hi, rfl⟩ := List.getElem_of_mem ha
  obtain ⟨j, hj, rfl⟩ := List.getElem_of_mem hb
  rcases Nat.lt_trichotomy i j with h | h | h
  · have := List.pairwise_iff_getElem.1 hlt i j hi hj h
    unfold idxLe at h1 h2; omega
  · subst h; exact hne rfl
  · have := List.pairwise_iff_getElem.1 hlt j i hj hi h
    unfold idxLe at h1 h2; omega

theorem final_inHand {s : Ext β} (h : s.Final) : s.inHand = [] := by
  rw [Ext.inHand, List.filterMap_eq_nil_iff]
  intro a ha
  rw [h a ha]
  rfl

theorem sequential_spec (detect : Nat → Out (Option β)) (l : List Nat) (acc : List β)
    (h : ∀ i ∈ l, ∃ r, detect i = .ok r) : l.foldlM (fun acc i => do
      let r ← detect i
      match r with
      | some b => pure (acc ++ [b])
      | none => pure acc) acc = Out.ok (acc ++ foundIn detect l) := by
  induction l generalizing acc with
  | nil => simp [foundIn]
  | cons a l ih =>
    obtain ⟨r, hr⟩ := h a (by simp)
    rw [List.foldlM_cons, hr]
    have ih' := fun acc => ih acc fun i hi => h i (by simp [hi])
    cases r with
    | none =>
      simp only [Out.ok_bind, Out.pure_eq]
      refine (ih' acc).trans ?_
      simp [foundIn, hr]
    | some b =>
      simp only [Out.ok_bind, Out.pure_eq]
      refine (ih' (acc ++ [b])).trans ?_
      simp [foundIn, hr]

/-- **C120** However the steps of the workers are ordered, and however many workers there are, if the detector never throws
then the observations are those of the extraction without workers, in the same order. -/
theorem C120_schedule_partial {detect : Nat → Out (Option β)} {n cpus : Nat} {procs : Option Nat} {s : Ext β}
    (hd : ∀ i < n, ∃ r, detect i = .ok r) (h : Ext.Ends detect n (numWorkers procs cpus) s) :
    extractSequential detect n = .ok s.collect := by
  obtain ⟨hr, hf⟩ := h
  have hp : 0 < numWorkers procs cpus := by
    unfold numWorkers
    cases procs with
    | none => simp only []; omega
    | some p =>
      simp only []
      by_cases h : p = 0
      · rw [if_pos h]; omega
      · rw [if_neg h]; omega
  obtain ⟨hl, done, lost, hperm, hres, -, hlo, -, he⟩ := inv_reach hr
  rw [final_inHand hf, List.append_nil] at hperm
  have hlost : lost = [] := by
    rw [List.eq_nil_iff_forall_not_mem]
    intro i hi
    have hin : i < n := by
      rw [← List.mem_range, ← hperm.mem_iff]
      simp [hi]
    obtain ⟨r, hr⟩ := hd i hin
    rw [hlo i hi] at hr
    cases hr
  have hne : Worker.ended ∈ s.workers := by
    obtain ⟨x, hx⟩ := List.exists_mem_of_length_pos (l := s.workers) (by omega)
    rw [hf x hx] at hx
    exact hx
  rw [he hlost hne, hlost, List.append_nil, List.append_nil] at hperm
  rw [collect_found hres hperm List.pairwise_lt_range, extractSequential,
    sequential_spec _ _ _ fun i hi => hd i (List.mem_range.1 hi)]
  rfl

/-- **C120** Whatever the detector does, what is delivered are observations of images in which the target was found, in the
order of the images, each at most once; and every image is delivered, or no target was found in it, or was left in the queue or
was at work when its worker died. -/
theorem C120_subset {detect : Nat → Out (Option β)} {n p : Nat} {s : Ext β} (h : Ext.Ends detect n p s) :
    ∃ kept : List Nat, kept.Sublist (List.range n) ∧ s.collect = foundIn detect kept ∧
      ∀ i < n, i ∈ kept ∨ i ∈ s.taskq ∨ detect i = .raise := by
  obtain ⟨hr, hf⟩ := h
  obtain ⟨hl, done, lost, hperm, hres, -, hlo, -, -⟩ := inv_reach hr
  rw [final_inHand hf, List.append_nil] at hperm
  refine ⟨(List.range n).filter (· ∈ done), List.filter_sublist, ?_, ?_⟩
  · have hnd : (done ++ lost ++ s.taskq).Nodup := hperm.nodup_iff.2 List.nodup_range
    have hdn : done.Nodup := (hnd.sublist (List.sublist_append_left _ _)).sublist (List.sublist_append_left _ _)
    refine collect_found hres ?_ (List.pairwise_lt_range.filter _)
    rw [List.perm_ext_iff_of_nodup hdn (List.nodup_range.filter _)]
    intro a
    have := hperm.mem_iff (a := a)
    simp only [List.mem_append] at this
    simp only [List.mem_filter, decide_eq_true_eq]
    exact ⟨fun h => ⟨this.1 (Or.inl (Or.inl h)), h⟩, fun h => h.2⟩
  · intro i hi
    rw [← List.mem_range, ← hperm.mem_iff] at hi
    simp only [List.mem_append] at hi
    rcases hi with (hi | hi) | hi
    · exact Or.inl (by
        rw [List.mem_filter, ← hperm.mem_iff]
        simp [hi])
    · exact Or.inr (Or.inr (hlo i hi))
    · exact Or.inr (Or.inl hi)

/-- What is left to do. -/
def Worker.left : Worker → Nat
  | .idle => 1
  | .busy _ => 2
  | .ended => 0

/-- What is left to do. -/
def Ext.left (s : Ext β) : Nat := 2 * s.taskq.length + (s.workers.map Worker.left).sum

theorem sum_set (l : List Worker) (w : Nat) (x y : Worker) (h : l[w]? = some x) :
    ((l.set w y).map Worker.left).sum + x.left = (l.map Worker.left).sum + y.left := by
  induction l generalizing w with
  | nil => simp at h
  | cons a l ih =>
    cases w with
    | zero =>
      simp only [List.getElem?_cons_zero, Option.some.injEq] at h
      subst h
      simp only [List.set_cons_zero, List.map_cons, List.sum_cons]
      omega
    | succ w =>
      rw [List.getElem?_cons_succ] at h
      have := ih w h
      simp only [List.set_cons_succ, List.map_cons, List.sum_cons]
      omega

theorem left_step {detect : Nat → Out (Option β)} {s t : Ext β} (h : Ext.Step detect s t) : t.left < s.left := by
  cases h with
  | take w i ts hw ht =>
    have := sum_set s.workers w _ (.busy i) hw
    simp only [Ext.left, ht, List.length_cons]
    simp only [Worker.left] at this
    omega
  | empty w hw ht =>
    have := sum_set s.workers w _ .ended hw
    simp only [Ext.left]
    simp only [Worker.left] at this
    omega
  | found w i b hw hf =>
    have := sum_set s.workers w _ .idle hw
    simp only [Ext.left]
    simp only [Worker.left] at this
    omega
  | missed w i hw hf =>
    have := sum_set s.workers w _ .idle hw
    simp only [Ext.left]
    simp only [Worker.left] at this
    omega
  | died w i hw hf =>
    have := sum_set s.workers w _ .ended hw
    simp only [Ext.left]
    simp only [Worker.left] at this
    omega

/-- **C120** The extraction ends: there is no endless order of steps, and as long as a worker is alive there is a step. -/
theorem C120_ends (detect : Nat → Out (Option β)) (hd : ∀ i, detect i ≠ .ub) :
    WellFounded (fun t s => Ext.Step detect s t) ∧ ∀ s : Ext β, ¬ s.Final → ∃ t, Ext.Step detect s t := by
  refine ⟨Subrelation.wf (fun h => left_step h) (measure Ext.left).wf, fun s hs => ?_⟩
  simp only [Ext.Final, not_forall] at hs
  obtain ⟨x, hx, hne⟩ := hs
  obtain ⟨w, hw⟩ := List.mem_iff_getElem?.1 hx
  cases x with
  | ended => exact absurd rfl hne
  | idle =>
    cases ht : s.taskq with
    | nil => exact ⟨_, .empty s w hw ht⟩
    | cons i ts => exact ⟨_, .take s w i ts hw ht⟩
  | busy i =>
    cases hdi : detect i with
    | ok r =>
      cases r with
      | none => exact ⟨_, .missed s w i hw hdi⟩
      | some b => exact ⟨_, .found s w i b hw hdi⟩
    | raise => exact ⟨_, .died s w i hw hdi⟩
    | ub => exact absurd hdi (hd i)

/-- **C120** If the detector throws, the extraction with workers does not: the worker ends, and when no worker is left the
images that wait in the queue are given up without a word. Here the target is in each of the images but the first, on which the
detector throws; one worker delivers nothing and no error, and the extraction without workers throws. -/
theorem C120_exception_counterexample : ∃ (detect : Nat → Out (Option Nat)) (s : Ext Nat), Ext.Ends detect 3 (numWorkers (some 1) 8) s ∧
    s.collect = [] ∧ detect 1 = .ok (some 11) ∧ detect 2 = .ok (some 12) ∧ extractSequential detect 3 = .raise := by
  refine ⟨fun i => if i = 0 then .raise else .ok (some (10 + i)), ⟨[1, 2], [], [.ended]⟩, ⟨?_, by simp [Ext.Final]⟩, rfl, rfl,
    rfl, rfl⟩
  refine Relation.ReflTransGen.head (b := ⟨[1, 2], [], [.busy 0]⟩) (.take _ 0 0 [1, 2] rfl rfl) ?_
  exact Relation.ReflTransGen.head (.died _ 0 0 rfl rfl) .refl

/-- The hypotheses of `C120_schedule_partial`: two workers, and the second image is ready before the first. -/
example : ∃ (detect : Nat → Out (Option Nat)) (s : Ext Nat), (∀ i < 3, ∃ r, detect i = .ok r) ∧ Ext.Ends detect 3 (numWorkers none 3) s ∧
    s.resultq = [(1, 11), (0, 10)] ∧ s.collect = [10, 11] := by
  refine ⟨fun i => if i = 2 then .ok none else .ok (some (10 + i)), ⟨[], [(1, 11), (0, 10)], [.ended, .ended]⟩, ?_,
    ⟨?_, by simp [Ext.Final]⟩, rfl, rfl⟩
  · intro i _
    by_cases h : i = 2 <;> simp [h]
  · refine .head (b := ⟨[1, 2], [], [.busy 0, .idle]⟩) (.take _ 0 0 [1, 2] rfl rfl) ?_
    refine .head (b := ⟨[2], [], [.busy 0, .busy 1]⟩) (.take _ 1 1 [2] rfl rfl) ?_
    refine .head (b := ⟨[2], [(1, 11)], [.busy 0, .idle]⟩) (.found _ 1 1 11 rfl rfl) ?_
    refine .head (b := ⟨[2], [(1, 11), (0, 10)], [.idle, .idle]⟩) (.found _ 0 0 10 rfl rfl) ?_
    refine .head (b := ⟨[], [(1, 11), (0, 10)], [.idle, .busy 2]⟩) (.take _ 1 2 [] rfl rfl) ?_
    refine .head (b := ⟨[], [(1, 11), (0, 10)], [.ended, .busy 2]⟩) (.empty _ 0 rfl rfl) ?_
    refine .head (b := ⟨[], [(1, 11), (0, 10)], [.ended, .idle]⟩) (.missed _ 1 2 rfl rfl) ?_
    exact .head (.empty _ 1 rfl rfl) .refl

end Kalibr.App
