import Verif.LogFlag.Model
import Verif.Tactics

/-!
# C177: the switches of the logging statements
-/

namespace Kalibr.LogFlag

/-! ## Specification -/

/-- A statement prints iff its level reaches the threshold and its stream, if it has one, is
enabled. -/
def Prints (level : Nat) (streams : String → Bool) (l : Loc) : Prop :=
  level ≤ l.level ∧ (l.name = "" ∨ streams l.name = true)

/-- The cached switch of location `i` is what the settings say. -/
def Right (s : St) (i : Nat) : Prop :=
  (s.locs i).flag = true ↔ Prints s.level s.streams (s.locs i)

/-! ## The invariant -/

def holdsL : Pc → Bool
  | .loop _ _ _ => true
  | .chk _ _ _ _ _ => true
  | _ => false

def holdsN : Pc → Bool
  | .strW _ _ => true
  | .waitL n => n
  | .loop n _ _ => n
  | .chk n _ _ _ _ => n
  | _ => false

def covers (i : Nat) : Pc → Prop
  | .waitL _ => True
  | .recheck j => i = j
  | .loop _ todo _ => i ∈ todo
  | .chk _ j _ todo _ => i = j ∨ i ∈ todo
  | _ => False

def finOf : Pc → Option Nat
  | .loop _ _ fin => fin
  | .chk _ _ _ _ fin => fin
  | _ => none

def Waits (s : St) : Prop := ∃ t n, s.pc t = .waitL n

structure Inv (s : St) : Prop where
  hL : ∀ t, holdsL (s.pc t) = true ↔ s.lockL = some t
  hN : ∀ t, holdsN (s.pc t) = true ↔ s.lockN = some t
  hC : ∀ i ∈ s.reg, Right s i ∨ ∃ t, covers i (s.pc t)
  hD : ∀ t n i b todo fin, s.pc t = .chk n i b todo fin →
    b = decide (s.level ≤ (s.locs i).level) ∨ Waits s
  hE : ∀ i, (s.locs i).init = true → i ∈ s.reg
  hF : ∀ t i, finOf (s.pc t) = some i → i ∈ s.reg

theorem upd_self {α : Type} (f : Nat → α) (i : Nat) (a : α) : upd f i a i = a := by simp [upd]

theorem upd_ne {α : Type} (f : Nat → α) {i j : Nat} (a : α) (h : j ≠ i) : upd f i a j = f j := by
  simp [upd, h]

theorem inv_start (d : String) : Inv (start d) := by
  constructor <;> simp [start, holdsL, holdsN, finOf, Loc.fresh]

/-- A change of the place of one thread that keeps its locks. -/
theorem locks_move {s : St} (t : Nat) (p : Pc) (f : Pc → Bool) (l : Option Nat)
    (h : ∀ u, f (s.pc u) = true ↔ l = some u) (e : f p = f (s.pc t)) :
    ∀ u, f (upd s.pc t p u) = true ↔ l = some u := by
  intro u
  by_cases hu : u = t
  · subst hu; rw [upd_self, e]; exact h u
  · rw [upd_ne _ _ hu]; exact h u

/-- A thread takes a free lock. -/
theorem locks_take {s : St} (t : Nat) (p : Pc) (f : Pc → Bool) (l : Option Nat)
    (h : ∀ u, f (s.pc u) = true ↔ l = some u) (hl : l = none) (e : f p = true) :
    ∀ u, f (upd s.pc t p u) = true ↔ some t = some u := by
  intro u
  by_cases hu : u = t
  · subst hu; rw [upd_self, e]; simp
  · rw [upd_ne _ _ hu, h u, hl]; simp; exact fun e' => hu e'.symm

/-- A thread gives a lock back. -/
theorem locks_drop {s : St} (t : Nat) (p : Pc) (f : Pc → Bool) (l : Option Nat)
    (h : ∀ u, f (s.pc u) = true ↔ l = some u) (hl : f (s.pc t) = true) (e : f p = false) :
    ∀ u, f (upd s.pc t p u) = true ↔ (none : Option Nat) = some u := by
  intro u
  have h1 := (h t).mp hl
  by_cases hu : u = t
  · subst hu; rw [upd_self, e]; simp
  · rw [upd_ne _ _ hu, h u, h1]; simp; exact fun e' => hu e'.symm

/-- The cover of the other threads stays. -/
theorem cover_other {s : St} (t : Nat) (p : Pc) {i u : Nat} (hu : u ≠ t)
    (h : covers i (s.pc u)) : ∃ v, covers i (upd s.pc t p v) :=
  ⟨u, by rw [upd_ne _ _ hu]; exact h⟩

theorem cover_self {s : St} (t : Nat) (p : Pc) {i : Nat} (h : covers i p) :
    ∃ v, covers i (upd s.pc t p v) := ⟨t, by rw [upd_self]; exact h⟩

/-- The cover after a move of `t` that gives nothing up. -/
theorem cover_move {s : St} (t : Nat) (p : Pc) {i : Nat}
    (hp : covers i (s.pc t) → covers i p) (h : ∃ u, covers i (s.pc u)) :
    ∃ v, covers i (upd s.pc t p v) := by
  obtain ⟨u, hu⟩ := h
  by_cases e : u = t
  · subst e; exact cover_self u p (hp hu)
  · exact cover_other t p e hu

theorem waits_move {s : St} (t : Nat) (p : Pc) (hp : ∀ n, s.pc t ≠ .waitL n) (h : Waits s) :
    ∃ u n, upd s.pc t p u = .waitL n := by
  obtain ⟨u, n, hu⟩ := h
  have e : u ≠ t := by rintro rfl; exact hp n hu
  exact ⟨u, n, by rw [upd_ne _ _ e]; exact hu⟩

theorem fin_move {s : St} (t : Nat) (p : Pc) (h : ∀ u i, finOf (s.pc u) = some i → i ∈ s.reg)
    (hp : ∀ i, finOf p = some i → i ∈ s.reg) :
    ∀ u i, finOf (upd s.pc t p u) = some i → i ∈ s.reg := by
  intro u i
  by_cases e : u = t
  · subst e; rw [upd_self]; exact hp i
  · rw [upd_ne _ _ e]; exact h u i

/-- Only the place of `t` changes, and it neither held nor takes a lock nor owes a check. -/
theorem inv_move {s : St} (h : Inv s) (t : Nat) (p : Pc)
    (hl : holdsL p = holdsL (s.pc t)) (hn : holdsN p = holdsN (s.pc t))
    (hc : ∀ i, covers i (s.pc t) → covers i p) (hw : ∀ n, s.pc t ≠ .waitL n)
    (hd : ∀ n i b todo fin, p = .chk n i b todo fin → b = decide (s.level ≤ (s.locs i).level))
    (hf : ∀ i, finOf p = some i → i ∈ s.reg) :
    Inv { s with pc := upd s.pc t p } where
  hL := locks_move t p holdsL s.lockL h.hL hl
  hN := locks_move t p holdsN s.lockN h.hN hn
  hC := by
    intro i hi
    rcases h.hC i hi with r | c
    · exact Or.inl r
    · exact Or.inr (cover_move t p (hc i) c)
  hD := by
    intro u n i b todo fin e
    by_cases hu : u = t
    · subst hu
      have e' : p = .chk n i b todo fin := by simpa [upd_self] using e
      exact Or.inl (hd n i b todo fin e')
    · have e' : s.pc u = .chk n i b todo fin := by simpa [upd_ne _ _ hu] using e
      rcases h.hD u n i b todo fin e' with r | w
      · exact Or.inl r
      · exact Or.inr (waits_move t p hw w)
  hE := h.hE
  hF := fin_move t p h.hF hf

/-- While nobody holds `_locations_mutex` nobody is in a check. -/
theorem no_chk {s : St} (h : Inv s) (hl : s.lockL = none) (t : Nat) : holdsL (s.pc t) = false := by
  cases e : holdsL (s.pc t)
  · rfl
  · have := (h.hL t).mp e
    rw [hl] at this; simp at this

theorem inv_call {s : St} (h : Inv s) (t : Nat) (op : Op) (hi : s.pc t = .idle) :
    Inv (call s t op) := by
  have key : ∀ p : Pc, holdsL p = false → holdsN p = false → finOf p = none →
      (∀ n i b todo fin, p ≠ .chk n i b todo fin) → Inv { s with pc := upd s.pc t p } := by
    intro p h1 h2 h3 h4
    refine inv_move h t p (by rw [hi]; exact h1) (by rw [hi]; exact h2) ?_ ?_ ?_ ?_
    · intro i hc; rw [hi] at hc; exact hc.elim
    · intro n; rw [hi]; simp
    · intro n i b todo fin e; exact (h4 n i b todo fin e).elim
    · intro i e; rw [h3] at e; simp at e
  cases op with
  | setLevel x => exact key _ rfl rfl rfl (by simp)
  | stream on n => exact key _ rfl rfl rfl (by simp)
  | init i name level => exact key _ rfl rfl rfl (by simp)
  | relevel i level =>
    show Inv (if (s.locs i).init then { s with pc := upd s.pc t (.rel i level) } else s)
    split
    · exact key _ rfl rfl rfl (by simp)
    · exact h

theorem inv_step {s s' : St} (h : Inv s) (t : Nat) (hs : step s t = some s') : Inv s' := by
  unfold step at hs
  cases hp : s.pc t with
  | idle => rw [hp] at hs; simp at hs
  | lvl x =>
    rw [hp] at hs
    simp only at hs
    split at hs <;> (injection hs with hs; subst hs)
    · refine inv_move h t _ (by rw [hp]; rfl) (by rw [hp]; rfl) ?_ (by rw [hp]; simp)
        (by simp) (by simp [finOf])
      intro i hc; rw [hp] at hc; exact hc.elim
    · refine inv_move h t _ (by rw [hp]; rfl) (by rw [hp]; rfl) ?_ (by rw [hp]; simp)
        (by simp) (by simp [finOf])
      intro i hc; rw [hp] at hc; exact hc.elim
  | lvlW x =>
    rw [hp] at hs
    injection hs with hs
    subst hs
    refine ⟨locks_move t _ holdsL _ h.hL (by rw [hp]; rfl),
      locks_move t _ holdsN _ h.hN (by rw [hp]; rfl), ?_, ?_, h.hE,
      fin_move t _ h.hF (by simp [finOf])⟩
    · intro i hi
      exact Or.inr (cover_self t _ trivial)
    · intro u n i b todo fin e
      exact Or.inr ⟨t, false, upd_self _ _ _⟩
  | str on n =>
    rw [hp] at hs
    simp only at hs
    split at hs
    · rename_i hl
      injection hs with hs
      subst hs
      refine ⟨locks_move t _ holdsL _ h.hL (by rw [hp]; rfl),
        locks_take t _ holdsN _ h.hN hl rfl, ?_, ?_, h.hE, fin_move t _ h.hF (by simp [finOf])⟩
      · intro i hi
        rcases h.hC i hi with r | c
        · exact Or.inl r
        · exact Or.inr (cover_move t _ (by intro hc; rw [hp] at hc; exact hc.elim) c)
      · intro u n' i b todo fin e
        by_cases hu : u = t
        · subst hu; simp [upd_self] at e
        · have e' : s.pc u = .chk n' i b todo fin := by simpa [upd_ne _ _ hu] using e
          rcases h.hD u n' i b todo fin e' with r | w
          · exact Or.inl r
          · exact Or.inr (waits_move t _ (by rw [hp]; simp) w)
    · simp at hs
  | strW on n =>
    rw [hp] at hs
    simp only at hs
    have hn : holdsN (s.pc t) = true := by rw [hp]; rfl
    split at hs <;> (injection hs with hs; subst hs)
    · refine ⟨locks_move t _ holdsL _ h.hL (by rw [hp]; rfl),
        locks_drop t _ holdsN _ h.hN hn rfl, ?_, ?_, h.hE, fin_move t _ h.hF (by simp [finOf])⟩
      · intro i hi
        rcases h.hC i hi with r | c
        · exact Or.inl r
        · exact Or.inr (cover_move t _ (by intro hc; rw [hp] at hc; exact hc.elim) c)
      · intro u n' i b todo fin e
        by_cases hu : u = t
        · subst hu; simp [upd_self] at e
        · have e' : s.pc u = .chk n' i b todo fin := by simpa [upd_ne _ _ hu] using e
          rcases h.hD u n' i b todo fin e' with r | w
          · exact Or.inl r
          · exact Or.inr (waits_move t _ (by rw [hp]; simp) w)
    · refine ⟨locks_move t _ holdsL _ h.hL (by rw [hp]; rfl),
        locks_move t _ holdsN _ h.hN (by rw [hp]; rfl), ?_, ?_, h.hE,
        fin_move t _ h.hF (by simp [finOf])⟩
      · intro i hi
        exact Or.inr (cover_self t _ trivial)
      · intro u n' i b todo fin e
        exact Or.inr ⟨t, true, upd_self _ _ _⟩
  | waitL n =>
    rw [hp] at hs
    simp only at hs
    split at hs
    · rename_i hl
      injection hs with hs
      subst hs
      refine ⟨locks_take t _ holdsL _ h.hL hl rfl,
        locks_move t _ holdsN _ h.hN (by rw [hp]; rfl), ?_, ?_, h.hE,
        fin_move t _ h.hF (by simp [finOf])⟩
      · intro i hi
        exact Or.inr (cover_self t _ hi)
      · intro u n' i b todo fin e
        by_cases hu : u = t
        · subst hu; simp [upd_self] at e
        · have e' : s.pc u = .chk n' i b todo fin := by simpa [upd_ne _ _ hu] using e
          have := no_chk h hl u
          rw [e'] at this; simp [holdsL] at this
    · simp at hs
  | ini i name level =>
    rw [hp] at hs
    simp only at hs
    split at hs
    · rename_i hl
      split at hs <;> (injection hs with hs; subst hs)
      · refine inv_move h t _ (by rw [hp]; rfl) (by rw [hp]; rfl) ?_ (by rw [hp]; simp)
          (by simp) (by simp [finOf])
        intro i hc; rw [hp] at hc; exact hc.elim
      · rename_i hni
        refine ⟨locks_take t _ holdsL _ h.hL hl rfl,
          locks_move t _ holdsN _ h.hN (by rw [hp]; rfl), ?_, ?_, ?_, ?_⟩
        · intro j hj
          by_cases hji : j = i
          · subst hji; exact Or.inr (cover_self t _ (by simp [covers]))
          · have hj' : j ∈ s.reg := by
              rcases List.mem_append.mp hj with hj | hj
              · exact hj
              · exact (hji (by simpa using hj)).elim
            rcases h.hC j hj' with r | c
            · left
              unfold Right at r ⊢
              simpa [upd_ne _ _ hji] using r
            · exact Or.inr (cover_move t _ (by intro hc; rw [hp] at hc; exact hc.elim) c)
        · intro u n' j b todo fin e
          by_cases hu : u = t
          · subst hu; simp [upd_self] at e
          · have e' : s.pc u = .chk n' j b todo fin := by simpa [upd_ne _ _ hu] using e
            have := no_chk h hl u
            rw [e'] at this; simp [holdsL] at this
        · intro j hj
          by_cases hji : j = i
          · subst hji; simp
          · refine List.mem_append_left _ (h.hE j ?_)
            simpa [upd_ne _ _ hji] using hj
        · intro u j e
          by_cases hu : u = t
          · subst hu
            simp [upd_self, finOf] at e
            subst e; simp
          · exact List.mem_append_left _ (h.hF u j (by simpa [upd_ne _ _ hu] using e))
    · simp at hs
  | rel i level =>
    rw [hp] at hs
    simp only at hs
    split at hs
    · rename_i hl
      injection hs with hs
      subst hs
      refine ⟨locks_move t _ holdsL _ h.hL (by rw [hp]; rfl),
        locks_move t _ holdsN _ h.hN (by rw [hp]; rfl), ?_, ?_, ?_,
        fin_move t _ h.hF (by simp [finOf])⟩
      · intro j hj
        by_cases hji : j = i
        · subst hji; exact Or.inr (cover_self t _ rfl)
        · rcases h.hC j hj with r | c
          · left
            unfold Right at r ⊢
            simpa [upd_ne _ _ hji] using r
          · exact Or.inr (cover_move t _ (by intro hc; rw [hp] at hc; exact hc.elim) c)
      · intro u n' j b todo fin e
        by_cases hu : u = t
        · subst hu; simp [upd_self] at e
        · have e' : s.pc u = .chk n' j b todo fin := by simpa [upd_ne _ _ hu] using e
          have := no_chk h hl u
          rw [e'] at this; simp [holdsL] at this
      · intro j hj
        by_cases hji : j = i
        · subst hji; exact h.hE j (by simpa [upd_self] using hj)
        · exact h.hE j (by simpa [upd_ne _ _ hji] using hj)
    · simp at hs
  | recheck i =>
    rw [hp] at hs
    simp only at hs
    split at hs
    · rename_i hl
      injection hs with hs
      subst hs
      refine ⟨locks_take t _ holdsL _ h.hL hl rfl,
        locks_move t _ holdsN _ h.hN (by rw [hp]; rfl), ?_, ?_, h.hE,
        fin_move t _ h.hF (by simp [finOf])⟩
      · intro j hj
        rcases h.hC j hj with r | c
        · exact Or.inl r
        · refine Or.inr (cover_move t _ ?_ c)
          intro hc; rw [hp] at hc
          simp only [covers] at hc ⊢
          simp [hc]
      · intro u n' j b todo fin e
        by_cases hu : u = t
        · subst hu; simp [upd_self] at e
        · have e' : s.pc u = .chk n' j b todo fin := by simpa [upd_ne _ _ hu] using e
          have := no_chk h hl u
          rw [e'] at this; simp [holdsL] at this
    · simp at hs
  | loop n todo fin =>
    cases todo with
    | cons i todo =>
      rw [hp] at hs
      injection hs with hs
      subst hs
      refine inv_move h t _ (by rw [hp]; rfl) (by rw [hp]; rfl) ?_ (by rw [hp]; simp) ?_ ?_
      · intro j hc; rw [hp] at hc
        simpa [covers] using hc
      · intro n' j b todo' fin' e
        injection e with e1 e2 e3 e4 e5
        subst e2; exact e3.symm
      · intro j e
        exact h.hF t j (by rw [hp]; exact e)
    | nil =>
      rw [hp] at hs
      injection hs with hs
      subst hs
      have hl : holdsL (s.pc t) = true := by rw [hp]; rfl
      have hfl : ∀ j, (finish s.locs fin j).flag = (s.locs j).flag ∧
          (finish s.locs fin j).level = (s.locs j).level ∧
          (finish s.locs fin j).name = (s.locs j).name := by
        intro j
        cases fin with
        | none => exact ⟨rfl, rfl, rfl⟩
        | some i =>
          by_cases hji : j = i
          · subst hji; simp [finish, upd_self]
          · simp [finish, upd_ne _ _ hji]
      refine ⟨locks_drop t _ holdsL _ h.hL hl rfl, ?_, ?_, ?_, ?_, fin_move t _ h.hF (by simp [finOf])⟩
      · cases n with
        | false => exact locks_move t _ holdsN _ h.hN (by rw [hp]; rfl)
        | true => exact locks_drop t _ holdsN _ h.hN (by rw [hp]; rfl) rfl
      · intro j hj
        rcases h.hC j hj with r | c
        · left
          unfold Right Prints at r ⊢
          obtain ⟨e1, e2, e3⟩ := hfl j
          show (finish s.locs fin j).flag = true ↔ s.level ≤ (finish s.locs fin j).level ∧
            ((finish s.locs fin j).name = "" ∨ s.streams (finish s.locs fin j).name = true)
          rw [e1, e2, e3]
          exact r
        · refine Or.inr (cover_move t _ ?_ c)
          intro hc; rw [hp] at hc
          simp [covers] at hc
      · intro u n' j b todo fin' e
        by_cases hu : u = t
        · subst hu; simp [upd_self] at e
        · have e' : s.pc u = .chk n' j b todo fin' := by simpa [upd_ne _ _ hu] using e
          rcases h.hD u n' j b todo fin' e' with r | w
          · left
            show b = decide (s.level ≤ (finish s.locs fin j).level)
            rw [(hfl j).2.1]; exact r
          · exact Or.inr (waits_move t _ (by rw [hp]; simp) w)
      · intro j hj
        have hj' : (finish s.locs fin j).init = true := hj
        cases hfin : fin with
        | none => rw [hfin] at hj'; exact h.hE j hj'
        | some i =>
          rw [hfin] at hj'
          by_cases hji : j = i
          · subst hji; exact h.hF t j (by rw [hp]; exact hfin)
          · exact h.hE j (by simpa [finish, upd_ne _ _ hji] using hj')
  | chk n i b todo fin =>
    rw [hp] at hs
    simp only at hs
    have hl : holdsL (s.pc t) = true := by rw [hp]; rfl
    have main : ∀ f : Bool, f = (b && ((s.locs i).name == "" || s.streams (s.locs i).name)) →
        Inv { s with
          locs := upd s.locs i { s.locs i with flag := f }
          pc := upd s.pc t (.loop n todo fin) } := by
      intro f hf
      refine ⟨locks_move t _ holdsL _ h.hL (by rw [hp]; rfl),
        locks_move t _ holdsN _ h.hN (by rw [hp]; rfl), ?_, ?_, ?_, ?_⟩
      · intro j hj
        by_cases hji : j = i
        · subst hji
          rcases h.hD t n j b todo fin hp with r | w
          · left
            subst r
            unfold Right Prints
            simp [upd_self, hf]
          · right
            obtain ⟨u, n', hu⟩ := w
            refine cover_other (u := u) t _ ?_ ?_
            · rintro rfl; rw [hp] at hu; simp at hu
            · rw [hu]; trivial
        · rcases h.hC j hj with r | c
          · left
            unfold Right at r ⊢
            simpa [upd_ne _ _ hji] using r
          · refine Or.inr (cover_move t _ ?_ c)
            intro hc; rw [hp] at hc
            simpa [covers, hji] using hc
      · intro u n' j b' todo' fin' e
        by_cases hu : u = t
        · subst hu; simp [upd_self] at e
        · have e' : s.pc u = .chk n' j b' todo' fin' := by simpa [upd_ne _ _ hu] using e
          have h1 := (h.hL t).mp hl
          have h2 := (h.hL u).mp (by rw [e']; rfl)
          rw [h1] at h2
          exact (hu (by simpa using h2.symm)).elim
      · intro j hj
        by_cases hji : j = i
        · subst hji; exact h.hE j (by simpa [upd_self] using hj)
        · exact h.hE j (by simpa [upd_ne _ _ hji] using hj)
      · exact fin_move t _ h.hF (by intro j e; exact h.hF t j (by rw [hp]; exact e))
    split at hs
    · rename_i hb
      split at hs
      · injection hs with hs
        subst hs
        refine main _ ?_
        simp [hb.1, hb.2]
      · simp at hs
    · rename_i hb
      injection hs with hs
      subst hs
      refine main _ ?_
      cases b with
      | false => rfl
      | true =>
        simp at hb
        simp [hb]

theorem inv_reach {d : String} {s : St} (h : Reach d s) : Inv s := by
  induction h with
  | start => exact inv_start d
  | call t op _ hi ih => exact inv_call ih t op hi
  | step t _ hs ih => exact inv_step ih t hs

/-! ## The theorems -/

/-- Whatever the threads did, in whatever order their accesses took place: whenever no thread is
inside a call, the switch of every statement that was reached so far is what the level and the
enabled streams say. -/
theorem C177_quiescent {d : String} {s : St} (h : Reach d s) (hq : ∀ t, s.pc t = .idle) (i : Nat)
    (hi : (s.locs i).init = true) :
    (s.locs i).flag = true ↔
      s.level ≤ (s.locs i).level ∧ ((s.locs i).name = "" ∨ s.streams (s.locs i).name = true) := by
  rcases (inv_reach h).hC i ((inv_reach h).hE i hi) with r | ⟨t, c⟩
  · exact r
  · rw [hq t] at c; exact c.elim

/-- `setLevel(x)` either finds the level to be `x` and is done or goes on to write it; where it leaves
the write behind the level is `x`, and it stays until another `setLevel` writes. -/
theorem C177_level {s s' : St} (t : Nat) (hs : step s t = some s') :
    (∀ x, s.pc t = .lvlW x → s'.level = x) ∧
    (∀ x, s.pc t = .lvl x → s'.pc t = .lvlW x ∨ (s'.pc t = .idle ∧ s'.level = x)) ∧
    ((∀ x, s.pc t ≠ .lvlW x) → s'.level = s.level) := by
  unfold step at hs
  cases hp : s.pc t with
  | idle => rw [hp] at hs; simp at hs
  | loop n todo fin => cases todo <;> (rw [hp] at hs; injection hs with hs; subst hs; simp)
  | lvlW x => rw [hp] at hs; injection hs with hs; subst hs; simp
  | lvl x =>
    rw [hp] at hs; simp only at hs
    split at hs <;> (injection hs with hs; subst hs; simp_all [upd_self])
  | _ =>
    rw [hp] at hs; simp only at hs
    (repeat' split at hs) <;> first
      | (injection hs with hs; subst hs; simp)
      | simp at hs

/-- `initializeLogLocation` gives a location the name and the level it was called with unless the
location was initialized before; `setLogLocationLevel` gives it the level; nothing else changes the
name or the level of a location. -/
theorem C177_location {s s' : St} (t : Nat) (hs : step s t = some s') :
    (∀ i name level, s.pc t = .ini i name level → (s.locs i).init = false →
      (s'.locs i).name = name ∧ (s'.locs i).level = level ∧ i ∈ s'.reg) ∧
    (∀ i level, s.pc t = .rel i level →
      (s'.locs i).level = level ∧ (s'.locs i).name = (s.locs i).name ∧ s'.pc t = .recheck i) ∧
    (∀ i, (∀ name level, s.pc t ≠ .ini i name level) → (∀ level, s.pc t ≠ .rel i level) →
      (s'.locs i).level = (s.locs i).level ∧ (s'.locs i).name = (s.locs i).name) := by
  unfold step at hs
  cases hp : s.pc t with
  | idle => rw [hp] at hs; simp at hs
  | loop n todo fin =>
    cases todo with
    | cons j todo => rw [hp] at hs; injection hs with hs; subst hs; simp
    | nil =>
      rw [hp] at hs; injection hs with hs; subst hs
      refine ⟨by simp, by simp, fun i _ _ => ?_⟩
      cases fin with
      | none => exact ⟨rfl, rfl⟩
      | some j =>
        simp only [finish, upd]
        split
        · rename_i e; subst e; exact ⟨rfl, rfl⟩
        · exact ⟨rfl, rfl⟩
  | chk n j b todo fin =>
    rw [hp] at hs; simp only at hs
    (repeat' split at hs) <;> first
      | (injection hs with hs; subst hs
         refine ⟨by simp, by simp, fun i _ _ => ?_⟩
         simp only [upd]
         split
         · rename_i e; subst e; exact ⟨rfl, rfl⟩
         · exact ⟨rfl, rfl⟩)
      | simp at hs
  | ini j name level =>
    rw [hp] at hs; simp only at hs
    split at hs
    · split at hs
      · rename_i hinit
        injection hs with hs; subst hs
        refine ⟨?_, by simp, fun i _ _ => ⟨rfl, rfl⟩⟩
        intro i name' level' e hf
        injection e with e1 e2 e3; subst e1
        rw [hinit] at hf; cases hf
      · injection hs with hs; subst hs
        refine ⟨?_, by simp, ?_⟩
        · intro i name' level' e hf
          injection e with e1 e2 e3; subst e1 e2 e3
          simp [upd]
        · intro i h1 _
          have hne : i ≠ j := fun e => h1 name level (by rw [e])
          simp [upd, hne]
    · simp at hs
  | rel j level =>
    rw [hp] at hs; simp only at hs
    split at hs
    · injection hs with hs; subst hs
      refine ⟨by simp, ?_, ?_⟩
      · intro i level' e
        injection e with e1 e2; subst e1 e2
        simp [upd]
      · intro i _ h2
        have hne : i ≠ j := fun e => h2 level (by rw [e])
        simp [upd, hne]
    · simp at hs
  | lvlW x => rw [hp] at hs; injection hs with hs; subst hs; simp
  | _ =>
    rw [hp] at hs; simp only at hs
    (repeat' split at hs) <;> first
      | (injection hs with hs; subst hs; simp)
      | simp at hs

/-- The step is taken, for example, by the first call in the program. -/
example : (step (call (start "sm") 0 (.init 3 "sm" 8)) 0).isSome = true := rfl

/-- `enableNamedStream(n)` and `disableNamedStream(n)` leave `n` enabled and disabled and touch no
other stream; nothing else touches the streams. -/
theorem C177_streams {s s' : St} (t : Nat) (hs : step s t = some s') :
    (∀ on n, s.pc t = .strW on n → s'.streams n = on ∧ ∀ m, m ≠ n → s'.streams m = s.streams m) ∧
    ((∀ on n, s.pc t ≠ .strW on n) → s'.streams = s.streams) := by
  unfold step at hs
  cases hp : s.pc t with
  | idle => rw [hp] at hs; simp at hs
  | loop n todo fin => cases todo <;> (rw [hp] at hs; injection hs with hs; subst hs; simp)
  | strW on n =>
    rw [hp] at hs; simp only at hs
    split at hs <;> (injection hs with hs; subst hs)
    · rename_i hc
      refine ⟨?_, fun hh => (hh on n rfl).elim⟩
      intro on' n' e; injection e with e1 e2; subst e1 e2
      exact ⟨by rw [hc.1, hc.2], fun _ _ => rfl⟩
    · refine ⟨?_, fun hh => (hh on n rfl).elim⟩
      intro on' n' e; injection e with e1 e2; subst e1 e2
      exact ⟨by simp [updS], fun m hm => by simp [updS, hm]⟩
  | lvl x =>
    rw [hp] at hs; simp only at hs
    split at hs <;> (injection hs with hs; subst hs; simp_all [upd_self])
  | lvlW x => rw [hp] at hs; injection hs with hs; subst hs; simp
  | _ =>
    rw [hp] at hs; simp only at hs
    (repeat' split at hs) <;> first
      | (injection hs with hs; subst hs; simp)
      | simp at hs

/-- The only way in which the logging system can stop: if some thread is inside a call and no such
thread can go on, then one thread holds the mutex of the streams and waits for the mutex of the
locations, and another one holds the mutex of the locations and waits for the mutex of the
streams. -/
theorem C177_progress_partial {d : String} {s : St} (h : Reach d s) (t : Nat)
    (ht : s.pc t ≠ .idle) :
    (∃ u s', step s u = some s') ∨
    ∃ a b, a ≠ b ∧ s.lockN = some a ∧ s.pc a = .waitL true ∧ s.lockL = some b ∧
      ∃ i n todo fin, s.pc b = .chk n i true todo fin ∧ (s.locs i).name ≠ "" := by
  have inv := inv_reach h
  cases hl : s.lockL with
  | some b =>
    have hb := (inv.hL b).mpr hl
    cases hp : s.pc b with
    | loop n todo fin =>
      left
      cases todo with
      | nil => exact ⟨b, _, by unfold step; rw [hp]⟩
      | cons i todo => exact ⟨b, _, by unfold step; rw [hp]⟩
    | chk n i c todo fin =>
      by_cases hc : c = true ∧ (s.locs i).name ≠ ""
      · by_cases hn : s.lockN = none ∨ s.lockN = some b
        · left
          exact ⟨b, _, by unfold step; rw [hp]; simp only; rw [if_pos hc, if_pos hn]⟩
        · cases hN : s.lockN with
          | none => exact (hn (Or.inl hN)).elim
          | some a =>
            have hab : a ≠ b := by rintro rfl; exact hn (Or.inr hN)
            have ha := (inv.hN a).mpr hN
            have hna : holdsL (s.pc a) = false := by
              cases e : holdsL (s.pc a)
              · rfl
              · have := (inv.hL a).mp e
                rw [hl] at this
                exact (hab (by simpa using this.symm)).elim
            cases hpa : s.pc a with
            | strW on n' =>
              left
              by_cases hx : on = false ∧ s.streams n' = false
              · exact ⟨a, _, by unfold step; rw [hpa]; simp only; rw [if_pos hx]⟩
              · exact ⟨a, _, by unfold step; rw [hpa]; simp only; rw [if_neg hx]⟩
            | waitL n' =>
              rw [hpa] at ha
              simp only [holdsN] at ha
              subst ha
              right
              obtain ⟨rfl, hname⟩ := hc
              exact ⟨a, b, hab, rfl, hpa, rfl, i, n, todo, fin, hp, hname⟩
            | loop _ _ _ => rw [hpa] at hna; simp [holdsL] at hna
            | chk _ _ _ _ _ => rw [hpa] at hna; simp [holdsL] at hna
            | idle => rw [hpa] at ha; simp [holdsN] at ha
            | lvl _ => rw [hpa] at ha; simp [holdsN] at ha
            | lvlW _ => rw [hpa] at ha; simp [holdsN] at ha
            | str _ _ => rw [hpa] at ha; simp [holdsN] at ha
            | ini _ _ _ => rw [hpa] at ha; simp [holdsN] at ha
            | rel _ _ => rw [hpa] at ha; simp [holdsN] at ha
            | recheck _ => rw [hpa] at ha; simp [holdsN] at ha
      · left
        exact ⟨b, _, by unfold step; rw [hp]; simp only; rw [if_neg hc]⟩
    | idle => rw [hp] at hb; simp [holdsL] at hb
    | lvl _ => rw [hp] at hb; simp [holdsL] at hb
    | lvlW _ => rw [hp] at hb; simp [holdsL] at hb
    | str _ _ => rw [hp] at hb; simp [holdsL] at hb
    | strW _ _ => rw [hp] at hb; simp [holdsL] at hb
    | waitL _ => rw [hp] at hb; simp [holdsL] at hb
    | ini _ _ _ => rw [hp] at hb; simp [holdsL] at hb
    | rel _ _ => rw [hp] at hb; simp [holdsL] at hb
    | recheck _ => rw [hp] at hb; simp [holdsL] at hb
  | none =>
    left
    have free := no_chk inv hl
    -- a thread that holds the other mutex or, without one, the thread `t` itself can go on
    have go : ∀ u, (∀ on n, s.pc u = .str on n → s.lockN = none) → s.pc u ≠ .idle →
        ∃ s', step s u = some s' := by
      intro u hstr hne
      have fu := free u
      cases hp : s.pc u with
      | idle => exact (hne hp).elim
      | lvl x =>
        by_cases hx : x = s.level
        · exact ⟨_, by unfold step; rw [hp]; simp only; rw [if_pos hx]⟩
        · exact ⟨_, by unfold step; rw [hp]; simp only; rw [if_neg hx]⟩
      | lvlW x => exact ⟨_, by unfold step; rw [hp]⟩
      | str on n => exact ⟨_, by unfold step; rw [hp]; simp only; rw [if_pos (hstr on n hp)]⟩
      | strW on n =>
        by_cases hx : on = false ∧ s.streams n = false
        · exact ⟨_, by unfold step; rw [hp]; simp only; rw [if_pos hx]⟩
        · exact ⟨_, by unfold step; rw [hp]; simp only; rw [if_neg hx]⟩
      | waitL n => exact ⟨_, by unfold step; rw [hp]; simp only; rw [if_pos hl]⟩
      | ini i name level =>
        by_cases hx : (s.locs i).init = true
        · exact ⟨_, by unfold step; rw [hp]; simp only; rw [if_pos hl, if_pos hx]⟩
        · exact ⟨_, by unfold step; rw [hp]; simp only; rw [if_pos hl, if_neg hx]⟩
      | rel i level => exact ⟨_, by unfold step; rw [hp]; simp only; rw [if_pos hl]⟩
      | recheck i => exact ⟨_, by unfold step; rw [hp]; simp only; rw [if_pos hl]⟩
      | loop _ _ _ => rw [hp] at fu; simp [holdsL] at fu
      | chk _ _ _ _ _ => rw [hp] at fu; simp [holdsL] at fu
    cases hN : s.lockN with
    | none => exact ⟨t, go t (fun _ _ _ => hN) ht⟩
    | some a =>
      have ha := (inv.hN a).mpr hN
      refine ⟨a, go a ?_ ?_⟩
      · intro on n e; rw [e] at ha; simp [holdsN] at ha
      · intro e; rw [e] at ha; simp [holdsN] at ha

/-! ## The deadlock -/

/-- Schedules: `(t, none)` is a step of `t`, `(t, some op)` a call. -/
def run (s : St) : List (Nat × Option Op) → Option St
  | [] => some s
  | (t, none) :: r => match step s t with
    | some s' => run s' r
    | none => none
  | (t, some op) :: r => match s.pc t with
    | .idle => run (call s t op) r
    | _ => none

theorem reach_run {d : String} : ∀ (l : List (Nat × Option Op)) {s s' : St}, Reach d s →
    run s l = some s' → Reach d s'
  | [], s, s', h, e => by injection e with e; subst e; exact h
  | (t, none) :: r, s, s', h, e => by
    unfold run at e
    cases hs : step s t with
    | none => rw [hs] at e; simp at e
    | some s1 => rw [hs] at e; exact reach_run r (Reach.step t h hs) e
  | (t, some op) :: r, s, s', h, e => by
    unfold run at e
    cases hp : s.pc t with
    | idle => rw [hp] at e; exact reach_run r (Reach.call t op h hp) e
    | _ => rw [hp] at e; simp at e

/-- Thread 1 reaches its first logging statement while thread 0 enables a stream. -/
def clash : List (Nat × Option Op) :=
  [(0, some (.stream true "x")), (1, some (.init 0 "sm" 7)), (0, none), (0, none), (1, none),
   (1, none)]

/-- Whatever the other threads do, two threads that wait for each other's mutex stay. -/
theorem stuck_stays {d : String} {s : St} (h : Reach d s) (a b : Nat)
    (hN : s.lockN = some a) (ha : s.pc a = .waitL true) (hL : s.lockL = some b) (hab : a ≠ b)
    (i : Nat) (n : Bool) (todo : List Nat) (fin : Option Nat)
    (hb : s.pc b = .chk n i true todo fin) (hname : (s.locs i).name ≠ "") (t : Nat) (s' : St)
    (hs : (∃ op, s.pc t = .idle ∧ s' = call s t op) ∨ step s t = some s') :
    s'.lockN = some a ∧ s'.pc a = .waitL true ∧ s'.lockL = some b ∧
      s'.pc b = .chk n i true todo fin ∧ (s'.locs i).name ≠ "" := by
  have inv := inv_reach h
  have na : step s a = none := by unfold step; rw [ha]; simp [hL]
  have nb : step s b = none := by
    unfold step; rw [hb]; simp only
    rw [if_pos ⟨trivial, hname⟩, if_neg]
    rw [hN]; simp; exact hab
  rcases hs with ⟨op, hi, rfl⟩ | hs
  · have ta : a ≠ t := by rintro rfl; rw [ha] at hi; simp at hi
    have tb : b ≠ t := by rintro rfl; rw [hb] at hi; simp at hi
    cases op with
    | relevel j level =>
      simp only [call]
      split <;> simp [upd_ne _ _ ta, upd_ne _ _ tb, ha, hb, hN, hL, hname]
    | _ => simp [call, upd_ne _ _ ta, upd_ne _ _ tb, ha, hb, hN, hL, hname]
  · have ta : a ≠ t := by rintro rfl; rw [na] at hs; simp at hs
    have tb : b ≠ t := by rintro rfl; rw [nb] at hs; simp at hs
    have fl : holdsL (s.pc t) = false := by
      cases e : holdsL (s.pc t)
      · rfl
      · have := (inv.hL t).mp e
        rw [hL] at this; exact (tb (by simpa using this)).elim
    have fn : holdsN (s.pc t) = false := by
      cases e : holdsN (s.pc t)
      · rfl
      · have := (inv.hN t).mp e
        rw [hN] at this; exact (ta (by simpa using this)).elim
    unfold step at hs
    cases hp : s.pc t with
    | idle => rw [hp] at hs; simp at hs
    | lvl x =>
      rw [hp] at hs; simp only at hs
      split at hs <;>
        (injection hs with hs; subst hs
         simp [upd_ne _ _ ta, upd_ne _ _ tb, ha, hb, hN, hL, hname])
    | lvlW x =>
      rw [hp] at hs; injection hs with hs; subst hs
      simp [upd_ne _ _ ta, upd_ne _ _ tb, ha, hb, hN, hL, hname]
    | str on m => rw [hp] at hs; simp [hN] at hs
    | strW on m => rw [hp] at fn; simp [holdsN] at fn
    | waitL m => rw [hp] at hs; simp [hL] at hs
    | ini j name level => rw [hp] at hs; simp [hL] at hs
    | rel j level => rw [hp] at hs; simp [hL] at hs
    | recheck j => rw [hp] at hs; simp [hL] at hs
    | loop _ _ _ => rw [hp] at fl; simp [holdsL] at fl
    | chk _ _ _ _ _ => rw [hp] at fl; simp [holdsL] at fl

/-- The states from `s` on. -/
inductive From (s : St) : St → Prop
  | refl : From s s
  | call {u : St} (t : Nat) (op : Op) : From s u → u.pc t = .idle → From s (call u t op)
  | step {u v : St} (t : Nat) : From s u → step u t = some v → From s v

theorem reach_from {d : String} {s u : St} (h : Reach d s) (hu : From s u) : Reach d u := by
  induction hu with
  | refl => exact h
  | call t op _ hi ih => exact Reach.call t op ih hi
  | step t _ hs ih => exact Reach.step t ih hs

/-- Calls need not come back: the two functions take the two mutexes in opposite orders.  After the
schedule `clash` the thread that enables the stream and the thread that reaches its first logging
statement are blocked in every later state, and so is every thread that calls `setLevel` with
another level or reaches a new statement. -/
theorem C177_deadlock_counterexample : ∃ s, Reach "sm" s ∧ ∀ u, From s u →
    u.pc 0 ≠ .idle ∧ u.pc 1 ≠ .idle ∧ step u 0 = none ∧ step u 1 = none ∧
    ∀ t, (∀ i name level, u.pc t = .ini i name level → step u t = none) ∧
      (∀ n, u.pc t = .waitL n → step u t = none) := by
  have hr : ∃ s, run (start "sm") clash = some s ∧ s.lockN = some 0 ∧ s.pc 0 = .waitL true ∧
      s.lockL = some 1 ∧ s.pc 1 = .chk false 0 true [] (some 0) ∧ (s.locs 0).name ≠ "" := by
    refine ⟨_, rfl, rfl, rfl, rfl, rfl, ?_⟩
    show "sm" ≠ ""
    decide
  obtain ⟨s, hs, h1, h2, h3, h4, h5⟩ := hr
  have hreach : Reach "sm" s := reach_run clash Reach.start hs
  refine ⟨s, hreach, ?_⟩
  intro u hu
  have key : u.lockN = some 0 ∧ u.pc 0 = .waitL true ∧ u.lockL = some 1 ∧
      u.pc 1 = .chk false 0 true [] (some 0) ∧ (u.locs 0).name ≠ "" := by
    induction hu with
    | refl => exact ⟨h1, h2, h3, h4, h5⟩
    | call t op hu' hi ih =>
      obtain ⟨a1, a2, a3, a4, a5⟩ := ih
      exact stuck_stays (reach_from hreach hu') 0 1 a1 a2 a3 (by decide) 0 false [] (some 0) a4 a5 t _
        (Or.inl ⟨op, hi, rfl⟩)
    | step t hu' hst ih =>
      obtain ⟨a1, a2, a3, a4, a5⟩ := ih
      exact stuck_stays (reach_from hreach hu') 0 1 a1 a2 a3 (by decide) 0 false [] (some 0) a4 a5 t _
        (Or.inr hst)
  obtain ⟨a1, a2, a3, a4, a5⟩ := key
  refine ⟨by rw [a2]; simp, by rw [a4]; simp, ?_, ?_, ?_⟩
  · unfold step; rw [a2]; simp [a3]
  · unfold step; rw [a4]; simp only
    rw [if_pos ⟨trivial, a5⟩, if_neg]
    rw [a1]; simp
  · intro t
    constructor
    · intro i name level e
      unfold step; rw [e]; simp [a3]
    · intro n e
      unfold step; rw [e]; simp [a3]

/-- The hypotheses of `C177_quiescent` are met, with a statement that is switched on and one whose
stream is not enabled. -/
example : ∃ s, Reach "sm" s ∧ (∀ t, s.pc t = .idle) ∧ (s.locs 0).init = true ∧
    (s.locs 0).flag = true ∧ (s.locs 1).init = true ∧ (s.locs 1).flag = false := by
  let l : List (Nat × Option Op) :=
    [(0, some (.init 0 "sm" 7)), (0, none), (0, none), (0, none), (0, none),
     (3, some (.init 1 "other" 9)), (3, none), (3, none), (3, none), (3, none)]
  have h : ∃ s, run (start "sm") l = some s ∧ (∀ t, s.pc t = .idle) ∧ (s.locs 0).init = true ∧
      (s.locs 0).flag = true ∧ (s.locs 1).init = true ∧ (s.locs 1).flag = false := by
    refine ⟨_, rfl, ?_, rfl, ?_, rfl, ?_⟩
    · intro t
      by_cases h0 : t = 0
      · subst h0; rfl
      · by_cases h3 : t = 3
        · subst h3; rfl
        · simp [upd, start, call, h0, h3]
    · rfl
    · rfl
  obtain ⟨s, hs, r⟩ := h
  exact ⟨s, reach_run l Reach.start hs, r⟩

end Kalibr.LogFlag
