import Verif.PTree.Model
import Mathlib.Data.List.Basic

/-!
# What is set in a property tree is what is got
-/

namespace Kalibr.PTree

theorem kids_node (d : Str) (k : List (Str × Tree)) : (Tree.node d k).kids = k := rfl
theorem data_node (d : Str) (k : List (Str × Tree)) : (Tree.node d k).data = d := rfl

theorem find_replaceKid (f g : Str) (t : Tree) (l : List (Str × Tree)) :
    find g (replaceKid f t l) = if g = f then (find f l).map (fun _ => t) else find g l := by
  induction l with
  | nil => simp [find, replaceKid]
  | cons a l ih =>
    obtain ⟨h, u⟩ := a
    unfold replaceKid
    by_cases hf : h = f
    · rw [if_pos hf]
      by_cases hg : g = f
      · rw [if_pos hg]; simp [find, hf, hg]
      · rw [if_neg hg]
        have : ¬ h = g := by rw [hf]; exact fun e => hg e.symm
        simp [find, this]
    · rw [if_neg hf]
      by_cases hg : g = f
      · rw [if_pos hg] at ih ⊢
        have : ¬ h = g := by rw [hg]; exact hf
        simp [find, this, ih, hf]
      · rw [if_neg hg] at ih ⊢
        simp [find, ih]

theorem find_append (f g : Str) (t : Tree) (l : List (Str × Tree)) :
    find g (l ++ [(f, t)]) = match find g l with | some u => some u | none => if f = g then some t else none := by
  induction l with
  | nil => simp [find]
  | cons a l ih =>
    obtain ⟨h, u⟩ := a
    by_cases hg : h = g
    · simp [find, hg]
    · simp [find, hg, ih]

theorem dataAt_cons (t : Tree) (f : Str) (q : List Str) : dataAt t (f :: q) = (find f t.kids).bind fun u => dataAt u q := by
  unfold dataAt
  rw [lookup]
  cases find f t.kids <;> rfl

@[simp] theorem dataAt_nil (t : Tree) : dataAt t [] = some t.data := rfl

theorem dataAt_putValueAt (v : Str) (p q : List Str) (t u : Tree) (h : lookup t p = some u) :
    dataAt (putValueAt v t p) q = if q = p then some v else dataAt t q := by
  induction p generalizing t q with
  | nil =>
    cases q with
    | nil => simp [putValueAt, data_node]
    | cons g q => simp [putValueAt, dataAt_cons, kids_node]
  | cons f p ih =>
    rw [lookup] at h
    cases hf : find f t.kids with
    | none => rw [hf] at h; simp at h
    | some w =>
      rw [hf] at h
      have h : lookup w p = some u := h
      cases q with
      | nil => simp [putValueAt, hf, data_node]
      | cons g q =>
        simp only [putValueAt, hf, dataAt_cons, kids_node]
        rw [find_replaceKid]
        by_cases hg : g = f
        · subst hg
          have hw := ih q w h
          simp [hf, hw]
        · simp [hg]

/-- A new path in a tree: the node has the value, nodes on the way that were not there are empty, the rest is as it was. -/
theorem dataAt_putChild (v : Str) (p q : List Str) (t : Tree) (hp : p ≠ []) (h : lookup t p = none) :
    dataAt (putChild v t p) q = if q = p then some v else match dataAt t q with
      | some x => some x
      | none => if q <+: p then some [] else none := by
  induction p generalizing t q with
  | nil => exact absurd rfl hp
  | cons f p ih =>
    cases p with
    | nil =>
      have hf : find f t.kids = none := by
        rw [lookup] at h
        cases hf : find f t.kids with
        | none => rfl
        | some w => rw [hf] at h; simp [lookup] at h
      cases q with
      | nil => simp [putChild, hf, data_node]
      | cons g q =>
        simp only [putChild, hf, dataAt_cons, kids_node]
        rw [find_append]
        by_cases hg : g = f
        · subst hg
          cases q with
          | nil => simp [hf, data_node]
          | cons g' q => simp [hf, dataAt_cons, kids_node, find]
        · have hg' : ¬ f = g := fun e => hg e.symm
          have hpre : ¬ (g :: q <+: [f]) := by
            rw [List.cons_prefix_cons]; simp [hg]
          cases hk : find g t.kids with
          | none => simp [hg, hg', hpre]
          | some w =>
            cases hd : dataAt w q <;> simp [hg, hpre, hd]
    | cons f' p =>
      cases q with
      | nil =>
        cases hf : find f t.kids <;> simp [putChild, hf, data_node]
      | cons g q =>
        cases hf : find f t.kids with
        | none =>
          simp only [putChild, hf, dataAt_cons, kids_node]
          rw [find_append]
          by_cases hg : g = f
          · subst hg
            have hn : lookup (.node [] []) (f' :: p) = none := rfl
            have := ih q (.node [] []) (by simp) hn
            have hd : dataAt (.node [] []) q = if q = [] then some [] else none := by
              cases q with
              | nil => rfl
              | cons a q => simp [dataAt_cons, kids_node, find]
            rw [hd] at this
            simp only [hf, if_true, Option.bind_some, this, List.cons.injEq, true_and, Option.bind_none, List.cons_prefix_cons]
            by_cases hq : q = f' :: p
            · simp [hq]
            · by_cases hq0 : q = []
              · simp [hq0]
              · simp [hq, hq0]
          · have hg' : ¬ f = g := fun e => hg e.symm
            have hpre : ¬ (g :: q <+: f :: f' :: p) := by
              rw [List.cons_prefix_cons]; simp [hg]
            cases hk : find g t.kids with
            | none => simp [hg, hg', hpre]
            | some w => cases hd : dataAt w q <;> simp [hg, hpre, hd]
        | some w =>
          have hw : lookup w (f' :: p) = none := by
            rw [lookup, hf] at h; exact h
          simp only [putChild, hf, dataAt_cons, kids_node]
          rw [find_replaceKid]
          by_cases hg : g = f
          · subst hg
            have := ih q w (by simp) hw
            simp only [hf, if_true, Option.map_some, Option.bind_some, this, List.cons.injEq, true_and, List.cons_prefix_cons]
          · have hpre : ¬ (g :: q <+: f :: f' :: p) := by
              rw [List.cons_prefix_cons]; simp [hg]
            cases hk : find g t.kids with
            | none => simp [hg, hpre]
            | some w => cases hd : dataAt w q <;> simp [hg, hpre, hd]

/-! ## Namespaces -/

/-- The namespaces of trees: of a new tree, and of a part of a tree. -/
inductive IsNamespace : Str → Prop
  | base (b : Str) : IsNamespace (mkNamespace b)
  | child (ns c : Str) : IsNamespace ns → IsNamespace (childNamespace ns c)

theorem ensure_ends (s : Str) : ∃ s', ensureTrailingBackslash s = s' ++ ['/'] := by
  unfold ensureTrailingBackslash
  split_ifs with h1 h2
  · exact ⟨[], rfl⟩
  · refine ⟨s.dropLast, ?_⟩
    rw [List.getLast?_eq_some_iff] at h2
    obtain ⟨ys, rfl⟩ := h2
    simp
  · exact ⟨s, rfl⟩

theorem leadingSlash_ends (s : Str) : ∃ s', leadingSlash (s ++ ['/']) = '/' :: s' ∧ (s' = [] ∨ s'.getLast? = some '/') := by
  unfold leadingSlash
  split_ifs with h
  · exact ⟨s ++ ['/'], rfl, Or.inr (by simp)⟩
  · cases s with
    | nil => exact ⟨[], rfl, Or.inl rfl⟩
    | cons a s =>
      have ha : a = '/' := by
        by_contra hne
        exact h ⟨by simp, by simpa using hne⟩
      exact ⟨s ++ ['/'], by simp [ha], Or.inr (by simp)⟩

/-- A namespace starts and ends with a slash. -/
theorem isNamespace_form {ns : Str} (h : IsNamespace ns) : ∃ s', ns = '/' :: s' ∧ (s' = [] ∨ s'.getLast? = some '/') := by
  cases h with
  | base b =>
    obtain ⟨s, hs⟩ := ensure_ends b
    rw [mkNamespace, hs]
    exact leadingSlash_ends s
  | child ns c _ =>
    unfold childNamespace
    split_ifs with hc
    · obtain ⟨s, hs⟩ := ensure_ends c
      rw [hs]; exact leadingSlash_ends s
    · obtain ⟨s, hs⟩ := ensure_ends (ns ++ c)
      rw [hs]; exact leadingSlash_ends s

theorem frags_eq_nil {s : Str} (h : frags s = []) : s = [] := by
  cases s with
  | nil => rfl
  | cons c s =>
    unfold frags at h
    split_ifs at h
    split at h <;> simp at h

/-- The name of a variable with its namespace. -/
theorem qualified_valid {ns key : Str} (hn : IsNamespace ns) (hk : ValidKey key) :
    ∃ k, qualified ns key = some k ∧ frags (k.drop 1) = pathOf ns key ∧ (k.drop 1).getLast? ≠ some '/' ∧ k.drop 1 ≠ [] := by
  obtain ⟨h0, h1⟩ := hk
  obtain ⟨s', rfl, -⟩ := isNamespace_form hn
  unfold qualified pathOf
  rw [if_neg h0]
  by_cases hs : key.head? = some '/'
  · rw [if_pos hs, if_pos hs]
    cases key with
    | nil => exact absurd rfl h0
    | cons a key =>
      simp only [List.head?_cons, Option.some.injEq] at hs
      subst hs
      cases key with
      | nil => simp at h1
      | cons b key =>
        refine ⟨'/' :: b :: key, by simp, rfl, ?_, by simp⟩
        simpa [List.getLast?_cons_cons] using h1
  · rw [if_neg hs, if_neg hs]
    refine ⟨_, rfl, rfl, ?_, by simp [h0]⟩
    simp only [List.cons_append, List.drop_succ_cons, List.drop_zero]
    rw [List.getLast?_append]
    cases hk : key.getLast? with
    | none => exact absurd (List.getLast?_eq_none_iff.1 hk) h0
    | some c => rw [hk] at h1; simpa using h1

/-- C166: setting a value, of any type, in a tree or a part of it: the variable has the value, other variables have the values they had, and of
variables that were not there only the namespaces of the variable exist now, without a value. -/
theorem C166_set {α : Type} (c : Translator α) (ns key : Str) (hn : IsNamespace ns) (hk : ValidKey key) (t : Tree) (a : α) :
    ∃ t', set c ns t key a = (.ok (), t') ∧ ∀ q, dataAt t' q = if q = pathOf ns key then some (c.enc a) else match dataAt t q with
      | some x => some x
      | none => if q <+: pathOf ns key then some [] else none := by
  obtain ⟨k, h1, h2, h3, h4⟩ := qualified_valid hn hk
  unfold set impSet put
  rw [h1]
  simp only
  rw [← h2]
  cases hl : lookup t (frags (k.drop 1)) with
  | some u =>
    refine ⟨_, rfl, fun q => ?_⟩
    rw [dataAt_putValueAt _ _ _ _ _ hl]
    by_cases hq : q = frags (k.drop 1)
    · rw [if_pos hq, if_pos hq]
    · rw [if_neg hq, if_neg hq]
      cases hd : dataAt t q with
      | some x => rfl
      | none =>
        have : ¬ q <+: frags (k.drop 1) := by
          rintro ⟨r, hr⟩
          rw [← hr] at hl
          have : ∀ (q : List Str) (t : Tree), lookup t (q ++ r) = some u → dataAt t q ≠ none := by
            intro q
            induction q with
            | nil => intro t _; simp
            | cons f q ih =>
              intro t hl
              rw [List.cons_append, lookup] at hl
              rw [dataAt_cons]
              cases hf : find f t.kids with
              | none => rw [hf] at hl; simp at hl
              | some w =>
                rw [hf] at hl
                exact ih w hl
          exact this q t hl hd
        simp only [if_neg this]
  | none =>
    simp only [if_neg h3]
    refine ⟨_, rfl, fun q => ?_⟩
    exact dataAt_putChild _ _ q t (fun e => h4 (frags_eq_nil e)) hl

/-- A variable in a part of a tree. -/
example : IsNamespace (childNamespace (mkNamespace "cam".toList) "intrinsics".toList) ∧ ValidKey "fu".toList ∧
    pathOf (childNamespace (mkNamespace "cam".toList) "intrinsics".toList) "fu".toList = ["cam".toList, "intrinsics".toList, "fu".toList] :=
  ⟨.child _ _ (.base _), ⟨by decide, by decide⟩, by decide⟩

/-- Getting, in terms of the data. -/
theorem get_eq {α : Type} (c : Translator α) (ns key : Str) (hn : IsNamespace ns) (hk : ValidKey key) (t : Tree) :
    get c ns t key = match dataAt t (pathOf ns key) with
      | none => .throw .invalidKey
      | some s => match c.dec s with
        | none => .throw .invalidValue
        | some a => .ok a := by
  obtain ⟨k, h1, h2, -, -⟩ := qualified_valid hn hk
  unfold get impGet
  rw [h1]
  simp only
  rw [h2, dataAt]
  cases lookup t (pathOf ns key) with
  | none => rfl
  | some u =>
    simp only [Option.map_some]
    split <;> rename_i h <;> rw [h]

/-- C166: a value that is set is got, by whatever name in whatever part of the tree leads to the variable; other variables keep their values. -/
theorem C166_set_get {α : Type} (c : Translator α) (hc : c.Good) (ns key : Str) (hn : IsNamespace ns) (hk : ValidKey key) (t : Tree) (a : α) :
    ∃ t', set c ns t key a = (.ok (), t') ∧
      (∀ ns' key', IsNamespace ns' → ValidKey key' → pathOf ns' key' = pathOf ns key → get c ns' t' key' = .ok a) ∧
      (∀ {β : Type} (c' : Translator β) ns' key' b, IsNamespace ns' → ValidKey key' → pathOf ns' key' ≠ pathOf ns key →
        get c' ns' t key' = .ok b → get c' ns' t' key' = .ok b) := by
  obtain ⟨t', h1, h2⟩ := C166_set c ns key hn hk t a
  refine ⟨t', h1, fun ns' key' hn' hk' he => ?_, fun c' ns' key' b hn' hk' he hg => ?_⟩
  · rw [get_eq c ns' key' hn' hk', h2, if_pos he]
    simp [hc a]
  · rw [get_eq c' ns' key' hn' hk'] at hg ⊢
    rw [h2, if_neg he]
    cases hd : dataAt t (pathOf ns' key') with
    | none => rw [hd] at hg; simp at hg
    | some x => rw [hd] at hg; exact hg

example : stringT.Good := fun _ => rfl

/-- The last value in a list of settings of variables. -/
def lastSet (q : List Str) : List (Str × Str × Str) → Option Str
  | [] => none
  | (ns, key, v) :: l => match lastSet q l with
    | some w => some w
    | none => if pathOf ns key = q then some v else none

/-- Settings, one after the other. -/
def run (t : Tree) : List (Str × Str × Str) → Tree
  | [] => t
  | (ns, key, v) :: l => run (set stringT ns t key v).2 l

/-- C166: after any number of settings a variable has the value that was set last, and if none was, the one it had. -/
theorem C166_history (ops : List (Str × Str × Str)) (hops : ∀ o ∈ ops, IsNamespace o.1 ∧ ValidKey o.2.1) (t : Tree) (q : List Str) :
    (∀ v, lastSet q ops = some v → dataAt (run t ops) q = some v) ∧
    (lastSet q ops = none → ∀ x, dataAt t q = some x → dataAt (run t ops) q = some x) ∧
    (lastSet q ops = none → dataAt t q = none → (∀ o ∈ ops, ¬ q <+: pathOf o.1 o.2.1) → dataAt (run t ops) q = none) := by
  induction ops generalizing t with
  | nil => simp [lastSet, run]
  | cons o l ih =>
    obtain ⟨ns, key, v⟩ := o
    have ho := hops _ (List.mem_cons_self ..)
    obtain ⟨t', h1, h2⟩ := C166_set stringT ns key ho.1 ho.2 t v
    have hq := h2 q
    obtain ⟨i1, i2, i3⟩ := ih (fun o h => hops o (List.mem_cons_of_mem _ h)) t'
    have hr : run t ((ns, key, v) :: l) = run t' l := by simp [run, h1]
    rw [hr]
    unfold lastSet
    cases hl : lastSet q l with
    | some w =>
      refine ⟨fun v h => ?_, by simp, by simp⟩
      simp only [Option.some.injEq] at h
      subst h
      exact i1 _ hl
    | none =>
      by_cases hp : pathOf ns key = q
      · refine ⟨fun v' h => ?_, by simp [hp], by simp [hp]⟩
        simp only [hp, if_true, Option.some.injEq] at h
        subst h
        exact i2 hl _ (by rw [hq, if_pos hp.symm]; rfl)
      · have hp' : ¬ q = pathOf ns key := fun e => hp e.symm
        rw [if_neg hp'] at hq
        refine ⟨by simp [hp], fun _ x hx => i2 hl x (by rw [hq, hx]), fun _ hx hno => ?_⟩
        refine i3 hl ?_ (fun o h => hno o (List.mem_cons_of_mem _ h))
        rw [hq, hx]
        have : ¬ q <+: pathOf ns key := hno _ (List.mem_cons_self ..)
        simp [this]

/-- Two settings of one variable by two names, and one of another. -/
example : lastSet ["a".toList, "b".toList] [("/".toList, "a/b".toList, "1".toList), ("/a/".toList, "b".toList, "2".toList),
    ("/".toList, "/a/c".toList, "3".toList)] = some "2".toList := by decide

/-- C166: getting a variable that is not there, or whose value is of another type, is an exception that tells which; the names without characters
are refused. -/
theorem C166_errors {α : Type} (c : Translator α) (ns key : Str) (t : Tree) :
    (IsNamespace ns → ValidKey key → (get c ns t key = .throw .invalidKey ↔ dataAt t (pathOf ns key) = none)) ∧
    (IsNamespace ns → ValidKey key → (get c ns t key = .throw .invalidValue ↔ ∃ s, dataAt t (pathOf ns key) = some s ∧ c.dec s = none)) ∧
    (key = [] ∨ key = ['/'] → get c ns t key = .throw .invalidKey ∧ ∀ a, set c ns t key a = (.throw .invalidKey, t)) := by
  refine ⟨fun hn hk => ?_, fun hn hk => ?_, ?_⟩
  · rw [get_eq c ns key hn hk]
    cases hd : dataAt t (pathOf ns key) with
    | none => simp
    | some s => cases hs : c.dec s <;> simp [hs]
  · rw [get_eq c ns key hn hk]
    cases hd : dataAt t (pathOf ns key) with
    | none => simp
    | some s => cases hs : c.dec s <;> simp [hs]
  · rintro (rfl | rfl) <;> simp [get, set, qualified]

/-- C166: a part of a tree has the variables of the tree whose names start with the name of the part, be it relative or from the root. -/
theorem C166_namespaces {α : Type} (c : Translator α) (ns child key : Str) (hn : IsNamespace ns) (hc : ValidKey child) (hk : key ≠ [])
    (hk' : key.head? ≠ some '/') (t : Tree) (a : α) :
    get c (childNamespace ns child) t key = get c ns t (child ++ '/' :: key) ∧
      set c (childNamespace ns child) t key a = set c ns t (child ++ '/' :: key) a := by
  obtain ⟨h0, h1⟩ := hc
  obtain ⟨s', rfl, -⟩ := isNamespace_form hn
  have hq : qualified (childNamespace ('/' :: s') child) key = qualified ('/' :: s') (child ++ '/' :: key) := by
    have hl : (child ++ '/' :: key).head? = child.head? := by cases child <;> simp_all
    have hlen : ¬ (child ++ '/' :: key).length ≤ 1 := by
      have : 0 < child.length := List.length_pos_iff.2 h0
      simp; omega
    have hne : child ++ '/' :: key ≠ [] := by simp
    unfold qualified
    rw [if_neg hk, if_neg hk', if_neg hne, hl]
    by_cases hs : child.head? = some '/'
    · rw [if_pos hs, if_neg hlen]
      have : childNamespace ('/' :: s') child = child ++ ['/'] := by
        have he : ensureTrailingBackslash child = child ++ ['/'] := by
          unfold ensureTrailingBackslash
          rw [if_neg h0, if_neg h1]
        unfold childNamespace
        rw [if_pos ⟨h0, hs⟩, he, leadingSlash, if_neg]
        rintro ⟨-, h⟩
        apply h
        cases child <;> simp_all
      rw [this]; simp
    · rw [if_neg hs]
      have : childNamespace ('/' :: s') child = '/' :: s' ++ child ++ ['/'] := by
        have hg : ¬ ('/' :: s' ++ child).getLast? = some '/' := by
          rw [List.getLast?_append]
          cases hk : child.getLast? with
          | none => exact absurd (List.getLast?_eq_none_iff.1 hk) h0
          | some d => rw [hk] at h1; simpa using h1
        have he : ensureTrailingBackslash ('/' :: s' ++ child) = '/' :: s' ++ child ++ ['/'] := by
          unfold ensureTrailingBackslash
          rw [if_neg (by simp), if_neg hg]
        unfold childNamespace
        rw [if_neg (fun h => hs h.2), he, leadingSlash, if_neg]
        rintro ⟨-, h⟩
        apply h
        simp
      rw [this]; simp
  constructor
  · simp only [get, hq]
  · simp only [set, hq]

/-- C166: getting with a default gives the value if there is one that can be read and leaves the tree; if not it gives the default, which is then in the tree.
What is missing: a value that cannot be read is not reported, and is lost. -/
theorem C166_default_partial {α : Type} (c : Translator α) (hc : c.Good) (ns key : Str) (hn : IsNamespace ns) (hk : ValidKey key) (t : Tree) (d : α) :
    (∀ a, get c ns t key = .ok a → getDefault c ns t key d = (.ok a, t)) ∧
    ((∀ a, get c ns t key ≠ .ok a) → ∃ t', getDefault c ns t key d = (.ok d, t') ∧ set c ns t key d = (.ok (), t') ∧ get c ns t' key = .ok d) := by
  have hg := get_eq c ns key hn hk t
  obtain ⟨t', hs, hs1, -⟩ := C166_set_get c hc ns key hn hk t d
  have hback := hs1 ns key hn hk rfl
  obtain ⟨k, h1, h2, -, -⟩ := qualified_valid hn hk
  have ho : getOptional c t k = (dataAt t (pathOf ns key)).bind c.dec := by
    unfold getOptional dataAt
    rw [h2]
    cases lookup t (pathOf ns key) <;> rfl
  constructor
  · intro a ha
    rw [hg] at ha
    unfold getDefault impGetDefault
    rw [h1]
    simp only [ho]
    cases hd : dataAt t (pathOf ns key) with
    | none => rw [hd] at ha; simp at ha
    | some s =>
      rw [hd] at ha
      cases hs : c.dec s with
      | none => simp [hs] at ha
      | some b => simp [hs] at ha; simp [hs, ha]
  · intro ha
    refine ⟨t', ?_, hs, hback⟩
    unfold getDefault impGetDefault
    unfold set at hs
    rw [h1] at hs ⊢
    simp only [ho] at hs ⊢
    cases hb : (dataAt t (pathOf ns key)).bind c.dec with
    | some b =>
      exfalso
      apply ha b
      rw [hg]
      cases hd : dataAt t (pathOf ns key) with
      | none => rw [hd] at hb; simp at hb
      | some s =>
        rw [hd] at hb
        simp only [Option.bind_some] at hb
        simp [hb]
    | none =>
      simp only
      cases hi : impSet c t k d with
      | ok u => rw [hi] at hs; simp at hs; simp [hs]
      | raise => rw [hi] at hs; simp at hs
      | ub => rw [hi] at hs; simp at hs

/-- Yes and no. -/
def boolT : Translator Bool where
  enc b := if b then "true".toList else "false".toList
  dec s := if s = "true".toList then some true else if s = "false".toList then some false else none

example : boolT.Good := by intro b; cases b <;> decide

/-- C166: a value that cannot be read is replaced by the default without a word, also when it is read from a constant tree; and reading a
constant tree changes it when there is no value. -/
theorem C166_default_counterexample :
    (∃ t t', get boolT ['/'] t "a".toList = .throw .invalidValue ∧ getDefaultConst boolT ['/'] t "a".toList false = (.ok false, t') ∧
      dataAt t ["a".toList] = some "yes".toList ∧ dataAt t' ["a".toList] = some "false".toList) ∧
    ∃ t t', getDefaultConst boolT ['/'] t "a".toList false = (.ok false, t') ∧ dataAt t ["a".toList] = none ∧
      dataAt t' ["a".toList] = some "false".toList :=
  ⟨⟨.node [] [("a".toList, .node "yes".toList [])], .node [] [("a".toList, .node "false".toList [])], rfl, rfl, rfl, rfl⟩,
    .node [] [], .node [] [("a".toList, .node "false".toList [])], rfl, rfl, rfl⟩

/-- C166: the question whether there is a variable is never answered with no, and in a tree that has no variable without a name in its root it is
always an exception, also for variables that are there. -/
theorem C166_exists_counterexample (ns key : Str) (hn : IsNamespace ns) (hk : ValidKey key) (t : Tree) :
    doesKeyExist ns t key ≠ .ok false ∧ (find [] t.kids = none → doesKeyExist ns t key = .throw .badPath) := by
  obtain ⟨k, h1, -, -, h4⟩ := qualified_valid hn hk
  have hk0 : ∃ r, k = '/' :: r := by
    obtain ⟨s', rfl, -⟩ := isNamespace_form hn
    unfold qualified at h1
    rw [if_neg hk.1] at h1
    split_ifs at h1 with ha hb
    · simp only [Option.some.injEq] at h1
      subst h1
      cases key with
      | nil => simp at ha
      | cons a r => simp at ha; exact ⟨r, by rw [ha]⟩
    · simp only [Option.some.injEq] at h1
      subst h1
      exact ⟨s' ++ key, rfl⟩
  obtain ⟨r, rfl⟩ := hk0
  unfold doesKeyExist impDoesKeyExist
  rw [h1]
  simp only
  constructor
  · cases lookup t (frags ('/' :: r)) <;> simp
  · intro hf
    have : lookup t (frags ('/' :: r)) = none := by
      simp [frags, lookup, hf]
    rw [this]

/-- A variable that was set, and that the tree does not find. -/
example : find [] (set stringT ['/'] (.node [] []) "a".toList "1".toList).2.kids = none ∧
    get stringT ['/'] (set stringT ['/'] (.node [] []) "a".toList "1".toList).2 "a".toList = .ok "1".toList := ⟨rfl, rfl⟩

end Kalibr.PTree
