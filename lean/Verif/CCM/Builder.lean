import Verif.CCM.Reads

/-!
# The builder in terms of columns
-/

namespace Kalibr.CCM

open CCS Jacobian

set_option linter.unusedSectionVars false

variable {D K : Type}

/-- The columns of an error term before its values are written. -/
def blank [Zero K] (env : Env D K) (cb : D → Nat) (e : Nat × List D) : List (List (Nat × K)) :=
  List.replicate e.1 ((pat env cb (activeSorted env e.2)).map fun x => (x, 0))

/-- The pointers of the error terms. -/
def ptrsOf (K : Type) (env : Env D K) [Zero K] (cb : D → Nat) : Nat → List (Nat × List D) → List ColPtr
  | _, [] => []
  | n, e :: es => ⟨n, ((activeSorted env e.2).map env.dim).sum⟩ ::
      ptrsOf K env cb (n + (blank (K := K) env cb e).flatten.length) es

theorem initStructure_eq [Zero K] (env : Env D K) (cb : D → Nat) (m : CCM K)
    (L : List (List (Nat × K))) (hs : m.s = ofCols L) (hc : m.cols = L.length) (hd : m.diag = false)
    (es : List (Nat × List D)) :
    ∃ m', initStructure env cb m es = .ok (m', ptrsOf K env cb L.flatten.length es) ∧ m'.rows = m.rows ∧
      m'.s = ofCols (L ++ (es.map (blank env cb)).flatten) ∧
      m'.cols = (L ++ (es.map (blank (K := K) env cb)).flatten).length ∧ m'.diag = false := by
  induction es generalizing m L with
  | nil => exact ⟨m, rfl, rfl, by simpa using hs, by simpa using hc, hd⟩
  | cons e es ih =>
    obtain ⟨m', h1, h2, h3, h4, h5⟩ := ih ⟨m.rows, m.cols + e.1, ofCols (L ++ blank env cb e), false⟩
      (L ++ blank env cb e) rfl (by simp [hc, blank]) rfl
    refine ⟨m', ?_, h2, ?_, ?_, h5⟩
    · rw [initStructure, appendSymbolic_eq env cb m L hs hc hd]
      simp only [Out.bind]
      rw [List.flatten_append, List.length_append] at h1
      have h1' := h1
      rw [blank] at h1'
      rw [h1']
      rfl
    · rw [h3]; simp [List.append_assoc]
    · rw [h4]; simp [List.append_assoc]

theorem ptrsOf_length [Zero K] (env : Env D K) (cb : D → Nat) (n : Nat) (es : List (Nat × List D)) :
    (ptrsOf K env cb n es).length = es.length := by
  induction es generalizing n with
  | nil => rfl
  | cons e es ih => simp [ptrsOf, ih]

theorem ptrsOf_get [Zero K] (env : Env D K) (cb : D → Nat) (n : Nat) (es : List (Nat × List D)) (i : Nat)
    (e : Nat × List D) (he : es[i]? = some e) :
    (ptrsOf K env cb n es)[i]? = some ⟨n + ((es.take i).map (blank (K := K) env cb)).flatten.flatten.length,
      ((activeSorted env e.2).map env.dim).sum⟩ := by
  induction es generalizing n i with
  | nil => simp at he
  | cons e' es ih =>
    cases i with
    | zero =>
      simp only [List.getElem?_cons_zero, Option.some.injEq] at he
      subst he
      simp [ptrsOf]
    | succ i =>
      rw [List.getElem?_cons_succ] at he
      rw [ptrsOf, List.getElem?_cons_succ, ih _ _ he]
      simp only [List.take_succ_cons, List.map_cons, List.flatten_cons, List.flatten_append, List.length_append,
        Nat.add_assoc]

/-- The columns `b` belong to a term with design variables `t.1` and container `t.2`. -/
def Shape [Zero K] (env : Env D K) (cb : D → Nat) (t : List D × Container D K)
    (b : List (List (Nat × K))) : Prop :=
  b.length = t.2.rows ∧ ∀ l ∈ b, l.map (·.1) = pat env cb (t.2.map.map (·.1))

theorem shape_length [Zero K] {env : Env D K} {cb : D → Nat} {t : List D × Container D K}
    {b b' : List (List (Nat × K))} (h : Shape env cb t b) (h' : Shape env cb t b') :
    b.flatten.length = b'.flatten.length := by
  have : ∀ b : List (List (Nat × K)), Shape env cb t b →
      b.flatten.length = t.2.rows * (pat env cb (t.2.map.map (·.1))).length := by
    intro b hb
    rw [← hb.1]
    have h2 := hb.2
    clear hb
    induction b with
    | nil => simp
    | cons l b ih =>
      rw [List.flatten_cons, List.length_append, ih fun l' hl' => h2 l' (by simp [hl']), ← h2 l (by simp),
        List.length_map, List.length_cons, Nat.succ_mul, Nat.add_comm]
  rw [this b h, this b' h']

theorem shapes_length [Zero K] {env : Env D K} {cb : D → Nat} {ts : List (List D × Container D K)}
    {B B' : List (List (List (Nat × K)))} (h : List.Forall₂ (Shape env cb) ts B)
    (h' : List.Forall₂ (Shape env cb) ts B') : B.flatten.flatten.length = B'.flatten.flatten.length := by
  induction h generalizing B' with
  | nil => cases h'; rfl
  | cons h1 _ ih =>
    cases h' with
    | cons h1' h2' =>
      rw [List.flatten_cons, List.flatten_append, List.length_append, List.flatten_cons, List.flatten_append,
        List.length_append, shape_length h1 h1', ih h2']

theorem forall2_take {α β : Type} {R : α → β → Prop} {l : List α} {l' : List β} (h : List.Forall₂ R l l') (n : Nat) :
    List.Forall₂ R (l.take n) (l'.take n) := by
  induction h generalizing n with
  | nil => simp
  | cons h1 _ ih =>
    cases n with
    | zero => simp
    | succ n => simp only [List.take_succ_cons]; exact List.Forall₂.cons h1 (ih n)

theorem forall2_get {α β : Type} {R : α → β → Prop} {l : List α} {l' : List β} (h : List.Forall₂ R l l') (i : Nat)
    (a : α) (ha : l[i]? = some a) : ∃ b, l'[i]? = some b ∧ R a b := by
  induction h generalizing i with
  | nil => simp at ha
  | cons h1 _ ih =>
    cases i with
    | zero => simp only [List.getElem?_cons_zero, Option.some.injEq] at ha; subst ha; exact ⟨_, rfl, h1⟩
    | succ i => exact ih i ha

theorem forall2_set {α β : Type} {R : α → β → Prop} {l : List α} {l' : List β} (h : List.Forall₂ R l l') (i : Nat)
    (a : α) (ha : l[i]? = some a) (b : β) (hb : R a b) : List.Forall₂ R l (l'.set i b) := by
  induction h generalizing i with
  | nil => simp
  | cons h1 h2 ih =>
    cases i with
    | zero =>
      simp only [List.getElem?_cons_zero, Option.some.injEq] at ha; subst ha
      exact List.Forall₂.cons hb h2
    | succ i => exact List.Forall₂.cons h1 (ih i ha)

theorem split_at {α : Type} (B : List (List α)) (i : Nat) (b : List α) (hb : B[i]? = some b) (b' : List α) :
    B.flatten = (B.take i).flatten ++ b ++ (B.drop (i + 1)).flatten ∧
    (B.set i b').flatten = (B.take i).flatten ++ b' ++ (B.drop (i + 1)).flatten := by
  induction B generalizing i with
  | nil => simp at hb
  | cons x B ih =>
    cases i with
    | zero =>
      simp only [List.getElem?_cons_zero, Option.some.injEq] at hb; subst hb
      simp
    | succ i =>
      obtain ⟨h1, h2⟩ := ih i hb
      constructor
      · rw [List.flatten_cons, h1]; simp [List.append_assoc]
      · rw [List.set_cons_succ, List.flatten_cons, h2]; simp [List.append_assoc]

theorem newShape [Zero K] (env : Env D K) (cb : D → Nat) (t : List D × Container D K) :
    Shape env cb t ((List.range t.2.rows).map (newCol env cb t.2)) := by
  refine ⟨by simp, fun l hl => ?_⟩
  obtain ⟨c, _, rfl⟩ := List.mem_map.1 hl
  exact newCol_fst env cb t.2 c

/-- Writing the terms in any order, some perhaps more than once. -/
theorem writeAll_eq [Zero K] (env : Env D K) (cb : D → Nat) (ts : List (List D × Container D K))
    (hts : ∀ t ∈ ts, t.2.map.map (·.1) = activeSorted env t.1 ∧ Fits env t.2)
    (order : List Nat) (ho : ∀ i ∈ order, i < ts.length) (B : List (List (List (Nat × K))))
    (hB : List.Forall₂ (Shape env cb) ts B) (m : CCM K) (hs : m.s = ofCols B.flatten) :
    ∃ B', writeAll m (order.filterMap fun i =>
        ((ts.map (·.2)).zip (ptrsOf K env cb 0 (ts.map fun t => (t.2.rows, t.1))))[i]?) =
        .ok { m with s := ofCols B'.flatten } ∧ List.Forall₂ (Shape env cb) ts B' ∧
      ∀ (i : Nat) (t : List D × Container D K), ts[i]? = some t →
        B'[i]? = if i ∈ order then some ((List.range t.2.rows).map (newCol env cb t.2)) else B[i]? := by
  induction order generalizing B m with
  | nil => exact ⟨B, by rw [← hs]; rfl, hB, fun i t _ => by simp⟩
  | cons i order ih =>
    have hi := ho i (by simp)
    obtain ⟨t, ht⟩ : ∃ t, ts[i]? = some t := ⟨_, List.getElem?_eq_getElem hi⟩
    have htm := List.mem_of_getElem? ht
    obtain ⟨b, hb, hbs⟩ := forall2_get hB i t ht
    have hblank : List.Forall₂ (Shape env cb) ts ((ts.map fun t => (t.2.rows, t.1)).map (blank (K := K) env cb)) := by
      clear hB ih ho hi ht htm
      induction ts with
      | nil => simp
      | cons t ts ih =>
        refine List.Forall₂.cons ⟨by simp [blank], fun l hl => ?_⟩ (ih fun t' ht' => hts t' (by simp [ht']))
        rw [List.eq_of_mem_replicate hl, (hts t (by simp)).1, List.map_map]
        simp [Function.comp_def]
    have hptr := ptrsOf_get (K := K) env cb 0 (ts.map fun t => (t.2.rows, t.1)) i (t.2.rows, t.1)
      (by rw [List.getElem?_map, ht]; rfl)
    have hz : ((ts.map (·.2)).zip (ptrsOf K env cb 0 (ts.map fun t => (t.2.rows, t.1))))[i]? =
        some (t.2, ⟨(B.take i).flatten.flatten.length, ((t.2.map.map (·.1)).map env.dim).sum⟩) := by
      rw [List.zip, List.getElem?_zipWith, List.getElem?_map, ht, hptr]
      simp only [Option.map_some]
      rw [(hts t htm).1, Nat.zero_add, ← List.map_take, List.map_take, ← List.map_take,
        shapes_length (forall2_take hB i) (forall2_take hblank i), ← List.map_take, ← List.map_take]
    obtain ⟨e1, e2⟩ := split_at B i b hb ((List.range t.2.rows).map (newCol env cb t.2))
    have hw := writeJacobians_eq env cb m (B.take i).flatten b (B.drop (i + 1)).flatten (by rw [hs, e1]) t.2
      (hts t htm).2 hbs.1 hbs.2
    rw [← e2] at hw
    obtain ⟨B', h1, h2, h3⟩ := ih (fun j hj => ho j (by simp [hj]))
      (B.set i ((List.range t.2.rows).map (newCol env cb t.2))) (forall2_set hB i t ht _ (newShape env cb t))
      { m with s := ofCols (B.set i ((List.range t.2.rows).map (newCol env cb t.2))).flatten } rfl
    refine ⟨B', ?_, h2, ?_⟩
    · rw [List.filterMap_cons, hz]
      show (m.writeJacobians _ _).bind _ = _
      rw [hw]
      exact h1
    · intro j t' ht'
      rw [h3 j t' ht']
      by_cases hj : j ∈ order
      · rw [if_pos hj, if_pos (by simp [hj])]
      · rw [if_neg hj]
        by_cases hij : i = j
        · subst hij
          rw [if_pos (by simp), List.getElem?_set_self (by
            have := List.getElem?_eq_some_iff.1 hb; exact this.1)]
          rw [ht] at ht'
          rw [Option.some.inj ht']
        · rw [if_neg (by simp [hj]; omega), List.getElem?_set_ne hij]

theorem stack_colsOf [AddMonoid K] (env : Env D K) (cb : D → Nat) (rows : Nat) (hl : Layout env cb rows)
    (js : List (Container D K)) (hj : ∀ jc ∈ js, Ordered env jc ∧ Fits env jc) (L : List (List (Nat × K)))
    (M : Mat K) (hr : M.rows = rows) (h : ColsOf L M) :
    ColsOf (L ++ (js.map fun jc => (List.range jc.rows).map (newCol env cb jc)).flatten)
      (js.foldl (fun M jc => hcat M (jacT env cb rows jc)) M) := by
  induction js generalizing L M with
  | nil => simpa using h
  | cons jc js ih =>
    have := ih (fun j hj' => hj j (by simp [hj'])) (L ++ (List.range jc.rows).map (newCol env cb jc))
      (hcat M (jacT env cb rows jc)) hr (h.append (newCol_colsOf env cb rows hl jc (hj jc (by simp)).1
        (hj jc (by simp)).2) hr)
    rw [List.foldl_cons]
    rw [List.append_assoc] at this
    exact this

end Kalibr.CCM
