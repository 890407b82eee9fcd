import Verif.Jacobian.Spec

namespace Kalibr.Jacobian

set_option linter.unusedSectionVars false

variable {D K : Type} [NonUnitalNonAssocSemiring K] (env : Env D K)

/-- Merge of two ordered lists. -/
def merge : List (D × Mat K) → List (D × Mat K) → List (D × Mat K)
  | [], r => r
  | p :: ps, [] => p :: ps
  | p :: ps, q :: qs =>
    if env.blockIndex p.1 < env.blockIndex q.1 then p :: merge ps (q :: qs)
    else if env.blockIndex q.1 < env.blockIndex p.1 then q :: merge (p :: ps) qs
    else (p.1, p.2.add q.2) :: merge ps qs
termination_by l r => l.length + r.length

abbrev Srt (m : List (D × Mat K)) : Prop :=
  m.Pairwise fun p q => env.blockIndex p.1 < env.blockIndex q.1

theorem insert_mid (p : D × Mat K) (dn m : List (D × Mat K))
    (h1 : ∀ q ∈ dn, env.blockIndex q.1 < env.blockIndex p.1)
    (h2 : ∀ q ∈ m, env.blockIndex p.1 < env.blockIndex q.1) :
    insert env p (dn ++ m) = dn ++ p :: m := by
  induction dn with
  | nil =>
    cases m with
    | nil => rfl
    | cons q qs => simp [insert, h2 q (by simp)]
  | cons q qs ih =>
    have hq := h1 q (by simp)
    simp only [List.cons_append, insert, if_neg (not_lt.2 hq.le), if_pos hq]
    rw [ih fun r hr => h1 r (by simp [hr])]

theorem insert_exists (p : D × Mat K) (m : List (D × Mat K)) (hm : Srt env m)
    (h : ∃ q ∈ m, env.blockIndex q.1 = env.blockIndex p.1) : insert env p m = m := by
  induction m with
  | nil => simp at h
  | cons q qs ih =>
    obtain ⟨r, hr, he⟩ := h
    rw [Srt, List.pairwise_cons] at hm
    rcases List.mem_cons.1 hr with rfl | hr
    · simp [insert, he]
    · have := hm.1 r hr
      rw [he] at this
      simp only [insert, if_neg (not_lt.2 this.le), if_pos this]
      rw [ih hm.2 ⟨r, hr, he⟩]

theorem ffwd_clean (l : D) (rt dn m : List (D × Mat K)) (hrt : Srt env rt)
    (h1 : ∀ q ∈ dn, ∀ r ∈ rt, env.blockIndex q.1 < env.blockIndex r.1)
    (h2 : ∀ q ∈ m, env.blockIndex l ≤ env.blockIndex q.1) :
    ∃ rt1 rt2, rt = rt1 ++ rt2 ∧ (∀ r ∈ rt1, env.blockIndex r.1 < env.blockIndex l) ∧
      (∀ r ∈ rt2, env.blockIndex l ≤ env.blockIndex r.1) ∧
      ffwd env l rt (dn ++ m) = (rt2, (dn ++ rt1) ++ m) := by
  induction rt generalizing dn with
  | nil => exact ⟨[], [], rfl, by simp, by simp, by simp [ffwd]⟩
  | cons r rt ih =>
    rw [Srt, List.pairwise_cons] at hrt
    by_cases hr : env.blockIndex r.1 < env.blockIndex l
    · obtain ⟨rt1, rt2, e, a, b, c⟩ := ih (dn ++ [r]) hrt.2 (by
        intro q hq s hs
        rcases List.mem_append.1 hq with hq | hq
        · exact h1 q hq s (by simp [hs])
        · simp only [List.mem_singleton] at hq; subst hq; exact hrt.1 s hs)
      refine ⟨r :: rt1, rt2, by simp [e], ?_, b, ?_⟩
      · intro s hs
        rcases List.mem_cons.1 hs with rfl | hs
        · exact hr
        · exact a s hs
      · rw [ffwd, if_pos hr, insert_mid env r dn m (fun q hq => h1 q hq r (by simp))
          (fun q hq => lt_of_lt_of_le hr (h2 q hq))]
        have : dn ++ r :: m = (dn ++ [r]) ++ m := by simp
        rw [this, c]; simp
    · refine ⟨[], r :: rt, rfl, by simp, ?_, ?_⟩
      · intro s hs
        rcases List.mem_cons.1 hs with rfl | hs
        · exact not_lt.1 hr
        · exact (not_lt.1 hr).trans (hrt.1 s hs).le
      · rw [ffwd, if_neg hr]; simp

theorem merge_append (p : D × Mat K) (ps rt1 rt2 : List (D × Mat K))
    (h : ∀ r ∈ rt1, env.blockIndex r.1 < env.blockIndex p.1) :
    merge env (p :: ps) (rt1 ++ rt2) = rt1 ++ merge env (p :: ps) rt2 := by
  induction rt1 with
  | nil => rfl
  | cons r rt1 ih =>
    have hr := h r (by simp)
    rw [List.cons_append, merge, if_neg (not_lt.2 hr.le), if_pos hr, ih fun s hs => h s (by simp [hs])]
    rfl

theorem merge_nil (l : List (D × Mat K)) : merge env l [] = l := by
  cases l <;> simp [merge]

theorem addAt_mid (d : D) (J : Mat K) (p : D × Mat K) (dn m : List (D × Mat K))
    (hp : p.1 = d) (hs : Srt env (dn ++ p :: m)) :
    addAt env d J (dn ++ p :: m) = dn ++ (p.1, p.2.add J) :: m := by
  subst hp
  rw [Srt, List.pairwise_append, List.pairwise_cons] at hs
  obtain ⟨_, ⟨h2, _⟩, h3⟩ := hs
  have e1 : ∀ l : List (D × Mat K), (∀ q ∈ l, env.blockIndex q.1 ≠ env.blockIndex p.1) →
      l.map (fun q => if env.blockIndex q.1 = env.blockIndex p.1 then (q.1, q.2.add J) else q) = l := by
    intro l hl
    conv_rhs => rw [← List.map_id l]
    apply List.map_congr_left
    intro q hq
    rw [if_neg (hl q hq)]; rfl
  simp only [addAt, List.map_append, List.map_cons, if_true]
  rw [e1 dn fun q hq => (h3 q hq p (by simp)).ne, e1 m fun q hq => (h2 q hq).ne']

theorem foldl_insert (rt m : List (D × Mat K)) (hrt : Srt env rt)
    (h : ∀ q ∈ m, ∀ r ∈ rt, env.blockIndex q.1 < env.blockIndex r.1) :
    rt.foldl (fun m p => insert env p m) m = m ++ rt := by
  induction rt generalizing m with
  | nil => simp
  | cons r rt ih =>
    rw [Srt, List.pairwise_cons] at hrt
    have := insert_mid env r m [] (fun q hq => h q hq r (by simp)) (by simp)
    rw [List.append_nil] at this
    rw [List.foldl_cons, this, ih _ hrt.2]
    · simp
    · intro q hq s hs
      rcases List.mem_append.1 hq with hq | hq
      · exact h q hq s (by simp [hs])
      · simp only [List.mem_singleton] at hq; subst hq; exact hrt.1 s hs

/-- The whole merge, from a state in which the right iterator is past what is done, or stands on an
entry that was already merged. -/
theorem loop_spec (m rt0 rt dn : List (D × Mat K)) (hm : Srt env (dn ++ m)) (hrt : Srt env rt)
    (h1 : ∀ q ∈ dn, ∀ r ∈ rt, env.blockIndex q.1 < env.blockIndex r.1)
    (h0 : rt0 = rt ∨ ∃ r, rt0 = r :: rt ∧ ∃ q ∈ dn, env.blockIndex q.1 = env.blockIndex r.1) :
    (addLoop env (m.map (·.1)) rt0 (dn ++ m)).1.foldl (fun m p => insert env p m)
      (addLoop env (m.map (·.1)) rt0 (dn ++ m)).2 = dn ++ merge env m rt := by
  induction m generalizing rt0 rt dn with
  | nil =>
    simp only [List.map_nil, addLoop, List.append_nil, merge]
    rw [List.append_nil] at hm
    rcases h0 with rfl | ⟨r, rfl, hr⟩
    · exact foldl_insert env rt0 dn hrt h1
    · rw [List.foldl_cons, insert_exists env r dn hm hr]
      exact foldl_insert env rt dn hrt h1
  | cons p ps ih =>
    have hps : ∀ q ∈ p :: ps, env.blockIndex p.1 ≤ env.blockIndex q.1 := by
      rw [Srt, List.pairwise_append, List.pairwise_cons] at hm
      intro q hq
      rcases List.mem_cons.1 hq with rfl | hq
      · exact le_rfl
      · exact (hm.2.1.1 q hq).le
    have hdp : ∀ q ∈ dn, env.blockIndex q.1 < env.blockIndex p.1 := by
      rw [Srt, List.pairwise_append] at hm
      exact fun q hq => hm.2.2 q hq p (by simp)
    have hmp : Srt env (p :: ps) := (List.pairwise_append.1 hm).2.1
    obtain ⟨rt1, rt2, e, a, b, c⟩ := ffwd_clean env p.1 rt dn (p :: ps) hrt h1 hps
    by_cases he : rt0 = []
    · subst he
      rcases h0 with rfl | ⟨r, h, _⟩
      · simp [addLoop, merge]
      · cases h
    have hff : ffwd env p.1 rt0 (dn ++ p :: ps) = (rt2, (dn ++ rt1) ++ p :: ps) := by
      rcases h0 with rfl | ⟨r, rfl, q, hq, hqr⟩
      · exact c
      · have hr : env.blockIndex r.1 < env.blockIndex p.1 := hqr ▸ hdp q hq
        rw [ffwd, if_pos hr, insert_exists env r _ hm ⟨q, by simp [hq], hqr⟩, c]
    have hne : rt0.isEmpty = false := by cases rt0 <;> simp_all
    simp only [List.map_cons, addLoop, hne, hff, Bool.false_eq_true, if_false]
    subst e
    have hsp := List.pairwise_append.1 hrt
    -- the new prefix is ordered
    have hdn : ∀ q ∈ dn ++ rt1, env.blockIndex q.1 < env.blockIndex p.1 := by
      intro q hq
      rcases List.mem_append.1 hq with hq | hq
      · exact hdp q hq
      · exact a q hq
    have hdd : Srt env (dn ++ rt1) := by
      rw [Srt, List.pairwise_append]
      exact ⟨(List.pairwise_append.1 hm).1, hsp.1, fun q hq r hr => h1 q hq r (by simp [hr])⟩
    have hall : Srt env ((dn ++ rt1) ++ p :: ps) := by
      rw [Srt, List.pairwise_append]
      exact ⟨hdd, hmp, fun q hq r hr => lt_of_lt_of_le (hdn q hq) (hps r hr)⟩
    have hd2 : ∀ q ∈ dn ++ rt1, ∀ r ∈ rt2, env.blockIndex q.1 < env.blockIndex r.1 := by
      intro q hq r hr
      rcases List.mem_append.1 hq with hq | hq
      · exact h1 q hq r (by simp [hr])
      · exact hsp.2.2 q hq r hr
    rw [merge_append env p ps rt1 rt2 a]
    cases rt2 with
    | nil =>
      have := ih [] [] (dn ++ rt1 ++ [p]) (by simpa using hall) List.Pairwise.nil (by simp)
        (Or.inl rfl)
      simpa [merge_nil] using this
    | cons r rs =>
      dsimp only
      by_cases hr : env.blockIndex r.1 = env.blockIndex p.1
      · rw [if_pos hr, addAt_mid env p.1 r.2 p _ _ rfl hall]
        have hrs := List.pairwise_cons.1 hsp.2.1
        have := ih (r :: rs) rs (dn ++ rt1 ++ [(p.1, p.2.add r.2)]) (by
            have := hall
            simp only [Srt, List.append_assoc, List.pairwise_append, List.cons_append,
              List.pairwise_cons, List.nil_append, List.mem_append, List.mem_cons] at this ⊢
            grind) hrs.2 (by
            intro q hq s hs
            rcases List.mem_append.1 hq with hq | hq
            · exact hd2 q hq s (by simp [hs])
            · simp only [List.mem_singleton] at hq; subst hq
              show env.blockIndex p.1 < _
              rw [← hr]; exact hrs.1 s hs) (Or.inr ⟨r, rfl, (p.1, p.2.add r.2), by simp, hr.symm⟩)
        simp only [List.append_assoc, List.cons_append, List.nil_append] at this ⊢
        rw [this, merge, if_neg (by omega), if_neg (by omega)]
      · rw [if_neg hr]
        have hlt : env.blockIndex p.1 < env.blockIndex r.1 :=
          lt_of_le_of_ne (b r (by simp)) (Ne.symm hr)
        have := ih (r :: rs) (r :: rs) (dn ++ rt1 ++ [p]) (by simpa using hall) hsp.2.1 (by
            intro q hq s hs
            rcases List.mem_append.1 hq with hq | hq
            · exact hd2 q hq s hs
            · simp only [List.mem_singleton] at hq; subst hq
              rcases List.mem_cons.1 hs with rfl | hs
              · exact hlt
              · exact hlt.trans ((List.pairwise_cons.1 hsp.2.1).1 s hs)) (Or.inl rfl)
        simp only [List.append_assoc, List.cons_append, List.nil_append] at this ⊢
        rw [this, merge, if_pos hlt]

theorem addContainer_eq (a b : Container D K) (ha : Ordered env a) (hb : Ordered env b)
    (hr : a.rows = b.rows) : addContainer env a b = .ok ⟨a.rows, merge env a.map b.map⟩ := by
  have := loop_spec env a.map b.map b.map [] (by rw [List.nil_append]; exact ha) hb (by simp) (Or.inl rfl)
  simp only [List.nil_append] at this
  simp only [addContainer, hr, ne_eq, not_true_eq_false, if_false]
  rw [← this]

/-! ## Properties of the merge -/

theorem mem_merge_key (l r : List (D × Mat K)) (q : D × Mat K) (h : q ∈ merge env l r) :
    (∃ p ∈ l, p.1 = q.1) ∨ ∃ p ∈ r, p.1 = q.1 := by
  induction l, r using merge.induct (env := env) with
  | case1 r => rw [merge] at h; exact Or.inr ⟨q, h, rfl⟩
  | case2 p ps => rw [merge] at h; exact Or.inl ⟨q, h, rfl⟩
  | case3 p ps r rs hlt ih =>
    rw [merge, if_pos hlt] at h
    rcases List.mem_cons.1 h with rfl | h
    · exact Or.inl ⟨q, by simp, rfl⟩
    · rcases ih h with ⟨s, hs, e⟩ | ⟨s, hs, e⟩
      · exact Or.inl ⟨s, by simp [hs], e⟩
      · exact Or.inr ⟨s, hs, e⟩
  | case4 p ps r rs hlt hgt ih =>
    rw [merge, if_neg hlt, if_pos hgt] at h
    rcases List.mem_cons.1 h with rfl | h
    · exact Or.inr ⟨q, by simp, rfl⟩
    · rcases ih h with ⟨s, hs, e⟩ | ⟨s, hs, e⟩
      · exact Or.inl ⟨s, hs, e⟩
      · exact Or.inr ⟨s, by simp [hs], e⟩
  | case5 p ps r rs hlt hgt ih =>
    rw [merge, if_neg hlt, if_neg hgt] at h
    rcases List.mem_cons.1 h with rfl | h
    · exact Or.inl ⟨p, by simp, rfl⟩
    · rcases ih h with ⟨s, hs, e⟩ | ⟨s, hs, e⟩
      · exact Or.inl ⟨s, by simp [hs], e⟩
      · exact Or.inr ⟨s, by simp [hs], e⟩

theorem merge_sorted (l r : List (D × Mat K)) (hl : Srt env l) (hr : Srt env r) :
    Srt env (merge env l r) := by
  induction l, r using merge.induct (env := env) with
  | case1 r => rw [merge]; exact hr
  | case2 p ps => rw [merge]; exact hl
  | case3 p ps r rs hlt ih =>
    rw [merge, if_pos hlt]
    have hl' := List.pairwise_cons.1 hl
    have hr' := List.pairwise_cons.1 hr
    refine List.pairwise_cons.2 ⟨fun q hq => ?_, ih hl'.2 hr⟩
    rcases mem_merge_key env _ _ q hq with ⟨s, hs, e⟩ | ⟨s, hs, e⟩
    · rw [← e]; exact hl'.1 s hs
    · rw [← e]
      rcases List.mem_cons.1 hs with rfl | hs
      · exact hlt
      · exact hlt.trans (hr'.1 s hs)
  | case4 p ps r rs hlt hgt ih =>
    rw [merge, if_neg hlt, if_pos hgt]
    have hl' := List.pairwise_cons.1 hl
    have hr' := List.pairwise_cons.1 hr
    refine List.pairwise_cons.2 ⟨fun q hq => ?_, ih hl hr'.2⟩
    rcases mem_merge_key env _ _ q hq with ⟨s, hs, e⟩ | ⟨s, hs, e⟩
    · rw [← e]
      rcases List.mem_cons.1 hs with rfl | hs
      · exact hgt
      · exact hgt.trans (hl'.1 s hs)
    · rw [← e]; exact hr'.1 s hs
  | case5 p ps r rs hlt hgt ih =>
    rw [merge, if_neg hlt, if_neg hgt]
    have hl' := List.pairwise_cons.1 hl
    have hr' := List.pairwise_cons.1 hr
    have he : env.blockIndex p.1 = env.blockIndex r.1 := by omega
    refine List.pairwise_cons.2 ⟨fun q hq => ?_, ih hl'.2 hr'.2⟩
    rcases mem_merge_key env _ _ q hq with ⟨s, hs, e⟩ | ⟨s, hs, e⟩
    · rw [← e]; exact hl'.1 s hs
    · rw [← e]; show env.blockIndex p.1 < _; rw [he]; exact hr'.1 s hs

theorem merge_fits (n : Nat) (l r : List (D × Mat K))
    (hl : ∀ p ∈ l, p.2.rows = n ∧ p.2.cols = env.dim p.1 ∧ env.active p.1 = true)
    (hr : ∀ p ∈ r, p.2.rows = n ∧ p.2.cols = env.dim p.1 ∧ env.active p.1 = true) :
    ∀ p ∈ merge env l r, p.2.rows = n ∧ p.2.cols = env.dim p.1 ∧ env.active p.1 = true := by
  induction l, r using merge.induct (env := env) with
  | case1 r => rw [merge]; exact hr
  | case2 p ps => rw [merge]; exact hl
  | case3 p ps r rs hlt ih =>
    rw [merge, if_pos hlt]
    intro q hq
    rcases List.mem_cons.1 hq with rfl | hq
    · exact hl q (by simp)
    · exact ih (fun s hs => hl s (by simp [hs])) hr q hq
  | case4 p ps r rs hlt hgt ih =>
    rw [merge, if_neg hlt, if_pos hgt]
    intro q hq
    rcases List.mem_cons.1 hq with rfl | hq
    · exact hr q (by simp)
    · exact ih hl (fun s hs => hr s (by simp [hs])) q hq
  | case5 p ps r rs hlt hgt ih =>
    rw [merge, if_neg hlt, if_neg hgt]
    intro q hq
    rcases List.mem_cons.1 hq with rfl | hq
    · exact hl p (by simp)
    · exact ih (fun s hs => hl s (by simp [hs])) (fun s hs => hr s (by simp [hs])) q hq

theorem find_nil (d : D) : find (K := K) env [] d = none := rfl

theorem find_cons (p : D × Mat K) (m : List (D × Mat K)) (d : D) :
    find env (p :: m) d =
      if env.blockIndex p.1 = env.blockIndex d then some p.2 else find env m d := by
  by_cases h : env.blockIndex p.1 = env.blockIndex d <;> simp [find, List.find?_cons, h]

theorem find_none (m : List (D × Mat K)) (d : D)
    (h : ∀ q ∈ m, env.blockIndex q.1 ≠ env.blockIndex d) : find env m d = none := by
  induction m with
  | nil => rfl
  | cons p ps ih =>
    rw [find_cons, if_neg (h p (by simp)), ih fun q hq => h q (by simp [hq])]

/-- The sum of two possibly absent blocks. -/
def join (x y : Option (Mat K)) : Option (Mat K) :=
  match x, y with
  | some a, some b => some (a.add b)
  | some a, none => some a
  | none, y => y

theorem find_merge (l r : List (D × Mat K)) (hl : Srt env l) (hr : Srt env r) (d : D) :
    find env (merge env l r) d = join (find env l d) (find env r d) := by
  induction l, r using merge.induct (env := env) with
  | case1 r => rw [merge]; rfl
  | case2 p ps =>
    rw [merge, find_nil]
    cases find env (p :: ps) d <;> rfl
  | case3 p ps r rs hlt ih =>
    rw [merge, if_pos hlt]
    have hl' := List.pairwise_cons.1 hl
    have hr' := List.pairwise_cons.1 hr
    rw [find_cons, find_cons (p := p)]
    by_cases h : env.blockIndex p.1 = env.blockIndex d
    · have : find env (r :: rs) d = none := find_none env _ d (by
        intro q hq
        rcases List.mem_cons.1 hq with rfl | hq
        · omega
        · have := hr'.1 q hq; omega)
      rw [if_pos h, if_pos h, this]; rfl
    · rw [if_neg h, if_neg h, ih hl'.2 hr]
  | case4 p ps r rs hlt hgt ih =>
    rw [merge, if_neg hlt, if_pos hgt]
    have hl' := List.pairwise_cons.1 hl
    have hr' := List.pairwise_cons.1 hr
    rw [find_cons, find_cons (p := r)]
    by_cases h : env.blockIndex r.1 = env.blockIndex d
    · have : find env (p :: ps) d = none := find_none env _ d (by
        intro q hq
        rcases List.mem_cons.1 hq with rfl | hq
        · omega
        · have := hl'.1 q hq; omega)
      rw [if_pos h, if_pos h, this]; rfl
    · rw [if_neg h, if_neg h, ih hl hr'.2]
  | case5 p ps r rs hlt hgt ih =>
    rw [merge, if_neg hlt, if_neg hgt]
    have hl' := List.pairwise_cons.1 hl
    have hr' := List.pairwise_cons.1 hr
    have he : env.blockIndex p.1 = env.blockIndex r.1 := by omega
    rw [find_cons, find_cons (p := p), find_cons (p := r), ← he]
    by_cases h : env.blockIndex p.1 = env.blockIndex d
    · simp only [h, if_true]; rfl
    · simp only [h, if_false]; exact ih hl'.2 hr'.2

/-- Row `i` of a list of blocks applied to `x`. -/
def evalL (m : List (D × Mat K)) (x : D → Nat → K) (i : Nat) : K :=
  (m.map fun p => ∑ k ∈ Finset.range p.2.cols, p.2.get i k * x p.1 k).sum

theorem evalL_cons (p : D × Mat K) (m : List (D × Mat K)) (x : D → Nat → K) (i : Nat) :
    evalL (p :: m) x i = (∑ k ∈ Finset.range p.2.cols, p.2.get i k * x p.1 k) + evalL m x i := by
  simp [evalL]

theorem evalL_append (m m' : List (D × Mat K)) (x : D → Nat → K) (i : Nat) :
    evalL (m ++ m') x i = evalL m x i + evalL m' x i := by
  simp [evalL]

theorem sum_add_block (J J' : Mat K) (h : J.cols = J'.cols) (y : Nat → K) (i : Nat) :
    (∑ k ∈ Finset.range (J.add J').cols, (J.add J').get i k * y k) =
      (∑ k ∈ Finset.range J.cols, J.get i k * y k) + ∑ k ∈ Finset.range J'.cols, J'.get i k * y k := by
  rw [← h, ← Finset.sum_add_distrib]
  exact Finset.sum_congr rfl fun k _ => add_mul _ _ _

theorem eval_merge (n : Nat) (l r : List (D × Mat K)) (hd : Distinct env)
    (hl : ∀ p ∈ l, p.2.rows = n ∧ p.2.cols = env.dim p.1 ∧ env.active p.1 = true)
    (hr : ∀ p ∈ r, p.2.rows = n ∧ p.2.cols = env.dim p.1 ∧ env.active p.1 = true)
    (x : D → Nat → K) (i : Nat) :
    evalL (merge env l r) x i = evalL l x i + evalL r x i := by
  induction l, r using merge.induct (env := env) with
  | case1 r => rw [merge]; simp [evalL]
  | case2 p ps => rw [merge]; simp [evalL]
  | case3 p ps r rs hlt ih =>
    rw [merge, if_pos hlt, evalL_cons, evalL_cons (p := p),
      ih (fun s hs => hl s (by simp [hs])) hr, add_assoc]
  | case4 p ps r rs hlt hgt ih =>
    rw [merge, if_neg hlt, if_pos hgt, evalL_cons, evalL_cons (p := r),
      ih hl (fun s hs => hr s (by simp [hs])), add_left_comm]
  | case5 p ps r rs hlt hgt ih =>
    rw [merge, if_neg hlt, if_neg hgt]
    have he : p.1 = r.1 := hd _ _ (hl p (by simp)).2.2 (hr r (by simp)).2.2 (by omega)
    have hc : p.2.cols = r.2.cols := by
      rw [(hl p (by simp)).2.1, (hr r (by simp)).2.1, he]
    rw [evalL_cons, evalL_cons (p := p), evalL_cons (p := r),
      ih (fun s hs => hl s (by simp [hs])) (fun s hs => hr s (by simp [hs]))]
    rw [sum_add_block _ _ hc (x p.1) i, ← he]
    exact add_add_add_comm _ _ _ _

/-! ## Adding one block is adding a container of one block -/

theorem insert_eq_merge (p : D × Mat K) (m : List (D × Mat K))
    (h : ∀ q ∈ m, env.blockIndex q.1 ≠ env.blockIndex p.1) :
    insert env p m = merge env m [p] := by
  induction m with
  | nil => simp [insert, merge]
  | cons q qs ih =>
    have hq := h q (by simp)
    rw [insert, merge]
    by_cases h1 : env.blockIndex p.1 < env.blockIndex q.1
    · rw [if_pos h1, if_neg (by omega), if_pos h1, merge_nil]
    · have h2 : env.blockIndex q.1 < env.blockIndex p.1 := by omega
      rw [if_neg h1, if_pos h2, if_pos h2, ih fun r hr => h r (by simp [hr])]

theorem find_some (m : List (D × Mat K)) (d : D) (J : Mat K) (h : find env m d = some J) :
    ∃ q ∈ m, env.blockIndex q.1 = env.blockIndex d ∧ q.2 = J := by
  induction m with
  | nil => simp [find] at h
  | cons p ps ih =>
    rw [find_cons] at h
    by_cases hp : env.blockIndex p.1 = env.blockIndex d
    · rw [if_pos hp] at h; exact ⟨p, by simp, hp, by injection h⟩
    · rw [if_neg hp] at h
      obtain ⟨q, hq, a, b⟩ := ih h
      exact ⟨q, by simp [hq], a, b⟩

theorem find_none_iff (m : List (D × Mat K)) (d : D) :
    find env m d = none ↔ ∀ q ∈ m, env.blockIndex q.1 ≠ env.blockIndex d := by
  simp [find]

theorem addAt_eq_merge (d : D) (J : Mat K) (m : List (D × Mat K)) (hm : Srt env m)
    (h : ∃ q ∈ m, env.blockIndex q.1 = env.blockIndex d) :
    addAt env d J m = merge env m [(d, J)] := by
  induction m with
  | nil => simp at h
  | cons q qs ih =>
    have hs := List.pairwise_cons.1 hm
    rw [merge]
    by_cases h1 : env.blockIndex q.1 = env.blockIndex d
    · rw [if_neg (by simp [h1]), if_neg (by simp [h1]), merge_nil]
      simp only [addAt, List.map_cons, h1, if_true]
      congr 1
      conv_rhs => rw [← List.map_id qs]
      apply List.map_congr_left
      intro r hr
      have := hs.1 r hr
      rw [if_neg (by omega)]; rfl
    · obtain ⟨r, hr, hrd⟩ := h
      rcases List.mem_cons.1 hr with rfl | hr
      · exact absurd hrd h1
      · have := hs.1 r hr
        rw [if_pos (by show _ < env.blockIndex d; omega), ← ih hs.2 ⟨r, hr, hrd⟩]
        simp [addAt, h1]

theorem addBlock_eq (a : Container D K) (d : D) (J : Mat K) (ha : Ordered env a)
    (h1 : J.rows = a.rows) (h2 : J.cols = env.dim d) (h3 : env.active d = true) :
    addBlock env a d J = .ok ⟨a.rows, merge env a.map [(d, J)]⟩ := by
  simp only [addBlock, h1, h2, h3, ne_eq, not_true_eq_false, if_false, Bool.true_eq_false]
  cases hf : find env a.map d with
  | none =>
    dsimp only
    rw [insert_eq_merge env (d, J) a.map ((find_none_iff env a.map d).1 hf)]
  | some J' =>
    obtain ⟨q, hq, e, _⟩ := find_some env a.map d J' hf
    dsimp only
    rw [addAt_eq_merge env d J a.map ha ⟨q, hq, e⟩]

theorem addBlock_ok {a c : Container D K} {d : D} {J : Mat K} (h : addBlock env a d J = .ok c) :
    J.rows = a.rows ∧ J.cols = env.dim d := by
  unfold addBlock at h
  split at h
  · cases h
  · split at h
    · cases h
    · constructor <;> omega

theorem addContainer_ok {a b c : Container D K} (h : addContainer env a b = .ok c) :
    a.rows = b.rows := by
  unfold addContainer at h
  split at h
  · cases h
  · omega

theorem fits_single (n : Nat) (d : D) (J : Mat K) (h1 : J.rows = n) (h2 : J.cols = env.dim d)
    (h3 : env.active d = true) :
    ∀ p ∈ [(d, J)], p.2.rows = n ∧ p.2.cols = env.dim p.1 ∧ env.active p.1 = true := by
  intro p hp
  simp only [List.mem_singleton] at hp
  subst hp
  exact ⟨h1, h2, h3⟩

theorem reachable_inv {c : Container D K} (h : Reachable env c) :
    Ordered env c ∧ Fits env c := by
  induction h with
  | new rows => exact ⟨List.Pairwise.nil, by simp [Fits, Container.new]⟩
  | @addBlock a c d J _ he ih =>
    obtain ⟨h1, h2⟩ := addBlock_ok env he
    cases h3 : env.active d with
    | false =>
      simp only [addBlock, h1, h2, h3, ne_eq, not_true_eq_false, if_false, if_true] at he
      injection he with he
      subst he; exact ih
    | true =>
      rw [addBlock_eq env a d J ih.1 h1 h2 h3] at he
      injection he with he
      subst he
      exact ⟨merge_sorted env _ _ ih.1 (List.pairwise_singleton _ _),
        merge_fits env a.rows _ _ ih.2 (fits_single env _ d J h1 h2 h3)⟩
  | @add a b c _ _ he iha ihb =>
    have hr := addContainer_ok env he
    rw [addContainer_eq env a b iha.1 ihb.1 hr] at he
    injection he with he
    subst he
    refine ⟨merge_sorted env _ _ iha.1 ihb.1, merge_fits env a.rows _ _ iha.2 ?_⟩
    rw [hr]; exact ihb.2
  | @chain a c M _ he ih =>
    unfold applyChainRule at he
    split at he
    · cases he
    · injection he with he
      subst he
      refine ⟨?_, ?_⟩
      · simp only [Ordered, List.pairwise_map]
        exact ih.1
      · intro p hp
        simp only [List.mem_map] at hp
        obtain ⟨q, hq, rfl⟩ := hp
        exact ⟨rfl, (ih.2 q hq).2.1, (ih.2 q hq).2.2⟩

end Kalibr.Jacobian
