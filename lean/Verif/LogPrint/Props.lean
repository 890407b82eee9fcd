import Verif.LogPrint.Model
import Verif.Tactics

/-!
# C178: formatting and printing of log messages
-/

namespace Kalibr.LogPrint

/-! ## The buffer -/

theorem cstr_end (t r : List Char) : cstr (t ++ '\x00' :: r) = cstr t := by
  induction t with
  | nil => simp [cstr]
  | cons c cs ih =>
    unfold cstr at ih ⊢
    by_cases h : c = '\x00'
    · simp [h]
    · rw [List.cons_append, List.takeWhile_cons_of_pos (by simpa using h),
        List.takeWhile_cons_of_pos (by simpa using h), ih]

theorem cstr_id {t : List Char} (h : '\x00' ∉ t) : cstr t = t := by
  induction t with
  | nil => rfl
  | cons c cs ih =>
    have hc : c ≠ '\x00' := by rintro rfl; simp at h
    have hcs := ih (fun hh => h (by simp [hh]))
    unfold cstr at hcs ⊢
    rw [List.takeWhile_cons_of_pos (by simpa using hc), hcs]

theorem takeWhile_all (p : Char → Bool) (l : List Char) : ∀ c ∈ l.takeWhile p, p c = true := by
  induction l with
  | nil => simp
  | cons a l ih =>
    intro c hc
    by_cases h : p a = true
    · rw [List.takeWhile_cons_of_pos h, List.mem_cons] at hc
      rcases hc with rfl | hc
      · exact h
      · exact ih c hc
    · rw [List.takeWhile_cons_of_neg h] at hc
      simp at hc

theorem vsnprintf_length (buf : List Char) (c : Conv) : (vsnprintf buf c).length = buf.length := by
  cases buf with
  | nil => rfl
  | cons a l => simp [vsnprintf]; omega

theorem resize_length (buf : List Char) (n : Nat) : (resize buf n).length = n := by
  simp [resize]; omega

theorem vsnprintf_fits {buf t : List Char} (h : t.length < buf.length) :
    cstr (vsnprintf buf (.text t)) = cstr t := by
  cases buf with
  | nil => simp at h
  | cons a l =>
    have e : t.take ((a :: l).length - 1) = t := List.take_of_length_le (by simp at h ⊢; omega)
    unfold vsnprintf
    simp only [Conv.chars]
    rw [e, List.append_assoc]
    exact cstr_end t _

theorem vformat_nonempty {buf : List Char} (hb : buf ≠ []) (c : Conv)
    (hc : ∀ t, c = .text t → t.length + 2 < two64) : vformatToBuffer buf c ≠ [] := by
  have hl : 0 < buf.length := List.length_pos_iff.mpr hb
  refine List.length_pos_iff.mp ?_
  unfold vformatToBuffer
  simp only
  split
  · rw [vsnprintf_length, resize_length]
    cases c with
    | text t =>
      have := hc t rfl
      rw [Nat.mod_eq_of_lt (by simpa [Conv.total] using this)]
      omega
    | fail p => simp [Conv.total, two64]
  · rw [vsnprintf_length]; exact hl

/-- Whatever the buffer held and however long it is, the text that reaches the logger is the whole
message. -/
theorem C178_message {buf t : List Char} (hb : buf ≠ []) (ht : '\x00' ∉ t)
    (hl : t.length + 2 < two64) : cstr (vformatToBuffer buf (.text t)) = t := by
  have hb' : 0 < buf.length := List.length_pos_iff.mpr hb
  unfold vformatToBuffer
  simp only [Conv.total, vsnprintf_length]
  split
  · rw [Nat.mod_eq_of_lt hl, vsnprintf_fits (by rw [resize_length]; omega), cstr_id ht]
  · rename_i h
    rw [vsnprintf_fits (by omega), cstr_id ht]

/-- The same after every history of messages, failed conversions included. -/
theorem C178_history (cs : List Conv) (hcs : ∀ t, Conv.text t ∈ cs → t.length + 2 < two64)
    {t : List Char} (ht : '\x00' ∉ t) (hl : t.length + 2 < two64) :
    cstr (vformatToBuffer (history buffer0 cs) (.text t)) = t := by
  have key : ∀ (cs : List Conv) (b : List Char), b ≠ [] →
      (∀ t, Conv.text t ∈ cs → t.length + 2 < two64) → history b cs ≠ [] := by
    intro cs
    induction cs with
    | nil => intro b hb _; exact hb
    | cons c cs ih =>
      intro b hb h
      exact ih _ (vformat_nonempty hb c (fun t e => h t (by simp [e])))
        (fun t m => h t (by simp [m]))
  refine C178_message (key cs buffer0 ?_ hcs) ht hl
  refine List.length_pos_iff.mp ?_
  unfold buffer0
  rw [resize_length]; decide

/-- After a failed conversion the logger gets the empty text: the message is lost. -/
theorem C178_failed_counterexample (buf p : List Char) (hb : buf.length < two64) :
    cstr (vformatToBuffer buf (.fail p)) = [] := by
  unfold vformatToBuffer
  simp only [Conv.total, vsnprintf_length]
  rw [if_pos (by simp only [ge_iff_le]; omega)]
  have h1 : (two64 - 1 + 2) % two64 = 1 := by decide
  rw [h1]
  have h2 := resize_length (vsnprintf buf (.fail p)) 1
  match hr : resize (vsnprintf buf (.fail p)) 1 with
  | [] => rw [hr] at h2; simp at h2
  | a :: l =>
    rw [hr] at h2
    have : l = [] := List.length_eq_zero_iff.mp (by simpa using h2)
    subst this
    simp [vsnprintf, cstr]

/-- The hypotheses are met. -/
example : buffer0 ≠ [] ∧ '\x00' ∉ ['h', 'i'] ∧ ['h', 'i'].length + 2 < two64 :=
  ⟨List.length_pos_iff.mp (by unfold buffer0; rw [resize_length]; decide), by decide, by decide⟩

/-! ## The format -/

/-- The names of fields: letters and bars, at least one. -/
def Name (n : List Char) : Prop := n ≠ [] ∧ ∀ c ∈ n, isName c = true

/-- `${name}`. -/
def holder (n : List Char) : List Char := '$' :: '{' :: (n ++ ['}'])

/-- What a token stands for in the format. -/
def source : Token → List Char
  | .fixed s => s
  | .field n => holder n

/-- A format put together from texts and fields. -/
def fmtOf (t0 : List Char) (l : List (List Char × List Char)) : List Char :=
  t0 ++ l.flatMap (fun x => holder x.1 ++ x.2)

/-- No `${name}` occurs in the text. -/
def Plain (s : List Char) : Prop := ∀ a n b, Name n → s ≠ a ++ holder n ++ b

theorem matchHere_holder {n : List Char} (hn : Name n) (r : List Char) :
    matchHere (holder n ++ r) = some (n, r) := by
  have h1 : (n ++ '}' :: r).takeWhile isName = n := by
    rw [List.takeWhile_append_of_pos hn.2]
    simp [show isName '}' = false by decide]
  have h2 : (n ++ '}' :: r).dropWhile isName = '}' :: r := by
    rw [List.dropWhile_append_of_pos hn.2]
    simp [show isName '}' = false by decide]
  have e : holder n ++ r = '$' :: '{' :: (n ++ '}' :: r) := by simp [holder]
  rw [e]
  unfold matchHere
  simp only
  rw [h1, h2]
  match n, hn.1 with
  | c :: cs, _ => rfl

theorem matchHere_some {f n r : List Char} (h : matchHere f = some (n, r)) :
    Name n ∧ f = holder n ++ r := by
  unfold matchHere at h
  split at h
  · rename_i cs
    have e := List.takeWhile_append_dropWhile (p := isName) (l := cs)
    have ha := takeWhile_all isName cs
    split at h
    · simp at h
    · rename_i n0 ns r0 h1 h2
      simp only [Option.some.injEq, Prod.mk.injEq] at h
      obtain ⟨rfl, rfl⟩ := h
      rw [h1] at ha
      refine ⟨⟨by simp, ha⟩, ?_⟩
      rw [h1, h2] at e
      rw [← e]
      simp [holder]
    · simp at h
  · simp at h

theorem matchHere_ne {c : Char} (h : c ≠ '$') (cs : List Char) : matchHere (c :: cs) = none := by
  unfold matchHere
  split
  · rename_i e; simp at e; exact (h e.1).elim
  · rfl

theorem search_holder {t : List Char} (ht : '$' ∉ t) {n : List Char} (hn : Name n) (r : List Char) :
    search (t ++ (holder n ++ r)) = some (t, n, r) := by
  induction t with
  | nil =>
    have e : [] ++ (holder n ++ r) = '$' :: '{' :: (n ++ ['}'] ++ r) := by simp [holder]
    have m := matchHere_holder hn r
    have e' : holder n ++ r = '$' :: '{' :: (n ++ ['}'] ++ r) := by simp [holder]
    rw [e'] at m
    rw [e]
    unfold search
    rw [m]
  | cons c cs ih =>
    have hc : c ≠ '$' := by rintro rfl; simp at ht
    have hcs : '$' ∉ cs := by intro h; exact ht (by simp [h])
    show search (c :: (cs ++ (holder n ++ r))) = _
    unfold search
    rw [matchHere_ne hc, ih hcs]

theorem search_free {t : List Char} (ht : '$' ∉ t) : search t = none := by
  induction t with
  | nil => rfl
  | cons c cs ih =>
    have hc : c ≠ '$' := by rintro rfl; simp at ht
    have hcs : '$' ∉ cs := by intro h; exact ht (by simp [h])
    unfold search
    rw [matchHere_ne hc, ih hcs]

theorem tokensN_fmtOf (l : List (List Char × List Char)) :
    ∀ (t0 : List Char) (k : Nat), (fmtOf t0 l).length ≤ k → '$' ∉ t0 →
    (∀ x ∈ l, Name x.1 ∧ '$' ∉ x.2) →
    tokensN k (fmtOf t0 l) = .fixed t0 :: l.flatMap (fun x => [.field x.1, .fixed x.2]) := by
  induction l with
  | nil =>
    intro t0 k _ h0 _
    have e : fmtOf t0 [] = t0 := by simp [fmtOf]
    rw [e]
    cases k with
    | zero => rfl
    | succ k => unfold tokensN; rw [search_free h0]; rfl
  | cons x l ih =>
    intro t0 k hk h0 hl
    have hx := hl x (by simp)
    have e : fmtOf t0 (x :: l) = t0 ++ (holder x.1 ++ fmtOf x.2 l) := by simp [fmtOf]
    rw [e] at hk ⊢
    cases k with
    | zero => simp [holder] at hk
    | succ k =>
      unfold tokensN
      rw [search_holder h0 hx.1]
      simp only
      rw [ih x.2 k (by simp [holder] at hk; omega) hx.2 (fun y hy => hl y (by simp [hy]))]
      simp

theorem search_some {f p n r : List Char} (h : search f = some (p, n, r)) :
    Name n ∧ f = p ++ (holder n ++ r) ∧ Plain p := by
  induction f generalizing p with
  | nil => simp [search] at h
  | cons c cs ih =>
    unfold search at h
    cases hm : matchHere (c :: cs) with
    | some x =>
      obtain ⟨n', r'⟩ := x
      rw [hm] at h
      simp only [Option.some.injEq, Prod.mk.injEq] at h
      obtain ⟨rfl, rfl, rfl⟩ := h
      obtain ⟨h1, h2⟩ := matchHere_some hm
      refine ⟨h1, by simpa using h2, ?_⟩
      intro a n'' b _ e
      have := congrArg List.length e
      simp [holder] at this
    | none =>
      rw [hm] at h
      simp only at h
      cases hs : search cs with
      | none => rw [hs] at h; simp at h
      | some y =>
        obtain ⟨p', n', r'⟩ := y
        rw [hs] at h
        simp only [Option.some.injEq, Prod.mk.injEq] at h
        obtain ⟨rfl, rfl, rfl⟩ := h
        obtain ⟨h1, h2, h3⟩ := ih hs
        refine ⟨h1, by rw [h2]; rfl, ?_⟩
        intro a n'' b hn'' e
        cases a with
        | nil =>
          have e' : c :: cs = holder n'' ++ (b ++ (holder n' ++ r')) := by
            rw [h2, ← List.cons_append, e]; simp
          rw [e', matchHere_holder hn''] at hm
          simp at hm
        | cons a0 a =>
          simp only [List.cons_append, List.cons.injEq] at e
          exact h3 a n'' b hn'' e.2

theorem search_none {f : List Char} (h : search f = none) : Plain f := by
  induction f with
  | nil =>
    intro a n b _ e
    have := congrArg List.length e
    simp [holder] at this
  | cons c cs ih =>
    unfold search at h
    cases hm : matchHere (c :: cs) with
    | some x => obtain ⟨n, r⟩ := x; rw [hm] at h; simp at h
    | none =>
      rw [hm] at h
      simp only at h
      have hs : search cs = none := by
        cases e : search cs with
        | none => rfl
        | some y => obtain ⟨p, n, r⟩ := y; rw [e] at h; simp at h
      intro a n b hn e
      cases a with
      | nil =>
        rw [List.nil_append] at e
        rw [e, matchHere_holder hn] at hm
        simp at hm
      | cons a0 a =>
        simp only [List.cons_append, List.cons.injEq] at e
        exact ih hs a n b hn e.2

theorem tokensN_spec : ∀ (k : Nat) (f : List Char), f.length ≤ k →
    (tokensN k f).flatMap source = f ∧
    ∀ x ∈ tokensN k f, match x with | .fixed s => Plain s | .field n => Name n
  | 0, f, h => by
    have : f = [] := List.length_eq_zero_iff.mp (by omega)
    subst this
    refine ⟨rfl, ?_⟩
    intro x hx
    simp only [tokensN, List.mem_singleton] at hx
    subst hx
    intro a n b _ e
    have := congrArg List.length e
    simp [holder] at this
  | k + 1, f, h => by
    unfold tokensN
    cases hs : search f with
    | none =>
      refine ⟨by simp [source], ?_⟩
      intro x hx
      simp only [List.mem_singleton] at hx
      subst hx
      exact search_none hs
    | some y =>
      obtain ⟨p, n, r⟩ := y
      obtain ⟨h1, h2, h3⟩ := search_some hs
      have hr : r.length ≤ k := by
        rw [h2] at h
        simp [holder] at h
        omega
      obtain ⟨i1, i2⟩ := tokensN_spec k r hr
      refine ⟨?_, ?_⟩
      · simp only [List.flatMap_cons, source, i1]
        exact h2.symm
      · intro x hx
        simp only [List.mem_cons] at hx
        rcases hx with rfl | rfl | hx
        · exact h3
        · exact h1
        · exact i2 x hx

/-- Every format is split without loss into texts and fields, and no text holds a field that was
overlooked. -/
theorem C178_split (f : List Char) :
    (tokens f).flatMap source = f ∧
    ∀ x ∈ tokens f, match x with | .fixed s => Plain s | .field n => Name n :=
  tokensN_spec f.length f (Nat.le_refl _)

/-- Specification of the fields. -/
def fieldSpec (e : Event) : String → Option String
  | "severity" => some (severity e.level)
  | "message" => some e.message
  | "time" => some e.time
  | "thread" => some e.thread
  | "file" => some e.file
  | "line" => some e.line
  | "function" => some e.function
  | "streamname" => some e.streamName
  | _ => none

/-- The text printed for a known field. -/
theorem C178_field (extra : List Char → Option (List Char)) (e : Event) (n v : String)
    (h : fieldSpec e n = some v) : fieldText extra e n.toList = v.toList := by
  unfold fieldSpec at h
  unfold fieldText
  split at h <;> first
    | (injection h with h; subst h; simp)
    | simp at h

/-- The line printed for a format put together from texts and fields: the texts stay, every field
is replaced by its value, the colour of the level goes before and the normal colour after it. -/
theorem C178_line (c : Bool) (extra : List Char → Option (List Char)) (e : Event)
    (t0 : List Char) (l : List (List Char × List Char)) (h0 : '$' ∉ t0 ∧ '\x00' ∉ t0)
    (hl : ∀ x ∈ l, Name x.1 ∧ '$' ∉ x.2 ∧ '\x00' ∉ x.2) :
    print c extra (fmtOf t0 l) e =
      (if c then colour e.level else []) ++
      (t0 ++ l.flatMap (fun x => fieldText extra e x.1 ++ x.2)) ++
      (if c then "\x1b[0m".toList else []) ++ ['\n'] := by
  have ht := tokensN_fmtOf l t0 _ (Nat.le_refl _) h0.1 (fun x hx => ⟨(hl x hx).1, (hl x hx).2.1⟩)
  have hb : (tokens (fmtOf t0 l)).flatMap (Token.text extra e) =
      t0 ++ l.flatMap (fun x => fieldText extra e x.1 ++ x.2) := by
    unfold tokens
    rw [ht]
    simp only [List.flatMap_cons, Token.text, cstr_id h0.2]
    congr 1
    rw [List.flatMap_assoc]
    have : ∀ l' : List (List Char × List Char), (∀ x ∈ l', '\x00' ∉ x.2) →
        l'.flatMap (fun x => [Token.field x.1, Token.fixed x.2].flatMap (Token.text extra e)) =
        l'.flatMap (fun x => fieldText extra e x.1 ++ x.2) := by
      intro l'
      induction l' with
      | nil => intro _; rfl
      | cons x l' ih =>
        intro h
        rw [List.flatMap_cons, List.flatMap_cons, ih (fun y hy => h y (by simp [hy]))]
        simp [Token.text, cstr_id (h x (by simp))]
    exact this l (fun x hx => (hl x hx).2.2)
  unfold print
  rw [hb]

/-- A format without a known field is printed as it is. -/
theorem C178_unknown (e : Event) (f : List Char) (hf : '\x00' ∉ f)
    (h : ∀ a n b, Name n → f = a ++ holder n ++ b → fieldSpec e (String.ofList n) = none) :
    print false (fun _ => none) f e = f ++ ['\n'] := by
  obtain ⟨h1, h2⟩ := C178_split f
  have key : ∀ ts : List Token, (∀ x ∈ ts, match x with | .fixed s => Plain s | .field n => Name n) →
      (∀ a n b, Name n → ts.flatMap source = a ++ holder n ++ b →
        fieldSpec e (String.ofList n) = none) →
      '\x00' ∉ ts.flatMap source →
      ts.flatMap (Token.text (fun _ => none) e) = ts.flatMap source := by
    intro ts
    induction ts with
    | nil => intro _ _ _; rfl
    | cons x ts ih =>
      intro a1 a2 a3
      simp only [List.flatMap_cons] at a2 a3 ⊢
      rw [List.mem_append] at a3
      push Not at a3
      rw [ih (fun y hy => a1 y (by simp [hy])) ?_ a3.2]
      · congr 1
        cases x with
        | fixed s => exact cstr_id a3.1
        | field n =>
          have hn := a1 (.field n) (by simp)
          have hu := a2 [] n (ts.flatMap source) hn (by simp [source])
          have hne : ∀ s v, fieldSpec e s = some v → n ≠ s.toList := by
            rintro s v hs rfl
            rw [String.ofList_toList] at hu
            rw [hu] at hs; simp at hs
          have hz : '\x00' ∉ ('$' :: '{' :: n) ++ ['}'] := by simpa [source, holder] using a3.1
          show fieldText (fun _ => none) e n = holder n
          unfold fieldText
          rw [if_neg (hne "severity" _ rfl), if_neg (hne "message" _ rfl),
            if_neg (hne "time" _ rfl), if_neg (hne "thread" _ rfl), if_neg (hne "file" _ rfl),
            if_neg (hne "line" _ rfl), if_neg (hne "function" _ rfl),
            if_neg (hne "streamname" _ rfl)]
          simp only
          rw [cstr_id hz]
          simp [holder]
      · intro a n b hn e'
        exact a2 (source x ++ a) n b hn (by rw [e']; simp)
  unfold print tokens
  have := key (tokens f) h2 (by rw [h1]; exact h) (by rw [h1]; exact hf)
  unfold tokens at this h1
  rw [this, h1]
  simp

/-- The default format (src/Formatter.cpp:166). -/
theorem C178_default (e : Event) :
    print false (fun _ => none) "[${severity}] [${time}]: ${message}".toList e =
      "[".toList ++ (severity e.level).toList ++ "] [".toList ++ e.time.toList ++ "]: ".toList ++
        e.message.toList ++ ['\n'] := by
  have hf : "[${severity}] [${time}]: ${message}".toList =
      fmtOf "[".toList [("severity".toList, "] [".toList), ("time".toList, "]: ".toList),
        ("message".toList, [])] := by decide
  have hn : ∀ s : String, s.toList ≠ [] → (∀ c ∈ s.toList, isName c = true) → Name s.toList :=
    fun s h1 h2 => ⟨h1, h2⟩
  rw [hf, C178_line]
  · simp only [List.flatMap_cons, List.flatMap_nil,
      C178_field (fun _ => none) e "severity" _ rfl, C178_field (fun _ => none) e "time" _ rfl,
      C178_field (fun _ => none) e "message" _ rfl]
    simp
  · decide
  · intro x hx
    simp only [List.mem_cons, List.not_mem_nil, or_false] at hx
    rcases hx with rfl | rfl | rfl
    · exact ⟨hn "severity" (by decide) (by decide), by decide, by decide⟩
    · exact ⟨hn "time" (by decide) (by decide), by decide, by decide⟩
    · exact ⟨hn "message" (by decide) (by decide), by decide, by decide⟩

/-- The names of the levels (Levels.hpp:21-34) are told apart by their text and their order. -/
theorem C178_severity : [10, 9, 8, 7, 6, 5, 4, 3, 2, 1, 0].map severity =
    ["FATAL", "ERROR", " WARN", " INFO", "DEBUG", " FINE", "TRACE", "FINER", "VERBO", "FINES",
     "  ALL"] ∧ (∀ l, 10 < l → severity l = "UNKNO") ∧
    (∀ a b, a ≤ 10 → b ≤ 10 → severity a = severity b → a = b) := by
  refine ⟨by decide, ?_, ?_⟩
  · intro l hl
    unfold severity
    repeat rw [if_neg (by omega)]
  · have key : ∀ a < 11, ∀ b < 11, severity a = severity b → a = b := by decide
    intro a b ha hb
    exact key a (by omega) b (by omega)

/-! ## The threads -/

theorem upd_self {α : Type} (f : Nat → α) (i : Nat) (a : α) : upd f i a i = a := by simp [upd]

theorem upd_ne {α : Type} (f : Nat → α) {i j : Nat} (a : α) (h : j ≠ i) : upd f i a j = f j := by
  simp [upd, h]

/-- Specification: the messages thread `t` asked for in a trace, calls from inside of the logger
left out.  The flag says whether `t` is in a call. -/
def asked (t : Nat) : Bool → List Ev → List Nat
  | _, [] => []
  | busy, .call u m :: r =>
      if u = t then (if busy then asked t true r else m :: asked t true r) else asked t busy r
  | busy, .done u _ :: r => if u = t then asked t false r else asked t busy r
  | busy, .enter _ :: r => asked t busy r
  | busy, .shutdown :: r => asked t busy r

/-- The messages of thread `t` in the log. -/
def got (t : Nat) (log : List (Nat × Nat)) : List Nat :=
  (log.filter (fun x => x.1 == t)).map Prod.snd

/-- The message thread `t` is about to print. -/
def pending : Pc → List Nat
  | .out => []
  | .want m => [m]
  | .inside m => [m]
  | .selfWait m => [m]

def busy : Pc → Bool
  | .out => false
  | _ => true

/-- A trace in which the logger always comes back normally or with a `std::exception`, and nobody
shuts the system down. -/
def Tame (ok : End → Prop) (l : List Ev) : Prop :=
  ∀ e ∈ l, match e with
    | .done _ r => ok r
    | .shutdown => False
    | _ => True

structure Inv (s : St) : Prop where
  down : s.down = false
  printing : ∀ t, s.printing = some t ↔ ∃ m, s.pc t = .inside m
  lock : s.lock = s.printing
  noSelf : ∀ t m, s.pc t ≠ .selfWait m

theorem inv_start : Inv St.start := by
  constructor <;> simp [St.start]

theorem inv_step {s s' : St} (h : Inv s) (e : Ev) (he : e ≠ .shutdown)
    (hd : ∀ t r, e = .done t r → r ≠ .alien) (hs : step s e = some s') : Inv s' := by
  cases e with
  | shutdown => exact (he rfl).elim
  | call t m =>
    unfold step at hs
    simp only at hs
    cases hp : s.pc t with
    | out =>
      rw [hp] at hs; simp only at hs
      rw [if_neg (by simp [h.down])] at hs
      split at hs
      · injection hs with hs; subst hs; exact h
      · injection hs with hs; subst hs
        refine ⟨h.down, ?_, h.lock, ?_⟩
        · intro u
          by_cases hu : u = t
          · subst hu
            have := (h.printing u)
            rw [hp] at this
            simp [upd_self]
            simpa using this
          · simp only [upd_ne _ _ hu]; exact h.printing u
        · intro u k
          by_cases hu : u = t
          · subst hu; simp [upd_self]
          · simp only [upd_ne _ _ hu]; exact h.noSelf u k
    | inside k =>
      rw [hp] at hs; simp only at hs
      rw [if_neg (by simp [h.down]), if_pos ((h.printing t).mpr ⟨k, hp⟩)] at hs
      injection hs with hs; subst hs; exact h
    | want k => rw [hp] at hs; simp at hs
    | selfWait k => rw [hp] at hs; simp at hs
  | enter t =>
    unfold step at hs
    simp only at hs
    split at hs
    · rename_i m hp hl
      injection hs with hs; subst hs
      have hpr : s.printing = none := by rw [← h.lock]; exact hl
      refine ⟨h.down, ?_, rfl, ?_⟩
      · intro u
        by_cases hu : u = t
        · subst hu; simp [upd_self]
        · simp only [upd_ne _ _ hu]
          rw [← h.printing u, hpr]
          simp; exact fun e => hu e.symm
      · intro u k
        by_cases hu : u = t
        · subst hu; simp [upd_self]
        · simp only [upd_ne _ _ hu]; exact h.noSelf u k
    · simp at hs
  | done t r =>
    unfold step at hs
    simp only at hs
    cases hp : s.pc t with
    | inside m =>
      rw [hp] at hs
      injection hs with hs; subst hs
      have hpt := (h.printing t).mpr ⟨m, hp⟩
      have e : (if r = .alien then s.printing else none) = none := if_neg (hd t r rfl)
      refine ⟨h.down, ?_, e.symm, ?_⟩
      · intro u
        show (if r = .alien then s.printing else none) = some u ↔ _
        rw [e]
        by_cases hu : u = t
        · subst hu; simp [upd_self]
        · simp only [upd_ne _ _ hu]
          rw [← h.printing u, hpt]
          simp; exact fun e => hu e.symm
      · intro u k
        by_cases hu : u = t
        · subst hu; simp [upd_self]
        · simp only [upd_ne _ _ hu]; exact h.noSelf u k
    | out => rw [hp] at hs; simp at hs
    | want k => rw [hp] at hs; simp at hs
    | selfWait k => rw [hp] at hs; simp at hs

theorem got_append (t : Nat) (l : List (Nat × Nat)) (u m : Nat) :
    got t (l ++ [(u, m)]) = got t l ++ (if u = t then [m] else []) := by
  unfold got
  rw [List.filter_append, List.map_append]
  congr 1
  by_cases h : u = t
  · subst h; simp
  · have : (u == t) = false := by simpa using h
    simp [h, this]

theorem run_account (t : Nat) : ∀ (l : List Ev) (s s' : St), Inv s →
    Tame (· = .fine) l → run s l = some s' →
    got t s'.log ++ pending (s'.pc t) =
      got t s.log ++ pending (s.pc t) ++ asked t (busy (s.pc t)) l
  | [], s, s', _, _, e => by
    injection e with e; subst e; simp [asked]
  | ev :: r, s, s', h, ht, e => by
    unfold run at e
    cases hs : step s ev with
    | none => rw [hs] at e; simp at e
    | some s1 =>
      rw [hs] at e
      have hev := ht ev (by simp)
      have hr : Tame (· = .fine) r := fun x hx => ht x (by simp [hx])
      have hne : ev ≠ .shutdown := by rintro rfl; exact hev
      have hal : ∀ u q, ev = .done u q → q ≠ .alien := by
        rintro u q rfl rfl; simp at hev
      have h1 := inv_step h ev hne hal hs
      have ih := run_account t r s1 s' h1 hr e
      rw [ih]
      cases ev with
      | shutdown => exact hev.elim
      | call u m =>
        unfold step at hs
        simp only at hs
        cases hp : s.pc u with
        | out =>
          rw [hp] at hs; simp only at hs
          have hpr : s.printing ≠ some u := by
            intro e'
            obtain ⟨k, hk⟩ := (h.printing u).mp e'
            rw [hp] at hk; simp at hk
          rw [if_neg (by simp [h.down]), if_neg hpr] at hs
          injection hs with hs; subst hs
          by_cases hu : u = t
          · subst hu; simp [upd_self, hp, pending, busy, asked]
          · have hu' : t ≠ u := fun e' => hu e'.symm
            simp [upd_ne _ _ hu', asked, hu]
        | inside k =>
          rw [hp] at hs; simp only at hs
          rw [if_neg (by simp [h.down]), if_pos ((h.printing u).mpr ⟨k, hp⟩)] at hs
          injection hs with hs; subst hs
          by_cases hu : u = t
          · subst hu; simp [hp, busy, asked]
          · simp [asked, hu]
        | want k => rw [hp] at hs; simp at hs
        | selfWait k => rw [hp] at hs; simp at hs
      | enter u =>
        unfold step at hs
        simp only at hs
        split at hs
        · rename_i m hp hl
          injection hs with hs; subst hs
          by_cases hu : u = t
          · subst hu; simp [upd_self, hp, pending, busy, asked]
          · have hu' : t ≠ u := fun e' => hu e'.symm
            simp [upd_ne _ _ hu', asked]
        · simp at hs
      | done u q =>
        have hq : q = .fine := hev
        subst hq
        unfold step at hs
        simp only at hs
        cases hp : s.pc u with
        | inside m =>
          rw [hp] at hs
          injection hs with hs; subst hs
          simp only [if_true, got_append]
          by_cases hu : u = t
          · subst hu; simp [upd_self, hp, pending, busy, asked]
          · have hu' : t ≠ u := fun e' => hu e'.symm
            simp [upd_ne _ _ hu', asked, hu]
        | out => rw [hp] at hs; simp at hs
        | want k => rw [hp] at hs; simp at hs
        | selfWait k => rw [hp] at hs; simp at hs

theorem run_inv : ∀ (l : List Ev) (s s' : St), Inv s → Tame (· ≠ .alien) l →
    run s l = some s' → Inv s'
  | [], s, s', h, _, e => by injection e with e; subst e; exact h
  | ev :: r, s, s', h, ht, e => by
    unfold run at e
    cases hs : step s ev with
    | none => rw [hs] at e; simp at e
    | some s1 =>
      rw [hs] at e
      have hev := ht ev (by simp)
      refine run_inv r s1 s' (inv_step h ev ?_ ?_ hs) (fun x hx => ht x (by simp [hx])) e
      · rintro rfl; exact hev
      · rintro u q rfl; exact hev

/-- Every message a thread asks for reaches the logger, once and in the order of the calls of the
thread, in every schedule; calls made by the logger itself are thrown out. -/
theorem C178_all_printed_partial (l : List Ev) (s : St) (hl : Tame (· = .fine) l)
    (h : run St.start l = some s) (t : Nat) (hout : s.pc t = .out) :
    got t s.log = asked t false l := by
  have := run_account t l St.start s inv_start hl h
  rw [hout] at this
  simpa [pending, St.start, got, busy] using this

/-- No thread waits for the mutex it holds itself, also when the logger fails with a
`std::exception`; and whoever is in the logger is alone there. -/
theorem C178_exclusive_partial (l : List Ev) (s : St) (hl : Tame (· ≠ .alien) l)
    (h : run St.start l = some s) :
    (∀ t m, s.pc t ≠ .selfWait m) ∧
    (∀ t u m k, s.pc t = .inside m → s.pc u = .inside k → t = u) ∧
    (s.lock = none ↔ ∀ t m, s.pc t ≠ .inside m) := by
  have inv := run_inv l St.start s inv_start hl h
  refine ⟨inv.noSelf, ?_, ?_⟩
  · intro t u m k ht hu
    have h1 := (inv.printing t).mpr ⟨m, ht⟩
    have h2 := (inv.printing u).mpr ⟨k, hu⟩
    rw [h1] at h2
    simpa using h2
  · rw [inv.lock]
    constructor
    · intro hn t m ht
      have := (inv.printing t).mpr ⟨m, ht⟩
      rw [hn] at this; simp at this
    · intro hn
      cases hp : s.printing with
      | none => rfl
      | some t =>
        obtain ⟨m, hm⟩ := (inv.printing t).mp hp
        exact (hn t m hm).elim

/-- The hypotheses are met by a trace with two threads and a call from inside of the logger. -/
example : ∃ s, Tame (· = .fine) [.call 1 5, .call 2 6, .enter 2, .call 2 7, .done 2 .fine,
      .enter 1, .done 1 .fine] ∧
    run St.start [.call 1 5, .call 2 6, .enter 2, .call 2 7, .done 2 .fine, .enter 1,
      .done 1 .fine] = some s ∧ s.pc 2 = .out ∧ s.log = [(2, 6), (1, 5)] := by
  refine ⟨_, ?_, rfl, rfl, rfl⟩
  intro e he
  simp only [List.mem_cons, List.not_mem_nil, or_false] at he
  rcases he with rfl | rfl | rfl | rfl | rfl | rfl | rfl <;> trivial

/-- After the logger left with something other than a `std::exception`, the thread is taken for
one that still prints: its next message is thrown out although nobody is in the logger. -/
theorem C178_alien_counterexample : ∃ s, run St.start [.call 1 5, .enter 1, .done 1 .alien] = some s ∧
    s.lock = none ∧ (∀ t, s.pc t = .out) ∧ ∀ m, step s (.call 1 m) = some s := by
  refine ⟨_, rfl, rfl, ?_, fun m => rfl⟩
  intro t
  by_cases h : t = 1
  · subst h; rfl
  · simp [upd, St.start, h]

end Kalibr.LogPrint
