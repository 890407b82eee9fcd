import Verif.Serial.Model
import Mathlib.Tactic.FinCases
import Mathlib.Data.List.OfFn
import Mathlib.Data.List.GetD
import Mathlib.Tactic.IntervalCases

/-!
# What is saved is what is loaded
-/

namespace Kalibr.Serial

@[simp] theorem bind_apply {α β : Type} (m : Rd α) (f : α → Rd β) (s : List Tok) :
    (m >>= f) s = (m s).bind fun p => f p.1 p.2 := rfl
@[simp] theorem pure_apply {α : Type} (a : α) (s : List Tok) : (pure a : Rd α) s = .ok (a, s) := rfl
@[simp] theorem rdReal_cons (x : ℝ) (s : List Tok) : rdReal (.real x :: s) = .ok (x, s) := rfl
@[simp] theorem rdInt_cons (x : ℤ) (s : List Tok) : rdInt (.int x :: s) = .ok (x, s) := rfl
@[simp] theorem rdNat_cons (x : ℕ) (s : List Tok) : rdNat (.nat x :: s) = .ok (x, s) := rfl
@[simp] theorem rdBool_cons (x : Bool) (s : List Tok) : rdBool (.bool x :: s) = .ok (x, s) := rfl
@[simp] theorem rdByte_cons (x : ℕ) (s : List Tok) : rdByte (.byte x :: s) = .ok (x, s) := rfl
@[simp] theorem rdCls_cons (x : Option ℕ) (s : List Tok) : rdCls (.cls x :: s) = .ok (x, s) := rfl
@[simp] theorem rdTag_cons (s : List Tok) : rdTag (.tag :: s) = .ok ((), s) := rfl
@[simp] theorem rdEndTag_cons (s : List Tok) : rdEndTag (.endTag :: s) = .ok ((), s) := rfl

theorem rdMany_map {α : Type} (r : Rd α) (f : α → Tok) (h : ∀ a s, r (f a :: s) = .ok (a, s)) (l : List α) (rest : List Tok) :
    rdMany r l.length (l.map f ++ rest) = .ok (l, rest) := by
  induction l with
  | nil => rfl
  | cons a l ih => simp [rdMany, h, ih]

theorem rdMany_real (l : List ℝ) (n : ℕ) (h : l.length = n) (rest : List Tok) : rdMany rdReal n (l.map .real ++ rest) = .ok (l, rest) := by
  subst h; exact rdMany_map _ _ (fun _ _ => rfl) _ _

theorem rdMany_byte (l : List ℕ) (n : ℕ) (h : l.length = n) (rest : List Tok) : rdMany rdByte n (l.map .byte ++ rest) = .ok (l, rest) := by
  subst h; exact rdMany_map _ _ (fun _ _ => rfl) _ _

theorem loadData_saveData {α : Type} (k : Kind) (r : Rd α) (l : List Tok) (a : α) (h : ∀ rest, r (l ++ rest) = .ok (a, rest)) (rest : List Tok) :
    loadData k r (saveData k l ++ rest) = .ok (a, rest) := by
  unfold loadData saveData
  split_ifs with hk
  · simp [h]
  · exact h rest

theorem loadElements_save (k : Kind) (m : Mat) (h : m.data.length = m.rows * m.cols) (rest : List Tok) :
    loadElements k m.rows m.cols ((if m.rows > 0 ∧ m.cols > 0 then saveData k (m.data.map .real) else []) ++ rest) = .ok (m.data, rest) := by
  unfold loadElements
  by_cases hp : m.rows > 0 ∧ m.cols > 0
  · rw [if_pos hp, if_pos hp]
    exact loadData_saveData _ _ _ _ (fun _ => rdMany_real _ _ h _) _
  · rw [if_neg hp, if_neg hp]
    have h0 : m.data = [] := by
      rw [← List.length_eq_zero_iff, h]
      rcases Nat.eq_zero_or_pos m.rows with h' | h'
      · simp [h']
      · have : m.cols = 0 := by
          by_contra hc; exact hp ⟨h', Nat.pos_of_ne_zero hc⟩
        simp [this]
    simp [h0]

/-- The loading of the matrix is what it should be. -/
theorem loadMat_saveMat (k : Kind) (t : MatType) (m : Mat) (h : m.Of t) (hc : k = .xml → t.A ≠ none → t.B = none → m.rows > 0 ∧ m.cols > 0)
    (rest : List Tok) : loadMat k t (saveMat k m ++ rest) = .ok (m, rest) := by
  obtain ⟨A, B⟩ := t
  obtain ⟨hA, hB, hd⟩ := h
  have he := loadElements_save k m hd rest
  cases A with
  | none =>
    cases B with
    | none => simp [loadMat, saveMat, he]
    | some b =>
      have := hB b rfl
      subst this
      simp [loadMat, saveMat, he]
  | some a =>
    have := hA a rfl
    subst this
    cases B with
    | some b =>
      have := hB b rfl
      subst this
      simp [loadMat, saveMat, he]
    | none =>
      have hg : ∀ rest, loadData k (rdMany rdReal (m.rows * m.cols)) ((if m.rows > 0 ∧ m.cols > 0 then saveData k (m.data.map .real) else []) ++ rest)
          = .ok (m.data, rest) := by
        intro rest
        by_cases hp : m.rows > 0 ∧ m.cols > 0
        · rw [if_pos hp]
          exact loadData_saveData _ _ _ _ (fun _ => rdMany_real _ _ hd _) _
        · have hk : k ≠ .xml := fun hk => hp (hc hk (by simp) rfl)
          have he := loadElements_save k m hd rest
          rw [if_neg hp] at he ⊢
          unfold loadElements at he
          rw [if_neg hp] at he
          have h0 : m.data = [] := by
            have := congrArg (fun o : Out (List ℝ × List Tok) => match o with | .ok p => p.1 | _ => m.data) he
            simpa using this.symm
          have h1 : m.rows * m.cols = 0 := by rw [← hd, h0]; rfl
          simp [loadData, hk, h1, h0, rdMany]
      simp [loadMat, saveMat, hg rest]

/-- C164: a matrix of fixed or dynamic size that was saved is loaded with the same sizes and the same elements, whatever is next in the archive.
Not in an XML archive when the number of rows is fixed, the number of columns is not, and there are no elements. -/
theorem C164_matrices_partial (k : Kind) (t : MatType) (m : Mat) (h : m.Of t)
    (hc : k = .xml → t.A ≠ none → t.B = none → m.rows > 0 ∧ m.cols > 0) (rest : List Tok) :
    loadMat k t (saveMat k m ++ rest) = .ok (m, rest) := loadMat_saveMat k t m h hc rest

/-- A matrix of two rows and three columns, and one without any, meet the hypotheses. -/
example : (⟨2, 3, [1, 2, 3, 4, 5, 6]⟩ : Mat).Of ⟨some 2, none⟩ ∧ (⟨2, 0, []⟩ : Mat).Of ⟨some 2, none⟩ :=
  ⟨⟨by simp, by simp, by simp⟩, ⟨by simp, by simp, by simp⟩⟩

/-- C164: a row without elements that was saved to an XML archive is not loaded. -/
theorem C164_matrices_counterexample : (⟨1, 0, []⟩ : Mat).Of ⟨some 1, none⟩ ∧
    ∀ rest : List Tok, rest.head? ≠ some .tag → loadMat .xml ⟨some 1, none⟩ (saveMat .xml ⟨1, 0, []⟩ ++ rest) = .raise := by
  refine ⟨⟨by simp, by simp, by simp⟩, fun rest hr => ?_⟩
  have hn : rdTag rest = .raise := by
    cases rest with
    | nil => rfl
    | cons a s =>
      cases a <;> first | rfl | (exfalso; apply hr; rfl)
  simp [saveMat, loadMat, loadData, hn]

/-- C164: what is loaded as a matrix of a type has the sizes of the type, or there is an exception. -/
theorem C164_sizes (k : Kind) (t : MatType) (m m' : Mat) (rest rest' : List Tok)
    (h : loadMat k t (saveMat k m ++ rest) = .ok (m', rest')) :
    (∀ a, t.A = some a → m.rows = a ∧ m'.rows = a) ∧ (∀ b, t.B = some b → m.cols = b ∧ m'.cols = b) := by
  have e := h
  obtain ⟨A, B⟩ := t
  cases A with
  | none =>
    cases B with
    | none => simp
    | some b =>
      by_cases hb : m.cols = b
      · subst hb
        refine ⟨by simp, fun b hb => ?_⟩
        simp only [Option.some.injEq] at hb
        subst hb
        simp only [loadMat, saveMat, List.cons_append, List.nil_append, bind_apply, rdNat_cons, Out.bind, ne_eq, not_true_eq_false, if_false] at e
        split at e
        · cases e; simp
        · simp at e
        · simp at e
      · simp [loadMat, saveMat, hb, fail] at e
  | some a =>
    by_cases ha : m.rows = a
    · subst ha
      cases B with
      | none =>
        refine ⟨fun a ha => ?_, by simp⟩
        simp only [Option.some.injEq] at ha
        subst ha
        simp only [loadMat, saveMat, List.cons_append, List.nil_append, bind_apply, rdNat_cons, Out.bind, ne_eq, not_true_eq_false, if_false] at e
        split at e
        · cases e; simp
        · simp at e
        · simp at e
      | some b =>
        by_cases hb : m.cols = b
        · subst hb
          simp only [loadMat, saveMat, List.cons_append, List.nil_append, bind_apply, rdNat_cons, Out.bind, ne_eq, not_true_eq_false, if_false] at e
          split at e
          · cases e; simp
          · simp at e
          · simp at e
        · simp [loadMat, saveMat, hb, fail] at e
    · cases B <;> simp [loadMat, saveMat, ha, fail] at e

example : ∃ m' rest', loadMat .text ⟨some 2, none⟩ (saveMat .text ⟨2, 1, [3, 4]⟩ ++ []) = .ok (m', rest') :=
  ⟨_, _, C164_matrices_partial .text ⟨some 2, none⟩ ⟨2, 1, [3, 4]⟩ ⟨by simp, by simp, by simp⟩ (by simp) []⟩

theorem loadVec_saveVec {n : ℕ} (k : Kind) (v : Fin n → ℝ) (rest : List Tok) : loadVec n k (saveVec k v ++ rest) = .ok (v, rest) := by
  simp only [loadVec, saveVec, bind_apply]
  rw [loadMat_saveMat k _ _ ⟨by simp, by simp, by simp⟩ (by simp)]
  simp only [Out.bind, pure_apply]
  congr 2
  funext i
  simp

theorem loadFix_saveFix {r c : ℕ} (k : Kind) (M : Matrix (Fin r) (Fin c) ℝ) (rest : List Tok) :
    loadFix r c k (saveFix k M ++ rest) = .ok (M, rest) := by
  simp only [loadFix, saveFix, bind_apply]
  rw [loadMat_saveMat k _ _ ⟨by simp, by simp, by simp [Nat.mul_comm]⟩ (by simp)]
  simp only [Out.bind, pure_apply]
  congr 2
  funext i j
  have hr : 0 < r := i.pos
  have hlt : (i : ℕ) + r * j < c * r := by
    calc (i : ℕ) + r * j < r + r * j := by omega
      _ = r * (j + 1) := by ring
      _ ≤ r * c := Nat.mul_le_mul_left _ j.isLt
      _ = c * r := Nat.mul_comm _ _
  rw [List.getD_eq_getElem _ _ (by simpa using hlt)]
  simp only [List.getElem_ofFn]
  congr 1
  · apply Fin.ext
    simp [Fin.modNat, Nat.add_mul_mod_self_left, Nat.mod_eq_of_lt i.isLt]
  · apply Fin.ext
    simp [Fin.divNat, Nat.add_mul_div_left _ _ hr, Nat.div_eq_of_lt i.isLt]

attribute [local simp] loadVec_saveVec loadFix_saveFix

/-! ## Images -/

theorem loadBlob_saveBlob (k : Kind) (l : List ℕ) (n : ℕ) (h : l.length = n) (rest : List Tok) :
    loadBlob k n (saveBlob k l ++ rest) = .ok (l, rest) := by
  unfold loadBlob saveBlob
  by_cases hk : k = .binary
  · rw [if_pos hk, if_pos hk]
    exact rdMany_byte _ _ h _
  · subst h
    rw [if_neg hk, if_neg hk]
    simp [rdBlob]

theorem content_flatten_length (m : CvMat) (h : m.Valid) : m.content.flatten.length = m.rows * (m.cols * elemSize m.type) := by
  unfold CvMat.content
  rw [List.length_flatten, List.map_map]
  have : ∀ r ∈ List.range m.rows, (List.length ∘ fun r => (m.data.drop (r * m.step)).take (m.cols * elemSize m.type)) r = m.cols * elemSize m.type := by
    intro r hr
    have := h.data r (List.mem_range.1 hr)
    simp only [Function.comp, List.length_take, List.length_drop]
    omega
  rw [List.map_congr_left this]
  simp

theorem rows_of_flatten (L : List (List ℕ)) (s : ℕ) (h : ∀ l ∈ L, l.length = s) :
    (List.range L.length).map (fun r => (L.flatten.drop (r * s)).take s) = L := by
  induction L with
  | nil => rfl
  | cons a L ih =>
    have ha : a.length = s := h a (by simp)
    rw [List.length_cons, List.range_succ_eq_map, List.map_cons, List.map_map]
    congr 1
    · simp [← ha]
    · have := ih (fun l hl => h l (by simp [hl]))
      conv_rhs => rw [← this]
      apply List.map_congr_left
      intro r _
      simp only [Function.comp, List.flatten_cons, Nat.succ_mul]
      rw [List.drop_append, List.drop_eq_nil_of_le (by omega)]
      simp [ha]

theorem clone_content (m : CvMat) (h : m.Valid) : m.clone.content = m.content := by
  have hl : ∀ l ∈ m.content, l.length = m.cols * elemSize m.type := by
    intro l hl
    unfold CvMat.content at hl
    rw [List.mem_map] at hl
    obtain ⟨r, hr, rfl⟩ := hl
    have := h.data r (List.mem_range.1 hr)
    simp only [List.length_take, List.length_drop]
    omega
  have := rows_of_flatten m.content _ hl
  have hn : m.content.length = m.rows := by simp [CvMat.content]
  rw [hn] at this
  exact this

/-- The image that comes back: the rows without gaps. -/
theorem load_save_cv (k : Kind) (m : CvMat) (h : m.Valid) (h1 : m.rows = 1 → m.step = m.cols * elemSize m.type) :
    ∃ s, saveCv k m = .ok s ∧ ∀ rest, loadCv k (s ++ rest) = .ok (m.clone, rest) := by
  have hlen := content_flatten_length m h
  by_cases hc : m.isContinuous = true
  · have hstep : m.rows = 0 ∨ m.step = m.cols * elemSize m.type := by
      unfold CvMat.isContinuous at hc
      rcases of_decide_eq_true hc with h0 | h0
      · rcases Nat.lt_or_ge m.rows 1 with h2 | h2
        · exact Or.inl (by omega)
        · exact Or.inr (h1 (by omega))
      · exact Or.inr h0
    have hdat : m.step * m.rows ≤ m.data.length := by
      rcases hstep with h0 | h0
      · simp [h0]
      · rcases Nat.eq_zero_or_pos m.rows with h2 | h2
        · simp [h2]
        · have := h.data (m.rows - 1) (by omega)
          have e : m.rows = (m.rows - 1) + 1 := by omega
          rw [← h0] at this
          calc m.step * m.rows = (m.rows - 1) * m.step + m.step := by rw [e]; simp; ring
            _ ≤ _ := this
    have htake : m.data.take (m.step * m.rows) = m.content.flatten := by
      rcases hstep with h0 | h0
      · simp [h0, CvMat.content]
      · unfold CvMat.content
        rw [← h0]
        clear hlen h1 hc
        have hd : ∀ n, n * m.step ≤ m.data.length →
            m.data.take (m.step * n) = ((List.range n).map fun r => (m.data.drop (r * m.step)).take m.step).flatten := by
          intro n
          induction n with
          | zero => simp
          | succ n ih =>
            intro hn
            rw [List.range_succ, List.map_append, List.flatten_append, ← ih (by
              calc n * m.step ≤ (n + 1) * m.step := Nat.mul_le_mul_right _ (by omega)
                _ ≤ _ := hn)]
            rw [Nat.mul_succ, List.take_add]
            simp [Nat.mul_comm]
        exact hd m.rows (by rw [Nat.mul_comm]; exact hdat)
    refine ⟨[.int m.rows, .int m.cols, .int m.type] ++ saveBlob k (m.data.take (m.step * m.rows)), ?_, fun rest => ?_⟩
    · simp [saveCv, hc, Nat.not_lt.2 hdat]
    · rw [htake]
      simp only [loadCv, List.cons_append, List.nil_append, bind_apply, rdInt_cons, Out.bind, Int.toNat_natCast]
      rw [loadBlob_saveBlob k _ _ (by rw [hlen]; ring)]
      rfl
  · have hc' : m.isContinuous = false := by simpa using hc
    have hd : ¬ m.clone.data.length < m.clone.step * m.clone.rows := by
      show ¬ m.content.flatten.length < m.cols * elemSize m.type * m.rows
      rw [hlen, Nat.mul_comm]
      omega
    refine ⟨[.int m.rows, .int m.cols, .int m.type] ++ saveBlob k m.content.flatten, ?_, fun rest => ?_⟩
    · have e : m.clone.data.take (m.clone.step * m.clone.rows) = m.content.flatten := by
        apply List.take_of_length_le
        show m.content.flatten.length ≤ m.cols * elemSize m.type * m.rows
        rw [hlen, Nat.mul_comm]
      simp only [saveCv, hc', Bool.false_eq_true, if_false, if_neg hd, e]
      rfl
    · simp only [loadCv, List.cons_append, List.nil_append, bind_apply, rdInt_cons, Out.bind, Int.toNat_natCast]
      rw [loadBlob_saveBlob k _ _ (by rw [hlen]; ring)]
      rfl

/-- C164: an image that was saved is loaded with the same size, the same type and the same bytes in every row, whatever is next in the archive,
unless it is a single row cut out of a wider image. -/
theorem C164_images_partial (k : Kind) (m : CvMat) (h : m.Valid) (h1 : m.rows = 1 → m.step = m.cols * elemSize m.type) :
    ∃ s m', saveCv k m = .ok s ∧ (∀ rest, loadCv k (s ++ rest) = .ok (m', rest)) ∧
      m'.rows = m.rows ∧ m'.cols = m.cols ∧ m'.type = m.type ∧ m'.content = m.content := by
  obtain ⟨s, h2, h3⟩ := load_save_cv k m h h1
  exact ⟨s, m.clone, h2, h3, rfl, rfl, rfl, clone_content m h⟩

/-- A piece of two rows of a wider image meets the hypotheses, and its rows have gaps. -/
example : (⟨2, 2, 0, 3, [1, 2, 0, 3, 4]⟩ : CvMat).Valid ∧ (⟨2, 2, 0, 3, [1, 2, 0, 3, 4]⟩ : CvMat).isContinuous = false ∧
    (⟨2, 2, 0, 3, [1, 2, 0, 3, 4]⟩ : CvMat).content = [[1, 2], [3, 4]] := by
  refine ⟨⟨by decide, ?_⟩, by decide, by decide⟩
  intro r hr
  have hr' : r < 2 := hr
  interval_cases r <;> decide

/-- C164: a single row cut out of a wider image.  The last one of the image makes the code read memory after it; of another one a binary archive has
more bytes than are loaded, so what follows is misread; here a number that was saved after it is not found. -/
theorem C164_images_counterexample :
    (∀ k, (⟨1, 2, 0, 3, [7, 8]⟩ : CvMat).Valid ∧ saveCv k ⟨1, 2, 0, 3, [7, 8]⟩ = .ub) ∧
    (⟨1, 2, 0, 3, [7, 8, 9]⟩ : CvMat).Valid ∧
    ∀ x : ℝ, ∃ s, saveCv .binary ⟨1, 2, 0, 3, [7, 8, 9]⟩ = .ok s ∧
      (do let _ ← loadCv .binary; rdReal : Rd ℝ) (s ++ [.real x]) = .raise := by
  have hv : ∀ d : List ℕ, 2 ≤ d.length → (⟨1, 2, 0, 3, d⟩ : CvMat).Valid := fun d hd => by
    refine ⟨by simp [elemSize], fun r hr => ?_⟩
    have hr' : r = 0 := by
      have : r < 1 := hr
      omega
    subst hr'
    simpa [elemSize] using hd
  refine ⟨fun k => ⟨hv _ (by decide), by simp [saveCv, CvMat.isContinuous]⟩, hv _ (by decide), fun x => ?_⟩
  refine ⟨[.int 1, .int 2, .int 0, .byte 7, .byte 8, .byte 9], by simp [saveCv, CvMat.isContinuous, saveBlob], ?_⟩
  simp [loadCv, loadBlob, elemSize, rdMany, rdReal]

/-! ## Cameras -/

theorem radtan_rt : RoundTrip radtan fun _ => True := by intro a _ old rest; simp [radtan]
theorem equidistant_rt : RoundTrip equidistant fun _ => True := by intro a _ old rest; simp [equidistant]
theorem fov_rt : RoundTrip fov fun _ => True := by intro a _ old rest; simp [fov]
theorem rolling_rt : RoundTrip rolling fun _ => True := by intro a _ old rest; simp [rolling]
theorem nothing_rt : RoundTrip nothing fun _ => True := by intro a _ old rest; simp [nothing]

/-- C165: the parameters of the distortions and of the shutters that were saved are loaded. -/
theorem C165_distortions_and_shutters : RoundTrip radtan (fun _ => True) ∧ RoundTrip equidistant (fun _ => True) ∧ RoundTrip fov (fun _ => True) ∧
    RoundTrip nothing (fun _ => True) ∧ RoundTrip rolling (fun _ => True) :=
  ⟨radtan_rt, equidistant_rt, fov_rt, nothing_rt, rolling_rt⟩

/-- C165: a projection that was saved is loaded, with any distortion that is; the numbers computed from the parameters are those the constructor and the
setters compute, and come back the same although they are not saved. -/
theorem C165_projections {D : Type} (d : Codec D) (P : D → Prop) (hd : RoundTrip d P) (big : ℝ) :
    RoundTrip (pinhole d) (fun p => P p.distortion ∧ p.recip_fu = 1 / p.fu ∧ p.recip_fv = 1 / p.fv ∧ p.fu_over_fv = p.fu / p.fv) ∧
    RoundTrip (omni d) (fun p => P p.distortion ∧ p.recip_fu = 1 / p.fu ∧ p.recip_fv = 1 / p.fv ∧ p.fu_over_fv = p.fu / p.fv ∧
      p.one_over_xixi_m_1 = 1 / (p.xi * p.xi - 1) ∧ p.fov_parameter = if p.xi ≤ 1 then p.xi else 1 / p.xi) ∧
    RoundTrip (eucm d) (fun p => P p.distortion ∧ p.recip_fu = 1 / p.fu ∧ p.recip_fv = 1 / p.fv ∧ p.fu_over_fv = p.fu / p.fv ∧
      p.one_over_beta_2alpha_m_1 = 1 / (p.beta * (2 * p.alpha - 1)) ∧
      p.fov_parameter = if p.alpha ≤ 0.5 then p.alpha / (1 - p.alpha) else (1 - p.alpha) / p.alpha) ∧
    RoundTrip (ds big d) (fun p => P p.distortion ∧ p.recip_fu = 1 / p.fu ∧ p.recip_fv = 1 / p.fv ∧ p.fu_over_fv = p.fu / p.fv ∧
      (p.one_over_2alpha_m_1 = if p.alpha > 0.5 then 1 / (2 * p.alpha - 1) else big) ∧
      p.fov_parameter = (dsTemp p.alpha + p.xi) / √(2 * dsTemp p.alpha * p.xi + p.xi * p.xi + 1)) := by
  refine ⟨?_, ?_, ?_, ?_⟩
  · rintro ⟨fu, fv, cu, cv, ru, rv, dd, a, b, c⟩ ⟨h0, h1, h2, h3⟩ old rest
    have := hd dd h0 old.distortion rest
    simp only at h1 h2 h3
    subst h1 h2 h3
    simp [pinhole, this, Pinhole.updateTemporaries]
  · rintro ⟨xi, fu, fv, cu, cv, ru, rv, dd, a, b, c, e, f⟩ ⟨h0, h1, h2, h3, h4, h5⟩ old rest
    have := hd dd h0 old.distortion rest
    simp only at h1 h2 h3 h4 h5
    subst h1 h2 h3 h4 h5
    simp [omni, this, Omni.updateTemporaries]
  · rintro ⟨alpha, beta, fu, fv, cu, cv, ru, rv, dd, a, b, c, e, f⟩ ⟨h0, h1, h2, h3, h4, h5⟩ old rest
    have := hd dd h0 old.distortion rest
    simp only at h1 h2 h3 h4 h5
    subst h1 h2 h3 h4 h5
    simp [eucm, this, Eucm.updateTemporaries]
  · rintro ⟨xi, alpha, fu, fv, cu, cv, ru, rv, dd, a, b, c, e, f⟩ ⟨h0, h1, h2, h3, h4, h5⟩ old rest
    have := hd dd h0 old.distortion rest
    simp only at h1 h2 h3 h4 h5
    subst h1 h2 h3 h4 h5
    simp [ds, this, Ds.updateTemporaries]

/-- A pinhole camera meets the hypotheses. -/
example : (fun p : Pinhole RadTan => True ∧ p.recip_fu = 1 / p.fu ∧ p.recip_fv = 1 / p.fv ∧ p.fu_over_fv = p.fu / p.fv)
    ⟨400, 200, 320, 240, 640, 480, ⟨0.1, 0.2, 0, 0⟩, 1 / 400, 1 / 200, 2⟩ := by norm_num

/-- C165: a camera that was saved is loaded: its identifier, its projection, its shutter and its mask. -/
theorem C165_cameras {P S M : Type} (p : Codec P) (s : Codec S) (m : Codec M) (HP : P → Prop) (HS : S → Prop) (HM : M → Prop)
    (hp : RoundTrip p HP) (hs : RoundTrip s HS) (hm : RoundTrip m HM) :
    RoundTrip (camera p s m) (fun c => HP c.projection ∧ HS c.shutter ∧ HM c.mask) := by
  rintro ⟨id, pp, ss, mm⟩ ⟨h1, h2, h3⟩ old rest
  have h1 := hp pp h1 old.projection
  have h2 := hs ss h2 old.shutter
  have h3 := hm mm h3 old.mask
  simp [camera, h1, h2, h3]

/-- The camera of kalibr: a pinhole camera with radial and tangential distortion and a global shutter. -/
example : RoundTrip (camera (pinhole radtan) nothing nothing)
    (fun c => (True ∧ c.projection.recip_fu = 1 / c.projection.fu ∧ c.projection.recip_fv = 1 / c.projection.fv ∧
      c.projection.fu_over_fv = c.projection.fu / c.projection.fv) ∧ True ∧ True) :=
  C165_cameras _ _ _ _ _ _ (C165_projections radtan _ radtan_rt 0).1 nothing_rt nothing_rt

/-- C165: a mask that was saved by this version is loaded: the scale, and the size and the bytes of the mask. -/
theorem C165_masks_partial (k : Kind) (m : ImageMask) (h : m.mask.Valid) (h1 : m.mask.rows = 1 → m.mask.step = m.mask.cols * elemSize m.mask.type) :
    ∃ s m', saveMask k m = .ok s ∧ (∀ rest, loadMask k 1 (s ++ rest) = .ok (m', rest)) ∧ m'.scale = m.scale ∧
      m'.mask.rows = m.mask.rows ∧ m'.mask.cols = m.mask.cols ∧ m'.mask.type = m.mask.type ∧ m'.mask.content = m.mask.content := by
  obtain ⟨s, h2, h3⟩ := load_save_cv k m.mask h h1
  refine ⟨s ++ [.real m.scale], ⟨m.mask.clone, m.scale⟩, by simp [saveMask, h2], fun rest => ?_, rfl, rfl, rfl, rfl, clone_content _ h⟩
  have := h3 (.real m.scale :: rest)
  simp [loadMask, this]

/-- A mask of four pixels for images of half the size meets the hypotheses. -/
example : (⟨2, 2, 0, 2, [0, 1, 1, 0]⟩ : CvMat).Valid :=
  ⟨by decide, fun r hr => by have hr' : r < 2 := hr; interval_cases r <;> decide⟩

/-- C165: no mask that version 0 saved is loaded, although the code means to: it looks for a scale that is not there.  When nothing but the mask was saved there is an
exception; a number that was saved after it is taken for the scale. -/
theorem C165_masks_counterexample (k : Kind) (mask : CvMat) (h : mask.Valid) (h1 : mask.rows = 1 → mask.step = mask.cols * elemSize mask.type) :
    ∃ s, saveMask0 k mask = .ok s ∧ loadMask k 0 s = .raise ∧ ∀ x : ℝ, loadMask k 0 (s ++ [.real x]) = .ok (⟨mask.clone, x⟩, []) := by
  obtain ⟨s, h2, h3⟩ := load_save_cv k mask h h1
  refine ⟨s, h2, ?_, fun x => ?_⟩
  · have := h3 []
    rw [List.append_nil] at this
    simp [loadMask, this, rdReal]
  · have := h3 [.real x]
    simp [loadMask, this]

/-! ## Transformations, points, vectors and keypoints -/

theorem trafo_rt (k : Kind) : RoundTrip (trafo k) fun _ => True := by intro a _ old rest; simp [trafo]
theorem point_rt (k : Kind) : RoundTrip (point k) fun _ => True := by intro a _ old rest; simp [point]
theorem uncertainPoint_rt (k : Kind) : RoundTrip (uncertainPoint k) fun _ => True := by
  intro a _ old rest; simp [uncertainPoint, point]
theorem uncertainTrafo_rt (k : Kind) : RoundTrip (uncertainTrafo k) fun _ => True := by
  intro a _ old rest; simp [uncertainTrafo, trafo]
theorem uncertainVector_rt (n : ℕ) (k : Kind) : RoundTrip (uncertainVector n k) fun _ => True := by
  intro a _ old rest; simp [uncertainVector]

/-- C164: transformations, homogeneous points and vectors that were saved are loaded, with their uncertainty. -/
theorem C164_kinematics (k : Kind) : RoundTrip (trafo k) (fun _ => True) ∧ RoundTrip (uncertainTrafo k) (fun _ => True) ∧
    RoundTrip (point k) (fun _ => True) ∧ RoundTrip (uncertainPoint k) (fun _ => True) ∧ ∀ n, RoundTrip (uncertainVector n k) (fun _ => True) :=
  ⟨trafo_rt k, uncertainTrafo_rt k, point_rt k, uncertainPoint_rt k, fun n => uncertainVector_rt n k⟩

theorem bytes_rt : RoundTrip bytes fun _ => True := by
  intro a _ old rest
  simp only [bytes, List.cons_append, bind_apply, rdNat_cons, Out.bind]
  exact rdMany_byte _ _ rfl _

theorem bools_rt : RoundTrip bools fun _ => True := by
  intro a _ old rest
  simp only [bools, List.cons_append, bind_apply, rdNat_cons, Out.bind]
  exact rdMany_map _ _ (fun _ _ => rfl) _ _

theorem pointer_rt {α : Type} (default : α) (c : Codec α) (P : α → Prop) (h : RoundTrip c P) :
    RoundTrip (pointer default c) fun o => ∀ a, o = some a → P a := by
  intro o ho old rest
  cases o with
  | none => simp [pointer]
  | some a => simp [pointer, h a (ho a rfl) default rest]

/-- The keypoint that comes back. -/
theorem keypoint_load (n : ℕ) (k : Kind) (p old : Keypoint n) (rest : List Tok) :
    (keypoint n k 1).load old ((keypoint n k 1).save p ++ rest) = .ok ({ p with traceId := old.traceId }, rest) := by
  have h1 := fun rest => pointer_rt ⟨0, 0⟩ _ _ (uncertainPoint_rt k) p.landmark (fun _ _ => trivial) old.landmark rest
  have h2 := fun rest => pointer_rt [] _ _ bytes_rt p.descriptor (fun _ _ => trivial) old.descriptor rest
  have h3 := fun rest => pointer_rt ⟨0, 0⟩ _ _ (uncertainVector_rt 3 k) p.backProjection (fun _ _ => trivial) old.backProjection rest
  simp [keypoint, h1, h2, h3]

/-- C164: a keypoint that was saved is loaded, except for the identifier of its track. -/
theorem C164_keypoints_partial (n : ℕ) (k : Kind) (p old : Keypoint n) (rest : List Tok) :
    ∃ p', (keypoint n k 1).load old ((keypoint n k 1).save p ++ rest) = .ok (p', rest) ∧ p'.measurement = p.measurement ∧
      p'.inverseCovariance = p.inverseCovariance ∧ p'.landmarkId = p.landmarkId ∧ p'.landmark = p.landmark ∧ p'.descriptor = p.descriptor ∧
      p'.backProjection = p.backProjection ∧ p'.octave = p.octave :=
  ⟨_, keypoint_load n k p old rest, rfl, rfl, rfl, rfl, rfl, rfl, rfl⟩

/-- C164: the identifier of the track of a keypoint is lost: keypoints of different tracks that are otherwise the same are saved as the same. -/
theorem C164_keypoints_counterexample (n : ℕ) (k : Kind) :
    ∃ p q : Keypoint n, p.traceId ≠ q.traceId ∧ (keypoint n k 1).save p = (keypoint n k 1).save q :=
  ⟨⟨0, 0, 5, none, none, none, 0, 1⟩, ⟨0, 0, 5, none, none, none, 0, 2⟩, by simp, rfl⟩

/-- C164: identifiers of keypoints and landmarks that were saved are loaded. -/
theorem C164_landmarks (k : Kind) : RoundTrip keypointIdentifier (fun _ => True) ∧ RoundTrip (landmark k) (fun _ => True) ∧ RoundTrip time (fun _ => True) := by
  refine ⟨?_, ?_, ?_⟩
  · intro a _ old rest; simp [keypointIdentifier]
  · intro a _ old rest
    have h1 := fun rest => uncertainPoint_rt k a.ph trivial old.ph rest
    have h2 := fun rest => pointer_rt [] _ _ bytes_rt a.descriptor (fun _ _ => trivial) old.descriptor rest
    simp [landmark, h1, h2]
  · intro a _ old rest; simp [time]

/-! ## Targets, observations and detectors -/

theorem targetBase_rt (k : Kind) : RoundTrip (targetBase k) fun t => t.points.data.length = t.points.rows * t.points.cols := by
  intro a h old rest
  have := fun rest => loadMat_saveMat k ⟨none, none⟩ a.points ⟨by simp, by simp, h⟩ (by simp) rest
  simp [targetBase, this]

theorem checkerboard_rt (k : Kind) : RoundTrip (checkerboard k) fun t => t.points.data.length = t.points.rows * t.points.cols := by
  intro a h old rest
  have := fun rest => targetBase_rt k a.toTargetBase h old.toTargetBase rest
  simp [checkerboard, this, checkerboardOptions]

theorem circlegrid_rt (k : Kind) : RoundTrip (circlegrid k) fun t => t.points.data.length = t.points.rows * t.points.cols := by
  intro a h old rest
  have := fun rest => targetBase_rt k a.toTargetBase h old.toTargetBase rest
  simp [circlegrid, this, circlegridOptions]

theorem aprilgrid_rt (k : Kind) : RoundTrip (aprilgrid k) fun t =>
    t.points.data.length = t.points.rows * t.points.cols ∧ t.detector = some t.options.blackTagBorder := by
  rintro ⟨b, s, sp, o, d⟩ ⟨h, hd⟩ old rest
  have := fun rest => targetBase_rt k b h old.toTargetBase rest
  simp only at hd
  subst hd
  simp [aprilgrid, this, aprilgridOptions, Aprilgrid.initialize]

/-- The targets a program can have: the matrix of points has its elements, and the detector of a grid of tags is the one its constructor makes. -/
def Target.Made : Target → Prop
  | .checkerboard t => t.points.data.length = t.points.rows * t.points.cols
  | .circlegrid t => t.points.data.length = t.points.rows * t.points.cols
  | .aprilgrid t => t.points.data.length = t.points.rows * t.points.cols ∧ t.detector = some t.options.blackTagBorder

/-- C165: a target that was saved is loaded, as an object of its class, with its geometry, its options and a detector for its tags. -/
theorem C165_targets (k : Kind) : RoundTrip (target k) fun o => ∀ t, o = some t → t.Made := by
  intro o h old rest
  cases o with
  | none => simp [target]
  | some t =>
    have h := h t rfl
    cases t with
    | checkerboard t => simp [target, checkerboard_rt k t h blankCheckerboard rest]
    | circlegrid t => simp [target, circlegrid_rt k t h blankCirclegrid rest]
    | aprilgrid t => simp [target, aprilgrid_rt k t h blankAprilgrid rest]

/-- A grid of one tag meets the hypotheses. -/
example : (Target.aprilgrid ⟨⟨⟨2, 3, [0, 1, 0, 0, 0, 0]⟩, 1, 2⟩, 0.088, 0.3, ⟨true, 1.5, false, 4, 4, 2⟩, some 2⟩).Made := ⟨rfl, rfl⟩

/-- C165: an observation that was saved is loaded: the target, the corners and which of them were seen, the pose and whether it is known, the stamp, the size, and the
image with the same bytes. -/
theorem C165_observations_partial (k : Kind) (o old : Observation) (ht : ∀ t, o.target = some t → t.Made)
    (hp : o.points.data.length = o.points.rows * o.points.cols) (hi : o.image.Valid)
    (h1 : o.image.rows = 1 → o.image.step = o.image.cols * elemSize o.image.type) :
    ∃ s o', saveObservation k o = .ok s ∧ (∀ rest, loadObservation k old (s ++ rest) = .ok (o', rest)) ∧
      o'.target = o.target ∧ o'.points = o.points ∧ o'.success = o.success ∧ o'.T_t_c = o.T_t_c ∧ o'.imRows = o.imRows ∧ o'.imCols = o.imCols ∧
      o'.stamp = o.stamp ∧ o'.T_t_c_isSet = o.T_t_c_isSet ∧ o'.image.rows = o.image.rows ∧ o'.image.cols = o.image.cols ∧
      o'.image.type = o.image.type ∧ o'.image.content = o.image.content := by
  obtain ⟨s, h2, h3⟩ := load_save_cv k o.image hi h1
  have e1 := fun rest => C165_targets k o.target ht old.target rest
  have e2 := fun rest => loadMat_saveMat k ⟨none, none⟩ o.points ⟨by simp, by simp, hp⟩ (by simp) rest
  have e3 := fun rest => bools_rt o.success trivial old.success rest
  have e4 := fun rest => trafo_rt k o.T_t_c trivial old.T_t_c rest
  have e5 : ∀ rest, time.load old.stamp (time.save o.stamp ++ rest) = .ok (o.stamp, rest) := fun rest => by simp [time]
  refine ⟨(target k).save o.target ++ saveMat k o.points ++ bools.save o.success ++ (trafo k).save o.T_t_c ++ s ++
    [.nat o.imRows, .nat o.imCols] ++ time.save o.stamp ++ [.bool o.T_t_c_isSet], { o with image := o.image.clone },
    by simp only [saveObservation, h2, Out.bind], fun rest => ?_, rfl, rfl, rfl, rfl, rfl, rfl, rfl,
    rfl, rfl, rfl, rfl, clone_content _ hi⟩
  simp [loadObservation, e1, e2, e3, e4, e5, h3]

/-- An observation of two corners of which one was seen meets the hypotheses. -/
example : ∃ o : Observation, (∀ t, o.target = some t → t.Made) ∧ o.points.data.length = o.points.rows * o.points.cols ∧ o.image.Valid ∧
    (o.image.rows = 1 → o.image.step = o.image.cols * elemSize o.image.type) ∧ o.success = [true, false] :=
  ⟨⟨none, ⟨2, 2, [1, 2, 0, 0]⟩, [true, false], ⟨![0, 0, 0, 1], 0⟩, ⟨2, 2, 0, 2, [0, 1, 1, 0]⟩, 2, 2, ⟨1, 500⟩, false⟩, by simp, rfl,
    ⟨by decide, fun r hr => by have hr' : r < 2 := hr; interval_cases r <;> decide⟩, by simp, rfl⟩

/-- C165: a detector that was saved, as it is when corners are extracted by other processes, is loaded: the camera, the target and the options. -/
theorem C165_detectors {G : Type} (blank : G) (g : Codec G) (P : G → Prop) (hg : RoundTrip g P) (k : Kind) :
    RoundTrip (detector blank g k) fun d => (∀ c, d.geometry = some c → P c) ∧ ∀ t, d.target = some t → t.Made := by
  rintro a ⟨h1, h2⟩ old rest
  have e1 := fun rest => pointer_rt blank g P hg a.geometry h1 old.geometry rest
  have e2 := fun rest => C165_targets k a.target h2 old.target rest
  simp [detector, e1, e2, detectorOptions]

/-- A detector of a camera and a grid of tags meets the hypotheses. -/
example : ∃ d : Detector ℝ, (∀ c, d.geometry = some c → (fun _ => True) c) ∧ (∀ t, d.target = some t → t.Made) ∧ d.target ≠ none :=
  ⟨⟨some 1, some (.aprilgrid ⟨⟨⟨2, 3, [0, 1, 0, 0, 0, 0]⟩, 1, 2⟩, 0.088, 0.3, ⟨true, 1.5, false, 4, 4, 2⟩, some 2⟩), ⟨false, false, true, 2, 0.2⟩⟩,
    by simp, by rintro t h; cases h; exact ⟨rfl, rfl⟩, by simp⟩

end Kalibr.Serial
