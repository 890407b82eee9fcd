import Verif.Tag.Check36h9a
import Verif.Tag.Check36h9b

/-! # The minimum distance of the largest table -/

namespace Kalibr.Tag

theorem t36h9_turned : ∀ c ∈ pieces36h9, turnedCheck c = true :=
  List.forall_mem_cons.2 ⟨t36h9_turned0,
  List.forall_mem_cons.2 ⟨t36h9_turned1,
  List.forall_mem_cons.2 ⟨t36h9_turned2,
  List.forall_mem_cons.2 ⟨t36h9_turned3,
  List.forall_mem_cons.2 ⟨t36h9_turned4,
  List.forall_mem_cons.2 ⟨t36h9_turned5,
  List.forall_mem_cons.2 ⟨t36h9_turned6,
  List.forall_mem_cons.2 ⟨t36h9_turned7,
  List.forall_mem_cons.2 ⟨t36h9_turned8,
  List.forall_mem_cons.2 ⟨t36h9_turned9,
  List.forall_mem_cons.2 ⟨t36h9_turned10,
  List.forall_mem_cons.2 ⟨t36h9_turned11,
  List.forall_mem_cons.2 ⟨t36h9_turned12,
  List.forall_mem_cons.2 ⟨t36h9_turned13,
  List.forall_mem_cons.2 ⟨t36h9_turned14,
  List.forall_mem_cons.2 ⟨t36h9_turned15,
  List.forall_mem_cons.2 ⟨t36h9_turned16,
  List.forall_mem_cons.2 ⟨t36h9_turned17,
  List.forall_mem_cons.2 ⟨t36h9_turned18,
  List.forall_mem_cons.2 ⟨t36h9_turned19,
  List.forall_mem_cons.2 ⟨t36h9_turned20,
  List.forall_mem_cons.2 ⟨t36h9_turned21,
  List.forall_mem_cons.2 ⟨t36h9_turned22,
  List.forall_mem_cons.2 ⟨t36h9_turned23,
  List.forall_mem_cons.2 ⟨t36h9_turned24,
  List.forall_mem_cons.2 ⟨t36h9_turned25,
  List.forall_mem_cons.2 ⟨t36h9_turned26,
  List.forall_mem_cons.2 ⟨t36h9_turned27,
  List.forall_mem_cons.2 ⟨t36h9_turned28,
  List.forall_mem_cons.2 ⟨t36h9_turned29,
  List.forall_mem_cons.2 ⟨t36h9_turned30,
  List.forall_mem_cons.2 ⟨t36h9_turned31,
  List.forall_mem_cons.2 ⟨t36h9_turned32,
  List.forall_mem_cons.2 ⟨t36h9_turned33,
  List.forall_mem_cons.2 ⟨t36h9_turned34,
  List.forall_mem_cons.2 ⟨t36h9_turned35,
  List.forall_mem_cons.2 ⟨t36h9_turned36,
  List.forall_mem_cons.2 ⟨t36h9_turned37,
  List.forall_mem_cons.2 ⟨t36h9_turned38,
  List.forall_mem_cons.2 ⟨t36h9_turned39,
  List.forall_mem_cons.2 ⟨t36h9_turned40,
  List.forall_mem_nil _⟩⟩⟩⟩⟩⟩⟩⟩⟩⟩⟩⟩⟩⟩⟩⟩⟩⟩⟩⟩⟩⟩⟩⟩⟩⟩⟩⟩⟩⟩⟩⟩⟩⟩⟩⟩⟩⟩⟩⟩⟩

theorem t36h9_later : ∀ i < 41, laterCheck i (pieces36h9.getD i []) = true
  | 0, _ => t36h9_later0
  | 1, _ => t36h9_later1
  | 2, _ => t36h9_later2
  | 3, _ => t36h9_later3
  | 4, _ => t36h9_later4
  | 5, _ => t36h9_later5
  | 6, _ => t36h9_later6
  | 7, _ => t36h9_later7
  | 8, _ => t36h9_later8
  | 9, _ => t36h9_later9
  | 10, _ => t36h9_later10
  | 11, _ => t36h9_later11
  | 12, _ => t36h9_later12
  | 13, _ => t36h9_later13
  | 14, _ => t36h9_later14
  | 15, _ => t36h9_later15
  | 16, _ => t36h9_later16
  | 17, _ => t36h9_later17
  | 18, _ => t36h9_later18
  | 19, _ => t36h9_later19
  | 20, _ => t36h9_later20
  | 21, _ => t36h9_later21
  | 22, _ => t36h9_later22
  | 23, _ => t36h9_later23
  | 24, _ => t36h9_later24
  | 25, _ => t36h9_later25
  | 26, _ => t36h9_later26
  | 27, _ => t36h9_later27
  | 28, _ => t36h9_later28
  | 29, _ => t36h9_later29
  | 30, _ => t36h9_later30
  | 31, _ => t36h9_later31
  | 32, _ => t36h9_later32
  | 33, _ => t36h9_later33
  | 34, _ => t36h9_later34
  | 35, _ => t36h9_later35
  | 36, _ => t36h9_later36
  | 37, _ => t36h9_later37
  | 38, _ => t36h9_later38
  | 39, _ => t36h9_later39
  | 40, _ => t36h9_later40
  | n + 41, h => absurd h (by omega)

theorem drop_flatten (S : Nat) (P : List (List Nat)) (i : Nat) (h : ∀ c ∈ P.take i, c.length = S) :
    P.flatten.drop (S * i) = (P.drop i).flatten := by
  induction i generalizing P with
  | zero => simp
  | succ i ih =>
    cases P with
    | nil => simp
    | cons c P =>
      rw [List.take_succ_cons] at h
      have hc : c.length = S := h c (by simp)
      have e : S * (i + 1) = c.length + S * i := by rw [hc]; ring
      rw [List.flatten_cons, List.drop_succ_cons, ← ih P (fun c hc => h c (by simp [hc])), e]
      simp

theorem pairwise_of_pieces (r : Nat → Nat → Prop) (S n : Nat) (P : List (List Nat)) (hlen : P.length = n + 1)
    (hS : ∀ c ∈ P.take n, c.length = S)
    (hk : ∀ i (hi : i < P.length) (s : List Nat), P.flatten.drop (S * i) = P[i] ++ s →
      (P[i]).Pairwise r ∧ ∀ x ∈ P[i], ∀ y ∈ s, r x y) : P.flatten.Pairwise r := by
  have key : ∀ i (hi : i < P.length), (P[i]).Pairwise r ∧
      ∀ x ∈ P[i], ∀ y ∈ (P.drop (i + 1)).flatten, r x y := by
    intro i hi
    refine hk i hi _ ?_
    rw [drop_flatten S P i, List.drop_eq_getElem_cons hi, List.flatten_cons]
    intro c hc
    refine hS c ?_
    have : P.take i = (P.take n).take i := by rw [List.take_take]; congr 1; omega
    rw [this] at hc
    exact List.mem_of_mem_take hc
  rw [List.pairwise_flatten]
  constructor
  · intro l hl
    obtain ⟨i, hi, rfl⟩ := List.getElem_of_mem hl
    exact (key i hi).1
  · rw [List.pairwise_iff_getElem]
    intro i j hi hj hij x hx y hy
    refine (key i hi).2 x hx y (List.mem_flatten.2 ⟨P[j], ?_, hy⟩)
    rw [List.mem_drop_iff_getElem]
    exact ⟨j - (i + 1), by omega, by congr 1; omega⟩

theorem t36h9_pairwise : t36h9.Pairwise fun x y => 9 ≤ ones (y ^^^ x) := by
  have hlen : pieces36h9.length = 40 + 1 := by decide
  have h130 : ∀ c ∈ pieces36h9.take 40, c.length = 130 := by decide +kernel
  have hl := t36h9_later
  have hs : ∀ i l s, pieces36h9.flatten.drop (130 * i) = l ++ s → laterCheck i l = true → _ :=
    laterCheck_sound
  rw [t36h9]
  generalize pieces36h9 = P at hlen h130 hl hs ⊢
  refine pairwise_of_pieces _ 130 40 P hlen h130 ?_
  intro i hi s e
  have := hl i (by omega)
  rw [List.getD_eq_getElem _ _ hi] at this
  exact hs i _ s e this

theorem t36h9_distance : MinDistance 6 t36h9 9 := by
  have hL := t36h9_lt
  have ht : ∀ w ∈ t36h9, ∀ x ∈ t36h9, 9 ≤ ones (x ^^^ rowsVal w 6 6) ∧
      9 ≤ ones (x ^^^ rowsVal (rowsVal w 6 6) 6 6) := by
    intro w hw
    obtain ⟨c, hc, hwc⟩ := List.mem_flatten.1 hw
    exact turnedCheck_sound c (t36h9_turned c hc) w hwc
  refine minDistance_of_check 6 9 t36h9 (by norm_num) hL t36h9_pairwise ?_
  generalize t36h9 = L at hL ht ⊢
  intro w hw x hx
  refine ⟨(ht w hw x hx).1, (ht w hw x hx).2, ?_⟩
  have h1 := (ht x hx w hw).1
  have hpat : ∀ w, pattern (rowsVal w 6 6) = turn 6 (pattern w) := by
    intro w
    obtain ⟨w', e1, _, e3⟩ := rotate90_eq w 6 (by omega)
    have : rotate90 w 6 = .ok (rowsVal w 6 6) := rotRows_eq w 6 6 (by omega) le_rfl
    rw [this] at e1
    cases e1
    exact e3
  have hd : ∀ x w, x < 2 ^ 36 → w < 2 ^ 36 → ones (x ^^^ w) = diff (pattern w) (pattern x) := by
    intro x w hx hw
    rw [diff_comm, ← hammingDistance_eq x w (by omega) (by omega)]
    unfold hammingDistance
    rw [popCount_eq]
  have hlt : ∀ v, rowsVal v 6 6 < 2 ^ 36 := fun v => rowsVal_lt v 6 6
  have hi : ∀ v, v < 2 ^ 36 → Inside 6 (pattern v) := fun v hv => inside_pattern hv
  rw [hd _ _ (hL w hw) (hlt _), hpat] at h1
  rw [hd _ _ (hL x hx) (hlt _), hpat, hpat, hpat]
  have e := diff_turns (d := 6) (by norm_num) (inside_turn 6 (pattern x)) (hi w (hL w hw)) 3
  have e4 : turns 6 3 (turn 6 (pattern x)) = pattern x := turns_four (hi x (hL x hx))
  rw [e4] at e
  rw [← e, diff_comm] at h1
  exact h1

end Kalibr.Tag
