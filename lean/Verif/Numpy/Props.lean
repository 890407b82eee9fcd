import Verif.Numpy.Model

/-!
# C154: conversion between NumPy arrays and matrices
-/

namespace Kalibr.Numpy

/-! ## Loops -/

theorem loop2_eq {σ : Type} (rows cols : Nat) (f : σ → Nat → Nat → σ) (s : σ) :
    loop2 rows cols f s = ((List.range rows).flatMap fun r => (List.range cols).map fun c => (r, c)).foldl (fun s p => f s p.1 p.2) s := by
  unfold loop2
  rw [List.foldl_flatMap]
  congr 1
  funext s r
  rw [List.foldl_map]

theorem mem_pairs {rows cols : Nat} {p : Nat × Nat} :
    p ∈ ((List.range rows).flatMap fun r => (List.range cols).map fun c => (r, c)) ↔ p.1 < rows ∧ p.2 < cols := by
  obtain ⟨r, c⟩ := p
  simp only [List.mem_flatMap, List.mem_range, List.mem_map, Prod.mk.injEq]
  constructor
  · rintro ⟨a, ha, b, hb, rfl, rfl⟩; exact ⟨ha, hb⟩
  · rintro ⟨ha, hb⟩; exact ⟨r, ha, c, hb, rfl, rfl⟩

/-- Memory after writes: the places written hold what was written, if equal places get equal values. -/
theorem foldl_mem {ι : Type} (k : ι → Int) (v : ι → ℚ) : ∀ (l : List ι) (m : Int → ℚ),
    (∀ x ∈ l, ∀ y ∈ l, k x = k y → v x = v y) → ∀ x ∈ l, l.foldl (fun m x => Function.update m (k x) (v x)) m (k x) = v x := by
  intro l
  induction l using List.reverseRecOn with
  | nil => intro m _ x hx; cases hx
  | append_singleton l y ih =>
    intro m h x hx
    rw [List.foldl_append]
    simp only [List.foldl_cons, List.foldl_nil]
    by_cases hk : k x = k y
    · rw [hk, Function.update_self]
      exact (h x hx y (by simp) hk).symm
    · rw [Function.update_of_ne hk]
      rcases List.mem_append.1 hx with hx | hx
      · exact ih m (fun a ha b hb => h a (by simp [ha]) b (by simp [hb])) x hx
      · rw [List.mem_singleton] at hx
        exact absurd (congrArg k hx) hk

/-- Writing does not change the shape of an array. -/
theorem foldl_arr {ι : Type} (k : Arr → ι → Int) (v : ι → ℚ) (hk : ∀ a p x i, k (a.store p x) i = k a i) : ∀ (l : List ι) (a : Arr),
    l.foldl (fun a x => a.store (k a x) (v x)) a =
      { a with mem := l.foldl (fun m x => Function.update m (k a x) (v x)) a.mem } := by
  intro l
  induction l with
  | nil => intro a; rfl
  | cons x l ih =>
    intro a
    rw [List.foldl_cons, ih, List.foldl_cons]
    simp only [Arr.store, Arr.mk.injEq, true_and]
    congr 1
    funext m y
    have := hk a (k a x) (v x) y
    simp only [Arr.store] at this
    rw [this]

/-- Matrix after writes. -/
theorem foldl_mat {ι : Type} (k : Mat → ι → Nat × Nat) (v : ι → ℚ) (hk : ∀ M r c x i, k (Mat.store M r c x) i = k M i) :
    ∀ (l : List ι) (M : Mat), let M' := l.foldl (fun M x => M.store (k M x).1 (k M x).2 (v x)) M
      M'.rows = M.rows ∧ M'.cols = M.cols ∧ ((∀ x ∈ l, ∀ y ∈ l, k M x = k M y → v x = v y) →
        ∀ x ∈ l, M'.get (k M x).1 (k M x).2 = v x) := by
  intro l
  induction l using List.reverseRecOn with
  | nil => intro M; exact ⟨rfl, rfl, fun _ x hx => by cases hx⟩
  | append_singleton l y ih =>
    intro M M'
    have hM : ∀ (l : List ι) i, k (l.foldl (fun M x => M.store (k M x).1 (k M x).2 (v x)) M) i = k M i := by
      intro l i
      induction l using List.reverseRecOn with
      | nil => rfl
      | append_singleton l y ih => rw [List.foldl_append]; exact (hk _ _ _ _ _).trans ih
    obtain ⟨h1, h2, h3⟩ := ih M
    have e : M' = Mat.store (l.foldl (fun M x => M.store (k M x).1 (k M x).2 (v x)) M) (k M y).1 (k M y).2 (v y) := by
      show List.foldl _ _ (l ++ [y]) = _
      rw [List.foldl_append]
      simp only [List.foldl_cons, List.foldl_nil]
      rw [hM]
    rw [e]
    refine ⟨h1, h2, fun h x hx => ?_⟩
    show (if _ then _ else _) = _
    by_cases hxy : k M x = k M y
    · rw [if_pos ⟨by rw [hxy], by rw [hxy]⟩]
      exact (h x hx y (by simp) hxy).symm
    · rw [if_neg fun hc => hxy (Prod.ext hc.1 hc.2)]
      rcases List.mem_append.1 hx with hx | hx
      · exact h3 (fun a ha b hb => h a (by simp [ha]) b (by simp [hb])) x hx
      · rw [List.mem_singleton] at hx
        exact absurd (by rw [hx]) hxy

/-! ## Copies -/

theorem copyFromMatrix_spec (s : Scalar) (a : Arr) (M : Mat) :
    (copyFromMatrix s a M).rows = M.rows ∧ (copyFromMatrix s a M).cols = M.cols ∧
    ∀ r c, r < M.rows → c < M.cols → (copyFromMatrix s a M).get r c = cast s.ct (a.elem2 r c) := by
  unfold copyFromMatrix
  rw [loop2_eq]
  obtain ⟨h1, h2, h3⟩ := foldl_mat (fun (_ : Mat) (p : Nat × Nat) => p) (fun p => cast s.ct (a.mem (a.ptr2 p.1 p.2))) (fun _ _ _ _ _ => rfl)
    ((List.range M.rows).flatMap fun r => (List.range M.cols).map fun c => (r, c)) M
  exact ⟨h1, h2, fun r c hr hc => h3 (fun x _ y _ hxy => by rw [hxy]) (r, c) (mem_pairs.2 ⟨hr, hc⟩)⟩

theorem copyFromVector_spec (s : Scalar) (a : Arr) (M : Mat) (hM : M.rows = 1 ∨ M.cols = 1) :
    (copyFromVector s a M).rows = M.rows ∧ (copyFromVector s a M).cols = M.cols ∧
    ∀ i < M.size, (copyFromVector s a M).get (M.pos i).1 (M.pos i).2 = cast s.ct (a.elem1 i) := by
  unfold copyFromVector
  obtain ⟨h1, h2, h3⟩ := foldl_mat Mat.pos (fun i => cast s.ct (a.mem (a.ptr1 i))) (fun _ _ _ _ _ => rfl) (List.range M.size) M
  refine ⟨h1, h2, fun i hi => h3 (fun x _ y _ hxy => ?_) i (List.mem_range.2 hi)⟩
  have : x = y := by
    unfold Mat.pos at hxy
    by_cases h : M.rows = 1
    · rw [if_pos h, if_pos h] at hxy; exact (Prod.ext_iff.1 hxy).2
    · rw [if_neg h, if_neg h] at hxy; exact (Prod.ext_iff.1 hxy).1
  rw [this]

theorem cast_sint (w : Nat) (x : ℚ) : cast (.sint w) x = ((x.num.tdiv x.den).bmod (2 ^ w) : Int) := rfl

theorem cast_uint (w : Nat) (x : ℚ) : cast (.uint w) x = ((x.num.tdiv x.den) % 2 ^ w : Int) := rfl

theorem cast_holds {T : CT} {x : ℚ} (hT : T = .real ∨ T = .bool ∨ (∃ w, 0 < w ∧ T = .sint w) ∨ ∃ w, T = .uint w) (h : Holds T x) : cast T x = x := by
  rcases hT with rfl | rfl | ⟨w, hw, rfl⟩ | ⟨w, rfl⟩
  · rfl
  · rcases h with rfl | rfl <;> norm_num [cast]
  · obtain ⟨z, rfl, h1, h2⟩ := h
    obtain ⟨v, rfl⟩ : ∃ v, w = v + 1 := ⟨w - 1, by omega⟩
    rw [Nat.add_sub_cancel] at h1 h2
    have e : ((z : ℚ).num.tdiv (z : ℚ).den) = z := by simp
    rw [cast_sint, e, Int.bmod_eq_of_le]
    · have : ((2 ^ (v + 1) : ℕ) : Int) / 2 = 2 ^ v := by push_cast; rw [pow_succ]; omega
      omega
    · have : (((2 ^ (v + 1) : ℕ) : Int) + 1) / 2 = 2 ^ v := by push_cast; rw [pow_succ]; omega
      omega
  · obtain ⟨z, rfl, h1, h2⟩ := h
    have e : ((z : ℚ).num.tdiv (z : ℚ).den) = z := by simp
    rw [cast_uint, e, Int.emod_eq_of_lt h1 h2]

theorem scalar_cases (s : Scalar) : s.ct = .real ∨ s.ct = .bool ∨ (∃ w, 0 < w ∧ s.ct = .sint w) ∨ ∃ w, s.ct = .uint w := by
  cases s
  · exact Or.inr (Or.inr (Or.inl ⟨32, by norm_num, rfl⟩))
  · exact Or.inr (Or.inr (Or.inl ⟨64, by norm_num, rfl⟩))
  · exact Or.inr (Or.inr (Or.inr ⟨8, rfl⟩))
  · exact Or.inr (Or.inr (Or.inl ⟨8, by norm_num, rfl⟩))
  · exact Or.inl rfl
  · exact Or.inl rfl

theorem toInt_small {n : Nat} (h : n < 2 ^ 31) : toInt n = n := by
  unfold toInt
  apply Int.bmod_eq_of_le
  · norm_num
  · norm_num
    omega

theorem valid_iff {n : Nat} (h : n < 2 ^ 31) (size max : Option Nat) : isDimensionValid (toInt n) size max = true ↔ Allows size max n := by
  rw [toInt_small h]
  unfold isDimensionValid Allows
  cases size with
  | none =>
    cases max with
    | none => simp
    | some m => simp
  | some s => simp [eq_comm]

theorem resize_nat (r c : Nat) : resize r c = .ok ⟨r, c, fun _ _ => 0⟩ := by
  unfold resize
  rw [if_pos ⟨by omega, by omega⟩]
  simp

theorem dtype_ct {s : Scalar} {t : Npy} (h : s.canConvert t = true) (hc : t ≠ .char) : ∃ T, t.ct = some T := by
  cases s <;> cases t <;> first | exact absurd h (by decide) | exact absurd rfl hc | exact ⟨_, rfl⟩

theorem fits_iff (ty : Ty) {r c : Nat} (hr : r < 2 ^ 31) (hc : c < 2 ^ 31) :
    (isDimensionValid (toInt r) ty.rows ty.maxRows && isDimensionValid (toInt c) ty.cols ty.maxCols) = true ↔ ty.Fits r c := by
  rw [Bool.and_eq_true, valid_iff hr, valid_iff hc]
  exact Iff.rfl

theorem convertible_matrix (ty : Ty) (a : Arr) (r c : Nat) (hd : a.dims = [r, c]) (ht : ty.scalar.canConvert a.dtype = true) :
    convertible ty a = if (isDimensionValid (toInt r) ty.rows ty.maxRows && isDimensionValid (toInt c) ty.cols ty.maxCols) then .ok true else .raise := by
  unfold convertible
  rw [if_neg (by rw [ht]; decide)]
  simp only [hd]

theorem construct_matrix (ty : Ty) (a : Arr) (r c : Nat) (hd : a.dims = [r, c]) (hr : toInt r = r) (hc : toInt c = c) {T : CT}
    (hT : a.dtype.ct = some T) : construct ty a = .ok (copyFromMatrix ty.scalar a ⟨r, c, fun _ _ => 0⟩) := by
  have h : (resize (toInt r) (toInt c)) = .ok ⟨r, c, fun _ _ => 0⟩ := by rw [hr, hc, resize_nat]
  unfold construct
  simp only [hd, hT, h]
  rfl

/-! ## From Python -/

/-- C154: an array of two dimensions whose element type is accepted becomes a matrix of the same size with the same elements,
converted to the scalar type, and it is refused exactly when the matrix type cannot have that size.  Missing: element types
whose numbers the scalar type cannot hold (`C154_long_counterexample`) and huge sizes (`C154_size_counterexample`). -/
theorem C154_matrix_partial (ty : Ty) (a : Arr) (r c : Nat) (hd : a.dims = [r, c]) (ht : ty.scalar.canConvert a.dtype = true)
    (hch : a.dtype ≠ .char) (hr : r < 2 ^ 31) (hc : c < 2 ^ 31) (hv : ∀ i j, i < r → j < c → Holds ty.scalar.ct (a.elem2 i j)) :
    (ty.Fits r c → ∃ M, fromPython ty a = .ok (some M) ∧ M.rows = r ∧ M.cols = c ∧
      ∀ i j, i < r → j < c → M.get i j = a.elem2 i j) ∧
    (¬ ty.Fits r c → fromPython ty a = .raise) := by
  have e := fits_iff ty hr hc
  have hk := convertible_matrix ty a r c hd ht
  constructor
  · intro hf
    obtain ⟨T, hT⟩ := dtype_ct ht hch
    obtain ⟨h1, h2, h3⟩ := copyFromMatrix_spec ty.scalar a ⟨r, c, fun _ _ => 0⟩
    refine ⟨copyFromMatrix ty.scalar a ⟨r, c, fun _ _ => 0⟩, ?_, h1, h2, fun i j hi hj => ?_⟩
    · unfold fromPython
      rw [hk, if_pos (e.2 hf), construct_matrix ty a r c hd (toInt_small hr) (toInt_small hc) hT]
      rfl
    · rw [h3 i j hi hj, cast_holds (scalar_cases _) (hv i j hi hj)]
  · intro hf
    unfold fromPython
    rw [hk, if_neg (fun h => hf (e.1 h))]
    rfl

/-- C154: an array of one dimension becomes a row if the matrix type has one row, and a column otherwise.  Missing: as above. -/
theorem C154_vector_partial (ty : Ty) (a : Arr) (n : Nat) (hd : a.dims = [n]) (ht : ty.scalar.canConvert a.dtype = true)
    (hch : a.dtype ≠ .char) (hn : n < 2 ^ 31) (hm : ∀ m, ty.maxCols = some m → 1 ≤ m) (hv : ∀ i < n, Holds ty.scalar.ct (a.elem1 i)) :
    (ty.rows = some 1 → (ty.Fits 1 n → ∃ M, fromPython ty a = .ok (some M) ∧ M.rows = 1 ∧ M.cols = n ∧ ∀ i < n, M.get 0 i = a.elem1 i) ∧
      (¬ ty.Fits 1 n → fromPython ty a = .raise)) ∧
    (ty.rows ≠ some 1 → (ty.Fits n 1 → ∃ M, fromPython ty a = .ok (some M) ∧ M.rows = n ∧ M.cols = 1 ∧ ∀ i < n, M.get i 0 = a.elem1 i) ∧
      (¬ ty.Fits n 1 → fromPython ty a = .raise)) := by
  obtain ⟨T, hT⟩ := dtype_ct ht hch
  constructor
  · intro h1
    have e : isDimensionValid (toInt n) ty.cols ty.maxCols = true ↔ ty.Fits 1 n := by
      rw [valid_iff hn]
      unfold Ty.Fits
      rw [h1]
      constructor
      · intro h; exact ⟨⟨fun s hs => (by injection hs with hs), fun m hs => (by cases hs)⟩, h⟩
      · exact fun h => h.2
    have hk : convertible ty a = if isDimensionValid (toInt n) ty.cols ty.maxCols then .ok true else .raise := by
      unfold convertible
      rw [if_neg (by rw [ht]; decide), hd]
      exact if_pos h1
    constructor
    · intro hf
      obtain ⟨g1, g2, g3⟩ := copyFromVector_spec ty.scalar a ⟨1, n, fun _ _ => 0⟩ (Or.inl rfl)
      refine ⟨copyFromVector ty.scalar a ⟨1, n, fun _ _ => 0⟩, ?_, g1, g2, fun i hi => ?_⟩
      · unfold fromPython construct
        rw [hk, if_pos (e.2 hf), hd]
        simp only [Out.bind, if_true, h1]
        have := resize_nat 1 n
        rw [Nat.cast_one] at this
        rw [toInt_small hn, this]
        simp only [hT]
      · have := g3 i (by simpa [Mat.size] using hi)
        simp only [Mat.pos, if_true] at this
        rw [this, cast_holds (scalar_cases _) (hv i hi)]
    · intro hf
      unfold fromPython
      rw [hk, if_neg (fun h => hf (e.1 h))]
      rfl
  · intro h1
    have hk : convertible ty a = if ty.cols = none ∨ ty.cols = some 1 then
        (if isDimensionValid (toInt n) ty.rows ty.maxRows then .ok true else .raise) else .raise := by
      unfold convertible
      rw [if_neg (by rw [ht]; decide), hd]
      exact if_neg h1
    have e : (ty.cols = none ∨ ty.cols = some 1) ∧ isDimensionValid (toInt n) ty.rows ty.maxRows = true ↔ ty.Fits n 1 := by
      rw [valid_iff hn]
      unfold Ty.Fits
      constructor
      · rintro ⟨h2, h3⟩
        refine ⟨h3, fun s hs => ?_, fun m _ hs' => hm m hs'⟩
        rcases h2 with h2 | h2 <;> rw [h2] at hs <;> cases hs
        rfl
      · rintro ⟨h2, h3, -⟩
        refine ⟨?_, h2⟩
        cases hcs : ty.cols with
        | none => exact Or.inl rfl
        | some s => exact Or.inr (by rw [h3 s hcs])
    constructor
    · intro hf
      obtain ⟨g1, g2, g3⟩ := copyFromVector_spec ty.scalar a ⟨n, 1, fun _ _ => 0⟩ (Or.inr rfl)
      refine ⟨copyFromVector ty.scalar a ⟨n, 1, fun _ _ => 0⟩, ?_, g1, g2, fun i hi => ?_⟩
      · unfold fromPython construct
        rw [hk, if_pos (e.2 hf).1, if_pos (e.2 hf).2, hd]
        simp only [Out.bind, if_true, if_neg h1]
        have := resize_nat n 1
        rw [Nat.cast_one] at this
        rw [toInt_small hn, this]
        simp only [hT]
      · have := g3 i (by simpa [Mat.size] using hi)
        by_cases hn1 : n = 1
        · have hi0 : i = 0 := by omega
          subst hn1 hi0
          simp only [Mat.pos, if_true] at this
          rw [this, cast_holds (scalar_cases _) (hv 0 hi)]
        · simp only [Mat.pos, if_neg hn1] at this
          rw [this, cast_holds (scalar_cases _) (hv i hi)]
    · intro hf
      unfold fromPython
      rw [hk]
      by_cases h2 : ty.cols = none ∨ ty.cols = some 1
      · rw [if_pos h2, if_neg (fun h => hf (e.1 ⟨h2, h⟩))]
        rfl
      · rw [if_neg h2]
        rfl

/-- C154: an element type that is not accepted leaves the object to other converters; arrays with another number of dimensions are
refused. -/
theorem C154_refused (ty : Ty) (a : Arr) :
    (ty.scalar.canConvert a.dtype = false → fromPython ty a = .ok none) ∧
    (ty.scalar.canConvert a.dtype = true → a.dims.length ≠ 1 → a.dims.length ≠ 2 → fromPython ty a = .raise) := by
  constructor
  · intro h
    unfold fromPython convertible
    rw [if_pos h]
    rfl
  · intro h h1 h2
    unfold fromPython convertible
    rw [if_neg (by rw [h]; decide)]
    cases hd : a.dims with
    | nil => rfl
    | cons x l =>
      cases l with
      | nil => simp [hd] at h1
      | cons y l =>
        cases l with
        | nil => simp [hd] at h2
        | cons z l => rfl

/-! ## There and back -/

theorem npy_ct (s : Scalar) : s.npy.ct = some s.ct := by cases s <;> rfl

theorem canConvert_npy (s : Scalar) : s.canConvert s.npy = true ∧ s.npy ≠ .char := by cases s <;> decide

theorem copyToMatrix_spec (T : CT) (M : Mat) (junk : Int → ℚ) (t : Npy) :
    let a := copyToMatrix T M (simpleNew junk [M.rows, M.cols] t)
    a.dims = [M.rows, M.cols] ∧ a.dtype = t ∧ ∀ r c, r < M.rows → c < M.cols → a.elem2 r c = cast T (M.get r c) := by
  intro a
  obtain ⟨n, hn⟩ : ∃ n, n = simpleNew junk [M.rows, M.cols] t := ⟨_, rfl⟩
  have e : a = { n with mem := ((List.range M.rows).flatMap fun r => (List.range M.cols).map fun c => (r, c)).foldl (fun m p => Function.update m (n.ptr2 p.1 p.2) (cast T (M.get p.1 p.2))) n.mem } := by
    show copyToMatrix T M _ = _
    rw [← hn]
    unfold copyToMatrix
    rw [loop2_eq]
    exact foldl_arr (fun a (p : Nat × Nat) => a.ptr2 p.1 p.2) (fun p => cast T (M.get p.1 p.2)) (fun _ _ _ _ => rfl) _ n
  rw [e]
  refine ⟨by rw [hn]; rfl, by rw [hn]; rfl, fun r c hr hc => ?_⟩
  show (List.foldl (fun m (p : Nat × Nat) => Function.update m (n.ptr2 p.1 p.2) (cast T (M.get p.1 p.2))) n.mem _ : Int → ℚ) (n.ptr2 r c) = _
  refine foldl_mem (fun p : Nat × Nat => n.ptr2 p.1 p.2) (fun p => cast T (M.get p.1 p.2)) _ _ ?_ (r, c) (mem_pairs.2 ⟨hr, hc⟩)
  intro x hx y hy hxy
  rw [mem_pairs] at hx hy
  have hp : ∀ p : Nat × Nat, n.ptr2 p.1 p.2 = ((p.1 * M.cols + p.2 : Nat) : Int) := by
    intro p
    rw [hn]
    simp [Arr.ptr2, simpleNew]
  simp only [hp] at hxy
  have hxy : x.1 * M.cols + x.2 = y.1 * M.cols + y.2 := by exact_mod_cast hxy
  have h2 : x.2 = y.2 := by
    have := congrArg (· % M.cols) hxy
    simp only [Nat.mul_add_mod_self_right] at this
    rwa [Nat.mod_eq_of_lt hx.2, Nat.mod_eq_of_lt hy.2] at this
  have h1 : x.1 = y.1 := by
    rw [h2] at hxy
    exact Nat.eq_of_mul_eq_mul_right (by omega) (Nat.add_right_cancel hxy)
  rw [h1, h2]

theorem copyToVector_spec (T : CT) (M : Mat) (junk : Int → ℚ) (t : Npy) :
    let a := copyToVector T M (simpleNew junk [M.size] t)
    a.dims = [M.size] ∧ a.dtype = t ∧ ∀ i < M.size, a.elem1 i = cast T (M.get (M.pos i).1 (M.pos i).2) := by
  intro a
  obtain ⟨n, hn⟩ : ∃ n, n = simpleNew junk [M.size] t := ⟨_, rfl⟩
  have e : a = { n with mem := (List.range M.size).foldl (fun m i => Function.update m (n.ptr1 i) (cast T (M.get (M.pos i).1 (M.pos i).2))) n.mem } := by
    show copyToVector T M _ = _
    rw [← hn]
    exact foldl_arr (fun a i => a.ptr1 i) (fun i => cast T (M.get (M.pos i).1 (M.pos i).2)) (fun _ _ _ _ => rfl) _ n
  rw [e]
  refine ⟨by rw [hn]; rfl, by rw [hn]; rfl, fun i hi => ?_⟩
  show (List.foldl (fun m i => Function.update m (n.ptr1 i) (cast T (M.get (M.pos i).1 (M.pos i).2))) n.mem _ : Int → ℚ) (n.ptr1 i) = _
  refine foldl_mem (fun i => n.ptr1 i) (fun i => cast T (M.get (M.pos i).1 (M.pos i).2)) _ _ ?_ i (List.mem_range.2 hi)
  intro x _ y _ hxy
  have hp : ∀ p : Nat, n.ptr1 p = (p : Int) := by
    intro p
    rw [hn]
    simp [Arr.ptr1, simpleNew]
  simp only [hp] at hxy
  have : x = y := by exact_mod_cast hxy
  rw [this]

/-- C154: a matrix given to Python and passed back is the same matrix; what Python sees has the shape of the matrix, or one dimension
for types with one row or one column, and its elements. -/
theorem C154_round_trip (junk : Int → ℚ) (ty : Ty) (M : Mat) (hM : ty.Fits M.rows M.cols) (hs : M.rows < 2 ^ 31 ∧ M.cols < 2 ^ 31)
    (hm : ∀ m, ty.maxCols = some m → 1 ≤ m) (hv : ∀ i j, i < M.rows → j < M.cols → Holds ty.scalar.ct (M.get i j)) :
    ∃ a M', toPython junk ty M = .ok a ∧ fromPython ty a = .ok (some M') ∧ M'.rows = M.rows ∧ M'.cols = M.cols ∧
      (∀ i j, i < M.rows → j < M.cols → M'.get i j = M.get i j) ∧
      (if ty.rows = some 1 ∨ ty.cols = some 1 then a.dims = [M.rows * M.cols] else a.dims = [M.rows, M.cols] ∧
        ∀ i j, i < M.rows → j < M.cols → a.elem2 i j = M.get i j) := by
  obtain ⟨hc1, hc2⟩ := canConvert_npy ty.scalar
  by_cases h : ty.rows = some 1 ∨ ty.cols = some 1
  · obtain ⟨h1, h2, h3⟩ := copyToVector_spec ty.scalar.ct M junk ty.scalar.npy
    have ht : toPython junk ty M = .ok (copyToVector ty.scalar.ct M (simpleNew junk [M.size] ty.scalar.npy)) := by
      unfold toPython
      rw [if_pos h]
      have := npy_ct ty.scalar
      simp only [simpleNew, this]
    obtain ⟨a, ha⟩ : ∃ a, a = copyToVector ty.scalar.ct M (simpleNew junk [M.size] ty.scalar.npy) := ⟨_, rfl⟩
    rw [← ha] at h1 h2 h3 ht
    by_cases hr : ty.rows = some 1
    · have hr1 : M.rows = 1 := hM.1.1 1 hr
      have hsz : M.size = M.cols := by simp [Mat.size, hr1]
      have hcell : ∀ i < M.cols, a.elem1 i = M.get 0 i := by
        intro i hi
        rw [h3 i (by omega)]
        simp only [Mat.pos, hr1, if_true]
        exact cast_holds (scalar_cases _) (hv 0 i (by omega) hi)
      obtain ⟨M', g1, g2, g3, g4⟩ := ((C154_vector_partial ty a M.cols (by rw [h1, hsz]) (by rw [h2]; exact hc1) (by rw [h2]; exact hc2) hs.2 hm
        (fun i hi => by rw [hcell i hi]; exact hv 0 i (by omega) hi)).1 hr).1 (by rw [← hr1]; exact hM)
      refine ⟨a, M', ht, g1, by rw [g2, hr1], g3, fun i j hi hj => ?_, by rw [if_pos h]; exact h1⟩
      have : i = 0 := by omega
      rw [this, g4 j hj, hcell j hj]
    · have hcc : ty.cols = some 1 := h.resolve_left hr
      have hc1' : M.cols = 1 := hM.2.1 1 hcc
      have hsz : M.size = M.rows := by simp [Mat.size, hc1']
      have hcell : ∀ i < M.rows, a.elem1 i = M.get i 0 := by
        intro i hi
        rw [h3 i (by omega)]
        by_cases hr1 : M.rows = 1
        · have : i = 0 := by omega
          simp only [Mat.pos, hr1, if_true, this]
          exact cast_holds (scalar_cases _) (hv 0 0 (by omega) (by omega))
        · simp only [Mat.pos, if_neg hr1]
          exact cast_holds (scalar_cases _) (hv i 0 hi (by omega))
      obtain ⟨M', g1, g2, g3, g4⟩ := ((C154_vector_partial ty a M.rows (by rw [h1, hsz]) (by rw [h2]; exact hc1) (by rw [h2]; exact hc2) hs.1 hm
        (fun i hi => by rw [hcell i hi]; exact hv i 0 hi (by omega))).2 hr).1 (by rw [← hc1']; exact hM)
      refine ⟨a, M', ht, g1, g2, by rw [g3, hc1'], fun i j hi hj => ?_, by rw [if_pos h]; exact h1⟩
      have : j = 0 := by omega
      rw [this, g4 i hi, hcell i hi]
  · obtain ⟨h1, h2, h3⟩ := copyToMatrix_spec ty.scalar.ct M junk ty.scalar.npy
    have ht : toPython junk ty M = .ok (copyToMatrix ty.scalar.ct M (simpleNew junk [M.rows, M.cols] ty.scalar.npy)) := by
      unfold toPython
      rw [if_neg h]
      have := npy_ct ty.scalar
      simp only [simpleNew, this]
    obtain ⟨a, ha⟩ : ∃ a, a = copyToMatrix ty.scalar.ct M (simpleNew junk [M.rows, M.cols] ty.scalar.npy) := ⟨_, rfl⟩
    rw [← ha] at h1 h2 h3 ht
    have hcell : ∀ i j, i < M.rows → j < M.cols → a.elem2 i j = M.get i j := by
      intro i j hi hj
      rw [h3 i j hi hj, cast_holds (scalar_cases _) (hv i j hi hj)]
    obtain ⟨M', g1, g2, g3, g4⟩ := (C154_matrix_partial ty a M.rows M.cols h1 (by rw [h2]; exact hc1) (by rw [h2]; exact hc2) hs.1 hs.2
      (fun i j hi hj => by rw [hcell i j hi hj]; exact hv i j hi hj)).1 hM
    refine ⟨a, M', ht, g1, g2, g3, fun i j hi hj => by rw [g4 i j hi hj, hcell i j hi hj], ?_⟩
    rw [if_neg h]
    exact ⟨h1, hcell⟩

/-! ## Where it fails -/

/-- C154 is false of integers: an array of 64 bit integers, NumPy's own integers, is accepted for a matrix of `int`, and a number that
`int` cannot hold becomes another one without any error. -/
theorem C154_long_counterexample : ∃ (a : Arr) (M : Mat), a.dims = [1, 1] ∧ a.dtype = .long ∧ a.elem2 0 0 = 2 ^ 32 + 5 ∧
    fromPython ⟨.int, none, none, none, none⟩ a = .ok (some M) ∧ M.get 0 0 = 5 := by
  refine ⟨⟨.long, [1, 1], [1, 1], 0, fun _ => 2 ^ 32 + 5⟩, copyFromMatrix .int ⟨.long, [1, 1], [1, 1], 0, fun _ => 2 ^ 32 + 5⟩ ⟨1, 1, fun _ _ => 0⟩,
    rfl, rfl, rfl, rfl, ?_⟩
  obtain ⟨-, -, h⟩ := copyFromMatrix_spec .int ⟨.long, [1, 1], [1, 1], 0, fun _ => 2 ^ 32 + 5⟩ ⟨1, 1, fun _ _ => 0⟩
  rw [h 0 0 (by decide) (by decide)]
  show cast (.sint 32) ((2 : ℚ) ^ 32 + 5) = 5
  have e : ((2 : ℚ) ^ 32 + 5) = ((4294967301 : Int) : ℚ) := by norm_num
  rw [e, cast_sint]
  have : ((((4294967301 : Int) : ℚ).num.tdiv ((4294967301 : Int) : ℚ).den)) = 4294967301 := by simp
  rw [this]
  have : Int.bmod 4294967301 (2 ^ 32) = 5 := by decide
  rw [this]
  norm_num

/-- C154 is false of huge arrays (such as views that repeat an element): the size is cut off to 32 bits, and an array of `2^32 + 3`
elements is taken for a vector of three. -/
theorem C154_size_counterexample : ∃ (a : Arr) (M : Mat), a.dims = [2 ^ 32 + 3] ∧
    fromPython ⟨.double, some 3, some 1, some 3, some 1⟩ a = .ok (some M) ∧ M.rows = 3 := by
  refine ⟨⟨.double, [2 ^ 32 + 3], [0], 0, fun _ => 1⟩, copyFromVector .double ⟨.double, [2 ^ 32 + 3], [0], 0, fun _ => 1⟩ ⟨3, 1, fun _ _ => 0⟩, rfl, ?_,
    (copyFromVector_spec .double _ ⟨3, 1, fun _ _ => 0⟩ (Or.inr rfl)).1⟩
  have e : toInt (2 ^ 32 + 3) = 3 := by decide
  unfold fromPython convertible construct
  simp only [e]
  rfl

/-! ## The hypotheses can be met -/

/-- A transposed view of six doubles is passed as a matrix with three rows. -/
example : ∃ M, fromPython ⟨.double, some 3, none, some 3, none⟩ ⟨.double, [3, 2], [1, 3], 0, fun p => p⟩ = .ok (some M) ∧ M.get 2 1 = 5 := by
  obtain ⟨M, h, -, -, h3⟩ := (C154_matrix_partial ⟨.double, some 3, none, some 3, none⟩ ⟨.double, [3, 2], [1, 3], 0, fun p => p⟩ 3 2 rfl rfl (by decide)
    (by norm_num) (by norm_num) (fun _ _ _ _ => trivial)).1 ⟨⟨fun s hs => (by injection hs with hs), fun m hs => (by cases hs)⟩, ⟨fun s hs => (by cases hs), fun m _ hs => (by cases hs)⟩⟩
  refine ⟨M, h, ?_⟩
  rw [h3 2 1 (by norm_num) (by norm_num)]
  norm_num [Arr.elem2, Arr.ptr2]

/-- A row of three integers goes to Python and back. -/
example : ∃ a M', toPython (fun _ => 7) ⟨.int, some 1, some 3, some 1, some 3⟩ ⟨1, 3, fun _ j => j⟩ = .ok a ∧
    fromPython ⟨.int, some 1, some 3, some 1, some 3⟩ a = .ok (some M') ∧ M'.get 0 2 = 2 := by
  obtain ⟨a, M', h1, h2, -, -, h3, -⟩ := C154_round_trip (fun _ => 7) ⟨.int, some 1, some 3, some 1, some 3⟩ ⟨1, 3, fun _ j => j⟩
    ⟨⟨fun s hs => (by injection hs with hs), fun m hs => (by cases hs)⟩, ⟨fun s hs => (by injection hs with hs), fun m hs => (by cases hs)⟩⟩
    ⟨by norm_num, by norm_num⟩ (fun m hm => by injection hm with hm; omega) (fun i j _ (hj : j < 3) => ⟨j, by simp, by norm_num, by norm_num; omega⟩)
  exact ⟨a, M', h1, h2, by rw [h3 0 2 (by norm_num) (by norm_num)]; norm_num⟩

end Kalibr.Numpy
