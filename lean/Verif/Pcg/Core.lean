import Verif.Tactics
import Mathlib.Data.Real.Basic
import Mathlib.Data.Matrix.Mul
import Mathlib.LinearAlgebra.Matrix.ToLin
import Mathlib.LinearAlgebra.FiniteDimensional.Lemmas
import Mathlib.LinearAlgebra.Dimension.Constructions

/-!
# The method of conjugate gradients ends within as many steps as there are unknowns

Vectors are functions on `Fin n`; `A` is the system and `P` the preconditioner.
-/

namespace Kalibr.Pcg

open Matrix Submodule

variable {n : ℕ}

/-- The solution so far, the residual, the direction and the product of the residual with the preconditioned
residual. -/
structure It (n : ℕ) where
  x : Fin n → ℝ
  r : Fin n → ℝ
  d : Fin n → ℝ
  dn : ℝ

/-- One step. -/
noncomputable def It.step (A P : (Fin n → ℝ) →ₗ[ℝ] (Fin n → ℝ)) (s : It n) : It n :=
  let q := A s.d
  let a := s.dn / (s.d ⬝ᵥ q)
  let r := s.r - a • q
  let t := P r
  let dn := r ⬝ᵥ t
  ⟨s.x + a • s.d, r, t + (dn / s.dn) • s.d, dn⟩

/-- A symmetric map with positive values of its quadratic form. -/
structure Pos (A : (Fin n → ℝ) →ₗ[ℝ] (Fin n → ℝ)) : Prop where
  swap : ∀ u v, u ⬝ᵥ (A v) = v ⬝ᵥ (A u)
  pos : ∀ u, u ≠ 0 → 0 < u ⬝ᵥ (A u)

theorem Pos.zero_iff {A : (Fin n → ℝ) →ₗ[ℝ] (Fin n → ℝ)} (h : Pos A) (u : Fin n → ℝ) : u ⬝ᵥ (A u) = 0 ↔ u = 0 := by
  constructor
  · intro hu
    by_contra hc
    exact absurd hu (h.pos u hc).ne'
  · rintro rfl
    simp

theorem Pos.nonneg {A : (Fin n → ℝ) →ₗ[ℝ] (Fin n → ℝ)} (h : Pos A) (u : Fin n → ℝ) : 0 ≤ u ⬝ᵥ (A u) := by
  by_cases hu : u = 0
  · rw [hu]; simp
  · exact (h.pos u hu).le

/-- What holds after `k` steps: `D` contains the earlier directions and `R` the earlier residuals. -/
structure Conj (A P : (Fin n → ℝ) →ₗ[ℝ] (Fin n → ℝ)) (b : Fin n → ℝ) (k : ℕ) (s : It n)
    (D R : Submodule ℝ (Fin n → ℝ)) : Prop where
  res : s.r = b - A s.x
  dn : s.dn = s.r ⬝ᵥ (P s.r)
  dr : s.d ⬝ᵥ s.r = s.dn
  pr : P s.r ∈ D ⊔ span ℝ {s.d}
  old : ∀ u ∈ R, P u ∈ D
  img : ∀ u ∈ D, A u ∈ R ⊔ span ℝ {s.r}
  orth : ∀ u ∈ D, u ⬝ᵥ s.r = 0
  conj : ∀ u ∈ D, u ⬝ᵥ (A s.d) = 0
  rank : Module.finrank ℝ R = k

theorem conj_start (A P : (Fin n → ℝ) →ₗ[ℝ] (Fin n → ℝ)) (hP : Pos P) (b : Fin n → ℝ) :
    Conj A P b 0 ⟨0, b, P b, b ⬝ᵥ (P b)⟩ ⊥ ⊥ := by
  refine ⟨by simp, rfl, dotProduct_comm _ _, ?_, ?_, ?_, ?_, ?_, by simp⟩
  · simp only [bot_sup_eq]
    exact mem_span_singleton_self _
  · intro u hu
    rw [Submodule.mem_bot] at hu ⊢
    rw [hu]; simp
  · intro u hu
    rw [Submodule.mem_bot] at hu
    rw [hu]; simp
  · intro u hu
    rw [Submodule.mem_bot] at hu
    rw [hu]; simp
  · intro u hu
    rw [Submodule.mem_bot] at hu
    rw [hu]; simp

theorem d_ne_zero {A P : (Fin n → ℝ) →ₗ[ℝ] (Fin n → ℝ)} {b : Fin n → ℝ} {k : ℕ} {s : It n} {D R : Submodule ℝ (Fin n → ℝ)}
    (h : Conj A P b k s D R) (h0 : s.dn ≠ 0) : s.d ≠ 0 := by
  intro hc
  apply h0
  rw [← h.dr, hc]
  simp

theorem conj_step {A P : (Fin n → ℝ) →ₗ[ℝ] (Fin n → ℝ)} (hA : Pos A) (hP : Pos P) {b : Fin n → ℝ} {k : ℕ} {s : It n}
    {D R : Submodule ℝ (Fin n → ℝ)} (h : Conj A P b k s D R) (h0 : s.dn ≠ 0) :
    Conj A P b (k + 1) (s.step A P) (D ⊔ span ℝ {s.d}) (R ⊔ span ℝ {s.r}) := by
  have hd := d_ne_zero h h0
  obtain ⟨w, hw⟩ : ∃ w, w = s.d ⬝ᵥ (A s.d) := ⟨_, rfl⟩
  have hw0 : w ≠ 0 := by rw [hw]; exact (hA.pos _ hd).ne'
  obtain ⟨a, ha⟩ : ∃ a, a = s.dn / w := ⟨_, rfl⟩
  have ha0 : a ≠ 0 := by rw [ha]; exact div_ne_zero h0 hw0
  have haw : a * w = s.dn := by rw [ha]; field_simp
  obtain ⟨r, hr⟩ : ∃ r, r = s.r - a • (A s.d) := ⟨_, rfl⟩
  have e : s.step A P = ⟨s.x + a • s.d, r, P r + ((r ⬝ᵥ (P r)) / s.dn) • s.d, r ⬝ᵥ (P r)⟩ := by
    rw [hr, ha, hw]; rfl
  rw [e]
  -- directions are orthogonal to the new residual
  have o1 : ∀ u ∈ D, u ⬝ᵥ r = 0 := by
    intro u hu
    rw [hr, dotProduct_sub, dotProduct_smul, h.orth u hu, h.conj u hu]
    simp
  have o2 : s.d ⬝ᵥ r = 0 := by
    rw [hr, dotProduct_sub, dotProduct_smul, h.dr, ← hw, smul_eq_mul, haw, sub_self]
  have o3 : ∀ u ∈ D ⊔ span ℝ {s.d}, u ⬝ᵥ r = 0 := by
    intro u hu
    obtain ⟨y, hy, z, hz, rfl⟩ := Submodule.mem_sup.1 hu
    obtain ⟨c, rfl⟩ := Submodule.mem_span_singleton.1 hz
    rw [add_dotProduct, smul_dotProduct, o1 y hy, o2]
    simp
  have old' : ∀ u ∈ R ⊔ span ℝ {s.r}, P u ∈ D ⊔ span ℝ {s.d} := by
    intro u hu
    obtain ⟨y, hy, z, hz, rfl⟩ := Submodule.mem_sup.1 hu
    obtain ⟨c, rfl⟩ := Submodule.mem_span_singleton.1 hz
    rw [map_add, map_smul]
    exact Submodule.add_mem _ (Submodule.mem_sup_left (h.old y hy)) (Submodule.smul_mem _ _ h.pr)
  have rr : ∀ u ∈ R ⊔ span ℝ {s.r}, u ⬝ᵥ (P r) = 0 := by
    intro u hu
    rw [hP.swap, dotProduct_comm]
    exact o3 _ (old' u hu)
  have ad : A s.d = (1 / a) • (s.r - r) := by
    rw [hr]
    funext i
    simp only [Pi.smul_apply, Pi.sub_apply, smul_eq_mul]
    field_simp
    ring
  refine ⟨?_, rfl, ?_, ?_, ?_, ?_, o3, ?_, ?_⟩
  · show r = b - A (s.x + a • s.d)
    rw [hr, h.res, map_add, map_smul]
    abel
  · show (P r + ((r ⬝ᵥ (P r)) / s.dn) • s.d) ⬝ᵥ r = r ⬝ᵥ (P r)
    rw [add_dotProduct, smul_dotProduct, o2, smul_zero, add_zero, dotProduct_comm]
  · show P r ∈ (D ⊔ span ℝ {s.d}) ⊔ span ℝ {P r + ((r ⬝ᵥ (P r)) / s.dn) • s.d}
    have : P r = (P r + ((r ⬝ᵥ (P r)) / s.dn) • s.d) - ((r ⬝ᵥ (P r)) / s.dn) • s.d := by abel
    rw [this]
    refine Submodule.sub_mem _ (Submodule.mem_sup_right ?_) (Submodule.mem_sup_left (Submodule.mem_sup_right ?_))
    · rw [← this]
      exact mem_span_singleton_self _
    · exact Submodule.smul_mem _ _ (mem_span_singleton_self _)
  · exact old'
  · intro u hu
    show A u ∈ (R ⊔ span ℝ {s.r}) ⊔ span ℝ {r}
    obtain ⟨y, hy, z, hz, rfl⟩ := Submodule.mem_sup.1 hu
    obtain ⟨c, rfl⟩ := Submodule.mem_span_singleton.1 hz
    rw [map_add, map_smul, ad]
    refine Submodule.add_mem _ (Submodule.mem_sup_left (h.img y hy)) (Submodule.smul_mem _ _ (Submodule.smul_mem _ _ (Submodule.sub_mem _ ?_ ?_)))
    · exact Submodule.mem_sup_left (Submodule.mem_sup_right (mem_span_singleton_self _))
    · exact Submodule.mem_sup_right (mem_span_singleton_self _)
  · intro u hu
    show u ⬝ᵥ (A (P r + ((r ⬝ᵥ (P r)) / s.dn) • s.d)) = 0
    obtain ⟨y, hy, z, hz, rfl⟩ := Submodule.mem_sup.1 hu
    obtain ⟨c, rfl⟩ := Submodule.mem_span_singleton.1 hz
    have p1 : y ⬝ᵥ (A (P r)) = 0 := by
      rw [hA.swap, dotProduct_comm]
      exact rr _ (h.img y hy)
    have p2 : s.d ⬝ᵥ (A (P r)) = -(r ⬝ᵥ (P r)) / a := by
      rw [hA.swap, dotProduct_comm, ad, smul_dotProduct, sub_dotProduct,
        rr s.r (Submodule.mem_sup_right (mem_span_singleton_self _)), smul_eq_mul]
      field_simp
      ring
    have p3 : s.d ⬝ᵥ (A (P r + ((r ⬝ᵥ (P r)) / s.dn) • s.d)) = 0 := by
      rw [map_add, map_smul, dotProduct_add, dotProduct_smul, p2, ← hw, smul_eq_mul, ← haw]
      field_simp
      ring
    rw [add_dotProduct, smul_dotProduct, p3, map_add, map_smul, dotProduct_add, dotProduct_smul, p1, h.conj y hy]
    simp
  · have hnot : s.r ∉ R := by
      intro hc
      apply h0
      have := h.orth _ (h.old _ hc)
      rw [h.dn, dotProduct_comm]
      exact this
    have hr0 : s.r ≠ 0 := fun hc => hnot (by rw [hc]; exact R.zero_mem)
    have dis : Disjoint R (span ℝ {s.r}) := (Submodule.disjoint_span_singleton' hr0).2 hnot
    have := Submodule.finrank_sup_add_finrank_inf_eq R (span ℝ {s.r})
    rw [dis.eq_bot, finrank_bot, finrank_span_singleton hr0, h.rank] at this
    omega

/-- After as many steps as there are unknowns nothing is left of the residual. -/
theorem conj_end {A P : (Fin n → ℝ) →ₗ[ℝ] (Fin n → ℝ)} {b : Fin n → ℝ} {s : It n}
    {D R : Submodule ℝ (Fin n → ℝ)} (h : Conj A P b n s D R) : s.dn = 0 := by
  have top : R = ⊤ := by
    apply Submodule.eq_top_of_finrank_eq
    rw [h.rank]
    simp
  have := h.orth _ (h.old s.r (by rw [top]; trivial))
  rw [h.dn, dotProduct_comm]
  exact this

/-- The loop of the solver. -/
noncomputable def cg (A P : (Fin n → ℝ) →ₗ[ℝ] (Fin n → ℝ)) (d0 : ℝ) : ℕ → It n → It n
  | 0, s => s
  | k + 1, s => if s.dn ≤ d0 then s else cg A P d0 k (s.step A P)

/-- The value that the solution minimises. -/
noncomputable def energy (A : (Fin n → ℝ) →ₗ[ℝ] (Fin n → ℝ)) (b x : Fin n → ℝ) : ℝ := (x ⬝ᵥ (A x)) / 2 - b ⬝ᵥ x

theorem energy_step {A P : (Fin n → ℝ) →ₗ[ℝ] (Fin n → ℝ)} (hA : Pos A) {b : Fin n → ℝ} {k : ℕ} {s : It n}
    {D R : Submodule ℝ (Fin n → ℝ)} (h : Conj A P b k s D R) (h0 : s.dn ≠ 0) :
    energy A b (s.step A P).x < energy A b s.x := by
  have hd := d_ne_zero h h0
  obtain ⟨w, hw⟩ : ∃ w, w = s.d ⬝ᵥ (A s.d) := ⟨_, rfl⟩
  have hw0 : 0 < w := by rw [hw]; exact hA.pos _ hd
  obtain ⟨a, ha⟩ : ∃ a, a = s.dn / w := ⟨_, rfl⟩
  have haw : a * w = s.dn := by rw [ha]; field_simp
  have e : (s.step A P).x = s.x + a • s.d := by rw [ha, hw]; rfl
  have hdr := h.dr
  rw [h.res, dotProduct_sub] at hdr
  rw [e]
  unfold energy
  rw [map_add, map_smul]
  simp only [add_dotProduct, dotProduct_add, smul_dotProduct, dotProduct_smul, smul_eq_mul]
  rw [hA.swap s.x s.d, ← hw]
  have c : b ⬝ᵥ s.d = s.d ⬝ᵥ b := dotProduct_comm _ _
  rw [c]
  have key : 0 < a * s.dn := by
    rw [ha, div_mul_eq_mul_div]
    have : 0 < s.dn * s.dn := mul_self_pos.2 h0
    positivity
  have k2 : a * (a * w) = a * s.dn := by rw [haw]
  have k3 : a * (s.d ⬝ᵥ b - s.d ⬝ᵥ (A s.x)) = a * s.dn := by rw [hdr]
  nlinarith

theorem cg_spec {A P : (Fin n → ℝ) →ₗ[ℝ] (Fin n → ℝ)} (hA : Pos A) (hP : Pos P) {b : Fin n → ℝ} {d0 : ℝ} (h0 : 0 ≤ d0) (m : ℕ) :
    ∀ {k : ℕ} {s : It n} {D R : Submodule ℝ (Fin n → ℝ)}, Conj A P b k s D R →
    (cg A P d0 m s).r = b - A (cg A P d0 m s).x ∧
    (cg A P d0 m s).dn = (cg A P d0 m s).r ⬝ᵥ (P (cg A P d0 m s).r) ∧
    energy A b (cg A P d0 m s).x ≤ energy A b s.x ∧
    (n ≤ k + m → (cg A P d0 m s).dn ≤ d0) := by
  induction m with
  | zero =>
    intro k s D R h
    refine ⟨h.res, h.dn, le_rfl, ?_⟩
    intro hk
    have hle : Module.finrank ℝ R ≤ n := by
      have := Submodule.finrank_le R
      simpa using this
    have : k = n := by
      have := h.rank
      omega
    subst this
    show s.dn ≤ d0
    rw [conj_end h]
    exact h0
  | succ m ih =>
    intro k s D R h
    by_cases hc : s.dn ≤ d0
    · have e : cg A P d0 (m + 1) s = s := if_pos hc
      rw [e]
      exact ⟨h.res, h.dn, le_rfl, fun _ => hc⟩
    · have e : cg A P d0 (m + 1) s = cg A P d0 m (s.step A P) := if_neg hc
      have hne : s.dn ≠ 0 := by
        intro h1
        rw [h1] at hc
        exact hc h0
      rw [e]
      obtain ⟨i1, i2, i3, i4⟩ := ih (conj_step hA hP h hne)
      exact ⟨i1, i2, i3.trans (energy_step hA h hne).le, fun hk => i4 (by omega)⟩

end Kalibr.Pcg
