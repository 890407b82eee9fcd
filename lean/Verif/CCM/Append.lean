import Verif.CCM.Lemmas

/-!
# Appending and writing Jacobians in terms of columns
-/

namespace Kalibr.CCM

open CCS Jacobian

set_option linter.unusedSectionVars false

variable {D K : Type}

/-- The entries of column `c` of the transposed Jacobian. -/
def newCol (env : Env D K) (cb : D → Nat) (jc : Container D K) (c : Nat) : List (Nat × K) :=
  jc.map.flatMap fun p => (List.range (env.dim p.1)).map fun r => (cb p.1 + r, p.2.get c r)

/-- The rows of the variables. -/
def pat (env : Env D K) (cb : D → Nat) (ds : List D) : List Nat :=
  ds.flatMap fun d => (List.range (env.dim d)).map fun r => cb d + r

theorem pat_length (env : Env D K) (cb : D → Nat) (ds : List D) :
    (pat env cb ds).length = (ds.map env.dim).sum := by
  induction ds with
  | nil => rfl
  | cons d ds ih => rw [pat, List.flatMap_cons, List.length_append, List.map_cons, List.sum_cons, ← ih]; simp [pat]

theorem newCol_fst (env : Env D K) (cb : D → Nat) (jc : Container D K) (c : Nat) :
    (newCol env cb jc c).map (·.1) = pat env cb (jc.map.map (·.1)) := by
  simp only [newCol, pat, List.map_flatMap, List.flatMap_map, List.map_map]
  rfl

theorem activeSorted_perm (env : Env D K) (dvs : List D) :
    (activeSorted env dvs).Perm (dvs.filter fun d => env.active d) := List.perm_insertionSort _ _

theorem flatten_replicate_length {α : Type} (n : Nat) (l : List α) :
    (List.replicate n l).flatten.length = l.length * n := by
  induction n with
  | zero => simp
  | succ n ih => rw [List.replicate_succ, List.flatten_cons, List.length_append, ih, Nat.mul_succ]; omega

theorem flatten_replicate_replicate {α : Type} (n k : Nat) (a : α) :
    (List.replicate n (List.replicate k a)).flatten = List.replicate (k * n) a := by
  induction n with
  | zero => simp
  | succ n ih =>
    rw [List.replicate_succ, List.flatten_cons, ih, List.replicate_append_replicate, Nat.mul_succ, Nat.add_comm]

theorem appendSymbolic_eq [Zero K] (env : Env D K) (cb : D → Nat) (m : CCM K)
    (L : List (List (Nat × K))) (hs : m.s = ofCols L) (hc : m.cols = L.length) (hd : m.diag = false)
    (n : Nat) (dvs : List D) :
    m.appendSymbolic env cb n dvs =
      .ok (⟨m.rows, m.cols + n,
        ofCols (L ++ List.replicate n ((pat env cb (activeSorted env dvs)).map fun x => (x, 0))), false⟩,
        ⟨L.flatten.length, ((activeSorted env dvs).map env.dim).sum⟩) := by
  set ds := activeSorted env dvs with hds
  have hepc : ((dvs.filter fun d => env.active d).map env.dim).sum = (ds.map env.dim).sum :=
    ((activeSorted_perm env dvs).map env.dim).sum_eq.symm
  set epc := (ds.map env.dim).sum with hE
  have hcl : ∀ b ∈ ds, ∀ c : Nat, ((fun (d : D) (_ : Nat) =>
      (List.range (env.dim d)).map fun r => cb d + r) b c).length = env.dim b := by
    intro b _ c; simp
  have hci : m.s.ci.length = L.flatten.length := by rw [hs]; exact List.length_map _
  have hlen : (List.replicate n ((pat env cb ds).map fun x => (x, (0 : K)))).flatten.length = epc * n := by
    rw [flatten_replicate_length, List.length_map, pat_length]
  have e1 : writeBlocks (fun _ => n) (fun (d : D) (_ : Nat) =>
      (List.range (env.dim d)).map fun r => cb d + r) env.dim m.s.ci.length epc ds 0
      (m.s.ci ++ List.replicate (epc * n) 0) =
      (ofCols (L ++ List.replicate n ((pat env cb ds).map fun x => (x, (0 : K))))).ci := by
    have h := writeBlocks_eq (fun _ => n) (fun (d : D) (_ : Nat) =>
      (List.range (env.dim d)).map fun r => cb d + r) env.dim m.s.ci.length epc ds m.s.ci []
      (List.replicate n (List.replicate epc 0)) rfl (fun _ _ => by simp) hcl
      (fun r hr => by rw [List.eq_of_mem_replicate hr, List.length_replicate]) rfl
    rw [flatten_replicate_replicate, List.append_nil, List.append_nil] at h
    rw [h, hs, ofCols, ofCols]
    simp only [List.flatten_append, List.map_append, List.length_replicate]
    congr 1
    rw [List.map_flatten, List.map_replicate, List.map_map]
    congr 1
    rw [List.map_const', List.length_range]
    congr 1
    simp [pat, Function.comp_def]
  have e2 : m.s.cx ++ List.replicate (epc * n) 0 =
      (ofCols (L ++ List.replicate n ((pat env cb ds).map fun x => (x, (0 : K))))).cx := by
    rw [hs, ofCols, ofCols]
    simp only [List.flatten_append, List.map_append]
    congr 1
    rw [List.map_flatten, List.map_replicate, List.map_map, Function.comp_def, List.map_const', pat_length,
      flatten_replicate_replicate]
  have e3 : extendPtr m.s.cp epc n =
      (ofCols (L ++ List.replicate n ((pat env cb ds).map fun x => (x, (0 : K))))).cp := by
    have h := extendPtr_cps 0 L (List.replicate n ((pat env cb ds).map fun x => (x, (0 : K)))) epc
      (fun l hl => by rw [List.eq_of_mem_replicate hl, List.length_map, pat_length])
    rw [List.length_replicate] at h
    rw [hs]; exact h
  rw [CCM.appendSymbolic, if_neg (by rw [hd]; simp)]
  simp only [← hds, hepc]
  rw [if_neg, if_neg]
  · rw [e1, e2, e3, hci, hd]
  · rw [e1, e2, e3, hd]
    have := check_ofCols (K := K) m.rows (m.cols + n) (L ++ List.replicate n
      ((pat env cb ds).map fun x => (x, (0 : K)))) false (by rw [hc]; simp)
    rw [this]; simp
  · rw [writesFit_ok (fun _ => n) _ env.dim m.s.ci.length epc ds 0 _ n (fun _ _ => rfl) hcl (by omega)
      (by rw [List.length_append, List.length_replicate, Nat.mul_comm])]
    simp

theorem lengths_of_fst {L L' : List (List (Nat × K))} (h : L.map (List.map (·.1)) = L'.map (List.map (·.1))) :
    L.map List.length = L'.map List.length := by
  have := congrArg (List.map List.length) h
  simpa [List.map_map, Function.comp_def] using this

/-- Writing a Jacobian over columns with the same rows. -/
theorem writeJacobians_eq (env : Env D K) (cb : D → Nat) (m : CCM K) (L1 Lo L2 : List (List (Nat × K)))
    (hs : m.s = ofCols (L1 ++ Lo ++ L2)) (jc : Container D K) (hf : Fits env jc)
    (hn : Lo.length = jc.rows) (hp : ∀ l ∈ Lo, l.map (·.1) = pat env cb (jc.map.map (·.1))) :
    m.writeJacobians jc ⟨L1.flatten.length, ((jc.map.map (·.1)).map env.dim).sum⟩ =
      .ok { m with s := ofCols (L1 ++ (List.range jc.rows).map (newCol env cb jc) ++ L2) } := by
  set epc := ((jc.map.map (·.1)).map env.dim).sum with hE
  have hE' : (jc.map.map fun p => p.2.cols).sum = epc := by
    rw [hE, List.map_map]
    congr 1
    apply List.map_congr_left
    intro p hp'
    exact (hf p hp').2.1
  have hcl : ∀ b ∈ jc.map, ∀ c : Nat, ((fun (p : D × Mat K) (c : Nat) =>
      (List.range p.2.cols).map fun r => p.2.get c r) b c).length = (fun p : D × Mat K => p.2.cols) b := by
    intro b _ c; simp
  have hrow : ∀ b ∈ jc.map, (fun p : D × Mat K => p.2.rows) b = jc.rows := fun b hb => (hf b hb).1
  have hlo : ∀ l ∈ Lo, l.length = epc := by
    intro l hl
    have := congrArg List.length (hp l hl)
    rw [List.length_map, pat_length] at this
    rw [this]
  have hlof : Lo.flatten.length = jc.rows * epc := by
    rw [← hn]
    clear hn hp hs
    induction Lo with
    | nil => simp
    | cons l Lo ih =>
      rw [List.flatten_cons, List.length_append, hlo l (by simp), ih fun l' hl' => hlo l' (by simp [hl']),
        List.length_cons, Nat.succ_mul, Nat.add_comm]
  have hcx : m.s.cx = L1.flatten.map (·.2) ++ (Lo.map (List.map (·.2))).flatten ++ L2.flatten.map (·.2) := by
    rw [hs, ofCols]
    simp only [List.flatten_append, List.map_append, List.map_flatten]
  have hfst : (L1 ++ Lo ++ L2).map (List.map (·.1)) =
      (L1 ++ (List.range jc.rows).map (newCol env cb jc) ++ L2).map (List.map (·.1)) := by
    simp only [List.map_append]
    congr 2
    rw [List.map_map]
    apply List.ext_getElem
    · simp [hn]
    · intro i h1 h2
      simp only [List.getElem_map, Function.comp, newCol_fst]
      exact hp _ (List.getElem_mem _)
  have hnew : ∀ c, (jc.map.flatMap fun p => (List.range p.2.cols).map fun r => p.2.get c r) =
      (newCol env cb jc c).map (·.2) := by
    intro c
    rw [newCol, List.map_flatMap]
    have hf' := hf
    rw [Fits] at hf'
    generalize jc.map = l at hf'
    induction l with
    | nil => rfl
    | cons p l ih =>
      rw [List.flatMap_cons, List.flatMap_cons, ih fun q hq => hf' q (by simp [hq]),
        (hf' p (by simp)).2.1, List.map_map]
      rfl
  rw [CCM.writeJacobians]
  rw [if_neg]
  · congr 2
    have h := writeBlocks_eq (fun p : D × Mat K => p.2.rows) (fun (p : D × Mat K) (c : Nat) =>
      (List.range p.2.cols).map fun r => p.2.get c r) (fun p => p.2.cols) L1.flatten.length epc jc.map
      (L1.flatten.map (·.2)) (L2.flatten.map (·.2)) (Lo.map (List.map (·.2))) (List.length_map _)
      (fun b hb => by rw [List.length_map, hn]; exact hrow b hb) hcl
      (fun r hr => by
        obtain ⟨l, hl, rfl⟩ := List.mem_map.1 hr
        rw [List.length_map]; exact hlo l hl) hE'
    rw [hcx]
    rw [h]
    have c1 : m.s.cp = cps 0 (L1 ++ (List.range jc.rows).map (newCol env cb jc) ++ L2) := by
      rw [hs]; exact cps_congr 0 _ _ (lengths_of_fst hfst)
    have c2 : m.s.ci = (L1 ++ (List.range jc.rows).map (newCol env cb jc) ++ L2).flatten.map (·.1) := by
      rw [hs, ofCols]
      simp only [List.map_flatten]
      rw [hfst]
    rw [ofCols, ← c1, ← c2]
    congr 1
    simp only [List.flatten_append, List.map_append]
    congr 2
    rw [List.length_map, hn, List.map_flatten (L := (List.range jc.rows).map (newCol env cb jc)), List.map_map]
    congr 2
    apply List.map_congr_left
    intro c _
    exact hnew c
  · rw [writesFit_ok (fun p : D × Mat K => p.2.rows) _ (fun p => p.2.cols) L1.flatten.length epc jc.map 0 _
      jc.rows hrow hcl (by omega) (by
        rw [hcx]; simp only [List.length_append, List.length_map, ← List.map_flatten, hlof]; omega)]
    simp

theorem activeSorted_fits (env : Env D K) (jc : Container D K) (ho : Ordered env jc) (hf : Fits env jc) :
    activeSorted env (jc.map.map (·.1)) = jc.map.map (·.1) := by
  have h1 : (jc.map.map (·.1)).filter (fun d => env.active d) = jc.map.map (·.1) := by
    rw [List.filter_eq_self]
    intro d hd
    obtain ⟨p, hp, rfl⟩ := List.mem_map.1 hd
    exact (hf p hp).2.2
  rw [activeSorted, h1]
  apply List.Pairwise.insertionSort_eq
  rw [List.pairwise_map]
  refine List.Pairwise.imp ?_ ho
  intro p q h
  exact le_of_lt h

theorem appendJacobians_eq [Zero K] (env : Env D K) (cb : D → Nat) (m : CCM K)
    (L : List (List (Nat × K))) (hs : m.s = ofCols L) (hc : m.cols = L.length) (hd : m.diag = false)
    (jc : Container D K) (ho : Ordered env jc) (hf : Fits env jc) :
    m.appendJacobians env cb jc =
      .ok ⟨m.rows, m.cols + jc.rows, ofCols (L ++ (List.range jc.rows).map (newCol env cb jc)), false⟩ := by
  rw [CCM.appendJacobians, appendSymbolic_eq env cb m L hs hc hd, activeSorted_fits env jc ho hf]
  simp only [Out.bind]
  have h := writeJacobians_eq env cb ⟨m.rows, m.cols + jc.rows, ofCols (L ++ List.replicate jc.rows
      ((pat env cb (jc.map.map (·.1))).map fun x => (x, (0 : K)))), false⟩ L (List.replicate jc.rows
      ((pat env cb (jc.map.map (·.1))).map fun x => (x, (0 : K)))) [] (by simp) jc hf (by simp)
      (fun l hl => by rw [List.eq_of_mem_replicate hl, List.map_map]; simp [Function.comp_def])
  rw [List.append_nil] at h
  exact h

/-! ## The columns are those of the transposed Jacobian -/

theorem pat_sorted (env : Env D K) (cb : D → Nat) (rows : Nat) (hl : Layout env cb rows) (ds : List D)
    (ha : ∀ d ∈ ds, env.active d = true)
    (ho : ds.Pairwise fun a b => env.blockIndex a < env.blockIndex b) :
    (pat env cb ds).Pairwise (· < ·) := by
  induction ds with
  | nil => simp [pat]
  | cons d ds ih =>
    rw [List.pairwise_cons] at ho
    rw [pat, List.flatMap_cons, List.pairwise_append]
    refine ⟨?_, ih (fun d' hd' => ha d' (by simp [hd'])) ho.2, ?_⟩
    · rw [List.pairwise_map]
      exact List.Pairwise.imp (fun h => by omega) List.pairwise_lt_range
    · intro x hx y hy
      obtain ⟨r, hr, rfl⟩ := List.mem_map.1 hx
      obtain ⟨d', hd', hy⟩ := List.mem_flatMap.1 hy
      obtain ⟨r', hr', rfl⟩ := List.mem_map.1 hy
      have := hl.order d d' (ha d (by simp)) (ha d' (by simp [hd'])) (ho.1 d' hd')
      rw [List.mem_range] at hr
      omega

theorem sum_one {α : Type} [AddMonoid K] (l : List α) (P : α → Prop) [DecidablePred P] (f : α → K)
    (R : α → α → Prop) (hR : l.Pairwise R) (hPR : ∀ a b, a ∈ l → b ∈ l → R a b → P a → ¬P b) (a : α) (ha : a ∈ l) (hPa : P a) :
    (l.map fun x => if P x then f x else 0).sum = f a := by
  induction l with
  | nil => simp at ha
  | cons b l ih =>
    rw [List.pairwise_cons] at hR
    rw [List.map_cons, List.sum_cons]
    rcases List.mem_cons.1 ha with rfl | ha'
    · rw [if_pos hPa]
      have : ∀ x ∈ l, (if P x then f x else 0) = (fun _ => (0 : K)) x := fun x hx =>
        if_neg (hPR a x (by simp) (by simp [hx]) (hR.1 x hx) hPa)
      rw [List.map_congr_left this]
      simp
    · rw [if_neg (fun hb => hPR b a (by simp) (by simp [ha']) (hR.1 a ha') hb hPa), zero_add,
        ih hR.2 (fun x y hx hy => hPR x y (by simp [hx]) (by simp [hy])) ha']

theorem newCol_colsOf [AddMonoid K] (env : Env D K) (cb : D → Nat) (rows : Nat) (hl : Layout env cb rows)
    (jc : Container D K) (ho : Ordered env jc) (hf : Fits env jc) :
    ColsOf ((List.range jc.rows).map (newCol env cb jc)) (jacT env cb rows jc) := by
  have key : ∀ (j : Nat) (l : List (Nat × K)),
      ((List.range jc.rows).map (newCol env cb jc))[j]? = some l → l = newCol env cb jc j := by
    intro j l h
    rw [List.getElem?_map, Option.map_eq_some_iff] at h
    obtain ⟨k, hk, rfl⟩ := h
    rw [List.getElem?_eq_some_iff] at hk
    obtain ⟨h1, h2⟩ := hk
    simp only [List.getElem_range] at h2
    rw [h2]
  refine ⟨by simp [jacT], ?_, ?_, ?_, ?_⟩
  · intro l h
    obtain ⟨c, _, rfl⟩ := List.mem_map.1 h
    have := pat_sorted env cb rows hl (jc.map.map (·.1))
      (fun d hd => by obtain ⟨p, hp, rfl⟩ := List.mem_map.1 hd; exact (hf p hp).2.2)
      (by rw [List.pairwise_map]; exact ho)
    rw [← newCol_fst env cb jc c, List.pairwise_map] at this
    exact this
  · intro l h p hp
    obtain ⟨c, _, rfl⟩ := List.mem_map.1 h
    obtain ⟨q, hq, hp⟩ := List.mem_flatMap.1 hp
    obtain ⟨r, hr, rfl⟩ := List.mem_map.1 hp
    have := hl.inside q.1 (hf q hq).2.2
    rw [List.mem_range] at hr
    show cb q.1 + r < rows
    omega
  · intro j l h p hp
    rw [key j l h] at hp
    obtain ⟨q, hq, hp⟩ := List.mem_flatMap.1 hp
    obtain ⟨r, hr, rfl⟩ := List.mem_map.1 hp
    rw [List.mem_range] at hr
    show q.2.get j r = (jc.map.map _).sum
    rw [sum_one jc.map (fun p => cb p.1 ≤ cb q.1 + r ∧ cb q.1 + r < cb p.1 + env.dim p.1)
      (fun p => p.2.get j (cb q.1 + r - cb p.1)) _ ho ?_ q hq ⟨by omega, by omega⟩, Nat.add_sub_cancel_left]
    intro a b ha hb hab h1 h2
    have := hl.order a.1 b.1 (hf a ha).2.2 (hf b hb).2.2 hab
    omega
  · intro j l h i hi hn
    rw [key j l h, newCol_fst] at hn
    show (jc.map.map _).sum = 0
    have : ∀ p ∈ jc.map, (if cb p.1 ≤ i ∧ i < cb p.1 + env.dim p.1 then p.2.get j (i - cb p.1) else 0) =
        (fun _ => (0 : K)) p := by
      intro p hp
      apply if_neg
      intro hc
      apply hn
      rw [pat, List.mem_flatMap]
      exact ⟨p.1, List.mem_map.2 ⟨p, hp, rfl⟩, List.mem_map.2 ⟨i - cb p.1, List.mem_range.2 (by omega), by omega⟩⟩
    rw [List.map_congr_left this]
    simp

end Kalibr.CCM
