import Verif.Proof.Device

/-! Proof support: the scattering matrix of a circuit is made of the matrices of its components. -/

namespace PT
open Spec Matrix

theorem partAt_lt : ∀ (L : List Part) (i : ℕ), i < partsN L → ∃ k p i', partAt L i = some (k, p, i')
  | [], i, h => by simp [partsN] at h
  | p :: L, i, h => by
    unfold partAt
    split
    · exact ⟨_, _, _, rfl⟩
    · obtain ⟨k, q, i', hq⟩ := partAt_lt L (i - p.n) (by simp only [partsN, List.map_cons, List.sum_cons] at h ⊢; omega)
      exact ⟨k + 1, q, i', by rw [hq]; rfl⟩

theorem partAt_mem : ∀ (L : List Part) (i : ℕ) {k : ℕ} {p : Part} {i' : ℕ}, partAt L i = some (k, p, i') →
    L[k]? = some p ∧ i' < p.n
  | [], i, _, _, _, h => by simp [partAt] at h
  | p :: L, i, k, q, i', h => by
    unfold partAt at h
    split at h
    · rename_i hi
      simp only [Option.some.injEq, Prod.mk.injEq] at h
      obtain ⟨rfl, rfl, rfl⟩ := h
      exact ⟨rfl, hi⟩
    · simp only [Option.map_eq_some_iff, Prod.mk.injEq, Prod.exists] at h
      obtain ⟨k', q', j', hq, rfl, hh⟩ := h
      obtain ⟨rfl, rfl⟩ := hh
      obtain ⟨h1, h2⟩ := partAt_mem L (i - p.n) hq
      exact ⟨by simpa using h1, h2⟩

theorem blockMat_partAt (F : Part → ℕ → ℕ → ℝ) : ∀ (L : List Part) (i j : ℕ) {k k' : ℕ} {p q : Part} {i' j' : ℕ},
    partAt L i = some (k, p, i') → partAt L j = some (k', q, j') →
    blockMat (L.map fun p => (p.n, F p)) i j = if k = k' then F p i' j' else 0
  | [], _, _, _, _, _, _, _, _, h, _ => by simp [partAt] at h
  | r :: L, i, j, k, k', p, q, i', j', h, h' => by
    unfold partAt at h h'
    simp only [List.map_cons]
    unfold blockMat
    split at h <;> split at h'
    · rename_i hi hj
      simp only [Option.some.injEq, Prod.mk.injEq] at h h'
      obtain ⟨rfl, rfl, rfl⟩ := h
      obtain ⟨rfl, -, rfl⟩ := h'
      simp [hi, hj]
    · rename_i hi hj
      simp only [Option.some.injEq, Prod.mk.injEq] at h
      simp only [Option.map_eq_some_iff, Prod.mk.injEq, Prod.exists] at h'
      obtain ⟨rfl, rfl, rfl⟩ := h
      obtain ⟨k', q', j', hq, rfl, hh⟩ := h'
      simp [hi, hj]
    · rename_i hi hj
      simp only [Option.some.injEq, Prod.mk.injEq] at h'
      simp only [Option.map_eq_some_iff, Prod.mk.injEq, Prod.exists] at h
      obtain ⟨rfl, rfl, rfl⟩ := h'
      obtain ⟨k', q', j', hq, rfl, hh⟩ := h
      simp [hi, hj]
    · rename_i hi hj
      simp only [Option.map_eq_some_iff, Prod.mk.injEq, Prod.exists] at h h'
      obtain ⟨k1, q1, j1, hq1, rfl, hh⟩ := h
      obtain ⟨k2, q2, j2, hq2, rfl, hh'⟩ := h'
      obtain ⟨rfl, rfl⟩ := hh
      obtain ⟨rfl, rfl⟩ := hh'
      rw [if_neg hi, if_neg hj, blockMat_partAt F L _ _ hq1 hq2]
      simp

theorem blockVec_partAt (F : Part → ℕ → ℝ) : ∀ (L : List Part) (i : ℕ) {k : ℕ} {p : Part} {i' : ℕ},
    partAt L i = some (k, p, i') → blockVec (L.map fun p => (p.n, F p)) i = F p i'
  | [], _, _, _, _, h => by simp [partAt] at h
  | r :: L, i, k, p, i', h => by
    unfold partAt at h
    simp only [List.map_cons]
    unfold blockVec
    split at h
    · rename_i hi
      simp only [Option.some.injEq, Prod.mk.injEq] at h
      obtain ⟨rfl, rfl, rfl⟩ := h
      simp [hi]
    · rename_i hi
      simp only [Option.map_eq_some_iff, Prod.mk.injEq, Prod.exists] at h
      obtain ⟨k1, q1, j1, hq1, rfl, hh⟩ := h
      obtain ⟨rfl, rfl⟩ := hh
      rw [if_neg hi]
      exact blockVec_partAt F L _ hq1

theorem marks_partAt (f : Part → List Bool) (hf : ∀ p, (f p).length = p.n) : ∀ (L : List Part) (i : ℕ) {k : ℕ}
    {p : Part} {i' : ℕ}, partAt L i = some (k, p, i') → (L.flatMap f).getD i false = (f p).getD i' false
  | [], _, _, _, _, h => by simp [partAt] at h
  | r :: L, i, k, p, i', h => by
    unfold partAt at h
    simp only [List.flatMap_cons, List.getD_eq_getElem?_getD]
    split at h
    · rename_i hi
      simp only [Option.some.injEq, Prod.mk.injEq] at h
      obtain ⟨rfl, rfl, rfl⟩ := h
      rw [List.getElem?_append_left (by rw [hf]; exact hi)]
    · rename_i hi
      simp only [Option.map_eq_some_iff, Prod.mk.injEq, Prod.exists] at h
      obtain ⟨k1, q1, j1, hq1, rfl, hh⟩ := h
      obtain ⟨rfl, rfl⟩ := hh
      rw [List.getElem?_append_right (by rw [hf]; omega), hf]
      simpa [List.getD_eq_getElem?_getD] using marks_partAt f hf L _ hq1

theorem part_marks (p : Part) : p.comp.src.length = p.n ∧ p.comp.det.length = p.n ∧ p.comp.act.length = p.n := by
  cases p <;> simp [Part.comp, PT.term, PT.source, PT.detector, leaf, passive]

/-- Markings of a component. -/
theorem part_src (p : Part) (i : ℕ) : p.comp.src.getD i false = true → p = .source := by
  cases p <;> simp only [Part.comp, PT.term, PT.source, PT.detector, leaf, passive, List.getD_eq_getElem?_getD] <;>
    simp [List.getElem?_replicate] <;> (try (cases i <;> simp)) <;> (try (split <;> simp))

theorem part_det (p : Part) (i : ℕ) : p.comp.det.getD i false = true → p = .detector := by
  cases p <;> simp only [Part.comp, PT.term, PT.source, PT.detector, leaf, passive, List.getD_eq_getElem?_getD] <;>
    simp [List.getElem?_replicate] <;> (try (cases i <;> simp)) <;> (try (split <;> simp))

theorem part_act (p : Part) (i : ℕ) : p.comp.act.getD i false = false := by
  cases p <;> simp only [Part.comp, PT.term, PT.source, PT.detector, leaf, passive, List.getD_eq_getElem?_getD,
    List.getElem?_replicate] <;> first | (split <;> rfl) | (cases i <;> rfl)

/-- The complex scattering matrix of components side by side. -/
noncomputable def cxBlock (L : List Part) (wl : ℝ) (i j : ℕ) : ℂ :=
  ⟨blockMat (L.map fun p => (p.n, ofFin (p.S wl).re)) i j, blockMat (L.map fun p => (p.n, ofFin (p.S wl).im)) i j⟩

theorem cxBlock_partAt (L : List Part) (wl : ℝ) {i j k k' : ℕ} {p q : Part} {i' j' : ℕ}
    (hi : partAt L i = some (k, p, i')) (hj : partAt L j = some (k', q, j')) :
    (k ≠ k' → cxBlock L wl i j = 0) ∧
      (k = k' → ∃ (h : i' < p.n) (h' : j' < p.n), q = p ∧ cxBlock L wl i j = scattering p wl ⟨i', h⟩ ⟨j', h'⟩) := by
  have h1 := blockMat_partAt (fun p => ofFin (p.S wl).re) L i j hi hj
  have h2 := blockMat_partAt (fun p => ofFin (p.S wl).im) L i j hi hj
  obtain ⟨e1, l1⟩ := partAt_mem L i hi
  obtain ⟨e2, l2⟩ := partAt_mem L j hj
  refine ⟨fun hne => ?_, ?_⟩
  · unfold cxBlock
    rw [h1, h2, if_neg hne, if_neg hne]; rfl
  · rintro rfl
    rw [e1] at e2
    simp only [Option.some.injEq] at e2
    subst e2
    refine ⟨l1, l2, rfl, ?_⟩
    unfold cxBlock
    rw [h1, h2, if_pos rfl, if_pos rfl]
    simp [ofFin, l1, l2, scattering, cx]

/-- The power scattered by components side by side. -/
noncomputable def blockPower (wl : ℝ) : List Part → (ℕ → ℂ) → ℝ
  | [], _ => 0
  | p :: L, u => power (scattering p wl *ᵥ fun i : Fin p.n => u i) + blockPower wl L fun i => u (p.n + i)

theorem cxBlock_cons (p : Part) (L : List Part) (wl : ℝ) (i j : ℕ) : cxBlock (p :: L) wl i j =
    if h : i < p.n ∧ j < p.n then scattering p wl ⟨i, h.1⟩ ⟨j, h.2⟩
    else if i < p.n ∨ j < p.n then 0 else cxBlock L wl (i - p.n) (j - p.n) := by
  unfold cxBlock
  simp only [List.map_cons, blockMat.eq_2]
  by_cases h1 : i < p.n <;> by_cases h2 : j < p.n <;> simp [h1, h2, ofFin, scattering, cx] <;> rfl

theorem blockPower_eq (wl : ℝ) : ∀ (L : List Part) (u : ℕ → ℂ),
    ∑ i ∈ Finset.range (partsN L), Complex.normSq (∑ j ∈ Finset.range (partsN L), cxBlock L wl i j * u j) =
      blockPower wl L u
  | [], u => by simp [partsN, blockPower]
  | p :: L, u => by
    have hn : partsN (p :: L) = p.n + partsN L := by simp [partsN]
    rw [hn, Finset.sum_range_add]
    unfold blockPower
    congr 1
    · unfold power
      rw [← Fin.sum_univ_eq_sum_range (fun i => Complex.normSq (∑ j ∈ Finset.range (p.n + partsN L),
        cxBlock (p :: L) wl i j * u j))]
      refine Finset.sum_congr rfl fun i _ => ?_
      congr 1
      rw [Finset.sum_range_add]
      have h0 : ∑ x ∈ Finset.range (partsN L), cxBlock (p :: L) wl i (p.n + x) * u (p.n + x) = 0 := by
        refine Finset.sum_eq_zero fun x _ => ?_
        rw [cxBlock_cons, dif_neg (by omega), if_pos (by have := i.2; omega), zero_mul]
      rw [h0, add_zero, ← Fin.sum_univ_eq_sum_range (fun j => cxBlock (p :: L) wl i j * u j)]
      simp only [Matrix.mulVec, dotProduct]
      refine Finset.sum_congr rfl fun j _ => ?_
      rw [cxBlock_cons, dif_pos ⟨i.2, j.2⟩]
    · rw [← blockPower_eq wl L]
      refine Finset.sum_congr rfl fun i _ => ?_
      congr 1
      rw [Finset.sum_range_add]
      have h0 : ∑ x ∈ Finset.range p.n, cxBlock (p :: L) wl (p.n + i) x * u x = 0 := by
        refine Finset.sum_eq_zero fun x hx => ?_
        rw [Finset.mem_range] at hx
        rw [cxBlock_cons, dif_neg (by omega), if_pos (by omega), zero_mul]
      rw [h0, zero_add]
      refine Finset.sum_congr rfl fun j _ => ?_
      rw [cxBlock_cons, dif_neg (by omega), if_neg (by omega)]
      simp

section
variable {d : Dev} {L : List Part} (hf : Flat d L) (v : ℝ) {W : Type} (wl : W → ℝ)
include hf

theorem plant_S (w : W) (i j : Fin d.comp.n) :
    cx ((d.plant v wl).rS w) ((d.plant v wl).iS w) i j = cxBlock L (wl w) i j := by
  unfold cxBlock
  rw [← hf.rS, ← hf.iS]
  rfl

/-- What is known about two ports of a circuit. -/
theorem plant_port (i : Fin d.comp.n) : ∃ k p i', partAt L i = some (k, p, i') ∧ p ∈ L ∧ i' < p.n ∧
    (d.plant v wl).delay i = p.delay v ∧ (d.plant v wl).src i = p.comp.src.getD i' false ∧
    (d.plant v wl).det i = p.comp.det.getD i' false ∧ (d.plant v wl).act i = false := by
  obtain ⟨k, p, i', h⟩ := partAt_lt L i (by rw [← hf.n]; exact i.2)
  obtain ⟨h1, h2⟩ := partAt_mem L i h
  refine ⟨k, p, i', h, List.mem_of_getElem? h1, h2, ?_, ?_, ?_, ?_⟩
  · show d.delay v i = _
    rw [hf.delay, blockVec_partAt _ L _ h, if_pos h2]
  · show d.comp.src.getD i false = _
    rw [hf.src, marks_partAt _ (fun p => (part_marks p).1) L _ h]
  · show d.comp.det.getD i false = _
    rw [hf.det, marks_partAt _ (fun p => (part_marks p).2.1) L _ h]
  · show d.comp.act.getD i false = _
    rw [hf.act, marks_partAt _ (fun p => (part_marks p).2.2) L _ h, part_act]

theorem plant_act (i : Fin d.comp.n) : (d.plant v wl).act i = false := by
  obtain ⟨k, p, i', -, -, -, -, -, -, h⟩ := plant_port hf v wl i
  exact h

theorem plant_exclusive : (d.plant v wl).Exclusive := by
  intro i
  obtain ⟨k, p, i', -, -, -, -, hs, hd, ha⟩ := plant_port hf v wl i
  rw [ha, hs, hd]
  refine ⟨?_, by simp, by simp⟩
  rintro ⟨h1, h2⟩
  rw [part_src p i' h1] at h2
  have := part_det _ _ h2
  cases this

theorem plant_term (w : W) (i : Fin d.comp.n) (h : ((d.plant v wl).src i || (d.plant v wl).det i) = true)
    (j : Fin d.comp.n) : cx ((d.plant v wl).rS w) ((d.plant v wl).iS w) i j = 0 ∧
      cx ((d.plant v wl).rS w) ((d.plant v wl).iS w) j i = 0 := by
  obtain ⟨k, p, i', hi, -, hi', -, hs, hd, -⟩ := plant_port hf v wl i
  obtain ⟨k', q, j', hj, -, hj', -, -, -, -⟩ := plant_port hf v wl j
  have hz : ∀ a b, scattering p (wl w) a b = 0 := by
    rw [hs, hd, Bool.or_eq_true] at h
    rcases h with h | h
    · rw [part_src p i' h]; intro a b; rfl
    · rw [part_det p i' h]; intro a b; rfl
  rw [plant_S hf, plant_S hf]
  obtain ⟨h1, h2⟩ := cxBlock_partAt L (wl w) hi hj
  obtain ⟨h3, h4⟩ := cxBlock_partAt L (wl w) hj hi
  by_cases hk : k = k'
  · obtain ⟨_, _, rfl, he⟩ := h2 hk
    obtain ⟨_, _, -, he'⟩ := h4 hk.symm
    exact ⟨he.trans (hz _ _), he'.trans (hz _ _)⟩
  · exact ⟨h1 hk, h3 (Ne.symm hk)⟩

/-- Ports that scatter into each other have the same delay and the same markings. -/
theorem plant_same (w : W) (i j : Fin d.comp.n)
    (h : cx ((d.plant v wl).rS w) ((d.plant v wl).iS w) i j ≠ 0) :
    (d.plant v wl).delay i = (d.plant v wl).delay j ∧ (d.plant v wl).src i = false ∧ (d.plant v wl).src j = false ∧
      (d.plant v wl).det i = false ∧ (d.plant v wl).det j = false := by
  have hm : ∀ k, (∃ l, cx ((d.plant v wl).rS w) ((d.plant v wl).iS w) k l ≠ 0 ∨
      cx ((d.plant v wl).rS w) ((d.plant v wl).iS w) l k ≠ 0) →
      (d.plant v wl).src k = false ∧ (d.plant v wl).det k = false := by
    rintro k ⟨l, hl⟩
    rw [← Bool.or_eq_false_iff]
    by_contra hne
    rw [Bool.not_eq_false] at hne
    obtain ⟨h1, h2⟩ := plant_term hf v wl w k hne l
    rcases hl with hl | hl
    · exact hl h1
    · exact hl h2
  obtain ⟨a1, a2⟩ := hm i ⟨j, .inl h⟩
  obtain ⟨b1, b2⟩ := hm j ⟨i, .inr h⟩
  refine ⟨?_, a1, b1, a2, b2⟩
  obtain ⟨k, p, i', hi, -, hi', hdi, -⟩ := plant_port hf v wl i
  obtain ⟨k', q, j', hj, -, hj', hdj, -⟩ := plant_port hf v wl j
  rw [plant_S hf] at h
  obtain ⟨h1, h2⟩ := cxBlock_partAt L (wl w) hi hj
  by_cases hk : k = k'
  · obtain ⟨_, _, rfl, he⟩ := h2 hk
    rw [hdi, hdj]
  · exact absurd (h1 hk) h

theorem plant_power (w : W) (x : Fin d.comp.n → ℂ) :
    power (cx ((d.plant v wl).rS w) ((d.plant v wl).iS w) *ᵥ x) =
      blockPower (wl w) L fun i => if h : i < d.comp.n then x ⟨i, h⟩ else 0 := by
  rw [← blockPower_eq, ← hf.n]
  unfold power
  rw [← Fin.sum_univ_eq_sum_range (fun i => Complex.normSq (∑ j ∈ Finset.range d.comp.n, cxBlock L (wl w) i j *
    (if h : j < d.comp.n then x ⟨j, h⟩ else 0)))]
  refine Finset.sum_congr rfl fun i _ => ?_
  congr 1
  rw [← Fin.sum_univ_eq_sum_range (fun j => cxBlock L (wl w) i j * (if h : j < d.comp.n then x ⟨j, h⟩ else 0))]
  simp only [Matrix.mulVec, dotProduct]
  refine Finset.sum_congr rfl fun j _ => ?_
  rw [plant_S hf v wl w, dif_pos j.2]

theorem sum_extend (f : ℂ → ℝ) (x : Fin d.comp.n → ℂ) : ∑ i ∈ Finset.range (partsN L),
    f (if h : i < d.comp.n then x ⟨i, h⟩ else 0) = ∑ i, f (x i) := by
  rw [← hf.n, ← Fin.sum_univ_eq_sum_range (fun i => f (if h : i < d.comp.n then x ⟨i, h⟩ else 0))]
  refine Finset.sum_congr rfl fun i _ => ?_
  rw [dif_pos i.2]

theorem plant_contracts (hL : ∀ p ∈ L, ∀ wl, Contracts (scattering p wl)) (w : W) :
    Contracts (cx ((d.plant v wl).rS w) ((d.plant v wl).iS w)) := by
  intro x
  rw [plant_power hf]
  have key : ∀ (L : List Part), (∀ p ∈ L, ∀ wl, Contracts (scattering p wl)) → ∀ u : ℕ → ℂ,
      blockPower (wl w) L u ≤ ∑ i ∈ Finset.range (partsN L), Complex.normSq (u i) := by
    intro L
    induction L with
    | nil => intro _ u; simp [blockPower, partsN]
    | cons p L ih =>
      intro hL u
      have hn : partsN (p :: L) = p.n + partsN L := by simp [partsN]
      rw [hn, Finset.sum_range_add]
      unfold blockPower
      refine add_le_add ?_ (ih (fun q hq => hL q (by simp [hq])) _)
      refine (hL p (by simp) (wl w) _).trans (le_of_eq ?_)
      unfold power
      rw [← Fin.sum_univ_eq_sum_range (fun i => Complex.normSq (u i))]
  refine (key L hL _).trans (le_of_eq ?_)
  exact sum_extend hf _ x

theorem plant_symm (hL : ∀ p ∈ L, ∀ wl, SymmetricS (scattering p wl)) (w : W) :
    ((d.plant v wl).rS w)ᵀ = (d.plant v wl).rS w ∧ ((d.plant v wl).iS w)ᵀ = (d.plant v wl).iS w := by
  have key : ∀ i j : Fin d.comp.n, cxBlock L (wl w) i j = cxBlock L (wl w) j i := by
    intro i j
    obtain ⟨k, p, i', hi, hp, hi', -⟩ := plant_port hf v wl i
    obtain ⟨k', q, j', hj, -, hj', -⟩ := plant_port hf v wl j
    obtain ⟨h1, h2⟩ := cxBlock_partAt L (wl w) hi hj
    obtain ⟨h3, h4⟩ := cxBlock_partAt L (wl w) hj hi
    by_cases hk : k = k'
    · obtain ⟨_, _, rfl, he⟩ := h2 hk
      obtain ⟨_, _, -, he'⟩ := h4 hk.symm
      rw [he, he', hL _ hp (wl w)]
    · rw [h1 hk, h3 (Ne.symm hk)]
  constructor
  · ext i j
    exact congrArg Complex.re (((plant_S hf v wl w j i).trans (key j i)).trans (plant_S hf v wl w i j).symm)
  · ext i j
    exact congrArg Complex.im (((plant_S hf v wl w j i).trans (key j i)).trans (plant_S hf v wl w i j).symm)

end

/-- The plant of a properly wired, terminated circuit pairs its ports. -/
theorem plant_paired {d : Dev} (hc : Clean d.comp) (ht : d.comp.terminated = true) (v : ℝ) {W : Type} (wl : W → ℝ) :
    Paired (d.plant v wl).C := by
  have hrec := built_reciprocal hc.built
  have hone := (C19_clean_partial _ hc).2
  have hex : ∀ i : Fin d.comp.n, ∃ j : Fin d.comp.n, d.comp.C i j ≠ 0 := by
    intro i
    have hnf : d.comp.freeAt i = false := by
      unfold Comp.terminated at ht
      rw [Bool.not_eq_true', List.any_eq_false] at ht
      simpa using ht i (List.mem_range.mpr i.2)
    have : ¬ Unconnected d.comp i := by
      intro hu'
      have := (freeAt_iff hrec.2.1 i).mpr ⟨i.2, hu'⟩
      rw [hnf] at this; cases this
    unfold Unconnected at this
    push Not at this
    obtain ⟨k, hk, hk'⟩ := this
    exact ⟨⟨k, hk⟩, fun h0 => hk' h0 ((hrec.1 k i).trans h0)⟩
  choose σ hσ using hex
  refine ⟨σ, ?_, ?_⟩
  · intro i
    have h1 := hσ i
    have h2 := hσ (σ i)
    rw [hrec.1] at h1
    exact Fin.ext (hone _ _ _ h2 h1)
  · intro i j
    show ((d.comp.C i j : ℚ) : ℝ) = _
    split
    · rename_i hj
      rcases hrec.2.1 i j with h | h
      · rw [hj] at h
        exact absurd h (hσ i)
      · rw [h]; norm_num
    · rename_i hj
      by_contra hne
      have : d.comp.C i j ≠ 0 := by
        intro h0; apply hne; rw [h0]; norm_num
      exact hj (Fin.ext (hone _ _ _ this (hσ i)))

theorem plant_C_symm {d : Dev} (hc : Clean d.comp) (v : ℝ) {W : Type} (wl : W → ℝ) :
    ((d.plant v wl).C)ᵀ = (d.plant v wl).C := by
  ext i j
  show ((d.comp.C j i : ℚ) : ℝ) = d.comp.C i j
  rw [(built_reciprocal hc.built).1]

theorem plant_terminated {d : Dev} (hc : Clean d.comp) (ht : d.comp.terminated = true) (v : ℝ) {W : Type}
    (wl : W → ℝ) : (d.plant v wl).terminated := by
  obtain ⟨σ, -, hC⟩ := plant_paired hc ht v wl
  intro i
  right
  rw [Finset.sum_congr rfl fun k _ => hC i k]
  simp

/-- Forms that agree on the diagonal agree. -/
theorem polarization {ι : Type} [Fintype ι] [DecidableEq ι] (G : ι → ι → ℂ)
    (h : ∀ v : ι → ℂ, ∑ i, ∑ j, star (v i) * G i j * v j = 0) : ∀ i j, G i j = 0 := by
  have hd : ∀ i, G i i = 0 := by
    intro i
    have := h (Pi.single i 1)
    simpa [Pi.single_apply, apply_ite, ite_mul, mul_ite, Finset.sum_ite_eq, Finset.sum_ite_eq'] using this
  intro i j
  by_cases hij : i = j
  · rw [hij]; exact hd j
  have expand : ∀ c : ℂ, star c * G j i + c * G i j = 0 := by
    intro c
    have h1 := h (Pi.single i 1 + Pi.single j c)
    have h2 : ∀ a : ι, ∑ b, star ((Pi.single i 1 + Pi.single j c : ι → ℂ) a) * G a b *
        (Pi.single i 1 + Pi.single j c : ι → ℂ) b =
        star ((Pi.single i 1 + Pi.single j c : ι → ℂ) a) * (G a i + G a j * c) := by
      intro a
      simp only [Pi.add_apply, mul_add, Finset.sum_add_distrib, Pi.single_apply, mul_ite, mul_one, mul_zero,
        Finset.sum_ite_eq', Finset.mem_univ, if_true, mul_assoc]
    rw [Finset.sum_congr rfl fun a _ => h2 a] at h1
    simp only [Pi.add_apply, star_add, add_mul, Finset.sum_add_distrib, Pi.single_apply, apply_ite (star : ℂ → ℂ),
      star_one, star_zero, ite_mul, one_mul, zero_mul, Finset.sum_ite_eq', Finset.mem_univ, if_true, hd,
      zero_add, add_zero, mul_zero] at h1
    rw [mul_comm c, add_comm]
    simpa using h1
  have e1 := expand 1
  have e2 := expand Complex.I
  simp only [star_one, one_mul] at e1
  have e3 : star Complex.I = -Complex.I := Complex.conj_I
  rw [e3] at e2
  have : Complex.I * (G i j - G j i) = 0 := by linear_combination e2
  have h4 : G i j - G j i = 0 := by
    rcases mul_eq_zero.mp this with h | h
    · exact absurd h Complex.I_ne_zero
    · exact h
  have : (2 : ℂ) * G i j = 0 := by linear_combination e1 + h4
  simpa using this

/-- A matrix that conserves power away from the terminals is lossless. -/
theorem lossless_of_power {ι : Type} [Fintype ι] [DecidableEq ι] (S : Matrix ι ι ℂ) (term : ι → Bool)
    (h : ∀ v, power (S *ᵥ v) = powerAt (fun i => !term i) v) : Lossless S term := by
  have key := polarization (fun i j => ∑ k, star (S k i) * S k j - if i = j ∧ term i = false then 1 else 0) (by
    intro v
    have h1 : (power (S *ᵥ v) : ℂ) = (powerAt (fun i => !term i) v : ℝ) := by rw [h]
    rw [power_star] at h1
    simp only [Matrix.mulVec, dotProduct, star_sum, star_mul', Finset.sum_mul, Finset.mul_sum] at h1
    have h2 : ∑ k, ∑ j, ∑ i, star (S k i) * star (v i) * (S k j * v j) =
        ∑ i, ∑ j, star (v i) * (∑ k, star (S k i) * S k j) * v j := by
      rw [Finset.sum_comm]
      rw [Finset.sum_comm' (s := Finset.univ) (t := fun _ => Finset.univ) (s' := fun _ => Finset.univ)
        (t' := Finset.univ) (by simp)]
      rw [Finset.sum_congr rfl fun k _ => Finset.sum_comm]
      rw [Finset.sum_comm]
      refine Finset.sum_congr rfl fun i _ => ?_
      rw [Finset.sum_comm]
      refine Finset.sum_congr rfl fun j _ => ?_
      rw [Finset.mul_sum, Finset.sum_mul]
      refine Finset.sum_congr rfl fun k _ => ?_
      ring
    have h3 : ((powerAt (fun i => !term i) v : ℝ) : ℂ) =
        ∑ i, ∑ j, star (v i) * (if i = j ∧ term i = false then 1 else 0) * v j := by
      unfold powerAt
      rw [Complex.ofReal_sum]
      refine Finset.sum_congr rfl fun i _ => ?_
      cases hi : term i with
      | true => simp [hi]
      | false =>
        simp only [hi, and_true, mul_ite, mul_one, mul_zero, ite_mul, zero_mul, Finset.sum_ite_eq, Finset.mem_univ,
          if_true, Bool.not_false]
        rw [Complex.normSq_eq_conj_mul_self]; rfl
    rw [h3] at h1
    simp only [mul_sub, sub_mul, Finset.sum_sub_distrib]
    rw [← h1, sub_eq_zero]
    exact h2.symm)
  intro i j
  exact sub_eq_zero.mp (key i j)

theorem zero_scatter {p : Part} (wl : ℝ) (h : ∀ i j, scattering p wl i j = 0) (u : Fin p.n → ℂ) :
    scattering p wl *ᵥ u = 0 := by
  funext i
  simp [Matrix.mulVec, dotProduct, h]

theorem plant_lossless {d : Dev} {L : List Part} (hf : Flat d L) (v : ℝ) {W : Type} (wl : W → ℝ)
    (hL : ∀ p ∈ L, p = .source ∨ p = .detector ∨ ∀ wl, Unitary (scattering p wl)) (w : W) :
    Lossless (cx ((d.plant v wl).rS w) ((d.plant v wl).iS w))
      fun i => (d.plant v wl).src i || (d.plant v wl).det i := by
  refine lossless_of_power _ _ fun x => ?_
  rw [plant_power hf]
  have key : ∀ (L : List Part), (∀ p ∈ L, p = .source ∨ p = .detector ∨ ∀ wl, Unitary (scattering p wl)) →
      ∀ u : ℕ → ℂ, blockPower (wl w) L u = ∑ i ∈ Finset.range (partsN L),
        if ((L.flatMap fun p => p.comp.src).getD i false || (L.flatMap fun p => p.comp.det).getD i false) = true
        then 0 else Complex.normSq (u i) := by
    intro L
    induction L with
    | nil => intro _ u; simp [blockPower, partsN]
    | cons p L ih =>
      intro hL u
      have hn : partsN (p :: L) = p.n + partsN L := by simp [partsN]
      rw [hn, Finset.sum_range_add]
      unfold blockPower
      congr 1
      · have hm : ∀ i < p.n, (((p :: L).flatMap fun p => p.comp.src).getD i false ||
            ((p :: L).flatMap fun p => p.comp.det).getD i false) =
            (p.comp.src.getD i false || p.comp.det.getD i false) := by
          intro i hi
          simp only [List.flatMap_cons, List.getD_eq_getElem?_getD]
          rw [List.getElem?_append_left (by rw [(part_marks p).1]; exact hi),
            List.getElem?_append_left (by rw [(part_marks p).2.1]; exact hi)]
        rw [Finset.sum_congr rfl fun i hi => by rw [hm i (Finset.mem_range.mp hi)]]
        rcases hL p (by simp) with rfl | rfl | hU
        · have h0 := zero_scatter (p := .source) (wl w) (fun _ _ => rfl) (fun i : Fin 1 => u i)
          refine (congrArg power h0).trans ?_
          simp [power, Part.comp, PT.source, leaf]
        · have h0 := zero_scatter (p := .detector) (wl w) (fun _ _ => rfl) (fun i : Fin 1 => u i)
          refine (congrArg power h0).trans ?_
          simp [power, Part.comp, PT.detector, leaf]
        · have hne : ∀ q : Part, (q = .source ∨ q = .detector) → ¬ Unitary (scattering q (wl w)) := by
            rintro q (rfl | rfl) hq
            · have := hq fun _ => 1
              have h0 := zero_scatter (p := .source) (wl w) (fun _ _ => rfl) (fun i : Fin 1 => (1 : ℂ))
              have h1 := (congrArg power h0).symm.trans this
              simp [power] at h1
            · have := hq fun _ => 1
              have h0 := zero_scatter (p := .detector) (wl w) (fun _ _ => rfl) (fun i : Fin 1 => (1 : ℂ))
              have h1 := (congrArg power h0).symm.trans this
              simp [power] at h1
          have hmarks : ∀ i, (p.comp.src.getD i false || p.comp.det.getD i false) = false := by
            intro i
            by_contra h
            rw [Bool.not_eq_false, Bool.or_eq_true] at h
            rcases h with h | h
            · exact hne p (.inl (part_src p i h)) (hU _)
            · exact hne p (.inr (part_det p i h)) (hU _)
          rw [hU]
          unfold power
          simp only [hmarks]
          rw [← Fin.sum_univ_eq_sum_range (fun i => if false = true then 0 else Complex.normSq (u i))]
          simp
      · rw [ih (fun q hq => hL q (by simp [hq]))]
        refine Finset.sum_congr rfl fun i _ => ?_
        simp only [List.flatMap_cons, List.getD_eq_getElem?_getD]
        rw [List.getElem?_append_right (by rw [(part_marks p).1]; omega),
          List.getElem?_append_right (by rw [(part_marks p).2.1]; omega), (part_marks p).1, (part_marks p).2.1]
        simp
  rw [key L hL, ← hf.n, ← hf.src, ← hf.det]
  unfold powerAt
  rw [← Fin.sum_univ_eq_sum_range (fun i => if (d.comp.src.getD i false || d.comp.det.getD i false) = true then 0
    else Complex.normSq (if h : i < d.comp.n then x ⟨i, h⟩ else 0))]
  refine Finset.sum_congr rfl fun i _ => ?_
  rw [dif_pos i.2]
  show _ = if (!(d.comp.src.getD i false || d.comp.det.getD i false)) = true then _ else _
  cases (d.comp.src.getD i false || d.comp.det.getD i false) <;> simp

end PT
