import Verif.Proof.SensitiveTime
import Verif.Proof.Named
import Verif.Spec.Buffered

/-! Light that passes every other time a component that absorbs. -/

namespace PT.Sens
open Matrix Spec

variable {ι : Type} [Fintype ι]

theorem power_split (A : ι → Prop) [DecidablePred A] (u : ι → ℂ) : power u = power (part A u) + power (part (fun i => ¬A i) u) := by
  unfold power
  rw [← Finset.sum_add_distrib]
  refine Finset.sum_congr rfl fun i _ => ?_
  unfold part
  by_cases h : A i <;> simp [h]

theorem part_add (A : ι → Prop) [DecidablePred A] (u : ι → ℂ) : part A u + part (fun i => ¬A i) u = u := by
  funext i
  unfold part
  rw [Pi.add_apply]
  by_cases h : A i <;> simp [h]

/-- The ports `A` are those of components that absorb, the others are connected to them only. -/
structure Buffered (ρ : ℝ) (C S : Matrix ι ι ℂ) (A : ι → Prop) : Prop where
  inside : ∀ i j, S i j ≠ 0 → (A i ↔ A j)
  loses : ∀ v, (∀ i, ¬A i → v i = 0) → power (S *ᵥ v) ≤ ρ ^ 2 * power v
  apart : ∀ i j, C i j ≠ 0 → A i ∨ A j

section
variable {ρ : ℝ} {C S : Matrix ι ι ℂ} {A : ι → Prop} [DecidablePred A] (h : Buffered ρ C S A)
include h

theorem Buffered.part_mul (v : ι → ℂ) : part A (S *ᵥ v) = S *ᵥ part A v ∧ part (fun i => ¬A i) (S *ᵥ v) = S *ᵥ part (fun i => ¬A i) v := by
  constructor
  · funext i
    unfold part
    simp only [Matrix.mulVec, dotProduct]
    by_cases hi : A i
    · rw [if_pos hi]
      refine Finset.sum_congr rfl fun j _ => ?_
      by_cases h0 : S i j = 0
      · rw [h0, zero_mul, zero_mul]
      · rw [if_pos ((h.inside i j h0).1 hi)]
    · rw [if_neg hi]
      symm
      refine Finset.sum_eq_zero fun j _ => ?_
      by_cases h0 : S i j = 0
      · rw [h0, zero_mul]
      · rw [if_neg fun hj => hi ((h.inside i j h0).2 hj), mul_zero]
  · funext i
    unfold part
    simp only [Matrix.mulVec, dotProduct]
    by_cases hi : A i
    · rw [if_neg fun hn => hn hi]
      symm
      refine Finset.sum_eq_zero fun j _ => ?_
      by_cases h0 : S i j = 0
      · rw [h0, zero_mul]
      · rw [if_neg fun hj => hj ((h.inside i j h0).1 hi), mul_zero]
    · rw [if_pos hi]
      refine Finset.sum_congr rfl fun j _ => ?_
      by_cases h0 : S i j = 0
      · rw [h0, zero_mul, zero_mul]
      · rw [if_pos fun hj => hi ((h.inside i j h0).2 hj)]

theorem Buffered.power_mul (hS : Contracts S) (v : ι → ℂ) :
    power (S *ᵥ v) ≤ ρ ^ 2 * power (part A v) + power (part (fun i => ¬A i) v) := by
  rw [power_split A (S *ᵥ v), (h.part_mul v).1, (h.part_mul v).2]
  exact add_le_add (h.loses _ fun i hi => if_neg hi) (hS _)

/-- Light that leaves for a component that does not absorb comes from one that does. -/
theorem Buffered.to_others (v : ι → ℂ) : part (fun i => ¬A i) (C *ᵥ (S *ᵥ v)) = part (fun i => ¬A i) (C *ᵥ (S *ᵥ part A v)) := by
  funext i
  unfold part
  by_cases hi : A i
  · rw [if_neg fun hn => hn hi, if_neg fun hn => hn hi]
  · rw [if_pos hi, if_pos hi]
    simp only [Matrix.mulVec, dotProduct]
    refine Finset.sum_congr rfl fun j _ => ?_
    by_cases h0 : C i j = 0
    · rw [h0, zero_mul, zero_mul]
    · have hj := (h.apart i j h0).resolve_left hi
      congr 1
      refine Finset.sum_congr rfl fun k _ => ?_
      by_cases h1 : S j k = 0
      · rw [h1, zero_mul, zero_mul]
      · rw [if_pos ((h.inside j k h1).1 hj)]

end

theorem Buffered.twice [DecidableEq ι] {ρ : ℝ} {C : Matrix ι ι ℝ} {S : Matrix ι ι ℂ} {A : ι → Prop} (h : Buffered ρ (cx C 0) S A)
    (hC : Paired C) (hS : Contracts S) (h1 : ρ ^ 2 ≤ 1) (v : ι → ℂ) :
    power (cx C 0 *ᵥ (S *ᵥ (cx C 0 *ᵥ (S *ᵥ v)))) ≤ ρ ^ 2 * power v := by
  classical
  rw [power_paired hC]
  have e1 := h.power_mul hS (cx C 0 *ᵥ (S *ᵥ v))
  have e2 := power_split A (cx C 0 *ᵥ (S *ᵥ v))
  rw [power_paired hC] at e2
  have e3 := h.power_mul hS v
  have e4 : power (part (fun i => ¬A i) (cx C 0 *ᵥ (S *ᵥ v))) ≤ ρ ^ 2 * power (part A v) := by
    rw [h.to_others]
    refine (power_part_le _ _).trans ?_
    rw [power_paired hC]
    exact h.loses _ fun i hi => if_neg hi
  have e5 := power_split A v
  obtain ⟨x, hx⟩ : ∃ x, x = power (part (fun i => ¬A i) (cx C 0 *ᵥ (S *ᵥ v))) := ⟨_, rfl⟩
  obtain ⟨y, hy⟩ : ∃ y, y = power (part A (cx C 0 *ᵥ (S *ᵥ v))) := ⟨_, rfl⟩
  rw [← hx, ← hy] at e1 e2
  rw [← hx] at e4
  have hr : 0 ≤ ρ ^ 2 := sq_nonneg ρ
  have f1 : ρ ^ 2 * y ≤ ρ ^ 2 * (ρ ^ 2 * power (part A v) + power (part (fun i => ¬A i) v) - x) :=
    mul_le_mul_of_nonneg_left (by linarith) hr
  have f2 : (1 - ρ ^ 2) * x ≤ (1 - ρ ^ 2) * (ρ ^ 2 * power (part A v)) := mul_le_mul_of_nonneg_left e4 (by linarith)
  rw [e5]
  nlinarith

/-- So light is enhanced little. -/
theorem enhances_of_buffered [DecidableEq ι] {C : Matrix ι ι ℝ} (hC : Paired C) {S : Matrix ι ι ℂ} (hS : Contracts S) {ρ : ℝ} (h0 : 0 ≤ ρ)
    (h1 : ρ < 1) {A : ι → Prop} (h : Buffered ρ (cx C 0) S A) : EnhancesBy (2 / (1 - ρ)) (cx C 0) S := by
  intro s a b hs
  have ha : a = cx C 0 *ᵥ (S *ᵥ a) + cx C 0 *ᵥ s := by
    rw [← Matrix.mulVec_add, ← hs.outgoing]
    exact hs.incoming
  have ha2 : a = cx C 0 *ᵥ (S *ᵥ (cx C 0 *ᵥ (S *ᵥ a))) + (cx C 0 *ᵥ (S *ᵥ (cx C 0 *ᵥ s)) + cx C 0 *ᵥ s) := by
    conv_lhs => rw [ha, ha]
    rw [Matrix.mulVec_add S, Matrix.mulVec_add (cx C 0), add_assoc]
  have e1 : √(power (cx C 0 *ᵥ (S *ᵥ (cx C 0 *ᵥ (S *ᵥ a))))) ≤ ρ * √(power a) := by
    rw [sqrt_iff (power_nonneg _) h0]
    exact h.twice hC hS (by nlinarith) a
  have e2 : √(power (cx C 0 *ᵥ (S *ᵥ (cx C 0 *ᵥ s)))) ≤ √(power s) := by
    rw [power_paired hC]
    refine Real.sqrt_le_sqrt ((hS _).trans ?_)
    rw [power_paired hC]
  have e3 : √(power (cx C 0 *ᵥ s)) = √(power s) := by rw [power_paired hC]
  have e4 : √(power a) ≤ √(power (cx C 0 *ᵥ (S *ᵥ (cx C 0 *ᵥ (S *ᵥ a))))) +
      (√(power (cx C 0 *ᵥ (S *ᵥ (cx C 0 *ᵥ s)))) + √(power (cx C 0 *ᵥ s))) := by
    conv_lhs => rw [ha2]
    exact (sqrt_power_add _ _).trans (add_le_add le_rfl (sqrt_power_add _ _))
  rw [div_mul_eq_mul_div, le_div_iff₀ (by linarith)]
  linarith

/-- Also over time. -/
theorem Buffered.spread {ρ : ℝ} {C : Matrix ι ι ℝ} {S : Matrix ι ι ℂ} {A : ι → Prop} (h : Buffered ρ (cx C 0) S A) (d : ι → ℕ) (T : ℕ) :
    Buffered ρ (cx (copies T C) 0) (spread d T S) fun x => A x.1 where
  inside := by
    intro x y hxy
    apply h.inside
    intro h0
    apply hxy
    simp only [Sens.spread, Matrix.of_apply, h0, ite_self]
  apart := by
    intro x y hxy
    apply h.apart
    intro h0
    apply hxy
    have h1 : C x.1 y.1 = 0 := congrArg Complex.re h0
    simp only [cx, copies, Matrix.of_apply, Matrix.zero_apply, h1, ite_self]
    rfl
  loses := by
    classical
    intro u hu
    let S₁ : Matrix ι ι ℂ := Matrix.of fun i j => if A j then S i j else 0
    have e1 : ∀ v, S₁ *ᵥ v = S *ᵥ part A v := by
      intro v
      funext i
      simp only [Matrix.mulVec, dotProduct, part, S₁, Matrix.of_apply]
      refine Finset.sum_congr rfl fun j _ => ?_
      split
      · rfl
      · rw [zero_mul, mul_zero]
    have e2 : Sens.spread d T S *ᵥ u = Sens.spread d T S₁ *ᵥ u := by
      funext x
      simp only [Matrix.mulVec, dotProduct, Sens.spread, S₁, Matrix.of_apply]
      refine Finset.sum_congr rfl fun y _ => ?_
      by_cases hy : A y.1
      · rw [if_pos hy]
      · rw [hu y hy, mul_zero, mul_zero]
    rw [e2]
    refine spread_bound d T S₁ (ρ ^ 2) (fun v => ?_) (sq_nonneg _) u
    rw [e1]
    exact (h.loses _ fun i hi => if_neg hi).trans (mul_le_mul_of_nonneg_left (power_part_le _ _) (sq_nonneg _))

end PT.Sens

namespace PT
open Spec Matrix

variable {W : Type} {ord : List Str} {parts : List (Str × Part)} {cs : List Conn} {l : List (Str × Part)} {d : Dev}

/-- The number of ports of the named part. -/
def portCount (parts : List (Str × Part)) (x : Str) : ℕ := ((dictGet x parts).map Part.n).getD 0

theorem portCount_eq (h : Closed parts cs) : ∀ q ∈ parts, portCount parts q.1 = q.2.n := by
  intro q hq
  unfold portCount
  rw [dictGet_of_mem h.names hq]
  rfl

theorem closed_plan (h : Closed parts cs) : Plan (parts.map Prod.fst) (portCount parts) cs [] := by
  have hn := portCount_eq h
  refine ⟨h.names, ?_, ?_, ?_⟩
  · intro x hx
    obtain ⟨q, hq, rfl⟩ := List.mem_map.mp hx
    exact h.good q hq
  · intro x hx i hi
    obtain ⟨q, hq, rfl⟩ := List.mem_map.mp hx
    left
    exact h.ports.mem_iff.mpr (mem_portNames.mpr ⟨q, hq, i, by rw [← hn q hq]; exact hi, rfl⟩)
  · have e1 := h.ports.length_eq
    have e2 : (portNames parts).length = (parts.map fun q => q.2.n).sum := by
      unfold portNames
      rw [List.length_flatMap]
      simp
    have e3 : ((parts.map Prod.fst).map (portCount parts)) = parts.map fun q => q.2.n := by
      rw [List.map_map]
      exact List.map_congr_left fun q hq => hn q hq
    rw [e3, e1, e2]
    simp

/-- The network of a closed circuit is made of its parts. -/
theorem closed_made {P : Part → Prop} (h : Closed parts cs) (hP : ∀ q ∈ parts, P q.2) (name : Option Str)
    (hd : mkDev name (parts.map fun q => (q.1, q.2.dev)) (cs.map Conn.text) = .ok d) : MadeOf P d := by
  have hget : ∀ q ∈ parts, dictGet q.1 parts = some q.2 := fun q hq => dictGet_of_mem h.names hq
  have hn := portCount_eq h
  have hne : cs ≠ [] := by
    rintro rfl
    cases hp : parts with
    | nil => exact h.nonempty hp
    | cons q l =>
      have hq : q ∈ parts := by rw [hp]; exact List.mem_cons_self
      have : (q.1, ((0 : ℕ) : ℤ)) ∈ endpoints [] := h.ports.mem_iff.mpr (mem_portNames.mpr ⟨q, hq, 0, h.sized q hq, rfl⟩)
      cases this
  obtain ⟨d', hd', hmade⟩ := leaf_made (P := P) (parts := parts) name (closed_plan h) rfl
    (fun q hq => ⟨hP q hq, h.sized q hq⟩) (by
      intro x hx
      obtain ⟨q, hq, rfl⟩ := List.mem_map.mp hx
      exact ⟨q.2, hget q hq, (hn q hq).symm⟩) (by simp) (by simp [h.inner]) hne
  rw [hd] at hd'
  cases hd'
  exact hmade.made

theorem Placed.buffered (hP : Placed ord parts cs l d) (ρ : ℝ) (hb : BuffersBy ρ parts cs) (v : ℝ) (wl : W → ℝ) (w : W) :
    Sens.Buffered ρ (cx (d.plant v wl).C 0) (cx ((d.plant v wl).rS w) ((d.plant v wl).iS w))
      fun g : Fin d.comp.n => ∃ k p i, partAt (l.map Prod.snd) g = some (k, p, i) ∧ LosesBy ρ p where
  inside := by
    intro i j hij
    rw [plant_S hP.flat] at hij
    obtain ⟨a, p, k, i', -, -, -, hi⟩ := hP.name i
    obtain ⟨b, q, k', j', -, -, -, hj⟩ := hP.name j
    obtain ⟨h1, h2⟩ := cxBlock_partAt _ (wl w) hi hj
    obtain ⟨-, -, e, -⟩ := h2 (by_contra fun hk => hij (h1 hk))
    subst e
    constructor
    · rintro ⟨k₀, p₀, i₀, h0, hL⟩
      rw [hi] at h0
      cases h0
      exact ⟨_, _, _, hj, hL⟩
    · rintro ⟨k₀, p₀, i₀, h0, hL⟩
      rw [hj] at h0
      cases h0
      exact ⟨_, _, _, hi, hL⟩
  loses := by
    intro u hu
    rw [plant_power hP.flat]
    have key : ∀ (L : List Part) (u : ℕ → ℂ), (∀ g k p i, partAt L g = some (k, p, i) → ¬LosesBy ρ p → u g = 0) →
        blockPower (wl w) L u ≤ ρ ^ 2 * ∑ i ∈ Finset.range (partsN L), Complex.normSq (u i) := by
      intro L
      induction L with
      | nil => intro u _; simp [blockPower, partsN]
      | cons p L ih =>
        intro u hu
        have hn : partsN (p :: L) = p.n + partsN L := by simp [partsN]
        rw [hn, Finset.sum_range_add, mul_add]
        unfold blockPower
        refine add_le_add ?_ (ih _ fun g k q i hg hq => hu (p.n + g) (k + 1) q i ?_ hq)
        · by_cases hp : LosesBy ρ p
          · refine (hp (wl w) _).trans (le_of_eq ?_)
            unfold power
            rw [← Fin.sum_univ_eq_sum_range (fun i => Complex.normSq (u i))]
          · have e : (fun i : Fin p.n => u i) = 0 := by
              funext i
              refine hu i 0 p i ?_ hp
              unfold partAt
              rw [if_pos i.2]
            rw [e, Matrix.mulVec_zero]
            have : power (0 : Fin p.n → ℂ) = 0 := by simp [power]
            rw [this]
            exact mul_nonneg (sq_nonneg _) (Finset.sum_nonneg fun _ _ => Complex.normSq_nonneg _)
        · unfold partAt
          rw [if_neg (by omega), Nat.add_sub_cancel_left, hg]
          rfl
    refine (key (l.map Prod.snd) _ fun g k p i hg hp => ?_).trans (le_of_eq ?_)
    · split
      · rename_i h
        refine hu ⟨g, h⟩ ?_
        rintro ⟨k₀, p₀, i₀, h0, hL⟩
        have h0' : partAt (l.map Prod.snd) g = some (k₀, p₀, i₀) := h0
        rw [hg] at h0'
        cases h0'
        exact hp hL
      · rfl
    · rw [sum_extend hP.flat _ u]
      rfl
  apart := by
    intro g g' hg
    obtain ⟨a, p, k, i, hp, hi, ei, hgi⟩ := hP.name g
    obtain ⟨b, q, j, hq, hj, hJ⟩ := hP.cover (a, p) hp i hi
    obtain ⟨k', hk'⟩ := pos_partAt hP.nodup ((hP.mem _).mpr hq)
    have h1 := hP.conn a i b j hJ
    have hone := (C19_clean_partial _ hP.made.clean).2
    have h2 : d.comp.C g g' ≠ 0 := by
      intro h0
      apply hg
      show (⟨((d.comp.C g g' : ℚ) : ℝ), 0⟩ : ℂ) = 0
      rw [h0, Rat.cast_zero]
      rfl
    rw [← ei] at h1
    have e : (g' : ℕ) = pos l b + j := hone _ _ _ h2 h1
    rcases hb a i b j hJ p q hp hq with hL | hL
    · exact .inl ⟨_, _, _, hgi, hL⟩
    · refine .inr ⟨k', q, j, ?_, hL⟩
      rw [e]
      exact hk' j hj

end PT
