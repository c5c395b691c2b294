import Mathlib.LinearAlgebra.Matrix.ToLinearEquiv
import Verif.Props.Modulate

/-!
# C85: circuits whose loops absorb
-/

namespace PT
open Matrix Spec

variable {W B : Type}

section
variable {ι : Type} [Fintype ι]

/-- Without loops, ports can be ranked along the light. -/
theorem acyclic_rank {R : ι → ι → Prop} (h : ∀ i, ¬Relation.TransGen R i i) : ∃ φ : ι → ℕ, ∀ j i, R j i → φ j < φ i := by
  classical
  refine ⟨fun i => (Finset.univ.filter fun j => Relation.TransGen R j i).card, fun j i hji => Finset.card_lt_card ?_⟩
  refine ⟨fun k hk => ?_, fun hs => ?_⟩
  · simp only [Finset.mem_filter, Finset.mem_univ, true_and] at hk ⊢
    exact hk.tail hji
  · have := @hs j (by simpa using Relation.TransGen.single hji)
    simp only [Finset.mem_filter, Finset.mem_univ, true_and] at this
    exact h j this

theorem loops_rank {C S : Matrix ι ι ℂ} (h : LoopsAbsorb C S) :
    ∃ φ : ι → ℕ, ∀ i k j, C i k ≠ 0 → S k j ≠ 0 → AbsorbsAt S j ∨ φ j < φ i := by
  obtain ⟨φ, hφ⟩ := acyclic_rank h
  refine ⟨φ, fun i k j hC hS => ?_⟩
  by_cases ha : AbsorbsAt S j
  · exact .inl ha
  · exact .inr (hφ j i ⟨ha, k, hS, hC⟩)

theorem damped_of_loops [DecidableEq ι] {C : Matrix ι ι ℝ} (hC : Paired C) (S : Matrix ι ι ℂ) (hS : Contracts S) (d : ι → ℕ)
    (h : LoopsAbsorb (cx C 0) S) : Damped (cx C 0) S d := by
  obtain ⟨φ, hφ⟩ := loops_rank h
  refine damped_of_rank hC S hS d (AbsorbsAt S) (fun u hu k hk => hk u hu) φ fun i j hM => ?_
  rw [Matrix.mul_apply] at hM
  obtain ⟨k, -, hk⟩ := Finset.exists_ne_zero_of_sum_ne_zero hM
  exact hφ i k j (left_ne_zero_of_mul hk) (right_ne_zero_of_mul hk)

/-- No part of a circuit whose loops absorb is resonant. -/
theorem pick_nonresonant [DecidableEq ι] {C : Matrix ι ι ℝ} (hC : Paired C) (S : Matrix ι ι ℂ) (hS : Contracts S)
    (h : LoopsAbsorb (cx C 0) S) (l : List ι) (hl : l.Nodup) : (1 - pick (cx C 0) l l * pick S l l).det ≠ 0 := by
  obtain ⟨φ, hφ⟩ := loops_rank h
  intro hdet
  obtain ⟨x, hx, hx0⟩ := Matrix.exists_mulVec_eq_zero_iff.2 hdet
  apply hx
  rw [Matrix.sub_mulVec, Matrix.one_mulVec, sub_eq_zero, ← Matrix.mulVec_mulVec] at hx0
  have hinj : Function.Injective l.get := List.nodup_iff_injective_get.1 hl
  let ext (y : Fin l.length → ℂ) (i : ι) : ℂ := ∑ k, if l.get k = i then y k else 0
  have ext_get : ∀ y k, ext y (l.get k) = y k := by
    intro y k
    show (∑ k', if l.get k' = l.get k then y k' else 0) = _
    rw [Finset.sum_eq_single k]
    · simp
    · intro k' _ hk'
      rw [if_neg fun e => hk' (hinj e)]
    · simp
  have ext_out : ∀ y i, (∀ k, l.get k ≠ i) → ext y i = 0 := fun y i hi => Finset.sum_eq_zero fun k _ => if_neg (hi k)
  have hpick : ∀ (M : Matrix ι ι ℂ) y k, (pick M l l *ᵥ y) k = (M *ᵥ ext y) (l.get k) := by
    intro M y k
    simp only [pick, Matrix.mulVec, dotProduct, Matrix.submatrix_apply, ext]
    simp only [Finset.mul_sum, mul_ite, mul_zero]
    rw [Finset.sum_comm]
    refine Finset.sum_congr rfl fun k' _ => ?_
    simp
  have le_ext : ∀ (y : Fin l.length → ℂ) (v : ι → ℂ), (∀ k, y k = v (l.get k)) → power (ext y) ≤ power v := by
    intro y v hy
    refine Finset.sum_le_sum fun i _ => ?_
    by_cases hi : ∃ k, l.get k = i
    · obtain ⟨k, rfl⟩ := hi
      rw [ext_get, hy]
    · rw [ext_out y i (by push Not at hi; exact hi), Complex.normSq_zero]
      exact Complex.normSq_nonneg _
  set u := ext x with hu
  set y := pick S l l *ᵥ x with hy
  have h1 : power u ≤ power (ext y) := by
    rw [← power_paired hC (ext y)]
    refine le_ext x _ fun k => ?_
    rw [← hpick]
    exact congrFun hx0 k
  have h2 : power (ext y) ≤ power (S *ᵥ u) := le_ext y _ fun k => hpick S x k
  have heq : power (S *ᵥ u) = power u := le_antisymm (hS u) (h1.trans h2)
  have key : ∀ n k, φ (l.get k) < n → x k = 0 := by
    intro n
    induction n with
    | zero => intro k hk; omega
    | succ n ih =>
      intro k hk
      rw [hx0, hy, Matrix.mulVec_mulVec]
      simp only [Matrix.mulVec, dotProduct]
      refine Finset.sum_eq_zero fun j _ => ?_
      by_cases hM : (pick (cx C 0) l l * pick S l l) k j = 0
      · rw [hM, zero_mul]
      · rw [Matrix.mul_apply] at hM
        obtain ⟨m, -, hm⟩ := Finset.exists_ne_zero_of_sum_ne_zero hM
        have hxj : x j = 0 := by
          rcases hφ (l.get k) (l.get m) (l.get j) (left_ne_zero_of_mul hm) (right_ne_zero_of_mul hm) with ha | ha
          · have := ha u heq
            rwa [hu, ext_get] at this
          · exact ih j (by omega)
        rw [hxj, mul_zero]
  funext k
  exact key _ k (Nat.lt_succ_self _)

end

/-- Ports of components that absorb absorb. -/
theorem absorbsAt_of_part {d : Dev} {L : List Part} (hL : Flat d L) (hP : ∀ p ∈ L, ∀ wl, Contracts (scattering p wl)) (v : ℝ)
    (wl : W → ℝ) (w : W) (j : Fin d.comp.n) {k : ℕ} {p : Part} {i' : ℕ} (hj : partAt L j = some (k, p, i')) (hp : Absorbs p) :
    AbsorbsAt (cx ((d.plant v wl).rS w) ((d.plant v wl).iS w)) j := by
  intro u hu
  rw [plant_power hL] at hu
  have hdark := (block_absorbed (wl w) L (fun p hp => hP p hp _) _).2 (hu.trans (sum_extend hL _ u).symm) j k p i' hj hp
  simpa using hdark

/-- C85. A fully terminated passive circuit in which light that comes back to where it was has been absorbed in part can be
initialized in every environment, and is damped (so that C82 and C83 apply to it). -/
theorem C85_loops (d : Dev) (hM : MadeOf (fun p => ∀ wl, Contracts (scattering p wl)) d) (ht : d.comp.terminated = true)
    (v : ℝ) (wl : W → ℝ) (hm : ∃ i, ((d.plant v wl).src i || (d.plant v wl).det i) = true)
    (hloop : ∀ w, LoopsAbsorb (cx (d.plant v wl).C 0) (cx ((d.plant v wl).rS w) ((d.plant v wl).iS w))) :
    (∀ env, ∃ r, initNet (d.plant v wl) env = .ok (some r)) ∧
    ∀ dt w, Damped (cx (d.plant v wl).C 0) (cx ((d.plant v wl).rS w) ((d.plant v wl).iS w)) (circuitDelay d v wl dt) := by
  obtain ⟨hc, L, hP, hL⟩ := madeOf_flat hM
  obtain ⟨i, hi⟩ := hm
  refine ⟨fun env => C26_initialized _ env (plant_terminated hc ht v wl) ⟨i, mcAt_of_marked _ _ i hi⟩ fun w => ?_, fun dt w => ?_⟩
  · exact pick_nonresonant (plant_paired hc ht v wl) _ (plant_contracts hL v wl hP w) (hloop w) _ ((List.nodup_finRange _).filter _)
  · exact damped_of_loops (plant_paired hc ht v wl) _ (plant_contracts hL v wl hP w) _ (hloop w)

/-- C85: if every component absorbs, there is nothing to check. -/
theorem C85_absorbing (d : Dev) (hM : MadeOf (fun p => (∀ wl, Contracts (scattering p wl)) ∧ Absorbs p) d)
    (v : ℝ) (wl : W → ℝ) (w : W) : LoopsAbsorb (cx (d.plant v wl).C 0) (cx ((d.plant v wl).rS w) ((d.plant v wl).iS w)) := by
  obtain ⟨hc, L, hP, hL⟩ := madeOf_flat hM
  have hno : ∀ i j, ¬Passes (cx (d.plant v wl).C 0) (cx ((d.plant v wl).rS w) ((d.plant v wl).iS w)) i j := by
    intro i j h
    obtain ⟨k, p, i', hi, hmem, -⟩ := plant_port hL v wl i
    exact h.1 (absorbsAt_of_part hL (fun p hp => (hP p hp).1) v wl w i hi (hP p hmem).2)
  intro i h
  cases h with
  | single h => exact hno _ _ h
  | tail _ h => exact hno _ _ h

theorem dark_of_power {n : ℕ} {u : Fin n → ℂ} (h : power u = 0) : u = 0 := by
  funext i
  have := (Finset.sum_eq_zero_iff_of_nonneg fun i _ => Complex.normSq_nonneg (u i)).1 h i (Finset.mem_univ i)
  exact Complex.normSq_eq_zero.1 this

/-- Sources, detectors and terms absorb everything. -/
theorem end_absorbs : Absorbs .source ∧ Absorbs .detector ∧ Absorbs .term := by
  have key : ∀ (S : Matrix (Fin 1) (Fin 1) ℂ), S = 0 → ∀ u, power (S *ᵥ u) = power u → u = 0 := by
    rintro S rfl u hu
    rw [Matrix.zero_mulVec] at hu
    exact dark_of_power (hu.symm.trans (by simp [power]))
  refine ⟨fun wl => key _ ?_, fun wl => key _ ?_, fun wl => key _ ?_⟩ <;> (unfold scattering cx; ext i j; rfl)

theorem longCoupler_absorbs (l k loss neff wl0 ng φ : ℝ) (h0 : 0 ≤ k) (h1 : k ≤ 1) (h : 0 < loss * l) :
    Absorbs (.longCoupler l k loss neff wl0 ng φ) := by
  intro wl u hu
  rw [C44_coupler_partial _ _ _ _ _ _ _ _ h0 h1] at hu
  have h1 := remaining_lt loss l h
  refine dark_of_power ?_
  have : 0 ≤ power u := Finset.sum_nonneg fun i _ => Complex.normSq_nonneg _
  nlinarith

/-- The class name of a ring network in lower case. -/
def ringCls : Str := ['r', 'i', 'n', 'g', 'n', 'e', 't', 'w', 'o', 'r', 'k']

/-- C85 for ring networks: ring networks of every even size and capacity, made of components that absorb and terminated by
sources and detectors, can be initialized in every environment and settle. -/
theorem C85_ring (N capacity : ℕ) (hN : 0 < N) (heven : N % 2 = 0) (hc : 2 ≤ capacity) (mz wg : ℕ → ℕ → Part)
    (hm : ∀ m i, ((∀ wl, Contracts (scattering (mz m i) wl)) ∧ Absorbs (mz m i)) ∧ (mz m i).n = 4)
    (hw : ∀ m i, ((∀ wl, Contracts (scattering (wg m i) wl)) ∧ Absorbs (wg m i)) ∧ (wg m i).n = 2) (newName : Str) :
    ∃ d d', ring N capacity mz wg = .ok d ∧ termDev newName ringCls d (meshTerms N) = .ok d' ∧
      ∀ (W B : Type) (v : ℝ) (wl : W → ℝ) (amp : ℕ → W → B → ℝ × ℝ), (∀ env, ∃ r, initNet (d'.plant v wl) env = .ok (some r)) ∧
        ∃ r o, initNet (d'.plant v wl) ⟨none, true, [0]⟩ = .ok (some r) ∧
          forwardReduced r ⟨none, true, [0]⟩ [] (fun _ => amp) = .ok [o] ∧
          ∀ dt, 0 < dt → ∀ w b ε, 0 < ε → ∃ M, ∀ ts, ∃ r out, initNet (d'.plant v wl) ⟨some dt, false, ts⟩ = .ok (some r) ∧
            forwardReduced r ⟨some dt, false, ts⟩ [] (fun _ => amp) = .ok out ∧ out.length = ts.length ∧
            ∀ t (h : t < out.length), M ≤ t → CloseUpTo ε 1 (out[t] w b) (o w b) := by
  obtain ⟨d, devs, h1, -, -, h⟩ := ring_made (P := fun p => (∀ wl, Contracts (scattering p wl)) ∧ Absorbs p) hN heven hc hm hw
  have hlen := h.len
  rw [ioList_length] at hlen
  obtain ⟨d', hd', hmade, hterm, -, hdet⟩ := term_any
    (P := fun p => (∀ wl, Contracts (scattering p wl)) ∧ Absorbs p)
    ⟨C65_contracts_partial .source trivial (by simp), end_absorbs.1⟩
    ⟨C65_contracts_partial .detector trivial (by simp), end_absorbs.2.1⟩ hN ⟨h.made, hlen⟩ ringCls newName (attr_of (by decide)).1
    (by decide) (by decide)
  refine ⟨d, d', h1, hd', fun W B v wl amp => ?_⟩
  have hM := hmade.made.mono (Q := fun p => ∀ wl, Contracts (scattering p wl)) fun p hp => hp.1
  have hl : d'.comp.det.length = d'.comp.n := (built_marks hM.ok.1).2.1
  have hne : portsWith (d'.plant v wl).det ≠ [] := by
    intro h0
    have hc := count_marks d'.comp.det d'.comp.n hl
    rw [show (portsWith fun i : Fin d'.comp.n => d'.comp.det.getD i false) = [] from h0, hdet] at hc
    simp only [List.length_nil] at hc
    omega
  obtain ⟨i, hi⟩ := List.exists_mem_of_ne_nil _ hne
  have hi' : (d'.plant v wl).det i = true := by
    simp only [portsWith, List.mem_filter] at hi
    exact hi.2
  obtain ⟨hinit, hdamp⟩ := C85_loops d' hM hterm v wl ⟨i, by rw [hi', Bool.or_true]⟩ (C85_absorbing d' hmade.made v wl)
  refine ⟨hinit, ?_⟩
  obtain ⟨r, o, hr, ho, -⟩ := C82_settles (B := B) d' hM hterm v wl 1 one_pos hne (hdamp 1) ⟨none, true, [0]⟩ rfl rfl [] amp
  refine ⟨r, o, hr, ho, fun dt hdt w b ε hε => ?_⟩
  obtain ⟨r2, o2, hr2, ho2, hset⟩ := C82_settles (B := B) d' hM hterm v wl dt hdt hne (hdamp dt) ⟨none, true, [0]⟩ rfl rfl [] amp
  rw [hr] at hr2
  cases hr2
  rw [ho] at ho2
  cases ho2
  obtain ⟨M, hM⟩ := hset w b ε hε
  refine ⟨M, fun ts => ?_⟩
  obtain ⟨r', hr'⟩ := hinit ⟨some dt, false, ts⟩
  obtain ⟨out, k1, k2, k3⟩ := hM ts r' [] hr'
  exact ⟨r', out, hr', k1, k2, k3⟩

/-- A ring network of couplers and waveguides with loss. -/
example : ∃ d d', ring 4 5 (fun m i => .longCoupler 1e-5 (1 / (m + i + 2)) 100 2.34 1.55e-6 3.4 0)
    (fun _ i => .waveguide 1e-5 100 2.34 1.55e-6 3.4 i) = .ok d ∧ termDev [] ringCls d (meshTerms 4) = .ok d' ∧
      ∀ (v : ℝ) (wl : Unit → ℝ) env, ∃ r, initNet (d'.plant v wl) env = .ok (some r) := by
  have hk : ∀ m i : ℕ, (0 : ℝ) ≤ 1 / (m + i + 2) ∧ (1 : ℝ) / (m + i + 2) ≤ 1 := by
    intro m i
    refine ⟨by positivity, ?_⟩
    rw [div_le_one (by positivity)]
    have : (0 : ℝ) ≤ m := by positivity
    have : (0 : ℝ) ≤ i := by positivity
    linarith
  obtain ⟨d, d', h1, h2, h3⟩ := C85_ring 4 5 (by omega) (by omega) (by omega)
    (fun m i => .longCoupler 1e-5 (1 / (m + i + 2)) 100 2.34 1.55e-6 3.4 0) (fun _ i => .waveguide 1e-5 100 2.34 1.55e-6 3.4 i)
    (fun m i => ⟨⟨C65_contracts_partial _ ⟨(hk m i).1, (hk m i).2, by norm_num⟩ (by simp), longCoupler_absorbs _ _ _ _ _ _ _ (hk m i).1 (hk m i).2 (by norm_num)⟩, rfl⟩)
    (fun m i => ⟨⟨C65_contracts_partial _ (by constructor <;> norm_num) (by simp), waveguide_absorbs _ _ _ _ _ _ (by norm_num)⟩, rfl⟩) []
  exact ⟨d, d', h1, h2, fun v wl => (h3 Unit Unit v wl fun _ _ _ => (1, 0)).1⟩

theorem exRing_flat (d : Dev) (hd : mkDev none exRingDevs (exRingCs.map Conn.text) = .ok d) :
    Flat d [.source, .coupler 0.3, .detector, exRingWg] := by
  have hk : okAnd (mkNet none exRingComps (exRingCs.map Conn.text)) (fun c =>
      decide (c.n = 8) && decide (c.src = [true, false, false, false, false, false, false, false]) &&
      decide (c.det = [false, false, false, false, false, true, false, false]) && decide (c.act = List.replicate 8 false)) = true := by
    decide +kernel
  obtain ⟨c, hc, hk⟩ := okAnd_iff.mp hk
  simp only [Bool.and_eq_true, decide_eq_true_eq] at hk
  obtain ⟨⟨⟨k1, k2⟩, k3⟩, k4⟩ := hk
  have hu : usedDevs exRingDevs (usedNames ((exRingCs.map Conn.text).map stripConn)) =
      [(['s'], Part.source.dev), (['c'], (Part.coupler 0.3).dev), (['d'], Part.detector.dev), (['w'], exRingWg.dev)] := by
    have h : usedNames ((exRingCs.map Conn.text).map stripConn) = [['s'], ['c'], ['d'], ['w']] := by decide +kernel
    rw [h]
    rfl
  unfold mkDev at hd
  rw [hu, show mkNet none (exRingDevs.map fun p => (p.1, p.2.comp)) (exRingCs.map Conn.text) = .ok c from hc] at hd
  cases hd
  exact ⟨k1, fun _ => rfl, fun _ => rfl, fun _ => rfl, k2, k3, k4⟩

/-- The ring of `exRing_net` can be initialized and is damped, whatever its delay and the time step are: its waveguide absorbs, and
light passes the coupler only once before it reaches the waveguide or one of the ends. -/
example (v : ℝ) (wl : W → ℝ) : ∃ d, mkDev none exRingDevs (exRingCs.map Conn.text) = .ok d ∧
    (∀ env, ∃ r, initNet (d.plant v wl) env = .ok (some r)) ∧
    ∀ dt w, Damped (cx (d.plant v wl).C 0) (cx ((d.plant v wl).rS w) ((d.plant v wl).iS w)) (circuitDelay d v wl dt) := by
  obtain ⟨d, hd, hn, h0, h5, ht, hC, -⟩ := exRing_dev
  have hM := exRing_made (fun p => (∀ wl, Contracts (scattering p wl)) ∧ (p = .coupler 0.3 ∨ Absorbs p))
    ⟨C65_contracts_partial .source trivial (by simp), .inr end_absorbs.1⟩
    ⟨C65_contracts_partial .detector trivial (by simp), .inr end_absorbs.2.1⟩
    ⟨C65_contracts_partial _ (by constructor <;> norm_num) (by simp), .inl rfl⟩
    ⟨C65_contracts_partial exRingWg (by constructor <;> norm_num) (by simp [exRingWg]), .inr (waveguide_absorbs _ _ _ _ _ _ (by norm_num))⟩
    d hd
  have hL := exRing_flat d hd
  have hM' := hM.mono (Q := fun p => ∀ wl, Contracts (scattering p wl)) fun p hp => hp.1
  have hP : ∀ p ∈ [Part.source, .coupler 0.3, .detector, exRingWg], ∀ wl, Contracts (scattering p wl) := by
    intro p hp
    simp only [List.mem_cons, List.not_mem_nil, or_false] at hp
    rcases hp with rfl | rfl | rfl | rfl
    · exact C65_contracts_partial .source trivial (by simp)
    · exact C65_contracts_partial _ (by constructor <;> norm_num) (by simp)
    · exact C65_contracts_partial .detector trivial (by simp)
    · exact C65_contracts_partial exRingWg (by constructor <;> norm_num) (by simp [exRingWg])
  have habs : ∀ w (i : Fin d.comp.n), i.val = 0 ∨ i.val = 5 ∨ i.val = 6 ∨ i.val = 7 →
      AbsorbsAt (cx ((d.plant v wl).rS w) ((d.plant v wl).iS w)) i := by
    intro w i hi
    rcases hi with h | h | h | h
    · exact absorbsAt_of_part hL hP v wl w i (p := .source) (k := 0) (i' := 0) (by rw [h]; rfl) end_absorbs.1
    · exact absorbsAt_of_part hL hP v wl w i (p := .detector) (k := 2) (i' := 0) (by rw [h]; rfl) end_absorbs.2.1
    · exact absorbsAt_of_part hL hP v wl w i (p := exRingWg) (k := 3) (i' := 0) (by rw [h]; rfl)
        (waveguide_absorbs _ _ _ _ _ _ (by norm_num))
    · exact absorbsAt_of_part hL hP v wl w i (p := exRingWg) (k := 3) (i' := 1) (by rw [h]; rfl)
        (waveguide_absorbs _ _ _ _ _ _ (by norm_num))
  refine ⟨d, hd, C85_loops d hM' ht v wl ⟨⟨0, by show 0 < d.comp.n; omega⟩, by
    show (d.comp.src.getD 0 false || d.comp.det.getD 0 false) = true
    rw [h0]; rfl⟩ fun w => ?_⟩
  have hend : ∀ j i : Fin d.comp.n, Passes (cx (d.plant v wl).C 0) (cx ((d.plant v wl).rS w) ((d.plant v wl).iS w)) j i →
      AbsorbsAt (cx ((d.plant v wl).rS w) ((d.plant v wl).iS w)) i := by
    rintro j i ⟨hj, k, hS, hCk⟩
    have hj' := mt (habs w j) hj
    have hlt := j.2
    have hlt' := k.2
    have hk : ¬(k.val = 0 ∨ k.val = 5 ∨ k.val = 6 ∨ k.val = 7) := by
      intro hk
      apply hS
      rw [plant_S hL]
      have hj1 : j.val = 1 ∨ j.val = 2 ∨ j.val = 3 ∨ j.val = 4 := by omega
      have hpart : ∀ m, m = 1 ∨ m = 2 ∨ m = 3 ∨ m = 4 →
          ∃ j', partAt [Part.source, .coupler 0.3, .detector, exRingWg] m = some (1, .coupler 0.3, j') := by
        rintro m (rfl | rfl | rfl | rfl)
        · exact ⟨0, rfl⟩
        · exact ⟨1, rfl⟩
        · exact ⟨2, rfl⟩
        · exact ⟨3, rfl⟩
      have hpart' : ∀ m, m = 0 ∨ m = 5 ∨ m = 6 ∨ m = 7 →
          ∃ n p i', partAt [Part.source, .coupler 0.3, .detector, exRingWg] m = some (n, p, i') ∧ n ≠ 1 := by
        rintro m (rfl | rfl | rfl | rfl)
        · exact ⟨0, _, _, rfl, by decide⟩
        · exact ⟨2, _, _, rfl, by decide⟩
        · exact ⟨3, _, _, rfl, by decide⟩
        · exact ⟨3, _, _, rfl, by decide⟩
      obtain ⟨j', hj'⟩ := hpart _ hj1
      obtain ⟨n, p, i', hi', hne⟩ := hpart' _ hk
      exact (cxBlock_partAt _ (wl w) hi' hj').1 hne
    have hC' : d.comp.C i k ≠ 0 := by
      intro h
      apply hCk
      apply Complex.ext
      · show ((d.comp.C _ _ : ℚ) : ℝ) = 0
        rw [h]; norm_num
      · rfl
    have := hC i k hC'
    exact habs w i (by omega)
  intro i hi
  cases hi with
  | single h => exact h.1 (hend _ _ h)
  | tail h1 h2 =>
    cases h1 with
    | single h => exact h2.1 (hend _ _ h)
    | tail _ h => exact h2.1 (hend _ _ h)

end PT
