import Verif.Proof.Depth
import Verif.Props.SensitiveMesh
import Verif.Props.SensitiveTime

/-! C151: Reck and Clements networks of every size in floating-point arithmetic. -/

namespace PT
open Spec Matrix

variable {W : Type}

namespace Sens

/-- Both domains at once. -/
theorem mesh_both [Nonempty W] {m : Libm} (hm : Accurate m) (T : ℝ) (hT : 0 ≤ T) (wl : W → ℝ)
    (rnd : (p : Part) → ℝ → Matrix (Fin p.n) (Fin p.n) ℂ) (hend : ∀ p, p = .source ∨ p = .detector → ∀ wl, rnd p wl = 0) (d : Dev)
    (hM : MadeOf (fun p => ∀ w, IsComputed m T (wl w) p (rnd p (wl w))) d) (ht : d.comp.terminated = true) (front : ℕ → Bool) (rank : ℕ → ℕ)
    (hff : FeedForward d front rank) (D : ℕ) (hD : ∀ i < d.comp.n, rank i ≤ D) (v : ℝ) (hd : portsWith (d.plant v wl).det ≠ [])
    (dt : ℝ) (hdt : 0 < dt) (δ : ℝ) (hδ : δ = 4 * (T / 2 ^ 47 + 1 / 2 ^ 17)) (hs : (D + 1) * δ < 1) :
    ∃ (L : List Part) (at_ : Fin d.comp.n → ℕ × ℕ),
      BlockWise scattering wl L at_ (fun w => cx ((d.plant v wl).rS w) ((d.plant v wl).iS w)) ∧
      (∃ S', BlockWise rnd wl L at_ S') ∧
      ∀ S', BlockWise rnd wl L at_ S' →
        ResultsWithin ((D + 2) * δ / (1 - (D + 1) * δ)) (d.plant v wl) (withS (d.plant v wl) S') ∧
        RunsWithin ((D + 2) * δ / (1 - (D + 1) * δ)) dt (d.plant v wl) (withS (d.plant v wl) S') := by
  obtain ⟨w₀⟩ := ‹Nonempty W›
  have h0 : 0 ≤ T / 2 ^ 47 + 1 / 2 ^ 17 := by positivity
  obtain ⟨L, at_, -, h1, h2, h3⟩ := C149_components _ d hM v wl (T / 2 ^ 47 + 1 / 2 ^ 17) 4 h0
    (fun p hp => Sens.computed_small p _ (hp w₀)) rnd hend fun p hp w i j => Sens.computed_near hm p _ (hp w) hT i j
  refine ⟨L, at_, h1, h2, fun S' hS' => ?_⟩
  obtain ⟨h4, h5, h6⟩ := h3 S' hS'
  have hM' : MadeOf (fun p => ∀ wl, Contracts (scattering p wl)) d := by
    clear hff hD hd ht h1 h2 h3 h4 h5 h6 hS' S' at_ L
    induction hM with
    | part p hp h => exact .part p (Sens.computed_contracts p _ (hp w₀)) h
    | named d x _ ih => exact .named d x ih
    | net name modules cs d _ hg hu hc h ih => exact .net name modules cs d ih hg hu hc h
  have key := C149_feedforward d hM' ht front rank hff D hD v wl hd
    (T / 2 ^ 47 + 1 / 2 ^ 17) 4 h0 (by rw [hδ] at hs; exact_mod_cast hs) S' h4 h6
  have key' := C150_feedforward d hM' ht front rank hff D hD v wl hd dt hdt
    (T / 2 ^ 47 + 1 / 2 ^ 17) 4 h0 (by rw [hδ] at hs; exact_mod_cast hs) S' h4 h5 h6
  rw [hδ]
  exact ⟨by exact_mod_cast key, by exact_mod_cast key'⟩

/-- A terminated mesh of `K + 1` columns. -/
theorem mesh_rounded [Nonempty W] {m : Libm} (hm : Accurate m) (T : ℝ) (hT : 0 ≤ T) (wl : W → ℝ)
    (rnd : (p : Part) → ℝ → Matrix (Fin p.n) (Fin p.n) ℂ) (hend : ∀ p, p = .source ∨ p = .detector → ∀ wl, rnd p wl = 0)
    {N : ℕ} (hN : 0 < N) {d : Dev}
    (hd : LayerOK (fun p => (∀ w, IsComputed m T (wl w) p (rnd p (wl w))) ∧ p ≠ .source ∧ p ≠ .detector) N d) {K : ℕ}
    (ho : ∃ rk, OrientedAt K d (fun j => decide (j < N)) rk) (nw newName : Str) (hg : GoodName nw)
    (hs : nw.head? ≠ some 's') (hdd : nw.head? ≠ some 'd') (v dt : ℝ) (hdt : 0 < dt) (δ : ℝ)
    (hδ : δ = 4 * (T / 2 ^ 47 + 1 / 2 ^ 17)) (hsm : (K + 3) * δ < 1) :
    ∃ d', termDev newName nw d (meshTerms N) = .ok d' ∧ d'.comp.terminated = true ∧ (portsWith (d'.plant v wl).det).length = N ∧
      ∃ (L : List Part) (at_ : Fin d'.comp.n → ℕ × ℕ),
        BlockWise scattering wl L at_ (fun w => cx ((d'.plant v wl).rS w) ((d'.plant v wl).iS w)) ∧
        (∃ S', BlockWise rnd wl L at_ S') ∧
        ∀ S', BlockWise rnd wl L at_ S' →
          ResultsWithin ((K + 4) * δ / (1 - (K + 3) * δ)) (d'.plant v wl) (withS (d'.plant v wl) S') ∧
          RunsWithin ((K + 4) * δ / (1 - (K + 3) * δ)) dt (d'.plant v wl) (withS (d'.plant v wl) S') := by
  obtain ⟨d', h1, hM, ht, ⟨front, rank, hff, hrank⟩, hdet⟩ := term_deep (fun p hp => hp.2) hN hd ho nw newName hg hs hdd
  have hdl : (portsWith (d'.plant v wl).det).length = N := by rw [← hdet]; exact count_marks _ _ (built_marks hM.ok.1).2.1
  have hM' : MadeOf (fun p => ∀ w, IsComputed m T (wl w) p (rnd p (wl w))) d' := by
    refine hM.mono fun p hp w => ?_
    rcases hp with rfl | rfl | hp
    · exact hend _ (.inl rfl) _
    · exact hend _ (.inr rfl) _
    · exact hp.1 w
  have e1 : (((K + 2 : ℕ) : ℝ) + 1) = K + 3 := by push_cast; ring
  have e2 : (((K + 2 : ℕ) : ℝ) + 2) = K + 4 := by push_cast; ring
  have key := mesh_both hm T hT wl rnd hend d' hM' ht front rank hff (K + 2) hrank v
    (fun h => by rw [h] at hdl; simp at hdl; omega) dt hdt δ hδ (by rw [e1]; exact hsm)
  rw [e1, e2] at key
  exact ⟨d', h1, ht, hdl, key⟩

theorem four_end {p : Part} (h : FourPort p) : p ≠ .source ∧ p ≠ .detector := by
  constructor
  · rintro rfl; exact absurd h.1 (by show (1 : ℕ) ≠ 4; decide)
  · rintro rfl; exact absurd h.1 (by show (1 : ℕ) ≠ 4; decide)

theorem two_end {p : Part} (h : TwoPort p) : p ≠ .source ∧ p ≠ .detector := by
  constructor
  · rintro rfl; exact absurd h.1 (by show (1 : ℕ) ≠ 2; decide)
  · rintro rfl; exact absurd h.1 (by show (1 : ℕ) ≠ 2; decide)

end Sens

/-- C151. Clements networks of every size and capacity, with sources and detectors: if `rnd` gives for each component the matrix that is
computed in floating-point arithmetic, what the detectors see is wrong by single precision times `capacity + 4`, however many modes there
are, in the frequency domain and in the time domain. -/
theorem C151_clements [Nonempty W] {m : Libm} (hm : Accurate m) (N capacity : ℕ) (hN : 2 ≤ N) (hc : 2 ≤ capacity) (T : ℝ) (hT : 0 ≤ T)
    (wl : W → ℝ) (rnd : (p : Part) → ℝ → Matrix (Fin p.n) (Fin p.n) ℂ) (hend : ∀ p, p = .source ∨ p = .detector → ∀ wl, rnd p wl = 0)
    (mz wg : ℕ → ℕ → Part) (hmz : ∀ k i, FourPort (mz k i) ∧ ∀ w, IsComputed m T (wl w) (mz k i) (rnd (mz k i) (wl w)))
    (hwg : ∀ k i, TwoPort (wg k i) ∧ ∀ w, IsComputed m T (wl w) (wg k i) (rnd (wg k i) (wl w))) (newName : Str) (v dt : ℝ) (hdt : 0 < dt)
    (δ : ℝ) (hδ : δ = 4 * (T / 2 ^ 47 + 1 / 2 ^ 17)) (hs : (capacity + 3) * δ < 1) :
    ∃ d d', clements N capacity mz wg = .ok d ∧ termDev newName clementsCls d (meshTerms N) = .ok d' ∧ d'.comp.terminated = true ∧
      (portsWith (d'.plant v wl).det).length = N ∧ ∃ (L : List Part) (at_ : Fin d'.comp.n → ℕ × ℕ),
        BlockWise scattering wl L at_ (fun w => cx ((d'.plant v wl).rS w) ((d'.plant v wl).iS w)) ∧
        (∃ S', BlockWise rnd wl L at_ S') ∧
        ∀ S', BlockWise rnd wl L at_ S' →
          ResultsWithin ((capacity + 4) * δ / (1 - (capacity + 3) * δ)) (d'.plant v wl) (withS (d'.plant v wl) S') ∧
          RunsWithin ((capacity + 4) * δ / (1 - (capacity + 3) * δ)) dt (d'.plant v wl) (withS (d'.plant v wl) S') := by
  obtain ⟨d, h, hd, ho⟩ := clements_deep
    (P := fun p => (∀ w, IsComputed m T (wl w) p (rnd p (wl w))) ∧ p ≠ .source ∧ p ≠ .detector) hN hc
    (fun k i => ⟨⟨(hmz k i).2, Sens.four_end (hmz k i).1⟩, (hmz k i).1⟩) (fun k i => ⟨⟨(hwg k i).2, Sens.two_end (hwg k i).1⟩, (hwg k i).1⟩)
  obtain ⟨d', h'⟩ := Sens.mesh_rounded hm T hT wl rnd hend (by omega) hd ho clementsCls newName (attr_of (by decide)).1 (by decide)
    (by decide) v dt hdt δ hδ hs
  exact ⟨d, d', h, h'⟩

/-- C151. Likewise for Reck networks: the path of light through `N` modes is at most `2 * N - 1` components long. -/
theorem C151_reck [Nonempty W] {m : Libm} (hm : Accurate m) (N : ℕ) (hN : 2 ≤ N) (T : ℝ) (hT : 0 ≤ T)
    (wl : W → ℝ) (rnd : (p : Part) → ℝ → Matrix (Fin p.n) (Fin p.n) ℂ) (hend : ∀ p, p = .source ∨ p = .detector → ∀ wl, rnd p wl = 0)
    (mz : ℕ → ℕ → Part) (wg : ℕ → Part) (hmz : ∀ k i, FourPort (mz k i) ∧ ∀ w, IsComputed m T (wl w) (mz k i) (rnd (mz k i) (wl w)))
    (hwg : ∀ k, TwoPort (wg k) ∧ ∀ w, IsComputed m T (wl w) (wg k) (rnd (wg k) (wl w))) (newName : Str) (v dt : ℝ) (hdt : 0 < dt)
    (δ : ℝ) (hδ : δ = 4 * (T / 2 ^ 47 + 1 / 2 ^ 17)) (hs : (2 * N + 1) * δ < 1) :
    ∃ d d', reck N mz wg = .ok d ∧ termDev newName reckCls d (meshTerms N) = .ok d' ∧ d'.comp.terminated = true ∧
      (portsWith (d'.plant v wl).det).length = N ∧ ∃ (L : List Part) (at_ : Fin d'.comp.n → ℕ × ℕ),
        BlockWise scattering wl L at_ (fun w => cx ((d'.plant v wl).rS w) ((d'.plant v wl).iS w)) ∧
        (∃ S', BlockWise rnd wl L at_ S') ∧
        ∀ S', BlockWise rnd wl L at_ S' →
          ResultsWithin ((2 * N + 2) * δ / (1 - (2 * N + 1) * δ)) (d'.plant v wl) (withS (d'.plant v wl) S') ∧
          RunsWithin ((2 * N + 2) * δ / (1 - (2 * N + 1) * δ)) dt (d'.plant v wl) (withS (d'.plant v wl) S') := by
  obtain ⟨d, h, hd, ho⟩ := reck_deep
    (P := fun p => (∀ w, IsComputed m T (wl w) p (rnd p (wl w))) ∧ p ≠ .source ∧ p ≠ .detector) hN
    (fun k i => ⟨⟨(hmz k i).2, Sens.four_end (hmz k i).1⟩, (hmz k i).1⟩) (fun k => ⟨⟨(hwg k).2, Sens.two_end (hwg k).1⟩, (hwg k).1⟩)
  have e : ((2 * N - 2 : ℕ) : ℝ) = 2 * N - 2 := by
    rw [Nat.cast_sub (by omega)]; push_cast; ring
  have e3 : ((2 * N - 2 : ℕ) : ℝ) + 3 = 2 * N + 1 := by rw [e]; ring
  have e4 : ((2 * N - 2 : ℕ) : ℝ) + 4 = 2 * N + 2 := by rw [e]; ring
  have key := Sens.mesh_rounded hm T hT wl rnd hend (by omega) hd ho reckCls newName (attr_of (by decide)).1 (by decide)
    (by decide) v dt hdt δ hδ (by rw [e3]; exact hs)
  rw [e3, e4] at key
  obtain ⟨d', h'⟩ := key
  exact ⟨d, d', h, h'⟩

namespace Sens

/-- The components of the examples: Mzis with arms of 10 µm, waveguides of 10 µm with some loss. -/
noncomputable def exMzi : Part := .mzi 1 2 2.34 3.4 1.55e-6 1e-5 0
noncomputable def exWg : Part := .waveguide 1e-5 100 2.34 1.55e-6 3.4 1

/-- The matrices computed for them. -/
noncomputable def exMesh (m : Libm) : (p : Part) → ℝ → Matrix (Fin p.n) (Fin p.n) ℂ
  | .mzi .., _ => computed (mziR fl fl32 m 1 2 (1 / 10 ^ 5) (234 / 100) (155 / 10 ^ 8) (34 / 10) (15 / 10 ^ 7))
  | .waveguide .., _ => Matrix.of fun i j => if i = j then 0 else
      pairComplex (waveguideR fl fl32 m (1 / 10 ^ 5) 100 (234 / 100) (155 / 10 ^ 8) (34 / 10) (phaseStoredR fl 1) (15 / 10 ^ 7))
  | _, _ => 0

theorem ex_turn (loss phase : ℚ) : turn (waveguideOf (1 / 10 ^ 5) loss (234 / 100) (155 / 10 ^ 8) (34 / 10) phase) ((15 / 10 ^ 7 : ℚ) : ℝ) ≤ 1000 := by
  have hpi := Real.pi_lt_four
  have hpi0 := Real.pi_pos
  have e : turn (waveguideOf (1 / 10 ^ 5) loss (234 / 100) (155 / 10 ^ 8) (34 / 10) phase) ((15 / 10 ^ 7 : ℚ) : ℝ) ≤
      2 * Real.pi * (3 * (20 / 3)) := by
    unfold turn waveguideOf
    norm_num [abs_of_pos, abs_of_neg]
    nlinarith
  linarith

theorem exMzi_ok (m : Libm) : FourPort exMzi ∧ ∀ _ : Unit, IsComputed m 1000 1.5e-6 exMzi (exMesh m exMzi 1.5e-6) :=
  ⟨(mzi_four ..).2, fun _ => ⟨1, 2, 234 / 100, 34 / 10, 155 / 10 ^ 8, 1 / 10 ^ 5, 0, 15 / 10 ^ 7,
    ⟨by norm_num, by norm_num, by norm_num, by norm_num, by norm_num, by norm_num, by norm_num, by norm_num⟩,
    by constructor <;> norm_num [abs_of_pos], by norm_num, by norm_num, ex_turn 0 0, rfl⟩⟩

theorem exWg_ok (m : Libm) : TwoPort exWg ∧ ∀ _ : Unit, IsComputed m 1000 1.5e-6 exWg (exMesh m exWg 1.5e-6) := by
  refine ⟨⟨rfl, fun wl i j h => ?_⟩, fun _ => ⟨1 / 10 ^ 5, 100, 234 / 100, 155 / 10 ^ 8, 34 / 10, 1, 15 / 10 ^ 7,
    ⟨by norm_num, by norm_num, by norm_num, by norm_num, by norm_num, by norm_num, by norm_num⟩,
    by constructor <;> norm_num [abs_of_pos], by norm_num, by norm_num, ex_turn 100 1, rfl⟩⟩
  have e := congrFun (congrFun (waveguide_shape 1e-5 100 2.34 1.55e-6 3.4 1 wl) i) j
  exact cross2_sides _ i j (ne_of_eq_of_ne e.symm h)

end Sens

/-- Not vacuous: a Clements network of 64 modes and 64 columns, computed in floating-point arithmetic, away from its reference wavelength, in
steps of 10 fs. What the detectors see is wrong by at most `1 / 400`. -/
example : ∃ (m : Libm) (d d' : Dev), Accurate m ∧ clements 64 64 (fun _ _ => Sens.exMzi) (fun _ _ => Sens.exWg) = .ok d ∧
    termDev [] clementsCls d (meshTerms 64) = .ok d' ∧ ∃ S' q, q ≤ (1 / 400 : ℝ) ∧
      ResultsWithin q (d'.plant 1 fun _ : Unit => 1.5e-6) (withS (d'.plant 1 fun _ : Unit => 1.5e-6) S') ∧
      RunsWithin q 1e-14 (d'.plant 1 fun _ : Unit => 1.5e-6) (withS (d'.plant 1 fun _ : Unit => 1.5e-6) S') := by
  obtain ⟨m, hm⟩ := exists_accurate
  obtain ⟨d, d', h1, h2, -, -, L, at_, -, ⟨S', hS'⟩, h⟩ := C151_clements hm 64 64 (by omega) (by omega) 1000 (by norm_num)
    (fun _ : Unit => 1.5e-6) (Sens.exMesh m) (by rintro p (rfl | rfl) wl <;> rfl) _ _ (fun _ _ => Sens.exMzi_ok m)
    (fun _ _ => Sens.exWg_ok m) [] 1 1e-14 (by norm_num) _ rfl (by norm_num)
  exact ⟨m, d, d', hm, h1, h2, S', _, by norm_num, h S' hS'⟩

/-- Not vacuous: a Reck network of 64 modes, wrong by at most `1 / 200`. -/
example : ∃ (m : Libm) (d d' : Dev), Accurate m ∧ reck 64 (fun _ _ => Sens.exMzi) (fun _ => Sens.exWg) = .ok d ∧
    termDev [] reckCls d (meshTerms 64) = .ok d' ∧ ∃ S' q, q ≤ (1 / 200 : ℝ) ∧
      ResultsWithin q (d'.plant 1 fun _ : Unit => 1.5e-6) (withS (d'.plant 1 fun _ : Unit => 1.5e-6) S') ∧
      RunsWithin q 1e-14 (d'.plant 1 fun _ : Unit => 1.5e-6) (withS (d'.plant 1 fun _ : Unit => 1.5e-6) S') := by
  obtain ⟨m, hm⟩ := exists_accurate
  obtain ⟨d, d', h1, h2, -, -, L, at_, -, ⟨S', hS'⟩, h⟩ := C151_reck hm 64 (by omega) 1000 (by norm_num)
    (fun _ : Unit => 1.5e-6) (Sens.exMesh m) (by rintro p (rfl | rfl) wl <;> rfl) _ _ (fun _ _ => Sens.exMzi_ok m)
    (fun _ => Sens.exWg_ok m) [] 1 1e-14 (by norm_num) _ rfl (by norm_num)
  exact ⟨m, d, d', hm, h1, h2, S', _, by norm_num, h S' hS'⟩

end PT
