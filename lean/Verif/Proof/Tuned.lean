import Verif.Proof.Smooth
import Verif.Proof.Plant
import Mathlib.Analysis.SpecialFunctions.ExpDeriv
import Mathlib.Analysis.SpecialFunctions.Sqrt
import Mathlib.Analysis.SpecialFunctions.Trigonometric.Deriv

/-! Proof support for C90: the scattering matrix of a circuit depends differentiably on its trainable parameters. -/

namespace PT
open Spec Matrix Filter Topology

variable {E : Type} [NormedAddCommGroup E] [NormedSpace ℝ E] {θ₀ : E}

/-- A scattering matrix depends differentiably on the parameters. -/
def DifS {n : ℕ} (θ₀ : E) (S : E → SMat n) : Prop :=
  ∀ i j, DifferentiableAt ℝ (fun θ => (S θ).re i j) θ₀ ∧ DifferentiableAt ℝ (fun θ => (S θ).im i j) θ₀

theorem DifS.const {n : ℕ} (S : SMat n) : DifS θ₀ fun _ => S := fun _ _ => ⟨differentiableAt_const _, differentiableAt_const _⟩

theorem DifS.setRe {n : ℕ} {S : E → SMat n} (h : DifS θ₀ S) (i j : Fin n) {v : E → ℝ} (hv : DifferentiableAt ℝ v θ₀) :
    DifS θ₀ fun θ => (S θ).setRe i j (v θ) := by
  intro a b
  refine ⟨?_, (h a b).2⟩
  simp only [SMat.setRe, Matrix.of_apply]
  split_ifs
  · exact hv
  · exact (h a b).1

theorem DifS.setIm {n : ℕ} {S : E → SMat n} (h : DifS θ₀ S) (i j : Fin n) {v : E → ℝ} (hv : DifferentiableAt ℝ v θ₀) :
    DifS θ₀ fun θ => (S θ).setIm i j (v θ) := by
  intro a b
  refine ⟨(h a b).1, ?_⟩
  simp only [SMat.setIm, Matrix.of_apply]
  split_ifs
  · exact hv
  · exact (h a b).2

theorem DifS.setRe2 {n : ℕ} {S : E → SMat n} (h : DifS θ₀ S) (i j : Fin n) {v : E → ℝ} (hv : DifferentiableAt ℝ v θ₀) :
    DifS θ₀ fun θ => (S θ).setRe2 i j (v θ) := (h.setRe i j hv).setRe j i hv

theorem DifS.setIm2 {n : ℕ} {S : E → SMat n} (h : DifS θ₀ S) (i j : Fin n) {v : E → ℝ} (hv : DifferentiableAt ℝ v θ₀) :
    DifS θ₀ fun θ => (S θ).setIm2 i j (v θ) := (h.setIm i j hv).setIm j i hv

theorem cos_modTwoPi (x y : ℝ) : Real.cos (x + modTwoPi y) = Real.cos (x + y) := by
  unfold modTwoPi
  rw [← Real.cos_sub_int_mul_two_pi (x + y) ⌊y / (2 * Real.pi)⌋]
  congr 1
  ring

theorem sin_modTwoPi (x y : ℝ) : Real.sin (x + modTwoPi y) = Real.sin (x + y) := by
  unfold modTwoPi
  rw [← Real.sin_sub_int_mul_two_pi (x + y) ⌊y / (2 * Real.pi)⌋]
  congr 1
  ring

theorem bounded_logistic (w : ℝ) : boundedValue (w : EReal) 0 1 = 1 / (1 + Real.exp (-w)) := by
  show (1 - 0) * (1 / (1 + Real.exp (-w))) + 0 = _
  ring

theorem dif_logistic {w : E → ℝ} (hw : DifferentiableAt ℝ w θ₀) :
    DifferentiableAt ℝ (fun θ => √(boundedValue (w θ : ℝ) 0 1)) θ₀ ∧
      DifferentiableAt ℝ (fun θ => √(1 - boundedValue (w θ : ℝ) 0 1)) θ₀ := by
  simp only [bounded_logistic]
  have hp : ∀ x : ℝ, 0 < 1 + Real.exp (-x) := fun x => by positivity
  have hd : DifferentiableAt ℝ (fun θ => 1 / (1 + Real.exp (-w θ))) θ₀ := by
    simp only [one_div]
    exact ((differentiableAt_const _).add hw.neg.exp).inv (hp _).ne'
  have h1 : (0 : ℝ) < 1 / (1 + Real.exp (-w θ₀)) := by positivity
  have h2 : 1 / (1 + Real.exp (-w θ₀)) < 1 := by
    rw [div_lt_one (hp _)]
    have := Real.exp_pos (-w θ₀)
    linarith
  exact ⟨hd.sqrt h1.ne', ((differentiableAt_const (1 : ℝ)).fun_sub hd).sqrt (sub_pos.2 h2).ne'⟩

/-- The scattering matrix, delay and buffers of a component with trained parameters. -/
theorem trainable_S {p : E → Part} (h : Trainable θ₀ p) : ∃ (c : Comp) (n : ℕ) (S : E → ℝ → SMat n) (delay : ℝ → ℝ),
    (∀ wl, DifS θ₀ fun θ => S θ wl) ∧ ∀ θ, (p θ).dev =
      ⟨c, fun wl => ofFin (S θ wl).re, fun wl => ofFin (S θ wl).im, fun v i => if i < n then delay v else 0⟩ := by
  cases h with
  | fixed p => exact ⟨p.comp, p.n, fun _ wl => p.S wl, fun v => p.delay v, fun wl => DifS.const _, fun θ => rfl⟩
  | mirror w hw =>
    refine ⟨passive 2, 2, fun θ _ => mirrorS (boundedValue (w θ : ℝ) 0 1), fun _ => 0, fun wl => ?_, fun θ => rfl⟩
    obtain ⟨h1, h2⟩ := dif_logistic hw
    exact ((((DifS.const _).setRe 0 0 h1).setRe 1 1 h1).setIm 0 1 h2).setIm 1 0 h2
  | waveguide length loss neff wl0 ng phase hp =>
    refine ⟨passive 2, 2, fun θ wl => waveguideS length loss neff wl0 ng (phase θ) wl, fun v => lengthDelay ng length v, fun wl => ?_, fun θ => rfl⟩
    simp only [waveguideS, cos_modTwoPi, sin_modTwoPi]
    exact ((DifS.const _).setRe2 0 1 (((differentiableAt_const _).add hp).cos.const_mul _)).setIm2 0 1
      (((differentiableAt_const _).add hp).sin.const_mul _)
  | coupler w hw =>
    refine ⟨passive 4, 4, fun θ _ => couplerS (boundedValue (w θ : ℝ) 0 1), fun _ => 0, fun wl => ?_, fun θ => rfl⟩
    obtain ⟨h1, h2⟩ := dif_logistic hw
    exact ((((DifS.const _).setRe2 0 1 h2).setRe2 2 3 h2).setIm2 0 2 h1).setIm2 1 3 h1
  | longCoupler length w loss neff wl0 ng phase hw hp =>
    refine ⟨passive 4, 4, fun θ _ => longCouplerS length (boundedValue (w θ : ℝ) 0 1) loss (phase θ), fun v => lengthDelay ng length v, fun wl => ?_, fun θ => rfl⟩
    obtain ⟨h1, h2⟩ := dif_logistic hw
    have hc : DifferentiableAt ℝ (fun θ => Real.cos (modTwoPi (phase θ))) θ₀ := by
      have : (fun θ => Real.cos (modTwoPi (phase θ))) = fun θ => Real.cos (phase θ) := by
        funext θ
        simpa using cos_modTwoPi 0 (phase θ)
      rw [this]
      exact hp.cos
    have hs : DifferentiableAt ℝ (fun θ => Real.sin (modTwoPi (phase θ))) θ₀ := by
      have : (fun θ => Real.sin (modTwoPi (phase θ))) = fun θ => Real.sin (phase θ) := by
        funext θ
        simpa using sin_modTwoPi 0 (phase θ)
      rw [this]
      exact hp.sin
    have tc := (h2.mul_const (lossFactor loss length)).mul hc
    have ts := (h2.mul_const (lossFactor loss length)).mul hs
    have kc := (h1.mul_const (lossFactor loss length)).mul hc
    have ks := (h1.neg.mul_const (lossFactor loss length)).mul hs
    exact ((((((((DifS.const _).setRe2 0 1 tc).setIm2 0 1 ts).setRe2 0 2 ks).setIm2 0 2 kc).setRe2 1 3 ks).setIm2 1 3
      kc).setRe2 2 3 tc).setIm2 2 3 ts
  | mzi phi theta neff ng wl0 length loss hp ht =>
    refine ⟨passive 4, 4, fun θ wl => mziS (phi θ) (theta θ) length neff wl0 ng wl, fun v => lengthDelay ng length v, fun wl => ?_, fun θ => rfl⟩
    have h1 : DifferentiableAt ℝ (fun θ => propagation length neff wl0 ng wl + phi θ) θ₀ := (differentiableAt_const _).add hp
    exact ((((((((DifS.const _).setRe2 0 1 (h1.cos.mul ht.cos)).setIm2 0 1 (h1.sin.mul ht.cos)).setRe2 0 2
      (h1.cos.mul ht.sin)).setIm2 0 2 (h1.sin.mul ht.sin)).setRe2 1 3 (ht.sin.const_mul _)).setIm2 1 3
      (ht.sin.const_mul _)).setRe2 2 3 (ht.cos.const_mul _)).setIm2 2 3 (ht.cos.const_mul _)
  | linearSoa a ha =>
    refine ⟨passive 2, 2, fun θ _ => linearSoaS (a θ), fun _ => 0, fun wl => ?_, fun θ => rfl⟩
    exact (DifS.const _).setRe 0 1 ha
  | mmi m n re im hr hi =>
    refine ⟨passive (m + n), m + n, fun θ _ => mmiS (re θ) (im θ), fun _ => 0, fun wl a b => ?_, fun θ => rfl⟩
    simp only [mmiS, Matrix.of_apply]
    constructor
    · split_ifs
      · exact differentiableAt_const _
      · exact hr _ _
      · exact hr _ _
      · exact differentiableAt_const _
    · split_ifs
      · exact differentiableAt_const _
      · exact hi _ _
      · exact hi _ _
      · exact differentiableAt_const _

theorem dif_ofFin {n : ℕ} {M : E → Matrix (Fin n) (Fin n) ℝ} (h : ∀ i j, DifferentiableAt ℝ (fun θ => M θ i j) θ₀) (i j : ℕ) :
    DifferentiableAt ℝ (fun θ => ofFin (M θ) i j) θ₀ := by
  unfold ofFin
  split_ifs
  · exact h _ _
  · exact differentiableAt_const _

theorem dif_blockMat {α : Type} (n : α → ℕ) (M : α → E → ℕ → ℕ → ℝ) : ∀ l : List α,
    (∀ a ∈ l, ∀ i j, DifferentiableAt ℝ (fun θ => M a θ i j) θ₀) → ∀ i j,
    DifferentiableAt ℝ (fun θ => blockMat (l.map fun a => (n a, M a θ)) i j) θ₀
  | [], _, _, _ => differentiableAt_const _
  | a :: l, h, i, j => by
    simp only [List.map_cons, blockMat]
    split_ifs
    · exact h a (by simp) i j
    · exact differentiableAt_const _
    · exact differentiableAt_const _
    · exact dif_blockMat n M l (fun b hb => h b (by simp [hb])) _ _

/-- Only the scattering matrix of a circuit depends on its trainable parameters. -/
theorem tuned_dev {D : E → Dev} (h : Tuned θ₀ D) : ∃ (c : Comp) (rS iS : E → ℝ → ℕ → ℕ → ℝ) (delay : ℝ → ℕ → ℝ),
    (∀ θ, D θ = ⟨c, rS θ, iS θ, delay⟩) ∧ (∀ wl i j, DifferentiableAt ℝ (fun θ => rS θ wl i j) θ₀) ∧
      ∀ wl i j, DifferentiableAt ℝ (fun θ => iS θ wl i j) θ₀ := by
  induction h with
  | part p hp hn =>
    obtain ⟨c, n, S, delay, hS, he⟩ := trainable_S hp
    exact ⟨c, _, _, _, he, fun wl i j => dif_ofFin (fun i j => (hS wl i j).1) i j,
      fun wl i j => dif_ofFin (fun i j => (hS wl i j).2) i j⟩
  | named D x _ ih =>
    obtain ⟨c, rS, iS, delay, he, h1, h2⟩ := ih
    exact ⟨{ c with name := x }, rS, iS, delay, fun θ => by simp only [he], h1, h2⟩
  | net name modules cs D hm hg hu hc hk ih =>
    have hcomp : ∀ m ∈ modules, ∀ θ, (m.2 θ).comp = (m.2 θ₀).comp := by
      intro m hm θ
      obtain ⟨c, rS, iS, delay, he, -⟩ := ih m hm
      rw [he θ, he θ₀]
    have hdelay : ∀ m ∈ modules, ∀ θ, (m.2 θ).delay = (m.2 θ₀).delay := by
      intro m hm θ
      obtain ⟨c, rS, iS, delay, he, -⟩ := ih m hm
      rw [he θ, he θ₀]
    let names := usedNames ((cs.map Conn.text).map stripConn)
    let l : List (Str × (E → Dev)) := names.filterMap fun x => (dictGet x modules).map fun d => (x, d)
    have hl : ∀ p ∈ l, ∃ m ∈ modules, p.2 = m.2 := by
      intro p hp
      simp only [l, List.mem_filterMap, Option.map_eq_some_iff] at hp
      obtain ⟨x, -, e, he, rfl⟩ := hp
      exact ⟨_, dictGet_mem he, rfl⟩
    have hused : ∀ θ, usedDevs (modules.map fun m => (m.1, m.2 θ)) names = l.map fun p => (p.1, p.2 θ) := by
      intro θ
      simp only [usedDevs, l, List.map_filterMap]
      congr 1
      funext x
      rw [dictGet_map (fun d : E → Dev => d θ)]
      cases dictGet x modules <;> rfl
    have hmods : ∀ θ, (modules.map fun m => (m.1, m.2 θ)).map (fun p => (p.1, p.2.comp)) =
        (modules.map fun m => (m.1, (m.2 θ₀).comp)) := by
      intro θ
      rw [List.map_map]
      refine List.map_congr_left fun m hm => ?_
      simp only [Function.comp_apply, hcomp m hm θ]
    cases hc : mkNet name (modules.map fun m => (m.1, (m.2 θ₀).comp)) (cs.map Conn.text) with
    | error e =>
      have := hk θ₀
      unfold mkDev at this
      rw [hmods, hc] at this
      cases this
    | ok c =>
      have hD : ∀ θ, D θ = netDev c (l.map fun p => (p.1, p.2 θ)) := by
        intro θ
        have := hk θ
        unfold mkDev at this
        rw [hmods, hc] at this
        simp only [Except.map, Except.ok.injEq] at this
        rw [← this]
        exact congrArg (netDev c) (hused θ)
      refine ⟨c, fun θ wl => blockMat (l.map fun p => ((p.2 θ₀).comp.n, (p.2 θ).rS wl)),
        fun θ wl => blockMat (l.map fun p => ((p.2 θ₀).comp.n, (p.2 θ).iS wl)),
        fun v => blockVec (l.map fun p => ((p.2 θ₀).comp.n, (p.2 θ₀).delay v)), fun θ => ?_, fun wl => ?_, fun wl => ?_⟩
      · rw [hD θ]
        unfold netDev
        have e1 : ∀ wl, ((l.map fun p => (p.1, p.2 θ)).map fun p => (p.2.comp.n, p.2.rS wl)) =
            l.map fun p => ((p.2 θ₀).comp.n, (p.2 θ).rS wl) := by
          intro wl
          rw [List.map_map]
          refine List.map_congr_left fun p hp => ?_
          obtain ⟨m, hm, e⟩ := hl p hp
          simp only [Function.comp_apply, e, hcomp m hm θ]
        have e2 : ∀ wl, ((l.map fun p => (p.1, p.2 θ)).map fun p => (p.2.comp.n, p.2.iS wl)) =
            l.map fun p => ((p.2 θ₀).comp.n, (p.2 θ).iS wl) := by
          intro wl
          rw [List.map_map]
          refine List.map_congr_left fun p hp => ?_
          obtain ⟨m, hm, e⟩ := hl p hp
          simp only [Function.comp_apply, e, hcomp m hm θ]
        have e3 : ∀ v, ((l.map fun p => (p.1, p.2 θ)).map fun p => (p.2.comp.n, p.2.delay v)) =
            l.map fun p => ((p.2 θ₀).comp.n, (p.2 θ₀).delay v) := by
          intro v
          rw [List.map_map]
          refine List.map_congr_left fun p hp => ?_
          obtain ⟨m, hm, e⟩ := hl p hp
          simp only [Function.comp_apply, e, hcomp m hm θ, hdelay m hm θ]
        simp only [e1, e2, e3]
      · refine dif_blockMat (fun p : Str × (E → Dev) => (p.2 θ₀).comp.n) (fun p θ => (p.2 θ).rS wl) l fun p hp i j => ?_
        obtain ⟨m, hm, e⟩ := hl p hp
        obtain ⟨c, rS, iS, delay, he, h1, h2⟩ := ih m hm
        simp only [e, he]
        exact h1 wl i j
      · refine dif_blockMat (fun p : Str × (E → Dev) => (p.2 θ₀).comp.n) (fun p θ => (p.2 θ).iS wl) l fun p hp i j => ?_
        obtain ⟨m, hm, e⟩ := hl p hp
        obtain ⟨c, rS, iS, delay, he, h1, h2⟩ := ih m hm
        simp only [e, he]
        exact h2 wl i j

theorem tuned_made {D : E → Dev} (h : Tuned θ₀ D) (θ : E) : MadeOf (fun _ => True) (D θ) := by
  induction h with
  | part p hp hn => exact .part _ trivial (hn θ)
  | named D x _ ih => exact .named _ x ih
  | net name modules cs D hm hg hu hc hk ih =>
    refine .net name _ cs _ ?_ hg hu hc (hk θ)
    intro p hp
    simp only [List.mem_map] at hp
    obtain ⟨m, hm, rfl⟩ := hp
    exact ih m hm

end PT
