import Mathlib.Analysis.SpecialFunctions.Pow.Real
import Mathlib.Topology.Order.IntermediateValue
import Mathlib.Topology.Algebra.Order.Field
import Verif.Model.Soa
import Verif.Proof.ActiveSim
import Verif.Props.TimeDomain

/-!
# C67: simulation of circuits with active components; C47, C63, C68: amplifiers
-/

namespace PT
open Spec Matrix

variable {W B : Type}

/-! ## C67 -/

/-- C67: with active components (which are active at all their ports; no coupling between delayed and undelayed ports),
`forward` returns for every step, wavelength and batch the incoming waves at the detectors of the solution of the
circuit equations in which every component applies its own action; there is one, and all solutions agree at the
detectors. -/
theorem C67_active (p : Plant W) (env : SimEnv) (dt : ℝ) (hdt : env.dt = some dt) (hpos : 0 < dt)
    (hf : env.freqdomain = false) (hx : p.Exclusive) (hd : portsWith p.det ≠ []) (d : Fin p.n → ℕ)
    (hdelay : ∀ i, d i = portDelay dt (p.src i || p.det i || p.act i) (p.delay i))
    (hmix : ∀ w i j, d i = 0 → d j ≠ 0 →
      cx (p.rS w) (p.iS w) i j = 0 ∧ cx (p.rS w) (p.iS w) j i = 0)
    (r : Reduced W) (hr : initNet p env = .ok (some r))
    (cs : List (Actor W B)) (hmade : ActorsOf p cs) (hl : ∀ t, ∀ c ∈ cs, ∀ x z, (c.action t x z).length = z.length)
    (src : ℕ → ℕ → W → B → ℝ × ℝ) :
    ∃ out, forwardReduced r env cs src = .ok out ∧ out.length = env.t.length ∧
      (∃ a b', ActiveSolves (cx p.C 0) (fun w => cx (p.rS w) (p.iS w)) d env.t cs
        (fun t w β => emitted p.src fun k => ⟨(src t k w β).1, (src t k w β).2⟩) a b') ∧
      ∀ a b', ActiveSolves (cx p.C 0) (fun w => cx (p.rS w) (p.iS w)) d env.t cs
        (fun t w β => emitted p.src fun k => ⟨(src t k w β).1, (src t k w β).2⟩) a b' →
        ∀ t (ht : t < out.length) w β, out[t] w β = (portsWith p.det).map fun i => ((a t w β i).re, (a t w β i).im) := by
  have hd' : p.numDet ≠ 0 := by
    rw [numDet_eq, Ne, List.length_eq_zero_iff]; exact hd
  have hde : d = p.stepDelay env := by
    funext i
    rw [hdelay i, stepDelay_time p env dt hdt hf]
    rfl
  subst hde
  exact active_correct p env hx hd' (.inr ⟨dt, hdt, hpos⟩) (fun w i j h1 h2 => hmix w i j h1 h2) r hr cs hmade hl src

/-! ## Amplifiers in a circuit -/

theorem writeAt_length {α : Type} (x vs : List α) (i : ℕ) (h : i ≤ x.length) : (writeAt x i vs).length = x.length := by
  unfold writeAt
  simp only [List.length_append, List.length_take, List.length_drop]
  omega

theorem soa_length (dt : ℝ) (rate : ℝ → NodeVal W B → NodeVal W B → NodeVal W B) (t : ℝ) (x z : List (NodeVal W B)) :
    ((soaActor dt rate).action t x z).length = z.length := by
  show (soaAction dt rate t x z).length = _
  unfold soaAction
  split
  · exact writeAt_length _ _ _ (Nat.zero_le _)
  · rfl

namespace Spec

/-- Ports `i₀`, `i₁`, `i₂` of a circuit are those of an amplifier with memory: its action is the one of the amplifier; its scattering
matrix is the identity; the state (port 1) is connected to itself; no source is there; and the state is kept for
one step. -/
structure SoaAt {n : ℕ} (C : Matrix (Fin n) (Fin n) ℂ) (S : W → Matrix (Fin n) (Fin n) ℂ) (d : Fin n → ℕ)
    (cs : List (Actor W B)) (s : ℕ → W → B → Fin n → ℂ) (dt : ℝ) (rate : ℝ → NodeVal W B → NodeVal W B → NodeVal W B)
    (i₀ i₁ i₂ : Fin n) : Prop where
  here : ∃ before after, cs = before ++ soaActor dt rate :: after ∧ (i₀ : ℕ) = offset before ∧
    (i₁ : ℕ) = offset before + 1 ∧ (i₂ : ℕ) = offset before + 2
  scatter : ∀ w, ∀ i ∈ [i₀, i₁, i₂], ∀ k, S w i k = if k = i then 1 else 0
  loop : ∀ k, C i₁ k = if k = i₁ then 1 else 0
  dark : ∀ t w β, ∀ i ∈ [i₀, i₁, i₂], s t w β i = 0
  memory : d i₁ = 1

end Spec

section
variable {n : ℕ} {C : Matrix (Fin n) (Fin n) ℂ} {S : W → Matrix (Fin n) (Fin n) ℂ} {d : Fin n → ℕ}
  {cs : List (Actor W B)} {s a b : ℕ → W → B → Fin n → ℂ} {dt : ℝ}
  {rate : ℝ → NodeVal W B → NodeVal W B → NodeVal W B} {i₀ i₁ i₂ : Fin n} {ts : List ℝ}

/-- What the amplifier does in one step. -/
theorem soa_step (hsoa : SoaAt C S d cs s dt rate i₀ i₁ i₂) (hsol : ActiveSolves C S d ts cs s a b) (t : ℕ)
    (ht : t < ts.length) :
    let u := node fun w β => delayed d (fun t => a t w β) t i₀
    let h := node fun w β => delayed d (fun t => a t w β) t i₁
    node (fun w β => b t w β i₀) = u ∧
    node (fun w β => b t w β i₁) =
      (fun w β => h.1 w β + dt * (rate ts[t] h u).1 w β, fun w β => h.2 w β + dt * (rate ts[t] h u).2 w β) ∧
    node (fun w β => b t w β i₂) =
      (fun w β => u.1 w β * Real.exp (0.5 * h.1 w β), fun w β => u.2 w β * Real.exp (0.5 * h.2 w β)) := by
  intro u h
  obtain ⟨bf, af, hcs, h0, h1, h2⟩ := hsoa.here
  have hy : ∀ i ∈ [i₀, i₁, i₂], nodes (fun w β => S w *ᵥ delayed d (fun t => a t w β) t + s t w β) i =
      node fun w β => delayed d (fun t => a t w β) t i := by
    intro i hi
    rw [nodes_fin]
    congr 1
    funext w β
    rw [Pi.add_apply, hsoa.dark t w β i hi, add_zero, Matrix.mulVec, dotProduct]
    simp only [hsoa.scatter w i hi]
    simp
  have hy0 := hy i₀ (by simp)
  have hy1 := hy i₁ (by simp)
  have hy2 := hy i₂ (by simp)
  have key : ∀ (i : Fin n) (j : ℕ), j < 3 → (i : ℕ) = offset bf + j → node (fun w β => b t w β i) =
      (soaAction dt rate ts[t] [u, h, node fun w β => delayed d (fun t => a t w β) t i₂]
        [silent, silent, silent]).getD j silent := by
    intro i j hj hij
    rw [hsol.outgoing t ht bf _ af hcs i j hj hij]
    unfold ownAction
    rw [if_pos (show (soaActor dt rate).active = true from rfl)]
    have hl : (List.range (soaActor dt rate).numPorts).map (fun j =>
        nodes (fun w β => S w *ᵥ delayed d (fun t => a t w β) t + s t w β) (offset bf + j)) =
        [u, h, node fun w β => delayed d (fun t => a t w β) t i₂] := by
      rw [h0] at hy0
      rw [h1] at hy1
      rw [h2] at hy2
      exact congrArg₂ List.cons hy0 (congrArg₂ List.cons hy1 (congrArg (fun x => [x]) hy2))
    rw [hl]
    rfl
  refine ⟨?_, ?_, ?_⟩
  · rw [key i₀ 0 (by omega) h0]; rfl
  · rw [key i₁ 1 (by omega) h1]; rfl
  · rw [key i₂ 2 (by omega) h2]; rfl

/-- The state before step `t`, as the amplifier reads it. -/
theorem soa_state (hsoa : SoaAt C S d cs s dt rate i₀ i₁ i₂) (hsol : ActiveSolves C S d ts cs s a b) (w : W) (β : B) :
    delayed d (fun t => a t w β) 0 i₁ = 0 ∧
    ∀ t < ts.length, delayed d (fun t => a t w β) (t + 1) i₁ = b t w β i₁ := by
  refine ⟨by simp [delayed, hsoa.memory], fun t ht => ?_⟩
  simp only [delayed, hsoa.memory, Nat.le_add_left, if_true, Nat.add_sub_cancel]
  rw [hsol.incoming t ht w β, Matrix.mulVec, dotProduct]
  simp only [hsoa.loop]
  simp

/-! ## C63 -/

/-- C63 is violated: whatever enters an amplifier with memory is not only amplified, all of it is also reflected. -/
theorem C63_violation (hsoa : SoaAt C S d cs s dt rate i₀ i₁ i₂) (hsol : ActiveSolves C S d ts cs s a b) (t : ℕ)
    (ht : t < ts.length) (w : W) (β : B) : b t w β i₀ = delayed d (fun t => a t w β) t i₀ := by
  have := (soa_step hsoa hsol t ht).1
  exact congrArg (fun x => NodeVal.cval x w β) this

/-! ## C47, C68: `Soa` -/

/-- The number of steps during which a `Soa` with the given startup time increases its gain. -/
theorem soa_gain (amp startup : ℝ) (hdt : 0 < dt) (hst : 0 < startup)
    (hsoa : SoaAt C S d cs s dt (soaRate amp startup) i₀ i₁ i₂) (hts : ∀ t (h : t < ts.length), ts[t] = t * dt)
    (hsol : ActiveSolves C S d ts cs s a b) (t : ℕ) (ht : t ≤ ts.length) (w : W) (β : B) :
    delayed d (fun t => a t w β) t i₁ =
      ⟨(min t ⌈startup / dt⌉₊ : ℕ) * (dt / startup * Real.log amp), (min t ⌈startup / dt⌉₊ : ℕ) * (dt / startup * Real.log amp)⟩ := by
  induction t with
  | zero =>
    rw [(soa_state hsoa hsol w β).1]
    apply Complex.ext <;> simp
  | succ t ih =>
    rw [(soa_state hsoa hsol w β).2 t (by omega)]
    have h := (soa_step hsoa hsol t (by omega)).2.1
    have h' := congrArg (fun x => NodeVal.cval x w β) h
    have ih' := ih (by omega)
    have hr : ∀ (u v : NodeVal W B), (soaRate amp startup ts[t] u v).1 w β = (soaRate amp startup ts[t] u v).2 w β := fun _ _ => rfl
    have hval : ∀ (u v : NodeVal W B), dt * (soaRate amp startup ts[t] u v).1 w β =
        ((min (t + 1) ⌈startup / dt⌉₊ : ℕ) - (min t ⌈startup / dt⌉₊ : ℕ) : ℝ) * (dt / startup * Real.log amp) := by
      intro u v
      simp only [soaRate]
      rw [hts t (by omega)]
      have hlt : (t * dt < startup) ↔ t < ⌈startup / dt⌉₊ := by
        rw [Nat.lt_ceil, lt_div_iff₀ hdt]
      by_cases hc : t < ⌈startup / dt⌉₊
      · rw [if_pos (hlt.2 hc), Nat.min_eq_left (by omega), Nat.min_eq_left (by omega)]
        push_cast
        field_simp
        ring
      · rw [if_neg (fun h => hc (hlt.1 h)), Nat.min_eq_right (by omega), Nat.min_eq_right (by omega)]
        ring
    refine (show b t w β i₁ = _ from h').trans ?_
    apply Complex.ext
    · show (delayed d (fun t => a t w β) t i₁).re + dt * _ = _
      rw [ih', hval]
      ring
    · show (delayed d (fun t => a t w β) t i₁).im + dt * _ = _
      rw [ih', ← hr, hval]
      ring

/-- C68, exactly: at step `t`, a `Soa` multiplies the power of whatever enters by the amplification to the power
`min t ⌈startup/dt⌉ · dt / startup`. -/
theorem C68_gain_partial (amp startup : ℝ) (hamp : 0 < amp) (hdt : 0 < dt) (hst : 0 < startup)
    (hsoa : SoaAt C S d cs s dt (soaRate amp startup) i₀ i₁ i₂) (hts : ∀ t (h : t < ts.length), ts[t] = t * dt)
    (hsol : ActiveSolves C S d ts cs s a b) (t : ℕ) (ht : t < ts.length) (w : W) (β : B) :
    Complex.normSq (b t w β i₂) = amp ^ ((min t ⌈startup / dt⌉₊ : ℕ) * (dt / startup)) *
      Complex.normSq (delayed d (fun t => a t w β) t i₀) := by
  have h := (soa_step hsoa hsol t ht).2.2
  have hg := soa_gain amp startup hdt hst hsoa hts hsol t ht.le w β
  have h' := congrArg (fun x => NodeVal.cval x w β) h
  set H : ℝ := (min t ⌈startup / dt⌉₊ : ℕ) * (dt / startup * Real.log amp) with hH
  have hre : (delayed d (fun t => a t w β) t i₁).re = H := by rw [hg]
  have him : (delayed d (fun t => a t w β) t i₁).im = H := by rw [hg]
  have hb : b t w β i₂ = ⟨(delayed d (fun t => a t w β) t i₀).re * Real.exp (0.5 * (delayed d (fun t => a t w β) t i₁).re),
      (delayed d (fun t => a t w β) t i₀).im * Real.exp (0.5 * (delayed d (fun t => a t w β) t i₁).im)⟩ := h'
  rw [hb, hre, him, Complex.normSq_apply, Complex.normSq_apply, Real.rpow_def_of_pos hamp]
  have hee : Real.exp (0.5 * H) * Real.exp (0.5 * H) = Real.exp (Real.log amp * ((min t ⌈startup / dt⌉₊ : ℕ) * (dt / startup))) := by
    rw [← Real.exp_add]
    congr 1
    rw [hH]
    ring
  rw [← hee]
  ring

/-- C47 (`Soa`): with a startup time of `N` time steps, the power gain is the amplification from step `N` on, for every
input. -/
theorem C47_soa_partial (amp : ℝ) (hamp : 0 < amp) (hdt : 0 < dt) (N : ℕ) (hN : 0 < N)
    (hsoa : SoaAt C S d cs s dt (soaRate amp (N * dt)) i₀ i₁ i₂) (hts : ∀ t (h : t < ts.length), ts[t] = t * dt)
    (hsol : ActiveSolves C S d ts cs s a b) (t : ℕ) (hNt : N ≤ t) (ht : t < ts.length) (w : W) (β : B) :
    Complex.normSq (b t w β i₂) = amp * Complex.normSq (delayed d (fun t => a t w β) t i₀) := by
  have hN' : (0 : ℝ) < N := by exact_mod_cast hN
  rw [C68_gain_partial amp (N * dt) hamp hdt (by positivity) hsoa hts hsol t ht w β]
  have h1 : (N : ℝ) * dt / dt = N := by field_simp
  rw [h1, Nat.ceil_natCast, Nat.min_eq_right hNt]
  have h2 : (N : ℝ) * (dt / (N * dt)) = 1 := by field_simp
  rw [h2, Real.rpow_one]

/-! ## C84: no attenuation -/

/-- A `Soa` whose startup time is over from the beginning changes nothing. -/
theorem soa_idle (amp startup : ℝ) (hdt : 0 < dt) (hst : startup ≤ 0)
    (hsoa : SoaAt C S d cs s dt (soaRate amp startup) i₀ i₁ i₂) (hts : ∀ t (h : t < ts.length), ts[t] = t * dt)
    (hsol : ActiveSolves C S d ts cs s a b) (t : ℕ) (ht : t ≤ ts.length) (w : W) (β : B) :
    delayed d (fun t => a t w β) t i₁ = 0 := by
  induction t with
  | zero => exact (soa_state hsoa hsol w β).1
  | succ t ih =>
    rw [(soa_state hsoa hsol w β).2 t (by omega)]
    have h' := congrArg (fun x => NodeVal.cval x w β) (soa_step hsoa hsol t (by omega)).2.1
    have ih' := ih (by omega)
    have hval : ∀ (u v : NodeVal W B), (soaRate amp startup ts[t] u v).1 w β = 0 ∧ (soaRate amp startup ts[t] u v).2 w β = 0 := by
      intro u v
      simp only [soaRate]
      rw [hts t (by omega), if_neg (by have : 0 ≤ t * dt := by positivity
                                       linarith)]
      exact ⟨rfl, rfl⟩
    refine (show b t w β i₁ = _ from h').trans ?_
    apply Complex.ext
    · show (delayed d (fun t => a t w β) t i₁).re + dt * _ = _
      rw [ih', (hval _ _).1]
      simp
    · show (delayed d (fun t => a t w β) t i₁).im + dt * _ = _
      rw [ih', (hval _ _).2]
      simp

/-- The statement of C84: a `Soa` that was accepted never lowers the power of a signal, whatever an optimizer does. -/
def C84 : Prop := ∀ (n : ℕ) (C : Matrix (Fin n) (Fin n) ℂ) (S : Unit → Matrix (Fin n) (Fin n) ℂ) (d : Fin n → ℕ)
    (cs : List (Actor Unit Unit)) (s : ℕ → Unit → Unit → Fin n → ℂ) (i₀ i₁ i₂ : Fin n) (ts : List ℝ)
    (a b : ℕ → Unit → Unit → Fin n → ℂ) (dt amp startup : ℝ) (tr : Bool) (q : SoaParams) (δs : List ℝ), 0 < dt →
    soaNew amp startup tr = .ok q → SoaAt C S d cs s dt (δs.foldl (fun q δ => q.update δ) q).rate i₀ i₁ i₂ →
    (∀ t (h : t < ts.length), ts[t] = t * dt) → ActiveSolves C S d ts cs s a b → ∀ t < ts.length,
      Complex.normSq (delayed d (fun t => a t () ()) t i₀) ≤ Complex.normSq (b t () () i₂)

theorem soa_amplifies (amp startup : ℝ) (hamp : 1 ≤ amp) (hdt : 0 < dt)
    (hsoa : SoaAt C S d cs s dt (soaRate amp startup) i₀ i₁ i₂) (hts : ∀ t (h : t < ts.length), ts[t] = t * dt)
    (hsol : ActiveSolves C S d ts cs s a b) (t : ℕ) (ht : t < ts.length) (w : W) (β : B) :
    Complex.normSq (delayed d (fun t => a t w β) t i₀) ≤ Complex.normSq (b t w β i₂) := by
  rcases le_or_gt startup 0 with hst | hst
  · have h' := congrArg (fun x => NodeVal.cval x w β) (soa_step hsoa hsol t ht).2.2
    have hg := soa_idle amp startup hdt hst hsoa hts hsol t ht.le w β
    have hre : (delayed d (fun t => a t w β) t i₁).re = 0 := by rw [hg]; rfl
    have him : (delayed d (fun t => a t w β) t i₁).im = 0 := by rw [hg]; rfl
    have : b t w β i₂ = delayed d (fun t => a t w β) t i₀ := by
      refine (show b t w β i₂ = _ from h').trans ?_
      apply Complex.ext
      · show (delayed d (fun t => a t w β) t i₀).re * Real.exp (0.5 * (delayed d (fun t => a t w β) t i₁).re) = _
        rw [hre]; simp
      · show (delayed d (fun t => a t w β) t i₀).im * Real.exp (0.5 * (delayed d (fun t => a t w β) t i₁).im) = _
        rw [him]; simp
    rw [this]
  · rw [C68_gain_partial amp startup (by linarith) hdt hst hsoa hts hsol t ht w β]
    refine le_mul_of_one_le_left (Complex.normSq_nonneg _) (Real.one_le_rpow hamp (by positivity))

/-- C84 for a `Soa` that is not trainable or has not been trained: amplifications of at least one are accepted and all others are
rejected, and a signal never loses power. Missing: training, after which C84 is false. -/
theorem C84_amplifies_partial (amp startup : ℝ) (tr : Bool) :
    (amp < 1 → soaNew amp startup tr = .error .valueError) ∧
    (1 ≤ amp → ∃ q, soaNew amp startup tr = .ok q ∧ ∀ δs : List ℝ, tr = false ∨ δs = [] → 0 < dt →
      SoaAt C S d cs s dt (δs.foldl (fun q δ => q.update δ) q).rate i₀ i₁ i₂ → (∀ t (h : t < ts.length), ts[t] = t * dt) →
      ActiveSolves C S d ts cs s a b → ∀ t < ts.length, ∀ w β,
        Complex.normSq (delayed d (fun t => a t w β) t i₀) ≤ Complex.normSq (b t w β i₂)) := by
  refine ⟨fun h => if_pos h, fun h => ⟨⟨amp, startup, tr⟩, if_neg (not_lt.2 h), fun δs hδ hdt hsoa hts hsol t ht w β => ?_⟩⟩
  have e : δs.foldl (fun q δ => q.update δ) (⟨amp, startup, tr⟩ : SoaParams) = ⟨amp, startup, tr⟩ := by
    rcases hδ with rfl | rfl
    · induction δs with
      | nil => rfl
      | cons δ δs ih => exact ih (by simpa [SoaParams.update] using hsoa)
    · rfl
  rw [e] at hsoa
  exact soa_amplifies amp startup h hdt hsoa hts hsol t ht w β

/-- C68 is violated: if the startup time is not a multiple of the time step, the final gain exceeds the amplification. -/
theorem C68_violation (amp startup : ℝ) (hamp : 1 < amp) (hdt : 0 < dt) (hst : 0 < startup)
    (hmul : ∀ N : ℕ, startup ≠ N * dt)
    (hsoa : SoaAt C S d cs s dt (soaRate amp startup) i₀ i₁ i₂) (hts : ∀ t (h : t < ts.length), ts[t] = t * dt)
    (hsol : ActiveSolves C S d ts cs s a b) (t : ℕ) (hNt : startup + dt ≤ t * dt) (ht : t < ts.length) (w : W) (β : B)
    (hin : delayed d (fun t => a t w β) t i₀ ≠ 0) :
    amp * Complex.normSq (delayed d (fun t => a t w β) t i₀) < Complex.normSq (b t w β i₂) := by
  rw [C68_gain_partial amp startup (by linarith) hdt hst hsoa hts hsol t ht w β]
  have hpos := Complex.normSq_pos.2 hin
  apply mul_lt_mul_of_pos_right _ hpos
  have hceil : startup / dt < ⌈startup / dt⌉₊ := by
    refine lt_of_le_of_ne (Nat.le_ceil _) fun h => hmul ⌈startup / dt⌉₊ ?_
    rw [← h]
    field_simp
  have hle : ⌈startup / dt⌉₊ ≤ t := by
    rw [Nat.ceil_le, div_le_iff₀ hdt]
    linarith
  rw [Nat.min_eq_right hle]
  have hone : 1 < (⌈startup / dt⌉₊ : ℝ) * (dt / startup) := by
    rw [div_lt_iff₀ hdt] at hceil
    rw [← mul_div_assoc, lt_div_iff₀ hst]
    linarith
  calc amp = amp ^ (1 : ℝ) := (Real.rpow_one amp).symm
    _ < _ := Real.rpow_lt_rpow_of_exponent_lt hamp hone

/-! ## C47: `AgrawalSoa` -/

/-- C47 (`AgrawalSoa`): the imaginary part of the state stays zero, so only the real part of the field is amplified. -/
theorem agrawal_output (q : Agrawal) (c : ℝ) (hsoa : SoaAt C S d cs s dt (q.rate c) i₀ i₁ i₂)
    (hsol : ActiveSolves C S d ts cs s a b) (t : ℕ) (ht : t < ts.length) (w : W) (β : B) :
    (delayed d (fun t => a t w β) t i₁).im = 0 ∧
    (b t w β i₂).im = (delayed d (fun t => a t w β) t i₀).im ∧
    (b t w β i₂).re = (delayed d (fun t => a t w β) t i₀).re * Real.exp ((delayed d (fun t => a t w β) t i₁).re / 2) := by
  have him : ∀ t ≤ ts.length, (delayed d (fun t => a t w β) t i₁).im = 0 := by
    intro t
    induction t with
    | zero => intro _; rw [(soa_state hsoa hsol w β).1]; rfl
    | succ t ih =>
      intro ht
      rw [(soa_state hsoa hsol w β).2 t (by omega)]
      have h := congrArg (fun x => NodeVal.cval x w β) (soa_step hsoa hsol t (by omega)).2.1
      have h2 : (b t w β i₁).im = (delayed d (fun t => a t w β) t i₁).im + dt * 0 := congrArg Complex.im h
      rw [h2, ih (by omega), mul_zero, add_zero]
  have h := congrArg (fun x => NodeVal.cval x w β) (soa_step hsoa hsol t ht).2.2
  have h1 : (b t w β i₂).re = (delayed d (fun t => a t w β) t i₀).re *
      Real.exp (0.5 * (delayed d (fun t => a t w β) t i₁).re) := congrArg Complex.re h
  have h2 : (b t w β i₂).im = (delayed d (fun t => a t w β) t i₀).im *
      Real.exp (0.5 * (delayed d (fun t => a t w β) t i₁).im) := congrArg Complex.im h
  refine ⟨him t ht.le, ?_, ?_⟩
  · rw [h2, him t ht.le]; simp
  · rw [h1]; congr 2; ring

/-- C47 is violated: the gain of an `AgrawalSoa` depends on the phase of the input: a field with only an imaginary part is not
amplified at all, a real one is amplified by the state. -/
theorem C47_violation (q : Agrawal) (c : ℝ) (hsoa : SoaAt C S d cs s dt (q.rate c) i₀ i₁ i₂)
    (hsol : ActiveSolves C S d ts cs s a b) (t : ℕ) (ht : t < ts.length) (w : W) (β : B) :
    ((delayed d (fun t => a t w β) t i₀).re = 0 →
      Complex.normSq (b t w β i₂) = Complex.normSq (delayed d (fun t => a t w β) t i₀)) ∧
    ((delayed d (fun t => a t w β) t i₀).im = 0 →
      Complex.normSq (b t w β i₂) = Real.exp (delayed d (fun t => a t w β) t i₁).re *
        Complex.normSq (delayed d (fun t => a t w β) t i₀)) := by
  obtain ⟨-, h2, h3⟩ := agrawal_output q c hsoa hsol t ht w β
  constructor
  · intro h
    rw [Complex.normSq_apply, Complex.normSq_apply, h2, h3, h]
    ring
  · intro h
    rw [Complex.normSq_apply, Complex.normSq_apply, h2, h3, h]
    have : Real.exp (delayed d (fun t => a t w β) t i₁).re = Real.exp ((delayed d (fun t => a t w β) t i₁).re / 2) *
        Real.exp ((delayed d (fun t => a t w β) t i₁).re / 2) := by rw [← Real.exp_add]; congr 1; ring
    rw [this]
    ring

/-- C47 is violated for every amplifier with a small-signal gain: at step 1 a real field is amplified by
`exp (dt / tc · g0 · L)` and an imaginary one is not. -/
theorem C47_phase_violation (q : Agrawal) (c : ℝ) (hdt : dt ≠ 0) (htc : q.tc ≠ 0) (hg : q.g0 * q.L ≠ 0)
    (hsoa : SoaAt C S d cs s dt (q.rate c) i₀ i₁ i₂)
    (hsol : ActiveSolves C S d ts cs s a b) (ht : 1 < ts.length) (w : W) (β : B)
    (hin : delayed d (fun t => a t w β) 1 i₀ ≠ 0) :
    ((delayed d (fun t => a t w β) 1 i₀).re = 0 →
      Complex.normSq (b 1 w β i₂) = Complex.normSq (delayed d (fun t => a t w β) 1 i₀)) ∧
    ((delayed d (fun t => a t w β) 1 i₀).im = 0 →
      Complex.normSq (b 1 w β i₂) = Real.exp (dt / q.tc * (q.g0 * q.L)) *
        Complex.normSq (delayed d (fun t => a t w β) 1 i₀) ∧
      Complex.normSq (b 1 w β i₂) ≠ Complex.normSq (delayed d (fun t => a t w β) 1 i₀)) := by
  obtain ⟨h1, h2⟩ := C47_violation q c hsoa hsol 1 ht w β
  refine ⟨h1, fun him => ?_⟩
  have hs : (delayed d (fun t => a t w β) 1 i₁).re = dt / q.tc * (q.g0 * q.L) := by
    have h0 := (soa_state hsoa hsol w β).1
    rw [(soa_state hsoa hsol w β).2 0 (by omega)]
    have h := congrArg (fun x => NodeVal.cval x w β) (soa_step hsoa hsol 0 (by omega)).2.1
    have h1 : (b 0 w β i₁).re = (delayed d (fun t => a t w β) 0 i₁).re + dt * ((1 / q.tc) *
        ((q.g0 * q.L - (delayed d (fun t => a t w β) 0 i₁).re) -
          (((delayed d (fun t => a t w β) 0 i₀).re ^ 2 + (delayed d (fun t => a t w β) 0 i₀).im ^ 2) / q.psat c) *
            (Real.exp (delayed d (fun t => a t w β) 0 i₁).re - 1))) := congrArg Complex.re h
    rw [h1, h0]
    simp only [Complex.zero_re, Real.exp_zero]
    ring
  have h3 := h2 him
  rw [hs] at h3
  refine ⟨h3, fun h => ?_⟩
  rw [h3] at h
  have hpos := Complex.normSq_pos.2 hin
  have : Real.exp (dt / q.tc * (q.g0 * q.L)) = 1 := by
    have := mul_right_cancel₀ hpos.ne' (h.trans (one_mul _).symm)
    exact this
  rw [Real.exp_eq_one_iff] at this
  exact mul_ne_zero (div_ne_zero hdt htc) hg this

/-- C47: the state of an `AgrawalSoa` does not change in a step if and only if it satisfies the equation of the saturated gain. -/
theorem C47_stationary_partial (q : Agrawal) (c : ℝ) (hdt : dt ≠ 0) (htc : q.tc ≠ 0)
    (hsoa : SoaAt C S d cs s dt (q.rate c) i₀ i₁ i₂) (hsol : ActiveSolves C S d ts cs s a b) (t : ℕ)
    (ht : t < ts.length) (w : W) (β : B) :
    delayed d (fun t => a t w β) (t + 1) i₁ = delayed d (fun t => a t w β) t i₁ ↔
    q.g0 * q.L - (delayed d (fun t => a t w β) t i₁).re =
      Complex.normSq (delayed d (fun t => a t w β) t i₀) / q.psat c *
        (Real.exp (delayed d (fun t => a t w β) t i₁).re - 1) := by
  rw [(soa_state hsoa hsol w β).2 t ht]
  have h := congrArg (fun x => NodeVal.cval x w β) (soa_step hsoa hsol t ht).2.1
  have h1 : (b t w β i₁).re = (delayed d (fun t => a t w β) t i₁).re + dt * ((1 / q.tc) *
      ((q.g0 * q.L - (delayed d (fun t => a t w β) t i₁).re) -
        (((delayed d (fun t => a t w β) t i₀).re ^ 2 + (delayed d (fun t => a t w β) t i₀).im ^ 2) / q.psat c) *
          (Real.exp (delayed d (fun t => a t w β) t i₁).re - 1))) := congrArg Complex.re h
  have h2 : (b t w β i₁).im = (delayed d (fun t => a t w β) t i₁).im + dt * 0 := congrArg Complex.im h
  rw [Complex.ext_iff, h1, h2, Complex.normSq_apply]
  simp only [mul_zero, add_zero, and_true, add_eq_left, mul_eq_zero, hdt, false_or, one_div, inv_eq_zero, htc, sq]
  exact sub_eq_zero

end

/-- C47: for every power and small-signal gain there is exactly one such state, between no gain and the small-signal gain. -/
theorem C47_saturation_partial (G P : ℝ) (hG : 0 ≤ G) (hP : 0 ≤ P) :
    ∃ h, (G - h = P * (Real.exp h - 1)) ∧ 0 ≤ h ∧ h ≤ G ∧ ∀ h', G - h' = P * (Real.exp h' - 1) → h' = h := by
  have hc : ContinuousOn (fun h : ℝ => P * (Real.exp h - 1) + h) (Set.Icc 0 G) := by fun_prop
  have hmem : G ∈ Set.Icc (P * (Real.exp 0 - 1) + 0) (P * (Real.exp G - 1) + G) := by
    refine ⟨by simpa using hG, ?_⟩
    have : 1 ≤ Real.exp G := Real.one_le_exp hG
    nlinarith
  obtain ⟨h, ⟨h0, hG'⟩, he⟩ := intermediate_value_Icc hG hc hmem
  refine ⟨h, by simp only at he; linarith, h0, hG', fun h' hh => ?_⟩
  simp only at he
  by_contra hne
  rcases lt_or_gt_of_ne hne with hlt | hlt
  · have := Real.exp_lt_exp.2 hlt
    nlinarith
  · have := Real.exp_lt_exp.2 hlt
    nlinarith

example : ∃ h, ((2 : ℝ) - h = 3 * (Real.exp h - 1)) ∧ 0 ≤ h ∧ h ≤ 2 ∧
    ∀ h', (2 : ℝ) - h' = 3 * (Real.exp h' - 1) → h' = h := C47_saturation_partial 2 3 (by norm_num) (by norm_num)

/-- C47: the gain and the saturation of an `AgrawalSoa` in physical terms: the small-signal gain is the confined differential gain times
the density of carriers (those pumped into the volume during their lifetime) above transparency; at the saturation power, as many
photons pass the cross section as the carriers can deliver. -/
theorem C47_physics_partial (q : Agrawal) (c : ℝ) (hV : q.L * q.H * q.W ≠ 0) (htc : q.tc ≠ 0) (hN : q.N0 ≠ 0) (hg : q.gamma ≠ 0)
    (ha : q.a ≠ 0) (hwl : q.wl ≠ 0) :
    q.g0 = q.gamma * q.a * (q.I * q.tc / (1.6e-19 * (q.L * q.H * q.W)) - q.N0) ∧
    q.psat c / (6.626e-34 * (c / q.wl)) * (q.gamma * q.a * q.tc) = q.W * q.H * (if c = 0 then 0 else 1) := by
  constructor
  · unfold Agrawal.g0 Agrawal.threshold Agrawal.volume
    field_simp
  · unfold Agrawal.psat
    split
    · rename_i h; subst h; simp
    · rename_i h
      field_simp

example : (⟨500e-6, 2e-6, 2e-7, 1e24, 2.7e-20, 0.05, 300e-12, 0.3, 3.75, 1.55e-6⟩ : Agrawal).g0 =
    0.3 * 2.7e-20 * (0.05 * 300e-12 / (1.6e-19 * (500e-6 * 2e-7 * 2e-6)) - 1e24) :=
  (C47_physics_partial _ 299792458 (by norm_num) (by norm_num) (by norm_num) (by norm_num) (by norm_num) (by norm_num)).1

/-! ## A circuit with an amplifier -/

/-- A source, an amplifier and a detector in a line. -/
def soaLine : Plant Unit :=
  { n := 5
    C := Matrix.of fun i j => if j = (![1, 0, 2, 4, 3] : Fin 5 → Fin 5) i then 1 else 0
    rS := fun _ => Matrix.of fun i j => if j = i ∧ (i = 1 ∨ i = 2 ∨ i = 3) then 1 else 0
    iS := fun _ => 0
    delay := fun _ => 0
    src := fun i => decide (i = 0)
    det := fun i => decide (i = 4)
    act := fun i => decide (i = 1 ∨ i = 2 ∨ i = 3) }

/-- A component with one passive port. -/
def onePort : Actor Unit Unit := ⟨1, false, fun _ _ z => z⟩

noncomputable def soaComps (dt : ℝ) (rate : ℝ → NodeVal Unit Unit → NodeVal Unit Unit → NodeVal Unit Unit) :
    List (Actor Unit Unit) := [onePort, soaActor dt rate, onePort]

/-- Five steps. -/
noncomputable def soaEnv : SimEnv := ⟨some 1, false, [0, 1, 2, 3, 4]⟩

theorem soaLine_made (dt : ℝ) (rate) : ActorsOf soaLine (soaComps dt rate) := by
  constructor
  · rfl
  · intro before c after hcs i h1 h2
    have hb : before.length < 3 := by
      have := congrArg List.length hcs
      simp [soaComps] at this; omega
    match before, hcs with
    | [], hcs =>
      simp only [soaComps, List.nil_append, List.cons.injEq] at hcs
      rw [← hcs.1] at h2 ⊢
      simp [offset, onePort] at h1 h2
      have h3 : ∀ i : Fin 5, (i : ℕ) = 0 → (decide (i = 1 ∨ i = 2 ∨ i = 3)) = false := by decide
      exact h3 i h2
    | [x], hcs =>
      simp only [soaComps, List.cons_append, List.nil_append, List.cons.injEq] at hcs
      obtain ⟨rfl, rfl, -⟩ := hcs
      simp [offset, onePort, soaActor] at h1 h2
      have h3 : ∀ i : Fin 5, 1 ≤ (i : ℕ) → (i : ℕ) < 1 + 3 → (decide (i = 1 ∨ i = 2 ∨ i = 3)) = true := by decide
      exact h3 i h1 h2
    | [x, y], hcs =>
      simp only [soaComps, List.cons_append, List.nil_append, List.cons.injEq] at hcs
      obtain ⟨rfl, rfl, rfl, -⟩ := hcs
      simp [offset, onePort, soaActor] at h1 h2
      have h3 : ∀ i : Fin 5, 1 + 3 ≤ (i : ℕ) → (i : ℕ) < 1 + 3 + 1 → (decide (i = 1 ∨ i = 2 ∨ i = 3)) = false := by decide
      exact h3 i h1 h2
    | _ :: _ :: _ :: l, _ => simp at hb; omega

theorem soaLine_exclusive : soaLine.Exclusive := by
  intro (i : Fin 5)
  fin_cases i <;> simp [soaLine]

theorem soaLine_terminated : soaLine.terminated := by
  intro (i : Fin 5)
  left
  show 0 < ∑ k : Fin 5, soaLine.C k i
  rw [Fin.sum_univ_five]
  fin_cases i <;> simp [soaLine]

/-- The connections of the circuit. -/
def lineC : Matrix (Fin 5) (Fin 5) ℂ := Matrix.of fun i j => if j = (![1, 0, 2, 4, 3] : Fin 5 → Fin 5) i then 1 else 0

/-- The scattering matrix of the circuit. -/
def lineS : Matrix (Fin 5) (Fin 5) ℂ := Matrix.of fun i j => if j = i ∧ (i = 1 ∨ i = 2 ∨ i = 3) then 1 else 0

/-- What the source of the circuit emits. -/
def lineE (src : ℕ → ℕ → Unit → Unit → ℝ × ℝ) (t : ℕ) (w β : Unit) (i : Fin 5) : ℂ :=
  if i = 0 then ⟨(src t 0 w β).1, (src t 0 w β).2⟩ else 0

theorem soaLine_C : (cx soaLine.C 0 : Matrix (Fin 5) (Fin 5) ℂ) = lineC := by
  ext i k
  show (⟨if k = (![1, 0, 2, 4, 3] : Fin 5 → Fin 5) i then 1 else 0, 0⟩ : ℂ) =
    if k = (![1, 0, 2, 4, 3] : Fin 5 → Fin 5) i then 1 else 0
  split_ifs <;> rfl

theorem soaLine_S (w : Unit) : (cx (soaLine.rS w) (soaLine.iS w) : Matrix (Fin 5) (Fin 5) ℂ) = lineS := by
  ext i k
  show (⟨if k = i ∧ (i = 1 ∨ i = 2 ∨ i = 3) then 1 else 0, 0⟩ : ℂ) = if k = i ∧ (i = 1 ∨ i = 2 ∨ i = 3) then 1 else 0
  split_ifs <;> rfl

theorem soaLine_E (src : ℕ → ℕ → Unit → Unit → ℝ × ℝ) (t : ℕ) (w β : Unit) :
    (emitted soaLine.src fun k => ⟨(src t k w β).1, (src t k w β).2⟩ : Fin 5 → ℂ) = lineE src t w β := by
  funext (i : Fin 5)
  by_cases hi : i = 0
  · subst hi
    rfl
  · have h : ¬ soaLine.src i = true := by simp [soaLine, hi]
    exact (if_neg h).trans (if_neg hi).symm

theorem soaLine_mc (env : SimEnv) (i : Fin 5) : soaLine.mcAt env i = true := by
  fin_cases i <;> simp [Plant.mcAt, soaLine]

theorem soaLine_ml (env : SimEnv) : soaLine.mlPorts env = [] := by
  unfold Plant.mlPorts
  rw [List.filter_eq_nil_iff]
  intro i _
  rw [soaLine_mc env i]
  simp

theorem soaLine_init (env : SimEnv) : ∃ r, initNet soaLine env = .ok (some r) :=
  C26_initialized soaLine env soaLine_terminated ⟨(0 : Fin 5), soaLine_mc env 0⟩ (by
    intro w
    rw [soaLine_ml]
    simp)

theorem soaLine_det : portsWith soaLine.det = [(4 : Fin 5)] := by
  show (List.finRange 5).filter (fun i => decide (i = 4)) = _
  decide

/-- The circuit can be simulated, and the result is a solution of the circuit equations. -/
theorem soaLine_forward (rate) (src : ℕ → ℕ → Unit → Unit → ℝ × ℝ) :
    ∃ (r : Reduced Unit) (out : List (Unit → Unit → List (ℝ × ℝ))) (a b : ℕ → Unit → Unit → Fin 5 → ℂ),
      initNet soaLine soaEnv = .ok (some r) ∧ forwardReduced r soaEnv (soaComps 1 rate) src = .ok out ∧ out.length = 5 ∧
      ActiveSolves lineC (fun _ => lineS) (fun _ => 1) soaEnv.t (soaComps 1 rate) (lineE src) a b ∧
      ∀ t (ht : t < out.length), out[t] () () = [((a t () () 4).re, (a t () () 4).im)] := by
  obtain ⟨r, hr⟩ := soaLine_init soaEnv
  obtain ⟨out, h1, h2, ⟨a, b, h3⟩, h4⟩ := C67_active soaLine soaEnv 1 rfl one_pos rfl soaLine_exclusive
    (by rw [soaLine_det]; exact List.cons_ne_nil _ _) (fun _ => 1) (by
      intro (i : Fin 5)
      have hm : (soaLine.src i || soaLine.det i || soaLine.act i) = true := by
        fin_cases i <;> simp [soaLine]
      rw [hm]
      have : soaLine.delay i = 0 := rfl
      rw [this]
      have hr : roundSteps (0 / 1) = 0 := by
        unfold roundSteps
        rw [show (0 / 1 + 1 / 2 : ℝ) = 1 / 2 by norm_num, Int.floor_eq_zero_iff.2 ⟨by norm_num, by norm_num⟩]
        rfl
      simp only [portDelay, hr]
      rfl)
    (by intro w i j h; simp at h) r hr (soaComps 1 rate) (soaLine_made 1 rate) (by
      intro t c hc x z
      simp only [soaComps, List.mem_cons, List.not_mem_nil, or_false] at hc
      rcases hc with rfl | rfl | rfl
      · rfl
      · exact soa_length _ _ _ _ _
      · rfl) src
  have e1 : (fun w => (cx (soaLine.rS w) (soaLine.iS w) : Matrix (Fin 5) (Fin 5) ℂ)) = fun _ => lineS := funext soaLine_S
  have e2 : (fun t w β => (emitted soaLine.src fun k => ⟨(src t k w β).1, (src t k w β).2⟩ : Fin 5 → ℂ)) = lineE src :=
    funext fun t => funext₂ fun w β => soaLine_E src t w β
  have h3' : ActiveSolves (n := 5) lineC (fun _ => lineS) (fun _ => 1) soaEnv.t (soaComps 1 rate) (lineE src) a b := by
    rw [← soaLine_C, ← e1, ← e2]
    exact h3
  refine ⟨r, out, a, b, hr, h1, h2, h3', fun t ht => ?_⟩
  rw [h4 a b h3 t ht () (), soaLine_det]
  rfl

/-- Ports 1, 2 and 3 of the circuit are an amplifier. -/
theorem soaLine_soaAt (rate) (src : ℕ → ℕ → Unit → Unit → ℝ × ℝ) :
    SoaAt lineC (fun _ => lineS) (fun _ => 1) (soaComps 1 rate) (lineE src) 1 rate 1 2 3 where
  here := ⟨[onePort], [onePort], rfl, rfl, rfl, rfl⟩
  scatter := by
    intro w i hi k
    simp only [List.mem_cons, List.not_mem_nil, or_false] at hi
    rcases hi with rfl | rfl | rfl <;> simp [lineS]
  loop := fun k => rfl
  dark := by
    intro t w β i hi
    simp only [List.mem_cons, List.not_mem_nil, or_false] at hi
    rcases hi with rfl | rfl | rfl <;> simp [lineE]
  memory := rfl

/-- What arrives at the amplifier is what the source emits; what the detector sees is what leaves the amplifier. -/
theorem soaLine_waves (rate) (src : ℕ → ℕ → Unit → Unit → ℝ × ℝ) (a b : ℕ → Unit → Unit → Fin 5 → ℂ)
    (h : ActiveSolves lineC (fun _ => lineS) (fun _ => 1) soaEnv.t (soaComps 1 rate) (lineE src) a b) (t : ℕ) (ht : t < 5) :
    a t () () 1 = ⟨(src t 0 () ()).1, (src t 0 () ()).2⟩ ∧ a t () () 4 = b t () () 3 := by
  have hC : ∀ i : Fin 5, a t () () i = ∑ k : Fin 5, lineC i k * b t () () k := by
    intro i
    rw [h.incoming t ht () ()]
    rfl
  have hC1 : a t () () 1 = b t () () 0 := by
    rw [hC, Fin.sum_univ_five]
    have : ∀ k : Fin 5, lineC 1 k = if k = 0 then 1 else 0 := fun _ => rfl
    simp [this]
  have hC4 : a t () () 4 = b t () () 3 := by
    rw [hC, Fin.sum_univ_five]
    have : ∀ k : Fin 5, lineC 4 k = if k = 3 then 1 else 0 := fun _ => rfl
    simp [this]
  refine ⟨hC1.trans ?_, hC4⟩
  have ho := h.outgoing t ht [] onePort [soaActor 1 rate, onePort] rfl (0 : Fin 5) 0 (by simp [onePort]) rfl
  unfold ownAction at ho
  rw [if_neg (by simp [onePort])] at ho
  have h0 : offset ([] : List (Actor Unit Unit)) + 0 = ((0 : Fin 5) : ℕ) := rfl
  rw [h0, nodes_fin] at ho
  have := congrArg (fun x => NodeVal.cval x () ()) ho
  simp only [cval_node, Pi.add_apply] at this
  rw [this]
  have h1 : ∀ u : Fin 5 → ℂ, (lineS *ᵥ u) 0 = 0 := by
    intro u
    simp [Matrix.mulVec, dotProduct, lineS]
  rw [h1, zero_add]
  rfl

/-- End to end: with amplification 4 and a startup of two steps, the detector sees from step 2 on four times the power
emitted one step before, for every signal. -/
theorem soaLine_gain (src : ℕ → ℕ → Unit → Unit → ℝ × ℝ) :
    ∃ r out, initNet soaLine soaEnv = .ok (some r) ∧ forwardReduced r soaEnv (soaComps 1 (soaRate 4 2)) src = .ok out ∧
      ∀ t (ht : t < out.length), 2 ≤ t → ∃ z, out[t] () () = [z] ∧
        z.1 ^ 2 + z.2 ^ 2 = 4 * ((src (t - 1) 0 () ()).1 ^ 2 + (src (t - 1) 0 () ()).2 ^ 2) := by
  obtain ⟨r, out, a, b, h1, h2, h3, h4, h5⟩ := soaLine_forward (soaRate 4 2) src
  refine ⟨r, out, h1, h2, fun t ht h2t => ⟨_, h5 t ht, ?_⟩⟩
  rw [h3] at ht
  have hsoa := soaLine_soaAt (soaRate 4 ((2 : ℕ) * (1 : ℝ))) src
  have hst : (2 : ℝ) = ((2 : ℕ) : ℝ) * 1 := by norm_num
  rw [hst] at h4
  have hts : ∀ t (h : t < soaEnv.t.length), soaEnv.t[t] = t * (1 : ℝ) := by
    intro t h
    have h' : t < 5 := h
    simp only [soaEnv]
    interval_cases t <;> norm_num
  have := C47_soa_partial (4 : ℝ) (by norm_num) one_pos 2 (by norm_num) hsoa hts h4 t h2t ht () ()
  rw [(soaLine_waves _ src a b h4 t ht).2]
  have h6 : delayed (fun _ : Fin 5 => 1) (fun t => a t () ()) t 1 = ⟨(src (t - 1) 0 () ()).1, (src (t - 1) 0 () ()).2⟩ := by
    rw [delayed, if_pos (by omega)]
    exact (soaLine_waves _ src a b h4 (t - 1) (by omega)).1
  rw [h6, Complex.normSq_apply, Complex.normSq_apply] at this
  rw [sq, sq, this, sq, sq]

/-! ### Concrete instances of the hypotheses -/

/-- Every source signal reaching the amplifier is reflected. -/
example (src : ℕ → ℕ → Unit → Unit → ℝ × ℝ) : ∃ a b : ℕ → Unit → Unit → Fin 5 → ℂ,
    ActiveSolves lineC (fun _ => lineS) (fun _ => 1) soaEnv.t (soaComps 1 (soaRate 4 2)) (lineE src) a b ∧
    b 3 () () 1 = ⟨(src 2 0 () ()).1, (src 2 0 () ()).2⟩ := by
  obtain ⟨-, -, a, b, -, -, -, h4, -⟩ := soaLine_forward (soaRate 4 2) src
  refine ⟨a, b, h4, ?_⟩
  rw [C63_violation (soaLine_soaAt (soaRate 4 2) src) h4 3 (by simp [soaEnv]) () ()]
  exact (soaLine_waves _ src a b h4 2 (by norm_num)).1

theorem soaEnv_times (t : ℕ) (h : t < soaEnv.t.length) : soaEnv.t[t] = t * (1 : ℝ) := by
  have h' : t < 5 := h
  simp only [soaEnv]
  interval_cases t <;> norm_num

/-- With a startup time of one and a half steps the power gain exceeds the amplification. -/
example : ∃ a b : ℕ → Unit → Unit → Fin 5 → ℂ,
    ActiveSolves lineC (fun _ => lineS) (fun _ => 1) soaEnv.t (soaComps 1 (soaRate 4 (3 / 2))) (lineE fun _ _ _ _ => (1, 0)) a b ∧
    4 < Complex.normSq (b 3 () () 3) := by
  obtain ⟨-, -, a, b, -, -, -, h4, -⟩ := soaLine_forward (soaRate 4 (3 / 2)) fun _ _ _ _ => (1, 0)
  refine ⟨a, b, h4, ?_⟩
  have hin : delayed (fun _ : Fin 5 => 1) (fun t => a t () ()) 3 1 = 1 := by
    rw [delayed, if_pos (by norm_num)]
    exact ((soaLine_waves _ _ a b h4 2 (by norm_num)).1).trans (Complex.ext rfl rfl)
  have := C68_violation 4 (3 / 2) (by norm_num) one_pos (by norm_num) (by
    intro N h
    have h2 : (3 : ℝ) = 2 * N := by linarith
    have h3 : (3 : ℕ) = 2 * N := by exact_mod_cast h2
    omega) (soaLine_soaAt (soaRate 4 (3 / 2)) fun _ _ _ _ => (1, 0)) soaEnv_times h4 3 (by norm_num) (by simp [soaEnv]) () ()
    (by rw [hin]; exact one_ne_zero)
  rw [hin] at this
  simpa using this

/-- An imaginary field passes an `AgrawalSoa` without amplification. -/
example (q : Agrawal) (c : ℝ) : ∃ a b : ℕ → Unit → Unit → Fin 5 → ℂ,
    ActiveSolves lineC (fun _ => lineS) (fun _ => 1) soaEnv.t (soaComps 1 (q.rate c)) (lineE fun _ _ _ _ => (0, 1)) a b ∧
    Complex.normSq (b 3 () () 3) = 1 := by
  obtain ⟨-, -, a, b, -, -, -, h4, -⟩ := soaLine_forward (q.rate c) fun _ _ _ _ => (0, 1)
  refine ⟨a, b, h4, ?_⟩
  have hin : delayed (fun _ : Fin 5 => 1) (fun t => a t () ()) 3 1 = Complex.I := by
    rw [delayed, if_pos (by norm_num)]
    exact ((soaLine_waves _ _ a b h4 2 (by norm_num)).1).trans (Complex.ext rfl rfl)
  rw [(C47_violation q c (soaLine_soaAt (q.rate c) fun _ _ _ _ => (0, 1)) h4 3 (by simp [soaEnv]) () ()).1
    (by rw [hin]; rfl), hin]
  simp

/-- An amplifier with small-signal gain (unit dimensions, twice the threshold current). -/
noncomputable def gainy : Agrawal := ⟨1, 1, 1, 1, 1, 2 * 1.6e-19, 1, 1, 1, 1⟩

example : gainy.g0 * gainy.L = 1 := by
  unfold Agrawal.g0 Agrawal.threshold Agrawal.volume gainy
  norm_num

/-- It amplifies a real field. -/
example (c : ℝ) : ∃ a b : ℕ → Unit → Unit → Fin 5 → ℂ,
    ActiveSolves lineC (fun _ => lineS) (fun _ => 1) soaEnv.t (soaComps 1 (gainy.rate c)) (lineE fun _ _ _ _ => (1, 0)) a b ∧
    Complex.normSq (b 1 () () 3) = Real.exp 1 := by
  obtain ⟨-, -, a, b, -, -, -, h4, -⟩ := soaLine_forward (gainy.rate c) fun _ _ _ _ => (1, 0)
  refine ⟨a, b, h4, ?_⟩
  have hg : gainy.g0 * gainy.L = 1 := by
    unfold Agrawal.g0 Agrawal.threshold Agrawal.volume gainy
    norm_num
  have hin : delayed (fun _ : Fin 5 => 1) (fun t => a t () ()) 1 1 = 1 := by
    rw [delayed, if_pos (by norm_num)]
    exact ((soaLine_waves _ _ a b h4 0 (by norm_num)).1).trans (Complex.ext rfl rfl)
  have := ((C47_phase_violation gainy c one_ne_zero (by simp [gainy]) (by rw [hg]; exact one_ne_zero)
    (soaLine_soaAt (gainy.rate c) fun _ _ _ _ => (1, 0)) h4 (by simp [soaEnv]) () () (by rw [hin]; exact one_ne_zero)).2
    (by rw [hin]; rfl)).1
  rw [this, hin, hg]
  simp [gainy]

/-- C84 is false: an optimizer may bring the amplification of a trainable `Soa` below one. -/
theorem C84_violation : ¬C84 := by
  intro h
  obtain ⟨-, -, a, b, -, -, -, h4, -⟩ := soaLine_forward (soaRate (1 / 4) 1) fun _ _ _ _ => (1, 0)
  have e : ([-(7 / 4)] : List ℝ).foldl (fun q δ => q.update δ) (⟨2, 1, true⟩ : SoaParams) = ⟨1 / 4, 1, true⟩ := by
    simp [SoaParams.update]
    norm_num
  have h1 := h 5 lineC (fun _ => lineS) (fun _ => 1) _ _ _ _ _ soaEnv.t a b 1 2 1 true ⟨2, 1, true⟩ [-(7 / 4)] one_pos
    (if_neg (by norm_num)) (by rw [e]; exact soaLine_soaAt (soaRate (1 / 4) 1) fun _ _ _ _ => (1, 0)) soaEnv_times h4 3 (by simp [soaEnv])
  have hin : delayed (fun _ : Fin 5 => 1) (fun t => a t () ()) 3 1 = 1 := by
    rw [delayed, if_pos (by norm_num)]
    exact ((soaLine_waves _ _ a b h4 2 (by norm_num)).1).trans (Complex.ext rfl rfl)
  have h2 := C47_soa_partial (1 / 4) (by norm_num) one_pos 1 one_pos (by
    simpa using soaLine_soaAt (soaRate (1 / 4) 1) fun _ _ _ _ => (1, 0)) soaEnv_times h4 3 (by norm_num) (by simp [soaEnv]) () ()
  rw [h2, hin] at h1
  norm_num at h1

/-- The amplifier of the line amplifies at every step. -/
example (src : ℕ → ℕ → Unit → Unit → ℝ × ℝ) : ∃ a b : ℕ → Unit → Unit → Fin 5 → ℂ,
    ActiveSolves lineC (fun _ => lineS) (fun _ => 1) soaEnv.t (soaComps 1 (soaRate 4 2)) (lineE src) a b ∧
    ∀ t < 5, Complex.normSq (delayed (fun _ => 1) (fun t => a t () ()) t 1) ≤ Complex.normSq (b t () () 3) := by
  obtain ⟨-, -, a, b, -, -, -, h4, -⟩ := soaLine_forward (soaRate 4 2) src
  obtain ⟨q, hq, h⟩ := (C84_amplifies_partial (C := lineC) (S := fun _ => lineS) (d := fun _ => 1) (cs := soaComps 1 (soaRate 4 2))
    (s := lineE src) (i₀ := 1) (i₁ := 2) (i₂ := 3) (ts := soaEnv.t) (a := a) (b := b) (dt := 1) 4 2 true).2 (by norm_num)
  have hq' : q = ⟨4, 2, true⟩ := by
    have : soaNew 4 2 true = .ok ⟨4, 2, true⟩ := if_neg (by norm_num)
    rw [this] at hq
    cases hq
    rfl
  subst hq'
  exact ⟨a, b, h4, fun t ht => h [] (.inr rfl) one_pos (soaLine_soaAt _ src) soaEnv_times h4 t (by simpa [soaEnv] using ht) () ()⟩

end PT
