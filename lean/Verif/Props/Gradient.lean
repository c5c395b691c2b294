import Verif.Proof.Tuned
import Verif.Props.Circuits
import Verif.Props.Filters

/-!
# C90: the detected signals are differentiable in the trainable parameters, and what their derivatives are
-/

namespace PT
open Spec Matrix Filter Topology

variable {E : Type} [NormedAddCommGroup E] [NormedSpace ℝ E] {θ₀ : E} {W B : Type}

theorem simulated_unique {d : Dev} {v : ℝ} {wl : W → ℝ} {env : SimEnv} {src : ℕ → ℕ → W → B → ℝ × ℝ}
    {o o' : List (W → B → List (ℝ × ℝ))} (h : Simulated d v wl env src o) (h' : Simulated d v wl env src o') : o = o' := by
  obtain ⟨r, h1, h2⟩ := h
  obtain ⟨r', h1', h2'⟩ := h'
  rw [h1] at h1'
  simp only [Except.ok.injEq, Option.some.injEq] at h1'
  subst h1'
  rw [h2] at h2'
  simpa using h2'

theorem flat_noMix {d : Dev} {L : List Part} (hf : Flat d L) (v : ℝ) (wl : W → ℝ) (env : SimEnv) (w : W) :
    (d.plant v wl).NoMix env w := by
  have key : ∀ i j, (d.plant v wl).Sx w i j ≠ 0 → (d.plant v wl).stepDelay env i = (d.plant v wl).stepDelay env j := by
    intro i j h
    obtain ⟨e, s1, s2, d1, d2⟩ := plant_same hf v wl w i j h
    unfold Plant.stepDelay Plant.marked Plant.steps Plant.seconds
    rw [s1, s2, d1, d2, e, plant_act hf, plant_act hf]
  intro i j hi hj
  constructor
  · by_contra h
    exact hj (key i j h ▸ hi)
  · by_contra h
    exact hj ((key j i h).trans hi)

theorem dif_cx {f g : E → ℝ} (hf : DifferentiableAt ℝ f θ₀) (hg : DifferentiableAt ℝ g θ₀) :
    DifferentiableAt ℝ (fun θ => (⟨f θ, g θ⟩ : ℂ)) θ₀ := by
  simp only [Complex.mk_eq_add_mul_I]
  exact (Complex.ofRealCLM.differentiableAt.comp θ₀ hf).add ((Complex.ofRealCLM.differentiableAt.comp θ₀ hg).mul_const _)

theorem fderiv_cx {f g : E → ℝ} (hf : DifferentiableAt ℝ f θ₀) (hg : DifferentiableAt ℝ g θ₀) (h : E) :
    fderiv ℝ (fun θ => (⟨f θ, g θ⟩ : ℂ)) θ₀ h = ⟨fderiv ℝ f θ₀ h, fderiv ℝ g θ₀ h⟩ := by
  have h1 : HasFDerivAt (fun θ => ((f θ : ℝ) : ℂ) + ((g θ : ℝ) : ℂ) * Complex.I) (Complex.ofRealCLM.comp (fderiv ℝ f θ₀) +
      Complex.I • Complex.ofRealCLM.comp (fderiv ℝ g θ₀)) θ₀ :=
    (Complex.ofRealCLM.hasFDerivAt.comp θ₀ hf.hasFDerivAt).add
      ((Complex.ofRealCLM.hasFDerivAt.comp θ₀ hg.hasFDerivAt).mul_const Complex.I)
  simp only [Complex.mk_eq_add_mul_I]
  rw [h1.fderiv]
  simp [mul_comm]

/-- The core: near `θ₀` the circuit can be simulated, and the detected waves belong to differentiable solutions. -/
theorem family_core [Finite W] (c : Comp) (rS iS : E → ℝ → ℕ → ℕ → ℝ) (delay : ℝ → ℕ → ℝ)
    (h1 : ∀ wl i j, DifferentiableAt ℝ (fun θ => rS θ wl i j) θ₀) (h2 : ∀ wl i j, DifferentiableAt ℝ (fun θ => iS θ wl i j) θ₀)
    (hM : ∀ θ, MadeOf (fun _ => True) ⟨c, rS θ, iS θ, delay⟩) (v : ℝ) (wl : W → ℝ) (env : SimEnv)
    (hdt : env.freqdomain = true ∨ ∃ dt, env.dt = some dt ∧ 0 < dt)
    (hd : portsWith ((Dev.mk c (rS θ₀) (iS θ₀) delay).plant v wl).det ≠ []) (src : ℕ → ℕ → W → B → ℝ × ℝ)
    (hr : ∃ r, initNet ((Dev.mk c (rS θ₀) (iS θ₀) delay).plant v wl) env = .ok (some r)) :
    ∃ out : E → List (W → B → List (ℝ × ℝ)),
      (∀ᶠ θ in 𝓝 θ₀, Simulated ⟨c, rS θ, iS θ, delay⟩ v wl env src (out θ) ∧ (out θ).length = env.t.length) ∧
      ∀ w b, ∃ a bb : E → ℕ → Fin c.n → ℂ, (∀ᶠ θ in 𝓝 θ₀,
          Solves (cx ((Dev.mk c (rS θ) (iS θ) delay).plant v wl).C 0)
            (cx (((Dev.mk c (rS θ) (iS θ) delay).plant v wl).rS w) (((Dev.mk c (rS θ) (iS θ) delay).plant v wl).iS w))
            (((Dev.mk c (rS θ₀) (iS θ₀) delay).plant v wl).stepDelay env) env.t.length
            (fun t => emitted ((Dev.mk c (rS θ) (iS θ) delay).plant v wl).src (channels src w b t)) (a θ) (bb θ) ∧
          ∀ t < env.t.length, ((out θ).getD t fun _ _ => []) w b =
            (portsWith ((Dev.mk c (rS θ₀) (iS θ₀) delay).plant v wl).det).map fun i => ((a θ t i).re, (a θ t i).im)) ∧
        ∀ t < env.t.length, ∀ i, DifferentiableAt ℝ (fun θ => a θ t i) θ₀ := by
  set P : E → Plant W := fun θ => (Dev.mk c (rS θ) (iS θ) delay).plant v wl with hP
  have hflat : ∀ θ, ∃ L, Flat (Dev.mk c (rS θ) (iS θ) delay) L := fun θ => by
    obtain ⟨-, L, -, hL⟩ := madeOf_flat (hM θ)
    exact ⟨L, hL⟩
  have hx : ∀ θ, (P θ).Exclusive := fun θ => plant_exclusive (hflat θ).choose_spec v wl
  have hact : ∀ θ i, (P θ).act i = false := fun θ => plant_act (hflat θ).choose_spec v wl
  have hmix : ∀ θ w, (P θ).NoMix env w := fun θ => flat_noMix (hflat θ).choose_spec v wl env
  have hd' : ∀ θ, (P θ).numDet ≠ 0 := fun θ => by
    rw [numDet_eq, Ne, List.length_eq_zero_iff]; exact hd
  let mc : List (Fin c.n) := (P θ₀).mcOrder env
  let ml : List (Fin c.n) := (P θ₀).mlPorts env
  let C : Matrix (Fin c.n) (Fin c.n) ℂ := cx (P θ₀).C 0
  let S : W → E → Matrix (Fin c.n) (Fin c.n) ℂ := fun w θ => cx ((P θ).rS w) ((P θ).iS w)
  have hS : ∀ w i j, DifferentiableAt ℝ (fun θ => S w θ i j) θ₀ := fun w i j => dif_cx (h1 _ _ _) (h2 _ _ _)
  obtain ⟨r, hr⟩ := hr
  obtain ⟨hterm, CC, hCC, -⟩ := initNet_some hr
  have hdet : ∀ w, (1 - pick C ml ml * pick (S w θ₀) ml ml).det ≠ 0 := fun w => (reduced_redC (P θ₀) env CC w hCC).1
  have hgood : ∀ᶠ θ in 𝓝 θ₀, ∃ r, initNet (P θ) env = .ok (some r) := by
    have := eventually_all.2 fun w => pivot_near (C := C) (ml := ml) (hS w) (hdet w)
    filter_upwards [this] with θ hθ
    refine C26_initialized (P θ) env hterm ?_ hθ
    obtain ⟨i, hi⟩ := List.exists_mem_of_ne_nil _ hd
    exact ⟨i, det_mcAt (P θ) env i (List.mem_filter.1 hi).2⟩
  have hout : ∀ θ, ∃ out, (∃ r, initNet (P θ) env = .ok (some r)) → (Simulated ⟨c, rS θ, iS θ, delay⟩ v wl env src out ∧
      out.length = env.t.length) ∧ ∀ w b, (∃ a b', Solves (P θ).Cx ((P θ).Sx w) ((P θ).stepDelay env) env.t.length
          (fun t => emitted (P θ).src (channels src w b t)) a b') ∧
        ∀ a b', Solves (P θ).Cx ((P θ).Sx w) ((P θ).stepDelay env) env.t.length
          (fun t => emitted (P θ).src (channels src w b t)) a b' →
          ∀ t (ht : t < out.length), out[t] w b = (portsWith (P θ).det).map fun i => ((a t i).re, (a t i).im) := by
    intro θ
    by_cases h : ∃ r, initNet (P θ) env = .ok (some r)
    · obtain ⟨r, hr⟩ := h
      obtain ⟨out, ho, hl, h⟩ := sim_correct (P θ) env (hx θ) (hact θ) (hd' θ) hdt (hmix θ) r hr [] src
      exact ⟨out, fun _ => ⟨⟨⟨r, hr, ho⟩, hl⟩, h⟩⟩
    · exact ⟨[], fun h' => absurd h' h⟩
  choose out hout using hout
  refine ⟨out, hgood.mono fun θ hθ => (hout θ hθ).1, fun w b => ?_⟩
  have hsol : ∀ θ, ∃ a b' : ℕ → Fin c.n → ℂ, (∃ r, initNet (P θ) env = .ok (some r)) →
      Solves C (S w θ) ((P θ₀).stepDelay env) env.t.length
        (fun t => emitted (P θ₀).src (channels src w b t)) a b' := by
    intro θ
    by_cases h : ∃ r, initNet (P θ) env = .ok (some r)
    · obtain ⟨a, b', hs⟩ := ((hout θ h).2 w b).1
      exact ⟨a, b', fun _ => hs⟩
    · exact ⟨fun _ _ => 0, fun _ _ => 0, fun h' => absurd h' h⟩
  choose a bb hsol using hsol
  refine ⟨a, bb, ?_, fun t ht i => ?_⟩
  · filter_upwards [hgood] with θ hθ
    refine ⟨hsol θ hθ, fun t ht => ?_⟩
    have hl := (hout θ hθ).1.2
    have := ((hout θ hθ).2 w b).2 (a θ) (bb θ) (hsol θ hθ) t (by omega)
    rw [List.getD_eq_getElem?_getD, List.getElem?_eq_getElem (by omega)]
    exact this
  · refine solves_dif (mc := mc) (ml := ml) (C := C) (S := S w) (plant_splits (P θ₀) env (hx θ₀)) (fun k => ?_) (fun k => ?_)
      (hS w) (fun θ => noMix_decoupled (P θ) env w (hmix θ w)) (hdet w) (fun t => ?_) (hgood.mono fun θ hθ => hsol θ hθ) t ht i
    · exact stepDelay_ml (P θ₀) env _ ((mem_mlPorts (P θ₀) env _).1 (List.get_mem _ k))
    · rw [stepDelay_mc (P θ₀) env _ ((mem_mcOrder (P θ₀) env _).1 (List.get_mem _ k))]; omega
    · funext k
      have := (mem_mlPorts (P θ₀) env _).1 (List.get_mem ml k)
      have hns : (P θ₀).src (ml.get k) = false := by
        cases h : (P θ₀).src (ml.get k) with
        | false => rfl
        | true => rw [src_mcAt (P θ₀) env _ h] at this; cases this
      simp only [Function.comp_apply, emitted, hns]; rfl

section
variable [Finite W] {D : E → Dev} (hT : Tuned θ₀ D) (v : ℝ) (wl : W → ℝ) (env : SimEnv)
  (hd : portsWith ((D θ₀).plant v wl).det ≠ []) (hr : ∃ r, initNet ((D θ₀).plant v wl) env = .ok (some r))
  (src : ℕ → ℕ → W → B → ℝ × ℝ)
include hT hd hr

/-- C90. A circuit that can be simulated can also be simulated for all nearby values of its trainable parameters. -/
theorem C90_nearby (hdt : env.freqdomain = true ∨ ∃ dt, env.dt = some dt ∧ 0 < dt) :
    ∀ᶠ θ in 𝓝 θ₀, ∃ out, Simulated (D θ) v wl env src out ∧ out.length = env.t.length := by
  obtain ⟨c, rS, iS, delay, he, h1, h2⟩ := tuned_dev hT
  have hM := tuned_made hT
  obtain rfl : D = fun θ => ⟨c, rS θ, iS θ, delay⟩ := funext he
  obtain ⟨out, ho, -⟩ := family_core c rS iS delay h1 h2 hM v wl env hdt hd src hr
  exact ho.mono fun θ h => ⟨out θ, h⟩

/-- C90. Everything that is detected, at any time, wavelength and batch, is a differentiable function of all trainable
parameters together. -/
theorem C90_differentiable (hdt : env.freqdomain = true ∨ ∃ dt, env.dt = some dt ∧ 0 < dt)
    (out : E → List (W → B → List (ℝ × ℝ))) (hout : ∀ᶠ θ in 𝓝 θ₀, Simulated (D θ) v wl env src (out θ)) (t : ℕ) (w : W) (b : B) (k : ℕ) :
    DifferentiableAt ℝ (fun θ => fieldAt (out θ) t w b k) θ₀ := by
  obtain ⟨c, rS, iS, delay, he, h1, h2⟩ := tuned_dev hT
  have hM := tuned_made hT
  obtain rfl : D = fun θ => ⟨c, rS θ, iS θ, delay⟩ := funext he
  obtain ⟨out', ho, hsol⟩ := family_core c rS iS delay h1 h2 hM v wl env hdt hd src hr
  obtain ⟨a, bb, hs, ha⟩ := hsol w b
  have hconst : ∀ᶠ θ in 𝓝 θ₀, fieldAt (out θ) t w b k = if ht : t < env.t.length then
      (if hk : k < (portsWith ((Dev.mk c (rS θ₀) (iS θ₀) delay).plant v wl).det).length then
        a θ t (portsWith ((Dev.mk c (rS θ₀) (iS θ₀) delay).plant v wl).det)[k] else 0) else 0 := by
    filter_upwards [ho, hs, hout] with θ h h' h''
    rw [simulated_unique h'' h.1]
    unfold fieldAt
    split_ifs with ht hk
    · rw [h'.2 t ht, List.getD_eq_getElem?_getD, List.getElem?_map, List.getElem?_eq_getElem hk]
      rfl
    · rw [h'.2 t ht, List.getD_eq_getElem?_getD, List.getElem?_map, List.getElem?_eq_none (by omega)]
      rfl
    · rw [List.getD_eq_getElem?_getD (l := out' θ), List.getElem?_eq_none (by omega)]
      rfl
  refine DifferentiableAt.congr_of_eventuallyEq ?_ hconst
  split_ifs with ht hk
  · exact ha t ht _
  · exact differentiableAt_const _
  · exact differentiableAt_const _

/-- C90. The same for the detected power. -/
theorem C90_power (hdt : env.freqdomain = true ∨ ∃ dt, env.dt = some dt ∧ 0 < dt)
    (out : E → List (W → B → List ℝ)) (hout : ∀ᶠ θ in 𝓝 θ₀, ∃ r, initNet ((D θ).plant v wl) env = .ok (some r) ∧
      forwardPower r env [] src = .ok (out θ)) (t : ℕ) (w : W) (b : B) (k : ℕ) :
    DifferentiableAt ℝ (fun θ => (((out θ).getD t fun _ _ => []) w b).getD k 0) θ₀ := by
  have hex : ∀ θ, ∃ o, (∃ r, initNet ((D θ).plant v wl) env = .ok (some r) ∧ forwardPower r env [] src = .ok (out θ)) →
      Simulated (D θ) v wl env src o ∧ out θ = o.map fun o w b => (o w b).map fun u => u.1 ^ 2 + u.2 ^ 2 := by
    intro θ
    by_cases h : ∃ r, initNet ((D θ).plant v wl) env = .ok (some r) ∧ forwardPower r env [] src = .ok (out θ)
    · obtain ⟨r, hr, hp⟩ := h
      unfold forwardPower at hp
      cases ho : forwardReduced r env ([] : List (Actor W B)) src with
      | error e => rw [ho] at hp; cases hp
      | ok o =>
        rw [ho] at hp
        simp only [Except.map, Except.ok.injEq] at hp
        exact ⟨o, fun _ => ⟨⟨r, hr, ho⟩, hp.symm⟩⟩
    · exact ⟨[], fun h' => absurd h' h⟩
  choose o ho using hex
  have h1 := C90_differentiable hT v wl env hd hr src hdt o (hout.mono fun θ h => (ho θ h).1) t w b k
  have h2 : DifferentiableAt ℝ (fun θ => (fieldAt (o θ) t w b k).re ^ 2 + (fieldAt (o θ) t w b k).im ^ 2) θ₀ :=
    ((Complex.reCLM.differentiableAt.comp θ₀ h1).pow 2).add ((Complex.imCLM.differentiableAt.comp θ₀ h1).pow 2)
  refine h2.congr_of_eventuallyEq ?_
  filter_upwards [hout] with θ h
  rw [(ho θ h).2]
  unfold fieldAt asComplex
  simp only [List.getD_eq_getElem?_getD, List.getElem?_map]
  cases (o θ)[t]? with
  | none => simp
  | some x =>
    simp only [Option.map_some, Option.getD_some, List.getElem?_map]
    cases (x w b)[k]? with
    | none => simp
    | some u => simp

theorem family_linear (hdt : env.freqdomain = true ∨ ∃ dt, env.dt = some dt ∧ 0 < dt)
    (out : E → List (W → B → List (ℝ × ℝ))) (hout : ∀ᶠ θ in 𝓝 θ₀, Simulated (D θ) v wl env src (out θ)) (w : W) (b : B) (h : E) :
    (∃ a bb a' bb', Solves (cx ((D θ₀).plant v wl).C 0) (cx (((D θ₀).plant v wl).rS w) (((D θ₀).plant v wl).iS w))
          (((D θ₀).plant v wl).stepDelay env) env.t.length
          (fun t => emitted ((D θ₀).plant v wl).src (channels src w b t)) a bb ∧
        Solves (cx ((D θ₀).plant v wl).C 0) (cx (((D θ₀).plant v wl).rS w) (((D θ₀).plant v wl).iS w))
          (((D θ₀).plant v wl).stepDelay env) env.t.length
          (fun t => dScatter D θ₀ h (wl w) *ᵥ delayed (((D θ₀).plant v wl).stepDelay env) a t) a' bb') ∧
      ∀ a bb a' bb', Solves (cx ((D θ₀).plant v wl).C 0) (cx (((D θ₀).plant v wl).rS w) (((D θ₀).plant v wl).iS w))
          (((D θ₀).plant v wl).stepDelay env) env.t.length
          (fun t => emitted ((D θ₀).plant v wl).src (channels src w b t)) a bb →
        Solves (cx ((D θ₀).plant v wl).C 0) (cx (((D θ₀).plant v wl).rS w) (((D θ₀).plant v wl).iS w))
          (((D θ₀).plant v wl).stepDelay env) env.t.length
          (fun t => dScatter D θ₀ h (wl w) *ᵥ delayed (((D θ₀).plant v wl).stepDelay env) a t) a' bb' →
        ∀ t < env.t.length, ∀ k (hk : k < (portsWith ((D θ₀).plant v wl).det).length),
          fderiv ℝ (fun θ => fieldAt (out θ) t w b k) θ₀ h = a' t (portsWith ((D θ₀).plant v wl).det)[k] := by
  obtain ⟨c, rS, iS, delay, he, h1, h2⟩ := tuned_dev hT
  have hM := tuned_made hT
  obtain rfl : D = fun θ => ⟨c, rS θ, iS θ, delay⟩ := funext he
  obtain ⟨out', ho, hsol⟩ := family_core c rS iS delay h1 h2 hM v wl env hdt hd src hr
  obtain ⟨a, bb, hs, ha⟩ := hsol w b
  obtain ⟨-, L, -, hL⟩ := madeOf_flat (hM θ₀)
  have hlin := solves_fderiv (C := cx ((Dev.mk c (rS θ₀) (iS θ₀) delay).plant v wl).C 0)
    (d := ((Dev.mk c (rS θ₀) (iS θ₀) delay).plant v wl).stepDelay env) (b := bb) (T := env.t.length)
    (s := fun t => emitted ((Dev.mk c (rS θ₀) (iS θ₀) delay).plant v wl).src (channels src w b t))
    (S := fun θ => cx (((Dev.mk c (rS θ) (iS θ) delay).plant v wl).rS w)
    (((Dev.mk c (rS θ) (iS θ) delay).plant v wl).iS w)) (fun i j => dif_cx (h1 _ _ _) (h2 _ _ _))
    (hs.mono fun θ h => h.1) ha h
  have hdS : (Matrix.of fun i j => fderiv ℝ (fun θ => cx (((Dev.mk c (rS θ) (iS θ) delay).plant v wl).rS w)
      (((Dev.mk c (rS θ) (iS θ) delay).plant v wl).iS w) i j) θ₀ h) =
      dScatter (fun θ => Dev.mk c (rS θ) (iS θ) delay) θ₀ h (wl w) := by
    ext i j
    exact fderiv_cx (h1 _ _ _) (h2 _ _ _) h
  rw [hdS] at hlin
  have hbase := hs.self_of_nhds.1
  refine ⟨⟨_, _, _, _, hbase, hlin⟩, ?_⟩
  obtain ⟨r, hr⟩ := hr
  dsimp only at hr ⊢
  set p := (Dev.mk c (rS θ₀) (iS θ₀) delay).plant v wl with hp
  obtain ⟨-, CC, hCC, -⟩ := initNet_some hr
  intro x xx x' xx' hx hx' t ht k hk
  have huniq : ∀ {s a a' b b' : ℕ → Fin c.n → ℂ}, Solves (cx p.C 0) (cx (p.rS w) (p.iS w)) (p.stepDelay env) env.t.length s a b →
      Solves (cx p.C 0) (cx (p.rS w) (p.iS w)) (p.stepDelay env) env.t.length s a' b' → ∀ t < env.t.length, a t = a' t := by
    intro s a a' b b' h1 h2 t ht
    refine solves_unique (mc := p.mcOrder env) (ml := p.mlPorts env) (plant_splits p env (plant_exclusive hL v wl)) (fun k => ?_)
      (fun k => ?_) (noMix_decoupled p env w (flat_noMix hL v wl env w)) (reduced_redC p env CC w hCC).1 h1 h2 t ht
    · exact stepDelay_ml p env _ ((mem_mlPorts p env _).1 (List.get_mem _ k))
    · rw [stepDelay_mc p env _ ((mem_mcOrder p env _).1 (List.get_mem _ k))]; omega
  have e : ∀ t < env.t.length, x t = a θ₀ t := fun t ht => huniq hx hbase t ht
  have hx2 : Solves (cx p.C 0) (cx (p.rS w) (p.iS w)) (p.stepDelay env) env.t.length
      (fun t => dScatter (fun θ => Dev.mk c (rS θ) (iS θ) delay) θ₀ h (wl w) *ᵥ delayed (p.stepDelay env) (a θ₀) t) x' xx' := by
    refine ⟨hx'.incoming, fun t ht => ?_⟩
    refine (hx'.outgoing t ht).trans ?_
    congr 2
    funext i
    unfold delayed
    split_ifs
    · rw [e _ (by omega)]
    · rfl
  have e2 := huniq hx2 hlin t ht
  have hfield : ∀ᶠ θ in 𝓝 θ₀, fieldAt (out θ) t w b k = a θ t (portsWith p.det)[k] := by
    filter_upwards [ho, hs, hout] with θ h h' h''
    rw [simulated_unique h'' h.1]
    unfold fieldAt
    rw [h'.2 t ht, List.getD_eq_getElem?_getD, List.getElem?_map, List.getElem?_eq_getElem hk]
    rfl
  rw [Filter.EventuallyEq.fderiv_eq hfield, e2]

/-- C90. The derivative of a detected signal, in the direction `h` of parameter space, is what the same circuit delivers to
the detector if every port emits what the change of the scattering matrix makes of the wave there. -/
theorem C90_derivative_time (dt : ℝ) (hdt : env.dt = some dt) (hpos : 0 < dt) (hf : env.freqdomain = false)
    (out : E → List (W → B → List (ℝ × ℝ))) (hout : ∀ᶠ θ in 𝓝 θ₀, Simulated (D θ) v wl env src (out θ)) (w : W) (b : B) (h : E) :
    (∃ a bb a' bb', Solves (cx ((D θ₀).plant v wl).C 0) (cx (((D θ₀).plant v wl).rS w) (((D θ₀).plant v wl).iS w))
          (circuitDelay (D θ₀) v wl dt) env.t.length
          (fun t => emitted ((D θ₀).plant v wl).src fun k => ⟨(src t k w b).1, (src t k w b).2⟩) a bb ∧
        Solves (cx ((D θ₀).plant v wl).C 0) (cx (((D θ₀).plant v wl).rS w) (((D θ₀).plant v wl).iS w))
          (circuitDelay (D θ₀) v wl dt) env.t.length
          (fun t => dScatter D θ₀ h (wl w) *ᵥ delayed (circuitDelay (D θ₀) v wl dt) a t) a' bb') ∧
      ∀ a bb a' bb', Solves (cx ((D θ₀).plant v wl).C 0) (cx (((D θ₀).plant v wl).rS w) (((D θ₀).plant v wl).iS w))
          (circuitDelay (D θ₀) v wl dt) env.t.length
          (fun t => emitted ((D θ₀).plant v wl).src fun k => ⟨(src t k w b).1, (src t k w b).2⟩) a bb →
        Solves (cx ((D θ₀).plant v wl).C 0) (cx (((D θ₀).plant v wl).rS w) (((D θ₀).plant v wl).iS w))
          (circuitDelay (D θ₀) v wl dt) env.t.length
          (fun t => dScatter D θ₀ h (wl w) *ᵥ delayed (circuitDelay (D θ₀) v wl dt) a t) a' bb' →
        ∀ t < env.t.length, ∀ k (hk : k < (portsWith ((D θ₀).plant v wl).det).length),
          fderiv ℝ (fun θ => fieldAt (out θ) t w b k) θ₀ h = a' t (portsWith ((D θ₀).plant v wl).det)[k] := by
  have hδ : circuitDelay (D θ₀) v wl dt = ((D θ₀).plant v wl).stepDelay env := by
    obtain ⟨-, L, -, hL⟩ := madeOf_flat (tuned_made hT θ₀)
    funext i
    rw [stepDelay_time _ env dt hdt hf]
    unfold circuitDelay Plant.marked
    rw [plant_act hL, Bool.or_false]
  rw [hδ]
  exact family_linear hT v wl env hd hr src (.inr ⟨dt, hdt, hpos⟩) out hout w b h

/-- C90. The same in the frequency domain. -/
theorem C90_derivative_freq (hf : env.freqdomain = true) (ht1 : env.t.length = 1)
    (out : E → List (W → B → List (ℝ × ℝ))) (hout : ∀ᶠ θ in 𝓝 θ₀, Simulated (D θ) v wl env src (out θ)) (w : W) (b : B) (h : E) :
    (∃ a bb a' bb', SolvesStatic (cx ((D θ₀).plant v wl).C 0) (cx (((D θ₀).plant v wl).rS w) (((D θ₀).plant v wl).iS w))
          (emitted ((D θ₀).plant v wl).src fun k => ⟨(src 0 k w b).1, (src 0 k w b).2⟩) a bb ∧
        SolvesStatic (cx ((D θ₀).plant v wl).C 0) (cx (((D θ₀).plant v wl).rS w) (((D θ₀).plant v wl).iS w))
          (dScatter D θ₀ h (wl w) *ᵥ a) a' bb') ∧
      ∀ a bb a' bb', SolvesStatic (cx ((D θ₀).plant v wl).C 0) (cx (((D θ₀).plant v wl).rS w) (((D θ₀).plant v wl).iS w))
          (emitted ((D θ₀).plant v wl).src fun k => ⟨(src 0 k w b).1, (src 0 k w b).2⟩) a bb →
        SolvesStatic (cx ((D θ₀).plant v wl).C 0) (cx (((D θ₀).plant v wl).rS w) (((D θ₀).plant v wl).iS w))
          (dScatter D θ₀ h (wl w) *ᵥ a) a' bb' →
        ∀ k (hk : k < (portsWith ((D θ₀).plant v wl).det).length),
          fderiv ℝ (fun θ => fieldAt (out θ) 0 w b k) θ₀ h = a' (portsWith ((D θ₀).plant v wl).det)[k] := by
  have hlin := family_linear hT v wl env hd hr src (.inl hf) out hout w b h
  obtain ⟨c, rS, iS, delay, he, h1, h2⟩ := tuned_dev hT
  have hM := tuned_made hT
  obtain rfl : D = fun θ => ⟨c, rS θ, iS θ, delay⟩ := funext he
  dsimp only at hlin ⊢
  set p := (Dev.mk c (rS θ₀) (iS θ₀) delay).plant v wl with hp
  have hflat : ∀ θ, ∃ L, Flat (Dev.mk c (rS θ) (iS θ) delay) L := fun θ => by
    obtain ⟨-, L, -, hL⟩ := madeOf_flat (hM θ)
    exact ⟨L, hL⟩
  have hdel : ∀ j, p.stepDelay env j ≠ 0 → (p.src j || p.det j) = true := by
    intro j hj
    unfold Plant.stepDelay at hj
    rw [steps_freq p env hf] at hj
    by_contra hc
    have : p.marked j = false := by
      unfold Plant.marked
      rw [plant_act (hflat θ₀).choose_spec v wl]
      simpa using hc
    rw [this] at hj
    simp at hj
  have hz : ∀ j, p.stepDelay env j ≠ 0 → ∀ i, cx (p.rS w) (p.iS w) i j = 0 := fun j hj i =>
    (plant_term (hflat θ₀).choose_spec v wl w j (hdel j hj) i).2
  have hz' : ∀ j, p.stepDelay env j ≠ 0 → ∀ i,
      dScatter (fun θ => Dev.mk c (rS θ) (iS θ) delay) θ₀ h (wl w) i j = 0 := by
    intro j hj i
    have key : ∀ θ, cx (((Dev.mk c (rS θ) (iS θ) delay).plant v wl).rS w)
        (((Dev.mk c (rS θ) (iS θ) delay).plant v wl).iS w) i j = 0 := fun θ =>
      (plant_term (hflat θ).choose_spec v wl w j (hdel j hj) i).2
    have k1 : (fun θ => rS θ (wl w) i j) = fun _ => 0 := funext fun θ => congrArg Complex.re (key θ)
    have k2 : (fun θ => iS θ (wl w) i j) = fun _ => 0 := funext fun θ => congrArg Complex.im (key θ)
    simp only [dScatter, Matrix.of_apply, k1, k2]
    simp
    rfl
  have hmul : ∀ a : ℕ → Fin c.n → ℂ, dScatter (fun θ => Dev.mk c (rS θ) (iS θ) delay) θ₀ h (wl w) *ᵥ delayed (p.stepDelay env) a 0 =
      dScatter (fun θ => Dev.mk c (rS θ) (iS θ) delay) θ₀ h (wl w) *ᵥ a 0 := by
    intro a
    funext i
    simp only [Matrix.mulVec, dotProduct, delayed]
    refine Finset.sum_congr rfl fun j _ => ?_
    by_cases hj : p.stepDelay env j = 0
    · simp [hj]
    · rw [hz' j hj i, zero_mul, zero_mul]
  rw [ht1] at hlin
  obtain ⟨⟨a, bb, a', bb', e1, e2⟩, hall⟩ := hlin
  refine ⟨⟨a 0, bb 0, a' 0, bb' 0, (solves_one_iff _ _ _ hz _ _ _).1 e1, ?_⟩, ?_⟩
  · have := (solves_one_iff _ _ _ hz _ _ _).1 e2
    rw [hmul] at this
    exact this
  · intro x xx x' xx' hx hx' k hk
    refine hall (fun _ => x) (fun _ => xx) (fun _ => x') (fun _ => xx') ((solves_one_iff _ _ _ hz _ _ _).2 hx)
      ((solves_one_iff _ _ _ hz _ _ _).2 ?_) 0 one_pos k hk
    rw [hmul fun _ => x]
    exact hx'

end

/-! ## The ring of the first notebook, trained in its coupling and in the phase of the ring -/

/-- The ring with coupling weight `θ.1` and phase `θ.2`. -/
noncomputable def exTrained (θ : ℝ × ℝ) : Dev :=
  (allPass_wired (boundedValue (θ.1 : ℝ) 0 1) nbRing nbRing { nbRing with phase := θ.2 }).choose

theorem exTrained_spec (θ : ℝ × ℝ) : LinkedNet (allPassModules (boundedValue (θ.1 : ℝ) 0 1) nbRing nbRing { nbRing with phase := θ.2 })
    allPassLinks (exTrained θ) ∧ MadeOf (fun _ => True) (exTrained θ) ∧
    Wired (exTrained θ) (allPassParts (boundedValue (θ.1 : ℝ) 0 1) nbRing nbRing { nbRing with phase := θ.2 }) allPassPairs :=
  (allPass_wired (boundedValue (θ.1 : ℝ) 0 1) nbRing nbRing { nbRing with phase := θ.2 }).choose_spec

theorem exTrained_tuned (θ₀ : ℝ × ℝ) : Tuned θ₀ exTrained := by
  have hpart : ∀ p : ℝ × ℝ → Part, Trainable θ₀ p → (∀ θ, 0 < (p θ).n) → Tuned θ₀ fun θ => (p θ).dev := fun p => .part p
  refine .net none [("src".toList, fun _ => Part.source.dev), ("wg_in".toList, fun _ => nbRing.part.dev),
    ("dc".toList, fun θ => (Part.coupler (boundedValue (θ.1 : ℝ) 0 1)).dev), ("wg_through".toList, fun _ => nbRing.part.dev),
    ("wg_ring".toList, fun θ => (Wg.part { nbRing with phase := θ.2 }).dev), ("det".toList, fun _ => Part.detector.dev)]
    allPassConns exTrained ?_ (goodConns_dec (by decide +kernel)) ⟨by decide +kernel, by decide +kernel⟩
    ⟨by decide +kernel, by decide +kernel, by decide +kernel⟩ ?_
  · intro m hm
    simp only [List.mem_cons, List.not_mem_nil, or_false] at hm
    rcases hm with rfl | rfl | rfl | rfl | rfl | rfl
    · exact hpart _ (.fixed _) fun _ => Nat.one_pos
    · exact hpart _ (.fixed _) fun _ => Nat.two_pos
    · exact hpart _ (.coupler _ differentiableAt_fst) fun _ => (by decide : 0 < 4)
    · exact hpart _ (.fixed _) fun _ => Nat.two_pos
    · exact hpart _ (.waveguide _ _ _ _ _ _ differentiableAt_snd) fun _ => Nat.two_pos
    · exact hpart _ (.fixed _) fun _ => Nat.one_pos
  · intro θ
    have := (exTrained_spec θ).1.2
    rw [allPass_conns.2] at this
    exact this

theorem exTrained_det (θ : ℝ × ℝ) (v : ℝ) (wl : W → ℝ) : portsWith ((exTrained θ).plant v wl).det ≠ [] := by
  intro h
  have := (allPass_marks (exTrained_spec θ).2.2).2
  rw [show portsWith (fun i : Fin (exTrained θ).comp.n => (exTrained θ).comp.det.getD i false) = [] from h] at this
  cases this

theorem exTrained_pos (x : ℝ) : 0 < boundedValue (x : ℝ) 0 1 ∧ boundedValue (x : ℝ) 0 1 < 1 := by
  rw [bounded_logistic]
  have := Real.exp_pos (-x)
  refine ⟨by positivity, ?_⟩
  rw [div_lt_one (by linarith)]
  linarith

theorem exTrained_init (θ : ℝ × ℝ) (v : ℝ) (wl : W → ℝ) (env : SimEnv) : ∃ r, initNet ((exTrained θ).plant v wl) env = .ok (some r) :=
  allPass_init (exTrained_spec θ).2.2 v wl env fun _ =>
    .inr (C89_passive _ (exTrained_pos _).1 _ (by norm_num [nbRing]) _)

/-- All assumptions of C90 hold for the ring: its field after 100 steps of 10 fs is differentiable in coupling weight and phase. -/
example (wl : Fin 3 → ℝ) (θ₀ : ℝ × ℝ) (env : SimEnv) (hdt : env.dt = some 1e-14)
    (src : ℕ → ℕ → Fin 3 → Fin 2 → ℝ × ℝ) (out : ℝ × ℝ → List (Fin 3 → Fin 2 → List (ℝ × ℝ)))
    (hout : ∀ θ, Simulated (exTrained θ) 299792458 wl env src (out θ)) :
    DifferentiableAt ℝ (fun θ => fieldAt (out θ) 100 1 1 0) θ₀ :=
  C90_differentiable (exTrained_tuned θ₀) _ wl env (exTrained_det _ _ _) (exTrained_init _ _ _ _) src (.inr ⟨_, hdt, by norm_num⟩) out
    (.of_forall hout) _ _ _ _

/-- There is such a result for all parameters near any given ones. -/
example (wl : Fin 3 → ℝ) (θ₀ : ℝ × ℝ) (env : SimEnv) (hf : env.freqdomain = true) (src : ℕ → ℕ → Fin 3 → Fin 2 → ℝ × ℝ) :
    ∀ᶠ θ in 𝓝 θ₀, ∃ out, Simulated (exTrained θ) 299792458 wl env src out ∧ out.length = env.t.length :=
  C90_nearby (exTrained_tuned θ₀) _ wl env (exTrained_det _ _ _) (exTrained_init _ _ _ _) src (.inl hf)

/-- The powers in the frequency domain. -/
example (wl : Fin 3 → ℝ) (θ₀ : ℝ × ℝ) (env : SimEnv) (hf : env.freqdomain = true) (src : ℕ → ℕ → Fin 3 → Fin 2 → ℝ × ℝ)
    (out : ℝ × ℝ → List (Fin 3 → Fin 2 → List ℝ))
    (hout : ∀ θ, ∃ r, initNet ((exTrained θ).plant 299792458 wl) env = .ok (some r) ∧ forwardPower r env [] src = .ok (out θ)) :
    DifferentiableAt ℝ (fun θ => (((out θ).getD 0 fun _ _ => []) 0 0).getD 0 0) θ₀ :=
  C90_power (exTrained_tuned θ₀) _ wl env (exTrained_det _ _ _) (exTrained_init _ _ _ _) src (.inl hf) out (.of_forall hout) _ _ _ _

/-- The derivative of the detected field in the direction of the phase of the ring is that of the linearized circuit. -/
example (wl : Fin 3 → ℝ) (θ₀ : ℝ × ℝ) (env : SimEnv) (hf : env.freqdomain = true) (ht1 : env.t.length = 1)
    (src : ℕ → ℕ → Fin 3 → Fin 2 → ℝ × ℝ) (out : ℝ × ℝ → List (Fin 3 → Fin 2 → List (ℝ × ℝ)))
    (hout : ∀ θ, Simulated (exTrained θ) 299792458 wl env src (out θ)) (w : Fin 3) (b : Fin 2)
    (hk : 0 < (portsWith ((exTrained θ₀).plant 299792458 wl).det).length) :
    ∃ a bb a' bb', SolvesStatic (cx ((exTrained θ₀).plant 299792458 wl).C 0)
        (cx (((exTrained θ₀).plant 299792458 wl).rS w) (((exTrained θ₀).plant 299792458 wl).iS w))
        (emitted ((exTrained θ₀).plant 299792458 wl).src fun k => ⟨(src 0 k w b).1, (src 0 k w b).2⟩) a bb ∧
      SolvesStatic (cx ((exTrained θ₀).plant 299792458 wl).C 0)
        (cx (((exTrained θ₀).plant 299792458 wl).rS w) (((exTrained θ₀).plant 299792458 wl).iS w))
        (dScatter exTrained θ₀ (0, 1) (wl w) *ᵥ a) a' bb' ∧
      fderiv ℝ (fun θ => fieldAt (out θ) 0 w b 0) θ₀ (0, 1) = a' (portsWith ((exTrained θ₀).plant 299792458 wl).det)[0] := by
  obtain ⟨⟨a, bb, a', bb', h1, h2⟩, h3⟩ := C90_derivative_freq (exTrained_tuned θ₀) _ wl env (exTrained_det _ _ _)
    (exTrained_init _ _ _ _) src hf ht1 out (.of_forall hout) w b (0, 1)
  exact ⟨a, bb, a', bb', h1, h2, h3 a bb a' bb' h1 h2 0 hk⟩

/-- In the time domain. -/
example (wl : Fin 3 → ℝ) (θ₀ : ℝ × ℝ) (env : SimEnv) (hdt : env.dt = some 1e-14) (hf : env.freqdomain = false)
    (src : ℕ → ℕ → Fin 3 → Fin 2 → ℝ × ℝ) (out : ℝ × ℝ → List (Fin 3 → Fin 2 → List (ℝ × ℝ)))
    (hout : ∀ θ, Simulated (exTrained θ) 299792458 wl env src (out θ)) (w : Fin 3) (b : Fin 2) (t : ℕ) (ht : t < env.t.length)
    (hk : 0 < (portsWith ((exTrained θ₀).plant 299792458 wl).det).length) :
    ∃ a' : ℕ → Fin (exTrained θ₀).comp.n → ℂ,
      fderiv ℝ (fun θ => fieldAt (out θ) t w b 0) θ₀ (1, 0) = a' t (portsWith ((exTrained θ₀).plant 299792458 wl).det)[0] := by
  obtain ⟨⟨a, bb, a', bb', h1, h2⟩, h3⟩ := C90_derivative_time (exTrained_tuned θ₀) _ wl env (exTrained_det _ _ _)
    (exTrained_init _ _ _ _) src 1e-14 hdt (by norm_num) hf out (.of_forall hout) w b (1, 0)
  exact ⟨a', h3 a bb a' bb' h1 h2 t ht 0 hk⟩

end PT
