import Verif.Props.Energy

/-!
# C34 (time domain) and C35: reciprocity of signals, and the limit of long simulations
-/

namespace PT

open Matrix Spec Filter Topology

variable {W B : Type}

theorem conv_cancel (u D : ℕ → ℂ) (k₀ T : ℕ) (hmin : ∀ k < k₀, u k = 0) (hk : u k₀ ≠ 0)
    (h : ∀ t < T + k₀, ∑ x ∈ Finset.antidiagonal t, u x.1 * D x.2 = 0) : ∀ t < T, D t = 0 := by
  intro t
  induction t using Nat.strong_induction_on with
  | _ t ih =>
    intro ht
    have h1 := h (k₀ + t) (by omega)
    rw [Finset.sum_eq_single (k₀, t)] at h1
    · exact (mul_eq_zero.1 h1).resolve_left hk
    · rintro ⟨x, y⟩ hx hne
      rw [Finset.mem_antidiagonal] at hx
      simp only at hx ⊢
      rcases lt_trichotomy x k₀ with h2 | h2 | h2
      · rw [hmin x h2, zero_mul]
      · exfalso; apply hne; rw [Prod.mk.injEq]; omega
      · rw [ih y (by omega) (by omega), mul_zero]
    · intro hn
      exact absurd (by simp) hn

theorem solves_zero {ι : Type} [Fintype ι] (C S : Matrix ι ι ℂ) (d : ι → ℕ) (T : ℕ) :
    Solves C S d T 0 0 0 := by
  have hz : ∀ t, delayed d (0 : ℕ → ι → ℂ) t = 0 := by
    intro t
    funext i
    unfold delayed
    split <;> rfl
  exact ⟨fun t _ => by simp, fun t _ => by rw [hz]; simp⟩

theorem cx_transpose {n : ℕ} (A B : Matrix (Fin n) (Fin n) ℝ) (hA : Aᵀ = A) (hB : Bᵀ = B) :
    (cx A B)ᵀ = cx A B := by
  ext1 k l
  show cx A B l k = cx A B k l
  unfold cx
  simp only [Matrix.of_apply]
  rw [show A l k = A k l from congrFun (congrFun hA k) l, show B l k = B k l from congrFun (congrFun hB k) l]

theorem solves_congr {ι : Type} [Fintype ι] {C S : Matrix ι ι ℂ} {d : ι → ℕ} {T : ℕ}
    {s s' a b : ℕ → ι → ℂ} (h : ∀ t < T, s t = s' t) (hs : Solves C S d T s a b) : Solves C S d T s' a b :=
  ⟨hs.incoming, fun t ht => by rw [hs.outgoing t ht, h t ht]⟩

/-- The circuit equations of a network that can be simulated have solutions of every length. -/
theorem solves_exists (p : Plant W) (env : SimEnv) (dt : ℝ) (hdt : env.dt = some dt) (hpos : 0 < dt)
    (hf : env.freqdomain = false) (hx : p.Exclusive) (hact : ∀ i, p.act i = false)
    (hd : portsWith p.det ≠ []) (d : Fin p.n → ℕ)
    (hdelay : ∀ i, d i = portDelay dt (p.src i || p.det i) (p.delay i))
    (hmix : ∀ w i j, d i = 0 → d j ≠ 0 →
      cx (p.rS w) (p.iS w) i j = 0 ∧ cx (p.rS w) (p.iS w) j i = 0)
    (r : Reduced W) (hr : initNet p env = .ok (some r)) (w : W) (ch : ℕ → ℕ → ℝ × ℝ) (T : ℕ) :
    ∃ a b', Solves (cx p.C 0) (cx (p.rS w) (p.iS w)) d T
      (fun t => emitted p.src fun k => asComplex (ch t k)) a b' := by
  obtain ⟨dt', f', l⟩ := env
  simp only at hdt hf
  subst hdt hf
  obtain ⟨out, -, -, h⟩ := C26_time_domain (B := Unit) p ⟨some dt, false, List.replicate T 0⟩ dt rfl hpos rfl hx hact hd d
    hdelay hmix r hr [] (fun t k _ _ => ch t k)
  have := (h w ()).1
  rw [List.length_replicate] at this
  exact this

/-- C34: in the time domain, in a circuit of reciprocal components, sending a signal into terminal `i` and
detecting at terminal `j` gives the same signal as sending it into `j` and detecting at `i`, at every time step. -/
theorem C34_reciprocal_signals (p p' : Plant W) (src' det' : Fin p.n → Bool)
    (hp' : p' = { p with src := src', det := det' })
    (env : SimEnv) (dt : ℝ) (hdt : env.dt = some dt) (hpos : 0 < dt) (hf : env.freqdomain = false)
    (hx : p.Exclusive) (hx' : ∀ i, ¬ (src' i = true ∧ det' i = true)) (hact : ∀ i, p.act i = false)
    (hsame : ∀ k, (src' k || det' k) = (p.src k || p.det k)) (d : Fin p.n → ℕ)
    (hdelay : ∀ i, d i = portDelay dt (p.src i || p.det i) (p.delay i))
    (hmix : ∀ w i j, cx (p.rS w) (p.iS w) i j ≠ 0 → d i = d j)
    (i j : Fin p.n) (hi : p.src i = true) (hj : p.det j = true) (hi' : det' i = true) (hj' : src' j = true)
    (hC : p.Cᵀ = p.C) (hS : ∀ w, (p.rS w)ᵀ = p.rS w ∧ (p.iS w)ᵀ = p.iS w)
    (r r' : Reduced W) (hr : initNet p env = .ok (some r)) (hr' : initNet p' env = .ok (some r'))
    (cs cs' : List (Actor W B)) (x : ℕ → W → B → ℝ × ℝ) :
    ∃ out out',
      forwardReduced r env cs (fun t k w b => if k = (portsWith p.src).idxOf i then x t w b else (0, 0)) = .ok out ∧
      forwardReduced r' env cs' (fun t k w b => if k = (portsWith src').idxOf j then x t w b else (0, 0)) = .ok out' ∧
      out.length = env.t.length ∧ out'.length = env.t.length ∧
      ∀ w b t (ht : t < out.length) (ht' : t < out'.length), ∃ u, (out[t] w b)[(portsWith p.det).idxOf j]? = some u ∧
        (out'[t] w b)[(portsWith det').idxOf i]? = some u := by
  subst hp'
  have hne : ∀ (q : Fin p.n → Bool) k, q k = true → portsWith q ≠ [] := by
    intro q k hk
    apply List.ne_nil_of_mem (a := k)
    simp [portsWith, hk]
  have hmix' : ∀ w i j, d i = 0 → d j ≠ 0 →
      cx (p.rS w) (p.iS w) i j = 0 ∧ cx (p.rS w) (p.iS w) j i = 0 := by
    intro w k l h1 h2
    constructor
    · by_contra h; have := hmix w k l h; omega
    · by_contra h; have := hmix w l k h; omega
  have hxp : Plant.Exclusive { p with src := src', det := det' } :=
    fun k => ⟨hx' k, by simp [hact], by simp [hact]⟩
  have hdelay' : ∀ i, d i = portDelay dt (src' i || det' i) (p.delay i) := by
    intro k; rw [hsame]; exact hdelay k
  obtain ⟨out, ho, hl, hsol⟩ := C26_time_domain p env dt hdt hpos hf hx hact (hne _ j hj) d hdelay hmix' r hr cs
    (fun t k w b => if k = (portsWith p.src).idxOf i then x t w b else (0, 0))
  obtain ⟨out', ho', hl', hsol'⟩ := C26_time_domain { p with src := src', det := det' } env dt hdt hpos hf
    hxp hact (hne _ i hi') d hdelay' hmix' r' hr' cs'
    (fun t k w b => if k = (portsWith src').idxOf j then x t w b else (0, 0))
  refine ⟨out, out', ho, ho', hl, hl', fun w b t ht ht' => ?_⟩
  have e1 : ∀ (t k0 : ℕ), (fun k => (⟨(if k = k0 then x t w b else (0, 0)).1,
      (if k = k0 then x t w b else (0, 0)).2⟩ : ℂ)) = fun k => if k = k0 then asComplex (x t w b) else 0 := by
    intro t k0
    funext k
    split <;> rfl
  have es : (fun t => emitted p.src fun k => (⟨(if k = (portsWith p.src).idxOf i then x t w b else (0, 0)).1,
      (if k = (portsWith p.src).idxOf i then x t w b else (0, 0)).2⟩ : ℂ)) =
      fun t => Pi.single i (asComplex (x t w b)) := by
    funext t; rw [e1, emitted_single p.src i hi]
  have es' : (fun t => emitted src' fun k => (⟨(if k = (portsWith src').idxOf j then x t w b else (0, 0)).1,
      (if k = (portsWith src').idxOf j then x t w b else (0, 0)).2⟩ : ℂ)) =
      fun t => Pi.single j (asComplex (x t w b)) := by
    funext t; rw [e1, emitted_single src' j hj']
  obtain ⟨-, hu⟩ := hsol w b
  obtain ⟨-, hu'⟩ := hsol' w b
  rw [es] at hu
  simp only [es'] at hu'
  have hd1 : ∀ a c, Solves (cx p.C 0) (cx (p.rS w) (p.iS w)) d env.t.length
      (fun t => Pi.single i (asComplex (x t w b))) a c →
      (out[t] w b)[(portsWith p.det).idxOf j]? = some ((a t j).re, (a t j).im) := by
    intro a c h
    rw [hu a c h t ht]; exact detected_at p.det j hj (a t)
  have hd2 : ∀ a c, Solves (cx p.C 0) (cx (p.rS w) (p.iS w)) d env.t.length
      (fun t => Pi.single j (asComplex (x t w b))) a c →
      (out'[t] w b)[(portsWith det').idxOf i]? = some ((a t i).re, (a t i).im) := by
    intro a c h
    rw [hu' a c h t ht']; exact detected_at det' i hi' (a t)
  by_cases hz : ∃ k < env.t.length, asComplex (x k w b) ≠ 0
  · classical
    obtain ⟨hk1, hk2⟩ := Nat.find_spec hz
    have hkmin : ∀ k < Nat.find hz, asComplex (x k w b) = 0 := by
      intro k hk
      have := Nat.find_min hz hk
      by_contra h
      exact this ⟨by omega, h⟩
    obtain ⟨a, c, h⟩ := solves_exists p env dt hdt hpos hf hx hact (hne _ j hj) d hdelay hmix' r hr w
      (fun t k => if k = (portsWith p.src).idxOf i then x t w b else (0, 0)) (env.t.length + Nat.find hz)
    obtain ⟨a', c', h'⟩ := solves_exists { p with src := src', det := det' } env dt hdt hpos hf hxp hact
      (hne _ i hi') d hdelay' hmix' r' hr' w
      (fun t k => if k = (portsWith src').idxOf j then x t w b else (0, 0)) (env.t.length + Nat.find hz)
    have h1 : Solves (cx p.C 0) (cx (p.rS w) (p.iS w)) d (env.t.length + Nat.find hz)
      (fun t => Pi.single i (asComplex (x t w b))) a c := solves_congr (fun t _ => congrFun es t) h
    have h2 : Solves (cx p.C 0) (cx (p.rS w) (p.iS w)) d (env.t.length + Nat.find hz)
      (fun t => Pi.single j (asComplex (x t w b))) a' c' := solves_congr (fun t _ => congrFun es' t) h'
    have hCx : (cx p.C 0)ᵀ = cx p.C 0 := cx_transpose _ _ hC (by simp)
    have hrec := reciprocal_time (cx p.C 0) _ hCx (cx_transpose _ _ (hS w).1 (hS w).2) d (hmix w) _ _ _ _ _ _ _ h1 h2
    have hD := conv_cancel (fun t => asComplex (x t w b)) (fun t => a t j - a' t i) (Nat.find hz)
      env.t.length hkmin hk2 (by
        intro t ht
        have h3 := hrec t ht
        simp only [single_dotProduct, dotProduct_single] at h3
        simp only [mul_sub, Finset.sum_sub_distrib]
        rw [h3, ← Finset.Nat.sum_antidiagonal_swap]
        simp only [Prod.fst_swap, Prod.snd_swap]
        rw [sub_eq_zero]
        exact Finset.sum_congr rfl fun y _ => mul_comm _ _) t (by omega)
    have : a t j = a' t i := sub_eq_zero.1 hD
    refine ⟨_, hd1 a c (solves_mono (by omega) h1), ?_⟩
    rw [hd2 a' c' (solves_mono (by omega) h2), this]
  · push Not at hz
    refine ⟨(0, 0), hd1 0 0 ?_, hd2 0 0 ?_⟩
    · exact solves_congr (fun t ht => by rw [hz t ht, Pi.single_zero]; rfl) (solves_zero _ _ d _)
    · exact solves_congr (fun t ht => by rw [hz t ht, Pi.single_zero]; rfl) (solves_zero _ _ d _)

example : ∃ r r', initNet (demo 2) demoTime = .ok (some r) ∧ initNet (demoBack 2) demoTime = .ok (some r') ∧
    ∃ o o', forwardReduced (B := Unit) r demoTime [] (fun t k _ _ =>
        if k = (portsWith (demo 2).src).idxOf (0 : Fin 4) then ((t : ℝ), 1) else (0, 0)) = .ok o ∧
      forwardReduced (B := Unit) r' demoTime [] (fun t k _ _ =>
        if k = (portsWith (demoBack 2).src).idxOf (3 : Fin 4) then ((t : ℝ), 1) else (0, 0)) = .ok o' := by
  obtain ⟨r, hr⟩ := demo_init 2 demoTime
  obtain ⟨r', hr'⟩ := demoBack_init 2 demoTime
  obtain ⟨o, o', h1, h2, -⟩ := C34_reciprocal_signals (demo 2) (demoBack 2) ![false, false, false, true]
    ![true, false, false, false] rfl demoTime 1 rfl one_pos rfl (demo_exclusive 2)
    (by intro (i : Fin 4); fin_cases i <;> simp) (fun _ => rfl)
    (by intro (i : Fin 4); fin_cases i <;> rfl) (demoDelay 2) (demo_delay 2)
    (by
      intro w (k : Fin 4) (l : Fin 4) h
      rw [show cx ((demo 2).rS w) ((demo 2).iS w) k l = demoM k l from
        congrFun (congrFun (demo_cx 2 w) k) l] at h
      fin_cases k <;> fin_cases l <;> first | rfl | exact absurd (by simp [demoM]) h)
    (0 : Fin 4) (3 : Fin 4) rfl rfl rfl rfl
    (demo_symm 2 ()).1 (fun w => (demo_symm 2 w).2) r r' hr hr' [] [] (fun t _ _ => ((t : ℝ), 1))
  exact ⟨r, r', hr, hr', o, o', h1, h2⟩

/-! ## C35 -/

/-- A circuit that can be initialized in the frequency domain is not resonant. -/
theorem freq_det_ne (p : Plant W) (env : SimEnv) (hf : env.freqdomain = true)
    (hx : p.Exclusive) (hact : ∀ i, p.act i = false)
    (hterm : ∀ w i, (p.src i || p.det i) = true → ∀ j,
      cx (p.rS w) (p.iS w) i j = 0 ∧ cx (p.rS w) (p.iS w) j i = 0)
    (r : Reduced W) (hr : initNet p env = .ok (some r)) (w : W) :
    (1 - cx p.C 0 * cx (p.rS w) (p.iS w)).det ≠ 0 := by
  obtain ⟨-, C, hC, rfl⟩ := initNet_some hr
  have hdel : ∀ j, p.stepDelay env j ≠ 0 → (p.src j || p.det j) = true := by
    intro j hj
    unfold Plant.stepDelay at hj
    rw [steps_freq p env hf] at hj
    by_contra hc
    have : p.marked j = false := by
      unfold Plant.marked
      rw [hact j]
      simpa using hc
    rw [this] at hj
    simp at hj
  have hmc : ∀ k, p.stepDelay env ((p.mcOrder env).get k) ≠ 0 := fun k => by
    rw [stepDelay_mc p env _ ((mem_mcOrder p env _).1 (List.get_mem _ k))]; omega
  have hsp := plant_splits p env hx
  intro h0
  obtain ⟨v, hv, hv0⟩ := Matrix.exists_mulVec_eq_zero_iff.2 h0
  rw [Matrix.sub_mulVec, Matrix.one_mulVec, ← Matrix.mulVec_mulVec, sub_eq_zero] at hv0
  have hS0 : pick (p.Sx w) (p.mcOrder env) (p.mcOrder env) = 0 := by
    ext1 k l
    exact (hterm w _ (hdel _ (hmc k)) _).1
  have hdec := noMix_decoupled p env w fun i j _ hj => ⟨(hterm w j (hdel j hj) i).2, (hterm w j (hdel j hj) i).1⟩
  have key := hsp.reduce p.Cx (p.Sx w) hdec (reduced_redC p env C w hC).1 v (p.Sx w *ᵥ v) v 0 hv0
    (by simp) rfl rfl
  rw [hS0, Matrix.zero_mulVec] at key
  have z : (0 : Fin p.n → ℂ) ∘ (p.mcOrder env).get = 0 := rfl
  rw [z, add_zero, Matrix.mulVec_zero, Matrix.mulVec_zero] at key
  exact hv (hsp.ext (fun k => congrFun key.2 k) fun k => congrFun key.1 k)

/-- C35: if the field that ever longer time-domain simulations with a constant source report for a detector
converges, the limit is the field that the frequency-domain simulation reports for this detector. -/
theorem C35_settled (p : Plant W) (dt : ℝ) (hpos : 0 < dt) (ts : ℕ → List ℝ) (hts : ∀ T, (ts T).length = T)
    (fenv : SimEnv) (hf : fenv.freqdomain = true) (ht1 : fenv.t.length = 1)
    (hx : p.Exclusive) (hact : ∀ i, p.act i = false) (hd : portsWith p.det ≠ []) (d : Fin p.n → ℕ)
    (hdelay : ∀ i, d i = portDelay dt (p.src i || p.det i) (p.delay i))
    (hmix : ∀ w i j, d i = 0 → d j ≠ 0 →
      cx (p.rS w) (p.iS w) i j = 0 ∧ cx (p.rS w) (p.iS w) j i = 0)
    (hterm : ∀ w i, (p.src i || p.det i) = true → ∀ j,
      cx (p.rS w) (p.iS w) i j = 0 ∧ cx (p.rS w) (p.iS w) j i = 0)
    (r : ℕ → Reduced W) (hr : ∀ T, initNet p ⟨some dt, false, ts T⟩ = .ok (some (r T)))
    (r' : Reduced W) (hr' : initNet p fenv = .ok (some r'))
    (cs cs' : List (Actor W B)) (src : ℕ → W → B → ℝ × ℝ) (w : W) (b : B) (q : ℕ)
    (out : ℕ → List (W → B → List (ℝ × ℝ)))
    (hout : ∀ T, forwardReduced (r T) ⟨some dt, false, ts T⟩ cs (fun _ => src) = .ok (out T))
    (y : ℕ → ℂ) (L : ℂ)
    (hy : ∀ T t f, (out T)[t]? = some f → ((f w b)[q]?).map asComplex = some (y t))
    (hL : Tendsto y atTop (𝓝 L)) :
    ∃ o, forwardReduced r' fenv cs' (fun _ => src) = .ok [o] ∧ ((o w b)[q]?).map asComplex = some L := by
  obtain ⟨o, ho, hsol⟩ := C27_freq_domain p fenv hf ht1 hx hact hd hterm r' hr' cs' (fun _ => src)
  refine ⟨o, ho, ?_⟩
  obtain ⟨⟨a₀, b₀, h₀⟩, hu⟩ := hsol w b
  have hv := hu a₀ b₀ h₀
  -- the simulations
  have hsim : ∀ T, ∃ a b', Solves (cx p.C 0) (cx (p.rS w) (p.iS w)) d T
      (fun _ => emitted p.src fun k => ⟨(src k w b).1, (src k w b).2⟩) a b' ∧
      ∀ t < T, ((((portsWith p.det).map fun i => ((a t i).re, (a t i).im)))[q]?).map asComplex = some (y t) := by
    intro T
    obtain ⟨out', ho', hl, hs⟩ := C26_time_domain p ⟨some dt, false, ts T⟩ dt rfl hpos rfl hx hact hd d hdelay hmix
      (r T) (hr T) cs (fun _ => src)
    have : out' = out T := by
      have := ho'.symm.trans (hout T)
      cases this; rfl
    subst this
    simp only [hts] at hl hs
    obtain ⟨⟨a, b', h⟩, hu⟩ := hs w b
    refine ⟨a, b', h, fun t ht => ?_⟩
    rw [← hu a b' h t (by omega)]
    exact hy T t _ (List.getElem?_eq_getElem (by omega))
  -- the detector is there
  have hq : q < (portsWith p.det).length := by
    obtain ⟨a, b', -, h⟩ := hsim 1
    have := h 0 one_pos
    by_contra hc
    rw [List.getElem?_eq_none (by simpa using hc)] at this
    cases this
  have hval : ∀ a : Fin p.n → ℂ, ((((portsWith p.det).map fun i => ((a i).re, (a i).im)))[q]?).map asComplex =
      some (a (portsWith p.det)[q]) := by
    intro a
    rw [List.getElem?_map, List.getElem?_eq_getElem hq]
    rfl
  rw [hv, hval]
  set c : Fin p.n → ℂ := cx p.C 0 *ᵥ emitted p.src fun k => ⟨(src k w b).1, (src k w b).2⟩ with hc
  have hset := settled (cx p.C 0 * cx (p.rS w) (p.iS w)) d c (portsWith p.det)[q] y L (by
    intro T
    obtain ⟨a, b', h, h2⟩ := hsim T
    refine ⟨a, fun t ht => ?_, fun t ht => ?_⟩
    · rw [h.incoming t ht, h.outgoing t ht, Matrix.mulVec_add, Matrix.mulVec_mulVec]
    · have := h2 t ht
      rw [hval] at this
      exact Option.some.inj this) hL
  have hdet := freq_det_ne p fenv hf hx hact hterm r' hr' w
  have hstat : (1 - cx p.C 0 * cx (p.rS w) (p.iS w)) *ᵥ a₀ = c := by
    rw [Matrix.sub_mulVec, Matrix.one_mulVec, ← Matrix.mulVec_mulVec, sub_eq_iff_eq_add]
    conv_lhs => rw [h₀.incoming, h₀.outgoing]
    rw [Matrix.mulVec_add, add_comm]
  rw [← hstat, Matrix.mulVec_mulVec, Matrix.adjugate_mul, Matrix.smul_mulVec, Matrix.one_mulVec,
    Pi.smul_apply, smul_eq_mul] at hset
  rw [mul_left_cancel₀ hdet hset]

theorem demo_src (τ : ℝ) : portsWith (demo τ).src = [(0 : Fin 4)] := by
  show (List.finRange 4).filter ![true, false, false, false] = _
  decide

/-- What arrives at the four ports of the demo circuit (delay 2) from a constant source of amplitude one. -/
noncomputable def demoArrive (t : ℕ) : Fin 4 → ℂ := ![0, 1, 0, if 2 ≤ t then demoPhase else 0]
/-- What leaves the four ports. -/
noncomputable def demoLeave (t : ℕ) : Fin 4 → ℂ := ![1, 0, if 2 ≤ t then demoPhase else 0, 0]

theorem demo_emitted : (emitted (demo 2).src fun _ => (⟨1, 0⟩ : ℂ) : Fin 4 → ℂ) = ![1, 0, 0, 0] := by
  funext i
  have h : (⟨1, 0⟩ : ℂ) = 1 := rfl
  rw [h]
  fin_cases i <;> simp [emitted, demo]

theorem demoDelay_two : demoDelay 2 = ![1, 2, 2, 1] := by
  have : roundSteps 2 = 2 := by simp [roundSteps]; norm_num; rfl
  unfold demoDelay
  rw [this]

theorem demo_constant (T : ℕ) :
    Solves (ι := Fin 4) (cx (demo 2).C 0) (cx ((demo 2).rS ()) ((demo 2).iS ())) (demoDelay 2) T
      (fun _ => emitted (demo 2).src fun _ => ⟨1, 0⟩) demoArrive demoLeave := by
  refine ⟨fun t _ => ?_, fun t _ => ?_⟩
  · have e : (cx (demo 2).C 0 : Matrix (Fin 4) (Fin 4) ℂ) =
        !![0, 1, 0, 0; 1, 0, 0, 0; 0, 0, 0, 1; 0, 0, 1, 0] := by
      ext1 i j
      fin_cases i <;> fin_cases j <;> rfl
    refine Eq.trans ?_ (congrArg (fun M : Matrix (Fin 4) (Fin 4) ℂ => M *ᵥ demoLeave t) e.symm)
    funext i
    rw [Matrix.mulVec, dotProduct, Fin.sum_univ_four]
    fin_cases i <;> simp [demoArrive, demoLeave]
  · rw [demo_emitted]
    refine Eq.trans ?_ (congrArg (fun M : Matrix (Fin 4) (Fin 4) ℂ =>
      M *ᵥ delayed (demoDelay 2) demoArrive t + ![1, 0, 0, 0]) (demo_cx 2 ()).symm)
    rw [demoM_mulVec, demoDelay_two]
    funext i
    by_cases ht : 2 ≤ t <;> fin_cases i <;> simp [demoLeave, demoArrive, delayed, ht]

/-- Time axes with unit step. -/
noncomputable def demoTimes (T : ℕ) : List ℝ := (List.range T).map fun t => (t : ℝ)

example : ∃ r' o, initNet (demo 2) demoFreq = .ok (some r') ∧
    forwardReduced r' demoFreq [] (fun _ _ (_ : Unit) (_ : Unit) => (1, 0)) = .ok [o] ∧
    ((o () ())[0]?).map asComplex = some demoPhase := by
  obtain ⟨r', hr'⟩ := demo_init 2 demoFreq
  have hts : ∀ T, (demoTimes T).length = T := fun T => by simp [demoTimes]
  choose r hr using fun T => demo_init 2 ⟨some 1, false, demoTimes T⟩
  choose out ho hl hs using fun T => C26_time_domain (B := Unit) (demo 2) ⟨some 1, false, demoTimes T⟩ 1 rfl one_pos
    rfl (demo_exclusive 2) (fun _ => rfl) (demo_det_ne 2) (demoDelay 2) (demo_delay 2) (demo_mix 2) (r T) (hr T) []
    (fun _ _ _ _ => (1, 0))
  obtain ⟨o, h1, h2⟩ := C35_settled (demo 2) 1 one_pos demoTimes hts demoFreq rfl rfl (demo_exclusive 2)
    (fun _ => rfl) (demo_det_ne 2) (demoDelay 2) (demo_delay 2) (demo_mix 2) (demo_S_zero 2) r hr r' hr' [] []
    (fun _ _ _ => (1, 0)) () () 0 out ho (fun t => if 2 ≤ t then demoPhase else 0) demoPhase (by
      intro T t f hf
      obtain ⟨ht, rfl⟩ := List.getElem?_eq_some_iff.1 hf
      have := (hs T () ()).2 demoArrive demoLeave (demo_constant _) t ht
      rw [this, demo_det]
      rfl)
    (tendsto_const_nhds.congr' (by
      filter_upwards [eventually_ge_atTop 2] with t ht
      rw [if_pos ht]))
  exact ⟨r', o, hr', h1, h2⟩

end PT
