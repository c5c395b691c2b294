import Verif.Proof.Energy
import Verif.Proof.Series
import Verif.Props.Linear

/-!
# C32, C33, C34, C35: energy, reciprocity, and agreement of time and frequency domain
-/

namespace PT

open Matrix Spec

variable {W B : Type}

theorem filter_map_sum {α : Type} (l : List α) (q : α → Bool) (g : α → ℝ) :
    ((l.filter q).map g).sum = (l.map fun i => if q i then g i else 0).sum := by
  induction l with
  | nil => rfl
  | cons x l ih =>
    rw [List.filter_cons]
    split
    · rename_i h; simp [h, ih]
    · rename_i h; simp [h, ih]

theorem portsWith_sum {n : ℕ} (q : Fin n → Bool) (g : Fin n → ℝ) :
    ((portsWith q).map g).sum = ∑ i, if q i then g i else 0 := by
  unfold portsWith
  rw [filter_map_sum, Fin.sum_univ_def]

theorem portsWith_nodup {n : ℕ} (q : Fin n → Bool) : (portsWith q).Nodup :=
  (List.nodup_finRange n).filter _

theorem map_idxOf_sum {α : Type} [DecidableEq α] (l : List α) (h : l.Nodup) (f : ℕ → ℝ) :
    (l.map fun i => f (l.idxOf i)).sum = ∑ k ∈ Finset.range l.length, f k := by
  have : (l.map fun i => f (l.idxOf i)) = (List.range l.length).map f := by
    apply List.ext_getElem
    · simp
    · intro i h1 h2
      simp only [List.getElem_map, List.getElem_range]
      rw [List.Nodup.idxOf_getElem h]
  rw [this]
  induction l.length with
  | zero => rfl
  | succ n ih => rw [List.range_succ, Finset.sum_range_succ]; simp [ih]

theorem power_emitted {n : ℕ} (q : Fin n → Bool) (ch : ℕ → ℂ) :
    power (emitted q ch) = ∑ k ∈ Finset.range (portsWith q).length, Complex.normSq (ch k) := by
  rw [← map_idxOf_sum (portsWith q) (portsWith_nodup q) fun k => Complex.normSq (ch k),
    portsWith_sum q (fun i => Complex.normSq (ch ((portsWith q).idxOf i)))]
  unfold power emitted
  refine Finset.sum_congr rfl fun i _ => ?_
  split <;> simp

theorem detected_power {n : ℕ} (q : Fin n → Bool) (a : Fin n → ℂ) :
    (((portsWith q).map fun i => ((a i).re, (a i).im)).map fun u => u.1 ^ 2 + u.2 ^ 2).sum = powerAt q a := by
  rw [List.map_map, portsWith_sum]
  unfold powerAt
  refine Finset.sum_congr rfl fun i _ => ?_
  split
  · rw [Complex.normSq_apply]
    simp only [Function.comp_apply]
    ring
  · rfl

theorem solves_mono {ι : Type} [Fintype ι] {C S : Matrix ι ι ℂ} {d : ι → ℕ} {T n : ℕ} (h : n ≤ T)
    {s a b : ℕ → ι → ℂ} (hs : Solves C S d T s a b) : Solves C S d n s a b :=
  ⟨fun t ht => hs.incoming t (by omega), fun t ht => hs.outgoing t (by omega)⟩

theorem list_sum_range {α : Type} (l : List α) (g : α → ℝ) (f : ℕ → ℝ)
    (h : ∀ t (ht : t < l.length), g l[t] = f t) : (l.map g).sum = ∑ t ∈ Finset.range l.length, f t := by
  have : l.map g = (List.range l.length).map f := by
    apply List.ext_getElem
    · simp
    · intro i h1 h2
      simp only [List.getElem_map, List.getElem_range]
      exact h i (by simpa using h1)
  rw [this]
  induction l.length with
  | zero => rfl
  | succ n ih => rw [List.range_succ, Finset.sum_range_succ]; simp [ih]

/-! ## C32 -/

/-- C32: in a circuit of passive components, the energy detected in the first `n` steps is at most the energy the
sources injected in these steps, at every wavelength and batch, for every `n`. -/
theorem C32_energy (p : Plant W) (env : SimEnv) (dt : ℝ) (hdt : env.dt = some dt) (hpos : 0 < dt)
    (hf : env.freqdomain = false) (hx : p.Exclusive) (hact : ∀ i, p.act i = false)
    (hd : portsWith p.det ≠ []) (d : Fin p.n → ℕ)
    (hdelay : ∀ i, d i = portDelay dt (p.src i || p.det i) (p.delay i))
    (hmix : ∀ w i j, d i = 0 → d j ≠ 0 →
      cx (p.rS w) (p.iS w) i j = 0 ∧ cx (p.rS w) (p.iS w) j i = 0)
    (hterm : ∀ w i, (p.src i || p.det i) = true → ∀ j,
      cx (p.rS w) (p.iS w) i j = 0 ∧ cx (p.rS w) (p.iS w) j i = 0)
    (hC : Paired p.C) (hS : ∀ w, Contracts (cx (p.rS w) (p.iS w)))
    (r : Reduced W) (hr : initNet p env = .ok (some r))
    (cs : List (Actor W B)) (src : ℕ → ℕ → W → B → ℝ × ℝ) :
    ∃ out, forwardPower r env cs src = .ok out ∧ out.length = env.t.length ∧
      ∀ w b, ∀ n ≤ env.t.length, ((out.take n).map fun f => (f w b).sum).sum ≤
        ∑ t ∈ Finset.range n, ∑ k ∈ Finset.range (portsWith p.src).length,
          ((src t k w b).1 ^ 2 + (src t k w b).2 ^ 2) := by
  obtain ⟨out, ho, hl, hsol⟩ := C26_time_domain p env dt hdt hpos hf hx hact hd d hdelay hmix r hr cs src
  refine ⟨_, by rw [forwardPower, ho]; rfl, by rw [List.length_map, hl], ?_⟩
  intro w b n hn
  obtain ⟨⟨a, b', h⟩, huniq⟩ := hsol w b
  have hval := huniq a b' h
  have hE := energy_le hC (cx (p.rS w) (p.iS w)) (hS w) (fun i => p.src i || p.det i)
    (fun i hi j => (hterm w i hi j).1) (fun j hj i => (hterm w j hj i).2) d n _ a b'
    (fun t i hi => by
      simp only [Bool.or_eq_false_iff] at hi
      simp [emitted, hi.1]) (solves_mono hn h)
  simp only [power_emitted] at hE
  have hlen : ((out.map fun o w b => (o w b).map fun u => u.1 ^ 2 + u.2 ^ 2).take n).length = n := by
    rw [List.length_take, List.length_map, hl, Nat.min_eq_left hn]
  rw [list_sum_range _ _ (fun t => powerAt p.det (a t)) (by
    intro t ht
    rw [hlen] at ht
    have h1 : t < out.length := by omega
    rw [List.getElem_take, List.getElem_map, hval t h1]
    exact detected_power p.det (a t)), hlen]
  calc ∑ t ∈ Finset.range n, powerAt p.det (a t)
      ≤ ∑ t ∈ Finset.range n, powerAt (fun i => p.src i || p.det i) (a t) := by
        apply Finset.sum_le_sum
        intro t _
        unfold powerAt
        apply Finset.sum_le_sum
        intro i _
        cases h1 : p.det i with
        | true => simp [h1]
        | false =>
          simp only [h1]
          simp only [Bool.false_eq_true, if_false, Bool.or_false]
          split
          · exact Complex.normSq_nonneg _
          · exact le_rfl
    _ ≤ _ := hE
    _ = _ := by
        refine Finset.sum_congr rfl fun t _ => Finset.sum_congr rfl fun k _ => ?_
        rw [Complex.normSq_apply]
        ring

theorem demo_paired (τ : ℝ) : Paired (demo τ).C := by
  refine ⟨(![1, 0, 3, 2] : Fin 4 → Fin 4), ?_, ?_⟩
  · intro (i : Fin 4)
    fin_cases i <;> rfl
  · intro (i : Fin 4) (j : Fin 4)
    fin_cases i <;> fin_cases j <;> simp [demo]

/-- The nonzero entry of the demo scattering matrix. -/
noncomputable def demoPhase : ℂ := ⟨3 / 5, 4 / 5⟩

/-- The demo scattering matrix. -/
noncomputable def demoM : Matrix (Fin 4) (Fin 4) ℂ :=
  Matrix.of fun i j => if (i = 1 ∧ j = 2) ∨ (i = 2 ∧ j = 1) then demoPhase else 0

theorem demo_cx (τ : ℝ) (w : Unit) : (cx ((demo τ).rS w) ((demo τ).iS w) : Matrix (Fin 4) (Fin 4) ℂ) = demoM := by
  ext1 i j
  fin_cases i <;> fin_cases j <;> rfl

theorem demoM_mulVec (v : Fin 4 → ℂ) : demoM *ᵥ v = ![0, demoPhase * v 2, demoPhase * v 1, 0] := by
  funext i
  rw [Matrix.mulVec, dotProduct, Fin.sum_univ_four]
  fin_cases i <;> simp [demoM]

theorem demo_contracts (τ : ℝ) (w : Unit) : Contracts (cx ((demo τ).rS w) ((demo τ).iS w)) := by
  intro v
  refine le_of_eq_of_le (congrArg (fun M : Matrix (Fin 4) (Fin 4) ℂ => power (M *ᵥ v)) (demo_cx τ w)) ?_
  refine le_of_eq_of_le (congrArg power (demoM_mulVec v)) ?_
  have hn : Complex.normSq demoPhase = 1 := by
    rw [Complex.normSq_apply]; norm_num [demoPhase]
  unfold power
  refine le_of_eq_of_le (Fin.sum_univ_four (M := ℝ) _) (le_of_le_of_eq ?_ (Fin.sum_univ_four (M := ℝ) _).symm)
  simp only [Matrix.cons_val, map_mul, hn, map_zero, one_mul]
  have h0 := Complex.normSq_nonneg (v (0 : Fin 4))
  have h3 := Complex.normSq_nonneg (v (3 : Fin 4))
  linarith

example (src : ℕ → ℕ → Unit → Unit → ℝ × ℝ) : ∃ r out, initNet (demo 2) demoTime = .ok (some r) ∧
    forwardPower r demoTime [] src = .ok out := by
  obtain ⟨r, hr⟩ := demo_init 2 demoTime
  obtain ⟨out, ho, -⟩ := C32_energy (demo 2) demoTime 1 rfl one_pos rfl (demo_exclusive 2)
    (fun _ => rfl) (demo_det_ne 2) (demoDelay 2) (demo_delay 2) (demo_mix 2) (demo_S_zero 2)
    (demo_paired 2) (demo_contracts 2) r hr [] src
  exact ⟨r, out, hr, ho⟩

/-! ## C33 -/

/-- C33: in the frequency domain, in a circuit of lossless components, the power arriving at the detectors and back
at the sources is exactly the injected power, so that the detected power never exceeds it. -/
theorem C33_lossless (p : Plant W) (env : SimEnv) (hf : env.freqdomain = true) (ht1 : env.t.length = 1)
    (hx : p.Exclusive) (hact : ∀ i, p.act i = false) (hd : portsWith p.det ≠ [])
    (hterm : ∀ w i, (p.src i || p.det i) = true → ∀ j,
      cx (p.rS w) (p.iS w) i j = 0 ∧ cx (p.rS w) (p.iS w) j i = 0)
    (hC : Paired p.C) (hS : ∀ w, Lossless (cx (p.rS w) (p.iS w)) fun i => p.src i || p.det i)
    (r : Reduced W) (hr : initNet p env = .ok (some r))
    (cs : List (Actor W B)) (src : ℕ → ℕ → W → B → ℝ × ℝ) :
    ∃ o, forwardPower r env cs src = .ok [o] ∧ ∀ w b,
      (∃ a b', SolvesStatic (cx p.C 0) (cx (p.rS w) (p.iS w))
        (emitted p.src fun k => ⟨(src 0 k w b).1, (src 0 k w b).2⟩) a b') ∧
      (∀ a b', SolvesStatic (cx p.C 0) (cx (p.rS w) (p.iS w))
        (emitted p.src fun k => ⟨(src 0 k w b).1, (src 0 k w b).2⟩) a b' →
        (o w b).sum + powerAt p.src a = ∑ k ∈ Finset.range (portsWith p.src).length,
          ((src 0 k w b).1 ^ 2 + (src 0 k w b).2 ^ 2)) ∧
      (o w b).sum ≤ ∑ k ∈ Finset.range (portsWith p.src).length,
          ((src 0 k w b).1 ^ 2 + (src 0 k w b).2 ^ 2) := by
  obtain ⟨o, ho, hsol⟩ := C27_freq_domain p env hf ht1 hx hact hd hterm r hr cs src
  refine ⟨_, by rw [forwardPower, ho]; rfl, fun w b => ?_⟩
  obtain ⟨⟨a₀, b₀, h₀⟩, huniq⟩ := hsol w b
  have key : ∀ a b', SolvesStatic (cx p.C 0) (cx (p.rS w) (p.iS w))
        (emitted p.src fun k => ⟨(src 0 k w b).1, (src 0 k w b).2⟩) a b' →
        ((o w b).map fun u => u.1 ^ 2 + u.2 ^ 2).sum + powerAt p.src a =
          ∑ k ∈ Finset.range (portsWith p.src).length,
          ((src 0 k w b).1 ^ 2 + (src 0 k w b).2 ^ 2) := by
    intro a b' h
    have hB := power_balance hC (cx (p.rS w) (p.iS w)) (fun i => p.src i || p.det i) (hS w)
      (fun i hi j => (hterm w i hi j).1) _ a b' (fun i hi => by
        simp only [Bool.or_eq_false_iff] at hi
        simp [emitted, hi.1]) h
    rw [power_emitted] at hB
    have hsplit : powerAt (fun i => p.src i || p.det i) a = powerAt p.det a + powerAt p.src a := by
      unfold powerAt
      rw [← Finset.sum_add_distrib]
      refine Finset.sum_congr rfl fun i _ => ?_
      have := (hx i).1
      cases h1 : p.src i <;> cases h2 : p.det i <;> simp [h1, h2] at this ⊢
    rw [huniq a b' h, detected_power, ← hsplit, hB]
    refine Finset.sum_congr rfl fun k _ => ?_
    rw [Complex.normSq_apply]
    ring
  refine ⟨⟨a₀, b₀, h₀⟩, key, ?_⟩
  have h1 := key a₀ b₀ h₀
  have h2 := powerAt_nonneg p.src a₀
  linarith

theorem demo_lossless (τ : ℝ) (w : Unit) :
    Lossless (cx ((demo τ).rS w) ((demo τ).iS w)) fun i => (demo τ).src i || (demo τ).det i := by
  intro (i : Fin 4) (j : Fin 4)
  refine (Fin.sum_univ_four (M := ℂ) _).trans ?_
  have e : ∀ i j : Fin 4, cx ((demo τ).rS w) ((demo τ).iS w) i j =
      if (i = 1 ∧ j = 2) ∨ (i = 2 ∧ j = 1) then demoPhase else 0 := by
    intro i j
    fin_cases i <;> fin_cases j <;> rfl
  have hn : (starRingEnd ℂ) demoPhase * demoPhase = 1 := by
    rw [← Complex.normSq_eq_conj_mul_self, Complex.normSq_apply]; norm_num [demoPhase]
  simp only [e]
  fin_cases i <;> fin_cases j <;> simp [demo, hn]

example (src : ℕ → ℕ → Unit → Unit → ℝ × ℝ) : ∃ r o, initNet (demo 2) demoFreq = .ok (some r) ∧
    forwardPower r demoFreq [] src = .ok [o] := by
  obtain ⟨r, hr⟩ := demo_init 2 demoFreq
  obtain ⟨o, ho, -⟩ := C33_lossless (demo 2) demoFreq rfl rfl (demo_exclusive 2)
    (fun _ => rfl) (demo_det_ne 2) (demo_S_zero 2) (demo_paired 2) (demo_lossless 2) r hr [] src
  exact ⟨r, o, hr, ho⟩

/-! ## C34 -/

theorem emitted_single {n : ℕ} (q : Fin n → Bool) (i : Fin n) (hi : q i = true) (x : ℂ) :
    emitted q (fun k => if k = (portsWith q).idxOf i then x else 0) = Pi.single i x := by
  funext j
  unfold emitted
  by_cases hj : j = i
  · subst hj; simp [hi]
  · rw [Pi.single_eq_of_ne hj]
    split
    · rename_i hq
      refine if_neg ?_
      intro h
      apply hj
      refine List.idxOf_inj (l := portsWith q) ?_ |>.1 h
      simp [portsWith, hq]
    · rfl

theorem detected_at {n : ℕ} (q : Fin n → Bool) (j : Fin n) (hj : q j = true) (a : Fin n → ℂ) :
    (((portsWith q).map fun i => ((a i).re, (a i).im))[(portsWith q).idxOf j]?) =
      some ((a j).re, (a j).im) := by
  have hm : j ∈ portsWith q := by simp [portsWith, hj]
  rw [List.getElem?_map, List.getElem?_eq_getElem (List.idxOf_lt_length_iff.2 hm), List.getElem_idxOf]
  rfl

/-- C34: in the frequency domain, in a circuit of reciprocal components (and connections), the field at terminal
`j` caused by a source at terminal `i` is the field at `i` caused by the same source at `j`; `p` is simulated with `i`
as source and `j` as detector, `p'` is the same circuit with `j` as source and `i` as detector. -/
theorem C34_reciprocity (p p' : Plant W) (src' det' : Fin p.n → Bool) (hp' : p' = { p with src := src', det := det' })
    (env : SimEnv) (hf : env.freqdomain = true) (ht1 : env.t.length = 1)
    (hx : p.Exclusive) (hx' : ∀ i, ¬ (src' i = true ∧ det' i = true)) (hact : ∀ i, p.act i = false)
    (i j : Fin p.n) (hi : p.src i = true) (hj : p.det j = true) (hi' : det' i = true) (hj' : src' j = true)
    (hterm : ∀ w k, (p.src k || p.det k || src' k || det' k) = true → ∀ l,
      cx (p.rS w) (p.iS w) k l = 0 ∧ cx (p.rS w) (p.iS w) l k = 0)
    (hC : p.Cᵀ = p.C) (hS : ∀ w, (p.rS w)ᵀ = p.rS w ∧ (p.iS w)ᵀ = p.iS w)
    (r r' : Reduced W) (hr : initNet p env = .ok (some r)) (hr' : initNet p' env = .ok (some r'))
    (cs cs' : List (Actor W B)) (x : W → B → ℝ × ℝ) :
    ∃ o o',
      forwardReduced r env cs (fun _ k w b => if k = (portsWith p.src).idxOf i then x w b else (0, 0)) = .ok [o] ∧
      forwardReduced r' env cs' (fun _ k w b => if k = (portsWith src').idxOf j then x w b else (0, 0)) = .ok [o'] ∧
      ∀ w b, ∃ u, (o w b)[(portsWith p.det).idxOf j]? = some u ∧
        (o' w b)[(portsWith det').idxOf i]? = some u := by
  subst hp'
  have hne : ∀ (q : Fin p.n → Bool) k, q k = true → portsWith q ≠ [] := by
    intro q k hk
    apply List.ne_nil_of_mem (a := k)
    simp [portsWith, hk]
  obtain ⟨o, ho, hsol⟩ := C27_freq_domain p env hf ht1 hx hact (hne _ j hj)
    (fun w k hk => hterm w k (by rw [hk]; rfl)) r hr cs
    (fun _ k w b => if k = (portsWith p.src).idxOf i then x w b else (0, 0))
  obtain ⟨o', ho', hsol'⟩ := C27_freq_domain { p with src := src', det := det' } env hf ht1
    (fun k => ⟨hx' k, by simp [hact], by simp [hact]⟩) hact (hne _ i hi')
    (fun w k hk => hterm w k (by
      simp only [Bool.or_eq_true] at hk ⊢
      tauto)) r' hr' cs'
    (fun _ k w b => if k = (portsWith src').idxOf j then x w b else (0, 0))
  refine ⟨o, o', ho, ho', fun w b => ?_⟩
  obtain ⟨⟨a, c, h⟩, hu⟩ := hsol w b
  obtain ⟨⟨a', c', h'⟩, hu'⟩ := hsol' w b
  have e1 : ∀ (q : Fin p.n → Bool) (k0 : ℕ), (fun k => (⟨(if k = k0 then x w b else (0, 0)).1,
      (if k = k0 then x w b else (0, 0)).2⟩ : ℂ)) = fun k => if k = k0 then asComplex (x w b) else 0 := by
    intro q k0
    funext k
    split <;> rfl
  have hv := hu a c h
  have hv' := hu' a' c' h'
  rw [e1 p.src, emitted_single p.src i hi] at h
  rw [e1 src', emitted_single src' j hj'] at h'
  have hCx : (cx p.C 0)ᵀ = cx p.C 0 := by
    ext1 k l
    show cx p.C 0 l k = cx p.C 0 k l
    unfold cx
    simp only [Matrix.of_apply, Matrix.zero_apply]
    rw [show p.C l k = p.C k l from congrFun (congrFun hC k) l]
  have hSx : (cx (p.rS w) (p.iS w))ᵀ = cx (p.rS w) (p.iS w) := by
    ext1 k l
    show cx (p.rS w) (p.iS w) l k = cx (p.rS w) (p.iS w) k l
    unfold cx
    simp only [Matrix.of_apply]
    rw [show p.rS w l k = p.rS w k l from congrFun (congrFun (hS w).1 k) l,
      show p.iS w l k = p.iS w k l from congrFun (congrFun (hS w).2 k) l]
  have hrec := reciprocal (cx p.C 0) _ hCx hSx _ _ _ _ _ _ h h'
  rw [single_dotProduct, dotProduct_single] at hrec
  have hd1 : (o w b)[(portsWith p.det).idxOf j]? = some ((a j).re, (a j).im) := by
    rw [hv]; exact detected_at p.det j hj a
  have hd2 : (o' w b)[(portsWith det').idxOf i]? = some ((a' i).re, (a' i).im) := by
    rw [hv']; exact detected_at det' i hi' a'
  by_cases hx0 : asComplex (x w b) = 0
  · have z1 := hu 0 0 (by
      rw [e1 p.src, emitted_single p.src i hi, hx0, Pi.single_zero]
      exact ⟨by simp, by simp⟩)
    have z2 := hu' 0 0 (by
      rw [e1 src', emitted_single src' j hj', hx0, Pi.single_zero]
      exact ⟨by simp, by simp⟩)
    refine ⟨(0, 0), ?_, ?_⟩
    · rw [z1]; exact detected_at p.det j hj 0
    · rw [z2]; exact detected_at det' i hi' 0
  · have : a j = a' i := mul_left_cancel₀ hx0 (by rw [hrec, mul_comm])
    exact ⟨_, hd1, by rw [hd2, this]⟩

theorem demo_symm (τ : ℝ) (w : Unit) :
    (demo τ).Cᵀ = (demo τ).C ∧ ((demo τ).rS w)ᵀ = (demo τ).rS w ∧ ((demo τ).iS w)ᵀ = (demo τ).iS w := by
  refine ⟨?_, ?_, ?_⟩ <;> ext (i : Fin 4) (j : Fin 4) <;> fin_cases i <;> fin_cases j <;> rfl

/-- The demo circuit used from the other end. -/
noncomputable def demoBack (τ : ℝ) : Plant Unit :=
  { demo τ with src := ![false, false, false, true], det := ![true, false, false, false] }

theorem demoBack_mc (τ : ℝ) (env : SimEnv) (i : Fin 4) : (demoBack τ).mcAt env i = (demo τ).mcAt env i := by
  fin_cases i <;> simp [Plant.mcAt, demoBack, demo] <;> rfl

theorem demoBack_init (τ : ℝ) (env : SimEnv) : ∃ r, initNet (demoBack τ) env = .ok (some r) := by
  have hml : (demoBack τ).mlPorts env = (demo τ).mlPorts env :=
    List.filter_congr fun i _ => congrArg (!·) (demoBack_mc τ env i)
  refine C26_initialized (demoBack τ) env (demo_terminated τ) ⟨(0 : Fin 4), by
    simp [Plant.mcAt, demoBack]⟩ ?_
  rw [hml]
  exact demo_solvable τ env

example : ∃ r r', initNet (demo 2) demoFreq = .ok (some r) ∧ initNet (demoBack 2) demoFreq = .ok (some r') ∧
    ∃ o o', forwardReduced (B := Unit) r demoFreq [] (fun _ k _ _ =>
        if k = (portsWith (demo 2).src).idxOf (0 : Fin 4) then (1, 0) else (0, 0)) = .ok [o] ∧
      forwardReduced (B := Unit) r' demoFreq [] (fun _ k _ _ =>
        if k = (portsWith (demoBack 2).src).idxOf (3 : Fin 4) then (1, 0) else (0, 0)) = .ok [o'] := by
  obtain ⟨r, hr⟩ := demo_init 2 demoFreq
  obtain ⟨r', hr'⟩ := demoBack_init 2 demoFreq
  obtain ⟨o, o', h1, h2, -⟩ := C34_reciprocity (demo 2) (demoBack 2) ![false, false, false, true]
    ![true, false, false, false] rfl demoFreq rfl rfl (demo_exclusive 2)
    (by intro (i : Fin 4); fin_cases i <;> simp) (fun _ => rfl) (0 : Fin 4) (3 : Fin 4) rfl rfl rfl rfl
    (by
      intro w (k : Fin 4) hk l
      apply demo_S_zero 2 w k
      fin_cases k <;> simp [demo] at hk ⊢)
    (demo_symm 2 ()).1 (fun w => (demo_symm 2 w).2) r r' hr hr' [] [] (fun _ _ => (1, 0))
  exact ⟨r, r', hr, hr', o, o', h1, h2⟩

end PT
