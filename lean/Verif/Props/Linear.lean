import Verif.Proof.Linear
import Verif.Props.TimeDomain

/-!
# C29, C30, C31: linearity, causality, independence of wavelengths and batches
-/

namespace PT

open Matrix Spec

variable {W B W' B' : Type}

theorem bufferLen_pos {r : Reduced W} {env : SimEnv} {len : ℕ} (h : bufferLen r env = .ok len) : 0 < len := by
  unfold bufferLen at h
  split at h
  · cases h; exact one_pos
  · split at h
    · cases h
    · cases h; exact Nat.succ_pos _

/-- When `forward` succeeds, and with what. -/
theorem forward_ok_iff (r : Reduced W) (env : SimEnv) (cs : List (Actor W B))
    (src : ℕ → ℕ → W → B → ℝ × ℝ) (out : List (W → B → List (ℝ × ℝ))) :
    forwardReduced r env cs src = .ok out ↔ ∃ len, bufferLen r env = .ok len ∧
      (((sliceLen r.m r.numDet = r.numDet ∨ env.t = []) ∧
        out = (simulate r cs (fun i => padSource r.m r.numSrc (src i)) env.t 0
          (emptyBuffer len r.m W B)).map fun x => detectNodes r.numDet x) ∨
       (¬ (sliceLen r.m r.numDet = r.numDet ∨ env.t = []) ∧ sliceLen r.m r.numDet = 1 ∧
        out = (simulate r cs (fun i => padSource r.m r.numSrc (src i)) env.t 0
          (emptyBuffer len r.m W B)).map fun _ _ _ => [])) := by
  unfold forwardReduced
  cases hb : bufferLen r env with
  | error e => simp [Except.bind]
  | ok len =>
    simp only [Except.bind, Except.ok.injEq, exists_eq_left']
    by_cases h1 : sliceLen r.m r.numDet = r.numDet ∨ env.t = []
    · simp only [h1, if_true, true_and, not_true, false_and, or_false, Except.ok.injEq]
      exact eq_comm
    · by_cases h2 : sliceLen r.m r.numDet = 1
      · rw [if_neg h1, if_pos h2, Except.ok.injEq]
        constructor
        · rintro rfl; exact .inr ⟨h1, h2, rfl⟩
        · rintro (h | h)
          · exact absurd h.1 h1
          · exact h.2.2.symm
      · simp [h1, h2]

/-- Whether `forward` succeeds does not depend on the source. -/
theorem forward_ok_any (r : Reduced W) (env : SimEnv) (cs : List (Actor W B)) (cs' : List (Actor W B'))
    (src : ℕ → ℕ → W → B → ℝ × ℝ) (src' : ℕ → ℕ → W → B' → ℝ × ℝ) (out)
    (h : forwardReduced r env cs src = .ok out) : ∃ out', forwardReduced r env cs' src' = .ok out' := by
  obtain ⟨len, hb, h | h⟩ := (forward_ok_iff _ _ _ _ _).1 h
  · exact ⟨_, (forward_ok_iff _ _ _ _ _).2 ⟨len, hb, .inl ⟨h.1, rfl⟩⟩⟩
  · exact ⟨_, (forward_ok_iff _ _ _ _ _).2 ⟨len, hb, .inr ⟨h.1, h.2.1, rfl⟩⟩⟩

theorem init_numAct {p : Plant W} {env : SimEnv} {r : Reduced W} (hr : initNet p env = .ok (some r))
    (hact : ∀ i, p.act i = false) : r.numAct = 0 := by
  obtain ⟨-, C, -, rfl⟩ := initNet_some hr
  exact act_none p hact

theorem padSource_lin (m n : ℕ) (x y : W → B → ℂ) (s₁ s₂ s₃ : ℕ → W → B → ℝ × ℝ)
    (h : ∀ k w b, asComplex (s₃ k w b) = x w b * asComplex (s₁ k w b) + y w b * asComplex (s₂ k w b)) :
    padSource m n s₃ = Fields.lin x y (padSource m n s₁) (padSource m n s₂) := by
  have hv : ∀ (s : ℕ → W → B → ℝ × ℝ) w b (k : Fin m), (padSource m n s).val w b k =
      if (k : ℕ) < n then asComplex (s k w b) else 0 := by
    intro s w b k
    simp only [padSource, Fields.val, Matrix.of_apply]
    split <;> rfl
  apply Fields.ext_val
  intro w b
  funext k
  rw [lin_val, Pi.add_apply, Pi.smul_apply, Pi.smul_apply, hv, hv, hv, h]
  split <;> simp

theorem detect_lin {m : ℕ} (n : ℕ) (x y : W → B → ℂ) (u v : Fields m W B) (w : W) (b : B) :
    (detectNodes n (Fields.lin x y u v) w b).map asComplex =
      List.zipWith (fun p q => x w b * asComplex p + y w b * asComplex q) (detectNodes n u w b)
        (detectNodes n v w b) := by
  unfold detectNodes
  rw [List.map_drop, ← List.drop_zipWith]
  congr 1
  apply List.ext_getElem
  · simp
  · intro i h1 h2
    simp only [List.getElem_map, List.getElem_ofFn, List.getElem_zipWith]
    rfl

/-! ## C29 -/

/-- C29: without active components the detected fields are linear in the source, over the complex numbers. -/
theorem C29_linear (p : Plant W) (env : SimEnv) (hact : ∀ i, p.act i = false) (r : Reduced W)
    (hr : initNet p env = .ok (some r)) (cs : List (Actor W B)) (x y : W → B → ℂ)
    (s₁ s₂ s₃ : ℕ → ℕ → W → B → ℝ × ℝ)
    (h : ∀ t k w b, asComplex (s₃ t k w b) =
      x w b * asComplex (s₁ t k w b) + y w b * asComplex (s₂ t k w b))
    (o₁ o₂ : List (W → B → List (ℝ × ℝ))) (h₁ : forwardReduced r env cs s₁ = .ok o₁)
    (h₂ : forwardReduced r env cs s₂ = .ok o₂) :
    ∃ o₃, forwardReduced r env cs s₃ = .ok o₃ ∧ o₁.length = o₃.length ∧ o₂.length = o₃.length ∧
      ∀ (t : ℕ) f₁ f₂ f₃, o₁[t]? = some f₁ → o₂[t]? = some f₂ → o₃[t]? = some f₃ → ∀ w b,
        (f₃ w b).map asComplex =
          List.zipWith (fun p q => x w b * asComplex p + y w b * asComplex q) (f₁ w b) (f₂ w b) := by
  have hna := init_numAct hr hact
  obtain ⟨len, hb, h₁⟩ := (forward_ok_iff _ _ _ _ _).1 h₁
  obtain ⟨len', hb', h₂⟩ := (forward_ok_iff _ _ _ _ _).1 h₂
  obtain rfl : len = len' := by rw [hb] at hb'; cases hb'; rfl
  have hs : (fun i => padSource r.m r.numSrc (s₃ i)) = fun i =>
      Fields.lin x y (padSource r.m r.numSrc (s₁ i)) (padSource r.m r.numSrc (s₂ i)) :=
    funext fun i => padSource_lin _ _ x y _ _ _ (h i)
  have hz : emptyBuffer len r.m W B =
      List.zipWith (Fields.lin x y) (emptyBuffer len r.m W B) (emptyBuffer len r.m W B) := by
    unfold emptyBuffer
    rw [List.zipWith_replicate, Nat.min_self]
    congr 1
    apply Fields.ext_val
    intro w b
    rw [lin_val]
    have : ((⟨fun _ => 0, fun _ => 0⟩ : Fields r.m W B)).val w b = 0 := rfl
    rw [this]
    simp
  have hsim := simulate_lin r hna cs x y (fun i => padSource r.m r.numSrc (s₁ i))
    (fun i => padSource r.m r.numSrc (s₂ i)) env.t 0 (emptyBuffer len r.m W B)
    (emptyBuffer len r.m W B) rfl
  rw [← hz, ← hs] at hsim
  rcases h₁ with ⟨hc, h₁⟩ | ⟨hc, hc', h₁⟩
  · have h₂ := (h₂.resolve_right fun h => h.1 hc).2
    refine ⟨_, (forward_ok_iff _ _ _ _ _).2 ⟨len, hb, .inl ⟨hc, rfl⟩⟩, ?_, ?_, ?_⟩
    · rw [h₁]; simp [simulate_length]
    · rw [h₂]; simp [simulate_length]
    · intro t f₁ f₂ f₃ e₁ e₂ e₃ w b
      rw [h₁, List.getElem?_map, Option.map_eq_some_iff] at e₁
      rw [h₂, List.getElem?_map, Option.map_eq_some_iff] at e₂
      rw [hsim, List.getElem?_map, Option.map_eq_some_iff] at e₃
      obtain ⟨u, hu, rfl⟩ := e₁
      obtain ⟨v, hv, rfl⟩ := e₂
      obtain ⟨z, hz, rfl⟩ := e₃
      rw [List.getElem?_zipWith, hu, hv] at hz
      cases hz
      exact detect_lin _ x y u v w b
  · have h₂ := (h₂.resolve_left fun h => hc h.1).2.2
    refine ⟨_, (forward_ok_iff _ _ _ _ _).2 ⟨len, hb, .inr ⟨hc, hc', rfl⟩⟩, ?_, ?_, ?_⟩
    · rw [h₁]; simp [simulate_length]
    · rw [h₂]; simp [simulate_length]
    · intro t f₁ f₂ f₃ e₁ e₂ e₃ w b
      rw [h₁, List.getElem?_map, Option.map_eq_some_iff] at e₁
      rw [h₂, List.getElem?_map, Option.map_eq_some_iff] at e₂
      rw [List.getElem?_map, Option.map_eq_some_iff] at e₃
      obtain ⟨u, hu, rfl⟩ := e₁
      obtain ⟨v, hv, rfl⟩ := e₂
      obtain ⟨z, hz, rfl⟩ := e₃
      rfl

example (src : ℕ → ℕ → Unit → Unit → ℝ × ℝ) : ∃ r out, initNet (demo 2) demoTime = .ok (some r) ∧
    (∀ i, (demo 2).act i = false) ∧ forwardReduced r demoTime [] src = .ok out := by
  obtain ⟨r, hr⟩ := demo_init 2 demoTime
  obtain ⟨out, ho, -⟩ := C26_time_domain (demo 2) demoTime 1 rfl one_pos rfl (demo_exclusive 2)
    (fun _ => rfl) (demo_det_ne 2) (demoDelay 2) (demo_delay 2) (demo_mix 2) r hr [] src
  exact ⟨r, out, hr, fun _ => rfl, ho⟩

theorem asComplex_power (u : ℝ × ℝ) : u.1 ^ 2 + u.2 ^ 2 = Complex.normSq (asComplex u) := by
  rw [Complex.normSq_apply]
  simp only [asComplex]
  ring

/-- C29: multiplying the source by `x` multiplies the detected power by `|x|^2`. -/
theorem C29_power (p : Plant W) (env : SimEnv) (hact : ∀ i, p.act i = false) (r : Reduced W)
    (hr : initNet p env = .ok (some r)) (cs : List (Actor W B)) (x : W → B → ℂ)
    (s₁ s₂ : ℕ → ℕ → W → B → ℝ × ℝ)
    (h : ∀ t k w b, asComplex (s₂ t k w b) = x w b * asComplex (s₁ t k w b))
    (o₁ : List (W → B → List ℝ)) (h₁ : forwardPower r env cs s₁ = .ok o₁) :
    ∃ o₂, forwardPower r env cs s₂ = .ok o₂ ∧ o₁.length = o₂.length ∧
      ∀ (t : ℕ) f₁ f₂, o₁[t]? = some f₁ → o₂[t]? = some f₂ → ∀ w b,
        f₂ w b = (f₁ w b).map fun q => Complex.normSq (x w b) * q := by
  unfold forwardPower at h₁ ⊢
  cases hf : forwardReduced r env cs s₁ with
  | error e => rw [hf] at h₁; cases h₁
  | ok out =>
    rw [hf] at h₁
    cases h₁
    obtain ⟨o₂, h2, hl, -, hlin⟩ := C29_linear p env hact r hr cs x (fun _ _ => 0) s₁ s₁ s₂
      (fun t k w b => by rw [h]; ring) out out hf hf
    refine ⟨_, by rw [h2]; rfl, by simp [hl], ?_⟩
    intro t f₁ f₂ e₁ e₂ w b
    rw [List.getElem?_map, Option.map_eq_some_iff] at e₁ e₂
    obtain ⟨u, hu, rfl⟩ := e₁
    obtain ⟨v, hv, rfl⟩ := e₂
    have key := hlin t u u v hu hu hv w b
    simp only [zero_mul, add_zero] at key
    have e : ∀ l : List (ℝ × ℝ), l.map (fun u => u.1 ^ 2 + u.2 ^ 2) = (l.map asComplex).map Complex.normSq := by
      intro l
      rw [List.map_map]
      exact List.map_congr_left fun u _ => asComplex_power u
    show (v w b).map (fun u => u.1 ^ 2 + u.2 ^ 2) =
      ((u w b).map fun u => u.1 ^ 2 + u.2 ^ 2).map fun q => Complex.normSq (x w b) * q
    rw [e (v w b), key, List.zipWith_self, List.map_map, List.map_map]
    apply List.map_congr_left
    intro q _
    simp only [Function.comp_apply, map_mul]
    rw [asComplex_power]

example (src : ℕ → ℕ → Unit → Unit → ℝ × ℝ) : ∃ r out, initNet (demo 2) demoTime = .ok (some r) ∧
    forwardPower r demoTime [] src = .ok out := by
  obtain ⟨r, hr⟩ := demo_init 2 demoTime
  obtain ⟨out, ho, -⟩ := C26_time_domain (demo 2) demoTime 1 rfl one_pos rfl (demo_exclusive 2)
    (fun _ => rfl) (demo_det_ne 2) (demoDelay 2) (demo_delay 2) (demo_mix 2) r hr [] src
  exact ⟨r, _, hr, by rw [forwardPower, ho]; rfl⟩

/-! ## C30 -/

/-- C30: what is detected in the first `n` steps depends only on the source in the first `n` steps (and not on
how long the simulation goes on), also with active components. -/
theorem C30_causal (r : Reduced W) (dt : Option ℝ) (fd : Bool) (ts us us' : List ℝ) (cs : List (Actor W B))
    (s s' : ℕ → ℕ → W → B → ℝ × ℝ) (h : ∀ t < ts.length, s t = s' t)
    (o o' : List (W → B → List (ℝ × ℝ))) (ho : forwardReduced r ⟨dt, fd, ts ++ us⟩ cs s = .ok o)
    (ho' : forwardReduced r ⟨dt, fd, ts ++ us'⟩ cs s' = .ok o') :
    o.take ts.length = o'.take ts.length := by
  obtain ⟨len, hb, ho⟩ := (forward_ok_iff _ _ _ _ _).1 ho
  obtain ⟨len', hb', ho'⟩ := (forward_ok_iff _ _ _ _ _).1 ho'
  have hbb : bufferLen r ⟨dt, fd, ts ++ us⟩ = bufferLen r ⟨dt, fd, ts ++ us'⟩ := rfl
  obtain rfl : len = len' := by rw [hbb, hb'] at hb; cases hb; rfl
  simp only at ho ho'
  have hsim := simulate_prefix r cs (fun i => padSource r.m r.numSrc (s i))
    (fun i => padSource r.m r.numSrc (s' i)) ts us us' 0 (emptyBuffer len r.m W B)
    (fun j _ hj => by rw [h j (by omega)])
  cases ts with
  | nil => simp
  | cons t ts =>
    simp only [List.cons_append, reduceCtorEq, or_false] at ho ho' hsim
    rcases ho with ⟨hc, rfl⟩ | ⟨hc, -, rfl⟩
    · have h2 := (ho'.resolve_right fun h => h.1 hc).2
      rw [h2, ← List.map_take, ← List.map_take, hsim]
    · have h2 := (ho'.resolve_left fun h => hc h.1).2.2
      rw [h2, ← List.map_take, ← List.map_take, hsim]

example : ∃ r o o', forwardReduced (B := Unit) r ⟨some 1, false, [0, 1] ++ [2]⟩ [] (fun t _ _ _ => (t, 0)) = .ok o ∧
    forwardReduced (W := Unit) (B := Unit) r ⟨some 1, false, [0, 1] ++ []⟩ [] (fun t _ _ _ => (min t 1, 0)) = .ok o' := by
  obtain ⟨r, hr⟩ := demo_init 2 demoTime
  obtain ⟨out, ho, -⟩ := C26_time_domain (B := Unit) (demo 2) demoTime 1 rfl one_pos rfl (demo_exclusive 2)
    (fun _ => rfl) (demo_det_ne 2) (demoDelay 2) (demo_delay 2) (demo_mix 2) r hr [] (fun t _ _ _ => (t, 0))
  obtain ⟨len, hb, h | h⟩ := (forward_ok_iff _ _ _ _ _).1 ho
  · have h1 := h.1.resolve_right (by simp [demoTime])
    exact ⟨r, _, _, ho, (forward_ok_iff _ _ _ _ _).2 ⟨len, hb, .inl ⟨.inl h1, rfl⟩⟩⟩
  · have h1 : ¬ sliceLen r.m r.numDet = r.numDet := fun hh => h.1 (.inl hh)
    exact ⟨r, _, _, ho, (forward_ok_iff _ _ _ _ _).2 ⟨len, hb, .inr ⟨by simpa using h1, h.2.1, rfl⟩⟩⟩

theorem padSource_zero (m n : ℕ) (s : ℕ → W → B → ℝ × ℝ) (h : ∀ k w b, s k w b = (0, 0)) :
    padSource m n s = zeroF m W B := by
  apply Fields.ext_val
  intro w b
  funext k
  simp [padSource, Fields.val, h, zeroF]

theorem detect_zero (m n : ℕ) (w : W) (b : B) : ∀ u ∈ detectNodes n (zeroF m W B) w b, u = (0, 0) := by
  intro u hu
  unfold detectNodes at hu
  have := List.mem_of_mem_drop hu
  rw [List.mem_ofFn] at this
  obtain ⟨k, rfl⟩ := this
  rfl

/-- C30: delaying the source of a network without active components by `n` steps (zeros first) delays the
response by `n` steps. -/
theorem C30_shift (p : Plant W) (env : SimEnv) (hact : ∀ i, p.act i = false) (r : Reduced W)
    (hr : initNet p env = .ok (some r)) (cs : List (Actor W B)) (n : ℕ) (s s' : ℕ → ℕ → W → B → ℝ × ℝ)
    (h0 : ∀ t < n, ∀ k w b, s' t k w b = (0, 0)) (hs : ∀ t, s' (t + n) = s t)
    (o o' : List (W → B → List (ℝ × ℝ))) (ho : forwardReduced r env cs s = .ok o)
    (ho' : forwardReduced r env cs s' = .ok o') :
    (∀ t < n, ∀ f, o'[t]? = some f → ∀ w b, ∀ u ∈ f w b, u = (0, 0)) ∧
      o'.drop n = o.take (o.length - n) := by
  have hna := init_numAct hr hact
  obtain ⟨len, hb, ho⟩ := (forward_ok_iff _ _ _ _ _).1 ho
  obtain ⟨len', hb', ho'⟩ := (forward_ok_iff _ _ _ _ _).1 ho'
  obtain rfl : len = len' := by rw [hb] at hb'; cases hb'; rfl
  have hlen := bufferLen_pos hb
  set S := fun i => padSource r.m r.numSrc (s i) with hS
  set S' := fun i => padSource r.m r.numSrc (s' i) with hS'
  -- the shifted simulation
  have hsim : simulate r cs S' env.t 0 (emptyBuffer len r.m W B) =
      List.replicate (min n env.t.length) (zeroF r.m W B) ++
        (simulate r cs S env.t 0 (emptyBuffer len r.m W B)).take (env.t.length - n) := by
    have h1 := simulate_silent r hna cs S' len hlen (env.t.take n) (env.t.drop n) 0 (by
      intro j hj
      rw [List.length_take] at hj
      exact padSource_zero _ _ _ (h0 _ (by omega)))
    rw [List.take_append_drop, List.length_take, zero_add] at h1
    rw [emptyBuffer_eq, h1]
    congr 1
    by_cases hn : n ≤ env.t.length
    · rw [Nat.min_eq_left hn]
      have h2 := simulate_shift r hna cs S' S (env.t.drop n) (env.t.take (env.t.length - n)) n 0
        (List.replicate len (zeroF r.m W B)) (by simp) (by
          intro j _
          simp only [hS, hS', zero_add, Nat.add_comm n j, hs])
      rw [h2]
      have h3 := simulate_prefix r cs S S (env.t.take (env.t.length - n)) []
        (env.t.drop (env.t.length - n)) 0 (List.replicate len (zeroF r.m W B)) (fun _ _ _ => rfl)
      rw [List.append_nil, List.take_append_drop, List.length_take,
        Nat.min_eq_left (Nat.sub_le _ _)] at h3
      rw [← h3]
      exact (List.take_of_length_le (by rw [simulate_length, List.length_take]; omega)).symm
    · rw [List.drop_eq_nil_of_le (by omega), show env.t.length - n = 0 by omega]
      simp [simulate]
  have hol : ∀ (f : Fields r.m W B → W → B → List (ℝ × ℝ)),
      ((simulate r cs S env.t 0 (emptyBuffer len r.m W B)).map f).length = env.t.length := by
    intro f; rw [List.length_map, simulate_length]
  have main : ∀ (f : Fields r.m W B → W → B → List (ℝ × ℝ)),
      (∀ w b, ∀ u ∈ f (zeroF r.m W B) w b, u = (0, 0)) →
      o = (simulate r cs S env.t 0 (emptyBuffer len r.m W B)).map f →
      o' = (simulate r cs S' env.t 0 (emptyBuffer len r.m W B)).map f →
      (∀ t < n, ∀ g, o'[t]? = some g → ∀ w b, ∀ u ∈ g w b, u = (0, 0)) ∧
        o'.drop n = o.take (o.length - n) := by
    intro f hf e e'
    rw [hsim] at e'
    constructor
    · intro t ht g hg w b u hu
      rw [e', List.getElem?_map, Option.map_eq_some_iff] at hg
      obtain ⟨z, hz, rfl⟩ := hg
      by_cases hn : t < env.t.length
      · rw [List.getElem?_append_left (by simp; omega), List.getElem?_replicate, if_pos (by omega)] at hz
        cases hz
        exact hf w b u hu
      · rw [List.getElem?_append_right (by simp; omega), List.getElem?_eq_none] at hz
        · cases hz
        · simp [simulate_length]
          omega
    · rw [e', e, hol, List.map_append, List.map_take]
      by_cases hn : n ≤ env.t.length
      · rw [List.drop_left' (by simp [hn])]
      · rw [show env.t.length - n = 0 by omega, List.take_zero, List.append_nil,
          List.drop_eq_nil_of_le (by simp)]
  rcases ho with ⟨hc, ho⟩ | ⟨hc, -, ho⟩
  · exact main _ (detect_zero _ _) ho (ho'.resolve_right fun h => h.1 hc).2
  · exact main _ (by simp) ho (ho'.resolve_left fun h => hc h.1).2.2

/-- An impulse and the same impulse one step later. -/
example : ∃ r o o', initNet (demo 2) demoTime = .ok (some r) ∧
    forwardReduced (B := Unit) r demoTime [] (fun t _ _ _ => (if t = 0 then 1 else 0, 0)) = .ok o ∧
    forwardReduced (B := Unit) r demoTime [] (fun t _ _ _ => (if t = 1 then 1 else 0, 0)) = .ok o' ∧
    o'.drop 1 = o.take (o.length - 1) := by
  obtain ⟨r, hr⟩ := demo_init 2 demoTime
  obtain ⟨o, ho, -⟩ := C26_time_domain (B := Unit) (demo 2) demoTime 1 rfl one_pos rfl (demo_exclusive 2)
    (fun _ => rfl) (demo_det_ne 2) (demoDelay 2) (demo_delay 2) (demo_mix 2) r hr []
    (fun t _ _ _ => (if t = 0 then 1 else 0, 0))
  obtain ⟨o', ho'⟩ := forward_ok_any r demoTime [] [] _ (fun t _ _ (_ : Unit) => (if t = 1 then 1 else 0, 0)) o ho
  refine ⟨r, o, o', hr, ho, ho', (C30_shift (demo 2) demoTime (fun _ => rfl) r hr [] 1 _ _ ?_ ?_ o o' ho ho').2⟩
  · intro t ht k w b
    obtain rfl : t = 0 := by omega
    simp
  · intro t
    funext k w b
    simp

/-! ## C31 -/

/-- The same network at some of the wavelengths. -/
abbrev Plant.comap (p : Plant W) (g : W' → W) : Plant W' :=
  { p with rS := p.rS ∘ g, iS := p.iS ∘ g }

theorem reducedC_comap {n : ℕ} (C : Matrix (Fin n) (Fin n) ℝ) (rS iS : W → Matrix (Fin n) (Fin n) ℝ)
    (mc ml : List (Fin n)) (g : W' → W) (R) (h : reducedC C rS iS mc ml = .ok R) :
    reducedC C (rS ∘ g) (iS ∘ g) mc ml = .ok (R.1 ∘ g, R.2 ∘ g) := by
  unfold reducedC at h ⊢
  split at h
  · rename_i hl
    rw [if_pos hl]
    cases h
    rfl
  · rename_i hl
    rw [if_neg hl]
    unfold torchSolve at h ⊢
    dsimp only at h ⊢
    split at h
    · cases h
    · rename_i hd
      push Not at hd
      rw [if_neg (by push Not; exact fun w => hd (g w))]
      cases h
      rfl

theorem initNet_comap (p : Plant W) (env : SimEnv) (r : Reduced W) (hr : initNet p env = .ok (some r))
    (g : W' → W) : initNet (p.comap g) env = .ok (some (r.comap g)) := by
  unfold initNet at hr ⊢
  split at hr
  · cases hr
  · rename_i hn
    rw [if_neg (show ¬ (¬ (p.comap g).terminated ∨ ((p.comap g).mcPorts env).length = 0) from hn)]
    cases hc : reducedC p.C p.rS p.iS (p.mcOrder env) (p.mlPorts env) with
    | error e => rw [hc] at hr; cases hr
    | ok R =>
      rw [hc] at hr
      cases hr
      have := reducedC_comap p.C p.rS p.iS (p.mcOrder env) (p.mlPorts env) g R hc
      show (reducedC p.C (p.rS ∘ g) (p.iS ∘ g) (p.mcOrder env) (p.mlPorts env)).map _ = _
      rw [this]
      rfl

/-- C31: simulating any selection of wavelengths and batches (single ones, for example) gives the corresponding
selection of the results of simulating all of them, if there are no active components. -/
theorem C31_independent (p : Plant W) (env : SimEnv) (hact : ∀ i, p.act i = false) (r : Reduced W)
    (hr : initNet p env = .ok (some r)) (cs : List (Actor W B)) (cs' : List (Actor W' B'))
    (g : W' → W) (f : B' → B) (s : ℕ → ℕ → W → B → ℝ × ℝ) (o : List (W → B → List (ℝ × ℝ)))
    (ho : forwardReduced r env cs s = .ok o) :
    ∃ r', initNet (p.comap g) env = .ok (some r') ∧
      forwardReduced r' env cs' (fun t k w b => s t k (g w) (f b)) =
        .ok (o.map fun x w b => x (g w) (f b)) := by
  have hna := init_numAct hr hact
  refine ⟨_, initNet_comap p env r hr g, ?_⟩
  obtain ⟨len, hb, ho⟩ := (forward_ok_iff _ _ _ _ _).1 ho
  rw [forward_ok_iff]
  refine ⟨len, hb, ?_⟩
  have hsim := simulate_comap r hna cs cs' g f (fun i => padSource r.m r.numSrc (s i)) env.t 0
    (emptyBuffer len r.m W B)
  have hz : (emptyBuffer len r.m W B).map (Fields.comap g f) = emptyBuffer len r.m W' B' := by
    unfold emptyBuffer
    rw [List.map_replicate]
    rfl
  rw [hz] at hsim
  have hs : (fun j => Fields.comap g f (padSource r.m r.numSrc (s j))) =
      fun i => padSource r.m r.numSrc (fun k w b => s i k (g w) (f b)) := rfl
  rw [hs] at hsim
  rcases ho with ⟨hc, rfl⟩ | ⟨hc, hc', rfl⟩
  · refine .inl ⟨hc, ?_⟩
    rw [hsim, List.map_map, List.map_map]
    rfl
  · refine .inr ⟨hc, hc', ?_⟩
    rw [hsim, List.map_map, List.map_map]
    rfl

/-- C31: the response at a wavelength and batch depends only on the source at that wavelength and batch. -/
theorem C31_local (p : Plant W) (env : SimEnv) (hact : ∀ i, p.act i = false) (r : Reduced W)
    (hr : initNet p env = .ok (some r)) (cs : List (Actor W B)) (w : W) (b : B)
    (s s' : ℕ → ℕ → W → B → ℝ × ℝ) (h : ∀ t k, s t k w b = s' t k w b)
    (o o' : List (W → B → List (ℝ × ℝ))) (ho : forwardReduced r env cs s = .ok o)
    (ho' : forwardReduced r env cs s' = .ok o') :
    o.map (fun x => x w b) = o'.map (fun x => x w b) := by
  obtain ⟨r1, h1, e1⟩ := C31_independent p env hact r hr cs [] (fun _ : Unit => w) (fun _ : Unit => b) s o ho
  obtain ⟨r2, h2, e2⟩ := C31_independent p env hact r hr cs [] (fun _ : Unit => w) (fun _ : Unit => b) s' o' ho'
  rw [h1] at h2
  cases h2
  simp only [h] at e1
  rw [e1] at e2
  have e3 := Except.ok.inj e2
  have := congrArg (List.map fun x => x () ()) e3
  rw [List.map_map, List.map_map] at this
  exact this

/-- Two batches with sources that differ only in the second batch. -/
example : ∃ r o o', initNet (demo 2) demoTime = .ok (some r) ∧
    forwardReduced (B := Bool) r demoTime [] (fun _ _ _ b => (if b then 1 else 2, 0)) = .ok o ∧
    forwardReduced (B := Bool) r demoTime [] (fun _ _ _ b => (if b then 1 else 3, 0)) = .ok o' := by
  obtain ⟨r, hr⟩ := demo_init 2 demoTime
  obtain ⟨o, ho, -⟩ := C26_time_domain (B := Bool) (demo 2) demoTime 1 rfl one_pos rfl (demo_exclusive 2)
    (fun _ => rfl) (demo_det_ne 2) (demoDelay 2) (demo_delay 2) (demo_mix 2) r hr []
    (fun _ _ _ b => (if b then 1 else 2, 0))
  obtain ⟨o', ho'⟩ := forward_ok_any r demoTime [] [] _ (fun _ _ _ (b : Bool) => (if b then 1 else 3, 0)) o ho
  exact ⟨r, o, o', hr, ho, ho'⟩

end PT
