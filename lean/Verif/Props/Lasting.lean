import Verif.Spec.Lasting
import Verif.Props.Stable
import Verif.Props.Named

/-!
# C142: circuits of named components with gain
-/

namespace PT
open Spec Matrix

variable {W B : Type} {ord : List Str} {parts : List (Str × Part)} {cs : List Conn}

/-- Waves in the circuit, by name. -/
theorem placed_lasting {l : List (Str × Part)} {d : Dev} (h : Placed ord parts cs l d) (v : ℝ) (wl : W → ℝ) (dt : ℝ) (w : W) (z : ℂ)
    (a : Fin d.comp.n → ℂ) :
    (a = cx (d.plant v wl).C 0 *ᵥ (cx ((d.plant v wl).rS w) ((d.plant v wl).iS w) *ᵥ fun k => (z ^ circuitDelay d v wl dt k)⁻¹ * a k)) ↔
    ∃ b : Fin d.comp.n → ℂ, Lasting parts cs (wl w) v dt z (fun x i => seq a (pos l x + i)) (fun x i => seq b (pos l x + i)) := by
  have hdel : ∀ (q : Str × Part) (hq : q ∈ parts) (i : Fin q.2.n),
      (cx ((d.plant v wl).rS w) ((d.plant v wl).iS w) *ᵥ fun k => (z ^ circuitDelay d v wl dt k)⁻¹ * a k) ⟨pos l q.1 + i, h.lt hq i.2⟩ =
      (z ^ roundSteps (q.2.delay v / dt))⁻¹ * ∑ j, scattering q.2 (wl w) i j * seq a (pos l q.1 + j) := by
    intro q hq i
    rw [h.scatter v wl w _ hq i, Finset.mul_sum]
    refine Finset.sum_congr rfl fun j _ => ?_
    by_cases hm : isSource q.2 = true ∨ isDetector q.2 = true
    · rw [ends_dark q.2 (wl w) hm, zero_mul, zero_mul, mul_zero]
    · simp only [not_or, Bool.not_eq_true] at hm
      rw [h.seq_at _ hq j.2, h.late v wl dt hq j.2 hm.1 hm.2, h.seq_at _ hq j.2]
      ring
  constructor
  · intro ha
    refine ⟨cx ((d.plant v wl).rS w) ((d.plant v wl).iS w) *ᵥ fun k => (z ^ circuitDelay d v wl dt k)⁻¹ * a k, fun x i y j hj => ?_,
      fun q hq i => ?_⟩
    · show seq a _ = seq _ _
      rw [← h.enter v wl _ hj, ← ha]
    · show seq _ _ = _
      rw [h.seq_at _ hq i.2, hdel q hq i]
  · rintro ⟨b, hb⟩
    have e : b = cx ((d.plant v wl).rS w) ((d.plant v wl).iS w) *ᵥ fun k => (z ^ circuitDelay d v wl dt k)⁻¹ * a k :=
      h.ext fun q hq i hi => by
        have := hb.scattered q hq ⟨i, hi⟩
        simp only at this
        rw [this, h.seq_at _ hq hi, hdel q hq ⟨i, hi⟩]
    rw [← e]
    refine h.ext fun q hq i hi => ?_
    obtain ⟨y, p, j, -, -, hj⟩ := h.cover q hq i hi
    rw [h.enter v wl b hj]
    exact hb.joined _ _ _ _ hj

/-- No wave in the circuit grows or persists exactly if none does by name. -/
theorem placed_stable {l : List (Str × Part)} {d : Dev} (h : Placed ord parts cs l d) (v : ℝ) (wl : W → ℝ) (dt : ℝ) (w : W) :
    Stable (cx (d.plant v wl).C 0) (cx ((d.plant v wl).rS w) ((d.plant v wl).iS w)) (circuitDelay d v wl dt) ↔
      Fades parts cs (wl w) v dt := by
  constructor
  · intro hst z hz A B hAB q hq i hi
    have hA := seq_laid' h A
    have hB := seq_laid' h B
    have h0 := hst z hz (fun g => laid l A g) ((placed_lasting h v wl dt w z _).mpr ⟨fun g => laid l B g, ?_, ?_⟩)
    · have := hA q hq i hi
      simp only at this
      rw [← this, h0, h.seq_at 0 hq hi]
      rfl
    · intro a i b j hj
      obtain ⟨p, hp, hi⟩ := h.fits _ _ _ _ hj
      obtain ⟨p', hp', hi'⟩ := h.fits b j _ i (joined_symm hj)
      rw [h.seq_laid A (x := a) hp hi, h.seq_laid B (x := b) hp' hi']
      exact hAB.joined a i b j hj
    · intro q hq i
      rw [h.seq_laid B hq i.2, hAB.scattered q hq i]
      congr 1
      exact Finset.sum_congr rfl fun j _ => by rw [h.seq_laid A hq j.2]
  · intro hf z hz a ha
    obtain ⟨b, hb⟩ := (placed_lasting h v wl dt w z a).mp ha
    refine h.ext fun q hq i hi => ?_
    rw [h.seq_at 0 hq hi]
    exact hf z hz _ _ hb q hq i hi

/-- If no light without sources grows or persists in a circuit of named components, it approaches the steady state. -/
theorem placed_settles {l : List (Str × Part)} {d : Dev} (h : Placed ord parts cs l d) (hs : ∀ q ∈ parts, 0 < q.2.n)
    (hdet : ∃ q ∈ parts, isDetector q.2 = true) (v : ℝ) (wl : W → ℝ) (dt : ℝ) (hpos : 0 < dt) (hf : ∀ w, Fades parts cs (wl w) v dt)
    (amp : ℕ → W → B → ℝ × ℝ) (w : W) (b : B) :
    ∃ A B', Steady parts cs (wl w) (fun x => asComplex (amp ((emittersIn ord parts).idxOf x) w b)) A B' ∧
      ∀ ε, 0 < ε → ∃ N, ∀ (ts : List ℝ) (r : Reduced W) (acts : List (Actor W B)),
        initNet (d.plant v wl) ⟨some dt, false, ts⟩ = .ok (some r) →
        ∃ out, forwardReduced r ⟨some dt, false, ts⟩ acts (fun _ => amp) = .ok out ∧ out.length = ts.length ∧
          ∀ t (h : t < out.length), N ≤ t →
            List.Forall₂ (fun y x => ‖asComplex y - A x 0‖ < ε) (out[t] w b) (listenersIn ord parts) := by
  obtain ⟨r', o, hr', ho, H⟩ := C142_stable_partial (B := B) d (h.made.mono fun _ _ => trivial) h.term v wl dt hpos (det_exists h v wl hdet)
    (fun w => (placed_stable h v wl dt w).mpr (hf w)) ⟨none, true, [0]⟩ rfl rfl [] amp
  obtain ⟨o', ho', H'⟩ := placed_frequency h hs hdet v wl ⟨none, true, [0]⟩ rfl rfl r' hr' [] (fun _ => amp)
  have e : o' = o := by
    have := ho'.symm.trans ho
    simpa using this
  subst e
  obtain ⟨⟨A, B', hS⟩, hall⟩ := H' w b
  refine ⟨A, B', hS, fun ε hε => ?_⟩
  have hA := hall A B' hS
  obtain ⟨N, hN⟩ := H w b ε hε
  refine ⟨N, fun ts r acts hr => ?_⟩
  obtain ⟨out, h1, h2, h3⟩ := hN ts r acts hr
  refine ⟨out, h1, h2, fun t ht hNt => ?_⟩
  obtain ⟨hl, hc⟩ := h3 t ht hNt
  have hlen : (o' w b).length = (listenersIn ord parts).length := by
    have := congrArg List.length hA
    simpa using this
  rw [List.forall₂_iff_get]
  refine ⟨hl.trans hlen, fun i hi hi' => ?_⟩
  have hi'' : i < (o' w b).length := hlen ▸ hi'
  have := hc i _ _ (List.getElem?_eq_getElem hi) (List.getElem?_eq_getElem hi'')
  rw [one_mul] at this
  have e : asComplex (o' w b)[i] = A (listenersIn ord parts)[i] 0 := by
    have := congrArg (fun l => l[i]?) hA
    simp only [List.getElem?_map, List.getElem?_eq_getElem hi'', List.getElem?_eq_getElem hi', Option.map_some, Option.some.injEq] at this
    exact this
  rw [e] at this
  exact this

/-- C142 in terms of names, for circuits with gain or without: if no light without sources grows or persists in a closed circuit of
named components, the detected fields approach the steady state of the components. -/
theorem C142_named (h : Closed parts cs) (hdet : ∃ q ∈ parts, isDetector q.2 = true) (name : Option Str) (d : Dev)
    (hd : mkDev name (parts.map fun q => (q.1, q.2.dev)) (cs.map Conn.text) = .ok d) (v : ℝ) (wl : W → ℝ) (dt : ℝ) (hpos : 0 < dt)
    (hf : ∀ w, Fades parts cs (wl w) v dt) (amp : ℕ → W → B → ℝ × ℝ) (w : W) (b : B) :
    ∃ A B', Steady parts cs (wl w) (fun x => asComplex (amp ((emitters parts cs).idxOf x) w b)) A B' ∧
      ∀ ε, 0 < ε → ∃ N, ∀ (ts : List ℝ) (r : Reduced W) (acts : List (Actor W B)),
        initNet (d.plant v wl) ⟨some dt, false, ts⟩ = .ok (some r) →
        ∃ out, forwardReduced r ⟨some dt, false, ts⟩ acts (fun _ => amp) = .ok out ∧ out.length = ts.length ∧
          ∀ t (h : t < out.length), N ≤ t →
            List.Forall₂ (fun y x => ‖asComplex y - A x 0‖ < ε) (out[t] w b) (listeners parts cs) := by
  obtain ⟨l, hP⟩ := placed_of h hd
  exact placed_settles hP h.sized hdet v wl dt hpos hf amp w b

/-- Not vacuous: an amplifier between a source and a detector. -/
example (wl v dt : ℝ) (g : ℝ) : Fades [(['a'], .source), (['b'], .linearSoa g), (['c'], .detector)]
    [.inner ['a'] 0 ['b'] 0, .inner ['b'] 1 ['c'] 0] wl v dt := by
  intro z _ A B h
  have dark : ∀ q ∈ [(['a'], Part.source), (['b'], .linearSoa g), (['c'], .detector)], isSource q.2 = true ∨ isDetector q.2 = true →
      ∀ i : Fin q.2.n, B q.1 i = 0 := by
    intro q hq he i
    rw [h.scattered q hq i, Finset.sum_eq_zero fun j _ => by rw [ends_dark q.2 wl he, zero_mul], mul_zero]
  have ba : B ['a'] 0 = 0 := dark _ (.head _) (.inl rfl) (0 : Fin 1)
  have bc : B ['c'] 0 = 0 := dark _ (.tail _ (.tail _ (.head _))) (.inr rfl) (0 : Fin 1)
  have b0 : A ['b'] 0 = 0 := (h.joined _ _ _ _ (.inr (.head _))).trans ba
  have b1 : A ['b'] 1 = 0 := (h.joined _ _ _ _ (.inl (.tail _ (.head _)))).trans bc
  have bb : ∀ i : Fin 2, B ['b'] i = 0 := by
    intro i
    rw [h.scattered _ (.tail _ (.head _)) i, mul_eq_zero]
    refine .inr (Finset.sum_eq_zero fun j _ => ?_)
    have hj : j = (0 : Fin 2) ∨ j = (1 : Fin 2) := (by decide : ∀ m : Fin 2, m = 0 ∨ m = 1) j
    rcases hj with rfl | rfl
    · exact mul_eq_zero_of_right _ b0
    · exact mul_eq_zero_of_right _ b1
  have a0 : A ['a'] 0 = 0 := (h.joined _ _ _ _ (.inl (.head _))).trans (bb 0)
  have c0 : A ['c'] 0 = 0 := (h.joined _ _ _ _ (.inr (.tail _ (.head _)))).trans (bb 1)
  intro q hq i hi
  simp only [List.mem_cons, List.not_mem_nil, or_false] at hq
  rcases hq with rfl | rfl | rfl
  · have : i = 0 := by simp only [Part.n] at hi; omega
    rw [this]; exact a0
  · have : i = 0 ∨ i = 1 := by simp only [Part.n] at hi; omega
    rcases this with rfl | rfl
    · exact b0
    · exact b1
  · have : i = 0 := by simp only [Part.n] at hi; omega
    rw [this]; exact c0

end PT
