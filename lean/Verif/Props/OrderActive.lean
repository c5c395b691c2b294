import Verif.Props.Gear
import Verif.Props.Order

/-!
# C97: the order of listing, for circuits with active components
-/

namespace PT

open Spec Gears

variable {W B : Type} {parts parts' : List (Str × Gear W B)} {cs cs' : List Conn}

theorem Spec.Running.reorder {env : SimEnv} {v : ℝ} {wl : W → ℝ} {emit A O : ℕ → W → B → Str → ℕ → ℂ}
    (h : Running parts cs env v wl emit A O) (hp : ∀ q ∈ parts', q ∈ parts)
    (hj : ∀ a i b j, PT.Spec.Joined cs' a i b j → PT.Spec.Joined cs a i b j) : Running parts' cs' env v wl emit A O where
  joined t ht w β a i b j hab g k p q hg hk := h.joined t ht w β a i b j (hj a i b j hab) g k p q (hp _ hg) (hp _ hk)
  inside t ht w β q hq := h.inside t ht w β q (hp q hq)
  left t ht q hq := h.left t ht q (hp q hq)

theorem Spec.Caught.reorder {env : SimEnv} {v wl : ℝ} {A O : Str → ℕ → ℂ} (h : Caught parts cs env v wl A O) (hp : ∀ q ∈ parts', q ∈ parts)
    (hj : ∀ a i b j, PT.Spec.Joined cs' a i b j → PT.Spec.Joined cs a i b j) : Caught parts' cs' env v wl A O where
  held q hq := h.held q (hp q hq)
  joined a i b j hab g k p q hg hk := h.joined a i b j (hj a i b j hab) g k p q (hp _ hg) (hp _ hk)
  inside q hq := h.inside q (hp q hq)
  scattered q hq := h.scattered q (hp q hq)

theorem mem_markedIn {f : Comp → List Bool} {order : List Str} (ho : ∀ q ∈ parts, q.1 ∈ order) {x : Str} {i : ℕ} :
    (x, i) ∈ markedIn f order parts ↔ ∃ g, (x, g) ∈ parts ∧ i < g.dev.comp.n ∧ (f g.dev.comp).getD i false = true := by
  unfold markedIn
  simp only [List.mem_flatMap]
  constructor
  · rintro ⟨y, -, ⟨z, g⟩, hq, h⟩
    dsimp only at h
    split at h
    · next e =>
      obtain ⟨k, hk, e'⟩ := List.mem_map.mp h
      simp only [Prod.mk.injEq] at e'
      obtain ⟨rfl, rfl⟩ := e'
      obtain ⟨h1, h2⟩ := List.mem_filter.mp hk
      exact ⟨g, e ▸ hq, List.mem_range.mp h1, h2⟩
    · cases h
  · rintro ⟨g, hg, hi, hm⟩
    refine ⟨x, ho _ hg, (x, g), hg, ?_⟩
    dsimp only
    rw [if_pos rfl]
    exact List.mem_map.mpr ⟨i, List.mem_filter.mpr ⟨List.mem_range.mpr hi, hm⟩, rfl⟩

theorem shut_mentioned (h : Shut parts cs) : ∀ q ∈ parts, q.1 ∈ firstMentions cs := by
  obtain ⟨d, l, -, hG⟩ := shut_geared h none
  intro q hq
  rw [← hG.order]
  exact List.mem_map.mpr ⟨q, (hG.mem q).mpr hq, rfl⟩

/-- The source array in which the sources emit the given light, by name. -/
theorem signals_named {order : List Str} (ho : ∀ q ∈ parts, q.1 ∈ order) (light : ℕ → Str → ℕ → W → B → ℝ × ℝ) (t : ℕ) (w : W) (β : B)
    (x : Str) (i : ℕ) [Decidable (∃ g, (x, g) ∈ parts ∧ i < g.dev.comp.n ∧ g.dev.comp.src.getD i false = true)] :
    signals parts order (fun t k => light t ((markedIn (·.src) order parts).getD k ([], 0)).1 ((markedIn (·.src) order parts).getD k ([], 0)).2) t w β x i =
      if ∃ g, (x, g) ∈ parts ∧ i < g.dev.comp.n ∧ g.dev.comp.src.getD i false = true then asComplex (light t x i w β) else 0 := by
  unfold signals
  by_cases hm : (x, i) ∈ markedIn (·.src) order parts
  · rw [if_pos hm, if_pos ((mem_markedIn ho).mp hm)]
    have hlt := List.idxOf_lt_length_of_mem hm
    have e : (markedIn (·.src) order parts).getD ((markedIn (·.src) order parts).idxOf (x, i)) ([], 0) = (x, i) := by
      rw [List.getD_eq_getElem?_getD, List.getElem?_eq_getElem hlt, List.getElem_idxOf hlt]
      rfl
    dsimp only
    rw [e]
  · rw [if_neg hm, if_neg fun h => hm ((mem_markedIn ho).mpr h)]

/-- C97. Another order of the components and connections of a circuit with active components: both networks can be initialized, or both raise
RuntimeError. -/
theorem C97_active_initialized (h : Shut parts cs) (h' : Shut parts' cs') (hp : parts.Perm parts')
    (hj : ∀ a i b j, PT.Spec.Joined cs a i b j ↔ PT.Spec.Joined cs' a i b j)
    (hdet : ∃ q ∈ parts, ∃ i < q.2.dev.comp.n, q.2.dev.comp.det.getD i false = true) (name name' : Option Str) (g g' : Gear W B)
    (hg : mkGear name parts (cs.map Conn.text) = .ok g) (hg' : mkGear name' parts' (cs'.map Conn.text) = .ok g')
    (v : ℝ) (wl : W → ℝ) (env : SimEnv) :
    ((∃ r, initNet (g.dev.plant v wl) env = .ok (some r)) ↔ ∃ r, initNet (g'.dev.plant v wl) env = .ok (some r)) ∧
    (initNet (g.dev.plant v wl) env = .error .runtimeError ↔ initNet (g'.dev.plant v wl) env = .error .runtimeError) := by
  obtain ⟨q₀, hq₀, i₀, hi₀, hd₀⟩ := hdet
  have hl : lag env v q₀.2 i₀ ≠ 0 := by
    unfold lag
    dsimp only
    rw [if_pos (by rw [hd₀]; simp)]
    omega
  have h1 := C98_initialized h name g hg v wl env ⟨q₀, hq₀, i₀, hi₀, hl⟩
  have h2 := C98_initialized h' name' g' hg' v wl env ⟨q₀, hp.mem_iff.mp hq₀, i₀, hi₀, hl⟩
  by_cases ht : ∀ w A O, Caught parts cs env v (wl w) A O → ∀ q ∈ parts, ∀ i < q.2.dev.comp.n, A q.1 i = 0
  · obtain ⟨r, hr⟩ := h1.1 ht
    obtain ⟨r', hr'⟩ := h2.1 fun w A O hT q hq => ht w A O
      (hT.reorder (fun q hq => hp.mem_iff.mp hq) fun a i b j hab => (hj a i b j).mp hab) q (hp.mem_iff.mpr hq)
    refine ⟨⟨fun _ => ⟨r', hr'⟩, fun _ => ⟨r, hr⟩⟩, ?_, ?_⟩
    · intro he; rw [hr] at he; cases he
    · intro he; rw [hr'] at he; cases he
  · push Not at ht
    obtain ⟨w, A, O, hT, q, hq, i, hi, hne⟩ := ht
    have e1 := h1.2 w A O hT ⟨q, hq, i, hi, hne⟩
    have e2 := h2.2 w A O (hT.reorder (fun q hq => hp.mem_iff.mpr hq) fun a i b j hab => (hj a i b j).mpr hab)
      ⟨q, hp.mem_iff.mp hq, i, hi, hne⟩
    refine ⟨⟨?_, ?_⟩, fun _ => e2, fun _ => e1⟩
    · rintro ⟨r, hr⟩; rw [e1] at hr; cases hr
    · rintro ⟨r, hr⟩; rw [e2] at hr; cases hr

/-- C97. Another order of the components and connections of a circuit with active components: with sources emitting the same light, by name,
the detectors see the same, by name, at every step. -/
theorem C97_active (h : Shut parts cs) (h' : Shut parts' cs') (hp : parts.Perm parts')
    (hj : ∀ a i b j, PT.Spec.Joined cs a i b j ↔ PT.Spec.Joined cs' a i b j)
    (hdet : ∃ q ∈ parts, ∃ i < q.2.dev.comp.n, q.2.dev.comp.det.getD i false = true) (name name' : Option Str) (g g' : Gear W B)
    (hg : mkGear name parts (cs.map Conn.text) = .ok g) (hg' : mkGear name' parts' (cs'.map Conn.text) = .ok g')
    (v : ℝ) (wl : W → ℝ) (env : SimEnv) (hdt : env.freqdomain = true ∨ ∃ dt, env.dt = some dt ∧ 0 < dt)
    (hu : ∀ w, ∀ q ∈ parts, Unmixed env v (wl w) q.2) (r r' : Reduced W)
    (hr : initNet (g.dev.plant v wl) env = .ok (some r)) (hr' : initNet (g'.dev.plant v wl) env = .ok (some r'))
    (light : ℕ → Str → ℕ → W → B → ℝ × ℝ) :
    let src := markedIn (fun c => c.src) (firstMentions cs) parts
    let src' := markedIn (fun c => c.src) (firstMentions cs') parts'
    ∃ out out', forwardReduced r env (gearActors parts (cs.map Conn.text)) (fun t k => light t (src.getD k ([], 0)).1 (src.getD k ([], 0)).2) = .ok out ∧
      forwardReduced r' env (gearActors parts' (cs'.map Conn.text)) (fun t k => light t (src'.getD k ([], 0)).1 (src'.getD k ([], 0)).2) = .ok out' ∧
      out.length = env.t.length ∧ out'.length = env.t.length ∧
      ∃ seen : ℕ → W → B → Str → ℕ → ℂ, ∀ t (ht : t < out.length) (ht' : t < out'.length) w β,
        (out[t] w β).map asComplex = (markedIn (fun c => c.det) (firstMentions cs) parts).map (fun e => seen t w β e.1 e.2) ∧
        (out'[t] w β).map asComplex = (markedIn (fun c => c.det) (firstMentions cs') parts').map fun e => seen t w β e.1 e.2 := by
  intro src src'
  classical
  obtain ⟨q₀, hq₀, hd₀⟩ := hdet
  obtain ⟨out, ho, hlen, ⟨A, O, hrun⟩, hall⟩ := C98_run h ⟨q₀, hq₀, hd₀⟩ name g hg v wl env hdt hu r hr
    (fun t k => light t (src.getD k ([], 0)).1 (src.getD k ([], 0)).2)
  obtain ⟨out', ho', hlen', -, hall'⟩ := C98_run h' ⟨q₀, hp.mem_iff.mp hq₀, hd₀⟩ name' g' hg' v wl env hdt
    (fun w q hq => hu w q (hp.mem_iff.mpr hq)) r' hr' (fun t k => light t (src'.getD k ([], 0)).1 (src'.getD k ([], 0)).2)
  refine ⟨out, out', ho, ho', hlen, hlen', A, fun t ht ht' w β => ⟨hall A O hrun t ht w β, hall' A O ?_ t ht' w β⟩⟩
  have e : signals parts (firstMentions cs) (fun t k => light t (src.getD k ([], 0)).1 (src.getD k ([], 0)).2) =
      signals parts' (firstMentions cs') (fun t k => light t (src'.getD k ([], 0)).1 (src'.getD k ([], 0)).2) := by
    funext t w β x i
    rw [signals_named (shut_mentioned h) light, signals_named (shut_mentioned h') light]
    simp only [hp.mem_iff]
  rw [← e]
  exact hrun.reorder (fun q hq => hp.mem_iff.mpr hq) fun a i b j hab => (hj a i b j).mpr hab

/-- A source, an amplifier and a detector, listed from the other end. -/
example (dt : ℝ) (q : SoaParams) :
    let parts' : List (Str × Gear W B) := [("d".toList, Part.detector.gear), ("a".toList, q.gear dt), ("s".toList, Part.source.gear)]
    let cs' := [Conn.inner "d".toList 0 "a".toList 1, Conn.inner "a".toList 0 "s".toList 0]
    Shut parts' cs' ∧ (queueParts dt q).Perm parts' ∧ ∀ a i b j, PT.Spec.Joined queueConns a i b j ↔ PT.Spec.Joined cs' a i b j := by
  intro parts' cs'
  have hp : (queueParts dt q : List (Str × Gear W B)).Perm parts' := (List.reverse_perm parts').symm.symm
  have h := queue_shut (W := W) (B := B) dt q
  refine ⟨⟨(hp.map _).nodup_iff.mp h.names, fun x hx => h.good x (hp.mem_iff.mpr hx), fun x hx => h.proper x (hp.mem_iff.mpr hx),
    fun x hx => h.reachable x (hp.mem_iff.mpr hx), by simp [parts'], ?_, rfl⟩, hp, ?_⟩
  · refine List.Perm.trans (List.Perm.trans ?_ h.ports) (hp.flatMap_right _)
    decide
  · exact C97_joined (by simp [queueConns, cs']; tauto) (by simp [queueConns, cs']; tauto)

end PT
