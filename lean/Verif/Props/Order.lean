import Verif.Props.Nested

/-!
# C97: the order in which components and connections are listed only orders the channels
-/

namespace PT
open Spec Matrix

variable {W B : Type} {parts parts' : List (Str × Part)} {cs cs' : List Conn} {d d' : Dev}

theorem Spec.Steady.reorder {wl : ℝ} {e : Str → ℂ} {A B : Str → ℕ → ℂ} (hp : ∀ q, q ∈ parts' → q ∈ parts)
    (hj : ∀ a i b j, PT.Spec.Joined cs' a i b j → PT.Spec.Joined cs a i b j) (h : Steady parts cs wl e A B) : Steady parts' cs' wl e A B :=
  ⟨fun a i b j hab => h.joined a i b j (hj a i b j hab), fun q hq => h.scattered q (hp q hq)⟩

theorem Spec.Moving.reorder {wl v dt : ℝ} {T : ℕ} {e : ℕ → Str → ℂ} {A B : ℕ → Str → ℕ → ℂ} (hp : ∀ q, q ∈ parts' → q ∈ parts)
    (hj : ∀ a i b j, PT.Spec.Joined cs' a i b j → PT.Spec.Joined cs a i b j) (h : Moving parts cs wl v dt T e A B) :
    Moving parts' cs' wl v dt T e A B :=
  ⟨fun t ht a i b j hab => h.joined t ht a i b j (hj a i b j hab), fun t ht q hq => h.scattered t ht q (hp q hq)⟩

theorem Spec.Trapped.reorder {env : SimEnv} {v wl : ℝ} {A B : Str → ℕ → ℂ} (hp : ∀ q, q ∈ parts' → q ∈ parts)
    (hj : ∀ a i b j, PT.Spec.Joined cs' a i b j → PT.Spec.Joined cs a i b j) (h : Trapped env v parts cs wl A B) :
    Trapped env v parts' cs' wl A B :=
  ⟨fun q hq => h.held q (hp q hq), fun q hq hh i b j hab => h.joined q (hp q hq) hh i b j (hj _ i b j hab),
    fun q hq => h.scattered q (hp q hq)⟩

/-- C97. Two listings of the same components and connections are initialized together. -/
theorem C97_initialized (h : Closed parts cs) (h' : Closed parts' cs') (hp : parts.Perm parts')
    (hj : ∀ a i b j, PT.Spec.Joined cs a i b j ↔ PT.Spec.Joined cs' a i b j) (hdet : ∃ q ∈ parts, isDetector q.2 = true)
    (name name' : Option Str)
    (hd : mkDev name (parts.map fun q => (q.1, q.2.dev)) (cs.map Conn.text) = .ok d)
    (hd' : mkDev name' (parts'.map fun q => (q.1, q.2.dev)) (cs'.map Conn.text) = .ok d')
    (v : ℝ) (wl : W → ℝ) (env : SimEnv) :
    ((∃ r, initNet (d.plant v wl) env = .ok (some r)) ↔ ∃ r, initNet (d'.plant v wl) env = .ok (some r)) ∧
    (initNet (d.plant v wl) env = .error .runtimeError ↔ initNet (d'.plant v wl) env = .error .runtimeError) := by
  obtain ⟨q₀, hq₀, hd₀⟩ := hdet
  have h1 := C94_initialized h name d hd v wl env ⟨q₀, hq₀, .inr (.inl hd₀)⟩
  have h2 := C94_initialized h' name' d' hd' v wl env ⟨q₀, hp.mem_iff.mp hq₀, .inr (.inl hd₀)⟩
  by_cases ht : ∀ w A B, Trapped env v parts cs (wl w) A B → ∀ q ∈ parts, ∀ i < q.2.n, A q.1 i = 0
  · obtain ⟨r, hr⟩ := h1.1 ht
    obtain ⟨r', hr'⟩ := h2.1 fun w A B hT q hq => ht w A B
      (hT.reorder (fun q hq => hp.mem_iff.mp hq) fun a i b j hab => (hj a i b j).mp hab) q (hp.mem_iff.mpr hq)
    refine ⟨⟨fun _ => ⟨r', hr'⟩, fun _ => ⟨r, hr⟩⟩, ?_, ?_⟩
    · intro he; rw [hr] at he; cases he
    · intro he; rw [hr'] at he; cases he
  · push Not at ht
    obtain ⟨w, A, B, hT, q, hq, i, hi, hA⟩ := ht
    have e1 := h1.2 w A B hT ⟨q, hq, i, hi, hA⟩
    have e2 := h2.2 w A B (hT.reorder (fun q hq => hp.mem_iff.mpr hq) fun a i b j hab => (hj a i b j).mpr hab)
      ⟨q, hp.mem_iff.mp hq, i, hi, hA⟩
    refine ⟨⟨?_, ?_⟩, fun _ => e2, fun _ => e1⟩
    · rintro ⟨r, hr⟩; rw [e1] at hr; cases hr
    · rintro ⟨r, hr⟩; rw [e2] at hr; cases hr

/-- C97. In the frequency domain, two listings of the same components and connections detect the same light by name, when
the sources send the same light by name. -/
theorem C97_frequency (h : Closed parts cs) (h' : Closed parts' cs') (hp : parts.Perm parts')
    (hj : ∀ a i b j, PT.Spec.Joined cs a i b j ↔ PT.Spec.Joined cs' a i b j) (hdet : ∃ q ∈ parts, isDetector q.2 = true)
    (name name' : Option Str)
    (hd : mkDev name (parts.map fun q => (q.1, q.2.dev)) (cs.map Conn.text) = .ok d)
    (hd' : mkDev name' (parts'.map fun q => (q.1, q.2.dev)) (cs'.map Conn.text) = .ok d')
    (v : ℝ) (wl : W → ℝ) (env : SimEnv) (hfd : env.freqdomain = true) (ht1 : env.t.length = 1) (r r' : Reduced W)
    (hr : initNet (d.plant v wl) env = .ok (some r)) (hr' : initNet (d'.plant v wl) env = .ok (some r'))
    (acts acts' : List (Actor W B)) (light : ℕ → Str → W → B → ℝ × ℝ) :
    ∃ o o', forwardReduced r env acts (fun t k => light t ((emitters parts cs).getD k [])) = .ok [o] ∧
      forwardReduced r' env acts' (fun t k => light t ((emitters parts' cs').getD k [])) = .ok [o'] ∧
      ∀ w b, ∃ seen : Str → ℂ, (o w b).map asComplex = (listeners parts cs).map seen ∧
        (o' w b).map asComplex = (listeners parts' cs').map seen := by
  obtain ⟨l, hP⟩ := placed_of h hd
  obtain ⟨l', hP'⟩ := placed_of h' hd'
  obtain ⟨q₀, hq₀, hd₀⟩ := hdet
  obtain ⟨o, ho, H⟩ := C94_frequency h ⟨q₀, hq₀, hd₀⟩ name d hd v wl env hfd ht1 r hr acts
    (fun t k => light t ((emitters parts cs).getD k []))
  obtain ⟨o', ho', H'⟩ := C94_frequency h' ⟨q₀, hp.mem_iff.mp hq₀, hd₀⟩ name' d' hd' v wl env hfd ht1 r' hr' acts'
    (fun t k => light t ((emitters parts' cs').getD k []))
  refine ⟨o, o', ho, ho', fun w b => ?_⟩
  obtain ⟨⟨A, B', hS⟩, H⟩ := H w b
  refine ⟨fun x => A x 0, H A B' hS, (H' w b).2 A B' (Spec.Steady.emits (fun q hq hs => ?_)
    (hS.reorder (fun q hq => hp.mem_iff.mpr hq) fun a i b j hab => (hj a i b j).mpr hab))⟩
  simp only [emitters]
  rw [getD_idxOf ((mem_emitters hP (hp.mem_iff.mpr hq)).1.mpr hs), getD_idxOf ((mem_emitters hP' hq).1.mpr hs)]

/-- C97, the same in the time domain. -/
theorem C97_time (h : Closed parts cs) (h' : Closed parts' cs') (hp : parts.Perm parts')
    (hj : ∀ a i b j, PT.Spec.Joined cs a i b j ↔ PT.Spec.Joined cs' a i b j) (hdet : ∃ q ∈ parts, isDetector q.2 = true)
    (name name' : Option Str)
    (hd : mkDev name (parts.map fun q => (q.1, q.2.dev)) (cs.map Conn.text) = .ok d)
    (hd' : mkDev name' (parts'.map fun q => (q.1, q.2.dev)) (cs'.map Conn.text) = .ok d')
    (v : ℝ) (wl : W → ℝ) (env : SimEnv) (dt : ℝ) (hdt : env.dt = some dt) (hpos : 0 < dt) (hfd : env.freqdomain = false)
    (r r' : Reduced W) (hr : initNet (d.plant v wl) env = .ok (some r)) (hr' : initNet (d'.plant v wl) env = .ok (some r'))
    (acts acts' : List (Actor W B)) (light : ℕ → Str → W → B → ℝ × ℝ) :
    ∃ out out', forwardReduced r env acts (fun t k => light t ((emitters parts cs).getD k [])) = .ok out ∧
      forwardReduced r' env acts' (fun t k => light t ((emitters parts' cs').getD k [])) = .ok out' ∧
      out.length = env.t.length ∧ out'.length = env.t.length ∧
      ∀ w b, ∃ seen : ℕ → Str → ℂ, ∀ t (ht : t < out.length) (ht' : t < out'.length),
        (out[t] w b).map asComplex = (listeners parts cs).map (seen t) ∧
        (out'[t] w b).map asComplex = (listeners parts' cs').map (seen t) := by
  obtain ⟨l, hP⟩ := placed_of h hd
  obtain ⟨l', hP'⟩ := placed_of h' hd'
  obtain ⟨q₀, hq₀, hd₀⟩ := hdet
  obtain ⟨out, ho, hlen, H⟩ := C94_time h ⟨q₀, hq₀, hd₀⟩ name d hd v wl env dt hdt hpos hfd r hr acts
    (fun t k => light t ((emitters parts cs).getD k []))
  obtain ⟨out', ho', hlen', H'⟩ := C94_time h' ⟨q₀, hp.mem_iff.mp hq₀, hd₀⟩ name' d' hd' v wl env dt hdt hpos hfd r' hr' acts'
    (fun t k => light t ((emitters parts' cs').getD k []))
  refine ⟨out, out', ho, ho', hlen, hlen', fun w b => ?_⟩
  obtain ⟨⟨A, B', hS⟩, H⟩ := H w b
  refine ⟨fun t x => A t x 0, fun t ht ht' => ⟨H A B' hS t ht, (H' w b).2 A B' (Spec.Moving.emits (fun t q hq hs => ?_)
    (hS.reorder (fun q hq => hp.mem_iff.mpr hq) fun a i b j hab => (hj a i b j).mpr hab)) t ht'⟩⟩
  simp only [emitters]
  rw [getD_idxOf ((mem_emitters hP (hp.mem_iff.mpr hq)).1.mpr hs), getD_idxOf ((mem_emitters hP' hq).1.mpr hs)]

/-- C97. Listing connections in another order, or with their ends exchanged, joins the same ports. -/
theorem C97_joined (hc : ∀ a i b j, Conn.inner a i b j ∈ cs → Conn.inner a i b j ∈ cs' ∨ Conn.inner b j a i ∈ cs')
    (hc' : ∀ a i b j, Conn.inner a i b j ∈ cs' → Conn.inner a i b j ∈ cs ∨ Conn.inner b j a i ∈ cs) :
    ∀ a i b j, PT.Spec.Joined cs a i b j ↔ PT.Spec.Joined cs' a i b j := by
  intro a i b j
  constructor
  · rintro (h | h)
    · exact hc _ _ _ _ h
    · exact (hc _ _ _ _ h).symm
  · rintro (h | h)
    · exact hc' _ _ _ _ h
    · exact (hc' _ _ _ _ h).symm

/-! ## A coupler between two sources and two detectors -/

def xParts (k : ℝ) : List (Str × Part) :=
  [("s".toList, .source), ("u".toList, .source), ("x".toList, .coupler k), ("d".toList, .detector), ("e".toList, .detector)]

def xConns : List Conn :=
  [.inner "s".toList 0 "x".toList 0, .inner "u".toList 0 "x".toList 3, .inner "x".toList 1 "d".toList 0, .inner "x".toList 2 "e".toList 0]

def xConns' : List Conn :=
  [.inner "x".toList 2 "e".toList 0, .inner "d".toList 0 "x".toList 1, .inner "u".toList 0 "x".toList 3, .inner "x".toList 0 "s".toList 0]

theorem x_closed (k : ℝ) (cs : List Conn) (h : cs = xConns ∨ cs = xConns') : Closed (xParts k) cs where
  names := by show ["s".toList, "u".toList, "x".toList, "d".toList, "e".toList].Nodup; decide
  good := by
    intro q hq
    simp only [xParts, List.mem_cons, List.not_mem_nil, or_false] at hq
    rcases hq with rfl | rfl | rfl | rfl | rfl <;> dsimp only <;> exact ⟨by decide, by decide, by decide⟩
  sized := by
    intro q hq
    simp only [xParts, List.mem_cons, List.not_mem_nil, or_false] at hq
    rcases hq with rfl | rfl | rfl | rfl | rfl <;> simp [Part.n]
  nonempty := by simp [xParts]
  ports := by
    show List.Perm (endpoints cs) [("s".toList, 0), ("u".toList, 0), ("x".toList, 0), ("x".toList, 1), ("x".toList, 2), ("x".toList, 3),
      ("d".toList, 0), ("e".toList, 0)]
    rcases h with rfl | rfl <;> decide
  inner := by rcases h with rfl | rfl <;> rfl

theorem x_joined : ∀ a i b j, PT.Spec.Joined xConns a i b j ↔ PT.Spec.Joined xConns' a i b j :=
  C97_joined (by
    intro a i b j h
    simp only [xConns, List.mem_cons, List.not_mem_nil, or_false, Conn.inner.injEq] at h
    rcases h with ⟨rfl, rfl, rfl, rfl⟩ | ⟨rfl, rfl, rfl, rfl⟩ | ⟨rfl, rfl, rfl, rfl⟩ | ⟨rfl, rfl, rfl, rfl⟩ <;> decide) (by
    intro a i b j h
    simp only [xConns', List.mem_cons, List.not_mem_nil, or_false, Conn.inner.injEq] at h
    rcases h with ⟨rfl, rfl, rfl, rfl⟩ | ⟨rfl, rfl, rfl, rfl⟩ | ⟨rfl, rfl, rfl, rfl⟩ | ⟨rfl, rfl, rfl, rfl⟩ <;> decide)

/-- The two listings have their channels in different orders, and both work. -/
example (k : ℝ) (env : SimEnv) (wl : ℝ) :
    listeners (xParts k) xConns = ["d".toList, "e".toList] ∧ listeners (xParts k) xConns' = ["e".toList, "d".toList] ∧
    emitters (xParts k) xConns = ["s".toList, "u".toList] ∧ emitters (xParts k) xConns' = ["u".toList, "s".toList] ∧
    ∃ d d' r r', mkDev none ((xParts k).map fun q => (q.1, q.2.dev)) (xConns.map Conn.text) = .ok d ∧
      mkDev none ((xParts k).map fun q => (q.1, q.2.dev)) (xConns'.map Conn.text) = .ok d' ∧
      initNet (d.plant 299792458 fun _ : Unit => wl) env = .ok (some r) ∧
      initNet (d'.plant 299792458 fun _ : Unit => wl) env = .ok (some r') := by
  have h := x_closed k xConns (.inl rfl)
  have h' := x_closed k xConns' (.inr rfl)
  obtain ⟨d, hd⟩ := C94_built h none
  obtain ⟨d', hd'⟩ := C94_built h' none
  have ms : ("s".toList, Part.source) ∈ xParts k := by simp [xParts]
  have mu : ("u".toList, Part.source) ∈ xParts k := by simp [xParts]
  have mx : ("x".toList, Part.coupler k) ∈ xParts k := by simp [xParts]
  have md : ("d".toList, Part.detector) ∈ xParts k := by simp [xParts]
  have me : ("e".toList, Part.detector) ∈ xParts k := by simp [xParts]
  have hx : ¬Holds env 299792458 (.coupler k) := by
    rintro (h | h | ⟨-, dt, -, h⟩)
    · cases h
    · cases h
    · simp [Part.delay, roundSteps] at h
      norm_num at h
  obtain ⟨r, hr⟩ := (C94_initialized h none d hd 299792458 (fun _ : Unit => wl) env ⟨_, ms, Or.inl rfl⟩).1 (by
    intro w A B hT q hq i hi
    have hs := hT.held _ ms (Or.inl rfl) 0 (by decide)
    have hu := hT.held _ mu (Or.inl rfl) 0 (by decide)
    have hdd := hT.held _ md (Or.inr (Or.inl rfl)) 0 (by decide)
    have he := hT.held _ me (Or.inr (Or.inl rfl)) 0 (by decide)
    simp only [xParts, List.mem_cons, List.not_mem_nil, or_false] at hq
    rcases hq with rfl | rfl | rfl | rfl | rfl
    · have : i = 0 := by simp [Part.n] at hi; exact hi
      rw [this]; exact hs.1
    · have : i = 0 := by simp [Part.n] at hi; exact hi
      rw [this]; exact hu.1
    · have : i = 0 ∨ i = 1 ∨ i = 2 ∨ i = 3 := by simp only [Part.n] at hi; omega
      rcases this with rfl | rfl | rfl | rfl
      · exact (hT.joined _ mx hx 0 "s".toList 0 (Or.inr (by dsimp only; decide))).trans hs.2
      · exact (hT.joined _ mx hx 1 "d".toList 0 (Or.inl (by dsimp only; decide))).trans hdd.2
      · exact (hT.joined _ mx hx 2 "e".toList 0 (Or.inl (by dsimp only; decide))).trans he.2
      · exact (hT.joined _ mx hx 3 "u".toList 0 (Or.inr (by dsimp only; decide))).trans hu.2
    · have : i = 0 := by simp [Part.n] at hi; exact hi
      rw [this]; exact hdd.1
    · have : i = 0 := by simp [Part.n] at hi; exact hi
      rw [this]; exact he.1)
  obtain ⟨r', hr'⟩ := (C97_initialized h h' (.refl _) x_joined ⟨_, md, rfl⟩ none none hd hd' 299792458 (fun _ : Unit => wl) env).1.mp ⟨r, hr⟩
  exact ⟨rfl, rfl, rfl, rfl, d, d', r, r', hd, hd', hr, hr'⟩

end PT
