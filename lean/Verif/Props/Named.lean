import Verif.Proof.Named
import Verif.Props.Link

/-!
# C94: a circuit of named components behaves as its connections say
-/

namespace PT
open Spec Matrix

variable {W B : Type} {ord : List Str} {parts : List (Str × Part)} {cs : List Conn}

theorem placed_of {d : Dev} {name : Option Str} (h : Closed parts cs)
    (hd : mkDev name (parts.map fun q => (q.1, q.2.dev)) (cs.map Conn.text) = .ok d) : ∃ l, Placed (firstMentions cs) parts cs l d := by
  obtain ⟨d', l, hd', hl⟩ := closed_placed h name
  rw [hd] at hd'
  cases hd'
  exact ⟨l, hl⟩

theorem seq_laid' {l : List (Str × Part)} {d : Dev} (h : Placed ord parts cs l d) (A : Str → ℕ → ℂ) :
    ∀ q ∈ parts, ∀ i < q.2.n, (fun x i => seq (fun g : Fin d.comp.n => laid l A g) (pos l x + i)) q.1 i = A q.1 i :=
  fun _ hq _ hi => h.seq_laid A hq hi

/-- Waves that agree on the ports are solutions together. -/
theorem Spec.Steady.congr {l : List (Str × Part)} {d : Dev} (hP : Placed ord parts cs l d) {wl : ℝ} {e : Str → ℂ} {A B A' B' : Str → ℕ → ℂ}
    (hA : ∀ q ∈ parts, ∀ i < q.2.n, A' q.1 i = A q.1 i) (hB : ∀ q ∈ parts, ∀ i < q.2.n, B' q.1 i = B q.1 i)
    (h : Steady parts cs wl e A B) : Steady parts cs wl e A' B' := by
  refine ⟨fun a i b j hj => ?_, fun q hq i => ?_⟩
  · obtain ⟨p, hp, hi⟩ := hP.fits a i b j hj
    obtain ⟨p', hp', hi'⟩ := hP.fits b j a i (joined_symm hj)
    rw [hA (a, p) hp i hi, hB (b, p') hp' j hi']
    exact h.joined a i b j hj
  · rw [hB q hq i i.2, h.scattered q hq i]
    congr 1
    exact Finset.sum_congr rfl fun j _ => by rw [hA q hq j j.2]

theorem Spec.Moving.congr {l : List (Str × Part)} {d : Dev} (hP : Placed ord parts cs l d) {wl v dt : ℝ} {T : ℕ} {e : ℕ → Str → ℂ}
    {A B A' B' : ℕ → Str → ℕ → ℂ}
    (hA : ∀ t, ∀ q ∈ parts, ∀ i < q.2.n, A' t q.1 i = A t q.1 i) (hB : ∀ t, ∀ q ∈ parts, ∀ i < q.2.n, B' t q.1 i = B t q.1 i)
    (h : Moving parts cs wl v dt T e A B) : Moving parts cs wl v dt T e A' B' := by
  refine ⟨fun t ht a i b j hj => ?_, fun t ht q hq i => ?_⟩
  · obtain ⟨p, hp, hi⟩ := hP.fits a i b j hj
    obtain ⟨p', hp', hi'⟩ := hP.fits b j a i (joined_symm hj)
    rw [hA t (a, p) hp i hi, hB t (b, p') hp' j hi']
    exact h.joined t ht a i b j hj
  · rw [hB t q hq i i.2, h.scattered t ht q hq i]
    congr 1
    exact Finset.sum_congr rfl fun j _ => by rw [hA _ q hq j j.2]

theorem detected_named {l : List (Str × Part)} {d : Dev} (hP : Placed ord parts cs l d) (v : ℝ) (wl : W → ℝ) (a : Fin d.comp.n → ℂ) :
    ((portsWith (d.plant v wl).det).map fun i => ((a i).re, (a i).im)).map asComplex =
      (listenersIn ord parts).map fun x => seq a (pos l x + 0) := by
  rw [detected_seq _ _ _ hP.marks.2, List.map_map, List.map_map]
  exact List.map_congr_left fun x _ => rfl

theorem listeners_sub {x : Str} (hx : x ∈ listenersIn ord parts) : ∃ p, (x, p) ∈ parts ∧ 0 < p.n := by
  unfold listenersIn at hx
  rw [List.mem_filter, List.any_eq_true] at hx
  obtain ⟨-, r, hr, he⟩ := hx
  simp only [Bool.and_eq_true, decide_eq_true_eq] at he
  exact ⟨r.2, by rw [← he.1]; exact hr, (part_marked r.2).2.2.2.2.2 he.2⟩

theorem det_exists {l : List (Str × Part)} {d : Dev} (hP : Placed ord parts cs l d) (v : ℝ) (wl : W → ℝ)
    (hdet : ∃ q ∈ parts, isDetector q.2 = true) : portsWith (d.plant v wl).det ≠ [] := by
  intro h0
  obtain ⟨q, hq, hs⟩ := hdet
  have h1 := hP.marks.2
  have h2 : ((portsWith fun i : Fin d.comp.n => d.comp.det.getD i false).map Fin.val) = [] := congrArg (List.map Fin.val) h0
  rw [h2] at h1
  have h3 := (mem_emitters hP hq).2.mpr hs
  rw [List.map_eq_nil_iff.mp h1.symm] at h3
  cases h3

/-- What a circuit with parts in known places detects, by name. -/
theorem placed_frequency {l : List (Str × Part)} {d : Dev} (hP : Placed ord parts cs l d) (hs : ∀ q ∈ parts, 0 < q.2.n) (hdet : ∃ q ∈ parts, isDetector q.2 = true)
    (v : ℝ) (wl : W → ℝ) (env : SimEnv) (hf : env.freqdomain = true) (ht1 : env.t.length = 1) (r : Reduced W)
    (hr : initNet (d.plant v wl) env = .ok (some r)) (acts : List (Actor W B)) (src : ℕ → ℕ → W → B → ℝ × ℝ) :
    ∃ o, forwardReduced r env acts src = .ok [o] ∧ ∀ w b,
      (∃ A B, Steady parts cs (wl w) (fun x => asComplex (src 0 ((emittersIn ord parts).idxOf x) w b)) A B) ∧
      ∀ A B, Steady parts cs (wl w) (fun x => asComplex (src 0 ((emittersIn ord parts).idxOf x) w b)) A B →
        (o w b).map asComplex = (listenersIn ord parts).map fun x => A x 0 := by
  obtain ⟨o, ho, H⟩ := C66_freq_domain d hP.made v wl env hf ht1 (det_exists hP v wl hdet) r hr acts src
  refine ⟨o, ho, fun w b => ?_⟩
  obtain ⟨⟨a, b', hab⟩, hall⟩ := H w b
  have hiff := hP.static hs v wl w (fun k => asComplex (src 0 k w b))
  refine ⟨⟨_, _, (hiff a b').mp hab⟩, fun A B hAB => ?_⟩
  have hs := (hiff (fun g => laid l A g) (fun g => laid l B g)).mpr (hAB.congr hP (seq_laid' hP A) (seq_laid' hP B))
  rw [hall _ _ hs, detected_named hP v wl]
  refine List.map_congr_left fun x hx => ?_
  obtain ⟨p, hp, hn⟩ := listeners_sub hx
  exact hP.seq_laid A hp hn

theorem placed_time {l : List (Str × Part)} {d : Dev} (hP : Placed ord parts cs l d) (hs : ∀ q ∈ parts, 0 < q.2.n) (hdet : ∃ q ∈ parts, isDetector q.2 = true)
    (v : ℝ) (wl : W → ℝ) (env : SimEnv) (dt : ℝ) (hdt : env.dt = some dt) (hpos : 0 < dt) (hf : env.freqdomain = false)
    (r : Reduced W) (hr : initNet (d.plant v wl) env = .ok (some r)) (acts : List (Actor W B)) (src : ℕ → ℕ → W → B → ℝ × ℝ) :
    ∃ out, forwardReduced r env acts src = .ok out ∧ out.length = env.t.length ∧ ∀ w b,
      (∃ A B, Moving parts cs (wl w) v dt env.t.length (fun t x => asComplex (src t ((emittersIn ord parts).idxOf x) w b)) A B) ∧
      ∀ A B, Moving parts cs (wl w) v dt env.t.length (fun t x => asComplex (src t ((emittersIn ord parts).idxOf x) w b)) A B →
        ∀ t (ht : t < out.length), (out[t] w b).map asComplex = (listenersIn ord parts).map fun x => A t x 0 := by
  obtain ⟨out, ho, hlen, H⟩ := C66_time_domain d hP.made v wl env dt hdt hpos hf (det_exists hP v wl hdet) r hr acts src
  refine ⟨out, ho, hlen, fun w b => ?_⟩
  obtain ⟨⟨a, b', hab⟩, hall⟩ := H w b
  have hiff := hP.moving hs v wl w dt env.t.length (fun t k => asComplex (src t k w b))
  refine ⟨⟨_, _, (hiff a b').mp hab⟩, fun A B hAB t ht => ?_⟩
  have hs := (hiff (fun t g => laid l (A t) g) (fun t g => laid l (B t) g)).mpr
    (hAB.congr hP (fun t => seq_laid' hP (A t)) (fun t => seq_laid' hP (B t)))
  rw [hall _ _ hs t ht, detected_named hP v wl]
  refine List.map_congr_left fun x hx => ?_
  obtain ⟨p, hp, hn⟩ := listeners_sub hx
  exact hP.seq_laid (A t) hp hn

theorem placed_initialized {l : List (Str × Part)} {d : Dev} (hP : Placed ord parts cs l d) (hs : ∀ q ∈ parts, 0 < q.2.n)
    (v : ℝ) (wl : W → ℝ) (env : SimEnv) (hh : ∃ q ∈ parts, Holds env v q.2) :
    ((∀ w A B, Trapped env v parts cs (wl w) A B → ∀ q ∈ parts, ∀ i < q.2.n, A q.1 i = 0) →
      ∃ r, initNet (d.plant v wl) env = .ok (some r)) ∧
    (∀ w A B, Trapped env v parts cs (wl w) A B → (∃ q ∈ parts, ∃ i < q.2.n, A q.1 i ≠ 0) →
      initNet (d.plant v wl) env = .error .runtimeError) := by
  obtain ⟨q₀, hq₀, hh⟩ := hh
  obtain ⟨k₀, hk₀⟩ := pos_partAt hP.nodup ((hP.mem _).mpr hq₀)
  have hmc := (mcAt_part hP.flat v wl env ⟨pos l q₀.1 + 0, hP.lt hq₀ (hs q₀ hq₀)⟩ (hk₀ 0 (hs q₀ hq₀))).mpr
    ((holds_iff env v q₀.2).mp hh)
  constructor
  · intro H
    refine C26_initialized _ env (plant_terminated (madeOf_flat hP.made).1 hP.term v wl) ⟨_, hmc⟩ fun w => ?_
    refine pick_invertible _ _ _ ((List.nodup_finRange _).filter _) ?_
    intro u y hout hin
    have ht := (hP.trapped v wl w env u y).mp ⟨hout, hin⟩
    refine hP.ext fun q hq i hi => ?_
    rw [hP.seq_at 0 hq hi]
    exact H w _ _ ht q hq i hi
  · intro w A B ht hne
    have ht' : Trapped env v parts cs (wl w) (fun x i => seq (fun g : Fin d.comp.n => laid l A g) (pos l x + i))
        (fun x i => seq (fun g : Fin d.comp.n => laid l B g) (pos l x + i)) := by
      refine ⟨fun q hq hh i hi => ?_, fun q hq hh i b j hj => ?_, fun q hq hh i => ?_⟩
      · rw [hP.seq_laid A hq hi, hP.seq_laid B hq hi]
        exact ht.held q hq hh i hi
      · obtain ⟨p, hp, hi⟩ := hP.fits _ _ _ _ hj
        obtain ⟨p', hp', hi'⟩ := hP.fits b j _ i (joined_symm hj)
        rw [hP.seq_laid A (x := q.1) hp hi, hP.seq_laid B (x := b) hp' hi']
        exact ht.joined q hq hh i b j hj
      · rw [hP.seq_laid B hq i.2, ht.scattered q hq hh i]
        exact Finset.sum_congr rfl fun j _ => by rw [hP.seq_laid A hq j.2]
    obtain ⟨hout, hin⟩ := (hP.trapped v wl w env _ _).mpr ht'
    have hsing : (1 - pick (cx (d.plant v wl).C 0) ((d.plant v wl).mlPorts env) ((d.plant v wl).mlPorts env) *
        pick (cx ((d.plant v wl).rS w) ((d.plant v wl).iS w)) ((d.plant v wl).mlPorts env) ((d.plant v wl).mlPorts env)).det = 0 :=
      pick_singular _ _ _ ((List.nodup_finRange _).filter _) _ _ hout hin (by
      intro h0
      obtain ⟨q, hq, i, hi, hA⟩ := hne
      apply hA
      rw [← hP.seq_laid A hq hi]
      show seq (fun g : Fin d.comp.n => laid l A g) _ = 0
      rw [h0, hP.seq_at 0 hq hi]
      rfl)
    unfold initNet
    have hmc' : ((d.plant v wl).mcPorts env).length ≠ 0 := by
      rw [Ne, List.length_eq_zero_iff]
      apply List.ne_nil_of_mem (a := (⟨pos l q₀.1 + 0, hP.lt hq₀ (hs q₀ hq₀)⟩ : Fin d.comp.n))
      exact List.mem_filter.mpr ⟨List.mem_finRange _, hmc⟩
    rw [if_neg (by push Not; exact ⟨plant_terminated (madeOf_flat hP.made).1 hP.term v wl, hmc'⟩),
      (C25_failure _ _ _ _ _ _).2 ⟨rfl, w, hsing⟩]
    rfl

/-- C94. A closed circuit of named components can be built. -/
theorem C94_built (h : Closed parts cs) (name : Option Str) :
    ∃ d, mkDev name (parts.map fun q => (q.1, q.2.dev)) (cs.map Conn.text) = .ok d := by
  obtain ⟨d, -, hd, -⟩ := closed_placed h name
  exact ⟨d, hd⟩

/-- C94. What is detected in the frequency domain is given by the one and only solution of the equations of the
components, written down by name. -/
theorem C94_frequency (h : Closed parts cs) (hdet : ∃ q ∈ parts, isDetector q.2 = true) (name : Option Str) (d : Dev)
    (hd : mkDev name (parts.map fun q => (q.1, q.2.dev)) (cs.map Conn.text) = .ok d)
    (v : ℝ) (wl : W → ℝ) (env : SimEnv) (hf : env.freqdomain = true) (ht1 : env.t.length = 1) (r : Reduced W)
    (hr : initNet (d.plant v wl) env = .ok (some r)) (acts : List (Actor W B)) (src : ℕ → ℕ → W → B → ℝ × ℝ) :
    ∃ o, forwardReduced r env acts src = .ok [o] ∧ ∀ w b,
      (∃ A B, Steady parts cs (wl w) (fun x => asComplex (src 0 ((emitters parts cs).idxOf x) w b)) A B) ∧
      ∀ A B, Steady parts cs (wl w) (fun x => asComplex (src 0 ((emitters parts cs).idxOf x) w b)) A B →
        (o w b).map asComplex = (listeners parts cs).map fun x => A x 0 := by
  obtain ⟨l, hP⟩ := placed_of h hd
  exact placed_frequency hP h.sized hdet v wl env hf ht1 r hr acts src

/-- C94, the same in the time domain. -/
theorem C94_time (h : Closed parts cs) (hdet : ∃ q ∈ parts, isDetector q.2 = true) (name : Option Str) (d : Dev)
    (hd : mkDev name (parts.map fun q => (q.1, q.2.dev)) (cs.map Conn.text) = .ok d)
    (v : ℝ) (wl : W → ℝ) (env : SimEnv) (dt : ℝ) (hdt : env.dt = some dt) (hpos : 0 < dt) (hf : env.freqdomain = false)
    (r : Reduced W) (hr : initNet (d.plant v wl) env = .ok (some r)) (acts : List (Actor W B)) (src : ℕ → ℕ → W → B → ℝ × ℝ) :
    ∃ out, forwardReduced r env acts src = .ok out ∧ out.length = env.t.length ∧ ∀ w b,
      (∃ A B, Moving parts cs (wl w) v dt env.t.length (fun t x => asComplex (src t ((emitters parts cs).idxOf x) w b)) A B) ∧
      ∀ A B, Moving parts cs (wl w) v dt env.t.length (fun t x => asComplex (src t ((emitters parts cs).idxOf x) w b)) A B →
        ∀ t (ht : t < out.length), (out[t] w b).map asComplex = (listeners parts cs).map fun x => A t x 0 := by
  obtain ⟨l, hP⟩ := placed_of h hd
  exact placed_time hP h.sized hdet v wl env dt hdt hpos hf r hr acts src

/-- C94. The circuit can be initialized unless light can be trapped in it, and otherwise `initialize` raises RuntimeError. -/
theorem C94_initialized (h : Closed parts cs) (name : Option Str) (d : Dev)
    (hd : mkDev name (parts.map fun q => (q.1, q.2.dev)) (cs.map Conn.text) = .ok d)
    (v : ℝ) (wl : W → ℝ) (env : SimEnv) (hh : ∃ q ∈ parts, Holds env v q.2) :
    ((∀ w A B, Trapped env v parts cs (wl w) A B → ∀ q ∈ parts, ∀ i < q.2.n, A q.1 i = 0) →
      ∃ r, initNet (d.plant v wl) env = .ok (some r)) ∧
    (∀ w A B, Trapped env v parts cs (wl w) A B → (∃ q ∈ parts, ∃ i < q.2.n, A q.1 i ≠ 0) →
      initNet (d.plant v wl) env = .error .runtimeError) := by
  obtain ⟨l, hP⟩ := placed_of h hd
  exact placed_initialized hP h.sized v wl env hh

/-! ## Two mirrors facing each other -/

/-- A source, two mirrors and a detector in a row. -/
noncomputable def cavityParts (R : ℝ) : List (Str × Part) :=
  [("s".toList, .source), ("m".toList, .mirror R), ("n".toList, .mirror R), ("d".toList, .detector)]

def cavityConns : List Conn :=
  [.inner "s".toList 0 "m".toList 0, .inner "m".toList 1 "n".toList 0, .inner "n".toList 1 "d".toList 0]

theorem cavity_closed (R : ℝ) : Closed (cavityParts R) cavityConns where
  names := by show ["s".toList, "m".toList, "n".toList, "d".toList].Nodup; decide
  good := by
    intro q hq
    simp only [cavityParts, List.mem_cons, List.not_mem_nil, or_false] at hq
    rcases hq with rfl | rfl | rfl | rfl <;> dsimp only <;> exact ⟨by decide, by decide, by decide⟩
  sized := by
    intro q hq
    simp only [cavityParts, List.mem_cons, List.not_mem_nil, or_false] at hq
    rcases hq with rfl | rfl | rfl | rfl <;> simp [Part.n]
  nonempty := by simp [cavityParts]
  ports := by
    show List.Perm (endpoints cavityConns) [("s".toList, 0), ("m".toList, 0), ("m".toList, 1), ("n".toList, 0), ("n".toList, 1), ("d".toList, 0)]
    decide
  inner := rfl

example (R : ℝ) : emitters (cavityParts R) cavityConns = ["s".toList] ∧ listeners (cavityParts R) cavityConns = ["d".toList] := by
  constructor <;> rfl

theorem mirror_sum (R wl : ℝ) (f : ℕ → ℂ) :
    ∑ j : Fin (Part.mirror R).n, scattering (.mirror R) wl (0 : Fin 2) j * f j = √R * f 0 + Complex.I * √(1 - R) * f 1 ∧
    ∑ j : Fin (Part.mirror R).n, scattering (.mirror R) wl (1 : Fin 2) j * f j = Complex.I * √(1 - R) * f 0 + √R * f 1 := by
  have h1 : ∀ x : ℝ, (⟨x, 0⟩ : ℂ) = x := fun x => rfl
  have h2 : ∀ x : ℝ, (⟨0, x⟩ : ℂ) = Complex.I * x := fun x => by apply Complex.ext <;> simp
  rw [show scattering (.mirror R) wl = _ from mirror_shape R]
  constructor
  · refine (Fin.sum_univ_two (fun j : Fin 2 => cross2 ⟨√R, 0⟩ ⟨0, √(1 - R)⟩ ⟨√R, 0⟩ 0 j * f j)).trans ?_
    simp [cross2, h1, h2]
  · refine (Fin.sum_univ_two (fun j : Fin 2 => cross2 ⟨√R, 0⟩ ⟨0, √(1 - R)⟩ ⟨√R, 0⟩ 1 j * f j)).trans ?_
    simp [cross2, h1, h2]

/-- Two equal mirrors with nothing between them are transparent. -/
example (R : ℝ) (h0 : 0 ≤ R) (h1 : R < 1) :
    ∃ d, mkDev none ((cavityParts R).map fun q => (q.1, q.2.dev)) (cavityConns.map Conn.text) = .ok d ∧
      ∀ env : SimEnv, env.freqdomain = true → env.t.length = 1 →
        ∃ r, initNet (d.plant 299792458 fun _ : Unit => 1.55e-6) env = .ok (some r) ∧
          ∀ src : ℕ → ℕ → Unit → Unit → ℝ × ℝ, ∃ o, forwardReduced r env [] src = .ok [o] ∧
            ∀ w b, (o w b).map asComplex = [-asComplex (src 0 0 w b)] := by
  have hsq : (√R : ℂ) * √R = R := by rw [← Complex.ofReal_mul, Real.mul_self_sqrt h0]
  have hsq' : (√(1 - R) : ℂ) * √(1 - R) = 1 - R := by
    rw [← Complex.ofReal_mul, Real.mul_self_sqrt (by linarith)]; push_cast; rfl
  have hne : (1 : ℂ) - R ≠ 0 := by
    rw [← Complex.ofReal_one, ← Complex.ofReal_sub, Complex.ofReal_ne_zero]; linarith
  have hII := Complex.I_mul_I
  obtain ⟨d, hd⟩ := C94_built (cavity_closed R) none
  refine ⟨d, hd, fun env hf ht => ?_⟩
  have hh : ∀ R', ¬Holds env 299792458 (.mirror R') := by
    rintro R' (h | h | ⟨h, -⟩)
    · cases h
    · cases h
    · rw [hf] at h; cases h
  have j1 : PT.Spec.Joined cavityConns "m".toList 1 "n".toList 0 := Or.inl (by decide)
  have j2 : PT.Spec.Joined cavityConns "s".toList 0 "m".toList 0 := Or.inl (by decide)
  have j3 : PT.Spec.Joined cavityConns "n".toList 1 "d".toList 0 := Or.inl (by decide)
  have ms : ("s".toList, Part.source) ∈ cavityParts R := by simp [cavityParts]
  have mm : ("m".toList, Part.mirror R) ∈ cavityParts R := by simp [cavityParts]
  have mn : ("n".toList, Part.mirror R) ∈ cavityParts R := by simp [cavityParts]
  have md : ("d".toList, Part.detector) ∈ cavityParts R := by simp [cavityParts]
  obtain ⟨r, hr⟩ := (C94_initialized (cavity_closed R) none d hd 299792458 (fun _ : Unit => 1.55e-6) env
    ⟨_, ms, Or.inl rfl⟩).1 (by
      intro w A B hT
      have s0 := hT.held _ ms (Or.inl rfl) 0 (by decide)
      have d0 := hT.held _ md (Or.inr (Or.inl rfl)) 0 (by decide)
      have e1 := hT.joined _ mm (hh R) _ _ _ j1
      have e2 := hT.joined _ mn (hh R) _ _ _ (joined_symm j1)
      have e3 := hT.joined _ mm (hh R) _ _ _ (joined_symm j2)
      have e4 := hT.joined _ mn (hh R) _ _ _ j3
      have f1 := (hT.scattered _ mm (hh R) (1 : Fin 2)).trans (mirror_sum R 1.55e-6 (A "m".toList)).2
      have f2 := (hT.scattered _ mn (hh R) (0 : Fin 2)).trans (mirror_sum R 1.55e-6 (A "n".toList)).1
      simp only [Fin.val_zero, Fin.val_one] at f1 f2 s0 d0 e1 e2 e3 e4
      rw [s0.2] at e3
      rw [d0.2] at e4
      rw [e3, ← e2] at f1
      rw [e4, ← e1] at f2
      have x0 : A "n".toList 0 = 0 := by
        apply mul_left_cancel₀ hne
        linear_combination f1 + (√R : ℂ) * f2 + A "n".toList 0 * hsq
      have x1 : A "m".toList 1 = 0 := by rw [f2, x0]; ring
      intro q hq i hi
      simp only [cavityParts, List.mem_cons, List.not_mem_nil, or_false] at hq
      rcases hq with rfl | rfl | rfl | rfl
      · have : i = 0 := by simp [Part.n] at hi; exact hi
        rw [this]; exact s0.1
      · have : i = 0 ∨ i = 1 := by simp only [Part.n] at hi; omega
        rcases this with rfl | rfl
        · exact e3
        · exact x1
      · have : i = 0 ∨ i = 1 := by simp only [Part.n] at hi; omega
        rcases this with rfl | rfl
        · exact x0
        · exact e4
      · have : i = 0 := by simp [Part.n] at hi; exact hi
        rw [this]; exact d0.1)
  refine ⟨r, hr, fun src => ?_⟩
  obtain ⟨o, ho, H⟩ := C94_frequency (cavity_closed R) ⟨_, md, rfl⟩ none d hd 299792458 (fun _ : Unit => 1.55e-6) env hf ht r hr
    ([] : List (Actor Unit Unit)) src
  refine ⟨o, ho, fun w b => ?_⟩
  obtain ⟨⟨A, B, hS⟩, H⟩ := H w b
  rw [H A B hS, show listeners (cavityParts R) cavityConns = ["d".toList] from rfl]
  have bs : B "s".toList 0 = asComplex (src 0 0 w b) := by
    have h := hS.scattered _ ms (0 : Fin 1)
    rw [Finset.sum_eq_zero fun j _ => by rw [ends_dark .source 1.55e-6 (Or.inl rfl), zero_mul], zero_add] at h
    exact h
  have bd : B "d".toList 0 = 0 := by
    have h := hS.scattered _ md (0 : Fin 1)
    rw [Finset.sum_eq_zero fun j _ => by rw [ends_dark .detector 1.55e-6 (Or.inr rfl), zero_mul], zero_add] at h
    exact h
  have f1 := (hS.scattered _ mm (1 : Fin 2)).trans (congrArg (· + _) (mirror_sum R 1.55e-6 (A "m".toList)).2)
  have f2 := (hS.scattered _ mn (0 : Fin 2)).trans (congrArg (· + _) (mirror_sum R 1.55e-6 (A "n".toList)).1)
  have f3 := (hS.scattered _ mn (1 : Fin 2)).trans (congrArg (· + _) (mirror_sum R 1.55e-6 (A "n".toList)).2)
  simp only [isSource, Bool.false_eq_true, if_false, add_zero, Fin.val_zero, Fin.val_one] at f1 f2 f3
  have e1 := hS.joined _ _ _ _ j1
  have e2 := hS.joined _ _ _ _ (joined_symm j1)
  have e3 := hS.joined _ _ _ _ (joined_symm j2)
  have e4 := hS.joined _ _ _ _ j3
  have e5 := hS.joined _ _ _ _ (joined_symm j3)
  rw [bs] at e3
  rw [bd] at e4
  rw [e3, ← e2] at f1
  rw [e4, ← e1] at f2
  rw [e4, ← e5] at f3
  show [A "d".toList 0] = _
  congr 1
  apply mul_left_cancel₀ hne
  set s := asComplex (src 0 0 w b)
  set u := A "n".toList 0
  set t : ℂ := (√(1 - R) : ℂ)
  linear_combination (1 - R : ℂ) * f3 + Complex.I * t * f1 + Complex.I * t * √R * f2 + Complex.I * t * u * hsq +
    s * Complex.I ^ 2 * hsq' + (1 - R : ℂ) * s * hII

/-- Perfect mirrors trap light, and the network cannot be initialized. -/
example : (∃ d, mkDev none ((cavityParts 1).map fun q => (q.1, q.2.dev)) (cavityConns.map Conn.text) = .ok d ∧
    ∀ env : SimEnv, initNet (d.plant 299792458 fun _ : Unit => 1.55e-6) env = .error .runtimeError) := by
  obtain ⟨d, hd⟩ := C94_built (cavity_closed 1) none
  refine ⟨d, hd, fun env => ?_⟩
  refine (C94_initialized (cavity_closed 1) none d hd 299792458 (fun _ : Unit => 1.55e-6) env
    ⟨("s".toList, .source), by simp [cavityParts], Or.inl rfl⟩).2 ()
    (fun x i => if x = "m".toList then (if i = 1 then 1 else 0) else if x = "n".toList then (if i = 0 then 1 else 0) else 0)
    (fun x i => if x = "m".toList then (if i = 1 then 1 else 0) else if x = "n".toList then (if i = 0 then 1 else 0) else 0)
    ?_ ⟨("m".toList, .mirror 1), by simp [cavityParts], 1, by decide, by simp⟩
  have h0 : ¬Holds env 299792458 (.mirror 1) := by
    rintro (h | h | ⟨-, dt, -, h⟩)
    · cases h
    · cases h
    · norm_num [Part.delay, roundSteps] at h
  have hS : ∀ i j : Fin 2, scattering (.mirror 1) 1.55e-6 i j = if i = j then 1 else 0 := by
    intro i j
    rw [show scattering (.mirror 1) 1.55e-6 = _ from mirror_shape 1]
    fin_cases i <;> fin_cases j <;> apply Complex.ext <;> simp [cross2]
  have hB : ∀ (f : ℕ → ℂ) (i : Fin 2), f i = ∑ j : Fin 2, scattering (.mirror 1) 1.55e-6 i j * f j := by
    intro f i
    simp [hS]
  refine ⟨fun q hq hh i hi => ?_, fun q hq hh i b j hj => ?_, fun q hq hh i => ?_⟩
  · simp only [cavityParts, List.mem_cons, List.not_mem_nil, or_false] at hq
    rcases hq with rfl | rfl | rfl | rfl
    · simp
    · exact (h0 hh).elim
    · exact (h0 hh).elim
    · simp
  · simp only [cavityParts, List.mem_cons, List.not_mem_nil, or_false] at hq
    simp only [PT.Spec.Joined, cavityConns, List.mem_cons, List.not_mem_nil, or_false, Conn.inner.injEq] at hj
    rcases hq with rfl | rfl | rfl | rfl
    · exact (hh (Or.inl rfl)).elim
    · rcases hj with (h | h | h) | (h | h | h) <;> obtain ⟨h1, h2, h3, h4⟩ := h <;> simp at h1 h2 h3 h4 <;> subst_vars <;> simp
    · rcases hj with (h | h | h) | (h | h | h) <;> obtain ⟨h1, h2, h3, h4⟩ := h <;> simp at h1 h2 h3 h4 <;> subst_vars <;> simp
    · exact (hh (Or.inr (Or.inl rfl))).elim
  · simp only [cavityParts, List.mem_cons, List.not_mem_nil, or_false] at hq
    rcases hq with rfl | rfl | rfl | rfl
    · exact (hh (Or.inl rfl)).elim
    · exact hB (fun i => if i = 1 then 1 else 0) i
    · exact hB (fun i => if i = 0 then 1 else 0) i
    · exact (hh (Or.inr (Or.inl rfl))).elim

end PT
