import Verif.Proof.Replace
import Verif.Props.Nested
import Verif.Props.Parts

/-!
# C102: sub-networks can be replaced by others that respond alike
-/

namespace PT
open Spec Matrix

variable {W B : Type} {d d' : Dev} {s s' : Sheet}

/-- The laws of components in a steady state. -/
def steadyLaw (wl : ℝ) (emit heard : Str → ℂ) (q : Str × Part) (f g : ℕ → ℂ) : Prop :=
  (∀ i : Fin q.2.n, g i = ∑ j : Fin q.2.n, scattering q.2 wl i j * f j + if isSource q.2 then emit q.1 else 0) ∧
    (isDetector q.2 = true → f 0 = heard q.1)

theorem responds_iff (wl : ℝ) (emit heard : Str → ℂ) (a b : ℕ → ℂ) :
    Responds s wl emit heard a b ↔ Meets s (steadyLaw wl emit heard) a b := by
  constructor
  · rintro ⟨A, B, hS, hd, hf⟩
    exact ⟨A, B, ⟨hS.joined, fun q hq => ⟨hS.scattered q hq, hd q hq⟩⟩, hf⟩
  · rintro ⟨A, B, hF, hf⟩
    exact ⟨A, B, ⟨hF.joined, fun q hq => (hF.obeys q hq).1⟩, fun q hq => (hF.obeys q hq).2, hf⟩

/-- The laws of components in time. -/
def movingLaw (wl v dt : ℝ) (T : ℕ) (emit heard : ℕ → Str → ℂ) (q : Str × Part) (f g : ℕ → Fin T → ℂ) : Prop :=
  ∀ t : Fin T, (∀ i : Fin q.2.n, g i t =
    (∑ j : Fin q.2.n, scattering q.2 wl i j * if roundSteps (q.2.delay v / dt) ≤ t then
      f j ⟨t - roundSteps (q.2.delay v / dt), (Nat.sub_le _ _).trans_lt t.2⟩ else 0) + if isSource q.2 then emit t q.1 else 0) ∧
    (isDetector q.2 = true → f 0 t = heard t q.1)

theorem respondsInTime_iff (wl v dt : ℝ) (T : ℕ) (emit heard : ℕ → Str → ℂ) (a b : ℕ → ℕ → ℂ) :
    RespondsInTime s wl v dt T emit heard a b ↔
      Meets s (movingLaw wl v dt T emit heard) (fun k (t : Fin T) => a t k) (fun k (t : Fin T) => b t k) := by
  constructor
  · rintro ⟨A, B, hS, hd, hf⟩
    refine ⟨fun x i t => A t x i, fun x i t => B t x i, ⟨fun a i b j hj => funext fun t => hS.joined t t.2 a i b j hj,
      fun q hq t => ⟨hS.scattered t t.2 q hq, hd t t.2 q hq⟩⟩, fun k e he => ⟨funext fun t => (hf t t.2 k e he).1, funext fun t => (hf t t.2 k e he).2⟩⟩
  · rintro ⟨A, B, hF, hf⟩
    refine ⟨fun t x i => if h : t < T then A x i ⟨t, h⟩ else 0, fun t x i => if h : t < T then B x i ⟨t, h⟩ else 0, ⟨?_, ?_⟩, ?_, ?_⟩
    · intro t ht a i b j hj
      simp only [ht, dif_pos]
      rw [hF.joined a i b j hj]
    · intro t ht q hq i
      simp only [ht, dif_pos]
      rw [(hF.obeys q hq ⟨t, ht⟩).1 i]
      congr 1
      refine Finset.sum_congr rfl fun j _ => ?_
      congr 1
      have h2 : t - roundSteps (q.2.delay v / dt) < T := (Nat.sub_le _ _).trans_lt ht
      simp only [h2, dif_pos]
    · intro t ht q hq hd
      simp only [ht, dif_pos]
      exact (hF.obeys q hq ⟨t, ht⟩).2 hd
    · intro t ht k e he
      simp only [ht, dif_pos]
      rw [(hf k e he).1, (hf k e he).2]
      exact ⟨rfl, rfl⟩

variable {sheet sheet' : Str → Sheet} {cs : List Conn} {D : List (Str × ℤ)}

theorem boxed_of (hm : ∀ x ∈ firstMentions cs, ∃ d, Drawn d (sheet x)) (hp : ∀ e ∈ endpoints cs ++ D, e ∈ boxPorts sheet cs)
    (hn : ((Sheet.merge sheet cs D).parts.map Prod.fst).Nodup) : Boxed sheet cs D := by
  refine ⟨fun x hx => ?_, hp, hn⟩
  obtain ⟨d, hd⟩ := hm x hx
  exact (drawn_lies hd (merge_nodup hn hx)).once

theorem boxPorts_congr (hl : ∀ x ∈ firstMentions cs, (sheet x).free.length = (sheet' x).free.length) : boxPorts sheet cs = boxPorts sheet' cs := by
  unfold boxPorts
  refine List.flatMap_congr fun x hx => ?_
  rw [hl x hx]

/-- C102. What a network of networks does is determined by what its sub-networks do: light that enters a port of a sub-network left the port
connected to it. -/
theorem C102_composed (hm : ∀ x ∈ firstMentions cs, ∃ d, Drawn d (sheet x)) (hp : ∀ e ∈ endpoints cs ++ D, e ∈ boxPorts sheet cs)
    (hn : ((Sheet.merge sheet cs D).parts.map Prod.fst).Nodup) (wl : ℝ) (emit heard : Str → ℂ) (a b : ℕ → ℂ) :
    Responds (.merge sheet cs D) wl emit heard a b ↔ ∃ P Q : Str → ℕ → ℂ,
      (∀ x ∈ firstMentions cs, Responds (sheet x) wl emit heard (P x) (Q x)) ∧
      (∀ x i y j, PT.Spec.Joined cs x i y j → P x i = Q y j) ∧
      ∀ (k : ℕ) e, D[k]? = some e → P e.1 e.2.toNat = a k ∧ Q e.1 e.2.toNat = b k := by
  simp only [responds_iff]
  exact meets_merge (boxed_of hm hp hn) a b

/-- C102. Networks whose sub-networks respond alike respond alike. -/
theorem C102_alike (wl : ℝ) (hm : ∀ x ∈ firstMentions cs, ∃ d, Drawn d (sheet x)) (hm' : ∀ x ∈ firstMentions cs, ∃ d, Drawn d (sheet' x))
    (hp : ∀ e ∈ endpoints cs ++ D, e ∈ boxPorts sheet cs) (hn : ((Sheet.merge sheet cs D).parts.map Prod.fst).Nodup)
    (hn' : ((Sheet.merge sheet' cs D).parts.map Prod.fst).Nodup) (h : ∀ x ∈ firstMentions cs, Alike wl (sheet x) (sheet' x)) :
    Alike wl (.merge sheet cs D) (.merge sheet' cs D) := by
  refine ⟨by simp [Sheet.merge], fun emit heard a b => ?_⟩
  have hp' : ∀ e ∈ endpoints cs ++ D, e ∈ boxPorts sheet' cs := boxPorts_congr (fun x hx => (h x hx).ports) ▸ hp
  simp only [responds_iff]
  refine (boxed_of hm hp hn).replace (boxed_of hm' hp' hn') (fun x hx a b => ?_) a b
  rw [← responds_iff, ← responds_iff]
  exact (h x hx).responds emit heard a b

/-- C102, the same in the time domain. -/
theorem C102_alike_time (wl v dt : ℝ) (hm : ∀ x ∈ firstMentions cs, ∃ d, Drawn d (sheet x)) (hm' : ∀ x ∈ firstMentions cs, ∃ d, Drawn d (sheet' x))
    (hp : ∀ e ∈ endpoints cs ++ D, e ∈ boxPorts sheet cs) (hn : ((Sheet.merge sheet cs D).parts.map Prod.fst).Nodup)
    (hn' : ((Sheet.merge sheet' cs D).parts.map Prod.fst).Nodup) (h : ∀ x ∈ firstMentions cs, AlikeInTime wl v dt (sheet x) (sheet' x)) :
    AlikeInTime wl v dt (.merge sheet cs D) (.merge sheet' cs D) := by
  refine ⟨by simp [Sheet.merge], fun T emit heard a b => ?_⟩
  have hp' : ∀ e ∈ endpoints cs ++ D, e ∈ boxPorts sheet' cs := boxPorts_congr (fun x hx => (h x hx).ports) ▸ hp
  simp only [respondsInTime_iff]
  refine (boxed_of hm hp hn).replace (boxed_of hm' hp' hn') (fun x hx a b => ?_) _ _
  have key : ∀ a : ℕ → Fin T → ℂ, a = fun k (t : Fin T) => (fun (t k : ℕ) => if h : t < T then a k ⟨t, h⟩ else 0) t k := by
    intro a
    funext k t
    simp
  rw [key a, key b]
  exact ((respondsInTime_iff wl v dt T emit heard _ _).symm.trans ((h x hx).responds T emit heard
    (fun t k => if h : t < T then a k ⟨t, h⟩ else 0) (fun t k => if h : t < T then b k ⟨t, h⟩ else 0))).trans
      (respondsInTime_iff wl v dt T emit heard _ _)

/-- C102. Two networks without open ports that respond alike detect the same light by name, when the sources send the same light by name. -/
theorem C102_frequency (h : Drawn d s) (h' : Drawn d' s') (hf : s.free = []) (hf' : s'.free = [])
    (hn : (s.parts.map Prod.fst).Nodup) (hn' : (s'.parts.map Prod.fst).Nodup)
    (hdet : ∃ q ∈ s.parts, isDetector q.2 = true) (hdet' : ∃ q ∈ s'.parts, isDetector q.2 = true)
    (v : ℝ) (wl : W → ℝ) (hA : ∀ w, Alike (wl w) s s') (env : SimEnv) (hfd : env.freqdomain = true) (ht1 : env.t.length = 1) (r r' : Reduced W)
    (hr : initNet (d.plant v wl) env = .ok (some r)) (hr' : initNet (d'.plant v wl) env = .ok (some r'))
    (acts acts' : List (Actor W B)) (light : ℕ → Str → W → B → ℝ × ℝ) :
    ∃ o o', forwardReduced r env acts (fun t k => light t ((emittersIn (s.parts.map Prod.fst) s.parts).getD k [])) = .ok [o] ∧
      forwardReduced r' env acts' (fun t k => light t ((emittersIn (s'.parts.map Prod.fst) s'.parts).getD k [])) = .ok [o'] ∧
      ∀ w b, ∃ seen : Str → ℂ,
        (o w b).map asComplex = (listenersIn (s.parts.map Prod.fst) s.parts).map seen ∧
        (o' w b).map asComplex = (listenersIn (s'.parts.map Prod.fst) s'.parts).map seen := by
  have hP := drawn_placed h hf hn
  have hP' := drawn_placed h' hf' hn'
  obtain ⟨o, ho, H⟩ := placed_frequency hP (drawn_lies h hn).sized hdet v wl env hfd ht1 r hr acts
    (fun t k => light t ((emittersIn (s.parts.map Prod.fst) s.parts).getD k []))
  obtain ⟨o', ho', H'⟩ := placed_frequency hP' (drawn_lies h' hn').sized hdet' v wl env hfd ht1 r' hr' acts'
    (fun t k => light t ((emittersIn (s'.parts.map Prod.fst) s'.parts).getD k []))
  refine ⟨o, o', ho, ho', fun w b => ?_⟩
  obtain ⟨⟨A, B', hS⟩, H⟩ := H w b
  have hS1 : Steady s.parts s.conns (wl w) (fun x => asComplex (light 0 x w b)) A B' := hS.emits fun q hq hs => by
    rw [getD_idxOf ((mem_emitters hP hq).1.mpr hs)]
  obtain ⟨A', B'', hS', hd', -⟩ := ((hA w).responds _ (fun x => A x 0) (fun _ => 0) (fun _ => 0)).mp
    ⟨A, B', hS1, fun _ _ _ => rfl, fun k e he => by rw [hf] at he; simp at he⟩
  refine ⟨fun x => A x 0, H A B' hS, ?_⟩
  rw [(H' w b).2 A' B'' (hS'.emits fun q hq hs => by
    rw [getD_idxOf ((mem_emitters hP' hq).1.mpr hs)])]
  refine List.map_congr_left fun x hx => ?_
  obtain ⟨-, hx⟩ := List.mem_filter.mp hx
  obtain ⟨q, hq, hqx⟩ := List.any_eq_true.mp hx
  rw [Bool.and_eq_true, decide_eq_true_iff] at hqx
  rw [← hqx.1]
  exact hd' q hq hqx.2

/-- C102, the same in the time domain. -/
theorem C102_time (h : Drawn d s) (h' : Drawn d' s') (hf : s.free = []) (hf' : s'.free = [])
    (hn : (s.parts.map Prod.fst).Nodup) (hn' : (s'.parts.map Prod.fst).Nodup)
    (hdet : ∃ q ∈ s.parts, isDetector q.2 = true) (hdet' : ∃ q ∈ s'.parts, isDetector q.2 = true)
    (v : ℝ) (wl : W → ℝ) (env : SimEnv) (dt : ℝ) (hdt : env.dt = some dt) (hpos : 0 < dt) (hfd : env.freqdomain = false)
    (hA : ∀ w, AlikeInTime (wl w) v dt s s') (r r' : Reduced W)
    (hr : initNet (d.plant v wl) env = .ok (some r)) (hr' : initNet (d'.plant v wl) env = .ok (some r'))
    (acts acts' : List (Actor W B)) (light : ℕ → Str → W → B → ℝ × ℝ) :
    ∃ out out', forwardReduced r env acts (fun t k => light t ((emittersIn (s.parts.map Prod.fst) s.parts).getD k [])) = .ok out ∧
      forwardReduced r' env acts' (fun t k => light t ((emittersIn (s'.parts.map Prod.fst) s'.parts).getD k [])) = .ok out' ∧
      out.length = env.t.length ∧ out'.length = env.t.length ∧
      ∀ w b, ∃ seen : ℕ → Str → ℂ, ∀ t (ht : t < out.length) (ht' : t < out'.length),
        (out[t] w b).map asComplex = (listenersIn (s.parts.map Prod.fst) s.parts).map (seen t) ∧
        (out'[t] w b).map asComplex = (listenersIn (s'.parts.map Prod.fst) s'.parts).map (seen t) := by
  have hP := drawn_placed h hf hn
  have hP' := drawn_placed h' hf' hn'
  obtain ⟨out, ho, hlen, H⟩ := placed_time hP (drawn_lies h hn).sized hdet v wl env dt hdt hpos hfd r hr acts
    (fun t k => light t ((emittersIn (s.parts.map Prod.fst) s.parts).getD k []))
  obtain ⟨out', ho', hlen', H'⟩ := placed_time hP' (drawn_lies h' hn').sized hdet' v wl env dt hdt hpos hfd r' hr' acts'
    (fun t k => light t ((emittersIn (s'.parts.map Prod.fst) s'.parts).getD k []))
  refine ⟨out, out', ho, ho', hlen, hlen', fun w b => ?_⟩
  obtain ⟨⟨A, B', hS⟩, H⟩ := H w b
  have hS1 : Moving s.parts s.conns (wl w) v dt env.t.length (fun t x => asComplex (light t x w b)) A B' := hS.emits fun t q hq hs => by
    rw [getD_idxOf ((mem_emitters hP hq).1.mpr hs)]
  obtain ⟨A', B'', hS', hd', -⟩ := ((hA w).responds env.t.length _ (fun t x => A t x 0) (fun _ _ => 0) (fun _ _ => 0)).mp
    ⟨A, B', hS1, fun _ _ _ _ _ => rfl, fun t _ k e he => by rw [hf] at he; simp at he⟩
  refine ⟨fun t x => A t x 0, fun t ht ht' => ⟨H A B' hS t ht, ?_⟩⟩
  rw [(H' w b).2 A' B'' (hS'.emits fun t q hq hs => by
    rw [getD_idxOf ((mem_emitters hP' hq).1.mpr hs)]) t ht']
  refine List.map_congr_left fun x hx => ?_
  obtain ⟨-, hx⟩ := List.mem_filter.mp hx
  obtain ⟨q, hq, hqx⟩ := List.any_eq_true.mp hx
  rw [Bool.and_eq_true, decide_eq_true_iff] at hqx
  rw [← hqx.1]
  exact hd' t (by rw [← hlen']; exact ht') q hq hqx.2

/-! ## Which networks can be initialized -/

/-- The laws of components within one step: those that hold light let none out. -/
def stillLaw (env : SimEnv) (v wl : ℝ) (q : Str × Part) (f g : ℕ → ℂ) : Prop :=
  ∀ i : Fin q.2.n, (Holds env v q.2 → g i = 0) ∧ (¬Holds env v q.2 → g i = ∑ j : Fin q.2.n, scattering q.2 wl i j * f j)

theorem joined_cons {c : Conn} {a b : Str} {i j : ℕ} :
    PT.Spec.Joined (c :: cs) a i b j ↔ (c = .inner a i b j ∨ c = .inner b j a i) ∨ PT.Spec.Joined cs a i b j := by
  unfold PT.Spec.Joined
  simp only [List.mem_cons, eq_comm (b := c)]
  tauto

/-- A port is joined to one port only. -/
theorem joined_one : ∀ {cs : List Conn}, (endpoints cs).Nodup → ∀ {a b b' : Str} {i j j' : ℕ}, PT.Spec.Joined cs a i b j → PT.Spec.Joined cs a i b' j' →
    b = b' ∧ j = j'
  | [], _, _, _, _, _, _, _, h, _ => by rcases h with h | h <;> cases h
  | c :: cs, hn, a, b, b', i, j, j', h, h' => by
    rw [show endpoints (c :: cs) = c.ends ++ endpoints cs from rfl, List.nodup_append] at hn
    obtain ⟨h1, h2, h3⟩ := hn
    rw [joined_cons] at h h'
    rcases h with (rfl | rfl) | h
    · rcases h' with (h' | h') | h'
      · cases h'; exact ⟨rfl, rfl⟩
      · cases h'; simp [Conn.ends] at h1
      · exact absurd rfl (h3 (a, (i : ℤ)) (by simp [Conn.ends]) _ (joined_ends h').1)
    · rcases h' with (h' | h') | h'
      · cases h'; simp [Conn.ends] at h1
      · cases h'; exact ⟨rfl, rfl⟩
      · exact absurd rfl (h3 (a, (i : ℤ)) (by simp [Conn.ends]) _ (joined_ends h').1)
    · rcases h' with (rfl | rfl) | h'
      · exact absurd rfl (h3 (a, (i : ℤ)) (by simp [Conn.ends]) _ (joined_ends h).1)
      · exact absurd rfl (h3 (a, (i : ℤ)) (by simp [Conn.ends]) _ (joined_ends h).1)
      · exact joined_one h2 h h'

/-- A port of a connection is joined to another. -/
theorem ends_joined {x : Str} {i : ℕ} (h : (x, (i : ℤ)) ∈ endpoints cs) (hpos : ∀ e ∈ endpoints cs, 0 ≤ e.2) :
    ∃ y j, PT.Spec.Joined cs x i y j := by
  obtain ⟨a, k, b, l, hc, he⟩ := mem_endpoints.mp h
  rcases he with he | he
  · simp only [Prod.mk.injEq] at he
    obtain ⟨rfl, rfl⟩ := he
    obtain ⟨l, rfl⟩ := Int.eq_ofNat_of_zero_le (hpos (b, l) (mem_endpoints.mpr ⟨_, _, _, _, hc, .inr rfl⟩))
    exact ⟨b, l, .inl hc⟩
  · simp only [Prod.mk.injEq] at he
    obtain ⟨rfl, rfl⟩ := he
    obtain ⟨k, rfl⟩ := Int.eq_ofNat_of_zero_le (hpos (a, k) (mem_endpoints.mpr ⟨_, _, _, _, hc, .inl rfl⟩))
    exact ⟨a, k, .inr hc⟩

theorem portNames_nodup : ∀ {parts : List (Str × Part)}, (parts.map Prod.fst).Nodup → (portNames parts).Nodup
  | [], _ => by simp [portNames]
  | q :: parts, h => by
    rw [List.map_cons, List.nodup_cons] at h
    rw [show portNames (q :: parts) = ((List.range q.2.n).map fun (i : ℕ) => (q.1, (i : ℤ))) ++ portNames parts from rfl, List.nodup_append]
    refine ⟨?_, portNames_nodup h.2, ?_⟩
    · refine List.Nodup.map (fun a b hab => ?_) List.nodup_range
      simpa using hab
    · rintro a ha b hb rfl
      obtain ⟨q', hq', i, -, he⟩ := mem_portNames.mp hb
      obtain ⟨j, -, rfl⟩ := List.mem_map.mp ha
      rw [Prod.mk.injEq] at he
      exact h.1 (he.1 ▸ List.mem_map.mpr ⟨q', hq', rfl⟩)

open Classical in
/-- No light can circulate exactly if only darkness obeys the laws within one step. -/
theorem trapped_quiet (h : Drawn d s) (hf : s.free = []) (hn : (s.parts.map Prod.fst).Nodup) (env : SimEnv) (v wl : ℝ) :
    (∀ A B, Trapped env v s.parts s.conns wl A B → ∀ q ∈ s.parts, ∀ i < q.2.n, A q.1 i = 0) ↔ Quiet s (stillLaw env v wl) := by
  have hL := drawn_lies h hn
  have honce := hL.once
  rw [hf, List.append_nil] at honce
  have hnd : (endpoints s.conns).Nodup := honce.nodup_iff.mpr (portNames_nodup hn)
  have hpos : ∀ e ∈ endpoints s.conns, 0 ≤ e.2 := fun e he => by
    obtain ⟨q, hq, i', hi', rfl⟩ := mem_portNames.mp (honce.mem_iff.mp he)
    simp
  have hp : ∀ a i b j, PT.Spec.Joined s.conns a i b j → ∃ p, (a, p) ∈ s.parts ∧ i < p.n := (drawn_placed h hf hn).fits
  have hpart : ∀ q ∈ s.parts, ∀ i < q.2.n, ∃ y j, PT.Spec.Joined s.conns q.1 i y j := fun q hq i hi =>
    ends_joined (honce.mem_iff.mpr (mem_portNames.mpr ⟨q, hq, i, hi, rfl⟩)) hpos
  have huniq : ∀ q ∈ s.parts, ∀ q' ∈ s.parts, q.1 = q'.1 → q = q' := fun q hq q' hq' he => List.inj_on_of_nodup_map hn hq hq' he
  constructor
  · intro H A B hF _
    have hT : Trapped env v s.parts s.conns wl (fun x i => if ∃ q ∈ s.parts, q.1 = x ∧ Holds env v q.2 then 0 else A x i) B := by
      refine ⟨fun q hq hh i hi => ⟨if_pos ⟨q, hq, rfl, hh⟩, (hF.obeys q hq ⟨i, hi⟩).1 hh⟩, fun q hq hh i b j hj => ?_, fun q hq hh i => ?_⟩
      · have : ¬∃ q' ∈ s.parts, q'.1 = q.1 ∧ Holds env v q'.2 := by
          rintro ⟨q', hq', he, hh'⟩
          exact hh (huniq q' hq' q hq he ▸ hh')
        simp only [this, if_false]
        exact hF.joined _ _ _ _ hj
      · have : ¬∃ q' ∈ s.parts, q'.1 = q.1 ∧ Holds env v q'.2 := by
          rintro ⟨q', hq', he, hh'⟩
          exact hh (huniq q' hq' q hq he ▸ hh')
        simp only [this, if_false]
        exact (hF.obeys q hq i).2 hh
    have hB : ∀ q ∈ s.parts, ∀ i < q.2.n, B q.1 i = 0 := by
      intro q hq i hi
      by_cases hh : Holds env v q.2
      · exact (hF.obeys q hq ⟨i, hi⟩).1 hh
      · have h1 := hT.scattered q hq hh ⟨i, hi⟩
        refine h1.trans (Finset.sum_eq_zero fun j _ => ?_)
        exact (congrArg _ (H _ _ hT q hq j j.2)).trans (mul_zero _)
    intro q hq i hi
    obtain ⟨y, j, hj⟩ := hpart q hq i hi
    obtain ⟨p, hp, hj'⟩ := hp y j q.1 i (joined_symm hj)
    rw [hF.joined _ _ _ _ hj]
    exact hB _ hp _ hj'
  · intro H A B hT
    set A' : Str → ℕ → ℂ := fun x i => if ∃ q ∈ s.parts, q.1 = x ∧ Holds env v q.2 then
      (if hy : ∃ y : Str × ℕ, PT.Spec.Joined s.conns x i y.1 y.2 then B hy.choose.1 hy.choose.2 else 0) else A x i with hA'
    have hnot : ∀ q ∈ s.parts, ¬Holds env v q.2 → ¬∃ q' ∈ s.parts, q'.1 = q.1 ∧ Holds env v q'.2 := by
      rintro q hq hh ⟨q', hq', he, hh'⟩
      exact hh (huniq q' hq' q hq he ▸ hh')
    have hF : Fits s.parts s.conns (stillLaw env v wl) A' B := by
      refine ⟨fun a i b j hj => ?_, fun q hq i => ⟨fun hh => (hT.held q hq hh i i.2).2, fun hh => ?_⟩⟩
      · obtain ⟨p, hp, hi⟩ := hp a i b j hj
        by_cases hh : Holds env v p
        · have hy : ∃ y : Str × ℕ, PT.Spec.Joined s.conns a i y.1 y.2 := ⟨(b, j), hj⟩
          simp only [hA']
          rw [if_pos ⟨(a, p), hp, rfl, hh⟩, dif_pos hy]
          obtain ⟨e1, e2⟩ := joined_one hnd hy.choose_spec hj
          rw [e1, e2]
        · simp only [hA']
          rw [if_neg (hnot (a, p) hp hh)]
          exact hT.joined (a, p) hp hh i b j hj
      · simp only [hA']
        rw [hT.scattered q hq hh i]
        simp only [hnot q hq hh, if_false]
    intro q hq i hi
    by_cases hh : Holds env v q.2
    · exact (hT.held q hq hh i hi).1
    · have := H A' B hF (by simp [hf]) q hq i hi
      simp only [hA'] at this
      rwa [if_neg (hnot q hq hh)] at this

theorem still_steady (env : SimEnv) (hfd : env.freqdomain = true) (v wl : ℝ) {q : Str × Part} {f g : ℕ → ℂ} :
    stillLaw env v wl q f g ↔ ∀ i : Fin q.2.n, g i = ∑ j : Fin q.2.n, scattering q.2 wl i j * f j + if isSource q.2 then 0 else 0 := by
  refine forall_congr' fun i => ?_
  rw [ite_self, add_zero]
  by_cases hh : Holds env v q.2
  · have h0 : ∑ j : Fin q.2.n, scattering q.2 wl i j * f j = 0 := by
      obtain ⟨x, p⟩ := q
      refine Finset.sum_eq_zero fun j _ => ?_
      rcases hh with hh | hh | ⟨h1, -⟩
      · cases p <;> first | (simp [isSource] at hh; done) | exact (congrArg (· * _) (show _ = (0 : ℂ) from rfl)).trans (zero_mul _)
      · cases p <;> first | (simp [isDetector] at hh; done) | exact (congrArg (· * _) (show _ = (0 : ℂ) from rfl)).trans (zero_mul _)
      · rw [hfd] at h1; cases h1
    rw [h0]
    exact ⟨fun h => h.1 hh, fun h => ⟨fun _ => h, fun h' => absurd hh h'⟩⟩
  · exact ⟨fun h => h.2 hh, fun h => ⟨fun h' => absurd h' hh, fun _ => h⟩⟩

theorem still_moving (env : SimEnv) (hfd : env.freqdomain = false) (v dt wl : ℝ) (hdt : env.dt = some dt) {q : Str × Part} {f g : ℕ → ℂ} :
    stillLaw env v wl q f g ↔ ∀ i : Fin q.2.n, g i = ∑ j : Fin q.2.n, (scattering q.2 wl i j * if roundSteps (q.2.delay v / dt) ≤ 0 then f j else 0) +
      if isSource q.2 then 0 else 0 := by
  refine forall_congr' fun i => ?_
  rw [ite_self, add_zero]
  by_cases hh : Holds env v q.2
  · have h0 : ∑ j : Fin q.2.n, (scattering q.2 wl i j * if roundSteps (q.2.delay v / dt) ≤ 0 then f j else 0) = 0 := by
      obtain ⟨x, p⟩ := q
      refine Finset.sum_eq_zero fun j _ => ?_
      rcases hh with hh | hh | ⟨-, dt', h1, h2⟩
      · cases p <;> first | (simp [isSource] at hh; done) | exact (congrArg (· * _) (show _ = (0 : ℂ) from rfl)).trans (zero_mul _)
      · cases p <;> first | (simp [isDetector] at hh; done) | exact (congrArg (· * _) (show _ = (0 : ℂ) from rfl)).trans (zero_mul _)
      · rw [hdt] at h1
        cases h1
        rw [if_neg (by exact Nat.not_le.mpr h2), mul_zero]
    rw [h0]
    exact ⟨fun h => h.1 hh, fun h => ⟨fun _ => h, fun h' => absurd hh h'⟩⟩
  · have h0 : roundSteps (q.2.delay v / dt) ≤ 0 := by
      by_contra h
      exact hh (.inr (.inr ⟨hfd, dt, hdt, by omega⟩))
    simp only [h0, if_true]
    exact ⟨fun h => h.2 hh, fun h => ⟨fun h' => absurd h' hh, fun _ => h⟩⟩

theorem meets_still (env : SimEnv) (hfd : env.freqdomain = true) (v wl : ℝ) (a b : ℕ → ℂ) :
    Meets s (stillLaw env v wl) a b ↔ ∃ heard, Responds s wl (fun _ => 0) heard a b := by
  constructor
  · rintro ⟨A, B, hF, hf⟩
    exact ⟨fun x => A x 0, A, B, ⟨hF.joined, fun q hq => (still_steady env hfd v wl).mp (hF.obeys q hq)⟩, fun _ _ _ => rfl, hf⟩
  · rintro ⟨heard, A, B, hS, -, hf⟩
    exact ⟨A, B, ⟨hS.joined, fun q hq => (still_steady env hfd v wl).mpr (hS.scattered q hq)⟩, hf⟩

theorem meets_still_time (env : SimEnv) (hfd : env.freqdomain = false) (v wl dt : ℝ) (hdt : env.dt = some dt) (a b : ℕ → ℂ) :
    Meets s (stillLaw env v wl) a b ↔ ∃ heard, RespondsInTime s wl v dt 1 (fun _ _ => 0) heard (fun _ => a) (fun _ => b) := by
  constructor
  · rintro ⟨A, B, hF, hf⟩
    refine ⟨fun _ x => A x 0, fun _ => A, fun _ => B, ⟨fun t ht => hF.joined, fun t ht q hq => ?_⟩, fun _ _ _ _ _ => rfl, fun _ _ => hf⟩
    obtain rfl : t = 0 := by omega
    exact (still_moving env hfd v dt wl hdt).mp (hF.obeys q hq)
  · rintro ⟨heard, A, B, hS, -, hf⟩
    refine ⟨A 0, B 0, ⟨hS.joined 0 one_pos, fun q hq => (still_moving env hfd v dt wl hdt).mpr fun i => ?_⟩, hf 0 one_pos⟩
    have := hS.scattered 0 one_pos q hq i
    simpa only [Nat.zero_sub] using this

theorem quiet_still (env : SimEnv) (hfd : env.freqdomain = true) (v wl : ℝ) (h : Still wl s) : Quiet s (stillLaw env v wl) :=
  fun A B hF h0 => h A B ⟨hF.joined, fun q hq => (still_steady env hfd v wl).mp (hF.obeys q hq)⟩ h0

theorem quiet_still_time (env : SimEnv) (hfd : env.freqdomain = false) (v wl dt : ℝ) (hdt : env.dt = some dt) (h : StillInTime wl v dt s) :
    Quiet s (stillLaw env v wl) := by
  refine fun A B hF h0 => h (fun _ => A) (fun _ => B) ⟨fun t ht => hF.joined, fun t ht q hq => ?_⟩ h0
  obtain rfl : t = 0 := by omega
  exact (still_moving env hfd v dt wl hdt).mp (hF.obeys q hq)

theorem quiet_initialized (h : Drawn d s) (h' : Drawn d' s') (hf : s.free = []) (hf' : s'.free = [])
    (hn : (s.parts.map Prod.fst).Nodup) (hn' : (s'.parts.map Prod.fst).Nodup)
    (hdet : ∃ q ∈ s.parts, isDetector q.2 = true) (hdet' : ∃ q ∈ s'.parts, isDetector q.2 = true) (v : ℝ) (wl : W → ℝ) (env : SimEnv)
    (hq : ∀ w, Quiet s (stillLaw env v (wl w)) ↔ Quiet s' (stillLaw env v (wl w))) :
    ((∃ r, initNet (d.plant v wl) env = .ok (some r)) ↔ ∃ r, initNet (d'.plant v wl) env = .ok (some r)) ∧
    (initNet (d.plant v wl) env = .error .runtimeError ↔ initNet (d'.plant v wl) env = .error .runtimeError) := by
  have key : ∀ {d : Dev} {s : Sheet}, Drawn d s → s.free = [] → (s.parts.map Prod.fst).Nodup → (∃ q ∈ s.parts, isDetector q.2 = true) →
      ((∀ w, Quiet s (stillLaw env v (wl w))) → ∃ r, initNet (d.plant v wl) env = .ok (some r)) ∧
      ((¬∀ w, Quiet s (stillLaw env v (wl w))) → initNet (d.plant v wl) env = .error .runtimeError) := by
    intro d s h hf hn hdet
    obtain ⟨q, hq, hd⟩ := hdet
    have h1 := placed_initialized (drawn_placed h hf hn) (drawn_lies h hn).sized v wl env ⟨q, hq, .inr (.inl hd)⟩
    refine ⟨fun H => h1.1 fun w => (trapped_quiet h hf hn env v (wl w)).mpr (H w), fun H => ?_⟩
    push Not at H
    obtain ⟨w, hw⟩ := H
    rw [← trapped_quiet h hf hn] at hw
    push Not at hw
    obtain ⟨A, B, hT, q, hq, i, hi, hA⟩ := hw
    exact h1.2 w A B hT ⟨q, hq, i, hi, hA⟩
  have k1 := key h hf hn hdet
  have k2 := key h' hf' hn' hdet'
  by_cases H : ∀ w, Quiet s (stillLaw env v (wl w))
  · obtain ⟨r, hr⟩ := k1.1 H
    obtain ⟨r', hr'⟩ := k2.1 fun w => (hq w).mp (H w)
    refine ⟨⟨fun _ => ⟨r', hr'⟩, fun _ => ⟨r, hr⟩⟩, ?_, ?_⟩
    · intro e; rw [hr] at e; cases e
    · intro e; rw [hr'] at e; cases e
  · have e1 := k1.2 H
    have e2 := k2.2 fun H' => H fun w => (hq w).mpr (H' w)
    refine ⟨⟨?_, ?_⟩, fun _ => e2, fun _ => e1⟩
    · rintro ⟨r, hr⟩; rw [e1] at hr; cases hr
    · rintro ⟨r, hr⟩; rw [e2] at hr; cases hr

/-- C102. In the frequency domain a closed network of networks can be initialized exactly if it can be with the sub-networks replaced by others that
respond alike, provided that no light circulates inside the sub-networks by itself; and `initialize` raises `RuntimeError` for both
or for neither. -/
theorem C102_initialized (h : Drawn d (.merge sheet cs [])) (h' : Drawn d' (.merge sheet' cs []))
    (hm : ∀ x ∈ firstMentions cs, ∃ d, Drawn d (sheet x)) (hm' : ∀ x ∈ firstMentions cs, ∃ d, Drawn d (sheet' x))
    (hp : ∀ e ∈ endpoints cs, e ∈ boxPorts sheet cs)
    (hn : ((Sheet.merge sheet cs []).parts.map Prod.fst).Nodup) (hn' : ((Sheet.merge sheet' cs []).parts.map Prod.fst).Nodup)
    (hdet : ∃ q ∈ (Sheet.merge sheet cs []).parts, isDetector q.2 = true) (hdet' : ∃ q ∈ (Sheet.merge sheet' cs []).parts, isDetector q.2 = true)
    (v : ℝ) (wl : W → ℝ) (hA : ∀ w, ∀ x ∈ firstMentions cs, Alike (wl w) (sheet x) (sheet' x))
    (hS : ∀ w, ∀ x ∈ firstMentions cs, Still (wl w) (sheet x)) (hS' : ∀ w, ∀ x ∈ firstMentions cs, Still (wl w) (sheet' x))
    (env : SimEnv) (hfd : env.freqdomain = true) :
    ((∃ r, initNet (d.plant v wl) env = .ok (some r)) ↔ ∃ r, initNet (d'.plant v wl) env = .ok (some r)) ∧
    (initNet (d.plant v wl) env = .error .runtimeError ↔ initNet (d'.plant v wl) env = .error .runtimeError) := by
  refine quiet_initialized h h' rfl rfl hn hn' hdet hdet' v wl env fun w => ?_
  have hlen : ∀ x ∈ firstMentions cs, (sheet x).free.length = (sheet' x).free.length := fun x hx => (hA w x hx).ports
  have hp1 : ∀ e ∈ endpoints cs ++ [], e ∈ boxPorts sheet cs := by simpa using hp
  have b1 := boxed_of hm hp1 hn
  have b2 := boxed_of hm' (boxPorts_congr hlen ▸ hp1) hn'
  have heq : ∀ x ∈ firstMentions cs, ∀ a b, Meets (sheet x) (stillLaw env v (wl w)) a b ↔ Meets (sheet' x) (stillLaw env v (wl w)) a b :=
    fun x hx a b => by
      rw [meets_still env hfd, meets_still env hfd]
      exact exists_congr fun heard => (hA w x hx).responds _ heard a b
  exact ⟨b1.quiet b2 heq hlen fun x hx => quiet_still env hfd v _ (hS' w x hx),
    b2.quiet b1 (fun x hx a b => (heq x hx a b).symm) (fun x hx => (hlen x hx).symm) fun x hx => quiet_still env hfd v _ (hS w x hx)⟩

/-- C102, the same in the time domain. -/
theorem C102_initialized_time (h : Drawn d (.merge sheet cs [])) (h' : Drawn d' (.merge sheet' cs []))
    (hm : ∀ x ∈ firstMentions cs, ∃ d, Drawn d (sheet x)) (hm' : ∀ x ∈ firstMentions cs, ∃ d, Drawn d (sheet' x))
    (hp : ∀ e ∈ endpoints cs, e ∈ boxPorts sheet cs)
    (hn : ((Sheet.merge sheet cs []).parts.map Prod.fst).Nodup) (hn' : ((Sheet.merge sheet' cs []).parts.map Prod.fst).Nodup)
    (hdet : ∃ q ∈ (Sheet.merge sheet cs []).parts, isDetector q.2 = true) (hdet' : ∃ q ∈ (Sheet.merge sheet' cs []).parts, isDetector q.2 = true)
    (v : ℝ) (wl : W → ℝ) (env : SimEnv) (hfd : env.freqdomain = false) (dt : ℝ) (hdt : env.dt = some dt)
    (hA : ∀ w, ∀ x ∈ firstMentions cs, AlikeInTime (wl w) v dt (sheet x) (sheet' x))
    (hS : ∀ w, ∀ x ∈ firstMentions cs, StillInTime (wl w) v dt (sheet x))
    (hS' : ∀ w, ∀ x ∈ firstMentions cs, StillInTime (wl w) v dt (sheet' x)) :
    ((∃ r, initNet (d.plant v wl) env = .ok (some r)) ↔ ∃ r, initNet (d'.plant v wl) env = .ok (some r)) ∧
    (initNet (d.plant v wl) env = .error .runtimeError ↔ initNet (d'.plant v wl) env = .error .runtimeError) := by
  refine quiet_initialized h h' rfl rfl hn hn' hdet hdet' v wl env fun w => ?_
  have hlen : ∀ x ∈ firstMentions cs, (sheet x).free.length = (sheet' x).free.length := fun x hx => (hA w x hx).ports
  have hp1 : ∀ e ∈ endpoints cs ++ [], e ∈ boxPorts sheet cs := by simpa using hp
  have b1 := boxed_of hm hp1 hn
  have b2 := boxed_of hm' (boxPorts_congr hlen ▸ hp1) hn'
  have heq : ∀ x ∈ firstMentions cs, ∀ a b, Meets (sheet x) (stillLaw env v (wl w)) a b ↔ Meets (sheet' x) (stillLaw env v (wl w)) a b :=
    fun x hx a b => by
      rw [meets_still_time env hfd v _ dt hdt, meets_still_time env hfd v _ dt hdt]
      exact exists_congr fun heard => (hA w x hx).responds 1 _ heard _ _
  exact ⟨b1.quiet b2 heq hlen fun x hx => quiet_still_time env hfd v _ dt hdt (hS' w x hx),
    b2.quiet b1 (fun x hx a b => (heq x hx a b).symm) (fun x hx => (hlen x hx).symm) fun x hx => quiet_still_time env hfd v _ dt hdt (hS w x hx)⟩

end PT
