import Verif.Proof.PartEqs

/-! Proof support: networks of basic components given by names and connections; what their detectors measure, in terms of the
equations of the components. -/

namespace PT
open Spec Matrix

variable {W B : Type} {d : Dev} {L : List Part} {links : List (ℕ × ℕ)}

theorem netDev_parts (c : Comp) (l : List (Str × Part)) (hn : c.n = ((l.map fun p => p.2.comp.n).sum))
    (hs : c.src = l.flatMap fun p => p.2.comp.src) (hd : c.det = l.flatMap fun p => p.2.comp.det)
    (ha : c.act = l.flatMap fun p => p.2.comp.act) :
    Flat (netDev c (l.map fun p => (p.1, p.2.dev))) (l.map Prod.snd) := by
  refine ⟨?_, fun wl => ?_, fun wl => ?_, fun v => ?_, ?_, ?_, ?_⟩
  · show c.n = _
    rw [hn, partsN, List.map_map]
    exact congrArg List.sum (List.map_congr_left fun p _ => part_n p.2)
  · show blockMat ((l.map fun p => (p.1, p.2.dev)).map fun p => (p.2.comp.n, p.2.rS wl)) = _
    rw [List.map_map, List.map_map]
    exact congrArg blockMat (List.map_congr_left fun p _ => Prod.ext (part_n p.2) rfl)
  · show blockMat ((l.map fun p => (p.1, p.2.dev)).map fun p => (p.2.comp.n, p.2.iS wl)) = _
    rw [List.map_map, List.map_map]
    exact congrArg blockMat (List.map_congr_left fun p _ => Prod.ext (part_n p.2) rfl)
  · show blockVec ((l.map fun p => (p.1, p.2.dev)).map fun p => (p.2.comp.n, p.2.delay v)) = _
    rw [List.map_map, List.map_map]
    exact congrArg blockVec (List.map_congr_left fun p _ => Prod.ext (part_n p.2) rfl)
  · show c.src = _
    rw [hs, List.flatMap_map]
  · show c.det = _
    rw [hd, List.flatMap_map]
  · show c.act = _
    rw [ha, List.flatMap_map]

/-- A network of basic components whose wiring has been computed. -/
theorem wired_net (mods l : List (Str × Part)) (cs : List Conn) (comps lc : Comps) (links : List (ℕ × ℕ))
    (hcomps : mods.map (fun p => (p.1, p.2.comp)) = comps) (hlc : l.map (fun p => (p.1, p.2.comp)) = lc)
    (hpos : ∀ p ∈ mods, 0 < p.2.n) (hg : GoodConns cs) (hu : UsedOnce cs) (hc : Contiguous cs)
    (hused : usedDevs (mods.map fun p => (p.1, p.2.dev)) (usedNames ((cs.map Conn.text).map stripConn)) =
      l.map fun p => (p.1, p.2.dev))
    (hk : okAnd (mkNet none comps (cs.map Conn.text)) (fun c =>
      decide (c.n = (lc.map fun p => p.2.n).sum) && decide (c.src = lc.flatMap fun p => p.2.src) &&
      decide (c.det = lc.flatMap fun p => p.2.det) && decide (c.act = lc.flatMap fun p => p.2.act) && c.terminated &&
      links.all fun q => decide (c.C q.1 q.2 ≠ 0) && decide (c.C q.2 q.1 ≠ 0)) = true) :
    ∃ d, mkDev none (mods.map fun p => (p.1, p.2.dev)) (cs.map Conn.text) = .ok d ∧ MadeOf (fun _ => True) d ∧
      Wired d (l.map Prod.snd) links := by
  obtain ⟨c, hc', hk⟩ := okAnd_iff.mp hk
  simp only [Bool.and_eq_true, decide_eq_true_eq, List.all_eq_true] at hk
  obtain ⟨⟨⟨⟨⟨k1, k2⟩, k3⟩, k4⟩, k5⟩, k6⟩ := hk
  have hd : mkDev none (mods.map fun p => (p.1, p.2.dev)) (cs.map Conn.text) =
      .ok (netDev c (l.map fun p => (p.1, p.2.dev))) := by
    unfold mkDev
    rw [hused, List.map_map]
    have : mods.map ((fun p : Str × Dev => (p.1, p.2.comp)) ∘ fun p => (p.1, p.2.dev)) = comps := hcomps
    rw [this, hc']
    rfl
  have hM : MadeOf (fun _ => True) (netDev c (l.map fun p => (p.1, p.2.dev))) := by
    refine .net none _ cs _ ?_ hg hu hc hd
    intro p hp
    obtain ⟨q, hq, rfl⟩ := List.mem_map.mp hp
    exact .part _ trivial (hpos q hq)
  refine ⟨_, hd, hM, ?_, (madeOf_flat hM).1, k5, k6⟩
  refine netDev_parts c l ?_ ?_ ?_ ?_
  · rw [k1, ← hlc, List.map_map]; rfl
  · rw [k2, ← hlc, List.flatMap_map]
  · rw [k3, ← hlc, List.flatMap_map]
  · rw [k4, ← hlc, List.flatMap_map]

/-- The numbers of the marked ports. -/
theorem portsWith_vals (n N : ℕ) (l l' : List Bool) (r : List ℕ) (hn : n = N) (hl : l = l')
    (h : (List.range N).filter (fun i => l'.getD i false) = r) :
    (portsWith fun i : Fin n => l.getD i false).map Fin.val = r := by
  subst hn hl
  rw [← h]
  unfold portsWith
  rw [← List.map_coe_finRange_eq_range, List.filter_map]
  rfl

theorem emitted_seq {n : ℕ} (q : Fin n → Bool) (ch : ℕ → ℂ) (r : List ℕ) (h : (portsWith q).map Fin.val = r) (i : ℕ) :
    seq (emitted q ch) i = if i ∈ r then ch (r.idxOf i) else 0 := by
  subst h
  unfold seq
  by_cases hi : i < n
  · rw [dif_pos hi]
    unfold emitted
    have e1 : i ∈ (portsWith q).map Fin.val ↔ q ⟨i, hi⟩ = true := by
      rw [List.mem_map]
      constructor
      · rintro ⟨j, hj, rfl⟩
        unfold portsWith at hj
        exact (List.mem_filter.mp hj).2
      · intro h
        exact ⟨⟨i, hi⟩, List.mem_filter.mpr ⟨List.mem_finRange _, h⟩, rfl⟩
    have e2 : ((portsWith q).map Fin.val).idxOf i = (portsWith q).idxOf ⟨i, hi⟩ := by
      generalize portsWith q = l
      induction l with
      | nil => rfl
      | cons a l ih =>
        rw [List.map_cons, List.idxOf_cons, List.idxOf_cons, ih]
        congr 1
        rw [Bool.eq_iff_iff, beq_iff_eq, beq_iff_eq, Fin.ext_iff]
    by_cases hq : q ⟨i, hi⟩ = true
    · rw [if_pos hq, if_pos (e1.mpr hq), e2]
    · rw [if_neg hq, if_neg (mt e1.mp hq)]
  · rw [dif_neg hi, if_neg]
    intro h
    obtain ⟨j, -, rfl⟩ := List.mem_map.mp h
    exact hi j.2

theorem detected_seq {n : ℕ} (q : Fin n → Bool) (a : Fin n → ℂ) (r : List ℕ) (h : (portsWith q).map Fin.val = r) :
    ((portsWith q).map fun i => ((a i).re, (a i).im)) = r.map fun i => ((seq a i).re, (seq a i).im) := by
  subst h
  rw [List.map_map]
  exact List.map_congr_left fun i _ => by rw [Function.comp_apply, seq_val]

/-- What is detected in the frequency domain solves the equations of the components. -/
theorem Wired.freq (h : Wired d L links) (hM : MadeOf (fun _ => True) d) (v : ℝ) (wl : W → ℝ) (env : SimEnv)
    (hf : env.freqdomain = true) (ht1 : env.t.length = 1) (srcs dets : List ℕ)
    (hsrc : (portsWith fun i : Fin d.comp.n => d.comp.src.getD i false).map Fin.val = srcs)
    (hdet : (portsWith fun i : Fin d.comp.n => d.comp.det.getD i false).map Fin.val = dets) (hne : dets ≠ [])
    (r : Reduced W) (hr : initNet (d.plant v wl) env = .ok (some r))
    (cs : List (Actor W B)) (src : ℕ → ℕ → W → B → ℝ × ℝ) :
    ∃ o, forwardReduced r env cs src = .ok [o] ∧ ∀ w b, ∃ A B : ℕ → ℂ,
      (∀ q ∈ links, A q.1 = B q.2 ∧ A q.2 = B q.1) ∧
      (∀ {i k : ℕ} {p : Part} {i' : ℕ}, partAt L i = some (k, p, i') →
        B i = ∑ q ∈ Finset.range p.n, p.dev.entry (wl w) i' q * A (i - i' + q) +
          if i ∈ srcs then asComplex (src 0 (srcs.idxOf i) w b) else 0) ∧
      o w b = dets.map fun i => ((A i).re, (A i).im) := by
  have hd : portsWith (d.plant v wl).det ≠ [] := by
    intro h0
    apply hne
    rw [← hdet]
    exact congrArg (List.map Fin.val) h0
  obtain ⟨o, ho, H⟩ := C66_freq_domain d hM v wl env hf ht1 hd r hr cs src
  refine ⟨o, ho, fun w b => ?_⟩
  obtain ⟨⟨a, b', hab⟩, hall⟩ := H w b
  obtain ⟨e1, e2⟩ := h.static v wl w hab
  refine ⟨seq a, seq b', e1, ?_, ?_⟩
  · intro i k p i' hi
    rw [e2 hi]
    congr 1
    exact emitted_seq _ _ _ hsrc i
  · rw [hall a b' hab]
    exact detected_seq _ _ _ hdet

/-- What is detected in the time domain solves the equations of the components. -/
theorem Wired.steps (h : Wired d L links) (hM : MadeOf (fun _ => True) d) (v : ℝ) (wl : W → ℝ) (env : SimEnv) (dt : ℝ)
    (hdt : env.dt = some dt) (hpos : 0 < dt) (hf : env.freqdomain = false) (srcs dets : List ℕ)
    (hsrc : (portsWith fun i : Fin d.comp.n => d.comp.src.getD i false).map Fin.val = srcs)
    (hdet : (portsWith fun i : Fin d.comp.n => d.comp.det.getD i false).map Fin.val = dets) (hne : dets ≠ [])
    (r : Reduced W) (hr : initNet (d.plant v wl) env = .ok (some r))
    (cs : List (Actor W B)) (src : ℕ → ℕ → W → B → ℝ × ℝ) :
    ∃ out, forwardReduced r env cs src = .ok out ∧ out.length = env.t.length ∧ ∀ w b, ∃ A B : ℕ → ℕ → ℂ,
      (∀ t < env.t.length, ∀ q ∈ links, A t q.1 = B t q.2 ∧ A t q.2 = B t q.1) ∧
      (∀ t < env.t.length, ∀ {i k : ℕ} {p : Part} {i' : ℕ}, partAt L i = some (k, p, i') →
        (∀ q < p.n, partAt L (i - i' + q) = some (k, p, q) ∧ p.comp.src.getD q false = false ∧ p.comp.det.getD q false = false) →
        B t i = ∑ q ∈ Finset.range p.n, p.dev.entry (wl w) i' q *
            past (fun t => A t (i - i' + q)) t (roundSteps (p.delay v / dt)) +
          if i ∈ srcs then asComplex (src t (srcs.idxOf i) w b) else 0) ∧
      (∀ t < env.t.length, ∀ {i k : ℕ} {p : Part} {i' : ℕ}, partAt L i = some (k, p, i') →
        (∀ q < p.n, p.dev.entry (wl w) i' q = 0) → B t i = if i ∈ srcs then asComplex (src t (srcs.idxOf i) w b) else 0) ∧
      ∀ t (ht : t < out.length), out[t] w b = dets.map fun i => ((A t i).re, (A t i).im) := by
  have hd : portsWith (d.plant v wl).det ≠ [] := by
    intro h0
    apply hne
    rw [← hdet]
    exact congrArg (List.map Fin.val) h0
  obtain ⟨out, ho, hlen, H⟩ := C66_time_domain d hM v wl env dt hdt hpos hf hd r hr cs src
  refine ⟨out, ho, hlen, fun w b => ?_⟩
  obtain ⟨⟨a, b', hab⟩, hall⟩ := H w b
  obtain ⟨e1, e2⟩ := h.time v wl w dt hab
  refine ⟨fun t => seq (a t), fun t => seq (b' t), e1, ?_, ?_, ?_⟩
  · intro t ht i k p i' hi hq
    refine (e2 t ht hi hq).trans ?_
    congr 1
    exact emitted_seq _ _ _ hsrc i
  · intro t ht i k p i' hi hq
    refine (h.ends v wl w dt hab ht hi hq).trans ?_
    exact emitted_seq _ _ _ hsrc i
  · intro t ht
    rw [hall a b' hab t ht]
    exact detected_seq _ _ _ hdet

end PT
