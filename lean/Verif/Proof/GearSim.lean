import Verif.Proof.Gear

/-! Proof support: the simulation of circuits of named components of any kind. -/

namespace PT
open Spec Matrix

namespace Gears

variable {W B : Type} {ord : List Str} {parts : List (Str × Gear W B)} {cs : List Conn} {l : List (Str × Gear W B)} {d : Dev}
  {acts : List (Actor W B)}

theorem Geared.lt (h : Geared ord parts cs l d acts) {x : Str} {g : Gear W B} (hx : (x, g) ∈ parts) {i : ℕ} (hi : i < g.dev.comp.n) :
    gpos l x + i < d.comp.n := by
  rw [h.n]
  exact gpos_lt h.nodup ((h.mem _).mpr hx) hi

theorem Geared.name (h : Geared ord parts cs l d acts) (k : Fin d.comp.n) :
    ∃ x g i, (x, g) ∈ parts ∧ i < g.dev.comp.n ∧ (k : ℕ) = gpos l x + i := by
  obtain ⟨x, e, i, hx⟩ := devAt_lt (devs l) (i := k) (by rw [← h.n]; exact k.2)
  obtain ⟨g, hg, -, hk, hi⟩ := devAt_gpos h.nodup hx
  exact ⟨x, g, i, (h.mem _).mp hg, hi, hk⟩

theorem Geared.unique (h : Geared ord parts cs l d acts) {x : Str} {g k : Gear W B} (hg : (x, g) ∈ parts) (hk : (x, k) ∈ parts) :
    g = k := by
  have h1 := dictGet_of_mem h.nodup ((h.mem _).mpr hg)
  rw [dictGet_of_mem h.nodup ((h.mem _).mpr hk)] at h1
  exact (Option.some.inj h1).symm

theorem Geared.seq_at (h : Geared ord parts cs l d acts) (x : Fin d.comp.n → ℂ) {a : Str} {g : Gear W B} (hg : (a, g) ∈ parts) {i : ℕ}
    (hi : i < g.dev.comp.n) : seq x (gpos l a + i) = x ⟨gpos l a + i, h.lt hg hi⟩ := dif_pos _

theorem Geared.ext (h : Geared ord parts cs l d acts) {x y : Fin d.comp.n → ℂ}
    (hxy : ∀ q ∈ parts, ∀ i < q.2.dev.comp.n, seq x (gpos l q.1 + i) = seq y (gpos l q.1 + i)) : x = y := by
  funext k
  obtain ⟨a, g, i, hg, hi, hk⟩ := h.name k
  have := hxy (a, g) hg i hi
  rw [h.seq_at x hg hi, h.seq_at y hg hi] at this
  have e : k = ⟨gpos l a + i, h.lt hg hi⟩ := Fin.ext hk
  rw [e]
  exact this

/-- Waves given by names. -/
noncomputable def laid (l : List (Str × Gear W B)) (n : ℕ) (A : Str → ℕ → ℂ) (k : Fin n) : ℂ := spread (devs l) A k

theorem Geared.seq_laid (h : Geared ord parts cs l d acts) (A : Str → ℕ → ℂ) {x : Str} {g : Gear W B} (hx : (x, g) ∈ parts) {i : ℕ}
    (hi : i < g.dev.comp.n) : seq (laid l d.comp.n A) (gpos l x + i) = A x i := by
  rw [h.seq_at _ hx hi]
  exact spread_at (gpos_devAt h.nodup ((h.mem _).mpr hx) i hi)

/-- What leaves a named port. -/
theorem Geared.scatter (h : Geared ord parts cs l d acts) (v : ℝ) (wl : W → ℝ) (w : W) (x : Fin d.comp.n → ℂ) {a : Str}
    {g : Gear W B} (hg : (a, g) ∈ parts) {i : ℕ} (hi : i < g.dev.comp.n) :
    ((d.plant v wl).Sx w *ᵥ x) ⟨gpos l a + i, h.lt hg hi⟩ =
      ∑ j ∈ Finset.range g.dev.comp.n, (⟨g.dev.rS (wl w) i j, g.dev.iS (wl w) i j⟩ : ℂ) * seq x (gpos l a + j) := by
  have hr : d.rS (wl w) = blockMat ((devs l).map fun p => (p.2.comp.n, p.2.rS (wl w))) := congrArg (fun e => e.rS (wl w)) h.dev
  have him : d.iS (wl w) = blockMat ((devs l).map fun p => (p.2.comp.n, p.2.iS (wl w))) := congrArg (fun e => e.iS (wl w)) h.dev
  have key := side_sum (Look.steady (wl w) v) (fun y q => seq x (gpos l y + q)) (devs l) (gpos_devAt h.nodup ((h.mem _).mpr hg) i hi)
  rw [← h.n, Finset.sum_range] at key
  refine Eq.trans ?_ key
  show ∑ k, (d.plant v wl).Sx w ⟨gpos l a + i, h.lt hg hi⟩ k * x k = _
  refine Finset.sum_congr rfl fun k _ => ?_
  have e1 : (d.plant v wl).Sx w ⟨gpos l a + i, h.lt hg hi⟩ k = sideGain (Look.steady (wl w) v) (devs l) (gpos l a + i) k := by
    unfold Plant.Sx sideGain Look.steady
    dsimp only
    rw [← hr, ← him]
    exact Complex.ext (by simp [cx]) (by simp [cx])
  have e2 : x k = spread (devs l) (fun y q => seq x (gpos l y + q)) k := by
    obtain ⟨y, e, j, hy⟩ := devAt_lt (devs l) (i := k) (by rw [← h.n]; exact k.2)
    obtain ⟨g', hg', -, hk, hj⟩ := devAt_gpos h.nodup hy
    rw [spread_at hy, ← hk, seq_val]
  rw [e1, e2]

theorem Geared.enter (h : Geared ord parts cs l d acts) (v : ℝ) (wl : W → ℝ) (a b : Fin d.comp.n → ℂ) :
    a = (d.plant v wl).Cx *ᵥ b ↔
      (∀ x i y j, Joined cs x i y j → ∀ g k p q, (x, g) ∈ parts → (y, k) ∈ parts → (freePorts g.dev.comp)[i]? = some p →
        (freePorts k.dev.comp)[j]? = some q → seq a (gpos l x + p) = seq b (gpos l y + q)) ∧
      (∀ q ∈ parts, ∀ i j, q.2.dev.comp.C i j ≠ 0 → seq a (gpos l q.1 + i) = seq b (gpos l q.1 + j)) := by
  have hen : ∀ k m : Fin d.comp.n, d.comp.C k m ≠ 0 → ((d.plant v wl).Cx *ᵥ b) k = b m := fun k m hkm =>
    enter_eq h.clean h.term v wl b k m hkm
  have hfr : ∀ {g : Gear W B} {i p : ℕ}, (freePorts g.dev.comp)[i]? = some p → p < g.dev.comp.n := by
    intro g i p hp
    have := List.mem_of_getElem? hp
    unfold freePorts at this
    have := (List.mem_filter.mp this).2
    simp only [decide_eq_true_eq] at this
    exact this.1
  constructor
  · rintro rfl
    refine ⟨?_, ?_⟩
    · intro x i y j hj g k p q hg hk hp hq
      rw [h.seq_at _ hg (hfr hp), h.seq_at _ hk (hfr hq)]
      exact hen _ _ (h.joined x i y j hj g k p q hg hk hp hq)
    · intro q hq i j hne
      have hb := (built_reciprocal (h.proper q hq).clean.built).2.2 i j hne
      rw [h.seq_at _ hq hb.1, h.seq_at _ hq hb.2]
      exact hen _ _ (h.inside q hq i j hne)
  · rintro ⟨h1, h2⟩
    funext k
    have hnf : d.comp.freeAt k = false := by
      have ht := h.term
      unfold Comp.terminated at ht
      rw [Bool.not_eq_true', List.any_eq_false] at ht
      simpa using ht k (List.mem_range.mpr k.2)
    have hrec := built_reciprocal h.clean.built
    have hex : ∃ m : ℕ, d.comp.C k m ≠ 0 := by
      by_contra hno
      push Not at hno
      have := (freeAt_iff hrec.2.1 (k : ℕ)).mpr ⟨k.2, fun m _ => ⟨hno m, by rw [hrec.1]; exact hno m⟩⟩
      rw [hnf] at this
      cases this
    obtain ⟨m, hm⟩ := hex
    have hlt := hrec.2.2 _ _ hm
    rw [hen k ⟨m, hlt.2⟩ hm, ← seq_val a, ← seq_val b]
    rcases h.conn _ _ hm with ⟨q, hq, i, j, hi, hj, hk, hmm, hne⟩ | ⟨x, i, y, j, g, g', p, q, hj, hg, hg', hp, hq, hk, hmm⟩
    · show seq a k = seq b m
      rw [hk, hmm]
      exact h2 q hq i j hne
    · show seq a k = seq b m
      rw [hk, hmm]
      exact h1 x i y j hj g g' p q hg hg' hp hq

theorem Geared.mark (h : Geared ord parts cs l d acts) {f : Comp → List Bool} {m : List Bool} (hm : m = l.flatMap fun q => f q.2.dev.comp)
    (hf : ∀ q ∈ parts, (f q.2.dev.comp).length = q.2.dev.comp.n) {x : Str} {g : Gear W B} (hx : (x, g) ∈ parts) {i : ℕ}
    (hi : i < g.dev.comp.n) : m.getD (gpos l x + i) false = (f g.dev.comp).getD i false := by
  rw [hm]
  exact flatMap_at h.nodup (fun q hq => hf q ((h.mem _).mp hq)) ((h.mem _).mpr hx) i hi

theorem Geared.lengths (h : Geared ord parts cs l d acts) {q : Str × Gear W B} (hq : q ∈ parts) :
    q.2.dev.comp.src.length = q.2.dev.comp.n ∧ q.2.dev.comp.det.length = q.2.dev.comp.n ∧ q.2.dev.comp.act.length = q.2.dev.comp.n :=
  have := built_marks (h.proper q hq).clean.built
  ⟨this.1, this.2.1, this.2.2.1⟩

theorem Geared.delay (h : Geared ord parts cs l d acts) (v : ℝ) (wl : W → ℝ) (env : SimEnv) {x : Str} {g : Gear W B}
    (hx : (x, g) ∈ parts) {i : ℕ} (hi : i < g.dev.comp.n) :
    (d.plant v wl).stepDelay env ⟨gpos l x + i, h.lt hx hi⟩ = lag env v g i := by
  have hd : d.delay v (gpos l x + i) = g.dev.delay v i := by
    have : d.delay v = blockVec ((devs l).map fun p => (p.2.comp.n, p.2.delay v)) := congrArg (fun e => e.delay v) h.dev
    rw [this]
    exact blockVec_at (fun e => e.delay v) (gpos_devAt h.nodup ((h.mem _).mpr hx) i hi)
  have hs : ((d.plant v wl).steps env ⟨gpos l x + i, h.lt hx hi⟩).toNat = if env.freqdomain then 0 else match env.dt with
      | some dt => roundSteps (g.dev.delay v i / dt)
      | none => 0 := by
    cases hf : env.freqdomain with
    | true =>
      rw [steps_freq _ env hf]
      rfl
    | false =>
      cases hdt : env.dt with
      | none =>
        unfold Plant.steps
        rw [hdt]
        rfl
      | some dt =>
        rw [steps_toNat _ env dt hdt, seconds_time _ env hf]
        show roundSteps (d.delay v (gpos l x + i) / dt) = _
        rw [hd]
        rfl
  unfold Plant.stepDelay lag Plant.marked
  show (if (d.comp.src.getD (gpos l x + i) false || d.comp.det.getD (gpos l x + i) false || d.comp.act.getD (gpos l x + i) false) = true then _ else _) = _
  rw [hs, h.mark (f := fun c => c.src) h.src (fun q hq => (h.lengths hq).1) hx hi,
    h.mark (f := fun c => c.det) h.det (fun q hq => (h.lengths hq).2.1) hx hi,
    h.mark (f := fun c => c.act) h.act (fun q hq => (h.lengths hq).2.2) hx hi]
  rfl

theorem Geared.delayed (h : Geared ord parts cs l d acts) (v : ℝ) (wl : W → ℝ) (env : SimEnv) (a : ℕ → Fin d.comp.n → ℂ) (t : ℕ) {x : Str}
    {g : Gear W B} (hx : (x, g) ∈ parts) {i : ℕ} (hi : i < g.dev.comp.n) :
    seq (Spec.delayed ((d.plant v wl).stepDelay env) a t) (gpos l x + i) =
      if lag env v g i ≤ t then seq (a (t - lag env v g i)) (gpos l x + i) else 0 := by
  rw [h.seq_at _ hx hi, h.seq_at _ hx hi]
  unfold Spec.delayed
  rw [h.delay v wl env hx hi]

/-- The first port of a component, counted by the actors. -/
theorem offset_gpos {l : List (Str × Gear W B)} (hn : (l.map Prod.fst).Nodup) (hp : ∀ q ∈ l, q.2.actor.numPorts = q.2.dev.comp.n)
    {l₁ l₂ : List (Str × Gear W B)} {q : Str × Gear W B} (h : l = l₁ ++ q :: l₂) :
    offset (l₁.map fun q => q.2.actor) = gpos l q.1 := by
  subst h
  induction l₁ with
  | nil => simp [offset, gpos]
  | cons r l₁ ih =>
    have hn' := hn
    simp only [List.cons_append, List.map_cons, List.nodup_cons] at hn'
    have hne : r.1 ≠ q.1 := by
      intro e
      exact hn'.1 (by rw [e]; simp)
    have := ih hn'.2 fun q hq => hp q (List.mem_cons_of_mem _ hq)
    rw [List.map_cons, offset_cons, this, hp r (by simp)]
    simp only [List.cons_append, gpos, if_neg hne]

theorem ownAction_congr (t : ℝ) (v v' : ℕ → NodeVal W B) (c : Actor W B) (o j : ℕ) (hj : j < c.numPorts)
    (h : ∀ j < c.numPorts, v (o + j) = v' j) : ownAction t v c o j = ownAction t v' c 0 j := by
  unfold ownAction
  split
  · congr 2
    refine List.map_congr_left fun k hk => ?_
    rw [h k (List.mem_range.mp hk), Nat.zero_add]
  · rw [h j hj, Nat.zero_add]

theorem Geared.actorsOf (h : Geared ord parts cs l d acts) (v : ℝ) (wl : W → ℝ) : ActorsOf (d.plant v wl) acts := by
  have hp : ∀ q ∈ l, q.2.actor.numPorts = q.2.dev.comp.n := fun q hq => (h.proper q ((h.mem q).mp hq)).ports
  constructor
  · show d.comp.n = _
    rw [h.n, h.acts, offset, devs, List.map_map, List.map_map]
    congr 1
    exact List.map_congr_left fun q hq => (hp q hq).symm
  · intro bf c after hcs i h1 h2
    rw [h.acts] at hcs
    obtain ⟨l₁, l₂, hl, rfl, h3⟩ := List.map_eq_append_iff.mp hcs
    obtain ⟨q, l₃, rfl, rfl, rfl⟩ := List.map_eq_cons_iff.mp h3
    have ho := offset_gpos h.nodup hp hl
    rw [ho] at h1 h2
    have hq : q ∈ parts := (h.mem q).mp (by rw [hl]; simp)
    rw [(h.proper q hq).ports] at h2
    obtain ⟨j, hj⟩ := Nat.exists_eq_add_of_le h1
    show d.comp.act.getD i false = _
    rw [hj, h.mark (f := fun c => c.act) h.act (fun q hq => (h.lengths hq).2.2) hq (by omega)]
    exact (h.proper q hq).active j (by omega)

/-- The circuit equations, by name. -/
theorem Geared.solves (h : Geared ord parts cs l d acts) (v : ℝ) (wl : W → ℝ) (env : SimEnv) (s a b : ℕ → W → B → Fin d.comp.n → ℂ) :
    ActiveSolves (d.plant v wl).Cx (d.plant v wl).Sx ((d.plant v wl).stepDelay env) env.t acts s a b ↔
      Running parts cs env v wl (fun t w β x i => seq (s t w β) (gpos l x + i)) (fun t w β x i => seq (a t w β) (gpos l x + i))
        fun t w β x i => seq (b t w β) (gpos l x + i) := by
  have hp : ∀ q ∈ l, q.2.actor.numPorts = q.2.dev.comp.n := fun q hq => (h.proper q ((h.mem q).mp hq)).ports
  have hin : (∀ t < env.t.length, ∀ w β, a t w β = (d.plant v wl).Cx *ᵥ b t w β) ↔ ∀ t < env.t.length, ∀ w β,
      (∀ x i y j, Joined cs x i y j → ∀ g k p q, (x, g) ∈ parts → (y, k) ∈ parts → (freePorts g.dev.comp)[i]? = some p →
        (freePorts k.dev.comp)[j]? = some q → seq (a t w β) (gpos l x + p) = seq (b t w β) (gpos l y + q)) ∧
      (∀ q ∈ parts, ∀ i j, q.2.dev.comp.C i j ≠ 0 → seq (a t w β) (gpos l q.1 + i) = seq (b t w β) (gpos l q.1 + j)) :=
    forall_congr' fun t => forall_congr' fun _ => forall_congr' fun w => forall_congr' fun β => h.enter v wl (a t w β) (b t w β)
  have hy : ∀ t, ∀ q ∈ parts, ∀ i < q.2.dev.comp.n,
      nodes (fun w β => (d.plant v wl).Sx w *ᵥ Spec.delayed ((d.plant v wl).stepDelay env) (fun t => a t w β) t + s t w β) (gpos l q.1 + i) =
        node fun w β => scatters env v (wl w) q.2 (fun t j => seq (a t w β) (gpos l q.1 + j)) t i + seq (s t w β) (gpos l q.1 + i) := by
    intro t q hq i hi
    refine (nodes_fin _ ⟨gpos l q.1 + i, h.lt hq hi⟩).trans (congrArg node ?_)
    funext w β
    rw [Pi.add_apply, h.scatter v wl w _ hq hi, h.seq_at (s t w β) hq hi]
    congr 1
    unfold scatters
    refine Finset.sum_congr rfl fun j hj => ?_
    rw [h.delayed v wl env _ t hq (Finset.mem_range.mp hj)]
  constructor
  · intro hs
    have hin' := hin.mp hs.incoming
    refine ⟨fun t ht w β => (hin' t ht w β).1, fun t ht w β => (hin' t ht w β).2, ?_⟩
    intro t ht q hq i hi
    obtain ⟨l₁, l₂, hl⟩ := List.append_of_mem ((h.mem q).mpr hq)
    have ho := offset_gpos h.nodup hp hl
    have hpo := (h.proper q hq).ports
    have := hs.outgoing t ht (l₁.map fun q => q.2.actor) q.2.actor (l₂.map fun q => q.2.actor) (by rw [h.acts, hl]; simp)
      ⟨gpos l q.1 + i, h.lt hq hi⟩ i (by omega) (by rw [ho])
    rw [ho] at this
    have e : (fun w β => seq (b t w β) (gpos l q.1 + i)) = fun w β => b t w β ⟨gpos l q.1 + i, h.lt hq hi⟩ := by
      funext w β
      exact h.seq_at _ hq hi
    simp only [e]
    rw [this]
    exact ownAction_congr _ _ _ _ _ _ (by omega) fun j hj => hy t q hq j (by omega)
  · intro hs
    refine ⟨hin.mpr fun t ht w β => ⟨hs.joined t ht w β, hs.inside t ht w β⟩, ?_⟩
    intro t ht bf c after hcs k j hj hk
    rw [h.acts] at hcs
    obtain ⟨l₁, l₂, hl, rfl, h3⟩ := List.map_eq_append_iff.mp hcs
    obtain ⟨q, l₃, rfl, rfl, rfl⟩ := List.map_eq_cons_iff.mp h3
    have ho := offset_gpos h.nodup hp hl
    have hq : q ∈ parts := (h.mem q).mp (by rw [hl]; simp)
    have hpo := (h.proper q hq).ports
    have hi : j < q.2.dev.comp.n := by omega
    have := hs.left t ht q hq j hi
    rw [ho] at hk
    have e : (fun w β => seq (b t w β) (gpos l q.1 + j)) = fun w β => b t w β k := by
      funext w β
      rw [h.seq_at _ hq hi]
      exact congrArg _ (Fin.ext hk.symm)
    simp only [e] at this
    rw [this, ho]
    exact (ownAction_congr _ _ _ _ _ _ hj fun j hj => hy t q hq j (by omega)).symm

theorem free_lt {c : Comp} {i p : ℕ} (hp : (freePorts c)[i]? = some p) : p < c.n := by
  have := List.mem_of_getElem? hp
  unfold freePorts at this
  have := (List.mem_filter.mp this).2
  simp only [decide_eq_true_eq] at this
  exact this.1

/-- Only the waves at the ports of the components matter. -/
theorem running_congr {env : SimEnv} {v : ℝ} {wl : W → ℝ} {e e' A A' O O' : ℕ → W → B → Str → ℕ → ℂ}
    (hb : ∀ q ∈ parts, Proper q.2)
    (he : ∀ t < env.t.length, ∀ w β, ∀ q ∈ parts, ∀ i < q.2.dev.comp.n, e t w β q.1 i = e' t w β q.1 i)
    (hA : ∀ t < env.t.length, ∀ w β, ∀ q ∈ parts, ∀ i < q.2.dev.comp.n, A t w β q.1 i = A' t w β q.1 i)
    (hO : ∀ t < env.t.length, ∀ w β, ∀ q ∈ parts, ∀ i < q.2.dev.comp.n, O t w β q.1 i = O' t w β q.1 i)
    (h : Running parts cs env v wl e A O) : Running parts cs env v wl e' A' O' := by
  refine ⟨?_, ?_, ?_⟩
  · intro t ht w β a i b j hj g k p q ha hb hp hq
    rw [← hA t ht w β _ ha p (free_lt hp), ← hO t ht w β _ hb q (free_lt hq)]
    exact h.joined t ht w β a i b j hj g k p q ha hb hp hq
  · intro t ht w β q hq i j hne
    have hlt := (built_reciprocal (hb q hq).clean.built).2.2 i j hne
    rw [← hA t ht w β q hq i hlt.1, ← hO t ht w β q hq j hlt.2]
    exact h.inside t ht w β q hq i j hne
  · intro t ht q hq i hi
    have e1 : (fun w β => O' t w β q.1 i) = fun w β => O t w β q.1 i := by
      funext w β
      exact (hO t ht w β q hq i hi).symm
    have hpo := (hb q hq).ports
    rw [e1, h.left t ht q hq i hi]
    refine ownAction_congr _ _ _ _ _ _ (by omega) fun j hj => ?_
    rw [Nat.zero_add]
    congr 1
    funext w β
    rw [he t ht w β q hq j (by omega)]
    congr 1
    unfold scatters
    refine Finset.sum_congr rfl fun m hm => ?_
    split
    · simp only
      rw [hA _ (by omega) w β q hq m (Finset.mem_range.mp hm)]
    · rfl

theorem portsWith_range {n : ℕ} (m : List Bool) :
    (portsWith fun i : Fin n => m.getD i false).map Fin.val = (List.range n).filter fun i => m.getD i false := by
  unfold portsWith
  rw [← List.map_coe_finRange_eq_range, List.filter_map]
  rfl

/-- The marked ports, by name. -/
theorem Geared.marks (h : Geared ord parts cs l d acts) {f : Comp → List Bool} {m : List Bool} (hm : m = l.flatMap fun q => f q.2.dev.comp)
    (hf : ∀ q ∈ parts, (f q.2.dev.comp).length = q.2.dev.comp.n) :
    (portsWith fun i : Fin d.comp.n => m.getD i false).map Fin.val = (markedIn f ord parts).map fun e => gpos l e.1 + e.2 := by
  rw [portsWith_range, hm, h.n, marks_gpos f l h.nodup fun q hq => hf q ((h.mem q).mp hq)]
  congr 1
  unfold markedIn
  rw [← h.order, List.flatMap_map]
  refine List.flatMap_congr fun q hq => ?_
  have hq := (h.mem q).mp hq
  have key : ∀ ps : List (Str × Gear W B), (ps.map Prod.fst).Nodup → (∀ r ∈ ps, r ∈ parts) → ∀ q ∈ ps,
      (ps.flatMap fun r => if r.1 = q.1 then ((List.range r.2.dev.comp.n).filter fun i => (f r.2.dev.comp).getD i false).map fun i => (q.1, i)
        else []) = ((List.range q.2.dev.comp.n).filter fun i => (f q.2.dev.comp).getD i false).map fun i => (q.1, i) := by
    intro ps hn hps q hq
    have none : ∀ ps : List (Str × Gear W B), q.1 ∉ ps.map Prod.fst →
        (ps.flatMap fun r => if r.1 = q.1 then ((List.range r.2.dev.comp.n).filter fun i => (f r.2.dev.comp).getD i false).map fun i => (q.1, i)
          else []) = [] := by
      intro ps hno
      rw [List.flatMap_eq_nil_iff]
      intro r hr
      rw [if_neg fun e => hno (List.mem_map.mpr ⟨r, hr, e⟩)]
    induction ps with
    | nil => cases hq
    | cons r ps ih =>
      simp only [List.map_cons, List.nodup_cons] at hn
      rw [List.flatMap_cons]
      rcases List.mem_cons.mp hq with rfl | hq
      · rw [if_pos rfl, none ps hn.1, List.append_nil]
      · rw [if_neg fun e => hn.1 (List.mem_map.mpr ⟨q, hq, e.symm⟩), List.nil_append]
        exact ih hn.2 (fun s hs => hps s (List.mem_cons_of_mem _ hs)) hq
  exact (key parts h.names (fun r hr => hr) q hq).symm

theorem mem_markedIn {f : Comp → List Bool} {e : Str × ℕ} (he : e ∈ markedIn f ord parts) :
    ∃ g, (e.1, g) ∈ parts ∧ e.2 < g.dev.comp.n ∧ (f g.dev.comp).getD e.2 false = true := by
  unfold markedIn at he
  obtain ⟨x, -, he⟩ := List.mem_flatMap.mp he
  obtain ⟨q, hq, he⟩ := List.mem_flatMap.mp he
  split at he
  · rename_i hx
    obtain ⟨i, hi, rfl⟩ := List.mem_map.mp he
    obtain ⟨h1, h2⟩ := List.mem_filter.mp hi
    exact ⟨q.2, by rw [← hx]; exact hq, List.mem_range.mp h1, h2⟩
  · cases he

/-- What the sources emit, by name. -/
theorem Geared.emits (h : Geared ord parts cs l d acts) (v : ℝ) (wl : W → ℝ) (src : ℕ → ℕ → W → B → ℝ × ℝ) (t : ℕ) (w : W) (β : B)
    {q : Str × Gear W B} (hq : q ∈ parts) {i : ℕ} (hi : i < q.2.dev.comp.n) :
    seq (emitted (d.plant v wl).src (channels src w β t)) (gpos l q.1 + i) = signals parts ord src t w β q.1 i := by
  have hm := h.marks (f := fun c => c.src) h.src fun q hq => (h.lengths hq).1
  have inj : ∀ e ∈ markedIn (fun c => c.src) ord parts, gpos l e.1 + e.2 = gpos l q.1 + i → e = (q.1, i) := by
    intro e he heq
    obtain ⟨g, hg, hlt, -⟩ := mem_markedIn he
    obtain ⟨h1, h2⟩ := gpos_inj h.nodup ((h.mem _).mpr hg) ((h.mem _).mpr hq) hlt hi heq
    exact Prod.ext h1 h2
  rw [emitted_seq _ _ _ hm]
  unfold signals
  by_cases hmem : (q.1, i) ∈ markedIn (fun c => c.src) ord parts
  · rw [if_pos hmem, if_pos (List.mem_map.mpr ⟨_, hmem, rfl⟩)]
    have := idxOf_map_on (fun e : Str × ℕ => gpos l e.1 + e.2) (q.1, i) (markedIn (fun c => c.src) ord parts) inj
    simp only at this
    rw [this]
    rfl
  · rw [if_neg hmem, if_neg]
    intro hin
    obtain ⟨e, he, heq⟩ := List.mem_map.mp hin
    exact hmem (inj e he heq ▸ he)

theorem overlap_at {a b : List Bool} (h : overlap a b = false) (i : ℕ) : ¬ (a.getD i false = true ∧ b.getD i false = true) := by
  induction a generalizing b i with
  | nil => simp
  | cons x a ih =>
    cases b with
    | nil => simp
    | cons y b =>
      unfold overlap at h
      rw [List.zipWith_cons_cons, List.any_cons, Bool.or_eq_false_iff] at h
      cases i with
      | zero =>
        rintro ⟨h1, h2⟩
        simp only [List.getD_cons_zero] at h1 h2
        rw [h1, h2] at h
        cases h.1
      | succ i =>
        simp only [List.getD_cons_succ]
        exact ih h.2 i

theorem clean_exclusive {c : Comp} (h : Clean c) (d : Dev) (hd : d.comp = c) (v : ℝ) (wl : W → ℝ) : (d.plant v wl).Exclusive := by
  subst hd
  obtain ⟨-, -, -, h1, h2, h3⟩ := built_marks h.built
  exact fun i => ⟨overlap_at h1 i, overlap_at h2 i, overlap_at h3 i⟩

/-- Light that takes no time does not mix with light that takes some. -/
theorem Geared.noMix (h : Geared ord parts cs l d acts) (v : ℝ) (wl : W → ℝ) (env : SimEnv) (w : W)
    (hu : ∀ q ∈ parts, Unmixed env v (wl w) q.2) : (d.plant v wl).NoMix env w := by
  have hr : d.rS (wl w) = blockMat ((devs l).map fun p => (p.2.comp.n, p.2.rS (wl w))) := congrArg (fun e => e.rS (wl w)) h.dev
  have him : d.iS (wl w) = blockMat ((devs l).map fun p => (p.2.comp.n, p.2.iS (wl w))) := congrArg (fun e => e.iS (wl w)) h.dev
  have key : ∀ (F : Dev → ℕ → ℕ → ℝ) (k m : Fin d.comp.n), blockMat ((devs l).map fun p => (p.2.comp.n, F p.2)) k m ≠ 0 →
      ∃ x g i j, (x, g) ∈ parts ∧ i < g.dev.comp.n ∧ j < g.dev.comp.n ∧ (k : ℕ) = gpos l x + i ∧ (m : ℕ) = gpos l x + j ∧ F g.dev i j ≠ 0 := by
    intro F k m hne
    obtain ⟨x, e, i, j, h1, h2, h3⟩ := blockMat_devAt F (devs l) hne
    obtain ⟨g, hg, rfl, hk, hi⟩ := devAt_gpos h.nodup h1
    obtain ⟨g', hg', heq, hm, hj⟩ := devAt_gpos h.nodup h2
    rw [← heq] at hj
    exact ⟨x, g, i, j, (h.mem _).mp hg, hi, hj, hk, hm, h3⟩
  have at_ : ∀ {k : Fin d.comp.n} {x : Str} {g : Gear W B} {i : ℕ} (hg : (x, g) ∈ parts) (hi : i < g.dev.comp.n), (k : ℕ) = gpos l x + i →
      (d.plant v wl).stepDelay env k = lag env v g i := by
    intro k x g i hg hi hk
    rw [← h.delay v wl env hg hi]
    exact congrArg _ (Fin.ext hk)
  intro k m hk hm
  have zero : ∀ (x y : Fin d.comp.n), d.rS (wl w) x y = 0 → d.iS (wl w) x y = 0 → (d.plant v wl).Sx w x y = 0 := by
    intro x y h1 h2
    unfold Plant.Sx
    exact Complex.ext (by simp [cx, h1]) (by simp [cx, h2])
  have one : ∀ (F : Dev → ℕ → ℕ → ℝ), (∀ q ∈ parts, ∀ i < q.2.dev.comp.n, ∀ j < q.2.dev.comp.n, lag env v q.2 i = 0 → lag env v q.2 j ≠ 0 →
      F q.2.dev i j = 0 ∧ F q.2.dev j i = 0) → blockMat ((devs l).map fun p => (p.2.comp.n, F p.2)) k m = 0 ∧
      blockMat ((devs l).map fun p => (p.2.comp.n, F p.2)) m k = 0 := by
    intro F hF
    constructor
    · by_contra hne
      obtain ⟨x, g, i, j, hg, hi, hj, e1, e2, hne⟩ := key F k m hne
      exact hne (hF (x, g) hg i hi j hj (by rw [← hk, at_ hg hi e1]) (by rw [← at_ hg hj e2]; exact hm)).1
    · by_contra hne
      obtain ⟨x, g, j, i, hg, hj, hi, e2, e1, hne⟩ := key F m k hne
      exact hne (hF (x, g) hg i hi j hj (by rw [← hk, at_ hg hi e1]) (by rw [← at_ hg hj e2]; exact hm)).2
  have o1 := one (fun e => e.rS (wl w)) fun q hq i hi j hj h1 h2 => ⟨(hu q hq i hi j hj h1 h2).1.1, (hu q hq i hi j hj h1 h2).2.1⟩
  have o2 := one (fun e => e.iS (wl w)) fun q hq i hi j hj h1 h2 => ⟨(hu q hq i hi j hj h1 h2).1.2, (hu q hq i hi j hj h1 h2).2.2⟩
  refine ⟨zero k m ?_ ?_, zero m k ?_ ?_⟩
  · rw [hr]; exact o1.1
  · rw [him]; exact o2.1
  · rw [hr]; exact o1.2
  · rw [him]; exact o2.2

/-- The simulation of a circuit, by name. -/
theorem Geared.run (h : Geared ord parts cs l d acts) (hdet : ∃ q ∈ parts, ∃ i < q.2.dev.comp.n, q.2.dev.comp.det.getD i false = true)
    (v : ℝ) (wl : W → ℝ) (env : SimEnv) (hdt : env.freqdomain = true ∨ ∃ dt, env.dt = some dt ∧ 0 < dt)
    (hu : ∀ w, ∀ q ∈ parts, Unmixed env v (wl w) q.2) (r : Reduced W) (hr : initNet (d.plant v wl) env = .ok (some r))
    (src : ℕ → ℕ → W → B → ℝ × ℝ) :
    ∃ out, forwardReduced r env acts src = .ok out ∧ out.length = env.t.length ∧
      (∃ A O, Running parts cs env v wl (signals parts ord src) A O) ∧
      ∀ A O, Running parts cs env v wl (signals parts ord src) A O → ∀ t (ht : t < out.length) w β,
        (out[t] w β).map asComplex = (markedIn (fun c => c.det) ord parts).map fun e => A t w β e.1 e.2 := by
  have hmd := h.marks (f := fun c => c.det) h.det fun q hq => (h.lengths hq).2.1
  have hnd : (d.plant v wl).numDet ≠ 0 := by
    obtain ⟨q, hq, i, hi, hm⟩ := hdet
    intro h0
    have hin : (⟨gpos l q.1 + i, h.lt hq hi⟩ : Fin d.comp.n) ∈ portsWith (d.plant v wl).det := by
      unfold portsWith
      refine List.mem_filter.mpr ⟨List.mem_finRange _, ?_⟩
      show d.comp.det.getD (gpos l q.1 + i) false = true
      rw [h.mark (f := fun c => c.det) h.det (fun q hq => (h.lengths hq).2.1) hq hi]
      exact hm
    have : portsWith (d.plant v wl).det = [] := List.length_eq_zero_iff.1 h0
    rw [this] at hin
    cases hin
  obtain ⟨out, ho, hlen, ⟨a, b, hs⟩, huniq⟩ := active_correct (d.plant v wl) env (clean_exclusive h.clean d rfl v wl) hnd hdt
    (fun w => h.noMix v wl env w (hu w)) r hr acts (h.actorsOf v wl)
    (fun t c hc x z => by
      rw [h.acts] at hc
      obtain ⟨q, hq, rfl⟩ := List.mem_map.mp hc
      exact (h.proper q ((h.mem q).mp hq)).fills t x z) src
  refine ⟨out, ho, hlen, ?_, ?_⟩
  · exact ⟨_, _, running_congr h.proper (fun t _ w β q hq i hi => h.emits v wl src t w β hq hi) (fun _ _ _ _ _ _ _ _ => rfl)
      (fun _ _ _ _ _ _ _ _ => rfl) ((h.solves v wl env _ a b).mp hs)⟩
  · intro A O hrun t ht w β
    have hs' := (h.solves v wl env (fun t w β => emitted (d.plant v wl).src (channels src w β t)) (fun t w β => laid l d.comp.n (A t w β))
      fun t w β => laid l d.comp.n (O t w β)).mpr
      (running_congr h.proper (fun t _ w β q hq i hi => (h.emits v wl src t w β hq hi).symm)
        (fun t _ w β q hq i hi => (h.seq_laid (A t w β) hq hi).symm) (fun t _ w β q hq i hi => (h.seq_laid (O t w β) hq hi).symm) hrun)
    rw [huniq _ _ hs' t ht w β, detected_seq _ _ _ hmd, List.map_map, List.map_map]
    refine List.map_congr_left fun e he => ?_
    obtain ⟨g, hg, hi, -⟩ := mem_markedIn he
    simp only [Function.comp_apply, asComplex]
    rw [h.seq_laid (A t w β) hg hi]

/-- Light kept by the ports that take no time, by name. -/
theorem Geared.caught (h : Geared ord parts cs l d acts) (v : ℝ) (wl : W → ℝ) (w : W) (env : SimEnv) (u y : Fin d.comp.n → ℂ) :
    ((∀ i, i ∉ (d.plant v wl).mlPorts env → u i = 0 ∧ y i = 0) ∧
      (∀ i ∈ (d.plant v wl).mlPorts env, u i = (cx (d.plant v wl).C 0 *ᵥ y) i ∧
        y i = (cx ((d.plant v wl).rS w) ((d.plant v wl).iS w) *ᵥ u) i)) ↔
    Caught parts cs env v (wl w) (fun x i => seq u (gpos l x + i)) fun x i => seq y (gpos l x + i) := by
  have ml : ∀ {x : Str} {g : Gear W B} (hg : (x, g) ∈ parts) {i : ℕ} (hi : i < g.dev.comp.n),
      (⟨gpos l x + i, h.lt hg hi⟩ : Fin d.comp.n) ∈ (d.plant v wl).mlPorts env ↔ lag env v g i = 0 := by
    intro x g hg i hi
    rw [mem_mlPorts, ← h.delay v wl env hg hi]
    constructor
    · exact stepDelay_ml _ _ _
    · intro h0
      by_contra hc
      have := stepDelay_mc (d.plant v wl) env _ (by simpa using hc : (d.plant v wl).mcAt env _ = true)
      omega
  have hen : ∀ (k m : Fin d.comp.n), d.comp.C k m ≠ 0 → (cx (d.plant v wl).C 0 *ᵥ y) k = y m := fun k m hkm =>
    enter_eq h.clean h.term v wl y k m hkm
  constructor
  · rintro ⟨h1, h2⟩
    refine ⟨?_, ?_, ?_, ?_⟩
    · intro q hq i hi hne
      rw [h.seq_at u hq hi, h.seq_at y hq hi]
      exact h1 _ (mt (ml hq hi).mp hne)
    · intro a i b j hj g k p q hg hk hp hq h0
      rw [h.seq_at u hg (free_lt hp), h.seq_at y hk (free_lt hq), (h2 _ ((ml hg (free_lt hp)).mpr h0)).1]
      exact hen _ _ (h.joined a i b j hj g k p q hg hk hp hq)
    · intro q hq i j hne h0
      have hb := (built_reciprocal (h.proper q hq).clean.built).2.2 i j hne
      rw [h.seq_at u hq hb.1, h.seq_at y hq hb.2, (h2 _ ((ml hq hb.1).mpr h0)).1]
      exact hen _ _ (h.inside q hq i j hne)
    · intro q hq i hi h0
      rw [h.seq_at y hq hi, (h2 _ ((ml hq hi).mpr h0)).2]
      exact h.scatter v wl w u hq hi
  · intro hc
    constructor
    · intro k hk
      obtain ⟨x, g, i, hg, hi, he⟩ := h.name k
      obtain rfl : k = ⟨gpos l x + i, h.lt hg hi⟩ := Fin.ext he
      have := hc.held (x, g) hg i hi (mt (ml hg hi).mpr hk)
      rw [h.seq_at u hg hi, h.seq_at y hg hi] at this
      exact this
    · intro k hk
      constructor
      · have hnf : d.comp.freeAt k = false := by
          have ht := h.term
          unfold Comp.terminated at ht
          rw [Bool.not_eq_true', List.any_eq_false] at ht
          simpa using ht k (List.mem_range.mpr k.2)
        have hrec := built_reciprocal h.clean.built
        have hex : ∃ m : ℕ, d.comp.C k m ≠ 0 := by
          by_contra hno
          push Not at hno
          have := (freeAt_iff hrec.2.1 (k : ℕ)).mpr ⟨k.2, fun m _ => ⟨hno m, by rw [hrec.1]; exact hno m⟩⟩
          rw [hnf] at this
          cases this
        obtain ⟨m, hm⟩ := hex
        have hlt := hrec.2.2 _ _ hm
        rw [hen k ⟨m, hlt.2⟩ hm, ← seq_val u, ← seq_val y]
        show seq u k = seq y m
        rcases h.conn _ _ hm with ⟨q, hq, i, j, hi, hj, hk', hmm, hne⟩ | ⟨x, i, z, j, g, g', p, q, hj, hg, hg', hp, hq, hk', hmm⟩
        · obtain rfl : k = ⟨gpos l q.1 + i, h.lt hq hi⟩ := Fin.ext hk'
          rw [hmm]
          exact hc.inside q hq i j hne ((ml hq hi).mp hk)
        · obtain rfl : k = ⟨gpos l x + p, h.lt hg (free_lt hp)⟩ := Fin.ext hk'
          rw [hmm]
          exact hc.joined x i z j hj g g' p q hg hg' hp hq ((ml hg (free_lt hp)).mp hk)
      · obtain ⟨x, g, i, hg, hi, he⟩ := h.name k
        obtain rfl : k = ⟨gpos l x + i, h.lt hg hi⟩ := Fin.ext he
        rw [← h.seq_at y hg hi]
        exact (hc.scattered (x, g) hg i hi ((ml hg hi).mp hk)).trans (h.scatter v wl w u hg hi).symm

end Gears

end PT
