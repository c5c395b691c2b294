import Verif.Spec.Shared
import Verif.Props.Cache
import Verif.Props.Gear

/-!
# C101: calls one after the other, and component objects in several networks
-/

namespace PT

open Spec Gears

variable {E W B : Type} {S : Session E W} {k : ℕ} {cs : List Conn}

theorem kind_proper (c : Kind) (s : Option (Stage W)) (hc : 0 < kindPorts c) :
    Proper (c.gear s : Gear W B) ∧ (freePorts (c.gear s : Gear W B).dev.comp).length = kindPorts c := by
  cases c with
  | part p =>
    obtain ⟨h1, h2, -⟩ := C98_parts (W := W) (B := B) p hc
    exact ⟨h1, (congrArg List.length h2).trans (by simp [kindPorts])⟩
  | soa q =>
    obtain ⟨h1, h2, -⟩ := C98_soas (W := W) (B := B) (fun _ _ => 0) ((s.bind fun s => s.sim.dt).getD 0) q.rate
    exact ⟨h1, (congrArg List.length h2)⟩
  | agrawal q =>
    obtain ⟨h1, h2, -⟩ := C98_soas (W := W) (B := B) (fun v i => if i = 0 then q.delay v else 0) ((s.bind fun s => s.sim.dt).getD 0)
      (q.rate ((s.map fun s => s.c).getD 0))
    exact ⟨h1, (congrArg List.length h2)⟩

theorem Spec.Assembled.shut (h : Assembled S k cs) (s : ℕ → Option (Stage W)) :
    Shut ((S.parts k).map fun q => (q.1, ((S.kind q.2).gear (s q.2) : Gear W B))) cs where
  names := by rw [List.map_map]; exact h.names
  good q hq := by
    obtain ⟨r, hr, rfl⟩ := List.mem_map.mp hq
    exact h.good r hr
  proper q hq := by
    obtain ⟨r, hr, rfl⟩ := List.mem_map.mp hq
    exact (kind_proper _ _ (h.sized r hr)).1
  reachable q hq := by
    obtain ⟨r, hr, rfl⟩ := List.mem_map.mp hq
    have := (kind_proper (W := W) (B := B) _ (s r.2) (h.sized r hr)).2
    intro e
    dsimp only at e
    rw [e] at this
    exact absurd (h.sized r hr) (by rw [← this]; simp)
  nonempty := by
    obtain ⟨q, hq, -⟩ := h.detector
    intro e
    rw [List.map_eq_nil_iff] at e
    rw [e] at hq
    cases hq
  ports := by
    refine h.ports.trans (List.Perm.of_eq ?_)
    unfold gearPorts
    rw [List.flatMap_map]
    refine List.flatMap_congr fun r hr => ?_
    dsimp only
    rw [(kind_proper (W := W) (B := B) _ (s r.2) (h.sized r hr)).2]
  inner := h.inner

theorem world_plant (h : Assembled S k cs) (e : E) : ∃ (g : Gear W B), mkGear none ((S.parts k).map fun q => (q.1, (S.kind q.2).gear (some (S.stage e))))
    (cs.map Conn.text) = .ok g ∧ (S.world k).plant () e = g.dev.plant (S.stage e).c (S.stage e).wl := by
  obtain ⟨g, hg⟩ := C98_built (h.shut (B := B) fun _ => some (S.stage e)) none
  refine ⟨g, hg, ?_⟩
  have hd := mkGear_ok hg
  unfold devs at hd
  unfold Session.world
  dsimp only
  rw [h.conns]
  have e1 : ((S.parts k).map fun q => (q.1, ((S.kind q.2).gear (some (S.stage e)) : Gear W B))).map (fun p => (p.1, p.2.dev)) =
      (S.parts k).map fun q => (q.1, ((S.kind q.2).gear (some (S.stage e)) : Gear W Unit).dev) := by
    rw [List.map_map]
    refine List.map_congr_left fun q _ => ?_
    cases hq : S.kind q.2 <;> simp only [Function.comp, hq] <;> rfl
  rw [e1] at hd
  rw [hd]

theorem world_sound (h : Assembled S k cs) (e : E) : ((S.world k).plant () e).Exclusive ∧
    initNet ((S.world k).plant () e) (S.stage e).sim ≠ .ok none := by
  obtain ⟨g, hg, hp⟩ := world_plant (B := Unit) h e
  obtain ⟨l, hG⟩ := geared_of (h.shut (B := Unit) fun _ => some (S.stage e)) (mkGear_ok hg)
  rw [hp]
  refine ⟨clean_exclusive hG.clean g.dev rfl _ _, ?_⟩
  obtain ⟨q, hq, hdet⟩ := h.detector
  have hq' : (q.1, ((S.kind q.2).gear (some (S.stage e)) : Gear W Unit)) ∈
      (S.parts k).map fun q => (q.1, ((S.kind q.2).gear (some (S.stage e)) : Gear W Unit)) := List.mem_map.mpr ⟨q, hq, rfl⟩
  have hn : 0 < ((S.kind q.2).gear (some (S.stage e)) : Gear W Unit).dev.comp.n := by rw [hdet]; exact Nat.one_pos
  have hmc : (g.dev.plant (S.stage e).c (S.stage e).wl).mcAt (S.stage e).sim ⟨gpos l q.1 + 0, hG.lt hq' hn⟩ = true := by
    by_contra hc
    have h0 := (hG.delay (S.stage e).c (S.stage e).wl (S.stage e).sim hq' hn).symm.trans (stepDelay_ml _ _ _ (by simpa using hc))
    rw [hdet] at h0
    have : 1 ≤ lag (S.stage e).sim (S.stage e).c ((Kind.part .detector).gear (some (S.stage e)) : Gear W Unit) 0 := le_max_left _ _
    omega
  unfold initNet
  rw [if_neg]
  · intro hc
    revert hc
    generalize reducedC _ _ _ _ _ = o
    cases o with
    | error x => intro hc; cases hc
    | ok C => intro hc; cases hc
  · rintro (hT | hz)
    · exact hT (plant_terminated hG.clean hG.term _ _)
    · rw [List.length_eq_zero_iff] at hz
      have : (⟨gpos l q.1 + 0, hG.lt hq' hn⟩ : Fin _) ∈ (g.dev.plant (S.stage e).c (S.stage e).wl).mcPorts (S.stage e).sim :=
        List.mem_filter.mpr ⟨List.mem_finRange _, hmc⟩
      rw [hz] at this
      cases this

/-! ## Initialization of component objects -/

theorem initObjects_error (S : Session E W) (e : E) : ∀ is envs,
    (S.initObjects e is envs).2 = is.findSome? fun i => (S.kind i).refuses (S.stage e).sim
  | [], _ => rfl
  | i :: is, envs => by
    rw [Session.initObjects, List.findSome?_cons]
    cases (S.kind i).refuses (S.stage e).sim with
    | some x => rfl
    | none => exact initObjects_error S e is _

theorem initObjects_envs (S : Session E W) (e : E) : ∀ is envs, (S.initObjects e is envs).2 = none → ∀ i,
    (i ∈ is → (S.initObjects e is envs).1 i = some e) ∧ (i ∉ is → (S.initObjects e is envs).1 i = envs i)
  | [], _, _, i => ⟨fun h => absurd h List.not_mem_nil, fun _ => rfl⟩
  | j :: is, envs, h, i => by
    rw [Session.initObjects] at h ⊢
    cases hj : (S.kind j).refuses (S.stage e).sim with
    | some x => rw [hj] at h; cases h
    | none =>
      rw [hj] at h
      dsimp only at h ⊢
      obtain ⟨h1, h2⟩ := initObjects_envs S e is _ h i
      by_cases hi : i ∈ is
      · exact ⟨fun _ => h1 hi, fun hn => absurd (List.mem_cons_of_mem _ hi) hn⟩
      · rw [h2 hi]
        refine ⟨fun hm => ?_, fun hn => ?_⟩
        · rcases List.mem_cons.mp hm with rfl | hm
          · exact Function.update_self ..
          · exact absurd hm hi
        · exact Function.update_of_ne (fun (he : i = j) => hn (he ▸ List.mem_cons_self)) ..

theorem initObjects_outside (S : Session E W) (e : E) : ∀ is envs, ∀ i ∉ is, (S.initObjects e is envs).1 i = envs i
  | [], _, _, _ => rfl
  | j :: is, envs, i, hi => by
    rw [Session.initObjects]
    cases hj : (S.kind j).refuses (S.stage e).sim with
    | some x => rfl
    | none =>
      dsimp only
      rw [initObjects_outside S e is _ i fun h => hi (List.mem_cons_of_mem _ h)]
      exact Function.update_of_ne (fun (he : i = j) => hi (he ▸ List.mem_cons_self)) ..

theorem gearActors_objects (S : Session E W) (k : ℕ) (s : ℕ → Option (Stage W)) :
    gearActors ((S.parts k).map fun q => (q.1, ((S.kind q.2).gear (s q.2) : Gear W B))) (S.conns k) =
      (S.objects k).map fun i => ((S.kind i).gear (s i)).actor := by
  unfold gearActors Session.objects
  rw [List.map_filterMap]
  refine List.filterMap_congr fun x _ => ?_
  rw [dictGet_map (fun i => ((S.kind i).gear (s i) : Gear W B)) x (S.parts k), Option.map_map]
  rfl

/-! ## What a call in a new session returns -/

/-- The simulation with everything initialized for the environment `e`. -/
noncomputable def anew (S : Session E W) (k : ℕ) (e : E) (src : ℕ → ℕ → W → B → ℝ × ℝ) : Except PyErr (List (W → B → List (ℝ × ℝ))) :=
  match (S.objects k).findSome? fun i => (S.kind i).refuses (S.stage e).sim with
  | some x => .error x
  | none => match initNet ((S.world k).plant () e) (S.stage e).sim with
    | .error x => .error x
    | .ok none => .error .attributeError
    | .ok (some r) => (forwardReduced r (S.stage e).sim ((S.objects k).map fun i => ((S.kind i).gear (some (S.stage e))).actor) src).bind fun out =>
      match (S.objects k).findSome? fun i => (S.kind i).fails (some (S.stage e)) with
      | some x => if out = [] then .ok out else .error x
      | none => .ok out

/-- The network has everything it needs from the environment `e`. -/
structure Ready (S : Session E W) (k : ℕ) (b : Board E W) (e : E) : Prop where
  envs : ∀ i ∈ S.objects k, b.envs i = some e
  refuses : ((S.objects k).findSome? fun i => (S.kind i).refuses (S.stage e).sim) = none
  stored : ∃ r, initNet ((S.world k).plant () e) (S.stage e).sim = .ok (some r) ∧ (b.nets k).red = some r
  env : (b.nets k).env = some e
  numMc : (b.nets k).numMc = (((S.world k).plant () e).mcPorts (S.stage e).sim).length
  delays : (b.nets k).delays = attemptDelays ((S.world k).plant () e) (S.stage e).sim

theorem findSome?_congr' {α β : Type} {f g : α → Option β} : ∀ {l : List α}, (∀ x ∈ l, f x = g x) → l.findSome? f = l.findSome? g
  | [], _ => rfl
  | x :: l, h => by
    rw [List.findSome?_cons, List.findSome?_cons, h x List.mem_cons_self, findSome?_congr' fun y hy => h y (List.mem_cons_of_mem _ hy)]

theorem Ready.runs {b : Board E W} {e : E} (h : Ready S k b e) (hx : ((S.world k).plant () e).Exclusive) (hu : Stepping (S.stage e).sim)
    (src : ℕ → ℕ → W → B → ℝ × ℝ) : S.runOn b k src = anew S k e src := by
  obtain ⟨r, hr, hred⟩ := h.stored
  unfold Session.runOn anew
  rw [h.refuses]
  dsimp only
  rw [hr]
  dsimp only
  rw [gearActors_objects S k fun i => (b.envs i).map S.stage,
    runStored_fresh (S.world k) (b.nets k) e r () hx hu hr h.env hred h.numMc h.delays]
  have e1 : ((S.objects k).map fun i => ((S.kind i).gear ((b.envs i).map S.stage) : Gear W B).actor) =
      (S.objects k).map fun i => ((S.kind i).gear (some (S.stage e))).actor := by
    refine List.map_congr_left fun i hi => ?_
    rw [h.envs i hi]
    rfl
  have e2 : ((S.objects k).findSome? fun i => (S.kind i).fails ((b.envs i).map S.stage)) =
      (S.objects k).findSome? fun i => (S.kind i).fails (some (S.stage e)) := by
    refine findSome?_congr' fun i hi => ?_
    rw [h.envs i hi]
    rfl
  rw [e1, e2]
  rfl

/-- Initialization either raises the exception of a call in a new session, or makes the network ready. -/
theorem initOn_cases (h : Assembled S k cs) (b : Board E W) (e : E) :
    (∃ x, (S.initOn b k e).2 = some x ∧ ∀ src : ℕ → ℕ → W → B → ℝ × ℝ, anew S k e src = .error x) ∨
    ((S.initOn b k e).2 = none ∧ Ready S k (S.initOn b k e).1 e) := by
  have he := initObjects_error S e (S.objects k) b.envs
  unfold Session.initOn
  dsimp only
  cases hr : (S.initObjects e (S.objects k) b.envs).2 with
  | some x =>
    left
    refine ⟨x, rfl, fun src => ?_⟩
    unfold anew
    rw [← he, hr]
  | none =>
    have hs := world_sound h e
    cases hi : initNet ((S.world k).plant () e) (S.stage e).sim with
    | error x =>
      left
      refine ⟨x, by rw [doInit_error (S.world k) (b.nets k) e x hi], fun src => ?_⟩
      unfold anew
      rw [← he, hr]
      dsimp only
      rw [hi]
    | ok o =>
      cases o with
      | none => exact absurd hi hs.2
      | some r =>
        right
        dsimp only
        have hdo := doInit_some (S.world k) (b.nets k) e r hi
        refine ⟨by rw [hdo], ⟨fun i hi' => (initObjects_envs S e _ _ hr i).1 hi', by rw [← he, hr], ⟨r, hi, ?_⟩, ?_, ?_, ?_⟩⟩ <;>
          (dsimp only; rw [Function.update_self, hdo]; try rfl)

/-- C101 (true part). Whatever happened before, to this network or others that share its components: a call with gradient tracking, or in
another environment than that of the last initialization, returns what it returns in a new session. Missing: calls without gradient tracking in
the same environment. -/
theorem C101_initialized_partial (h : Assembled S k cs) (b : Board E W) (e : E) (hu : Stepping (S.stage e).sim) (grad : Bool)
    (hg : (b.nets k).env ≠ some e ∨ grad = true) (src : ℕ → ℕ → W → B → ℝ × ℝ) :
    (S.call b k e grad src).2 = (S.call Board.new k e false src).2 := by
  have key : ∀ (b : Board E W) (grad : Bool), ((b.nets k).env ≠ some e ∨ grad = true) → (S.call b k e grad src).2 = anew S k e src := by
    intro b grad hg
    unfold Session.call
    rw [if_pos hg]
    rcases initOn_cases (B := B) h b e with ⟨x, hx, hf⟩ | ⟨hn, hr⟩
    · rw [hf src]
      cases hb : S.initOn b k e with
      | mk b' y =>
        rw [hb] at hx
        dsimp only at hx
        subst hx
        rfl
    · cases hb : S.initOn b k e with
      | mk b' y =>
        rw [hb] at hn hr
        dsimp only at hn
        subst hn
        exact hr.runs (world_sound h e).1 hu src
  rw [key b grad hg, key Board.new false (Or.inl (by simp [Board.new, CacheState.new]))]

/-- A session after calls: of which network, in which environment, with or without gradient tracking. -/
noncomputable def after (S : Session E W) (b : Board E W) (calls : List (ℕ × E × Bool)) : Board E W :=
  calls.foldl (fun b c => (S.call (B := Unit) b c.1 c.2.1 c.2.2 fun _ _ _ _ => (0, 0)).1) b

theorem call_board (b : Board E W) (k : ℕ) (e : E) (grad : Bool) (src : ℕ → ℕ → W → B → ℝ × ℝ) :
    (S.call b k e grad src).1 = open Classical in if (b.nets k).env ≠ some e ∨ grad = true then (S.initOn b k e).1 else b := by
  unfold Session.call
  split
  · cases hb : S.initOn b k e with
    | mk b' y => cases y <;> rfl
  · rfl

theorem initOn_nets {k' : ℕ} (b : Board E W) (e : E) (hk : k' ≠ k) : (S.initOn b k' e).1.nets k = b.nets k := by
  unfold Session.initOn
  dsimp only
  cases (S.initObjects e (S.objects k') b.envs).2 with
  | some x => rfl
  | none => exact Function.update_of_ne hk.symm _ _

theorem initOn_other {k' : ℕ} (b : Board E W) (e : E) (hk : k' ≠ k) (hd : ∀ i ∈ S.objects k, i ∉ S.objects k') :
    (S.initOn b k' e).1.nets k = b.nets k ∧ ∀ i ∈ S.objects k, (S.initOn b k' e).1.envs i = b.envs i := by
  unfold Session.initOn
  dsimp only
  cases (S.initObjects e (S.objects k') b.envs).2 with
  | some x => exact ⟨rfl, fun i hi => initObjects_outside S e _ _ i (hd i hi)⟩
  | none => exact ⟨Function.update_of_ne hk.symm _ _, fun i hi => initObjects_outside S e _ _ i (hd i hi)⟩

theorem ready_after (h : Assembled S k cs) (calls : List (ℕ × E × Bool))
    (hd : ∀ c ∈ calls, c.1 ≠ k → ∀ i ∈ S.objects k, i ∉ S.objects c.1)
    (hok : ∀ c ∈ calls, c.1 = k → ∃ out, anew S k c.2.1 (fun _ _ (_ : W) (_ : Unit) => (0, 0)) = .ok out) (b : Board E W)
    (hb : ∀ e, (b.nets k).env = some e → Ready S k b e) : ∀ e, ((after S b calls).nets k).env = some e → Ready S k (after S b calls) e := by
  induction calls generalizing b with
  | nil => exact hb
  | cons c calls ih =>
    obtain ⟨k', e', g⟩ := c
    refine ih (fun c hc => hd c (List.mem_cons_of_mem _ hc)) (fun c hc => hok c (List.mem_cons_of_mem _ hc)) _ ?_
    dsimp only
    rw [call_board]
    split
    · by_cases hk : k' = k
      · subst hk
        obtain ⟨out, ho⟩ := hok _ List.mem_cons_self rfl
        rcases initOn_cases (B := Unit) h b e' with ⟨x, -, hx⟩ | ⟨-, hr⟩
        · dsimp only at ho
          rw [hx] at ho
          cases ho
        · intro e he
          have : some e' = some e := hr.env.symm.trans he
          cases this
          exact hr
      · obtain ⟨h1, h2⟩ := initOn_other (k := k) b e' hk (hd _ List.mem_cons_self hk)
        intro e he
        have := hb e (h1 ▸ he)
        exact ⟨fun i hi => (h2 i hi).trans (this.envs i hi), this.refuses, h1 ▸ this.stored, h1 ▸ this.env, h1 ▸ this.numMc, h1 ▸ this.delays⟩
    · exact hb

/-- C101 (true part). After any calls of this network, in environments in which it works, and any calls of networks that do not share components with
it, every call returns what it returns in a new session. -/
theorem C101_unshared_partial (h : Assembled S k cs) (calls : List (ℕ × E × Bool))
    (hd : ∀ c ∈ calls, c.1 ≠ k → ∀ i ∈ S.objects k, i ∉ S.objects c.1)
    (hu : ∀ e, Stepping (S.stage e).sim)
    (hok : ∀ c ∈ calls, c.1 = k → ∃ out, (S.call Board.new k c.2.1 false (fun _ _ (_ : W) (_ : Unit) => (0, 0))).2 = .ok out)
    (e : E) (grad : Bool) (src : ℕ → ℕ → W → B → ℝ × ℝ) :
    (S.call (after S Board.new calls) k e grad src).2 = (S.call Board.new k e false src).2 := by
  by_cases hg : ((after S Board.new calls).nets k).env ≠ some e ∨ grad = true
  · exact C101_initialized_partial h _ e (hu e) grad hg src
  · have hnew : ∀ (B : Type) (e : E) (src : ℕ → ℕ → W → B → ℝ × ℝ), (S.call Board.new k e false src).2 = anew S k e src := by
      intro B e src
      have hn : (Board.new.nets k : CacheState Unit E W).env ≠ some e := by simp [Board.new, CacheState.new]
      unfold Session.call
      rw [if_pos (Or.inl hn)]
      rcases initOn_cases (B := B) h Board.new e with ⟨x, hx, hf⟩ | ⟨hn, hr⟩
      · rw [hf src]
        cases hb : S.initOn Board.new k e with
        | mk b' y =>
          rw [hb] at hx
          dsimp only at hx
          subst hx
          rfl
      · cases hb : S.initOn Board.new k e with
        | mk b' y =>
          rw [hb] at hn hr
          dsimp only at hn
          subst hn
          exact hr.runs (world_sound h e).1 (hu e) src
    rw [hnew]
    have hr := ready_after h calls hd (fun c hc hk => by rw [← hnew]; exact hok c hc hk) Board.new
      (fun e he => by simp [Board.new, CacheState.new] at he) e (by push Not at hg; exact hg.1)
    unfold Session.call
    rw [if_neg hg]
    exact hr.runs (world_sound h e).1 (hu e) src

/-! ## A source, an amplifier and a detector in two steps -/

theorem queue_initialized (dt : ℝ) (q : SoaParams) (g : Gear W B) (hg : mkGear none (queueParts dt q) (queueConns.map Conn.text) = .ok g) (v : ℝ)
    (wl : W → ℝ) (env : SimEnv) : ∃ r, initNet (g.dev.plant v wl) env = .ok (some r) := by
  have hlag : ∀ r ∈ (queueParts dt q : List (Str × Gear W B)), ∀ i < r.2.dev.comp.n, 1 ≤ lag env v r.2 i := by
    refine queue_cases ?_ ?_ ?_
    · intro i hi
      have hi : i < 1 := hi
      obtain rfl : i = 0 := by omega
      exact le_max_left _ _
    · exact fun i hi => (soa_lag _ _ env v hi).1
    · intro i hi
      have hi : i < 1 := hi
      obtain rfl : i = 0 := by omega
      exact le_max_left _ _
  exact (C98_initialized (queue_shut dt q) none g hg v wl env ⟨_, queue_mem.1, 0, Nat.zero_lt_one,
    by have := hlag _ queue_mem.1 0 Nat.zero_lt_one; omega⟩).1
    fun w A O hc r hr i hi => (hc.held r hr i hi (by have := hlag r hr i hi; omega)).1

/-- An amplifier that uses the time step `dt'` in an environment with the time step `dt`. -/
theorem queue_second (dt dt' : ℝ) (q : SoaParams) (ha : 0 < q.amplification) (hs : 0 < q.startup) (hdt : 0 < dt) (v : ℝ) (wl : W → ℝ)
    (env : SimEnv) (he : env.dt = some dt) (τ : ℝ) (ht : env.t = [0, τ]) (g : Gear W B)
    (hg : mkGear none (queueParts dt' q) (queueConns.map Conn.text) = .ok g) (r : Reduced W)
    (hr : initNet (g.dev.plant v wl) env = .ok (some r)) (src : ℕ → ℕ → W → B → ℝ × ℝ) :
    ∃ o o', forwardReduced r env (gearActors (queueParts dt' q) (queueConns.map Conn.text)) src = .ok [o, o'] ∧
      ∀ w β, (o' w β).map (fun z => z.1 ^ 2 + z.2 ^ 2) = [q.amplification ^ (dt' / q.startup) * ((src 0 0 w β).1 ^ 2 + (src 0 0 w β).2 ^ 2)] := by
  have hS := queue_shut (W := W) (B := B) dt' q
  obtain ⟨out, ho, hlen, ⟨A, O, hrun⟩, hall⟩ := C98_run hS ⟨_, queue_mem.2.2, 0, Nat.zero_lt_one, rfl⟩ none g hg v wl env (.inr ⟨dt, he, hdt⟩)
    (fun w => queue_cases ((C98_parts .source (by simp [Part.n])).2.2 env v _) ((C98_soas _ dt' q.rate).2.2.2 env v _)
      ((C98_parts .detector (by simp [Part.n])).2.2 env v _)) r hr src
  have hl2 : env.t.length = 2 := by rw [ht]; rfl
  rw [hl2] at hlen
  obtain ⟨o, o', rfl⟩ := List.length_eq_two.mp hlen
  refine ⟨o, o', ho, fun w β => ?_⟩
  have hd := hall A O hrun 1 (by simp) w β
  have hm : markedIn (fun c => c.det) (firstMentions queueConns) (queueParts dt' q : List (Str × Gear W B)) = [("d".toList, 0)] := rfl
  have hms : markedIn (fun c => c.src) (firstMentions queueConns) (queueParts dt' q : List (Str × Gear W B)) = [("s".toList, 0)] := rfl
  rw [hm] at hd
  have hp : (o' w β).map (fun z => z.1 ^ 2 + z.2 ^ 2) = ((o' w β).map asComplex).map Complex.normSq := by
    rw [List.map_map]
    refine List.map_congr_left fun z _ => ?_
    simp only [Function.comp, asComplex, Complex.normSq_apply]
    ring
  rw [hp, show (o' w β).map asComplex = _ from hd]
  show [Complex.normSq (A 1 w β "d".toList 0)] = _
  congr 1
  have j1 : PT.Spec.Joined queueConns "a".toList 0 "s".toList 0 := Or.inr (by decide)
  have j2 : PT.Spec.Joined queueConns "d".toList 0 "a".toList 1 := Or.inr (by decide)
  rw [hrun.joined 1 (by omega) w β _ _ _ _ j2 _ _ 0 2 queue_mem.2.2 queue_mem.2.1 (by rw [(queue_free (dt := dt') (q := q)).2.2]; rfl)
    (by rw [queue_free.2.1]; rfl)]
  have h0 := (C99_step hS v wl env src hrun "a".toList (fun _ _ => 0) dt' q.rate queue_mem.2.1 rfl 0 (by omega)).2
  have h1 := (C99_step hS v wl env src hrun "a".toList (fun _ _ => 0) dt' q.rate queue_mem.2.1 rfl 1 (by omega)).1
  have e3 : O 0 w β "s".toList 0 = asComplex (src 0 0 w β) := by
    rw [C98_passive hrun queue_mem.1 rfl 0 (by omega) w β 0 Nat.zero_lt_one]
    unfold scatters signals
    have h0 : ∑ j ∈ Finset.range (Part.source.gear : Gear W B).dev.comp.n,
        (⟨(Part.source.gear : Gear W B).dev.rS (wl w) 0 j, (Part.source.gear : Gear W B).dev.iS (wl w) 0 j⟩ : ℂ) *
          (if lag env v (Part.source.gear : Gear W B) j ≤ 0 then A (0 - lag env v (Part.source.gear : Gear W B) j) w β "s".toList j else 0) = 0 := by
      refine Finset.sum_eq_zero fun j hj => ?_
      have hj : j < 1 := Finset.mem_range.mp hj
      obtain rfl : j = 0 := by omega
      have : (⟨(Part.source.gear : Gear W B).dev.rS (wl w) 0 0, (Part.source.gear : Gear W B).dev.iS (wl w) 0 0⟩ : ℂ) = 0 := rfl
      rw [this, zero_mul]
    dsimp only
    rw [h0, hms, if_pos List.mem_cons_self, zero_add]
    simp
  have e4 : A 0 w β "a".toList 0 = asComplex (src 0 0 w β) := by
    rw [hrun.joined 0 (by omega) w β _ _ _ _ j1 _ _ 0 0 queue_mem.2.1 queue_mem.1 (by rw [queue_free.2.1]; rfl)
      (by rw [(queue_free (dt := dt') (q := q)).1]; rfl), e3]
  have hlag : lag env v (⟨soaDev fun _ _ => 0, soaActor dt' q.rate⟩ : Gear W B) 0 = 1 := (soa_lag _ _ env v (by norm_num)).2 rfl
  rw [hlag] at h1
  have u1 : ∀ i, earlier A 1 1 w β "a".toList i = A 0 w β "a".toList i := by
    intro i
    unfold earlier
    rw [if_pos le_rfl]
  have u0 : ∀ i, earlier A 1 0 w β "a".toList i = 0 := by
    intro i
    unfold earlier
    rw [if_neg (by norm_num)]
  have ht0 : env.t[0]'(by omega) = 0 := by simp [ht]
  have hrate : ∀ m u : NodeVal W B, q.rate (env.t[0]'(by omega)) m u =
      (fun _ _ => 1 / q.startup * Real.log q.amplification, fun _ _ => 1 / q.startup * Real.log q.amplification) := by
    intro m u
    unfold SoaParams.rate soaRate
    rw [ht0, if_pos hs]
  rw [hrate] at h0
  have m1 : (A 0 w β "a".toList 1).re = dt' * (1 / q.startup * Real.log q.amplification) ∧
      (A 0 w β "a".toList 1).im = dt' * (1 / q.startup * Real.log q.amplification) := by
    have e1 := congrFun (congrFun (congrArg Prod.fst h0) w) β
    have e2 := congrFun (congrFun (congrArg Prod.snd h0) w) β
    simp only [node, u0, Complex.zero_re, Complex.zero_im, zero_add] at e1 e2
    exact ⟨e1, e2⟩
  have o1 : (O 1 w β "a".toList 2).re = (src 0 0 w β).1 * Real.exp (0.5 * (dt' * (1 / q.startup * Real.log q.amplification))) ∧
      (O 1 w β "a".toList 2).im = (src 0 0 w β).2 * Real.exp (0.5 * (dt' * (1 / q.startup * Real.log q.amplification))) := by
    have e1 := congrFun (congrFun (congrArg Prod.fst h1) w) β
    have e2 := congrFun (congrFun (congrArg Prod.snd h1) w) β
    simp only [node, u1, e4, m1.1, m1.2] at e1 e2
    exact ⟨e1, e2⟩
  have hexp : Real.exp (0.5 * (dt' * (1 / q.startup * Real.log q.amplification))) *
      Real.exp (0.5 * (dt' * (1 / q.startup * Real.log q.amplification))) = q.amplification ^ (dt' / q.startup) := by
    rw [← Real.exp_add, Real.rpow_def_of_pos ha]
    congr 1
    ring
  rw [Complex.normSq_apply, o1.1, o1.2, ← hexp]
  ring

/-! ## An amplifier in two networks -/

/-- Sources 0 and 3, detectors 2 and 4 and an amplifier 1; both networks are a source, the amplifier and a detector. The environments have the time
steps 1 and 2. -/
noncomputable def twice (q : SoaParams) : Session Bool W where
  stage e := ⟨⟨some (if e then 1 else 2), false, if e then [0, 1] else [0, 2]⟩, 1, fun _ => 1⟩
  kind i := if i = 1 then .soa q else if i = 0 ∨ i = 3 then .part .source else .part .detector
  parts k := if k = 0 then [("s".toList, 0), ("a".toList, 1), ("d".toList, 2)] else [("s".toList, 3), ("a".toList, 1), ("d".toList, 4)]
  conns _ := queueConns.map Conn.text

theorem twice_assembled (q : SoaParams) (k : ℕ) (hk : k < 2) : Assembled (twice q : Session Bool W) k queueConns := by
  have hm : ∀ P : Str × ℕ → Prop, (∀ i j, (i = 0 ∧ j = 2) ∨ (i = 3 ∧ j = 4) → P ("s".toList, i) ∧ P ("a".toList, 1) ∧ P ("d".toList, j)) →
      ∀ q' ∈ (twice q : Session Bool W).parts k, P q' := by
    intro P hP q' hq'
    simp only [twice] at hq'
    split at hq'
    · have := hP 0 2 (.inl ⟨rfl, rfl⟩)
      simp only [List.mem_cons, List.not_mem_nil, or_false] at hq'
      rcases hq' with rfl | rfl | rfl
      exacts [this.1, this.2.1, this.2.2]
    · have := hP 3 4 (.inr ⟨rfl, rfl⟩)
      simp only [List.mem_cons, List.not_mem_nil, or_false] at hq'
      rcases hq' with rfl | rfl | rfl
      exacts [this.1, this.2.1, this.2.2]
  refine ⟨rfl, ?_, hm _ fun i j _ => ⟨?_, ?_, ?_⟩, hm _ ?_, ?_, rfl, ?_⟩
  · simp only [twice]
    split <;> decide
  · dsimp only; exact ⟨by decide, by decide, by decide⟩
  · dsimp only; exact ⟨by decide, by decide, by decide⟩
  · dsimp only; exact ⟨by decide, by decide, by decide⟩
  · rintro i j (⟨rfl, rfl⟩ | ⟨rfl, rfl⟩) <;> refine ⟨?_, ?_, ?_⟩ <;> simp [twice, kindPorts, Part.n]
  · have e : ((twice q : Session Bool W).parts k).flatMap (fun q' => (List.range (kindPorts ((twice q : Session Bool W).kind q'.2))).map
        fun (i : ℕ) => (q'.1, (i : ℤ))) = [("s".toList, 0), ("a".toList, 0), ("a".toList, 1), ("d".toList, 0)] := by
      interval_cases k <;> simp [twice, kindPorts, Part.n, List.range_succ]
    rw [e]
    decide
  · interval_cases k
    · exact ⟨("d".toList, 2), by simp [twice], by simp [twice]⟩
    · exact ⟨("d".toList, 4), by simp [twice], by simp [twice]⟩

theorem twice_objects (q : SoaParams) : (twice q : Session Bool W).objects 0 = [0, 1, 2] ∧ (twice q : Session Bool W).objects 1 = [3, 1, 4] := by
  unfold Session.objects
  have e : ∀ k, (twice q : Session Bool W).conns k = ["s:0:a:0".toList, "a:1:d:0".toList] := by
    intro k
    show queueConns.map Conn.text = _
    decide +kernel
  rw [e, e]
  exact ⟨rfl, rfl⟩

theorem twice_gears (q : SoaParams) (k : ℕ) (hk : k < 2) (s : ℕ → Option (Stage W)) :
    (((twice q : Session Bool W).parts k).map fun q' => (q'.1, (((twice q : Session Bool W).kind q'.2).gear (s q'.2) : Gear W B))) =
      queueParts (((s 1).bind fun s => s.sim.dt).getD 0) q := by
  interval_cases k <;> rfl

theorem twice_starts (q : SoaParams) (b : Board Bool W) (k : ℕ) (hk : k < 2) (e : Bool) :
    Ready (twice q) k ((twice q).initOn b k e).1 e := by
  have hA := twice_assembled (W := W) q k hk
  rcases initOn_cases (B := Unit) hA b e with ⟨x, -, hx⟩ | ⟨-, hr⟩
  · exfalso
    have h0 := hx fun _ _ _ _ => (0, 0)
    unfold anew at h0
    have hn : (((twice q : Session Bool W).objects k).findSome? fun i => ((twice q : Session Bool W).kind i).refuses ((twice q : Session Bool W).stage e).sim) = none := by
      interval_cases k
      · rw [(twice_objects q).1]; rfl
      · rw [(twice_objects q).2]; rfl
    rw [hn] at h0
    dsimp only at h0
    obtain ⟨g, hg, hp⟩ := world_plant (B := Unit) hA e
    rw [twice_gears q k hk fun _ => some ((twice q).stage e)] at hg
    obtain ⟨r, hr⟩ := queue_initialized _ q g hg ((twice q : Session Bool W).stage e).c ((twice q : Session Bool W).stage e).wl ((twice q : Session Bool W).stage e).sim
    rw [hp, hr] at h0
    dsimp only at h0
    have hf : (((twice q : Session Bool W).objects k).findSome? fun i => ((twice q : Session Bool W).kind i).fails (some ((twice q : Session Bool W).stage e))) = none := by
      interval_cases k
      · rw [(twice_objects q).1]; rfl
      · rw [(twice_objects q).2]; rfl
    rw [hf] at h0
    have hact := gearActors_objects (B := Unit) (twice q : Session Bool W) k fun _ => some ((twice q).stage e)
    rw [twice_gears q k hk fun _ => some ((twice q).stage e)] at hact
    rw [← hact] at h0
    obtain ⟨out, ho, -⟩ := C98_run (queue_shut (W := W) (B := Unit) _ q) ⟨_, queue_mem.2.2, 0, Nat.zero_lt_one, rfl⟩ none g hg
      ((twice q : Session Bool W).stage e).c ((twice q : Session Bool W).stage e).wl ((twice q : Session Bool W).stage e).sim
      (.inr ⟨if e then 1 else 2, rfl, by split <;> norm_num⟩)
      (fun w => queue_cases ((C98_parts .source (by simp [Part.n])).2.2 _ _ _) ((C98_soas _ _ q.rate).2.2.2 _ _ _)
        ((C98_parts .detector (by simp [Part.n])).2.2 _ _ _)) r hr (fun _ _ _ _ => (0, 0))
    rw [show (twice q : Session Bool W).conns k = queueConns.map Conn.text from rfl, ho] at h0
    cases h0
  · exact hr

/-- C101 is false of the code: two networks share an amplifier; the first is called, the second is called in an environment with twice the time step,
and the first is called again, without gradient tracking. The amplifier still uses the time step of the second call. -/
theorem C101_violation (q : SoaParams) (ha : 0 < q.amplification) (hs : 0 < q.startup) (src : ℕ → ℕ → W → B → ℝ × ℝ) :
    ∃ o o' p p', ((twice q).call (after (twice q) Board.new [(0, true, false), (1, false, false)]) 0 true false src).2 = .ok [o, o'] ∧
      ((twice q).call Board.new 0 true false src).2 = .ok [p, p'] ∧ ∀ w β,
        (o' w β).map (fun z => z.1 ^ 2 + z.2 ^ 2) = [q.amplification ^ (2 / q.startup) * ((src 0 0 w β).1 ^ 2 + (src 0 0 w β).2 ^ 2)] ∧
        (p' w β).map (fun z => z.1 ^ 2 + z.2 ^ 2) = [q.amplification ^ (1 / q.startup) * ((src 0 0 w β).1 ^ 2 + (src 0 0 w β).2 ^ 2)] := by
  have hA := twice_assembled (W := W) q 0 (by norm_num)
  obtain ⟨g, hg, hp⟩ := world_plant (B := B) hA true
  have hx := (world_sound hA true).1
  have hu : Stepping ((twice q : Session Bool W).stage true).sim := .inr ⟨1, rfl, one_pos⟩
  have key : ∀ b : Board Bool W, (∃ r, initNet (((twice q : Session Bool W).world 0).plant () true) ((twice q : Session Bool W).stage true).sim = .ok (some r) ∧ (b.nets 0).red = some r) →
      (b.nets 0).env = some true → (b.nets 0).numMc = ((((twice q : Session Bool W).world 0).plant () true).mcPorts ((twice q : Session Bool W).stage true).sim).length →
      (b.nets 0).delays = attemptDelays (((twice q : Session Bool W).world 0).plant () true) ((twice q : Session Bool W).stage true).sim → ∀ e', b.envs 1 = some e' →
      ∃ o o', (twice q : Session Bool W).runOn b 0 src = .ok [o, o'] ∧ ∀ w β, (o' w β).map (fun z => z.1 ^ 2 + z.2 ^ 2) =
        [q.amplification ^ ((if e' then 1 else 2) / q.startup) * ((src 0 0 w β).1 ^ 2 + (src 0 0 w β).2 ^ 2)] := by
    rintro b ⟨r, hr, hred⟩ h1 h2 h3 e' he'
    have hparts := twice_gears (W := W) (B := B) q 0 (by norm_num) fun i => (b.envs i).map (twice q : Session Bool W).stage
    rw [he'] at hparts
    obtain ⟨g', hg'⟩ := C98_built (queue_shut (W := W) (B := B) (if e' then 1 else 2) q) none
    have hdev : g'.dev = g.dev := by
      have h1 := mkGear_ok hg
      have h2 := mkGear_ok hg'
      have e : devs (queueParts (if e' then 1 else 2) q : List (Str × Gear W B)) =
          devs (((twice q : Session Bool W).parts 0).map fun q' => (q'.1, (((twice q : Session Bool W).kind q'.2).gear (some ((twice q : Session Bool W).stage true)) : Gear W B))) := rfl
      rw [e, h1] at h2
      exact (Except.ok.inj h2).symm
    rw [hp, ← hdev] at hr
    obtain ⟨o, o', ho, hpow⟩ := queue_second 1 (if e' then 1 else 2) q ha hs one_pos 1 (fun _ => 1) ((twice q : Session Bool W).stage true).sim rfl 1 rfl
      g' hg' r hr src
    refine ⟨o, o', ?_, hpow⟩
    unfold Session.runOn
    rw [runStored_fresh ((twice q : Session Bool W).world 0) (b.nets 0) true r () hx hu (by rw [hp, ← hdev]; exact hr) h1 hred h2 h3]
    rw [hparts]
    have : (((some e').map (twice q : Session Bool W).stage).bind fun s => s.sim.dt).getD 0 = if e' then 1 else 2 := rfl
    rw [this]
    rw [show ((twice q : Session Bool W).world 0).sim true = ((twice q : Session Bool W).stage true).sim from rfl,
      show (twice q : Session Bool W).conns 0 = queueConns.map Conn.text from rfl, ho]
    have hf : (((twice q : Session Bool W).objects 0).findSome? fun i => ((twice q : Session Bool W).kind i).fails ((b.envs i).map (twice q : Session Bool W).stage)) = none := by
      rw [(twice_objects q).1]
      simp [twice, Kind.fails, he']
    dsimp only [Except.bind]
    rw [hf]
  have hb1 : (after (twice q : Session Bool W) Board.new [(0, true, false)]) = ((twice q : Session Bool W).initOn Board.new 0 true).1 := by
    show ((twice q : Session Bool W).call (B := Unit) Board.new 0 true false fun _ _ _ _ => (0, 0)).1 = _
    rw [call_board, if_pos (Or.inl (by simp [Board.new, CacheState.new]))]
  have hr1 := twice_starts (W := W) q Board.new 0 (by norm_num) true
  have hb2 : (after (twice q : Session Bool W) Board.new [(0, true, false), (1, false, false)]) =
      ((twice q : Session Bool W).initOn ((twice q : Session Bool W).initOn Board.new 0 true).1 1 false).1 := by
    rw [← hb1]
    show ((twice q : Session Bool W).call (B := Unit) (after (twice q : Session Bool W) Board.new [(0, true, false)]) 1 false false fun _ _ _ _ => (0, 0)).1 = _
    rw [call_board, if_pos]
    left
    rw [hb1, initOn_nets _ _ (by norm_num)]
    simp [Board.new, CacheState.new]
  have hr2 := twice_starts (W := W) q ((twice q : Session Bool W).initOn Board.new 0 true).1 1 (by norm_num) false
  have hn := initOn_nets (S := (twice q : Session Bool W)) (k := 0) (k' := 1) ((twice q : Session Bool W).initOn Board.new 0 true).1 false (by norm_num)
  obtain ⟨o, o', ho, hpo⟩ := key _ (by rw [hn]; exact hr1.stored) (by rw [hn]; exact hr1.env) (by rw [hn]; exact hr1.numMc)
    (by rw [hn]; exact hr1.delays) false (hr2.envs 1 (by rw [(twice_objects q).2]; simp))
  obtain ⟨p, p', hpc, hpp⟩ := key _ hr1.stored hr1.env hr1.numMc hr1.delays true (hr1.envs 1 (by rw [(twice_objects q).1]; simp))
  refine ⟨o, o', p, p', ?_, ?_, fun w β => ⟨by simpa using hpo w β, by simpa using hpp w β⟩⟩
  · rw [hb2]
    unfold Session.call
    rw [if_neg]
    · exact ho
    · rw [hn, hr1.env]
      simp
  · unfold Session.call
    rw [if_pos (Or.inl (by simp [Board.new, CacheState.new]))]
    rcases initOn_cases (B := B) hA Board.new true with ⟨x, -, hf⟩ | ⟨hn, -⟩
    · exfalso
      have h1 := hr1.runs hx hu src
      rw [hpc, hf src] at h1
      cases h1
    · cases hb : (twice q : Session Bool W).initOn Board.new 0 true with
      | mk b' y =>
        rw [hb] at hn hpc
        dsimp only at hn
        subst hn
        exact hpc

/-- An amplification of 4 within two seconds: the source sends one, and the detector sees four in place of two. -/
example (q : SoaParams) (ha : q.amplification = 4) (hs : q.startup = 2) (src : ℕ → ℕ → Unit → Unit → ℝ × ℝ) (h1 : src 0 0 () () = (1, 0)) :
    ∃ o o' p p', ((twice q).call (after (twice q) Board.new [(0, true, false), (1, false, false)]) 0 true false src).2 = .ok [o, o'] ∧
      ((twice q).call Board.new 0 true false src).2 = .ok [p, p'] ∧
      (o' () ()).map (fun z => z.1 ^ 2 + z.2 ^ 2) = [4] ∧ (p' () ()).map (fun z => z.1 ^ 2 + z.2 ^ 2) = [2] := by
  obtain ⟨o, o', p, p', h2, h3, h4⟩ := C101_violation q (by rw [ha]; norm_num) (by rw [hs]; norm_num) src
  refine ⟨o, o', p, p', h2, h3, (h4 () ()).1.trans ?_, (h4 () ()).2.trans ?_⟩
  · rw [ha, hs, h1]
    norm_num
  · have : (4 : ℝ) ^ (1 / 2 : ℝ) = 2 := by
      rw [← Real.sqrt_eq_rpow, show (4 : ℝ) = 2 ^ 2 by norm_num, Real.sqrt_sq (by norm_num)]
    rw [ha, hs, h1, this]
    norm_num

/-! ## A call that failed -/

theorem kind_unmixed (c : Kind) (s : Option (Stage W)) (hc : 0 < kindPorts c) (env : SimEnv) (v wl : ℝ) : Unmixed env v wl (c.gear s : Gear W B) := by
  cases c with
  | part p => exact (C98_parts (W := W) (B := B) p hc).2.2 env v wl
  | soa q =>
    rw [Kind.gear, SoaParams.gear]
    exact (C98_soas (W := W) (B := B) _ _ _).2.2.2 env v wl
  | agrawal q =>
    rw [Kind.gear, Agrawal.gear]
    exact (C98_soas (W := W) (B := B) _ _ _).2.2.2 env v wl

/-- With whatever environments the component objects were initialized last, the steps can be made. -/
theorem stored_runs (h : Assembled S k cs) (e : E) (hu : Stepping (S.stage e).sim) (r : Reduced W)
    (hr : initNet ((S.world k).plant () e) (S.stage e).sim = .ok (some r)) (s : ℕ → Option (Stage W)) (src : ℕ → ℕ → W → B → ℝ × ℝ) :
    ∃ out, forwardReduced r (S.stage e).sim (gearActors ((S.parts k).map fun q => (q.1, (S.kind q.2).gear (s q.2))) (S.conns k)) src = .ok out ∧
      out.length = (S.stage e).sim.t.length := by
  obtain ⟨g, hg, hp⟩ := world_plant (B := B) h e
  obtain ⟨g', hg'⟩ := C98_built (h.shut (B := B) s) none
  have hdev : g'.dev = g.dev := by
    have h1 := mkGear_ok hg
    have h2 := mkGear_ok hg'
    have e1 : devs ((S.parts k).map fun q => (q.1, ((S.kind q.2).gear (s q.2) : Gear W B))) =
        devs ((S.parts k).map fun q => (q.1, ((S.kind q.2).gear (some (S.stage e)) : Gear W B))) := by
      unfold devs
      rw [List.map_map, List.map_map]
      refine List.map_congr_left fun q _ => ?_
      cases hq : S.kind q.2 <;> simp only [Function.comp, hq] <;> rfl
    rw [e1, h1] at h2
    exact (Except.ok.inj h2).symm
  obtain ⟨q, hq, hdet⟩ := h.detector
  obtain ⟨out, ho, hlen, -⟩ := C98_run (h.shut (B := B) s) ⟨_, List.mem_map.mpr ⟨q, hq, rfl⟩, 0, by rw [hdet]; exact Nat.one_pos, by rw [hdet]; rfl⟩ none g' hg'
    (S.stage e).c (S.stage e).wl (S.stage e).sim hu (fun w q hq => by
      obtain ⟨r, hr, rfl⟩ := List.mem_map.mp hq
      exact kind_unmixed _ _ (h.sized r hr) _ _ _) r (by rw [hdev, ← hp]; exact hr) src
  refine ⟨out, ?_, hlen⟩
  rw [h.conns]
  exact ho

/-- A source, two amplifiers and a detector; the environments are one in the time domain and one in the frequency domain. -/
noncomputable def ramp (q : SoaParams) (q' : Agrawal) : Session Bool W where
  stage e := if e then ⟨⟨some 1, false, [0]⟩, 1, fun _ => 1⟩ else ⟨⟨none, true, [0]⟩, 1, fun _ => 1⟩
  kind i := if i = 1 then .soa q else if i = 2 then .agrawal q' else if i = 0 then .part .source else .part .detector
  parts _ := [("s".toList, 0), ("a".toList, 1), ("b".toList, 2), ("d".toList, 3)]
  conns _ := ["s:0:a:0".toList, "a:1:b:0".toList, "b:1:d:0".toList]

def rampConns : List Conn := [.inner "s".toList 0 "a".toList 0, .inner "a".toList 1 "b".toList 0, .inner "b".toList 1 "d".toList 0]

theorem ramp_assembled (q : SoaParams) (q' : Agrawal) : Assembled (ramp q q' : Session Bool W) 0 rampConns := by
  have hm : ∀ P : Str × ℕ → Prop, P ("s".toList, 0) → P ("a".toList, 1) → P ("b".toList, 2) → P ("d".toList, 3) →
      ∀ r ∈ (ramp q q' : Session Bool W).parts 0, P r := by
    intro P h1 h2 h3 h4 r hr
    simp only [ramp, List.mem_cons, List.not_mem_nil, or_false] at hr
    rcases hr with rfl | rfl | rfl | rfl <;> assumption
  refine ⟨?_, ?_, hm _ ?_ ?_ ?_ ?_, hm _ ?_ ?_ ?_ ?_, ?_, rfl, ⟨("d".toList, 3), by simp [ramp], by simp [ramp]⟩⟩
  · show ["s:0:a:0".toList, "a:1:b:0".toList, "b:1:d:0".toList] = rampConns.map Conn.text
    decide +kernel
  · simp only [ramp]
    decide
  · dsimp only; exact ⟨by decide, by decide, by decide⟩
  · dsimp only; exact ⟨by decide, by decide, by decide⟩
  · dsimp only; exact ⟨by decide, by decide, by decide⟩
  · dsimp only; exact ⟨by decide, by decide, by decide⟩
  · simp [ramp, kindPorts, Part.n]
  · simp [ramp, kindPorts]
  · simp [ramp, kindPorts]
  · simp [ramp, kindPorts, Part.n]
  · have e : ((ramp q q' : Session Bool W).parts 0).flatMap (fun q'' => (List.range (kindPorts ((ramp q q' : Session Bool W).kind q''.2))).map
        fun (i : ℕ) => (q''.1, (i : ℤ))) =
        [("s".toList, 0), ("a".toList, 0), ("a".toList, 1), ("b".toList, 0), ("b".toList, 1), ("d".toList, 0)] := by
      simp [ramp, kindPorts, Part.n, List.range_succ]
    rw [e]
    decide

theorem ramp_objects (q : SoaParams) (q' : Agrawal) : (ramp q q' : Session Bool W).objects 0 = [0, 1, 2, 3] := rfl

theorem ramp_init (q : SoaParams) (q' : Agrawal) :
    ∃ r, initNet (((ramp q q' : Session Bool W).world 0).plant () true) ((ramp q q' : Session Bool W).stage true).sim = .ok (some r) := by
  have hA := ramp_assembled (W := W) q q'
  obtain ⟨g, hg, hp⟩ := world_plant (B := Unit) hA true
  rw [hp]
  have hlag : ∀ r ∈ ((ramp q q' : Session Bool W).parts 0).map fun x => (x.1, (((ramp q q' : Session Bool W).kind x.2).gear (some ((ramp q q').stage true)) : Gear W Unit)),
      ∀ env v, ∀ i < r.2.dev.comp.n, 1 ≤ lag env v r.2 i := by
    intro r hr env v i hi
    obtain ⟨x, hx, rfl⟩ := List.mem_map.mp hr
    simp only [ramp, List.mem_cons, List.not_mem_nil, or_false] at hx
    rcases hx with rfl | rfl | rfl | rfl
    · have hi : i < 1 := hi
      obtain rfl : i = 0 := by omega
      exact le_max_left _ _
    · exact (soa_lag _ _ env v hi).1
    · exact (soa_lag _ _ env v hi).1
    · have hi : i < 1 := hi
      obtain rfl : i = 0 := by omega
      exact le_max_left _ _
  refine (C98_initialized (hA.shut (B := Unit) fun _ => some ((ramp q q').stage true)) none g hg _ _ _ ⟨_, List.mem_map.mpr ⟨("s".toList, 0), by simp [ramp], rfl⟩, 0,
    Nat.zero_lt_one, ?_⟩).1 fun w A O hc r hr i hi => (hc.held r hr i hi (Nat.one_le_iff_ne_zero.mp (hlag r hr _ _ i hi))).1
  exact Nat.one_le_iff_ne_zero.mp (le_max_left _ _)

/-- C101 is false of the code: after a call in the frequency domain, which raises RuntimeError in the second amplifier, the first amplifier has lost
its time step, and a call in the time domain without gradient tracking, which worked before, raises TypeError. -/
theorem C101_violation_failed (q : SoaParams) (q' : Agrawal) (src : ℕ → ℕ → W → B → ℝ × ℝ) :
    (∃ o, ((ramp q q').call Board.new 0 true false src).2 = .ok [o]) ∧
    ((ramp q q').call (after (ramp q q') Board.new [(0, true, false)]) 0 false false src).2 = .error .runtimeError ∧
    ((ramp q q').call (after (ramp q q') Board.new [(0, true, false), (0, false, false)]) 0 true false src).2 = .error .typeError := by
  have hA := ramp_assembled (W := W) q q'
  obtain ⟨r, hr⟩ := ramp_init (W := W) q q'
  have hx := (world_sound hA true).1
  have hu : Stepping ((ramp q q' : Session Bool W).stage true).sim := .inr ⟨1, rfl, one_pos⟩
  have hR : ∀ b : Board Bool W, ((ramp q q').initOn b 0 true).2 = none ∧ Ready (ramp q q') 0 ((ramp q q').initOn b 0 true).1 true := by
    intro b
    rcases initOn_cases (B := Unit) hA b true with ⟨x, -, hx⟩ | h
    · exfalso
      have h0 := hx fun _ _ _ _ => (0, 0)
      obtain ⟨out, ho, -⟩ := stored_runs hA true hu r hr (fun _ => some ((ramp q q').stage true)) fun _ _ _ (_ : Unit) => (0, 0)
      rw [gearActors_objects _ _ fun _ => some ((ramp q q').stage true)] at ho
      unfold anew at h0
      rw [show (((ramp q q' : Session Bool W).objects 0).findSome? fun i => ((ramp q q' : Session Bool W).kind i).refuses ((ramp q q').stage true).sim) = none from rfl] at h0
      dsimp only at h0
      rw [hr] at h0
      dsimp only at h0
      rw [ho] at h0
      cases h0
    · exact h
  have hnew : ∀ e, (Board.new.nets 0 : CacheState Unit Bool W).env ≠ some e := by simp [Board.new, CacheState.new]
  have hb1 : (after (ramp q q' : Session Bool W) Board.new [(0, true, false)]) = ((ramp q q').initOn Board.new 0 true).1 := by
    show ((ramp q q').call (B := Unit) Board.new 0 true false fun _ _ _ _ => (0, 0)).1 = _
    rw [call_board, if_pos (Or.inl (hnew _))]
  set b1 : Board Bool W := ((ramp q q').initOn Board.new 0 true).1 with hb1d
  have hready : Ready (ramp q q') 0 b1 true := (hR Board.new).2
  have hfail : (ramp q q' : Session Bool W).initOn b1 0 false =
      ({ b1 with envs := Function.update (Function.update b1.envs 0 (some false)) 1 (some false) }, some .runtimeError) := rfl
  have hne : (b1.nets 0).env ≠ some false := by rw [hready.env]; simp
  have hb2 : (after (ramp q q' : Session Bool W) Board.new [(0, true, false), (0, false, false)]) =
      { b1 with envs := Function.update (Function.update b1.envs 0 (some false)) 1 (some false) } := by
    have : (after (ramp q q' : Session Bool W) Board.new [(0, true, false), (0, false, false)]) =
        ((ramp q q').call (B := Unit) (after (ramp q q' : Session Bool W) Board.new [(0, true, false)]) 0 false false fun _ _ _ _ => (0, 0)).1 := rfl
    rw [this, hb1, call_board, if_pos (Or.inl hne), hfail]
  refine ⟨?_, ?_, ?_⟩
  · unfold Session.call
    rw [if_pos (Or.inl (hnew _))]
    have h2 := (hR Board.new).1
    rw [show (ramp q q' : Session Bool W).initOn Board.new 0 true = (b1, none) from Prod.ext rfl h2]
    dsimp only
    rw [hready.runs hx hu]
    obtain ⟨out, ho, hlen⟩ := stored_runs hA true hu r hr (fun _ => some ((ramp q q').stage true)) src
    rw [gearActors_objects _ _ fun _ => some ((ramp q q').stage true)] at ho
    obtain ⟨o, rfl⟩ := List.length_eq_one_iff.mp hlen
    refine ⟨o, ?_⟩
    unfold anew
    rw [show (((ramp q q' : Session Bool W).objects 0).findSome? fun i => ((ramp q q' : Session Bool W).kind i).refuses ((ramp q q').stage true).sim) = none from rfl]
    dsimp only
    rw [hr]
    dsimp only
    rw [ho]
    rfl
  · rw [hb1]
    unfold Session.call
    rw [if_pos (Or.inl hne), hfail]
  · rw [hb2]
    unfold Session.call
    rw [if_neg (by simp [hready.env])]
    obtain ⟨r', hr', hred⟩ := hready.stored
    dsimp only
    unfold Session.runOn
    rw [runStored_fresh ((ramp q q' : Session Bool W).world 0) (b1.nets 0) true r' () hx hu hr' hready.env hred hready.numMc hready.delays]
    obtain ⟨out, ho, hlen⟩ := stored_runs hA true hu r' hr' (fun i => ((Function.update (Function.update b1.envs 0 (some false)) 1 (some false)) i).map
      (ramp q q').stage) src
    rw [show ((ramp q q' : Session Bool W).world 0).sim true = ((ramp q q' : Session Bool W).stage true).sim from rfl, ho]
    dsimp only [Except.bind]
    have hf : (((ramp q q' : Session Bool W).objects 0).findSome? fun i => ((ramp q q' : Session Bool W).kind i).fails
        ((Function.update (Function.update b1.envs 0 (some false)) 1 (some false) i).map (ramp q q' : Session Bool W).stage)) = some .typeError := by
      rw [ramp_objects]
      simp [ramp, Kind.fails]
    rw [hf]
    dsimp only
    rw [if_neg]
    intro h0
    rw [h0] at hlen
    cases hlen

/-- Two networks share an amplifier: with gradient tracking the second is not affected by the first. -/
example (q : SoaParams) (src : ℕ → ℕ → W → B → ℝ × ℝ) :
    ((twice q).call (after (twice q) Board.new [(1, false, false), (0, true, false)]) 1 false true src).2 =
      ((twice q : Session Bool W).call Board.new 1 false false src).2 :=
  C101_initialized_partial (twice_assembled q 1 (by norm_num)) _ false (.inr ⟨2, rfl, by norm_num⟩) true (.inr rfl) src

/-- Calls in the time domain alone do not affect each other. -/
example (q : SoaParams) (q' : Agrawal) (src : ℕ → ℕ → W → B → ℝ × ℝ) :
    ((ramp q q').call (after (ramp q q') Board.new [(0, true, false), (0, true, true)]) 0 true false src).2 =
      ((ramp q q' : Session Bool W).call Board.new 0 true false src).2 := by
  obtain ⟨o, ho⟩ := (C101_violation_failed (W := W) (B := Unit) q q' fun _ _ _ _ => (0, 0)).1
  refine C101_unshared_partial (ramp_assembled q q') _ (by simp) (fun e => ?_) ?_ true false src
  · cases e
    · exact .inl rfl
    · exact .inr ⟨1, rfl, one_pos⟩
  · intro c hc _
    simp only [List.mem_cons, List.not_mem_nil, or_false] at hc
    rcases hc with rfl | rfl <;> exact ⟨_, ho⟩

end PT
