import Verif.Spec.Opened
import Verif.Props.Gear

/-!
# C100: active components in networks in networks
-/

namespace PT
open Spec Matrix

variable {W B : Type}

/-- The number of active ports. -/
def activeCount (ls : List (Actor W B)) : ℕ := (ls.map fun c => if c.active then c.numPorts else 0).sum

/-- What components do to the waves at their active ports. -/
def acted (t : ℝ) : List (Actor W B) → List (NodeVal W B) → List (NodeVal W B)
  | [], _ => []
  | c :: ls, x =>
    if c.active then c.action t (x.take c.numPorts) ((x.take c.numPorts).map fun _ => silent) ++ acted t ls (x.drop c.numPorts)
    else acted t ls x

theorem acted_append (t : ℝ) (ls ls' : List (Actor W B)) (x y : List (NodeVal W B)) (hx : x.length = activeCount ls) :
    acted t (ls ++ ls') (x ++ y) = acted t ls x ++ acted t ls' y := by
  induction ls generalizing x with
  | nil =>
    obtain rfl : x = [] := List.length_eq_zero_iff.mp hx
    rfl
  | cons c ls ih =>
    unfold activeCount at hx
    rw [List.map_cons, List.sum_cons] at hx
    rw [List.cons_append, acted, acted]
    split
    · rename_i hc
      rw [if_pos hc] at hx
      rw [List.take_append_of_le_length (by omega), List.drop_append_of_le_length (by omega), ih _ (by rw [List.length_drop]; unfold activeCount; omega),
        List.append_assoc]
    · rename_i hc
      rw [if_neg hc, Nat.zero_add] at hx
      exact ih x hx

theorem acted_length (t : ℝ) (ls : List (Actor W B)) (x : List (NodeVal W B)) (hx : x.length = activeCount ls)
    (hl : ∀ c ∈ ls, ∀ x z, (c.action t x z).length = z.length) : (acted t ls x).length = x.length := by
  induction ls generalizing x with
  | nil =>
    obtain rfl : x = [] := List.length_eq_zero_iff.mp hx
    rfl
  | cons c ls ih =>
    unfold activeCount at hx
    rw [List.map_cons, List.sum_cons] at hx
    unfold acted
    split
    · rename_i hc
      rw [if_pos hc] at hx
      rw [List.length_append, hl c List.mem_cons_self, ih _ (by rw [List.length_drop]; unfold activeCount; omega) fun d hd => hl d (List.mem_cons_of_mem _ hd),
        List.length_map, List.length_take, List.length_drop]
      omega
    · rename_i hc
      rw [if_neg hc, Nat.zero_add] at hx
      exact ih x hx fun d hd => hl d (List.mem_cons_of_mem _ hd)

theorem activeCount_append (ls ls' : List (Actor W B)) : activeCount (ls ++ ls') = activeCount ls + activeCount ls' := by
  simp [activeCount]

theorem activeCount_none {ls : List (Actor W B)} (h : ∀ c ∈ ls, c.active = false) : activeCount ls = 0 := by
  unfold activeCount
  rw [List.sum_eq_zero]
  intro n hn
  obtain ⟨c, hc, rfl⟩ := List.mem_map.mp hn
  rw [h c hc]
  rfl

theorem activeCount_all {ls : List (Actor W B)} (h : ∀ c ∈ ls, c.active = true) : activeCount ls = offset ls := by
  unfold activeCount offset
  congr 1
  exact List.map_congr_left fun c hc => by rw [if_pos (h c hc)]

theorem activeCount_le (ls : List (Actor W B)) : activeCount ls ≤ offset ls := by
  unfold activeCount offset
  refine List.sum_le_sum fun c _ => ?_
  split <;> omega

theorem any_none {ls : List (Actor W B)} (h : ∀ c ∈ ls, c.active = false) : ls.any Actor.active = false := by
  rw [List.any_eq_false]
  intro c hc
  rw [h c hc]
  simp

/-- Opened networks have the same ports, and are active together. -/
theorem opened_same {cs ls : List (Actor W B)} (h : Opened cs ls) :
    offset cs = offset ls ∧ cs.any Actor.active = ls.any Actor.active := by
  have key : ∀ (k : ℕ) (sub leaves cs ls : List (Actor W B)), offset sub = offset leaves ∧ sub.any Actor.active = leaves.any Actor.active →
      offset cs = offset ls ∧ cs.any Actor.active = ls.any Actor.active →
      offset (netActor k sub :: cs) = offset (leaves ++ ls) ∧ (netActor k sub :: cs).any Actor.active = (leaves ++ ls).any Actor.active := by
    intro k sub leaves cs ls h1 h2
    rw [offset_cons, List.any_cons, List.any_append, ← h1.2, ← h2.2, h2.1]
    refine ⟨?_, rfl⟩
    have : offset (leaves ++ ls) = offset leaves + offset ls := by simp [offset]
    rw [this, ← h1.1]
    rfl
  induction h with
  | nil => exact ⟨rfl, rfl⟩
  | keep c cs ls _ ih => rw [offset_cons, offset_cons, ih.1, List.any_cons, List.any_cons, ih.2]; exact ⟨rfl, rfl⟩
  | passive k sub leaves cs ls _ _ _ ih1 ih2 => exact key k _ _ _ _ ih1 ih2
  | active sub leaves cs ls _ _ _ ih1 ih2 => exact key 0 _ _ _ _ ih1 ih2
  | last sub leaves cs ls _ _ _ ih1 ih2 => exact key 0 _ _ _ _ ih1 ih2

/-- One active component in the loop. -/
theorem actionLoop_active (t : ℝ) (c : Actor W B) (cs : List (Actor W B)) (hc : c.active = true) (a a' x rest : List (NodeVal W B))
    (ha : a'.length = a.length) (hx : x.length = c.numPorts) (hl : ∀ x z, (c.action t x z).length = z.length) :
    actionLoop t (a ++ (x ++ rest)) (c :: cs) a.length (a' ++ (x ++ rest)) =
      actionLoop t ((a ++ x) ++ rest) cs (a ++ x).length ((a' ++ c.action t x (x.map fun _ => silent)) ++ rest) := by
  rw [actionLoop, if_pos hc]
  have hs : ((a ++ (x ++ rest)).drop a.length).take c.numPorts = x := by
    rw [List.drop_left, List.take_left' hx]
  dsimp only
  rw [hs, show (fun _ => ((fun _ _ => 0, fun _ _ => 0) : NodeVal W B)) = fun _ : NodeVal W B => silent from rfl, ← ha,
    writeAt_append _ _ _ _ (by rw [hl]; simp), List.length_append, hx, ha, List.append_assoc, List.append_assoc]

theorem actionLoop_none (t : ℝ) (cs : List (Actor W B)) (h : cs.any Actor.active = false) (xin : List (NodeVal W B)) (k : ℕ)
    (xout : List (NodeVal W B)) : actionLoop t xin cs k xout = xout := by
  induction cs with
  | nil => rfl
  | cons c cs ih =>
    rw [List.any_cons, Bool.or_eq_false_iff] at h
    rw [actionLoop, if_neg (by rw [h.1]; simp)]
    exact ih h.2

/-- The loop over nested networks does what its components do. -/
theorem actionLoop_opened {cs ls : List (Actor W B)} (h : Opened cs ls) (t : ℝ)
    (hl : ∀ c ∈ ls, ∀ x z, (c.action t x z).length = z.length) (a a' x rest : List (NodeVal W B)) (ha : a'.length = a.length)
    (hx : x.length = activeCount ls) :
    actionLoop t (a ++ (x ++ rest)) cs a.length (a' ++ (x ++ rest)) = a' ++ (acted t ls x ++ rest) := by
  induction h generalizing a a' x rest with
  | nil =>
    obtain rfl : x = [] := List.length_eq_zero_iff.mp hx
    rfl
  | keep c cs ls hcs ih =>
    have hl' := fun d hd => hl d (List.mem_cons_of_mem _ hd)
    unfold activeCount at hx
    rw [List.map_cons, List.sum_cons] at hx
    by_cases hc : c.active = true
    · rw [if_pos hc] at hx
      have hx' : x = x.take c.numPorts ++ x.drop c.numPorts := (List.take_append_drop _ _).symm
      rw [acted, if_pos hc, hx', List.append_assoc,
        actionLoop_active t c cs hc a a' _ _ ha (by rw [List.length_take]; omega) (hl c List.mem_cons_self), ← hx',
        ih hl' _ _ _ _ (by rw [List.length_append, List.length_append, hl c List.mem_cons_self, List.length_map, ha])
          (by rw [List.length_drop]; unfold activeCount; omega)]
      simp
    · rw [if_neg hc, Nat.zero_add] at hx
      rw [acted, if_neg hc, actionLoop, if_neg hc]
      exact ih hl' a a' x rest ha hx
  | passive k sub leaves cs ls hsub hno hcs ih1 ih2 =>
    have hact : (netActor k sub).active = false := (opened_same hsub).2.trans (any_none hno)
    have h0 := activeCount_none hno
    rw [actionLoop, if_neg (by rw [hact]; simp), show acted t (leaves ++ ls) x = acted t (leaves ++ ls) ([] ++ x) from rfl,
      acted_append t leaves ls [] x (by rw [h0]; rfl)]
    rw [activeCount_append, h0, Nat.zero_add] at hx
    rw [ih2 (fun c hc => hl c (List.mem_append_right _ hc)) a a' x rest ha hx]
    have : acted t leaves ([] : List (NodeVal W B)) = [] := List.length_eq_zero_iff.mp
      (acted_length t leaves [] (by rw [h0]; rfl) fun c hc => hl c (List.mem_append_left _ hc))
    rw [this]
    rfl
  | active sub leaves cs ls hsub hall hcs ih1 ih2 =>
    have hl1 : ∀ c ∈ leaves, ∀ x z, (c.action t x z).length = z.length := fun c hc => hl c (List.mem_append_left _ hc)
    have hl2 : ∀ c ∈ ls, ∀ x z, (c.action t x z).length = z.length := fun c hc => hl c (List.mem_append_right _ hc)
    rw [activeCount_append] at hx
    have hp : (netActor 0 sub).numPorts = activeCount leaves := ((opened_same hsub).1.trans (activeCount_all hall).symm : offset sub = _)
    have hx' : x = x.take (activeCount leaves) ++ x.drop (activeCount leaves) := (List.take_append_drop _ _).symm
    have hx1 : (x.take (activeCount leaves)).length = activeCount leaves := by rw [List.length_take]; omega
    have hx2 : (x.drop (activeCount leaves)).length = activeCount ls := by rw [List.length_drop]; omega
    by_cases hact : (netActor 0 sub).active = true
    · have e1 : (netActor 0 sub).action t (x.take (activeCount leaves)) ((x.take (activeCount leaves)).map fun _ => silent) =
          acted t leaves (x.take (activeCount leaves)) := by
        have := ih1 hl1 [] [] (x.take (activeCount leaves)) [] rfl hx1
        rw [List.nil_append, List.nil_append, List.append_nil, List.append_nil] at this
        exact this
      rw [hx', acted_append t leaves ls _ _ hx1, List.append_assoc]
      rw [actionLoop, if_pos hact, hp]
      have hs : ((a ++ (x.take (activeCount leaves) ++ (x.drop (activeCount leaves) ++ rest))).drop a.length).take (activeCount leaves) =
          x.take (activeCount leaves) := by
        rw [List.drop_left, List.take_left' hx1]
      dsimp only
      rw [hs, show (fun _ => ((fun _ _ => 0, fun _ _ => 0) : NodeVal W B)) = fun _ : NodeVal W B => silent from rfl, e1, ← ha,
        writeAt_append _ _ _ _ (acted_length t leaves _ hx1 hl1)]
      have := ih2 hl2 (a ++ x.take (activeCount leaves)) (a' ++ acted t leaves (x.take (activeCount leaves))) (x.drop (activeCount leaves)) rest
        (by rw [List.length_append, List.length_append, acted_length t leaves _ hx1 hl1, ha]) hx2
      rw [List.length_append, hx1, List.append_assoc, List.append_assoc] at this
      rw [ha, this]
      simp
    · have hno : ∀ c ∈ leaves, c.active = false := by
        intro c hc
        have h1 : leaves.any Actor.active = false := by
          rw [← (opened_same hsub).2]
          exact (Bool.not_eq_true _).mp hact
        rw [List.any_eq_false] at h1
        simpa using h1 c hc
      have h0 := activeCount_none hno
      have e0 : x.take (activeCount leaves) = [] := by rw [h0]; rfl
      have e1 : x.drop (activeCount leaves) = x := by rw [h0]; rfl
      have e2 : acted t leaves ([] : List (NodeVal W B)) = [] := List.length_eq_zero_iff.mp (acted_length t leaves [] (by rw [h0]; rfl) hl1)
      rw [e1] at hx2
      rw [actionLoop, if_neg hact, show acted t (leaves ++ ls) x = acted t (leaves ++ ls) ([] ++ x) from rfl,
        acted_append t leaves ls [] x (by rw [h0]; rfl), e2, ih2 hl2 a a' x rest ha hx2]
      rfl
  | last sub leaves cs ls hsub hcs hno ih1 ih2 =>
    have hl1 : ∀ c ∈ leaves, ∀ x z, (c.action t x z).length = z.length := fun c hc => hl c (List.mem_append_left _ hc)
    have hl2 : ∀ c ∈ ls, ∀ x z, (c.action t x z).length = z.length := fun c hc => hl c (List.mem_append_right _ hc)
    have h0 := activeCount_none hno
    rw [activeCount_append, h0, Nat.add_zero] at hx
    have e2 : acted t ls ([] : List (NodeVal W B)) = [] := List.length_eq_zero_iff.mp (acted_length t ls [] (by rw [h0]; rfl) hl2)
    have e3 : acted t (leaves ++ ls) x = acted t leaves x := by
      have := acted_append t leaves ls x [] hx
      rwa [List.append_nil, e2, List.append_nil] at this
    have hcs0 : cs.any Actor.active = false := (opened_same hcs).2.trans (any_none hno)
    rw [e3]
    by_cases hact : (netActor 0 sub).active = true
    · have hp : activeCount leaves ≤ (netActor 0 sub).numPorts := by
        have : (netActor 0 sub).numPorts = offset leaves := (opened_same hsub).1
        rw [this]
        exact activeCount_le leaves
      rw [actionLoop, if_pos hact]
      have hs : ((a ++ (x ++ rest)).drop a.length).take (netActor 0 sub).numPorts =
          x ++ rest.take ((netActor 0 sub).numPorts - activeCount leaves) := by
        rw [List.drop_left, List.take_append, hx, List.take_of_length_le (by omega)]
      have e1 : (netActor 0 sub).action t (x ++ rest.take ((netActor 0 sub).numPorts - activeCount leaves))
          ((x ++ rest.take ((netActor 0 sub).numPorts - activeCount leaves)).map fun _ => silent) =
          acted t leaves x ++ rest.take ((netActor 0 sub).numPorts - activeCount leaves) :=
        ih1 hl1 [] [] x _ rfl hx
      dsimp only
      rw [hs, show (fun _ => ((fun _ _ => 0, fun _ _ => 0) : NodeVal W B)) = fun _ : NodeVal W B => silent from rfl, e1, actionLoop_none t cs hcs0, ← ha]
      have hr : x ++ rest = (x ++ rest.take ((netActor 0 sub).numPorts - activeCount leaves)) ++
          rest.drop ((netActor 0 sub).numPorts - activeCount leaves) := by simp
      conv_lhs => rw [hr]
      rw [writeAt_append _ _ _ _ (by rw [List.length_append, List.length_append, acted_length t leaves x hx hl1])]
      simp
    · have hno' : ∀ c ∈ leaves, c.active = false := by
        intro c hc
        have h1 : leaves.any Actor.active = false := by
          rw [← (opened_same hsub).2]
          exact (Bool.not_eq_true _).mp hact
        rw [List.any_eq_false] at h1
        simpa using h1 c hc
      rw [activeCount_none hno'] at hx
      obtain rfl : x = [] := List.length_eq_zero_iff.mp hx
      have e4 : acted t leaves ([] : List (NodeVal W B)) = [] :=
        List.length_eq_zero_iff.mp (acted_length t leaves [] (by rw [activeCount_none hno']; rfl) hl1)
      rw [actionLoop, if_neg hact, actionLoop_none t cs hcs0, e4]

theorem activePorts_length (ls : List (Actor W B)) (o : ℕ) : (activePorts ls o).length = activeCount ls := by
  induction ls generalizing o with
  | nil => rfl
  | cons c ls ih =>
    rw [activePorts, List.length_append, ih]
    unfold activeCount
    rw [List.map_cons, List.sum_cons]
    split <;> simp

/-- The action of a network with nested networks is the action of the network without them. -/
theorem netAction_opened {cs ls : List (Actor W B)} (h : Opened cs ls) (t : ℝ)
    (hl : ∀ c ∈ ls, ∀ x z, (c.action t x z).length = z.length) (k : ℕ) (x z : List (NodeVal W B)) (hx : k + activeCount ls ≤ x.length) :
    netAction k cs t x z = netAction k ls t x z := by
  have hself : Opened ls ls := by
    clear h hl hx
    induction ls with
    | nil => exact .nil
    | cons c ls ih => exact .keep c _ _ ih
  have e : x = x.take k ++ ((x.drop k).take (activeCount ls) ++ (x.drop k).drop (activeCount ls)) := by
    rw [List.take_append_drop, List.take_append_drop]
  have hk : (x.take k).length = k := by rw [List.length_take]; omega
  have ha : ((x.drop k).take (activeCount ls)).length = activeCount ls := by rw [List.length_take, List.length_drop]; omega
  unfold netAction
  have e1 := actionLoop_opened h t hl (x.take k) (x.take k) _ ((x.drop k).drop (activeCount ls)) rfl ha
  have e2 := actionLoop_opened hself t hl (x.take k) (x.take k) _ ((x.drop k).drop (activeCount ls)) rfl ha
  rw [← e, hk] at e1 e2
  rw [e1, e2]

theorem numAct_count (p : Plant W) (ls : List (Actor W B)) (h : ActorsOf p ls) : p.numAct = activeCount ls := by
  rw [← activePorts_length ls 0, ← portsWith_act p ls h, List.length_map]
  rfl

/-- Components with the same action on the nodes are simulated alike. -/
theorem forward_action (r : Reduced W) (env : SimEnv) (cs ls : List (Actor W B)) (src : ℕ → ℕ → W → B → ℝ × ℝ)
    (h : ∀ t (x : List (NodeVal W B)), x.length = r.m → netAction r.numSrc cs t x x = netAction r.numSrc ls t x x) :
    forwardReduced r env cs src = forwardReduced r env ls src := by
  have hstep : ∀ t s buf, stepField r cs t s buf = stepField r ls t s buf := by
    intro t s buf
    unfold stepField
    dsimp only
    rw [h]
    unfold toNodes
    simp
  have hsim : ∀ (src : ℕ → Fields r.m W B) ts i buf, simulate r cs src ts i buf = simulate r ls src ts i buf := by
    intro src ts
    induction ts with
    | nil => intros; rfl
    | cons t ts ih =>
      intro i buf
      rw [simulate, simulate, hstep]
      rw [ih]
  unfold forwardReduced
  simp only [hsim]

/-- C100 (true part). A network whose components are networks (of networks …) is simulated like the network of the components in them, if the
active ones are arranged as in `Opened`. Missing: networks with sources next to active components, and several networks with both active and
passive components. -/
theorem C100_nested_partial (p : Plant W) (env : SimEnv) (r : Reduced W) (hr : initNet p env = .ok (some r))
    (cs ls : List (Actor W B)) (h : Opened cs ls) (hmade : ActorsOf p ls)
    (hl : ∀ t, ∀ c ∈ ls, ∀ x z, (c.action t x z).length = z.length) (src : ℕ → ℕ → W → B → ℝ × ℝ) :
    forwardReduced r env cs src = forwardReduced r env ls src := by
  obtain ⟨-, C, -, rfl⟩ := initNet_some hr
  refine forward_action _ env cs ls src fun t x hlen => netAction_opened h t (hl t) _ x x ?_
  rw [hlen, ← numAct_count p ls hmade]
  show p.numSrc + p.numAct ≤ (p.mcOrder env).length
  unfold Plant.mcOrder
  rw [mcPorts_filter p env p.src (src_mcAt p env), mcPorts_filter p env p.act (act_mcAt p env)]
  simp only [List.length_append]
  show p.numSrc + p.numAct ≤ p.numSrc + p.numAct + _ + _
  omega

/-- A source, an amplifier and a detector, with the amplifier and the detector in a network in a network. -/
example (dt : ℝ) (q : SoaParams) (v : ℝ) (wl : W → ℝ) (env : SimEnv) (g : Gear W B)
    (hg : mkGear none (queueParts dt q) (queueConns.map Conn.text) = .ok g) (r : Reduced W)
    (hr : initNet (g.dev.plant v wl) env = .ok (some r)) (src : ℕ → ℕ → W → B → ℝ × ℝ) :
    forwardReduced r env [Part.source.gear.actor, netActor 0 [netActor 0 [(q.gear dt).actor, Part.detector.gear.actor]]] src =
      forwardReduced r env [Part.source.gear.actor, (q.gear dt).actor, Part.detector.gear.actor] src := by
  obtain ⟨d, l, hd, hG⟩ := Gears.shut_geared (queue_shut (W := W) (B := B) dt q) none
  refine C100_nested_partial (g.dev.plant v wl) env r hr _ _ (.keep _ _ _ (.last _ [(q.gear dt).actor, Part.detector.gear.actor] _ []
    (.last _ [(q.gear dt).actor, Part.detector.gear.actor] _ [] (.keep _ _ _ (.keep _ _ _ .nil)) .nil (by simp)) .nil (by simp))) ?_ ?_ src
  · have hgd : g.dev = d := by
      unfold mkGear at hg
      rw [show mkDev none ((queueParts dt q : List (Str × Gear W B)).map fun p => (p.1, p.2.dev)) (queueConns.map Conn.text) = .ok d from hd] at hg
      exact congrArg Gear.dev (Except.ok.inj hg).symm
    rw [hgd]
    have e : gearActors (queueParts dt q : List (Str × Gear W B)) (queueConns.map Conn.text) =
        [Part.source.gear.actor, (q.gear dt).actor, Part.detector.gear.actor] := by
      rw [show queueConns.map Conn.text = ["s:0:a:0".toList, "a:1:d:0".toList] by decide +kernel]
      rfl
    exact e ▸ hG.actorsOf v wl
  · have h := queue_cases (dt := dt) (q := q) (P := fun r : Str × Gear W B => ∀ t x z, (r.2.actor.action t x z).length = z.length)
      ((C98_parts .source (by simp [Part.n])).1.fills) (C98_soas _ dt q.rate).1.fills ((C98_parts .detector (by simp [Part.n])).1.fills)
    intro t c hc x z
    simp only [List.append_nil, List.mem_cons, List.not_mem_nil, or_false] at hc
    rcases hc with rfl | rfl | rfl
    · exact h _ queue_mem.1 t x z
    · exact h _ queue_mem.2.1 t x z
    · exact h _ queue_mem.2.2 t x z

/-! ## A source and an amplifier in a network of their own -/

theorem read_empty (r : Reduced W) (len : ℕ) : readBuffer r (emptyBuffer len r.m W B) = zeroF r.m W B := by
  rw [emptyBuffer_eq]
  unfold readBuffer zeroF
  have h : ∀ (s : Fields r.m W B × ℕ), s ∈ (List.replicate len (⟨fun _ => 0, fun _ => 0⟩ : Fields r.m W B)).zipIdx → s.1 = ⟨fun _ => 0, fun _ => 0⟩ := by
    intro s hs
    exact List.eq_of_mem_replicate (List.fst_mem_of_mem_zipIdx hs)
  congr 1
  · funext w
    ext k b
    refine List.sum_eq_zero fun x hx => ?_
    obtain ⟨s, hs, rfl⟩ := List.mem_map.mp hx
    rw [h s hs]
    simp
  · funext w
    ext k b
    refine List.sum_eq_zero fun x hx => ?_
    obtain ⟨s, hs, rfl⟩ := List.mem_map.mp hx
    rw [h s hs]
    simp

/-- One step of a circuit with a source, three active ports and a detector, if the action of the network is known. -/
theorem five_step {rS iS rC iC : W → Matrix (Fin 5) (Fin 5) ℝ} {seconds : Fin 5 → ℝ} {tIdx : Fin 5 → ℕ} {mask : ℕ}
    (hC : ∀ w, rC w 4 = ![0, 0, 0, 1, 0]) (hC' : iC = fun _ => 0) (env : SimEnv) (dt : ℝ)
    (hf : env.freqdomain = false) (hdt : env.dt = some dt) (ht : env.t = [0]) (cs : List (Actor W B)) (f : NodeVal W B → NodeVal W B)
    (hcs : ∀ s, ∃ a b c d, netAction 1 cs 0 [s, silent, silent, silent, silent] [s, silent, silent, silent, silent] = [a, b, c, f s, d])
    (input : ℕ → ℕ → W → B → ℝ × ℝ) :
    ∃ o, forwardReduced ⟨5, rS, iS, rC, iC, seconds, tIdx, mask, 1, 1, 3⟩ env cs input = .ok [o] ∧
      ∀ w β, o w β = [((f (fun w β => (input 0 0 w β).1, fun w β => (input 0 0 w β).2)).1 w β,
        (f (fun w β => (input 0 0 w β).1, fun w β => (input 0 0 w β).2)).2 w β)] := by
  subst hC'
  unfold forwardReduced bufferLen
  rw [if_neg (by rw [hf]; simp), hdt]
  dsimp only
  rw [Except.bind]
  rw [if_pos (Or.inl (show sliceLen 5 1 = 1 by decide)), ht]
  refine ⟨_, rfl, fun w β => ?_⟩
  obtain ⟨a, b, c, d, h⟩ := hcs (fun w β => (input 0 0 w β).1, fun w β => (input 0 0 w β).2)
  unfold stepField
  rw [read_empty]
  dsimp only
  rw [if_neg (by norm_num)]
  have hy : toNodes ((cmul rS iS (zeroF 5 W B)).add (padSource 5 1 (input 0))) =
      [(fun w β => (input 0 0 w β).1, fun w β => (input 0 0 w β).2), silent, silent, silent, silent] := by
    unfold toNodes
    simp only [List.ofFn_succ, List.ofFn_zero, cmul, zeroF, Fields.add, padSource, silent]
    simp
  rw [hy, h]
  unfold detectNodes
  simp only [List.ofFn_succ, List.ofFn_zero, cmul, ofNodes]
  simp [Matrix.mul_apply, Fin.sum_univ_succ, hC]

theorem five_reduced (p : Plant W) (env : SimEnv) (hn : p.n = 5)
    (hsrc : ∀ i : Fin p.n, p.src i = decide (i.val = 0)) (hact : ∀ i : Fin p.n, p.act i = decide (i.val = 1 ∨ i.val = 2 ∨ i.val = 3))
    (hdet : ∀ i : Fin p.n, p.det i = decide (i.val = 4)) (hC : ∀ i j : Fin p.n, i.val = 4 → p.C i j = if j.val = 3 then 1 else 0)
    (hT : p.terminated) :
    ∃ (rS iS rC iC : W → Matrix (Fin 5) (Fin 5) ℝ) (seconds : Fin 5 → ℝ) (tIdx : Fin 5 → ℕ) (mask : ℕ),
      initNet p env = .ok (some ⟨5, rS, iS, rC, iC, seconds, tIdx, mask, 1, 1, 3⟩) ∧ (∀ w, rC w 4 = ![0, 0, 0, 1, 0]) ∧ iC = fun _ => 0 := by
  obtain ⟨n, C, rS, iS, delay, src, det, act⟩ := p
  dsimp only at hn
  subst hn
  set p : Plant W := ⟨5, C, rS, iS, delay, src, det, act⟩ with hp
  obtain rfl : src = fun i => decide (i.val = 0) := funext hsrc
  obtain rfl : act = fun i => decide (i.val = 1 ∨ i.val = 2 ∨ i.val = 3) := funext hact
  obtain rfl : det = fun i => decide (i.val = 4) := funext hdet
  have hmc : ∀ i, p.mcAt env i = true := by
    intro (i : Fin 5)
    have : (p.src i || p.det i || p.act i) = true := by
      show (decide (i.val = 0) || decide (i.val = 4) || decide (i.val = 1 ∨ i.val = 2 ∨ i.val = 3)) = true
      fin_cases i <;> rfl
    unfold Plant.mcAt
    rw [this]
    rfl
  have h1 : p.mcPorts env = ([0, 1, 2, 3, 4] : List (Fin 5)) := by
    unfold Plant.mcPorts
    rw [show p.mcAt env = fun _ => true from funext hmc]
    rfl
  have h2 : p.mlPorts env = [] := by
    unfold Plant.mlPorts
    rw [show p.mcAt env = fun _ => true from funext hmc]
    rfl
  have h3 : p.mcOrder env = ([0, 1, 2, 3, 4] : List (Fin 5)) := by
    unfold Plant.mcOrder
    rw [h1]
    rfl
  have hi : initNet p env = .ok (some (reducedOf p env (fun _ => sub p.C (p.mcOrder env) (p.mcOrder env), fun _ => 0))) := by
    unfold initNet
    rw [if_neg (by rw [h1]; simp [hT]), reducedC, if_pos (by rw [h2]; rfl)]
    rfl
  rw [hi]
  unfold reducedOf
  have e1 : p.numSrc = 1 := rfl
  have e2 : p.numDet = 1 := rfl
  have e3 : p.numAct = 3 := rfl
  rw [e1, e2, e3, h3]
  refine ⟨_, _, _, _, _, _, _, rfl, fun w => ?_, rfl⟩
  funext j
  have := hC 4 (([0, 1, 2, 3, 4] : List (Fin 5)).get j) rfl
  refine Eq.trans this ?_
  fin_cases j <;> rfl

/-- A source and an amplifier. -/
noncomputable def pumpParts (dt : ℝ) (q : SoaParams) : List (Str × Gear W B) :=
  [("s".toList, Part.source.gear), ("a".toList, q.gear dt)]

def pumpConns : List Str := ["s:0:a:0".toList, "a:1:0".toList]

/-- The two in a network of their own, and a detector. -/
noncomputable def boxParts (g : Gear W B) : List (Str × Gear W B) := [("n".toList, g), ("d".toList, Part.detector.gear)]

def boxConns : List Str := ["n:0:d:0".toList]

theorem box_comp : ∃ c d, mkNet none [("s".toList, PT.source), ("a".toList, soa)] pumpConns = .ok c ∧
    mkNet none [("n".toList, c), ("d".toList, PT.detector)] boxConns = .ok d ∧ c.n = 4 ∧ c.src = [true, false, false, false] ∧ d.n = 5 ∧ d.src = [true, false, false, false, false] ∧
    d.det = [false, false, false, false, true] ∧ d.act = [false, true, true, true, false] ∧
    (∀ i < 5, 0 < ∑ j ∈ Finset.range 5, d.C i j) ∧ ∀ j < 5, d.C 4 j = if j = 3 then 1 else 0 := by
  have key : (match mkNet none [("s".toList, PT.source), ("a".toList, soa)] pumpConns with
    | .error _ => false
    | .ok c => match mkNet none [("n".toList, c), ("d".toList, PT.detector)] boxConns with
      | .error _ => false
      | .ok d => decide (c.n = 4 ∧ c.src = [true, false, false, false] ∧ d.n = 5 ∧ d.src = [true, false, false, false, false] ∧ d.det = [false, false, false, false, true] ∧
          d.act = [false, true, true, true, false]) && (List.range 5).all (fun i => decide (0 < ((List.range 5).map (d.C i)).sum)) &&
          (List.range 5).all fun j => decide (d.C 4 j = if j = 3 then 1 else 0)) = true := by decide +kernel
  cases hc : mkNet none [("s".toList, PT.source), ("a".toList, soa)] pumpConns with
  | error e => rw [hc] at key; cases key
  | ok c =>
    rw [hc] at key
    dsimp only at key
    cases hd : mkNet none [("n".toList, c), ("d".toList, PT.detector)] boxConns with
    | error e => rw [hd] at key; cases key
    | ok d =>
      rw [hd] at key
      simp only [Bool.and_eq_true, decide_eq_true_eq, List.all_eq_true, List.mem_range] at key
      obtain ⟨⟨⟨h1, h2, h3, h4, h5, h6⟩, h7⟩, h8⟩ := key
      refine ⟨c, d, rfl, hd, h1, h2, h3, h4, h5, h6, fun i hi => ?_, h8⟩
      have := h7 i hi
      simpa [Finset.sum_range_succ, List.range_succ, add_assoc] using this

/-- C100 is false of the code: a source and an amplifier in a network of their own, connected to a detector. The network with the same three components
detects nothing in the first step (`C99_row_partial`); this one detects a signal that does not depend on the source, as the amplifier acts on the
wrong ports. -/
theorem C100_violation (dt : ℝ) (q : SoaParams) (ha : 1 < q.amplification) (hs : 0 < q.startup) (hdt : 0 < dt) (v : ℝ) (wl : W → ℝ)
    (env : SimEnv) (hf : env.freqdomain = false) (he : env.dt = some dt) (ht : env.t = [0]) (src : ℕ → ℕ → W → B → ℝ × ℝ) :
    (∃ (g g' : Gear W B) (r : Reduced W), mkGear none (pumpParts dt q) pumpConns = .ok g ∧ mkGear none (boxParts g) boxConns = .ok g' ∧
      initNet (g'.dev.plant v wl) env = .ok (some r) ∧ ∃ o, forwardReduced r env (gearActors (boxParts g) boxConns) src = .ok [o] ∧
        ∃ z ≠ 0, ∀ w β, o w β = [(z, z)]) ∧
    ∃ (g : Gear W B) (r : Reduced W), mkGear none (queueParts dt q) (queueConns.map Conn.text) = .ok g ∧
      initNet (g.dev.plant v wl) env = .ok (some r) ∧ ∃ o, forwardReduced r env (gearActors (queueParts dt q) (queueConns.map Conn.text)) src = .ok [o] ∧
        ∀ w β, (o w β).map (fun z => z.1 ^ 2 + z.2 ^ 2) = [0] := by
  constructor
  · obtain ⟨c, d, hc, hd, h1, h2, h3, h4, h5, h6, h7, h8⟩ := box_comp
    have hg : ∃ g : Gear W B, mkGear none (pumpParts dt q) pumpConns = .ok g ∧ g.dev.comp = c ∧
        g.actor = netActor 1 [Part.source.gear.actor, (q.gear dt).actor] := by
      unfold mkGear mkDev
      have e : ((pumpParts dt q : List (Str × Gear W B)).map fun p => (p.1, p.2.dev)).map (fun p => (p.1, p.2.comp)) =
        [("s".toList, PT.source), ("a".toList, soa)] := rfl
      rw [e, hc]
      refine ⟨_, rfl, rfl, ?_⟩
      have e' : gearActors (pumpParts dt q : List (Str × Gear W B)) pumpConns = [Part.source.gear.actor, (q.gear dt).actor] := rfl
      dsimp only [netDev]
      rw [e', h1, h2]
      rfl
    obtain ⟨g, hg, hgc, hga⟩ := hg
    have hg' : ∃ g' : Gear W B, mkGear none (boxParts g) boxConns = .ok g' ∧ g'.dev.comp = d := by
      unfold mkGear mkDev
      have e : ((boxParts g : List (Str × Gear W B)).map fun p => (p.1, p.2.dev)).map (fun p => (p.1, p.2.comp)) =
        [("n".toList, c), ("d".toList, PT.detector)] := by rw [← hgc]; rfl
      rw [e, hd]
      exact ⟨_, rfl, rfl⟩
    obtain ⟨g', hg', hgd⟩ := hg'
    obtain ⟨dev, act'⟩ := g'
    obtain ⟨comp, rS, iS, del⟩ := dev
    dsimp only at hgd
    subst hgd
    have hactors : gearActors (boxParts g) boxConns = [netActor 1 [Part.source.gear.actor, (q.gear dt).actor], Part.detector.gear.actor] := by
      rw [← hga]; rfl
    obtain ⟨rS', iS', rC, iC, seconds, tIdx, mask, hi, hrow, hiC⟩ := five_reduced (Dev.plant ⟨comp, rS, iS, del⟩ v wl) env h3
      (fun i => by
        have hi : i.val < 5 := h3 ▸ i.isLt
        show comp.src.getD i.val false = _
        rw [h4]; generalize i.val = k at hi; interval_cases k <;> rfl)
      (fun i => by
        have hi : i.val < 5 := h3 ▸ i.isLt
        show comp.act.getD i.val false = _
        rw [h6]; generalize i.val = k at hi; interval_cases k <;> rfl)
      (fun i => by
        have hi : i.val < 5 := h3 ▸ i.isLt
        show comp.det.getD i.val false = _
        rw [h5]; generalize i.val = k at hi; interval_cases k <;> rfl)
      (fun i j hij => by
        show ((comp.C i.val j.val : ℚ) : ℝ) = _
        rw [hij, h8 j.val (h3 ▸ j.isLt)]
        split <;> simp)
      (fun i => Or.inr (by
        show 0 < ∑ k : Fin comp.n, ((comp.C i.val k.val : ℚ) : ℝ)
        rw [Finset.sum_fin_eq_sum_range (fun k : Fin comp.n => ((comp.C i.val k.val : ℚ) : ℝ))]
        have := h7 i.val (h3 ▸ i.isLt)
        have e : ∑ k ∈ Finset.range comp.n, (if h : k < comp.n then ((comp.C i.val k : ℚ) : ℝ) else 0) =
            ((∑ k ∈ Finset.range 5, comp.C i.val k : ℚ) : ℝ) := by
          rw [h3]
          push_cast
          exact Finset.sum_congr rfl fun k hk => dif_pos (Finset.mem_range.mp hk)
        rw [e]
        exact_mod_cast this))
    refine ⟨g, _, _, hg, hg', hi, ?_⟩
    rw [hactors]
    set z := dt * ((1 / q.startup) * Real.log q.amplification) with hz
    obtain ⟨o, ho, hall⟩ := five_step (W := W) (B := B) (rS := rS') (iS := iS') (seconds := seconds) (tIdx := tIdx) (mask := mask) hrow hiC env dt
      hf he ht [netActor 1 [Part.source.gear.actor, (q.gear dt).actor], Part.detector.gear.actor] (fun _ => (fun _ _ => z, fun _ _ => z))
      (fun s => by
        refine ⟨s, silent, silent, (fun w b => 0 * Real.exp (0.5 * 0), fun w b => 0 * Real.exp (0.5 * 0)), ?_⟩
        have e : (soaRate q.amplification q.startup 0 silent silent : NodeVal W B) =
            (fun _ _ => 1 / q.startup * Real.log q.amplification, fun _ _ => 1 / q.startup * Real.log q.amplification) := by
          unfold soaRate
          rw [if_pos hs]
        have e2 : netAction 1 [netActor 1 [Part.source.gear.actor, (q.gear dt).actor], Part.detector.gear.actor] 0
            [s, silent, silent, silent, silent] [s, silent, silent, silent, silent] =
            [s, silent, silent, (fun w b => 0 + dt * (soaRate q.amplification q.startup 0 silent silent : NodeVal W B).1 w b,
              fun w b => 0 + dt * (soaRate q.amplification q.startup 0 silent silent : NodeVal W B).2 w b),
              (fun w b => 0 * Real.exp (0.5 * 0), fun w b => 0 * Real.exp (0.5 * 0))] := rfl
        rw [e2, e]
        simp [hz]) src
    refine ⟨o, ho, z, ?_, fun w β => hall w β⟩
    have := Real.log_pos ha
    positivity
  · have hts : ∀ t (h : t < env.t.length), env.t[t] = t * dt := by
      rw [ht]
      intro t h
      obtain rfl : t = 0 := by simpa using h
      simp
    obtain ⟨g, r, hg, hr, h⟩ := C99_row_partial (B := B) dt q (by linarith) hs hdt v wl env hf he hts
    obtain ⟨out, ho, hlen, h⟩ := h src
    rw [ht] at hlen
    obtain ⟨o, rfl⟩ := List.length_eq_one_iff.mp hlen
    refine ⟨g, r, hg, hr, o, ho, fun w β => ?_⟩
    simpa using h 0 (by simp) w β

end PT
