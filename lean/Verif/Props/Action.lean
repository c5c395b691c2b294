import Verif.Model.Nested
import Verif.Proof.SimCore

/-!
# C40: the action of active components; C41: networks without detectors
-/

namespace PT
open Spec

variable {W B : Type}

namespace Spec

/-- A silent node. -/
def silent : NodeVal W B := (fun _ _ => 0, fun _ _ => 0)

/-- The number of the first port of a component standing after the components `before`. -/
def offset (before : List (Actor W B)) : ℕ := (before.map Actor.numPorts).sum

/-- What component `c` with first port `o` leaves at its port `j`, if the waves at the ports are `v`: its action if it is
active (given its own waves and silence to be filled), the unchanged wave otherwise. -/
def ownAction (t : ℝ) (v : ℕ → NodeVal W B) (c : Actor W B) (o j : ℕ) : NodeVal W B :=
  if c.active then
    (c.action t ((List.range c.numPorts).map fun j => v (o + j)) (List.replicate c.numPorts silent)).getD j silent
  else v (o + j)

/-- The ports of the plant are those of the components, in order; active components have only active ports. -/
structure ActorsOf {V : Type} (p : Plant V) (cs : List (Actor W B)) : Prop where
  size : p.n = offset cs
  act : ∀ before c after, cs = before ++ c :: after →
    ∀ i : Fin p.n, offset before ≤ i → (i : ℕ) < offset before + c.numPorts → p.act i = c.active

end Spec

/-! ### The active ports -/

/-- The active ports of components with first port `o`. -/
def activePorts : List (Actor W B) → ℕ → List ℕ
  | [], _ => []
  | c :: cs, o => (if c.active then List.range' o c.numPorts else []) ++ activePorts cs (o + c.numPorts)

/-- The wave at port `i` after the action of components with first port `o`. -/
def newVal (t : ℝ) (v : ℕ → NodeVal W B) : List (Actor W B) → ℕ → ℕ → NodeVal W B
  | [], _, i => v i
  | c :: cs, o, i => if i < o + c.numPorts then ownAction t v c o (i - o) else newVal t v cs (o + c.numPorts) i

theorem offset_cons (c : Actor W B) (cs : List (Actor W B)) : offset (c :: cs) = c.numPorts + offset cs := by
  simp [offset]

theorem activePorts_ge (cs : List (Actor W B)) (o i : ℕ) (h : i ∈ activePorts cs o) : o ≤ i := by
  induction cs generalizing o with
  | nil => simp [activePorts] at h
  | cons c cs ih =>
    rw [activePorts, List.mem_append] at h
    rcases h with h | h
    · split at h
      · rw [List.mem_range'_1] at h; exact h.1
      · simp at h
    · have := ih _ h; omega

theorem activePorts_filter (q : ℕ → Bool) (cs : List (Actor W B)) (o : ℕ)
    (hq : ∀ before c after, cs = before ++ c :: after →
      ∀ i, o + offset before ≤ i → i < o + offset before + c.numPorts → q i = c.active) :
    (List.range' o (offset cs)).filter q = activePorts cs o := by
  induction cs generalizing o with
  | nil => simp [activePorts, offset]
  | cons c cs ih =>
    rw [offset_cons, ← List.range'_append_1, List.filter_append, activePorts, ih]
    · congr 1
      have h0 := hq [] c cs rfl
      simp only [offset, List.map_nil, List.sum_nil, add_zero] at h0
      split
      · rename_i hc
        rw [List.filter_eq_self]
        intro i hi
        rw [List.mem_range'_1] at hi
        rw [h0 i hi.1 hi.2, hc]
      · rename_i hc
        rw [List.filter_eq_nil_iff]
        intro i hi
        rw [List.mem_range'_1] at hi
        rw [h0 i hi.1 hi.2]
        exact hc
    · intro before d after hcs i h1 h2
      exact hq (c :: before) d after (by rw [hcs]; rfl) i (by rw [offset_cons]; omega) (by rw [offset_cons]; omega)

theorem portsWith_act {V : Type} (p : Plant V) (cs : List (Actor W B)) (h : ActorsOf p cs) :
    (portsWith p.act).map Fin.val = activePorts cs 0 := by
  rw [← activePorts_filter (fun i => if hi : i < p.n then p.act ⟨i, hi⟩ else false) cs 0]
  · rw [← h.size, ← List.range_eq_range', ← List.map_coe_finRange_eq_range, List.filter_map]
    unfold portsWith
    congr 1
    apply List.filter_congr
    intro i _
    simp
  · intro before c after hcs i h1 h2
    have hn : i < p.n := by
      rw [h.size, hcs]
      simp only [offset, List.map_append, List.sum_append, List.map_cons, List.sum_cons] at h2 ⊢
      omega
    rw [dif_pos hn]
    exact h.act before c after hcs ⟨i, hn⟩ (by simpa using h1) (by simpa using h2)

/-! ### The loop -/

theorem writeAt_append {α : Type} (a b c v : List α) (h : v.length = b.length) :
    writeAt (a ++ (b ++ c)) a.length v = a ++ (v ++ c) := by
  unfold writeAt
  rw [List.take_left, ← List.drop_drop, List.drop_left, h, List.drop_left]
  congr 2
  rw [List.take_of_length_le]
  simp [h]

theorem map_own (t : ℝ) (v : ℕ → NodeVal W B) (c : Actor W B) (o : ℕ) (hc : c.active = true)
    (hl : ∀ x z, (c.action t x z).length = z.length) :
    c.action t ((List.range' o c.numPorts).map v) (((List.range' o c.numPorts).map v).map fun _ => silent) =
      (List.range' o c.numPorts).map fun i => ownAction t v c o (i - o) := by
  have e1 : (List.range' o c.numPorts).map v = (List.range c.numPorts).map fun j => v (o + j) := by
    rw [List.range'_eq_map_range, List.map_map]; rfl
  have e2 : ((List.range' o c.numPorts).map v).map (fun _ => (silent : NodeVal W B)) =
      List.replicate c.numPorts silent := by
    rw [List.map_const', List.length_map, List.length_range']
  rw [e2, e1]
  refine List.ext_getElem (by simp [hl]) fun j h1 h2 => ?_
  simp only [List.getElem_map, List.getElem_range', ownAction, hc, if_true]
  rw [show o + 1 * j - o = j by omega, List.getD_eq_getElem?_getD, List.getElem?_eq_getElem h1, Option.getD_some]

theorem actionLoop_eq (t : ℝ) (v : ℕ → NodeVal W B) (cs : List (Actor W B)) (o : ℕ)
    (hl : ∀ c ∈ cs, ∀ x z, (c.action t x z).length = z.length) (a a' rest : List (NodeVal W B))
    (ha : a'.length = a.length) :
    actionLoop t (a ++ ((activePorts cs o).map v ++ rest)) cs a.length (a' ++ ((activePorts cs o).map v ++ rest)) =
      a' ++ ((activePorts cs o).map (newVal t v cs o) ++ rest) := by
  induction cs generalizing o a a' with
  | nil => simp [actionLoop, activePorts]
  | cons c cs ih =>
    have hrest : (activePorts cs (o + c.numPorts)).map (newVal t v (c :: cs) o) =
        (activePorts cs (o + c.numPorts)).map (newVal t v cs (o + c.numPorts)) := by
      apply List.map_congr_left
      intro i hi
      have := activePorts_ge _ _ _ hi
      rw [newVal, if_neg (by omega)]
    unfold actionLoop
    split
    · rename_i hc
      simp only [activePorts, hc, if_true, List.map_append, List.append_assoc]
      have hs : ((a ++ ((List.range' o c.numPorts).map v ++
          ((activePorts cs (o + c.numPorts)).map v ++ rest))).drop a.length).take c.numPorts =
          (List.range' o c.numPorts).map v := by
        rw [List.drop_left, List.take_left' (by simp)]
      rw [hs]
      have hm := map_own t v c o hc (hl c (by simp))
      rw [show (fun _ => ((fun _ _ => 0, fun _ _ => 0) : NodeVal W B)) = fun _ : NodeVal W B => silent from rfl, hm,
        ← ha, writeAt_append _ _ _ _ (by simp)]
      have h2 := ih (o + c.numPorts) (fun d hd => hl d (by simp [hd]))
        (a ++ (List.range' o c.numPorts).map v)
        (a' ++ (List.range' o c.numPorts).map fun i => ownAction t v c o (i - o)) (by simp [ha])
      simp only [List.append_assoc, List.length_append, List.length_map, List.length_range'] at h2
      rw [ha, h2, hrest]
      congr 2
      apply List.map_congr_left
      intro i hi
      rw [List.mem_range'_1] at hi
      rw [newVal, if_pos hi.2]
    · rename_i hc
      simp only [activePorts, hc, Bool.false_eq_true, if_false, List.nil_append]
      rw [ih (o + c.numPorts) (fun d hd => hl d (by simp [hd])) a a' ha, hrest]

theorem newVal_spec (t : ℝ) (v : ℕ → NodeVal W B) (before : List (Actor W B)) (c : Actor W B)
    (after : List (Actor W B)) (o j : ℕ) (hj : j < c.numPorts) :
    newVal t v (before ++ c :: after) o (o + offset before + j) = ownAction t v c (o + offset before) j := by
  induction before generalizing o with
  | nil =>
    simp only [offset, List.map_nil, List.sum_nil, add_zero, List.nil_append]
    rw [newVal, if_pos (by omega)]
    congr 1
    omega
  | cons d before ih =>
    rw [List.cons_append, newVal, offset_cons, if_neg (by omega)]
    have := ih (o + d.numPorts)
    rwa [add_assoc o] at this

theorem newVal_passive {V : Type} (p : Plant V) (t : ℝ) (v : ℕ → NodeVal W B) (cs : List (Actor W B))
    (h : ActorsOf p cs) (i : Fin p.n) (hi : p.act i = false) : newVal t v cs 0 i = v i := by
  have key : ∀ cs' before, before ++ cs' = cs → offset before ≤ i → newVal t v cs' (offset before) i = v i := by
    intro cs'
    induction cs' with
    | nil => intros; rfl
    | cons c cs' ih =>
      intro before hb hle
      rw [newVal]
      split
      · rename_i hlt
        have := h.act before c cs' hb.symm i hle hlt
        rw [hi] at this
        rw [ownAction, ← this]
        simp only [Bool.false_eq_true, if_false]
        congr 1
        omega
      · have e : offset before + c.numPorts = offset (before ++ [c]) := by simp [offset]
        rw [e]
        exact ih (before ++ [c]) (by simp [hb]) (by rw [← e]; omega)
  exact key cs [] rfl (by simp [offset])

theorem netAction_eq {V : Type} (p : Plant V) (env : SimEnv) (hx : p.Exclusive) (cs : List (Actor W B))
    (h : ActorsOf p cs) (t : ℝ) (hl : ∀ c ∈ cs, ∀ x z, (c.action t x z).length = z.length) (v : ℕ → NodeVal W B)
    (xout : List (NodeVal W B)) :
    netAction p.numSrc cs t ((p.mcOrder env).map fun i => v i.val) xout =
      (p.mcOrder env).map fun i => newVal t v cs 0 i.val := by
  have hpas : ∀ l : List (Fin p.n), (∀ i ∈ l, p.act i = false) →
      l.map (fun i => newVal t v cs 0 i.val) = l.map fun i => v i.val := fun l hlp =>
    List.map_congr_left fun i hi => newVal_passive p t v cs h i (hlp i hi)
  unfold Plant.mcOrder
  rw [mcPorts_filter p env p.src (src_mcAt p env), mcPorts_filter p env p.act (act_mcAt p env)]
  set rest := (p.mcPorts env).filter (fun i => !(p.src i || p.act i || p.det i)) ++ (p.mcPorts env).filter p.det
  have hsrc : ∀ i ∈ portsWith p.src, p.act i = false := by
    intro i hi
    have hi' := (List.mem_filter.1 hi).2
    have := hx i
    cases hd : p.det i <;> cases ha : p.act i <;> simp_all
  have hrest : ∀ i ∈ rest, p.act i = false := by
    intro i hi
    rcases List.mem_append.1 hi with hi | hi
    · have := (List.mem_filter.1 hi).2
      simp only [Bool.not_eq_true', Bool.or_eq_false_iff] at this
      exact this.1.2
    · have hi' := (List.mem_filter.1 hi).2
      have := hx i
      cases hd : p.src i <;> cases ha : p.act i <;> simp_all
  have hact : ∀ f : ℕ → NodeVal W B, (portsWith p.act).map (fun i => f i.val) = (activePorts cs 0).map f := by
    intro f
    rw [← portsWith_act p cs h, List.map_map]; rfl
  rw [show portsWith p.src ++ portsWith p.act ++ (p.mcPorts env).filter (fun i => !(p.src i || p.act i || p.det i)) ++
    (p.mcPorts env).filter p.det = portsWith p.src ++ (portsWith p.act ++ rest) by simp [rest]]
  simp only [List.map_append (l₁ := portsWith p.src), List.map_append (l₁ := portsWith p.act)]
  rw [hpas _ hsrc, hpas _ hrest, hact v, hact (newVal t v cs 0)]
  have := actionLoop_eq t v cs 0 hl ((portsWith p.src).map fun i => v i.val) ((portsWith p.src).map fun i => v i.val)
    (rest.map fun i => v i.val) rfl
  rw [List.length_map] at this
  exact this

/-- C40 (`_partial`: what holds without nested networks that have passive ports): the node of every port of a component holds
after the action what this component leaves there, given the waves at exactly its own ports. -/
theorem C40_own_ports_partial {V : Type} (p : Plant V) (env : SimEnv) (hx : p.Exclusive) (cs : List (Actor W B))
    (h : ActorsOf p cs) (t : ℝ) (hl : ∀ c ∈ cs, ∀ x z, (c.action t x z).length = z.length) (v : ℕ → NodeVal W B)
    (xin : List (NodeVal W B)) (hxin : xin = (p.mcOrder env).map fun i => v i.val) :
    (netAction p.numSrc cs t xin xin).length = (p.mcOrder env).length ∧
    ∀ before c after, cs = before ++ c :: after → ∀ j < c.numPorts, ∀ k (hk : k < (p.mcOrder env).length),
      ((p.mcOrder env)[k] : ℕ) = offset before + j →
      (netAction p.numSrc cs t xin xin)[k]? = some (ownAction t v c (offset before) j) := by
  subst hxin
  rw [netAction_eq p env hx cs h t hl v]
  refine ⟨by simp, fun before c after hcs j hj k hk hkp => ?_⟩
  rw [List.getElem?_map, List.getElem?_eq_getElem hk, Option.map_some, hkp, hcs]
  have := newVal_spec t v before c after 0 j hj
  rw [zero_add] at this
  rw [this]

/-- A component with one port that turns the sign of what arrives there. -/
def flip1 : Actor Unit Unit := ⟨1, true, fun _ x z => (List.range z.length).map fun k =>
  (fun w b => -(x.getD k silent).1 w b, fun w b => -(x.getD k silent).2 w b)⟩

/-- A component with two passive ports. -/
def pass2 : Actor Unit Unit := ⟨2, false, fun _ _ z => z⟩

/-- Two passive ports followed by two active ones. -/
def flipPlant : Plant Unit :=
  ⟨4, 0, 0, 0, fun _ => 0, fun _ => false, fun _ => false, fun i => decide (2 ≤ i.val)⟩

def flipEnv : SimEnv := ⟨some 1, false, [0]⟩

theorem flipPlant_exclusive : flipPlant.Exclusive := by
  intro i; simp [flipPlant]

theorem flipPlant_order : flipPlant.mcOrder flipEnv = ([2, 3] : List (Fin 4)) := by
  have h0 : ∀ i, flipPlant.steps flipEnv i = 0 := by
    intro i
    simp only [Plant.steps, flipEnv, Plant.seconds, flipPlant, realTrunc]
    norm_num
  have h1 : ∀ i, flipPlant.mcAt flipEnv i = decide (2 ≤ i.val) := by
    intro i; rw [Plant.mcAt, h0]; simp [flipPlant]
  have h2 : flipPlant.mcPorts flipEnv = ([2, 3] : List (Fin 4)) := by
    unfold Plant.mcPorts
    rw [show flipPlant.mcAt flipEnv = fun i => decide (2 ≤ i.val) from funext h1]
    rfl
  unfold Plant.mcOrder
  rw [h2]
  rfl

theorem flipPlant_made : ActorsOf flipPlant [pass2, flip1, flip1] := by
  constructor
  · rfl
  · intro before c after hcs i h1 h2
    have hb : before.length < 3 := by
      have := congrArg List.length hcs
      simp at this; omega
    match before, hcs with
    | [], hcs =>
      simp only [List.nil_append, List.cons.injEq] at hcs
      rw [← hcs.1] at h2 ⊢
      simp [offset, pass2] at h1 h2
      simp [flipPlant, pass2]
      omega
    | [a], hcs =>
      simp only [List.cons_append, List.nil_append, List.cons.injEq] at hcs
      rw [← hcs.1] at h1 h2
      rw [← hcs.2.1] at h2 ⊢
      simp [offset, pass2, flip1] at h1 h2
      simp [flipPlant, flip1]
      omega
    | [a, b], hcs =>
      simp only [List.cons_append, List.nil_append, List.cons.injEq] at hcs
      rw [← hcs.1, ← hcs.2.1] at h1 h2
      rw [← hcs.2.2.1] at h2 ⊢
      simp [offset, pass2, flip1] at h1 h2
      simp [flipPlant, flip1]
      omega
    | a :: b :: c :: l, hcs => simp at hb; omega

theorem flip_length (t : ℝ) : ∀ c ∈ [pass2, flip1, flip1], ∀ x z, (c.action t x z).length = z.length := by
  intro c hc x z
  simp only [List.mem_cons, List.not_mem_nil, or_false] at hc
  rcases hc with rfl | rfl | rfl <;> simp [pass2, flip1]

/-- The negated wave. -/
def negNode (u : NodeVal Unit Unit) : NodeVal Unit Unit := (fun w b => -u.1 w b, fun w b => -u.2 w b)

example (v : ℕ → NodeVal Unit Unit) : (netAction flipPlant.numSrc [pass2, flip1, flip1] 0 [v 2, v 3] [v 2, v 3])[1]? =
    some (negNode (v 3)) :=
  (C40_own_ports_partial flipPlant flipEnv flipPlant_exclusive [pass2, flip1, flip1] flipPlant_made 0 (flip_length 0) v
    [v 2, v 3] (by rw [flipPlant_order]; rfl)).2 [pass2, flip1] flip1 [] rfl 0 (by decide) 1
      (by rw [flipPlant_order]; decide) (by simp only [flipPlant_order]; rfl)

/-- C40 is violated for nested networks with passive ports: if the first two components are put into a network of their own,
the ports and the order of the nodes are the same, but the last component no longer acts: the wave
at its port stays as it is. -/
theorem C40_violation (v : ℕ → NodeVal Unit Unit) (hv : (v 3).1 () () ≠ 0) :
    netAction flipPlant.numSrc [netActor 0 [pass2, flip1], flip1] 0 [v 2, v 3] [v 2, v 3] = [negNode (v 2), v 3] ∧
    netAction flipPlant.numSrc [pass2, flip1, flip1] 0 [v 2, v 3] [v 2, v 3] = [negNode (v 2), negNode (v 3)] ∧
    v 3 ≠ negNode (v 3) := by
  have hs : flipPlant.numSrc = 0 := by
    simp [Plant.numSrc, flipPlant]
  rw [hs]
  refine ⟨rfl, rfl, fun h => hv ?_⟩
  have := congrFun (congrFun (congrArg Prod.fst h) ()) ()
  simp only [negNode] at this
  linarith

example : netAction flipPlant.numSrc [netActor 0 [pass2, flip1], flip1] 0 [silent, (fun _ _ => 1, fun _ _ => 0)] [] =
    [negNode silent, (fun _ _ => 1, fun _ _ => 0)] :=
  (C40_violation (fun i => if i = 3 then (fun _ _ => 1, fun _ _ => 0) else silent) (by simp)).1

/-! ## C41 -/

/-- C41 is violated: in a network without detectors and with at least two nodes, every simulation of at
least one time step fails (`-0:` selects all nodes, which do not fit into an axis of length 0). -/
theorem C41_violation (r : Reduced W) (env : SimEnv) (cs : List (Actor W B)) (src : ℕ → ℕ → W → B → ℝ × ℝ)
    (hd : r.numDet = 0) (hm : 2 ≤ r.m) (ht : env.t ≠ []) (hb : ∃ len, bufferLen r env = .ok len) :
    forwardReduced r env cs src = .error .runtimeError := by
  obtain ⟨len, hb⟩ := hb
  unfold forwardReduced
  rw [hb]
  show (if _ then _ else _) = _
  have h0 : sliceLen r.m r.numDet = r.m := by simp [sliceLen, hd]
  rw [h0, hd, if_neg (by rintro (h | h); omega; exact ht h), if_neg (by omega)]

/-- Two sources facing each other. -/
def twoSources : Plant Unit :=
  ⟨2, !![0, 1; 1, 0], 0, 0, fun _ => 0, fun _ => true, fun _ => false, fun _ => false⟩

example : ∃ r, initNet twoSources flipEnv = .ok (some r) ∧ ∀ (cs : List (Actor Unit Unit)) src,
    forwardReduced r flipEnv cs src = .error .runtimeError := by
  have hmc : ∀ i, twoSources.mcAt flipEnv i = true := fun i => by simp [Plant.mcAt, twoSources]
  have h1 : twoSources.mcPorts flipEnv = ([0, 1] : List (Fin 2)) := by
    unfold Plant.mcPorts
    rw [show twoSources.mcAt flipEnv = fun _ => true from funext hmc]
    rfl
  have h2 : twoSources.mlPorts flipEnv = [] := by
    unfold Plant.mlPorts
    rw [show twoSources.mcAt flipEnv = fun _ => true from funext hmc]
    rfl
  have h3 : twoSources.mcOrder flipEnv = ([0, 1] : List (Fin 2)) := by
    unfold Plant.mcOrder
    rw [h1]
    rfl
  have ht : twoSources.terminated := by
    intro (i : Fin 2)
    left
    refine lt_of_lt_of_eq one_pos (Eq.symm ((Fin.sum_univ_two (M := ℝ) _).trans ?_))
    fin_cases i <;> simp [twoSources]
  refine ⟨reducedOf twoSources flipEnv (fun _ => sub twoSources.C _ _, fun _ => 0), ?_, fun cs src => ?_⟩
  · unfold initNet
    rw [if_neg (by rw [h1]; simp [ht]), reducedC, if_pos (by rw [h2]; rfl)]
    rfl
  · apply C41_violation
    · rfl
    · show 2 ≤ (twoSources.mcOrder flipEnv).length
      rw [h3]; exact le_refl 2
    · simp [flipEnv]
    · exact ⟨_, rfl⟩

/-- C41 (what holds): a network with one node and no detector returns no detected fields, for every time step. -/
theorem C41_single_node_partial (r : Reduced W) (env : SimEnv) (cs : List (Actor W B)) (src : ℕ → ℕ → W → B → ℝ × ℝ)
    (hd : r.numDet = 0) (hm : r.m = 1) (len : ℕ) (hb : bufferLen r env = .ok len) (ht : env.t ≠ []) :
    ∃ out, forwardReduced r env cs src = .ok out ∧ out.length = env.t.length ∧ ∀ o ∈ out, ∀ w b, o w b = [] := by
  have hlen : ∀ (ts : List ℝ) i buf, (simulate r cs (fun i => padSource r.m r.numSrc (src i)) ts i buf).length =
      ts.length := by
    intro ts
    induction ts with
    | nil => intros; rfl
    | cons t ts ih => intro i buf; simp [simulate, ih]
  have h0 : sliceLen r.m r.numDet = r.m := by simp [sliceLen, hd]
  refine ⟨(simulate r cs (fun i => padSource r.m r.numSrc (src i)) env.t 0 (emptyBuffer len r.m W B)).map
    fun _ _ _ => [], ?_, by simp [hlen], ?_⟩
  · unfold forwardReduced
    rw [hb]
    show (if _ then _ else _) = _
    rw [h0, hd, if_neg (by rintro (h | h); omega; exact ht h), if_pos hm]
  · intro o ho w b
    obtain ⟨_, _, rfl⟩ := List.mem_map.1 ho
    rfl

/-- A network of one node. -/
def oneNode : Reduced Unit := ⟨1, 0, 0, fun _ => 1, 0, fun _ => 0, fun _ => 0, 1, 1, 0, 0⟩

example : ∃ out, forwardReduced oneNode flipEnv ([] : List (Actor Unit Unit)) (fun _ _ _ _ => (1, 0)) = .ok out ∧
    out.length = 1 := by
  obtain ⟨out, h1, h2, -⟩ := C41_single_node_partial oneNode flipEnv ([] : List (Actor Unit Unit))
    (fun _ _ _ _ => (1, 0)) rfl rfl _ rfl (by simp [flipEnv])
  exact ⟨out, h1, h2⟩

end PT
