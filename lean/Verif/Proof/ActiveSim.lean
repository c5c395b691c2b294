import Verif.Proof.SimSolve
import Verif.Spec.Active

/-!
# The simulation of circuits with active components solves the circuit equations
-/

namespace PT
open Matrix Spec

variable {W B : Type}

/-- The complex value of a node. -/
def NodeVal.cval (x : NodeVal W B) (w : W) (β : B) : ℂ := ⟨x.1 w β, x.2 w β⟩

theorem cval_node (z : W → B → ℂ) (w : W) (β : B) : (node z).cval w β = z w β := rfl

theorem node_cval (x : NodeVal W B) : node (fun w β => x.cval w β) = x := rfl

/-- Every port belongs to a component. -/
theorem port_owner (cs : List (Actor W B)) (i : ℕ) (hi : i < offset cs) :
    ∃ before c after j, cs = before ++ c :: after ∧ j < c.numPorts ∧ i = offset before + j := by
  induction cs generalizing i with
  | nil => simp [offset] at hi
  | cons c cs ih =>
    rw [offset_cons] at hi
    by_cases h : i < c.numPorts
    · exact ⟨[], c, cs, i, rfl, h, by simp [offset]⟩
    · obtain ⟨before, c', after, j, h1, h2, h3⟩ := ih (i - c.numPorts) (by omega)
      exact ⟨c :: before, c', after, j, by rw [h1]; rfl, h2, by rw [offset_cons]; omega⟩

/-- The action at a port depends on the waves at this port and at the active ports only. -/
theorem newVal_congr {V : Type} (p : Plant V) (cs : List (Actor W B)) (h : ActorsOf p cs) (t : ℝ) (v v' : ℕ → NodeVal W B)
    (i : Fin p.n) (hi : v i = v' i) (hv : ∀ k : Fin p.n, p.act k = true → v k = v' k) :
    newVal t v cs 0 i = newVal t v' cs 0 i := by
  obtain ⟨before, c, after, j, hcs, hj, hij⟩ := port_owner cs i (by rw [← h.size]; exact i.isLt)
  have e1 := newVal_spec t v before c after 0 j hj
  have e2 := newVal_spec t v' before c after 0 j hj
  rw [zero_add, ← hcs, ← hij] at e1 e2
  rw [e1, e2]
  unfold ownAction
  split
  · rename_i hc
    congr 2
    apply List.map_congr_left
    intro k hk
    rw [List.mem_range] at hk
    have hlt : offset before + k < p.n := by
      rw [h.size, hcs]
      simp only [offset, List.map_append, List.sum_append, List.map_cons, List.sum_cons]
      omega
    refine hv ⟨_, hlt⟩ ?_
    rw [h.act before c after hcs ⟨_, hlt⟩ (by simp) (by simp; omega), hc]
  · rw [← hij, hi]

/-- One step of the simulation, for any components. -/
theorem traj_any (r : Reduced W) (cs : List (Actor W B)) (src : ℕ → Fields r.m W B) (len : ℕ) (hlen : 0 < len)
    (hidx : ∀ k, r.tIdx k < len) (ts : List ℝ)
    (xs : List (Fields r.m W B)) (hxs : xs = simulate r cs src ts 0 (emptyBuffer len r.m W B))
    (j : ℕ) (hj : j < ts.length) :
    ∃ y : Fields r.m W B,
      (∀ w b, y.val w b = cx (r.rS w) (r.iS w) *ᵥ delayed (fun k => r.tIdx k + 1) (traj xs w b) j + (src j).val w b) ∧
      ∀ w b, traj xs w b j = cx (r.rC w) (r.iC w) *ᵥ
        (if r.numAct = 0 then y else ofNodes r.m (netAction r.numSrc cs ts[j] (toNodes y) (toNodes y))).val w b := by
  have hlen' : xs.length = ts.length := by rw [hxs, simulate_length]
  have h := simulate_get r cs src len hlen ts 0 [] j hj xs (by
    rw [hxs, emptyBuffer_eq, List.nil_append, List.take_of_length_le (by simp)])
  refine ⟨(cmul r.rS r.iS (readBuffer r
      ((((xs.take j).reverse ++ []) ++ List.replicate len (zeroF r.m W B)).take len))).add (src (0 + j)),
      fun w b => ?_, fun w b => ?_⟩
  · rw [add_val, cmul_val, read_history r xs len j hidx (by omega), zero_add]
  · have h2 : traj xs w b j = Fields.val (stepField r cs ts[j] (src (0 + j))
      ((((xs.take j).reverse ++ []) ++ List.replicate len (zeroF r.m W B)).take len)) w b := by
      funext k
      rw [traj, h]
      rfl
    rw [h2, stepField, cmul_val]

section
variable (p : Plant W) (env : SimEnv) (hx : p.Exclusive)
  (C : (W → Matrix (Fin (p.mcOrder env).length) (Fin (p.mcOrder env).length) ℝ) ×
      (W → Matrix (Fin (p.mcOrder env).length) (Fin (p.mcOrder env).length) ℝ))
  (hC : reducedC p.C p.rS p.iS (p.mcOrder env) (p.mlPorts env) = .ok C)
  (cs : List (Actor W B)) (hmade : ActorsOf p cs)
  (hl : ∀ t, ∀ c ∈ cs, ∀ x z, (c.action t x z).length = z.length)
  (src : ℕ → ℕ → W → B → ℝ × ℝ) (len : ℕ) (hlen : 0 < len)
  (hidx : ∀ k, (reducedOf p env C).tIdx k < len)
  (xs : List (Fields (p.mcOrder env).length W B))
  (hxs : xs = simulate (reducedOf p env C) cs
    (fun i => padSource (p.mcOrder env).length p.numSrc (src i)) env.t 0
    (emptyBuffer len (p.mcOrder env).length W B))

/-- The waves leaving the memory ports before the action. -/
noncomputable def before (p : Plant W) (env : SimEnv) (xs : List (Fields (p.mcOrder env).length W B))
    (src : ℕ → ℕ → W → B → ℝ × ℝ) (t : ℕ) (w : W) (β : B) : Fin (p.mcOrder env).length → ℂ :=
  pick (p.Sx w) (p.mcOrder env) (p.mcOrder env) *ᵥ
    delayed (fun k => p.stepDelay env ((p.mcOrder env).get k)) (traj xs w β) t +
    emitted p.src (channels src w β t) ∘ (p.mcOrder env).get

include hx hC hmade hl hlen hidx hxs in
theorem traj_active (t : ℕ) (ht : t < env.t.length) (v : ℕ → NodeVal W B)
    (hv : ∀ k, v ((p.mcOrder env).get k) = node fun w β => before p env xs src t w β k) (w : W) (β : B) :
    traj xs w β t = redC p.Cx (p.Sx w) (p.mcOrder env) (p.mlPorts env) *ᵥ
      fun k => (newVal env.t[t] v cs 0 ((p.mcOrder env).get k)).cval w β := by
  obtain ⟨y, hy1, hy2⟩ := traj_any (reducedOf p env C) cs (fun i => padSource (p.mcOrder env).length p.numSrc (src i)) len hlen
    hidx env.t xs hxs t ht
  have e1 : cx ((reducedOf p env C).rC w) ((reducedOf p env C).iC w) =
      redC p.Cx (p.Sx w) (p.mcOrder env) (p.mlPorts env) := (reduced_redC p env C w hC).2
  refine (hy2 w β).trans ?_
  rw [e1]
  congr 1
  have hyv : ∀ w β, y.val w β = before p env xs src t w β := by
    intro w β
    have e2 : (fun k => (reducedOf p env C).tIdx k + 1) =
        fun k => p.stepDelay env ((p.mcOrder env).get k) := by
      funext k
      exact (stepDelay_mc p env _ ((mem_mcOrder p env _).1 (List.get_mem _ k))).symm
    have e3 := padSource_val p env hx (src t) w β
    have e4 : cx ((reducedOf p env C).rS w) ((reducedOf p env C).iS w) =
        pick (p.Sx w) (p.mcOrder env) (p.mcOrder env) := (pick_cx _ _ _ _).symm
    refine (hy1 w β).trans ?_
    rw [e2, e4]
    exact congrArg (fun b => pick (p.Sx w) (p.mcOrder env) (p.mcOrder env) *ᵥ
      delayed (fun k => p.stepDelay env ((p.mcOrder env).get k)) (traj xs w β) t + b) e3
  have hnodes : toNodes y = (p.mcOrder env).map fun i => v i.val := by
    unfold toNodes
    conv_rhs => rw [← List.ofFn_get (p.mcOrder env), List.map_ofFn]
    congr 1
    funext k
    refine Eq.trans ?_ (hv k).symm
    have : ∀ w β, (y.re w k β, y.im w k β) = ((before p env xs src t w β k).re, (before p env xs src t w β k).im) := by
      intro w β
      rw [← congrFun (hyv w β) k]
      rfl
    refine Prod.ext ?_ ?_
    · funext w β
      exact congrArg Prod.fst (this w β)
    · funext w β
      exact congrArg Prod.snd (this w β)
  funext k
  by_cases hna : p.numAct = 0
  · rw [if_pos (show (reducedOf p env C).numAct = 0 from hna)]
    have hact : ∀ i, p.act i = false := by
      intro i
      by_contra hc
      have hc' : p.act i = true := by simpa using hc
      have : i ∈ (List.finRange p.n).filter p.act := List.mem_filter.2 ⟨List.mem_finRange i, hc'⟩
      rw [List.length_eq_zero_iff.1 hna] at this
      cases this
    rw [newVal_passive p env.t[t] v cs hmade _ (hact _), hv k, cval_node]
    exact congrFun (hyv w β) k
  · rw [if_neg (show ¬ (reducedOf p env C).numAct = 0 from hna)]
    have hn := netAction_eq p env hx cs hmade env.t[t] (hl _) v (toNodes y)
    rw [← hnodes] at hn
    have hgoal : ((ofNodes (p.mcOrder env).length ((p.mcOrder env).map fun i => newVal env.t[t] v cs 0 i.val)).val w β k) =
        (newVal env.t[t] v cs 0 ((p.mcOrder env).get k)).cval w β := by
      have hg : ((p.mcOrder env).map fun i => newVal env.t[t] v cs 0 i.val).getD k (fun _ _ => 0, fun _ _ => 0) =
          newVal env.t[t] v cs 0 ((p.mcOrder env).get k) := by
        rw [List.getD_eq_getElem?_getD, List.getElem?_map, List.getElem?_eq_getElem k.isLt]
        rfl
      rw [← hg]
      rfl
    rw [← hgoal, ← hn]
    rfl

/-- The waves leaving all ports before the action. -/
noncomputable def leaving (p : Plant W) (d : Fin p.n → ℕ) (a : ℕ → W → B → Fin p.n → ℂ) (s : ℕ → W → B → Fin p.n → ℂ) (t : ℕ)
    (w : W) (β : B) : Fin p.n → ℂ := p.Sx w *ᵥ delayed d (fun t => a t w β) t + s t w β

theorem outgoing_newVal (cs : List (Actor W B)) (hmade : ActorsOf p cs) (d : Fin p.n → ℕ) (ts : List ℝ) (s a b : ℕ → W → B → Fin p.n → ℂ) :
    (∀ t (ht : t < ts.length), ∀ before c after, cs = before ++ c :: after →
      ∀ (i : Fin p.n) (j : ℕ), j < c.numPorts → (i : ℕ) = offset before + j →
      node (fun w β => b t w β i) = ownAction ts[t] (nodes (leaving p d a s t)) c (offset before) j) ↔
    ∀ t (ht : t < ts.length), ∀ i : Fin p.n, node (fun w β => b t w β i) = newVal ts[t] (nodes (leaving p d a s t)) cs 0 i := by
  constructor
  · intro h t ht i
    obtain ⟨bf, c, after, j, hcs, hj, hij⟩ := port_owner cs i (by rw [← hmade.size]; exact i.isLt)
    have e := newVal_spec ts[t] (nodes (leaving p d a s t)) bf c after 0 j hj
    rw [zero_add, ← hcs, ← hij] at e
    rw [e]
    exact h t ht bf c after hcs i j hj hij
  · intro h t ht bf c after hcs i j hj hij
    have e := newVal_spec ts[t] (nodes (leaving p d a s t)) bf c after 0 j hj
    rw [zero_add, ← hcs, ← hij] at e
    rw [← e]
    exact h t ht i

theorem nodes_fin {n : ℕ} (y : W → B → Fin n → ℂ) (i : Fin n) : nodes y i = node fun w β => y w β i := by
  unfold nodes
  rw [dif_pos i.isLt]

theorem act_of_ml (i : Fin p.n) (h : p.mcAt env i = false) : p.act i = false := by
  by_contra hc
  have := act_mcAt p env i (by simpa using hc)
  rw [h] at this
  cases this

theorem src_of_ml (i : Fin p.n) (h : p.mcAt env i = false) : p.src i = false := by
  by_contra hc
  have := src_mcAt p env i (by simpa using hc)
  rw [h] at this
  cases this

include hx hC hmade hl hlen hidx hxs in
/-- Every solution agrees with the simulation on the memory ports. -/
theorem active_unique (hmix : ∀ w, p.NoMix env w) (a b' : ℕ → W → B → Fin p.n → ℂ)
    (hs : ActiveSolves p.Cx p.Sx (p.stepDelay env) env.t cs (fun t w β => emitted p.src (channels src w β t)) a b')
    (t : ℕ) (ht : t < env.t.length) (w : W) (β : B) :
    a t w β ∘ (p.mcOrder env).get = traj xs w β t := by
  have hout := (outgoing_newVal p cs hmade _ env.t _ a b').1 hs.outgoing
  induction t using Nat.strong_induction_on generalizing w β with
  | _ t ih =>
    have hsp := plant_splits p env hx
    have hml : ∀ k, p.stepDelay env ((p.mlPorts env).get k) = 0 := fun k =>
      stepDelay_ml p env _ ((mem_mlPorts p env _).1 (List.get_mem _ k))
    have hmc : ∀ k, p.stepDelay env ((p.mcOrder env).get k) ≠ 0 := fun k => by
      rw [stepDelay_mc p env _ ((mem_mcOrder p env _).1 (List.get_mem _ k))]; omega
    set y := leaving p (p.stepDelay env) a (fun t w β => emitted p.src (channels src w β t)) with hy
    have hbefore : ∀ w β, y t w β ∘ (p.mcOrder env).get = before p env xs src t w β := by
      intro w β
      have h1 : y t w β ∘ (p.mcOrder env).get = (p.Sx w *ᵥ delayed (p.stepDelay env) (fun t => a t w β) t) ∘
        (p.mcOrder env).get + emitted p.src (channels src w β t) ∘ (p.mcOrder env).get := rfl
      rw [h1, hsp.mulVec, (noMix_decoupled p env w (hmix w)).1, Matrix.zero_mulVec, add_zero]
      unfold before
      congr 2
      funext k
      simp only [Function.comp_apply, delayed]
      split
      · have hlt : t - p.stepDelay env ((p.mcOrder env).get k) < t := by
          have := hmc k; omega
        exact congrFun (ih _ hlt (by omega) w β) k
      · rfl
    rw [traj_active p env hx C hC cs hmade hl src len hlen hidx xs hxs t ht (nodes (y t)) (fun k => by
      rw [nodes_fin]
      congr 1
      funext w β
      exact congrFun (hbefore w β) k) w β]
    have hb : (fun k => (newVal env.t[t] (nodes (y t)) cs 0 ((p.mcOrder env).get k)).cval w β) =
        b' t w β ∘ (p.mcOrder env).get := by
      funext k
      rw [← hout t ht]
      rfl
    rw [hb]
    have hbml : ∀ k, b' t w β ((p.mlPorts env).get k) = y t w β ((p.mlPorts env).get k) := by
      intro k
      have hm := (mem_mlPorts p env _).1 (List.get_mem (p.mlPorts env) k)
      have := hout t ht ((p.mlPorts env).get k)
      rw [newVal_passive p env.t[t] _ cs hmade _ (act_of_ml p env _ hm), nodes_fin] at this
      exact congrArg (fun x => NodeVal.cval x w β) this
    have key := (hsp.reduce p.Cx (p.Sx w) (noMix_decoupled p env w (hmix w))
      (reduced_redC p env C w hC).1 (a t w β) (b' t w β) (delayed (p.stepDelay env) (fun t => a t w β) t)
      (b' t w β - p.Sx w *ᵥ delayed (p.stepDelay env) (fun t => a t w β) t) (hs.incoming t ht w β) (by simp)
      (by funext k; simp only [Function.comp_apply, delayed, hml k]; simp)
      (by
        funext k
        have hm := (mem_mlPorts p env _).1 (List.get_mem (p.mlPorts env) k)
        simp only [Function.comp_apply, Pi.sub_apply, Pi.zero_apply]
        rw [hbml k, hy]
        simp only [leaving, Pi.add_apply, emitted, src_of_ml p env _ hm]
        simp)).2
    rw [key]
    congr 1
    have : (p.Sx w *ᵥ delayed (p.stepDelay env) (fun t => a t w β) t) ∘ (p.mcOrder env).get =
        pick (p.Sx w) (p.mcOrder env) (p.mcOrder env) *ᵥ
          (delayed (p.stepDelay env) (fun t => a t w β) t ∘ (p.mcOrder env).get) := by
      rw [hsp.mulVec, (noMix_decoupled p env w (hmix w)).1, Matrix.zero_mulVec, add_zero]
    rw [← this]
    funext k
    simp

include hx hC hmade hl hlen hidx hxs in
/-- There is a solution. -/
theorem active_exists (hmix : ∀ w, p.NoMix env w) : ∃ a b', ActiveSolves p.Cx p.Sx (p.stepDelay env) env.t cs
      (fun t w β => emitted p.src (channels src w β t)) a b' := by
  have hsp := plant_splits p env hx
  have hml : ∀ k, p.stepDelay env ((p.mlPorts env).get k) = 0 := fun k =>
    stepDelay_ml p env _ ((mem_mlPorts p env _).1 (List.get_mem _ k))
  set v : ℕ → ℕ → NodeVal W B := fun t => nodes fun w β => hsp.join (before p env xs src t w β) 0 with hvdef
  have hv : ∀ t k, v t ((p.mcOrder env).get k) = node fun w β => before p env xs src t w β k := by
    intro t k
    rw [hvdef]
    simp only
    rw [nodes_fin]
    congr 1
    funext w β
    exact hsp.join_mc _ _ k
  set post : ℕ → W → B → Fin (p.mcOrder env).length → ℂ := fun t w β k =>
    (newVal (env.t.getD t 0) (v t) cs 0 ((p.mcOrder env).get k)).cval w β with hpost
  have hstep := fun t w β => hsp.extend p.Cx (p.Sx w) (noMix_decoupled p env w (hmix w))
      (reduced_redC p env C w hC).1
      (delayed (fun k => p.stepDelay env ((p.mcOrder env).get k)) (traj xs w β) t)
      (hsp.join (post t w β - pick (p.Sx w) (p.mcOrder env) (p.mcOrder env) *ᵥ
        delayed (fun k => p.stepDelay env ((p.mcOrder env).get k)) (traj xs w β) t) 0) (by
          funext k
          exact hsp.join_ml _ _ k)
  choose a b' h1 h2 h3 using hstep
  have hmem : ∀ t, t < env.t.length → ∀ w β, a t w β ∘ (p.mcOrder env).get = traj xs w β t := by
    intro t ht w β
    rw [h3 t w β, traj_active p env hx C hC cs hmade hl src len hlen hidx xs hxs t ht (v t) (hv t) w β]
    congr 1
    have : hsp.join (post t w β - pick (p.Sx w) (p.mcOrder env) (p.mcOrder env) *ᵥ
        delayed (fun k => p.stepDelay env ((p.mcOrder env).get k)) (traj xs w β) t) 0 ∘ (p.mcOrder env).get =
        post t w β - pick (p.Sx w) (p.mcOrder env) (p.mcOrder env) *ᵥ
          delayed (fun k => p.stepDelay env ((p.mcOrder env).get k)) (traj xs w β) t := funext fun k => hsp.join_mc _ _ k
    rw [this]
    funext k
    simp [hpost, List.getD_eq_getElem?_getD, List.getElem?_eq_getElem ht]
  have hdel : ∀ t, t < env.t.length → ∀ w β, delayed (p.stepDelay env) (fun t => a t w β) t =
      hsp.join (delayed (fun k => p.stepDelay env ((p.mcOrder env).get k)) (traj xs w β) t)
        (a t w β ∘ (p.mlPorts env).get) := by
    intro t ht w β
    apply hsp.ext
    · intro k
      rw [hsp.join_mc]
      simp only [delayed]
      split
      · exact congrFun (hmem _ (by omega) w β) k
      · rfl
    · intro k
      rw [hsp.join_ml]
      simp only [delayed, hml k, Nat.zero_le, if_true, Nat.sub_zero, Function.comp_apply]
  refine ⟨a, b', fun t _ => h1 t, (outgoing_newVal p cs hmade _ env.t _ a b').2 fun t ht i => ?_⟩
  set y := leaving p (p.stepDelay env) a (fun t w β => emitted p.src (channels src w β t)) t with hy
  have hymc : ∀ w β k, y w β ((p.mcOrder env).get k) = before p env xs src t w β k := by
    intro w β k
    have h1 : y w β ∘ (p.mcOrder env).get = (p.Sx w *ᵥ delayed (p.stepDelay env) (fun t => a t w β) t) ∘
        (p.mcOrder env).get + emitted p.src (channels src w β t) ∘ (p.mcOrder env).get := rfl
    have h2 : y w β ∘ (p.mcOrder env).get = before p env xs src t w β := by
      rw [h1, hsp.mulVec, (noMix_decoupled p env w (hmix w)).1, Matrix.zero_mulVec, add_zero, hdel t ht w β]
      unfold before
      congr 2
      funext k
      exact hsp.join_mc _ _ k
    exact congrFun h2 k
  have hcong : ∀ k, newVal env.t[t] (nodes y) cs 0 ((p.mcOrder env).get k) =
      newVal env.t[t] (v t) cs 0 ((p.mcOrder env).get k) := by
    have hmcv : ∀ k, nodes y ((p.mcOrder env).get k) = v t ((p.mcOrder env).get k) := by
      intro k
      rw [nodes_fin, hv]
      congr 1
      funext w β
      exact hymc w β k
    intro k
    apply newVal_congr p cs hmade _ _ _ _ (hmcv k)
    intro i hi
    obtain ⟨k', hk'⟩ := List.get_of_mem ((mem_mcOrder p env i).2 (act_mcAt p env i hi))
    rw [← hk']
    exact hmcv k'
  rcases hsp.2 i with hi | hi
  · obtain ⟨k, rfl⟩ := List.get_of_mem hi
    rw [hcong k]
    have hb : ∀ w β, b' t w β ((p.mcOrder env).get k) = post t w β k := by
      intro w β
      have e : b' t w β ∘ (p.mcOrder env).get = post t w β := by
        rw [h2 t w β]
        have e1 : ∀ f g : Fin p.n → ℂ, (f + g) ∘ (p.mcOrder env).get = f ∘ (p.mcOrder env).get + g ∘ (p.mcOrder env).get :=
          fun _ _ => rfl
        rw [e1, hsp.mulVec, (noMix_decoupled p env w (hmix w)).1, Matrix.zero_mulVec, add_zero]
        have e2 : ∀ u x, hsp.join u x ∘ (p.mcOrder env).get = u := fun u x => funext fun k => hsp.join_mc _ _ k
        rw [e2, e2]
        simp
      exact congrFun e k
    have : post t = fun w β k => (newVal env.t[t] (v t) cs 0 ((p.mcOrder env).get k)).cval w β := by
      rw [hpost]
      simp [List.getD_eq_getElem?_getD, List.getElem?_eq_getElem ht]
    rw [show (fun w β => b' t w β ((p.mcOrder env).get k)) = fun w β => post t w β k from funext₂ fun w β => hb w β, this]
    exact node_cval _
  · obtain ⟨k, rfl⟩ := List.get_of_mem hi
    have hm := (mem_mlPorts p env _).1 hi
    rw [newVal_passive p env.t[t] _ cs hmade _ (act_of_ml p env _ hm), nodes_fin]
    congr 1
    funext w β
    rw [h2 t w β, hy]
    simp only [leaving, Pi.add_apply, emitted, src_of_ml p env _ hm]
    rw [hsp.join_ml, hdel t ht w β]
    simp

end

/-- The simulation with active components returns the incoming waves at the detectors of every solution of the circuit
equations, and there is one. -/
theorem active_correct (p : Plant W) (env : SimEnv) (hx : p.Exclusive) (hd : p.numDet ≠ 0)
    (hdt : env.freqdomain = true ∨ ∃ dt, env.dt = some dt ∧ 0 < dt)
    (hmix : ∀ w, p.NoMix env w) (r : Reduced W) (hr : initNet p env = .ok (some r))
    (cs : List (Actor W B)) (hmade : ActorsOf p cs) (hl : ∀ t, ∀ c ∈ cs, ∀ x z, (c.action t x z).length = z.length)
    (src : ℕ → ℕ → W → B → ℝ × ℝ) :
    ∃ out, forwardReduced r env cs src = .ok out ∧ out.length = env.t.length ∧
      (∃ a b', ActiveSolves p.Cx p.Sx (p.stepDelay env) env.t cs (fun t w β => emitted p.src (channels src w β t)) a b') ∧
      ∀ a b', ActiveSolves p.Cx p.Sx (p.stepDelay env) env.t cs (fun t w β => emitted p.src (channels src w β t)) a b' →
        ∀ t (ht : t < out.length) w β, out[t] w β = (portsWith p.det).map fun i => ((a t w β i).re, (a t w β i).im) := by
  obtain ⟨-, C, hC, rfl⟩ := initNet_some hr
  obtain ⟨len, hlen, hpos, hidx⟩ := bufferLen_ok p env C hdt
  generalize hxs : simulate (reducedOf p env C) cs
    (fun i => padSource (p.mcOrder env).length p.numSrc (src i)) env.t 0
    (emptyBuffer len (p.mcOrder env).length W B) = xs
  have hf := forward_eq p env C hd cs src len hlen
  rw [hxs] at hf
  have hlx : xs.length = env.t.length := by rw [← hxs]; exact simulate_length _ _ _ _ _ _
  refine ⟨_, hf, by rw [List.length_map]; exact hlx, ?_, ?_⟩
  · exact active_exists p env hx C hC cs hmade hl src len hpos hidx xs hxs.symm hmix
  · intro a b' hs t ht w β
    have ht' : t < xs.length := by rw [List.length_map] at ht; exact ht
    rw [List.getElem_map]
    apply detectNodes_eq p env hd
    rw [active_unique p env hx C hC cs hmade hl src len hpos hidx xs hxs.symm hmix a b' hs t (hlx ▸ ht') w β]
    funext k
    show ((xs[t]?).map fun x => x.val w β k).getD 0 = _
    rw [List.getElem?_eq_getElem ht']
    rfl

end PT
