import Verif.Proof.Stack
import Verif.Proof.Basic

/-!
# C08, C09, C10, C22: frozen environments and lexical scoping
-/

namespace PT
open Spec

/-! ## C08 Environments are frozen -/

/-- An assignment statement: `env.name = v` or `env[name] = v`. -/
def Spec.IsAssignment {V : Type} : AttrOp V → Prop
  | .setattr _ _ => True
  | .setitem _ _ => True
  | .delattr _ => False

/-- C08. Whatever attributes the constructor stores, after it has finished every sequence of
assignments fails at every single step and changes no attribute. -/
theorem C08_frozen {V : Type} (truthy : V → Bool) (yes : V) (hyes : truthy yes = true)
    (kvs : List (List Char × V)) (ops : List (AttrOp V)) (hops : ∀ op ∈ ops, IsAssignment op) :
    let env := (constructAttrs truthy yes kvs).1
    (runAttrOps truthy env ops).1 = env ∧
      (runAttrOps truthy env ops).2 = List.replicate ops.length (.error .attributeError) := by
  intro env
  have hlock : (env.dict initializedName).any truthy = true := by
    have key : ∀ (l : List (AttrOp V)) (o : Locked V), (∀ op ∈ l, ∃ n v, op = .setattr n v) →
        (((runAttrOps truthy o (l ++ [AttrOp.setattr initializedName yes])).1.dict
          initializedName).any truthy) = true := by
      intro l
      induction l with
      | nil =>
        intro o _
        by_cases h : (o.dict initializedName).any truthy = true
        · simp [runAttrOps, AttrOp.run, h]
        · simp [runAttrOps, AttrOp.run, h, hyes]
      | cons op l ih =>
        intro o h
        exact ih _ (fun op' h' => h op' (List.mem_cons_of_mem _ h'))
    exact key _ _ (by intro op h; obtain ⟨kv, -, rfl⟩ := List.mem_map.mp h; exact ⟨_, _, rfl⟩)
  clear_value env
  induction ops with
  | nil => simp [runAttrOps]
  | cons op ops ih =>
    have ih' := ih (fun o h => hops o (List.mem_cons_of_mem _ h))
    have h1 : op.run truthy env = (env, .error .attributeError) := by
      have := hops op (by simp)
      cases op with
      | setattr n v => simp [AttrOp.run, hlock]
      | setitem n v => rfl
      | delattr n => exact absurd this id
    simp only [runAttrOps, h1, List.length_cons, List.replicate_succ]
    exact ⟨ih'.1, by rw [ih'.2]⟩

/-- C08, the attributes stored by the constructor are the ones that were assigned (so the theorem
above is about an object that really has them), as long as the constructor does not itself assign
`_initialized` before the end and assigns every name once. -/
theorem C08_stored {V : Type} (truthy : V → Bool) (yes : V) (kvs : List (List Char × V))
    (hnd : (kvs.map Prod.fst).Nodup) (hni : initializedName ∉ kvs.map Prod.fst) (n : List Char) (v : V)
    (h : (n, v) ∈ kvs) : (constructAttrs truthy yes kvs).1.dict n = some v := by
  have key : ∀ (l : List (List Char × V)) (o : Locked V), (l.map Prod.fst).Nodup →
      initializedName ∉ l.map Prod.fst → o.dict initializedName = none →
      ∀ m, m ≠ initializedName →
      (runAttrOps truthy o (l.map (fun kv => AttrOp.setattr kv.1 kv.2) ++
        [AttrOp.setattr initializedName yes])).1.dict m =
        match l.find? (fun kv => kv.1 = m) with | some kv => some kv.2 | none => o.dict m := by
    intro l
    induction l with
    | nil =>
      intro o _ _ ho m hm
      simp [runAttrOps, AttrOp.run, ho, hm]
    | cons kv l ih =>
      intro o hd hn ho m hm
      simp only [List.map_cons, List.nodup_cons, List.mem_cons, not_or] at hd hn
      have hr : (AttrOp.setattr kv.1 kv.2).run truthy o =
          (⟨fun m => if m = kv.1 then some kv.2 else o.dict m⟩, .ok ()) := by
        simp [AttrOp.run, ho]
      simp only [List.map_cons, List.cons_append, runAttrOps, hr]
      rw [ih _ hd.2 hn.2 (by simp [hn.1, ho]) m hm]
      by_cases hkm : kv.1 = m
      · subst hkm
        have : l.find? (fun kv' => decide (kv'.1 = kv.1)) = none := by
          rw [List.find?_eq_none]
          intro x hx
          simp only [decide_eq_true_eq]
          intro hxe
          exact hd.1 (hxe ▸ List.mem_map_of_mem hx)
        simp [this]
      · have : ¬ m = kv.1 := fun h => hkm h.symm
        simp [List.find?_cons, hkm, this]
  have hne : n ≠ initializedName := by
    rintro rfl
    exact hni (List.mem_map_of_mem (f := Prod.fst) h)
  unfold constructAttrs
  rw [key kvs _ hnd hni rfl n hne]
  have : kvs.find? (fun kv => decide (kv.1 = n)) = some (n, v) := by
    clear key
    induction kvs with
    | nil => simp at h
    | cons kv l ih =>
      simp only [List.map_cons, List.nodup_cons, List.mem_cons, not_or] at hnd hni
      rcases List.mem_cons.mp h with rfl | h
      · simp
      · have : ¬ kv.1 = n := by
          rintro rfl
          exact hnd.1 (List.mem_map.mpr ⟨_, h, rfl⟩)
        simp [List.find?_cons, this, ih hnd.2 hni.2 h]
  rw [this]

example :
    let env := (constructAttrs (V := ℕ) (· != 0) 1 [(['d', 't'], 7), (['w', 'l'], 9)]).1
    env.dict ['d', 't'] = some 7 ∧
    (runAttrOps (· != 0) env [.setattr ['d', 't'] 3, .setitem ['w', 'l'] 4]).1.dict ['d', 't'] = some 7 ∧
    (runAttrOps (· != 0) env [.setattr ['d', 't'] 3, .setitem ['w', 'l'] 4]).2.length = 2 := by decide

/-- Deleting is not an assignment and is *not* guarded: `del env._initialized` unlocks the
environment. (Recorded in DESIGN.md; Python-level misuse outside C08's statement.) -/
theorem C08_delete_unlocks {V : Type} (truthy : V → Bool) (yes : V) (hyes : truthy yes = true)
    (n : List Char) (v : V) :
    (runAttrOps truthy (constructAttrs truthy yes []).1 [.delattr initializedName, .setattr n v]).1.dict n
      = some v := by
  simp [constructAttrs, runAttrOps, AttrOp.run]

/-! ## C09 with-blocks restore the current environment -/

/-- The scope in which a program is started, as seen by its reader. -/
def Spec.scopeOf (s : EnvSt) : Scope := ⟨s.stack.head?, s.grad, 0, s.fresh, s.log⟩

/-- C09. Every program — any nesting, exceptions raised and caught anywhere, environments re-entered
while open, `set_environment` anywhere — has the outcome, the final current environment and the
sequence of observed current environments that lexical scoping gives it. -/
theorem C09_lexical_environments (p : EnvProg) (s : EnvSt) (hk : Known s.fresh p) :
    (p.run s).2 = (meaning p (scopeOf s)).2 ∧
    (p.run s).1.stack.head? = (meaning p (scopeOf s)).1.cur ∧
    (p.run s).1.log.map Prod.fst = (meaning p (scopeOf s)).1.log.map Prod.fst := by
  have A := env_agree p s (scopeOf s) hk rfl rfl rfl
  exact ⟨A.out, A.cur.symm, A.log.symm⟩

/-- The program contains no `set_environment`. -/
def Spec.NoSet : EnvProg → Prop
  | .seq p q => NoSet p ∧ NoSet q
  | .withEnv _ p => NoSet p
  | .tryExcept p q => NoSet p ∧ NoSet q
  | .setEnv _ => False
  | _ => True

/-- C09, without reference to `meaning`: a program without `set_environment`
leaves the whole stack of open environments exactly as it found it, however it ends. -/
theorem C09_stack_restored (p : EnvProg) : ∀ (s : EnvSt), NoSet p → (p.run s).1.stack = s.stack := by
  induction p with
  | skip => intro s _; rfl
  | raise e => intro s _; rfl
  | setGrad b => intro s _; rfl
  | setEnv g => intro s h; exact absurd h id
  | observe => intro s _; unfold EnvProg.run; split <;> rfl
  | seq p q ihp ihq =>
    intro s h
    have A := ihp s h.1
    unfold EnvProg.run
    rcases hr : p.run s with ⟨s', o⟩
    rw [hr] at A
    cases o with
    | error e => exact A
    | ok u => exact (ihq s' h.2).trans A
  | tryExcept p q ihp ihq =>
    intro s h
    have A := ihp s h.1
    unfold EnvProg.run
    rcases hr : p.run s with ⟨s', o⟩
    rw [hr] at A
    cases o with
    | ok e => exact A
    | error u => exact (ihq s' h.2).trans A
  | withEnv x p ih =>
    intro s h
    have A := ih (envEnter x s) h
    unfold EnvProg.run
    simp only [envExit, A]
    simp [envEnter]

/-- C09: inside the block the entered environment is the current one, before and after any
complete sub-program of the body. -/
theorem C09_inside (x : EnvObj) (p : EnvProg) (s : EnvSt) (hp : NoSet p) :
    currentEnvironment (p.run (envEnter x s)).1 = .ok x := by
  have := C09_stack_restored p (envEnter x s) hp
  have h2 : (p.run (envEnter x s)).1.stack = x :: s.stack := this
  simp only [currentEnvironment, h2]

/-- C09: with no environment open `current_environment()` raises `RuntimeError`; and a
`set_environment` makes its (new) environment current. -/
theorem C09_none_open (s : EnvSt) : currentEnvironment s = .error .runtimeError ↔ s.stack = [] := by
  cases h : s.stack <;> simp [currentEnvironment, h]

theorem C09_set (g : Bool) (s : EnvSt) :
    currentEnvironment (EnvProg.run (.setEnv g) s).1 = .ok ⟨s.fresh, g⟩ ∧
      (EnvProg.run (.setEnv g) s).1.grad = g := by
  simp [EnvProg.run, envEnter, currentEnvironment]

/-- environment 0 with gradients, environment 1 without; a state in which environment 0 is open. -/
def envA : EnvObj := ⟨0, true⟩
def envB : EnvObj := ⟨1, false⟩
def envSt0 : EnvSt := ⟨[envA], true, fun _ => true, 2, []⟩

/-- `try: with B: with A: with B: raise` … `except: observe` -/
example :
    let p : EnvProg := .tryExcept (.withEnv envB (.withEnv envA (.withEnv envB (.seq .observe
      (.raise .valueError))))) .observe
    Known envSt0.fresh p ∧ NoSet p ∧ (p.run envSt0).1.log.map Prod.fst = [envB, envA] := by
  refine ⟨?_, ?_, by decide⟩ <;> simp [Known, NoSet, envA, envB, envSt0]

/-- `with B: set_environment(…)`: the set environment stays current, on top of the leaked one. -/
example : let p : EnvProg := .withEnv envB (.setEnv true)
    Known envSt0.fresh p ∧ (p.run envSt0).1.stack.head? = some ⟨2, true⟩ := by
  refine ⟨?_, by decide⟩; simp [Known, envB, envSt0]

/-! ## C10 with-blocks control and restore the gradient mode -/

/-- The full property: gradient mode and observations always follow lexical scoping. -/
def C10_statement : Prop := ∀ (p : EnvProg) (s : EnvSt), Known s.fresh p →
  (p.run s).1.grad = (meaning p (scopeOf s)).1.grad ∧ (p.run s).1.log = (meaning p (scopeOf s)).1.log

/-- C10 fails: entering an open environment again (`with B: with B: pass`) overwrites the saved
mode, and gradients stay off after both blocks ended. -/
theorem C10_violation : ¬ C10_statement := by
  intro h
  have := (h (.withEnv envB (.withEnv envB .skip)) envSt0 (by simp [Known, envB, envSt0])).1
  revert this
  decide

/-- C10, proved part: if no environment is entered while it is already open, gradient mode and all
observations follow lexical scoping. (Missing: re-entrant programs, for which it is false.) -/
theorem C10_gradient_mode_partial (p : EnvProg) (s : EnvSt) (hk : Known s.fresh p)
    (hn : NoReentry [] p) :
    (p.run s).1.grad = (meaning p (scopeOf s)).1.grad ∧ (p.run s).1.log = (meaning p (scopeOf s)).1.log := by
  have G := grad_agree p s (scopeOf s) [] hk hn (by simp) rfl rfl rfl rfl
  exact ⟨G.1.symm, G.2.1.symm⟩

/-- C10, proved part, without `meaning`: after `with x: p` the gradient mode is what it was before,
whatever `p` does (raise, switch modes, `set_environment`). -/
theorem C10_block_restores_partial (x : EnvObj) (p : EnvProg) (s : EnvSt) (hk : Known s.fresh (.withEnv x p))
    (hn : NoReentry [] (.withEnv x p)) : (EnvProg.run (.withEnv x p) s).1.grad = s.grad :=
  (C10_gradient_mode_partial _ s hk hn).1.trans rfl

example :
    let p : EnvProg := .withEnv envB (.seq (.setGrad true) (.withEnv ⟨0, true⟩ (.raise .typeError)))
    Known envSt0.fresh p ∧ NoReentry [] p ∧ (p.run envSt0).1.grad = true := by
  refine ⟨?_, ?_, by decide⟩ <;> simp [Known, NoReentry, envB, envSt0]

/-! ## C22 Network with-blocks restore the network under construction -/

/-- The full property: every program registers components as lexical scoping says. -/
def C22_statement : Prop := ∀ (p : NetProg) (s : NetSt),
  (p.run s).1.added = (netMeaning p s.stack.head? s.added).1

/-- C22 fails: after `try: with N: raise …; except: pass` a new named component, created
outside any with-block, is added to network `N`. -/
theorem C22_violation : ¬ C22_statement := by
  intro h
  have := h (.seq (.tryExcept (.withNet 5 (.raise .valueError)) .skip) (.newComp ['w'])) ⟨[], []⟩
  revert this
  decide

/-- C22, proved part: if exceptions are only caught within one with-block (never across a with-block of
a network), then everything is registered as lexical scoping says, outcomes agree, and a program
that ends normally leaves the stack of networks as it was.
(Missing: exceptions caught outside the with-block they left, for which it is false.) -/
theorem C22_lexical_networks_partial (p : NetProg) (s : NetSt) (h : CatchInside p) :
    (p.run s).1.added = (netMeaning p s.stack.head? s.added).1 ∧
    (p.run s).2 = (netMeaning p s.stack.head? s.added).2 ∧
    ((p.run s).2 = .ok () → (p.run s).1.stack = s.stack) := by
  have A := net_agree p s h
  rw [A.1]
  exact ⟨rfl, rfl, A.2⟩

/-- C22: the exact extent of the damage — an exception leaving `with x:` leaves `x` open, for
*every* body that raises without opening further networks. -/
theorem C22_exception_leaks (x : ℕ) (p : NetProg) (s : NetSt) (hp : NoWith p) (e : PyErr)
    (he : (p.run { s with stack := x :: s.stack }).2 = .error e) :
    (NetProg.run (.withNet x p) s).1.stack = x :: s.stack := by
  have A := net_noWith p { s with stack := x :: s.stack } hp
  unfold NetProg.run
  simp only [he, netExit]
  exact A.1

example :
    let p : NetProg := .withNet 1 (.seq (.newComp ['a']) (.seq (.withNet 2 (.tryExcept
      (.seq (.newComp ['b']) (.raise .keyError)) .skip)) (.newComp ['c'])))
    CatchInside p ∧ (p.run ⟨[], []⟩).1.added = [(1, ['a']), (2, ['b']), (1, ['c'])] := by
  refine ⟨?_, by decide⟩; simp [CatchInside, NoWith]

example : NoWith (.raise .keyError) ∧
    (NetProg.run (.raise .keyError) { stack := [3], added := [] }).2 = .error .keyError := by
  refine ⟨trivial, by decide⟩

/-! ## Examples of use -/

/-- Any number of assignments to a constructed environment leave it and raise. -/
example (k : ℕ) :
    let env := (constructAttrs (V := ℕ) (· != 0) 1 [(['d', 't'], 7), (['w', 'l'], 9)]).1
    (runAttrOps (· != 0) env (List.replicate k (.setattr ['d', 't'] 3))).1 = env ∧ env.dict ['w', 'l'] = some 9 :=
  ⟨(C08_frozen _ 1 (by decide) _ _ fun op h => by rw [List.eq_of_mem_replicate h]; trivial).1,
    C08_stored _ 1 _ (by decide) (by decide) _ _ (by simp)⟩

example : (runAttrOps (V := ℕ) (· != 0) (constructAttrs (· != 0) 1 []).1
    [.delattr initializedName, .setattr ['d', 't'] 5]).1.dict ['d', 't'] = some 5 :=
  C08_delete_unlocks _ 1 (by decide) _ _

/-- However deeply environments are nested, an exception puts the stack back. -/
example (k : ℕ) (s : EnvSt) : (EnvProg.run (Nat.repeat (.withEnv envB) k (.raise .valueError)) s).1.stack = s.stack :=
  C09_stack_restored _ s (by
    induction k with
    | zero => exact trivial
    | succ k ih => exact ih)

example : currentEnvironment (EnvProg.run (.withEnv envA .observe) (envEnter envB envSt0)).1 = .ok envB :=
  C09_inside envB _ _ trivial

example : currentEnvironment ⟨[], true, fun _ => true, 0, []⟩ = .error .runtimeError := (C09_none_open _).mpr rfl

example : currentEnvironment (EnvProg.run (.setEnv false) envSt0).1 = .ok ⟨2, false⟩ := (C09_set false envSt0).1

example : let p : EnvProg := .seq (.withEnv envB (.seq .observe (.setEnv true))) .observe
    (p.run envSt0).1.log.map Prod.fst = (meaning p (scopeOf envSt0)).1.log.map Prod.fst :=
  (C09_lexical_environments _ envSt0 (by simp [Known, envB, envSt0])).2.2

example : let p : EnvProg := .withEnv envB (.seq (.setGrad true) (.withEnv ⟨0, true⟩ (.seq .observe (.raise .typeError))))
    (p.run envSt0).1.log = (meaning p (scopeOf envSt0)).1.log ∧ (p.run envSt0).1.grad = envSt0.grad :=
  have h1 : Known envSt0.fresh (.withEnv envB (.seq (.setGrad true) (.withEnv ⟨0, true⟩ (.seq .observe (.raise .typeError))))) := by
    simp [Known, envB, envSt0]
  have h2 : NoReentry [] (.withEnv envB (.seq (.setGrad true) (.withEnv ⟨0, true⟩ (.seq .observe (.raise .typeError))))) := by
    simp [NoReentry, envB]
  ⟨(C10_gradient_mode_partial _ envSt0 h1 h2).2, C10_block_restores_partial _ _ envSt0 h1 h2⟩

example : let p : NetProg := .withNet 1 (.seq (.newComp ['a']) (.withNet 2 (.newComp ['b'])))
    (p.run ⟨[7], []⟩).1.added = (netMeaning p (some 7) []).1 :=
  (C22_lexical_networks_partial _ ⟨[7], []⟩ (by simp [CatchInside, NoWith])).1

/-- The network stays open after an exception in its block. -/
example : (NetProg.run (.withNet 3 (.seq (.newComp ['a']) (.raise .keyError))) ⟨[], []⟩).1.stack = [3] :=
  C22_exception_leaks 3 _ _ ⟨trivial, trivial⟩ .keyError (by decide)

end PT
