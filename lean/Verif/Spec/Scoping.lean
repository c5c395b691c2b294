import Verif.Model.Stack

/-! Lexical-scoping specification for environments and networks: no stack, no saved modes. -/

namespace PT.Spec

/-- What a reader expects to know at a program point: the current environment (if any), the gradient
mode, how many `set_environment` calls were made so far, the next object identity, and the
observations. -/
structure Scope where
  cur : Option EnvObj
  grad : Bool
  sets : ℕ
  fresh : ℕ
  log : List (EnvObj × Bool)

/-- Lexical meaning of a program: inside `with x` the current environment is `x` and the gradient mode
is `x`'s; afterwards both are what they were before — except that an environment made current
by `set_environment` in the body stays current. -/
def meaning : EnvProg → Scope → Scope × Except PyErr Unit
  | .skip, s => (s, .ok ())
  | .seq p q, s =>
    match meaning p s with
    | (s', .ok _) => meaning q s'
    | (s', .error e) => (s', .error e)
  | .withEnv x p, s =>
    let r := meaning p { s with cur := some x, grad := x.grad }
    ({ r.1 with
        cur := if r.1.sets = s.sets then s.cur else r.1.cur
        grad := s.grad }, r.2)
  | .setEnv g, s =>
    ({ s with cur := some ⟨s.fresh, g⟩, grad := g, sets := s.sets + 1, fresh := s.fresh + 1 }, .ok ())
  | .raise e, s => (s, .error e)
  | .tryExcept p q, s =>
    match meaning p s with
    | (s', .ok _) => (s', .ok ())
    | (s', .error _) => meaning q s'
  | .observe, s =>
    match s.cur with
    | some x => ({ s with log := s.log ++ [(x, s.grad)] }, .ok ())
    | none => (s, .error .runtimeError)
  | .setGrad b, s => ({ s with grad := b }, .ok ())

/-- All environments named in the program existed before it started (identities below `n`). -/
def Known (n : ℕ) : EnvProg → Prop
  | .seq p q => Known n p ∧ Known n q
  | .withEnv x p => x.id < n ∧ Known n p
  | .tryExcept p q => Known n p ∧ Known n q
  | _ => True

/-- No environment is entered while it is already open (`live` = identities currently open). -/
def NoReentry : List ℕ → EnvProg → Prop
  | live, .seq p q => NoReentry live p ∧ NoReentry live q
  | live, .withEnv x p => x.id ∉ live ∧ NoReentry (x.id :: live) p
  | live, .tryExcept p q => NoReentry live p ∧ NoReentry live q
  | _, _ => True

/-- Lexical meaning of network programs: a named component belongs to the innermost enclosing
network. -/
def netMeaning : NetProg → Option ℕ → List (ℕ × List Char) → List (ℕ × List Char) × Except PyErr Unit
  | .skip, _, l => (l, .ok ())
  | .seq p q, c, l =>
    match netMeaning p c l with
    | (l', .ok _) => netMeaning q c l'
    | (l', .error e) => (l', .error e)
  | .withNet x p, _, l => netMeaning p (some x) l
  | .raise e, _, l => (l, .error e)
  | .tryExcept p q, c, l =>
    match netMeaning p c l with
    | (l', .ok _) => (l', .ok ())
    | (l', .error _) => netMeaning q c l'
  | .newComp n, c, l =>
    match c with
    | none => (l, .ok ())
    | some x => (l ++ [(x, n)], .ok ())

/-- The program has no with-block. -/
def NoWith : NetProg → Prop
  | .seq p q => NoWith p ∧ NoWith q
  | .withNet _ _ => False
  | .tryExcept p q => NoWith p ∧ NoWith q
  | _ => True

/-- Exceptions are only caught inside a single with-block, never across one. -/
def CatchInside : NetProg → Prop
  | .seq p q => CatchInside p ∧ CatchInside q
  | .withNet _ p => CatchInside p
  | .tryExcept p q => NoWith p ∧ CatchInside q
  | _ => True

end PT.Spec
