import Verif.Model.Shared
import Verif.Spec.Named

/-!
# Specification: sessions with several networks
-/

namespace PT.Spec

variable {E W : Type}

/-- The numbers of ports of components; amplifiers have an input and an output. -/
def kindPorts : Kind → ℕ
  | .part p => p.n
  | _ => 2

/-- Network `k` is a closed circuit with a detector: the ends of its connections are the ports of its components, each once. -/
structure Assembled (S : Session E W) (k : ℕ) (cs : List Conn) : Prop where
  conns : S.conns k = cs.map Conn.text
  names : ((S.parts k).map Prod.fst).Nodup
  good : ∀ q ∈ S.parts k, GoodName q.1
  sized : ∀ q ∈ S.parts k, 0 < kindPorts (S.kind q.2)
  ports : (endpoints cs).Perm ((S.parts k).flatMap fun q => (List.range (kindPorts (S.kind q.2))).map fun (i : ℕ) => (q.1, (i : ℤ)))
  inner : outs cs = []
  detector : ∃ q ∈ S.parts k, S.kind q.2 = .part .detector

/-- An environment in which steps can be made. -/
def Stepping (env : SimEnv) : Prop := env.freqdomain = true ∨ ∃ dt, env.dt = some dt ∧ 0 < dt

end PT.Spec
