exec(open('/verif/tools/seeds1.py').read().split('E = ')[0])
T = "Model/Topology.lean"; N = "Model/Network.lean"; S = "Model/Str.lean"
s("top-connect-oneway", T, "connect", "if (a = i ∧ b = j) ∨ (a = j ∧ b = i) then 1", "if (a = i ∧ b = j) then 1", "C14: connections are reciprocal")
s("top-connect-add", T, "connect", "then 1 else C a b", "then C a b + 1 else C a b", "C14: only zeros and ones")
s("top-block-offdiag", T, "blockC", "if i < c.n then (if j < c.n then c.C i j else 0)", "if i < c.n then c.C i j", "C15: ports of different sub-components are not connected by nesting")
s("top-block-noshift", T, "blockC", "else if j < c.n then 0 else blockC l (i - c.n) (j - c.n)", "else if j < c.n then 0 else blockC l i j", "C15: sub-component connections are placed at the right offset")
s("top-locate-noshift", T, "locate", "(locate l x).map fun p => (c.n + p.1, p.2)", "(locate l x).map fun p => (p.1, p.2)", "C15/C17: connection strings address the named component")
s("top-locate-free-shift", T, "locate", "fun p => (c.n + p.1, p.2)", "fun p => (c.numFree + p.1, p.2)", "C15: start indices count all ports, not only free ones")
s("top-free-all", T, "Comp.free", "c.portOrder.filter c.freeAt", "c.portOrder", "C15: port numbers address free ports only")
s("top-free-unordered", T, "Comp.free", "c.portOrder.filter c.freeAt", "(List.range c.n).filter c.freeAt", "C15/C18: port numbers follow the port order")
s("top-freeat-cols", T, "Comp.freeAt", "!(decide (0 < ((List.range c.n).map fun k => c.C k i).sum) ||", "!(decide (0 < ((List.range c.n).map fun k => c.C k k).sum) ||", "C15: free ports are those without connection")
s("top-selfcheck-drop", T, "internalPorts", "if a = b ∧ i = j then .error .indexError", "if a = b ∧ i ≠ i then .error .indexError", "C16: connecting a port to itself raises IndexError")
s("top-selfcheck-names", T, "internalPorts", "if a = b ∧ i = j then .error .indexError", "if a = b then .error .indexError", "C61: a component may be connected to itself through different ports")
s("top-toohigh-lt", T, "portTooHigh", "if (c.free.length : ℤ) ≤ i then", "if (c.free.length : ℤ) < i then", "C16: port index equal to the number of free ports raises ValueError")
s("top-toohigh-second", T, "internalPorts", "    (portTooHigh l b j).bind fun _ =>\n", "", "C16: the second port's index is checked (ValueError)")
s("top-parse-swap", T, "parseInternal", "(internalPorts l a i b j).map some", "(internalPorts l a j b i).map some", "C15: the two indices belong to their components")
s("top-external-int-swap", T, "parseExternal", "(globalPort l c i).map fun g => some (g, j)", "(globalPort l c j).map fun g => some (g, i)", "C17: external number vs. component port")
s("top-order-rest", T, "orderOf", "decide (i ∉ d.map Prod.snd)", "decide (i ∉ (d.map Prod.snd).tail)", "C17/C19: remaining ports follow, each once")
s("top-order-nodict", T, "orderOf", "dictGet (j : ℤ) d) ++", "dictGet ((j : ℤ) + 1) d) ++", "C17: external port j is the declared one")
s("top-blockorder-noshift", T, "blockOrder", "(blockOrder l).map (c.n + ·)", "(blockOrder l)", "C17/C19: port order is a permutation")
s("top-check-overlap", T, "Comp.check", "if overlap c.src c.det then .error .valueError\n  else ", "", "C61/C16: a port cannot be both source and detector")
s("top-check-act", T, "Comp.check", "else if c.act.any id && !(c.act.all id || c.isNet) then", "else if c.act.any id && !(c.act.all id) then", "C61: networks with active and passive parts are accepted")
s("top-used-dup", T, "usedNames", "dedupFirst ((conns.flatMap splitColon).filter fun s => (pyInt s).isNone)", "(conns.flatMap splitColon).filter fun s => (pyInt s).isNone", "C15/C17: each component is used once")
s("top-pick-skip", T, "pickComps", "| none => .error .keyError\n    | some c => .ok (x, { c with name := some x })) names", "| none => .ok (x, term)\n    | some c => .ok (x, { c with name := some x })) names", "C16: unknown component raises KeyError")
s("net-link-pairs-order", N, "linkPairs", "joinColon [fmt name1, fmt p1, fmt name2, fmt p2]", "joinColon [fmt name1, fmt p2, fmt name2, fmt p1]", "C13: consecutive elements are connected right port to left port")
s("net-linkin-name", N, "linkIn", "some p, some q => ([joinColon [fmt name, q, intStr p]], .ok ())\n  | _ => ([], .error .valueError)\n\n/-- The connection string of the last", "some p, some q => ([joinColon [fmt name, intStr p, q]], .ok ())\n  | _ => ([], .error .valueError)\n\n/-- The connection string of the last", "C13: external port p on (c1, a1)")
s("net-linkout-port", N, "linkOut", "| some [_, name, q] =>", "| some [q, name, _] =>", "C13: external port q on (cn, bn)")
s("net-link-append-front", N, "link", "conns := s.conns ++ r.1 }", "conns := r.1 }", "C13: earlier connections are kept")
s("net-link-padfirst", N, "padFirst", "(if e.length = 2 then none :: e else e) :: l", "(if e.length = 2 then e ++ [none] else e) :: l", "C13: the first element may omit its left port")
s("net-link-atomic", N, "link", "| .error e => (s', .error e)\n  | .ok _ => netSetBuffers s'", "| .error e => (s, .error e)\n  | .ok _ => match netSetBuffers s' with\n    | (_, .error e) => (s, .error e)\n    | r => r", "C23 negation: the faulty connection string is kept (an atomic link would make the negation false)")
s("net-term-rev", N, "termConns", "joinColon [p.1, ['0'], nwName, natStr p.2]", "joinColon [p.1, ['0'], nwName, natStr (names.length - 1 - p.2)]", "C20: i-th term on i-th free port")
s("net-term-nocheck", N, "terminate", "if c.numFree = 0 then .error .indexError\n    else\n", "", "C20: no free ports raises IndexError")
s("net-term-single-count", N, "termDict", "(List.range numFree).map fun (i : ℕ) =>", "(List.range (numFree - 1)).map fun (i : ℕ) =>", "C20: one term per free port")
s("net-term-base-copied", N, "terminate", "{ c with name := s.name } with", "{ c with C := fun _ _ => 0, name := s.name } with", "C21: unterminate returns the original")
s("net-addcomp-name", N, "addComponent", "else if c.name ≠ none ∧ c.name ≠ some x then (s, .error .valueError)\n", "", "C21 negation: named networks cannot be terminated")
