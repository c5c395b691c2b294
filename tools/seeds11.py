SEEDS = []
def s(id, file, definition, old, new, claim, **k): SEEDS.append(dict(id=id, file=file, definition=definition, old=old, new=new, claim=claim, **k))
AT = "Model/Attr.lean"; BO = "Model/Bounded.lean"; CO = "Model/Components.lean"; DC = "Model/DetectorCall.lean"; DV = "Model/Devices.lean"
DR = "Model/Draw.lean"; EN = "Model/Env.lean"; FA = "Model/Factory.lean"; GR = "Model/Graph.lean"; ME = "Model/Mesh.lean"; NE = "Model/Network.lean"
NU = "Model/Numbers.lean"; PL = "Model/Plot.lean"; PY = "Model/Py.lean"; RO = "Model/Rounded.lean"; SH = "Model/Shared.lean"; SW = "Model/Show.lean"
SG = "Model/Signal.lean"; SI = "Model/Sim.lean"; SO = "Model/Soa.lean"; SR = "Model/Source.lean"; ST = "Model/Stack.lean"; STR = "Model/Str.lean"
TO = "Model/Topology.lean"; TR = "Model/Train.lean"
s("fac-wg", FA, "wgFactory", ".waveguide 1e-5 0 2.34 1.55e-6 3.40 (2 * Real.pi * r) true", ".waveguide 1e-5 0 2.34 1.55e-6 3.40 (2 * Real.pi * r) false", "C125: the phases of default meshes are trainable")
s("fac-mzi", FA, "mziFactory", "2.34 3.40 1.55e-6 1e-5 0 true", "2.34 3.40 1.55e-6 1e-5 100 true", "C125: default meshes are lossless")
s("fac-len", FA, "wgFactory", ".waveguide 1e-5 0", ".waveguide 2e-5 0", "C125: all paths through ClementsNxN take the same time")
s("fac-cap", FA, "clementsOf", "capacity.getD N", "capacity.getD (N - 1)", "C125: the default capacity suffices for all unitary matrices")
s("ring-half", ME, "ring", "(mixingRing N (mz (capacity / 2)) (wg (capacity / 2))).bind fun d =>\n      mkDev none (layers ++ [(layerN (capacity / 2), d)]) (layersConns N (capacity / 2))", "(mixingRing N (mz (capacity / 2)) (wg (capacity / 2))).bind fun d =>\n      mkDev none (layers ++ [(layerN (capacity / 2), d)]) (layersConns N (capacity / 2 - 1))", "C58, C123: all layers are connected")
s("ring-odd", ME, "ring", "(List.range (capacity / 2))).bind\n    fun layers => (mixingRing", "(List.range ((capacity + 1) / 2))).bind\n    fun layers => (mixingRing", "C58, C124: number of layers")
s("ring-cross", ME, "ringArrayConns", "[conn4 (wgN 0) 0 (mziN 0) 3]", "[conn4 (wgN 0) 0 (mziN 0) 2]", "C123: chain of rings")
s("ring-swap", ME, "ringArrayConns", "[conn4 (mziN i) 0 (mziN (i - 1)) 2, conn4 (mziN i) 3 (mziN (i + 1)) 3]", "[conn4 (mziN i) 3 (mziN (i - 1)) 2, conn4 (mziN i) 0 (mziN (i + 1)) 3]", "C58: ports of ring arrays")
s("mixring-swap", ME, "mixingRingConns", "[conn4 (mziN i) 3 (wgN (2 * i)) 0, conn4 (mziN i) 2 (wgN (2 * i + 1)) 0]", "[conn4 (mziN i) 2 (wgN (2 * i)) 0, conn4 (mziN i) 3 (wgN (2 * i + 1)) 0]", "C123: which detector gets the light")
s("layers-shift", ME, "layersConns", "conn4 (layerN i) (N + j) (layerN (i + 1)) j", "conn4 (layerN i) (N + j) (layerN (i + 1)) (N - 1 - j)", "C57, C87: lines are not crossed between layers")
s("cle-last", ME, "clementsLast", "if capacity % 2 = 0 then", "if capacity % 2 = 1 then", "C57, C124: last layer")
s("cle-share", ME, "clements", "(cap2 N (mz i) (wg i 0))", "(cap2 N (mz 0) (wg i 0))", "C87: every layer has its own interferometers")
s("reck-wg", ME, "reck", "(wg (N - 1)).dev", "(wg 0).dev", "C76: every line has its own phase")
s("reck-name", ME, "reckLayer", "[(['w', 'g'], wg.dev)]", "[(['w', 'G'], wg.dev)]", "C56: layers can be built")
s("phase-arr", ME, "phaseArray", "(wgN i, (wg i).dev)", "(wgN i, (wg 0).dev)", "C87: every line has its own phase")
s("mix-half", ME, "mixingArray", "(wg N).dev", "(wg 0).dev", "C57: waveguide of the odd line")
s("mesh-conn3", ME, "conn3", "joinColon [a, natStr i, natStr p]", "joinColon [a, natStr p, natStr i]", "C57: external ports of meshes")
s("mesh-lbl", ME, "wgN", "lbl ['w', 'g'] i", "lbl ['w', 'g'] (i % 10)", "C57: different waveguides have different names")
s("term-name", ME, "termDev", "mkDev (some newName)", "mkDev none", "C56_constructor: name of the terminated network")
s("at-raw", AT, "AVal.raw", "| .bounded w _ _ => w", "| .bounded _ a _ => (a : EReal)", "C83: raw value of bounded parameters")
s("at-has", AT, "has", "| .error .attributeError => false", "| .error .attributeError => true", "C83: hasattr")
s("bo-sig", BO, "tsigmoid", "| ⊥ => 0\n  | ⊤ => 1", "| ⊥ => 1\n  | ⊤ => 0", "C37: bounded parameters at their bounds")
s("co-re2", CO, "setRe2", "(S.setRe i j v).setRe j i v", "S.setRe i j v", "C14: reciprocity")
s("co-im2", CO, "setIm2", "(S.setIm i j v).setIm j i v", "(S.setIm i j v).setIm j i (-v)", "C14: reciprocity")
s("co-n", CO, "n", "| mmi m n _ _ => m + n", "| mmi m n _ _ => m + n + 1", "C45: ports of an Mmi")
s("dc-new", DC, "photoNew", "⟨p, dark, load, randn⟩", "⟨p, load, dark, randn⟩", "C86: parameters of photodetectors")
s("dev-attr", DV, "Devices.setAttr", "if x = o then d else s.attr x", "d", "C91: objects have their own device")
s("dr-edges", DR, "drawEdges", "drawEdge (pos e.1) (pos e.2) (rand k)", "drawEdge (pos e.1) (pos e.1) (rand k)", "C118: lines end at both components")
s("en-count", EN, "countGiven", "l.filter fun isDef => !isDef", "l.filter fun isDef => isDef", "C02: conflicting arguments")
s("en-wl", EN, "wlArgOf", "if !a.f.isDefault then divArg c a.f else .ok a.wl", "if a.f.isDefault then divArg c a.f else .ok a.wl", "C04: frequency instead of wavelength")
s("en-copy", EN, "Env.copy", "Env.init (e.toArgs.update o)", "Env.init e.toArgs", "C05: overrides of copies")
s("en-copyw", EN, "Env.copyWith", "resolveAliases (e.toArgs.update o) k", "resolveAliases e.toArgs k", "C101: overrides and aliases of copies")
s("gr-edges", GR, "graphEdges", "| [u, v] => .ok (u, v)", "| [u, v] => .ok (v, u)", "C61: direction of edges")
s("gr-graph", GR, "graph", "(graphNodes keys e, e)", "(keys, e)", "C61: external ports are nodes")
s("ne-buf", NE, "netSetBuffers", "| .error e => (s', .error e)", "| .error e => (s, .error e)", "C29: state after a failed build")
s("ne-buf2", NE, "netSetBuffers", "buf := none }", "buf := s.buf }", "C29: no buffers of an earlier build remain")
s("ne-fmt", NE, "fmt", "| none => ['N', 'o', 'n', 'e']", "| none => []", "C28: link without port numbers")
s("ne-link", NE, "linkConns", "if mid = [] then ([], .error .valueError)", "if mid = [] then ([], .ok ())", "C28: link without components")
s("nu-prop", NU, "propagationNumber", "(tensorDiv (2 * Real.pi * (neff - d) * length) wl).map modTwoPi", "(tensorDiv (2 * Real.pi * (neff + d) * length) wl).map modTwoPi", "C121_numbers: the numbers are those of the formulas")
s("nu-add", NU, "floatAdd", "(x = ⊤ ∧ y = ⊥) ∨ (x = ⊥ ∧ y = ⊤)", "False", "C122: sum of opposite infinities")
s("nu-val", NU, "valueNumber", "w.map fun w => boundedValue w a b", "w.map fun w => boundedValue w b a", "C122: value of the parameter")
s("pl-flat", PL, "curvesFlat", "(y.reshape n)", "(y.reshape (n + 1))", "C62: all curves")
s("py-trunc", PY, "pyTrunc", "else ⌈q⌉", "else ⌊q⌋", "C51, C71: int() truncates towards zero")
s("py-div", PY, "pyDiv", "if y = 0 then .error .zeroDivision else", "if y = 0 then .ok 0 else", "C01: division by zero raises")
s("py-divarr", PY, "npDivArr", "(l.map (x / ·))", "(l.map (· / x))", "C04: wavelengths are c / f")
s("ro-step", RO, "stepArgR", "if !a.samplerate.isDefault then do pyDivR rd 1 (← a.samplerate.val) else a.dt.val", "a.dt.val", "C78: samplerate")
s("ro-wlarr", RO, "wlArrR", "let df := if f1 ≥ f0 then |d| else -|d|", "let df := |d|", "C78: descending frequencies")
s("ro-init", RO, "Env.initR", "wl1 := gridEndR rd wl", "wl1 := wl0", "C78: end of the wavelength range")
s("ro-copy", RO, "Env.copyR", "((e.toArgsR rd).update o)", "((e.toArgsR rd))", "C78: overrides of copies")
s("sh-obj", SH, "Session.objects", "usedNames ((S.conns k).map stripConn)", "(S.parts k).map Prod.fst", "C109: only components of the network run")
s("sh-run", SH, "Session.runOn", "if out = [] then .ok out else .error x", ".error x", "C109: empty simulations do not fail")
s("sw-comma", SW, "joinComma", '", ".toList.intercalate l', '",".toList.intercalate l', "C108: printed text")
s("sw-opt", SW, "AttrVal.opt", "| none => .nothing", "| none => .num 0", "C108: printed text of missing values")
s("sg-mean", SG, "meanRow", "(x.map fun r => r i).sum / x.length", "(x.map fun r => r i).sum", "C53: mean over the samples of a bit")
s("si-src", SI, "numSrc", "filter p.src).length", "filter p.det).length", "C31: number of source channels")
s("si-sub", SI, "sub", "M (rows.get i) (cols.get j)", "M (rows.get i) (rows.get (i))", "C26: the reduced network is that of the circuit")
s("si-steps", SI, "maxSteps", "Finset.univ.sup fun i => (f i).toNat", "(Finset.univ.sup fun i => (f i).toNat) - 1", "C22: the buffer is long enough for all delays")
s("si-nodes", SI, "ofNodes", "fun w => Matrix.of fun k b => (l.getD k (fun _ _ => 0, fun _ _ => 0)).2 w b", "fun w => Matrix.of fun k b => (l.getD k (fun _ _ => 0, fun _ _ => 0)).1 w b", "C98: imaginary parts of active nodes")
s("so-actor", SO, "soaActor", "⟨3, true, soaAction dt dhdt⟩", "⟨3, false, soaAction dt dhdt⟩", "C46, C99: the amplifier is active")
s("so-thr", SO, "threshold", "q.volume * q.N0 / q.tc", "q.volume * q.N0 * q.tc", "C46: bias current at transparency")
s("sr-front", SR, "NTensor.unsqueezeFront", "none :: x.names", "some 'c' :: x.names", "C30: dimensions of sources")
s("sr-size", SR, "NTensor.size", "x.names.idxOf (some n)", "x.names.idxOf none", "C30: sizes of named dimensions")
s("st-ops", ST, "runAttrOps", "runAttrOps truthy r.1 ops", "runAttrOps truthy o ops", "C10: attributes stay locked")
s("str-mapE", STR, "mapE", "| .error e => .error e\n    | .ok b =>", "| .error e => mapE f l\n    | .ok b =>", "C18, C29: malformed connections are rejected")
s("str-dict", STR, "dictGet", "if k' = k then some v' else dictGet k l", "some v'", "C19: components are looked up by name")
s("to-term", TO, "term", "def term : Comp := leaf 1 [false] [false] [false]", "def term : Comp := leaf 1 [false] [true] [false]", "C20: a Term detects nothing")
s("to-clone", TO, "cloneAt", "match clone[idx]? with\n  | none => .error .indexError", "match clone[idx]? with\n  | none => .ok 0", "C20: ports that do not exist are rejected")
s("to-int", TO, "intOf", "| none => .error .valueError", "| none => .ok 0", "C18: malformed connections are rejected")
s("to-mk", TO, "mkNet", "netBuffers name l (conns.map stripConn)", "netBuffers name l conns", "C18: spaces in connections are ignored")
s("to-order", TO, "orderDict", "dictSet e.2 e.1 d", "dictSet e.2 e.1 (dictSet 0 e.1 d)", "C19: external ports in the order of their numbers")
s("tr-flag", TR, "flag", "if t then 1 else 0", "if t then 0 else 1", "C117: stored arguments")
s("tr-dev", TR, "devOf", "if i < n then delay v else 0", "delay v", "C117: components behave as their arguments say")
s("tr-num", TR, "Obj.num", "(o.attrs.read a).map EReal.toReal", "(o.attrs.read a).map fun x => -x.toReal", "C117: components behave as their arguments say")
