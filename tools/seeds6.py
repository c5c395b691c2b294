SEEDS = []
def s(id, file, definition, old, new, claim, **k): SEEDS.append(dict(id=id, file=file, definition=definition, old=old, new=new, claim=claim, **k))
C = "Model/Components.lean"; B = "Model/Bounded.lean"; G = "Model/Signal.lean"; V = "Model/Device.lean"; M = "Model/Mesh.lean"; Y = "Model/Devices.lean"; N = "Model/Network.lean"; E = "Model/Env.lean"; A = "Model/Soa.lean"; I = "Model/Sim.lean"
s("sig-filter2", G, "filterNext", "(List.zipWith (fun c v => c • v) a.tail ys).sum", "(List.zipWith (fun c v => c • v) a ys).sum", "C71: the filter", tightened=["C71_filtered added after the survival of sig-filter"])
s("sig-broadcast2", G, "broadcastTime", "| [r], _ => .ok (List.replicate y.length r, y)", "| [r], _ => .ok ([r], y)", "C53: losses of constants", tightened=["C53_constant added after the survival of sig-broadcast"])
s("env-df2", E, "wlArr", "let df := if f1 ≥ f0 then |d| else -|d|", "let df := |d| + d", "C06: the step df")
s("env-dwl", E, "wlStepOf", "else a.dwl.val", "else do pyDiv (wl1 - wl0) (← a.dwl.val)", "C05: the step dwl")
s("cmp-real-half", C, "realisticCouplerS", "0.5 * de2n0 * dwl ^ 2", "de2n0 * dwl ^ 2", "C91: second order of the coupling of a realistic coupler")
s("cmp-real-len", C, "realisticCouplerS", "let tau := Real.cos (kappa0 + kappa1 * length)", "let tau := Real.cos (kappa0 + kappa1)", "C28: realistic couplers are lossless; C91")
s("cmp-real-both", C, "realisticCouplerS", "let kappa1 := Real.pi * dn / wl", "let kappa1 := 2 * Real.pi * dn / wl", "C91: coupling per length of a realistic coupler")
s("cmp-grating-bw", C, "gratingS", "1 / (2 * √(2 * Real.log 2)) * bandwidth", "bandwidth", "C91: the bandwidth is the full width at half maximum")
s("cmp-grating-amp", C, "gratingS", "√(Tmax * Real.exp (-((wl0 - wl) ^ 2) / (2 * sigma ^ 2)))", "Tmax * Real.exp (-((wl0 - wl) ^ 2) / (2 * sigma ^ 2))", "C91: Tmax is a power")
s("cmp-grating-refl", C, "gratingS", "((SMat.zero.setRe2 0 1 l).setIm 0 0 Rin).setIm 1 1 R", "((SMat.zero.setRe2 0 1 l).setIm 0 0 R).setIm 1 1 Rin", "C91: reflections of a grating coupler")
s("cmp-soa-dir", C, "linearSoaS", "SMat.zero.setRe 0 1 amplification", "SMat.zero.setRe 1 0 amplification", "C91: the direction of an amplifier")
s("cmp-conn", C, "connectionS", "(SMat.zero.setRe 0 1 1).setRe 1 0 1", "(SMat.zero.setRe 0 1 1).setRe 0 1 1", "C91: connections transmit both ways")
s("cmp-mod", C, "modTwoPi", "2 * Real.pi * ⌊x / (2 * Real.pi)⌋", "Real.pi * ⌊x / Real.pi⌋", "C26: phases")
s("cmp-wg-phase", C, "waveguideS", "propagation length neff wl0 ng wl + modTwoPi phase", "propagation length neff wl0 ng wl - modTwoPi phase", "C89: the phase of the ring")
s("cmp-dcl-loss", C, "longCouplerS", "(tau * l * c)).setIm2 2 3 (tau * l * s)", "(tau * c)).setIm2 2 3 (tau * s)", "C28: both arms of a coupler have the loss")
s("cmp-mzi-phase", C, "mziS", "let phi1 := phi0 + phi", "let phi1 := phi0 - phi", "C76: which arm has which phase")
s("cmp-mzi-theta", C, "mziS", "let c := Real.cos theta", "let c := Real.cos (2 * theta)", "C28: Mzis are lossless")
s("cmp-base-soa", C, "baseSoaS", "((SMat.zero.setRe 0 0 1).setRe 1 1 1).setRe 2 2 1", "((SMat.zero.setRe 0 0 1).setRe 1 1 1)", "C44: S of an active component is the identity")
s("cmp-delay-mzi", C, "Part.delay", "| mzi _ _ _ ng _ length _ => lengthDelay ng length c", "| mzi _ _ neff _ _ length _ => lengthDelay neff length c", "C81: delay of an Mzi")
s("cmp-delay-dcl", C, "Part.delay", "| longCoupler length _ _ _ _ ng _ => lengthDelay ng length c", "| longCoupler length _ _ neff _ _ _ => lengthDelay neff length c", "C91: delay of a coupler with length")
s("dev-ports", V, "Part.comp", "| .detector => PT.detector", "| .detector => PT.source", "C56: detectors")
s("dev-delay-range", V, "Part.dev", "fun c i => if i < p.n then p.delay c else 0", "fun c i => if i = 0 then p.delay c else 0", "C66: every port has the delay")
s("dev-used", V, "usedDevs", "names.filterMap fun x => (dictGet x modules).map fun d => (x, d)", "names.reverse.filterMap fun x => (dictGet x modules).map fun d => (x, d)", "C66: the order of components")
s("dev-to-children", Y, "moduleTo", "moduleTo d rest ((moduleTo d children (torchTo d (.cons o st children .nil) s)).setAttr o d)", "moduleTo d rest ((torchTo d (.cons o st children .nil) s).setAttr o d)", "C88: submodules say where they are")
s("dev-to-torch", Y, "torchTo", "torchTo d rest ((torchTo d children s).setTensor st d)", "torchTo d rest (s.setTensor st d)", "C88: tensors of submodules move (equivalent for Module.to, which calls to for the submodules)")
s("dev-cuda-index", Y, "moduleCuda", "| some i => moduleTo (some (.cuda i)) m s", "| some i => moduleTo (some (.cuda 0)) m s", "C88: cuda(i)")
s("dev-cuda-none", Y, "isCuda", "| none => .error .attributeError", "| none => .ok false", "C88: the consequences of to(dtype)")
s("dev-term-terms", Y, "terminateOn", "(if onGpu then moduleCuda none terms s else s)", "s", "C88: terms are moved")
s("dev-term-own", Y, "terminateOn", ".setAttr obj (some .cpu)).setTensor store\n        (some .cpu))", ".setAttr obj (s.attr o)).setTensor store\n        (some .cpu))", "C88: the terminated network says it is on the cpu")
s("dev-mesh-to", Y, "terminateMeshOn", ".ok (r.1, moduleTo (s.attr o) r.1 r.2)", ".ok r", "C88: terminated meshes are moved")
s("link-first-int", N, "linkFirst", "| .int z :: l => .ok (some z, l)", "| .int _ :: l => .ok (none, l)", "C13: integer ports")
s("link-last-none", N, "linkLast", "| some .none => (none, rest.dropLast)", "| some .none => (none, rest)", "C14: None as a port")
s("link-last-str", N, "linkLast", "    | some z => (some z, rest.dropLast)\n    | none => (none, rest)", "    | some z => (some z, rest)\n    | none => (none, rest)", "C13: external ports as strings")
s("link-pad-last", N, "padLast", "if e.length = 2 then e ++ [none] else e", "if e.length = 2 then none :: e else e", "C89/C13: links without outer ports")
s("mesh-reck-layer", M, "reckLayers", "(reckLayer (N - m) (mz m) (wg m))", "(reckLayer (N - m) (mz 0) (wg m))", "C76: every layer has its own components")
s("mesh-reck-last", M, "reckConns", "[conn4 (layerN (N - 2)) (N - (N - 2) + 1) ['w', 'g'] 0]", "[conn4 (layerN (N - 2)) (N - (N - 2)) ['w', 'g'] 0]", "C56/C76: the last waveguide")
s("mesh-phase-swap", M, "phaseConns", "conn3 (wgN i) 1 (N + i)", "conn3 (wgN i) 1 (N + (N - 1 - i))", "C87: the outputs of a phase array")
s("mesh-clements-parity", M, "clementsLast", "if capacity % 2 = 0 then phaseArray N wg else mixingArray N mz wg", "phaseArray N wg", "C87: odd capacities")
s("mesh-clements-layers", M, "clements", "(List.range (capacity / 2))).bind fun layers =>\n    (clementsLast", "(List.range (capacity / 2 - 1))).bind fun layers =>\n    (clementsLast", "C87: number of layers")
s("mesh-terms", M, "meshTerms", "((List.range N).map fun i =>\n    (lbl ['s'] i", "((List.range (N - 1)).map fun i =>\n    (lbl ['s'] i", "C56: number of sources")
s("mesh-term-name", M, "termDev", "{ d.comp with name := some nw }", "{ d.comp with name := some newName }", "C20: names (irrelevant for the ports)")
s("mesh-cap2-wg", M, "cap2", "[(wgN 0, wg.dev), (wgN 1, wg.dev)]", "[(wgN 1, wg.dev), (wgN 0, wg.dev)]", "C57: order of the modules (equivalent)")
s("bnd-upd", B, "boundedValue", "(b - a) * tsigmoid w + a", "(b - a) * tsigmoid w", "C69: values of bounded parameters with lower bound (in C90 it is zero)")
