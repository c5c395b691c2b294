SEEDS = []
def s(id, file, definition, old, new, claim, **k): SEEDS.append(dict(id=id, file=file, definition=definition, old=old, new=new, claim=claim, **k))
C = "Model/Components.lean"; A = "Model/Soa.lean"; B = "Model/Bounded.lean"; G = "Model/Signal.lean"; D = "Model/Detector.lean"; V = "Model/Device.lean"; M = "Model/Mesh.lean"
K = "Model/Construct.lean"; P = "Model/Plot.lean"; R = "Model/Graph.lean"; T = "Model/Attr.lean"; Q = "Model/DetectorCall.lean"; H = "Model/Cache.lean"; E = "Model/Env.lean"; N = "Model/Network.lean"; O = "Model/Topology.lean"; X = "Model/Str.lean"; Z = "Model/Stack.lean"; U = "Model/Source.lean"; I = "Model/Sim.lean"
s("cmp-neff2", C, "neffAt", "neff - (wl - wl0) * (ng - neff) / wl0", "neff + (wl - wl0) * (ng - neff) / wl0", "C81: dispersion by the group index", tightened=["C81 added after the survival of cmp-neff"])
s("cmp-delay2", C, "lengthDelay", "ng * length / c", "length / c", "C81: delay by the group index", tightened=["C81 added after the survival of cmp-delay"])
s("soa-new2", A, "soaNew", "if amplification < 1 then", "if amplification < 0 then", "C84: amplification at least one", tightened=["C84 added after the survival of soa-new"])
s("dev-block-off", V, "blockMat", "else if j < n then 0 else blockMat l (i - n) (j - n)", "else if j < n then 0 else blockMat l (i - n) j", "C66/C56: S of a network is block diagonal")
s("dev-delay-off", V, "blockVec", "if i < n then v i else blockVec l (i - n)", "if i < n then v i else blockVec l i", "C66/C56: delays of a network are the children's")
s("det-cutoff-arg", Q, "detForward", "| none => p.cutoff | some c => c\n  let order", "| none => p.cutoff | some _ => p.cutoff\n  let order", "C86: cutoff argument of a call")
s("det-order-round", Q, "detNew", "⟨samplerate, cutoff, toRate order, responsivity⟩", "⟨samplerate, cutoff, pyTrunc order, responsivity⟩", "C86: the order is rounded alike in constructor and call")
s("det-env-first", G, "resolveRate", "    | some e => match kw with\n      | none => e\n      | some x => some x", "    | some e => match e with\n      | none => kw\n      | some x => some x", "C86/C72: arguments of a call come before the environment")
s("det-photo-cutoff", Q, "photoForward", "⟨a.samplerate, some cutoff, a.order, some 1⟩", "⟨a.samplerate, none, a.order, some 1⟩", "C86: cutoff argument of a call of a photodetector")
s("det-photo-noise", Q, "photoForward", "(addNoise dark load cutoff y", "(addNoise p.dark load cutoff y", "C86: dark current argument of a call")
s("det-new-lt", D, "lowpassNew", "if 1 < 2 * cutoff / samplerate then", "if 1 ≤ 2 * cutoff / samplerate then", "C86: detectors with a cutoff of half the rate can be made")
s("mmi-pair", K, "mmiPair", "![re, im]", "![im, re]", "C79: real and imaginary part of the weights")
s("mmi-none", K, "mmiNew", "√(0.5 * 1)", "0.5", "C79: the default Mmi is a splitter without loss")
s("mmi-tensor", K, "mmiNew", "| .tensor2 _ _ w => .ok (mmiPair w 0)", "| .tensor2 _ _ w => .ok (mmiPair w w)", "C79: real tensors have no imaginary part")
s("mmi-setS", K, "mmiSetS", "(w.w ⟨1, by omega⟩))\n  else if", "(w.w ⟨0, by omega⟩))\n  else if", "C79: the imaginary part is used")
s("ratio-bounds", K, "couplerNew", "boundedNew [coupling] 0 1", "boundedNew [coupling] 0 2", "C80: couplings lie between 0 and 1")
s("ratio-mirror", K, "mirrorNew", "boundedNew [R] 0 1", "boundedNew [R] (-1) 1", "C80: reflectivities lie between 0 and 1")
s("ratio-upd", K, "Ratio.update", "| .bounded p => .bounded (p.update [δ])", "| .bounded p => .fixed (p.values.headD 0 + δ)", "C80: training stays within bounds")
s("bnd-trecip", B, "trecip", "if x = 0 then ⊤", "if x = 0 then ⊥", "C46: values at the bounds are represented")
s("bnd-tlog", B, "tlog", "if x = 0 then ⊥", "if x = 0 then ⊤", "C46: values at the bounds are represented")
s("bnd-values", B, "Bounded.values", "boundedValue w p.lo p.hi", "boundedValue w p.hi p.lo", "C46: values within the bounds")
s("plot-unsq", P, "Arr.unsqueeze", "if n = 1 then 0 :: unsqueeze s i else", "if n = 1 then 0 :: unsqueeze s i.tail else", "C59: curves show the data")
s("plot-transpose", P, "Arr.transpose", "y.get ((List.range p.length).map fun a => i.getD (p.idxOf a) 0)", "y.get ((List.range p.length).map fun a => i.getD (p.getD a 0) 0)", "C59: curves show the data (permutation instead of its inverse)")
s("plot-unravel", P, "Arr.unravel", "k / s.prod :: unravel s (k % s.prod)", "k % s.prod :: unravel s (k / s.prod)", "C59: curves show the data")
s("plot-batch", P, "batchTimes", "(List.range n).flatMap fun i => l.map fun x => [.batch i, x]", "l.flatMap fun x => (List.range n).map fun i => [.batch i, x]", "C59: every curve has its own label")
s("plot-wldet", P, "wlTimesDet", "wls.flatMap fun w => dets.map fun d => [w, d]", "dets.flatMap fun d => wls.map fun w => [w, d]", "C59: every curve has its own label")
s("plot-all", P, "allLabels", "(List.range n).flatMap fun i => wls.flatMap fun w => dets.map fun d => [.batch i, w, d]", "wls.flatMap fun w => (List.range n).flatMap fun i => dets.map fun d => [.batch i, w, d]", "C59: every curve has its own label")
s("plot-exp", P, "axisExponent", "/ 3 * 3 - 3", "/ 3 * 3", "C59: axis unit")
s("plot-time4", P, "curvesTime", "[0, 3, 1, 2]", "[0, 1, 2, 3]", "C59: curves and labels of whole results")
s("plot-wl-perm", P, "curvesWl", "(y.transpose [0, 2, 1]) wl.length", "y wl.length", "C59: curves and labels in the frequency domain")
s("plot-axis", P, "plot", "t.map fun v => (v : ℝ) * 10 ^ (-f)⟩", "t.map fun v => (v : ℝ) * 10 ^ f⟩", "C59: the axis in the unit shown")
s("graph-second", R, "everySecond", "| x :: _ :: l => x :: everySecond l", "| _ :: y :: l => y :: everySecond l", "C78: edges join components")
s("graph-nodes", R, "graphNodes", "dedupFirst (keys ++ edges.flatMap fun e => [e.1, e.2])", "dedupFirst (keys ++ edges.map fun e => e.1)", "C78: nodes of the graph")
s("graph-labels", R, "graphLabels", "nodes.zip components", "nodes.tail.zip components", "C78: labels of components")
s("attr-read-order", T, "Attrs.read", "if s.props a then", "if s.props a && (s.dict a).isNone then", "C77: properties come first")
s("attr-fallback", T, "Attrs.fallback", "match s.params a with\n  | some v => .ok v.raw\n  | none => match s.buffers a with\n    | some v => .ok v.raw", "match s.buffers a with\n  | some v => .ok v.raw\n  | none => match s.params a with\n    | some v => .ok v.raw", "C77: parameters come before buffers (equivalent where both cannot be present)")
s("attr-torchset", T, "Attrs.torchSet", "registerParam { s with dict := setKey s.dict a none, buffers := setKey s.buffers a none } a v", "registerParam { s with buffers := setKey s.buffers a none } a v", "C77: a parameter assigned after another value is read")
s("attr-set-bounded", T, "Attrs.set", "({ s' with props := setKey s'.props a true }, none)", "(s', none)", "C77: bounded parameters can be read")
s("attr-other", T, "Attrs.torchSetOther", "if (s.params a).isSome then (s, some .typeError)", "if (s.params a).isSome then objectSet s a v", "C77: parameters cannot be overwritten by numbers")
s("attr-underscore", T, "Attrs.set", "match s.registerParam ('_' :: a) v with", "match s.registerParam a v with", "C77: bounded parameters can be read")
s("attr-setkey", T, "setKey", "if x = k then v else f x", "if x = k then f x else v", "C77: other attributes keep their values")
s("cache-new", H, "attemptDelays", "(p.mcOrder env).map (p.seconds env)", "(p.mcPorts env).map (p.seconds env)", "C62: caching (order of the delays is irrelevant for the buffer length)")
s("cache-slots", H, "storedSlots", "/ dt + 1 / 2)).toNat + 1)", "/ dt)).toNat + 1)", "C28/C62: the buffer fits the mask")
s("cache-run", H, "NetOp.run", "| .set θ => { s with params := θ }", "| .set θ => { s with params := θ, env := none }", "C37: setting parameters does not reinitialize (the violation)")
s("env-df", E, "wlArr", "let df := if f1 ≥ f0 then |d| else -|d|", "let df := d", "C06: the sign of df")
s("env-wlstep", E, "wlStepOf", "pyDiv (wl1 - wl0) (← a.num_wl.val)", "pyDiv (wl1 - wl0) ((← a.num_wl.val) - 1)", "C05: number of wavelengths")
s("env-bound", E, "wlBoundOf", "if !fArg.isDefault then do pyDiv c (← fArg.val) else wlArg.val", "if !fArg.isDefault then fArg.val else wlArg.val", "C05: bounds given as frequencies")
s("env-first", E, "firstStep", "some (y - x)", "some (x - y)", "C04: dt is the step")
s("env-asdefault", E, "asDefault", "| none => d", "| none => .none", "C07: copies")
s("env-update", E, "Args.update", "t1 := o.t1.getD a.t1", "t1 := a.t1", "C07: overrides of copies")
s("env-recip", E, "recipOpt", "return some (← pyDiv 1 x)", "return some x", "C04: samplerate is 1/dt")
s("sig-torate", G, "toRate", "pyTrunc (x + 1 / 2)", "pyTrunc x", "C49: rates are rounded")
s("sig-repeat-all", G, "repeatEach", "x.flatMap fun r => List.replicate k r", "(List.replicate k x).flatten", "C49: every bit is repeated")
s("sig-broadcast", G, "broadcastTime", "| [r], _ => .ok (List.replicate y.length r, y)", "| [r], _ => .ok ([r], y)", "C53: losses of constants")
s("sig-refined", G, "refined", "max ((toRate (8 * f) / toRate samplerate : ℤ) * samplerate) samplerate", "((toRate (8 * f) / toRate samplerate : ℤ) * samplerate)", "C71: streams with low cutoff")
s("sig-warm", G, "warmupPoints", "toRate (toRate (toRate warmup) * samplerate / bitrate)", "toRate (toRate warmup)", "C53: warmup is in bits")
s("sig-lat", G, "latencyPoints", "toRate (latency * samplerate / bitrate)", "toRate (latency * bitrate / samplerate)", "C52: latency is in bits")
s("sig-filter", G, "filterNext", "(List.zipWith (fun c v => c • v) a.tail ys).sum", "(List.zipWith (fun c v => c • v) a ys).sum", "C71: filter")
s("sig-std", G, "stdAll", "(n - 1))", "n)", "C50: scale of the normalized target (irrelevant for its sign)")
s("str-split", X, "intStr", "if z < 0 then '-' :: natStr z.natAbs else natStr z.natAbs", "natStr z.natAbs", "C13: negative ports")
s("str-index", X, "pyIndex", "else if 0 ≤ i + l.length then l[(i + l.length).toNat]?", "else if 0 ≤ i + l.length then l[(i + l.length).toNat - 1]?", "C15: negative ports count from the end")
s("str-dedup", X, "dedupFirst", "a :: (dedupFirst l).filter (· ≠ a)", "a :: dedupFirst l", "C61: every component once")
s("str-strip", X, "strip", "((s.dropWhile isSpace).reverse.dropWhile isSpace).reverse", "s.dropWhile isSpace", "C16: whitespace in connections")
s("top-free", O, "Comp.numFree", "((List.range c.n).filter c.freeAt).length", "c.n", "C20: number of free ports")
s("top-soa", O, "soa", "fun i j => if i = 1 ∧ j = 1 then 1 else 0", "fun i j => if i = 2 ∧ j = 2 then 1 else 0", "C47: the state of an amplifier is connected to itself")
s("top-clone", O, "applyOrder", "vs ++ clone.drop order.length", "vs ++ clone.take order.length", "C19: port order")
s("net-pick", N, "pickKnown", "| none => []", "| none => pickKnown modules xs", "C23: components after an error")
s("net-padlast", N, "padLast", "[if e.length = 2 then e ++ [none] else e]", "[if e.length = 2 then none :: e else e]", "C13: link")
s("net-addall", N, "addAll", "| (s', .ok _) => addAll s' l", "| (_, .ok _) => addAll s l", "C61: all components are added")
s("net-unterm", N, "unterminate", "match dictGet ['b', 'a', 's', 'e'] s.modules with\n  | none => .error .attributeError", "match dictGet ['b', 'a', 's', 'e'] s.modules with\n  | none => .error .keyError", "C21: unterminate of an unterminated network")
s("stk-setenv", Z, "EnvProg.run", "| .setEnv g, s => (envEnter ⟨s.fresh, g⟩ { s with fresh := s.fresh + 1 }, .ok ())", "| .setEnv g, s => (envEnter ⟨s.fresh, g⟩ s, .ok ())", "C09: set_environment makes new environments")
s("stk-net", Z, "NetProg.run", "| x :: _ => ({ s with added := s.added ++ [(x, n)] }, .ok ())", "| x :: _ => ({ s with added := (s.stack.map fun y => (y, n)) ++ s.added ++ [(x, n)] }, .ok ())", "C22: components are registered in the innermost network")
s("src-missing", U, "addMissing", "if x.names.contains (some n) then x else x.unsqueezeBack n", "x.unsqueezeBack n", "C38: named sources")
s("src-dim", U, "broadcastDim", "else if a = 1 then .ok b else", "else if a = 1 then .ok 1 else", "C38: sources are broadcast")
s("sim-num", I, "Plant.numDet", "((List.finRange p.n).filter p.det).length", "((List.finRange p.n).filter p.src).length", "C36: detected fields")
s("sim-add", I, "Fields.add", "fun w => x.im w + y.im w", "fun w => y.im w", "C26: sources are added")
s("sim-read", I, "readBuffer", "* s.1.im w k b).sum", "* s.1.re w k b).sum", "C26: imaginary parts of delayed fields")
s("sim-rhs", I, "blockRhs", "Matrix.fromRows M 0", "Matrix.fromRows 0 M", "C25: elimination of memoryless ports")
s("sim-loop", I, "simulate", "simulate r cs src ts (i + 1) (pushBuffer x buf)", "simulate r cs src ts i (pushBuffer x buf)", "C26: source at each time")
s("cmp-conn", C, "connectionS", "(SMat.zero.setRe 0 1 1).setRe 1 0 1", "(SMat.zero.setRe 0 1 1).setRe 1 0 (-1)", "C42: connections are transparent")
s("cmp-real-k", C, "realisticCouplerS", "let kappa := -Real.sin", "let kappa := Real.sin", "C42: sign of the coupling (stays unitary)")
s("cmp-lin", C, "linearSoaS", "SMat.zero.setRe 0 1 amplification", "SMat.zero.setRe 1 0 amplification", "C43: direction of the amplifier")
s("cmp-prop", C, "propagation", "* length / wl)", "* length)", "C45: phase of propagation")
s("soa-actor", A, "Agrawal.psat", "/ (q.gamma * q.tc * q.a)", "/ (q.gamma * q.tc)", "C47: saturation power")
s("soa-g0", A, "Agrawal.g0", "(q.I / q.threshold - 1)", "(q.I / q.threshold)", "C47: gain vanishes at threshold")
s("mesh-mix", M, "mixingRingConns", "[conn4 (mziN i) 3 (wgN (2 * i)) 0,", "[conn4 (mziN i) 3 (wgN (2 * i + 1)) 0,", "C58: ring networks")
s("mesh-term", M, "meshTerms", "(lbl ['d'] i, { Part.dev .detector with comp := { detector with", "(lbl ['d'] i, { Part.dev .detector with comp := { source with", "C56: detectors at the outputs")
s("mesh-phase", M, "phaseConns", "[conn3 (wgN i) 0 i, conn3 (wgN i) 1 (N + i)]", "[conn3 (wgN i) 1 i, conn3 (wgN i) 0 (N + i)]", "C57: (equivalent: waveguides are reciprocal)")
s("mesh-last", M, "clementsLast", "if capacity % 2 = 0 then phaseArray N wg else mixingArray N mz wg", "phaseArray N wg", "C57: number of layers of odd capacity")
