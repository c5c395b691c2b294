SEEDS = []
def s(id, file, definition, old, new, claim, **k): SEEDS.append(dict(id=id, file=file, definition=definition, old=old, new=new, claim=claim, **k))
H = "Model/Shared.lean"; G = "Model/Gear.lean"; D = "Model/Detector.lean"; DC = "Model/DetectorCall.lean"; V = "Model/Device.lean"; P = "Model/Plot.lean"; S = "Model/Signal.lean"; I = "Model/Sim.lean"; A = "Model/Soa.lean"; O = "Model/Source.lean"; K = "Model/Stack.lean"; R = "Model/Str.lean"; T = "Model/Topology.lean"; N = "Model/Network.lean"; E = "Model/Env.lean"; C = "Model/Cache.lean"; GR = "Model/Graph.lean"; AT = "Model/Attr.lean"; M = "Model/Mesh.lean"
# survivors of earlier rounds, against the present theorems
s("net-unterm2", I, "initNet", "if ¬ p.terminated ∨ (p.mcPorts env).length = 0 then .ok none", "if (p.mcPorts env).length = 0 then .ok none", "C21: a network with free ports is not initialized", tightened=["C21_not_terminated added after the survival of net-unterm"])
s("soa-actor2", A, "Agrawal.psat", "/ (q.gamma * q.tc * q.a)", "/ (q.gamma * q.tc)", "C47: the saturation power", tightened=["C47_physics_partial added after the survival of soa-actor"])
s("top-soa2", T, "soa", "if i = 1 ∧ j = 1 then 1 else 0, List.range 3", "if i = 2 ∧ j = 2 then 1 else 0, List.range 3", "C99: the state of the amplifier is fed back", tightened=["C98_soas, C99_step added after the survival of top-soa"])
# sessions
s("sh-refuse", H, "Kind.refuses", "if env.freqdomain then some .runtimeError else none", "none", "C101: failed calls")
s("sh-gear-dt", H, "Kind.gear", "| .soa q => q.gear ((s.bind fun s => s.sim.dt).getD 0)", "| .soa q => q.gear 0", "C101: the amplifier uses the time step of its environment")
s("sh-fails", H, "Kind.fails", "if s.sim.dt.isNone then some .typeError else none", "none", "C101: an amplifier without time step fails")
s("sh-order", H, "Session.initObjects", "S.initObjects e is (Function.update envs i (some e))", "S.initObjects e is envs", "C101: initialize stores the environment in the components")
s("sh-stop", H, "Session.initOn", "({ b with envs := r.1 }, some x)", "(b, some x)", "C101: what a failed call leaves behind")
s("sh-net", H, "Session.initOn", "Function.update b.nets k d.1", "Function.update b.nets 0 d.1", "C101: every network keeps its own state")
s("sh-call", H, "Session.call", "if (b.nets k).env ≠ some e ∨ grad = true then", "if (b.nets k).env ≠ some e then", "C101: with gradient tracking every call initializes")
s("sh-env", H, "Session.call", "if (b.nets k).env ≠ some e ∨ grad = true then", "if (b.nets k).env = none ∨ grad = true then", "C101: a call in another environment initializes")
# gears
s("gear-dev", G, "soaDev", "if i = j ∧ i < 3 then 1 else 0", "if i = j ∧ i < 2 then 1 else 0", "C99: what leaves the output of the amplifier")
s("gear-delay", G, "Agrawal.gear", "if i = 0 then q.delay v else 0", "q.delay v", "C99/C47: only the input is delayed")
s("gear-actors", G, "gearActors", "(usedNames (conns.map stripConn)).filterMap fun x => (dictGet x modules).map fun g => g.actor", "modules.map fun p => p.2.actor", "C98: actions in the order of mention")
s("gear-src", G, "mkGear", "((List.range d.comp.n).filter fun i => d.comp.src.getD i false).length", "0", "C100: the offset of nested actions")
s("gear-part", G, "Part.gear", "⟨p.n, false, fun _ _ x => x⟩", "⟨p.n, true, fun _ _ x => x⟩", "C98: passive components do not act")
# detectors
s("det-loop", D, "lfilterLoop", "lfilterLoop b a x k (n + 1) (ys ++ [v])", "lfilterLoop b a x k (n + 1) (v :: ys)", "C54: the filter of detectors")
s("det-map2", D, "Ten.map₂", "fun i => map₂ f s (x i) (y i)", "fun i => map₂ f s (y i) (x i)", "C83: noise is added to the signal")
s("det-low-order", D, "lowpassDetect", "(p.scale responsivity).lowpass butter samplerate cutoff", "(p.lowpass butter samplerate cutoff)", "C55: responsivity")
s("det-default", DC, "detDefault", "⟨160e9, 20e9, 4, 1⟩", "⟨160e9, 20e9, 4, 2⟩", "C83: default responsivity")
s("det-photo", DC, "photoForward", "detForward butter p.toDetParams env ⟨a.samplerate, some cutoff, a.order, some 1⟩", "detForward butter p.toDetParams env ⟨a.samplerate, some cutoff, a.order, some responsivity⟩", "C83: the responsivity is applied once")
# devices
s("dev-offin", V, "ofFin", "M ⟨i, h.1⟩ ⟨j, h.2⟩", "M ⟨j, h.2⟩ ⟨i, h.1⟩", "C94: direction of scattering")
s("dev-mk", V, "mkDev", "netDev c (usedDevs modules (usedNames (conns.map stripConn)))", "netDev c modules", "C94: components in the order of mention")
s("dev-plant-delay", V, "Dev.plant", "delay := fun i => d.delay v i", "delay := fun i => d.delay 1 i", "C81/C94: delays depend on the speed of light")
s("dev-plant-wl", V, "Dev.plant", "iS := fun w => Matrix.of fun i j => d.iS (wl w) i j", "iS := fun w => Matrix.of fun i j => -d.iS (wl w) i j", "C94: phases")
# graph
s("graph-edges", GR, "everySecond", "| x :: _ :: l => x :: everySecond l", "| _ :: x :: l => x :: everySecond l", "C60: edges between names")
# plot
s("plot-squeeze", P, "Arr.squeeze", "⟨y.shape.filter fun n => n ≠ 1, fun i => y.get (unsqueeze y.shape i)⟩", "⟨y.shape.filter fun n => n ≠ 1, y.get⟩", "C78: curves show the data")
s("plot-reshape", P, "Arr.reshape", "(i.getD 0 0 * (y.shape.prod / n) + i.getD 1 0)", "(i.getD 1 0 * n + i.getD 0 0)", "C78: curves show the data")
s("plot-labels", P, "curves2", "⟨labels[j]?, ", "⟨labels[j + 1]?, ", "C78: labels")
s("plot-det", P, "detLabels", "(cs.filter fun c => c.isDet).map fun c => .det c.name", "cs.map fun c => .det c.name", "C78: labels are those of the detectors")
s("plot-wl", P, "wlLabels", ".nm (pyTrunc (10 ^ 9 * x))", ".nm (pyTrunc (10 ^ 6 * x))", "C78: wavelengths in nm")
s("plot-unit", P, "axisUnit", "if -15 ≤ axisExponent m ∧ axisExponent m ≤ 12 then", "if -12 ≤ axisExponent m ∧ axisExponent m ≤ 12 then", "C78: units of the axis")
s("plot-axis", P, "plot", "⟨true, c, f, t.map fun v => (v : ℝ) * 10 ^ (-f)⟩", "⟨true, c, f, t.map fun v => (v : ℝ) * 10 ^ f⟩", "C78: the axis")
# signals
s("sig-mean", S, "meanAll", "/ (x.length * Fintype.card ι : ℕ))", "/ (x.length : ℕ))", "C53: the loss is a mean")
s("sig-norm", S, "normalize", "(r i - meanRow x i) / stdAll x", "r i / stdAll x", "C52: the target is compared with its mean")
s("sig-from", S, "filterFrom", "filterFrom b a (x :: xs) (filterNext b a (x :: xs) ys :: ys) rest", "filterFrom b a (x :: xs) (filterNext b a xs ys :: ys) rest", "C71: the filter is causal without delay")
s("sig-rev", S, "scipyFilter", "(filterFrom b a [] [] x).reverse", "filterFrom b a [] [] x", "C71: order in time")
# simulation
s("sim-ml", I, "mlPorts", "(List.finRange p.n).filter fun i => !p.mcAt env i", "(List.finRange p.n).filter fun i => !p.mcAt env i && !p.det i", "equivalent: detectors are memory containing")
s("sim-tonodes", I, "toNodes", "(fun w b => x.re w k b, fun w b => x.im w k b)", "(fun w b => x.re w k b, fun w b => x.re w k b)", "C98: actions see the imaginary part")
s("sim-numact", I, "numAct", "def numAct : ℕ := ((List.finRange p.n).filter p.act).length", "def numAct : ℕ := ((List.finRange p.n).filter p.det).length", "C98: actions are called if there are active ports")
s("sim-fwd-slice", I, "forwardReduced", "if sliceLen r.m r.numDet = r.numDet ∨ env.t = [] then", "if True then", "C30: networks without detectors")
s("sim-src", I, "forwardReduced", "(fun i => padSource r.m r.numSrc (src i)) env.t 0", "(fun i => padSource r.m r.numSrc (src i)) env.t 1", "C31: the first source value is used")
s("soa-vol", A, "volume", "q.L * q.H * q.W", "q.L * q.H", "C47: the volume")
s("src-handle", O, "handleSource", "let y := addImag (alignTo (addMissing x sourceNames))", "let y := alignTo (addMissing x sourceNames)", "C25: real sources")
s("src-fwd", O, "forwardTensor", "(y.elem 0 t w k b, y.elem 1 t w k b)", "(y.elem 1 t w k b, y.elem 0 t w k b)", "C25: real and imaginary part")
# environments
s("stack-attr", K, "constructAttrs", "(kvs.map (fun kv => AttrOp.setattr kv.1 kv.2) ++ [AttrOp.setattr initializedName yes])", "([AttrOp.setattr initializedName yes] ++ kvs.map (fun kv => AttrOp.setattr kv.1 kv.2))", "C03: attributes are set before the lock")
s("env-deft", E, "defaultT", "(List.range 100).map fun", "(List.range 101).map fun", "C02: default times")
s("env-arr", E, "arrOf", "| .given (.scalar q) => .ok (some [q])", "| .given (.scalar q) => .ok (some [0, q])", "C05: a scalar wavelength")
s("env-head", E, "headOf", "| some (x :: l) => .ok (x :: l, x)", "| some (x :: l) => .ok (x :: l, l.headD x)", "C05: wl0 is the first wavelength")
s("env-alias", E, "resolveAliases", "t1 := k.t_end.getD a.t1", "t1 := k.t_start.getD a.t1", "C08: aliases")
# strings, topology
s("str-digit", R, "digitVal", "if 48 ≤ c.toNat ∧ c.toNat ≤ 57", "if 48 ≤ c.toNat ∧ c.toNat ≤ 56", "C13: ports up to nine")
s("str-parse", R, "parseDigits", "| some d => parseDigits (acc * 10 + d) true cs", "| some d => parseDigits (acc + d) true cs", "C13/C56: ports with two digits")
s("str-dictset", R, "dictSet", "if k' = k then (k, v) :: l else", "if k' = k then (k', v') :: l else", "C15: the last declaration counts")
s("top-setc", T, "setC", "(ps.filterMap id).foldl (fun C p => connect C p.1 p.2) (blockC l)", "(ps.filterMap id).foldl (fun C p => connect C p.1 p.2) (fun _ _ => 0)", "C96: connections inside sub-networks")
s("top-order", T, "setPortOrder", "applyOrder (blockOrder l)", "applyOrder (List.range l.numPorts)", "C96: order of the ports of sub-networks")
s("top-strip", T, "stripConn", "joinColon ((splitColon conn).map strip)", "conn", "C17: white space")
s("top-name", T, "netBuffers", "l.flatMap (·.2.det),\n      l.flatMap (·.2.act), true⟩", "l.flatMap (·.2.det),\n      l.flatMap (·.2.act), false⟩", "C98: networks may mix active and passive components")
s("net-split", N, "splitArg", "| .str s => .ok ((splitColon s).map some)", "| .str s => .ok [some s]", "C13: link")
s("net-append", N, "appendThen", "| .error e => (a.1, .error e)", "| .error e => ([], .error e)", "C22: connections appended by a failed link")
s("net-new", N, "newNetwork", "{ s with conns := s.conns ++ connections }", "{ s with conns := connections.reverse ++ s.conns }", "C12/C97: order of the connections")
s("net-named", N, "namedTerm", "| some x => .ok (x, c)", "| some x => .ok (x ++ ['0'], c)", "C20: terms keep their names")
s("cache-fits", C, "runStored", "if s.numMc = r.m ∧ k = r.maskLen then forwardReduced r (wd.sim e) cs src", "if True then forwardReduced r (wd.sim e) cs src", "C40: what is left behind by a failed initialize")
s("attr-buffer", AT, "registerBuffer", "if s.has a && (s.buffers a).isNone then (s, some .keyError)", "if False then (s, some .keyError)", "C62: taken names")
s("mesh-mixing", M, "mixingRing", "if N % 2 = 1 then .error .valueError\n  else mkDev none (((List.range N)", "if N % 2 = 0 then .error .valueError\n  else mkDev none (((List.range N)", "C86: rings of even size")
s("mesh-ringarr", M, "ringArray", "(List.range (2 * (N / 2) - 1)).map fun i => (mziN i, (mz i).dev)", "(List.range (2 * (N / 2) - 1)).map fun i => (mziN i, (mz 0).dev)", "C86: every interferometer is its own")
