SEEDS = []
def s(id, file, definition, old, new, claim, **k): SEEDS.append(dict(id=id, file=file, definition=definition, old=old, new=new, claim=claim, **k))
AT = "Model/Attr.lean"; BO = "Model/Bounded.lean"; CA = "Model/Cache.lean"; CK = "Model/Checkpoint.lean"; CO = "Model/Components.lean"; CN = "Model/Construct.lean"
DE = "Model/Detector.lean"; DC = "Model/DetectorCall.lean"; DV = "Model/Devices.lean"; EN = "Model/Env.lean"; GE = "Model/Gear.lean"; ME = "Model/Mesh.lean"
NE = "Model/Network.lean"; NU = "Model/Numbers.lean"; PL = "Model/Plot.lean"; PY = "Model/Py.lean"; RO = "Model/Rounded.lean"; SH = "Model/Shared.lean"
SW = "Model/Show.lean"; SG = "Model/Signal.lean"; SI = "Model/Sim.lean"; SO = "Model/Soa.lean"; SR = "Model/Source.lean"; SA = "Model/SourceArg.lean"
ST = "Model/Stack.lean"; STR = "Model/Str.lean"; TO = "Model/Topology.lean"; TR = "Model/Train.lean"; WA = "Model/Warning.lean"
s("at-raw2", AT, "AVal.raw", "| .bounded w _ _ => w", "| .bounded _ a _ => (a : EReal)", "C130: the raw value of bounded parameters is saved", tightened=["C130_restores_partial (at-raw survived before it existed)"])
s("ck-key", CK, "Obj.saved", "| none => (o.attrs.buffers k).map AVal.raw", "| none => none", "C130: buffers are saved")
s("ck-w", CK, "Obj.load", "weights := s.weights }", "weights := o.weights }", "C130: weights of an Mmi are loaded")
s("ck-strict", CK, "Obj.load", "(∀ k, (o.saved.entries k).isSome = (s.entries k).isSome)", "(∀ k, (o.saved.entries k).isSome → (s.entries k).isSome)", "C130: strict loading")
s("ck-buf", CK, "AVal.store", "| .buffer _ => .buffer x.toReal", "| .buffer y => .buffer y", "C130: buffers are loaded")
s("ck-bnd", CK, "AVal.store", "| .bounded _ lo hi => .bounded x lo hi", "| .bounded w lo hi => .bounded w lo hi", "C130: bounded parameters are loaded")
s("ck-shape", CK, "MmiWeights.shape", "(w.k, w.m, w.n)", "(w.k, w.n, w.m)", "C130: shapes (the same for both sides: no claim breaks)")
s("ck-net", CK, "loadNet", "sd.find? (fun q => q.1 == p.1)", "sd.find? (fun q => q.1 != p.1)", "C130: every component loads its own entries")
s("at-fall", AT, "fallback", "match s.params a with\n  | some v => .ok v.raw\n  | none => match s.buffers a with\n    | some v => .ok v.raw", "match s.buffers a with\n  | some v => .ok v.raw\n  | none => match s.params a with\n    | some v => .ok v.raw", "C83: parameters are found before buffers")
s("at-read", AT, "read", "| some (.bounded w lo hi) => .ok (boundedValue w lo hi : ℝ)", "| some (.bounded w _ _) => .ok w", "C83: bounded parameters read as their bounded value")
s("at-regp", AT, "registerParam", "if s.has a && (s.params a).isNone then (s, some .keyError)", "if s.has a then (s, some .keyError)", "C83: a bounded parameter can be replaced")
s("at-regb", AT, "registerBuffer", "if s.has a && (s.buffers a).isNone then (s, some .keyError)", "if false then (s, some .keyError)", "C83: buffers cannot replace other attributes")
s("at-obj", AT, "objectSet", "if s.props a then (s, some .attributeError)", "if false then (s, some .attributeError)", "C83: a bounded attribute cannot be assigned")
s("at-oth", AT, "torchSetOther", "if (s.params a).isSome then (s, some .typeError)", "if false then (s, some .typeError)", "C83: numbers cannot replace parameters")
s("at-ten", AT, "torchSetOther", "if tensor then ({ s with buffers := setKey s.buffers a (some v) }, none) else (s, some .typeError)", "({ s with buffers := setKey s.buffers a (some v) }, none)", "C83: numbers cannot replace buffers")
s("at-torch", AT, "torchSet", "registerParam { s with dict := setKey s.dict a none, buffers := setKey s.buffers a none } a v", "registerParam { s with dict := setKey s.dict a none } a v", "C83: a parameter replaces a buffer")
s("at-set", AT, "set", "({ s' with props := setKey s'.props a true }, none)", "(s', none)", "C83: bounded parameters can be read under their name")
s("at-set2", AT, "set", "match s.registerParam ('_' :: a) v with", "match s.registerParam a v with", "C83: the weight is registered with an underscore")
s("at-run", AT, "run", "let q := run r.1 h", "let q := run s h", "C83: assignments are made one after the other")
s("bo-upd", BO, "Bounded.update", "x.1 + ((δ.getD x.2 0 : ℝ) : EReal)", "((boundedValue x.1 p.lo p.hi + δ.getD x.2 0 : ℝ) : EReal)", "C37: training changes the unbounded weight")
s("ca-new", CA, "CacheState.new", "⟨θ, none, none, 0, []⟩", "⟨θ, none, none, 1, []⟩", "C37: state before the first initialisation")
s("ca-run", CA, "runStored", "if s.numMc = r.m ∧ k = r.maskLen then", "if k = r.maskLen then", "C37: memory of a network of other size")
s("ca-err", CA, "runStored", "| _, _ => .error .attributeError", "| _, _ => .error .runtimeError", "C37: error before the first initialisation")
s("co-setre", CO, "setRe", "if a = i ∧ b = j then v", "if a = j ∧ b = i then v", "C14: (symmetric writes: may be equivalent)")
s("co-setim", CO, "setIm", "if a = i ∧ b = j then v else S.im a b", "if a = i ∧ b = j then v else 0", "C14, C15: entries of scattering matrices")
s("co-delay", CO, "delay", "| mzi _ _ _ ng _ length _ => lengthDelay ng length c\n  | _ => 0", "| mzi _ _ neff _ _ length _ => lengthDelay neff length c\n  | _ => 0", "C13: group index sets the delay")
s("co-delay2", CO, "delay", "| longCoupler length _ _ _ _ ng _ => lengthDelay ng length c", "| longCoupler _ _ _ _ _ _ _ => 0", "C13: delay of couplers with length")
s("cn-val", CN, "Ratio.value", "| .bounded p => p.values.headD 0", "| .bounded p => (p.weights.headD 0).toReal", "C45: value of ratios")
s("de-mul", DE, "mulSum", "(List.zipWith (fun a r => a • r) c v).sum", "(List.zipWith (fun a r => a • r) c.reverse v).sum", "C53, C55: filter taps are in order")
s("de-mul1", DE, "mulSum", "| [a], _ => .ok (v.map fun r => a • r).sum", "| [_], _ => .error .runtimeError", "C55, C73: broadcasting in short signals")
s("de-sq", DE, "sq", "fun a _ => a ^ 2", "fun a _ => a", "C54: detectors square the amplitude")
s("de-scale", DE, "Sig.scale", "c • r", "(c ^ 2) • r", "C54: detector signals are linear in power")
s("dc-def", DC, "photoDefault", "photoNew 160e9 20e9 4 1 1e-10 166 randn", "photoNew 160e9 20e9 4 1 166 1e-10 randn", "C86: default parameters")
s("dv-set", DV, "Devices.setTensor", "if x = st then p else s.tensor x", "p", "C84: only own tensors are moved")
s("dv-cpu", DV, "moduleCpu", "moduleTo (some .cpu) m s", "moduleTo none m s", "C84: cpu() moves")
s("dv-app", DV, "Submodules.append", "| .cons o st c r, m => .cons o st c (r.append m)", "| .cons o st c _, m => .cons o st c m", "C84: all components are moved")
s("en-isd", EN, "isDefault", "| .given _ => false\n  | _ => true", "| .none => true\n  | .dflt _ => true\n  | .given _ => true", "C01: given arguments are used")
s("en-val", EN, "val", "| .none => .error .typeError", "| .none => .error .valueError", "C01: error for None")
s("en-t1", EN, "defaultArgs", "t1 := .dflt (1 / 10 ^ 12)", "t1 := .dflt (1 / 10 ^ 11)", "C01, C04: default end of time")
s("en-c", EN, "defaultArgs", "c := .dflt 299792458", "c := .dflt 300000000", "C01: speed of light")
s("en-wl1", EN, "defaultArgs", "wl1 := .dflt (16 / 10 ^ 7)", "wl1 := .dflt (15 / 10 ^ 7)", "C01: default wavelengths")
s("en-div", EN, "divArg", "| .given (.scalar q) => do return .given (.scalar (← pyDiv c q))", "| .given (.scalar q) => do return .given (.scalar (← pyDiv q c))", "C01: wl = c / f")
s("en-top", EN, "freqTop", "do pyDiv c (← a.wl0.val) else a.f1.val", "do pyDiv c (← a.wl1.val) else a.f1.val", "C06: frequency range from wavelengths")
s("en-bot", EN, "freqBottom", "do pyDiv c (← a.wl0.val) else a.f0.val", "do pyDiv c (← a.wl1.val) else a.f0.val", "C06: the code uses wl0 for both ends")
s("en-last", EN, "lastD", "l.getLastD 0", "l.headD 0", "C04: end of the grid")
s("en-last2", EN, "last2D", "l.dropLast.getLastD 0", "l.getLastD 0", "C04: last step of the grid")
s("en-pub", EN, "publicExtras", "kv.1.head? != some '_'", "true", "C01: private attributes are not copied")
s("en-merge", EN, "mergeExtras", "(new.lookup kv.1).getD kv.2", "kv.2", "C02: extra attributes can be overridden")
s("en-mkw", EN, "Env.makeWith", "Env.init (resolveAliases (defaultArgs.update o) k)", "Env.init (defaultArgs.update o)", "C82: aliases are resolved")
s("en-cpw", EN, "Env.copyWith", "resolveAliases (e.toArgs.update o)", "resolveAliases (defaultArgs.update o)", "C82: copies keep the other values")
s("me-r2", ME, "range2", "(b - a + 1) / 2", "(b - a) / 2", "C57: interferometers of a layer")
s("me-mr", ME, "mixingRing", "(List.range (N / 2)).map fun i => (mziN i, (mz i).dev)) (mixingRingConns N)", "(List.range (N / 2)).map fun i => (mziN i, (mz 0).dev)) (mixingRingConns N)", "C58: every interferometer has its own phases")
s("me-ra", ME, "ringArray", "if N % 2 = 1 then .error .valueError\n  else mkDev none (((List.range 2)", "mkDev none (((List.range 2)", "C58: odd widths raise")
s("ne-split", NE, "splitArg", "| _ => .error .attributeError", "| _ => .error .typeError", "C30: errors of link")
s("ne-fmt", NE, "fmt", "| none => ['N', 'o', 'n', 'e']", "| none => []", "C30: formatting of missing ports")
s("ne-app", NE, "appendThen", "| .error e => (a.1, .error e)", "| .error e => ([], .error e)", "C30: connections made before an error stay")
s("ne-link", NE, "linkConns", "if mid = [] then ([], .error .valueError)", "if mid = [] then ([], .ok ())", "C30: link of nothing raises")
s("ne-link2", NE, "linkConns", "appendThen (linkIn first mid.head?) fun _ => linkOut (linkLast first rest).1 mid.getLast?", "appendThen (linkIn first mid.getLast?) fun _ => linkOut (linkLast first rest).1 mid.head?", "C30: ends of a link")
s("ne-new", NE, "newNetwork", "conns := s.conns ++ connections", "conns := connections", "C32: (conns is empty before: equivalent)")
s("ne-named", NE, "namedTerm", "match c.name with\n  | none => .error .typeError", "match c.name with\n  | none => .ok ([], c)", "C35: terms without name")
s("nu-add", NU, "floatAdd", "if (x = ⊤ ∧ y = ⊥) ∨ (x = ⊥ ∧ y = ⊤) then none else some (x + y)", "some (x + y)", "C121: infinities of opposite sign")
s("nu-val", NU, "valueNumber", "w.map fun w => boundedValue w a b", "w.map fun w => boundedValue w b a", "C121: value of bounded parameters")
s("pl-unsq", PL, "unsqueeze", "if n = 1 then 0 :: unsqueeze s i else", "if n ≤ 1 then 0 :: unsqueeze s i else", "C39: squeeze removes axes of length one")
s("pl-sq", PL, "squeeze", "y.shape.filter fun n => n ≠ 1", "y.shape.filter fun n => n ≠ 0", "C39: squeeze")
s("pl-tr", PL, "transpose", "i.getD (p.idxOf a) 0", "i.getD (p.getD a 0) 0", "C39: transposition by the inverse permutation")
s("pl-unr", PL, "unravel", "k / s.prod :: unravel s (k % s.prod)", "k % (s.prod + 1) :: unravel s (k / (s.prod + 1))", "C39: row-major order")
s("pl-resh", PL, "reshape", "i.getD 0 0 * (y.shape.prod / n) + i.getD 1 0", "i.getD 1 0 * n + i.getD 0 0", "C39: row-major order")
s("pl-c1", PL, "curve1", "y.get [i]", "y.get [y.shape.headD 0 - 1 - i]", "C39: curves show the data")
s("pl-bl", PL, "batchLabels", "[.batch i]", "[.batch (i + 1)]", "C39: labels of batches")
s("py-tr", PY, "pyTrunc", "if 0 ≤ q then ⌊q⌋ else ⌈q⌉", "⌊q⌋", "C04, C48: int() truncates towards zero")
s("py-div", PY, "pyDiv", "if y = 0 then .error .zeroDivision else", "if y = 0 then .ok 0 else", "C01: division by zero raises")
s("ro-fl", RO, "fl", "roundEven (x / 2 ^ place x) * 2 ^ place x", "roundEven (x * 2 ^ place x) * 2 ^ place x", "C70: rounding to the nearest double")
s("ro-step", RO, "stepArgR", "do pyDivR rd 1 (← a.samplerate.val) else a.dt.val", "do pyDiv 1 (← a.samplerate.val) else a.dt.val", "C70: every operation rounds")
s("ro-tend", RO, "timeEndR", "rd (lastD l + s)", "lastD l + s", "C70: every operation rounds")
s("ro-gend", RO, "gridEndR", "rd (lastD l + rd (lastD l - last2D l))", "rd (2 * lastD l - last2D l)", "C70: every operation rounds")
s("ro-bit", RO, "bitrateOfR", "return some (← pyDivR rd 1 (← a.bitlength.val))", "return some (← pyDiv 1 (← a.bitlength.val))", "C70: every operation rounds")
s("ro-copy", RO, "Env.toArgsR", "f1 := asDefault id e.f1 (defaultArgsR rd).f1", "f1 := asDefault id e.f0 (defaultArgsR rd).f1", "C70: copies keep their values")
s("sh-new", SH, "Session.objects", "dictGet x (S.parts k)", "(S.parts k).head?.map (·.2)", "C80: which components are initialized")
s("sh-run", SH, "Session.runOn", "| some x => if out = [] then .ok out else .error x", "| some _ => .ok out", "C80: errors of shared components")
s("sw-join", SW, "joinComma", '", ".toList.intercalate l', '",".toList.intercalate l', "C101: repr of environments")
s("sw-str", SW, "AttrVal.str", "| .text s => s\n  | .array l", "| .text s => ['x'] ++ s\n  | .array l", "C101: str of environments")
s("sw-opt", SW, "AttrVal.opt", "| none => .nothing", "| none => .num 0", "C101: None is shown")
s("sw-desc", SW, "descriptions", '("t1".toList, "[s] ending time of the simulation.".toList)', '("t1".toList, "[s] ending time".toList)', "C101: help of environments")
s("sg-mean", SG, "meanRow", "(x.map fun r => r i).sum / x.length", "(x.map fun r => r i).sum", "C50: mean over time")
s("si-sec", SI, "seconds", "(if env.freqdomain then 0 else 1)", "(if env.freqdomain then 1 else 1)", "C16: no delays in the frequency domain")
s("si-steps", SI, "steps", "p.seconds env i / dt + 1 / 2", "p.seconds env i / dt", "C18, C129: delays are rounded")
s("si-mc", SI, "mcAt", "p.src i || p.det i || p.act i || decide (0 < p.steps env i)", "p.src i || p.det i || p.act i || decide (1 < p.steps env i)", "C18: delays of one step are kept")
s("si-max", SI, "maxSteps", "Finset.univ.sup fun i => (f i).toNat", "Finset.univ.sup fun i => (f i).toNat - 1", "C19: length of the buffer")
s("si-of", SI, "ofNodes", "(l.getD k (fun _ _ => 0, fun _ _ => 0)).2 w b", "(l.getD k (fun _ _ => 0, fun _ _ => 0)).1 w b", "C65: imaginary parts of active components")
s("so-act", SO, "soaActor", "⟨3, true, soaAction dt dhdt⟩", "⟨2, true, soaAction dt dhdt⟩", "C65: nodes of amplifiers")
s("so-upd", SO, "SoaParams.update", "if q.trainable then", "if true then", "C88: only trainable parameters change")
s("so-g0", SO, "g0", "(q.I / q.threshold - 1)", "(q.I / q.threshold)", "C66: transparency current")
s("so-psat", SO, "psat", "q.W * q.H / (q.gamma * q.tc * q.a)", "q.W / q.H / (q.gamma * q.tc * q.a)", "C66: saturation power")
s("so-rate", SO, "rate", "(Real.exp (h.1 w b) - 1)", "(Real.exp (h.1 w b))", "C66: gain equation")
s("so-thr", SO, "threshold", "1.6e-19 * q.volume * q.N0 / q.tc", "1.6e-19 * q.volume * q.N0 * q.tc", "C66: transparency current")
s("sr-names", SR, "sourceNames", "['c', 't', 'w', 's', 'b']", "['c', 'w', 't', 's', 'b']", "C40: order of the axes of sources")
s("sr-front", SR, "NTensor.unsqueezeFront", "fun idx => x.elem idx.tail", "fun idx => x.elem idx.dropLast", "C40: broadcasting of sources")
s("sr-back", SR, "NTensor.unsqueezeBack", "x.names ++ [some name]", "x.names ++ [none]", "C40: names of sources")
s("sr-size", SR, "NTensor.size", "x.names.idxOf (some n)", "x.names.idxOf (some n) + 1", "C40: sizes of sources")
s("sa-stack", SA, "stackComplex", "if c = 0 then re idx else im idx", "if c = 0 then im idx else re idx", "C69: complex sources")
s("sa-num", SA, "SourceArg.toTensor", "| .pythonComplex _ _ _ => .error .valueError", "| .pythonComplex shape re im => .ok ⟨2 :: shape, none :: shape.map (fun _ => none), stackComplex re im⟩", "C69: complex lists are refused")
s("st-name", ST, "initializedName", "['_', 'i', 'n', 'i', 't', 'i', 'a', 'l', 'i', 'z', 'e', 'd']", "['i', 'n', 'i', 't', 'i', 'a', 'l', 'i', 'z', 'e', 'd']", "C07, C08: the lock of environments")
s("st-run", ST, "runAttrOps", "let r' := runAttrOps truthy r.1 ops", "let r' := runAttrOps truthy o ops", "C08: assignments one after the other")
s("str-space", STR, "isSpace", "c = ' ' || c = '\\t' ||", "c = '\\t' ||", "C22: blanks are stripped")
s("str-join", STR, "joinColon", "[':'].intercalate l", "[';'].intercalate l", "C22: connections")
s("str-parse", STR, "parseDigits", "parseDigits (acc * 10 + d) true cs", "parseDigits (acc + d) true cs", "C22: port numbers")
s("str-int", STR, "pyInt", "=> -(n : ℤ)", "=> (n : ℤ)", "C22: negative port numbers")
s("str-nat", STR, "natStr", "natStr (n / 10) ++ [digitChar (n % 10)]", "natStr (n % 10) ++ [digitChar (n / 10)]", "C57: names of components of large meshes")
s("str-set", STR, "dictSet", "if k' = k then (k, v) :: l else (k', v') :: dictSet k v l", "if k' = k then (k', v') :: l else (k', v') :: dictSet k v l", "C24: later entries win")
s("str-get", STR, "dictGet", "if k' = k then some v' else dictGet k l", "if k' = k then dictGet k l else some v'", "C22: components are found by name")
s("str-map", STR, "mapE", "| .ok bs => .ok (b :: bs)", "| .ok bs => .ok (bs ++ [b])", "C22: order of components")
s("to-term", TO, "Comp.terminated", "!(List.range c.n).any c.freeAt", "!(List.range c.n).all c.freeAt", "C29: what is terminated")
s("to-over", TO, "overlap", "(· && ·)", "(· || ·)", "C10: ports that are source and detector")
s("to-src", TO, "source", "def source : Comp := leaf 1 [true] [false] [false]", "def source : Comp := leaf 1 [true] [true] [false]", "C21: sources detect nothing")
s("to-det", TO, "detector", "def detector : Comp := leaf 1 [false] [true] [false]", "def detector : Comp := leaf 1 [false] [false] [false]", "C21: detectors detect")
s("to-glob", TO, "globalPort", "| some p => .ok (start + p)", "| some p => .ok p", "C22: port numbers of networks")
s("to-glob2", TO, "globalPort", "match pyIndex c.free i with\n    | none => .error .indexError", "match pyIndex c.free i with\n    | none => .ok start", "C23: ports out of range raise")
s("to-int", TO, "intOf", "| none => .error .valueError", "| none => .ok 0", "C23: ports that are no numbers raise")
s("to-setC", TO, "setC", "(blockC l)", "(fun _ _ => 0)", "C34: inner connections of networks in networks")
s("to-ord", TO, "orderDict", "dictSet e.2 e.1 d) []", "d ++ [(e.2, e.1)]) []", "C24: one port per external number")
s("to-clone", TO, "cloneAt", "match clone[idx]? with\n  | none => .error .indexError", "match clone[idx]? with\n  | none => .ok 0", "C24: external numbers out of range")
s("to-strip", TO, "stripConn", "(splitColon conn).map strip", "splitColon conn", "C22: blanks around names")
s("to-net", TO, "netBuffers", "l.flatMap (·.2.act), true⟩", "l.flatMap (·.2.src), true⟩", "C65: active ports of networks")
s("to-chk", TO, "netBuffers", "c.check.map fun _ => c", ".ok c", "C10: checks of networks")
s("tr-long", TR, "longCouplerSet", "(tau * l * c)).setIm2 2 3 (tau * l * s))", "(tau * l * c)).setIm2 2 3 (kappa * l * s))", "C117: scattering of couplers with length")
s("tr-wg", TR, "waveguideSet", "let ph := propagation length neff wl0 ng wl + phase", "let ph := propagation length neff wl0 ng wl", "C117: the phase of a waveguide")
s("tr-bump", TR, "AVal.bump", "| .bounded w lo hi => .bounded (w + (δ : EReal)) lo hi", "| .bounded w lo hi => .bounded (w + (δ : EReal)) lo (hi + δ)", "C117: bounds are kept")
s("tr-train", TR, "Obj.train", "if o.grad k then v.bump (δ.1 k) else v", "v.bump (δ.1 k)", "C117: only trainable parameters move")
s("tr-flag", TR, "Call.new", "flag ['t', 'r', 'a', 'i', 'n', 'a', 'b', 'l', 'e'] t, paramOrBuffer ['p', 'h', 'a', 's', 'e'] (modTwoPi phase) t]", "flag ['t', 'r', 'a', 'i', 'n', 'a', 'b', 'l', 'e'] t, paramOrBuffer ['p', 'h', 'a', 's', 'e'] phase t]", "C117: phases modulo 2 pi (the same scattering matrix: equivalent for dev)")
s("wa-warn", WA, "Plant.warns", "p.steps env i < 1", "p.steps env i < 2", "C102: warning about delays shorter than a step")
