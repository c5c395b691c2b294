SEEDS = []
def s(id, file, definition, old, new, claim, **k): SEEDS.append(dict(id=id, file=file, definition=definition, old=old, new=new, claim=claim, **k))
RO = "Model/Rounded.lean"; RD = "Model/RoundedDelay.lean"; CK = "Model/Checkpoint.lean"; EN = "Model/Env.lean"; SM = "Model/Sim.lean"
SA = "Model/SourceArg.lean"; ST = "Model/Str.lean"; ME = "Model/Mesh.lean"; TP = "Model/Topology.lean"; DV = "Model/Devices.lean"; TR = "Model/Train.lean"
SH = "Model/Shared.lean"; DT = "Model/Detector.lean"
s("d14-save", CK, "saveNet", "os.map fun p => (p.1, p.2.saved)", "(os.drop 1).map fun p => (p.1, p.2.saved)", "every component is saved")
s("d14-make", EN, "Env.make", "Env.init (defaultArgs.update o)", "Env.init defaultArgs", "given arguments are used")
s("d14-div", RO, "pyDivR", "(pyDiv x y).map rd", "pyDiv x y", "quotients are rounded")
s("d14-divarr", RO, "npDivArrR", "(npDivArr x l).map fun l => l.map rd", "npDivArr (rd x) l", "quotients of arrays are rounded")
s("d14-darg", RO, "divArgR", "| .given (.scalar q) => do return .given (.scalar (← pyDivR rd c q))", "| .given (.scalar q) => do return .given (.scalar (← pyDivR rd q c))", "wavelength from frequency")
s("d14-wlarg", RO, "wlArgOfR", "if !a.f.isDefault then divArgR rd c a.f else .ok a.wl", "if !a.f.isDefault then .ok a.f else .ok a.wl", "a frequency is converted to a wavelength")
s("d14-wlb", RO, "wlBoundOfR", "if !fArg.isDefault then do pyDivR rd c (← fArg.val) else wlArg.val", "if fArg.isDefault then do pyDivR rd c (← fArg.val) else wlArg.val", "bounds of wavelengths from frequencies")
s("d14-wls", RO, "wlStepOfR", "pyDivR rd (rd (wl1 - wl0))", "pyDivR rd (rd (wl1 + wl0))", "the step between wavelengths")
s("d14-top", RO, "freqTopR", "if !a.wl0.isDefault then do pyDivR rd c (← a.wl0.val) else a.f1.val", "if !a.wl1.isDefault then do pyDivR rd c (← a.wl1.val) else a.f1.val", "the highest frequency belongs to the shortest wavelength")
s("d14-maker", RO, "Env.makeR", "Env.initR rd ((defaultArgsR rd).update o)", "Env.initR rd (defaultArgs.update o)", "the defaults are rounded")
s("d14-fl32", RD, "fl32", "roundEven (x / 2 ^ place32 x) * 2 ^ place32 x", "⌊x / 2 ^ place32 x⌋ * 2 ^ place32 x", "rounding to the nearest single precision number")
s("d14-mc", SM, "mcPorts", "(List.finRange p.n).filter (p.mcAt env)", "(List.finRange p.n).filter fun i => !p.mcAt env i", "memory-containing ports")
s("d14-mc2", SM, "mcPorts", "(List.finRange p.n).filter (p.mcAt env)", "((List.finRange p.n).filter (p.mcAt env)).reverse", "order of the memory-containing ports")
s("d14-max", SM, "maxReal", "(List.ofFn f).foldr max 0", "(List.ofFn f).foldr (· + ·) 0", "the buffer has the length of the longest delay")
s("d14-max2", SM, "maxReal", "(List.ofFn f).foldr max 0", "(List.ofFn f).foldr min 0", "the buffer has the length of the longest delay")
s("d14-split", ST, "splitColon", "s.splitOn ':'", "s.splitOn ','", "ports are separated by colons")
s("d14-digit", ST, "digitChar", "Char.ofNat (48 + d)", "Char.ofNat (49 + d)", "decimal digits")
s("d14-mzin", ME, "mziN", "lbl ['m', 'z', 'i'] i", "lbl ['m', 'z', 'i'] 0", "names of the interferometers of a mesh")
s("d14-layer", ME, "layerN", "lbl ['l', 'a', 'y', 'e', 'r'] i", "lbl ['l', 'a', 'y', 'e', 'r'] (i / 2)", "names of the layers of a mesh")
s("d14-np", TP, "Comps.numPorts", "(l.map fun p => p.2.n).sum", "l.length", "number of ports of a network")
s("d14-single", DV, "Submodules.single", ".cons o st children .nil", ".cons o st .nil children", "tree of submodules")
s("d14-plain", TR, "plain", "(a, .number x, false)", "(a, .number x, true)", "plain attributes are not trainable")
s("d14-world", SH, "Session.world", "S.stage e).c (S.stage e).wl", "S.stage e).c fun _ => 0", "components see the wavelengths of the environment")
s("d14-hand", SA, "handleArg", "handleSource numT numWl numSrc numMc (← a.toTensor)", "handleSource numWl numT numSrc numMc (← a.toTensor)", "axes of the source")
