SEEDS = []
def s(id, file, definition, old, new, claim, **k): SEEDS.append(dict(id=id, file=file, definition=definition, old=old, new=new, claim=claim, **k))
S = "Model/Sim.lean"; R = "Model/Source.lean"; C = "Model/Cache.lean"; N = "Model/Nested.lean"
s("sim-trunc-floor", S, "realTrunc", "if 0 ≤ x then ⌊x⌋ else ⌈x⌉", "if 0 ≤ x then ⌈x⌉ else ⌊x⌋", "C28: delays are rounded to the nearest step")
s("sim-steps-noround", S, "Plant.steps", "realTrunc (p.seconds env i / dt + 1 / 2)", "realTrunc (p.seconds env i / dt)", "C28: delays are rounded to the nearest step")
s("sim-freq-delay", S, "Plant.seconds", "(if env.freqdomain then 0 else 1)", "(if env.freqdomain then 1 else 1)", "C27: no delays in the frequency domain")
s("sim-mc-nodet", S, "Plant.mcAt", "p.src i || p.det i || p.act i ||", "p.src i || p.act i ||", "C26/C36: detectors are nodes")
s("sim-mc-step1", S, "Plant.mcAt", "decide (0 < p.steps env i)", "decide (1 < p.steps env i)", "C26: ports with a delay of one step are nodes")
s("sim-order-detfirst", S, "Plant.mcOrder", "(p.mcPorts env).filter (fun i => !(p.src i || p.act i || p.det i)) ++\n    (p.mcPorts env).filter p.det", "(p.mcPorts env).filter p.det ++\n    (p.mcPorts env).filter (fun i => !(p.src i || p.act i || p.det i))", "C36: detectors come last")
s("sim-order-actlast", S, "Plant.mcOrder", "(p.mcPorts env).filter p.src ++ (p.mcPorts env).filter p.act ++\n    (p.mcPorts env).filter (fun i => !(p.src i || p.act i || p.det i)) ++", "(p.mcPorts env).filter p.src ++\n    (p.mcPorts env).filter (fun i => !(p.src i || p.act i || p.det i)) ++ (p.mcPorts env).filter p.act ++", "C40: active ports follow the sources")
s("sim-block-sign", S, "blockReal", "Matrix.fromBlocks rP (-iP) iP rP", "Matrix.fromBlocks rP iP iP rP", "C25: the real system is the complex one")
s("sim-solve-nofail", S, "torchSolve", "if ∃ w, (P w).det = 0 then .error .runtimeError else .ok", "if ∀ w, (P w).det = 0 then .error .runtimeError else .ok", "C25: a singular system at any wavelength raises")
s("sim-redC-transpose", S, "reducedC", "(torchSolve (fun w => blockReal (rP w) (iP w)) (blockRhs (sub C ml mc)))", "(torchSolve (fun w => blockReal (rP w) (iP w)) (blockRhs (sub C mc ml)ᵀ))", "C26: memoryless ports are fed by nodes (needs no symmetry of C)")
s("sim-redC-order", S, "reducedC", "1 - sub C ml ml * sub (rS w) ml ml", "1 - sub (rS w) ml ml * sub C ml ml", "C25: reduction")
s("sim-redC-mul", S, "reducedC", "sub (iS w) ml ml * rx w + sub (rS w) ml ml * ix w", "sub (iS w) ml ml * rx w - sub (rS w) ml ml * ix w", "C25: complex multiplication")
s("sim-redC-nomc", S, "reducedC", "sub C mc ml * rx' w + sub C mc mc, fun w", "sub C mc ml * rx' w, fun w", "C26: direct connections between nodes")
s("sim-mask-slot", S, "reducedOf", "(max (p.steps env ((p.mcOrder env).get k) - 1) 0).toNat", "(p.steps env ((p.mcOrder env).get k)).toNat", "C28: a delay of d steps is d steps")
s("sim-masklen", S, "reducedOf", "maskLen := maxSteps (p.steps env) + 1", "maskLen := maxSteps (p.steps env)", "C28: mask and buffer have the same number of slots")
s("sim-init-terminated", S, "initNet", "if ¬ p.terminated ∨ (p.mcPorts env).length = 0 then .ok none", "if (p.mcPorts env).length = 0 then .ok none", "C26/C37: unterminated networks are not initialized")
s("sim-buffer-short", S, "bufferLen", ".ok ((realTrunc (maxReal r.seconds / dt + 1 / 2)).toNat + 1)", ".ok (realTrunc (maxReal r.seconds / dt + 1 / 2)).toNat", "C28: buffer size")
s("sim-empty-ones", S, "emptyBuffer", "⟨fun _ => 0, fun _ => 0⟩", "⟨fun _ => Matrix.of fun _ _ => 1, fun _ => 0⟩", "C26/C29: nothing before the start")
s("sim-step-nosource", S, "stepField", "let x := x.add srcvalue\n", "", "C26: sources are added")
s("sim-step-afterC", S, "stepField", "  cmul r.rC r.iC x\n", "  x\n", "C26: waves travel along connections")
s("sim-push-keep", S, "pushBuffer", "x :: buf.dropLast", "x :: buf", "C28 (unbounded buffer, same values: possibly equivalent)")
s("sim-push-end", S, "pushBuffer", "x :: buf.dropLast", "buf.dropLast ++ [x]", "C26: newest value first")
s("sim-detect-off", S, "detectNodes", "m - numDet)", "m - numDet - 1)", "C36: the last nodes are the detectors")
s("sim-pad-ones", S, "padSource", "if (k : ℕ) < numSrc then (s k w b).1 else 0", "if (k : ℕ) ≤ numSrc then (s k w b).1 else 0", "C36: only sources are driven")
s("sim-cmul-sign", S, "cmul", "rM w * x.re w - iM w * x.im w", "rM w * x.re w + iM w * x.im w", "C26: complex multiplication")
s("sim-action-noskip", S, "actionLoop", "else actionLoop t xin cs idx xout", "else actionLoop t xin cs (idx + c.numPorts) xout", "C40: passive components have no nodes")
s("sim-action-start", S, "netAction", "actionLoop t xin cs numSrc xin", "actionLoop t xin cs 0 xin", "C40: actions start after the sources")
s("sim-action-in", S, "actionLoop", "let slice := (xin.drop idx).take c.numPorts", "let slice := (xin.drop idx).take (c.numPorts + 1)", "C40: own ports only")
s("sim-action-write", S, "writeAt", "x.take idx ++ (vs.take (x.length - idx) ++ x.drop (idx + vs.length))", "x.take idx ++ (vs.take (x.length - idx) ++ x.drop (idx + vs.length + 1))", "C40: other nodes are unchanged")
s("sim-nodet-fixed", S, "sliceLen", "m - (if numDet = 0 then 0 else m - numDet)", "m - (m - numDet)", "C41 negation: networks without detectors fail (here they work)")
s("sim-power", S, "forwardPower", "u.1 ^ 2 + u.2 ^ 2", "u.1 ^ 2 - u.2 ^ 2", "C29_power")
s("nest-numports", N, "netActor", "⟨(cs.map Actor.numPorts).sum,", "⟨((cs.filter Actor.active).map Actor.numPorts).sum,", "C40 negation: nested networks shift later components (here they do not)")
s("src-imag", R, "addImag", "if c = 0 then x.elem 0 t w s b else 0", "x.elem 0 t w s b", "C38: real sources have zero imaginary part")
s("src-align", R, "alignTo", "if n = some 'c' then c else if n = some 't' then t else if n = some 'w' then w", "if n = some 'c' then c else if n = some 't' then w else if n = some 'w' then t", "C38: named dimensions")
s("src-pad-fixed", R, "fitTime", "t := x.t + (numT - x.c)", "t := x.t + (numT - x.t)", "C39 negation: short sources fail (here they work)")
s("src-cut", R, "fitTime", "else .ok { x with t := numT }", "else .ok { x with t := numT, elem := fun c t w s b => x.elem c (t + x.t - numT) w s b }", "C39: the first samples are kept")
s("src-wl", R, "checkSizes", "if 1 < x.w ∧ x.w ≠ numWl then .error .valueError\n  else ", "", "C38: wrong wavelength count raises ValueError (without the check the broadcast raises RuntimeError)")
s("src-pad-repeat", R, "padNodes", "if k < x.s then x.elem c t w k b else 0", "x.elem c t w (min k (x.s - 1)) b", "C38: other nodes get zero")
s("src-front", R, "nameDims", "else if x.shape.length = 4 then .ok { x.unsqueezeFront with names := sourceNames.map some }", "else if x.shape.length = 4 then .ok { x with names := ['t', 'w', 'b', 's'].map some }", "C38: unnamed order")
s("src-partly", R, "nameDims", "else if x.names.any Option.isSome then .error .valueError\n", "", "C38: partly named tensors raise ValueError")
s("src-names", R, "checkNames", "if x.names.all fun n => n.elim false sourceNames.contains then", "if x.names.all Option.isSome then", "C38: unknown names raise ValueError")
s("src-broadcast", R, "broadcastTo", "let pick (size i : ℕ) : ℕ := if size = 1 then 0 else i", "let pick (_size i : ℕ) : ℕ := i", "C38: size-1 dimensions are broadcast")
s("cache-always", C, "forwardCall", "if s.env ≠ some e ∨ grad = true then", "if True then", "C37 negation: stale parameters (here always initialized)")
s("cache-never", C, "forwardCall", "if s.env ≠ some e ∨ grad = true then", "if s.env = none ∨ grad = true then", "C37: a call in another environment initializes")
s("cache-atomic", C, "doInit", "| .error x => ({ s1 with delays := attemptDelays p env }, some x)", "| .error x => (s, some x)", "C62 negation: failed initialization leaves traces")
s("cache-noenv", C, "doInit", "({ s1 with env := some e, red := some r,", "({ s1 with red := some r,", "C37: env is remembered")
