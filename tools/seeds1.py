SEEDS = []
def s(id, file, definition, old, new, claim, expect=(), tightened=()):
    SEEDS.append(dict(id=id, file=file, definition=definition, old=old, new=new, claim=claim, expect=list(expect), tightened=list(tightened)))
E = "Model/Env.lean"; ST = "Model/Stack.lean"; T = "Model/Topology.lean"; N = "Model/Network.lean"
s("env-arange-inclusive", E, "arange", "(List.range num.natAbs).map fun (i : ℕ) => start + step * (i : ℚ)\n  else", "(List.range (num.natAbs + 1)).map fun (i : ℕ) => start + step * (i : ℚ)\n  else", "C03/C05: the grid has floor((t1-t0)/dt) samples / exactly N wavelengths")
s("env-arange-offset", E, "arange", "start + step * (i : ℚ)\n  else", "start + step * ((i + 1 : ℕ) : ℚ)\n  else", "C03/C05: sample i is start + i*step")
s("env-arange-empty", E, "arange", "return [start]", "return []", "C03: a single sample when the range is shorter than a step")
s("env-linspace-endpoint", E, "linspaceOpen", "(stop - start) / (num : ℚ)", "(stop - start) / ((num : ℚ) - 1)", "C02: sample i is t0 + i*dt (endpoint=True would divide by num-1)")
s("env-check-t-drop", E, "checkArgs", "  else if !a.t0.isDefault && !a.t.isDefault then .error .valueError\n", "", "C01: t0 and t are mutually exclusive")
s("env-check-bitrate-or", E, "checkArgs", "!a.bitrate.isDefault && !a.bitlength.isDefault then", "!a.bitrate.isDefault || !a.bitlength.isDefault then", "C01: bitrate alone is accepted")
s("env-check-wl0-count2", E, "checkArgs", "else if countGiven [a.wl0.isDefault, a.f0.isDefault, a.wl.isDefault, a.f.isDefault] > 1 then", "else if countGiven [a.wl0.isDefault, a.f0.isDefault, a.wl.isDefault, a.f.isDefault] > 2 then", "C01: wl0 and f0 are mutually exclusive")
s("env-check-dt-le", E, "checkArgs", "if (← a.dt.val) < 0 then", "if (← a.dt.val) ≤ 0 then", "C01: only negative dt is rejected")
s("env-check-t0-ge", E, "checkArgs", "else if (← a.t0.val) > (← a.t1.val) then", "else if (← a.t0.val) ≥ (← a.t1.val) then", "C01: only t0 > t1 is rejected")
s("env-samplerate-ignored", E, "stepArg", "if !a.samplerate.isDefault then do pyDiv 1 (← a.samplerate.val) else a.dt.val", "a.dt.val", "C02: a supplied samplerate determines the step")
s("env-timearr-t1-first", E, "timeArr", "if !a.num_t.isDefault then", "if a.num_t.isDefault then", "C02/C03: num_t selects the number of samples")
s("env-timeend-noadd", E, "timeEnd", "fun s => lastD l + s", "fun s => lastD l", "C04: t1 = t[-1] + dt")
s("env-gridend", E, "gridEnd", "lastD l + (lastD l - last2D l)", "lastD l", "C05: wl1 attribute equals the requested bound")
s("env-freqdomain-keeps-bitrate", E, "Env.init", "let bitrate := if a.freqdomain then none else bitrate", "let bitrate := bitrate", "C11: no bitrate in the frequency domain")
s("env-freqdomain-last", E, "Env.init", "t.map (·.take 1)", "t.map (fun l => l.drop (l.length - 1))", "C11: the first sample of the grid is kept")
s("env-copy-drops-wl", E, "Env.toArgs", "wl := .dflt (.vec e.wl)", "wl := defaultArgs.wl", "C07: copy keeps the wavelengths")
s("env-copy-given-t", E, "Env.toArgs", "t := .dflt (.vec e.t)", "t := .given (.vec e.t)", "C07: copy(num_t=...) overrides only the time grid (a copied t must not count as user-supplied)")
s("env-copy-bitrate", E, "Env.toArgs", "bitrate := asDefault id e.bitrate defaultArgs.bitrate", "bitrate := defaultArgs.bitrate", "C07: copy keeps the bitrate")
s("env-copy-c", E, "Env.toArgs", "c := .dflt e.c", "c := defaultArgs.c", "C07: copy keeps c")
s("env-eq-no-num-t", E, "Env.pyEq", " ∧ e₁.num_t = e₂.num_t ∧", " ∧", "C12: equality implies equal time grids")
s("env-eq-no-freqdomain", E, "Env.pyEq", " ∧ e₁.freqdomain = e₂.freqdomain ∧", " ∧", "C12: equality implies equal domain")
s("env-bitlength", E, "bitrateOf", "return some (← pyDiv 1 (← a.bitlength.val))", "return some (← a.bitlength.val)", "C04: bitrate*bitlength = 1")
s("env-num-f", E, "Env.init", "num_f := f.length", "num_f := wl.length + 1", "C05: num_f = num_wl")
s("stack-exit-nopop", ST, "envExit", "stack := if y.id = x.id then rest else s.stack", "stack := s.stack", "C09: the previous environment is current after the block")
s("stack-exit-alwayspop", ST, "envExit", "stack := if y.id = x.id then rest else s.stack", "stack := rest", "C09: an environment set with set_environment inside a with-block stays current")
s("stack-exit-swallow", ST, "envExit", "grad := s.prev x.id }, o)", "grad := s.prev x.id }, .ok ())", "C09/C10: exceptions propagate out of with-blocks")
s("stack-enter-nograd", ST, "envEnter", "grad := x.grad }", "grad := s.grad }", "C10: gradient mode inside the block is env.grad")
s("stack-exit-nograd", ST, "envExit", "grad := s.prev x.id }", "grad := s.grad }", "C10: the gradient mode is restored")
s("stack-current-bottom", ST, "currentEnvironment", "| x :: _ => .ok x", "| x :: l => .ok (l.getLastD x)", "C09: the innermost environment is current")
s("net-exit-nopop", ST, "netExit", "| _ :: rest => ({ s with stack := rest }, .ok ())", "| _ :: _ => (s, .ok ())", "C22: the previous network is current after a normal exit")
s("lock-setattr-open", ST, "AttrOp.run", "if (o.dict initializedName).any truthy then (o, .error .attributeError)\n    else (⟨", "if (o.dict n).any truthy then (o, .error .attributeError)\n    else (⟨", "C08: new attributes cannot be added after construction")
