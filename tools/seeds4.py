SEEDS = []
def s(id, file, definition, old, new, claim, **k): SEEDS.append(dict(id=id, file=file, definition=definition, old=old, new=new, claim=claim, **k))
C = "Model/Components.lean"; A = "Model/Soa.lean"; B = "Model/Bounded.lean"; G = "Model/Signal.lean"; D = "Model/Detector.lean"; V = "Model/Device.lean"; M = "Model/Mesh.lean"
s("mesh-reck-order", M, "reckConns", "conn4 (layerN (m - 1)) (N - m + 2 + n) (layerN m) n", "conn4 (layerN (m - 1)) (N - m + 1 + n) (layerN m) n", "C56: the Reck network is a feed-forward unitary mesh")
s("mesh-reck-wg", M, "reckLayerConns", "[conn4 (mziN (N - 1 - 1)) 3 ['w', 'g'] 1]", "[conn4 (mziN (N - 1 - 1)) 2 ['w', 'g'] 1]", "C56: the Reck network is a feed-forward unitary mesh")
s("mesh-reck-chain", M, "reckLayerConns", "conn4 (mziN i) 3 (mziN (i + 1)) 1)", "conn4 (mziN i) 2 (mziN (i + 1)) 1)", "C56: the Reck network is a feed-forward unitary mesh")
s("mesh-clements-swap", M, "mixingConns", "[conn4 (mziN i) 1 (wgN (2 * i)) 0, conn4 (mziN i) 2 (wgN (2 * i + 1)) 0]", "[conn4 (mziN i) 1 (wgN (2 * i)) 0, conn4 (mziN i) 2 (wgN (2 * i)) 1]", "C57: the Clements network is a feed-forward unitary mesh")
s("mesh-clements-odd", M, "cap2Conns", "(if 1 < N - 1 ∧ N % 2 = 1 then", "(if 1 < N - 1 ∧ N % 2 = 0 then", "C57: the Clements network is a feed-forward unitary mesh")
s("mesh-clements-k", M, "cap2Conns", "[conn3 (wgN 0) 1 ((range2 0 (N - 1)).getLastD 0 + 2 + N % 2)]", "[conn3 (wgN 0) 1 ((range2 0 (N - 1)).getLastD 0 + 2)]", "C57: ports of odd Clements networks")
s("mesh-layers-j", M, "layersConns", "conn4 (layerN i) (N + j) (layerN (i + 1)) j", "conn4 (layerN i) j (layerN (i + 1)) (N + j)", "C57/C58: inputs are ports 0..N-1, outputs N..2N-1")
s("mesh-ring-odd", M, "ring", "if N % 2 = 1 then .error .valueError\n  else (mapE", "if N % 2 = 3 then .error .valueError\n  else (mapE", "C58: odd ring networks are rejected")
s("mesh-ring-chain", M, "ringArrayConns", "[conn4 (mziN i) 0 (mziN (i - 1)) 2, conn4 (mziN i) 3 (mziN (i + 1)) 3]", "[conn4 (mziN i) 0 (mziN (i - 1)) 2, conn4 (mziN i) 3 (mziN (i + 1)) 2]", "C58: ring network topology")
s("dev-block-off", V, "blockMat", "else if j < n then 0 else blockMat l (i - n) (j - n)", "else if j < n then 0 else blockMat l (i - n) j", "C66/C56: S of a network is block diagonal")
s("dev-delay-off", V, "blockVec", "if i < n then v i else blockVec l (i - n)", "if i < n then v i else blockVec l i", "C66/C56: delays of a network are the children's")
s("dev-im", V, "netDev", "fun wl => blockMat (l.map fun p => (p.2.comp.n, p.2.iS wl))", "fun wl => blockMat (l.map fun p => (p.2.comp.n, p.2.rS wl))", "C66/C56: the imaginary parts")
s("cmp-mirror-t", C, "mirrorS", "let t := √(1 - R)", "let t := 1 - √R", "C42: lossless mirrors")
s("cmp-mirror-re", C, "mirrorS", ".setIm 0 1 t).setIm 1 0 t", ".setRe 0 1 t).setRe 1 0 t", "C42: a mirror is unitary")
s("cmp-wg-loss", C, "lossFactor", "-loss * length / 20", "-loss * length / 10", "C44: loss in dB/m")
s("cmp-wg-sin", C, "waveguideS", "(SMat.zero.setRe2 0 1 (l * Real.cos ph)).setIm2 0 1 (l * Real.sin ph)", "(SMat.zero.setRe2 0 1 (l * Real.cos ph)).setIm2 0 1 (Real.sin ph)", "C44: loss of waveguides")
s("cmp-wg-oneway", C, "waveguideS", "(SMat.zero.setRe2 0 1 (l * Real.cos ph)).setIm2 0 1 (l * Real.sin ph)", "(SMat.zero.setRe2 0 1 (l * Real.cos ph)).setIm 0 1 (l * Real.sin ph)", "C43: waveguides are reciprocal")
s("cmp-neff", C, "neffAt", "neff - (wl - wl0) * (ng - neff) / wl0", "neff + (wl - wl0) * (ng - neff) / wl0", "C81: dispersion: group index")
s("cmp-dc-sign", C, "couplerS", "(((SMat.zero.setRe2 0 1 t).setRe2 2 3 t).setIm2 0 2 k).setIm2 1 3 k", "(((SMat.zero.setRe2 0 1 t).setRe2 2 3 t).setRe2 0 2 k).setRe2 1 3 k", "C42: couplers are unitary")
s("cmp-dcl-sign", C, "longCouplerS", ".setRe2 1 3 (-kappa * l * s)", ".setRe2 1 3 (kappa * l * s)", "C42: couplers with length are unitary up to loss")
s("cmp-mzi-sign", C, "mziS", "setRe2 1 3 (-Real.cos phi0 * s)", "setRe2 1 3 (Real.cos phi0 * s)", "C42: Mzis are unitary")
s("cmp-mzi-loss", C, "Part.S", "| mzi phi theta neff ng wl0 length _ => mziS phi theta length neff wl0 ng wl", "| mzi phi theta neff ng wl0 length loss => ⟨lossFactor loss length • (mziS phi theta length neff wl0 ng wl).re, lossFactor loss length • (mziS phi theta length neff wl0 ng wl).im⟩", "C44: (the finding that Mzis ignore their loss would be wrong)")
s("cmp-grating-sq", C, "gratingS", "let l := √(Tmax *", "let l := (Tmax *", "C65: transmission of grating couplers")
s("cmp-mmi-T", C, "mmiS", "if hb : b.val < m then w ⟨b, hb⟩ ⟨a - m, by omega⟩ else 0", "if hb : b.val < m then 0 else 0", "C43: mmis are reciprocal")
s("cmp-delay", C, "lengthDelay", "ng * length / c", "length / c", "C81: delay by the group index")
s("soa-half", A, "soaAction", "Real.exp (0.5 * h.1 w b), fun w b => a.2", "Real.exp (h.1 w b), fun w b => a.2", "C47: power is amplified by exp h")
s("soa-euler", A, "soaAction", "h.1 w b + dt * (dhdt t h a).1 w b", "dt * (dhdt t h a).1 w b", "C47: the state is integrated")
s("soa-startup", A, "soaRate", "(1 / startup) * Real.log amplification", "(1 / startup) * amplification", "C47: amplification after startup")
s("soa-new", A, "soaNew", "if amplification < 1 then", "if amplification < 0 then", "C84: amplification at least one")
s("soa-agrawal-sat", A, "Agrawal.rate", "((a.1 w b ^ 2 + a.2 w b ^ 2) / q.psat c) * (Real.exp (h.1 w b) - 1)", "((a.1 w b ^ 2 + a.2 w b ^ 2) / q.psat c) * Real.exp (h.1 w b)", "C47: saturation")
s("bnd-le", B, "boundedNew", "if b ≤ a then", "if b < a then", "C46: empty ranges are rejected")
s("bnd-upper", B, "boundedNew", "∃ x ∈ data, b < x", "∃ x ∈ data, b ≤ x", "C46: the upper bound is allowed")
s("bnd-value", B, "boundedValue", "(b - a) * tsigmoid w + a", "b * tsigmoid w + a", "C46: values are within bounds")
s("bnd-inverse", B, "inverseSigmoid", "-(tlog (trecip ((data - a) / (b - a)) - 1))", "tlog (trecip ((data - a) / (b - a)) - 1)", "C46: the initial value is the given one")
s("sig-rate", G, "resolveRate", "| none => e\n      | some x => some x", "| none => e\n      | some _ => e", "C72: keyword arguments precede the environment")
s("sig-stride", G, "stride", "r :: stride k (x.drop (k - 1))", "r :: stride k (x.drop k)", "C49: sampling")
s("sig-repeat", G, "bitStream", "let stream := repeatEach rs.toNat rows", "let stream := repeatEach rb.toNat rows", "C49: samples per bit")
s("sig-latency", G, "mseLoss", "let p := p.drop (w + l).toNat", "let p := p.drop w.toNat", "C52: latency")
s("sig-warmup", G, "mseLoss", "let t := t.drop w.toNat", "let t := t", "C53: warmup")
s("sig-min", G, "mseLoss", "(t.take m) (p.take m)))", "t p))", "(equivalent: zipWith truncates) C53")
s("sig-sq", G, "mseLoss", "(a i - b i) ^ 2", "|a i - b i|", "C53: mean square error")
s("sig-ber-mid", G, "berLoss", "let p := stride s.toNat (p.drop (w + s / 2 + l).toNat)", "let p := stride s.toNat (p.drop (w + l).toNat)", "C52: the prediction is sampled with the latency")
s("sig-ber-and", G, "wrongBit", "decide (threshold < p) ≠ decide (0 < t)", "decide (threshold < p) = decide (0 < t)", "C50: bit errors")
s("det-first", D, "lfilterRow", "let v ← mulSum (a.drop (a.length - n)) ys\n", "let v ← mulSum (a.drop (a.length - n)) ys.reverse\n", "C54: the filter equation")
s("det-a0", D, "lfilter", "(rest.reverse.map fun c => c / a0)", "rest.reverse", "C54: a[0] ≠ 1")
s("det-norev", D, "lfilter", "(b.map fun c => c / a0)", "(b.reverse.map fun c => c / a0)", "C54: order of b (only for asymmetric b)")
s("det-power", D, "Sig.toPower", "Ten.sq (n :: s) x + Ten.sq (n :: s) y", "Ten.sq (n :: s) x - Ten.sq (n :: s) y", "C55: detected power")
s("det-w", D, "Sig.lowpass", "let w := 2 * cutoff / samplerate", "let w := cutoff / samplerate", "C55: normalized cutoff")
s("det-noise", D, "addNoise", "2 * q * (p + dark) * cutoff", "2 * q * p * cutoff", "C74: shot noise of the dark current")
s("det-resp", D, "photoDetect", "samplerate cutoff 1", "samplerate cutoff responsivity", "C74: responsivity applied once")
