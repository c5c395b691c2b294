SEEDS = []
def s(id, file, definition, old, new, claim, **k): SEEDS.append(dict(id=id, file=file, definition=definition, old=old, new=new, claim=claim, **k))
SF = "Model/Shelf.lean"; RS = "Model/RoundedSignal.lean"; RD = "Model/RoundedDelay.lean"; SG = "Model/Signal.lean"
s("rs-toRate", RS, "toRateR", "pyTrunc (rd (x + 1 / 2))", "pyTrunc (rd x)", "C133: rates are rounded to the nearest whole number")
s("rs-half", RS, "toRateR", "pyTrunc (rd (x + 1 / 2))", "pyTrunc (rd (x + 1))", "C133: rates are rounded to the nearest whole number")
s("rs-lat", RS, "latencyPointsR", "rd (rd (latency * samplerate) / bitrate)", "rd (rd (latency * bitrate) / samplerate)", "C133: latencies are in bits")
s("rs-lat2", RS, "latencyPointsR", "rd (rd (latency * samplerate) / bitrate)", "rd (latency * rd (rd samplerate / bitrate) * rd bitrate)", "C133: latencies are in bits")
s("rs-war", RS, "warmupPointsR", "rd (rd (rd (toRateR rd (toRateR rd warmup)) * samplerate) / bitrate)", "rd (toRateR rd (toRateR rd warmup))", "C133: warmups are in bits")
s("rs-temp", RS, "refinedR", "(toRateR rd (rd (8 * f)))", "(toRateR rd (rd (4 * f)))", "C133: refinement of filtered streams")
s("rs-max", RS, "refinedR", " * samplerate)) samplerate", " * samplerate)) f", "C133: at least the sample rate")
s("rs-rc", RS, "refinedR", "(temp, (toRateR rd temp).fdiv (toRateR rd samplerate))", "(temp, 1)", "C133: subsampling of refined streams")
s("rs-gcd", RS, "bitStreamR", "Int.gcd (toRateR rd temp) (toRateR rd bitrate)", "Int.gcd (toRateR rd samplerate) (toRateR rd bitrate)", "C133: fractional rates of refined streams")
s("rs-w", RS, "bitStreamR", "rd (f / rd (rd (1 / 2 * temp) * rd rb))", "rd (f / rd (1 / 2 * temp))", "C133: normalized cutoff with repeated samples")
s("rs-stride", RS, "bitStreamR", "return stride (rb * rc).toNat stream", "return stride rb.toNat stream", "C133: subsampling of refined streams")
s("rs-mse", RS, "mseLossR", "let p := p.drop (w + l).toNat", "let p := p.drop l.toNat", "C133: warmup of the prediction")
s("rs-ber", RS, "berLossR", "let samplerate := rd (rd rb * samplerate)", "let samplerate := rd (rd rb / samplerate)", "C133: fractional sampling")
s("rs-ber2", RS, "berLossR", "let s := toRateR rd (rd (samplerate / bitrate))", "let s := toRateR rd samplerate / toRateR rd bitrate", "C133: samples per bit")
s("rs-mid", RS, "berLossR", "let p := stride s.toNat (p.drop (w + s / 2 + l).toNat)", "let p := stride s.toNat (p.drop (w + l).toNat)", "C133: sampling in the middle of the bit")
s("rd-place", RD, "place32", "max (Int.log 2 |x| - 23) (-149)", "max (Int.log 2 |x| - 24) (-149)", "C134: 24 digits in single precision")
s("rd-sub", RD, "place32", "max (Int.log 2 |x| - 23) (-149)", "max (Int.log 2 |x| - 23) (-126)", "C134: subnormal numbers in single precision")
s("rd-del", RD, "delayR", "rt (rd (rd (ng * length) / c))", "rt (rd (rd (length / ng) / c))", "C134: delay of a waveguide")
s("rd-div", RD, "stepsR", "pyTrunc (rt (rt (d / rt dt) + 1 / 2))", "pyTrunc (rt (d / rt dt))", "C134: rounding of delays")
s("rd-up", RD, "stepsR", "pyTrunc (rt (rt (d / rt dt) + 1 / 2))", "pyTrunc (rt (rt (d / rt dt) + 1))", "C134: rounding of delays")
s("rd-buf", RD, "bufferLengthR", "+ 1 / 2)) + 1", "+ 1 / 2))", "C134: length of the buffer")
s("rd-buf2", RD, "bufferLengthR", "(rt (ds.foldl max d / rt dt) + 1 / 2)) + 1", "(rt (ds.foldl max d / rt dt))) + 1", "C134: length of the buffer (rounded as the delays are)")
s("rd-max", RD, "bufferLengthR", "ds.foldl max d", "ds.foldl min d", "C134: the longest delay")
s("sg-norm2", SG, "bitStream", "let w := f / (1 / 2 * temp * rb)", "let w := f / (1 / 2 * samplerate * rb)", "C132: the filter is designed for the refined rate")
s("sg-temp2", SG, "refined", "max ((toRate (8 * f)).fdiv (toRate samplerate) * samplerate) samplerate", "max ((toRate (2 * f)).fdiv (toRate samplerate) * samplerate) samplerate", "C132: refinement by eight times the cutoff")
s("sf-comp", SF, "Shelf.components", "(p.1, s.objs p.2)", "(p.1, s.objs s.names.length)", "C131: names stand for their objects")
s("sf-train", SF, "Shelf.train", "(s.objs i).train (δ i)", "(s.objs i).train (δ 0)", "C131: every component has its own gradient")
s("sf-skip", SF, "loadInto", "(Function.update objs i o)", "objs", "C131: loaded values are kept")
s("sf-first", SF, "loadInto", "| .ok o => loadInto sd l (Function.update objs i o)", "| .ok o => (loadInto sd l objs).map fun r => Function.update r i o", "C131: the last name decides")
s("sf-miss", SF, "loadInto", "| none => .error .runtimeError", "| none => loadInto sd l objs", "C131: strict loading (missing keys)")
s("sf-extra", SF, "Shelf.load", "if ∀ x ∈ sd.map Prod.fst, x ∈ s.names.map Prod.fst then", "if True then", "C131: strict loading (unexpected keys)")
