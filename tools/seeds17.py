SEEDS = []
def s(id, file, definition, old, new, claim, **k): SEEDS.append(dict(id=id, file=file, definition=definition, old=old, new=new, claim=claim, **k))
RW = "Model/RoundedWave.lean"

s("rw-neff-sign", RW, "neffR", "rd (neff - rd (rd", "rd (neff + rd (rd", "dispersion with the wrong sign (C144)")
s("rw-neff-order", RW, "neffR", "rd (wl - wl0)", "rd (wl0 - wl)", "dispersion with the wrong sign (C144)")
s("rw-neff-div", RW, "neffR", "rd (ng - neff)) / wl0))", "rd (ng - neff)) / wl))", "dispersion relative to the wavelength instead of wl0 (C144)")
s("rw-single", RW, "phaseR", "rd (modR rd (rd (rd (rd (2 * npPi * neffR rd neff wl0 ng wl) * length) / wl)) (2 * npPi) + stored)",
  "rd (modR rd (fl32 (rd (rd (2 * npPi * neffR rd neff wl0 ng wl) * length) / wl)) (2 * npPi) + stored)", "the phase is computed in double precision (C144)")
s("rw-stored", RW, "phaseR", "(2 * npPi) + stored)", "(2 * npPi))", "the phase of the waveguide counts (C144)")
s("rw-minus", RW, "phaseR", "(2 * npPi) + stored)", "(2 * npPi) - stored)", "the phase of the waveguide counts with its sign (C144)")
s("rw-pi", RW, "modR argument in phaseR", "/ wl)) (2 * npPi) + stored)", "/ wl)) npPi + stored)", "phases are reduced by whole turns (C144)")
s("rw-pi-short", RW, "npPi", "884279719003555 / 281474976710656", "314159265 / 100000000", "pi in double precision (C144)")
s("rw-mod", RW, "modR", "if f < 0 then rd (f + b) else f", "if f < 0 then rd (f + b / 2) else f", "negative phases are reduced by whole turns (C144)")
s("rw-modsign", RW, "modR", "if f < 0 then rd (f + b) else f", "if f < 0 then -f else f", "negative phases are reduced by whole turns (C144)")
s("rw-loss20", RW, "leftR", "/ 20)))", "/ 10)))", "loss is on power, amplitudes lose half of it (C144)")
s("rw-gain", RW, "leftR", "rd (-loss * length)", "rd (loss * length)", "loss attenuates (C144)")
s("rw-lossonce", RW, "waveguideR", "rt (leftR rd rt m length loss * rt (m.sin ph)))", "rt (rt (m.sin ph)))", "loss applies to both parts (C144)")
s("rw-swap", RW, "waveguideR", "(rt (leftR rd rt m length loss * rt (m.cos ph)), rt (leftR rd rt m length loss * rt (m.sin ph)))",
  "(rt (leftR rd rt m length loss * rt (m.sin ph)), rt (leftR rd rt m length loss * rt (m.cos ph)))", "real and imaginary part (C144)")
s("rw-stored-pi", RW, "phaseStoredR", "modR rd phase (2 * npPi)", "modR rd phase npPi", "stored phases are reduced by whole turns (C144)")
