"""Seeded bugs in the dependence on the wavelength (C154)."""
SEEDS = []
def s(id, file, definition, old, new, claim, **k):
    SEEDS.append(dict(id=id, file=file, definition=definition, old=old, new=new, claim=claim, **k))
C = "Model/Components.lean"
RB = "Model/RoundedBounded.lean"
s("sp-neff-div", C, "neffAt", "(ng - neff) / wl0", "(ng - neff) / wl", "dispersion relative to the wavelength: the phase is not linear in the wavenumber (C154)")
s("sp-neff-none", C, "neffAt", "neff - (wl - wl0) * (ng - neff) / wl0", "neff", "without dispersion, spectra change at the rate of neff (C154)")
s("sp-neff-sq", C, "neffAt", "(wl - wl0) * (ng - neff)", "(wl - wl0) ^ 2 * (ng - neff)", "dispersion of second order (C154)")
s("sp-turn", C, "propagation", "modTwoPi (2 * Real.pi * neffAt neff wl0 ng wl * length / wl)", "modTwoPi (4 * Real.pi * neffAt neff wl0 ng wl * length / wl)", "twice the phase: spectra change twice as fast (C154)")
s("sp-mod", C, "propagation", "modTwoPi (2 * Real.pi * neffAt neff wl0 ng wl * length / wl)", "modTwoPi (2 * Real.pi * neffAt neff wl0 ng wl * length / wl) / 2", "spectra jump where the phase wraps (C154)")
s("sp-wg-wrap", C, "waveguideS", "propagation length neff wl0 ng wl + modTwoPi phase", "(propagation length neff wl0 ng wl + modTwoPi phase) / 2", "spectra of waveguides jump (C154)")
s("sp-mzi-wrap", C, "mziS", "let phi1 := phi0 + phi", "let phi1 := phi0 / 3 + phi", "spectra of Mzis jump (C154)")
s("sp-gain", C, "lossFactor", "(-loss * length / 20)", "(loss * length / 20)", "loss is gain: waveguides change faster than their length (C154)")
s("rb-scaled2", RB, "scaledR", "rt (rt (x - rt a) / rt (rd (b - a)))", "rt (rt (x - rt a) / rt (rd b))", "the scaled data is divided by the upper bound instead of the width: C145 for general bounds")
s("rw-modsign2", "Model/RoundedWave.lean", "modR", "if f < 0 then rd (f + b) else f", "if f < 0 then rd (-f) else f", "negative phases are reduced by whole turns (C144)")
