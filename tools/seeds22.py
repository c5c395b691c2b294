"""Seeded bugs seen by tolerances (C155)."""
SEEDS = []
def s(id, file, definition, old, new, claim, **k):
    SEEDS.append(dict(id=id, file=file, definition=definition, old=old, new=new, claim=claim, **k))
C = "Model/Components.lean"
D = "Model/Device.lean"
s("to-rowshift", D, "Part.dev", "fun wl => ofFin (p.S wl).im", "fun wl => ofFin (p.S (2 * wl)).im", "imaginary parts belong to another wavelength (C155)")
s("to-delayport", D, "Part.dev", "if i < p.n then p.delay c else 0", "if 0 < i then p.delay c else 0", "the first port has no delay")
s("to-loss10", C, "lossFactor", "(-loss * length / 20)", "(-loss * length / 10)", "loss of the power instead of the amplitude: twice the rate (C155)")
s("to-phase2", C, "waveguideS", "+ modTwoPi phase", "+ modTwoPi (2 * phase)", "the phase counts twice (C155)")
s("to-mzi-theta2", C, "mziS", "let c := Real.cos theta", "let c := Real.cos (2 * theta)", "theta counts twice in transmission (C155)")
s("d14-div2", "Model/Rounded.lean", "pyDivR", "(pyDiv x y).map rd", "(pyDiv x y).map fun z => z + 0 * rd z", "quotients are rounded")
