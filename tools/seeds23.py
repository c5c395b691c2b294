"""Seeded bugs seen by tolerances of the remaining components (C156), and an edit that missed its place before."""
SEEDS = []
def s(id, file, definition, old, new, claim, **k):
    SEEDS.append(dict(id=id, file=file, definition=definition, old=old, new=new, claim=claim, **k))
C = "Model/Components.lean"
s("ot-pi2", C, "realisticCouplerS", "Real.pi * dn / wl", "2 * Real.pi * dn / wl", "the straight part couples twice as fast (C156)")
s("ot-half", C, "realisticCouplerS", "0.5 * de2k0 * dwl ^ 2", "de2k0 * dwl ^ 2", "second order without its factor (C156)")
s("ot-tmax", C, "gratingS", "√(Tmax * e)", "√(2 * Tmax * e)", "twice the transmission (C156)")
s("ot-rin", C, "gratingS", ".setIm 0 0 Rin", ".setIm 0 0 (2 * Rin)", "the reflection counts twice (C156)")
s("ot-soa", C, "linearSoaS", "SMat.zero.setRe 0 1 amplification", "SMat.zero.setRe 0 1 (amplification ^ 2)", "gain of the power instead of the amplitude (C156)")
s("ot-mmi", C, "mmiS", "⟨fill re, fill im⟩", "⟨fill re, fill re⟩", "imaginary parts of the weights are ignored (C156)")
s("ot-long", C, "longCouplerS", "let c := Real.cos (modTwoPi phase)", "let c := Real.cos (modTwoPi (2 * phase))", "the phase counts twice in the real parts (C156)")
s("tl-noname2", "Model/Network.lean", "namedTerm", "match c.name with\n  | none => .error .typeError", "match c.name with\n  | none => .ok ([], c)", "C140: a nameless term raises TypeError")
