SEEDS = []
def s(id, file, definition, old, new, claim, **k):
    SEEDS.append(dict(id=id, file=file, definition=definition, old=old, new=new, claim=claim, **k))
RM = "Model/RoundedMzi.lean"
s("rm-nomod", RM, "phi0R", "modR rd (rd (rd (rd (2 * npPi * neffR rd neff wl0 ng wl) * length) / wl)) (2 * npPi)", "rd (rd (rd (2 * npPi * neffR rd neff wl0 ng wl) * length) / wl)", "the phase is not reduced: cosines of huge numbers")
s("rm-turn", RM, "phi0R", "rd (2 * npPi * neffR", "rd (npPi * neffR", "the phase is half of what it should be: C147_mzi")
s("rm-noneff", RM, "phi0R", "neffR rd neff wl0 ng wl", "neff", "dispersion is ignored: C147_mzi")
s("rm-phi", RM, "mziR", "let phi1 := rd (phi0 + phi)", "let phi1 := rd (phi0 - phi)", "phi has the wrong sign: C147_mzi")
s("rm-phi32", RM, "mziR", "let phi1 := rd (phi0 + phi)", "let phi1 := rt (phi0 + phi)", "phases are added in single precision: C147_mzi")
s("rm-sign", RM, "mziR", "1 3 (rt (-c0 * st))", "1 3 (rt (c0 * st))", "the sign of the real part of one entry: power is not conserved")
s("rm-signim", RM, "mziR", "1 3 (rt (-s0 * st))", "1 3 (rt (s0 * st))", "the sign of the imaginary part of one entry: power is not conserved")
s("rm-swap", RM, "mziR", "2 3 (rt (c0 * ct))", "2 3 (rt (c0 * st))", "cosine and sine of theta exchanged in one entry")
s("rm-phases", RM, "mziR", "0 2 (rt (c1 * st))", "0 2 (rt (c0 * st))", "the wrong phase in one entry")
s("rm-one", RM, "put2", "(i = a ∧ j = b) ∨ (i = b ∧ j = a)", "i = a ∧ j = b", "only one direction is written")
s("rm-double", RM, "mziR", "let ct := rt (m.cos theta)", "let ct := rt (m.cos (2 * theta))", "theta is doubled in one place, as the picture in the docstring suggests")
s("rm-cast", RM, "mziR", "let s1 := rt (m.sin phi1)", "let s1 := m.sin phi1", "one factor is kept in double precision (harmless for the bounds; equivalent up to rounding)")
s("rm-castphi", RM, "mziR", "let c1 := rt (m.cos phi1)", "let c1 := rt (m.cos (rt phi1))", "the phase is converted before the cosine: C147_mzi")
SD = "Model/Seeded.lean"
s("sd-fix", SD, "BitGenerator.forward", "  if seed = g.seed then (g.stream", "  if c.seed = none then (g.stream", "an explicit seed always gives a new generator (the repaired code): the violation is false")
s("sd-always", SD, "BitGenerator.forward", "  if seed = g.seed then (g.stream", "  if True then (g.stream", "seeds of calls are ignored")
s("sd-keep", SD, "BitGenerator.forward", "{ g with rng := g.rng.advance c.bits.drawn }", "g", "calls do not move the generator on")
s("sd-store", SD, "BitGenerator.forward", "    | .ok r => (g.stream butter c r, g)", "    | .ok r => (g.stream butter c r, { g with seed := seed, rng := r.advance c.bits.drawn })", "a call with another seed replaces the generator")
s("sd-array", SD, "BitsArg.drawn", "  | .number n => n\n  | _ => 0", "  | .number n => n\n  | .array x => x.length\n  | .sequence x => x.length", "given bits use up random bits")
s("sd-round", SD, "BitGenerator.make", "match randomState ch (a.seed.map toRate) with", "match randomState ch (a.seed.map fun s => ⌊s⌋) with", "the seed is not rounded like that of the attribute")
s("sd-bound", SD, "randomState", "if 0 ≤ s ∧ s < 2 ^ 32 then", "if 0 ≤ s ∧ s ≤ 2 ^ 32 then", "a seed of 33 bits is accepted")
s("sd-neg", SD, "randomState", "if 0 ≤ s ∧ s < 2 ^ 32 then", "if s < 2 ^ 32 then", "negative seeds are accepted")
s("sd-coin", SD, "RandomState.bits", "> 1 / 2 then 1 else 0", "> 1 / 2 then 0 else 1", "bits are inverted")
s("sd-pos", SD, "RandomState.bits", "r.numbers (r.given + i)", "r.numbers i", "every call gives the first bits")
s("sd-order", SD, "BitGenerator.stream", "(butter ((c.order.map toRate).getD g.order))", "(butter (if c.seed = none then (c.order.map toRate).getD g.order else g.order))", "with a seed the order of the call is ignored")
