SEEDS = []
def s(id, file, definition, old, new, claim, **k):
    SEEDS.append(dict(id=id, file=file, definition=definition, old=old, new=new, claim=claim, **k))
RC = "Model/RoundedCoupler.lean"
s("rc-swap", RC, "couplerR", "let t := (splitR rt m x).1\n  let k := (splitR rt m x).2", "let t := (splitR rt m x).2\n  let k := (splitR rt m x).1", "transmission and coupling are exchanged: C152_split")
s("rc-port", RC, "couplerR", "0 2 k) 1 3 k", "0 3 k) 1 2 k", "the coupled ports are those of the other convention: C152_split")
s("rc-half", RC, "couplerR", "put2 (put2 (fun _ _ => 0) 0 1 t) 2 3 t", "put2 (fun _ _ => 0) 0 1 t", "the lower arm transmits nothing: C152_split")
s("rc-sign", RC, "couplerR", "1 3 k", "1 3 (-k)", "the coupling of the right-hand ports has the other sign: C152_split")
s("rc-swapparts", RC, "couplerR", "fun i j => (re i j, im i j)", "fun i j => (im i j, re i j)", "real and imaginary part are exchanged: C152_split")
s("rc-mirror", RC, "mirrorR", "if i = j then (r, 0) else (0, t)", "if i = j then (0, r) else (t, 0)", "the mirror reflects with the phase of the transmission: C152_split")
s("rc-mirror2", RC, "mirrorR", "if i = j then (r, 0)", "if i = j then (t, 0)", "the mirror reflects what it should transmit: C152_split")
s("rc-real", RC, "mirrorR", "else (0, t)", "else (t, 0)", "transmission without phase: C152_split")
RB = "Model/RoundedBounded.lean"
s("rc-noround", RB, "splitR", "(m.sqrt (rt (1 - x)), m.sqrt x)", "(1 - m.sqrt x, m.sqrt x)", "amplitudes add up to one instead of powers: C145_split, C152_split")
s("rc-nosqrt", RB, "splitR", "(m.sqrt (rt (1 - x)), m.sqrt x)", "(m.sqrt (rt (1 - x)), x)", "the coupling is not the root: C152_split")
s("rc-twice", RB, "splitR", "(m.sqrt (rt (1 - x)), m.sqrt x)", "(m.sqrt (rt (1 - rt (x * x))), m.sqrt x)", "the coupling is squared once too often: C152_split")
