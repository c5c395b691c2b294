SEEDS = []
def s(id, file, definition, old, new, claim, **k): SEEDS.append(dict(id=id, file=file, definition=definition, old=old, new=new, claim=claim, **k))
N = "Model/Numbers.lean"; DE = "Model/Detector.lean"; DC = "Model/DetectorCall.lean"; SG = "Model/Signal.lean"; CO = "Model/Components.lean"
EN = "Model/Env.lean"; RO = "Model/Rounded.lean"; TO = "Model/Topology.lean"; ST = "Model/Str.lean"; ME = "Model/Mesh.lean"; D = "Model/Draw.lean"
# numbers
s("num-root", N, "tensorRoot", "if x < 0 then none", "if x ≤ 0 then none", "C121_accepted: ratios 0 and 1 give numbers")
s("num-div", N, "tensorDiv", "if y = 0 then none else some (x / y)", "some (x / y)", "C121: a wavelength zero gives nan")
s("num-gauss", N, "gaussianNumber", "if -((wl0 - wl) ^ 2) = 0 then none else some 0", "some 0", "C121: bandwidth zero at the center gives nan")
s("num-mirror", N, "Part.number", "(tensorRoot (1 - R)).map fun t =>", "(tensorRoot (1 + R)).map fun t =>", "C121_numbers: the matrix is that of Part.S")
s("num-long", N, "Part.number", "(tensorRoot k).bind fun kappa =>", "(some √k).bind fun kappa =>", "C121_numbers: exactly the ratios between 0 and 1")
s("num-mul", N, "floatMul", "(x = 0 ∧ (y = ⊤ ∨ y = ⊥)) ∨ ", "", "C122: zero times infinity is nan")
s("num-rootback", N, "rootBackward", "else if x = 0 then some ⊤", "else if x = 0 then some 0", "C122: the root at zero has an infinite gradient")
s("num-sigma", N, "boundedBackward", "(some ((1 - tsigmoid w : ℝ) : EReal))) ", "(some (1 : EReal))) ", "C122_gradient: gradient of the sigmoid")
s("num-scale", N, "boundedBackward", "(some ((b - a : ℝ) : EReal))", "(some ((b : ℝ) : EReal))", "C122_gradient: gradient of the interval")
s("num-neg", N, "ratioBackward", ".map Neg.neg", "", "C122_gradient: sign of the gradient of 1 - coupling")
s("num-once", N, "ratioBackward", "(boundedBackward w a b (rootBackward (boundedValue w a b) gk))", "(some 0)", "C122_gradient: both uses are accumulated")
s("num-step", N, "descend", "(-lr : ℝ)", "(lr : ℝ)", "C122_gradient: descent")
# detectors
s("noise-k", DE, "noiseVar", "4 * k * 300 / load * cutoff", "2 * k * 300 / load * cutoff", "C120: thermal noise")
s("noise-q", DE, "noiseVar", "2 * q * (p + dark) * cutoff", "2 * q * p * cutoff", "C120: the dark current adds shot noise")
s("noise-nan", DE, "Sig.real", "0 ≤ noiseVar dark load cutoff p", "True", "C74, C120: nan for negative variances")
s("noise-load", DE, "photoDetect", "if load = 0 then .error .zeroDivision\n    else (", "(", "C74: load resistance zero")
s("noise-add", DE, "addNoise", "fun p n => p + Real.sqrt", "fun p n => Real.sqrt", "C74: noise is added to the signal")
s("noise-var", DE, "addNoise", "Real.sqrt (noiseVar dark load cutoff p) * n", "noiseVar dark load cutoff p * n", "C120: standard deviation, not variance")
s("det-sq", DE, "Ten.sq", "fun a _ => a ^ 2", "fun a _ => a", "C55: power is the square of the amplitude")
s("det-scale", DE, "Sig.scale", "fun r => c • r", "fun r => (c * c) • r", "C55: responsivity")
s("det-sum", DE, "mulSum", "| [a], _ => .ok (v.map fun r => a • r).sum", "| [a], _ => .ok v.sum", "C54: coefficients are broadcast")
s("det-row0", DE, "lfilterRow", "match b.getLast?, x.head? with", "match b.head?, x.head? with", "C54: difference equation at the start")
s("det-drop", DE, "lfilterRow", "mulSum (b.drop (b.length - 1 - n)) (x.take (n + 1))", "mulSum (b.take (n + 1)) (x.take (n + 1))", "C54: difference equation in the first rows")
s("det-sgn", DE, "lfilterRow", "let v ← mulSum a (ys.drop (n + 1 - b.length))\n    return u - v", "let v ← mulSum a (ys.drop (n + 1 - b.length))\n    return u + v", "C54, C119: feedback is subtracted")
s("det-norm", DE, "lfilter", "(rest.reverse.map fun c => c / a0)", "rest.reverse", "C54: coefficients are divided by the first of a")
s("det-new", DE, "lowpassNew", "if 1 < 2 * cutoff / samplerate", "if 1 < cutoff / samplerate", "C86: cutoff is at most half the sample rate")
s("photo-default", DC, "photoDefault", "photoNew 160e9 20e9 4 1 1e-10 166", "photoNew 160e9 20e9 4 1 1e-10 0", "C86: defaults of photodetectors")
s("photo-dark", DC, "photoForward", "match a.dark with | none => p.dark", "match a.dark with | none => 0", "C86: stored dark current")
s("photo-order", DC, "photoForward", "⟨a.samplerate, some cutoff, a.order, some 1⟩", "⟨a.samplerate, some cutoff, none, some 1⟩", "C86: order of the call")
# signal
s("sig-fdiv", SG, "refined", "(toRate temp).fdiv (toRate samplerate)", "(toRate temp).fdiv (toRate samplerate) + 1", "C71: rates")
s("sig-mse0", SG, "mseLoss", "if bitrate = 0 then .error .zeroDivision", "if bitrate = 1 then .error .zeroDivision", "C53: loss at bit rate zero")
s("sig-ber0", SG, "berLoss", "if rb ≤ 0 then .error .runtimeError", "if rb ≤ 1 then .error .runtimeError", "C51: bit error rate at small rates")
# components
s("grat-zero", CO, "gratingS", "if 2 * sigma ^ 2 = 0 then 0", "if 2 * sigma ^ 2 = 0 then 1", "C65_grating_iff: bandwidth zero transmits nothing")
s("grat-shape", CO, "gratingS", "(2 * sigma ^ 2)", "(sigma ^ 2)", "C91: full width at half maximum")
s("draw-base2", D, "boxOf", "| none => boxOf bases", "| none => boxOf (bases.take 1)", "C118: nearest class with a colour")
# environments
s("env-isdef", EN, "Arg.isDefault", "| .given _ => false\n  | _ => true", "| .dflt _ => true\n  | _ => false", "C01: None counts as not given")
s("env-none", EN, "Arg.val", "| .none => .error .typeError", "| .none => .error .valueError", "C01: None as a number is a TypeError")
s("env-ftop", EN, "freqTop", "if !a.wl0.isDefault then do pyDiv c (← a.wl0.val)", "if !a.wl0.isDefault then do pyDiv c (← a.wl1.val)", "C06: wavelengths and frequencies")
s("env-fbot", EN, "freqBottom", "pyDiv c (← a.wl0.val)", "pyDiv c (← a.wl1.val)", "C06: the code divides by wl0")
s("env-df", EN, "defaultArgs", "99792458 / (1551", "299792458 / (1551", "C108: defaults as written")
s("env-t1", EN, "defaultArgs", "t1 := .dflt (1 / 10 ^ 12)", "t1 := .dflt (1 / 10 ^ 13)", "C02, C60: default times")
s("env-last2", EN, "last2D", "l.dropLast.getLastD 0", "l.getLastD 0", "C04: end of a grid")
s("env-head", EN, "headOf", "| some [] => .error .indexError", "| some [] => .ok ([], 0)", "C04: environments have at least one time and wavelength")
s("env-divarg", EN, "divArg", "| .given (.scalar q) => do return .given (.scalar (← pyDiv c q))", "| .given (.scalar q) => do return .given (.scalar q)", "C06: f and wl")
# rounding
s("rd-fl", RO, "fl", "roundEven (x / 2 ^ place x)", "⌊x / 2 ^ place x⌋", "C105: nearest float")
s("rd-place", RO, "place", "- 52", "- 23", "C105: 53 binary digits")
s("rd-arange", RO, "arangeR", "rd (start + rd (step * rd (i : ℚ)))", "rd (start + rd (step * rd (i + 1 : ℚ)))", "C106: grids begin at the start")
s("rd-recip", RO, "recipOptR", "pyDivR rd 1 x", "pyDivR rd 2 x", "C107: sample rate is the rounded reciprocal")
# topology
s("top-term", TO, "Comp.terminated", "!(List.range c.n).any c.freeAt", "!(List.range c.n).all c.freeAt", "C20: terminated means no free port")
s("top-overlap", TO, "overlap", "(· && ·)", "(· || ·)", "C92: common markings")
s("top-gport", TO, "globalPort", ".ok (start + p)", ".ok p", "C15: numbering of ports")
s("top-idict", TO, "orderDict", "dictSet e.2 e.1 d", "dictSet e.2 (e.1 + 1) d", "C17: order of ports")
s("top-src", TO, "source", "leaf 1 [true] [false] [false]", "leaf 1 [false] [true] [false]", "C36: sources are sources")
s("str-space", ST, "isSpace", "c = ' ' || ", "", "C61: blanks are stripped")
s("str-neg", ST, "pyInt", "| '-' :: t => (parseDigits 0 false t).map fun (n : ℕ) => -(n : ℤ)", "| '-' :: t => (parseDigits 0 false t).map fun (n : ℕ) => (n : ℤ)", "C16: negative numbers")
s("str-digit", ST, "natStr", "natStr (n / 10) ++ [digitChar (n % 10)]", "digitChar (n % 10) :: natStr (n / 10)", "C13: decimal notation")
s("mesh-range", ME, "range2", "(b - a + 1) / 2", "(b - a) / 2", "C57: layers of Clements networks")
s("mesh-conn", ME, "conn4", "[a, natStr i, b, natStr j]", "[a, natStr j, b, natStr i]", "C56: links of meshes")
