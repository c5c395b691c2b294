SEEDS = []
def s(id, file, definition, old, new, claim, **k): SEEDS.append(dict(id=id, file=file, definition=definition, old=old, new=new, claim=claim, **k))
SH = "Model/Show.lean"; R = "Model/Rounded.lean"; E = "Model/Env.lean"; SA = "Model/SourceArg.lean"; W = "Model/Warning.lean"; DV = "Model/Devices.lean"; CN = "Model/Construct.lean"; DC = "Model/DetectorCall.lean"; O = "Model/Source.lean"; C = "Model/Cache.lean"; P = "Model/Plot.lean"; AT = "Model/Attr.lean"; M = "Model/Mesh.lean"; G = "Model/Gear.lean"; B = "Model/Bounded.lean"
# earlier survivors against the present theorems
s("det-default2", DC, "detDefault", "⟨160e9, 20e9, 4, 1⟩", "⟨160e9, 20e9, 4, 2⟩", "C86: default responsivity", tightened=["C86_default added after the survival of det-default"])
s("det-photo2", DC, "photoForward", "detForward butter p.toDetParams env ⟨a.samplerate, some cutoff, a.order, some 1⟩", "detForward butter p.toDetParams env ⟨a.samplerate, some cutoff, a.order, some responsivity⟩", "C86: the responsivity is applied once", tightened=["C86_call added after the survival of det-photo"])
# printed forms
s("show-three", SH, "threeDigits", "digitChar (n / 100 % 10), digitChar (n / 10 % 10)", "digitChar (n / 10 % 10), digitChar (n / 100 % 10)", "C110: order of the digits")
s("show-exp", SH, "exponentStr", "if e < 0 then '-' else '+'", "if e ≤ 0 then '-' else '+'", "C110: e+00")
s("show-exp2", SH, "exponentStr", "if e.natAbs < 10 then '0' :: natStr e.natAbs else natStr e.natAbs", "natStr e.natAbs", "C110: two digits in the exponent")
s("show-carry", SH, "fourDigits", "if m = 10000 then (1000, e + 1) else (m, e)", "(m, e)", "C110: numbers such as 9.9996")
s("show-round", SH, "fourDigits", "(roundEven (x / 10 ^ (e - 3))).toNat", "(roundEven (x / 10 ^ (e - 2))).toNat", "C110: four digits")
s("show-neg", SH, "sciStr", "(if x < 0 then ['-'] else [])", "[]", "C110: negative numbers")
s("show-arr4", SH, "arrRepr", "if l.length > 4 then", "if l.length > 3 then", "C110: arrays of up to four numbers are shown in full")
s("show-arrlast", SH, "arrRepr", "sciStr (lastD l) ++ \"])\".toList", "sciStr (l.getD 2 0) ++ \"])\".toList", "C110: the last number")
s("show-arrstr", SH, "arrStr", "else if l.length > 1 then", "else if l.length > 0 then", "C110: a single number is shown without brackets in the html table")
s("show-hex", SH, "hexChar", "Char.ofNat (87 + n)", "Char.ofNat (55 + n)", "C110: hexadecimal digits are lower case")
s("show-esc", SH, "reprChar", "if c = q || c = '\\\\' then ['\\\\', c]", "if c = q then ['\\\\', c]", "C110: back slashes are escaped")
s("show-nl", SH, "reprChar", "else if c = '\\n' then ['\\\\', 'n']", "else if c = '\\n' then ['\\n']", "C110: names stay on one line")
s("show-del", SH, "reprChar", "if c.toNat < 32 || c.toNat = 127 then", "if c.toNat < 32 then", "C110: the character 127 is escaped")
s("show-quote", SH, "reprQuote", "if '\\'' ∈ s ∧ '\"' ∉ s then '\"' else '\\''", "if '\\'' ∈ s then '\"' else '\\''", "C110: quotes python chooses")
s("show-noesc", SH, "strRepr", "s.flatMap (reprChar (reprQuote s))", "s", "C110: escaping")
s("show-attrs", SH, "Env.attrs", "(\"t1\".toList, .opt e.t1)", "(\"t1\".toList, .num e.t0)", "C110: values of the attributes")
s("show-order", SH, "Env.attrs", "(\"bitrate\".toList, .opt e.bitrate), (\"bitlength\".toList, .opt e.bitlength)", "(\"bitlength\".toList, .opt e.bitlength), (\"bitrate\".toList, .opt e.bitrate)", "C110: order of assignment")
s("show-extras", SH, "Env.attrs", "  e.extras.map fun kv => (kv.1, .num kv.2)", "  (publicExtras e.extras).reverse.map fun kv => (kv.1, .num kv.2)", "C110: extra attributes in order")
s("show-syn", SH, "synonyms", "\"frequency_domain\".toList, \"enable_grad\".toList]", "\"frequency_domain\".toList]", "C110: synonyms are not shown")
s("show-shown", SH, "Env.shown", "kv.1.head? != some '_' && !synonyms.contains kv.1", "!synonyms.contains kv.1", "C110: private attributes are not shown")
s("show-none", SH, "AttrVal.repr", "| .nothing => \"None\".toList", "| .nothing => []", "C110: missing values")
s("show-flag", SH, "AttrVal.repr", "if b then \"True\".toList else \"False\".toList", "if b then \"False\".toList else \"True\".toList", "C110: flags")
s("show-cut", SH, "Env.repr", "s.take (s.length - 2) ++ [')']", "s ++ [')']", "C110: no comma at the end")
s("show-col", SH, "Env.colwidth", "foldl max 0 + 1", "foldl max 0", "C110: a blank before each colon")
s("show-col2", SH, "Env.colwidth", "foldl max 0 + 1", "headD 0 + 1", "C110: one column of colons")
s("show-str", SH, "Env.str", "': '", "':'", "C110: skipped if absent") if False else None
s("show-line", SH, "Env.str", "kv.2.repr ++ ['\\n']", "kv.2.str ++ ['\\n']", "C110: names are quoted in the printed table")
s("show-desc", SH, "Env.html", "(dictGet kv.1 descriptions).getD []", "kv.1", "C110: descriptions")
s("show-row", SH, "Env.html", "\"</td></tr>\\n\".toList) ++", "\"</td>\\n\".toList) ++", "C110: rows of the html table")
# rounding
s("rd-even", R, "roundEven", "if ⌊q⌋ % 2 = 0 then ⌊q⌋ else ⌊q⌋ + 1", "⌊q⌋ + 1", "C105: ties to even")
s("rd-place", R, "place", "Int.log 2 |x| - 52", "Int.log 2 |x| - 53", "C105: 53 digits")
s("rd-min", R, "place", "(-1074)", "(-1022)", "C105: subnormal numbers")
s("rd-arange", R, "arangeR", "rd (start + rd (step * rd (i : ℚ)))\n  else", "rd (start + rd (step * rd ((i + 1 : ℕ) : ℚ)))\n  else", "C106/C105: the first point")
s("rd-neg", R, "arangeR", "rd (start + rd (step * -rd (i : ℚ)))", "rd (start + rd (step * rd (i : ℚ)))", "C105: exact arithmetic gives the exact constructor")
s("rd-lin", R, "linspaceOpenR", "rd (delta / rd (num : ℚ))", "rd (delta / rd ((num - 1 : ℤ) : ℚ))", "C107: the end point is left out")
s("rd-linzero", R, "linspaceOpenR", "rd (rd (rd (i : ℚ) / rd (num : ℚ)) * delta)", "0", "C107: tiny steps")
s("rd-stop", R, "timeArrR", "(rd (t0 + rd (rd (n : ℚ) * dt)))", "(rd (rd (n : ℚ) * dt))", "C107: starting times")
s("rd-bottom", R, "freqBottomR", "if !a.wl1.isDefault then do pyDivR rd c (← a.wl0.val)", "if !a.wl1.isDefault then do pyDivR rd c (← a.wl1.val)", "C105: exact arithmetic gives the exact constructor, with the slip of the code")
s("rd-end", R, "timeEndR", "rd (lastD l + s)", "rd (lastD l)", "C106: end of the time axis")
s("rd-grid", R, "gridEndR", "rd (lastD l + rd (lastD l - last2D l))", "lastD l + (lastD l - last2D l)", "C108/C105: the sum is rounded")
s("rd-first", R, "firstStepR", "(firstStep l).map rd", "firstStep l", "C107: the difference is rounded")
s("rd-bit", R, "bitrateOfR", "pyDivR rd 1 (← a.bitlength.val)", "pyDiv 1 (← a.bitlength.val)", "C107: length of a bit")
s("rd-default", R, "defaultArgsR", "dt := .dflt (rd (1 / 10 ^ 14))", "dt := .dflt (1 / 10 ^ 14)", "C106: the default step is a float")
s("rd-copy", R, "Env.toArgsR", "wl1 := asDefault id e.wl1 (defaultArgsR rd).wl1", "wl1 := asDefault id e.wl1 (defaultArgsR rd).wl0", "C108: copies with changes")
# legacy keywords, extras
s("env-alias2", E, "resolveAliases", "t1 := k.t_end.getD a.t1", "t1 := k.t_start.getD a.t1", "C109: legacy keywords", tightened=["C109_legacy added after the survival of env-alias"])
s("env-merge", E, "mergeExtras", "(kv.1, (new.lookup kv.1).getD kv.2)", "(kv.1, kv.2)", "C109: extra keywords of copy")
s("env-public", E, "publicExtras", "l.filter fun kv => kv.1.head? != some '_'", "l", "C109/C07: private extra attributes")
# sources
s("src-fwd2", O, "forwardTensor", "(y.elem 0 t w k b, y.elem 1 t w k b)", "(y.elem 1 t w k b, y.elem 0 t w k b)", "C38: real and imaginary part", tightened=["C38_forward added after the survival of src-fwd"])
s("sarg-stack", SA, "stackComplex", "if c = 0 then re idx else im idx", "if c = 0 then im idx else re idx", "C111: real part first")
s("sarg-real", SA, "SourceArg.toTensor", "| .real shape elem => .ok ⟨shape, shape.map fun _ => none, elem⟩", "| .real shape elem => .ok ⟨1 :: shape, none :: shape.map fun _ => none, fun i => elem i.tail⟩", "C111: real arrays and complex arrays")
s("sarg-conj", SA, "SourceArg.toTensor", "none :: shape.map (fun _ => none), stackComplex re im⟩", "none :: shape.map (fun _ => none), stackComplex re fun i => -im i⟩", "C111: phases")
# warning
s("warn-half", W, "Plant.warns", "p.steps env i < 1", "p.steps env i < 2", "C112: half a time step")
s("warn-zero", W, "Plant.warns", "0 < p.seconds env i ∧", "", "C112: delays that are zero do not matter")
# devices
s("dvs-none", DV, "Devices.setTensor", "| none => s\n", "| none => { s with tensor := fun x => if x = st then .cpu else s.tensor x }\n", "C80-C90: to(dtype) moves nothing")
s("dvs-cpu", DV, "moduleCpu", "moduleTo (some .cpu) m s", "torchTo (some .cpu) m s", "device of the object")
s("dvs-append", DV, "Submodules.append", "| .nil, m => m", "| .nil, _ => .nil", "submodules of a terminated network")
# constructors
s("con-value", CN, "Ratio.value", "p.values.headD 0", "0", "C79: the registered ratio")
s("con-upd", CN, "Ratio.update", "| .fixed x => .fixed x", "| .fixed x => .fixed (x + δ)", "C79: buffers are not trained")
# plots
s("plot-batch", P, "batchLabels", "[.batch i]", "[.batch (i + 1)]", "C78: labels of batches")
s("plot-one", P, "curve1", "y.get [i]", "y.get [i, 0]", "C78: a single curve")
s("plot-num", P, "numDetectors", "(cs.map fun c => c.numDet).sum", "cs.length", "C78: which axis is which")
# attributes
s("attr-obj", AT, "objectSet", "if s.props a then (s, some .attributeError)", "if False then (s, some .attributeError)", "C62: properties have no setter")
s("attr-param", AT, "registerParam", "if s.has a && (s.params a).isNone then (s, some .keyError)", "if False then (s, some .keyError)", "C62: taken names")
# meshes
s("mesh-phase", M, "phaseConns", "conn3 (wgN i) 1 (N + i)", "conn3 (wgN i) 1 (N - 1 - i + N)", "C57/C104: order of the outputs")
s("mesh-terms", M, "meshTerms", "(List.range N).map fun i =>\n    (lbl ['d'] i", "(List.range (N - 1)).map fun i =>\n    (lbl ['d'] i", "C56: a detector for every output")
