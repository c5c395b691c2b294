SEEDS = []
def s(id, file, definition, old, new, claim, **k): SEEDS.append(dict(id=id, file=file, definition=definition, old=old, new=new, claim=claim, **k))
SH = "Model/Show.lean"; T = "Model/Train.lean"; D = "Model/Draw.lean"; SO = "Model/Soa.lean"
s("show-arrstr2", SH, "arrStr", "else if l.length > 1 then", "else if l.length > 0 then", "C110: a single number is shown without brackets in the html table", tightened=["C110_html added after the survival of show-arrstr"])
s("show-quote2", SH, "reprQuote", "if '\\'' ∈ s ∧ '\"' ∉ s then '\"' else '\\''", "if '\\'' ∈ s then '\"' else '\\''", "C110: quotes python chooses", tightened=["QuotedText says which quotes are used, after the survival of show-quote"])
# drawings
s("draw-table", D, "boxTable", "(\"Source\".toList, some \"C3\".toList)", "(\"Source\".toList, some \"C2\".toList)", "C118: sources and detectors have different colours")
s("draw-base", D, "boxOf", "| none => boxOf bases", "| none => boxOf bases.tail", "C118: nearest class with a colour")
s("draw-stop", D, "boxOf", "| none => boxOf bases", "| none => .ok none", "C118: classes derived from others")
s("draw-label", D, "drawNodes", ".text (pos nc.1) nc.1 b", ".text (pos nc.1) (nc.2.headD []) b", "C118: the name is shown, not the class")
s("draw-pos", D, "drawNodes", ".text (pos nc.1) nc.1 b", ".text (pos []) nc.1 b", "C118: names are at the positions of the nodes")
s("draw-adj", D, "adjacent", "else if e.2 = n then some e.1 else none", "else none", "C118: links in both directions")
s("draw-multi", D, "edgeList", "List.replicate (edges.filter fun e => e = (n, m) || e = (m, n)).length (n, m)", "[(n, m)]", "C118: parallel links are all drawn")
s("draw-seen", D, "edgeList", "edgeList edges (n :: seen) nodes", "edgeList edges seen nodes", "C118: every link is drawn once")
s("draw-self", D, "edgeList", ".filter fun m => m ∉ seen)", ".filter fun m => m ∉ n :: seen)", "C118: links of a component with itself")
s("draw-half", D, "drawEdge", "p.2 + 0.5 * r * Real.sin a", "p.2 + r * Real.sin a", "C118: bend of the line")
s("draw-angle", D, "drawEdge", "(2 * u - 1) * Real.pi / 4", "(2 * u - 1) * Real.pi", "C118: angle of the bend")
s("draw-end", D, "drawEdge", "p.2 + 0.5 * r * Real.sin a), (q.1, q.2)]", "p.2 + 0.5 * r * Real.sin a), (p.1, p.2)]", "C118: lines end at the other component")
s("draw-atan", D, "drawEdge", "Complex.arg ⟨q.1 - p.1, q.2 - p.2⟩", "Complex.arg ⟨q.2 - p.2, q.1 - p.1⟩", "C118: arguments of arctan2")
s("draw-flag", D, "graphDraw", "  else .ok (g, [])", "  else .ok (g, [.axisOff])", "C118: draw=False")
s("draw-method", D, "networkGraph", "graphDraw keys classes conns true pos rand", "graphDraw keys classes conns _draw pos rand", "C118_violation: the method ignores its argument")
# constructors and training
s("train-key", T, "AVal.key", "| .bounded _ _ _ => '_' :: a", "| .bounded _ _ _ => a", "C117: the weight of a bounded parameter is trained")
s("train-grad", T, "Obj.assign", "setKey o.grad (v.key a) g", "setKey o.grad a g", "C117: the weight of a bounded parameter is trained")
s("train-pob", T, "paramOrBuffer", "if t then .param x else .buffer x", ".param x", "C117: buffers are not parameters")
s("train-pob2", T, "paramOrBuffer", "if t then .param x else .buffer x, t)", "if t then .param x else .buffer x, true)", "C117: (harmless: buffers are not trained)")
s("train-bound", T, "boundedAttr", "(boundedNew [x] 0 1)", "(boundedNew [x] 0 2)", "C117: couplings stay below one")
s("train-bflag", T, "boundedAttr", "p.lo p.hi, t)", "p.lo p.hi, true)", "C117: mirrors that are not trainable")
s("train-coup", T, "couplingAttr", "if t then boundedAttr", "if !t then boundedAttr", "C117: couplings that are not trainable")
s("train-len", T, "lengthAttrs", "plain ['l', 'o', 's', 's'] loss", "plain ['l', 'o', 's', 's'] length", "C117: losses are stored")
s("train-mod", T, "Call.new", "paramOrBuffer ['p', 'h', 'a', 's', 'e'] (modTwoPi phase) t])", "paramOrBuffer ['p', 'h', 'a', 's', 'e'] (modTwoPi phase / 2) t])", "C117: phases")
s("train-nomod", T, "Call.new", "paramOrBuffer ['p', 'h', 'a', 's', 'e'] (modTwoPi phase) t])", "paramOrBuffer ['p', 'h', 'a', 's', 'e'] phase t])", "none: equivalent up to multiples of 2 pi, the theorems should still hold")
s("train-tp", T, "Call.new", "paramOrBuffer ['p', 'h', 'a', 's', 'e'] (modTwoPi phase) tp, x])", "paramOrBuffer ['p', 'h', 'a', 's', 'e'] (modTwoPi phase) tc, x])", "C117: trainable phases and trainable couplings are different things")
s("train-real", T, "Call.new", "plain ['d', 'e', '1', '_', 'k', '0'] d1k", "plain ['d', 'e', '1', '_', 'k', '0'] d1n", "C117: arguments of RealisticDirectionalCoupler")
s("train-mzi", T, "Call.new", "paramOrBuffer ['t', 'h', 'e', 't', 'a'] theta t]", "paramOrBuffer ['t', 'h', 'e', 't', 'a'] phi t]", "C117: arguments of Mzi")
s("train-mzi2", T, "Call.new", "paramOrBuffer ['t', 'h', 'e', 't', 'a'] theta t]", "paramOrBuffer ['t', 'h', 'e', 't', 'a'] theta false]", "C117: both phases of a Mzi are trainable")
s("train-grat", T, "Call.new", "plain ['R', '_', 'i', 'n'] Rin", "plain ['R', '_', 'i', 'n'] R", "C117: arguments of GratingCoupler")
s("train-mmi", T, "Call.new", "['w', 'e', 'i', 'g', 'h', 't', 's'] t, some w⟩", "['w', 'e', 'i', 'g', 'h', 't', 's'] true, some w⟩", "C117: weights that are not trainable")
s("train-delay", T, "Obj.dev", "(waveguideSet length loss neff wl0 ng phase) (lengthDelay ng length)", "(waveguideSet length loss neff wl0 ng phase) (lengthDelay neff length)", "C117: delays")
s("train-set", T, "waveguideSet", "let l := lossFactor loss length", "let l := lossFactor loss phase", "C117: losses do not depend on the phase")
s("train-long", T, "longCouplerSet", "let tau := √(1 - coupling)", "let tau := 1 - coupling", "C117: transmission of couplers")
s("train-bump", T, "AVal.bump", ".bounded (w + (δ : EReal)) lo hi", ".bounded w lo (hi + δ)", "C117: the bounds stay")
s("train-bump2", T, "AVal.bump", "| .param x => .param (x + δ)", "| .param x => .param x", "C117: phases are trained")
s("train-w", T, "Obj.train", "w.w k i j + δ.2 k i j", "w.w k i j + δ.2 0 i j", "C117: imaginary parts of weights")
s("train-all", T, "Obj.train", "if o.grad k then v.bump (δ.1 k) else v", "v.bump (δ.1 k)", "C117: a mirror that is not trainable is a parameter without gradient")
# rate equation
s("agr-exp", SO, "soaAction", "a.1 w b * Real.exp (0.5 * h.1 w b)", "a.1 w b * Real.exp (h.1 w b)", "C113: gain of the field")
s("agr-sign", SO, "Agrawal.rate", "((q.g0 * q.L - h.1 w b) -", "((q.g0 * q.L + h.1 w b) -", "C113: relaxation")
s("agr-power", SO, "Agrawal.rate", "(a.1 w b ^ 2 + a.2 w b ^ 2) / q.psat c", "(a.1 w b ^ 2) / q.psat c", "C113: the power is that of both parts")
s("agr-tc", SO, "Agrawal.rate", "(1 / q.tc) *", "q.tc *", "C113: the time constant")
s("agr-one", SO, "Agrawal.rate", "(Real.exp (h.1 w b) - 1)", "Real.exp (h.1 w b)", "C113: saturation")
