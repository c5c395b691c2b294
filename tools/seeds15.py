SEEDS = []
def s(id, file, definition, old, new, claim, **k): SEEDS.append(dict(id=id, file=file, definition=definition, old=old, new=new, claim=claim, **k))
BU = "Model/Build.lean"
s("bu-dup", BU, "Site.add", "if n ∈ o.used then (s, .error .attributeError)\n    else if", "if", "a used name is refused")
s("bu-name", BU, "Site.add", "s.nameOf it ≠ none ∧ s.nameOf it ≠ some n", "s.nameOf it ≠ some n", "unnamed parts may be assigned")
s("bu-name2", BU, "Site.add", "s.nameOf it ≠ none ∧ s.nameOf it ≠ some n", "s.nameOf it ≠ none", "named parts are registered")
s("bu-set", BU, "Site.add", "dictSet n it o.items", "(n, it) :: o.items", "parts keep their order")
s("bu-comp", BU, "Site.comp", "s.objs[y]?.bind NetObj.buf", "none", "parts may be networks")
s("bu-put", BU, "Site.put", "s.objs.set x o", "s.objs.set (x + 1) o", "the network on which link is called changes")
s("bu-known", BU, "knownNames", "n :: knownNames items l else []", "n :: knownNames items l else knownNames items l", "unknown names stop the loop")
s("bu-keyerr", BU, "Site.rebuild", "if known ≠ names then (s'.put x o', .error .keyError)", "if known ≠ names then (s'.put x o', .ok ())", "unknown names are refused")
s("bu-attrerr", BU, "Site.rebuild", "(s'.put x o', .error .attributeError)", "(s'.put x o', .ok ())", "networks that are not linked are refused")
s("bu-used", BU, "Site.rebuild", "used := known, conns := conns", "used := [], conns := conns", "used names are recorded")
s("bu-early", BU, "Site.rebuild", "if o.conns = [] then (s, .ok ())", "if o.conns = [] then (s, .error .runtimeError)", "nothing to do without connections")
s("bu-oldconns", BU, "Site.link", "{ o with conns := o.conns ++ r.1 }", "{ o with conns := r.1 }", "earlier links are kept")
s("bu-norebuild", BU, "Site.link", "| .ok _ => s'.rebuild x", "| .ok _ => (s', .ok ())", "link rebuilds the network")
s("bu-here", BU, "Site.linkHere", "| [] => (s, .error .attributeError)", "| [] => (s, .ok ())", "pt.link needs a network")
s("bu-last", BU, "Site.linkHere", "match s.stack with\n  | [] => (s, .error .attributeError)\n  | x :: _ => s.link x args", "match s.stack.reverse with\n  | [] => (s, .error .attributeError)\n  | x :: _ => s.link x args", "pt.link acts on the innermost network")
s("bu-reg", BU, "Site.register", "| some n, x :: _ => s.add x n it", "| some _, _ :: _ => (s, .ok ())", "named parts are registered")
s("bu-reg2", BU, "Site.register", "| _, _ => (s, .ok ())", "| none, x :: _ => s.add x [] it\n  | _, _ => (s, .ok ())", "unnamed parts are not registered")
s("bu-new", BU, "Site.newNet", "[⟨name, [], [], [], none⟩]", "[⟨none, [], [], [], none⟩]", "networks keep their names")
s("bu-exit", BU, "Site.exit", "| _ :: rest => ({ s with stack := rest }, .ok ())", "| _ :: _ => (s, .ok ())", "the outer network is current again")
s("bu-after", BU, "Build.run", "| (s', .ok _) => (after s.objs.length).run s'", "| (s', .ok _) => (after (s.objs.length + 1)).run s'", "the variable is the network")
s("bu-after2", BU, "Build.run", "| (s', .ok _) => (after s.objs.length).run s'", "| (s', .ok _) => (s', .ok ())", "statements after the with-block")
s("bu-leafname", BU, "Build.run", ".leaf { c with name := some n })", ".leaf { c with name := some [] })", "named parts are registered")
s("bu-rename", BU, "Site.rename", "{ p with name := some n }", "{ p with name := some n, buf := none }", "renaming keeps the buffers")
s("bu-rename2", BU, "Site.rename", "{ p with name := some n }", "{ p with name := none }", "parts get the name of the attribute")
