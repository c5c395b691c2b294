SEEDS = []
def s(id, file, definition, old, new, claim, **k): SEEDS.append(dict(id=id, file=file, definition=definition, old=old, new=new, claim=claim, **k))
SH = "Model/Show.lean"
NW = "Model/Network.lean"
s("sc-none", SH, "componentRepr", "| none => cls\n  | some n => cls ++", "| none => cls ++ \"()\".toList\n  | some n => cls ++", "C141: the class alone for nameless components")
s("sc-open", SH, "componentRepr", "cls ++ \"(name=\\\"\".toList ++ n ++ \"\\\")\".toList", "cls ++ \"(\".toList ++ n ++ \")\".toList", "C141: the exact text")
s("sc-drop", SH, "componentRepr", "cls ++ \"(name=\\\"\".toList ++ n ++ \"\\\")\".toList", "cls", "C141: the printed form determines the name")
s("tl-first", NW, "termDict", "ps.foldl (fun d p => dictSet p.1 p.2 d) []", "ps.foldr (fun p d => dictSet p.1 p.2 d) []", "C140: order of first, value of last occurrence")
s("tl-dup", NW, "termDict", "(mapE namedTerm l).map fun ps => ps.foldl (fun d p => dictSet p.1 p.2 d) []", "mapE namedTerm l", "C140: terms with equal names are merged")
s("tl-keepfirst", NW, "termDict", "ps.foldl (fun d p => dictSet p.1 p.2 d) []", "ps.foldl (fun d p => if (dictGet p.1 d).isSome then d else dictSet p.1 p.2 d) []", "C140: the last term of a name is connected")
s("tl-noname", NW, "namedTerm", "| none => .error .typeError", "| none => .ok ([], c)", "C140: a nameless term raises TypeError")
