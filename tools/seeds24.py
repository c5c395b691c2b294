"""Edits that survived earlier, repeated with the theorems that were added or tightened since."""
SEEDS = []
def s(id, file, definition, old, new, claim, **k):
    SEEDS.append(dict(id=id, file=file, definition=definition, old=old, new=new, claim=claim, **k))
s("env-deft2", "Model/Env.lean", "defaultT", "(List.range 100).map fun", "(List.range 101).map fun", "C02: default times", tightened=["C02_default added after the survival of env-deft"])
s("soa-g02", "Model/Soa.lean", "Agrawal.g0", "(q.I / q.threshold - 1)", "(q.I / q.threshold)", "C113: no gain at transparency", tightened=["C113_parameters, C113_transparent added after soa-g0 made only examples fail"])
s("num-step2", "Model/Numbers.lean", "descend", "(-lr : ℝ)", "(lr : ℝ)", "C122: descent", tightened=["C122_descends added after the survival of num-step"])
s("net-unterm3", "Model/Network.lean", "unterminate", "match dictGet ['b', 'a', 's', 'e'] s.modules with\n  | none => .error .attributeError", "match dictGet ['b', 'a', 's', 'e'] s.modules with\n  | none => .error .keyError", "C21: unterminate of a network that was not terminated", tightened=["C21_not_terminated added after the survival of net-unterm"])
s("soa-vol", "Model/Soa.lean", "Agrawal.volume", "q.L * q.H * q.W", "q.L * q.H", "C113: volume of the amplifier")
s("soa-ith", "Model/Soa.lean", "Agrawal.threshold", "* q.N0 / q.tc", "* q.N0 * q.tc", "C113: current of transparency")
