"""Seeds for bounded parameters in single precision (C145)."""
SEEDS = []
def s(id, file, definition, old, new, claim, **k):
    SEEDS.append(dict(id=id, file=file, definition=definition, old=old, new=new, claim=claim, **k))
RB = "Model/RoundedBounded.lean"
s("rb-scaled", RB, "scaledR", "rt (rt (x - rt a) / rt (rd (b - a)))", "rt (rt (x - rt a) / rt b)", "the scaled data is divided by the upper bound instead of the width: C145 for general bounds")
s("rb-shift", RB, "scaledR", "rt (rt (x - rt a) / rt (rd (b - a)))", "rt (x / rt (rd (b - a)))", "the lower bound is not subtracted: C145 for general bounds")
s("rb-one", RB, "weightOfScaledR", "let d := rt (rt (1 / s) - 1)", "let d := rt (1 / s)", "the logarithm of 1 / s: values are not represented")
s("rb-sign", RB, "weightOfScaledR", ".num (-m.log d)", ".num (m.log d)", "the sign of the weight: the value 1 - x is represented")
s("rb-inf", RB, "weightOfScaledR", "if d = 0 then .inf", "if d = 0 then .neginf", "data at the upper bound gives the lower bound")
s("rb-zero", RB, "weightOfScaledR", "rt (1 / s) then .neginf", "rt (1 / s) then .inf", "data at the lower bound gives the upper bound")
s("rb-over", RB, "weightOfScaledR", "2 ^ 128 ≤ rt (1 / s)", "2 ^ 10 ≤ rt (1 / s)", "small ratios become zero")
s("rb-sig1", RB, "sigmoidR", "| .inf => some 1", "| .inf => some 0", "data at the upper bound gives the lower bound")
s("rb-sig0", RB, "sigmoidR", "| .neginf => some 0", "| .neginf => some (1 / 2)", "data at the lower bound gives the middle")
s("rb-width", RB, "boundedValueR", "rt (rt (rt (rd (b - a)) * y) + rt a)", "rt (rt (rt b * y) + rt a)", "the value is not scaled to the width of the bounds")
s("rb-low", RB, "boundedValueR", "rt (rt (rt (rd (b - a)) * y) + rt a)", "rt (rt (rd (b - a)) * y)", "the lower bound is not added")
s("rb-t", RB, "splitR", "(m.sqrt (rt (1 - x)), m.sqrt x)", "(m.sqrt (rt (1 + x)), m.sqrt x)", "the coupler creates power")
s("rb-k", RB, "splitR", "(m.sqrt (rt (1 - x)), m.sqrt x)", "(rt (1 - x), x)", "amplitudes instead of roots: power is lost")
s("rb-swap", RB, "splitR", "(m.sqrt (rt (1 - x)), m.sqrt x)", "(m.sqrt x, m.sqrt (rt (1 - x)))", "transmission and coupling exchanged")
s("rb-accept", RB, "boundedAcceptsR", "¬ x < rt a ∧ ¬ rt b < x", "¬ x < rt a", "data above the upper bound is accepted")
s("rb-nan", RB, "weightOfScaledR", "if d < 0 then .nan", "if d ≤ 0 then .nan", "a ratio of 1 is nan")
AC = "Model/Accumulate.lean"
s("ac-noreset", AC, "Workshop.call", "{ b with grad := zeroGrad (S.params k) b.grad, env", "{ b with env", "calls do not reset gradients: C146_last and the violations are false")
s("ac-all", AC, "Workshop.call", "if b.env k ≠ some e ∨ tracking = true then", "if True then", "every call resets gradients, also in the same environment without gradients: C146_tidy_partial")
s("ac-track", AC, "Workshop.call", "if b.env k ≠ some e ∨ tracking = true then", "if b.env k ≠ some e then", "calls with gradients in the same environment do not reset gradients: C146_last")
s("ac-env", AC, "Workshop.call", "if b.env k ≠ some e ∨ tracking = true then", "if tracking = true then", "calls in another environment without gradients do not reset gradients: C146_validation_violation")
s("ac-store", AC, "Workshop.call", "if S.ends k e b.value then Function.update b.env k (some e) else b.env", "b.env", "the environment is never stored: a second call in the same environment resets gradients")
s("ac-set", AC, "Workshop.run", "fun i => b.grad i + slope b.value i", "fun i => slope b.value i", "backward replaces gradients")
s("ac-sign", AC, "Workshop.run", "b.value i - rate * b.grad i", "b.value i + rate * b.grad i", "steps go uphill")
s("ac-others", AC, "Workshop.run", "if i ∈ ps then b.value i - rate * b.grad i else b.value i", "b.value i - rate * b.grad i", "steps change parameters that the optimizer was not given")
s("ac-zero", AC, "zeroGrad", "if i ∈ ps then 0 else g i", "if i ∈ ps then g i else 0", "the gradients of the other parameters are reset")
s("ac-step0", AC, "Workshop.run", "{ b with value := fun i => if i ∈ ps then b.value i - rate * b.grad i else b.value i }", "{ b with value := (fun i => if i ∈ ps then b.value i - rate * b.grad i else b.value i), grad := zeroGrad ps b.grad }", "step resets gradients")
