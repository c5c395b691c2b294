#!/usr/bin/env python3
"""Writes /verif/properties.jsonl from the table below (one place to edit)."""
import json, os
P = []
def p(id, title, statement, quantifier, why, *anchors):
    P.append(dict(id=id, title=title, statement=statement, quantifier=quantifier,
                  why_tests_cant=why, anchors=list(anchors)))
ENV = "photontorch/environment/environment.py"
NET = "photontorch/networks/network.py"
CMP = "photontorch/components/component.py"
NN = "photontorch/nn/nn.py"

# ---------------------------------------------------------------- environment
p("C01", "Conflicting grid arguments are rejected, compatible ones are not",
  "Environment(...) raises ValueError whenever the user explicitly supplies two arguments that the documentation declares mutually exclusive (dt/samplerate/t; t0/t; t1/num_t/t; bitrate/bitlength; dwl/df/num_wl/num_f/wl/f; wl0/f0/wl/f; wl1/f1/wl/f), or dt<0 or t0>t1; and the exclusion stage rejects nothing else.",
  "every combination of supplied/defaulted arguments and every numeric value of them",
  "there are 2^18 supplied/defaulted combinations and unboundedly many values",
  ENV + ":Environment.__init__", ENV + ":_is_default")
p("C02", "Time grid from num_t and dt",
  "If num_t is supplied (with any dt/samplerate/t0 accepted by the constructor), the environment's time array has exactly num_t samples, sample i being t0 + i*dt. Without any argument about time (and in the time domain) there are 100 samples, sample i being i*1e-14.",
  "every num_t >= 1, every t0, dt/samplerate", "unbounded sizes and values",
  ENV + ":Environment.__init__")
p("C03", "Time grid from t0, t1 and dt",
  "If t0/t1/dt are supplied without num_t, the time array is t0, t0+dt, ..., has floor((t1-t0)/dt) samples (a single sample t0 when that is 0), and every sample after the first lies strictly before t1.",
  "every t0 <= t1 and dt > 0", "unbounded values",
  ENV + ":Environment.__init__", ENV + ":_arange")
p("C04", "Derived time attributes are mutually consistent",
  "For every successfully built environment: num_t = len(t) >= 1, t0 = t[0], dt = t[1]-t[0], samplerate*dt = 1, t1 = t[-1]+dt, and dt, samplerate and t1 are None exactly when there is one sample; bitrate*bitlength = 1 whenever a bitrate is set. For a uniform grid t1 = t0 + num_t*dt.",
  "every argument combination accepted by the constructor", "unbounded argument space",
  ENV + ":Environment.__init__")
p("C05", "num_wl produces exactly that many equally spaced wavelengths",
  "Environment(wl0=a, wl1=b, num_wl=N) (a != b; bounds may equally be given as f0/f1) has exactly N wavelengths a + i*(b-a)/N, num_wl = num_f = N, wl0 = a, wl1 = b (when N >= 2), and f[i]*wl[i] = c for all i. With a step dwl=d of either sign instead of num_wl, the wavelengths are a, a +- |d|, ..., floor(|b-a|/|d|) of them (at least one), all between a and b.",
  "all N >= 1 and all bounds a != b", "unbounded N and values",
  ENV + ":Environment.__init__", ENV + ":_arange")
p("C06", "A frequency grid may be bounded by wavelengths",
  "Environment(num_f=N (or df=...), wl0=a, wl1=b) covers the frequencies between c/b and c/a, as the documentation of num_f/wl0/wl1 says. (The code violates this: it computes the lower frequency bound from wl0 instead of wl1, so that the call always fails; with only wl1 supplied, wl1 is ignored.) With f0/f1 bounds the grid is correct, both for num_f and for df of either sign.",
  "all a, b, N", "the defect needs an argument combination no test uses",
  ENV + ":Environment.__init__")
p("C07", "copy() reproduces the environment and overrides only what is asked",
  "env.copy() yields an environment with identical time array, wavelength array, bitrate, domain and scalars, and env.copy(num_t=n) / copy(dt=x) / copy(wl=...) change only the corresponding grid; the original is untouched. (Violated for single-sample environments that start after 1e-12 s and for decreasing time arrays, whose copy() raises.)",
  "every environment produced by the constructor and every override", "unbounded set of environments",
  ENV + ":Environment.copy", ENV + ":_convert_default")
p("C08", "Environments are frozen",
  "After construction, any sequence of attribute assignments env.x = v or env[x] = v raises AttributeError each time and leaves every attribute unchanged.",
  "every sequence of assignments", "arbitrary histories",
  ENV + ":Environment.__setattr__", ENV + ":Environment.__setitem__")
p("C09", "with-blocks restore the current environment",
  "Inside `with env:` current_environment() is env; after the block (normally or by exception, at any nesting, also re-entering the same env) the previously current environment is current again, and with none open current_environment() raises RuntimeError. set_environment makes a new environment current; it stays current until another one is entered, also after the end of a with-block in whose body it was called.",
  "every program of nested with-blocks, exceptions and handlers", "unbounded nesting and exception placement",
  ENV + ":Environment.__enter__", ENV + ":Environment.__exit__", ENV + ":current_environment", ENV + ":set_environment")
p("C10", "with-blocks control and restore the gradient mode",
  "Inside `with env:` gradient tracking equals env.grad, and after the block it equals what it was before. (Violated when an environment is entered while it is already open: the saved mode is overwritten.)",
  "every program of nested with-blocks over distinct environments", "unbounded nesting",
  ENV + ":Environment.__enter__", ENV + ":Environment.__exit__")
p("C11", "Frequency-domain environments have a single time sample",
  "Environment(..., freqdomain=True) always has num_t = 1 (the first sample of the grid it would have had), dt, t1, samplerate, bitrate and bitlength None, and the same wavelengths as its time-domain counterpart.",
  "all accepted arguments", "unbounded argument space", ENV + ":Environment.__init__")
p("C12", "Environment equality means equal simulation grids",
  "For environments with uniform time and wavelength grids, env1 == env2 holds exactly when all grids and settings agree. (For non-uniform arrays == can identify different grids, because t, wl and f are not compared.)",
  "all pairs of environments", "pairs of unbounded objects", ENV + ":Environment.__eq__")

# ---------------------------------------------------------------- network topology
p("C13", "link() records exactly the chain",
  "nw.link(p, 'a1:c1:b1', ..., 'an:cn:bn', q) declares exactly the n-1 connections (c_i, b_i)-(c_{i+1}, a_{i+1}) between consecutive components, plus external port p on (c1, a1) if p is given and q on (cn, bn) if q is given; end elements may omit their outer port. The declared strings parse back to the same components and ports.",
  "every chain length, component name and port number", "unbounded chains and names",
  NET + ":Network.link", NET + ":Network.set_C", NET + ":Network.set_port_order")
p("C14", "Connections are reciprocal at every nesting depth",
  "The connection matrix of every network, however deeply nested, is symmetric and contains only zeros and ones.",
  "every component tree and connection list accepted by the constructor", "unbounded nesting and size",
  NET + ":Network.set_C", "photontorch/components/soas.py:BaseSoa.set_C")
p("C15", "The connection matrix contains exactly the declared connections",
  "Two ports of a network are connected iff they are connected inside the same sub-component or a connection string names them (through the sub-components' free-port numbering); ports with no connection are exactly the free ports.",
  "every network", "unbounded networks",
  NET + ":Network.set_C", CMP + ":Component._set_buffers")
p("C16", "Ill-formed connections are rejected",
  "A connection naming an unknown component raises KeyError, a port index beyond the component's free ports raises ValueError (internal) or IndexError (external), connecting a port to itself by equal indices raises IndexError, and a part of a connection string that is neither an integer nor the name of a component (such as a non-integer port) raises KeyError. No accepted network connects a port to itself. (Violated: negative indices are accepted with Python wrap-around, so 'wg:1:wg:-1' connects a port to itself.)",
  "every connection list", "unbounded connection lists",
  NET + ":Network.set_C", NET + ":Network.set_port_order")
p("C17", "External port numbers of a flat network",
  "If a network of basic components declares external ports 0..k-1, once each, on distinct unconnected sub-component ports, its free port number j (0<=j<k) is the declared one, and the remaining free ports follow in component order.",
  "every flat network and every assignment of external ports", "unbounded networks and permutations",
  NET + ":Network.set_port_order", NET + ":Network.set_C")
p("C18", "External port numbers of nested networks",
  "The same numbering holds when sub-components are themselves networks. With no external declaration, free ports are numbered sub-component by sub-component in the sub-components' own numbering. (With explicit declarations the code violates this: the sub-network's port permutation is applied twice.)",
  "every nested network", "needs nested networks with permuted ports",
  NET + ":Network.set_port_order")
p("C19", "Port order is always a permutation of the ports",
  "The port order computed for a network lists every port exactly once, so no port is lost or duplicated; an invalid port order is rejected. (Violated when external port numbers have gaps: the port is dropped and another duplicated, and the validity check accepts it because it uses .all() for .any().)",
  "every network", "unbounded networks", NET + ":Network.set_port_order", CMP + ":Component._set_buffers")
p("C20", "terminate() closes every port in order",
  "terminate() with one term per free port returns a network without free ports in which the i-th term is connected to the i-th free port; the original network is unchanged; with no free ports it raises IndexError; with too many terms it raises ValueError; with too few the result still has the remaining free ports.",
  "every network and term list", "unbounded networks", NET + ":Network.terminate")
p("C21", "Any network can be terminated, and unterminate() undoes it",
  "nw.terminate(...).unterminate() is nw, for every network with free ports. (Violated for every network that has a name: assigning .base goes through add_component, which raises because the name differs.)",
  "every network, named or not", "depends on object naming history", NET + ":Network.terminate", NET + ":Network.unterminate", NET + ":Network.add_component")
p("C22", "Network with-blocks restore the network under construction",
  "After `with nw:` ends - normally or by an exception - the previously current network is current again. (Violated on exceptions: the failed network stays current, and later named components are added to it.)",
  "every nesting and exception placement", "exception placements", NET + ":Network.__enter__", NET + ":Network.__exit__", CMP + ":Component.__init__")
p("C23", "A failed link() leaves the network usable",
  "If link() raises, the network's connections are unchanged and later valid links succeed. (Violated: the bad connection string is kept, and every later link() fails too.)",
  "every history of link calls", "histories", NET + ":Network.link")
p("C24", "Each port has at most one partner",
  "If no sub-component port is named by two internal connections, every port of the network is connected to at most one port, and a fully connected network pairs its ports perfectly. (Not enforced: linking one port twice is accepted silently and creates a port with two partners.)",
  "every network", "unbounded networks", NET + ":Network.set_C", NET + ":Network.link")

# ---------------------------------------------------------------- simulation
p("C25", "The real block solve is the complex solve",
  "The reduced connection matrix computed by the 2n x 2n real linear system has real and imaginary parts equal to the complex formula Cmcml Smlml (1 - Cmlml Smlml)^-1 Cmlmc + Cmcmc, and initialization fails exactly when the complex matrix 1 - Cmlml Smlml is singular.",
  "all matrices of all sizes", "unbounded matrices", NET + ":Network.initialize")
p("C26", "Time-domain simulation solves the full network equations",
  "For every network without active components whose scattering matrix does not couple delayed with undelayed ports, the field returned for every detector, time step, wavelength and batch equals the incoming wave of the unique solution of the unreduced equations: incoming = C outgoing, outgoing = S (delayed incoming) + source.",
  "all networks, delays, sources, and any number of steps", "unbounded networks and simulation lengths",
  NET + ":Network.initialize", NET + ":Network.step", NET + ":Network.forward")
p("C27", "Frequency-domain simulation solves the steady-state equations",
  "In a frequency-domain environment the detected field equals the incoming wave at the detectors of the unique solution of a = C(S a + source), for every network of passive components between sources and detectors.",
  "all networks and sources", "unbounded networks", NET + ":Network.initialize", NET + ":Network.forward")
p("C28", "Delays are realised exactly in time steps",
  "A port with physical delay d is delayed by round(d/dt) time steps (nearest, half up), but at least one step for sources, detectors and active ports; the simulation buffer never loses a sample that is still needed.",
  "all delay vectors, dt and simulation lengths", "unbounded histories", NET + ":Network.initialize", NET + ":Network._simulation_buffer", NET + ":Network.step")
p("C29", "Passive simulation is linear in the source",
  "With power=False and no active components, the response to x*s1 + y*s2 is x*response(s1) + y*response(s2), for complex x and y; the power response scales with |x|^2.",
  "all networks, sources, scalars, lengths", "unbounded", NET + ":Network.forward")
p("C30", "Causality and shift-invariance",
  "The detected field at step i depends only on the source up to step i (even with active components), and delaying the source of a passive network by k steps delays the response by k steps.",
  "all sources and all steps", "unbounded histories", NET + ":Network.forward", NET + ":Network.step")
p("C31", "Wavelengths and batches do not interact",
  "For passive networks the response at one wavelength and one batch element depends only on the source at that wavelength and batch element; simulating a batch equals simulating its elements separately.",
  "all networks, batch sizes, sources", "unbounded", NET + ":Network.step", NET + ":Network.forward")
p("C32", "A passive circuit never creates energy over time",
  "If all components are passive (S contracts energy) and the ports are paired, the total detected energy up to any step is at most the total injected source energy up to that step.",
  "all passive networks, sources and durations", "unbounded time", NET + ":Network.step")
p("C33", "A lossless circuit conserves power in the frequency domain",
  "If all non-terminal components have unitary S and all ports are paired, then for every wavelength and batch the power arriving at sources and detectors together equals the injected power; in particular detected power never exceeds injected power.",
  "all lossless networks", "unbounded networks", NET + ":Network.initialize", NET + ":Network.forward")
p("C34", "Reciprocity",
  "If all components have symmetric S, the transmission from terminal p to terminal q equals that from q to p.",
  "all reciprocal networks", "unbounded networks", NET + ":Network.initialize")
p("C35", "Settled time-domain results equal frequency-domain results",
  "If the time-domain response to a constant source becomes stationary, the stationary detected field equals the frequency-domain result for the same network, wavelength and source.",
  "all passive networks and sources", "limits over unbounded time", NET + ":Network.forward")
p("C36", "Source and detector channels follow component order",
  "Source channel k drives the k-th source of the network in port order and detector channel k reports the k-th detector, whatever mixture of delays, active ports and components lies between.",
  "all networks", "unbounded networks", NET + ":Network.initialize", NET + ":Network.step")
p("C37", "forward() uses the current parameters",
  "Under gradient tracking, or in an environment different from the previous call, forward() is computed with the parameters at the time of the call. (Violated without gradient tracking in the same environment: parameters changed after the first call are ignored.)",
  "all histories of parameter changes, environment switches and calls", "histories", NET + ":Network.forward", NET + ":Network.initialize")
p("C38", "Named source dimensions are honoured in any order",
  "A source tensor with named dimensions from c,t,w,s,b in any order drives source s at time t, wavelength w, batch b with the element at those coordinates, missing or size-1 dimensions being broadcast, a missing c meaning a real source; wrong wavelength or source counts raise ValueError, unnamed low-dimensional and partially named tensors raise ValueError.",
  "all shapes and name orders", "unbounded shapes", NET + ":Network._handle_source")
p("C39", "Sources of other lengths are cut or zero-padded",
  "A source longer than the simulation is cut to it; a shorter one (more than one sample) is continued with zeros. (Violated: padding uses the wrong dimension, so every short source except length 2 raises RuntimeError.)",
  "all source lengths", "unbounded lengths", NET + ":Network._handle_source")
p("C40", "Each active component acts on its own ports",
  "In a network whose active components are basic components, the action of each active component reads and writes exactly its own ports, and other nodes are unchanged. (Violated when active components sit in nested networks followed by other active components.)",
  "all networks with active components", "unbounded networks", NET + ":Network.action", NET + ":Network.step")
p("C41", "Networks without detectors simulate",
  "forward() on a network without detectors returns an empty detector axis. (Violated: the slice -0: selects every node, so that the shape does not match.)",
  "all networks without detectors", "corner case", NET + ":Network.step")

# ---------------------------------------------------------------- components
p("C42", "Lossless components are unitary",
  "Mirror, DirectionalCoupler (parameter in [0,1]), RealisticDirectionalCoupler, Mzi, Connection, and loss-free Waveguide and DirectionalCouplerWithLength have unitary scattering matrices at every wavelength.",
  "all parameter values and wavelengths", "real-valued parameters", "photontorch/components/*.py:set_S")
p("C43", "Two-way components are reciprocal and SOAs amplify from port 0 to port 1",
  "Every passive component has a symmetric scattering matrix; LinearSoa multiplies the wave entering port 0 by the amplification and emits it from port 1. (Violated for LinearSoa: only S[0,1] is set, which transmits from port 1 to port 0 and blocks port 0 to port 1.)",
  "all parameter values", "real-valued parameters", "photontorch/components/soas.py:LinearSoa.set_S")
p("C44", "Loss in dB/m attenuates power",
  "A component of given loss and length transmits the fraction 10^(-loss*length/10) of the power. Holds for Waveguide and DirectionalCouplerWithLength. (Violated for Mzi: the attenuated matrix is returned and discarded by the network, so loss has no effect.)",
  "all losses and lengths", "real-valued parameters", "photontorch/components/waveguides.py:Waveguide.set_S", "photontorch/components/mzis.py:Mzi.set_S", NET + ":Network.set_S")
p("C45", "Waveguides compose",
  "Two waveguides in series act, in the frequency domain and at every wavelength, like one waveguide of the summed length and phase; phases are equivalent modulo 2 pi.",
  "all lengths, phases, losses and wavelengths", "real-valued parameters", "photontorch/components/waveguides.py:Waveguide.set_S")
p("C46", "Bounded parameters stay in bounds and represent the given value",
  "A BoundedParameter created with data in [a,b] has exactly that value (including the end points), and after any sequence of finite optimizer updates its value is in [a,b]; data outside, or b <= a, raise ValueError.",
  "all data, bounds and update sequences", "unbounded histories", NN + ":BoundedParameter")
p("C47", "SOA gain",
  "A Soa has, after its startup time (a multiple of dt), power gain equal to amplification for every input; the AgrawalSoa's internal state is stationary exactly at the saturated-gain equation, and its power gain does not depend on the phase of the input. (The last clause is violated: only the real part of the field is amplified.)",
  "all inputs, amplifications, times", "unbounded time", "photontorch/components/soas.py")
p("C48", "MMI splits according to its weights",
  "An Mmi with m x n weights transmits from input i to output j with weight w[i,j] both ways, is reciprocal for all weights, and conserves power of light entering side m (n) iff the rows (columns) are orthonormal.",
  "all weight matrices of all sizes", "unbounded sizes", "photontorch/components/mmis.py:Mmi")

# ---------------------------------------------------------------- signals
p("C49", "Bit streams sample the right bit",
  "BitStreamGenerator (no cutoff) returns ceil(n*samplerate/bitrate) samples for n bits, sample k being the bit valid at time k/samplerate, i.e. bit floor(k*bitrate/samplerate), for any integer rates; with a cutoff the number of samples is the same.",
  "all bit sequences and integer rates", "unbounded", NN + ":BitStreamGenerator.forward")
p("C50", "BER of generated streams is the fraction of differing bits",
  "For samplerate >= 2*bitrate and a target bit sequence that is not constant, BERLoss of two generated streams equals (number of differing bits)/n.",
  "all bit sequences, integer rates", "unbounded", NN + ":BERLoss.forward", NN + ":BitStreamGenerator.forward")
p("C51", "BER is a rate and is zero for a perfect prediction",
  "BERLoss is in [0,1]; and BERLoss(x, x) = 0 for every 0/1 stream x. (The second clause is violated for constant-one targets, which give 1.)",
  "all streams", "unbounded", NN + ":BERLoss.forward")
p("C52", "Latency aligns prediction and target",
  "A prediction that is the target delayed by k samples has zero loss at the latency corresponding to k samples, also for negative k compensated by warmup. (Violated for negative latencies: int() truncates towards zero, so -k samples are treated as -(k-1).)",
  "all streams and latencies", "unbounded", NN + ":MSELoss.forward", NN + ":BERLoss.forward")
p("C53", "MSE loss is a mean of squares over the aligned window",
  "MSELoss is non-negative, zero iff prediction and target agree on the compared window, symmetric at zero latency, and ignores warmup samples; a target of one time step means a constant, other signals of different lengths are rejected.",
  "all signals", "unbounded", NN + ":MSELoss.forward")
p("C54", "lfilter implements the digital filter",
  "The pure-python lfilter returns the unique solution of a[0] y[n] = sum_k b[k] x[n-k] - sum_{k>=1} a[k] y[n-k] with zero history, like scipy's. (Holds for palindromic b, such as Butterworth numerators, and signals at least as long as the filter; violated otherwise, because b is not reversed.)",
  "all coefficients and signals", "unbounded lengths", "photontorch/detectors/lowpassdetector.py:lfilter")
p("C55", "Detectors preserve the time axis and scale with responsivity",
  "LowpassDetector maps a power signal of n time steps to n time steps, is linear and causal in the power, and amplitude input is converted to power first; it raises ValueError when the cutoff exceeds the Nyquist frequency. (Violated for power signals of exactly 2 time steps, which are taken for a complex amplitude.)",
  "all signals", "unbounded lengths", "photontorch/detectors/lowpassdetector.py:LowpassDetector.forward", "photontorch/detectors/photodetector.py:Photodetector.forward")

# ---------------------------------------------------------------- meshes
p("C56", "Reck networks are unitary for every size",
  "ReckNxN(N).terminate() has N sources and N detectors, can be initialized in every frequency-domain environment, and maps source amplitudes to detector amplitudes by a unitary N x N matrix, for all phases.",
  "every N >= 2, all phases, wavelengths", "unbounded N", "photontorch/networks/reck.py")
p("C57", "Clements networks are unitary for every size and capacity",
  "ClementsNxN(N, capacity).terminate() likewise. (capacity 0 and 1 give a network without connections that cannot be terminated.)",
  "every N >= 2, capacity >= 2, all phases", "unbounded N and capacity", "photontorch/networks/clements.py")
p("C58", "Ring networks are well-formed",
  "RingNetwork(N, capacity) with even N and capacity >= 2 has exactly 2N free ports, inputs first then outputs, with all other ports paired; odd N raises ValueError.",
  "every even N, capacity >= 2", "unbounded N and capacity", "photontorch/networks/rings.py")
p("C59", "Plot labels name the right curve",
  "When plotting detected data, each curve's label names the wavelength, detector and batch of the data plotted.",
  "all shapes", "unbounded shapes", "photontorch/networks/visualize.py:plot")

extra = os.path.join(os.path.dirname(__file__), "extra_properties.py")
if os.path.exists(extra):
    exec(open(extra).read())
with open("/verif/properties.jsonl", "w") as f:
    for x in P:
        f.write(json.dumps(x) + "\n")
print(len(P))
