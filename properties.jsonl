{"id": "C01", "title": "Conflicting grid arguments are rejected, compatible ones are not", "statement": "Environment(...) raises ValueError whenever the user explicitly supplies two arguments that the documentation declares mutually exclusive (dt/samplerate/t; t0/t; t1/num_t/t; bitrate/bitlength; dwl/df/num_wl/num_f/wl/f; wl0/f0/wl/f; wl1/f1/wl/f), or dt<0 or t0>t1; and the exclusion stage rejects nothing else.", "quantifier": "every combination of supplied/defaulted arguments and every numeric value of them", "why_tests_cant": "there are 2^18 supplied/defaulted combinations and unboundedly many values", "anchors": ["photontorch/environment/environment.py:Environment.__init__", "photontorch/environment/environment.py:_is_default"]}
{"id": "C02", "title": "Time grid from num_t and dt", "statement": "If num_t is supplied (with any dt/samplerate/t0 accepted by the constructor), the environment's time array has exactly num_t samples, sample i being t0 + i*dt. Without any argument about time (and in the time domain) there are 100 samples, sample i being i*1e-14.", "quantifier": "every num_t >= 1, every t0, dt/samplerate", "why_tests_cant": "unbounded sizes and values", "anchors": ["photontorch/environment/environment.py:Environment.__init__"]}
{"id": "C03", "title": "Time grid from t0, t1 and dt", "statement": "If t0/t1/dt are supplied without num_t, the time array is t0, t0+dt, ..., has floor((t1-t0)/dt) samples (a single sample t0 when that is 0), and every sample after the first lies strictly before t1.", "quantifier": "every t0 <= t1 and dt > 0", "why_tests_cant": "unbounded values", "anchors": ["photontorch/environment/environment.py:Environment.__init__", "photontorch/environment/environment.py:_arange"]}
{"id": "C04", "title": "Derived time attributes are mutually consistent", "statement": "For every successfully built environment: num_t = len(t) >= 1, t0 = t[0], dt = t[1]-t[0], samplerate*dt = 1, t1 = t[-1]+dt, and dt, samplerate and t1 are None exactly when there is one sample; bitrate*bitlength = 1 whenever a bitrate is set. For a uniform grid t1 = t0 + num_t*dt.", "quantifier": "every argument combination accepted by the constructor", "why_tests_cant": "unbounded argument space", "anchors": ["photontorch/environment/environment.py:Environment.__init__"]}
{"id": "C05", "title": "num_wl produces exactly that many equally spaced wavelengths", "statement": "Environment(wl0=a, wl1=b, num_wl=N) (a != b; bounds may equally be given as f0/f1) has exactly N wavelengths a + i*(b-a)/N, num_wl = num_f = N, wl0 = a, wl1 = b (when N >= 2), and f[i]*wl[i] = c for all i. With a step dwl=d of either sign instead of num_wl, the wavelengths are a, a +- |d|, ..., floor(|b-a|/|d|) of them (at least one), all between a and b.", "quantifier": "all N >= 1 and all bounds a != b", "why_tests_cant": "unbounded N and values", "anchors": ["photontorch/environment/environment.py:Environment.__init__", "photontorch/environment/environment.py:_arange"]}
{"id": "C06", "title": "A frequency grid may be bounded by wavelengths", "statement": "Environment(num_f=N (or df=...), wl0=a, wl1=b) covers the frequencies between c/b and c/a, as the documentation of num_f/wl0/wl1 says. (The code violates this: it computes the lower frequency bound from wl0 instead of wl1, so that the call always fails; with only wl1 supplied, wl1 is ignored.) With f0/f1 bounds the grid is correct, both for num_f and for df of either sign.", "quantifier": "all a, b, N", "why_tests_cant": "the defect needs an argument combination no test uses", "anchors": ["photontorch/environment/environment.py:Environment.__init__"]}
{"id": "C07", "title": "copy() reproduces the environment and overrides only what is asked", "statement": "env.copy() yields an environment with identical time array, wavelength array, bitrate, domain and scalars, and env.copy(num_t=n) / copy(dt=x) / copy(wl=...) change only the corresponding grid; the original is untouched. (Violated for single-sample environments that start after 1e-12 s and for decreasing time arrays, whose copy() raises.)", "quantifier": "every environment produced by the constructor and every override", "why_tests_cant": "unbounded set of environments", "anchors": ["photontorch/environment/environment.py:Environment.copy", "photontorch/environment/environment.py:_convert_default"]}
{"id": "C08", "title": "Environments are frozen", "statement": "After construction, any sequence of attribute assignments env.x = v or env[x] = v raises AttributeError each time and leaves every attribute unchanged.", "quantifier": "every sequence of assignments", "why_tests_cant": "arbitrary histories", "anchors": ["photontorch/environment/environment.py:Environment.__setattr__", "photontorch/environment/environment.py:Environment.__setitem__"]}
{"id": "C09", "title": "with-blocks restore the current environment", "statement": "Inside `with env:` current_environment() is env; after the block (normally or by exception, at any nesting, also re-entering the same env) the previously current environment is current again, and with none open current_environment() raises RuntimeError. set_environment makes a new environment current; it stays current until another one is entered, also after the end of a with-block in whose body it was called.", "quantifier": "every program of nested with-blocks, exceptions and handlers", "why_tests_cant": "unbounded nesting and exception placement", "anchors": ["photontorch/environment/environment.py:Environment.__enter__", "photontorch/environment/environment.py:Environment.__exit__", "photontorch/environment/environment.py:current_environment", "photontorch/environment/environment.py:set_environment"]}
{"id": "C10", "title": "with-blocks control and restore the gradient mode", "statement": "Inside `with env:` gradient tracking equals env.grad, and after the block it equals what it was before. (Violated when an environment is entered while it is already open: the saved mode is overwritten.)", "quantifier": "every program of nested with-blocks over distinct environments", "why_tests_cant": "unbounded nesting", "anchors": ["photontorch/environment/environment.py:Environment.__enter__", "photontorch/environment/environment.py:Environment.__exit__"]}
{"id": "C11", "title": "Frequency-domain environments have a single time sample", "statement": "Environment(..., freqdomain=True) always has num_t = 1 (the first sample of the grid it would have had), dt, t1, samplerate, bitrate and bitlength None, and the same wavelengths as its time-domain counterpart.", "quantifier": "all accepted arguments", "why_tests_cant": "unbounded argument space", "anchors": ["photontorch/environment/environment.py:Environment.__init__"]}
{"id": "C12", "title": "Environment equality means equal simulation grids", "statement": "For environments with uniform time and wavelength grids, env1 == env2 holds exactly when all grids and settings agree. (For non-uniform arrays == can identify different grids, because t, wl and f are not compared.)", "quantifier": "all pairs of environments", "why_tests_cant": "pairs of unbounded objects", "anchors": ["photontorch/environment/environment.py:Environment.__eq__"]}
{"id": "C13", "title": "link() records exactly the chain", "statement": "nw.link(p, 'a1:c1:b1', ..., 'an:cn:bn', q) declares exactly the n-1 connections (c_i, b_i)-(c_{i+1}, a_{i+1}) between consecutive components, plus external port p on (c1, a1) if p is given and q on (cn, bn) if q is given; end elements may omit their outer port. The declared strings parse back to the same components and ports.", "quantifier": "every chain length, component name and port number", "why_tests_cant": "unbounded chains and names", "anchors": ["photontorch/networks/network.py:Network.link", "photontorch/networks/network.py:Network.set_C", "photontorch/networks/network.py:Network.set_port_order"]}
{"id": "C14", "title": "Connections are reciprocal at every nesting depth", "statement": "The connection matrix of every network, however deeply nested, is symmetric and contains only zeros and ones.", "quantifier": "every component tree and connection list accepted by the constructor", "why_tests_cant": "unbounded nesting and size", "anchors": ["photontorch/networks/network.py:Network.set_C", "photontorch/components/soas.py:BaseSoa.set_C"]}
{"id": "C15", "title": "The connection matrix contains exactly the declared connections", "statement": "Two ports of a network are connected iff they are connected inside the same sub-component or a connection string names them (through the sub-components' free-port numbering); ports with no connection are exactly the free ports.", "quantifier": "every network", "why_tests_cant": "unbounded networks", "anchors": ["photontorch/networks/network.py:Network.set_C", "photontorch/components/component.py:Component._set_buffers"]}
{"id": "C16", "title": "Ill-formed connections are rejected", "statement": "A connection naming an unknown component raises KeyError, a port index beyond the component's free ports raises ValueError (internal) or IndexError (external), connecting a port to itself by equal indices raises IndexError, and a part of a connection string that is neither an integer nor the name of a component (such as a non-integer port) raises KeyError. No accepted network connects a port to itself. (Violated: negative indices are accepted with Python wrap-around, so 'wg:1:wg:-1' connects a port to itself.)", "quantifier": "every connection list", "why_tests_cant": "unbounded connection lists", "anchors": ["photontorch/networks/network.py:Network.set_C", "photontorch/networks/network.py:Network.set_port_order"]}
{"id": "C17", "title": "External port numbers of a flat network", "statement": "If a network of basic components declares external ports 0..k-1, once each, on distinct unconnected sub-component ports, its free port number j (0<=j<k) is the declared one, and the remaining free ports follow in component order.", "quantifier": "every flat network and every assignment of external ports", "why_tests_cant": "unbounded networks and permutations", "anchors": ["photontorch/networks/network.py:Network.set_port_order", "photontorch/networks/network.py:Network.set_C"]}
{"id": "C18", "title": "External port numbers of nested networks", "statement": "The same numbering holds when sub-components are themselves networks. With no external declaration, free ports are numbered sub-component by sub-component in the sub-components' own numbering. (With explicit declarations the code violates this: the sub-network's port permutation is applied twice.)", "quantifier": "every nested network", "why_tests_cant": "needs nested networks with permuted ports", "anchors": ["photontorch/networks/network.py:Network.set_port_order"]}
{"id": "C19", "title": "Port order is always a permutation of the ports", "statement": "The port order computed for a network lists every port exactly once, so no port is lost or duplicated; an invalid port order is rejected. (Violated when external port numbers have gaps: the port is dropped and another duplicated, and the validity check accepts it because it uses .all() for .any().)", "quantifier": "every network", "why_tests_cant": "unbounded networks", "anchors": ["photontorch/networks/network.py:Network.set_port_order", "photontorch/components/component.py:Component._set_buffers"]}
{"id": "C20", "title": "terminate() closes every port in order", "statement": "terminate() with one term per free port returns a network without free ports in which the i-th term is connected to the i-th free port; the original network is unchanged; with no free ports it raises IndexError; with too many terms it raises ValueError; with too few the result still has the remaining free ports.", "quantifier": "every network and term list", "why_tests_cant": "unbounded networks", "anchors": ["photontorch/networks/network.py:Network.terminate"]}
{"id": "C21", "title": "Any network can be terminated, and unterminate() undoes it", "statement": "nw.terminate(...).unterminate() is nw, for every network with free ports. (Violated for every network that has a name: assigning .base goes through add_component, which raises because the name differs.)", "quantifier": "every network, named or not", "why_tests_cant": "depends on object naming history", "anchors": ["photontorch/networks/network.py:Network.terminate", "photontorch/networks/network.py:Network.unterminate", "photontorch/networks/network.py:Network.add_component"]}
{"id": "C22", "title": "Network with-blocks restore the network under construction", "statement": "After `with nw:` ends - normally or by an exception - the previously current network is current again. (Violated on exceptions: the failed network stays current, and later named components are added to it.)", "quantifier": "every nesting and exception placement", "why_tests_cant": "exception placements", "anchors": ["photontorch/networks/network.py:Network.__enter__", "photontorch/networks/network.py:Network.__exit__", "photontorch/components/component.py:Component.__init__"]}
{"id": "C23", "title": "A failed link() leaves the network usable", "statement": "If link() raises, the network's connections are unchanged and later valid links succeed. (Violated: the bad connection string is kept, and every later link() fails too.)", "quantifier": "every history of link calls", "why_tests_cant": "histories", "anchors": ["photontorch/networks/network.py:Network.link"]}
{"id": "C24", "title": "Each port has at most one partner", "statement": "If no sub-component port is named by two internal connections, every port of the network is connected to at most one port, and a fully connected network pairs its ports perfectly. (Not enforced: linking one port twice is accepted silently and creates a port with two partners.)", "quantifier": "every network", "why_tests_cant": "unbounded networks", "anchors": ["photontorch/networks/network.py:Network.set_C", "photontorch/networks/network.py:Network.link"]}
{"id": "C25", "title": "The real block solve is the complex solve", "statement": "The reduced connection matrix computed by the 2n x 2n real linear system has real and imaginary parts equal to the complex formula Cmcml Smlml (1 - Cmlml Smlml)^-1 Cmlmc + Cmcmc, and initialization fails exactly when the complex matrix 1 - Cmlml Smlml is singular.", "quantifier": "all matrices of all sizes", "why_tests_cant": "unbounded matrices", "anchors": ["photontorch/networks/network.py:Network.initialize"]}
{"id": "C26", "title": "Time-domain simulation solves the full network equations", "statement": "For every network without active components whose scattering matrix does not couple delayed with undelayed ports, the field returned for every detector, time step, wavelength and batch equals the incoming wave of the unique solution of the unreduced equations: incoming = C outgoing, outgoing = S (delayed incoming) + source.", "quantifier": "all networks, delays, sources, and any number of steps", "why_tests_cant": "unbounded networks and simulation lengths", "anchors": ["photontorch/networks/network.py:Network.initialize", "photontorch/networks/network.py:Network.step", "photontorch/networks/network.py:Network.forward"]}
{"id": "C27", "title": "Frequency-domain simulation solves the steady-state equations", "statement": "In a frequency-domain environment the detected field equals the incoming wave at the detectors of the unique solution of a = C(S a + source), for every network of passive components between sources and detectors.", "quantifier": "all networks and sources", "why_tests_cant": "unbounded networks", "anchors": ["photontorch/networks/network.py:Network.initialize", "photontorch/networks/network.py:Network.forward"]}
{"id": "C28", "title": "Delays are realised exactly in time steps", "statement": "A port with physical delay d is delayed by round(d/dt) time steps (nearest, half up), but at least one step for sources, detectors and active ports; the simulation buffer never loses a sample that is still needed.", "quantifier": "all delay vectors, dt and simulation lengths", "why_tests_cant": "unbounded histories", "anchors": ["photontorch/networks/network.py:Network.initialize", "photontorch/networks/network.py:Network._simulation_buffer", "photontorch/networks/network.py:Network.step"]}
{"id": "C29", "title": "Passive simulation is linear in the source", "statement": "With power=False and no active components, the response to x*s1 + y*s2 is x*response(s1) + y*response(s2), for complex x and y; the power response scales with |x|^2.", "quantifier": "all networks, sources, scalars, lengths", "why_tests_cant": "unbounded", "anchors": ["photontorch/networks/network.py:Network.forward"]}
{"id": "C30", "title": "Causality and shift-invariance", "statement": "The detected field at step i depends only on the source up to step i (even with active components), and delaying the source of a passive network by k steps delays the response by k steps.", "quantifier": "all sources and all steps", "why_tests_cant": "unbounded histories", "anchors": ["photontorch/networks/network.py:Network.forward", "photontorch/networks/network.py:Network.step"]}
{"id": "C31", "title": "Wavelengths and batches do not interact", "statement": "For passive networks the response at one wavelength and one batch element depends only on the source at that wavelength and batch element; simulating a batch equals simulating its elements separately.", "quantifier": "all networks, batch sizes, sources", "why_tests_cant": "unbounded", "anchors": ["photontorch/networks/network.py:Network.step", "photontorch/networks/network.py:Network.forward"]}
{"id": "C32", "title": "A passive circuit never creates energy over time", "statement": "If all components are passive (S contracts energy) and the ports are paired, the total detected energy up to any step is at most the total injected source energy up to that step.", "quantifier": "all passive networks, sources and durations", "why_tests_cant": "unbounded time", "anchors": ["photontorch/networks/network.py:Network.step"]}
{"id": "C33", "title": "A lossless circuit conserves power in the frequency domain", "statement": "If all non-terminal components have unitary S and all ports are paired, then for every wavelength and batch the power arriving at sources and detectors together equals the injected power; in particular detected power never exceeds injected power.", "quantifier": "all lossless networks", "why_tests_cant": "unbounded networks", "anchors": ["photontorch/networks/network.py:Network.initialize", "photontorch/networks/network.py:Network.forward"]}
{"id": "C34", "title": "Reciprocity", "statement": "If all components have symmetric S, the transmission from terminal p to terminal q equals that from q to p.", "quantifier": "all reciprocal networks", "why_tests_cant": "unbounded networks", "anchors": ["photontorch/networks/network.py:Network.initialize"]}
{"id": "C35", "title": "Settled time-domain results equal frequency-domain results", "statement": "If the time-domain response to a constant source becomes stationary, the stationary detected field equals the frequency-domain result for the same network, wavelength and source.", "quantifier": "all passive networks and sources", "why_tests_cant": "limits over unbounded time", "anchors": ["photontorch/networks/network.py:Network.forward"]}
{"id": "C36", "title": "Source and detector channels follow component order", "statement": "Source channel k drives the k-th source of the network in port order and detector channel k reports the k-th detector, whatever mixture of delays, active ports and components lies between.", "quantifier": "all networks", "why_tests_cant": "unbounded networks", "anchors": ["photontorch/networks/network.py:Network.initialize", "photontorch/networks/network.py:Network.step"]}
{"id": "C37", "title": "forward() uses the current parameters", "statement": "Under gradient tracking, or in an environment different from the previous call, forward() is computed with the parameters at the time of the call. (Violated without gradient tracking in the same environment: parameters changed after the first call are ignored.)", "quantifier": "all histories of parameter changes, environment switches and calls", "why_tests_cant": "histories", "anchors": ["photontorch/networks/network.py:Network.forward", "photontorch/networks/network.py:Network.initialize"]}
{"id": "C38", "title": "Named source dimensions are honoured in any order", "statement": "A source tensor with named dimensions from c,t,w,s,b in any order drives source s at time t, wavelength w, batch b with the element at those coordinates, missing or size-1 dimensions being broadcast, a missing c meaning a real source; wrong wavelength or source counts raise ValueError, unnamed low-dimensional and partially named tensors raise ValueError.", "quantifier": "all shapes and name orders", "why_tests_cant": "unbounded shapes", "anchors": ["photontorch/networks/network.py:Network._handle_source"]}
{"id": "C39", "title": "Sources of other lengths are cut or zero-padded", "statement": "A source longer than the simulation is cut to it; a shorter one (more than one sample) is continued with zeros. (Violated: padding uses the wrong dimension, so every short source except length 2 raises RuntimeError.)", "quantifier": "all source lengths", "why_tests_cant": "unbounded lengths", "anchors": ["photontorch/networks/network.py:Network._handle_source"]}
{"id": "C40", "title": "Each active component acts on its own ports", "statement": "In a network whose active components are basic components, the action of each active component reads and writes exactly its own ports, and other nodes are unchanged. (Violated when active components sit in nested networks followed by other active components.)", "quantifier": "all networks with active components", "why_tests_cant": "unbounded networks", "anchors": ["photontorch/networks/network.py:Network.action", "photontorch/networks/network.py:Network.step"]}
{"id": "C41", "title": "Networks without detectors simulate", "statement": "forward() on a network without detectors returns an empty detector axis. (Violated: the slice -0: selects every node, so that the shape does not match.)", "quantifier": "all networks without detectors", "why_tests_cant": "corner case", "anchors": ["photontorch/networks/network.py:Network.step"]}
{"id": "C42", "title": "Lossless components are unitary", "statement": "Mirror, DirectionalCoupler (parameter in [0,1]), RealisticDirectionalCoupler, Mzi, Connection, and loss-free Waveguide and DirectionalCouplerWithLength have unitary scattering matrices at every wavelength.", "quantifier": "all parameter values and wavelengths", "why_tests_cant": "real-valued parameters", "anchors": ["photontorch/components/*.py:set_S"]}
{"id": "C43", "title": "Two-way components are reciprocal and SOAs amplify from port 0 to port 1", "statement": "Every passive component has a symmetric scattering matrix; LinearSoa multiplies the wave entering port 0 by the amplification and emits it from port 1. (Violated for LinearSoa: only S[0,1] is set, which transmits from port 1 to port 0 and blocks port 0 to port 1.)", "quantifier": "all parameter values", "why_tests_cant": "real-valued parameters", "anchors": ["photontorch/components/soas.py:LinearSoa.set_S"]}
{"id": "C44", "title": "Loss in dB/m attenuates power", "statement": "A component of given loss and length transmits the fraction 10^(-loss*length/10) of the power. Holds for Waveguide and DirectionalCouplerWithLength. (Violated for Mzi: the attenuated matrix is returned and discarded by the network, so loss has no effect.)", "quantifier": "all losses and lengths", "why_tests_cant": "real-valued parameters", "anchors": ["photontorch/components/waveguides.py:Waveguide.set_S", "photontorch/components/mzis.py:Mzi.set_S", "photontorch/networks/network.py:Network.set_S"]}
{"id": "C45", "title": "Waveguides compose", "statement": "Two waveguides in series act, in the frequency domain and at every wavelength, like one waveguide of the summed length and phase; phases are equivalent modulo 2 pi.", "quantifier": "all lengths, phases, losses and wavelengths", "why_tests_cant": "real-valued parameters", "anchors": ["photontorch/components/waveguides.py:Waveguide.set_S"]}
{"id": "C46", "title": "Bounded parameters stay in bounds and represent the given value", "statement": "A BoundedParameter created with data in [a,b] has exactly that value (including the end points), and after any sequence of finite optimizer updates its value is in [a,b]; data outside, or b <= a, raise ValueError.", "quantifier": "all data, bounds and update sequences", "why_tests_cant": "unbounded histories", "anchors": ["photontorch/nn/nn.py:BoundedParameter"]}
{"id": "C47", "title": "SOA gain", "statement": "A Soa has, after its startup time (a multiple of dt), power gain equal to amplification for every input; the AgrawalSoa's internal state is stationary exactly at the saturated-gain equation, and its power gain does not depend on the phase of the input. (The last clause is violated: only the real part of the field is amplified.)", "quantifier": "all inputs, amplifications, times", "why_tests_cant": "unbounded time", "anchors": ["photontorch/components/soas.py"]}
{"id": "C48", "title": "MMI splits according to its weights", "statement": "An Mmi with m x n weights transmits from input i to output j with weight w[i,j] both ways, is reciprocal for all weights, and conserves power of light entering side m (n) iff the rows (columns) are orthonormal.", "quantifier": "all weight matrices of all sizes", "why_tests_cant": "unbounded sizes", "anchors": ["photontorch/components/mmis.py:Mmi"]}
{"id": "C49", "title": "Bit streams sample the right bit", "statement": "BitStreamGenerator (no cutoff) returns ceil(n*samplerate/bitrate) samples for n bits, sample k being the bit valid at time k/samplerate, i.e. bit floor(k*bitrate/samplerate), for any integer rates; with a cutoff the number of samples is the same.", "quantifier": "all bit sequences and integer rates", "why_tests_cant": "unbounded", "anchors": ["photontorch/nn/nn.py:BitStreamGenerator.forward"]}
{"id": "C50", "title": "BER of generated streams is the fraction of differing bits", "statement": "For samplerate >= 2*bitrate and a target bit sequence that is not constant, BERLoss of two generated streams equals (number of differing bits)/n.", "quantifier": "all bit sequences, integer rates", "why_tests_cant": "unbounded", "anchors": ["photontorch/nn/nn.py:BERLoss.forward", "photontorch/nn/nn.py:BitStreamGenerator.forward"]}
{"id": "C51", "title": "BER is a rate and is zero for a perfect prediction", "statement": "BERLoss is in [0,1]; and BERLoss(x, x) = 0 for every 0/1 stream x. (The second clause is violated for constant-one targets, which give 1.)", "quantifier": "all streams", "why_tests_cant": "unbounded", "anchors": ["photontorch/nn/nn.py:BERLoss.forward"]}
{"id": "C52", "title": "Latency aligns prediction and target", "statement": "A prediction that is the target delayed by k samples has zero loss at the latency corresponding to k samples, also for negative k compensated by warmup. (Violated for negative latencies: int() truncates towards zero, so -k samples are treated as -(k-1).)", "quantifier": "all streams and latencies", "why_tests_cant": "unbounded", "anchors": ["photontorch/nn/nn.py:MSELoss.forward", "photontorch/nn/nn.py:BERLoss.forward"]}
{"id": "C53", "title": "MSE loss is a mean of squares over the aligned window", "statement": "MSELoss is non-negative, zero iff prediction and target agree on the compared window, symmetric at zero latency, and ignores warmup samples; a target of one time step means a constant, other signals of different lengths are rejected.", "quantifier": "all signals", "why_tests_cant": "unbounded", "anchors": ["photontorch/nn/nn.py:MSELoss.forward"]}
{"id": "C54", "title": "lfilter implements the digital filter", "statement": "The pure-python lfilter returns the unique solution of a[0] y[n] = sum_k b[k] x[n-k] - sum_{k>=1} a[k] y[n-k] with zero history, like scipy's. (Holds for palindromic b, such as Butterworth numerators, and signals at least as long as the filter; violated otherwise, because b is not reversed.)", "quantifier": "all coefficients and signals", "why_tests_cant": "unbounded lengths", "anchors": ["photontorch/detectors/lowpassdetector.py:lfilter"]}
{"id": "C55", "title": "Detectors preserve the time axis and scale with responsivity", "statement": "LowpassDetector maps a power signal of n time steps to n time steps, is linear and causal in the power, and amplitude input is converted to power first; it raises ValueError when the cutoff exceeds the Nyquist frequency. (Violated for power signals of exactly 2 time steps, which are taken for a complex amplitude.)", "quantifier": "all signals", "why_tests_cant": "unbounded lengths", "anchors": ["photontorch/detectors/lowpassdetector.py:LowpassDetector.forward", "photontorch/detectors/photodetector.py:Photodetector.forward"]}
{"id": "C56", "title": "Reck networks are unitary for every size", "statement": "ReckNxN(N).terminate() has N sources and N detectors, can be initialized in every frequency-domain environment, and maps source amplitudes to detector amplitudes by a unitary N x N matrix, for all phases.", "quantifier": "every N >= 2, all phases, wavelengths", "why_tests_cant": "unbounded N", "anchors": ["photontorch/networks/reck.py"]}
{"id": "C57", "title": "Clements networks are unitary for every size and capacity", "statement": "ClementsNxN(N, capacity).terminate() likewise. (capacity 0 and 1 give a network without connections that cannot be terminated.)", "quantifier": "every N >= 2, capacity >= 2, all phases", "why_tests_cant": "unbounded N and capacity", "anchors": ["photontorch/networks/clements.py"]}
{"id": "C58", "title": "Ring networks are well-formed", "statement": "RingNetwork(N, capacity) with even N and capacity >= 2 has exactly 2N free ports, inputs first then outputs, with all other ports paired; odd N raises ValueError.", "quantifier": "every even N, capacity >= 2", "why_tests_cant": "unbounded N and capacity", "anchors": ["photontorch/networks/rings.py"]}
{"id": "C59", "title": "Plot labels name the right curve", "statement": "When plotting detected data, each curve's label names the wavelength, detector and batch of the data plotted.", "quantifier": "all shapes", "why_tests_cant": "unbounded shapes", "anchors": ["photontorch/networks/visualize.py:plot"]}
{"id": "C60", "title": "A start time can be combined with a number of steps", "statement": "With num_t and dt (or samplerate) supplied, every start time t0 is accepted and the grid is t0, t0+dt, ... (Violated: t0 is compared with the unused default t1 = 1e-12, so every t0 > 1e-12 is rejected with ValueError.)", "quantifier": "all start times, steps and counts", "why_tests_cant": "unbounded argument space", "anchors": ["photontorch/environment/environment.py:Environment.__init__"]}
{"id": "C61", "title": "Well-formed networks are accepted", "statement": "A network whose connections join existing, different free ports of its components, with usable component names and external ports numbered 0..k-1 on different ports, is accepted, and its port order is a permutation of its ports.", "quantifier": "every network", "why_tests_cant": "unbounded networks", "anchors": ["photontorch/networks/network.py:Network._set_buffers", "photontorch/networks/network.py:Network.set_C", "photontorch/components/component.py:Component._set_buffers"]}
{"id": "C62", "title": "A failed initialization leaves the network usable as before", "statement": "If initialize() raises in some environment, a later simulation in the environment of the last successful initialization gives the same result as before. (Violated: num_mc and the delays are overwritten before the solve raises, so a later call without gradients in the old environment mixes old matrices with new delays and fails.)", "quantifier": "all networks, parameters and histories", "why_tests_cant": "histories of calls", "anchors": ["photontorch/networks/network.py:Network.initialize", "photontorch/networks/network.py:Network.forward"]}
{"id": "C64", "title": "A coupler with length is a coupler with waveguides", "statement": "DirectionalCouplerWithLength scatters like a DirectionalCoupler followed by a Waveguide of the same length, loss, neff, wl0, ng and phase, at every wavelength. (Violated: the propagation phase is left out, neff, wl0, ng and the wavelength have no effect on its scattering matrix; equality holds only where neff(wl)*length/wl is an integer.)", "quantifier": "all parameters and wavelengths", "why_tests_cant": "real-valued parameters", "anchors": ["photontorch/components/directionalcouplers.py:DirectionalCouplerWithLength.set_S"]}
{"id": "C65", "title": "Passive components never amplify", "statement": "With parameters in their documented ranges no passive component emits more power than it receives, at any wavelength. (Violated by GratingCoupler: R and R_in are used as amplitudes and the power transmission is not reduced by the reflection, so that with Tmax = 1 and R > 0 light at the centre wavelength is amplified.)", "quantifier": "all parameters in range, all wavelengths and fields", "why_tests_cant": "real-valued parameters", "anchors": ["photontorch/components/*.py:set_S"]}
{"id": "C63", "title": "Amplifiers with memory do not reflect", "statement": "Light entering the input port of a Soa or AgrawalSoa leaves through its output only. (Violated: the action copies the incoming field to the outgoing field of the input port, so all of the incoming light is also reflected, in every circuit.)", "quantifier": "every circuit, signal and rate equation", "why_tests_cant": "unbounded circuits and signals", "anchors": ["photontorch/components/soas.py:BaseSoa.action"]}
{"id": "C67", "title": "Simulations with active components solve the nonlinear circuit equations", "statement": "For a network with active components, forward() returns for every step, wavelength and batch the waves at the detectors of the (essentially unique) solution of the circuit equations, in which the outgoing waves of every active component are its own action applied to the scattered delayed incoming waves at that time.", "quantifier": "every network, action, input and number of steps", "why_tests_cant": "unbounded networks and histories", "anchors": ["photontorch/networks/network.py:Network.forward", "photontorch/networks/network.py:Network.step", "photontorch/networks/network.py:Network.action"]}
{"id": "C68", "title": "The gain of a Soa never exceeds its amplification", "statement": "In every circuit and at every time the power gain of a Soa is at most its amplification. (Violated whenever the startup time is not a multiple of dt: the state is increased once too often; the final gain is amplification^(ceil(startup/dt)*dt/startup).)", "quantifier": "all amplifications, startup times, time steps, circuits and inputs", "why_tests_cant": "unbounded time", "anchors": ["photontorch/components/soas.py:Soa.dhdt", "photontorch/components/soas.py:BaseSoa.action"]}
{"id": "C69", "title": "Bounded parameters can be trained", "statement": "Whatever value a BoundedParameter is created with, some finite change of its weights moves its value to any given other value strictly between the bounds. (Violated at the bounds: the weight is infinite there, and no sequence of finite updates ever changes the value.)", "quantifier": "all data, bounds and update sequences", "why_tests_cant": "unbounded histories", "anchors": ["photontorch/nn/nn.py:BoundedParameter._inverse_sigmoid"]}
{"id": "C70", "title": "Bits can be given as any sequence", "statement": "BitStreamGenerator accepts bits given as a list, a tuple or an array of integers or booleans and produces the stream of those bits. (Violated: lists and tuples are always rejected with AttributeError, because their dtype is looked up.)", "quantifier": "all bit sequences and rates", "why_tests_cant": "unbounded sequences", "anchors": ["photontorch/nn/nn.py:BitStreamGenerator.__call__"]}
{"id": "C71", "title": "The cutoff of a bit stream is always valid", "statement": "Whatever the (natural) bit rate, sample rate and cutoff frequency, the refined rate at which a bit stream is filtered is high enough: butter is never given a cutoff at or above the Nyquist frequency, and the stream has one sample per sample period: the value at that time of the held bits filtered with the coefficients of butter.", "quantifier": "all rates and cutoffs", "why_tests_cant": "unbounded rates", "anchors": ["photontorch/nn/nn.py:BitStreamGenerator.__call__"]}
{"id": "C72", "title": "Rates given to a call win over the environment, which wins over the constructor", "statement": "The bit rate and the sample rate used by BitStreamGenerator and the losses are the keyword argument of the call if given, otherwise that of the current environment if there is one with a rate, otherwise that of the constructor.", "quantifier": "all combinations", "why_tests_cant": "combinations of three sources", "anchors": ["photontorch/nn/nn.py:BitStreamGenerator.__call__", "photontorch/nn/nn.py:_Loss"]}
{"id": "C73", "title": "Short signals can be detected", "statement": "A detector accepts power signals with any number of time steps. (Violated: signals with at most `order` steps are rejected with IndexError.)", "quantifier": "all signals and orders", "why_tests_cant": "unbounded lengths", "anchors": ["photontorch/detectors/lowpassdetector.py:lfilter"]}
{"id": "C74", "title": "Without noise a Photodetector is a LowpassDetector", "statement": "When the random numbers are zero, Photodetector gives the same result as LowpassDetector with the same responsivity, cutoff and order, for power and amplitude signals. (Violated for amplitudes with exactly two time steps, which are squared twice, and for powers that are negative somewhere, for which Photodetector gives nan.)", "quantifier": "all signals and parameters", "why_tests_cant": "unbounded lengths", "anchors": ["photontorch/detectors/photodetector.py:Photodetector.forward"]}
{"id": "C66", "title": "Whole circuits behave as their components say", "statement": "A circuit of basic components, nested to any depth and wired with usable names and every port used at most once, is simulated as the circuit equations whose scattering matrix and delays are those of its basic components; consequently circuits of passive components never emit more energy than they receive, circuits of lossless components conserve power in the frequency domain, and circuits of reciprocal components are reciprocal.", "quantifier": "every circuit, nesting depth, parameters, environment and input", "why_tests_cant": "unbounded nesting, real-valued parameters", "anchors": ["photontorch/networks/network.py:Network.set_S", "photontorch/networks/network.py:Network.set_delays", "photontorch/networks/network.py:Network.initialize", "photontorch/networks/network.py:Network.forward"]}
{"id": "C75", "title": "Feed-forward circuits can always be simulated, and are unitary if lossless", "statement": "A fully terminated circuit through which light travels in one direction can be initialized in every environment (no singular matrix); with N sources at the front, N detectors and lossless components it maps source amplitudes to detector amplitudes by a unitary N x N matrix at every wavelength.", "quantifier": "every feed-forward circuit", "why_tests_cant": "unbounded circuits", "anchors": ["photontorch/networks/network.py:Network.initialize", "photontorch/networks/network.py:Network.forward"]}
{"id": "C76", "title": "Reck networks are universal", "statement": "For every N >= 2, every unitary N x N matrix U and every wavelength there are phases phi, theta of the Mzi components and phases of the lossless waveguides such that ReckNxN(N) built of them and terminated multiplies the vector of source amplitudes by U, whatever the lengths and refractive indices of the components are; conversely every matrix a Reck network of lossless reflection-free components realizes is unitary.", "quantifier": "every N, unitary matrix, wavelength and set of fixed component parameters", "why_tests_cant": "continuum of matrices, unbounded sizes", "anchors": ["photontorch/networks/reck.py:ReckNxN", "photontorch/networks/reck.py:_ReckNxN", "photontorch/components/mzis.py:Mzi.set_S", "photontorch/networks/network.py:Network.forward"]}
{"id": "C77", "title": "Attributes hold what was assigned last", "statement": "After any sequence of successful assignments to attributes of a Module (parameters, buffers, bounded parameters, modules, other values), reading an attribute gives the value assigned to it last. (Violated: once an attribute has held a BoundedParameter after a Buffer, assigning a Buffer to it again succeeds but the bounded parameter keeps being read.)", "quantifier": "all sequences of assignments", "why_tests_cant": "unbounded histories", "anchors": ["photontorch/nn/nn.py:Module.__setattr__"]}
{"id": "C78", "title": "The graph of a network shows its components and links", "statement": "graph(network) has one node per component that is mentioned in a connection and one edge per connection between components, and nothing else; every node can be given its label. (Violated: the port numbers of external connections become nodes and edges, too.)", "quantifier": "every network", "why_tests_cant": "unbounded networks and wirings", "anchors": ["photontorch/networks/visualize.py:graph"]}
{"id": "C79", "title": "An Mmi transmits by the weights it was given", "statement": "Mmi accepts a real or complex matrix as well as a pair of real and imaginary parts (first index real|imag), as arrays and tensors, and transmits weight[i, j] between left port i and right port j in both directions. (Violated: three-dimensional arrays always raise ValueError; three-dimensional tensors with one matrix are used for both parts, those with three or more fail only when the network is initialized.)", "quantifier": "all shapes and weights", "why_tests_cant": "unbounded sizes, real-valued weights", "anchors": ["photontorch/components/mmis.py:Mmi.__init__", "photontorch/components/mmis.py:Mmi.set_S"]}
{"id": "C80", "title": "Power ratios stay between 0 and 1", "statement": "Couplers and mirrors reject ratios outside of [0, 1], represent ratios in [0, 1] exactly, and stay lossless during every training. (Violated: DirectionalCoupler with trainable=False accepts every number.)", "quantifier": "all ratios and sequences of optimizer updates", "why_tests_cant": "real-valued parameters, unbounded histories", "anchors": ["photontorch/components/directionalcouplers.py:DirectionalCoupler.__init__", "photontorch/components/mirrors.py:Mirror.__init__", "photontorch/nn/nn.py:BoundedParameter"]}
{"id": "C81", "title": "The delay of a component and its dispersion agree", "statement": "For every component with a length, an effective and a group index the scattering matrices at two wavelengths differ by the phase 2 pi (f1 - f2) tau, where tau is the delay used in the time domain; at the reference wavelength the phase is that of the effective index. (Violated by DirectionalCouplerWithLength, which has a delay but scatters all wavelengths alike.)", "quantifier": "all parameters and pairs of wavelengths", "why_tests_cant": "real-valued parameters", "anchors": ["photontorch/components/waveguides.py:Waveguide.set_S", "photontorch/components/mzis.py:Mzi.set_S", "photontorch/components/directionalcouplers.py:DirectionalCouplerWithLength.set_S"]}
{"id": "C82", "title": "Passive circuits settle to the frequency-domain response", "statement": "With constant sources, the detected fields of every fully terminated passive circuit in which no oscillation persists by itself converge, as the simulation gets longer, to the result of the simulation in the frequency domain, which is then well-defined. Circuits through which light travels in one direction, and circuits in which every component with a delay absorbs, are of this kind.", "quantifier": "every passive circuit, every time step, every source amplitude", "why_tests_cant": "limit over time, unbounded circuits", "anchors": ["photontorch/networks/network.py:Network.forward", "photontorch/networks/network.py:Network.initialize"]}
{"id": "C83", "title": "A modulated source is transmitted like light of the shifted wavelength", "statement": "If the delays of all components are multiples of dt and their dispersion agrees with their delay, a source at one wavelength modulated with the frequency difference to another wavelength settles to the frequency-domain response at that other wavelength, modulated by the same frequency.", "quantifier": "every passive circuit and every pair of wavelengths", "why_tests_cant": "limit over time, real-valued wavelengths", "anchors": ["photontorch/networks/network.py:Network.forward", "photontorch/components/waveguides.py:Waveguide.set_S", "photontorch/components/waveguides.py:Waveguide.set_delays"]}
{"id": "C84", "title": "A Soa never attenuates", "statement": "Amplifications below one are rejected, and in every circuit and at every time the power gain of a Soa is at least one. (Violated after training: the amplification is an unbounded parameter.)", "quantifier": "all amplifications, startup times, circuits, inputs and trainings", "why_tests_cant": "unbounded time and histories", "anchors": ["photontorch/components/soas.py:Soa.__init__", "photontorch/components/soas.py:Soa.dhdt", "photontorch/components/soas.py:BaseSoa.action"]}
{"id": "C85", "title": "Circuits whose loops absorb can always be simulated", "statement": "A fully terminated passive circuit in which light coming back to where it was has been absorbed in part can be initialized in every environment (no singular matrix, whatever the delays, the time step and the domain) and settles. In particular, ring networks of every even size and capacity made of lossy components.", "quantifier": "every circuit, environment, size and parameter", "why_tests_cant": "unbounded circuits", "anchors": ["photontorch/networks/network.py:Network.initialize", "photontorch/networks/network.py:Network.forward", "photontorch/networks/rings.py:RingNetwork"]}
{"id": "C86", "title": "Arguments of a detector call override the environment, which overrides the constructor", "statement": "A call of a LowpassDetector or Photodetector with keyword arguments inside an environment gives the same result as a detector constructed with the values in effect (argument of the call, else sample rate of the environment, else value of the constructor), whenever the cutoff in effect is at most half the sample rate in effect, and ValueError otherwise. (Violated: the constructor compares the cutoff with its own sample rate, 160e9 by default, even if that of the environment will be used, so LowpassDetector(cutoff_frequency=100e9) always raises.)", "quantifier": "all combinations of arguments, environments and signals", "why_tests_cant": "unbounded argument space", "anchors": ["photontorch/detectors/lowpassdetector.py:LowpassDetector.__init__", "photontorch/detectors/lowpassdetector.py:LowpassDetector.forward", "photontorch/detectors/photodetector.py:Photodetector.forward"]}
{"id": "C87", "title": "Clements networks span the unitary group exactly when capacity >= N", "statement": "Every unitary matrix is realized by a ClementsNxN of capacity at least N with suitable phases of its Mzis and of the waveguides of its last layer, whatever its other parameters are; with a capacity below N (at least 2) some unitary matrix (the reversal of the modes) is realized by no choice of lossless components (\"to span the full unitary space one needs capacity >=N\").", "quantifier": "all N, capacities, unitary matrices and wavelengths", "why_tests_cant": "unbounded sizes, continuum of matrices; the second half says that no parameters exist", "anchors": ["photontorch/networks/clements.py:ClementsNxN.__init__", "photontorch/networks/clements.py:_Capacity2ClementsNxN.__init__", "photontorch/networks/clements.py:_MixingPhaseArrayClements.__init__"]}
{"id": "C88", "title": "A module and its submodules are where their device attribute says", "statement": "After to(device), cpu() or cuda(i) every tensor of the module and of all its submodules is on that device and every one of their device attributes says so, nothing else moves; terminating a network leaves it on its device. (Violated: to(dtype) sets the device to None, after which is_cuda and terminate raise AttributeError; Network.terminate of a network on a gpu returns a network that says and has its own buffers on the cpu while containing parts on the gpu.)", "quantifier": "all trees of modules and devices", "why_tests_cant": "unbounded nesting and sharing of modules; needs a gpu to be run", "anchors": ["photontorch/nn/nn.py:Module.to", "photontorch/nn/nn.py:Module.is_cuda", "photontorch/nn/nn.py:Module.cuda", "photontorch/networks/network.py:Network.terminate"]}
{"id": "C89", "title": "The ring filters of the example notebooks have their textbook response", "statement": "For all waveguides and couplings the all-pass filter built with the links of the notebook detects x y (t - z) / (1 - t z) times the source amplitude (x, y, z the amplitudes of the input, output and ring waveguide, t = sqrt(1 - coupling)) in the frequency domain, and in the time domain the exact sum over the round trips; the add-drop filter detects -sqrt(k1 k2) z1 / (1 - t1 t2 z1 z2) at its drop port, (t1 - t2 z1 z2) / (1 - t1 t2 z1 z2) at its pass port and nothing at its add port. Initialization fails exactly if the denominator vanishes, which needs a lossless uncoupled (or amplifying) ring.", "quantifier": "all lengths, losses, indices, couplings, wavelengths, sources and time steps", "why_tests_cant": "continuum of parameters, unbounded time; the notebooks compare one set of parameters by eye", "anchors": ["photontorch/networks/network.py:Network.link", "photontorch/networks/network.py:Network.forward", "photontorch/networks/network.py:Network.initialize", "photontorch/components/waveguides.py:Waveguide.set_S", "photontorch/components/directionalcouplers.py:DirectionalCoupler.set_S"]}
{"id": "C90", "title": "Detected fields and powers are differentiable in all trainable parameters together, with the derivative of the linearized circuit", "statement": "If a circuit can be initialized, it can be initialized for all nearby values of its trainable parameters (phases, weights of couplings and reflectivities, amplifications, Mmi weights), and every detected field and power at every time, wavelength and batch is a differentiable function of all of them. The derivative in any direction is what the same circuit detects if, instead of the sources, the changes of the scattering act on the unperturbed waves.", "quantifier": "every circuit, point and direction of the parameter space, time domain and frequency domain", "why_tests_cant": "derivatives, unbounded circuits", "anchors": ["photontorch/networks/network.py:Network.initialize", "photontorch/networks/network.py:Network.forward", "photontorch/nn/nn.py:BoundedParameter", "photontorch/components/waveguides.py:Waveguide.set_S", "photontorch/components/mzis.py:Mzi.set_S", "photontorch/components/directionalcouplers.py:DirectionalCoupler.set_S", "photontorch/components/mmis.py:Mmi.set_S"]}
{"id": "C91", "title": "The components respond as their arguments are documented", "statement": "The power transmission of a GratingCoupler is Tmax at its center wavelength and more than half of it exactly within its 3dB bandwidth, the same in both directions. A RealisticDirectionalCoupler splits light according to the phase 2 kappa + 2 pi dn length / wl that its even and odd mode get out of step, where kappa and dn have the given values, first and second derivatives at the center wavelength; without bend coupling two of them in series are one of the total length. coupling and R are the fractions of power that cross a DirectionalCoupler and are reflected by a Mirror. Delays are ng length / c, for components without a length zero.", "quantifier": "all parameters, wavelengths and input fields", "why_tests_cant": "continuum of parameters and wavelengths", "anchors": ["photontorch/components/gratingcouplers.py:GratingCoupler.set_S", "photontorch/components/directionalcouplers.py:RealisticDirectionalCoupler.set_S", "photontorch/components/directionalcouplers.py:DirectionalCoupler.set_S", "photontorch/components/mirrors.py:Mirror.set_S", "photontorch/components/directionalcouplers.py:DirectionalCouplerWithLength.set_delays"]}
{"id": "C92", "title": "Components defined by the user are accepted exactly if they are consistent", "statement": "A component whose set_port_order, set_sources_at, set_detectors_at and set_actions_at are consistent (every port has one number and at most one role, actions at all ports or at none) can be constructed, any other raises ValueError. (Violated: the port order is compared with .all() in place of .any(), so that wrong orders pass unless all of the sorted numbers are wrong, and a failing comparison raises NameError.)", "quantifier": "all components with at least one port", "why_tests_cant": "unbounded space of components", "anchors": ["photontorch/components/component.py:Component._set_buffers"]}
{"id": "C93", "title": "An unbalanced interferometer adds two delayed copies of its signal, and so computes the XOR of neighbouring bits", "statement": "The interferometer of two couplers and two arms built with the links of the notebook detects (sqrt((1-k1)(1-k2)) z2 - sqrt(k1 k2) z1) times the source amplitude in the frequency domain, and in the time domain the same with each arm's copy delayed by its own whole number of steps. If the arms differ by one bit, couplers split evenly and the phases are right, then for every bit stream of at least two bits (one per batch element) the detected power, times four, is the stream of the XOR of each bit with the previous one, so that both MSELoss and BERLoss with a latency of one bit return zero.", "quantifier": "all couplings, waveguides, bit rates, numbers of samples per bit, bit streams and batches", "why_tests_cant": "unbounded streams, continuum of parameters; the notebook trains one random stream", "anchors": ["photontorch/networks/network.py:Network.link", "photontorch/networks/network.py:Network.forward", "photontorch/nn/nn.py:BitStreamGenerator.__call__", "photontorch/nn/nn.py:MSELoss.forward", "photontorch/nn/nn.py:BERLoss.forward", "photontorch/components/waveguides.py:Waveguide.set_S", "photontorch/components/directionalcouplers.py:DirectionalCoupler.set_S"]}
{"id": "C94", "title": "A circuit behaves as its named connections say", "statement": "Take named components and connections 'a:i:b:j' whose ends are the ports of all components, each once. The network can be built. Whatever the order of components and connections, what it detects is the one solution of the equations in terms of the names: the light that enters port i of a left port j of b at the same moment, what leaves a component is its scattering of what entered it its delay ago, and sources emit the channel of the source array given by the order in which the connections mention them. The channels of the result are the detectors in the order of mention. initialize succeeds if light cannot circulate among the memoryless components without input and raises RuntimeError if it can.", "quantifier": "all circuits of named basic components, inputs, wavelengths, environments", "why_tests_cant": "unbounded circuits and signals", "anchors": ["photontorch/networks/network.py:Network.set_C", "photontorch/networks/network.py:Network.set_S", "photontorch/networks/network.py:Network.initialize", "photontorch/networks/network.py:Network.forward", "photontorch/networks/network.py:Network._get_used_component_names"]}
{"id": "C95", "title": "A chain of coupled rings has the response of its continued fraction, for every number of rings", "statement": "The network that the notebook on coupled resonators builds with two long calls of link, for any number n of rings, couplings and waveguides, sends N/M of the source amplitude to the detector 'through', P/M to 'drop' and nothing to 'add', where N and M follow from the transmissions of the couplers and the round trips of the rings by the recursion M' = M - t z N, N' = t M - z N starting from (1, t), and P is the product of all couplings i sqrt(k) and of the half rings on the way. initialize succeeds exactly if M is not zero at any wavelength, which holds for all rings that do not amplify and are lossy or coupled. Without loss the two powers add up to one. The channels are drop, through, add for an odd and add, through, drop for an even number of rings (the notebook takes channel 0 for drop with ten rings, which is the dark port).", "quantifier": "all numbers of rings, couplings, waveguides, wavelengths and inputs", "why_tests_cant": "unbounded circuits, continuum of parameters; the notebook plots one example", "anchors": ["photontorch/networks/network.py:Network.link", "photontorch/networks/network.py:Network.add_component", "photontorch/networks/network.py:Network.initialize", "photontorch/networks/network.py:Network.forward", "photontorch/components/waveguides.py:Waveguide.set_S", "photontorch/components/directionalcouplers.py:DirectionalCoupler.set_S"]}
{"id": "C96", "title": "Putting components into networks in networks changes nothing", "statement": "A network may contain networks, which contain networks, to any depth (external ports being declared on basic components, or left undeclared so that they keep the order of the sub-networks). Replace every sub-network by its components under new names, and every connection to a port of a sub-network by a connection to the component port behind it. Then the one-level circuit can be built if and as the network can, both can be initialized or both raise RuntimeError, and with sources emitting the same light by name the detectors receive the same light by name, at all wavelengths in the frequency domain and at all time steps in the time domain. The channels of the network are in the order of its sub-networks, and within them in the order of their components.", "quantifier": "all nestings of networks of basic components, names, connections, inputs, wavelengths, environments", "why_tests_cant": "unbounded nesting and circuits; tests compare a few examples", "anchors": ["photontorch/networks/network.py:Network.set_C", "photontorch/networks/network.py:Network.set_S", "photontorch/networks/network.py:Network.set_delays", "photontorch/networks/network.py:Network.set_port_order", "photontorch/networks/network.py:Network.initialize", "photontorch/networks/network.py:Network.forward"]}
{"id": "C97", "title": "The order in which components and connections are listed only orders the channels", "statement": "Listing the components in another order, the connections in another order, or a connection with its ends exchanged gives a network that is initialized, or raises RuntimeError, together with the original one, and that detects the same light at every detector, by name, when the sources emit the same light by name, in the frequency domain and in the time domain. Only the order of the channels follows the order in which the connections mention sources and detectors.", "quantifier": "all circuits of named basic components, all their listings, inputs, wavelengths, environments", "why_tests_cant": "unbounded circuits and permutations", "anchors": ["photontorch/networks/network.py:Network._get_used_component_names", "photontorch/networks/network.py:Network.set_C", "photontorch/networks/network.py:Network.initialize", "photontorch/networks/network.py:Network.forward"]}
{"id": "C98", "title": "Circuits with active components behave as their named connections say", "statement": "Take named components of any kind, amplifiers with memory included, and connections whose ends are the numbered ports of all components, each once. The network can be built. What it detects, at every step, wavelength and batch element, is the one solution of the equations in terms of the names: what enters a port left the port connected to it; a component scatters what entered it its delay ago (sources, detectors and active components: at least one step ago), adds what it emits and, if it is active, applies its own action to its own ports, whatever the other components are and wherever it is. initialize succeeds if light cannot circulate in no time and raises RuntimeError if it can.", "quantifier": "all circuits of named components with any actions, inputs, wavelengths, environments", "why_tests_cant": "unbounded circuits, arbitrary nonlinear actions", "anchors": ["photontorch/networks/network.py:Network.action", "photontorch/networks/network.py:Network.set_C", "photontorch/networks/network.py:Network.initialize", "photontorch/networks/network.py:Network.forward", "photontorch/networks/network.py:Network.handle_source", "photontorch/components/soas.py:BaseSoa.action"]}
{"id": "C99", "title": "An amplifier amplifies wherever it is placed", "statement": "In any circuit a Soa sends from its output, one step later, the light that entered its input with the power multiplied by amplification to the power min(t, ceil(startup/dt)) dt/startup, independently of everything else in the circuit, and sends nothing back.", "quantifier": "all circuits, amplifiers, inputs, wavelengths, time steps", "why_tests_cant": "unbounded circuits, continuum of parameters", "anchors": ["photontorch/components/soas.py:BaseSoa.action", "photontorch/components/soas.py:Soa.initialize", "photontorch/networks/network.py:Network.action", "photontorch/networks/network.py:Network.forward"]}
{"id": "C100", "title": "Putting active components into networks in networks changes nothing", "statement": "A network whose components are networks, to any depth, that contain active components next to passive ones and sources, is simulated as the network of the components in them. (Violated: the action of a network starts behind its own number of sources, although the slice it gets contains no sources, so that a Soa in a network with a source acts on the ports of the components behind it.)", "quantifier": "all nestings, active components, inputs, time steps", "why_tests_cant": "unbounded nesting, arbitrary nonlinear actions", "anchors": ["photontorch/networks/network.py:Network.action", "photontorch/networks/network.py:Network.forward"]}
{"id": "C101", "title": "A simulation does not depend on earlier simulations", "statement": "In a program with several networks, some of which contain the same component objects, every call of a network returns what it returns in a program that makes only this call, whatever calls of this and other networks in whatever environments were made before, with or without gradient tracking, and whether they succeeded. (Violated: a Soa keeps the environment of the last initialize, also of another network or of a call that raised, while the network without gradient tracking believes to be initialized.)", "quantifier": "all networks, shared components, sequences of calls, environments", "why_tests_cant": "unbounded histories of calls", "anchors": ["photontorch/networks/network.py:Network.initialize", "photontorch/networks/network.py:Network.forward", "photontorch/components/component.py:Component.initialize", "photontorch/components/soas.py:BaseSoa.action", "photontorch/components/soas.py:AgrawalSoa.initialize"]}
{"id": "C102", "title": "A sub-network can be replaced by any other with the same response", "statement": "Two networks of networks with the same connections whose sub-networks respond alike (same light out of the open ports and into the detectors for the same light into the open ports and out of the sources, by name) respond alike themselves; if they have no open ports, the detectors receive the same light in a simulation; and if no light circulates in the sub-networks by itself, initialize succeeds for both or raises RuntimeError for both. In the frequency and in the time domain.", "quantifier": "all networks of networks (to any depth), sub-networks, parameters, environments, inputs", "why_tests_cant": "all pairs of circuits inside all surroundings", "anchors": ["photontorch/networks/network.py:Network.initialize", "photontorch/networks/network.py:Network.forward", "photontorch/networks/network.py:Network.step", "photontorch/networks/network.py:Network.__init__", "photontorch/components/component.py:Component.__init__"]}
{"id": "C103", "title": "A waveguide can be split in two", "statement": "Wherever two waveguides of the same kind are connected in series, they can be replaced by one waveguide with the sum of their lengths and phases without any effect on what is detected, in the frequency and in the time domain. (Violated in the time domain: the delay of each waveguide is rounded to time steps, and the rounded delays do not add up.)", "quantifier": "all waveguides, networks around them, wavelengths, time steps", "why_tests_cant": "all lengths and time steps; the difference appears for some only", "anchors": ["photontorch/components/waveguides.py:Waveguide.set_S", "photontorch/components/waveguides.py:Waveguide.set_delays", "photontorch/networks/network.py:Network.initialize", "photontorch/networks/network.py:Network.forward"]}
{"id": "C104", "title": "Light arrives at the same time at all outputs of a Clements network", "statement": "If all interferometers and waveguides of a terminated Clements network delay by the same number of time steps n, what a detector receives is what the sources emitted (capacity + 1) n steps earlier, multiplied by the matrix the network realizes in the frequency domain; nothing arrives earlier or later, whatever the input. In a Reck network light from source j arrives at detector i after (i + j + 1) n steps. Clements networks of equally long components realize every unitary matrix in this sense.", "quantifier": "all sizes, capacities, component parameters, delays, time steps, inputs", "why_tests_cant": "unbounded meshes, continuum of parameters and signals", "anchors": ["photontorch/networks/clements.py:ClementsNxN.__init__", "photontorch/networks/clements.py:_Capacity2ClementsNxN.__init__", "photontorch/networks/clements.py:_MixingPhaseArrayClements.__init__", "photontorch/networks/clements.py:_PhaseArray.__init__", "photontorch/networks/reck.py:ReckNxN.__init__", "photontorch/networks/network.py:Network.initialize", "photontorch/networks/network.py:Network.forward"]}
{"id": "C105", "title": "A number of wavelengths is the number of wavelengths, in floating-point arithmetic", "statement": "In IEEE 754 arithmetic, an environment created with num_wl = N has N wavelengths, equally spaced from wl0 to wl1 up to rounding. (Violated: the number of points is recovered by truncating (wl1 - wl0) / ((wl1 - wl0) / N), which rounding puts below N for N = 51, for instance.)", "quantifier": "all numbers, ranges of wavelengths or frequencies", "why_tests_cant": "rounding errors: wrong for scattered values only", "anchors": ["photontorch/environment/environment.py:_arange", "photontorch/environment/environment.py:Environment.__init__"]}
{"id": "C106", "title": "An interval of k time steps has k points, in floating-point arithmetic", "statement": "In IEEE 754 arithmetic, an environment created with dt = d and t1 = k d (both rounded to floating-point numbers) has k points in time. (Violated for dt = 1e-14, t1 = 23e-14.)", "quantifier": "all steps, numbers of steps, intervals", "why_tests_cant": "rounding errors: wrong for scattered values only", "anchors": ["photontorch/environment/environment.py:_arange", "photontorch/environment/environment.py:Environment.__init__"]}
{"id": "C107", "title": "The time step of an environment is the one asked for, in floating-point arithmetic", "statement": "In IEEE 754 arithmetic, an environment created with dt and num_t has this dt, and one created with bitlength has this bitlength. (Violated: both are computed back from derived numbers.)", "quantifier": "all steps, numbers of points, lengths of a bit, starting times", "why_tests_cant": "rounding errors: wrong for scattered values only", "anchors": ["photontorch/environment/environment.py:Environment.__init__"]}
{"id": "C108", "title": "Copies are exact whatever the rounding", "statement": "In IEEE 754 arithmetic, or any other with rounding, copy() of an environment without changes returns an environment with exactly the same attributes, all grids included, for every environment that does not end before it begins; every other one raises ValueError.", "quantifier": "all arguments of the constructor, all rounding functions", "why_tests_cant": "rounding errors accumulate in repeated copies unless nothing is recomputed", "anchors": ["photontorch/environment/environment.py:Environment.copy", "photontorch/environment/environment.py:Environment.__init__"]}
{"id": "C109", "title": "Legacy and extra keyword arguments of environments", "statement": "Environment(...) and copy(...) with legacy keywords (timestep, t_start, wavelength, ...) give the environment with the corresponding new keywords, the legacy one being used if both are given. Any other keyword is an attribute of the environment; a copy has it too, with the value given to copy if there is one, unless its name begins with an underscore.", "quantifier": "all combinations of keywords, values and attribute names", "why_tests_cant": "all subsets of keywords, chains of copies", "anchors": ["photontorch/environment/environment.py:Environment.__init__", "photontorch/environment/environment.py:Environment.copy"]}
{"id": "C110", "title": "The printed form of an environment shows what it is", "statement": "print(env), repr(env) and the html table show every public attribute exactly once, in the order of assignment, the printed table with a colon in the same column for all; numbers are shown with an error of at most 0.05%, strings as literals on one line. Environments that differ are printed differently, the call written by repr creates the environment again, and the html table has one row per attribute. (The last sentence is violated: four digits are shown; the call gives both t and t0, which is rejected; the name is not escaped.)", "quantifier": "all environments, names, extra attributes", "why_tests_cant": "all values of all attributes and all characters of names", "anchors": ["photontorch/environment/environment.py:Environment.__repr__", "photontorch/environment/environment.py:Environment.__str__", "photontorch/environment/environment.py:Environment._repr_html_", "photontorch/environment/environment.py:_Array.__repr__", "photontorch/environment/environment.py:_Array.__str__"]}
{"id": "C111", "title": "Complex sources", "statement": "A complex numpy array (t, w, s, b) drives the sources with its elements, dimensions of size one being broadcast; an array of complex numbers without imaginary parts drives the network exactly as the array of their real parts, whatever its number of dimensions; complex numbers and lists of complex numbers are accepted like real ones. (Violated: a complex number as numpy array without dimensions and complex numbers of python raise ValueError, a real number is accepted.)", "quantifier": "all arrays, shapes, numbers of time steps, wavelengths and sources", "why_tests_cant": "all shapes and values", "anchors": ["photontorch/networks/network.py:Network._handle_source"]}
{"id": "C112", "title": "The warning about the time step", "statement": "In the time domain initialize of a terminated network warns if and only if some delay is positive and shorter than half a time step; there is no warning in the frequency domain. Without a warning every positive delay is simulated with at least one step and with an error of at most half a step.", "quantifier": "all networks, delays, time steps", "why_tests_cant": "all combinations of delays and steps; rounding near one half", "anchors": ["photontorch/networks/network.py:Network.initialize"]}
{"id": "C113", "title": "The gain of an AgrawalSoa follows its rate equation", "statement": "In every circuit an AgrawalSoa multiplies (the real part of) its delayed input by exp(h/2), where h differs from the solution of the rate equation tc h' = g0 L - h - (P/Psat)(e^h - 1), h(0) = 0, by at most a constant times the time step, the constant not depending on the length of the simulation; with constant input power h tends to the saturated gain like (1 - dt/tc)^n; the gain is between 1 and exp(g0 L), where g0 L = gamma a L (I tc / (e L H W) - N0) in the arguments of the constructor; at the current where this vanishes the amplifier passes all light unchanged, for every time step. (Violated for large time steps or strong light: the amplifier attenuates.)", "quantifier": "all circuits, parameters, input signals, time steps", "why_tests_cant": "limits of vanishing time step and long times; all signals", "anchors": ["photontorch/components/soas.py:AgrawalSoa.dhdt", "photontorch/components/soas.py:BaseSoa.action"]}
{"id": "C114", "title": "The response to a pulse determines everything", "statement": "In a network without active components the detected fields are, for all source signals, the convolution of the source signals with the fields detected after a unit pulse at each source; and the Fourier sums of the response to a pulse converge to the response that the frequency domain gives at the shifted wavelength.", "quantifier": "all networks, delays, signals, times, wavelengths", "why_tests_cant": "all signals of all lengths; a limit", "anchors": ["photontorch/networks/network.py:Network.forward", "photontorch/networks/network.py:Network.step", "photontorch/networks/network.py:Network.initialize"]}
{"id": "C115", "title": "No energy is lost in time", "statement": "In a fully terminated circuit of lossless components, after every time step the energy detected so far, the energy that came back to the sources and the energy stored in the components add up to the energy injected; if no light circulates for ever, the detected and returned energy approaches the injected energy once the sources are dark. In Reck and Clements meshes of every size the detected energy alone does.", "quantifier": "all lossless circuits, nested to any depth, all delays, time steps and signals; meshes of all sizes", "why_tests_cant": "all circuits and signals; a limit", "anchors": ["photontorch/networks/network.py:Network.step", "photontorch/networks/network.py:Network.initialize"]}
{"id": "C116", "title": "Errors of single steps are not amplified", "statement": "If every step of a simulation of a circuit of passive components is computed inexactly (from the inexact fields computed before), the detected fields of step t differ from the exact ones by at most the sum of the errors of the steps up to t: errors grow at most linearly with the number of steps and not exponentially.", "quantifier": "all passive circuits, delays, time steps, signals, rounding functions", "why_tests_cant": "all numbers of steps, all errors", "anchors": ["photontorch/networks/network.py:Network.step", "photontorch/networks/network.py:Network.forward"]}
{"id": "C117", "title": "Training changes only what is trainable and keeps circuits passive", "statement": "A component behaves as the arguments of its constructor say, whether or not they are trainable. Whatever is added to the registered parameters, in any number of steps, non-trainable arguments, ports, connections, sources, detectors and delays of a circuit remain; trainable phases, amplifications and weights are shifted by what is added, and the odds of trainable couplings and reflectivities multiplied by its exponential; a network that could be built can be built again; and a passive circuit stays passive, detecting no more energy than is injected. (Violated by Mmi and LinearSoa, whose parameters are not bounded.)", "quantifier": "all constructor calls, circuits, histories of training, signals", "why_tests_cant": "all sequences of updates; components nested to any depth", "anchors": ["photontorch/nn/nn.py:BoundedParameter", "photontorch/nn/nn.py:Module.__setattr__", "photontorch/components/component.py:Component.__init__", "photontorch/components/mmis.py:Mmi.__init__"]}
{"id": "C118", "title": "Drawings show every component and connection once, and only if asked for", "statement": "graph draws the name of every component exactly once, at its position, in a box whose colour is that of the nearest class of the component (following first base classes) for which a colour is defined; and for every connection exactly one line between the positions of its two ends, with one bend which is half as far from the first end as the second end is, and closer to the second end than three quarters of the distance. With draw=False nothing is drawn. (Violated: the method Network.graph ignores draw.)", "quantifier": "all networks with usable component names, classes, layouts and random numbers", "why_tests_cant": "all multigraphs including parallel links and self links, all class hierarchies", "anchors": ["photontorch/networks/visualize.py:graph", "photontorch/networks/visualize.py:_draw_nodes", "photontorch/networks/visualize.py:_draw_edges", "photontorch/networks/network.py:Network.graph"]}
{"id": "C119", "title": "Detectors are Butterworth low-pass filters of the power", "statement": "The current of a detector for constant power approaches responsivity times power exponentially fast; a power modulated harmonically at a frequency f below the Nyquist frequency (with mean, amplitude and phase of its own in every channel) settles to the same modulation, reduced by one factor A and shifted by one phase, where A^2 = 1 / (1 + (tan(pi f/fs) / tan(pi fc/fs))^(2 order)), so that it passes with at least half of its power if and only if f is at most the cutoff fc; a modulation at the Nyquist frequency dies out; and bounded powers give bounded currents, however long the signal.", "quantifier": "all orders, sample rates, cutoffs below the Nyquist frequency, responsivities, channel shapes and modulation frequencies; all lengths", "why_tests_cant": "limits; all signals and lengths", "anchors": ["photontorch/detectors/lowpassdetector.py:LowpassDetector.forward", "photontorch/detectors/lowpassdetector.py:lfilter"]}
{"id": "C120", "title": "The noise of a photodetector is unbiased and as strong as documented", "statement": "For independent standard normal random numbers, the current of a Photodetector is, at every step and in every channel, normally distributed about the current of the LowpassDetector with the same parameters; its variance is a weighted sum of the variances 4kTB/load + 2q(R p + dark)B of the steps so far, with weights that depend on the filter only and add up to at most one. So the current is right on average, and its variance is at most the largest variance of the noise so far.", "quantifier": "all orders, cutoffs below the Nyquist frequency, sample rates, channel shapes, lengths, powers and parameters for which no variance is negative; all probability spaces", "why_tests_cant": "distributions; all lengths", "anchors": ["photontorch/detectors/photodetector.py:Photodetector.forward", "photontorch/detectors/lowpassdetector.py:LowpassDetector.forward"]}
{"id": "C121", "title": "Scattering matrices consist of numbers", "statement": "Every component that its constructor accepts has, at every positive wavelength and however it is trained, a scattering matrix of numbers: no nan and no infinity. (Violated: couplings that are not trainable, center wavelengths and bandwidths are not checked. It holds exactly for couplings and reflectivities between 0 and 1, nonzero center wavelengths, and transmissions that are not negative, and for every accepted mirror and trainable coupler.)", "quantifier": "all component classes, constructor arguments, wavelengths, histories of training", "why_tests_cant": "all arguments", "anchors": ["photontorch/components/directionalcouplers.py:DirectionalCoupler.set_S", "photontorch/components/waveguides.py:Waveguide.set_S", "photontorch/components/gratingcouplers.py:GratingCoupler.set_S", "photontorch/components/mirrors.py:Mirror.set_S"]}
{"id": "C122", "title": "Couplings and reflectivities can be trained from any accepted value", "statement": "For every value of a trainable coupling or reflectivity that the constructor accepts, backpropagation gives its weight a number, namely the derivative of the loss; a step of gradient descent moves the value against it. (Violated at 0 and 1: the gradient is nan for every loss, and the parameter is nan after the first step.)", "quantifier": "all accepted values, all differentiable losses", "why_tests_cant": "boundary values; all losses", "anchors": ["photontorch/nn/nn.py:BoundedParameter._sigmoid", "photontorch/components/directionalcouplers.py:DirectionalCoupler.set_S", "photontorch/components/mirrors.py:Mirror.set_S"]}
{"id": "C123", "title": "Ring networks of width two are chains of coupled rings", "statement": "RingNetwork(N=2) with directional couplers in the place of the interferometers, terminated with a source and three detectors, responds like a chain of capacity // 2 coupled ring resonators (C95) with a waveguide behind it: the second port gets what the first ring sends back, and what passes all rings leaves at the third port if their number is odd and at the fourth if it is even; the simulation raises RuntimeError exactly if the chain is undamped at a wavelength. In particular the ring network of notebook 08 (capacity 3) detects the same as the add-drop filter of notebook 02 that it recreates, up to the waveguide in front of term_drop.", "quantifier": "all capacities at least 2, couplings, waveguides, wavelengths and source signals", "why_tests_cant": "all numbers of rings; exact resonance", "anchors": ["photontorch/networks/rings.py:RingNetwork.__init__", "photontorch/networks/rings.py:_UnclosedRingArray.__init__", "photontorch/networks/rings.py:_MixingPhaseArrayRings.__init__", "photontorch/networks/network.py:Network.terminate"]}
{"id": "C124", "title": "The capacity of a mesh is the number of its columns", "statement": "ClementsNxN and RingNetwork of width N and the given capacity consist of capacity columns of components, each crossed by all N lines (two lines in every interferometer, one in a waveguide), and one column of phase shifters: they have 2 N (capacity + 1) ports. ReckNxN consists of N (N - 1) / 2 interferometers and N phase shifters. (Violated by RingNetwork for even capacities, which has one column more.)", "quantifier": "all widths and capacities at least 2", "why_tests_cant": "all sizes", "anchors": ["photontorch/networks/rings.py:RingNetwork.__init__", "photontorch/networks/clements.py:ClementsNxN.__init__", "photontorch/networks/reck.py:ReckNxN.__init__"]}
{"id": "C125", "title": "Default meshes can be trained to exactly the unitary matrices", "statement": "ReckNxN(N) and ClementsNxN(N) without further arguments have random trainable phases. Whatever the random numbers and however the phases are trained, the network terminated at both sides is unitary, and light takes N + 1 times the delay of one component to all outputs of ClementsNxN(N); and for every unitary matrix and every wavelength there is one training step after which the network realizes that matrix.", "quantifier": "all widths at least 2, random numbers, histories of training, unitary matrices, wavelengths", "why_tests_cant": "all unitary matrices and histories", "anchors": ["photontorch/networks/clements.py:_wg_factory", "photontorch/networks/clements.py:_mzi_factory", "photontorch/networks/clements.py:ClementsNxN.__init__", "photontorch/networks/reck.py:ReckNxN.__init__"]}
{"id": "C126", "title": "Rings on a bus can be trained to any weight between resonance and anti-resonance", "statement": "The collection of all-pass rings of notebook 05 (networks in a network) multiplies the light of source i by the transmission of ring i before detector i, for every number of rings; the simulation raises RuntimeError exactly if one of the rings is at a resonance without loss. If the rings lose light, the powers that can be reached by the trainable phases are exactly those between the power at resonance and the power between two resonances, for each ring on its own: no training leads out of this range, and for all weights in the ranges there is one training step after which the collection has them.", "quantifier": "all numbers of rings, couplings, lossy ring waveguides, output waveguides, wavelengths, histories of training and weights in the range", "why_tests_cant": "all weights and histories; exact resonance", "anchors": ["photontorch/components/waveguides.py:Waveguide.__init__", "photontorch/components/directionalcouplers.py:DirectionalCoupler.set_S", "photontorch/networks/network.py:Network.link", "photontorch/networks/network.py:Network.add_component"]}
{"id": "C127", "title": "Transmission of bits: when the bit error rate is zero", "statement": "A BitStreamGenerator drives the source of a waveguide whose detected power goes through a LowpassDetector and BERLoss. The detected power is the transmission of the waveguide times the power of the source, delayed by a whole number of steps; the BER is the fraction of bits for which the current in the middle of the bit, delayed as BERLoss is told, lies on the wrong side of the threshold. For every threshold strictly between zero and the current of an infinitely long one there is a number of samples per bit from which every sequence of bits is received without error; without filter the BER is zero if and only if the threshold lies between these currents.", "quantifier": "all bits, batch sizes, wavelengths, waveguides, sample rates and thresholds; all filter orders and cutoff ratios", "why_tests_cant": "all bit sequences; limit of long bits", "anchors": ["photontorch/nn/nn.py:BitStreamGenerator", "photontorch/nn/nn.py:BERLoss", "photontorch/detectors/lowpassdetector.py:LowpassDetector", "photontorch/components/waveguides.py:Waveguide.set_S", "photontorch/networks/network.py:Network.forward"]}
{"id": "C128", "title": "Expected bit error rate of a noisy photodetector", "statement": "If the current is that of a Photodetector, the expectation of the BER is the mean over the bits of the probability that a normal variable lies on the wrong side of the threshold, with the current of the LowpassDetector as mean and the filtered noise variances (C120) as variance. If the noiseless currents keep a distance d from the threshold and the variance of the noise is at most v, it is at most exp(-d^2/(2v)). For the link of C127 this holds with the shot and thermal noise at the current of an uninterrupted one, for every sequence of bits with sufficiently many samples per bit.", "quantifier": "all bits, signals, detectors, thresholds and waveguides", "why_tests_cant": "probability distributions; all bit sequences", "anchors": ["photontorch/detectors/photodetector.py:Photodetector", "photontorch/detectors/lowpassdetector.py:LowpassDetector", "photontorch/nn/nn.py:BERLoss", "photontorch/nn/nn.py:BitStreamGenerator"]}
{"id": "C129", "title": "Refining the time step converges to the circuit in continuous time", "statement": "Consider a circuit in continuous time: every port emits what its component scatters, of the light that entered k a delay tau_k before, and connections and sources act at once. If no light circulates without delay (in particular if every loop contains a delay), there is exactly one such flow of light for sources with bounded slope, and for every T there is a K such that the time domain simulation with any time step dt not longer than the shortest delay detects this flow up to K dt, at all times up to T. With such a time step the network can be initialized exactly if no light circulates without delay. For a ring on a bus the flow is the light that passed the ring plus the light that went around once, twice, ..., with the delays in seconds.", "quantifier": "all terminated circuits of passive components, nonnegative delays, sources with bounded slope, time steps, times, wavelengths", "why_tests_cant": "limit dt -> 0; all circuits and signals", "anchors": ["photontorch/networks/network.py:Network.initialize", "photontorch/networks/network.py:Network.forward", "photontorch/components/component.py:Component.initialize", "photontorch/components/waveguides.py:Waveguide.set_delays"]}
{"id": "C130", "title": "Saving and loading trained components", "statement": "The state_dict of a component or network, after any training, can be loaded into one built with other initial values for the trainable arguments, trainable or not, which then has the scattering matrix and delays of the saved one at all wavelengths. (False for directional couplers when the one is trainable and the other is not: RuntimeError.) Lengths, losses and indices are not part of the state: components that differ only in them have the same state at any time of the training.", "quantifier": "all constructor calls, histories of training of both, networks with distinct names", "why_tests_cant": "all values and histories; pairs of objects", "anchors": ["photontorch/nn/nn.py:Module.__setattr__", "photontorch/components/directionalcouplers.py:DirectionalCoupler.__init__", "photontorch/components/mirrors.py:Mirror.__init__", "photontorch/networks/network.py:Network.add_component"]}
{"id": "C131", "title": "One component under several names", "statement": "If one component is set as several attributes of a network, the network has copies of it (as the documentation says): like components constructed separately, they can be trained to different values, and a saved state of separate components with these names can be loaded. (False: the names stand for one component. Whatever the training, all names behave the same; loading a state with different values raises nothing and the last name decides about all names of the component. The saved state of such a network can be loaded into one with separate components.)", "quantifier": "all networks, components, histories of training and saved states", "why_tests_cant": "all histories; silent loss of values", "anchors": ["photontorch/networks/network.py:Network.add_component", "photontorch/networks/network.py:Network.__setattr__", "photontorch/components/mirrors.py:Mirror.__init__"]}
{"id": "C132", "title": "Bit streams with a cutoff follow their bits with the time constant of the filter", "statement": "The samples of BitStreamGenerator with cutoff_frequency f and filter order 1 are between 0 and 1, and a sample taken a time tau after the last change of the bits differs from the current bit by at most exp(-2 pi f tau), for all combinations of bit rate, sample rate and cutoff, and in spite of the internal change of the sample rate; after a step from 0 to 1 they rise exactly as the filter of order one with its pole at the cutoff. So the BER of the stream is zero for thresholds farther than exp(-2 pi f tau) from 0 and 1, with tau half a bit, and that of the link of C127 for thresholds between the corresponding powers.", "quantifier": "all bits, batch sizes, bit rates, sample rates and cutoffs (whole numbers of Hz); all waveguides and thresholds", "why_tests_cant": "all rates and bit sequences; quantitative bound", "anchors": ["photontorch/nn/nn.py:BitStreamGenerator.forward", "photontorch/nn/nn.py:BERLoss"]}
{"id": "C133", "title": "Bit streams and losses with the rates of an environment, in floating-point arithmetic", "statement": "Within Environment(samplerate=S, bitrate=B, num_t=n), BitStreamGenerator, MSELoss and BERLoss (called without rates) give what they give in exact arithmetic for the rates S and B. (False in binary64 arithmetic: env.samplerate is computed as 1 / env.dt, and at 252 GHz and 28 GHz, where half a bit is rounded up to five samples, it comes out below 252 GHz and half a bit is taken as four samples. True for bit streams, for BERLoss and MSELoss unless the latency or warmup in samples is, up to rounding errors, half a sample off a whole number; with a cutoff frequency up to the last digits of the normalized frequency.)", "quantifier": "all whole rates up to 2^47 Hz, numbers of time steps, latencies, warmups, bits, cutoffs and signals", "why_tests_cant": "all rates; rounding errors at few of them", "anchors": ["photontorch/nn/nn.py:BitStreamGenerator.forward", "photontorch/nn/nn.py:MSELoss", "photontorch/nn/nn.py:BERLoss", "photontorch/environment/environment.py:Environment.__init__"]}
{"id": "C134", "title": "Delays in time steps, in single precision", "statement": "In Environment(dt=d, num_t=n), a component with group index ng and length L delays the light by ng L / (c d) time steps, rounded to the nearest whole number (half up), and the buffer is exactly as long as the longest delay requires. (False in the arithmetic of the code, binary64 for the time step and ng L / c, binary32 for the tensors: with d = 1 ps, a waveguide of 3.05 mm with ng = 2.99792458, 30.5 time steps, delays by 30; a delay of 8388609 time steps becomes one of 8388610. True, up to a million time steps, unless the number of time steps is, up to rounding errors, half-integer; the claim about the buffer is always true.)", "quantifier": "all time steps, numbers of time steps, group indices and lengths; all lists of delays", "why_tests_cant": "all values; rounding errors at few of them", "anchors": ["photontorch/networks/network.py:Network.initialize", "photontorch/networks/network.py:Network._simulation_buffer", "photontorch/components/waveguides.py:Waveguide.set_delays", "photontorch/components/mzis.py:Mzi.set_delays", "photontorch/components/directionalcouplers.py:DirectionalCouplerWithLength.set_delays"]}
{"id": "C135", "title": "Circuits that do not amplify settle, whatever light keeps circulating in them", "statement": "If a terminated circuit of components that do not amplify can be initialized in the frequency domain, it can be initialized in every environment, and with constant sources the detected fields of the time domain approach those of the frequency domain, for every time step. No damping is required: resonances without loss that do not coincide with the wavelength do no harm. The squared deviations of the detected fields, summed over all detectors and all time steps of a simulation of any length, are at most the energy inside the components in the steady state (power entering each port times its delay). The same holds with modulated sources and the fields at the shifted wavelength (C83), and the Fourier sums of the response to a single pulse converge to the spectrum at every wavelength where the frequency domain can be initialized. So the ring on a bus approaches the textbook formula (C89) whenever that has a value, even if the coupler does not couple.", "quantifier": "all terminated circuits of components that do not amplify, time steps, lengths of simulations, wavelengths, sources", "why_tests_cant": "limit of long simulations; all circuits", "anchors": ["photontorch/networks/network.py:Network.initialize", "photontorch/networks/network.py:Network.forward", "photontorch/components/component.py:Component.initialize"]}
{"id": "C136", "title": "The Michelson interferometer cavity", "statement": "The network of the example notebook 03 (four arms with mirrors around a directional coupler) with any reflections, arm lengths, losses and coupling detects, in the frequency domain, the amplitudes of the closed formula whose denominator counts the round trips between the arms; the detectors come in the order of the links: east, north, south. The denominator does not vanish if the parameters are physical and the mirrors of the north and the east arm (or of the west and the south arm) are not perfect. If an arm amplifies so much that it vanishes, and the light of the source takes part in the resonance, the initialization raises RuntimeError. In the time domain, with every time step, the detected fields of a physical interferometer approach the formula. The aim of the training in the notebook, the same power at all three detectors, can be met by choice of the mirrors, for every power up to (3/2) q / (2 + q) of the source, with q = |n^2 + e^2|^2 for the amplitudes n and e of the north and the east arm.", "quantifier": "all reflections, couplings, waveguides, wavelengths, time steps and sources", "why_tests_cant": "all parameters; limit of long simulations; existence of parameters", "anchors": ["photontorch/networks/network.py:Network.forward", "photontorch/networks/network.py:Network.link", "photontorch/components/mirrors.py:Mirror.set_S", "photontorch/components/directionalcouplers.py:DirectionalCoupler.set_S"]}
{"id": "C137", "title": "Spectra are periodic in the frequency", "statement": "If the delays of all components of a circuit are multiples of a time T, and the components disperse as their delays require, then every simulation of the circuit, in the time or the frequency domain, gives the same result at two wavelengths whose optical frequencies differ by a multiple of 1/T. The resonances of a ring lie at equal distances in frequency, the inverse of its round trip time, and nowhere else. The power behind a ring on a bus repeats with the free spectral range of the ring, whatever the lengths of the bus.", "quantifier": "all circuits, wavelengths, environments, sources", "why_tests_cant": "all wavelengths and circuits", "anchors": ["photontorch/networks/network.py:Network.initialize", "photontorch/components/waveguides.py:Waveguide.set_S", "photontorch/components/waveguides.py:Waveguide.set_delays", "photontorch/components/mzis.py:Mzi.set_S"]}
{"id": "C138", "title": "Networks may be built in any way", "statement": "A network of components and networks, nested to any depth, has the same connection matrix, port order and marked ports whether it is made with dictionaries (Network(components, connections)), from the inside to the outside, or with with-blocks: with parts that are named in their constructor or assigned to attributes, with pt.link or nw.link, with one call per chain, in which case the network is rebuilt after every call while its ports are not yet all numbered. The program raises nothing, the network that was current before is current afterwards, and no other network changes. Whatever else the program does, link and assignments on a network whose parts are linked do to it, and raise, what C12, C13 and C23 say; a part that has no connections itself yet is refused with AttributeError, and so is pt.link outside of all with-blocks; a network that was linked as a part under one name is refused under another one with ValueError.", "quantifier": "all nested networks with different usable names, existing ports and external ports numbered from 0; all mixtures of styles; all states of the program before", "why_tests_cant": "all nestings and all programs; intermediate states", "anchors": ["photontorch/networks/network.py:Network.link", "photontorch/networks/network.py:Network.__enter__", "photontorch/networks/network.py:Network.__exit__", "photontorch/networks/network.py:current_network", "photontorch/networks/network.py:link", "photontorch/components/component.py:Component.__init__", "photontorch/networks/network.py:Network.__init__"]}
{"id": "C139", "title": "Networks stay up to date", "statement": "Whenever a program that builds networks has run without exceptions, the buffers of every network are those of a network with its connections and its parts as they are now. (False: when a network that is already a part of a linked network is extended by link, the outer network is not rebuilt and keeps buffers for the former number of ports. True after every link on a network that is not a part of another one.)", "quantifier": "all programs of with-blocks, assignments and link", "why_tests_cant": "all programs; stale state", "anchors": ["photontorch/networks/network.py:Network.link", "photontorch/networks/network.py:Network._set_buffers", "photontorch/networks/network.py:Network.num_ports"]}
{"id": "C140", "title": "A list of terms closes every port", "statement": "nw.terminate(terms) with a list of one-port terms, one per free port, returns a network without free ports, or raises. (False: the terms are collected in a dictionary by their names; of terms with the same name only the last is connected, the other ports stay open and nothing is raised. What holds: the i-th different name is connected to free port i and stands for the last term of that name; the result is fully terminated exactly if the names differ; a term without a name raises TypeError; a term that is called like the network raises.)", "quantifier": "all networks and lists of terms", "why_tests_cant": "all lists; silent loss of terms", "anchors": ["photontorch/networks/network.py:Network.terminate"]}
{"id": "C141", "title": "The printed form of components", "statement": "repr and str of a component are its class, followed by its name if it has one; they determine class and name, whatever characters the name contains. The components of a network print differently.", "quantifier": "all classes, names and networks", "why_tests_cant": "all pairs of components", "anchors": ["photontorch/components/component.py:Component.__repr__", "photontorch/components/component.py:Component.__str__", "photontorch/networks/network.py:Network._set_buffers"]}
{"id": "C142", "title": "Constant sources lead to the result of the frequency domain", "statement": "With constant sources, the detected fields of a terminated circuit approach the result of the frequency domain, if the circuit can be initialized there. (False for circuits with gain: a ring on a bus with a gain of 20 dB per round trip has a finite result in the frequency domain, while its simulation in the time domain exceeds every bound. What holds: the exact transient of the ring on a bus with any loss or gain, and that it approaches the result of the frequency domain exactly if less than all light is left after a round trip, or no light enters the ring.)", "quantifier": "all couplings, losses, gains, lengths, wavelengths, step sizes and simulation lengths", "why_tests_cant": "limits of arbitrarily long simulations", "anchors": ["photontorch/networks/network.py:Network.initialize", "photontorch/networks/network.py:Network.forward", "photontorch/components/waveguides.py:Waveguide.set_S"]}
{"id": "C143", "title": "Rings as weights of a sum", "statement": "The readout of the example notebook 05, a network of networks in which n rings on buses lead to a combiner with complex weights, detects in the frequency domain the sum of the n inputs, each multiplied by the amplitude its ring passes and by its weight. It can be initialized except at a resonance without loss of one of the rings, where it raises RuntimeError. If the combiner adds amplitudes (weights of absolute value 1) and rings and waveguides do not amplify, at most n times the power of the sources is detected, and n equal inputs are indeed detected with n times their power: such a combiner is not passive. In the time domain, if no ring has as much gain as to sustain itself, constant sources lead to the same sum with every time step. Training the phases of the rings reaches every power between two that can be detected.", "quantifier": "all numbers of rings, couplings, waveguides, weights, wavelengths and sources", "why_tests_cant": "all sizes and parameters; existence of phases", "anchors": ["photontorch/networks/network.py:Network.forward", "photontorch/networks/network.py:Network.link", "photontorch/components/mmis.py:Mmi.set_S", "photontorch/components/waveguides.py:Waveguide.set_S", "photontorch/components/directionalcouplers.py:DirectionalCoupler.set_S"]}
{"id": "C144", "title": "Waveguides in floating-point arithmetic", "statement": "The amplitude that set_S computes for a waveguide in double and single precision is that of its formula, up to single precision and 2^-47 of the phase that light picks up in the waveguide (so up to single precision for waveguides of up to meters), whether the phase is the one given to the constructor or a trained one; and a waveguide without gain does not amplify. (The last clause is false: Waveguide(length=0, phase=1/8192) amplifies, since the cosine is rounded to 1 and the sine is not rounded to 0. What holds: the gain is a rounding error, bounded as above.)", "quantifier": "all lengths, losses, indices, wavelengths and phases of usual size; all library functions accurate to the last digits", "why_tests_cant": "all floating-point inputs", "anchors": ["photontorch/components/waveguides.py:Waveguide.set_S", "photontorch/components/waveguides.py:Waveguide.__init__"]}
{"id": "C145", "title": "Bounded parameters, couplers and mirrors in single precision", "statement": "A BoundedParameter made of data that its constructor accepts represents that data up to single precision of its bounds, and lies within its bounds. A coupling or reflectivity stays between 0 and 1 whatever its weight is trained to, and the coupler or mirror splits the power as the ratio it was given says, up to single precision. (The first clause is false for general bounds: BoundedParameter(torch.tensor(0.3), bounds=(0.1, 0.3)) is nan, and BoundedParameter(torch.tensor(0.1), bounds=(-1, 0.1)) represents a number above its bound. It is true for bounds 0 and 1, and for general bounds up to rounding errors unless it is nan.)", "quantifier": "all bounds, data and weights; all library functions accurate to the last digits", "why_tests_cant": "all floating-point inputs", "anchors": ["photontorch/nn/nn.py:BoundedParameter", "photontorch/components/directionalcouplers.py:DirectionalCoupler.set_S", "photontorch/components/mirrors.py:Mirror.set_S"]}
{"id": "C146", "title": "Gradients accumulate", "statement": "Calling a network only computes: in every program of calls, loss.backward(), optimizer.zero_grad() and optimizer.step(), the gradients of the parameters are the sums of the gradients of all losses since the last zero_grad(), and steps use these. (False: forward calls initialize, if gradients are enabled or the environment changed, and initialize calls self.zero_grad(). So of several passes through the same parameters only the last one counts, and looking at the network in another environment between backward and step, even without gradients, makes the step void. True for programs that call networks only while the gradients of their parameters are zero, or in the same environment without gradients; in particular for the training loop of the examples, with any number of calls before backward.)", "quantifier": "all programs of training, networks, environments and losses", "why_tests_cant": "all programs; silently wrong training", "anchors": ["photontorch/networks/network.py:Network.initialize", "photontorch/networks/network.py:Network.forward"]}
{"id": "C147", "title": "Mzis in floating-point arithmetic", "statement": "What Mzi.set_S computes, with phases in double precision and everything else in single precision, is the matrix of an Mzi up to single precision and a small fraction of the phase light picks up in the arms, and an Mzi never amplifies. (The latter is false: the cosine of a small theta is rounded to 1, its sine is not rounded to 0. True: the amplitude of the light leaving an Mzi differs from that entering it by a fraction of at most 2^-17, however long the arms are and however wrong their phases; so n Mzis in a row change it at most by the factors (1 +- 2^-17)^n.)", "quantifier": "all phi up to 500, theta up to 1000, lengths, indices, wavelengths and incoming light", "why_tests_cant": "all numbers; error bounds", "anchors": ["photontorch/components/mzis.py:Mzi.set_S"]}
{"id": "C148", "title": "Random bits can be reproduced by their seed", "statement": "A call of a BitStreamGenerator with a seed gives the stream that a new generator with that seed gives, whatever calls were made before. (False for the seed that the constructor was given: the generator of random numbers goes on where earlier calls stopped, so two equal calls g(100, seed=1), g(100, seed=1) differ if g was made with seed=1, and do not if it was made with any other seed. True for all other seeds, which also leave the generator alone. Without a seed, calls give consecutive pieces of the random bits of the constructor's seed; calls that fail use up bits, calls with given bits do not. Whole numbers from -1 to 2^32 - 1 are accepted as seeds, -1 being the same as 0.)", "quantifier": "all generators, histories of calls, seeds, rates, cutoffs and environments", "why_tests_cant": "all histories of calls", "anchors": ["photontorch/nn/nn.py:BitStreamGenerator.__init__", "photontorch/nn/nn.py:BitStreamGenerator.forward"]}
{"id": "C149", "title": "Small errors of components lead to small errors of circuits", "statement": "If a circuit can be simulated in the frequency domain, then so it can with scattering matrices that differ little, as by rounding, and what is detected differs in proportion: by at most kappa^2 eps / (1 - kappa eps) of the amplitude of the sources, if light is enhanced in the circuit by at most kappa and the matrices are wrong by eps. kappa is 1 / (1 - rho) if every component passes at most the fraction rho. In circuits without gain in which light travels in one direction through at most D columns of components, errors only add up: the bound is (D + 2) eps / (1 - (D + 1) eps). So a mesh of Mzis and waveguides computed in double and single precision gives the result of exact arithmetic up to D + 2 times single precision (and small fractions of the phases).", "quantifier": "all circuits, nested to any depth, of any size; all roundings, sources, wavelengths and batches", "why_tests_cant": "all circuits and all floating-point inputs; error bounds", "anchors": ["photontorch/networks/network.py:Network.initialize", "photontorch/networks/network.py:Network.forward", "photontorch/components/mzis.py:Mzi.set_S", "photontorch/components/waveguides.py:Waveguide.set_S"]}
{"id": "C150", "title": "Small errors of components lead to small errors of simulations in time", "statement": "If a circuit of components is simulated in time with scattering matrices that are wrong by eps, as by rounding, then at any time step the energy of the error of what was detected so far is at most q^2 times the energy the sources sent so far, however long the simulation is, however light is delayed and whatever signals are sent: errors do not accumulate with time. q is kappa^2 eps / (1 - kappa eps) if light is enhanced over time by at most kappa, eps / ((1 - rho) (1 - rho - eps)) if every component passes at most the fraction rho, and (D + 2) eps / (1 - (D + 1) eps) in circuits without gain in which light travels in one direction through D columns; so for meshes of Mzis and waveguides computed in double and single precision it is D + 2 times single precision.", "quantifier": "all circuits, nested to any depth, of any size; all delays, time steps, lengths of simulation, roundings, signals, wavelengths and batches", "why_tests_cant": "all circuits, signals and times; error bounds", "anchors": ["photontorch/networks/network.py:Network.initialize", "photontorch/networks/network.py:Network.forward", "photontorch/networks/network.py:Network.step", "photontorch/components/mzis.py:Mzi.set_S", "photontorch/components/waveguides.py:Waveguide.set_S"]}
{"id": "C151", "title": "Reck and Clements networks in floating-point arithmetic", "statement": "A ClementsNxN of two or more modes and any capacity of at least 2, of Mzis and waveguides computed in double and single precision, and terminated with sources and detectors, gives the results of exact arithmetic up to capacity + 4 times single precision (and small fractions of the phases), in the frequency domain at every wavelength and in the time domain for every signal and length of simulation. The number of modes does not matter. For a ReckNxN of N modes the factor is 2 N + 2.", "quantifier": "all numbers of modes, capacities, phases, lengths, wavelengths, signals and time steps", "why_tests_cant": "meshes of every size; error bounds", "anchors": ["photontorch/networks/clements.py:ClementsNxN", "photontorch/networks/reck.py:ReckNxN", "photontorch/networks/network.py:Network.forward", "photontorch/components/mzis.py:Mzi.set_S"]}
{"id": "C152", "title": "Circuits of couplers in floating-point arithmetic", "statement": "What DirectionalCoupler.set_S and Mirror.set_S compute in single precision are the matrices of the component up to 2^-22, for every coupling and reflectivity from 0 to 1. A circuit of couplers, Mzis and waveguides without gain in which light travels in one direction through D columns, computed in double and single precision, gives the results of exact arithmetic up to D + 2 times single precision (and small fractions of the phases), in the frequency domain and, for every signal and length of simulation, in the time domain.", "quantifier": "all couplings, circuits of every size, wavelengths, signals and time steps", "why_tests_cant": "all floating-point inputs and all circuits; error bounds", "anchors": ["photontorch/components/directionalcouplers.py:DirectionalCoupler.set_S", "photontorch/components/mirrors.py:Mirror.set_S", "photontorch/networks/network.py:Network.forward"]}
{"id": "C153", "title": "Resonant circuits in floating-point arithmetic", "statement": "In a circuit without gain in which every connection leads from or to a component that lets at most the fraction rho of the amplitude pass, such as rings of couplers and lossy waveguides or cavities of mirrors, light is enhanced by at most 2 / (1 - rho), at every wavelength and over any time, however the rings are coupled and however often light goes round. So such a circuit of couplers, mirrors, Mzis and waveguides, computed in double and single precision, can be simulated and gives the results of exact arithmetic up to 4 delta / ((1 - rho) (1 - rho - 2 delta)), where delta is four times single precision (and small fractions of the phases): in the frequency domain at every wavelength, also in resonance, and in the time domain for every signal, where errors do not accumulate. In particular for any number of coupled rings as in examples/04.", "quantifier": "all circuits of named components, numbers of rings, couplings, losses, wavelengths, signals, time steps and lengths of simulation", "why_tests_cant": "all circuits, also in resonance; error bounds", "anchors": ["photontorch/networks/network.py:Network.initialize", "photontorch/networks/network.py:Network.forward", "photontorch/components/directionalcouplers.py:DirectionalCoupler.set_S", "photontorch/components/waveguides.py:Waveguide.set_S"]}
{"id": "C154", "title": "How fast spectra can change", "statement": "As a function of the wavenumber 1 / wl, the scattering matrices of a Waveguide without gain and of an Mzi change at most at the rate 2 pi ng length, those of couplers, mirrors, sources and detectors not at all. So if every component of a circuit changes at most at the rate tau and two wavelengths differ by at most beta in wavenumber, then, with eps = 4 tau beta, what is detected at them differs by at most q times the amplitudes of the sources, in the frequency domain and, for every signal and any length of simulation, in the time domain. q is (D + 2) eps / (1 - (D + 1) eps) in circuits without gain in which light travels in one direction through D columns, and 4 eps / ((1 - rho) (1 - rho - 2 eps)) in those in which light may go round but every connection leads from or to a component that lets at most the fraction rho of the amplitude pass, such as any number of coupled rings as in examples/04. So a grid of wavelengths can be chosen in advance that misses no resonance.", "quantifier": "all circuits, numbers of rings, couplings, losses, lengths, indices, pairs of wavelengths, signals, time steps and lengths of simulation", "why_tests_cant": "a bound between any two wavelengths, for all circuits", "anchors": ["photontorch/components/waveguides.py:Waveguide.set_S", "photontorch/components/mzis.py:Mzi.set_S", "photontorch/networks/network.py:Network.initialize", "photontorch/networks/network.py:Network.forward"]}
{"id": "C155", "title": "Circuits tolerate small deviations of their components", "statement": "Let the components of a closed circuit, to any nesting depth, be replaced by others of the same kind and delay, with at most four ports, the entries of whose scattering matrices are at most delta away. Circuits wired directly from components can then be built as before. With eps = 4 delta, what is detected changes by at most q times the amplitudes of the sources, in the frequency domain and, for every signal and any length of simulation, in the time domain. q is (D + 2) eps / (1 - (D + 1) eps) in circuits without gain in which light travels in one direction through D columns, 4 eps / ((1 - rho) (1 - rho - 2 eps)) in circuits of components without gain, not nested, in which every connection leads from or to a component that lets at most the fraction rho of the amplitude pass; and in every closed circuit that can be simulated, results in the frequency domain at finitely many wavelengths change at most in proportion to small delta, whatever the number of ports. delta is |change of phase| + 2 pi |length (change of neff) / wl0| + ln(10) / 20 length |change of loss| for a Waveguide, |change of phi| + |change of theta| + 2 pi |length (change of neff) / wl0| for an Mzi, and the square root of the change of coupling or reflectivity for couplers and mirrors, at every wavelength. So small steps of training and small errors of fabrication have small effects.", "quantifier": "all circuits, nested to any depth; all parameters, deviations, wavelengths, signals, time steps and lengths of simulation", "why_tests_cant": "all circuits and all deviations at once; a bound, not samples", "anchors": ["photontorch/networks/network.py:Network.initialize", "photontorch/networks/network.py:Network.forward", "photontorch/components/waveguides.py:Waveguide.set_S", "photontorch/components/mzis.py:Mzi.set_S", "photontorch/components/directionalcouplers.py:DirectionalCoupler.set_S", "photontorch/components/mirrors.py:Mirror.set_S"]}
{"id": "C156", "title": "Circuits tolerate small deviations of lengths and indices", "statement": "As C155, for components whose delays may be different, so for deviations of all parameters of Waveguide and Mzi, lengths, group indices and reference wavelengths included: with delta the largest over the wavelengths of the change of phase (phi and theta for an Mzi) plus 2 pi / wl times the change of optical length plus, for waveguides, ln(10) / 20 times the change of loss * length, the bounds of C155 for circuits without gain hold in the frequency domain without any condition on delays, and in the time domain if the delays, rounded to time steps, stay the same. The same holds of the other components, delta being for DirectionalCouplerWithLength the root of the change of coupling plus the change of phase plus ln(10) / 20 times the change of loss * length, for RealisticDirectionalCoupler the largest change of its coupling angle over the wavelengths, for GratingCoupler the largest of the changes of R and R_in and the root of the change of Tmax, for LinearSoa the change of amplification and for Mmi the largest change of an entry of its weights. Components that differ in their delays only give exactly the same results in the frequency domain, and in the time domain as long as their delays in time steps are the same, in every circuit of these components that can be simulated.", "quantifier": "all closed circuits, nested to any depth (not nested for resonant ones); all parameters, deviations, wavelengths, signals, time steps and lengths of simulation", "why_tests_cant": "all circuits and all deviations at once; a bound, not samples", "anchors": ["photontorch/networks/network.py:Network.initialize", "photontorch/networks/network.py:Network.forward", "photontorch/networks/network.py:Network._simulation_buffer", "photontorch/components/waveguides.py:Waveguide.set_S", "photontorch/components/waveguides.py:Waveguide.set_delays", "photontorch/components/mzis.py:Mzi.set_S", "photontorch/components/mzis.py:Mzi.set_delays"]}
{"id": "C157", "title": "Detected powers are as robust as detected fields", "statement": "Let a closed circuit without gain and another one detect fields that differ by at most q times the amplitudes of the sources, as by C149 to C153 for rounded components and by C155 and C156 for components that deviate from their design. Then the powers that forward returns by default (power=True) differ, summed over the detectors, by at most q (2 + q) times the power of the sources; in the time domain detected energies, summed over detectors and time steps up to any time, differ by at most q (2 + q) times the energy sent in up to then.", "quantifier": "all closed circuits of components without gain, nested to any depth; all other circuits with close fields; all signals, environments and lengths of simulation", "why_tests_cant": "all circuits and all signals at once; a bound, not samples", "anchors": ["photontorch/networks/network.py:Network.forward", "photontorch/networks/network.py:Network.initialize"]}
