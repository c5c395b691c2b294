p("C60", "A start time can be combined with a number of steps",
  "With num_t and dt (or samplerate) supplied, every start time t0 is accepted and the grid is t0, t0+dt, ... (Violated: t0 is compared with the unused default t1 = 1e-12, so every t0 > 1e-12 is rejected with ValueError.)",
  "all start times, steps and counts", "unbounded argument space", ENV + ":Environment.__init__")
p("C61", "Well-formed networks are accepted",
  "A network whose connections join existing, different free ports of its components, with usable component names and external ports numbered 0..k-1 on different ports, is accepted, and its port order is a permutation of its ports.",
  "every network", "unbounded networks", NET + ":Network._set_buffers", NET + ":Network.set_C", CMP + ":Component._set_buffers")
p("C62", "A failed initialization leaves the network usable as before",
  "If initialize() raises in some environment, a later simulation in the environment of the last successful initialization gives the same result as before. (Violated: num_mc and the delays are overwritten before the solve raises, so a later call without gradients in the old environment mixes old matrices with new delays and fails.)",
  "all networks, parameters and histories", "histories of calls", NET + ":Network.initialize", NET + ":Network.forward")
p("C64", "A coupler with length is a coupler with waveguides",
  "DirectionalCouplerWithLength scatters like a DirectionalCoupler followed by a Waveguide of the same length, loss, neff, wl0, ng and phase, at every wavelength. (Violated: the propagation phase is left out, neff, wl0, ng and the wavelength have no effect on its scattering matrix; equality holds only where neff(wl)*length/wl is an integer.)",
  "all parameters and wavelengths", "real-valued parameters", "photontorch/components/directionalcouplers.py:DirectionalCouplerWithLength.set_S")
p("C65", "Passive components never amplify",
  "With parameters in their documented ranges no passive component emits more power than it receives, at any wavelength. (Violated by GratingCoupler: R and R_in are used as amplitudes and the power transmission is not reduced by the reflection, so that with Tmax = 1 and R > 0 light at the centre wavelength is amplified.)",
  "all parameters in range, all wavelengths and fields", "real-valued parameters", "photontorch/components/*.py:set_S")
p("C63", "Amplifiers with memory do not reflect",
  "Light entering the input port of a Soa or AgrawalSoa leaves through its output only. (Violated: the action copies the incoming field to the outgoing field of the input port, so all of the incoming light is also reflected, in every circuit.)",
  "every circuit, signal and rate equation", "unbounded circuits and signals", "photontorch/components/soas.py:BaseSoa.action")
p("C67", "Simulations with active components solve the nonlinear circuit equations",
  "For a network with active components, forward() returns for every step, wavelength and batch the waves at the detectors of the (essentially unique) solution of the circuit equations, in which the outgoing waves of every active component are its own action applied to the scattered delayed incoming waves at that time.",
  "every network, action, input and number of steps", "unbounded networks and histories", NET + ":Network.forward", NET + ":Network.step", NET + ":Network.action")
p("C68", "The gain of a Soa never exceeds its amplification",
  "In every circuit and at every time the power gain of a Soa is at most its amplification. (Violated whenever the startup time is not a multiple of dt: the state is increased once too often; the final gain is amplification^(ceil(startup/dt)*dt/startup).)",
  "all amplifications, startup times, time steps, circuits and inputs", "unbounded time", "photontorch/components/soas.py:Soa.dhdt", "photontorch/components/soas.py:BaseSoa.action")
p("C69", "Bounded parameters can be trained",
  "Whatever value a BoundedParameter is created with, some finite change of its weights moves its value to any given other value strictly between the bounds. (Violated at the bounds: the weight is infinite there, and no sequence of finite updates ever changes the value.)",
  "all data, bounds and update sequences", "unbounded histories", NN + ":BoundedParameter._inverse_sigmoid")
p("C70", "Bits can be given as any sequence",
  "BitStreamGenerator accepts bits given as a list, a tuple or an array of integers or booleans and produces the stream of those bits. (Violated: lists and tuples are always rejected with AttributeError, because their dtype is looked up.)",
  "all bit sequences and rates", "unbounded sequences", NN + ":BitStreamGenerator.__call__")
p("C71", "The cutoff of a bit stream is always valid",
  "Whatever the (natural) bit rate, sample rate and cutoff frequency, the refined rate at which a bit stream is filtered is high enough: butter is never given a cutoff at or above the Nyquist frequency, and the stream has one sample per sample period: the value at that time of the held bits filtered with the coefficients of butter.",
  "all rates and cutoffs", "unbounded rates", NN + ":BitStreamGenerator.__call__")
p("C72", "Rates given to a call win over the environment, which wins over the constructor",
  "The bit rate and the sample rate used by BitStreamGenerator and the losses are the keyword argument of the call if given, otherwise that of the current environment if there is one with a rate, otherwise that of the constructor.",
  "all combinations", "combinations of three sources", NN + ":BitStreamGenerator.__call__", NN + ":_Loss")
p("C73", "Short signals can be detected",
  "A detector accepts power signals with any number of time steps. (Violated: signals with at most `order` steps are rejected with IndexError.)",
  "all signals and orders", "unbounded lengths", "photontorch/detectors/lowpassdetector.py:lfilter")
p("C74", "Without noise a Photodetector is a LowpassDetector",
  "When the random numbers are zero, Photodetector gives the same result as LowpassDetector with the same responsivity, cutoff and order, for power and amplitude signals. (Violated for amplitudes with exactly two time steps, which are squared twice, and for powers that are negative somewhere, for which Photodetector gives nan.)",
  "all signals and parameters", "unbounded lengths", "photontorch/detectors/photodetector.py:Photodetector.forward")
p("C66", "Whole circuits behave as their components say",
  "A circuit of basic components, nested to any depth and wired with usable names and every port used at most once, is simulated as the circuit equations whose scattering matrix and delays are those of its basic components; consequently circuits of passive components never emit more energy than they receive, circuits of lossless components conserve power in the frequency domain, and circuits of reciprocal components are reciprocal.",
  "every circuit, nesting depth, parameters, environment and input", "unbounded nesting, real-valued parameters", NET + ":Network.set_S", NET + ":Network.set_delays", NET + ":Network.initialize", NET + ":Network.forward")
p("C75", "Feed-forward circuits can always be simulated, and are unitary if lossless",
  "A fully terminated circuit through which light travels in one direction can be initialized in every environment (no singular matrix); with N sources at the front, N detectors and lossless components it maps source amplitudes to detector amplitudes by a unitary N x N matrix at every wavelength.",
  "every feed-forward circuit", "unbounded circuits", NET + ":Network.initialize", NET + ":Network.forward")
p("C76", "Reck networks are universal",
  "For every N >= 2, every unitary N x N matrix U and every wavelength there are phases phi, theta of the Mzi components and phases of the lossless waveguides such that ReckNxN(N) built of them and terminated multiplies the vector of source amplitudes by U, whatever the lengths and refractive indices of the components are; conversely every matrix a Reck network of lossless reflection-free components realizes is unitary.",
  "every N, unitary matrix, wavelength and set of fixed component parameters", "continuum of matrices, unbounded sizes", "photontorch/networks/reck.py:ReckNxN", "photontorch/networks/reck.py:_ReckNxN", "photontorch/components/mzis.py:Mzi.set_S", NET + ":Network.forward")
p("C77", "Attributes hold what was assigned last",
  "After any sequence of successful assignments to attributes of a Module (parameters, buffers, bounded parameters, modules, other values), reading an attribute gives the value assigned to it last. (Violated: once an attribute has held a BoundedParameter after a Buffer, assigning a Buffer to it again succeeds but the bounded parameter keeps being read.)",
  "all sequences of assignments", "unbounded histories", NN + ":Module.__setattr__")
p("C78", "The graph of a network shows its components and links",
  "graph(network) has one node per component that is mentioned in a connection and one edge per connection between components, and nothing else; every node can be given its label. (Violated: the port numbers of external connections become nodes and edges, too.)",
  "every network", "unbounded networks and wirings", "photontorch/networks/visualize.py:graph")
p("C79", "An Mmi transmits by the weights it was given",
  "Mmi accepts a real or complex matrix as well as a pair of real and imaginary parts (first index real|imag), as arrays and tensors, and transmits weight[i, j] between left port i and right port j in both directions. (Violated: three-dimensional arrays always raise ValueError; three-dimensional tensors with one matrix are used for both parts, those with three or more fail only when the network is initialized.)",
  "all shapes and weights", "unbounded sizes, real-valued weights", "photontorch/components/mmis.py:Mmi.__init__", "photontorch/components/mmis.py:Mmi.set_S")
p("C80", "Power ratios stay between 0 and 1",
  "Couplers and mirrors reject ratios outside of [0, 1], represent ratios in [0, 1] exactly, and stay lossless during every training. (Violated: DirectionalCoupler with trainable=False accepts every number.)",
  "all ratios and sequences of optimizer updates", "real-valued parameters, unbounded histories", "photontorch/components/directionalcouplers.py:DirectionalCoupler.__init__", "photontorch/components/mirrors.py:Mirror.__init__", NN + ":BoundedParameter")
p("C81", "The delay of a component and its dispersion agree",
  "For every component with a length, an effective and a group index the scattering matrices at two wavelengths differ by the phase 2 pi (f1 - f2) tau, where tau is the delay used in the time domain; at the reference wavelength the phase is that of the effective index. (Violated by DirectionalCouplerWithLength, which has a delay but scatters all wavelengths alike.)",
  "all parameters and pairs of wavelengths", "real-valued parameters", "photontorch/components/waveguides.py:Waveguide.set_S", "photontorch/components/mzis.py:Mzi.set_S", "photontorch/components/directionalcouplers.py:DirectionalCouplerWithLength.set_S")
p("C82", "Passive circuits settle to the frequency-domain response",
  "With constant sources, the detected fields of every fully terminated passive circuit in which no oscillation persists by itself converge, as the simulation gets longer, to the result of the simulation in the frequency domain, which is then well-defined. Circuits through which light travels in one direction, and circuits in which every component with a delay absorbs, are of this kind.",
  "every passive circuit, every time step, every source amplitude", "limit over time, unbounded circuits", NET + ":Network.forward", NET + ":Network.initialize")
p("C83", "A modulated source is transmitted like light of the shifted wavelength",
  "If the delays of all components are multiples of dt and their dispersion agrees with their delay, a source at one wavelength modulated with the frequency difference to another wavelength settles to the frequency-domain response at that other wavelength, modulated by the same frequency.",
  "every passive circuit and every pair of wavelengths", "limit over time, real-valued wavelengths", NET + ":Network.forward", "photontorch/components/waveguides.py:Waveguide.set_S", "photontorch/components/waveguides.py:Waveguide.set_delays")
p("C84", "A Soa never attenuates",
  "Amplifications below one are rejected, and in every circuit and at every time the power gain of a Soa is at least one. (Violated after training: the amplification is an unbounded parameter.)",
  "all amplifications, startup times, circuits, inputs and trainings", "unbounded time and histories", "photontorch/components/soas.py:Soa.__init__", "photontorch/components/soas.py:Soa.dhdt", "photontorch/components/soas.py:BaseSoa.action")
p("C85", "Circuits whose loops absorb can always be simulated",
  "A fully terminated passive circuit in which light coming back to where it was has been absorbed in part can be initialized in every environment (no singular matrix, whatever the delays, the time step and the domain) and settles. In particular, ring networks of every even size and capacity made of lossy components.",
  "every circuit, environment, size and parameter", "unbounded circuits", NET + ":Network.initialize", NET + ":Network.forward", "photontorch/networks/rings.py:RingNetwork")
p("C86", "Arguments of a detector call override the environment, which overrides the constructor",
  "A call of a LowpassDetector or Photodetector with keyword arguments inside an environment gives the same result as a detector constructed with the values in effect (argument of the call, else sample rate of the environment, else value of the constructor), whenever the cutoff in effect is at most half the sample rate in effect, and ValueError otherwise. (Violated: the constructor compares the cutoff with its own sample rate, 160e9 by default, even if that of the environment will be used, so LowpassDetector(cutoff_frequency=100e9) always raises.)",
  "all combinations of arguments, environments and signals", "unbounded argument space", "photontorch/detectors/lowpassdetector.py:LowpassDetector.__init__", "photontorch/detectors/lowpassdetector.py:LowpassDetector.forward", "photontorch/detectors/photodetector.py:Photodetector.forward")
p("C87", "Clements networks span the unitary group exactly when capacity >= N",
  "Every unitary matrix is realized by a ClementsNxN of capacity at least N with suitable phases of its Mzis and of the waveguides of its last layer, whatever its other parameters are; with a capacity below N (at least 2) some unitary matrix (the reversal of the modes) is realized by no choice of lossless components (\"to span the full unitary space one needs capacity >=N\").",
  "all N, capacities, unitary matrices and wavelengths", "unbounded sizes, continuum of matrices; the second half says that no parameters exist", "photontorch/networks/clements.py:ClementsNxN.__init__", "photontorch/networks/clements.py:_Capacity2ClementsNxN.__init__", "photontorch/networks/clements.py:_MixingPhaseArrayClements.__init__")
p("C88", "A module and its submodules are where their device attribute says",
  "After to(device), cpu() or cuda(i) every tensor of the module and of all its submodules is on that device and every one of their device attributes says so, nothing else moves; terminating a network leaves it on its device. (Violated: to(dtype) sets the device to None, after which is_cuda and terminate raise AttributeError; Network.terminate of a network on a gpu returns a network that says and has its own buffers on the cpu while containing parts on the gpu.)",
  "all trees of modules and devices", "unbounded nesting and sharing of modules; needs a gpu to be run", NN + ":Module.to", NN + ":Module.is_cuda", NN + ":Module.cuda", NET + ":Network.terminate")
p("C89", "The ring filters of the example notebooks have their textbook response",
  "For all waveguides and couplings the all-pass filter built with the links of the notebook detects x y (t - z) / (1 - t z) times the source amplitude (x, y, z the amplitudes of the input, output and ring waveguide, t = sqrt(1 - coupling)) in the frequency domain, and in the time domain the exact sum over the round trips; the add-drop filter detects -sqrt(k1 k2) z1 / (1 - t1 t2 z1 z2) at its drop port, (t1 - t2 z1 z2) / (1 - t1 t2 z1 z2) at its pass port and nothing at its add port. Initialization fails exactly if the denominator vanishes, which needs a lossless uncoupled (or amplifying) ring.",
  "all lengths, losses, indices, couplings, wavelengths, sources and time steps", "continuum of parameters, unbounded time; the notebooks compare one set of parameters by eye", NET + ":Network.link", NET + ":Network.forward", NET + ":Network.initialize", "photontorch/components/waveguides.py:Waveguide.set_S", "photontorch/components/directionalcouplers.py:DirectionalCoupler.set_S")
p("C90", "Detected fields and powers are differentiable in all trainable parameters together, with the derivative of the linearized circuit",
  "If a circuit can be initialized, it can be initialized for all nearby values of its trainable parameters (phases, weights of couplings and reflectivities, amplifications, Mmi weights), and every detected field and power at every time, wavelength and batch is a differentiable function of all of them. The derivative in any direction is what the same circuit detects if, instead of the sources, the changes of the scattering act on the unperturbed waves.",
  "every circuit, point and direction of the parameter space, time domain and frequency domain", "derivatives, unbounded circuits", NET + ":Network.initialize", NET + ":Network.forward", NN + ":BoundedParameter", "photontorch/components/waveguides.py:Waveguide.set_S", "photontorch/components/mzis.py:Mzi.set_S", "photontorch/components/directionalcouplers.py:DirectionalCoupler.set_S", "photontorch/components/mmis.py:Mmi.set_S")
p("C91", "The components respond as their arguments are documented",
  "The power transmission of a GratingCoupler is Tmax at its center wavelength and more than half of it exactly within its 3dB bandwidth, the same in both directions. A RealisticDirectionalCoupler splits light according to the phase 2 kappa + 2 pi dn length / wl that its even and odd mode get out of step, where kappa and dn have the given values, first and second derivatives at the center wavelength; without bend coupling two of them in series are one of the total length. coupling and R are the fractions of power that cross a DirectionalCoupler and are reflected by a Mirror. Delays are ng length / c, for components without a length zero.",
  "all parameters, wavelengths and input fields", "continuum of parameters and wavelengths", "photontorch/components/gratingcouplers.py:GratingCoupler.set_S", "photontorch/components/directionalcouplers.py:RealisticDirectionalCoupler.set_S", "photontorch/components/directionalcouplers.py:DirectionalCoupler.set_S", "photontorch/components/mirrors.py:Mirror.set_S", "photontorch/components/directionalcouplers.py:DirectionalCouplerWithLength.set_delays")
p("C92", "Components defined by the user are accepted exactly if they are consistent",
  "A component whose set_port_order, set_sources_at, set_detectors_at and set_actions_at are consistent (every port has one number and at most one role, actions at all ports or at none) can be constructed, any other raises ValueError. (Violated: the port order is compared with .all() in place of .any(), so that wrong orders pass unless all of the sorted numbers are wrong, and a failing comparison raises NameError.)",
  "all components with at least one port", "unbounded space of components", CMP + ":Component._set_buffers")
p("C93", "An unbalanced interferometer adds two delayed copies of its signal, and so computes the XOR of neighbouring bits",
  "The interferometer of two couplers and two arms built with the links of the notebook detects (sqrt((1-k1)(1-k2)) z2 - sqrt(k1 k2) z1) times the source amplitude in the frequency domain, and in the time domain the same with each arm's copy delayed by its own whole number of steps. If the arms differ by one bit, couplers split evenly and the phases are right, then for every bit stream of at least two bits (one per batch element) the detected power, times four, is the stream of the XOR of each bit with the previous one, so that both MSELoss and BERLoss with a latency of one bit return zero.",
  "all couplings, waveguides, bit rates, numbers of samples per bit, bit streams and batches", "unbounded streams, continuum of parameters; the notebook trains one random stream", NET + ":Network.link", NET + ":Network.forward", NN + ":BitStreamGenerator.__call__", NN + ":MSELoss.forward", NN + ":BERLoss.forward", "photontorch/components/waveguides.py:Waveguide.set_S", "photontorch/components/directionalcouplers.py:DirectionalCoupler.set_S")
p("C94", "A circuit behaves as its named connections say",
  "Take named components and connections 'a:i:b:j' whose ends are the ports of all components, each once. The network can be built. Whatever the order of components and connections, what it detects is the one solution of the equations in terms of the names: the light that enters port i of a left port j of b at the same moment, what leaves a component is its scattering of what entered it its delay ago, and sources emit the channel of the source array given by the order in which the connections mention them. The channels of the result are the detectors in the order of mention. initialize succeeds if light cannot circulate among the memoryless components without input and raises RuntimeError if it can.",
  "all circuits of named basic components, inputs, wavelengths, environments", "unbounded circuits and signals", NET + ":Network.set_C", NET + ":Network.set_S", NET + ":Network.initialize", NET + ":Network.forward", NET + ":Network._get_used_component_names")
p("C95", "A chain of coupled rings has the response of its continued fraction, for every number of rings",
  "The network that the notebook on coupled resonators builds with two long calls of link, for any number n of rings, couplings and waveguides, sends N/M of the source amplitude to the detector 'through', P/M to 'drop' and nothing to 'add', where N and M follow from the transmissions of the couplers and the round trips of the rings by the recursion M' = M - t z N, N' = t M - z N starting from (1, t), and P is the product of all couplings i sqrt(k) and of the half rings on the way. initialize succeeds exactly if M is not zero at any wavelength, which holds for all rings that do not amplify and are lossy or coupled. Without loss the two powers add up to one. The channels are drop, through, add for an odd and add, through, drop for an even number of rings (the notebook takes channel 0 for drop with ten rings, which is the dark port).",
  "all numbers of rings, couplings, waveguides, wavelengths and inputs", "unbounded circuits, continuum of parameters; the notebook plots one example", NET + ":Network.link", NET + ":Network.add_component", NET + ":Network.initialize", NET + ":Network.forward", "photontorch/components/waveguides.py:Waveguide.set_S", "photontorch/components/directionalcouplers.py:DirectionalCoupler.set_S")
p("C96", "Putting components into networks in networks changes nothing",
  "A network may contain networks, which contain networks, to any depth (external ports being declared on basic components, or left undeclared so that they keep the order of the sub-networks). Replace every sub-network by its components under new names, and every connection to a port of a sub-network by a connection to the component port behind it. Then the one-level circuit can be built if and as the network can, both can be initialized or both raise RuntimeError, and with sources emitting the same light by name the detectors receive the same light by name, at all wavelengths in the frequency domain and at all time steps in the time domain. The channels of the network are in the order of its sub-networks, and within them in the order of their components.",
  "all nestings of networks of basic components, names, connections, inputs, wavelengths, environments", "unbounded nesting and circuits; tests compare a few examples", NET + ":Network.set_C", NET + ":Network.set_S", NET + ":Network.set_delays", NET + ":Network.set_port_order", NET + ":Network.initialize", NET + ":Network.forward")
p("C97", "The order in which components and connections are listed only orders the channels",
  "Listing the components in another order, the connections in another order, or a connection with its ends exchanged gives a network that is initialized, or raises RuntimeError, together with the original one, and that detects the same light at every detector, by name, when the sources emit the same light by name, in the frequency domain and in the time domain. Only the order of the channels follows the order in which the connections mention sources and detectors.",
  "all circuits of named basic components, all their listings, inputs, wavelengths, environments", "unbounded circuits and permutations", NET + ":Network._get_used_component_names", NET + ":Network.set_C", NET + ":Network.initialize", NET + ":Network.forward")
p("C98", "Circuits with active components behave as their named connections say",
  "Take named components of any kind, amplifiers with memory included, and connections whose ends are the numbered ports of all components, each once. The network can be built. What it detects, at every step, wavelength and batch element, is the one solution of the equations in terms of the names: what enters a port left the port connected to it; a component scatters what entered it its delay ago (sources, detectors and active components: at least one step ago), adds what it emits and, if it is active, applies its own action to its own ports, whatever the other components are and wherever it is. initialize succeeds if light cannot circulate in no time and raises RuntimeError if it can.",
  "all circuits of named components with any actions, inputs, wavelengths, environments", "unbounded circuits, arbitrary nonlinear actions", NET + ":Network.action", NET + ":Network.set_C", NET + ":Network.initialize", NET + ":Network.forward", NET + ":Network.handle_source", "photontorch/components/soas.py:BaseSoa.action")
p("C99", "An amplifier amplifies wherever it is placed",
  "In any circuit a Soa sends from its output, one step later, the light that entered its input with the power multiplied by amplification to the power min(t, ceil(startup/dt)) dt/startup, independently of everything else in the circuit, and sends nothing back.",
  "all circuits, amplifiers, inputs, wavelengths, time steps", "unbounded circuits, continuum of parameters", "photontorch/components/soas.py:BaseSoa.action", "photontorch/components/soas.py:Soa.initialize", NET + ":Network.action", NET + ":Network.forward")
p("C100", "Putting active components into networks in networks changes nothing",
  "A network whose components are networks, to any depth, that contain active components next to passive ones and sources, is simulated as the network of the components in them. (Violated: the action of a network starts behind its own number of sources, although the slice it gets contains no sources, so that a Soa in a network with a source acts on the ports of the components behind it.)",
  "all nestings, active components, inputs, time steps", "unbounded nesting, arbitrary nonlinear actions", NET + ":Network.action", NET + ":Network.forward")
p("C101", "A simulation does not depend on earlier simulations",
  "In a program with several networks, some of which contain the same component objects, every call of a network returns what it returns in a program that makes only this call, whatever calls of this and other networks in whatever environments were made before, with or without gradient tracking, and whether they succeeded. (Violated: a Soa keeps the environment of the last initialize, also of another network or of a call that raised, while the network without gradient tracking believes to be initialized.)",
  "all networks, shared components, sequences of calls, environments", "unbounded histories of calls", NET + ":Network.initialize", NET + ":Network.forward", CMP + ":Component.initialize", "photontorch/components/soas.py:BaseSoa.action", "photontorch/components/soas.py:AgrawalSoa.initialize")

p("C102", "A sub-network can be replaced by any other with the same response",
  "Two networks of networks with the same connections whose sub-networks respond alike (same light out of the open ports and into the detectors for the same light into the open ports and out of the sources, by name) respond alike themselves; if they have no open ports, the detectors receive the same light in a simulation; and if no light circulates in the sub-networks by itself, initialize succeeds for both or raises RuntimeError for both. In the frequency and in the time domain.",
  "all networks of networks (to any depth), sub-networks, parameters, environments, inputs", "all pairs of circuits inside all surroundings", NET + ":Network.initialize", NET + ":Network.forward", NET + ":Network.step", NET + ":Network.__init__", CMP + ":Component.__init__")
p("C103", "A waveguide can be split in two",
  "Wherever two waveguides of the same kind are connected in series, they can be replaced by one waveguide with the sum of their lengths and phases without any effect on what is detected, in the frequency and in the time domain. (Violated in the time domain: the delay of each waveguide is rounded to time steps, and the rounded delays do not add up.)",
  "all waveguides, networks around them, wavelengths, time steps", "all lengths and time steps; the difference appears for some only", "photontorch/components/waveguides.py:Waveguide.set_S", "photontorch/components/waveguides.py:Waveguide.set_delays", NET + ":Network.initialize", NET + ":Network.forward")
p("C104", "Light arrives at the same time at all outputs of a Clements network",
  "If all interferometers and waveguides of a terminated Clements network delay by the same number of time steps n, what a detector receives is what the sources emitted (capacity + 1) n steps earlier, multiplied by the matrix the network realizes in the frequency domain; nothing arrives earlier or later, whatever the input. In a Reck network light from source j arrives at detector i after (i + j + 1) n steps. Clements networks of equally long components realize every unitary matrix in this sense.",
  "all sizes, capacities, component parameters, delays, time steps, inputs", "unbounded meshes, continuum of parameters and signals", "photontorch/networks/clements.py:ClementsNxN.__init__", "photontorch/networks/clements.py:_Capacity2ClementsNxN.__init__", "photontorch/networks/clements.py:_MixingPhaseArrayClements.__init__", "photontorch/networks/clements.py:_PhaseArray.__init__", "photontorch/networks/reck.py:ReckNxN.__init__", NET + ":Network.initialize", NET + ":Network.forward")

p("C105", "A number of wavelengths is the number of wavelengths, in floating-point arithmetic",
  "In IEEE 754 arithmetic, an environment created with num_wl = N has N wavelengths, equally spaced from wl0 to wl1 up to rounding. (Violated: the number of points is recovered by truncating (wl1 - wl0) / ((wl1 - wl0) / N), which rounding puts below N for N = 51, for instance.)",
  "all numbers, ranges of wavelengths or frequencies", "rounding errors: wrong for scattered values only", ENV + ":_arange", ENV + ":Environment.__init__")
p("C106", "An interval of k time steps has k points, in floating-point arithmetic",
  "In IEEE 754 arithmetic, an environment created with dt = d and t1 = k d (both rounded to floating-point numbers) has k points in time. (Violated for dt = 1e-14, t1 = 23e-14.)",
  "all steps, numbers of steps, intervals", "rounding errors: wrong for scattered values only", ENV + ":_arange", ENV + ":Environment.__init__")
p("C107", "The time step of an environment is the one asked for, in floating-point arithmetic",
  "In IEEE 754 arithmetic, an environment created with dt and num_t has this dt, and one created with bitlength has this bitlength. (Violated: both are computed back from derived numbers.)",
  "all steps, numbers of points, lengths of a bit, starting times", "rounding errors: wrong for scattered values only", ENV + ":Environment.__init__")
p("C108", "Copies are exact whatever the rounding",
  "In IEEE 754 arithmetic, or any other with rounding, copy() of an environment without changes returns an environment with exactly the same attributes, all grids included, for every environment that does not end before it begins; every other one raises ValueError.",
  "all arguments of the constructor, all rounding functions", "rounding errors accumulate in repeated copies unless nothing is recomputed", ENV + ":Environment.copy", ENV + ":Environment.__init__")

p("C109", "Legacy and extra keyword arguments of environments",
  "Environment(...) and copy(...) with legacy keywords (timestep, t_start, wavelength, ...) give the environment with the corresponding new keywords, the legacy one being used if both are given. Any other keyword is an attribute of the environment; a copy has it too, with the value given to copy if there is one, unless its name begins with an underscore.",
  "all combinations of keywords, values and attribute names", "all subsets of keywords, chains of copies", ENV + ":Environment.__init__", ENV + ":Environment.copy")

p("C110", "The printed form of an environment shows what it is",
  "print(env), repr(env) and the html table show every public attribute exactly once, in the order of assignment, the printed table with a colon in the same column for all; numbers are shown with an error of at most 0.05%, strings as literals on one line. Environments that differ are printed differently, the call written by repr creates the environment again, and the html table has one row per attribute. (The last sentence is violated: four digits are shown; the call gives both t and t0, which is rejected; the name is not escaped.)",
  "all environments, names, extra attributes", "all values of all attributes and all characters of names", ENV + ":Environment.__repr__", ENV + ":Environment.__str__", ENV + ":Environment._repr_html_", ENV + ":_Array.__repr__", ENV + ":_Array.__str__")

p("C111", "Complex sources",
  "A complex numpy array (t, w, s, b) drives the sources with its elements, dimensions of size one being broadcast; an array of complex numbers without imaginary parts drives the network exactly as the array of their real parts, whatever its number of dimensions; complex numbers and lists of complex numbers are accepted like real ones. (Violated: a complex number as numpy array without dimensions and complex numbers of python raise ValueError, a real number is accepted.)",
  "all arrays, shapes, numbers of time steps, wavelengths and sources", "all shapes and values", NET + ":Network._handle_source")
p("C112", "The warning about the time step",
  "In the time domain initialize of a terminated network warns if and only if some delay is positive and shorter than half a time step; there is no warning in the frequency domain. Without a warning every positive delay is simulated with at least one step and with an error of at most half a step.",
  "all networks, delays, time steps", "all combinations of delays and steps; rounding near one half", NET + ":Network.initialize")
p("C113", "The gain of an AgrawalSoa follows its rate equation",
  "In every circuit an AgrawalSoa multiplies (the real part of) its delayed input by exp(h/2), where h differs from the solution of the rate equation tc h' = g0 L - h - (P/Psat)(e^h - 1), h(0) = 0, by at most a constant times the time step, the constant not depending on the length of the simulation; with constant input power h tends to the saturated gain like (1 - dt/tc)^n; the gain is between 1 and exp(g0 L), where g0 L = gamma a L (I tc / (e L H W) - N0) in the arguments of the constructor; at the current where this vanishes the amplifier passes all light unchanged, for every time step. (Violated for large time steps or strong light: the amplifier attenuates.)",
  "all circuits, parameters, input signals, time steps", "limits of vanishing time step and long times; all signals", "photontorch/components/soas.py:AgrawalSoa.dhdt", "photontorch/components/soas.py:BaseSoa.action")
p("C114", "The response to a pulse determines everything",
  "In a network without active components the detected fields are, for all source signals, the convolution of the source signals with the fields detected after a unit pulse at each source; and the Fourier sums of the response to a pulse converge to the response that the frequency domain gives at the shifted wavelength.",
  "all networks, delays, signals, times, wavelengths", "all signals of all lengths; a limit", NET + ":Network.forward", NET + ":Network.step", NET + ":Network.initialize")
p("C115", "No energy is lost in time",
  "In a fully terminated circuit of lossless components, after every time step the energy detected so far, the energy that came back to the sources and the energy stored in the components add up to the energy injected; if no light circulates for ever, the detected and returned energy approaches the injected energy once the sources are dark. In Reck and Clements meshes of every size the detected energy alone does.",
  "all lossless circuits, nested to any depth, all delays, time steps and signals; meshes of all sizes", "all circuits and signals; a limit", NET + ":Network.step", NET + ":Network.initialize")
p("C116", "Errors of single steps are not amplified",
  "If every step of a simulation of a circuit of passive components is computed inexactly (from the inexact fields computed before), the detected fields of step t differ from the exact ones by at most the sum of the errors of the steps up to t: errors grow at most linearly with the number of steps and not exponentially.",
  "all passive circuits, delays, time steps, signals, rounding functions", "all numbers of steps, all errors", NET + ":Network.step", NET + ":Network.forward")
p("C117", "Training changes only what is trainable and keeps circuits passive",
  "A component behaves as the arguments of its constructor say, whether or not they are trainable. Whatever is added to the registered parameters, in any number of steps, non-trainable arguments, ports, connections, sources, detectors and delays of a circuit remain; trainable phases, amplifications and weights are shifted by what is added, and the odds of trainable couplings and reflectivities multiplied by its exponential; a network that could be built can be built again; and a passive circuit stays passive, detecting no more energy than is injected. (Violated by Mmi and LinearSoa, whose parameters are not bounded.)",
  "all constructor calls, circuits, histories of training, signals", "all sequences of updates; components nested to any depth", "photontorch/nn/nn.py:BoundedParameter", "photontorch/nn/nn.py:Module.__setattr__", CMP + ":Component.__init__", "photontorch/components/mmis.py:Mmi.__init__")
p("C118", "Drawings show every component and connection once, and only if asked for",
  "graph draws the name of every component exactly once, at its position, in a box whose colour is that of the nearest class of the component (following first base classes) for which a colour is defined; and for every connection exactly one line between the positions of its two ends, with one bend which is half as far from the first end as the second end is, and closer to the second end than three quarters of the distance. With draw=False nothing is drawn. (Violated: the method Network.graph ignores draw.)",
  "all networks with usable component names, classes, layouts and random numbers", "all multigraphs including parallel links and self links, all class hierarchies", "photontorch/networks/visualize.py:graph", "photontorch/networks/visualize.py:_draw_nodes", "photontorch/networks/visualize.py:_draw_edges", NET + ":Network.graph")
p("C119", "Detectors are Butterworth low-pass filters of the power",
  "The current of a detector for constant power approaches responsivity times power exponentially fast; a power modulated harmonically at a frequency f below the Nyquist frequency (with mean, amplitude and phase of its own in every channel) settles to the same modulation, reduced by one factor A and shifted by one phase, where A^2 = 1 / (1 + (tan(pi f/fs) / tan(pi fc/fs))^(2 order)), so that it passes with at least half of its power if and only if f is at most the cutoff fc; a modulation at the Nyquist frequency dies out; and bounded powers give bounded currents, however long the signal.",
  "all orders, sample rates, cutoffs below the Nyquist frequency, responsivities, channel shapes and modulation frequencies; all lengths", "limits; all signals and lengths", "photontorch/detectors/lowpassdetector.py:LowpassDetector.forward", "photontorch/detectors/lowpassdetector.py:lfilter")
p("C120", "The noise of a photodetector is unbiased and as strong as documented",
  "For independent standard normal random numbers, the current of a Photodetector is, at every step and in every channel, normally distributed about the current of the LowpassDetector with the same parameters; its variance is a weighted sum of the variances 4kTB/load + 2q(R p + dark)B of the steps so far, with weights that depend on the filter only and add up to at most one. So the current is right on average, and its variance is at most the largest variance of the noise so far.",
  "all orders, cutoffs below the Nyquist frequency, sample rates, channel shapes, lengths, powers and parameters for which no variance is negative; all probability spaces", "distributions; all lengths", "photontorch/detectors/photodetector.py:Photodetector.forward", "photontorch/detectors/lowpassdetector.py:LowpassDetector.forward")
p("C121", "Scattering matrices consist of numbers",
  "Every component that its constructor accepts has, at every positive wavelength and however it is trained, a scattering matrix of numbers: no nan and no infinity. (Violated: couplings that are not trainable, center wavelengths and bandwidths are not checked. It holds exactly for couplings and reflectivities between 0 and 1, nonzero center wavelengths, and transmissions that are not negative, and for every accepted mirror and trainable coupler.)",
  "all component classes, constructor arguments, wavelengths, histories of training", "all arguments", "photontorch/components/directionalcouplers.py:DirectionalCoupler.set_S", "photontorch/components/waveguides.py:Waveguide.set_S", "photontorch/components/gratingcouplers.py:GratingCoupler.set_S", "photontorch/components/mirrors.py:Mirror.set_S")
p("C122", "Couplings and reflectivities can be trained from any accepted value",
  "For every value of a trainable coupling or reflectivity that the constructor accepts, backpropagation gives its weight a number, namely the derivative of the loss; a step of gradient descent moves the value against it. (Violated at 0 and 1: the gradient is nan for every loss, and the parameter is nan after the first step.)",
  "all accepted values, all differentiable losses", "boundary values; all losses", "photontorch/nn/nn.py:BoundedParameter._sigmoid", "photontorch/components/directionalcouplers.py:DirectionalCoupler.set_S", "photontorch/components/mirrors.py:Mirror.set_S")
p("C123", "Ring networks of width two are chains of coupled rings",
  "RingNetwork(N=2) with directional couplers in the place of the interferometers, terminated with a source and three detectors, responds like a chain of capacity // 2 coupled ring resonators (C95) with a waveguide behind it: the second port gets what the first ring sends back, and what passes all rings leaves at the third port if their number is odd and at the fourth if it is even; the simulation raises RuntimeError exactly if the chain is undamped at a wavelength. In particular the ring network of notebook 08 (capacity 3) detects the same as the add-drop filter of notebook 02 that it recreates, up to the waveguide in front of term_drop.",
  "all capacities at least 2, couplings, waveguides, wavelengths and source signals", "all numbers of rings; exact resonance", "photontorch/networks/rings.py:RingNetwork.__init__", "photontorch/networks/rings.py:_UnclosedRingArray.__init__", "photontorch/networks/rings.py:_MixingPhaseArrayRings.__init__", NET + ":Network.terminate")
p("C124", "The capacity of a mesh is the number of its columns",
  "ClementsNxN and RingNetwork of width N and the given capacity consist of capacity columns of components, each crossed by all N lines (two lines in every interferometer, one in a waveguide), and one column of phase shifters: they have 2 N (capacity + 1) ports. ReckNxN consists of N (N - 1) / 2 interferometers and N phase shifters. (Violated by RingNetwork for even capacities, which has one column more.)",
  "all widths and capacities at least 2", "all sizes", "photontorch/networks/rings.py:RingNetwork.__init__", "photontorch/networks/clements.py:ClementsNxN.__init__", "photontorch/networks/reck.py:ReckNxN.__init__")
p("C125", "Default meshes can be trained to exactly the unitary matrices",
  "ReckNxN(N) and ClementsNxN(N) without further arguments have random trainable phases. Whatever the random numbers and however the phases are trained, the network terminated at both sides is unitary, and light takes N + 1 times the delay of one component to all outputs of ClementsNxN(N); and for every unitary matrix and every wavelength there is one training step after which the network realizes that matrix.",
  "all widths at least 2, random numbers, histories of training, unitary matrices, wavelengths", "all unitary matrices and histories", "photontorch/networks/clements.py:_wg_factory", "photontorch/networks/clements.py:_mzi_factory", "photontorch/networks/clements.py:ClementsNxN.__init__", "photontorch/networks/reck.py:ReckNxN.__init__")
p("C126", "Rings on a bus can be trained to any weight between resonance and anti-resonance",
  "The collection of all-pass rings of notebook 05 (networks in a network) multiplies the light of source i by the transmission of ring i before detector i, for every number of rings; the simulation raises RuntimeError exactly if one of the rings is at a resonance without loss. If the rings lose light, the powers that can be reached by the trainable phases are exactly those between the power at resonance and the power between two resonances, for each ring on its own: no training leads out of this range, and for all weights in the ranges there is one training step after which the collection has them.",
  "all numbers of rings, couplings, lossy ring waveguides, output waveguides, wavelengths, histories of training and weights in the range", "all weights and histories; exact resonance", "photontorch/components/waveguides.py:Waveguide.__init__", "photontorch/components/directionalcouplers.py:DirectionalCoupler.set_S", NET + ":Network.link", NET + ":Network.add_component")
p("C127", "Transmission of bits: when the bit error rate is zero",
  "A BitStreamGenerator drives the source of a waveguide whose detected power goes through a LowpassDetector and BERLoss. The detected power is the transmission of the waveguide times the power of the source, delayed by a whole number of steps; the BER is the fraction of bits for which the current in the middle of the bit, delayed as BERLoss is told, lies on the wrong side of the threshold. For every threshold strictly between zero and the current of an infinitely long one there is a number of samples per bit from which every sequence of bits is received without error; without filter the BER is zero if and only if the threshold lies between these currents.",
  "all bits, batch sizes, wavelengths, waveguides, sample rates and thresholds; all filter orders and cutoff ratios", "all bit sequences; limit of long bits", "photontorch/nn/nn.py:BitStreamGenerator", "photontorch/nn/nn.py:BERLoss", "photontorch/detectors/lowpassdetector.py:LowpassDetector", "photontorch/components/waveguides.py:Waveguide.set_S", NET + ":Network.forward")
p("C128", "Expected bit error rate of a noisy photodetector",
  "If the current is that of a Photodetector, the expectation of the BER is the mean over the bits of the probability that a normal variable lies on the wrong side of the threshold, with the current of the LowpassDetector as mean and the filtered noise variances (C120) as variance. If the noiseless currents keep a distance d from the threshold and the variance of the noise is at most v, it is at most exp(-d^2/(2v)). For the link of C127 this holds with the shot and thermal noise at the current of an uninterrupted one, for every sequence of bits with sufficiently many samples per bit.",
  "all bits, signals, detectors, thresholds and waveguides", "probability distributions; all bit sequences", "photontorch/detectors/photodetector.py:Photodetector", "photontorch/detectors/lowpassdetector.py:LowpassDetector", "photontorch/nn/nn.py:BERLoss", "photontorch/nn/nn.py:BitStreamGenerator")
p("C129", "Refining the time step converges to the circuit in continuous time",
  "Consider a circuit in continuous time: every port emits what its component scatters, of the light that entered k a delay tau_k before, and connections and sources act at once. If no light circulates without delay (in particular if every loop contains a delay), there is exactly one such flow of light for sources with bounded slope, and for every T there is a K such that the time domain simulation with any time step dt not longer than the shortest delay detects this flow up to K dt, at all times up to T. With such a time step the network can be initialized exactly if no light circulates without delay. For a ring on a bus the flow is the light that passed the ring plus the light that went around once, twice, ..., with the delays in seconds.",
  "all terminated circuits of passive components, nonnegative delays, sources with bounded slope, time steps, times, wavelengths", "limit dt -> 0; all circuits and signals", NET + ":Network.initialize", NET + ":Network.forward", "photontorch/components/component.py:Component.initialize", "photontorch/components/waveguides.py:Waveguide.set_delays")
p("C130", "Saving and loading trained components",
  "The state_dict of a component or network, after any training, can be loaded into one built with other initial values for the trainable arguments, trainable or not, which then has the scattering matrix and delays of the saved one at all wavelengths. (False for directional couplers when the one is trainable and the other is not: RuntimeError.) Lengths, losses and indices are not part of the state: components that differ only in them have the same state at any time of the training.",
  "all constructor calls, histories of training of both, networks with distinct names", "all values and histories; pairs of objects", "photontorch/nn/nn.py:Module.__setattr__", "photontorch/components/directionalcouplers.py:DirectionalCoupler.__init__", "photontorch/components/mirrors.py:Mirror.__init__", NET + ":Network.add_component")
p("C131", "One component under several names",
  "If one component is set as several attributes of a network, the network has copies of it (as the documentation says): like components constructed separately, they can be trained to different values, and a saved state of separate components with these names can be loaded. (False: the names stand for one component. Whatever the training, all names behave the same; loading a state with different values raises nothing and the last name decides about all names of the component. The saved state of such a network can be loaded into one with separate components.)",
  "all networks, components, histories of training and saved states", "all histories; silent loss of values", NET + ":Network.add_component", NET + ":Network.__setattr__", "photontorch/components/mirrors.py:Mirror.__init__")
p("C132", "Bit streams with a cutoff follow their bits with the time constant of the filter",
  "The samples of BitStreamGenerator with cutoff_frequency f and filter order 1 are between 0 and 1, and a sample taken a time tau after the last change of the bits differs from the current bit by at most exp(-2 pi f tau), for all combinations of bit rate, sample rate and cutoff, and in spite of the internal change of the sample rate; after a step from 0 to 1 they rise exactly as the filter of order one with its pole at the cutoff. So the BER of the stream is zero for thresholds farther than exp(-2 pi f tau) from 0 and 1, with tau half a bit, and that of the link of C127 for thresholds between the corresponding powers.",
  "all bits, batch sizes, bit rates, sample rates and cutoffs (whole numbers of Hz); all waveguides and thresholds", "all rates and bit sequences; quantitative bound", "photontorch/nn/nn.py:BitStreamGenerator.forward", "photontorch/nn/nn.py:BERLoss")
p("C133", "Bit streams and losses with the rates of an environment, in floating-point arithmetic",
  "Within Environment(samplerate=S, bitrate=B, num_t=n), BitStreamGenerator, MSELoss and BERLoss (called without rates) give what they give in exact arithmetic for the rates S and B. (False in binary64 arithmetic: env.samplerate is computed as 1 / env.dt, and at 252 GHz and 28 GHz, where half a bit is rounded up to five samples, it comes out below 252 GHz and half a bit is taken as four samples. True for bit streams, for BERLoss and MSELoss unless the latency or warmup in samples is, up to rounding errors, half a sample off a whole number; with a cutoff frequency up to the last digits of the normalized frequency.)",
  "all whole rates up to 2^47 Hz, numbers of time steps, latencies, warmups, bits, cutoffs and signals", "all rates; rounding errors at few of them", "photontorch/nn/nn.py:BitStreamGenerator.forward", "photontorch/nn/nn.py:MSELoss", "photontorch/nn/nn.py:BERLoss", "photontorch/environment/environment.py:Environment.__init__")
p("C134", "Delays in time steps, in single precision",
  "In Environment(dt=d, num_t=n), a component with group index ng and length L delays the light by ng L / (c d) time steps, rounded to the nearest whole number (half up), and the buffer is exactly as long as the longest delay requires. (False in the arithmetic of the code, binary64 for the time step and ng L / c, binary32 for the tensors: with d = 1 ps, a waveguide of 3.05 mm with ng = 2.99792458, 30.5 time steps, delays by 30; a delay of 8388609 time steps becomes one of 8388610. True, up to a million time steps, unless the number of time steps is, up to rounding errors, half-integer; the claim about the buffer is always true.)",
  "all time steps, numbers of time steps, group indices and lengths; all lists of delays", "all values; rounding errors at few of them", NET + ":Network.initialize", NET + ":Network._simulation_buffer", "photontorch/components/waveguides.py:Waveguide.set_delays", "photontorch/components/mzis.py:Mzi.set_delays", "photontorch/components/directionalcouplers.py:DirectionalCouplerWithLength.set_delays")
p("C135", "Circuits that do not amplify settle, whatever light keeps circulating in them",
  "If a terminated circuit of components that do not amplify can be initialized in the frequency domain, it can be initialized in every environment, and with constant sources the detected fields of the time domain approach those of the frequency domain, for every time step. No damping is required: resonances without loss that do not coincide with the wavelength do no harm. The squared deviations of the detected fields, summed over all detectors and all time steps of a simulation of any length, are at most the energy inside the components in the steady state (power entering each port times its delay). The same holds with modulated sources and the fields at the shifted wavelength (C83), and the Fourier sums of the response to a single pulse converge to the spectrum at every wavelength where the frequency domain can be initialized. So the ring on a bus approaches the textbook formula (C89) whenever that has a value, even if the coupler does not couple.",
  "all terminated circuits of components that do not amplify, time steps, lengths of simulations, wavelengths, sources", "limit of long simulations; all circuits", NET + ":Network.initialize", NET + ":Network.forward", "photontorch/components/component.py:Component.initialize")
p("C136", "The Michelson interferometer cavity",
  "The network of the example notebook 03 (four arms with mirrors around a directional coupler) with any reflections, arm lengths, losses and coupling detects, in the frequency domain, the amplitudes of the closed formula whose denominator counts the round trips between the arms; the detectors come in the order of the links: east, north, south. The denominator does not vanish if the parameters are physical and the mirrors of the north and the east arm (or of the west and the south arm) are not perfect. If an arm amplifies so much that it vanishes, and the light of the source takes part in the resonance, the initialization raises RuntimeError. In the time domain, with every time step, the detected fields of a physical interferometer approach the formula. The aim of the training in the notebook, the same power at all three detectors, can be met by choice of the mirrors, for every power up to (3/2) q / (2 + q) of the source, with q = |n^2 + e^2|^2 for the amplitudes n and e of the north and the east arm.",
  "all reflections, couplings, waveguides, wavelengths, time steps and sources", "all parameters; limit of long simulations; existence of parameters", NET + ":Network.forward", NET + ":Network.link", "photontorch/components/mirrors.py:Mirror.set_S", "photontorch/components/directionalcouplers.py:DirectionalCoupler.set_S")
p("C137", "Spectra are periodic in the frequency",
  "If the delays of all components of a circuit are multiples of a time T, and the components disperse as their delays require, then every simulation of the circuit, in the time or the frequency domain, gives the same result at two wavelengths whose optical frequencies differ by a multiple of 1/T. The resonances of a ring lie at equal distances in frequency, the inverse of its round trip time, and nowhere else. The power behind a ring on a bus repeats with the free spectral range of the ring, whatever the lengths of the bus.",
  "all circuits, wavelengths, environments, sources", "all wavelengths and circuits", NET + ":Network.initialize", "photontorch/components/waveguides.py:Waveguide.set_S", "photontorch/components/waveguides.py:Waveguide.set_delays", "photontorch/components/mzis.py:Mzi.set_S")
p("C138", "Networks may be built in any way",
  "A network of components and networks, nested to any depth, has the same connection matrix, port order and marked ports whether it is made with dictionaries (Network(components, connections)), from the inside to the outside, or with with-blocks: with parts that are named in their constructor or assigned to attributes, with pt.link or nw.link, with one call per chain, in which case the network is rebuilt after every call while its ports are not yet all numbered. The program raises nothing, the network that was current before is current afterwards, and no other network changes. Whatever else the program does, link and assignments on a network whose parts are linked do to it, and raise, what C12, C13 and C23 say; a part that has no connections itself yet is refused with AttributeError, and so is pt.link outside of all with-blocks; a network that was linked as a part under one name is refused under another one with ValueError.",
  "all nested networks with different usable names, existing ports and external ports numbered from 0; all mixtures of styles; all states of the program before", "all nestings and all programs; intermediate states", NET + ":Network.link", NET + ":Network.__enter__", NET + ":Network.__exit__", NET + ":current_network", NET + ":link", CMP + ":Component.__init__", NET + ":Network.__init__")
p("C139", "Networks stay up to date",
  "Whenever a program that builds networks has run without exceptions, the buffers of every network are those of a network with its connections and its parts as they are now. (False: when a network that is already a part of a linked network is extended by link, the outer network is not rebuilt and keeps buffers for the former number of ports. True after every link on a network that is not a part of another one.)",
  "all programs of with-blocks, assignments and link", "all programs; stale state", NET + ":Network.link", NET + ":Network._set_buffers", NET + ":Network.num_ports")
p("C140", "A list of terms closes every port",
  "nw.terminate(terms) with a list of one-port terms, one per free port, returns a network without free ports, or raises. (False: the terms are collected in a dictionary by their names; of terms with the same name only the last is connected, the other ports stay open and nothing is raised. What holds: the i-th different name is connected to free port i and stands for the last term of that name; the result is fully terminated exactly if the names differ; a term without a name raises TypeError; a term that is called like the network raises.)",
  "all networks and lists of terms", "all lists; silent loss of terms", NET + ":Network.terminate")
p("C141", "The printed form of components",
  "repr and str of a component are its class, followed by its name if it has one; they determine class and name, whatever characters the name contains. The components of a network print differently.",
  "all classes, names and networks", "all pairs of components", CMP + ":Component.__repr__", CMP + ":Component.__str__", NET + ":Network._set_buffers")
p("C142", "Constant sources lead to the result of the frequency domain",
  "With constant sources, the detected fields of a terminated circuit approach the result of the frequency domain, if the circuit can be initialized there. (False for circuits with gain: a ring on a bus with a gain of 20 dB per round trip has a finite result in the frequency domain, while its simulation in the time domain exceeds every bound. What holds: the exact transient of the ring on a bus with any loss or gain, and that it approaches the result of the frequency domain exactly if less than all light is left after a round trip, or no light enters the ring.)",
  "all couplings, losses, gains, lengths, wavelengths, step sizes and simulation lengths", "limits of arbitrarily long simulations", NET + ":Network.initialize", NET + ":Network.forward", "photontorch/components/waveguides.py:Waveguide.set_S")
p("C143", "Rings as weights of a sum",
  "The readout of the example notebook 05, a network of networks in which n rings on buses lead to a combiner with complex weights, detects in the frequency domain the sum of the n inputs, each multiplied by the amplitude its ring passes and by its weight. It can be initialized except at a resonance without loss of one of the rings, where it raises RuntimeError. If the combiner adds amplitudes (weights of absolute value 1) and rings and waveguides do not amplify, at most n times the power of the sources is detected, and n equal inputs are indeed detected with n times their power: such a combiner is not passive. In the time domain, if no ring has as much gain as to sustain itself, constant sources lead to the same sum with every time step. Training the phases of the rings reaches every power between two that can be detected.",
  "all numbers of rings, couplings, waveguides, weights, wavelengths and sources", "all sizes and parameters; existence of phases", NET + ":Network.forward", NET + ":Network.link", "photontorch/components/mmis.py:Mmi.set_S", "photontorch/components/waveguides.py:Waveguide.set_S", "photontorch/components/directionalcouplers.py:DirectionalCoupler.set_S")
p("C144", "Waveguides in floating-point arithmetic",
  "The amplitude that set_S computes for a waveguide in double and single precision is that of its formula, up to single precision and 2^-47 of the phase that light picks up in the waveguide (so up to single precision for waveguides of up to meters), whether the phase is the one given to the constructor or a trained one; and a waveguide without gain does not amplify. (The last clause is false: Waveguide(length=0, phase=1/8192) amplifies, since the cosine is rounded to 1 and the sine is not rounded to 0. What holds: the gain is a rounding error, bounded as above.)",
  "all lengths, losses, indices, wavelengths and phases of usual size; all library functions accurate to the last digits", "all floating-point inputs", "photontorch/components/waveguides.py:Waveguide.set_S", "photontorch/components/waveguides.py:Waveguide.__init__")
p("C145", "Bounded parameters, couplers and mirrors in single precision",
  "A BoundedParameter made of data that its constructor accepts represents that data up to single precision of its bounds, and lies within its bounds. A coupling or reflectivity stays between 0 and 1 whatever its weight is trained to, and the coupler or mirror splits the power as the ratio it was given says, up to single precision. (The first clause is false for general bounds: BoundedParameter(torch.tensor(0.3), bounds=(0.1, 0.3)) is nan, and BoundedParameter(torch.tensor(0.1), bounds=(-1, 0.1)) represents a number above its bound. It is true for bounds 0 and 1, and for general bounds up to rounding errors unless it is nan.)",
  "all bounds, data and weights; all library functions accurate to the last digits", "all floating-point inputs", "photontorch/nn/nn.py:BoundedParameter", "photontorch/components/directionalcouplers.py:DirectionalCoupler.set_S", "photontorch/components/mirrors.py:Mirror.set_S")
p("C146", "Gradients accumulate",
  "Calling a network only computes: in every program of calls, loss.backward(), optimizer.zero_grad() and optimizer.step(), the gradients of the parameters are the sums of the gradients of all losses since the last zero_grad(), and steps use these. (False: forward calls initialize, if gradients are enabled or the environment changed, and initialize calls self.zero_grad(). So of several passes through the same parameters only the last one counts, and looking at the network in another environment between backward and step, even without gradients, makes the step void. True for programs that call networks only while the gradients of their parameters are zero, or in the same environment without gradients; in particular for the training loop of the examples, with any number of calls before backward.)",
  "all programs of training, networks, environments and losses", "all programs; silently wrong training", NET + ":Network.initialize", NET + ":Network.forward")
p("C147", "Mzis in floating-point arithmetic",
  "What Mzi.set_S computes, with phases in double precision and everything else in single precision, is the matrix of an Mzi up to single precision and a small fraction of the phase light picks up in the arms, and an Mzi never amplifies. (The latter is false: the cosine of a small theta is rounded to 1, its sine is not rounded to 0. True: the amplitude of the light leaving an Mzi differs from that entering it by a fraction of at most 2^-17, however long the arms are and however wrong their phases; so n Mzis in a row change it at most by the factors (1 +- 2^-17)^n.)",
  "all phi up to 500, theta up to 1000, lengths, indices, wavelengths and incoming light", "all numbers; error bounds", "photontorch/components/mzis.py:Mzi.set_S")
p("C148", "Random bits can be reproduced by their seed",
  "A call of a BitStreamGenerator with a seed gives the stream that a new generator with that seed gives, whatever calls were made before. (False for the seed that the constructor was given: the generator of random numbers goes on where earlier calls stopped, so two equal calls g(100, seed=1), g(100, seed=1) differ if g was made with seed=1, and do not if it was made with any other seed. True for all other seeds, which also leave the generator alone. Without a seed, calls give consecutive pieces of the random bits of the constructor's seed; calls that fail use up bits, calls with given bits do not. Whole numbers from -1 to 2^32 - 1 are accepted as seeds, -1 being the same as 0.)",
  "all generators, histories of calls, seeds, rates, cutoffs and environments", "all histories of calls", NN + ":BitStreamGenerator.__init__", NN + ":BitStreamGenerator.forward")
p("C149", "Small errors of components lead to small errors of circuits",
  "If a circuit can be simulated in the frequency domain, then so it can with scattering matrices that differ little, as by rounding, and what is detected differs in proportion: by at most kappa^2 eps / (1 - kappa eps) of the amplitude of the sources, if light is enhanced in the circuit by at most kappa and the matrices are wrong by eps. kappa is 1 / (1 - rho) if every component passes at most the fraction rho. In circuits without gain in which light travels in one direction through at most D columns of components, errors only add up: the bound is (D + 2) eps / (1 - (D + 1) eps). So a mesh of Mzis and waveguides computed in double and single precision gives the result of exact arithmetic up to D + 2 times single precision (and small fractions of the phases).",
  "all circuits, nested to any depth, of any size; all roundings, sources, wavelengths and batches", "all circuits and all floating-point inputs; error bounds", NET + ":Network.initialize", NET + ":Network.forward", "photontorch/components/mzis.py:Mzi.set_S", "photontorch/components/waveguides.py:Waveguide.set_S")
p("C150", "Small errors of components lead to small errors of simulations in time",
  "If a circuit of components is simulated in time with scattering matrices that are wrong by eps, as by rounding, then at any time step the energy of the error of what was detected so far is at most q^2 times the energy the sources sent so far, however long the simulation is, however light is delayed and whatever signals are sent: errors do not accumulate with time. q is kappa^2 eps / (1 - kappa eps) if light is enhanced over time by at most kappa, eps / ((1 - rho) (1 - rho - eps)) if every component passes at most the fraction rho, and (D + 2) eps / (1 - (D + 1) eps) in circuits without gain in which light travels in one direction through D columns; so for meshes of Mzis and waveguides computed in double and single precision it is D + 2 times single precision.",
  "all circuits, nested to any depth, of any size; all delays, time steps, lengths of simulation, roundings, signals, wavelengths and batches", "all circuits, signals and times; error bounds", NET + ":Network.initialize", NET + ":Network.forward", NET + ":Network.step", "photontorch/components/mzis.py:Mzi.set_S", "photontorch/components/waveguides.py:Waveguide.set_S")
p("C151", "Reck and Clements networks in floating-point arithmetic",
  "A ClementsNxN of two or more modes and any capacity of at least 2, of Mzis and waveguides computed in double and single precision, and terminated with sources and detectors, gives the results of exact arithmetic up to capacity + 4 times single precision (and small fractions of the phases), in the frequency domain at every wavelength and in the time domain for every signal and length of simulation. The number of modes does not matter. For a ReckNxN of N modes the factor is 2 N + 2.",
  "all numbers of modes, capacities, phases, lengths, wavelengths, signals and time steps", "meshes of every size; error bounds", "photontorch/networks/clements.py:ClementsNxN", "photontorch/networks/reck.py:ReckNxN", NET + ":Network.forward", "photontorch/components/mzis.py:Mzi.set_S")
p("C152", "Circuits of couplers in floating-point arithmetic",
  "What DirectionalCoupler.set_S and Mirror.set_S compute in single precision are the matrices of the component up to 2^-22, for every coupling and reflectivity from 0 to 1. A circuit of couplers, Mzis and waveguides without gain in which light travels in one direction through D columns, computed in double and single precision, gives the results of exact arithmetic up to D + 2 times single precision (and small fractions of the phases), in the frequency domain and, for every signal and length of simulation, in the time domain.",
  "all couplings, circuits of every size, wavelengths, signals and time steps", "all floating-point inputs and all circuits; error bounds", "photontorch/components/directionalcouplers.py:DirectionalCoupler.set_S", "photontorch/components/mirrors.py:Mirror.set_S", NET + ":Network.forward")
p("C153", "Resonant circuits in floating-point arithmetic",
  "In a circuit without gain in which every connection leads from or to a component that lets at most the fraction rho of the amplitude pass, such as rings of couplers and lossy waveguides or cavities of mirrors, light is enhanced by at most 2 / (1 - rho), at every wavelength and over any time, however the rings are coupled and however often light goes round. So such a circuit of couplers, mirrors, Mzis and waveguides, computed in double and single precision, can be simulated and gives the results of exact arithmetic up to 4 delta / ((1 - rho) (1 - rho - 2 delta)), where delta is four times single precision (and small fractions of the phases): in the frequency domain at every wavelength, also in resonance, and in the time domain for every signal, where errors do not accumulate. In particular for any number of coupled rings as in examples/04.",
  "all circuits of named components, numbers of rings, couplings, losses, wavelengths, signals, time steps and lengths of simulation", "all circuits, also in resonance; error bounds", NET + ":Network.initialize", NET + ":Network.forward", "photontorch/components/directionalcouplers.py:DirectionalCoupler.set_S", "photontorch/components/waveguides.py:Waveguide.set_S")
p("C154", "How fast spectra can change",
  "As a function of the wavenumber 1 / wl, the scattering matrices of a Waveguide without gain and of an Mzi change at most at the rate 2 pi ng length, those of couplers, mirrors, sources and detectors not at all. So if every component of a circuit changes at most at the rate tau and two wavelengths differ by at most beta in wavenumber, then, with eps = 4 tau beta, what is detected at them differs by at most q times the amplitudes of the sources, in the frequency domain and, for every signal and any length of simulation, in the time domain. q is (D + 2) eps / (1 - (D + 1) eps) in circuits without gain in which light travels in one direction through D columns, and 4 eps / ((1 - rho) (1 - rho - 2 eps)) in those in which light may go round but every connection leads from or to a component that lets at most the fraction rho of the amplitude pass, such as any number of coupled rings as in examples/04. So a grid of wavelengths can be chosen in advance that misses no resonance.",
  "all circuits, numbers of rings, couplings, losses, lengths, indices, pairs of wavelengths, signals, time steps and lengths of simulation", "a bound between any two wavelengths, for all circuits", "photontorch/components/waveguides.py:Waveguide.set_S", "photontorch/components/mzis.py:Mzi.set_S", NET + ":Network.initialize", NET + ":Network.forward")
p("C155", "Circuits tolerate small deviations of their components",
  "Let the components of a closed circuit, to any nesting depth, be replaced by others of the same kind and delay, with at most four ports, the entries of whose scattering matrices are at most delta away. Circuits wired directly from components can then be built as before. With eps = 4 delta, what is detected changes by at most q times the amplitudes of the sources, in the frequency domain and, for every signal and any length of simulation, in the time domain. q is (D + 2) eps / (1 - (D + 1) eps) in circuits without gain in which light travels in one direction through D columns, 4 eps / ((1 - rho) (1 - rho - 2 eps)) in circuits of components without gain, not nested, in which every connection leads from or to a component that lets at most the fraction rho of the amplitude pass; and in every closed circuit that can be simulated, results in the frequency domain at finitely many wavelengths change at most in proportion to small delta, whatever the number of ports. delta is |change of phase| + 2 pi |length (change of neff) / wl0| + ln(10) / 20 length |change of loss| for a Waveguide, |change of phi| + |change of theta| + 2 pi |length (change of neff) / wl0| for an Mzi, and the square root of the change of coupling or reflectivity for couplers and mirrors, at every wavelength. So small steps of training and small errors of fabrication have small effects.",
  "all circuits, nested to any depth; all parameters, deviations, wavelengths, signals, time steps and lengths of simulation", "all circuits and all deviations at once; a bound, not samples", NET + ":Network.initialize", NET + ":Network.forward", "photontorch/components/waveguides.py:Waveguide.set_S", "photontorch/components/mzis.py:Mzi.set_S", "photontorch/components/directionalcouplers.py:DirectionalCoupler.set_S", "photontorch/components/mirrors.py:Mirror.set_S")
p("C156", "Circuits tolerate small deviations of lengths and indices",
  "As C155, for components whose delays may be different, so for deviations of all parameters of Waveguide and Mzi, lengths, group indices and reference wavelengths included: with delta the largest over the wavelengths of the change of phase (phi and theta for an Mzi) plus 2 pi / wl times the change of optical length plus, for waveguides, ln(10) / 20 times the change of loss * length, the bounds of C155 for circuits without gain hold in the frequency domain without any condition on delays, and in the time domain if the delays, rounded to time steps, stay the same. The same holds of the other components, delta being for DirectionalCouplerWithLength the root of the change of coupling plus the change of phase plus ln(10) / 20 times the change of loss * length, for RealisticDirectionalCoupler the largest change of its coupling angle over the wavelengths, for GratingCoupler the largest of the changes of R and R_in and the root of the change of Tmax, for LinearSoa the change of amplification and for Mmi the largest change of an entry of its weights. Components that differ in their delays only give exactly the same results in the frequency domain, and in the time domain as long as their delays in time steps are the same, in every circuit of these components that can be simulated.",
  "all closed circuits, nested to any depth (not nested for resonant ones); all parameters, deviations, wavelengths, signals, time steps and lengths of simulation", "all circuits and all deviations at once; a bound, not samples", NET + ":Network.initialize", NET + ":Network.forward", NET + ":Network._simulation_buffer", "photontorch/components/waveguides.py:Waveguide.set_S", "photontorch/components/waveguides.py:Waveguide.set_delays", "photontorch/components/mzis.py:Mzi.set_S", "photontorch/components/mzis.py:Mzi.set_delays")
p("C157", "Detected powers are as robust as detected fields",
  "Let a closed circuit without gain and another one detect fields that differ by at most q times the amplitudes of the sources, as by C149 to C153 for rounded components and by C155 and C156 for components that deviate from their design. Then the powers that forward returns by default (power=True) differ, summed over the detectors, by at most q (2 + q) times the power of the sources; in the time domain detected energies, summed over detectors and time steps up to any time, differ by at most q (2 + q) times the energy sent in up to then.",
  "all closed circuits of components without gain, nested to any depth; all other circuits with close fields; all signals, environments and lengths of simulation", "all circuits and all signals at once; a bound, not samples", NET + ":Network.forward", NET + ":Network.initialize")
