# Design

Target: `flaport/photontorch` as checked out in `/repo` (read as text, never executed).
Deliverables: `properties.jsonl` (properties), `lean/` (model, specifications, proofs),
`MANIFEST.json` (which theorems settle which property), `seeded/LOG.jsonl`
(wrong edits of the model and the theorems they break).

## 1. Trusted base

* The Lean 4.33.0 kernel, and Mathlib as installed (definitions used in statements: real and
  complex numbers, `Real.sqrt/exp/log/cos/sin`, matrices, finite sums, `Matrix.unitaryGroup`).
* Axioms: every theorem of the manifest depends on at most `propext`, `Classical.choice` and
  `Quot.sound` (some on fewer). `lean/Verif/Axioms.lean` is generated with one `#print axioms` per
  manifest theorem, so the list for each theorem is printed by the build. There is no `sorry`, no
  `admit`, no `native_decide`, no `bv_decide`, no own axiom. Concrete witnesses are evaluated with
  `decide`/`decide +kernel` (kernel evaluation).
* The correspondence between model and Python text, which is by reading: every definition in
  `Verif/Model` cites file and lines in `/repo`; `tools/coverage.py` lists the code lines that no definition
  cites.
* The meaning given to the Python, numpy and torch primitives that the code uses (`int()`, `%`, `//`,
  slices, negative indices, `str.split/strip`, `dict` order, `np.linspace`, `np.squeeze`, `transpose`,
  `reshape`, `torch.solve`, broadcasting, named tensors, `nn.Module.add_module`,
  `nn.Module.__setattr__`, `__getattr__`, `register_parameter`, `register_buffer`). They are modelled in the small, in
  `Verif/Model/Py.lean`, `Verif/Model/Str.lean` and next to their use.
* External functions are parameters: `scipy.signal.butter` (any coefficients; where needed: as many as
  the order plus one, denominator starting with 1; for C119 the documented Butterworth design), the random number generators (any numbers),
  `scipy.signal.lfilter` (by its documented difference equation).

### Idealizations

* Numbers are exact. Grids, rates and times of environments and signals are rationals, fields and
  scattering matrices are reals (real and imaginary part separate where the code has them
  separate). **IEEE-754 rounding is modelled only for the constructor and `copy` of `Environment`** (C105–C108,
  `Model/Rounded.lean`) **and for the rates, latencies and warmups of bit streams and losses** (C133, `Model/RoundedSignal.lean`) **and for the delays in time steps** (C134, `Model/RoundedDelay.lean`) **and for `Waveguide.set_S` and `Mzi.set_S`** (C144, `Model/RoundedWave.lean`; C147, `Model/RoundedMzi.lean`) **and for bounded parameters, couplers and mirrors** (C145, `Model/RoundedBounded.lean`; C152, `Model/RoundedCoupler.lean`, with the infinite weights and `nan` that arise there; in all of these every operation is rounded to binary64, those of tensors to binary32, nearest-even, with subnormals, else without overflow);
  nothing else here speaks about rounding errors or overflow. `nan` occurs as `none` (mean of nothing, noise of
  negative variance, scattering matrices in `Part.number`, gradients in C122), infinite weights are extended reals (bounded parameters). Theorems about circuits use `Part.S`, the scattering matrix of
  the formulas; C121 says for which arguments the code computes it, for others it computes `nan`.
* Exceptions are values (`Except PyErr`), by exception class, in the order in which the code would raise them; no messages,
  no warnings.
* Objects: explicit state. A component that was added to a network is not changed afterwards except where the state is
  modelled (cached initialization, `link` history, stacks).
* Tensors are functions of their indices, with shapes where the code looks at shapes.
* Autograd: only the gradient *mode*, since it decides about re-initialization.

## 2. What is modelled, and what is not

| file | modelled in | not modelled |
|------|-------------|--------------|
| `environment/environment.py` | `Model/Env.lean` (constructor with all argument conflicts, `copy`, `==`, aliases), `Model/Stack.lean` (`with`, `set_environment`, gradient mode, locked attributes), `Model/Rounded.lean` (the constructor in floating-point arithmetic), `Model/Show.lean` (printed forms) | printing of arrays of other dimensions (79-82, 89-90) |
| `networks/network.py` | `Model/Topology.lean` (`set_C`, `set_port_order`, buffers), `Model/Network.lean` (`add_component`, `link`, `terminate`, `unterminate`), `Model/Stack.lean` (with-blocks), `Model/Build.lean` (programs that build networks: objects, with-blocks, attributes, `pt.link`), `Model/Sim.lean` (`initialize`, buffer, `step`, `action`, `forward`), `Model/Nested.lean` (networks as active components), `Model/Source.lean`, `Model/SourceArg.lean` (`_handle_source`), `Model/Warning.lean` (the warning of `initialize`), `Model/Cache.lean` (what is kept between calls), `Model/Accumulate.lean` (what calls do to gradients), `Model/Device.lean` (`set_S`, `set_delays`), `Model/Devices.lean` (devices in `terminate`) | devices elsewhere, dtype, `__getattr__`-style conveniences |
| `components/*.py` | `Model/Components.lean` (`set_S`, `set_delays` of every component), `Model/Soa.lean` (amplifiers with memory), `Model/Gear.lean` (components with actions in networks), `Model/Construct.lean` (shapes of the arguments of `Mmi`, couplers, mirrors), `Model/Train.lean` (constructors of all passive components and `LinearSoa` as assignments of attributes, training), buffers of all components in `Model/Topology.lean`, `Model/RoundedWave.lean` and `Model/RoundedBounded.lean` (`Waveguide`, `DirectionalCoupler` and `Mirror` in floating-point arithmetic), printed forms (C141) | tensors' own printing |
| `networks/reck.py`, `clements.py`, `rings.py` | `Model/Mesh.lean` (all constructors and connection strings), `Model/Factory.lean` (default factories), default terms of `terminate` | the random numbers of the default factories (arguments of `Model/Factory.lean`) |
| `networks/visualize.py` | `Model/Plot.lean` (22-176: curves, labels, axis unit), `Model/Graph.lean` (179-200: nodes, edges, labels), `Model/Draw.lean` (179-287: calls of matplotlib) | layout, rendering, legend |
| `nn/nn.py` | `Model/Bounded.lean`, `Model/Signal.lean`, `Model/Seeded.lean` (random bits) (bit streams, losses), `Model/Attr.lean` (`Module.__setattr__` with the part of `torch.nn.Module` it relies on); `Model/Devices.lean` (`Module.to/cpu/cuda/is_cuda`), `Model/Checkpoint.lean` (`state_dict`, `load_state_dict` of the components), `Model/Shelf.lean` (components under several names), `Model/RoundedSignal.lean` (bit streams and losses with rates in floating-point arithmetic) | `Buffer.__new__` |
| `detectors/*.py` | `Model/Detector.lean` (`lfilter`, both detectors), `Model/DetectorCall.lean` (arguments) | `torch_lfilter` (an external package) |

Simplifications of a single definition are stated in its comment. The larger ones:

* A network is built from a dictionary in which every entry is a component of its own (`mkNet`, `mkDev`). The one place where
  the code shares an object under two names is the waveguide of the Clements layers; there both entries get the same
  parameters (`cap2`). Users who share components are the subject of `Model/Shelf.lean` (C131).
* `terminate`: the copy of the network inside the terminated network is the network with another name; deep copying is
  not modelled.
* The simulation is a function of the matrices provided by the components (`Plant`); `Model/Device.lean` computes these from the
  components, and C66 joins both.

## 3. Layout

* `Verif/Model/*.lean` – definitions mirroring the code, with citations.
* `Verif/Spec/*.lean` – small independent specifications (circuit equations `Solves`, `Steady`; free ports, pairings and
  port numbering; lexical scoping; grids; unitarity, reciprocity; label correctness). They use the model's *data types*, not
  the model's functions, except for reading fields of a result.
* `Verif/Proof/*.lean` – lemmas.
* `Verif/Props/*.lean` – the theorems of the manifest (`Cxx_…`), each followed by an `example` that applies it to a
  concrete, non-trivial instance.
* `tools/` – generators for `properties.jsonl`, `MANIFEST.json`, `Verif.lean`, `Axioms.lean`; the seeding script and its
  seeds; the coverage script. Not needed to build.

## 4. Properties: model and proof

Naming: where the code violates a property, the manifest says `partial` with the note REFUTED; the negation is proved
(`Cxx_violation…`, from a concrete witness or for a whole class of inputs), and `…_partial` theorems prove what does hold,
with the missing part named in the comment. There is no property whose status is `partial` only because a proof is
unfinished. `proved` means the statement of `properties.jsonl` is proved for all inputs of its quantifier, within the model.

### Environments (`Props/EnvConstruct`, `Props/EnvCopy`, `Props/Scoping`)

| id | what is modelled | how it is proved |
|----|------------------|------------------|
| C01 | exclusion stage of the constructor over default / `None` / given arguments | case analysis against a table of exclusive groups; C01_only_these lists all other ways to fail |
| C02, C03, C60 | time branch of the constructor, `arange` with truncation, `linspace` | floor lemmas; C60: t0 is compared with a default it does not use |
| C04 | whole constructor | inversion of the constructor's result |
| C05, C06 | wavelength branch | floor lemmas; C06_always_fails for all inputs |
| C07 | `copy` = constructor applied to the converted attributes | exact characterization (`C07_copy_exact_iff`) |
| C08 | attribute dictionary with lock | induction on assignment sequences; `del` is not guarded (C08_delete_unlocks) |
| C09, C10 | programs of with, set_environment, raise, try, observe, run on stack and gradient mode | induction on programs, against lexical scoping |
| C11, C12 | constructor, `__eq__` | uniform grids are determined by start, step, count; exactly what `==` looks at in any two arrays (`Props/Exact.lean`) |

### Networks (`Props/Topology`, `Props/Ports`, `Props/Link`, `Props/Terminate`)

| id | what is modelled | how it is proved |
|----|------------------|------------------|
| C13, C23 | `link` on character lists, appending to the connection list before validation | induction on the chain, print/parse round trip; C23: state machine, poisoned for ever |
| C14, C15, C24 | `set_C` on the children's records; nesting by building new records | invariants of symmetric assignment; inductive predicate for all depths |
| C16, C61 | error branches of `set_C`, `set_port_order`; acceptance | case analysis; C61 is the converse of C16; self-connections exactly (`Props/Exact.lean`) |
| C17–C19 | `set_port_order` exactly (slots, used/unused lists, dropped `None`, the `.all()` check) | permutation reasoning; witnesses |
| C20, C21 | `terminate`, `unterminate`, `add_component` | from C15 and C17; C21_named_never for every named network |
| C22 | network stack programs | induction on programs |

### Simulation (`Props/Reduction`, `TimeDomain`, `Linear`, `Energy`, `Settle`, `Action`, `Source`, `Cache`)

| id | what is modelled | how it is proved |
|----|------------------|------------------|
| C25 | the real 2n×2n system of `initialize`, `torch.solve` failing on singular input | block matrix algebra |
| C26, C28 | `initialize`, buffer, mask, `step`, `forward` | relation between buffer and trajectory, elimination of memoryless ports, induction on time; existence and uniqueness at the detectors |
| C27 | the same in the frequency domain | elimination |
| C29–C31 | `forward` | from C26 and by induction on time |
| C32, C33 | – | energy functional including the light under way; isometry of unitary scattering with perfect pairings |
| C34 | – | transposed circuit equations; time domain by convolution with reversed signals |
| C35 | – | stationary part of the circuit equations; only detected convergence assumed |
| C36 | the node order of `initialize` | list lemmas |
| C37, C62 | cache state machine over calls and parameter changes | induction on histories |
| C38, C39 | `_handle_source` on named tensors; `C38_forward`: the call of a network with a tensor | per dimension |
| C40, C41 | `action`, `step` slices | offsets by induction |
| C67, C63 | simulation with active components | as C26 with a nonlinear, causal action; existence, uniqueness at the detectors |

### Components, amplifiers, parameters (`Props/Components`, `Parts`, `Soa`, `Bounded`)

| id | what is modelled | how it is proved |
|----|------------------|------------------|
| C42–C45, C48, C64, C65 | each `set_S` over ℝ, at an arbitrary wavelength | trigonometric identities, sums over ports; exact characterizations where violated (C64_iff) |
| C47, C68 | `BaseSoa.action`, `Soa`, `AgrawalSoa` | recursion for the state, its closed form; stationary points |
| C46, C69 | `BoundedParameter`, weights in the extended reals | properties of the logistic function |
| C77 | `Module.__setattr__`, torch registries | invariant of the registries over all histories of assignments |
| C79, C80 | constructors | case analysis; C46, C48, C42 |
| C81 | phases of waveguides and Mzis | the phase is affine in the optical frequency; its slope is the delay |
| C84 | `Soa` as in C68, constructor and optimizer steps | gain of C68 is a power of the amplification with nonnegative exponent |

### Signals (`Props/Stream`, `Loss`, `Detector`, `DetectorCall`)

| id | what is modelled | how it is proved |
|----|------------------|------------------|
| C49, C71, C70, C72 | `BitStreamGenerator` | floor and gcd arithmetic; strides of repeated lists |
| C50–C53 | `MSELoss`, `BERLoss` including rounding of rates | the same; normalization of 0/1 streams is sign-preserving |
| C54, C55, C73, C74 | `lfilter` loop, detectors | loop invariant; uniqueness of the difference equation |
| C86 | constructors and arguments of both detectors | cases of the arguments given |

### Whole circuits and meshes (`Props/Circuits`, `Mesh`)

| id | what is modelled | how it is proved |
|----|------------------|------------------|
| C66 | components → nested networks → simulation | block structure by induction on nesting, pairing from C24, then C26–C34 |
| C75 | – | a rank that increases along light paths makes `1 - C S` invertible (nilpotency); unitarity by energy and counting |
| C56, C57 | `ReckNxN`, `ClementsNxN`, layers, default terms | connection strings parsed for all N; orientation of ports by direction of travel; C75 |
| C76 | – | waves through a composed circuit from the waves through its parts (`Waves`, `Carries`); a layer computes its first output as any unit combination of its inputs (induction on the layer), the rest is a unitary matrix of one size less (induction on N) |
| C58 | `RingNetwork` | the same parsing and pairing argument (ring networks are not feed-forward) |

### Long simulations (`Props/Modulate`, `Lossy`)

| property | model | proof |
|---|---|---|
| C82 | whole circuits as in C66, both domains | the waves split into the stationary solution and a free part; the free part decays because every eigenvalue of the step on the finite-dimensional space of free waves has modulus below one (passivity excludes moduli above one, `Damped` excludes modulus one; generalized eigenspaces) |
| C83 | the same, at two wavelengths | C81 turns the shift of the wavelength into a phase per time step; then as C82 with the modulated source |
| C85 | the same; ring networks of all sizes | a wave solving the equations of any part of the circuit keeps its power, so it is dark at absorbing ports, and then everywhere by ranking the ports along the light (an acyclic relation on a finite set has a rank) |
| C87 | – | the rows of two-mode blocks generate all unitaries: two neighbouring blocks can be braided (`two_near`, an elimination in three modes), so a wall of n+1 rows equals the triangle of the elimination by rows (`wall_triangle`, `triangle_factor`); blocks are Mzis up to phases, which are moved through the rows to the end (`rows_universal`); the composed circuit carries the waves of the rows (`clements_carries`). Converse: in fewer rows the first two inputs reach the last two outputs through one mode, so a minor vanishes |
| C88 | trees of modules with shared objects and stores of tensors; `Module.to/cpu/cuda/is_cuda`, the device side of `terminate` | induction over the tree: `to` overwrites every attribute and every store in it. Torch's `Module.to` is outside the repository: modelled as moving the stores of the tree. Also seen: `terminate` moves terms to `cuda:0` even if the network is on another gpu |
| C89 | the networks of the notebooks `01_all_pass_filter` and `02_add_drop_filter`, from their `link` strings | the circuit equations of a network are computed port by port from its components (`Wired`, `Wired.freq`, `Wired.steps`), and solved; the wave staying in the ring decides initialization in both directions (`pick_invertible`, `pick_singular`); the time domain is an induction over round trips (`ring_sum`) |
| C90 | families of circuits (`Tuned`) all of whose trainable parameters are functions of a point of a normed space | the pivot matrix of `initialize` stays invertible nearby (continuity of the determinant), Cramer's rule makes the solution of the circuit equations differentiable, and the equations are differentiated (`solves_fderiv`); the derivative solves the circuit equations driven by `dS a`. Autograd itself, and the order of its operations, is trusted; Soa and AgrawalSoa (a clamp and a memory) are excluded |
| C91 | `set_S` of the grating coupler, the realistic coupler, the coupler and the mirror; `set_delays` | the gaussian is rewritten as a power of 1/2 (`C91_grating`), from which the 3 dB points follow; the even and odd mode pictures of a coupler are the eigenvectors of its scattering. The default derivatives (1.2435, 5.3022 …) are plausible per µm and per µm², but the code multiplies them with differences in meters, so that with default arguments the dispersion is negligible; no statement says which unit is right, so this is only recorded here |
| C92 | the final checks of `Component._set_buffers` | case analysis; sorting a permutation gives the range |
| C93 | the interferometer of notebook 09, wired by `Network.link`; `BitStreamGenerator`, `MSELoss`, `BERLoss` | the circuit equations of the wired circuit are solved in both domains; the steps of the arms are m and 2m exactly (`xor_steps`: the delay is an exact multiple of dt, `ceil` leaves it), the stream and its XOR are compared sample by sample. The existence of the two phases stands in for the training of the notebook. |
| C94 | the constructor of `Network`, `initialize` and `forward` on closed circuits of named components | the port numbers that `set_C`, `set_S` and the port orders assign to (name, port) are computed (`Placed`, `pos_partAt`, `block_pos`), after which C66 and C26 are transported to the equations by name (`Placed.static`, `Placed.moving`, `Placed.trapped`); the spec (`Steady`, `Moving`, `Trapped`) mentions names and connections only |
| C95 | the network of notebook 04, wired by `Network.link` with lists of any length | the calls of `link` are evaluated by induction (`between_row`, `linkConns_chain`), the circuit is `Closed`, so C94 applies; the waves split into two families (`Eqs.fam`), whose equations are solved by the recursion (`fam_exists`), have no other solution unless the denominator vanishes (`fam_ratio`, `fam_zero`) and have one without input if it does (`fam_trapped`). Disagreement with the notebook (not with the library): with ten rings its channel 0 is the add port, not the drop port |
| C96 | networks of networks (`mkDev` applied to its own results) against the flat circuit | `Spec.Drawn` relates a network to a sheet of components, connections and left ports by opening the boxes; `lies_merge`/`drawn_lies` (induction on the nesting) show where every port of the sheet lies in the network and which ports are connected, from C15, C17 and C18; then both networks solve the same equations by name (`placed_frequency`, `placed_time`, `placed_initialized`, shared with C94) |
| C97 | two listings of one circuit, also with active components (`Props/OrderActive.lean`) | both solve the same equations by name (C94, C98) |
| C98 | networks of components with matrices, delays and actions (`Gear`) | the buffers of the network at the port of a named component are those of the component, so the loop of `forward` (C43) solves the equations by name |
| C99 | `Soa`, `AgrawalSoa` as components with the state on port 1 | the ports of the amplifier satisfy the hypotheses of C63/C68; refuted in the part on reflections |
| C100 | `Network.action` of networks in networks (`netActor`), `Spec.Opened` (`Props/Opened.lean`) | induction over the nesting: the nested loops act on the active ports one component after the other; refuted for networks with sources next to active components |
| C101 | `Component.initialize` storing `env` on component objects that several networks share, refused initializations, `Network.__call__` (`Model/Shared.lean`; statement in `Spec/Shared.lean`) | invariant over any sequence of calls: a network whose stored environment is set has initialized objects; refuted with two networks sharing a `Soa` and with a failed call |
| C102 | networks of networks (`Model/Device.lean`), `initialize`, `forward` (`Model/Sim.lean`); the response of a circuit with open ports is defined in `Spec/Replace.lean` from the laws of its components alone | compositionality (`C102_composed`): the laws of an opened network hold exactly if those of its boxes do and the waves at connected box ports agree; congruence from there, with C94/C96 for what a simulation detects and when it can be initialized |
| C103 | two `Waveguide`s in series and one (`Spec/Replace.lean`; `set_S`, `set_delays` as in C45) | responses computed in both domains, hence alike in any surrounding network by C102; refuted in the time domain |
| C104 | terminated `ClementsNxN` (capacity at least 2) and `ReckNxN` with any four-ports and two-ports without reflection, `initialize`, `forward` in the time domain (`Model/Mesh.lean`, `Model/Sim.lean`; `Arrives` in `Spec/Mesh.lean`) | the wave calculus of the meshes (`Proof/Waves.lean`, also used by C50, C76, C87) is over any commutative ring: amplitudes for the frequency domain, power series in the step delay for the time domain; with equal delays every layer is multiplication by X^n and a constant matrix |
| C105 | `Environment.__init__`, `_arange`, `numpy.linspace(endpoint=False)` with every arithmetic operation followed by a rounding `rd` (`Model/Rounded.lean`); `fl` = binary64, proved to be nearest-even with respect to the independent `Spec/Rounded.lean`; with `rd = id` it is the exact model of C01–C12 (`C105_exact`) | relative error 2^-53 per operation; quotients are within one of N; divisions by powers of two are exact |
| C106 | as C105 | error of the quotient below 1 part in 2^51; truncations agree unless an integer lies between |
| C107 | as C105, `num_t` and `dt` (or `samplerate`); `bitlength` | sum of the errors of the seven operations that lead to a point in time |
| C108 | as C105, `Environment.copy` | for any rounding: the copy starts from the arrays, every derived attribute is the same function of them; monotonicity of `fl` for C108_grid |
| C109 | legacy keywords popped from `kwargs`, `self.__dict__.update(kwargs)`, `dict.update` in `copy`, names with an underscore left out (`resolveAliases`, `mergeExtras`, `publicExtras` in `Model/Env.lean`) | lookup in the merged list |
| C110 | `__repr__`, `__str__`, `_repr_html_` of `Environment` and `_Array`, `"%.3e"`, `repr` of strings, character by character (`Model/Show.lean`) | texts are read again by readers in `Spec/Show.lean`; identification by injectivity of every part of the text; **refuted** in general |
| C111 | conversion of arrays, numbers, lists to source tensors (`Model/SourceArg.lean`) | reduction to C38; **refuted** for numbers without dimensions and for complex numbers of python |
| C112 | the condition of the warning in `initialize` (`Model/Warning.lean`) | floor inequalities; C28 for the number of steps |
| C113 | the ports of an `AgrawalSoa` in a circuit (C98, C99) against solutions of the rate equation (`Spec/Agrawal.lean`) | one Euler step contracts with factor `1 - dt/tc` and has a local error of second order (mean value inequality); **refuted** without a condition on the time step. `Props/Pinned.lean`: the same steps in the arguments of the constructor, and transparency |
| C114 | `forward` with arbitrary sources against `forward` with unit pulses (`Spec/Impulse.lean`) | linearity (C31), time invariance and causality (C30) of the simulation, induction over steps and sources; C83 for the spectrum |
| C115 | the solution of the time-domain equations (C26) and the energy inside the delays (`Spec/Balance.lean`) | telescoping sum of the energy in the delay lines; decay of free waves in damped circuits; no light returns in feed-forward circuits |
| C116 | a list of fields each of which is within `ε j` of one step computed from the fields before it (`Computes` in `Spec/Drift.lean`) | the reduced matrices of a passive network are contractions; the difference to the exact run obeys the energy balance of C115 with the errors as sources; triangle inequality |
| C117 | the constructors as sequences of assignments of attributes (`Verif/Model/Train.lean` on top of the `__setattr__` of C44-C46), `set_S` and `set_delays` reading them back, training as additions to the registered parameters; circuits built twice from the same calls (`Trained` in `Spec/Train.lean`) | attributes that are public and assigned once are read back; induction over the history of training and over the circuit, C66 for the trained circuit; **refuted** for `Mmi` and `LinearSoa` |
| C118 | the calls of `matplotlib` that `graph` makes (`Verif/Model/Draw.lean`): the recursion over base classes, the edges of a `MultiGraph` in the order of `networkx`, the bent lines | induction over the nodes: the edges listed are, as unordered pairs, a permutation of the connections; the angle of the bend is at most 45 degrees; **refuted** for `Network.graph(draw=False)` |
| C119 | `lowpassDetect` with the Butterworth filter that scipy documents (`Verif/Spec/Butter.lean`: equally spaced analog poles, bilinear transform, zeros at -1) | the poles lie inside the unit circle and come in conjugate pairs (real coefficients); the product over the squared poles is a product over roots of unity, which gives the magnitude; the recurrence is a polynomial in the shift operator, factored into first-order recurrences that decay |
| C120 | `photoDetect` for random numbers on a probability space | the output is the convolution with the response to a pulse; sums of independent normal numbers are normal; the energy of the response is at most one because the mean of the squared partial sums of its Fourier series over the roots of unity is its energy and the transfer function is at most one |
| C121 | `Part.number` (`Verif/Model/Numbers.lean`): `set_S` with `nan` for roots of negative numbers and divisions by zero, beside `Part.S`, which calculates with real numbers | by cases over the components: equal to `Part.S` exactly if the arguments make sense; training keeps ratios between their bounds (C117); **refuted** for couplings that are not trainable |
| C122 | the backward pass from the two roots of a ratio to the weight of the bounded parameter, in extended numbers with `nan` | at the bounds infinity meets zero whatever the loss; strictly between, the result is compared with the derivative (chain rule); **refuted** at the bounds. Direction of a step: `C122_descends` (`Props/Pinned.lean`) |
| C123 | `ring` of width 2 with couplers and `termDev` with the terms of notebook 08 | the three levels of networks are flattened to one list of named components and connections (`ring_drawn`, `closed_drawn`, by induction on the capacity); the waves are those of a chain with one coupler more, which passes everything (`oneMore`), so the families of C95 solve them; C89 for the comparison with the add-drop filter |
| C124 | `clements`, `ring`, `reck` | every component is mentioned by a connection, so the number of ports is the sum over the components (`Made.size`); sums over layers by the width; **refuted** for ring networks of even capacity |
| C125 | `wgFactory`, `mziFactory`, `clementsOf` (clements.py:27-36, 225-226), the training model of C117 | the trained components are again lossless interferometers and waveguides of the same delay (`becomes_mzi`, `becomes_wg`), so C56, C57 and C104 apply; the settings that C76 and C87 find are reached by one step; that the optimizer of torch finds the step is not modelled |
| C126 | no new definitions: `link`, `mkDev`, nesting (C96), the training model of C117 | the network of networks is drawn on one sheet (C96), whose equations are solved ring by ring (`Wts.ring_eqs`); undamped light in a ring exists exactly if `√(1-k) z = 1`; the power as a function of the cosine of the round-trip phase is decreasing and continuous (`Wts.curve`), so the intermediate value theorem gives the range; the settings are reached by one training step (`becomes_waveguide`) |
| C127 | no new definitions: `bitStream`, `berLoss`, `lowpassDetect`, `forwardPower`, `link`, `initialize` | `Spec/Transmission.lean` says what the line is and how many bits arrive; the network is solved like C58 (one waveguide between a source and a detector), the step response of the filter settles uniformly (C119), so `C127_eye` bounds the current in the middle of a bit by the power during the last half bit; `bitStream` of given bits without cutoff and `berLoss` are evaluated for whole numbers of samples per bit; bit rates that are no divisor of the sample rate, and streams with cutoff, are left to C48 to C51 |
| C128 | no new definitions: `photoDetect` (C74, C120) | by linearity of the expectation; the law of each sample comes from C120; `gauss_tails` is the Chernoff bound of Mathlib for sub-Gaussian variables; independence of `torch.randn` is an assumption of the theorem, an instance exists (the example) |
| C129 | no new definitions: `initNet`, `forwardReduced`, the delays of the components | `Spec/Continuum.lean` states the flow of light in continuous time (`Flows`) and that no light circulates without delay (`Timely`) without reference to time steps; existence and uniqueness by the method of steps (intervals as long as the shortest delay, on each one linear system has to be solved), Lipschitz in time up to every time; the error of the simulation is bounded by induction over intervals of that length: the rounding of a delay moves the signal by at most half a step (`round_near`), and the flow is Lipschitz. `C129_ring` lets the time step go to zero in C89. The round trips of one time step added by detectors and sources are not delays: they are ports that scatter nothing |
| C130 | `Obj.saved`, `Obj.load`, `saveNet`, `loadNet` (`Model/Checkpoint.lean`) on top of the attributes of C83 and C117 | a constructor registers exactly the tensors among its attributes (`blank_exactly`), training keeps their names (`Exactly.train`), so two calls that are `Spec.Kin` have states with the same names, and every number `set_S` and `set_delays` read (`readNames`) is either loaded or equal; **refuted** for couplers of which one is trainable and the other not |
| C131 | `Shelf`, `Shelf.train`, `loadInto`, `Shelf.load` (`Model/Shelf.lean`) on top of C130 | **refuted**: names are mapped to one object, so training keeps them equal (`history_objs`), while two mirrors trained with different steps have different reflectivities (`mirror_apart`); loading twice is loading the last (`load_load`), hence by induction over the names the last name of an object decides |
| C132 | `bitStream` (`Model/Signal.lean`) with `Spec.butterworth 1` | the filter of order one is the recursion with the pole `(1 - t) / (1 + t)`, `t = tan(pi f / R)` (`butterworth_first`, `one_pole`); by C71 the internal rate `R` is at least `4 f`, so the pole is between 0 and `exp(-2 pi f / R)` (`onePole_bounds`, from the series of the logarithm); induction over the fine samples since the last change; then C127_rate and C127_line |
| C133 | `bitStreamR`, `mseLossR`, `berLossR` (`Model/RoundedSignal.lean`): the functions of `Model/Signal.lean` with a rounding `rd` after every operation on rates (`C133_exact`: `rd = id` gives them back) | the relative errors of `env.samplerate` (from C107: 2^-50) and of every operation add up to less than 2^-47 (`fl_close_pos`, `div_close`, `latency_same`), so `int(x + 0.5)` is unchanged where it does not jump (`trunc_same`); **refuted** by evaluation at 252 GHz / 28 GHz |
| C134 | `delayR`, `stepsR`, `bufferLengthR` (`Model/RoundedDelay.lean`): `set_delays`, `delays_in_timesteps` and `_simulation_buffer` with roundings to binary64 (python) and binary32 (tensors; `fl32`, proved to be nearest-even with respect to `Spec/Rounded32.lean`); without rounding it is `Plant.steps` of the simulation (`C134_exact`) | relative errors as in C133, 2^-24 per tensor operation (`steps_same`); the buffer from monotonicity of any rounding; **refuted** by evaluation |
| C135 | whole circuits as in C66, both domains | the deviation from the (modulated) stationary solution solves the free equations except that the delay lines start with minus the stationary wave; power balance with passivity bounds the deviation that ever leaves through the ends by what is in the lines at the start (`deviation_le`). The bound does not depend on the length of the simulation, so the deviations are summable and tend to zero (`deviation_settles`). That a network can be initialized in the frequency domain excludes standing waves at the wavelength (`freq_nullfree`), which, by passivity, are the only obstruction to solving the equations of any subset of the ports (`pick_nullfree`) |
| C136 | the network of the notebook by its `link` calls (`Spec/Michelson.lean`) | C94 gives the equations by name; an arm reduces to one reflection and one transmission (`Mich.arm`), the coupler leaves two equations (`Lit.solve`). Passivity excludes a vanishing denominator (`no_resonance`: a null vector would keep its power on every round trip). C135 for the time domain; the intermediate value theorem in the reflection of the west mirror for `C136_equal`. `C136_resonant`: were the initialization to succeed, the equations would have a solution, which a vanishing denominator excludes |
| C137 | circuits of components, plants at two sets of wavelengths | `C81_period` for the components; the plants of the circuit are equal (`plant_alike`), so all simulations are. `C137_resonances` from `exp(2πix) = 1 ↔ x ∈ ℤ`; `C137_ring` from the formula of C89 |
| C138 | `Model/Build.lean`: network objects with references, the deque of current networks, programs; `Spec/Build.lean`: plans of nested networks and the programs for them | induction over the plan with the invariant `HasParts` (the object holds items whose buffers are the given components); `mkNet_accepts_any` (`Proof/Build.lean`) shows that the unfinished networks between two calls of `link` are accepted although their external ports are not yet numbered without gaps: the check of the port order cannot fail for numbers below the number of ports |
| C139 | as C138 | `C139_violation` by running a program; `C139_link_partial` for arbitrary states: renaming parts leaves all buffers, so only the linked network changes |
| C140 | `terminate` with `termDict` | the dictionary a list becomes, by induction on the list (keys in order of first, values of last occurrence); then C20 |
| C141 | `Component.__repr__` | cancellation of the fixed parts of the text; names of components are their keys after `_set_buffers` |
| C142 | the ring on a bus with `Waveguide`s of any loss or gain | closed form of the sum over round trips of C89; powers of the round-trip factor; for the violation a ring with 20 dB of gain. For general circuits the proof of C82, with the absence of growing waves as hypothesis, which follows from ranks (feed-forward) or weights; `Spec/Lasting.lean` states that absence by the names and laws of the components, and `placed_stable` proves it equivalent |
| C143 | no new definitions: `link`, `mkDev`, nesting (C96), `mmiS`, the training model of C117 | as C126, on the sheet with the combiner (`Rdt.sheet`); a trapped wave in one ring is extended through the combiner for the failure at resonance; Cauchy–Schwarz for the bound; the intermediate value theorem along a line in the space of phases for training; in the time domain `C142_named`'s criterion, as every loop has a factor below 1 |
| C144 | `waveguideR` (`Model/RoundedWave.lean`): `Waveguide.set_S` and the reduction of the phase in the constructor with every operation rounded (double precision for the phase, single precision for the entries); `np.pi` is the rational number it is | a calculus of sizes and numbers of roundings (`Rwv.Off`), the remainder as a whole number of turns with the error of `np.pi`, Lipschitz bounds of cosine and sine; for the violation bounds of cosine and sine at 1/8192 |
| C145 | `inverseSigmoidR`, `boundedValueR`, `splitR` (`Model/RoundedBounded.lean`): the round trip of a bounded parameter and the square roots of couplers and mirrors, every operation rounded to single precision, bounds subtracted in double precision; weights may be infinite or `nan` | errors of the single operations; the logistic function of a perturbed logarithm (the derivative times the logarithm is bounded); the violations are computed by the kernel |
| C146 | `Workshop.run` (`Model/Accumulate.lean`): the effect of calls of networks on gradients and stored environments, with `backward`, `zero_grad` and `step` of torch; the specification (`LearnsAll`) knows nothing of networks | invariant over programs: gradients of parameters that are not `dirty` are zero, known environments are the stored ones; induction over the epochs for the training loop |
| C147 | `mziR` (`Model/RoundedMzi.lean`): `Mzi.set_S` in binary64 and binary32 | errors of products in single precision; for the power, comparison with the exact matrix of the *computed* phases, so that the errors of the phases do not matter; induction for chains |
| C148 | `BitGenerator.forward` (`Model/Seeded.lean`): the choice and the state of the generator of random numbers, with `bitStream` of C49; numpy's numbers are an arbitrary sequence for every seed | induction over the calls; the specification counts the bits asked for with the own seed |
| C149 | `initNet` and `forwardReduced` for a circuit whose scattering matrices are replaced by approximations (`withS`), with the rounded matrices of `mziR` and `waveguideR` | the difference of the two solutions solves the circuit equations with the error as source; the enhancement is bounded by a Neumann sum that ends after D steps (feed-forward) or converges (absorbing), and is the norm of an inverse matrix otherwise; for feed-forward circuits the fields are cut by columns, and the light in each column is bounded by that of the sources (`Proof/Columns.lean`) |
| C150 | as C149, in the time domain | `T` time steps are a static circuit with `T` copies of each port, in which a delay leads from one copy to a later one (`Proof/SensitiveTime.lean`): this circuit has the same pairing, losses and columns, so the bounds of C149 apply; with `T = 1` they also give the invertibility that `initialize` needs |
| C151 | `clements`, `reck` and `termDev` with the rounded matrices of C149 | the columns of each helper network are counted port by port and put together along the wiring (`Proof/Depth.lean`): a Clements network has `capacity + 1` columns, a Reck network, whose layers overlap, `2 N - 1`; then C149 and C150 |
| C152 | `couplerR`, `mirrorR` (`Model/RoundedCoupler.lean`): `set_S` of couplers and mirrors in binary32, with `splitR` of C145 | the error of `1 - x` under the square root: `√(b(1+ε)+η) ≤ √b(1+ε)+√η`, so that it stays small also near full coupling; then C149 and C150 |
| C153 | circuits of named components as in C94, with the rounded matrices of C152 | light that passes two components loses the fraction `1 - ρ` of its amplitude (`Buffered.twice` in `Proof/Buffered.lean`): what enters a component that does not absorb comes from one that does; so the waves are a geometric series (`C153_enhancement`), also over time, where the copies of C150 have the same connections. `C153_rings` for the network of C95 |
| C154 | circuits as in C149, C150 and C153, at two wavelengths | the phase `2π n_eff(wl) L / wl` is linear in `1 / wl` with slope `2π n_g L` (`Sens.phase_diff`), so the matrices at one wavelength are those at the other with entries wrong by `τ β` (`Sens.spectrum_near`); then the bounds of C149, C150 and C153 apply, the plant at the other wavelength being the plant with its matrices replaced |
| C155 | two circuits built in the same way (`Varied` in `Spec/Tolerance.lean`) from components that resemble each other | what `mkNet` computes depends on the buffers of the components only, so by induction over the nesting the two networks differ in their scattering matrices only, and in each row and column by at most as many entries as a component has ports (`Varied.alike`, `MatClose.blocks`); then C149, C150 and C153. Rates of the components: Lipschitz bounds of cosine, sine and exponential; the square roots of couplings are only Hölder continuous, and so is the bound. Length and group index change delays and are left out |
| C156 | as C155, for components that may differ in their delays (`Looks`, `SameSteps` in `Spec/Tolerance.lean`) | `initialize` reads delays only through delays in time steps, except for the length of the buffer, which C28 shows to be that of the mask; so networks with the same delays in time steps are simulated alike (`init_steps`, `forward_seconds` in `Proof/Steps.lean`), and in the frequency domain all delays are zero. Whatever light is scattered stays among ports of the same delay, also in the other circuit (`Varied.alike`). Rates of the components by their matrices (`C156_components`, `C156_others`; a grating's bandwidth and centre wavelength are kept). Amplifiers with a state (Soa and the like) are not among the components of these circuits |
| C157 | powers of C66 (`forwardPower`), of two circuits with close fields | for every c > 0, a difference of squares is at most c times the square of the first plus (1 / c + 1) times the squared distance; summed over detectors and time steps, with the energy bound of C66, and c = q |

`Damped` says that no wave circulates undamped at any frequency. It is a statement about scattering matrices, wiring and delays only;
`C82_feedforward` and `C82_lossy` derive it for circuits without loops and for circuits whose delay components absorb.
C35 is the special case in which convergence is assumed instead of proved.

### Plots (`Props/Plot`)

| id | what is modelled | how it is proved |
|----|------------------|------------------|
| C78 | `graph` | membership in the list of edges and nodes, induction on the connections |
| C59 | `plot`: squeeze, mode, transposition, reshape, labels, axis unit | index algebra of row-major order, one case per combination of axes of length one |

## 5. Statement conventions

* A theorem about failure (`.error e`) names the exception class.
* Theorems about simulations quantify over all source functions, wavelengths, batches and over all matrices subject to the
  stated hypotheses; hypotheses that exclude code behaviour are named in the manifest note.
* Hypotheses are discharged in the following `example` for a concrete instance.

## 6. Findings: where code and property disagree

Each line is a theorem; the witness is in the theorem or in its proof.

| property | theorem | what happens |
|----------|---------|--------------|
| C06 | `C06_always_fails` | `num_f`/`df` with `wl0`, `wl1`: both frequency bounds come from `wl0`, so the call always fails with ZeroDivisionError (environment.py:340-347) |
| C07 | `C07_violation` | `copy()` of a single-sample environment that starts after 1e-12 s raises ValueError; decreasing time arrays as well |
| C08 | `C08_delete_unlocks` | `del env._initialized` unlocks a frozen environment |
| C10 | `C10_violation` | re-entering an open environment overwrites the saved gradient mode |
| C12 | `C12_violation` | `==` does not compare the grids, only start, step and count |
| C16 | `C16_violation` | `'w:1:w:-1'` connects a port to itself |
| C18 | `C18_violation` | declared external ports on a sub-network with permuted ports: permutation applied twice |
| C19 | `C19_violation` | gaps in external port numbers drop a port and duplicate another; the check uses `.all()` for `.any()`; `C19_iff_partial`: exactly when a gap does no harm |
| C21 | `C21_named_never` | no network with a name can be terminated: `.base = self` goes through `add_component` |
| C22 | `C22_violation` | an exception inside `with nw:` leaves `nw` current |
| C23 | `C23_poisoned_forever` | after a failed `link` every later `link` fails |
| C24 | `C24_violation` | linking one port twice is accepted |
| C37 | `C37_violation` | without gradients parameter changes after the first call have no effect |
| C39 | `C39_violation` | every source with more than two samples that is shorter than the simulation is rejected |
| C40 | `C40_violation` | nested active networks with passive ports act on the wrong ports |
| C41 | `C41_violation` | without detectors the slice `-0:` selects all nodes and the shapes do not match |
| C43 | `C43_violation` | `LinearSoa` amplifies from port 1 to port 0 and blocks the documented direction |
| C44 | `C44_violation` | `Mzi` ignores its loss (a new tensor is returned and dropped) |
| C47 | `C47_violation`, `C47_phase_violation` | `AgrawalSoa` amplifies only the real part of the field |
| C51 | `C51_violation` | `BERLoss(x, x) = 1` for streams of ones |
| C52 | `C52_violation`, `C52_ber_violation` | negative latencies are truncated towards zero |
| C54 | `C54_violation`, `C54_short_violation`, `C54_length_violation` | `lfilter` does not reverse `b`; short signals and different lengths fail |
| C55, C73, C74 | `C55_violation`, `C73_violation`, `C74_violation`, `C74_nan_violation` | a power signal with two time steps is taken for an amplitude; short signals raise IndexError; a `Photodetector` gives `nan` for powers below about -0.3 mW (which filtered bit streams may contain), as it takes the square root of a negative variance |
| C57 | `C57_no_connections` | capacity 0 or 1 gives a network without connections, which cannot be terminated |
| C59 | `C59_violation`, `C59_nested_violation`, `C59_wavelength_violation` | labels guessed from sizes; nested detectors shift labels; sub-nanometer wavelengths share a label |
| C60 | `C60_violation` | `num_t`, `dt` with `t0 > 1e-12` is rejected |
| C62 | `C62_violation` | a failed initialization overwrites `num_mc` and delays, later calls mix old and new |
| C63 | `C63_violation` | Soas reflect all incoming light |
| C64 | `C64_violation` | `DirectionalCouplerWithLength` has no propagation phase |
| C65 | `C65_violation` | a grating coupler with reflection amplifies |
| C68 | `C68_violation` | startup times that are no multiple of `dt` overshoot the gain |
| C69 | `C69_violation` | bounded parameters at a bound have infinite weight and cannot be trained |
| C77 | `C77_violation`, `C77_sticky` | assigning Buffer, BoundedParameter, Buffer to an attribute leaves the bounded parameter in place without an error |
| C78 | `C78_violation` | numbers of external ports are drawn as components |
| C79 | `C79_violation`, `C79_broadcast`, `C79_unusable` | an `Mmi` cannot be made of a three-dimensional array; other tensors than pairs are accepted and misused or fail later |
| C80 | `C80_violation` | `DirectionalCoupler(coupling=2, trainable=False)` is accepted |
| C81 | `C81_violation` | `DirectionalCouplerWithLength` has a delay but no dispersion |
| C84 | `C84_violation` | a trainable `Soa` with amplification 2 is trained to 1/4 and attenuates |
| C86 | `C86_violation` | `LowpassDetector(cutoff_frequency=100e9)` raises because of its default sample rate, which is not used in an environment |
| C88 | `C88_dtype_violation` | `to(torch.float64)` sets `device` to None; `is_cuda` and `terminate` then raise AttributeError |
| C88 | `C88_terminate_violation` | `Network.terminate` of a network on a gpu returns a network whose own buffers and device are on the cpu |
| C70 | `C70_violation` | lists and tuples of bits are rejected with AttributeError |
| C92 | `C92_violation` | a component with the port order `[0, 0]` is accepted; the order `[1]` of a single port raises NameError |
| C99 | `C99_violation` | in every circuit what enters port 0 of a `Soa` leaves port 0 one step later (the scattering matrix is the identity, soas.py:117-119) |
| C100 | `C100_violation` | a `Soa` next to a `Source` in a network of their own acts on its port 1, port 2 and the port behind it (network.py:844 starts at `num_sources`, but the parent passes only active ports): the detector sees `dt·log(amplification)/startup` in the first step, whatever the source sends, and the flat circuit nothing |
| C101 | `C101_violation` | two networks share a `Soa`; after a call of the other network with twice the time step, a call without gradient tracking in the environment of the last initialization (network.py:753-756 does not initialize again) uses the start-up of the other environment |
| C101 | `C101_violation_failed` | source, `Soa`, `AgrawalSoa`, detector: a call in the frequency domain raises RuntimeError in the second amplifier (soas.py), after the first was given the environment; a call in the time domain, which worked before, then raises TypeError |
| C103 | `C103_violation` | for every time step: two waveguides that light passes in 0.6 steps are given delays of one step each (network.py, `buffermask`), one waveguide of twice the length (1.2 steps) one step; with source and detector the light arrives after two steps or one |
| C105 | `C105_violation` | `Environment(num_wl=51)` has 50 wavelengths (environment.py:116: `int` of 50.99999999999999) |
| C106 | `C106_violation` | `Environment(dt=1e-14, t1=2.3e-13)` has 22 points in time |
| C107 | `C107_violation` | `Environment(dt=1e-14, num_t=23).dt` is not `1e-14` (it is computed back as `t[1] - t[0]`) |
| C107 | `C107_bitlength_violation` | `Environment(bitlength=27e-12).bitlength` is not `27e-12` (`1 / (1 / x)`) |
| C110 | `C110_violation` | environments at 1.55 µm and 1.55001 µm have the same `repr`, `str` and html |
| C110 | `C110_eval_violation` | the call written by `repr(env)` gives `t` and `t0` and always raises `ValueError` |
| C110 | `C110_html_violation` | `Environment(name="<tr>")` adds a row to the html table |
| C111 | `C111_violation`, `C111_python` | `numpy.array(1+0j)` and `1j` as sources raise `ValueError`; `1.0` is accepted |
| C113 | `C113_violation` | `g0 L = 1`, `Psat = 1`, `dt = tc`, input power 4: after two steps `h = 1 - 4(e - 1) < 0` and the amplifier attenuates |
| C117 | `C117_violation` | `Mmi(weights=[[√½, √½]], trainable=True)` is passive; after one step of an optimizer that adds `1 - √½` to the weights it emits twice the injected power |
| C118 | `C118_violation`, `C118_always` | `Network.graph` calls `graph(self, draw=True)` whatever its argument `draw` is (network.py:1026) |
| C121 | `C121_violation` | the check of the coupling is that of `BoundedParameter`, so `DirectionalCoupler(1.2, trainable=False)` is accepted and has `nan` in its scattering matrix; `wl0 = 0` and negative `Tmax` likewise (`C121_numbers`) |
| C122 | `C122_violation` | a trainable coupling (or reflectivity) of 0 or 1 gets the gradient `nan` (infinite derivative of the root times vanishing derivative of the sigmoid), so it is `nan` after one step |
| C124 | `C124_violation` | `RingNetwork(N, capacity)` uses only `capacity // 2` and always ends with a column of interferometers: capacity 2 and 3 give the same network, and the four columns drawn in its documentation cannot be had |
| C130 | `C130_violation` | `DirectionalCoupler(0.5, trainable=False).load_state_dict(DirectionalCoupler(0.5, trainable=True).state_dict())` raises `RuntimeError` (and the other way around): the coupling is a `BoundedParameter` registered as `_coupling` in the one and a `Buffer` registered as `coupling` in the other |
| C131 | `C131_violation`, `C131_overwritten` | `nw.m_west = nw.m_north = pt.Mirror(R=0.9, trainable=True)` is one mirror, not two copies as `/repo/examples/03_circuit_optimization_by_backpropagation.ipynb` says: no training reaches the network of two mirrors trained to different reflectivities, and loading the state of such a network gives both names the reflectivity of `m_north` without an error |
| C133 | `C133_violation` | in `Environment(samplerate=252e9, bitrate=28e9, num_t=100)`, `env.samplerate` is `251999999999.99997` and `MSELoss(latency=0.5)` shifts the prediction by 4 samples instead of `int(4.5 + 0.5) = 5` |
| C134 | `C134_violation`, `C134_long_violation` | in `Environment(dt=1e-12, num_t=100)`, `Waveguide(length=3.05e-3, ng=2.99792458)` (30.5 ps) delays by 30 time steps instead of `int(30.5 + 0.5) = 31`; a delay of 8388609 time steps is one of 8388610 since adding 0.5 rounds to even in single precision |
| C139 | `C139_violation` | `link` on a network that is already a part of a linked network does not rebuild the outer one: its `C` and `port_order` stay 2 x 2 while its property `num_ports`, computed from the parts, is now 4 |
| C140 | `C140_violation` | `terminate([Source("t"), Detector("t")])` connects only the detector, at port 0; port 1 stays open; nothing is raised |
| C142 | `C142_violation` | a ring on a bus with a gain of 20 dB per round trip: finite result in the frequency domain, unbounded in the time domain |
| C144 | `C144_violation` | a lossless waveguide with phase 1/8192: the real part is rounded to 1, the imaginary part is at least 2^-15, so the power grows by 2^-30 or more per pass |
| C145 | `C145_violation`, `C145_bounds_violation` | `BoundedParameter(torch.tensor(0.3), bounds=(0.1, 0.3))` is accepted and has the weight `nan`: `data - a` in single precision is larger than `b - a` in double precision. `BoundedParameter(torch.tensor(0.1), bounds=(-1, 0.1))` represents a number larger than 0.1 |
| C146 | `C146_violation`, `C146_validation_violation` | `forward` resets gradients (`self.zero_grad()` in `initialize`): for every network with a parameter, the second of two passes replaces the gradient of the first instead of adding to it; and a call in another environment between `backward` and `step` makes the step void |
| C147 | `C147_violation` | `theta = 1/8192`: its cosine is rounded to 1 and its sine is not rounded to 0, so more power leaves the Mzi than enters it |
| C148 | `C148_violation` | `seed == self.seed` selects the generator that earlier calls used (`nn.py:304`): for every seed whose random bits are not all equal, a call with the constructor's own seed after another call gives other bits than a new generator |

Observed while modelling, without a theorem of their own:

* Components with a bounded parameter cannot be pickled or saved whole: the setter replaces their class by one made on the fly (nn.py:155-159).
* `load_state_dict` after a simulation without gradients has no effect until the environment changes (see C37).
* A component shared by two networks has its `_env` overwritten by the network initialized last (component.py:220).
* Warmups of -1 and -2 bits are silently treated as 0 when rounded (`int(x + 0.5)` truncates towards zero).
* `Network.graph` adds a node for each external port number, since external connections are strings of three parts.

## 7. Wrong edits of the model

`seeded/LOG.jsonl` has one line per wrong edit tried in a copy of `lean/`. How to read it:

* Most lines come from `tools/seedfast.py`, which builds once per edit. It counts a theorem as failed if the theorem fails, or if its proof in the
  correct model uses a lemma that fails. The second kind shows that the *proof* no longer goes through; it does not by itself show that the statement
  has become false, so long lists in `theorems_failed` overstate how many statements rule out the edit.
* Conversely, theorems in files that could not be built because an earlier file failed are listed only through such lemmas, and theorems
  added after an edit was tried are not in its list.
* Not all edits in `tools/seeds*.py` have been tried (887 are written down, 601 are in the log).
* 32 lines have no failing theorem. They are edits that survived and led to a new or tighter theorem (`theorems_tightened`, or `note` naming the
  repeated edit), edits that turned out equivalent, and edits that do not elaborate and so test nothing (`note`).
  For `env-alias` and `at-raw` theorems were added (C109_legacy, C130_restores_partial) but the repeated edit has not been run; for
  `rb-scaled`, `rw-modsign` and `d14-div` the corrected edit has not been run.
* `tl-noname` was meant for `namedTerm` but changed `padLast`, because the tool edits the first match. All logged edits were then compared with the
  definition they name, as far as their text still occurs in the model (not the case for 3 of 601); two labels (`det-noise`, `rw-pi`) were corrected, no other edit was misplaced.
