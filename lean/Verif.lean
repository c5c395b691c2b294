import Verif.Axioms
import Verif.Model.Accumulate
import Verif.Model.Attr
import Verif.Model.Bounded
import Verif.Model.Build
import Verif.Model.Cache
import Verif.Model.Checkpoint
import Verif.Model.Components
import Verif.Model.Construct
import Verif.Model.Detector
import Verif.Model.DetectorCall
import Verif.Model.Device
import Verif.Model.Devices
import Verif.Model.Draw
import Verif.Model.Env
import Verif.Model.Factory
import Verif.Model.Gear
import Verif.Model.Graph
import Verif.Model.Mesh
import Verif.Model.Nested
import Verif.Model.Network
import Verif.Model.Numbers
import Verif.Model.Plot
import Verif.Model.Py
import Verif.Model.Rounded
import Verif.Model.RoundedBounded
import Verif.Model.RoundedCoupler
import Verif.Model.RoundedDelay
import Verif.Model.RoundedMzi
import Verif.Model.RoundedSignal
import Verif.Model.RoundedWave
import Verif.Model.Seeded
import Verif.Model.Shared
import Verif.Model.Shelf
import Verif.Model.Show
import Verif.Model.Signal
import Verif.Model.Sim
import Verif.Model.Soa
import Verif.Model.Source
import Verif.Model.SourceArg
import Verif.Model.Stack
import Verif.Model.Str
import Verif.Model.Topology
import Verif.Model.Train
import Verif.Model.Warning
import Verif.Proof.Accept
import Verif.Proof.ActiveSim
import Verif.Proof.Arrival
import Verif.Proof.Basic
import Verif.Proof.BlockSolve
import Verif.Proof.Blocks
import Verif.Proof.Braid
import Verif.Proof.Buffer
import Verif.Proof.Buffered
import Verif.Proof.Build
import Verif.Proof.Butter
import Verif.Proof.Chain
import Verif.Proof.Clements
import Verif.Proof.ClementsWaves
import Verif.Proof.Columns
import Verif.Proof.Compose
import Verif.Proof.Continuum
import Verif.Proof.Crow
import Verif.Proof.CrowNet
import Verif.Proof.Delays
import Verif.Proof.Demo
import Verif.Proof.Depth
import Verif.Proof.Device
import Verif.Proof.Energy
import Verif.Proof.Env
import Verif.Proof.Euler
import Verif.Proof.FeedForward
import Verif.Proof.Filter
import Verif.Proof.Gear
import Verif.Proof.GearSim
import Verif.Proof.Grid
import Verif.Proof.Linear
import Verif.Proof.Mesh
import Verif.Proof.MeshTerm
import Verif.Proof.MeshTop
import Verif.Proof.MeshWaves
import Verif.Proof.Named
import Verif.Proof.Names
import Verif.Proof.Nested
import Verif.Proof.NetEqs
import Verif.Proof.Noise
import Verif.Proof.PartEqs
import Verif.Proof.Plant
import Verif.Proof.Plot
import Verif.Proof.PortOrder
import Verif.Proof.Reck
import Verif.Proof.Reduce
import Verif.Proof.Replace
import Verif.Proof.RingChain
import Verif.Proof.Rounded
import Verif.Proof.Rounded32
import Verif.Proof.RoundedBounded
import Verif.Proof.RoundedEnv
import Verif.Proof.RoundedMzi
import Verif.Proof.RoundedSignal
import Verif.Proof.RoundedWave
import Verif.Proof.Sensitive
import Verif.Proof.SensitiveTime
import Verif.Proof.Series
import Verif.Proof.Settled
import Verif.Proof.Show
import Verif.Proof.Signal
import Verif.Proof.SimCore
import Verif.Proof.SimSolve
import Verif.Proof.Site
import Verif.Proof.Smooth
import Verif.Proof.Stable
import Verif.Proof.Stack
import Verif.Proof.Steps
import Verif.Proof.Str
import Verif.Proof.Tolerance
import Verif.Proof.Topology
import Verif.Proof.Train
import Verif.Proof.Tuned
import Verif.Proof.Undamped
import Verif.Proof.Universal
import Verif.Proof.Waves
import Verif.Proof.Wiring
import Verif.Props.Accumulate
import Verif.Props.Action
import Verif.Props.Agrawal
import Verif.Props.Arrival
import Verif.Props.Attr
import Verif.Props.Balance
import Verif.Props.Bounded
import Verif.Props.Buffered
import Verif.Props.Build
import Verif.Props.Butter
import Verif.Props.Cache
import Verif.Props.Capacity
import Verif.Props.Checkpoint
import Verif.Props.Circuits
import Verif.Props.Clements
import Verif.Props.Components
import Verif.Props.Construct
import Verif.Props.Continuum
import Verif.Props.Crow
import Verif.Props.Detector
import Verif.Props.DetectorCall
import Verif.Props.Devices
import Verif.Props.Dispersion
import Verif.Props.Draw
import Verif.Props.Drift
import Verif.Props.Energy
import Verif.Props.EnvConstruct
import Verif.Props.EnvCopy
import Verif.Props.ErrorRate
import Verif.Props.Exact
import Verif.Props.Factory
import Verif.Props.Filters
import Verif.Props.Gear
import Verif.Props.Gradient
import Verif.Props.Graph
import Verif.Props.Impulse
import Verif.Props.Interferometer
import Verif.Props.Keywords
import Verif.Props.Lasting
import Verif.Props.Length
import Verif.Props.Linear
import Verif.Props.Link
import Verif.Props.Loss
import Verif.Props.Lossy
import Verif.Props.Mesh
import Verif.Props.Michelson
import Verif.Props.Modulate
import Verif.Props.Named
import Verif.Props.Nested
import Verif.Props.Noise
import Verif.Props.Numbers
import Verif.Props.Opened
import Verif.Props.Order
import Verif.Props.OrderActive
import Verif.Props.Parts
import Verif.Props.Period
import Verif.Props.Pinned
import Verif.Props.Plot
import Verif.Props.Ports
import Verif.Props.PortsExact
import Verif.Props.Powers
import Verif.Props.Readout
import Verif.Props.Reduction
import Verif.Props.Replace
import Verif.Props.Responses
import Verif.Props.RingChain
import Verif.Props.Rounded
import Verif.Props.RoundedBounded
import Verif.Props.RoundedCopy
import Verif.Props.RoundedCoupler
import Verif.Props.RoundedDelay
import Verif.Props.RoundedMesh
import Verif.Props.RoundedMzi
import Verif.Props.RoundedSignal
import Verif.Props.RoundedWave
import Verif.Props.Scoping
import Verif.Props.Seeded
import Verif.Props.Sensitive
import Verif.Props.SensitiveMesh
import Verif.Props.SensitiveTime
import Verif.Props.Series
import Verif.Props.Settle
import Verif.Props.Shaped
import Verif.Props.Shared
import Verif.Props.Shelf
import Verif.Props.Show
import Verif.Props.ShowComp
import Verif.Props.Soa
import Verif.Props.Source
import Verif.Props.SourceArg
import Verif.Props.Spectrum
import Verif.Props.Stable
import Verif.Props.Stream
import Verif.Props.StreamFilter
import Verif.Props.TermList
import Verif.Props.Terminate
import Verif.Props.Threshold
import Verif.Props.TimeDomain
import Verif.Props.Tolerance
import Verif.Props.Topology
import Verif.Props.Train
import Verif.Props.Transmission
import Verif.Props.Undamped
import Verif.Props.Universal
import Verif.Props.UserComponents
import Verif.Props.Warning
import Verif.Props.Weights
import Verif.Spec.Accumulate
import Verif.Spec.Active
import Verif.Spec.Agrawal
import Verif.Spec.Attr
import Verif.Spec.Balance
import Verif.Spec.Buffered
import Verif.Spec.Build
import Verif.Spec.Butter
import Verif.Spec.Checkpoint
import Verif.Spec.Components
import Verif.Spec.Continuum
import Verif.Spec.Crow
import Verif.Spec.Damped
import Verif.Spec.Device
import Verif.Spec.Drift
import Verif.Spec.Environment
import Verif.Spec.Gear
import Verif.Spec.Gradient
import Verif.Spec.Impulse
import Verif.Spec.Lasting
import Verif.Spec.Link
import Verif.Spec.Mesh
import Verif.Spec.Michelson
import Verif.Spec.Named
import Verif.Spec.Nested
import Verif.Spec.Noise
import Verif.Spec.Numbers
import Verif.Spec.Opened
import Verif.Spec.Plot
import Verif.Spec.Powers
import Verif.Spec.Readout
import Verif.Spec.Replace
import Verif.Spec.RingChain
import Verif.Spec.Rounded
import Verif.Spec.Rounded32
import Verif.Spec.RoundedBounded
import Verif.Spec.RoundedCoupler
import Verif.Spec.RoundedMzi
import Verif.Spec.RoundedWave
import Verif.Spec.Scoping
import Verif.Spec.Seeded
import Verif.Spec.Sensitive
import Verif.Spec.SensitiveMesh
import Verif.Spec.SensitiveTime
import Verif.Spec.Shared
import Verif.Spec.Show
import Verif.Spec.Sim
import Verif.Spec.Source
import Verif.Spec.Spectrum
import Verif.Spec.Tolerance
import Verif.Spec.Topology
import Verif.Spec.Train
import Verif.Spec.Transmission
import Verif.Spec.Weights
