import Verif.Rust
import Verif.Bits
import Verif.Headers
import Verif.Types
import Verif.Addr
import Verif.Packet
import Verif.Slow
import Verif.Fast
import Verif.Utils
import Verif.Spec.Bits
import Verif.Lemmas.Bits
import Verif.Lemmas.Bytes
import Verif.Props.Fields
import Verif.Props.Container
import Verif.Spec.Dissect
import Verif.Lemmas.Step
import Verif.Lemmas.SlowStep
import Verif.Lemmas.Grammar
import Verif.Lemmas.Win
import Verif.Lemmas.FastStep
import Verif.Props.Parser
import Verif.Spec.Text
import Verif.Spec.Read
import Verif.Lemmas.Pieces
import Verif.Props.Text
import Verif.Spec.Checksum
import Verif.Props.Checksum
import Verif.Props.Constructors
import Verif.Spec.Build
import Verif.Lemmas.Build
import Verif.Props.Builders
import Verif.Props.BuildersShape
import Verif.Props.BuildersLen
import Verif.Props.BuildersSum
import Verif.Samples
import Verif.Lemmas.Walk
import Verif.Props.BuildersParse
import Verif.Prog
import Verif.Heap
import Verif.Conc
import Verif.Spec.Origin
import Verif.Lemmas.Prog
import Verif.Lemmas.Sect
import Verif.Lemmas.Heap
import Verif.Lemmas.Origin
import Verif.Lemmas.Store
import Verif.Props.Heap
import Verif.Spec.Race
import Verif.Lemmas.Conc
import Verif.Lemmas.Race
import Verif.Lemmas.Term
import Verif.Lemmas.Mix
import Verif.Lemmas.Attain
import Verif.Lemmas.Split
import Verif.Props.Conc
import Verif.Show
import Verif.Spec.Show
import Verif.Props.Show
import Verif.Spec.Chain
import Verif.Props.Reparse
import Verif.Spec.Numbers
import Verif.Props.Types
import Verif.Diag
import Verif.Spec.Diag
import Verif.Props.Diag
import Verif.Props.ChecksumErrors
import Verif.Props.Nest
import Verif.Spec.Snapshot
import Verif.Props.Snapshot
import Verif.Props.CompareConc
import Verif.Spec.Atomic
import Verif.Lemmas.Atomic
import Verif.Props.Atomic
import Verif.Spec.Deadlock
import Verif.Props.Deadlock
import Verif.Props.View
import Verif.Stack
import Verif.Spec.Stack
import Verif.Lemmas.Stack
import Verif.Lemmas.StackFast
import Verif.Props.Depth
import Verif.RepoTests
import Verif.Encap
import Verif.Spec.Names
import Verif.Lemmas.Alone
import Verif.Props.Encap
import Verif.Spec.Mutex
import Verif.Props.Mutex
import Verif.Props.Surgery
import Verif.Pcap
import Verif.Spec.Pcap
import Verif.Props.Pcap
import Verif.ShowStore
import Verif.Props.ShowStore
import Verif.Props.Refresh
import Verif.Spec.Lengths
import Verif.Props.Lengths
import Verif.Props.Profile
import Verif.Spec.Transport
import Verif.Props.Transport
import Verif.Dyn
import Verif.Spec.Dyn
import Verif.Props.Dyn
import Verif.Props.PrefixCode
import Verif.Spec.Cost
import Verif.Cost
import Verif.Lemmas.Cost
import Verif.Lemmas.CostFast
import Verif.Props.Cost
import Verif.Props.Layers
import Verif.Spec.Same
import Verif.Props.Collide
import Verif.Props.CollideMore
import Verif.Spec.Tower
import Verif.Props.Tower
import Verif.Props.Transcript
import Verif.Spec.Receive
import Verif.Props.Receive
import Verif.Spec.Wire
import Verif.Props.Formats
import Verif.Spec.Defaults
import Verif.Props.Defaults
import Verif.Spec.Image
import Verif.Props.Image
import Verif.Spec.Writes
import Verif.Props.Writes
import Verif.Addr6
import Verif.Spec.Text6
import Verif.Props.Text6
import Verif.TestVerify
import Verif.Props.TestVerify
import Verif.Drop
import Verif.Spec.Drop
import Verif.Lemmas.Drop
import Verif.Props.Drop
import Verif.Spec.ShowImage
import Verif.Props.ShowImage
import Verif.Spec.Defs
import Verif.Props.Defs
import Verif.Spec.Locks
import Verif.Props.Locks
import Verif.Spec.Host
import Verif.Props.Host
import Verif.Spec.Seen
import Verif.Props.Seen
import Verif.Spec.Forward
import Verif.Props.Forward
import Verif.Props.Ports
import Verif.Spec.Bridge
import Verif.Props.Bridge
import Verif.Spec.Turn
import Verif.Props.Turn
import Verif.Spec.Napt
import Verif.Props.Napt
import Verif.Spec.Endpoint
import Verif.Props.Endpoint
import Verif.Spec.Finish
import Verif.Props.Finish
import Verif.Spec.Network
import Verif.Props.Network
import Verif.Spec.Series
import Verif.Props.Series
import Verif.Spec.Fragment
import Verif.Props.Fragment
import Verif.Spec.Stream
import Verif.Props.Stream
import Verif.Props.Padding
import Verif.Spec.Route
import Verif.Props.Route
import Verif.Spec.Resolve
import Verif.Props.Resolve
import Verif.Spec.Transfer
import Verif.Props.Transfer
import Verif.Spec.Switch
import Verif.Props.Switch
import Verif.Spec.Flood
import Verif.Props.Flood
import Verif.Spec.Gateway
import Verif.Props.Gateway
import Verif.Spec.Taint
import Verif.Props.Taint
import Verif.Spec.Apart
import Verif.Props.Apart
import Verif.Spec.Through
import Verif.Props.Through
import Verif.Props.Internet
import Verif.Spec.Fatal
import Verif.Props.Fatal
import Verif.Props.Guard
import Verif.Props.Hostile
import Verif.Props.Shortest
import Verif.Props.Twice
import Verif.Spec.Cells
import Verif.Props.Publish
import Verif.Spec.Exclude
import Verif.Props.Exclude
import Verif.Spec.Elect
import Verif.Props.Elect
import Verif.Props.ElectMany
import Verif.Spec.Tangle
import Verif.Props.Tangle
import Verif.Spec.Tally
import Verif.Props.Tally
import Verif.Spec.Seqlock
import Verif.Props.Seqlock
import Verif.Spec.Again
import Verif.Props.Again
