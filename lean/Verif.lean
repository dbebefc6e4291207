import Verif.Model.Ser
import Verif.Model.Base32
import Verif.Model.Query
import Verif.Model.Validation
import Verif.Props.Names
import Verif.Props.Wire
import Verif.Props.Order
import Verif.Props.Misc
import Verif.Props.Sig
import Verif.Props.Validation
import Verif.Props.Termination
import Verif.Props.Resolve
import Verif.Props.Query
import Verif.Props.Json
import Verif.Props.Http
import Verif.Props.Wasm
import Verif.Props.Records
import Verif.Props.Trust
import Verif.Spec.World
import Verif.Proofs.World
import Verif.Proofs.Honest
import Verif.Proofs.KeyOrder
import Verif.Props.Honest
import Verif.Model.Doh
import Verif.Spec.Doh
import Verif.Proofs.JsonUnique
import Verif.Proofs.Doh
import Verif.Props.Doh
import Verif.Model.Debug
import Verif.Proofs.Debug
import Verif.Props.Debug
import Verif.Spec.Operators
import Verif.Proofs.Operators
import Verif.Props.Operators
import Verif.Spec.Relevant
import Verif.Proofs.Relevant
import Verif.Props.Relevant
import Verif.Spec.Server
import Verif.Proofs.Server
import Verif.Props.Server
import Verif.Model.Server
import Verif.Spec.Tasks
import Verif.Proofs.Tasks
import Verif.Props.Tasks
import Verif.Spec.Combine
import Verif.Proofs.Combine
import Verif.Props.Combine
import Verif.Model.DebugQuery
import Verif.Spec.DebugQuery
import Verif.Proofs.DebugQuery
import Verif.Props.DebugQuery
import Verif.Model.Ticks
import Verif.Proofs.Ticks
import Verif.Proofs.Counted
import Verif.Spec.Ticks
import Verif.Props.Ticks
import Verif.Proofs.BufEq
import Verif.Props.BufEq
import Verif.Model.Crypto
import Verif.Spec.Crypto
import Verif.Proofs.Crypto
import Verif.Props.Crypto
import Verif.Spec.Once
import Verif.Proofs.Once
import Verif.Props.Once
import Verif.Conformance.Primitives
import Verif.Conformance.Data
import Verif.Conformance.Run
import Verif.Conformance.Tests
import Verif.Conformance.TestsStream
import Verif.Conformance.TestsNsecA
import Verif.Conformance.TestsNsecB
import Verif.Conformance.Fuzz
import Verif.Model.Hasher
import Verif.Spec.Hasher
import Verif.Props.Hasher
import Verif.Props.RealRoot
import Verif.Model.Fuzzing
import Verif.Spec.Fuzzing
import Verif.Proofs.Fuzzing
import Verif.Props.Fuzzing
import Verif.Proofs.RoundTrip
import Verif.Spec.Chain
import Verif.Proofs.Chain
import Verif.Props.Chain
import Verif.Props.WildChain
import Verif.Props.Question
import Verif.Props.Keys
import Verif.Model.Write
import Verif.Spec.Write
import Verif.Proofs.Write
import Verif.Props.Write
import Verif.Props.Existing
import Verif.Spec.Window
import Verif.Props.Window
import Verif.Props.Cache
import Verif.Props.Denials
import Verif.Props.Monotone
import Verif.Spec.Labels
import Verif.Proofs.WireLabels
import Verif.Props.Labels
import Verif.Spec.Unsupported
import Verif.Proofs.Unsupported
import Verif.Props.Unsupported
import Verif.Spec.Published
import Verif.Props.Published
import Verif.Spec.Answer
import Verif.Props.Answer
import Verif.Spec.Leftover
import Verif.Proofs.Leftover
import Verif.Props.Leftover
import Verif.Spec.Sorting
import Verif.Props.Sorting
import Verif.Props.AnyOrder
import Verif.Spec.Agreement
import Verif.Props.Agreement
import Verif.Spec.Malleable
import Verif.Props.Malleable
import Verif.Spec.Fresh
import Verif.Props.Fresh
import Verif.Spec.Delegation
import Verif.Props.Delegation
import Verif.Spec.Trace
import Verif.Proofs.Trace
import Verif.Props.Trace
import Verif.Spec.Split
import Verif.Proofs.Split
import Verif.Props.Split
import Verif.Spec.Rollover
import Verif.Props.Rollover
import Verif.Spec.Rfc9102
import Verif.Proofs.Rfc9102
import Verif.Props.Rfc9102
import Verif.Spec.KeyTags
import Verif.Props.KeyTags
import Verif.Spec.RootKeys
import Verif.Props.RootKeys
import Verif.Spec.OwnWildcard
import Verif.Props.OwnWildcard
import Verif.Spec.PlainMessage
import Verif.Proofs.PlainMessage
import Verif.Props.PlainMessage
import Verif.Spec.UnknownTypes
import Verif.Props.UnknownTypes
import Verif.Props.ServerExact
import Verif.Model.Duplex
import Verif.Spec.Duplex
import Verif.Proofs.Duplex
import Verif.Props.Duplex
import Verif.Props.Silent
import Verif.Spec.Memory
import Verif.Proofs.Memory
import Verif.Props.Memory
import Verif.Props.Absent
import Verif.Proofs.Simple
import Verif.Proofs.Counter
import Verif.Props.AliasWork
import Verif.Spec.Recovery
import Verif.Proofs.Recovery
import Verif.Props.Recovery
import Verif.Spec.ResolveOrder
import Verif.Proofs.ResolveOrder
import Verif.Props.ResolveOrder
import Verif.Spec.Secure
import Verif.Proofs.Secure
import Verif.Props.Secure
import Verif.Spec.Cuts
import Verif.Props.Cuts
import Verif.Spec.Held
import Verif.Model.Held
import Verif.Proofs.Held
import Verif.Proofs.HeldExponential
import Verif.Props.Held
import Verif.Props.Disclosed
import Verif.Model.Files
import Verif.Spec.Files
import Verif.Props.Files
import Verif.Spec.ConnMemory
import Verif.Props.ConnMemory
import Verif.Model.Conn
import Verif.Spec.Conn
import Verif.Proofs.Conn
import Verif.Props.Conn
