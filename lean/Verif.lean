import Verif.Basic
import Verif.Model.Array
import Verif.Model.Buffer
import Verif.Model.Client
import Verif.Model.Construct
import Verif.Model.ConvCode
import Verif.Model.Cost
import Verif.Model.Cursor
import Verif.Model.Data
import Verif.Model.Depth
import Verif.Model.Deser
import Verif.Model.Dict
import Verif.Model.Factory
import Verif.Model.Fields
import Verif.Model.HandleCode
import Verif.Model.Handler
import Verif.Model.ILInt
import Verif.Model.Io
import Verif.Model.Modes
import Verif.Model.PayloadSkip
import Verif.Model.PayloadTypes
import Verif.Model.Raw
import Verif.Model.ReadCode
import Verif.Model.Requests
import Verif.Model.Schema
import Verif.Model.Size
import Verif.Model.SkipCode
import Verif.Model.StdIo
import Verif.Model.Tag
import Verif.Model.Tailed
import Verif.Model.TryCode
import Verif.Model.Util
import Verif.Model.Width
import Verif.Proof.Agree
import Verif.Proof.Brief
import Verif.Proof.Bulk
import Verif.Proof.BulkCustom
import Verif.Proof.Bytes
import Verif.Proof.Calls
import Verif.Proof.Canon
import Verif.Proof.Canonical
import Verif.Proof.Change
import Verif.Proof.Client
import Verif.Proof.Codec
import Verif.Proof.ConvCode
import Verif.Proof.Cost
import Verif.Proof.Custom
import Verif.Proof.CustomDepth
import Verif.Proof.Data
import Verif.Proof.Deliver
import Verif.Proof.Depth
import Verif.Proof.Evolve
import Verif.Proof.FromBytes
import Verif.Proof.Fuel
import Verif.Proof.Grammar
import Verif.Proof.HandleCode
import Verif.Proof.Header
import Verif.Proof.ILInt
import Verif.Proof.Keeps
import Verif.Proof.Kin
import Verif.Proof.Language
import Verif.Proof.Modes
import Verif.Proof.Nested
import Verif.Proof.Order
import Verif.Proof.Parser
import Verif.Proof.PayloadSkip
import Verif.Proof.Prior
import Verif.Proof.Prog
import Verif.Proof.ReadCode
import Verif.Proof.Recursion
import Verif.Proof.Relay
import Verif.Proof.Renew
import Verif.Proof.Requests
import Verif.Proof.RoundTrip
import Verif.Proof.Scan
import Verif.Proof.Schema
import Verif.Proof.Ser
import Verif.Proof.Shapes
import Verif.Proof.Shrink
import Verif.Proof.Shuffle
import Verif.Proof.SimTag
import Verif.Proof.Size
import Verif.Proof.SkipCode
import Verif.Proof.SortKey
import Verif.Proof.Stable
import Verif.Proof.Std
import Verif.Proof.TagInd
import Verif.Proof.Tailed
import Verif.Proof.Total
import Verif.Proof.TryCode
import Verif.Proof.Types
import Verif.Proof.Upgrade
import Verif.Proof.Upto
import Verif.Proof.Utf8
import Verif.Proof.Verdict
import Verif.Proof.Views
import Verif.Proof.Weigh
import Verif.Proof.Zigzag
import Verif.Props.Access
import Verif.Props.Agree
import Verif.Props.Brief
import Verif.Props.Buffers
import Verif.Props.Bulk
import Verif.Props.BulkCustom
import Verif.Props.Calls
import Verif.Props.Canonical
import Verif.Props.Chain
import Verif.Props.Change
import Verif.Props.Client
import Verif.Props.Construct
import Verif.Props.Consumer
import Verif.Props.ConvCode
import Verif.Props.Cost
import Verif.Props.Cursor
import Verif.Props.Custom
import Verif.Props.Data
import Verif.Props.Depth
import Verif.Props.DictApi
import Verif.Props.Dicts
import Verif.Props.Enough
import Verif.Props.Equality
import Verif.Props.Evolve
import Verif.Props.Factories
import Verif.Props.Faults
import Verif.Props.Fields
import Verif.Props.Final
import Verif.Props.Follow
import Verif.Props.Grammar
import Verif.Props.HandleCode
import Verif.Props.Handler
import Verif.Props.ILInt
import Verif.Props.Index
import Verif.Props.Journal
import Verif.Props.Kin
import Verif.Props.Ledger
import Verif.Props.Levels
import Verif.Props.LevelsCustom
import Verif.Props.Log
import Verif.Props.Lying
import Verif.Props.Memory
import Verif.Props.Modes
import Verif.Props.Normal
import Verif.Props.Pack
import Verif.Props.Patch
import Verif.Props.Payload
import Verif.Props.PayloadSkip
import Verif.Props.Pieces
import Verif.Props.Queue
import Verif.Props.ReadCode
import Verif.Props.Readers
import Verif.Props.Registry
import Verif.Props.Relay
import Verif.Props.Renew
import Verif.Props.Requests
import Verif.Props.Rewrite
import Verif.Props.RoundTrip
import Verif.Props.ScanExact
import Verif.Props.Scanner
import Verif.Props.Schema
import Verif.Props.Serialize
import Verif.Props.Shapes
import Verif.Props.SkipCode
import Verif.Props.SortKey
import Verif.Props.Splice
import Verif.Props.StdErrors
import Verif.Props.Streams
import Verif.Props.Tailed
import Verif.Props.Text
import Verif.Props.Threads
import Verif.Props.TooLarge
import Verif.Props.TryCode
import Verif.Props.Types
import Verif.Props.Upgrade
import Verif.Props.ValueApi
import Verif.Props.ValueCustom
import Verif.Props.Values
import Verif.Props.Verdict
import Verif.Props.Width
import Verif.Spec.Access
import Verif.Spec.Brief
import Verif.Spec.Bulk
import Verif.Spec.BulkCustom
import Verif.Spec.Calls
import Verif.Spec.Canonical
import Verif.Spec.Chain
import Verif.Spec.Change
import Verif.Spec.Client
import Verif.Spec.Clone
import Verif.Spec.Consumer
import Verif.Spec.Cost
import Verif.Spec.Custom
import Verif.Spec.CustomDepth
import Verif.Spec.Data
import Verif.Spec.Depth
import Verif.Spec.Dict
import Verif.Spec.Evolve
import Verif.Spec.Factory
import Verif.Spec.Faults
import Verif.Spec.Fields
import Verif.Spec.Follow
import Verif.Spec.Follows
import Verif.Spec.Grammar
import Verif.Spec.Handler
import Verif.Spec.ILInt
import Verif.Spec.Index
import Verif.Spec.Journal
import Verif.Spec.Kin
import Verif.Spec.Log
import Verif.Spec.Memory
import Verif.Spec.Mirror
import Verif.Spec.Noted
import Verif.Spec.Pack
import Verif.Spec.Pieces
import Verif.Spec.Prog
import Verif.Spec.Queue
import Verif.Spec.Raw
import Verif.Spec.Reader
import Verif.Spec.Renew
import Verif.Spec.Reported
import Verif.Spec.Scan
import Verif.Spec.Schema
import Verif.Spec.Shapes
import Verif.Spec.SortKey
import Verif.Spec.Splice
import Verif.Spec.Tag
import Verif.Spec.Tailed
import Verif.Spec.Threads
import Verif.Spec.Types
import Verif.Spec.Upgrade
import Verif.Spec.Utf8
import Verif.Spec.Verdict
import Verif.Spec.Watch
import Verif.Spec.Weigh
import Verif.Spec.Writer
import Verif.Spec.WriterMirror
import Verif.Tests.Array
import Verif.Tests.Data
import Verif.Tests.Explicit
import Verif.Tests.ILInt
import Verif.Tests.Implicit
import Verif.Tests.Io
import Verif.Tests.StdIo
import Verif.Tests.Tags
