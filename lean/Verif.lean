import Verif.Model.Basic
import Verif.Model.Parsers
import Verif.Model.Api
import Verif.Spec
import Verif.SpecTrace
import Verif.Proofs.Fuel
import Verif.Proofs.Equations
import Verif.Proofs.Eval
import Verif.Proofs.Heap
import Verif.Proofs.Local
import Verif.Proofs.Sim
import Verif.Proofs.Typing
import Verif.Proofs.CText
import Verif.Proofs.Denote
import Verif.Proofs.Adequacy
import Verif.Proofs.Main
import Verif.Proofs.Step
import Verif.SpecObjects
import Verif.Proofs.SpecFacts
import Verif.Proofs.Context
import Verif.Props.Tokens
import Verif.Props.Objects
import Verif.Props.Ignore
import Verif.Props.Containers
import Verif.Props.Unions
import Verif.SpecHistory
import Verif.SpecTyped
import Verif.SpecState
import Verif.Proofs.Chain
import Verif.Proofs.Control
import Verif.Proofs.Open
import Verif.Proofs.Tidy
import Verif.Proofs.TidyStep
import Verif.Demo
import Verif.Props.Control
import Verif.Props.Reuse
import Verif.Props.Api
import Verif.Props.Typed
import Verif.SpecCalls
import Verif.Proofs.Calls
import Verif.Proofs.Ends
import Verif.Props.Callbacks
import Verif.Props.Session
import Verif.SpecDefects
import Verif.Proofs.Unsets
import Verif.Proofs.Doom
import Verif.Proofs.Acts
import Verif.Proofs.Lost
import Verif.Proofs.Lax
import Verif.Proofs.Track
import Verif.Proofs.Sure
import Verif.Props.Accept
import Verif.Props.Whole
import Verif.Proofs.Round
import Verif.Props.Round
import Verif.Model.Moves
import Verif.SpecMoves
import Verif.Proofs.Moves
import Verif.Props.Moves
import Verif.SpecOrder
import Verif.Proofs.Order
import Verif.Props.Order
import Verif.Proofs.Touch
import Verif.Props.Isolation
import Verif.SpecAlike
import Verif.Proofs.Alike
import Verif.Proofs.AlikeStep
import Verif.Proofs.AlikeRun
import Verif.Proofs.Guard
import Verif.Props.Alike
import Verif.SpecTimed
import Verif.Proofs.Timed
import Verif.Props.Streaming
import Verif.SpecRelax
import Verif.Proofs.Relax
import Verif.Props.Relax
import Verif.SpecConform
import Verif.Proofs.Conform
import Verif.Props.Conform
import Verif.SpecGrow
import Verif.Proofs.Grow
import Verif.Props.Grow
import Verif.SpecActive
import Verif.Proofs.Active
import Verif.Proofs.ActiveFacts
import Verif.Props.Active
import Verif.SpecWatch
import Verif.Proofs.Watch
import Verif.Props.Watch
import Verif.SpecDouble
import Verif.Proofs.Double
import Verif.Props.Names
import Verif.Model.Alloc
import Verif.Props.Alloc
import Verif.Props.Empty
import Verif.Proofs.Access
import Verif.Props.Exact
import Verif.Props.Text
import Verif.Model.Memory
import Verif.SpecMemory
import Verif.Proofs.Memory
import Verif.Proofs.Fit
import Verif.Proofs.Short
import Verif.Proofs.MemoryApi
import Verif.Props.Memory
import Verif.Proofs.Shared
import Verif.Proofs.SharedId
import Verif.Props.Shared
import Verif.SpecSize
import Verif.Proofs.Size
import Verif.Proofs.Wane
import Verif.Proofs.Stream
import Verif.Proofs.Linear
import Verif.Props.Size
import Verif.SpecRename
import Verif.Proofs.Rename
import Verif.Suite.Values
import Verif.Suite.Arrays
import Verif.Suite.Objects
import Verif.Suite.Maps
import Verif.Suite.Unions
import Verif.Props.UserTypes
import Verif.Suite.UserTypes
import Verif.Proofs.Outward
import Verif.Props.Outward
import Verif.Proofs.Hash
import Verif.Props.Hash
import Verif.Proofs.Custom
import Verif.Props.Custom
import Verif.Props.Reset
import Verif.Props.Deliver
import Verif.Props.DeliverUnion
import Verif.Props.Declared
import Verif.SpecAhead
import Verif.Proofs.Ahead
import Verif.Props.Ahead
import Verif.SpecThrough
import Verif.Proofs.Through
import Verif.Props.Through
import Verif.Props.Take
import Verif.Props.Skip
import Verif.Props.Nulls
import Verif.Props.Steps
import Verif.Props.Repeat
import Verif.Props.Inside
import Verif.Props.InsideMap
import Verif.Props.InsideUnion
import Verif.Props.Schema
