import Verif.Model.Basic
import Verif.Model.Sizeofs
import Verif.Model.PackedFixed
import Verif.Model.Utf8
import Verif.Model.Writer
import Verif.Model.Reader
import Verif.Spec.Wire
import Verif.Spec.Utf8
import Verif.Spec.Programs
import Verif.Proofs.SM
import Verif.Proofs.Varint
import Verif.Proofs.Writer
import Verif.Proofs.Backends
import Verif.Proofs.Utf8
import Verif.Proofs.Scalars
import Verif.Proofs.Reader
import Verif.Props.Varint
import Verif.Props.Delimited
import Verif.Props.PackedFixed
import Verif.Spec.Fields
import Verif.Spec.Reads
import Verif.Proofs.Orderly
import Verif.Proofs.Limits
import Verif.Props.Reader
import Verif.Props.Framing
import Verif.Model.Pbrs.Types
import Verif.Model.Gen
import Verif.Spec.Message
import Verif.Proofs.GenWrite
import Verif.Proofs.GenRead
import Verif.Proofs.GenMsg
import Verif.Props.Example
import Verif.Props.Messages
import Verif.Proofs.GenGood
import Verif.Proofs.Chunk
import Verif.Proofs.Fuel
import Verif.Props.Safety
import Verif.Spec.Decode
import Verif.Spec.Compat
import Verif.Proofs.Decode
import Verif.Props.Decode
import Verif.Proofs.Concat
import Verif.Props.Compat
import Verif.Props.FieldKinds
import Verif.Spec.Resolved
import Verif.Proofs.Typed
import Verif.Spec.Unsign
import Verif.Proofs.Unsign
import Verif.Model.Owned
import Verif.Props.Owned
import Verif.Model.Pbrs.Scc
import Verif.Spec.Graph
import Verif.Spec.Schema
import Verif.Proofs.Tarjan
import Verif.Proofs.Sccs
import Verif.Model.Pbrs.Cycles
import Verif.Spec.Rewrite
import Verif.Proofs.Cycles
import Verif.Props.Cycles
import Verif.Model.Pbrs.Names
import Verif.Props.Names
import Verif.Model.Pbrs.Resolve
import Verif.Spec.Scopes
import Verif.Proofs.Resolve
import Verif.Props.Resolve
import Verif.Model.Pbrs.Lifetime
import Verif.Spec.Borrow
import Verif.Proofs.Lifetime
import Verif.Props.Lifetime
import Verif.Model.Pbrs.Passes
import Verif.Spec.Pipeline
import Verif.Proofs.Passes
import Verif.Proofs.Compile
import Verif.Proofs.Sanity
import Verif.Proofs.Ready
import Verif.Props.Compile
import Verif.Model.Pbrs.ModFile
import Verif.Spec.ModFile
import Verif.Props.ModFile
import Verif.Model.Pbrs.Nom
import Verif.Model.Pbrs.Parser
import Verif.Spec.Grammar
import Verif.Proofs.Nom
import Verif.Proofs.Lexical
import Verif.Proofs.ParserPost
import Verif.Proofs.ParserFuel
import Verif.Proofs.Grammar
import Verif.Proofs.Statements
import Verif.Proofs.MessageText
import Verif.Proofs.FileText
import Verif.Spec.Printer
import Verif.Spec.Opening
import Verif.Spec.Words
import Verif.Spec.Panics
import Verif.Proofs.Trim
import Verif.Proofs.Inversion
import Verif.Proofs.Printer
import Verif.Proofs.Reject
import Verif.Proofs.NegativeEnum
import Verif.Proofs.Panics
import Verif.Props.Parser
import Verif.Model.Pbrs.Imports
import Verif.Spec.Imports
import Verif.Proofs.Imports
import Verif.Proofs.ImportFuel
import Verif.Props.Imports
import Verif.Model.Pbrs.Doc
import Verif.Model.Pbrs.Emit
import Verif.Model.Pbrs.Run
import Verif.Spec.Run
import Verif.Proofs.Idents
import Verif.Proofs.Run
import Verif.Props.Run
import Verif.Conformance.NoStd
import Verif.Conformance.V2
import Verif.Conformance.V3
import Verif.Conformance.V3Owned
import Verif.Model.Rust.Syntax
import Verif.Model.Rust.Trees
import Verif.Model.Rust.Eval
import Verif.Spec.Generated
import Verif.Spec.Printed
import Verif.Spec.Distinct
import Verif.Proofs.Trees
import Verif.Proofs.TreesExist
import Verif.Proofs.Eval
import Verif.Proofs.EvalSize
import Verif.Proofs.EvalOneof
import Verif.Proofs.EvalWrite
import Verif.Proofs.EvalRead
import Verif.Proofs.EvalProg
import Verif.Proofs.Printed
import Verif.Proofs.GenExists
import Verif.Props.Generated
import Verif.Spec.Named
import Verif.Proofs.Heads
import Verif.Proofs.Named
import Verif.Model.Rust.Enums
import Verif.Spec.Enums
import Verif.Proofs.Enums
import Verif.Props.Enums
import Verif.Spec.Torn
import Verif.Proofs.Torn
import Verif.Proofs.Tears
import Verif.Props.Torn
import Verif.Props.Profiles
import Verif.Spec.Intact
import Verif.Props.Intact
import Verif.Spec.RustTypes
import Verif.Proofs.RustTypes
import Verif.Props.RustTypes
import Verif.Spec.Search
import Verif.Props.Search
import Verif.Model.Pbrs.Cli
import Verif.Spec.Invocation
import Verif.Props.Invocation
import Verif.Model.Rust.Getters
import Verif.Spec.Getters
import Verif.Proofs.Getters
import Verif.Props.Getters
import Verif.Spec.Modules
import Verif.Spec.Labels
import Verif.Spec.Layout
import Verif.Proofs.Layout
import Verif.Proofs.Labels
import Verif.Props.Paths
import Verif.Spec.Paths
import Verif.Spec.Links
import Verif.Spec.Lifetimes
import Verif.Proofs.Paths
import Verif.Proofs.Located
import Verif.Proofs.Links
import Verif.Props.PathsExample
import Verif.Props.Derives
import Verif.Props.Lifetimes
import Verif.Spec.Weight
import Verif.Proofs.Weight
import Verif.Props.Memory
import Verif.Spec.Depth
import Verif.Proofs.Depth
import Verif.Props.Depth
import Verif.Spec.Versions
import Verif.Proofs.Versions
import Verif.Props.Versions
import Verif.Model.Rust.Literals
import Verif.Spec.Defaults
import Verif.Proofs.Defaults
import Verif.Props.Defaults
import Verif.Spec.EnumDefaults
import Verif.Proofs.EnumDefaults
import Verif.Props.EnumDefaults
import Verif.Spec.InScope
import Verif.Proofs.InScope
import Verif.Props.InScope
import Verif.Props.InScopeExample
import Verif.Spec.MapOrder
import Verif.Props.MapOrder
import Verif.Spec.Merge
import Verif.Proofs.Merge
import Verif.Props.Merge
import Verif.Model.File
import Verif.Spec.File
import Verif.Props.File
import Verif.Spec.Presence
import Verif.Props.Presence
import Verif.Spec.Slices
import Verif.Proofs.Slices
import Verif.Props.Slices
import Verif.Model.OwnedMemory
import Verif.Spec.OwnedMemory
import Verif.Proofs.OwnedMemory
import Verif.Props.OwnedMemory
import Verif.Spec.Legal
import Verif.Proofs.Legal
import Verif.Props.Legal
import Verif.Props.Info
import Verif.Spec.Separate
import Verif.Proofs.Separate
import Verif.Props.Separate
import Verif.Model.Pbrs.Steps
import Verif.Spec.Parallel
import Verif.Proofs.Steps
import Verif.Proofs.Turns
import Verif.Proofs.Looks
import Verif.Props.Parallel
import Verif.Spec.Typing
import Verif.Proofs.Typing
import Verif.Props.Typing
import Verif.Spec.Options
import Verif.Proofs.Options
import Verif.Proofs.OptionsGen
import Verif.Proofs.OptionsSame
import Verif.Props.Options
import Verif.Model.Equality
import Verif.Spec.Equality
import Verif.Proofs.Equality
import Verif.Proofs.EqualityMeaning
import Verif.Proofs.EqualityLaws
import Verif.Props.Equality
import Verif.Model.Cost
import Verif.Proofs.Cost
import Verif.Proofs.Counts
import Verif.Props.Time
import Verif.Model.WriteCost
import Verif.Proofs.WriteCost
import Verif.Proofs.WriteCostTyped
import Verif.Props.WriteTime
import Verif.Model.Pbrs.Services
import Verif.Spec.Services
import Verif.Proofs.Services
import Verif.Props.Services
import Verif.Spec.Traits
import Verif.Props.Traits
import Verif.Model.Pbrs.FromImpls
import Verif.Spec.FromImpls
import Verif.Props.FromImpls
import Verif.Props.Keywords
import Verif.Spec.EqualBytes
import Verif.Proofs.EqualBytes
import Verif.Props.EqualBytes
import Verif.Spec.Errors
import Verif.Proofs.Errors
import Verif.Props.Errors
import Verif.Props.ForbiddenMaps
import Verif.Model.ErrorText
import Verif.Props.ErrorText
import Verif.Props.Numbers
import Verif.Spec.Frame
import Verif.Props.Frame
import Verif.Props.SameMeaning
import Verif.Spec.Added
import Verif.Proofs.AddEmit
import Verif.Proofs.AddEnums
import Verif.Props.Added
import Verif.Spec.Nameless
import Verif.Props.Nameless
import Verif.Props.CycleText
import Verif.Proofs.GrowEmit
import Verif.Props.Printed
