import Verif.Base
import Verif.Model.Permute
import Verif.Model.Getopt
import Verif.Model.Table
import Verif.Model.Parse
import Verif.Model.Values
import Verif.Model.Date
import Verif.Model.Rex
import Verif.Model.Print
import Verif.Model.Objects
import Verif.Spec.Cmdline
import Verif.Spec.WellFormed
import Verif.Spec.Outcome
import Verif.Proofs.Permute
import Verif.Proofs.Tables
import Verif.Proofs.Getopt
import Verif.Proofs.Cluster
import Verif.Proofs.Loop
import Verif.Proofs.ParseSpec
import Verif.Proofs.Outcome
import Verif.Spec.Lawful
import Verif.Spec.RexSafe
import Verif.Proofs.Lawful
import Verif.Proofs.RexCompile
import Verif.Proofs.RexMatch
import Verif.Spec.Live
import Verif.Spec.Context
import Verif.Proofs.Live
import Verif.Proofs.Context
import Verif.Proofs.Reading
import Verif.Proofs.Stuck
import Verif.Proofs.Checks
import Verif.Props.Demo
import Verif.Props.Cmdline
import Verif.Props.Parse
import Verif.Spec.Operands
import Verif.Proofs.Operands
import Verif.Props.Operands
import Verif.Spec.Remark
import Verif.Proofs.Remark
import Verif.Props.Remark
import Verif.Spec.Steady
import Verif.Proofs.DateSteady
import Verif.Proofs.History
import Verif.Proofs.Twin
import Verif.Props.History
import Verif.Spec.Integer
import Verif.Spec.Scan
import Verif.Proofs.Integer
import Verif.Proofs.IntScan
import Verif.Proofs.Scan
import Verif.Props.Values
import Verif.Spec.Date
import Verif.Proofs.Date
import Verif.Proofs.DateConv
import Verif.Proofs.DateRange
import Verif.Props.Date
import Verif.Spec.Rex
import Verif.Proofs.RexLiteral
import Verif.Props.Rex
import Verif.Model.Dstr
import Verif.Spec.Dstr
import Verif.Proofs.Dstr
import Verif.Props.Dstr
import Verif.Model.Cmd
import Verif.Model.Hash
import Verif.Spec.Cmd
import Verif.Spec.Hash
import Verif.Proofs.Cmd
import Verif.Proofs.Hash
import Verif.Proofs.HashIter
import Verif.Proofs.HashOps
import Verif.Props.Hash
import Verif.Model.Sort
import Verif.Spec.Sort
import Verif.Proofs.Sort
import Verif.Props.Sort
import Verif.Spec.Print
import Verif.Proofs.Glossary
import Verif.Proofs.Print
import Verif.Proofs.PrintTable
import Verif.Proofs.Wrap
import Verif.Props.Print
import Verif.Model.Free
import Verif.Model.Makers
import Verif.Spec.Free
import Verif.Spec.Messages
import Verif.Proofs.Free
import Verif.Proofs.Messages
import Verif.Props.Free
import Verif.Props.Messages
import Verif.Spec.Regex
import Verif.Proofs.RegexCompile
import Verif.Proofs.RegexMatch
import Verif.Props.Regex
import Verif.Spec.RegexDet
import Verif.Proofs.RegexExact
import Verif.Model.Help
import Verif.Spec.Help
import Verif.Proofs.Help
import Verif.Props.Help
import Verif.Spec.Stored
import Verif.Proofs.Stored
import Verif.Props.Stored
import Verif.Spec.Entered
import Verif.Proofs.Entered
import Verif.Props.Entered
import Verif.Spec.Reorder
import Verif.Spec.Spelling
import Verif.Proofs.Reorder
import Verif.Proofs.Spelling
import Verif.Props.Spelling
import Verif.Proofs.RexCount
import Verif.Props.Reorder
import Verif.Spec.Extend
import Verif.Proofs.Extend
import Verif.Props.Extend
import Verif.Model.Layout
import Verif.Spec.Layout
import Verif.Props.Layout
import Verif.Model.Stream
import Verif.Spec.Stream
import Verif.Proofs.Stream
import Verif.Props.Stream
import Verif.Model.ParseMem
import Verif.Model.RexMem
import Verif.Spec.Memory
import Verif.Proofs.ParseMem
import Verif.Proofs.RexMem
import Verif.Props.Memory
import Verif.Model.CmdMem
import Verif.Spec.Pointers
import Verif.Proofs.CmdMem
import Verif.Props.Registry
import Verif.Model.ModMem
import Verif.Spec.Module
import Verif.Proofs.ModMem
import Verif.Props.Module
import Verif.Spec.Getopt
import Verif.Proofs.GetoptAny
import Verif.Props.Getopt
import Verif.Model.GetoptPtr
import Verif.Model.ParsePtr
import Verif.Spec.Within
import Verif.Proofs.GetoptPtr
import Verif.Proofs.ObjPtr
import Verif.Proofs.ParsePtr
import Verif.Props.Within
import Verif.Model.ParseOnly
import Verif.Spec.Only
import Verif.Proofs.Only
import Verif.Proofs.OnlyContext
import Verif.Proofs.OnlySpec
import Verif.Props.Only
import Verif.Model.Strtod
import Verif.Spec.Double
import Verif.Proofs.Strtod
import Verif.Props.Double
import Verif.Model.ParseOom
import Verif.Spec.Oom
import Verif.Proofs.ParseOom
import Verif.Props.Oom
import Verif.Spec.Sample
import Verif.Proofs.Sample
import Verif.Props.Sample
import Verif.Model.Life
import Verif.Spec.Life
import Verif.Proofs.Life
import Verif.Props.Life
import Verif.Spec.Express
import Verif.Proofs.Express
import Verif.Props.Express
import Verif.Spec.RegexRun
import Verif.Proofs.RegexRun
import Verif.Props.Walk
import Verif.Proofs.RegexDec
import Verif.Proofs.RegexTrees
import Verif.Props.Trees
import Verif.Model.DstrOom
import Verif.Spec.DstrOom
import Verif.Proofs.DstrOom
import Verif.Props.Shortage
import Verif.Model.CmdOom
import Verif.Spec.CmdOom
import Verif.Proofs.CmdOom
import Verif.Props.Recover
import Verif.Spec.Several
import Verif.Proofs.Several
import Verif.Props.Several
import Verif.Spec.Iterate
import Verif.Proofs.Iterate
import Verif.Props.Iterate
import Verif.Model.LifeOom
import Verif.Spec.LifeOom
import Verif.Proofs.LifeOom
import Verif.Props.Survive
import Verif.Model.Shared
import Verif.Spec.Shared
import Verif.Proofs.Decode
import Verif.Proofs.Own
import Verif.Proofs.Shared
import Verif.Props.Callbacks
import Verif.Spec.Work
import Verif.Proofs.Work
import Verif.Props.Work
import Verif.Model.Program
import Verif.Spec.Program
import Verif.Proofs.Program
import Verif.Props.Program
import Verif.Model.Cells
import Verif.Spec.Cells
import Verif.Proofs.Cells
import Verif.Props.Cells
import Verif.Model.GetoptInt
import Verif.Model.ParseInt
import Verif.Spec.Ints
import Verif.Proofs.GetoptInt
import Verif.Proofs.ParseInt
import Verif.Props.Ints
import Verif.Model.Threads
import Verif.Spec.Threads
import Verif.Proofs.Threads
import Verif.Props.Threads
import Verif.Model.RexWork
import Verif.Spec.RexWork
import Verif.Proofs.RexWork
import Verif.Props.RexWork
import Verif.Model.SortWork
import Verif.Spec.SortWork
import Verif.Proofs.SortWork
import Verif.Props.SortWork
import Verif.Model.DstrWork
import Verif.Spec.DstrWork
import Verif.Proofs.DstrWork
import Verif.Props.DstrWork
import Verif.Model.RexDepth
import Verif.Spec.RexDepth
import Verif.Proofs.RexDepth
import Verif.Props.RexDepth
import Verif.Spec.Usage
import Verif.Proofs.Usage
import Verif.Props.Usage
import Verif.Spec.Persist
import Verif.Proofs.Persist
import Verif.Props.Persist
import Verif.Model.HashWork
import Verif.Spec.HashWork
import Verif.Proofs.HashWork
import Verif.Props.HashWork
import Verif.Model.Ctype
import Verif.Spec.Ctype
import Verif.Proofs.Ctype
import Verif.Proofs.CtypeHigh
import Verif.Proofs.CtypeRex
import Verif.Props.Ctype
import Verif.Spec.Loosen
import Verif.Proofs.Loosen
import Verif.Props.Loosen
import Verif.Proofs.Tighten
import Verif.Spec.Apart
import Verif.Proofs.Apart
import Verif.Props.Apart
import Verif.Model.Dispatch
import Verif.Spec.Dispatch
import Verif.Proofs.Dispatch
import Verif.Props.Dispatch
import Verif.Model.Exchanges
import Verif.Spec.Exchanges
import Verif.Proofs.Exchanges
import Verif.Proofs.ExchangesWorst
import Verif.Props.Exchanges
import Verif.Proofs.ExchangesNone
import Verif.Proofs.ExchangesExact
