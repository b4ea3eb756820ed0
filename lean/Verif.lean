import Verif.Props.List
import Verif.Props.Stack
import Verif.Props.Factory
import Verif.Props.Hash
import Verif.Props.HashCapacity
import Verif.Props.Str
import Verif.Props.Escape
import Verif.Props.Attr
import Verif.Props.AttrTrim
import Verif.Model.TreeItems
import Verif.Props.TreeItems
import Verif.Model.ListAt
import Verif.Props.ListAt
import Verif.Model.AttrTrim
import Verif.Proofs.AttrTrim
import Verif.Proofs.BuildTrim
import Verif.Props.Tree
import Verif.Props.TreeCopy
import Verif.Props.Dump
import Verif.Props.Parse
import Verif.Props.RoundTrip
import Verif.Props.Babel
import Verif.Props.FileStream
import Verif.Props.Iterate
import Verif.Props.Path
import Verif.Props.Annotate
import Verif.Props.Compare
import Verif.Props.Pi
import Verif.Props.Source
import Verif.Props.Ns
import Verif.Props.Dtd
import Verif.Props.DtdText
import Verif.Props.DtdQuery
import Verif.Props.DtdWalk
import Verif.Props.NodeContent
import Verif.Props.Stable
import Verif.Model.MemStream
import Verif.Model.ParseMem
import Verif.Spec.ParseMem
import Verif.Proofs.MemStream
import Verif.Proofs.ParseMem
import Verif.Props.ParseMem
import Verif.Model.BabelParse
import Verif.Spec.BabelParse
import Verif.Proofs.BabelParse
import Verif.Props.BabelParse
import Verif.Model.FileParse
import Verif.Spec.FileParse
import Verif.Proofs.FileStep
import Verif.Proofs.FileParse
import Verif.Proofs.FileEnds
import Verif.Proofs.FileLoop
import Verif.Proofs.FileWhole
import Verif.Proofs.FileLed
import Verif.Props.FileParse
import Verif.Model.FileDump
import Verif.Spec.FileDump
import Verif.Proofs.FileDump
import Verif.Proofs.FileLost
import Verif.Props.FileDump
import Verif.Model.Own
import Verif.Spec.Own
import Verif.Proofs.Own
import Verif.Proofs.OwnEdit
import Verif.Proofs.OwnWorld
import Verif.Proofs.OwnStep
import Verif.Props.Own
import Verif.Model.Printf
import Verif.Spec.Printf
import Verif.Props.Printf
import Verif.Model.ParseStrings
import Verif.Spec.ParseStrings
import Verif.Props.ParseStrings
import Verif.Model.Py
import Verif.Spec.Py
import Verif.Props.Py
import Verif.Model.DtdMem
import Verif.Spec.DtdMem
import Verif.Proofs.DtdMem
import Verif.Proofs.DtdMemAt
import Verif.Proofs.DtdMemSpec
import Verif.Proofs.DtdMemElement
import Verif.Proofs.DtdMemAttType
import Verif.Proofs.DtdMemAttlist
import Verif.Proofs.DtdMemWhole
import Verif.Props.DtdMem
import Verif.Model.StreamPush
import Verif.Spec.StreamPush
import Verif.Proofs.StreamPush
import Verif.Props.StreamPush
import Verif.Model.Htmlize
import Verif.Spec.Htmlize
import Verif.Proofs.Htmlize
import Verif.Props.Htmlize
import Verif.Model.StreamZero
import Verif.Spec.StreamZero
import Verif.Proofs.StreamZero
import Verif.Props.StreamZero
import Verif.Model.DtdToC
import Verif.Spec.DtdToC
import Verif.Proofs.DtdToC
import Verif.Props.DtdToC
import Verif.Model.Exarg
import Verif.Spec.Exarg
import Verif.Proofs.Exarg
import Verif.Props.Exarg
import Verif.Model.Knife
import Verif.Spec.Knife
import Verif.Proofs.Knife
import Verif.Props.Knife
import Verif.Model.HashMem
import Verif.Spec.HashMemApi
import Verif.Proofs.HashMem
import Verif.Proofs.HashMemRun
import Verif.Props.HashMem
import Verif.Model.HashMemCopy
import Verif.Proofs.HashMemCopy
import Verif.Props.HashMemCopy
import Verif.Model.Oom
import Verif.Spec.Oom
import Verif.Proofs.Oom
import Verif.Proofs.OomHash
import Verif.Props.Oom
import Verif.Model.BabelFile
import Verif.Spec.BabelFile
import Verif.Proofs.BabelFile
import Verif.Proofs.BabelSplit
import Verif.Props.BabelFile
import Verif.Model.DtdFile
import Verif.Proofs.DtdFile
import Verif.Proofs.DtdFileWhole
import Verif.Props.DtdFile
import Verif.Proofs.Validates
import Verif.Props.Validates
import Verif.Spec.Valid
import Verif.Proofs.Valid
import Verif.Props.Valid
import Verif.Spec.DtdRefs
import Verif.Proofs.DtdRefs
import Verif.Props.DtdRefs
import Verif.Spec.Threads
import Verif.Proofs.Threads
import Verif.Props.Threads
import Verif.Spec.Footprint
import Verif.Proofs.Footprint
import Verif.Props.Footprint
import Verif.Model.ExargHelp
import Verif.Spec.ExargHelp
import Verif.Proofs.ExargHelp
import Verif.Props.ExargHelp
import Verif.Model.TreeDump
import Verif.Spec.TreeDump
import Verif.Proofs.TreeDump
import Verif.Props.TreeDump
import Verif.Model.Load
import Verif.Spec.Load
import Verif.Proofs.Load
import Verif.Props.Load
import Verif.Spec.DtdEntity
import Verif.Proofs.DtdEntity
import Verif.Props.DtdEntity
import Verif.Model.Build
import Verif.Spec.Build
import Verif.Proofs.Build
import Verif.Proofs.BuildCopy
import Verif.Proofs.AttrMade
import Verif.Proofs.BuildRead
import Verif.Props.Build
import Verif.Spec.Edit
import Verif.Proofs.Edit
import Verif.Props.Edit
import Verif.Model.Error
import Verif.Spec.Error
import Verif.Proofs.Error
import Verif.Props.Error
import Verif.Model.DumpSize
import Verif.Props.DumpSize
import Verif.Model.ErrorAt
import Verif.Spec.ErrorAt
import Verif.Props.ErrorAt
import Verif.Model.StreamLink
import Verif.Spec.StreamLink
import Verif.Props.StreamLink
import Verif.Model.ContentAt
import Verif.Spec.ContentAt
import Verif.Props.ContentAt
import Verif.Props.IterateFrom
import Verif.Model.DtdRoot
import Verif.Spec.DtdRoot
import Verif.Props.DtdRoot
import Verif.Model.FactorySpare
import Verif.Spec.FactorySpare
import Verif.Props.FactorySpare
