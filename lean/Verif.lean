import Verif.C.Basic
import Verif.C.Text
import Verif.C.Mem
import Verif.Model.Dtype
import Verif.Model.Array
import Verif.Model.Convert
import Verif.C.FS
import Verif.Model.Path
import Verif.Model.AttrSet
import Verif.Model.Block
import Verif.Spec.Array
import Verif.Proof.Iter
import Verif.Spec.Convert
import Verif.Proof.Convert
import Verif.Spec.Block
import Verif.Proof.Seek
import Verif.Props.Seek
import Verif.Props.Iter
import Verif.Proof.Digits
import Verif.Proof.Path
import Verif.Proof.WP
import Verif.Proof.Rows
import Verif.Proof.Dtype
import Verif.Spec.Transfer
import Verif.Proof.Write
import Verif.Proof.Read
import Verif.Proof.Transfer
import Verif.Proof.Torn
import Verif.Props.Example
import Verif.Props.Transfer
import Verif.Spec.Value
import Verif.Proof.Value
import Verif.Props.Convert
import Verif.Spec.History
import Verif.Proof.History
import Verif.Props.History
import Verif.Proof.Header
import Verif.Spec.Attr
import Verif.Proof.ConvertSimple
import Verif.Proof.Attr
import Verif.Proof.AttrSet
import Verif.Props.Attr
import Verif.Proof.AttrText
import Verif.Proof.AttrV1
import Verif.Spec.Disk
import Verif.Proof.Flush
import Verif.Proof.Open
import Verif.Spec.AttrInv
import Verif.Spec.Header
import Verif.Proof.Reopen
import Verif.Proof.Create
import Verif.Proof.Meta
import Verif.Props.Disk
import Verif.Props.Create
import Verif.Model.Mpiu
import Verif.Spec.Parallel
import Verif.Props.Mpiu
import Verif.Props.Grow
import Verif.Props.AttrDisk
import Verif.Proof.Simple
import Verif.Props.ReadSimple
import Verif.Model.List
import Verif.Spec.Tree
import Verif.Proof.Tree
import Verif.Proof.List
import Verif.Proof.TreeKept
import Verif.Proof.TreeOnly
import Verif.Props.Tree
import Verif.Model.Pack
import Verif.Props.Pack
import Verif.Model.Record
import Verif.Spec.Record
import Verif.Proof.Record
import Verif.Props.Record
import Verif.Proof.RecordIO
import Verif.Props.RecordIO
import Verif.C.Proc
import Verif.Model.BlockP
import Verif.Proof.Proc
import Verif.Proof.BlockP
import Verif.Proof.ProcOps
import Verif.Proof.WriteOps
import Verif.Spec.Conc
import Verif.Props.Conc
import Verif.Props.Kill
import Verif.Model.Mpi
import Verif.Model.MpiBlock
import Verif.Spec.Mpi
import Verif.Proof.Coll
import Verif.Proof.Throttle
import Verif.Proof.SegPlan
import Verif.Proof.AggWrite
import Verif.Proof.Tile
import Verif.Proof.AggSeg
import Verif.Proof.MpiWrite
import Verif.Props.Mpi
import Verif.Proof.AggRead
import Verif.Spec.MpiBlock
import Verif.Proof.Trunc
import Verif.Proof.MpiFlush
import Verif.Proof.Rename
import Verif.Props.MpiBlock
import Verif.Spec.Object
import Verif.Proof.Object
import Verif.Props.Object
import Verif.Spec.AttrBad
import Verif.Props.AttrBad
import Verif.Model.Copy
import Verif.Spec.Copy
import Verif.Proof.Copy
import Verif.Props.Copy
import Verif.Model.CreateTool
import Verif.Spec.CreateTool
import Verif.Proof.CreateTool
import Verif.Props.CreateTool
import Verif.Model.CopyMpi
import Verif.Spec.CopyMpi
import Verif.Proof.CopyMpi
import Verif.Props.CopyMpi
import Verif.Model.Python
import Verif.Spec.Python
import Verif.Proof.Python
import Verif.Props.Python
import Verif.Model.Sample
import Verif.Spec.Sample
import Verif.Proof.Sample
import Verif.Props.Sample
import Verif.Model.ErrMsg
import Verif.Spec.ErrMsg
import Verif.Proof.ErrMsg
import Verif.Props.ErrMsg
import Verif.Model.CopyFiles
import Verif.Spec.CopyFiles
import Verif.Proof.RangeOps
import Verif.Proof.CopyFiles
import Verif.Props.CopyFiles
import Verif.Props.SampleFiles
import Verif.Spec.RecordMake
import Verif.Proof.RecordMake
import Verif.Props.RecordMake
import Verif.Props.AggBounds
import Verif.Model.Cat
import Verif.Spec.Cat
import Verif.Proof.Cat
import Verif.Props.Cat
import Verif.Model.Tools
import Verif.Spec.Tools
import Verif.Proof.Tools
import Verif.Props.Tools
import Verif.Props.Dtypes
import Verif.Spec.Float
import Verif.Proof.Float
import Verif.Props.Float
import Verif.Spec.Durable
import Verif.Proof.Durable
import Verif.Props.Durable
import Verif.C.Phases
import Verif.Model.MpiPhases
import Verif.Proof.Phases
import Verif.Spec.Shared
import Verif.Proof.Shared
import Verif.Props.Shared
import Verif.Spec.RecordsAll
import Verif.Proof.RecordsAll
import Verif.Props.RecordsAll
import Verif.Props.MpiFile
import Verif.Spec.Cut
import Verif.Proof.Cut
import Verif.Props.Cut
import Verif.Spec.CopyMay
import Verif.Proof.CopyMay
import Verif.Props.CopyMay
import Verif.Props.CopyHoles
import Verif.Model.LsTool
import Verif.Spec.LsTool
import Verif.Proof.LsTool
import Verif.Proof.Check
import Verif.Props.LsTool
import Verif.Model.Scripts
import Verif.Spec.Scripts
import Verif.Proof.Scripts
import Verif.Props.Scripts
import Verif.Spec.Jobs
import Verif.Props.Jobs
import Verif.Spec.Complex
import Verif.Props.Complex
import Verif.Proof.SampleMay
import Verif.Props.SampleMay
import Verif.Props.Array
import Verif.Spec.Holes
import Verif.Proof.Holes
import Verif.Props.Holes
import Verif.Spec.Readers
import Verif.Proof.Readers
import Verif.Props.Readers
import Verif.Proof.PythonMay
import Verif.Props.PythonMay
import Verif.Props.PyAttr
import Verif.Spec.PyAttrDisk
import Verif.Props.PyAttrDisk
import Verif.Props.PyColumn
import Verif.Props.PyFileMpi
import Verif.Props.PyFile
import Verif.Props.PyData
import Verif.Props.PyMpi
import Verif.Model.KillFiles
import Verif.Proof.KillFiles
import Verif.Proof.KillJobs
import Verif.Proof.KillRanges
import Verif.Props.KillFiles
import Verif.Model.MpiTools
import Verif.Spec.MpiTools
import Verif.Props.MpiTools
import Verif.Model.IoSim
import Verif.Spec.IoSim
import Verif.Proof.IoSim
import Verif.Props.IoSim
import Verif.Props.Shown
import Verif.C.Withstands
import Verif.Spec.SharedMay
import Verif.Proof.Withstands
import Verif.Proof.HandleKept
import Verif.Proof.SharedMay
import Verif.Props.SharedMay
import Verif.Spec.Went
import Verif.Props.Went
import Verif.Spec.RecordsMay
import Verif.Proof.RecordsMay
import Verif.Props.RecordsMay
import Verif.Props.Overrun
import Verif.Props.Loose
import Verif.Props.Untouched
import Verif.Model.Options
import Verif.Spec.Options
import Verif.Props.Options
import Verif.Model.OptionsMpi
import Verif.Props.OptionsMpi
import Verif.Model.OptionsScripts
import Verif.Props.OptionsScripts
import Verif.Props.Format
import Verif.Spec.Blocks
import Verif.Proof.Blocks
import Verif.Props.Blocks
import Verif.Spec.BlocksMay
import Verif.Proof.BlocksMay
import Verif.Props.BlocksMay
import Verif.Spec.BlocksShared
import Verif.Props.BlocksShared
import Verif.Spec.BlocksSharedMay
import Verif.Proof.BlocksSharedMay
import Verif.Props.BlocksSharedMay
import Verif.Spec.BlocksWent
import Verif.Props.BlocksWent
import Verif.C.Ends
import Verif.Spec.Life
import Verif.Props.Life
import Verif.Props.TextFit
import Verif.Proof.Gentle
import Verif.Spec.FileLife
import Verif.Props.FileLife
import Verif.Spec.CommLife
import Verif.Props.CommLife
import Verif.Proof.MixedLife
import Verif.Spec.MixedLife
import Verif.Props.MixedLife
