import Verif.Model.Basic
import Verif.Model.Ccoord
import Verif.Spec.Box
import Verif.Lemmas.Addressing
import Verif.Lemmas.Ccoord
import Verif.Lemmas.Axes
import Verif.Lemmas.Pixels
import Verif.Props.Grid
import Verif.Props.GridExact
import Verif.Props.GridGaps
import Verif.Props.StaticPixels
import Verif.Props.TypedAccess
import Verif.Model.RawMemory
import Verif.Lemmas.RawMemory
import Verif.Props.RawMemory
import Verif.Model.Layout
import Verif.Spec.Address
import Verif.Lemmas.Address
import Verif.Props.Layout
import Verif.Model.SMap
import Verif.Lemmas.SMap
import Verif.Model.Collection
import Verif.Lemmas.Collection
import Verif.Lemmas.CollectionInv
import Verif.Props.Collection
import Verif.Model.Indices
import Verif.Props.FieldOps
import Verif.Spec.History
import Verif.Model.StateField
import Verif.Lemmas.StateField
import Verif.Props.StateField
import Verif.Model.FieldMap
import Verif.Lemmas.FieldMap
import Verif.Props.FieldMap
import Verif.Props.StateFieldMap
import Verif.Model.Units
import Verif.Lemmas.Units
import Verif.Props.Units
import Verif.Model.Dictionary
import Verif.Props.Dictionary
import Verif.Model.Gradient
import Verif.Spec.Gradient
import Verif.Lemmas.Gradient
import Verif.Lemmas.GradientGrid
import Verif.Lemmas.GradientMake
import Verif.Props.Gradient
import Verif.Model.Iterators
import Verif.Props.Iterators
import Verif.Model.DynCcoord
import Verif.Props.DynCcoord
import Verif.Model.Communicator
import Verif.Props.Communicator
import Verif.Model.Tensor
import Verif.Lemmas.Tensor
import Verif.Props.Tensor
import Verif.Model.FileIO
import Verif.Model.NetCDF
import Verif.Spec.Names
import Verif.Spec.File
import Verif.Lemmas.FileNames
import Verif.Lemmas.NetCDF
import Verif.Props.FileIO
import Verif.Props.NetCDF
import Verif.Lemmas.NetCDFLocal
import Verif.Props.NetCDFLocal
import Verif.Model.NetCDFState
import Verif.Lemmas.NetCDFState
import Verif.Props.NetCDFState
import Verif.Model.NetCDFAtt
import Verif.Props.NetCDFAtt
import Verif.Model.UnitText
import Verif.Lemmas.UnitText
import Verif.Props.UnitText
import Verif.Model.Numpy
import Verif.Lemmas.Numpy
import Verif.Props.Numpy
import Verif.Props.NumpyAccept
import Verif.Model.FileSession
import Verif.Spec.FileSession
import Verif.Spec.FileProgram
import Verif.Lemmas.FileSession
import Verif.Lemmas.FileSessionGlobal
import Verif.Lemmas.FileSessionLocal
import Verif.Lemmas.FileSessionHidden
import Verif.Lemmas.FileSessionOpen
import Verif.Lemmas.FileTable
import Verif.Props.FileSession
import Verif.Props.FileEntries
import Verif.Props.FileSessionEx
import Verif.Model.FileRegister
import Verif.Spec.FileRegister
import Verif.Lemmas.FileCheck
import Verif.Lemmas.FileDims
import Verif.Lemmas.FileRegister
import Verif.Lemmas.FileRegisterAll
import Verif.Lemmas.FileRegisterNames
import Verif.Props.FileRegister
import Verif.Props.FileTypes
import Verif.Model.FileJoin
import Verif.Spec.FileRanks
import Verif.Lemmas.FileRanks
import Verif.Props.FileRanks
import Verif.Props.FileRanksEx
import Verif.Spec.FileParts
import Verif.Lemmas.FileParts
import Verif.Props.FileParts
import Verif.Props.FilePartsEx
import Verif.Model.FileAtts
import Verif.Spec.FileAtts
import Verif.Lemmas.FileAtts
import Verif.Props.FileAtts
import Verif.Model.MatrixFun
import Verif.Lemmas.MatrixFun
import Verif.Props.MatrixFun
import Verif.Model.GradientField
import Verif.Spec.GradientField
import Verif.Lemmas.GradientField
import Verif.Lemmas.GradientCells
import Verif.Props.GradientField
import Verif.Props.GradientTranspose
import Verif.Model.MapLife
import Verif.Lemmas.MapLife
import Verif.Props.MapLife
import Verif.Model.Mapped
import Verif.Lemmas.Mapped
import Verif.Props.Mapped
import Verif.Model.PyField
import Verif.Lemmas.PyField
import Verif.Props.PyField
import Verif.Model.FieldArith
import Verif.Props.FieldArith
import Verif.Model.EigenView
import Verif.Props.EigenView
import Verif.Model.Enumerate
import Verif.Props.Enumerate
import Verif.Model.PyLife
import Verif.Lemmas.PyLife
import Verif.Props.PyLife
import Verif.Model.Reduce
import Verif.Props.Reduce
import Verif.Model.PySession
import Verif.Spec.PyArrays
import Verif.Lemmas.PyArrays
import Verif.Props.PySession
import Verif.Model.PyAtts
import Verif.Spec.PyAtts
import Verif.Lemmas.PyAtts
import Verif.Props.PyAtts
import Verif.Model.PyFile
import Verif.Spec.PyFile
import Verif.Lemmas.PyFile
import Verif.Lemmas.PyFileRun
import Verif.Lemmas.PyFileStart
import Verif.Props.PyFile
import Verif.Props.PyFileEx
import Verif.Model.MapLoop
import Verif.Spec.MapLoop
import Verif.Lemmas.MapLoop
import Verif.Props.MapLoop
import Verif.Model.Narrow
import Verif.Props.Narrow
import Verif.Model.Concurrent
import Verif.Lemmas.Concurrent
import Verif.Lemmas.ConcurrentCalls
import Verif.Lemmas.ConcurrentRaces
import Verif.Props.Concurrent
import Verif.Props.ConcurrentLocal
import Verif.Model.RuntimeUnion
import Verif.Props.RuntimeUnion
import Verif.Model.DictMemory
import Verif.Lemmas.DictMemory
import Verif.Lemmas.DictMemoryStep
import Verif.Props.DictMemory
import Verif.Model.Geometry
import Verif.Spec.Geometry
import Verif.Props.Geometry
import Verif.Model.Wrapped
import Verif.Spec.Wrapped
import Verif.Lemmas.Wrapped
import Verif.Props.Wrapped
import Verif.Model.TensorDispatch
import Verif.Spec.TensorDispatch
import Verif.Props.TensorDispatch
import Verif.Spec.GradientMean
import Verif.Props.GradientMean
import Verif.Model.FileBoth
import Verif.Spec.FileBoth
import Verif.Lemmas.FileBoth
import Verif.Props.FileBoth
import Verif.Props.FileBothEx
import Verif.Spec.CollDefined
import Verif.Lemmas.CollDefined
import Verif.Props.CollDefined
import Verif.Model.ParallelFile
import Verif.Spec.ParallelFile
import Verif.Lemmas.ParallelFile
import Verif.Props.ParallelFile
import Verif.Model.Collective
import Verif.Spec.Collective
import Verif.Lemmas.Collective
import Verif.Lemmas.CollectiveReg
import Verif.Props.Collective
import Verif.Model.ParallelSession
import Verif.Spec.ParallelSession
import Verif.Lemmas.ParallelSession
import Verif.Lemmas.ParallelWorld
import Verif.Lemmas.ParallelRun
import Verif.Lemmas.ParallelReady
import Verif.Props.ParallelSession
import Verif.Model.FileSystem
import Verif.Spec.FileSystem
import Verif.Lemmas.FileSystem
import Verif.Lemmas.FileReadOnly
import Verif.Props.FileSystem
import Verif.Props.FileSystemEx
import Verif.Model.CollectiveSession
import Verif.Spec.CollectiveSession
import Verif.Lemmas.CollectiveSession
import Verif.Lemmas.CollectiveWorld
import Verif.Props.CollectiveSession
import Verif.Lemmas.ParallelRefused
import Verif.Props.ParallelRefused
import Verif.Props.CollectiveRefused
import Verif.Model.FrameObjects
import Verif.Spec.FrameObjects
import Verif.Lemmas.FrameObjects
import Verif.Props.FrameObjects
import Verif.Model.FileHandles
import Verif.Spec.FileHandles
import Verif.Lemmas.FileHandles
import Verif.Props.FileHandles
import Verif.Model.ParallelFrames
import Verif.Spec.ParallelFrames
import Verif.Lemmas.ParallelFrames
import Verif.Props.ParallelFrames
import Verif.Model.CollectiveFrames
import Verif.Spec.CollectiveFrames
import Verif.Lemmas.CollectiveFrames
import Verif.Props.CollectiveFrames
import Verif.Model.PyFrames
import Verif.Spec.PyFrames
import Verif.Lemmas.PyFrames
import Verif.Props.PyFrames
import Verif.Model.ParallelPyFrames
import Verif.Spec.ParallelPyFrames
import Verif.Lemmas.ParallelPyFrames
import Verif.Props.ParallelPyFrames
import Verif.Props.SameLayout
import Verif.Model.StateMapLoop
import Verif.Spec.StateMapLoop
import Verif.Lemmas.StateMapLoop
import Verif.Props.StateMapLoop
