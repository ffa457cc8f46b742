import Verif.FreeSlots.Props
import Verif.Registry.Props
import Verif.Arith.Props
import Verif.Alloc.Props
import Verif.Alloc.Migrate
import Verif.Lock.Props
import Verif.Var.Props
import Verif.Ops.Props
import Verif.Ops.Ieee
import Verif.StrBuf.Props
import Verif.Hash.Props
import Verif.Half.Props
import Verif.Cache.Size
import Verif.Cache.Sweep
import Verif.Cache.Names
import Verif.Cache.Props
import Verif.Llvm.Launch
import Verif.Llvm.ReduceProps
import Verif.Llvm.PrefixProps
import Verif.Llvm.Bool
import Verif.Llvm.Compress
import Verif.Llvm.MkpermProps
import Verif.Llvm.Expanded
import Verif.Llvm.Mem
import Verif.Eval.Assemble
import Verif.Call.LayoutLoads
import Verif.Call.UploadDemo
import Verif.Call.Dispatch
import Verif.Call.Reduce
import Verif.Gather.MaskDemo
import Verif.Gather.Try
import Verif.Gather.GatherMain
import Verif.Gather.GatherProps
import Verif.Gather.Bounds
import Verif.Gather.TileModel
import Verif.Gather.Tame
import Verif.Gather.TileSpec
import Verif.Gather.TileProps
import Verif.Jit.Model
import Verif.Jit.NoFail
import Verif.Jit.Strip
import Verif.Jit.Cleanup
import Verif.Jit.Collect
import Verif.Jit.Eval
import Verif.Jit.Spec
import Verif.Jit.Value
import Verif.Jit.Main
import Verif.Jit.Props
import Verif.Jit.Ref
import Verif.Jit.Demo
import Verif.Jit.GatherDemo
import Verif.Jit.TileDemo
import Verif.Reduce.Chain
import Verif.Reduce.Model
import Verif.Reduce.Spec
import Verif.Reduce.Arith
import Verif.Reduce.Block
import Verif.Reduce.Prefix
import Verif.Reduce.Props
import Verif.Reduce.Findings
import Verif.Gemm.Spec
import Verif.Gemm.Model
import Verif.Gemm.Claim
import Verif.Gemm.Rules
import Verif.Gemm.Kernel
import Verif.Gemm.Sweep
import Verif.Gemm.Segment
import Verif.Gemm.Loops
import Verif.Gemm.Fold
import Verif.Gemm.Props
import Verif.Gemm.Findings
import Verif.LocalArr.Props
import Verif.LocalArr.Findings
import Verif.Jit.ReduceDemo
import Verif.Ctrl.Props
import Verif.Scatter.Spec
import Verif.Scatter.Model
import Verif.Scatter.Lemmas
import Verif.Scatter.Memory
import Verif.Scatter.Eval
import Verif.Scatter.Grow
import Verif.Scatter.Calls
import Verif.Scatter.Push
import Verif.Scatter.Sim
import Verif.Scatter.Step
import Verif.Scatter.Steps
import Verif.Scatter.Props
import Verif.Freeze.Spec
import Verif.Freeze.Model
import Verif.Freeze.Kernel
import Verif.Freeze.Sim
import Verif.Freeze.Step
import Verif.Freeze.Step2
import Verif.Freeze.Launch
import Verif.Freeze.Observe
import Verif.Freeze.Main
import Verif.Freeze.Props
import Verif.Freeze.Wrong
import Verif.Freeze.Dry
import Verif.Freeze.DryProps
import Verif.Freeze.Own
import Verif.Freeze.OwnRec
import Verif.Freeze.Frame
import Verif.Freeze.OwnProps
import Verif.Freeze.Closed
import Verif.Freeze.ClosedProps
import Verif.Atomic.Spec
import Verif.Atomic.Lang
import Verif.Atomic.Lin
import Verif.Atomic.Model
import Verif.Atomic.Kernel
import Verif.Atomic.Reduce
import Verif.Atomic.Exch
import Verif.Atomic.Ints
import Verif.Atomic.Seq
import Verif.Atomic.Props
import Verif.Atomic.NoConf
import Verif.Atomic.Expand
import Verif.Packet.Spec
import Verif.Packet.Model
import Verif.Packet.Transpose
import Verif.Packet.Gather
import Verif.Packet.GatherProps
import Verif.Packet.Scatter
import Verif.Packet.Kernel
import Verif.Packet.ScatterProps
import Verif.Packet.Expand
import Verif.Capture.Model
import Verif.Capture.Spec
import Verif.Capture.Analysis
import Verif.Capture.Levels
import Verif.Capture.Minimal
import Verif.Capture.Instances
import Verif.Capture.Code
import Verif.Capture.Props
import Verif.Capture.Demo
import Verif.Lanes.Model
import Verif.Lanes.Spec
import Verif.Lanes.Lemmas
import Verif.Lanes.Props
import Verif.CoopMat.Model
import Verif.CoopMat.Spec
import Verif.CoopMat.Props
import Verif.CoopVec.MatVec
import Verif.CoopVec.MatSpec
import Verif.CoopVec.MatProps
import Verif.CoopVec.Accum
import Verif.CoopVec.AccumSpec
import Verif.CoopVec.AccumProps
import Verif.CoopVec.Elem
import Verif.CoopVec.ElemSpec
import Verif.CoopVec.ElemProps
import Verif.Llvm.Dot
import Verif.Callable.Model
import Verif.Callable.Props
import Verif.Callable.Memory
import Verif.Callable.MemoryProps
import Verif.Nano.Vector
import Verif.Nano.VectorSpec
import Verif.Nano.Own
import Verif.Nano.VectorProps
import Verif.Nano.String
import Verif.Nano.StringSpec
import Verif.Nano.StringProps
import Verif.Cuda.Comb
import Verif.Cuda.Look
import Verif.Cuda.LookProps
import Verif.Cuda.Progress
import Verif.Cuda.Prefix
import Verif.Cuda.Scan
import Verif.Cuda.Geo
import Verif.Cuda.Spec
import Verif.Cuda.Run
import Verif.Cuda.Launch
import Verif.Cuda.PrefixProps
import Verif.Cuda.Compress
import Verif.Cuda.CompressRun
import Verif.Cuda.CompressProps
import Verif.Cuda.Reduce
import Verif.Cuda.ReduceSpec
import Verif.Cuda.ReduceRun
import Verif.Cuda.ReduceGeo
import Verif.Cuda.ReduceProps
import Verif.Cuda.Dot
import Verif.Cuda.DotSpec
import Verif.Cuda.DotProps
import Verif.CudaPerm.Model
import Verif.CudaPerm.Spec
import Verif.CudaPerm.Lemmas
import Verif.CudaPerm.Place
import Verif.CudaPerm.Phase2
import Verif.CudaPerm.Rows
import Verif.CudaPerm.Main
import Verif.CudaPerm.Phase3
import Verif.CudaPerm.Props
import Verif.CudaGemm.Model
import Verif.CudaGemm.Spec
import Verif.CudaGemm.Lemmas
import Verif.CudaGemm.Block
import Verif.CudaGemm.Main
import Verif.CudaGemm.Host
import Verif.CudaGemm.Props
import Verif.CudaLaunch.Model
import Verif.CudaLaunch.Lemmas
import Verif.CudaLaunch.Props
import Verif.CudaScatter.Model
import Verif.CudaScatter.Spec
import Verif.CudaScatter.Lemmas
import Verif.CudaScatter.Reduce
import Verif.CudaScatter.Inc
import Verif.CudaScatter.MinMax
import Verif.CudaScatter.Props
import Verif.CudaPacket.Model
import Verif.CudaPacket.Spec
import Verif.CudaPacket.Lemmas
import Verif.CudaPacket.Props
import Verif.Tex.Model
import Verif.Tex.Spec
import Verif.Tex.Lemmas
import Verif.Tex.Props
import Verif.Tex.Use
import Verif.MetalScatter.Model
import Verif.MetalScatter.Lemmas
import Verif.MetalScatter.Reduce
import Verif.MetalScatter.Props
import Verif.MetalPacket.Model
import Verif.MetalPacket.Props
import Verif.MetalCoop.Model
import Verif.MetalCoop.Props
import Verif.GpuArr.Model
import Verif.GpuArr.Props
import Verif.MetalTex.Model
import Verif.MetalTex.Props
import Verif.OptixCoop.Model
import Verif.OptixCoop.Props
import Verif.Green.Model
import Verif.Green.Props
import Verif.Reorder.Model
import Verif.Reorder.Props
import Verif.Profile.Model
import Verif.Profile.Props
import Verif.Symb.Model
import Verif.Symb.Props
