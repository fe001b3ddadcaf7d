import Verif.Base
import Verif.Model.BinaryIndexedTree
import Verif.Model.BitSieve
import Verif.Model.Break
import Verif.Model.Calculator
import Verif.Model.Dbl
import Verif.Model.FactorTable
import Verif.Model.GenIter
import Verif.Model.Generate
import Verif.Model.Help
import Verif.Model.Ieee
import Verif.Model.Imath
import Verif.Model.Int128
import Verif.Model.Int256
import Verif.Model.Libdivide
import Verif.Model.Lmo
import Verif.Model.Loops
import Verif.Model.Main
import Verif.Model.MainIter
import Verif.Model.MinMax
import Verif.Model.Misc
import Verif.Model.Omp
import Verif.Model.Output
import Verif.Model.P2
import Verif.Model.P2Iter
import Verif.Model.Phi
import Verif.Model.PhiSum
import Verif.Model.PhiTiny
import Verif.Model.Pi
import Verif.Model.PiIter
import Verif.Model.PrimeSieve
import Verif.Model.PsvErat
import Verif.Model.PsvIter
import Verif.Model.PsvPool
import Verif.Model.PsvPoolIter
import Verif.Model.PsvTables
import Verif.Model.Res
import Verif.Model.Roots
import Verif.Model.S1
import Verif.Model.S2Easy
import Verif.Model.S2Hard
import Verif.Model.S2LoadBalancer
import Verif.Model.S2Trivial
import Verif.Model.SelfTest
import Verif.Model.Wheel
import Verif.Model.Width
import Verif.Proof.Alpha
import Verif.Proof.BRes
import Verif.Proof.BigPrimes
import Verif.Proof.BinaryIndexedTree
import Verif.Proof.BitSieve
import Verif.Proof.BitSum
import Verif.Proof.Bits
import Verif.Proof.Bounds
import Verif.Proof.CalcLex
import Verif.Proof.CalcOps
import Verif.Proof.CalcParse
import Verif.Proof.CalcSafe
import Verif.Proof.CalcSound
import Verif.Proof.Checked
import Verif.Proof.Core
import Verif.Proof.Dbl
import Verif.Proof.DefaultLimit
import Verif.Proof.Density
import Verif.Proof.FactorTable
import Verif.Proof.GenIter
import Verif.Proof.Generate
import Verif.Proof.Help
import Verif.Proof.Ieee
import Verif.Proof.Imath
import Verif.Proof.Int256
import Verif.Proof.Int256Div
import Verif.Proof.LeafBounds
import Verif.Proof.Leaves
import Verif.Proof.Libdivide
import Verif.Proof.LibdividePort
import Verif.Proof.Lmo1
import Verif.Proof.LmoAcc
import Verif.Proof.LmoB
import Verif.Proof.LmoC
import Verif.Proof.LmoRef
import Verif.Proof.LmoSegC
import Verif.Proof.LmoTop
import Verif.Proof.LoadBalancer
import Verif.Proof.Loops
import Verif.Proof.Main
import Verif.Proof.MainIter
import Verif.Proof.Misc
import Verif.Proof.Mod64
import Verif.Proof.Omp
import Verif.Proof.Output
import Verif.Proof.P2
import Verif.Proof.P2Bound
import Verif.Proof.P2Iter
import Verif.Proof.Partition
import Verif.Proof.Phi
import Verif.Proof.PhiSum
import Verif.Proof.Pi
import Verif.Proof.PiIter
import Verif.Proof.PreSieve
import Verif.Proof.PrimeSieve
import Verif.Proof.Primes
import Verif.Proof.Print
import Verif.Proof.PsvBig
import Verif.Proof.PsvBits
import Verif.Proof.PsvCross
import Verif.Proof.PsvEntry
import Verif.Proof.PsvFill
import Verif.Proof.PsvGen
import Verif.Proof.PsvIter
import Verif.Proof.PsvPool
import Verif.Proof.PsvPoolIter
import Verif.Proof.PsvPos
import Verif.Proof.PsvPre
import Verif.Proof.PsvSeg
import Verif.Proof.PsvSmall
import Verif.Proof.PsvStore
import Verif.Proof.PsvStream
import Verif.Proof.PsvWheel
import Verif.Proof.Res
import Verif.Proof.Roots
import Verif.Proof.S1
import Verif.Proof.S1Det
import Verif.Proof.S2Easy
import Verif.Proof.S2Hard
import Verif.Proof.S2HardMaster
import Verif.Proof.S2HardTop
import Verif.Proof.S2Trivial
import Verif.Proof.SegSieve
import Verif.Proof.Segment
import Verif.Proof.Tables
import Verif.Proof.Wheel
import Verif.Proof.Wheel210
import Verif.Proof.Width
import Verif.Proof.Window
import Verif.Props.BinaryIndexedTree
import Verif.Props.BitSieve
import Verif.Props.Calculator
import Verif.Props.Display
import Verif.Props.Exact
import Verif.Props.FactorTable
import Verif.Props.Generate
import Verif.Props.Help
import Verif.Props.Imath
import Verif.Props.Int256
import Verif.Props.Int256Bits
import Verif.Props.Libdivide
import Verif.Props.Lmo
import Verif.Props.LowBits
import Verif.Props.LowBitsMain
import Verif.Props.Main
import Verif.Props.MinMax
import Verif.Props.Output
import Verif.Props.Overflow
import Verif.Props.P2
import Verif.Props.P2Iter
import Verif.Props.Phi
import Verif.Props.PhiSum
import Verif.Props.Pi
import Verif.Props.PiIter
import Verif.Props.Pool
import Verif.Props.PoolIter
import Verif.Props.PrimeSieve
import Verif.Props.S1
import Verif.Props.S2Easy
import Verif.Props.S2Hard
import Verif.Props.S2Trivial
import Verif.Props.Safety
import Verif.Props.SelfTest
import Verif.Props.Settings
import Verif.Props.Wheel
import Verif.Props.Window
import Verif.Spec.Basic
import Verif.Spec.Calculator
import Verif.Spec.Decimal
import Verif.Spec.Int256
import Verif.Spec.Leaves
import Verif.Spec.Main
