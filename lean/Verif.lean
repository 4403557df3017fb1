import Verif.CSem
import Verif.Rounding
import Verif.Fl
import Verif.Spec
import Verif.Model.Util
import Verif.Model.Codec
import Verif.Lemmas.Psi
import Verif.Lemmas.Format
import Verif.Lemmas.Fl
import Verif.Lemmas.Bits
import Verif.Lemmas.Decode
import Verif.Lemmas.Narrow
import Verif.Lemmas.Encode
import Verif.Lemmas.EncodeCor
import Verif.Sqrt
import Verif.Model.Libm
import Verif.Model.Conversion
import Verif.Model.Arith
import Verif.Model.Elementary
import Verif.Lemmas.Order
import Verif.Props.Format
import Verif.Lemmas.LinNear
import Verif.Lemmas.Inversion
import Verif.Lemmas.Widths
import Verif.Lemmas.BitOps
import Verif.Props.Widths
import Verif.Props.BitOps
import Verif.Lemmas.LogArith
import Verif.Lemmas.Roots
import Verif.Props.Encoder
import Verif.Props.LogArith
import Verif.Lemmas.Linear
import Verif.Model.Families
import Verif.Lemmas.LinFrom
import Verif.Props.LinFloat
import Verif.Lemmas.LinArith
import Verif.Lemmas.SqrtReal
import Verif.Lemmas.FlReal
import Verif.Props.LinArith
import Verif.Lemmas.LinExact
import Verif.Props.LinNearest
import Verif.Ideal
import Verif.LibmSpec
import Verif.Lemmas.LogConv
import Verif.Lemmas.Ideal
import Verif.Props.LogConv
import Verif.Lemmas.Gap
import Verif.Lemmas.RoundTrip
import Verif.Props.LogRound
import Verif.Lemmas.Elem
import Verif.Props.NaR
import Verif.Manual
import Verif.Model.Kinds
import Verif.Lemmas.IdealInv
import Verif.Lemmas.Call
import Verif.Lemmas.Domain
import Verif.Props.Domains
import Verif.Lemmas.LogAdd
import Verif.Props.LogAdd
import Verif.Lemmas.Powers
import Verif.Props.Powers
import Verif.Model.Constants
import Verif.ConstSpec
import Verif.Lemmas.Numeric
import Verif.Lemmas.ConstIv
import Verif.Props.Constants
import Verif.Model.Calculator
import Verif.Props.Calculator
import Verif.Lemmas.PiSpecial
import Verif.Props.PiTimes
import Verif.Props.PiTimesExact
import Verif.Lemmas.Defined
import Verif.Props.Defined
import Verif.Model.LongDouble
import Verif.Lemmas.LongDouble
import Verif.Props.LongDouble
import Verif.Lemmas.PiRat
import Verif.ElemSpec
import Verif.LibmAcc
import Verif.Lemmas.Faithful
import Verif.Lemmas.ElemArg
import Verif.Lemmas.IdealAcc
import Verif.Lemmas.ElemNear
import Verif.Lemmas.ElemRange
import Verif.Lemmas.ElemAcc
import Verif.Lemmas.ElemExp
import Verif.Lemmas.ElemInv
import Verif.Lemmas.ElemPi
import Verif.Lemmas.ElemAll
import Verif.Props.Accuracy
import Verif.BinSpec
import Verif.Lemmas.BinAcc
import Verif.Lemmas.BinAcc2
import Verif.Props.BinAccuracy
import Verif.ConvSpec
import Verif.Lemmas.ConvAcc
import Verif.Props.ConvAccuracy
import Verif.Lemmas.ExpIrrational
import Verif.Props.Irrational
import Verif.Lemmas.InvDouble
import Verif.Lemmas.InvSig
import Verif.Lemmas.InvCheck
import Verif.Lemmas.InvMid
import Verif.Lemmas.InvFinal
import Verif.Props.LinInversion
import Verif.SymSpec
import Verif.Lemmas.Symmetry
import Verif.Lemmas.SymmetryCall
import Verif.Lemmas.IdealSym
import Verif.Props.Symmetry
import Verif.Model.Getline
import Verif.Props.Getline
import Verif.Model.Operators
import Verif.Props.Operators
import Verif.LiteralSpec
import Verif.Lemmas.Literals
import Verif.Model.CalcText
import Verif.CalcSpec
import Verif.Lemmas.Sim
import Verif.Lemmas.CalcNumber
import Verif.Lemmas.CalcStep
import Verif.Lemmas.CalcMain
import Verif.Props.Program
import Verif.Props.ProgramUndefined
import Verif.Props.Typed
import Verif.MonoSpec
import Verif.Lemmas.MonoFl
import Verif.Lemmas.MonoConv
import Verif.Lemmas.MonoElem
import Verif.Lemmas.MonoCall
import Verif.Lemmas.MonoArg
import Verif.Lemmas.IdealMono
import Verif.Props.Monotone
import Verif.PointSpec
import Verif.Lemmas.Points
import Verif.Props.Points
import Verif.Lemmas.Cross
import Verif.Lemmas.CrossRound
import Verif.Props.CrossRound
import Verif.TestSpec
import Verif.Model.TestUtil
import Verif.Lemmas.Lfsr
import Verif.Lemmas.TestRun
import Verif.Lemmas.TestCase
import Verif.Lemmas.TestSample
import Verif.Lemmas.TestRandom
import Verif.Props.TestSweep
import Verif.Props.TestRandom
import Verif.Model.TestBlocks
import Verif.Lemmas.TestBlocks
import Verif.Props.TestPrograms
import Verif.Props.TestOracle
import Verif.Model.TestFuns
import Verif.Lemmas.TestFuns
import Verif.Props.TestArithmetic
import Verif.Props.TestCopies
import Verif.Model.TestConstants
import Verif.Lemmas.TestConstants
import Verif.Props.TestConstants
import Verif.Model.TestInt
import Verif.Lemmas.TestInt
import Verif.Props.TestInt
import Verif.Lemmas.TestLog
import Verif.Props.TestLog
import Verif.Props.TestOverflow
import Verif.Lemmas.TestPow
import Verif.Props.TestPow
import Verif.Lemmas.TestElem
import Verif.Lemmas.TestPair
import Verif.Lemmas.TestFix
import Verif.Props.TestElem
import Verif.Lemmas.TestBin
import Verif.Props.TestBin
import Verif.Model.Fraction
import Verif.Lemmas.Fraction
import Verif.Props.Fraction
import Verif.Props.RoundBits
import Verif.Props.LinAlmost
import Verif.Props.LogAlmost
import Verif.Props.ArcothExact
import Verif.Model.LongDoubleOps
import Verif.Lemmas.LongDoubleOps
import Verif.Props.LongDoubleOps
import Verif.Props.Squares
import Verif.Props.InversionLaws
import Verif.Lemmas.LinGap
import Verif.Props.LinDivNearest
import Verif.Props.TestStatus
import Verif.Lemmas.LinSum32
import Verif.Props.LinWide
import Verif.Props.LinWide2
import Verif.Lemmas.Sterbenz
import Verif.Props.Sterbenz
import Verif.Props.Spacing
import Verif.Props.LogExact
import Verif.ManualPages
import Verif.Props.ManualPages
import Verif.Lemmas.Range
import Verif.Props.Range
import Verif.Props.Compare
import Verif.Props.PowerTwo
import Verif.Props.Integers
import Verif.Props.Scale
import Verif.Props.RelError
import Verif.Props.ErrorFree
import Verif.Props.Wider
import Verif.Props.WiderLin
import Verif.Props.Precision
import Verif.Props.Accumulate
import Verif.Props.IndexRound
import Verif.Props.PowerAgree
import Verif.Props.CRules
import Verif.Props.PowerMono
import Verif.AngleSpec
import Verif.Props.Angles
import Verif.IneqSpec
import Verif.Props.Inequalities
import Verif.MonoSpec2
import Verif.Props.MonoTwo
import Verif.Props.MonoPow
import Verif.Props.ExactResults
import Verif.Props.ElemNearest
import Verif.Lemmas.LogNear
import Verif.Props.LogNearest
import Verif.Props.Ordered
import Verif.PowSymSpec
import Verif.Lemmas.IdealPowSym
import Verif.Props.PowSym
import Verif.Props.AbsSign
import Verif.Model.Interface
import Verif.Model.ManPages
import Verif.Model.Makefile
import Verif.Props.Interface
import Verif.Props.ManPages
import Verif.Props.Makefile
import Verif.Model.Install
import Verif.Props.Install
import Verif.Model.Dist
import Verif.Props.Dist
import Verif.Props.Midpoint
import Verif.Model.Overview
import Verif.Props.Overview
import Verif.Props.ProductPrecision
import Verif.Props.Iterate
import Verif.Props.SumPrecision
import Verif.Props.Counting
import Verif.Props.Absorb
import Verif.Props.GeoMean
import Verif.Props.IntDivision
