import Verif.Props.Ind
import Verif.Props.AllocSize
import Verif.Props.Utf8
import Verif.Props.StringFns
import Verif.Props.Order
import Verif.Props.Maps
import Verif.Props.GetLine
import Verif.Props.VarBuf
import Verif.Props.Ini
import Verif.Props.Json
import Verif.Props.View
import Verif.Props.Transpose
import Verif.Props.Arith
import Verif.Props.Rows
import Verif.Props.Roots
import Verif.Props.Range
import Verif.Props.Mem
import Verif.Props.MemArray
import Verif.Props.MemShare
import Verif.Props.MemVars
import Verif.Props.MemMaps
import Verif.Props.MemAssign
import Verif.Props.Xml
import Verif.Props.Config
import Verif.Props.Option
import Verif.Props.Curl
import Verif.Props.Sndfile
import Verif.Props.MemUnary
import Verif.Props.Dot
import Verif.Props.Reduce
import Verif.Props.MemNil
import Verif.Props.Ged
import Verif.Props.MemAppend
import Verif.Props.MemString
import Verif.Props.MemStrip
import Verif.Props.Module
import Verif.Props.JsonLost
import Verif.Props.JsonView
import Verif.Props.Gnuplot
import Verif.Props.Graph
import Verif.Props.Backtrace
import Verif.Props.MemName
import Verif.Props.ViewOps
import Verif.Props.ViewElem
import Verif.Props.Cast
import Verif.Props.Ctor
import Verif.Props.Dft
import Verif.Props.Path
import Verif.Props.Pow
import Verif.Props.Unary
import Verif.Props.Life
import Verif.Props.Owning
import Verif.Props.XmlType
import Verif.Props.Ctype
import Verif.Props.TransposeMkl
import Verif.Props.DftMkl
import Verif.Props.OwningMkl
import Verif.Props.Qwt
import Verif.Props.MemComplex
import Verif.Props.MemOwn
import Verif.Props.ViewEdit
import Verif.Props.MemLimit
import Verif.Props.MemArith
import Verif.Props.MemArithErr
import Verif.Props.MemRange
import Verif.Props.MemMove
import Verif.Props.FloatRange
import Verif.Props.MemIrange
import Verif.Props.MemBuild
import Verif.Props.XmlKeep
import Verif.Props.MemPrint
import Verif.Props.MemPrintRead
import Verif.Props.MemCompare
import Verif.Props.MemFind
import Verif.Props.MemSort
import Verif.Props.MemSortNumber
import Verif.Props.MemConst
import Verif.Props.MemTop
import Verif.Props.Derived
import Verif.Props.Negate
import Verif.Props.IntArith
import Verif.Props.FloatArith
import Verif.Props.FloatRound
import Verif.Props.Complex
import Verif.Props.Assign
import Verif.Props.FloatOrder
import Verif.Props.FloatSum
import Verif.Props.FloatCast
import Verif.Props.FloatInf
import Verif.Props.FloatIncrease
