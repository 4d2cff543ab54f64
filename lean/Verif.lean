import Verif.Props.Match
import Verif.Props.BundleS
import Verif.Props.Wire
import Verif.Props.Timetag
import Verif.Props.LinkedList
import Verif.Props.Hashtab
import Verif.Props.OscArray
import Verif.Props.MsgArgs
import Verif.Props.BundleU
import Verif.Props.MsgS
import Verif.Props.Atoms
import Verif.Props.RoundTrip
import Verif.Props.Typetag
import Verif.Props.StrFmt
import Verif.Props.Serial
import Verif.Props.Query
import Verif.Props.ExprList
import Verif.ExprArith
import Verif.Props.ExprArith
import Verif.Props.ExprCmp
import Verif.Props.ExprIf
import Verif.Props.ExprAssign
import Verif.Props.ExprQuery
import Verif.Props.ExprApply
import Verif.Props.ExprMap
import Verif.Props.Copy
import Verif.Props.Flatten
import Verif.Props.Explode
import Verif.Props.Text
import Verif.Props.ExprStr
import Verif.Props.ExprCast
import Verif.Props.ExprBits
import Verif.Props.ExprParse
import Verif.Props.ExprBuild
import Verif.Props.ExprSem
import Verif.Props.ExprScan
import Verif.Props.ExprFloat
import Verif.Props.TimeSeconds
import Verif.Props.ExprOrder
import Verif.Props.ExprNames
import Verif.Props.ExprSums
import Verif.Props.ExprRound
import Verif.Props.ExprMod
import Verif.Props.ExprSort
import Verif.Props.ExprDet
import Verif.Props.ExprCum
import Verif.ExprSemNum
import Verif.ExprSemFp
import Verif.ExprSemNums
import Verif.ExprSemTexts
import Verif.ExprSemTable
import Verif.TimeFp
import Verif.Printf
import Verif.IsoText
import Verif.Props.IsoText
import Verif.Props.IsoDates
import Verif.TextIso
import Verif.ExprHull
import Verif.Props.ExprHull
import Verif.ExprMisc
import Verif.Props.ExprMisc
import Verif.Props.ExprCastFp
import Verif.Props.ExprRoots
import Verif.Props.ExprLib
import Verif.Props.ExprConst
import Verif.Props.ExprMember
import Verif.Props.ExprEvalText
import Verif.TextFmtS
import Verif.TextFmtSLemmas
import Verif.Props.TextS
import Verif.MemSets
import Verif.Props.SetsU
import Verif.MemWire
import Verif.Props.FlattenS
import Verif.ExprFmt
import Verif.Props.ExprFmt
import Verif.ExprHeap
import Verif.Props.ExprHeap
import Verif.AtomOps
import Verif.Props.AtomOps
import Verif.ExprSemApply
import Verif.ExprElems
import Verif.Props.ExprElems
import Verif.ExprSemForms
import Verif.Precision
import Verif.VTabMem
import Verif.Props.Precision
import Verif.Props.VTabMem
import Verif.Props.Make
import Verif.Props.PutCopy
import Verif.Clock
import Verif.Props.Clock
import Verif.TextHelp
import Verif.Props.TextHelp
import Verif.Props.ExprScale
import Verif.ExprSemMore
import Verif.ErrorReport
import Verif.Props.ErrorReport
import Verif.RSetMem
import Verif.Props.RSetMem
import Verif.ExprRec
import Verif.Props.ExprRec
import Verif.SHandle
import Verif.Props.SHandle
import Verif.ExprDoc
import Verif.Props.ExprDoc
import Verif.Props.ExprIndex
import Verif.ExprIndex
import Verif.MemAtom
import Verif.Props.MemAtom
