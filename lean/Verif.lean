import Verif.Basic
import Verif.Types
import Verif.Prog
import Verif.CircularBuffer
import Verif.Readers
import Verif.ReadersLawful
import Verif.Varint
import Verif.ReaderApi
import Verif.Mem
import Verif.Utf8
import Verif.Decode
import Verif.Writers
import Verif.Encode
import Verif.Entry
import Verif.Parse
import Verif.Layout
import Verif.Refine
import Verif.RefineTy
import Verif.Spec
import Verif.EncodeWire
import Verif.Regular
import Verif.WireMin
import Verif.Codes
import Verif.RoundTrip
import Verif.RoundTripTy
import Verif.WriterRun
import Verif.WireLen
import Verif.Connect
import Verif.Samples
import Verif.PropsRoundTrip
import Verif.PropsWrite
import Verif.PropsVarint
import Verif.StreamAny
import Verif.Strict
import Verif.PropsReader
import Verif.StrictTy
import Verif.NoPeek
import Verif.PropsStream
import Verif.Sound
import Verif.Valid
import Verif.Wp
import Verif.GoodTy
import Verif.PropsSafe
import Verif.Total
import Verif.PropsAgree
import Verif.Derive
import Verif.Structs
import Verif.PropsDerive
import Verif.PropsAttrs
import Verif.PropsCount
import Verif.PropsSkip
import Verif.PropsEof
import Verif.PropsMaps
import Verif.PropsTime
import Verif.PropsRest
import Verif.PropsBulk
import Verif.PropsCow
import Verif.Recursive
import Verif.RecursiveOk
import Verif.PropsRecursive
import Verif.PropsBugs
import Verif.PropsTwin
import Verif.Frugal
import Verif.PropsExact
import Verif.PropsExt
import Verif.RawVec
import Verif.PropsRaw
import Verif.Refuse
import Verif.PropsRefuse
import Verif.File
import Verif.PropsFile
import Verif.Context
import Verif.PropsContext
import Verif.Plain
import Verif.PropsPlain
import Verif.PropsPlace
import Verif.PropsPortable
import Verif.Syntax
import Verif.PropsSpelling
import Verif.SynMin
import Verif.PropsMinEnds
import Verif.PropsText
import Verif.Uninit
import Verif.PropsUninit
import Verif.AnyStream
import Verif.AnyWrite
import Verif.PropsAnyStream
import Verif.PropsAnyWrite
import Verif.Bounds
import Verif.PropsBounds
import Verif.ErrorType
import Verif.PropsErrors
import Verif.Cost
import Verif.PropsCost
import Verif.PropsSteps
import Verif.Recode
import Verif.Settled
import Verif.PropsRecode
import Verif.Evolve
import Verif.PropsEvolve
import Verif.Debug
import Verif.DebugStream
import Verif.DebugRead
import Verif.DebugWrite
import Verif.PropsDebug
import Verif.Attributes
import Verif.PropsOrder
import Verif.PropsForced
import Verif.PropsForeign
import Verif.Grow
import Verif.PropsGrow
import Verif.Custom
import Verif.PropsCustom
import Verif.CustomRead
import Verif.PropsCustomRead
import Verif.Tokens
import Verif.PropsTokens
import Verif.PropsInterchange
import Verif.PropsAccept
import Verif.PropsDepth
import Verif.PropsHostile
import Verif.PropsNested
import Verif.PropsConcur
import Verif.PropsMinWrap
import Verif.CopyIter
import Verif.PropsCopy
import Verif.PropsEndian
import Verif.Norm
import Verif.PropsNorm
import Verif.Lent
import Verif.PropsLent
import Verif.Ahead
import Verif.PropsFeed
import Verif.Heap
import Verif.Debt
import Verif.PropsHeap
import Verif.Gen
import Verif.GenOk
import Verif.PropsNames
import Verif.PropsWhole
import Verif.PropsPiece
import Verif.PropsToil
import Verif.PropsCause
import Verif.Report
import Verif.PropsReport
import Verif.ZeroCopy
import Verif.PropsZeroCopy
import Verif.Blame
import Verif.PropsBlame
import Verif.PropsParts
import Verif.PropsFixed
