import Verif.Props.StrJson
import Verif.Props.Parse
import Verif.Props.Doc
import Verif.Props.Edit
import Verif.Props.History
import Verif.Props.Strip
import Verif.Props.Types
import Verif.Props.Access
import Verif.Props.Pool
import Verif.Props.NumJson
import Verif.Spec.NumBack
import Verif.Props.NumBack
import Verif.Spec.NumInt
import Verif.Proofs.NumInt
import Verif.Props.NumInt
import Verif.Spec.UnFloat
import Verif.Props.UnFloat
import Verif.Props.UnTags
import Verif.Proofs.UnEq
import Verif.Props.UnMarshal
import Verif.Props.UnStruct
import Verif.Props.UnUnmarshal
import Verif.Spec.UnRound
import Verif.Proofs.UnRound
import Verif.Proofs.UnAccept
import Verif.Props.UnRound
import Verif.Model.UnCache
import Verif.Proofs.UnCache
import Verif.Props.UnCache
import Verif.Model.UnStream
import Verif.Spec.UnStream
import Verif.Proofs.UnStream
import Verif.Proofs.UnLine
import Verif.Props.UnStream
import Verif.Spec.UnStreamMem
import Verif.Props.UnStreamMem
import Verif.Spec.UnTotal
import Verif.Spec.UnOptions
import Verif.Proofs.UnFuel
import Verif.Proofs.UnTerm
import Verif.Proofs.UnEncTotal
import Verif.Proofs.UnDecTotal
import Verif.Proofs.UnRunLe
import Verif.Proofs.UnParts
import Verif.Props.UnOptions
import Verif.Props.UnTotal
import Verif.Model.Gen
import Verif.Model.GenRun
import Verif.Spec.Gen
import Verif.Proofs.GenPick
import Verif.Proofs.GenTerm
import Verif.Proofs.GenCompile
import Verif.Proofs.GenRun
import Verif.Proofs.GenText
import Verif.Proofs.GenSort
import Verif.Proofs.GenExample
import Verif.Proofs.GenOne
import Verif.Props.GenAppend
import Verif.Spec.GenDec
import Verif.Proofs.GenDecPick
import Verif.Proofs.GenDecCompile
import Verif.Proofs.GenDecPath
import Verif.Proofs.GenDecRun
import Verif.Proofs.GenDecFun
import Verif.Proofs.GenDecFits
import Verif.Proofs.GenDecKeep
import Verif.Proofs.GenDecTyped
import Verif.Props.GenDec
import Verif.Spec.GenRound
import Verif.Proofs.GenRound
import Verif.Proofs.GenAgain
import Verif.Props.GenRound
import Verif.Model.Live
import Verif.Spec.Live
import Verif.Props.Live
import Verif.Spec.UnMeth
import Verif.Proofs.UnReject
import Verif.Proofs.UnBuildM
import Verif.Proofs.UnEncodeM
import Verif.Proofs.UnMethDet
import Verif.Proofs.UnExampleM
import Verif.Props.UnMeth
import Verif.Spec.UnEnds
import Verif.Proofs.UnEndsM
import Verif.Props.UnMethEnds
import Verif.Spec.UnMethJson
import Verif.Proofs.UnMethJson
import Verif.Props.UnMethJson
import Verif.Spec.UnDecM
import Verif.Proofs.UnDecM
import Verif.Proofs.UnRejectD
import Verif.Proofs.UnExampleD
import Verif.Props.UnMethDec
import Verif.Props.UnNil
import Verif.Model.StructTag
import Verif.Spec.StructTag
import Verif.Proofs.StructTag
import Verif.Props.StructTag
import Verif.Model.Bytemaper
import Verif.Spec.Bytemaper
import Verif.Props.Bytemaper
import Verif.Model.BytemaperFile
import Verif.Spec.BytemaperFile
import Verif.Proofs.BytemaperFile
import Verif.Props.BytemaperFile
import Verif.Model.Writer
import Verif.Spec.Writer
import Verif.Props.Writer
import Verif.Spec.ErrPos
import Verif.Proofs.ErrPos
import Verif.Props.ErrPos
import Verif.Model.ErrText
import Verif.Proofs.ErrText
import Verif.Props.ErrText
import Verif.Model.GenFile
import Verif.Spec.GenFile
import Verif.Proofs.GenFile
import Verif.Proofs.GenFileCompile
import Verif.Props.GenFile
import Verif.Model.Njsontest
import Verif.Spec.Njsontest
import Verif.Props.Njsontest
import Verif.Proofs.Bound
import Verif.Proofs.BoundSlots
import Verif.Proofs.BoundText
import Verif.Props.Bound
import Verif.Model.Flags
import Verif.Spec.Flags
import Verif.Proofs.Flags
import Verif.Props.Flags
import Verif.Model.BufPool
import Verif.Proofs.BufPool
import Verif.Props.BufPool
import Verif.Spec.GenSame
import Verif.Proofs.GenSame
import Verif.Props.GenSame
import Verif.Spec.AnySame
import Verif.Proofs.AnySame
import Verif.Props.AnySame
import Verif.Spec.GenSameDec
import Verif.Proofs.GenSameDec
import Verif.Props.GenSameDec
import Verif.Props.GenNil
import Verif.Props.GenUPanic
import Verif.Props.UnIgnore
import Verif.Props.GenAlloc
import Verif.Spec.Place
import Verif.Proofs.Place
import Verif.Props.Place
import Verif.Spec.New
import Verif.Props.New
import Verif.Spec.StrExact
import Verif.Proofs.StrExact
import Verif.Props.StrExact
import Verif.Spec.Lookup
import Verif.Props.Lookup
import Verif.Spec.Noop
import Verif.Props.Noop
import Verif.Spec.FloatSteps
import Verif.Proofs.FloatSteps
import Verif.Props.FloatSteps
import Verif.Props.Cycle
import Verif.Spec.UnExact
import Verif.Proofs.UnExact
import Verif.Proofs.UnConv
import Verif.Proofs.UnBack
import Verif.Props.UnExact
import Verif.Props.ToNum
import Verif.Spec.UnPanic
import Verif.Proofs.UnPanic
import Verif.Props.UnPanic
import Verif.Model.FormatFloat
import Verif.Spec.FormatFloat
import Verif.Proofs.FormatFloat
import Verif.Proofs.FormatFloatPick
import Verif.Proofs.FormatFloatDigits
import Verif.Proofs.FormatFloatText
import Verif.Proofs.FormatFloatAppend
import Verif.Props.FormatFloat
import Verif.Props.FormatGo
import Verif.Props.FloatOrder
import Verif.Spec.Commute
import Verif.Proofs.Commute
import Verif.Props.Commute
import Verif.Spec.UnOrder
import Verif.Proofs.UnOrder
import Verif.Props.UnOrder
import Verif.Props.UnMapOrder
import Verif.Spec.Compact
import Verif.Proofs.Compact
import Verif.Props.Compact
import Verif.Props.Keys
import Verif.Props.GenMapOrder
import Verif.Props.UnAgain
import Verif.Props.GenUAgain
import Verif.Props.GenOrder
import Verif.Props.UnIface
import Verif.Model.ParserSteps
import Verif.Props.ParserSteps
import Verif.Spec.Depth
import Verif.Props.Depth
import Verif.Spec.Held
import Verif.Proofs.Held
import Verif.Props.Held
import Verif.Proofs.Grow
import Verif.Props.Grow
import Verif.Model.UnOmitNew
import Verif.Spec.OmitNew
import Verif.Props.OmitNew
import Verif.Spec.Missing
import Verif.Props.Missing
import Verif.Spec.UnPrefix
import Verif.Props.UnPrefix
import Verif.Props.Prefix
import Verif.Props.GenPrefix
import Verif.Spec.Alike
import Verif.Proofs.Alike
import Verif.Props.Alike
import Verif.Spec.SerInj
import Verif.Proofs.SerInj
import Verif.Props.SerInj
import Verif.Model.AppendSteps
import Verif.Proofs.AppendSteps
import Verif.Props.AppendSteps
import Verif.Spec.Undo
import Verif.Proofs.Undo
import Verif.Props.Undo
import Verif.Spec.Stays
import Verif.Proofs.Stays
import Verif.Props.Stays
import Verif.Spec.UnShown
import Verif.Proofs.UnShown
import Verif.Props.UnShown
import Verif.Spec.UnKeeps
import Verif.Proofs.UnKeeps
import Verif.Props.UnKeeps
import Verif.Spec.GenShown
import Verif.Proofs.GenShown
import Verif.Props.GenShown
import Verif.Props.StrPieces
import Verif.Spec.InTurn
import Verif.Props.InTurn
import Verif.Spec.StripAgain
import Verif.Props.StripAgain
import Verif.Spec.StripKeys
import Verif.Props.StripKeys
