import Verif.Schema.Readable
import Verif.Props.Wire
import Verif.Compiler.Correct
import Verif.Compiler.Flags
import Verif.Gen.Agreement
import Verif.Gen.ParseEnc
import Verif.Gen.ParseProps
import Verif.Gen.SerEnc
import Verif.Gen.NullRoot
import Verif.Props.Decode
import Verif.Props.Resolution
import Verif.Props.ResolutionEx
import Verif.Props.Compiler
import Verif.Props.Fingerprint
import Verif.Props.Writer
import Verif.Props.Soe
import Verif.VM.ReaderSim
import Verif.Props.WellCheck
import Verif.Spec.Ocf
import Verif.Container.FileProof
import Verif.Container.WriterProof
import Verif.Props.ContainerRound
import Verif.Props.Parser
import Verif.Props.ByteString
import Verif.Props.Canonical
import Verif.Props.Names
import Verif.Props.Generic
import Verif.Props.Written
import Verif.Props.Document
import Verif.Props.Defaults
import Verif.Props.DefaultsEx
import Verif.Props.JsonEnc
import Verif.Props.JsonEncEx
import Verif.Props.Lax
import Verif.Props.Nulls
import Verif.Props.Reuse
import Verif.Props.Recover
import Verif.Props.Shared
import Verif.Props.DefaultOrder
import Verif.Props.GenericFails
import Verif.Props.Ends
import Verif.Props.Accepts
import Verif.Props.Reencode
import Verif.Props.Command
import Verif.Props.NameParts
import Verif.Spec.GoText
import Verif.Spec.GoDecl
import Verif.Spec.GoShape
import Verif.Go.Quote
import Verif.Go.QuoteProof
import Verif.Go.Lex
import Verif.Gen.Text
import Verif.Gen.TextProof
import Verif.Gen.TextDecl
import Verif.Props.Text
import Verif.Spec.Fresh
import Verif.Props.Fresh
import Verif.Props.Vectors
import Verif.Props.Corpus
import Verif.Props.Exchange
import Verif.Props.Messages
import Verif.Spec.MiniGo
import Verif.Spec.GoValues
import Verif.Gen.Code
import Verif.Go.Run
import Verif.Gen.SerOrder
import Verif.Gen.CodeRun
import Verif.Gen.CodeSer
import Verif.Gen.CodeText
import Verif.Gen.CodeClean
import Verif.Props.Code
import Verif.Props.CodeEx
import Verif.Spec.Memory
import Verif.Gen.Memory
import Verif.Gen.MemBase
import Verif.Gen.MemOwn
import Verif.Gen.MemSub
import Verif.Gen.MemOps
import Verif.Gen.MemApp
import Verif.Gen.MemSim
import Verif.Props.Memory
import Verif.Gen.Threads
import Verif.Gen.ThreadSim
import Verif.Props.Threads
import Verif.Spec.GoTarget
import Verif.VM.Match
import Verif.Gen.Methods
import Verif.Gen.MethodsRun
import Verif.Gen.MethodsOps
import Verif.Gen.MethodsEach
import Verif.Gen.MethodsAppend
import Verif.Gen.MethodsVoid
import Verif.Gen.MethodsAll
import Verif.Gen.MethodsLib
import Verif.Gen.MethodsSim
import Verif.Gen.MethodsMatch
import Verif.Props.Methods
import Verif.Props.MethodsEx
import Verif.Gen.MethodsText
import Verif.Gen.MethodsToks
import Verif.Props.MethodsText
import Verif.Gen.LibText
import Verif.Props.LibText
import Verif.VM.Steps
import Verif.Generic.Places
import Verif.Generic.PlacesRep
import Verif.Generic.PlacesDatum
import Verif.Generic.PlacesSim
import Verif.Props.GenericThreads
import Verif.Spec.GoNumber
import Verif.Spec.GoDefault
import Verif.Spec.Whole
import Verif.Go.Decimal
import Verif.Gen.DefaultCode
import Verif.Gen.DefaultCodeRun
import Verif.Gen.DefaultWhole
import Verif.Gen.DefaultCodeMeans
import Verif.Gen.DefaultCodeBack
import Verif.Gen.DefaultText
import Verif.Gen.DefaultTextProof
import Verif.Props.DefaultCode
import Verif.Props.DefaultCodeEx
import Verif.Spec.GoJson
import Verif.Gen.JsonCode
import Verif.Gen.JsonCodeMarshal
import Verif.Gen.JsonMono
import Verif.Gen.JsonCodeUnmarshal
import Verif.Gen.JsonCodeText
import Verif.Props.JsonCode
import Verif.Props.JsonCodeEx
import Verif.Go.LexAppend
import Verif.Gen.FileText
import Verif.Spec.GoEntry
import Verif.Gen.Entry
import Verif.Gen.EntryText
import Verif.Gen.EntryLib
import Verif.Gen.EntryProof
import Verif.Props.Entry
import Verif.Spec.GoFile
import Verif.Gen.FileWalk
import Verif.Gen.FileWalkAll
import Verif.Gen.FileNames
import Verif.Gen.FileParts
import Verif.Gen.Affixes
import Verif.Props.Declared
import Verif.Spec.GoImports
import Verif.Gen.ImportsProof
import Verif.Props.Imports
import Verif.Spec.GoSelectors
import Verif.Gen.SelectorsProof
import Verif.Props.Selectors
import Verif.Props.Members
import Verif.Spec.GoHeader
import Verif.Props.Header
