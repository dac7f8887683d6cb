import Verif.Lemmas.Arguments
import Verif.Lemmas.ArrayCalls
import Verif.Lemmas.ArrayCallsTrace
import Verif.Lemmas.ArrayOps
import Verif.Lemmas.ArrayOpsMut
import Verif.Lemmas.ArrayOpsRead
import Verif.Lemmas.ArrayOpsSplice
import Verif.Lemmas.AsyncGen
import Verif.Lemmas.AsyncGenHist
import Verif.Lemmas.AsyncGenRun
import Verif.Lemmas.BigInt
import Verif.Lemmas.BigIntBits
import Verif.Lemmas.BigIntDiv
import Verif.Lemmas.BigIntMul
import Verif.Lemmas.BigIntShift
import Verif.Lemmas.BigIntSub
import Verif.Lemmas.BigIntWF
import Verif.Lemmas.Buffer
import Verif.Lemmas.BufferArgs
import Verif.Lemmas.BufferContent
import Verif.Lemmas.BufferInv
import Verif.Lemmas.BufferLoop
import Verif.Lemmas.BufferOps
import Verif.Lemmas.BufferRun
import Verif.Lemmas.BufferStep
import Verif.Lemmas.CapSlots
import Verif.Lemmas.Class
import Verif.Lemmas.Conv
import Verif.Lemmas.Cover
import Verif.Lemmas.Cover2
import Verif.Lemmas.Cover3
import Verif.Lemmas.Cover4
import Verif.Lemmas.Date
import Verif.Lemmas.DateFloat
import Verif.Lemmas.DateMake
import Verif.Lemmas.DateParse
import Verif.Lemmas.DateSet
import Verif.Lemmas.DateText
import Verif.Lemmas.DateTextual
import Verif.Lemmas.DeclsBase
import Verif.Lemmas.DeclsEff
import Verif.Lemmas.DeclsFunc
import Verif.Lemmas.DeclsMain
import Verif.Lemmas.DeclsRes
import Verif.Lemmas.DeclsScopes
import Verif.Lemmas.DeclsTop
import Verif.Lemmas.Descriptor
import Verif.Lemmas.Destr
import Verif.Lemmas.Destr2
import Verif.Lemmas.Destr3
import Verif.Lemmas.Destr4
import Verif.Lemmas.EnvBase
import Verif.Lemmas.EnvCells
import Verif.Lemmas.EnvNew
import Verif.Lemmas.EnvOps
import Verif.Lemmas.EnvRun
import Verif.Lemmas.EnvSim
import Verif.Lemmas.EnvStep
import Verif.Lemmas.EnvTail
import Verif.Lemmas.EnvTrace
import Verif.Lemmas.EnvWalk
import Verif.Lemmas.Exotic
import Verif.Lemmas.Exotic2
import Verif.Lemmas.Exotic3
import Verif.Lemmas.ExprCalm
import Verif.Lemmas.ExprComplete
import Verif.Lemmas.ExprFuel
import Verif.Lemmas.ExprSound
import Verif.Lemmas.ExprStd
import Verif.Lemmas.ExprTok
import Verif.Lemmas.Finalization
import Verif.Lemmas.FlowBase
import Verif.Lemmas.FlowIter
import Verif.Lemmas.FlowLabels
import Verif.Lemmas.FlowLoops
import Verif.Lemmas.FlowLoops2
import Verif.Lemmas.FlowParts
import Verif.Lemmas.FlowSim
import Verif.Lemmas.FlowSwitch
import Verif.Lemmas.FlowTop
import Verif.Lemmas.FlowTry
import Verif.Lemmas.FlowTry2
import Verif.Lemmas.ForIn
import Verif.Lemmas.ForInSpec
import Verif.Lemmas.GC
import Verif.Lemmas.GCRun
import Verif.Lemmas.GCSteps
import Verif.Lemmas.GenHist
import Verif.Lemmas.GenRun
import Verif.Lemmas.Generator
import Verif.Lemmas.GlobalDecl
import Verif.Lemmas.GlobalDecl2
import Verif.Lemmas.GlobalDecl3
import Verif.Lemmas.GlobalDecl4
import Verif.Lemmas.Hash
import Verif.Lemmas.Heap
import Verif.Lemmas.Intern
import Verif.Lemmas.Iter
import Verif.Lemmas.Jobs
import Verif.Lemmas.Json
import Verif.Lemmas.JsonComplete
import Verif.Lemmas.JsonHalf
import Verif.Lemmas.JsonLines
import Verif.Lemmas.JsonNum
import Verif.Lemmas.JsonParse
import Verif.Lemmas.JsonPrint
import Verif.Lemmas.JsonStrict
import Verif.Lemmas.JsonTotal
import Verif.Lemmas.LexInput
import Verif.Lemmas.LexName
import Verif.Lemmas.LexNum
import Verif.Lemmas.LexNum2
import Verif.Lemmas.LexNum3
import Verif.Lemmas.LexPunct
import Verif.Lemmas.LexString
import Verif.Lemmas.LexTempl
import Verif.Lemmas.LexTok
import Verif.Lemmas.LexTok2
import Verif.Lemmas.LexTok3
import Verif.Lemmas.LexTrie
import Verif.Lemmas.LinkedList
import Verif.Lemmas.MapIter
import Verif.Lemmas.MapSet
import Verif.Lemmas.ModLate
import Verif.Lemmas.ModLoad
import Verif.Lemmas.ModuleOnce
import Verif.Lemmas.ModuleSync
import Verif.Lemmas.NumConv
import Verif.Lemmas.NumStr
import Verif.Lemmas.NumText
import Verif.Lemmas.NumText2
import Verif.Lemmas.NumText3
import Verif.Lemmas.ObjFuncs
import Verif.Lemmas.Object
import Verif.Lemmas.ObjectProps
import Verif.Lemmas.Operators
import Verif.Lemmas.OperatorsEq
import Verif.Lemmas.OperatorsNum
import Verif.Lemmas.OperatorsOp
import Verif.Lemmas.ParseNum
import Verif.Lemmas.Private
import Verif.Lemmas.PrivateSpec
import Verif.Lemmas.Promise
import Verif.Lemmas.PromiseAll
import Verif.Lemmas.PropRun
import Verif.Lemmas.PropStore
import Verif.Lemmas.Proxy
import Verif.Lemmas.RBT
import Verif.Lemmas.Raw
import Verif.Lemmas.RegExpClass
import Verif.Lemmas.RegExpCorr
import Verif.Lemmas.RegExpEval
import Verif.Lemmas.RegExpEx
import Verif.Lemmas.RegExpExec
import Verif.Lemmas.RegExpGen
import Verif.Lemmas.RegExpRun
import Verif.Lemmas.RegExpSound
import Verif.Lemmas.RegExpSpec
import Verif.Lemmas.RegExpTotal
import Verif.Lemmas.RegMethods
import Verif.Lemmas.RegNum
import Verif.Lemmas.Resolve
import Verif.Lemmas.ResolveCheck
import Verif.Lemmas.ResolveEnv
import Verif.Lemmas.ResolveTab
import Verif.Lemmas.Sort
import Verif.Lemmas.Str
import Verif.Lemmas.StrNum
import Verif.Lemmas.StrNumParse
import Verif.Lemmas.StrNumSound
import Verif.Lemmas.StrSplit
import Verif.Lemmas.Strtod
import Verif.Lemmas.Subst
import Verif.Lemmas.Uri
import Verif.Lemmas.Value
import Verif.Lemmas.Waiter
import Verif.Lemmas.WaiterLost
import Verif.Lemmas.WaiterRun
import Verif.Lemmas.WaiterWake
import Verif.Model.Arguments
import Verif.Model.ArrayCalls
import Verif.Model.ArrayIter
import Verif.Model.ArrayOps
import Verif.Model.AsyncGen
import Verif.Model.BigInt
import Verif.Model.Buffer
import Verif.Model.CapSlots
import Verif.Model.Class
import Verif.Model.Conv
import Verif.Model.Cover
import Verif.Model.Date
import Verif.Model.DateText
import Verif.Model.Decls
import Verif.Model.Destr
import Verif.Model.Env
import Verif.Model.Exotic
import Verif.Model.Expr
import Verif.Model.Finalization
import Verif.Model.Flow
import Verif.Model.ForIn
import Verif.Model.GC
import Verif.Model.Generator
import Verif.Model.GlobalDecl
import Verif.Model.Hash
import Verif.Model.InstanceOf
import Verif.Model.Intern
import Verif.Model.Iter
import Verif.Model.Jobs
import Verif.Model.Json
import Verif.Model.Lex
import Verif.Model.LinkedList
import Verif.Model.MapKey
import Verif.Model.MapSet
import Verif.Model.ModLate
import Verif.Model.ModLoad
import Verif.Model.Module
import Verif.Model.NumConv
import Verif.Model.NumStr
import Verif.Model.NumText
import Verif.Model.ObjFuncs
import Verif.Model.Object
import Verif.Model.Operators
import Verif.Model.ParseNum
import Verif.Model.Private
import Verif.Model.Promise
import Verif.Model.PromiseAll
import Verif.Model.PropStore
import Verif.Model.Proxy
import Verif.Model.RBT
import Verif.Model.Raw
import Verif.Model.RegExp
import Verif.Model.RegExpExec
import Verif.Model.RegMethods
import Verif.Model.RegNum
import Verif.Model.Resolve
import Verif.Model.Sort
import Verif.Model.Str
import Verif.Model.StrNum
import Verif.Model.Strtod
import Verif.Model.Subst
import Verif.Model.Uri
import Verif.Model.Value
import Verif.Model.Waiter
import Verif.Props.Arguments
import Verif.Props.ArrayCalls
import Verif.Props.ArrayIter
import Verif.Props.ArrayOps
import Verif.Props.AsyncGen
import Verif.Props.Atomics
import Verif.Props.BigInt
import Verif.Props.BigIntMore
import Verif.Props.Buffer
import Verif.Props.BufferBulk
import Verif.Props.CapSlots
import Verif.Props.Class
import Verif.Props.Conv
import Verif.Props.Cover
import Verif.Props.Date
import Verif.Props.DateText
import Verif.Props.Decls
import Verif.Props.Destr
import Verif.Props.Env
import Verif.Props.Exotic
import Verif.Props.Expr
import Verif.Props.Finalization
import Verif.Props.Flow
import Verif.Props.ForIn
import Verif.Props.GC
import Verif.Props.Generator
import Verif.Props.GlobalDecl
import Verif.Props.Hash
import Verif.Props.InstanceOf
import Verif.Props.Iter
import Verif.Props.Jobs
import Verif.Props.Json
import Verif.Props.Lex
import Verif.Props.LinkedList
import Verif.Props.MapIter
import Verif.Props.MapSet
import Verif.Props.ModLate
import Verif.Props.ModLoad
import Verif.Props.Module
import Verif.Props.ModuleOrder
import Verif.Props.NumConv
import Verif.Props.NumStr
import Verif.Props.NumText
import Verif.Props.ObjFuncs
import Verif.Props.Object
import Verif.Props.ObjectDefine
import Verif.Props.ObjectSafe
import Verif.Props.ObjectSet
import Verif.Props.Operators
import Verif.Props.ParseNum
import Verif.Props.Private
import Verif.Props.Promise
import Verif.Props.PromiseAll
import Verif.Props.PropStore
import Verif.Props.Proxy
import Verif.Props.RBT
import Verif.Props.Raw
import Verif.Props.RegExp
import Verif.Props.RegMethods
import Verif.Props.RegNum
import Verif.Props.Resolve
import Verif.Props.Sort
import Verif.Props.Str
import Verif.Props.StrNum
import Verif.Props.TypedBulk
import Verif.Props.Uri
import Verif.Props.Value
import Verif.Props.Waiter
import Verif.Spec.Arguments
import Verif.Spec.ArrayCalls
import Verif.Spec.ArrayIter
import Verif.Spec.ArrayOps
import Verif.Spec.AsyncGen
import Verif.Spec.BigInt
import Verif.Spec.Buffer
import Verif.Spec.CapSlots
import Verif.Spec.Class
import Verif.Spec.Conv
import Verif.Spec.Cover
import Verif.Spec.Date
import Verif.Spec.DateText
import Verif.Spec.Decls
import Verif.Spec.Destr
import Verif.Spec.Env
import Verif.Spec.EnvCode
import Verif.Spec.Exotic
import Verif.Spec.Expr
import Verif.Spec.Finalization
import Verif.Spec.Flow
import Verif.Spec.ForIn
import Verif.Spec.GC
import Verif.Spec.Generator
import Verif.Spec.GlobalDecl
import Verif.Spec.Hash
import Verif.Spec.Iter
import Verif.Spec.Jobs
import Verif.Spec.Json
import Verif.Spec.JsonValue
import Verif.Spec.Lex
import Verif.Spec.LinkedList
import Verif.Spec.MapSet
import Verif.Spec.ModLoad
import Verif.Spec.Module
import Verif.Spec.NumConv
import Verif.Spec.NumStr
import Verif.Spec.NumText
import Verif.Spec.ObjFuncs
import Verif.Spec.Object
import Verif.Spec.Operators
import Verif.Spec.ParseNum
import Verif.Spec.Private
import Verif.Spec.Promise
import Verif.Spec.PromiseAll
import Verif.Spec.PropStore
import Verif.Spec.Proxy
import Verif.Spec.RBT
import Verif.Spec.Raw
import Verif.Spec.RegExp
import Verif.Spec.RegExpClass
import Verif.Spec.RegMethods
import Verif.Spec.RegNum
import Verif.Spec.Resolve
import Verif.Spec.Str
import Verif.Spec.StrNum
import Verif.Spec.Subst
import Verif.Spec.Uri
import Verif.Spec.Value
import Verif.Spec.Waiter
