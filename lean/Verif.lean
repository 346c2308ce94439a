import Verif.Props.Wire
import Verif.Props.Foreign
import Verif.Props.Buffer
import Verif.Props.Call
import Verif.Props.FfiBuffer
import Verif.Props.Async
import Verif.Props.ForeignFuture
import Verif.Props.Driver
import Verif.Props.HandleMap
import Verif.Props.Objects
import Verif.Props.KotlinObject
import Verif.Props.Metadata
import Verif.Props.Checksum
import Verif.Props.Group
import Verif.Props.Names
import Verif.Props.BindingNames
import Verif.Props.Discr
import Verif.Props.TypeWalk
import Verif.Props.Version
import Verif.Props.Sort
import Verif.Props.Recursive
import Verif.Props.Abi
import Verif.Props.Default
import Verif.Props.Canonical
import Verif.Props.Rename
import Verif.Props.Paths
import Verif.Props.Public
import Verif.Props.SrcTypes
import Verif.Props.Cfg
import Verif.Src.EmitProgram
import Verif.Props.Emit
import Verif.Props.Assemble
import Verif.Props.Udl
import Verif.Props.Scaffold
import Verif.Props.ErrorFormat
import Verif.Props.JniLayout
import Verif.Props.JniFfi
import Verif.Props.JniSimple
import Verif.Props.JniValues
import Verif.Props.JniObjects
import Verif.Props.JniAsync
import Verif.Props.Extract
import Verif.Props.Config
import Verif.Props.Sources
import Verif.Props.JniCallback
import Verif.Props.UdlText
import Verif.Props.TraitOps
import Verif.Props.SwiftTime
import Verif.Props.Docs
import Verif.Dyn.Model
import Verif.Dyn.Spec
import Verif.Dyn.Lemmas
import Verif.Dyn.Python
import Verif.Dyn.Ruby
import Verif.Dyn.Accept
import Verif.Dyn.AcceptRuby
import Verif.Props.Dynamic
import Verif.Pipe.Model
import Verif.Pipe.Spec
import Verif.Pipe.Lemmas
import Verif.Pipe.Types
import Verif.Pipe.Map
import Verif.Pipe.Initial
import Verif.Props.Pipe
import Verif.Pipe.Compared
import Verif.Props.LoadCheck
import Verif.Export.Model
import Verif.Export.Spec
import Verif.Export.Lemmas
import Verif.Export.FnLemmas
import Verif.Export.ItemLemmas
import Verif.Export.SigLemmas
import Verif.Props.Export
import Verif.Src.Derive
import Verif.Src.DeriveSpec
import Verif.Src.DeriveLemmas
import Verif.Src.DeriveItems
import Verif.Src.DeriveReadSpec
import Verif.Src.DeriveRead
import Verif.Props.Derive
import Verif.Jni.Calls
import Verif.Jni.CallsSpec
import Verif.Jni.CallsLemmas
import Verif.Props.JniCalls
import Verif.Jni.Lookup
import Verif.Jni.LookupSpec
import Verif.Jni.LookupLemmas
import Verif.Props.JniLookup
import Verif.Jni.Natives
import Verif.Jni.NativesSpec
import Verif.Jni.NativesLemmas
import Verif.Props.JniNatives
import Verif.Jni.NativeResults
import Verif.Jni.NativeResultsSpec
import Verif.Props.JniNativeResults
import Verif.Jni.Dispatch
import Verif.Jni.DispatchSpec
import Verif.Props.JniDispatch
