import Verif.Common.AMap
import Verif.Toposort.Model
import Verif.Toposort.Props
import Verif.Bridge.Props
import Verif.Memo.Props
import Verif.Memo.DbIndex
import Verif.Interner.Props
import Verif.RsChar.Props
import Verif.Lossy.Props
import Verif.Features.Props
import Verif.Label.Props
import Verif.Namespaces.Merge
import Verif.Namespaces.Collect
import Verif.StrRef.Props
import Verif.Alias.Props
import Verif.Movable.Props
import Verif.NullMerge.Props
import Verif.NullMerge.Samples
import Verif.NullFlow.Verdict
import Verif.NullFlow.JoinProps
import Verif.NullFlow.Widen
import Verif.NullFlow.Checks
import Verif.Lifetimes.Table
import Verif.Lifetimes.SymTab
import Verif.Lifetimes.Subst
import Verif.Lifetimes.Constraints
import Verif.Lifetimes.Lattice
import Verif.Lifetimes.Apply
import Verif.Lifetimes.Callable
import Verif.Defaults.Names
import Verif.Defaults.Model
import Verif.Defaults.Spec
import Verif.Defaults.Props
import Verif.Defaults.Func
import Verif.Defaults.Bound
import Verif.Layout.Model
import Verif.Layout.Spec
import Verif.Layout.Props
import Verif.Layout.Struct
import Verif.Layout.Union
import Verif.Layout.Class
import Verif.CcLayout.Model
import Verif.CcLayout.Spec
import Verif.CcLayout.Struct
import Verif.CcLayout.Enum
import Verif.CcLayout.Cases
import Verif.SharedPtr.Model
import Verif.SharedPtr.Spec
import Verif.SharedPtr.Inv
import Verif.SharedPtr.Props
import Verif.SharedPtr.Weak
import Verif.Vector.Model
import Verif.Vector.Spec
import Verif.Vector.Low
import Verif.Vector.Mid
import Verif.Vector.Refine
import Verif.Vector.Own
import Verif.Vector.Methods
import Verif.Vector.Props
import Verif.Vector.Cases
import Verif.Ctor.Model
import Verif.Ctor.Spec
import Verif.Ctor.Lemmas
import Verif.Ctor.Run
import Verif.Ctor.Inv
import Verif.Ctor.Props
import Verif.RsStd.Layout
import Verif.RsStd.Bytes
import Verif.RsStd.Tag
import Verif.RsStd.Option
import Verif.RsStd.OptionSpec
import Verif.RsStd.OptionLemmas
import Verif.RsStd.OptionProps
import Verif.RsStd.Result
import Verif.RsStd.ResultProps
import Verif.RsStd.Examples
import Verif.DynCallable.Spec
import Verif.DynCallable.Model
import Verif.DynCallable.Lemmas
import Verif.DynCallable.Refine
import Verif.DynCallable.Ownership
import Verif.DynCallable.Props
import Verif.FnCall.Spec
import Verif.FnCall.Model
import Verif.FnCall.Params
import Verif.FnCall.ParamsProof
import Verif.FnCall.Tuples
import Verif.FnCall.Returns
import Verif.FnCall.Call
import Verif.FnCall.Props
import Verif.CcCall.Spec
import Verif.CcCall.Model
import Verif.CcCall.Stages
import Verif.CcCall.Cpp
import Verif.CcCall.Call
import Verif.CcCall.Whole
import Verif.CcCall.Props
import Verif.CcCall.Examples
import Verif.Future.Spec
import Verif.Future.Model
import Verif.Future.Refine
import Verif.Future.Count
import Verif.Future.Props
import Verif.Future.Rc
import Verif.Future.Examples
import Verif.Special.Spec
import Verif.Special.Model
import Verif.Special.Props
import Verif.Special.Owner
import Verif.Header.Spec
import Verif.Header.Model
import Verif.Header.Lemmas
import Verif.Header.Fix
import Verif.Header.Props
import Verif.Header.Main
import Verif.Header.Det
import Verif.Header.Fail
import Verif.Header.Example
import Verif.Paths.Spec
import Verif.Paths.Model
import Verif.Paths.Bfs
import Verif.Paths.Best
import Verif.Paths.Crate
import Verif.Paths.All
import Verif.Paths.Example
import Verif.NullTy.Spec
import Verif.NullTy.Model
import Verif.NullTy.Slots
import Verif.NullTy.Scoped
import Verif.NullTy.All
import Verif.NullTy.Rebuild
import Verif.NullTy.Unknown
import Verif.NullTy.Example
import Verif.CallOrder.Example
import Verif.ModName.All
import Verif.ModName.Example
import Verif.TypeVis.All
import Verif.TypeVis.Example
import Verif.StrOwn.Spec
import Verif.StrOwn.Model
import Verif.StrOwn.All
import Verif.StrOwn.Example
import Verif.Common.Own
import Verif.UniqPtr.Spec
import Verif.UniqPtr.Model
import Verif.UniqPtr.All
import Verif.UniqPtr.Example
import Verif.StrView.All
import Verif.Printer.Spec
import Verif.Printer.Model
import Verif.Printer.Lex
import Verif.Printer.Print
import Verif.Printer.Cpp
import Verif.Printer.Prov
import Verif.Printer.Example
import Verif.PtsTo.Spec
import Verif.PtsTo.Model
import Verif.PtsTo.Facts
import Verif.PtsTo.Abs
import Verif.PtsTo.Sound
import Verif.PtsTo.ExecSound
import Verif.PtsTo.Final
import Verif.PtsTo.Example
import Verif.NullSound.Spec
import Verif.NullSound.Model
import Verif.NullSound.Facts
import Verif.NullSound.Static
import Verif.NullSound.Active
import Verif.NullSound.NoTop
import Verif.NullSound.Join
import Verif.NullSound.Sound
import Verif.NullSound.Strict
import Verif.NullSound.All
import Verif.NullSound.Precise
import Verif.NullSound.Unique
import Verif.NullSound.Converge
import Verif.NullSound.Gaps
import Verif.Infer.Model
import Verif.Infer.Rename
import Verif.Infer.Context
import Verif.Infer.Congr
import Verif.Infer.Roundtrip
import Verif.Infer.Spec
import Verif.Infer.Evidence
import Verif.Infer.Fix
import Verif.Infer.Virtual
import Verif.Infer.VSpec
import Verif.Infer.VIndex
import Verif.Infer.Flow
import Verif.Infer.Rounds
import Verif.Infer.Conclude
import Verif.Infer.Example
import Verif.CcValue.Spec
import Verif.CcValue.Model
import Verif.CcValue.Drop
import Verif.CcValue.Destroy
import Verif.CcValue.Clone
import Verif.CcValue.Program
import Verif.CcValue.Compile
import Verif.CcValue.Cells
import Verif.CcValue.Example
import Verif.Bases.Spec
import Verif.Bases.Model
import Verif.Bases.Lookup
import Verif.Bases.Find
import Verif.Bases.Listed
import Verif.Bases.Members
import Verif.Bases.Example
import Verif.ExprNull.Spec
import Verif.ExprNull.Model
import Verif.ExprNull.Walk
import Verif.ExprNull.Typed
import Verif.ExprNull.Example
import Verif.Consts.Spec
import Verif.Consts.Model
import Verif.Consts.ToRust
import Verif.Consts.ToCpp
import Verif.Consts.Tags
import Verif.Ops.Spec
import Verif.Ops.Model
import Verif.Ops.Overload
import Verif.Ops.Impls
import Verif.Ops.Compare
import Verif.Ops.Index
import Verif.InlineCpp.Spec
import Verif.InlineCpp.Model
import Verif.InlineCpp.Parse
import Verif.InlineCpp.Blocks
import Verif.InlineCpp.Lines
import Verif.InlineCpp.Thunk
import Verif.InlineCpp.Names
import Verif.InlineCpp.Validate
import Verif.InlineCpp.Fmt
import Verif.InlineCpp.Example
import Verif.CppTypes.Spec
import Verif.CppTypes.Model
import Verif.CppTypes.Exact
import Verif.CppTypes.Agree
import Verif.CppTypes.Example
import Verif.RsTypes.Spec
import Verif.RsTypes.Model
import Verif.RsTypes.Exact
import Verif.RsTypes.Wf
import Verif.RsTypes.RsSpec
import Verif.RsTypes.RsModel
import Verif.RsTypes.RsExact
import Verif.RsTypes.RsThunk
import Verif.RsTypes.CollideSpec
import Verif.RsTypes.Collide
import Verif.RsTypes.Example
import Verif.Reopen.Spec
import Verif.Reopen.Model
import Verif.Reopen.Tree
import Verif.Reopen.Counts
import Verif.Reopen.Gen
import Verif.Reopen.Main
import Verif.Reopen.Example
import Verif.Names.Spec
import Verif.Names.Words
import Verif.Names.Facts
import Verif.Names.Model
import Verif.Names.Escape
import Verif.Names.Reserved
import Verif.Names.RsIdent
import Verif.Names.Thunk
import Verif.Names.Pointer
import Verif.Names.Example
import Verif.Iter.Spec
import Verif.Iter.Model
import Verif.Iter.Main
import Verif.Tmpl.Spec
import Verif.Tmpl.Model
import Verif.Tmpl.Main
import Verif.Tmpl.Example
import Verif.Cmd.Spec
import Verif.Cmd.Model
import Verif.Cmd.Targets
import Verif.Cmd.Args
import Verif.Cmd.Example
import Verif.Report.Spec
import Verif.Report.Model
import Verif.Report.Hide
import Verif.Report.Main
import Verif.AbiTy.Spec
import Verif.AbiTy.Model
import Verif.AbiTy.Main
import Verif.Pre.Spec
import Verif.Pre.Model
import Verif.Pre.Main
import Verif.Pre.Macro
import Verif.Pre.Example
import Verif.Doc.Spec
import Verif.Doc.Model
import Verif.Doc.Main
import Verif.Doc.Includes
import Verif.Doc.Example
import Verif.Annot.Spec
import Verif.Annot.Model
import Verif.Annot.Main
import Verif.Annot.Example
import Verif.Fmt.Spec
import Verif.Fmt.Model
import Verif.Fmt.Proof
import Verif.Fwd.Model
import Verif.Fwd.Spec
import Verif.Fwd.Proof
import Verif.Errs.Model
import Verif.Errs.Spec
import Verif.Errs.Proof
