import Verif.Cli.Props
import Verif.Config.Props
import Verif.TextLints.RawStrings
import Verif.TextLints.Tabs
import Verif.TextLints.Reindent
import Verif.NumLit.Props
import Verif.NumLit.Groups
import Verif.Msrv.Props
import Verif.StrUtils.Case
import Verif.StrUtils.Split
import Verif.StrUtils.Affix
import Verif.Sugg.Props
import Verif.Sugg.Paren
import Verif.Consts.Order
import Verif.Ops.Absurd
import Verif.Ops.Comparisons
import Verif.Ops.BitMask
import Verif.Ops.Identity
import Verif.Ranges.Props
import Verif.IntLints.Convert
import Verif.IntLints.MinMax
import Verif.IntLints.Rotate
import Verif.IntLints.Idioms
import Verif.Clamp.Model
import Verif.Clamp.Props
import Verif.Booleans.Model
import Verif.Booleans.Props
import Verif.Booleans.Print
import Verif.Booleans.Violations
import Verif.Common.Sort
import Verif.Pats.RangeModel
import Verif.Pats.RangeProps
import Verif.Pats.OverlapModel
import Verif.Pats.OverlapProps
import Verif.Pats.SameArmsModel
import Verif.Pats.SameArmsSpec
import Verif.Pats.SameArmsOverlap
import Verif.Pats.SameArmsProps
import Verif.Pats.SameArmsViolations
import Verif.Pats.UnnestModel
import Verif.Pats.UnnestSpec
import Verif.Pats.UnnestExp
import Verif.Pats.UnnestPerm
import Verif.Pats.UnnestEq
import Verif.Pats.UnnestProps
import Verif.Pats.UnnestViolations
import Verif.Flow.NeverLoopModel
import Verif.Flow.NeverLoopSpec
import Verif.Flow.NeverLoopProps
import Verif.Flow.NeverLoopPrecise
import Verif.Flow.EagerModel
import Verif.Flow.EagerSpec
import Verif.Flow.EagerProps
import Verif.Flow.EagerViolations
import Verif.Dev.UtilsModel
import Verif.Dev.UtilsProps
import Verif.Dev.CargoModel
import Verif.Dev.CargoProps
import Verif.Dev.GenerateModel
import Verif.Dev.GenerateProps
import Verif.Dev.DeclsModel
import Verif.Dev.DeclsProps
import Verif.Dev.FmtModel
import Verif.Dev.FmtProps
import Verif.Dev.EditModel
import Verif.Dev.UpliftProps
import Verif.Dev.RenameProps
import Verif.Dev.TableProps
import Verif.Common.NatStr
import Verif.Lintcheck.DiffModel
import Verif.Lintcheck.DiffProps
import Verif.Lintcheck.ReportProps
import Verif.Lintcheck.StatsModel
import Verif.Lintcheck.StatsProps
import Verif.Casts.Model
import Verif.Casts.Spec
import Verif.Casts.Lemmas
import Verif.Casts.TruncProps
import Verif.Casts.TruncWitness
import Verif.Casts.SignProps
import Verif.Casts.ValueProps
import Verif.Casts.EnumProps
import Verif.HirEq.Model
import Verif.HirEq.Spec
import Verif.HirEq.HashProps
import Verif.HirEq.SearchProps
import Verif.HirEq.Eval
import Verif.HirEq.EvalLemmas
import Verif.HirEq.PatLemmas
import Verif.HirEq.EvalProps
import Verif.HirEq.Witness
import Verif.Unwrap.Model
import Verif.Unwrap.Spec
import Verif.Unwrap.Props
import Verif.Unwrap.Witness
import Verif.Memcpy.Model
import Verif.Memcpy.Spec
import Verif.Memcpy.Lists
import Verif.Memcpy.Props
import Verif.Memcpy.Witness
import Verif.Counter.Model
import Verif.Counter.Spec
import Verif.Counter.Props
import Verif.Counter.Witness
import Verif.Swap.Model
import Verif.Swap.Spec
import Verif.Swap.Props
import Verif.Swap.Witness
import Verif.Asserts.Model
import Verif.Asserts.Spec
import Verif.Asserts.Props
import Verif.Asserts.Witness
import Verif.Ctrl.Syntax
import Verif.Ctrl.Spec
import Verif.Ctrl.Never
import Verif.Ctrl.NeverSpec
import Verif.Ctrl.Scope
import Verif.Ctrl.Facts
import Verif.Ctrl.NeverProps
import Verif.Ctrl.Demo
import Verif.Ctrl.NeverWitness
import Verif.Ctrl.Continue
import Verif.Ctrl.Names
import Verif.Ctrl.NamesFacts
import Verif.Ctrl.ContinueProps
import Verif.Ctrl.ContinueWitness
import Verif.Ctrl.Else
import Verif.Ctrl.ElseProps
import Verif.Ctrl.ElseWitness
import Verif.Ctrl.Collapse
import Verif.Ctrl.CollapseSpec
import Verif.Ctrl.CollapseProps
import Verif.Ctrl.CollapseWitness
import Verif.Ctrl.Return
import Verif.Ctrl.ReturnSpec
import Verif.Ctrl.ReturnProps
import Verif.Ctrl.ReturnWitness
import Verif.Lazily.Syntax
import Verif.Lazily.Model
import Verif.Lazily.Spec
import Verif.Lazily.Props
import Verif.Lazily.Witness
import Verif.SideFx.Syntax
import Verif.SideFx.Model
import Verif.SideFx.Spec
import Verif.SideFx.Props
import Verif.SideFx.Witness
import Verif.Recur.Syntax
import Verif.Recur.Model
import Verif.Recur.Spec
import Verif.Recur.Flags
import Verif.Recur.Props
import Verif.Recur.Witness
import Verif.Endless.Syntax
import Verif.Endless.Model
import Verif.Endless.Spec
import Verif.Endless.Steps
import Verif.Endless.Props
import Verif.Endless.Witness
import Verif.Indexing.Syntax
import Verif.Indexing.Model
import Verif.Indexing.Spec
import Verif.Indexing.Props
import Verif.Indexing.Witness
import Verif.OptMatch.Syntax
import Verif.OptMatch.Model
import Verif.OptMatch.Spec
import Verif.OptMatch.Exits
import Verif.OptMatch.Pats
import Verif.OptMatch.Split
import Verif.OptMatch.Props
import Verif.OptMatch.Witness
import Verif.OptMatch.UnwrapModel
import Verif.OptMatch.UnwrapSpec
import Verif.OptMatch.UnwrapProps
import Verif.OptMatch.UnwrapWitness
import Verif.Needless.Syntax
import Verif.Needless.Model
import Verif.Needless.Spec
import Verif.Needless.Props
import Verif.Needless.Witness
import Verif.BoolMatch.Syntax
import Verif.BoolMatch.Model
import Verif.BoolMatch.Spec
import Verif.BoolMatch.Props
import Verif.BoolMatch.Witness
import Verif.TryOp.Syntax
import Verif.TryOp.Model
import Verif.TryOp.Spec
import Verif.TryOp.Props
import Verif.TryOp.Witness
import Verif.LetElse.Syntax
import Verif.LetElse.Model
import Verif.LetElse.Spec
import Verif.LetElse.Props
import Verif.LetElse.Witness
import Verif.Never.Syntax
import Verif.Never.Model
import Verif.Never.Spec
import Verif.Never.Props
import Verif.Never.Witness
import Verif.InfLoop.Props
import Verif.InfLoop.Witness
import Verif.Local.Props
import Verif.Local.Witness
import Verif.Certain.Syntax
import Verif.Certain.Model
import Verif.Certain.Spec
import Verif.Certain.Props
import Verif.Certain.Witness
import Verif.Guard.Syntax
import Verif.Guard.Model
import Verif.Guard.Spec
import Verif.Guard.Props
import Verif.Guard.Witness
import Verif.Collapse.Syntax
import Verif.Collapse.Model
import Verif.Collapse.Spec
import Verif.Collapse.Props
import Verif.Collapse.Witness
import Verif.LateInit.Syntax
import Verif.LateInit.Model
import Verif.LateInit.Spec
import Verif.LateInit.Run
import Verif.LateInit.Props
import Verif.LateInit.Witness
import Verif.LetIf.Syntax
import Verif.LetIf.Model
import Verif.LetIf.Spec
import Verif.LetIf.Props
import Verif.LetIf.Witness
import Verif.Entry.Syntax
import Verif.Entry.Model
import Verif.Entry.Spec
import Verif.Entry.Mono
import Verif.Entry.Fixed
import Verif.Entry.Run
import Verif.Entry.Closure
import Verif.Entry.Props
import Verif.Entry.Witness
import Verif.Share.Syntax
import Verif.Share.Model
import Verif.Share.Spec
import Verif.Share.Eq
import Verif.Share.Scan
import Verif.Share.Fold
import Verif.Share.Run
import Verif.Share.Props
import Verif.Share.Example
import Verif.Splitn.Syntax
import Verif.Splitn.Spec
import Verif.Splitn.Model
import Verif.Splitn.Props
import Verif.Elide.Syntax
import Verif.Elide.Spec
import Verif.Elide.Model
import Verif.Elide.Visit
import Verif.Elide.Props
import Verif.Elide.Cut
import Verif.Elide.Example
import Verif.Inline.Syntax
import Verif.Inline.Spec
import Verif.Inline.Model
import Verif.Inline.Props
import Verif.WhileIter.Syntax
import Verif.WhileIter.Spec
import Verif.WhileIter.Model
import Verif.WhileIter.Uses
import Verif.WhileIter.Frame
import Verif.WhileIter.After
import Verif.WhileIter.Props
import Verif.RangeLoop.Syntax
import Verif.RangeLoop.Spec
import Verif.RangeLoop.Model
import Verif.RangeLoop.Scan
import Verif.RangeLoop.Sim
import Verif.RangeLoop.Props
import Verif.Fold.Syntax
import Verif.Fold.Spec
import Verif.Fold.Model
import Verif.Fold.Lemmas
import Verif.Fold.Props
import Verif.Fold.OptionFold
import Verif.Strip.Syntax
import Verif.Strip.Spec
import Verif.Strip.Model
import Verif.Strip.Lemmas
import Verif.Strip.Sim
import Verif.Strip.Props
import Verif.WhileCond.Syntax
import Verif.WhileCond.Spec
import Verif.WhileCond.Model
import Verif.WhileCond.Lemmas
import Verif.WhileCond.Props
import Verif.Wraps.Syntax
import Verif.Wraps.Spec
import Verif.Wraps.Model
import Verif.Wraps.Lemmas
import Verif.Wraps.Props
import Verif.LitFmt.Syntax
import Verif.LitFmt.Spec
import Verif.LitFmt.Model
import Verif.LitFmt.Text
import Verif.LitFmt.Index
import Verif.LitFmt.Props
import Verif.Server.Syntax
import Verif.Server.Spec
import Verif.Server.Model
import Verif.Server.Local
import Verif.Server.Global
import Verif.Server.Ends
import Verif.Server.TextLemmas
import Verif.Server.Props
import Verif.Sources.Syntax
import Verif.Sources.Spec
import Verif.Sources.Model
import Verif.Sources.Lemmas
import Verif.Sources.Local
import Verif.Sources.Props
import Verif.Mir.Syntax
import Verif.Mir.Spec
import Verif.Mir.Model
import Verif.Mir.Walks
import Verif.Mir.Counts
import Verif.Mir.Props
import Verif.Borrow.Syntax
import Verif.Borrow.Spec
import Verif.Borrow.Model
import Verif.Borrow.Lemmas
import Verif.Borrow.Props
import Verif.Clones.Syntax
import Verif.Clones.Spec
import Verif.Clones.Model
import Verif.Clones.Lemmas
import Verif.Clones.Props
import Verif.Pushes.Syntax
import Verif.Pushes.Spec
import Verif.Pushes.Model
import Verif.Pushes.Props
import Verif.Order.Syntax
import Verif.Order.Spec
import Verif.Order.Model
import Verif.Order.Props
import Verif.Units.Spec
import Verif.Units.Model
import Verif.Units.Props
import Verif.Ascii.Spec
import Verif.Ascii.Model
import Verif.Ascii.Props
import Verif.NoEffect.Spec
import Verif.NoEffect.Model
import Verif.NoEffect.Props
import Verif.Octal.Spec
import Verif.Octal.Model
import Verif.Octal.Props
import Verif.BoolIf.Spec
import Verif.BoolIf.Model
import Verif.BoolIf.Props
import Verif.Satur.Spec
import Verif.Satur.Model
import Verif.Satur.Props
import Verif.VarAnd.Spec
import Verif.VarAnd.Model
import Verif.VarAnd.Props
import Verif.Chains.Spec
import Verif.Chains.Model
import Verif.Chains.Props
import Verif.Bulk.Spec
import Verif.Bulk.Model
import Verif.Bulk.Props
import Verif.Chars.Spec
import Verif.Chars.Model
import Verif.Chars.Props
import Verif.Redex.Spec
import Verif.Redex.Model
import Verif.Redex.Props
import Verif.Sift.Spec
import Verif.Sift.Model
import Verif.Sift.Props
import Verif.Drops.Spec
import Verif.Drops.Model
import Verif.Drops.Props
import Verif.SortBy.Spec
import Verif.SortBy.Model
import Verif.SortBy.Props
import Verif.Times.Spec
import Verif.Times.Model
import Verif.Times.Props
import Verif.Merge.Spec
import Verif.Merge.Model
import Verif.Merge.Props
import Verif.Widths.Spec
import Verif.Widths.Model
import Verif.Widths.Props
import Verif.Fill.Spec
import Verif.Fill.Model
import Verif.Fill.Props
import Verif.Assign.Spec
import Verif.Assign.Model
import Verif.Assign.Props
import Verif.BoolText.Spec
import Verif.BoolText.Model
import Verif.BoolText.Props
import Verif.Empty.Spec
import Verif.Empty.Model
import Verif.Empty.Props
import Verif.ForEach.Spec
import Verif.ForEach.Model
import Verif.ForEach.Props
import Verif.Names.Spec
import Verif.Names.Model
import Verif.Names.Words
import Verif.Names.Props
import Verif.DocWords.Spec
import Verif.DocWords.Model
import Verif.DocWords.Slices
import Verif.DocWords.Props
import Verif.Safety.Spec
import Verif.Safety.Model
import Verif.Safety.Facts
import Verif.Safety.Steps
import Verif.Safety.Props
import Verif.Returns.Spec
import Verif.Returns.Model
import Verif.Returns.Props
import Verif.Acronyms.Spec
import Verif.Acronyms.Model
import Verif.Acronyms.Props
import Verif.StrCase.Spec
import Verif.StrCase.Model
import Verif.StrCase.Props
import Verif.CmpChain.Spec
import Verif.CmpChain.Model
import Verif.CmpChain.Props
import Verif.Modulo.Spec
import Verif.Modulo.Model
import Verif.Modulo.Props
import Verif.LazyDoc.Spec
import Verif.LazyDoc.Model
import Verif.LazyDoc.Props
import Verif.DocEnd.Spec
import Verif.DocEnd.Model
import Verif.DocEnd.Props
import Verif.FmtLit.Spec
import Verif.FmtLit.Model
import Verif.FmtLit.Props
import Verif.Prio.Spec
import Verif.Prio.Model
import Verif.Prio.Props
import Verif.ByteStr.Spec
import Verif.ByteStr.Model
import Verif.ByteStr.Props
import Verif.CStrLit.Spec
import Verif.CStrLit.Model
import Verif.CStrLit.Props
import Verif.Nesting.Spec
import Verif.Nesting.Model
import Verif.Nesting.Props
import Verif.DocLink.Spec
import Verif.DocLink.Model
import Verif.DocLink.Props
import Verif.Footnote.Spec
import Verif.Footnote.Model
import Verif.Footnote.Props
import Verif.OpenOpts.Spec
import Verif.OpenOpts.Model
import Verif.OpenOpts.Props
import Verif.StructOrd.Spec
import Verif.StructOrd.Model
import Verif.StructOrd.Props
import Verif.ModFile.Spec
import Verif.ModFile.Model
import Verif.ModFile.Props
import Verif.DupMod.Spec
import Verif.DupMod.Model
import Verif.DupMod.Props
