import Verif.Affixes.Model
import Verif.Affixes.Props
import Verif.Affixes.Spec
import Verif.Append.Buffers
import Verif.Append.Heap
import Verif.Append.History
import Verif.Append.Join
import Verif.Append.Limits
import Verif.Append.Model
import Verif.Append.Props
import Verif.Append.Spec
import Verif.Append.Steps
import Verif.Args.Lemmas
import Verif.Args.Model
import Verif.Args.Props
import Verif.Args.Spec
import Verif.Arith.Lemmas
import Verif.Arith.ModLemmas
import Verif.Arith.ModModel
import Verif.Arith.Model
import Verif.Arith.Props
import Verif.Arith.Spec
import Verif.Assign.Agree
import Verif.Assign.Binds
import Verif.Assign.Get
import Verif.Assign.Main
import Verif.Assign.Model
import Verif.Assign.Props
import Verif.Assign.Spec
import Verif.Axes.Lemmas
import Verif.Axes.Main
import Verif.Axes.Model
import Verif.Axes.Props
import Verif.Axes.Spec
import Verif.Bins.BitLemmas
import Verif.Bins.Lemmas
import Verif.Bins.Main
import Verif.Bins.Model
import Verif.Bins.Props
import Verif.Bins.Spec
import Verif.BitCopy.Lemmas
import Verif.BitCopy.Model
import Verif.BitCopy.Props
import Verif.BitFn.Lemmas
import Verif.BitFn.Main
import Verif.BitFn.Model
import Verif.BitFn.Ops
import Verif.BitFn.Pieces
import Verif.BitFn.Props
import Verif.BitFn.Spec
import Verif.BitFn.Two
import Verif.Bits.Basic
import Verif.Bodies.Basic
import Verif.Bodies.Chain
import Verif.Bodies.Model
import Verif.Bodies.One
import Verif.Bodies.Props
import Verif.Bodies.Quiet
import Verif.Bodies.Run
import Verif.Bodies.Sim
import Verif.Bodies.Spec
import Verif.Buddy.Hist
import Verif.Buddy.Lemmas
import Verif.Buddy.Merge
import Verif.Buddy.Model
import Verif.Buddy.Ops
import Verif.Buddy.Props
import Verif.Buddy.Spec
import Verif.Cells.Basic
import Verif.Cells.Main
import Verif.Cells.Model
import Verif.Cells.Props
import Verif.Cells.Spec
import Verif.CombRef.Ledger
import Verif.CombRef.Lemmas
import Verif.CombRef.Model
import Verif.CombRef.Props
import Verif.CombRef.Repeat
import Verif.CombRef.Spec
import Verif.Compare.Lemmas
import Verif.Compare.Model
import Verif.Compare.Props
import Verif.Compare.Spec
import Verif.EachRef.Blocks
import Verif.EachRef.Dyadic
import Verif.EachRef.Lemmas
import Verif.EachRef.Main
import Verif.EachRef.Model
import Verif.EachRef.Props
import Verif.EachRef.Spec
import Verif.Ffi.Back
import Verif.Ffi.Frame
import Verif.Ffi.Lemmas
import Verif.Ffi.Model
import Verif.Ffi.Props
import Verif.Ffi.Spec
import Verif.FfiCall.Lemmas
import Verif.FfiCall.Model
import Verif.FfiCall.Props
import Verif.FfiCall.Spec
import Verif.FfiType.Complete
import Verif.FfiType.Lemmas
import Verif.FfiType.Model
import Verif.FfiType.Props
import Verif.FfiType.Sound
import Verif.FfiType.Spec
import Verif.File.Main
import Verif.File.Model
import Verif.File.Props
import Verif.File.Spec
import Verif.FileIo.Lemmas
import Verif.FileIo.Model
import Verif.FileIo.Props
import Verif.FileIo.Spec
import Verif.Fills.Lemmas
import Verif.Fills.Model
import Verif.Fills.Props
import Verif.Fills.Spec
import Verif.Fills.Wf
import Verif.Find.Lemmas
import Verif.Find.Model
import Verif.Find.Props
import Verif.Find.Spec
import Verif.Fold.Lemmas
import Verif.Fold.Lemmas2
import Verif.Fold.Model
import Verif.Fold.Props
import Verif.Fold.Spec
import Verif.Gc.Free
import Verif.Gc.Lemmas
import Verif.Gc.Main
import Verif.Gc.Model
import Verif.Gc.Props
import Verif.Gc.Run
import Verif.Gc.Spec
import Verif.Gcd.Lemmas
import Verif.Gcd.Model
import Verif.Gcd.Props
import Verif.Group.Basic
import Verif.Group.Loops
import Verif.Group.Main
import Verif.Group.Model
import Verif.Group.More
import Verif.Group.Props
import Verif.Group.Spec
import Verif.Group.Top
import Verif.Group.Wrap
import Verif.GroupRt.Lemmas
import Verif.GroupRt.Model
import Verif.GroupRt.Props
import Verif.GroupRt.Spec
import Verif.HTab.Lemmas
import Verif.HTab.Model
import Verif.HTab.Props
import Verif.HTab.Search
import Verif.HTab.Serve
import Verif.HTab.Spec
import Verif.HashMap.Find
import Verif.HashMap.Lemmas
import Verif.HashMap.Model
import Verif.HashMap.Props
import Verif.HashMap.Spec
import Verif.HashMap.State
import Verif.HashMap.Table
import Verif.Import.Model
import Verif.Import.Props
import Verif.Import.Spec
import Verif.Insert.Basic
import Verif.Insert.Cells
import Verif.Insert.Main
import Verif.Insert.Model
import Verif.Insert.Props
import Verif.Insert.Scans
import Verif.Insert.Spec
import Verif.Join.Axes
import Verif.Join.Checks
import Verif.Join.Lists
import Verif.Join.Main
import Verif.Join.Model
import Verif.Join.Move
import Verif.Join.Props
import Verif.Join.Spec
import Verif.JoinTo.Model
import Verif.JoinTo.Props
import Verif.JoinTo.Spec
import Verif.Known.Basic
import Verif.Known.Folds
import Verif.Known.Main
import Verif.Known.Model
import Verif.Known.Pairs
import Verif.Known.Props
import Verif.Known.Rows
import Verif.Known.Spec
import Verif.Lens.Basic
import Verif.Lens.Comp
import Verif.Lens.Dyads
import Verif.Lens.Main
import Verif.Lens.Model
import Verif.Lens.Picks
import Verif.Lens.Props
import Verif.Lens.Spec
import Verif.Match.Equal
import Verif.Match.Hash
import Verif.Match.Model
import Verif.Match.Props
import Verif.Match.Spec
import Verif.Match.Table
import Verif.Match.Typed
import Verif.Match.Wy
import Verif.Merge.Appends
import Verif.Merge.Main
import Verif.Merge.Model
import Verif.Merge.Props
import Verif.Merge.Spec
import Verif.Merge.Steps
import Verif.Modulus.Lemmas
import Verif.Modulus.Main
import Verif.Modulus.Model
import Verif.Modulus.Props
import Verif.Modulus.Spec
import Verif.Modulus.Value
import Verif.Monarith.Lemmas
import Verif.Monarith.Main
import Verif.Monarith.Model
import Verif.Monarith.Nested
import Verif.Monarith.Props
import Verif.Monarith.Sound
import Verif.Monarith.Spec
import Verif.Names.Lemmas
import Verif.Names.Model
import Verif.Names.Props
import Verif.Names.Spec
import Verif.NanBox.Model
import Verif.NanBox.Props
import Verif.NanBox.Spec
import Verif.Pervade.Atom
import Verif.Pervade.Cells
import Verif.Pervade.Each
import Verif.Pervade.EachSpec
import Verif.Pervade.Final
import Verif.Pervade.Main
import Verif.Pervade.Model
import Verif.Pervade.Props
import Verif.Pervade.Spec
import Verif.Pervade.Typed
import Verif.Pick.Main
import Verif.Pick.Model
import Verif.Pick.Props
import Verif.Pick.Spec
import Verif.Point.Lemmas
import Verif.Point.Model
import Verif.Point.Props
import Verif.Point.Spec
import Verif.Radix.Lemmas
import Verif.Radix.Model
import Verif.Rand.Deal
import Verif.Rand.Model
import Verif.Rand.Perm
import Verif.Rand.Props
import Verif.Rand.Range
import Verif.Rand.Subset
import Verif.Range.Lemmas
import Verif.Range.Main
import Verif.Range.Model
import Verif.Range.Props
import Verif.Range.Spec
import Verif.Reorder.Axes
import Verif.Reorder.Main
import Verif.Reorder.Model
import Verif.Reorder.Perm
import Verif.Reorder.Props
import Verif.Reorder.Simplify
import Verif.Reorder.Spec
import Verif.Rep.Basic
import Verif.Rep.Im
import Verif.Rep.Ind
import Verif.Rep.Main
import Verif.Rep.Model
import Verif.Rep.Props
import Verif.Rep.Spec
import Verif.Rep.Xor
import Verif.Repeat.Lemmas
import Verif.Repeat.Main
import Verif.Repeat.Model
import Verif.Repeat.Props
import Verif.Repeat.Spec
import Verif.Reshape.Lemmas
import Verif.Reshape.Model
import Verif.Reshape.Props
import Verif.Rotate.Basic
import Verif.Rotate.Main
import Verif.Rotate.Model
import Verif.Rotate.Props
import Verif.Rotate.Spec
import Verif.Rotate.Top
import Verif.Scan.ArithLemmas
import Verif.Scan.ArithModel
import Verif.Scan.ArithProps
import Verif.Scan.Lemmas
import Verif.Scan.Model
import Verif.Scan.Props
import Verif.Scan.Spec
import Verif.Scope.Leave
import Verif.Scope.Lemmas
import Verif.Scope.Model
import Verif.Scope.Props
import Verif.Scope.Spec
import Verif.Search.Block
import Verif.Search.Core
import Verif.Search.Count
import Verif.Search.Lemmas
import Verif.Search.Model
import Verif.Search.Props
import Verif.Select.Basic
import Verif.Select.Loops
import Verif.Select.Main
import Verif.Select.Many
import Verif.Select.Model
import Verif.Select.Props
import Verif.Select.Spec
import Verif.Select.Top
import Verif.SelfSearch.Core
import Verif.SelfSearch.Lemmas
import Verif.SelfSearch.Model
import Verif.SelfSearch.Paths
import Verif.SelfSearch.Props
import Verif.SelfSearch.Radix
import Verif.Session.Lemmas
import Verif.Session.Model
import Verif.Session.Props
import Verif.Session.Spec
import Verif.Shell.Ends
import Verif.Shell.Lemmas
import Verif.Shell.Model
import Verif.Shell.Props
import Verif.Shell.Spec
import Verif.Shift.Model
import Verif.Shift.Props
import Verif.Shift.Reverse
import Verif.Shift.Shifts
import Verif.Shift.Spec
import Verif.Sizes.Lemmas
import Verif.Sizes.Model
import Verif.Sizes.Props
import Verif.Sizes.Spec
import Verif.Slash.Basic
import Verif.Slash.Bsp
import Verif.Slash.Compress
import Verif.Slash.CompressLemmas
import Verif.Slash.CompressMain
import Verif.Slash.Group
import Verif.Slash.Props
import Verif.Slash.Spec
import Verif.Slash.Where
import Verif.Slash.WhereLemmas
import Verif.Slash.WhereMain
import Verif.Sort.DispatchLemmas
import Verif.Sort.Grade
import Verif.Sort.GradeLemmas
import Verif.Sort.Num
import Verif.Sort.Props
import Verif.Sort.RadixLemmas
import Verif.Sort.SmallLemmas
import Verif.Sort.Spec
import Verif.Sort.Tim
import Verif.Sort.TimLemmas
import Verif.Sort.TimMain
import Verif.Squeeze.Conv
import Verif.Squeeze.Lemmas
import Verif.Squeeze.Main
import Verif.Squeeze.Model
import Verif.Squeeze.Props
import Verif.Squeeze.Spec
import Verif.Squeeze.Verdicts
import Verif.Sum.Lemmas
import Verif.Sum.Model
import Verif.Sum.Props
import Verif.Sum.Spec
import Verif.Table.Lemmas
import Verif.Table.Main
import Verif.Table.Model
import Verif.Table.Props
import Verif.Table.Spec
import Verif.Take.Basic
import Verif.Take.Generic
import Verif.Take.Main
import Verif.Take.Model
import Verif.Take.Odo
import Verif.Take.One
import Verif.Take.Props
import Verif.Take.Spec
import Verif.Take.Top
import Verif.Train.Calls
import Verif.Train.Lemmas
import Verif.Train.Model
import Verif.Train.Props
import Verif.Train.Spec
import Verif.Transpose.Basic
import Verif.Transpose.Main
import Verif.Transpose.Model
import Verif.Transpose.Props
import Verif.Under.Basic
import Verif.Under.Main
import Verif.Under.Model
import Verif.Under.Paths
import Verif.Under.Props
import Verif.Under.Spec
import Verif.UnderSlash.Lemmas
import Verif.UnderSlash.Model
import Verif.UnderSlash.Objects
import Verif.UnderSlash.Props
import Verif.UnderSlash.Spec
import Verif.Unorder.Lemmas
import Verif.Unorder.Main
import Verif.Unorder.Model
import Verif.Unorder.Props
import Verif.Unorder.Spec
import Verif.Utf8.Lemmas
import Verif.Utf8.Model
import Verif.Utf8.Props
import Verif.Utf8.Spec
import Verif.Vm.Catch
import Verif.Vm.CatchLemmas
import Verif.Vm.CatchProps
import Verif.Vm.Lemmas
import Verif.Vm.Model
import Verif.Vm.Props
import Verif.Vm.Run
import Verif.Widen.Main
import Verif.Widen.Model
import Verif.Widen.Narrow
import Verif.Widen.Props
import Verif.Widen.Read
import Verif.Widen.Sel
import Verif.Windows.Lemmas
import Verif.Windows.Main
import Verif.Windows.Model
import Verif.Windows.Props
import Verif.Windows.Spec
