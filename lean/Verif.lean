import Verif.Props.Serialize
import Verif.Props.Iomanip
import Verif.Props.Permutation
import Verif.Props.Expand
import Verif.Props.TypeTraits
import Verif.Props.VariantTransform
import Verif.Props.MergeSizes
import Verif.Props.Zip
import Verif.Props.Fill
import Verif.Props.IteratorTag
import Verif.Props.Ranges
import Verif.Props.TupleAlgo
import Verif.Props.Constval
import Verif.Props.Metadata
import Verif.Props.Buffer
import Verif.Props.SoaSpan
import Verif.Props.EnumFlags
import Verif.Props.TypeEnum
import Verif.Props.ExpVariant
import Verif.Props.ExpTuple
import Verif.Props.YCombinator
import Verif.Props.ConstvalTrait
import Verif.Props.Csize
import Verif.Props.TieMembers
import Verif.Props.PermutationInt
import Verif.Props.ExpFunctional
import Verif.Props.StaticMetadata
import Verif.Props.ResultTypes
import Verif.Props.ExpandVisit
import Verif.Props.Manipulator
import Verif.Props.SoaIterator
import Verif.Props.MetadataLists
import Verif.Props.MetadataConst
import Verif.Props.ConstvalMake
import Verif.Props.BufferExceptions
import Verif.Props.TupleAccess
import Verif.Props.TupleMove
import Verif.Props.VariantForward
import Verif.Props.RangeTypes
import Verif.Props.StreamFormat
import Verif.Props.RangeObjects
import Verif.Props.RangeArgs
import Verif.Props.Apply
import Verif.Props.MetadataResults
import Verif.Props.ExpandMixed
import Verif.Props.TypeSequence
import Verif.Props.Overload
import Verif.Props.BufferTypes
import Verif.Props.ConstEval
import Verif.Props.BitmaskType
import Verif.Props.Noexcept
import Verif.Props.PermutationCost
import Verif.Props.SearchCost
import Verif.Props.PermutationThrow
import Verif.Props.SoaColumns
import Verif.Props.Mdarray
import Verif.Props.StreamFn
import Verif.Props.RangeToArray
import Verif.Conformance.Metadata
import Verif.Conformance.TieMembers
import Verif.Conformance.Serialize
import Verif.Conformance.Variant
import Verif.Conformance.Algorithm
import Verif.Conformance.Tuple
import Verif.Conformance.Constval
import Verif.Conformance.Experimental
import Verif.Props.IndexIterator
import Verif.Props.OwnRanges
import Verif.Props.ZipStd
import Verif.Props.ConstvalRef
import Verif.Props.StreamFault
import Verif.Props.TextDispatch
import Verif.Props.PermutationAlias
import Verif.Props.ZipRows
import Verif.Props.ExpandOrders
import Verif.Props.ShuffleDist
import Verif.Props.PermutationLaws
import Verif.Props.FlagsConcat
import Verif.Props.VariantLaws
import Verif.Props.ConstvalLaws
import Verif.Props.AlgoAgree
import Verif.Props.RowPrograms
import Verif.Props.ZipPrograms
import Verif.Model.SinkOverload
import Verif.Model.SinglePass
import Verif.Model.ChangingRange
import Verif.Model.FillAlias
import Verif.Model.SoaSwap
import Verif.Model.Reflect
import Verif.Model.SinkFault
import Verif.Model.Borrowed
import Verif.Model.SaveLoad
import Verif.Model.ReduceTypes
import Verif.Model.SortByIndex
import Verif.Model.ShuffleByIndex
import Verif.Model.RowMoves
import Verif.Model.ZipMembers
import Verif.Model.TypeTags
import Verif.Model.StreamLoops
import Verif.Model.Unchecked
import Verif.Model.UncheckedText
import Verif.Model.UncheckedRanges
import Verif.Model.UncheckedBuffer
import Verif.Model.PermutationRetry
import Verif.Model.BufferCaught
import Verif.Model.BufferExCaught
import Verif.Model.RowCatching
import Verif.Model.RangeCatching
import Verif.Model.HeteroRows
import Verif.Model.UserOps
import Verif.Model.BufferPointers
import Verif.Spec.SinkOverload
import Verif.Spec.SinglePass
import Verif.Spec.ChangingRange
import Verif.Spec.Reflect
import Verif.Spec.SinkFault
import Verif.Spec.Borrowed
import Verif.Spec.ReduceTypes
import Verif.Spec.SortByIndex
import Verif.Spec.RowMoves
import Verif.Spec.StreamLoops
import Verif.Spec.Unchecked
import Verif.Spec.UncheckedRanges
import Verif.Spec.UncheckedBuffer
import Verif.Spec.BufferCaught
import Verif.Spec.BufferExCaught
import Verif.Spec.RowCatching
import Verif.Spec.RangeCatching
import Verif.Spec.HeteroRows
import Verif.Spec.UserOps
import Verif.Spec.BufferPointers
import Verif.Lemmas.SinkOverload
import Verif.Lemmas.TagClasses
import Verif.Lemmas.CommonTag
import Verif.Lemmas.SinglePass
import Verif.Lemmas.ChangingRange
import Verif.Lemmas.Borrowed
import Verif.Lemmas.ReduceTypes
import Verif.Lemmas.PermutationShort
import Verif.Lemmas.SortByIndex
import Verif.Lemmas.ShuffleByIndex
import Verif.Lemmas.RowMoves
import Verif.Lemmas.ZipMembers
import Verif.Lemmas.StreamLoops
import Verif.Lemmas.Unchecked
import Verif.Lemmas.UncheckedZip
import Verif.Props.SinkOverload
import Verif.Props.SinglePass
import Verif.Props.ChangingRange
import Verif.Props.FillAlias
import Verif.Props.RangeLaws
import Verif.Props.TupleLaws
import Verif.Props.SoaSwap
import Verif.Props.Reflect
import Verif.Props.SinkFault
import Verif.Props.Borrowed
import Verif.Props.MetadataVersions
import Verif.Props.SaveLoad
import Verif.Props.ReduceTypes
import Verif.Props.PermutationShort
import Verif.Props.SortByIndex
import Verif.Props.ShuffleByIndex
import Verif.Props.RowMoves
import Verif.Props.ZipMembers
import Verif.Props.TypeTags
import Verif.Props.StreamLoops
import Verif.Props.Unchecked
import Verif.Props.UncheckedText
import Verif.Props.UncheckedRanges
import Verif.Lemmas.UncheckedBuffer
import Verif.Lemmas.PermutationRetry
import Verif.Lemmas.BufferCaught
import Verif.Lemmas.BufferExCaught
import Verif.Lemmas.RowCatching
import Verif.Lemmas.UserOps
import Verif.Lemmas.BufferPointers
import Verif.Lemmas.BufferPointersSpec
import Verif.Props.UncheckedBuffer
import Verif.Props.PermutationRetry
import Verif.Props.BufferCaught
import Verif.Props.BufferExCaught
import Verif.Props.RowCatching
import Verif.Props.RangeCatching
import Verif.Props.HeteroRows
import Verif.Props.UserOps
import Verif.Props.UserOpsAnswers
import Verif.Props.BufferPointers
import Verif.Props.ChangingRangeShort
import Verif.Props.BorrowedRejected
import Verif.Props.VisitResult
import Verif.Props.Detect
import Verif.Props.BufferMembers
import Verif.Props.OwnIterators
import Verif.Props.AnySource
import Verif.Props.TextCost
import Verif.Props.TupleCompare
import Verif.Props.SearchAnswers
import Verif.Props.PermutationAnswers
import Verif.Props.InstantiationDepth
import Verif.Props.StrideOverflow
import Verif.Props.ShuffleAnswers
