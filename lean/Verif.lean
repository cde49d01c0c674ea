import Verif.Props.Partition
import Verif.Props.Content
import Verif.Props.Option
import Verif.Props.List
import Verif.Props.Merge
import Verif.Props.Builder
import Verif.Props.GrowableBuffer
import Verif.Props.Forth
import Verif.Props.Getitem
import Verif.Props.Reduce
import Verif.Props.Combinations
import Verif.Props.Validity
import Verif.Props.Field
import Verif.Props.Astype
import Verif.Props.Broadcast
import Verif.Props.Strided
import Verif.Props.Sort
import Verif.Props.SortStrings
import Verif.Props.Unique
import Verif.Props.Jagged
import Verif.Props.Identities
import Verif.Props.Buffers
import Verif.Props.Virtual
import Verif.Props.Json
import Verif.Props.Types
import Verif.Props.TypeText
import Verif.Props.Packed
import Verif.Props.Unflatten
import Verif.Props.Apply
import Verif.Props.RunLengths
import Verif.Props.Zip
import Verif.Props.With
import Verif.Props.Complete
import Verif.Props.Categorical
import Verif.Props.StringEqual
import Verif.Props.Firsts
import Verif.Props.ConcatLists
import Verif.Props.Like
import Verif.Props.ToNumpy
import Verif.Props.FromNumpy
import Verif.Props.StringsAstype
import Verif.Props.Size
import Verif.Props.ArgCombinations
import Verif.Props.WithName
import Verif.Props.Fields
import Verif.Props.ArgCartesian
import Verif.Props.Mean
import Verif.Props.FieldUnion
import Verif.Props.WithNameUnion
import Verif.Props.WithParameter
import Verif.Props.FormJson
import Verif.Props.Pickle
import Verif.Props.Moment
import Verif.Props.LinearFit
import Verif.Props.NanToNum
import Verif.Props.IsClose
