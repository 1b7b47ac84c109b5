import Verif.Props.Vlq
import Verif.Props.ArraySet
import Verif.Props.MappingList
import Verif.Props.BinarySearch
import Verif.Props.Generator
import Verif.Props.Json
import Verif.Props.Consumer
import Verif.Props.Indexed
import Verif.Props.Url
import Verif.Props.UrlJoin
import Verif.Props.Sources
import Verif.Props.EndToEnd
import Verif.Dep.Demo
import Verif.Props.Output
import Verif.Props.RootContents
import Verif.Props.Create
import Verif.Props.MapUrl
import Verif.Props.JsonRead
import Verif.Props.JsonExact
import Verif.Props.IndexedHistory
import Verif.Props.Reverse
import Verif.Props.Forward
import Verif.Props.Order
import Verif.Props.Large
import Verif.Props.AllAdded
import Verif.Props.Consume
import Verif.Props.RepoTests
import Verif.Props.JoinTable
import Verif.Props.Shortest
import Verif.Props.SourceUrl
import Verif.Props.CreateUrl
import Verif.Props.RelativeTable
import Verif.Props.Unvalidated
import Verif.Props.UnvalidatedOrder
import Verif.Props.IndexedUrl
import Verif.Props.RootKeys
import Verif.Props.IndexedFound
import Verif.Props.Extend
import Verif.Props.Serialise
import Verif.Props.IndexedContents
import Verif.Props.EndToEndUrl
import Verif.Props.Unchecked
import Verif.Props.LastColumn
import Verif.Props.Bundle
import Verif.Props.JsonWrite
import Verif.Props.Workers
import Verif.Props.Encoded
import Verif.Props.Contents
import Verif.Props.LargeExact
import Verif.Model.Caught
import Verif.Lemmas.Caught
import Verif.Lemmas.CaughtGen
import Verif.Props.Survive
import Verif.Props.ListOrder
import Verif.Props.SearchCalls
import Verif.Props.Fields
import Verif.Props.FieldHistory
import Verif.Props.Copy
import Verif.Props.Rename
import Verif.Props.LineShift
import Verif.Props.Interleave
import Verif.Props.Comparison
import Verif.Props.ConsumerShift
import Verif.Props.IndexedWrap
import Verif.Props.ConsumerLocal
import Verif.Props.ColumnShift
import Verif.Props.ConsumerSpread
import Verif.Props.Canonical
import Verif.Props.ConsumerEdit
import Verif.Props.Size
import Verif.Props.Renumber
import Verif.Props.Program
import Verif.Props.OriginalShift
import Verif.Props.Concat
import Verif.Props.Flat
import Verif.Props.LineLocal
import Verif.Props.SectionLocal
import Verif.Props.JoinRelative
import Verif.Props.Visits
import Verif.Props.Session
import Verif.Props.IndexedSession
import Verif.Props.GenSession
import Verif.Props.EndSession
import Verif.Props.BundleSession
import Verif.Props.Reference
import Verif.Props.Located
import Verif.Props.BundleReference
import Verif.Props.LocatedBundle
import Verif.Props.Joined
import Verif.Props.JoinedText
import Verif.Props.OneSegment
import Verif.Props.OneChanged
import Verif.Props.FirstLines
import Verif.Props.PutBelow
import Verif.Props.JoinedByHand
import Verif.Props.EditedText
import Verif.Props.Sums
import Verif.Props.SourceLines
import Verif.Props.LeftOut
import Verif.Props.SourceColumns
import Verif.Props.InFront
