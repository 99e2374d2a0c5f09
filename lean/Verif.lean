import Verif.Lemmas.Alias
import Verif.Lemmas.Attr
import Verif.Lemmas.Bind
import Verif.Lemmas.Byte
import Verif.Lemmas.Case
import Verif.Lemmas.Clean
import Verif.Lemmas.DN
import Verif.Lemmas.Filter
import Verif.Lemmas.Heap
import Verif.Lemmas.History
import Verif.Lemmas.Inside
import Verif.Lemmas.Keyword
import Verif.Lemmas.Lists
import Verif.Lemmas.Misc
import Verif.Lemmas.Net
import Verif.Lemmas.Num
import Verif.Lemmas.Reading
import Verif.Lemmas.Rights
import Verif.Lemmas.RightsTable
import Verif.Lemmas.Str
import Verif.Lemmas.Target
import Verif.Lemmas.Time
import Verif.Lemmas.Uri
import Verif.Model.Alias
import Verif.Model.Attr
import Verif.Model.Bind
import Verif.Model.BindText
import Verif.Model.Builders
import Verif.Model.Cast
import Verif.Model.Compare
import Verif.Model.CompareRules
import Verif.Model.DN
import Verif.Model.DNList
import Verif.Model.Edit
import Verif.Model.Err
import Verif.Model.Filter
import Verif.Model.Find
import Verif.Model.Globals
import Verif.Model.Heap
import Verif.Model.Held
import Verif.Model.Ins
import Verif.Model.Keyword
import Verif.Model.Layout
import Verif.Model.Length
import Verif.Model.Levels
import Verif.Model.Misc
import Verif.Model.Nest
import Verif.Model.Net
import Verif.Model.Oid
import Verif.Model.Ops
import Verif.Model.PB
import Verif.Model.Piece
import Verif.Model.Reading
import Verif.Model.Reports
import Verif.Model.Reset
import Verif.Model.Rights
import Verif.Model.Scheme
import Verif.Model.Scope
import Verif.Model.Sec
import Verif.Model.Share
import Verif.Model.Shifty
import Verif.Model.Stack
import Verif.Model.Str
import Verif.Model.Target
import Verif.Model.Time
import Verif.Model.Unset
import Verif.Model.Uri
import Verif.Model.Valid
import Verif.Model.Values
import Verif.Model.Walk
import Verif.Props.Addr
import Verif.Props.Again
import Verif.Props.Alias
import Verif.Props.Alike
import Verif.Props.Alone
import Verif.Props.Applies
import Verif.Props.Around
import Verif.Props.AsText
import Verif.Props.Attr
import Verif.Props.Bind
import Verif.Props.BindPrints
import Verif.Props.BindText
import Verif.Props.BindValues
import Verif.Props.Builders
import Verif.Props.Cast
import Verif.Props.Compare
import Verif.Props.Crash
import Verif.Props.DN
import Verif.Props.Decide
import Verif.Props.Edit
import Verif.Props.Err
import Verif.Props.Filter
import Verif.Props.FilterParts
import Verif.Props.Find
import Verif.Props.Given
import Verif.Props.Globals
import Verif.Props.Growth
import Verif.Props.Heap
import Verif.Props.HeapIns
import Verif.Props.Held
import Verif.Props.InForce
import Verif.Props.InTurn
import Verif.Props.Ins
import Verif.Props.InsBack
import Verif.Props.InsForce
import Verif.Props.Keyword
import Verif.Props.LastFirst
import Verif.Props.Layout
import Verif.Props.Length
import Verif.Props.Letters
import Verif.Props.Levels
import Verif.Props.ListText
import Verif.Props.Made
import Verif.Props.Misc
import Verif.Props.Moments
import Verif.Props.Nest
import Verif.Props.Net
import Verif.Props.Oid
import Verif.Props.OneWay
import Verif.Props.Ops
import Verif.Props.Order
import Verif.Props.PB
import Verif.Props.PBText
import Verif.Props.Pairs
import Verif.Props.Piece
import Verif.Props.Placeholders
import Verif.Props.Prints
import Verif.Props.Quotes
import Verif.Props.Reading
import Verif.Props.ReadingOne
import Verif.Props.Reports
import Verif.Props.Reset
import Verif.Props.Rights
import Verif.Props.RoundTrip
import Verif.Props.RulesForce
import Verif.Props.Same
import Verif.Props.Scheme
import Verif.Props.Scope
import Verif.Props.Sec
import Verif.Props.Settle
import Verif.Props.Share
import Verif.Props.Stay
import Verif.Props.TakenOut
import Verif.Props.Target
import Verif.Props.TargetBack
import Verif.Props.TargetValues
import Verif.Props.Time
import Verif.Props.Unset
import Verif.Props.Uri
import Verif.Props.UriParts
import Verif.Props.UriText
import Verif.Props.Valid
import Verif.Props.Values
import Verif.Props.ValuesRead
import Verif.Props.Walk
import Verif.Props.Whole
import Verif.Props.Within
import Verif.Samples.Attr
import Verif.Samples.Bind
import Verif.Samples.Filter
import Verif.Samples.Hash
import Verif.Samples.Ins
import Verif.Samples.Levels
import Verif.Samples.Names
import Verif.Samples.NetSec
import Verif.Samples.Parse
import Verif.Samples.Rights
import Verif.Samples.Target
import Verif.Samples.Time
import Verif.Samples.Words
import Verif.Spec.Alias
import Verif.Spec.Attr
import Verif.Spec.Bind
import Verif.Spec.BindText
import Verif.Spec.BindValues
import Verif.Spec.Builders
import Verif.Spec.Case
import Verif.Spec.Clean
import Verif.Spec.DN
import Verif.Spec.DNList
import Verif.Spec.Decide
import Verif.Spec.Filter
import Verif.Spec.FilterOps
import Verif.Spec.Find
import Verif.Spec.Globals
import Verif.Spec.Heap
import Verif.Spec.Held
import Verif.Spec.History
import Verif.Spec.Ins
import Verif.Spec.InsBack
import Verif.Spec.Inside
import Verif.Spec.Keyword
import Verif.Spec.Layout
import Verif.Spec.Lists
import Verif.Spec.Misc
import Verif.Spec.Nest
import Verif.Spec.Net
import Verif.Spec.Ops
import Verif.Spec.PB
import Verif.Spec.PBText
import Verif.Spec.Piece
import Verif.Spec.Reading
import Verif.Spec.Rights
import Verif.Spec.RoundTrip
import Verif.Spec.Scope
import Verif.Spec.Sec
import Verif.Spec.Share
import Verif.Spec.Target
import Verif.Spec.TargetValues
import Verif.Spec.Time
import Verif.Spec.UriParts
import Verif.Spec.UriText
import Verif.Spec.Values
