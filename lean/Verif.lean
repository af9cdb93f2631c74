import Verif.Model.Alloc
import Verif.Model.AllocApi
import Verif.Model.AllocRead
import Verif.Model.CopyRepair
import Verif.Model.Locale
import Verif.Model.Overload
import Verif.Model.ReadApi
import Verif.Model.ReadRepair
import Verif.Model.Repair
import Verif.Model.Threads
import Verif.Proofs.Amount
import Verif.Proofs.Places
import Verif.Proofs.Repair
import Verif.Proofs.Threads
import Verif.Proofs.Twice
import Verif.Props.Alloc
import Verif.Props.AllocApi
import Verif.Props.AllocRead
import Verif.Props.Amount
import Verif.Props.BigInt
import Verif.Props.BigThrow
import Verif.Props.Case
import Verif.Props.Closest
import Verif.Props.Config
import Verif.Props.CopyRepair
import Verif.Props.Cross
import Verif.Props.Cut
import Verif.Props.CutFloat
import Verif.Props.CutString
import Verif.Props.Cycle
import Verif.Props.Dispatch
import Verif.Props.Errno
import Verif.Props.Exact
import Verif.Props.FastAccept
import Verif.Props.Float
import Verif.Props.FloatRead
import Verif.Props.FullTable
import Verif.Props.HalfUlp
import Verif.Props.Inside
import Verif.Props.Int
import Verif.Props.Interchange
import Verif.Props.Json
import Verif.Props.LastDigit
import Verif.Props.Literal
import Verif.Props.Locale
import Verif.Props.LocaleWide
import Verif.Props.LongDouble
import Verif.Props.Meaning
import Verif.Props.Modes
import Verif.Props.Narrow
import Verif.Props.Nested
import Verif.Props.Normalise
import Verif.Props.Notations
import Verif.Props.Objects
import Verif.Props.Order
import Verif.Props.Overload
import Verif.Props.Pattern
import Verif.Props.ReadRepair
import Verif.Props.ReadSingle
import Verif.Props.ReadTotal
import Verif.Props.ReadWide
import Verif.Props.Reading
import Verif.Props.Records
import Verif.Props.Repair
import Verif.Props.Repaired
import Verif.Props.Room
import Verif.Props.RoundTrip
import Verif.Props.SameDoc
import Verif.Props.Scalar
import Verif.Props.Scale
import Verif.Props.Script
import Verif.Props.Search
import Verif.Props.Shell
import Verif.Props.Sql
import Verif.Props.Str
import Verif.Props.Strtod
import Verif.Props.Subject
import Verif.Props.Threads
import Verif.Props.Twice
import Verif.Props.Utf8
import Verif.Props.Whole
import Verif.Props.Work
import Verif.Props.Xml
import Verif.Spec.Amount
import Verif.Spec.Case
import Verif.Spec.CutNumber
import Verif.Spec.CutString
import Verif.Spec.Interchange
import Verif.Spec.Literal
import Verif.Spec.Meaning
import Verif.Spec.Nested
import Verif.Spec.Order
import Verif.Spec.Pattern
import Verif.Spec.SameDoc
import Verif.Spec.Sql
import Verif.Spec.Threads
import Verif.Spec.Words
import Verif.Spec.Xml
import Verif.Tests.Repo
