import Verif.Model.Ops
import Verif.Props.TagMap
import Verif.Props.Accessors
import Verif.Props.Text
import Verif.Props.Dump
import Verif.Props.Read
import Verif.Props.Errors
import Verif.Props.Sane
import Verif.Props.Genre
import Verif.Props.Write
import Verif.Props.WriteMore
import Verif.Props.NoPanic
import Verif.Props.Fault
import Verif.Props.InPlace
import Verif.Props.Halves
import Verif.Props.Display
import Verif.Props.Path
import Verif.Props.Kind
import Verif.Props.Provenance
import Verif.Props.Reader
import Verif.Props.FrontAny
import Verif.Props.Cut
import Verif.Props.Stable
import Verif.Props.Multi
import Verif.Props.Stuck
import Verif.Props.Accept
import Verif.Props.AcceptRead
import Verif.Props.ReadAgain
import Verif.Props.Stored
import Verif.Props.Describe
import Verif.Props.Calls
import Verif.Props.Memory
import Verif.Props.Local
import Verif.Props.ReadAgainChecked
import Verif.Props.Shadow
import Verif.Props.Fill
import Verif.Props.Exact
import Verif.Props.Late
import Verif.Props.Boundary
import Verif.Props.DescribeReader
import Verif.Props.SameSize
import Verif.Props.Cost
import Verif.Props.Caller
import Verif.Props.Buffered
import Verif.Props.BufSave
import Verif.Props.BufFault
import Verif.Props.UserIdent
import Verif.Props.Narrow
import Verif.Props.Short
import Verif.Props.Retry
import Verif.Props.Example
import Verif.Props.Undo
import Verif.Props.Format
import Verif.Props.Commute
import Verif.Props.Size
import Verif.Props.Differ
import Verif.Check.Conformance
import Verif.Check.Samples
import Verif.Props.Edit
import Verif.Props.Sittings
import Verif.Props.Cause
