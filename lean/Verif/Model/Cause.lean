import Verif.Model.Reader
import Verif.Model.Tag
/-
The errors of std inside of errors of the library, and the printed text of borrowed free-form identifiers.
-/
namespace Mp4

/-- The errors of std that an error can contain (src/error.rs:16, 34, 36). -/
inductive StdError where
  | io
  | utf8
  | utf16
deriving DecidableEq, Repr

/-- The payloads of `ErrorKind` (src/error.rs:10-39) that are errors themselves. -/
def ErrKind.inner : ErrKind → Option StdError
  | .io => some .io
  | .utf8StringDecoding => some .utf8
  | .utf16StringDecoding => some .utf16
  | _ => none

/-- `<Error as std::error::Error>::cause` (src/error.rs:57-62). -/
def ErrKind.cause : ErrKind → Option StdError
  | .io => some .io
  | _ => none

/-- `<Error as std::error::Error>::source`: not implemented (src/error.rs:56-63), so it is the default of std, which returns `None`. -/
def ErrKind.source : ErrKind → Option StdError := fun _ => none

/-- `Display for FreeformIdent` (src/atom/ident.rs:242-246). -/
def FreeformIdent.display (i : FreeformIdent) : Str := "----:".toList ++ i.mean ++ ":".toList ++ i.name

/-- `Display` of the three types of identifiers (src/atom/ident.rs:208-212, 242-246, 285-292). -/
def Ident.display : Ident → Str
  | .fourcc f => f.display
  | .freeform i => i.display
  | .data i => i.display

end Mp4
