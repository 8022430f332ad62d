import Verif.Model.Path
/-
The program in the repository: examples/string_encoding.rs.
-/
namespace Mp4

/-- `Result::expect` (std): an error ends the program with a panic. -/
def Out.expect {α} : Out α → Out α
  | .err _ => .panic
  | o => o

/-- What the closure does with a value (examples/string_encoding.rs:8-11): the string is moved out of the UTF-16 value, which is
then overwritten. -/
def reencodeData : Data → Data
  | .utf16 s => .utf8 s
  | d => d

/-- examples/string_encoding.rs:7-12: the closure is called for all values that `Tag::data_mut` yields. -/
def reencode (t : Tag) : Tag := t.dataMut fun _ _ => reencodeData

/-- `main` (examples/string_encoding.rs:4-15). The path is a parameter, it is `music.m4a` in the program. -/
def reencodeMain (e : Env) (fs : Fs) (p : String) : Out Unit × Fs :=
  match (readFromPath e fs p).expect with
  | .ok t =>
    let r := writeToPath e fs p (reencode t)
    (r.1.expect, r.2)
  | .err k => (.err k, fs)
  | .panic => (.panic, fs)
  | .fuel => (.fuel, fs)

end Mp4
