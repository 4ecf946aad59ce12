import Verif.Common.StrOrd
import Verif.Dev.UtilsModel
import Verif.Dev.CargoModel
import Verif.Dev.GenerateModel

/-!
# Formatting the list of symbols

Model of `fmt_syms` in `/repo/clippy_dev/src/fmt.rs`.
-/

namespace Verif.Dev

/-- `str::lines`: the lines, without an empty one at the end. A carriage return at the end of a line is kept here; every
caller trims the line. -/
def linesOf (s : Str) : List Str :=
  let ls := Text.split ['\n'] s
  if ls.getLast? = some [] then ls.dropLast else ls

/-- A line without the spaces around it and its comma, fmt.rs:246-247. -/
def cleanLine (line : Str) : Str :=
  let line := trim line
  trimEnd (if line.getLast? = some ',' then line.dropLast else line)

/-- The two patterns that delimit the list, fmt.rs:241-242. -/
def symsStart : Str := str!"generate! {\n"

/-- See `symsStart`. -/
def symsEnd : Str := str!"\n}\n"

/-- The list as it is written, fmt.rs:251-255. -/
def symsBody (entries : List Str) : Str := str!"    " ++ joinWith (str!",\n    ") entries ++ [',']

/-- The callback of `fmt_syms`, fmt.rs:240-262: the new text and whether it changed; none if it panics. -/
def fmtSyms (text : Str) : Option (Str × Bool) :=
  match splitOnceStr symsStart text with
  | none => none
  | some (pre, rest) =>
    match splitOnceStr symsEnd rest with
    | none => none
    | some (conf, post) =>
      let dst := pre ++ symsStart ++ symsBody (sortBy strLe ((linesOf conf).map cleanLine)) ++ symsEnd ++ post
      some (dst, decide (text ≠ dst))

end Verif.Dev
