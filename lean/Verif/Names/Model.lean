import Verif.Names.Spec

/-!
# Model: non_expressive_names.rs
-/

namespace Verif.Names

/-- The closure `eq_or_numeric` — clippy_lints/src/non_expressive_names.rs:304. -/
def eqNum (num : Char → Bool) (a b : Char) : Bool := a == b || (num a && num b)

/-- The last characters differ — clippy_lints/src/non_expressive_names.rs:319-332, from the iterators without first and last; `none`: a panic. -/
def lastDiffers (num : Char → Bool) (i e : Name) : Option Bool :=
  match i.getLast?, e.getLast? with
  | some si, some se => some (!eqNum num si se || si == '_' || !(i.dropLast.zip e.dropLast).all fun p => eqNum num p.1 p.2)
  | _, _ => none

/-- The first characters are the same — clippy_lints/src/non_expressive_names.rs:307-333. -/
def firstSame (num : Char → Bool) (i e : Name) : Option Bool :=
  match i.getLast?, e.getLast? with
  | some li, some le =>
    if eqNum num li le then some (((i.dropLast.zip e.dropLast).filter fun p => !eqNum num p.1 p.2).length != 1)
    else lastDiffers num i.dropLast e.dropLast
  | _, _ => none

/-- The first characters differ — clippy_lints/src/non_expressive_names.rs:335-344. -/
def firstDiffers (num : Char → Bool) : Name → Name → Option Bool
  | si :: i, se :: e => some (!eqNum num si se || si == '_' || !(i.zip e).all fun p => eqNum num p.1 p.2)
  | _, _ => none

/-- `equal_length_strs_not_similar` — clippy_lints/src/non_expressive_names.rs:299-348. -/
def equalNot (num : Char → Bool) : Name → Name → Option Bool
  | fi :: i, fe :: e => if eqNum num fi fe then firstSame num i e else firstDiffers num i e
  | _, _ => none

/-- `levenstein_not_1` — clippy_lints/src/non_expressive_names.rs:455-473. -/
def levNot : Name → Name → Bool
  | a :: as, b :: bs =>
    if a == b then levNot as bs
    else match bs with
      | b2 :: bs' => a != b2 || as != bs'
      | [] => true
  | _, _ => true

/-- `SIMILAR_CHARS` — clippy_lints/src/non_expressive_names.rs:159. -/
def simChars : List (Char × Char) := [('l', 'i'), ('l', '1'), ('i', '1'), ('u', 'v')]

/-- `chars_are_similar` — clippy_lints/src/non_expressive_names.rs:162-164. -/
def charsSimilar (a b : Char) : Bool := a == b || simChars.contains (a, b) || simChars.contains (b, a)

/-- `allowed_to_be_similar` — clippy_lints/src/non_expressive_names.rs:200-203. -/
def allowed (n : Name) (l : List Name) : Bool := l.any fun x => x.isPrefixOf n || x.isSuffixOf n

/-- `ExistingName` — clippy_lints/src/non_expressive_names.rs:104-109; the length is that of the name. -/
structure Ex where
  name : Name
  exemptions : List Name
  deriving DecidableEq, Repr

/-- `get_exemptions(…).unwrap_or(&[])` — clippy_lints/src/non_expressive_names.rs:192-197, 295. -/
def exemptions (tbl : List (List Name)) (n : Name) : List Name :=
  match tbl.find? (allowed n) with
  | some l => l
  | none => []

/-- The lengths compared — clippy_lints/src/non_expressive_names.rs:270-274: dissimilar or not. -/
def byLength (num : Char → Bool) (n e : Name) : Option Bool :=
  if n.length < e.length then some (e.length - n.length != 1 || levNot n e)
  else if e.length < n.length then some (n.length - e.length != 1 || levNot e n)
  else equalNot num n e

/-- `chars_are_similar` of the first characters — clippy_lints/src/non_expressive_names.rs:258-263. -/
def firstSimilar : Name → Name → Option Bool
  | a :: _, b :: _ => some (charsSimilar a b)
  | _, _ => none

/-- One turn of the loop — clippy_lints/src/non_expressive_names.rs:249-278: whether it goes on (`continue`). -/
def goesOn (num : Char → Bool) (n : Name) (e : Ex) : Option Bool :=
  if allowed n e.exemptions then some true
  else match firstSimilar n e.name with
    | none => none
    | some false => some true
    | some true => if n.length == 3 && e.name.length == 3 then some true else byLength num n e.name

/-- The loop — clippy_lints/src/non_expressive_names.rs:249-290: the first existing name that is too similar; the outer `none` is a panic. -/
def scan (num : Char → Bool) (n : Name) : List Ex → Option (Option Ex)
  | [] => some none
  | e :: r =>
    match goesOn num n e with
    | none => none
    | some true => scan num n r
    | some false => some (some e)

/-- `SimilarNamesLocalVisitor` — clippy_lints/src/non_expressive_names.rs:111-118; the innermost scope comes first. -/
structure St where
  names : List Ex
  singles : List (List Name)
  out : List Rep
  deriving DecidableEq, Repr

/-- `scope.push(ident)` for the last scope — clippy_lints/src/non_expressive_names.rs:218-220. -/
def pushSingle (n : Name) : List (List Name) → List (List Name)
  | [] => []
  | s :: r => (s ++ [n]) :: r

/-- `check_short_ident` — clippy_lints/src/non_expressive_names.rs:206-221. -/
def checkShort (st : St) (n : Name) : St :=
  if st.singles.flatten.contains n then st else { st with singles := pushSingle n st.singles }

/-- The end of `check_ident` — clippy_lints/src/non_expressive_names.rs:249-297. -/
def checkLong (g : Cfg) (st : St) (n : Name) : Option St :=
  match scan g.num n st.names with
  | none => none
  | some (some e) => some { st with out := st.out ++ [.similar n e.name] }
  | some none => some { st with names := st.names ++ [⟨n, exemptions g.tbl n⟩] }

/-- `check_ident` — clippy_lints/src/non_expressive_names.rs:223-297. -/
def checkIdent (g : Cfg) (st : St) (n : Name) : Option St :=
  if n.any g.upper || n.isEmpty then some st
  else if n.all fun c => c.isDigit || c == '_' then some { st with out := st.out ++ [.digits n] }
  else if ['_'].isPrefixOf n then some st
  else if n.length < 3 then if n.length == 1 then some (checkShort st n) else some st
  else checkLong g st n

/-- `check_single_char_names` — clippy_lints/src/non_expressive_names.rs:121-141. -/
def checkSingles (g : Cfg) (st : St) : St :=
  if st.singles.head?.map List.length == some 0 then st
  else if g.threshold < st.singles.flatten.length then { st with out := st.out ++ [.many st.singles.flatten.length] }
  else st

/-- The end of `apply` — clippy_lints/src/non_expressive_names.rs:353-359: `old` is the state before, `st` the one after. -/
def truncate (old st : St) : St :=
  { st with names := st.names.take old.names.length, singles := st.singles.drop (st.singles.length - old.singles.length) }

/-- `visit_block` and the statements in it — clippy_lints/src/non_expressive_names.rs:362-395; an arm is a block that starts with the
bindings of its pattern. -/
def visit (g : Cfg) : Blk → St → Option St
  | .nil, st => some st
  | .bind n r, st =>
    match checkIdent g st n with
    | none => none
    | some st' => visit g r st'
  | .block b r, st =>
    match visit g b { st with singles := [] :: st.singles } with
    | none => none
    | some st' =>
      let st2 := checkSingles g (truncate { st with singles := [] :: st.singles } st')
      visit g r { st2 with singles := st2.singles.tail }

/-- `do_check` — clippy_lints/src/non_expressive_names.rs:433-451: the parameters and the body. -/
def doCheck (g : Cfg) (isTest : Bool) (b : Blk) : Option (List Rep) :=
  if isTest then some []
  else match visit g b ⟨[], [[]], []⟩ with
    | none => none
    | some st => some (checkSingles g st).out

/-- `ALLOWED_TO_BE_SIMILAR` — clippy_lints/src/non_expressive_names.rs:146-156. -/
def table : List (List Name) :=
  [["parsed".toList, "parser".toList], ["lhs".toList, "rhs".toList], ["tx".toList, "rx".toList], ["set".toList, "get".toList],
   ["args".toList, "arms".toList], ["qpath".toList, "path".toList], ["lit".toList, "lint".toList], ["wparam".toList, "lparam".toList],
   ["iter".toList, "item".toList]]

end Verif.Names
