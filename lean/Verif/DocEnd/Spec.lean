/-!
# Paragraphs of documentation without punctuation at their end: what is meant

A text is a list of characters, and the places of events are numbers of characters.
-/

namespace Verif.DocEnd

/-- What is in a paragraph, with the place in the text. -/
inductive Inline
  /-- Text. -/
  | text (lo hi : Nat)
  /-- Code, or the start or the end of a link. -/
  | span (lo hi : Nat)
  /-- A piece of HTML. -/
  | html
  /-- The start of an image. -/
  | startImage
  /-- The end of an image. -/
  | endImage
  /-- Anything else: line breaks, emphasis, footnote references. -/
  | other
deriving DecidableEq, Repr

/-- A document: a sequence of blocks. -/
inductive Doc
  | done
  /-- A paragraph. -/
  | para (l : List Inline) (rest : Doc)
  /-- Something outside paragraphs: in tight lists, code, headings, cells. -/
  | bare (e : Inline) (rest : Doc)
  /-- A block of code or a list. -/
  | listing (inner rest : Doc)
  /-- A footnote. -/
  | footnote (inner rest : Doc)
  /-- A heading, a table, HTML. -/
  | aside (inner rest : Doc)
  /-- A quote, or an item of a list. -/
  | group (inner rest : Doc)

/-- The events of the parser. -/
inductive Ev
  | inline (e : Inline)
  | startAside
  | startListing
  | endFootnote
  | endBlock
  | endPara
deriving DecidableEq, Repr

/-- The events of a document. Starts and ends without meaning here are `other`. -/
def events : Doc → List Ev
  | .done => []
  | .para l r => .inline .other :: (l.map .inline ++ (.endPara :: events r))
  | .bare e r => .inline e :: events r
  | .listing i r => .startListing :: (events i ++ (.endBlock :: events r))
  | .footnote i r => .startAside :: (events i ++ (.endFootnote :: events r))
  | .aside i r => .startAside :: (events i ++ (.endBlock :: events r))
  | .group i r => .inline .other :: (events i ++ (.inline .other :: events r))

/-- A missing mark: whether one can be inserted, and where the paragraph ends. -/
inductive Missing
  | fixable (at_ : Nat)
  | unfixable (at_ : Nat)
deriving DecidableEq, Repr

/-- Emoji and other symbols, by their code. -/
def symbols : List (Nat × Nat) :=
  [(0x1F300, 0x1F5FF), (0x1F600, 0x1F64F), (0x1F900, 0x1F9FF), (0x2700, 0x27BF), (0x1FA70, 0x1FAFF), (0x1F680, 0x1F6FF), (0x2600, 0x26FF), (0xFE00, 0xFE0F)]

/-- What may follow the punctuation: symbols and white space. -/
def Ignored (ws : Char → Bool) (c : Char) : Prop := (∃ p ∈ symbols, p.1 ≤ c.toNat ∧ c.toNat ≤ p.2) ∨ ws c = true

/-- What a text ends with. -/
inductive Ending
  | mark
  /-- A mark, and a parenthesis or quotation mark after it. -/
  | closedMark
  /-- A parenthesis or quotation mark without a mark before it. -/
  | closed
  | open_
deriving DecidableEq, Repr

/-- The marks. -/
def marks : List Char := ['.', '?', '!', '…', ':']

/-- `Ends ws s e`: the text `s` ends with `e` before what is ignored. -/
inductive Ends (ws : Char → Bool) : List Char → Ending → Prop
  | mark (a : List Char) (c : Char) (j : List Char) : (∀ d ∈ j, Ignored ws d) → ¬Ignored ws c → c ∈ marks → Ends ws (a ++ c :: j) .mark
  | closedMark (a : List Char) (m c : Char) (j : List Char) : (∀ d ∈ j, Ignored ws d) → ¬Ignored ws c → c = ')' ∨ c = '"' → m ∈ marks →
      Ends ws (a ++ m :: c :: j) .closedMark
  | closed (a : List Char) (c : Char) (j : List Char) : (∀ d ∈ j, Ignored ws d) → ¬Ignored ws c → c = ')' ∨ c = '"' → (∀ b m, a = b ++ [m] → m ∉ marks) →
      Ends ws (a ++ c :: j) .closed
  | open_ (a : List Char) (c : Char) (j : List Char) : (∀ d ∈ j, Ignored ws d) → ¬Ignored ws c → c ∉ marks → c ≠ ')' → c ≠ '"' → Ends ws (a ++ c :: j) .open_
  | nothing (j : List Char) : (∀ d ∈ j, Ignored ws d) → Ends ws j .open_

/-- What decides about a paragraph: the last text, code, link, image or HTML in it. `ending` is what the document ends with up to a place. The list is
reversed; `none`: nothing decides. -/
def decides (ending : Nat → Ending) : List Inline → Option (Option Missing)
  | [] => none
  | .text lo hi :: before =>
    if lo < hi then
      match ending hi with
      | .mark | .closedMark => some none
      | .closed => some (some (.unfixable hi))
      | .open_ => some (some (.fixable hi))
    else decides ending before
  | .span lo hi :: before =>
    if lo < hi then
      if ending hi = .mark ∨ before.head? = some .endImage then some none else some (some (.fixable hi))
    else decides ending before
  | .html :: _ => some none
  | .startImage :: _ => some none
  | .endImage :: _ => some none
  | .other :: before => decides ending before

/-- What a paragraph lacks. -/
def lacks (ending : Nat → Ending) (l : List Inline) : Option Missing := (decides ending l.reverse).join

/-- The document goes on with code or a list. -/
def Doc.listingNext : Doc → Bool
  | .listing _ _ => true
  | _ => false

/-- What should be reported: the paragraphs that are not in lists, footnotes and the like and are not followed by code or a list. -/
def missing (ending : Nat → Ending) : Doc → List Missing
  | .done => []
  | .para l r => (if r.listingNext then [] else (lacks ending l).toList) ++ missing ending r
  | .bare _ r => missing ending r
  | .listing _ r => missing ending r
  | .footnote _ r => missing ending r
  | .aside _ r => missing ending r
  | .group i r => missing ending i ++ missing ending r

/-- The paragraphs that lack a mark, also those followed by code or a list. -/
def lacking (ending : Nat → Ending) : Doc → List Missing
  | .done => []
  | .para l r => (lacks ending l).toList ++ lacking ending r
  | .bare _ r => lacking ending r
  | .listing _ r => lacking ending r
  | .footnote _ r => lacking ending r
  | .aside _ r => lacking ending r
  | .group i r => lacking ending i ++ lacking ending r

/-- Outside lists and the like everything is in paragraphs. -/
def Doc.WellFormed : Doc → Prop
  | .done => True
  | .para _ r => r.WellFormed
  | .bare _ _ => False
  | .listing _ r => r.WellFormed
  | .footnote _ r => r.WellFormed
  | .aside _ r => r.WellFormed
  | .group i r => i.WellFormed ∧ r.WellFormed

/-- There is no paragraph. -/
def Doc.NoPara : Doc → Prop
  | .done => True
  | .para _ _ => False
  | .bare _ r => r.NoPara
  | .listing i r => i.NoPara ∧ r.NoPara
  | .footnote i r => i.NoPara ∧ r.NoPara
  | .aside i r => i.NoPara ∧ r.NoPara
  | .group i r => i.NoPara ∧ r.NoPara

/-- Every paragraph has something that decides, and there are none in lists, footnotes and the like. -/
def Doc.Plain (ending : Nat → Ending) : Doc → Prop
  | .done => True
  | .para l r => decides ending l.reverse ≠ none ∧ r.Plain ending
  | .bare _ r => r.Plain ending
  | .listing i r => i.NoPara ∧ r.Plain ending
  | .footnote i r => i.NoPara ∧ r.Plain ending
  | .aside i r => i.NoPara ∧ r.Plain ending
  | .group i r => i.Plain ending ∧ r.Plain ending

end Verif.DocEnd
