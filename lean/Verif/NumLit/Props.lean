import Verif.NumLit.Core

/-!
# C09 — reformatting a numeric literal never changes its value
-/

namespace Verif.NumLit
open Verif

/-- **C09.** Take any numeric literal of Rust's grammar (`Lit.WF`), decimal if it has a minus sign, and
format it with or without a type suffix. Formatting succeeds, and the result is again a literal of the
grammar (one that a suffix may follow, if there is a suffix) followed by the suffix, with the same radix,
the same sign and the same value; without a suffix an integer stays an integer and a float a float. -/
theorem format_value (l : Lit) (hwf : l.WF) (hneg : l.neg = true → l.radix = .decimal)
    (suffix : Option Str) (float : Bool) (hfloat : l.floatForm = true → float = true)
    (hdec : float = true → l.radix = .decimal) :
    ∃ l' : Lit, format l.text suffix float = some (l'.text ++ suffix.getD []) ∧
      l'.WF ∧ (suffix ≠ none → l'.Suffixable) ∧
      l'.radix = l.radix ∧ l'.neg = l.neg ∧ l'.value = l.value ∧
      (suffix = none → l'.floatForm = l.floatForm) := by
  obtain ⟨l', h1, h2, h3, h4, h5, _, h6, h7⟩ := format_core l hwf hneg suffix float hfloat hdec
  exact ⟨l', h1, h2, h3, h4, h5, h6, h7⟩

/-- **C09, for source texts.** The same for a literal as it stands in the source, suffix included: if the
compiler says that the literal is a float or not and how long its suffix is, then printing the parsed
literal yields a literal with the same value and the same suffix. -/
theorem source_value (l : Lit) (hwf : l.WF) (hneg : l.neg = true → l.radix = .decimal)
    (suffix : Option Str) (float : Bool) (hfloat : l.floatForm = true → float = true)
    (hdec : float = true → l.radix = .decimal) :
    ∃ l' : Lit,
      (fromLitKind (l.text ++ suffix.getD []) (suffix.map List.length) float).format =
        some (l'.text ++ suffix.getD []) ∧
      l'.WF ∧ (suffix ≠ none → l'.Suffixable) ∧
      l'.radix = l.radix ∧ l'.neg = l.neg ∧ l'.value = l.value ∧
      (suffix = none → l'.floatForm = l.floatForm) := by
  have : fromLitKind (l.text ++ suffix.getD []) (suffix.map List.length) float =
      parse l.text suffix float := by
    cases suffix <;> simp [fromLitKind, splitSuffix]
  rw [this]
  exact format_value l hwf hneg suffix float hfloat hdec

/-- Non-vacuity: `1234.5678_e+10` is a literal of the grammar, with the value one expects. -/
def sampleLit : Lit := ⟨false, .decimal, str!"1234", some (str!"5678_"), some ('e', .plus, str!"10")⟩

example : sampleLit.WF ∧ sampleLit.text = str!"1234.5678_e+10" ∧ sampleLit.value = 12345678000000 := by
  refine ⟨Or.inl ⟨?_, by decide, by decide, by decide, ?_, ?_⟩, by decide, by decide +kernel⟩
  · intro c hc; simp [sampleLit] at hc
    rcases hc with rfl | rfl | rfl | rfl <;> simp [IsDigit] <;> decide
  · intro f hf; simp [sampleLit] at hf; subst hf
    refine ⟨?_, '5', by decide, by decide⟩
    intro c hc; simp at hc
    rcases hc with rfl | rfl | rfl | rfl | rfl <;> simp [IsDigit] <;> decide
  · intro e he; simp [sampleLit] at he; subst he
    refine ⟨by decide, ?_, by decide⟩
    intro c hc; simp at hc
    rcases hc with rfl | rfl <;> simp [IsDigit] <;> decide

example : format sampleLit.text (some (str!"f64")) true = some (str!"1_234.567_8_e+10_f64") := by decide

example : format (str!"0xABCDE") (some (str!"u32")) false = some (str!"0x000A_BCDE_u32") := by decide

/-- The restriction on signs is needed: the parser takes the radix of `-0xABCDE` from `0x` but cuts off
`-0` as the prefix, so it prints `-000xA_BCDE`. (The callers in clippy pass the text of a literal
token, which has no sign, or a number they have printed in decimal.) -/
theorem signed_hex_broken : format (str!"-0xABCDE") none false = some (str!"-000xA_BCDE") := by decide

end Verif.NumLit
