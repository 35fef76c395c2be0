import Verif.Spec.Header

/-!
# Specification: the texts read by the header parser
-/

namespace TW.Spec.Hdr

/-- A letter or an underscore. -/
def Letter (c : Byte) : Prop := 65 ≤ c ∧ c ≤ 90 ∨ 97 ≤ c ∧ c ≤ 122 ∨ c = 95

/-- `<?xml ` with attributes behind, and the value of the last attribute `encoding`. -/
inductive Between : List Byte → List Byte → Prop
  | start {w0 w1 w2 : List Byte} : Blank w0 → Blank w1 → Blank w2 → w2 ≠ [] →
      Between (w0 ++ [60] ++ w1 ++ [63, 120, 109, 108] ++ w2) []
  | attr {t en : List Byte} {a : DeclAttr} : Between t en → a.Plain →
      Between (t ++ a.text) (if a.name = .encoding then a.value else en)

/-- What a text that can be continued to a header ends in. -/
inductive Place where
  | front
  | opened
  | target (nm : List Byte)
  | between
  | name (nm : List Byte)
  | assign (a : DeclName)
  | value (a : DeclName)
  | quoted (a : DeclName) (double : Bool) (v : List Byte)
  deriving DecidableEq, Repr

/-- A text that can be continued to a header, where it ends and the encoding declared before. -/
inductive At : List Byte → Place → List Byte → Prop
  | front {w : List Byte} : Blank w → At w .front []
  | opened {w0 w1 : List Byte} : Blank w0 → Blank w1 → At (w0 ++ [60] ++ w1) .opened []
  | target {w0 w1 nm : List Byte} : Blank w0 → Blank w1 → (∀ c ∈ nm, Letter c) → At (w0 ++ [60] ++ w1 ++ [63] ++ nm) (.target nm) []
  | between {t en : List Byte} : Between t en → At t .between en
  | name {t en nm : List Byte} : Between t en → nm ≠ [] → (∀ c ∈ nm, Letter c) → At (t ++ nm) (.name nm) en
  | assign {t en w : List Byte} {a : DeclName} : Between t en → Blank w → w ≠ [] → At (t ++ a.text ++ w) (.assign a) en
  | value {t en w1 w2 : List Byte} {a : DeclName} : Between t en → Blank w1 → Blank w2 →
      At (t ++ a.text ++ w1 ++ [61] ++ w2) (.value a) en
  | quoted {t en w1 w2 v : List Byte} {a : DeclName} {double : Bool} : Between t en → Blank w1 → Blank w2 →
      (∀ c ∈ v, c ≠ 0 ∧ c ≠ if double then 34 else 39) →
      At (t ++ a.text ++ w1 ++ [61] ++ w2 ++ [if double then 34 else 39] ++ v) (.quoted a double v) en

/-- The characters that end the header: the first one of the name of a tag, if there is no header, or the question mark. -/
inductive Ends : Place → Byte → Prop
  | tag {c : Byte} : Letter c → Ends .opened c
  | target : Ends (.target [120, 109, 108]) 63
  | between : Ends .between 63

/-- The characters that are wrong, and what is said about them. -/
inductive Wrong : Place → Byte → String → Prop
  | front {c : Byte} : 32 < c → c ≠ 60 → Wrong .front c "expected open tag angle bracket '>'"
  | opened {c : Byte} : 32 < c → c ≠ 63 → ¬ Letter c →
      Wrong .opened c "expected xml header question mark '?' after open tag angle bracket '<'"
  | target {nm : List Byte} {c : Byte} : nm ≠ [120, 109, 108] → c ≤ 32 ∨ c = 63 →
      Wrong (.target nm) c "expected '<?xml' as xml header start"
  | targetClose {nm : List Byte} : Wrong (.target nm) 62 "unexpected close angle bracket '>' in xml header after '<?xml'"
  | targetChar {nm : List Byte} {c : Byte} : 32 < c → c ≠ 63 → c ≠ 62 → ¬ Letter c →
      Wrong (.target nm) c "expected '<?xml' as xml header start (invalid character)"
  | betweenClose : Wrong .between 62 "unexpected close angle bracket '>' in xml header (missing '?')"
  | betweenChar {c : Byte} : 32 < c → c ≠ 62 → c ≠ 63 → ¬ Letter c → Wrong .between c "invalid character in xml header attribute name"
  | name {nm : List Byte} {c : Byte} : (∀ a : DeclName, nm ≠ a.text) → c ≤ 32 ∨ c = 61 →
      Wrong (.name nm) c "unknown xml header attribute name"
  | nameChar {nm : List Byte} {c : Byte} : 32 < c → c ≠ 61 → ¬ Letter c → Wrong (.name nm) c "invalid character in xml header attribute name"
  | assign {a : DeclName} {c : Byte} : 32 < c → c ≠ 61 → Wrong (.assign a) c "expected '=' after xml header attribute name"
  | value {a : DeclName} {c : Byte} : 32 < c → c ≠ 34 → c ≠ 39 →
      Wrong (.value a) c "expected single or double quote string as xml header attribute value"

/-- What is to be said about a text: more is needed (`none`), it is a header or has none (`some none`), or it is wrong; and
the encoding declared. -/
inductive Verdict : List Byte → Option (Option String) → List Byte → Prop
  | more {t en : List Byte} {p : Place} : At t p en → Verdict t none en
  | done {t en rest : List Byte} {p : Place} {c : Byte} : At t p en → Ends p c → Verdict (t ++ c :: rest) (some none) en
  | failed {t en rest : List Byte} {p : Place} {c : Byte} {m : String} : At t p en → c ≠ 0 → Wrong p c m →
      Verdict (t ++ c :: rest) (some (some m)) en

end TW.Spec.Hdr
