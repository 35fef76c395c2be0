import Verif.Spec.Path

/-!
# Path expressions as text

The texts of expressions and the calls they stand for.
-/

namespace TW.Spec.Path

open TW.Path

/-- The value of an attribute in a condition: an identifier or a quoted string. -/
inductive TValue where
  | bare (cs : List UChar)
  | quoted (q : UChar) (cs : List UChar)
  deriving DecidableEq, Repr

/-- A condition `[@name=value]`, `[i]`, `[i,j]` or `[i,]`; the numbers are lists of digits. -/
inductive TCond where
  | attr (name : List UChar) (value : TValue)
  | index (i : List UChar)
  | range (i j : List UChar)
  | from' (i : List UChar)
  deriving DecidableEq, Repr

/-- A name in an expression: the wildcard '*', an identifier, or alternatives `{a,b}`. -/
inductive TName where
  | any
  | one (cs : List UChar)
  | alt (l : List (List UChar))
  deriving DecidableEq, Repr

/-- A step with its conditions: what separates it from the text before - nothing, "/" (`some false`) or "//" (`some true`) - and its name.
A step with conditions does not need a name. -/
structure TStep where
  sep : Option Bool
  name : Option TName
  conds : List TCond
  deriving DecidableEq, Repr

/-- The end of an expression: nothing, `@name`, `()` or `~`; "/" or "//" can come before '@' and "()". The parser also takes
a separator or a '@' with nothing behind. -/
inductive TEnd where
  | nothing
  | slash (desc : Bool)
  | attribute (sep : Option Bool) (name : Option TName)
  | content (sep : Option Bool)
  | closeTag
  deriving DecidableEq, Repr

/-- An expression. -/
structure TPath where
  steps : List TStep
  final : TEnd
  deriving DecidableEq, Repr

def TValue.text : TValue → List UChar
  | .bare cs => cs
  | .quoted q cs => q :: cs ++ [q]

/-- The pieces of expressions between which blanks are allowed. -/
inductive Tok where
  | slash (desc : Bool)
  | at
  | name (nm : TName)
  | cond (c : TCond)
  | content
  | close
  deriving DecidableEq, Repr

def sepToks (sep : Option Bool) : List Tok := sep.toList.map .slash

def TStep.toks (s : TStep) : List Tok := sepToks s.sep ++ s.name.toList.map .name ++ s.conds.map .cond

def TEnd.toks : TEnd → List Tok
  | .nothing => []
  | .slash desc => [.slash desc]
  | .attribute sep name => sepToks sep ++ [.at] ++ name.toList.map .name
  | .content sep => sepToks sep ++ [.content]
  | .closeTag => [.close]

def TPath.toks (p : TPath) : List Tok := p.steps.flatMap TStep.toks ++ p.final.toks

/-! ## Texts -/

def Blanks (cs : List UChar) : Prop := ∀ c ∈ cs, c = 9 ∨ c = 13 ∨ c = 32

/-- The identifiers, with blanks around and commas between them. -/
def Listed : List (List UChar) → List UChar → Prop
  | [], _ => False
  | [a], cs => ∃ b b', Blanks b ∧ Blanks b' ∧ cs = b ++ a ++ b'
  | a :: l, cs => ∃ b b' r, Blanks b ∧ Blanks b' ∧ cs = b ++ a ++ b' ++ [44] ++ r ∧ Listed l r

def TName.Text : TName → List UChar → Prop
  | .any, cs => cs = [42]
  | .one id, cs => cs = id
  | .alt l, cs => ∃ r, Listed l r ∧ cs = [123] ++ r ++ [125]

def TCond.Text : TCond → List UChar → Prop
  | .attr name value, cs => ∃ b1 b2 b3 b4 b5, Blanks b1 ∧ Blanks b2 ∧ Blanks b3 ∧ Blanks b4 ∧ Blanks b5 ∧
      cs = [91] ++ b1 ++ [64] ++ b2 ++ name ++ b3 ++ [61] ++ b4 ++ value.text ++ b5 ++ [93]
  | .index i, cs => ∃ b1 b2, Blanks b1 ∧ Blanks b2 ∧ cs = [91] ++ b1 ++ i ++ b2 ++ [93]
  | .range i j, cs => ∃ b1 b2 b3 b4, Blanks b1 ∧ Blanks b2 ∧ Blanks b3 ∧ Blanks b4 ∧
      cs = [91] ++ b1 ++ i ++ b2 ++ [44] ++ b3 ++ j ++ b4 ++ [93]
  | .from' i, cs => ∃ b1 b2 b3, Blanks b1 ∧ Blanks b2 ∧ Blanks b3 ∧ cs = [91] ++ b1 ++ i ++ b2 ++ [44] ++ b3 ++ [93]

def Tok.Text : Tok → List UChar → Prop
  | .slash desc, cs => cs = if desc then [47, 47] else [47]
  | .at, cs => cs = [64]
  | .name nm, cs => nm.Text cs
  | .cond c, cs => c.Text cs
  | .content, cs => ∃ b, Blanks b ∧ cs = [40] ++ b ++ [41]
  | .close, cs => cs = [126]

/-- The pieces, each one followed by blanks. -/
def Texts : List Tok → List UChar → Prop
  | [], cs => cs = []
  | t :: ts, cs => ∃ p b r, t.Text p ∧ Blanks b ∧ cs = p ++ b ++ r ∧ Texts ts r

/-- The text is a text of the expression. -/
def TPath.Text (p : TPath) (cs : List UChar) : Prop := Texts p.toks cs

/-! ## Choices of alternatives -/

def TName.picks : TName → List TName
  | .alt l => l.map .one
  | nm => [nm]

def optPicks : Option TName → List (Option TName)
  | some nm => nm.picks.map some
  | none => [none]

def TStep.picks (s : TStep) : List TStep := (optPicks s.name).map fun nm => { s with name := nm }

def TEnd.picks : TEnd → List TEnd
  | .attribute sep name => (optPicks name).map fun nm => .attribute sep nm
  | f => [f]

/-- The expressions without alternatives: those made by taking one of the alternatives at each place. -/
def TPath.picks (p : TPath) : List TPath :=
  p.final.picks.flatMap fun f =>
    (p.steps.foldl (fun acc s => s.picks.flatMap fun x => acc.map (· ++ [x])) [[]]).map fun ss => ⟨ss, f⟩

/-! ## Calls -/

/-- Value of a decimal number. -/
def decimal (ds : List UChar) : Nat := ds.foldl (fun v d => v * 10 + (d - 48)) 0

/-- The calls of the building interface; names and values are given in the character set of the automaton. -/
def TValue.chars : TValue → List UChar
  | .bare cs => cs
  | .quoted _ cs => cs

def TCond.call (e : Enc) : TCond → PElem.Call
  | .attr name value => .ifAttribute (some (name.flatMap e.print)) (some (value.chars.flatMap e.print))
  | .index i => .index (decimal i)
  | .range i j => .range (decimal i) (decimal j)
  | .from' i => .from' (decimal i)

/-- The bytes of a name without alternatives; the wildcard has none. -/
def TName.key (e : Enc) : TName → Option (List Byte)
  | .one cs => some (cs.flatMap e.print)
  | _ => none

def sepCalls (sep : Option Bool) : List PElem.Call := if sep = some true then [.follow] else []

def TStep.calls (e : Enc) (s : TStep) : List PElem.Call :=
  sepCalls s.sep ++ (s.name.toList.map fun nm => .tag (nm.key e)) ++ s.conds.map (TCond.call e)

def TEnd.calls (e : Enc) : TEnd → List PElem.Call
  | .nothing => []
  | .slash desc => sepCalls (some desc)
  | .attribute sep name => sepCalls sep ++ name.toList.map fun nm => .attribute (nm.key e)
  | .content sep => sepCalls sep ++ [.content]
  | .closeTag => [.closeTag]

/-- The calls for an expression without alternatives. -/
def TPath.calls (e : Enc) (p : TPath) : List PElem.Call := p.steps.flatMap (TStep.calls e) ++ p.final.calls e

/-! ## Conditions for the parts -/

/-- The characters of identifiers the parser accepts: printable ASCII characters without those listed, the code 5, and codes from 128
whose low byte is not zero and not the code of an operator. -/
def IdChar (c : UChar) : Prop :=
  (33 ≤ c ∨ c = 5) ∧ c ∉ ascii "!\"&'()*,-/;<=>?@[]{}~" ∧ (128 ≤ c → c % 256 ≠ 0 ∧ c % 256 ∉ ascii "*~/(){}[]@,;")

def Identifier (cs : List UChar) : Prop := cs ≠ [] ∧ ∀ c ∈ cs, IdChar c

def Number (ds : List UChar) : Prop := ds ≠ [] ∧ ds.length ≤ 8 ∧ ∀ d ∈ ds, 48 ≤ d ∧ d ≤ 57

def TValue.Ok : TValue → Prop
  | .bare cs => Identifier cs
  | .quoted q cs => (q = 34 ∨ q = 39) ∧ ∀ c ∈ cs, c ≠ 0 ∧ c ≠ q

def TCond.Ok : TCond → Prop
  | .attr name value => Identifier name ∧ value.Ok
  | .index i => Number i
  | .range i j => Number i ∧ Number j
  | .from' i => Number i

def TName.Ok : TName → Prop
  | .any => True
  | .one cs => Identifier cs
  | .alt l => l ≠ [] ∧ ∀ cs ∈ l, Identifier cs

def TStep.Ok (s : TStep) : Prop :=
  (∀ nm, s.name = some nm → nm.Ok) ∧ (∀ c ∈ s.conds, c.Ok) ∧ (s.name = none → s.conds ≠ [])

def TEnd.Ok : TEnd → Prop
  | .attribute _ name => ∀ nm, name = some nm → nm.Ok
  | _ => True

/-- Only the first step can be without a separator. -/
def TPath.Ok (p : TPath) : Prop := (∀ s ∈ p.steps, s.Ok) ∧ (∀ s ∈ p.steps.tail, s.sep ≠ none) ∧ p.final.Ok

/-- No alternatives. -/
def TPath.Simple (p : TPath) : Prop :=
  (∀ s ∈ p.steps, ∀ l, s.name ≠ some (.alt l)) ∧ ∀ sep l, p.final ≠ .attribute sep (some (.alt l))

end TW.Spec.Path
