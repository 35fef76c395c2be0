import Verif.Model.XMLScanner

/-!
# Reading the text of an automaton

What a reader gets of the text of an automaton. Each line describes one state:

    <index>: [ -><next>][ ~<link>] /[/]<name>( '<source>'| (null))[ =><type>]
-/

namespace TW.Spec.Path

/-- What a line tells of a state. -/
structure Shown where
  index : Nat
  next : Option Nat
  link : Option Nat
  follow : Bool
  name : List Nat
  source : Option (List Nat)
  type : Int
  deriving DecidableEq, Repr

/-- The characters of a string. -/
def chars (s : String) : List Nat := s.toList.map Char.toNat

/-- What is behind a prefix. -/
def strip (p s : List Nat) : Option (List Nat) := if p.isPrefixOf s then some (s.drop p.length) else none

/-- Read a decimal number. -/
def readNat (v : Nat) : List Nat → Nat × List Nat
  | [] => (v, [])
  | c :: s => if 48 ≤ c ∧ c ≤ 57 then readNat (v * 10 + (c - 48)) s else (v, c :: s)

/-- Read a number with an optional sign. -/
def readInt (s : List Nat) : Int × List Nat :=
  match strip [45] s with
  | some s => (-((readNat 0 s).1 : Int), (readNat 0 s).2)
  | none => (((readNat 0 s).1 : Int), (readNat 0 s).2)

/-- Read a number behind a sign, if the sign is there. -/
def readRef (sign : List Nat) (s : List Nat) : Option Nat × List Nat :=
  match strip sign s with
  | some s => (some (readNat 0 s).1, (readNat 0 s).2)
  | none => (none, s)

/-- Read the source form. -/
def readSource (s : List Nat) : Option (Option (List Nat) × List Nat) :=
  match strip [32, 39] s with
  | some s => (strip [39] (s.dropWhile (· ≠ 39))).map (some (s.takeWhile (· ≠ 39)), ·)
  | none => (strip (chars " (null)") s).map (none, ·)

/-- Read the type. -/
def readType (s : List Nat) : Int × List Nat :=
  match strip (chars " =>") s with
  | some s => readInt s
  | none => (0, s)

/-- Read a flag. -/
def readFlag (s : List Nat) : Bool × List Nat :=
  match strip [47] s with
  | some s => (true, s)
  | none => (false, s)

/-- Read a line. -/
def readLine (s : List Nat) : Option (Shown × List Nat) := do
  let (index, s) := readNat 0 s
  let s ← strip (chars ": ") s
  let (next, s) := readRef (chars " ->") s
  let (link, s) := readRef (chars " ~") s
  let s ← strip (chars " /") s
  let (follow, s) := readFlag s
  let name := s.takeWhile (· ≠ 32)
  let (source, s) ← readSource (s.dropWhile (· ≠ 32))
  let (type, s) := readType s
  let s ← strip [10] s
  pure ({ index, next, link, follow, name, source, type }, s)

/-- Read lines up to the end, at most `n`. -/
def readLines : Nat → List Nat → Option (List Shown)
  | _, [] => some []
  | 0, _ :: _ => none
  | n + 1, s => do
    let (x, s) ← readLine s
    let xs ← readLines n s
    pure (x :: xs)

/-- The items a state with a name waits for. -/
def waitsFor (name : List Nat) : List ElementType :=
  if name = chars "OpenTag" then [.OpenTag, .HeaderStart]
  else if name = chars "CloseTag" then [.CloseTag, .CloseTagIm, .HeaderEnd]
  else if name = chars "Attribute" then [.TagAttribName, .HeaderAttribName]
  else if name = chars "AttributeValue" ∨ name = chars "ThisAttributeValue" then [.TagAttribValue, .HeaderAttribValue]
  else if name = chars "Content" then [.Content]
  else if name = chars "ContentStart" then [.HeaderEnd]
  else []

end TW.Spec.Path
