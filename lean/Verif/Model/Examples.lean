import Verif.Model.ScanIterator
import Verif.Model.Session
import Verif.Model.PathShow
import Verif.Model.PathSelect

/-!
# The example programs: examples/*.cpp

What they write to `std::cout`, as bytes, and how they end.
-/

namespace TW

/-- xmlscanner.hpp:199-203 `getElementTypeName`. -/
def elementTypeName (type : ElementType) : List Byte :=
  match type with
  | .None => ascii "None"
  | .ErrorOccurred => ascii "ErrorOccurred"
  | .HeaderStart => ascii "HeaderStart"
  | .HeaderAttribName => ascii "HeaderAttribName"
  | .HeaderAttribValue => ascii "HeaderAttribValue"
  | .HeaderEnd => ascii "HeaderEnd"
  | .DocAttribValue => ascii "DocAttribValue"
  | .DocAttribEnd => ascii "DocAttribEnd"
  | .TagAttribName => ascii "TagAttribName"
  | .TagAttribValue => ascii "TagAttribValue"
  | .OpenTag => ascii "OpenTag"
  | .CloseTag => ascii "CloseTag"
  | .CloseTagIm => ascii "CloseTagIm"
  | .Content => ascii "Content"
  | .Exit => ascii "Exit"

/-- How a function of an example ends: it returns, it throws a `std::runtime_error` with a text, or it is left in another way. -/
inductive Ended where
  | returned (b : Bool)
  | thrown (what : List Byte)
  | stopped (er : Stop)
  deriving DecidableEq, Repr

namespace Scanner

variable {ρ : Type} [Reader ρ]

/-- XMLScanner.cpp:17-25 and XMLScanner_chunkwise.cpp:27-35: the loop from an iterator on, with at most `k` rounds. -/
def showItems (n : Nat) : Nat → Iterator → Scanner ρ → (List Byte × Ended) × Scanner ρ
  | 0, _, s => (([], .stopped .fuel), s)
  | k + 1, it, s =>
    if iterEq it iterEnd then (([], .returned true), s)
    else match readStr s it.element.error with
      | some text => (([], .thrown (ascii "xml error: " ++ text)), s)
      | none => match iterSees it s with
        | (.stop er, s) => (([], .stopped er), s)
        | (.ok (type, elem), s) =>
          let line := elementTypeName type ++ [32] ++ elem ++ [10]
          match iterPre n it s with
          | (.stop er, s) => ((line, .stopped er), s)
          | (.ok it, s) =>
            let ((out, ended), s) := showItems n k it s
            ((line ++ out, ended), s)

/-- XMLScanner.cpp:15-25 and XMLScanner_chunkwise.cpp:25-35: the loop from `begin` on. -/
def showAll (n k : Nat) (s : Scanner ρ) : (List Byte × Ended) × Scanner ρ :=
  match iterBegin n true s with
  | (.stop er, s) => (([], .stopped er), s)
  | (.ok it, s) => showItems n k it s

/-- XMLScanner_chunkwise.cpp:15-37 `output`. At the end of the chunk `longjmp` (sourceiterator.hpp:73) leads to line 23. -/
def outputChunk (n k : Nat) (chunk : List Byte) (s : Scanner (TextScanner SrcIt)) : (List Byte × Ended) × Scanner (TextScanner SrcIt) :=
  match showAll n k (feed true chunk true s) with
  | ((out, .stopped .eom), s) => ((out, .returned false), s)
  | r => r

/-- The calls of `output` for the chunks of a document, as line 23 of the example says: the next chunk after `false`. All that is
written, and how the last call ends. -/
def outputChunks (n k : Nat) : List (List Byte) → Scanner (TextScanner SrcIt) → (List Byte × Ended) × Scanner (TextScanner SrcIt)
  | [], s => (([], .returned false), s)
  | c :: cs, s =>
    match outputChunk n k c s with
    | ((out, .returned false), s) =>
      let ((out', ended), s) := outputChunks n k cs s
      ((out ++ out', ended), s)
    | r => r

end Scanner

open Path in
/-- XMLPathSelect.cpp:24-37: the loop from an iterator on, with at most `k` rounds. The results of an item are written after all of them have been
fetched. -/
def selectItems {ρ : Type} [Reader ρ] (n : Nat) : Nat → Iterator → Sel → Scanner ρ → List Byte × Ended
  | 0, _, _, _ => ([], .stopped .fuel)
  | k + 1, it, sel, s =>
    if Scanner.iterEq it Scanner.iterEnd then ([], .returned true)
    else match Scanner.readStr s it.element.error with
      | some text => ([], .thrown (ascii "xml error: " ++ text))
      | none => match Scanner.iterSees it s with
        | (.stop er, _) => ([], .stopped er)
        | (.ok (type, elem), s) =>
          match Sel.push n true type elem sel with
          | (.stop er, _) => ([], .stopped er)
          | (.ok results, sel) =>
            let out := results.flatMap fun r => showInt r ++ ascii ": " ++ elementTypeName type ++ elem ++ [10]
            match Scanner.iterPost n it s with
            | (.stop er, _) => (out, .stopped er)
            | (.ok (_, it), s) =>
              let (out', ended) := selectItems n k it sel s
              (out ++ out', ended)

/-- XMLPathSelect.cpp:15-17: the calls that build the automaton. -/
def addressCalls : List (List Path.PElem.Call) :=
  [[.tag (some (ascii "address")), .attribute (some (ascii "name")), .assign 1],
   [.tag (some (ascii "address")), .attribute (some (ascii "street")), .assign 2]]

open Path in
/-- XMLPathSelect.cpp:8-38 `output`, for an automaton built by calls and any scanner. -/
def selectAll {ρ : Type} [Reader ρ] (e : Enc) (calls : List (List PElem.Call)) (nb n k : Nat) (s : Scanner ρ) : List Byte × Ended :=
  match build e nb calls [] with
  | (.stop er, _) => ([], .stopped er)
  | (.ok (), atm) => match Sel.mk' atm with
    | .stop er => ([], .stopped er)
    | .ok sel => match Scanner.iterBegin n true s with
      | (.stop er, _) => ([], .stopped er)
      | (.ok it, s) => selectItems n k it sel s

/-- `std::hex` for an unsigned integer: the digits without leading zeros, letters in lower case. -/
def showHex (n : Nat) : List Byte :=
  let digit := fun d => if d < 10 then 48 + d else 87 + d
  if n < 16 then [digit n] else showHex (n / 16) ++ [digit (n % 16)]

/-- TextScanner.cpp:12-15: the loop, with at most `k` rounds. -/
def showChars {ι : Type} [Iter ι] : Nat → TextScanner ι → (List Byte × Ended) × TextScanner ι
  | 0, t => (([], .stopped .fuel), t)
  | k + 1, t =>
    match TextScanner.chr t with
    | (.stop er, t) => (([], .stopped er), t)
    | (.ok c, t) =>
      if c = 0 then (([], .returned true), t)
      else match TextScanner.chr t with
        | (.stop er, t) => (([], .stopped er), t)
        | (.ok c, t) =>
          let line := showHex c ++ [10]
          match TextScanner.skip t with
          | (.stop er, t) => ((line, .stopped er), t)
          | (.ok (), t) =>
            let ((out, ended), t) := showChars k t
            ((line ++ out, ended), t)

end TW
