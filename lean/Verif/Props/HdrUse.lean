import Verif.Model.HdrUse
import Verif.Props.HeaderUse

/-!
# Property C101: a header parser can be used again after `clear`
-/

namespace TW

open Spec HdrParser

theorem uses_append (n : Nat) (us vs : List Use) : ∀ s : HdrParser,
    uses n (us ++ vs) s = ((uses n us s).1 ++ (uses n vs (uses n us s).2).1, (uses n vs (uses n us s).2).2) := by
  induction us with
  | nil => intro s; rfl
  | cons u us ih => intro s; simp only [List.cons_append, uses, ih]

/-- C101: whatever was done with a header parser before - whichever data was put, parsed to the end, to an error or to an exception, or not parsed
at all - all calls after `clear` see what they see with a new parser. -/
theorem C101_clear (n : Nat) (us vs : List Use) (s : HdrParser) :
    (uses n (us ++ .clear :: vs) s).1 = (uses n us s).1 ++ .nothing :: (uses n vs new).1 := by
  rw [uses_append]
  rfl

/-- C101: with one parser for several documents each result is the one of a parser of its own. -/
theorem C101_again (n : Nat) (docs : List (List (List Byte))) :
    again n docs new = docs.map fun parts => known (feed n parts new) := by
  induction docs with
  | nil => rfl
  | cons parts docs ih =>
    unfold again
    simp only [List.map_cons]
    rw [← ih]
    rfl

/-- C101: so the encodings of any number of documents are those their scanners deliver (the conditions are those of C92), each document
given in any chunks and in an encoding of its own, also with files in between that are no documents. -/
theorem C101_documents (n : Nat) (docs : List (Option (Enc × Document) × List (List Byte)))
    (h : ∀ x ∈ docs, x.2.flatten.length < n ∧ ∀ de d, x.1 = some (de, d) → PageOk de ∧ d.Ok de ∧ d.Plain ∧ x.2.flatten = d.bytes de) :
    ∀ (i : Nat) (de : Enc) (d : Document) (parts : List (List Byte)), docs[i]? = some (some (de, d), parts) →
      ∃ r, (again n (docs.map (·.2)) new)[i]? = some r ∧ r.outcome = .ok .done ∧ r.encoding = declared d.items ∧ r.error = none := by
  intro i de d parts hi
  obtain ⟨h1, h2⟩ := h _ (List.mem_of_getElem? hi)
  obtain ⟨h3, h4, h5, h6⟩ := h2 de d rfl
  obtain ⟨g1, g2, g3, -⟩ := C92_header_partial (e := .utf8) h3 h4 h5 h6 h1
  refine ⟨known (feed n parts new), ?_, g1, g3, g2⟩
  rw [C101_again, List.map_map, List.getElem?_map, hi]
  rfl

/-- A parser that got an error, then an exception, and then a document. -/
example : again 60 [[[97]], [[60, 0, 0], [0, 0]], [codes "<?xml enco", codes "ding='A'?>"]] new =
    [⟨.ok .failed, none, some "expected open tag angle bracket '>'", 1, [97]⟩, ⟨.stop (.throw .IllegalXmlHeader), none, none, 1, [60, 0, 0, 0, 0]⟩,
     ⟨.ok .done, some [65], none, 18, codes "<?xml encoding='A'?>"⟩] := by decide +kernel

end TW
