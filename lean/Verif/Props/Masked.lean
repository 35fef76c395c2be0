import Verif.Proofs.Masked
import Verif.Props.AcceptItems

/-!
# Property C113: the text and the position of an item that is not asked for
-/

namespace TW

open Spec Mach Scanner

variable {e output : Enc} {em : Option (List (Nat × UChar))} {addr : Nat} {doc : List Byte} {sp : Bool} {calls : List (Nat × Bool)}

/-- The types of items that have a token for text. -/
def tokenTypes : List ElementType :=
  [.HeaderAttribName, .HeaderAttribValue, .DocAttribValue, .TagAttribName, .TagAttribValue, .OpenTag, .CloseTag, .Content]

theorem tokenTypes_kinds : ∀ r ∈ tokenTypes, kindsOf r ≠ [] := by decide

/-- The text and the position of the item before the `i`-th: those of a new scanner before the first one. -/
def ItemBefore (sp : Bool) (os : List Obs) (i : Nat) (text : List Byte) (pos : Option Nat) : Prop :=
  match i with
  | 0 => text = [] ∧ pos = if sp then some 0 else none
  | j + 1 => ∃ o, os[j]? = some o ∧ o.item = text ∧ o.pos = pos

theorem runs_before {os : List (ElementType × Cfg)} (h : Runs e (strm doc) calls (Cfg.new output em addr) os) {i : Nat} {o : Obs} {m : Nat} {c : Bool}
    (ho : (os.map (Mach.obs sp))[i]? = some o) (hm : calls[i]? = some (m, c)) (ht : o.type ∈ tokenTypes) (hn : m.testBit o.type.toNat = false) :
    ItemBefore sp (os.map (Mach.obs sp)) i o.item o.pos := by
  rw [List.getElem?_map] at ho
  cases hy : os[i]? with
  | none => rw [hy] at ho; cases ho
  | some y =>
    rw [hy] at ho
    cases ho
    rcases runs_unasked h (.new _ _ _) i y.1 y.2 m c hy hm (tokenTypes_kinds _ ht) hn with ⟨rfl, h1, h2⟩ | ⟨j, r', B', rfl, h1, h2, h3⟩
    · refine ⟨h1, ?_⟩
      show (if sp then some (y.2.tokenpos % 2 ^ 64) else none) = _
      rw [h2]
      rfl
    · refine ⟨Mach.obs sp (r', B'), ?_, h2.symm, ?_⟩
      · rw [List.getElem?_map, h1]; rfl
      · show (if sp then some (B'.tokenpos % 2 ^ 64) else none) = (if sp then some (y.2.tokenpos % 2 ^ 64) else none)
        rw [h3]

/-- **C113** — An item of a type that is not asked for has the text and the position of the item before it. -/
theorem C113_masked (hb : ∀ b ∈ doc, b < 256) {n : Nat} {os : List Obs} {s1 : Scanner (TextScanner SrcIt)}
    (h : session n sp calls (oneScanner e output em addr doc) = (.ok os, s1)) {i : Nat} {o : Obs} {m : Nat} {c : Bool}
    (ho : os[i]? = some o) (hm : calls[i]? = some (m, c)) (ht : o.type ∈ tokenTypes) (hn : m.testBit o.type.toNat = false) :
    ItemBefore sp os i o.item o.pos := by
  obtain ⟨os', h1, rfl, -⟩ := session_ok (fun _ => oneSrc_wrap) (oneScanner_rel e output em addr doc (strm_lt doc hb)) h
  exact runs_before h1 ho hm ht hn

/-- The same for a document in chunks. -/
theorem C113_chunks {p : List Byte} {ps : List (List Byte)} (hc : doc = p ++ ps.flatten) (hb : ∀ b ∈ doc, b < 256)
    (hwf : e = .utf8 → Continued doc) {fresh : Bool} (hsp : sp = true → fresh = false)
    {n : Nat} {os : List Obs} {s1 : Scanner (TextScanner SrcIt)} (h : sessionFed n fresh sp calls ps (fedScanner e output em addr p ps) = (.ok os, s1))
    {i : Nat} {o : Obs} {m : Nat} {c : Bool}
    (ho : os[i]? = some o) (hm : calls[i]? = some (m, c)) (ht : o.type ∈ tokenTypes) (hn : m.testBit o.type.toNat = false) :
    ItemBefore sp os i o.item o.pos := by
  rcases sessionFed_res hwf hsp (fedRel_new _ _ _ _ (!fresh) hc (strm_lt doc hb)) h with h1 | ⟨os', h1, h2⟩
  · cases h1
  · cases h2
    exact runs_before h1 ho hm ht hn

/-- The values of attributes are not asked for: the value has the name for text. The end of the tag has no token and is not in the list. -/
example : ((session 300 true (List.replicate 4 (2 ^ ElementType.OpenTag.toNat + 2 ^ ElementType.TagAttribName.toNat, false))
    (oneScanner .utf8 .utf8 none 0 (codes "<a b='c'/>"))).1) =
    .ok ([(.OpenTag, "a", 1), (.TagAttribName, "b", 3), (.TagAttribValue, "b", 3), (.CloseTagIm, "", 9)].map
        fun x => ⟨x.1, codes x.2.1, .Ok, some x.2.2⟩) := by
  decide +kernel

/-- Nothing is asked for: the first item has no text and the position 0. -/
example : ((session 300 true [(0, false)] (oneScanner .utf8 .utf8 none 0 (codes "  <a b='c'/>"))).1) = .ok [⟨.OpenTag, [], .Ok, some 0⟩] := by
  decide +kernel

end TW
