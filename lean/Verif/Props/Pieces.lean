import Verif.Proofs.Pieces
import Verif.Props.AnySource

/-!
# Property C99: the output character set has no influence but on the texts

The texts of the items of any document, well formed or not, are sequences of parts that are the same for all output character sets:
characters of the document, in their order and from the position of the item on, and codes.
-/

namespace TW

open Spec Mach Scanner

variable {e output : Enc} {em : Option (List (Nat × UChar))} {addr : Nat} {doc : List Byte} {calls : List (Nat × Bool)}

/-- C99: types, errors and positions are the same for all output character sets, and the texts are the same parts written in the
output character set. -/
theorem C99_output (hb : ∀ b ∈ doc, b < 256) {n' : Nat} {os : List Obs} {s1 : Scanner (TextScanner SrcIt)}
    (h : session n' true calls (oneScanner e output em addr doc) = (.ok os, s1)) :
    ∃ pss : List (List Part), pss.length = os.length ∧
      (∀ x ∈ os.zip pss, ∃ p, x.1.pos = some p ∧ InOrder e (strm doc) p (offsets x.2)) ∧
      ∀ out, ∃ N, ∀ n, N ≤ n → ∃ s, session n true calls (oneScanner e out em addr doc) =
        (.ok ((os.zip pss).map fun x => { x.1 with item := pieced e (strm doc) out x.2 }), s) := by
  obtain ⟨os', h1, rfl, -⟩ := session_ok (fun _ => oneSrc_wrap) (oneScanner_rel e output em addr doc (strm_lt doc hb)) h
  obtain ⟨pss, h2, h3, h4⟩ := runs_as h1 [] ⟨⟨.nil, (fun _ h => nomatch h)⟩, (fun _ h => nomatch h), ⟨0, rfl⟩, Nat.le_refl _⟩
  refine ⟨pss, by rw [h2, List.length_map], fun x hx => ?_, fun out => ?_⟩
  · rw [List.zip_map_left] at hx
    obtain ⟨y, hy, rfl⟩ := List.mem_map.1 hx
    exact ⟨_, rfl, (h4 y hy).order.1, fun k hk => ⟨Nat.le_trans (Nat.mod_le _ _) ((h4 y hy).order.2 k hk).1, ((h4 y hy).order.2 k hk).2⟩⟩
  · obtain ⟨N, hN⟩ := session_runs (S := oneSrc doc (strm_lt doc hb)) (sp := true) oneSrc_total (fun _ => oneSrc_wrap) (h3 out)
    refine ⟨N, fun n hn => ?_⟩
    obtain ⟨s, hs⟩ := hN n hn _ (oneScanner_rel e out em addr doc (strm_lt doc hb))
    refine ⟨s, hs.trans ?_⟩
    rw [List.zip_map_left, List.map_map, List.map_map]
    rfl

/-- C99, for output character sets other than that of the document: the texts are the same codes. -/
theorem C99_codes (hb : ∀ b ∈ doc, b < 256) {n' : Nat} {os : List Obs} {s1 : Scanner (TextScanner SrcIt)}
    (h : session n' true calls (oneScanner e output em addr doc) = (.ok os, s1)) :
    ∃ css : List (List UChar), css.length = os.length ∧
      ∀ out, out ≠ e → ∃ N, ∀ n, N ≤ n → ∃ s, session n true calls (oneScanner e out em addr doc) =
        (.ok ((os.zip css).map fun x => { x.1 with item := x.2.flatMap out.print }), s) := by
  obtain ⟨pss, h1, -, h2⟩ := C99_output hb h
  refine ⟨pss.map fun ps => ps.map fun p => match p with
    | .char k => uval e (strm doc) k
    | .code c => c, by rw [List.length_map, h1], fun out ho => ?_⟩
  obtain ⟨N, h3⟩ := h2 out
  refine ⟨N, fun n hn => ?_⟩
  obtain ⟨s, h4⟩ := h3 n hn
  refine ⟨s, h4.trans ?_⟩
  rw [List.zip_map_right, List.map_map]
  congr 3
  funext x
  simp only [Function.comp, Prod.map]
  congr 1
  unfold pieced
  rw [List.flatMap_map]
  congr 1
  funext p
  cases p with
  | char k => exact if_neg fun h => ho h.symm
  | code c => rfl

/-! ## Examples -/

/-- A document with a line end, a character of two bytes, references and an overlong character. -/
def partsExample : List Byte := codes "<a>" ++ [13, 10, 98, 0xC3, 0xA9] ++ codes "&lt;&#x;" ++ [0xC0, 0xAF] ++ codes "</a>"

/-- The conditions, and the texts in two output character sets: bytes of the document are kept only in its own character set.
The reference without digits stands for the code 0, which ISO Latin prints as such a reference. -/
example : (session 100 true [(0xFFFF, false), (0xFFFF, false), (0xFFFF, false)] (oneScanner .utf8 .utf8 none 0 partsExample)).1 =
      .ok [⟨.OpenTag, codes "a", .Ok, some 1⟩, ⟨.Content, [10, 98, 0xC3, 0xA9, 60, 0, 0xC0, 0xAF], .Ok, some 3⟩,
        ⟨.CloseTag, codes "a", .Ok, some 20⟩] ∧
    (session 100 true [(0xFFFF, false), (0xFFFF, false), (0xFFFF, false)] (oneScanner .utf8 (.isolatin 1) none 0 partsExample)).1 =
      .ok [⟨.OpenTag, codes "a", .Ok, some 1⟩, ⟨.Content, [10, 98, 0xE9] ++ codes "<&#x;/", .Ok, some 3⟩,
        ⟨.CloseTag, codes "a", .Ok, some 20⟩] := by
  decide +kernel

end TW
