import Verif.Proofs.Chunks

/-!
# Property C24: the scanner is chunk independent

Full statement (C24): a program that reads items from a source fed with chunks sees the
same as one that gets the document in one piece, for every document and every partition.

This is false for UTF-8 documents with a truncated sequence (`C24_chunks_false`): in a
comment the scanner skips a character whose bytes are not all in the chunk, and the bytes
skipped beyond the end of the chunk are forgotten when the next chunk comes. It holds for
all documents in the other character sets and for UTF-8 documents where each lead byte is
followed by its continuation bytes.
-/

namespace TW

open Spec Mach

variable (e output : Enc) (em : Option (List (Nat × UChar))) (addr : Nat)

/-- A session on the document in one piece yields the observations `obs` exactly if the
session on the chunks does, whether the chunks are given with `setSource` (then positions
are not compared) or with `putInput`. -/
theorem C24_chunks_partial (fresh : Bool) (c : List Byte) (cs : List (List Byte))
    (hb : ∀ b ∈ c ++ cs.flatten, b < 256) (hwf : e = .utf8 → Continued (c ++ cs.flatten))
    (calls : List (Nat × Bool)) (obs : List Obs) :
    (∃ N, ∀ n, N ≤ n → ∃ s, Scanner.session n (!fresh) calls
      (oneScanner e output em addr (c ++ cs.flatten)) = (.ok obs, s)) ↔
    (∃ N, ∀ n, N ≤ n → ∃ s, Scanner.sessionFed n fresh (!fresh) calls cs
      (fedScanner e output em addr c cs) = (.ok obs, s)) := by
  have hbs := strm_lt _ hb
  have h1 : FedRel (c ++ cs.flatten) hbs e true [] (oneScanner e output em addr (c ++ cs.flatten))
      (Cfg.new output em addr) := by
    have := fedRel_new e output em addr (doc := c ++ cs.flatten) (c := c ++ cs.flatten) (cs := []) true
      (by simp) hbs
    exact this
  have h2 := fedRel_new e output em addr (!fresh) rfl hbs
  obtain ⟨pre, chunk, hd, h1⟩ := h1
  constructor
  · rintro ⟨N, h⟩
    obtain ⟨s, h⟩ := h N (Nat.le_refl _)
    obtain ⟨os, h3, rfl, -⟩ := session_ok (fun _ => rfl) h1 h
    obtain ⟨N', h4⟩ := sessionFed_runs (hb := hbs) (sp := !fresh) (fresh := fresh) hwf
      (by cases fresh <;> simp) cs.length h3
    exact ⟨N', fun n hn => h4 n hn cs _ (Nat.le_refl _) h2⟩
  · rintro ⟨N, h⟩
    obtain ⟨s, h⟩ := h N (Nat.le_refl _)
    rcases sessionFed_res (hb := hbs) hwf (by cases fresh <;> simp) h2 h with h3 | ⟨os, h3, h4⟩
    · cases h3
    · cases h4
      obtain ⟨N', h4⟩ := session_runs (S := chunkSrc _ hbs true pre chunk [] hd) (sp := !fresh)
        (chunkSrc_total hd) (fun _ => rfl) h3
      exact ⟨N', fun n hn => h4 n hn _ h1⟩

/-- The chunked session is never left with an end of message signal, undefined behaviour or
an exception: it yields observations or runs out of fuel. -/
theorem C24_chunks_safe_partial (fresh : Bool) (c : List Byte) (cs : List (List Byte))
    (hb : ∀ b ∈ c ++ cs.flatten, b < 256) (hwf : e = .utf8 → Continued (c ++ cs.flatten))
    (calls : List (Nat × Bool)) (n : Nat) (er : Stop) (s : Scanner (TextScanner SrcIt))
    (h : Scanner.sessionFed n fresh (!fresh) calls cs (fedScanner e output em addr c cs) = (.stop er, s)) :
    er = .fuel := by
  have h2 := fedRel_new e output em addr (!fresh) rfl (strm_lt _ hb)
  rcases sessionFed_res hwf (by cases fresh <;> simp) h2 h with h3 | ⟨os, h3, h4⟩
  · cases h3; rfl
  · cases h4

/-- `<a>`, `é` cut in two, `</a>` in chunks that cut tokens and characters. -/
def chunksExample : List Byte × List (List Byte) := ([60], [[97, 62, 0xC3], [0xA9], [60, 47], [97, 62]])

example : Continued (chunksExample.1 ++ chunksExample.2.flatten) := by
  have key : ∀ k : Fin 16, ∀ i : Fin 8, 0xC0 ≤ strm (chunksExample.1 ++ chunksExample.2.flatten) k →
      1 ≤ i.1 → i < utf8Len (strm (chunksExample.1 ++ chunksExample.2.flatten) k) →
      0x80 ≤ strm (chunksExample.1 ++ chunksExample.2.flatten) (k + i) ∧
      strm (chunksExample.1 ++ chunksExample.2.flatten) (k + i) < 0xC0 := by decide +kernel
  intro k i h1 h2 h3
  have hk : k < 16 := by
    apply Decidable.byContradiction
    intro hk
    have : strm (chunksExample.1 ++ chunksExample.2.flatten) k = 0 := by
      simp only [strm, List.getD_eq_getElem?_getD]
      rw [List.getElem?_eq_none (by simp [chunksExample]; omega)]
      rfl
    omega
  have hi := utf8Len_le (strm (chunksExample.1 ++ chunksExample.2.flatten) k)
  exact key ⟨k, hk⟩ ⟨i, by omega⟩ h1 h2 h3

example : (Scanner.sessionFed 20 false true [(0xFFFF, true), (0xFFFF, true), (0xFFFF, true)]
    chunksExample.2 (fedScanner .utf8 .utf8 none 0 chunksExample.1 chunksExample.2)).1
    = .ok [{ type := .OpenTag, item := [97], error := .Ok, pos := some 1 },
           { type := .Content, item := [0xC3, 0xA9], error := .Ok, pos := some 3 },
           { type := .CloseTag, item := [97], error := .Ok, pos := some 7 }] := by decide +kernel

/-- The document `<!--\xE2--> x-->` in one piece and cut after `\xE2`: in one piece the
broken UTF-8 sequence hides `--` and the comment ends at the second `-->`; in chunks it
ends at the first. -/
theorem C24_chunks_false : ∃ c cs obs obs' n, (∀ b ∈ c ++ List.flatten cs, b < 256) ∧
    (Scanner.session n true [(0xFFFF, true)]
      (oneScanner .utf8 .utf8 none 0 (c ++ cs.flatten))).1 = .ok obs ∧
    (Scanner.sessionFed n false true [(0xFFFF, true)] cs
      (fedScanner .utf8 .utf8 none 0 c cs)).1 = .ok obs' ∧ obs ≠ obs' := by
  refine ⟨[60, 33, 45, 45, 0xE2], [[45, 45, 62, 32, 120, 45, 45, 62]],
    [{ type := .Exit, item := [], error := .Ok, pos := some 14 }],
    [{ type := .Content, item := [120, 45, 45, 62], error := .Ok, pos := some 9 }], 30, ?_, ?_, ?_, ?_⟩
  all_goals decide +kernel

end TW
