import Verif.Proofs.Copy
import Verif.Props.RoundTrip

/-!
# Property C102: a document read and printed again
-/

namespace TW

open Spec Mach Scanner

/-- C102: what a printer printed for a document tree, read by a scanner with the output encoding `new` and printed again, item by item, by
the program `copyDocument` with a printer for this encoding, gives the same bytes again. The limits: all characters of the texts
must be in the encoding `new`, and the encoding must be based on ASCII if there is a header or a document type (C60). -/
theorem C102_copy {app out new : Enc} {em : Option (List (Nat × UChar))} {addr : Nat} (mem mem' : Nat → Byte) (ho : PageOk out) (hw : PageOk new)
    {t : Tree} (ht : t.Ok app out) (ha : t.header.isSome ∨ t.doctype.isSome → AsciiBased new)
    (hc : ∀ i ∈ t.items app, StringOk (i.2.flatMap new.print) ∧ ∀ c ∈ i.2, Direct new c)
    {limit limit' : Nat} (hn : 2 * nameNeed t.calls ≤ limit) (hl : limit < 2 ^ 63)
    (hn' : 2 * nameNeed (copyDocument ((t.items app).map fun i => (i.1, i.2.flatMap new.print))) ≤ limit') (hl' : limit' < 2 ^ 63)
    {reads : List (Nat × Bool)} (hr : reads.length = (t.items app).length)
    (hm : ∀ x ∈ reads, ∀ i : ElementType, x.1.testBit i.toNat = true) :
    ∃ p N, Printer.calls limit t.calls (Printer.new mem app out t.header.isNone) = (.ok (List.replicate t.calls.length true), p) ∧
      ∀ n, N ≤ n → ∃ rs s p', session n false reads (oneScanner out new em addr p.buf) = (.ok rs, s) ∧
        Printer.calls limit' (copyDocument (rs.map fun r => (r.type, r.item))) (Printer.new mem' new out t.header.isNone) =
          (.ok (List.replicate (copyDocument (rs.map fun r => (r.type, r.item))).length true), p') ∧
        p'.buf = p.buf := by
  obtain ⟨p, h1, h2⟩ := C38_lifo mem app out t.header.isNone t.calls limit (tree_strings ht) hn hl
  have hd := tree_does ht
  unfold Does at hd
  rw [hd] at h1 h2
  obtain ⟨p₂, N, h3, h4⟩ := C32_roundtrip_partial (output := new) (em := em) (addr := addr) mem ho ht hn hl hr hm
  have hp : p₂ = p := by
    rw [h1] at h3
    exact (Prod.mk.inj h3).2.symm
  rw [hp] at h4
  obtain ⟨k1, k2⟩ := tree_copied hw ht ha hc
  have hcall : copyDocument ((t.items app).map fun i => (i.1, i.2.flatMap new.print)) = (t.copied app new).calls := copy_calls t
  have hh : (t.copied app new).header.isNone = t.header.isNone := by
    obtain ⟨h, dt, n, as, ks⟩ := t
    cases h <;> rfl
  rw [hcall] at hn'
  obtain ⟨p', g1, g2⟩ := C38_lifo mem' new out t.header.isNone (t.copied app new).calls limit' (tree_strings k1) hn' hl'
  have hd' := tree_does k1
  unfold Does at hd'
  rw [hh] at hd'
  rw [hd'] at g1 g2
  refine ⟨p, N, h1, fun n hn => ?_⟩
  obtain ⟨s, h5⟩ := h4 n hn
  refine ⟨_, s, p', h5, ?_, ?_⟩
  · rw [List.map_map]
    change Printer.calls limit' (copyDocument ((t.items app).map fun i => (i.1, i.2.flatMap new.print))) _ =
      (.ok (List.replicate (copyDocument ((t.items app).map fun i => (i.1, i.2.flatMap new.print))).length true), p')
    rw [hcall]
    exact g1
  · rw [h2, g2]
    exact congrArg (·.flatMap out.print) k2

/-- The document of the example of C32, read in ISO 8859-1 and printed again in Latin/Cyrillic. -/
example : ∃ p N, Printer.calls 1000 treeExample.calls (Printer.new (fun _ => 0) .utf8 (.isolatin 5) false) =
      (.ok (List.replicate treeExample.calls.length true), p) ∧
    ∀ n, N ≤ n → ∃ rs s p', session n false (List.replicate 23 (0xFFFFF, true)) (oneScanner (.isolatin 5) (.isolatin 1) none 0 p.buf) = (.ok rs, s) ∧
      Printer.calls 1000 (copyDocument (rs.map fun r => (r.type, r.item))) (Printer.new (fun _ => 1) (.isolatin 1) (.isolatin 5) false) =
        (.ok (List.replicate (copyDocument (rs.map fun r => (r.type, r.item))).length true), p') ∧ p'.buf = p.buf :=
  C102_copy (out := .isolatin 5) (new := .isolatin 1) _ _ (fun p h => by cases h; decide) (fun p h => by cases h; decide) treeExample_ok
    (fun _ => trivial)
    (by
      rw [treeExample_items]
      intro i hi
      have h : ∀ i ∈ treeExample.items .utf8, ((∀ b ∈ i.2.flatMap (Enc.isolatin 1).print, b < 256) ∧
          (i.2.flatMap (Enc.isolatin 1).print).length + 16 ≤ 2 ^ 32) ∧ ∀ c ∈ i.2, (Enc.isolatinPrint 1 c).length = 1 := by decide +kernel
      exact h i (treeExample_items ▸ hi))
    (by decide) (by decide) (by rw [treeExample_items]; decide +kernel) (by decide)
    (by rw [treeExample_items]; rfl) (by
      intro x hx t
      rw [(List.mem_replicate.1 hx).2]
      cases t <;> decide)

end TW
