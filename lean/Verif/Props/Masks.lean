import Verif.Proofs.Masks

/-!
# Property C31: element masks do not change the token structure

The masks given to `nextItem` decide which items are parsed (with their content) and which ones are skipped.
The theorems compare two programs that read the same document with different masks. A call is given by the mask of
the first program, the mask of the second program and whether both call `getError` afterwards.
-/

namespace TW

open Spec Mach Scanner

variable {e output : Enc} {em : Option (List (Nat × UChar))} {addr : Nat} {doc : List Byte}

/-- The calls of the first program. -/
def callsFst (cs : List (Nat × Nat × Bool)) : List (Nat × Bool) := cs.map fun c => (c.1, c.2.2)

/-- The calls of the second program. -/
def callsSnd (cs : List (Nat × Nat × Bool)) : List (Nat × Bool) := cs.map fun c => (c.2.1, c.2.2)

/-- The item is the report of an undefined entity. -/
def Obs.undefined (o : Obs) : Prop := o.type = .ErrorOccurred ∧ o.error = .ErrUndefinedCharacterEntity

/-- With any other masks the items have the same types, the same errors are reported, and the input position is
the same afterwards, up to the first item that is suppressed by the
first program and not by the second one and has an undefined entity in it: this is an error for the second program. -/
theorem C31_masks (hb : ∀ b ∈ doc, b < 256) {cs : List (Nat × Nat × Bool)} {n : Nat} {os1 : List Obs}
    {s1 : Scanner (TextScanner SrcIt)}
    (h : session n true (callsFst cs) (oneScanner e output em addr doc) = (.ok os1, s1))
    (hu : ∀ o ∈ os1, ¬ o.undefined) :
    ∃ N, ∀ n', N ≤ n' →
      (∃ os2 s2, session n' true (callsSnd cs) (oneScanner e output em addr doc) = (.ok os2, s2) ∧
        os2.map Obs.type = os1.map Obs.type ∧ os2.map Obs.error = os1.map Obs.error ∧
        s2.src.getPosition = s1.src.getPosition) ∨
      ∃ cs1 c cs2 os2 o s2, cs = cs1 ++ c :: cs2 ∧
        session n' true (callsSnd (cs1 ++ [c])) (oneScanner e output em addr doc) = (.ok (os2 ++ [o]), s2) ∧
        os2.map Obs.type = (os1.map Obs.type).take cs1.length ∧
        os2.map Obs.error = (os1.map Obs.error).take cs1.length ∧
        o.undefined ∧ ∃ t, c.2.1.testBit t = true ∧ c.1.testBit t = false := by
  have hr := oneScanner_rel (e := e) (output := output) (em := em) (addr := addr) doc (strm_lt doc hb)
  obtain ⟨os, h1, rfl, h2⟩ := session_last (fun _ => oneSrc_wrap) hr h
  have ht : ∀ l : List (ElementType × Cfg), (l.map (Mach.obs true)).map Obs.type = l.map (·.1) := fun l => by
    rw [List.map_map]; rfl
  have he : ∀ l : List (ElementType × Cfg), (l.map (Mach.obs true)).map Obs.error = l.map (·.2.error) := fun l => by
    rw [List.map_map]; rfl
  rcases mask_runs (strm_ends doc) h1 (.refl _) (.new ..) (.new ..) (fun _ _ _ => rfl)
    (fun x hx hx' => hu (Mach.obs true x) (List.mem_map_of_mem hx) hx') with
    ⟨os2, j1, j2, j3, j4⟩ | ⟨cs1, c, cs2, os2, C, rfl, j1, j2, j3, j4, j5⟩
  · obtain ⟨N, hN⟩ := session_to oneSrc_total (fun _ => oneSrc_wrap) j1
    refine ⟨N, fun n' hn => .inl ?_⟩
    obtain ⟨s', g1, g2⟩ := hN n' hn _ hr
    refine ⟨_, s', g1, ?_, ?_, ?_⟩
    · rw [ht, ht, j2]
    · rw [he, he, j3]
    · rw [g2.position oneSrc_wrap, h2.position oneSrc_wrap, j4.src]; rfl
  · obtain ⟨N, hN⟩ := session_to oneSrc_total (fun _ => oneSrc_wrap) j1
    refine ⟨N, fun n' hn => .inr ?_⟩
    obtain ⟨s', g1, g2⟩ := hN n' hn _ hr
    rw [List.map_append] at g1
    refine ⟨cs1, c, cs2, _, _, s', rfl, g1, ?_, ?_, ⟨rfl, j4⟩, j5⟩
    · rw [ht, ht, j2]
    · rw [he, he, j3]

/-- With more items suppressed the items have the same types, the same errors are reported, and the input position is
the same afterwards (after each of the calls, as the theorem also holds for the first calls), unless the entity
table lacks an entity. -/
theorem C31_suppressed (hb : ∀ b ∈ doc, b < 256) {cs : List (Nat × Nat × Bool)}
    (hm : ∀ c ∈ cs, ∀ t, c.2.1.testBit t = true → c.1.testBit t = true) {n : Nat} {os1 : List Obs}
    {s1 : Scanner (TextScanner SrcIt)}
    (h : session n true (callsFst cs) (oneScanner e output em addr doc) = (.ok os1, s1))
    (hu : ∀ o ∈ os1, ¬ o.undefined) :
    ∃ N, ∀ n', N ≤ n' → ∃ os2 s2,
      session n' true (callsSnd cs) (oneScanner e output em addr doc) = (.ok os2, s2) ∧
      os2.map Obs.type = os1.map Obs.type ∧ os2.map Obs.error = os1.map Obs.error ∧
      s2.src.getPosition = s1.src.getPosition := by
  obtain ⟨N, hN⟩ := C31_masks hb h hu
  refine ⟨N, fun n' hn => ?_⟩
  rcases hN n' hn with h | ⟨cs1, c, cs2, os2, o, s2, rfl, -, -, -, -, t, h1, h2⟩
  · exact h
  · rw [hm c (by simp) t h1] at h2
    cases h2

/-- `<a b='x'>y&lt;z</a>` with all items and with none -/
def masksExample : List Byte := codes "<a b='x'>y&lt;z</a>"

example : (session 40 true (callsFst [(0xFFFF, 0, true), (0xFFFF, 0, true), (0xFFFF, 0, true), (0xFFFF, 0, true)])
    (oneScanner .utf8 .utf8 none 0 masksExample)).1 = .ok [⟨.OpenTag, [97], .Ok, some 1⟩,
      ⟨.TagAttribName, [98], .Ok, some 3⟩, ⟨.TagAttribValue, [120], .Ok, some 6⟩,
      ⟨.Content, [121, 60, 122], .Ok, some 9⟩] := by decide +kernel

example : (session 40 true (callsSnd [(0xFFFF, 0, true), (0xFFFF, 0, true), (0xFFFF, 0, true), (0xFFFF, 0, true)])
    (oneScanner .utf8 .utf8 none 0 masksExample)).1 = .ok [⟨.OpenTag, [], .Ok, some 0⟩,
      ⟨.TagAttribName, [], .Ok, some 0⟩, ⟨.TagAttribValue, [], .Ok, some 0⟩,
      ⟨.Content, [], .Ok, some 0⟩] := by decide +kernel

/-- `<a>&x;</a>`: the entity `x` is an error only if the content is not suppressed. -/
theorem C31_entity_differs :
    (session 40 true [(0, true), (0, true), (0, true)] (oneScanner .utf8 .utf8 none 0 (codes "<a>&x;</a>"))).1 =
      .ok [⟨.OpenTag, [], .Ok, some 0⟩, ⟨.Content, [], .Ok, some 0⟩, ⟨.CloseTag, [], .Ok, some 0⟩] ∧
    (session 40 true [(0xFFFF, true), (0xFFFF, true), (0xFFFF, true)]
      (oneScanner .utf8 .utf8 none 0 (codes "<a>&x;</a>"))).1 =
      .ok [⟨.OpenTag, [97], .Ok, some 1⟩, ⟨.ErrorOccurred, [], .ErrUndefinedCharacterEntity, some 3⟩,
        ⟨.Content, [59], .Ok, some 5⟩] := by
  constructor <;> decide +kernel

end TW
