import Verif.Proofs.Copies

/-!
# Property C33: copies of the scanner

The copy constructor (xmlscanner.hpp:1019) does not copy the token state and the output character set. All constructors
create the output character set with its default constructor, so a code page of the output is always 1.
-/

namespace TW

open Spec Mach Scanner

variable {e output : Enc} {em : Option (List (Nat × UChar))} {addr : Nat} {doc : List Byte}

/-- A program reads a document with some calls, none or one that ended with an item and not with an error, and
then makes a copy of the scanner, at the address `a`. With any further calls the copy sees the same items and is at the
same position as the original. Missing: entity maps that have an entry for one of the addresses and not the same for the other,
for these it is false. -/
theorem C33_copy_partial (hb : ∀ b ∈ doc, b < 256) (hp : ∀ p, output = .isolatin p → p = 1)
    {n a : Nat} {sp : Bool} {calls : List (Nat × Bool)} {obs : List Obs} {s : Scanner (TextScanner SrcIt)}
    (h : session n sp calls (oneScanner e output em addr doc) = (.ok obs, s))
    (hl : ∀ o, obs.getLast? = some o → o.type ≠ .ErrorOccurred) (hm : found em a = found em addr)
    (more : List (Nat × Bool)) (os : List Obs) (pos : Nat) :
    (∃ n' t, session n' true more s = (.ok os, t) ∧ t.src.getPosition = pos) ↔
    (∃ n' t, session n' true more (s.copy a) = (.ok os, t) ∧ t.src.getPosition = pos) := by
  have hr := oneScanner_rel e output em addr doc (strm_lt doc hb)
  obtain ⟨xs, h1, rfl, h2⟩ := session_last (fun _ => oneSrc_wrap) hr h
  have hx : ∀ x, xs.getLast? = some x → x.1 ≠ .ErrorOccurred := by
    intro x hx
    exact hl (Mach.obs sp x) (by rw [List.getLast?_map, hx]; rfl)
  obtain ⟨k1, k2, k3, k4, k5⟩ := runs_unused (e := e) (f := strm doc) (A := Cfg.new output em addr)
    (fun h => absurd rfl h) (.new ..) h1 (fun _ => rfl) hx
  generalize last (Cfg.new output em addr) calls xs = A at h2 k1 k2 k3 k4 k5
  have hc : SRel0 (oneSrc doc (strm_lt doc hb)) e (s.copy a) (copied' a A) := by
    refine h2.copy ?_ a
    rw [k5]
    exact hp
  have ht : Twin A (copied' a A) := by
    refine .copy k2 k1 ?_
    rw [k3, k4]
    exact hm
  have key : ∀ {X Y : Cfg} {t u : Scanner (TextScanner SrcIt)}, Twin X Y → Inv0 X →
      SRel0 (oneSrc doc (strm_lt doc hb)) e t X → SRel0 (oneSrc doc (strm_lt doc hb)) e u Y →
      (∃ n' t', session n' true more t = (.ok os, t') ∧ t'.src.getPosition = pos) →
      (∃ n' t', session n' true more u = (.ok os, t') ∧ t'.src.getPosition = pos) := by
    rintro X Y t u hT hi ht hu ⟨n', t', g1, g2⟩
    obtain ⟨ys, j1, rfl, j2⟩ := session_last (fun _ => oneSrc_wrap) ht g1
    obtain ⟨zs, j3, j4, j5⟩ := hT.runs hi j1
    obtain ⟨N, hN⟩ := session_to oneSrc_total (fun _ => oneSrc_wrap) j3
    obtain ⟨u', g3, g4⟩ := hN N (Nat.le_refl _) u hu
    refine ⟨N, u', by rw [g3, j4], ?_⟩
    rw [g4.position oneSrc_wrap, ← g2, j2.position oneSrc_wrap, j5.eq]
  exact ⟨key ht k2 h2 hc, key ht.symm hc.inv hc h2⟩

/-- `<a b='x&lt;y'>z&#65;</a>`, copied behind the name of the attribute -/
def copyExample : List Byte := codes "<a b='x&lt;y'>z&#65;</a>"

/-- What a copy, made after `before` at the address `a`, sees with the calls `more`. -/
def copySees (em : Option (List (Nat × UChar))) (addr a : Nat) (doc : List Byte) (before more : List (Nat × Bool)) :
    Option (List Obs) :=
  match session 40 true before (oneScanner .utf8 .utf8 em addr doc) with
  | (.ok _, s) => match session 40 true more (s.copy a) with
    | (.ok os, _) => some os
    | _ => none
  | _ => none

example : ∀ o, ([⟨.OpenTag, [97], .Ok, some 1⟩, ⟨.TagAttribName, [98], .Ok, some 3⟩] : List Obs).getLast? = some o →
    o.type ≠ .ErrorOccurred := by decide

example : copySees none 0 7 copyExample [(0xFFFF, true), (0xFFFF, true)] [(0xFFFF, true), (0xFFFF, true)] =
    some [⟨.TagAttribValue, [120, 60, 121], .Ok, some 6⟩, ⟨.Content, [122, 65], .Ok, some 14⟩] := by decide +kernel

/-- The map has an entry for the buffer of the copy, and not for the one of the original: the entity is defined
for the copy only. -/
theorem C33_entity_map_false :
    (session 40 true [(0xFFFF, true), (0xFFFF, true)] (oneScanner .utf8 .utf8 (some [(7, 65)]) 0 (codes "<a>&x;</a>"))).1 =
      .ok [⟨.OpenTag, [97], .Ok, some 1⟩, ⟨.ErrorOccurred, [], .ErrUndefinedCharacterEntity, some 3⟩] ∧
    copySees (some [(7, 65)]) 0 7 (codes "<a>&x;</a>") [(0xFFFF, true)] [(0xFFFF, true)] =
      some [⟨.Content, [65], .Ok, some 3⟩] := by
  constructor <;> decide +kernel

/-- A copy made after an error in the key word of a header: the original has the key word behind it, the
copy reads it again. -/
theorem C33_after_error :
    (session 40 true [(0xFFFF, true), (0xFFFF, true)] (oneScanner .utf8 .utf8 none 0 (codes "<?xm a='b'?>"))).1 =
      .ok [⟨.ErrorOccurred, [], .ErrSyntaxToken, some 0⟩, ⟨.HeaderStart, [], .Ok, some 0⟩] ∧
    copySees none 0 7 (codes "<?xm a='b'?>") [(0xFFFF, true)] [(0xFFFF, true)] =
      some [⟨.ErrorOccurred, [], .ErrSyntaxToken, some 0⟩] := by
  constructor <;> decide +kernel

end TW
