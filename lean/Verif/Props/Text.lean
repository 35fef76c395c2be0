import Verif.Proofs.Segs

/-!
# Properties C27, C28, C29, C30: the text of items

The theorems are about a program that reads items of a document in one piece, with any element masks,
in any character set and any entity map. By C24 they also hold for documents that come in chunks. An item with text
is the value of a token of the document, see `TokenAt` for what is known of the place of the token:
it starts at the token position, has no character in it that ends it and is followed by one that does.
-/

namespace TW

open Spec Mach Scanner

variable {e output : Enc} {em : Option (List (Nat × UChar))} {addr : Nat} {doc : List Byte} {o : Obs}

/-! ## C27: line ends -/

/-- A text without ampersands is delivered with CR LF and CR replaced by LF, and all other characters unchanged
(the same bytes, or printed in the output encoding if it is another one). -/
theorem C27_line_ends (hb : ∀ b ∈ doc, b < 256) (h : Delivered e output em addr doc o) :
    ∃ kind p l, o.pos = some (p % 2 ^ 64) ∧ TokenAt e (strm doc) o.type kind p l ∧
      ((∀ c ∈ chars e (strm doc) p l, c.asc ≠ 38) → o.item = lines output ((chars e (strm doc) p l).map
        fun c => if c.asc = 13 then .cr else if c.asc = 10 then .lf else .bytes (c.deliver e output))) := by
  obtain ⟨kind, p, l, h1, h2, -, h3⟩ := delivered_text hb h
  refine ⟨kind, p, l, h1, h2, fun hc => ?_⟩
  rw [h3 ((chars e (strm doc) p l).map .ch) ?_ ?_]
  · unfold value
    rw [List.map_map]
    rfl
  · rw [List.flatMap_map]
    exact List.flatMap_singleton' _
  · generalize chars e (strm doc) p l = us at hc
    clear h3
    induction us with
    | nil => trivial
    | cons u us ih => exact ⟨hc u (List.mem_cons_self ..), ih fun c h => hc c (List.mem_cons_of_mem _ h)⟩

/-- `<a b='x CR y'> CR LF z CR CR LF </a>` -/
def linesExample : List Byte := [60, 97, 32, 98, 61, 39, 120, 13, 121, 39, 62, 13, 10, 122, 13, 13, 10, 60, 47, 97, 62]

theorem linesExample_run : (session 40 true [(0xFFFF, true), (0xFFFF, true), (0xFFFF, true), (0xFFFF, true)]
    (oneScanner .utf8 .utf8 none 0 linesExample)).1 = .ok [⟨.OpenTag, [97], .Ok, some 1⟩,
      ⟨.TagAttribName, [98], .Ok, some 3⟩, ⟨.TagAttribValue, [120, 10, 121], .Ok, some 6⟩,
      ⟨.Content, [10, 122, 10, 10], .Ok, some 11⟩] := by decide +kernel

example : Delivered .utf8 .utf8 none 0 linesExample ⟨.TagAttribValue, [120, 10, 121], .Ok, some 6⟩ :=
  .of 40 2 linesExample_run rfl rfl (by decide) (by decide) (by decide)

example : Delivered .utf8 .utf8 none 0 linesExample ⟨.Content, [10, 122, 10, 10], .Ok, some 11⟩ :=
  .of 40 3 linesExample_run rfl rfl (by decide) (by decide) (by decide)

/-! ## C28: references -/

/-- A reference in a text is delivered as the character it stands for. What is before it and behind it is
delivered as it would be without the reference (`value` of its pieces). -/
theorem C28_references (hb : ∀ b ∈ doc, b < 256) (h : Delivered e output em addr doc o) :
    ∃ kind p l, o.pos = some (p % 2 ^ 64) ∧ TokenAt e (strm doc) o.type kind p l ∧
      ∀ xs cs zs c, chars e (strm doc) p l = xs ++ cs ++ zs → Reference (cs.map Ch.asc) c →
        ∃ ss ts : List Seg, ss.flatMap Seg.text = xs ∧ SegsOk (found em addr) 38 ss ∧ ts.flatMap Seg.text = zs ∧
          SegsOk (found em addr) (uasc e (strm doc) (offs e (strm doc) p l)) ts ∧
          o.item = value e output ss ++ output.print c ++ value e output ts := by
  obtain ⟨kind, p, l, h1, h2, h3, h4⟩ := delivered_text hb h
  refine ⟨kind, p, l, h1, h2, fun xs cs zs c hu hc => ?_⟩
  have hn := ends_next kind h2.stop
  refine value_split hn.1 hn.2 h3 h4 hu ?_ (.ref cs c) _ rfl rfl (fun _ _ _ h => ⟨hc, h⟩)
  generalize List.map Ch.asc cs = as at hc
  cases hc <;> rfl

/-- `<a b='&lt;&#10;'>x&#x20AC;</a>` -/
def refsExample : List Byte := codes "<a b='&lt;&#10;'>x&#x20AC;</a>"

example : (session 40 true [(0xFFFF, true), (0xFFFF, true), (0xFFFF, true), (0xFFFF, true)]
    (oneScanner .utf8 .utf8 none 0 refsExample)).1 = .ok [⟨.OpenTag, [97], .Ok, some 1⟩,
      ⟨.TagAttribName, [98], .Ok, some 3⟩, ⟨.TagAttribValue, [60, 10], .Ok, some 6⟩,
      ⟨.Content, [120, 0xE2, 0x82, 0xAC], .Ok, some 17⟩] := by decide +kernel

/-! ## C29: ampersands that start no reference

Full statement (C29): text with an ampersand that does not start a reference is delivered unchanged.

It is false for malformed hexadecimal references, for numbers that are too large and for numbers without
digits. -/

/-- In `&#x41 ` the `x` is lost. -/
theorem C29_hex_false : (session 40 true [(0xFFFF, true), (0xFFFF, true)]
    (oneScanner .utf8 .utf8 none 0 (codes "<a>&#x41 </a>"))).1 =
      .ok [⟨.OpenTag, [97], .Ok, some 1⟩, ⟨.Content, codes "&#41 ", .Ok, some 3⟩] := by decide +kernel

/-- In `&#4294967296;` the semicolon is delivered twice. -/
theorem C29_large_false : (session 40 true [(0xFFFF, true), (0xFFFF, true)]
    (oneScanner .utf8 .utf8 none 0 (codes "<a>&#4294967296;</a>"))).1 =
      .ok [⟨.OpenTag, [97], .Ok, some 1⟩, ⟨.Content, codes "&#4294967296;;", .Ok, some 3⟩] := by decide +kernel

/-- `&#;` is delivered as a null character. -/
theorem C29_empty_false : (session 40 true [(0xFFFF, true), (0xFFFF, true)]
    (oneScanner .utf8 .utf8 none 0 (codes "<a>&#;</a>"))).1 =
      .ok [⟨.OpenTag, [97], .Ok, some 1⟩, ⟨.Content, [0], .Ok, some 3⟩] := by decide +kernel

/-- The other ampersands that start no reference are delivered unchanged, with the characters of a name or number behind
it. The missing part is `Garbled`. -/
theorem C29_ampersands_partial (hb : ∀ b ∈ doc, b < 256) (h : Delivered e output em addr doc o) :
    ∃ kind p l, o.pos = some (p % 2 ^ 64) ∧ TokenAt e (strm doc) o.type kind p l ∧
      ∀ xs cs zs, chars e (strm doc) p l = xs ++ cs ++ zs →
        Lone (cs.map Ch.asc) ((zs.map Ch.asc).headD (uasc e (strm doc) (offs e (strm doc) p l))) →
        ∃ ss ts : List Seg, ss.flatMap Seg.text = xs ∧ SegsOk (found em addr) 38 ss ∧ ts.flatMap Seg.text = zs ∧
          SegsOk (found em addr) (uasc e (strm doc) (offs e (strm doc) p l)) ts ∧
          o.item = value e output ss ++ (cs.map Ch.asc).flatMap output.print ++ value e output ts := by
  obtain ⟨kind, p, l, h1, h2, h3, h4⟩ := delivered_text hb h
  refine ⟨kind, p, l, h1, h2, fun xs cs zs hu hc => ?_⟩
  have hn := ends_next kind h2.stop
  refine value_split hn.1 hn.2 h3 h4 hu ?_ (.lone cs) _ rfl rfl (fun _ _ h0 h => ⟨?_, h⟩)
  · generalize List.map Ch.asc cs = as at hc
    cases hc <;> rfl
  · rw [h0]; exact hc

example : (session 40 true [(0xFFFF, true), (0xFFFF, true), (0xFFFF, true), (0xFFFF, true)]
    (oneScanner .utf8 .utf8 none 0 (codes "<a b='x & y'>&&#12 &abc&#</a>"))).1 = .ok [⟨.OpenTag, [97], .Ok, some 1⟩,
      ⟨.TagAttribName, [98], .Ok, some 3⟩, ⟨.TagAttribValue, codes "x & y", .Ok, some 6⟩,
      ⟨.Content, codes "&&#12 &abc&#", .Ok, some 13⟩] := by decide +kernel

/-! ## C30: entities of the user

Full statement (C30): a named entity defined in the entity map given to the scanner is replaced by its
character.

It is false. The map is keyed by the pointer to the name and looked up with the address of the buffer of the
scanner. So the characters of the names are never compared. -/

/-- If no key of the map is the address of the buffer, a text with a name that is not predefined is never delivered,
whatever is in the map. -/
theorem C30_user_entities_false (hb : ∀ b ∈ doc, b < 256) (hm : ∀ m, em = some m → ∀ x ∈ m, x.1 ≠ addr)
    (h : Delivered e output em addr doc o) :
    ∃ kind p l, o.pos = some (p % 2 ^ 64) ∧ TokenAt e (strm doc) o.type kind p l ∧
      ∀ ns : List Byte, ns.length ≤ 15 → (∀ a ∈ ns, nameChar a = true) → ns.head? ≠ some 35 →
        ns ∉ entities.map (fun x => codes x.1) → ¬ 38 :: ns ++ [59] <:+: (chars e (strm doc) p l).map Ch.asc := by
  obtain ⟨kind, p, l, h1, h2, h3, -⟩ := delivered_text hb h
  refine ⟨kind, p, l, h1, h2, fun ns n1 n2 n3 n4 hi => ?_⟩
  have hu : found em addr = none := by
    unfold found
    cases em with
    | none => rfl
    | some m =>
      have : (m.find? fun x => x.1 = addr) = none := by
        rw [List.find?_eq_none]
        intro x hx
        simpa using hm m rfl x hx
      show Option.map _ _ = none
      rw [this]
      rfl
  obtain ⟨as, bs, hi⟩ := hi
  rw [List.append_assoc] at hi
  obtain ⟨us, vs, hi, hi1, hi2⟩ := List.map_eq_append_iff.mp hi.symm
  have hv : Undefined (found em addr) vs := ⟨hu, ns, bs, by rw [hi2]; simp, n1, n2, n3, n4⟩
  rcases exists_segs (found em addr) 38 (by decide) (by decide) _ us (Nat.le_refl _) with
    ⟨ss, s1, s2⟩ | ⟨ss, ws, s1, s2, s3⟩
  · exact h3 ss vs (by rw [s1, hi]) s2 hv
  · exact h3 ss (ws ++ vs) (by rw [hi, s1, List.append_assoc]) s2 s3.append

/-- The entity `a` is in the map with its name at the address 1, the buffer is at the address 0. -/
theorem C30_example_false : (session 40 true [(0xFFFF, true), (0xFFFF, true)]
    (oneScanner .utf8 .utf8 (some [(1, 97)]) 0 (codes "<a>&a;</a>"))).1 =
      .ok [⟨.OpenTag, [97], .Ok, some 1⟩, ⟨.ErrorOccurred, [], .ErrUndefinedCharacterEntity, some 3⟩] := by
  decide +kernel

/-- What happens if a key is the address of the buffer: each name that is not predefined is replaced by the
character of this key. So an entity is resolved if it is the only one and its name is in the buffer of the
scanner. -/
theorem C30_user_entities_partial {c : UChar} (hb : ∀ b ∈ doc, b < 256) (hm : found em addr = some c)
    (h : Delivered e output em addr doc o) :
    ∃ kind p l, o.pos = some (p % 2 ^ 64) ∧ TokenAt e (strm doc) o.type kind p l ∧
      ∀ xs cs zs ns, chars e (strm doc) p l = xs ++ cs ++ zs → cs.map Ch.asc = 38 :: ns ++ [59] → ns.length ≤ 15 →
        (∀ a ∈ ns, nameChar a = true) → ns.head? ≠ some 35 → ns ∉ entities.map (fun x => codes x.1) →
        ∃ ss ts : List Seg, ss.flatMap Seg.text = xs ∧ SegsOk (found em addr) 38 ss ∧ ts.flatMap Seg.text = zs ∧
          SegsOk (found em addr) (uasc e (strm doc) (offs e (strm doc) p l)) ts ∧
          o.item = value e output ss ++ output.print c ++ value e output ts := by
  obtain ⟨kind, p, l, h1, h2, h3, h4⟩ := delivered_text hb h
  refine ⟨kind, p, l, h1, h2, fun xs cs zs ns hu hc n1 n2 n3 n4 => ?_⟩
  have hn := ends_next kind h2.stop
  refine value_split hn.1 hn.2 h3 h4 hu (by rw [hc]; rfl) (.odd cs [c]) _ rfl (by simp [Seg.atom])
    (fun _ _ _ h => ⟨?_, h⟩)
  rw [hc]
  exact .user ns c _ n1 n2 n3 n4 hm

example : (session 40 true [(0xFFFF, true), (0xFFFF, true)]
    (oneScanner .utf8 .utf8 (some [(1, 97), (2, 98)]) 2 (codes "<a>x&a;y</a>"))).1 =
      .ok [⟨.OpenTag, [97], .Ok, some 1⟩, ⟨.Content, codes "xby", .Ok, some 3⟩] := by decide +kernel

end TW
