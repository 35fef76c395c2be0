import Verif.Props.Charsets

/-!
# Properties of the text scanner (C07, C10, C11)

`callOut e f k c` is the specified result of the call `c` for the character that
starts at byte offset `k` of the stream `f`; `offs e f 0 n` is the offset of the
character number `n`.
-/

namespace TW

open Spec

/-- C07. For any input bytes, any character set and any history of calls of `chr()`,
`ascii()`, `control()`, `skip()`, the result of each call is determined by the input
and the number of `skip()` calls before it; the calls always return. -/
theorem C07_lookahead (e : Enc) (src : List Byte) (hb : ∀ b ∈ src, b < 256) (cs : List TCall)
    (hq : ∀ c ∈ cs, c = .chr ∨ c = .ascii ∨ c = .control ∨ c = .skip) :
    ∃ outs t, TextScanner.calls cs (scanOf e src) = (.ok outs, t) ∧
      ∀ i : Nat, outs[i]? =
        cs[i]?.map (callOut e (cyc src) (offs e (cyc src) 0 ((cs.take i).count .skip))) := by
  obtain ⟨t, ht⟩ := calls_init (S := cstrSource src hb) (fun _ => ⟨trivial, trivial⟩) e
    (CStr.mk' src) trivial 0 (cstrSource_start src hb) cs
    (posOk_of_not_mem _ _ cs (fun h => by simpa using hq _ h) _)
    (fun _ => examined_of_queries cs (fun o h => by simpa using hq _ h) _)
  exact ⟨_, t, ht, fun i => callsOut_get cs 0 i⟩

example : ∃ outs t, TextScanner.calls [.control, .chr, .ascii, .chr, .skip, .chr, .control]
    (scanOf .utf8 [0xC3, 0xA4, 60]) = (.ok outs, t) ∧ outs[3]? = some (.num 0xE4) ∧
      outs[5]? = some (.num 60) := by
  obtain ⟨outs, t, h1, h2⟩ := C07_lookahead .utf8 [0xC3, 0xA4, 60] (by decide)
    [.control, .chr, .ascii, .chr, .skip, .chr, .control] (by decide)
  refine ⟨outs, t, h1, ?_, ?_⟩
  · rw [h2]; decide +kernel
  · rw [h2]; decide +kernel

/-- C10 for `CStringIterator`. In any history of calls `getPosition()` gives the byte
offset of the current character, however many bytes of it have been fetched. -/
theorem C10_position_cstring (e : Enc) (src : List Byte) (hb : ∀ b ∈ src, b < 256)
    (cs : List TCall) (hc : ∀ out, TCall.copy out ∉ cs)
    (hk : offs e (cyc src) 0 (cs.count .skip) + 8 < 2 ^ 32) :
    ∃ outs t, TextScanner.calls cs (scanOf e src) = (.ok outs, t) ∧
      ∀ i : Nat, cs[i]? = some .pos →
        outs[i]? = some (.num (offs e (cyc src) 0 ((cs.take i).count .skip))) := by
  obtain ⟨t, ht⟩ := calls_init (S := cstrSource src hb) (fun _ => ⟨trivial, trivial⟩) e
    (CStr.mk' src) trivial 0 (cstrSource_start src hb) cs (posOk_of_bd cs 0 hk)
    (fun _ => examined_of_queries cs hc _)
  refine ⟨_, t, ht, fun i hi => ?_⟩
  rw [callsOut_get cs 0 i, hi]
  rfl

example : ∃ outs t, TextScanner.calls [.skip, .pos, .chr, .pos, .skip, .control, .pos]
    (scanOf (.utf16 true) [0xD8, 0x3D, 0xDE, 0, 0, 65]) = (.ok outs, t) ∧
      outs[3]? = some (.num 4) := by
  obtain ⟨outs, t, h1, h2⟩ := C10_position_cstring (.utf16 true) [0xD8, 0x3D, 0xDE, 0, 0, 65]
    (by decide) [.skip, .pos, .chr, .pos, .skip, .control, .pos] (by simp) (by decide +kernel)
  refine ⟨outs, t, h1, ?_⟩
  rw [h2 3 (by rfl)]
  decide +kernel

/-- C10 for `SrcIterator` on a complete input. -/
theorem C10_position_srciterator (e : Enc) (src : List Byte) (hb : ∀ b ∈ src, b < 256)
    (cs : List TCall) (hc : ∀ out, TCall.copy out ∉ cs)
    (hk : offs e (strm src) 0 (cs.count .skip) + 8 < 2 ^ 64) :
    ∃ outs t, TextScanner.calls cs (TextScanner.mk' e (SrcIt.mk' src false)) = (.ok outs, t) ∧
      ∀ i : Nat, cs[i]? = some .pos →
        outs[i]? = some (.num (offs e (strm src) 0 ((cs.take i).count .skip))) := by
  obtain ⟨t, ht⟩ := calls_init
    (S := srcSource (strm src) 0 src.length false true (strm_lt src hb) (fun _ k hk => strm_end src k (by omega)))
    (fun _ => ⟨.inr rfl, trivial⟩) e (SrcIt.mk' src false) trivial 0
    ⟨(slice_strm_all src).symm, rfl, Nat.le_refl _, rfl, by simp [SrcIt.mk']⟩ cs (posOk_of_bd cs 0 ⟨rfl, hk⟩)
    (fun _ => examined_of_queries cs hc _)
  refine ⟨_, t, ht, fun i hi => ?_⟩
  rw [callsOut_get cs 0 i, hi]
  rfl

example : ∃ outs t, TextScanner.calls [.chr, .skip, .chr, .pos]
    (TextScanner.mk' .utf8 (SrcIt.mk' [0xC3, 0xA4, 60] false)) = (.ok outs, t) ∧
      outs[3]? = some (.num 2) := by
  obtain ⟨outs, t, h1, h2⟩ := C10_position_srciterator .utf8 [0xC3, 0xA4, 60]
    (by decide) [.chr, .skip, .chr, .pos] (by simp) (by decide +kernel)
  refine ⟨outs, t, h1, ?_⟩
  rw [h2 3 (by rfl)]
  decide +kernel

/-- C10 does not hold for `IStreamIterator`: at the end of the stream "a" the position
is 1, and 0 after `chr()` has looked at the terminating null. -/
theorem C10_position_istream_false :
    ∃ it : IStreamIt, IStreamIt.mk' [.data [97]] 16 = (.ok (), it) ∧
      (TextScanner.calls [.skip, .pos, .chr, .pos] (TextScanner.mk' .utf8 it)).1
        = .ok [.none, .num 1, .num 0, .num 0] :=
  ⟨_, rfl, by decide +kernel⟩

/-- C10 for `IStreamIterator`, what holds: the position is right for the characters
that end before the end of the stream content. Missing are the reads of the null
characters behind the end. -/
theorem C10_position_istream_partial (e : Enc) (es : List ReadEvent) (bufsize : Nat)
    (hg : GoodReads bufsize es) (hn : NoEmpty es) (hf : failing es = false)
    (hb : ∀ b ∈ deliver es, b < 256) (hlen : (deliver es).length < 2 ^ 64)
    (cs : List TCall) (hc : ∀ out, TCall.copy out ∉ cs)
    (hk : offs e (strm (deliver es)) 0 (cs.count .skip) + 8 ≤ (deliver es).length) :
    ∃ it, IStreamIt.mk' es bufsize = (.ok (), it) ∧
    ∃ outs t, TextScanner.calls cs (TextScanner.mk' e it) = (.ok outs, t) ∧
      ∀ i : Nat, cs[i]? = some .pos →
        outs[i]? = some (.num (offs e (strm (deliver es)) 0 ((cs.take i).count .skip))) := by
  rcases IStreamIt.Rel.init es bufsize true hg (fun _ => hn) with ⟨it, h1, h2⟩ | ⟨it, h1, h2, h3⟩
  · refine ⟨it, h1, ?_⟩
    obtain ⟨t, ht⟩ := calls_init (S := istreamSource es true hb) (fun _ => ⟨trivial, .inl hf⟩) e it
      trivial 0 h2 cs (posOk_of_bd cs 0 ⟨rfl, hk, hlen⟩) (fun _ => examined_of_queries cs hc _)
    refine ⟨_, t, ht, fun i hi => ?_⟩
    rw [callsOut_get cs 0 i, hi]
    rfl
  · rw [hf] at h2; cases h2

example : ∃ it, IStreamIt.mk' [.data [97, 98, 99], .data [100, 101, 102, 103, 104, 105]] 8 = (.ok (), it) ∧
    ∃ outs t, TextScanner.calls [.skip, .chr, .pos] (TextScanner.mk' .utf8 it) = (.ok outs, t) ∧
      outs[2]? = some (.num 1) := by
  obtain ⟨it, h1, outs, t, h2, h3⟩ := C10_position_istream_partial .utf8
    [.data [97, 98, 99], .data [100, 101, 102, 103, 104, 105]] 8
    (by simp [GoodReads]) (by simp [NoEmpty]) rfl (by decide) (by decide)
    [.skip, .chr, .pos] (by simp) (by decide +kernel)
  refine ⟨it, h1, outs, t, h2, ?_⟩
  rw [h3 2 (by rfl)]
  decide +kernel

/-- C11 does not hold for UTF-16: `copychar()` of a character that has not been
examined copies only the first unit of a surrogate pair. -/
theorem C11_copychar_false :
    (TextScanner.calls [.copy (.utf16 true)] (scanOf (.utf16 true) [0xD8, 0x3D, 0xDE, 0])).1
      = .ok [.bytes [0xD8, 0x3D]] ∧
    callOut (.utf16 true) (cyc [0xD8, 0x3D, 0xDE, 0]) 0 (.copy (.utf16 true))
      = .bytes [0xD8, 0x3D, 0xDE, 0] :=
  ⟨by decide +kernel, by decide +kernel⟩

/-- C11, what holds: in any history of calls `copychar()` appends the source bytes of the
current character if the character sets are equal, else the encoding of its code in
the output character set. For UTF-16 it is required that a character has been
examined with `chr()`, `ascii()` or `control()` before it is copied. -/
theorem C11_copychar_partial (e : Enc) (src : List Byte) (hb : ∀ b ∈ src, b < 256)
    (cs : List TCall) (hp : TCall.pos ∉ cs) (hx : (∃ be, e = .utf16 be) → Examined false cs) :
    ∃ outs t, TextScanner.calls cs (scanOf e src) = (.ok outs, t) ∧
      ∀ (i : Nat) out, cs[i]? = some (.copy out) → outs[i]? =
        let k := offs e (cyc src) 0 ((cs.take i).count .skip)
        some (.bytes (if e = out then slice (cyc src) k (ulen e (cyc src) k)
          else out.print (uval e (cyc src) k))) := by
  obtain ⟨t, ht⟩ := calls_init (S := cstrSource src hb) (fun _ => ⟨trivial, trivial⟩) e
    (CStr.mk' src) trivial 0 (cstrSource_start src hb) cs (posOk_of_not_mem _ _ cs hp _) hx
  refine ⟨_, t, ht, fun i out hi => ?_⟩
  rw [callsOut_get cs 0 i, hi]
  rfl

example : ∃ outs t, TextScanner.calls [.copy .utf8, .skip, .copy (.ucs2 true)]
    (scanOf .utf8 [0xC3, 0xA4, 60]) = (.ok outs, t) ∧ outs[0]? = some (.bytes [0xC3, 0xA4]) ∧
      outs[2]? = some (.bytes [0, 60]) := by
  obtain ⟨outs, t, h1, h2⟩ := C11_copychar_partial .utf8 [0xC3, 0xA4, 60] (by decide)
    [.copy .utf8, .skip, .copy (.ucs2 true)] (by decide) (by rintro ⟨be, h⟩; cases h)
  refine ⟨outs, t, h1, ?_, ?_⟩
  · rw [h2 0 .utf8 (by rfl)]; decide +kernel
  · rw [h2 2 (.ucs2 true) (by rfl)]; decide +kernel

end TW
