import Verif.Proofs.AnySource
import Verif.Props.StdStream

/-!
# Property C81: the kind of source does not matter

The scanner reads its document with a `SrcIterator` on a document in one piece (`oneScanner`), with a
`CStringIterator`, or with an `IStreamIterator` on a stream that gives the document in pieces.

Full statement: the same calls give the same items at the same positions. It is false for the position of an item at the
end of the document read with an `IStreamIterator`, for this iterator does not count what is read behind the end.
-/

namespace TW

open Spec Mach Scanner

/-- A scanner that reads a C string. -/
def cstrScanner (e output : Enc) (em : Option (List (Nat × UChar))) (addr : Nat) (doc : List Byte) :
    Scanner (TextScanner CStr) :=
  Scanner.mk' (TextScanner.mk' e (CStr.mk' doc)) output em addr

/-- A scanner that reads a stream with the iterator `it`. -/
def streamScanner (e output : Enc) (em : Option (List (Nat × UChar))) (addr : Nat) (it : IStreamIt) :
    Scanner (TextScanner IStreamIt) :=
  Scanner.mk' (TextScanner.mk' e it) output em addr

variable {e output : Enc} {em : Option (List (Nat × UChar))} {addr : Nat} {doc : List Byte} {sp : Bool}
  {calls : List (Nat × Bool)}

/-- The C string iterator counts with 32 bits, so the document has to be a little shorter than that. -/
theorem C81_cstring (hb : ∀ b ∈ doc, b < 256) (hl : doc.length + 24 ≤ 2 ^ 32) {n' : Nat} {os : List Obs}
    {s1 : Scanner (TextScanner SrcIt)}
    (h : session n' sp calls (oneScanner e output em addr doc) = (.ok os, s1)) :
    ∃ N, ∀ n, N ≤ n → ∃ s', session n sp calls (cstrScanner e output em addr doc) = (.ok os, s') := by
  obtain ⟨os', h1, rfl, -⟩ := session_ok (fun _ => oneSrc_wrap)
    (oneScanner_rel e output em addr doc (strm_lt doc hb)) h
  have hi : Inv0 (Cfg.new output em addr) := .new ..
  have hn : Near' doc.length (Cfg.new output em addr) := .inl (Nat.zero_lt_succ _)
  have ht := runs_tok (strm_ends doc) h1 hi hn (Nat.le_refl _)
  have h2 := runs_other (g := cyc doc) (strm_ends doc) (fun k hk => by
    unfold strm cyc
    rw [Nat.mod_eq_of_lt (show k < 2 ^ 32 by omega), Nat.mod_eq_of_lt (show doc.length < 2 ^ 32 by omega)]
    split
    · rfl
    · rw [List.getD_eq_getElem?_getD, List.getElem?_eq_none (by omega)]; rfl) h1 hi hn
  obtain ⟨N, hN⟩ := session_matched (sp := sp) (S := cstrSource doc hb) (fun _ => ⟨trivial, trivial⟩) h2
  refine ⟨N, fun n hn => ?_⟩
  obtain ⟨l, s', h3, h4⟩ := hN n hn _ (SRel0.new (cstrSource_start doc hb) trivial output em addr)
  refine ⟨s', ?_⟩
  rw [show cstrScanner e output em addr doc = Scanner.mk' (TextScanner.mk' e (CStr.mk' doc)) output em addr from rfl, h3]
  have : l = os'.map (Mach.obs sp) := by
    apply Pairs.eq
    refine Pairs.both (R := fun a b => a = b) (R' := Match (cstrSource doc hb) e sp) ?_ ?_ h4
    · rintro a ha _ o rfl hm
      have h8 := ulen_le e (cyc doc) a.2.tokenpos
      have hp := ht a ha
      unfold Mach.obs
      rw [← hm.type, ← hm.item, ← hm.error]
      cases o with
      | mk t i er p =>
        congr 1
        cases sp with
        | false =>
          have := hm.asked
          cases p with
          | none => rfl
          | some _ => cases this
        | true =>
          rw [Nat.mod_eq_of_lt (by omega)]
          exact hm.pos (fun h => h) (show _ < 2 ^ 32 by omega) rfl
    · have := Pairs.map (fun a => a) os'
      rw [List.map_id'] at this
      exact Pairs.imp (fun _ _ h => h.symm) this
  rw [this]

theorem pairs_same {es : List ReadEvent} (hb : ∀ b ∈ deliver es, b < 256) (hl : (deliver es).length + 16 ≤ 2 ^ 64)
    {xs : List (ElementType × Cfg)} {l : List Obs}
    (hr : Runs e (strm (deliver es)) calls (Cfg.new output em addr) xs)
    (hp : Pairs (Match (istreamSource es true hb) e sp) xs l) :
    Pairs (SameItem e (deliver es)) (xs.map (Mach.obs sp)) l := by
  have ht := runs_tok (strm_ends (deliver es)) hr (.new ..) (.inl (Nat.zero_lt_succ _)) (Nat.le_refl _)
  refine Pairs.both ?_ (Pairs.map (Mach.obs sp) xs) hp
  rintro x hx o o' rfl hm
  have h1 := ht x hx
  refine ⟨hm.type, hm.item, hm.error, ?_, ?_⟩
  · rw [hm.asked]; cases sp <;> rfl
  · intro p h2 h3
    cases sp with
    | false => cases h2
    | true =>
      have h2' : x.2.tokenpos % 2 ^ 64 = p := Option.some.inj h2
      rw [Nat.mod_eq_of_lt (by omega)] at h2'
      subst h2'
      exact hm.pos (fun h => h) ⟨rfl, h3, by omega⟩ rfl

/-- From a stream that does not fail, whatever the size of the buffer and the pieces the reads give. Missing: the
positions of items at the end, for these it is false. -/
theorem C81_stream_partial {bufsize : Nat} {pieces : List (List Byte)} (hne : ∀ c ∈ pieces, c ≠ [])
    (hle : ∀ c ∈ pieces, c.length ≤ bufsize) (hd : pieces.flatten = doc) (hb : ∀ b ∈ doc, b < 256)
    (hl : doc.length + 16 ≤ 2 ^ 64) {n' : Nat} {os : List Obs} {s1 : Scanner (TextScanner SrcIt)}
    (h : session n' sp calls (oneScanner e output em addr doc) = (.ok os, s1)) :
    ∃ it, IStreamIt.mk' (pieces.map .data) bufsize = (.ok (), it) ∧ ∃ N, ∀ n, N ≤ n → ∃ os' s',
      session n sp calls (streamScanner e output em addr it) = (.ok os', s') ∧ Pairs (SameItem e doc) os os' := by
  have hdel : deliver (pieces.map .data) = doc := by
    have := deliver_chunks pieces hne []
    simpa [deliver, hd] using this
  have hfail : failing (pieces.map .data) = false := by
    have := failing_chunks pieces []
    simpa [failing] using this
  have hg : GoodReads bufsize (pieces.map .data) := by
    intro bs hbs
    obtain ⟨c, hc, h⟩ := List.mem_map.1 hbs
    cases h
    exact hle bs hc
  have hn : NoEmpty (pieces.map .data) := by
    intro h
    obtain ⟨c, hc, h⟩ := List.mem_map.1 h
    cases h
    exact hne _ hc rfl
  generalize pieces.map ReadEvent.data = es at hdel hfail hg hn ⊢
  subst hdel
  rcases IStreamIt.Rel.init es bufsize true hg (fun _ => hn) with ⟨it, h1, h2⟩ | ⟨_, _, h3, _⟩
  · refine ⟨it, h1, ?_⟩
    obtain ⟨xs, g1, rfl, -⟩ := session_ok (fun _ => oneSrc_wrap)
      (oneScanner_rel e output em addr (deliver es) (strm_lt _ hb)) h
    obtain ⟨N, hN⟩ := session_matched (sp := sp) (S := istreamSource es true hb)
      (fun _ => ⟨trivial, .inl hfail⟩) g1
    refine ⟨N, fun n hn => ?_⟩
    obtain ⟨l, s', h3, h4⟩ := hN n hn _ (SRel0.new h2 trivial output em addr)
    exact ⟨l, s', h3, pairs_same hb hl g1 h4⟩
  · rw [hfail] at h3; cases h3

/-- `<a>xy</a>` in two pieces. -/
example : (session 100 true [(0xFFFFFF, false), (0xFFFFFF, true)]
      (oneScanner .utf8 .utf8 none 0 [60, 97, 62, 120, 121, 60, 47, 97, 62])).1
      = .ok [⟨.OpenTag, [97], .Ok, some 1⟩, ⟨.Content, [120, 121], .Ok, some 3⟩] ∧
    [[60, 97, 62, 120], [121, 60, 47, 97, 62]].flatten = [60, 97, 62, 120, 121, 60, 47, 97, 62] :=
  ⟨by decide +kernel, rfl⟩

/-- From a stream whose reads may fail: the items that are delivered are the ones of the bytes read before the failure.
Missing: positions of items at the end. -/
theorem C81_failing_partial {bufsize : Nat} {es : List ReadEvent} (hg : GoodReads bufsize es) (hn : NoEmpty es)
    (hb : ∀ b ∈ deliver es, b < 256) (hl : (deliver es).length + 16 ≤ 2 ^ 64) {it : IStreamIt}
    (hi : IStreamIt.mk' es bufsize = (.ok (), it)) {n : Nat} {os' : List Obs} {s' : Scanner (TextScanner IStreamIt)}
    (h : session n sp calls (streamScanner e output em addr it) = (.ok os', s')) :
    ∃ N, ∀ n', N ≤ n' → ∃ os s1, session n' sp calls (oneScanner e output em addr (deliver es)) = (.ok os, s1) ∧
      Pairs (SameItem e (deliver es)) os os' := by
  rcases IStreamIt.Rel.init es bufsize true hg (fun _ => hn) with ⟨it', h1, h2⟩ | ⟨_, h1, _, _⟩
  · rw [hi] at h1
    cases h1
    obtain ⟨xs, g1, g2⟩ := session_back (S := istreamSource es true hb) (SRel0.new h2 trivial output em addr) h
    obtain ⟨N, hN⟩ := session_runs (sp := sp) oneSrc_total (fun _ => oneSrc_wrap) g1
    refine ⟨N, fun n' hn' => ?_⟩
    obtain ⟨s1, h3⟩ := hN n' hn' _ (oneScanner_rel e output em addr (deliver es) (strm_lt _ hb))
    exact ⟨_, s1, h3, pairs_same hb hl g1 g2⟩
  · rw [hi] at h1; cases h1

/-- `<a>x` and then a failing read: the first call returns. -/
example : ∃ it, IStreamIt.mk' [.data [60, 97], .data [62, 120], .fail] 2 = (.ok (), it) ∧
    (session 100 true [(0xFFFFFF, false)] (streamScanner .utf8 .utf8 none 0 it)).1 = .ok [⟨.OpenTag, [97], .Ok, some 1⟩] ∧
    (session 100 true [(0xFFFFFF, false), (0xFFFFFF, false)] (streamScanner .utf8 .utf8 none 0 it)).1
      = .stop (.throw .FileReadError) :=
  ⟨_, rfl, by decide +kernel, by decide +kernel⟩

/-- The calls on a stream are only left by the exception for a failing read, and if no read fails they are not left. -/
theorem C81_exceptions {bufsize : Nat} {es : List ReadEvent} (hg : GoodReads bufsize es)
    (hb : ∀ b ∈ deliver es, b < 256) {it : IStreamIt} (hi : IStreamIt.mk' es bufsize = (.ok (), it)) {n : Nat}
    {er : Stop} {s' : Scanner (TextScanner IStreamIt)}
    (h : session n sp calls (streamScanner e output em addr it) = (.stop er, s')) :
    er = .fuel ∨ (er = .throw .FileReadError ∧ .fail ∈ es) := by
  rcases IStreamIt.Rel.init es bufsize false hg (fun h => nomatch h) with ⟨it', h1, h2⟩ | ⟨_, h1, _, _⟩
  · rw [hi] at h1
    cases h1
    rcases session_stop (S := istreamSource es false hb) (SRel0.new h2 trivial output em addr) h with h3 | ⟨h3, k, h4 | h4⟩
    · exact .inl h3
    · exact absurd trivial h4
    · refine .inr ⟨h3, ?_⟩
      have hf : failing es = true := by
        cases hf : failing es with
        | true => rfl
        | false => exact absurd (.inl hf) h4
      clear h4 h h3 h2 hi hg hb
      induction es with
      | nil => cases hf
      | cons ev es ih =>
        cases ev with
        | fail => exact .head _
        | data bs => exact .tail _ (ih hf)
  · rw [hi] at h1; cases h1

/-- A comment that is not terminated: the fuel is used up. -/
example : ∃ it, IStreamIt.mk' [.data [60, 33], .data [45, 45]] 2 = (.ok (), it) ∧
    (session 30 true [(0xFFFFFF, false)] (streamScanner .utf8 .utf8 none 0 it)).1 = .stop .fuel :=
  ⟨_, rfl, by decide +kernel⟩

/-- The end of `<a></a>` is reported at position 8 if the document is in memory, and at position 7 if it is read from a
stream. -/
theorem C81_position_false :
    (session 100 true [(0xFFFFFF, true), (0xFFFFFF, true), (0xFFFFFF, true)]
      (oneScanner .utf8 .utf8 none 0 [60, 97, 62, 60, 47, 97, 62])).1 =
      .ok [⟨.OpenTag, [97], .Ok, some 1⟩, ⟨.CloseTag, [97], .Ok, some 5⟩, ⟨.Exit, [], .Ok, some 8⟩] ∧
    ∃ it, IStreamIt.mk' [.data [60, 97, 62, 60, 47, 97, 62]] 16 = (.ok (), it) ∧
      (session 100 true [(0xFFFFFF, true), (0xFFFFFF, true), (0xFFFFFF, true)]
        (streamScanner .utf8 .utf8 none 0 it)).1 =
      .ok [⟨.OpenTag, [97], .Ok, some 1⟩, ⟨.CloseTag, [97], .Ok, some 5⟩, ⟨.Exit, [], .Ok, some 7⟩] :=
  ⟨by decide +kernel, _, rfl, by decide +kernel⟩

/-- A document read from a standard stream that does not fail, with any size of the buffer. -/
theorem C81_std_partial {bufsize : Nat} (hz : 1 ≤ bufsize) (hb : ∀ b ∈ doc, b < 256)
    (hl : doc.length + 16 ≤ 2 ^ 64) {n' : Nat} {os : List Obs} {s1 : Scanner (TextScanner SrcIt)}
    (h : session n' sp calls (oneScanner e output em addr doc) = (.ok os, s1)) :
    ∃ (i : StdInput) (r : Nat) (it : IStreamIt), StdInput.mk' (.opened doc) = some i ∧
      (∀ m, i.events bufsize (r + m) = i.events bufsize r ++ List.replicate m (.data [])) ∧
      IStreamIt.mk' (i.events bufsize r) bufsize = (.ok (), it) ∧ ∃ N, ∀ n, N ≤ n → ∃ os' s',
        session n sp calls (streamScanner e output em addr it) = (.ok os', s') ∧ Pairs (SameItem e doc) os os' := by
  obtain ⟨cs, h1, h2, h3⟩ := StdInput.events_good hz doc.length doc 0 (Nat.le_refl _)
  have h4 := h3 0
  rw [Nat.add_zero, List.replicate_zero, List.append_nil] at h4
  obtain ⟨it, h5, h6⟩ := C81_stream_partial (fun c hc => (h2 c hc).1) (fun c hc => (h2 c hc).2) h1 hb hl h
  refine ⟨_, cs.length, it, rfl, fun m => ?_, ?_, h6⟩
  · rw [h3, h4]
  · rw [h4]; exact h5

end TW
