import Verif.Proofs.Causal
import Verif.Proofs.Chunks

/-!
# Property C117: what a scanner says depends only on the bytes up to the current character
-/

namespace TW

open Spec Mach Scanner

variable {e output : Enc} {em : Option (List (Nat × UChar))} {addr : Nat} {doc doc' : List Byte} {sp : Bool} {calls : List (Nat × Bool)}

/-- The two texts, with null bytes behind them, have the same bytes up to the end of the character at the offset `p` of the first. -/
def SameUpTo (e : Enc) (doc doc' : List Byte) (p : Nat) : Prop := ∀ i, i < p + ulen e (strm doc) p → strm doc' i = strm doc i

theorem sameUpTo_runs (hb : ∀ b ∈ doc, b < 256) (hl : doc.length + 16 ≤ 2 ^ 64) {n : Nat} {os : List Obs} {s1 : Scanner (TextScanner SrcIt)}
    (h : session n sp calls (oneScanner e output em addr doc) = (.ok os, s1)) :
    s1.src.getPosition < doc.length + 16 ∧ ∃ os', os = os'.map (Mach.obs sp) ∧ s1.src.getPosition = (last (Cfg.new output em addr) calls os').src ∧
      ∀ doc', SameUpTo e doc doc' s1.src.getPosition → Runs e (strm doc') calls (Cfg.new output em addr) os' := by
  obtain ⟨os', h1, h2, h3⟩ := session_last (fun _ => oneSrc_wrap) (oneScanner_rel e output em addr doc (strm_lt doc hb)) h
  have h4 : Kept doc.length (last (Cfg.new output em addr) calls os') :=
    Kept.runs (strm_ends doc) h1 (Inv0.new output em addr) (.inl (by show 0 < _; omega))
  have h5 : (last (Cfg.new output em addr) calls os').src < doc.length + 16 := by rcases h4 with h | ⟨-, h⟩ <;> omega
  have h6 : s1.src.getPosition = (last (Cfg.new output em addr) calls os').src := by
    rw [h3.position oneSrc_wrap, Nat.mod_eq_of_lt (by omega)]
  refine ⟨by rw [h6]; exact h5, os', h2, h6, fun doc' hs => runs_congr h1 fun i hi => (hs i ?_).symm⟩
  rw [h6]
  exact hi

/-- The source is never far behind the end of the text after a call. -/
theorem C117_bound (hb : ∀ b ∈ doc, b < 256) (hl : doc.length + 16 ≤ 2 ^ 64) {n : Nat} {os : List Obs} {s1 : Scanner (TextScanner SrcIt)}
    (h : session n sp calls (oneScanner e output em addr doc) = (.ok os, s1)) : s1.src.getPosition < doc.length + 16 :=
  (sameUpTo_runs hb hl h).1

/-- **C117** — The results of the calls on a text are the results of the same calls on any other text that has the same bytes up to the end of the
current character, and the sources are at the same position. -/
theorem C117_same (hb : ∀ b ∈ doc, b < 256) (hb' : ∀ b ∈ doc', b < 256) (hl : doc.length + 16 ≤ 2 ^ 64)
    {n : Nat} {os : List Obs} {s1 : Scanner (TextScanner SrcIt)} (h : session n sp calls (oneScanner e output em addr doc) = (.ok os, s1))
    (hs : SameUpTo e doc doc' s1.src.getPosition) :
    ∃ N, ∀ n', N ≤ n' → ∃ s1', session n' sp calls (oneScanner e output em addr doc') = (.ok os, s1') ∧
      s1'.src.getPosition = s1.src.getPosition := by
  obtain ⟨h1, os', rfl, h2, h3⟩ := sameUpTo_runs hb hl h
  obtain ⟨N, h4⟩ := session_to (S := oneSrc _ (strm_lt doc' hb')) (sp := sp) oneSrc_total (fun _ => oneSrc_wrap) (h3 doc' hs)
  refine ⟨N, fun n' hn => ?_⟩
  obtain ⟨s1', h5, h6⟩ := h4 n' hn _ (oneScanner_rel e output em addr doc' (strm_lt doc' hb'))
  exact ⟨s1', h5, by rw [h6.position oneSrc_wrap, ← h2, Nat.mod_eq_of_lt (by omega)]⟩

/-- The same for the other text in chunks. -/
theorem C117_chunks {c : List Byte} {cs : List (List Byte)} (hc : doc' = c ++ cs.flatten) (hb : ∀ b ∈ doc, b < 256) (hb' : ∀ b ∈ doc', b < 256)
    (hwf : e = .utf8 → Continued doc') {fresh : Bool} (hsp : sp = true → fresh = false) (hl : doc.length + 16 ≤ 2 ^ 64)
    {n : Nat} {os : List Obs} {s1 : Scanner (TextScanner SrcIt)} (h : session n sp calls (oneScanner e output em addr doc) = (.ok os, s1))
    (hs : SameUpTo e doc doc' s1.src.getPosition) :
    ∃ N, ∀ n', N ≤ n' → ∃ s1', sessionFed n' fresh sp calls cs (fedScanner e output em addr c cs) = (.ok os, s1') := by
  obtain ⟨-, os', rfl, -, h3⟩ := sameUpTo_runs hb hl h
  obtain ⟨N, h4⟩ := sessionFed_runs (hb := strm_lt doc' hb') hwf hsp cs.length (h3 doc' hs)
  exact ⟨N, fun n' hn => h4 n' hn cs _ (Nat.le_refl _) (fedRel_new _ _ _ _ (!fresh) hc (strm_lt doc' hb'))⟩

/-- Behind the current character anything may follow, also nothing. -/
theorem C117_cut (hb : ∀ b ∈ doc, b < 256) (hl : doc.length + 16 ≤ 2 ^ 64) {n : Nat} {os : List Obs} {s1 : Scanner (TextScanner SrcIt)}
    (h : session n sp calls (oneScanner e output em addr doc) = (.ok os, s1)) {k : Nat} (hk : k ≤ doc.length)
    (hp : s1.src.getPosition + ulen e (strm doc) s1.src.getPosition ≤ k) {rest : List Byte} (hr : ∀ b ∈ rest, b < 256) :
    ∃ N, ∀ n', N ≤ n' → ∃ s1', session n' sp calls (oneScanner e output em addr (doc.take k ++ rest)) = (.ok os, s1') ∧
      s1'.src.getPosition = s1.src.getPosition := by
  refine C117_same hb (fun b h => ?_) hl h fun i hi => ?_
  · rcases List.mem_append.1 h with h | h
    · exact hb b (List.mem_of_mem_take h)
    · exact hr b h
  · have hi : i < k := by omega
    unfold strm
    rw [List.getD_eq_getElem?_getD, List.getD_eq_getElem?_getD,
      List.getElem?_append_left (by rw [List.length_take]; omega), List.getElem?_take_of_lt hi]

/-! ## Examples -/

/-- After the open tag and the unknown entity of `<a>&x;b</a>` the source is at the semicolon, behind five bytes. -/
example : (fun x : Res (List Obs) × Scanner (TextScanner SrcIt) => (x.1, x.2.src.getPosition))
    (session 200 true [(0xFFFF, false), (0xFFFF, false)] (oneScanner .utf8 .utf8 none 0 (codes "<a>&x;b</a>"))) =
    (.ok [⟨.OpenTag, codes "a", .Ok, some 1⟩, ⟨.ErrorOccurred, [], .ErrUndefinedCharacterEntity, some 3⟩], 5) := by
  decide +kernel

/-- So the results are the same for `<a>&x;` followed by anything. -/
example {rest : List Byte} (hr : ∀ b ∈ rest, b < 256) : ∃ N, ∀ n', N ≤ n' → ∃ s1',
    session n' true [(0xFFFF, false), (0xFFFF, false)] (oneScanner .utf8 .utf8 none 0 ((codes "<a>&x;b</a>").take 6 ++ rest)) =
      (.ok [⟨.OpenTag, codes "a", .Ok, some 1⟩, ⟨.ErrorOccurred, [], .ErrUndefinedCharacterEntity, some 3⟩], s1') := by
  have h : (fun x : Res (List Obs) × Scanner (TextScanner SrcIt) => (x.1, x.2.src.getPosition))
    (session 200 true [(0xFFFF, false), (0xFFFF, false)] (oneScanner .utf8 .utf8 none 0 (codes "<a>&x;b</a>"))) =
    (.ok [⟨.OpenTag, codes "a", .Ok, some 1⟩, ⟨.ErrorOccurred, [], .ErrUndefinedCharacterEntity, some 3⟩], 5) := by
    decide +kernel
  generalize hx : session 200 true [(0xFFFF, false), (0xFFFF, false)] (oneScanner .utf8 .utf8 none 0 (codes "<a>&x;b</a>")) = x at h
  obtain ⟨r, s1⟩ := x
  obtain ⟨rfl, h2⟩ := Prod.mk.inj h
  have h2 : s1.src.getPosition = 5 := h2
  obtain ⟨N, h3⟩ := C117_cut (by decide +kernel) (by decide +kernel) hx (k := 6) (by decide +kernel) (by rw [h2]; decide +kernel) hr
  exact ⟨N, fun n' hn => (h3 n' hn).imp fun _ h => h.1⟩

/-- The current character itself matters: with a blank instead of the semicolon there is no reference. -/
example : (codes "<a>&x b</a>").take 5 = (codes "<a>&x;b</a>").take 5 ∧
    (session 200 true [(0xFFFF, false), (0xFFFF, false)] (oneScanner .utf8 .utf8 none 0 (codes "<a>&x b</a>"))).1 =
      .ok [⟨.OpenTag, codes "a", .Ok, some 1⟩, ⟨.Content, codes "&x b", .Ok, some 3⟩] := by
  constructor <;> decide +kernel

end TW
