import Verif.Proofs.Cut
import Verif.Props.Accept

/-!
# Property C108: the documents on which a call does not return
-/

namespace TW

open Spec Mach Scanner Accept

variable {e output : Enc} {em : Option (List (Nat × UChar))} {addr : Nat} {doc : List Byte} {sp : Bool}
  {calls : List (Nat × Bool)}

/-- The characters of the text up to its end, null characters and the end of a comment, a processing instruction, a CDATA section or a declaration
with an internal subset are a document of the grammar. -/
def CutOff (e : Enc) (doc : List Byte) (d : Loose.Document) : Prop :=
  d.Ok ∧ ∃ N z, doc.length < N ∧ z ∈ [codes "-->", codes "?>", codes "]]>", codes "]>"] ∧
    d.spell = (chars e (strm doc) 0 N).map Ch.asc ++ z

/-- The calls do not all return, however long they run. -/
def Hangs (sp : Bool) (calls : List (Nat × Bool)) (s : Scanner (TextScanner SrcIt)) : Prop :=
  ∀ n, ∃ s1, session n sp calls s = (.stop .fuel, s1)

theorem hangs_iff (hb : ∀ b ∈ doc, b < 256) :
    Hangs sp calls (oneScanner e output em addr doc) ↔ ¬ ∃ os, Runs e (strm doc) calls (Cfg.new output em addr) os := by
  constructor
  · rintro h ⟨os, hr⟩
    obtain ⟨N, h6⟩ := session_runs (S := oneSrc _ (strm_lt doc hb)) (sp := sp) oneSrc_total (fun _ => oneSrc_wrap) hr
    obtain ⟨s, h7⟩ := h6 N (Nat.le_refl _) _ (oneScanner_rel e output em addr doc (strm_lt doc hb))
    obtain ⟨s1, h8⟩ := h N
    rw [h7] at h8
    cases h8
  · intro h n
    generalize hx : session n sp calls (oneScanner e output em addr doc) = x
    obtain ⟨x, s⟩ := x
    cases x with
    | stop er => rw [session_total oneSrc_total (oneScanner_rel e output em addr doc (strm_lt doc hb)) hx]; exact ⟨s, rfl⟩
    | ok os =>
      obtain ⟨os', h1, -⟩ := session_ok (fun _ => oneSrc_wrap) (oneScanner_rel e output em addr doc (strm_lt doc hb)) hx
      exact absurd ⟨os', h1⟩ h

theorem runs_cut {os : List (ElementType × Cfg)} {d : Loose.Document} (hd : CutOff e doc d)
    (hr : Runs e (strm doc) calls (Cfg.new output em addr) os) :
    (∀ o ∈ os, o.1 = .ErrorOccurred → o.2.error = .ErrUndefinedCharacterEntity) ∧ .Exit ∉ os.map (·.1) ∧ (∃ k, sound os = d.types.take k) ∧
    calls.length < d.types.length + doc.length := by
  obtain ⟨h1, N, z, hN, hz, h2⟩ := hd
  have hg : ∀ mask, GoesOn e (strm doc) doc.length (z ++ [0]) mask (Cfg.new output em addr) d.types := .new hN (by
    unfold seen view; rw [← List.append_assoc, ← h2]; exact auto_of_document h1)
  obtain ⟨h3, h4, k, h5⟩ := GoesOn.runs (strm_ends doc) (by simp) hr hg
  refine ⟨h3, h4, ⟨k, h5⟩, ?_⟩
  have h7 : os.length ≤ (sound os).length + (doc.length - 0) := runs_undef (strm_ends doc) hr (Inv0.new output em addr) h3
  have h8 : os.length = calls.length := hr.length
  obtain ⟨w, hw, hwx⟩ := auto_last (auto_of_document h1)
  have h9 : k < d.types.length := by
    apply Nat.lt_of_not_le
    intro hk
    rw [List.take_of_length_le hk, hw] at h5
    have : .Exit ∈ sound os := by rw [h5]; simp
    exact h4 (List.mem_filter.1 this).1
  have h10 : (sound os).length = k := by rw [h5, List.length_take]; omega
  omega

/-- Without an error other than an unknown entity the end is reached after less than twice as many items as the document has bytes, or a call does not return. -/
theorem runs_bound {os : List (ElementType × Cfg)} (hr : Runs e (strm doc) calls (Cfg.new output em addr) os)
    (he : ∀ o ∈ os, o.1 = .ErrorOccurred → o.2.error = .ErrUndefinedCharacterEntity) (hx : .Exit ∉ os.map (·.1)) :
    calls.length ≤ 2 * doc.length := by
  have h1 : (sound os).length ≤ doc.length := runs_pot_sound (strm_ends doc) hr (Inv0.new output em addr) nofun he hx
  have h2 : os.length ≤ (sound os).length + doc.length := runs_undef (strm_ends doc) hr (Inv0.new output em addr) he
  have h3 := hr.length
  omega

/-- **C108** — On a document that is cut off in a comment, a processing instruction, a CDATA section or an internal subset there is a call that does
not return: not all calls return if they are more than twice as many as the document has bytes, or not less than the items and the bytes. -/
theorem C108_hangs (hb : ∀ b ∈ doc, b < 256) {d : Loose.Document} (hd : CutOff e doc d)
    (hl : 2 * doc.length < calls.length ∨ d.types.length + doc.length ≤ calls.length) : Hangs sp calls (oneScanner e output em addr doc) := by
  rw [hangs_iff hb]
  rintro ⟨os, hr⟩
  obtain ⟨h1, h2, -, h3⟩ := runs_cut hd hr
  have := runs_bound hr h1 h2
  omega

/-- The calls before that return give the items of the document and no errors but unknown entities. -/
theorem C108_before (hb : ∀ b ∈ doc, b < 256) {d : Loose.Document} (hd : CutOff e doc d) {n : Nat} {os : List Obs}
    {s1 : Scanner (TextScanner SrcIt)} (h : session n sp calls (oneScanner e output em addr doc) = (.ok os, s1)) :
    OnlyUnknown os ∧ .Exit ∉ os.map Obs.type ∧ ∃ k, itemTypes os = d.types.take k := by
  obtain ⟨os', h1, rfl, -⟩ := session_ok (fun _ => oneSrc_wrap) (oneScanner_rel e output em addr doc (strm_lt doc hb)) h
  obtain ⟨h2, h3, h4, -⟩ := runs_cut hd h1
  refine ⟨(onlyUnknown_obs os').2 h2, ?_, ?_⟩
  · rw [List.map_map]; exact h3
  · rw [itemTypes_obs]; exact h4

/-- A document on which a call does not return, and on which no call before reports an error other than an unknown entity, is cut off like this. -/
theorem C108_only (hb : ∀ b ∈ doc, b < 256) (h : Hangs sp calls (oneScanner e output em addr doc))
    (he : ∀ k n os s1, session n sp (calls.take k) (oneScanner e output em addr doc) = (.ok os, s1) → OnlyUnknown os) :
    ∃ d, CutOff e doc d := by
  rw [hangs_iff hb] at h
  obtain ⟨z, hz, n, ts, hn, h1⟩ := hang_auto (strm_ends doc) (Inv0.new output em addr) rfl h fun k os hr => by
    obtain ⟨N, h6⟩ := session_runs (S := oneSrc _ (strm_lt doc hb)) (sp := sp) oneSrc_total (fun _ => oneSrc_wrap) hr
    obtain ⟨s, h7⟩ := h6 N (Nat.le_refl _) _ (oneScanner_rel e output em addr doc (strm_lt doc hb))
    exact (onlyUnknown_obs os).1 (he k N _ s h7)
  obtain ⟨d, h4, h5, -⟩ : ∃ d : Loose.Document, d.Ok ∧ seen e (strm doc) (z ++ [0]) 0 n = d.spell ++ [0] ∧ ts = d.types := lang_of_auto h1
  refine ⟨d, h4, n, z, hn, hz, ?_⟩
  unfold seen view at h5
  rw [← List.append_assoc] at h5
  exact (List.append_cancel_right h5).symm

/-- Exactly the documents that are cut off make a call run forever without an error other than an unknown entity before it. -/
theorem C108_exactly (hb : ∀ b ∈ doc, b < 256) (hl : 2 * doc.length < calls.length) :
    (∃ d, CutOff e doc d) ↔
    Hangs sp calls (oneScanner e output em addr doc) ∧
      ∀ k n os s1, session n sp (calls.take k) (oneScanner e output em addr doc) = (.ok os, s1) → OnlyUnknown os := by
  constructor
  · rintro ⟨d, hd⟩
    exact ⟨C108_hangs hb hd (.inl hl), fun k n os s1 h => (C108_before hb hd h).1⟩
  · rintro ⟨h, he⟩
    exact C108_only hb h he

/-- The same for a document in chunks. -/
theorem C108_chunks {c : List Byte} {cs : List (List Byte)} (hc : doc = c ++ cs.flatten) (hb : ∀ b ∈ doc, b < 256)
    (hwf : e = .utf8 → Continued doc) {fresh : Bool} (hsp : sp = true → fresh = false) (hl : 2 * doc.length < calls.length) :
    (∃ d, CutOff e doc d) ↔
    (∀ n, ∃ s1, sessionFed n fresh sp calls cs (fedScanner e output em addr c cs) = (.stop .fuel, s1)) ∧
      ∀ k n os s1, sessionFed n fresh sp (calls.take k) cs (fedScanner e output em addr c cs) = (.ok os, s1) → OnlyUnknown os := by
  have hrel := fedRel_new e output em addr (!fresh) hc (strm_lt doc hb)
  constructor
  · rintro ⟨d, hd⟩
    refine ⟨fun n => ?_, fun k n os s1 h => ?_⟩
    · generalize hx : sessionFed n fresh sp calls cs (fedScanner e output em addr c cs) = x
      obtain ⟨x, s⟩ := x
      rcases sessionFed_res hwf hsp hrel hx with rfl | ⟨os, h1, -⟩
      · exact ⟨s, rfl⟩
      · exact absurd ⟨os, h1⟩ ((hangs_iff (sp := sp) hb).1 (C108_hangs hb hd (.inl hl)))
    · rcases sessionFed_res hwf hsp hrel h with h1 | ⟨os', h1, h2⟩
      · cases h1
      · cases h2
        exact (onlyUnknown_obs os').2 (runs_cut hd h1).1
  · rintro ⟨h, he⟩
    refine C108_only (sp := sp) (output := output) (em := em) (addr := addr) hb ((hangs_iff hb).2 ?_) (calls := calls) fun k n os s1 hs => ?_
    · rintro ⟨os, hr⟩
      obtain ⟨N, h6⟩ := sessionFed_runs (hb := strm_lt doc hb) hwf hsp cs.length hr
      obtain ⟨s, h7⟩ := h6 N (Nat.le_refl _) cs _ (Nat.le_refl _) hrel
      obtain ⟨s1, h8⟩ := h N
      rw [h7] at h8
      cases h8
    · obtain ⟨os', h1, rfl, -⟩ := session_ok (fun _ => oneSrc_wrap) (oneScanner_rel e output em addr doc (strm_lt doc hb)) hs
      obtain ⟨N, h6⟩ := sessionFed_runs (hb := strm_lt doc hb) hwf hsp cs.length h1
      obtain ⟨s, h7⟩ := h6 N (Nat.le_refl _) cs _ (Nat.le_refl _) hrel
      exact he k N _ s h7

/-- An error other than an unknown entity is reported. -/
def Reports (e output : Enc) (em : Option (List (Nat × UChar))) (addr : Nat) (sp : Bool) (doc : List Byte) (calls : List (Nat × Bool)) : Prop :=
  ∃ n os s1, session n sp calls (oneScanner e output em addr doc) = (.ok os, s1) ∧ ¬ OnlyUnknown os

/-- With any calls that are more than twice as many as the document has bytes the end is reached without an error other than an unknown entity
exactly on the documents of the grammar. -/
theorem C106_decides (hb : ∀ b ∈ doc, b < 256) (hl : 2 * doc.length < calls.length) :
    (∃ d, Spells e doc d) ↔
    ∃ n os s1, session n sp calls (oneScanner e output em addr doc) = (.ok os, s1) ∧ OnlyUnknown os ∧ .Exit ∈ os.map Obs.type := by
  constructor
  · rintro ⟨d, hd⟩
    obtain ⟨k, h2⟩ := hd.2
    obtain ⟨os, hr⟩ := runs_exist (calls := calls) (strm_ends doc) (.new (n := k) (by
      unfold view; rw [← h2]; exact auto_of_document hd.1) : ∀ mask, Goes e (strm doc) mask (Cfg.new output em addr) d.types)
    obtain ⟨N, h6⟩ := session_runs (S := oneSrc _ (strm_lt doc hb)) (sp := sp) oneSrc_total (fun _ => oneSrc_wrap) hr
    obtain ⟨s, h7⟩ := h6 N (Nat.le_refl _) _ (oneScanner_rel e output em addr doc (strm_lt doc hb))
    have h3 := (runs_spells hd hr).1
    refine ⟨N, _, s, h7, (onlyUnknown_obs os).2 h3, ?_⟩
    rw [List.map_map]
    apply Decidable.byContradiction
    intro hx
    have := runs_bound hr h3 hx
    omega
  · rintro ⟨n, os, s1, h, he, hx⟩
    obtain ⟨d, hd, -⟩ := C106_only hb h he hx
    exact ⟨d, hd⟩

/-- A text is a document of the grammar, or it is cut off, or it is reported to be wrong: one of the three, and only one. It is known after twice
as many calls as the document has bytes and one. -/
theorem C108_three (hb : ∀ b ∈ doc, b < 256) (hl : 2 * doc.length < calls.length) :
    ((∃ d, Spells e doc d) ∨ (∃ d, CutOff e doc d) ∨ ∃ k, Reports e output em addr sp doc (calls.take k)) ∧
    ¬ ((∃ d, Spells e doc d) ∧ ∃ d, CutOff e doc d) ∧
    ¬ ((∃ d, Spells e doc d) ∧ ∃ k, Reports e output em addr sp doc (calls.take k)) ∧
    ¬ ((∃ d, CutOff e doc d) ∧ ∃ k, Reports e output em addr sp doc (calls.take k)) := by
  refine ⟨?_, ?_, ?_, ?_⟩
  · by_cases hw : ∃ k, Reports e output em addr sp doc (calls.take k)
    · exact .inr (.inr hw)
    have ho : ∀ k n os s1, session n sp (calls.take k) (oneScanner e output em addr doc) = (.ok os, s1) → OnlyUnknown os := by
      intro k n os s1 h
      by_cases h' : OnlyUnknown os
      · exact h'
      · exact absurd ⟨k, n, os, s1, h, h'⟩ hw
    by_cases hh : ∃ os, Runs e (strm doc) calls (Cfg.new output em addr) os
    · left
      obtain ⟨os, hr⟩ := hh
      obtain ⟨N, h6⟩ := session_runs (S := oneSrc _ (strm_lt doc hb)) (sp := sp) oneSrc_total (fun _ => oneSrc_wrap) hr
      obtain ⟨s, h7⟩ := h6 N (Nat.le_refl _) _ (oneScanner_rel e output em addr doc (strm_lt doc hb))
      have h8 := ho calls.length N _ s (by rw [List.take_length]; exact h7)
      have hx : .Exit ∈ os.map (·.1) := by
        apply Decidable.byContradiction
        intro hx
        have := runs_bound hr ((onlyUnknown_obs os).1 h8) hx
        omega
      obtain ⟨d, hd, -⟩ := C106_only hb h7 h8 (by rw [List.map_map]; exact hx)
      exact ⟨d, hd⟩
    · exact .inr (.inl (C108_only hb ((hangs_iff hb).2 hh) ho))
  · rintro ⟨⟨d1, h1⟩, ⟨d2, h2⟩⟩
    obtain ⟨N, h⟩ := C106_all (sp := sp) (output := output) (em := em) (addr := addr) (calls := calls) hb h1
    obtain ⟨os, s1, h3, -⟩ := h N (Nat.le_refl _)
    obtain ⟨s2, h4⟩ := C108_hangs (sp := sp) (output := output) (em := em) (addr := addr) hb h2 (.inl hl) N
    rw [h3] at h4
    cases h4
  · rintro ⟨⟨d, hd⟩, k, n, os, s1, h, hn⟩
    obtain ⟨os', h1, rfl, -⟩ := session_ok (fun _ => oneSrc_wrap) (oneScanner_rel e output em addr doc (strm_lt doc hb)) h
    exact hn ((onlyUnknown_obs os').2 (runs_spells hd h1).1)
  · rintro ⟨⟨d, hd⟩, k, n, os, s1, h, hn⟩
    exact hn (C108_before hb hd h).1

/-! ## Documents that are cut off -/

/-- `<a>&x;<!--b` with a null character and the end of the comment. -/
def cutExample : Loose.Document where
  lead := []
  content := some (.mark ⟨[], .open_ (codes "a") [] [] none, codes "&x;"⟩, [⟨[], .comment (codes "b" ++ 0 :: codes "--"), []⟩])

theorem cutExample_ok : cutExample.Ok := by
  refine ⟨by unfold Gaps Gap; decide, ?_⟩
  intro c hc
  cases hc
  refine ⟨?_, ?_⟩
  · exact ⟨by unfold Gaps Gap; decide, ⟨by unfold Loose.Chars; decide, by unfold Loose.AttrsOk Gaps Gap; decide, nofun, nofun⟩,
      by unfold Loose.Chars; decide⟩
  · simp only [List.forall_mem_cons]
    refine ⟨?_, nofun⟩
    exact ⟨by unfold Gaps Gap; decide, closed_of (by unfold Loose.dashes; decide) (by unfold Loose.dashes; decide), by unfold Loose.Chars; decide⟩

/-- The document meets the conditions of the theorems. -/
theorem cutExample_cut : CutOff .utf8 (codes "<a>&x;<!--b") cutExample := ⟨cutExample_ok, 12, codes "-->", by decide, by decide, by decide +kernel⟩

/-- Three calls return, the fourth does not. -/
example : (session 200 false (List.replicate 3 (2 ^ 32 - 1, true)) (oneScanner .utf8 .utf8 none 0 (codes "<a>&x;<!--b"))).1 =
    .ok ([(.OpenTag, "a", .Ok), (.ErrorOccurred, "", .ErrUndefinedCharacterEntity), (.Content, ";", .Ok)].map
        fun x => ⟨x.1, codes x.2.1, x.2.2, none⟩) := by
  decide +kernel

example : Hangs false (List.replicate 14 (2 ^ 32 - 1, true)) (oneScanner .utf8 .utf8 none 0 (codes "<a>&x;<!--b")) :=
  C108_hangs (by decide) cutExample_cut (.inr (by decide))

/-- A tag that is cut off is reported. -/
example : (session 200 false (List.replicate 2 (2 ^ 32 - 1, false)) (oneScanner .utf8 .utf8 none 0 (codes "<a b"))).1 =
    .ok ([(.OpenTag, "a", .Ok), (.ErrorOccurred, "b", .ErrExpectedEqual)].map fun x => ⟨x.1, codes x.2.1, x.2.2, none⟩) := by
  decide +kernel

end TW
