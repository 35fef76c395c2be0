import Verif.Proofs.AcceptRun
import Verif.Props.Items

/-!
# Property C106: the documents that are accepted
-/

namespace TW

open Spec Mach Scanner Accept

variable {e output : Enc} {em : Option (List (Nat × UChar))} {addr : Nat} {doc : List Byte} {sp : Bool}
  {calls : List (Nat × Bool)}

/-- The characters of the text up to a null character are a document of the grammar. -/
def Spells (e : Enc) (doc : List Byte) (d : Loose.Document) : Prop :=
  d.Ok ∧ ∃ N, d.spell ++ [0] = (chars e (strm doc) 0 N).map Ch.asc

/-- The only errors are about entities that are not known. -/
def OnlyUnknown (os : List Obs) : Prop := ∀ o ∈ os, o.type = .ErrorOccurred → o.error = .ErrUndefinedCharacterEntity

/-- The types of the items that are not errors. -/
def itemTypes (os : List Obs) : List ElementType := (os.map Obs.type).filter (· ≠ .ErrorOccurred)

theorem itemTypes_obs (os : List (ElementType × Cfg)) : itemTypes (os.map (Mach.obs sp)) = sound os := by
  unfold itemTypes sound
  rw [List.map_map]
  rfl

theorem onlyUnknown_obs (os : List (ElementType × Cfg)) :
    OnlyUnknown (os.map (Mach.obs sp)) ↔ ∀ o ∈ os, o.1 = .ErrorOccurred → o.2.error = .ErrUndefinedCharacterEntity := by
  constructor
  · intro h o ho
    exact h _ (List.mem_map_of_mem ho)
  · intro h x hx
    obtain ⟨o, ho, rfl⟩ := List.mem_map.1 hx
    exact h o ho

/-- The items of a run. -/
theorem runs_spells {os : List (ElementType × Cfg)} {d : Loose.Document} (hd : Spells e doc d)
    (hr : Runs e (strm doc) calls (Cfg.new output em addr) os) :
    (∀ o ∈ os, o.1 = .ErrorOccurred → o.2.error = .ErrUndefinedCharacterEntity) ∧
    (∃ k, sound os = (d.types ++ List.replicate os.length ElementType.Exit).take k) ∧
    (.Exit ∈ os.map (·.1) ∨ d.types.length + doc.length ≤ calls.length → ∃ k, sound os = d.types ++ List.replicate k .Exit) := by
  obtain ⟨h1, N, h2⟩ := hd
  have hg : ∀ mask, Goes e (strm doc) mask (Cfg.new output em addr) d.types := .new (n := N) (by
    unfold view; rw [← h2]; exact auto_of_document h1)
  obtain ⟨h3, j, k, h4, h5, h6⟩ := runs_forward hr hg
  have h7 := runs_undef (strm_ends doc) hr (Inv0.new output em addr) h3
  have h8 : os.length = calls.length := hr.length
  have h9 : (sound os).length ≤ os.length := by
    unfold sound
    exact Nat.le_trans (List.length_filter_le ..) (by rw [List.length_map]; exact Nat.le_refl _)
  have h10 : (sound os).length = min j d.types.length + k := by rw [h4]; simp
  refine ⟨h3, ?_, ?_⟩
  · by_cases hk : k = 0
    · subst hk
      refine ⟨min j d.types.length, ?_⟩
      rw [h4, List.take_append_of_le_length (Nat.min_le_right ..)]
      simp [List.take_eq_take_iff]
    · have := h5 hk
      refine ⟨d.types.length + k, ?_⟩
      rw [h4, List.take_of_length_le this, List.take_length_add_append, List.take_replicate]
      congr 2
      omega
  · intro h
    have : d.types.length ≤ j := by
      rcases h with h | h
      · exact h6 h
      · by_cases hk : k = 0
        · have h0 : (Cfg.new output em addr).src = 0 := rfl
          rw [h0] at h7
          omega
        · exact h5 hk
    exact ⟨k, by rw [h4, List.take_of_length_le this]⟩

/-- **C106** — A document the scanner takes to the end without an error other than an unknown entity is a document of the grammar, and the types
of the items are the ones the grammar tells, whatever types of items are asked for. -/
theorem C106_only (hb : ∀ b ∈ doc, b < 256) {n : Nat} {os : List Obs} {s1 : Scanner (TextScanner SrcIt)}
    (h : session n sp calls (oneScanner e output em addr doc) = (.ok os, s1)) (he : OnlyUnknown os) (hx : .Exit ∈ os.map Obs.type) :
    ∃ d, Spells e doc d ∧ ∃ k, itemTypes os = d.types ++ List.replicate k .Exit := by
  obtain ⟨os', h1, rfl, -⟩ := session_ok (fun _ => oneSrc_wrap) (oneScanner_rel e output em addr doc (strm_lt doc hb)) h
  have hx' : .Exit ∈ os'.map (·.1) := by rw [List.map_map] at hx; exact hx
  obtain ⟨mask, ts, h2⟩ := passes_of_runs h1 ((onlyUnknown_obs os').1 he) hx'
  obtain ⟨N, h3⟩ := h2.left ((Inv0.new output em addr).inv mask) nofun
  obtain ⟨d, h4, h5, h6⟩ : ∃ d : Loose.Document, d.Ok ∧ view e (strm doc) 0 N = d.spell ++ [0] ∧ ts = d.types := lang_of_auto (h3.start rfl)
  have hs : Spells e doc d := ⟨h4, N, h5.symm⟩
  rw [itemTypes_obs]
  exact ⟨d, hs, (runs_spells hs h1).2.2 (.inl hx')⟩

/-- The same for a document in chunks. -/
theorem C106_chunks {c : List Byte} {cs : List (List Byte)} (hd : doc = c ++ cs.flatten) (hb : ∀ b ∈ doc, b < 256)
    (hwf : e = .utf8 → Continued doc) {fresh : Bool} (hsp : sp = true → fresh = false) {n : Nat} {os : List Obs}
    {s1 : Scanner (TextScanner SrcIt)} (h : sessionFed n fresh sp calls cs (fedScanner e output em addr c cs) = (.ok os, s1))
    (he : OnlyUnknown os) (hx : .Exit ∈ os.map Obs.type) :
    ∃ d, Spells e doc d ∧ ∃ k, itemTypes os = d.types ++ List.replicate k .Exit := by
  rcases sessionFed_res hwf hsp (fedRel_new _ _ _ _ (!fresh) hd (strm_lt doc hb)) h with h1 | ⟨os', h1, h2⟩
  · cases h1
  · cases h2
    have hx' : .Exit ∈ os'.map (·.1) := by rw [List.map_map] at hx; exact hx
    obtain ⟨mask, ts, h2⟩ := passes_of_runs h1 ((onlyUnknown_obs os').1 he) hx'
    obtain ⟨N, h3⟩ := h2.left ((Inv0.new output em addr).inv mask) nofun
    obtain ⟨d, h4, h5, h6⟩ : ∃ d : Loose.Document, d.Ok ∧ view e (strm doc) 0 N = d.spell ++ [0] ∧ ts = d.types := lang_of_auto (h3.start rfl)
    have hs : Spells e doc d := ⟨h4, N, h5.symm⟩
    rw [itemTypes_obs]
    exact ⟨d, hs, (runs_spells hs h1).2.2 (.inl hx')⟩

/-- On a document of the grammar all calls return, the only errors are unknown entities, the other items have the types the grammar tells, and with
enough calls the end is reached. -/
theorem C106_all (hb : ∀ b ∈ doc, b < 256) {d : Loose.Document} (hd : Spells e doc d) :
    ∃ N, ∀ n, N ≤ n → ∃ os s1, session n sp calls (oneScanner e output em addr doc) = (.ok os, s1) ∧ OnlyUnknown os ∧
      (∃ k, itemTypes os = (d.types ++ List.replicate os.length ElementType.Exit).take k) ∧
      (d.types.length + doc.length ≤ calls.length → ∃ k, itemTypes os = d.types ++ List.replicate k .Exit) := by
  obtain ⟨k, h2⟩ := hd.2
  have hg : ∀ mask, Goes e (strm doc) mask (Cfg.new output em addr) d.types := .new (n := k) (by
    unfold view; rw [← h2]; exact auto_of_document hd.1)
  obtain ⟨os, hr⟩ := runs_exist (strm_ends doc) hg
  obtain ⟨h3, h4, h5⟩ := runs_spells hd hr
  obtain ⟨N, h6⟩ := session_runs (S := oneSrc _ (strm_lt doc hb)) (sp := sp) oneSrc_total (fun _ => oneSrc_wrap) hr
  refine ⟨N, fun n hn => ?_⟩
  obtain ⟨s, h7⟩ := h6 n hn _ (oneScanner_rel e output em addr doc (strm_lt doc hb))
  refine ⟨_, s, h7, (onlyUnknown_obs os).2 h3, ?_, fun h => ?_⟩
  · rw [itemTypes_obs, List.length_map]; exact h4
  · rw [itemTypes_obs]; exact h5 (.inr h)

/-- The same for a document in chunks. -/
theorem C106_chunks_all {c : List Byte} {cs : List (List Byte)} (hc : doc = c ++ cs.flatten) (hb : ∀ b ∈ doc, b < 256)
    (hwf : e = .utf8 → Continued doc) {fresh : Bool} (hsp : sp = true → fresh = false) {d : Loose.Document} (hd : Spells e doc d) :
    ∃ N, ∀ n, N ≤ n → ∃ os s1, sessionFed n fresh sp calls cs (fedScanner e output em addr c cs) = (.ok os, s1) ∧ OnlyUnknown os ∧
      (∃ k, itemTypes os = (d.types ++ List.replicate os.length ElementType.Exit).take k) ∧
      (d.types.length + doc.length ≤ calls.length → ∃ k, itemTypes os = d.types ++ List.replicate k .Exit) := by
  obtain ⟨k, h2⟩ := hd.2
  have hg : ∀ mask, Goes e (strm doc) mask (Cfg.new output em addr) d.types := .new (n := k) (by
    unfold view; rw [← h2]; exact auto_of_document hd.1)
  obtain ⟨os, hr⟩ := runs_exist (strm_ends doc) hg
  obtain ⟨h3, h4, h5⟩ := runs_spells hd hr
  obtain ⟨N, h6⟩ := sessionFed_runs (hb := strm_lt doc hb) hwf hsp cs.length hr
  refine ⟨N, fun n hn => ?_⟩
  obtain ⟨s, h7⟩ := h6 n hn cs _ (Nat.le_refl _) (fedRel_new _ _ _ _ (!fresh) hc (strm_lt doc hb))
  refine ⟨_, s, h7, (onlyUnknown_obs os).2 h3, ?_, fun h => ?_⟩
  · rw [itemTypes_obs, List.length_map]; exact h4
  · rw [itemTypes_obs]; exact h5 (.inr h)

/-- The scanner takes exactly the documents of the grammar. -/
theorem C106_exactly (hb : ∀ b ∈ doc, b < 256) :
    (∃ d, Spells e doc d) ↔
    ∃ n calls os s1, session n sp calls (oneScanner e output em addr doc) = (.ok os, s1) ∧ OnlyUnknown os ∧
      .Exit ∈ os.map Obs.type := by
  constructor
  · rintro ⟨d, hd⟩
    obtain ⟨N, h⟩ := C106_all (sp := sp) (output := output) (em := em) (addr := addr) (calls := List.replicate (d.types.length + doc.length) (0, false)) hb hd
    obtain ⟨os, s1, h1, h2, -, h3⟩ := h N (Nat.le_refl _)
    obtain ⟨k, h4⟩ := h3 (by rw [List.length_replicate]; exact Nat.le_refl _)
    refine ⟨N, _, os, s1, h1, h2, ?_⟩
    have : .Exit ∈ itemTypes os := by rw [h4]; simp [Loose.Document.types]
    exact (List.mem_filter.1 this).1
  · rintro ⟨n, calls, os, s1, h, he, hx⟩
    obtain ⟨d, hd, -⟩ := C106_only hb h he hx
    exact ⟨d, hd⟩

/-- There is only one way to tell the types of the items of a text. -/
theorem C106_unique {d1 d2 : Loose.Document} (h1 : Spells e doc d1) (h2 : Spells e doc d2) : d1.types = d2.types := by
  obtain ⟨N, h⟩ := h1.2
  have a1 : Auto .START (view e (strm doc) 0 N) d1.types := by unfold view; rw [← h]; exact auto_of_document h1.1
  obtain ⟨os, hr⟩ := runs_exist (calls := List.replicate (d1.types.length + doc.length + (d2.types.length + doc.length)) (0, false)) (strm_ends doc)
    (.new a1 : ∀ mask, Goes e (strm doc) mask (Cfg.new .utf8 none 0) d1.types)
  obtain ⟨k1, e1⟩ := (runs_spells h1 hr).2.2 (.inr (by rw [List.length_replicate]; omega))
  obtain ⟨k2, e2⟩ := (runs_spells h2 hr).2.2 (.inr (by rw [List.length_replicate]; omega))
  obtain ⟨w1, f1, g1⟩ := auto_last a1
  obtain ⟨w2, f2, g2⟩ := auto_last (auto_of_document h2.1)
  rw [e1, f1, f2, List.append_assoc, List.append_assoc] at e2
  rw [f1, f2, before_exit g1 g2 e2]

/-! ## A document far from XML -/

/-- `  <>&x;<a b=c d=/ ></b ><!----->--> x` -/
def looseExample : Loose.Document where
  lead := codes "  "
  content := some (.mark ⟨[], .open_ [] [] [] none, codes "&x;"⟩,
    [⟨[], .open_ (codes "a") [⟨[32], codes "b", [], [], ⟨.bare, codes "c"⟩⟩, ⟨[32], codes "d", [], [], ⟨.bare, []⟩⟩] [] (some [32]), []⟩,
     ⟨[], .close (codes "b") [32], []⟩,
     ⟨[], .comment (codes "--->--"), codes " x"⟩])

theorem closed_of {a : Byte} {P : Nat → Prop} {t : List Byte} (h1 : P (Loose.trailing a t))
    (h2 : ∀ k < t.length, t[k]? = some 62 → ¬ P (Loose.trailing a (t.take k))) : Loose.Closed a P t := by
  refine ⟨h1, ?_⟩
  rintro p s rfl
  have := h2 p.length (by simp) (by simp)
  rwa [List.take_left'  rfl] at this

theorem looseExample_ok : looseExample.Ok := by
  refine ⟨by unfold Gaps Gap; decide, ?_⟩
  intro c hc
  cases hc
  refine ⟨?_, ?_⟩
  · exact ⟨by unfold Gaps Gap; decide, ⟨by unfold Loose.Chars; decide, by unfold Loose.AttrsOk Gaps Gap; decide, nofun, fun _ => ⟨rfl, rfl, nofun⟩⟩,
      by unfold Loose.Chars; decide⟩
  · simp only [List.forall_mem_cons]
    refine ⟨?_, ?_, ?_, nofun⟩
    · refine ⟨by unfold Gaps Gap; decide, ⟨by unfold Loose.Chars; decide, ⟨?_, nofun, ?_, fun _ => ⟨rfl, rfl⟩, ?_⟩, ?_, nofun⟩, by unfold Loose.Chars; decide⟩
      · unfold Loose.Attr.Ok Loose.Val.Ok Gaps Gap Loose.Chars; decide
      · unfold Loose.Attr.Ok Loose.Val.Ok Gaps Gap Loose.Chars; decide
      · unfold Loose.AttrsOk Gaps Gap; decide
      · intro g hg; cases hg; unfold Gaps Gap; decide
    · exact ⟨by unfold Gaps Gap; decide, ⟨rfl, by unfold Loose.Chars; decide, by unfold Gaps Gap; decide⟩, by unfold Loose.Chars; decide⟩
    · exact ⟨by unfold Gaps Gap; decide, closed_of (by unfold Loose.dashes; decide) (by unfold Loose.dashes; decide), by unfold Loose.Chars; decide⟩

/-- The document meets the conditions of the theorems. -/
example : Spells .utf8 (codes "  <>&x;<a b=c d=/ ></b ><!----->--> x") looseExample :=
  ⟨looseExample_ok, 38, by decide +kernel⟩

/-- In UTF-16, too. -/
example : Spells (.utf16 true) ((codes "  <>&x;<a b=c d=/ ></b ><!----->--> x").flatMap fun c => [0, c]) looseExample :=
  ⟨looseExample_ok, 38, by decide +kernel⟩

/-- What the scanner tells of the document, with the unknown entity. -/
example : (session 200 false (List.replicate 14 (2 ^ 32 - 1, true)) (oneScanner .utf8 .utf8 none 0 (codes "  <>&x;<a b=c d=/ ></b ><!----->--> x"))).1 =
    .ok ([(.OpenTag, "", .Ok), (.ErrorOccurred, "", .ErrUndefinedCharacterEntity), (.Content, ";", .Ok), (.OpenTag, "a", .Ok),
      (.TagAttribName, "b", .Ok), (.TagAttribValue, "c", .Ok), (.TagAttribName, "d", .Ok), (.TagAttribValue, "", .Ok), (.CloseTagIm, "", .Ok),
      (.CloseTagIm, "", .Ok), (.CloseTag, "b", .Ok), (.Content, "x", .Ok), (.Exit, "", .Ok), (.Exit, "", .Ok)].map
        fun x => ⟨x.1, codes x.2.1, x.2.2, none⟩) := by
  decide +kernel

/-- In chunks, and with no type of items asked for. -/
example : (sessionFed 200 true false (List.replicate 13 (0, true)) [codes "<a b=c d=/", codes " ></b ><!----", codes "->--> x"]
      (fedScanner .utf8 .utf8 none 0 (codes "  <>&x;") [codes "<a b=c d=/", codes " ></b ><!----", codes "->--> x"])).1 =
    .ok ([.OpenTag, .Content, .OpenTag, .TagAttribName, .TagAttribValue, .TagAttribName, .TagAttribValue, .CloseTagIm,
      .CloseTagIm, .CloseTag, .Content, .Exit, .Exit].map fun t => ⟨t, [], .Ok, none⟩) := by
  decide +kernel

/-- A document that is not accepted, as there is no white space between a value and the next name. -/
example : (session 200 false (List.replicate 4 (2 ^ 32 - 1, false)) (oneScanner .utf8 .utf8 none 0 (codes "<a b='c'd=e>"))).1 =
    .ok ([(.OpenTag, "a", .Ok), (.TagAttribName, "b", .Ok), (.TagAttribValue, "c", .Ok), (.ErrorOccurred, "c", .ErrExpectedTagAttribute)].map
        fun x => ⟨x.1, codes x.2.1, x.2.2, none⟩) := by
  decide +kernel

end TW
