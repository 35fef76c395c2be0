import Verif.Proofs.AcceptItemsRun
import Verif.Props.Accept

/-!
# Property C112: the items of an accepted document with their texts
-/

namespace TW

open Spec Mach Scanner AcceptItems

variable {e output : Enc} {em : Option (List (Nat × UChar))} {addr : Nat} {doc : List Byte} {sp : Bool}
  {calls : List (Nat × Bool)} {d : Loose.Document}

/-- `o` is the item `x` of the document `d`: of its type, and if there are characters `t` with `r` behind them up to the end of the document, `o`
stands where these begin and has the value of these characters for text, if items of this type are asked for (`asked`). -/
structure IsItem (e output : Enc) (user : Option UChar) (doc : List Byte) (sp : Bool) (asked : Nat) (d : Loose.Document) (x : Loose.Item) (o : Obs) : Prop where
  type : o.type = x.1
  text : asked.testBit o.type.toNat = true → ∀ t r, x.2 = some (t, r) → ∃ p, p = offs e (strm doc) 0 (d.spell.length + 1 - (t.length + r.length)) ∧
    t.length + r.length ≤ d.spell.length + 1 ∧
    (sp = true → o.pos = some (p % 2 ^ 64)) ∧ (chars e (strm doc) p t.length).map Ch.asc = t ∧
    ∀ ss : List Seg, ss.flatMap Seg.text = chars e (strm doc) p t.length → SegsOk user (r.headD 0) ss → o.item = value e output ss

theorem runs_isItem {os : List (ElementType × Cfg)} (hd : Spells e doc d)
    (hr : Runs e (strm doc) calls (Cfg.new output em addr) os) :
    (38 ∉ d.spell → ∀ o ∈ os, o.1 ≠ .ErrorOccurred) ∧
    ∀ i o x m c, os[i]? = some o → calls[i]? = some (m, c) → d.items[i]? = some x → (∀ o ∈ os.take (i + 1), o.1 ≠ .ErrorOccurred) →
      IsItem e output (found em addr) doc sp m d x (Mach.obs sp o) := by
  obtain ⟨h1, N, h2⟩ := hd
  have hN : N = d.spell.length + 1 := by
    have := congrArg List.length h2
    rw [List.length_map, chars_length, List.length_append] at this
    exact this.symm
  have ha : LAuto .START (view e (strm doc) 0 N) d.items := by unfold view; rw [← h2]; exact AcceptItems.auto_of_document h1
  obtain ⟨g1, g2⟩ := runs_items hr (.new _ _ _) (LGoes.new ha) ha.kinds
  refine ⟨fun h38 => g1 ?_, fun i o x m c ho hm hx he => ?_⟩
  · unfold view
    rw [← h2]
    simp [h38]
  · obtain ⟨k1, k2⟩ := g2 i o.1 o.2 x ho hx he
    have k2 := fun hb => k2 m c hm (k1 ▸ hb)
    refine ⟨k1.symm, fun hb t r ht => ⟨o.2.tokenpos, ?_, ?_, ?_, (k2 (k1.symm ▸ hb) t r ht).chs, (k2 (k1.symm ▸ hb) t r ht).out⟩⟩
    · rw [(k2 (k1.symm ▸ hb) t r ht).pos, hN, List.length_append]
    · have := (k2 (k1.symm ▸ hb) t r ht).le
      rw [List.length_append] at this
      omega
    · rintro rfl
      rfl

/-- **C112** — For any document of the grammar the items have the types, the positions and the texts the grammar tells, up to the first error. -/
theorem C112_items (hb : ∀ b ∈ doc, b < 256) (hd : Spells e doc d) {n : Nat} {os : List Obs} {s1 : Scanner (TextScanner SrcIt)}
    (h : session n sp calls (oneScanner e output em addr doc) = (.ok os, s1)) {i : Nat} {o : Obs} {x : Loose.Item} {m : Nat} {b : Bool}
    (ho : os[i]? = some o) (hm : calls[i]? = some (m, b)) (hx : d.items[i]? = some x) (he : ∀ o ∈ os.take (i + 1), o.type ≠ .ErrorOccurred) :
    IsItem e output (found em addr) doc sp m d x o := by
  obtain ⟨os', h1, rfl, -⟩ := session_ok (fun _ => oneSrc_wrap) (oneScanner_rel e output em addr doc (strm_lt doc hb)) h
  rw [List.getElem?_map] at ho
  cases hy : os'[i]? with
  | none => rw [hy] at ho; cases ho
  | some y =>
    rw [hy] at ho
    cases ho
    exact (runs_isItem hd h1).2 i y x m b hy hm hx fun o ho => he (Mach.obs sp o) (by rw [← List.map_take]; exact List.mem_map_of_mem ho)

/-- The same for a document in chunks. -/
theorem C112_chunks {c : List Byte} {cs : List (List Byte)} (hc : doc = c ++ cs.flatten) (hb : ∀ b ∈ doc, b < 256)
    (hwf : e = .utf8 → Continued doc) {fresh : Bool} (hsp : sp = true → fresh = false) (hd : Spells e doc d)
    {n : Nat} {os : List Obs} {s1 : Scanner (TextScanner SrcIt)} (h : sessionFed n fresh sp calls cs (fedScanner e output em addr c cs) = (.ok os, s1))
    {i : Nat} {o : Obs} {x : Loose.Item} {m : Nat} {b : Bool} (ho : os[i]? = some o) (hm : calls[i]? = some (m, b)) (hx : d.items[i]? = some x) (he : ∀ o ∈ os.take (i + 1), o.type ≠ .ErrorOccurred) :
    IsItem e output (found em addr) doc sp m d x o := by
  rcases sessionFed_res hwf hsp (fedRel_new _ _ _ _ (!fresh) hc (strm_lt doc hb)) h with h1 | ⟨os', h1, h2⟩
  · cases h1
  · cases h2
    rw [List.getElem?_map] at ho
    cases hy : os'[i]? with
    | none => rw [hy] at ho; cases ho
    | some y =>
      rw [hy] at ho
      cases ho
      exact (runs_isItem hd h1).2 i y x m b hy hm hx fun o ho => he (Mach.obs sp o) (by rw [← List.map_take]; exact List.mem_map_of_mem ho)

/-! ## The types -/

theorem attrItems_types (hdr : Bool) : ∀ (as : List Loose.Attr) (r : List Byte), (Loose.attrItems hdr as r).map (·.1) = Loose.attrTypes hdr as
  | [], _ => rfl
  | a :: as, r => by
    unfold Loose.attrItems
    rw [List.map_cons, List.map_cons, attrItems_types hdr as r]
    rfl

theorem partItems_types (tail r : List Byte) : ∀ ps : List (List Byte × Loose.Part),
    (Loose.partItems tail r ps).map (·.1) = ps.flatMap (fun p => p.2.types) ++ [.DocAttribEnd]
  | [] => rfl
  | (_, .word _) :: ps | (_, .sq _) :: ps | (_, .dq _) :: ps | (_, .subset _) :: ps => by
    simp [Loose.partItems, Loose.Part.types, partItems_types tail r ps]

theorem textItems_types (seek : Bool) (t r : List Byte) : (Loose.textItems seek t r).map (·.1) = Loose.textTypes seek t := by
  unfold Loose.textItems Loose.textTypes
  simp only
  generalize (if seek = true then List.dropWhile (fun a => decide (Gap a)) t else t) = t'
  split <;> rfl

theorem markItems_types (r : List Byte) (m : Loose.Mark) : (m.items r).map (·.1) = m.types := by
  cases m with
  | open_ name attrs tail im =>
    simp only [Loose.Mark.items, Loose.Mark.types, List.map_cons, List.map_append, attrItems_types]
    cases im with
    | none => rfl
    | some g => simp
  | close => rfl
  | decl ps tail => exact partItems_types tail r ps
  | comment => rfl
  | pi => rfl
  | cdata => rfl

theorem pieceItems1_types (p : Loose.Piece) (r : List Byte) : (p.items r).map (·.1) = p.types := by
  unfold Loose.Piece.items Loose.Piece.types
  rw [List.map_append, markItems_types, textItems_types]

theorem pieceItems_types : ∀ (ps : List Loose.Piece) (r : List Byte), (Loose.pieceItems ps r).map (·.1) = ps.flatMap Loose.Piece.types
  | [], _ => rfl
  | p :: ps, r => by rw [Loose.pieceItems, List.map_append, pieceItems1_types, pieceItems_types ps r, List.flatMap_cons]

/-- The types of the items are the ones of C106. -/
theorem items_types (d : Loose.Document) : d.items.map (·.1) = d.types := by
  obtain ⟨lead, content⟩ := d
  cases content with
  | none => rfl
  | some c =>
    obtain ⟨b, ps⟩ := c
    simp only [Loose.Document.items, Loose.Document.types, List.map_append, pieceItems_types]
    cases b with
    | header lead attrs tail gap text =>
      simp [Loose.Beginning.items, Loose.Beginning.types, attrItems_types, textItems_types]
    | mark p => simp [Loose.Beginning.items, Loose.Beginning.types, pieceItems1_types]

/-- There is only one way to tell the items of a text, and where it ends. -/
theorem C112_unique {d1 d2 : Loose.Document} (h1 : Spells e doc d1) (h2 : Spells e doc d2) : d1.spell = d2.spell ∧ d1.items = d2.items := by
  have key : ∀ {d1 d2 : Loose.Document} {N k : Nat}, d1.Ok → d2.Ok → d1.spell ++ [0] = (chars e (strm doc) 0 N).map Ch.asc →
      d2.spell ++ [0] = (chars e (strm doc) 0 (N + k)).map Ch.asc → d1.spell = d2.spell ∧ d1.items = d2.items := by
    intro d1 d2 N k k1 k2 g1 g2
    rw [chars_add, List.map_append, ← g1] at g2
    have a1 := AcceptItems.auto_of_document k1
    have a2 := AcceptItems.auto_of_document k2
    rw [g2] at a2
    have hz := a1.prefix a2
    rw [hz, List.append_nil] at g2 a2
    exact ⟨(List.append_cancel_right g2).symm, a1.unique a2⟩
  obtain ⟨k1, N, g1⟩ := h1
  obtain ⟨k2, M, g2⟩ := h2
  rcases Nat.le_total N M with h | h
  · obtain ⟨k, rfl⟩ := Nat.exists_eq_add_of_le h
    exact key k1 k2 g1 g2
  · obtain ⟨k, rfl⟩ := Nat.exists_eq_add_of_le h
    obtain ⟨e1, e2⟩ := key k2 k1 g2 g1
    exact ⟨e1.symm, e2.symm⟩

/-! ## Documents without ampersands -/

/-- The text of an item without references: each character in the encoding of the output, the line ends normalised. -/
def plainText (e output : Enc) (cs : List Ch) : List Byte :=
  lines output (cs.map fun c => if c.asc = 13 then .cr else if c.asc = 10 then .lf else .bytes (c.deliver e output))

theorem IsItem.plain {user : Option UChar} {x : Loose.Item} {o : Obs} {m : Nat} (h : IsItem e output user doc sp m d x o)
    (hm : m.testBit o.type.toNat = true) {t r : List Byte}
    (hx : x.2 = some (t, r)) (ht : 38 ∉ t) :
    o.item = plainText e output (chars e (strm doc) (offs e (strm doc) 0 (d.spell.length + 1 - (t.length + r.length))) t.length) := by
  obtain ⟨p, rfl, -, -, h1, h2⟩ := h.text hm t r hx
  generalize hus : chars e (strm doc) (offs e (strm doc) 0 (d.spell.length + 1 - (t.length + r.length))) t.length = us at h1 h2
  have hc : ∀ c ∈ us, c.asc ≠ 38 := fun c hc h0 => ht (by rw [← h1, ← h0]; exact List.mem_map_of_mem hc)
  rw [h2 (us.map .ch) ?_ ?_]
  · unfold value plainText
    rw [List.map_map]
    rfl
  · rw [List.flatMap_map]
    exact List.flatMap_singleton' _
  · clear h1 h2 hus
    induction us with
    | nil => trivial
    | cons u us ih => exact ⟨hc u (List.mem_cons_self ..), ih fun c h => hc c (List.mem_cons_of_mem _ h)⟩

/-- `os` are the items of a document without ampersands: there is no error, there are the items of the document with the characters of their tokens
for texts, as far as they are asked for, and then there is the end for ever. -/
def PlainItems (e output : Enc) (doc : List Byte) (sp : Bool) (calls : List (Nat × Bool)) (d : Loose.Document) (os : List Obs) : Prop :=
  ∀ i o, os[i]? = some o → o.type ≠ .ErrorOccurred ∧ (d.items.length ≤ i → o.type = .Exit) ∧ ∀ x, d.items[i]? = some x → o.type = x.1 ∧
    ∀ m c, calls[i]? = some (m, c) → m.testBit o.type.toNat = true → ∀ t r, x.2 = some (t, r) → ∃ p, p = offs e (strm doc) 0 (d.spell.length + 1 - (t.length + r.length)) ∧
      (sp = true → o.pos = some (p % 2 ^ 64)) ∧ (chars e (strm doc) p t.length).map Ch.asc = t ∧
      o.item = plainText e output (chars e (strm doc) p t.length)

theorem runs_plain {os : List (ElementType × Cfg)} (hd : Spells e doc d) (h38 : 38 ∉ d.spell)
    (hr : Runs e (strm doc) calls (Cfg.new output em addr) os) : PlainItems e output doc sp calls d (os.map (Mach.obs sp)) := by
  obtain ⟨k, h2⟩ := hd.2
  obtain ⟨-, ⟨j, h4⟩, -⟩ := runs_spells hd hr
  obtain ⟨h5, h6⟩ := runs_isItem (sp := sp) hd hr
  have h5 := h5 h38
  have hsound : sound os = os.map (·.1) := by
    unfold sound
    rw [List.filter_eq_self]
    intro a ha
    obtain ⟨o, ho, rfl⟩ := List.mem_map.1 ha
    simpa using h5 o ho
  intro i o ho
  rw [List.getElem?_map] at ho
  cases hy : os[i]? with
  | none => rw [hy] at ho; cases ho
  | some y =>
    rw [hy] at ho
    cases ho
    refine ⟨h5 y (List.mem_of_getElem? hy), fun hi => ?_, fun x hx => ?_⟩
    · rw [hsound] at h4
      have h9 := congrArg (fun l => l[i]?) h4
      simp only [List.getElem?_map, hy, Option.map_some] at h9
      rw [List.getElem?_take] at h9
      split at h9
      · rw [List.getElem?_append_right (by rw [← items_types, List.length_map]; exact hi), List.getElem?_replicate] at h9
        split at h9
        · exact Option.some.inj h9
        · cases h9
      · cases h9
    · obtain ⟨⟨m0, c0⟩, hc0⟩ : ∃ q, calls[i]? = some q := by
        have hi : i < calls.length := by
          have := (List.getElem?_eq_some_iff.1 hy).1
          rw [← hr.length]; exact this
        exact ⟨_, List.getElem?_eq_getElem hi⟩
      have h9 := h6 i y x m0 c0 hy hc0 hx fun o ho => h5 o (List.mem_of_mem_take ho)
      refine ⟨h9.type, fun m c hc hm t r ht => ?_⟩
      rw [hc0] at hc
      cases hc
      obtain ⟨p, hp, hle, k2, k3, -⟩ := h9.text hm t r ht
      refine ⟨p, hp, k2, k3, ?_⟩
      rw [hp]
      refine h9.plain hm ht fun h0 => h38 ?_
      rw [← k3, hp] at h0
      have h10 : d.spell ++ [0] = (chars e (strm doc) 0 k).map Ch.asc := h2
      have hk : k = d.spell.length + 1 := by
        have := congrArg List.length h10
        rw [List.length_map, chars_length, List.length_append] at this
        exact this.symm
      have h11 : (38 : Byte) ∈ d.spell ++ [0] := by
        rw [h10, hk, ← Nat.sub_add_cancel hle, chars_add, List.map_append]
        refine List.mem_append_right _ ?_
        rw [chars_add, List.map_append]
        exact List.mem_append_left _ h0
      rcases List.mem_append.1 h11 with h | h
      · exact h
      · cases List.mem_singleton.1 h

/-- All the scanner does on a document of the grammar without ampersands: the calls return, with the items of the document. -/
theorem C112_plain (hb : ∀ b ∈ doc, b < 256) (hd : Spells e doc d) (h38 : 38 ∉ d.spell) :
    ∃ N, ∀ n, N ≤ n → ∃ os s1, session n sp calls (oneScanner e output em addr doc) = (.ok os, s1) ∧ os.length = calls.length ∧
      PlainItems e output doc sp calls d os := by
  obtain ⟨k, h2⟩ := hd.2
  have hg : ∀ mask, Goes e (strm doc) mask (Cfg.new output em addr) d.types := .new (n := k) (by
    unfold view; rw [← h2]; exact Accept.auto_of_document hd.1)
  obtain ⟨os, hr⟩ := runs_exist (calls := calls) (strm_ends doc) hg
  obtain ⟨N, h7⟩ := session_runs (S := oneSrc _ (strm_lt doc hb)) (sp := sp) oneSrc_total (fun _ => oneSrc_wrap) hr
  refine ⟨N, fun n hn => ?_⟩
  obtain ⟨s, h8⟩ := h7 n hn _ (oneScanner_rel e output em addr doc (strm_lt doc hb))
  exact ⟨_, s, h8, by rw [List.length_map]; exact hr.length, runs_plain hd h38 hr⟩

/-- The same for a document in chunks. -/
theorem C112_chunks_plain {c : List Byte} {cs : List (List Byte)} (hc : doc = c ++ cs.flatten) (hb : ∀ b ∈ doc, b < 256)
    (hwf : e = .utf8 → Continued doc) {fresh : Bool} (hsp : sp = true → fresh = false) (hd : Spells e doc d) (h38 : 38 ∉ d.spell)
    :
    ∃ N, ∀ n, N ≤ n → ∃ os s1, sessionFed n fresh sp calls cs (fedScanner e output em addr c cs) = (.ok os, s1) ∧ os.length = calls.length ∧
      PlainItems e output doc sp calls d os := by
  obtain ⟨k, h2⟩ := hd.2
  have hg : ∀ mask, Goes e (strm doc) mask (Cfg.new output em addr) d.types := .new (n := k) (by
    unfold view; rw [← h2]; exact Accept.auto_of_document hd.1)
  obtain ⟨os, hr⟩ := runs_exist (calls := calls) (strm_ends doc) hg
  obtain ⟨N, h7⟩ := sessionFed_runs (hb := strm_lt doc hb) hwf hsp cs.length hr
  refine ⟨N, fun n hn => ?_⟩
  obtain ⟨s, h8⟩ := h7 n hn cs _ (Nat.le_refl _) (fedRel_new _ _ _ _ (!fresh) hc (strm_lt doc hb))
  exact ⟨_, s, h8, by rw [List.length_map]; exact hr.length, runs_plain hd h38 hr⟩

/-! ## A document -/

/-- `<?xml v="1"?>`, a line end, `<a  b = 'x` CR LF `y'>p` CR `q<c/ > </a>` -/
def itemsExample : Loose.Document where
  lead := []
  content := some (.header [] [⟨[32], codes "v", [], [], ⟨.dq, codes "1"⟩⟩] [] [] [10],
    [⟨[], .open_ (codes "a") [⟨[32, 32], codes "b", [32], [32], ⟨.sq, [120, 13, 10, 121]⟩⟩] [] none, [112, 13, 113]⟩,
     ⟨[], .open_ (codes "c") [] [] (some [32]), codes " "⟩,
     ⟨[], .close (codes "a") [], []⟩])

theorem itemsExample_ok : itemsExample.Ok := by
  refine ⟨by unfold Gaps Gap; decide, ?_⟩
  intro c hc
  cases hc
  refine ⟨?_, ?_⟩
  · refine ⟨by unfold Gaps Gap; decide, ⟨?_, nofun, ?_⟩, by unfold Gaps Gap; decide, by unfold Loose.Chars; decide⟩
    · unfold Loose.Attr.Ok Loose.Val.Ok Gaps Gap Loose.Chars; decide
    · unfold Loose.AttrsOk Gaps Gap; decide
  · simp only [List.forall_mem_cons]
    refine ⟨?_, ?_, ?_, nofun⟩
    · refine ⟨by unfold Gaps Gap; decide, ⟨by unfold Loose.Chars; decide, ⟨?_, nofun, ?_⟩, nofun, nofun⟩, by unfold Loose.Chars; decide⟩
      · unfold Loose.Attr.Ok Loose.Val.Ok Gaps Gap Loose.Chars; decide
      · unfold Loose.AttrsOk Gaps Gap; decide
    · refine ⟨by unfold Gaps Gap; decide, ⟨by unfold Loose.Chars; decide, ?_, ?_, nofun⟩, by unfold Loose.Chars; decide⟩
      · unfold Loose.AttrsOk Gaps Gap; decide
      · intro g hg; cases hg; unfold Gaps Gap; decide
    · exact ⟨by unfold Gaps Gap; decide, ⟨rfl, by unfold Loose.Chars; decide, by unfold Gaps Gap; decide⟩, by unfold Loose.Chars; decide⟩

/-- The document meets the conditions of the theorems. -/
example : Spells .utf8 itemsExample.spell itemsExample ∧ 38 ∉ itemsExample.spell :=
  ⟨⟨itemsExample_ok, 43, by decide +kernel⟩, by decide +kernel⟩

/-- Its items. -/
example : itemsExample.items.map (fun x => (x.1, x.2.map fun y => (y.1, itemsExample.spell.length + 1 - (y.1.length + y.2.length)))) =
    [(.HeaderStart, none), (.HeaderAttribName, some (codes "v", 6)), (.HeaderAttribValue, some (codes "1", 9)), (.HeaderEnd, none),
     (.OpenTag, some (codes "a", 15)), (.TagAttribName, some (codes "b", 18)), (.TagAttribValue, some ([120, 13, 10, 121], 23)),
     (.Content, some ([112, 13, 113], 29)), (.OpenTag, some (codes "c", 33)), (.CloseTagIm, none), (.CloseTagIm, none),
     (.Content, some ([32], 37)), (.CloseTag, some (codes "a", 40)), (.Exit, none)] := by
  decide +kernel

/-- The scanner tells them; the texts have their line ends normalised. -/
example : ((session 300 true (List.replicate 14 (0xFFFF, false)) (oneScanner .utf8 .utf8 none 0 itemsExample.spell)).1) =
    .ok ([(.HeaderStart, "?xml", 0), (.HeaderAttribName, "v", 6), (.HeaderAttribValue, "1", 9), (.HeaderEnd, "", 13), (.OpenTag, "a", 15),
      (.TagAttribName, "b", 18), (.TagAttribValue, "x\ny", 23), (.Content, "p\nq", 29), (.OpenTag, "c", 33), (.CloseTagIm, "", 35),
      (.CloseTagIm, "", 36), (.Content, " ", 37), (.CloseTag, "a", 40), (.Exit, "", 43)].map
        fun x => ⟨x.1, codes x.2.1, .Ok, some x.2.2⟩) := by
  decide +kernel

/-- Only the names of tags are asked for: they stay the same. The texts of the others are not theirs (C113). -/
example : ((session 300 true (List.replicate 9 (2 ^ ElementType.OpenTag.toNat, false)) (oneScanner .utf8 .utf8 none 0 itemsExample.spell)).1) =
    .ok ([(.HeaderStart, "?xml", 0), (.HeaderAttribName, "?xml", 0), (.HeaderAttribValue, "?xml", 0), (.HeaderEnd, "", 13), (.OpenTag, "a", 15),
      (.TagAttribName, "a", 15), (.TagAttribValue, "a", 15), (.Content, "a", 15), (.OpenTag, "c", 33)].map
        fun x => ⟨x.1, codes x.2.1, .Ok, some x.2.2⟩) := by
  decide +kernel

end TW
