import Verif.Proofs.Grammar

/-!
# Reading a document of the grammar: marks
-/

namespace TW

open Spec

namespace Mach

variable {e output : Enc} {f : Nat → Byte} {st st' : STMState} {cs cs' : List UChar} {l : List TItem} {a : Byte}

/-! ## Document types -/

/-- What follows behind a part of a document type. -/
def AfterD (e output : Enc) (cs : List UChar) (l : List TItem) : Prop :=
  ∃ a cs' st', Hd e cs a cs' ∧ Kind.word.ends a = true ∧ (stm .ENTITYID).next (controlCharMap a) = some st' ∧ Gives e output st' cs' l

theorem entity_table :
    (∀ a : _root_.Fin 33, 1 ≤ a.1 → a.1 ≠ 5 → Kind.word.ends a.1 = true ∧ (stm .ENTITYID).next (controlCharMap a.1) = some .ENTITY) ∧
    (∀ a : _root_.Fin 256, Kind.word.ends a.1 = false → (stm .ENTITY).next (controlCharMap a.1) = none ∧
      (a.1 ≠ 45 → (stm .ENTITYSL).next (controlCharMap a.1) = none)) := by
  decide +kernel

theorem entity_next {c : Cc} (h : (stm .ENTITYID).next c = some st') : (stm .ENTITY).next c = some st' := by
  cases c <;> first | exact h | cases h

theorem AfterD.entity (he : PageOk e) (ha : AfterD e output cs l) : Gives e output .ENTITY cs l := by
  obtain ⟨a, cs', st', h1, -, h3, h4⟩ := ha
  exact .char he rfl h1 (entity_next h3) h4

theorem AfterD.word (he : PageOk e) (ha : AfterD e output cs l) {gs : List Glyph}
    (hok : TokenText e .word gs) : Gives e output .ENTITYID (spell gs ++ cs) ((.DocAttribValue, meant gs) :: l) := by
  obtain ⟨a, cs', st', h1, h2, h3, h4⟩ := ha
  exact .token he (op := .ReturnIdentifier) (isTok := isTagC) (kind := .word) rfl rfl rfl (by decide) hok h1 h2 h3 h4

theorem AfterD.val (he : PageOk e) (ha : AfterD e output cs l) {v : Val} (hv : v.Ok e) :
    Gives e output .ENTITY (v.spell ++ cs) ((.DocAttribValue, meant v.text) :: l) := by
  obtain ⟨hv, hne⟩ := hv
  obtain ⟨q, gs⟩ := v
  cases q with
  | dq =>
    have e1 : Val.spell ⟨.dq, gs⟩ ++ cs = 34 :: (spell gs ++ 34 :: cs) := by simp [Val.spell, Quote.mark]
    rw [e1]
    refine .char (st' := .ENTITYDQ) he rfl (.ascii he (by decide) (by decide)) (by decide +kernel) ?_
    exact .token (op := .ReturnDQString) (kind := .dq) (isTok := isDqC) (st' := .ENTITY) he rfl rfl rfl (by decide) hv
      (.ascii he (by decide) (by decide)) (by decide) (by decide +kernel) (ha.entity he)
  | sq =>
    have e1 : Val.spell ⟨.sq, gs⟩ ++ cs = 39 :: (spell gs ++ 39 :: cs) := by simp [Val.spell, Quote.mark]
    rw [e1]
    refine .char (st' := .ENTITYSQ) he rfl (.ascii he (by decide) (by decide)) (by decide +kernel) ?_
    exact .token (op := .ReturnSQString) (kind := .sq) (isTok := isSqC) (st' := .ENTITY) he rfl rfl rfl (by decide) hv
      (.ascii he (by decide) (by decide)) (by decide) (by decide +kernel) (ha.entity he)
  | bare =>
    have e1 : Val.spell ⟨.bare, gs⟩ ++ cs = spell gs ++ cs := by simp [Val.spell, Quote.mark]
    rw [e1]
    cases gs with
    | nil => exact absurd rfl (hne rfl)
    | cons g gs =>
      obtain ⟨a, cs', h1, h2, h3, -⟩ := first_code (cs := cs) he hv
      exact .fall (st' := .ENTITYID) he rfl h1 (entity_table.2 ⟨a, h3⟩ h2).1 rfl (by decide) (ha.word he hv)

theorem walk_subset (xs : List Byte) (hb : ∀ a ∈ xs, a < 256) (h : 93 ∉ xs) (ys : List Byte) :
    walk .ENTITYLC (xs ++ ys) = walk .ENTITYLC ys := by
  induction xs with
  | nil => rfl
  | cons x xs ih =>
    have hx : (stm .ENTITYLC).next (controlCharMap x) = some .ENTITYLC := by
      have : ∀ a : _root_.Fin 256, a.1 ≠ 93 → (stm .ENTITYLC).next (controlCharMap a.1) = some .ENTITYLC := by decide +kernel
      exact this ⟨x, hb x (List.mem_cons_self ..)⟩ (fun hx => h ((show x = 93 from hx) ▸ List.mem_cons_self ..))
    rw [List.cons_append, walk, if_pos (show (stm .ENTITYLC).action = none from rfl), hx]
    exact ih (fun a ha => hb a (List.mem_cons_of_mem _ ha)) (fun hx => h (List.mem_cons_of_mem _ hx))

theorem lows_lt {xs : List UChar} : ∀ a ∈ xs.map low, a < 256 := by
  intro a ha
  obtain ⟨c, -, rfl⟩ := List.mem_map.1 ha
  exact low_lt c

theorem low_mem {xs : List UChar} {a : Byte} (ha : a < 128) (h : a ∈ xs.map low) : a ∈ xs := by
  obtain ⟨c, h1, h2⟩ := List.mem_map.1 h
  rw [low_eq ha] at h2
  rwa [← h2]

theorem AfterD.part (he : PageOk e) (ha : AfterD e output cs l) {p : List UChar × DocPart}
    (hg : Gaps p.1) (hne : p.1 ≠ []) (hp : p.2.Ok e) : AfterD e output ((p.1 ++ p.2.spell) ++ cs) (p.2.items ++ l) := by
  obtain ⟨s, p⟩ := p
  simp only at hg hne hp
  cases s with
  | nil => exact absurd rfl hne
  | cons b s =>
    have hb := hg b (List.mem_cons_self ..)
    have tb := entity_table.1 ⟨b, by have := hb.2.1; omega⟩ hb.1 hb.2.2
    refine ⟨b, s ++ (p.spell ++ cs), .ENTITY, ?_, tb.1, tb.2, .gaps he (by decide) (fun c hc => hg c (List.mem_cons_of_mem _ hc)) ?_⟩
    · have := Gap.hd (cs := s ++ (p.spell ++ cs)) he hb
      simpa using this
    · cases p with
      | val v => exact ha.val he hp
      | subset xs =>
        have e1 : DocPart.spell (.subset xs) ++ cs = 91 :: ((xs ++ [93]) ++ cs) := by simp [DocPart.spell]
        rw [e1]
        refine .char (st' := .ENTITYLC) he rfl (.ascii he (by decide) (by decide)) (by decide +kernel) ?_
        refine .walk (st' := .ENTITY) he _ ?_ ?_ (ha.entity he)
        · intro c hc
          rcases List.mem_append.1 hc with hc | hc
          · exact hp.1 c hc
          · rw [List.mem_singleton] at hc
            rw [hc]
            exact ascii_plain he (by decide) (by decide)
        · rw [List.map_append, walk_subset _ lows_lt (fun hx => hp.2 (low_mem (by decide) hx))]
          rfl

theorem AfterD.parts (he : PageOk e) (ha : AfterD e output cs l) : ∀ {xs : List (List UChar × DocPart)},
    (∀ p ∈ xs, Gaps p.1 ∧ p.1 ≠ [] ∧ p.2.Ok e) →
    AfterD e output (xs.flatMap (fun p => p.1 ++ p.2.spell) ++ cs) (xs.flatMap (fun p => p.2.items) ++ l) := by
  intro xs
  induction xs with
  | nil => exact fun _ => ha
  | cons x xs ih =>
    intro hx
    have h0 := hx x (List.mem_cons_self ..)
    have := (ih fun y hy => hx y (List.mem_cons_of_mem _ hy)).part he h0.1 h0.2.1 h0.2.2
    simpa using this

theorem AfterD.tail (he : PageOk e) (hg : Gives e output .ENTITYE cs l) {tail : List UChar} (ht : Gaps tail) :
    AfterD e output (tail ++ 62 :: cs) l := by
  cases tail with
  | nil => exact ⟨62, cs, .ENTITYE, .ascii he (by decide) (by decide), by decide, by decide +kernel, hg⟩
  | cons b tail =>
    have hb := ht b (List.mem_cons_self ..)
    have tb := entity_table.1 ⟨b, by have := hb.2.1; omega⟩ hb.1 hb.2.2
    refine ⟨b, _, .ENTITY, Gap.hd he hb, tb.1, tb.2, .gaps he (by decide) (fun c hc => ht c (List.mem_cons_of_mem _ hc)) ?_⟩
    exact .char he rfl (.ascii he (by decide) (by decide)) (by decide +kernel) hg

/-! ## Marks -/

theorem low_infix {xs ys : List UChar} (hy : ∀ a ∈ ys, a < 128) (h : ys <:+: xs.map low) : ys <:+: xs := by
  obtain ⟨s, t, h⟩ := h
  obtain ⟨l1, l2, h1, h2, h3⟩ := List.map_eq_append_iff.1 h.symm
  obtain ⟨l3, l4, h4, h5, h6⟩ := List.map_eq_append_iff.1 h2
  refine ⟨l3, l2, ?_⟩
  rw [h1, h4]
  congr 2
  have : ∀ (ys l4 : List UChar), (∀ a ∈ ys, a < 128) → l4.map low = ys → ys = l4 := by
    intro ys
    induction ys with
    | nil => intro l4 _ h; exact (List.map_eq_nil_iff.1 h).symm
    | cons y ys ih =>
      intro l4 hy h
      cases l4 with
      | nil => cases h
      | cons x l4 =>
        rw [List.map_cons, List.cons.injEq] at h
        rw [(low_eq (hy y (List.mem_cons_self ..))).1 h.1, ih l4 (fun a ha => hy a (List.mem_cons_of_mem _ ha)) h.2]
  exact this ys l4 hy h6

theorem codes_plain (he : PageOk e) {s : String} (h : ∀ c ∈ codes s, 1 ≤ c ∧ c < 128) : ∀ c ∈ codes s, Writable e c :=
  fun c hc => ascii_plain he (h c hc).1 (h c hc).2

theorem codes_low {xs : List UChar} (h : ∀ c ∈ xs, c < 128) : xs.map low = xs := by
  conv => rhs; rw [← List.map_id xs]
  exact List.map_congr_left fun a ha => low_ascii (h a ha)

/-- The state that reads text. -/
def base (seek : Bool) : STMState := if seek then .SEEKTOK else .CONTENT

/-- A mark, behind its first character. -/
theorem mark_gives (he : PageOk e) {m : Mark} (hm : m.Ok e) (ht : ∀ gs, m ≠ .text gs) (hst : st = .XMLTAG ∨ st = .STARTTAG ∧ m.leads = true)
    (hg : Gives e output (base m.seeks) cs l) : ∃ rest, m.spell = 60 :: rest ∧ Gives e output st (rest ++ cs) (m.items ++ l) := by
  have hsk : st ∈ skipping := by rcases hst with rfl | ⟨rfl, -⟩ <;> decide
  have hex : (stm st).next (controlCharMap 33) = some .ENTITYSL := by rcases hst with rfl | ⟨rfl, -⟩ <;> decide +kernel
  have hac : (stm st).action = none := by rcases hst with rfl | ⟨rfl, -⟩ <;> rfl
  cases m with
  | text gs => exact absurd rfl (ht gs)
  | open_ lead name attrs tail im =>
    obtain ⟨h1, h2, h3, h4, h5⟩ := hm
    refine ⟨lead ++ (spell name ++ (attrs.flatMap Attr.spell ++ (tail ++ (if im then [47, 62] else [62])))), by simp [Mark.spell], ?_⟩
    have hend : After e output false (tail ++ ((if im then [47, 62] else [62]) ++ cs)) ((if im then [(.CloseTagIm, [])] else []) ++ l) := by
      cases im with
      | false => exact .tail he (by decide) (by decide) (by decide) (st' := .CONTENT) (by decide +kernel) (by decide +kernel) hg h5
      | true =>
        refine .tail he (c := 47) (by decide) (by decide) (by decide) (st' := .TAGCLIM) (by decide +kernel) (by decide +kernel) ?_ h5
        exact .ret he (a := 62) (st' := .CONTENT) rfl (by decide) (by decide) (.ascii he (by decide) (by decide)) (by decide +kernel) hg
    have hat := hend.attrs he h4
    have hop := hat.word (st := .OPENTAG) he (arg := .OpenTag) rfl (by rfl) (by decide) h2
    cases name with
    | nil => exact absurd rfl h3
    | cons g gs =>
      obtain ⟨a, cs', g1, g2, g3, -⟩ := first_code (cs := attrs.flatMap Attr.spell ++ (tail ++ ((if im then [47, 62] else [62]) ++ cs))) he h2
      have hf : Gives e output st _ _ := .fall (st' := .OPENTAG) he hac g1 (by
        have : ∀ a : _root_.Fin 256, Kind.word.ends a.1 = false → (stm .XMLTAG).next (controlCharMap a.1) = none ∧
          (stm .STARTTAG).next (controlCharMap a.1) = none := by decide +kernel
        have := this ⟨a, g3⟩ g2
        rcases hst with rfl | ⟨rfl, -⟩
        · exact this.1
        · exact this.2) (by rcases hst with rfl | ⟨rfl, -⟩ <;> rfl) (by decide) hop
      have := hf.gaps he hsk h1
      simpa [Mark.items] using this
  | close lead name tail =>
    obtain ⟨h1, h2, h3⟩ := hm
    obtain rfl : st = .XMLTAG := hst.elim id fun h => nomatch h.2
    refine ⟨lead ++ (47 :: (spell name ++ (tail ++ [62]))), by simp [Mark.spell], ?_⟩
    have key : Gives e output .CLOSETAG (spell name ++ (tail ++ 62 :: cs)) ((.CloseTag, meant name) :: l) := by
      cases tail with
      | nil =>
        exact .token he (op := .ReturnIdentifier) (isTok := isTagC) (kind := .word) (st' := .CONTENT) rfl rfl rfl (by decide) h2
          (.ascii he (c := 62) (by decide) (by decide)) (by decide) (by decide +kernel) hg
      | cons b tail =>
        have hb := h3 b (List.mem_cons_self ..)
        have tb : ∀ a : _root_.Fin 33, 1 ≤ a.1 → a.1 ≠ 5 → Kind.word.ends a.1 = true ∧
          (stm .CLOSETAG).next (controlCharMap a.1) = some .TAGCLSK := by decide +kernel
        have tb := tb ⟨b, by have := hb.2.1; omega⟩ hb.1 hb.2.2
        refine .token he (op := .ReturnIdentifier) (isTok := isTagC) (kind := .word) (st' := .TAGCLSK) rfl rfl rfl (by decide) h2
          (Gap.hd he hb) tb.1 tb.2 (.gaps he (by decide) (fun c hc => h3 c (List.mem_cons_of_mem _ hc)) ?_)
        exact .char (st' := .CONTENT) he rfl (.ascii he (by decide) (by decide)) (by decide +kernel) hg
    have := (Gives.char he (st := .XMLTAG) rfl (.ascii he (c := 47) (by decide) (by decide)) (by decide +kernel) key).gaps he (by decide) h1
    simpa [Mark.items] using this
  | doctype lead name parts tail =>
    obtain ⟨h1, h2, h3, h4, h5⟩ := hm
    refine ⟨lead ++ (33 :: (spell name ++ (parts.flatMap (fun p => p.1 ++ p.2.spell) ++ (tail ++ [62])))), by simp [Mark.spell], ?_⟩
    have hend : AfterD e output (tail ++ 62 :: cs) ((.DocAttribEnd, []) :: l) :=
      .tail he (.ret0 (st' := .SEEKTOK) rfl rfl rfl (by decide) hg) h5
    have hw := (hend.parts he h4).word he h2
    cases name with
    | nil => cases h3
    | cons g gs =>
      obtain ⟨a, cs', g1, g2, g3, -⟩ := first_code (cs := parts.flatMap (fun p => p.1 ++ p.2.spell) ++ (tail ++ 62 :: cs)) he h2
      have h45 : a ≠ 45 := by
        intro h45
        generalize hx : spell (g :: gs) = xs at g1 h3
        cases xs with
        | nil => cases h3
        | cons x xs =>
          simp only [List.cons_append] at g1
          generalize hy : xs ++ _ = ys at g1
          cases g1 with
          | cons hp =>
            have : x = 45 := (low_eq (by decide)).1 h45
            rw [this] at h3
            simp at h3
      have hE := entity_table.2 ⟨a, g3⟩ g2
      have h6 : Gives e output .ENTITY _ _ := .fall (st' := .ENTITYID) he rfl g1 hE.1 rfl (by decide) hw
      have h7 : Gives e output .ENTITYSL _ _ := .fall (st' := .ENTITY) he rfl g1 (hE.2 h45) rfl (by decide) h6
      have := (Gives.char he hac (.ascii he (c := 33) (by decide) (by decide)) hex h7).gaps he hsk h1
      simpa [Mark.items] using this
  | comment lead xs =>
    obtain ⟨h1, h2, h3, h4⟩ := hm
    refine ⟨lead ++ (33 :: (codes "--" ++ xs ++ codes "-->")), by simp [Mark.spell, codes], ?_⟩
    have hw : walk .ENTITYSL ((codes "--" ++ xs ++ codes "-->").map low) = some .SEEKTOK := by
      rw [List.map_append, List.map_append, show (codes "--").map low = [45, 45] by decide,
        show (codes "-->").map low = [45, 45, 62] by decide, List.append_assoc, walk_append _ .COMSEEKE _ _ (by decide)]
      refine (walk_comment _ lows_lt (fun hx => h3 (low_infix (by decide) hx)) ?_).1
      rw [List.getLast?_map]
      intro hx
      cases hl : xs.getLast? with
      | none => rw [hl] at hx; cases hx
      | some y =>
        rw [hl, Option.map_some, Option.some.injEq, low_eq (by decide)] at hx
        exact h4 (by rw [hl, hx])
    have hwr : ∀ c ∈ codes "--" ++ xs ++ codes "-->", Writable e c := by
      intro c hc
      rcases List.mem_append.1 hc with hc | hc
      · rcases List.mem_append.1 hc with hc | hc
        · exact codes_plain he (by decide) c hc
        · exact h2 c hc
      · exact codes_plain he (by decide) c hc
    have hC : Gives e output .ENTITYSL ((codes "--" ++ xs ++ codes "-->") ++ cs) l := .walk he _ hwr hw hg
    have := (Gives.char he hac (.ascii he (c := 33) (by decide) (by decide)) hex hC).gaps he hsk h1
    simpa [Mark.items] using this
  | pi lead xs =>
    obtain ⟨h1, h2, h3⟩ := hm
    obtain rfl : st = .XMLTAG := hst.elim id fun h => nomatch h.2
    refine ⟨lead ++ (63 :: (xs ++ codes "?>")), by simp [Mark.spell, codes], ?_⟩
    have hw : walk .PITAG ((xs ++ codes "?>").map low) = some .CONTENT := by
      rw [List.map_append, walk_pi _ lows_lt (fun hx => h3 (low_mem (by decide) hx))]
      decide
    have hwr : ∀ c ∈ xs ++ codes "?>", Writable e c := by
      intro c hc
      rcases List.mem_append.1 hc with hc | hc
      · exact h2 c hc
      · exact codes_plain he (by decide) c hc
    have hC : Gives e output .PITAG ((xs ++ codes "?>") ++ cs) l := .walk he _ hwr hw hg
    have := (Gives.char he (st := .XMLTAG) rfl (.ascii he (c := 63) (by decide) (by decide)) (by decide +kernel) hC).gaps he (by decide) h1
    simpa [Mark.items] using this
  | cdata lead xs =>
    obtain ⟨h1, h2, h3, h4⟩ := hm
    refine ⟨lead ++ (33 :: 91 :: (codes "CDATA[" ++ (xs ++ codes "]]>"))), by simp [Mark.spell, codes], ?_⟩
    have hw : walk .CDATA1 ((xs ++ codes "]]>").map low) = some .CONTENT := by
      rw [List.map_append, show (codes "]]>").map low = [93, 93, 62] by decide]
      refine walk_cdata _ lows_lt ([], .CDATA1) (by simp) ?_ ?_
      · intro hx
        refine h3 (low_infix (by decide) ?_)
        rw [List.map_append]
        exact hx
      · exact fun hx => h4 (low_infix (by decide) hx)
    have hwr : ∀ c ∈ xs ++ codes "]]>", Writable e c := by
      intro c hc
      rcases List.mem_append.1 hc with hc | hc
      · exact h2 c hc
      · exact codes_plain he (by decide) c hc
    have hC : Gives e output .CDATA1 ((xs ++ codes "]]>") ++ cs) l := .walk he _ hwr hw hg
    have hK : Gives e output .CDATA (codes "CDATA[" ++ ((xs ++ codes "]]>") ++ cs)) l := by
      refine .step (fun f k A hh hr => ?_) hC
      obtain ⟨chs, k', s1, s2, s3⟩ := codes_span he (codes "CDATA[") (codes_plain he (by decide)) hh
      obtain ⟨t1, t2⟩ := s1.eq
      have hlen : chs.length = 6 := by rw [← List.length_map (f := Ch.asc), s3]; rfl
      rw [hlen] at t1 t2
      obtain ⟨E, hE, hs⟩ := cdata_key hr.inv hr.state hr.id (e := e) (f := f) (by rw [hr.src, t1, s3]; decide)
      rw [hr.src, t2] at hE
      refine ⟨k', E, s2, ⟨by rw [hE.eq], by rw [hE.eq], hE.id, hE.inv, ?_, ?_, fun hx => by simp [early] at hx⟩, fun mask => ⟨_, hs mask⟩⟩
      · rw [hE.eq]; exact hr.error
      · rw [hE.eq]; exact hr.output
    have hS : Gives e output .ENTITYSL (91 :: (codes "CDATA[" ++ ((xs ++ codes "]]>") ++ cs))) l :=
      .char he rfl (.ascii he (c := 91) (by decide) (by decide)) (by decide +kernel) hK
    have := (Gives.char he hac (.ascii he (c := 33) (by decide) (by decide)) hex hS).gaps he hsk h1
    simpa [Mark.items] using this

theorem takeWhile_mem {α : Type} {p : α → Bool} {xs : List α} {x : α} (h : x ∈ xs.takeWhile p) : p x = true :=
  List.all_eq_true.1 List.all_takeWhile x h

/-- The states that read text, and whether they skip white space. -/
def Base (seek : Bool) (st : STMState) : Prop := seek = false ∧ st = .CONTENT ∨ seek = true ∧ st ∈ [STMState.SEEKTOK, .DOCSTART]

/-- Text up to a tag or the end of the document. -/
theorem text_gives (he : PageOk e) {seek : Bool} (hb : Base seek st) {gs : List Glyph} (hok : TokenText e .content gs)
    (hd : Hd e cs a cs') (ha : a = 0 ∧ st' = .EXIT ∨ a = 60 ∧ st' = .XMLTAG) (hg : Gives e output st' cs' l) :
    Gives e output st (spell gs ++ cs) (textItem seek gs ++ l) := by
  have hcm : Kind.content.ends a = true ∧ (stm st).action = none ∧ (stm .TOKEN).next (controlCharMap a) = some st' ∧
      (stm st).next (controlCharMap a) = some st' ∧ (stm st).fallback = some .TOKEN := by
    rcases ha with ⟨rfl, rfl⟩ | ⟨rfl, rfl⟩ <;> rcases hb with ⟨-, rfl⟩ | ⟨-, hs⟩ <;> try (revert st; decide +kernel)
    all_goals decide +kernel
  obtain ⟨c1, c2, c3, c4, c5⟩ := hcm
  -- without white space to skip
  have key : ∀ hs : List Glyph, TokenText e .content hs → (seek = true → ∀ g ∈ hs.head?, g.white = false) →
      Gives e output st (spell hs ++ cs) ((if hs = [] then [] else [(.Content, meant hs)]) ++ l) := by
    intro hs hok hw
    cases hs with
    | nil => exact .char he c2 hd c4 hg
    | cons g hs =>
      rw [if_neg (by simp)]
      obtain ⟨b, cs2, g1, g2, g3, g4⟩ := first_code (cs := cs) he hok
      refine .fall (st' := .TOKEN) he c2 g1 ?_ c5 (by decide) ?_
      · have hgap : seek = true → ¬ Gap b := fun hsk hx => by
          have h1 := g4 hx
          have h2 := hw hsk g rfl
          rw [h1] at h2
          cases h2
        have tab : ∀ a : _root_.Fin 256, Kind.content.ends a.1 = false → (stm .CONTENT).next (controlCharMap a.1) = none ∧
          (¬ Gap a.1 → (stm .SEEKTOK).next (controlCharMap a.1) = none ∧ (stm .DOCSTART).next (controlCharMap a.1) = none) := by
          decide +kernel
        have tab := tab ⟨b, g3⟩ g2
        rcases hb with ⟨-, rfl⟩ | ⟨hsk, hs⟩
        · exact tab.1
        · simp only [List.mem_cons, List.not_mem_nil, or_false] at hs
          rcases hs with rfl | rfl
          · exact (tab.2 (hgap hsk)).1
          · exact (tab.2 (hgap hsk)).2
      · exact .token he (op := .ReturnContent) (isTok := isContentC) (kind := .content) rfl rfl rfl (by decide) hok hd c1 c3 hg
  cases seek with
  | false => exact key gs hok (by simp)
  | true =>
    rcases hb with ⟨h, -⟩ | ⟨-, hs⟩
    · cases h
    have hsk : st ∈ skipping := by
      have : ∀ s ∈ [STMState.SEEKTOK, .DOCSTART], s ∈ skipping := by decide
      exact this st hs
    unfold textItem
    simp only [if_true]
    have h1 : spell gs = meant (gs.takeWhile Glyph.white) ++ spell (gs.dropWhile Glyph.white) := by
      conv => lhs; rw [← List.takeWhile_append_dropWhile (p := Glyph.white) (l := gs)]
      rw [spell, List.flatMap_append]
      congr 1
      have : ∀ hs : List Glyph, (∀ g ∈ hs, g.white = true) → hs.flatMap Glyph.spelling = meant hs := by
        intro hs
        induction hs with
        | nil => exact fun _ => rfl
        | cons g hs ih =>
          intro h
          rw [List.flatMap_cons, ih fun g hg => h g (List.mem_cons_of_mem _ hg), (of_decide_eq_true (h g (List.mem_cons_self ..))).1]
          rfl
      exact this _ fun g hg => takeWhile_mem hg
    rw [h1, List.append_assoc]
    refine .gaps he hsk ?_ (key _ (fun g hg => hok g ?_) ?_)
    · intro c hc
      obtain ⟨g, hg, rfl⟩ := List.mem_map.1 hc
      have hw : g.white = true := takeWhile_mem hg
      exact (of_decide_eq_true (p := g.spelling = [g.char] ∧ Gap g.char) hw).2
    · exact (List.dropWhile_suffix _).subset hg
    · intro _ g hg
      have := List.head?_dropWhile_not Glyph.white gs
      rw [Option.mem_def] at hg
      rw [hg] at this
      simpa using this

theorem base_ok (seek : Bool) : Base seek (base seek) := by cases seek <;> simp [Base, base]

/-- The items of marks. -/
theorem marks_gives (he : PageOk e) (ms : List Mark) : ∀ {seek : Bool} {st : STMState} {gs : List Glyph}, Base seek st →
    TokenText e .content gs → (∀ m ∈ ms, m.Ok e) →
    Gives e output st (spell gs ++ ms.flatMap Mark.spell) (items seek gs ms) := by
  induction ms with
  | nil =>
    intro seek st gs hb hok _
    exact text_gives he hb hok .nil (.inl ⟨rfl, rfl⟩) .exit
  | cons m ms ih =>
    intro seek st gs hb hok hm
    have h1 := hm m (List.mem_cons_self ..)
    have h2 : ∀ m ∈ ms, m.Ok e := fun x hx => hm x (List.mem_cons_of_mem _ hx)
    by_cases ht : ∃ hs, m = .text hs
    · obtain ⟨hs, rfl⟩ := ht
      have := ih (gs := gs ++ hs) hb (fun g hg => (List.mem_append.1 hg).elim (hok g) (h1 g)) h2
      simpa [spell, Mark.spell, items] using this
    · have ht : ∀ hs, m ≠ .text hs := fun hs h => ht ⟨hs, h⟩
      have hrec := ih (gs := []) (base_ok m.seeks) (by simp [TokenText]) h2
      obtain ⟨rest, r1, r2⟩ := mark_gives he h1 ht (.inl rfl) hrec
      have e1 : items seek gs (m :: ms) = textItem seek gs ++ (m.items ++ items m.seeks [] ms) := by
        cases m with
        | text hs => exact absurd rfl (ht hs)
        | _ => simp [items]
      rw [e1, List.flatMap_cons, r1]
      exact text_gives he hb hok (.ascii he (c := 60) (by decide) (by decide)) (.inr ⟨rfl, rfl⟩) r2

/-- The items of a document. -/
theorem document_gives (he : PageOk e) {d : Document} (hd : d.Ok e) : Gives e output .START d.spell d.items := by
  obtain ⟨h1, h2, h3⟩ := hd
  obtain ⟨lead, header, body⟩ := d
  simp only at h1 h2 h3
  have hmain : Gives e output .START (Document.spell ⟨[], header, body⟩) (Document.items ⟨lead, header, body⟩) := by
    cases header with
    | none =>
      cases body with
      | nil => exact .char he rfl .nil (st' := .EXIT) (by decide +kernel) .exit
      | cons m ms =>
        have hl := h3 m rfl
        have ht : ∀ gs, m ≠ .text gs := by rintro gs rfl; cases hl
        have hrec : Gives e output (base m.seeks) (ms.flatMap Mark.spell) (items m.seeks [] ms) := by
          have := marks_gives (output := output) he ms (gs := []) (base_ok m.seeks) (by simp [TokenText]) fun x hx => h2 x (List.mem_cons_of_mem _ hx)
          simpa [spell] using this
        obtain ⟨rest, r1, r2⟩ := mark_gives he (h2 m (List.mem_cons_self ..)) ht (.inr ⟨rfl, hl⟩) hrec
        have e1 : Document.items ⟨lead, none, m :: ms⟩ = m.items ++ items m.seeks [] ms := by
          cases m with
          | text hs => exact absurd rfl (ht hs)
          | _ => simp [Document.items, items, textItem]
        have e4 : Document.spell ⟨[], none, m :: ms⟩ = 60 :: (rest ++ ms.flatMap Mark.spell) := by simp [Document.spell, r1]
        rw [e1, e4]
        exact .char he rfl (.ascii he (c := 60) (by decide) (by decide)) (st' := .STARTTAG) (by decide +kernel) r2
    | some x =>
      obtain ⟨hl, attrs, tail⟩ := x
      obtain ⟨g1, g2, g3⟩ := h3
      have hrec : Gives e output .DOCSTART (body.flatMap Mark.spell) (items true [] body) := by
        have := marks_gives (output := output) he body (gs := []) (st := .DOCSTART) (.inr ⟨rfl, by simp⟩) (by simp [TokenText]) h2
        simpa [spell] using this
      have hend : After e output true (tail ++ 63 :: (62 :: body.flatMap Mark.spell)) ((.HeaderEnd, []) :: items true [] body) := by
        refine .tail he (by decide) (by decide) (by decide) (st' := .XTAGEND) (by decide +kernel) (by decide +kernel) ?_ g3
        refine .char he rfl (.ascii he (c := 62) (by decide) (by decide)) (st' := .XTAGDONE) (by decide +kernel) ?_
        exact .ret0 rfl rfl rfl (by decide) hrec
      obtain ⟨a, cs', st', k1, k2, k3, k4⟩ := hend.attrs he g2
      have hx := Gives.xml he k1 (by rw [show (stm .XTAG).next = (stm (avqe true)).next from rfl]; exact k3) k4
      have hq : Gives e output .STARTTAG _ _ := (Gives.char he rfl (.ascii he (c := 63) (by decide) (by decide)) (st' := .XTAG) (by decide +kernel) hx).gaps he (by decide) g1
      have := Gives.char (st := .START) he rfl (.ascii he (c := 60) (by decide) (by decide)) (st' := .STARTTAG) (by decide +kernel) hq
      have e2 : codes "?xml" = 63 :: codes "xml" := by decide
      simpa [Document.items, Document.spell, e2, codes] using this
  have := hmain.gaps he (by decide) h1
  have e3 : Document.spell ⟨lead, header, body⟩ = lead ++ Document.spell ⟨[], header, body⟩ := by simp [Document.spell]
  rw [e3]
  exact this

/-! ## The codes of a document -/

/-- All codes are characters of the encoding. -/
def AllW (e : Enc) (cs : List UChar) : Prop := ∀ c ∈ cs, Writable e c

theorem AllW.append {xs ys : List UChar} (h1 : AllW e xs) (h2 : AllW e ys) : AllW e (xs ++ ys) :=
  fun c hc => (List.mem_append.1 hc).elim (h1 c) (h2 c)

theorem AllW.flat {α : Type} {g : α → List UChar} {xs : List α} (h : ∀ x ∈ xs, AllW e (g x)) : AllW e (xs.flatMap g) := by
  intro c hc
  obtain ⟨x, hx, hc⟩ := List.mem_flatMap.1 hc
  exact h x hx c hc

theorem AllW.ascii (he : PageOk e) {cs : List UChar} (h : ∀ c ∈ cs, 1 ≤ c ∧ c < 128) : AllW e cs :=
  fun c hc => ascii_plain he (h c hc).1 (h c hc).2

theorem AllW.gaps (he : PageOk e) {cs : List UChar} (h : Gaps cs) : AllW e cs :=
  .ascii he fun c hc => ⟨(h c hc).1, by have := (h c hc).2.1; omega⟩

theorem AllW.text (he : PageOk e) {kind : Kind} {gs : List Glyph} (h : TokenText e kind gs) : AllW e (spell gs) := by
  refine .flat fun g hg => ?_
  rcases h g hg with ⟨h1, h2, -⟩ | h
  · rw [h1]
    intro c hc
    rw [List.mem_singleton.1 hc]
    exact h2
  · exact .ascii he fun c hc => ⟨(refChar_ok (Reference.chars h c hc)).1, (refChar_ok (Reference.chars h c hc)).2.1⟩

theorem AllW.val (he : PageOk e) {v : Val} (h : v.Ok e) : AllW e v.spell := by
  have hq : AllW e v.quote.mark := .ascii he (by cases v.quote <;> decide)
  exact (hq.append (.text he h.1)).append hq

theorem AllW.attr (he : PageOk e) {x : Attr} (h : x.Ok e) : AllW e x.spell := by
  obtain ⟨h1, -, h3, -, h5, h6, h7⟩ := h
  exact ((((AllW.append (.gaps he h1) (.text he h3)).append (.gaps he h5)).append (.ascii he (by decide))).append
    (.gaps he h6)).append (.val he h7)

theorem AllW.mark (he : PageOk e) {m : Mark} (h : m.Ok e) : AllW e m.spell := by
  have h60 : AllW e [60] := .ascii he (by decide)
  cases m with
  | text gs => exact .text he h
  | open_ lead name attrs tail im =>
    obtain ⟨h1, h2, -, h4, h5⟩ := h
    refine ((((h60.append (.gaps he h1)).append (.text he h2)).append (.flat fun x hx => .attr he (h4 x hx))).append
      (.gaps he h5)).append (.ascii he ?_)
    cases im <;> decide
  | close lead name tail =>
    obtain ⟨h1, h2, h3⟩ := h
    exact ((((h60.append (.gaps he h1)).append (.ascii he (by decide))).append (.text he h2)).append (.gaps he h3)).append
      (.ascii he (by decide))
  | doctype lead name parts tail =>
    obtain ⟨h1, h2, -, h4, h5⟩ := h
    refine (((((h60.append (.gaps he h1)).append (.ascii he (by decide))).append (.text he h2)).append
      (.flat fun x hx => .append (.gaps he (h4 x hx).1) ?_)).append (.gaps he h5)).append (.ascii he (by decide))
    have := (h4 x hx).2.2
    generalize x.2 = p at this ⊢
    cases p with
    | val v => exact .val he this
    | subset cs => exact (AllW.append (.ascii he (by decide)) this.1).append (.ascii he (by decide))
  | comment lead cs =>
    exact (((h60.append (.gaps he h.1)).append (.ascii he (by decide))).append h.2.1).append (.ascii he (by decide))
  | pi lead cs =>
    exact (((h60.append (.gaps he h.1)).append (.ascii he (by decide))).append h.2.1).append (.ascii he (by decide))
  | cdata lead cs =>
    exact (((h60.append (.gaps he h.1)).append (.ascii he (by decide))).append h.2.1).append (.ascii he (by decide))

theorem AllW.document (he : PageOk e) {d : Document} (h : d.Ok e) : AllW e d.spell := by
  obtain ⟨h1, h2, h3⟩ := h
  obtain ⟨lead, header, body⟩ := d
  refine ((AllW.gaps he h1).append ?_).append (.flat fun m hm => .mark he (h2 m hm))
  cases header with
  | none => exact fun c hc => nomatch hc
  | some x =>
    obtain ⟨hl, attrs, tail⟩ := x
    obtain ⟨g1, g2, g3⟩ := h3
    exact (((((AllW.ascii he (by decide)).append (.gaps he g1)).append (.ascii he (by decide))).append
      (.flat fun x hx => .attr he (g2 x hx))).append (.gaps he g3)).append (.ascii he (by decide))

theorem AllW.bytes (he : PageOk e) {cs : List UChar} (h : AllW e cs) : ∀ b ∈ cs.flatMap e.print, b < 256 := by
  intro b hb
  obtain ⟨c, hc, hb⟩ := List.mem_flatMap.1 hb
  exact print_lt e he c (h c hc).2.1 (h c hc).2.2 b hb

theorem Here.start (cs : List UChar) : Here e (strm (cs.flatMap e.print)) 0 cs := by
  refine ⟨At_strm _, fun j hj => ?_⟩
  unfold strm
  rw [List.getD_eq_getElem?_getD, List.getElem?_eq_none (by omega)]
  rfl

theorem Rdy.new {em : Option (List (Nat × UChar))} {addr : Nat} : Rdy output .START 0 (Cfg.new output em addr) :=
  ⟨rfl, rfl, rfl, .new _ _ _, rfl, rfl, fun _ => rfl⟩

end Mach

end TW
