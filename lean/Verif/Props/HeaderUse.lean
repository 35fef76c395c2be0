import Verif.Spec.Declared
import Verif.Props.HdrParser
import Verif.Props.Pipeline

/-!
# Property C92: the header parser and the scanner agree about the encoding
-/

namespace TW

open Spec HdrParser Scanner Mach

theorem blank_of_gaps {cs : List UChar} (h : Gaps cs) : Blank cs := fun c hc => ⟨(h c hc).1, (h c hc).2.1⟩

/-- The attributes of a declaration and the white space before the first, for attributes with white space before each. -/
def declOf : List (DeclName × Attr) → List UChar → List UChar × List DeclAttr
  | [], tail => (tail, [])
  | (name, a) :: as, tail =>
    (a.lead, { name, ws1 := a.before, ws2 := a.behind, double := a.val.quote == .dq, value := spell a.val.text,
               ws3 := (declOf as tail).1 } :: (declOf as tail).2)

/-- Attributes with their names. -/
def Named (as : List (DeclName × Attr)) : Prop :=
  ∀ x ∈ as, x.2.name = x.1.text.map Glyph.lit ∧
    (x.1 = .encoding → x.2.val.text ≠ [] ∧ ∀ g ∈ x.2.val.text, g.spelling = [g.char]) ∧ x.2.val.quote ≠ .bare ∧
    ∀ c ∈ spell x.2.val.text, c < 128

theorem named_of_plain (attrs : List Attr) (h : ∀ a ∈ attrs, a.Plain) : ∃ as, as.map (·.2) = attrs ∧ Named as := by
  induction attrs with
  | nil => exact ⟨[], rfl, nofun⟩
  | cons a attrs ih =>
    obtain ⟨as, h1, h2⟩ := ih fun x hx => h x (List.mem_cons_of_mem _ hx)
    obtain ⟨⟨name, k1, k2⟩, k3, k4⟩ := h a (List.mem_cons_self ..)
    refine ⟨(name, a) :: as, by rw [List.map_cons, h1], fun x hx => ?_⟩
    rcases List.mem_cons.1 hx with rfl | hx
    · exact ⟨k1, k2, k3, k4⟩
    · exact h2 x hx

theorem spell_lits (cs : List UChar) : spell (cs.map Glyph.lit) = cs := by
  induction cs with
  | nil => rfl
  | cons c cs ih => exact congrArg (c :: ·) ih

theorem meant_lits (cs : List UChar) : meant (cs.map Glyph.lit) = cs := by
  induction cs with
  | nil => rfl
  | cons c cs ih => exact congrArg (c :: ·) ih

theorem spell_literal {gs : List Glyph} (h : ∀ g ∈ gs, g.spelling = [g.char]) : spell gs = meant gs := by
  induction gs with
  | nil => rfl
  | cons g gs ih =>
    show g.spelling ++ spell gs = g.char :: meant gs
    rw [h g (List.mem_cons_self ..), ih fun x hx => h x (List.mem_cons_of_mem _ hx)]
    rfl

theorem declOf_text (tail : List UChar) (as : List (DeclName × Attr)) (h : Named as) :
    (declOf as tail).1 ++ (declOf as tail).2.flatMap DeclAttr.text = (as.map (·.2)).flatMap Attr.spell ++ tail := by
  induction as with
  | nil => simp [declOf]
  | cons x as ih =>
    obtain ⟨name, a⟩ := x
    obtain ⟨h1, -, h3, h4⟩ := h _ (List.mem_cons_self ..)
    have ih := ih fun x hx => h x (List.mem_cons_of_mem _ hx)
    have hq : [if a.val.quote == Quote.dq then 34 else 39] = a.val.quote.mark := by
      revert h3
      generalize a.val.quote = q
      cases q
      · exact fun _ => rfl
      · exact fun _ => rfl
      · exact fun h => absurd rfl h
    simp only [declOf, List.flatMap_cons, List.map_cons, DeclAttr.text, DeclAttr.quote, Attr.spell, Val.spell, List.append_assoc]
    rw [ih, hq, show a.name = name.text.map Glyph.lit from h1, spell_lits]

/-- What is written in a value in quotes holds neither the quote nor NUL. -/
theorem quoted_chars {e : Enc} {q : Quote} (hq : q ≠ .bare) {gs : List Glyph} (h : TokenText e q.kind gs) (hc : ∀ c ∈ spell gs, c < 128) :
    ∀ c ∈ spell gs, c ≠ 0 ∧ c ≠ if q == .dq then 34 else 39 := by
  intro c hm
  have hlt := hc c hm
  obtain ⟨g, hg, hgc⟩ := List.mem_flatMap.1 hm
  rcases h g hg with ⟨k1, k2, -, -, k3⟩ | hr
  · rw [k1, List.mem_singleton] at hgc
    subst hgc
    refine ⟨k2.1, ?_⟩
    have k3 := k3 hlt
    revert k3 hq
    cases q <;> simp [Quote.kind, Kind.ends]
  · have := refChar_ok (Mach.Reference.chars hr c hgc)
    refine ⟨by omega, ?_⟩
    have k3 := this.2.2 q.kind
    revert k3 hq
    cases q <;> simp [Quote.kind, Kind.ends]

theorem declOf_wf {e : Enc} (tail : List UChar) (ht : Gaps tail) (as : List (DeclName × Attr)) (h : Named as)
    (hok : ∀ a ∈ as.map (·.2), a.Ok e) : Blank (declOf as tail).1 ∧ ∀ a ∈ (declOf as tail).2, a.Wf := by
  induction as with
  | nil => exact ⟨blank_of_gaps ht, nofun⟩
  | cons x as ih =>
    obtain ⟨name, a⟩ := x
    obtain ⟨h1, h2, h3, h4⟩ := h _ (List.mem_cons_self ..)
    obtain ⟨k1, k2, k3, k4, k5, k6, k7⟩ := hok a (List.mem_cons_self ..)
    obtain ⟨i1, i2⟩ := ih (fun x hx => h x (List.mem_cons_of_mem _ hx)) fun a ha => hok a (List.mem_cons_of_mem _ ha)
    refine ⟨blank_of_gaps k1, fun b hb => ?_⟩
    rcases List.mem_cons.1 hb with rfl | hb
    · refine ⟨blank_of_gaps k5, blank_of_gaps k6, i1, quoted_chars h3 k7.1 h4, fun hn hm => ?_⟩
      obtain ⟨j1, j2⟩ := h2 hn
      rw [show DeclAttr.value _ = spell a.val.text from rfl, spell_literal j2] at hm
      exact j1 (List.map_eq_nil_iff.1 hm)
    · exact i2 b hb

theorem declOf_value (tail : List UChar) (as : List (DeclName × Attr)) (h : Named as) :
    ∀ a ∈ (declOf as tail).2, ∀ c ∈ a.value, c < 128 := by
  induction as with
  | nil => exact nofun
  | cons x as ih =>
    intro a ha
    rcases List.mem_cons.1 ha with rfl | ha
    · exact (h x (List.mem_cons_self ..)).2.2.2
    · exact ih (fun x hx => h x (List.mem_cons_of_mem _ hx)) a ha

/-- The declared encoding, in the attributes and in the items. -/
theorem declared_attrs (tail : List UChar) (as : List (DeclName × Attr)) (h : Named as) (rest : List TItem) (hr : declared rest = none) :
    declared ((as.map (·.2)).flatMap (Attr.items true) ++ rest) = declEncoding (declOf as tail).2 := by
  induction as with
  | nil => exact hr
  | cons x as ih =>
    obtain ⟨name, a⟩ := x
    obtain ⟨h1, h2, -, -⟩ := h _ (List.mem_cons_self ..)
    have ih := ih fun x hx => h x (List.mem_cons_of_mem _ hx)
    show declared ((.HeaderAttribName, meant a.name) :: (.HeaderAttribValue, meant a.val.text) :: ((as.map (·.2)).flatMap (Attr.items true) ++ rest)) = _
    unfold declared
    rw [ih]
    unfold declEncoding
    rw [show (declOf ((name, a) :: as) tail).2 = _ :: (declOf as tail).2 from rfl, List.filter_cons]
    simp only
    rw [show a.name = name.text.map Glyph.lit from h1, meant_lits]
    by_cases hn : name = .encoding
    · subst hn
      rw [← spell_literal (h2 rfl).2, if_pos (show DeclName.encoding.text = codes "encoding" by decide), if_pos (decide_eq_true rfl), List.getLast?_cons]
      cases (List.filter (fun x => decide (x.name = .encoding)) (declOf as tail).2).getLast? <;> rfl
    · rw [if_neg (by cases name <;> first | exact absurd rfl hn | decide), if_neg (by simpa using hn)]
      cases (List.filter (fun x => decide (x.name = .encoding)) (declOf as tail).2).getLast? <;> rfl

theorem declared_none {l : List TItem} (h : ∀ i ∈ l, i.1 ≠ .HeaderAttribName) : declared l = none := by
  induction l with
  | nil => rfl
  | cons i l ih =>
    have h1 := h i (List.mem_cons_self ..)
    have h2 := ih fun x hx => h x (List.mem_cons_of_mem _ hx)
    obtain ⟨t, x⟩ := i
    unfold declared
    split
    · next heq =>
      cases heq
      exact absurd rfl h1
    · next heq =>
      cases heq
      exact h2
    · rfl

theorem mark_items {m : Mark} : ∀ i ∈ m.items, i.1 ≠ .HeaderAttribName := by
  intro i hi
  cases m with
  | open_ lead name attrs tail im =>
    simp only [Mark.items, List.mem_append, List.mem_cons, List.mem_flatMap] at hi
    rcases hi with (rfl | ⟨a, -, hi⟩) | hi
    · exact fun h => nomatch h
    · simp only [Attr.items, List.mem_cons, List.not_mem_nil, or_false] at hi
      rcases hi with rfl | rfl <;> exact fun h => nomatch h
    · cases im
      · cases hi
      · simp at hi
        rw [hi]
        exact fun h => nomatch h
  | close lead name tail =>
    simp only [Mark.items, List.mem_singleton] at hi
    rw [hi]
    exact fun h => nomatch h
  | doctype lead name parts tail =>
    simp only [Mark.items, List.mem_append, List.mem_cons, List.mem_flatMap, List.not_mem_nil, or_false] at hi
    rcases hi with (rfl | ⟨p, -, hi⟩) | rfl
    · exact fun h => nomatch h
    · obtain ⟨w, p⟩ := p
      cases p with
      | val v =>
        simp only [DocPart.items, List.mem_singleton] at hi
        rw [hi]
        exact fun h => nomatch h
      | subset cs => cases hi
    · exact fun h => nomatch h
  | _ => cases hi

theorem text_items {seek : Bool} {gs : List Glyph} : ∀ i ∈ textItem seek gs, i.1 ≠ .HeaderAttribName := by
  intro i hi
  have key : ∀ gs : List Glyph, i ∈ (if gs = [] then [] else [(ElementType.Content, meant gs)]) → i.1 ≠ .HeaderAttribName := by
    intro gs hi
    by_cases hg : gs = []
    · rw [if_pos hg] at hi
      cases hi
    · rw [if_neg hg, List.mem_singleton] at hi
      rw [hi]
      exact fun h => nomatch h
  exact key _ hi

theorem body_items (ms : List Mark) : ∀ (seek : Bool) (gs : List Glyph), ∀ i ∈ Spec.items seek gs ms, i.1 ≠ .HeaderAttribName := by
  induction ms with
  | nil =>
    intro seek gs i hi
    simp only [Spec.items, List.mem_append, List.mem_singleton] at hi
    rcases hi with hi | rfl
    · exact text_items i hi
    · exact fun h => nomatch h
  | cons m ms ih =>
    intro seek gs i hi
    cases m with
    | text hs => exact ih _ _ i hi
    | _ =>
      simp only [Spec.items] at hi
      rcases List.mem_append.1 hi with hi | hi
      · rcases List.mem_append.1 hi with hi | hi
        · exact text_items i hi
        · exact mark_items i hi
      · exact ih _ _ i hi

/-- What is read in a text of ASCII characters that ends the reading. -/
theorem feed_text {e : Enc} (he : PageOk e) {l : List Byte} (hl : ∀ c ∈ l, 1 ≤ c ∧ c < 128) {o : Outcome} {t : HdrParser}
    (hc : crun new l = (.ok o, t)) (ho : o ≠ .more) {rest : List Byte} {parts : List (List Byte)}
    (hparts : parts.flatten = l.flatMap e.print ++ rest) {n : Nat} (hn : parts.flatten.length < n) :
    (feed n parts new).1 = .ok o ∧ (feed n parts new).2.getEncoding = t.getEncoding ∧
      (feed n parts new).2.getLasterror = t.getLasterror := by
  obtain ⟨x, y, -, g1, g2, -⟩ := feed_hrun parts new (by decide) rfl rfl hn
  have hpad : l.flatMap e.print = l.flatMap (padded (pad e).1 (pad e).2) := by
    clear hc hparts
    induction l with
    | nil => rfl
    | cons c l ih =>
      have := hl c (List.mem_cons_self ..)
      rw [List.flatMap_cons, List.flatMap_cons, (C21_carriers e c this.1 this.2 he.mem).1, ih fun c hc => hl c (List.mem_cons_of_mem _ hc)]
  rw [hpad] at hparts
  obtain ⟨e1, e2⟩ := hrun_padded (C21_carriers e 1 (by decide) (by decide) he.mem).2 rest l (s := new) (t := new) (Nat.zero_le _) rfl
    (fun b hb => by have := hl b hb; omega) (by rw [hc]; simpa using ho)
  rw [← hparts, hc] at e1 e2
  refine ⟨g1.trans e1, ?_, ?_⟩
  · rw [g2]
    have : (hrun new parts.flatten).2.encoding = t.encoding := by
      have h : off 0 0 [] (hrun new parts.flatten).2 = off 0 0 [] t := e2
      have := congrArg HdrParser.encoding h
      exact this
    simp only [getEncoding]
    rw [this]
  · rw [g2]
    have : (hrun new parts.flatten).2.lasterror = t.lasterror := by
      have h : off 0 0 [] (hrun new parts.flatten).2 = off 0 0 [] t := e2
      have := congrArg HdrParser.lasterror h
      exact this
    simp only [getLasterror]
    rw [this]

/-- `<?xml?` -/
theorem crun_bare {ws0 ws1 : List Byte} (h0 : Blank ws0) (h1 : Blank ws1) : ∃ aty st cc,
    crun new (declText ws0 ws1 [] []) = (.ok .done, at_ st aty [] [] cc) := by
  obtain ⟨c0, g0⟩ := goes_blank (st := .Init) (by simp) .Encoding [] [] ws0 0 h0
  have g1 : Goes (at_ .Init .Encoding [] [] c0) [60] (at_ .ParseXmlOpen .Encoding [] [] (c0 + 1)) := fun bs => rfl
  obtain ⟨c2, g2⟩ := goes_blank (st := .ParseXmlOpen) (by simp) .Encoding [] [] ws1 (c0 + 1) h1
  have g3 : Goes (at_ .ParseXmlOpen .Encoding [] [] c2) [63, 120, 109, 108]
      (at_ .ParseXmlHdr .Encoding [120, 109, 108] [] (c2 + 4)) := fun bs => rfl
  refine ⟨.Encoding, .ParseXmlHdr, c2 + 5, ?_⟩
  have := (((g0.trans g1).trans g2).trans g3) [63]
  simp only [declText, List.flatMap_nil, List.append_nil]
  exact this

/-- `<` and a character that decides. -/
theorem crun_first {ws0 ws1 : List Byte} (h0 : Blank ws0) (h1 : Blank ws1) (c : Byte) : ∃ cc,
    crun new (ws0 ++ [60] ++ ws1 ++ [c]) = crun (at_ .ParseXmlOpen .Encoding [] [] cc) [c] := by
  obtain ⟨c0, g0⟩ := goes_blank (st := .Init) (by simp) .Encoding [] [] ws0 0 h0
  have g1 : Goes (at_ .Init .Encoding [] [] c0) [60] (at_ .ParseXmlOpen .Encoding [] [] (c0 + 1)) := fun bs => rfl
  obtain ⟨c2, g2⟩ := goes_blank (st := .ParseXmlOpen) (by simp) .Encoding [] [] ws1 (c0 + 1) h1
  exact ⟨c2, ((g0.trans g1).trans g2) [c]⟩

theorem parse_src {n : Nat} {s : HdrParser} (hz : s.zeroCount < 4) (hi : s.idx ≤ s.src.length) (hn : s.src.length < n) :
    (parse n s).2.src = s.src := by
  rw [parse_hrun _ hz hi rfl (by rw [List.length_drop]; omega)]
  exact (hrun_facts _ s hz).2.1

/-- The data consumed are the chunks that have been put. -/
theorem feed_src {n : Nat} (parts : List (List Byte)) : ∀ (s : HdrParser), s.zeroCount < 4 → s.idx = s.src.length →
    s.lasterror = "" → s.src.length + parts.flatten.length < n → ∃ k, (HdrParser.feed n parts s).2.src = s.src ++ (parts.take k).flatten := by
  induction parts with
  | nil => exact fun s _ _ _ _ => ⟨0, by rw [List.take_zero, List.flatten_nil, List.append_nil]; rfl⟩
  | cons c cs ih =>
    intro s hz hi hl hn
    simp only [List.flatten_cons, List.length_append] at hn
    have hp : putInput c s = (.ok (), { s with src := s.src ++ c }) := M.modify_run _ _
    generalize hs : ({ s with src := s.src ++ c } : HdrParser) = s1 at hp
    have h1 : s1.zeroCount < 4 := by rw [← hs]; exact hz
    have h2 : s1.src = s.src ++ c := by rw [← hs]
    have h3 : s1.idx = s.idx := by rw [← hs]
    have h5 : s1.lasterror = "" := by rw [← hs]; exact hl
    have h4 : parse n s1 = (toBool (hrun s1 (s1.src.drop s1.idx)).1, (hrun s1 (s1.src.drop s1.idx)).2) :=
      parse_hrun _ h1 (by rw [h2, h3, hi, List.length_append]; omega) rfl (by rw [List.length_drop, h2, List.length_append]; omega)
    obtain ⟨f1, f2, f3, f4, f5, f6⟩ := hrun_facts (s1.src.drop s1.idx) s1 h1
    generalize hrun s1 (s1.src.drop s1.idx) = r at *
    obtain ⟨o, t⟩ := r
    have stay : ∀ x : Res Outcome × HdrParser, x.2 = t → x.2.src = s.src ++ ((c :: cs).take 1).flatten := by
      rintro x rfl
      simpa [h2] using f2
    unfold HdrParser.feed
    rw [M.bind_ok hp]
    cases o with
    | stop e => exact ⟨1, stay _ (by rw [M.bind_stop h4])⟩
    | ok o =>
      cases o with
      | done =>
        rw [M.bind_ok (show parse n s1 = (.ok true, t) from h4), M.bind_ok (M.get_run _)]
        exact ⟨1, stay _ rfl⟩
      | failed =>
        rw [M.bind_ok (show parse n s1 = (.ok false, t) from h4), M.bind_ok (M.get_run _)]
        refine ⟨1, stay _ ?_⟩
        have := f4 rfl
        simp only at this
        rw [if_neg (by simp), if_pos (by simp [getLasterror, this])]
        rfl
      | more =>
        rw [M.bind_ok (show parse n s1 = (.ok false, t) from h4), M.bind_ok (M.get_run _)]
        have e5 := f3 (fun h => nomatch h)
        simp only at e5
        rw [if_neg (by simp), if_neg (by simp [getLasterror, e5, h5])]
        obtain ⟨k, hk1, hk2, hk3⟩ := f1
        simp only at hk2 hk3 f2
        have hk := hk3 trivial
        rw [List.length_drop, h2, h3, hi, List.length_append] at hk
        obtain ⟨j, hj⟩ := ih t (f5 rfl) (by rw [hk2, hk, f2, h2, h3, hi, List.length_append]; omega) (e5.trans h5)
          (by rw [f2, h2, List.length_append]; omega)
        exact ⟨j + 1, by rw [hj, f2, h2]; simp⟩

/-- How the header of a document is read. -/
theorem plain_read {e : Enc} {d : Document} (hd : d.Ok e) (hp : d.Plain) : ∃ l rest t, d.spell = l ++ rest ∧ (∀ c ∈ l, 1 ≤ c ∧ c < 128) ∧
    crun new l = (.ok .done, t) ∧ t.getEncoding = declared d.items ∧ t.getLasterror = none := by
  obtain ⟨lead, header, body⟩ := d
  have hb : ∀ {w : List Byte}, Blank w → ∀ b ∈ w, 1 ≤ b ∧ b < 128 := fun hw b hb => by have := hw b hb; omega
  cases header with
  | none =>
    obtain ⟨w, name, attrs, tail, im, ms, hbody, hn⟩ := hp
    obtain rfl : body = _ := hbody
    have hw : Gaps w := (hd.2.1 _ (List.mem_cons_self ..)).1
    cases hs : spell name with
    | nil => rw [hs] at hn; cases hn
    | cons c cs =>
      rw [hs] at hn
      have hc : initial c = true := hn
      obtain ⟨cc, h1⟩ := crun_first (blank_of_gaps hd.1) (blank_of_gaps hw) c
      have hc' : 65 ≤ c ∧ c < 128 ∧ HdrParser.nameChar c = true := by
        simp only [initial, decide_eq_true_eq] at hc
        refine ⟨by omega, by omega, ?_⟩
        have : ∀ c : _root_.Fin 128, initial c.val = true → HdrParser.nameChar c.val = true := by decide
        exact this ⟨c, by omega⟩ hn
      have h2 : crun (at_ .ParseXmlOpen .Encoding [] [] cc) [c] = (.ok .done, count c (at_ .ParseXmlOpen .Encoding [] [] cc)) := by
        unfold crun
        have : consume c (count c (at_ .ParseXmlOpen .Encoding [] [] cc)) = (.ok (some true), count c (at_ .ParseXmlOpen .Encoding [] [] cc)) := by
          unfold consume
          rw [M.bind_ok (M.get_run _)]
          obtain ⟨c1, k⟩ := count_at c .ParseXmlOpen .Encoding [] [] cc
          rw [k]
          simp only [switch, at_]
          rw [if_neg (by rintro rfl; exact absurd hc'.1 (by decide)), if_neg (by omega), if_pos hc'.2.2]
          rfl
        rw [this]
      refine ⟨lead ++ [60] ++ w ++ [c], cs ++ attrs.flatMap Attr.spell ++ tail ++ (if im then [47, 62] else [62]) ++ ms.flatMap Mark.spell, _, ?_, ?_,
        h1.trans h2, ?_, ?_⟩
      · simp [Document.spell, Mark.spell, hs]
      · intro b hb'
        simp only [List.mem_append, List.mem_singleton] at hb'
        rcases hb' with ((hb' | rfl) | hb') | rfl
        · exact hb (blank_of_gaps hd.1) b hb'
        · decide
        · exact hb (blank_of_gaps hw) b hb'
        · omega
      · obtain ⟨c1, k⟩ := count_at c .ParseXmlOpen .Encoding [] [] cc
        rw [k]
        exact (declared_none (body_items _ true [])).symm
      · obtain ⟨c1, k⟩ := count_at c .ParseXmlOpen .Encoding [] [] cc
        rw [k]
        rfl
  | some h =>
    obtain ⟨w, attrs, tail⟩ := h
    obtain ⟨k1, k2, k3, k4, k5⟩ := hd
    obtain ⟨as, rfl, hnm⟩ := named_of_plain attrs hp
    obtain ⟨b1, b2⟩ := declOf_wf tail k5 as hnm k4
    have ht := declOf_text tail as hnm
    have hdc : declared (Document.items ⟨lead, some (w, as.map (·.2), tail), body⟩) = declEncoding (declOf as tail).2 := by
      rw [← declared_attrs tail as hnm ((.HeaderEnd, []) :: Spec.items true [] body) (declared_none fun i hi => by
        rcases List.mem_cons.1 hi with rfl | hi
        · exact fun h => nomatch h
        · exact body_items _ _ _ i hi)]
      simp only [Document.items, List.cons_append, List.append_assoc, List.nil_append]
      rfl
    have hl : ∃ t, crun new (declText lead w (declOf as tail).1 (declOf as tail).2) = (.ok .done, t) ∧
        t.getEncoding = declEncoding (declOf as tail).2 ∧ t.getLasterror = none := by
      by_cases hne : (declOf as tail).1 = []
      · have has : as = [] := by
          cases as with
          | nil => rfl
          | cons x as => exact absurd hne (k4 x.2 (List.mem_cons_self ..)).2.1
        subst has
        obtain ⟨aty, st, cc, h⟩ := crun_bare (blank_of_gaps k1) (blank_of_gaps k3)
        exact ⟨_, by rw [hne]; exact h, rfl, rfl⟩
      · obtain ⟨aty, cc, h⟩ := crun_decl (blank_of_gaps k1) (blank_of_gaps k3) b1 hne b2
        exact ⟨_, h, encAfters_spec _ b2, rfl⟩
    obtain ⟨t, t1, t2, t3⟩ := hl
    refine ⟨_, 62 :: body.flatMap Mark.spell, t, ?_, ?_, t1, t2.trans hdc.symm, t3⟩
    · show lead ++ ([60] ++ w ++ codes "?xml" ++ (as.map (·.2)).flatMap Attr.spell ++ tail ++ codes "?>") ++ _ = _
      rw [List.append_assoc ([60] ++ w ++ codes "?xml"), ← ht]
      simp [declText, codes]
    · intro b hb'
      simp only [declText, List.mem_append, List.mem_cons, List.not_mem_nil, or_false, List.mem_flatMap] at hb'
      rcases hb' with (((((hb' | hb') | hb') | hb') | hb') | ⟨a, ha, hb'⟩) | hb'
      · exact hb (blank_of_gaps k1) b hb'
      · omega
      · exact hb (blank_of_gaps k3) b hb'
      · omega
      · exact hb b1 b hb'
      · have hq : a.quote = 34 ∨ a.quote = 39 := by unfold DeclAttr.quote; split <;> simp
        have hnm : ∀ c ∈ a.name.text, 1 ≤ c ∧ c < 128 := by cases a.name <;> decide
        have hv := (b2 a ha).value
        have hv' := declOf_value tail as ‹_› a ha
        simp only [DeclAttr.text, List.mem_append, List.mem_cons, List.not_mem_nil, or_false] at hb'
        rcases hb' with ((((((hb' | hb') | hb') | hb') | hb') | hb') | hb') | hb'
        · exact hnm b hb'
        · exact hb (b2 a ha).ws1 b hb'
        · omega
        · exact hb (b2 a ha).ws2 b hb'
        · omega
        · exact ⟨Nat.pos_of_ne_zero (hv b hb').1, hv' b hb'⟩
        · omega
        · exact hb (b2 a ha).ws3 b hb'
      · omega

variable {de e : Enc}

/-- **C92 (partial)** — The full claim: for every document of the grammar, in every encoding, the header parser is done without error and
reports the encoding that the scanner delivers as the value of the header attribute `encoding`, and none if there is no such attribute; and a
scanner that gets the data consumed by the header parser as its first chunk, and then the chunks that are left, reads the items of the
document. The conditions: a document with an XML declaration has only the attributes of such declarations, in quotes, with ASCII
characters, and no references in the name of the encoding; one without begins with a tag. What is missing is false: see `C92_comment_false` and
`C92_reference_false`. -/
theorem C92_header_partial (hde : PageOk de) {d : Document} (hd : d.Ok de) (hp : d.Plain) {parts : List (List Byte)}
    (hparts : parts.flatten = d.bytes de) {n : Nat} (hn : parts.flatten.length < n) :
    (HdrParser.feed n parts HdrParser.new).1 = .ok .done ∧ (HdrParser.feed n parts HdrParser.new).2.getLasterror = none ∧
    (HdrParser.feed n parts HdrParser.new).2.getEncoding = declared d.items ∧
    ∃ k, (HdrParser.feed n parts HdrParser.new).2.consumedData = (parts.take k).flatten ∧
      ∀ {em : Option (List (Nat × UChar))} {addr : Nat} {calls : List (Nat × Bool)}, calls.length = d.items.length →
        (∀ x ∈ calls, ∀ t : ElementType, x.1.testBit t.toNat = true) →
        ∃ N, ∀ m, N ≤ m → ∃ s, sessionFed m true false calls (parts.drop k)
            (fedScanner de e em addr (HdrParser.feed n parts HdrParser.new).2.consumedData (parts.drop k)) =
          (.ok (d.items.map fun i => { type := i.1, item := i.2.flatMap e.print, error := .Ok, pos := none }), s) := by
  obtain ⟨l, rest, t, h1, h2, h3, h4, h5⟩ := plain_read hd hp
  obtain ⟨g1, g2, g3⟩ := feed_text hde h2 h3 (fun h => nomatch h) (rest := rest.flatMap de.print) (parts := parts)
    (by rw [hparts, Document.bytes, h1, List.flatMap_append]) hn
  obtain ⟨k, hk⟩ := feed_src parts HdrParser.new (by decide) rfl rfl (by simpa [HdrParser.new] using hn)
  have hk : (HdrParser.feed n parts HdrParser.new).2.src = (parts.take k).flatten := hk
  refine ⟨g1, g3.trans h5, g2.trans h4, k, hk, fun hl hm => ?_⟩
  refine C66_chunks hde hd ?_ hl hm
  show (HdrParser.feed n parts HdrParser.new).2.src ++ _ = _
  rw [hk, ← List.flatten_append, List.take_append_drop, hparts]

/-- **C92 is false for documents that begin with a comment, a document type or a CDATA section**: the header parser fails on all of them. -/
theorem C92_comment_false (hde : PageOk de) {lead : List UChar} {m : Mark} {ms : List Mark} (hd : Document.Ok de ⟨lead, none, m :: ms⟩)
    (hm : ∀ lead name attrs tail im, m ≠ .open_ lead name attrs tail im) {parts : List (List Byte)}
    (hparts : parts.flatten = Document.bytes de ⟨lead, none, m :: ms⟩) {n : Nat} (hn : parts.flatten.length < n) :
    (HdrParser.feed n parts HdrParser.new).1 = .ok .failed ∧ (HdrParser.feed n parts HdrParser.new).2.getLasterror =
      some "expected xml header question mark '?' after open tag angle bracket '<'" := by
  have key : ∃ w rest, Gaps w ∧ m.spell = [60] ++ w ++ [33] ++ rest := by
    have hl : m.leads = true := hd.2.2 m rfl
    have ho := hd.2.1 m (List.mem_cons_self ..)
    cases m with
    | open_ lead name attrs tail im => exact absurd rfl (hm _ _ _ _ _)
    | doctype w name parts tail => exact ⟨w, _, ho.1, by simp only [Mark.spell, List.append_assoc]; rfl⟩
    | comment w cs => exact ⟨w, _, ho.1, by simp only [Mark.spell, List.append_assoc]; rfl⟩
    | cdata w cs => exact ⟨w, _, ho.1, by simp only [Mark.spell, List.append_assoc]; rfl⟩
    | _ => cases hl
  obtain ⟨w, rest, hw, hs⟩ := key
  obtain ⟨cc, h1⟩ := crun_first (blank_of_gaps hd.1) (blank_of_gaps hw) 33
  have h2 : crun (at_ .ParseXmlOpen .Encoding [] [] cc) [33] = (.ok .failed, { at_ .ParseXmlOpen .Encoding [] [] (cc + 1) with
    lasterror := "expected xml header question mark '?' after open tag angle bracket '<'" }) := rfl
  obtain ⟨g1, g2, g3⟩ := feed_text hde (l := lead ++ [60] ++ w ++ [33]) (o := .failed) (fun c hc => by
    simp only [List.mem_append, List.mem_singleton] at hc
    rcases hc with ((hc | rfl) | hc) | rfl
    · have := hd.1 c hc; unfold Gap at this; omega
    · decide
    · have := hw c hc; unfold Gap at this; omega
    · decide) (h1.trans h2) (fun h => nomatch h) (rest := (rest ++ ms.flatMap Mark.spell).flatMap de.print) (parts := parts) (by
      rw [hparts, Document.bytes, ← List.flatMap_append]
      congr 1
      simp [Document.spell, hs]) hn
  exact ⟨g1, g3⟩

/-- `<?xml version="1.0" encoding='x'?><a/>`, where `x` is given. -/
def declaredExample (x : List Glyph) : Document :=
  ⟨[], some ([], [⟨[32], lits "version", [], [32], .dq, lits "1.0"⟩, ⟨[10], lits "encoding", [32], [], .sq, x⟩], []),
    [.open_ [] (lits "a") [] [] true]⟩

theorem declaredExample_ok (he : PageOk e) {x : List Glyph} (hx : TokenText e .sq x) : (declaredExample x).Ok e := by
  refine ⟨lits_gaps (cs := []) (by decide), ?_, lits_gaps (cs := []) (by decide), ?_, lits_gaps (cs := []) (by decide)⟩
  · simp only [declaredExample, List.forall_mem_cons]
    exact ⟨⟨lits_gaps (by decide), lits_ok (by decide) he, by decide, fun m hm => (nomatch hm), lits_gaps (by decide)⟩, fun m hm => nomatch hm⟩
  · simp only [List.forall_mem_cons]
    exact ⟨⟨lits_gaps (by decide), by decide, lits_ok (by decide) he, by decide, lits_gaps (by decide), lits_gaps (by decide),
        lits_ok (by decide) he, fun h => nomatch h⟩,
      ⟨lits_gaps (cs := [10]) (by decide), fun h => (nomatch h), lits_ok (s := "encoding") (by decide) he, show lits "encoding" ≠ [] by decide,
        lits_gaps (cs := [32]) (by decide), lits_gaps (cs := []) (by decide), hx, fun h => nomatch h⟩, fun m hm => nomatch hm⟩

/-- A declaration with the encoding `A`, in UTF-16, in two chunks: the conditions are met. -/
example : (HdrParser.feed 200 [(declaredExample (lits "A")).bytes (.utf16 true)] HdrParser.new).2.getEncoding = some (codes "A") ∧
    (declaredExample (lits "A")).Ok (.utf16 true) ∧ (declaredExample (lits "A")).Plain := by
  have hp : (declaredExample (lits "A")).Plain := by
    intro a ha
    simp only [List.mem_cons, List.not_mem_nil, or_false] at ha
    rcases ha with rfl | rfl
    · exact ⟨⟨.version, by decide, fun h => nomatch h⟩, by decide, by decide⟩
    · exact ⟨⟨.encoding, by decide, fun _ => ⟨by decide, by decide⟩⟩, by decide, by decide⟩
  have he : PageOk (.utf16 true) := fun p h => nomatch h
  have ho := declaredExample_ok he (lits_ok (e := .utf16 true) (kind := .sq) (s := "A") (by decide) he)
  refine ⟨?_, ho, hp⟩
  rw [(C92_header_partial (e := .utf8) he ho hp (n := 200) (by simp) (by decide +kernel)).2.2.1]
  decide +kernel

/-- A document without a declaration, in three chunks. -/
example : (HdrParser.feed 20 [[60], [97], [47, 62]] HdrParser.new).1 = .ok .done ∧
    (HdrParser.feed 20 [[60], [97], [47, 62]] HdrParser.new).2.consumedData = [60, 97] ∧
    (HdrParser.feed 20 [[60], [97], [47, 62]] HdrParser.new).2.getEncoding = declared (Document.items ⟨[], none, [.open_ [] (lits "a") [] [] true]⟩) := by
  decide +kernel

/-- `<!--a--><a/>` -/
example : (HdrParser.feed 20 [Document.bytes .utf8 ⟨[], none, [.comment [] (codes "a"), .open_ [] (lits "a") [] [] true]⟩] HdrParser.new).1 = .ok .failed := by
  have he : PageOk .utf8 := fun p h => nomatch h
  refine (C92_comment_false (de := .utf8) (lead := []) (m := .comment [] (codes "a")) he ?_ (fun _ _ _ _ _ h => nomatch h) (by rw [List.flatten_singleton]) (by decide +kernel)).1
  refine ⟨lits_gaps (by decide), ?_, fun m hm => by cases hm; rfl⟩
  simp only [List.forall_mem_cons]
  exact ⟨⟨lits_gaps (by decide), AllW.ascii he (by decide), by decide, by decide⟩,
    ⟨lits_gaps (by decide), lits_ok (by decide) he, by decide, fun m hm => (nomatch hm), lits_gaps (by decide)⟩, fun m hm => nomatch hm⟩

/-- `<?xml version= "1.0" encoding ='&#65;'?><a/>` -/
def refDeclared : Document := declaredExample [⟨codes "&#65;", 65⟩]

theorem refDeclared_ok : refDeclared.Ok .utf8 :=
  declaredExample_ok (e := .utf8) (fun p h => nomatch h) fun g hg => by
    rw [List.mem_singleton.1 hg]
    exact .inr (.dec (codes "65") 65 (by decide) (by decide) (by decide) (by decide))

/-- **C92 is false for references in the name of the encoding**: the header parser reports the text of the reference, the scanner the character. -/
theorem C92_reference_false : refDeclared.Ok .utf8 ∧ (HdrParser.feed 60 [refDeclared.bytes .utf8] HdrParser.new).1 = .ok .done ∧
    (HdrParser.feed 60 [refDeclared.bytes .utf8] HdrParser.new).2.getEncoding = some (codes "&#65;") ∧
    declared refDeclared.items = some (codes "A") := by
  refine ⟨refDeclared_ok, by decide +kernel, by decide +kernel, by decide +kernel⟩

end TW
