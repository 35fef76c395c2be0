import Verif.Proofs.Skips
import Verif.Proofs.Errors

/-!
# Properties C35 and C36: comments, processing instructions and CDATA sections

The scanner `s` has been used for any calls and stands at the start of a comment, a processing instruction or a CDATA
section: before the `<`, or behind it if the item before was text that ends there. What a program sees from there on is what
it sees with a scanner that has only the bytes behind the end of that part.
-/

namespace TW

open Spec Mach Scanner

variable {e output : Enc} {em : Option (List (Nat × UChar))} {addr : Nat} {doc : List Byte}

/-- The scanner expects content, and the next character starts at `p`; or it has read a `<` at `p`. -/
def AtMarkup (e : Enc) (doc : List Byte) (before behind : List STMState) (p : Nat) (s : Scanner (TextScanner SrcIt)) : Prop :=
  (s.state ∈ before ∧ s.src.getPosition = p) ∨ (s.state ∈ behind ∧ s.src.getPosition = offs e (strm doc) p 1)

/-- What a program sees of the items, whatever the number of steps needed. -/
def Sees (calls : List (Nat × Bool)) (s : Scanner (TextScanner SrcIt)) (os : List Obs) : Prop :=
  ∃ n t, session n false calls s = (.ok os, t)

/-- The scanner in the state `st` with the bytes of the document from `q` on as source. -/
def continued (e : Enc) (doc : List Byte) (st : STMState) (q : Nat) (s : Scanner (TextScanner SrcIt)) :
    Scanner (TextScanner SrcIt) :=
  { s with state := st, src := TextScanner.mk' e (SrcIt.mk' (doc.drop q) false) }

theorem at_markup (hb : ∀ b ∈ doc, b < 256) (hl : doc.length + 16 ≤ 2 ^ 64) {s : Scanner (TextScanner SrcIt)}
    (h : Reached (oneScanner e output em addr doc) s) {before behind : List STMState} {p n : Nat} {as : List Byte}
    (hp : AtMarkup e doc before behind p s) (hc : (chars e (strm doc) p n).map Ch.asc = 60 :: as)
    {st : STMState} (h1 : ∀ s ∈ before, walk s (60 :: as) = some st) (h2 : ∀ s ∈ behind, walk s as = some st) (has : as ≠ []) :
    ∃ A E, SRel0 (oneSrc doc (strm_lt doc hb)) e s A ∧ Skipped A st (offs e (strm doc) p n) E ∧
      ∀ mask, ∃ j, Steps e (strm doc) mask j A E := by
  obtain ⟨A, g1, g2⟩ := reached_rel (strm_lt doc hb) h
  have hA := reach_near (strm_ends doc) (.new ..) (.inl (Nat.zero_lt_succ _)) g2
  have e1 : A.src < doc.length + 16 := by rcases hA.2 with h | h <;> omega
  have hpos : s.src.getPosition = A.src := by rw [g1.position oneSrc_wrap, Nat.mod_eq_of_lt (by omega)]
  cases as with
  | nil => exact absurd rfl has
  | cons a as =>
    have hn := congrArg List.length hc
    rw [List.length_map, chars_length] at hn
    rcases hp with ⟨h3, h4⟩ | ⟨h3, h4⟩
    · rw [hpos] at h4
      subst h4
      rw [g1.state] at h3
      have hw := h1 _ h3
      rw [← hc] at hw
      subst hn
      obtain ⟨E, hE, hs⟩ := walk_skipped g1.inv hw
      exact ⟨A, E, g1, hE, fun mask => ⟨_, hs mask⟩⟩
    · rw [hpos] at h4
      obtain ⟨-, k2, k3⟩ := ascs_split (as := [60]) (bs := a :: as) hc
      rw [g1.state] at h3
      have hw := h2 _ h3
      rw [← k2, show offs e (strm doc) p [60].length = A.src from h4.symm] at hw
      obtain ⟨E, hE, hs⟩ := walk_skipped g1.inv hw
      refine ⟨A, E, g1, ?_, fun mask => ⟨_, hs mask⟩⟩
      rw [k3, show offs e (strm doc) p [60].length = A.src from h4.symm]
      exact hE

/-- A comment whose body has no double dash and does not end with a dash: no item, and then the items of the rest
of the document, white space at its start skipped. -/
theorem C35_comment (hb : ∀ b ∈ doc, b < 256) (hl : doc.length + 16 ≤ 2 ^ 64) {s : Scanner (TextScanner SrcIt)}
    (h : Reached (oneScanner e output em addr doc) s) {p n : Nat} {body : List Byte}
    (hp : AtMarkup e doc [.START, .DOCSTART, .CONTENT, .SEEKTOK] [.STARTTAG, .XMLTAG] p s)
    (hc : (chars e (strm doc) p n).map Ch.asc = codes "<!--" ++ body ++ codes "-->")
    (h1 : ¬ codes "--" <:+: body) (h2 : body.getLast? ≠ some 45) (calls : List (Nat × Bool)) (os : List Obs) :
    Sees calls s os ↔ Sees calls (continued e doc .SEEKTOK (offs e (strm doc) p n) s) os := by
  have hbody : ∀ a ∈ body, a < 256 := fun a ha => ascs_lt hc a (by simp [ha])
  have hw := (walk_comment body hbody h1 h2).1
  have key : ∀ st as, walk st as = some .COMSEEKE → walk st (as ++ (body ++ codes "-->")) = some .SEEKTOK := by
    intro st as h
    rw [walk_append _ _ _ _ h]
    exact hw
  have hc' : (chars e (strm doc) p n).map Ch.asc = 60 :: ([33, 45, 45] ++ (body ++ codes "-->")) := by
    rw [hc, List.append_assoc]
    rfl
  obtain ⟨A, E, g1, g2, g3⟩ := at_markup hb hl h hp hc' (st := .SEEKTOK)
    (by
      intro st hst
      refine key st [60, 33, 45, 45] ?_
      revert st
      decide)
    (by
      intro st hst
      refine key st [33, 45, 45] ?_
      revert st
      decide) (by simp)
  exact skipped_session hb g1 g2 rfl g3 calls os

/-- If the scanner is not at the start of the document and no white space follows the comment, the items are those of the
document without the comment. Missing: white space behind the comment, and a comment before the root element, for these it is
false. -/
theorem C35_unchanged_partial (hb : ∀ b ∈ doc, b < 256) (hl : doc.length + 16 ≤ 2 ^ 64) {s : Scanner (TextScanner SrcIt)}
    (h : Reached (oneScanner e output em addr doc) s) {p n : Nat} {body : List Byte}
    (hp : s.state ∈ [.DOCSTART, .CONTENT, .SEEKTOK]) (hp' : s.src.getPosition = p)
    (hc : (chars e (strm doc) p n).map Ch.asc = codes "<!--" ++ body ++ codes "-->")
    (h1 : ¬ codes "--" <:+: body) (h2 : body.getLast? ≠ some 45)
    (h3 : s.state = .CONTENT → ¬ White (uasc e (strm doc) (offs e (strm doc) p n)))
    (calls : List (Nat × Bool)) (os : List Obs) :
    Sees calls s os ↔ Sees calls (continued e doc s.state (offs e (strm doc) p n) s) os := by
  rw [C35_comment hb hl h (.inl ⟨by revert hp; generalize s.state = st; revert st; decide, hp'⟩) hc h1 h2]
  obtain ⟨A, g1, -⟩ := reached_rel (strm_lt doc hb) h
  have hr : ∀ b ∈ doc.drop (offs e (strm doc) p n), b < 256 := fun b hx => hb b (List.mem_of_mem_drop hx)
  have f1 := g1.fresh hb hr .SEEKTOK
  have f2 := g1.fresh hb hr s.state
  have hq := (behind_drop doc (offs e (strm doc) p n)).look (e := e) 0
  rw [Nat.zero_add] at hq
  rw [hq.asc] at h3
  have hlt := uasc_lt (e := e) (f := strm (doc.drop (offs e (strm doc) p n))) 0
  have hcl : s.state = .CONTENT →
      controlCharMap (uasc e (strm (doc.drop (offs e (strm doc) p n))) 0) ∉ [Cc.EndOfLine, .Cntrl, .Space] :=
    fun hst hcl => h3 hst (white_of_class ⟨_, hlt⟩ hcl)
  have hs : s.state = .CONTENT → ∀ mask,
      step e (strm (doc.drop (offs e (strm doc) p n))) mask { A with state := .SEEKTOK, src := 0 } =
      step e (strm (doc.drop (offs e (strm doc) p n))) mask { A with state := .CONTENT, src := 0 } := by
    intro hst mask
    have := hcl hst
    unfold step Mach.trans cls
    simp only
    generalize controlCharMap (uasc e (strm (doc.drop (offs e (strm doc) p n))) 0) = c at this
    cases c <;> first | rfl | exact absurd (by decide) this
  by_cases hst : s.state = .CONTENT
  · rw [hst] at f2 ⊢
    exact ⟨same_session f1 f2 fun _ => runs_same fun mask => (hs hst mask).symm, same_session f2 f1 fun _ => runs_same (hs hst)⟩
  · have hst' : s.state ∈ [STMState.DOCSTART, .SEEKTOK] := by
      revert hp hst; generalize s.state = st; revert st; decide
    exact ⟨same_session f1 f2 fun _ => runs_docstart (A := { A with src := 0 }) (by decide) hst',
      same_session f2 f1 fun _ => runs_docstart (A := { A with src := 0 }) hst' (by decide)⟩

/-- `<a>x<!-- <b> - c -->  y</a>` -/
def commentExample : List Byte := codes "<a>x<!-- <b> - c -->  y</a>"

/-- After the text `x` the scanner is behind the `<` of the comment. -/
example : ∃ s, Reached (oneScanner .utf8 .utf8 none 0 commentExample) s ∧
    AtMarkup .utf8 commentExample [.START, .DOCSTART, .CONTENT, .SEEKTOK] [.STARTTAG, .XMLTAG] 4 s := by
  have h : (session 40 true [(0xFFFF, true), (0xFFFF, true)] (oneScanner .utf8 .utf8 none 0 commentExample)).1 =
        .ok [⟨.OpenTag, [97], .Ok, some 1⟩, ⟨.Content, [120], .Ok, some 3⟩] ∧
      (session 40 true [(0xFFFF, true), (0xFFFF, true)] (oneScanner .utf8 .utf8 none 0 commentExample)).2.state = .XMLTAG ∧
      (session 40 true [(0xFFFF, true), (0xFFFF, true)]
        (oneScanner .utf8 .utf8 none 0 commentExample)).2.src.getPosition = offs .utf8 (strm commentExample) 4 1 := by
    decide +kernel
  exact ⟨_, reached_intro h.1, .inr ⟨by rw [h.2.1]; decide, h.2.2⟩⟩

example : (chars .utf8 (strm commentExample) 4 16).map Ch.asc = codes "<!--" ++ codes " <b> - c " ++ codes "-->" ∧
    ¬ codes "--" <:+: codes " <b> - c " ∧ (codes " <b> - c ").getLast? ≠ some 45 := by decide +kernel

/-- What a program sees at the start of a document. -/
def seesOf (doc : String) (calls : Nat) : Res (List Obs) :=
  (session 80 false (List.replicate calls (0xFFFF, true)) (oneScanner .utf8 .utf8 none 0 (codes doc))).1

/-- White space behind a comment is not delivered. -/
theorem C35_unchanged_false :
    seesOf "<a><!--x--> b</a>" 3 = .ok [⟨.OpenTag, [97], .Ok, none⟩, ⟨.Content, [98], .Ok, none⟩, ⟨.CloseTag, [97], .Ok, none⟩] ∧
    seesOf "<a> b</a>" 3 = .ok [⟨.OpenTag, [97], .Ok, none⟩, ⟨.Content, [32, 98], .Ok, none⟩, ⟨.CloseTag, [97], .Ok, none⟩] := by
  constructor <;> decide +kernel

/-- With a comment before the root element the root element is not required any more. -/
theorem C35_root_false :
    seesOf "<!--x-->b" 1 = .ok [⟨.Content, [98], .Ok, none⟩] ∧
    seesOf "b" 1 = .ok [⟨.ErrorOccurred, [], .ErrExpectedOpenTag, none⟩] := by
  constructor <;> decide +kernel

/-- A comment that ends with three dashes does not end there. -/
example : seesOf "<a><!-- x--->y-->z</a>" 2 = .ok [⟨.OpenTag, [97], .Ok, none⟩, ⟨.Content, [122], .Ok, none⟩] := by
  decide +kernel

/-! ## C36 -/

/-- A processing instruction without question mark ends at `?>`: no item, and then the items of the rest of the
document. Missing: a question mark in the instruction. -/
theorem C36_instruction_partial (hb : ∀ b ∈ doc, b < 256) (hl : doc.length + 16 ≤ 2 ^ 64) {s : Scanner (TextScanner SrcIt)}
    (h : Reached (oneScanner e output em addr doc) s) {p n : Nat} {body : List Byte}
    (hp : AtMarkup e doc [.DOCSTART, .CONTENT, .SEEKTOK] [.XMLTAG] p s)
    (hc : (chars e (strm doc) p n).map Ch.asc = codes "<?" ++ body ++ codes "?>")
    (h1 : 63 ∉ body) (calls : List (Nat × Bool)) (os : List Obs) :
    Sees calls s os ↔ Sees calls (continued e doc .CONTENT (offs e (strm doc) p n) s) os := by
  have hbody : ∀ a ∈ body, a < 256 := fun a ha => ascs_lt hc a (by simp [ha])
  have key : ∀ st as, walk st as = some .PITAG → walk st (as ++ (body ++ codes "?>")) = some .CONTENT := by
    intro st as h
    rw [walk_append _ _ _ _ h, walk_pi body hbody h1]
    decide
  have hc' : (chars e (strm doc) p n).map Ch.asc = 60 :: ([63] ++ (body ++ codes "?>")) := by
    rw [hc, List.append_assoc]
    rfl
  obtain ⟨A, E, g1, g2, g3⟩ := at_markup hb hl h hp hc' (st := .CONTENT)
    (by
      intro st hst
      refine key st [60, 63] ?_
      revert st
      decide)
    (by
      intro st hst
      refine key st [63] ?_
      revert st
      decide) (by simp)
  exact skipped_session hb g1 g2 rfl g3 calls os

/-- If the first question mark of a processing instruction is not followed by `>`, the call ends with an error, for any mask. -/
theorem C36_question_mark (hb : ∀ b ∈ doc, b < 256) (hl : doc.length + 16 ≤ 2 ^ 64) {s : Scanner (TextScanner SrcIt)}
    (h : Reached (oneScanner e output em addr doc) s) {p n c : Nat} {body : List Byte}
    (hp : AtMarkup e doc [.DOCSTART, .CONTENT, .SEEKTOK] [.XMLTAG] p s)
    (hc : (chars e (strm doc) p n).map Ch.asc = codes "<?" ++ body ++ [63, c])
    (h1 : 63 ∉ body) (h2 : c ≠ 62) (mask : Nat) :
    ∃ N, ∀ n, N ≤ n → ∃ s', nextItem n mask s = (.ok .ErrorOccurred, s') ∧ s'.error = .ErrExpectedTagEnd := by
  have hbody : ∀ a ∈ body, a < 256 := fun a ha => ascs_lt hc a (by simp [ha])
  have hc256 : c < 256 := ascs_lt hc c (by simp)
  have key : ∀ st as, walk st as = some .PITAG → walk st (as ++ (body ++ [63])) = some .PITAGEND := by
    intro st as h
    rw [walk_append _ _ _ _ h, walk_pi body hbody h1]
    decide
  rw [show codes "<?" ++ body ++ [63, c] = (60 :: ([63] ++ (body ++ [63]))) ++ [c] by simp; rfl] at hc
  obtain ⟨k1, k2, -⟩ := ascs_split hc
  obtain ⟨A, E, g1, g2, g3⟩ := at_markup hb hl h hp k1 (st := .PITAGEND)
    (by
      intro st hst
      refine key st [60, 63] ?_
      revert st
      decide)
    (by
      intro st hst
      refine key st [63] ?_
      revert st
      decide) (by simp)
  obtain ⟨j, hj⟩ := g3 mask
  have hst : E.state = .PITAGEND := by rw [g2.eq]
  have hcl : cls e (strm doc) E ≠ .Gt := by
    intro hx
    have hs : E.src = offs e (strm doc) p (60 :: ([63] ++ (body ++ [63]))).length := by rw [g2.eq]
    have ha : uasc e (strm doc) E.src = c := by
      rw [← hs] at k2
      simpa [chars, chAt] using k2
    have hx' : controlCharMap (uasc e (strm doc) E.src) = .Gt := hx
    rw [ha] at hx'
    exact h2 ((class_eq_iff ⟨c, hc256⟩).2.1.1 hx')
  have hs : step e (strm doc) mask E = (some .ErrorOccurred, { idTo .Start E with error := .ErrExpectedTagEnd }) := by
    unfold step
    simp only [hst]
    show Mach.trans e (strm doc) (stm .PITAGEND) .None E = _
    unfold Mach.trans
    have n1 : ∀ c, c ≠ Cc.Gt → (stm .PITAGEND).next c = none := by
      intro c h; cases c <;> first | rfl | exact absurd rfl h
    simp only [n1 _ hcl]
    rfl
  refine ⟨j + 1, fun n hn => ?_⟩
  obtain ⟨s', h3, h4⟩ := nextItem_fin (n := n) oneSrc_total (g1.rel mask) ⟨E, hj, hs⟩ (by omega)
  exact ⟨s', h3, by rw [h4.error]⟩

/-- `<?a b?c?>` is not skipped up to its first `?>`. -/
theorem C36_instruction_false :
    seesOf "<a><?a b?c?></a>" 2 = .ok [⟨.OpenTag, [97], .Ok, none⟩, ⟨.ErrorOccurred, [97], .ErrExpectedTagEnd, none⟩] := by
  decide +kernel

/-- A CDATA section whose body has no `]]>` ends at the first `]]>` if there are no three closing brackets in sequence: no
item, and then the items of the rest of the document. Missing: three closing brackets in sequence, for these it is false. -/
theorem C36_cdata_partial (hb : ∀ b ∈ doc, b < 256) (hl : doc.length + 16 ≤ 2 ^ 64) {s : Scanner (TextScanner SrcIt)}
    (h : Reached (oneScanner e output em addr doc) s) {p n : Nat} {body : List Byte}
    (hp : AtMarkup e doc [.START, .DOCSTART, .CONTENT, .SEEKTOK] [.STARTTAG, .XMLTAG] p s)
    (hc : (chars e (strm doc) p n).map Ch.asc = codes "<![CDATA[" ++ body ++ codes "]]>")
    (h1 : ¬ codes "]]>" <:+: body) (h2 : ¬ codes "]]]" <:+: body ++ codes "]]") (calls : List (Nat × Bool)) (os : List Obs) :
    Sees calls s os ↔ Sees calls (continued e doc .CONTENT (offs e (strm doc) p n) s) os := by
  have hbody : ∀ a ∈ body, a < 256 := fun a ha => ascs_lt hc a (by simp [ha])
  have hw : walk .CDATA1 (body ++ [93, 93, 62]) = some .CONTENT :=
    walk_cdata body hbody ([], .CDATA1) (by simp) h2 h1
  rw [show codes "<![CDATA[" ++ body ++ codes "]]>" =
    (60 :: [33, 91]) ++ ([67, 68, 65, 84, 65, 91] ++ (body ++ [93, 93, 62])) by rw [List.append_assoc]; rfl] at hc
  obtain ⟨k1, k2, k3⟩ := ascs_split hc
  obtain ⟨A, E, g1, g2, g3⟩ := at_markup hb hl h hp k1 (st := .CDATA) (by decide) (by decide) (by simp)
  have hst : E.state = .CDATA := by rw [g2.eq]
  have hs : E.src = offs e (strm doc) p (60 :: [33, 91]).length := by rw [g2.eq]
  rw [← hs] at k2 k3
  obtain ⟨m1, m2, m3⟩ := ascs_split k2
  obtain ⟨F, hF, sF⟩ := cdata_key g2.inv hst g2.id m1
  have hsF : F.src = offs e (strm doc) E.src [67, 68, 65, 84, 65, 91].length := by rw [hF.eq]; rfl
  rw [← hsF] at m2 m3
  have hw' : walk F.state ((chars e (strm doc) F.src (body.length + 2 + 1)).map Ch.asc) = some .CONTENT := by
    rw [show F.state = .CDATA1 by rw [hF.eq], ← hw, ← m2]
    congr 3
    simp
  obtain ⟨G, hG, sG⟩ := walk_skipped hF.inv hw'
  have hq : offs e (strm doc) F.src (body.length + 2 + 1) = offs e (strm doc) p n := by
    rw [k3, m3]
    congr 1
    simp
  rw [hq] at hG
  refine skipped_session hb g1 ((g2.then hF).then hG) rfl (fun mask => ?_) calls os
  obtain ⟨j, hj⟩ := g3 mask
  exact ⟨_, (hj.trans (sF mask)).trans (sG mask)⟩

/-- `<a><?pi x="1" ?><![CDATA[ ]]x] ]]>y</a>` -/
def cdataExample : List Byte := codes "<a><?pi x=\"1\" ?><![CDATA[ ]]x] ]]>y</a>"

example : (chars .utf8 (strm cdataExample) 3 13).map Ch.asc = codes "<?" ++ codes "pi x=\"1\" " ++ codes "?>" ∧
    63 ∉ codes "pi x=\"1\" " := by decide +kernel

example : (chars .utf8 (strm cdataExample) 16 18).map Ch.asc = codes "<![CDATA[" ++ codes " ]]x] " ++ codes "]]>" ∧
    ¬ codes "]]>" <:+: codes " ]]x] " ∧ ¬ codes "]]]" <:+: codes " ]]x] " ++ codes "]]" := by decide +kernel

example : (chars .utf8 (strm (codes "<?a b?c?>")) 0 7).map Ch.asc = codes "<?" ++ codes "a b" ++ [63, 99] ∧
    63 ∉ codes "a b" := by decide +kernel

/-- After the start tag the scanner is before the instruction. -/
example : ∃ s, Reached (oneScanner .utf8 .utf8 none 0 cdataExample) s ∧
    AtMarkup .utf8 cdataExample [.DOCSTART, .CONTENT, .SEEKTOK] [.XMLTAG] 3 s := by
  have h : (session 40 true [(0xFFFF, true)] (oneScanner .utf8 .utf8 none 0 cdataExample)).1 =
        .ok [⟨.OpenTag, [97], .Ok, some 1⟩] ∧
      (session 40 true [(0xFFFF, true)] (oneScanner .utf8 .utf8 none 0 cdataExample)).2.state = .CONTENT ∧
      (session 40 true [(0xFFFF, true)] (oneScanner .utf8 .utf8 none 0 cdataExample)).2.src.getPosition = 3 := by
    decide +kernel
  exact ⟨_, reached_intro h.1, .inl ⟨by rw [h.2.1]; decide, h.2.2⟩⟩

example : seesOf "<a><?pi x=\"1\" ?><![CDATA[ ]]x] ]]>y</a>" 2 =
    .ok [⟨.OpenTag, [97], .Ok, none⟩, ⟨.Content, [121], .Ok, none⟩] := by decide +kernel

/-- The section `<![CDATA[]]]>` does not end at its first `]]>`, the text behind is skipped. -/
theorem C36_cdata_false : seesOf "<a><![CDATA[]]]>x]]>y</a>" 2 =
    .ok [⟨.OpenTag, [97], .Ok, none⟩, ⟨.Content, [121], .Ok, none⟩] := by decide +kernel

end TW
