import Verif.Spec.Tree
import Verif.Proofs.Documents
import Verif.Proofs.Escape

/-!
# Printed documents are documents of the grammar
-/

namespace TW

open Spec Mach

variable {e out app : Enc}

/-! ## Characters -/

theorem numeral_append {base : Nat} {digit : Byte → Option Nat} (d : Byte) : ∀ (ds : List Byte) (v : Nat),
    numeral base digit (ds ++ [d]) v = (numeral base digit ds v).bind fun w => (digit d).bind fun x => some (w * base + x) := by
  intro ds
  induction ds with
  | nil => intro v; rfl
  | cons y ds ih =>
    intro v
    rw [List.cons_append, numeral, numeral]
    cases digit y with
    | none => rfl
    | some x => exact ih _

theorem hexDigit_value {d : Nat} (h : d < 16) : hexaDigit (Spec.hexDigit d) = some d := by
  have : ∀ d : _root_.Fin 16, hexaDigit (Spec.hexDigit d.1) = some d.1 := by decide
  exact this ⟨d, h⟩

theorem isHex_numeral {ds : List Byte} {c : Nat} (h : IsHex ds c) : numeral 16 hexaDigit ds 0 = some c := by
  induction h with
  | digit d _ h =>
    rw [numeral, hexDigit_value h]
    simp [numeral]
  | snoc bs n d _ h ih =>
    rw [numeral_append, ih, hexDigit_value h]
    rfl

theorem isHex_ne {ds : List Byte} {c : Nat} (h : IsHex ds c) : 1 ≤ ds.length := by
  cases h with
  | digit => simp
  | snoc => simp

theorem entity_is_reference {c : UChar} (h0 : c ≠ 0) (h32 : c < 2 ^ 32) : Reference (entityText c) c := by
  obtain ⟨ds, h1, h2⟩ := entityText_isEntity c (by omega) h32
  have h3 := entityText_length c h32
  rw [h2] at h3 ⊢
  simp only [List.length_append, List.length_cons, List.length_nil] at h3
  exact .hex ds c (isHex_ne h1) (by omega) (isHex_numeral h1) (by omega)

open Classical in
/-- How a character is written. -/
noncomputable def glyphOf (e : Enc) (esc : UChar → List UChar) (c : UChar) : Glyph :=
  if esc c = [c] ∧ ¬ Direct e c then ⟨entityText c, c⟩ else ⟨esc c, c⟩

theorem glyphOf_char (esc : UChar → List UChar) (c : UChar) : (glyphOf e esc c).char = c := by
  unfold glyphOf
  split <;> rfl

theorem glyphOf_ok (he : PageOk e) {esc : UChar → List UChar} {kind : Kind} {c : UChar} (h0 : c ≠ 0) (h32 : c < 2 ^ 32)
    (hp : Printable e c)
    (hesc : Reference (esc c) c ∨ esc c = [c] ∧ c ≠ 38 ∧ c ≠ 13 ∧ (c < 128 → kind.ends c = false)) :
    (glyphOf e esc c).Ok e kind ∧ (glyphOf e esc c).spelling.flatMap e.print = (esc c).flatMap e.print := by
  unfold glyphOf
  split
  · next h =>
    refine ⟨.inr (entity_is_reference h0 h32), ?_⟩
    have hne : e ≠ .utf8 := by
      rintro rfl
      exact h.2 (hp rfl)
    rw [h.1]
    simp only [List.flatMap_cons, List.flatMap_nil, List.append_nil]
    exact (print_entity he h0 h32 hne h.2).symm
  · next h =>
    refine ⟨?_, rfl⟩
    rcases hesc with hr | ⟨h1, h2, h3, h4⟩
    · exact .inr hr
    · refine .inl ⟨h1, ⟨h0, h32, ?_⟩, h2, h3, h4⟩
      exact Classical.byContradiction fun hd => h ⟨h1, hd⟩

/-- How a text is written. -/
noncomputable def glyphsOf (e : Enc) (esc : UChar → List UChar) (cs : List UChar) : List Glyph := cs.map (glyphOf e esc)

theorem glyphsOf_meant (esc : UChar → List UChar) (cs : List UChar) : meant (glyphsOf e esc cs) = cs := by
  unfold meant glyphsOf
  rw [List.map_map]
  conv => rhs; rw [← List.map_id cs]
  exact List.map_congr_left fun c _ => glyphOf_char esc c

/-- A character can be written, by the function `esc`, in a token. -/
def CharOk (e : Enc) (esc : UChar → List UChar) (kind : Kind) (c : UChar) : Prop :=
  c ≠ 0 ∧ c < 2 ^ 32 ∧ Printable e c ∧
    (Reference (esc c) c ∨ esc c = [c] ∧ c ≠ 38 ∧ c ≠ 13 ∧ (c < 128 → kind.ends c = false))

theorem glyphsOf_ok (he : PageOk e) {esc : UChar → List UChar} {kind : Kind} {cs : List UChar} (h : ∀ c ∈ cs, CharOk e esc kind c) :
    TokenText e kind (glyphsOf e esc cs) ∧ (spell (glyphsOf e esc cs)).flatMap e.print = (cs.flatMap esc).flatMap e.print := by
  induction cs with
  | nil => exact ⟨fun g hg => (nomatch hg), rfl⟩
  | cons c cs ih =>
    obtain ⟨i1, i2⟩ := ih fun c hc => h c (List.mem_cons_of_mem _ hc)
    obtain ⟨h1, h2, h3, h4⟩ := h c (List.mem_cons_self ..)
    obtain ⟨g1, g2⟩ := glyphOf_ok he h1 h2 h3 h4
    refine ⟨fun g hg => ?_, ?_⟩
    · rcases List.mem_cons.1 hg with rfl | hg
      · exact g1
      · exact i1 g hg
    · show ((glyphOf e esc c).spelling ++ spell (glyphsOf e esc cs)).flatMap e.print = (esc c ++ cs.flatMap esc).flatMap e.print
      rw [List.flatMap_append, List.flatMap_append, g2, i2]

theorem escContent_ref {c : UChar} (h13 : c ≠ 13) (h0 : c ≠ 0) :
    Reference (escContent c) c ∨ escContent c = [c] ∧ c ≠ 38 ∧ c ≠ 13 ∧ (c < 128 → Kind.content.ends c = false) := by
  unfold escContent
  split
  · next h => subst h; exact .inl (.named "lt" 60 (by decide))
  split
  · next h => subst h; exact .inl (.named "gt" 62 (by decide))
  split
  · next h => subst h; exact .inl (.named "amp" 38 (by decide))
  split
  · next h => subst h; exact .inl (.dec (codes "8") 8 (by decide) (by decide) (by decide) (by decide))
  next h1 h2 h3 h4 =>
    refine .inr ⟨rfl, h3, h13, fun _ => ?_⟩
    simp [Kind.ends, h1, h0]

theorem escAttr_ref {c : UChar} (h0 : c ≠ 0) :
    Reference (escAttr c) c ∨ escAttr c = [c] ∧ c ≠ 38 ∧ c ≠ 13 ∧ (c < 128 → Kind.dq.ends c = false) := by
  unfold escAttr
  split
  · next h => subst h; exact .inl (.named "apos" 39 (by decide))
  split
  · next h => subst h; exact .inl (.named "quot" 34 (by decide))
  split
  · next h => subst h; exact .inl (.dec (codes "9") 9 (by decide) (by decide) (by decide) (by decide))
  split
  · next h => subst h; exact .inl (.dec (codes "10") 10 (by decide) (by decide) (by decide) (by decide))
  split
  · next h => subst h; exact .inl (.dec (codes "13") 13 (by decide) (by decide) (by decide) (by decide))
  next h1 h2 h3 h4 h5 =>
    rcases escContent_ref h5 h0 with h | ⟨g1, g2, g3, g4⟩
    · exact .inl h
    · refine .inr ⟨g1, g2, g3, fun hl => ?_⟩
      have := g4 hl
      simp [Kind.ends] at this ⊢
      exact ⟨this, h2⟩

theorem decode_ne {bs : List Byte} : ∀ c ∈ decode app bs, c ≠ 0 := by
  intro c hc
  have := List.all_eq_true.1 (List.all_takeWhile (p := fun c : UChar => decide (c ≠ 0))) c hc
  simpa using this

theorem decode_nil : decode app [] = [] := by
  cases app <;> first | rfl | (rename_i b; cases b <;> rfl)

theorem untilNul_ok {x : List Byte} (h : StringOk x) : ∀ b ∈ untilNul x, b < 256 :=
  fun b hb => h.1 b ((List.takeWhile_sublist _).subset hb)

/-- How names are written. -/
noncomputable def nameGlyphs (app out : Enc) (n : List Byte) : List Glyph := glyphsOf out (fun c => [c]) (decode app n)

theorem flatMap_one (cs : List UChar) : cs.flatMap (fun c => [c]) = cs := by
  induction cs with
  | nil => rfl
  | cons c cs ih => rw [List.flatMap_cons, ih]; rfl

theorem name_ok (he : PageOk out) {n : List Byte} (hs : ∀ b ∈ n, b < 256) (hn : NameOk app out n) :
    TokenText out .word (nameGlyphs app out n) ∧ nameGlyphs app out n ≠ [] ∧
      (spell (nameGlyphs app out n)).flatMap out.print = (decode app n).flatMap out.print := by
  obtain ⟨h1, h2⟩ := glyphsOf_ok (kind := .word) he (esc := fun c => [c]) (cs := decode app n) (by
    intro c hc
    obtain ⟨g1, g2, g3⟩ := hn.2 c hc
    refine ⟨decode_ne c hc, decode_lt app hs c hc, g1, .inr ⟨rfl, g2, ?_, g3⟩⟩
    rintro rfl
    exact absurd (g3 (by decide)) (by decide))
  refine ⟨h1, ?_, ?_⟩
  · intro h
    exact hn.1 (List.map_eq_nil_iff.1 h)
  · rw [flatMap_one] at h2
    exact h2

theorem plain_ok (he : PageOk out) {v : List Byte} (h : PlainOk app out v) :
    TokenText out .dq (nameGlyphs app out (untilNul v)) ∧
      (spell (nameGlyphs app out (untilNul v))).flatMap out.print = (decode app (untilNul v)).flatMap out.print := by
  obtain ⟨h1, h2⟩ := glyphsOf_ok (kind := .dq) he (esc := fun c => [c]) (cs := decode app (untilNul v)) (by
    intro c hc
    obtain ⟨g1, g2⟩ := h.2 c hc
    simp only [List.mem_cons, List.not_mem_nil, or_false, not_or] at g2
    refine ⟨decode_ne c hc, decode_lt app (untilNul_ok h.1) c hc, g1, .inr ⟨rfl, g2.2.2.1, g2.1, fun _ => ?_⟩⟩
    simp [Kind.ends, decode_ne c hc, g2])
  rw [flatMap_one] at h2
  exact ⟨h1, h2⟩

/-! ## Pieces -/

/-- The calls are accepted, print the pieces `ps` and lead to the document `d'`. -/
def Does (d : Doc) (cs : List PCall) (ps : List Piece) (d' : Doc) : Prop :=
  docRun cs d = (List.replicate cs.length true, ps, d')

theorem Does.nil {d : Doc} : Does d [] [] d := rfl

theorem Does.cons {d d1 d2 : Doc} {c : PCall} {cs : List PCall} {ps ps' : List Piece} (h : docStep d c = some (ps, d1))
    (h' : Does d1 cs ps' d2) : Does d (c :: cs) (ps ++ ps') d2 := by
  unfold Does at h' ⊢
  rw [docRun, h]
  simp only [h', List.length_cons, List.replicate_succ]

theorem Does.append {d d1 d2 : Doc} {cs cs' : List PCall} {ps ps' : List Piece} (h : Does d cs ps d1) (h' : Does d1 cs' ps' d2) :
    Does d (cs ++ cs') (ps ++ ps') d2 := by
  induction cs generalizing d ps with
  | nil =>
    unfold Does at h
    simp only [docRun, List.length_nil, List.replicate_zero, Prod.mk.injEq, true_and] at h
    obtain ⟨rfl, rfl⟩ := h
    exact h'
  | cons c cs ih =>
    unfold Does at h
    rw [docRun] at h
    cases hs : docStep d c with
    | none =>
      rw [hs] at h
      simp [List.replicate_succ] at h
    | some x =>
      obtain ⟨qs, d3⟩ := x
      rw [hs] at h
      simp only [List.length_cons, List.replicate_succ, Prod.mk.injEq, List.cons.injEq, true_and] at h
      obtain ⟨h1, h2, h3⟩ := h
      rw [List.cons_append, ← h2, List.append_assoc]
      refine .cons hs (ih ?_)
      unfold Does
      rw [← h1, ← h3]

/-- The pieces of attributes. -/
def attrPieces (as : List (List Byte × List Byte)) : List Piece := as.flatMap fun a => [.attr a.1, .quoted a.2]

/-- The pieces of nodes in an element. -/
def Spec.Nodes.pieces : Nodes → List Piece
  | .nil => []
  | .text v ns => .text v :: ns.pieces
  | .elem n as ks ns => .tag n :: attrPieces as ++
      (if ks.isNil then [.slashGt] else .gt :: ks.pieces ++ [.endTag n]) ++ ns.pieces

theorem attrs_does (ts : List (List Byte)) (as : List (List Byte × List Byte)) :
    Does ⟨.tag, ts⟩ (attrCalls as) (attrPieces as) ⟨.tag, ts⟩ := by
  induction as with
  | nil => exact .nil
  | cons a as ih => exact .cons (ps := [.attr a.1]) (d1 := ⟨.attr, ts⟩) rfl (.cons (ps := [.quoted a.2]) (d1 := ⟨.tag, ts⟩) rfl ih)

theorem elem_does {p : Place} {q : List Piece} (hq : leave p = some q) {n : List Byte} (hn : n ≠ []) {as : List (List Byte × List Byte)}
    {ks : Nodes} {ts : List (List Byte)}
    (hk : ks.isNil = false → Does ⟨.tag, n :: ts⟩ ks.calls (.gt :: ks.pieces) ⟨.content, n :: ts⟩) :
    Does ⟨p, ts⟩ (.open_ n :: attrCalls as ++ ks.calls ++ [.close])
      (q ++ (.tag n :: attrPieces as ++ (if ks.isNil then [.slashGt] else .gt :: ks.pieces ++ [.endTag n]) ++
        if ts = [] then [.newline] else [])) ⟨.content, ts⟩ := by
  have h1 : docStep ⟨p, ts⟩ (.open_ n) = some (q ++ [.tag n], ⟨.tag, n :: ts⟩) := by simp [docStep, hq]
  have h2 : Does ⟨.tag, n :: ts⟩ (ks.calls ++ [.close])
      ((if ks.isNil then [.slashGt] else .gt :: ks.pieces ++ [.endTag n]) ++ if ts = [] then [.newline] else []) ⟨.content, ts⟩ := by
    cases hi : ks.isNil with
    | true =>
      have : ks = .nil := by cases ks <;> first | rfl | cases hi
      subst this
      have hs : docStep ⟨.tag, n :: ts⟩ .close = some (.slashGt :: (if ts = [] then [Piece.newline] else []), ⟨.content, ts⟩) := by
        simp [docStep, hn]
      have := Does.cons hs .nil
      simpa [Nodes.calls] using this
    | false =>
      have hs : docStep ⟨.content, n :: ts⟩ .close = some (.endTag n :: (if ts = [] then [Piece.newline] else []), ⟨.content, ts⟩) := by
        simp [docStep, hn]
      have := (hk hi).append (Does.cons hs .nil)
      simpa using this
  have := Does.cons h1 ((attrs_does (n :: ts) as).append h2)
  simpa using this

theorem nodes_does {ns : Nodes} : ∀ {ts : List (List Byte)}, ns.Ok app out → ts ≠ [] →
    Does ⟨.content, ts⟩ ns.calls ns.pieces ⟨.content, ts⟩ ∧
    (ns.isNil = false → Does ⟨.tag, ts⟩ ns.calls (.gt :: ns.pieces) ⟨.content, ts⟩) := by
  induction ns with
  | nil => exact fun _ _ => ⟨.nil, fun h => nomatch h⟩
  | text v ns ih =>
    intro ts hok ht
    have := (ih hok.2 ht).1
    exact ⟨.cons (ps := [.text v]) (d1 := ⟨.content, ts⟩) rfl this, fun _ => .cons (ps := [.gt, .text v]) (d1 := ⟨.content, ts⟩) rfl this⟩
  | elem n as ks ns ih1 ih2 =>
    intro ts hok ht
    obtain ⟨h1, h2, h3, h4, h5⟩ := hok
    have hn : n ≠ [] := by
      rintro rfl
      exact h2.1 decode_nil
    have key : ∀ p q, leave p = some q → Does ⟨p, ts⟩ (Nodes.elem n as ks ns).calls (q ++ (Nodes.elem n as ks ns).pieces) ⟨.content, ts⟩ := by
      intro p q hq
      have := (elem_does (as := as) hq hn fun hi => (ih1 (ts := n :: ts) h4 (by simp)).2 hi).append (ih2 h5 ht).1
      simpa [Nodes.calls, Nodes.pieces, ht] using this
    exact ⟨key .content [] rfl, fun _ => key .tag [.gt] rfl⟩

/-! ## Marks -/

/-- An attribute as it is printed. -/
noncomputable def attrMark (app out : Enc) (a : List Byte × List Byte) : Attr :=
  ⟨[32], nameGlyphs app out a.1, [], [], ⟨.dq, glyphsOf out escAttr (decode app a.2)⟩⟩

/-- Nodes as they are printed. -/
noncomputable def Spec.Nodes.marks (app out : Enc) : Nodes → List Mark
  | .nil => []
  | .text v ns => .text (glyphsOf out escContent (decode app v)) :: ns.marks app out
  | .elem n as ks ns => .open_ [] (nameGlyphs app out n) (as.map (attrMark app out)) [] ks.isNil ::
      ((if ks.isNil then [] else ks.marks app out ++ [.close [] (nameGlyphs app out n) []]) ++ ns.marks app out)

theorem value_ok (he : PageOk out) {v : List Byte} (h : ValueOk app out v) :
    TokenText out .dq (glyphsOf out escAttr (decode app v)) ∧
      (spell (glyphsOf out escAttr (decode app v))).flatMap out.print = ((decode app v).flatMap escAttr).flatMap out.print :=
  glyphsOf_ok he fun c hc => ⟨decode_ne c hc, decode_lt app h.1.1 c hc, h.2 c hc, escAttr_ref (decode_ne c hc)⟩

theorem data_ok (he : PageOk out) {v : List Byte} (h : DataOk app out v) :
    TokenText out .content (glyphsOf out escContent (decode app v)) ∧
      (spell (glyphsOf out escContent (decode app v))).flatMap out.print = ((decode app v).flatMap escContent).flatMap out.print :=
  glyphsOf_ok he fun c hc =>
    ⟨decode_ne c hc, decode_lt app h.1.1 c hc, (h.2 c hc).1, escContent_ref (h.2 c hc).2 (decode_ne c hc)⟩

theorem gaps_nil : Gaps [] := fun _ h => nomatch h

theorem gaps_blank : Gaps [32] := by
  intro c hc
  rw [List.mem_singleton.1 hc]
  decide

theorem attrMark_ok (he : PageOk out) {a : List Byte × List Byte} (h : StringOk a.1 ∧ NameOk app out a.1 ∧ ValueOk app out a.2) :
    (attrMark app out a).Ok out ∧
      (attrMark app out a).spell.flatMap out.print = ([Piece.attr a.1, .quoted a.2].flatMap (Piece.chars app)).flatMap out.print := by
  obtain ⟨h1, h2, h3⟩ := h
  obtain ⟨n1, n2, n3⟩ := name_ok he h1.1 h2
  obtain ⟨v1, v2⟩ := value_ok he h3
  refine ⟨⟨gaps_blank, by simp [attrMark], n1, n2, gaps_nil, gaps_nil, v1, fun h => nomatch h⟩, ?_⟩
  simp only [attrMark, Attr.spell, Val.spell, Quote.mark, Piece.chars, List.flatMap_cons, List.flatMap_nil, List.flatMap_append,
    List.append_nil, List.append_assoc, n3, v2]
  simp [Spec.ascii]

theorem attrMarks_ok (he : PageOk out) {as : List (List Byte × List Byte)} (h : AttrsOk app out as) :
    (∀ x ∈ as.map (attrMark app out), x.Ok out) ∧
      ((as.map (attrMark app out)).flatMap Attr.spell).flatMap out.print = ((attrPieces as).flatMap (Piece.chars app)).flatMap out.print := by
  induction as with
  | nil => exact ⟨fun x hx => (nomatch hx), rfl⟩
  | cons a as ih =>
    obtain ⟨i1, i2⟩ := ih fun x hx => h x (List.mem_cons_of_mem _ hx)
    obtain ⟨g1, g2⟩ := attrMark_ok he (h a (List.mem_cons_self ..))
    refine ⟨fun x hx => ?_, ?_⟩
    · rcases List.mem_cons.1 hx with rfl | hx
      · exact g1
      · exact i1 x hx
    · have e1 : attrPieces (a :: as) = [.attr a.1, .quoted a.2] ++ attrPieces as := rfl
      rw [e1, List.map_cons, List.flatMap_cons, List.flatMap_append, List.flatMap_append, List.flatMap_append, g2, i2]

theorem nodes_ok (he : PageOk out) {ns : Nodes} : ns.Ok app out → (∀ m ∈ ns.marks app out, m.Ok out) ∧
    ((ns.marks app out).flatMap Mark.spell).flatMap out.print = (ns.pieces.flatMap (Piece.chars app)).flatMap out.print := by
  induction ns with
  | nil => exact fun _ => ⟨fun m hm => (nomatch hm), rfl⟩
  | text v ns ih =>
    intro h
    obtain ⟨i1, i2⟩ := ih h.2
    obtain ⟨g1, g2⟩ := data_ok he h.1
    refine ⟨fun m hm => ?_, ?_⟩
    · rcases List.mem_cons.1 hm with rfl | hm
      · exact g1
      · exact i1 m hm
    · simp only [Nodes.marks, Nodes.pieces, List.flatMap_cons, List.flatMap_append, Mark.spell, Piece.chars, g2, i2]
  | elem n as ks ns ih1 ih2 =>
    intro h
    obtain ⟨h1, h2, h3, h4, h5⟩ := h
    obtain ⟨n1, n2, n3⟩ := name_ok he h1.1 h2
    obtain ⟨a1, a2⟩ := attrMarks_ok he h3
    obtain ⟨k1, k2⟩ := ih1 h4
    obtain ⟨i1, i2⟩ := ih2 h5
    refine ⟨fun m hm => ?_, ?_⟩
    · rcases List.mem_cons.1 hm with rfl | hm
      · exact ⟨gaps_nil, n1, n2, a1, gaps_nil⟩
      rcases List.mem_append.1 hm with hm | hm
      · split at hm
        · cases hm
        · rcases List.mem_append.1 hm with hm | hm
          · exact k1 m hm
          · rw [List.mem_singleton.1 hm]
            exact ⟨gaps_nil, n1, gaps_nil⟩
      · exact i1 m hm
    · cases hi : ks.isNil with
      | true =>
        simp only [Nodes.marks, Nodes.pieces, hi, if_true, List.flatMap_cons, List.flatMap_append, List.flatMap_nil, Mark.spell,
          Piece.chars, n3, a2, i2, List.append_assoc, List.nil_append, List.append_nil]
        simp [Spec.ascii]
      | false =>
        simp only [Nodes.marks, Nodes.pieces, hi, if_false, List.flatMap_cons, List.flatMap_append, List.flatMap_nil, Mark.spell,
          Piece.chars, n3, a2, i2, k2, List.append_assoc, List.append_nil, Bool.false_eq_true]
        simp [Spec.ascii]

/-! ## Items -/

/-- The items of the marks are those of the events. -/
def SameItems (ms : List Mark) (es : List Event) : Prop :=
  ∀ gs, Spec.items false gs ms = joined (meant gs) es ++ [(.Exit, [])]

theorem textItem_false (gs : List Glyph) : textItem false gs = if meant gs = [] then [] else [(.Content, meant gs)] := by
  cases gs <;> simp [textItem, meant]

theorem SameItems.nil : SameItems [] [] := by
  intro gs
  rw [Spec.items, textItem_false]
  rfl

theorem SameItems.text {ms : List Mark} {es : List Event} (h : SameItems ms es) {gs : List Glyph} {cs : List UChar} (hg : meant gs = cs) :
    SameItems (.text gs :: ms) (.text cs :: es) := by
  intro gs'
  rw [Spec.items, joined, h, ← hg]
  simp [meant]

/-- An item as event. -/
def toEvent (i : TItem) : Event := .item i.1 i.2

theorem joined_items (es : List Event) : ∀ {l : List TItem} {cs : List UChar}, l ≠ [] →
    joined cs (l.map toEvent ++ es) = (if cs = [] then [] else [(.Content, cs)]) ++ l ++ joined [] es := by
  intro l
  induction l with
  | nil => intro cs h; exact absurd rfl h
  | cons i l ih =>
    intro cs _
    cases l with
    | nil => simp [toEvent, joined]
    | cons j l =>
      have := ih (cs := []) (by simp)
      simp only [List.map_cons, List.cons_append] at this ⊢
      rw [toEvent, joined, this]
      simp

theorem SameItems.mark {ms : List Mark} {es : List Event} {m : Mark} (h : SameItems ms es) (ht : ∀ gs, m ≠ .text gs)
    (hs : m.seeks = false) (hi : m.items ≠ []) : SameItems (m :: ms) (m.items.map toEvent ++ es) := by
  intro gs
  have e1 : Spec.items false gs (m :: ms) = textItem false gs ++ m.items ++ Spec.items m.seeks [] ms := by
    cases m with
    | text gs => exact absurd rfl (ht gs)
    | _ => rfl
  rw [e1, hs, h, joined_items es hi, textItem_false]
  simp [meant]

theorem attr_items (as : List (List Byte × List Byte)) :
    ((as.map (attrMark app out)).flatMap (Attr.items false)).map toEvent = attrEvents app as := by
  induction as with
  | nil => rfl
  | cons a as ih =>
    have e1 : attrEvents app (a :: as) = [.item .TagAttribName (decode app a.1), .item .TagAttribValue (decode app a.2)] ++
      attrEvents app as := rfl
    rw [e1, List.map_cons, List.flatMap_cons, List.map_append, ih]
    simp [Attr.items, attrMark, nameGlyphs, glyphsOf_meant, toEvent]

theorem SameItems.nodes {ns : Nodes} : ∀ {ms : List Mark} {es : List Event}, SameItems ms es →
    SameItems (ns.marks app out ++ ms) (ns.events app ++ es) := by
  induction ns with
  | nil => exact fun h => h
  | text v ns ih => exact fun h => (ih h).text (glyphsOf_meant ..)
  | elem n as ks ns ih1 ih2 =>
    intro ms es h
    have h2 := ih2 h
    cases hi : ks.isNil with
    | true =>
      have := h2.mark (m := .open_ [] (nameGlyphs app out n) (as.map (attrMark app out)) [] true) (fun gs => nofun) rfl (by simp [Mark.items])
      have e1 : ((Mark.open_ [] (nameGlyphs app out n) (as.map (attrMark app out)) [] true).items).map toEvent =
          .item .OpenTag (decode app n) :: attrEvents app as ++ [.item .CloseTagIm []] := by
        simp only [Mark.items, List.map_append, List.map_cons, attr_items, if_true, List.map_nil]
        simp [toEvent, nameGlyphs, glyphsOf_meant]
      rw [e1] at this
      simpa [Nodes.marks, Nodes.events, hi] using this
    | false =>
      have h3 := h2.mark (m := .close [] (nameGlyphs app out n) []) (fun gs => nofun) rfl (by simp [Mark.items])
      have h4 := (ih1 h3).mark (m := .open_ [] (nameGlyphs app out n) (as.map (attrMark app out)) [] false) (fun gs => nofun) rfl
        (by simp [Mark.items])
      have e1 : ((Mark.open_ [] (nameGlyphs app out n) (as.map (attrMark app out)) [] false).items).map toEvent =
          .item .OpenTag (decode app n) :: attrEvents app as := by
        simp only [Mark.items, List.map_cons, attr_items, Bool.false_eq_true, if_false, List.append_nil]
        simp [toEvent, nameGlyphs, glyphsOf_meant]
      have e2 : (Mark.close [] (nameGlyphs app out n) []).items.map toEvent = [.item .CloseTag (decode app n)] := by
        simp [Mark.items, toEvent, nameGlyphs, glyphsOf_meant]
      rw [e1, e2] at h4
      simpa [Nodes.marks, Nodes.events, hi] using h4

/-! ## Documents -/

/-- Text written as it is. -/
def litText (s : String) : List Glyph := (codes s).map Glyph.lit

theorem litText_meant (s : String) : meant (litText s) = codes s := by
  unfold meant litText
  rw [List.map_map]
  conv => rhs; rw [← List.map_id (codes s)]
  exact List.map_congr_left fun c _ => rfl

theorem litText_spell (s : String) : spell (litText s) = codes s := by
  unfold spell litText
  rw [List.flatMap_map]
  exact flatMap_one (codes s)

theorem litText_ok (he : PageOk e) {s : String} {kind : Kind}
    (h : ∀ c ∈ codes s, 1 ≤ c ∧ c < 128 ∧ c ≠ 38 ∧ c ≠ 13 ∧ kind.ends c = false) : TokenText e kind (litText s) := by
  intro g hg
  obtain ⟨c, hc, rfl⟩ := List.mem_map.1 hg
  have := h c hc
  exact .inl ⟨rfl, ascii_plain he this.1 this.2.1, this.2.2.1, this.2.2.2.1, fun _ => this.2.2.2.2⟩

/-- A value in header or document type. -/
noncomputable def plainVal (app out : Enc) (v : List Byte) : Val := ⟨.dq, nameGlyphs app out (untilNul v)⟩

/-- The value of the encoding. -/
noncomputable def encodingVal (app out : Enc) : Option (List Byte) → Val
  | some e => plainVal app out e
  | none => ⟨.dq, litText "UTF-8"⟩

theorem litVal_spell (s : String) : (⟨.dq, litText s⟩ : Val).spell = [34] ++ codes s ++ [34] := by
  rw [Val.spell, litText_spell]
  rfl

/-- The attributes of the header. -/
noncomputable def headerAttrs (app out : Enc) (e s : Option (List Byte)) : List Attr :=
  [⟨[32], litText "version", [], [], ⟨.dq, litText "1.0"⟩⟩,
    ⟨[32], litText "encoding", [], [], encodingVal app out e⟩] ++
  match s with
  | some s => [⟨[32], litText "standalone", [], [], plainVal app out s⟩]
  | none => []

/-- The parts of the document type. -/
noncomputable def doctypeParts (app out : Enc) (r : List Byte) (i : Option (Option (List Byte) × List Byte)) : List (List UChar × DocPart) :=
  ([32], .val ⟨.bare, nameGlyphs app out (untilNul r)⟩) ::
  match i with
  | some (some p, s) => [([32], .val ⟨.bare, litText "PUBLIC"⟩), ([32], .val (plainVal app out p)), ([32], .val (plainVal app out s))]
  | some (none, s) => [([32], .val ⟨.bare, litText "SYSTEM"⟩), ([32], .val (plainVal app out s))]
  | none => []

/-- The line break behind the header. -/
def headerMarks : Option (Option (List Byte) × Option (List Byte)) → List Mark
  | some _ => [.text [.lit 10]]
  | none => []

/-- The document type. -/
noncomputable def doctypeMarks (app out : Enc) : Option (List Byte × Option (Option (List Byte) × List Byte)) → List Mark
  | some (r, i) => [.doctype [] (litText "DOCTYPE") (doctypeParts app out r i) []]
  | none => []

/-- The piece for a header. -/
def headerPieces : Option (Option (List Byte) × Option (List Byte)) → List Piece
  | some (e, s) => [.header e s]
  | none => []

/-- The piece for a document type. -/
def doctypePieces : Option (List Byte × Option (Option (List Byte) × List Byte)) → List Piece
  | some (r, some (p, s)) => [.doctype r p (some s)]
  | some (r, none) => [.doctype r none none]
  | none => []

/-- The document as it is printed. -/
noncomputable def Spec.Tree.document (app out : Enc) (t : Tree) : Document where
  lead := []
  header := t.header.map fun x => ([], headerAttrs app out x.1 x.2, [])
  body := headerMarks t.header ++ doctypeMarks app out t.doctype ++
    ((Nodes.elem t.name t.attrs t.kids .nil).marks app out ++ [.text [.lit 10]])

/-- The pieces of the document. -/
def Spec.Tree.pieces (t : Tree) : List Piece :=
  headerPieces t.header ++ doctypePieces t.doctype ++ ((Nodes.elem t.name t.attrs t.kids .nil).pieces ++ [.newline])

theorem tree_does {t : Tree} (h : t.Ok app out) : Does (Doc.init t.header.isNone) t.calls t.pieces ⟨.content, []⟩ := by
  obtain ⟨h1, h2, h3⟩ := h
  obtain ⟨hd, dt, n, as, ks⟩ := t
  obtain ⟨g1, g2, g3, g4, g5⟩ := h3
  have hn : n ≠ [] := by
    rintro rfl
    exact g2.1 decode_nil
  have hr : Does ⟨.content, []⟩ (Nodes.elem n as ks .nil).calls ((Nodes.elem n as ks .nil).pieces ++ [.newline]) ⟨.content, []⟩ := by
    have := elem_does (as := as) (p := .content) (q := []) (ts := []) rfl hn fun hi => (nodes_does (ts := [n]) g4 (by simp)).2 hi
    simpa [Nodes.calls, Nodes.pieces] using this
  have hdt : Does ⟨.content, []⟩ (doctypeCalls dt) (doctypePieces dt) ⟨.content, []⟩ := by
    rcases dt with _ | ⟨r, _ | ⟨_ | p, s⟩⟩
    · exact .nil
    · exact .cons (ps := [.doctype r none none]) rfl .nil
    · exact .cons (ps := [.doctype r none (some s)]) rfl .nil
    · exact .cons (ps := [.doctype r (some p) (some s)]) rfl .nil
  have hh : Does (Doc.init hd.isNone) (headerCalls hd) (headerPieces hd) ⟨.content, []⟩ := by
    rcases hd with _ | ⟨e, s⟩
    · exact .nil
    · exact .cons (ps := [.header e s]) (d1 := ⟨.content, []⟩) rfl .nil
  exact (hh.append hdt).append hr

theorem plainVal_ok (he : PageOk out) {v : List Byte} (h : PlainOk app out v) : (plainVal app out v).Ok out ∧
    (plainVal app out v).spell.flatMap out.print = ([34] ++ decode app (untilNul v) ++ [34]).flatMap out.print := by
  obtain ⟨h1, h2⟩ := plain_ok he h
  refine ⟨⟨h1, fun h => nomatch h⟩, ?_⟩
  simp only [plainVal, Val.spell, Quote.mark, List.flatMap_append, h2]

theorem litAttr_ok (he : PageOk out) {s : String} {v : Val} (hs : codes s ≠ [])
    (h : ∀ c ∈ codes s, 1 ≤ c ∧ c < 128 ∧ c ≠ 38 ∧ c ≠ 13 ∧ Kind.word.ends c = false) (hv : v.Ok out) :
    (⟨[32], litText s, [], [], v⟩ : Attr).Ok out :=
  ⟨gaps_blank, by simp, litText_ok he h, fun h => hs (List.map_eq_nil_iff.1 h), gaps_nil, gaps_nil, hv⟩

theorem litVal_ok (he : PageOk out) {s : String}
    (h : ∀ c ∈ codes s, 1 ≤ c ∧ c < 128 ∧ c ≠ 38 ∧ c ≠ 13 ∧ Kind.dq.ends c = false) : (⟨.dq, litText s⟩ : Val).Ok out :=
  ⟨litText_ok he h, fun h => nomatch h⟩

theorem headerAttrs_ok (he : PageOk out) {e s : Option (List Byte)} (h1 : ∀ x ∈ e, PlainOk app out x) (h2 : ∀ x ∈ s, PlainOk app out x) :
    ∀ a ∈ headerAttrs app out e s, a.Ok out := by
  intro a ha
  simp only [headerAttrs, List.cons_append, List.nil_append, List.mem_cons] at ha
  rcases ha with rfl | rfl | ha
  · exact litAttr_ok he (by decide) (by decide) (litVal_ok he (by decide))
  · refine litAttr_ok he (by decide) (by decide) ?_
    cases e with
    | none => exact litVal_ok he (by decide)
    | some x => exact (plainVal_ok he (h1 x rfl)).1
  · cases s with
    | none => cases ha
    | some x =>
      rw [List.mem_singleton.1 ha]
      exact litAttr_ok he (by decide) (by decide) (plainVal_ok he (h2 x rfl)).1

theorem header_spell (he : PageOk out) (ha : AsciiBased app) {e s : Option (List Byte)} (h1 : ∀ x ∈ e, PlainOk app out x)
    (h2 : ∀ x ∈ s, PlainOk app out x) :
    ([60] ++ [] ++ codes "?xml" ++ (headerAttrs app out e s).flatMap Attr.spell ++ [] ++ codes "?>" ++ [10]).flatMap out.print =
      (Piece.chars app (.header e s)).flatMap out.print := by
  have hA : ∀ x : String, (∀ b ∈ Spec.ascii x, 1 ≤ b ∧ b < 128) → fixed app x = codes x := fun x h => Printer.fixed_ascii ha h
  have hE : (encodingVal app out e).spell.flatMap out.print =
      ([34] ++ encodingText app e ++ [34]).flatMap out.print := by
    cases e with
    | none =>
      simp only [encodingText, encodingVal, hA "UTF-8" (by decide +kernel), litVal_spell]
    | some x => exact (plainVal_ok he (h1 x rfl)).2
  have k1 : codes "<?xml version=\"1.0\" encoding=\"" = [60] ++ codes "?xml" ++ [32] ++ codes "version" ++ [61, 34] ++ codes "1.0" ++
    [34, 32] ++ codes "encoding" ++ [61, 34] := by decide +kernel
  have k2 : codes "\"?>\n" = [34] ++ codes "?>" ++ [10] := by decide +kernel
  have k3 : codes "\" standalone=\"" = [34, 32] ++ codes "standalone" ++ [61, 34] := by decide +kernel
  have e1 := hA "<?xml version=\"1.0\" encoding=\"" (by decide +kernel)
  have e2 := hA "\"?>\n" (by decide +kernel)
  have e3 := hA "\" standalone=\"" (by decide +kernel)
  cases s with
  | none =>
    simp only [Piece.chars, e1, e2, k1, k2, headerAttrs, List.flatMap_append, List.flatMap_cons, List.flatMap_nil, Attr.spell,
      litText_spell, litVal_spell, hE, List.append_assoc, List.append_nil]
  | some x =>
    simp only [Piece.chars, e1, e2, e3, k1, k2, k3, headerAttrs, List.flatMap_append, List.flatMap_cons, List.flatMap_nil, Attr.spell,
      litText_spell, litVal_spell, hE, List.append_assoc, List.append_nil, (plainVal_ok he (h2 x rfl)).2]

theorem doctype_ok (he : PageOk out) (ha : AsciiBased app) {r : List Byte} {i : Option (Option (List Byte) × List Byte)}
    (h1 : StringOk r) (h2 : NameOk app out (untilNul r)) (h3 : ∀ x ∈ i, (∀ y ∈ x.1, PlainOk app out y) ∧ PlainOk app out x.2) :
    (Mark.doctype [] (litText "DOCTYPE") (doctypeParts app out r i) []).Ok out ∧
    (Mark.doctype [] (litText "DOCTYPE") (doctypeParts app out r i) []).spell.flatMap out.print =
      (Piece.chars app (.doctype r (i.bind Prod.fst) (i.map Prod.snd))).flatMap out.print := by
  have hA : ∀ x : String, (∀ b ∈ Spec.ascii x, 1 ≤ b ∧ b < 128) → fixed app x = codes x := fun x h => Printer.fixed_ascii ha h
  obtain ⟨n1, n2, n3⟩ := name_ok he (untilNul_ok h1) h2
  have hbare : ∀ {s : String}, codes s ≠ [] → (∀ c ∈ codes s, 1 ≤ c ∧ c < 128 ∧ c ≠ 38 ∧ c ≠ 13 ∧ Kind.word.ends c = false) →
      Gaps [32] ∧ [32] ≠ ([] : List UChar) ∧ DocPart.Ok out (.val ⟨.bare, litText s⟩) := fun hs h =>
    ⟨gaps_blank, by simp, litText_ok he h, fun _ h => hs (List.map_eq_nil_iff.1 h)⟩
  have hplain : ∀ {v : List Byte}, PlainOk app out v → Gaps [32] ∧ [32] ≠ ([] : List UChar) ∧ DocPart.Ok out (.val (plainVal app out v)) :=
    fun h => ⟨gaps_blank, by simp, (plainVal_ok he h).1⟩
  have k1 : codes "<!DOCTYPE " = [60, 33] ++ codes "DOCTYPE" ++ [32] := by decide +kernel
  have k2 : codes " PUBLIC \"" = [32] ++ codes "PUBLIC" ++ [32, 34] := by decide +kernel
  have k3 : codes " SYSTEM \"" = [32] ++ codes "SYSTEM" ++ [32, 34] := by decide +kernel
  have k4 : codes "\" \"" = [34, 32, 34] := by decide +kernel
  have k5 : codes "\">" = [34, 62] := by decide +kernel
  have k6 : codes ">" = [62] := by decide +kernel
  have e1 := hA "<!DOCTYPE " (by decide +kernel)
  have e2 := hA " PUBLIC \"" (by decide +kernel)
  have e3 := hA " SYSTEM \"" (by decide +kernel)
  have e4 := hA "\" \"" (by decide +kernel)
  have e5 := hA "\">" (by decide +kernel)
  have e6 := hA ">" (by decide +kernel)
  refine ⟨⟨gaps_nil, litText_ok he (by decide), by decide, ?_, gaps_nil⟩, ?_⟩
  · intro p hp
    unfold doctypeParts at hp
    rw [List.mem_cons] at hp
    rcases hp with rfl | hp
    · exact ⟨gaps_blank, by simp, n1, fun _ => n2⟩
    rcases i with _ | ⟨_ | p', s⟩
    · cases hp
    · simp only [List.mem_cons, List.not_mem_nil, or_false] at hp
      rcases hp with rfl | rfl
      · exact hbare (by decide) (by decide)
      · exact hplain (h3 _ rfl).2
    · simp only [List.mem_cons, List.not_mem_nil, or_false] at hp
      rcases hp with rfl | rfl | rfl
      · exact hbare (by decide) (by decide)
      · exact hplain ((h3 _ rfl).1 p' rfl)
      · exact hplain (h3 _ rfl).2
  · rcases i with _ | ⟨_ | p', s⟩
    · simp only [Mark.spell, doctypeParts, Piece.chars, Option.bind_none, Option.map_none, e1, e6, k1, k6, List.flatMap_append,
        List.flatMap_cons, List.flatMap_nil, DocPart.spell, Val.spell, Quote.mark, n3, litText_spell, List.append_assoc, List.append_nil,
        List.nil_append]
    · have hs := (plainVal_ok he (h3 _ rfl).2).2
      simp only [Mark.spell, doctypeParts, Piece.chars, Option.bind_some, Option.map_some, e1, e3, e5, k1, k3, k5, List.flatMap_append,
        List.flatMap_cons, List.flatMap_nil, DocPart.spell, hs, List.append_assoc, List.append_nil]
      simp only [Val.spell, Quote.mark, n3, litText_spell, List.append_nil, List.nil_append]
    · have hs := (plainVal_ok he (h3 _ rfl).2).2
      have hp := (plainVal_ok he ((h3 _ rfl).1 p' rfl)).2
      simp only [Mark.spell, doctypeParts, Piece.chars, Option.bind_some, Option.map_some, e1, e2, e4, e5, k1, k2, k4, k5,
        List.flatMap_append, List.flatMap_cons, List.flatMap_nil, DocPart.spell, hs, hp, List.append_assoc, List.append_nil]
      simp only [Val.spell, Quote.mark, n3, litText_spell, List.append_nil, List.nil_append]

theorem newline_ok (he : PageOk out) : (Mark.text [.lit 10]).Ok out := by
  intro g hg
  rw [List.mem_singleton.1 hg]
  exact .inl ⟨rfl, ascii_plain he (by decide) (by decide), by decide, by decide, fun _ => by decide⟩

/-- A printed document is a document of the grammar. -/
theorem tree_document (he : PageOk out) {t : Tree} (h : t.Ok app out) : (t.document app out).Ok out ∧
    (t.document app out).bytes out = (t.pieces.flatMap (Piece.chars app)).flatMap out.print := by
  obtain ⟨h1, h2, h3⟩ := h
  obtain ⟨hd, dt, n, as, ks⟩ := t
  obtain ⟨n1, n2⟩ := nodes_ok he h3
  simp only at h1 h2 n1 n2
  have hdt : (∀ m ∈ doctypeMarks app out dt, m.Ok out) ∧
      ((doctypeMarks app out dt).flatMap Mark.spell).flatMap out.print = ((doctypePieces dt).flatMap (Piece.chars app)).flatMap out.print := by
    rcases dt with _ | ⟨r, i⟩
    · exact ⟨fun m hm => (nomatch hm), rfl⟩
    · obtain ⟨g1, g2, g3, g4⟩ := h2
      obtain ⟨k1, k2⟩ := doctype_ok he g1 g2 g3 g4
      refine ⟨fun m hm => ?_, ?_⟩
      · rw [List.mem_singleton.1 hm]
        exact k1
      · rcases i with _ | ⟨p, s⟩ <;>
        · simp only [doctypeMarks, doctypePieces, List.flatMap_cons, List.flatMap_nil, List.append_nil] at k2 ⊢
          exact k2
  have hroot : (Nodes.elem n as ks .nil).marks app out = .open_ [] (nameGlyphs app out n) (as.map (attrMark app out)) [] ks.isNil ::
      (if ks.isNil then [] else ks.marks app out ++ [.close [] (nameGlyphs app out n) []]) := by simp [Nodes.marks]
  refine ⟨⟨gaps_nil, ?_, ?_⟩, ?_⟩
  · intro m hm
    rcases List.mem_append.1 hm with hm | hm
    · rcases List.mem_append.1 hm with hm | hm
      · cases hd with
        | none => cases hm
        | some x => rw [List.mem_singleton.1 hm]; exact newline_ok he
      · exact hdt.1 m hm
    · rcases List.mem_append.1 hm with hm | hm
      · exact n1 m hm
      · rw [List.mem_singleton.1 hm]; exact newline_ok he
  · cases hd with
    | none =>
      intro m hm
      simp only [Tree.document, hroot] at hm
      rcases dt with _ | ⟨r, i⟩
      · cases hm; rfl
      · cases hm; rfl
    | some x =>
      obtain ⟨e, s⟩ := x
      exact ⟨gaps_nil, headerAttrs_ok he h1.2.1 h1.2.2, gaps_nil⟩
  · have l1 : (Mark.text [.lit 10]).spell = [10] := rfl
    have l2 : Piece.chars app .newline = [10] := by
      show codes "\n" = [10]
      decide
    cases hd with
    | none =>
      simp only [Document.bytes, Document.spell, Tree.document, Tree.pieces, headerMarks, headerPieces, Option.map_none, List.flatMap_append, List.nil_append,
        n2, hdt.2, List.flatMap_cons, List.flatMap_nil, List.append_nil, l1, l2]
    | some x =>
      obtain ⟨e, s⟩ := x
      have hh := header_spell he h1.1 h1.2.1 h1.2.2
      simp only [Document.bytes, Document.spell, Tree.document, Tree.pieces, headerMarks, headerPieces, Option.map_some, List.flatMap_append, List.nil_append,
        n2, hdt.2, List.flatMap_cons, List.flatMap_nil, List.append_nil, ← hh, List.append_assoc, l1, l2]

theorem textItem_skip {gs : List Glyph} (h : gs = [] ∨ gs = [.lit 10]) : textItem true gs = [] := by
  rcases h with rfl | rfl
  · rfl
  · decide

/-- The items of a printed document. -/
theorem tree_items (t : Tree) : (t.document app out).items = t.items app := by
  obtain ⟨hd, dt, n, as, ks⟩ := t
  have hroot : (Nodes.elem n as ks .nil).marks app out = .open_ [] (nameGlyphs app out n) (as.map (attrMark app out)) [] ks.isNil ::
      (if ks.isNil then [] else ks.marks app out ++ [.close [] (nameGlyphs app out n) []]) := by simp [Nodes.marks]
  -- the root element
  have h1 : ∀ gs, gs = [] ∨ gs = [.lit 10] → Spec.items true gs ((Nodes.elem n as ks .nil).marks app out ++ [.text [.lit 10]]) =
      joined [] ((Nodes.elem n as ks .nil).events app ++ [.text [10]]) ++ [(.Exit, [])] := by
    intro gs hg
    have hs := SameItems.nodes (app := app) (out := out) (ns := .elem n as ks .nil) (SameItems.nil.text (gs := [.lit 10]) (cs := [10]) rfl) []
    refine Eq.trans ?_ hs
    rw [hroot]
    simp only [List.cons_append, Spec.items, textItem_skip hg]
    rfl
  -- the document type
  have h2 : ∀ gs, gs = [] ∨ gs = [.lit 10] → Spec.items true gs
      (doctypeMarks app out dt ++
        ((Nodes.elem n as ks .nil).marks app out ++ [.text [.lit 10]])) =
      Tree.doctypeItems app ⟨hd, dt, n, as, ks⟩ ++
        (joined [] ((Nodes.elem n as ks .nil).events app ++ [.text [10]]) ++ [(.Exit, [])]) := by
    intro gs hg
    rcases dt with _ | ⟨r, i⟩
    · exact h1 gs hg
    · simp only [doctypeMarks, List.cons_append, List.nil_append, Spec.items, textItem_skip hg, Mark.seeks, h1 [] (.inl rfl)]
      rcases i with _ | ⟨_ | p, s⟩ <;>
      · simp only [Mark.items, doctypeParts, Tree.doctypeItems, List.flatMap_cons, List.flatMap_nil, DocPart.items, litText_meant,
          nameGlyphs, plainVal, glyphsOf_meant]
        simp
  have h3 : (Tree.document app out ⟨hd, dt, n, as, ks⟩).items = Tree.headerItems app ⟨hd, dt, n, as, ks⟩ ++
      (Tree.doctypeItems app ⟨hd, dt, n, as, ks⟩ ++
        (joined [] ((Nodes.elem n as ks .nil).events app ++ [.text [10]]) ++ [(.Exit, [])])) := by
    cases hd with
    | none =>
      rw [← h2 [] (.inl rfl)]
      rfl
    | some x =>
      obtain ⟨e, s⟩ := x
      rw [← h2 [.lit 10] (.inr rfl)]
      simp only [Document.items, Tree.document, headerMarks, Option.map_some, List.cons_append, List.nil_append, Spec.items, Tree.headerItems]
      rcases e with _ | e <;> rcases s with _ | s <;>
      · simp only [headerAttrs, List.flatMap_cons, List.flatMap_nil, List.flatMap_append, Attr.items, encodingVal, litText_meant, plainVal, nameGlyphs,
          glyphsOf_meant]
        simp
  rw [h3]
  simp [Tree.items]

theorem nodes_strings {ns : Nodes} : ns.Ok app out → ∀ c ∈ ns.calls, ∀ x ∈ c.strings, StringOk x := by
  induction ns with
  | nil => exact fun _ c hc => nomatch hc
  | text v ns ih =>
    intro h c hc x hx
    rcases List.mem_cons.1 hc with rfl | hc
    · rw [List.mem_singleton.1 hx]
      exact h.1.1
    · exact ih h.2 c hc x hx
  | elem n as ks ns ih1 ih2 =>
    intro h c hc x hx
    obtain ⟨h1, h2, h3, h4, h5⟩ := h
    rcases List.mem_append.1 hc with hc | hc
    · rcases List.mem_append.1 hc with hc | hc
      · rcases List.mem_cons.1 hc with rfl | hc
        · rw [List.mem_singleton.1 hx]
          exact h1
        · obtain ⟨a, ha, hc⟩ := List.mem_flatMap.1 hc
          simp only [List.mem_cons, List.not_mem_nil, or_false] at hc
          rcases hc with rfl | rfl
          · rw [List.mem_singleton.1 hx]
            exact (h3 a ha).1
          · rw [List.mem_singleton.1 hx]
            exact (h3 a ha).2.2.1
      · exact ih1 h4 c hc x hx
    · rcases List.mem_cons.1 hc with rfl | hc
      · cases hx
      · exact ih2 h5 c hc x hx

theorem tree_strings {t : Tree} (h : t.Ok app out) : ∀ c ∈ t.calls, ∀ x ∈ c.strings, StringOk x := by
  obtain ⟨h1, h2, h3⟩ := h
  obtain ⟨hd, dt, n, as, ks⟩ := t
  intro c hc x hx
  rcases List.mem_append.1 hc with hc | hc
  · rcases List.mem_append.1 hc with hc | hc
    · rcases hd with _ | ⟨e, s⟩
      · cases hc
      · rw [List.mem_singleton.1 hc] at hx
        rcases List.mem_append.1 hx with hx | hx
        · exact (h1.2.1 x (Option.mem_toList.1 hx)).1
        · exact (h1.2.2 x (Option.mem_toList.1 hx)).1
    · rcases dt with _ | ⟨r, _ | ⟨p, s⟩⟩
      · cases hc
      · rw [List.mem_singleton.1 hc] at hx
        simp only [PCall.strings, Option.toList_some, Option.toList_none, List.append_nil, List.mem_singleton] at hx
        rw [hx]
        exact h2.2.1
      · rw [List.mem_singleton.1 hc] at hx
        rcases List.mem_append.1 hx with hx | hx
        · rcases List.mem_append.1 hx with hx | hx
          · rw [List.mem_singleton.1 hx]
            exact h2.2.1
          · exact ((h2.2.2.2 _ rfl).1 x (Option.mem_toList.1 hx)).1
        · rw [List.mem_singleton.1 hx]
          exact (h2.2.2.2 _ rfl).2.1
  · exact nodes_strings h3 c hc x hx

end TW
