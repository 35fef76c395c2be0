import Verif.Spec.Copy
import Verif.Proofs.RoundTrip
import Verif.Proofs.Printer

/-!
# Copies of documents
-/

namespace TW

open Spec

variable {app out new : Enc}

/-- The text of an item. -/
def told (new : Enc) (i : ElementType × List UChar) : ElementType × List Byte := (i.1, i.2.flatMap new.print)

/-- A string in another encoding. -/
def recode (app new : Enc) (x : List Byte) : List Byte := (decode app x).flatMap new.print

/-- Character data in front of nodes. -/
def withText (new : Enc) (cs : List UChar) (ns : Nodes) : Nodes := if cs = [] then ns else .text (cs.flatMap new.print) ns

/-- Nodes as they are copied. -/
def Spec.Nodes.copied (app new : Enc) : List UChar → Nodes → Nodes
  | cs, .nil => withText new cs (.text [] .nil)
  | cs, .text v ns => ns.copied app new (cs ++ decode app v)
  | cs, .elem n as ks ns => withText new cs (.elem (recode app new n) (as.map fun a => (recode app new a.1, recode app new a.2))
      (if ks.isNil then .nil else ks.copied app new []) (ns.copied app new []))

theorem joined_attrs (as : List (List Byte × List Byte)) (es : List Event) :
    joined [] (attrEvents app as ++ es) =
      (as.flatMap fun a => [(.TagAttribName, decode app a.1), (.TagAttribValue, decode app a.2)]) ++ joined [] es := by
  induction as with
  | nil => rfl
  | cons a as ih =>
    show (ElementType.TagAttribName, decode app a.1) :: (ElementType.TagAttribValue, decode app a.2) :: joined [] (attrEvents app as ++ es) = _
    rw [ih]
    rfl

theorem copy_attrs (d : Nat) (as : List (List Byte × List Byte)) (l : List (ElementType × List Byte)) :
    copyElements d ((as.flatMap fun a => [(.TagAttribName, decode app a.1), (.TagAttribValue, decode app a.2)]).map (told new) ++ l) =
      attrCalls (as.map fun a => (recode app new a.1, recode app new a.2)) ++ copyElements d l := by
  induction as with
  | nil => rfl
  | cons a as ih =>
    rw [List.flatMap_cons, List.map_append, List.append_assoc]
    exact congrArg (fun x => PCall.attr (recode app new a.1) :: PCall.value (recode app new a.2) :: x) ih

theorem copy_text (d : Nat) (cs : List UChar) (l : List (ElementType × List UChar)) (ns : Nodes)
    (h : copyElements (d + 1) (l.map (told new)) = ns.calls ++ es) :
    copyElements (d + 1) (((if cs = [] then [] else [(ElementType.Content, cs)]) ++ l).map (told new)) = (withText new cs ns).calls ++ es := by
  unfold withText
  by_cases hc : cs = []
  · rw [if_pos hc, if_pos hc]
    exact h
  · rw [if_neg hc, if_neg hc]
    show (if d + 1 = 0 then _ else PCall.value (cs.flatMap new.print) :: copyElements (d + 1) (l.map (told new))) = _
    rw [if_neg (by omega), h]
    rfl

theorem copy_nodes {ns : Nodes} : ∀ (cs : List UChar) (d : Nat) (x : List UChar) (es : List Event),
    copyElements (d + 1) ((joined cs (ns.events app ++ .item .CloseTag x :: es)).map (told new)) =
      (ns.copied app new cs).calls ++ .close :: copyElements d ((joined [] es).map (told new)) := by
  induction ns with
  | nil =>
    intro cs d x es
    exact copy_text d cs ((.CloseTag, x) :: joined [] es) (.text [] .nil) rfl
  | text v ns ih =>
    intro cs d x es
    exact ih (cs ++ decode app v) d x es
  | elem n as ks ns ih1 ih2 =>
    intro cs d x es
    rw [Nodes.events, Nodes.copied]
    have h0 : ∀ fs : List Event, joined cs (.item .OpenTag (decode app n) :: attrEvents app as ++ fs) =
        (if cs = [] then [] else [(ElementType.Content, cs)]) ++ ((.OpenTag, decode app n) ::
          ((as.flatMap fun a => [(.TagAttribName, decode app a.1), (.TagAttribValue, decode app a.2)]) ++ joined [] fs)) := by
      intro fs
      rw [← joined_attrs]
      rfl
    rw [List.append_assoc, List.append_assoc, h0]
    refine copy_text d cs _ _ ?_
    show PCall.open_ (recode app new n) :: copyElements (d + 1 + 1) (List.map (told new) _) = _
    rw [List.map_append, copy_attrs]
    rw [Nodes.calls, List.cons_append, List.cons_append, List.cons_append, List.append_assoc, List.append_assoc]
    congr 2
    cases hk : ks.isNil with
    | true =>
      rw [if_pos rfl, if_pos rfl]
      show PCall.close :: copyElements (d + 1) ((joined [] (ns.events app ++ .item .CloseTag x :: es)).map (told new)) = _
      rw [ih2 [] d x es]
      rfl
    | false =>
      rw [if_neg (by decide), if_neg (by decide)]
      have := ih1 [] (d + 1) (decode app n) (ns.events app ++ .item .CloseTag x :: es)
      rw [List.append_assoc]
      refine this.trans ?_
      rw [ih2 [] d x es]
      simp

/-- What has to hold of the texts of items. -/
def Copyable (new : Enc) (l : List (ElementType × List UChar)) : Prop :=
  ∀ i ∈ l, StringOk (i.2.flatMap new.print) ∧ ∀ c ∈ i.2, Direct new c

theorem joined_mem {i : ElementType × List UChar} {es2 : List Event} (h : i ∈ joined [] es2) {t : ElementType} {x : List UChar} :
    ∀ (es1 : List Event) (cs : List UChar), i ∈ joined cs (es1 ++ .item t x :: es2) := by
  intro es1
  induction es1 with
  | nil => intro cs; exact List.mem_append.2 (.inr (List.mem_cons_of_mem _ h))
  | cons e es1 ih =>
    intro cs
    cases e with
    | item t' y => exact List.mem_append.2 (.inr (List.mem_cons_of_mem _ (ih [])))
    | text y => exact ih _

theorem recode_eq (hn : PageOk new) {x : List Byte} (hx : ∀ b ∈ x, b < 256) (h : ∀ c ∈ decode app x, Direct new c) :
    decode new (recode app new x) = decode app x :=
  decode_print hn fun c hc => ⟨decode_ne c hc, decode_lt app hx c hc, h c hc⟩

theorem recode_name (hn : PageOk new) {x : List Byte} (hx : StringOk x) (h : ∀ c ∈ decode app x, Direct new c) (hk : NameOk app out x) :
    NameOk new out (recode app new x) := by
  unfold NameOk
  rw [recode_eq hn hx.1 h]
  exact hk

/-- Character data read so far. -/
def Data (out : Enc) (cs : List UChar) : Prop := ∀ c ∈ cs, c ≠ 0 ∧ c < 2 ^ 32 ∧ Printable out c ∧ c ≠ 13

theorem data_append {cs : List UChar} (h : Data out cs) {v : List Byte} (hv : DataOk app out v) : Data out (cs ++ decode app v) := by
  intro c hc
  rcases List.mem_append.1 hc with hc | hc
  · exact h c hc
  · exact ⟨decode_ne c hc, decode_lt app hv.1.1 c hc, (hv.2 c hc).1, (hv.2 c hc).2⟩

/-- Character data in front of nodes: it is allowed, and printed as it was. -/
theorem text_copied (hn : PageOk new) {cs : List UChar} (hd : Data out cs) {l : List (ElementType × List UChar)}
    (h : Copyable new ((if cs = [] then [] else [(ElementType.Content, cs)]) ++ l)) {ns : Nodes} (hs : ns.Ok new out) :
    (withText new cs ns).Ok new out ∧
      (withText new cs ns).pieces.flatMap (Piece.chars new) = cs.flatMap escContent ++ ns.pieces.flatMap (Piece.chars new) := by
  unfold withText
  by_cases hc : cs = []
  · rw [if_pos hc, hc]
    exact ⟨hs, rfl⟩
  · rw [if_neg hc] at h ⊢
    obtain ⟨h1, h2⟩ := h (.Content, cs) (by simp)
    have hd' : decode new (cs.flatMap new.print) = cs := decode_print hn fun c hc => ⟨(hd c hc).1, (hd c hc).2.1, h2 c hc⟩
    refine ⟨⟨⟨h1, ?_⟩, hs⟩, ?_⟩
    · rw [hd']
      exact fun c hc => ⟨(hd c hc).2.2.1, (hd c hc).2.2.2⟩
    · rw [Nodes.pieces, List.flatMap_cons, Piece.chars, hd']

theorem attrs_copied (hn : PageOk new) {as : List (List Byte × List Byte)} (ha : AttrsOk app out as)
    (h : Copyable new (as.flatMap fun a => [(.TagAttribName, decode app a.1), (.TagAttribValue, decode app a.2)])) :
    AttrsOk new out (as.map fun a => (recode app new a.1, recode app new a.2)) ∧
      (attrPieces (as.map fun a => (recode app new a.1, recode app new a.2))).flatMap (Piece.chars new) =
        (attrPieces as).flatMap (Piece.chars app) := by
  induction as with
  | nil => exact ⟨(fun a ha => nomatch ha), rfl⟩
  | cons a as ih =>
    obtain ⟨i1, i2⟩ := ih (fun x hx => ha x (List.mem_cons_of_mem _ hx)) (fun i hi => h i (by
      rw [List.flatMap_cons]; exact List.mem_append.2 (.inr hi)))
    obtain ⟨a1, a2, a3, a4⟩ := ha a (List.mem_cons_self ..)
    obtain ⟨n1, n2⟩ := h (.TagAttribName, decode app a.1) (by simp)
    obtain ⟨v1, v2⟩ := h (.TagAttribValue, decode app a.2) (by simp)
    have e1 := recode_eq (app := app) hn a1.1 n2
    have e2 := recode_eq (app := app) hn a3.1 v2
    refine ⟨?_, ?_⟩
    · intro x hx
      rcases List.mem_cons.1 hx with rfl | hx
      · refine ⟨n1, recode_name hn a1 n2 a2, v1, ?_⟩
        rw [e2]
        exact a4
      · exact i1 x hx
    · show Piece.chars new (.attr (recode app new a.1)) ++ (Piece.chars new (.quoted (recode app new a.2)) ++ List.flatMap (Piece.chars new) _) = _
      rw [Piece.chars, Piece.chars, e1, e2]
      exact congrArg (fun l => Piece.chars app (.attr a.1) ++ (Piece.chars app (.quoted a.2) ++ l)) i2

/-- An element: it is allowed, and printed as it was. -/
theorem elem_copied (hn : PageOk new) {n : List Byte} {as : List (List Byte × List Byte)} {ks ns : Nodes} {ks' ns' : Nodes}
    (h1 : StringOk n) (h2 : NameOk app out n) (h3 : AttrsOk app out as)
    (hc : Copyable new ((.OpenTag, decode app n) :: (as.flatMap fun a => [(.TagAttribName, decode app a.1), (.TagAttribValue, decode app a.2)])))
    (hk : ks'.isNil = ks.isNil) (hk1 : ks'.Ok new out)
    (hk2 : ks.isNil = false → ks'.pieces.flatMap (Piece.chars new) = ks.pieces.flatMap (Piece.chars app))
    (hs1 : ns'.Ok new out) (hs2 : ns'.pieces.flatMap (Piece.chars new) = ns.pieces.flatMap (Piece.chars app)) :
    (Nodes.elem (recode app new n) (as.map fun a => (recode app new a.1, recode app new a.2)) ks' ns').Ok new out ∧
    (Nodes.elem (recode app new n) (as.map fun a => (recode app new a.1, recode app new a.2)) ks' ns').pieces.flatMap (Piece.chars new) =
      (Nodes.elem n as ks ns).pieces.flatMap (Piece.chars app) := by
  obtain ⟨n1, n2⟩ := hc _ (List.mem_cons_self ..)
  obtain ⟨a1, a2⟩ := attrs_copied hn h3 fun i hi => hc i (List.mem_cons_of_mem _ hi)
  have e1 := recode_eq (app := app) hn h1.1 n2
  refine ⟨⟨n1, recode_name hn h1 n2 h2, a1, hk1, hs1⟩, ?_⟩
  rw [Nodes.pieces, Nodes.pieces, hk]
  simp only [List.flatMap_append, List.flatMap_cons, a2, hs2]
  congr 1
  congr 1
  · rw [Piece.chars, Piece.chars, e1]
  · cases hi : ks.isNil with
    | true => rfl
    | false =>
      simp only [Bool.false_eq_true, if_false, List.flatMap_append, List.flatMap_cons, hk2 hi]
      have : Piece.chars new (.endTag (recode app new n)) = Piece.chars app (.endTag n) := by rw [Piece.chars, Piece.chars, e1]
      rw [this]
      rfl

theorem copied_isNil {ns : Nodes} : ∀ (cs : List UChar), (ns.copied app new cs).isNil = false := by
  have hw : ∀ cs (ns : Nodes), ns.isNil = false → (withText new cs ns).isNil = false := by
    intro cs ns h
    unfold withText
    split
    · exact h
    · rfl
  induction ns with
  | nil => exact fun cs => hw cs _ rfl
  | text v ns ih => exact fun cs => ih _
  | elem n as ks ns _ _ => exact fun cs => hw cs _ rfl

theorem nodes_copied (hn : PageOk new) {ns : Nodes} : ∀ {cs : List UChar} {x : List UChar} {es : List Event}, ns.Ok app out → Data out cs →
    Copyable new (joined cs (ns.events app ++ .item .CloseTag x :: es)) →
    (ns.copied app new cs).Ok new out ∧
      (ns.copied app new cs).pieces.flatMap (Piece.chars new) = cs.flatMap escContent ++ ns.pieces.flatMap (Piece.chars app) := by
  have hnil : StringOk ([] : List Byte) := ⟨(fun b hb => nomatch hb), by decide⟩
  have hempty : (Nodes.text [] .nil).Ok new out := ⟨⟨hnil, by rw [decode_nil]; exact fun c hc => nomatch hc⟩, trivial⟩
  induction ns with
  | nil =>
    intro cs x es _ hd hc
    obtain ⟨g1, g2⟩ := text_copied hn hd hc hempty
    refine ⟨g1, g2.trans ?_⟩
    show _ ++ (Piece.chars new (.text []) ++ []) = _
    rw [Piece.chars, decode_nil]
    rfl
  | text v ns ih =>
    intro cs x es hok hd hc
    obtain ⟨g1, g2⟩ := ih (cs := cs ++ decode app v) (x := x) (es := es) hok.2 (data_append hd hok.1) hc
    refine ⟨g1, g2.trans ?_⟩
    rw [List.flatMap_append, List.append_assoc]
    rfl
  | elem n as ks ns ih1 ih2 =>
    intro cs x es hok hd hc
    obtain ⟨h1, h2, h3, h4, h5⟩ := hok
    rw [Nodes.events] at hc
    rw [Nodes.copied]
    have h0 : ∀ fs : List Event, joined cs (.item .OpenTag (decode app n) :: attrEvents app as ++ fs) =
        (if cs = [] then [] else [(ElementType.Content, cs)]) ++ ((.OpenTag, decode app n) ::
          ((as.flatMap fun a => [(.TagAttribName, decode app a.1), (.TagAttribValue, decode app a.2)]) ++ joined [] fs)) := by
      intro fs
      rw [← joined_attrs]
      rfl
    rw [List.append_assoc, List.append_assoc, h0] at hc
    have c1 : Copyable new ((.OpenTag, decode app n) ::
        (as.flatMap fun a => [(.TagAttribName, decode app a.1), (.TagAttribValue, decode app a.2)])) := by
      intro i hi
      refine hc i (List.mem_append.2 (.inr ?_))
      rw [← List.cons_append]
      exact List.mem_append.2 (.inl hi)
    have c2 : Copyable new (joined [] ((if ks.isNil then [.item .CloseTagIm []] else ks.events app ++ [.item .CloseTag (decode app n)]) ++
        (ns.events app ++ .item .CloseTag x :: es))) := by
      intro i hi
      exact hc i (List.mem_append.2 (.inr (List.mem_cons_of_mem _ (List.mem_append.2 (.inr hi)))))
    have c3 : Copyable new (joined [] (ns.events app ++ .item .CloseTag x :: es)) := by
      intro i hi
      refine c2 i ?_
      cases ks.isNil with
      | true => exact joined_mem hi [] []
      | false =>
        rw [if_neg (by decide), List.append_assoc]
        exact joined_mem hi (ks.events app) []
    obtain ⟨g1, g2⟩ := ih2 (cs := []) (x := x) (es := es) h5 (fun c hc => nomatch hc) c3
    have hk : (if ks.isNil then Nodes.nil else ks.copied app new []).isNil = ks.isNil ∧
        (if ks.isNil then Nodes.nil else ks.copied app new []).Ok new out ∧
        (ks.isNil = false → (if ks.isNil then Nodes.nil else ks.copied app new []).pieces.flatMap (Piece.chars new) =
          ks.pieces.flatMap (Piece.chars app)) := by
      cases hi : ks.isNil with
      | true => exact ⟨rfl, trivial, fun h => nomatch h⟩
      | false =>
        rw [hi, if_neg (by decide), List.append_assoc] at c2
        obtain ⟨k1, k2⟩ := ih1 (cs := []) (x := decode app n) h4 (fun c hc => nomatch hc) c2
        exact ⟨copied_isNil [], k1, fun _ => k2⟩
    obtain ⟨e1, e2⟩ := elem_copied (ks := ks) (ns := ns) hn h1 h2 h3 c1 hk.1 hk.2.1 hk.2.2 g1 g2
    obtain ⟨t1, t2⟩ := text_copied hn hd hc e1
    exact ⟨t1, t2.trans (by rw [e2])⟩

/-! ## Header and document type -/

theorem untilNul_print (ha : AsciiBased new) {cs : List UChar} (h : ∀ c ∈ cs, c ≠ 0 ∧ c < 2 ^ 32 ∧ Direct new c) :
    untilNul (cs.flatMap new.print) = cs.flatMap new.print := by
  have key : ∀ l : List Byte, (∀ b ∈ l, b ≠ 0) → l.takeWhile (· ≠ 0) = l := by
    intro l
    induction l with
    | nil => intro _; rfl
    | cons b l ih =>
      intro h
      rw [List.takeWhile_cons_of_pos (by simpa using h b (by simp)), ih fun b hb => h b (by simp [hb])]
  refine key _ fun b hb => ?_
  obtain ⟨c, hc, hb⟩ := List.mem_flatMap.1 hb
  obtain ⟨h0, h32, hd⟩ := h c hc
  cases new with
  | utf8 =>
    have hb : b ∈ Enc.utf8Print c := hb
    rw [utf8Print_eq c hd] at hb
    unfold rfc2279 at hb
    repeat' split at hb
    all_goals
      simp only [List.mem_cons, List.not_mem_nil, or_false] at hb
      omega
  | isolatin p =>
    have hb : b ∈ Enc.isolatinPrint p c := hb
    have hd : (Enc.isolatinPrint p c).length = 1 := hd
    unfold Enc.isolatinPrint at hb hd
    split at hb
    case isFalse h1 => rw [List.mem_singleton.1 hb]; exact h1
    case isTrue h1 =>
      rw [if_pos h1, encodeStr_eq c h32] at hd
      simp [entityText] at hd
  | utf16 b => exact absurd ha id
  | ucs2 b => exact absurd ha id
  | ucs4 b => exact absurd ha id

/-- A string without length in another encoding. -/
def recodeNul (app new : Enc) (x : List Byte) : List Byte := recode app new (untilNul x)

/-- A document as it is copied. -/
def Spec.Tree.copied (app new : Enc) (t : Tree) : Tree where
  header := t.header.map fun x => (some (match x.1 with | some e => recodeNul app new e | none => (codes "UTF-8").flatMap new.print),
    x.2.map (recodeNul app new))
  doctype := t.doctype.map fun x => (recodeNul app new x.1, x.2.map fun y => (y.1.map (recodeNul app new), recodeNul app new y.2))
  name := recode app new t.name
  attrs := t.attrs.map fun a => (recode app new a.1, recode app new a.2)
  kids := if t.kids.isNil then .nil else t.kids.copied app new []

theorem joined_end (t : ElementType) (x : List UChar) : ∀ (es : List Event) (cs : List UChar),
    joined cs (es ++ [.text [10], .item t x]) = joined cs (es ++ [.text [10]]) ++ [(t, x)] := by
  intro es
  induction es with
  | nil =>
    intro cs
    have h : cs ++ [10] ≠ [] := by simp
    show (if cs ++ [10] = [] then [] else [(ElementType.Content, cs ++ [10])]) ++ [(t, x)] =
      (if cs ++ [10] = [] then [] else [(ElementType.Content, cs ++ [10])]) ++ [(t, x)]
    rfl
  | cons e es ih =>
    intro cs
    cases e with
    | item t' y =>
      show (if cs = [] then [] else [(ElementType.Content, cs)]) ++ (t', y) :: joined [] (es ++ [.text [10], .item t x]) =
        ((if cs = [] then [] else [(ElementType.Content, cs)]) ++ (t', y) :: joined [] (es ++ [.text [10]])) ++ [(t, x)]
      rw [ih]
      simp
    | text y => exact ih _

/-- The items of the root element. -/
def rootItems (app : Enc) (t : Tree) : List (ElementType × List UChar) :=
  joined [] ((Nodes.elem t.name t.attrs t.kids .nil).events app ++ [.text [10]]) ++ [(.Exit, [])]

theorem root_items (t : Tree) : rootItems app t =
    (.OpenTag, decode app t.name) ::
      ((t.attrs.flatMap fun a => [(.TagAttribName, decode app a.1), (.TagAttribValue, decode app a.2)]) ++
        joined [] ((if t.kids.isNil then [.item .CloseTagIm []] else t.kids.events app ++ [.item .CloseTag (decode app t.name)]) ++
          [.text [10], .item .Exit []])) := by
  rw [rootItems, ← joined_end, Nodes.events, ← joined_attrs]
  simp [Nodes.events, joined]

theorem copy_root (t : Tree) : copyElements 0 ((rootItems app t).map (told new)) =
      (Nodes.elem (recode app new t.name) (t.attrs.map fun a => (recode app new a.1, recode app new a.2))
        (if t.kids.isNil then .nil else t.kids.copied app new []) .nil).calls := by
  rw [root_items]
  show PCall.open_ (recode app new t.name) :: copyElements 1 (List.map (told new) _) = _
  rw [List.map_append, copy_attrs, Nodes.calls, List.cons_append, List.cons_append, List.append_assoc]
  congr 2
  cases hk : t.kids.isNil with
  | true => rfl
  | false =>
    rw [if_neg (by decide), if_neg (by decide), List.append_assoc]
    refine (copy_nodes [] 0 (decode app t.name) [.text [10], .item .Exit []]).trans ?_
    rfl

/-- The calls of the copying program are those that print the copied tree. -/
theorem copy_calls (t : Tree) : copyDocument ((t.items app).map (told new)) = (t.copied app new).calls := by
  have hr := copy_root (app := app) (new := new) t
  have hd : copyDoctype ((t.doctypeItems app ++ rootItems app t).map (told new)) = doctypeCalls (t.copied app new).doctype ++
        (Nodes.elem (recode app new t.name) (t.attrs.map fun a => (recode app new a.1, recode app new a.2))
        (if t.kids.isNil then .nil else t.kids.copied app new []) .nil).calls := by
    obtain ⟨hd, dt, n, as, ks⟩ := t
    rw [← hr]
    rcases dt with _ | ⟨r, _ | ⟨_ | p, s⟩⟩
    · rw [root_items]
      rfl
    · rfl
    · rfl
    · rfl
  have hs : t.items app = t.headerItems app ++ (t.doctypeItems app ++
      rootItems app t) := by
    rw [rootItems, Tree.items, List.append_assoc, List.append_assoc]
  rw [hs, Tree.calls, List.append_assoc]
  show _ = headerCalls (t.copied app new).header ++ (doctypeCalls (t.copied app new).doctype ++
    (Nodes.elem (recode app new t.name) (t.attrs.map fun a => (recode app new a.1, recode app new a.2))
        (if t.kids.isNil then .nil else t.kids.copied app new []) .nil).calls)
  rw [← hd]
  clear hd hs hr
  obtain ⟨h, dt, n, as, ks⟩ := t
  rcases h with _ | ⟨e, _ | s⟩
  · rcases dt with _ | ⟨r, _ | ⟨_ | p, s⟩⟩
    · rw [root_items]
      rfl
    · rfl
    · rfl
    · rfl
  · cases e <;> rfl
  · cases e <;> rfl

theorem recodeNul_eq (hn : PageOk new) (ha : AsciiBased new) {x : List Byte} (hx : StringOk x)
    (h : ∀ c ∈ decode app (untilNul x), Direct new c) : decode new (untilNul (recodeNul app new x)) = decode app (untilNul x) := by
  have hc : ∀ c ∈ decode app (untilNul x), c ≠ 0 ∧ c < 2 ^ 32 ∧ Direct new c :=
    fun c hc => ⟨decode_ne c hc, decode_lt app (untilNul_ok hx) c hc, h c hc⟩
  rw [recodeNul, recode, untilNul_print ha hc, decode_print hn hc]

theorem recodeNul_plain (hn : PageOk new) (ha : AsciiBased new) {x : List Byte} (hx : PlainOk app out x)
    (h : StringOk ((decode app (untilNul x)).flatMap new.print) ∧ ∀ c ∈ decode app (untilNul x), Direct new c) :
    PlainOk new out (recodeNul app new x) := by
  refine ⟨h.1, ?_⟩
  rw [recodeNul_eq hn ha hx.1 h.2]
  exact hx.2

theorem utf8_name (hn : PageOk new) (ha : AsciiBased new) : decode new (untilNul ((codes "UTF-8").flatMap new.print)) = codes "UTF-8" := by
  have h : ∀ c ∈ codes "UTF-8", 1 ≤ c ∧ c < 128 := by decide +kernel
  have hr := readable_ascii hn h
  rw [untilNul_print ha hr, decode_print hn hr]

theorem header_copied (hn : PageOk new) (hA : AsciiBased app) (ha : AsciiBased new) {e s : Option (List Byte)} (h1 : ∀ x ∈ e, PlainOk app out x)
    (h2 : ∀ x ∈ s, PlainOk app out x)
    (c1 : StringOk ((match (generalizing := false) e with | some e => decode app (untilNul e) | none => codes "UTF-8").flatMap new.print))
    (c2 : ∀ x ∈ e, ∀ c ∈ decode app (untilNul x), Direct new c)
    (c3 : ∀ x ∈ s, StringOk ((decode app (untilNul x)).flatMap new.print) ∧ ∀ c ∈ decode app (untilNul x), Direct new c) :
    (PlainOk new out (match (generalizing := false) e with | some e => recodeNul app new e | none => (codes "UTF-8").flatMap new.print)) ∧
    (∀ x ∈ s.map (recodeNul app new), PlainOk new out x) ∧
    Piece.chars new (.header (some (match (generalizing := false) e with | some e => recodeNul app new e | none => (codes "UTF-8").flatMap new.print))
      (s.map (recodeNul app new))) = Piece.chars app (.header e s) := by
  have f : ∀ x : String, (∀ b ∈ Spec.ascii x, 1 ≤ b ∧ b < 128) → fixed new x = fixed app x :=
    fun x h => (Printer.fixed_ascii ha h).trans (Printer.fixed_ascii hA h).symm
  have f1 := f "<?xml version=\"1.0\" encoding=\"" (by decide +kernel)
  have f2 := f "\"?>\n" (by decide +kernel)
  have f3 := f "\" standalone=\"" (by decide +kernel)
  have e1 : decode new (untilNul (match (generalizing := false) e with | some e => recodeNul app new e | none => (codes "UTF-8").flatMap new.print)) =
      encodingText app e := by
    cases e with
    | none => exact (utf8_name hn ha).trans (Printer.fixed_ascii (x := "UTF-8") hA (by decide +kernel)).symm
    | some x => exact recodeNul_eq hn ha (h1 x rfl).1 (c2 x rfl)
  have g1 : PlainOk new out (match (generalizing := false) e with | some e => recodeNul app new e | none => (codes "UTF-8").flatMap new.print) := by
    cases e with
    | none =>
      refine ⟨c1, ?_⟩
      rw [utf8_name hn ha]
      intro c hc
      have : ∀ c ∈ codes "UTF-8", c ≤ 0x7FFFFFFF ∧ c ∉ [13, 34, 38, 60] := by decide +kernel
      exact ⟨fun _ => (this c hc).1, (this c hc).2⟩
    | some x => exact recodeNul_plain hn ha (h1 x rfl) ⟨c1, c2 x rfl⟩
  refine ⟨g1, ?_, ?_⟩
  · intro x hx
    obtain ⟨y, hy, rfl⟩ := Option.map_eq_some_iff.1 hx
    exact recodeNul_plain hn ha (h2 y hy) (c3 y hy)
  · cases s with
    | none =>
      simp only [Piece.chars, Option.map_none, f1, f2]
      rw [show encodingText new (some _) = _ from e1]
    | some x =>
      simp only [Piece.chars, Option.map_some, f1, f2, f3]
      rw [show encodingText new (some _) = _ from e1, recodeNul_eq hn ha (h2 x rfl).1 (c3 x rfl).2]

theorem doctype_copied (hn : PageOk new) (hA : AsciiBased app) (ha : AsciiBased new) {r : List Byte} {i : Option (Option (List Byte) × List Byte)}
    (h1 : StringOk r) (h2 : NameOk app out (untilNul r)) (h3 : ∀ x ∈ i, (∀ y ∈ x.1, PlainOk app out y) ∧ PlainOk app out x.2)
    (c1 : StringOk ((decode app (untilNul r)).flatMap new.print) ∧ ∀ c ∈ decode app (untilNul r), Direct new c)
    (c2 : ∀ x ∈ i, ∀ y, y = x.2 ∨ x.1 = some y →
      StringOk ((decode app (untilNul y)).flatMap new.print) ∧ ∀ c ∈ decode app (untilNul y), Direct new c) :
    NameOk new out (untilNul (recodeNul app new r)) ∧
    (∀ x ∈ i.map fun y => (y.1.map (recodeNul app new), recodeNul app new y.2), (∀ y ∈ x.1, PlainOk new out y) ∧ PlainOk new out x.2) ∧
    (doctypePieces (some (recodeNul app new r, i.map fun y => (y.1.map (recodeNul app new), recodeNul app new y.2)))).flatMap (Piece.chars new) =
      (doctypePieces (some (r, i))).flatMap (Piece.chars app) := by
  have f : ∀ x : String, (∀ b ∈ Spec.ascii x, 1 ≤ b ∧ b < 128) → fixed new x = fixed app x :=
    fun x h => (Printer.fixed_ascii ha h).trans (Printer.fixed_ascii hA h).symm
  have f1 := f "<!DOCTYPE " (by decide +kernel)
  have f2 := f " PUBLIC \"" (by decide +kernel)
  have f3 := f "\" \"" (by decide +kernel)
  have f4 := f "\">" (by decide +kernel)
  have f5 := f " SYSTEM \"" (by decide +kernel)
  have f6 := f ">" (by decide +kernel)
  have e1 := recodeNul_eq hn ha h1 c1.2
  refine ⟨?_, ?_, ?_⟩
  · unfold NameOk
    rw [e1]
    exact h2
  · intro x hx
    obtain ⟨y, hy, rfl⟩ := Option.map_eq_some_iff.1 hx
    refine ⟨fun z hz => ?_, recodeNul_plain hn ha (h3 y hy).2 (c2 y hy y.2 (.inl rfl))⟩
    obtain ⟨w, hw, rfl⟩ := Option.map_eq_some_iff.1 hz
    exact recodeNul_plain hn ha ((h3 y hy).1 w hw) (c2 y hy w (.inr hw))
  · rcases i with _ | ⟨_ | p, s⟩
    · simp only [Option.map_none, doctypePieces, List.flatMap_cons, List.flatMap_nil, Piece.chars, f1, f6, e1]
    · have e2 := recodeNul_eq hn ha (h3 _ rfl).2.1 (c2 _ rfl s (.inl rfl)).2
      simp only [Option.map_none, Option.map_some, doctypePieces, List.flatMap_cons, List.flatMap_nil, Piece.chars, f1, f5, f4, e1, e2]
    · have e2 := recodeNul_eq hn ha (h3 _ rfl).2.1 (c2 _ rfl s (.inl rfl)).2
      have e3 := recodeNul_eq hn ha ((h3 _ rfl).1 p rfl).1 (c2 _ rfl p (.inr rfl)).2
      simp only [Option.map_some, doctypePieces, List.flatMap_cons, List.flatMap_nil, Piece.chars, f1, f2, f3, f4, e1, e2, e3]

/-- The copied tree is allowed and printed as the original. -/
theorem tree_copied (hn : PageOk new) {t : Tree} (ht : t.Ok app out) (ha : t.header.isSome ∨ t.doctype.isSome → AsciiBased new)
    (hc : Copyable new (t.items app)) : (t.copied app new).Ok new out ∧
    (t.copied app new).pieces.flatMap (Piece.chars new) = t.pieces.flatMap (Piece.chars app) := by
  have hs : t.items app = t.headerItems app ++ (t.doctypeItems app ++ rootItems app t) := by
    rw [rootItems, Tree.items, List.append_assoc, List.append_assoc]
  rw [hs] at hc
  have ch : Copyable new (t.headerItems app) := fun i hi => hc i (List.mem_append.2 (.inl hi))
  have cd : Copyable new (t.doctypeItems app) := fun i hi => hc i (List.mem_append.2 (.inr (List.mem_append.2 (.inl hi))))
  have cr : Copyable new (rootItems app t) := fun i hi => hc i (List.mem_append.2 (.inr (List.mem_append.2 (.inr hi))))
  clear hs hc
  rw [root_items] at cr
  obtain ⟨h1, h2, h3⟩ := ht
  obtain ⟨h, dt, n, as, ks⟩ := t
  obtain ⟨g1, g2, g3, g4, -⟩ := h3
  simp only at h1 h2 ha cr g1 g2 g3 g4
  have k1 : Copyable new ((.OpenTag, decode app n) ::
      (as.flatMap fun a => [(.TagAttribName, decode app a.1), (.TagAttribValue, decode app a.2)])) := by
    intro i hi
    refine cr i ?_
    rw [← List.cons_append]
    exact List.mem_append.2 (.inl hi)
  have k2 : Copyable new (joined [] ((if ks.isNil then [.item .CloseTagIm []] else ks.events app ++ [.item .CloseTag (decode app n)]) ++
      [.text [10], .item .Exit []])) := fun i hi => cr i (List.mem_cons_of_mem _ (List.mem_append.2 (.inr hi)))
  have hk : (if ks.isNil then Nodes.nil else ks.copied app new []).isNil = ks.isNil ∧
      (if ks.isNil then Nodes.nil else ks.copied app new []).Ok new out ∧
      (ks.isNil = false → (if ks.isNil then Nodes.nil else ks.copied app new []).pieces.flatMap (Piece.chars new) =
        ks.pieces.flatMap (Piece.chars app)) := by
    cases hi : ks.isNil with
    | true => exact ⟨rfl, trivial, fun h => nomatch h⟩
    | false =>
      rw [hi, if_neg (by decide), List.append_assoc] at k2
      obtain ⟨l1, l2⟩ := nodes_copied (cs := []) (x := decode app n) hn g4 (fun c hc => nomatch hc) k2
      exact ⟨copied_isNil [], l1, fun _ => l2⟩
  obtain ⟨r1, r2⟩ := elem_copied (ks := ks) (ns := .nil) (ns' := .nil) hn g1 g2 g3 k1 hk.1 hk.2.1 hk.2.2 trivial rfl
  have hd : (match (Tree.copied app new ⟨h, dt, n, as, ks⟩).doctype with
       | none => True
       | some (r, i) => AsciiBased new ∧ StringOk r ∧ NameOk new out (untilNul r) ∧
          ∀ x ∈ i, (∀ y ∈ x.1, PlainOk new out y) ∧ PlainOk new out x.2) ∧
      (doctypePieces (Tree.copied app new ⟨h, dt, n, as, ks⟩).doctype).flatMap (Piece.chars new) = (doctypePieces dt).flatMap (Piece.chars app) := by
    rcases dt with _ | ⟨r, i⟩
    · exact ⟨trivial, rfl⟩
    · obtain ⟨a1, a2, a3, a4⟩ := h2
      have ha := ha (.inr rfl)
      have c1 := cd (.DocAttribValue, decode app (untilNul r)) (by simp [Tree.doctypeItems])
      obtain ⟨d1, d2, d3⟩ := doctype_copied hn a1 ha a2 a3 a4 c1 (by
        intro x hx y hy
        rcases i with _ | ⟨p, s⟩
        · cases hx
        · cases hx
          refine cd (.DocAttribValue, decode app (untilNul y)) ?_
          rcases hy with rfl | rfl
          · cases p <;> simp [Tree.doctypeItems]
          · simp [Tree.doctypeItems])
      exact ⟨⟨ha, c1.1, d1, d2⟩, d3⟩
  have hh : (match (Tree.copied app new ⟨h, dt, n, as, ks⟩).header with
       | none => True
       | some (e, s) => AsciiBased new ∧ (∀ x ∈ e, PlainOk new out x) ∧ ∀ x ∈ s, PlainOk new out x) ∧
      (headerPieces (Tree.copied app new ⟨h, dt, n, as, ks⟩).header).flatMap (Piece.chars new) = (headerPieces h).flatMap (Piece.chars app) := by
    rcases h with _ | ⟨e, s⟩
    · exact ⟨trivial, rfl⟩
    · obtain ⟨a1, a2, a3⟩ := h1
      have ha := ha (.inl rfl)
      obtain ⟨d1, d2, d3⟩ := header_copied hn a1 ha a2 a3
        (ch (.HeaderAttribValue, match (generalizing := false) e with | some e => decode app (untilNul e) | none => codes "UTF-8")
          (by cases e <;> simp [Tree.headerItems])).1
        (by
          intro x hx
          cases hx
          exact (ch (.HeaderAttribValue, decode app (untilNul x)) (by simp [Tree.headerItems])).2)
        (by
          intro x hx
          cases hx
          exact ch (.HeaderAttribValue, decode app (untilNul x)) (by simp [Tree.headerItems]))
      refine ⟨⟨ha, ?_, d2⟩, ?_⟩
      · intro x hx
        cases hx
        exact d1
      · show _ ++ [] = _ ++ []
        rw [d3]
  refine ⟨⟨hh.1, hd.1, r1⟩, ?_⟩
  unfold Tree.pieces
  simp only [List.flatMap_append]
  rw [hh.2, hd.2]
  exact congrArg (fun l => _ ++ (l ++ _)) r2

end TW
