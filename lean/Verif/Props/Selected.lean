import Verif.Proofs.Selected
import Verif.Props.RoundTrip
import Verif.Props.Pipeline

/-!
# Property C83: what is selected in a printed tree

Full statement: a tree is printed, what was printed is scanned, and the items are given to a selector for an automaton of
path expressions given as texts. The selector reports the elements, attributes, contents and close tags the expressions
select in the tree, each one where it is in the document, and nothing else.
-/

namespace TW

open Spec Spec.Path TW.Path Scanner

variable {app e se out : Enc} {xs : List Query} {ty : Int}

theorem marked_zero {types : List ElementType} (h : ∀ q ∈ xs, q.type = ty → ∀ p prev it, it.1 ∉ types → q.answers p prev it = 0)
    (its : List Item) : ∀ p prev, ∀ x ∈ marked xs ty p prev its, x.1.1 ∉ types → x.2 = 0 := by
  induction its with
  | nil => intro _ _ x hx; cases hx
  | cons it its ih =>
    intro p prev x hx hn
    rcases List.mem_cons.1 hx with rfl | hx
    · exact total_zero fun q k1 k2 => h q k1 k2 p prev it hn
    · exact ih _ _ x hx hn

/-- The types of the items outside of elements. -/
def Outside (t : ElementType) : Prop := t ∉ [.OpenTag, .CloseTag, .CloseTagIm, .TagAttribName, .TagAttribValue, .Content]

theorem marked_outside (its : List Item) : ∀ (hs : List Item) (prev : Option Item), (∀ h ∈ hs, Outside h.1) → ∃ prev',
    marked xs ty [] prev (hs ++ its) = hs.map (fun h => (h, 0)) ++ marked xs ty [] prev' its := by
  intro hs
  induction hs with
  | nil => intro prev _; exact ⟨prev, rfl⟩
  | cons h hs ih =>
    intro prev hh
    obtain ⟨prev', h1⟩ := ih (some h) fun x hx => hh x (List.mem_cons_of_mem _ hx)
    refine ⟨prev', ?_⟩
    have h2 := hh h (List.mem_cons_self ..)
    obtain ⟨t, i⟩ := h
    have h3 : grown [] prev (t, i) = [] := by
      unfold Outside at h2
      cases t <;> first | rfl | exact (h2 (by simp)).elim
    have h4 : ∀ q : Query, q.answers [] prev (t, i) = 0 := by
      intro q
      unfold Outside at h2
      unfold Query.answers
      cases q.final <;> cases t <;> first | rfl | exact (h2 (by simp)).elim
    rw [List.cons_append, marked, total_zero fun q _ _ => h4 q, h3, h1]
    rfl

theorem joined_exit (es : List Event) (t : ElementType) (i : List UChar) : ∀ cs,
    joined cs (es ++ [.item t i]) = joined cs es ++ [(t, i)] := by
  induction es with
  | nil => intro cs; simp [joined]
  | cons ev es ih =>
    intro cs
    cases ev with
    | text c => exact ih _
    | item t' i' => simp only [List.cons_append, joined, ih, List.append_assoc]

theorem headerItems_outside (t : Tree) : ∀ i ∈ t.headerItems app ++ t.doctypeItems app, Outside i.1 := by
  obtain ⟨hd, dt, n, as, ks⟩ := t
  intro i hi
  unfold Outside
  rcases List.mem_append.1 hi with hi | hi
  · rcases hd with _ | ⟨x, _ | y⟩ <;> simp [Tree.headerItems] at hi
    · rcases hi with rfl | rfl | rfl | rfl | rfl | rfl <;> simp
    · rcases hi with rfl | rfl | rfl | rfl | rfl | rfl | rfl | rfl <;> simp
  · rcases dt with _ | ⟨r, _ | ⟨_ | p, s⟩⟩ <;> simp [Tree.doctypeItems] at hi
    · rcases hi with rfl | rfl | rfl <;> simp
    · rcases hi with rfl | rfl | rfl | rfl | rfl <;> simp
    · rcases hi with rfl | rfl | rfl | rfl | rfl | rfl <;> simp

/-- The answers at the items of a tree: what the queries select in the tree. -/
theorem tree_answers (t : Tree) {rs : List (Item × Nat)}
    (hr : rs = ((t.items app).map (enc e)).zip (answers xs ty [] none ((t.items app).map (enc e)))) :
    ((∀ x ∈ xs, x.type = ty → x.final = .element) →
      perTag rs = (0, (t.root.elements app e []).map fun p => total xs ty fun x => routes x.steps p)) ∧
    ((∀ x ∈ xs, x.type = ty → ∃ d, x.final = .content d) →
      ReportedAt [.Content] rs ((t.root.contents app e [] [] [10]).map fun c => (c.2, total xs ty fun x => x.atContent c.1))) ∧
    ((∀ x ∈ xs, x.type = ty → ∃ d nm, x.final = .attribute d nm) →
      ReportedAt [.TagAttribValue] rs ((t.root.attributes app e []).map fun a => (a.2.2, total xs ty fun x => x.atAttribute a.1 a.2.1))) ∧
    ((∀ x ∈ xs, x.type = ty → ∃ d, x.final = .closeTag d) →
      ReportedAt [.CloseTag, .CloseTagIm] rs ((t.root.closes app e []).map fun c => (c.2, total xs ty fun x => x.atClose c.1))) := by
  rw [marked_eq] at hr
  subst hr
  have hi : t.items app = (t.headerItems app ++ t.doctypeItems app) ++
      joined [] (t.root.events app ++ .text [10] :: .item .Exit [] :: []) := by
    have := joined_exit (t.root.events app ++ [.text [10]]) .Exit [] []
    rw [List.append_assoc] at this
    rw [List.cons_append, List.nil_append] at this
    rw [this]
    simp only [Tree.items, Tree.root, List.append_assoc]
  obtain ⟨prev, h1⟩ := marked_outside (xs := xs) (ty := ty) ((joined [] (t.root.events app ++ .text [10] :: .item .Exit [] :: [])).map (enc e))
    ((t.headerItems app ++ t.doctypeItems app).map (enc e)) none (by
      intro h hh
      obtain ⟨i, k1, rfl⟩ := List.mem_map.1 hh
      exact headerItems_outside t i k1)
  have ho : ∀ x ∈ ((t.headerItems app ++ t.doctypeItems app).map (enc e)).map (fun h => (h, 0)), Outside x.1.1 ∧ x.2 = 0 := by
    intro x hx
    obtain ⟨y, k1, rfl⟩ := List.mem_map.1 hx
    obtain ⟨i, k2, rfl⟩ := List.mem_map.1 k1
    exact ⟨headerItems_outside t i k2, rfl⟩
  rw [hi, List.map_append]
  have ht := tagsOf_nodes (xs := xs) (ty := ty) (app := app) (e := e) t.root [] prev [] (es := .text [10] :: .item .Exit [] :: []) (by simp [NoValue])
  have hz : (total xs ty fun x => x.answers [] (some (enc e (.Content, [10]))) (.Exit, [])) = 0 := by
    apply total_zero
    intro x _ _
    unfold Query.answers
    cases x.final <;> simp
  have hx : tagsOf (marked xs ty [] none ((joined [] (.text [10] :: .item .Exit [] :: [])).map (enc e))) = [((.Exit, []), 0)] := by
    have hj : (joined [] (.text [10] :: .item .Exit [] :: [])).map (enc e) = [enc e (.Content, [10]), (.Exit, [])] := by
      simp [joined, enc]
    rw [hj, marked, tagsOf_content rfl, marked, tagsOf_cons (by simp)]
    show ((_, total xs ty fun x => x.answers [] (some (enc e (.Content, [10]))) (.Exit, [])) :: _) = _
    rw [hz]
    rfl
  rw [hx] at ht
  refine ⟨fun hq => ?_, fun hq => ⟨?_, ?_⟩, fun hq => ⟨?_, ?_⟩, fun hq => ⟨?_, ?_⟩⟩
  · rw [h1, perTag_zero (fun x k => ⟨fun k1 => (ho x k).1 (by rw [k1]; simp), (ho x k).2⟩), ← perTag_tagsOf, ht]
    · have := perTag_nodes (app := app) (e := e) hq t.root [] (l := [((.Exit, []), 0)]) (r := []) (by rfl)
      rw [this, List.append_nil]
      rfl
    · intro x k1 k2
      refine marked_zero (types := [.OpenTag, .TagAttribValue]) ?_ _ _ _ x k1 (by rw [k2]; simp)
      intro q k3 k4 p pr it k5
      unfold Query.answers
      rw [hq q k3 k4]
      obtain ⟨ti, i⟩ := it
      cases ti <;> first | rfl | exact (k5 (by simp)).elim
  · show pick [.Content] _ = _
    rw [h1, pick_append, pick_none (fun x k k1 => (ho x k).1 (by simp at k1; rw [k1]; simp)), List.nil_append,
      pick_contents (xs := xs) (ty := ty) (app := app) (e := e) t.root [] prev [] [10] .Exit [] [] (by decide) (by decide)]
    simp [joined, marked, pick]
  · refine marked_zero ?_ _ _ _
    intro q k3 k4 p pr it k5
    obtain ⟨d, k6⟩ := hq q k3 k4
    unfold Query.answers
    rw [k6]
    simp at k5
    simp [k5]
  · show pick [.TagAttribValue] _ = _
    rw [h1, pick_append, pick_none (fun x k k1 => (ho x k).1 (by simp at k1; rw [k1]; simp)), List.nil_append, ← pick_tagsOf (by simp), ht,
      pick_append, pick_attributes (fun x k1 k2 k3 => by obtain ⟨d, nm, k4⟩ := hq x k1 k2; rw [k4] at k3; cases k3)]
    simp [pick]
  · refine marked_zero ?_ _ _ _
    intro q k3 k4 p pr it k5
    obtain ⟨d, nm, k6⟩ := hq q k3 k4
    unfold Query.answers
    rw [k6]
    obtain ⟨ti, i⟩ := it
    cases ti <;> first | rfl | exact (k5 (by simp)).elim
  · show pick [.CloseTag, .CloseTagIm] _ = _
    rw [h1, pick_append, pick_none (fun x k k1 => (ho x k).1 (by simp at k1; rcases k1 with k1 | k1 <;> (rw [k1]; simp))), List.nil_append,
      ← pick_tagsOf (by simp), ht, pick_append, pick_closes]
    simp [pick]
  · refine marked_zero ?_ _ _ _
    intro q k3 k4 p pr it k5
    obtain ⟨d, k6⟩ := hq q k3 k4
    unfold Query.answers
    rw [k6]
    simp at k5
    simp [k5]

/-- C83 (partial): a printer prints a tree, a scanner of the output encoding reads what was printed, and a selector for the
expressions gets the items. No step fails. A type all of whose expressions ask for elements is reported in the tag of each
element as often as the expressions lead to the element, and nowhere else; one for contents at the contents as often as the expressions lead to
the elements the contents are in; one for attributes at the attributes, the conditions being fulfilled by attributes before;
one for close tags at the close tags.

Missing: what is missing in `C32_roundtrip_partial` and in `C74_texts_partial`. -/
theorem C83_tree_partial (mem : Nat → Byte) (hse : PageOk se) (he : ByteSet e) (ho : PageOk out) {n : Nat}
    {ws : List Written} (hw : ∀ w ∈ ws, w.Ok se e ∧ w.codes.length < n)
    {t : Tree} (ht : t.Ok app out) {limit : Nat} (hl : 2 * nameNeed t.calls ≤ limit) (hl' : limit < 2 ^ 63)
    (hh : t.header = none ∨ ∀ w ∈ ws, w.Inside) (hq : Calm ws)
    {em : Option (List (Nat × UChar))} {addr : Nat} {reads : List (Nat × Bool)} (hr : reads.length = (t.items app).length)
    (hm : ∀ x ∈ reads, ∀ i : ElementType, x.1.testBit i.toNat = true) :
    ∃ p a s, Printer.calls limit t.calls (Printer.new mem app out t.header.isNone) = (.ok (List.replicate t.calls.length true), p) ∧
      addAll se e n (ws.map fun w => (w.type, w.bytes se)) [] = (.ok (List.replicate ws.length 0), a) ∧ Sel.mk' a = .ok s ∧
      ∃ N obs rss, (∀ m, N ≤ m → ∃ z s', session m false reads (oneScanner out e em addr p.buf) = (.ok obs, z) ∧
          Sel.feed m (obs.map fun o => (o.type, o.item)) s = (.ok rss, s')) ∧ (∀ o ∈ obs, o.error = .Ok) ∧
        ∀ ty, ty ≠ 0 → ∀ qs, qs = (ws.flatMap (Written.queries e)).filter (·.type = ty) →
          ∀ rs, rs = (obs.map fun o => (o.type, o.item)).zip (rss.map (·.count ty)) →
          ((∀ x ∈ qs, x.final = .element) →
            perTag rs = (0, (t.root.elements app e []).map fun p => (qs.map fun x => routes x.steps p).sum)) ∧
          ((∀ x ∈ qs, ∃ d, x.final = .content d) →
            ReportedAt [.Content] rs ((t.root.contents app e [] [] [10]).map fun c => (c.2, (qs.map fun x => x.atContent c.1).sum))) ∧
          ((∀ x ∈ qs, ∃ d nm, x.final = .attribute d nm) →
            ReportedAt [.TagAttribValue] rs
              ((t.root.attributes app e []).map fun a => (a.2.2, (qs.map fun x => x.atAttribute a.1 a.2.1).sum))) ∧
          ((∀ x ∈ qs, ∃ d, x.final = .closeTag d) →
            ReportedAt [.CloseTag, .CloseTagIm] rs ((t.root.closes app e []).map fun c => (c.2, (qs.map fun x => x.atClose c.1).sum))) := by
  obtain ⟨p, N, h1, h2⟩ := C32_roundtrip_partial (output := e) (em := em) (addr := addr) mem ho ht hl hl' hr hm
  have hd : docItems e (t.document app out) = (t.items app).map (enc e) := by
    unfold docItems
    rw [tree_items]
    rfl
  have hh' : (t.document app out).header = none ∨ ∀ w ∈ ws, w.Inside := by
    rcases hh with hh | hh
    · left; simp [Tree.document, hh]
    · exact .inr hh
  obtain ⟨a, s, h3, h4, rss, ⟨N', s', h5⟩, h6⟩ := select_texts hse he hw hh' hq
  rw [hd] at h5 h6
  refine ⟨p, a, s, h1, h3, h4, max N N', (t.items app).map fun i => { type := i.1, item := i.2.flatMap e.print, error := .Ok, pos := none },
    rss, fun m hm' => ?_, ?_, ?_⟩
  · obtain ⟨z, h7⟩ := h2 m (by omega)
    refine ⟨z, s', h7, ?_⟩
    rw [List.map_map]
    exact h5 m (by omega)
  · intro o ho
    obtain ⟨i, -, rfl⟩ := List.mem_map.1 ho
    rfl
  · intro ty hty qs hqs rs hrs
    rw [h6 ty hty, List.map_map] at hrs
    have := tree_answers (xs := ws.flatMap (Written.queries e)) (ty := ty) (app := app) (e := e) t hrs
    subst hqs
    have hx : ∀ {P : Query → Prop}, (∀ x ∈ (ws.flatMap (Written.queries e)).filter (·.type = ty), P x) →
        ∀ x ∈ ws.flatMap (Written.queries e), x.type = ty → P x :=
      fun h x k1 k2 => h x (List.mem_filter.2 ⟨k1, decide_eq_true k2⟩)
    exact ⟨fun k => this.1 (hx k), fun k => this.2.1 (hx k), fun k => this.2.2.1 (hx k), fun k => this.2.2.2 (hx k)⟩

/-- The parts of `<a b="1&lt;"><c/>x&amp;ü<d>y</d></a>` and the line break behind. -/
theorem treeExample_parts :
    treeExample.root.elements .utf8 .utf8 [] = [[⟨[97], [([98], [49, 60])]⟩], [⟨[97], [([98], [49, 60])]⟩, ⟨[99], []⟩],
      [⟨[97], [([98], [49, 60])]⟩, ⟨[100], []⟩]] ∧
    treeExample.root.contents .utf8 .utf8 [] [] [10] = [([⟨[97], [([98], [49, 60])]⟩], [120, 38, 195, 188]),
      ([⟨[97], [([98], [49, 60])]⟩, ⟨[100], []⟩], [121]), ([], [10])] ∧
    treeExample.root.attributes .utf8 .utf8 [] = [([⟨[97], []⟩], [98], [49, 60])] ∧
    treeExample.root.closes .utf8 .utf8 [] = [([⟨[97], [([98], [49, 60])]⟩, ⟨[99], []⟩], []),
      ([⟨[97], [([98], [49, 60])]⟩, ⟨[100], []⟩], [100]), ([⟨[97], [([98], [49, 60])]⟩], [97])] := by
  refine ⟨?_, ?_, ?_, ?_⟩ <;> decide +kernel

/-- The tree printed in ISO 8859-5 and read back, with the expressions of `writtenExample`; `/a()` is reported at the content of `a`,
and `// e[7]` nowhere. -/
example : ∃ p a s, Printer.calls 1000 treeExample.calls (Printer.new (fun _ => 0) .utf8 (.isolatin 5) false) =
      (.ok (List.replicate treeExample.calls.length true), p) ∧
    addAll .utf8 .utf8 2000 (writtenExample.map fun w => (w.type, w.bytes .utf8)) [] = (.ok [0, 0, 0, 0, 0], a) ∧ Sel.mk' a = .ok s ∧
    ∃ N obs rss, (∀ m, N ≤ m → ∃ z s', session m false (List.replicate 23 (0xFFFFF, true)) (oneScanner (.isolatin 5) .utf8 none 0 p.buf) = (.ok obs, z) ∧
        Sel.feed m (obs.map fun o => (o.type, o.item)) s = (.ok rss, s')) ∧
      ReportedAt [.Content] ((obs.map fun o => (o.type, o.item)).zip (rss.map (·.count 3))) [([120, 38, 195, 188], 1), ([121], 0), ([10], 0)] ∧
      perTag ((obs.map fun o => (o.type, o.item)).zip (rss.map (·.count 2))) = (0, [0, 0, 0]) := by
  obtain ⟨p, a, s, h1, h2, h3, N, obs, rss, h4, -, h5⟩ := C83_tree_partial (se := .utf8) (e := .utf8) (app := .utf8) (out := .isolatin 5)
    (em := none) (addr := 0) (limit := 1000) (n := 2000) (reads := List.replicate 23 (0xFFFFF, true))
    (fun _ => 0) (fun p h => nomatch h) (.inl rfl) (fun p h => by cases h; decide) writtenExample_ok treeExample_ok (by decide) (by decide)
    (.inr writtenExample_inside.1) writtenExample_inside.2 (by rw [treeExample_items]; rfl) (by
      intro x hx t
      rw [(List.mem_replicate.1 hx).2]
      cases t <;> decide)
  refine ⟨p, a, s, h1, h2, h3, N, obs, rss, h4, ?_, ?_⟩
  · have := (h5 3 (by decide) _ rfl _ rfl).2.1 (by rw [writtenExample_query]; simp [writtenQueries])
    rw [treeExample_parts.2.1, writtenExample_query] at this
    exact this
  · have := (h5 2 (by decide) _ rfl _ rfl).1 (by rw [writtenExample_query]; simp [writtenQueries])
    rw [treeExample_parts.1, writtenExample_query] at this
    exact this

end TW
