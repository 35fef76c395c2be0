import Verif.Props.Pipeline
import Verif.Proofs.PathHeader

/-!
# Property C84: selecting in documents with a header
-/

namespace TW

open Spec Spec.Path TW.Path Scanner

variable {e se de : Enc}

theorem query_self (he : ByteSet e) {n : Nat} (hn : 1024 < n) {x : Query} (h : x.Ok e) : QueryOk False e n x :=
  ⟨fun s hs => ⟨name_self he hn (h.names s hs).1, fun c hc =>
    ⟨name_self he hn ((h.names s hs).2 c hc).1, (name_self he hn ((h.names s hs).2 c hc).2).value fun _ k => k⟩⟩,
    fun d name hf => name_self he hn (h.attr d name hf)⟩

theorem root_in {x : Query} (h : x.steps = [] → (∃ d, x.final = .content d) ∨ ∃ d name, x.final = .attribute d name) (hr : x.steps = [] → ∀ name, x.final ≠ .attribute false name) : RootIn x := fun k => by
  rcases h k with k1 | ⟨d, name, k1⟩
  · exact .inl k1
  · cases d with
    | false => exact (hr k name k1).elim
    | true => exact .inr ⟨name, k1⟩

/-- The reports of an automaton with the outputs of queries. -/
theorem header_all {E : Prop} {xs : List Query} (hx : ∀ x ∈ xs, x.steps = [] → (∃ d, x.final = .content d) ∨ ∃ d name, x.final = .attribute d name)
    (hr : ∀ x ∈ xs, x.steps = [] → ∀ name, x.final ≠ .attribute false name)
    {a : Atm} {lab : List (List Edge)} (h2 : TW.Path.At E a lab {} [])
    (h3 : ∀ ty, ty ≠ 0 → (outs a lab ty).map bareOut = (xs.filter (·.type = ty)).map fun x => (labelOf x, coreOf x))
    (hq : ∀ x ∈ xs, ∀ name, x.final = .attribute true name → NoCont a)
    (name last : List Byte) (attrs : List (List Byte × List Byte)) (body : List Item)
    (hi : ∀ it ∈ body, ¬ Heads it.1) (ht : Tidy [] none body) :
    ∃ s, Sel.mk' a = .ok s ∧ ∃ rss, (∃ N s', ∀ m, N ≤ m → Sel.feed m (headerItems name attrs last ++ body) s = (.ok rss, s')) ∧
      ∀ ty, ty ≠ 0 → rss.map (·.count ty) = answers xs ty [] none (elementItems name attrs last) ++
        answers (xs ++ carried ⟨name, attrs⟩ xs) ty [] none body := by
  have main := fun (ty : Int) (hty : ty ≠ 0) => header_outs hty h2 (h3 ty hty)
    (fun x hm _ => root_in (hx x hm) (hr x hm)) (fun x hm _ => hq x hm) name last attrs body hi ht
  obtain ⟨s, h4, N, rss, s', h5, h6⟩ := main 1 (by decide)
  refine ⟨s, h4, rss, ⟨N, s', h5⟩, fun ty hty => ?_⟩
  obtain ⟨s2, k1, N', rss', s3, k3, k4⟩ := main ty hty
  rw [h4] at k1
  cases k1
  have := h5 (max N N') (by omega)
  rw [k3 (max N N') (by omega)] at this
  cases this
  exact k4

/-- C84: for a selector the header of a document is an element before the document, and the document is also inside of it. At the items of the header each type is
reported as at the items of an element with the name and the attributes of the header. At the items of the
document behind it the queries are answered, and also the rest of each query whose first step the header fulfils, as often as it does,
as if this rest was a query of its own. -/
theorem C84_queries (he : ByteSet e) {n : Nat} (hn : 1024 < n) (xs : List Query) (hx : ∀ x ∈ xs, x.Ok e)
    (hr : ∀ x ∈ xs, x.steps = [] → ∀ name, x.final ≠ .attribute false name) (hq : Quiet xs)
    (name last : List Byte) (attrs : List (List Byte × List Byte)) (body : List Item)
    (hi : ∀ it ∈ body, ¬ Heads it.1) (ht : Tidy [] none body) :
    ∃ rss, Selects e n (xs.map Query.calls) (headerItems name attrs last ++ body) rss ∧
      ∀ ty, ty ≠ 0 → rss.map (·.count ty) = answers xs ty [] none (elementItems name attrs last) ++
        answers (xs ++ carried ⟨name, attrs⟩ xs) ty [] none body := by
  have hd : ∀ ty, ∀ d ∈ xs.map Def.query, DefOk False e n ty d := by
    intro ty d hd
    obtain ⟨x, h1, rfl⟩ := List.mem_map.1 hd
    exact query_self he hn (hx x h1)
  have hc : (xs.map Def.query).map Def.calls = xs.map Query.calls := by simp [Def.calls]
  have main : ∀ ty : Int, ty ≠ 0 → ∃ a s, build e n (xs.map Query.calls) [] = (.ok (), a) ∧ Sel.mk' a = .ok s ∧
      ∃ N rss s', (∀ m, N ≤ m → Sel.feed m (headerItems name attrs last ++ body) s = (.ok rss, s')) ∧
        rss.map (·.count ty) = answers xs ty [] none (elementItems name attrs last) ++
          answers (xs ++ carried ⟨name, attrs⟩ xs) ty [] none body := by
    intro ty hty
    obtain ⟨a, lab, h1, h2, h3⟩ := build_spec (e := e) (n := n) (xs.map .query) (at_start False) hty (fun d k => (hd ty d k).fits)
    rw [hc] at h1
    rw [queries_map] at h3
    rw [List.map_congr_left (g := fun x => (labelOf x, coreOf x)) fun x k => by rw [(query_self he hn (hx x (List.mem_filter.1 k).1)).keyed]] at h3
    obtain ⟨s, h4⟩ := header_outs hty h2 (by rw [h3]; simp [outs, bareOut_query])
      (fun x hm _ => root_in (hx x hm).root (hr x hm)) (fun x hm _ name k => noCont_built (ds := xs.map .query) (fun d hd => by
        obtain ⟨y, k1, rfl⟩ := List.mem_map.1 hd
        exact content_calls (hq ⟨x, hm, name, k⟩ y k1)) (by rw [hc]; exact h1)) name last attrs body hi ht
    exact ⟨a, s, h1, h4⟩
  obtain ⟨a, s, h1, h2, N, rss, s', h3, h4⟩ := main 1 (by decide)
  refine ⟨rss, ⟨a, s, h1, h2, N, s', h3⟩, fun ty hty => ?_⟩
  obtain ⟨a', s1, k1, k2, N', rss', s2, k3, k4⟩ := main ty hty
  rw [h1] at k1
  cases k1
  rw [h2] at k2
  cases k2
  have := h3 (max N N') (by omega)
  rw [k3 (max N N') (by omega)] at this
  cases this
  exact k4

theorem share_zero {h : Open} {xs : List Query} (hz : ∀ x ∈ xs, ∀ s ∈ x.steps.head?, s.accepts h.name = false) : carried h xs = [] := by
  induction xs with
  | nil => rfl
  | cons x xs ih =>
    have e1 : carried h (x :: xs) = List.replicate (share h x.steps) x.behind ++ carried h xs := rfl
    rw [e1, ih fun y hy => hz y (List.mem_cons_of_mem _ hy)]
    have := hz x (List.mem_cons_self ..)
    cases hs : x.steps with
    | nil => rfl
    | cons s ss =>
      rw [hs] at this
      simp [share, this s rfl]

/-- C84: if the header does not fulfil the first step of a query, then the document behind it is selected in as without the header. -/
theorem C84_unmatched (he : ByteSet e) {n : Nat} (hn : 1024 < n) (xs : List Query) (hx : ∀ x ∈ xs, x.Ok e)
    (hr : ∀ x ∈ xs, x.steps = [] → ∀ name, x.final ≠ .attribute false name) (hq : Quiet xs)
    (name last : List Byte) (attrs : List (List Byte × List Byte)) (body : List Item)
    (hi : ∀ it ∈ body, ¬ Heads it.1) (ht : Tidy [] none body)
    (hz : ∀ x ∈ xs, ∀ s ∈ x.steps.head?, s.accepts name = false) :
    ∃ rss rss', Selects e n (xs.map Query.calls) (headerItems name attrs last ++ body) rss ∧
      Selects e n (xs.map Query.calls) body rss' ∧
      ∀ ty, ty ≠ 0 → (rss.map (·.count ty)).drop (headerItems name attrs last).length = rss'.map (·.count ty) := by
  obtain ⟨rss, h1, h2⟩ := C84_queries he hn xs hx hr hq name last attrs body hi ht
  obtain ⟨rss', h3, h4⟩ := C73_queries_partial he hn xs hx body (headerFree_of (fun it hm k => hi it hm (.inl k)) _)
    (fun _ => ht) hq fun _ it hm k => hi it hm (.inr (.inr (by first | exact k | exact .inl k)))
  refine ⟨rss, rss', h1, h3, fun ty hty => ?_⟩
  rw [h2 ty hty, h4 ty hty, share_zero hz, List.append_nil]
  have len : ∀ (items : List Item) path prev, (answers xs ty path prev items).length = items.length := by
    intro items
    induction items with
    | nil => intro _ _; rfl
    | cons it items ih => intro _ _; simp [answers, ih]
  have : (headerItems name attrs last).length = (elementItems name attrs last).length := by
    simp [headerItems, elementItems, List.length_flatMap]
  rw [this, ← len (elementItems name attrs last) [] none]
  exact List.drop_left

/-! ## Texts -/

/-- The attributes of a header. -/
def docAttrs (e : Enc) (attrs : List Attr) : List (List Byte × List Byte) :=
  attrs.map fun a => ((meant a.name).flatMap e.print, (meant a.val.text).flatMap e.print)

/-- The items of a document behind its header. -/
def bodyItems (e : Enc) (d : Document) : List Item := (items true [] d.body).map fun i => (i.1, i.2.flatMap e.print)

theorem docItems_header {d : Document} {lead tail : List UChar} {attrs : List Attr} (hd : d.header = some (lead, attrs, tail)) :
    docItems e d = headerItems ((codes "?xml").flatMap e.print) (docAttrs e attrs) [] ++ bodyItems e d := by
  unfold docItems Document.items headerItems bodyItems docAttrs
  rw [hd, List.map_append]
  congr 1
  simp only [List.map_cons, List.map_append, List.cons_append]
  congr 2
  rw [List.map_flatMap, List.flatMap_map]
  rfl

theorem bodyItems_heads (d : Document) : ∀ it ∈ bodyItems e d, ¬ Heads it.1 := by
  have text : ∀ seek gs, ∀ i ∈ textItem seek gs, ¬ Heads i.1 := by
    intro seek gs it hit
    unfold textItem at hit
    simp only [] at hit
    split at hit <;> split at hit <;> simp at hit <;> subst hit <;> simp [Heads]
  have main : ∀ (ms : List Mark) (seek : Bool) (gs : List Glyph), ∀ i ∈ items seek gs ms, ¬ Heads i.1 := by
    intro ms
    induction ms with
    | nil =>
      intro seek gs i hi
      unfold items at hi
      rcases List.mem_append.1 hi with hi | hi
      · exact text _ _ i hi
      · rw [List.mem_singleton] at hi; subst hi; simp [Heads]
    | cons m ms ih =>
      intro seek gs i hi
      have other : i ∈ textItem seek gs ++ m.items ++ items m.seeks [] ms → (i ∈ m.items → ¬ Heads i.1) → ¬ Heads i.1 := by
        intro h1 h2
        rcases List.mem_append.1 h1 with h1 | h1
        · rcases List.mem_append.1 h1 with h1 | h1
          · exact text _ _ i h1
          · exact h2 h1
        · exact ih _ _ i h1
      cases m with
      | text hs => exact ih _ _ i hi
      | open_ lead name attrs tail im =>
        refine other hi fun h => ?_
        simp only [Mark.items, List.cons_append, List.mem_cons, List.mem_append, List.mem_flatMap] at h
        rcases h with rfl | ⟨a, -, h⟩ | h
        · simp [Heads]
        · simp [Attr.items] at h
          rcases h with rfl | rfl <;> simp [Heads]
        · cases im <;> simp at h
          subst h; simp [Heads]
      | close lead name tail =>
        refine other hi fun h => ?_
        simp [Mark.items] at h
        subst h; simp [Heads]
      | doctype lead name parts tail =>
        refine other hi fun h => ?_
        simp only [Mark.items, List.cons_append, List.mem_cons, List.mem_append, List.mem_flatMap, List.not_mem_nil, or_false] at h
        rcases h with rfl | ⟨p, -, h1⟩ | rfl
        · simp [Heads]
        · cases h2 : p.2 with
          | val v => rw [h2] at h1; simp [DocPart.items] at h1; subst h1; simp [Heads]
          | subset cs => rw [h2] at h1; simp [DocPart.items] at h1
        · simp [Heads]
      | comment lead cs => exact other hi fun h => nomatch h
      | pi lead cs => exact other hi fun h => nomatch h
      | cdata lead cs => exact other hi fun h => nomatch h
  intro it hit
  obtain ⟨i, h1, rfl⟩ := List.mem_map.1 hit
  exact main d.body true [] i h1

theorem query_sep {w : Written} {q : TPath} (hq : q ∈ w.path.picks) {sep : Option Bool} {nm : Option TName} (hw : w.path.final = .attribute sep nm)
    {d : Bool} {name : Option (List Byte)} (h : (q.query e w.type).final = .attribute d name) : d = decide (sep = some true) := by
  obtain ⟨-, h2, -, -⟩ := picks_mem hq
  have h : q.final.final e = .attribute d name := h
  rw [hw] at h2
  obtain ⟨x, -, k⟩ := List.mem_map.1 h2
  rw [← k] at h
  cases x with
  | none => cases h
  | some x =>
    injection h with h
    exact h.symm

/-- C84 for texts: expressions as in `C74_texts_partial`, now also those with a wildcard as first step, and a document with a header. -/
theorem C84_texts (hse : PageOk se) (he : ByteSet e) (hde : PageOk de) {n : Nat} {ws : List Written}
    (hw : ∀ w ∈ ws, w.Ok se e ∧ w.codes.length < n) {d : Document} (hd : d.Ok de)
    {lead tail : List UChar} {attrs : List Attr} (hh : d.header = some (lead, attrs, tail))
    (hr : ∀ w ∈ ws, w.path.steps = [] → ∀ sep nm, w.path.final = .attribute sep nm → sep = some true) (hq : Calm ws)
    {em : Option (List (Nat × UChar))} {addr : Nat} {calls : List (Nat × Bool)}
    (hl : calls.length = d.items.length) (hm : ∀ x ∈ calls, ∀ t : ElementType, x.1.testBit t.toNat = true) :
    ∃ a s, addAll se e n (ws.map fun w => (w.type, w.bytes se)) [] = (.ok (List.replicate ws.length 0), a) ∧ Sel.mk' a = .ok s ∧
      ∃ N rss, (∀ m, N ≤ m → ∃ obs t s', session m false calls (oneScanner de e em addr (d.bytes de)) = (.ok obs, t) ∧
        (∀ o ∈ obs, o.error = .Ok) ∧ Sel.feed m (obs.map fun o => (o.type, o.item)) s = (.ok rss, s')) ∧
        ∀ ty, ty ≠ 0 → rss.map (·.count ty) =
          answers (ws.flatMap (Written.queries e)) ty [] none (elementItems ((codes "?xml").flatMap e.print) (docAttrs e attrs) []) ++
          answers (ws.flatMap (Written.queries e) ++ carried ⟨(codes "?xml").flatMap e.print, docAttrs e attrs⟩ (ws.flatMap (Written.queries e)))
            ty [] none (bodyItems e d) := by
  obtain ⟨a, lab, h1, h2, h3⟩ := addAll_outs hse he hw (at_start True)
  obtain ⟨s, h4, rss, ⟨N, s', h5⟩, h6⟩ := header_all (xs := ws.flatMap (Written.queries e)) (fun x hx => by
      obtain ⟨w, k1, k2⟩ := List.mem_flatMap.1 hx
      obtain ⟨q, k3, rfl⟩ := List.mem_map.1 k2
      exact query_some (hw w k1).1.toFine k3) (fun x hx k name k' => by
      obtain ⟨w, k1, k2⟩ := List.mem_flatMap.1 hx
      obtain ⟨q, k3, rfl⟩ := List.mem_map.1 k2
      obtain ⟨j1, sep, nm, j2⟩ := query_root k3 k k'
      have := query_sep k3 j2 k'
      rw [hr w k1 j1 sep nm j2] at this
      cases this) h2 (fun ty hty => by rw [h3 ty hty]; simp [outs]) (fun x hx name k => by
      obtain ⟨w, k1, k2⟩ := List.mem_flatMap.1 hx
      obtain ⟨q, k3, rfl⟩ := List.mem_map.1 k2
      exact noCont_written hse (fun w j => ⟨(hw w j).1.toFine, (hw w j).2⟩) (hq ⟨w, k1, query_deep k3 k⟩) h1)
    ((codes "?xml").flatMap e.print) [] (docAttrs e attrs) (bodyItems e d) (bodyItems_heads d) (tidy_marks ..)
  rw [← docItems_header hh] at h5
  obtain ⟨N', h7⟩ := C66_document (output := e) (em := em) (addr := addr) hde hd hl hm
  refine ⟨a, s, h1, h4, max N N', rss, fun m hm' => ?_, h6⟩
  obtain ⟨t, h8⟩ := h7 m (by omega)
  refine ⟨_, t, s', h8, ?_, ?_⟩
  · intro o ho
    obtain ⟨i, -, rfl⟩ := List.mem_map.1 ho
    rfl
  · rw [List.map_map]
    exact h5 m (by omega)

/-! ## What this means -/

/-- `/*/a` -/
def wildQuery : Query := ⟨[⟨⟨false, none⟩, []⟩, ⟨⟨false, some [97]⟩, []⟩], .element, 1⟩

/-- `//*[@b]`, `/*()`, `//*~`, `/*@version`, `/a/*[@b]/c` -/
def headQueries : List Query :=
  [wildQuery, ⟨[⟨⟨true, none⟩, [⟨some [98], none⟩]⟩], .element, 2⟩, ⟨[⟨⟨false, none⟩, []⟩], .content false, 3⟩,
    ⟨[⟨⟨true, none⟩, []⟩], .closeTag false, 4⟩, ⟨[⟨⟨false, none⟩, []⟩], .attribute false (some [98]), 5⟩,
    ⟨[⟨⟨false, some [97]⟩, []⟩, ⟨⟨true, none⟩, []⟩], .element, 6⟩]

/-- The items of `<?xml b="1"?><a><a b="2">t</a></a>` behind the header. -/
def headBody : List Item :=
  [(.OpenTag, [97]), (.OpenTag, [97]), (.TagAttribName, [98]), (.TagAttribValue, [50]), (.Content, [116]), (.CloseTag, [97]),
    (.CloseTag, [97]), (.Exit, [])]

/-- C84 (negation): that a document is selected in like without its header does not hold. `/*/a` is meant for the
elements `a` in the root element; with a header also the root element `a` is selected. -/
theorem C84_header_false :
    Selects .utf8 2000 [wildQuery.calls] (headerItems headerName [] [] ++ [(.OpenTag, [97]), (.CloseTag, [97])]) [[], [], [1], []] ∧
    Selects .utf8 2000 [wildQuery.calls] [(.OpenTag, [97]), (.CloseTag, [97])] [[], []] :=
  ⟨selects_of_run 100 (by decide +kernel), selects_of_run 100 (by decide +kernel)⟩

theorem headQueries_ok : ∀ x ∈ headQueries, x.Ok .utf8 := by
  have ha := exName.1
  have hb := exName.2
  intro x hx
  simp only [headQueries, wildQuery, List.mem_cons, List.not_mem_nil, or_false] at hx
  rcases hx with rfl | rfl | rfl | rfl | rfl | rfl <;>
    exact ⟨by simp, by simp [ha, hb], by simp [hb]⟩

theorem headQueries_root : (∀ x ∈ headQueries, x.steps = [] → ∀ name, x.final ≠ .attribute false name) ∧ Quiet headQueries := by
  refine ⟨fun x hx => ?_, fun ⟨x, hx, name, h⟩ => ?_⟩
  all_goals
    simp only [headQueries, wildQuery, List.mem_cons, List.not_mem_nil, or_false] at hx
    rcases hx with rfl | rfl | rfl | rfl | rfl | rfl <;> first | exact (nomatch h) | simp

example : ∃ rss, Selects .utf8 2000 (headQueries.map Query.calls) (headerItems headerName [([98], [49])] [] ++ headBody) rss ∧
    [1, 2, 3, 4, 5, 6].map (fun ty : Int => rss.map (·.count ty)) =
      [[0, 0, 0, 0, 1, 1, 0, 0, 0, 0, 0, 0], [0, 0, 1, 0, 0, 0, 0, 1, 0, 0, 0, 0], [0, 0, 0, 0, 0, 0, 0, 0, 0, 0, 0, 0],
        [0, 0, 0, 1, 0, 0, 0, 0, 0, 1, 1, 0], [0, 0, 1, 0, 0, 0, 0, 0, 0, 0, 0, 0], [0, 0, 0, 0, 0, 1, 0, 0, 0, 0, 0, 0]] := by
  obtain ⟨rss, h1, h2⟩ := C84_queries (e := .utf8) (.inl rfl) (n := 2000) (by omega) headQueries headQueries_ok
    headQueries_root.1 headQueries_root.2 headerName [] [([98], [49])] headBody
    (by unfold Heads; decide) (by simp [headBody, Tidy, after])
  refine ⟨rss, h1, ?_⟩
  simp only [List.map_cons, List.map_nil]
  rw [h2 1 (by decide), h2 2 (by decide), h2 3 (by decide), h2 4 (by decide), h2 5 (by decide), h2 6 (by decide)]
  decide +kernel

/-- `//@b` and `/*//@b`: the attribute of the header is reported as if the header was an element before the document. -/
example : ∃ rss, Selects .utf8 2000 ([⟨[], .attribute true (some [98]), 1⟩, ⟨[⟨⟨false, none⟩, []⟩], .attribute true (some [98]), 2⟩].map Query.calls)
      (headerItems headerName [([98], [49])] [] ++ headBody) rss ∧
    [1, 2].map (fun ty : Int => rss.map (·.count ty)) = [[0, 0, 1, 0, 0, 0, 0, 1, 0, 0, 0, 0], [0, 0, 1, 0, 0, 0, 0, 2, 0, 0, 0, 0]] := by
  have hb := exName.2
  obtain ⟨rss, h1, h2⟩ := C84_queries (e := .utf8) (.inl rfl) (n := 2000) (by omega)
    [⟨[], .attribute true (some [98]), 1⟩, ⟨[⟨⟨false, none⟩, []⟩], .attribute true (some [98]), 2⟩] (fun x hx => by
      simp only [List.mem_cons, List.not_mem_nil, or_false] at hx
      rcases hx with rfl | rfl <;> exact ⟨by simp, by simp, by simp [hb]⟩)
    (by simp) (fun _ => by simp) headerName [] [([98], [49])] headBody (by unfold Heads; decide) (by simp [headBody, Tidy, after])
  refine ⟨rss, h1, ?_⟩
  simp only [List.map_cons, List.map_nil] at h2 ⊢
  rw [h2 1 (by decide), h2 2 (by decide)]
  decide +kernel

/-- `/*/a` as text. -/
def wildWritten : Written :=
  ⟨⟨[⟨some false, some .any, []⟩, ⟨some false, some (.one [97]), []⟩], .nothing⟩, codes "/*/a", 1⟩

theorem wildWritten_ok : ∀ w ∈ [wildWritten], w.Ok .utf8 .utf8 ∧ w.codes.length < 2000 := by
  have nil : Blanks [] := by simp [Blanks]
  have ida : Identifier [97] := ⟨by simp, by simp [IdChar]; decide⟩
  have colon : ∀ bs : List Byte, 58 ∉ bs → ∀ i : Nat, ¬ (bs[i]? = some 58 ∧ bs[i + 1]? = some 58) :=
    fun bs h i k => h (List.mem_of_getElem? k.1)
  intro w hw
  rw [List.mem_singleton] at hw
  subst hw
  have ht : wildWritten.path.Text wildWritten.codes :=
    ⟨[47], [], _, rfl, nil, rfl, [42], [], _, rfl, nil, rfl, [47], [], _, rfl, nil, rfl, [97], [], _, rfl, nil, rfl, rfl⟩
  refine ⟨⟨⟨?_, ht, by simp only [Direct]; decide, colon _ (by decide), by decide, by simp [wildWritten], ?_, ?_, by simp [wildWritten], by simp [wildWritten]⟩, ?_⟩, by decide⟩
  · simp only [TPath.Ok, TStep.Ok, TEnd.Ok, wildWritten, List.mem_cons, List.not_mem_nil, or_false, forall_eq_or_imp, forall_eq, Option.some.injEq,
      forall_eq', false_implies, implies_true, and_true]
    simp [ida, TName.Ok]
  · simp only [Direct]
    decide
  · simp only [Direct]
    decide
  · simp [wildWritten, Written.conds, TEnd.Unnumbered]

/-- With the example document, whose root element is `a`, in UTF-16. -/
example : ∃ a s, addAll .utf8 .utf8 2000 [(1, ascii "/*/a")] [] = (.ok [0], a) ∧ Sel.mk' a = .ok s ∧
    ∃ N rss, (∀ m, N ≤ m → ∃ obs t s', session m false (List.replicate 23 (0xFFFFF, true))
        (oneScanner (.utf16 true) .utf8 none 0 (grammarExample.bytes (.utf16 true))) = (.ok obs, t) ∧
      (∀ o ∈ obs, o.error = .Ok) ∧ Sel.feed m (obs.map fun o => (o.type, o.item)) s = (.ok rss, s')) ∧
      rss.map (·.count 1) = [0, 0, 0, 0, 0, 0, 0, 0, 0, 0, 0, 1, 0, 0, 0, 0, 0, 0, 0, 0, 0, 0, 0] := by
  obtain ⟨a, s, h1, h2, N, rss, h3, h4⟩ := C84_texts (se := .utf8) (e := .utf8) (de := .utf16 true) (fun p h => nomatch h) (.inl rfl)
    (fun p h => nomatch h) (n := 2000) wildWritten_ok
    (grammarExample_ok (fun p h => nomatch h) (by simp [Direct])) rfl (by simp [wildWritten])
    (by rintro ⟨w, hw, nm, h⟩; rw [List.mem_singleton.1 hw] at h; cases h) (em := none) (addr := 0) (calls := List.replicate 23 (0xFFFFF, true))
    (by rw [grammarExample_items]; rfl) (by
      intro x hx t
      rw [(List.mem_replicate.1 hx).2]
      cases t <;> decide)
  refine ⟨a, s, h1, h2, N, rss, h3, ?_⟩
  rw [h4 1 (by decide)]
  have hq : [wildWritten].flatMap (Written.queries .utf8) = [wildQuery] := by decide
  rw [hq]
  decide +kernel

end TW
