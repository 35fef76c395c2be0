import Verif.Proofs.PathNames
import Verif.Proofs.PathFuel

/-!
# Properties C42, C43, C44, C73: selection of paths
-/

namespace TW

open Spec Spec.Path TW.Path

theorem name_self {e : Enc} (he : ByteSet e) {n : Nat} (hn : 1024 < n) {name : Option (List Byte)}
    (h : ∀ nm, name = some nm → Name e nm) : SelfKey e n name := by
  intro nm hnm
  obtain ⟨h1, h2, cs, rfl, h4⟩ := h nm hnm
  have hp : PageOk e := by
    rintro p rfl
    rcases he with h | ⟨q, h, h'⟩
    · cases h
    · cases h; exact h'
  refine ⟨nameKey_self hp ?_ (fun c hc => ?_) h2 ?_, h1⟩
  · rcases he with h | ⟨q, h, -⟩
    · exact .inl h
    · exact .inr ⟨q, h⟩
  · obtain ⟨k1, k2, k3, k4⟩ := h4 c hc
    exact ⟨k1, k2, k3, k4⟩
  · have : ∀ cs : List UChar, (∀ c ∈ cs, 1 ≤ (e.print c).length) → cs.length ≤ (cs.flatMap e.print).length := by
      intro cs
      induction cs with
      | nil => simp
      | cons c cs ih =>
        intro h
        have h1 := h c (List.mem_cons_self ..)
        have h2 := ih fun c hc => h c (List.mem_cons_of_mem _ hc)
        simp only [List.flatMap_cons, List.length_append, List.length_cons]
        omega
    have := this cs fun c hc => print_ne hp (h4 c hc).1 (h4 c hc).2.1
    omega

theorem HeaderFree.mono {xs ys : List (List Step)} (h : ∀ y ∈ ys, y ∈ xs) {items : List Item} :
    ∀ {path}, HeaderFree xs path items → HeaderFree ys path items := by
  induction items with
  | nil => intro _ _; trivial
  | cons it items ih => intro path k; exact ⟨fun k1 ss k2 => k.1 k1 ss (h ss k2), ih k.2⟩

theorem queries_map (xs : List Query) : queries (xs.map .query) = xs := by
  induction xs with
  | nil => rfl
  | cons x xs ih => simp [queries, ih]

/-- Queries for something else do not call for contents. -/
theorem content_calls {x : Query} (h : ∀ d, x.final ≠ .content d) : PElem.Call.content ∉ x.calls := by
  intro hm
  unfold Query.calls at hm
  simp only [List.mem_append, List.mem_flatMap, List.mem_singleton] at hm
  have fol : ∀ d : Bool, PElem.Call.content ∉ (if d then [PElem.Call.follow] else []) := by intro d; cases d <;> simp
  rcases hm with (⟨s, -, hm⟩ | hm) | hm
  · unfold CStep.calls at hm
    simp only [List.mem_append, List.mem_map, List.mem_singleton] at hm
    rcases hm with (hm | hm) | ⟨c, -, hm⟩
    · exact fol _ hm
    · cases hm
    · cases hm
  · unfold Final.calls at hm
    split at hm
    · cases hm
    · rename_i d hd
      exact h d hd
    · rcases List.mem_append.1 hm with hm | hm
      · exact fol _ hm
      · simp at hm
    · rcases List.mem_append.1 hm with hm | hm
      · exact fol _ hm
      · simp at hm
  · cases hm

/-- C73 (partial): an automaton of queries reports at each item of a stream each of the types as often as the queries with this
type have to be answered at the item: the queries for elements at their open tags, or at the values of the attributes fulfilling the
last conditions; those for contents at the contents of the elements, those for close tags at the close tags of the elements (or also
of the elements in them), those for attributes at the values of the attributes of the
elements with this name (or also of the elements in them); each one as often as its steps can be matched and the conditions fulfilled, and
never elsewhere.

Missing: attributes of the elements in the elements found (`steps//@name`) if contents are asked for by any query, see
`C73_descendant_attribute_false`; attributes asked for without steps (`//@name`) if the header has attributes, see
`C73_header_attribute_false`; a first step `/*` or `//*` also matches the header `<?xml`, see `C43_header_false`; conditions have to be
fulfilled in their order, see `C75_order_false`. With queries for attributes or close tags and with conditions the names and values of
attributes and the end of the header have to come in the order the scanner emits them, without them any stream is accepted. -/
theorem C73_queries_partial {e : Enc} (he : ByteSet e) {n : Nat} (hn : 1024 < n) (xs : List Query)
    (hx : ∀ x ∈ xs, x.Ok e) (items : List Item) (hh : HeaderFree (xs.map (·.tags)) [] items)
    (ht : (∃ x ∈ xs, x.placed) → Tidy [] none items) (hq : Quiet xs) (ho : Outside xs items) :
    ∃ rss, Selects e n (xs.map Query.calls) items rss ∧
      ∀ ty, ty ≠ 0 → rss.map (·.count ty) = answers xs ty [] none items := by
  have hd : ∀ ty, ∀ d ∈ xs.map Def.query, DefOk False e n ty d := by
    intro ty d hd
    obtain ⟨x, h1, rfl⟩ := List.mem_map.1 hd
    exact ⟨fun s hs => ⟨name_self he hn ((hx x h1).names s hs).1, fun c hc =>
      ⟨name_self he hn (((hx x h1).names s hs).2 c hc).1, (name_self he hn (((hx x h1).names s hs).2 c hc).2).value fun _ h => h⟩⟩, fun d name hf =>
      name_self he hn ((hx x h1).attr d name hf)⟩
  have main := fun (ty : Int) (hty : ty ≠ 0) => select_spec (e := e) (n := n) (xs.map .query) hty (hd ty)
    (by rw [queries_map]; exact fun x h _ => (hx x h).root)
    (by
      rw [queries_map]
      intro x h1 _ name h2 d hd
      obtain ⟨y, h3, rfl⟩ := List.mem_map.1 hd
      exact content_calls (hq ⟨x, h1, name, h2⟩ y h3)) items
    (by
      rw [queries_map]
      refine HeaderFree.mono (fun y hy => ?_) hh
      obtain ⟨x, k1, rfl⟩ := List.mem_map.1 hy
      exact List.mem_map.2 ⟨x, (List.mem_filter.1 k1).1, rfl⟩)
    (by rw [queries_map]; exact fun x h1 _ h2 => ht ⟨x, h1, h2⟩)
    (by rw [queries_map]; exact fun x h1 _ h2 d name h3 => ho ⟨x, h1, h2, d, name, h3⟩)
  have hc : (xs.map Def.query).map Def.calls = xs.map Query.calls := by simp [Def.calls]
  simp only [queries_map, hc] at main
  obtain ⟨a, s, h1, h2, N, rss, s', h3, h4⟩ := main 1 (by decide)
  refine ⟨rss, ⟨a, s, h1, h2, N, s', h3⟩, fun ty hty => ?_⟩
  obtain ⟨a', s1, k1, k2, N', rss', s2, k3, k4⟩ := main ty hty
  rw [h1] at k1
  cases k1
  rw [h2] at k2
  cases k2
  have := h3 (max N N') (by omega)
  rw [k3 (max N N') (by omega)] at this
  cases this
  exact k4

/-- The query for the elements of an expression. -/
def elementQuery (x : Expr) : Query := { steps := x.steps.map fun s => ⟨s, []⟩, final := .element, type := x.type }

theorem routes_ways (ss : List Step) : ∀ p : List Open, routes (ss.map fun s => ⟨s, []⟩) p = ways ss (p.map (·.name)) := by
  intro p
  induction p generalizing ss with
  | nil => cases ss <;> rfl
  | cons x p ih =>
    cases ss with
    | nil => rfl
    | cons s ss =>
      have h1 := ih (s :: ss)
      simp only [List.map_cons] at h1
      simp only [List.map_cons, routes, ways, ih ss, h1, choices_nil, Nat.one_mul]

theorem answers_elements (xs : List Expr) (ty : Int) (items : List Item) : ∀ path prev,
    answers (xs.map elementQuery) ty path prev items = expected xs ty (path.map (·.name)) items := by
  induction items with
  | nil => intro _ _; rfl
  | cons it items ih =>
    intro path prev
    unfold answers expected
    rw [ih, grown_names]
    congr 1
    rw [List.filter_map, List.map_map]
    by_cases h : it.1 = .OpenTag
    · rw [if_pos h]
      congr 1
      apply List.map_congr_left
      intro x _
      obtain ⟨type, key⟩ := it
      cases h
      show routes (x.steps.map fun s => ⟨s, []⟩) (path ++ [⟨key, []⟩]) = _
      rw [routes_ways]
      simp
    · rw [if_neg h]
      have : ∀ l : List Expr, (l.map ((fun x : Query => x.answers path prev it) ∘ elementQuery)).sum = 0 := by
        intro l
        induction l with
        | nil => rfl
        | cons x l ih =>
          simp only [List.map_cons, List.sum_cons, ih, Nat.add_zero, Function.comp]
          unfold Query.answers elementQuery
          simp only []
          split
          · rename_i k; exact (h k).elim
          · rename_i k
            rw [routes_ways, routes_ways, grown_names]
            obtain ⟨type, key⟩ := it
            cases k
            exact Nat.sub_self _
          · rfl
      exact this _

/-- C43 (partial): an automaton of expressions of child, descendant and wildcard steps reports at an open tag each of the types
as often as the steps of the expressions with this type can be matched against the tag names from the root, and
at other items never. Any stream of items is accepted, well nested or not.

Missing: a first step `/*` or `//*` also matches the header `<?xml`, see `C43_header_false`; here no first step accepts the
name of a header of the stream. -/
theorem C43_descendants_partial {e : Enc} (he : ByteSet e) {n : Nat} (hn : 1024 < n) (xs : List Expr)
    (hx : ∀ x ∈ xs, x.steps ≠ [] ∧ ∀ s ∈ x.steps, ∀ nm, s.name = some nm → Name e nm) (items : List Item)
    (hh : HeaderFree (xs.map (·.steps)) [] items) :
    ∃ rss, Selects e n (xs.map Expr.calls) items rss ∧
      ∀ ty, ty ≠ 0 → rss.map (·.count ty) = expected xs ty [] items := by
  obtain ⟨rss, h1, h2⟩ := C73_queries_partial he hn (xs.map elementQuery) (by
      intro y hy
      obtain ⟨x, k1, rfl⟩ := List.mem_map.1 hy
      refine ⟨fun k => absurd (List.map_eq_nil_iff.1 k) (hx x k1).1, fun s hs => ?_, fun _ _ k => nomatch k⟩
      obtain ⟨s0, k2, rfl⟩ := List.mem_map.1 hs
      exact ⟨(hx x k1).2 s0 k2, fun c hc => nomatch hc⟩) items (by
      have : (xs.map elementQuery).map (·.tags) = xs.map (·.steps) := by
        rw [List.map_map]
        apply List.map_congr_left
        intro x _
        simp [Query.tags, elementQuery, Function.comp_def]
      rw [this]
      exact hh) (by
      rintro ⟨y, hy, k⟩
      obtain ⟨x, k3, rfl⟩ := List.mem_map.1 hy
      rcases k with ⟨s, k4, k5⟩ | ⟨d, name, k⟩ | ⟨d, k⟩
      · obtain ⟨s0, -, rfl⟩ := List.mem_map.1 k4
        exact (k5 rfl).elim
      · cases k
      · cases k) (by
      rintro ⟨y, hy, name, k⟩
      obtain ⟨x, -, rfl⟩ := List.mem_map.1 hy
      cases k) (by
      rintro ⟨y, hy, -, d, name, k⟩
      obtain ⟨x, -, rfl⟩ := List.mem_map.1 hy
      cases k)
  refine ⟨rss, ?_, fun ty hty => by rw [h2 ty hty, answers_elements]; rfl⟩
  have : (xs.map elementQuery).map Query.calls = xs.map Expr.calls := by
    rw [List.map_map]
    apply List.map_congr_left
    intro x _
    simp [Query.calls, Expr.calls, elementQuery, Final.calls, CStep.calls, List.flatMap_map]
  rw [← this]
  exact h1

/-- `//a/b`, `/*//b` -/
def exExprs : List Expr := [⟨[⟨true, some [97]⟩, ⟨false, some [98]⟩], 1⟩, ⟨[⟨false, none⟩, ⟨true, some [98]⟩], 2⟩]

theorem exName1 {c : UChar} (h : c < 128) (h0 : c ≠ 0) (h1 : isTagC (controlCharMap c) = true) : Name .utf8 [c] := by
  refine ⟨by simp, by simp, [c], ?_, fun d hd => ?_⟩
  · have : Enc.print .utf8 c = [c] := by
      simp only [Enc.print, Enc.utf8Print]
      rw [if_pos (by omega)]
    simp [this]
  · rw [List.mem_singleton] at hd
    subst hd
    exact ⟨by omega, by simp only [Direct]; omega, h0, by rw [if_pos h]; exact h1⟩

theorem exName : Name .utf8 [97] ∧ Name .utf8 [98] :=
  ⟨exName1 (by decide) (by decide) (by decide), exName1 (by decide) (by decide) (by decide)⟩

example : (∀ x ∈ exExprs, x.steps ≠ [] ∧ ∀ s ∈ x.steps, ∀ nm, s.name = some nm → Name .utf8 nm) ∧
    HeaderFree ([⟨[⟨true, some [97]⟩, ⟨false, none⟩], 1⟩].map Expr.steps) [] [(.HeaderStart, headerName), (.HeaderEnd, []), (.OpenTag, [97])] ∧
    expected exExprs 2 [] [(.OpenTag, [97]), (.OpenTag, [98]), (.Content, [120]), (.CloseTag, [98]), (.CloseTag, [97])]
      = [0, 1, 0, 0, 0] := by
  refine ⟨?_, ?_, by decide⟩
  rotate_left
  · refine ⟨fun _ ss hss i s h1 h2 => ⟨rfl, ?_⟩, by simp [HeaderFree]⟩
    simp only [List.map_cons, List.map_nil, List.mem_singleton] at hss
    subst hss
    cases i with
    | zero => cases h1; revert h2; decide
    | succ i => omega
  intro x hx
  simp only [exExprs, List.mem_cons, List.not_mem_nil, or_false] at hx
  rcases hx with rfl | rfl
  · refine ⟨by decide, ?_⟩
    intro s hs nm h
    simp only [List.mem_cons, List.not_mem_nil, or_false] at hs
    rcases hs with rfl | rfl <;> cases h
    · exact exName.1
    · exact exName.2
  · refine ⟨by decide, ?_⟩
    intro s hs nm h
    simp only [List.mem_cons, List.not_mem_nil, or_false] at hs
    rcases hs with rfl | rfl <;> cases h
    exact exName.2

/-- C43 is false with headers: `/*` is reported at the header of a document, which is no open tag. -/
theorem C43_header_false : Selects .utf8 2000 [Expr.calls ⟨[⟨false, none⟩], 1⟩] [(.HeaderStart, headerName), (.HeaderEnd, [])] [[1], []] ∧
    expected [⟨[⟨false, none⟩], 1⟩] 1 [] [(.HeaderStart, headerName), (.HeaderEnd, [])] = [0, 0] :=
  ⟨selects_of_run 100 (by decide +kernel), by decide⟩

theorem ways_names (p : List (List Byte)) : ∀ q, ways (p.map fun n => ⟨false, some n⟩) q = if p = q then 1 else 0 := by
  induction p with
  | nil => intro q; cases q <;> simp [ways]
  | cons n p ih =>
    intro q
    cases q with
    | nil => simp [ways]
    | cons m q =>
      simp only [List.map_cons, ways, Step.accepts, ih, Bool.false_eq_true, if_false, Nat.add_zero, decide_eq_true_eq]
      by_cases h : n = m
      · subst h; simp
      · simp [h]

theorem sum_absolute (ps : List (List (List Byte) × Int)) (hn : ps.Nodup) (ty : Int) (q : List (List Byte)) :
    (((ps.map absolute).filter (·.type = ty)).map fun x => ways x.steps q).sum = if (q, ty) ∈ ps then 1 else 0 := by
  induction ps with
  | nil => simp
  | cons p ps ih =>
    rw [List.nodup_cons] at hn
    have ih := ih hn.2
    rw [List.map_cons, List.filter_cons]
    by_cases h : p.2 = ty
    · have h1 : decide ((absolute p).type = ty) = true := decide_eq_true h
      rw [if_pos h1, List.map_cons, List.sum_cons, ih]
      have h2 : ways (absolute p).steps q = if p.1 = q then 1 else 0 := ways_names p.1 q
      rw [h2]
      by_cases h3 : p.1 = q
      · have h4 : (q, ty) = p := by rw [← h, ← h3]
        rw [if_pos h3, h4, if_neg hn.1, if_pos (List.mem_cons_self ..)]
      · have h4 : (q, ty) ≠ p := fun h5 => h3 (by rw [← h5])
        simp [h3, List.mem_cons, h4]
    · have h1 : ¬ decide ((absolute p).type = ty) = true := fun k => h (of_decide_eq_true k)
      have h4 : (q, ty) ≠ p := fun h5 => h (by rw [← h5])
      rw [if_neg h1, ih]
      simp [List.mem_cons, h4]

theorem expected_absolute (ps : List (List (List Byte) × Int)) (hn : ps.Nodup) (ty : Int) (items : List Item) :
    ∀ path, expected (ps.map absolute) ty path items =
      (opened path items).map fun o => if ∃ q, o = some q ∧ (q, ty) ∈ ps then 1 else 0 := by
  induction items with
  | nil => intro path; rfl
  | cons it items ih =>
    intro path
    rw [expected, opened, List.map_cons, ih]
    congr 1
    by_cases h : it.1 = .OpenTag
    · rw [if_pos h, if_pos h, sum_absolute ps hn]
      simp
    · rw [if_neg h, if_neg h]
      simp

/-- No name of a path is that of the header: it starts with a question mark. -/
theorem name_header {e : Enc} (he : ByteSet e) {nm : List Byte} (h : Name e nm) : nm ≠ headerName := by
  have hp : PageOk e := by
    rintro p rfl
    rcases he with h | ⟨q, h, h'⟩
    · cases h
    · cases h; exact h'
  obtain ⟨h1, -, cs, h3, h4⟩ := h
  cases cs with
  | nil => exact (h1 h3).elim
  | cons c cs =>
    intro hn
    obtain ⟨k1, k2, k3, k4⟩ := h4 c (List.mem_cons_self ..)
    have hb : (e.print c).head? = some 63 := by
      have h5 : (e.print c ++ cs.flatMap e.print).head? = some 63 := by
        have : nm.head? = some 63 := by rw [hn]; rfl
        rw [h3] at this
        exact this
      have h6 := print_ne hp k1 k2
      cases h7 : e.print c with
      | nil => rw [h7] at h6; exact absurd h6 (by simp)
      | cons b bs => rw [h7] at h5; exact h5
    have hc : c = 63 := by
      have ha := direct_asc e hp c k1 k3 k2 (strm (e.print c)) 0 (At_strm _)
      rw [List.head?_eq_getElem?] at hb
      have hu : uasc e (strm (e.print c)) 0 = 63 := by
        rcases he with rfl | ⟨p, rfl, -⟩
        · simp [uasc, strm, hb]
        · simp [uasc, strm, hb]
      rw [hu] at ha
      split at ha
      · exact ha.symm
      · cases ha
    rw [hc] at k4
    exact absurd k4 (by decide)

/-- C42: with a set of paths `/t1/../tn`, each assigned to a type, a type is reported once at the open tags
whose path of tag names from the root is one assigned to the type, and at no other item. Any stream of
items is accepted, well nested or not, if its headers have the name the scanner gives to them. -/
theorem C42_absolute {e : Enc} (he : ByteSet e) {n : Nat} (hn : 1024 < n) (ps : List (List (List Byte) × Int))
    (hu : ps.Nodup) (hp : ∀ p ∈ ps, p.1 ≠ [] ∧ ∀ nm ∈ p.1, Name e nm) (items : List Item)
    (hh : HeaderNames items) :
    ∃ rss, Selects e n (ps.map fun p => (absolute p).calls) items rss ∧
      ∀ ty, ty ≠ 0 → rss.map (·.count ty) =
        (opened [] items).map fun o => if ∃ q, o = some q ∧ (q, ty) ∈ ps then 1 else 0 := by
  obtain ⟨rss, h1, h2⟩ := C43_descendants_partial he hn (ps.map absolute) (fun x hx => by
      obtain ⟨p, k1, rfl⟩ := List.mem_map.1 hx
      refine ⟨by simpa [absolute] using (hp p k1).1, fun s hs nm k2 => ?_⟩
      obtain ⟨m, k3, rfl⟩ := List.mem_map.1 hs
      cases k2
      exact (hp p k1).2 _ k3) items (by
      have : ∀ (items : List Item) path, HeaderNames items → HeaderFree ((ps.map absolute).map (·.steps)) path items := by
        intro items
        induction items with
        | nil => intro _ _; trivial
        | cons it items ih =>
          intro path hh
          refine ⟨fun k1 ss hss i s k2 k3 => ?_, ih _ fun it hit => hh it (List.mem_cons_of_mem _ hit)⟩
          obtain ⟨x, hx, rfl⟩ := List.mem_map.1 hss
          obtain ⟨p, k4, rfl⟩ := List.mem_map.1 hx
          obtain ⟨m, k5, rfl⟩ := List.mem_map.1 (List.mem_of_getElem? k2)
          rw [hh it (List.mem_cons_self ..) k1] at k3
          exact absurd (by simpa [Step.accepts] using k3) (name_header he ((hp p k4).2 m k5))
      exact this items [] hh)
  refine ⟨rss, by simpa [Function.comp_def] using h1, fun ty hty => ?_⟩
  rw [h2 ty hty, expected_absolute ps hu]

/-- `/a/b`, `/a` and a stream with the two -/
example : (∀ p ∈ [([[97], [98]], (1 : Int)), ([[97]], 2)], p.1 ≠ [] ∧ ∀ nm ∈ p.1, Name .utf8 nm) ∧
    opened [] [(.OpenTag, [97]), (.OpenTag, [98]), (.CloseTag, [98]), (.CloseTag, [97])]
      = [some [[97]], some [[97], [98]], none, none] := by
  refine ⟨?_, by decide⟩
  intro p hp
  simp only [List.mem_cons, List.not_mem_nil, or_false] at hp
  rcases hp with rfl | rfl
  · refine ⟨by decide, fun nm hnm => ?_⟩
    simp only [List.mem_cons, List.not_mem_nil, or_false] at hnm
    rcases hnm with rfl | rfl
    · exact exName.1
    · exact exName.2
  · refine ⟨by decide, fun nm hnm => ?_⟩
    simp only [List.mem_cons, List.not_mem_nil, or_false] at hnm
    subst hnm
    exact exName.1

/-- C44 (partial): adding any definition `d` - with attributes, contents, ranges, conditions - that does not assign the type `ty`
to an automaton, at any place, does not change how often `ty` is reported, where the other expressions assigned
to `ty` are queries for elements, for contents, for attributes or for close tags of elements, with conditions for attributes; the others can be any.
With queries for attributes of all the elements in others (`//@name`) nothing may ask for contents.

`E` tells if there are conditions with an empty value; then all the conditions have to have a value.

Missing: with contents asked for, the reports of `//@name` do change, see `C44_false`; and so they do for conditions with an empty value
besides those with any value, see `C44_empty_false`, and for empty names. -/
theorem C44_independent_partial {e : Enc} {n : Nat} (E : Prop) (ds1 ds2 : List Def) (d : List PElem.Call) {ty : Int} (hty : ty ≠ 0)
    (h : ∀ x ∈ ds1 ++ ds2, DefOk E e n ty x) (hd : .assign ty ∉ d ∧ ∀ c ∈ d, NamesOk E e n c)
    (hne : ∀ x ∈ queries (ds1 ++ ds2), x.type = ty → x.steps = [] → (∃ d, x.final = .content d) ∨ ∃ d name, x.final = .attribute d name)
    (hq : (∃ x ∈ queries (ds1 ++ ds2), x.type = ty ∧ ∃ name, x.final = .attribute true name) →
      PElem.Call.content ∉ d ∧ ∀ x ∈ ds1 ++ ds2, PElem.Call.content ∉ x.calls) (items : List Item)
    (hh : HeaderFree (((queries (ds1 ++ ds2)).filter (·.type = ty)).map (·.tags)) [] items)
    (ht : ∀ x ∈ queries (ds1 ++ ds2), x.type = ty → x.placed → Tidy [] none items)
    (ho : Outside ((queries (ds1 ++ ds2)).filter (·.type = ty)) items) :
    ∃ rss rss', Selects e n ((ds1 ++ ds2).map Def.calls) items rss ∧
      Selects e n (ds1.map Def.calls ++ [d] ++ ds2.map Def.calls) items rss' ∧
      rss.map (·.count ty) = rss'.map (·.count ty) := by
  have he : queries (ds1 ++ [Def.other d] ++ ds2) = queries (ds1 ++ ds2) := by
    clear h hne hh ht hq ho
    induction ds1 with
    | nil => rfl
    | cons x ds1 ih =>
      cases x with
      | query x => exact congrArg (x :: ·) ih
      | other cs => exact ih
  have ho' : ∀ x ∈ queries (ds1 ++ ds2), x.type = ty → x.steps = [] → ∀ d name, x.final = .attribute d name → ∀ it ∈ items, it.1 ≠ .HeaderAttribValue :=
    fun x m1 m2 m3 d name m4 => ho ⟨x, List.mem_filter.2 ⟨m1, by simpa using m2⟩, m3, d, name, m4⟩
  obtain ⟨a, s, h1, h2, N, rss, s', h3, h4⟩ := select_spec (ds1 ++ ds2) hty h hne
    (fun x m1 m2 name m3 => (hq ⟨x, m1, m2, name, m3⟩).2) items hh ht ho'
  obtain ⟨a', s1, k1, k2, N', rss', s1', k3, k4⟩ := select_spec (ds1 ++ [.other d] ++ ds2) hty (fun x hx => by
      rcases List.mem_append.1 hx with hx | hx
      · rcases List.mem_append.1 hx with hx | hx
        · exact h x (List.mem_append_left _ hx)
        · rw [List.mem_singleton] at hx
          subst hx
          exact hd
      · exact h x (List.mem_append_right _ hx)) (by rw [he]; exact hne) (by
      rw [he]
      intro x m1 m2 name m3 y hy
      obtain ⟨m4, m5⟩ := hq ⟨x, m1, m2, name, m3⟩
      rcases List.mem_append.1 hy with hy | hy
      · rcases List.mem_append.1 hy with hy | hy
        · exact m5 y (List.mem_append_left _ hy)
        · rw [List.mem_singleton] at hy
          subst hy
          exact m4
      · exact m5 y (List.mem_append_right _ hy)) items (by rw [he]; exact hh)
    (by rw [he]; exact ht) (by rw [he]; exact ho')
  refine ⟨rss, rss', ⟨a, s, h1, h2, N, s', h3⟩, ⟨a', s1, ?_, k2, N', s1', k3⟩, by rw [h4, k4, he]⟩
  simpa [Def.calls] using k1

/-- `//a[@a='b']//@b` stays as it is if `/b/@a` with an index is added. -/
example : (∀ x ∈ [Def.query ⟨[⟨⟨true, some [97]⟩, [⟨some [97], some [98]⟩]⟩], .attribute true (some [98]), 1⟩], DefOk False .utf8 2000 1 x) ∧
    (∀ x ∈ [Def.query ⟨[⟨⟨true, some [97]⟩, [⟨some [97], some [98]⟩]⟩], .attribute true (some [98]), 1⟩], PElem.Call.content ∉ x.calls) ∧
    PElem.Call.content ∉ [.tag (some [98]), .attribute (some [97]), .index 3, .assign 2] ∧
    (∀ c ∈ [.tag (some [98]), .attribute (some [97]), .index 3, .assign 2], NamesOk False .utf8 2000 c) ∧
    Tidy [] none [(.OpenTag, [97]), (.TagAttribName, [98]), (.TagAttribValue, [120]), (.CloseTagIm, [])] := by
  have ka := name_self (.inl rfl) (n := 2000) (by decide) (name := some [97]) (fun nm h => by cases h; exact exName.1)
  have kb := name_self (.inl rfl) (n := 2000) (by decide) (name := some [98]) (fun nm h => by cases h; exact exName.2)
  refine ⟨?_, by simp [Def.calls, Query.calls, CStep.calls, Final.calls], by decide, ?_, by simp [Tidy]⟩
  · intro x hx
    rw [List.mem_singleton] at hx
    subst hx
    refine ⟨?_, ?_⟩
    · intro s hs
      simp only [List.mem_singleton] at hs
      subst hs
      refine ⟨ka, fun c hc => ?_⟩
      rw [List.mem_singleton] at hc
      subst hc
      exact ⟨ka, kb.value fun h => nomatch h⟩
    · intro d name h
      cases h
      exact kb
  · intro c hc
    simp only [List.mem_cons, List.not_mem_nil, or_false] at hc
    rcases hc with rfl | rfl | rfl | rfl
    · exact kb.ok
    · exact ka.ok
    · trivial
    · trivial

/-- `//a[@a='']` stays as it is if `/b[@a='b']` is added. -/
example : (∀ x ∈ [Def.query ⟨[⟨⟨true, some [97]⟩, [⟨some [97], some []⟩]⟩], .element, 1⟩], DefOk True .utf8 2000 1 x) ∧
    (∀ c ∈ [.tag (some [98]), .ifAttribute (some [97]) (some [98]), .assign 2], NamesOk True .utf8 2000 c) := by
  have ka := name_self (.inl rfl) (n := 2000) (by decide) (name := some [97]) (fun nm h => by cases h; exact exName.1)
  have kb := name_self (.inl rfl) (n := 2000) (by decide) (name := some [98]) (fun nm h => by cases h; exact exName.2)
  refine ⟨?_, ?_⟩
  · intro x hx
    rw [List.mem_singleton] at hx
    subst hx
    refine ⟨fun s hs => ?_, fun d name h => nomatch h⟩
    simp only [List.mem_singleton] at hs
    subst hs
    refine ⟨ka, fun c hc => ?_⟩
    rw [List.mem_singleton] at hc
    subst hc
    exact ⟨ka, by decide +kernel, fun _ => trivial⟩
  · intro c hc
    simp only [List.mem_cons, List.not_mem_nil, or_false] at hc
    rcases hc with rfl | rfl | rfl
    · exact kb.ok
    · exact ⟨ka.ok, (kb.value fun h => nomatch h).ok⟩
    · trivial

/-- C44 is false: `//@x` is reported for an attribute in a document; after adding `//()` (any content), assigned to another
type, it is not any more, because the content in the document before stops the descendant search. -/
theorem C44_false :
    let doc : List Item := [(.OpenTag, [114]), (.Content, [120]), (.OpenTag, [98]), (.TagAttribName, [120]), (.TagAttribValue, [114]),
      (.CloseTag, [98]), (.CloseTag, [114])]
    Selects .utf8 2000 [[.follow, .attribute (some [120]), .assign 1]] doc [[], [], [], [], [1], [], []] ∧
    Selects .utf8 2000 [[.follow, .attribute (some [120]), .assign 1], [.follow, .content, .assign 2]] doc
      [[], [2], [], [], [], [], []] :=
  ⟨selects_of_run 100 (by decide +kernel), selects_of_run 100 (by decide +kernel)⟩

/-- C44 is false for values without a character: `/a` where any attribute has any value is reported alone, but after `/a[@b='']`, assigned to another
type, it is not any more, because the search for a step with any value finds the one with the value without a character. -/
theorem C44_empty_false :
    let doc : List Item := [(.OpenTag, [97]), (.TagAttribName, [98]), (.TagAttribValue, [120]), (.CloseTag, [97])]
    let any : List PElem.Call := [.tag (some [97]), .ifAttribute (some [98]) none, .assign 1]
    let empty : List PElem.Call := [.tag (some [97]), .ifAttribute (some [98]) (some []), .assign 2]
    Selects .utf8 2000 [any] doc [[], [], [1], []] ∧ Selects .utf8 2000 [any, empty] doc [[], [], [1], []] ∧
      Selects .utf8 2000 [empty, any] doc [[], [], [], []] :=
  ⟨selects_of_run 100 (by decide +kernel), selects_of_run 100 (by decide +kernel), selects_of_run 100 (by decide +kernel)⟩

/-- `/a//b/()`, `/a//()`, `//b/@a`, `//b[@a='a'][@b]`, `//b[@a='a']~` -/
def exQueries : List Query := [⟨[⟨⟨false, some [97]⟩, []⟩, ⟨⟨true, some [98]⟩, []⟩], .content false, 1⟩,
  ⟨[⟨⟨false, some [97]⟩, []⟩], .content true, 2⟩, ⟨[⟨⟨true, some [98]⟩, []⟩], .attribute false (some [97]), 3⟩,
  ⟨[⟨⟨true, some [98]⟩, [⟨some [97], some [97]⟩, ⟨some [98], none⟩]⟩], .element, 4⟩,
  ⟨[⟨⟨true, some [98]⟩, [⟨some [97], some [97]⟩]⟩], .closeTag false, 5⟩]

/-- `<a>x<b a='a' b='y'>z</b></a>` -/
def exStream : List Item := [(.OpenTag, [97]), (.Content, [120]), (.OpenTag, [98]), (.TagAttribName, [97]), (.TagAttribValue, [97]),
  (.TagAttribName, [98]), (.TagAttribValue, [121]), (.Content, [122]), (.CloseTag, [98]), (.CloseTag, [97])]

example : (∀ x ∈ exQueries, x.Ok .utf8) ∧ (∃ x ∈ exQueries, x.placed) ∧
    Tidy [] none exStream ∧ answers exQueries 1 [] none exStream = [0, 0, 0, 0, 0, 0, 0, 1, 0, 0] ∧
    answers exQueries 2 [] none exStream = [0, 1, 0, 0, 0, 0, 0, 1, 0, 0] ∧
    answers exQueries 3 [] none exStream = [0, 0, 0, 0, 1, 0, 0, 0, 0, 0] ∧
    answers exQueries 4 [] none exStream = [0, 0, 0, 0, 0, 0, 1, 0, 0, 0] ∧
    answers exQueries 5 [] none exStream = [0, 0, 0, 0, 0, 0, 0, 0, 1, 0] := by
  have na : ∀ nm, some [97] = some nm → Name .utf8 nm := fun nm h => by cases h; exact exName.1
  have nb : ∀ nm, some [98] = some nm → Name .utf8 nm := fun nm h => by cases h; exact exName.2
  refine ⟨?_, ⟨⟨[⟨⟨true, some [98]⟩, [⟨some [97], some [97]⟩]⟩], .closeTag false, 5⟩, by decide, .inr (.inr ⟨_, rfl⟩)⟩,
    by simp [Tidy, exStream, after], by decide, by decide, by decide, by decide, by decide⟩
  intro x hx
  simp only [exQueries, List.mem_cons, List.not_mem_nil, or_false] at hx
  rcases hx with rfl | rfl | rfl | rfl | rfl
  · refine ⟨(nomatch ·), ?_, fun _ _ k => nomatch k⟩
    intro s hs
    simp only [List.mem_cons, List.not_mem_nil, or_false] at hs
    rcases hs with rfl | rfl
    · exact ⟨na, fun c hc => nomatch hc⟩
    · exact ⟨nb, fun c hc => nomatch hc⟩
  · refine ⟨(nomatch ·), ?_, fun _ _ k => nomatch k⟩
    intro s hs
    simp only [List.mem_cons, List.not_mem_nil, or_false] at hs
    subst hs
    exact ⟨na, fun c hc => nomatch hc⟩
  · refine ⟨(nomatch ·), ?_, ?_⟩
    · intro s hs
      simp only [List.mem_cons, List.not_mem_nil, or_false] at hs
      subst hs
      exact ⟨nb, fun c hc => nomatch hc⟩
    · intro d name k
      cases k
      exact na
  · refine ⟨(nomatch ·), ?_, fun _ _ k => nomatch k⟩
    intro s hs
    simp only [List.mem_cons, List.not_mem_nil, or_false] at hs
    subst hs
    refine ⟨nb, fun c hc => ?_⟩
    simp only [List.mem_cons, List.not_mem_nil, or_false] at hc
    rcases hc with rfl | rfl
    · exact ⟨na, na⟩
    · exact ⟨nb, fun v h => nomatch h⟩
  · refine ⟨(nomatch ·), ?_, fun _ _ k => nomatch k⟩
    intro s hs
    simp only [List.mem_cons, List.not_mem_nil, or_false] at hs
    subst hs
    refine ⟨nb, fun c hc => ?_⟩
    simp only [List.mem_cons, List.not_mem_nil, or_false] at hc
    subst hc
    exact ⟨na, na⟩

/-- `//a//@b`, `//@a`, `//b`, `/b//@*` -/
def exDeep : List Query := [⟨[⟨⟨true, some [97]⟩, []⟩], .attribute true (some [98]), 1⟩, ⟨[], .attribute true (some [97]), 2⟩,
  ⟨[⟨⟨true, some [98]⟩, []⟩], .element, 3⟩, ⟨[⟨⟨false, some [98]⟩, []⟩], .attribute true none, 4⟩]

example : (∀ x ∈ exDeep, x.Ok .utf8) ∧ Quiet exDeep ∧ Outside exDeep exStream ∧ Tidy [] none exStream ∧
    answers exDeep 1 [] none exStream = [0, 0, 0, 0, 0, 0, 1, 0, 0, 0] ∧
    answers exDeep 2 [] none exStream = [0, 0, 0, 0, 1, 0, 0, 0, 0, 0] ∧
    answers exDeep 3 [] none exStream = [0, 0, 1, 0, 0, 0, 0, 0, 0, 0] ∧
    answers exDeep 4 [] none exStream = [0, 0, 0, 0, 0, 0, 0, 0, 0, 0] := by
  have na : ∀ nm, some [97] = some nm → Name .utf8 nm := fun nm h => by cases h; exact exName.1
  have nb : ∀ nm, some [98] = some nm → Name .utf8 nm := fun nm h => by cases h; exact exName.2
  refine ⟨?_, fun _ x hx d => ?_, fun _ => by decide, by simp [Tidy, exStream, after], by decide, by decide, by decide, by decide⟩
  · intro x hx
    simp only [exDeep, List.mem_cons, List.not_mem_nil, or_false] at hx
    have one : ∀ {s : CStep}, ∀ t ∈ [s], t = s := fun t ht => List.mem_singleton.1 ht
    rcases hx with rfl | rfl | rfl | rfl
    · exact ⟨(nomatch ·), fun s hs => by rw [one s hs]; exact ⟨na, fun c hc => nomatch hc⟩, fun d name k => by cases k; exact nb⟩
    · exact ⟨fun _ => .inr ⟨_, _, rfl⟩, fun s hs => (nomatch hs), fun d name k => by cases k; exact na⟩
    · exact ⟨(nomatch ·), fun s hs => by rw [one s hs]; exact ⟨nb, fun c hc => nomatch hc⟩, fun d name k => nomatch k⟩
    · exact ⟨(nomatch ·), fun s hs => by rw [one s hs]; exact ⟨nb, fun c hc => nomatch hc⟩, fun d name k nm hk => by cases k; cases hk⟩
  · simp only [exDeep, List.mem_cons, List.not_mem_nil, or_false] at hx
    rcases hx with rfl | rfl | rfl | rfl <;> exact fun h => nomatch h

/-- C73 is false for attributes asked for without steps: `/@a` and `//@a` are reported for an attribute `a` of the header. -/
theorem C73_header_attribute_false :
    let xs : List Query := [⟨[], .attribute false (some [97]), 1⟩, ⟨[], .attribute true (some [97]), 2⟩]
    let doc : List Item := [(.HeaderStart, headerName), (.HeaderAttribName, [97]), (.HeaderAttribValue, [98]), (.HeaderEnd, []),
      (.OpenTag, [98]), (.CloseTagIm, [])]
    Selects .utf8 2000 (xs.map Query.calls) doc [[], [], [1, 2], [], [], []] ∧
    answers xs 1 [] none doc = [0, 0, 0, 0, 0, 0] ∧ answers xs 2 [] none doc = [0, 0, 0, 0, 0, 0] ∧ Tidy [] none doc ∧ Quiet xs :=
  ⟨selects_of_run 100 (by decide +kernel), by decide, by decide, by simp [Tidy, after], fun _ x hx d => by
    simp only [List.mem_cons, List.not_mem_nil, or_false] at hx
    rcases hx with rfl | rfl <;> exact fun h => nomatch h⟩

/-- C73 is false for the attributes of the elements in the elements found: of `/a//@a` and `/a/()` with
`<a>x<b a='y'/></a>`, the first is not reported, because the content of `a` stops its search. -/
theorem C73_descendant_attribute_false :
    let xs : List Query := [⟨[⟨⟨false, some [97]⟩, []⟩], .attribute true (some [97]), 1⟩, ⟨[⟨⟨false, some [97]⟩, []⟩], .content false, 2⟩]
    let doc : List Item := [(.OpenTag, [97]), (.Content, [120]), (.OpenTag, [98]), (.TagAttribName, [97]), (.TagAttribValue, [121]),
      (.CloseTagIm, []), (.CloseTag, [97])]
    Selects .utf8 2000 (xs.map Query.calls) doc [[], [2], [], [], [], [], []] ∧
    answers xs 1 [] none doc = [0, 0, 0, 0, 1, 0, 0] ∧ Tidy [] none doc :=
  ⟨selects_of_run 100 (by decide +kernel), by decide, by simp [Tidy, after]⟩

end TW
