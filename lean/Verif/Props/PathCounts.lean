import Verif.Props.PathRanges

/-!
# Property C86: the contents are counted for every element on its own
-/

namespace TW

open Spec Spec.Path TW.Path

theorem content_ranged {x : Ranged} (h : ∀ d, x.query.final ≠ .content d) : PElem.Call.content ∉ x.calls := by
  intro hm
  have := content_calls h
  unfold Ranged.calls at hm
  unfold Query.calls at this
  simp only [List.mem_append, not_or] at hm this
  rcases hm with ((hm | hm) | hm) | hm
  · exact this.1.1 hm
  · exact this.1.2 hm
  · obtain ⟨r, -, hr⟩ := List.mem_map.1 hm
    cases r <;> cases hr
  · exact this.2 hm

/-- C86: an automaton of queries with ranges reports at each item of a stream each of the types as often as the queries with this
type have to be answered at the item. The contents are counted for every element reached by the steps on its own, beginning with its
open tag: those directly in it, or also those of the elements in it, if the query asks for them. The range decides by the number of
the contents that have come before in this element, for every way to every of the elements on its own, whatever other queries there are. The
values of attributes are not counted further than one, and elements and close tags are not counted. -/
theorem C86_counts {e : Enc} (he : ByteSet e) {n : Nat} (hn : 1024 < n) (xs : List Ranged)
    (hx : ∀ x ∈ xs, x.query.Ok e ∧ ∀ r ∈ x.ranges, r.Ok) (items : List Item) (hh : HeaderFree (xs.map (·.query.tags)) [] items)
    (ht : Tidy [] none items) (hq : Quiet (xs.map (·.query))) (ho : Outside (xs.map (·.query)) items) :
    ∃ rss, Selects e n (xs.map Ranged.calls) items rss ∧
      ∀ ty, ty ≠ 0 → rss.map (·.count ty) = rangedAnswers xs ty [] [(0, 0)] none items := by
  have hd : ∀ x ∈ xs, QueryOk False e n x.query := by
    intro x h1
    have hx := (hx x h1).1
    exact ⟨fun s hs => ⟨name_self he hn (hx.names s hs).1, fun c hc =>
      ⟨name_self he hn ((hx.names s hs).2 c hc).1, (name_self he hn ((hx.names s hs).2 c hc).2).value fun _ h => h⟩⟩, fun d name hf =>
      name_self he hn (hx.attr d name hf)⟩
  obtain ⟨a, lab, b1, b2, b3⟩ := build_ranged (e := e) (n := n) (a := []) (lab := []) xs
    ⟨ok_nil, fun _ _ h => by simp at h, .inl ⟨rfl, rfl, rfl, rfl⟩⟩ (fun x h => (hd x h).fits) (fun x h => (hx x h).2)
  have hk : xs.map (keyedRanged e n) = xs := by
    refine (List.map_congr_left (g := id) fun x h => ?_).trans (List.map_id _)
    unfold keyedRanged
    rw [(hd x h).keyed]
    rfl
  rw [hk] at b3
  have main := fun (ty : Int) (hty : ty ≠ 0) => select_ranged hty b2 (by rw [b3 ty hty]; simp [outs]) (fun x h => (hx x h).2)
    (fun x h _ => (hx x h).1.root) (fun x h _ name k => by
      have := (hush_build (e := e) (n := n) (defs := xs.map Ranged.calls) (fun cs hcs => by
        obtain ⟨y, k1, rfl⟩ := List.mem_map.1 hcs
        exact content_ranged (hq ⟨x.query, List.mem_map.2 ⟨x, h, rfl⟩, name, k⟩ y.query (List.mem_map.2 ⟨y, k1, rfl⟩))) [] (fun j st hj => by simp at hj)).1
      rw [b1] at this
      exact this) items (by
      refine HeaderFree.mono (fun y hy => ?_) hh
      obtain ⟨x, k1, rfl⟩ := List.mem_map.1 hy
      obtain ⟨x, k2, rfl⟩ := List.mem_map.1 (List.mem_filter.1 k1).1
      exact List.mem_map.2 ⟨x, k2, rfl⟩) ht
    (fun x h _ k1 d name k2 => ho ⟨x.query, List.mem_map.2 ⟨x, h, rfl⟩, k1, d, name, k2⟩)
  obtain ⟨s, h2, N, rss, s', h3, h4⟩ := main 1 (by decide)
  refine ⟨rss, ⟨a, s, b1, h2, N, s', h3⟩, fun ty hty => ?_⟩
  obtain ⟨s1, k2, N', rss', s2, k3, k4⟩ := main ty hty
  rw [h2] at k2
  cases k2
  have := h3 (max N N') (by omega)
  rw [k3 (max N N') (by omega)] at this
  cases this
  exact k4

/-- `//b()` with `INDEX(1)`, `//b//()` with `RANGE(3,5)`, `/a()` with `FROM(0)` and `FROM(2)`, `//b@a` with `TO(1)`, `//b` with `INDEX(7)` -/
def exRanged : List Ranged := [⟨⟨[⟨⟨true, some [98]⟩, []⟩], .content false, 1⟩, [.index 1]⟩,
  ⟨⟨[⟨⟨true, some [98]⟩, []⟩], .content true, 2⟩, [.range 3 5]⟩, ⟨⟨[⟨⟨false, some [97]⟩, []⟩], .content false, 3⟩, [.from 0, .from 2]⟩,
  ⟨⟨[⟨⟨true, some [98]⟩, []⟩], .attribute false (some [97]), 4⟩, [.to 1]⟩, ⟨⟨[⟨⟨true, some [98]⟩, []⟩], .element, 5⟩, [.index 7]⟩]

/-- `<a>1<b a='a'>2<b>3</b>4</b>5</a>` -/
def exCounted : List Item := [(.OpenTag, [97]), (.Content, [49]), (.OpenTag, [98]), (.TagAttribName, [97]), (.TagAttribValue, [97]),
  (.Content, [50]), (.OpenTag, [98]), (.Content, [51]), (.CloseTag, [98]), (.Content, [52]), (.CloseTag, [98]), (.Content, [53]),
  (.CloseTag, [97])]

example : (∀ x ∈ exRanged, x.query.Ok .utf8 ∧ ∀ r ∈ x.ranges, r.Ok) ∧ HeaderFree (exRanged.map (·.query.tags)) [] exCounted ∧ Tidy [] none exCounted ∧
    Quiet (exRanged.map (·.query)) ∧ Outside (exRanged.map (·.query)) exCounted ∧
    rangedAnswers exRanged 1 [] [(0, 0)] none exCounted = [0, 0, 0, 0, 0, 1, 0, 1, 0, 0, 0, 0, 0] ∧
    rangedAnswers exRanged 2 [] [(0, 0)] none exCounted = [0, 0, 0, 0, 0, 0, 0, 1, 0, 1, 0, 0, 0] ∧
    rangedAnswers exRanged 3 [] [(0, 0)] none exCounted = [0, 0, 0, 0, 0, 0, 0, 0, 0, 0, 0, 1, 0] ∧
    rangedAnswers exRanged 4 [] [(0, 0)] none exCounted = [0, 0, 0, 0, 1, 0, 0, 0, 0, 0, 0, 0, 0] ∧
    rangedAnswers exRanged 5 [] [(0, 0)] none exCounted = [0, 0, 1, 0, 0, 0, 1, 0, 0, 0, 0, 0, 0] := by
  have na : ∀ nm, some [97] = some nm → Name .utf8 nm := fun nm h => by cases h; exact exName.1
  have nb : ∀ nm, some [98] = some nm → Name .utf8 nm := fun nm h => by cases h; exact exName.2
  refine ⟨?_, by simp [HeaderFree, exCounted], by simp [Tidy, exCounted, after], fun h => ?_, fun _ => by decide, by decide, by decide, by decide, by decide, by decide⟩
  rotate_left
  · obtain ⟨x, hx, name, hf⟩ := h
    simp only [exRanged, List.map_cons, List.map_nil, List.mem_cons, List.not_mem_nil, or_false] at hx
    rcases hx with rfl | rfl | rfl | rfl | rfl <;> cases hf
  intro x hx
  refine ⟨?_, ?_⟩
  · simp only [exRanged, List.mem_cons, List.not_mem_nil, or_false] at hx
    rcases hx with rfl | rfl | rfl | rfl | rfl <;> refine ⟨(nomatch ·), ?_, ?_⟩
    all_goals first
      | (intro s hs
         simp only [List.mem_cons, List.not_mem_nil, or_false] at hs
         subst hs
         first | exact ⟨nb, fun c hc => nomatch hc⟩ | exact ⟨na, fun c hc => nomatch hc⟩)
      | (intro d name k
         cases k
         first | done | exact na)
  · intro r hr
    simp only [exRanged, List.mem_cons, List.not_mem_nil, or_false] at hx
    rcases hx with rfl | rfl | rfl | rfl | rfl <;> simp only [List.mem_cons, List.not_mem_nil, or_false] at hr <;> first | (subst hr; decide) | (rcases hr with rfl | rfl <;> decide)

/-- `/a//@a` with `TO(2)`, `//@a` with `FROM(1)` -/
def exDeepRanged : List Ranged := [⟨⟨[⟨⟨false, some [97]⟩, []⟩], .attribute true (some [97]), 1⟩, [.to 2]⟩, ⟨⟨[], .attribute true (some [97]), 2⟩, [.from 2]⟩]

example : (∀ x ∈ exDeepRanged, x.query.Ok .utf8 ∧ ∀ r ∈ x.ranges, r.Ok) ∧ Quiet (exDeepRanged.map (·.query)) ∧ Outside (exDeepRanged.map (·.query)) exCounted ∧
    rangedAnswers exDeepRanged 1 [] [(0, 0)] none exCounted = [0, 0, 0, 0, 1, 0, 0, 0, 0, 0, 0, 0, 0] ∧
    rangedAnswers exDeepRanged 2 [] [(0, 0)] none exCounted = [0, 0, 0, 0, 0, 0, 0, 0, 0, 0, 0, 0, 0] := by
  have na : ∀ nm, some [97] = some nm → Name .utf8 nm := fun nm h => by cases h; exact exName.1
  refine ⟨fun x hx => ?_, fun _ x hx d => ?_, fun _ => by decide, by decide, by decide⟩
  · simp only [exDeepRanged, List.mem_cons, List.not_mem_nil, or_false] at hx
    rcases hx with rfl | rfl
    · refine ⟨⟨(nomatch ·), fun s hs => ?_, fun d name k => by cases k; exact na⟩, by decide⟩
      rw [List.mem_singleton.1 hs]
      exact ⟨na, fun c hc => nomatch hc⟩
    · exact ⟨⟨fun _ => .inr ⟨_, _, rfl⟩, fun s hs => (nomatch hs), fun d name k => by cases k; exact na⟩, by decide⟩
  · simp only [exDeepRanged, List.map_cons, List.map_nil, List.mem_cons, List.not_mem_nil, or_false] at hx
    rcases hx with rfl | rfl <;> exact fun h => nomatch h

theorem routes_range (ss : List CStep) (path : List Open) :
    ((List.range path.length).map fun i => routes ss (path.take i)).sum = routes (ss ++ [⟨⟨true, none⟩, []⟩]) path := by
  have hb : ∀ path, sumBefore (fun l _ => routes ss l) path = routes (ss ++ [⟨⟨true, none⟩, []⟩]) path := by
    intro path
    rcases nil_or_snoc path with rfl | ⟨p, x, rfl⟩
    · cases ss <;> rfl
    · rw [routes_snoc, sumBefore_snoc]
      simp only [Step.accepts, if_true, choices_nil, Nat.one_mul]
      omega
  rw [← hb]
  have : ∀ (k : Nat) (path : List Open), path.length = k →
      ((List.range path.length).map fun i => routes ss (path.take i)).sum = sumBefore (fun l _ => routes ss l) path := by
    intro k
    induction k with
    | zero =>
      intro path h
      rw [List.length_eq_zero_iff.1 h]
      rfl
    | succ k ih =>
      intro path h
      rcases nil_or_snoc path with rfl | ⟨p, x, rfl⟩
      · cases h
      · have hl : p.length = k := by simpa using h
        rw [sumBefore_snoc, ← ih p hl, List.length_append, List.length_singleton, List.range_succ, List.map_append, List.sum_append_nat]
        congr 1
        · congr 1
          apply List.map_congr_left
          intro i hi
          rw [List.take_append_of_le_length (by have := List.mem_range.1 hi; omega)]
        · simp
  exact this _ path rfl

theorem counted_length {path : List Open} {sums : Sums} (h : sums.length = path.length + 1) (prev : Option Item) (it : Item) :
    (counted sums it).length = (grown path prev it).length + 1 := by
  have hg : (grown path prev it).length = (after (path.map (·.name)) it).length := by rw [← grown_names, List.length_map]
  rw [hg]
  obtain ⟨type, key⟩ := it
  obtain ⟨cs, c, rfl⟩ : ∃ cs c, sums = cs ++ [c] := by
    rcases nil_or_snoc sums with rfl | ⟨cs, c, rfl⟩
    · cases h
    · exact ⟨cs, c, rfl⟩
  have hl : cs.length = path.length := by simpa using h
  have close : (if (cs ++ [c]).length ≤ 1 then cs ++ [c] else (cs ++ [c]).dropLast).length = (path.map (·.name)).dropLast.length + 1 := by
    rw [List.length_dropLast, List.length_map, ← hl]
    cases cs with
    | nil => rfl
    | cons d cs => simp
  cases type <;> first | exact close | (simp [counted, after, hl])

/-- Without ranges the queries are answered as in C73. -/
theorem rangedAnswers_all (xs : List Query) (ty : Int) (items : List Item) : ∀ (path : List Open) (sums : Sums) (prev : Option Item),
    sums.length = path.length + 1 → rangedAnswers (xs.map fun x => ⟨x, []⟩) ty path sums prev items = answers xs ty path prev items := by
  induction items with
  | nil => intro _ _ _ _; rfl
  | cons it items ih =>
    intro path sums prev hl
    unfold rangedAnswers answers
    rw [ih (grown path prev it) (counted sums it) (some it) (counted_length hl prev it)]
    congr 1
    rw [List.filter_map, List.map_map]
    congr 1
    apply List.map_congr_left
    intro x _
    show Ranged.answers ⟨x, []⟩ path sums prev it = x.answers path prev it
    unfold Ranged.answers Query.answers
    cases x.final with
    | content desc =>
      simp only []
      by_cases hc : it.1 = .Content
      · rw [if_pos hc, if_pos hc]
        unfold reaches
        rw [List.range_succ, List.map_append, List.sum_append_nat, Nat.add_comm]
        congr 1
        · rw [List.map_singleton, List.sum_singleton, List.getElem?_eq_getElem (by omega)]
          simp [holds, bounds]
        · cases desc with
          | false =>
            apply sum_zero
            intro k hk
            obtain ⟨i, hi, rfl⟩ := List.mem_map.1 hk
            have := List.mem_range.1 hi
            rw [List.getElem?_eq_getElem (by omega)]
            exact if_neg (by simp; omega)
          | true =>
            rw [if_pos rfl, ← routes_range]
            congr 1
            apply List.map_congr_left
            intro i hi
            have := List.mem_range.1 hi
            rw [List.getElem?_eq_getElem (by omega)]
            simp [holds, bounds]
      · rw [if_neg hc, if_neg hc]
    | element => rfl
    | «attribute» d name => rfl
    | closeTag d => rfl

end TW
