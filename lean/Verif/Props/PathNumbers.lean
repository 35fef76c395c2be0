import Verif.Props.Pipeline
import Verif.Props.PathCounts

/-!
# Property C86 for expressions and documents as texts
-/

namespace TW

open Spec Spec.Path TW.Path Scanner

variable {se e de : Enc}

theorem select_numbers (hse : PageOk se) (he : ByteSet e) {n : Nat} {ws : List Written}
    (hw : ∀ w ∈ ws, w.Fine se e ∧ w.codes.length < n) {d : Document}
    (hh : d.header = none ∨ ∀ w ∈ ws, w.Inside) (hc : Calm ws) :
    ∃ a s, addAll se e n (ws.map fun w => (w.type, w.bytes se)) [] = (.ok (List.replicate ws.length 0), a) ∧ Sel.mk' a = .ok s ∧
      ∃ rss, (∃ N s', ∀ m, N ≤ m → Sel.feed m (docItems e d) s = (.ok rss, s')) ∧
        ∀ ty, ty ≠ 0 → rss.map (·.count ty) = rangedAnswers (ws.flatMap (Written.ranged e)) ty [] [(0, 0)] none (docItems e d) := by
  obtain ⟨a, lab, h1, h2, h3⟩ := addAll_ranged hse he hw (at_start True)
  have hq : ∀ x ∈ ws.flatMap (Written.ranged e), (x.query.steps = [] → (∃ d, x.query.final = .content d) ∨ ∃ d name, x.query.final = .attribute d name) ∧ ∀ r ∈ x.ranges, r.Ok := by
    intro x hx
    obtain ⟨w, k1, k2⟩ := List.mem_flatMap.1 hx
    obtain ⟨y, k3, rfl⟩ := List.mem_map.1 k2
    obtain ⟨q, k4, rfl⟩ := List.mem_map.1 k3
    refine ⟨query_some (hw w k1).1 k4, fun r hr => ?_⟩
    obtain ⟨c, j1, j2⟩ := List.mem_filterMap.1 hr
    obtain ⟨s, j3, j4⟩ := List.mem_flatMap.1 j1
    exact number_ok (((hw w k1).1.path.1 s j3).2.1 c j4) j2
  have heq : (ws.flatMap (Written.ranged e)).map (·.query) = ws.flatMap (Written.queries e) := by
    rw [List.map_flatMap]
    congr 1
    funext w
    unfold Written.ranged
    rw [List.map_map]
    exact List.map_id _
  have main := fun (ty : Int) (hty : ty ≠ 0) => select_ranged (xs := ws.flatMap (Written.ranged e)) hty h2
    (by rw [h3 ty hty]; simp [outs])
    (fun x hx => (hq x hx).2) (fun x hx _ => (hq x hx).1) (fun x hx _ name k => by
      obtain ⟨w, k1, k2⟩ := List.mem_flatMap.1 hx
      obtain ⟨y, k3, rfl⟩ := List.mem_map.1 k2
      obtain ⟨q, k4, rfl⟩ := List.mem_map.1 k3
      exact noCont_written hse hw (hc ⟨w, k1, query_deep k4 k⟩) h1) (docItems e d)
    (by rw [heq]; exact headerFree_written he (fun w k => (hw w k).1) hh) (tidy_document d) (fun x hx _ j1 d' name j2 => by
      obtain ⟨w, k1, k2⟩ := List.mem_flatMap.1 hx
      obtain ⟨y, k3, rfl⟩ := List.mem_map.1 k2
      obtain ⟨q, k4, rfl⟩ := List.mem_map.1 k3
      obtain ⟨j3, sep, nm, j4⟩ := query_root k4 j1 j2
      exact headless_document (hh.resolve_right fun j => (j w k1).final j3 sep nm j4))
  obtain ⟨s, h4, N, rss, s', h5, h6⟩ := main 1 (by decide)
  refine ⟨a, s, h1, h4, rss, ⟨N, s', h5⟩, fun ty hty => ?_⟩
  obtain ⟨s2, k1, N', rss', s3, k3, k4⟩ := main ty hty
  rw [h4] at k1
  cases k1
  have := h5 (max N N') (by omega)
  rw [k3 (max N N') (by omega)] at this
  cases this
  exact k4

/-- C86 for texts: expressions with numbers anywhere are added to an automaton, a document of the grammar is scanned, and the items are given
to a selector for the automaton. Each type is reported at the items of the document as often as the queries with this type and with the
numbers of their expression have to be answered there. It does not matter which step a number is written at. -/
theorem C86_texts (hse : PageOk se) (he : ByteSet e) (hde : PageOk de) {n : Nat} {ws : List Written}
    (hw : ∀ w ∈ ws, w.Fine se e ∧ w.codes.length < n) {d : Document} (hd : d.Ok de)
    (hh : d.header = none ∨ ∀ w ∈ ws, w.Inside) (hq : Calm ws)
    {em : Option (List (Nat × UChar))} {addr : Nat} {calls : List (Nat × Bool)}
    (hl : calls.length = d.items.length) (hm : ∀ x ∈ calls, ∀ t : ElementType, x.1.testBit t.toNat = true) :
    ∃ a s, addAll se e n (ws.map fun w => (w.type, w.bytes se)) [] = (.ok (List.replicate ws.length 0), a) ∧ Sel.mk' a = .ok s ∧
      ∃ N rss, (∀ m, N ≤ m → ∃ obs t s', session m false calls (oneScanner de e em addr (d.bytes de)) = (.ok obs, t) ∧
        (∀ o ∈ obs, o.error = .Ok) ∧ Sel.feed m (obs.map fun o => (o.type, o.item)) s = (.ok rss, s')) ∧
        ∀ ty, ty ≠ 0 → rss.map (·.count ty) = rangedAnswers (ws.flatMap (Written.ranged e)) ty [] [(0, 0)] none (docItems e d) := by
  obtain ⟨a, s, h1, h2, rss, ⟨N, s', h3⟩, h4⟩ := select_numbers hse he hw hh hq
  obtain ⟨N', h5⟩ := C66_document (output := e) (em := em) (addr := addr) hde hd hl hm
  refine ⟨a, s, h1, h2, max N N', rss, fun m hm' => ?_, h4⟩
  obtain ⟨t, h6⟩ := h5 m (by omega)
  refine ⟨_, t, s', h6, ?_, ?_⟩
  · intro o ho
    obtain ⟨i, -, rfl⟩ := List.mem_map.1 ho
    rfl
  · rw [List.map_map]
    exact h3 m (by omega)

/-- C86 for documents that come in chunks, see `C66_chunks`; the rest is as in `C86_texts`. -/
theorem C86_chunks (hse : PageOk se) (he : ByteSet e) (hde : PageOk de) {n : Nat} {ws : List Written}
    (hw : ∀ w ∈ ws, w.Fine se e ∧ w.codes.length < n) {d : Document} (hd : d.Ok de)
    {c : List Byte} {cs : List (List Byte)} (hc : c ++ cs.flatten = d.bytes de)
    (hh : d.header = none ∨ ∀ w ∈ ws, w.Inside) (hq : Calm ws)
    {em : Option (List (Nat × UChar))} {addr : Nat} {calls : List (Nat × Bool)}
    (hl : calls.length = d.items.length) (hm : ∀ x ∈ calls, ∀ t : ElementType, x.1.testBit t.toNat = true) :
    ∃ a s, addAll se e n (ws.map fun w => (w.type, w.bytes se)) [] = (.ok (List.replicate ws.length 0), a) ∧ Sel.mk' a = .ok s ∧
      ∃ N rss, (∀ m, N ≤ m → ∃ obs t s', sessionFed m true false calls cs (fedScanner de e em addr c cs) = (.ok obs, t) ∧
        (∀ o ∈ obs, o.error = .Ok) ∧ Sel.feed m (obs.map fun o => (o.type, o.item)) s = (.ok rss, s')) ∧
        ∀ ty, ty ≠ 0 → rss.map (·.count ty) = rangedAnswers (ws.flatMap (Written.ranged e)) ty [] [(0, 0)] none (docItems e d) := by
  obtain ⟨a, s, h1, h2, rss, ⟨N, s', h3⟩, h4⟩ := select_numbers hse he hw hh hq
  obtain ⟨N', h5⟩ := C66_chunks (e := e) (em := em) (addr := addr) hde hd hc hl hm
  refine ⟨a, s, h1, h2, max N N', rss, fun m hm' => ?_, h4⟩
  obtain ⟨t, h6⟩ := h5 m (by omega)
  refine ⟨_, t, s', h6, ?_, ?_⟩
  · intro o ho
    obtain ⟨i, -, rfl⟩ := List.mem_map.1 ho
    rfl
  · rw [List.map_map]
    exact h3 m (by omega)

/-- `/a[1]()`, `/a[2,]()`, `/a[0]@b`, `/a()` -/
def numbersExample : List Written :=
  [⟨⟨[⟨some false, some (.one [97]), [.index [49]]⟩], .content none⟩, codes "/a[1]()", 1⟩,
    ⟨⟨[⟨some false, some (.one [97]), [.from' [50]]⟩], .content none⟩, codes "/a[2,]()", 2⟩,
    ⟨⟨[⟨some false, some (.one [97]), [.index [48]]⟩], .attribute none (some (.one [98]))⟩, codes "/a[0]@b", 3⟩,
    ⟨⟨[⟨some false, some (.one [97]), []⟩], .content none⟩, codes "/a()", 4⟩]

theorem numbersExample_ok : (∀ w ∈ numbersExample, w.Fine .utf8 .utf8 ∧ w.codes.length < 2000) ∧
    (∀ w ∈ numbersExample, w.Inside) ∧ Calm numbersExample := by
  refine ⟨?_, fun w hw => ⟨?_, ?_⟩, fun ⟨w, hw, nm, h⟩ => ?_⟩
  · have single : ∀ c, IdChar c → Identifier [c] := fun c h => ⟨by simp, by simpa using h⟩
    have ida : IdChar 97 := by unfold IdChar; decide
    have idb : IdChar 98 := by unfold IdChar; decide
    have colon : ∀ bs : List Byte, 58 ∉ bs → ∀ i : Nat, ¬ (bs[i]? = some 58 ∧ bs[i + 1]? = some 58) :=
      fun bs h i k => h (List.mem_of_getElem? k.1)
    have nil : Blanks [] := by simp [Blanks]
    have ht : ∀ w ∈ numbersExample, w.path.Text w.codes := by
      intro w hw
      simp only [numbersExample, List.mem_cons, List.not_mem_nil, or_false] at hw
      rcases hw with rfl | rfl | rfl | rfl
      · exact ⟨[47], [], _, rfl, nil, rfl, [97], [], _, rfl, nil, rfl, codes "[1]", [], _, ⟨[], [], nil, nil, rfl⟩, nil, rfl, [40, 41], [], _, ⟨[], nil, rfl⟩, nil, rfl, rfl⟩
      · exact ⟨[47], [], _, rfl, nil, rfl, [97], [], _, rfl, nil, rfl, codes "[2,]", [], _, ⟨[], [], [], nil, nil, nil, rfl⟩, nil, rfl, [40, 41], [], _, ⟨[], nil, rfl⟩, nil, rfl, rfl⟩
      · exact ⟨[47], [], _, rfl, nil, rfl, [97], [], _, rfl, nil, rfl, codes "[0]", [], _, ⟨[], [], nil, nil, rfl⟩, nil, rfl, [64], [], _, rfl, nil, rfl, [98], [], _, rfl, nil, rfl, rfl⟩
      · exact ⟨[47], [], _, rfl, nil, rfl, [97], [], _, rfl, nil, rfl, [40, 41], [], _, ⟨[], nil, rfl⟩, nil, rfl, rfl⟩
    intro w hw
    have ht := ht w hw
    simp only [numbersExample, List.mem_cons, List.not_mem_nil, or_false] at hw
    rcases hw with rfl | rfl | rfl | rfl
    all_goals
      refine ⟨⟨?_, ht, by simp only [Direct]; decide, colon _ (by decide), by decide, by simp, ?_, ?_, by simp, by simp⟩, by decide⟩
      · simp only [TPath.Ok, TStep.Ok, TEnd.Ok, List.mem_cons, List.not_mem_nil, or_false, forall_eq, Option.some.injEq,
          forall_eq', false_implies, implies_true, and_true]
        simp [single, ida, idb, TCond.Ok, TName.Ok, Number]
      · simp only [Direct]
        decide
      · simp only [Direct]
        decide
  iterate 3
    simp only [numbersExample, List.mem_cons, List.not_mem_nil, or_false] at hw
    rcases hw with rfl | rfl | rfl | rfl <;> first | exact (nomatch h) | simp

example : (∀ w ∈ numbersExample, w.Fine .utf8 .utf8 ∧ w.codes.length < 2000) ∧
    (∀ w ∈ numbersExample, w.Inside) ∧ Calm numbersExample ∧
    grammarExample.Ok .utf8 ∧
    [1, 2, 3, 4].map (fun ty => rangedAnswers (numbersExample.flatMap (Written.ranged .utf8)) ty [] [(0, 0)] none (docItems .utf8 grammarExample)) =
      [[0, 0, 0, 0, 0, 0, 0, 0, 0, 0, 0, 0, 0, 0, 0, 0, 1, 0, 0, 0, 0, 0, 0],
        [0, 0, 0, 0, 0, 0, 0, 0, 0, 0, 0, 0, 0, 0, 0, 0, 0, 1, 0, 0, 0, 0, 0],
        [0, 0, 0, 0, 0, 0, 0, 0, 0, 0, 0, 0, 0, 0, 0, 0, 0, 0, 0, 0, 0, 0, 0],
        [0, 0, 0, 0, 0, 0, 0, 0, 0, 0, 0, 0, 0, 0, 0, 0, 1, 1, 0, 0, 0, 0, 0]] := by
  refine ⟨numbersExample_ok.1, numbersExample_ok.2.1, numbersExample_ok.2.2, grammarExample_ok (fun p h => nomatch h) (by simp [Direct]), ?_⟩
  simp only [docItems, grammarExample_items]
  decide +kernel

end TW
