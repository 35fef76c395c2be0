import Verif.Proofs.ScanIterator
import Verif.Props.Grammar
import Verif.Props.Scanner

/-!
# Properties C67 to C69: the iterator of the XML scanner
-/

namespace TW

open Spec Scanner

variable {ρ : Type} [Reader ρ]
variable {e output : Enc} {em : Option (List (Nat × UChar))} {addr : Nat}

theorem takeWhile_all {α : Type} {p : α → Bool} : ∀ {l : List α}, (∀ a ∈ l, p a = true) → l.takeWhile p = l
  | [], _ => rfl
  | a :: l, h => by
    rw [List.takeWhile_cons_of_pos (h a (List.mem_cons_self ..)), takeWhile_all fun b hb => h b (List.mem_cons_of_mem _ hb)]

/-! ## C67

Full statement: the loop `for (it = begin(); it != end(); ++it)` visits the items that calls of `nextItem` deliver, in
this order and each with its text, and ends behind the last one. It is false for documents with errors: an iterator at an
error is not equal to `end()`, and the loop goes on for ever. -/

/-- `<a b=<`: the loop does not end, whatever the number of rounds. -/
theorem C67_ends_false (post : Bool) : ∀ k, ∃ xs,
    (iterate 40 post k (oneScanner .utf8 .utf8 none 0 (codes "<a b=<"))).1 = .ok (xs, false) ∧ xs.length = k := by
  intro k
  have hb : ∀ b ∈ codes "<a b=<", b < 256 := by decide
  have h3 : (session 40 false (asks 3) (oneScanner .utf8 .utf8 none 0 (codes "<a b=<"))).1 =
      .ok [{ type := .OpenTag, item := [97], error := .Ok, pos := none },
        { type := .TagAttribName, item := [98], error := .Ok, pos := none },
        { type := .ErrorOccurred, item := [], error := .ErrExpectedTagAttribute, pos := none }] := by decide +kernel
  rcases hs : session 40 false (asks 3) (oneScanner .utf8 .utf8 none 0 (codes "<a b=<")) with ⟨x, s3⟩
  rw [hs] at h3
  simp only at h3
  subst h3
  obtain ⟨r1, s1, o1, a1, a2, a3⟩ := session_asks hs
  obtain ⟨r2, s2, o2, b1, b2, b3⟩ := session_asks a2
  obtain ⟨r3, s3', o3, c1, c2, c3⟩ := session_asks b2
  rw [b3, c3] at a3
  simp only [List.cons.injEq, observe, Obs.mk.injEq] at a3
  obtain ⟨⟨t1, -⟩, ⟨t2, -⟩, ⟨t3, -, t3', -⟩, t4⟩ := a3
  subst t1 t2 t3
  have hst : s3'.state = .TAGAVID := by
    have h : (nextItem 40 0xFFFF (nextItem 40 0xFFFF (nextItem 40 0xFFFF
      (oneScanner .utf8 .utf8 none 0 (codes "<a b=<"))).2).2).2.state = .TAGAVID := by decide +kernel
    rw [a1] at h
    simp only at h
    rw [b1] at h
    simp only at h
    rw [c1] at h
    exact h
  have hr : Reached (oneScanner .utf8 .utf8 none 0 (codes "<a b=<")) s2 :=
    ⟨40, false, asks 2, _, session_asks_of (m := 1) a1 (session_asks_of (m := 0) b1 rfl)⟩
  obtain ⟨obs, s4, d1, d2, -, d4⟩ := C52_errors_stable_partial .utf8 .utf8 none 0 hb hr c1 (by rw [← t3']; decide) (by rw [hst]; decide)
    (by rw [hst]; decide) 40 (by decide) false (asks k)
  have hall := session_asks_of a1 (session_asks_of b1 (session_asks_of c1 d1))
  have hit := iterate_of_session (post := post) (k := k) hall (.inl (by omega))
  have hne : ∀ o ∈ List.take k (observe false .OpenTag s1 :: observe false .TagAttribName s2 :: observe false .ErrorOccurred s3' :: obs),
      o.type ≠ .Exit := by
    intro o ho
    have ho := List.mem_of_mem_take ho
    simp only [List.mem_cons] at ho
    rcases ho with rfl | rfl | rfl | ho
    · exact (nomatch ·)
    · exact (nomatch ·)
    · exact (nomatch ·)
    · rw [(d4 o ho).1]
      exact (nomatch ·)
  refine ⟨List.map seen (List.take k (observe false .OpenTag s1 :: observe false .TagAttribName s2 ::
    observe false .ErrorOccurred s3' :: obs)), hit.trans ?_, ?_⟩
  rotate_left
  · rw [List.length_map, List.length_take]
    have : obs.length = k := by rw [d2, asks, List.length_replicate]
    simp only [List.length_cons]
    omega
  · rw [takeWhile_all (fun o ho => by simpa using hne o ho)]
    simp only [Res.ok.injEq, Prod.mk.injEq, true_and]
    rw [List.any_eq_false]
    intro o ho
    simpa using hne o ho

/-- On any source, if `m` calls of `nextItem` return, the loop visits the items they return up to the first of the type
`Exit`, each with its type and text, with `++it` and with `it++`, provided that it is stopped before the last of the
calls or that there is such an item. It ends if and only if it gets to the item of the type `Exit`. -/
theorem C67_visits_partial {n m k : Nat} {s s1 : Scanner ρ} {obs : List Obs} (post : Bool)
    (h : session n false (List.replicate m (0xFFFF, false)) s = (.ok obs, s1)) (hk : k < m ∨ ∃ o ∈ obs, o.type = .Exit) :
    (iterate n post k s).1 = .ok (((obs.take k).takeWhile fun o => o.type ≠ .Exit).map fun o => (o.type, o.item),
      (obs.take k).any fun o => o.type = .Exit) :=
  iterate_of_session (m := m) h hk

/-- If the loop has ended, it has made one call for each item visited, and one that returned the item of the type
`Exit`, and the scanner is as after these calls. -/
theorem C67_calls {n k : Nat} {post : Bool} {s s1 : Scanner ρ} {xs : List (ElementType × List Byte)}
    (h : iterate n post k s = (.ok (xs, true), s1)) :
    ∃ obs o, session n false (List.replicate (xs.length + 1) (0xFFFF, false)) s = (.ok (obs ++ [o]), s1) ∧
      obs.map (fun o => (o.type, o.item)) = xs ∧ o.type = .Exit ∧ ∀ x ∈ xs, x.1 ≠ .Exit := by
  unfold iterate at h
  obtain ⟨it, s', h1, h2⟩ := M.bind_eq h
  unfold iterBegin at h1
  rw [if_pos rfl] at h1
  obtain ⟨r, s'', h3, h4⟩ := M.bind_eq h1
  rw [M.bind_ok (M.get_run _)] at h4
  obtain ⟨rfl, rfl⟩ := M.pure_eq h4
  obtain ⟨obs, o, g1, g2, g3, g4, -, g6⟩ := iterLoop_calls k h2
  refine ⟨_, o, ?_, g3, g4 rfl, g6⟩
  rw [← g2]
  exact session_asks_of h3 g1

/-- `begin( false)` reads nothing: the loop visits first an element without type and text, and then what the loop from `begin()` visits. -/
theorem C67_unread (n k : Nat) (post : Bool) (s : Scanner ρ) :
    (do let it ← iterBegin n false; iterLoop n post (k + 1) it : M (Scanner ρ) _) s =
      (do let r ← iterate n post k; pure ((.None, []) :: r.1, r.2) : M (Scanner ρ) _) s := by
  have h1 : iterBegin n false s = (.ok { element := .none, input := true }, s) := rfl
  have h2 : iterSees { element := .none, input := true } s = (.ok (.None, []), s) := rfl
  have h3 : iterSkip n 0xFFFF { element := .none, input := true } s = iterBegin n true s := rfl
  rw [M.bind_ok h1, iterLoop_succ, if_neg (show ¬ iterEq { element := .none, input := true } iterEnd = true by decide), M.bind_ok h2]
  unfold iterate
  rw [M.bind_run, iterInc_eq, h3, M.bind_run, M.bind_run]
  rcases iterBegin n true s with ⟨r | r, s'⟩
  · rfl
  · rfl

example : ((do let it ← iterBegin 40 false; iterLoop 40 false 9 it : M (Scanner (TextScanner SrcIt)) _) (oneScanner .utf8 .utf8 none 0 (codes "<a>x</a>"))).1 =
    .ok ([(.None, []), (.OpenTag, [97]), (.Content, [120]), (.CloseTag, [97])], true) := by
  decide +kernel

/-- The item of the type `Exit` is the last item of a document of the grammar. -/
theorem items_exit : ∀ (ms : List Mark) (seek : Bool) (gs : List Glyph), ∃ l, Spec.items seek gs ms = l ++ [(.Exit, [])]
  | [], seek, gs => ⟨_, rfl⟩
  | m :: ms, seek, gs => by
    obtain ⟨l, hl⟩ := items_exit ms m.seeks []
    cases m with
    | text hs => exact items_exit ms seek (gs ++ hs)
    | _ =>
      simp only [Spec.items]
      rw [hl, ← List.append_assoc]
      exact ⟨_, rfl⟩

/-- The loop over a document of the grammar, in any encoding, visits its items with their texts, and ends at `Exit`. -/
theorem C67_document_partial (post : Bool) (he : PageOk e) {d : Document} (hd : d.Ok e) {k : Nat} (hk : d.items.length ≤ k) :
    ∃ N, ∀ n, N ≤ n → (iterate n post k (oneScanner e output em addr (d.bytes e))).1 =
      .ok (((d.items.takeWhile fun i => i.1 ≠ .Exit).map fun i => (i.1, i.2.flatMap output.print)), true) := by
  obtain ⟨N, h⟩ := C66_document (output := output) (em := em) (addr := addr) he hd
    (calls := List.replicate d.items.length (0xFFFF, false)) (by simp) (by
      intro x hx t
      rw [(List.mem_replicate.1 hx).2]
      cases t <;> decide)
  refine ⟨N, fun n hn => ?_⟩
  obtain ⟨s, h⟩ := h n hn
  have hx : ∃ l, d.items = l ++ [(.Exit, [])] := by
    unfold Document.items
    obtain ⟨l, hl⟩ := items_exit d.body true []
    rw [hl]
    exact ⟨_, (List.append_assoc ..).symm⟩
  obtain ⟨l, hl⟩ := hx
  have := C67_visits_partial (k := k) post h (.inr ⟨_, List.mem_map_of_mem (a := (.Exit, [])) (by rw [hl]; simp), rfl⟩)
  rw [this, List.take_of_length_le (by simpa using hk), List.takeWhile_map, List.map_map]
  simp only [Res.ok.injEq, Prod.mk.injEq]
  refine ⟨rfl, ?_⟩
  rw [List.any_map, hl]
  simp

/-- The loop over the example document. -/
example : ∃ N, ∀ n, N ≤ n → (iterate n true 30 (oneScanner .utf8 .utf8 none 0 (grammarExample.bytes .utf8))).1 =
    .ok (((grammarExample.items.takeWhile fun i => i.1 ≠ .Exit).map fun i => (i.1, i.2.flatMap Enc.utf8.print)), true) :=
  C67_document_partial (e := .utf8) true (fun p h => nomatch h) (grammarExample_ok (fun p h => nomatch h) (by simp [Direct]))
    (by rw [grammarExample_items]; decide)

example : (iterate 40 false 9 (oneScanner .utf8 .utf8 none 0 (codes "<a b='1'>x</a>"))).1 =
    .ok ([(.OpenTag, [97]), (.TagAttribName, [98]), (.TagAttribValue, [49]), (.Content, [120]), (.CloseTag, [97])], true) := by
  decide +kernel

/-! ## C68

Full statement: `error()` of an element gives the text of the error if the element is an error, and NULL otherwise. It
is false: it gives the text of the item. -/

/-- The iterator `it` was got from `begin` and increments, the scanner is now `s`. -/
inductive Visited (s0 : Scanner ρ) : Iterator → Scanner ρ → Prop
  | begin_ {n it s} : iterBegin n true s0 = (.ok it, s) → Visited s0 it s
  | inc {n it s it' s'} : Visited s0 it s → iterPre n it s = (.ok it', s') → Visited s0 it' s'

theorem Visited.cur {s0 : Scanner ρ} {it : Iterator} {s : Scanner ρ} (h : Visited s0 it s) : ∃ r, it = cur r s := by
  induction h with
  | begin_ h =>
    unfold iterBegin at h
    rw [if_pos rfl] at h
    obtain ⟨r, s'', h3, h4⟩ := M.bind_eq h
    rw [M.bind_ok (M.get_run _)] at h4
    obtain ⟨rfl, rfl⟩ := M.pure_eq h4
    exact ⟨r, rfl⟩
  | inc _ h ih =>
    obtain ⟨r0, rfl⟩ := ih
    unfold iterPre iterSkip at h
    rw [if_pos (show (Scanner.cur r0 _).input = true from rfl)] at h
    obtain ⟨r, s'', h3, h4⟩ := M.bind_eq h
    rw [M.bind_ok (M.get_run _)] at h4
    obtain ⟨rfl, rfl⟩ := M.pure_eq h4
    exact ⟨r, rfl⟩

/-- **C67 (text)** — At every element visited the text can be read with its size, and a null byte is behind it, so that it can be read as a C string too,
up to the first null byte in it. -/
theorem C67_text {s0 s : Scanner ρ} {it : Iterator} (h : Visited s0 it s) :
    readMem s it.element.content it.element.size = .ok s.out ∧ readMem s it.element.content (it.element.size + 1) = .ok (s.out ++ [0]) ∧
    readStr s it.element.content = some (s.out.takeWhile (· ≠ 0)) := by
  obtain ⟨r, rfl⟩ := h.cur
  unfold cur element
  by_cases h0 : s.out.length = 0
  · have := List.length_eq_zero_iff.1 h0
    simp [readMem, readStr, this]
  · have : (s.out ++ [0]).take (s.out.length + 1) = s.out ++ [0] := List.take_of_length_le (by simp)
    simp [readMem, readStr, h0, this]

/-- **C67 (end)** — `end()` is equal to itself, has no text, and incrementing it in either way leaves it and the scanner as they are. -/
theorem C67_end (n : Nat) (post : Bool) (s : Scanner ρ) :
    iterEq iterEnd iterEnd = true ∧ readMem s iterEnd.element.content iterEnd.element.size = .ok [] ∧ readStr s iterEnd.element.content = none ∧
    iterInc n post iterEnd s = (.ok iterEnd, s) := by
  refine ⟨rfl, rfl, rfl, ?_⟩
  cases post <;> rfl

/-- **C67 (comparison)** — Two iterators, also of different scanners, are equal exactly if the last call of both told the end, or
if no call was made with both of them. So an iterator at an item is not even equal to itself. -/
theorem C67_compare (a b : Iterator) :
    (iterEq a b = true ↔ (iterEq a iterEnd = true ∧ iterEq b iterEnd = true) ∨
      (iterEq a { element := .none, input := true } = true ∧ iterEq b { element := .none, input := true } = true)) ∧
    (iterEq a iterEnd = true ↔ a.element.type = .Exit) ∧
    (iterEq a { element := .none, input := true } = true ↔ a.element.type = .None) := by
  have key : ∀ a b : ElementType, iterEq ⟨⟨a, .null, 0⟩, true⟩ ⟨⟨b, .null, 0⟩, true⟩ = true ↔
      (a = .Exit ∧ b = .Exit) ∨ (a = .None ∧ b = .None) := by
    intro a b; cases a <;> cases b <;> decide
  have h1 : ∀ a b : Iterator, iterEq a b = true ↔ (a.element.type = .Exit ∧ b.element.type = .Exit) ∨
      (a.element.type = .None ∧ b.element.type = .None) := fun a b => key a.element.type b.element.type
  have h2 : ∀ a, iterEq a iterEnd = true ↔ a.element.type = .Exit := fun a => (h1 a _).trans (by simp [iterEnd, Element.fin])
  have h3 : ∀ a, iterEq a { element := .none, input := true } = true ↔ a.element.type = .None :=
    fun a => (h1 a _).trans (by simp [Element.none])
  exact ⟨by rw [h1, h2, h2, h3, h3], h2 a, h3 a⟩

example : ∃ it, (iterBegin 40 true (oneScanner .utf8 .utf8 none 0 (codes "<a>"))).1 = .ok it ∧ iterEq it it = false :=
  ⟨{ element := { type := .OpenTag, content := .item, size := 1 }, input := true }, by decide +kernel⟩

/-- For `<a>x&foo;y` the text got from `error()` is the content `x` read before the error, not the text of the error,
as in examples/XMLScanner.cpp:19-22. -/
theorem C68_error_text_false : ∃ it s, Visited (oneScanner .utf8 .utf8 none 0 (codes "<a>x&foo;y")) it s ∧
    it.element.type = .ErrorOccurred ∧ s.error = .ErrUndefinedCharacterEntity ∧
    errorString s.error = some "undefined character entity" ∧ readStr s it.element.error = some (codes "x") := by
  have h : ((do
      let it ← iterBegin 40
      iterPre 40 it : M (Scanner (TextScanner SrcIt)) Iterator) (oneScanner .utf8 .utf8 none 0 (codes "<a>x&foo;y"))).1 =
        .ok { element := { type := .ErrorOccurred, content := .item, size := 1 }, input := true } ∧
      ((do
      let it ← iterBegin 40
      iterPre 40 it : M (Scanner (TextScanner SrcIt)) Iterator) (oneScanner .utf8 .utf8 none 0 (codes "<a>x&foo;y"))).2.out =
        codes "x" ∧
      ((do
      let it ← iterBegin 40
      iterPre 40 it : M (Scanner (TextScanner SrcIt)) Iterator) (oneScanner .utf8 .utf8 none 0 (codes "<a>x&foo;y"))).2.error =
        .ErrUndefinedCharacterEntity := by decide +kernel
  obtain ⟨h1, h2, h3⟩ := h
  rcases hr : (do
      let it ← iterBegin 40
      iterPre 40 it : M (Scanner (TextScanner SrcIt)) Iterator) (oneScanner .utf8 .utf8 none 0 (codes "<a>x&foo;y")) with ⟨x, s⟩
  rw [hr] at h1 h2 h3
  simp only at h1 h2 h3
  subst h1
  obtain ⟨it, s', g1, g2⟩ := M.bind_eq hr
  refine ⟨_, s, .inc (.begin_ g1) g2, rfl, h3, by rw [h3]; rfl, ?_⟩
  simp only [Element.error, if_true, readStr, h2]
  decide

/-- What `error()` gives at any element visited: NULL if it is not an error, else the text of the item read before the
error was detected. -/
theorem C68_error_text_partial {s0 s : Scanner ρ} {it : Iterator} (h : Visited s0 it s) :
    (it.element.type ≠ .ErrorOccurred → it.element.error = .null) ∧
    (it.element.type = .ErrorOccurred → readStr s it.element.error = some (s.out.takeWhile (· ≠ 0))) ∧
    (it.element.valid = true ↔ it.element.type ≠ .ErrorOccurred ∧ it.element.type ≠ .Exit) := by
  obtain ⟨r, rfl⟩ := h.cur
  refine ⟨fun hr => if_neg hr, fun hr => ?_, ?_⟩
  · unfold Element.error
    rw [if_pos hr]
    unfold cur element
    by_cases h0 : s.out.length = 0
    · simp [readStr, List.length_eq_zero_iff.1 h0]
    · simp [readStr, h0]
  · simp [Element.valid, cur, element, and_comm]

example : ∃ it s, Visited (oneScanner .utf8 .utf8 none 0 (codes "<a b")) it s ∧ it.element.type ≠ .ErrorOccurred := by
  have h : (iterBegin 40 true (oneScanner .utf8 .utf8 none 0 (codes "<a b"))).1 =
      .ok { element := { type := .OpenTag, content := .item, size := 1 }, input := true } := by decide +kernel
  rcases hr : iterBegin 40 true (oneScanner .utf8 .utf8 none 0 (codes "<a b")) with ⟨x, s⟩
  rw [hr] at h
  simp only at h
  subst h
  exact ⟨_, s, .begin_ hr, nofun⟩

/-! ## C69

Full statement: the iterator returned by `it++` is still at the item left, with its type, size and text. It is false
for the text: the element has a pointer into the buffer of the scanner. -/

/-- `<a><b>`: the text of `*it++` at the first tag is the name of the second one. -/
theorem C69_postfix_false : ∃ it s it0 it1 s', Visited (oneScanner .utf8 .utf8 none 0 (codes "<a><b>")) it s ∧
    iterSees it s = (.ok (.OpenTag, codes "a"), s) ∧ iterPost 40 it s = (.ok (it0, it1), s') ∧
    iterSees it0 s' = (.ok (.OpenTag, codes "b"), s') := by
  have h : (iterBegin 40 true (oneScanner .utf8 .utf8 none 0 (codes "<a><b>"))).1 =
        .ok { element := { type := .OpenTag, content := .item, size := 1 }, input := true } ∧
      (iterBegin 40 true (oneScanner .utf8 .utf8 none 0 (codes "<a><b>"))).2.out = codes "a" ∧
      (iterPost 40 { element := { type := .OpenTag, content := .item, size := 1 }, input := true }
        (iterBegin 40 true (oneScanner .utf8 .utf8 none 0 (codes "<a><b>"))).2).1 =
        .ok ({ element := { type := .OpenTag, content := .item, size := 1 }, input := true },
          { element := { type := .OpenTag, content := .item, size := 1 }, input := true }) ∧
      (iterPost 40 { element := { type := .OpenTag, content := .item, size := 1 }, input := true }
        (iterBegin 40 true (oneScanner .utf8 .utf8 none 0 (codes "<a><b>"))).2).2.out = codes "b" := by decide +kernel
  rcases hr : iterBegin 40 true (oneScanner .utf8 .utf8 none 0 (codes "<a><b>")) with ⟨x, s⟩
  rw [hr] at h
  simp only at h
  obtain ⟨rfl, h2, h3, h4⟩ := h
  rcases hp : iterPost 40 { element := { type := .OpenTag, content := .item, size := 1 }, input := true } s with ⟨y, s'⟩
  rw [hp] at h3 h4
  simp only at h3 h4
  subst h3
  refine ⟨_, s, _, _, s', .begin_ hr, ?_, hp, ?_⟩
  · simp only [iterSees, readMem, h2]
    rfl
  · simp only [iterSees, readMem, h4]
    rfl

/-- The iterator returned by `it++` has the type and the size of the item left, and the iterator incremented is at the
item the scanner has now. The text of the item left can still be read if it is empty, and what is read at the
iterator returned is what the buffer of the scanner starts with now. -/
theorem C69_postfix_partial {s0 s s' : Scanner ρ} {it it0 it1 : Iterator} {n : Nat} (h : Visited s0 it s)
    (hp : iterPost n it s = (.ok (it0, it1), s')) :
    it0.element.type = it.element.type ∧ it0.element.size = it.element.size ∧ Visited s0 it1 s' ∧
    iterSees it1 s' = (.ok (it1.element.type, s'.out), s') ∧
    (s.out = [] → iterSees it0 s' = (.ok (it0.element.type, []), s')) ∧
    (s.out ≠ [] → s.out.length ≤ s'.out.length → iterSees it0 s' = (.ok (it0.element.type, s'.out.take s.out.length), s')) := by
  unfold iterPost at hp
  obtain ⟨it', s'', h1, h2⟩ := M.bind_eq hp
  obtain ⟨h3, rfl⟩ := M.pure_eq h2
  simp only [Prod.mk.injEq] at h3
  obtain ⟨rfl, rfl⟩ := h3
  have hv : Visited s0 it1 s' := .inc h h1
  obtain ⟨r, rfl⟩ := h.cur
  obtain ⟨r', rfl⟩ := hv.cur
  refine ⟨rfl, rfl, hv, iterSees_cur r' s', fun h0 => ?_, fun h0 hl => ?_⟩
  · simp [iterSees, cur, element, readMem, h0]
  · have : s.out.length ≠ 0 := fun h => h0 (List.length_eq_zero_iff.1 h)
    simp only [iterSees, cur, element, readMem, this, if_false]
    rw [if_pos (by omega), List.take_append_of_le_length hl]

end TW
