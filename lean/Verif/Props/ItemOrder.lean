import Verif.Proofs.ItemOrder
import Verif.Model.Session

/-!
# Property C104: the order of the items of any input
-/

namespace TW

open Spec Spec.Path Scanner TW.ItemOrder

/-- C104: the items a scanner emits, apart from the errors, are in order, for any source, any characters in it, any element masks and
any handling of the errors: attributes are in tags or in the header and each value is directly behind its name, the header is at the
beginning, the values of a declaration are directly before its end, an immediate end is in a tag, and behind the end of the document there
is only the end of the document. -/
theorem C104_order {ρ : Type} [Reader ρ] (src : ρ) (output : Enc) (em : Option (List (Nat × UChar))) (addr : Nat)
    {n : Nat} {showPos : Bool} {calls : List (Nat × Bool)} {obs : List Obs} {s : Scanner ρ}
    (h : session n showPos calls (Scanner.mk' src output em addr) = (.ok obs, s)) : Order.Ordered (obs.map (·.type)) := by
  obtain ⟨q, h1, -⟩ := session_order calls (p := .start) (s := Scanner.mk' src output em addr) rfl h
  exact ⟨q, h1⟩

/-- C104 for a source that comes in chunks, whatever they are cut at. -/
theorem C104_chunks (e output : Enc) (em : Option (List (Nat × UChar))) (addr : Nat) (c : List Byte) (cs : List (List Byte))
    {n : Nat} {fresh showPos : Bool} {calls : List (Nat × Bool)} {obs : List Obs} {s : Scanner (TextScanner SrcIt)}
    (h : sessionFed n fresh showPos calls cs (fedScanner e output em addr c cs) = (.ok obs, s)) :
    Order.Ordered (obs.map (·.type)) := by
  obtain ⟨q, h1, -⟩ := sessionFed_order skips_src calls (p := .start) (s := fedScanner e output em addr c cs) rfl h
  exact ⟨q, h1⟩

/-- A document that goes from a stage over an item. -/
def orderExample : Order.Stage → ElementType → List Byte
  | .start, .HeaderStart => ascii "<?xml "
  | .start, .OpenTag => ascii "<a>"
  | .start, .CloseTag => ascii "<!----></a>"
  | .start, .Content => ascii "<!---->x<"
  | .start, .DocAttribValue => ascii "<!D "
  | .start, .DocAttribEnd => ascii "<!>"
  | .header, .HeaderAttribName => ascii "<?xml a="
  | .header, .HeaderEnd => ascii "<?xml ?>"
  | .headerName, .HeaderAttribValue => ascii "<?xml a='v' "
  | .body, .OpenTag => ascii "<!D><a>"
  | .body, .CloseTag => ascii "<!D></a>"
  | .body, .Content => ascii "<!D>x<"
  | .body, .DocAttribValue => ascii "<!D><!D "
  | .body, .DocAttribEnd => ascii "<!D><!>"
  | .body, .Exit => ascii "<!D>"
  | .tag, .TagAttribName => ascii "<a b="
  | .tag, .CloseTagIm => ascii "<a/>"
  | .tag, .OpenTag => ascii "<a><a>"
  | .tag, .CloseTag => ascii "<a></a>"
  | .tag, .Content => ascii "<a>x<"
  | .tag, .DocAttribValue => ascii "<a><!D "
  | .tag, .DocAttribEnd => ascii "<a><!>"
  | .tag, .Exit => ascii "<a>"
  | .tagName, .TagAttribValue => ascii "<a b='v' "
  | .closed, .CloseTagIm => ascii "<a/ >"
  | .closed, .OpenTag => ascii "<a/><a>"
  | .closed, .CloseTag => ascii "<a/></a>"
  | .closed, .Content => ascii "<a/>x<"
  | .closed, .DocAttribValue => ascii "<a/><!D "
  | .closed, .DocAttribEnd => ascii "<a/><!>"
  | .closed, .Exit => ascii "<a/>"
  | .decl, .DocAttribValue => ascii "<!D D "
  | .decl, .DocAttribEnd => ascii "<!D>"
  | _, _ => []

/-- The items of the first calls for the document go to the stage and over the item, without errors. -/
def orderCheck (p : Order.Stage) (t : ElementType) (k : Nat) : Bool :=
  match session 60 false (List.replicate k (0xFFFF, false)) (oneScanner .utf8 .utf8 none 0 (orderExample p t)) with
  | (.ok obs, _) => obs.all (fun o => decide (o.error = .Ok)) && decide ((obs.map (·.type)).getLast? = some t) &&
      decide (Order.run .start (obs.map (·.type)).dropLast = some p)
  | _ => false

def ElementType.every : List ElementType := [.None, .ErrorOccurred, .HeaderStart, .HeaderAttribName, .HeaderAttribValue, .HeaderEnd,
  .DocAttribValue, .DocAttribEnd, .TagAttribName, .TagAttribValue, .OpenTag, .CloseTag, .CloseTagIm, .Content, .Exit]

theorem order_checked : (Order.Stage.all.all fun p => ElementType.every.all fun t =>
    !(Order.step p t).isSome || (List.range 6).any (orderCheck p t)) = true := by decide +kernel

/-- Nothing is missing in the order of C104 and nothing is too much: each item allowed at a stage is emitted there for some document, without any
error before. -/
theorem C104_tight (p : Order.Stage) (t : ElementType) (q : Order.Stage) (h : Order.step p t = some q) :
    ∃ doc n calls ts obs s, session n false calls (oneScanner .utf8 .utf8 none 0 doc) = (.ok obs, s) ∧ (∀ o ∈ obs, o.error = .Ok) ∧
      obs.map (·.type) = ts ++ [t] ∧ Order.run .start ts = some p := by
  have h1 := List.all_eq_true.1 (List.all_eq_true.1 order_checked p (Stage.mem_all p)) t (by cases t <;> decide)
  rw [h] at h1
  simp only [Option.isSome_some, Bool.not_true, Bool.false_or] at h1
  obtain ⟨k, -, h2⟩ := List.any_eq_true.1 h1
  unfold orderCheck at h2
  cases hs : session 60 false (List.replicate k (0xFFFF, false)) (oneScanner .utf8 .utf8 none 0 (orderExample p t)) with
  | mk r s =>
    rw [hs] at h2
    cases r with
    | stop er => cases h2
    | ok obs =>
      simp only [Bool.and_eq_true, List.all_eq_true, decide_eq_true_eq] at h2
      obtain ⟨⟨h3, h4⟩, h5⟩ := h2
      refine ⟨_, _, _, (obs.map (·.type)).dropLast, obs, s, hs, h3, ?_, h5⟩
      obtain ⟨ys, hy⟩ := List.getLast?_eq_some_iff.1 h4
      rw [hy, List.dropLast_concat]

/-- An immediate end is emitted once for each tag. -/
def C104_once_statement : Prop := ∀ (doc : List Byte) (n : Nat) (calls : List (Nat × Bool)) (obs : List Obs) (s : Scanner (TextScanner SrcIt)),
  session n false calls (oneScanner .utf8 .utf8 none 0 doc) = (.ok obs, s) → Order.Once .CloseTagIm (obs.map (·.type))

/-- The end of a tag with a blank in it, `<a/ >`, is emitted as two ends, so the order of C104 has to allow more than one of them. -/
theorem C104_twice : ¬ C104_once_statement := by
  intro h
  cases hs : session 60 false (List.replicate 3 (0xFFFF, false)) (oneScanner .utf8 .utf8 none 0 (ascii "<a/ >")) with
  | mk r s =>
    have h1 : (session 60 false (List.replicate 3 (0xFFFF, false)) (oneScanner .utf8 .utf8 none 0 (ascii "<a/ >"))).1 =
        .ok [⟨.OpenTag, [97], .Ok, none⟩, ⟨.CloseTagIm, [], .Ok, none⟩, ⟨.CloseTagIm, [], .Ok, none⟩] := by decide +kernel
    rw [hs] at h1
    cases h1
    exact (h _ _ _ _ _ hs).2.1 rfl rfl

/-- Items as the scanner emits them, without errors, are tidy as the properties C73, C86 and C89 of the selector ask for. -/
theorem C104_tidy {ρ : Type} [Reader ρ] (src : ρ) (output : Enc) (em : Option (List (Nat × UChar))) (addr : Nat)
    {n : Nat} {showPos : Bool} {calls : List (Nat × Bool)} {obs : List Obs} {s : Scanner ρ}
    (h : session n showPos calls (Scanner.mk' src output em addr) = (.ok obs, s)) :
    Tidy [] none ((obs.filter (·.type ≠ .ErrorOccurred)).map fun o => (o.type, o.item)) := by
  obtain ⟨q, h1⟩ := C104_order src output em addr h
  refine tidy_of_run (p := .start) (q := q) _ ⟨fun _ => rfl, nofun, nofun⟩ ?_
  rw [List.map_map]
  unfold Order.sound at h1
  rw [List.filter_map] at h1
  exact h1

/-- Wrong texts: an error in between, the items that are left are in order. -/
example : ∃ obs s, session 60 false (List.replicate 6 (0xFFFF, true)) (oneScanner .utf8 .utf8 none 0 (ascii "<a b='&x;v'/>")) = (.ok obs, s) ∧
    obs.map (·.type) = [.OpenTag, .TagAttribName, .ErrorOccurred, .TagAttribValue, .CloseTagIm, .Exit] ∧
    Order.Ordered (obs.map (·.type)) := by
  cases hs : session 60 false (List.replicate 6 (0xFFFF, true)) (oneScanner .utf8 .utf8 none 0 (ascii "<a b='&x;v'/>")) with
  | mk r s =>
    have h1 : (match (session 60 false (List.replicate 6 (0xFFFF, true)) (oneScanner .utf8 .utf8 none 0 (ascii "<a b='&x;v'/>"))).1 with
      | .ok obs => some (obs.map (·.type)) | .stop _ => none) = some [.OpenTag, .TagAttribName, .ErrorOccurred, .TagAttribValue, .CloseTagIm, .Exit] := by
      decide +kernel
    rw [hs] at h1
    cases r with
    | stop er => cases h1
    | ok obs => exact ⟨obs, s, rfl, Option.some.inj h1, C104_order _ _ _ _ hs⟩

/-- In chunks, one of them empty and one cut at the name of an attribute. -/
example : ∃ obs s, sessionFed 60 true false (List.replicate 5 (0xFFFF, true)) [ascii "b='v", [], ascii "'/"]
      (fedScanner .utf8 .utf8 none 0 (ascii "<a ") [ascii "b='v", [], ascii "'/"]) = (.ok obs, s) ∧
    obs.map (·.type) = [.OpenTag, .TagAttribName, .TagAttribValue, .ErrorOccurred, .ErrorOccurred] ∧
    Order.Ordered (obs.map (·.type)) := by
  cases hs : sessionFed 60 true false (List.replicate 5 (0xFFFF, true)) [ascii "b='v", [], ascii "'/"]
      (fedScanner .utf8 .utf8 none 0 (ascii "<a ") [ascii "b='v", [], ascii "'/"]) with
  | mk r s =>
    have h1 : (match (sessionFed 60 true false (List.replicate 5 (0xFFFF, true)) [ascii "b='v", [], ascii "'/"]
        (fedScanner .utf8 .utf8 none 0 (ascii "<a ") [ascii "b='v", [], ascii "'/"])).1 with
      | .ok obs => some (obs.map (·.type)) | .stop _ => none) = some [.OpenTag, .TagAttribName, .TagAttribValue, .ErrorOccurred, .ErrorOccurred] := by
      decide +kernel
    rw [hs] at h1
    cases r with
    | stop er => cases h1
    | ok obs => exact ⟨obs, s, rfl, Option.some.inj h1, C104_chunks _ _ _ _ _ _ hs⟩

end TW
