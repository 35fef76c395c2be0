import Verif.Proofs.Examples
import Verif.Spec.Examples
import Verif.Props.Items
import Verif.Props.Pipeline

/-!
# Property C96: the example programs with the scanner

`XMLScanner.cpp` scans a C string, `XMLScanner_chunkwise.cpp` a document in chunks; both write a line for each item.
-/

namespace TW

open Spec Scanner

variable {e output : Enc} {em : Option (List (Nat × UChar))} {addr : Nat} {doc : List Byte}

theorem typeName_ok (t : ElementType) :
    (typeNames.filter fun x => x.1 = t).flatMap (fun x => codes x.2) = elementTypeName t := by
  cases t <;> decide +kernel

theorem report_cons (i : ElementType × List Byte) (l : List (ElementType × List Byte)) : report (i :: l) = lineOf i.1 i.2 ++ report l := by
  unfold report lineOf
  rw [List.flatMap_cons, typeName_ok]
  rfl

/-- Items before the end. -/
theorem written_report : ∀ l : List (ElementType × List Byte), (∀ i ∈ l, i.1 ≠ .Exit ∧ i.1 ≠ .ErrorOccurred) →
    ∀ r, written (l ++ r) = report l ++ written r ∧ endOf (l ++ r) = endOf r
  | [], _, _ => ⟨rfl, rfl⟩
  | (t, x) :: l, h, r => by
    have ih := written_report l (fun i hi => h i (List.mem_cons_of_mem _ hi)) r
    have h0 := h _ List.mem_cons_self
    rw [report_cons, List.cons_append, List.append_assoc, ← ih.1, ← ih.2]
    revert h0
    cases t <;> intro h0 <;> first | exact ⟨rfl, rfl⟩ | exact absurd rfl h0.1 | exact absurd rfl h0.2

theorem attr_items_plain (hdr : Bool) (a : Attr) : ∀ i ∈ a.items hdr, i.1 ≠ .Exit ∧ i.1 ≠ .ErrorOccurred := by
  intro i hi
  unfold Attr.items at hi
  cases hdr <;> simp at hi <;> rcases hi with rfl | rfl <;> exact ⟨nofun, nofun⟩

theorem mark_items_plain (m : Mark) : ∀ i ∈ m.items, i.1 ≠ .Exit ∧ i.1 ≠ .ErrorOccurred := by
  intro i hi
  cases m with
  | open_ l name attrs tail im =>
    simp only [Mark.items, List.cons_append, List.mem_cons, List.mem_append, List.mem_flatMap] at hi
    rcases hi with rfl | ⟨a, -, ha⟩ | hi
    · exact ⟨nofun, nofun⟩
    · exact attr_items_plain _ a i ha
    · cases im <;> simp at hi
      subst hi; exact ⟨nofun, nofun⟩
  | doctype l name parts tail =>
    simp only [Mark.items, List.cons_append, List.mem_cons, List.mem_append, List.mem_flatMap] at hi
    rcases hi with rfl | ⟨a, -, ha⟩ | hi
    · exact ⟨nofun, nofun⟩
    · obtain ⟨g, p⟩ := a
      cases p <;> simp [DocPart.items] at ha
      subst ha; exact ⟨nofun, nofun⟩
    · simp at hi
      subst hi; exact ⟨nofun, nofun⟩
  | _ => simp [Mark.items] at hi <;> (try subst hi) <;> exact ⟨nofun, nofun⟩

theorem textItem_plain (seek : Bool) (gs : List Glyph) : ∀ i ∈ textItem seek gs, i.1 ≠ .Exit ∧ i.1 ≠ .ErrorOccurred := by
  intro i hi
  have h : ∀ gs : List Glyph, i ∈ (if gs = [] then [] else [(ElementType.Content, meant gs)]) → i.1 ≠ .Exit ∧ i.1 ≠ .ErrorOccurred := by
    intro gs hi
    split at hi
    · cases hi
    · rw [List.mem_singleton.1 hi]; exact ⟨nofun, nofun⟩
  exact h _ hi

theorem items_end : ∀ (ms : List Mark) (seek : Bool) (gs : List Glyph),
    ∃ l, items seek gs ms = l ++ [(.Exit, [])] ∧ ∀ i ∈ l, i.1 ≠ .Exit ∧ i.1 ≠ .ErrorOccurred
  | [], seek, gs => ⟨_, rfl, textItem_plain _ _⟩
  | m :: ms, seek, gs => by
    have main : items seek gs (m :: ms) = textItem seek gs ++ m.items ++ items m.seeks [] ms →
        ∃ l, items seek gs (m :: ms) = l ++ [(.Exit, [])] ∧ ∀ i ∈ l, i.1 ≠ .Exit ∧ i.1 ≠ .ErrorOccurred := by
      intro h
      obtain ⟨l, h1, h2⟩ := items_end ms m.seeks []
      refine ⟨textItem seek gs ++ m.items ++ l, by rw [h, h1, List.append_assoc _ l], fun i hi => ?_⟩
      rcases List.mem_append.1 hi with hi | hi
      · rcases List.mem_append.1 hi with hi | hi
        · exact textItem_plain _ _ i hi
        · exact mark_items_plain m i hi
      · exact h2 i hi
    cases m with
    | text hs => exact items_end ms seek (gs ++ hs)
    | _ => exact main rfl

theorem document_end (d : Document) :
    d.items = d.items.dropLast ++ [(.Exit, [])] ∧ ∀ i ∈ d.items.dropLast, i.1 ≠ .Exit ∧ i.1 ≠ .ErrorOccurred := by
  obtain ⟨l, h1, h2⟩ := items_end d.body true []
  have h3 : ∃ l, d.items = l ++ [(.Exit, [])] ∧ ∀ i ∈ l, i.1 ≠ .Exit ∧ i.1 ≠ .ErrorOccurred := by
    obtain ⟨lead, header, body⟩ := d
    cases header with
    | none => exact ⟨l, h1, h2⟩
    | some x =>
      obtain ⟨a, attrs, b⟩ := x
      refine ⟨((.HeaderStart, codes "?xml") :: attrs.flatMap (Attr.items true) ++ [(.HeaderEnd, [])]) ++ l, ?_, ?_⟩
      · rw [List.append_assoc _ l, ← h1]; rfl
      · intro i hi
        rcases List.mem_append.1 hi with hi | hi
        · simp only [List.cons_append, List.mem_cons, List.mem_append, List.mem_flatMap] at hi
          rcases hi with rfl | ⟨a, -, ha⟩ | hi
          · exact ⟨nofun, nofun⟩
          · exact attr_items_plain _ a i ha
          · simp at hi
            subst hi; exact ⟨nofun, nofun⟩
        · exact h2 i hi
  obtain ⟨l, h1, h2⟩ := h3
  rw [h1, List.dropLast_concat]
  exact ⟨rfl, h2⟩

theorem document_written (d : Document) :
    written (d.items.map fun i => (i.1, i.2.flatMap output.print)) = reportOf output d ∧
    endOf (d.items.map fun i => (i.1, i.2.flatMap output.print)) = some (.returned true) := by
  obtain ⟨h1, h2⟩ := document_end d
  have h3 := written_report (d.items.dropLast.map fun i => (i.1, i.2.flatMap output.print)) (by
    intro i hi
    obtain ⟨j, hj, rfl⟩ := List.mem_map.1 hi
    exact h2 j hj) [(.Exit, [])]
  have h4 : (d.items.map fun i => (i.1, i.2.flatMap output.print)) =
      (d.items.dropLast.map fun i => (i.1, i.2.flatMap output.print)) ++ [(.Exit, [])] := by
    conv => lhs; rw [h1]
    rw [List.map_append]
    rfl
  rw [h4, h3.1, h3.2]
  simp [written, endOf, reportOf]

theorem asks_all (m : Nat) : ∀ x ∈ asks m, ∀ t : ElementType, x.1.testBit t.toNat = true := by
  intro x hx t
  rw [(List.mem_replicate.1 hx).2]
  cases t <;> decide

/-- **C96** — For a document of the grammar the example program `XMLScanner.cpp` writes a line for each item, with the name of its type and
its text, and ends without throwing. -/
theorem C96_document (he : PageOk e) {d : Document} (hd : d.Ok e) (hl : (d.bytes e).length + 24 ≤ 2 ^ 32) :
    ∃ N, ∀ n k, N ≤ n → d.items.length ≤ k →
      (showAll n k (cstrScanner e output em addr (d.bytes e))).1 = (reportOf output d, .returned true) := by
  obtain ⟨N, h⟩ := C66_document (output := output) (em := em) (addr := addr) he hd (calls := asks d.items.length) (by simp [asks]) (asks_all _)
  obtain ⟨s, h⟩ := h N (Nat.le_refl _)
  obtain ⟨N, h1⟩ := C81_cstring (doc := d.bytes e) ((Mach.AllW.document he hd).bytes he) hl h
  refine ⟨N, fun n k hn hk => ?_⟩
  obtain ⟨s1, h2⟩ := h1 n hn
  have hw := document_written (output := output) d
  have hm : ((d.items.map fun i => { type := i.1, item := i.2.flatMap output.print, error := .Ok, pos := none : Obs }).map seen) =
      d.items.map fun i => (i.1, i.2.flatMap output.print) := by
    rw [List.map_map]; rfl
  rw [showAll_of_session _ k h2 (by rw [hm]; exact hw.2) (by simpa using hk), hm, hw.1]

/-- Any text: the lines of the items before the first end or error; then the program ends, after an error with an exception. The
exception has the text of the item, not the text that describes the error. -/
theorem C96_items (hb : ∀ b ∈ doc, b < 256) (hl : doc.length + 24 ≤ 2 ^ 32) {n' m : Nat} {l r : List Obs} {o : Obs} {s1 : Scanner (TextScanner SrcIt)}
    (h : session n' false (asks m) (oneScanner e output em addr doc) = (.ok (l ++ o :: r), s1))
    (hp : ∀ x ∈ l, x.type ≠ .Exit ∧ x.type ≠ .ErrorOccurred) (ho : o.type = .Exit ∨ o.type = .ErrorOccurred) :
    ∃ N, ∀ n k, N ≤ n → m ≤ k → (showAll n k (cstrScanner e output em addr doc)).1 =
      (report (l.map fun x => (x.type, x.item)),
        if o.type = .Exit then .returned true else .thrown (codes "xml error: " ++ o.item.takeWhile (· ≠ 0))) := by
  obtain ⟨N, h1⟩ := C81_cstring hb hl h
  have hlen : (l ++ o :: r).length = m := by
    obtain ⟨os', h2, h3, -⟩ := session_ok (fun _ => oneSrc_wrap) (oneScanner_rel e output em addr doc (strm_lt doc hb)) h
    rw [h3, List.length_map, h2.length]
    simp [asks]
  refine ⟨N, fun n k hn hk => ?_⟩
  obtain ⟨s2, h2⟩ := h1 n hn
  have hw := written_report (l.map fun x => (x.type, x.item)) (by
    intro i hi
    obtain ⟨x, hx, rfl⟩ := List.mem_map.1 hi
    exact hp x hx) ((o :: r).map seen)
  have hm : (l ++ o :: r).map seen = (l.map fun x => (x.type, x.item)) ++ (o :: r).map seen := List.map_append ..
  have ho' : endOf ((o :: r).map seen) = some (if o.type = .Exit then .returned true else .thrown (codes "xml error: " ++ o.item.takeWhile (· ≠ 0))) ∧
      written ((o :: r).map seen) = [] := by
    obtain ⟨t, x, er, p⟩ := o
    simp only at ho
    rcases ho with rfl | rfl
    · exact ⟨rfl, rfl⟩
    · exact ⟨rfl, rfl⟩
  rw [showAll_of_session _ k h2 (en := if o.type = .Exit then .returned true else .thrown (codes "xml error: " ++ o.item.takeWhile (· ≠ 0)))
    (by rw [hm, hw.2, ho'.1]) (by omega), hm, hw.1, ho'.2, List.append_nil]

/-- In a text without comments, processing instructions, CDATA sections and document type declarations, well formed or not, the program ends,
after at most as many lines as the text has bytes. -/
theorem C96_ends (hb : ∀ b ∈ doc, b < 256) (hl : doc.length + 24 ≤ 2 ^ 32) (hd : NoMarkup e doc) :
    ∃ N items en, items.length ≤ doc.length ∧ (en = .returned true ∨ ∃ w, en = .thrown (codes "xml error: " ++ w)) ∧
      ∀ n k, N ≤ n → doc.length < k → (showAll n k (cstrScanner e output em addr doc)).1 = (report items, en) := by
  obtain ⟨N, h⟩ := C95_ends (output := output) (em := em) (addr := addr) (sp := false) hb hd (calls := asks (doc.length + 1)) (by simp [asks])
  obtain ⟨os, s1, h1, o, h2, h3⟩ := h N (Nat.le_refl _)
  have hsplit : ∀ os : List Obs, (∃ o ∈ os, o.type = .ErrorOccurred ∨ o.type = .Exit) → ∃ l o r, os = l ++ o :: r ∧
      (∀ x ∈ l, x.type ≠ .Exit ∧ x.type ≠ .ErrorOccurred) ∧ (o.type = .Exit ∨ o.type = .ErrorOccurred) := by
    intro os
    induction os with
    | nil => rintro ⟨o, ho, -⟩; cases ho
    | cons x os ih =>
      rintro ⟨o, ho, h⟩
      by_cases hx : x.type = .Exit ∨ x.type = .ErrorOccurred
      · exact ⟨[], x, os, rfl, (fun _ h => nomatch h), hx⟩
      · rcases List.mem_cons.1 ho with rfl | ho
        · exact absurd h.symm hx
        · obtain ⟨l, o', r, g1, g2, g3⟩ := ih ⟨o, ho, h⟩
          refine ⟨x :: l, o', r, by rw [g1]; rfl, fun y hy => ?_, g3⟩
          rcases List.mem_cons.1 hy with rfl | hy
          · exact ⟨fun h => hx (.inl h), fun h => hx (.inr h)⟩
          · exact g2 y hy
  obtain ⟨l, o, r, rfl, g2, g3⟩ := hsplit os ⟨o, List.mem_of_mem_take h2, h3⟩
  obtain ⟨N', h4⟩ := C96_items hb hl h1 g2 g3
  have hlen : (l ++ o :: r).length = doc.length + 1 := by
    obtain ⟨os', h2, h3, -⟩ := session_ok (fun _ => oneSrc_wrap) (oneScanner_rel e output em addr doc (strm_lt doc hb)) h1
    rw [h3, List.length_map, h2.length]
    simp [asks]
  refine ⟨N', _, _, ?_, ?_, fun n k hn hk => h4 n k hn hk⟩
  · simp at hlen ⊢; omega
  · split
    · exact .inl rfl
    · exact .inr ⟨_, rfl⟩

/-! ## Complete characters -/

theorem whole_here (he : PageOk e) {f : Nat → Byte} : ∀ (cs : List UChar) (k : Nat), Mach.Here e f k cs → Mach.AllW e cs →
    ∃ n, offs e f k n = k + (cs.flatMap e.print).length
  | [], k, _, _ => ⟨0, rfl⟩
  | c :: cs, k, h, hw => by
    obtain ⟨-, h1, h2⟩ := h.char he (hw c List.mem_cons_self)
    obtain ⟨n, h3⟩ := whole_here he cs _ h2 (fun x hx => hw x (List.mem_cons_of_mem _ hx))
    refine ⟨1 + n, ?_⟩
    rw [Mach.offs_add, Mach.offs_one, h3, List.flatMap_cons, List.length_append, h1]
    omega

/-- A document of the grammar consists of complete characters. -/
theorem whole_document (he : PageOk e) {d : Document} (hd : d.Ok e) : TW.Whole e (d.bytes e) := by
  obtain ⟨n, h⟩ := whole_here he _ _ (Mach.Here.start d.spell) (Mach.AllW.document he hd)
  exact ⟨n, by rw [Nat.zero_add] at h; exact h⟩

/-- **C51** — A document of the grammar, read with a pointer: its items are returned, and nothing behind the terminating null is read,
whatever the fuel. -/
theorem C51_document (he : PageOk e) {d : Document} (hd : d.Ok e) {pre : List Byte} {calls : List (Nat × Bool)}
    (hl : calls.length = d.items.length) (hm : ∀ x ∈ calls, ∀ t : ElementType, x.1.testBit t.toNat = true) :
    ∃ N, ∀ n, (∃ s, session n false calls (ptrScanner e output em addr (terminated e (d.bytes e)) pre) =
        (.ok (d.items.map fun i => { type := i.1, item := i.2.flatMap output.print, error := .Ok, pos := none }), s)) ∨
      (n < N ∧ ∃ s, session n false calls (ptrScanner e output em addr (terminated e (d.bytes e)) pre) = (.stop .fuel, s)) := by
  obtain ⟨N, h⟩ := C66_document (output := output) (em := em) (addr := addr) he hd hl hm
  obtain ⟨s, h⟩ := h N (Nat.le_refl _)
  exact C51_returns_partial ((Mach.AllW.document he hd).bytes he) (whole_document he hd) h

/-! ## Chunks -/

theorem fresh_rel {c : List Byte} {cs : List (List Byte)} (hd : doc = c ++ cs.flatten) (hb : ∀ k, strm doc k < 256) (it : SrcIt) :
    ∃ hd', SRel0 (chunkSrc doc hb false [] c (cs ++ [[]]) hd') e
      (Scanner.feed true c true (Scanner.mk' (TextScanner.mk' e it) output em addr)) (Cfg.new output em addr) := by
  have hd' : doc = [] ++ (c ++ (cs ++ [[]]).flatten) := by rw [hd]; simp
  refine ⟨hd', ?_⟩
  have hm : Scanner.feed true c true (Scanner.mk' (TextScanner.mk' e it) output em addr) =
      Scanner.mk' (TextScanner.mk' e (SrcIt.mk' c true)) output em addr := rfl
  have hne : (!(cs ++ [[]]).isEmpty) = true := by cases cs <;> rfl
  rw [hm]
  refine SRel0.new ?_ trivial output em addr
  refine ⟨?_, hne.symm, Nat.zero_le _, rfl, ?_⟩
  · have := chunk_slice [] c (cs ++ [[]]).flatten
    rw [List.nil_append, ← List.nil_append (c ++ _), ← hd'] at this
    exact this.symm
  · intro _
    simp [SrcIt.mk']

/-- The calls of `output` of the example `XMLScanner_chunkwise.cpp` for a document of the grammar with its terminating null, in chunks of any
sizes: all calls together write the lines of the document, and the last one returns `true`. -/
theorem C96_chunks (he : PageOk e) {d : Document} (hd : d.Ok e) {chunks : List (List Byte)}
    (hc : chunks.flatten = terminated e (d.bytes e)) (it : SrcIt) :
    ∃ N, ∀ n k, N ≤ n → d.items.length ≤ k →
      (outputChunks n k chunks (Scanner.mk' (TextScanner.mk' e it) output em addr)).1 = (reportOf output d, .returned true) := by
  have hb := (Mach.AllW.document he hd).bytes he
  obtain ⟨os, h1, h2⟩ := Mach.document_gives (output := output) he hd _ 0 _ (Mach.Here.start d.spell) (Mach.Rdy.new (em := em) (addr := addr))
    (asks d.items.length) (by simp [asks]) (asks_all _)
  obtain ⟨K, h3⟩ := Mach.quick_of_runs h1
  have hst := strm_pad (d.bytes e) (unitSize e)
  cases chunks with
  | nil =>
    exfalso
    have := congrArg List.length hc
    simp [terminated] at this
    cases e <;> simp [unitSize] at this
  | cons c cs =>
    have hb' : ∀ k, strm (terminated e (d.bytes e)) k < 256 := by
      unfold terminated; rw [hst]; exact strm_lt _ hb
    obtain ⟨hd', h4⟩ := fresh_rel (e := e) (output := output) (em := em) (addr := addr) (c := c) (cs := cs)
      (show terminated e (d.bytes e) = c ++ cs.flatten by rw [← hc]; rfl) hb' it
    refine ⟨K + 7 * cs.length + 1, fun n k hn hk => ?_⟩
    have ht : Mach.texts os = d.items.map fun i => (i.1, i.2.flatMap output.print) := by
      have := congrArg (List.map fun x : ElementType × List Byte × Err => (x.1, x.2.1)) h2
      rw [List.map_map, List.map_map] at this
      exact this
    have hlen : os.length = d.items.length := by
      have := congrArg List.length ht
      simpa [Mach.texts] using this
    have hw := document_written (output := output) d
    rw [outputChunks_cons]
    have hf : Mach.Ends (strm (terminated e (d.bytes e))) (d.bytes e).length := by
      unfold terminated; rw [hst]; exact strm_ends _
    have hwf : e = .utf8 → Continued (terminated e (d.bytes e)) := by
      rintro rfl
      unfold Continued terminated
      rw [hst]
      exact continued_print _ fun x hx => (Mach.AllW.document he hd x hx).2.2
    have hl : Mach.Leads e (strm (terminated e (d.bytes e))) (d.bytes e).length (Cfg.new output em addr) := by
      obtain ⟨m, hm⟩ := whole_document he hd
      refine .inl ⟨m, ?_⟩
      unfold terminated
      rw [hst]
      exact hm
    have hq : Mach.Quick e (strm (terminated e (d.bytes e))) K (Cfg.new output em addr) os := by
      unfold terminated; rw [hst]; exact h3
    rw [goOn_quick hwf hf (by simp [terminated]) cs (h4.rel _) hl hq (by rw [ht]; exact hw.2) (by omega) (by omega) (by omega), ht, hw.1]

/-! ## Examples -/

/-- The conditions, for a document with all kinds of marks. -/
example : grammarExample.Ok .utf8 ∧ (grammarExample.bytes .utf8).length + 24 ≤ 2 ^ 32 :=
  ⟨grammarExample_ok (fun p h => nomatch h) (by simp [Direct]), by decide +kernel⟩

/-- The same document, cut in the middle of a character and behind the terminating null. -/
example : [(grammarExample.bytes .utf8).take 110, (grammarExample.bytes .utf8).drop 110, [0]].flatten = terminated .utf8 (grammarExample.bytes .utf8) := by
  decide +kernel

example : showAll 100 10 (cstrScanner .utf8 .utf8 none 0 (codes "<a x='1'>b<c/></a>")) |>.1 |> (· = (codes
    "OpenTag a\nTagAttribName x\nTagAttribValue 1\nContent b\nOpenTag c\nCloseTagIm \nCloseTag a\n", .returned true)) := by
  decide +kernel

/-- A text with an error: the exception has the name of the tag and does not tell the error. -/
theorem C96_error : (showAll 100 10 (cstrScanner .utf8 .utf8 none 0 (codes "<a>b</a x>"))).1 =
    (codes "OpenTag a\nContent b\nCloseTag a\n", .thrown (codes "xml error: a")) := by
  decide +kernel

/-- Without the terminating null in the chunks the last call returns `false`. -/
theorem C96_null : (outputChunks 100 10 [codes "<a>b</", codes "a>"] (Scanner.mk' (TextScanner.mk' .utf8 (SrcIt.mk' [] true)) .utf8 none 0)).1 =
      (codes "OpenTag a\nContent b\nCloseTag a\n", .returned false) ∧
    (outputChunks 100 10 [codes "<a>b</", codes "a>", [0]] (Scanner.mk' (TextScanner.mk' .utf8 (SrcIt.mk' [] true)) .utf8 none 0)).1 =
      (codes "OpenTag a\nContent b\nCloseTag a\n", .returned true) := by
  decide +kernel

end TW
