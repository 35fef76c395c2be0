import Verif.Proofs.PathGrammar
import Verif.Props.Pipeline

/-!
# Properties C77, C78: the expressions the parser takes
-/

namespace TW

open Spec Spec.Path TW.Path Scanner

variable {se e : Enc}

/-- The parser on any text without namespaces. -/
theorem addExpression_reads (hse : PageOk se) {n : Nat} {type : Int} {cs : List UChar}
    {src : List Byte} (hsrc : src = cs.flatMap se.print) (hd : ∀ c ∈ cs, c ≠ 0 ∧ c < 2 ^ 32 ∧ Direct se c)
    (hns : ¬ Colons src) (hlen : src.length + 8 < 2 ^ 32) (hn : cs.length < n) (a : Atm) :
    ∃ toks acts cs1 cs2, cs = cs1 ++ cs2 ∧ Texts toks cs1 ∧ (∀ k ∈ toks, k.Ok) ∧ runToks e .SelectStart toks = some acts ∧
      ((cs2 = [] ∧ addExpression se e n type src a = parsed (runActs e n type acts [{}] a)) ∨
        (cs2 ≠ [] ∧ ∃ p rest, cs2 = p ++ rest ∧ addExpression se e n type src a =
          match triedActs e n acts [{}] a with
          | (.ok _, a') => (.ok (src.length - (rest.flatMap se.print).length + 1), a')
          | (.stop er, a') => (.stop er, a'))) := by
  obtain ⟨hb, hrd⟩ := Rd.begin hse hsrc hd (by omega)
  obtain ⟨toks, acts, cs1, cs2, h1, h2, h3, h4, t', h5⟩ := loop_reads (e' := e) (type := type) hse hlen n .SelectStart [{}] _ a cs hrd hn hn
  refine ⟨toks, acts, cs1, cs2, h1, h2, h3, h4, ?_⟩
  unfold addExpression
  rw [nsPos_none fun i h => hns ⟨i, h⟩]
  simp only []
  rcases h5 with ⟨rfl, h5⟩ | ⟨h6, p, rest, h7, h5⟩
  · exact .inl ⟨rfl, by rw [h5]⟩
  · refine .inr ⟨h6, p, rest, h7, ?_⟩
    rw [h5]
    rcases triedActs e n acts [{}] a with ⟨r | r, a'⟩ <;> rfl

/-- C77: the parser accepts exactly the texts of the grammar. Whatever the text is, in any character set, and for any automaton: if the parser
returns, then the value is 0 for texts of the grammar, and for all other texts the offset, plus one, of a character of the text or of its end.
Texts with "::" are rejected in any case, see `C65_namespaces`. -/
theorem C77_language (hse : PageOk se) {n : Nat} {type : Int} {cs : List UChar}
    {src : List Byte} (hsrc : src = cs.flatMap se.print) (hd : ∀ c ∈ cs, c ≠ 0 ∧ c < 2 ^ 32 ∧ Direct se c)
    (hns : ¬ Colons src) (hlen : src.length + 8 < 2 ^ 32) (hn : cs.length < n) {a a' : Atm} {r : Nat}
    (h : addExpression se e n type src a = (.ok r, a')) :
    (r = 0 ↔ Valid cs) ∧ (r ≠ 0 → ∃ pre rest, cs = pre ++ rest ∧ r = (pre.flatMap se.print).length + 1) := by
  obtain ⟨toks, acts, cs1, cs2, rfl, h2, h3, h4, h5⟩ := addExpression_reads (e := e) (type := type) hse hsrc hd hns hlen hn a
  rcases h5 with ⟨rfl, h5⟩ | ⟨h6, p, rest, rfl, h5⟩
  · obtain ⟨p, k1, k2⟩ := toks_start h3 h4
    have hr : r = 0 := by
      rw [h] at h5
      rcases hx : runActs e n type acts [{}] a with ⟨u | er, b⟩
      · rw [hx, parsed_ok] at h5; cases h5; rfl
      · rw [hx, parsed_stop] at h5; cases h5
    refine ⟨⟨fun _ => ⟨p, k1, ?_⟩, fun _ => hr⟩, fun k => (k hr).elim⟩
    show Texts p.toks _
    rw [k2, List.append_nil]
    exact h2
  · have hr : r = src.length - (rest.flatMap se.print).length + 1 := by
      rw [h] at h5
      rcases hx : triedActs e n acts [{}] a with ⟨u | er, b⟩
      · rw [hx] at h5; cases h5; rfl
      · rw [hx] at h5; cases h5
    refine ⟨⟨fun k => by omega, fun ⟨q, k1, k2⟩ => ?_⟩, fun _ => ⟨cs1 ++ p, rest, by simp, ?_⟩⟩
    · have h7 := addExpression_acts (e := e) (type := type) hse k1 k2 hsrc hd (fun i k => hns ⟨i, k⟩) (by omega) hn a
      rw [h] at h7
      rcases hx : runActs e n type (pathActs e q) [{}] a with ⟨u | er, b⟩
      · rw [hx, parsed_ok] at h7; cases h7; rfl
      · rw [hx, parsed_stop] at h7; cases h7
    · rw [hr, hsrc]
      simp only [List.flatMap_append, List.length_append]
      omega

theorem ascii_print {cs : List UChar} (h : ∀ c ∈ cs, c < 128) : cs.flatMap Enc.utf8.print = cs := by
  have hp : ∀ c : Fin 128, Enc.utf8.print c.1 = [c.1] := by decide +kernel
  induction cs with
  | nil => rfl
  | cons c cs ih =>
    rw [List.flatMap_cons, hp ⟨c, h c (by simp)⟩, ih fun c hc => h c (by simp [hc])]
    rfl

/-- The result of the parser tells if a short text is of the grammar. -/
theorem ascii_valid {cs : List UChar} (h1 : ∀ c ∈ cs, c ≠ 0 ∧ c < 128 ∧ c ≠ 58) (h2 : cs.length < 50) {r : Nat}
    (h3 : (addExpression .utf8 .utf8 100 1 (cs.flatMap Enc.utf8.print) []).1 = .ok r) : r = 0 ↔ Valid cs := by
  have hf := ascii_print fun c hc => (h1 c hc).2.1
  refine (C77_language (se := .utf8) (e := .utf8) (n := 100) (type := 1) (a := []) (a' := (addExpression .utf8 .utf8 100 1 (cs.flatMap Enc.utf8.print) []).2)
    (fun p h => nomatch h) rfl (fun c hc => ⟨(h1 c hc).1, by have := (h1 c hc).2.1; omega, ?_⟩) ?_ (by rw [hf]; omega) (by omega) (by rw [← h3])).1
  · simp only [Direct]
    have := (h1 c hc).2.1
    omega
  · rintro ⟨i, k, -⟩
    rw [hf] at k
    exact (h1 58 (List.mem_of_getElem? k)).2.2 rfl

/-- Neither a hyphen nor nine digits: the results of the parser tell what is not of the grammar. -/
example : ¬ Valid (codes "/a-b") ∧ ¬ Valid (codes "/a[123456789]") ∧ Valid (codes "/a[12345678]") := by
  refine ⟨fun k => ?_, fun k => ?_, ?_⟩
  · have := (ascii_valid (r := 3) (by decide) (by decide) (by decide +kernel)).2 k
    omega
  · have := (ascii_valid (r := 13) (by decide) (by decide) (by decide +kernel)).2 k
    omega
  · exact (ascii_valid (r := 0) (by decide) (by decide) (by decide +kernel)).1 rfl

/-! ## Rejected expressions -/

theorem listed_infix {l : List (List UChar)} : ∀ {r : List UChar}, Listed l r → ∀ id ∈ l, ∃ x y, r = x ++ id ++ y := by
  induction l with
  | nil => intro r h; exact h.elim
  | cons a l ih =>
    intro r h id hid
    cases l with
    | nil =>
      obtain ⟨b, b', -, -, rfl⟩ := h
      simp at hid
      subst hid
      exact ⟨b, b', rfl⟩
    | cons a' l =>
      obtain ⟨b, b', r', -, -, rfl, h'⟩ := h
      rcases List.mem_cons.1 hid with rfl | hid
      · exact ⟨b, b' ++ [44] ++ r', by simp⟩
      · obtain ⟨x, y, rfl⟩ := ih h' id hid
        exact ⟨b ++ a ++ b' ++ [44] ++ x, y, by simp⟩

/-- The key of an identifier is not empty. -/
theorem identifier_asked (he : ByteSet e) {id : List UChar} (h : Identifier id) (hc : ∀ c ∈ id, c < 2 ^ 32 ∧ Direct e c) : asked e id ≠ [] := by
  obtain ⟨h1, h2⟩ := h
  cases id with
  | nil => exact (h1 rfl).elim
  | cons c id =>
    have h3 := h2 c (List.mem_cons_self ..)
    have h4 : InName c := by
      refine ⟨h3.1, fun k => h3.2.1 ?_⟩
      have : ∀ c ∈ ascii "!\"&'/<=>?[]", c ∈ ascii "!\"&'()*,-/;<=>?@[]{}~" := by decide
      exact this c k
    have h5 := print_ne (byteSet_page he).1 (hc c (List.mem_cons_self ..)).1 (hc c (List.mem_cons_self ..)).2
    have h6 : unamp c = c := by
      unfold unamp
      rw [if_neg]
      rintro rfl
      exact h4.2 (by decide)
    unfold asked taken
    rw [List.takeWhile_cons_of_pos (by simp [h4]), List.flatMap_cons, h6]
    cases hp : e.print c with
    | nil => rw [hp] at h5; cases h5
    | cons b bs => simp

/-- The calls of a piece. -/
theorem tok_fine (he : ByteSet e) {n : Nat} {k : Tok} (hk : k.Ok) {p : List UChar} (hp : k.Text p)
    (hq : ∀ c ∈ p, c < 2 ^ 32 ∧ Direct e c ∧ c ≠ 0) (hl : p.length < n) {st st' : PState} {act : Act}
    (h : k.next e st = some (act, st')) : act.Fine True e n := by
  have self : ∀ {id : List UChar}, Identifier id → (∃ x y, p = x ++ id ++ y) → NameOk e n (some (id.flatMap e.print)) := by
    rintro id hi ⟨x, y, rfl⟩ nm hm
    cases hm
    simp only [List.length_append] at hl
    refine ⟨asked e id, C85_key he (fun c hc => hq c (by simp [hc])) (by omega), identifier_asked he hi fun c hc => ?_⟩
    have := hq c (by simp [hc])
    exact ⟨this.1, this.2.1⟩
  have plain : ∀ {c : PElem.Call}, NamesOk True e n c → (∀ ty, c ≠ .assign ty) → Act.Fine True e n (.call c) := fun h1 h2 => ⟨h1, h2⟩
  cases k with
  | «at» => simp only [Tok.next] at h; split at h <;> cases h; trivial
  | slash d =>
    simp only [Tok.next] at h
    split at h
    · cases h
      cases d
      · trivial
      · exact plain trivial fun _ k => nomatch k
    · cases h
  | content => simp only [Tok.next] at h; split at h <;> cases h; exact plain trivial fun _ k => nomatch k
  | close => simp only [Tok.next] at h; split at h <;> cases h; exact plain trivial fun _ k => nomatch k
  | cond c =>
    simp only [Tok.next] at h
    split at h
    · cases h
      cases c with
      | attr name value =>
        obtain ⟨b1, b2, b3, b4, b5, -, -, -, -, -, rfl⟩ := hp
        refine plain ⟨self hk.1 ⟨[91] ++ b1 ++ [64] ++ b2, b3 ++ [61] ++ b4 ++ value.text ++ b5 ++ [93], by simp⟩, ?_⟩ fun _ k => nomatch k
        simp only [List.length_append] at hl
        have hv : ∀ c ∈ value.chars, c ∈ value.text := by
          cases value with
          | bare cs => exact fun c hc => hc
          | quoted q cs => exact fun c hc => by simpa [TValue.text] using .inr (.inl hc)
        have hl' : value.chars.length ≤ value.text.length := by
          cases value with
          | bare cs => exact Nat.le_refl _
          | quoted q cs => simp [TValue.text, TValue.chars]; omega
        exact ⟨asked e value.chars, C85_key he (fun c hc => hq c (by simp [hv c hc])) (by omega), fun _ => ⟨trivial, rfl⟩⟩
      | index i => exact plain trivial fun _ k => nomatch k
      | range i j => exact plain trivial fun _ k => nomatch k
      | from' i => exact plain trivial fun _ k => nomatch k
    · cases h
  | name nm =>
    simp only [Tok.next] at h
    split at h
    · cases h
      have ids : ∀ id ∈ nm.ids, NameOk e n (some (id.flatMap e.print)) := by
        intro id hid
        cases nm with
        | any => cases hid
        | one cs =>
          simp [TName.ids] at hid
          subst hid
          exact self hk ⟨[], [], by simpa using (show p = id from hp)⟩
        | alt l =>
          obtain ⟨r, hr, rfl⟩ := hp
          obtain ⟨x, y, rfl⟩ := listed_infix hr id hid
          exact self (hk.2 id hid) ⟨[123] ++ x, y ++ [125], by simp⟩
      by_cases hs : st = .SelectAttribute
      all_goals
        cases nm with
        | any => simp only [nameAct, hs, if_true, if_false]; exact ⟨(fun _ k => nomatch k), fun _ k => nomatch k⟩
        | one cs => simp only [nameAct, hs, if_true, if_false]; exact ⟨ids cs (by simp [TName.ids]), fun _ k => nomatch k⟩
        | alt l =>
          simp only [nameAct, hs, if_true, if_false]
          intro x hx
          obtain ⟨cs, k1, rfl⟩ := List.mem_map.1 hx
          exact ids cs k1
    · cases h

theorem toks_fine (he : ByteSet e) {n : Nat} {ks : List Tok} : ∀ {p : List UChar} {st : PState} {acts : List Act}, (∀ k ∈ ks, k.Ok) → Texts ks p →
    (∀ c ∈ p, c < 2 ^ 32 ∧ Direct e c ∧ c ≠ 0) → p.length < n → runToks e st ks = some acts →
    ∀ x ∈ acts, x.Fine True e n := by
  induction ks with
  | nil => intro p st acts _ _ _ _ h; cases h; simp
  | cons k ks ih =>
    rintro p st acts hk ⟨q, b, r, h1, -, rfl, h2⟩ hq hl h
    obtain ⟨act, st', acts', h3, h4, rfl⟩ := runToks_cons h
    simp only [List.length_append] at hl
    intro x hx
    rcases List.mem_cons.1 hx with rfl | hx
    · exact tok_fine he (hk k (by simp)) h1 (fun c hc => hq c (by simp [hc])) (by omega) h3
    · exact ih (fun k h => hk k (by simp [h])) h2 (fun c hc => hq c (by simp [hc])) (by omega) h4 x hx

/-- A rejected text adds no output. -/
theorem wrong_same (hse : PageOk se) (he : ByteSet e) {n : Nat} {type : Int} {cs : List UChar} (hw : (Entry.wrong type cs).Ok se e)
    (hl : cs.length < n) {a : Atm} {lab : List (List Edge)} (h : TW.Path.At True a lab {} []) :
    ∃ r a' lab', addExpression se e n type (cs.flatMap se.print) a = (.ok r, a') ∧ r ≠ 0 ∧ TW.Path.Same True a lab a' lab' ∧
      (NoCont a → NoCont a') := by
  obtain ⟨h1, h2, h3⟩ := hw
  by_cases hc : Colons (cs.flatMap se.print)
  · obtain ⟨i, k1, k2⟩ : ∃ i : Nat, ((cs.flatMap se.print)[i]? = some 58 ∧ (cs.flatMap se.print)[i + 1]? = some 58) ∧
        ∀ j, j < i → ¬ ((cs.flatMap se.print)[j]? = some 58 ∧ (cs.flatMap se.print)[j + 1]? = some 58) := by
      obtain ⟨i, hi⟩ := hc
      induction i using Nat.strongRecOn with
      | ind i ih =>
        by_cases hj : ∃ j, j < i ∧ ((cs.flatMap se.print)[j]? = some 58 ∧ (cs.flatMap se.print)[j + 1]? = some 58)
        · obtain ⟨j, hj, hj'⟩ := hj
          exact ih j hj hj'
        · exact ⟨i, hi, fun j k1 k2 => hj ⟨j, k1, k2⟩⟩
    exact ⟨i + 1, a, lab, C65_namespaces se e n type k1 k2 a, by omega, .refl _ _, id⟩
  · obtain ⟨toks, acts, cs1, cs2, rfl, k2, k3, k4, k5⟩ := addExpression_reads (e := e) (type := type) hse rfl
      (fun c hc => ⟨(h2 c hc).1, (h2 c hc).2.1, (h2 c hc).2.2.1⟩) hc h3 hl a
    rcases k5 with ⟨rfl, k5⟩ | ⟨k6, p, rest, rfl, k5⟩
    · obtain ⟨p, j1, j2⟩ := toks_start k3 k4
      refine ((h1.resolve_left hc) ⟨p, j1, ?_⟩).elim
      show Texts p.toks _
      rw [j2, List.append_nil]
      exact k2
    · have hf := toks_fine (n := n) he k3 k2 (fun c hc => ⟨(h2 c (by simp [hc])).2.1, (h2 c (by simp [hc])).2.2.2, (h2 c (by simp [hc])).1⟩)
        (by simp only [List.length_append] at hl; omega) k4
      obtain ⟨ps', a', lab', j1, j2⟩ := acts_same (e := e) (n := n) hf (ps := [{}]) (vs := [([], {})]) (a := a) (lab := lab) ⟨⟨h, rfl⟩, trivial⟩
      have : triedActs e n acts [{}] a = (.ok (), a') := M.bind_ok j1
      rw [this] at k5
      refine ⟨_, a', lab', k5, by omega, j2, fun ha => ?_⟩
      have := (mild_acts (e := e) (n := n) (acts := acts) (ps := [{}]) (fun x hx ty hxy => by
        have := hf x hx
        subst hxy
        exact this.2 ty rfl) a ha).1
      rw [j1] at this
      exact this

/-- What texts add to the outputs of an automaton. -/
theorem addAll_entries (hse : PageOk se) (he : ByteSet e) {n : Nat} : ∀ {xs : List Entry},
    (∀ x ∈ xs, x.Ok se e ∧ x.codes.length < n) → ∀ {a : Atm} {lab : List (List Edge)}, TW.Path.At True a lab {} [] →
    ∃ rs a' lab', addAll se e n (xs.map fun x => (x.type, x.bytes se)) a = (.ok rs, a') ∧ rs.map (decide <| · = 0) = xs.map (·.written.isSome) ∧
      TW.Path.At True a' lab' {} [] ∧ ((∀ w ∈ xs.filterMap Entry.written, ∀ d, w.path.final ≠ .content d) → NoCont a → NoCont a') ∧
      ∀ ty, ty ≠ 0 → (outs a' lab' ty).map bareOut = (outs a lab ty).map bareOut ++
        (((xs.filterMap Entry.written).flatMap (Written.queries e)).filter (·.type = ty)).map fun x => (labelOf x, coreOf x) := by
  intro xs
  induction xs with
  | nil => intro _ a lab h; exact ⟨[], a, lab, rfl, rfl, h, fun _ => id, fun ty _ => by simp⟩
  | cons x xs ih =>
    intro hw a lab h
    obtain ⟨k1, k2⟩ := hw x (List.mem_cons_self ..)
    have hxs := fun y hy => hw y (List.mem_cons_of_mem x hy)
    cases x with
    | expr w =>
      obtain ⟨a1, lab1, h1, h2, h3⟩ := addAll_outs hse he (ws := [w]) (by simpa using ⟨k1, k2⟩) h
      obtain ⟨rs, a2, lab2, g1, g0, g2, g4, g3⟩ := ih hxs h2
      have h4 : addExpression se e n w.type (w.bytes se) a = (.ok 0, a1) := by
        simp only [List.map_cons, List.map_nil, addAll] at h1
        rcases hx : addExpression se e n w.type (w.bytes se) a with ⟨r | r, b⟩
        · rw [M.bind_ok hx] at h1
          cases h1
          rfl
        · rw [M.bind_stop hx] at h1
          cases h1
      refine ⟨0 :: rs, a2, lab2, ?_, by simp [g0, Entry.written], g2, fun hf ha => g4 (fun v hv => hf v ?_) ?_, fun ty hty => ?_⟩
      · unfold addAll
        simp only [List.map_cons]
        rw [M.bind_ok (show addExpression se e n (Entry.expr w).type ((Entry.expr w).bytes se) a = _ from h4), M.bind_ok g1]
        rfl
      · rw [List.filterMap_cons_some (show (Entry.expr w).written = some w from rfl)]
        exact List.mem_cons_of_mem _ hv
      · have := (hush_written (e := e) (n := n) hse k1.toFine k2 (hf w (by simp [Entry.written])) a ha).1
        rw [h4] at this
        exact this
      · rw [g3 ty hty, h3 ty hty]
        simp [Entry.written]
    | wrong type cs =>
      obtain ⟨r, a1, lab1, h1, h0, h2, h5⟩ := wrong_same hse he (type := type) k1 k2 h
      obtain ⟨rs, a2, lab2, g1, g0, g2, g4, g3⟩ := ih hxs (h2.2 _ _ h)
      refine ⟨r :: rs, a2, lab2, ?_, by simp [g0, h0, Entry.written], g2, fun hf ha => g4 (fun w hw => hf w ?_) (h5 ha), fun ty hty => ?_⟩
      · unfold addAll
        simp only [List.map_cons]
        rw [M.bind_ok (show addExpression se e n (Entry.wrong type cs).type ((Entry.wrong type cs).bytes se) a = _ from h1), M.bind_ok g1]
        rfl
      · rw [List.filterMap_cons_none (show (Entry.wrong type cs).written = none from rfl)]
        exact hw
      · rw [g3 ty hty, h2.1 ty hty, List.filterMap_cons_none (show (Entry.wrong type cs).written = none from rfl)]

/-- C78 (partial): texts that are no expressions between the expressions added to an automaton. The parser returns 0 for the expressions and another value for
the other texts, and the types are reported at the items of a document as if only the expressions had been given.

Missing: what is missing in C74 for the expressions. -/
theorem C78_rejected_partial (hse : PageOk se) (he : ByteSet e) {n : Nat} {xs : List Entry}
    (hx : ∀ x ∈ xs, x.Ok se e ∧ x.codes.length < n) {d : Document}
    (hh : d.header = none ∨ ∀ w ∈ xs.filterMap Entry.written, w.Inside) (hq : Calm (xs.filterMap Entry.written)) :
    ∃ rs a s, addAll se e n (xs.map fun x => (x.type, x.bytes se)) [] = (.ok rs, a) ∧ rs.map (decide <| · = 0) = xs.map (·.written.isSome) ∧
      Sel.mk' a = .ok s ∧ ∃ rss, (∃ N s', ∀ m, N ≤ m → Sel.feed m (docItems e d) s = (.ok rss, s')) ∧
        ∀ ty, ty ≠ 0 → rss.map (·.count ty) = answers ((xs.filterMap Entry.written).flatMap (Written.queries e)) ty [] none (docItems e d) := by
  obtain ⟨rs, a, lab, h1, h0, h2, h6, h3⟩ := addAll_entries hse he hx (at_start True)
  obtain ⟨s, h4, h5⟩ := select_written (se := se) he (ws := xs.filterMap Entry.written) (fun w hw => by
    obtain ⟨x, k1, k2⟩ := List.mem_filterMap.1 hw
    cases x with
    | expr v => cases k2; exact (hx _ k1).1
    | wrong _ _ => cases k2) hh hq h2 h3 (fun k => h6 k fun j st hj => by simp at hj)
  exact ⟨rs, a, s, h1, h0, h4, h5⟩

/-- The expressions of `writtenExample` with an identifier that begins with a hyphen, behind a condition with a quoted value, before and `/a::b` behind them. -/
def entriesExample : List Entry := .wrong 1 (codes "/a[@b='']/-x") :: (writtenExample.map .expr ++ [.wrong 2 (codes "/a::b")])

example : (∀ x ∈ entriesExample, x.Ok .utf8 .utf8 ∧ x.codes.length < 2000) ∧ entriesExample.filterMap Entry.written = writtenExample ∧
    (∀ w ∈ entriesExample.filterMap Entry.written, w.Inside) ∧ Calm (entriesExample.filterMap Entry.written) ∧ entriesExample.map (·.written.isSome) = [false, true, true, true, true, true, false] := by
  refine ⟨fun x hx => ?_, rfl, writtenExample_inside.1, writtenExample_inside.2, rfl⟩
  simp only [entriesExample, List.mem_cons, List.mem_append, List.mem_map, List.not_mem_nil, or_false] at hx
  rcases hx with rfl | ⟨w, hw, rfl⟩ | rfl
  · refine ⟨⟨.inr fun k => ?_, by simp only [Direct]; decide, by decide⟩, by decide⟩
    have := (ascii_valid (r := 11) (by decide) (by decide) (by decide +kernel)).2 k
    omega
  · exact writtenExample_ok w hw
  · exact ⟨⟨.inl ⟨2, by decide⟩, by simp only [Direct]; decide, by decide⟩, by decide⟩

end TW
