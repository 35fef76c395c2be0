import Verif.Proofs.Escape

/-!
# Properties of the printer (C38, C39, C40, C41, C54, C60, C61, C62)
-/

namespace TW

open Spec Printer

/-- C38. For every history of calls the printer accepts the calls that `docRun` accepts, and prints
the pieces `docRun` tells in the output encoding. In `docRun` the tags not closed form a list; a
close is accepted if this list is not empty, the last name in it is not empty and no attribute
value is missing, and it prints the name of the last tag opened, or `/>` if nothing has been printed
since the tag was opened. The strings have at most 2^32 - 16 bytes, and the allocator grants the
memory for the names. -/
theorem C38_lifo (mem : Nat → Byte) (app out : Enc) (sub : Bool) (cs : List PCall) (limit : Nat)
    (hs : ∀ c ∈ cs, ∀ x ∈ c.strings, (∀ b ∈ x, b < 256) ∧ x.length + 16 ≤ 2 ^ 32)
    (hn : 2 * nameNeed cs ≤ limit) (hl : limit < 2 ^ 63) :
    ∃ s, calls limit cs (new mem app out sub) = (.ok (docRun cs (Doc.init sub)).1, s) ∧
      s.buf = ((docRun cs (Doc.init sub)).2.1.flatMap (Piece.chars app)).flatMap out.print := by
  obtain ⟨s, h1, -, h2, -⟩ := Printer.calls_run hl cs (prel_new limit mem app out sub) hs
    (by show 2 * (0 + _) ≤ _; omega)
  exact ⟨s, h1, h2⟩

/-- A history in which a close is rejected for each of the reasons, and others print the names. -/
example : let cs : List PCall := [.close, .header none none, .open_ [97], .attr [98], .close, .value [60], .open_ [99],
      .close, .value [100], .open_ [], .close, .exit, .copy fun _ => 3, .reset true, .open_ [101], .value [102], .close, .close]
    (∀ c ∈ cs, ∀ x ∈ c.strings, (∀ b ∈ x, b < 256) ∧ x.length + 16 ≤ 2 ^ 32) ∧ 2 * nameNeed cs ≤ 1000 ∧
    (docRun cs (Doc.init false)).1 = [false, true, true, true, false, true, true, true, true, true, false, true, true,
      true, true, true, true, false] ∧
    ((docRun cs (Doc.init false)).2.1.flatMap (Piece.chars .utf8)).flatMap (Enc.print .utf8) =
      lit "<?xml version=\"1.0\" encoding=\"UTF-8\"?>\n<a b=\"&lt;\"><c/>d<><e>f</e>\n" := by
  refine ⟨?_, by decide, by decide +kernel, by decide +kernel⟩
  decide +kernel

/-- Property C39 (printed content contains no `<`) does not hold as stated: with the output encoding
UTF-8 the highest bit of a code from 0x80000000 on is lost. For the four bytes 80 00 00 3C in UCS-4,
or for the malformed UTF-8 FE 82 80 80 80 80 BC, the printer writes a sequence of six bytes that the
library itself decodes as `<`. (The scanner does not take it for markup, as it is no single byte.) -/
theorem C39_escaped_false :
    (decode .utf8 (printContent [0x80, 0, 0, 60] (new (fun _ => 0) (.ucs4 true) .utf8 true)).2.buf = [60]) ∧
    (decode .utf8 (printContent [0xFE, 0x82, 0x80, 0x80, 0x80, 0x80, 0xBC] (new (fun _ => 0) .utf8 .utf8 true)).2.buf =
      [60]) := by
  decide +kernel

/-- The part of C39 that holds, for content: what is printed can be read back as characters `cs`
which have no `<`, no `>`, and `&` only at the start of a reference. Missing: codes above 0x7FFFFFFF
if the output is UTF-8. -/
theorem C39_content_partial (v : List Byte) (s : Printer) (hb : ∀ b ∈ v, b < 256) (hl : v.length + 16 ≤ 2 ^ 32)
    (hp : ∀ p, s.out = .isolatin p → 1 ≤ p ∧ p ≤ 9) (hu : s.out = .utf8 → ∀ c ∈ decode s.app v, c ≤ 0x7FFFFFFF) :
    ∃ cs, printContent v s = (.ok (), { s with buf := s.buf ++ cs.flatMap s.out.print }) ∧
      decode s.out (cs.flatMap s.out.print) = cs ∧ SafeText [] cs := by
  obtain ⟨cs, h1, h2, h3⟩ := esc_safe (e := s.out) hp (bad := []) (esc := escContent)
    (fun c => by
      rcases escContent_safe (c := c) with h | ⟨h1, -, h2⟩
      · exact .inl h
      · exact .inr ⟨h1, by simp, h2⟩)
    (decode s.app v) (fun c hc => ⟨decode_ne _ _ c hc, decode_lt _ hb c hc, fun h => hu h c hc⟩)
  refine ⟨cs, ?_, decode_print hp h2, h3⟩
  rw [printContent_run ⟨hb, hl⟩ s]
  simp only [Piece.chars]
  rw [h1]

/-- The part of C39 that holds, for attribute values: between two double quotes there are, in
addition, no quotes, tabs and line breaks. -/
theorem C39_attribute_partial (v : List Byte) (s : Printer) (hb : ∀ b ∈ v, b < 256) (hl : v.length + 16 ≤ 2 ^ 32)
    (hp : ∀ p, s.out = .isolatin p → 1 ≤ p ∧ p ≤ 9) (hu : s.out = .utf8 → ∀ c ∈ decode s.app v, c ≤ 0x7FFFFFFF) :
    ∃ cs, printAttributeValue v s =
        (.ok (), { s with buf := s.buf ++ ([34] ++ cs ++ [34]).flatMap s.out.print }) ∧
      decode s.out (([34] ++ cs ++ [34]).flatMap s.out.print) = [34] ++ cs ++ [34] ∧
      SafeText [39, 34, 9, 10, 13] cs := by
  obtain ⟨cs, h1, h2, h3⟩ := esc_safe (e := s.out) hp (bad := [39, 34, 9, 10, 13]) (esc := escAttr)
    (fun c => escAttr_safe)
    (decode s.app v) (fun c hc => ⟨decode_ne _ _ c hc, decode_lt _ hb c hc, fun h => hu h c hc⟩)
  have h34 : Readable s.out [34] := readable_ascii hp (by decide)
  refine ⟨cs, ?_, decode_print hp ?_, h3⟩
  · rw [printAttributeValue_run ⟨hb, hl⟩ s]
    simp only [Piece.chars, List.flatMap_append]
    rw [h1]
    rfl
  · intro c hc
    rcases List.mem_append.1 hc with hc | hc
    · rcases List.mem_append.1 hc with hc | hc
      · exact h34 c hc
      · exact h2 c hc
    · exact h34 c hc

/-- A value with markup and a character that ISO-Latin-1 lacks. -/
example : decode .utf8 [60, 0xE2, 0x82, 0xAC, 34, 10] = [60, 0x20AC, 34, 10] ∧
    (printAttributeValue [60, 0xE2, 0x82, 0xAC, 34, 10] (new (fun _ => 0) .utf8 (.isolatin 1) true)).2.buf =
      lit "\"&lt;&#x20ac;&quot;&#10;\"" := by decide +kernel

/-- `x` leaves buffer, stack and state as they are if it returns false. -/
def Rejects (x : M Printer Bool) : Prop :=
  ∀ s s', x s = (.ok false, s') → s'.buf = s.buf ∧ s'.tagstack = s.tagstack ∧ s'.state = s.state

/-- `x` does not return false. -/
def Accepts (x : M Printer Bool) : Prop := ∀ s s', x s ≠ (.ok false, s')

theorem Accepts.bind {α : Type} {x : M Printer α} {f : α → M Printer Bool} (h : ∀ a, Accepts (f a)) :
    Accepts (x >>= f) := by
  intro s s' hx
  rcases hr : x s with ⟨r, s1⟩
  cases r with
  | ok a => rw [M.bind_ok hr] at hx; exact h a s1 s' hx
  | stop e => rw [M.bind_stop hr] at hx; cases hx

theorem Accepts.rejects {x : M Printer Bool} (h : Accepts x) : Rejects x := fun s s' hx => absurd hx (h s s')

theorem accepts_true : Accepts (pure true) := by
  intro s s' h
  cases h

theorem accepts_enter (st : PrintState) : Accepts (enter st) := by
  intro s s' h
  cases h

theorem Rejects.get {f : Printer → M Printer Bool} (h : ∀ a, Rejects (f a)) : Rejects (M.get >>= f) := by
  intro s s' hx
  exact h s s s' hx

theorem rejects_false : Rejects (pure false) := by
  intro s s' h
  cases h
  exact ⟨rfl, rfl, rfl⟩

theorem rejects_fail (m : String) : Rejects (fail m) := by
  intro s s' h
  cases h
  exact ⟨rfl, rfl, rfl⟩

theorem Rejects.ite {p : Prop} [Decidable p] {x y : M Printer Bool} (hx : Rejects x) (hy : Rejects y) :
    Rejects (if p then x else y) := by
  split
  · exact hx
  · exact hy

theorem exitTagContext_rejects : Rejects exitTagContext := by
  refine .get fun a => ?_
  cases a.state
  · exact rejects_fail _
  · exact accepts_true.rejects
  · exact (Accepts.bind fun _ => accepts_enter _).rejects
  · exact (Accepts.bind fun _ => accepts_enter _).rejects

theorem exit_then {x : M Printer Bool} (h : Accepts x) :
    Rejects (exitTagContext >>= fun r => if r = false then pure false else x) := by
  intro s s' hx
  rcases hr : exitTagContext s with ⟨r, s1⟩
  cases r with
  | stop e => rw [M.bind_stop hr] at hx; cases hx
  | ok r =>
    rw [M.bind_ok hr] at hx
    cases r with
    | false =>
      rw [if_pos rfl] at hx
      cases hx
      exact exitTagContext_rejects s _ hr
    | true =>
      rw [if_neg (by simp)] at hx
      exact absurd hx (h s1 s')

theorem top_state (t : TagStack) : (TagStack.top t).2 = t := by
  have hload : ∀ i, (TagStack.loadWord i t).2 = t := by
    intro i
    unfold TagStack.loadWord
    split <;> rfl
  have hofs : (TagStack.topofs t).2 = t := by
    unfold TagStack.topofs
    rw [M.bind_ok (M.get_run t)]
    split
    · rfl
    · rcases hr : TagStack.loadWord (t.pos - 8) t with ⟨r, t'⟩
      have ht : t' = t := by have := hload (t.pos - 8); rw [hr] at this; exact this
      subst ht
      cases r with
      | ok n => rw [M.bind_ok hr]; split <;> rfl
      | stop e => rw [M.bind_stop hr]
  unfold TagStack.top
  rcases hr : TagStack.topofs t with ⟨r, t'⟩
  have ht : t' = t := by rw [hr] at hofs; exact hofs
  subst ht
  cases r with
  | stop e => rw [M.bind_stop hr]
  | ok p =>
    rw [M.bind_ok hr]
    dsimp only
    split
    · rfl
    · rw [M.bind_ok (M.get_run t')]
      rcases hb : TagStack.bytes (t'.pos - p.1) p.2 t' with ⟨r, t2⟩
      have ht : t2 = t' := by
        unfold TagStack.bytes at hb
        split at hb <;> cases hb <;> rfl
      subst ht
      cases r with
      | ok n => rw [M.bind_ok hb]; rfl
      | stop e => rw [M.bind_stop hb]

theorem closed_accepts : Accepts closed := by
  refine Accepts.bind fun _ => Accepts.bind fun s => ?_
  split
  · exact Accepts.bind fun _ => accepts_true
  · exact accepts_true

/-- A sequence of calls that ends with true. -/
theorem Accepts.then {α : Type} {x : M Printer α} {y : M Printer Bool} (h : Accepts y) : Accepts (x >>= fun _ => y) :=
  .bind fun _ => h

theorem doctype_rejects : ∀ r p sy, Rejects (printDoctype r p sy)
  | none, p, sy => by
    simp only [printDoctype]
    exact accepts_true.rejects
  | some r, some p, none => by
    simp only [printDoctype]
    exact rejects_fail _
  | some r, some p, some sy => by
    simp only [printDoctype]
    exact (accepts_true.then.then.then.then.then.then.then).rejects
  | some r, none, some sy => by
    simp only [printDoctype]
    exact (accepts_true.then.then.then.then.then).rejects
  | some r, none, none => by
    simp only [printDoctype]
    exact (accepts_true.then.then.then).rejects

/-- C40. In any state, reachable or not, a call that returns false leaves the output buffer, the
stack of tags and the state of the printer as they are. -/
theorem C40_rejected (limit : Nat) (c : PCall) (s s' : Printer) (h : call limit c s = (.ok false, s')) :
    s'.buf = s.buf ∧ s'.tagstack = s.tagstack ∧ s'.state = s.state := by
  cases c with
  | header e sa =>
    refine Rejects.get (fun a => Rejects.ite (rejects_fail _) ?_) s s' h
    exact (Accepts.bind fun _ => Accepts.bind fun _ => Accepts.bind fun _ => accepts_enter _).rejects
  | doctype r p sy =>
    exact doctype_rejects r p sy s s' h
  | exit => exact exitTagContext_rejects s s' h
  | open_ n =>
    exact exit_then (Accepts.bind fun _ => Accepts.bind fun _ => Accepts.bind fun _ => accepts_enter _) s s' h
  | attr n =>
    refine Rejects.get (fun a => Rejects.ite ?_ rejects_false) s s' h
    exact (Accepts.bind fun _ => Accepts.bind fun _ => Accepts.bind fun _ => accepts_enter _).rejects
  | value v =>
    refine Rejects.get (fun a => Rejects.ite ?_ ?_) s s' h
    · exact (Accepts.bind fun _ => accepts_enter _).rejects
    · exact exit_then (Accepts.bind fun _ => accepts_true)
  | close =>
    have ht : (onStack TagStack.top s).2 = s := by
      unfold onStack M.zoom
      have := top_state s.tagstack
      rcases hr : TagStack.top s.tagstack with ⟨r, t⟩
      rw [hr] at this
      cases this
      rfl
    simp only [call] at h
    unfold printCloseTag at h
    rcases hr : onStack TagStack.top s with ⟨r, s1⟩
    rw [hr] at ht
    cases ht
    cases r with
    | stop e => rw [M.bind_stop hr] at h; cases h
    | ok t =>
      rw [M.bind_ok hr] at h
      rcases t with _ | _ | ⟨b, n⟩
      · exact rejects_false _ _ h
      · exact rejects_false _ _ h
      · refine Rejects.get (fun a => ?_) _ _ h
        cases a.state
        · exact rejects_false
        · exact (Accepts.bind fun _ => Accepts.bind fun _ => Accepts.bind fun _ => Accepts.bind fun _ =>
            closed_accepts).rejects
        · exact rejects_false
        · exact (Accepts.bind fun _ => Accepts.bind fun _ => Accepts.bind fun _ => closed_accepts).rejects
  | reset b => exact absurd h ((Accepts.bind fun _ => accepts_true) s s')
  | copy mem => exact absurd h ((Accepts.bind fun _ => accepts_true) s s')

/-- Calls that are rejected in the middle of a document. -/
example : (calls 1000 [.open_ [97], .attr [98], .attr [99], .close, .header none none] (new (fun _ => 0) .utf8 .utf8 true)).1 =
    .ok [true, true, false, false, false] := by decide +kernel

/-- Property C41 (every attribute name is followed by a value) does not hold: opening a tag behind
an attribute name ends the start tag without the value, and is accepted. -/
theorem C41_attribute_value_false :
    (calls 1000 [.open_ [97], .attr [98], .open_ [99]] (new (fun _ => 0) .utf8 .utf8 true)).1 = .ok [true, true, true] ∧
    (calls 1000 [.open_ [97], .attr [98], .open_ [99]] (new (fun _ => 0) .utf8 .utf8 true)).2.buf = lit "<a b=><c" := by
  decide +kernel

theorem valued_run (cs : List PCall) : ∀ (d : Doc) (b : Bool), GivesValues b cs → (d.place = .attr → b = true) →
    Valued (docRun cs d).2.1 ∧ (d.place = .attr → ∃ v ps, (docRun cs d).2.1 = .quoted v :: ps) := by
  induction cs with
  | nil =>
    intro d b h1 h2
    refine ⟨fun i n h => by simp [docRun] at h, fun h => ?_⟩
    rw [h2 h] at h1
    cases h1
  | cons c cs ih =>
    intro d b h1 h2
    -- The calls that print nothing behind which a value is missing.
    have quiet : ∀ (ps : List Piece) (d1 : Doc) (b1 : Bool), docStep d c = some (ps, d1) → GivesValues b1 cs →
        (d1.place = .attr → b1 = true) → (∀ n, Piece.attr n ∉ ps) → d.place ≠ .attr →
        Valued (docRun (c :: cs) d).2.1 ∧ (d.place = .attr → ∃ v ps, (docRun (c :: cs) d).2.1 = .quoted v :: ps) := by
      intro ps d1 b1 e1 e2 e3 e4 e5
      obtain ⟨g1, -⟩ := ih d1 b1 e2 e3
      refine ⟨?_, fun h => absurd h e5⟩
      intro i n hi
      simp only [docRun, e1] at hi ⊢
      by_cases hlt : i < ps.length
      · rw [List.getElem?_append_left hlt] at hi
        exact absurd (List.mem_of_getElem? hi) (e4 n)
      · rw [List.getElem?_append_right (by omega)] at hi
        obtain ⟨v, hv⟩ := g1 _ _ hi
        refine ⟨v, ?_⟩
        rw [List.getElem?_append_right (by omega), ← hv]
        congr 1
        omega
    have same : ∀ (b1 : Bool), docStep d c = none ∨ docStep d c = some ([], d) → GivesValues b1 cs →
        (d.place = .attr → b1 = true) →
        Valued (docRun (c :: cs) d).2.1 ∧ (d.place = .attr → ∃ v ps, (docRun (c :: cs) d).2.1 = .quoted v :: ps) := by
      intro b1 e1 e2 e3
      have := ih d b1 e2 e3
      rcases e1 with e1 | e1 <;> simpa only [docRun, e1, List.nil_append] using this
    have leaveAttr : ∀ ps, leave d.place = some ps → ∀ n, Piece.attr n ∉ ps := by
      intro ps hl n hn
      cases hp : d.place <;> rw [hp] at hl <;> cases hl <;> simp at hn
    have nb : b = false → d.place ≠ .attr := by
      rintro rfl h
      cases h2 h
    cases c with
    | header e sa =>
      simp only [GivesValues] at h1
      by_cases hp : d.place = .start
      · refine quiet _ _ b (if_pos hp) h1 nofun (by simp) (by rw [hp]; simp)
      · exact same b (.inl (by simp only [docStep, if_neg hp])) h1 h2
    | doctype r p sy =>
      obtain ⟨rfl, h1⟩ := h1
      have := nb rfl
      rcases r with _ | r
      · exact same false (.inr rfl) h1 h2
      · rcases p with _ | p <;> rcases sy with _ | sy
        · exact quiet _ _ false rfl h1 (fun h => absurd h this) (by simp) this
        · exact quiet _ _ false rfl h1 (fun h => absurd h this) (by simp) this
        · exact same false (.inl rfl) h1 h2
        · exact quiet _ _ false rfl h1 (fun h => absurd h this) (by simp) this
    | exit =>
      obtain ⟨rfl, h1⟩ := h1
      have := nb rfl
      cases hl : leave d.place with
      | none => exact same false (.inl (by simp only [docStep, hl, Option.map_none])) h1 h2
      | some ps =>
        exact quiet ps { d with place := .content } false (by simp only [docStep, hl, Option.map_some]) h1 nofun
          (leaveAttr ps hl) this
    | open_ n =>
      obtain ⟨rfl, h1⟩ := h1
      have := nb rfl
      cases hl : leave d.place with
      | none => exact same false (.inl (by simp only [docStep, hl, Option.map_none])) h1 h2
      | some ps =>
        refine quiet (ps ++ [.tag n]) ⟨.tag, n :: d.tags⟩ false (by simp only [docStep, hl, Option.map_some]) h1 nofun ?_ this
        intro m hm
        rcases List.mem_append.1 hm with hm | hm
        · exact leaveAttr ps hl m hm
        · simp at hm
    | attr n =>
      simp only [GivesValues] at h1
      by_cases hp : d.place = .tag
      · obtain ⟨g1, g2⟩ := ih { d with place := .attr } true h1 (fun _ => rfl)
        obtain ⟨v, ps, hps⟩ := g2 rfl
        have e1 : docStep d (.attr n) = some ([.attr n], { d with place := .attr }) := by simp only [docStep, if_pos hp]
        refine ⟨?_, fun h => by rw [hp] at h; cases h⟩
        intro i m hi
        simp only [docRun, e1] at hi ⊢
        cases i with
        | zero => exact ⟨v, by simp [hps]⟩
        | succ i =>
          have : (docRun cs { d with place := .attr }).2.1[i]? = some (.attr m) := by simpa using hi
          obtain ⟨w, hw⟩ := g1 i m this
          exact ⟨w, by simpa using hw⟩
      · exact same true (.inl (by simp only [docStep, if_neg hp])) h1 (fun _ => rfl)
    | value v =>
      simp only [GivesValues] at h1
      by_cases hp : d.place = .attr
      · obtain ⟨g1, -⟩ := ih { d with place := .tag } false h1 (fun h => by cases h)
        have e1 : docStep d (.value v) = some ([.quoted v], { d with place := .tag }) := by
          simp only [docStep, if_pos hp]
        refine ⟨?_, fun _ => ⟨v, (docRun cs { d with place := .tag }).2.1, by simp only [docRun, e1]; rfl⟩⟩
        intro i m hi
        simp only [docRun, e1] at hi ⊢
        cases i with
        | zero => simp at hi
        | succ i =>
          have : (docRun cs { d with place := .tag }).2.1[i]? = some (.attr m) := by simpa using hi
          obtain ⟨w, hw⟩ := g1 i m this
          exact ⟨w, by simpa using hw⟩
      · cases hl : leave d.place with
        | none =>
          exact same false (.inl (by simp only [docStep, if_neg hp, hl, Option.map_none])) h1 (fun h => absurd h hp)
        | some ps =>
          refine quiet (ps ++ [.text v]) ⟨.content, d.tags⟩ false (by simp only [docStep, if_neg hp, hl, Option.map_some]) h1
            nofun ?_ hp
          intro m hm
          rcases List.mem_append.1 hm with hm | hm
          · exact leaveAttr ps hl m hm
          · simp at hm
    | close =>
      simp only [GivesValues] at h1
      obtain ⟨place, tags⟩ := d
      rcases tags with _ | ⟨n, ns⟩
      · exact same b (.inl rfl) h1 h2
      · by_cases hn : n = []
        · exact same b (.inl (by simp only [docStep, if_pos hn])) h1 h2
        · have hlast : ∀ m, Piece.attr m ∉ (if ns = [] then [Piece.newline] else []) := by
            intro m
            split <;> simp
          cases place with
          | start => exact same b (.inl (by simp [docStep])) h1 h2
          | attr => exact same b (.inl (by simp [docStep])) h1 h2
          | tag =>
            refine quiet (.slashGt :: if ns = [] then [Piece.newline] else []) ⟨.content, ns⟩ b
              (by simp only [docStep, if_neg hn, if_true]) h1 nofun ?_ (by simp)
            intro m hm
            rcases List.mem_cons.1 hm with hm | hm
            · cases hm
            · exact hlast m hm
          | content =>
            refine quiet (.endTag n :: if ns = [] then [Piece.newline] else []) _ b (by simp [docStep, hn]; rfl) h1
              (fun h => by cases h) ?_ (by simp)
            intro m hm
            rcases List.mem_cons.1 hm with hm | hm
            · cases hm
            · exact hlast m hm
    | reset sub =>
      obtain ⟨rfl, h1⟩ := h1
      exact quiet _ _ false rfl h1 (fun h => by cases sub <;> cases h) (by simp) (nb rfl)
    | copy mem =>
      simp only [GivesValues] at h1
      exact same b (.inr rfl) h1 h2

/-- The part of C41 that holds: if the program gives a value to every attribute before it opens
another tag, leaves the tag, resets the printer or prints a document type, then every attribute name
printed is followed by a quoted value. Missing: programs that do not. -/
theorem C41_attribute_value_partial (mem : Nat → Byte) (app out : Enc) (sub : Bool) (cs : List PCall) (limit : Nat)
    (hs : ∀ c ∈ cs, ∀ x ∈ c.strings, (∀ b ∈ x, b < 256) ∧ x.length + 16 ≤ 2 ^ 32)
    (hn : 2 * nameNeed cs ≤ limit) (hl : limit < 2 ^ 63)
    (hv : GivesValues false cs) :
    ∃ rs s ps, calls limit cs (new mem app out sub) = (.ok rs, s) ∧
      s.buf = (ps.flatMap (Piece.chars app)).flatMap out.print ∧ Valued ps := by
  obtain ⟨s, h1, h2⟩ := C38_lifo mem app out sub cs limit hs hn hl
  exact ⟨_, s, _, h1, h2, (valued_run cs (Doc.init sub) false hv (fun h => by cases sub <;> cases h)).1⟩

example : GivesValues false [.open_ [97], .attr [98], .close, .attr [99], .value [60], .attr [100], .value [], .open_ [101],
    .close, .close] := by simp [GivesValues]

/-- Property C60 (the text of the header does not depend on the encoding of the application) does
not hold: the fixed parts of header and document type are decoded with the application's encoding.
A printer for an application that uses UCS-2 starts a UTF-8 document with the characters 0x3F3C,
0x6D78, .... -/
theorem C60_header_text_false :
    (printHeader none none (new (fun _ => 0) (.ucs2 false) .utf8 false)).1 = .ok true ∧
    (decode .utf8 (printHeader none none (new (fun _ => 0) (.ucs2 false) .utf8 false)).2.buf).take 3 =
      [0x3F3C, 0x6D78, 0x206C] := by
  decide +kernel

/-- The part of C60 that holds: with an application encoding based on ASCII header and document type
are the specified text. Missing: UTF-16, UCS-2 and UCS-4. -/
theorem C60_header_text_partial (mem : Nat → Byte) (app out : Enc) (e sa : Option (List Byte)) (r : List Byte)
    (p sy : Option (List Byte)) (ha : AsciiBased app)
    (hf : ∀ x ∈ e.toList ++ sa.toList ++ r :: p.toList ++ sy.toList, (∀ b ∈ x, b < 256) ∧ x.length + 16 ≤ 2 ^ 32)
    (hps : p.isSome → sy.isSome) :
    ∃ s s', printHeader e sa (new mem app out false) = (.ok true, s) ∧
      s.buf = (headerText app e sa).flatMap out.print ∧
      printDoctype (some r) p sy s = (.ok true, s') ∧
      s'.buf = s.buf ++ (doctypeText app r p sy).flatMap out.print := by
  obtain ⟨g1, g3, g2, g4, g5, -⟩ := header_run (limit := 0) (prel_new 0 mem app out false) e sa
    (fun x hx => hf x (by simp [Option.mem_toList.2 hx])) (fun x hx => hf x (by simp [Option.mem_toList.2 hx]))
  rcases hr : printHeader e sa (new mem app out false) with ⟨res, s⟩
  rw [hr] at g1 g2 g3 g4 g5
  cases g1
  obtain ⟨k1, -, k2, -, -, -⟩ := doctype_run g3 (some r) p sy (fun x hx => hf x (by cases hx; simp))
    (fun x hx => hf x (by simp [Option.mem_toList.2 hx])) (fun x hx => hf x (by simp [Option.mem_toList.2 hx]))
  rcases hr' : printDoctype (some r) p sy s with ⟨res, s'⟩
  rw [hr'] at k1 k2
  have hA : ∀ x : String, (∀ b ∈ Spec.ascii x, 1 ≤ b ∧ b < 128) → fixed app x = Spec.ascii x := fun x h => fixed_ascii ha h
  refine ⟨s, s', rfl, ?_, ?_, ?_⟩
  · have : s.buf = [] ++ ([Piece.header e sa].flatMap (Piece.chars app)).flatMap out.print := g2
    rw [this]
    simp only [List.nil_append, List.flatMap_cons, List.flatMap_nil, List.append_nil, Piece.chars, headerText]
    rw [hA "<?xml version=\"1.0\" encoding=\"" (by decide +kernel), hA "\"?>\n" (by decide +kernel)]
    rcases e with _ | e <;> rcases sa with _ | sa <;>
      simp only [encodingText, hA "UTF-8" (by decide +kernel), hA "\" standalone=\"" (by decide +kernel)]
  · have : ∀ d, (docStep d (.doctype (some r) p sy)).isSome = true := by
      intro d
      rcases p with _ | p <;> rcases sy with _ | sy
      · rfl
      · rfl
      · simp at hps
      · rfl
    rw [this] at k1
    cases k1
    exact hr'
  · have hdoc : ((docStep ((docStep (Doc.init false) (.header e sa)).getD ([], Doc.init false)).2
        (.doctype (some r) p sy)).getD ([], ((docStep (Doc.init false) (.header e sa)).getD ([], Doc.init false)).2)).1 =
        [.doctype r p sy] := by
      rcases p with _ | p <;> rcases sy with _ | sy
      · rfl
      · rfl
      · simp at hps
      · rfl
    have g4' : s.app = app := g4
    have g5' : s.out = out := g5
    rw [hdoc, g4', g5'] at k2
    have k2 : s'.buf = s.buf ++ ([Piece.doctype r p sy].flatMap (Piece.chars app)).flatMap out.print := k2
    rw [k2]
    simp only [List.flatMap_cons, List.flatMap_nil, List.append_nil, Piece.chars, doctypeText]
    rcases p with _ | p <;> rcases sy with _ | sy <;>
      simp only [hA "<!DOCTYPE " (by decide +kernel), hA ">" (by decide +kernel), hA " SYSTEM \"" (by decide +kernel),
        hA "\">" (by decide +kernel), hA " PUBLIC \"" (by decide +kernel), hA "\" \"" (by decide +kernel)]

example : AsciiBased .utf8 ∧ (headerText .utf8 (some [120, 0, 121]) none).flatMap (Enc.print .utf8) =
    lit "<?xml version=\"1.0\" encoding=\"x\"?>\n" ∧
    (doctypeText .utf8 [97] none (some [98])).flatMap (Enc.print .utf8) = lit "<!DOCTYPE a SYSTEM \"b\">" :=
  ⟨trivial, by decide +kernel, by decide +kernel⟩

/-- Property C61 (a call that throws an exception leaves the output as it was) does not hold: the
start of the tag is printed before the name is put on the stack. -/
theorem C61_exception_false :
    (printOpenTag 256 (List.replicate 300 97) (new (fun _ => 0) .utf8 .utf8 true)).1 = .stop (.throw .OutOfMem) ∧
    (printOpenTag 256 (List.replicate 300 97) (new (fun _ => 0) .utf8 .utf8 true)).2.buf = 60 :: List.replicate 300 97 := by
  decide +kernel

/-- Property C62 (every character of a value is printed, NUL as the reference `&#0;` of the tables)
does not hold: a value is cut at its first NUL character. -/
theorem C62_null_false :
    (printContent [97, 0, 98] (new (fun _ => 0) .utf8 .utf8 true)).2.buf = [97] ∧
    (printAttributeValue [97, 0, 98] (new (fun _ => 0) .utf8 .utf8 true)).2.buf = [34, 97, 34] := by
  decide +kernel

/-- The part of C62 that holds: the characters before the first NUL are printed, each escaped if it
has to be. Missing: NUL and what follows it. -/
theorem C62_null_partial (v : List Byte) (s : Printer) (hb : ∀ b ∈ v, b < 256) (hl : v.length + 16 ≤ 2 ^ 32) :
    printContent v s = (.ok (), { s with buf := s.buf ++ ((decode s.app v).flatMap escContent).flatMap s.out.print }) ∧
    printAttributeValue v s =
      (.ok (), { s with buf := s.buf ++ ([34] ++ (decode s.app v).flatMap escAttr ++ [34]).flatMap s.out.print }) :=
  ⟨printContent_run ⟨hb, hl⟩ s, printAttributeValue_run ⟨hb, hl⟩ s⟩

example : decode (.utf16 true) [0, 97, 0, 38, 0xD8, 0x3D, 0xDE, 0] = [97, 38, 0x1F600] := by decide +kernel

/-- Property C54 (the header printed is recognised with the encoding given) does not hold for names
with a double quote, and not for the empty name. -/
theorem C54_header_false :
    (HdrParser.feed 100 [(printHeader (some [97, 34, 98]) none (new (fun _ => 0) .utf8 .utf8 false)).2.buf]
      HdrParser.new).2.getEncoding ≠ some [97, 34, 98] ∧
    (HdrParser.feed 100 [(printHeader (some []) none (new (fun _ => 0) .utf8 .utf8 false)).2.buf]
      HdrParser.new).2.getEncoding ≠ some [] := by
  decide +kernel

/-- The part of C54 that holds: a header printed in any output encoding is recognised, in any
chunks and whatever follows, with the encoding named. The name is not empty, of ASCII characters
other than the double quote. Missing: names with a double quote, the empty name, applications with
an encoding that is not based on ASCII (see C60). -/
theorem C54_header_partial (mem : Nat → Byte) (app out : Enc) (ha : AsciiBased app)
    (hp : ∀ p, out = .isolatin p → 1 ≤ p ∧ p ≤ 9) (e : List Byte) (sa : Option (List Byte))
    (he : ∀ c ∈ e, 1 ≤ c ∧ c < 128 ∧ c ≠ 34) (he0 : e ≠ []) (hl : e.length + 16 ≤ 2 ^ 32)
    (hsa : ∀ x ∈ sa, (∀ c ∈ x, 1 ≤ c ∧ c < 128 ∧ c ≠ 34) ∧ x.length + 16 ≤ 2 ^ 32) :
    ∃ s, printHeader (some e) sa (new mem app out false) = (.ok true, s) ∧
      ∀ (rest : List Byte) (parts : List (List Byte)), parts.flatten = s.buf ++ rest → ∀ n, parts.flatten.length < n →
        (HdrParser.feed n parts HdrParser.new).1 = .ok .done ∧
        (HdrParser.feed n parts HdrParser.new).2.getEncoding = some e ∧
        (HdrParser.feed n parts HdrParser.new).2.getLasterror = none := by
  obtain ⟨s, -, h1, h2, -⟩ := C60_header_text_partial mem app out (some e) sa [] none none ha (by
    intro x hx
    simp only [Option.toList_some, Option.toList_none, List.append_nil, List.mem_append, List.mem_cons, List.not_mem_nil,
      or_false, Option.mem_toList] at hx
    rcases hx with (rfl | hx) | rfl
    · exact ⟨fun b hb => by have := he b hb; omega, hl⟩
    · exact ⟨fun b hb => by have := (hsa x hx).1 b hb; omega, (hsa x hx).2⟩
    · exact ⟨nofun, by decide⟩) nofun
  refine ⟨s, h1, fun rest parts hparts n hn => ?_⟩
  have hcut : ∀ x : List Byte, (∀ c ∈ x, 1 ≤ c ∧ c < 128 ∧ c ≠ 34) → decode app (untilNul x) = x := by
    intro x hx
    have : untilNul x = x := by
      unfold untilNul
      have h := List.takeWhile_append_of_pos (p := fun c => decide (c ≠ 0)) (l₁ := x) (l₂ := [])
        (fun c hc => by have := hx c hc; simp; omega)
      simpa using h
    rw [this]
    exact decode_ascii ha fun c hc => by have := hx c hc; omega
  -- The declaration as specified.
  obtain ⟨attrs, htext, hwf, henc⟩ : ∃ attrs : List DeclAttr,
      headerText app (some e) sa = declText [] [] [32] attrs ++ [62, 10] ∧ (∀ a ∈ attrs, a.Wf) ∧
        declEncoding attrs = some e := by
    have hB : ∀ l : List Byte, l = [] ∨ l = [32] → Blank l := by
      rintro l (rfl | rfl) c hc
      · cases hc
      · simp at hc; omega
    have w1 : DeclAttr.Wf { name := .version, value := [49, 46, 48], ws3 := [32] } :=
      ⟨hB _ (.inl rfl), hB _ (.inl rfl), hB _ (.inr rfl), by decide, nofun⟩
    cases sa with
    | none =>
      refine ⟨[{ name := .version, value := [49, 46, 48], ws3 := [32] }, { name := .encoding, value := e }], ?_, ?_, ?_⟩
      · simp only [headerText, hcut e he]
        simp [declText, DeclAttr.text, DeclName.text, DeclAttr.quote, Spec.ascii]
      · intro a ha
        simp only [List.mem_cons, List.not_mem_nil, or_false] at ha
        rcases ha with rfl | rfl
        · exact w1
        · exact ⟨hB _ (.inl rfl), hB _ (.inl rfl), hB _ (.inl rfl), fun c hc => by
            have := he c hc
            exact ⟨by omega, by simp [DeclAttr.quote]; omega⟩, fun _ => he0⟩
      · simp [declEncoding]
    | some sa =>
      have hsa := (hsa sa rfl).1
      refine ⟨[{ name := .version, value := [49, 46, 48], ws3 := [32] }, { name := .encoding, value := e, ws3 := [32] },
        { name := .standalone, value := sa }], ?_, ?_, ?_⟩
      · simp only [headerText, hcut e he, hcut sa hsa]
        simp [declText, DeclAttr.text, DeclName.text, DeclAttr.quote, Spec.ascii]
      · intro a ha
        simp only [List.mem_cons, List.not_mem_nil, or_false] at ha
        rcases ha with rfl | rfl | rfl
        · exact w1
        · exact ⟨hB _ (.inl rfl), hB _ (.inl rfl), hB _ (.inr rfl), fun c hc => by
            have := he c hc
            exact ⟨by omega, by simp [DeclAttr.quote]; omega⟩, fun _ => he0⟩
        · exact ⟨hB _ (.inl rfl), hB _ (.inl rfl), hB _ (.inl rfl), fun c hc => by
            have := hsa c hc
            exact ⟨by omega, by simp [DeclAttr.quote]; omega⟩, nofun⟩
      · simp [declEncoding]
  have hasc : ∀ c ∈ declText [] [] [32] attrs ++ [62, 10], 1 ≤ c ∧ c < 128 := by
    rw [← htext]
    intro c hc
    have hlit : ∀ x : String, (∀ b ∈ Spec.ascii x, 1 ≤ b ∧ b < 128) → c ∈ Spec.ascii x → 1 ≤ c ∧ c < 128 :=
      fun x h hc => h c hc
    simp only [headerText, hcut e he, List.mem_append] at hc
    rcases hc with ((hc | hc) | hc) | hc
    · exact hlit _ (by decide +kernel) hc
    · have := he c hc; omega
    · cases sa with
      | none => cases hc
      | some sa =>
        have hsa := (hsa sa rfl).1
        simp only [hcut sa hsa, List.mem_append] at hc
        rcases hc with hc | hc
        · exact hlit _ (by decide +kernel) hc
        · have := hsa c hc; omega
    · exact hlit _ (by decide +kernel) hc
  have hpad : (pad out).1 + (pad out).2 ≤ 3 := (C21_carriers out 65 (by omega) (by omega) (PageOk.mem hp)).2
  have hbuf : s.buf = (declText [] [] [32] attrs).flatMap (padded (pad out).1 (pad out).2) ++ [62, 10].flatMap out.print := by
    rw [h2, htext, List.flatMap_append]
    congr 1
    exact flatMap_congr' fun c hc => (C21_carriers out c (hasc c (by simp [hc])).1 (hasc c (by simp [hc])).2 (PageOk.mem hp)).1
  have := C21_encoding (ws0 := []) (ws1 := []) (ws2 := [32]) (attrs := attrs) nofun nofun
    (by intro c hc; simp at hc; omega) (by simp) hwf hpad ([62, 10].flatMap out.print ++ rest) parts
    (by rw [hparts, hbuf, List.append_assoc]) hn
  rwa [henc] at this

/-- The name "x" with standalone "no" in UTF-16. -/
example : (∀ c ∈ [120], 1 ≤ c ∧ c < 128 ∧ c ≠ 34) ∧
    (HdrParser.feed 1000 [(printHeader (some [120]) (some [110, 111]) (new (fun _ => 0) .utf8 (.utf16 true) false)).2.buf]
      HdrParser.new).2.getEncoding = some [120] := by decide +kernel

end TW
