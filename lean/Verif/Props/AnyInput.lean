import Verif.Proofs.HeaderItem
import Verif.Props.PathNumbers

/-!
# Property C105: selection on any input
-/

namespace TW

open Spec Spec.Path TW.Path Scanner TW.ItemOrder

variable {se e : Enc}

/-- The items of a session that are no errors, as they are given to a selector. -/
def given (obs : List Obs) : List Item := (obs.filter (·.type ≠ .ErrorOccurred)).map fun o => (o.type, o.item)

/-! ## The header -/

/-- A character of an identifier does not begin with a question mark. -/
theorem char_head (he : ByteSet e) {c : UChar} (k1 : c < 2 ^ 32) (k2 : Direct e c) (k3 : c ≠ 0) (k4 : c ≠ 63) :
    ∃ b bs, e.print c = b :: bs ∧ b ≠ 63 := by
  have hp : PageOk e := by
    rintro p rfl
    rcases he with h | ⟨q, h, h'⟩
    · cases h
    · cases h; exact h'
  have h6 := print_ne hp k1 k2
  cases h7 : e.print c with
  | nil => rw [h7] at h6; exact absurd h6 (by simp)
  | cons b bs =>
    refine ⟨b, bs, rfl, ?_⟩
    rintro rfl
    have ha := direct_asc e hp c k1 k3 k2 (strm (e.print c)) 0 (At_strm _)
    have hu : uasc e (strm (e.print c)) 0 = 63 := by
      rw [h7]
      rcases he with rfl | ⟨p, rfl, -⟩
      · simp [uasc, strm]
      · simp [uasc, strm]
    rw [hu] at ha
    split at ha
    · exact k4 ha.symm
    · cases ha

theorem id_head (he : ByteSet e) {cs : List UChar} (h1 : Identifier cs) (h2 : ∀ c ∈ cs, c < 2 ^ 32 ∧ Direct e c) :
    ∃ b bs, asked e cs = b :: bs ∧ b ≠ 63 := by
  rw [asked_id h1]
  cases cs with
  | nil => exact (h1.1 rfl).elim
  | cons c cs =>
    have hi := id_in (h1.2 c (List.mem_cons_self ..))
    obtain ⟨b, bs, k1, k2⟩ := char_head he (h2 c (List.mem_cons_self ..)).1 (h2 c (List.mem_cons_self ..)).2 (by have := hi.1; omega)
      (fun k => hi.2 (by rw [k]; decide))
    exact ⟨b, (bs ++ cs.flatMap e.print).take 1023, by rw [List.flatMap_cons, k1]; rfl, k2⟩

theorem rep_head (he : ByteSet e) {bs : List Byte} (h : Rep e bs) : bs = [] ∨ ∃ cs, bs = 63 :: cs := by
  obtain ⟨k, rfl⟩ := h
  have hq : e.print 63 = [63] := by
    rcases he with rfl | ⟨p, rfl, hp⟩
    · decide
    · have : ∀ p : Fin 10, 1 ≤ p.1 → Enc.print (.isolatin p.1) 63 = [63] := by decide +kernel
      exact this ⟨p, by omega⟩ hp.1
  cases k with
  | zero => exact .inl rfl
  | succ k => right; rw [List.replicate_succ, List.flatten_cons, hq]; exact ⟨_, rfl⟩

/-- The header is only at the beginning. -/
theorem header_once (ts : List ElementType) : ∀ {p q : Order.Stage}, p ≠ .start → Order.run p ts = some q → .HeaderStart ∉ ts := by
  induction ts with
  | nil => intro p q _ _ h; cases h
  | cons t ts ih =>
    intro p q hp h hm
    rw [Order.run] at h
    cases hs : Order.step p t with
    | none => simp only [hs] at h; cases h
    | some r =>
      simp only [hs] at h
      rcases List.mem_cons.1 hm with rfl | hm
      · cases p <;> first | exact hp rfl | cases hs
      · refine ih ?_ h hm
        rintro rfl
        cases p <;> cases t <;> cases hs

/-- The items a scanner can give: in order, and the header named as the scanner does it. -/
structure Emitted (e : Enc) (items : List Item) : Prop where
  order : ∃ q, Order.run .start (items.map (·.1)) = some q
  header : ∀ it ∈ items, it.1 = .HeaderStart → Rep e it.2

theorem Emitted.tidy {items : List Item} (h : Emitted e items) : Tidy [] none items := by
  obtain ⟨q, h1⟩ := h.order
  exact tidy_of_run (p := .start) (q := q) _ ⟨fun _ => rfl, nofun, nofun⟩ h1

theorem Emitted.headerFree (he : ByteSet e) {items : List Item} (h : Emitted e items) {xs : List (List Step)}
    (hx : (∀ it ∈ items, it.1 ≠ .HeaderStart) ∨
      ∀ ss ∈ xs, ∀ s, ss.head? = some s → ∃ nm, s.name = some nm ∧ ∃ b bs, nm = b :: bs ∧ b ≠ 63) :
    HeaderFree xs [] items := by
  rcases hx with hx | hx
  · exact headerFree_of hx _
  obtain ⟨q, h1⟩ := h.order
  cases items with
  | nil => trivial
  | cons it items =>
    rw [List.map_cons, Order.run] at h1
    cases hs : Order.step .start it.1 with
    | none => simp only [hs] at h1; cases h1
    | some r =>
      simp only [hs] at h1
      have hr : r ≠ .start := by
        rintro rfl
        cases ht : it.1 <;> rw [ht] at hs <;> cases hs
      refine ⟨fun ht ss hss i s k1 k2 => ⟨rfl, ?_⟩, headerFree_of (fun it' hit ht => ?_) _⟩
      · cases i with
        | succ i => omega
        | zero =>
          obtain ⟨nm, k3, b, bs, rfl, k4⟩ := hx ss hss s (by rw [List.head?_eq_getElem?]; exact k1)
          unfold Step.accepts at k2
          rw [k3] at k2
          have k5 : b :: bs = it.2 := by simpa using k2
          rcases rep_head he (h.header it (List.mem_cons_self ..) ht) with k6 | ⟨cs, k6⟩
          · rw [k6] at k5; cases k5
          · rw [k6] at k5
            cases k5
            exact (k4 rfl).elim
      · exact header_once _ hr h1 (List.mem_map.2 ⟨it', hit, ht⟩)

/-- The expressions do not begin with a question mark. -/
theorem first_written (he : ByteSet e) {ws : List Written} (hw : ∀ w ∈ ws, w.Fine se e) (hh : ∀ w ∈ ws, w.Inside) {ty : Int} :
    ∀ ss ∈ ((ws.flatMap (Written.queries e)).filter (·.type = ty)).map fun x => x.steps.map (·.toStep),
      ∀ s, ss.head? = some s → ∃ nm, s.name = some nm ∧ ∃ b bs, nm = b :: bs ∧ b ≠ 63 := by
  intro ss hss st k
  obtain ⟨x, k0, rfl⟩ := List.mem_map.1 hss
  obtain ⟨w, k1, k2'⟩ := List.mem_flatMap.1 (List.mem_filter.1 k0).1
  obtain ⟨q, k2, rfl⟩ := List.mem_map.1 k2'
  simp only [TPath.query, List.map_map, List.head?_map, Option.map_eq_some_iff] at k
  obtain ⟨t, k4, rfl⟩ := k
  obtain ⟨-, -, -, j⟩ := picks_mem k2
  obtain ⟨t', j1, j2⟩ := j t k4
  have j3 := (hh w k1).first t' j1
  have j4 := (hw w k1).step t' (List.mem_of_mem_head? j1)
  obtain ⟨-, -, j5, j6⟩ := step_picks_mem j2
  have k3 := (pick_names (hw w k1) k2).1 t (List.mem_of_mem_head? k4)
  cases hnm : t.name with
  | none => exact (j4 (j5.1 hnm)).elim
  | some x =>
    obtain ⟨y, j7, j8⟩ := j6 x hnm
    have j9 := ((hw w k1).path.1 t' (List.mem_of_mem_head? j1)).1 y j7
    obtain ⟨-, j10, -⟩ := name_picks_mem j8 j9
    cases x with
    | any =>
      cases y with
      | any => exact (j3 j7).elim
      | one cs => simp [TName.picks] at j8
      | alt l => simp [TName.picks] at j8
    | alt l => exact (j10 l rfl).elim
    | one cs =>
      exact ⟨asked e cs, by simp [TStep.step, hnm, TName.asked], id_head he ((hw w k1).names_mem (k3 cs hnm)).1 ((hw w k1).name cs (k3 cs hnm))⟩

/-- The header attributes are only behind the header. -/
theorem no_header (ts : List ElementType) : ∀ {p q : Order.Stage}, p ≠ .header → p ≠ .headerName → .HeaderStart ∉ ts →
    Order.run p ts = some q → .HeaderAttribValue ∉ ts := by
  induction ts with
  | nil => intro p q _ _ _ _ h; cases h
  | cons t ts ih =>
    intro p q hp hp' hn h hm
    rw [Order.run] at h
    cases hs : Order.step p t with
    | none => simp only [hs] at h; cases h
    | some r =>
      simp only [hs] at h
      have ht : t ≠ .HeaderStart := fun k => hn (by rw [k]; exact List.mem_cons_self ..)
      rcases List.mem_cons.1 hm with rfl | hm
      · cases p <;> first | exact hp rfl | exact hp' rfl | cases hs
      · refine ih ?_ ?_ (fun k => hn (List.mem_cons_of_mem _ k)) h hm
        · rintro rfl
          cases p <;> cases t <;> first | exact ht rfl | exact hp rfl | exact hp' rfl | cases hs
        · rintro rfl
          cases p <;> cases t <;> first | exact ht rfl | exact hp rfl | exact hp' rfl | cases hs

/-! ## Selection -/

theorem select_emitted (hse : PageOk se) (he : ByteSet e) {n : Nat} {ws : List Written}
    (hw : ∀ w ∈ ws, w.Fine se e ∧ w.codes.length < n) (hc : Calm ws) :
    ∃ a s, addAll se e n (ws.map fun w => (w.type, w.bytes se)) [] = (.ok (List.replicate ws.length 0), a) ∧ Sel.mk' a = .ok s ∧
      ∀ items, Emitted e items → ((∀ it ∈ items, it.1 ≠ .HeaderStart) ∨ ∀ w ∈ ws, w.Inside) →
      ∃ rss, (∃ N s', ∀ m, N ≤ m → Sel.feed m items s = (.ok rss, s')) ∧
        ∀ ty, ty ≠ 0 → rss.map (·.count ty) = rangedAnswers (ws.flatMap (Written.ranged e)) ty [] [(0, 0)] none items := by
  obtain ⟨a, lab, h1, h2, h3⟩ := addAll_ranged hse he hw (at_start True)
  have hq : ∀ x ∈ ws.flatMap (Written.ranged e), (x.query.steps = [] → (∃ d, x.query.final = .content d) ∨ ∃ d name, x.query.final = .attribute d name) ∧ ∀ r ∈ x.ranges, r.Ok := by
    intro x hx
    obtain ⟨w, k1, k2⟩ := List.mem_flatMap.1 hx
    obtain ⟨y, k3, rfl⟩ := List.mem_map.1 k2
    obtain ⟨q, k4, rfl⟩ := List.mem_map.1 k3
    refine ⟨query_some (hw w k1).1 k4, fun r hr => ?_⟩
    obtain ⟨c, j1, j2⟩ := List.mem_filterMap.1 hr
    obtain ⟨s, j3, j4⟩ := List.mem_flatMap.1 j1
    exact number_ok (((hw w k1).1.path.1 s j3).2.1 c j4) j2
  have heq : (ws.flatMap (Written.ranged e)).map (·.query) = ws.flatMap (Written.queries e) := by
    rw [List.map_flatMap]
    congr 1
    funext w
    unfold Written.ranged
    rw [List.map_map]
    exact List.map_id _
  have main := fun (items : List Item) (hi : Emitted e items) (hh : (∀ it ∈ items, it.1 ≠ .HeaderStart) ∨ ∀ w ∈ ws, w.Inside)
      (ty : Int) (hty : ty ≠ 0) => select_ranged (xs := ws.flatMap (Written.ranged e)) hty h2
    (by rw [h3 ty hty]; simp [outs])
    (fun x hx => (hq x hx).2) (fun x hx _ => (hq x hx).1) (fun x hx _ name k => by
      obtain ⟨w, k1, k2⟩ := List.mem_flatMap.1 hx
      obtain ⟨y, k3, rfl⟩ := List.mem_map.1 k2
      obtain ⟨q, k4, rfl⟩ := List.mem_map.1 k3
      exact noCont_written hse hw (hc ⟨w, k1, query_deep k4 k⟩) h1) items
    (by rw [heq]; exact hi.headerFree he (hh.imp_right fun hh => first_written he (fun w k => (hw w k).1) hh)) hi.tidy (fun x hx _ j1 d' name j2 => by
      obtain ⟨w, k1, k2⟩ := List.mem_flatMap.1 hx
      obtain ⟨y, k3, rfl⟩ := List.mem_map.1 k2
      obtain ⟨q, k4, rfl⟩ := List.mem_map.1 k3
      obtain ⟨j3, sep, nm, j4⟩ := query_root k4 j1 j2
      have hn := hh.resolve_right fun j => (j w k1).final j3 sep nm j4
      obtain ⟨q', k5⟩ := hi.order
      intro it hit k6
      refine no_header _ (p := .start) nofun nofun (fun k7 => ?_) k5 (List.mem_map.2 ⟨it, hit, k6⟩)
      obtain ⟨it', k8, k9⟩ := List.mem_map.1 k7
      exact hn it' k8 k9)
  obtain ⟨s, h4, -⟩ := main [] ⟨⟨.start, rfl⟩, nofun⟩ (.inl nofun) 1 (by decide)
  refine ⟨a, s, h1, h4, fun items hi hh => ?_⟩
  obtain ⟨s1, k1, N, rss, s', h5, h6⟩ := main items hi hh 1 (by decide)
  rw [h4] at k1
  cases k1
  refine ⟨rss, ⟨N, s', h5⟩, fun ty hty => ?_⟩
  obtain ⟨s2, k1, N', rss', s3, k3, k4⟩ := main items hi hh ty hty
  rw [h4] at k1
  cases k1
  have := h5 (max N N') (by omega)
  rw [k3 (max N N') (by omega)] at this
  cases this
  exact k4

theorem emitted_session {ρ : Type} [Reader ρ] {src : ρ} {em : Option (List (Nat × UChar))} {addr : Nat}
    {n : Nat} {showPos : Bool} {calls : List (Nat × Bool)} {obs : List Obs} {s : Scanner ρ}
    (h : session n showPos calls (Scanner.mk' src e em addr) = (.ok obs, s)) : Emitted e (given obs) := by
  refine ⟨?_, fun it hit ht => ?_⟩
  · obtain ⟨q, h1, -⟩ := session_order calls (p := .start) (s := Scanner.mk' src e em addr) rfl h
    refine ⟨q, ?_⟩
    unfold given
    rw [List.map_map]
    unfold Order.sound at h1
    rw [List.filter_map] at h1
    exact h1
  · obtain ⟨o, k1, rfl⟩ := List.mem_map.1 hit
    exact session_head calls (e := e) (s := Scanner.mk' src e em addr) ⟨rfl, fun _ => ⟨0, rfl⟩⟩ h o (List.mem_filter.1 k1).1 ht

theorem emitted_fed {de : Enc} {em : Option (List (Nat × UChar))} {addr : Nat} {c : List Byte} {cs : List (List Byte)}
    {n : Nat} {fresh showPos : Bool} {calls : List (Nat × Bool)} {obs : List Obs} {s : Scanner (TextScanner SrcIt)}
    (h : sessionFed n fresh showPos calls cs (fedScanner de e em addr c cs) = (.ok obs, s)) : Emitted e (given obs) := by
  refine ⟨?_, fun it hit ht => ?_⟩
  · obtain ⟨q, h1, -⟩ := sessionFed_order skips_src calls (p := .start) (s := fedScanner de e em addr c cs) rfl h
    refine ⟨q, ?_⟩
    unfold given
    rw [List.map_map]
    unfold Order.sound at h1
    rw [List.filter_map] at h1
    exact h1
  · obtain ⟨o, k1, rfl⟩ := List.mem_map.1 hit
    exact sessionFed_head calls (e := e) (s := fedScanner de e em addr c cs) ⟨rfl, fun _ => ⟨0, rfl⟩⟩ h o (List.mem_filter.1 k1).1 ht

/-- C105 (partial): expressions are added to an automaton and a selector for it gets the items, without the errors, that a scanner emits
for any input: any source, any characters, well formed or not, any element masks and any handling of errors. Each type is reported at each item
as often as the queries with this type have to be answered there.

Missing: as in `C74_texts_partial` attributes of descendants together with contents, and, for inputs with a header, expressions with a wildcard as first step or
with attributes and no step. -/
theorem C105_any_partial (hse : PageOk se) (he : ByteSet e) {n : Nat} {ws : List Written}
    (hw : ∀ w ∈ ws, w.Fine se e ∧ w.codes.length < n) (hq : Calm ws) :
    ∃ a s, addAll se e n (ws.map fun w => (w.type, w.bytes se)) [] = (.ok (List.replicate ws.length 0), a) ∧ Sel.mk' a = .ok s ∧
      ∀ (ρ : Type) [Reader ρ] (src : ρ) (em : Option (List (Nat × UChar))) (addr k : Nat) (showPos : Bool) (calls : List (Nat × Bool))
        (obs : List Obs) (t : Scanner ρ), session k showPos calls (Scanner.mk' src e em addr) = (.ok obs, t) →
        ((∀ o ∈ obs, o.type ≠ .HeaderStart) ∨ ∀ w ∈ ws, w.Inside) →
        ∃ rss, (∃ N s', ∀ m, N ≤ m → Sel.feed m (given obs) s = (.ok rss, s')) ∧
          ∀ ty, ty ≠ 0 → rss.map (·.count ty) = rangedAnswers (ws.flatMap (Written.ranged e)) ty [] [(0, 0)] none (given obs) := by
  obtain ⟨a, s, h1, h2, h3⟩ := select_emitted hse he hw hq
  refine ⟨a, s, h1, h2, fun ρ _ src em addr k sp calls obs t h hh => h3 _ (emitted_session h) (hh.imp_left fun hh it hit => ?_)⟩
  obtain ⟨o, k1, rfl⟩ := List.mem_map.1 hit
  exact hh o (List.mem_filter.1 k1).1

/-- C105 (partial) for an input that comes in chunks; the rest is as in `C105_any_partial`. -/
theorem C105_chunks_partial (hse : PageOk se) (he : ByteSet e) {n : Nat} {ws : List Written}
    (hw : ∀ w ∈ ws, w.Fine se e ∧ w.codes.length < n) (hq : Calm ws) :
    ∃ a s, addAll se e n (ws.map fun w => (w.type, w.bytes se)) [] = (.ok (List.replicate ws.length 0), a) ∧ Sel.mk' a = .ok s ∧
      ∀ (de : Enc) (c : List Byte) (cs : List (List Byte)) (em : Option (List (Nat × UChar))) (addr k : Nat) (fresh showPos : Bool)
        (calls : List (Nat × Bool)) (obs : List Obs) (t : Scanner (TextScanner SrcIt)),
        sessionFed k fresh showPos calls cs (fedScanner de e em addr c cs) = (.ok obs, t) →
        ((∀ o ∈ obs, o.type ≠ .HeaderStart) ∨ ∀ w ∈ ws, w.Inside) →
        ∃ rss, (∃ N s', ∀ m, N ≤ m → Sel.feed m (given obs) s = (.ok rss, s')) ∧
          ∀ ty, ty ≠ 0 → rss.map (·.count ty) = rangedAnswers (ws.flatMap (Written.ranged e)) ty [] [(0, 0)] none (given obs) := by
  obtain ⟨a, s, h1, h2, h3⟩ := select_emitted hse he hw hq
  refine ⟨a, s, h1, h2, fun de c cs em addr k fr sp calls obs t h hh => h3 _ (emitted_fed h) (hh.imp_left fun hh it hit => ?_)⟩
  obtain ⟨o, k1, rfl⟩ := List.mem_map.1 hit
  exact hh o (List.mem_filter.1 k1).1

/-- An input that is not well formed: wrong close tags, an unknown entity and no end. -/
def brokenInput : List Byte := ascii "<a b='1'>x<c/>y<d>z</q></q></z></z><a b='3'>&u;z"

def brokenSession : Res (List Obs) × Scanner (TextScanner SrcIt) :=
  session 100 false (List.replicate 18 (0xFFFF, true)) (oneScanner .utf8 .utf8 none 0 brokenInput)

theorem broken_given : (match brokenSession.1 with | .ok obs => some (given obs) | .stop _ => none) = some
    [(.OpenTag, [97]), (.TagAttribName, [98]), (.TagAttribValue, [49]), (.Content, [120]), (.OpenTag, [99]), (.CloseTagIm, []),
      (.Content, [121]), (.OpenTag, [100]), (.Content, [122]), (.CloseTag, [113]), (.CloseTag, [113]), (.CloseTag, [122]), (.CloseTag, [122]),
      (.OpenTag, [97]), (.TagAttribName, [98]), (.TagAttribValue, [51]), (.Content, [59, 122])] := by decide +kernel

/-- Each expression of `numbersExample` on the input. -/
example : ∃ a s, addAll .utf8 .utf8 2000 (numbersExample.map fun w => (w.type, w.bytes .utf8)) [] = (.ok [0, 0, 0, 0], a) ∧ Sel.mk' a = .ok s ∧
    ∃ obs t rss, brokenSession = (.ok obs, t) ∧ (∃ N s', ∀ m, N ≤ m → Sel.feed m (given obs) s = (.ok rss, s')) ∧
      [1, 2, 3, 4].map (fun ty : Int => rss.map (·.count ty)) =
        [[0, 0, 0, 1, 0, 0, 0, 0, 0, 0, 0, 0, 0, 0, 0, 0, 1], [0, 0, 0, 0, 0, 0, 1, 0, 0, 0, 0, 0, 0, 0, 0, 0, 0],
          [0, 0, 0, 0, 0, 0, 0, 0, 0, 0, 0, 0, 0, 0, 0, 0, 0], [0, 0, 0, 1, 0, 0, 1, 0, 0, 0, 0, 0, 0, 0, 0, 0, 1]] := by
  obtain ⟨a, s, h1, h2, h3⟩ := C105_any_partial (se := .utf8) (e := .utf8) (fun p h => nomatch h) (.inl rfl) numbersExample_ok.1 numbersExample_ok.2.2
  refine ⟨a, s, h1, h2, ?_⟩
  have hg := broken_given
  cases hb : brokenSession with
  | mk r t =>
    rw [hb] at hg
    cases r with
    | stop er => cases hg
    | ok obs =>
      have hg : given obs = _ := Option.some.inj hg
      obtain ⟨rss, h4, h5⟩ := h3 _ _ _ _ _ _ _ _ _ hb (.inr numbersExample_ok.2.1)
      refine ⟨obs, t, rss, rfl, h4, ?_⟩
      simp only [List.map_cons, List.map_nil]
      rw [h5 1 (by decide), h5 2 (by decide), h5 3 (by decide), h5 4 (by decide), hg]
      decide +kernel

end TW
