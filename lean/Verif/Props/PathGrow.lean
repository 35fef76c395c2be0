import Verif.Props.PathSafe
import Verif.Proofs.PathSpent
import Verif.Proofs.PathFuel

/-!
# C89: Building only adds to a path automaton
# C90: The counters of ranges stay in their type
-/

namespace TW

open TW.Path

variable {se e : Enc}

/-! ## C89 -/

/-- Any number of steps of building. -/
inductive Later (se e : Enc) : Atm × List PElem → Atm × List PElem → Prop
  | refl (x : Atm × List PElem) : Later se e x x
  | step {x y z : Atm × List PElem} (h : Later se e x y) (k : Builds se e y z) : Later se e x z

theorem builds_grown {x y : Atm × List PElem} (h : Built se e x) (k : Builds se e x y) : Grown (fun _ => True) (fun _ => True) x.1 y.1 := by
  obtain ⟨g, hv⟩ := built_good h
  have any : ∀ c : PElem.Call, c.Bounds (fun _ => True) (fun _ => True) := by
    intro c
    cases c <;> first | exact ⟨trivial, trivial⟩ | exact trivial
  cases k with
  | root a hs => exact .refl _
  | call a hs p c n q a' hp hq => exact (call_grown trivial trivial g (hv p hp) ⟨trivial, trivial⟩ (any c) hq).1
  | failed a hs p c n er a' hp hq => exact (call_grown trivial trivial g (hv p hp) ⟨trivial, trivial⟩ (any c) hq).1
  | text a hs n type src r a' hq =>
    have k := text_grown g hq
    exact ⟨k.old, fun _ _ _ _ => ⟨trivial, trivial⟩⟩

theorem later_grown {x y : Atm × List PElem} (h : Built se e x) (k : Later se e x y) : Built se e y ∧ Grown (fun _ => True) (fun _ => True) x.1 y.1 ∧ ∀ p ∈ x.2, p ∈ y.2 := by
  induction k with
  | refl => exact ⟨h, .refl _, fun p hp => hp⟩
  | step _ k ih =>
    refine ⟨.step ih.1 k, ih.2.1.trans (builds_grown ih.1 k), fun p hp => ?_⟩
    have := ih.2.2 p hp
    cases k with
    | root => exact List.mem_cons_of_mem _ this
    | call => exact List.mem_cons_of_mem _ this
    | failed => exact this
    | text => exact this

/-- **C89** — Building only adds: whatever is done further with path elements and texts, with or without success, every state that is there
stays where it is with all that it selects, follows and emits, and a link once set is never set again. -/
theorem C89_adds {x y : Atm × List PElem} (h : Built se e x) (k : Later se e x y) (i : Nat) (st : State) (hi : x.1[i]? = some st) :
    ∃ st', y.1[i]? = some st' ∧ st'.core = st.core ∧ st'.key = st.key ∧ st'.next = st.next ∧ (st.link ≠ none → st'.link = st.link) :=
  (later_grown h k).2.1.old i st hi

/-- The example: `//a` is built, then the text `/a/b@c` is added. One state gets a link. -/
example : Built .utf8 .utf8 (safeA, [{ stateidx := 2 }, ({} : PElem).doFollow, {}]) ∧
    Later .utf8 .utf8 (safeA, [{ stateidx := 2 }, ({} : PElem).doFollow, {}]) (safeB, [{ stateidx := 2 }, ({} : PElem).doFollow, {}]) ∧
    safeA.length = 3 ∧ safeB.length = 10 ∧ (safeA[1]?.map (·.link) = some none ∧ safeB[1]?.map (·.link) = some (some 3)) := by
  have h0 : Built .utf8 .utf8 ([], [{}]) := .step .empty (.root [] [])
  have h1 : Built .utf8 .utf8 ([], [({} : PElem).doFollow, {}]) := .step h0 (.call [] [{}] {} .follow 9 _ _ (by simp) rfl)
  have h2 : Built .utf8 .utf8 (safeA, [{ stateidx := 2 }, ({} : PElem).doFollow, {}]) :=
    .step h1 (.call [] _ ({} : PElem).doFollow (.tag (some [97])) 9 { stateidx := 2 } safeA (by simp) (by decide +kernel))
  have h4 : addExpression .utf8 .utf8 30 7 [47, 97, 47, 98, 64, 99] safeA = (.ok 0, safeB) := by decide +kernel
  exact ⟨h2, .step (.refl _) (.text safeA _ 30 7 [47, 97, 47, 98, 64, 99] _ safeB h4), by decide +kernel⟩

/-! ## C90 -/

/-- The numbers of the type `int`. -/
def IsInt (i : Int) : Prop := -2147483648 ≤ i ∧ i ≤ 2147483647

instance (i : Int) : Decidable (IsInt i) := inferInstanceAs (Decidable (_ ∧ _))

/-- The numbers given are of the type `int`, and one more than the last index still is. -/
def PElem.Call.Ints : PElem.Call → Prop
  | .to i => IsInt i ∧ i < 2147483647
  | .from' i => IsInt i
  | .range i j => IsInt i ∧ IsInt j ∧ j < 2147483647
  | .index i => IsInt i ∧ i < 2147483647
  | _ => True

/-- The automatons that can be built with some calls and all texts. -/
inductive BuiltBy (se e : Enc) (ok : PElem.Call → Prop) : Atm × List PElem → Prop
  | empty : BuiltBy se e ok ([], [])
  | root {a : Atm} {hs : List PElem} (h : BuiltBy se e ok (a, hs)) : BuiltBy se e ok (a, {} :: hs)
  | call {a : Atm} {hs : List PElem} (h : BuiltBy se e ok (a, hs)) {p : PElem} {c : PElem.Call} (n : Nat) {q : PElem} {a' : Atm} (hp : p ∈ hs)
      (hc : ok c) (hq : PElem.call e n p c a = (.ok q, a')) : BuiltBy se e ok (a', q :: hs)
  | failed {a : Atm} {hs : List PElem} (h : BuiltBy se e ok (a, hs)) {p : PElem} {c : PElem.Call} (n : Nat) {er : Stop} {a' : Atm} (hp : p ∈ hs)
      (hc : ok c) (hq : PElem.call e n p c a = (.stop er, a')) : BuiltBy se e ok (a', hs)
  | text {a : Atm} {hs : List PElem} (h : BuiltBy se e ok (a, hs)) (n : Nat) (type : Int) (src : List Byte) {r : Res Nat} {a' : Atm}
      (hq : addExpression se e n type src a = (r, a')) : BuiltBy se e ok (a', hs)

theorem BuiltBy.built {ok : PElem.Call → Prop} {x : Atm × List PElem} (h : BuiltBy se e ok x) : Built se e x := by
  induction h with
  | empty => exact .empty
  | root _ ih => exact .step ih (.root _ _)
  | call _ n hp _ hq ih => exact .step ih (.call _ _ _ _ n _ _ hp hq)
  | failed _ n hp _ hq ih => exact .step ih (.failed _ _ _ _ n _ _ hp hq)
  | text _ n type src hq ih => exact .step ih (.text _ _ n type src _ _ hq)

theorem grown_all {A B : Int → Prop} {a a' : Atm} (h : Grown A B a a') (k : ∀ st ∈ a, A st.core.cntStart ∧ B st.core.cntEnd) :
    ∀ st ∈ a', A st.core.cntStart ∧ B st.core.cntEnd := by
  intro st hst
  obtain ⟨i, hi⟩ := List.getElem?_of_mem hst
  rcases Nat.lt_or_ge i a.length with hl | hl
  · obtain ⟨s0, h0⟩ := get_of_lt hl
    obtain ⟨s1, h1, h2, _⟩ := h.old i s0 h0
    rw [hi] at h1
    cases h1
    rw [h2]
    exact k s0 (List.mem_of_getElem? h0)
  · exact h.new i st hl hi

/-- What holds for the bounds given holds for all the ranges. -/
theorem built_bounds {A B : Int → Prop} (hA : ∀ i, TextStart i → A i) (hB : ∀ i, TextEnd i → B i) {ok : PElem.Call → Prop} (hok : ∀ c, ok c → c.Bounds A B)
    {x : Atm × List PElem} (h : BuiltBy se e ok x) : (∀ st ∈ x.1, A st.core.cntStart ∧ B st.core.cntEnd) ∧ ∀ p ∈ x.2, A p.start ∧ B p.stop := by
  have a0 : A 0 := hA 0 ⟨by decide, by decide⟩
  have b0 : B (-1) := hB (-1) (.inl rfl)
  induction h with
  | empty => exact ⟨(fun _ h => nomatch h), (fun _ h => nomatch h)⟩
  | root _ ih =>
    refine ⟨ih.1, fun p hp => ?_⟩
    rcases List.mem_cons.1 hp with rfl | hp
    · exact ⟨a0, b0⟩
    · exact ih.2 p hp
  | call h n hp hc hq ih =>
    obtain ⟨g, hv⟩ := built_good h.built
    obtain ⟨h1, h2⟩ := call_grown a0 b0 g (hv _ hp) (ih.2 _ hp) (hok _ hc) hq
    refine ⟨grown_all h1 ih.1, fun p hp => ?_⟩
    rcases List.mem_cons.1 hp with rfl | hp
    · exact h2 _ rfl
    · exact ih.2 p hp
  | failed h n hp hc hq ih =>
    obtain ⟨g, hv⟩ := built_good h.built
    obtain ⟨h1, h2⟩ := call_grown a0 b0 g (hv _ hp) (ih.2 _ hp) (hok _ hc) hq
    exact ⟨grown_all h1 ih.1, ih.2⟩
  | text h n type src hq ih =>
    obtain ⟨g, hv⟩ := built_good h.built
    have h1 := text_grown g hq
    exact ⟨grown_all ⟨h1.old, fun i st hi hs => ⟨hA _ (h1.new i st hi hs).1, hB _ (h1.new i st hi hs).2⟩⟩ ih.1, ih.2⟩

theorem ints_bounds (c : PElem.Call) (h : PElem.Call.Ints c) : c.Bounds IsInt IsInt := by
  cases c with
  | to i =>
    refine ⟨by decide, ?_⟩
    obtain ⟨⟨h1, h2⟩, h3⟩ := h
    split
    · exact ⟨by omega, by omega⟩
    · decide
  | from' i => exact ⟨h, by decide⟩
  | range i j =>
    obtain ⟨hi, ⟨h1, h2⟩, h3⟩ := h
    refine ⟨hi, ?_⟩
    split
    · exact ⟨by omega, by omega⟩
    · decide
  | index i =>
    obtain ⟨⟨h1, h2⟩, h3⟩ := h
    exact ⟨⟨h1, h2⟩, by omega, by omega⟩
  | _ => trivial

/-- **C90 (texts)** — In an automaton built of texts alone, the first index of every range is a number of at most eight digits, and what is behind its last
index is at most one more, or the largest number where the range is open. -/
theorem C90_texts {x : Atm × List PElem} (h : BuiltBy se e (fun _ => False) x) {st : State} (hst : st ∈ x.1) :
    (0 ≤ st.core.cntStart ∧ st.core.cntStart < 100000000) ∧
    (st.core.cntEnd = -1 ∨ st.core.cntEnd = 2147483647 ∨ 1 ≤ st.core.cntEnd ∧ st.core.cntEnd ≤ 100000000) :=
  (built_bounds (A := TextStart) (B := TextEnd) (fun _ h => h) (fun _ h => h) (fun _ h => h.elim) h).1 st hst

theorem lived_spent {x : Atm × List PElem} {b : Bool} {s : Sel} (h : Lived se e x b s) : Built se e x ∧ AllSpent x.1 s := by
  induction h with
  | made h k => exact ⟨h, mk_spent k⟩
  | item _ type key ih => exact ⟨ih.1, init_spent ih.2 type key⟩
  | fetch _ N k ih =>
    have := fetch_holds N _ ih.2
    rw [k N (Nat.le_refl _)] at this
    exact ⟨ih.1, this⟩
  | close h ih => exact ⟨ih.1, close_spent (lived_sound h).2 ih.2⟩
  | copy _ ih => exact ⟨ih.1, ih.2⟩
  | grow _ k ih =>
    refine ⟨.step ih.1 k, rfl, fun t ht => ?_⟩
    obtain ⟨st, h1, h2⟩ := ih.2.2 t ht
    obtain ⟨st', k1, k2, _⟩ := (builds_grown ih.1 k).old _ _ h1
    exact ⟨st', k1, by rw [k2]; exact h2⟩

/-- **C90 (counting)** — Whatever has been done with a selector, and however the automaton has grown meanwhile: every token has a state, with the type it
emits, and of the range of this state it has used up some elements. An unlimited or empty range is never counted. Of the elements counted, the first
ones are skipped, as many as the range says. When none are left, the token matches nothing anymore. -/
theorem C90_counting {x : Atm × List PElem} {b : Bool} {s : Sel} (h : Lived se e x b s) {t : Token} (ht : t ∈ s.tokens) :
    ∃ st, x.1[t.stateidx]? = some st ∧ t.core.typeidx = st.core.typeidx ∧ t.core.follow = st.core.follow ∧ (t.core.mask = st.core.mask ∨ t.core.mask = {}) ∧
      (st.core.cntEnd ≤ 0 → t.core.cntEnd = st.core.cntEnd ∧ t.core.cntStart = st.core.cntStart) ∧
      (0 < st.core.cntEnd → ∃ used : Int, 0 ≤ used ∧ used ≤ st.core.cntEnd ∧ t.core.cntEnd = st.core.cntEnd - used ∧
        t.core.cntStart = (if st.core.cntStart ≤ 0 then st.core.cntStart else if used ≤ st.core.cntStart then st.core.cntStart - used else 0) ∧
        (used = st.core.cntEnd → t.core.mask = {})) := by
  obtain ⟨st, h1, ⟨k1, k2, k3, k4, k5, k6⟩⟩ := (lived_spent h).2.2 t ht
  refine ⟨st, h1, k1, k2, k3, fun hz => ⟨k4 hz, ?_⟩, fun hp => ⟨st.core.cntEnd - t.core.cntEnd, ?_, ?_, by omega, ?_, fun hu => (k5 hp).2.2 (by omega)⟩⟩
  · have := k4 hz
    omega
  · have := k5 hp
    omega
  · have := k5 hp
    omega
  · have := k5 hp
    split
    · omega
    · split <;> omega

/-- **C90** — No addition and no subtraction leaves the type `int`: if the numbers given are of this type and those of the last elements are less than the largest one,
then all ranges of states and path elements are, and so are the counters of all tokens in every state of a selector. Without this condition it is false
(`C90_overflow`). -/
theorem C90_ints_partial {x : Atm × List PElem} (h : BuiltBy se e PElem.Call.Ints x) :
    (∀ st ∈ x.1, IsInt st.core.cntStart ∧ IsInt st.core.cntEnd) ∧ (∀ p ∈ x.2, IsInt p.start ∧ IsInt p.stop) ∧
    ∀ b s, Lived se e x b s → ∀ t ∈ s.tokens, IsInt t.core.cntStart ∧ IsInt t.core.cntEnd := by
  obtain ⟨h1, h2⟩ := built_bounds (A := IsInt) (B := IsInt) (fun i ⟨k1, k2⟩ => ⟨by omega, by omega⟩)
    (fun i k => by rcases k with rfl | rfl | ⟨k1, k2⟩ <;> exact ⟨by omega, by omega⟩) ints_bounds h
  refine ⟨h1, h2, fun b s hs t ht => ?_⟩
  obtain ⟨st, k1, _, _, _, k2, k3⟩ := C90_counting hs ht
  obtain ⟨⟨j1, j2⟩, ⟨j3, j4⟩⟩ := h1 st (List.mem_of_getElem? k1)
  rcases Int.lt_or_le 0 st.core.cntEnd with hp | hp
  · obtain ⟨used, u1, u2, u3, u4, _⟩ := k3 hp
    refine ⟨?_, by omega, by omega⟩
    rw [u4]
    split
    · exact ⟨by omega, by omega⟩
    · split <;> exact ⟨by omega, by omega⟩
  · obtain ⟨u1, u2⟩ := k2 hp
    exact ⟨⟨by omega, by omega⟩, by omega, by omega⟩

/-- **C90 (overflow)** — `TO`, `RANGE` and `INDEX` with the largest number add one to it: the code leaves the type. -/
theorem C90_overflow : ∀ c ∈ [PElem.Call.to 2147483647, .range 0 2147483647, .index 2147483647],
    ∃ q a, PElem.call .utf8 9 {} c [] = (.ok q, a) ∧ ¬ IsInt q.stop := by
  intro c hc
  rcases List.mem_cons.1 hc with rfl | hc
  · exact ⟨_, _, rfl, by decide⟩
  · rcases List.mem_cons.1 hc with rfl | hc
    · exact ⟨_, _, rfl, by decide⟩
    · cases List.mem_singleton.1 hc
      exact ⟨_, _, rfl, by decide⟩

/-! ## Examples -/

/-- `(*root)["a"].RANGE(1, 2) = 5`, and the text `/b[1,2]()`: contents of `b`. -/
def countA : Atm := (PElem.calls .utf8 9 {} [.tag (some [97]), .range 1 2, .assign 5] []).2

def countB : Atm := (addExpression .utf8 .utf8 30 7 [47, 98, 91, 49, 44, 50, 93, 40, 41] countA).2

example : countB.map (fun st => (st.core.cntStart, st.core.cntEnd)) = [(0, -1), (0, -1), (0, -1), (1, 3), (0, -1), (0, -1), (1, 3)] := by decide +kernel

def countElems : List PElem := [{ stateidx := 3, start := 1, stop := 3 }, { stateidx := 2, start := 1, stop := 3 }, { stateidx := 2 }, {}]

theorem count_built : BuiltBy .utf8 .utf8 PElem.Call.Ints (countB, countElems) := by
  have h0 : BuiltBy .utf8 .utf8 PElem.Call.Ints ([], [{}]) := .root .empty
  have h1 := BuiltBy.call h0 (p := {}) (c := .tag (some [97])) 9 (q := { stateidx := 2 }) (a' := (PElem.call .utf8 9 {} (.tag (some [97])) []).2) (by simp) trivial (by decide +kernel)
  have h2 := BuiltBy.call h1 (p := { stateidx := 2 }) (c := .range 1 2) 9 (q := { stateidx := 2, start := 1, stop := 3 }) (by simp) ⟨by decide, by decide, by decide⟩ rfl
  have h3 := BuiltBy.call h2 (p := { stateidx := 2, start := 1, stop := 3 }) (c := .assign 5) 9 (q := { stateidx := 3, start := 1, stop := 3 }) (a' := countA) (by simp) trivial (by decide +kernel)
  exact .text h3 30 7 [47, 98, 91, 49, 44, 50, 93, 40, 41] (r := .ok 0) (by decide +kernel)

/-- The selector at the beginning, in `<b>`, and behind the first and the second content of it. -/
def count0 : Sel := (Sel.expand 8 (some 0) { atm := countB }).2
def count1 : Sel := (Sel.fetch 20 (Sel.initElement .OpenTag [98] count0)).2
def count2 : Sel := (Sel.fetch 20 (Sel.initElement .Content [120] count1)).2
def count3 : Sel := (Sel.fetch 20 (Sel.initElement .Content [121] count2)).2

theorem count_lived : Lived .utf8 .utf8 (countB, countElems) true count2 ∧ Lived .utf8 .utf8 (countB, countElems) true count3 := by
  have h0 : Lived .utf8 .utf8 (countB, countElems) false count0 := .made count_built.built (by decide +kernel)
  have h1 : Lived .utf8 .utf8 (countB, countElems) true count1 :=
    .fetch (.item h0 .OpenTag [98]) 20 (r := 0) fun n hn => Sel.fetch_mono (show Sel.fetch 20 (Sel.initElement .OpenTag [98] count0) = (.ok 0, count1) by decide +kernel) hn
  have h2 : Lived .utf8 .utf8 (countB, countElems) true count2 :=
    .fetch (.item h1 .Content [120]) 20 (r := 7) fun n hn => Sel.fetch_mono (show Sel.fetch 20 (Sel.initElement .Content [120] count1) = (.ok 7, count2) by decide +kernel) hn
  exact ⟨h2, .fetch (.item h2 .Content [121]) 20 (r := 0) fun n hn => Sel.fetch_mono (show Sel.fetch 20 (Sel.initElement .Content [121] count2) = (.ok 0, count3) by decide +kernel) hn⟩

/-- Every content is counted twice, as a step and as a result: with the first one the range has one element left, with the second one
none, and the token matches nothing anymore. -/
example : (count1.tokens.map fun t => (t.stateidx, t.core.cntStart, t.core.cntEnd)) = (count0.tokens.map fun t => (t.stateidx, t.core.cntStart, t.core.cntEnd)) ++ [(5, 0, -1), (6, 1, 3)] ∧
    count2.tokens.getLast?.map (fun t => (t.stateidx, t.core.cntStart, t.core.cntEnd)) = some (6, 0, 1) ∧
    count3.tokens.getLast?.map (fun t => (t.stateidx, t.core.cntStart, t.core.cntEnd, t.core.mask)) = some (6, 0, 0, {}) := by decide +kernel

/-- An automaton of one text. -/
example : BuiltBy .utf8 .utf8 (fun _ => False) ((addExpression .utf8 .utf8 30 7 [47, 98, 91, 49, 44, 50, 93, 40, 41] []).2, []) :=
  .text .empty 30 7 [47, 98, 91, 49, 44, 50, 93, 40, 41] (r := .ok 0) (by decide +kernel)

end TW
