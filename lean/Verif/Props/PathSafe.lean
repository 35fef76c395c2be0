import Verif.Proofs.PathSafe

/-!
# C87: Path automatons and selectors never leave their vectors

Whatever is built, with the functions of path elements or with texts, and whatever is done with selectors on it: every access
is one to an element of a vector, and every loop comes to an end.
-/

namespace TW

open TW.Path

variable (se e : Enc)

/-- One step of building: the automaton with the path elements got so far. Path elements can be used again and again, in any order. -/
inductive Builds : Atm × List PElem → Atm × List PElem → Prop
  /-- The path element of the root, xmlpathautomaton.hpp:`operator*`. -/
  | root (a : Atm) (hs : List PElem) : Builds (a, hs) (a, {} :: hs)
  /-- A function of a path element has returned another one. -/
  | call (a : Atm) (hs : List PElem) (p : PElem) (c : PElem.Call) (n : Nat) (q : PElem) (a' : Atm) (hp : p ∈ hs)
      (h : PElem.call e n p c a = (.ok q, a')) : Builds (a, hs) (a', q :: hs)
  /-- A function of a path element has thrown an exception. -/
  | failed (a : Atm) (hs : List PElem) (p : PElem) (c : PElem.Call) (n : Nat) (er : Stop) (a' : Atm) (hp : p ∈ hs)
      (h : PElem.call e n p c a = (.stop er, a')) : Builds (a, hs) (a', hs)
  /-- A text has been added, with whatever result. -/
  | text (a : Atm) (hs : List PElem) (n : Nat) (type : Int) (src : List Byte) (r : Res Nat) (a' : Atm)
      (h : addExpression se e n type src a = (r, a')) : Builds (a, hs) (a', hs)

/-- The automatons that can be built. -/
inductive Built : Atm × List PElem → Prop
  | empty : Built ([], [])
  | step {x y : Atm × List PElem} (h : Built x) (k : Builds se e x y) : Built y

/-- The states of selectors: `started` tells that there has been an item. The automaton may grow meanwhile, as the selector has only
a reference to it. -/
inductive Lived : Atm × List PElem → Bool → Sel → Prop
  /-- xmlpathselect.hpp:327-331. -/
  | made {x : Atm × List PElem} {s : Sel} (h : Built se e x) (k : Sel.mk' x.1 = .ok s) : Lived x false s
  /-- Any item, whatever has been fetched of the last one. -/
  | item {x : Atm × List PElem} {b : Bool} {s : Sel} (h : Lived x b s) (type : ElementType) (key : List Byte) : Lived x true (Sel.initElement type key s)
  /-- A further result, with enough fuel. -/
  | fetch {x : Atm × List PElem} {s : Sel} (h : Lived x true s) {r : Int} {t : Sel} (N : Nat) (k : ∀ n, N ≤ n → Sel.fetch n s = (.ok r, t)) : Lived x true t
  /-- An iterator is destroyed, any one of its copies. -/
  | close {x : Atm × List PElem} {s : Sel} (h : Lived x true s) : Lived x true (Sel.closeElement s)
  /-- A copy of the selector. -/
  | copy {x : Atm × List PElem} {b : Bool} {s : Sel} (h : Lived x b s) : Lived x false (Sel.copy s)
  /-- The automaton grows. -/
  | grow {x y : Atm × List PElem} {b : Bool} {s : Sel} (h : Lived x b s) (k : Builds se e x y) : Lived y b { s with atm := y.1 }

variable {se e : Enc}

theorem builds_good {x y : Atm × List PElem} (k : Builds se e x y) (h : Good x.1 ∧ ∀ p ∈ x.2, Valid x.1 p.stateidx) :
    (Good y.1 ∧ ∀ p ∈ y.2, Valid y.1 p.stateidx) ∧ x.1.length ≤ y.1.length := by
  obtain ⟨g, hv⟩ := h
  cases k with
  | root a hs =>
    refine ⟨⟨g, fun p hp => ?_⟩, Nat.le_refl _⟩
    rcases List.mem_cons.1 hp with rfl | hp
    · exact .inr rfl
    · exact hv p hp
  | call a hs p c n q a' hp h =>
    obtain ⟨h1, h2, h3⟩ := call_keeps g (hv p hp) h
    refine ⟨⟨h1, fun r hr => ?_⟩, h2⟩
    rcases List.mem_cons.1 hr with rfl | hr
    · exact h3 _ rfl
    · exact (hv r hr).mono h2
  | failed a hs p c n er a' hp h =>
    obtain ⟨h1, h2, h3⟩ := call_keeps g (hv p hp) h
    exact ⟨⟨h1, fun r hr => (hv r hr).mono h2⟩, h2⟩
  | text a hs n type src r a' h =>
    obtain ⟨h1, h2⟩ := text_keeps g h
    exact ⟨⟨h1, fun r hr => (hv r hr).mono h2⟩, h2⟩

theorem built_good {x : Atm × List PElem} (h : Built se e x) : Good x.1 ∧ ∀ p ∈ x.2, Valid x.1 p.stateidx := by
  induction h with
  | empty => exact ⟨.nil, fun p hp => nomatch hp⟩
  | step _ k ih => exact (builds_good k ih).1

theorem lived_sound {x : Atm × List PElem} {b : Bool} {s : Sel} (h : Lived se e x b s) : (Good x.1 ∧ ∀ p ∈ x.2, Valid x.1 p.stateidx) ∧ Sound x.1 s := by
  induction h with
  | made h k =>
    have g := built_good h
    obtain ⟨t, h1, h2⟩ := mk_safe g.1
    rw [h1] at k
    cases k
    exact ⟨g, h2⟩
  | item _ type key ih => exact ⟨ih.1, init_safe ih.2 type key⟩
  | fetch _ N k ih =>
    obtain ⟨N', r', t', h1, h2, _⟩ := fetch_ends ih.1.1 ih.2
    have h3 := k (N + N') (by omega)
    rw [h1 (N + N') (by omega)] at h3
    cases h3
    exact ⟨ih.1, h2⟩
  | close _ ih => exact ⟨ih.1, (close_safe ih.2).1⟩
  | copy _ ih => exact ⟨ih.1, copy_safe ih.2⟩
  | grow _ k ih =>
    obtain ⟨h1, h2⟩ := builds_good k ih.1
    exact ⟨h1, grow_safe ih.2 h2⟩

/-- **C87 (building)** — The functions of path elements never leave the vector of states, whatever has been built before: they return a
path element, if the names given can be read, and otherwise they stop for the name alone. -/
theorem C87_building {x : Atm × List PElem} (h : Built se e x) {p : PElem} (hp : p ∈ x.2) (c : PElem.Call) (n : Nat) :
    (∃ q a', PElem.call e n p c x.1 = (.ok q, a')) ∨
    (∃ er a' nm, PElem.call e n p c x.1 = (.stop er, a') ∧ nm ∈ c.names ∧ nameKey e n nm = .stop er) := by
  obtain ⟨g, hv⟩ := built_good h
  rcases hx : PElem.call e n p c x.1 with ⟨r, a'⟩
  cases r with
  | ok q => exact .inl ⟨q, a', rfl⟩
  | stop er =>
    obtain ⟨nm, h1, h2⟩ := call_fails g (hv p hp) hx
    exact .inr ⟨er, a', nm, rfl, h1, h2⟩

/-- **C87 (selecting)** — A selector can be made of every automaton that can be built. In every state it can get into, getting a
further result comes to an end inside of the vectors, and so does the walk through the results of any further item, with both kinds of increment. -/
theorem C87_selecting : (∀ x, Built se e x → ∃ s, Sel.mk' x.1 = .ok s) ∧
    ∀ x b s, Lived se e x b s →
      (b = true → ∃ N r t, ∀ n, N ≤ n → Sel.fetch n s = (.ok r, t)) ∧
      ∀ post type key, ∃ N rs t, ∀ n, N ≤ n → Sel.push n post type key s = (.ok rs, t) := by
  refine ⟨fun x h => ?_, fun x b s h => ?_⟩
  · obtain ⟨s, h1, _⟩ := mk_safe (built_good h).1
    exact ⟨s, h1⟩
  · obtain ⟨⟨g, _⟩, h1⟩ := lived_sound h
    refine ⟨fun _ => ?_, fun post type key => ?_⟩
    · obtain ⟨N, r, t, h2, _⟩ := fetch_ends g h1
      exact ⟨N, r, t, h2⟩
    · obtain ⟨N, rs, t, h2, _⟩ := push_ends g h1 post type key
      exact ⟨N, rs, t, h2⟩

/-- **C87 (inspecting)** — The list of the states that may match next can be got in every state of a selector, it has only states of the automaton, and
for each of them the emitted types can be listed. -/
theorem C87_inspecting {x : Atm × List PElem} {b : Bool} {s : Sel} (h : Lived se e x b s) (type : ElementType) (withFollows : Bool) :
    ∃ l, Sel.matchingStates type withFollows s = (.ok l, s) ∧ ∀ i ∈ l, i < x.1.length ∧ ∀ type', ∃ tys, Atm.emitted i type' x.1 = (.ok tys, x.1) := by
  obtain ⟨⟨g, _⟩, h1⟩ := lived_sound h
  obtain ⟨l, h2, h3⟩ := matchingStates_safe h1 type withFollows
  exact ⟨l, h2, fun i hi => ⟨h3 i hi, fun type' => emitted_safe g (h3 i hi) type'⟩⟩

/-! ## An example -/

/-- `//a` by the functions of path elements. -/
def safeA : Atm := (PElem.call .utf8 9 ({} : PElem).doFollow (.tag (some [97])) []).2

/-- And `/a/b@c` by a text. -/
def safeB : Atm := (addExpression .utf8 .utf8 30 7 [47, 97, 47, 98, 64, 99] safeA).2

/-- A selector on the first one. -/
def safeS : Sel := (Sel.expand 4 (some 0) { atm := safeA }).2

/-- In an open tag, with the automaton grown meanwhile. -/
def safeT : Sel := { Sel.initElement .OpenTag [97] safeS with atm := safeB }

theorem safe_lived : Lived .utf8 .utf8 (safeB, [{ stateidx := 2 }, ({} : PElem).doFollow, {}]) true safeT := by
  have h0 : Built .utf8 .utf8 ([], [{}]) := .step .empty (.root [] [])
  have h1 : Built .utf8 .utf8 ([], [({} : PElem).doFollow, {}]) := .step h0 (.call [] [{}] {} .follow 9 _ _ (by simp) rfl)
  have h2 : Built .utf8 .utf8 (safeA, [{ stateidx := 2 }, ({} : PElem).doFollow, {}]) :=
    .step h1 (.call [] _ ({} : PElem).doFollow (.tag (some [97])) 9 { stateidx := 2 } safeA (by simp) (by decide +kernel))
  have h3 : Lived .utf8 .utf8 (safeA, [{ stateidx := 2 }, ({} : PElem).doFollow, {}]) true (Sel.initElement .OpenTag [97] safeS) :=
    .item (.made h2 (by decide +kernel)) .OpenTag [97]
  have h4 : addExpression .utf8 .utf8 30 7 [47, 97, 47, 98, 64, 99] safeA = (.ok 0, safeB) := by decide +kernel
  have h5 := Lived.grow h3 (.text safeA _ 30 7 [47, 97, 47, 98, 64, 99] _ safeB h4)
  unfold safeT
  generalize Sel.initElement .OpenTag [97] safeS = s at h5 ⊢
  dsimp only at h5 ⊢
  exact h5

example : safeB.length = 10 ∧ safeT.tokens.length = 2 ∧ safeT.scopestk ≠ [] := by decide +kernel

/-- The item leads to another token, and the list of the states that may match next is not empty. -/
example : (Sel.fetch 9 safeT).2.tokens.length = 3 ∧ Sel.matchingStates .OpenTag true (Sel.fetch 9 safeT).2 = (.ok [1], (Sel.fetch 9 safeT).2) := by
  decide +kernel

/-- A path element that is none of the automaton would not be safe. -/
example : (PElem.call .utf8 9 { stateidx := 7 } (.tag none) safeA).1 = .stop .ub := by decide +kernel

end TW
