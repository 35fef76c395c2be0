import Verif.Proofs.PathRead
import Verif.Props.PathSafe

/-!
# C94: the text of an automaton
-/

namespace TW

open TW.Path TW.Spec.Path

section

variable (se e : Enc)

/-- The automatons that can be built, with the source forms of their names (see `Built`). -/
inductive SBuilt : SAtm × List PElem → Prop
  | empty : SBuilt ([], [])
  | root {a : SAtm} {hs : List PElem} (h : SBuilt (a, hs)) : SBuilt (a, {} :: hs)
  | call {a : SAtm} {hs : List PElem} (h : SBuilt (a, hs)) {p : PElem} {c : PElem.Call} (n : Nat) {q : PElem} {a' : SAtm} (hp : p ∈ hs)
      (hq : SAtm.call e n p c a = (.ok q, a')) : SBuilt (a', q :: hs)
  | failed {a : SAtm} {hs : List PElem} (h : SBuilt (a, hs)) {p : PElem} {c : PElem.Call} (n : Nat) {er : Stop} {a' : SAtm} (hp : p ∈ hs)
      (hq : SAtm.call e n p c a = (.stop er, a')) : SBuilt (a', hs)
  | text {a : SAtm} {hs : List PElem} (h : SBuilt (a, hs)) (n : Nat) (type : Int) (src : List Byte) {r : Res Nat} {a' : SAtm}
      (hq : SAtm.addExpression se e n type src a = (r, a')) : SBuilt (a', hs)

end

variable {se e : Enc}

/-- The source forms are only added: the automatons are those of the other properties. -/
theorem C94_same {x : SAtm × List PElem} (h : SBuilt se e x) : Built se e (SAtm.plain x.1, x.2) := by
  induction h with
  | empty => exact .empty
  | root _ ih => exact .step ih (.root _ _)
  | @call a hs _ p c n q a' hp hq ih =>
    have k := SAtm.Sim.call e n p c a
    rw [hq] at k
    exact .step ih (.call _ _ _ _ n _ _ hp k)
  | @failed a hs _ p c n er a' hp hq ih =>
    have k := SAtm.Sim.call e n p c a
    rw [hq] at k
    exact .step ih (.failed _ _ _ _ n _ _ hp k)
  | @text a hs _ n type src r a' hq ih =>
    have k := SAtm.Sim.addExpression se e n type src a
    rw [hq] at k
    exact .step ih (.text _ _ n type src _ _ k)

theorem sbuilt_ok {x : SAtm × List PElem} (h : SBuilt se e x) : SAtm.Oks e x.1 ∧ ∀ p ∈ x.2, SAtm.Pe p := by
  induction h with
  | empty => exact ⟨nofun, nofun⟩
  | root _ ih =>
    refine ⟨ih.1, fun p hp => ?_⟩
    rcases List.mem_cons.1 hp with c | c
    · rw [c]; exact .inl rfl
    · exact ih.2 p c
  | @call a hs _ p c n q a' hp hq ih =>
    have k := SAtm.call_ok (e := e) n (ih.2 p hp) c a ih.1
    rw [hq] at k
    refine ⟨k.1, fun p' hp' => ?_⟩
    rcases List.mem_cons.1 hp' with d | d
    · rw [d]; exact k.2 q rfl
    · exact ih.2 p' d
  | @failed a hs _ p c n er a' hp hq ih =>
    have k := SAtm.call_ok (e := e) n (ih.2 p hp) c a ih.1
    rw [hq] at k
    exact ⟨k.1, ih.2⟩
  | @text a hs _ n type src r a' hq ih =>
    have k := SAtm.addExpression_ok (e := e) se n type src a ih.1
    rw [hq] at k
    exact ⟨k.1, ih.2⟩

theorem made_waits {m : Mask} (h : SAtm.Made m) (ty : ElementType) : m.matches ty = true ↔ ty ∈ waitsFor m.seekopName := by
  rcases h with rfl | ⟨op, rfl⟩
  · cases ty <;> decide
  · cases op <;> cases ty <;> decide

theorem made_name {m : Mask} (h : SAtm.Made m) :
    (m = {} ∧ m.seekopName = chars "None") ∨ ∃ op, m = ({} : Mask).seekop op ∧ (op ≠ .ThisAttributeValue → m.seekopName = operationName op) := by
  rcases h with rfl | ⟨op, rfl⟩
  · exact .inl ⟨rfl, by decide⟩
  · exact .inr ⟨op, rfl, by cases op <;> decide⟩

/-- **C94** — The text of an automaton (`tostring`) tells everything about its states: whoever reads its lines gets, in the order of the states,
the index, the indices of the next and the linked state, whether the state is for all descendants, the type, the name of the operation, which
tells the items the state waits for, and the source form of the name its key was made of.

Partial: for automatons without names with an apostrophe and without ranges, and the name of the operation for the values of an attribute found
before is that of the operation for any values. -/
theorem C94_partial {x : SAtm × List PElem} (h : SBuilt se e x) (hq : ∀ s ∈ x.1, ∀ k, s.src = some k → 39 ∉ k) (hr : ∀ s ∈ x.1, s.st.core.cntEnd ≤ 0)
    (self : List Byte) {n : Nat} (hn : x.1.length ≤ n) :
    ∃ l : List Shown, readLines n (SAtm.tostring self x.1) = some l ∧ l.length = x.1.length ∧
      ∀ (i : Nat) (s : SState), x.1[i]? = some s → ∃ v : Shown, l[i]? = some v ∧ v.index = i ∧ v.next = s.st.next ∧ v.link = s.st.link ∧ v.follow = s.st.core.follow ∧
        v.type = s.st.core.typeidx ∧ (∀ ty, s.st.core.mask.matches ty = true ↔ ty ∈ waitsFor v.name) ∧
        ((s.st.core.mask = {} ∧ v.name = chars "None") ∨
          ∃ op, s.st.core.mask = ({} : Mask).seekop op ∧ (op ≠ .ThisAttributeValue → v.name = operationName op)) ∧
        ((s.st.key = none ∧ v.source = none) ∨ ∃ m nm k, nameKey e m nm = .ok k ∧ s.st.key = some k ∧ v.source = some (nm.takeWhile (· ≠ 0))) := by
  refine ⟨_, readLines_show self x.1 0 n hq hr hn, List.length_mapIdx, fun i s hs => ?_⟩
  have ok := (sbuilt_ok h).1 s (List.mem_of_getElem? hs)
  refine ⟨s.shown i, ?_, rfl, rfl, rfl, rfl, rfl, made_waits ok.mask, made_name ok.mask, ok.src⟩
  rw [List.getElem?_mapIdx, hs, Nat.zero_add]
  rfl

/-- Names of operations: the one for the values of an attribute found before is never given. -/
theorem C94_value : (({} : Mask).seekop .ThisAttributeValue).seekopName = operationName .AttributeValue ∧
    ∀ m : Mask, m.seekopName ≠ operationName .ThisAttributeValue := by
  refine ⟨by decide, fun m => ?_⟩
  unfold Mask.seekopName
  repeat' split
  all_goals first | decide | simp_all

/-- A range: the text has the address of a stream. -/
theorem C94_range {s : SState} (h : 0 < s.st.core.cntEnd) {self self' : List Byte} (k : s.tostring self = s.tostring self') : self = self' := by
  unfold SState.tostring at k
  rw [if_pos h, if_pos h] at k
  simpa using k

/-! ## Examples -/

/-- `/a//b@x`, `//*`, and a condition. -/
def showA : SAtm :=
  (SAtm.addExpression .utf8 .utf8 30 (-7) (ascii "//*[@x='1']") (SAtm.addExpression .utf8 .utf8 30 12 (ascii "/a//b@x") []).2).2

theorem show_built : SBuilt .utf8 .utf8 (showA, []) := by
  have h1 : SAtm.addExpression .utf8 .utf8 30 12 (ascii "/a//b@x") [] = (.ok 0, (SAtm.addExpression .utf8 .utf8 30 12 (ascii "/a//b@x") []).2) := by decide +kernel
  have h2 : SAtm.addExpression .utf8 .utf8 30 (-7) (ascii "//*[@x='1']") (SAtm.addExpression .utf8 .utf8 30 12 (ascii "/a//b@x") []).2 = (.ok 0, showA) := by decide +kernel
  exact .text (.text .empty _ _ _ h1) _ _ _ h2

example : (∀ s ∈ showA, ∀ k, s.src = some k → 39 ∉ k) ∧ (∀ s ∈ showA, s.st.core.cntEnd ≤ 0) ∧ showA.length = 15 := by
  have h : ∀ s ∈ showA, (∀ k ∈ s.src, 39 ∉ k) ∧ s.st.core.cntEnd ≤ 0 := by decide +kernel
  exact ⟨fun s hs k hk => (h s hs).1 k hk, fun s hs => (h s hs).2, by decide +kernel⟩

example : (SAtm.tostring [] showA).take 38 = ascii "0:  ~1 /None (null)\n1:  ->2 ~8 /OpenTa" := by decide +kernel

/-- A range. -/
example : ∃ s ∈ (SAtm.addExpression .utf8 .utf8 30 1 (ascii "/a[2]") []).2, 0 < s.st.core.cntEnd ∧
    s.tostring (ascii "0x7ffc") = ascii " /None (null)[2,0x7ffc3] =>1" := by decide +kernel

theorem showFrom_self {a : List SState} (h : ∀ s ∈ a, s.st.core.cntEnd ≤ 0) (self self' : List Byte) :
    ∀ i, SAtm.showFrom self i a = SAtm.showFrom self' i a := by
  induction a with
  | nil => intro i; rfl
  | cons s a ih =>
    intro i
    have hs : s.tostring self = s.tostring self' := by
      unfold SState.tostring
      rw [if_neg (Int.not_lt.2 (h s (List.mem_cons_self ..))), if_neg (Int.not_lt.2 (h s (List.mem_cons_self ..)))]
    simp only [SAtm.showFrom, hs, ih fun t ht => h t (List.mem_cons_of_mem _ ht)]

theorem show_self {a : SAtm} (h : ∀ s ∈ a, s.st.core.cntEnd ≤ 0) (self self' : List Byte) : SAtm.tostring self a = SAtm.tostring self' a :=
  showFrom_self h self self' 0

/-- An apostrophe and a line feed in names: one and the same text for different automatons. The steps `x` and `z` below each other,
and `x` and `y`. -/
def quoteQ : List Byte := ascii "'\n2:  ~3 /None (null)\n3:  ->4 /OpenTag '"

/-- Two steps. -/
def quoteA (n1 n2 : List Byte) : SAtm :=
  (SAtm.call .utf8 60 { stateidx := 2 } (.tag (some n2)) (SAtm.call .utf8 60 {} (.tag (some n1)) []).2).2

theorem quote_built {n1 n2 : List Byte} {q q' : PElem} (h1 : SAtm.call .utf8 60 {} (.tag (some n1)) [] = (.ok q, (SAtm.call .utf8 60 {} (.tag (some n1)) []).2))
    (hq : q = { stateidx := 2 }) (h2 : SAtm.call .utf8 60 { stateidx := 2 } (.tag (some n2)) (SAtm.call .utf8 60 {} (.tag (some n1)) []).2 = (.ok q', quoteA n1 n2)) :
    SBuilt .utf8 .utf8 (quoteA n1 n2, [q', q, {}]) := by
  subst hq
  exact .call (.call (.root .empty) 60 (List.mem_cons_self ..) h1) 60 (List.mem_cons_self ..) h2

/-- Without the condition on names the text does not tell the automaton. -/
theorem C94_quotes : ∃ x y, SBuilt .utf8 .utf8 x ∧ SBuilt .utf8 .utf8 y ∧ SAtm.plain x.1 ≠ SAtm.plain y.1 ∧ ∀ self, SAtm.tostring self x.1 = SAtm.tostring self y.1 := by
  refine ⟨(quoteA (ascii "x" ++ quoteQ ++ ascii "y") (ascii "z"), _), (quoteA (ascii "x") (ascii "y" ++ quoteQ ++ ascii "z"), _),
    quote_built (q' := { stateidx := 4 }) (by decide +kernel) rfl (by decide +kernel), quote_built (q' := { stateidx := 4 }) (by decide +kernel) rfl (by decide +kernel), by decide +kernel, fun self => ?_⟩
  rw [show_self (by decide +kernel) self [], show_self (by decide +kernel) self []]
  decide +kernel

end TW
