import Verif.Proofs.PathCount
import Verif.Model.PathParse

/-!
# Automatons without outputs for contents
-/

namespace TW.Path

/-- What is done keeps automatons without outputs for contents, and the results have the property. -/
def Hush {α : Type} (x : M Atm α) (Q : α → Prop) : Prop :=
  ∀ a, NoCont a → NoCont (x a).2 ∧ ∀ v, (x a).1 = .ok v → Q v

variable {α β : Type} {Q : α → Prop} {R : β → Prop}

theorem Hush.bind {x : M Atm α} {f : α → M Atm β} (h : Hush x Q) (h' : ∀ v, Q v → Hush (f v) R) : Hush (x >>= f) R := by
  intro a ha
  obtain ⟨h1, h2⟩ := h a ha
  rcases hx : x a with ⟨r, a1⟩
  rw [hx] at h1 h2
  cases r with
  | ok v =>
    rw [M.bind_ok hx]
    exact h' v (h2 v rfl) a1 h1
  | stop er =>
    rw [M.bind_stop hx]
    exact ⟨h1, fun v hv => nomatch hv⟩

theorem Hush.pure {v : α} (h : Q v) : Hush (Pure.pure v) Q := fun _ ha => ⟨ha, fun _ hw => by cases hw; exact h⟩

theorem Hush.stop {er : Stop} : Hush (M.stop er : M Atm α) Q := fun _ ha => ⟨ha, fun _ hw => nomatch hw⟩

theorem Hush.get : Hush (M.get : M Atm Atm) fun _ => True := fun _ ha => ⟨ha, fun _ _ => trivial⟩

theorem Hush.mono {x : M Atm α} {P : α → Prop} (h : Hush x P) (h' : ∀ v, P v → Q v) : Hush x Q :=
  fun a ha => ⟨(h a ha).1, fun v hv => h' v ((h a ha).2 v hv)⟩

theorem hush_stateAt (i : Nat) : Hush (Atm.stateAt i) fun _ => True := by
  intro a ha
  unfold Atm.stateAt
  split <;> exact ⟨ha, fun _ _ => trivial⟩

theorem hush_change (i : Nat) {g : State → State}
    (hg : ∀ s : State, s.core.mask.matches .Content = false → (g s).core.mask.matches .Content = false) :
    Hush (Atm.change i g) fun _ => True := by
  intro a ha
  unfold Atm.change
  split
  · rename_i s hs
    refine ⟨fun j st hj => ?_, fun _ _ => trivial⟩
    rw [List.getElem?_set] at hj
    split at hj
    · split at hj
      · cases hj
        exact hg s (ha i s hs)
      · cases hj
    · exact ha j st hj
  · exact ⟨ha, fun _ _ => trivial⟩

theorem hush_push {s : State} (hs : s.core.mask.matches .Content = false) : Hush (Atm.push s) fun _ => True := by
  intro a ha
  refine ⟨fun j st hj => ?_, fun _ _ => trivial⟩
  have hj : (a ++ [s])[j]? = some st := hj
  rw [List.getElem?_append] at hj
  split at hj
  · exact ha j st hj
  · rw [List.getElem?_singleton] at hj
    split at hj
    · cases hj
      exact hs
    · cases hj

theorem hush_seekStep {mask : Mask} {key : List Byte} {follow : Bool} : ∀ {n i : Nat}, Hush (Atm.seekStep mask key follow n i) fun _ => True
  | 0, _ => .stop
  | n + 1, i => by
    unfold Atm.seekStep
    refine (hush_stateAt i).bind fun s _ => ?_
    split
    · split
      · exact .pure trivial
      · exact .stop
    · split
      · exact hush_seekStep
      · exact .pure trivial

theorem hush_lastLink : ∀ {n i : Nat}, Hush (Atm.lastLink n i) fun _ => True
  | 0, _ => .stop
  | n + 1, i => by
    unfold Atm.lastLink
    refine (hush_stateAt i).bind fun s _ => ?_
    split
    · exact hush_lastLink
    · exact .pure trivial

theorem hush_freeState (i : Nat) : Hush (Atm.freeState i) fun _ => True := by
  unfold Atm.freeState
  refine (hush_stateAt i).bind fun s _ => ?_
  split
  · refine Hush.get.bind fun a _ => ?_
    refine hush_lastLink.bind fun l _ => ?_
    refine Hush.bind (hush_change l fun s hs => ?_) fun _ _ => ?_
    · exact hs
    refine Hush.bind (hush_push ?_) fun _ _ => ?_
    · decide
    exact .pure trivial
  · exact .pure trivial

theorem seekop_content {m : Mask} {op : Op} (hop : op ≠ .Content) (h : m.matches .Content = false) : (m.seekop op).matches .Content = false := by
  unfold Mask.matches at h ⊢
  cases op <;> first
    | exact (hop rfl).elim
    | simp only [Mask.seekop, Mask.match, Mask.reject, Nat.testBit_or, h, Bool.false_or] <;> decide

theorem hush_defineNext {i : Nat} {op : Op} {key : Option (List Byte)} {follow : Bool} (hop : op ≠ .Content) :
    Hush (Atm.defineNext i op key follow) fun _ => True := by
  have rest : ∀ last : Nat, Hush (do
      let i ← Atm.freeState last
      Atm.push {}
      let a ← M.get
      Atm.change i fun s => s.defineNext op key (a.length - 1) follow
      Pure.pure (a.length - 1)) fun _ => True := by
    intro last
    refine (hush_freeState last).bind fun i _ => ?_
    refine Hush.bind (hush_push ?_) fun _ _ => ?_
    · decide
    refine Hush.get.bind fun a _ => ?_
    refine Hush.bind (hush_change i fun s hs => ?_) fun _ _ => ?_
    · exact seekop_content hop hs
    exact .pure trivial
  have more : ∀ j : Nat, Hush (do
      let a ← M.get
      let (found, last) ← Atm.seekStep (({} : Mask).seekop op) (key.getD []) follow (a.length + 1) j
      match found with
      | some j => Pure.pure j
      | none => do
        let i ← Atm.freeState last
        Atm.push {}
        let a ← M.get
        Atm.change i fun s => s.defineNext op key (a.length - 1) follow
        Pure.pure (a.length - 1)) fun _ => True := by
    intro j
    refine Hush.get.bind fun a _ => ?_
    refine hush_seekStep.bind fun v _ => ?_
    rcases v with ⟨found, last⟩
    cases found with
    | some j => exact .pure trivial
    | none => exact rest last
  unfold Atm.defineNext
  refine Hush.get.bind fun a _ => ?_
  split
  · refine Hush.bind (hush_push ?_) fun _ _ => ?_
    · decide
    exact (Hush.pure (v := 0) (Q := fun _ => True) trivial).bind fun j _ => more j
  · exact (Hush.pure (v := i) (Q := fun _ => True) trivial).bind fun j _ => more j

theorem hush_defineOutput {i : Nat} {mask : Mask} {ty : Int} {follow : Bool} {s t : Int} (hm : mask.matches .Content = false) :
    Hush (Atm.defineOutput i mask ty follow s t) fun _ => True := by
  have rest : ∀ j : Nat, Hush (do
      let a ← M.get
      if a.length ≤ j then M.stop (.throw .Unknown)
      else do
        let i ← Atm.freeState j
        Atm.change i fun s' => s'.defineOutput mask ty follow s t
        Pure.pure i) fun _ => True := by
    intro j
    refine Hush.get.bind fun a _ => ?_
    split
    · exact .stop
    · refine (hush_freeState j).bind fun i _ => ?_
      refine Hush.bind (hush_change i fun s hs => ?_) fun _ _ => ?_
      · exact hm
      exact .pure trivial
  unfold Atm.defineOutput
  refine Hush.get.bind fun a _ => ?_
  split
  · refine Hush.bind (hush_push ?_) fun _ _ => ?_
    · decide
    exact (Hush.pure (v := 0) (Q := fun _ => True) trivial).bind fun j _ => rest j
  · exact (Hush.pure (v := i) (Q := fun _ => True) trivial).bind fun j _ => rest j

/-! ## Calls -/

/-- A path element that would not define an output for contents. -/
def PElem.Hushed (p : PElem) : Prop := p.print.matches .Content = false

variable {e : Enc} {n : Nat} {p : PElem}

theorem hush_doSelect {op : Op} (hop : op ≠ .Content) {name : Option (List Byte)} (hp : p.Hushed) : Hush (p.doSelect e n op name) PElem.Hushed := by
  have sel : ∀ key, Hush (p.select op key) PElem.Hushed := fun key =>
    (hush_defineNext hop).bind fun i _ => .pure hp
  unfold PElem.doSelect
  split
  · exact sel none
  · split
    · exact sel _
    · exact .stop

theorem doRange_hushed (s t : Int) (hp : p.Hushed) : (p.doRange s t).Hushed := by
  unfold PElem.doRange
  split
  · exact hp
  · split
    · exact hp
    · split <;> exact hp

theorem hush_call {c : PElem.Call} (hc : c ≠ .content) (hp : p.Hushed) : Hush (p.call e n c) PElem.Hushed := by
  cases c with
  | follow => exact .pure hp
  | tag name => exact hush_doSelect (op := .OpenTag) (by decide) hp
  | closeTag => exact hush_doSelect (op := .CloseTag) (by decide) hp
  | «attribute» name =>
    refine Hush.bind (hush_doSelect (op := .Attribute) (by decide) hp) fun q _ => .pure ?_
    exact (by decide : (({} : Mask).seekop .ThisAttributeValue).matches .Content = false)
  | ifAttribute name value => exact Hush.bind (hush_doSelect (op := .Attribute) (by decide) hp) fun q hq => hush_doSelect (op := .ThisAttributeValue) (by decide) hq
  | content => exact (hc rfl).elim
  | to i => exact .pure (doRange_hushed _ _ hp)
  | from' i => exact .pure (doRange_hushed _ _ hp)
  | range i j => exact .pure (doRange_hushed _ _ hp)
  | index i => exact .pure (doRange_hushed _ _ hp)
  | assign type => exact (hush_defineOutput hp).bind fun i _ => .pure hp

theorem hush_calls {cs : List PElem.Call} : ∀ {p : PElem}, PElem.Call.content ∉ cs → p.Hushed → Hush (p.calls e n cs) PElem.Hushed := by
  induction cs with
  | nil => intro p _ hp; exact .pure hp
  | cons c cs ih =>
    intro p hc hp
    unfold PElem.calls
    exact (hush_call (fun h => hc (h ▸ List.mem_cons_self ..)) hp).bind fun q hq => ih (fun h => hc (List.mem_cons_of_mem _ h)) hq

/-- Automatons built with calls that do not ask for contents. -/
theorem hush_build : ∀ {defs : List (List PElem.Call)}, (∀ cs ∈ defs, PElem.Call.content ∉ cs) → Hush (build e n defs) fun _ => True := by
  intro defs
  induction defs with
  | nil => intro _; exact .pure trivial
  | cons cs defs ih =>
    intro hc
    unfold build
    exact (hush_calls (hc cs (List.mem_cons_self ..)) (by unfold PElem.Hushed; decide)).bind fun _ _ => ih fun ds hd => hc ds (List.mem_cons_of_mem _ hd)

/-! ## Texts -/

theorem hush_forEach {c : PElem.Call} (hc : c ≠ .content) : ∀ {ps : List PElem}, (∀ p ∈ ps, p.Hushed) → Hush (forEach e n c ps) fun qs => ∀ q ∈ qs, q.Hushed
  | [], _ => .pure fun _ h => nomatch h
  | p :: ps, hp => by
    unfold forEach
    refine (hush_call hc (hp p (List.mem_cons_self ..))).bind fun q hq =>
      (hush_forEach hc fun x hx => hp x (List.mem_cons_of_mem _ hx)).bind fun qs hqs => .pure fun x hx => ?_
    rcases List.mem_cons.1 hx with rfl | hx
    · exact hq
    · exact hqs x hx

theorem hush_forAlt {mk : Option (List Byte) → PElem.Call} (hc : ∀ x, mk x ≠ .content) {ps : List PElem} (hp : ∀ p ∈ ps, p.Hushed) :
    ∀ {alt : List (List Byte)}, Hush (forAlt e n mk ps alt) fun qs => ∀ q ∈ qs, q.Hushed
  | [] => .pure fun _ h => nomatch h
  | x :: alt => by
    unfold forAlt
    refine (hush_forEach (hc _) hp).bind fun q hq => (hush_forAlt hc hp).bind fun qs hqs => .pure fun x hx => ?_
    rcases List.mem_append.1 hx with hx | hx
    · exact hq x hx
    · exact hqs x hx

theorem hush_act {act : Act} (ha : act ≠ .call .content) {ps : List PElem} (hp : ∀ p ∈ ps, p.Hushed) :
    Hush (act.run e n ps) fun qs => ∀ q ∈ qs, q.Hushed := by
  cases act with
  | none => exact .pure hp
  | call c => exact hush_forEach (fun h => ha (h ▸ rfl)) hp
  | tags alt => exact hush_forAlt (mk := .tag) (fun _ h => nomatch h) hp
  | attributes alt => exact hush_forAlt (mk := .attribute) (fun _ h => nomatch h) hp

/-! ## Without types assigned -/

theorem mild_doSelect {op : Op} (hop : op ≠ .Content) {name : Option (List Byte)} : Hush (p.doSelect e n op name) fun _ => True := by
  have sel : ∀ key, Hush (p.select op key) fun _ => True := fun key =>
    (hush_defineNext hop).bind fun i _ => .pure trivial
  unfold PElem.doSelect
  split
  · exact sel none
  · split
    · exact sel _
    · exact .stop

theorem mild_call {c : PElem.Call} (hc : ∀ ty, c ≠ .assign ty) : Hush (p.call e n c) fun _ => True := by
  cases c with
  | follow => exact .pure trivial
  | tag name => exact mild_doSelect (op := .OpenTag) (by decide)
  | closeTag => exact mild_doSelect (op := .CloseTag) (by decide)
  | «attribute» name => exact Hush.bind (mild_doSelect (op := .Attribute) (by decide)) fun q _ => .pure trivial
  | ifAttribute name value =>
    exact Hush.bind (mild_doSelect (op := .Attribute) (by decide)) fun q _ => mild_doSelect (op := .ThisAttributeValue) (by decide)
  | content => exact .pure trivial
  | to i => exact .pure trivial
  | from' i => exact .pure trivial
  | range i j => exact .pure trivial
  | index i => exact .pure trivial
  | assign type => exact (hc type rfl).elim

theorem mild_forEach {c : PElem.Call} (hc : ∀ ty, c ≠ .assign ty) : ∀ {ps : List PElem}, Hush (forEach e n c ps) fun _ => True
  | [] => .pure trivial
  | p :: ps => by
    unfold forEach
    exact (mild_call hc).bind fun q _ => (mild_forEach hc).bind fun qs _ => .pure trivial

theorem mild_forAlt {mk : Option (List Byte) → PElem.Call} (hc : ∀ x ty, mk x ≠ .assign ty) {ps : List PElem} :
    ∀ {alt : List (List Byte)}, Hush (forAlt e n mk ps alt) fun _ => True
  | [] => .pure trivial
  | x :: alt => by
    unfold forAlt
    exact (mild_forEach (hc _)).bind fun q _ => (mild_forAlt hc).bind fun qs _ => .pure trivial

theorem mild_act {act : Act} (ha : ∀ ty, act ≠ .call (.assign ty)) {ps : List PElem} : Hush (act.run e n ps) fun _ => True := by
  cases act with
  | none => exact .pure trivial
  | call c => exact mild_forEach fun ty h => ha ty (h ▸ rfl)
  | tags alt => exact mild_forAlt (mk := .tag) fun _ _ h => nomatch h
  | attributes alt => exact mild_forAlt (mk := .attribute) fun _ _ h => nomatch h

/-- Calls that do not assign types add no outputs. -/
theorem mild_acts {acts : List Act} : ∀ {ps : List PElem}, (∀ act ∈ acts, ∀ ty, act ≠ .call (.assign ty)) →
    Hush (acts.foldlM (fun ps x => x.run e n ps) ps) fun _ => True := by
  induction acts with
  | nil => intro ps _; exact .pure trivial
  | cons x acts ih =>
    intro ps h
    rw [List.foldlM_cons]
    exact (mild_act (h x (List.mem_cons_self ..))).bind fun qs _ => ih fun y hy => h y (List.mem_cons_of_mem _ hy)

end TW.Path
