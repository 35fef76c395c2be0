import Verif.Proofs.PathBuild
import Verif.Spec.Path

/-!
# What an expression adds to an automaton
-/

namespace TW.Path

open Spec.Path (Step CStep Cond Query Final)

/-- The name has a key, and it is not empty. -/
def NameOk (e : Enc) (n : Nat) (name : Option (List Byte)) : Prop :=
  ∀ nm, name = some nm → ∃ key, nameKey e n nm = .ok key ∧ key ≠ []

/-- The name has a key that is allowed. -/
def NameFits (E : Prop) (e : Enc) (n : Nat) (op : Op) : Option (List Byte) → Prop
  | none => KeyFits E op none
  | some nm => ∃ key, nameKey e n nm = .ok key ∧ KeyFits E op (some key)

/-- The value has a key, and it is not empty; but if `E`, no value is missing. -/
def ValueOk (E : Prop) (e : Enc) (n : Nat) (value : Option (List Byte)) : Prop := NameFits E e n .ThisAttributeValue value

theorem NameOk.fits {E : Prop} {e : Enc} {n : Nat} {op : Op} {name : Option (List Byte)} (h : NameOk e n name) (ho : E → op ≠ .ThisAttributeValue) :
    NameFits E e n op name := by
  cases name with
  | none => exact fun k => ho k.1 k.2
  | some nm =>
    obtain ⟨key, h1, h2⟩ := h nm rfl
    exact ⟨key, h1, fun k => (h2 k).elim⟩

/-- The names of a call have keys. -/
def NamesOk (E : Prop) (e : Enc) (n : Nat) : PElem.Call → Prop
  | .tag name => NameOk e n name
  | .attribute name => NameOk e n name
  | .ifAttribute name value => NameOk e n name ∧ ValueOk E e n value
  | _ => True

/-- The key of a name. -/
def keyOf (e : Enc) (n : Nat) (name : Option (List Byte)) : Option (List Byte) :=
  match name with
  | none => none
  | some nm => match nameKey e n nm with
    | .ok key => some key
    | .stop _ => none

variable {E : Prop} {a : Atm} {lab : List (List Edge)} {p : PElem} {L : List Edge} {e : Enc} {n : Nat}

theorem At.doSelect (h : At E a lab p L) (op : Op) {name : Option (List Byte)} (hk : NameFits E e n op name) :
    ∃ j a' lab', p.doSelect e n op name a = (.ok { p with stateidx := j, follow := false }, a') ∧
      At E a' lab' { p with stateidx := j, follow := false }
        (L ++ [⟨({} : Mask).seekop op, keyOf e n name, p.follow⟩]) ∧
      ∀ ty, ty ≠ 0 → outs a' lab' ty = outs a lab ty := by
  cases name with
  | none => exact h.select op (key := none) hk
  | some nm =>
    obtain ⟨key, h1, h2⟩ := hk
    have := h.select op (key := some key) h2
    unfold PElem.doSelect keyOf
    simp only [h1]
    exact this

/-- A call adds nothing to the outputs with types that it does not assign. -/
theorem At.call (h : At E a lab p L) {c : PElem.Call} (hc : NamesOk E e n c) :
    ∃ p' a' lab' L', p.call e n c a = (.ok p', a') ∧ At E a' lab' p' L' ∧
      ∀ ty, ty ≠ 0 → c ≠ .assign ty → outs a' lab' ty = outs a lab ty := by
  have same : ∀ q : PElem, q.stateidx = p.stateidx → ∃ p' a' lab' L', (pure q : M Atm PElem) a = (.ok p', a') ∧
      At E a' lab' p' L' ∧ ∀ ty, ty ≠ 0 → c ≠ .assign ty → outs a' lab' ty = outs a lab ty :=
    fun q hq => ⟨q, a, lab, L, rfl, h.of hq, fun _ _ _ => rfl⟩
  have rng : ∀ s t, (p.doRange s t).stateidx = p.stateidx := by
    intro s t
    unfold PElem.doRange
    split
    · rfl
    · split
      · rfl
      · split <;> rfl
  cases c with
  | follow => exact same _ rfl
  | tag name =>
    obtain ⟨j, a', lab', h1, h2, h3⟩ := h.doSelect .OpenTag (NameOk.fits hc fun _ => by decide)
    exact ⟨_, a', lab', _, h1, h2, fun ty hty _ => h3 ty hty⟩
  | closeTag =>
    obtain ⟨j, a', lab', h1, h2, h3⟩ := h.doSelect (e := e) (n := n) .CloseTag (name := none) (fun h => nomatch h.2)
    exact ⟨_, a', lab', _, h1, h2, fun ty hty _ => h3 ty hty⟩
  | «attribute» name =>
    obtain ⟨j, a', lab', h1, h2, h3⟩ := h.doSelect .Attribute (NameOk.fits hc fun _ => by decide)
    exact ⟨_, a', lab', _, M.bind_ok h1, h2.of rfl, fun ty hty _ => h3 ty hty⟩
  | ifAttribute name value =>
    obtain ⟨j, a', lab', h1, h2, h3⟩ := h.doSelect .Attribute (hc.1.fits fun _ => by decide)
    obtain ⟨j', a'', lab'', g1, g2, g3⟩ := h2.doSelect .ThisAttributeValue hc.2
    exact ⟨_, a'', lab'', _, (M.bind_ok h1).trans g1, g2,
      fun ty hty _ => (g3 ty hty).trans (h3 ty hty)⟩
  | content => exact same _ rfl
  | to i => exact same _ (rng _ _)
  | from' i => exact same _ (rng _ _)
  | range i j => exact same _ (rng _ _)
  | index i => exact same _ (rng _ _)
  | assign type =>
    obtain ⟨j, a', lab', h1, h2, h3⟩ := h.push type
    refine ⟨_, a', lab', _, h1, h2, fun ty hty hc => ?_⟩
    rw [h3 ty hty, if_neg (fun h => hc (congrArg PElem.Call.assign h)), List.append_nil]

theorem At.calls (h : At E a lab p L) {cs : List PElem.Call} (hc : ∀ c ∈ cs, NamesOk E e n c) :
    ∃ p' a' lab' L', p.calls e n cs a = (.ok p', a') ∧ At E a' lab' p' L' ∧
      ∀ ty, ty ≠ 0 → .assign ty ∉ cs → outs a' lab' ty = outs a lab ty := by
  induction cs generalizing a lab p L with
  | nil => exact ⟨p, a, lab, L, rfl, h, fun _ _ _ => rfl⟩
  | cons c cs ih =>
    obtain ⟨p1, a1, lab1, L1, h1, h2, h3⟩ := h.call (hc c (List.mem_cons_self ..))
    obtain ⟨p2, a2, lab2, L2, g1, g2, g3⟩ := ih h2 fun x hx => hc x (List.mem_cons_of_mem _ hx)
    refine ⟨p2, a2, lab2, L2, by unfold PElem.calls; rw [M.bind_ok h1]; exact g1, g2, ?_⟩
    intro ty hty hm
    rw [g3 ty hty (fun h => hm (List.mem_cons_of_mem _ h)),
      h3 ty hty (fun h => hm (h ▸ List.mem_cons_self ..))]

theorem calls_append (p : PElem) (xs ys : List PElem.Call) (a : Atm) :
    p.calls e n (xs ++ ys) a = (p.calls e n xs >>= fun p => p.calls e n ys) a := by
  induction xs generalizing p a with
  | nil => rfl
  | cons c cs ih =>
    show (PElem.call e n p c >>= fun p => PElem.calls e n p (cs ++ ys)) a =
      ((PElem.call e n p c >>= fun p => PElem.calls e n p cs) >>= fun p => PElem.calls e n p ys) a
    cases hc : PElem.call e n p c a with
    | mk r a' =>
      cases r with
      | ok p' =>
        rw [M.bind_ok hc, ih]
        have : (PElem.call e n p c >>= fun p => PElem.calls e n p cs) a = PElem.calls e n p' cs a' := M.bind_ok hc
        rw [M.bind_run, M.bind_run, this]
      | stop er =>
        have : (PElem.call e n p c >>= fun p => PElem.calls e n p cs) a = (.stop er, a') := M.bind_stop hc
        rw [M.bind_stop hc, M.bind_stop this]

/-- The transition of a step. -/
def edgeOf (s : Step) : Edge :=
  { mask := ({} : Mask).seekop .OpenTag, key := s.name, follow := s.desc }

/-- The transitions of a condition. -/
def condEdges (c : Cond) : List Edge :=
  [{ mask := ({} : Mask).seekop .Attribute, key := c.name, follow := false },
   { mask := ({} : Mask).seekop .ThisAttributeValue, key := c.value, follow := false }]

/-- The transitions of a step with conditions. -/
def stepEdges (s : CStep) : List Edge := edgeOf s.toStep :: s.conds.flatMap condEdges

/-- The keys instead of the names and values. -/
def keyedCond (e : Enc) (n : Nat) (c : Cond) : Cond := ⟨keyOf e n c.name, keyOf e n c.value⟩

def keyedStep (e : Enc) (n : Nat) (s : CStep) : CStep := ⟨⟨s.desc, keyOf e n s.name⟩, s.conds.map (keyedCond e n)⟩

def keyedFinal (e : Enc) (n : Nat) : Final → Final
  | .attribute desc name => .attribute desc (keyOf e n name)
  | f => f

def keyed (e : Enc) (n : Nat) (x : Query) : Query := ⟨x.steps.map (keyedStep e n), keyedFinal e n x.final, x.type⟩

/-- The names and values of a step have keys. -/
def StepOk (E : Prop) (e : Enc) (n : Nat) (s : CStep) : Prop :=
  NameOk e n s.name ∧ ∀ c ∈ s.conds, NameOk e n c.name ∧ ValueOk E e n c.value

/-- The conditions of a step. -/
theorem At.conds (h : At E a lab p L) (hf : p.follow = false) {cs : List Cond}
    (hs : ∀ c ∈ cs, NameOk e n c.name ∧ ValueOk E e n c.value) :
    ∃ j a' lab', p.calls e n (cs.map fun c => .ifAttribute c.name c.value) a = (.ok { p with stateidx := j }, a') ∧
      At E a' lab' { p with stateidx := j } (L ++ (cs.map (keyedCond e n)).flatMap condEdges) ∧
      ∀ ty, ty ≠ 0 → outs a' lab' ty = outs a lab ty := by
  induction cs generalizing a lab p L with
  | nil => exact ⟨p.stateidx, a, lab, rfl, by simpa using h.of rfl, fun _ _ => rfl⟩
  | cons c cs ih =>
    obtain ⟨hn, hv⟩ := hs c (List.mem_cons_self ..)
    obtain ⟨j, a1, lab1, h1, h2, h3⟩ := h.doSelect .Attribute (hn.fits fun _ => by decide)
    rw [hf] at h2
    obtain ⟨j', a2, lab2, g1, g2, g3⟩ := h2.doSelect .ThisAttributeValue hv
    have hc : PElem.call e n p (.ifAttribute c.name c.value) a = (.ok { p with stateidx := j', follow := false }, a2) :=
      (M.bind_ok h1).trans g1
    obtain ⟨j3, a3, lab3, k1, k2, k3⟩ := ih (p := { p with stateidx := j', follow := false }) g2 rfl fun x hx => hs x (List.mem_cons_of_mem _ hx)
    refine ⟨j3, a3, lab3, ?_, ?_, fun ty hty => (k3 ty hty).trans ((g3 ty hty).trans (h3 ty hty))⟩
    · refine (M.bind_ok (f := fun p => PElem.calls e n p _) hc).trans ?_
      rw [k1, ← hf]
    · have : L ++ ((c :: cs).map (keyedCond e n)).flatMap condEdges = L ++ [⟨({} : Mask).seekop .Attribute, keyOf e n c.name, false⟩] ++
          [⟨({} : Mask).seekop .ThisAttributeValue, keyOf e n c.value, false⟩] ++ (cs.map (keyedCond e n)).flatMap condEdges := by
        simp [condEdges, keyedCond]
      rw [this]
      exact k2.of rfl

/-- The steps of an expression. -/
theorem At.steps (h : At E a lab p L) (hf : p.follow = false) {ss : List CStep} (hs : ∀ s ∈ ss, StepOk E e n s) :
    ∃ j a' lab', p.calls e n (ss.flatMap CStep.calls) a = (.ok { p with stateidx := j }, a') ∧
      At E a' lab' { p with stateidx := j } (L ++ (ss.map (keyedStep e n)).flatMap stepEdges) ∧
      ∀ ty, ty ≠ 0 → outs a' lab' ty = outs a lab ty := by
  induction ss generalizing a lab p L with
  | nil => exact ⟨p.stateidx, a, lab, rfl, by simpa using h.of rfl, fun _ _ => rfl⟩
  | cons s ss ih =>
    have hn := (hs s (List.mem_cons_self ..)).1
    have one : ∃ j a' lab', p.calls e n ((if s.desc then [.follow] else []) ++ [.tag s.name]) a =
        (.ok { p with stateidx := j }, a') ∧ At E a' lab' { p with stateidx := j } (L ++ [edgeOf (keyedStep e n s).toStep]) ∧
        ∀ ty, ty ≠ 0 → outs a' lab' ty = outs a lab ty := by
      cases hd : s.desc with
      | false =>
        obtain ⟨j, a', lab', h1, h2, h3⟩ := h.doSelect .OpenTag (hn.fits fun _ => by decide)
        rw [hf] at h2
        refine ⟨j, a', lab', ?_, ?_, h3⟩
        · refine (M.bind_ok (f := fun p => PElem.calls e n p []) h1).trans ?_
          rw [← hf]; rfl
        · unfold edgeOf keyedStep; simp only [hd]; exact h2.of rfl
      | true =>
        have h' : At E a lab p.doFollow L := h.of rfl
        obtain ⟨j, a', lab', h1, h2, h3⟩ := h'.doSelect .OpenTag (hn.fits fun _ => by decide)
        refine ⟨j, a', lab', ?_, ?_, h3⟩
        · refine (M.bind_ok (f := fun p => PElem.calls e n p []) h1).trans ?_
          show (Res.ok { p with stateidx := j, follow := false }, a') = _
          rw [← hf]
        · unfold edgeOf keyedStep; simp only [hd]; exact h2.of rfl
    obtain ⟨j, a1, lab1, h1, h2, h3⟩ := one
    obtain ⟨j2, a2, lab2, k1, k2, k3⟩ := h2.conds hf (hs s (List.mem_cons_self ..)).2
    obtain ⟨j', a3, lab3, g1, g2, g3⟩ := ih k2 hf fun x hx => hs x (List.mem_cons_of_mem _ hx)
    refine ⟨j', a3, lab3, ?_, ?_, fun ty hty => (g3 ty hty).trans ((k3 ty hty).trans (h3 ty hty))⟩
    · rw [List.flatMap_cons, calls_append]
      have : p.calls e n s.calls a = (.ok { p with stateidx := j2 }, a2) := by
        unfold CStep.calls
        rw [calls_append, M.bind_ok h1]
        exact k1
      rw [M.bind_ok this]
      exact g1
    · have : L ++ ((s :: ss).map (keyedStep e n)).flatMap stepEdges =
          L ++ [edgeOf (keyedStep e n s).toStep] ++ (s.conds.map (keyedCond e n)).flatMap condEdges ++ (ss.map (keyedStep e n)).flatMap stepEdges := by
        simp [stepEdges, keyedStep]
      rw [this]
      exact g2

/-- The transitions of a query. -/
def labelOf (x : Query) : List Edge :=
  x.steps.flatMap stepEdges ++ match x.final with
    | .attribute desc name => [{ mask := ({} : Mask).seekop .Attribute, key := name, follow := desc }]
    | .closeTag desc => [{ mask := ({} : Mask).seekop .CloseTag, key := none, follow := desc }]
    | _ => []

/-- The output of a query. -/
def coreOf (x : Query) : Core :=
  match x.final with
  | .element => { typeidx := x.type }
  | .content desc => { typeidx := x.type, mask := ({} : Mask).seekop .Content, follow := desc }
  | .attribute _ _ => { typeidx := x.type, mask := ({} : Mask).seekop .ThisAttributeValue }
  | .closeTag _ => { typeidx := x.type }

theorem coreOf_keyed (x : Query) : coreOf (keyed e n x) = coreOf x := by
  unfold coreOf keyed
  cases x.final <;> rfl

theorem bareOut_query (x : Query) : bareOut (labelOf x, coreOf x) = (labelOf x, coreOf x) := by
  unfold bareOut coreOf
  cases x.final <;> rfl

/-- The calls of a query up to the assignment of the type. -/
theorem At.final (h : At E a lab {} []) {x : Query} (hs : ∀ s ∈ x.steps, StepOk E e n s)
    (hf : ∀ d name, x.final = .attribute d name → NameOk e n name) :
    ∃ p' a' lab', ({} : PElem).calls e n (x.steps.flatMap CStep.calls ++ x.final.calls) a = (.ok p', a') ∧
      At E a' lab' p' (labelOf (keyed e n x)) ∧ p'.out x.type = coreOf x ∧ ∀ ty, ty ≠ 0 → outs a' lab' ty = outs a lab ty := by
  obtain ⟨j, a1, lab1, h1, h2, h3⟩ := h.steps rfl hs
  have fin : ∃ p' a' lab', PElem.calls e n { ({} : PElem) with stateidx := j } x.final.calls a1 = (.ok p', a') ∧
      At E a' lab' p' (labelOf (keyed e n x)) ∧ p'.out x.type = coreOf x ∧ ∀ ty, ty ≠ 0 → outs a' lab' ty = outs a1 lab1 ty := by
    unfold labelOf coreOf keyed
    cases hx : x.final with
    | element =>
      refine ⟨_, a1, lab1, rfl, ?_, rfl, fun _ _ => rfl⟩
      simpa [keyedFinal] using h2
    | content desc =>
      cases desc with
      | false =>
        refine ⟨_, a1, lab1, rfl, ?_, rfl, fun _ _ => rfl⟩
        simp only [keyedFinal, List.append_nil]
        exact At.of (p := { ({} : PElem) with stateidx := j }) (by simpa using h2) rfl
      | true =>
        refine ⟨_, a1, lab1, rfl, ?_, rfl, fun _ _ => rfl⟩
        simp only [keyedFinal, List.append_nil]
        exact At.of (p := { ({} : PElem) with stateidx := j }) (by simpa using h2) rfl
    | «attribute» d name =>
      have hf := hf d name hx
      cases d with
      | false =>
        obtain ⟨j', a2, lab2, g1, g2, g3⟩ := h2.doSelect .Attribute (hf.fits fun _ => by decide)
        refine ⟨PElem.defineOutput { ({} : PElem) with stateidx := j', follow := false } .ThisAttributeValue, a2, lab2,
          ?_, ?_, rfl, g3⟩
        · have g1' : PElem.call e n { ({} : PElem) with stateidx := j } (.attribute name) a1 =
            (.ok (PElem.defineOutput { ({} : PElem) with stateidx := j', follow := false } .ThisAttributeValue), a2) := M.bind_ok g1
          exact M.bind_ok (f := fun p => PElem.calls e n p []) g1'
        simp only [keyedFinal]
        exact At.of (p := { ({} : PElem) with stateidx := j', follow := false }) (by simpa using g2) rfl
      | true =>
        have h2' : At E a1 lab1 (PElem.doFollow { ({} : PElem) with stateidx := j }) ([] ++ (x.steps.map (keyedStep e n)).flatMap stepEdges) := h2.of rfl
        obtain ⟨j', a2, lab2, g1, g2, g3⟩ := h2'.doSelect .Attribute (hf.fits fun _ => by decide)
        refine ⟨PElem.defineOutput { PElem.doFollow { ({} : PElem) with stateidx := j } with stateidx := j', follow := false } .ThisAttributeValue, a2, lab2,
          ?_, ?_, rfl, g3⟩
        · have g1' : PElem.call e n (PElem.doFollow { ({} : PElem) with stateidx := j }) (.attribute name) a1 =
            (.ok (PElem.defineOutput { PElem.doFollow { ({} : PElem) with stateidx := j } with stateidx := j', follow := false } .ThisAttributeValue), a2) := M.bind_ok g1
          exact M.bind_ok (f := fun p => PElem.calls e n p []) g1'
        rw [List.nil_append] at g2
        exact g2.of rfl
    | closeTag desc =>
      cases desc with
      | false =>
        obtain ⟨j', a2, lab2, g1, g2, g3⟩ := h2.doSelect (e := e) (n := n) .CloseTag (name := none) (fun h => nomatch h.2)
        exact ⟨_, a2, lab2, M.bind_ok (f := fun p => PElem.calls e n p []) g1, by simpa [keyOf, keyedFinal] using g2, rfl, g3⟩
      | true =>
        have h2' : At E a1 lab1 (PElem.doFollow { ({} : PElem) with stateidx := j }) ([] ++ (x.steps.map (keyedStep e n)).flatMap stepEdges) := h2.of rfl
        obtain ⟨j', a2, lab2, g1, g2, g3⟩ := h2'.doSelect (e := e) (n := n) .CloseTag (name := none) (fun h => nomatch h.2)
        refine ⟨_, a2, lab2, M.bind_ok (f := fun p => PElem.calls e n p []) g1, ?_, rfl, g3⟩
        rw [List.nil_append] at g2
        exact g2
  obtain ⟨p', a2, lab2, g1, g2, g3, g4⟩ := fin
  exact ⟨p', a2, lab2, by rw [calls_append, M.bind_ok h1, g1], g2, g3, fun ty hty => by rw [g4 ty hty, h3 ty hty]⟩

/-- A query adds one output. -/
theorem At.query (h : At E a lab {} []) {x : Query} (hs : ∀ s ∈ x.steps, StepOk E e n s)
    (hf : ∀ d name, x.final = .attribute d name → NameOk e n name) :
    ∃ p' a' lab' L', ({} : PElem).calls e n x.calls a = (.ok p', a') ∧ At E a' lab' p' L' ∧
      ∀ ty, ty ≠ 0 → outs a' lab' ty =
        outs a lab ty ++ if x.type = ty then [(labelOf (keyed e n x), coreOf x)] else [] := by
  obtain ⟨p', a2, lab2, g1, g2, g3, g4⟩ := h.final hs hf
  obtain ⟨j', a3, lab3, k1, k2, k3⟩ := g2.push x.type
  refine ⟨_, a3, lab3, _, ?_, k2, ?_⟩
  · unfold Query.calls
    rw [calls_append, M.bind_ok g1]
    exact M.bind_ok (f := fun p => PElem.calls e n p []) k1
  · intro ty hty
    rw [k3 ty hty, g4 ty hty, g3]

end TW.Path
