import Verif.Proofs.PathParse
import Verif.Proofs.PathFeed

/-!
# What expressions with alternatives add to an automaton
-/

namespace TW.Path

open Spec.Path (Query CStep Cond Final TName TStep TEnd TPath TCond sepCalls optPicks)

/-- A path element without its place in the automaton: the transitions leading there and the rest of its fields. -/
abbrev View := List Edge × PElem

/-- What a selection does with a view. -/
def View.select (e : Enc) (n : Nat) (op : Op) (name : Option (List Byte)) (v : View) : View :=
  (v.1 ++ [⟨({} : Mask).seekop op, keyOf e n name, v.2.follow⟩], { v.2 with follow := false })

/-- What a call does with a view; the assignment of a type does nothing. -/
def View.call (e : Enc) (n : Nat) (v : View) : PElem.Call → View
  | .follow => (v.1, v.2.doFollow)
  | .tag name => View.select e n .OpenTag name v
  | .closeTag => View.select e n .CloseTag none v
  | .attribute name => ((View.select e n .Attribute name v).1, (View.select e n .Attribute name v).2.defineOutput .ThisAttributeValue)
  | .ifAttribute name value => View.select e n .ThisAttributeValue value (View.select e n .Attribute name v)
  | .content => (v.1, v.2.defineOutput .Content)
  | .to i => (v.1, v.2.to i)
  | .from' i => (v.1, v.2.from' i)
  | .range i j => (v.1, v.2.range i j)
  | .index i => (v.1, v.2.index i)
  | .assign _ => v

def View.calls (e : Enc) (n : Nat) (v : View) (cs : List PElem.Call) : View := cs.foldl (View.call e n) v

/-- The path element without the index of its state. -/
def PElem.bare (p : PElem) : PElem := { p with stateidx := 0 }

/-- The path element is what the view tells. -/
def Fits (E : Prop) (a : Atm) (lab : List (List Edge)) (p : PElem) (v : View) : Prop := At E a lab p v.1 ∧ p.bare = v.2.bare

/-- The same for lists. -/
def FitsAll (E : Prop) (a : Atm) (lab : List (List Edge)) : List PElem → List View → Prop
  | [], [] => True
  | p :: ps, v :: vs => Fits E a lab p v ∧ FitsAll E a lab ps vs
  | _, _ => False

variable {E : Prop} {a a' : Atm} {lab lab' : List (List Edge)} {p : PElem} {v : View} {e : Enc} {n : Nat}

theorem Fits.keep (k : Keeps E a lab a' lab') (h : Fits E a lab p v) : Fits E a' lab' p v := ⟨k _ _ h.1, h.2⟩

theorem FitsAll.keep (k : Keeps E a lab a' lab') : ∀ {ps : List PElem} {vs : List View}, FitsAll E a lab ps vs → FitsAll E a' lab' ps vs
  | [], [], _ => trivial
  | _ :: _, _ :: _, h => ⟨h.1.keep k, FitsAll.keep k h.2⟩
  | [], _ :: _, h => h.elim
  | _ :: _, [], h => h.elim

theorem FitsAll.append : ∀ {ps qs : List PElem} {vs ws : List View}, FitsAll E a lab ps vs → FitsAll E a lab qs ws → FitsAll E a lab (ps ++ qs) (vs ++ ws)
  | [], _, [], _, _, h => h
  | _ :: _, _, _ :: _, _, h, h' => ⟨h.1, FitsAll.append h.2 h'⟩
  | [], _, _ :: _, _, h, _ => h.elim
  | _ :: _, _, [], _, h, _ => h.elim

/-- The automaton has grown without changing what is reported. -/
def Same (E : Prop) (a : Atm) (lab : List (List Edge)) (a' : Atm) (lab' : List (List Edge)) : Prop :=
  (∀ ty, ty ≠ 0 → outs a' lab' ty = outs a lab ty) ∧ Keeps E a lab a' lab'

theorem Same.refl (a : Atm) (lab : List (List Edge)) : Same E a lab a lab := ⟨fun _ _ => rfl, .refl _ _⟩

theorem Same.trans {a'' : Atm} {lab'' : List (List Edge)} (h : Same E a lab a' lab') (h' : Same E a' lab' a'' lab'') : Same E a lab a'' lab'' :=
  ⟨fun ty hty => (h'.1 ty hty).trans (h.1 ty hty), h.2.trans h'.2⟩

theorem Fits.doSelect (h : Fits E a lab p v) (op : Op) {name : Option (List Byte)} (hk : NameFits E e n op name) :
    ∃ p' a' lab', p.doSelect e n op name a = (.ok p', a') ∧ Fits E a' lab' p' (View.select e n op name v) ∧ Same E a lab a' lab' := by
  obtain ⟨h1, h2⟩ := h
  have hf : p.follow = v.2.follow := show p.bare.follow = v.2.bare.follow by rw [h2]
  have key : ∀ key : Option (List Byte), KeyFits E op key → keyOf e n name = key → ∃ p' a' lab', p.select op key a = (.ok p', a') ∧
      Fits E a' lab' p' (View.select e n op name v) ∧ Same E a lab a' lab' := by
    intro key hk he
    obtain ⟨j, a', lab', k1, k2, k3, k4⟩ := h1.select_keep op hk
    refine ⟨_, a', lab', k1, ⟨?_, ?_⟩, k3, k4⟩
    · unfold View.select
      rw [he, ← hf]
      exact k2
    · have := congrArg (fun q : PElem => { q with follow := false }) h2
      exact this
  cases name with
  | none => exact key none hk rfl
  | some nm =>
    obtain ⟨k, h3, h4⟩ := hk
    unfold PElem.doSelect
    simp only [h3]
    exact key (some k) h4 (by unfold keyOf; simp only [h3])

theorem doRange_eq (p : PElem) (s t : Int) : (p.doRange s t).bare = p.bare.doRange s t := by
  obtain ⟨i, s', t', f, m⟩ := p
  simp only [PElem.bare, PElem.doRange]
  by_cases h1 : t' = -1
  · simp only [h1, if_true]
  · by_cases h2 : t < t'
    · simp only [h1, h2, if_true, if_false]
    · by_cases h3 : s' < s <;> simp only [h1, h2, h3, if_true, if_false]

theorem doRange_idx (p : PElem) (s t : Int) : (p.doRange s t).stateidx = p.stateidx := by
  unfold PElem.doRange
  split
  · rfl
  · split
    · rfl
    · split <;> rfl

/-- A call without the assignment of a type. -/
theorem Fits.call (h : Fits E a lab p v) {c : PElem.Call} (hc : NamesOk E e n c) (ha : ∀ ty, c ≠ .assign ty) :
    ∃ p' a' lab', p.call e n c a = (.ok p', a') ∧ Fits E a' lab' p' (v.call e n c) ∧ Same E a lab a' lab' := by
  have same : ∀ (q : PElem) (w : View), q.stateidx = p.stateidx → w.1 = v.1 → q.bare = w.2.bare →
      ∃ p' a' lab', (pure q : M Atm PElem) a = (.ok p', a') ∧ Fits E a' lab' p' w ∧ Same E a lab a' lab' :=
    fun q w h1 h2 h3 => ⟨q, a, lab, rfl, ⟨by rw [h2]; exact h.1.of h1, h3⟩, .refl _ _⟩
  have rng : ∀ s t, (p.doRange s t).bare = (v.2.doRange s t).bare := by
    intro s t
    rw [doRange_eq, doRange_eq, h.2]
  cases c with
  | follow => exact same _ _ rfl rfl (congrArg PElem.doFollow h.2)
  | tag name => exact h.doSelect .OpenTag (hc.fits fun _ h => nomatch h)
  | closeTag => exact h.doSelect (e := e) (n := n) .CloseTag (name := none) (fun h => nomatch h.2)
  | «attribute» name =>
    obtain ⟨p', a', lab', h1, h2, h3⟩ := h.doSelect .Attribute (hc.fits fun _ h => nomatch h)
    refine ⟨_, a', lab', M.bind_ok h1, ⟨h2.1.of rfl, ?_⟩, h3⟩
    have := congrArg (fun q : PElem => q.defineOutput .ThisAttributeValue) h2.2
    exact this
  | ifAttribute name value =>
    obtain ⟨p1, a1, lab1, h1, h2, h3⟩ := h.doSelect .Attribute (hc.1.fits fun _ h => nomatch h)
    obtain ⟨p2, a2, lab2, g1, g2, g3⟩ := h2.doSelect .ThisAttributeValue hc.2
    exact ⟨p2, a2, lab2, (M.bind_ok h1).trans g1, g2, h3.trans g3⟩
  | content => exact same _ _ rfl rfl (congrArg (fun q : PElem => q.defineOutput .Content) h.2)
  | to i => exact same _ _ (doRange_idx ..) rfl (rng ..)
  | from' i => exact same _ _ (doRange_idx ..) rfl (rng ..)
  | range i j => exact same _ _ (doRange_idx ..) rfl (rng ..)
  | index i => exact same _ _ (doRange_idx ..) rfl (rng ..)
  | assign type => exact (ha type rfl).elim

theorem FitsAll.forEach {c : PElem.Call} (hc : NamesOk E e n c) (ha : ∀ ty, c ≠ .assign ty) : ∀ {ps : List PElem} {vs : List View} {a : Atm}
    {lab : List (List Edge)}, FitsAll E a lab ps vs →
    ∃ ps' a' lab', Path.forEach e n c ps a = (.ok ps', a') ∧ FitsAll E a' lab' ps' (vs.map (View.call e n · c)) ∧ Same E a lab a' lab'
  | [], [], a, lab, _ => ⟨[], a, lab, rfl, trivial, .refl _ _⟩
  | p :: ps, v :: vs, a, lab, h => by
    obtain ⟨p1, a1, lab1, h1, h2, h3⟩ := h.1.call hc ha
    obtain ⟨ps2, a2, lab2, g1, g2, g3⟩ := FitsAll.forEach hc ha (h.2.keep h3.2)
    refine ⟨p1 :: ps2, a2, lab2, ?_, ⟨h2.keep g3.2, g2⟩, h3.trans g3⟩
    unfold Path.forEach
    rw [M.bind_ok h1, M.bind_ok g1]
    rfl
  | [], _ :: _, _, _, h => h.elim
  | _ :: _, [], _, _, h => h.elim

theorem FitsAll.forAlt {mk : Option (List Byte) → PElem.Call} (ha : ∀ x ty, mk x ≠ .assign ty) {ps : List PElem} {vs : List View} :
    ∀ {alt : List (List Byte)} {a : Atm} {lab : List (List Edge)}, (∀ x ∈ alt, NamesOk E e n (mk (some x))) → FitsAll E a lab ps vs →
    ∃ ps' a' lab', Path.forAlt e n mk ps alt a = (.ok ps', a') ∧
      FitsAll E a' lab' ps' (alt.flatMap fun x => vs.map (View.call e n · (mk (some x)))) ∧ Same E a lab a' lab'
  | [], a, lab, _, _ => ⟨[], a, lab, rfl, trivial, .refl _ _⟩
  | x :: alt, a, lab, hn, h => by
    obtain ⟨ps1, a1, lab1, h1, h2, h3⟩ := h.forEach (hn x (List.mem_cons_self ..)) (ha _)
    obtain ⟨ps2, a2, lab2, g1, g2, g3⟩ := FitsAll.forAlt ha (fun y hy => hn y (List.mem_cons_of_mem _ hy)) (h.keep h3.2)
    refine ⟨ps1 ++ ps2, a2, lab2, ?_, ?_, h3.trans g3⟩
    · unfold Path.forAlt
      rw [M.bind_ok h1, M.bind_ok g1]
      rfl
    · rw [List.flatMap_cons]
      exact (h2.keep g3.2).append g2

/-- What the calls of a turn of the parser do with views. -/
def Act.views (e : Enc) (n : Nat) (vs : List View) : Act → List View
  | .none => vs
  | .call c => vs.map (View.call e n · c)
  | .tags alt => alt.flatMap fun x => vs.map (View.call e n · (.tag (some x)))
  | .attributes alt => alt.flatMap fun x => vs.map (View.call e n · (.attribute (some x)))

/-- The calls have names with keys, and do not assign types. -/
def Act.Fine (E : Prop) (e : Enc) (n : Nat) : Act → Prop
  | .none => True
  | .call c => NamesOk E e n c ∧ ∀ ty, c ≠ .assign ty
  | .tags alt => ∀ x ∈ alt, NameOk e n (some x)
  | .attributes alt => ∀ x ∈ alt, NameOk e n (some x)

theorem FitsAll.act {act : Act} (hc : act.Fine E e n) {ps : List PElem} {vs : List View} (h : FitsAll E a lab ps vs) :
    ∃ ps' a' lab', act.run e n ps a = (.ok ps', a') ∧ FitsAll E a' lab' ps' (act.views e n vs) ∧ Same E a lab a' lab' := by
  cases act with
  | none => exact ⟨ps, a, lab, rfl, h, .refl _ _⟩
  | call c => exact h.forEach hc.1 hc.2
  | tags alt => exact FitsAll.forAlt (mk := .tag) (fun _ _ h => nomatch h) hc h
  | attributes alt => exact FitsAll.forAlt (mk := .attribute) (fun _ _ h => nomatch h) hc h

theorem out_eq {p q : PElem} (h : p.bare = q.bare) (ty : Int) : p.out ty = q.out ty := by
  have : ∀ p : PElem, p.out ty = p.bare.out ty := fun _ => rfl
  rw [this p, h, ← this]

theorem FitsAll.assign {e : Enc} {n : Nat} {type : Int} : ∀ {ps : List PElem} {vs : List View} {a : Atm} {lab : List (List Edge)}, FitsAll E a lab ps vs →
    ∃ ps' a' lab', Path.forEach e n (.assign type) ps a = (.ok ps', a') ∧ Keeps E a lab a' lab' ∧
      ∀ ty, ty ≠ 0 → outs a' lab' ty = outs a lab ty ++ if type = ty then vs.map fun v => (v.1, v.2.out type) else []
  | [], [], a, lab, _ => ⟨[], a, lab, rfl, .refl _ _, fun ty _ => by simp⟩
  | p :: ps, v :: vs, a, lab, h => by
    obtain ⟨j, a1, lab1, h1, -, h3, h4⟩ := h.1.1.push_keep type
    obtain ⟨ps2, a2, lab2, g1, g2, g3⟩ := FitsAll.assign (e := e) (n := n) (type := type) (h.2.keep h4)
    refine ⟨{ p with stateidx := j } :: ps2, a2, lab2, ?_, h4.trans g2, fun ty hty => ?_⟩
    · unfold Path.forEach
      rw [M.bind_ok (show PElem.call e n p (.assign type) a = _ from h1), M.bind_ok g1]
      rfl
    · rw [g3 ty hty, h3 ty hty, out_eq h.1.2]
      split <;> simp
  | [], _ :: _, _, _, h => h.elim
  | _ :: _, [], _, _, h => h.elim

/-- The calls of an expression: none of them fails, and the outputs are added. -/
theorem runActs_views {type : Int} {acts : List Act} : ∀ {ps : List PElem} {vs : List View} {a : Atm} {lab : List (List Edge)},
    (∀ x ∈ acts, x.Fine E e n) → FitsAll E a lab ps vs →
    ∃ a' lab', runActs e n type acts ps a = (.ok (), a') ∧ Keeps E a lab a' lab' ∧
      ∀ ty, ty ≠ 0 → outs a' lab' ty =
        outs a lab ty ++ if type = ty then (acts.foldl (Act.views e n) vs).map fun v => (v.1, v.2.out type) else [] := by
  induction acts with
  | nil =>
    intro ps vs a lab _ h
    obtain ⟨ps', a', lab', h1, h2, h3⟩ := h.assign (e := e) (n := n) (type := type)
    refine ⟨a', lab', ?_, h2, h3⟩
    unfold runActs
    rw [M.bind_ok h1]
    rfl
  | cons x acts ih =>
    intro ps vs a lab hx h
    obtain ⟨ps1, a1, lab1, h1, h2, h3⟩ := h.act (hx x (List.mem_cons_self ..))
    obtain ⟨a2, lab2, g1, g2, g3⟩ := ih (fun y hy => hx y (List.mem_cons_of_mem _ hy)) h2
    refine ⟨a2, lab2, ?_, h3.2.trans g2, fun ty hty => ?_⟩
    · unfold runActs
      rw [M.bind_ok h1]
      exact g1
    · rw [g3 ty hty, h3.1 ty hty]
      rfl

/-- The calls of pieces in front of an error: the outputs stay. -/
theorem acts_same {acts : List Act} : ∀ {ps : List PElem} {vs : List View} {a : Atm} {lab : List (List Edge)},
    (∀ x ∈ acts, x.Fine E e n) → FitsAll E a lab ps vs →
    ∃ ps' a' lab', acts.foldlM (fun ps x => x.run e n ps) ps a = (.ok ps', a') ∧ Same E a lab a' lab' := by
  induction acts with
  | nil => intro ps vs a lab _ _; exact ⟨ps, a, lab, rfl, .refl _ _⟩
  | cons x acts ih =>
    intro ps vs a lab hx h
    obtain ⟨ps1, a1, lab1, h1, h2, h3⟩ := h.act (hx x (List.mem_cons_self ..))
    obtain ⟨ps2, a2, lab2, g1, g2⟩ := ih (fun y hy => hx y (List.mem_cons_of_mem _ hy)) h2
    refine ⟨ps2, a2, lab2, ?_, h3.trans g2⟩
    rw [List.foldlM_cons, M.bind_ok h1]
    exact g1

/-- The calls of an expression that does not ask for contents. -/
theorem hush_runActs {type : Int} : ∀ {acts : List Act} {ps : List PElem}, Act.call .content ∉ acts → (∀ p ∈ ps, p.Hushed) →
    Hush (runActs e n type acts ps) fun _ => True := by
  intro acts
  induction acts with
  | nil =>
    intro ps _ hp
    unfold runActs
    exact Hush.bind (hush_forEach (c := .assign type) (fun h => nomatch h) hp) fun _ _ => .pure trivial
  | cons x acts ih =>
    intro ps ha hp
    unfold runActs
    exact (hush_act (fun h => ha (h ▸ List.mem_cons_self ..)) hp).bind fun qs hqs => ih (fun h => ha (List.mem_cons_of_mem _ h)) hqs

/-! ## Alternatives -/

theorem View.calls_append (v : View) (xs ys : List PElem.Call) : v.calls e n (xs ++ ys) = (v.calls e n xs).calls e n ys := by
  simp [View.calls]

/-- Acts of single calls. -/
theorem views_single : ∀ {acts : List Act}, Single acts → ∀ vs : List View,
    acts.foldl (Act.views e n) vs = vs.map (View.calls e n · (actCalls acts)) := by
  intro acts
  induction acts with
  | nil => intro _ vs; simp [View.calls, actCalls]
  | cons x acts ih =>
    intro h vs
    rw [List.foldl_cons, ih fun y hy => h y (List.mem_cons_of_mem _ hy)]
    rcases h x (List.mem_cons_self ..) with rfl | ⟨c, rfl⟩
    · rfl
    · simp [Act.views, actCalls, View.calls]

theorem map_calls_append (vs : List View) (xs ys : List PElem.Call) :
    (vs.map (View.calls e n · xs)).map (View.calls e n · ys) = vs.map (View.calls e n · (xs ++ ys)) := by
  simp [View.calls_append]

theorem map_calls_one (vs : List View) (c : PElem.Call) : vs.map (View.call e n · c) = vs.map (View.calls e n · [c]) := rfl

/-- The names of a place. -/
theorem views_name (name : Option TName) {st : PState} {mk : Option (List Byte) → PElem.Call}
    (hm : ∀ k, (if st = .SelectAttribute then PElem.Call.attribute k else .tag k) = mk k) (vs : List View) :
    (name.toList.map (nameAct e st)).foldl (Act.views e n) vs =
      (optPicks name).flatMap fun nm => vs.map (View.calls e n · (nm.toList.map fun nm => mk (nm.key e))) := by
  cases name with
  | none => simp [optPicks, View.calls]
  | some nm =>
    cases nm with
    | any => simp [optPicks, TName.picks, nameAct, Act.views, View.calls, TName.key, ← hm]
    | one cs => simp [optPicks, TName.picks, nameAct, Act.views, View.calls, TName.key, ← hm]
    | alt l =>
      by_cases hs : st = .SelectAttribute
      · simp [optPicks, TName.picks, nameAct, Act.views, View.calls, TName.key, hs, ← hm, List.flatMap_map]
      · simp [optPicks, TName.picks, nameAct, Act.views, View.calls, TName.key, hs, ← hm, List.flatMap_map]

theorem views_sep (sep : Option Bool) (vs : List View) : (sepActs sep).foldl (Act.views e n) vs = vs.map (View.calls e n · (sepCalls sep)) := by
  rw [views_single (sepActs_calls sep).2, (sepActs_calls sep).1]

theorem views_step (s : TStep) (vs : List View) :
    (stepActs e s).foldl (Act.views e n) vs = s.picks.flatMap fun x => vs.map (View.calls e n · (x.calls e)) := by
  unfold stepActs
  rw [List.foldl_append, List.foldl_append, views_sep, views_name s.name (mk := .tag) (fun _ => rfl)]
  have hc : (s.conds.map fun c => Act.call (c.call e)) = (s.conds.map (TCond.call e)).map .call := by simp [Function.comp_def]
  rw [hc, views_single (by intro a ha; obtain ⟨c, -, rfl⟩ := List.mem_map.1 ha; exact .inr ⟨_, rfl⟩), actCalls_call]
  unfold TStep.picks
  rw [List.map_flatMap, List.flatMap_map]
  congr 1
  funext nm
  rw [map_calls_append, map_calls_append]
  unfold TStep.calls
  simp only [List.append_assoc]

theorem views_end (f : TEnd) (vs : List View) :
    (endActs e f).foldl (Act.views e n) vs = f.picks.flatMap fun x => vs.map (View.calls e n · (x.calls e)) := by
  cases f with
  | nothing => simp [endActs, TEnd.picks, TEnd.calls, View.calls]
  | slash d => simp only [endActs, views_sep]; simp [TEnd.picks, TEnd.calls]
  | content sep =>
    simp only [endActs, List.foldl_append, views_sep]
    simp [TEnd.picks, TEnd.calls, Act.views, View.calls]
  | closeTag => simp [endActs, TEnd.picks, TEnd.calls, View.calls, Act.views]
  | «attribute» sep name =>
    simp only [endActs, List.foldl_append, views_sep]
    rw [views_name name (mk := .attribute) (fun _ => rfl)]
    simp only [TEnd.picks, List.flatMap_map]
    congr 1
    funext nm
    simp only [List.foldl_cons, List.foldl_nil, Act.views, TEnd.calls]
    rw [map_calls_append]

/-- The views of an expression: those of the choices of its alternatives. -/
theorem views_path (p : TPath) (v : View) :
    (pathActs e p).foldl (Act.views e n) [v] = p.picks.map fun q => v.calls e n (q.calls e) := by
  have steps : ∀ (ss : List TStep) (acc : List (List TStep)),
      (ss.flatMap (stepActs e)).foldl (Act.views e n) (acc.map fun l => v.calls e n (l.flatMap (TStep.calls e))) =
        (ss.foldl (fun acc s => s.picks.flatMap fun x => acc.map (· ++ [x])) acc).map fun l => v.calls e n (l.flatMap (TStep.calls e)) := by
    intro ss
    induction ss with
    | nil => intro acc; rfl
    | cons s ss ih =>
      intro acc
      rw [List.flatMap_cons, List.foldl_append, views_step, List.foldl_cons, ← ih]
      congr 1
      rw [List.map_flatMap]
      congr 1
      funext x
      simp [View.calls_append]
  unfold pathActs TPath.picks
  rw [List.foldl_append]
  have := steps p.steps [[]]
  simp only [List.map_cons, List.map_nil, List.flatMap_nil] at this
  rw [show v.calls e n [] = v from rfl] at this
  rw [this, views_end, List.map_flatMap]
  congr 1
  funext f
  simp [View.calls_append, TPath.calls]

/-! ## Queries -/

theorem view_conds (L : List Edge) (q : PElem) (hf : q.follow = false) (cs : List Cond) :
    View.calls e n (L, q) (cs.map fun c => .ifAttribute c.name c.value) = (L ++ (cs.map (keyedCond e n)).flatMap condEdges, q) := by
  induction cs generalizing L with
  | nil => simp [View.calls]
  | cons c cs ih =>
    have : View.call e n (L, q) (.ifAttribute c.name c.value) = (L ++ condEdges (keyedCond e n c), q) := by
      simp only [View.call, View.select, condEdges, keyedCond, hf]
      rw [← hf]
      simp
    rw [List.map_cons, View.calls, List.foldl_cons, this]
    have := ih (L ++ condEdges (keyedCond e n c))
    unfold View.calls at this
    rw [this]
    simp

theorem view_steps (L : List Edge) (ss : List CStep) : View.calls e n (L, {}) (ss.flatMap CStep.calls) = (L ++ (ss.map (keyedStep e n)).flatMap stepEdges, {}) := by
  induction ss generalizing L with
  | nil => simp [View.calls]
  | cons s ss ih =>
    rw [List.flatMap_cons, View.calls_append]
    have : View.calls e n (L, {}) s.calls = (L ++ stepEdges (keyedStep e n s), {}) := by
      unfold CStep.calls
      rw [View.calls_append]
      have : View.calls e n (L, {}) ((if s.desc then [.follow] else []) ++ [.tag s.name]) = (L ++ [edgeOf (keyedStep e n s).toStep], {}) := by
        unfold edgeOf keyedStep
        cases s.desc <;> rfl
      rw [this, view_conds _ _ rfl]
      simp [stepEdges, keyedStep]
    rw [this, ih]
    simp

/-- The view of the calls of a query without the assignment. -/
theorem view_query (x : Query) :
    (View.calls e n ([], {}) (x.steps.flatMap CStep.calls ++ x.final.calls)).1 = labelOf (keyed e n x) ∧
    (View.calls e n ([], {}) (x.steps.flatMap CStep.calls ++ x.final.calls)).2.out x.type = coreOf x := by
  rw [View.calls_append, view_steps]
  unfold labelOf coreOf keyed
  cases hx : x.final with
  | element => exact ⟨by simp [Final.calls, View.calls, keyedFinal], rfl⟩
  | content d => cases d <;> exact ⟨by simp [Final.calls, View.calls, View.call, keyedFinal], rfl⟩
  | «attribute» d name => cases d <;> exact ⟨rfl, rfl⟩
  | closeTag d => cases d <;> exact ⟨rfl, rfl⟩

/-! ## Ranges -/

/-- A path element without its range. -/
def PElem.unranged (p : PElem) : PElem := { p with start := 0, stop := -1 }

/-- The call sets a range. -/
def isRange : PElem.Call → Bool
  | .to _ | .from' _ | .range _ _ | .index _ => true
  | _ => false

theorem doRange_unranged (s t : Int) (p : PElem) : (p.doRange s t).unranged = p.unranged := by
  unfold PElem.doRange
  split
  · rfl
  · split
    · rfl
    · split <;> rfl

theorem view_call_unranged {v v' : View} (h1 : v.1 = v'.1) (h2 : v.2.unranged = v'.2.unranged) (c : PElem.Call) :
    (View.call e n v c).1 = (View.call e n v' c).1 ∧ (View.call e n v c).2.unranged = (View.call e n v' c).2.unranged := by
  obtain ⟨L, i, s, t, f, m⟩ := v
  obtain ⟨L', i', s', t', f', m'⟩ := v'
  simp only [PElem.unranged, PElem.mk.injEq, true_and] at h1 h2
  obtain ⟨rfl, rfl, rfl⟩ := h2
  subst h1
  have hr : ∀ (s t : Int) {p p' : PElem}, p.unranged = p'.unranged → (p.doRange s t).unranged = (p'.doRange s t).unranged :=
    fun s t {p p'} h => (doRange_unranged s t p).trans (h.trans (doRange_unranged s t p').symm)
  cases c with
  | to i => exact ⟨rfl, hr _ _ rfl⟩
  | from' i => exact ⟨rfl, hr _ _ rfl⟩
  | range i j => exact ⟨rfl, hr _ _ rfl⟩
  | index i => exact ⟨rfl, hr _ _ rfl⟩
  | _ => exact ⟨rfl, rfl⟩

/-- Ranges change nothing but the range. -/
theorem view_unranged (cs : List PElem.Call) : ∀ {v v' : View}, v.1 = v'.1 → v.2.unranged = v'.2.unranged →
    (View.calls e n v cs).1 = (View.calls e n v' (cs.filter (!isRange ·))).1 ∧
    (View.calls e n v cs).2.unranged = (View.calls e n v' (cs.filter (!isRange ·))).2.unranged := by
  induction cs with
  | nil => intro v v' h1 h2; exact ⟨h1, h2⟩
  | cons c cs ih =>
    intro v v' h1 h2
    by_cases hc : isRange c = true
    · rw [List.filter_cons_of_neg (by simpa using hc)]
      have : (View.call e n v c).1 = v.1 ∧ (View.call e n v c).2.unranged = v.2.unranged := by
        cases c with
        | to i => exact ⟨rfl, doRange_unranged ..⟩
        | from' i => exact ⟨rfl, doRange_unranged ..⟩
        | range i j => exact ⟨rfl, doRange_unranged ..⟩
        | index i => exact ⟨rfl, doRange_unranged ..⟩
        | _ => cases hc
      exact ih (this.1.trans h1) (this.2.trans h2)
    · rw [List.filter_cons_of_pos (by simpa using hc)]
      obtain ⟨k1, k2⟩ := view_call_unranged (e := e) (n := n) h1 h2 c
      exact ih k1 k2

theorem bareOut_unranged {L : List Edge} {p q : PElem} (h : p.unranged = q.unranged) (type : Int) (hm : q.print = {}) :
    bareOut (L, p.out type) = bareOut (L, q.out type) := by
  obtain ⟨i, s, t, f, m⟩ := p
  obtain ⟨i', s', t', f', m'⟩ := q
  simp only [PElem.unranged, PElem.mk.injEq, true_and] at h
  obtain ⟨rfl, rfl, rfl⟩ := h
  have hm : m = {} := hm
  subst hm
  rfl

end TW.Path
