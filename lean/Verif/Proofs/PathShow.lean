import Verif.Model.PathShow
import Verif.Spec.PathShow

/-!
# The states with their source forms: the same automaton as without, and what the source forms are
-/

namespace TW.Path.SAtm

open TW.Path

/-! ## Without the source forms -/

/-- `x` does on states with source forms what `y` does on plain ones. -/
def Sim {α : Type} (x : M SAtm α) (y : M Atm α) : Prop := ∀ a, y (plain a) = ((x a).1, plain (x a).2)

variable {α β : Type}

theorem Sim.pure (v : α) : Sim (Pure.pure v) (Pure.pure v) := fun _ => rfl

theorem Sim.stop (er : Stop) : Sim (M.stop er : M SAtm α) (M.stop er) := fun _ => rfl

theorem Sim.bind {x : M SAtm α} {y : M Atm α} {f : α → M SAtm β} {g : α → M Atm β} (h : Sim x y) (k : ∀ v, Sim (f v) (g v)) :
    Sim (x >>= f) (y >>= g) := by
  intro a
  have h' := h a
  cases c : x a with
  | mk r b =>
    rw [c] at h'
    cases r with
    | ok v => rw [M.bind_ok h', M.bind_ok c]; exact k v b
    | stop er => rw [M.bind_stop h', M.bind_stop c]

/-- Functions that do not change the states. -/
def Still (y : M Atm α) : Prop := ∀ a, (y a).2 = a

theorem Still.pure (v : α) : Still (Pure.pure v) := fun _ => rfl

theorem Still.stop (er : Stop) : Still (M.stop er : M Atm α) := fun _ => rfl

theorem Still.bind {y : M Atm α} {g : α → M Atm β} (h : Still y) (k : ∀ v, Still (g v)) : Still (y >>= g) := by
  intro a
  have h' := h a
  cases c : y a with
  | mk r b =>
    rw [c] at h'
    cases r with
    | ok v => rw [M.bind_ok c, k v b]; exact h'
    | stop er => rw [M.bind_stop c]; exact h'

theorem Still.stateAt (i : Nat) : Still (Atm.stateAt i) := by
  intro a
  unfold Atm.stateAt
  cases a[i]? <;> rfl

theorem Still.seekStep (mask : Mask) (key : List Byte) (follow : Bool) : ∀ n i, Still (Atm.seekStep mask key follow n i)
  | 0, _ => Still.stop _
  | n + 1, i => Still.bind (Still.stateAt i) fun s => by
    by_cases c : s.key = some key ∧ s.core.follow = follow ∧ mask = s.core.mask
    · rw [if_pos c]
      cases s.next with
      | some j => exact Still.pure _
      | none => exact Still.stop _
    · rw [if_neg c]
      cases s.link with
      | some l => exact Still.seekStep mask key follow n l
      | none => exact Still.pure _

theorem Still.lastLink : ∀ n i, Still (Atm.lastLink n i)
  | 0, _ => Still.stop _
  | n + 1, i => Still.bind (Still.stateAt i) fun s => by
    cases s.link with
    | some l => exact Still.lastLink n l
    | none => exact Still.pure _

theorem Sim.look {y : M Atm α} (h : Still y) : Sim (SAtm.look y) y := by
  intro a
  show y (plain a) = ((y (plain a)).1, plain a)
  conv => lhs; rw [← Prod.eta (y (plain a)), h (plain a)]

theorem plain_length (a : SAtm) : (plain a).length = a.length := List.length_map ..

theorem plain_get (a : SAtm) (i : Nat) : (plain a)[i]? = a[i]?.map SState.st := List.getElem?_map ..

theorem Sim.get {f : SAtm → M SAtm β} {g : Atm → M Atm β} (k : ∀ a, Sim (f a) (g (plain a))) : Sim (M.get >>= f) (M.get >>= g) := fun a => k a a

theorem Sim.change {i : Nat} {g : SState → SState} {g' : State → State} (h : ∀ s, (g s).st = g' s.st) : Sim (SAtm.change i g) (Atm.change i g') := by
  intro a
  unfold SAtm.change Atm.change
  rw [plain_get]
  cases a[i]? with
  | none => rfl
  | some s =>
    show (Res.ok (), (plain a).set i (g' s.st)) = (Res.ok (), plain (a.set i (g s)))
    unfold plain
    rw [List.map_set, h]

theorem Sim.push {s : SState} {t : State} (h : s.st = t) : Sim (SAtm.push s) (Atm.push t) := by
  intro a
  show (Res.ok (), plain a ++ [t]) = (Res.ok (), plain (a ++ [s]))
  unfold plain
  rw [List.map_append, List.map_singleton, h]

theorem Sim.root (i : Nat) (a : SAtm) {f : Nat → M SAtm α} {g : Nat → M Atm α} (k : ∀ j, Sim (f j) (g j)) :
    Sim (if a.length = 0 then (SAtm.push {} >>= fun _ => Pure.pure 0 >>= f) else (Pure.pure i >>= f))
      (if (plain a).length = 0 then (Atm.push {} >>= fun _ => Pure.pure 0 >>= g) else (Pure.pure i >>= g)) := by
  rw [plain_length]
  by_cases c : a.length = 0
  · rw [if_pos c, if_pos c]
    exact Sim.bind (Sim.push rfl) fun _ => Sim.bind (Sim.pure _) k
  · rw [if_neg c, if_neg c]
    exact Sim.bind (Sim.pure _) k

theorem Sim.freeState (i : Nat) : Sim (SAtm.freeState i) (Atm.freeState i) := by
  unfold SAtm.freeState Atm.freeState
  refine Sim.bind (Sim.look (Still.stateAt i)) fun s => ?_
  cases s.isempty with
  | true => exact Sim.pure _
  | false =>
    refine Sim.get fun a => ?_
    rw [plain_length]
    refine Sim.bind (Sim.look (Still.lastLink _ _)) fun l => ?_
    exact Sim.bind (Sim.change fun s => rfl) fun _ => Sim.bind (Sim.push rfl) fun _ => Sim.pure _

theorem Sim.defineNext (i : Nat) (op : Op) (key name : Option (List Byte)) (follow : Bool) :
    Sim (SAtm.defineNext i op key name follow) (Atm.defineNext i op key follow) := by
  unfold SAtm.defineNext Atm.defineNext
  refine Sim.get fun a => ?_
  dsimp only
  refine Sim.root i a fun j => Sim.get fun b => ?_
  rw [plain_length]
  refine Sim.bind (Sim.look (Still.seekStep _ _ _ _ _)) fun r => ?_
  obtain ⟨found, last⟩ := r
  cases found with
  | some j => exact Sim.pure _
  | none =>
    refine Sim.bind (Sim.freeState _) fun l => Sim.bind (Sim.push rfl) fun _ => Sim.get fun c => ?_
    rw [plain_length]
    exact Sim.bind (Sim.change fun s => rfl) fun _ => Sim.pure _

theorem Sim.defineOutput (i : Nat) (mask : Mask) (type : Int) (follow : Bool) (start stop : Int) :
    Sim (SAtm.defineOutput i mask type follow start stop) (Atm.defineOutput i mask type follow start stop) := by
  unfold SAtm.defineOutput Atm.defineOutput
  refine Sim.get fun a => ?_
  dsimp only
  refine Sim.root i a fun j => Sim.get fun b => ?_
  rw [plain_length]
  by_cases c : b.length ≤ j
  · rw [if_pos c, if_pos c]
    exact Sim.stop _
  · rw [if_neg c, if_neg c]
    exact Sim.bind (Sim.freeState _) fun l => Sim.bind (Sim.change fun s => rfl) fun _ => Sim.pure _

theorem Sim.doSelect (e : Enc) (n : Nat) (op : Op) (name : Option (List Byte)) (p : PElem) :
    Sim (SAtm.doSelect e n op name p) (PElem.doSelect e n op name p) := by
  unfold SAtm.doSelect PElem.doSelect
  cases name with
  | none => exact Sim.bind (Sim.defineNext _ _ _ _ _) fun _ => Sim.pure _
  | some nm =>
    show Sim (match nameKey e n nm with | .ok key => _ | .stop er => _) (match nameKey e n nm with | .ok key => _ | .stop er => _)
    cases nameKey e n nm with
    | ok key => exact Sim.bind (Sim.defineNext _ _ _ _ _) fun _ => Sim.pure _
    | stop er => exact Sim.stop _

theorem Sim.call (e : Enc) (n : Nat) (p : PElem) (c : PElem.Call) : Sim (SAtm.call e n p c) (PElem.call e n p c) := by
  cases c with
  | follow => exact Sim.pure _
  | tag name => exact Sim.doSelect _ _ _ _ _
  | closeTag => exact Sim.doSelect e n .CloseTag none p
  | «attribute» name => exact Sim.bind (Sim.doSelect _ _ _ _ _) fun _ => Sim.pure _
  | ifAttribute name value => exact Sim.bind (Sim.doSelect _ _ _ _ _) fun _ => Sim.doSelect _ _ _ _ _
  | content => exact Sim.pure _
  | to i => exact Sim.pure _
  | from' i => exact Sim.pure _
  | range i j => exact Sim.pure _
  | index i => exact Sim.pure _
  | assign type => exact Sim.bind (Sim.defineOutput _ _ _ _ _ _) fun _ => Sim.pure _

theorem Sim.forEach (e : Enc) (n : Nat) (c : PElem.Call) : ∀ ps, Sim (SAtm.forEach e n c ps) (Path.forEach e n c ps)
  | [] => Sim.pure _
  | p :: ps => Sim.bind (Sim.call e n p c) fun _ => Sim.bind (Sim.forEach e n c ps) fun _ => Sim.pure _

theorem Sim.forAlt (e : Enc) (n : Nat) (mk : Option (List Byte) → PElem.Call) (ps : List PElem) :
    ∀ alt, Sim (SAtm.forAlt e n mk ps alt) (Path.forAlt e n mk ps alt)
  | [] => Sim.pure _
  | a :: alt => Sim.bind (Sim.forEach e n (mk (some a)) ps) fun _ => Sim.bind (Sim.forAlt e n mk ps alt) fun _ => Sim.pure _

theorem Sim.act (e : Enc) (n : Nat) (ps : List PElem) (x : Act) : Sim (SAtm.act e n ps x) (Act.run e n ps x) := by
  cases x with
  | none => exact Sim.pure _
  | call c => exact Sim.forEach _ _ _ _
  | tags alt => exact Sim.forAlt _ _ _ _ _
  | attributes alt => exact Sim.forAlt _ _ _ _ _

theorem loop_plain (e : Enc) (n : Nat) (type : Int) : ∀ (m : Nat) (t : Parse.Src) (st : PState) (ps : List PElem) (a : SAtm),
    (Parser.loop e n type m st ps { src := t, atm := plain a }).1 = (SAtm.loop e n type m t st ps a).1 ∧
    (Parser.loop e n type m st ps { src := t, atm := plain a }).2.atm = plain (SAtm.loop e n type m t st ps a).2
  | 0, _, _, _, _ => ⟨rfl, rfl⟩
  | m + 1, t, st, ps, a => by
    unfold Parser.loop SAtm.loop
    cases hc : TextScanner.chr t with
    | mk r t1 =>
      have k1 : (Parser.onSrc TextScanner.chr : M Parser UChar) { src := t, atm := plain a } = (r, { src := t1, atm := plain a }) := by
        simp only [Parser.onSrc, M.zoom, hc]
      cases r with
      | stop er => rw [M.bind_stop k1]; exact ⟨rfl, rfl⟩
      | ok c =>
        rw [M.bind_ok k1]
        by_cases h0 : c = 0
        · simp only [if_pos h0]
          have hs := Sim.forEach e n (.assign type) ps a
          cases hf : SAtm.forEach e n (.assign type) ps a with
          | mk r b =>
            rw [hf] at hs
            have k2 : (Parser.onAtm (Path.forEach e n (.assign type) ps)) { src := t1, atm := plain a } = (r, { src := t1, atm := plain b }) := by
              simp only [Parser.onAtm, M.zoom, hs]
            cases r with
            | stop er => rw [M.bind_stop k2, M.bind_stop hf]; exact ⟨rfl, rfl⟩
            | ok v => rw [M.bind_ok k2, M.bind_ok hf]; exact ⟨rfl, rfl⟩
        · simp only [if_neg h0]
          cases ht : Parse.turn e n st c t1 with
          | mk r t2 =>
            have k2 : (Parser.onSrc (Parse.turn e n st c)) { src := t1, atm := plain a } = (r, { src := t2, atm := plain a }) := by
              simp only [Parser.onSrc, M.zoom, ht]
            cases r with
            | stop er => rw [M.bind_stop k2]; exact ⟨rfl, rfl⟩
            | ok v =>
              rw [M.bind_ok k2]
              cases v with
              | none => exact ⟨rfl, rfl⟩
              | some xs =>
                obtain ⟨x, st1⟩ := xs
                have hs := Sim.act e n ps x a
                show ((Parser.onAtm (x.run e n ps) >>= fun ps => (Parser.onSrc (Parse.skipSpaces n) >>= fun _ => Parser.loop e n type m st1 ps)) _).1 =
                  ((SAtm.act e n ps x >>= fun ps => (match Parse.skipSpaces n t2 with | (.stop er, _) => M.stop er | (.ok (), t) => SAtm.loop e n type m t st1 ps)) a).1 ∧
                  ((Parser.onAtm (x.run e n ps) >>= fun ps => (Parser.onSrc (Parse.skipSpaces n) >>= fun _ => Parser.loop e n type m st1 ps)) _).2.atm =
                  plain ((SAtm.act e n ps x >>= fun ps => (match Parse.skipSpaces n t2 with | (.stop er, _) => M.stop er | (.ok (), t) => SAtm.loop e n type m t st1 ps)) a).2
                cases hf : SAtm.act e n ps x a with
                | mk r b =>
                  rw [hf] at hs
                  have k3 : (Parser.onAtm (x.run e n ps)) { src := t2, atm := plain a } = (r, { src := t2, atm := plain b }) := by
                    simp only [Parser.onAtm, M.zoom, hs]
                  cases r with
                  | stop er => rw [M.bind_stop k3, M.bind_stop hf]; exact ⟨rfl, rfl⟩
                  | ok ps1 =>
                    rw [M.bind_ok k3, M.bind_ok hf]
                    cases hk : Parse.skipSpaces n t2 with
                    | mk r t3 =>
                      have k4 : (Parser.onSrc (Parse.skipSpaces n)) { src := t2, atm := plain b } = (r, { src := t3, atm := plain b }) := by
                        simp only [Parser.onSrc, M.zoom, hk]
                      cases r with
                      | stop er => rw [M.bind_stop k4]; exact ⟨rfl, rfl⟩
                      | ok u =>
                        rw [M.bind_ok k4]
                        exact loop_plain e n type m t3 st1 ps1 b

theorem Sim.addExpression (se e : Enc) (n : Nat) (type : Int) (esrc : List Byte) :
    Sim (SAtm.addExpression se e n type esrc) (Path.addExpression se e n type esrc) := by
  intro a
  unfold SAtm.addExpression Path.addExpression
  cases nsPos esrc 0 with
  | some i => rfl
  | none =>
    obtain ⟨h1, h2⟩ := loop_plain e n type n (TextScanner.mk' se (CStr.mk' esrc)) .SelectStart [{}] a
    exact Prod.ext h1 h2

/-! ## What the states are -/

/-- The masks the calls make. -/
def Made (m : Mask) : Prop := m = {} ∨ ∃ op, m = ({} : Mask).seekop op

/-- A state: its mask is that of an operation, its source form the name its key comes from. -/
structure Ok (e : Enc) (s : SState) : Prop where
  link : s.st.link ≠ some 0
  mask : Made s.st.core.mask
  src : (s.st.key = none ∧ s.src = none) ∨ ∃ n nm k, nameKey e n nm = .ok k ∧ s.st.key = some k ∧ s.src = some (cstring nm)

/-- All states. -/
def Oks (e : Enc) (a : SAtm) : Prop := ∀ s ∈ a, Ok e s

/-- A function keeps it, its results have a property that may depend on the states. -/
def Keeps (e : Enc) (x : M SAtm α) (post : α → SAtm → Prop) : Prop :=
  ∀ a, Oks e a → Oks e (x a).2 ∧ ∀ v, (x a).1 = .ok v → post v (x a).2

variable {e : Enc}

theorem Ok.new : Ok e {} := ⟨by decide, .inl rfl, .inl ⟨rfl, rfl⟩⟩

theorem Oks.push {a : SAtm} (h : Oks e a) {s : SState} (k : Ok e s) : Oks e (a ++ [s]) := by
  intro t ht
  rcases List.mem_append.1 ht with c | c
  · exact h t c
  · rw [List.mem_singleton.1 c]; exact k

theorem Oks.set {a : SAtm} (h : Oks e a) {i : Nat} {s : SState} (k : Ok e s) : Oks e (a.set i s) := by
  intro t ht
  rcases List.mem_or_eq_of_mem_set ht with c | c
  · exact h t c
  · rw [c]; exact k

theorem not_isempty {s : SState} (h : Ok e s) : s.st.isempty = false := by
  unfold State.isempty
  cases hl : s.st.link with
  | none => simp
  | some k =>
    have : k ≠ 0 := fun c => h.link (by rw [hl, c])
    simp [this]

theorem freeState_ok (i : Nat) : Keeps e (SAtm.freeState i) (fun j b => b[j]? = some {}) := by
  intro a h
  unfold SAtm.freeState
  cases hi : a[i]? with
  | none =>
    have k : (look (Atm.stateAt i) : M SAtm State) a = (.stop .ub, a) := by
      simp only [look, Atm.stateAt, plain_get, hi, Option.map_none]
    rw [M.bind_stop k]
    exact ⟨h, nofun⟩
  | some s =>
    have k : (look (Atm.stateAt i) : M SAtm State) a = (.ok s.st, a) := by
      simp only [look, Atm.stateAt, plain_get, hi, Option.map_some]
    rw [M.bind_ok k, not_isempty (h s (List.mem_of_getElem? hi))]
    simp only [Bool.not_false, if_true]
    rw [M.bind_ok (M.get_run a)]
    cases hl : look (Atm.lastLink (a.length + 1) i) a with
    | mk r b =>
      have hb : b = a := by
        have := congrArg Prod.snd hl
        exact this.symm
      subst hb
      cases r with
      | stop er => rw [M.bind_stop hl]; exact ⟨h, nofun⟩
      | ok l =>
        rw [M.bind_ok hl]
        cases hc : b[l]? with
        | none =>
          have k2 : (change l fun s => { s with st := { s.st with link := some b.length } }) b = (.stop .ub, b) := by
            simp only [change, hc]
          rw [M.bind_stop k2]
          exact ⟨h, nofun⟩
        | some t =>
          have k2 : (change l fun s => { s with st := { s.st with link := some b.length } }) b =
              (.ok (), b.set l { t with st := { t.st with link := some b.length } }) := by
            simp only [change, hc]
          rw [M.bind_ok k2]
          have ht := h t (List.mem_of_getElem? hc)
          have hlen : b.length ≠ 0 := by
            intro c
            rw [List.length_eq_zero_iff.1 c] at hc
            cases hc
          have ho : Oks e (b.set l { t with st := { t.st with link := some b.length } }) :=
            h.set ⟨fun c => hlen (Option.some.inj c), ht.mask, ht.src⟩
          refine ⟨ho.push Ok.new, fun v hv => ?_⟩
          cases hv
          show (b.set l _ ++ [({} : SState)])[b.length]? = some ({} : SState)
          rw [List.getElem?_append_right (by rw [List.length_set]; exact Nat.le_refl _), List.length_set, Nat.sub_self]
          rfl

theorem root_ok {a : SAtm} (h : Oks e a) (i : Nat) (f : Nat → M SAtm α) :
    ∃ j b, (if a.length = 0 then (SAtm.push {} >>= fun _ => Pure.pure 0 >>= f) else (Pure.pure i >>= f)) a = f j b ∧ Oks e b := by
  by_cases c : a.length = 0
  · rw [if_pos c]
    exact ⟨0, a ++ [{}], rfl, h.push Ok.new⟩
  · rw [if_neg c]
    exact ⟨i, a, rfl, h⟩

theorem defineNext_ok (i : Nat) (op : Op) (key name : Option (List Byte)) (follow : Bool)
    (hk : (key = none ∧ name = none) ∨ ∃ n nm k, nameKey e n nm = .ok k ∧ key = some k ∧ name = some nm) :
    Keeps e (SAtm.defineNext i op key name follow) (fun _ _ => True) := by
  intro a h
  unfold SAtm.defineNext
  rw [M.bind_ok (M.get_run a)]
  dsimp only
  obtain ⟨j, b, h1, hb⟩ := root_ok h i _
  rw [h1, M.bind_ok (M.get_run b)]
  cases hs : look (Atm.seekStep (({} : Mask).seekop op) (key.getD []) follow (b.length + 1) j) b with
  | mk r b' =>
    have hb' : b' = b := (congrArg Prod.snd hs).symm
    subst hb'
    cases r with
    | stop er => rw [M.bind_stop hs]; exact ⟨hb, fun _ _ => trivial⟩
    | ok fl =>
      rw [M.bind_ok hs]
      obtain ⟨found, last⟩ := fl
      cases found with
      | some j => exact ⟨hb, fun _ _ => trivial⟩
      | none =>
        obtain ⟨f1, f2⟩ := freeState_ok (e := e) last b' hb
        simp only
        cases hf : SAtm.freeState last b' with
        | mk r c =>
          rw [hf] at f1 f2
          cases r with
          | stop er => rw [M.bind_stop hf]; exact ⟨f1, fun _ _ => trivial⟩
          | ok l =>
            rw [M.bind_ok hf]
            have hl := f2 l rfl
            simp only at hl f1
            have hp : SAtm.push {} c = (.ok (), c ++ [({} : SState)]) := rfl
            rw [M.bind_ok hp, M.bind_ok (M.get_run _)]
            have hl' : (c ++ [({} : SState)])[l]? = some {} := by
              rw [List.getElem?_append_left (List.getElem?_eq_some_iff.1 hl).1]
              exact hl
            have hch : ∀ g : SState → SState, change l g (c ++ [({} : SState)]) = (.ok (), (c ++ [({} : SState)]).set l (g {})) := by
              intro g
              simp only [change, hl']
            rw [M.bind_ok (hch _)]
            refine ⟨(f1.push Ok.new).set ⟨nofun, .inr ⟨op, rfl⟩, ?_⟩, fun _ _ => trivial⟩
            rcases hk with ⟨h1, h2⟩ | ⟨n, nm, k, h1, h2, h3⟩
            · exact .inl ⟨h1, by rw [h2]; rfl⟩
            · exact .inr ⟨n, nm, k, h1, h2, by rw [h3]; rfl⟩

theorem defineOutput_ok (i : Nat) (mask : Mask) (type : Int) (follow : Bool) (start stop : Int) (hm : Made mask) :
    Keeps e (SAtm.defineOutput i mask type follow start stop) (fun _ _ => True) := by
  intro a h
  unfold SAtm.defineOutput
  rw [M.bind_ok (M.get_run a)]
  dsimp only
  obtain ⟨j, b, h1, hb⟩ := root_ok h i _
  rw [h1, M.bind_ok (M.get_run b)]
  by_cases c : b.length ≤ j
  · rw [if_pos c]
    exact ⟨hb, fun _ _ => trivial⟩
  · rw [if_neg c]
    obtain ⟨f1, f2⟩ := freeState_ok (e := e) j b hb
    cases hf : SAtm.freeState j b with
    | mk r c =>
      rw [hf] at f1 f2
      cases r with
      | stop er => rw [M.bind_stop hf]; exact ⟨f1, fun _ _ => trivial⟩
      | ok l =>
        rw [M.bind_ok hf]
        have hl := f2 l rfl
        simp only at hl f1
        have hch : ∀ g : SState → SState, change l g c = (.ok (), c.set l (g {})) := by
          intro g
          simp only [change, hl]
        rw [M.bind_ok (hch _)]
        exact ⟨f1.set ⟨nofun, hm, .inl ⟨rfl, rfl⟩⟩, fun _ _ => trivial⟩

theorem Keeps.bind {x : M SAtm α} {f : α → M SAtm β} {P : α → Prop} {Q : β → Prop} (h : Keeps e x fun v _ => P v)
    (k : ∀ v, P v → Keeps e (f v) fun w _ => Q w) : Keeps e (x >>= f) fun w _ => Q w := by
  intro a ha
  obtain ⟨h1, h2⟩ := h a ha
  cases c : x a with
  | mk r b =>
    rw [c] at h1 h2
    cases r with
    | ok v => rw [M.bind_ok c]; exact k v (h2 v rfl) b h1
    | stop er => rw [M.bind_stop c]; exact ⟨h1, nofun⟩

theorem Keeps.pure {v : α} {P : α → Prop} (h : P v) : Keeps e (Pure.pure v) fun w _ => P w :=
  fun _ ha => ⟨ha, fun _ c => by cases c; exact h⟩

theorem Keeps.stop {er : Stop} {P : α → Prop} : Keeps e (M.stop er : M SAtm α) fun w _ => P w := fun _ ha => ⟨ha, nofun⟩

/-- The mask a path element prints with. -/
def Pe (p : PElem) : Prop := Made p.print

theorem doSelect_ok (n : Nat) (op : Op) (name : Option (List Byte)) {p : PElem} (hp : Pe p) : Keeps e (SAtm.doSelect e n op name p) fun q _ => Pe q := by
  unfold SAtm.doSelect
  cases name with
  | none => exact Keeps.bind (P := fun _ => True) (defineNext_ok _ _ _ _ _ (.inl ⟨rfl, rfl⟩)) fun v _ => Keeps.pure hp
  | some nm =>
    show Keeps e (match nameKey e n nm with | .ok key => _ | .stop er => _) _
    cases hk : nameKey e n nm with
    | ok key => exact Keeps.bind (P := fun _ => True) (defineNext_ok _ _ _ _ _ (.inr ⟨n, nm, key, hk, rfl, rfl⟩)) fun v _ => Keeps.pure hp
    | stop er => exact Keeps.stop

theorem doRange_print (s t : Int) (p : PElem) : (p.doRange s t).print = p.print := by
  unfold PElem.doRange
  split
  · rfl
  · split
    · rfl
    · split <;> rfl

theorem call_ok (n : Nat) {p : PElem} (hp : Pe p) (c : PElem.Call) : Keeps e (SAtm.call e n p c) fun q _ => Pe q := by
  cases c with
  | follow => exact Keeps.pure hp
  | tag name => exact doSelect_ok n _ _ hp
  | closeTag => exact doSelect_ok n _ _ hp
  | «attribute» name => exact Keeps.bind (doSelect_ok n _ _ hp) fun v _ => Keeps.pure (.inr ⟨.ThisAttributeValue, rfl⟩)
  | ifAttribute name value => exact Keeps.bind (doSelect_ok n _ _ hp) fun v hv => doSelect_ok n _ _ hv
  | content => exact Keeps.pure (.inr ⟨.Content, rfl⟩)
  | to i => exact Keeps.pure (P := Pe) (by unfold Pe PElem.to PElem.doCount; rw [doRange_print]; exact hp)
  | from' i => exact Keeps.pure (P := Pe) (by unfold Pe PElem.from' PElem.doStart; rw [doRange_print]; exact hp)
  | range i j => exact Keeps.pure (P := Pe) (by unfold Pe PElem.range; rw [doRange_print]; exact hp)
  | index i => exact Keeps.pure (P := Pe) (by unfold Pe PElem.index; rw [doRange_print]; exact hp)
  | assign type => exact Keeps.bind (P := fun _ => True) (defineOutput_ok _ _ _ _ _ _ hp) fun v _ => Keeps.pure hp

theorem forEach_ok (n : Nat) (c : PElem.Call) : ∀ {ps : List PElem}, (∀ p ∈ ps, Pe p) → Keeps e (SAtm.forEach e n c ps) fun qs _ => ∀ q ∈ qs, Pe q
  | [], _ => Keeps.pure nofun
  | p :: ps, h => Keeps.bind (call_ok n (h p (List.mem_cons_self ..)) c) fun q hq =>
      Keeps.bind (forEach_ok n c fun p' hp' => h p' (List.mem_cons_of_mem _ hp')) fun qs hqs => Keeps.pure (by
        intro q' hq'
        rcases List.mem_cons.1 hq' with c | c
        · rw [c]; exact hq
        · exact hqs q' c)

theorem forAlt_ok (n : Nat) (mk : Option (List Byte) → PElem.Call) {ps : List PElem} (h : ∀ p ∈ ps, Pe p) :
    ∀ alt, Keeps e (SAtm.forAlt e n mk ps alt) fun qs _ => ∀ q ∈ qs, Pe q
  | [] => Keeps.pure nofun
  | a :: alt => Keeps.bind (forEach_ok n _ h) fun qs hqs => Keeps.bind (forAlt_ok n mk h alt) fun rs hrs => Keeps.pure (by
      intro q hq
      rcases List.mem_append.1 hq with c | c
      · exact hqs q c
      · exact hrs q c)

theorem act_ok (n : Nat) {ps : List PElem} (h : ∀ p ∈ ps, Pe p) (x : Act) : Keeps e (SAtm.act e n ps x) fun qs _ => ∀ q ∈ qs, Pe q := by
  cases x with
  | none => exact Keeps.pure h
  | call c => exact forEach_ok n c h
  | tags alt => exact forAlt_ok n _ h alt
  | attributes alt => exact forAlt_ok n _ h alt

theorem loop_ok (n : Nat) (type : Int) : ∀ (m : Nat) (t : Parse.Src) (st : PState) {ps : List PElem}, (∀ p ∈ ps, Pe p) →
    Keeps e (SAtm.loop e n type m t st ps) fun _ _ => True
  | 0, _, _, _, _ => Keeps.stop
  | m + 1, t, st, ps, h => by
    unfold SAtm.loop
    cases hc : TextScanner.chr t with
    | mk r t1 =>
      cases r with
      | stop er => exact Keeps.stop
      | ok c =>
        simp only
        by_cases h0 : c = 0
        · simp only [if_pos h0]
          exact Keeps.bind (forEach_ok n _ h) fun _ _ => Keeps.pure trivial
        · simp only [if_neg h0]
          cases ht : Parse.turn e n st c t1 with
          | mk r t2 =>
            cases r with
            | stop er => exact Keeps.stop
            | ok v =>
              cases v with
              | none => exact Keeps.pure trivial
              | some xs =>
                refine Keeps.bind (act_ok n h xs.1) fun qs hqs => ?_
                cases hk : Parse.skipSpaces n t2 with
                | mk r t3 =>
                  cases r with
                  | stop er => exact Keeps.stop
                  | ok u => exact loop_ok n type m t3 _ hqs

theorem addExpression_ok (se : Enc) (n : Nat) (type : Int) (esrc : List Byte) : Keeps e (SAtm.addExpression se e n type esrc) fun _ _ => True := by
  unfold SAtm.addExpression
  cases nsPos esrc 0 with
  | some i => exact Keeps.pure trivial
  | none =>
    refine loop_ok n type n _ _ fun p hp => ?_
    rw [List.mem_singleton.1 hp]
    exact .inl rfl

end TW.Path.SAtm
